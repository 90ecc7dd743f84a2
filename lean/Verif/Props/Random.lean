import Verif.Props.Find
/-!
# C61: random operators
-/

namespace Pip
variable {X : Ext}

/-! ### Specifications -/

/-- The random source gives `k` when asked for a number below `n`, and is in state `r'` afterwards. -/
def Gives (X : Ext) (r : X.Rng) (n k : Nat) (r' : X.Rng) : Prop := (X.below n r).1 % n = k ∧ (X.below n r).2 = r'

/-- The random source gives the numbers `k` of the pairs `(n, k)` when asked for numbers below `n`, one after the other. -/
inductive Yields (X : Ext) : X.Rng → List (Nat × Nat) → X.Rng → Prop
  | nil {r : X.Rng} : Yields X r [] r
  | cons {r r' r'' : X.Rng} {n k : Nat} {l : List (Nat × Nat)} : Gives X r n k r' → Yields X r' l r'' → Yields X r ((n, k) :: l) r''

/-! ### The shuffle -/

theorem swapAt_perm {α : Type} (l : List α) (i j : Nat) : (swapAt l i j).Perm l := by
  unfold swapAt
  split
  · rename_i a b ha hb
    obtain ⟨hi, rfl⟩ := List.getElem?_eq_some_iff.1 ha
    obtain ⟨hj, rfl⟩ := List.getElem?_eq_some_iff.1 hb
    exact List.set_set_perm hi hj
  · exact .refl _

theorem shuffle_perm {α : Type} : ∀ (i : Nat) (l : List α) (s : St X),
    ∃ l' r, shuffle i l s = (.ok l', { s with rng := r }) ∧ l'.Perm l
  | 0, l, s => ⟨l, s.rng, rfl, .refl _⟩
  | i + 1, l, s => by
    obtain ⟨l', r, h1, h2⟩ := shuffle_perm i (swapAt l (i + 1) ((X.below (i + 2) s.rng).1 % (i + 2)))
      { s with rng := (X.below (i + 2) s.rng).2 }
    exact ⟨l', r, h1, h2.trans (swapAt_perm ..)⟩

/-- Every arrangement is possible: `i + 1` items in front can be arranged in any way. -/
theorem shuffle_all {α : Type} : ∀ (i : Nat) (l l' : List α), i < l.length → (l'.take (i + 1)).Perm (l.take (i + 1)) →
      l'.drop (i + 1) = l.drop (i + 1) →
      ∃ ks : List (Nat × Nat), (∀ p ∈ ks, p.2 < p.1) ∧
        ∀ (s : St X) (r : X.Rng), Yields X s.rng ks r → shuffle i l s = (.ok l', { s with rng := r })
  | 0, l, l', hi, hp, hd => by
    refine ⟨[], by simp, ?_⟩
    rintro s r ⟨⟩
    have hl : l' = l := by
      have h0 := hp.length_eq
      cases l with
      | nil => simp at hi
      | cons x l =>
        cases l' with
        | nil => simp at h0
        | cons y l' =>
          simp only [Nat.zero_add, List.take_succ_cons, List.take_zero, List.singleton_perm_singleton, List.drop_succ_cons,
            List.drop_zero] at hp hd
          rw [hp, hd]
    rw [hl]
    rfl
  | i + 1, l, l', hi, hp, hd => by
    have hlen : l'.length = l.length := by
      have h1 := hp.length_eq
      have h2 := congrArg List.length hd
      simp only [List.length_take, List.length_drop] at h1 h2
      omega
    -- the item that belongs at position `i + 1`
    have hm : l'[i + 1] ∈ l.take (i + 2) := hp.mem_iff.1 (by
      rw [List.mem_take_iff_getElem]
      exact ⟨i + 1, by omega, rfl⟩)
    rw [List.mem_take_iff_getElem] at hm
    obtain ⟨j, hj, e⟩ := hm
    have hj' : j < l.length := by omega
    have hsw : swapAt l (i + 1) j = (l.set (i + 1) l[j]).set j l[i + 1] := by
      simp only [swapAt, List.getElem?_eq_getElem hi, List.getElem?_eq_getElem hj']
    have hslen : (swapAt l (i + 1) j).length = l.length := by rw [hsw, List.length_set, List.length_set]
    have hat : (swapAt l (i + 1) j)[i + 1]? = l'[i + 1]? := by
      rw [List.getElem?_eq_getElem (by omega : i + 1 < l'.length), ← e, hsw]
      by_cases hji : j = i + 1
      · subst hji
        simp
      · rw [List.getElem?_set_ne (by omega)]
        simp [hi]
    have hrest : ∀ k, i + 1 < k → (swapAt l (i + 1) j)[k]? = l[k]? := by
      intro k hk
      rw [hsw, List.getElem?_set_ne (by omega), List.getElem?_set_ne (by omega)]
    have hdrop2 : (swapAt l (i + 1) j).drop (i + 2) = l.drop (i + 2) := by
      apply List.ext_getElem?
      intro k
      rw [List.getElem?_drop, List.getElem?_drop, hrest _ (by omega)]
    have hdrop : l'.drop (i + 1) = (swapAt l (i + 1) j).drop (i + 1) := by
      apply List.ext_getElem?
      intro k
      rw [List.getElem?_drop, List.getElem?_drop]
      cases k with
      | zero => exact hat.symm
      | succ k =>
        have := congrArg (fun m => m[k]?) (hd.trans hdrop2.symm)
        simp only [List.getElem?_drop] at this
        rw [show i + 1 + (k + 1) = i + 1 + 1 + k by omega]
        exact this
    have hpl : l'.Perm (swapAt l (i + 1) j) := by
      have h1 : l'.Perm l := by
        have := hp.append (List.Perm.of_eq hd)
        rwa [List.take_append_drop, List.take_append_drop] at this
      exact h1.trans (swapAt_perm ..).symm
    have hperm : (l'.take (i + 1)).Perm ((swapAt l (i + 1) j).take (i + 1)) := by
      rw [← List.take_append_drop (i + 1) l', ← List.take_append_drop (i + 1) (swapAt l (i + 1) j), hdrop] at hpl
      exact (List.perm_append_right_iff _).1 hpl
    obtain ⟨ks, h1, h2⟩ := shuffle_all i (swapAt l (i + 1) j) l' (by omega) hperm hdrop
    refine ⟨(i + 2, j) :: ks, ?_, ?_⟩
    · intro p hp
      rcases List.mem_cons.1 hp with rfl | hp
      · show j < i + 2
        omega
      · exact h1 p hp
    · rintro s r (⟨⟩ | ⟨⟨hg1, hg2⟩, hy⟩)
      have := h2 { s with rng := (X.below (i + 2) s.rng).2 } r (by rw [hg2]; exact hy)
      show shuffle i (swapAt l (i + 1) ((X.below (i + 2) s.rng).1 % (i + 2))) { s with rng := (X.below (i + 2) s.rng).2 } = _
      rw [hg1]
      exact this

/-! ### C61 -/

theorem randOps : (op1 (s% "SH")).Whole ∧ (op1 (s% "RC")).Whole ∧ (op1 (s% "SH")).fn = .SHUFFLE ∧ (op1 (s% "RC")).fn = .RANDCHOICE := by
  decide +kernel

theorem pyList_items {v : Val} {l : List Val} (hi : v.isIterable = true) (hl : v.items = .ok l) : v.pyList = .ok l := by
  cases v with
  | range lo up =>
    cases up with
    | none => cases hl
    | some h => exact hl
  | scalar t => exact hl
  | list t => exact hl
  | _ => cases hi

/-- `SH` of a List or finite Range: a permutation, for every random source; only the random source changes. -/
theorem C61_shuffle (a : Tree) (s s1 : St X) (v : Val) (l : List Val) (ha : a.notOpr = true) (hv : Vals a s (.ok v, s1))
    (hi : v.isListy = true) (hl : v.items = .ok l) :
    ∃ l' r, (∀ out, Evals (.node (op1 (s% "SH")) [a]) s out ↔ out = (.ok (.v (.list l')), { s1 with rng := r })) ∧ l'.Perm l := by
  obtain ⟨h1, _, h2, _⟩ := randOps
  obtain ⟨l', r, h3, h4⟩ := shuffle_perm (l.length - 1) l s1
  have hit : v.isIterable = true := by cases v <;> simp_all [Val.isListy, Val.isList, Val.isRange, Val.isIterable]
  refine ⟨l', r, h1.result (by simp [ha]) (mapEach_single hv) ?_ (r := (.ok (.v (.list l')), { s1 with rng := r })) ok_ne_fuel fun R => ?_, h4⟩
  · cases v <;> simp_all [Val.isListy, Val.isList, Val.isRange, Val.isBlock]
  · rw [h2]
    show opSHUFFLE v s1 = _
    unfold opSHUFFLE
    rw [if_pos hit, pyList_items hit hl]
    show (shuffle (l.length - 1) l >>= _) s1 = _
    rw [M.bind_ok h3]
    cases v <;> first | rfl | cases hi

theorem chars_perm {l' : List Val} {t : Str} (h : l'.Perm (t.map fun c => .scalar [c])) :
    ∃ t' : Str, l' = t'.map (fun c => .scalar [c]) ∧ t'.Perm t := by
  let g : Val → Char := fun v => match v with
    | .scalar (c :: _) => c
    | _ => ' '
  refine ⟨l'.map g, ?_, ?_⟩
  · rw [List.map_map]
    refine (List.map_id' l').symm.trans (List.map_congr_left fun v hv => ?_)
    obtain ⟨c, _, rfl⟩ := List.mem_map.1 (h.mem_iff.1 hv)
    rfl
  · have := h.map g
    rw [List.map_map] at this
    exact this.trans (List.Perm.of_eq (List.map_id' t))

theorem join_chars (t : Str) : opJOIN (.list (t.map fun c => .scalar [c])) none = .ok (.scalar t) := by
  have h := joinPy_scalars none (t.map fun c => [c])
  rw [List.map_map] at h
  have e : joinStr [] (t.map fun c => [c]) = t := by
    rw [joinStr_nil]
    clear h
    induction t with
    | nil => rfl
    | cons c t ih => simpa using ih
  simp only [Option.map_none, Option.getD_none, e, joinPy] at h
  exact h

/-- `SH` of a string: its characters in another order -/
theorem C61_shuffle_string (a : Tree) (s s1 : St X) (t : Str) (ha : a.notOpr = true) (hv : Vals a s (.ok (.scalar t), s1)) :
    ∃ t' r, (∀ out, Evals (.node (op1 (s% "SH")) [a]) s out ↔ out = (.ok (.v (.scalar t')), { s1 with rng := r })) ∧ t'.Perm t := by
  obtain ⟨h1, _, h2, _⟩ := randOps
  obtain ⟨l', r, h3, h4⟩ := shuffle_perm ((t.map fun c => Val.scalar [c]).length - 1) (t.map fun c => Val.scalar [c]) s1
  obtain ⟨t', rfl, h5⟩ := chars_perm h4
  refine ⟨t', r, h1.result (by simp [ha]) (mapEach_single hv) (by simp [Val.isBlock]) (r := (.ok (.v (.scalar t')), { s1 with rng := r }))
    ok_ne_fuel fun R => ?_, h5⟩
  rw [h2]
  show (shuffle ((t.map fun c => Val.scalar [c]).length - 1) (t.map fun c => .scalar [c]) >>= fun l => liftRes (opJOIN (.list l) none)) s1 = _
  rw [M.bind_ok h3, join_chars]
  rfl

/-- Every arrangement of a List comes up for some behaviour of the random source. -/
theorem C61_shuffle_all (a : Tree) (s s1 : St X) (l l' : List Val) (ha : a.notOpr = true) (hv : Vals a s (.ok (.list l), s1))
    (hl : l'.Perm l) :
    ∃ ks : List (Nat × Nat), (∀ p ∈ ks, p.2 < p.1) ∧ ∀ r, Yields X s1.rng ks r →
      ∀ out, Evals (.node (op1 (s% "SH")) [a]) s out ↔ out = (.ok (.v (.list l')), { s1 with rng := r }) := by
  obtain ⟨h1, _, h2, _⟩ := randOps
  have key : ∃ ks : List (Nat × Nat), (∀ p ∈ ks, p.2 < p.1) ∧
        ∀ (s : St X) (r : X.Rng), Yields X s.rng ks r → shuffle (l.length - 1) l s = (.ok l', { s with rng := r }) := by
    by_cases h0 : l = []
    · subst h0
      rw [List.perm_nil] at hl
      subst hl
      refine ⟨[], by simp, ?_⟩
      rintro s r ⟨⟩
      rfl
    · have := List.length_pos_iff.2 h0
      have hlen := hl.length_eq
      refine shuffle_all (l.length - 1) l l' (by omega) ?_ ?_
      · rw [List.take_of_length_le (by omega), List.take_of_length_le (by omega)]
        exact hl
      · rw [List.drop_of_length_le (by omega), List.drop_of_length_le (by omega)]
  obtain ⟨ks, h3, h4⟩ := key
  refine ⟨ks, h3, fun r hr => h1.result (by simp [ha]) (mapEach_single hv) (by simp [Val.isBlock])
    (r := (.ok (.v (.list l')), { s1 with rng := r })) ok_ne_fuel fun R => ?_⟩
  rw [h2]
  show (shuffle (l.length - 1) l >>= fun l => pure (Res.v (.list l))) s1 = _
  rw [M.bind_ok (h4 s1 r hr)]
  rfl

theorem items_get {v : Val} {l : List Val} (hi : v.isIterable = true) (hl : v.items = .ok l) (k : Nat) (hk : k < l.length) :
    v.len = .ok l.length ∧ v.get (.int k) = .ok l[k] := by
  have hm : ∀ n : Nat, k < n → ((k : Int) % n).toNat = k := fun n h => by
    rw [Int.emod_eq_of_lt (by omega) (by omega), Int.toNat_natCast]
  cases v with
  | scalar t =>
    obtain rfl : t.map (fun c => Val.scalar [c]) = l := by simpa [Val.items, Val.iter] using hl
    simp only [List.length_map] at hk ⊢
    refine ⟨rfl, ?_⟩
    simp only [Val.get, hm _ hk, List.getElem?_eq_getElem hk, List.getElem_map]
  | list t =>
    obtain rfl : t = l := by simpa [Val.items, Val.iter] using hl
    refine ⟨rfl, ?_⟩
    simp only [Val.get, hm _ hk, List.getElem?_eq_getElem hk]
  | range lo up =>
    cases up with
    | none => cases hl
    | some h =>
      obtain rfl : (rangeInts lo h).map ofInt = l := by simpa [Val.items, Val.iter] using hl
      have e : rangeInts lo h = rangeInts (some (lo0 lo)) h := rfl
      have hl2 := rangeInts_length lo h
      simp only [List.length_map] at hk ⊢
      refine ⟨by simp only [Val.len, hl2], ?_⟩
      have h1 := C12_index_range (lo0 lo) h k (by omega)
      have h2 := (C14_members (lo0 lo) h).2 k (by omega)
      rw [← e, List.getElem?_eq_getElem hk, Option.some.injEq] at h2
      have h3 : (Val.range lo (some h)).get (.int k) = (Val.range (some (lo0 lo)) (some h)).get (.int k) := by
        cases lo <;> rfl
      rw [h3, h1, List.getElem_map, h2, Int.emod_eq_of_lt (by omega) (by omega)]
      rfl
  | _ => cases hi

/-- `RC` of a non-empty iterable: the item whose position the random source gives -/
theorem C61_choice (a : Tree) (s s1 : St X) (v : Val) (l : List Val) (ha : a.notOpr = true) (hv : Vals a s (.ok v, s1))
    (hi : v.isIterable = true) (hl : v.items = .ok l) (k : Nat) (r : X.Rng) (hk : Gives X s1.rng l.length k r) (hne : l ≠ []) :
    ∃ x, l[k]? = some x ∧ x ∈ l ∧
      ∀ out, Evals (.node (op1 (s% "RC")) [a]) s out ↔ out = (.ok (.v x), { s1 with rng := r }) := by
  obtain ⟨_, h1, _, h2⟩ := randOps
  have hpos := List.length_pos_iff.2 hne
  have hlt : k < l.length := by
    rw [← hk.1]
    exact Nat.mod_lt _ hpos
  obtain ⟨h3, h4⟩ := items_get hi hl k hlt
  refine ⟨l[k], List.getElem?_eq_getElem hlt, List.getElem_mem hlt, h1.result (by simp [ha]) (mapEach_single hv) ?_
    (r := (.ok (.v l[k]), { s1 with rng := r })) ok_ne_fuel fun R => ?_⟩
  · cases v <;> simp_all [Val.isIterable, Val.isBlock]
  · rw [h2]
    show opRANDCHOICE v s1 = _
    unfold opRANDCHOICE
    rw [if_pos hi, h3]
    show (if l.length = 0 then M.throw .valueError else M.randBelow l.length >>= fun k => liftRes (v.get (.int k))) s1 = _
    rw [if_neg (by omega)]
    have e : M.randBelow l.length s1 = (.ok k, { s1 with rng := r }) := by
      rw [M.randBelow, hk.1, hk.2]
    rw [M.bind_ok e, h4]
    rfl

/-- Deviation: `RC` of an empty iterable raises an exception that nothing catches. -/
theorem C61_choice_empty (a : Tree) (s s1 : St X) (v : Val) (ha : a.notOpr = true) (hv : Vals a s (.ok v, s1))
    (hi : v.isIterable = true) (hl : v.items = .ok []) (out : Outcome X Res) :
    Evals (.node (op1 (s% "RC")) [a]) s out ↔ out = (.error .valueError, s1) := by
  obtain ⟨_, h1, _, h2⟩ := randOps
  have hlen : v.len = .ok 0 := by
    cases v with
    | scalar t => simpa [Val.items, Val.iter, Val.len] using hl
    | list t => simpa [Val.items, Val.iter, Val.len] using hl
    | range lo up =>
      cases up with
      | none => cases hl
      | some h =>
        have e : (rangeInts lo h).map ofInt = [] := by simpa [Val.items, Val.iter] using hl
        have := rangeInts_length lo h
        rw [List.map_eq_nil_iff] at e
        rw [e, List.length_nil] at this
        simp only [Val.len, ← this]
    | _ => cases hi
  refine h1.result (by simp [ha]) (mapEach_single hv) ?_ (r := (.error .valueError, s1)) (by simp) (fun R => ?_) out
  · cases v <;> simp_all [Val.isIterable, Val.isBlock]
  · rw [h2]
    show opRANDCHOICE v s1 = _
    unfold opRANDCHOICE
    rw [if_pos hi, hlen]
    rfl

theorem rrOps : ((op1 (s% "RR")).rvals = true ∧ (op1 (s% "RR")).assign = false ∧ (op1 (s% "RR")).map = false ∧
    (op1 (s% "RR")).fold = false ∧ (op1 (s% "RR")).scan = false ∧ (op1 (s% "RR")).fn = .RANDRANGETO) ∧
    (op2 (s% "RR")).rvals = true ∧ (op2 (s% "RR")).assign = false ∧ (op2 (s% "RR")).map = false ∧
    (op2 (s% "RR")).fold = false ∧ (op2 (s% "RR")).scan = false ∧ (op2 (s% "RR")).fn = .RANDRANGE := by
  decide +kernel

/-- What `random.randrange(lo, hi)` does -/
inductive Between (X : Ext) (lo hi : Int) (s : St X) : Outcome X Res → Prop
  | number {k : Nat} {r : X.Rng} : lo < hi → Gives X s.rng (hi - lo).toNat k r → Between X lo hi s (.ok (.v (ofInt (lo + k))), { s with rng := r })
  | empty : hi ≤ lo → Between X lo hi s (.error .valueError, s)

theorem between_iff (lo hi : Int) (s : St X) (out : Outcome X Res) : Between X lo hi s out ↔ out = randRange lo hi s := by
  unfold randRange
  constructor
  · rintro (⟨h1, h2, h3⟩ | h)
    · rw [if_neg (by omega), ← h2, ← h3]
      rfl
    · rw [if_pos h]
      rfl
  · rintro rfl
    split
    · exact .empty (by assumption)
    · exact .number (by omega) ⟨rfl, rfl⟩

theorem randRange_notFuel (lo hi : Int) (s : St X) : (randRange lo hi s).1 ≠ .error .fuel ∧ died (randRange lo hi s) = randRange lo hi s := by
  have h := (between_iff lo hi s _).2 rfl
  generalize randRange lo hi s = o at h
  cases h <;> exact ⟨by simp, rfl⟩

theorem runs_fixed {x : Rec X → M X Res} {s : St X} {r : Outcome X Res} (hf : r.1 ≠ .error .fuel) (hx : ∀ R, x R s = r) (r' : Outcome X Res) :
    Runs x s r' ↔ r' = r := by
  constructor
  · rintro ⟨_, n, hn⟩
    exact (hn n (Nat.le_refl n)).symm.trans (hx _)
  · rintro rfl
    exact ⟨hf, 0, fun m _ => hx _⟩

/-- `a RR b` and `RR b`: an integer between the bounds (0 and `b`), the upper bound excluded; deviation: an exception that
nothing catches if there is no such integer. -/
theorem C61_range (a b : Tree) (s s1 s2 : St X) (t u : Str) (ha : a.notOpr = true) (hb : b.notOpr = true)
    (hv : Vals a s (.ok (.scalar t), s1)) (hw : Vals b s1 (.ok (.scalar u), s2)) (out : Outcome X Res) :
    (Evals (.node (op2 (s% "RR")) [a, b]) s out ↔ Between X (toInt t) (toInt u) s2 out) ∧
    (Evals (.node (op1 (s% "RR")) [b]) s1 out ↔ Between X 0 (toInt u) s2 out) := by
  obtain ⟨⟨h1, h2, h3, h4, h5, h6⟩, g1, g2, g3, g4, g5, g6⟩ := rrOps
  have e : ∀ (o : Op) (t : Str), expands o (.val (.scalar t)) = false := fun o t => by
    simp [expands, Val.isList, Val.isRange]
  constructor
  · rw [evals_direct ⟨g1, g2, g3, g4, g5, by rw [g6]; decide⟩ (by rw [g6]; rfl) (by simp [ha, hb]) (mapEach_two hv hw)
      (by simp [Val.isBlock]) (by simp [e]), g6]
    have hc := runs_fixed (x := fun R : Rec X => valOp R .RANDRANGE [.scalar t, .scalar u]) (randRange_notFuel (toInt t) (toInt u) s2).1 fun R => rfl
    simp only [hc, between_iff]
    constructor
    · rintro ⟨_, rfl, rfl⟩
      exact (randRange_notFuel ..).2
    · rintro rfl
      exact ⟨_, rfl, (randRange_notFuel ..).2.symm⟩
  · rw [evals_direct ⟨h1, h2, h3, h4, h5, by rw [h6]; decide⟩ (by rw [h6]; rfl) (by simp [hb]) (mapEach_single hw)
      (by simp [Val.isBlock]) (by simp [e]), h6]
    have hc := runs_fixed (x := fun R : Rec X => valOp R .RANDRANGETO [.scalar u]) (randRange_notFuel 0 (toInt u) s2).1 fun R => rfl
    simp only [hc, between_iff]
    constructor
    · rintro ⟨_, rfl, rfl⟩
      exact (randRange_notFuel ..).2
    · rintro rfl
      exact ⟨_, rfl, (randRange_notFuel ..).2.symm⟩

/-- The number is within the bounds. -/
theorem Between.bounds {lo hi : Int} {s s' : St X} {v : Val} (h : Between X lo hi s (.ok (.v v), s')) :
    ∃ i, v = ofInt i ∧ lo ≤ i ∧ i < hi := by
  cases h with
  | number h1 h2 =>
    have := Nat.mod_lt (X.below (hi - lo).toNat s.rng).1 (show 0 < (hi - lo).toNat by omega)
    rw [h2.1] at this
    exact ⟨_, rfl, by omega, by omega⟩

/-- A random source that gives any numbers one likes -/
def streamExt : Ext := { toyExt with Rng := List Nat, below := fun _ r => (r.headD 0, r.tail), random := fun r => (toyExt.pi, r), seed := fun _ => [] }

example (ks : List (Nat × Nat)) (h : ∀ p ∈ ks, p.2 < p.1) (r : List Nat) : Yields streamExt (ks.map (·.2) ++ r) ks r := by
  induction ks with
  | nil => exact .nil
  | cons p ks ih =>
    exact .cons (r' := ks.map (·.2) ++ r) ⟨Nat.mod_eq_of_lt (h p (by simp)), rfl⟩ (ih fun q hq => h q (by simp [hq]))

example : toyOut (s% "P$+SH[1 2 3]PRC[7]P3RR4PRC\"\"") [] [] = none ∧
    toyOut (s% "P$+SH[1 2 3]PRC[7]P3RR4P0") [] [] = some (s% "6\n7\n3\n0\n0\n") := by decide +kernel

end Pip
