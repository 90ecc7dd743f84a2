import Verif.Props.Func
import Verif.Props.Values
import Verif.Lemmas.Seq
/-!
# C48, C49: finding and counting
-/

namespace Pip
variable {X : Ext}

/-! ### Specifications -/

/-- `sub` occurs in `s` at position `i`. -/
def OccursAt (sub s : Str) (i : Nat) : Prop := ∃ p q, s = p ++ sub ++ q ∧ p.length = i

/-- The least position with `P`, nil if there is none -/
def Found (P : Nat → Prop) (u : Val) : Prop :=
  (∃ n : Nat, P n ∧ (∀ j < n, ¬P j) ∧ u = ofInt n) ∨ ((∀ n, ¬P n) ∧ u = .nil)

/-- All positions with `P`, in increasing order -/
def FoundAll (P : Nat → Prop) (u : Val) : Prop :=
  ∃ ix : List Nat, u = .list (ix.map fun i : Nat => ofInt i) ∧ ix.Pairwise (· < ·) ∧ ∀ i, i ∈ ix ↔ P i

/-- `n` items of the list have `P`. -/
inductive Occurrences {α : Type} (P : α → Prop) : List α → Nat → Prop
  | nil : Occurrences P [] 0
  | hit {x : α} {l : List α} {n : Nat} : P x → Occurrences P l n → Occurrences P (x :: l) (n + 1)
  | miss {x : α} {l : List α} {n : Nat} : ¬P x → Occurrences P l n → Occurrences P (x :: l) n

/-- `sub` occurs `n` times in a string if each time the leftmost occurrence after the end of the previous one is taken. -/
inductive Leftmost (sub : Str) : Str → Nat → Prop
  | none {s : Str} : (∀ i, ¬OccursAt sub s i) → Leftmost sub s 0
  | next {p q : Str} {n : Nat} : (∀ i < p.length, ¬OccursAt sub (p ++ sub ++ q) i) → Leftmost sub q n →
    Leftmost sub (p ++ sub ++ q) (n + 1)

/-! ### Strings -/

theorem occursAt_nil {sub : Str} {i : Nat} : OccursAt sub [] i ↔ sub = [] ∧ i = 0 := by
  constructor
  · rintro ⟨p, q, h, rfl⟩
    have h := h.symm
    simp only [List.append_eq_nil_iff] at h
    exact ⟨h.1.2, by simp [h.1.1]⟩
  · rintro ⟨rfl, rfl⟩
    exact ⟨[], [], rfl, rfl⟩

theorem occursAt_zero {sub s : Str} : OccursAt sub s 0 ↔ sub <+: s := by
  constructor
  · rintro ⟨p, q, rfl, hp⟩
    rw [List.length_eq_zero_iff] at hp
    subst hp
    exact ⟨q, rfl⟩
  · rintro ⟨q, rfl⟩
    exact ⟨[], q, rfl, rfl⟩

theorem occursAt_succ {sub : Str} {c : Char} {s : Str} {i : Nat} : OccursAt sub (c :: s) (i + 1) ↔ OccursAt sub s i := by
  constructor
  · rintro ⟨p, q, h, hp⟩
    cases p with
    | nil => cases hp
    | cons d p =>
      simp only [List.cons_append, List.cons.injEq] at h
      exact ⟨p, q, h.2, by simpa using hp⟩
  · rintro ⟨p, q, rfl, rfl⟩
    exact ⟨c :: p, q, rfl, rfl⟩

theorem occursAt_drop {sub s : Str} {k i : Nat} (h : k ≤ s.length) : OccursAt sub (s.drop k) i ↔ OccursAt sub s (i + k) := by
  induction k generalizing s with
  | zero => rfl
  | succ k ih =>
    cases s with
    | nil => simp at h
    | cons c s =>
      rw [List.drop_succ_cons, ih (by simpa using h), ← Nat.add_assoc, occursAt_succ]

theorem OccursAt.le {sub s : Str} {i : Nat} (h : OccursAt sub s i) : i ≤ s.length := by
  obtain ⟨p, q, rfl, rfl⟩ := h
  simp only [List.length_append]
  omega

theorem findFrom_spec (sub s : Str) :
    (∃ n, findFrom sub s = some n ∧ OccursAt sub s n ∧ ∀ j < n, ¬OccursAt sub s j) ∨
    (findFrom sub s = none ∧ ∀ n, ¬OccursAt sub s n) := by
  induction s with
  | nil =>
    simp only [findFrom, occursAt_nil]
    by_cases h : sub = []
    · subst h
      exact .inl ⟨0, by simp⟩
    · exact .inr (by simp [h])
  | cons c s ih =>
    simp only [findFrom]
    by_cases h : sub.isPrefixOf (c :: s) = true
    · exact .inl ⟨0, by rw [if_pos h], occursAt_zero.2 (List.isPrefixOf_iff_prefix.1 h), by simp⟩
    · have h0 : ¬OccursAt sub (c :: s) 0 := fun h' => h (List.isPrefixOf_iff_prefix.2 (occursAt_zero.1 h'))
      rw [if_neg h]
      rcases ih with ⟨n, e, h1, h2⟩ | ⟨e, h1⟩
      · refine .inl ⟨n + 1, by rw [e]; rfl, occursAt_succ.2 h1, fun j hj => ?_⟩
        cases j with
        | zero => exact h0
        | succ j => exact fun h' => h2 j (by omega) (occursAt_succ.1 h')
      · refine .inr ⟨by rw [e]; rfl, fun n => ?_⟩
        cases n with
        | zero => exact h0
        | succ n => exact fun h' => h1 n (occursAt_succ.1 h')

/-- What `index` does: the least position from `start` on -/
def IndexSpec (P : Nat → Prop) (start : Nat) (r : Except Exc Int) : Prop :=
  (∃ n : Nat, start ≤ n ∧ P n ∧ (∀ j, start ≤ j → j < n → ¬P j) ∧ r = .ok n) ∨ ((∀ n, start ≤ n → ¬P n) ∧ r = .error .valueError)

theorem index_string (t s : Str) (start : Nat) : IndexSpec (OccursAt t s) start (Val.index X (.scalar t) (.scalar s) start) := by
  simp only [Val.index, indexStr]
  by_cases h : s.length < start
  · rw [if_pos h]
    exact .inr ⟨fun n hn h' => by have := h'.le; omega, rfl⟩
  · rw [if_neg h]
    rcases findFrom_spec t (s.drop start) with ⟨n, e, h1, h2⟩ | ⟨e, h1⟩
    · refine .inl ⟨n + start, by omega, (occursAt_drop (by omega)).1 h1, fun j hj hj' h' => ?_, by rw [e]; rfl⟩
      refine h2 (j - start) (by omega) ((occursAt_drop (by omega)).2 ?_)
      rwa [Nat.sub_add_cancel hj]
    · refine .inr ⟨fun n hn h' => h1 (n - start) ((occursAt_drop (by omega)).2 ?_), by rw [e]; rfl⟩
      rwa [Nat.sub_add_cancel hn]

/-- Position `i` of the list holds a value equal to `x`. -/
def ItemAt (x : Val) (l : List Val) (i : Nat) : Prop := ∃ y, l[i]? = some y ∧ pyEq x y = true

theorem itemAt_plain {x : Val} (h : x.plain = true) (l : List Val) (i : Nat) : ItemAt x l i ↔ l[i]? = some x := by
  simp only [ItemAt, pyEq_plain x _ h]
  exact ⟨fun ⟨y, h1, h2⟩ => h2 ▸ h1, fun h => ⟨x, h, rfl⟩⟩

theorem index_list (x : Val) (l : List Val) (start : Nat) : IndexSpec (ItemAt x l) start (Val.index X x (.list l) start) := by
  simp only [Val.index]
  have hget : ∀ i, (l.drop start)[i]? = l[i + start]? := fun i => by rw [List.getElem?_drop, Nat.add_comm]
  cases e : (l.drop start).findIdx? (pyEq x) with
  | some n =>
    rw [List.findIdx?_eq_some_iff_getElem] at e
    obtain ⟨h, h1, h2⟩ := e
    refine .inl ⟨n + start, by omega, ⟨_, by rw [← hget, List.getElem?_eq_getElem h], h1⟩, ?_, rfl⟩
    rintro j hj hj' ⟨y, hy, h'⟩
    have h3 := hget (j - start)
    rw [Nat.sub_add_cancel hj, hy, List.getElem?_eq_some_iff] at h3
    obtain ⟨h3, rfl⟩ := h3
    exact h2 (j - start) (by omega) h'
  | none =>
    rw [List.findIdx?_eq_none_iff] at e
    refine .inr ⟨?_, rfl⟩
    rintro n hn ⟨y, hy, h'⟩
    have h3 := hget (n - start)
    rw [Nat.sub_add_cancel hn, hy] at h3
    have := e y (List.mem_of_getElem? h3)
    rw [this] at h'
    cases h'

theorem findAllLoop_spec {P : Nat → Prop} {item it : Val} (h : ∀ start, IndexSpec P start (Val.index X item it start)) (N : Nat)
    (hN : ∀ n, P n → n < N) : ∀ (fuel start : Nat), 0 < fuel → N + 1 ≤ start + fuel →
      ∃ ix : List Nat, findAllLoop (X := X) item it fuel start = .ok (ix.map fun i : Nat => ofInt i) ∧ ix.Pairwise (· < ·) ∧
        ∀ i, i ∈ ix ↔ start ≤ i ∧ P i
  | 0, _, h0, _ => absurd h0 (Nat.lt_irrefl 0)
  | fuel + 1, start, _, hf => by
    rcases h start with ⟨n, h1, h2, h3, h4⟩ | ⟨h1, h2⟩
    · have := hN n h2
      obtain ⟨ix, h5, h6, h7⟩ := findAllLoop_spec h N hN fuel (n + 1) (by omega) (by omega)
      refine ⟨n :: ix, by simp only [findAllLoop, h4, Int.toNat_natCast, h5, List.map_cons], ?_, fun i => ?_⟩
      · exact List.pairwise_cons.2 ⟨fun i hi => ((h7 i).1 hi).1, h6⟩
      · rw [List.mem_cons, h7]
        constructor
        · rintro (rfl | ⟨h8, h9⟩)
          · exact ⟨h1, h2⟩
          · exact ⟨by omega, h9⟩
        · rintro ⟨h8, h9⟩
          rcases Nat.lt_trichotomy i n with h10 | rfl | h10
          · exact absurd h9 (h3 i h8 h10)
          · exact .inl rfl
          · exact .inr ⟨h10, h9⟩
    · exact ⟨[], by simp only [findAllLoop, h2, List.map_nil], .nil, fun i => ⟨by simp, fun ⟨h8, h9⟩ => absurd h9 (h1 i h8)⟩⟩

/-! ### C48 -/

/-- An operator that is never applied item by item -/
structure Op.Whole (o : Op) : Prop extends o.Rvals where
  raw : isRaw o.fn = false
  listEach : o.listEach = false
  rangeEach : o.rangeEach = false

instance (o : Op) : Decidable o.Whole :=
  decidable_of_iff (o.rvals = true ∧ o.assign = false ∧ o.map = false ∧ o.fold = false ∧ o.scan = false ∧
      o.fn ≠ .PARENTHESIZE ∧ isRaw o.fn = false ∧ o.listEach = false ∧ o.rangeEach = false)
    ⟨fun ⟨h1, h2, h3, h4, h5, h6, h7, h9, h10⟩ => ⟨⟨h1, h2, h3, h4, h5, h6⟩, h7, h9, h10⟩,
      fun ⟨⟨h1, h2, h3, h4, h5, h6⟩, h7, h9, h10⟩ => ⟨h1, h2, h3, h4, h5, h6, h7, h9, h10⟩⟩

/-- An operator on values that are no functions whose outcome does not depend on anything else -/
theorem Op.Whole.result {o : Op} (h : o.Whole) {ts : List Tree} (ht : ∀ t ∈ ts, t.notOpr = true) {vs : List Val} {s s1 : St X}
    (hv : MapEach Vals ts s (.ok vs, s1)) (hb : ∀ v ∈ vs, v.isBlock = false) {r : Outcome X Res} (hf : r.1 ≠ .error .fuel)
    (hx : ∀ R : Rec X, valOp R o.fn vs s1 = r) (out : Outcome X Res) :
    Evals (.node o ts) s out ↔ out = died r := by
  rw [evals_direct h.toRvals h.raw ht hv (fun _ => hb) (fun v _ => by simp [Pip.expands, h.listEach, h.rangeEach])]
  have : ∀ r', Runs (fun R => valOp R o.fn vs) s1 r' ↔ r' = r := by
    intro r'
    constructor
    · rintro ⟨_, n, hn⟩
      exact (hn n (Nat.le_refl n)).symm.trans (hx _)
    · rintro rfl
      exact ⟨hf, 0, fun m _ => hx _⟩
  simp only [this]
  constructor
  · rintro ⟨_, rfl, rfl⟩
    rfl
  · rintro rfl
    exact ⟨_, rfl, rfl⟩

theorem findOps : ((op2 (s% "@?")).Whole ∧ (op2 (s% "@?")).fn = .FIND) ∧ (op2 (s% "@*")).Whole ∧ (op2 (s% "@*")).fn = .FINDALL := by
  decide +kernel

theorem findOps_spec {P : Nat → Prop} {v w : Val} (hi : ∀ start, IndexSpec P start (Val.index X w v start))
    (hall : ∃ ix : List Nat, findAllLoop (X := X) w v (findBound v) 0 = .ok (ix.map fun i : Nat => ofInt i) ∧ ix.Pairwise (· < ·) ∧
        ∀ i, i ∈ ix ↔ 0 ≤ i ∧ P i) (hvw : ∀ R : Rec X, opFIND R v w =
        (match Val.index X w v 0 with | .ok i => pure (.v (ofInt i)) | .error _ => pure (.v .nil)) ∧ opFINDALL R v w =
        (do let vs ← M.lift (findAllLoop (X := X) w v (findBound v) 0); return .v (.list vs)))
    (hv0 : v.isBlock = false) (hw0 : w.isBlock = false)
    (a b : Tree) (s s1 s2 : St X) (ha : a.notOpr = true) (hbn : b.notOpr = true) (hv : Vals a s (.ok v, s1))
    (hw : Vals b s1 (.ok w, s2)) :
    ∃ u u', (∀ out, Evals (.node (op2 (s% "@?")) [a, b]) s out ↔ out = (.ok (.v u), s2)) ∧ Found P u ∧
      (∀ out, Evals (.node (op2 (s% "@*")) [a, b]) s out ↔ out = (.ok (.v u'), s2)) ∧ FoundAll P u' := by
  obtain ⟨⟨h1, h5⟩, h6, h10⟩ := findOps
  have hn : ∀ t ∈ [a, b], t.notOpr = true := by simp [ha, hbn]
  have hblk : ∀ x ∈ [v, w], x.isBlock = false := by simp [hv0, hw0]
  obtain ⟨ix, h11, h12, h13⟩ := hall
  have first : ∃ u, (∀ R : Rec X, opFIND R v w s2 = (.ok (.v u), s2)) ∧ Found P u := by
    rcases hi 0 with ⟨n, _, h1, h2, h3⟩ | ⟨h1, h2⟩
    · refine ⟨ofInt n, fun R => ?_, .inl ⟨n, h1, fun j hj => h2 j (Nat.zero_le _) hj, rfl⟩⟩
      rw [(hvw R).1, h3]
      rfl
    · refine ⟨.nil, fun R => ?_, .inr ⟨fun n => h1 n (Nat.zero_le _), rfl⟩⟩
      rw [(hvw R).1, h2]
      rfl
  obtain ⟨u, hu, hfu⟩ := first
  refine ⟨u, .list (ix.map fun i : Nat => ofInt i), ?_, hfu, ?_, ⟨ix, rfl, h12, fun i => (h13 i).trans ⟨And.right, fun h => ⟨Nat.zero_le _, h⟩⟩⟩⟩
  · refine h1.result hn (mapEach_two hv hw) hblk (r := (.ok (.v u), s2)) ok_ne_fuel fun R => ?_
    rw [h5]
    exact hu R
  · refine h6.result hn (mapEach_two hv hw) hblk (r := (.ok (.v (.list (ix.map fun i : Nat => ofInt i))), s2)) ok_ne_fuel fun R => ?_
    rw [h10]
    refine (congrFun (hvw R).2 s2).trans ?_
    rw [h11]
    rfl

/-- `l @? x` and `l @* x` for a list `l` and any value `x` but a function -/
theorem C48_list (a b : Tree) (s s1 s2 : St X) (l : List Val) (x : Val) (ha : a.notOpr = true) (hb : b.notOpr = true)
    (hv : Vals a s (.ok (.list l), s1)) (hw : Vals b s1 (.ok x, s2)) (hx : x.isBlock = false) :
    ∃ u u', (∀ out, Evals (.node (op2 (s% "@?")) [a, b]) s out ↔ out = (.ok (.v u), s2)) ∧ Found (ItemAt x l) u ∧
      (∀ out, Evals (.node (op2 (s% "@*")) [a, b]) s out ↔ out = (.ok (.v u'), s2)) ∧ FoundAll (ItemAt x l) u' := by
  refine findOps_spec (index_list x l) (findAllLoop_spec (index_list x l) l.length ?_ _ _ (by simp [findBound]) (by simp [findBound])) ?_ rfl hx a b s s1 s2 ha hb hv hw
  · rintro n ⟨y, hy, _⟩
    exact (List.getElem?_eq_some_iff.1 hy).1
  · intro R
    cases x <;> simp [opFIND, opFINDALL, Val.isListy, Val.isList, Val.isRange, Val.isScalar] <;> cases Val.index X _ _ _ <;> rfl

/-- `s @? t` and `s @* t` for strings -/
theorem C48_string (a b : Tree) (s s1 s2 : St X) (t u : Str) (ha : a.notOpr = true) (hb : b.notOpr = true)
    (hv : Vals a s (.ok (.scalar t), s1)) (hw : Vals b s1 (.ok (.scalar u), s2)) :
    ∃ r r', (∀ out, Evals (.node (op2 (s% "@?")) [a, b]) s out ↔ out = (.ok (.v r), s2)) ∧ Found (OccursAt u t) r ∧
      (∀ out, Evals (.node (op2 (s% "@*")) [a, b]) s out ↔ out = (.ok (.v r'), s2)) ∧ FoundAll (OccursAt u t) r' := by
  refine findOps_spec (index_string u t) (findAllLoop_spec (index_string u t) (t.length + 1) ?_ _ _ (by simp [findBound])
    (by simp [findBound])) ?_ rfl rfl a b s s1 s2 ha hb hv hw
  · intro n h
    have := h.le
    omega
  · intro R
    simp [opFIND, opFINDALL, Val.isListy, Val.isList, Val.isRange, Val.isScalar, Val.isIterable]
    cases Val.index X _ _ _ <;> rfl

/-- The result is determined by the specification. -/
theorem Found.unique {P : Nat → Prop} {u v : Val} (hu : Found P u) (hv : Found P v) : u = v := by
  rcases hu with ⟨n, h1, h2, rfl⟩ | ⟨h1, rfl⟩ <;> rcases hv with ⟨m, h3, h4, rfl⟩ | ⟨h3, rfl⟩
  · rcases Nat.lt_trichotomy n m with h | rfl | h
    · exact absurd h1 (h4 n h)
    · rfl
    · exact absurd h3 (h2 m h)
  · exact absurd h1 (h3 n)
  · exact absurd h3 (h1 m)
  · rfl

example : toyOut (s% "P [4 5 4]@?4P [4 5 4]@?[4]P*\"abcbcb\"@*\"bcb\"P\"abcbcb\"@?\"c\"P*[4 5 4]@*4") [] [] =
    some (s% "0\n1\n3\n2\n0\n2\n02\n") := by decide +kernel

/-- Position `i` of a Range holds `k`. -/
def RangeAt (k : Int) (lo hi : Option Int) (i : Nat) : Prop := lo.getD 0 + i = k ∧ ∀ h, hi = some h → k < h

theorem contains_slice (k : Int) (lo hi : Option Int) (n : Nat) :
    ∃ b, Val.contains X (ofInt k) (rangeSlice lo hi (some n) none) = .ok b ∧
      (b = true ↔ lo.getD 0 + n ≤ k ∧ ∀ h, hi = some h → k < h) := by
  have hc : ∀ (a : Int) (b : Option Int), Val.contains X (ofInt k) (.range (some a) b) =
      .ok (decide (a ≤ k) && (match b with | some h => decide (k < h) | none => true)) := by
    intro a b
    cases b <;> simp only [Val.contains, ofInt, toNum_showInt] <;> rfl
  unfold rangeSlice
  cases hi with
  | none =>
    have e : Val.isEmpty (.range lo none) = false := rfl
    rw [e]
    simp only [Bool.false_eq_true, if_false, Option.any_some, Option.any_none, or_false, decide_eq_true_eq,
      show ¬((n : Int) < 0) by omega, Option.map_none, hc, Bool.and_true]
    exact ⟨_, rfl, by
      simp only [decide_eq_true_eq, reduceCtorEq, false_implies, implies_true, and_true]
      rfl⟩
  | some h =>
    rw [range_isEmpty]
    have hl := rangeInts_length lo h
    split
    · rename_i he
      rw [List.isEmpty_iff] at he
      rw [he] at hl
      refine ⟨decide (lo0 lo ≤ k) && decide (k < h), ?_, ?_⟩
      · simp only [Val.contains, ofInt, toNum_showInt]
        rfl
      · simp only [List.length_nil, lo0] at hl
        simp only [Bool.and_eq_true, decide_eq_true_eq, Option.some.injEq, forall_eq']
        simp only [lo0]
        omega
    · rename_i he
      have hp : 0 < (rangeInts lo h).length := by
        rw [List.length_pos_iff]
        intro e
        simp [e] at he
      simp only [Option.getD_some, Option.getD_none, Int.le_refl, and_true]
      rw [if_pos (by omega), hc]
      refine ⟨_, rfl, ?_⟩
      simp only [Bool.and_eq_true, decide_eq_true_eq, Option.some.injEq, forall_eq']
      have c1 : clampIdx (h - lo0 lo).toNat (n : Int) = min n (h - lo0 lo).toNat := by simp [clampIdx, show ¬((n : Int) < 0) by omega]
      have c2 : clampIdx (h - lo0 lo).toNat ((h - lo0 lo).toNat : Int) = (h - lo0 lo).toNat := by
        simp only [clampIdx, show ¬(((h - lo0 lo).toNat : Int) < 0) by omega, if_false, Int.toNat_natCast, Nat.min_self]
      rw [c1, c2]
      simp only [lo0] at *
      omega

theorem index_range (k : Int) (lo hi : Option Int) (start : Nat) :
    IndexSpec (RangeAt k lo hi) start (Val.index X (ofInt k) (.range lo hi) start) := by
  obtain ⟨b, h1, h2⟩ := contains_slice (X := X) k lo hi start
  have e : Val.index X (ofInt k) (.range lo hi) start = if b then .ok (k - lo.getD 0) else .error .valueError := by
    have h3 : neq X (.int (toInt (showInt k))) (toNum X (showInt k)) = true := by
      rw [toNum_showInt, toInt_showInt]
      simp [neq]
    simp only [ofInt] at h1
    simp only [Val.index, ofInt, h1]
    cases b
    · rfl
    · simp only [h3, if_true]
      rw [toInt_showInt]
      rfl
  rw [e]
  cases b with
  | true =>
    obtain ⟨h3, h4⟩ := h2.1 rfl
    refine .inl ⟨(k - lo.getD 0).toNat, by omega, ⟨by omega, h4⟩, fun j _ hj h5 => ?_, ?_⟩
    · have := h5.1
      omega
    · simp only [if_true]
      congr 1
      omega
  | false =>
    refine .inr ⟨fun n hn h3 => ?_, rfl⟩
    have := h2.2 ⟨by have := h3.1; omega, h3.2⟩
    cases this

/-- Integers in Ranges, which may be infinite -/
theorem C48_range (a b : Tree) (s s1 s2 : St X) (lo hi : Option Int) (k : Int) (ha : a.notOpr = true) (hb : b.notOpr = true)
    (hv : Vals a s (.ok (.range lo hi), s1)) (hw : Vals b s1 (.ok (ofInt k), s2)) :
    ∃ r r', (∀ out, Evals (.node (op2 (s% "@?")) [a, b]) s out ↔ out = (.ok (.v r), s2)) ∧ Found (RangeAt k lo hi) r ∧
      (∀ out, Evals (.node (op2 (s% "@*")) [a, b]) s out ↔ out = (.ok (.v r'), s2)) ∧ FoundAll (RangeAt k lo hi) r' := by
  refine findOps_spec (index_range k lo hi) ?_ ?_ rfl rfl a b s s1 s2 ha hb hv hw
  · have e : findBound (.range lo hi) = 3 := rfl
    rw [e]
    rcases index_range (X := X) k lo hi 0 with ⟨n, _, h1, _, h2⟩ | ⟨h1, h2⟩
    · rcases index_range (X := X) k lo hi (n + 1) with ⟨m, h3, h4, _⟩ | ⟨h3, h4⟩
      · have := h1.1
        have := h4.1
        omega
      · refine ⟨[n], ?_, List.pairwise_singleton _ _, fun i => ?_⟩
        · simp only [findAllLoop, Int.natCast_zero] at h2 h4 ⊢
          simp only [h2, Int.toNat_natCast, h4, List.map_cons, List.map_nil]
        · simp only [List.mem_singleton]
          constructor
          · rintro rfl
            exact ⟨Nat.zero_le _, h1⟩
          · rintro ⟨_, h5⟩
            have := h1.1
            have := h5.1
            omega
    · refine ⟨[], ?_, .nil, fun i => ⟨by simp, fun ⟨h5, h6⟩ => absurd h6 (h1 i h5)⟩⟩
      simp only [findAllLoop, h2, List.map_nil]
  · intro R
    simp [opFIND, opFINDALL, ofInt, Val.isListy, Val.isList, Val.isRange, Val.isScalar, Val.isIterable]
    cases Val.index X _ _ _ <;> rfl

example : toyOut (s% "P(5,9)@?7P*(3,100)@*7") [] [] = some (s% "2\n4\n4\n") := by decide +kernel

/-! ### C49 -/

theorem isSub_iff (t s : Str) : isSub t s = true ↔ ∃ i, OccursAt t s i := by
  induction s with
  | nil =>
    simp only [isSub, List.isEmpty_iff, occursAt_nil]
    exact ⟨fun h => ⟨0, h, rfl⟩, fun ⟨_, h, _⟩ => h⟩
  | cons c s ih =>
    simp only [isSub, Bool.or_eq_true, ih, List.isPrefixOf_iff_prefix, ← occursAt_zero]
    constructor
    · rintro (h | ⟨i, h⟩)
      · exact ⟨_, h⟩
      · exact ⟨i + 1, occursAt_succ.2 h⟩
    · rintro ⟨i, h⟩
      cases i with
      | zero => exact .inl h
      | succ i => exact .inr ⟨i, occursAt_succ.1 h⟩

theorem countAux_drop (sub : Str) : ∀ (k : Nat) (s : Str), countAux sub k s = countAux sub 0 (s.drop k)
  | 0, s => rfl
  | k + 1, [] => by simp [countAux]
  | k + 1, c :: s => by rw [countAux, countAux_drop sub k s, List.drop_succ_cons]

theorem Leftmost.cons {sub : Str} {c : Char} {s : Str} {n : Nat} (h0 : ¬OccursAt sub (c :: s) 0) (h : Leftmost sub s n) :
    Leftmost sub (c :: s) n := by
  have step : ∀ i m, (∀ j < m, ¬OccursAt sub s j) → i < m + 1 → ¬OccursAt sub (c :: s) i := by
    intro i m h hi
    cases i with
    | zero => exact h0
    | succ i => exact fun h' => h i (by omega) (occursAt_succ.1 h')
  cases h with
  | none h => exact .none fun i => step i (i + 1) (fun j _ => h j) (by omega)
  | @next p q n h1 h2 => exact Leftmost.next (p := c :: p) (fun i hi => step i p.length h1 hi) h2

theorem countStr_spec (t s : Str) (h : t ≠ []) : Leftmost t s (countStr t s) := by
  rw [countStr, if_neg (by simpa using h)]
  generalize hn : s.length = n
  induction n using Nat.strongRecOn generalizing s with
  | _ n ih =>
    cases s with
    | nil => exact .none fun i hi => h (occursAt_nil.1 hi).1
    | cons c s =>
      rw [countAux]
      by_cases hp : t.isPrefixOf (c :: s) = true
      · rw [if_pos hp, countAux_drop]
        obtain ⟨q, hq⟩ := List.isPrefixOf_iff_prefix.1 hp
        have hlen := congrArg List.length hq
        have hpos := List.length_pos_iff.2 h
        simp only [List.length_append, List.length_cons] at hlen hn
        have e : s.drop (t.length - 1) = q := by
          have : (c :: s).drop t.length = q := by rw [← hq, List.drop_left]
          rw [← this]
          cases t with
          | nil => exact absurd rfl h
          | cons d t => rfl
        rw [e, ← hq]
        exact Leftmost.next (p := []) (by simp) (ih q.length (by omega) q rfl)
      · rw [if_neg hp]
        refine (ih s.length (by simp at hn; omega) s rfl).cons ?_
        rw [occursAt_zero]
        exact fun h' => hp (List.isPrefixOf_iff_prefix.2 h')

theorem countP_spec {α : Type} (p : α → Bool) (P : α → Prop) (hp : ∀ x, p x = true ↔ P x) (l : List α) :
    Occurrences P l (l.countP p) := by
  induction l with
  | nil => exact .nil
  | cons x l ih =>
    cases e : p x
    · rw [List.countP_cons_of_neg (by simp [e])]
      exact .miss (fun h => by rw [(hp x).2 h] at e; cases e) ih
    · rw [List.countP_cons_of_pos e]
      exact .hit ((hp x).1 e) ih

theorem inOps : ((op2 (s% "N")).Whole ∧ (op2 (s% "N")).fn = .IN) ∧ (op2 (s% "NI")).Whole ∧ (op2 (s% "NI")).fn = .NOTIN := by
  decide +kernel

theorem inOps_spec {v w u u' : Val} (h : ∀ R : Rec X, opIN R v w = pure (.v u)) (h' : notIn X v w = .ok u')
    (hv0 : v.isBlock = false) (hw0 : w.isBlock = false)
    (a b : Tree) (s s1 s2 : St X) (ha : a.notOpr = true) (hbn : b.notOpr = true) (hv : Vals a s (.ok v, s1))
    (hw : Vals b s1 (.ok w, s2)) :
    (∀ out, Evals (.node (op2 (s% "N")) [a, b]) s out ↔ out = (.ok (.v u), s2)) ∧
      ∀ out, Evals (.node (op2 (s% "NI")) [a, b]) s out ↔ out = (.ok (.v u'), s2) := by
  obtain ⟨⟨h1, h5⟩, h6, h10⟩ := inOps
  have hn : ∀ t ∈ [a, b], t.notOpr = true := by simp [ha, hbn]
  have hblk : ∀ x ∈ [v, w], x.isBlock = false := by simp [hv0, hw0]
  constructor
  · refine h1.result hn (mapEach_two hv hw) hblk (r := (.ok (.v u), s2)) ok_ne_fuel fun R => ?_
    rw [h5]
    exact congrFun (h R) s2
  · refine h6.result hn (mapEach_two hv hw) hblk (r := (.ok (.v u'), s2)) ok_ne_fuel fun R => ?_
    rw [h10]
    rw [valOp_pure R .NOTIN rfl]
    have e : pureOp X .NOTIN [v, w] = .ok (some u') := by
      show (some <$> notIn X v w : Except Exc (Option Val)) = _
      rw [h']
      rfl
    rw [e]
    rfl

/-- `x N l` is the number of items equal to `x`, `x NI l` whether there is none. -/
theorem C49_list (a b : Tree) (s s1 s2 : St X) (l : List Val) (x : Val) (ha : a.notOpr = true) (hb : b.notOpr = true)
    (hv : Vals a s (.ok x, s1)) (hw : Vals b s1 (.ok (.list l), s2)) (hx : x.isBlock = false) :
    ∃ (n : Nat) (t : Bool), (∀ out, Evals (.node (op2 (s% "N")) [a, b]) s out ↔ out = (.ok (.v (ofInt n)), s2)) ∧
      (∀ out, Evals (.node (op2 (s% "NI")) [a, b]) s out ↔ out = (.ok (.v (ofBool t)), s2)) ∧
      Occurrences (fun y => pyEq x y = true) l n ∧ (t = true ↔ n = 0) ∧ (t = true ↔ ∀ y ∈ l, ¬pyEq x y = true) := by
  have h := inOps_spec (X := X) (v := x) (w := .list l) (u := ofInt (l.countP (pyEq x))) (u' := ofBool (!l.any (pyEq x))) ?_ ?_ hx rfl a b
    s s1 s2 ha hb hv hw
  · refine ⟨_, _, h.1, h.2, countP_spec _ _ (fun _ => Iff.rfl) l, ?_, ?_⟩
    · simp [List.countP_eq_zero]
    · simp
  · intro R
    cases x <;> rfl
  · cases x <;> rfl

/-- For strings, numbers, nil and lists of them, equal values are the same. -/
theorem C49_plain (x : Val) (l : List Val) (n : Nat) (hx : x.plain = true) :
    Occurrences (fun y => pyEq x y = true) l n ↔ Occurrences (fun y => y = x) l n := by
  have e : (fun y => pyEq x y = true) = fun y => y = x := by
    funext y
    exact propext ((pyEq_plain x y hx).trans eq_comm)
  rw [e]

/-- `t N s` counts the occurrences of a string from left to right without overlap. -/
theorem C49_string (a b : Tree) (s s1 s2 : St X) (t u : Str) (ha : a.notOpr = true) (hb : b.notOpr = true)
    (hv : Vals a s (.ok (.scalar t), s1)) (hw : Vals b s1 (.ok (.scalar u), s2)) :
    ∃ (n : Nat) (r : Bool), (∀ out, Evals (.node (op2 (s% "N")) [a, b]) s out ↔ out = (.ok (.v (ofInt n)), s2)) ∧
      (∀ out, Evals (.node (op2 (s% "NI")) [a, b]) s out ↔ out = (.ok (.v (ofBool r)), s2)) ∧
      (t ≠ [] → Leftmost t u n) ∧ (t = [] → n = u.length + 1) ∧ (r = true ↔ ∀ i, ¬OccursAt t u i) := by
  have h := inOps_spec (X := X) (v := .scalar t) (w := .scalar u) (u := ofInt (countStr t u)) (u' := ofBool (!isSub t u)) (fun R => rfl) rfl
    rfl rfl a b s s1 s2 ha hb hv hw
  refine ⟨_, _, h.1, h.2, countStr_spec t u, ?_, ?_⟩
  · rintro rfl
    rfl
  · rw [Bool.not_eq_true', ← Bool.not_eq_true, isSub_iff]
    simp

/-- Integers in Ranges -/
theorem C49_range (a b : Tree) (s s1 s2 : St X) (lo hi : Option Int) (k : Int) (ha : a.notOpr = true) (hb : b.notOpr = true)
    (hv : Vals a s (.ok (ofInt k), s1)) (hw : Vals b s1 (.ok (.range lo hi), s2)) :
    ∃ t : Bool, (∀ out, Evals (.node (op2 (s% "N")) [a, b]) s out ↔ out = (.ok (.v (ofInt (if t then 0 else 1))), s2)) ∧
      (∀ out, Evals (.node (op2 (s% "NI")) [a, b]) s out ↔ out = (.ok (.v (ofBool t)), s2)) ∧
      (t = true ↔ ∀ i, ¬RangeAt k lo hi i) := by
  obtain ⟨c, h1, h2⟩ : ∃ c, Val.contains X (ofInt k) (.range lo hi) = .ok c ∧ (c = true ↔ ∃ i, RangeAt k lo hi i) := by
    refine ⟨decide (lo0 lo ≤ k) && (match hi with | some h => decide (k < h) | none => true), ?_, ?_⟩
    · cases hi <;> simp only [Val.contains, ofInt, toNum_showInt] <;> rfl
    · rw [Bool.and_eq_true, decide_eq_true_eq]
      constructor
      · rintro ⟨h1, h2⟩
        refine ⟨(k - lo.getD 0).toNat, ?_, ?_⟩
        · simp only [lo0] at h1
          omega
        · rintro h rfl
          simpa using h2
      · rintro ⟨i, h1, h2⟩
        refine ⟨by simp only [lo0]; omega, ?_⟩
        cases hi with
        | none => rfl
        | some h => simpa using h2 h rfl
  have h := inOps_spec (X := X) (v := ofInt k) (w := .range lo hi) (u := ofInt (if c then 1 else 0)) (u' := ofBool (!c)) ?_ ?_
    rfl rfl a b s s1 s2 ha hb hv hw
  · refine ⟨!c, ?_, h.2, ?_⟩
    · have e : (if (!c) = true then (0 : Int) else 1) = if c = true then 1 else 0 := by cases c <;> rfl
      rw [e]
      exact h.1
    · rw [Bool.not_eq_true', ← Bool.not_eq_true, h2]
      simp
  · intro R
    have e : Val.count X (ofInt k) (.range lo hi) = .ok (ofInt (if c then 1 else 0)) := by simp only [Val.count, h1]
    show (M.lift (Val.count X (ofInt k) (.range lo hi)) >>= fun c => pure (Res.v (scalarOf c)) : M X Res) = _
    rw [e]
    rfl
  · show (Val.contains X (ofInt k) (.range lo hi) >>= fun c => pure (ofBool (!c)) : Except Exc Val) = _
    rw [h1]
    rfl

example : toyOut (s% "P4N[4 5 4]P4NI[4 5 4]P[]N[4[]]P\"aa\"N\"aaaaa\"P\"b\"NI\"aa\"P\"\"N\"abc\"P7N(5,9)P9NI(5,9)") [] [] =
    some (s% "2\n0\n1\n2\n1\n4\n1\n1\n1\n") := by decide +kernel

end Pip
