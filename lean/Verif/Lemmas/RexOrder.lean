import Verif.Lemmas.RexFind
/-!
# Which match is found
-/

namespace Pip
open Rex Re

/-- The first match found is the preferred one from where it begins. -/
theorem seek_head {E : Env} {r : Rx} {st : Str} {q : Pos} (post : Str) : ∀ pre : Str, seekFrom E r pre false post = some (st, q) →
    ∃ post', pre ++ post = st ++ post' ∧ (r.run E ⟨st, post', []⟩).head? = some q := by
  have hf : ∀ (l : List Pos) (n : Nat), (l.find? fun q => !(false && q.post.length == n)) = l.head? := by
    intro l n
    cases l <;> rfl
  induction post with
  | nil =>
    intro pre h
    rw [seekFrom, hf] at h
    cases e : (r.run E ⟨pre, [], []⟩).head? with
    | none => simp [e] at h
    | some q' =>
      rw [e] at h
      obtain ⟨rfl, rfl⟩ : pre = st ∧ q' = q := by simpa using h
      exact ⟨[], rfl, e⟩
  | cons c post ih =>
    intro pre h
    rw [seekFrom, hf] at h
    cases e : (r.run E ⟨pre, c :: post, []⟩).head? with
    | none =>
      rw [e] at h
      obtain ⟨post', h1, h2⟩ := ih _ h
      exact ⟨post', by simpa using h1, h2⟩
    | some q' =>
      rw [e] at h
      obtain ⟨rfl, rfl⟩ : pre = st ∧ q' = q := by simpa using h
      exact ⟨c :: post, rfl, e⟩

/-- What is left when a regular expression that matches one character matches -/
theorem single_run {E : Env} {r : Rx} (h : r.single = true) (p : Pos) :
    r.run E p = [] ∨ ∃ q, r.run E p = [q] ∧ q.post.length + 1 = p.post.length := by
  obtain ⟨pre, post, caps⟩ := p
  cases r <;> first | cases h | skip
  all_goals
    cases post with
    | nil => left; rfl
    | cons c post =>
      simp only [Rx.run]
      split
      · right; exact ⟨_, rfl, rfl⟩
      · left; rfl

section
variable {body : Pos → List Pos} (hb : ∀ p, body p = [] ∨ ∃ q, body p = [q] ∧ q.post.length + 1 = p.post.length)
include hb

theorem times_single (n : Nat) : ∀ p, times body n p = [] ∨ ∃ q, times body n p = [q] := by
  induction n with
  | zero => exact fun p => .inr ⟨p, rfl⟩
  | succ n ih =>
    intro p
    rw [times]
    rcases hb p with h | ⟨q, h, _⟩
    · left; rw [h]; rfl
    · rw [h]
      simpa using ih q

theorem greedy_sorted (n : Nat) : ∀ m p, (greedyMore body n m p).Pairwise (fun a b => a.post.length ≤ b.post.length) ∧
    ∀ q ∈ greedyMore body n m p, q.post.length ≤ p.post.length := by
  induction n with
  | zero => intro m p; simp [greedyMore]
  | succ n ih =>
    intro m p
    rw [greedyMore]
    split
    · simp
    · rcases hb p with h | ⟨q, h, hl⟩
      · simp [h]
      · obtain ⟨h1, h2⟩ := ih (less m) q
        have hne : ¬ q.post.length = p.post.length := by omega
        simp only [h, List.flatMap_cons, List.flatMap_nil, List.append_nil, hne, if_false]
        constructor
        · rw [List.pairwise_append]
          refine ⟨h1, by simp, ?_⟩
          intro a ha b hb
          rw [List.mem_singleton] at hb
          subst hb
          have := h2 a ha
          omega
        · intro a ha
          rcases List.mem_append.1 ha with ha | ha
          · have := h2 a ha
            omega
          · rw [List.mem_singleton] at ha
            rw [ha]
            exact Nat.le_refl _

theorem lazy_sorted (n : Nat) : ∀ m p, (lazyMore body n m p).Pairwise (fun a b => b.post.length ≤ a.post.length) ∧
    ∀ q ∈ lazyMore body n m p, q.post.length ≤ p.post.length := by
  induction n with
  | zero => intro m p; simp [lazyMore]
  | succ n ih =>
    intro m p
    rw [lazyMore]
    split
    · simp
    · rcases hb p with h | ⟨q, h, hl⟩
      · simp [h]
      · obtain ⟨h1, h2⟩ := ih (less m) q
        have hne : ¬ q.post.length = p.post.length := by omega
        simp only [h, List.flatMap_cons, List.flatMap_nil, List.append_nil, hne, if_false]
        constructor
        · rw [List.pairwise_cons]
          refine ⟨?_, h1⟩
          intro a ha
          have := h2 a ha
          omega
        · intro a ha
          rcases List.mem_cons.1 ha with rfl | ha
          · exact Nat.le_refl _
          · have := h2 a ha
            omega
end

theorem rep_greedy_sorted {E : Env} {a : Rx} (h : a.single = true) (lo : Nat) (hi : Option Nat) (p : Pos) :
    ((Rx.rep a lo hi true).run E p).Pairwise fun x y => x.post.length ≤ y.post.length := by
  rw [Rx.run]
  rcases times_single (single_run h (E := E)) lo p with e | ⟨q, e⟩
  · simp [e]
  · simp only [e, List.flatMap_cons, List.flatMap_nil, List.append_nil, if_true]
    exact (greedy_sorted (single_run h) _ _ _).1

theorem rep_lazy_sorted {E : Env} {a : Rx} (h : a.single = true) (lo : Nat) (hi : Option Nat) (p : Pos) :
    ((Rx.rep a lo hi false).run E p).Pairwise fun x y => y.post.length ≤ x.post.length := by
  rw [Rx.run]
  rcases times_single (single_run h (E := E)) lo p with e | ⟨q, e⟩
  · simp [e]
  · simp only [e, List.flatMap_cons, List.flatMap_nil, List.append_nil, Bool.false_eq_true, if_false]
    exact (lazy_sorted (single_run h) _ _ _).1

/-- The first result of one thing after another comes from the first result of the first that can be continued. -/
theorem head_ways {α β : Type} {R : α → α → Prop} (hR : ∀ a, R a a) (g : α → List β) : ∀ (l : List α) (y : β), l.Pairwise R →
    (l.flatMap g).head? = some y → ∃ x ∈ l, y ∈ g x ∧ ∀ x' ∈ l, g x' ≠ [] → R x x' := by
  intro l
  induction l with
  | nil => intro y _ h; simp at h
  | cons a l ih =>
    intro y hp h
    rw [List.pairwise_cons] at hp
    cases hg : g a with
    | nil =>
      simp only [List.flatMap_cons, hg, List.nil_append] at h
      obtain ⟨x, h1, h2, h3⟩ := ih y hp.2 h
      refine ⟨x, List.mem_cons_of_mem _ h1, h2, ?_⟩
      intro x' hx hne
      rcases List.mem_cons.1 hx with rfl | hx
      · exact absurd hg hne
      · exact h3 x' hx hne
    | cons b t =>
      simp only [List.flatMap_cons, hg, List.cons_append, List.head?_cons, Option.some.injEq] at h
      subst h
      refine ⟨a, List.mem_cons_self, by simp [hg], ?_⟩
      intro x' hx _
      rcases List.mem_cons.1 hx with rfl | hx
      · exact hR _
      · exact hp.1 x' hx

/-- The wrapping of the whole regular expression in a group -/
theorem cap_head {E : Env} {r : Rx} {p q : Pos} (h : ((Rx.seq (.cap 1 r) .eps).run E p).head? = some q) :
    ∃ x, (r.run E p).head? = some x ∧ x.pre = q.pre ∧ x.post = q.post := by
  simp only [Rx.run] at h
  cases e : r.run E p with
  | nil => simp [e] at h
  | cons x l =>
    simp only [e, List.map_cons, List.flatMap_cons, List.cons_append, List.nil_append, List.head?_cons, Option.some.injEq] at h
    exact ⟨x, rfl, by rw [← h], by rw [← h]⟩

/-- `r` prefers, of the ways to match texts of `k₀` with `n` characters, of `m` and of `k` one after the other, those where the
lengths of the second text are before the others. -/
def Leads (E : Env) (r : Rx) (n : Nat) (k₀ m k : Meaning) (le : Nat → Nat → Prop) : Prop :=
  ∀ p y, (r.run E p).head? = some y → ∃ v w z, y.pre = p.pre ++ v ++ w ++ z ∧ p.post = v ++ w ++ z ++ y.post ∧ v.length = n ∧
    k₀ p.pre v (w ++ z ++ y.post) ∧ m (p.pre ++ v) w (z ++ y.post) ∧ k (p.pre ++ v ++ w) z y.post ∧
    ∀ w' z' post, p.post = v ++ w' ++ z' ++ post → m (p.pre ++ v) w' (z' ++ post) → k (p.pre ++ v ++ w') z' post → le w'.length w.length

theorem leads_rep {db : CharDb} {f : Flags} {a b : Rx} {m k : Meaning} {le : Nat → Nat → Prop} (ha : a.Means db f m) (hb : b.Means db f k)
    (hl : ∀ n, le n n) (hs : ∀ p, (a.run ⟨db, f⟩ p).Pairwise fun x y => ∀ l, x.post.length ≤ l → y.post.length ≤ l →
      le (l - y.post.length) (l - x.post.length)) : Leads ⟨db, f⟩ (.seq a b) 0 .eps m k le := by
  have hta : Tracks (a.run ⟨db, f⟩) m := ha.den ▸ Rx.tracks ⟨db, f⟩ a ha.noRef
  have htb : Tracks (b.run ⟨db, f⟩) k := hb.den ▸ Rx.tracks ⟨db, f⟩ b hb.noRef
  intro p y hy
  rw [Rx.run] at hy
  obtain ⟨x, h1, h2, h3⟩ := head_ways (fun a l _ _ => hl _) _ _ _ (hs p) hy
  obtain ⟨w, h4, h5, h6⟩ := hta.sound _ _ h1
  obtain ⟨z, h7, h8, h9⟩ := htb.sound _ _ h2
  refine ⟨[], w, z, by simp [h7, h4], by simp [h5, h8], rfl, rfl, by simpa [← h8] using h6, by simpa [← h4] using h9, ?_⟩
  intro w' z' post hp hm hk
  simp only [List.nil_append, List.append_nil, List.append_assoc] at hp hm hk
  obtain ⟨x', h10, h11, h12⟩ := hta.complete p w' (z' ++ post) hp hm
  have hne : b.run ⟨db, f⟩ x' ≠ [] := (htb.nonempty x').2 ⟨z', post, h12, by rw [h11]; exact hk⟩
  have e1 := congrArg List.length h5
  have e2 := congrArg List.length hp
  have e3 := congrArg List.length h12
  simp only [List.length_append] at e1 e2 e3
  have := h3 x' h10 hne p.post.length (by omega) (by omega)
  have e4 : p.post.length - x'.post.length = w'.length := by omega
  have e5 : p.post.length - x.post.length = w.length := by omega
  rwa [e4, e5] at this

theorem leads_cons {db : CharDb} {f : Flags} {a b : Rx} {n : Nat} {c : Char → Prop} {k₀ m k : Meaning} {le : Nat → Nat → Prop}
    (ha : a.Means db f (.chr c)) (h1 : a.single = true) (hb : Leads ⟨db, f⟩ b n k₀ m k le) :
    Leads ⟨db, f⟩ (.seq a b) (n + 1) ((Meaning.chr c).seq k₀) m k le := by
  have hta : Tracks (a.run ⟨db, f⟩) (.chr c) := ha.den ▸ Rx.tracks ⟨db, f⟩ a ha.noRef
  intro p y hy
  rw [Rx.run] at hy
  rcases single_run h1 (E := ⟨db, f⟩) p with e | ⟨q, e, _⟩
  · simp [e] at hy
  · simp only [e, List.flatMap_cons, List.flatMap_nil, List.append_nil] at hy
    obtain ⟨v, w, z, h2, h3, h4, h5, h6, h7, h8⟩ := hb q y hy
    obtain ⟨u, h9, h10, d, rfl, hd⟩ := hta.sound p q (by rw [e]; simp)
    refine ⟨d :: v, w, z, by simp [h2, h9], by simp [h10, h3], by simp [h4], ⟨[d], v, rfl, ⟨d, rfl, hd⟩, by rw [← h9]; exact h5⟩,
      by simpa [h9] using h6, by simpa [h9] using h7, ?_⟩
    intro w' z' post hp hm hk
    refine h8 w' z' post ?_ (by simpa [h9] using hm) (by simpa [h9] using hk)
    rw [hp] at h10
    simpa using h10.symm

theorem branch_step {n : Nat} {C C1 C2 : Ctx} {c : Char} {v s s' rest : Str} {a r b : Rx} {isAt : Bool} (hc : atomStart c = true)
    (h1 : parseAtom n C c v = .ok (a, isAt, C1, s)) (h2 : quantify a isAt s = .ok (r, s')) (h3 : parseBranch n C1 s' = .ok (b, C2, rest)) :
    parseBranch (n + 1) C (c :: v) = .ok (.seq r b, C2, rest) := by
  have hc' : ¬ (c = '|' ∨ c = ')') := by
    rintro (rfl | rfl) <;> exact absurd hc (by decide)
  simp only [parseBranch, hc', if_false]
  rw [h1]
  simp only [bind, Except.bind]
  rw [h2]
  simp only
  rw [h3]
  rfl

/-- What the parser makes of a text -/
def LeadsOk (db : CharDb) (f : Flags) (t : Str) (n : Nat) (k₀ m k : Meaning) (le : Nat → Nat → Prop) : Prop :=
  ∀ N C rest, 4 * t.length + 1 ≤ N → EndOk (fun c => c = '|' ∨ c = ')') rest → ∃ r C', parseBranch N C (t ++ rest) = .ok (r, C', rest) ∧
    Leads ⟨db, f⟩ r n k₀ m k le

theorem after_branch {S : Sem} {u rest : Str} {k : Meaning} (hS : ∀ t p, S.other t p → ∃ c v, t = c :: v ∧ starts c = true)
    (h : Branch S u k) (hr : EndOk (fun c => c = '|' ∨ c = ')') rest) : AfterPiece (u ++ rest) := by
  rcases h.head hS with rfl | ⟨c, v, rfl, hc⟩
  · intro c y e
    rcases hr c y (by simpa using e) with rfl | rfl <;> rfl
  · exact .cons (starts_quant hc)

theorem one_pos {db : CharDb} {f : Flags} {t : Str} {p : Char → Prop} (h : One (reSem db f) t p) : 0 < t.length := by
  obtain ⟨c, u, rfl, _⟩ := h.head class_head
  exact Nat.succ_pos _

/-- The longest (`true`) or the shortest is preferred. -/
def Better : Bool → Nat → Nat → Prop
  | true => (· ≤ ·)
  | false => (· ≥ ·)

def SortedBy (E : Env) (g : Bool) (r : Rx) : Prop := ∀ p, (r.run E p).Pairwise fun x y => Better g x.post.length y.post.length

theorem SortedBy.seq_eps {E : Env} {g : Bool} {r : Rx} (h : SortedBy E g r) : SortedBy E g (.seq r .eps) := by
  intro p
  have : (Rx.seq r .eps).run E p = r.run E p := by
    simp [Rx.run]
  rw [this]
  exact h p

theorem SortedBy.cap {E : Env} {g : Bool} {r : Rx} (h : SortedBy E g r) (k : Nat) : SortedBy E g (.cap k r) := by
  intro p
  rw [Rx.run, List.pairwise_map]
  exact h p

def RunOk (db : CharDb) (f : Flags) (g : Bool) (t : Str) (m : Meaning) : Prop :=
  ∀ n C rest, 4 * t.length ≤ n → AfterPiece rest → ∃ c u a isAt s C' r, t = c :: u ∧ atomStart c = true ∧
    parseAtom n C c (u ++ rest) = .ok (a, isAt, C', s) ∧ quantify a isAt s = .ok (r, rest) ∧ r.Means db f m ∧ SortedBy ⟨db, f⟩ g r

/-- A repetition in parentheses -/
theorem run_inner {db : CharDb} {f : Flags} {g : Bool} {t : Str} {m : Meaning} (h : RunOk db f g t m) (n : Nat) (C : Ctx) (rest : Str)
    (hn : 4 * t.length + 2 ≤ n) : ∃ r C', parseAlts n C (t ++ ')' :: rest) = .ok (r, C', ')' :: rest) ∧ r.Means db f m ∧ SortedBy ⟨db, f⟩ g r ∧
      ∀ x, t ++ ')' :: rest ≠ '?' :: x := by
  obtain ⟨n, rfl⟩ : ∃ k, n = k + 3 := by
    obtain ⟨c, u, _, _, _, _, _, rfl, _⟩ := h (4 * t.length) C (')' :: rest) (Nat.le_refl _) (by rintro _ _ ⟨⟩; rfl)
    simp only [List.length_cons] at hn
    exact ⟨n - 3, by omega⟩
  obtain ⟨c, u, a, isAt, s, C', r, rfl, hc, h1, h2, h3, h4⟩ := h (n + 1) C (')' :: rest) (by omega) (by rintro _ _ ⟨⟩; rfl)
  have h5 : parseBranch (n + 2) C (c :: u ++ ')' :: rest) = .ok (.seq r .eps, C', ')' :: rest) :=
    branch_step hc h1 h2 (by simp [parseBranch])
  refine ⟨.seq r .eps, C', ?_, ⟨?_, by simp [Rx.noRef, h3.noRef]⟩, h4.seq_eps, ?_⟩
  · simp only [parseAlts]
    rw [h5]
    rfl
  · show (r.den _).seq .eps = m
    rw [h3.den, Meaning.seq_eps]
  · rintro x hx
    obtain ⟨rfl, _⟩ := List.cons.inj hx
    exact absurd hc (by decide)

theorem run_ok {db : CharDb} {f : Flags} {g : Bool} {t : Str} {m : Meaning} (h : Run (reSem db f) g t m) : RunOk db f g t m := by
  induction h with
  | @greedy t q p lo hi ht hq =>
    intro n C rest hn hr
    have ht0 := one_pos ht
    simp only [List.length_append] at hn
    obtain ⟨c, v, a, rfl, hc, h1, h2, h3⟩ := one_ok ht n C (q ++ rest) (by omega)
    exact ⟨c, v ++ q, a, false, q ++ rest, C, _, rfl, hc, by rw [List.append_assoc]; exact h1, quantify_some (quant_ok hq rest) hr,
      rep_means h2 lo hi (quant_le hq) true, rep_greedy_sorted h3 lo hi⟩
  | @lazy t q p lo hi ht hq =>
    intro n C rest hn hr
    have ht0 := one_pos ht
    simp only [List.length_append] at hn
    obtain ⟨c, v, a, rfl, hc, h1, h2, h3⟩ := one_ok ht n C (q ++ '?' :: rest) (by omega)
    exact ⟨c, v ++ q ++ s% "?", a, false, q ++ '?' :: rest, C, _, rfl, hc, by simpa using h1, quantify_lazy (quant_ok hq _),
      rep_means h2 lo hi (quant_le hq) false, rep_lazy_sorted h3 lo hi⟩
  | @group g t m h ih =>
    intro n C rest hn hr
    simp only [List.length_append, List.length_cons, List.length_nil] at hn
    obtain ⟨n, rfl⟩ : ∃ k, n = k + 2 := ⟨n - 2, by omega⟩
    obtain ⟨r, C', h1, h2, h3, _⟩ := run_inner ih n C rest (by omega)
    refine ⟨'(', '?' :: ':' :: (t ++ s% ")"), r, false, rest, C', r, rfl, rfl, ?_, quantify_none hr _ _, h2, h3⟩
    have e : t ++ s% ")" ++ rest = t ++ ')' :: rest := by simp
    simp only [List.cons_append, e]
    simp [parseAtom, parseExt, h1, closing, bind, Except.bind, pure, Except.pure]
  | @capture g t m h ih =>
    intro n C rest hn hr
    simp only [List.length_append, List.length_cons, List.length_nil] at hn
    obtain ⟨n, rfl⟩ : ∃ k, n = k + 1 := ⟨n - 1, by omega⟩
    obtain ⟨r, C', h1, h2, h3, hq⟩ := run_inner ih n C.push rest (by omega)
    refine ⟨'(', t ++ s% ")", .cap C.next r, false, rest, C'.pop C, _, rfl, rfl, ?_, quantify_none hr _ _, ⟨h2.den, h2.noRef⟩, h3.cap _⟩
    have e : t ++ s% ")" ++ rest = t ++ ')' :: rest := by simp
    rw [e]
    simp only [parseAtom, show ('(' : Char) ≠ '.' by decide, show ('(' : Char) ≠ '^' by decide, show ('(' : Char) ≠ '$' by decide,
      show ('(' : Char) ≠ '\\' by decide, show ('(' : Char) ≠ '[' by decide, if_false, if_true]
    simp [h1, closing, bind, Except.bind, pure, Except.pure]

theorem run_leads {db : CharDb} {f : Flags} {g : Bool} {t u : Str} {m k : Meaning} (ht : Run (reSem db f) g t m) (hu : Branch (reSem db f) u k) :
    LeadsOk db f (t ++ u) 0 .eps m k (Better g) ∧ ∀ rest, AfterPiece (t ++ u ++ rest) := by
  refine ⟨?_, ?_⟩
  · intro N C rest hN hr
    simp only [List.length_append] at hN
    obtain ⟨N, rfl⟩ : ∃ k, N = k + 1 := ⟨N - 1, by omega⟩
    obtain ⟨_, _, _, _, _, _, _, e, _⟩ := run_ok ht (4 * t.length) C [] (Nat.le_refl _) (by rintro _ _ ⟨⟩)
    have ht0 : 0 < t.length := by rw [e]; simp
    obtain ⟨c, v, a, isAt, s, C1, r, rfl, hc, h1, h2, h3, h4⟩ := run_ok ht N C (u ++ rest) (by omega) (after_branch class_head hu hr)
    obtain ⟨b, C2, h5, h6, _⟩ := parse_branch_ok hu N C1 rest (by omega) hr
    refine ⟨_, C2, ?_, leads_rep h3 h6 (by cases g <;> exact fun _ => Nat.le_refl _) ?_⟩
    · simpa using branch_step hc h1 h2 h5
    · intro p
      refine (h4 p).imp ?_
      intro x y hxy l _ _
      cases g
      · simp only [Better, ge_iff_le] at hxy ⊢
        omega
      · simp only [Better] at hxy ⊢
        omega
  · intro rest
    obtain ⟨c, v, _, _, _, _, _, rfl, hc, _⟩ := run_ok ht (4 * t.length) {} [] (Nat.le_refl _) (by rintro _ _ ⟨⟩)
    rintro d y ⟨⟩
    cases hd : isQuant c with
    | false => rfl
    | true =>
      exfalso
      simp only [isQuant, atomStart] at hc hd
      revert hc hd
      simp
      grind

theorem fixed_leads {db : CharDb} {f : Flags} {v u : Str} {n : Nat} {k₀ m k : Meaning} {le : Nat → Nat → Prop}
    (hv : Fixed (reSem db f) v n k₀) (hu : LeadsOk db f u 0 .eps m k le) (hh : ∀ rest, AfterPiece (u ++ rest)) :
    LeadsOk db f (v ++ u) n k₀ m k le := by
  induction hv with
  | nil => exact hu
  | @cons t v p n k₀ ht hv ih =>
    intro N C rest hN hr
    simp only [List.length_append] at hN
    obtain ⟨N, rfl⟩ : ∃ k, N = k + 1 := ⟨N - 1, by omega⟩
    have ht0 := one_pos ht
    obtain ⟨c, w, a, rfl, hc, h1, h2, h3⟩ := one_ok ht N C (v ++ u ++ rest) (by omega)
    obtain ⟨b, C2, h4, h5⟩ := ih N C rest (by rw [List.length_append]; omega) hr
    refine ⟨_, C2, ?_, leads_cons h2 h3 h5⟩
    have ha : AfterPiece (v ++ u ++ rest) := by
      cases hv with
      | nil => exact hh rest
      | cons h h' =>
        obtain ⟨d, x, rfl, hd⟩ := h.head class_head
        exact .cons (starts_quant hd)
    simpa using branch_step hc h1 (quantify_none ha a false) h4

end Pip
