import Verif.Lemmas.RexOrder
/-!
# What the groups capture
-/

namespace Pip
open Rex Re

theorem times_caps {body : Pos → List Pos} (hb : ∀ p q, q ∈ body p → q.caps = p.caps) (n : Nat) : ∀ p q, q ∈ times body n p → q.caps = p.caps := by
  induction n with
  | zero => intro p q h; rw [times, List.mem_singleton] at h; rw [h]
  | succ n ih =>
    intro p q h
    rw [times, List.mem_flatMap] at h
    obtain ⟨x, h1, h2⟩ := h
    exact (ih _ _ h2).trans (hb _ _ h1)

theorem greedy_caps {body : Pos → List Pos} (hb : ∀ p q, q ∈ body p → q.caps = p.caps) (n : Nat) : ∀ m p q, q ∈ greedyMore body n m p → q.caps = p.caps := by
  induction n with
  | zero => intro m p q h; rw [greedyMore, List.mem_singleton] at h; rw [h]
  | succ n ih =>
    intro m p q h
    rw [greedyMore] at h
    split at h
    · rw [List.mem_singleton] at h; rw [h]
    · rcases List.mem_append.1 h with h | h
      · rw [List.mem_flatMap] at h
        obtain ⟨x, h1, h2⟩ := h
        split at h2
        · rw [List.mem_singleton] at h2; rw [h2]; exact hb _ _ h1
        · exact (ih _ _ _ h2).trans (hb _ _ h1)
      · rw [List.mem_singleton] at h; rw [h]

theorem lazy_caps {body : Pos → List Pos} (hb : ∀ p q, q ∈ body p → q.caps = p.caps) (n : Nat) : ∀ m p q, q ∈ lazyMore body n m p → q.caps = p.caps := by
  induction n with
  | zero => intro m p q h; rw [lazyMore, List.mem_singleton] at h; rw [h]
  | succ n ih =>
    intro m p q h
    rw [lazyMore] at h
    split at h
    · rw [List.mem_singleton] at h; rw [h]
    · rcases List.mem_cons.1 h with h | h
      · rw [h]
      · rw [List.mem_flatMap] at h
        obtain ⟨x, h1, h2⟩ := h
        split at h2
        · rw [List.mem_singleton] at h2; rw [h2]; exact hb _ _ h1
        · exact (ih _ _ _ h2).trans (hb _ _ h1)

theorem eatRef_caps {E : Env} (t : Str) : ∀ p q, q ∈ eatRef E t p → q.caps = p.caps := by
  induction t with
  | nil => intro p q h; rw [eatRef, List.mem_singleton] at h; rw [h]
  | cons c t ih =>
    intro p q h
    rw [eatRef] at h
    split at h
    · split at h
      · have := ih _ _ h
        exact this
      · cases h
    · cases h

/-- Without groups nothing is captured. -/
theorem free_caps {E : Env} (r : Rx) : r.capFree = true → ∀ p q, q ∈ r.run E p → q.caps = p.caps := by
  induction r with
  | eps => intro _ p q h; rw [Rx.run, List.mem_singleton] at h; rw [h]
  | set neg items =>
    intro _ p q h
    rw [Rx.run] at h
    split at h
    · split at h
      · rw [List.mem_singleton] at h; rw [h]
      · cases h
    · cases h
  | dot =>
    intro _ p q h
    rw [Rx.run] at h
    split at h
    · split at h
      · rw [List.mem_singleton] at h; rw [h]
      · cases h
    · cases h
  | bol | eol | start | stop =>
    intro _ p q h
    rw [Rx.run] at h
    split at h
    · rw [List.mem_singleton] at h; rw [h]
    · cases h
  | wordb neg =>
    intro _ p q h
    rw [Rx.run] at h
    split at h
    · cases h
    · split at h
      · rw [List.mem_singleton] at h; rw [h]
      · cases h
  | seq a b iha ihb =>
    intro hf p q h
    rw [Rx.capFree, Bool.and_eq_true] at hf
    rw [Rx.run, List.mem_flatMap] at h
    obtain ⟨x, h1, h2⟩ := h
    exact (ihb hf.2 _ _ h2).trans (iha hf.1 _ _ h1)
  | alt a b iha ihb =>
    intro hf p q h
    rw [Rx.capFree, Bool.and_eq_true] at hf
    rw [Rx.run] at h
    rcases List.mem_append.1 h with h | h
    · exact iha hf.1 _ _ h
    · exact ihb hf.2 _ _ h
  | cap k a _ => intro hf; cases hf
  | ref k =>
    intro _ p q h
    rw [Rx.run] at h
    split at h
    · exact eatRef_caps _ _ _ h
    · cases h
  | rep a lo hi g ih =>
    intro hf p q h
    rw [Rx.run, List.mem_flatMap] at h
    obtain ⟨x, h1, h2⟩ := h
    have hb := ih hf
    split at h2
    · exact (greedy_caps hb _ _ _ _ h2).trans (times_caps hb _ _ _ h1)
    · exact (lazy_caps hb _ _ _ _ h2).trans (times_caps hb _ _ _ h1)
  | ahead neg a ih =>
    intro hf p q h
    rw [Rx.run] at h
    split at h
    · next x l e =>
      split at h
      · cases h
      · rw [List.mem_singleton] at h; rw [h]; exact ih hf p x (by rw [e]; simp)
    · split at h
      · rw [List.mem_singleton] at h; rw [h]
      · cases h
  | behind neg w a ih =>
    intro hf p q h
    rw [Rx.run] at h
    split at h
    · dsimp only at h
      split at h
      · next x l e =>
        split at h
        · cases h
        · rw [List.mem_singleton] at h; rw [h]
          have := ih hf _ x (by rw [e]; simp)
          exact this
      · split at h
        · rw [List.mem_singleton] at h; rw [h]
        · cases h
    · split at h
      · rw [List.mem_singleton] at h; rw [h]
      · cases h

/-- The groups set after parts, if the next group has the number `k` -/
def capsAfter (k : Nat) : List (Str × Nat × Nat) → List (Nat × Nat × Nat) → List (Nat × Nat × Nat)
  | [], acc => acc
  | (_, i, j) :: l, acc => capsAfter (k + 1) l ((k, i, j) :: acc)

theorem lookup_before {j : Nat} (l : List (Str × Nat × Nat)) : ∀ k acc, j < k → (capsAfter k l acc).lookup j = acc.lookup j := by
  induction l with
  | nil => intro k acc _; rfl
  | cons x l ih =>
    intro k acc h
    rw [capsAfter, ih _ _ (by omega), List.lookup_cons]
    have : (j == k) = false := by simp; omega
    rw [this]

theorem lookup_caps (l : List (Str × Nat × Nat)) : ∀ k acc n, n < l.length → (capsAfter k l acc).lookup (k + n) = l[n]?.map (·.2) := by
  induction l with
  | nil => intro k acc n h; simp at h
  | cons x l ih =>
    intro k acc n h
    cases n with
    | zero =>
      rw [capsAfter, lookup_before l _ _ (by omega)]
      simp
    | succ n =>
      rw [capsAfter]
      have := ih (k + 1) ((k, x.2.1, x.2.2) :: acc) n (by simpa using h)
      rw [show k + (n + 1) = k + 1 + n by omega]
      simpa using this

/-- What the parser makes of parts -/
def Captures (E : Env) (r : Rx) (k : Nat) (l : List (Bool × Meaning)) : Prop :=
  ∀ p q, q ∈ r.run E p → ∃ ws, q.pre = p.pre ++ ws.flatten ∧ p.post = ws.flatten ++ q.post ∧ Fits l p.pre ws q.post ∧
    q.caps = capsAfter k (captured p.pre.length l ws) p.caps

def groupsIn (l : List (Bool × Meaning)) : Nat := (l.filter (·.1)).length

theorem parts_ok {db : CharDb} {f : Flags} {t : Str} {l : List (Bool × Meaning)} (h : Parts (reSem db f) t l) :
    (∀ n C rest, 4 * t.length + 1 ≤ n → EndOk (fun c => c = '|' ∨ c = ')') rest → ∃ r C', parseBranch n C (t ++ rest) = .ok (r, C', rest) ∧
      Captures ⟨db, f⟩ r C.next l ∧ C'.next = C.next + groupsIn l) ∧
    ∃ m, Branch (reSem db f) t m := by
  induction h with
  | nil =>
    refine ⟨?_, _, .nil⟩
    intro n C rest hn hr
    obtain ⟨n, rfl⟩ : ∃ k, n = k + 1 := ⟨n - 1, by omega⟩
    refine ⟨.eps, C, ?_, ?_, rfl⟩
    · cases rest with
      | nil => simp [parseBranch]
      | cons c rest => simp [parseBranch, hr c rest rfl]
    · intro p q h
      rw [Rx.run, List.mem_singleton] at h
      subst h
      exact ⟨[], by simp, by simp, trivial, rfl⟩
  | @one t u m l ht hu ih =>
    obtain ⟨ih, k, hb⟩ := ih
    refine ⟨?_, _, .cons (.one (.one ht)) hb⟩
    intro n C rest hn hr
    simp only [List.length_append] at hn
    obtain ⟨n, rfl⟩ : ∃ k, n = k + 1 := ⟨n - 1, by omega⟩
    have hne := one_pos ht
    obtain ⟨c, v, r, rfl, hc, h1, h3, h8⟩ := one_ok ht n C (u ++ rest) (by omega)
    obtain ⟨b, C2, h5, h6, h7⟩ := ih n C rest (by omega) hr
    refine ⟨.seq r b, C2, by simpa using branch_step hc h1 (quantify_none (after_branch class_head hb hr) r false) h5, ?_, h7⟩
    have hta : Tracks (r.run ⟨db, f⟩) (.chr m) := h3.den ▸ Rx.tracks ⟨db, f⟩ r h3.noRef
    intro p q hq
    rw [Rx.run, List.mem_flatMap] at hq
    obtain ⟨x, hx, hq⟩ := hq
    obtain ⟨w, g1, g2, g3⟩ := hta.sound _ _ hx
    obtain ⟨ws, g4, g5, g6, g7⟩ := h6 _ _ hq
    refine ⟨w :: ws, by simp [g4, g1], by simp [g2, g5], ⟨by rw [← g5]; exact g3, by rw [← g1]; exact g6⟩, ?_⟩
    rw [g7, free_caps r (Rx.single.capFree h8) _ _ hx, g1, List.length_append]
    rfl
  | @plain t u m l ht hf hu ih =>
    obtain ⟨ih, k, hb⟩ := ih
    refine ⟨?_, _, .cons ht hb⟩
    intro n C rest hn hr
    simp only [List.length_append] at hn
    obtain ⟨n, rfl⟩ : ∃ k, n = k + 1 := ⟨n - 1, by omega⟩
    have hne : 0 < t.length := List.length_pos_iff.2 ht.ne_nil
    obtain ⟨c, v, a, isAt, s, C1, r, rfl, hc, h1, h2, h3, h4⟩ := parse_piece_ok ht n C (u ++ rest) (by omega) (after_branch class_head hb hr)
    obtain ⟨b, C2, h5, h6, h7⟩ := ih n C1 rest (by omega) hr
    obtain ⟨h8, h9⟩ := h4.free hf
    refine ⟨.seq r b, C2, by simpa using branch_step hc h1 h2 h5, ?_, by rw [h7, h9]; rfl⟩
    have hta : Tracks (r.run ⟨db, f⟩) m := h3.den ▸ Rx.tracks ⟨db, f⟩ r h3.noRef
    intro p q hq
    rw [Rx.run, List.mem_flatMap] at hq
    obtain ⟨x, hx, hq⟩ := hq
    obtain ⟨w, g1, g2, g3⟩ := hta.sound _ _ hx
    obtain ⟨ws, g4, g5, g6, g7⟩ := h6 _ _ hq
    refine ⟨w :: ws, by simp [g4, g1], by simp [g2, g5], ⟨by rw [← g5]; exact g3, by rw [← g1]; exact g6⟩, ?_⟩
    rw [g7, h9, free_caps r h8 _ _ hx, g1, List.length_append]
    rfl
  | @group t u m l ht hf hu ih =>
    obtain ⟨ih, k, hb⟩ := ih
    refine ⟨?_, _, .cons (.one (.capture ht)) hb⟩
    intro n C rest hn hr
    simp only [List.length_append, List.length_cons, List.length_nil] at hn
    obtain ⟨n, rfl⟩ : ∃ k, n = k + 2 := ⟨n - 2, by omega⟩
    obtain ⟨r, C1, h1, h2, h3⟩ := parse_alts_ok ht n C.push (')' :: (u ++ rest)) (by omega) (by rintro _ _ ⟨⟩; rfl)
    obtain ⟨b, C2, h5, h6, h7⟩ := ih (n + 1) (C1.pop C) rest (by omega) hr
    obtain ⟨h8, h9⟩ := h3.free hf
    have h10 : (C1.pop C).next = C.next + 1 := h9
    refine ⟨.seq (.cap C.next r) b, C2, ?_, ?_, ?_⟩
    · have hq : ∀ x, t ++ ')' :: (u ++ rest) ≠ '?' :: x := by
        intro x hx
        rcases ht.head class_head with rfl | ⟨c, u, rfl, hc⟩
        · exact absurd (List.cons.inj hx).1 (by decide)
        · obtain ⟨rfl, _⟩ := List.cons.inj hx
          exact absurd hc (by decide)
      have ha : parseAtom (n + 1) C '(' (t ++ ')' :: (u ++ rest)) = .ok (.cap C.next r, false, C1.pop C, u ++ rest) := by
        simp only [parseAtom, show ('(' : Char) ≠ '.' by decide, show ('(' : Char) ≠ '^' by decide, show ('(' : Char) ≠ '$' by decide,
          show ('(' : Char) ≠ '\\' by decide, show ('(' : Char) ≠ '[' by decide, if_false, if_true]
        simp [h1, closing, bind, Except.bind, pure, Except.pure]
      simpa using branch_step (c := '(') rfl ha (quantify_none (after_branch class_head hb hr) _ _) h5
    · have hta : Tracks (r.run ⟨db, f⟩) m := h2.den ▸ Rx.tracks ⟨db, f⟩ r h2.noRef
      intro p q hq
      rw [Rx.run, List.mem_flatMap] at hq
      obtain ⟨x, hx, hq⟩ := hq
      rw [Rx.run, List.mem_map] at hx
      obtain ⟨x, hx, rfl⟩ := hx
      obtain ⟨w, g1, g2, g3⟩ := hta.sound _ _ hx
      obtain ⟨ws, g4, g5, g6, g7⟩ := h6 _ _ hq
      dsimp only at g4 g5 g6 g7
      refine ⟨w :: ws, by simp [g4, g1], by simp [g2, g5], ⟨by rw [← g5]; exact g3, by rw [← g1]; exact g6⟩, ?_⟩
      rw [g7, h10, free_caps r h8 _ _ hx, g1, List.length_append]
      rfl
    · rw [h7, h10]
      simp [groupsIn]
      omega

end Pip
