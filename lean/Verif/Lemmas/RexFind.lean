import Verif.Spec.Matches
import Verif.Lemmas.RexRefs
/-!
# Searching with a regular expression
-/

namespace Pip
open Rex Re

theorem between_eq (s : Str) (i j : Nat) : between s i j = (s.take j).drop i := by
  rw [between, List.drop_take]

/-- A position in a string -/
theorem take_pre {s pre post : Str} (h : s = pre ++ post) : s.take pre.length = pre := by
  rw [h, List.take_left]

theorem drop_pre {s pre post : Str} (h : s = pre ++ post) : s.drop pre.length = post := by
  rw [h, List.drop_left]

theorem matchAt_of {m : Meaning} {s pre w post : Str} (h : s = pre ++ w ++ post) (hm : m pre w post) :
    MatchAt m s pre.length (pre ++ w).length := by
  refine ⟨by simp, by rw [h]; simp, ?_⟩
  rw [take_pre (by rw [h, List.append_assoc]), take_pre h, drop_pre h, List.drop_left]
  exact hm

theorem split_at {s : Str} {i j : Nat} (hi : i ≤ j) (hj : j ≤ s.length) :
    s = s.take i ++ (s.take j).drop i ++ s.drop j ∧ (s.take i).length = i ∧ ((s.take j).drop i).length = j - i := by
  refine ⟨?_, by rw [List.length_take]; omega, by rw [List.length_drop, List.length_take]; omega⟩
  have : s.take i = (s.take j).take i := by rw [List.take_take]; congr 1; omega
  rw [this, List.take_append_drop, List.take_append_drop]

/-- What a search from index `i` on finds -/
def SeekOk (m : Meaning) (s : Str) (i : Nat) (adv : Bool) : Option (Str × Pos) → Prop
  | none => ∀ a b, MatchAt m s a b → ¬ Next i adv a b
  | some (st, q) => s = q.pre ++ q.post ∧ MatchAt m s st.length q.pre.length ∧ Next i adv st.length q.pre.length ∧
      (∀ a b, MatchAt m s a b → Next i adv a b → st.length ≤ a) ∧ st = s.take st.length

theorem seek_spec {E : Env} {r : Rx} {m : Meaning} (ht : Tracks (r.run E) m) (s post : Str) : ∀ (pre : Str) (adv : Bool), s = pre ++ post →
    SeekOk m s pre.length adv (seekFrom E r pre adv post) := by
  induction post with
  | nil =>
    intro pre adv hs
    rw [seekFrom]
    cases hq : (r.run E ⟨pre, [], []⟩).find? fun q => !(adv && q.post.length == List.length []) with
    | some q =>
      obtain ⟨w, h1, h2, h3⟩ := ht.sound _ _ (List.mem_of_find?_eq_some hq)
      obtain ⟨rfl, hp⟩ : w = [] ∧ q.post = [] := by simpa using h2.symm
      simp only [List.append_nil] at h1
      have hn := List.find?_some hq
      simp only [hp, List.length_nil, beq_self_eq_true, Bool.and_true, Bool.not_eq_true'] at hn
      simp only [List.append_nil] at hs
      refine ⟨by rw [h1, hp]; simp [hs], ?_, ⟨Nat.le_refl _, by simp [hn]⟩, fun a b _ h => h.1, by simp [hs]⟩
      rw [hp] at h3
      rw [h1]
      simpa using matchAt_of (s := s) (pre := pre) (w := []) (post := []) (by simp [hs]) h3
    | none =>
      rintro a b ⟨h1, h2, h3⟩ ⟨h4, h5⟩
      simp only [List.append_nil] at hs
      subst hs
      obtain rfl : a = s.length := by omega
      obtain rfl : b = s.length := by omega
      obtain ⟨q, hq1, hq2, hq3⟩ := ht.complete ⟨s, [], []⟩ [] [] rfl (by simpa using h3)
      have := List.find?_eq_none.1 hq q hq1
      rw [hq3] at this
      simp only [List.length_nil, beq_self_eq_true, Bool.and_true, Bool.not_eq_true', Bool.not_eq_false] at this
      exact h5 this rfl rfl
  | cons c post ih =>
    intro pre adv hs
    rw [seekFrom]
    cases hq : (r.run E ⟨pre, c :: post, []⟩).find? fun q => !(adv && q.post.length == (c :: post).length) with
    | some q =>
      dsimp only
      obtain ⟨w, h1, h2, h3⟩ := ht.sound _ _ (List.mem_of_find?_eq_some hq)
      dsimp only at h1 h2 h3
      have hn := List.find?_some hq
      have hs' : s = pre ++ w ++ q.post := by rw [hs, h2, List.append_assoc]
      refine ⟨by rw [h1, hs'], ?_, ⟨Nat.le_refl _, ?_⟩, fun a b _ h => h.1, (take_pre hs).symm⟩
      · rw [h1]
        exact matchAt_of hs' h3
      · intro ha _ hb
        rw [h1, List.length_append] at hb
        obtain rfl : w = [] := List.eq_nil_of_length_eq_zero (by omega)
        rw [List.nil_append] at h2
        rw [ha, ← h2] at hn
        simp at hn
    | none =>
      dsimp only
      have h0 : ∀ b, MatchAt m s pre.length b → ¬ Next pre.length adv pre.length b := by
        rintro b ⟨h1, h2, h3⟩ ⟨_, h5⟩
        rw [take_pre hs] at h3
        have he : c :: post = (s.take b).drop pre.length ++ s.drop b := by
          have := (split_at h1 h2).1
          rw [take_pre hs, List.append_assoc] at this
          exact List.append_cancel_left (hs.symm.trans this)
        obtain ⟨q, hq1, hq2, hq3⟩ := ht.complete ⟨pre, c :: post, []⟩ _ _ he h3
        have h6 := List.find?_eq_none.1 hq q hq1
        simp only [Bool.not_eq_true', Bool.not_eq_false, Bool.and_eq_true, beq_iff_eq] at h6
        have h7 : b = pre.length := by
          have h8 := h6.2
          rw [hq3, List.length_drop] at h8
          have h9 := congrArg List.length hs
          rw [List.length_append] at h9
          omega
        exact h5 h6.1 rfl h7
      have hi := ih (pre ++ [c]) false (by rw [hs]; simp)
      have hnx : ∀ a b, MatchAt m s a b → Next pre.length adv a b → Next (pre ++ [c]).length false a b := by
        intro a b hm hn
        refine ⟨?_, by simp⟩
        rw [List.length_append, List.length_singleton]
        rcases Nat.lt_or_ge pre.length a with h | h
        · exact h
        · obtain rfl : a = pre.length := Nat.le_antisymm h hn.1
          exact absurd hn (h0 b hm)
      cases e : seekFrom E r (pre ++ [c]) false post with
      | none =>
        rw [e] at hi
        intro a b hm hn
        exact hi a b hm (hnx a b hm hn)
      | some x =>
        rw [e] at hi
        obtain ⟨st, q⟩ := x
        obtain ⟨h1, h2, h3, h4, h5⟩ := hi
        have h6 : pre.length < st.length := by
          have := h3.1
          rw [List.length_append, List.length_singleton] at this
          omega
        exact ⟨h1, h2, ⟨by omega, by omega⟩, fun a b hm hn => h4 a b hm (hnx a b hm hn), h5⟩

/-- The matches found one after the other -/
theorem allFrom_spec {E : Env} {r : Rx} {m : Meaning} (ht : Tracks (r.run E) m) (k : Nat) (s : Str) (n : Nat) : ∀ (pre post : Str) (adv : Bool),
    s = pre ++ post → 2 * post.length + (if adv then 0 else 1) < n →
    Matches m s pre.length adv ((allFrom E r n pre adv post).map fun x => mkMatch k s x.1 x.2) := by
  induction n with
  | zero => intro _ _ _ _ h; omega
  | succ n ih =>
    intro pre post adv hs hn
    rw [allFrom]
    have hi := seek_spec ht s post pre adv hs
    cases e : seekFrom E r pre adv post with
    | none =>
      rw [e] at hi
      exact .done hi
    | some x =>
      rw [e] at hi
      obtain ⟨st, q⟩ := x
      obtain ⟨h1, h2, h3, h4, _⟩ := hi
      dsimp only
      rw [List.map_cons]
      refine .more h2 (between_eq s _ _) h3 h4 ?_
      have hb : (q.pre.length == st.length) = ((mkMatch k s st q).start == (mkMatch k s st q).stop) := by
        show (q.pre.length == st.length) = (st.length == q.pre.length)
        rw [Bool.eq_iff_iff]
        simp only [beq_iff_eq]
        exact eq_comm
      rw [← hb]
      refine ih q.pre q.post _ h1 ?_
      have h5 := congrArg List.length h1
      have h6 := congrArg List.length hs
      rw [List.length_append] at h5 h6
      have h7 := h2.1
      have h8 := h3.1
      have h9 := h3.2
      by_cases hq : q.pre.length = st.length
      · rw [if_pos (by simpa using hq)]
        by_cases hp : st.length = pre.length
        · cases adv with
          | true => exact absurd (hq.trans hp) (h9 rfl hp)
          | false => simp only [Bool.false_eq_true, if_false] at hn; omega
        · split at hn <;> omega
      · split at hn <;> split <;> omega

theorem tracks_all {db : CharDb} {f : Flags} {r : Rx} {m : Meaning} (h : r.Means db f m) :
    Tracks ((Rx.seq (.cap 1 r) .eps).run ⟨db, f⟩) m := by
  have := Rx.tracks ⟨db, f⟩ (.seq (.cap 1 r) .eps) (by simp [Rx.noRef, h.noRef])
  have hd : (Rx.seq (.cap 1 r) .eps).den ⟨db, f⟩ = m := by
    show (r.den ⟨db, f⟩).seq .eps = m
    rw [h.den, Meaning.seq_eps]
  rwa [hd] at this

end Pip
