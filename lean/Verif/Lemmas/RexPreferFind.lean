import Verif.Lemmas.RexPrefer
/-!
# The preferred match is the one found
-/

namespace Pip.Rex
open Re

theorem find_same {α β γ : Type} {f : α → γ} {g : β → γ} {P : α → Bool} {Q : β → Bool} : ∀ {l : List α} {l' : List β}, l.map f = l'.map g →
    (∀ x y, y ∈ l' → f x = g y → P x = Q y) → (l.find? P).map f = (l'.find? Q).map g := by
  intro l
  induction l with
  | nil =>
    intro l' e _
    cases l' with
    | nil => rfl
    | cons _ _ => cases e
  | cons x l ih =>
    intro l' e h
    cases l' with
    | nil => cases e
    | cons y l' =>
      simp only [List.map_cons, List.cons.injEq] at e
      rw [List.find?_cons, List.find?_cons, h x y (by simp) e.1]
      cases Q y
      · exact ih e.2 fun a b hb => h a b (by simp [hb])
      · simp [e.1]

/-- The first way of matching at a position -/
theorem first_at {body : Pos → List Pos} {o : Order} (h : Follow body o) {s pre post : Str} (hs : s = pre ++ post) {i : Nat} (adv : Bool)
    (b : Bool) (hb : b = (adv && pre.length == i)) :
    ((body ⟨pre, post, []⟩).find? fun q => !(b && q.post.length == post.length)).map Pos.place =
      (o.first s i adv pre.length).map (past pre post) := by
  rw [Order.first, take_pre hs, drop_pre hs]
  refine find_same (h.same _) fun q w hw e => ?_
  have hp := h.part _ _ _ hw
  have h2 : q.post = post.drop w.length := (Prod.ext_iff.1 e).2
  rw [hb, h2, List.length_drop]
  congr 2
  rw [Bool.eq_iff_iff, List.isEmpty_iff, beq_iff_eq, ← List.length_eq_zero_iff]
  have := hp.length_le
  omega

/-- What a search from an index on finds -/
def SeekFirst (o : Order) (s : Str) (i : Nat) (adv : Bool) : Option (Str × Pos) → Prop
  | none => ∀ a, i ≤ a → a ≤ s.length → o.first s i adv a = none
  | some (st, q) => i ≤ st.length ∧ st.length ≤ s.length ∧ (∀ a, i ≤ a → a < st.length → o.first s i adv a = none) ∧
      (∃ w, o.first s i adv st.length = some w ∧ q.pre = st ++ w) ∧ s = q.pre ++ q.post

theorem seek_first {E : Env} {r : Rx} {o : Order} (h : Follow (r.run E) o) (s : Str) (i : Nat) (adv : Bool) (post : Str) : ∀ (pre : Str) (b : Bool),
    s = pre ++ post → i ≤ pre.length → b = (adv && pre.length == i) → (∀ a, i ≤ a → a < pre.length → o.first s i adv a = none) →
    SeekFirst o s i adv (seekFrom E r pre b post) := by
  have found : ∀ {pre post : Str} {b : Bool} {q : Pos}, s = pre ++ post → i ≤ pre.length → b = (adv && pre.length == i) →
      (∀ a, i ≤ a → a < pre.length → o.first s i adv a = none) →
      (r.run E ⟨pre, post, []⟩).find? (fun q => !(b && q.post.length == post.length)) = some q → SeekFirst o s i adv (some (pre, q)) := by
    intro pre post b q hs hi hb h0 hq
    have hf := first_at h hs adv b hb
    rw [hq] at hf
    obtain ⟨w, h1, h2⟩ := Option.map_eq_some_iff.1 hf.symm
    obtain ⟨h3, h4⟩ := Prod.ext_iff.1 h2
    have hw : w <+: post := by
      rw [Order.first, take_pre hs, drop_pre hs] at h1
      exact h.part _ _ _ (List.mem_of_find?_eq_some h1)
    obtain ⟨x, rfl⟩ := hw
    refine ⟨hi, by rw [hs]; simp, h0, ⟨w, h1, h3.symm⟩, ?_⟩
    have h5 : q.post = x := by rw [← show _ = q.post from h4]; simp [past]
    rw [show q.pre = pre ++ w from h3.symm, h5, hs, List.append_assoc]
  have missed : ∀ {pre post : Str} {b : Bool}, s = pre ++ post → b = (adv && pre.length == i) →
      (r.run E ⟨pre, post, []⟩).find? (fun q => !(b && q.post.length == post.length)) = none → o.first s i adv pre.length = none := by
    intro pre post b hs hb hq
    have hf := first_at h hs adv b hb
    rw [hq] at hf
    exact Option.map_eq_none_iff.1 hf.symm
  induction post with
  | nil =>
    intro pre b hs hi hb h0
    rw [seekFrom]
    cases hq : (r.run E ⟨pre, [], []⟩).find? fun q => !(b && q.post.length == List.length []) with
    | some q => exact found hs hi hb h0 hq
    | none =>
      intro a h1 h2
      rcases Nat.lt_or_ge a pre.length with h3 | h3
      · exact h0 a h1 h3
      · obtain rfl : a = pre.length := by
          rw [hs, List.append_nil] at h2
          omega
        exact missed hs hb hq
  | cons c post ih =>
    intro pre b hs hi hb h0
    rw [seekFrom]
    cases hq : (r.run E ⟨pre, c :: post, []⟩).find? fun q => !(b && q.post.length == (c :: post).length) with
    | some q => exact found hs hi hb h0 hq
    | none =>
      refine ih (pre ++ [c]) false (by simp [hs]) (by simp; omega) ?_ ?_
      · have : ((pre ++ [c]).length == i) = false := by
          rw [beq_eq_false_iff_ne, List.length_append, List.length_singleton]
          omega
        rw [this, Bool.and_false]
      · intro a h1 h2
        rw [List.length_append, List.length_singleton] at h2
        rcases Nat.lt_or_ge a pre.length with h3 | h3
        · exact h0 a h1 h3
        · obtain rfl : a = pre.length := by omega
          exact missed hs hb hq

theorem seek_prefer {E : Env} {r : Rx} {o : Order} (h : Follow (r.run E) o) {s pre post : Str} (hs : s = pre ++ post) (adv : Bool) :
    SeekFirst o s pre.length adv (seekFrom E r pre adv post) :=
  seek_first h s pre.length adv post pre adv hs (Nat.le_refl _) (by simp) (by omega)

theorem match_text {s st w post : Str} (h : s = st ++ w ++ post) (k : Nat) (q : Pos) (hq : q.pre = st ++ w) : (mkMatch k s st q).all = w := by
  show between s st.length q.pre.length = w
  rw [between_eq, hq, take_pre h, List.drop_left]

theorem all_prefer {E : Env} {r : Rx} {o : Order} (h : Follow (r.run E) o) (k : Nat) (s : Str) (n : Nat) : ∀ (pre post : Str) (adv : Bool),
    s = pre ++ post → 2 * post.length + (if adv then 0 else 1) < n →
    Firsts o s pre.length adv ((allFrom E r n pre adv post).map fun x => mkMatch k s x.1 x.2) := by
  induction n with
  | zero => intro _ _ _ _ h; omega
  | succ n ih =>
    intro pre post adv hs hn
    rw [allFrom]
    have hi := seek_prefer h hs adv
    cases e : seekFrom E r pre adv post with
    | none =>
      rw [e] at hi
      exact .done hi
    | some x =>
      rw [e] at hi
      obtain ⟨st, q⟩ := x
      obtain ⟨h1, h2, h3, ⟨w, h4, h5⟩, h6⟩ := hi
      dsimp only
      rw [List.map_cons]
      have ha : (mkMatch k s st q).all = w := match_text (by rw [← h5]; exact h6) k q h5
      have hl := congrArg List.length h5
      rw [List.length_append] at hl
      refine .more h1 h2 h3 (by rw [ha]; exact h4) (by rw [ha]; exact hl) ?_
      have hb : (q.pre.length == st.length) = (mkMatch k s st q).all.isEmpty := by
        rw [ha, Bool.eq_iff_iff, beq_iff_eq, List.isEmpty_iff, ← List.length_eq_zero_iff]
        omega
      rw [← hb]
      refine ih q.pre q.post _ h6 ?_
      have h7 := congrArg List.length h6
      have h8 := congrArg List.length hs
      rw [List.length_append] at h7 h8
      by_cases hw : w = []
      · subst hw
        rw [List.length_nil, Nat.add_zero] at hl
        rw [if_pos (by simpa using hl)]
        by_cases hp : st.length = pre.length
        · cases adv with
          | true =>
            have := List.find?_some h4
            simp [hp] at this
          | false => simp only [Bool.false_eq_true, if_false] at hn; omega
        · split at hn <;> omega
      · have := List.length_pos_iff.2 hw
        split at hn <;> split <;> omega

theorem follow_all {E : Env} {r : Rx} {o : Order} (h : Follow (r.run E) o) : Follow ((Rx.seq (.cap 1 r) .eps).run E) o where
  same := by
    intro p
    rw [← h.same]
    simp only [Rx.run]
    rw [show (fun q : Pos => [q]) = fun q => [id q] from rfl, ← List.map_eq_flatMap, List.map_id, List.map_map]
    rfl
  part := h.part

/-- What the compiled expression does -/
theorem prefer_compile {db : CharDb} {f : Flags} {t : Str} {o : Order} (h : PAlts (reSem db f) t o) :
    ∃ c, compileAll t = .ok c ∧ Follow (c.rx.run ⟨db, f⟩) o ∧ ∀ m, Alts (reSem db f) t m → Tracks (c.rx.run ⟨db, f⟩) m := by
  obtain ⟨⟨m, ha⟩, hp⟩ := p_parse h
  obtain ⟨r, C, h1, h2⟩ := hp (4 * t.length + 36) allCtx (s% ")") (by omega) (by rintro _ _ ⟨⟩; rfl)
  have hc := compileAll_of (noRefs_alts ha _ _ (.chr (by decide) .nil)) h1
  refine ⟨_, hc, follow_all h2, fun m' hm => ?_⟩
  obtain ⟨c, x, g2, g3, g4⟩ := compileAll_alts hm
  rw [hc] at g2
  injection g2 with g2
  subst g2
  obtain rfl : r = x := by
    simp only [Rx.seq.injEq, Rx.cap.injEq, true_and, and_true] at g3
    exact g3
  exact tracks_all g4

/-- Every text of the grammar has an order of preference. -/
theorem alts_order {S : Sem} {t : Str} {m : Meaning} (h : Alts S t m) : ∃ o, PAlts S t o :=
  Alts.rec (motive_1 := fun t _ _ => ∃ o, PAtom S t o) (motive_2 := fun t _ _ => ∃ o, PPiece S t o)
    (motive_3 := fun t _ _ => ∃ o, PBranch S t o) (motive_4 := fun t _ _ => ∃ o, PAlts S t o)
    (fun h => ⟨_, .one h⟩) (fun _ ih => ⟨_, .group ih.choose_spec⟩) (fun _ ih => ⟨_, .capture ih.choose_spec⟩)
    (fun _ ih => ⟨_, .ahead ih.choose_spec⟩) (fun _ ih => ⟨_, .notAhead ih.choose_spec⟩) (fun h => ⟨_, .behind h⟩) (fun h => ⟨_, .notBehind h⟩)
    (fun _ ih => ⟨_, .one ih.choose_spec⟩) (fun h => ⟨_, .at h⟩)
    (fun _ hq ih => ⟨_, .greedy ih.choose_spec hq⟩) (fun _ hq ih => ⟨_, .lazy ih.choose_spec hq⟩)
    ⟨_, .nil⟩ (fun _ _ ih1 ih2 => ⟨_, .cons ih1.choose_spec ih2.choose_spec⟩)
    (fun _ ih => ⟨_, .one ih.choose_spec⟩) (fun _ _ ih1 ih2 => ⟨_, .more ih1.choose_spec ih2.choose_spec⟩) h

end Pip.Rex
