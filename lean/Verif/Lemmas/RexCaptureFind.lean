import Verif.Lemmas.RexCapture
/-!
# The match found is the preferred one, with its groups
-/

namespace Pip.Rex.Cap
open Re Rex

variable {sh : Bool}

/-- The groups from 1 on -/
def placeFrom (sh : Bool) (q : Pos) : Str × Str × Groups := (q.pre, q.post, fun i => view sh q (i + 1))
def pastFrom (pre post : Str) (x : Str × Groups) : Str × Str × Groups := (pre ++ x.1, post.drop x.1.length, fun i => x.2 (i + 1))

/-- The ways of matching if nothing is set before -/
structure Start (sh : Bool) (body : Pos → List Pos) (o : COrder) : Prop where
  same : ∀ pre post, (body ⟨pre, post, []⟩).map (placeFrom sh) = (o pre post .none).map (pastFrom pre post)
  part : ∀ pre post g x, x ∈ o pre post g → x.1 <+: post

theorem start_all {E : Env} {r : Rx} {o : COrder} (h : Follow true (r.run E) o) : Start true ((Rx.seq (.cap 1 r) .eps).run E) o where
  same := by
    intro pre post
    have hs := congrArg (List.map fun x : Str × Str × Groups => (x.1, x.2.1, fun i => x.2.2 (i + 1))) (h.same ⟨pre, post, []⟩)
    rw [List.map_map, List.map_map] at hs
    simp only [Rx.run]
    rw [show (fun q : Pos => [q]) = fun q => [id q] from rfl, ← List.map_eq_flatMap, List.map_id, List.map_map]
    refine Eq.trans (List.map_congr_left fun q _ => ?_) (hs.trans (List.map_congr_left fun x _ => rfl))
    simp [placeFrom, place, view, List.lookup]
  part := h.part

/-- The first way of matching at a position -/
theorem cap_first_at {body : Pos → List Pos} {o : COrder} (h : Start sh body o) {s pre post : Str} (hs : s = pre ++ post) {i : Nat} (adv : Bool)
    (b : Bool) (hb : b = (adv && pre.length == i)) :
    ((body ⟨pre, post, []⟩).find? fun q => !(b && q.post.length == post.length)).map (placeFrom sh) =
      (o.first s i adv pre.length).map (pastFrom pre post) := by
  rw [COrder.first, take_pre hs, drop_pre hs]
  refine find_same (h.same _ _) fun q w hw e => ?_
  have hp := h.part _ _ _ _ hw
  have h2 : q.post = post.drop w.1.length := (Prod.ext_iff.1 (Prod.ext_iff.1 e).2).1
  rw [hb, h2, List.length_drop]
  congr 2
  rw [Bool.eq_iff_iff, List.isEmpty_iff, beq_iff_eq, ← List.length_eq_zero_iff]
  have := hp.length_le
  omega

/-- What a search from an index on finds -/
def SeekCap (sh : Bool) (o : COrder) (s : Str) (i : Nat) (adv : Bool) : Option (Str × Pos) → Prop
  | none => ∀ a, i ≤ a → a ≤ s.length → o.first s i adv a = none
  | some (st, q) => i ≤ st.length ∧ st.length ≤ s.length ∧ (∀ a, i ≤ a → a < st.length → o.first s i adv a = none) ∧
      (∃ w g, o.first s i adv st.length = some (w, g) ∧ q.pre = st ++ w ∧ ∀ j, view sh q (j + 1) = g (j + 1)) ∧ s = q.pre ++ q.post

theorem seek_cap_first {E : Env} {r : Rx} {o : COrder} (h : Start sh (r.run E) o) (s : Str) (i : Nat) (adv : Bool) (post : Str) : ∀ (pre : Str) (b : Bool),
    s = pre ++ post → i ≤ pre.length → b = (adv && pre.length == i) → (∀ a, i ≤ a → a < pre.length → o.first s i adv a = none) →
    SeekCap sh o s i adv (seekFrom E r pre b post) := by
  have found : ∀ {pre post : Str} {b : Bool} {q : Pos}, s = pre ++ post → i ≤ pre.length → b = (adv && pre.length == i) →
      (∀ a, i ≤ a → a < pre.length → o.first s i adv a = none) →
      (r.run E ⟨pre, post, []⟩).find? (fun q => !(b && q.post.length == post.length)) = some q → SeekCap sh o s i adv (some (pre, q)) := by
    intro pre post b q hs hi hb h0 hq
    have hf := cap_first_at h hs adv b hb
    rw [hq] at hf
    obtain ⟨⟨w, g⟩, h1, h2⟩ := Option.map_eq_some_iff.1 hf.symm
    obtain ⟨h3, h4⟩ := Prod.ext_iff.1 h2
    obtain ⟨h4, h5⟩ := Prod.ext_iff.1 h4
    have hw : w <+: post := by
      rw [COrder.first, take_pre hs, drop_pre hs] at h1
      exact h.part _ _ _ _ (List.mem_of_find?_eq_some h1)
    obtain ⟨x, rfl⟩ := hw
    refine ⟨hi, by rw [hs]; simp, h0, ⟨w, g, h1, h3.symm, fun j => (congrFun h5 j).symm⟩, ?_⟩
    have h6 : q.post = x := by rw [← show _ = q.post from h4]; simp [pastFrom]
    rw [show q.pre = pre ++ w from h3.symm, h6, hs, List.append_assoc]
  have missed : ∀ {pre post : Str} {b : Bool}, s = pre ++ post → b = (adv && pre.length == i) →
      (r.run E ⟨pre, post, []⟩).find? (fun q => !(b && q.post.length == post.length)) = none → o.first s i adv pre.length = none := by
    intro pre post b hs hb hq
    have hf := cap_first_at h hs adv b hb
    rw [hq] at hf
    exact Option.map_eq_none_iff.1 hf.symm
  induction post with
  | nil =>
    intro pre b hs hi hb h0
    rw [seekFrom]
    cases hq : (r.run E ⟨pre, [], []⟩).find? fun q => !(b && q.post.length == List.length []) with
    | some q => exact found hs hi hb h0 hq
    | none =>
      intro a h1 h2
      rcases Nat.lt_or_ge a pre.length with h3 | h3
      · exact h0 a h1 h3
      · obtain rfl : a = pre.length := by
          rw [hs, List.append_nil] at h2
          omega
        exact missed hs hb hq
  | cons c post ih =>
    intro pre b hs hi hb h0
    rw [seekFrom]
    cases hq : (r.run E ⟨pre, c :: post, []⟩).find? fun q => !(b && q.post.length == (c :: post).length) with
    | some q => exact found hs hi hb h0 hq
    | none =>
      refine ih (pre ++ [c]) false (by simp [hs]) (by simp; omega) ?_ ?_
      · have : ((pre ++ [c]).length == i) = false := by
          rw [beq_eq_false_iff_ne, List.length_append, List.length_singleton]
          omega
        rw [this, Bool.and_false]
      · intro a h1 h2
        rw [List.length_append, List.length_singleton] at h2
        rcases Nat.lt_or_ge a pre.length with h3 | h3
        · exact h0 a h1 h3
        · obtain rfl : a = pre.length := by omega
          exact missed hs hb hq

theorem seek_cap {E : Env} {r : Rx} {o : COrder} (h : Start sh (r.run E) o) {s pre post : Str} (hs : s = pre ++ post) (adv : Bool) :
    SeekCap sh o s pre.length adv (seekFrom E r pre adv post) :=
  seek_cap_first h s pre.length adv post pre adv hs (Nat.le_refl _) (by simp) (by omega)

/-- The groups of the match object -/
theorem match_groups {s st : Str} {q : Pos} {g : Groups} (h : ∀ j, view true q (j + 1) = g (j + 1)) (n : Nat) : GroupsAre s (n - 1) g (mkMatch n s st q) := by
  constructor
  · refine List.map_congr_left fun i _ => ?_
    rw [Groups.text, ← h i]
    simp only [Pos.group, between_eq]
    rfl
  · refine List.map_congr_left fun i _ => ?_
    rw [← h i]
    show (match q.caps.lookup (i + 2) with | some (a, b) => ((a : Int), (b : Int)) | none => (-1, -1)) = match q.caps.lookup (i + 2) with | some x => _ | none => _
    cases q.caps.lookup (i + 2) <;> rfl

/-- The match object is that of the position. -/
def Makes (sh : Bool) (s : Str) (k : Nat) (mk : Str → Pos → Match) : Prop := ∀ st q, (mk st q).start = st.length ∧ (mk st q).stop = q.pre.length ∧
  (mk st q).all = between s st.length q.pre.length ∧ ∀ g, (∀ j, view sh q (j + 1) = g (j + 1)) → GroupsAre s k g (mk st q)

theorem mkMatch_makes (s : Str) (k : Nat) : Makes true s (k - 1) (mkMatch k s) := fun _ _ => ⟨rfl, rfl, rfl, fun _ hg => match_groups hg k⟩

/-- A match without a group for the whole text -/
def mkRaw (k : Nat) (s : Str) (st : Str) (q : Pos) : Match where
  start := st.length
  stop := q.pre.length
  all := between s st.length q.pre.length
  groups := (List.range k).map fun i => q.group s (i + 1)
  regs := (List.range k).map fun i =>
    match q.caps.lookup (i + 1) with
    | some (a, b) => ((a : Int), (b : Int))
    | none => (-1, -1)

theorem mkRaw_makes (s : Str) (k : Nat) : Makes false s k (mkRaw k s) := by
  refine fun st q => ⟨rfl, rfl, rfl, fun g h => ⟨?_, ?_⟩⟩
  · refine List.map_congr_left fun i _ => ?_
    rw [Groups.text, ← h i]
    simp only [Pos.group, between_eq]
    rfl
  · refine List.map_congr_left fun i _ => ?_
    rw [← h i]
    show (match q.caps.lookup (i + 1) with | some (a, b) => ((a : Int), (b : Int)) | none => (-1, -1)) = match q.caps.lookup (i + 1) with | some x => _ | none => _
    cases q.caps.lookup (i + 1) <;> rfl

theorem all_cap {E : Env} {r : Rx} {o : COrder} (h : Start sh (r.run E) o) {mk : Str → Pos → Match} {k : Nat} {s : Str} (hmk : Makes sh s k mk) (n : Nat) : ∀ (pre post : Str) (adv : Bool),
    s = pre ++ post → 2 * post.length + (if adv then 0 else 1) < n →
    Captured o k s pre.length adv ((allFrom E r n pre adv post).map fun x => mk x.1 x.2) := by
  induction n with
  | zero => intro _ _ _ _ h; omega
  | succ n ih =>
    intro pre post adv hs hn
    rw [allFrom]
    have hi := seek_cap h hs adv
    cases e : seekFrom E r pre adv post with
    | none =>
      rw [e] at hi
      exact .done hi
    | some x =>
      rw [e] at hi
      obtain ⟨st, q⟩ := x
      obtain ⟨h1, h2, h3, ⟨w, g, h4, h5, hg⟩, h6⟩ := hi
      dsimp only
      rw [List.map_cons]
      have ha : (mk st q).all = w := by
        rw [(hmk st q).2.2.1]
        exact match_text (by rw [← h5]; exact h6) k q h5
      have hl := congrArg List.length h5
      rw [List.length_append] at hl
      have e1 := (hmk st q).1
      have e2 := (hmk st q).2.1
      refine .more (by rw [e1]; exact h1) (by rw [e1]; exact h2) (by rw [e1]; exact h3) (by rw [ha, e1]; exact h4) (by rw [ha, e1, e2]; exact hl)
        ((hmk st q).2.2.2 g hg) ?_
      have hb : (q.pre.length == st.length) = (mk st q).all.isEmpty := by
        rw [ha, Bool.eq_iff_iff, beq_iff_eq, List.isEmpty_iff, ← List.length_eq_zero_iff]
        omega
      rw [← hb, e2]
      refine ih q.pre q.post _ h6 ?_
      have h7 := congrArg List.length h6
      have h8 := congrArg List.length hs
      rw [List.length_append] at h7 h8
      by_cases hw : w = []
      · subst hw
        rw [List.length_nil, Nat.add_zero] at hl
        rw [if_pos (by simpa using hl)]
        by_cases hp : st.length = pre.length
        · cases adv with
          | true =>
            have := List.find?_some h4
            simp [hp] at this
          | false => simp only [Bool.false_eq_true, if_false] at hn; omega
        · split at hn <;> omega
      · have := List.length_pos_iff.2 hw
        split at hn <;> split <;> omega

/-- What the compiled expression does -/
theorem cap_compile {db : CharDb} {f : Flags} {t : Str} {k : Nat} {o : COrder} (h : CAlts (reSem db f) (refSame db f) [] 1 t k o) :
    ∃ c, compileAll t = .ok c ∧ Start true (c.rx.run ⟨db, f⟩) o ∧ c.groups = k := by
  obtain ⟨t', hc, _, hp⟩ := c_parse (sh := true) h
  obtain ⟨r, C, h1, h2, h3⟩ := hp (4 * t'.length + 36) allCtx (s% ")") (by omega) ⟨rfl, rfl, rfl⟩ (by rintro _ _ ⟨⟩; rfl)
  exact ⟨_, compileAll_of (hc _ _ (.cons (by decide)) (.chr (by decide) .nil)) h1, start_all h3, by simp [h2.next]⟩

/-- The same without the group for the whole text -/
theorem cap_compile_raw {db : CharDb} {f : Flags} {t : Str} {k : Nat} {o : COrder} (h : CAlts (reSem db f) (refSame db f) [] 1 t k o) :
    ∃ c, compileRe t = .ok c ∧ Start false (c.rx.run ⟨db, f⟩) o ∧ c.groups = k - 1 := by
  obtain ⟨t', hc, _, hp⟩ := c_parse (sh := false) h
  obtain rfl : t = t' := by
    have := hc [] [] (by rintro _ _ ⟨⟩) .nil
    simpa [Text] using this
  obtain ⟨r, C, h1, h2, h3⟩ := hp (4 * t.length + 4) {} [] (by omega) ⟨rfl, rfl, rfl⟩ (by rintro _ _ ⟨⟩)
  rw [List.append_nil] at h1
  refine ⟨⟨r, C.next - 1, C.names⟩, ?_, ⟨fun pre post => ?_, h3.part⟩, by simp [h2.next]⟩
  · rw [compileRe, h1]
    rfl
  · have hs := congrArg (List.map fun x : Str × Str × Groups => (x.1, x.2.1, fun i => x.2.2 (i + 1))) (h3.same ⟨pre, post, []⟩)
    rw [List.map_map, List.map_map] at hs
    exact hs

/-- A text without back-references is none. -/
theorem noRefs_isRef {t : Str} (h : NoRefs t) : ¬ IsRef t := by
  rintro ⟨n, h1, h98, rfl⟩
  have hr := h [] [] .nil
  rw [List.append_nil] at hr
  have k6 : ∀ d < 10, 1 ≤ d → (showNat (d + 1)).head? ≠ some (digitChar d) ∧ showNat (d + 1) ≠ [] := by decide +kernel
  have k7 : ∀ d < 10, 1 ≤ d → ∀ v < 10, 2 ≤ (showNat (10 * d + v + 1)).length := by decide +kernel
  have k2 : ∀ d < 10, 1 ≤ d → ∀ v < 10, ¬ [digitChar d, digitChar v] <+: showNat (10 * d + v + 1) := by decide +kernel
  have k3 : ∀ n < 100, 1 ≤ n → ∀ c ∈ showNat n, digitVal c < 10 ∧ digitChar (digitVal c) = c := by decide +kernel
  have k4 : ∀ n < 100, 1 ≤ n → (showNat n).head?.any (fun c => ['1', '2', '3', '4', '5', '6', '7', '8', '9'].elem c) = true := by decide +kernel
  have k5 : ∀ n < 100, (showNat n).length ≤ 2 := by decide +kernel
  have h5 := k5 n (by omega)
  have h4 := k4 n (by omega) h1
  have h3 := k3 n (by omega) h1
  have key : ∀ y z, RefText y z → y = '\\' :: showNat n → z = '\\' :: showNat n → False := by
    clear hr
    intro y z hq hy hz
    generalize showNat n = x at h3 h4 h5 hy hz
    cases hq with
    | nil => cases hy
    | @chr c s t hc _ => exact hc (List.cons.inj hy).1
    | @esc c s _ hc _ =>
      obtain rfl : c :: s = x := (List.cons.inj hy).2
      exact hc (by simpa using h4)
    | tail =>
      obtain rfl : [] = x := (List.cons.inj hy).2
      cases h4
    | @ref1 d s t g1 g9 hd _ =>
      have e1 : digitChar d :: s = x := (List.cons.inj hy).2
      have e2 : showNat (d + 1) ++ t = x := (List.cons.inj hz).2
      have := k6 d (by omega) g1
      rw [← e1] at e2
      cases e3 : showNat (d + 1) with
      | nil => exact this.2 e3
      | cons a b =>
        rw [e3] at this e2
        exact this.1 (by rw [(List.cons.inj e2).1]; rfl)
    | @ref2 d c s t g1 g9 hc _ =>
      have e1 : digitChar d :: c :: s = x := (List.cons.inj hy).2
      have e2 : showNat (10 * d + digitVal c + 1) ++ t = x := (List.cons.inj hz).2
      obtain ⟨g2, g3⟩ := h3 c (by rw [← e1]; simp)
      subst e1
      have hs : s = [] := by
        cases s with
        | nil => rfl
        | cons _ _ => simp at h5
      subst hs
      have := k2 d (by omega) g1 _ g2
      rw [g3] at this
      have hl : 2 ≤ (showNat (10 * d + digitVal c + 1)).length := k7 d (by omega) g1 _ g2
      refine this ?_
      rw [← e2]
      have ht : t = [] := by
        have := congrArg List.length e2
        simp only [List.length_append, List.length_cons, List.length_nil] at this
        exact List.length_eq_zero_iff.1 (by omega)
      rw [ht, List.append_nil]
      exact List.prefix_rfl
  exact key _ _ hr rfl rfl

/-- Texts without back-references -/
theorem cap_exists {db : CharDb} {f : Flags} {t : Str} {o : Order} (h : PAlts (reSem db f) t o) (l : List Nat) (k : Nat) :
    ∃ k' o', CAlts (reSem db f) (refSame db f) l k t k' o' := by
  have wrap : ∀ {a t b : Str}, (∀ c ∈ a, c ≠ '\\') → NoRefs t → (∀ c ∈ b, c ≠ '\\') → NoRefs (a ++ t ++ b) :=
    fun ha ht hb => ((NoRefs.chrs ha).append ht).append (.chrs hb)
  refine (PAlts.rec (motive_1 := fun t _ _ => NoRefs t ∧ ∀ l k, ∃ k' o', CAtom (reSem db f) (refSame db f) l k t k' o')
    (motive_2 := fun t _ _ => NoRefs t ∧ ∀ l k, ∃ k' o', CPiece (reSem db f) (refSame db f) l k t k' o')
    (motive_3 := fun t _ _ => NoRefs t ∧ ∀ l k, ∃ k' o', CBranch (reSem db f) (refSame db f) l k t k' o')
    (motive_4 := fun t _ _ => NoRefs t ∧ ∀ l k, ∃ k' o', CAlts (reSem db f) (refSame db f) l k t k' o')
    ?_ ?_ ?_ ?_ ?_ ?_ ?_ ?_ ?_ ?_ ?_ ?_ ?_ ?_ ?_ h).2 l k
  · exact fun h => ⟨noRefs_one h, fun _ _ => ⟨_, _, .one h⟩⟩
  · exact fun _ ih => ⟨wrap (by decide) ih.1 (by decide), fun l k => let ⟨_, _, h⟩ := ih.2 l k; ⟨_, _, .group h⟩⟩
  · exact fun _ ih => ⟨wrap (by decide) ih.1 (by decide), fun l k => let ⟨_, _, h⟩ := ih.2 (k :: l) (k + 1); ⟨_, _, .capture h⟩⟩
  · exact fun _ ih => ⟨wrap (by decide) ih.1 (by decide), fun l k => let ⟨_, _, h⟩ := ih.2 l k; ⟨_, _, .ahead h⟩⟩
  · exact fun _ ih => ⟨wrap (by decide) ih.1 (by decide), fun l k => let ⟨_, _, h⟩ := ih.2 l k; ⟨_, _, .notAhead h⟩⟩
  · exact fun h => ⟨wrap (by decide) (noRefs_fixed h) (by decide), fun _ _ => ⟨_, _, .behind h⟩⟩
  · exact fun h => ⟨wrap (by decide) (noRefs_fixed h) (by decide), fun _ _ => ⟨_, _, .notBehind h⟩⟩
  · exact fun _ ih => ⟨ih.1, fun l k => let ⟨_, _, h⟩ := ih.2 l k; ⟨_, _, .one h⟩⟩
  · exact fun h => ⟨noRefs_at h, fun _ _ => ⟨_, _, .at h⟩⟩
  · exact fun _ hq ih => ⟨ih.1.append (noRefs_quant hq), fun l k => let ⟨_, _, h⟩ := ih.2 l k; ⟨_, _, .greedy h hq⟩⟩
  · exact fun _ hq ih => ⟨(ih.1.append (noRefs_quant hq)).append (.chrs (by decide)), fun l k => let ⟨_, _, h⟩ := ih.2 l k; ⟨_, _, .lazy h hq⟩⟩
  · exact ⟨.nil, fun _ _ => ⟨_, _, .nil⟩⟩
  · exact fun _ _ ih1 ih2 => ⟨ih1.1.append ih2.1, fun l k =>
      let ⟨_, _, h1⟩ := ih1.2 l k
      let ⟨_, _, h2⟩ := ih2.2 l _
      ⟨_, _, .cons h1 h2 fun n g1 g2 e => absurd ⟨n, g1, g2, e⟩ (noRefs_isRef ih1.1)⟩⟩
  · exact fun _ ih => ⟨ih.1, fun l k => let ⟨_, _, h⟩ := ih.2 l k; ⟨_, _, .one h⟩⟩
  · exact fun _ _ ih1 ih2 => ⟨(ih1.1.append (.chrs (by decide))).append ih2.1, fun l k =>
      let ⟨_, _, h1⟩ := ih1.2 l k
      let ⟨_, _, h2⟩ := ih2.2 l _
      ⟨_, _, .more h1 h2⟩⟩

end Pip.Rex.Cap
