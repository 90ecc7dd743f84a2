import Verif.Spec.Template
import Verif.Lemmas.RexFind
import Verif.Lemmas.ReprScan
import Verif.Props.Joining
/-!
# Replacing with regular expressions
-/

namespace Pip
open Rex Re

/-! ### Names of groups -/

theorem except_bind_ok {ε α β : Type} {x : Except ε α} {f : α → Except ε β} {b : β} :
    (x >>= f) = .ok b ↔ ∃ a, x = .ok a ∧ f a = .ok b := by
  cases x <;> simp [bind, Except.bind]

/-- The names stay. -/
def Ctx.Grows (C C' : Ctx) : Prop := ∀ k v, C.names.lookup k = some v → C'.names.lookup k = some v

theorem Ctx.Grows.refl (C : Ctx) : Ctx.Grows C C := fun _ _ h => h

theorem Ctx.Grows.trans {A B C : Ctx} (h : Ctx.Grows A B) (h' : Ctx.Grows B C) : Ctx.Grows A C := fun k v x => h' k v (h k v x)

theorem parse_grows (n : Nat) :
    (∀ C s r C' s', parseAlts n C s = .ok (r, C', s') → Ctx.Grows C C') ∧
    (∀ C s r C' s', parseBranch n C s = .ok (r, C', s') → Ctx.Grows C C') ∧
    (∀ C c s r b C' s', parseAtom n C c s = .ok (r, b, C', s') → Ctx.Grows C C') ∧
    (∀ C s r b C' s', parseExt n C s = .ok (r, b, C', s') → Ctx.Grows C C') ∧
    (∀ C neg s r b C' s', parseBehind n C neg s = .ok (r, b, C', s') → Ctx.Grows C C') := by
  induction n with
  | zero =>
    refine ⟨?_, ?_, ?_, ?_, ?_⟩
    · intro C s r C' s' h; rw [parseAlts] at h; cases h
    · intro C s r C' s' h; rw [parseBranch] at h; cases h
    · intro C c s r b C' s' h; rw [parseAtom] at h; cases h
    · intro C s r b C' s' h; rw [parseExt] at h; cases h
    · intro C neg s r b C' s' h; rw [parseBehind] at h; cases h
  | succ n ih =>
    obtain ⟨i1, i2, i3, i4, i5⟩ := ih
    have group : ∀ {C D : Ctx} {s : Str} {g : Rx → Rx} {b : Bool} {r : Rx} {b' : Bool} {C' : Ctx} {s' : Str} (up : Ctx → Ctx),
        (∀ E, (up E).names = E.names) → Ctx.Grows C D →
        (parseAlts n D s >>= fun x => closing x.2.2 >>= fun s => pure (g x.1, b, up x.2.1, s)) = .ok (r, b', C', s') → Ctx.Grows C C' := by
      intro C D s g b r b' C' s' up hup hg h
      obtain ⟨⟨a, E, u⟩, h1, h2⟩ := except_bind_ok.1 h
      obtain ⟨w, h3, h4⟩ := except_bind_ok.1 h2
      cases h4
      intro k v hk
      rw [hup]
      exact i1 _ _ _ _ _ h1 k v (hg k v hk)
    refine ⟨?_, ?_, ?_, ?_, ?_⟩
    · intro C s r C' s' h
      rw [parseAlts] at h
      obtain ⟨⟨a, D, u⟩, h1, h2⟩ := except_bind_ok.1 h
      have hd := i2 _ _ _ _ _ h1
      dsimp only at h2
      split at h2
      · obtain ⟨⟨b, E, w⟩, h3, h4⟩ := except_bind_ok.1 h2
        cases h4
        exact hd.trans (i1 _ _ _ _ _ h3)
      · cases h2
        exact hd
    · intro C s r C' s' h
      rw [parseBranch.eq_def] at h
      dsimp only at h
      split at h
      · cases h
        exact .refl _
      · split at h
        · cases h
          exact .refl _
        · obtain ⟨⟨a, b, D, u⟩, h1, h2⟩ := except_bind_ok.1 h
          obtain ⟨⟨r', w⟩, h3, h4⟩ := except_bind_ok.1 h2
          obtain ⟨⟨b', E, w'⟩, h5, h6⟩ := except_bind_ok.1 h4
          cases h6
          exact (i3 _ _ _ _ _ _ _ h1).trans (i2 _ _ _ _ _ h5)
    · intro C c s r b C' s' h
      rw [parseAtom.eq_def] at h
      dsimp only at h
      split at h
      · cases h; exact .refl _
      split at h
      · cases h; exact .refl _
      split at h
      · cases h; exact .refl _
      split at h
      · obtain ⟨⟨a, b', u⟩, h1, h2⟩ := except_bind_ok.1 h
        cases h2
        exact .refl _
      split at h
      · obtain ⟨⟨a, u⟩, h1, h2⟩ := except_bind_ok.1 h
        cases h2
        exact .refl _
      split at h
      · split at h
        · exact i4 _ _ _ _ _ _ h
        · exact group (C := C) (D := C.push) (g := .cap C.next) (fun E => E.pop C) (fun _ => rfl) (fun _ _ h => h) h
      split at h
      · cases h
      split at h
      · obtain ⟨o, h1, h2⟩ := except_bind_ok.1 h
        split at h2
        · cases h2
        · cases h2; exact .refl _
      · cases h; exact .refl _
    · intro C s r b C' s' h
      rw [parseExt.eq_def] at h
      dsimp only at h
      split at h
      · cases h
      · exact group (g := id) id (fun _ => rfl) (.refl _) h
      · exact group (g := .ahead false) id (fun _ => rfl) (.refl _) h
      · exact group (g := .ahead true) id (fun _ => rfl) (.refl _) h
      · exact i5 _ _ _ _ _ _ _ h
      · exact i5 _ _ _ _ _ _ _ h
      · obtain ⟨⟨t, u⟩, h1, h2⟩ := except_bind_ok.1 h
        obtain ⟨_, h3, h4⟩ := except_bind_ok.1 h2
        dsimp only at h4
        split at h4
        · cases h4
        · next hl =>
          refine group (C := C) (g := .cap C.next) (fun E => E.pop C) (fun _ => rfl) ?_ h4
          intro k v hk
          show List.lookup k ((t, C.next) :: C.names) = some v
          rw [List.lookup_cons]
          have : (k == t) = false := by
            rw [beq_eq_false_iff_ne]
            rintro rfl
            simp [hk] at hl
          rw [this]
          exact hk
      · obtain ⟨⟨t, u⟩, h1, h2⟩ := except_bind_ok.1 h
        obtain ⟨_, h3, h4⟩ := except_bind_ok.1 h2
        dsimp only at h4
        split at h4
        · cases h4
        · obtain ⟨_, h5, h6⟩ := except_bind_ok.1 h4
          cases h6
          exact .refl _
      · cases h
    · intro C neg s r b C' s' h
      rw [parseBehind] at h
      obtain ⟨⟨a, D, u⟩, h1, h2⟩ := except_bind_ok.1 h
      obtain ⟨w, h3, h4⟩ := except_bind_ok.1 h2
      have hd : Ctx.Grows C D := fun k v hk => i1 _ _ _ _ _ h1 k v hk
      split at h4
      · cases h4
        exact hd
      · cases h4

/-- The group named "all" is the first one. -/
theorem compileRe_names {t : Str} {c : Compiled} (h : compileRe (s% "(?P<all>" ++ t) = .ok c) : c.names.lookup (s% "all") = some 1 := by
  unfold compileRe at h
  obtain ⟨⟨r, C, s⟩, h1, h2⟩ := except_bind_ok.1 h
  obtain ⟨n, hn⟩ : ∃ n, 4 * (s% "(?P<all>" ++ t).length + 4 = n + 4 := ⟨_, rfl⟩
  rw [hn] at h1
  have e : s% "(?P<all>" ++ t = '(' :: '?' :: 'P' :: '<' :: 'a' :: 'l' :: 'l' :: '>' :: t := rfl
  rw [e, parseAlts, parseBranch] at h1
  simp only [show ¬ (('(' : Char) = '|' ∨ ('(' : Char) = ')') by decide, if_false] at h1
  rw [parseAtom] at h1
  simp only [show ('(' : Char) ≠ '.' by decide, show ('(' : Char) ≠ '^' by decide, show ('(' : Char) ≠ '$' by decide,
    show ('(' : Char) ≠ '\\' by decide, show ('(' : Char) ≠ '[' by decide, if_false, if_true] at h1
  obtain ⟨⟨a, D, u⟩, h3, h4⟩ := except_bind_ok.1 h1
  obtain ⟨⟨x, b, E, w⟩, h5, h6⟩ := except_bind_ok.1 h3
  obtain ⟨⟨y, w'⟩, h7, h8⟩ := except_bind_ok.1 h6
  obtain ⟨⟨z, F, w''⟩, h9, h10⟩ := except_bind_ok.1 h8
  cases h10
  rw [parseExt] at h5
  have hu : untilChar '>' ('a' :: 'l' :: 'l' :: '>' :: t) = .ok (s% "all", t) := rfl
  rw [hu] at h5
  have hc : checkName (s% "all") = .ok () := by rfl
  simp only [bind, Except.bind, hc] at h5
  rw [if_neg (by decide)] at h5
  obtain ⟨⟨a', G, v⟩, h11, h12⟩ := except_bind_ok.1 h5
  obtain ⟨v', h13, h14⟩ := except_bind_ok.1 h12
  cases h14
  have k1 : List.lookup (s% "all") G.names = some 1 := (parse_grows n).1 _ _ _ _ _ h11 (s% "all") 1 rfl
  have k2 : List.lookup (s% "all") F.names = some 1 := (parse_grows _).2.1 _ _ _ _ _ h9 (s% "all") 1 k1
  have k3 : List.lookup (s% "all") C.names = some 1 := by
    dsimp only at h4
    split at h4
    · obtain ⟨⟨b', G', w3⟩, h15, h16⟩ := except_bind_ok.1 h4
      cases h16
      exact (parse_grows _).1 _ _ _ _ _ h15 (s% "all") 1 k2
    · cases h4
      exact k2
  dsimp only at h2
  split at h2
  · cases h2
    exact k3
  · cases h2

/-- A regular expression that can be compiled: the whole is the first group, and there is another text without references -/
theorem compileAll_ok {raw : Str} {c : Compiled} (h : compileAll raw = .ok c) :
    (∃ r, c.rx = .seq (.cap 1 r) .eps) ∧ c.names.lookup (s% "all") = some 1 := by
  unfold compileAll at h
  obtain ⟨d, h1, h2⟩ := except_bind_ok.1 h
  obtain ⟨t, ht⟩ := refText_total (raw ++ s% ")")
  have ha : asRegexText raw = s% "(?P<all>" ++ t := by
    have : RefText (s% "(?P<all>" ++ raw ++ s% ")") (s% "(?P<all>" ++ t) := by
      rw [List.append_assoc]
      exact NoRefs.chrs (by decide) _ _ ht
    exact incRefs_ref this
  rw [ha] at h1
  have hn := compileRe_names h1
  split at h2
  · next r hr =>
    cases h2
    exact ⟨⟨_, hr⟩, hn⟩
  · cases h2

/-! ### Templates -/

theorem tmpl_dbl (c : Compiled) (t : Str) : ∀ n, (dbl t).length < n → tmpl c n (dbl t) = .ok (t.map .chr) := by
  induction t with
  | nil =>
    intro n h
    obtain ⟨n, rfl⟩ : ∃ j, n = j + 1 := ⟨n - 1, by omega⟩
    rfl
  | cons d t ih =>
    intro n h
    obtain ⟨n, rfl⟩ : ∃ j, n = j + 1 := ⟨n - 1, by omega⟩
    by_cases hd : d = '\\'
    · subst hd
      rw [dbl_back] at h ⊢
      simp only [List.length_cons] at h
      rw [tmpl, if_pos rfl]
      show (Except.ok ([Rex.Part.chr '\\'], dbl t) >>= fun x => tmpl c n x.2 >>= fun r => pure (x.1 ++ r)) = _
      show (tmpl c n (dbl t) >>= fun r => pure ([Rex.Part.chr '\\'] ++ r)) = _
      rw [ih n (by omega)]
      rfl
    · rw [dbl_other hd] at h ⊢
      simp only [List.length_cons] at h
      rw [tmpl, if_neg hd, ih n (by omega)]
      rfl

theorem splice_replaced (k : Nat) (s : Str) (new : Str × Pos → Str) (new' : Match → Str) : ∀ (l : List (Str × Pos)) (i : Nat),
    (∀ x ∈ l, new x = new' (mkMatch k s x.1 x.2)) →
    splice s new i l = replaced new' s i (l.map fun x => mkMatch k s x.1 x.2) := by
  intro l
  induction l with
  | nil => intro i _; rfl
  | cons x l ih =>
    intro i h
    rw [List.map_cons, splice, replaced, between_eq, h x (List.mem_cons_self ..), ih _ fun y hy => h y (List.mem_cons_of_mem _ hy)]
    rfl

/-- A matched position knows the whole match. -/
theorem seek_caps {E : Env} {r : Rx} {post : Str} : ∀ {pre : Str} {adv : Bool} {st : Str} {q : Pos},
    seekFrom E (.seq (.cap 1 r) .eps) pre adv post = some (st, q) → q.caps.lookup 1 = some (st.length, q.pre.length) := by
  have run : ∀ {p q : Pos}, q ∈ (Rx.seq (.cap 1 r) .eps).run E p → q.caps.lookup 1 = some (p.pre.length, q.pre.length) := by
    intro p q hq
    have hq : q ∈ ((r.run E p).map fun q => { q with caps := (1, p.pre.length, q.pre.length) :: q.caps }).flatMap fun q => [q] := hq
    obtain ⟨x, hx, hy⟩ := List.mem_flatMap.1 hq
    rw [List.mem_singleton] at hy
    subst hy
    obtain ⟨y, _, rfl⟩ := List.mem_map.1 hx
    rfl
  induction post with
  | nil =>
    intro pre adv st q h
    rw [seekFrom] at h
    split at h
    · next x hx =>
      cases h
      exact run (List.mem_of_find?_eq_some hx)
    · cases h
  | cons c post ih =>
    intro pre adv st q h
    rw [seekFrom] at h
    split at h
    · next x hx =>
      cases h
      exact run (List.mem_of_find?_eq_some hx)
    · exact ih h

theorem all_caps {E : Env} {r : Rx} (n : Nat) : ∀ {pre : Str} {adv : Bool} {post : Str} {x : Str × Pos},
    x ∈ allFrom E (.seq (.cap 1 r) .eps) n pre adv post → x.2.caps.lookup 1 = some (x.1.length, x.2.pre.length) := by
  induction n with
  | zero => intro _ _ _ _ h; cases h
  | succ n ih =>
    intro pre adv post x h
    rw [allFrom] at h
    split at h
    · cases h
    · next st q e =>
      rcases List.mem_cons.1 h with rfl | h
      · exact seek_caps e
      · exact ih h

/-! ### Ampersands -/

/-- The second text is the first with ampersands turned into references to the whole match. -/
inductive AmpText : Str → Str → Prop
  | nil : AmpText [] []
  | chr {c : Char} {s t : Str} : c ≠ '\\' → c ≠ '&' → AmpText s t → AmpText (c :: s) (c :: t)
  | esc {c : Char} {s t : Str} : AmpText s t → AmpText ('\\' :: c :: s) ('\\' :: c :: t)
  | amp {s t : Str} : AmpText s t → AmpText ('&' :: s) (s% "\\g<all>" ++ t)

theorem ampAt_chr {c : Char} {s : Str} (h : c ≠ '\\') (h' : c ≠ '&') : ampAt (c :: s) = none := by
  unfold ampAt
  split
  · next e => exact absurd (List.cons.inj e).1 h
  · next e => exact absurd (List.cons.inj e).1 h'
  · rfl

theorem ampAt_bs (s : Str) : ampAt ('\\' :: '\\' :: s) = (ampAt s).map fun (p, r) => ('\\' :: '\\' :: p, r) := by
  rw [ampAt]

theorem ampAt_esc {c : Char} {s : Str} (h : c ≠ '\\') : ampAt ('\\' :: c :: s) = none := by
  unfold ampAt
  split
  · next e => exact absurd (List.cons.inj (List.cons.inj e).2).1 h
  · next e => exact absurd (List.cons.inj e).1 (by decide)
  · rfl

theorem ampAt_some {s t : Str} (h : AmpText s t) {p r : Str} (hr : ampAt s = some (p, r)) :
    ∃ t', AmpText r t' ∧ t = p ++ s% "\\g<all>" ++ t' ∧ r.length < s.length := by
  induction h generalizing p r with
  | nil => cases hr
  | chr hc hc' => rw [ampAt_chr hc hc'] at hr; cases hr
  | @esc c s t hs ih =>
    by_cases hb : c = '\\'
    · subst hb
      rw [ampAt_bs] at hr
      cases hs' : ampAt s with
      | none => rw [hs'] at hr; cases hr
      | some x =>
        obtain ⟨p', r'⟩ := x
        rw [hs'] at hr
        cases hr
        obtain ⟨t', h1, rfl, h3⟩ := ih hs'
        exact ⟨t', h1, by simp, by simp only [List.length_cons]; omega⟩
    · rw [ampAt_esc hb] at hr
      cases hr
  | @amp s t hs ih =>
    cases hr
    exact ⟨t, hs, rfl, by simp⟩

theorem ampRefs_eq (k : Nat) : ∀ s t : Str, s.length ≤ k → AmpText s t → ∀ n, s.length ≤ n →
    ampRefs n false s = t ∧ (ampAt s = none → ampRefs n true s = t) := by
  induction k using Nat.strongRecOn with
  | ind k ih =>
    intro s t hk h n hn
    have ihs : ∀ s' t' : Str, s'.length < s.length → AmpText s' t' → ∀ n, s'.length ≤ n →
        ampRefs n false s' = t' ∧ (ampAt s' = none → ampRefs n true s' = t') :=
      fun s' t' hl h' => ih s'.length (by omega) s' t' (Nat.le_refl _) h'
    have refs : ∀ {p r c : Str} {a : Char} {n : Nat}, s = a :: c → s.length ≤ n + 1 → ampAt s = some (p, r) →
        ampRefs (n + 1) false s = t := by
      intro p r c a n hs hn hr
      obtain ⟨t', h1, rfl, h3⟩ := ampAt_some h hr
      subst hs
      rw [ampRefs, if_neg (by simp), hr]
      simp only
      rw [(ihs r t' h3 h1 n (by omega)).1]
    cases h with
    | nil => cases n <;> exact ⟨rfl, fun _ => rfl⟩
    | @chr c s t hc hc' hs =>
      simp only [List.length_cons] at hn
      obtain ⟨n, rfl⟩ : ∃ j, n = j + 1 := ⟨n - 1, by omega⟩
      have h1 := (ihs s t (by simp) hs n (by omega)).1
      have hb : (c == '\\') = false := by simp [hc]
      constructor
      · rw [ampRefs, if_neg (by simp), ampAt_chr hc hc']
        simp only
        rw [hb, h1]
      · intro _
        rw [ampRefs, if_pos rfl, hb, h1]
    | @esc c s t hs =>
      simp only [List.length_cons] at hn
      obtain ⟨n, rfl⟩ : ∃ j, n = j + 2 := ⟨n - 2, by omega⟩
      by_cases hb : c = '\\'
      · subst hb
        cases hr : ampAt s with
        | some x =>
          obtain ⟨p, r⟩ := x
          have hr' : ampAt ('\\' :: '\\' :: s) = some ('\\' :: '\\' :: p, r) := by rw [ampAt_bs, hr]; rfl
          refine ⟨refs rfl (by simp only [List.length_cons]; omega) hr', fun h0 => ?_⟩
          rw [hr'] at h0
          cases h0
        | none =>
          have hr' : ampAt ('\\' :: '\\' :: s) = none := by rw [ampAt_bs, hr]; rfl
          have h1 := (ihs s t (by simp only [List.length_cons]; omega) hs n (by omega)).2 hr
          constructor
          · rw [ampRefs, if_neg (by simp), hr']
            simp only
            rw [ampRefs, if_pos (by rfl)]
            exact congrArg (fun x => '\\' :: '\\' :: x) h1
          · intro _
            rw [ampRefs, if_pos rfl, ampRefs, if_pos (by rfl)]
            exact congrArg (fun x => '\\' :: '\\' :: x) h1
      · have hr' : ampAt ('\\' :: c :: s) = none := ampAt_esc hb
        have h1 := (ihs s t (by simp only [List.length_cons]; omega) hs n (by omega)).1
        have hb' : (c == '\\') = false := by simp [hb]
        constructor
        · rw [ampRefs, if_neg (by simp), hr']
          simp only
          rw [ampRefs, if_pos (by rfl), hb', h1]
        · intro _
          rw [ampRefs, if_pos rfl, ampRefs, if_pos (by rfl), hb', h1]
    | @amp s t hs =>
      simp only [List.length_cons] at hn
      obtain ⟨n, rfl⟩ : ∃ j, n = j + 1 := ⟨n - 1, by omega⟩
      refine ⟨refs rfl (by simp only [List.length_cons]; omega) (p := []) (r := s) rfl, fun h0 => ?_⟩
      cases h0

/-! ### Replacements -/

/-- Digits of the numbers of groups -/
theorem group_digits {k : Nat} (h1 : 1 ≤ k) (h2 : k ≤ 99) :
    (k ≤ 9 ∧ showNat k = [digitChar k] ∧ isDigit09 (digitChar k) = true ∧ (digitChar k).toNat - 48 = k ∧ digitChar k ≠ '0' ∧ digitChar k ≠ 'g') ∨
    (10 ≤ k ∧ showNat k = [digitChar (k / 10), digitChar (k % 10)] ∧ isDigit09 (digitChar (k / 10)) = true ∧
      isDigit09 (digitChar (k % 10)) = true ∧ isDigit (digitChar (k % 10)) = true ∧ digitVal (digitChar (k % 10)) = k % 10 ∧
      ((digitChar (k / 10)).toNat - 48) * 10 + ((digitChar (k % 10)).toNat - 48) = k ∧ digitChar (k / 10) ≠ '0' ∧ digitChar (k / 10) ≠ 'g' ∧
      digitChar (k % 10) ≠ '\\' ∧ digitChar (k % 10) ≠ '&') := by
  rcases Nat.lt_or_ge k 10 with h | h
  · have key : ∀ k < 10, 1 ≤ k → showNat k = [digitChar k] ∧ isDigit09 (digitChar k) = true ∧ (digitChar k).toNat - 48 = k ∧
        digitChar k ≠ '0' ∧ digitChar k ≠ 'g' := by decide +kernel
    exact .inl ⟨by omega, key k h h1⟩
  · have k1 : ∀ k < 100, 10 ≤ k → showNat k = [digitChar (k / 10), digitChar (k % 10)] ∧ isDigit09 (digitChar (k / 10)) = true ∧
      isDigit09 (digitChar (k % 10)) = true ∧ isDigit (digitChar (k % 10)) = true ∧ digitVal (digitChar (k % 10)) = k % 10 := by decide +kernel
    have k2 : ∀ k < 100, 10 ≤ k → ((digitChar (k / 10)).toNat - 48) * 10 + ((digitChar (k % 10)).toNat - 48) = k ∧
      digitChar (k / 10) ≠ '0' ∧ digitChar (k / 10) ≠ 'g' ∧ digitChar (k % 10) ≠ '\\' ∧ digitChar (k % 10) ≠ '&' := by decide +kernel
    obtain ⟨a1, a2, a3, a4, a5⟩ := k1 k (by omega) h
    exact .inr ⟨h, a1, a2, a3, a4, a5, k2 k (by omega) h⟩

theorem tmpl_group (c : Compiled) {k n : Nat} {t : Str} {ps : List Rex.Part} (h1 : 1 ≤ k) (h2 : k ≤ 99) (hk : k ≤ c.groups)
    (ht : ∀ d u, t = d :: u → isDigit09 d = false) (h : tmpl c n t = .ok ps) :
    tmpl c (n + 1) ('\\' :: (showNat k ++ t)) = .ok (.grp k :: ps) := by
  have hg : c.group k = .ok (.grp k) := by rw [Compiled.group, if_pos hk]
  have fin : ∀ s : Str, tmplEsc c s = .ok ([.grp k], t) → tmpl c (n + 1) ('\\' :: s) = .ok (.grp k :: ps) := by
    intro s hs
    rw [tmpl, if_pos rfl, hs]
    show (tmpl c n t >>= fun r => pure ([Rex.Part.grp k] ++ r)) = _
    rw [h]
    rfl
  rcases group_digits h1 h2 with ⟨_, e, a1, a2, a3, a4⟩ | ⟨_, e, a1, a2, _, _, a3, a4, a5, _, _⟩
  · rw [e]
    refine fin _ ?_
    show tmplEsc c (digitChar k :: t) = _
    rw [tmplEsc.eq_def]
    dsimp only
    rw [if_neg a4, if_neg a3, if_pos a1]
    have : digitEsc (digitChar k) t = .ok (.inl k, t) := by
      unfold digitEsc
      cases t with
      | nil => simp only [a2]; rfl
      | cons d u => simp only [ht d u rfl, a2, Bool.false_eq_true, if_false]; rfl
    rw [this]
    show (c.group k >>= fun x => pure ([x], t)) = _
    rw [hg]
    rfl
  · rw [e]
    refine fin _ ?_
    show tmplEsc c (digitChar (k / 10) :: digitChar (k % 10) :: t) = _
    rw [tmplEsc.eq_def]
    dsimp only
    rw [if_neg a5, if_neg a4, if_pos a1]
    have : digitEsc (digitChar (k / 10)) (digitChar (k % 10) :: t) = .ok (.inl k, t) := by
      unfold digitEsc
      simp only [a2, if_true]
      cases t with
      | nil => simp only [a3]; rfl
      | cons d u =>
        have ho : isOct d = false := by
          cases h : isOct d with
          | false => rfl
          | true =>
            have := ht d u rfl
            simp only [isOct, isDigit09, Bool.and_eq_true, decide_eq_true_eq, Bool.and_eq_false_iff, decide_eq_false_iff_not] at h this
            have e7 : '7'.toNat = 55 := rfl
            have e9 : '9'.toNat = 57 := rfl
            omega
        simp only [ho, Bool.and_false, Bool.false_eq_true, if_false, a3]
        rfl
    rw [this]
    show (c.group k >>= fun x => pure ([x], t)) = _
    rw [hg]
    rfl

theorem replaced_amp {s t : Str} (h : Replaced (s% "\\&") (s% "&") s t) {c : Char} (hc : c ≠ '\\') :
    Replaced (s% "\\&") (s% "&") (c :: s) (c :: t) := by
  refine h.cons ?_
  rintro ⟨p, q, e, hp⟩
  obtain rfl := List.eq_nil_of_length_eq_zero hp
  exact hc (List.cons.inj e).1

theorem replaced_bs {s t : Str} (h : Replaced (s% "\\&") (s% "&") s t) (hs : ∀ u, s ≠ '&' :: u) :
    Replaced (s% "\\&") (s% "&") ('\\' :: s) ('\\' :: t) := by
  refine h.cons ?_
  rintro ⟨p, q, e, hp⟩
  obtain rfl := List.eq_nil_of_length_eq_zero hp
  exact hs _ (List.cons.inj e).2

theorem replaced_digits {s t : Str} (h : Replaced (s% "\\&") (s% "&") s t) : ∀ d : Str, (∀ c ∈ d, c ≠ '\\') →
    Replaced (s% "\\&") (s% "&") (d ++ s) (d ++ t)
  | [], _ => h
  | c :: d, hd => replaced_amp (replaced_digits h d fun x hx => hd x (List.mem_cons_of_mem _ hx)) (hd c (List.mem_cons_self ..))

/-- What a text of a Pattern stands for as a replacement -/
structure TemplateOk (c : Compiled) (raw t1 t2 t3 : Str) (ps : List Rex.Part) (g : Match → Str) : Prop where
  refs : RefText raw t1
  amps : AmpText t1 t2
  repl : Replaced (s% "\\&") (s% "&") t2 t3
  noAmp : ∀ u, t2 ≠ '&' :: u
  digit : ∀ d u, t3 = d :: u → isDigit09 d = true → ∃ v, raw = d :: v
  parts : ∀ n, t3.length < n → tmpl c n t3 = .ok ps
  text : ∀ (s st : Str) (q : Pos), q.caps.lookup 1 = some (st.length, q.pre.length) → ps.flatMap (Part.text s st q) = g (mkMatch c.groups s st q)

theorem digit09_digit {d : Char} (h : isDigit09 d = true) : isDigit d = true := by
  simp only [isDigit09, Bool.and_eq_true, decide_eq_true_eq] at h
  have e0 : '0'.toNat = 48 := rfl
  have e9 : '9'.toNat = 57 := rfl
  have key : ∀ k < 58, 48 ≤ k → isDigit (Char.ofNat k) = true := by decide +kernel
  have := key d.toNat (by omega) (by omega)
  rwa [Char.ofNat_toNat] at this

theorem template_ok {c : Compiled} (hn : c.names.lookup (s% "all") = some 1) {n : Nat} (hc : c.groups = n + 1) {raw : Str} {g : Match → Str}
    (h : Template n raw g) : ∃ t1 t2 t3 ps, TemplateOk c raw t1 t2 t3 ps g := by
  have step : ∀ {m : Nat} {d : Char} {t : Str} {ps : List Rex.Part}, d ≠ '\\' → tmpl c m t = .ok ps → tmpl c (m + 1) (d :: t) = .ok (.chr d :: ps) := by
    intro m d t ps hd h
    rw [tmpl, if_neg hd, h]
    rfl
  have esc : ∀ {m : Nat} {s t : Str} {p : Rex.Part} {ps : List Rex.Part}, tmplEsc c s = .ok ([p], t) → tmpl c m t = .ok ps →
      tmpl c (m + 1) ('\\' :: s) = .ok (p :: ps) := by
    intro m s t p ps hs h
    rw [tmpl, if_pos rfl, hs]
    show (tmpl c m t >>= fun r => pure ([p] ++ r)) = _
    rw [h]
    rfl
  induction h with
  | nil =>
    refine ⟨[], [], [], [], .nil, .nil, .none ?_, by simp, by simp, fun m hm => ?_, fun _ _ _ _ => rfl⟩
    · rintro i ⟨p, q, e, _⟩
      have := congrArg List.length e
      simp at this
    · obtain ⟨m, rfl⟩ : ∃ j, m = j + 1 := ⟨m - 1, by omega⟩
      rfl
  | @chr d t g h1 h2 _ ih =>
    obtain ⟨t1, t2, t3, ps, ok⟩ := ih
    refine ⟨d :: t1, d :: t2, d :: t3, .chr d :: ps, .chr h1 ok.refs, .chr h1 h2 ok.amps, replaced_amp ok.repl h1,
      fun u e => h2 (List.cons.inj e).1, ?_, fun m hm => ?_, fun s st q hq => ?_⟩
    · intro x u e _
      exact ⟨t, by rw [(List.cons.inj e).1]⟩
    · simp only [List.length_cons] at hm
      obtain ⟨m, rfl⟩ : ∃ j, m = j + 1 := ⟨m - 1, by omega⟩
      exact step h1 (ok.parts m (by omega))
    · rw [List.flatMap_cons, ok.text s st q hq]
      rfl
  | @whole t g _ ih =>
    obtain ⟨t1, t2, t3, ps, ok⟩ := ih
    refine ⟨'&' :: t1, s% "\\g<all>" ++ t2, s% "\\g<all>" ++ t3, .grp 1 :: ps, .chr (by decide) ok.refs, .amp ok.amps, ?_, by simp, ?_,
      fun m hm => ?_, fun s st q hq => ?_⟩
    · exact replaced_bs (replaced_digits ok.repl (s% "g<all>") (by decide)) (by simp)
    · intro d u e hd
      rw [← (List.cons.inj e).1] at hd
      exact absurd hd (by decide)
    · simp only [List.length_append, List.length_cons, List.length_nil] at hm
      obtain ⟨m, rfl⟩ : ∃ j, m = j + 1 := ⟨m - 1, by omega⟩
      refine esc (s := s% "g<all>" ++ t3) (t := t3) ?_ (ok.parts m (by omega))
      show (untilChar '>' (s% "all>" ++ t3) >>= fun x => c.named x.1 >>= fun p => pure ([p], x.2)) = _
      have hu : untilChar '>' (s% "all>" ++ t3) = .ok (s% "all", t3) := rfl
      rw [hu]
      show (c.named (s% "all") >>= fun p => pure ([p], t3)) = _
      have : c.named (s% "all") = .ok (.grp 1) := by
        show (checkName (s% "all") >>= fun _ => match c.names.lookup (s% "all") with
          | some k => pure (Rex.Part.grp k)
          | none => .error .other) = _
        rw [hn]
        rfl
      rw [this]
      rfl
    · rw [List.flatMap_cons, ok.text s st q hq]
      congr 1
      show ((q.caps.lookup 1).map fun (i, j) => between s i j).getD [] = _
      rw [hq]
      rfl
  | @amp t g _ ih =>
    obtain ⟨t1, t2, t3, ps, ok⟩ := ih
    refine ⟨'\\' :: '&' :: t1, '\\' :: '&' :: t2, '&' :: t3, .chr '&' :: ps, .esc (by decide) ok.refs, .esc ok.amps, ?_, by simp, ?_,
      fun m hm => ?_, fun s st q hq => ?_⟩
    · exact Replaced.next (p := []) (by simp) ok.repl
    · intro d u e hd
      rw [← (List.cons.inj e).1] at hd
      exact absurd hd (by decide)
    · simp only [List.length_cons] at hm
      obtain ⟨m, rfl⟩ : ∃ j, m = j + 1 := ⟨m - 1, by omega⟩
      exact step (by decide) (ok.parts m (by omega))
    · rw [List.flatMap_cons, ok.text s st q hq]
      rfl
  | @back t g _ ih =>
    obtain ⟨t1, t2, t3, ps, ok⟩ := ih
    refine ⟨'\\' :: '\\' :: t1, '\\' :: '\\' :: t2, '\\' :: '\\' :: t3, .chr '\\' :: ps, .esc (by decide) ok.refs, .esc ok.amps, ?_, by simp, ?_,
      fun m hm => ?_, fun s st q hq => ?_⟩
    · exact replaced_bs (replaced_bs ok.repl ok.noAmp) (by simp)
    · intro d u e hd
      rw [← (List.cons.inj e).1] at hd
      exact absurd hd (by decide)
    · simp only [List.length_cons] at hm
      obtain ⟨m, rfl⟩ : ∃ j, m = j + 1 := ⟨m - 1, by omega⟩
      exact esc (t := t3) rfl (ok.parts m (by omega))
    · rw [List.flatMap_cons, ok.text s st q hq]
      rfl
  | @control a d t g ha _ ih =>
    obtain ⟨t1, t2, t3, ps, ok⟩ := ih
    have hf : ∀ x ∈ controlEscapes, x.1 ∉ ['1', '2', '3', '4', '5', '6', '7', '8', '9'] ∧ x.1 ≠ '\\' ∧ x.1 ≠ '&' := by decide
    have he : ∀ t, tmplEsc c (a :: t) = .ok ([.chr d], t) := by
      intro t
      simp only [controlEscapes, List.mem_cons, Prod.mk.injEq, List.not_mem_nil, or_false] at ha
      rcases ha with ⟨rfl, rfl⟩ | ⟨rfl, rfl⟩ | ⟨rfl, rfl⟩ | ⟨rfl, rfl⟩ | ⟨rfl, rfl⟩ | ⟨rfl, rfl⟩ | ⟨rfl, rfl⟩ <;> rfl
    obtain ⟨f1, f2, f3⟩ := hf _ ha
    refine ⟨'\\' :: a :: t1, '\\' :: a :: t2, '\\' :: a :: t3, .chr d :: ps, .esc f1 ok.refs, .esc ok.amps, ?_, by simp, ?_,
      fun m hm => ?_, fun s st q hq => ?_⟩
    · exact replaced_bs (replaced_amp ok.repl f2) fun u e => f3 (List.cons.inj e).1
    · intro d u e hd
      rw [← (List.cons.inj e).1] at hd
      exact absurd hd (by decide)
    · simp only [List.length_cons] at hm
      obtain ⟨m, rfl⟩ : ∃ j, m = j + 1 := ⟨m - 1, by omega⟩
      exact esc (he t3) (ok.parts m (by omega))
    · rw [List.flatMap_cons, ok.text s st q hq]
      rfl
  | @other a t g ha f2 f3 _ ih =>
    obtain ⟨t1, t2, t3, ps, ok⟩ := ih
    have hc : ∀ x : Char, x.isAlphanum = true → a ≠ x := by
      rintro x hx rfl
      rw [ha] at hx
      cases hx
    have f1 : a ∉ ['1', '2', '3', '4', '5', '6', '7', '8', '9'] := by
      intro h
      have : ∀ x ∈ ['1', '2', '3', '4', '5', '6', '7', '8', '9'], x.isAlphanum = true := by decide
      exact hc a (this a h) rfl
    have h9 : isDigit09 a = false := by
      rw [← Bool.not_eq_true]
      intro h
      simp only [isDigit09, Bool.and_eq_true, decide_eq_true_eq] at h
      have e0 : '0'.toNat = 48 := rfl
      have e9 : '9'.toNat = 57 := rfl
      have key : ∀ k < 58, 48 ≤ k → (Char.ofNat k).isAlphanum = true := by decide +kernel
      have := key a.toNat (by omega) (by omega)
      rw [Char.ofNat_toNat, ha] at this
      cases this
    have hl : isLetter a = false := by
      rw [← Bool.not_eq_true]
      intro h
      simp only [isLetter, isUpperAZ, isLowerAZ, Bool.or_eq_true, Bool.and_eq_true, decide_eq_true_eq] at h
      have e1 : 'a'.toNat = 97 := rfl
      have e2 : 'z'.toNat = 122 := rfl
      have e3 : 'A'.toNat = 65 := rfl
      have e4 : 'Z'.toNat = 90 := rfl
      have key : ∀ k < 123, (97 ≤ k ∨ 65 ≤ k ∧ k ≤ 90) → (Char.ofNat k).isAlphanum = true := by decide +kernel
      have := key a.toNat (by omega) (by omega)
      rw [Char.ofNat_toNat, ha] at this
      cases this
    have hs : simpleEsc a = none := by
      unfold simpleEsc
      rw [if_neg (hc _ (by decide)), if_neg (hc _ (by decide)), if_neg (hc _ (by decide)), if_neg (hc _ (by decide)),
        if_neg (hc _ (by decide)), if_neg (hc _ (by decide))]
    have he : ∀ t, tmplEsc c (a :: t) = .ok ([.chr '\\', .chr a], t) := by
      intro t
      rw [tmplEsc.eq_def]
      dsimp only
      rw [if_neg (hc _ (by decide)), if_neg (hc _ (by decide)), h9, if_neg (by simp), if_neg (hc _ (by decide)), if_neg f2, hs]
      dsimp only
      rw [hl, if_neg (by simp)]
    refine ⟨'\\' :: a :: t1, '\\' :: a :: t2, '\\' :: a :: t3, .chr '\\' :: .chr a :: ps, .esc f1 ok.refs, .esc ok.amps, ?_, by simp, ?_,
      fun m hm => ?_, fun s st q hq => ?_⟩
    · exact replaced_bs (replaced_amp ok.repl f2) fun u e => f3 (List.cons.inj e).1
    · intro d u e hd
      rw [← (List.cons.inj e).1] at hd
      exact absurd hd (by decide)
    · simp only [List.length_cons] at hm
      obtain ⟨m, rfl⟩ : ∃ j, m = j + 1 := ⟨m - 1, by omega⟩
      rw [tmpl, if_pos rfl, he]
      show (tmpl c m t3 >>= fun r => pure ([Rex.Part.chr '\\', .chr a] ++ r)) = _
      rw [ok.parts m (by omega)]
      rfl
    · rw [List.flatMap_cons, List.flatMap_cons, ok.text s st q hq]
      rfl
  | @group k t g h1 hk h98 ht _ ih =>
    obtain ⟨t1, t2, t3, ps, ok⟩ := ih
    have hd9 : ∀ x ∈ showNat (k + 1), x ≠ '\\' ∧ x ≠ '&' := by
      intro x hx
      have := showNat_digit09 (k + 1) x hx
      constructor <;> rintro rfl <;> exact absurd this (by decide)
    refine ⟨'\\' :: (showNat (k + 1) ++ t1), '\\' :: (showNat (k + 1) ++ t2), '\\' :: (showNat (k + 1) ++ t3), .grp (k + 1) :: ps, ?_, ?_, ?_, by simp, ?_,
      fun m hm => ?_, fun s st q hq => ?_⟩
    · rcases group_digits h1 (by omega) with ⟨h9, e, _⟩ | ⟨h10, e, _, _, a3, a4, _⟩
      · rw [e]
        exact .ref1 h1 h9 ht ok.refs
      · rw [e]
        have := RefText.ref2 (d := k / 10) (c := digitChar (k % 10)) (by omega) (by omega) a3 ok.refs
        rw [a4, show 10 * (k / 10) + k % 10 + 1 = k + 1 by omega] at this
        exact this
    · have digits : ∀ d : Str, (∀ x ∈ d, x ≠ '\\' ∧ x ≠ '&') → AmpText (d ++ t1) (d ++ t2) := by
        intro d
        induction d with
        | nil => intro _; exact ok.amps
        | cons x d ih =>
          intro h
          exact .chr (h x (List.mem_cons_self ..)).1 (h x (List.mem_cons_self ..)).2 (ih fun y hy => h y (List.mem_cons_of_mem _ hy))
      cases hs : showNat (k + 1) with
      | nil => exact absurd hs (showNat_ne _)
      | cons x d =>
        rw [hs] at hd9
        exact .esc (digits d fun y hy => hd9 y (List.mem_cons_of_mem _ hy))
    · refine replaced_bs (replaced_digits ok.repl _ fun x hx => (hd9 x hx).1) fun u e => ?_
      cases hs : showNat (k + 1) with
      | nil => exact absurd hs (showNat_ne _)
      | cons x d =>
        rw [hs] at e hd9
        exact (hd9 x (List.mem_cons_self ..)).2 (List.cons.inj e).1
    · intro d u e hd
      rw [← (List.cons.inj e).1] at hd
      exact absurd hd (by decide)
    · simp only [List.length_cons, List.length_append] at hm
      obtain ⟨m, rfl⟩ : ∃ j, m = j + 1 := ⟨m - 1, by omega⟩
      refine tmpl_group c (by omega) (by omega) (by omega) ?_ (ok.parts m (by omega))
      intro d u e
      cases hd : isDigit09 d with
      | false => rfl
      | true =>
        obtain ⟨v, hv⟩ := ok.digit d u e hd
        have := ht d v hv
        rw [digit09_digit hd] at this
        cases this
    · rw [List.flatMap_cons, ok.text s st q hq]
      congr 1
      show (q.group s (k + 1)).getD [] = _
      have : (mkMatch c.groups s st q).groups[k - 1]? = some (q.group s (k + 1)) := by
        show ((List.range (c.groups - 1)).map fun i => q.group s (i + 2))[k - 1]? = _
        rw [List.getElem?_map, List.getElem?_range (by omega), Option.map_some, show k - 1 + 2 = k + 1 by omega]
      rw [Match.groupText, this]
      rfl

/-- Replacing by a Pattern -/
theorem sub_template {E : Env} {c : Compiled} {n : Nat} (h0 : ∃ r, c.rx = .seq (.cap 1 r) .eps) (hn : c.names.lookup (s% "all") = some 1)
    (hc : c.groups = n + 1) {raw : Str} {g : Match → Str} (h : Template n raw g) (s : Str) :
    c.sub E (asReplacement raw) s = .ok (replaced g s 0 ((c.all E s).map fun x => mkMatch c.groups s x.1 x.2)) := by
  obtain ⟨t1, t2, t3, ps, ok⟩ := template_ok hn hc h
  have e : asReplacement raw = t3 := by
    show replaceStr (s% "\\&") (s% "&") (ampRefs (incRefs raw.length false raw).length false (incRefs raw.length false raw)) = _
    rw [incRefs_ref ok.refs, (ampRefs_eq t1.length t1 t2 (Nat.le_refl _) ok.amps _ (Nat.le_refl _)).1]
    exact (replaceStr_spec _ _ (by simp) _).unique ok.repl
  rw [e, Compiled.sub, ok.parts _ (Nat.lt_succ_self _)]
  show Except.ok (splice s (fun m => ps.flatMap (Part.text s m.1 m.2)) 0 (c.all E s)) = _
  obtain ⟨r, hr⟩ := h0
  rw [splice_replaced c.groups s _ g]
  intro x hx
  rw [Compiled.all, hr] at hx
  exact ok.text s x.1 x.2 (all_caps _ hx)

/-- Replacing by a string -/
theorem sub_literal (E : Env) (c : Compiled) (t s : Str) :
    c.sub E (replaceStr (s% "\\") (s% "\\\\") t) s = .ok (replaced (fun _ => t) s 0 ((c.all E s).map fun x => mkMatch c.groups s x.1 x.2)) := by
  rw [dbl_eq, Compiled.sub, tmpl_dbl c t _ (Nat.lt_succ_self _)]
  show Except.ok (splice s (fun m => (t.map Rex.Part.chr).flatMap (Part.text s m.1 m.2)) 0 (c.all E s)) = _
  rw [splice_replaced c.groups s _ fun _ => t]
  intro x _
  clear * -
  induction t with
  | nil => rfl
  | cons d t ih => exact congrArg (d :: ·) ih

end Pip
