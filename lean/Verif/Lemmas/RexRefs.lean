import Verif.Spec.RefText
import Verif.Lemmas.RexParse
/-!
# The text that `asRegex` compiles
-/

namespace Pip
open Rex Re

/-! ### Back-references -/

theorem not19 {c : Char} (h : c ∉ ['1', '2', '3', '4', '5', '6', '7', '8', '9']) : (isDigit09 c && c != '0') = false := by
  cases hc : isDigit09 c with
  | false => rfl
  | true =>
    simp only [isDigit09, Bool.and_eq_true, decide_eq_true_eq] at hc
    have e0 : '0'.toNat = 48 := rfl
    have e9 : '9'.toNat = 57 := rfl
    have key : ∀ k < 58, 48 ≤ k → Char.ofNat k ∉ ['1', '2', '3', '4', '5', '6', '7', '8', '9'] → Char.ofNat k = '0' := by decide +kernel
    have := key c.toNat (by omega) (by omega) (by simpa using h)
    rw [Char.ofNat_toNat] at this
    simp [this]

theorem is19 {d : Nat} (h1 : 1 ≤ d) (h9 : d ≤ 9) : (isDigit09 (digitChar d) && digitChar d != '0') = true ∧ digitChar d ≠ '\\' ∧
    isDigit (digitChar d) = true ∧ digitVal (digitChar d) = d := by
  have : d = 1 ∨ d = 2 ∨ d = 3 ∨ d = 4 ∨ d = 5 ∨ d = 6 ∨ d = 7 ∨ d = 8 ∨ d = 9 := by omega
  rcases this with rfl | rfl | rfl | rfl | rfl | rfl | rfl | rfl | rfl <;> decide +kernel

theorem refAt_chr {c : Char} {s : Str} (h : c ≠ '\\') : refAt (c :: s) = none := by
  unfold refAt
  split
  · next e => exact absurd (List.cons.inj e).1 h
  · next e => exact absurd (List.cons.inj e).1 h
  · rfl

theorem refAt_bs (s : Str) : refAt ('\\' :: '\\' :: s) = (refAt s).map fun (p, d, r) => ('\\' :: '\\' :: p, d, r) := by
  rw [refAt]

theorem refAt_esc {c : Char} {s : Str} (h : c ≠ '\\') : refAt ('\\' :: c :: s) =
    if isDigit09 c && c != '0' then
      match s with
      | e :: t => if isDigit e then some ([], [c, e], t) else some ([], [c], s)
      | [] => some ([], [c], [])
    else none := by
  unfold refAt
  split
  · next e => exact absurd (List.cons.inj (List.cons.inj e).2).1 h
  · next e =>
    obtain ⟨rfl, rfl⟩ := List.cons.inj (List.cons.inj e).2
    rfl
  · next e => exact absurd rfl (e _ _)

theorem refAt_tail : refAt ['\\'] = none := rfl

theorem refAt_ref1 {d : Nat} {s : Str} (h1 : 1 ≤ d) (h9 : d ≤ 9) (hs : ∀ c u, s = c :: u → isDigit c = false) :
    refAt ('\\' :: digitChar d :: s) = some ([], [digitChar d], s) := by
  obtain ⟨hd, hb, _, _⟩ := is19 h1 h9
  rw [refAt_esc hb, if_pos hd]
  cases s with
  | nil => rfl
  | cons c u => simp [hs c u rfl]

theorem refAt_ref2 {d : Nat} {c : Char} {s : Str} (h1 : 1 ≤ d) (h9 : d ≤ 9) (hc : isDigit c = true) :
    refAt ('\\' :: digitChar d :: c :: s) = some ([], [digitChar d, c], s) := by
  obtain ⟨hd, hb, _, _⟩ := is19 h1 h9
  rw [refAt_esc hb, if_pos hd]
  simp [hc]

theorem refAt_some {s t : Str} (h : RefText s t) {p d r : Str} (hr : refAt s = some (p, d, r)) :
    ∃ t', RefText r t' ∧ t = p ++ s% "\\" ++ showNat (parseNat d + 1) ++ t' ∧ r.length < s.length := by
  induction h generalizing p d r with
  | nil => cases hr
  | chr hc => rw [refAt_chr hc] at hr; cases hr
  | @esc c s t hc hs ih =>
    by_cases hb : c = '\\'
    · subst hb
      rw [refAt_bs] at hr
      cases hs' : refAt s with
      | none => rw [hs'] at hr; cases hr
      | some x =>
        obtain ⟨p', d', r'⟩ := x
        rw [hs'] at hr
        cases hr
        obtain ⟨t', h1, rfl, h3⟩ := ih hs'
        exact ⟨t', h1, by simp, by simp only [List.length_cons]; omega⟩
    · rw [refAt_esc hb, if_neg (by simp [not19 hc])] at hr
      cases hr
  | @ref1 d s t h1 h9 hs hst ih =>
    rw [refAt_ref1 h1 h9 hs] at hr
    cases hr
    refine ⟨t, hst, ?_, by simp only [List.length_cons]; omega⟩
    simp [parseNat, (is19 h1 h9).2.2.2]
  | @ref2 d c s t h1 h9 hc hst ih =>
    rw [refAt_ref2 h1 h9 hc] at hr
    cases hr
    refine ⟨t, hst, ?_, by simp only [List.length_cons]; omega⟩
    simp [parseNat, (is19 h1 h9).2.2.2, Nat.mul_comm]
  | tail => cases hr

theorem incRefs_eq (k : Nat) : ∀ s t : Str, s.length ≤ k → RefText s t → ∀ n, s.length ≤ n →
    incRefs n false s = t ∧ (refAt s = none → incRefs n true s = t) := by
  induction k using Nat.strongRecOn with
  | ind k ih =>
    intro s t hk h n hn
    have ihs : ∀ s' t' : Str, s'.length < s.length → RefText s' t' → ∀ n, s'.length ≤ n →
        incRefs n false s' = t' ∧ (refAt s' = none → incRefs n true s' = t') :=
      fun s' t' hl h' => ih s'.length (by omega) s' t' (Nat.le_refl _) h'
    have refs : ∀ {p d r c : Str} {a : Char} {n : Nat}, s = a :: c → s.length ≤ n + 1 → refAt s = some (p, d, r) →
        incRefs (n + 1) false s = t := by
      intro p d r c a n hs hn hr
      obtain ⟨t', h1, rfl, h3⟩ := refAt_some h hr
      subst hs
      rw [incRefs, if_neg (by simp), hr]
      simp only
      rw [(ihs r t' h3 h1 n (by omega)).1]
    cases h with
    | nil => cases n <;> exact ⟨rfl, fun _ => rfl⟩
    | @chr c s t hc hs =>
      simp only [List.length_cons] at hn
      obtain ⟨n, rfl⟩ : ∃ j, n = j + 1 := ⟨n - 1, by omega⟩
      have h1 := (ihs s t (by simp) hs n (by omega)).1
      have hb : (c == '\\') = false := by simp [hc]
      constructor
      · rw [incRefs, if_neg (by simp), refAt_chr hc]
        simp only
        rw [hb, h1]
      · intro _
        rw [incRefs, if_pos rfl, hb, h1]
    | @esc c s t hc hs =>
      simp only [List.length_cons] at hn
      obtain ⟨n, rfl⟩ : ∃ j, n = j + 2 := ⟨n - 2, by omega⟩
      by_cases hb : c = '\\'
      · subst hb
        cases hr : refAt s with
        | some x =>
          obtain ⟨p, d, r⟩ := x
          have hr' : refAt ('\\' :: '\\' :: s) = some ('\\' :: '\\' :: p, d, r) := by rw [refAt_bs, hr]; rfl
          refine ⟨refs rfl (by simp only [List.length_cons]; omega) hr', fun h0 => ?_⟩
          rw [hr'] at h0
          cases h0
        | none =>
          have hr' : refAt ('\\' :: '\\' :: s) = none := by rw [refAt_bs, hr]; rfl
          have h1 := (ihs s t (by simp only [List.length_cons]; omega) hs n (by omega)).2 hr
          constructor
          · rw [incRefs, if_neg (by simp), hr']
            simp only
            rw [incRefs, if_pos (by rfl)]
            exact congrArg (fun x => '\\' :: '\\' :: x) h1
          · intro _
            rw [incRefs, if_pos rfl, incRefs, if_pos (by rfl)]
            exact congrArg (fun x => '\\' :: '\\' :: x) h1
      · have hr' : refAt ('\\' :: c :: s) = none := by rw [refAt_esc hb, if_neg (by simp [not19 hc])]
        have h1 := (ihs s t (by simp only [List.length_cons]; omega) hs n (by omega)).1
        have hb' : (c == '\\') = false := by simp [hb]
        constructor
        · rw [incRefs, if_neg (by simp), hr']
          simp only
          rw [incRefs, if_pos (by rfl), hb', h1]
        · intro _
          rw [incRefs, if_pos rfl, incRefs, if_pos (by rfl), hb', h1]
    | @ref1 d s t h1 h9 hd hs =>
      simp only [List.length_cons] at hn
      obtain ⟨n, rfl⟩ : ∃ j, n = j + 1 := ⟨n - 1, by omega⟩
      have hr := refAt_ref1 h1 h9 hd
      refine ⟨refs rfl (by simp only [List.length_cons]; omega) hr, fun h0 => ?_⟩
      rw [hr] at h0
      cases h0
    | @ref2 d c s t h1 h9 hc hs =>
      simp only [List.length_cons] at hn
      obtain ⟨n, rfl⟩ : ∃ j, n = j + 1 := ⟨n - 1, by omega⟩
      have hr := refAt_ref2 (s := s) h1 h9 hc
      refine ⟨refs rfl (by simp only [List.length_cons]; omega) hr, fun h0 => ?_⟩
      rw [hr] at h0
      cases h0
    | tail =>
      simp only [List.length_cons, List.length_nil] at hn
      obtain ⟨n, rfl⟩ : ∃ j, n = j + 1 := ⟨n - 1, by omega⟩
      cases n <;> exact ⟨rfl, fun _ => rfl⟩

/-- Incrementing the back-references, as the specification says -/
theorem incRefs_ref {s t : Str} (h : RefText s t) : incRefs s.length false s = t :=
  (incRefs_eq s.length s t (Nat.le_refl _) h _ (Nat.le_refl _)).1

/-- Every text has its back-references incremented. -/
theorem refText_total (s : Str) : ∃ t, RefText s t := by
  induction hk : s.length using Nat.strongRecOn generalizing s with
  | ind k ih =>
    subst hk
    match s with
    | [] => exact ⟨[], .nil⟩
    | [c] =>
      by_cases hc : c = '\\'
      · subst hc; exact ⟨_, .tail⟩
      · exact ⟨_, .chr hc .nil⟩
    | c :: d :: s =>
      by_cases hc : c = '\\'
      · subst hc
        by_cases hd : d ∈ ['1', '2', '3', '4', '5', '6', '7', '8', '9']
        · obtain ⟨k, h1, h9, rfl⟩ : ∃ k, 1 ≤ k ∧ k ≤ 9 ∧ d = digitChar k := by
            simp only [List.mem_cons, List.not_mem_nil, or_false] at hd
            rcases hd with h | h | h | h | h | h | h | h | h
            · exact ⟨1, by decide, by decide, h⟩
            · exact ⟨2, by decide, by decide, h⟩
            · exact ⟨3, by decide, by decide, h⟩
            · exact ⟨4, by decide, by decide, h⟩
            · exact ⟨5, by decide, by decide, h⟩
            · exact ⟨6, by decide, by decide, h⟩
            · exact ⟨7, by decide, by decide, h⟩
            · exact ⟨8, by decide, by decide, h⟩
            · exact ⟨9, by decide, by decide, h⟩
          match s with
          | [] => exact ⟨_, .ref1 h1 h9 (by rintro _ _ ⟨⟩) .nil⟩
          | e :: s =>
            by_cases he : isDigit e = true
            · obtain ⟨t, ht⟩ := ih s.length (by simp only [List.length_cons]; omega) s rfl
              exact ⟨_, .ref2 h1 h9 he ht⟩
            · obtain ⟨t, ht⟩ := ih (e :: s).length (by simp only [List.length_cons]; omega) (e :: s) rfl
              exact ⟨_, .ref1 h1 h9 (by rintro _ _ ⟨⟩; simpa using he) ht⟩
        · obtain ⟨t, ht⟩ := ih s.length (by simp only [List.length_cons]; omega) s rfl
          exact ⟨_, .esc hd ht⟩
      · obtain ⟨t, ht⟩ := ih (d :: s).length (by simp) (d :: s) rfl
        exact ⟨_, .chr hc ht⟩

/-- A text without back-references -/
def NoRefs (t : Str) : Prop := ∀ s s', RefText s s' → RefText (t ++ s) (t ++ s')

theorem NoRefs.nil : NoRefs [] := fun _ _ h => h

theorem NoRefs.append {t u : Str} (h : NoRefs t) (h' : NoRefs u) : NoRefs (t ++ u) := by
  intro s s' hs
  rw [List.append_assoc, List.append_assoc]
  exact h _ _ (h' _ _ hs)

theorem NoRefs.chr {c : Char} (h : c ≠ '\\') : NoRefs [c] := fun _ _ hs => .chr h hs

theorem NoRefs.esc {c : Char} (h : c ∉ ['1', '2', '3', '4', '5', '6', '7', '8', '9']) : NoRefs ['\\', c] := fun _ _ hs => .esc h hs

theorem NoRefs.chrs {t : Str} (h : ∀ c ∈ t, c ≠ '\\') : NoRefs t := by
  induction t with
  | nil => exact .nil
  | cons c t ih => exact (NoRefs.chr (h c (List.mem_cons_self ..))).append (ih fun d hd => h d (List.mem_cons_of_mem _ hd))

theorem noRefs_escapable {c : Char} (h : escapable c = true) : NoRefs ['\\', c] := by
  refine .esc fun hc => ?_
  simp only [List.mem_cons, List.not_mem_nil, or_false] at hc
  rcases hc with rfl | rfl | rfl | rfl | rfl | rfl | rfl | rfl | rfl <;> exact absurd h (by decide)

theorem noRefs_cat {K : Cats} {t : Str} {p : Char → Prop} (h : CatText K t p) : NoRefs t := by
  cases h <;> exact .esc (by decide)

theorem noRefs_charText {t : Str} {c : Char} (h : CharText t c) : NoRefs t := by
  cases h with
  | esc h => exact noRefs_escapable h
  | @control a d h =>
    have : ∀ x ∈ controls, x.1 ∉ ['1', '2', '3', '4', '5', '6', '7', '8', '9'] := by decide
    exact .esc (this _ h)
  | @hex a b _ _ ha hb =>
    have hne : ∀ {a n}, HexDigit a n → a ≠ '\\' := by
      rintro a n h rfl
      have := (hexDigit_val h).1
      simp [show hexVal '\\' = none by decide] at this
    exact (NoRefs.esc (c := 'x') (by decide)).append (.chrs (t := [a, b]) fun c hc => by
      simp only [List.mem_cons, List.not_mem_nil, or_false] at hc
      rcases hc with rfl | rfl
      · exact hne ha
      · exact hne hb)

theorem noRefs_setChar {t : Str} {c : Char} (h : SetChar t c) : NoRefs t := by
  cases h with
  | plain h => exact .chr (setOrdinary_facts h).2.1
  | text h => exact noRefs_charText h
  | backspace => exact .esc (by decide)

theorem noRefs_members {lit : Char → Char → Prop} {K : Cats} {t : Str} {p : Char → Prop} (h : Members lit K t p) : NoRefs t := by
  have one : ∀ {t p}, Member lit K t p → NoRefs t := by
    intro t p h
    cases h with
    | one h => exact noRefs_setChar h
    | range ha hb _ => exact (noRefs_setChar ha).append ((NoRefs.chr (c := '-') (by decide)).append (noRefs_setChar hb))
    | cat h => exact noRefs_cat h
  induction h with
  | one h => exact one h
  | more h _ ih => exact (one h).append ih
  | dash => exact .chr (by decide)

theorem noRefs_setText {lit : Char → Char → Prop} {K : Cats} {t : Str} {p : Char → Prop} (h : SetText lit K t p) : NoRefs t := by
  have hne : ∀ c : Char, c ∈ ['-', ']'] → NoRefs [c] := by
    intro c hc
    simp only [List.mem_cons, List.not_mem_nil, or_false] at hc
    rcases hc with rfl | rfl <;> exact .chr (by decide)
  cases h with
  | plain h => exact noRefs_members h
  | first hc => exact hne _ hc
  | firsts hc h => exact (hne _ hc).append (noRefs_members h)

theorem noRefs_show (n : Nat) : NoRefs (showInt n) := by
  refine .chrs fun c hc => ?_
  rintro rfl
  exact absurd (showNat_digit09 n _ hc) (by decide)

theorem noRefs_quant {q : Str} {lo : Nat} {hi : Option Nat} (h : Quant q lo hi) : NoRefs q := by
  cases h with
  | star => exact .chr (by decide)
  | plus => exact .chr (by decide)
  | opt => exact .chr (by decide)
  | exactly n _ => exact ((NoRefs.chrs (by decide)).append (noRefs_show _)).append (.chrs (by decide))
  | least n _ => exact ((NoRefs.chrs (by decide)).append (noRefs_show _)).append (.chrs (by decide))
  | most n _ => exact ((NoRefs.chrs (by decide)).append (noRefs_show _)).append (.chrs (by decide))
  | range n k _ _ =>
    exact ((((NoRefs.chrs (by decide)).append (noRefs_show _)).append (.chrs (by decide))).append (noRefs_show k)).append (.chrs (by decide))

theorem noRefs_one {db : CharDb} {f : Flags} {t : Str} {p : Char → Prop} (h : One (reSem db f) t p) : NoRefs t := by
  cases h with
  | lit hc => exact .chr (ordinary_facts hc).2.2.2.2.2.2.2.2.1
  | esc hc => exact noRefs_escapable hc
  | dot => exact .chr (by decide)
  | other h =>
    cases h with
    | cat h => exact noRefs_cat h
    | chr h => exact noRefs_charText h
    | set h _ => exact ((NoRefs.chrs (by decide)).append (noRefs_setText h)).append (.chr (by decide))
    | notSet h => exact ((NoRefs.chrs (by decide)).append (noRefs_setText h)).append (.chr (by decide))

theorem noRefs_fixed {db : CharDb} {f : Flags} {t : Str} {n : Nat} {m : Meaning} (h : Fixed (reSem db f) t n m) : NoRefs t := by
  induction h with
  | nil => exact .nil
  | cons h _ ih => exact (noRefs_one h).append ih

theorem noRefs_at {S : Sem} {t : Str} {p : Str → Str → Prop} (h : At S t p) : NoRefs t := by
  cases h with
  | bol => exact .chr (by decide)
  | eol => exact .chr (by decide)
  | _ => exact .esc (by decide)

theorem noRefs_alts {db : CharDb} {f : Flags} {t : Str} {m : Meaning} (h : Alts (reSem db f) t m) : NoRefs t := by
  refine Alts.rec (motive_1 := fun t _ _ => NoRefs t) (motive_2 := fun t _ _ => NoRefs t) (motive_3 := fun t _ _ => NoRefs t)
    (motive_4 := fun t _ _ => NoRefs t) ?_ ?_ ?_ ?_ ?_ ?_ ?_ ?_ ?_ ?_ ?_ ?_ ?_ ?_ ?_ h
  · intro t p h
    exact noRefs_one h
  · intro t m h ih
    exact ((NoRefs.chrs (by decide)).append ih).append (.chr (by decide))
  · intro t m h ih
    exact ((NoRefs.chrs (by decide)).append ih).append (.chr (by decide))
  · intro t m h ih
    exact ((NoRefs.chrs (by decide)).append ih).append (.chr (by decide))
  · intro t m h ih
    exact ((NoRefs.chrs (by decide)).append ih).append (.chr (by decide))
  · intro t n m h
    exact ((NoRefs.chrs (by decide)).append (noRefs_fixed h)).append (.chr (by decide))
  · intro t n m h
    exact ((NoRefs.chrs (by decide)).append (noRefs_fixed h)).append (.chr (by decide))
  · intro t m h ih
    exact ih
  · intro t p h
    exact noRefs_at h
  · intro t q m lo hi h hq ih
    exact ih.append (noRefs_quant hq)
  · intro t q m lo hi h hq ih
    exact (ih.append (noRefs_quant hq)).append (.chr (by decide))
  · exact .nil
  · intro t u m k _ _ ih1 ih2
    exact ih1.append ih2
  · intro t m h ih
    exact ih
  · intro t u m k _ _ ih1 ih2
    exact (ih1.append (.chr (by decide))).append ih2

/-! ### Compiling -/

/-- The context after `(?P<all>` -/
def allCtx : Ctx := { next := 2, names := [(s% "all", 1)], opened := [1], inBehind := false }

theorem compileRe_all {t : Str} {r : Rx} {C : Ctx} (h : parseAlts (4 * t.length + 36) allCtx (t ++ s% ")") = .ok (r, C, s% ")")) :
    compileRe (s% "(?P<all>" ++ t ++ s% ")") = .ok ⟨.seq (.cap 1 r) .eps, C.next - 1, C.names⟩ := by
  have hl : 4 * (s% "(?P<all>" ++ t ++ s% ")").length + 4 = (4 * t.length + 36) + 4 := by
    simp only [List.length_append, List.length_cons, List.length_nil]
    omega
  unfold compileRe
  rw [hl]
  generalize 4 * t.length + 36 = n at h
  have e : s% "(?P<all>" ++ t ++ s% ")" = '(' :: '?' :: 'P' :: '<' :: 'a' :: 'l' :: 'l' :: '>' :: (t ++ s% ")") := rfl
  rw [e]
  have h1 : parseExt (n + 1) {} ('P' :: '<' :: 'a' :: 'l' :: 'l' :: '>' :: (t ++ s% ")")) =
      .ok (.cap 1 r, false, C.pop {}, []) := by
    rw [parseExt]
    have hu : untilChar '>' ('a' :: 'l' :: 'l' :: '>' :: (t ++ s% ")")) = .ok (s% "all", t ++ s% ")") := rfl
    rw [hu]
    have hc : checkName (s% "all") = .ok () := by rfl
    have h' : parseAlts n (have C : Ctx := ({} : Ctx).push
        { next := C.next, names := (s% "all", ({} : Ctx).next) :: ({} : Ctx).names, opened := C.opened, inBehind := C.inBehind })
        (t ++ s% ")") = .ok (r, C, s% ")") := h
    simp only [bind, Except.bind, hc]
    rw [if_neg (by decide), h']
    rfl
  have h2 : parseAlts (n + 4) {} ('(' :: '?' :: 'P' :: '<' :: 'a' :: 'l' :: 'l' :: '>' :: (t ++ s% ")")) =
      .ok (.seq (.cap 1 r) .eps, C.pop {}, []) := by
    rw [parseAlts, parseBranch]
    simp only [show ¬ (('(' : Char) = '|' ∨ ('(' : Char) = ')') by decide, if_false]
    rw [parseAtom]
    simp only [show ('(' : Char) ≠ '.' by decide, show ('(' : Char) ≠ '^' by decide, show ('(' : Char) ≠ '$' by decide,
        show ('(' : Char) ≠ '\\' by decide, show ('(' : Char) ≠ '[' by decide, if_false, if_true]
    rw [h1]
    rfl
  rw [h2]
  rfl

theorem compileRe_bad {t : Str} (h : parseAlts (4 * t.length + 36) allCtx (t ++ s% ")") = .error .bad) :
    compileRe (s% "(?P<all>" ++ t ++ s% ")") = .error .bad := by
  have hl : 4 * (s% "(?P<all>" ++ t ++ s% ")").length + 4 = (4 * t.length + 36) + 4 := by
    simp only [List.length_append, List.length_cons, List.length_nil]
    omega
  unfold compileRe
  rw [hl]
  generalize 4 * t.length + 36 = n at h
  have e : s% "(?P<all>" ++ t ++ s% ")" = '(' :: '?' :: 'P' :: '<' :: 'a' :: 'l' :: 'l' :: '>' :: (t ++ s% ")") := rfl
  rw [e]
  have h1 : parseExt (n + 1) {} ('P' :: '<' :: 'a' :: 'l' :: 'l' :: '>' :: (t ++ s% ")")) =
      .error .bad := by
    rw [parseExt]
    have hu : untilChar '>' ('a' :: 'l' :: 'l' :: '>' :: (t ++ s% ")")) = .ok (s% "all", t ++ s% ")") := rfl
    rw [hu]
    have hc : checkName (s% "all") = .ok () := by rfl
    have h' : parseAlts n (have C : Ctx := ({} : Ctx).push
        { next := C.next, names := (s% "all", ({} : Ctx).next) :: ({} : Ctx).names, opened := C.opened, inBehind := C.inBehind })
        (t ++ s% ")") = .error .bad := h
    simp only [bind, Except.bind, hc]
    rw [if_neg (by decide), h']
  have h2 : parseAlts (n + 4) {} ('(' :: '?' :: 'P' :: '<' :: 'a' :: 'l' :: 'l' :: '>' :: (t ++ s% ")")) =
      .error .bad := by
    rw [parseAlts, parseBranch]
    simp only [show ¬ (('(' : Char) = '|' ∨ ('(' : Char) = ')') by decide, if_false]
    rw [parseAtom]
    simp only [show ('(' : Char) ≠ '.' by decide, show ('(' : Char) ≠ '^' by decide, show ('(' : Char) ≠ '$' by decide,
        show ('(' : Char) ≠ '\\' by decide, show ('(' : Char) ≠ '[' by decide, if_false, if_true]
    rw [h1]
    rfl
  rw [h2]
  rfl

theorem compileAll_of {raw t : Str} {r : Rx} {C : Ctx} (ht : RefText (raw ++ s% ")") (t ++ s% ")"))
    (h : parseAlts (4 * t.length + 36) allCtx (t ++ s% ")") = .ok (r, C, s% ")")) :
    compileAll raw = .ok ⟨.seq (.cap 1 r) .eps, C.next - 1, C.names⟩ := by
  have h1 : asRegexText raw = s% "(?P<all>" ++ t ++ s% ")" := by
    have : RefText (s% "(?P<all>" ++ raw ++ s% ")") (s% "(?P<all>" ++ t ++ s% ")") := by
      rw [List.append_assoc, List.append_assoc]
      exact NoRefs.chrs (by decide) _ _ ht
    exact incRefs_ref this
  unfold compileAll
  rw [h1, compileRe_all h]
  rfl

/-- A text of the grammar is compiled to an expression with the meaning. -/
theorem compileAll_alts {db : CharDb} {f : Flags} {raw : Str} {m : Meaning} (h : Alts (reSem db f) raw m) :
    ∃ c r, compileAll raw = .ok c ∧ c.rx = .seq (.cap 1 r) .eps ∧ r.Means db f m := by
  obtain ⟨r, C, h1, h2, _⟩ := parse_alts_ok h (4 * raw.length + 36) allCtx (s% ")") (by omega) (by rintro _ _ ⟨⟩; rfl)
  exact ⟨_, r, compileAll_of (noRefs_alts h _ _ (.chr (by decide) .nil)) h1, rfl, h2⟩

end Pip
