import Verif.Lemmas.ScanAll
/-! Token texts scan back to themselves; runs of capitals. -/

set_option linter.unusedSimpArgs false

namespace Pip
open Rgx
namespace Scan

theorem newToken_text {w : Str} {t : Tok} (h : newToken w = some t) : t.text = w := by
  unfold newToken at h
  repeat' split at h
  all_goals first | (simp at h; done) | (simp only [Option.some.injEq] at h; rw [← h])

/-- Text of a token: a non-empty run recognised as a whole and left uncut. -/
structure Solid (w : Str) : Prop where
  lex : lexTok w = some []
  cut : Scan.cut w = (w, w.length)
  head : ∃ c cs, w = c :: cs ∧ isSpace c = false

/-- A pass over a text which starts with a non-space and isn't a block comment. -/
theorem step_lex {c : Char} {cs : Str} (hc : isSpace c = false) (hb : (c :: cs).take 2 ≠ s% "{;") {rest : Str}
    (h : lexTok (c :: cs) = some rest) :
    step (c :: cs) = .tok (newToken (cut ((c :: cs).take ((c :: cs).length - rest.length))).1)
        ((c :: cs).drop (cut ((c :: cs).take ((c :: cs).length - rest.length))).2) := by
  have h1 : lineC (c :: cs) = none := by
    unfold lineC
    have e1 : (c :: cs).takeWhile isSpace = [] := by simp [hc]
    rw [e1]
    simp only [List.not_mem_nil, false_and, if_false]
    rw [if_neg]
    intro h2
    have : c = ' ' := by
      cases cs with
      | nil => simp at h2
      | cons d ds => simp at h2; exact h2.1
    subst this; exact absurd hc (by decide)
  have h2 : blockC (c :: cs) = none := by
    unfold blockC
    split
    · rename_i e; rw [e] at hb; exact absurd rfl hb
    · rfl
  have h3 : whiteC (c :: cs) = none := by simp [whiteC, hc]
  rw [step_eq, h1, h2]
  simp only [if_neg hb, h3, h]

theorem upper_not_space {c : Char} (h : isUpperAZ c = true) : isSpace c = false := by
  cases hs : isSpace c with
  | false => rfl
  | true =>
    exfalso
    simp only [isUpperAZ, isSpace, Bool.and_eq_true, Bool.or_eq_true, decide_eq_true_eq, List.elem_eq_mem, beq_iff_eq] at h hs
    have h1 : 65 ≤ c.toNat := h.1
    have h2 : c.toNat ≤ 90 := h.2
    revert hs
    simp
    omega

theorem solid_upper {w : Str} (hw : w ≠ []) (hu : w.all isUpperAZ = true) (hc : cut w = (w, w.length)) : Solid w := by
  cases w with
  | nil => exact absurd rfl hw
  | cons c cs =>
    have hu' := hu
    simp only [List.all_cons, Bool.and_eq_true] at hu'
    refine ⟨?_, hc, c, cs, rfl, upper_not_space hu'.1⟩
    simp only [lexTok, hu'.1, if_true, dropWhile_all hu'.2]

theorem cut_upper2 {c d : Char} (hc : isUpperAZ c = true) (hd : isUpperAZ d = true) (h : [c, d] ≠ s% "EI") :
    cut [c, d] = ([c, d], 2) := by
  unfold cut
  simp [hc, hd] at h ⊢
  intro h1 h2; exact absurd h2 (h h1)

theorem cut_upper1 {c : Char} (hc : isUpperAZ c = true) : cut [c] = ([c], 1) := by
  unfold cut
  simp [hc]

/-- Every token appended by a pass has a solid text. -/
theorem step_tok_solid {c : Char} {cs rest : Str} {t : Option Tok} (h : step (c :: cs) = .tok t rest) :
    ∃ w, t = newToken w ∧ Solid w := by
  rw [step_eq] at h
  split at h
  · simp at h
  split at h
  · simp at h
  split at h
  · simp at h
  split at h
  · simp at h
  rename_i hw
  have hc : isSpace c = false := by
    cases hs : isSpace c with
    | false => rfl
    | true => simp [whiteC, hs] at hw
  split at h
  · rename_i r hr
    simp only [Step.tok.injEq] at h
    obtain ⟨u, e, hu, hne⟩ := lexTok_restrict hr
    rw [e] at h
    have e2 : (u ++ r).take ((u ++ r).length - r.length) = u := by
      rw [List.length_append, Nat.add_sub_cancel, List.take_left]
    rw [e2] at h
    refine ⟨_, h.1.symm, ?_⟩
    cases u with
    | nil => exact absurd rfl hne
    | cons a as =>
      have ha : a = c := by simp at e; exact e.1.symm
      subst ha
      by_cases hup : (a :: as) ≠ [] ∧ (a :: as).all isUpperAZ = true
      · have hall := hup.2
        simp only [List.all_cons, Bool.and_eq_true] at hall
        by_cases hpip : a :: as = s% "PIP"
        · rw [hpip]; exact solid_upper (by decide) (by decide) (by decide)
        · by_cases hodd : (a :: as).length % 2 = 1
          · have : cut (a :: as) = ([a], 1) := by
              unfold cut
              rw [if_pos hup]
              simp only [if_pos hodd, if_neg hpip, List.take_succ_cons, List.take_zero]
              rw [if_neg (by simp)]
            rw [this]
            exact solid_upper (by simp) (by simp [hall.1]) (cut_upper1 hall.1)
          · cases as with
            | nil => simp at hodd
            | cons b bs =>
              simp only [List.all_cons, Bool.and_eq_true] at hall
              by_cases hei : [a, b] = s% "EI"
              · have : cut (a :: b :: bs) = (s% "EL", 1) := by
                  unfold cut
                  rw [if_pos hup]
                  simp only [if_neg hodd, if_neg hpip, List.take_succ_cons, List.take_zero]
                  rw [if_pos hei]
                rw [this]
                exact solid_upper (by decide) (by decide) (by decide)
              · have : cut (a :: b :: bs) = ([a, b], 2) := by
                  unfold cut
                  rw [if_pos hup]
                  simp only [if_neg hodd, if_neg hpip, List.take_succ_cons, List.take_zero]
                  rw [if_neg hei]
                rw [this]
                exact solid_upper (by simp) (by simp [hall.1, hall.2.1]) (cut_upper2 hall.1 hall.2.1 hei)
      · have : cut (a :: as) = (a :: as, (a :: as).length) := by
          unfold cut
          rw [if_neg hup]
          simp only []
          rw [if_neg]
          intro h; rw [h] at hup; exact hup (by decide)
        rw [this]
        exact ⟨hu, this, a, as, rfl, hc⟩
  · split at h <;> simp at h

theorem solid_brace {w : Str} (hs : Solid w) (x : Str) (hx : x = [] ∨ ∃ y, x = ' ' :: y) :
    (w ++ x).take 2 ≠ s% "{;" := by
  obtain ⟨c, cs, rfl, hc⟩ := hs.head
  intro h
  have h0 : c = '{' := by simp at h; exact h.1
  subst h0
  have := hs.lex
  have h2 : lexTok ('{' :: cs) = some cs := by
    simp only [lexTok]
    simp [show isUpperAZ '{' = false by decide, show isLow1 '{' = false by decide,
      show isDigit '{' = false by decide]
  rw [h2] at this
  simp at this; subst this
  rcases hx with rfl | ⟨y, rfl⟩ <;> simp at h

/-- A solid text scans to its token, at the end or before a space. -/
theorem step_solid {w : Str} (hs : Solid w) (x : Str) (hx : x = [] ∨ ∃ y, x = ' ' :: y) :
    step (w ++ x) = .tok (newToken w) x := by
  have hb := solid_brace hs x hx
  obtain ⟨c, cs, rfl, hc⟩ := hs.head
  have hl : lexTok (c :: cs ++ x) = some x := by
    rcases hx with rfl | ⟨y, rfl⟩
    · rw [List.append_nil]; exact hs.lex
    · rw [lexTok_append sep_space c cs y (.inr (by rw [hs.lex]; rfl)), hs.lex]; rfl
  rw [List.cons_append] at *
  rw [step_lex hc hb hl]
  rw [← List.cons_append]
  rw [List.length_append, Nat.add_sub_cancel, List.take_left, hs.cut]
  simp only [List.drop_left]

/-- One pass over a space before a solid text. -/
theorem step_space_solid {w : Str} (hs : Solid w) (x : Str) : step (' ' :: (w ++ x)) = .skip (w ++ x) := by
  obtain ⟨c, cs, rfl, hc⟩ := hs.head
  rw [step_eq]
  have h1 : lineC (' ' :: (c :: cs ++ x)) = none := by
    unfold lineC
    have e1 : (' ' :: (c :: cs ++ x)).takeWhile isSpace = [' '] := by simp [hc, show isSpace ' ' = true by decide]
    rw [e1]
    simp
    rintro rfl; exact absurd hc (by decide)
  have h2 : blockC (' ' :: (c :: cs ++ x)) = none := rfl
  rw [h1, h2]
  simp [whiteC, show isSpace ' ' = true by decide, hc]

theorem joinStr_cons_cons (sep a b : Str) (l : List Str) :
    joinStr sep (a :: b :: l) = a ++ sep ++ joinStr sep (b :: l) := rfl

theorem scan_spaced (ws : List Str) (h : ∀ w ∈ ws, Solid w) :
    scanAll (joinStr (s% " ") ws) = .ok (ws.map newToken) := by
  induction ws with
  | nil => rfl
  | cons w ws ih =>
    have hs := h w (by simp)
    cases ws with
    | nil =>
      have := step_solid hs [] (.inl rfl)
      simp only [joinStr]
      rw [List.append_nil] at this
      obtain ⟨c, cs, rfl, hc⟩ := hs.head
      rw [scanAll_tok this]; rfl
    | cons v vs =>
      have ih := ih (fun w hw => h w (by simp [hw]))
      have hv := h v (by simp)
      rw [joinStr_cons_cons, List.append_assoc]
      have h1 := step_solid hs (' ' :: joinStr (s% " ") (v :: vs)) (.inr ⟨_, rfl⟩)
      have h2 : ∃ x, joinStr (s% " ") (v :: vs) = v ++ x := by
        cases vs with
        | nil => exact ⟨[], by simp [joinStr]⟩
        | cons u us => exact ⟨_, by rw [joinStr_cons_cons, List.append_assoc]⟩
      obtain ⟨x, hx⟩ := h2
      have h3 := step_space_solid hv x
      rw [← hx] at h3
      obtain ⟨c, cs, rfl, hc⟩ := hs.head
      rw [List.cons_append] at h1
      rw [List.cons_append]
      simp only [List.cons_append, List.nil_append]
      rw [scanAll_tok h1, scanAll_skip h3, ih]
      rfl

theorem solid_semi {w : Str} (hs : Solid w) (h : w.head? = some ';') : w = s% ";" := by
  obtain ⟨c, cs, rfl, hc⟩ := hs.head
  simp at h; subst h
  have := hs.lex
  have h2 : lexTok (';' :: cs) = some cs := by
    simp only [lexTok]
    simp [show isUpperAZ ';' = false by decide, show isLow1 ';' = false by decide,
      show isDigit ';' = false by decide]
  rw [h2] at this
  simp at this; subst this; rfl

theorem scan_listing (ws : List Str) (h : ∀ w ∈ ws, Solid w) (hsemi : ws.head? ≠ some (s% ";")) :
    tokenize (joinStr (s% " ") ws) = .ok (ws.map newToken) := by
  rw [tokenize_eq]
  have key : step ('\n' :: joinStr (s% " ") ws) = .skip (joinStr (s% " ") ws) := by
    cases ws with
    | nil => simp only [joinStr]; decide +kernel
    | cons w ws =>
      have hs := h w (by simp)
      have hsc : w.head? ≠ some ';' := by
        intro hh; apply hsemi; rw [solid_semi hs hh]; rfl
      have h2 : ∃ x, joinStr (s% " ") (w :: ws) = w ++ x := by
        cases ws with
        | nil => exact ⟨[], by simp [joinStr]⟩
        | cons u us => exact ⟨_, by rw [joinStr_cons_cons, List.append_assoc]⟩
      obtain ⟨x, hx⟩ := h2
      rw [hx]
      obtain ⟨c, cs, rfl, hc⟩ := hs.head
      rw [step_eq]
      have hsp : ('\n' :: (c :: cs ++ x)).dropWhile isSpace = c :: cs ++ x := by simp [isSpace_nl, hc]
      have h1 : lineC ('\n' :: (c :: cs ++ x)) = none := by
        unfold lineC
        rw [hsp]
        simp at hsc ⊢
        exact fun _ => hsc
      rw [h1]
      simp [blockC, whiteC, isSpace_nl, hc]
  rw [scanAll_skip key, scan_spaced ws h]

theorem scanAll_solid (n : Nat) : ∀ (s : Str) (ts : List (Option Tok)), s.length ≤ n → scanAll s = .ok ts →
    ∃ ws : List Str, (∀ w ∈ ws, Solid w) ∧ ts = ws.map newToken := by
  induction n with
  | zero =>
    intro s ts h hs
    have : s = [] := List.length_eq_zero_iff.1 (Nat.le_zero.1 h)
    subst this
    rw [scanAll_nil] at hs
    simp at hs; subst hs
    exact ⟨[], by simp, rfl⟩
  | succ n ih =>
    intro s ts hl hs
    cases s with
    | nil => rw [scanAll_nil] at hs; simp at hs; subst hs; exact ⟨[], by simp, rfl⟩
    | cons c cs =>
      have hg := step_good c cs
      cases hst : step (c :: cs) with
      | die => rw [scanAll_die hst] at hs; simp at hs
      | skip r =>
        rw [hst] at hg
        rw [scanAll_skip hst] at hs
        cases hg with
        | skip hlt => simp only [List.length_cons] at hlt hl; exact ih r ts (by omega) hs
      | tok t r =>
        rw [hst] at hg
        rw [scanAll_tok hst] at hs
        cases hr : scanAll r with
        | error e => rw [hr] at hs; simp at hs
        | ok us =>
          rw [hr] at hs
          simp at hs; subst hs
          obtain ⟨w, hw, hsol⟩ := step_tok_solid hst
          cases hg with
          | tok hlt =>
            simp only [List.length_cons] at hlt hl
            obtain ⟨ws, h1, h2⟩ := ih r us (by omega) hr
            refine ⟨w :: ws, ?_, by rw [List.map_cons, hw, h2]⟩
            intro v hv
            rcases List.mem_cons.1 hv with rfl | hv
            · exact hsol
            · exact h1 v hv

end Scan
end Pip
