import Verif.Lemmas.ParseTop
/-! Scanning a text piece by piece: brackets, semicolons, spaces, and names and literals before a delimiter. -/

set_option linter.unusedSimpArgs false

namespace Pip
open Rgx
namespace Scan

theorem prefixed_prefixed (a b : List (Option Tok)) (x) : prefixed a (prefixed b x) = prefixed (a ++ b) x := by
  cases x <;> simp [prefixed]

theorem scanAll_piece {s rest : Str} {t : Option Tok} (hs : s ≠ []) (h : step s = .tok t rest) :
    scanAll s = prefixed [t] (scanAll rest) := by
  cases s with
  | nil => exact absurd rfl hs
  | cons c cs => rw [scanAll_tok h]; cases scanAll rest <;> rfl

/-- Characters that end names and literals. -/
def isDelim (z : Char) : Bool := z == ' ' || z == ';' || z == ')' || z == ']' || z == '}' || z == '\n'

theorem sepW_delim {z : Char} (h : isDelim z = true) : SepW z := by
  simp only [isDelim, Bool.or_eq_true, beq_iff_eq] at h
  rcases h with ((((rfl | rfl) | rfl) | rfl) | rfl) | rfl
  · exact sep_space.toSepW
  all_goals exact ⟨by decide, by decide, by decide, by decide, by decide, by decide, by decide, by decide,
    by decide, by decide, by decide +kernel⟩

theorem step_solidW {w : Str} (hs : Solid w) {z : Char} (y : Str) (hz : SepW z) (hd : w ≠ s% "$")
    (hb : w ≠ s% "{") : step (w ++ z :: y) = .tok (newToken w) (z :: y) := by
  obtain ⟨c, cs, rfl, hc⟩ := hs.head
  have hl : lexTok (c :: cs ++ z :: y) = some (z :: y) := by
    rw [lexTok_appendW hz c cs y (.inl ?_) (.inr (by rw [hs.lex]; rfl)), hs.lex]; rfl
    rintro rfl rfl
    exact hd rfl
  have hbr : (c :: (cs ++ z :: y)).take 2 ≠ s% "{;" := by
    intro h
    have h0 : c = '{' := by simp at h; exact h.1
    subst h0
    have := hs.lex
    have h2 : lexTok ('{' :: cs) = some cs := by
      simp only [lexTok]
      simp [show isUpperAZ '{' = false by decide, show isLow1 '{' = false by decide,
        show isDigit '{' = false by decide]
    rw [h2] at this
    simp at this; subst this
    exact hb rfl
  rw [List.cons_append] at *
  rw [step_lex hc hbr hl, ← List.cons_append, List.length_append, Nat.add_sub_cancel, List.take_left, hs.cut]
  simp only [List.drop_left]

theorem Solid.ne {w : Str} (hs : Solid w) : w ≠ [] := by
  obtain ⟨c, cs, rfl, _⟩ := hs.head; simp

/-- A name or literal before a delimiter. -/
theorem scanAll_word {w : Str} (hs : Solid w) (hd : w ≠ s% "$") (hb : w ≠ s% "{") {z : Char} (hz : isDelim z = true)
    (y : Str) : scanAll (w ++ z :: y) = prefixed [newToken w] (scanAll (z :: y)) :=
  scanAll_piece (by simp) (step_solidW hs y (sepW_delim hz) hd hb)

/-- Any token before a space. -/
theorem scanAll_spaced {w : Str} (hs : Solid w) (y : Str) :
    scanAll (w ++ ' ' :: y) = prefixed [newToken w] (scanAll (' ' :: y)) :=
  scanAll_piece (by simp) (step_solid hs _ (.inr ⟨y, rfl⟩))

/-- Brackets and semicolons. -/
theorem scanAll_sym {c : Char} (h : (s% "][()};").elem c = true) (x : Str) :
    scanAll (c :: x) = prefixed [some ⟨.sym, [c]⟩] (scanAll x) := by
  have key : isSpace c = false ∧ c ≠ '{' ∧ newToken (cut [c]).1 = some ⟨.sym, [c]⟩ ∧ (cut [c]).2 = 1 ∧
      lexTok (c :: x) = some x := by
    have h' : c = ']' ∨ c = '[' ∨ c = '(' ∨ c = ')' ∨ c = '}' ∨ c = ';' := by simpa using h
    rcases h' with rfl | rfl | rfl | rfl | rfl | rfl <;>
      refine ⟨by decide, by decide, by decide +kernel, by decide +kernel, ?_⟩ <;>
      simp [lexTok, isUpperAZ, isLow1, show isDigit ']' = false by decide, show isDigit '[' = false by decide,
        show isDigit '(' = false by decide, show isDigit ')' = false by decide, show isDigit '}' = false by decide,
        show isDigit ';' = false by decide]
  obtain ⟨h1, h2, h3, h4, h5⟩ := key
  refine scanAll_piece (by simp) ?_
  rw [step_lex h1 (by simp [h2]) h5]
  have e : (c :: x).take ((c :: x).length - x.length) = [c] := by simp
  rw [e, h3, h4]; rfl

/-- An opening brace, unless a block comment starts there. -/
theorem scanAll_brace (x : Str) (h : x.head? ≠ some ';') :
    scanAll ('{' :: x) = prefixed [some ⟨.sym, s% "{"⟩] (scanAll x) := by
  refine scanAll_piece (by simp) ?_
  have h5 : lexTok ('{' :: x) = some x := by
    simp [lexTok, isUpperAZ, isLow1, show isDigit '{' = false by decide]
  rw [step_lex (by decide) ?_ h5]
  · have e : ('{' :: x).take (('{' :: x).length - x.length) = ['{'] := by simp
    rw [e]
    rw [show newToken (cut ['{']).1 = some ⟨.sym, s% "{"⟩ by decide +kernel, show (cut ['{']).2 = 1 by decide +kernel]
    rfl
  · cases x with
    | nil => simp
    | cons d x => simp at h ⊢; exact h

/-- A single space. -/
theorem scanAll_gap {c : Char} (x : Str) (hc : isSpace c = false) : scanAll (' ' :: c :: x) = scanAll (c :: x) := by
  apply scanAll_skip
  rw [step_eq]
  have h1 : lineC (' ' :: c :: x) = none := by
    unfold lineC
    have e1 : (' ' :: c :: x).takeWhile isSpace = [' '] := by simp [hc, show isSpace ' ' = true by decide]
    rw [e1]
    simp
    rintro rfl; exact absurd hc (by decide)
  have h2 : blockC (' ' :: c :: x) = none := rfl
  rw [h1, h2]
  simp [whiteC, show isSpace ' ' = true by decide, hc]

/-- The newline put before every program. -/
theorem scanAll_first {c : Char} (x : Str) (hc : isSpace c = false) (hs : c ≠ ';') :
    scanAll ('\n' :: c :: x) = scanAll (c :: x) := by
  apply scanAll_skip
  rw [step_eq]
  have hsp : ('\n' :: c :: x).dropWhile isSpace = c :: x := by simp [isSpace_nl, hc]
  have h1 : lineC ('\n' :: c :: x) = none := by
    unfold lineC
    rw [hsp]
    simp
    exact fun _ => hs
  rw [h1]
  simp [blockC, whiteC, isSpace_nl, hc]

theorem scanAll_last : scanAll (s% "\n\n") = .ok [] := by decide +kernel

end Scan
end Pip
