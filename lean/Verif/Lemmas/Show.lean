import Verif.Lemmas.ReprParse
import Verif.Lemmas.ParseSound
import Verif.Spec.Display
/-! Texts of operators. -/

set_option linter.unusedSimpArgs false

namespace Pip
open Rgx Scan PP
open Parse (assignOp)

/-- Tokens of an operator -/
def opToks (op : Op) : List Tok :=
  (if op.fold then [⟨.sym, s% "$"⟩] else if op.scan then [⟨.sym, s% "\\$"⟩] else []) ++ (⟨.op, op.text⟩ ::
  ((if op.map then [⟨.op, s% "*"⟩] else []) ++ (if op.assign then [⟨.op, s% ":"⟩] else [])))

theorem prefixed_nil (x : Except Exc (List (Option Tok))) : prefixed [] x = x := by cases x <;> rfl

theorem scan_part {w r : Str} {t : Tok} (hs : Solid w) (hb : w ≠ s% "{") (hl : lexTok (w ++ r) = some r) (ht : newToken w = some t)
    (y : Str) : scanAll (w ++ (r ++ ' ' :: y)) = prefixed [some t] (scanAll (r ++ ' ' :: y)) := by
  obtain ⟨c, cs, rfl, hc⟩ := hs.head
  refine scanAll_piece (by simp) ?_
  have hl2 : lexTok (c :: (cs ++ (r ++ ' ' :: y))) = some (r ++ ' ' :: y) := by
    have := lexTok_append sep_space c (cs ++ r) y (.inr (by rw [← List.cons_append, hl]; rfl))
    rw [← List.cons_append, hl] at this
    simpa using this
  have hbr : (c :: (cs ++ (r ++ ' ' :: y))).take 2 ≠ s% "{;" := by
    intro h
    have h0 : c = '{' := by simp at h; exact h.1
    subst h0
    have := hs.lex
    have h2 : lexTok ('{' :: cs) = some cs := by
      simp only [lexTok]
      simp [show isUpperAZ '{' = false by decide, show isLow1 '{' = false by decide,
        show isDigit '{' = false by decide]
    rw [h2] at this
    simp at this; subst this
    exact hb rfl
  rw [List.cons_append, step_lex hc hbr hl2, ← List.cons_append, List.length_append, Nat.add_sub_cancel, List.take_left, hs.cut, ht]
  simp only [List.drop_left]

theorem op_lex : ∀ t ∈ operatorTexts, lexTok t = some [] ∧ cut t = (t, t.length) ∧ (∃ c ∈ t.head?, isSpace c = false ∧ c ≠ '{' ∧
    (s% "][()$`'").elem c = false ∧ isDigit09 c = false ∧ isLowerAZ c = false ∧ c ≠ '_' ∧ c ≠ ';' ∧ c ≠ ')' ∧ c ≠ '}') ∧
    (t ++ s% "*" ∉ operatorTexts → lexTok (t ++ s% "*") = some (s% "*") ∧ lexTok (t ++ s% "*:") = some (s% "*:")) ∧
    (t ≠ s% ":" → lexTok (t ++ s% ":") = some (s% ":")) := by
  decide +kernel

theorem op_newToken {t : Str} (h : t ∈ operatorTexts) : newToken t = some ⟨.op, t⟩ := by
  unfold newToken; rw [if_pos h]

theorem op_solid {t : Str} (h : t ∈ operatorTexts) : Solid t ∧ t ≠ s% "{" := by
  obtain ⟨h1, h2, ⟨c, hc, h3, h4, _⟩, _⟩ := op_lex t h
  cases t with
  | nil => simp at hc
  | cons d cs =>
    simp at hc; subst hc
    refine ⟨⟨h1, h2, d, cs, rfl, h3⟩, ?_⟩
    intro e; simp at e; exact h4 e.1

theorem mem_star : s% "*" ∈ operatorTexts := by decide +kernel
theorem mem_colon : s% ":" ∈ operatorTexts := by decide +kernel

theorem scan_colon (y : Str) : scanAll (s% ":" ++ ' ' :: y) = prefixed [some ⟨.op, s% ":"⟩] (scanAll (' ' :: y)) := by
  have := scan_part (r := []) (op_solid mem_colon).1 (op_solid mem_colon).2 (by decide +kernel) (op_newToken mem_colon) y
  simpa using this

theorem scan_star (y : Str) : scanAll (s% "*" ++ ' ' :: y) = prefixed [some ⟨.op, s% "*"⟩] (scanAll (' ' :: y)) := by
  have := scan_part (r := []) (op_solid mem_star).1 (op_solid mem_star).2 (by decide +kernel) (op_newToken mem_star) y
  simpa using this

theorem scan_starColon (y : Str) : scanAll (s% "*:" ++ ' ' :: y) = prefixed [some ⟨.op, s% "*"⟩, some ⟨.op, s% ":"⟩] (scanAll (' ' :: y)) := by
  have := scan_part (w := s% "*") (r := s% ":") (op_solid mem_star).1 (op_solid mem_star).2 (by decide +kernel) (op_newToken mem_star) y
  rw [scan_colon, prefixed_prefixed] at this
  simpa using this

theorem scan_plainOp {t : Str} (h : t ∈ operatorTexts) (y : Str) :
    scanAll (t ++ ' ' :: y) = prefixed [some ⟨.op, t⟩] (scanAll (' ' :: y)) := by
  have := scan_part (r := []) (op_solid h).1 (op_solid h).2 (by rw [List.append_nil]; exact (op_lex t h).1) (op_newToken h) y
  simpa using this

/-- An operator text with the meta-operators after it -/
theorem scan_opTail {t : Str} (h : t ∈ operatorTexts) (m a : Bool) (hc : t = s% ":" → a = false) (y : Str) :
    scanAll (t ++ ((if m then (if t ++ s% "*" ∈ operatorTexts then s% " *" else s% "*") else []) ++
      ((if a then s% ":" else []) ++ ' ' :: y))) =
    prefixed (some ⟨.op, t⟩ :: ((if m then [some ⟨.op, s% "*"⟩] else []) ++ (if a then [some ⟨.op, s% ":"⟩] else [])))
      (scanAll (' ' :: y)) := by
  obtain ⟨h1, h2, _, h3, h4⟩ := op_lex t h
  obtain ⟨hs, hb⟩ := op_solid h
  have hn := op_newToken h
  cases m with
  | false =>
    cases a with
    | false => simpa using scan_plainOp h y
    | true =>
      have := scan_part (r := s% ":") hs hb (h4 (fun e => by simpa using hc e)) hn y
      rw [scan_colon, prefixed_prefixed] at this
      simpa using this
  | true =>
    by_cases hm : t ++ s% "*" ∈ operatorTexts
    · simp only [if_true, if_pos hm]
      have e : ∀ x, scanAll (t ++ (s% " *" ++ x)) = prefixed [some ⟨.op, t⟩] (scanAll (s% "*" ++ x)) := by
        intro x
        have := scan_plainOp h ('*' :: x)
        simp only [List.cons_append, List.nil_append]
        rw [this, scanAll_gap _ (by decide)]
      rw [e]
      cases a with
      | false =>
        simp only [Bool.false_eq_true, if_false, List.nil_append, List.append_nil]
        rw [scan_star, prefixed_prefixed]; rfl
      | true =>
        simp only [if_true]
        rw [← List.append_assoc]
        have := scan_starColon y
        rw [show s% "*" ++ s% ":" = s% "*:" from rfl, this, prefixed_prefixed]; rfl
    · simp only [if_true, if_neg hm]
      cases a with
      | false =>
        have := scan_part (r := s% "*") hs hb (h3 hm).1 hn y
        rw [scan_star, prefixed_prefixed] at this
        simpa using this
      | true =>
        have := scan_part (r := s% "*:") hs hb (h3 hm).2 hn y
        rw [scan_starColon, prefixed_prefixed] at this
        simpa using this

theorem scan_dollar {t : Str} (h : t ∈ operatorTexts) (x : Str) :
    scanAll (s% "$" ++ (t ++ x)) = prefixed [some ⟨.sym, s% "$"⟩] (scanAll (t ++ x)) := by
  obtain ⟨_, _, ⟨c, hc, h3, h4, h5, h6, h7, h8, _⟩, _⟩ := op_lex t h
  cases t with
  | nil => simp at hc
  | cons d cs =>
    simp at hc; subst hc
    refine scanAll_piece (by simp) ?_
    have hl : lexTok ('$' :: (d :: cs ++ x)) = some (d :: cs ++ x) := by
      simp only [lexTok]
      rw [if_neg (by decide), if_neg (by decide), if_pos trivial]
      simp only [List.cons_append, lexDollar, h5, h6, h7, h8, Bool.false_eq_true, if_false, Bool.or_false]
    rw [show s% "$" ++ (d :: cs ++ x) = '$' :: (d :: cs ++ x) from rfl, step_lex (by decide) (by simp) hl]
    have e : ('$' :: (d :: cs ++ x)).take (('$' :: (d :: cs ++ x)).length - (d :: cs ++ x).length) = s% "$" := by simp
    rw [e, show newToken (cut (s% "$")).1 = some ⟨.sym, s% "$"⟩ by decide +kernel, show (cut (s% "$")).2 = 1 by decide +kernel]
    rfl

theorem scan_backDollar (x : Str) : scanAll (s% "\\$" ++ x) = prefixed [some ⟨.sym, s% "\\$"⟩] (scanAll x) := by
  refine scanAll_piece (by simp) ?_
  have hl : lexTok ('\\' :: ('$' :: x)) = some x := by
    simp only [lexTok]
    rw [if_neg (by decide), if_neg (by decide), if_neg (by decide), if_pos trivial]
    simp only [lexBack]
    rw [if_neg (by decide), if_neg (by decide), if_pos trivial]
  rw [show s% "\\$" ++ x = '\\' :: ('$' :: x) from rfl, step_lex (by decide) (by simp) hl]
  have e : ('\\' :: ('$' :: x)).take (('\\' :: ('$' :: x)).length - x.length) = s% "\\$" := by
    have : ('\\' :: ('$' :: x)).length - x.length = 2 := by simp only [List.length_cons]; omega
    rw [this]; rfl
  rw [e, show newToken (cut (s% "\\$")).1 = some ⟨.sym, s% "\\$"⟩ by decide +kernel, show (cut (s% "\\$")).2 = 2 by decide +kernel]
  rfl

/-- The text of an operator before a space -/
theorem scan_op {op : Op} (h : op.text ∈ operatorTexts) (hc : op.text = s% ":" → op.assign = false) (y : Str) :
    scanAll (op.str ++ ' ' :: y) = prefixed ((opToks op).map some) (scanAll (' ' :: y)) := by
  have key := scan_opTail h op.map op.assign hc y
  unfold Op.str opToks
  simp only [List.append_assoc, List.map_append, List.map_cons, apply_ite (List.map some), List.map_nil]
  cases op.fold with
  | true =>
    simp only [if_true]
    rw [scan_dollar h, key, prefixed_prefixed]
  | false =>
    cases op.scan with
    | true =>
      simp only [if_true, Bool.false_eq_true, if_false]
      rw [scan_backDollar, key, prefixed_prefixed]
    | false =>
      simp only [Bool.false_eq_true, if_false, List.nil_append]
      rw [key]

theorem op_str_head {op : Op} (h : op.text ∈ operatorTexts) : ∃ c cs, op.str = c :: cs ∧ isSpace c = false ∧ c ≠ ';' ∧ c ≠ ')' ∧ c ≠ '}' := by
  obtain ⟨_, _, ⟨c, hc, h3, h4, h5, h6, h7, h8, h9, h10, h11⟩, _⟩ := op_lex _ h
  unfold Op.str
  cases ht : op.text with
  | nil => rw [ht] at hc; simp at hc
  | cons d cs =>
    rw [ht] at hc; simp at hc; subst hc
    cases op.fold with
    | true => exact ⟨'$', _, rfl, by decide, by decide, by decide, by decide⟩
    | false =>
      cases op.scan with
      | true => exact ⟨'\\', _, rfl, by decide, by decide, by decide, by decide⟩
      | false => exact ⟨d, _, rfl, h3, h9, h10, h11⟩

end Pip
