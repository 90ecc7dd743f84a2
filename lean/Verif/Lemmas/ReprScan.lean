import Verif.Lemmas.ReprText
/-! Scanning the canonical texts of data. -/

set_option linter.unusedSimpArgs false

namespace Pip
open Rgx Scan

/-! ### Doubling backslashes -/

/-- Every backslash doubled -/
def dbl (s : Str) : Str := s.flatMap fun c => if c = '\\' then s% "\\\\" else [c]

theorem joinStr_cons1 (sep a : Str) (c : Char) (l : List Str) :
    joinStr sep ((c :: a) :: l) = c :: joinStr sep (a :: l) := by cases l <;> rfl

theorem replace_char (c : Char) (new s : Str) :
    replaceStr [c] new s = s.flatMap fun d => if d = c then new else [d] := by
  simp only [replaceStr, List.isEmpty_cons, Bool.false_eq_true, if_false, splitStr]
  induction s with
  | nil => rfl
  | cons d s ih =>
    simp only [splitAux, List.isPrefixOf, Bool.and_true, List.flatMap_cons]
    by_cases h : d = c
    · subst h
      simp only [beq_self_eq_true, if_true, List.length_cons, List.length_nil, Nat.zero_add, Nat.sub_self, ← ih]
      rfl
    · have : (c == d) = false := by simpa using fun e => h e.symm
      simp only [this, Bool.false_eq_true, if_false, if_neg h, joinStr_cons1, ih]
      rfl

theorem dbl_eq (s : Str) : replaceStr (s% "\\") (s% "\\\\") s = dbl s := replace_char _ _ _

theorem dbl_nil : dbl [] = [] := rfl
theorem dbl_back (s : Str) : dbl ('\\' :: s) = '\\' :: '\\' :: dbl s := rfl
theorem dbl_other {c : Char} (h : c ≠ '\\') (s : Str) : dbl (c :: s) = c :: dbl s := by
  unfold dbl; rw [List.flatMap_cons, if_neg h]; rfl

/-- Undoing the doubling; a single backslash may follow. -/
theorem undbl (s x : Str) (hx : x = [] ∨ x = s% "\\") : replaceStr (s% "\\\\") (s% "\\") (dbl s ++ x) = s ++ x := by
  have hone : splitAux (s% "\\\\") 0 x = (x, []) := by
    rcases hx with rfl | rfl
    · rfl
    · decide
  simp only [replaceStr, List.isEmpty_cons, Bool.false_eq_true, if_false, splitStr]
  induction s with
  | nil => simp only [dbl_nil, List.nil_append, hone]; rfl
  | cons c s ih =>
    by_cases h : c = '\\'
    · subst h
      simp only [dbl_back, List.cons_append]
      simp only [splitAux, List.isPrefixOf, beq_self_eq_true, Bool.and_true, if_true, List.length_cons, List.length_nil,
        Nat.add_sub_cancel]
      exact congrArg _ ih
    · rw [dbl_other h]
      simp only [List.cons_append]
      have : ('\\' == c) = false := by simpa using fun e => h e.symm
      simp only [splitAux, List.isPrefixOf, this, Bool.false_and, Bool.false_eq_true, if_false, joinStr_cons1]
      exact congrArg _ ih

theorem lexEsc_dbl (s x : Str) : lexEsc (dbl s ++ '\\' :: '"' :: x) = some x := by
  induction s with
  | nil => simp [dbl_nil, lexEsc]
  | cons c s ih =>
    by_cases h : c = '\\'
    · subst h
      rw [dbl_back]
      simp only [List.cons_append, lexEsc]
      rw [if_neg (by decide)]
      exact ih
    · rw [dbl_other h]
      rw [List.cons_append, lexEsc.eq_3 _ _ (fun _ _ hh => by intro; exact absurd hh h)]
      rw [if_neg h]
      exact ih

/-! ### Literals are solid -/

theorem cut_not_upper {c : Char} {cs : Str} (h : isUpperAZ c = false) : cut (c :: cs) = (c :: cs, (c :: cs).length) := by
  have h1 : ¬ (c :: cs ≠ [] ∧ (c :: cs).all isUpperAZ = true) := by simp [h]
  have h2 : c :: cs ≠ s% "EI" := by
    intro e; simp at e; rw [e.1] at h; exact absurd h (by decide)
  simp only [cut, if_neg h1, if_neg h2]

theorem opText_head (c : Char) (hc : (s% "\"").elem c = true ∨ isDigit c = true) (w : Str) :
    c :: w ∉ operatorTexts ∧ (findCmd (c :: w)).isSome = false := by
  have h1 : ∀ t ∈ operatorTexts, ∀ d ∈ t.head?, d ≠ '"' ∧ isDigit d = false := by decide +kernel
  have h2 : ∀ k ∈ allCmds, ∀ d ∈ k.text.head?, d ≠ '"' ∧ isDigit d = false := by decide +kernel
  have hno : ¬ (c ≠ '"' ∧ isDigit c = false) := by
    rintro ⟨a, b⟩
    rcases hc with h | h
    · simp at h; exact a h
    · rw [h] at b; cases b
  refine ⟨fun h => hno (h1 _ h c rfl), ?_⟩
  rw [Bool.eq_false_iff]
  intro h
  unfold findCmd at h
  rw [List.find?_isSome] at h
  obtain ⟨k, hk, e⟩ := h
  have e : k.text = c :: w := by simpa using e
  exact hno (h2 k hk c (by rw [e]; rfl))

theorem digit_class {c : Char} (hc : isDigit c = true) :
    isSpace c = false ∧ isUpperAZ c = false ∧ isLow1 c = false := by
  have hu : isUpperAZ c = false := by
    cases hu : isUpperAZ c with
    | false => rfl
    | true =>
      have hnu : ∀ n, 65 ≤ n → n ≤ 90 → isDigit (Char.ofNat n) = false := by
        intro n h1 h2
        have : n ∈ List.range 91 := by simp; omega
        have key : ∀ n ∈ List.range 91, 65 ≤ n → isDigit (Char.ofNat n) = false := by decide +kernel
        exact key n this h1
      simp only [isUpperAZ, Bool.and_eq_true, decide_eq_true_eq] at hu
      have := hnu c.toNat hu.1 hu.2
      rw [show Char.ofNat c.toNat = c from Char.ofNat_toNat c, hc] at this
      cases this
  have hl1 : isLow1 c = false := by
    cases hu : isLow1 c with
    | false => rfl
    | true =>
      have key : ∀ n ∈ List.range 123, isLow1 (Char.ofNat n) = true → isDigit (Char.ofNat n) = false := by decide +kernel
      have hr : c.toNat ∈ List.range 123 := by
        have h2 := hu
        simp only [isLow1, Bool.or_eq_true, Bool.and_eq_true, decide_eq_true_eq, beq_iff_eq] at h2
        rw [List.mem_range]
        rcases h2 with (⟨_, h⟩ | ⟨_, h⟩) | rfl
        · have : 'i'.toNat = 105 := rfl
          omega
        · have : 'z'.toNat = 122 := rfl
          omega
        · decide
      have := key c.toNat hr (by rw [Char.ofNat_toNat]; exact hu)
      rw [Char.ofNat_toNat, hc] at this
      cases this
  exact ⟨isDigit_space hc, hu, hl1⟩

theorem solid_num {s : Str} (h : NumLit s) : Solid s ∧ newToken s = some ⟨.num, s⟩ ∧ s ≠ s% "$" ∧ s ≠ s% "{" := by
  obtain ⟨c, cs, rfl, hc, hl⟩ := (numLit_iff s).1 h
  obtain ⟨_, hu, hl1⟩ := digit_class hc
  have hlex : lexTok (c :: cs) = some [] := by
    simp [lexTok, hl, hu, hl1, digit_ne hc '$' (by decide), digit_ne hc '\\' (by decide), digit_ne hc '"' (by decide),
      digit_ne hc '`' (by decide), digit_ne hc '\'' (by decide), hc]
  refine ⟨⟨hlex, cut_not_upper hu, c, cs, rfl, isDigit_space hc⟩, ?_, ?_, ?_⟩
  · obtain ⟨h1, h2⟩ := opText_head c (.inr hc) cs
    have hsym : symbolsRgx.full (c :: cs) = false := by
      unfold Rgx.full
      rw [run_symbols hu]
      have : (s% "][(){};$").elem c = false := by
        rw [Bool.eq_false_iff]
        intro h
        have h : c = ']' ∨ c = '[' ∨ c = '(' ∨ c = ')' ∨ c = '{' ∨ c = '}' ∨ c = ';' ∨ c = '$' := by simpa using h
        rcases h with rfl | rfl | rfl | rfl | rfl | rfl | rfl | rfl <;> exact absurd hc (by decide)
      rw [this]
      have hb := digit_ne hc '\\' (by decide)
      simp only [Bool.false_eq_true, if_false, List.nil_append]
      split
      · rename_i e; simp at e; exact absurd e.1 hb
      · rfl
    have hname : nameRgx.full (c :: cs) = false := by
      unfold Rgx.full
      rw [run_name_other hu hl1 (digit_ne hc '$' (by decide)) (digit_ne hc '\\' (by decide))]
      rfl
    have hnum : numberRgx.full (c :: cs) = true := by
      unfold Rgx.full
      have := run_number (c := c) (cs := cs) hc
      rw [hl] at this
      cases hr : numberRgx.run (c :: cs) with
      | nil => rw [hr] at this; cases this
      | cons x xs => rw [hr] at this; simp at this; simp [this]
    unfold newToken
    rw [if_neg h1, h2]
    have e1 : (c :: cs).take 1 = [c] := rfl
    rw [e1]
    have e2 : (c :: cs).take 2 ≠ s% "\\\"" := by
      intro h
      cases cs with
      | nil => simp at h
      | cons d ds => simp at h; exact digit_ne hc '\\' (by decide) h.1
    simp [digit_ne hc '\'' (by decide), digit_ne hc '"' (by decide), digit_ne hc '\\' (by decide), digit_ne hc '`' (by decide), hsym, hname, hnum]
  · intro h; simp at h; exact digit_ne hc '$' (by decide) h.1
  · intro h; simp at h; exact digit_ne hc '{' (by decide) h.1

theorem dropWhile_quote (s x : Str) (h : '"' ∉ s) : (s ++ '"' :: x).dropWhile (· != '"') = '"' :: x := by
  induction s with
  | nil => simp
  | cons c s ih =>
    simp only [List.mem_cons, not_or] at h
    rw [List.cons_append, List.dropWhile_cons, if_pos (by simpa using fun e : c = '"' => h.1 e.symm)]
    exact ih h.2

theorem solid_str {s : Str} (h : '"' ∉ s) : Solid (s% "\"" ++ s ++ s% "\"") ∧
    newToken (s% "\"" ++ s ++ s% "\"") = some ⟨.str, s% "\"" ++ s ++ s% "\""⟩ := by
  have e : s% "\"" ++ s ++ s% "\"" = '"' :: (s ++ s% "\"") := by simp
  rw [e]
  refine ⟨⟨?_, cut_not_upper (by decide), _, _, rfl, by decide⟩, ?_⟩
  · simp only [lexTok]
    rw [if_neg (by decide), if_neg (by decide), if_neg (by decide), if_neg (by decide), if_pos trivial,
      dropWhile_quote s [] h]
  · obtain ⟨h1, h2⟩ := opText_head '"' (.inl (by decide)) (s ++ s% "\"")
    unfold newToken
    rw [if_neg h1, h2]
    simp

theorem solid_esc (s : Str) : Solid (s% "\\\"" ++ dbl s ++ s% "\\\"") ∧
    newToken (s% "\\\"" ++ dbl s ++ s% "\\\"") = some ⟨.esc, s% "\\\"" ++ dbl s ++ s% "\\\""⟩ := by
  have e : s% "\\\"" ++ dbl s ++ s% "\\\"" = '\\' :: '"' :: (dbl s ++ s% "\\\"") := by simp
  rw [e]
  refine ⟨⟨?_, cut_not_upper (by decide), _, _, rfl, by decide⟩, ?_⟩
  · simp only [lexTok, lexBack]
    rw [if_neg (by decide), if_neg (by decide), if_neg (by decide), if_pos trivial, if_neg (by decide), if_pos trivial]
    exact lexEsc_dbl s []
  · have h1 : ∀ t ∈ operatorTexts, t.take 2 ≠ s% "\\\"" := by decide +kernel
    have h2 : ∀ k ∈ allCmds, k.text.take 2 ≠ s% "\\\"" := by decide +kernel
    have h3 : (findCmd ('\\' :: '"' :: (dbl s ++ s% "\\\""))).isSome = false := by
      rw [Bool.eq_false_iff]
      intro h
      unfold findCmd at h
      rw [List.find?_isSome] at h
      obtain ⟨k, hk, e⟩ := h
      have e : k.text = '\\' :: '"' :: (dbl s ++ s% "\\\"") := by simpa using e
      exact h2 k hk (by rw [e]; rfl)
    unfold newToken
    rw [if_neg (fun h => h1 _ h rfl), h3]
    simp

/-! ### Patterns -/

/-- The regex with its backticks escaped -/
def tick (s : Str) : Str := s.flatMap fun c => if c = '`' then s% "\\`" else [c]

theorem tick_eq (s : Str) : replaceStr (s% "`") (s% "\\`") s = tick s := replace_char _ _ _

theorem tick_tick (s : Str) : tick ('`' :: s) = '\\' :: '`' :: tick s := rfl
theorem tick_other {c : Char} (h : c ≠ '`') (s : Str) : tick (c :: s) = c :: tick s := by
  unfold tick; rw [List.flatMap_cons, if_neg h]; rfl

def patText (r : Str) : Str := '`' :: (tick r ++ s% "`")

theorem lexPat_plain {c : Char} (h1 : c ≠ '`') (h2 : c ≠ '\\') (s : Str) : lexPat (c :: s) = lexPat s := by
  rw [lexPat]
  · rw [if_neg h2]
  · exact h1
  · intro d ds e _; exact h2 e

theorem lexPat_pair {c : Char} (h : c ≠ '\n') (s : Str) : lexPat ('\\' :: c :: s) = lexPat s := by
  rw [lexPat, if_neg h]

theorem lexPat_tick {r : Str} (h : Quotable r) (x : Str) : lexPat (tick r ++ '`' :: x) = some x := by
  induction h with
  | nil => rfl
  | @plain c r hc _ ih =>
    by_cases h : c = '`'
    · subst h
      rw [tick_tick, List.cons_append, List.cons_append, lexPat_pair (by decide), ih]
    · rw [tick_other h, List.cons_append, lexPat_plain h hc, ih]
  | @pair c r h1 h2 _ ih =>
    rw [tick_other (by decide), tick_other h1, List.cons_append, List.cons_append, lexPat_pair h2, ih]

theorem solid_pat {r : Str} (h : Quotable r) : Solid (patText r) ∧ newToken (patText r) = some ⟨.pat, patText r⟩ := by
  unfold patText
  refine ⟨⟨?_, cut_not_upper (by decide), _, _, rfl, by decide⟩, ?_⟩
  · simp only [lexTok]
    rw [if_neg (by decide), if_neg (by decide), if_neg (by decide), if_neg (by decide), if_neg (by decide), if_pos trivial]
    exact lexPat_tick h []
  · have h1 : ∀ t ∈ operatorTexts, t.take 1 ≠ s% "`" := by decide +kernel
    have h2 : ∀ k ∈ allCmds, k.text.take 1 ≠ s% "`" := by decide +kernel
    have h3 : (findCmd ('`' :: (tick r ++ s% "`"))).isSome = false := by
      rw [Bool.eq_false_iff]
      intro h
      unfold findCmd at h
      rw [List.find?_isSome] at h
      obtain ⟨k, hk, e⟩ := h
      have e : k.text = '`' :: (tick r ++ s% "`") := by simpa using e
      exact h2 k hk (by rw [e]; rfl)
    unfold newToken
    rw [if_neg (fun h => h1 _ h rfl), h3]
    simp

theorem tick_head (s : Str) : (s% "`").isPrefixOf (tick s) = false := by
  cases s with
  | nil => rfl
  | cons c s =>
    by_cases h : c = '`'
    · subst h; rfl
    · rw [tick_other h]
      simpa [List.isPrefixOf] using fun e => h e.symm

/-- Undoing the escapes -/
theorem untick (s : Str) : replaceStr (s% "\\`") (s% "`") (tick s) = s := by
  simp only [replaceStr, List.isEmpty_cons, Bool.false_eq_true, if_false, splitStr]
  induction s with
  | nil => rfl
  | cons c s ih =>
    by_cases h : c = '`'
    · subst h
      simp only [tick_tick]
      simp only [splitAux, List.isPrefixOf, beq_self_eq_true, Bool.and_true, if_true, List.length_cons, List.length_nil,
        Nat.add_sub_cancel]
      exact congrArg _ ih
    · rw [tick_other h]
      have : (s% "\\`").isPrefixOf (c :: tick s) = false := by
        have := tick_head s
        simp only [List.isPrefixOf] at this ⊢
        rw [this, Bool.and_false]
      simp only [splitAux, this, Bool.false_eq_true, if_false, joinStr_cons1]
      exact congrArg _ ih

end Pip
