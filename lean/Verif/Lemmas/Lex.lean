import Verif.Lemmas.Scan
/-! Deterministic reading of the token regex. -/

set_option linter.unusedSimpArgs false

namespace Pip
open Rgx
namespace Scan

/-- `[a-ik-z_]` -/
def isLow1 (c : Char) : Bool :=
  ('a'.toNat ≤ c.toNat && c.toNat ≤ 'i'.toNat) || ('k'.toNat ≤ c.toNat && c.toNat ≤ 'z'.toNat) || c == '_'

/-- `[a-z0-9_]` -/
def isIdent (c : Char) : Bool := isLowerAZ c || isDigit09 c || c == '_'

def isAG (c : Char) : Bool := 'a'.toNat ≤ c.toNat && c.toNat ≤ 'g'.toNat

/-- What remains after a pattern literal whose opening backtick has been read. -/
def lexPat : Str → Option Str
  | [] => none
  | '`' :: cs => some cs
  | '\\' :: c :: cs => if c = '\n' then none else lexPat cs
  | c :: cs => if c = '\\' then none else lexPat cs

/-- What remains after an escaped string whose opening has been read. -/
def lexEsc : Str → Option Str
  | [] => none
  | '\\' :: c :: cs => if c = '"' then some cs else lexEsc cs
  | c :: cs => if c = '\\' then none else lexEsc cs

/-- What remains after a number whose first digit has been read. -/
def lexNum (cs : Str) : Str :=
  match cs.dropWhile isDigit with
  | '.' :: d :: ds => if isDigit d then ds.dropWhile isDigit else '.' :: d :: ds
  | r => r

def lexUnder : Str → Str
  | '_' :: '_' :: cs => cs
  | '_' :: cs => cs
  | cs => cs

/-- What remains after a token starting with `$`. -/
def lexDollar : Str → Str
  | [] => []
  | c :: cs =>
    if (s% "][()$`'").elem c || isDigit09 c then cs
    else if isLowerAZ c then cs.dropWhile isIdent
    else if c = '_' then lexUnder cs
    else c :: cs

def lexOp (c : Char) (cs : Str) : Option Str :=
  match cs with
  | [] => if [c] ∈ operatorTexts then some [] else none
  | d :: ds =>
    if [c, d] ∈ operatorTexts then some ds else if [c] ∈ operatorTexts then some (d :: ds) else none

def lexBack : Str → Option Str
  | [] => lexOp '\\' []
  | c :: cs =>
    if isAG c then some cs
    else if c = '"' then lexEsc cs
    else if c = '$' then some cs
    else lexOp '\\' (c :: cs)

/-- What remains after the token at the start of the code. -/
def lexTok : Str → Option Str
  | [] => none
  | c :: cs =>
    if isUpperAZ c then some (cs.dropWhile isUpperAZ)
    else if isLow1 c then some cs
    else if c = '$' then some (lexDollar cs)
    else if c = '\\' then lexBack cs
    else if c = '"' then (match cs.dropWhile (· != '"') with | _ :: r => some r | [] => none)
    else if c = '`' then lexPat cs
    else if c = '\'' then (match cs with | _ :: r => some r | [] => none)
    else if isDigit c then some (lexNum cs)
    else if (s% "][(){};").elem c then some cs
    else lexOp c cs

/-! ### Agreement with the regex -/

theorem run_alts (l : List Rgx) (s : Str) : (alts l).run s = l.flatMap (·.run s) := by
  induction l with
  | nil => cases s <;> simp [alts, run]
  | cons r rs ih =>
    cases rs with
    | nil => simp [alts]
    | cons q qs => simp only [alts, run, ih, List.flatMap_cons]

theorem run_seq (a b : Rgx) (s : Str) : (Rgx.seq a b).run s = (a.run s).flatMap b.run := rfl
theorem run_alt (a b : Rgx) (s : Str) : (Rgx.alt a b).run s = a.run s ++ b.run s := rfl
theorem run_eps (s : Str) : Rgx.eps.run s = [s] := rfl
theorem run_lit_cons (a c : Char) (cs : Str) : (Rgx.lit a).run (c :: cs) = if c == a then [cs] else [] := rfl
theorem run_lit_nil (a : Char) : (Rgx.lit a).run [] = [] := rfl

theorem isAG_eq (c : Char) : isAG c = ('a'.toNat ≤ c.toNat && c.toNat ≤ 'g'.toNat) := rfl

/-- The name alternatives that apply to a given first character. -/
theorem run_name_upper {c cs} (h : isUpperAZ c = true) :
    (nameRgx.run (c :: cs)).head? = some (cs.dropWhile isUpperAZ) := by
  unfold nameRgx
  rw [run_alts]
  simp only [List.flatMap_cons, Rgx.plus, run_seq, run_chr_cons, h, if_true, List.flatMap_nil, List.append_nil,
    List.head?_append, run_star_chr_head, Option.some_or]

theorem upper_ne {c : Char} (h : isUpperAZ c = true) (d : Char) (hd : isUpperAZ d = false) : c ≠ d := by
  rintro rfl; rw [h] at hd; cases hd

theorem low1_ne {c : Char} (h : isLow1 c = true) (d : Char) (hd : isLow1 d = false) : c ≠ d := by
  rintro rfl; rw [h] at hd; cases hd

theorem run_name_low {c cs} (hu : isUpperAZ c = false) (h : isLow1 c = true) : nameRgx.run (c :: cs) = [cs] := by
  unfold nameRgx
  rw [run_alts]
  have h1 : (c == '$') = false := by simpa using low1_ne h '$' (by decide)
  have h2 : (c == '\\') = false := by simpa using low1_ne h '\\' (by decide)
  unfold isLow1 at h
  simp only [List.flatMap_cons, Rgx.plus, run_seq, run_chr_cons, hu, run_lit_cons, h1, h2, List.flatMap_nil,
    List.append_nil, h, if_true, List.nil_append, Bool.false_eq_true, if_false, List.singleton_append]

theorem run_name_other {c cs} (hu : isUpperAZ c = false) (h : isLow1 c = false) (h1 : c ≠ '$') (h2 : c ≠ '\\') :
    nameRgx.run (c :: cs) = [] := by
  unfold nameRgx
  rw [run_alts]
  have h1 : (c == '$') = false := by simpa using h1
  have h2 : (c == '\\') = false := by simpa using h2
  unfold isLow1 at h
  simp only [List.flatMap_cons, Rgx.plus, run_seq, run_chr_cons, hu, run_lit_cons, h1, h2, List.flatMap_nil,
    List.append_nil, h, List.nil_append, Bool.false_eq_true, if_false]

theorem run_name_back {cs} :
    nameRgx.run ('\\' :: cs) = (match cs with | c :: r => if isAG c then [r] else [] | [] => []) := by
  unfold nameRgx
  rw [run_alts]
  have hu : isUpperAZ '\\' = false := by decide
  have hl : isLow1 '\\' = false := by decide
  have h1 : ('\\' == '$') = false := by decide
  have h2 : ('\\' == '\\') = true := by decide
  unfold isLow1 at hl
  simp only [List.flatMap_cons, Rgx.plus, run_seq, run_chr_cons, hu, run_lit_cons, h1, h2, List.flatMap_nil,
    List.append_nil, hl, List.nil_append, Bool.false_eq_true, if_false, if_true]
  cases cs with
  | nil => rfl
  | cons c r => rw [run_chr_cons]; rfl

theorem run_under (cs : Str) : ((Rgx.opt (seq (lit '_') (Rgx.opt (lit '_')))).run cs).head? = some (lexUnder cs) := by
  unfold Rgx.opt
  simp only [run_alt, run_seq, run_eps]
  cases cs with
  | nil => rfl
  | cons c cs =>
    rw [run_lit_cons]
    by_cases hc : c = '_'
    · subst hc
      cases cs with
      | nil => rfl
      | cons d ds =>
        by_cases hd : d = '_'
        · subst hd; rfl
        · have : (d == '_') = false := by simpa using hd
          simp only [beq_self_eq_true, if_true, List.flatMap_cons, run_alt, run_lit_cons, this,
            Bool.false_eq_true, if_false, List.nil_append, run_eps, List.flatMap_nil, List.append_nil]
          unfold lexUnder
          split
          · rename_i h; simp at h; exact absurd h.1 hd
          · rename_i h; simp at h; simp [h]
          · rename_i h; exact absurd rfl (h _)
    · have : (c == '_') = false := by simpa using hc
      simp only [this, Bool.false_eq_true, if_false, List.flatMap_nil, List.nil_append]
      unfold lexUnder
      split
      · rename_i h; simp at h; exact absurd h.1 hc
      · rename_i h; simp at h; exact absurd h.1 hc
      · rfl

theorem run_name_dollar {cs} :
    (nameRgx.run ('$' :: cs)).head? =
      (match cs with
       | [] => none
       | c :: r => if (s% "][()$`'").elem c || isDigit09 c || isLowerAZ c || c == '_'
                   then some (lexDollar cs) else none) := by
  unfold nameRgx
  rw [run_alts]
  have hu : isUpperAZ '$' = false := by decide
  have hl : isLow1 '$' = false := by decide
  have h1 : ('$' == '\\') = false := by decide
  have h2 : ('$' == '$') = true := by decide
  unfold isLow1 at hl
  simp only [List.flatMap_cons, Rgx.plus, run_seq, run_chr_cons, hu, run_lit_cons, h1, h2, List.flatMap_nil,
    List.append_nil, hl, List.nil_append, Bool.false_eq_true, if_false, if_true]
  cases cs with
  | nil => rfl
  | cons c r =>
    simp only [run_chr_cons, run_lit_cons, lexDollar]
    by_cases ha : ((s% "][()$`'").elem c || isDigit09 c) = true
    · simp only [ha, if_true, List.singleton_append, List.head?_cons, Bool.true_or]
    · have ha : ((s% "][()$`'").elem c || isDigit09 c) = false := by simpa using ha
      simp only [ha, Bool.false_eq_true, if_false, List.nil_append, Bool.false_or]
      by_cases hb : isLowerAZ c
      · have hf : (fun c => isLowerAZ c || isDigit09 c || c == '_') = isIdent := rfl
        simp only [hb, if_true, List.flatMap_cons, List.flatMap_nil, List.append_nil, List.head?_append, hf,
          run_star_chr_head, Option.some_or, Bool.true_or]
      · have hb : isLowerAZ c = false := by simpa using hb
        simp only [hb, Bool.false_eq_true, if_false, List.flatMap_nil, List.nil_append, Bool.false_or]
        by_cases hc : c = '_'
        · subst hc
          simp only [beq_self_eq_true, if_true, List.flatMap_cons, List.flatMap_nil, List.append_nil, run_under]
        · have : (c == '_') = false := by simpa using hc
          simp only [this, hc, Bool.false_eq_true, if_false, List.flatMap_nil, List.head?_nil]

theorem run_string_other {c cs} (h : c ≠ '"') : stringRgx.run (c :: cs) = [] := by
  have h : (c == '"') = false := by simpa using h
  simp [stringRgx, run_seq, run_lit_cons, h]

theorem run_string {cs} :
    stringRgx.run ('"' :: cs) = (match cs.dropWhile (· != '"') with | _ :: r => [r] | [] => []) := by
  unfold stringRgx
  rw [run_seq, run_lit_cons]
  simp only [beq_self_eq_true, if_true, List.flatMap_cons, List.flatMap_nil, List.append_nil]
  rw [run_star_chr_seq]
  · cases h : cs.dropWhile (· != '"') with
    | nil => rfl
    | cons d ds =>
      have : (d != '"') = false := by
        have := List.head?_dropWhile_not (p := (· != '"')) cs
        rw [h] at this; simpa using this
      have : (d == '"') = true := by simpa using this
      simp [run_lit_cons, this]
  · intro c cs hc
    have : (c == '"') = false := by simpa using hc
    simp [run_lit_cons, this]

theorem run_pattern_other {c cs} (h : c ≠ '`') : patternRgx.run (c :: cs) = [] := by
  have h : (c == '`') = false := by simpa using h
  simp [patternRgx, run_seq, run_lit_cons, h]

/-- Body of a pattern literal (scanning.py:17). -/
def patBody : Rgx := alt (chr (fun c => c != '`' && c != '\\')) (seq (lit '\\') dot)

theorem run_patBody (n : Nat) : ∀ s : Str, s.length ≤ n →
    (starRun patBody.run n s).flatMap (lit '`').run = (lexPat s).toList := by
  induction n using Nat.strongRecOn with
  | _ n ih =>
  intro s h
  cases n with
  | zero =>
    have : s = [] := List.length_eq_zero_iff.1 (Nat.le_zero.1 h)
    subst this; rfl
  | succ n =>
  cases s with
  | nil => rfl
  | cons c cs =>
    simp only [starRun, List.flatMap_append, List.flatMap_cons, List.flatMap_nil, List.append_nil]
    by_cases h1 : c = '`'
    · subst h1
      have : patBody.run ('`' :: cs) = [] := by
        simp [patBody, run_alt, run_chr_cons, run_seq, run_lit_cons]
      simp [this, lexPat, run_lit_cons]
    · have h1' : (c == '`') = false := by simpa using h1
      by_cases h2 : c = '\\'
      · subst h2
        cases cs with
        | nil => rfl
        | cons d ds =>
          have hb : patBody.run ('\\' :: d :: ds) = if d = '\n' then [] else [ds] := by
            simp only [patBody, run_alt, run_chr_cons, run_seq, run_lit_cons, Rgx.dot]
            by_cases hd : d = '\n'
            · subst hd; simp [run_chr_cons]
            · have : (d != '\n') = true := by simpa using hd
              simp [this, hd, run_chr_cons]
          rw [hb]
          by_cases hd : d = '\n'
          · subst hd
            simp [lexPat, run_lit_cons]
          · simp only [List.length_cons] at h
            have hl : ds.length ≤ n := by omega
            have := ih n (by omega) ds hl
            simp only [hd, if_false, List.flatMap_cons, List.flatMap_nil, List.append_nil, run_lit_cons, h1',
              lexPat, List.length_cons]
            rw [if_pos (by omega), this]
            simp
      · have hb : patBody.run (c :: cs) = [cs] := by
          have h2' : (c == '\\') = false := by simpa using h2
          simp [patBody, run_alt, run_chr_cons, run_seq, run_lit_cons, h1, h2]
        have hl : cs.length ≤ n := by simp at h; omega
        have := ih n (by omega) cs hl
        have e : lexPat (c :: cs) = lexPat cs := by
          rw [lexPat]
          · simp [h2]
          · intro h; exact h1 h
          · intro d ds h; exact absurd h h2
        rw [hb, e]
        simp [this, run_lit_cons, h1]

theorem run_pattern {cs} : patternRgx.run ('`' :: cs) = (lexPat cs).toList := by
  unfold patternRgx
  rw [run_seq, run_lit_cons]
  simp only [beq_self_eq_true, if_true, List.flatMap_cons, List.flatMap_nil, List.append_nil, run_seq]
  exact run_patBody _ _ (Nat.le_refl _)

theorem run_char_other {c cs} (h : c ≠ '\'') : charRgx.run (c :: cs) = [] := by
  have h : (c == '\'') = false := by simpa using h
  simp [charRgx, run_seq, run_lit_cons, h]

theorem run_char {cs} : charRgx.run ('\'' :: cs) = (match cs with | _ :: r => [r] | [] => []) := by
  unfold charRgx
  rw [run_seq, run_lit_cons]
  simp only [beq_self_eq_true, if_true, List.flatMap_cons, List.flatMap_nil, List.append_nil, run_alt]
  cases cs with
  | nil => rfl
  | cons d ds =>
    by_cases hd : d = '\n'
    · subst hd; simp [Rgx.dot, run_chr_cons, run_lit_cons]
    · simp [Rgx.dot, run_chr_cons, run_lit_cons, hd]

theorem run_esc_other {c cs} (h : c ≠ '\\') : escStringRgx.run (c :: cs) = [] := by
  have h : (c == '\\') = false := by simpa using h
  simp [escStringRgx, run_seq, run_lit_cons, Rgx.str, h]

/-- Body of an escaped string (scanning.py:19). -/
def escBody : Rgx := alt (seq (lit '\\') (chr (· != '"'))) (chr (· != '\\'))

theorem run_escBody (n : Nat) : ∀ s : Str, s.length ≤ n →
    (starRun escBody.run n s).flatMap (Rgx.str (s% "\\\"")).run = (lexEsc s).toList := by
  induction n using Nat.strongRecOn with
  | _ n ih =>
  intro s h
  cases n with
  | zero =>
    have : s = [] := List.length_eq_zero_iff.1 (Nat.le_zero.1 h)
    subst this; rfl
  | succ n =>
  cases s with
  | nil => rfl
  | cons c cs =>
    simp only [starRun, List.flatMap_append, List.flatMap_cons, List.flatMap_nil, List.append_nil]
    by_cases h2 : c = '\\'
    · subst h2
      cases cs with
      | nil => rfl
      | cons d ds =>
        have hb : escBody.run ('\\' :: d :: ds) = if d = '"' then [] else [ds] := by
          simp only [escBody, run_alt, run_chr_cons, run_seq, run_lit_cons]
          by_cases hd : d = '"'
          · subst hd; simp [run_chr_cons]
          · simp [hd, run_chr_cons]
        rw [hb, run_str]
        by_cases hd : d = '"'
        · subst hd
          simp [lexEsc]
        · simp only [List.length_cons] at h
          have hl : ds.length ≤ n := by omega
          have := ih n (by omega) ds hl
          have hd' : ('"' == d) = false := by simpa using fun e => hd e.symm
          simp only [hd, if_false, List.flatMap_cons, List.flatMap_nil, List.append_nil, lexEsc, List.length_cons,
            List.isPrefixOf, hd', beq_self_eq_true, Bool.true_and, Bool.false_and, Bool.false_eq_true]
          rw [if_pos (by omega), this]
    · have hb : escBody.run (c :: cs) = [cs] := by
        simp [escBody, run_alt, run_chr_cons, run_seq, run_lit_cons, h2]
      have hl : cs.length ≤ n := by simp at h; omega
      have := ih n (by omega) cs hl
      have e : lexEsc (c :: cs) = lexEsc cs := by
        rw [lexEsc]
        · simp [h2]
        · intro d ds h; exact absurd h h2
      have h2' : ('\\' == c) = false := by simpa using fun e => h2 e.symm
      rw [hb, e, run_str]
      simp [this, List.isPrefixOf, h2']

theorem run_esc {cs} :
    escStringRgx.run ('\\' :: cs) = (match cs with | '"' :: r => (lexEsc r).toList | _ => []) := by
  unfold escStringRgx
  rw [run_seq, run_str]
  cases cs with
  | nil => rfl
  | cons d ds =>
    by_cases hd : d = '"'
    · subst hd
      simp only [List.isPrefixOf, beq_self_eq_true, Bool.true_and, if_true, List.flatMap_cons, List.flatMap_nil,
        List.append_nil, run_seq]
      exact run_escBody _ _ (Nat.le_refl _)
    · have hd' : ('"' == d) = false := by simpa using fun e => hd e.symm
      simp only [List.isPrefixOf, hd', Bool.false_and, Bool.and_false, Bool.false_eq_true, if_false, List.flatMap_nil]
      split
      · rename_i h; simp at h; exact absurd h.1 hd
      · rfl

theorem run_number_other {c cs} (h : isDigit c = false) : numberRgx.run (c :: cs) = [] := by
  simp [numberRgx, run_seq, Rgx.plus, run_chr_cons, h]

theorem run_number {c cs} (h : isDigit c = true) :
    (numberRgx.run (c :: cs)).head? = some (lexNum cs) := by
  unfold numberRgx Rgx.plus Rgx.opt
  simp only [run_seq, run_chr_cons, h, if_true, List.flatMap_cons, List.flatMap_nil, List.append_nil]
  rw [List.head?_flatMap]
  have hs := run_star_chr_head isDigit cs
  cases hr : (Rgx.star (.chr isDigit)).run cs with
  | nil => rw [hr] at hs; simp at hs
  | cons x xs =>
    rw [hr] at hs
    simp only [List.head?_cons, Option.some.injEq] at hs
    simp only [List.findSome?_cons, run_alt, run_eps, List.head?_append]
    subst hs
    unfold lexNum
    cases hd : cs.dropWhile isDigit with
    | nil => rfl
    | cons d ds =>
      simp only [run_seq, run_lit_cons]
      by_cases hdot : d = '.'
      · subst hdot
        simp only [beq_self_eq_true, if_true, List.flatMap_cons, List.flatMap_nil, List.append_nil]
        cases ds with
        | nil => rfl
        | cons e es =>
          by_cases he : isDigit e
          · simp only [run_seq, run_chr_cons, he, if_true, List.flatMap_cons, List.flatMap_nil, List.append_nil,
              run_star_chr_head, Option.some_or]
          · have he : isDigit e = false := by simpa using he
            simp only [run_seq, run_chr_cons, he, Bool.false_eq_true, if_false, List.flatMap_nil, List.head?_nil,
              Option.none_or, List.head?_cons]
      · have : (d == '.') = false := by simpa using hdot
        simp only [this, Bool.false_eq_true, if_false, List.flatMap_nil, List.head?_nil, Option.none_or,
          List.head?_cons]
        split
        · rename_i h; simp at h; exact absurd h.1 hdot
        · rfl

theorem head_texts2 (c d : Char) (ds : Str) : ∀ l : List Str, (∀ t ∈ l, t.length = 2) →
    (l.flatMap fun t => (Rgx.str t).run (c :: d :: ds)).head? = if [c, d] ∈ l then some ds else none := by
  intro l
  induction l with
  | nil => intro _; rfl
  | cons t l ih =>
    intro h
    have ht := h t (by simp)
    have ih := ih (fun t ht => h t (List.mem_cons_of_mem _ ht))
    match t, ht with
    | [a, b], _ =>
      simp only [List.flatMap_cons, run_str, List.head?_append, List.mem_cons, List.cons.injEq, and_true] at ih ⊢
      by_cases hab : c = a ∧ d = b
      · obtain ⟨rfl, rfl⟩ := hab
        simp
      · have : [a, b].isPrefixOf (c :: d :: ds) = false := by
          simp only [List.isPrefixOf, Bool.and_true, Bool.and_eq_false_iff]
          by_cases h1 : a = c
          · subst h1; right; simp only [true_and] at hab
            simpa using fun e => hab e.symm
          · left; simpa using h1
        rw [this, ih]; simp [hab]

theorem head_texts2_short (c : Char) : ∀ l : List Str, (∀ t ∈ l, t.length = 2) →
    (l.flatMap fun t => (Rgx.str t).run [c]) = [] := by
  intro l h
  rw [List.flatMap_eq_nil_iff]
  intro t ht
  have ht := h t ht
  match t, ht with
  | [a, b], _ => simp [run_str, List.isPrefixOf]

theorem head_texts1 (c : Char) (cs : Str) : ∀ l : List Str, (∀ t ∈ l, t.length = 1) →
    (l.flatMap fun t => (Rgx.str t).run (c :: cs)).head? = if [c] ∈ l then some cs else none := by
  intro l
  induction l with
  | nil => intro _; rfl
  | cons t l ih =>
    intro h
    have ht := h t (by simp)
    have ih := ih (fun t ht => h t (List.mem_cons_of_mem _ ht))
    match t, ht with
    | [a], _ =>
      simp only [List.flatMap_cons, run_str, List.head?_append, List.mem_cons, List.cons.injEq, and_true] at ih ⊢
      by_cases hab : c = a
      · subst hab; simp
      · have : [a].isPrefixOf (c :: cs) = false := by
          simp only [List.isPrefixOf, Bool.and_true]
          simpa using fun e => hab e.symm
        rw [this, ih]; simp [hab]

theorem run_oper (s : Str) : operRgx.run s =
    ((operatorTexts.filter (fun t => t.length == 2)).flatMap fun t => (Rgx.str t).run s) ++
    ((operatorTexts.filter (fun t => t.length == 1)).flatMap fun t => (Rgx.str t).run s) := by
  unfold operRgx
  rw [run_alts, List.flatMap_map]
  unfold sortedTexts
  rw [List.flatMap_append]

theorem head_oper (c : Char) (cs : Str) : (operRgx.run (c :: cs)).head? = lexOp c cs := by
  have h1 : ∀ t ∈ operatorTexts.filter (fun t => t.length == 1), t.length = 1 := by
    intro t ht; simpa using (List.mem_filter.1 ht).2
  rw [run_oper, List.head?_append, head_texts1 c cs _ h1]
  have h2 : ∀ t ∈ operatorTexts.filter (fun t => t.length == 2), t.length = 2 := by
    intro t ht; simpa using (List.mem_filter.1 ht).2
  have e1 : ([c] ∈ operatorTexts.filter (fun t => t.length == 1)) = ([c] ∈ operatorTexts) := by
    rw [List.mem_filter]; simp
  simp only [e1]
  cases cs with
  | nil => rw [head_texts2_short c _ h2]; simp [lexOp]
  | cons d ds =>
    rw [head_texts2 c d ds _ h2]
    have e2 : ([c, d] ∈ operatorTexts.filter (fun t => t.length == 2)) = ([c, d] ∈ operatorTexts) := by
      rw [List.mem_filter]; simp
    simp only [e2, lexOp]
    split <;> rfl

theorem run_symbols {c cs} (hu : isUpperAZ c = false) : symbolsRgx.run (c :: cs) =
    (if (s% "][(){};$").elem c then [cs] else []) ++
    (match c :: cs with | '\\' :: '$' :: r => [r] | _ => []) := by
  unfold symbolsRgx
  rw [run_alts]
  have hE : ('E' == c) = false := by simpa using fun e => by subst e; exact absurd hu (by decide)
  simp only [List.flatMap_cons, List.flatMap_nil, List.append_nil, run_str, Rgx.cls, run_chr_cons,
    List.isPrefixOf, hE, Bool.false_and, Bool.false_eq_true, if_false]
  congr 1
  cases cs with
  | nil =>
    simp [List.isPrefixOf]
  | cons d ds =>
    by_cases h1 : c = '\\'
    · subst h1
      by_cases h2 : d = '$'
      · subst h2; simp [List.isPrefixOf]
      · have : ('$' == d) = false := by simpa using fun e => h2 e.symm
        simp only [List.isPrefixOf, this, Bool.false_and, Bool.and_false, Bool.false_eq_true, if_false]
        split
        · rename_i h; simp at h; exact absurd h.1 h2
        · rfl
    · have : ('\\' == c) = false := by simpa using fun e => h1 e.symm
      simp only [List.isPrefixOf, this, Bool.false_and, Bool.false_eq_true, if_false]
      split
      · rename_i h; simp at h; exact absurd h.1 h1
      · rfl

theorem run_token (s : Str) : tokenRgx.run s = nameRgx.run s ++ (stringRgx.run s ++ (patternRgx.run s ++
    (charRgx.run s ++ (escStringRgx.run s ++ (numberRgx.run s ++ (symbolsRgx.run s ++ operRgx.run s)))))) := by
  unfold tokenRgx
  rw [run_alts]
  simp only [List.flatMap_cons, List.flatMap_nil, List.append_nil]

theorem digit_ne {c : Char} (h : isDigit c = true) (d : Char) (hd : isDigit d = false) : c ≠ d := by
  rintro rfl; rw [h] at hd; cases hd

theorem head_toList {α} (o : Option α) : o.toList.head? = o := by cases o <;> rfl

/-- The token regex reads the token at the start of the code as `lexTok` says. -/
theorem head_token (s : Str) : (tokenRgx.run s).head? = lexTok s := by
  cases s with
  | nil => decide +kernel
  | cons c cs =>
    rw [run_token]
    unfold lexTok
    by_cases hu : isUpperAZ c
    · simp only [hu, if_true, List.head?_append, run_name_upper hu, Option.some_or]
    have hu : isUpperAZ c = false := by simpa using hu
    by_cases hl : isLow1 c
    · simp only [hu, hl, if_true, List.head?_append, run_name_low hu hl, List.head?_cons, Option.some_or,
        Bool.false_eq_true, if_false]
    have hl : isLow1 c = false := by simpa using hl
    simp only [hu, hl, Bool.false_eq_true, if_false]
    by_cases h1 : c = '$'
    · subst h1
      simp only [if_true, List.head?_append, run_name_dollar, run_string_other (c := '$') (by decide),
        run_pattern_other (c := '$') (by decide), run_char_other (c := '$') (by decide),
        run_esc_other (c := '$') (by decide), run_number_other (c := '$') (by decide), run_symbols hu]
      cases cs with
      | nil => rfl
      | cons d ds =>
        simp only [lexDollar]
        by_cases ha : ((s% "][()$`'").elem d || isDigit09 d) = true
        · simp only [ha, if_true, Option.some_or, Bool.true_or]
        · have ha : ((s% "][()$`'").elem d || isDigit09 d) = false := by simpa using ha
          by_cases hb : isLowerAZ d
          · simp only [ha, hb, if_true, Option.some_or, Bool.true_or, Bool.or_true, Bool.false_eq_true, if_false]
          · have hb : isLowerAZ d = false := by simpa using hb
            by_cases hc : d = '_'
            · subst hc; simp only [ha, hb, if_true, Option.some_or, Bool.or_true, beq_self_eq_true,
                Bool.false_eq_true, if_false]
            · have hc' : (d == '_') = false := by simpa using hc
              simp only [ha, hb, hc, hc', Bool.or_false, Bool.false_eq_true, if_false, Option.none_or,
                List.head?_nil]
              rfl
    simp only [h1, if_false]
    by_cases h2 : c = '\\'
    · subst h2
      simp only [if_true, List.head?_append, run_name_back, run_string_other (c := '\\') (by decide),
        run_pattern_other (c := '\\') (by decide), run_char_other (c := '\\') (by decide),
        run_number_other (c := '\\') (by decide), run_esc, run_symbols hu, head_oper,
        List.head?_nil, Option.none_or]
      cases cs with
      | nil => rfl
      | cons d ds =>
        simp only [lexBack]
        by_cases ha : isAG d
        · simp only [ha, if_true, List.head?_cons, Option.some_or]
        · have ha : isAG d = false := by simpa using ha
          simp only [ha, Bool.false_eq_true, if_false, List.head?_nil, Option.none_or]
          by_cases hq : d = '"'
          · subst hq
            simp only [head_toList, if_true]
            cases h : lexEsc ds with
            | some r => simp only [Option.some_or]
            | none =>
              simp only [Option.none_or]
              simp [lexOp, show ¬ ['\\', '"'] ∈ operatorTexts by decide +kernel,
                show ¬ ['\\'] ∈ operatorTexts by decide +kernel]
          · simp only [hq, if_false]
            by_cases hd : d = '$'
            · subst hd; rfl
            · simp only [hd, if_false]
              have e1 : (match d :: ds with | '"' :: r => (lexEsc r).toList | _ => []) = [] := by
                split
                · rename_i h; simp at h; exact absurd h.1 hq
                · rfl
              have e2 : (match '\\' :: d :: ds with | '\\' :: '$' :: r => [r] | _ => []) = ([] : List Str) := by
                split
                · rename_i h; simp at h; exact absurd h.1 hd
                · rfl
              rw [e1, e2]
              rfl
    simp only [h2, if_false]
    rw [run_name_other hu hl h1 h2, run_esc_other h2]
    have hsym : symbolsRgx.run (c :: cs) = if (s% "][(){};").elem c then [cs] else [] := by
      rw [run_symbols hu]
      have e2 : (match c :: cs with | '\\' :: '$' :: r => [r] | _ => []) = ([] : List Str) := by
        split
        · rename_i h; simp at h; exact absurd h.1 h2
        · rfl
      have e3 : (s% "][(){};$").elem c = (s% "][(){};").elem c := by
        have : (c == '$') = false := by simpa using h1
        simp only [List.elem_cons, this, List.elem_nil]
      rw [e2, e3, List.append_nil]
    by_cases h3 : c = '"'
    · subst h3
      simp only [if_true, List.head?_append, List.head?_nil, Option.none_or, run_string,
        run_pattern_other (c := '"') (by decide), run_char_other (c := '"') (by decide),
        run_number_other (c := '"') (by decide), hsym, head_oper]
      cases h : cs.dropWhile (· != '"') with
      | nil =>
        simp only [List.head?_nil, Option.none_or]
        have h1 : ¬ ['"'] ∈ operatorTexts := by decide +kernel
        have h2 : ∀ d, ¬ ['"', d] ∈ operatorTexts := by
          intro d hd
          have : ∀ t ∈ operatorTexts, t.head? ≠ some '"' := by decide +kernel
          exact this _ hd rfl
        cases cs <;> simp [lexOp, h1, h2]
      | cons x r => rfl
    rw [run_string_other h3]
    simp only [h3, if_false]
    by_cases h4 : c = '`'
    · subst h4
      simp only [if_true, List.head?_append, List.head?_nil, Option.none_or, run_pattern,
        run_char_other (c := '`') (by decide),
        run_number_other (c := '`') (by decide), hsym, head_oper, head_toList]
      cases h : lexPat cs with
      | none =>
        have h1 : ¬ ['`'] ∈ operatorTexts := by decide +kernel
        have h2 : ∀ d, ¬ ['`', d] ∈ operatorTexts := by
          intro d hd
          have : ∀ t ∈ operatorTexts, t.head? ≠ some '`' := by decide +kernel
          exact this _ hd rfl
        cases cs <;> simp [lexOp, h1, h2]
      | some r => rfl
    rw [run_pattern_other h4]
    simp only [h4, if_false]
    by_cases h5 : c = '\''
    · subst h5
      simp only [if_true, List.head?_append, List.head?_nil, Option.none_or, run_char,
        run_number_other (c := '\'') (by decide), hsym, head_oper]
      cases cs with
      | nil =>
        have h1 : ¬ ['\''] ∈ operatorTexts := by decide +kernel
        simp [lexOp, h1]
      | cons x r => rfl
    rw [run_char_other h5]
    simp only [h5, if_false]
    by_cases h6 : isDigit c
    · simp only [h6, if_true, List.head?_append, List.head?_nil, Option.none_or, run_number h6, Option.some_or]
    have h6 : isDigit c = false := by simpa using h6
    rw [run_number_other h6, hsym]
    simp only [h6, Bool.false_eq_true, if_false, List.nil_append, List.head?_append, head_oper]
    split <;> simp

theorem match_token (s : Str) :
    tokenRgx.match? s = (lexTok s).map fun rest => (s.take (s.length - rest.length), rest) := by
  rw [match?_eq, head_token]

end Scan
end Pip
