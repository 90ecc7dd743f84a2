import Verif.Lemmas.Pieces
import Verif.Lemmas.Num
import Verif.Spec.Data
/-! The texts of Scalars: which of them are numbers, and how they are scanned. -/

set_option linter.unusedSimpArgs false

namespace Pip
open Rgx Scan

theorem digits_split {a b : Str} {c : Char} (ha : ∀ x ∈ a, isDigit x = true) (hc : isDigit c = false) :
    (a ++ c :: b).dropWhile isDigit = c :: b := by
  induction a with
  | nil => simp [hc]
  | cons x a ih =>
    rw [List.cons_append, List.dropWhile_cons, if_pos (ha x (by simp))]
    exact ih fun y hy => ha y (by simp [hy])

theorem dropWhile_eq_nil {p : Char → Bool} {s : Str} (h : s.dropWhile p = []) : ∀ c ∈ s, p c = true := by
  induction s with
  | nil => simp
  | cons d s ih =>
    rw [List.dropWhile_cons] at h
    split at h
    · rename_i hd
      intro c hc
      rcases List.mem_cons.1 hc with rfl | hc
      · exact hd
      · exact ih h c hc
    · cases h

theorem digit_dot : isDigit '.' = false := by decide

/-- A number literal, as the scanner sees it -/
theorem numLit_iff (s : Str) : NumLit s ↔ ∃ c cs, s = c :: cs ∧ isDigit c = true ∧ lexNum cs = [] := by
  constructor
  · rintro (⟨hne, hd⟩ | ⟨a, b, ⟨hna, ha⟩, ⟨hnb, hb⟩, rfl⟩)
    · cases s with
      | nil => exact absurd rfl hne
      | cons c cs =>
        refine ⟨c, cs, rfl, hd c (by simp), ?_⟩
        have e : cs.dropWhile isDigit = [] := Pip.dropWhile_all fun x hx => hd x (by simp [hx])
        unfold lexNum
        rw [e]
    · cases a with
      | nil => exact absurd rfl hna
      | cons c cs =>
        cases b with
        | nil => exact absurd rfl hnb
        | cons d ds =>
          refine ⟨c, cs ++ '.' :: d :: ds, rfl, ha c (by simp), ?_⟩
          rw [lexNum_frac (digits_split (fun x hx => ha x (by simp [hx])) digit_dot) (hb d (by simp))]
          exact Pip.dropWhile_all fun x hx => hb x (by simp [hx])
  · rintro ⟨c, cs, rfl, hc, hl⟩
    obtain ⟨t, ht, hta⟩ := split_drop isDigit cs
    have hta' : ∀ x ∈ t, isDigit x = true := by simpa using hta
    have hct : Digits (c :: t) := ⟨by simp, by
      intro x hx
      rcases List.mem_cons.1 hx with rfl | hx
      · exact hc
      · exact hta' x hx⟩
    unfold lexNum at hl
    split at hl
    · rename_i d ds e
      split at hl
      · rename_i hd
        right
        refine ⟨c :: t, d :: ds, hct, ⟨by simp, ?_⟩, by rw [e] at ht; rw [ht]; rfl⟩
        intro x hx
        rcases List.mem_cons.1 hx with rfl | hx
        · exact hd
        · exact dropWhile_eq_nil hl x hx
      · simp at hl
    · rw [hl] at ht
      left
      rw [ht, List.append_nil]
      exact hct

/-- `\d+\.\d+` -/
def floatBody : Rgx := .seq (Rgx.plus (.chr isDigit)) (.seq (Rgx.lit '.') (Rgx.plus (.chr isDigit)))

theorem run_floatBody {c : Char} (cs : Str) (h : isDigit c = true) : (floatBody.run (c :: cs)).head? =
    (match cs.dropWhile isDigit with
    | '.' :: d :: ds => if isDigit d then some (ds.dropWhile isDigit) else none
    | _ => none) := by
  have e : floatBody.run (c :: cs) =
      (Rgx.seq (.star (.chr isDigit)) (.seq (Rgx.lit '.') (Rgx.plus (.chr isDigit)))).run cs := by
    unfold floatBody
    simp only [run_seq, Rgx.plus, run_chr_cons, h, if_true, List.flatMap_cons, List.flatMap_nil, List.append_nil]
  rw [e, run_star_chr_seq]
  · cases hd : cs.dropWhile isDigit with
    | nil => rfl
    | cons d ds =>
      simp only [run_seq, run_lit_cons]
      by_cases hdot : d = '.'
      · subst hdot
        simp only [beq_self_eq_true, if_true, List.flatMap_cons, List.flatMap_nil, List.append_nil]
        cases ds with
        | nil => rfl
        | cons e es =>
          by_cases he : isDigit e
          · simp only [run_seq, Rgx.plus, run_chr_cons, he, if_true, List.flatMap_cons, List.flatMap_nil,
              List.append_nil, run_star_chr_head]
          · simp [run_seq, Rgx.plus, run_chr_cons, he]
      · have : (d == '.') = false := by simpa using hdot
        simp only [this, Bool.false_eq_true, if_false, List.flatMap_nil, List.head?_nil]
        split
        · rename_i h; simp at h; exact absurd h.1 hdot
        · rfl
  · intro d ds hd
    have : (d == '.') = false := by simpa using digit_ne hd '.' digit_dot
    simp [run_seq, run_lit_cons, this]

theorem run_floatBody_other (s : Str) (h : ∀ c r, s = c :: r → isDigit c = false) : floatBody.run s = [] := by
  cases s with
  | nil => rfl
  | cons c cs => simp [floatBody, run_seq, Rgx.plus, run_chr_cons, h c cs rfl]

theorem run_pipFloat_minus (s : Str) : pipFloatRgx.run ('-' :: s) = floatBody.run s := by
  have : pipFloatRgx.run ('-' :: s) = floatBody.run s ++ floatBody.run ('-' :: s) := by
    simp [pipFloatRgx, floatBody, run_seq, Rgx.opt, run_alt, run_lit_cons, run_eps]
  rw [this, run_floatBody_other ('-' :: s), List.append_nil]
  intro c r h; simp at h; rw [← h.1]; decide

theorem run_pipFloat_plain (s : Str) (h : s.head? ≠ some '-') : pipFloatRgx.run s = floatBody.run s := by
  cases s with
  | nil => rfl
  | cons c cs =>
    have : (c == '-') = false := by simpa using h
    simp [pipFloatRgx, floatBody, run_seq, Rgx.opt, run_alt, run_lit_cons, run_eps, this]

/-- The test in `Scalar.__repr__` -/
def wholeNum (s : Str) : Bool :=
  match (pipFloatRgx.match? s).or (intRgx.match? s) with
  | some (_, rest) => rest.isEmpty
  | none => false

theorem reprScalar_eq (s : Str) : reprScalar s =
    if wholeNum s then s
    else if s.elem '"' then s% "\\\"" ++ replaceStr (s% "\\") (s% "\\\\") s ++ s% "\\\""
    else s% "\"" ++ s ++ s% "\"" := rfl

theorem whole_aux {m m' : Option Str} {f : Str → Str} {g : Str → Str} :
    (match ((m.map fun rest => (f rest, rest)).or (m'.map fun rest => (g rest, rest)) : Option (Str × Str)) with
    | some (_, rest) => rest.isEmpty
    | none => false) = (m.or m').any (·.isEmpty) := by
  cases m <;> cases m' <;> rfl

theorem wholeNum_eq (s : Str) : wholeNum s =
    ((pipFloatRgx.run s).head?.or (intRgx.run s).head?).any (·.isEmpty) := by
  unfold wholeNum
  rw [match?_eq, match?_eq]
  exact whole_aux

/-- After a digit -/
theorem whole_digits (cs : Str) :
    ((match cs.dropWhile isDigit with
      | '.' :: d :: ds => if isDigit d then some (ds.dropWhile isDigit) else none
      | _ => none).or (some (cs.dropWhile isDigit)) : Option Str).any (·.isEmpty) = (lexNum cs).isEmpty := by
  unfold lexNum
  split
  · rename_i d ds e
    split
    · simp [*]
    · simp [*]
  · rename_i e
    simp

theorem wholeNum_iff (s : Str) : wholeNum s = true ↔ NumLit s ∨ NegLit s := by
  rw [wholeNum_eq]
  cases s with
  | nil =>
    constructor
    · intro h; exact absurd h (by decide)
    · rintro (h | ⟨r, h, _⟩)
      · obtain ⟨c, cs, h, _⟩ := (numLit_iff _).1 h; cases h
      · cases h
  | cons c cs =>
    by_cases hm : c = '-'
    · subst hm
      rw [run_pipFloat_minus]
      have hno : ¬ NumLit ('-' :: cs) := by
        intro h
        obtain ⟨d, ds, h, h1, _⟩ := (numLit_iff _).1 h
        simp at h; rw [← h.1] at h1; exact absurd h1 (by decide)
      have hneg : NegLit ('-' :: cs) ↔ NumLit cs := by
        constructor
        · rintro ⟨r, h, h1⟩; simp at h; rw [h]; exact h1
        · intro h; exact ⟨cs, rfl, h⟩
      rw [hneg]
      cases cs with
      | nil =>
        constructor
        · intro h; exact absurd h (by decide)
        · rintro (h | h)
          · exact absurd h hno
          · obtain ⟨c, cs, h, _⟩ := (numLit_iff _).1 h; cases h
      | cons d ds =>
        by_cases hd : isDigit d = true
        · rw [run_floatBody ds hd, run_int_minus hd, whole_digits]
          constructor
          · intro h; right; exact (numLit_iff _).2 ⟨d, ds, rfl, hd, by simpa using h⟩
          · rintro (h | h)
            · exact absurd h hno
            · obtain ⟨c, cs, h, _, h2⟩ := (numLit_iff _).1 h
              simp at h; rw [h.2, h2]; rfl
        · have hd : isDigit d = false := by simpa using hd
          have e1 : intRgx.run ('-' :: d :: ds) = [] := by
            unfold intRgx Rgx.opt Rgx.plus
            simp [run_seq, run_alt, run_lit_cons, run_eps, run_chr_cons, hd, show isDigit '-' = false by decide]
          rw [run_floatBody_other (d :: ds) (fun c r h => by simp at h; rw [← h.1]; exact hd), e1]
          constructor
          · intro h; simp at h
          · rintro (h | h)
            · exact absurd h hno
            · obtain ⟨c, cs, h, h1, _⟩ := (numLit_iff _).1 h
              simp at h; rw [← h.1, hd] at h1; cases h1
    · rw [run_pipFloat_plain _ (by simpa using hm)]
      have hnn : ¬ NegLit (c :: cs) := by rintro ⟨r, h, _⟩; simp at h; exact hm h.1
      by_cases hd : isDigit c = true
      · rw [run_floatBody cs hd, run_int_digits hd, whole_digits]
        constructor
        · intro h; left; exact (numLit_iff _).2 ⟨c, cs, rfl, hd, by simpa using h⟩
        · rintro (h | h)
          · obtain ⟨d, ds, h, _, h2⟩ := (numLit_iff _).1 h
            simp at h; rw [h.2, h2]; rfl
          · exact absurd h hnn
      · have hd : isDigit c = false := by simpa using hd
        rw [run_floatBody_other (c :: cs) (fun x r h => by simp at h; rw [← h.1]; exact hd),
          run_int_none (fun x r h => by simp at h; rw [← h.1]; exact ⟨hm, hd⟩)]
        constructor
        · intro h; simp at h
        · rintro (h | h)
          · obtain ⟨d, ds, h, h1, _⟩ := (numLit_iff _).1 h
            simp at h; rw [← h.1, hd] at h1; cases h1
          · exact absurd h hnn

end Pip
