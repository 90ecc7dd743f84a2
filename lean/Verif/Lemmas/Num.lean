import Verif.Model.Types
import Verif.Lemmas.Lex
/-! Helper lemmas: decimal texts of integers and the number regexes. -/

set_option linter.unusedSimpArgs false
set_option linter.unusedVariables false

namespace Pip
open Rgx Scan

/-- Value of a list of digits in base `b`. -/
def ofDigits (b : Nat) (l : List Nat) : Nat := l.foldl (fun acc d => acc * b + d) 0

theorem digitsAux_val (b : Nat) (hb : 2 ≤ b) : ∀ f n acc, n < f →
    (digitsAux b f n acc).foldl (fun acc d => acc * b + d) 0 = acc.foldl (fun acc d => acc * b + d) n := by
  intro f
  induction f with
  | zero => intro n acc h; omega
  | succ f ih =>
    intro n acc h
    simp only [digitsAux]
    split
    · simp
    · rename_i hlt
      have h1 : n / b < n := Nat.div_lt_self (by omega) (by omega)
      rw [ih _ _ (by omega)]
      simp only [List.foldl_cons]
      have := Nat.div_add_mod' n b
      rw [this]

theorem ofDigits_natDigits (b n : Nat) (hb : 2 ≤ b) : ofDigits b (natDigits b n) = n := by
  unfold ofDigits natDigits
  rw [digitsAux_val b hb _ _ _ (by omega)]; rfl

theorem digitsAux_lt (b : Nat) (hb : 2 ≤ b) : ∀ f n acc, n < f → (∀ d ∈ acc, d < b) →
    ∀ d ∈ digitsAux b f n acc, d < b := by
  intro f
  induction f with
  | zero => intro n acc h; omega
  | succ f ih =>
    intro n acc h hacc
    simp only [digitsAux]
    split
    · rename_i hlt
      intro d hd
      rcases List.mem_cons.1 hd with rfl | hd
      · exact hlt
      · exact hacc d hd
    · have h1 : n / b < n := Nat.div_lt_self (by omega) (by omega)
      apply ih _ _ (by omega)
      intro d hd
      rcases List.mem_cons.1 hd with rfl | hd
      · exact Nat.mod_lt _ (by omega)
      · exact hacc d hd

theorem natDigits_lt (b n : Nat) (hb : 2 ≤ b) : ∀ d ∈ natDigits b n, d < b :=
  digitsAux_lt b hb _ _ _ (by omega) (by simp)

theorem digitsAux_head (b : Nat) (hb : 2 ≤ b) : ∀ f n acc, n < f →
    ∃ d l, digitsAux b f n acc = d :: l ∧ (0 < n → 0 < d) ∧ (n = 0 → d = 0 ∧ l = acc) := by
  intro f
  induction f with
  | zero => intro n acc h; omega
  | succ f ih =>
    intro n acc h
    simp only [digitsAux]
    split
    · exact ⟨n, acc, rfl, id, fun h => ⟨h, rfl⟩⟩
    · have h1 : n / b < n := Nat.div_lt_self (by omega) (by omega)
      obtain ⟨d, l, e, h2, h3⟩ := ih (n / b) (n % b :: acc) (by omega)
      refine ⟨d, l, e, fun _ => h2 ?_, fun h => by omega⟩
      exact Nat.div_pos (by omega) (by omega)

/-- No leading zero, except for zero itself. -/
theorem natDigits_head (b n : Nat) (hb : 2 ≤ b) :
    ∃ d l, natDigits b n = d :: l ∧ (0 < n → 0 < d) ∧ (n = 0 → d = 0 ∧ l = []) :=
  digitsAux_head b hb _ _ _ (by omega)

theorem digitChar_val {d : Nat} (h : d < 10) : digitVal? (digitChar d) = some d := by
  match d, h with
  | 0, _ | 1, _ | 2, _ | 3, _ | 4, _ | 5, _ | 6, _ | 7, _ | 8, _ | 9, _ => decide

theorem digitChar_digit {d : Nat} (h : d < 10) : isDigit (digitChar d) = true := by
  simp [isDigit, digitChar_val h]

theorem digitVal_digitChar {d : Nat} (h : d < 10) : digitVal (digitChar d) = d := by
  simp [digitVal, digitChar_val h]

theorem showNat_all (n : Nat) : ∀ c ∈ showNat n, isDigit c = true := by
  intro c hc
  unfold showNat at hc
  obtain ⟨d, hd, rfl⟩ := List.mem_map.1 hc
  exact digitChar_digit (natDigits_lt 10 n (by omega) d hd)

theorem showNat_digit09 (n : Nat) : ∀ c ∈ showNat n, isDigit09 c = true := by
  intro c hc
  unfold showNat at hc
  obtain ⟨d, hd, rfl⟩ := List.mem_map.1 hc
  have := natDigits_lt 10 n (by omega) d hd
  match d, this with
  | 0, _ | 1, _ | 2, _ | 3, _ | 4, _ | 5, _ | 6, _ | 7, _ | 8, _ | 9, _ => decide

theorem showNat_ne (n : Nat) : showNat n ≠ [] := by
  obtain ⟨d, l, e, -⟩ := natDigits_head 10 n (by omega)
  simp [showNat, e]

theorem parseNat_showNat (n : Nat) : parseNat (showNat n) = n := by
  unfold parseNat showNat
  rw [List.foldl_map]
  have h := ofDigits_natDigits 10 n (by omega)
  unfold ofDigits at h
  have key : ∀ (l : List Nat) (a : Nat), (∀ d ∈ l, d < 10) →
      l.foldl (fun acc d => acc * 10 + digitVal (digitChar d)) a = l.foldl (fun acc d => acc * 10 + d) a := by
    intro l
    induction l with
    | nil => intros; rfl
    | cons d l ih =>
      intro a hl
      simp only [List.foldl_cons]
      rw [digitVal_digitChar (hl d (by simp)), ih _ (fun x hx => hl x (by simp [hx]))]
  rw [key _ _ (natDigits_lt 10 n (by omega)), h]

/-! ### The number regexes -/

theorem isDigit_space {c : Char} (h : isDigit c = true) : isSpace c = false := by
  have key : ∀ z ∈ digitZeros, ∀ k, k < 10 → z + k = c.toNat → isSpace c = false := by
    intro z hz k hk e
    have : isSpace c = (let n := z + k
      (0x09 ≤ n && n ≤ 0x0D) || (0x1C ≤ n && n ≤ 0x20) || n == 0x85 || n == 0xA0 || n == 0x1680 ||
      (0x2000 ≤ n && n ≤ 0x200A) || n == 0x2028 || n == 0x2029 || n == 0x202F || n == 0x205F || n == 0x3000) := by
      rw [e]; rfl
    rw [this]
    clear this e
    have all : ∀ z ∈ digitZeros, ∀ k, k < 10 → (let n := z + k
      (0x09 ≤ n && n ≤ 0x0D) || (0x1C ≤ n && n ≤ 0x20) || n == 0x85 || n == 0xA0 || n == 0x1680 ||
      (0x2000 ≤ n && n ≤ 0x200A) || n == 0x2028 || n == 0x2029 || n == 0x202F || n == 0x205F || n == 0x3000)
      = false := by decide +kernel
    exact all z hz k hk
  unfold isDigit digitVal? at h
  cases hf : digitZeros.find? (fun z => decide (z ≤ c.toNat) && decide (c.toNat < z + 10)) with
  | none => rw [hf] at h; simp at h
  | some z =>
    have h1 := List.find?_some hf
    have h2 := List.mem_of_find?_eq_some hf
    simp only [Bool.and_eq_true, decide_eq_true_eq] at h1
    exact key z h2 (c.toNat - z) (by omega) (by omega)

theorem run_int_digits {s : Str} {c : Char} (h : isDigit c = true) :
    (intRgx.run (c :: s)).head? = some (s.dropWhile isDigit) := by
  have hm : (c == '-') = false := by
    simpa using digit_ne h '-' (by decide)
  unfold intRgx Rgx.opt Rgx.plus
  simp only [run_seq, run_alt, run_lit_cons, hm, Rgx.run_chr_cons, h, if_true, run_eps, Bool.false_eq_true, if_false,
    List.nil_append, List.flatMap_cons, List.flatMap_nil, List.append_nil, Rgx.run_star_chr_head]

theorem run_int_minus {s : Str} {c : Char} (h : isDigit c = true) :
    (intRgx.run ('-' :: c :: s)).head? = some (s.dropWhile isDigit) := by
  unfold intRgx Rgx.opt Rgx.plus
  simp only [run_seq, run_alt, run_lit_cons, Rgx.run_chr_cons, h, if_true, run_eps, beq_self_eq_true,
    List.nil_append, List.flatMap_cons, List.flatMap_nil, List.append_nil, List.cons_append, List.head?_append,
    Rgx.run_star_chr_head, Option.some_or]

theorem run_int_none {s : Str} (h : ∀ c r, s = c :: r → c ≠ '-' ∧ isDigit c = false) : intRgx.run s = [] := by
  unfold intRgx Rgx.opt Rgx.plus
  cases s with
  | nil => simp [run_seq, run_alt, run_lit_nil, run_eps]
  | cons c r =>
    obtain ⟨h1, h2⟩ := h c r rfl
    have : (c == '-') = false := by simpa using h1
    simp [run_seq, run_alt, run_lit_cons, this, run_eps, Rgx.run_chr_cons, h2]

theorem dropWhile_all {p : Char → Bool} {s : Str} (h : ∀ c ∈ s, p c = true) : s.dropWhile p = [] := by
  induction s with
  | nil => rfl
  | cons c s ih => simp [List.dropWhile_cons, h c (by simp), ih (fun x hx => h x (by simp [hx]))]

theorem match_int_digits {s : Str} (hne : s ≠ []) (h : ∀ c ∈ s, isDigit c = true) :
    intRgx.match? s = some (s, []) := by
  cases s with
  | nil => exact absurd rfl hne
  | cons c r =>
    rw [Rgx.match?_eq, run_int_digits (h c (by simp)), dropWhile_all (fun x hx => h x (by simp [hx]))]
    simp

theorem match_int_neg {s : Str} (hne : s ≠ []) (h : ∀ c ∈ s, isDigit c = true) :
    intRgx.match? ('-' :: s) = some ('-' :: s, []) := by
  cases s with
  | nil => exact absurd rfl hne
  | cons c r =>
    rw [Rgx.match?_eq, run_int_minus (h c (by simp)), dropWhile_all (fun x hx => h x (by simp [hx]))]
    simp

theorem pyFloat_noEol : pyFloatRgx.noEol := by
  simp [pyFloatRgx, expRgx, Rgx.noEol, Rgx.opt, Rgx.plus, Rgx.lit, Rgx.cls, Rgx.alts]

theorem lang_lit {a : Char} {w : Str} (h : (Rgx.lit a).Lang w) : w = [a] := by
  unfold Rgx.lit at h
  cases h with
  | chr h => simp at h; rw [h]

/-- Everything the float regex matches contains a dot or an `e`. -/
theorem lang_pyFloat {w : Str} (h : pyFloatRgx.Lang w) : '.' ∈ w ∨ 'e' ∈ w := by
  unfold pyFloatRgx at h
  cases h with
  | seq h1 h2 =>
    simp only [Rgx.alts] at h2
    cases h2 with
    | altL h2 =>
      cases h2 with
      | seq _ h2 => cases h2 with
        | seq h2 _ => have := lang_lit h2; subst this; simp
    | altR h2 =>
      cases h2 with
      | altL h2 =>
        cases h2 with
        | seq _ h2 =>
          unfold expRgx at h2
          cases h2 with
          | seq h2 _ => have := lang_lit h2; subst this; simp
      | altR h2 =>
        cases h2 with
        | seq h2 _ => have := lang_lit h2; subst this; simp

theorem match_pyFloat_none {s : Str} (h1 : '.' ∉ s) (h2 : 'e' ∉ s) : pyFloatRgx.match? s = none := by
  rw [Rgx.match?_none]
  cases hr : pyFloatRgx.run s with
  | nil => rfl
  | cons r l =>
    have : r ∈ pyFloatRgx.run s := by rw [hr]; simp
    obtain ⟨w, e, hw⟩ := (Rgx.mem_run pyFloat_noEol s r).1 this
    rcases lang_pyFloat hw with h | h
    · exact absurd (by rw [e]; simp [h]) h1
    · exact absurd (by rw [e]; simp [h]) h2

theorem showNat_cons (n : Nat) : ∃ c r, showNat n = c :: r ∧ isDigit c = true := by
  cases h : showNat n with
  | nil => exact absurd h (showNat_ne n)
  | cons c r => exact ⟨c, r, rfl, showNat_all n c (by rw [h]; simp)⟩

theorem showInt_neg (n : Nat) : showInt (Int.negSucc n) = '-' :: showNat (n + 1) := rfl
theorem showInt_nat (n : Nat) : showInt (n : Int) = showNat n := rfl

theorem lstrip_showInt (i : Int) : lstrip (showInt i) = showInt i := by
  unfold lstrip
  cases i with
  | ofNat n =>
    obtain ⟨c, r, e, h⟩ := showNat_cons n
    show (showNat n).dropWhile isSpace = showNat n
    rw [e, List.dropWhile_cons, isDigit_space h]; rfl
  | negSucc n =>
    rw [showInt_neg, List.dropWhile_cons]
    rfl

theorem match_int_showInt (i : Int) : intRgx.match? (showInt i) = some (showInt i, []) := by
  cases i with
  | ofNat n => exact match_int_digits (showNat_ne n) (showNat_all n)
  | negSucc n => exact match_int_neg (showNat_ne _) (showNat_all _)

theorem digit09_not (c : Char) (h : isDigit09 c = true) : c ≠ '.' ∧ c ≠ 'e' ∧ c ≠ '-' := by
  refine ⟨?_, ?_, ?_⟩ <;> (rintro rfl; revert h; decide)

theorem showInt_chars (i : Int) : ∀ c ∈ showInt i, isDigit09 c = true ∨ c = '-' := by
  cases i with
  | ofNat n => intro c hc; exact .inl (showNat_digit09 n c hc)
  | negSucc n =>
    intro c hc
    rcases List.mem_cons.1 hc with rfl | hc
    · exact .inr rfl
    · exact .inl (showNat_digit09 _ c hc)

theorem match_float_showInt (i : Int) : pyFloatRgx.match? (showInt i) = none := by
  apply match_pyFloat_none
  · intro h
    rcases showInt_chars i _ h with h | h
    · exact (digit09_not _ h).1 rfl
    · exact absurd h (by decide)
  · intro h
    rcases showInt_chars i _ h with h | h
    · exact (digit09_not _ h).2.1 rfl
    · exact absurd h (by decide)

theorem parseInt_showInt (i : Int) : parseInt (showInt i) = i := by
  cases i with
  | ofNat n =>
    obtain ⟨c, r, e, h⟩ := showNat_cons n
    show parseInt (showNat n) = _
    have h2 : parseInt (showNat n) = parseNat (showNat n) := by
      rw [e]
      unfold parseInt
      split
      · rename_i heq
        cases heq
        exact absurd h (by decide)
      · rfl
    rw [h2, parseNat_showNat]; rfl
  | negSucc n =>
    rw [showInt_neg]
    show -(parseNat (showNat (n + 1)) : Int) = _
    rw [parseNat_showNat]
    rfl

theorem toInt_showInt (i : Int) : toInt (showInt i) = i := by
  unfold toInt
  rw [lstrip_showInt, match_int_showInt]
  exact parseInt_showInt i

theorem toNum_showInt (X : Ext) (i : Int) : toNum X (showInt i) = .int i := by
  unfold toNum
  rw [lstrip_showInt, match_float_showInt, match_int_showInt]
  simp only
  rw [parseInt_showInt]

theorem showInt_inj {i j : Int} (h : showInt i = showInt j) : i = j := by
  rw [← parseInt_showInt i, h, parseInt_showInt]

end Pip
