import Verif.Spec.Floats
/-!
# How floats are written

Which decimal numbers have few digits, and the form in which a decimal number is written. This does not use the functions
of the model that compute the digits.
-/

namespace Pip.Floats

/-- A number that can be written with `n` digits, not counting zeros at either end -/
def HasDigits (n : ℕ) (v : ℚ) : Prop := ∃ (d : ℕ) (p : ℤ), d < 10 ^ n ∧ |v| = d * 10 ^ p

/-- The usual form of a number that is no integer or has an exponent: no zeros at the end of the fraction. From `0.0001` and
below `10 ^ 16` there is no exponent, and no zero in front except before the point. Other numbers have one digit before the
point, which is not zero, and an exponent of two digits or of more that do not begin with zero. -/
structure Decimal.Usual (d : Decimal) : Prop where
  ok : d.Ok
  last : ∀ f, d.frac = some f → f.getLast?.any (· ≠ 0) = true
  positional : d.exp = none → 1 / 10 ^ 4 ≤ |d.value| ∧ |d.value| < 10 ^ 16 ∧ d.frac ≠ none ∧ (d.int = [0] ∨ d.int.head? ≠ some 0)
  scientific : ∀ s e, d.exp = some (s, e) → (|d.value| < 1 / 10 ^ 4 ∨ 10 ^ 16 ≤ |d.value|) ∧ d.int.length = 1 ∧ d.int ≠ [0] ∧
    2 ≤ e.length ∧ (2 < e.length → e.head? ≠ some 0)

end Pip.Floats
