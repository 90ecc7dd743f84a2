import Verif.Model.Double
import Mathlib.Data.Rat.Floor
import Mathlib.Algebra.Order.Field.Power
import Mathlib.Data.Nat.Digits.Defs
/-!
# What a float is

Specifications for the properties about floats: which numbers are floats, which float is the nearest, which number a
value has. They do not use the rounding functions of the model.
-/

namespace Pip.Floats

/-- The finite binary64 numbers: 53 binary digits, exponents from -1074, below `2 ^ 1024` -/
def IsFloat (x : ℚ) : Prop := (∃ m e : ℤ, |m| ≤ 2 ^ 53 ∧ -1074 ≤ e ∧ x = m * 2 ^ e) ∧ |x| < 2 ^ 1024

/-- `r` is the float that IEEE 754 prescribes for the exact result `x`: no float is nearer, and if another one is as near,
`r` is the one of the two with an even last digit (the distance of the two is `2 * |x - r|`). -/
def Rounded (x r : ℚ) : Prop :=
  IsFloat r ∧ (∀ y, IsFloat y → |x - r| ≤ |x - y|) ∧
  ∀ y, IsFloat y → y ≠ r → |x - y| = |x - r| → ∃ k : ℤ, r = 2 * k * (2 * |x - r|)

/-- Exact results from here on are infinite: half the last digit above the largest float. -/
def Overflow (x : ℚ) : Prop := 2 ^ 1024 - 2 ^ 970 ≤ |x|

/-- The number that a Scalar stands for: `p` -/
def Stands (X : Ext) (L : Libm X.Rng) (s : Str) (p : ℚ) : Prop :=
  (∃ i : ℤ, toNum (X.withDbl L) s = .int i ∧ p = i) ∨ toNum (X.withDbl L) s = .flt (.fin p)

/-- The Scalar is no integer for Pip (it has a point or an exponent). -/
def IsPoint (X : Ext) (s : Str) : Prop := ∃ f, toNum X s = .flt f

/-- The digits of a text, the number they denote -/
def digits (l : List ℕ) : Str := l.map digitChar
def denotes (l : List ℕ) : ℕ := Nat.ofDigits 10 l.reverse

/-- A number written in decimal: the digits before the point, those after it (`none`: no point), the exponent with its sign
(`none`: no exponent) -/
structure Decimal where
  neg : Bool
  int : List ℕ
  frac : Option (List ℕ)
  exp : Option (Bool × List ℕ)

/-- There is a digit in front, there is a point or an exponent, and an exponent has a digit. -/
structure Decimal.Ok (d : Decimal) : Prop where
  int : d.int ≠ []
  digits : ∀ x ∈ d.int ++ d.frac.getD [] ++ ((d.exp.map (·.2)).getD []), x < 10
  float : d.frac ≠ none ∨ d.exp ≠ none
  exp : ∀ s l, d.exp = some (s, l) → l ≠ []

def Decimal.text (d : Decimal) : Str :=
  (if d.neg then ['-'] else []) ++ (digits d.int ++ ((d.frac.elim [] fun f => '.' :: digits f) ++
    d.exp.elim [] fun e => 'e' :: (if e.1 then '-' else '+') :: digits e.2))

def Decimal.value (d : Decimal) : ℚ :=
  (if d.neg then -1 else 1) * (denotes (d.int ++ d.frac.getD []) : ℚ) * 10 ^ (-((d.frac.getD []).length : ℤ)) *
    10 ^ (d.exp.elim (0 : ℤ) fun e => if e.1 then -(denotes e.2 : ℤ) else denotes e.2)

end Pip.Floats
