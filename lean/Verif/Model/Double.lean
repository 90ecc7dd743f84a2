import Verif.Model.Main
/-!
# Python's floats

The rest of the model leaves the numbers of type `float` abstract (`Ext.F`). This file is the environment in which they are
IEEE 754 binary64 numbers with Python's operations and texts: what the library functions called in ptypes.py and execution.py
compute. The functions of the C library that are not correctly rounded (`exp`, `log`, `pow`, `sin`, ...) stay parameters.

Simplification: there is no negative zero. It differs from zero only in `atan2`, because its text `-0.0` is turned into `0`
(ptypes.py:40-42) and division by either zero raises ZeroDivisionError.
-/

namespace Pip

/-- A float: a finite number, an infinity (negative or not), not a number. -/
inductive Dbl where
  | fin (q : Rat)
  | inf (neg : Bool)
  | nan
  deriving DecidableEq

namespace Dbl

/-! ### Rounding -/

/-- The exponent `e` with `2 ^ e ≤ q < 2 ^ (e + 1)`, for `q > 0` -/
def ilog2 (q : Rat) : Int :=
  let k : Int := (q.num.natAbs.log2 : Int) - (q.den.log2 : Int)
  if (2 : Rat) ^ k ≤ q then k else k - 1

/-- The exponent of the last of the 53 binary digits of a number as large as `q > 0`; that of the subnormal numbers is
-1074. -/
def lastExp (q : Rat) : Int := max (ilog2 q - 52) (-1074)

/-- The nearest integer, the even one of two -/
def nearest (q : Rat) : Int :=
  let f := q.floor
  if q - f < 1 / 2 then f
  else if 1 / 2 < q - f then f + 1
  else if f % 2 = 0 then f else f + 1

/-- The nearest number with 53 binary digits, without regard to overflow -/
def rnd (q : Rat) : Rat :=
  if q = 0 then 0
  else
    let u := (2 : Rat) ^ lastExp (if q < 0 then -q else q)
    nearest (q / u) * u

/-- The bound of the finite numbers -/
def top : Rat := 2 ^ (1024 : Nat)

/-- The float nearest to a number: an infinity from `top` on. -/
def round (q : Rat) : Dbl :=
  if rnd q ≥ top then .inf false else if rnd q ≤ -top then .inf true else .fin (rnd q)

/-- `float(i)` of an int, OverflowError if it is too large; likewise `i / j` of ints, which is correctly rounded. -/
def ofRat (q : Rat) : Except Exc Dbl :=
  match round q with
  | .fin r => .ok (.fin r)
  | _ => .error .overflow

/-! ### Arithmetic -/

def isNeg : Dbl → Bool
  | .fin q => q < 0
  | .inf n => n
  | .nan => false

def neg : Dbl → Dbl
  | .fin q => .fin (-q)
  | .inf n => .inf (!n)
  | .nan => .nan

def abs : Dbl → Dbl
  | .fin q => .fin (if q < 0 then -q else q)
  | .inf _ => .inf false
  | .nan => .nan

def add : Dbl → Dbl → Dbl
  | .fin a, .fin b => round (a + b)
  | .inf m, .inf n => if m = n then .inf m else .nan
  | .inf m, .fin _ => .inf m
  | .fin _, .inf n => .inf n
  | _, _ => .nan

def sub (a b : Dbl) : Dbl := add a (neg b)

/-- The infinity with the sign of a number, not a number for zero -/
def infBy (q : Rat) (n : Bool) : Dbl := if q = 0 then .nan else .inf (decide (q < 0) != n)

def mul : Dbl → Dbl → Dbl
  | .fin a, .fin b => round (a * b)
  | .inf m, .inf n => .inf (m != n)
  | .inf m, .fin q => infBy q m
  | .fin q, .inf n => infBy q n
  | _, _ => .nan

/-- `/`; ZeroDivisionError for a divisor zero -/
def div : Dbl → Dbl → Except Exc Dbl
  | _, .fin 0 => .error .zeroDivision
  | .fin a, .fin b => .ok (round (a / b))
  | .fin _, .inf _ => .ok (.fin 0)
  | .inf m, .fin b => .ok (.inf (m != decide (b < 0)))
  | _, _ => .ok .nan

/-- The integer part, towards zero -/
def truncRat (q : Rat) : Int := if q < 0 then q.ceil else q.floor

/-- C's `fmod`, which is exact -/
def fmod (a b : Rat) : Rat := a - truncRat (a / b) * b

/-- `_float_div_mod` of CPython: `a // b` and `a % b` -/
def divMod : Dbl → Dbl → Except Exc (Dbl × Dbl)
  | _, .fin 0 => .error .zeroDivision
  | .fin a, .fin b =>
    let m := fmod a b
    let m' : Dbl := if m ≠ 0 ∧ (decide (b < 0) != decide (m < 0)) then add (.fin m) (.fin b) else .fin m
    let d : Dbl := match div (sub (.fin a) (.fin m)) (.fin b) with | .ok d => d | .error _ => .nan
    let d : Dbl := if m ≠ 0 ∧ (decide (b < 0) != decide (m < 0)) then sub d (.fin 1) else d
    let d : Dbl := match d with
      | .fin 0 => .fin 0
      | .fin q => if 1 / 2 < q - q.floor then round (q.floor + 1) else .fin q.floor
      | d => d
    .ok (d, m')
  | .fin a, .inf n =>
    if a = 0 then .ok (.fin 0, .fin 0)
    else if decide (a < 0) = n then .ok (.fin 0, .fin a) else .ok (.fin (-1), .inf n)
  | _, _ => .ok (.nan, .nan)

/-- `math.remainder`, which is exact; ValueError for a divisor zero and for infinities -/
def remainder : Dbl → Dbl → Except Exc Dbl
  | .nan, _ => .ok .nan
  | _, .nan => .ok .nan
  | .inf _, _ => .error .valueError
  | _, .fin 0 => .error .valueError
  | .fin a, .fin b => .ok (.fin (a - nearest (a / b) * b))
  | .fin a, .inf _ => .ok (.fin a)

/-- `math.floor`, `math.ceil`, `math.trunc`: OverflowError for infinities, ValueError for not a number -/
def toInt (f : Rat → Int) : Dbl → Except Exc (Num Dbl)
  | .fin q => .ok (.int (f q))
  | .inf _ => .error .overflow
  | .nan => .error .valueError

/-! ### Texts -/

/-- The exponent in the text after `e` -/
def expVal : Str → Int
  | '-' :: ds => -(parseNat ds : Int)
  | '+' :: ds => parseNat ds
  | _ => 0

/-- The number in a text that `pyFloatRgx` matches without the sign -/
def decVal (s : Str) : Rat :=
  let mant := s.takeWhile (· != 'e')
  let ex := expVal ((s.dropWhile (· != 'e')).drop 1)
  let int := mant.takeWhile (· != '.')
  let frac := (mant.dropWhile (· != '.')).drop 1
  (parseNat (int ++ frac) : Rat) * (10 : Rat) ^ (ex - frac.length)

/-- `float(text)` for a text that `pyFloatRgx` matches -/
def parse : Str → Dbl
  | '-' :: s => round (-decVal s)
  | s => round (decVal s)

/-- The number of digits of `q > 0` before the point, negative or zero for small numbers: `k` with
`10 ^ (k - 1) ≤ q < 10 ^ k`. The first argument bounds the number of steps. -/
def decExp : Nat → Rat → Int
  | 0, _ => 0
  | n + 1, q => if 1 ≤ q then decExp n (q / 10) + 1 else if q < 1 / 10 then decExp n (q * 10) - 1 else 0

/-- Does a decimal number read as `q`? -/
def reads (q x : Rat) : Bool := rnd x = q

/-- The decimal number with the last digit at `10 ^ p` that reads as `q > 0` and is nearest to it, the even one of two,
as a multiple of `10 ^ p` -/
def pick (q : Rat) (p : Int) : Option Int :=
  let u := (10 : Rat) ^ p
  let lo := (q / u).floor
  match reads q (lo * u), reads q ((lo + 1 : Int) * u) with
  | true, true => some (nearest (q / u))
  | true, false => some lo
  | false, true => some (lo + 1)
  | false, false => none

/-- The fewest digits that read as `q`: the number `d * 10 ^ p` as a pair. `k` is the number of digits before the point, the
search begins with `n` digits and takes `m` steps. -/
def shortest (q : Rat) (k : Int) : Nat → Nat → Int × Int
  | n, 0 => (nearest (q / (10 : Rat) ^ (k - n)), k - n)
  | n, m + 1 =>
    match pick q (k - n) with
    | some d => (d, k - n)
    | none => shortest q k (n + 1) m

/-- Without zeros at the end. The first argument bounds the number of steps. -/
def dropZeros : Nat → Nat → Int → Nat × Int
  | 0, d, p => (d, p)
  | n + 1, d, p => if d % 10 = 0 ∧ d ≠ 0 then dropZeros n (d / 10) (p + 1) else (d, p)

/-- An exponent with at least two digits -/
def showExp (e : Int) : Str :=
  (if e < 0 then s% "-" else s% "+") ++ (if e.natAbs < 10 then s% "0" else []) ++ showNat e.natAbs

/-- The digits `ds` with the point after `k` of them, in the format of `repr` -/
def layout (ds : Str) (k : Int) : Str :=
  if -4 < k ∧ k ≤ 16 then
    if k ≤ 0 then s% "0." ++ List.replicate (-k).toNat '0' ++ ds
    else if k ≥ ds.length then ds ++ List.replicate (k.toNat - ds.length) '0' ++ s% ".0"
    else ds.take k.toNat ++ s% "." ++ ds.drop k.toNat
  else ds.take 1 ++ (if ds.length = 1 then [] else s% "." ++ ds.drop 1) ++ s% "e" ++ showExp (k - 1)

/-- `str` of a finite number `q > 0`: at most 17 digits -/
def showPos (q : Rat) : Str :=
  let k := decExp 400 q
  let (d, p) := shortest q k 1 16
  let (d, p) := dropZeros 20 d.toNat p
  let ds := showNat d
  layout ds (ds.length + p)

/-- `str(x)` -/
def str : Dbl → Str
  | .fin q => if q = 0 then s% "0.0" else if q < 0 then '-' :: showPos (-q) else showPos q
  | .inf n => if n then s% "-inf" else s% "inf"
  | .nan => s% "nan"

end Dbl

/-! ### Numbers -/

/-- The operand of a float operation: an int is converted. -/
def Num.dbl : Num Dbl → Except Exc Dbl
  | .int i => Dbl.ofRat i
  | .flt f => .ok f

/-- `math.pi` -/
def dblPi : Dbl := .fin (884279719003555 / 281474976710656)

/-- What is not modelled of the C library and of the `random` module: `exp`, `log`, ..., `pow`, `atan2`,
`random.random()` -/
structure Libm (R : Type) where
  fn1 : F1 → Num Dbl → Except Exc (Num Dbl)
  fn2 : F2 → Num Dbl → Num Dbl → Except Exc (Num Dbl)
  random : R → Dbl × R

/-- Unary functions: those that are exact -/
def dblFn1 (g : F1 → Num Dbl → Except Exc (Num Dbl)) : F1 → Num Dbl → Except Exc (Num Dbl)
  | .abs, .flt f => .ok (.flt f.abs)
  | .neg, .flt f => .ok (.flt f.neg)
  | .floor, .flt f => f.toInt Rat.floor
  | .ceil, .flt f => f.toInt Rat.ceil
  | .trunc, .flt f => f.toInt Dbl.truncRat
  | .abs, n => .ok n
  | .neg, n => .ok n
  | .floor, n => .ok n
  | .ceil, n => .ok n
  | .trunc, n => .ok n
  | f, n => g f n

/-- Both operands converted to floats -/
def viaDbl (f : Dbl → Dbl → Except Exc Dbl) (a b : Num Dbl) : Except Exc (Num Dbl) := do
  let x ← a.dbl
  let y ← b.dbl
  return .flt (← f x y)

/-- Binary functions: those that are correctly rounded. `/` of ints rounds the exact quotient. -/
def dblFn2 (g : F2 → Num Dbl → Num Dbl → Except Exc (Num Dbl)) : F2 → Num Dbl → Num Dbl → Except Exc (Num Dbl)
  | .add, a, b => viaDbl (fun x y => .ok (x.add y)) a b
  | .sub, a, b => viaDbl (fun x y => .ok (x.sub y)) a b
  | .mul, a, b => viaDbl (fun x y => .ok (x.mul y)) a b
  | .div, .int a, .int b => if b = 0 then .error .zeroDivision else do return .flt (← Dbl.ofRat ((a : Rat) / b))
  | .div, a, b => viaDbl Dbl.div a b
  | .floordiv, a, b => viaDbl (fun x y => do return (← x.divMod y).1) a b
  | .mod, a, b => viaDbl (fun x y => do return (← x.divMod y).2) a b
  | .remainder, a, b => viaDbl Dbl.remainder a b
  | f, a, b => g f a b

/-- The value of a number for comparisons, which are exact: an infinity is above or below all numbers. `none` for not a
number. -/
inductive Ext3 where
  | below | num (q : Rat) | above

def Num.ext : Num Dbl → Option Ext3
  | .int i => some (.num i)
  | .flt (.fin q) => some (.num q)
  | .flt (.inf n) => some (if n then .below else .above)
  | .flt .nan => none

def Ext3.lt : Ext3 → Ext3 → Bool
  | .num a, .num b => a < b
  | .below, .num _ | .below, .above | .num _, .above => true
  | _, _ => false

def Ext3.le : Ext3 → Ext3 → Bool
  | .num a, .num b => a ≤ b
  | .below, _ | _, .above => true
  | _, _ => false

def Ext3.eq : Ext3 → Ext3 → Bool
  | .num a, .num b => a = b
  | .below, .below | .above, .above => true
  | _, _ => false

def cmpBy (f : Ext3 → Ext3 → Bool) (a b : Num Dbl) : Bool :=
  match a.ext, b.ext with
  | some x, some y => f x y
  | _, _ => false

/-- The environment with Python's floats; everything else is that of `X`. -/
abbrev Ext.withDbl (X : Ext) (L : Libm X.Rng) : Ext :=
  { X with
    F := Dbl
    parse := Dbl.parse
    str := Dbl.str
    trunc := fun f => match f with | .fin q => Dbl.truncRat q | _ => 0
    fn1 := dblFn1 L.fn1
    fn2 := dblFn2 L.fn2
    lt := cmpBy Ext3.lt
    le := cmpBy Ext3.le
    eq := cmpBy Ext3.eq
    pi := dblPi
    random := L.random }

end Pip
