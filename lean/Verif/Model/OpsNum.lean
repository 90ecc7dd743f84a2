import Verif.Model.Types
/-!
# Operators on numbers

The methods of `ProgramState` (execution.py) that compute with numbers and compare values. They neither read nor change
the program state, so they are functions from values to a value or an exception. Optional arguments are `Option`s.
-/

namespace Pip

/-- The result of a method without effects. -/
abbrev E := Except Exc

/-- `try: e except ZeroDivisionError: return nil` -/
def zeroDivNil (e : E Val) : E Val :=
  match e with
  | .error .zeroDivision => .ok .nil
  | r => r

section
variable (X : Ext)

/-- The float one half, written `0.5` in the source. -/
def half : Num X.F := .flt (X.parse (s% "0.5"))

/-! ### Arithmetic -/

/-- execution.py:753-759 -/
def opABS : Val → E Val
  | .scalar s => do return ofNum X (← nabs X (toNum X s))
  | _ => .ok .nil

/-- execution.py:761-768 -/
def opABSOLUTEDIFF : Val → Val → E Val
  | .scalar a, .scalar b => do return ofNum X (← nabs X (← nsub X (toNum X a) (toNum X b)))
  | _, _ => .ok .nil

/-- `Range(lower, upper)` for Python numbers (ptypes.py:484-506): if the second argument is None, the first is the
upper bound. -/
def mkRange (lower : Int) (upper : Option Int) : Val :=
  match upper with
  | some u => .range (some lower) (some u)
  | none => .range none (some lower)

/-- The case Scalar + Range of `ADD` (execution.py:776-785) -/
def addRange (a : Str) (lo hi : Option Int) : E Val :=
  if neq X (toNum X a) (.int (toInt a)) then
    .ok (mkRange (lo0 lo + toInt a) (hi.map (· + toInt a)))
  else
    match hi with
    | some h => do
      let l ← (rangeInts lo h).mapM fun i => do return ofNum X (← nadd X (toNum X a) (toNum X (showInt i)))
      return .list l
    | none => .error .fuel

/-- execution.py:770-793 -/
def opADD : Val → Val → E Val
  | .scalar a, .scalar b => do return ofNum X (← nadd X (toNum X a) (toNum X b))
  | .range lo hi, .scalar a => addRange X a lo hi
  | .scalar a, .range lo hi => addRange X a lo hi
  | .pattern r f, .pattern r' f' => .ok (.pattern (wrapRaw r ++ wrapRaw r') (f.or f'))
  | _, _ => .ok .nil

/-- execution.py:825-838 -/
def opARCTAN : Val → Option Val → E Val
  | .scalar a, none => do return ofNum X (← X.fn1 .atan (toNum X a))
  | .scalar a, some (.scalar b) => do return ofNum X (← X.fn2 .atan2 (toNum X a) (toNum X b))
  | _, _ => .ok .nil

/-- A unary operator on Scalars with positive number (execution.py:939-952, 1191-1204, 2423-2436) -/
def logOp (f : F1) : Val → E Val
  | .scalar a => if nlt X (.int 0) (toNum X a) then do return ofNum X (← X.fn1 f (toNum X a)) else .ok .nil
  | _ => .ok .nil

/-- execution.py:939-952, 1191-1204, 2423-2436 -/
def opBINARYLOG := logOp X .log2
def opDECIMALLOG := logOp X .log10
def opNATURALLOG := logOp X .log

/-- A unary function of the `math` module (execution.py:1165-1170, 1420-1428, 3528-3533, 3930-3935) -/
def mathOp (f : F1) : Val → E Val
  | .scalar a => do return ofNum X (← X.fn1 f (toNum X a))
  | _ => .ok .nil

def opCOSINE := mathOp X .cos
def opEXPONENTIAL := mathOp X .exp
def opSINE := mathOp X .sin
def opTANGENT := mathOp X .tan

/-- `Scalar(1 / math.f(x))`; ZeroDivisionError is not caught (execution.py:1158-1163, 1172-1177, 3472-3477) -/
def recipOp (f : F1) : Val → E Val
  | .scalar a => do return ofNum X (← ndiv X (.int 1) (← X.fn1 f (toNum X a)))
  | _ => .ok .nil

def opCOSEC := recipOp X .sin
def opCOTAN := recipOp X .tan
def opSECANT := recipOp X .cos

/-- The precision of the rounding operators: `some none` is an argument of a wrong type
(execution.py:1040-1045, 1689-1694, 3372-3377, 3401-3406) -/
def precision : Option Val → E (Option (Num X.F))
  | none => .ok (some (.int 1))
  | some (.scalar s) => do return some (← nabs X (toNum X s))
  | some _ => .ok none

/-- execution.py:1038-1062, 1687-1711, 3399-3423, which differ in the rounding function only. -/
def roundOp (r : Num X.F → E (Num X.F)) (lhs : Val) (rhs : Option Val) : E Val := do
  let p ← precision X rhs
  match lhs, p with
  | .scalar a, some p =>
    if neq X p (.int 0) then return .scalar a
    else if neq X p (.int 1) then return ofNum X (← r (toNum X a))
    else return ofNum X (← nmul X (← r (← ndiv X (toNum X a) p)) p)
  | _, _ => return .nil

def opCEIL := roundOp X (nceil X)
def opFLOOR := roundOp X (nfloor X)
def opROUNDZERO := roundOp X (ntrunc X)

/-- execution.py:3370-3397 -/
def opROUNDNEAREST (lhs : Val) (rhs : Option Val) : E Val := do
  let p ← precision X rhs
  match lhs, p with
  | .scalar a, some p =>
    if neq X p (.int 0) then return .scalar a
    else if neq X p (.int 1) then
      let r ← X.fn2 .remainder (toNum X a) (.int 1)
      if nlt X (.int 0) r then return ofNum X (← nfloor X (toNum X a))
      else return ofNum X (← nceil X (toNum X a))
    else return ofNum X (← nsub X (toNum X a) (← X.fn2 .remainder (toNum X a) p))
  | _, _ => return .nil

/-- execution.py:1217-1224 -/
def opDEGREES : Val → E Val
  | .scalar a => do return ofNum X (← nmul X (← ndiv X (toNum X a) (.flt X.pi)) (.int 180))
  | _ => .ok .nil

/-- execution.py:3067-3074 -/
def opRADIANS : Val → E Val
  | .scalar a => do return ofNum X (← nmul X (← ndiv X (toNum X a) (.int 180)) (.flt X.pi))
  | _ => .ok .nil

/-- execution.py:1344-1355 -/
def opDIV : Val → Val → E Val
  | .scalar a, .scalar b => zeroDivNil (do return ofNum X (← ndiv X (toNum X a) (toNum X b)))
  | _, _ => .ok .nil

/-- execution.py:1366-1372 -/
def opDOUBLE : Val → E Val
  | .scalar a => do return ofNum X (← nmul X (toNum X a) (.int 2))
  | _ => .ok .nil

/-- execution.py:1818-1825 -/
def opHALVE : Val → E Val
  | .scalar a => do return ofNum X (← nfloor X (← ndiv X (toNum X a) (.int 2)))
  | _ => .ok .nil

/-- execution.py:1827-1834 -/
def opHALVEUP : Val → E Val
  | .scalar a => do return ofNum X (← nceil X (← ndiv X (toNum X a) (.int 2)))
  | _ => .ok .nil

/-- execution.py:1925-1935 -/
def opINTDIV : Val → Val → E Val
  | .scalar a, .scalar b => zeroDivNil (do return ofNum X (← nfloordiv X (toNum X a) (toNum X b)))
  | _, _ => .ok .nil

/-- execution.py:1937-1947 -/
def opINVERT : Val → E Val
  | .scalar a => zeroDivNil (do return ofNum X (← ndiv X (.int 1) (toNum X a)))
  | _ => .ok .nil

/-- execution.py:2392-2406 -/
def opMOD (lhs : Val) (rhs : Option Val) : E Val :=
  match lhs, rhs.getD (ofInt 2) with
  | .scalar a, .scalar b => zeroDivNil (do return ofNum X (← nmod X (toNum X a) (toNum X b)))
  | _, _ => .ok .nil

/-- `lhs.wrap().repeat(n)` (ptypes.py:228-246) -/
def repeatPattern (raw : Str) (f : Flags) (n : Int) : Val :=
  .pattern (wrapRaw raw ++ s% "{" ++ showInt n ++ s% "}") f

/-- execution.py:2408-2421 -/
def opMUL : Val → Val → E Val
  | .scalar a, .scalar b => do return ofNum X (← nmul X (toNum X a) (toNum X b))
  | .scalar a, .pattern r f => .ok (repeatPattern r f (toInt a))
  | .pattern r f, .scalar a => .ok (repeatPattern r f (toInt a))
  | _, _ => .ok .nil

/-- execution.py:2438-2448 -/
def opNEG : Val → E Val
  | .scalar a => do return ofNum X (← nneg X (toNum X a))
  | .pattern r f => .ok (.pattern r { f with i := !f.i })
  | _ => .ok .nil

/-- execution.py:2912-2923 -/
def opPOS : Val → E Val
  | .scalar a => .ok (ofNum X (toNum X a))
  | .range lo hi => .ok (.range lo hi)
  | .pattern r f => .ok (.pattern (wrapRaw r ++ s% "+") f)
  | _ => .ok .nil

/-- execution.py:2925-2948. A negative number to a fractional power is a complex number in Python; the result is
discarded then. -/
def opPOW (lhs : Val) (rhs : Option Val) : E Val :=
  let (l, r) := match rhs with | none => (ofInt 2, lhs) | some r => (lhs, r)
  match l, r with
  | .scalar a, .scalar b =>
    match npow X (toNum X a) (toNum X b) with
    | .error .zeroDivision => .ok .nil
    | .error e => .error e
    | .ok result =>
      if nlt X (toNum X a) (.int 0) then do
        let t ← ntrunc X (toNum X b)
        if neq X t (toNum X b) then return ofNum X result else return .nil
      else .ok (ofNum X result)
  | _, _ => .ok .nil

/-- execution.py:2950-2964 -/
def opPOWEROFTEN (lhs : Val) (rhs : Option Val) : E Val :=
  let (l, r) := match rhs with | none => (ofInt 1, lhs) | some r => (lhs, r)
  match l, r with
  | .scalar a, .scalar b => do return ofNum X (← nmul X (toNum X a) (← npow X (.int 10) (toNum X b)))
  | _, _ => .ok .nil

/-- execution.py:3347-3368 -/
def opROOT : Val → Val → E Val
  | .scalar a, .scalar b =>
    let l := toNum X a
    let r := toNum X b
    if neq X l (.int 0) then .ok .nil
    else do
      let isRoot ← if nlt X r (.int 0) then do
          let q ← ndiv X (.int 1) l
          let t ← ntrunc X q
          pure (neq X t q)
        else pure true
      if !isRoot then return .nil
      else zeroDivNil (do return ofNum X (← npow X r (← ndiv X (.int 1) l)))
  | _, _ => .ok .nil

/-- execution.py:3515-3526 -/
def opSIGN : Val → E Val
  | .scalar a =>
    if nlt X (toNum X a) (.int 0) then .ok (.scalar (s% "-1"))
    else if nlt X (.int 0) (toNum X a) then .ok (.scalar (s% "1"))
    else .ok (.scalar (s% "0"))
  | _ => .ok .nil

/-- execution.py:3670-3683 -/
def opSQRT : Val → E Val
  | .scalar a =>
    if nlt X (toNum X a) (.int 0) then .ok .nil
    else do return ofNum X (← npow X (toNum X a) (half X))
  | _ => .ok .nil

/-- execution.py:3685-3692 -/
def opSQUARE : Val → E Val
  | .scalar a => do return ofNum X (← nmul X (toNum X a) (toNum X a))
  | _ => .ok .nil

/-- execution.py:3853-3874 -/
def opSUB : Val → Val → E Val
  | .scalar a, .scalar b => do return ofNum X (← nsub X (toNum X a) (toNum X b))
  | .range lo hi, .scalar b => .ok (mkRange (lo0 lo - toInt b) (hi.map (· - toInt b)))
  | .scalar a, .range lo hi =>
    match hi with
    | some h => do
      let l ← (rangeInts lo h).mapM fun i => do return ofNum X (← nsub X (toNum X a) (toNum X (showInt i)))
      return .list l
    | none => .error .fuel
  | _, _ => .ok .nil

end

/-! ### Bits -/

/-- `a & b` of Python ints (two's complement) -/
def intAnd : Int → Int → Int
  | .ofNat m, .ofNat n => .ofNat (m &&& n)
  | .ofNat m, .negSucc n => .ofNat (Nat.bitwise (fun x y => x && !y) m n)
  | .negSucc m, .ofNat n => .ofNat (Nat.bitwise (fun x y => !x && y) m n)
  | .negSucc m, .negSucc n => .negSucc (m ||| n)

/-- `~a` -/
def intNot : Int → Int
  | .ofNat m => .negSucc m
  | .negSucc m => .ofNat m

/-- `a | b` -/
def intOr (a b : Int) : Int := intNot (intAnd (intNot a) (intNot b))

/-- `a ^ b` -/
def intXor : Int → Int → Int
  | .ofNat m, .ofNat n => .ofNat (m ^^^ n)
  | .ofNat m, .negSucc n => .negSucc (m ^^^ n)
  | .negSucc m, .ofNat n => .negSucc (m ^^^ n)
  | .negSucc m, .negSucc n => .ofNat (m ^^^ n)

/-- `a.bit_length()` -/
def bitLength (a : Int) : Nat := if a = 0 then 0 else a.natAbs.log2 + 1

/-- execution.py:954-959 -/
def opBITLENGTH : Val → E Val
  | .scalar a => .ok (ofInt (bitLength (toInt a)))
  | _ => .ok .nil

/-- execution.py:961-968, 978-985, 987-994 -/
def bitOp (f : Int → Int → Int) : Val → Val → E Val
  | .scalar a, .scalar b => .ok (ofInt (f (toInt a) (toInt b)))
  | _, _ => .ok .nil

def opBITWISEAND := bitOp intAnd
def opBITWISEOR := bitOp intOr
def opBITWISEXOR := bitOp intXor

/-- execution.py:970-976 -/
def opBITWISENOT : Val → E Val
  | .scalar a => .ok (ofInt (intNot (toInt a)))
  | _ => .ok .nil

/-! ### Bases -/

/-- What `int()` strips at both ends: white space, except that the separators U+001C-U+001F are not stripped. -/
def intSpace (c : Char) : Bool := isSpace c && !(0x1C ≤ c.toNat && c.toNat ≤ 0x1F)

/-- The value of a digit in `int(text, base)`: decimal digits of any script, then the Latin letters. -/
def baseDigit? (c : Char) : Option Nat :=
  match digitVal? c with
  | some d => some d
  | none =>
    if isLowerAZ c then some (c.toNat - 'a'.toNat + 10)
    else if isUpperAZ c then some (c.toNat - 'A'.toNat + 10)
    else none

/-- The digits of `int(text, base)`; `none` is ValueError. -/
def baseDigits (b : Nat) : Str → Nat → Option Nat
  | [], acc => some acc
  | c :: cs, acc =>
    match baseDigit? c with
    | some d => if d < b then baseDigits b cs (acc * b + d) else none
    | none => none

/-- The optional prefix of bases 2, 8 and 16. -/
def dropPrefix (b : Nat) (s : Str) : Str :=
  match s with
  | '0' :: c :: rest =>
    if (b = 16 ∧ (c = 'x' ∨ c = 'X')) ∨ (b = 8 ∧ (c = 'o' ∨ c = 'O')) ∨ (b = 2 ∧ (c = 'b' ∨ c = 'B')) then rest else s
  | s => s

/-- The optional sign. -/
def takeSign : Str → Bool × Str
  | '-' :: t => (true, t)
  | '+' :: t => (false, t)
  | t => (false, t)

/-- `int(text, base)` for `2 ≤ base ≤ 36` and a text without underscores; `none` is ValueError. -/
def pyIntBase (b : Nat) (s : Str) : Option Int :=
  let t := ((s.dropWhile intSpace).reverse.dropWhile intSpace).reverse
  match dropPrefix b (takeSign t).2 with
  | [] => none
  | ds => (baseDigits b ds 0).map fun n : Nat => if (takeSign t).1 then -(n : Int) else n

/-- `base=None` means 2; `none` is an argument of a wrong type (execution.py:1714-1720, 3948-3955). -/
def baseArg : Option Val → Option Int
  | none => some 2
  | some (.scalar b) => some (toInt b)
  | some _ => none

/-- execution.py:1713-1737 -/
def opFROMBASE (number : Val) (base : Option Val) : E Val :=
  match baseArg base with
  | none => .ok .nil
  | some b =>
    if b < 2 ∨ b > 36 then .ok .nil
    else
      match number with
      | .scalar s =>
        let s := if s.isEmpty then s% "0" else s
        match pyIntBase b.toNat (replaceStr (s% "_") (s% " ") s) with
        | some i => .ok (ofInt i)
        | none => .ok .nil
      | _ => .ok .nil

/-- The alphabet of execution.py:3968 -/
def baseAlphabet : Str := s% "0123456789ABCDEFGHIJKLMNOPQRSTUVWXYZ"

/-- `while number > 0: result = alphabet[number % base] + result; number //= base` (execution.py:3970-3972). The first
argument bounds the number of steps. -/
def toBaseLoop (b : Nat) : Nat → Nat → Str → Str
  | 0, _, acc => acc
  | f + 1, n, acc => if n > 0 then toBaseLoop b f (n / b) (baseAlphabet.getD (n % b) '?' :: acc) else acc

/-- execution.py:3946-3976 -/
def opTOBASE (number : Val) (base : Option Val) : E Val :=
  match baseArg base with
  | none => .ok .nil
  | some b =>
    if b < 2 ∨ b > 36 then .ok .nil
    else
      match number with
      | .scalar s =>
        let n := toInt s
        if n = 0 then .ok (.scalar (s% "0"))
        else
          let sign := if n < 0 then s% "-" else []
          .ok (.scalar (sign ++ toBaseLoop b.toNat n.natAbs n.natAbs []))
      | _ => .ok .nil

/-- `while number > 0: ...; result.insert(0, Scalar(sign * digit))` (execution.py:4001-4004) -/
def toDigitsLoop (b : Nat) (sign : Int) : Nat → Nat → List Val → List Val
  | 0, _, acc => acc
  | f + 1, n, acc => if n > 0 then toDigitsLoop b sign f (n / b) (ofInt (sign * (n % b : Nat)) :: acc) else acc

/-- The part of `TODIGITS` after the check of the base (execution.py:3991-4005) -/
def digitsOf (b : Int) (s : Str) : Val :=
  let n := toInt s
  .list (toDigitsLoop b.toNat (if n < 0 then -1 else 1) n.natAbs n.natAbs [])

mutual
/-- execution.py:3978-4008 -/
def opTODIGITS (base : Option Val) : Val → E Val
  | .list l => do return .list (← opTODIGITSs base l)
  | .range lo (some hi) =>
    match baseArg base with
    | none => .ok (.list ((rangeInts lo hi).map fun _ => .nil))
    | some b => .ok (.list ((rangeInts lo hi).map fun i => if b < 2 then .nil else digitsOf b (showInt i)))
  | .range _ none => .error .fuel
  | .scalar s =>
    match baseArg base with
    | none => .ok .nil
    | some b => if b < 2 then .ok .nil else .ok (digitsOf b s)
  | .pattern _ _ => .ok .nil
  | .block _ _ => .ok .nil
  | .nil => .ok .nil
def opTODIGITSs (base : Option Val) : List Val → E (List Val)
  | [] => .ok []
  | v :: l => do return (← opTODIGITS base v) :: (← opTODIGITSs base l)
end

/-- The loop of `FROMDIGITS` over the reversed digits (execution.py:1750-1757); `none` is a digit that is not a
Scalar. -/
def fromDigitsLoop (X : Ext) (base : Num X.F) : List Val → Nat → Num X.F → E (Option (Num X.F))
  | [], _, acc => .ok (some acc)
  | .scalar d :: l, e, acc => do
    fromDigitsLoop X base l (e + 1) (← nadd X acc (← nmul X (toNum X d) (← npow X base (.int e))))
  | _ :: _, _, _ => .ok none

/-- execution.py:1739-1762 -/
def opFROMDIGITS (X : Ext) (digits : Val) (base : Option Val) : E Val :=
  let b : Option (Num X.F) := match base with
    | none => some (.int 2)
    | some (.scalar b) => some (toNum X b)
    | some _ => none
  match b with
  | none => .ok .nil
  | some b =>
    if digits.isIterable then do
      match ← fromDigitsLoop X b (← digits.pyList).reverse 0 (.int 0) with
      | some r => return ofNum X r
      | none => return .nil
    else .ok .nil

/-! ### Comparisons -/

/-- The first `n` items of a Range as Scalars. -/
def rangeTake (lo hi : Option Int) (n : Nat) : List Val :=
  (intsFrom (lo0 lo) (match hi with | some h => min (h - lo0 lo).toNat n | none => n)).map ofInt

/-- Length of a Range, `none` if infinite. -/
def rangeLen (lo hi : Option Int) : Option Nat := hi.map fun h => (h - lo0 lo).toNat

mutual
/-- `NUMEQUAL` as a Python bool (execution.py:2474-2493) -/
def numEq (X : Ext) : Val → Val → Bool
  | .scalar a, .scalar b => neq X (toNum X a) (toNum X b)
  | .list l, .list l' => l.length == l'.length && numEqs X l l'
  | .list l, .range lo hi =>
    match rangeLen lo hi with
    | some n => l.length == n && numEqs X l (rangeTake lo hi l.length)
    | none => false
  | .range lo hi, .list l' =>
    match rangeLen lo hi with
    | some n => n == l'.length && numEqR X ((rangeTake lo hi l'.length)) l'
    | none => false
  | a, b => pyEq a b
/-- `all(self.NUMEQUAL(i, j) for i, j in zip(lhs, rhs))` -/
def numEqs (X : Ext) : List Val → List Val → Bool
  | a :: l, b :: l' => numEq X a b && numEqs X l l'
  | _, _ => true
/-- The same for a left argument that consists of the Scalars of a Range. -/
def numEqR (X : Ext) : List Val → List Val → Bool
  | .scalar a :: l, .scalar b :: l' => neq X (toNum X a) (toNum X b) && numEqR X l l'
  | a :: l, b :: l' => pyEq a b && numEqR X l l'
  | _, _ => true
end

/-- execution.py:2474-2493 -/
def opNUMEQUAL (X : Ext) (a b : Val) : E Val := .ok (ofBool (numEq X a b))

mutual
/-- `NUMNOTEQUAL` as a Python bool (execution.py:2715-2732) -/
def numNe (X : Ext) : Val → Val → Bool
  | .scalar a, .scalar b => !neq X (toNum X a) (toNum X b)
  | .list l, .list l' => l.length != l'.length || numNes X l l'
  | .list l, .range lo hi =>
    match rangeLen lo hi with
    | some n => l.length != n || numNes X l (rangeTake lo hi l.length)
    | none => true
  | .range lo hi, .list l' =>
    match rangeLen lo hi with
    | some n => n != l'.length || numNeR X ((rangeTake lo hi l'.length)) l'
    | none => true
  | a, b => !pyEq a b
def numNes (X : Ext) : List Val → List Val → Bool
  | a :: l, b :: l' => numNe X a b || numNes X l l'
  | _, _ => false
def numNeR (X : Ext) : List Val → List Val → Bool
  | .scalar a :: l, .scalar b :: l' => !neq X (toNum X a) (toNum X b) || numNeR X l l'
  | a :: l, b :: l' => !pyEq a b || numNeR X l l'
  | _, _ => false
end

/-- execution.py:2715-2732 -/
def opNUMNOTEQUAL (X : Ext) (a b : Val) : E Val := .ok (ofBool (numNe X a b))

/-- Comparison of two Ranges by their bounds (execution.py:2609-2629, 2663-2683); `same` is the result if the bounds
are equal. -/
def rangeLess (same : Bool) (alo ahi blo bhi : Option Int) : Bool :=
  if lo0 alo < lo0 blo then true
  else if lo0 alo > lo0 blo then false
  else if ahi = bhi then same
  else
    match ahi, bhi with
    | none, _ => false
    | _, none => true
    | some a, some b => decide (a < b)

/-- execution.py:2499-2519, 2553-2573 -/
def rangeGreater (same : Bool) (alo ahi blo bhi : Option Int) : Bool :=
  if lo0 alo > lo0 blo then true
  else if lo0 alo < lo0 blo then false
  else if ahi = bhi then same
  else
    match ahi, bhi with
    | none, _ => true
    | _, none => false
    | some a, some b => decide (a > b)

/-- The comparison of lengths of two lists that agree as far as they go; `none` is an infinite Range
(execution.py:2638-2655, 2693-2710) -/
def lenLess (same : Bool) (a b : Option Nat) : Bool :=
  match a, b with
  | none, _ => false
  | _, none => true
  | some m, some n => if same then decide (m ≤ n) else decide (m < n)

/-- execution.py:2528-2545, 2583-2599 -/
def lenGreater (same : Bool) (a b : Option Nat) : Bool :=
  match a, b with
  | none, _ => true
  | _, none => false
  | some m, some n => if same then decide (m ≥ n) else decide (m > n)

mutual
/-- `NUMLESS(a, b)` as a Python bool, or `NUMLESS(b, a)` if the first argument is true (execution.py:2605-2657) -/
def numLess (X : Ext) (swap : Bool) : Val → Val → Bool
  | .scalar a, .scalar b => if swap then nlt X (toNum X b) (toNum X a) else nlt X (toNum X a) (toNum X b)
  | .range alo ahi, .range blo bhi =>
    if swap then rangeLess false blo bhi alo ahi else rangeLess false alo ahi blo bhi
  | .list l, .list l' =>
    (numLesss X swap l l').getD
      (if swap then lenLess false (some l'.length) (some l.length) else lenLess false (some l.length) (some l'.length))
  | .list l, .range lo hi =>
    (numLesss X swap l (rangeTake lo hi l.length)).getD
      (if swap then lenLess false (rangeLen lo hi) (some l.length) else lenLess false (some l.length) (rangeLen lo hi))
  | .range lo hi, .list l' =>
    (numLessR X swap (rangeTake lo hi l'.length) l').getD
      (if swap then lenLess false (some l'.length) (rangeLen lo hi) else lenLess false (rangeLen lo hi) (some l'.length))
  | _, _ => false
/-- The loop over the items (execution.py:2631-2637) -/
def numLesss (X : Ext) (swap : Bool) : List Val → List Val → Option Bool
  | a :: l, b :: l' =>
    if numLess X swap a b then some true else if numLess X (!swap) a b then some false else numLesss X swap l l'
  | _, _ => none
/-- The same for a left argument that consists of the Scalars of a Range. -/
def numLessR (X : Ext) (swap : Bool) : List Val → List Val → Option Bool
  | .scalar a :: l, .scalar b :: l' =>
    let lt := nlt X (toNum X a) (toNum X b)
    let gt := nlt X (toNum X b) (toNum X a)
    if (if swap then gt else lt) then some true
    else if (if swap then lt else gt) then some false
    else numLessR X swap l l'
  | _ :: l, _ :: l' => numLessR X swap l l'
  | _, _ => none
end

/-- execution.py:2605-2657 -/
def opNUMLESS (X : Ext) (a b : Val) : E Val := .ok (ofBool (numLess X false a b))

/-- execution.py:2659-2713: the items of lists are compared with `NUMLESS`. -/
def numLe (X : Ext) : Val → Val → Bool
  | .scalar a, .scalar b => nle X (toNum X a) (toNum X b)
  | .range alo ahi, .range blo bhi => rangeLess true alo ahi blo bhi
  | .list l, .list l' => (numLesss X false l l').getD (lenLess true (some l.length) (some l'.length))
  | .list l, .range lo hi =>
    (numLesss X false l (rangeTake lo hi l.length)).getD (lenLess true (some l.length) (rangeLen lo hi))
  | .range lo hi, .list l' =>
    (numLessR X false (rangeTake lo hi l'.length) l').getD (lenLess true (rangeLen lo hi) (some l'.length))
  | a, b => pyEq a b
def opNUMLESSEQ (X : Ext) (a b : Val) : E Val := .ok (ofBool (numLe X a b))

mutual
/-- `NUMGREATER(a, b)` as a Python bool, or `NUMGREATER(b, a)` if the first argument is true
(execution.py:2495-2547) -/
def numGreater (X : Ext) (swap : Bool) : Val → Val → Bool
  | .scalar a, .scalar b => if swap then nlt X (toNum X a) (toNum X b) else nlt X (toNum X b) (toNum X a)
  | .range alo ahi, .range blo bhi =>
    if swap then rangeGreater false blo bhi alo ahi else rangeGreater false alo ahi blo bhi
  | .list l, .list l' =>
    (numGreaters X swap l l').getD
      (if swap then lenGreater false (some l'.length) (some l.length)
       else lenGreater false (some l.length) (some l'.length))
  | .list l, .range lo hi =>
    (numGreaters X swap l (rangeTake lo hi l.length)).getD
      (if swap then lenGreater false (rangeLen lo hi) (some l.length)
       else lenGreater false (some l.length) (rangeLen lo hi))
  | .range lo hi, .list l' =>
    (numGreaterR X swap (rangeTake lo hi l'.length) l').getD
      (if swap then lenGreater false (some l'.length) (rangeLen lo hi)
       else lenGreater false (rangeLen lo hi) (some l'.length))
  | _, _ => false
def numGreaters (X : Ext) (swap : Bool) : List Val → List Val → Option Bool
  | a :: l, b :: l' =>
    if numGreater X swap a b then some true
    else if numGreater X (!swap) a b then some false else numGreaters X swap l l'
  | _, _ => none
def numGreaterR (X : Ext) (swap : Bool) : List Val → List Val → Option Bool
  | .scalar a :: l, .scalar b :: l' =>
    let gt := nlt X (toNum X b) (toNum X a)
    let lt := nlt X (toNum X a) (toNum X b)
    if (if swap then lt else gt) then some true
    else if (if swap then gt else lt) then some false
    else numGreaterR X swap l l'
  | _ :: l, _ :: l' => numGreaterR X swap l l'
  | _, _ => none
end

/-- execution.py:2495-2547 -/
def opNUMGREATER (X : Ext) (a b : Val) : E Val := .ok (ofBool (numGreater X false a b))

/-- execution.py:2549-2603 -/
def numGe (X : Ext) : Val → Val → Bool
  | .scalar a, .scalar b => nle X (toNum X b) (toNum X a)
  | .range alo ahi, .range blo bhi => rangeGreater true alo ahi blo bhi
  | .list l, .list l' => (numGreaters X false l l').getD (lenGreater true (some l.length) (some l'.length))
  | .list l, .range lo hi =>
    (numGreaters X false l (rangeTake lo hi l.length)).getD (lenGreater true (some l.length) (rangeLen lo hi))
  | .range lo hi, .list l' =>
    (numGreaterR X false (rangeTake lo hi l'.length) l').getD (lenGreater true (rangeLen lo hi) (some l'.length))
  | a, b => pyEq a b
def opNUMGREATEREQ (X : Ext) (a b : Val) : E Val := .ok (ofBool (numGe X a b))

/-- execution.py:2463-2472 -/
def opNUMCMP (X : Ext) (a b : Val) : E Val :=
  .ok (.scalar (if numGreater X false a b then s% "1" else if numLess X false a b then s% "-1" else s% "0"))

mutual
/-- `STREQUAL` as a Python bool (execution.py:3697-3707) -/
def strEq : Val → Val → Bool
  | .scalar a, .scalar b => a == b
  | .scalar a, .pattern b _ => a == b
  | .pattern a _, .scalar b => a == b
  | .pattern a _, .pattern b _ => a == b
  | .list l, .list l' => l.length == l'.length && strEqs l l'
  | a, b => pyEq a b
def strEqs : List Val → List Val → Bool
  | a :: l, b :: l' => strEq a b && strEqs l l'
  | _, _ => true
end
def opSTREQUAL (a b : Val) : E Val := .ok (ofBool (strEq a b))

mutual
/-- `STRNOTEQUAL` as a Python bool (execution.py:3842-3851) -/
def strNe : Val → Val → Bool
  | .scalar a, .scalar b => a != b
  | .list l, .list l' => l.length != l'.length || strNes l l'
  | a, b => !pyEq a b
def strNes : List Val → List Val → Bool
  | a :: l, b :: l' => strNe a b || strNes l l'
  | _, _ => false
end
def opSTRNOTEQUAL (a b : Val) : E Val := .ok (ofBool (strNe a b))

mutual
/-- `STRLESS(a, b)`, or `STRLESS(b, a)` if the first argument is true (execution.py:3792-3810) -/
def strLess (swap : Bool) : Val → Val → Bool
  | .scalar a, .scalar b => if swap then ltStr b a else ltStr a b
  | .list l, .list l' =>
    (strLesss swap l l').getD (if swap then decide (l'.length < l.length) else decide (l.length < l'.length))
  | _, _ => false
def strLesss (swap : Bool) : List Val → List Val → Option Bool
  | a :: l, b :: l' =>
    if strLess swap a b then some true else if strLess (!swap) a b then some false else strLesss swap l l'
  | _, _ => none
end
def opSTRLESS (a b : Val) : E Val := .ok (ofBool (strLess false a b))

/-- execution.py:3812-3830; `<=` on strings is "not greater". -/
def strLe : Val → Val → Bool
  | .scalar a, .scalar b => !ltStr b a
  | .list l, .list l' => (strLesss false l l').getD (decide (l.length ≤ l'.length))
  | a, b => pyEq a b
def opSTRLESSEQ (a b : Val) : E Val := .ok (ofBool (strLe a b))

mutual
/-- `STRGREATER(a, b)`, or `STRGREATER(b, a)` if the first argument is true (execution.py:3709-3727) -/
def strGreater (swap : Bool) : Val → Val → Bool
  | .scalar a, .scalar b => if swap then ltStr a b else ltStr b a
  | .list l, .list l' =>
    (strGreaters swap l l').getD (if swap then decide (l'.length > l.length) else decide (l.length > l'.length))
  | _, _ => false
def strGreaters (swap : Bool) : List Val → List Val → Option Bool
  | a :: l, b :: l' =>
    if strGreater swap a b then some true else if strGreater (!swap) a b then some false else strGreaters swap l l'
  | _, _ => none
end
def opSTRGREATER (a b : Val) : E Val := .ok (ofBool (strGreater false a b))

/-- execution.py:3729-3747 -/
def strGe : Val → Val → Bool
  | .scalar a, .scalar b => !ltStr a b
  | .list l, .list l' => (strGreaters false l l').getD (decide (l.length ≥ l'.length))
  | a, b => pyEq a b
def opSTRGREATEREQ (a b : Val) : E Val := .ok (ofBool (strGe a b))

/-- execution.py:2030-2041; the infinite Range is caught, other types have no length here. -/
def opLEN (v : Val) : E Val :=
  if v.isIterable then
    match v.len with
    | .ok n => .ok (ofInt n)
    | .error _ => .ok .nil
  else .ok .nil

/-- execution.py:2043-2056 -/
def opLENEQUAL (a b : Val) : E Val :=
  if a.isIterable && b.isIterable then
    match a.len, b.len with
    | .ok m, .ok n => .ok (ofBool (m == n))
    | _, _ => .ok (ofBool (a.isInf && b.isInf))
  else .ok .nil

/-- execution.py:2058-2077: the branch for an infinite argument asks for the types only. -/
def opLENGREATER (a b : Val) : E Val :=
  if a.isIterable && b.isIterable then
    match a.len, b.len with
    | .ok m, .ok n => .ok (ofBool (decide (m > n)))
    | _, _ =>
      if !a.isRange then .ok (ofBool false)
      else if !b.isRange then .ok (ofBool true)
      else .ok (ofBool (a.isInf && !b.isInf))
  else .ok .nil

/-- execution.py:2079-2098 -/
def opLENLESS (a b : Val) : E Val :=
  if a.isIterable && b.isIterable then
    match a.len, b.len with
    | .ok m, .ok n => .ok (ofBool (decide (m < n)))
    | _, _ =>
      if !a.isRange then .ok (ofBool true)
      else if !b.isRange then .ok (ofBool false)
      else .ok (ofBool (!a.isInf && b.isInf))
  else .ok .nil

/-- execution.py:2734-2735, 2450-2452 -/
def opOBJEQUAL (a b : Val) : E Val := .ok (ofBool (pyEq a b))
def opNOT (v : Val) : E Val := .ok (ofBool (!v.truthy))

/-- execution.py:3463-3470 -/
def opRVALAND (a b : Val) : E Val := .ok (if a.truthy then b else a)
def opRVALOR (a b : Val) : E Val := .ok (if a.truthy then a else b)
def opRVALIFTE (t a b : Val) : E Val := .ok (if t.truthy then a else b)

/-! ### Extrema -/

/-- Python's `max`: an item replaces the current one if its key is greater (strictly). `none` is TypeError. -/
def maxLoop (X : Ext) : Val → List Val → Option Val
  | m, [] => some m
  | m, v :: l =>
    match keyLt X (m.key X) (v.key X) with
    | some true => maxLoop X v l
    | some false => maxLoop X m l
    | none => none

/-- Python's `min` -/
def minLoop (X : Ext) : Val → List Val → Option Val
  | m, [] => some m
  | m, v :: l =>
    match keyLt X (v.key X) (m.key X) with
    | some true => minLoop X v l
    | some false => minLoop X m l
    | none => none

/-- execution.py:2352-2390 -/
def extremum (loop : Val → List Val → Option Val) (v : Val) : E Val :=
  if v.isIterable then do
    match ← v.items with
    | [] => return .nil
    | m :: l => return (loop m l).getD .nil
  else .ok .nil

def opMAX (X : Ext) := extremum (maxLoop X)
def opMIN (X : Ext) := extremum (minLoop X)

/-! ### Ranges -/

/-- `Range(value, upperVal)` applied to Scalars and nil (ptypes.py:484-506): here a nil upper bound makes an infinite
Range. -/
def rangeOf (lhs rhs : Val) : E Val :=
  let bound : Val → E (Option Int) := fun v =>
    match v with
    | .scalar s => .ok (some (toInt s))
    | .nil => .ok none
    | _ => .error .typeError
  do return .range (← bound lhs) (← bound rhs)

/-- execution.py:3107-3118 -/
def opRANGE : Val → Val → E Val
  | .pattern r f, .pattern r' f' => .ok (.pattern (wrapRaw r ++ s% "|" ++ wrapRaw r') (f.or f'))
  | a, b => if (a.isScalar || a.isNil) && (b.isScalar || b.isNil) then rangeOf a b else .ok .nil

/-- execution.py:3120-3130 -/
def opRANGETO : Val → E Val
  | .scalar s => .ok (.range none (some (toInt s)))
  | .nil => .ok (.range none none)
  | .pattern r f => .ok (.pattern r { f with m := !f.m })
  | _ => .ok .nil

/-- execution.py:1894-1904; `none` is Python's None (the type of the left operand is tested twice, that of the right
one never). -/
def opINCLRANGE (lhs rhs : Val) : E (Option Val) :=
  if lhs.isScalar || lhs.isNil then
    match rhs with
    | .scalar s => do return some (← rangeOf lhs (ofInt (toInt s + 1)))
    | .nil => do return some (← rangeOf lhs .nil)
    | _ => .ok none
  else .ok (some .nil)

/-- execution.py:1906-1914 -/
def opINCLRANGETO : Val → E Val
  | .nil => .ok (.range (some 1) none)
  | .scalar s => .ok (.range (some 1) (some (toInt s + 1)))
  | _ => .ok .nil

end Pip
