import Verif.Model.Repr
/-!
# Methods of the Pip types

Transcription of ptypes.py, over an abstract environment `Ext` standing for what is not modelled: floating point
numbers, the `re` module applied to patterns of the running program, Unicode case conversion, the random number
generator. Nothing is assumed about these parameters.
-/

namespace Pip

/-- A Python number: int or float. -/
inductive Num (F : Type) where
  | int (i : Int)
  | flt (f : F)

/-- Unary float functions of the `math` module and of Python. -/
inductive F1 where
  | abs | neg | floor | ceil | trunc | exp | log | log2 | log10 | sin | cos | tan | atan
  deriving DecidableEq, Repr

/-- Binary operations on numbers. -/
inductive F2 where
  | add | sub | mul | div | floordiv | mod | pow | atan2 | remainder
  deriving DecidableEq, Repr

/-- A match object, as far as execution.py:442-476 uses it: `start()`, `end()`, `groups()` (the first group is the
whole match), `regs[2:]`. -/
structure Match where
  start : Nat
  stop : Nat
  all : Str
  groups : List (Option Str)
  regs : List (Int × Int)
  deriving DecidableEq, Repr

/-- How lists are turned into text (ptypes.py:304-313): the command-line flags. -/
inductive Fmt where
  | none | n | p | s | l | P | S
  deriving DecidableEq, Repr

/-- The environment. -/
structure Ext where
  /-- Python floats -/
  F : Type
  /-- `float(text)` -/
  parse : Str → F
  /-- `str(x)` -/
  str : F → Str
  /-- `int(x)` of a float whose text ends in `.0` -/
  trunc : F → Int
  fn1 : F1 → Num F → Except Exc (Num F)
  /-- used if an operand is a float, and for operations on ints that give floats -/
  fn2 : F2 → Num F → Num F → Except Exc (Num F)
  /-- `<`, `<=`, `==` of numbers, used if an operand is a float -/
  lt : Num F → Num F → Bool
  le : Num F → Num F → Bool
  eq : Num F → Num F → Bool
  pi : F
  /-- `Pattern(raw, flags).asRegex().finditer(string)` -/
  finditer : Str → Flags → Str → Except Exc (List Match)
  /-- `Pattern(raw, flags).asRegex().search(string)` -/
  search : Str → Flags → Str → Except Exc (Option Match)
  /-- `Pattern(raw, flags).asRegex().fullmatch(string)` -/
  fullmatch : Str → Flags → Str → Except Exc (Option Match)
  /-- `Pattern(raw, flags).asRegex().sub(template, string)` -/
  sub : Str → Flags → Str → Str → Except Exc Str
  /-- `Pattern(raw, flags).asSeparator().split(string)`; groups that did not match are None -/
  split : Str → Flags → Str → Except Exc (List (Option Str))
  /-- `re.compile(raw).sub("", string)` -/
  resub : Str → Str → Except Exc Str
  lower : Str → Str
  upper : Str → Str
  swapcase : Str → Str
  title : Str → Str
  capitalize : Str → Str
  /-- State of the random number generator -/
  Rng : Type
  /-- `random.random()` -/
  random : Rng → F × Rng
  /-- an arbitrary number, of which `randrange` takes the remainder -/
  below : Nat → Rng → Nat × Rng
  /-- `random.seed(text)` -/
  seed : Str → Rng
  /-- contents of "Tao of Pip.txt", if readable (execution.py:259-264) -/
  tao : Option Str
  /-- `List.outFormat` -/
  fmt : Fmt
  /-- the text that `pprint.pprint` prints for a parse tree -/
  pprint : List Tree → Str := fun _ => []

/-- `-?(\d+\.\d*{exp}?|\d+{exp}|\.\d+{exp}?)` with exp = `(?:e[+-]\d+)` (ptypes.py:13-14) -/
def expRgx : Rgx := .seq (Rgx.lit 'e') (.seq (Rgx.cls (s% "+-")) (Rgx.plus (.chr isDigit)))
def pyFloatRgx : Rgx :=
  .seq (Rgx.opt (Rgx.lit '-')) (Rgx.alts
    [.seq (Rgx.plus (.chr isDigit)) (.seq (Rgx.lit '.') (.seq (.star (.chr isDigit)) (Rgx.opt expRgx))),
     .seq (Rgx.plus (.chr isDigit)) expRgx,
     .seq (Rgx.lit '.') (.seq (Rgx.plus (.chr isDigit)) (Rgx.opt expRgx))])

/-- `^(0+(\.0*)?|0*\.0+)$` (ptypes.py:12) -/
def zeroRgx : Rgx :=
  .seq (Rgx.alts
    [.seq (Rgx.plus (Rgx.lit '0')) (Rgx.opt (.seq (Rgx.lit '.') (.star (Rgx.lit '0')))),
     .seq (.star (Rgx.lit '0')) (.seq (Rgx.lit '.') (Rgx.plus (Rgx.lit '0')))]) .eol

/-! ### Scalars -/

/-- `Scalar.__int__` (ptypes.py:72-76) -/
def toInt (s : Str) : Int :=
  match intRgx.match? (lstrip s) with
  | some (m, _) => parseInt m
  | none => 0

/-- `Scalar.toNumber` (ptypes.py:90-98) -/
def toNum (X : Ext) (s : Str) : Num X.F :=
  match pyFloatRgx.match? (lstrip s) with
  | some (m, _) => .flt (X.parse m)
  | none =>
    match intRgx.match? (lstrip s) with
    | some (m, _) => .int (parseInt m)
    | none => .int 0

/-- The text of `Scalar(number)` (ptypes.py:34-42) -/
def numStr (X : Ext) : Num X.F → Str
  | .int i => showInt i
  | .flt f => if (s% ".0").isSuffixOf (X.str f) then showInt (X.trunc f) else X.str f

/-- The text of `Scalar(bool)` (ptypes.py:36-38) -/
def boolStr (b : Bool) : Str := if b then s% "1" else s% "0"

/-- `Scalar(number)`, `Scalar(int)`, `Scalar(bool)` -/
def ofNum (X : Ext) (n : Num X.F) : Val := .scalar (numStr X n)
def ofInt (i : Int) : Val := .scalar (showInt i)
def ofBool (b : Bool) : Val := .scalar (boolStr b)

/-! ### Numbers -/

section
variable (X : Ext)

def nlt : Num X.F → Num X.F → Bool
  | .int a, .int b => decide (a < b)
  | a, b => X.lt a b
def nle : Num X.F → Num X.F → Bool
  | .int a, .int b => decide (a ≤ b)
  | a, b => X.le a b
def neq : Num X.F → Num X.F → Bool
  | .int a, .int b => decide (a = b)
  | a, b => X.eq a b
def nadd : Num X.F → Num X.F → Except Exc (Num X.F)
  | .int a, .int b => .ok (.int (a + b))
  | a, b => X.fn2 .add a b
def nsub : Num X.F → Num X.F → Except Exc (Num X.F)
  | .int a, .int b => .ok (.int (a - b))
  | a, b => X.fn2 .sub a b
def nmul : Num X.F → Num X.F → Except Exc (Num X.F)
  | .int a, .int b => .ok (.int (a * b))
  | a, b => X.fn2 .mul a b
/-- `/`: a float even for ints -/
def ndiv : Num X.F → Num X.F → Except Exc (Num X.F)
  | _, .int 0 => .error .zeroDivision
  | a, b => X.fn2 .div a b
/-- `//`: floor division -/
def nfloordiv : Num X.F → Num X.F → Except Exc (Num X.F)
  | .int a, .int b => if b = 0 then .error .zeroDivision else .ok (.int (Int.fdiv a b))
  | a, b => X.fn2 .floordiv a b
/-- `%`: sign of the divisor -/
def nmod : Num X.F → Num X.F → Except Exc (Num X.F)
  | .int a, .int b => if b = 0 then .error .zeroDivision else .ok (.int (Int.fmod a b))
  | a, b => X.fn2 .mod a b
/-- `**`: an int for non-negative int exponents, else a float -/
def npow : Num X.F → Num X.F → Except Exc (Num X.F)
  | .int a, .int b =>
    if 0 ≤ b then .ok (.int (a ^ b.toNat)) else if a = 0 then .error .zeroDivision else X.fn2 .pow (.int a) (.int b)
  | a, b => X.fn2 .pow a b
def nabs : Num X.F → Except Exc (Num X.F)
  | .int a => .ok (.int a.natAbs)
  | a => X.fn1 .abs a
def nneg : Num X.F → Except Exc (Num X.F)
  | .int a => .ok (.int (-a))
  | a => X.fn1 .neg a
/-- `math.floor`, `math.ceil`, `math.trunc` -/
def nfloor : Num X.F → Except Exc (Num X.F)
  | .int a => .ok (.int a)
  | a => X.fn1 .floor a
def nceil : Num X.F → Except Exc (Num X.F)
  | .int a => .ok (.int a)
  | a => X.fn1 .ceil a
def ntrunc : Num X.F → Except Exc (Num X.F)
  | .int a => .ok (.int a)
  | a => X.fn1 .trunc a
end

/-! ### Truth, emptiness, length -/

/-- `lower or 0` -/
def lo0 (lo : Option Int) : Int := lo.getD 0

/-- `isEmpty` (ptypes.py:47-48, 258-259, 339-340, 519-521, 704-705, 747-748) -/
def Val.isEmpty : Val → Bool
  | .scalar s => s.isEmpty
  | .pattern raw _ => raw.isEmpty
  | .list l => l.isEmpty
  | .range lo (some hi) => decide (hi ≤ lo0 lo)
  | .range _ none => false
  | .block sts ret => sts.isEmpty && (match ret with | .val .nil => true | _ => false)
  | .nil => true

/-- `__bool__` (ptypes.py:78-80, 279-281, 379-380, 539-540, 717-718, 759-760) -/
def Val.truthy : Val → Bool
  | .scalar s => !s.isEmpty && (zeroRgx.match? s).isNone
  | .nil => false
  | v => !v.isEmpty

/-- `isinstance(v, PipIterable)` -/
def Val.isIterable : Val → Bool
  | .scalar _ | .list _ | .range .. => true
  | _ => false
def Val.isScalar : Val → Bool | .scalar _ => true | _ => false
def Val.isPattern : Val → Bool | .pattern .. => true | _ => false
def Val.isList : Val → Bool | .list _ => true | _ => false
def Val.isRange : Val → Bool | .range .. => true | _ => false
def Val.isBlock : Val → Bool | .block .. => true | _ => false
def Val.isNil : Val → Bool | .nil => true | _ => false
/-- `isinstance(v, (List, Range))` -/
def Val.isListy (v : Val) : Bool := v.isList || v.isRange
/-- An infinite Range -/
def Val.isInf : Val → Bool | .range _ none => true | _ => false

/-- The integers `lo ≤ i < lo + n` -/
def intsFrom (lo : Int) : Nat → List Int
  | 0 => []
  | n + 1 => lo :: intsFrom (lo + 1) n

/-- The members of a finite Range (ptypes.py:590-598) -/
def rangeInts (lo : Option Int) (hi : Int) : List Int := intsFrom (lo0 lo) (hi - lo0 lo).toNat

/-- `len(v)` (ptypes.py:87-88, 290-291, 387-388, 549-555); ValueError for infinite Ranges, TypeError for types without
length. -/
def Val.len : Val → Except Exc Nat
  | .scalar s => .ok s.length
  | .pattern raw _ => .ok raw.length
  | .list l => .ok l.length
  | .range lo (some hi) => .ok (hi - lo0 lo).toNat
  | .range _ none => .error .valueError
  | _ => .error .typeError

/-- What `iter(v)` gives. -/
inductive It where
  | fin (l : List Val)
  | inf (lo : Int)
  | no

/-- `__iter__` (ptypes.py:152-154, 296-298, 440-441, 590-598, 762-763) -/
def Val.iter : Val → It
  | .scalar s => .fin (s.map fun c => .scalar [c])
  | .pattern raw _ => .fin (raw.map fun c => .scalar [c])
  | .list l => .fin l
  | .range lo (some hi) => .fin ((rangeInts lo hi).map ofInt)
  | .range lo none => .inf (lo0 lo)
  | .block .. => .no
  | .nil => .fin []

/-- The items in a loop over all of them; a loop over an infinite Range does not end. -/
def Val.items (v : Val) : Except Exc (List Val) :=
  match v.iter with
  | .fin l => .ok l
  | .inf _ => .error .fuel
  | .no => .error .typeError

/-- `list(v)`, also `sorted(v)`, `f(*v)`, `itertools` functions: ask for the length first, hence ValueError for an
infinite Range. -/
def Val.pyList (v : Val) : Except Exc (List Val) :=
  match v.iter with
  | .fin l => .ok l
  | .inf _ => .error .valueError
  | .no => .error .typeError

/-! ### Equality -/

mutual
/-- `a == b` (ptypes.py:82-83, 283-286, 382-383, 542-545, 720-723, 765-766) -/
def pyEq : Val → Val → Bool
  | .scalar a, .scalar b => a == b
  | .pattern a f, .pattern b g => a == b && f == g
  | .list a, .list b => pyEqs a b
  | .range a b, .range c d => a == c && b == d
  | .block a r, .block b s => treeEqs a b && treeEq r s
  | .nil, .nil => true
  | _, _ => false
def pyEqs : List Val → List Val → Bool
  | [], [] => true
  | a :: l, b :: l' => pyEq a b && pyEqs l l'
  | _, _ => false
/-- `==` on parse trees: Python lists are compared item by item, tokens, operators and commands by their text
(tokens.py:11-12). Trees of different kinds never meet. -/
def treeEq : Tree → Tree → Bool
  | .tok a, .tok b => a.text == b.text
  | .node o a, .node p b => o.text == p.text && treeEqs a b
  | .cmd o a, .cmd p b => o.text == p.text && treeEqs a b
  | .code a, .code b => treeEqs a b
  | .opr a, .opr b => a.text == b.text
  | .val a, .val b => pyEq a b
  | .lval a, .lval b => a == b
  | _, _ => false
def treeEqs : List Tree → List Tree → Bool
  | [], [] => true
  | a :: l, b :: l' => treeEq a b && treeEqs l l'
  | _, _ => false
end

/-! ### Text -/

/-- `List.__str__` (ptypes.py:345-368) applied to the texts, the canonical texts, and the texts of the items with
nested lists joined on nothing and on a space. -/
def fmtJoin (f : Fmt) (strs reprs lines0 linesS : List Str) : Str :=
  match f with
  | .none => strs.flatten
  | .p => s% "[" ++ joinStr (s% ";") reprs ++ s% "]"
  | .n => joinStr (s% "\n") strs
  | .s => joinStr (s% " ") strs
  | .l => joinStr (s% "\n") lines0
  | .P => joinStr (s% "\n") reprs
  | .S => joinStr (s% "\n") linesS

/-- `str(v)` of a Range: that of the equivalent List if finite (ptypes.py:526-532) -/
def strRange (f : Fmt) (lo hi : Option Int) : Str :=
  match hi with
  | some h =>
    let ss := (rangeInts lo h).map showInt
    fmtJoin f ss (ss.map reprScalar) ss ss
  | none => Val.repr (.range lo none)

mutual
/-- `str(v)` (ptypes.py:53-54, 264-265, 345-368, 526-532, 710-711, 753-754) -/
def Val.str (f : Fmt) : Val → Str
  | .scalar s => s
  | .pattern raw _ => raw
  | .list l => fmtJoin f (Val.strs f l) (Val.reprs l) (Val.joineds f [] l) (Val.joineds f (s% " ") l)
  | .range lo hi => strRange f lo hi
  | .block sts ret => Val.repr (.block sts ret)
  | .nil => []
def Val.strs (f : Fmt) : List Val → List Str
  | [] => []
  | v :: l => Val.str f v :: Val.strs f l
/-- `i.joined(sep) if isinstance(i, List) else str(i)` (ptypes.py:359, 367, 370-374) -/
def Val.joined (f : Fmt) (sep : Str) : Val → Str
  | .scalar s => s
  | .pattern raw _ => raw
  | .list l => joinStr sep (Val.joineds f sep l)
  | .range lo hi => strRange f lo hi
  | .block sts ret => Val.repr (.block sts ret)
  | .nil => []
def Val.joineds (f : Fmt) (sep : Str) : List Val → List Str
  | [] => []
  | v :: l => Val.joined f sep v :: Val.joineds f sep l
end

/-! ### Numbers of values, for sorting -/

/-- What `toNumber` gives: a number or a nested list of numbers. -/
inductive Key (F : Type) where
  | num (n : Num F)
  | list (l : List (Key F))

mutual
/-- `toNumber` (ptypes.py:90-98, 293-294, 390-392, 557-564, 727-728, 770-771) -/
def Val.key (X : Ext) : Val → Key X.F
  | .scalar s => .num (toNum X s)
  | .list l => .list (Val.keys X l)
  | .range lo (some hi) => .list ((rangeInts lo hi).map fun i => .num (.int i))
  | .range _ none => .list []
  | _ => .num (.int 0)
def Val.keys (X : Ext) : List Val → List (Key X.F)
  | [] => []
  | v :: l => Val.key X v :: Val.keys X l
end

mutual
/-- `==` of numbers and lists of numbers -/
def keyEq (X : Ext) : Key X.F → Key X.F → Bool
  | .num a, .num b => neq X a b
  | .list a, .list b => keyEqs X a b
  | _, _ => false
def keyEqs (X : Ext) : List (Key X.F) → List (Key X.F) → Bool
  | [], [] => true
  | a :: l, b :: l' => keyEq X a b && keyEqs X l l'
  | _, _ => false
end

mutual
/-- `<` of numbers and lists of numbers; `none` is TypeError. Lists are compared at the first place where they
differ. -/
def keyLt (X : Ext) : Key X.F → Key X.F → Option Bool
  | .num a, .num b => some (nlt X a b)
  | .list a, .list b => keyLts X a b
  | _, _ => none
def keyLts (X : Ext) : List (Key X.F) → List (Key X.F) → Option Bool
  | [], [] => some false
  | [], _ :: _ => some true
  | _ :: _, [] => some false
  | a :: l, b :: l' => if keyEq X a b then keyLts X l l' else keyLt X a b
end

/-! ### Indexing and slicing -/

/-- `while start < 0: rep = value + rep; start += length; stop += length` (ptypes.py:134-137, 425-428) -/
def padFront {α : Type} (l : List α) : Nat → Int → Int → List α → Int × Int × List α
  | 0, start, stop, rep => (start, stop, rep)
  | n + 1, start, stop, rep =>
    if start < 0 then padFront l n (start + l.length) (stop + l.length) (l ++ rep) else (start, stop, rep)

/-- `while stop > len(rep): rep += value` (ptypes.py:138-139, 429-430) -/
def padBack {α : Type} (l : List α) : Nat → Int → List α → List α
  | 0, _, rep => rep
  | n + 1, stop, rep => if stop > rep.length then padBack l n stop (rep ++ l) else rep

/-- Slicing of Scalars and Lists (ptypes.py:120-140, 411-431). `padFront` and `padBack` are given enough steps to
finish: every step of the first raises `start`, every step of the second lengthens the list. -/
def cycSlice {α : Type} (l : List α) (lo hi : Option Int) : List α :=
  if l.isEmpty then l
  else
    let start := lo.getD 0
    let stop := hi.getD l.length
    let start := if start < 0 then start + l.length else start
    let stop := if stop < 0 then stop + l.length else stop
    if start ≥ stop then []
    else
      let (start, stop, rep) := padFront l start.natAbs start stop l
      let rep := padBack l stop.toNat stop rep
      (rep.drop start.toNat).take (stop - start).toNat

/-- Python's bounds of `seq[lo:hi]` for a sequence of length `n`. -/
def clampIdx (n : Nat) (i : Int) : Nat :=
  if i < 0 then (i + n).toNat else min i.toNat n

/-- Python's `seq[lo:hi]` -/
def pySlice {α : Type} (l : List α) (lo hi : Option Int) : List α :=
  let a := clampIdx l.length (lo.getD 0)
  let b := match hi with | some h => clampIdx l.length h | none => l.length
  (l.drop a).take (b - a)

/-- `Range.__getitem__` with an index (ptypes.py:605-617) -/
def rangeAt (lo hi : Option Int) (i : Int) : Except Exc Val :=
  if (Val.range lo hi).isEmpty then .error .indexError
  else
    match hi with
    | none => if i < 0 then .ok .nil else .ok (ofInt (lo0 lo + i))
    | some h => .ok (ofInt (lo0 lo + i % (h - lo0 lo)))

/-- `Range.__getitem__` with a slice (ptypes.py:618-659). `range(lower, upper)[start:stop]` is again a range with
the bounds Python computes. -/
def rangeSlice (lo hi : Option Int) (start stop : Option Int) : Val :=
  if (Val.range lo hi).isEmpty then .range lo hi
  else
    match hi with
    | some h =>
      let n := (h - lo0 lo).toNat
      let s := start.getD 0
      let e := stop.getD n
      if s ≥ -(n : Int) ∧ e ≤ n then
        .range (some (lo0 lo + clampIdx n s)) (some (lo0 lo + clampIdx n e))
      else .list (cycSlice ((rangeInts lo h).map ofInt) (some s) (some e))
    | none =>
      if start.any (· < 0) ∨ stop.any (· < 0) then .nil
      else .range (match start with | none => lo | some s => some (lo0 lo + s)) (stop.map (lo0 lo + ·))

/-- `value[index]` for an int or slice (ptypes.py:106-142, 397-433, 600-659, 773-774) -/
def Val.get (v : Val) (i : Idx) : Except Exc Val :=
  match v, i with
  | .scalar s, .int i =>
    match s[(i % s.length).toNat]? with
    | some c => .ok (.scalar [c])
    | none => .error .indexError
  | .scalar s, .slice lo hi => .ok (.scalar (cycSlice s lo hi))
  | .list l, .int i =>
    match l[(i % l.length).toNat]? with
    | some x => .ok x
    | none => .error .indexError
  | .list l, .slice lo hi => .ok (.list (cycSlice l lo hi))
  | .range lo hi, .int i => rangeAt lo hi i
  | .range lo hi, .slice a b => .ok (rangeSlice lo hi a b)
  | .nil, _ => .ok .nil
  | _, _ => .error .typeError

/-- `list[index] = item` and `list[slice] = items` on Python lists. -/
def pySetSlice {α : Type} (l : List α) (lo hi : Option Int) (new : List α) : List α :=
  let a := clampIdx l.length (lo.getD 0)
  let b := match hi with | some h => clampIdx l.length h | none => l.length
  l.take a ++ new ++ l.drop (max a b)

/-- `value[index] = item` (ptypes.py:144-150, 435-438): the changed value. -/
def Val.set (f : Fmt) (v : Val) (i : Idx) (item : Val) : Except Exc Val :=
  match v, i with
  | .scalar s, .int i =>
    if s.isEmpty then .error .zeroDivision
    else .ok (.scalar (s.take (i % s.length).toNat ++ item.str f ++ s.drop ((i % s.length).toNat + 1)))
  | .scalar s, .slice lo hi => .ok (.scalar (pySetSlice s lo hi (item.str f)))
  | .list l, .int i =>
    if l.isEmpty then .error .zeroDivision else .ok (.list (l.set (i % l.length).toNat item))
  | .list l, .slice lo hi =>
    match item.pyList with
    | .ok new => .ok (.list (pySetSlice l lo hi new))
    | .error e => .error e
  | _, _ => .error .typeError

/-! ### Containment, counting, searching -/

/-- `item in value` (ptypes.py:100-104, 394-395, 566-576); Pattern and Nil are searched by iteration, a Block
raises TypeError. -/
def Val.contains (X : Ext) (item v : Val) : Except Exc Bool :=
  match v with
  | .scalar s => match item with | .scalar t => .ok (isSub t s) | _ => .ok false
  | .list l => .ok (l.any (pyEq item))
  | .range lo hi =>
    match item with
    | .scalar t =>
      let n := toNum X t
      .ok (nle X (.int (lo0 lo)) n && (match hi with | some h => nlt X n (.int h) | none => true))
    | _ => .ok false
  | .pattern raw _ => .ok (raw.any fun c => pyEq item (.scalar [c]))
  | .nil => .ok false
  | .block .. => .error .typeError

/-- `value.count(item)` (ptypes.py:156-160, 443-444, 661-663) -/
def Val.count (X : Ext) (item v : Val) : Except Exc Val :=
  match v with
  | .scalar s => match item with | .scalar t => .ok (ofInt (countStr t s)) | _ => .ok .nil
  | .list l => .ok (ofInt (l.countP (pyEq item)))
  | .range .. =>
    match Val.contains X item v with
    | .ok b => .ok (ofInt (if b then 1 else 0))
    | .error e => .error e
  | _ => .error .attributeError

/-- `value.index(item, start)` (ptypes.py:162-171, 472-477, 665-679) for `start ≥ 0`. -/
def Val.index (X : Ext) (item v : Val) (start : Nat) : Except Exc Int :=
  match v with
  | .scalar s =>
    match item with
    | .scalar t => match indexStr t s start with | some i => .ok i | none => .error .valueError
    | _ => .error .typeError
  | .list l =>
    match (l.drop start).findIdx? (pyEq item) with
    | some i => .ok (i + start)
    | none => .error .valueError
  | .range lo hi =>
    match item with
    | .scalar t =>
      match Val.contains X item (rangeSlice lo hi (some start) none) with
      | .ok true =>
        if neq X (.int (toInt t)) (toNum X t) then .ok (toInt t - lo0 lo) else .error .valueError
      | .ok false => .error .valueError
      | .error e => .error e
    | _ => .error .typeError
  | _ => .error .attributeError

/-! ### Patterns -/

/-- `Pattern.wrap` (ptypes.py:228-233) -/
def wrapRaw (raw : Str) : Str := if raw.length > 1 then s% "(?:" ++ raw ++ s% ")" else raw

def Flags.or (f g : Flags) : Flags := ⟨f.a || g.a, f.i || g.i, f.m || g.m, f.s || g.s⟩

/-- The characters escaped by `re.escape` -/
def reSpecial (c : Char) : Bool := (s% "()[]{}?*+-|^$\\.&~# \t\n\r").elem c || c.toNat = 11 || c.toNat = 12

/-- `re.escape(text)` -/
def reEscape (s : Str) : Str := s.flatMap fun c => if reSpecial c then ['\\', c] else [c]

/-- `toPipType(literal token)` (ptypes.py:792-816); only called with Number, String, Pattern, Char,
EscapedString and Nil tokens (execution.py:115-119) -/
def literal (t : Tok) : Val :=
  match t.kind with
  | .num => .scalar t.text
  | .str => .scalar ((t.text.drop 1).dropLast)
  | .pat => .pattern (replaceStr (s% "\\`") (s% "`") ((t.text.drop 1).dropLast)) {}
  | .char => .scalar ((t.text.drop 1).take 1)
  | .esc => .scalar (replaceStr (s% "\\\\") (s% "\\") ((t.text.drop 2).take (t.text.length - 4)))
  | _ => .nil

/-- `toPipType(operator.default)` (execution.py:650) -/
def Dflt.val : Dflt → Val
  | .nil => .nil
  | .int i => ofInt i
  | .emptyStr => .scalar []
  | .emptyList => .list []

end Pip
