/-!
# Strings, characters and integers

Python's built-in string operations as far as Pip's source uses them. A Python `str` is modelled as a
`List Char`; lone surrogates (which a Python string may contain) are not representable.
-/

namespace Pip

/-- A Python `str`. -/
abbrev Str := List Char

/-- `s% "abc"` is the explicit list `['a', 'b', 'c']`; unlike `"abc".toList` it is a constructor term. -/
syntax (name := strLit) "s%" str : term
open Lean in
macro_rules
  | `(s% $s:str) => do
    let elems ← s.getString.toList.mapM fun c => pure (Lean.Syntax.mkCharLit c)
    `(([$(elems.toArray),*] : Str))

/-- `str.isspace` on one character, which is also what `\s` of the `re` module matches
(scanning.py:47-50) and what `str.strip`/`lstrip` remove. Unicode 14 table of CPython 3.11. -/
def isSpace (c : Char) : Bool :=
  let n := c.toNat
  (0x09 ≤ n && n ≤ 0x0D) || (0x1C ≤ n && n ≤ 0x20) || n == 0x85 || n == 0xA0 || n == 0x1680 ||
  (0x2000 ≤ n && n ≤ 0x200A) || n == 0x2028 || n == 0x2029 || n == 0x202F || n == 0x205F || n == 0x3000

/-- The code points of the zeros of all Unicode decimal digit runs (category Nd, each run has ten
consecutive code points). Used for `\d` (scanning.py:20, ptypes.py:12-16) and `int()`. -/
def digitZeros : List Nat :=
  [0x30, 0x660, 0x6f0, 0x7c0, 0x966, 0x9e6, 0xa66, 0xae6, 0xb66, 0xbe6, 0xc66, 0xce6, 0xd66, 0xde6,
   0xe50, 0xed0, 0xf20, 0x1040, 0x1090, 0x17e0, 0x1810, 0x1946, 0x19d0, 0x1a80, 0x1a90, 0x1b50, 0x1bb0,
   0x1c40, 0x1c50, 0xa620, 0xa8d0, 0xa900, 0xa9d0, 0xa9f0, 0xaa50, 0xabf0, 0xff10, 0x104a0, 0x10d30,
   0x11066, 0x110f0, 0x11136, 0x111d0, 0x112f0, 0x11450, 0x114d0, 0x11650, 0x116c0, 0x11730, 0x118e0,
   0x11950, 0x11c50, 0x11d50, 0x11da0, 0x16a60, 0x16ac0, 0x16b50, 0x1d7ce, 0x1d7d8, 0x1d7e2, 0x1d7ec,
   0x1d7f6, 0x1e140, 0x1e2f0, 0x1e950, 0x1fbf0]

/-- The decimal value of a Unicode decimal digit, `none` for other characters. -/
def digitVal? (c : Char) : Option Nat :=
  (digitZeros.find? fun z => z ≤ c.toNat && c.toNat < z + 10).map fun z => c.toNat - z

/-- `\d` of the `re` module on `str` patterns. -/
def isDigit (c : Char) : Bool := (digitVal? c).isSome

/-- Value of a digit character (0 for non-digits, never used there). -/
def digitVal (c : Char) : Nat := (digitVal? c).getD 0

def isUpperAZ (c : Char) : Bool := 'A'.toNat ≤ c.toNat && c.toNat ≤ 'Z'.toNat
def isLowerAZ (c : Char) : Bool := 'a'.toNat ≤ c.toNat && c.toNat ≤ 'z'.toNat
def isDigit09 (c : Char) : Bool := '0'.toNat ≤ c.toNat && c.toNat ≤ '9'.toNat

/-- Digits of `n` in base `b`, most significant first, pushed in front of `acc`; the first argument
bounds the number of digits. -/
def digitsAux (b : Nat) : Nat → Nat → List Nat → List Nat
  | 0, _, acc => acc
  | f + 1, n, acc => if n < b then n :: acc else digitsAux b f (n / b) (n % b :: acc)

/-- Digits of `n` in base `b ≥ 2`, most significant first; `0` gives `[0]`. -/
def natDigits (b n : Nat) : List Nat := digitsAux b (n + 1) n []

/-- The ASCII digit of a number below ten. -/
def digitChar (d : Nat) : Char := Char.ofNat ('0'.toNat + d)

/-- `str(n)` of a non-negative Python int. (CPython ≥ 3.11 refuses above 4300 digits; not modelled.) -/
def showNat (n : Nat) : Str := (natDigits 10 n).map digitChar

/-- `str(i)` of a Python int. -/
def showInt : Int → Str
  | .ofNat n => showNat n
  | .negSucc n => '-' :: showNat (n + 1)

/-- `int(s)` on a string of decimal digits. -/
def parseNat (s : Str) : Nat := s.foldl (fun acc c => acc * 10 + digitVal c) 0

/-- `int(s)` on a string matched by `-?\d+` (ptypes.py:73-74). -/
def parseInt : Str → Int
  | '-' :: s => -(parseNat s : Int)
  | s => parseNat s

/-- `s.lstrip()` -/
def lstrip (s : Str) : Str := s.dropWhile isSpace
/-- `s.lstrip(chars)` -/
def lstripChars (cs : Str) (s : Str) : Str := s.dropWhile (cs.elem ·)
/-- `s.rstrip()` -/
def rstrip (s : Str) : Str := (s.reverse.dropWhile isSpace).reverse
/-- `s.rstrip(chars)` -/
def rstripChars (cs : Str) (s : Str) : Str := (s.reverse.dropWhile (cs.elem ·)).reverse
/-- `s.strip()` -/
def strip (s : Str) : Str := rstrip (lstrip s)
/-- `s.strip(chars)` -/
def stripChars (cs : Str) (s : Str) : Str := rstripChars cs (lstripChars cs s)

/-- `sep.join(l)` -/
def joinStr (sep : Str) : List Str → Str
  | [] => []
  | [x] => x
  | x :: y :: ys => x ++ sep ++ joinStr sep (y :: ys)

/-- `sub in s` -/
def isSub (sub : Str) : Str → Bool
  | [] => sub.isEmpty
  | c :: cs => sub.isPrefixOf (c :: cs) || isSub sub cs

/-- Occurrences of the non-empty `sub`, left to right without overlap; the first argument is the number
of characters still covered by the previous occurrence. -/
def countAux (sub : Str) : Nat → Str → Nat
  | _, [] => 0
  | k + 1, _ :: cs => countAux sub k cs
  | 0, c :: cs => if sub.isPrefixOf (c :: cs) then countAux sub (sub.length - 1) cs + 1
                  else countAux sub 0 cs

/-- `s.count(sub)` -/
def countStr (sub s : Str) : Nat := if sub.isEmpty then s.length + 1 else countAux sub 0 s

/-- Position of the first occurrence of `sub` in `s`. -/
def findFrom (sub : Str) : Str → Option Nat
  | [] => if sub.isEmpty then some 0 else none
  | c :: cs => if sub.isPrefixOf (c :: cs) then some 0 else (findFrom sub cs).map (· + 1)

/-- `s.index(sub, start)` for `start ≥ 0`; `none` is ValueError. -/
def indexStr (sub s : Str) (start : Nat) : Option Nat :=
  if s.length < start then none else (findFrom sub (s.drop start)).map (· + start)

/-- Worker of `splitStr`: `k` characters are still covered by the previous separator. -/
def splitAux (sep : Str) : Nat → Str → Str × List Str
  | _, [] => ([], [])
  | k + 1, _ :: cs => splitAux sep k cs
  | 0, c :: cs =>
    if sep.isPrefixOf (c :: cs) then
      let r := splitAux sep (sep.length - 1) cs
      ([], r.1 :: r.2)
    else
      let r := splitAux sep 0 cs
      (c :: r.1, r.2)

/-- `s.split(sep)` for a non-empty separator. -/
def splitStr (sep s : Str) : List Str := let r := splitAux sep 0 s; r.1 :: r.2

/-- `s.replace(old, new)`: for the empty `old`, `new` goes before every character and at the end. -/
def replaceStr (old new s : Str) : Str :=
  if old.isEmpty then new ++ s.flatMap (fun c => c :: new) else joinStr new (splitStr old s)

/-- Strict lexicographic order of code points: `<` on Python strings. -/
def ltStr : Str → Str → Bool
  | [], [] => false
  | [], _ :: _ => true
  | _ :: _, [] => false
  | a :: as, b :: bs => a.toNat < b.toNat || (a == b && ltStr as bs)

end Pip
