import Verif.Model.OpsNum
/-!
# Operators on strings and lists

The remaining methods of `ProgramState` (execution.py) without effects on the program state.
-/

namespace Pip

/-- The argument as a List if it is one item (execution.py:804-805, 814-817, 2993-2994, 3172-3173) -/
def wrapItem (v : Val) : Val := if v.isScalar || v.isPattern || v.isNil then .list [v] else v

/-- execution.py:803-811 -/
def opAPPENDELEM (lhs rhs : Val) : E Val :=
  if (wrapItem lhs).isListy then do return .list ((← (wrapItem lhs).pyList) ++ [rhs]) else .ok .nil

/-- execution.py:813-823 -/
def opAPPENDLIST (lhs rhs : Val) : E Val :=
  if (wrapItem lhs).isListy && (wrapItem rhs).isListy then do
    return .list ((← (wrapItem lhs).pyList) ++ (← (wrapItem rhs).pyList))
  else .ok .nil

/-- execution.py:2991-3000 -/
def opPREPENDELEM (lhs rhs : Val) : E Val :=
  if (wrapItem lhs).isListy then do return .list (rhs :: (← (wrapItem lhs).pyList)) else .ok .nil

/-- `list * n` -/
def repList {α : Type} (l : List α) (n : Int) : List α := (List.replicate n.toNat l).flatten

/-- execution.py:3171-3179 -/
def opREPEATLIST (lhs rhs : Val) : E Val :=
  match rhs with
  | .scalar n =>
    if (wrapItem lhs).isListy then do return .list (repList (← (wrapItem lhs).pyList) (toInt n)) else .ok .nil
  | _ => .ok .nil

/-- execution.py:3832-3840; the flags of a Pattern are lost. -/
def opSTRMUL : Val → Val → E Val
  | .scalar s, .scalar n => .ok (.scalar (repList s (toInt n)))
  | .pattern r _, .scalar n => .ok (.pattern (repList r (toInt n)) {})
  | _, _ => .ok .nil

/-- execution.py:840-853 -/
def opASC : Val → E Val
  | .scalar s => match s with | [] => .ok .nil | c :: _ => .ok (ofInt c.toNat)
  | .pattern r f => .ok (.pattern r { f with a := !f.a })
  | _ => .ok .nil

/-- `chr(n)`. Python raises OverflowError if the number does not fit a C int. Lone surrogates are not modelled. -/
def pyChr (n : Int) : E Char :=
  if n < -2147483648 ∨ n > 2147483647 then .error .overflow
  else if n < 0 ∨ n ≥ 0x110000 then .error .valueError
  else if 0xD800 ≤ n ∧ n < 0xE000 then .error .unmodelled
  else .ok (Char.ofNat n.toNat)

/-- execution.py:1120-1129 -/
def opCHR : Val → E Val
  | .scalar s => do return .scalar [← pyChr (toInt s)]
  | .pattern r f => .ok (.pattern (s% "(" ++ r ++ s% ")") f)
  | _ => .ok .nil

/-- execution.py:1357-1364 -/
def opDOT : Val → E Val
  | .pattern r f => .ok (.pattern r { f with s := !f.s })
  | v => .ok v

/-- execution.py:1026-1036. `Pattern(scalar)` has no flags, `Pattern(pattern)` those of the pattern. -/
def cat : Val → Val → Val
  | .scalar a, .scalar b => .scalar (a ++ b)
  | .scalar a, .pattern b f => .pattern (a ++ b) (Flags.or {} f)
  | .pattern a f, .scalar b => .pattern (a ++ b) (f.or {})
  | .pattern a f, .pattern b g => .pattern (a ++ b) (f.or g)
  | _, _ => .nil
def opCAT (a b : Val) : E Val := .ok (cat a b)

/-- execution.py:4235-4243 -/
def opWRAP (string outer : Val) : E Val :=
  if (string.isScalar || string.isPattern) && (outer.isScalar || outer.isPattern) then
    .ok (cat (cat outer string) outer)
  else .ok .nil

/-! ### Joining -/

/-- One round of the loop of `JOIN` (execution.py:1962-1967) -/
def joinStep (sep : Option Val) (result : Option Val) (item : Val) : Val :=
  match result with
  | none => item
  | some r => match sep with
    | some s => cat (cat r s) item
    | none => cat r item

/-- The loop over items that are no lists. -/
def joinFlat (sep : Option Val) : List Val → Option Val → Option Val
  | [], r => r
  | v :: l, r => joinFlat sep l (some (joinStep sep r v))

mutual
/-- `JOIN` of a List or Range (execution.py:1956-1971) for a separator that is None, a Scalar or a Pattern. -/
def joinList (sep : Option Val) : Val → E Val
  | .list l => do return (← joinItems sep l none).getD (.scalar [])
  | .range lo (some hi) => .ok ((joinFlat sep ((rangeInts lo hi).map ofInt) none).getD (.scalar []))
  | .range _ none => .error .fuel
  | v => .ok v
/-- The loop: nested Lists and Ranges are joined first. -/
def joinItems (sep : Option Val) : List Val → Option Val → E (Option Val)
  | [], r => .ok r
  | v :: l, r => do joinItems sep l (some (joinStep sep r (← joinList sep v)))
end

/-- `JOIN` for a separator that is no List (execution.py:1952-1978) -/
def join1 (iterable : Val) (sep : Option Val) : E Val :=
  if sep.any fun s => !(s.isScalar || s.isPattern) then .ok .nil
  else
    match iterable with
    | .scalar s => .ok ((joinFlat sep (s.map fun c => .scalar [c]) none).getD (.scalar []))
    | .list l => joinList sep (.list l)
    | .range lo hi => joinList sep (.range lo hi)
    | _ => .ok .nil

/-- `JOIN` of a Python list or tuple. -/
def joinPy (items : List Val) (sep : Option Val) : E Val := joinList sep (.list items)

mutual
/-- `JOIN` with a given separator (execution.py:1949-1951) -/
def joinBy (iterable : Val) : Val → E Val
  | .list l => do return .list (← joinBys iterable l)
  | .range lo (some hi) => do return .list (← (rangeInts lo hi).mapM fun i => join1 iterable (some (ofInt i)))
  | .range _ none => .error .fuel
  | sep => join1 iterable (some sep)
def joinBys (iterable : Val) : List Val → E (List Val)
  | [] => .ok []
  | v :: l => do return (← joinBy iterable v) :: (← joinBys iterable l)
end

/-- execution.py:1949-1978 -/
def opJOIN (iterable : Val) : Option Val → E Val
  | none => join1 iterable none
  | some sep => joinBy iterable sep

/-- The loop of `JOINWRAP` (execution.py:1989-1993) -/
def joinWrapLoop (sep : Val) : List Val → Val → E Val
  | [], r => .ok r
  | v :: l, r => do joinWrapLoop sep l (cat (cat r (← joinList (some sep) v)) sep)

/-- `JOINWRAP` for a separator that is no List -/
def joinWrap1 (iterable sep : Val) : E Val :=
  if sep.isScalar || sep.isPattern then
    if iterable.isIterable then do joinWrapLoop sep (← iterable.items) sep else .ok .nil
  else .ok .nil

mutual
/-- execution.py:1980-1998 -/
def opJOINWRAP (iterable : Val) : Val → E Val
  | .list l => do return .list (← opJOINWRAPs iterable l)
  | .range lo (some hi) => do return .list (← (rangeInts lo hi).mapM fun i => joinWrap1 iterable (ofInt i))
  | .range _ none => .error .fuel
  | sep => joinWrap1 iterable sep
def opJOINWRAPs (iterable : Val) : List Val → E (List Val)
  | [] => .ok []
  | v :: l => do return (← opJOINWRAP iterable v) :: (← opJOINWRAPs iterable l)
end

/-! ### Reordering -/

/-- execution.py:3311-3324 -/
def opREVERSE : Val → E Val
  | .scalar s => .ok (.scalar s.reverse)
  | .list l => .ok (.list l.reverse)
  | .range lo (some hi) => .ok (.list ((rangeInts lo hi).map ofInt).reverse)
  | _ => .ok .nil

/-- execution.py:3137-3153 -/
def opREFLECT : Val → E Val
  | .scalar s => .ok (.scalar (s ++ s.reverse))
  | .list l => .ok (.list (l ++ l.reverse))
  | .range lo (some hi) => .ok (.list ((rangeInts lo hi).map ofInt ++ ((rangeInts lo hi).map ofInt).reverse))
  | _ => .ok .nil

/-- `l + l[-2::-1]` for a non-empty `l`, `[]` otherwise (execution.py:2779, 2785): the second summand is the reverse
without its first item. -/
def palin {α : Type} (l : List α) : List α := l ++ l.reverse.drop 1

/-- execution.py:2766-2791 -/
def opPALINDROMIZE : Val → E Val
  | .scalar s => .ok (.scalar (palin s))
  | .list l => .ok (.list (palin l))
  | .range lo (some hi) => .ok (.list (palin ((rangeInts lo hi).map ofInt)))
  | _ => .ok .nil

/-- execution.py:3051-3065 -/
def quad (f : Val → E Val) (v : Val) : E Val := do
  let result ← f v
  match result with
  | .nil => return .nil
  | r => return .list (← (← r.items).mapM f)

def opQUADREFLECT := quad opREFLECT
def opQUADPALINDROMIZE := quad opPALINDROMIZE

/-- Sorting with keys that `lt` cannot all compare raises TypeError. Timsort only raises if it happens to compare such
a pair; the model raises if there is any such pair. -/
def comparable (X : Ext) (ks : List (Key X.F)) : Bool :=
  ks.all fun a => ks.all fun b => (keyLt X a b).isSome

/-- `sorted(items, key=..., reverse=...)` on pairs of key and item, as a stable merge sort. For keys that `<` does not
order linearly (NaN) Python's result may differ. -/
def sortKeyed (X : Ext) (desc : Bool) (l : List (Key X.F × Val)) : List (Key X.F × Val) :=
  l.mergeSort fun a b =>
    if desc then !((keyLt X a.1 b.1).getD false) else !((keyLt X b.1 a.1).getD false)

/-- The end of execution.py:1265-1327, 3535-3595: `nil` for incomparable keys. -/
def sortByKeys (X : Ext) (desc : Bool) (l : List (Key X.F × Val)) : Val :=
  if comparable X (l.map (·.1)) then .list ((sortKeyed X desc l).map (·.2)) else .nil

/-- execution.py:1303-1327, 3571-3595. The keys of Patterns, Blocks and nil are 0, of infinite Ranges `[]`, which is
also what their `toNumber` gives. -/
def sortNum (X : Ext) (desc : Bool) (v : Val) : E Val :=
  if v.isIterable then do return sortByKeys X desc ((← v.pyList).map fun x => (x.key X, x)) else .ok .nil

def opSORTNUM (X : Ext) := sortNum X false
def opDESCENDINGNUM (X : Ext) := sortNum X true

/-- execution.py:1329-1342, 3597-3607 -/
def sortStr (X : Ext) (desc : Bool) : Val → E Val
  | .scalar s =>
    .ok (.scalar (s.mergeSort fun a b => if desc then decide (b.toNat ≤ a.toNat) else decide (a.toNat ≤ b.toNat)))
  | v =>
    if v.isIterable then do
      return .list ((← v.pyList).mergeSort fun a b =>
        if desc then !ltStr (a.str X.fmt) (b.str X.fmt) else !ltStr (b.str X.fmt) (a.str X.fmt))
    else .ok .nil

def opSORTSTRING (X : Ext) := sortStr X false
def opDESCENDINGSTRING (X : Ext) := sortStr X true

/-- `item in previousItems`: equal hash, which is the hash of the `repr` (ptypes.py:22-23), and equal. -/
def sameItem (a b : Val) : Bool := a.repr == b.repr && pyEq a b

/-- execution.py:4113-4119 -/
def uniqueLoop : List Val → List Val → List Val
  | [], _ => []
  | v :: l, seen => if seen.any (sameItem v) then uniqueLoop l seen else v :: uniqueLoop l (v :: seen)

/-- execution.py:4101-4129 -/
def opUNIQUE : Val → E Val
  | .range lo hi => .ok (.range lo hi)
  | .list l => .ok (.list (uniqueLoop l []))
  | .scalar s => joinPy (uniqueLoop (s.map fun c => .scalar [c]) []) none
  | _ => .ok .nil

/-! ### Enumeration, flattening -/

def enumFrom : Nat → List Val → List Val
  | _, [] => []
  | n, v :: l => .list [ofInt n, v] :: enumFrom (n + 1) l

/-- execution.py:1374-1385 -/
def opENUMERATE (v : Val) : E Val :=
  if v.isIterable then
    if v.isInf then .ok .nil else do return .list (enumFrom 0 (← v.items))
  else .ok .nil

/-- execution.py:1661-1672 -/
def flattenLoop : List Val → E (List Val)
  | [] => .ok []
  | v :: l => do
    let items ← if v.isListy then v.items else .ok [v]
    return items ++ (← flattenLoop l)

def opFLATTEN (v : Val) : E Val :=
  if v.isListy then do return .list (← flattenLoop (← v.items)) else .ok v

mutual
/-- The items `FLATTENALL` produces for one item (execution.py:1677-1682) -/
def leaves : Val → E (List Val)
  | .list l => leavess l
  | .range lo (some hi) => .ok ((rangeInts lo hi).map ofInt)
  | .range _ none => .error .fuel
  | v => .ok [v]
def leavess : List Val → E (List Val)
  | [] => .ok []
  | v :: l => do return (← leaves v) ++ (← leavess l)
end

/-- execution.py:1674-1685 -/
def opFLATTENALL (v : Val) : E Val :=
  if v.isListy then do return .list (← leaves v) else .ok v

/-! ### Combinatorics -/

/-- `itertools.product(*lists)` -/
def cartProd {α : Type} : List (List α) → List (List α)
  | [] => [[]]
  | l :: ls => l.flatMap fun x => (cartProd ls).map (x :: ·)

/-- `itertools.combinations(l, k)` -/
def combos {α : Type} : Nat → List α → List (List α)
  | 0, _ => [[]]
  | _ + 1, [] => []
  | k + 1, x :: l => (combos k l).map (x :: ·) ++ combos (k + 1) l

/-- Each item with the others, in order of position. -/
def picks {α : Type} : List α → List (α × List α)
  | [] => []
  | x :: l => (x, l) :: (picks l).map fun p => (p.1, x :: p.2)

/-- `itertools.permutations(l)` for a list of length at most the first argument. -/
def permsAux {α : Type} : Nat → List α → List (List α)
  | 0, _ => [[]]
  | n + 1, l => if l.isEmpty then [[]] else (picks l).flatMap fun p => (permsAux n p.2).map (p.1 :: ·)
def perms {α : Type} (l : List α) : List (List α) := permsAux l.length l

/-- execution.py:1005-1024 -/
def opCARTESIANPRODUCT (list1 : Val) (list2 : Option Val) : E Val :=
  let lists : Option (E (List Val)) := match list2 with
    | none => if list1.isIterable then some list1.items else none
    | some l2 => some (.ok [list1, l2])
  match lists with
  | none => .ok .nil
  | some lists => do
    let lists ← lists
    if lists.any fun v => v.isNil || v.isBlock || v.isPattern then return .nil
    else
      let pools ← lists.mapM Val.pyList
      return .list ((cartProd pools).map .list)

/-- The tuples as Scalars if the iterable is a Scalar, as Lists otherwise (execution.py:1135-1138, 2801-2804) -/
def tuplesOf (v : Val) (ts : List (List Val)) : E Val := do
  match v with
  | .scalar _ => return .list (← ts.mapM fun t => joinPy t none)
  | _ => return .list (ts.map .list)

/-- execution.py:1131-1142. Numbers beyond the size of a C `ssize_t` are not treated specially. -/
def opCOMBINATIONS (iterable num : Val) : E Val :=
  match num with
  | .scalar n =>
    if iterable.isIterable then do
      let items ← iterable.pyList
      if toInt n < 0 then .error .valueError
      else tuplesOf iterable (combos (toInt n).toNat items)
    else .ok .nil
  | _ => .ok .nil

/-- execution.py:2797-2808 -/
def opPERMUTATIONS (iterable : Val) : E Val :=
  if iterable.isIterable then do tuplesOf iterable (perms (← iterable.pyList)) else .ok .nil

/-! ### Grids -/

/-- `range(n)` -/
def pyRange (n : Int) : List Int := intsFrom 0 n.toNat

/-- execution.py:1144-1156, 2737-2748, 4261-4272 -/
def gridOp (cell : Int → Int → Val) (rows : Val) (cols : Option Val) : E Val :=
  match rows, cols.getD rows with
  | .scalar r, .scalar c =>
    .ok (.list ((pyRange (toInt r)).map fun i => .list ((pyRange (toInt c)).map fun j => cell i j)))
  | _, _ => .ok .nil

def opCOORDINATEGRID := gridOp fun i j => .list [ofInt i, ofInt j]
def opZEROGRID := gridOp fun _ _ => .scalar (s% "0")
def opONEGRID := gridOp fun _ _ => .scalar (s% "1")

/-- execution.py:1836-1847 -/
def opIDENTITYMATRIX : Val → E Val
  | .scalar n =>
    .ok (.list ((pyRange (toInt n)).map fun i =>
      .list ((pyRange (toInt n)).map fun j => .scalar (if i == j then s% "1" else s% "0"))))
  | _ => .ok .nil

/-! ### Cutting -/

/-- `while index < len: chunk = iterable[index:min(index+jump, len)]; index += jump` (execution.py:1794-1799) for an
int `jump > 0`. The first argument bounds the number of rounds. -/
def groupUp (v : Val) (n : Nat) (jump : Nat) : Nat → Nat → E (List Val)
  | 0, _ => .ok []
  | f + 1, i =>
    if i < n then do
      return (← v.get (.slice (some i) (some (min (i + jump) n : Nat)))) :: (← groupUp v n jump f (i + jump))
    else .ok []

/-- `while index > 0: chunk = iterable[max(index+jump, 0):index]; index += jump` (execution.py:1801-1807) for an int
`jump = -step < 0` -/
def groupDown (v : Val) (step : Nat) : Nat → Nat → E (List Val)
  | 0, _ => .ok []
  | f + 1, i =>
    if i > 0 then do
      return (← v.get (.slice (some (i - step : Nat)) (some (i : Nat)))) :: (← groupDown v step f (i - step))
    else .ok []

/-- A bound for the number of rounds of a loop in which an index grows by a float: there are fewer than `2 ^ 64` floats, so
a loop that takes more rounds has come to the same index twice and does not end. -/
def floatRounds : Nat := 2 ^ 64

/-- `iterable[floor(a):floor(b)]`, and the same with `ceil`; both give ints. -/
def cutAt (X : Ext) (r : Num X.F → E (Num X.F)) (v : Val) (a b : Num X.F) : E Val := do
  let i ← r a
  let j ← r b
  match i, j with
  | .int i, .int j => v.get (.slice (some i) (some j))
  | _, _ => .error .unmodelled

/-- `while index < len: chunk = iterable[floor(index):floor(min(index+jump, len))]; index += jump`
(execution.py:1095-1099, 1795-1799); `n` is the length. -/
def cutUp (X : Ext) (v : Val) (n : Nat) (jump : Num X.F) : Nat → Num X.F → E (List Val)
  | 0, _ => .error .fuel
  | f + 1, i =>
    if nlt X i (.int n) then do
      let e ← nadd X i jump
      let c ← cutAt X (nfloor X) v i (if nlt X (.int n) e then .int n else e)
      let cs ← cutUp X v n jump f e
      return c :: cs
    else .ok []

/-- `while index > 0: chunk = iterable[ceil(max(index+jump, 0)):ceil(index)]; index += jump`
(execution.py:1105-1109, 1804-1808) -/
def cutDown (X : Ext) (v : Val) (jump : Num X.F) : Nat → Num X.F → E (List Val)
  | 0, _ => .error .fuel
  | f + 1, i =>
    if nlt X (.int 0) i then do
      let e ← nadd X i jump
      let c ← cutAt X (nceil X) v (if nlt X e (.int 0) then .int 0 else e) i
      let cs ← cutDown X v jump f e
      return c :: cs
    else .ok []

/-- `GROUP` for a size that is no List (execution.py:1784-1816) -/
def group1 (X : Ext) (v rhs : Val) : E Val :=
  match rhs with
  | .scalar s =>
    if v.isIterable then
      match toNum X s with
      | .int j =>
        if j > 0 then do
          let n ← v.len
          return .list (← groupUp v n j.toNat n 0)
        else if j < 0 then do
          let n ← v.len
          return .list (← groupDown v j.natAbs n n)
        else .ok .nil
      | .flt j =>
        if nlt X (.int 0) (.flt j) then do
          let n ← v.len
          return .list (← cutUp X v n (.flt j) floatRounds (.int 0))
        else if nlt X (.flt j) (.int 0) then do
          let n ← v.len
          return .list (← cutDown X v (.flt j) floatRounds (.int n))
        else .ok .nil
    else .ok .nil
  | _ => .ok .nil

mutual
def groupBy (X : Ext) (v : Val) : Val → E Val
  | .list l => do return .list (← groupBys X v l)
  | .range lo (some hi) => do return .list (← (rangeInts lo hi).mapM fun i => group1 X v (ofInt i))
  | .range _ none => .error .fuel
  | r => group1 X v r
def groupBys (X : Ext) (v : Val) : List Val → E (List Val)
  | [] => .ok []
  | r :: l => do return (← groupBy X v r) :: (← groupBys X v l)
end

/-- execution.py:1784-1816 -/
def opGROUP (X : Ext) (v : Val) (rhs : Option Val) : E Val := groupBy X v (rhs.getD (ofInt 2))

/-- `CHOP` for a number of pieces that is no List (execution.py:1084-1118) -/
def chop1 (X : Ext) (v rhs : Val) : E Val :=
  match rhs with
  | .scalar s =>
    if v.isIterable then
      if nlt X (.int 0) (toNum X s) then do
        let n ← v.len
        let jump ← ndiv X (.int n) (toNum X s)
        return .list (← cutUp X v n jump floatRounds (.int 0))
      else if nlt X (toNum X s) (.int 0) then do
        let n ← v.len
        let jump ← ndiv X (.int n) (toNum X s)
        return .list (← cutDown X v jump floatRounds (.int n))
      else .ok .nil
    else .ok .nil
  | _ => .ok .nil

mutual
def chopBy (X : Ext) (v : Val) : Val → E Val
  | .list l => do return .list (← chopBys X v l)
  | .range lo (some hi) => do return .list (← (rangeInts lo hi).mapM fun i => chop1 X v (ofInt i))
  | .range _ none => .error .fuel
  | r => chop1 X v r
def chopBys (X : Ext) (v : Val) : List Val → E (List Val)
  | [] => .ok []
  | r :: l => do return (← chopBy X v r) :: (← chopBys X v l)
end

def opCHOP (X : Ext) (v : Val) (rhs : Option Val) : E Val := chopBy X v (rhs.getD (ofInt 2))

/-- The indices of `SPLITAT` (execution.py:3641-3654); `none` is an argument of a wrong type. -/
def splitIndices : Val → E (Option (List Int))
  | .scalar s => .ok (some [toInt s])
  | .range lo (some hi) => .ok (some (rangeInts lo hi))
  | .range _ none => .error .fuel
  | .list l => .ok (l.mapM fun v => match v with | .scalar s => some (toInt s) | _ => none)
  | _ => .ok none

/-- `for i in range(length): ...` (execution.py:3659-3663): the pieces before the last and the start of the last. -/
def splitAtLoop (v : Val) (n : Nat) (ix : List Int) : Nat → Nat → Nat → E (List Val)
  | 0, _, prev => do return [← v.get (.slice (some prev) none)]
  | f + 1, i, prev =>
    if ix.elem (i : Int) || ix.elem ((i : Int) - n) then do
      return (← v.get (.slice (some prev) (some i))) :: (← splitAtLoop v n ix f (i + 1) i)
    else splitAtLoop v n ix f (i + 1) prev

/-- execution.py:3639-3668 -/
def opSPLITAT (v indices : Val) : E Val := do
  let ix ← splitIndices indices
  match ix with
  | none => return .nil
  | some ix =>
    if v.isIterable then do
      let n ← v.len
      return .list (← splitAtLoop v n ix n 0 0)
    else return .nil

/-- execution.py:3609-3637. A group of the separator that took no part in the match is None, whose text is "None". -/
def opSPLIT (X : Ext) (string : Val) (sep : Option Val) : E Val :=
  match sep with
  | none =>
    match string with
    | .scalar s => .ok (.list (s.map fun c => .scalar [c]))
    | _ => .ok .nil
  | some (.scalar t) =>
    match string with
    | .scalar s =>
      if t.isEmpty then .ok (.list (s.map fun c => .scalar [c])) else .ok (.list ((splitStr t s).map .scalar))
    | _ => .ok .nil
  | some (.pattern r f) =>
    match string with
    | .scalar s =>
      if r.isEmpty then .ok (.list (s.map fun c => .scalar [c]))
      else do return .list ((← X.split r f s).map fun p => .scalar (p.getD (s% "None")))
    | _ => .ok .nil
  | some _ => .ok .nil

/-! ### Zipping -/

/-- The items at position `i` of the lists that have one -/
def column {α : Type} (ls : List (List α)) (i : Nat) : List α := ls.filterMap (·[i]?)

/-- `zip(*lists)` -/
def zipAll {α : Type} : List (List α) → List (List α)
  | [] => []
  | l :: ls => (List.range (ls.foldl (fun m l => min m l.length) l.length)).map (column (l :: ls))

/-- `itertools.zip_longest(*lists, fillvalue=d)` -/
def zipLongest {α : Type} (d : α) (ls : List (List α)) : List (List α) :=
  (List.range (ls.foldl (fun m l => max m l.length) 0)).map fun i => ls.map fun l => l.getD i d

/-- The items of iterables for `zip`: infinite Ranges are cut at the length of the shortest finite iterable; if all are
infinite (and there are any), the loop does not end. -/
def zipPools (vs : List Val) : E (List (List Val)) :=
  let lens := vs.filterMap fun v => v.len.toOption
  match lens with
  | [] => if vs.isEmpty then .ok [] else .error .fuel
  | n :: ns =>
    let m := ns.foldl min n
    .ok (vs.map fun v => match v with
      | .scalar s => s.map fun c => .scalar [c]
      | .list l => l
      | .range lo hi => rangeTake lo hi m
      | _ => [])

/-- execution.py:4274-4293 -/
def opZIP (list1 : Val) (list2 : Option Val) : E Val :=
  let lists : Option (E (List Val)) := match list2 with
    | none => if list1.isIterable then some list1.items else none
    | some l2 => some (.ok [list1, l2])
  match lists with
  | none => .ok .nil
  | some lists => do
    let lists ← lists
    if lists.any fun v => !v.isIterable then return .nil
    else return .list ((zipAll (← zipPools lists)).map .list)

/-- execution.py:4295-4312; the warning for a non-iterable refers to an undefined name. -/
def opZIPDEFAULT (lists : Val) (default : Option Val) : E Val :=
  if lists.isIterable then do
    let items ← lists.items
    if items.any fun v => !v.isIterable then return .nil
    else return .list ((zipLongest (default.getD (.scalar [])) (← items.mapM Val.items)).map .list)
  else .error .nameError

/-- execution.py:4314-4341 -/
def opZIPJOIN (X : Ext) (line1 : Val) (line2 : Option Val) : E Val :=
  let lines : Option (E (Bool × List Val)) := match line2 with
    | none =>
      match line1 with
      | .scalar s => some (.ok (true, (splitStr (s% "\n") s).map .scalar))
      | v => if v.isIterable then some (do return (false, ← v.items)) else none
    | some l2 => some (.ok (false, [line1, l2]))
  match lines with
  | none => .ok .nil
  | some lines => do
    let (isScalar, lines) ← lines
    let pools ← lines.mapM fun v => if v.isIterable then v.items else Val.items (.scalar (v.str X.fmt))
    let result ← (zipLongest (.scalar (s% " ")) pools).mapM fun t => joinPy t none
    if isScalar then joinPy result (some (.scalar (s% "\n"))) else return .list result

/-! ### Weaving -/

/-- `result[index % strands].append(item)` for all items (execution.py:4152-4154) -/
def unweaveLoop {α : Type} (k : Nat) : Nat → List α → List (List α) → List (List α)
  | _, [], acc => acc
  | i, x :: l, acc => unweaveLoop k (i + 1) l (acc.modify (i % k) (· ++ [x]))

/-- The items distributed into `k` strands -/
def unweave {α : Type} (k : Nat) (l : List α) : List (List α) := unweaveLoop k 0 l (List.replicate k [])

/-- execution.py:4131-4168 -/
def opUNWEAVE (iterable : Val) (strands : Option Val) : E Val :=
  let k : Option Int := match strands with
    | none => some 2
    | some (.scalar s) => some (toInt s)
    | some _ => none
  match iterable, k with
  | .range _ none, _ => .ok .nil
  | _, none => .ok .nil
  | v, some k =>
    if v.isIterable then
      if k < 1 then .ok .nil
      else
        match v with
        | .scalar s => do
          return .list (← (unweave k.toNat (s.map fun c => Val.scalar [c])).mapM fun t => joinPy t none)
        | v => do return .list ((unweave k.toNat (← v.items)).map .list)
    else .ok .nil

/-- `for i in range(max(map(len, lists))): for l in lists: if i < len(l): result.append(l[i])`
(execution.py:4201-4204, 4219-4224) -/
def weave {α : Type} (ls : List (List α)) : List α :=
  (List.range (ls.foldl (fun m l => max m l.length) 0)).flatMap (column ls)

/-- The items of the lists to weave: nil counts as an empty Scalar (execution.py:4191-4200, 4211-4214) -/
def weaveItem (v : Val) : Val := if v.isNil then .scalar [] else v

/-- `len` must be defined for all, so infinite Ranges raise ValueError. -/
def weavePools (vs : List Val) : E (List (List Val)) := vs.mapM fun v => do
  let _ ← v.len
  v.items

/-- execution.py:4179-4233; `none` is Python's None (no branch for a unary argument of another type). -/
def opWEAVE (iterable1 : Val) (iterable2 : Option Val) : E (Option Val) :=
  match iterable2 with
  | none =>
    match iterable1 with
    | .scalar s => .ok (some (.scalar s))
    | .list _ | .range _ _ => do
      let items ← iterable1.items
      if items.any fun v => v.isBlock || v.isPattern then return some .nil
      else
        let pools ← weavePools (items.map weaveItem)
        if pools.isEmpty then .error .valueError
        else if items.any Val.isListy then return some (.list (weave pools))
        else do
          match ← joinPy (weave pools) none with
          | .scalar s => return some (.scalar s)
          | v => return some v
    | _ => .ok none
  | some i2 =>
    if (weaveItem iterable1).isIterable && (weaveItem i2).isIterable then do
      let pools ← weavePools [weaveItem iterable1, weaveItem i2]
      if (weaveItem iterable1).isScalar && (weaveItem i2).isScalar then return some (← joinPy (weave pools) none)
      else return some (.list (weave pools))
    else .ok (some .nil)

/-! ### Replacing and removing -/

mutual
/-- execution.py:3245-3276. The result of an inner replacement may be nil. -/
def replaceAt (X : Ext) : Val → Val → Val → E Val
  | .list ix, lhs, new =>
    if lhs.isIterable then
      match new with
      | .list ns => replaceAtEach X ix lhs ns 0
      | _ => replaceAtAll X ix lhs new
    else .ok .nil
  | .scalar i, lhs, new => if lhs.isIterable then lhs.set X.fmt (.int (toInt i)) new else .ok .nil
  | .range lo hi, lhs, new => if lhs.isIterable then lhs.set X.fmt (.slice lo hi) new else .ok .nil
  | .nil, lhs, _ => .ok lhs
  | .pattern _ _, _, _ => .ok .nil
  | .block _ _, _, _ => .ok .nil
/-- Corresponding indices and new values, which are repeated if necessary. -/
def replaceAtEach (X : Ext) : List Val → Val → List Val → Nat → E Val
  | [], r, _, _ => .ok r
  | ix :: l, r, ns, i => do
    let n ← Val.get (.list ns) (.int i)
    replaceAtEach X l (← replaceAt X ix r n) ns (i + 1)
def replaceAtAll (X : Ext) : List Val → Val → Val → E Val
  | [], r, _ => .ok r
  | ix :: l, r, new => do replaceAtAll X l (← replaceAt X ix r new) new
end

/-- execution.py:3245-3276 -/
def opREPLACEAT (X : Ext) (lhs index new : Val) : E Val := replaceAt X index lhs new

mutual
/-- `REMOVE(result, rhs)` where `result` is a Scalar or nil (execution.py:3279-3296) -/
def removeFrom (X : Ext) : Val → Val → E Val
  | .scalar t, .scalar s => .ok (.scalar (replaceStr t [] s))
  | .pattern r f, .scalar s => do return .scalar (← X.sub r f [] s)
  | .list l, .scalar s => do return .scalar ((← removeFroms X l (.scalar s)).str X.fmt)
  | .range lo (some hi), .scalar s =>
    .ok (.scalar ((rangeInts lo hi).foldl (fun acc i => replaceStr (showInt i) [] acc) s))
  | .range _ none, .scalar _ => .error .fuel
  | .nil, .scalar s => .ok (.scalar s)
  | _, _ => .ok .nil
def removeFroms (X : Ext) : List Val → Val → E Val
  | [], r => .ok r
  | v :: l, r => do removeFroms X l (← removeFrom X v r)
end

/-- execution.py:3278-3306 -/
def opREMOVE (X : Ext) (lhs rhs : Val) : E Val :=
  match lhs with
  | .scalar s => removeFrom X rhs (.scalar s)
  | v => if v.isIterable then do return .list ((← v.pyList).filter fun x => !pyEq rhs x) else .ok .nil

/-- execution.py:1206-1215 -/
def opDELETECHARS : Val → Val → E Val
  | .scalar s, .scalar cs => .ok (.scalar (s.filter fun c => !cs.elem c))
  | s, _ => .ok s

/-! ### Stripping and trimming -/

/-- Which ends to strip -/
inductive Side where
  | left | right | both
  deriving DecidableEq, Repr

/-- `str.strip`, `lstrip`, `rstrip` with characters -/
def Side.chars : Side → Str → Str → Str
  | .left => lstripChars
  | .right => rstripChars
  | .both => stripChars

/-- `str.strip()`, `lstrip()`, `rstrip()` -/
def Side.space : Side → Str → Str
  | .left => lstrip
  | .right => rstrip
  | .both => strip

/-- `new = rgx.sub("", old)`, repeated until nothing changes. Every change shortens the string, so its length bounds
the number of rounds. -/
def resubLoop (X : Ext) (raw : Str) : Nat → Str → E Str
  | 0, _ => .error .unmodelled
  | n + 1, s => do
    let t ← X.resub raw s
    if t = s then return s else resubLoop X raw n t

/-- execution.py:2138-2151, 3443-3456, 3767-3785; the flags of the Pattern are ignored. -/
def Side.pattern (X : Ext) (side : Side) (raw : Str) (s : Str) : E Str :=
  if raw.isEmpty then .ok s
  else
    match side with
    | .left => resubLoop X ('^' :: raw) (s.length + 1) s
    | .right => resubLoop X (raw ++ ['$']) (s.length + 1) s
    | .both => do
      let t ← resubLoop X ('^' :: raw) (s.length + 1) s
      resubLoop X (raw ++ ['$']) (t.length + 1) t

mutual
/-- The strip operators on a string that is no List (execution.py:2120-2156, 3425-3461, 3749-3790) -/
def stripWith (X : Ext) (side : Side) : Val → Val → E Val
  | .nil, v => .ok v
  | .block _ _, _ => .ok .nil
  | .list l, .scalar s => stripWiths X side l (.scalar s)
  | .range lo (some hi), .scalar s =>
    .ok (.scalar ((rangeInts lo hi).foldl (fun acc i => side.chars (showInt i) acc) s))
  | .range _ none, .scalar _ => .error .fuel
  | .scalar cs, .scalar s => .ok (.scalar (side.chars cs s))
  | .pattern r _, .scalar s => do return .scalar (← side.pattern X r s)
  | _, _ => .ok .nil
def stripWiths (X : Ext) (side : Side) : List Val → Val → E Val
  | [], v => .ok v
  | e :: l, v => do stripWiths X side l (← stripWith X side e v)
end

/-- The same with an optional second argument -/
def strip1 (X : Ext) (side : Side) (extra : Option Val) (v : Val) : E Val :=
  match extra with
  | some e => stripWith X side e v
  | none =>
    match v with
    | .scalar s => .ok (.scalar (side.space s))
    | _ => .ok .nil

mutual
/-- execution.py:2120-2156, 3425-3461, 3749-3790 -/
def stripOp (X : Ext) (side : Side) (extra : Option Val) : Val → E Val
  | .list l =>
    match extra with
    | some .nil => .ok (.list l)
    | some (.block _ _) => .ok .nil
    | _ => do return .list (← stripOps X side extra l)
  | .range lo hi =>
    match extra with
    | some .nil => .ok (.range lo hi)
    | some (.block _ _) => .ok .nil
    | _ => match hi with
      | some h => do return .list (← (rangeInts lo h).mapM fun i => strip1 X side extra (ofInt i))
      | none => .error .fuel
  | v => strip1 X side extra v
def stripOps (X : Ext) (side : Side) (extra : Option Val) : List Val → E (List Val)
  | [] => .ok []
  | v :: l => do return (← stripOp X side extra v) :: (← stripOps X side extra l)
end

def opLSTRIP (X : Ext) (v : Val) (extra : Option Val) : E Val := stripOp X .left extra v
def opRSTRIP (X : Ext) (v : Val) (extra : Option Val) : E Val := stripOp X .right extra v
def opSTRIP (X : Ext) (v : Val) (extra : Option Val) : E Val := stripOp X .both extra v

/-- `TRIM` of a string that is no Range (execution.py:4077-4099): `string[front:len(string)-back]` -/
def trim1 (extra : Option Val) (v : Val) : E Val :=
  let go (front back : Int) : E Val :=
    match v with
    | .scalar s =>
      .ok (.scalar (pySlice s (some (max front 0)) (some ((s.length : Int) - max back 0))))
    | _ => .ok .nil
  match extra with
  | none => go 1 1
  | some (.scalar e) => go (toInt e) (toInt e)
  | some (.range lo hi) => go (lo0 lo) (hi.getD 0)
  | some .nil => .ok v
  | some _ => .ok .nil

/-- execution.py:4071-4099 -/
def opTRIM (v : Val) (extra : Option Val) : E Val :=
  match v with
  | .range lo (some hi) => do return .list (← (rangeInts lo hi).mapM fun i => trim1 extra (ofInt i))
  | .range _ none => .error .fuel
  | v => trim1 extra v

/-- execution.py:1916-1923, 2111-2118, 3921-3928, 3937-3944, 4170-4177 -/
def caseOp (f : Str → Str) : Val → E Val
  | .scalar s => .ok (.scalar (f s))
  | .range lo hi => .ok (.range lo hi)
  | _ => .ok .nil

def opLOWERCASE (X : Ext) := caseOp X.lower
def opUPPERCASE (X : Ext) := caseOp X.upper
def opSWAPCASE (X : Ext) := caseOp X.swapcase
def opTITLECASE (X : Ext) := caseOp X.title
def opINITIALCAPS (X : Ext) := caseOp X.capitalize

/-! ### Transliteration -/

/-- One of the two tables of `TRANSLITERATE` (execution.py:4043-4058): `none` is an entry of a wrong type, `some none`
is nil, which is only allowed in the second table. -/
def trEntry (X : Ext) (isStr : Bool) (v : Val) : Option (Option (Num X.F)) :=
  match v with
  | .scalar s => if isStr then some (some (.int (s.headD ' ').toNat)) else some (some (toNum X s))
  | .nil => some none
  | _ => none

/-- The pairs of the mapping, in order of insertion; entries with a wrong type are skipped. -/
def trPairs (X : Ext) (so sn : Bool) : List Val → List Val → List (Num X.F × Option (Num X.F))
  | o :: os, n :: ns =>
    match trEntry X so o, trEntry X sn n with
    | some (some k), some v => (k, v) :: trPairs X so sn os ns
    | _, _ => trPairs X so sn os ns
  | _, _ => []

/-- `str.translate` on one character: the last entry for the character counts; a number is a code point, None deletes,
a float raises TypeError. -/
def trChar (X : Ext) (m : List (Num X.F × Option (Num X.F))) (c : Char) : E Str :=
  match m.reverse.find? fun p => neq X (.int c.toNat) p.1 with
  | none => .ok [c]
  | some (_, none) => .ok []
  | some (_, some (.flt _)) => .error .typeError
  | some (_, some (.int n)) =>
    if n < 0 ∨ n ≥ 0x110000 then .error .valueError
    else if 0xD800 ≤ n ∧ n < 0xE000 then .error .unmodelled
    else .ok [Char.ofNat n.toNat]

/-- `TRANSLITERATE` of a value that is no List (execution.py:4018-4069) -/
def trans1 (X : Ext) (old new : Val) (lhs : Val) : E Val :=
  match lhs with
  | .scalar s =>
    if old.isIterable && new.isIterable then
      if old.isInf && new.isInf then .ok .nil
      else do
        match ← zipPools [old, new] with
        | [os, ns] =>
          let m := trPairs X old.isScalar new.isScalar os ns
          return .scalar (← s.mapM (trChar X m)).flatten
        | _ => return .nil
    else .ok .nil
  | _ => .ok .nil

mutual
/-- execution.py:4010-4069 -/
def translit (X : Ext) (old new : Val) : Val → E Val
  | .list l => do return .list (← translits X old new l)
  | .range lo (some hi) => do return .list (← (rangeInts lo hi).mapM fun i => trans1 X old new (ofInt i))
  | .range _ none => .error .fuel
  | v => trans1 X old new v
def translits (X : Ext) (old new : Val) : List Val → E (List Val)
  | [] => .ok []
  | v :: l => do return (← translit X old new v) :: (← translits X old new l)
end
def opTRANSLITERATE (X : Ext) (lhs old new : Val) : E Val := translit X old new lhs

/-! ### Patterns, text -/

mutual
/-- `str(self.REGEX(v))` (execution.py:3155-3169) -/
def regexRaw : Val → E Str
  | .pattern r _ => .ok r
  | .scalar s => .ok (wrapRaw (reEscape s))
  | .range lo (some hi) => .ok (wrapRaw (joinStr (s% "|") ((rangeInts lo hi).map fun i => reEscape (showInt i))))
  | .range _ none => .error .fuel
  | .list l => do return wrapRaw (joinStr (s% "|") (← regexRaws l))
  | .block _ _ => .ok []
  | .nil => .ok []
def regexRaws : List Val → E (List Str)
  | [] => .ok []
  | v :: l => do return (← regexRaw v) :: (← regexRaws l)
end

/-- execution.py:3155-3169 -/
def opREGEX : Val → E Val
  | .pattern r f => .ok (.pattern r f)
  | .block _ _ => .ok .nil
  | .nil => .ok .nil
  | v => do return .pattern (← regexRaw v) {}

/-- execution.py:2000-2007 -/
def opKLEENESTAR : Val → E Val
  | .pattern r f => .ok (.pattern (wrapRaw r ++ s% "*") f)
  | .scalar s => do return .pattern ((← regexRaw (.scalar s)) ++ s% "*") {}
  | .range lo hi => do return .pattern ((← regexRaw (.range lo hi)) ++ s% "*") {}
  | _ => .ok .nil

/-- execution.py:3308-3309, 3694-3695 -/
def opREPR (v : Val) : E Val := .ok (.scalar v.repr)
def opSTR (X : Ext) (v : Val) : E Val := .ok (.scalar (v.str X.fmt))

mutual
/-- execution.py:2454-2461 -/
def notIn (X : Ext) : Val → Val → E Val
  | .list l, .scalar s => do return .list (← notIns X l (.scalar s))
  | .range lo hi, .scalar s =>
    match hi with
    | some h => .ok (.list ((rangeInts lo h).map fun i => ofBool (!isSub (showInt i) s)))
    | none => .error .fuel
  | .pattern r f, .scalar s => do return ofBool (← X.search r f s).isNone
  | needle, haystack => do return ofBool (!(← Val.contains X needle haystack))
def notIns (X : Ext) : List Val → Val → E (List Val)
  | [], _ => .ok []
  | v :: l, h => do return (← notIn X v h) :: (← notIns X l h)
end
def opNOTIN (X : Ext) (needle haystack : Val) : E Val := notIn X needle haystack

end Pip
