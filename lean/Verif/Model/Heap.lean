import Verif.Model.Eval
/-!
# Variables as references

Scalars and Lists are mutable objects: assigning to an index of a variable (`x@0:5`) changes the object in place. The rest
of the model lets variables hold values. This file models variables, reading and assigning with objects on a heap, for
statements like `x@i@j:y@k`, `x@i:v` with a newly made value `v`, `[x;y]:[y;x]` and `x SW y`. `Props/Heap.lean` proves that
the values on the heap are then those of the rest of the model, and shows programs for which they are not.

Simplification: an object of any other type (Range, Pattern, Block, Nil) is immutable, and `const` stands for it. Special
variables and the variable PIP are left out. A Python object that nothing refers to any more stays on the heap.
-/

namespace Pip

abbrev Addr := Nat

/-- `Scalar._value`, `List._value`; anything else -/
inductive Obj where
  | scalar (s : Str)
  | list (l : List Addr)
  | const (v : Val)

abbrev Heap := List Obj

namespace Heap

/-- A new object -/
def alloc (h : Heap) (o : Obj) : Addr × Heap := (h.length, h ++ [o])

mutual
/-- A new object with the value `v`, made of new objects -/
def put (h : Heap) : Val → Addr × Heap
  | .scalar s => h.alloc (.scalar s)
  | .list l =>
    let (as, h) := puts h l
    h.alloc (.list as)
  | v => h.alloc (.const v)
def puts (h : Heap) : List Val → List Addr × Heap
  | [] => ([], h)
  | v :: l =>
    let (a, h) := put h v
    let (as, h) := puts h l
    (a :: as, h)
end

mutual
/-- The value of an object; the fuel bounds the depth, `none` if it does not suffice. -/
def load : Nat → Heap → Addr → Option Val
  | 0, _, _ => none
  | n + 1, h, a =>
    match h[a]? with
    | some (.scalar s) => some (.scalar s)
    | some (.list l) => (loads n h l).map .list
    | some (.const v) => some v
    | none => none
def loads : Nat → Heap → List Addr → Option (List Val)
  | _, _, [] => some []
  | 0, _, _ => none
  | n + 1, h, a :: l =>
    match load n h a, loads n h l with
    | some v, some vs => some (v :: vs)
    | _, _ => none
end

mutual
/-- `copy` (ptypes.py:44-45, 222-226, 336-337, 509-511, 692-693, 743-745) -/
def copy : Nat → Heap → Addr → Option (Addr × Heap)
  | 0, _, _ => none
  | n + 1, h, a =>
    match h[a]? with
    | some (.scalar s) => some (h.alloc (.scalar s))
    | some (.list l) => (copies n h l).map fun p => p.2.alloc (.list p.1)
    | some (.const v) => some (h.alloc (.const v))
    | none => none
def copies : Nat → Heap → List Addr → Option (List Addr × Heap)
  | _, h, [] => some ([], h)
  | 0, _, _ => none
  | n + 1, h, a :: l =>
    match copy n h a with
    | none => none
    | some (b, h) =>
      match copies n h l with
      | none => none
      | some (bs, h) => some (b :: bs, h)
end

/-- `result[index]` (ptypes.py:106-142, 397-433, 603-659) -/
def getItem (h : Heap) (a : Addr) (i : Idx) : Except Exc (Addr × Heap) :=
  match h[a]?, i with
  | some (.scalar s), .int k =>
    match s[(k % s.length).toNat]? with
    | some c => .ok (h.alloc (.scalar [c]))
    | none => .error .indexError
  | some (.scalar s), .slice lo hi =>
    if s.isEmpty then .ok (a, h) else .ok (h.alloc (.scalar (cycSlice s lo hi)))
  | some (.list l), .int k =>
    match l[(k % l.length).toNat]? with
    | some b => .ok (b, h)
    | none => .error .indexError
  | some (.list l), .slice lo hi =>
    if l.isEmpty then .ok (a, h) else .ok (h.alloc (.list (cycSlice l lo hi)))
  | some (.const v), i => (v.get i).map h.put
  | none, _ => .error .unmodelled

/-- `iter(item)` for the object assigned to a slice: the items of a List are the objects themselves. -/
def iterItems (h : Heap) (a : Addr) : Except Exc (List Addr × Heap) :=
  match h[a]? with
  | some (.scalar s) => .ok (h.puts (s.map fun c => .scalar [c]))
  | some (.list l) => .ok (l, h)
  | some (.const v) => v.pyList.map h.puts
  | none => .error .unmodelled

/-- `currentVal[index] = rval` (ptypes.py:144-150, 435-438) -/
def setItem (n : Nat) (f : Fmt) (h : Heap) (a : Addr) (i : Idx) (r : Addr) : Except Exc Heap :=
  match h[a]?, i with
  | some (.scalar s), .int k =>
    if s.isEmpty then .error .zeroDivision
    else
      match load n h r with
      | none => .error .fuel
      | some v => .ok (h.set a (.scalar (s.take (k % s.length).toNat ++ v.str f ++ s.drop ((k % s.length).toNat + 1))))
  | some (.scalar s), .slice lo hi =>
    match load n h r with
    | none => .error .fuel
    | some v => .ok (h.set a (.scalar (pySetSlice s lo hi (v.str f))))
  | some (.list l), .int k =>
    if l.isEmpty then .error .zeroDivision else .ok (h.set a (.list (l.set (k % l.length).toNat r)))
  | some (.list l), .slice lo hi =>
    (iterItems h r).map fun p => p.2.set a (.list (pySetSlice l lo hi p.1))
  | some (.const _), _ => .error .typeError
  | none, _ => .error .unmodelled

/-- The indices from the last but one on, and the assignment (execution.py:375-393) -/
def setPath (n : Nat) (f : Fmt) (r : Addr) : List Idx → Heap → Addr → Except Exc Heap
  | [], h, _ => .ok h
  | i :: is, h, a =>
    if is.isEmpty then
      match h.setItem n f a i r with
      | .error .indexError => .ok h
      | .error .zeroDivision => .ok h
      | x => x
    else
      match h.getItem a i with
      | .error .indexError => .error .nameError
      | .error e => .error e
      | .ok (b, h) => setPath n f r is h b

/-- `isinstance(result, PipIterable)` -/
def isIterable (h : Heap) (a : Addr) : Bool :=
  match h[a]? with
  | some (.const v) => v.isIterable
  | _ => true

/-- `for index in expr.sliceList: result = result[index]`, `return result.copy()` (execution.py:293-303) -/
def readPath (n : Nat) : List Idx → Heap → Addr → Except Exc (Addr × Heap)
  | [], h, a =>
    match copy n h a with
    | some p => .ok p
    | none => .error .fuel
  | i :: is, h, a =>
    if h.isIterable a then
      match h.getItem a i with
      | .error .indexError => .ok (h.alloc (.const .nil))
      | .error e => .error e
      | .ok (b, h) => readPath n is h b
    else .ok (h.alloc (.const .nil))

/-- MAP of a value that is no function over `k` items: `List(lhs for item in iterable)`, the same object `k` times
(execution.py:2169-2174); MAPCOORDS likewise (execution.py:2219-2221). -/
def mapConst (h : Heap) (a : Addr) (k : Nat) : Addr × Heap := h.alloc (.list (List.replicate k a))

/-- The fold of a chaining operator over one item, `$<[5]`: the constant SCALAR_ONE itself (execution.py:20, 659-660). -/
def foldChain1 (one : Addr) (h : Heap) : Addr × Heap := (one, h)

/-- INC adds the value of SCALAR_ONE (execution.py:1882-1884). -/
def incBy (n : Nat) (one : Addr) (h : Heap) : Option Val := load n h one

end Heap

/-- Variables and the heap -/
structure HSt where
  heap : Heap
  vars : Str → Option Addr

namespace HSt

def setVar (s : HSt) (x : Str) (a : Addr) : HSt := { s with vars := fun m => if m = x then some a else s.vars m }

/-- `assign` for a name (execution.py:350-398); what was done before an exception stays done. -/
def assign (n : Nat) (f : Fmt) (s : HSt) (x : Str) (sl : List Idx) (r : Addr) : Except Exc Unit × HSt :=
  if sl.isEmpty then (.ok (), s.setVar x r)
  else
    match s.vars x with
    | none => (.ok (), s)
    | some a =>
      match s.heap[a]? with
      | some (.const (.range lo hi)) =>
        match (Val.range lo hi).items with
        | .error e => (.error e, s)
        | .ok l =>
          let (b, h) := s.heap.put (.list l)
          match h.setPath n f r sl b with
          | .error e => (.error e, HSt.setVar ⟨h, s.vars⟩ x b)
          | .ok h => (.ok (), HSt.setVar ⟨h, s.vars⟩ x b)
      | some (.const _) => (.ok (), s)
      | some _ =>
        match s.heap.setPath n f r sl a with
        | .error e => (.error e, s)
        | .ok h => (.ok (), ⟨h, s.vars⟩)
      | none => (.error .unmodelled, s)

/-- `getRval` of an Lval (execution.py:284-303) -/
def read (n : Nat) (s : HSt) (x : Str) (sl : List Idx) : Except Exc Addr × HSt :=
  match s.vars x with
  | none => let (a, h) := s.heap.alloc (.const .nil); (.ok a, ⟨h, s.vars⟩)
  | some a =>
    match s.heap.readPath n sl a with
    | .error e => (.error e, s)
    | .ok (b, h) => (.ok b, ⟨h, s.vars⟩)

mutual
/-- `getRval` of an Lval (execution.py:258-303) -/
def readL (n : Nat) (s : HSt) : Lval → Except Exc Addr × HSt
  | .name x _ sl => s.read n x sl
  | .list ls _ =>
    match readLs n s ls with
    | (.error e, s) => (.error e, s)
    | (.ok as, s) =>
      let (a, h) := s.heap.alloc (.list as)
      (.ok a, ⟨h, s.vars⟩)
def readLs (n : Nat) (s : HSt) : List Lval → Except Exc (List Addr) × HSt
  | [] => (.ok [], s)
  | l :: ls =>
    match readL n s l with
    | (.error e, s) => (.error e, s)
    | (.ok a, s) =>
      match readLs n s ls with
      | (.error e, s) => (.error e, s)
      | (.ok as, s) => (.ok (a :: as), s)
end

/-- The objects that a destructuring assignment to `k` lvalues uses (execution.py:315-324); the items of a List are the
objects themselves. -/
def firstItems (k : Nat) (h : Heap) (a : Addr) : Option (List Addr × Heap) :=
  match h[a]? with
  | some (.scalar s) => some (h.puts (s.map fun c => .scalar [c]))
  | some (.list l) => some (l, h)
  | some (.const v) => (Pip.firstItems k v).map h.puts
  | none => none

mutual
/-- `assign` (execution.py:308-398) -/
def assignL (n : Nat) (f : Fmt) (s : HSt) : Lval → Addr → Except Exc Unit × HSt
  | .name x _ sl, r => s.assign n f x sl r
  | .list ls _, r =>
    match firstItems ls.length s.heap r with
    | none => (.ok (), s)
    | some (as, h) => assignLs n f ⟨h, s.vars⟩ ls as
/-- The loop over `zip_longest` (execution.py:325-339) -/
def assignLs (n : Nat) (f : Fmt) (s : HSt) : List Lval → List Addr → Except Exc Unit × HSt
  | [], _ => (.ok (), s)
  | l :: ls, [] =>
    let (a, h) := s.heap.alloc (.const .nil)
    match assignL n f ⟨h, s.vars⟩ l a with
    | (.error e, s) => (.error e, s)
    | (.ok _, s) => assignLs n f s ls []
  | l :: ls, a :: as =>
    match assignL n f s l a with
    | (.error e, s) => (.error e, s)
    | (.ok _, s) => assignLs n f s ls as
end

end HSt

/-- Statements: `l:v` with a newly made value, `l:m` and `l SW m` with lvalues -/
inductive Stmt where
  | val (l : Lval) (v : Val)
  | copy (l m : Lval)
  | swap (l m : Lval)

/-- ASSIGN and SWAP (execution.py:855-864, 3905-3919) -/
def HSt.step (n : Nat) (f : Fmt) (s : HSt) : Stmt → Except Exc Unit × HSt
  | .val l v =>
    let (a, h) := s.heap.put v
    HSt.assignL n f ⟨h, s.vars⟩ l a
  | .copy l m =>
    match s.readL n m with
    | (.error e, s) => (.error e, s)
    | (.ok a, s) => s.assignL n f l a
  | .swap l m =>
    match s.readL n l with
    | (.error e, s) => (.error e, s)
    | (.ok a, s) =>
      match s.readL n m with
      | (.error e, s) => (.error e, s)
      | (.ok b, s) =>
        match s.assignL n f l b with
        | (.error e, s) => (.error e, s)
        | (.ok _, s) => s.assignL n f m a

/-- Statements up to the first exception -/
def HSt.steps (n : Nat) (f : Fmt) : HSt → List Stmt → Except Exc Unit × HSt
  | s, [] => (.ok (), s)
  | s, p :: ps =>
    match s.step n f p with
    | (.error e, s) => (.error e, s)
    | (.ok _, s) => steps n f s ps

end Pip
