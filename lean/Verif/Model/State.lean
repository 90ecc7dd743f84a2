import Verif.Model.OpsSeq
import Verif.Model.Parse
/-!
# The state of a running program

`ProgramState` (execution.py:23-51) and the monad in which the evaluator runs. The state survives exceptions: what a
computation had done before raising stays done.

Simplification: variables hold values, not references. In the code an assignment to an index (`x@0:5`) mutates an object
in place, which is visible through every other reference to the same object. Reading a variable makes a deep copy
(execution.py:302), so most programs cannot tell; those that can are described in `Model/Heap.lean`.

Warnings (`err.warn`, errors.py:31-34) only write to the error stream and are left out.
-/

namespace Pip

/-- `class LocalScope` (execution.py:4380-4389): the running function and its local variables. -/
structure Scope where
  fn : Option Val
  vars : Str → Option Val

/-- `ProgramState` (execution.py:23-51) together with the standard streams and the random number generator.
`scopes` is `scope :: below`, innermost first; `localScope` is `scope`. -/
structure St (X : Ext) where
  /-- global variables -/
  vars : Str → Option Val
  /-- `localScope` -/
  scope : Scope
  /-- the suspended scopes, innermost first -/
  below : List Scope
  /-- `callDepth` -/
  depth : Int
  args : List Val
  /-- `mainFunction` -/
  main : Option Val
  /-- the lines not read yet -/
  inp : List Str
  /-- the text written to standard output -/
  out : Str
  rng : X.Rng
  /-- the fields `evaluated` of the Lvals of special variables (execution.py:275-283), by number -/
  cells : Nat → Option Val
  /-- the number of cells allocated -/
  ncell : Nat
  /-- Not part of the code: how often SORTKEYED and DESCENDINGKEYED caught a TypeError raised by their key function. -/
  swallowed : Nat

/-- Computations: an exception or a result, and the new state. -/
def M (X : Ext) (α : Type) : Type := St X → Except Exc α × St X

variable {X : Ext} {α β : Type}

namespace M

protected def pure (a : α) : M X α := fun s => (.ok a, s)
protected def bind (x : M X α) (f : α → M X β) : M X β := fun s =>
  match x s with
  | (.ok a, s') => f a s'
  | (.error e, s') => (.error e, s')

instance : Monad (M X) where
  pure := M.pure
  bind := M.bind

def throw (e : Exc) : M X α := fun s => (.error e, s)

def lift (x : Except Exc α) : M X α := fun s => (x, s)

def get : M X (St X) := fun s => (.ok s, s)

/-- `except TypeError: self.err.die(...)` (execution.py:228-231) -/
def dieType (x : M X α) : M X α := fun s =>
  match x s with
  | (.error .typeError, s') => (.error .fatal, s')
  | r => r

/-- `except TypeError: return nil` around calls of a function (execution.py:1291-1296, 3560-3564). The scopes opened by
the calls that raised are not closed. -/
def catchType (x : M X α) (a : α) : M X α := fun s =>
  match x s with
  | (.error .typeError, s') => (.ok a, { s' with swallowed := s'.swallowed + 1 })
  | r => r

end M

/-- `varTable` (execution.py:235-242): `varName in "abcdefg"`, a substring test, or `\$_+`. -/
def isLocal (n : Str) : Bool :=
  isSub n (s% "abcdefg") || (match n with | '$' :: r => !r.isEmpty && r.all (· == '_') | _ => false)

/-- Update of a table of variables -/
def setFn (t : Str → Option Val) (n : Str) (v : Val) : Str → Option Val := fun m => if m = n then some v else t m

/-- `varTable(name).get(name)` -/
def St.var (s : St X) (n : Str) : Option Val := if isLocal n then s.scope.vars n else s.vars n

namespace M

/-- `varTable(name)[name] = value` -/
def setVar (n : Str) (v : Val) : M X Unit := fun s =>
  (.ok (), if isLocal n then { s with scope := { s.scope with vars := setFn s.scope.vars n v } }
    else { s with vars := setFn s.vars n v })

/-- `print(text, end="")` -/
def emit (t : Str) : M X Unit := fun s => (.ok (), { s with out := s.out ++ t })

/-- `input()`, `none` for EOFError -/
def readLine : M X (Option Str) := fun s =>
  match s.inp with
  | [] => (.ok none, s)
  | l :: ls => (.ok (some l), { s with inp := ls })

/-- `random.randrange(n)` for `n > 0`, `random._randbelow(n)` -/
def randBelow (n : Nat) : M X Nat := fun s =>
  (.ok ((X.below n s.rng).1 % n), { s with rng := (X.below n s.rng).2 })

/-- `Scalar(random.random())` -/
def randFloat : M X Val := fun s =>
  (.ok (ofNum X (.flt (X.random s.rng).1)), { s with rng := (X.random s.rng).2 })

/-- `random.seed(text)` -/
def seed (t : Str) : M X Unit := fun s => (.ok (), { s with rng := X.seed t })

/-- A new Lval object of a special variable, with the given field `evaluated`. -/
def newCell (v : Option Val) : M X Nat := fun s =>
  (.ok s.ncell, { s with cells := fun k => if k = s.ncell then v else s.cells k, ncell := s.ncell + 1 })

/-- `if expr.evaluated is None: expr.evaluated = x` and its value (execution.py:275-283) -/
def cellOr (k : Nat) (x : M X Val) : M X Val := fun s =>
  match s.cells k with
  | some v => (.ok v, s)
  | none =>
    match x s with
    | (.ok v, s') => (.ok v, { s' with cells := fun j => if j = k then some v else s'.cells j })
    | (.error e, s') => (.error e, s')

end M

/-- `LocalScope(function, argList)` (execution.py:4380-4389) -/
def localVars (fn : Option Val) (args : List Val) : Str → Option Val := fun n =>
  match ((s% "abcde").zip args).find? fun p => n = [p.1] with
  | some p => some p.2
  | none => if n = s% "f" then fn else if n = s% "g" then some (.list args) else none

/-- `openScope` (execution.py:420-423) -/
def St.openScope (s : St X) (fn : Option Val) (args : List Val) : St X :=
  { s with depth := s.depth + 1, scope := ⟨fn, localVars fn args⟩, below := s.scope :: s.below }

/-- `closeScope` (execution.py:425-432). With no scope left `localScope` becomes None, which is not modelled: it does
not happen because `closeScope` is only called after `openScope`. -/
def St.closeScope (s : St X) : St X :=
  match s.below with
  | sc :: rest => { s with depth := s.depth - 1, scope := sc, below := rest }
  | [] => { s with depth := s.depth - 1 }

/-- `openScope`, the body, `closeScope` (execution.py:405-417); if the body raises, the scope stays open. -/
def M.inScope (fn : Option Val) (args : List Val) (x : M X α) : M X α := fun s =>
  match x (s.openScope fn args) with
  | (.ok a, s') => (.ok a, s'.closeScope)
  | (.error e, s') => (.error e, s')

/-- The pre-initialized global variables (execution.py:574-620) with names, values. -/
def globals (X : Ext) : List (Str × Val) := [
  (s% "_", .block [] (.tok ⟨.name, s% "a"⟩)),
  (s% "h", .scalar (s% "100")),
  (s% "i", .scalar (s% "0")),
  (s% "k", .scalar (s% ", ")),
  (s% "l", .list []),
  (s% "m", .scalar (s% "1000")),
  (s% "n", .scalar (s% "\n")),
  (s% "o", .scalar (s% "1")),
  (s% "p", .scalar (s% "()")),
  (s% "s", .scalar (s% " ")),
  (s% "t", .scalar (s% "10")),
  (s% "u", .nil),
  (s% "v", .scalar (s% "-1")),
  (s% "w", .pattern (s% "\\s+") {}),
  (s% "x", .scalar []),
  (s% "y", .scalar []),
  (s% "z", .scalar (s% "abcdefghijklmnopqrstuvwxyz")),
  (s% "B", .block [] (.tok ⟨.name, s% "b"⟩)),
  (s% "G", .block [] (.tok ⟨.name, s% "g"⟩)),
  (s% "AZ", .scalar (s% "ABCDEFGHIJKLMNOPQRSTUVWXYZ")),
  (s% "CZ", .scalar (s% "bcdfghjklmnpqrstvwxyz")),
  (s% "PA", .scalar ((List.range 95).map fun i => Char.ofNat (i + 32))),
  (s% "PI", ofNum X (.flt X.pi)),
  (s% "VD", .scalar (s% "2024-03-30")),
  (s% "VN", .scalar (s% "1.2.0")),
  (s% "VW", .scalar (s% "aeiou")),
  (s% "VY", .scalar (s% "aeiouy")),
  (s% "XA", .pattern (s% "[a-z]") { i := true }),
  (s% "XC", .pattern (s% "[bcdfghjklmnpqrstvwxyz]") {}),
  (s% "XD", .pattern (s% "\\d") {}),
  (s% "XI", .pattern (s% "-?\\d+") {}),
  (s% "XL", .pattern (s% "[a-z]") {}),
  (s% "XN", .pattern (s% "-?\\d+(?:\\.\\d+)?") {}),
  (s% "XU", .pattern (s% "[A-Z]") {}),
  (s% "XV", .pattern (s% "[aeiou]") {}),
  (s% "XW", .pattern (s% "\\w") {}),
  (s% "XX", .pattern (s% ".") {}),
  (s% "XY", .pattern (s% "[aeiouy]") {})]

/-- The global variables after WIPEGLOBALS (execution.py:572-627): the above, `\g`, `\a` ... `\e` as far as there are
arguments, and `\f`. -/
def wiped (X : Ext) (args : List Val) (main : Option Val) : Str → Option Val := fun n =>
  match ((s% "abcde").zip args).find? fun p => n = ['\\', p.1] with
  | some p => some p.2
  | none =>
    if n = s% "\\g" then some (.list args)
    else if n = s% "\\f" then some (main.getD .nil)
    else ((globals X).find? fun p => n = p.1).map (·.2)

/-- WIPEGLOBALS (execution.py:572-627) -/
def M.wipe : M X Unit := fun s => (.ok (), { s with vars := wiped X s.args s.main })

/-! ### Loops -/

/-- `[f(x) for x in l]` -/
def mapL (f : α → M X β) : List α → M X (List β)
  | [] => pure []
  | x :: l => do
    let y ← f x
    let ys ← mapL f l
    return y :: ys

/-- `for x in l: f(x)` -/
def iterL (f : α → M X Unit) : List α → M X Unit
  | [] => pure ()
  | x :: l => do
    f x
    iterL f l

/-- `[x for x in l if f(x)]` -/
def filterL (f : α → M X Bool) : List α → M X (List α)
  | [] => pure []
  | x :: l => do
    let b ← f x
    let ys ← filterL f l
    return if b then x :: ys else ys

/-- A fold over a list -/
def foldL (f : β → α → M X β) : β → List α → M X β
  | b, [] => pure b
  | b, x :: l => do
    let b ← f b x
    foldL f b l

/-- A loop over the infinite Range from `lo`: ends only by an exception; the step budget is `n`. -/
def loopInf (f : Int → M X Unit) : Nat → Int → M X α
  | 0, _ => M.throw .fuel
  | n + 1, lo => do
    f lo
    loopInf f n (lo + 1)

/-- `for i in range(n): x` -/
def repeatM (x : M X Unit) : Nat → M X Unit
  | 0 => pure ()
  | n + 1 => do
    x
    repeatM x n

end Pip
