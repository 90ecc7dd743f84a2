import Verif.Model.Eval
/-!
# Termination with an outcome

What it means that a piece of program, started in a state, ends with an outcome (a result or an exception) and a final
state. The budget of the model does not occur in it any more: the outcome is the one that every large enough budget
gives. That some budget is enough is C66.
-/

namespace Pip
variable {X : Ext} {α : Type}

/-- The computation `x`, started in `s`, ends with the outcome and final state `o`. -/
def Runs (x : Rec X → M X α) (s : St X) (o : Except Exc α × St X) : Prop :=
  o.1 ≠ .error .fuel ∧ ∃ n, ∀ m, n ≤ m → x (run X m) s = o

/-- `evaluate(t)` -/
def Evals (t : Tree) : St X → Except Exc Res × St X → Prop := Runs fun R => R.ev t
/-- `getRval(t)`: the value of an expression -/
def Vals (t : Tree) : St X → Except Exc Val × St X → Prop := Runs fun R => getRval R t
/-- `executeStatement(t)` -/
def Execs (t : Tree) : St X → Except Exc (Option Val) × St X → Prop := Runs fun R => R.exec t
/-- a sequence of statements -/
def ExecsAll (ts : List Tree) : St X → Except Exc Unit × St X → Prop := Runs fun R => execAll R ts
/-- `functionCall(f, args)` -/
def Calls (f : Val) (args : List Val) : St X → Except Exc Val × St X → Prop := Runs fun R => callVal R (some f) args

/-- What evaluation leaves alone: the suspended scopes, the call depth, the running function, the arguments and the main
function of the program. -/
structure Framed (s s' : St X) : Prop where
  below : s'.below = s.below
  depth : s'.depth = s.depth
  fn : s'.scope.fn = s.scope.fn
  args : s'.args = s.args
  main : s'.main = s.main

/-- The output is extended and the input consumed from the front. -/
def Streams (s s' : St X) : Prop := s.out <+: s'.out ∧ s'.inp <:+ s.inp

/-- The expression consisting of a variable -/
def var (n : Str) : Tree := .tok ⟨.name, n⟩
/-- The operators of the table with two operands, by their text -/
def op2 (n : Str) : Op := (findOp ops2 n).getD chainOp
/-- The operators of the table with one operand -/
def op1 (n : Str) : Op := (findOp ops1 n).getD chainOp
/-- The operators of the table with three operands -/
def op3 (n : Str) : Op := (findOp ops3 n).getD chainOp

/-- A variable other than `q`, `r` and `PIP` (execution.py:44-47, 262-272) -/
def PlainVar (n : Str) : Prop := n ≠ s% "q" ∧ n ≠ s% "r" ∧ ¬(n.length = 3 ∧ n.all isAlphaAZ = true)

/-- What reading a variable gives: nil if it is not defined. -/
def St.read (s : St X) (n : Str) : Val := (s.var n).getD .nil

/-- Nothing but variables differs. -/
structure SameRest (s s' : St X) : Prop where
  below : s'.below = s.below
  depth : s'.depth = s.depth
  fn : s'.scope.fn = s.scope.fn
  args : s'.args = s.args
  main : s'.main = s.main
  inp : s'.inp = s.inp
  out : s'.out = s.out
  rng : s'.rng = s.rng
  cells : s'.cells = s.cells
  ncell : s'.ncell = s.ncell
  swallowed : s'.swallowed = s.swallowed

/-- The states differ at most in the value of the variable `n`, which is `v` in the second one. -/
structure Assigned (n : Str) (v : Val) (s s' : St X) : Prop where
  here : s'.var n = some v
  other : ∀ m, m ≠ n → s'.var m = s.var m
  rest : SameRest s s'

mutual
/-- The names in an lvalue -/
def Lval.names : Lval → List Str
  | .name n _ _ => [n]
  | .list ls _ => Lval.namesL ls
def Lval.namesL : List Lval → List Str
  | [] => []
  | l :: ls => l.names ++ Lval.namesL ls
end

/-- The expression does not end with a reference to `PIP`, the one variable whose reading may have an effect each
time. -/
def Res.calm : Res → Prop
  | .l x => ∀ n ∈ x.names, ¬(n.length = 3 ∧ n.all isAlphaAZ = true)
  | _ => True

/-- The expression `e` has the value `v` and leads from `s` to `s'`. -/
def HasVal (e : Tree) (s : St X) (v : Val) (s' : St X) : Prop :=
  ∃ r s0, Evals e s (.ok r, s0) ∧ resRval r s0 = (.ok v, s') ∧ r.calm

end Pip
