import Verif.Model.Parse
/-!
# Respecting precedence and associativity

`Prec t`: everywhere in the tree `t`, operators are nested the way their precedence and associativity demand.
-/

namespace Pip
open Parse

/-- Nodes made by parentheses, brackets and braces: they protect what is inside. -/
def Op.isBracket (op : Op) : Prop := op = parenOp ∨ op = enlistOp ∨ op = blockOp ∨ op = sendOp
instance (op : Op) : Decidable op.isBracket := by unfold Op.isBracket; infer_instance
/-- Binary and ternary operators and comparison chains. -/
def Op.isInfix (op : Op) : Prop := op.arity = 2 ∨ op.arity = 3
instance (op : Op) : Decidable op.isInfix := by unfold Op.isInfix; infer_instance

/-- The infix operator at the root of a tree. -/
def infixRoot : Tree → Option Op
  | .node op _ => if op.isInfix then some op else none
  | _ => none

mutual
/-- All prefix operators on the right edge of the tree (those whose operand extends to the end of the
expression) have precedence at least `p`. -/
def PrefixAtLeast (p : Nat) : Tree → Prop
  | .node op args => if op.isInfix then LastAtLeast p args else if op.isBracket then True else p ≤ op.prec ∧ LastAtLeast p args
  | _ => True
def LastAtLeast (p : Nat) : List Tree → Prop
  | [] => True
  | [t] => PrefixAtLeast p t
  | _ :: u :: r => LastAtLeast p (u :: r)
end

/-- `l` may stand unparenthesised to the left of the infix operator `op`: an infix operator at its root binds
tighter, or equally tight if `op` is not right-associative; prefix operators whose operand extends up to `op`
do not bind less tight than `op`. Chains are not nested. -/
def LeftOK (op : Op) (l : Tree) : Prop :=
  (∀ lop, infixRoot l = some lop →
    (op.prec < lop.prec ∨ (op.prec = lop.prec ∧ op.assoc ≠ .right)) ∧ (op = chainOp → lop ≠ chainOp)) ∧
  PrefixAtLeast op.prec l

/-- `r` may stand unparenthesised to the right of the infix operator `op`: an infix operator at its root binds
tighter, or equally tight and is right-associative. -/
def RightOK (op : Op) (r : Tree) : Prop :=
  ∀ rop, infixRoot r = some rop → op.prec < rop.prec ∨ (op.prec = rop.prec ∧ rop.assoc = .right)

/-- `e` may be the operand of the prefix operator `op`: an infix operator at its root binds tighter. -/
def OperandOK (op : Op) (e : Tree) : Prop :=
  ∀ rop, infixRoot e = some rop → op.prec < rop.prec

/-- The operands of one operator. -/
def NodeOK (op : Op) (args : List Tree) : Prop :=
  if op.isInfix then
    match args with
    | l :: x :: rest => LeftOK op l ∧ (∀ r, (x :: rest).getLast? = some r → RightOK op r) ∧
        (op = chainOp → ∀ r ∈ x :: rest, RightOK op r)
    | _ => False
  else if op.isBracket then True
  else ∃ e, args = [e] ∧ OperandOK op e

mutual
/-- Everywhere in the tree. -/
def Prec : Tree → Prop
  | .node op args => NodeOK op args ∧ PrecAll args
  | .cmd _ args => PrecAll args
  | .code l => PrecAll l
  | _ => True
def PrecAll : List Tree → Prop
  | [] => True
  | t :: r => Prec t ∧ PrecAll r
end

end Pip
