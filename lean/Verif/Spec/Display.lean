import Verif.Model.Eval
import Verif.Spec.Prec
/-!
# Displayed functions

What the text of a function is expected to parse to, and which functions are displayed faithfully.
-/

namespace Pip
open Parse (interp)

/-- Operator expressions get parentheses where they are operands. -/
def wrap : Tree → Tree → Tree
  | .node op _, t => if op.isBracket then t else .node parenOp [t]
  | _, t => t

mutual
/-- The tree with parentheses around all operands that are operator expressions. -/
def full : Tree → Tree
  | .node op args => .node op (if op.isBracket then fulls args else fullOperands args)
  | .cmd c args => .cmd c (fulls args)
  | .code l => .code (fulls l)
  | t => t
def fulls : List Tree → List Tree
  | [] => []
  | t :: l => full t :: fulls l
def fullOperands : List Tree → List Tree
  | [] => []
  | t :: l => wrap t (full t) :: fullOperands l
end

mutual
/-- The tree without any parentheses. -/
def bare : Tree → Tree
  | .node op args => if op = parenOp then (bares args).headD (.node op []) else .node op (bares args)
  | .cmd c args => .cmd c (bares args)
  | .code l => .code (bares l)
  | t => t
def bares : List Tree → List Tree
  | [] => []
  | t :: l => bare t :: bares l
end

/-- The token at the end of the text of an expression, if no bracket follows. -/
def endTok : Tree → Option Tok
  | .tok t => some t
  | .node op args =>
    if op.isBracket then none else match args.getLast? with
      | some (.tok t) => some t
      | _ => none
  | _ => none

/-- The last statement does not end in the character literal of a space or of a semicolon. -/
def EndsWell (l : List Tree) : Prop :=
  ∀ t ∈ l.getLast?, ∀ k ∈ endTok t, k.text ≠ s% "' " ∧ k.text ≠ s% "';"

/-- A prefix operator that could as well be an infix operator, at the root of a tree. -/
def ambiguous : Tree → Prop
  | .node op [_] => op.fold = false ∧ op.scan = false ∧ ((findOp ops2 op.text).or (findOp ops3 op.text)).isSome = true
  | _ => False

mutual
/-- Nothing in the tree is displayed by a text with another meaning:
* tokens scan back to themselves (those of programs do; not all of those made of the pieces of an escaped string with
  interpolations do)
* the operator `:` is not used with the meta-operator `:`, which would be displayed as `::`
* the second expression of LR does not start with an operator that continues the first one
* code does not end in the character literal of a space or of a semicolon. -/
def Faithful : Tree → Prop
  | .tok t => t = ⟨.nil, s% "()"⟩ ∨ Scan.tokenize t.text = .ok [some t]
  | .node op args => (op.text = s% ":" → op.assign = false) ∧ FaithfulAll args
  | .cmd c args => (c = .LOOPREGEX → ∀ t ∈ args[1]?, ¬ambiguous t) ∧ FaithfulAll args
  | .code l => EndsWell l ∧ FaithfulAll l
  | _ => True
def FaithfulAll : List Tree → Prop
  | [] => True
  | t :: l => Faithful t ∧ FaithfulAll l
end

/-- The body of a block -/
def bodies : List Tree → List (List Tree)
  | .code b :: _ => [b]
  | _ => []

mutual
/-- The bodies of all functions written in a program. -/
def blocks : Tree → List (List Tree)
  | .node op args => (if op = blockOp then bodies args else []) ++ blocksIn args
  | .cmd _ args => blocksIn args
  | .code l => blocksIn l
  | _ => []
def blocksIn : List Tree → List (List Tree)
  | [] => []
  | t :: l => blocks t ++ blocksIn l
end

/-- The statements displayed: a function without return expression is shown returning nil. -/
def shown (b : List Tree) : List Tree :=
  if (b.getLast?).any isExpr then b else b ++ [.tok ⟨.nil, s% "()"⟩]

end Pip
