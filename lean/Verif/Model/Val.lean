import Verif.Model.Scan
/-!
# Values, lvalues and parse trees

Data types of ptypes.py, execution.py (`Lval`) and the nested Python lists built by parsing.py.
-/

namespace Pip

/-- Flags of a Pattern (ptypes.py:174-188): `re.ASCII`, `re.IGNORECASE`, `re.MULTILINE`, `re.DOTALL`. -/
structure Flags where
  a : Bool := false
  i : Bool := false
  m : Bool := false
  s : Bool := false
  deriving DecidableEq, Repr

/-- An entry of `Lval.sliceList`: an index or a slice (both are Python objects by then). -/
inductive Idx where
  | int (i : Int)
  | slice (lo hi : Option Int)
  deriving DecidableEq, Repr

/-- `class Lval` (execution.py:4341-4377). The field `evaluated` is mutated in place (execution.py:275-283);
it is only ever used for the special variables, for which `cell` names the mutable cell. -/
inductive Lval where
  | name (n : Str) (cell : Option Nat) (sl : List Idx)
  | list (ls : List Lval) (sl : List Idx)

mutual
/-- The Pip types (ptypes.py:19-777). A Scalar's `_value` is its text; a Range has optional bounds; a Block
has statements and a return expression. -/
inductive Val where
  | scalar (s : Str)
  | pattern (raw : Str) (flags : Flags)
  | list (items : List Val)
  | range (lo hi : Option Int)
  | block (stmts : List Tree) (ret : Tree)
  | nil

/-- Parse trees: tokens, `[operator, arg, ...]`, `[command, arg, ...]`, a list of statements, an operator
(inside a comparison chain), and the already evaluated values that get into trees by lambda building and
by re-evaluation. -/
inductive Tree where
  | tok (t : Tok)
  | node (op : Op) (args : List Tree)
  | cmd (c : Cmd) (args : List Tree)
  | code (stmts : List Tree)
  | opr (op : Op)
  | val (v : Val)
  | lval (l : Lval)
end

instance : Inhabited Val := ⟨.nil⟩
instance : Inhabited Tree := ⟨.val .nil⟩

/-! Decidable equality of the types above (structural; used only to check concrete examples and to search
for equal values). -/

mutual
def Lval.beq : Lval → Lval → Bool
  | .name n c s, .name n' c' s' => n == n' && c == c' && s == s'
  | .list ls s, .list ls' s' => Lval.beqs ls ls' && s == s'
  | _, _ => false
def Lval.beqs : List Lval → List Lval → Bool
  | [], [] => true
  | a :: l, b :: l' => Lval.beq a b && Lval.beqs l l'
  | _, _ => false
end

mutual
theorem Lval.beq_eq : ∀ a b : Lval, Lval.beq a b = true ↔ a = b
  | .name n c s, .name n' c' s' => by simp [Lval.beq, and_assoc]
  | .list ls s, .list ls' s' => by simp [Lval.beq, Lval.beqs_eq ls ls']
  | .name .., .list .. => by simp [Lval.beq]
  | .list .., .name .. => by simp [Lval.beq]
theorem Lval.beqs_eq : ∀ a b : List Lval, Lval.beqs a b = true ↔ a = b
  | [], [] => by simp [Lval.beqs]
  | a :: l, b :: l' => by simp [Lval.beqs, Lval.beq_eq a b, Lval.beqs_eq l l']
  | [], _ :: _ => by simp [Lval.beqs]
  | _ :: _, [] => by simp [Lval.beqs]
end

instance : DecidableEq Lval := fun a b =>
  if h : Lval.beq a b = true then isTrue ((Lval.beq_eq a b).1 h) else isFalse fun e => h ((Lval.beq_eq a b).2 e)

mutual
def Val.beq : Val → Val → Bool
  | .scalar a, .scalar b => a == b
  | .pattern a f, .pattern b g => a == b && f == g
  | .list a, .list b => Val.beqs a b
  | .range a b, .range c d => a == c && b == d
  | .block a r, .block b s => Tree.beqs a b && Tree.beq r s
  | .nil, .nil => true
  | _, _ => false
def Val.beqs : List Val → List Val → Bool
  | [], [] => true
  | a :: l, b :: l' => Val.beq a b && Val.beqs l l'
  | _, _ => false
def Tree.beq : Tree → Tree → Bool
  | .tok a, .tok b => a == b
  | .node o a, .node p b => o == p && Tree.beqs a b
  | .cmd o a, .cmd p b => o == p && Tree.beqs a b
  | .code a, .code b => Tree.beqs a b
  | .opr a, .opr b => a == b
  | .val a, .val b => Val.beq a b
  | .lval a, .lval b => a == b
  | _, _ => false
def Tree.beqs : List Tree → List Tree → Bool
  | [], [] => true
  | a :: l, b :: l' => Tree.beq a b && Tree.beqs l l'
  | _, _ => false
end

mutual
theorem Val.beq_eq (a : Val) : ∀ b : Val, Val.beq a b = true ↔ a = b := by
  intro b
  match a with
  | .scalar _ => cases b <;> simp [Val.beq]
  | .pattern _ _ => cases b <;> simp [Val.beq]
  | .list l =>
    cases b with
    | list l' => simp [Val.beq, Val.beqs_eq l l']
    | _ => simp [Val.beq]
  | .range _ _ => cases b <;> simp [Val.beq]
  | .block l r =>
    cases b with
    | block l' r' => simp [Val.beq, Tree.beqs_eq l l', Tree.beq_eq r r']
    | _ => simp [Val.beq]
  | .nil => cases b <;> simp [Val.beq]
theorem Val.beqs_eq (a : List Val) : ∀ b : List Val, Val.beqs a b = true ↔ a = b := by
  intro b
  match a with
  | [] => cases b <;> simp [Val.beqs]
  | x :: l =>
    cases b with
    | nil => simp [Val.beqs]
    | cons y l' => simp [Val.beqs, Val.beq_eq x y, Val.beqs_eq l l']
theorem Tree.beq_eq (a : Tree) : ∀ b : Tree, Tree.beq a b = true ↔ a = b := by
  intro b
  match a with
  | .tok _ => cases b <;> simp [Tree.beq]
  | .node _ l =>
    cases b with
    | node _ l' => simp [Tree.beq, Tree.beqs_eq l l']
    | _ => simp [Tree.beq]
  | .cmd _ l =>
    cases b with
    | cmd _ l' => simp [Tree.beq, Tree.beqs_eq l l']
    | _ => simp [Tree.beq]
  | .code l =>
    cases b with
    | code l' => simp [Tree.beq, Tree.beqs_eq l l']
    | _ => simp [Tree.beq]
  | .opr _ => cases b <;> simp [Tree.beq]
  | .val v =>
    cases b with
    | val v' => simp [Tree.beq, Val.beq_eq v v']
    | _ => simp [Tree.beq]
  | .lval _ => cases b <;> simp [Tree.beq]
theorem Tree.beqs_eq (a : List Tree) : ∀ b : List Tree, Tree.beqs a b = true ↔ a = b := by
  intro b
  match a with
  | [] => cases b <;> simp [Tree.beqs]
  | x :: l =>
    cases b with
    | nil => simp [Tree.beqs]
    | cons y l' => simp [Tree.beqs, Tree.beq_eq x y, Tree.beqs_eq l l']
end

instance : DecidableEq Val := fun a b =>
  if h : Val.beq a b = true then isTrue ((Val.beq_eq a b).1 h) else isFalse fun e => h ((Val.beq_eq a b).2 e)

instance : DecidableEq Tree := fun a b =>
  if h : Tree.beq a b = true then isTrue ((Tree.beq_eq a b).1 h) else isFalse fun e => h ((Tree.beq_eq a b).2 e)

end Pip
