import Verif.Model.Heap
import Verif.Spec.Eval
/-!
# Objects and their values
-/

namespace Pip

/-- A value that stands for an immutable object -/
def Val.Immutable : Val → Prop
  | .scalar _ => False
  | .list _ => False
  | _ => True

mutual
/-- The object at `a` has the value `v`; the last argument lists the mutable objects that it consists of. -/
inductive Den (h : Heap) : Addr → Val → List Addr → Prop
  | scalar {a : Addr} {s : Str} : h[a]? = some (.scalar s) → Den h a (.scalar s) [a]
  | list {a : Addr} {l : List Addr} {vs : List Val} {fp : List Addr} :
      h[a]? = some (.list l) → Dens h l vs fp → Den h a (.list vs) (a :: fp)
  | const {a : Addr} {v : Val} : h[a]? = some (.const v) → v.Immutable → Den h a v []
inductive Dens (h : Heap) : List Addr → List Val → List Addr → Prop
  | nil : Dens h [] [] []
  | cons {a : Addr} {v : Val} {fp : List Addr} {l : List Addr} {vs : List Val} {fps : List Addr} :
      Den h a v fp → Dens h l vs fps → Dens h (a :: l) (v :: vs) (fp ++ fps)
end

/-- The variables have the values `ρ`, and no two variables share a mutable object; `F` lists the mutable objects that
each variable consists of. -/
structure Sep (s : HSt) (ρ : Str → Option Val) (F : Str → List Addr) : Prop where
  undef : ∀ x, s.vars x = none → ρ x = none ∧ F x = []
  value : ∀ x a, s.vars x = some a → ∃ v, ρ x = some v ∧ Den s.heap a v (F x)
  nodup : ∀ x, (F x).Nodup
  disjoint : ∀ x y, x ≠ y → ∀ a ∈ F x, a ∉ F y

/-- The variables have the values `ρ` and are separate. -/
def Separate (s : HSt) (ρ : Str → Option Val) : Prop := ∃ F, Sep s ρ F

mutual
/-- All variables of the lvalue are ordinary ones. -/
def PlainL : Lval → Prop
  | .name n _ _ => PlainVar n
  | .list ls _ => PlainLs ls
def PlainLs : List Lval → Prop
  | [] => True
  | l :: ls => PlainL l ∧ PlainLs ls
end

/-- All variables of the statement are ordinary ones. -/
def Stmt.Plain : Stmt → Prop
  | .val l _ => PlainL l
  | .copy l m => PlainL l ∧ PlainL m
  | .swap l m => PlainL l ∧ PlainL m

mutual
/-- Assigning to the lvalue assigns to `x`. -/
def AssignsL (x : Str) : Lval → Prop
  | .name n _ _ => n = x
  | .list ls _ => AssignsLs x ls
def AssignsLs (x : Str) : List Lval → Prop
  | [] => False
  | l :: ls => AssignsL x l ∨ AssignsLs x ls
end

/-- The statement assigns to `x`. -/
def Stmt.Assigns (x : Str) : Stmt → Prop
  | .val l _ => AssignsL x l
  | .copy l _ => AssignsL x l
  | .swap l m => AssignsL x l ∨ AssignsL x m

/-- The statement in the rest of the model -/
def Stmt.run (X : Ext) : Stmt → M X Res
  | .val l v => opASSIGN (.l l) (.v v)
  | .copy l m => opASSIGN (.l l) (.l m)
  | .swap l m => opSWAP (Pip.run X 1) (.lval l) (.lval m)

/-- Statements in the rest of the model -/
def Stmt.runAll (X : Ext) : List Stmt → M X Unit
  | [] => pure ()
  | p :: ps => do
    let _ ← p.run X
    runAll X ps

end Pip
