import Verif.Model.Val
/-! Specifications of value properties, independent of the model's functions. -/

namespace Pip

/-- The item at position `i` of the two-sided infinite repetition of `l`. -/
def cyc {α : Type} (l : List α) (i : Int) : Option α := l[(i % l.length).toNat]?

/-- A slice bound: absent bounds default to `d`, negative ones count once from the end. -/
def sliceBound (n : Nat) (d : Int) : Option Int → Int
  | none => d
  | some i => if i < 0 then i + n else i

/-- A decimal representation of zero: zeros with at most one dot. -/
def IsZeroText (w : Str) : Prop := (∀ c ∈ w, c = '0' ∨ c = '.') ∧ w.count '.' ≤ 1 ∧ '0' ∈ w

instance (w : Str) : Decidable (IsZeroText w) := by unfold IsZeroText; infer_instance

end Pip
