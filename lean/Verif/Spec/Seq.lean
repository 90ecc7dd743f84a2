import Verif.Model.Val
/-! Specifications for operators on sequences, independent of the model's functions. -/

namespace Pip

/-- `r` is `l` sorted stably by the total preorder `le`: the same items, in order, and items that are equivalent under
`le` in the order they have in `l`. -/
def StableSort {α : Type} (le : α → α → Bool) (l r : List α) : Prop :=
  r.Perm l ∧ r.Pairwise (fun a b => le a b = true) ∧
  ∀ x, r.filter (fun y => le x y && le y x) = l.filter (fun y => le x y && le y x)

mutual
/-- A value without functions in it. -/
def Val.plain : Val → Bool
  | .list l => Val.plains l
  | .block .. => false
  | _ => true
def Val.plains : List Val → Bool
  | [] => true
  | v :: l => v.plain && Val.plains l
end

/-- `r` consists of the first occurrences of the items of `l`: no item twice, and the items of `r` before an item are
exactly the items of `l` before its first occurrence. -/
def FirstOccurrences {α : Type} (l r : List α) : Prop :=
  r.Nodup ∧ (∀ x, x ∈ r ↔ x ∈ l) ∧
  ∀ r₁ x r₂, r = r₁ ++ x :: r₂ → ∃ l₁ l₂, l = l₁ ++ x :: l₂ ∧ ∀ y, y ∈ r₁ ↔ y ∈ l₁

/-- All chunks but the last have `k` items, the last at least one and at most `k`. -/
def ChunkSizes {α : Type} (k : Nat) (cs : List (List α)) : Prop :=
  (∀ c ∈ cs.dropLast, c.length = k) ∧ ∀ c ∈ cs, 0 < c.length ∧ c.length ≤ k

/-- The places of the cuts between consecutive pieces: running sums of their lengths. -/
def cutPlaces {α : Type} : Nat → List (List α) → List Nat
  | _, [] => []
  | _, [_] => []
  | n, p :: q :: ps => (n + p.length) :: cutPlaces (n + p.length) (q :: ps)

/-- The items of `l` at the positions `t`. -/
def pick {α : Type} (l : List α) (t : List Nat) : List α := t.filterMap fun i => l[i]?

/-- One item of each list, at the positions `t`. -/
def pickEach {α : Type} : List (List α) → List Nat → List α
  | l :: ls, i :: t => (l[i]?).toList ++ pickEach ls t
  | _, _ => []

end Pip
