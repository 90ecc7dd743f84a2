import Verif.Spec.Regex
import Verif.Model.Types
/-!
# Matches in a string
-/

namespace Pip.Re

/-- There is a match from index `i` up to index `j`. -/
def MatchAt (m : Meaning) (s : Str) (i j : Nat) : Prop := i ≤ j ∧ j ≤ s.length ∧ m (s.take i) ((s.take j).drop i) (s.drop j)

/-- A match from `a` to `b` can be the next one: it is not before index `i`, and if it may not be empty at `i` then it is not. -/
def Next (i : Nat) (adv : Bool) (a b : Nat) : Prop := i ≤ a ∧ (adv = true → a = i → b ≠ i)

/-- The matches of a string from index `i` on: each one begins as early as possible, not before the end of the one before it,
and an empty match is not directly after another empty match at the same place. -/
inductive Matches (m : Meaning) (s : Str) : Nat → Bool → List Match → Prop
  | done {i : Nat} {adv : Bool} : (∀ a b, MatchAt m s a b → ¬ Next i adv a b) → Matches m s i adv []
  | more {i : Nat} {adv : Bool} {q : Match} {l : List Match} : MatchAt m s q.start q.stop → q.all = (s.take q.stop).drop q.start →
      Next i adv q.start q.stop → (∀ a b, MatchAt m s a b → Next i adv a b → q.start ≤ a) →
      Matches m s q.stop (q.start == q.stop) l → Matches m s i adv (q :: l)

/-- The string with every match replaced -/
def replaced (new : Match → Str) (s : Str) : Nat → List Match → Str
  | i, [] => s.drop i
  | i, q :: l => (s.take q.start).drop i ++ new q ++ replaced new s q.stop l

end Pip.Re
