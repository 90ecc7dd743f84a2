import Verif.Model.Types
/-!
# What Patterns mean as replacements
-/

namespace Pip

/-- The escapes for control characters -/
def controlEscapes : List (Char × Char) :=
  [('a', '\x07'), ('b', '\x08'), ('f', '\x0c'), ('n', '\n'), ('r', '\r'), ('t', '\t'), ('v', '\x0b')]

/-- The text of the group with a number, empty if it did not take part -/
def Match.groupText (q : Match) (k : Nat) : Str := (q.groups[k - 1]?.bind id).getD []

/-- What the text of a Pattern is replaced with for each match, if the regular expression has `n` groups: `&` is the match,
`\&` an ampersand, `\\` a backslash, and a backslash with a number is a group. A backslash before another character that is
neither a letter nor a digit stands for itself. -/
inductive Template (n : Nat) : Str → (Match → Str) → Prop
  | nil : Template n [] fun _ => []
  | chr {c : Char} {t : Str} {g : Match → Str} : c ≠ '\\' → c ≠ '&' → Template n t g → Template n (c :: t) fun q => c :: g q
  | whole {t : Str} {g : Match → Str} : Template n t g → Template n ('&' :: t) fun q => q.all ++ g q
  | amp {t : Str} {g : Match → Str} : Template n t g → Template n ('\\' :: '&' :: t) fun q => '&' :: g q
  | back {t : Str} {g : Match → Str} : Template n t g → Template n ('\\' :: '\\' :: t) fun q => '\\' :: g q
  | control {c d : Char} {t : Str} {g : Match → Str} : (c, d) ∈ controlEscapes → Template n t g →
      Template n ('\\' :: c :: t) fun q => d :: g q
  | other {c : Char} {t : Str} {g : Match → Str} : c.isAlphanum = false → c ≠ '\\' → c ≠ '&' → Template n t g →
      Template n ('\\' :: c :: t) fun q => '\\' :: c :: g q
  | group {k : Nat} {t : Str} {g : Match → Str} : 1 ≤ k → k ≤ n → k ≤ 98 → (∀ c u, t = c :: u → isDigit c = false) → Template n t g →
      Template n ('\\' :: (showNat k ++ t)) fun q => q.groupText k ++ g q

end Pip
