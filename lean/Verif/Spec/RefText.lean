import Verif.Model.Str
/-!
# Back-references in the texts of Patterns
-/

namespace Pip

/-- The second text is the first with the numbers of the back-references one greater. A back-reference is a backslash that is not
escaped itself, and one or two digits, as many as there are. -/
inductive RefText : Str → Str → Prop
  | nil : RefText [] []
  | chr {c : Char} {s t : Str} : c ≠ '\\' → RefText s t → RefText (c :: s) (c :: t)
  | esc {c : Char} {s t : Str} : c ∉ ['1', '2', '3', '4', '5', '6', '7', '8', '9'] → RefText s t → RefText ('\\' :: c :: s) ('\\' :: c :: t)
  | ref1 {d : Nat} {s t : Str} : 1 ≤ d → d ≤ 9 → (∀ c u, s = c :: u → isDigit c = false) → RefText s t →
      RefText ('\\' :: digitChar d :: s) ('\\' :: (showNat (d + 1) ++ t))
  | ref2 {d : Nat} {c : Char} {s t : Str} : 1 ≤ d → d ≤ 9 → isDigit c = true → RefText s t →
      RefText ('\\' :: digitChar d :: c :: s) ('\\' :: (showNat (10 * d + digitVal c + 1) ++ t))
  | tail : RefText ['\\'] ['\\']

end Pip
