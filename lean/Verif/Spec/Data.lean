import Verif.Model.OpsNum
/-! Vocabulary of the properties about canonical texts. -/

namespace Pip

/-- The regex can stand between backticks once the backticks in it are escaped: every backslash is paired with a
character that is neither a backtick nor a line feed. -/
inductive Quotable : Str → Prop
  | nil : Quotable []
  | plain {c : Char} {r : Str} : c ≠ '\\' → Quotable r → Quotable (c :: r)
  | pair {c : Char} {r : Str} : c ≠ '`' → c ≠ '\n' → Quotable r → Quotable ('\\' :: c :: r)

/-- Scalars, Patterns with a regex that can be quoted, Ranges, nil, and Lists of such. -/
inductive Data : Val → Prop
  | scalar (s : Str) : Data (.scalar s)
  | pattern {r : Str} (f : Flags) : Quotable r → Data (.pattern r f)
  | range (lo hi : Option Int) : Data (.range lo hi)
  | nil : Data .nil
  | list (l : List Val) : (∀ v ∈ l, Data v) → Data (.list l)

/-- A non-empty sequence of digits -/
def Digits (a : Str) : Prop := a ≠ [] ∧ ∀ c ∈ a, isDigit c = true

/-- A number literal: digits, possibly a point and more digits -/
def NumLit (r : Str) : Prop := Digits r ∨ ∃ a b, Digits a ∧ Digits b ∧ r = a ++ '.' :: b

/-- A number literal with a sign -/
def NegLit (s : Str) : Prop := ∃ r, s = '-' :: r ∧ NumLit r

/-- The characters with which names in strings start -/
def isNameStart (c : Char) : Bool := isLowerAZ c || c == '_' || isUpperAZ c

/-- The text mixes double quotes with a backslash before a letter or an underscore. -/
def Mixed (s : Str) : Prop := '"' ∈ s ∧ ∃ a c b, s = a ++ '\\' :: c :: b ∧ isNameStart c = true

/-- What the canonical text of `v` is read back as: itself, except that a signed number is the negation of the number
without the sign. Texts mixing quotes with backslashes before letters are left out. -/
inductive ReadsBack (X : Ext) : Val → Val → Prop
  | text {s : Str} : ¬NegLit s → ¬Mixed s → ReadsBack X (.scalar s) (.scalar s)
  | neg {r : Str} {n : Num X.F} : NumLit r → nneg X (toNum X r) = .ok n → ReadsBack X (.scalar ('-' :: r)) (ofNum X n)
  | pattern {r : Str} (f : Flags) : Quotable r → ReadsBack X (.pattern r f) (.pattern r f)
  | range (lo hi : Option Int) : ReadsBack X (.range lo hi) (.range lo hi)
  | nil : ReadsBack X .nil .nil
  | empty : ReadsBack X (.list []) (.list [])
  | item {v w : Val} {l m : List Val} : ReadsBack X v w → ReadsBack X (.list l) (.list m) →
      ReadsBack X (.list (v :: l)) (.list (w :: m))

/-- Every Scalar in a data value -/
inductive Within (s : Str) : Val → Prop
  | self : Within s (.scalar s)
  | item {v : Val} {l : List Val} : v ∈ l → Within s v → Within s (.list l)

/-- A name in a string before the text `r`: one lower-case letter or underscore, or one or two capitals -/
def NameBefore (n r : Str) : Prop :=
  (∃ c, n = [c] ∧ (isLowerAZ c = true ∨ c = '_')) ∨ (∃ c d, n = [c, d] ∧ isUpperAZ c = true ∧ isUpperAZ d = true) ∨
  (∃ c, n = [c] ∧ isUpperAZ c = true ∧ ∀ d ∈ r.head?, isUpperAZ d = false)

/-- Every name after a backslash is replaced by what `g` gives for it; the backslash stays. -/
inductive Interpolated (g : Str → Str) : Str → Str → Prop
  | nil : Interpolated g [] []
  | name {n r r' : Str} : NameBefore n r → n ≠ s% "q" → n ≠ s% "r" → Interpolated g r r' →
      Interpolated g ('\\' :: (n ++ r)) ('\\' :: (g n ++ r'))
  | other {c : Char} {r r' : Str} : (c = '\\' → ∀ d ∈ r.head?, isNameStart d = false) → Interpolated g r r' →
      Interpolated g (c :: r) (c :: r')

end Pip
