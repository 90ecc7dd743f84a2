import Verif.Model.Str
/-!
# Arithmetic expressions

The usual notation for arithmetic with integers, and the integers that its texts stand for: products bind tighter than
sums, both associate to the left, powers bind tighter than signs and associate to the right. The variables are the
arguments `a` to `e` of a program. Of the model only the decimal text of an integer is used.
-/

namespace Pip

/-- At most one space; two spaces start a comment. -/
def Gap (g : Str) : Prop := g = [] ∨ g = s% " "

theorem Gap.eq {c : Char} {g : Str} (h : Gap (c :: g)) : c = ' ' ∧ g = [] := by
  rcases h with h | h
  · cases h
  · cases h; exact ⟨rfl, rfl⟩

/-- `Calc args i t v`: with the arguments `args`, the text `t` stands for the integer `v`. The level `i` is 0 for sums, 1 for
products, 2 for expressions with a sign, 3 for powers, and 4 for numbers, variables and expressions in parentheses. -/
inductive Calc (args : List Int) : Nat → Str → Int → Prop
  | num (n : Nat) : Calc args 4 (showInt n) n
  | arg {k : Nat} {c : Char} {v : Int} (hc : (s% "abcde")[k]? = some c) (hv : args[k]? = some v) : Calc args 4 [c] v
  | paren {t g g' : Str} {v : Int} (h : Calc args 0 t v) (hg : Gap g) (hg' : Gap g') : Calc args 4 ('(' :: (g ++ (t ++ (g' ++ s% ")")))) v
  | pow {t u g g' : Str} {v : Int} {w : Nat} (h : Calc args 4 t v) (h' : Calc args 3 u w) (hg : Gap g) (hg' : Gap g') :
      Calc args 3 (t ++ (g ++ (s% "**" ++ (g' ++ u)))) (v ^ w)
  | neg {t g : Str} {v : Int} (h : Calc args 3 t v) (hg : Gap g) : Calc args 2 ('-' :: (g ++ t)) (-v)
  | mul {t u g g' : Str} {v w : Int} (h : Calc args 1 t v) (h' : Calc args 2 u w) (hg : Gap g) (hg' : Gap g') :
      Calc args 1 (t ++ (g ++ (s% "*" ++ (g' ++ u)))) (v * w)
  /-- the quotient rounded towards minus infinity -/
  | quot {t u g g' : Str} {v w : Int} (h : Calc args 1 t v) (h' : Calc args 2 u w) (hg : Gap g) (hg' : Gap g') (h0 : w ≠ 0) :
      Calc args 1 (t ++ (g ++ (s% "//" ++ (g' ++ u)))) (v.fdiv w)
  /-- the remainder of that division -/
  | rem {t u g g' : Str} {v w : Int} (h : Calc args 1 t v) (h' : Calc args 2 u w) (hg : Gap g) (hg' : Gap g') (h0 : w ≠ 0) :
      Calc args 1 (t ++ (g ++ (s% "%" ++ (g' ++ u)))) (v.fmod w)
  | add {t u g g' : Str} {v w : Int} (h : Calc args 0 t v) (h' : Calc args 1 u w) (hg : Gap g) (hg' : Gap g') :
      Calc args 0 (t ++ (g ++ (s% "+" ++ (g' ++ u)))) (v + w)
  /-- Two minus signs side by side would be another operator. -/
  | sub {t u g g' : Str} {v w : Int} (h : Calc args 0 t v) (h' : Calc args 1 u w) (hg : Gap g) (hg' : Gap g')
      (hm : (g' ++ u).head? ≠ some '-') : Calc args 0 (t ++ (g ++ (s% "-" ++ (g' ++ u)))) (v - w)
  | up {i : Nat} {t : Str} {v : Int} (h : Calc args (i + 1) t v) : Calc args i t v

end Pip
