import Verif.Model.Str
/-!
# Regular expressions with backtracking semantics

The fragment of Python's `re` used by `scanning.py` and `ptypes.py`. A match attempt is modelled as the
list of all possible remainders of the input, in the order in which the backtracking matcher tries them.
-/

namespace Pip

inductive Rgx where
  /-- one character satisfying the predicate -/
  | chr (p : Char → Bool)
  | eps
  | seq (a b : Rgx)
  /-- `a|b`, `a` preferred -/
  | alt (a b : Rgx)
  /-- `a*`, greedy -/
  | star (a : Rgx)
  /-- `a*?`, lazy -/
  | lazyStar (a : Rgx)
  /-- `$` without MULTILINE: end of text or just before a final newline -/
  | eol

/-- Remainders after greedily iterating; an iteration must consume something. -/
def starRun (f : Str → List Str) : Nat → Str → List Str
  | 0, s => [s]
  | n + 1, s => (f s).flatMap (fun r => if r.length < s.length then starRun f n r else []) ++ [s]

/-- Remainders after lazily iterating. -/
def lazyRun (f : Str → List Str) : Nat → Str → List Str
  | 0, s => [s]
  | n + 1, s => s :: (f s).flatMap (fun r => if r.length < s.length then lazyRun f n r else [])

/-- All remainders, preferred first. -/
def Rgx.run : Rgx → Str → List Str
  | .chr _, [] => []
  | .chr p, c :: cs => if p c then [cs] else []
  | .eps, s => [s]
  | .seq a b, s => (a.run s).flatMap b.run
  | .alt a b, s => a.run s ++ b.run s
  | .star a, s => starRun a.run s.length s
  | .lazyStar a, s => lazyRun a.run s.length s
  | .eol, s => if s = [] ∨ s = ['\n'] then [s] else []

/-- `rgx.match(s)`: the matched text and the rest. -/
def Rgx.match? (r : Rgx) (s : Str) : Option (Str × Str) :=
  (r.run s).head?.map fun rest => (s.take (s.length - rest.length), rest)

/-- `rgx.fullmatch(s) is not None` -/
def Rgx.full (r : Rgx) (s : Str) : Bool := (r.run s).any (·.isEmpty)

namespace Rgx
def lit (c : Char) : Rgx := .chr (· == c)
def str : Str → Rgx
  | [] => .eps
  | c :: cs => .seq (lit c) (str cs)
def opt (a : Rgx) : Rgx := .alt a .eps
def plus (a : Rgx) : Rgx := .seq a (.star a)
/-- `.` without DOTALL -/
def dot : Rgx := .chr (· != '\n')
def any : Rgx := .chr (fun _ => true)
def cls (s : Str) : Rgx := .chr (s.elem ·)
def alts : List Rgx → Rgx
  | [] => .chr (fun _ => false)
  | [r] => r
  | r :: s :: rs => .alt r (alts (s :: rs))
end Rgx

end Pip
