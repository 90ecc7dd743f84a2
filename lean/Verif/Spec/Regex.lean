import Verif.Model.Types
/-!
# What regular expressions mean

The syntax and the meaning of the regular expressions of Python's `re` that consist of literal characters, `.`, the
assertions `^`, `$`, `\A`, `\Z`, `\b` and `\B`, groups, look-aheads, look-behinds at a fixed number of characters, the
quantifiers `*`, `+`, `?`, `{n}`, `{m,n}`, `{m,}`, `{,n}` (greedy or not), concatenation and `|`, and of further atoms that
match one character (sets and escapes of letters, see `Class`). The meaning of a text is not given by a parser but by a
grammar: which texts stand for what. What `re` rejects is not in the grammar: assertions cannot be repeated without
parentheses, and numbers of repetitions must be less than 2^32 - 1. Which of several possible matches is found is not part
of the meaning (see `Spec/Prefer.lean`).
-/

namespace Pip.Re

/-- Whether a part of a string is matched: `m pre mid post` says that `mid` is, with `pre` before and `post` after it. -/
abbrev Meaning := Str → Str → Str → Prop

namespace Meaning
/-- the empty string -/
def eps : Meaning := fun _ w _ => w = []
/-- one character -/
def chr (p : Char → Prop) : Meaning := fun _ w _ => ∃ c, w = [c] ∧ p c
/-- an assertion about the position -/
def pos (p : Str → Str → Prop) : Meaning := fun pre w post => w = [] ∧ p pre post
/-- one after the other -/
def seq (m k : Meaning) : Meaning := fun pre w post => ∃ u v, w = u ++ v ∧ m pre u (v ++ post) ∧ k (pre ++ u) v post
/-- one or the other -/
def alt (m k : Meaning) : Meaning := fun pre w post => m pre w post ∨ k pre w post
/-- `n` times -/
def rep (m : Meaning) : Nat → Meaning
  | 0 => eps
  | n + 1 => seq m (rep m n)
/-- any number of times -/
def star (m : Meaning) : Meaning := fun pre w post => ∃ n, rep m n pre w post
/-- at least once -/
def plus (m : Meaning) : Meaning := fun pre w post => ∃ n, rep m (n + 1) pre w post
def opt (m : Meaning) : Meaning := alt m eps
/-- at least `lo` times and, if there is a `hi`, at most so often -/
def times (m : Meaning) (lo : Nat) (hi : Option Nat) : Meaning :=
  fun pre w post => ∃ n, lo ≤ n ∧ (∀ h, hi = some h → n ≤ h) ∧ rep m n pre w post
/-- something follows here -/
def ahead (m : Meaning) : Meaning := pos fun pre post => ∃ u v, post = u ++ v ∧ m pre u v
def notAhead (m : Meaning) : Meaning := pos fun pre post => ¬ ∃ u v, post = u ++ v ∧ m pre u v
/-- something precedes here -/
def behind (m : Meaning) : Meaning := pos fun pre post => ∃ u v, pre = u ++ v ∧ m u v post
def notBehind (m : Meaning) : Meaning := pos fun pre post => ¬ ∃ u v, pre = u ++ v ∧ m u v post
/-- exactly a text, if `lit c` are the characters that the literal `c` matches -/
def text (lit : Char → Char → Prop) : Str → Meaning
  | [] => eps
  | c :: s => seq (chr (lit c)) (text lit s)
end Meaning

/-- What depends on the flags, and the further atoms -/
structure Sem where
  lit : Char → Char → Prop
  dot : Char → Prop
  bol : Str → Str → Prop
  eol : Str → Str → Prop
  word : Char → Prop
  other : Str → (Char → Prop) → Prop
  other_ne : ∀ t p, other t p → t ≠ []

/-- A word begins or ends here. -/
def Sem.edge (S : Sem) (pre post : Str) : Prop :=
  ¬ ((∃ c, pre.getLast? = some c ∧ S.word c) ↔ ∃ c, post.head? = some c ∧ S.word c)

/-- The characters that stand for themselves -/
def ordinary (c : Char) : Bool := !(s% ".^$*+?{[\\|()").elem c

/-- The characters that stand for themselves after a backslash -/
def escapable (c : Char) : Bool := !c.isAlphanum

/-- What matches one character -/
inductive One (S : Sem) : Str → (Char → Prop) → Prop
  | lit {c : Char} : ordinary c = true → One S [c] (S.lit c)
  | esc {c : Char} : escapable c = true → One S ['\\', c] (S.lit c)
  | dot : One S (s% ".") S.dot
  | other {t : Str} {p : Char → Prop} : S.other t p → One S t p

/-- What matches a fixed number of characters -/
inductive Fixed (S : Sem) : Str → Nat → Meaning → Prop
  | nil : Fixed S [] 0 .eps
  | cons {t u : Str} {p : Char → Prop} {n : Nat} {m : Meaning} : One S t p → Fixed S u n m →
      Fixed S (t ++ u) (n + 1) ((Meaning.chr p).seq m)

/-- Assertions about the position. In a string without characters `\B` does not hold (before Python 3.14). -/
inductive At (S : Sem) : Str → (Str → Str → Prop) → Prop
  | bol : At S (s% "^") S.bol
  | eol : At S (s% "$") S.eol
  | start : At S (s% "\\A") fun pre _ => pre = []
  | stop : At S (s% "\\Z") fun _ post => post = []
  | edge : At S (s% "\\b") S.edge
  | inner : At S (s% "\\B") fun pre post => ¬ S.edge pre post ∧ ¬ (pre = [] ∧ post = [])

/-- Quantifiers, with the least and the greatest number of times -/
inductive Quant : Str → Nat → Option Nat → Prop
  | star : Quant (s% "*") 0 none
  | plus : Quant (s% "+") 1 none
  | opt : Quant (s% "?") 0 (some 1)
  | exactly (n : Nat) : n < 4294967295 → Quant (s% "{" ++ showInt n ++ s% "}") n (some n)
  | least (lo : Nat) : lo < 4294967295 → Quant (s% "{" ++ showInt lo ++ s% ",}") lo none
  | most (hi : Nat) : hi < 4294967295 → Quant (s% "{," ++ showInt hi ++ s% "}") 0 (some hi)
  | range (lo hi : Nat) : lo ≤ hi → hi < 4294967295 → Quant (s% "{" ++ showInt lo ++ s% "," ++ showInt hi ++ s% "}") lo (some hi)

mutual
inductive Atom (S : Sem) : Str → Meaning → Prop
  | one {t : Str} {p : Char → Prop} : One S t p → Atom S t (.chr p)
  | group {t : Str} {m : Meaning} : Alts S t m → Atom S (s% "(?:" ++ t ++ s% ")") m
  | capture {t : Str} {m : Meaning} : Alts S t m → Atom S (s% "(" ++ t ++ s% ")") m
  | ahead {t : Str} {m : Meaning} : Alts S t m → Atom S (s% "(?=" ++ t ++ s% ")") m.ahead
  | notAhead {t : Str} {m : Meaning} : Alts S t m → Atom S (s% "(?!" ++ t ++ s% ")") m.notAhead
  | behind {t : Str} {n : Nat} {m : Meaning} : Fixed S t n m → Atom S (s% "(?<=" ++ t ++ s% ")") m.behind
  | notBehind {t : Str} {n : Nat} {m : Meaning} : Fixed S t n m → Atom S (s% "(?<!" ++ t ++ s% ")") m.notBehind
inductive Piece (S : Sem) : Str → Meaning → Prop
  | one {t : Str} {m : Meaning} : Atom S t m → Piece S t m
  | at {t : Str} {p : Str → Str → Prop} : At S t p → Piece S t (.pos p)
  | greedy {t q : Str} {m : Meaning} {lo : Nat} {hi : Option Nat} : Atom S t m → Quant q lo hi → Piece S (t ++ q) (m.times lo hi)
  | lazy {t q : Str} {m : Meaning} {lo : Nat} {hi : Option Nat} : Atom S t m → Quant q lo hi →
      Piece S (t ++ q ++ s% "?") (m.times lo hi)
inductive Branch (S : Sem) : Str → Meaning → Prop
  | nil : Branch S [] .eps
  | cons {t u : Str} {m k : Meaning} : Piece S t m → Branch S u k → Branch S (t ++ u) (m.seq k)
inductive Alts (S : Sem) : Str → Meaning → Prop
  | one {t : Str} {m : Meaning} : Branch S t m → Alts S t m
  | more {t u : Str} {m k : Meaning} : Branch S t m → Alts S u k → Alts S (t ++ s% "|" ++ u) (m.alt k)
end

/-- A repetition of what matches one character, greedy (`true`) or not, in any number of parentheses -/
inductive Run (S : Sem) : Bool → Str → Meaning → Prop
  | greedy {t q : Str} {p : Char → Prop} {lo : Nat} {hi : Option Nat} : One S t p → Quant q lo hi →
      Run S true (t ++ q) ((Meaning.chr p).times lo hi)
  | lazy {t q : Str} {p : Char → Prop} {lo : Nat} {hi : Option Nat} : One S t p → Quant q lo hi →
      Run S false (t ++ q ++ s% "?") ((Meaning.chr p).times lo hi)
  | group {g : Bool} {t : Str} {m : Meaning} : Run S g t m → Run S g (s% "(?:" ++ t ++ s% ")") m
  | capture {g : Bool} {t : Str} {m : Meaning} : Run S g t m → Run S g (s% "(" ++ t ++ s% ")") m

/-- Parts one after the other, some of them capturing groups (`true`), without groups in them. (The characters `(` in sets and
after backslashes are not allowed either, except in parts for one character.) -/
inductive Parts (S : Sem) : Str → List (Bool × Meaning) → Prop
  | nil : Parts S [] []
  | one {t u : Str} {p : Char → Prop} {l : List (Bool × Meaning)} : One S t p → Parts S u l → Parts S (t ++ u) ((false, .chr p) :: l)
  | plain {t u : Str} {m : Meaning} {l : List (Bool × Meaning)} : Piece S t m → '(' ∉ t → Parts S u l → Parts S (t ++ u) ((false, m) :: l)
  | group {t u : Str} {m : Meaning} {l : List (Bool × Meaning)} : Alts S t m → '(' ∉ t → Parts S u l →
      Parts S (s% "(" ++ t ++ s% ")" ++ u) ((true, m) :: l)

/-- Texts one after the other that are matched by the parts -/
def Fits : List (Bool × Meaning) → Str → List Str → Str → Prop
  | [], _, [], _ => True
  | (_, m) :: l, pre, w :: ws, post => m pre w (ws.flatten ++ post) ∧ Fits l (pre ++ w) ws post
  | _, _, _, _ => False

/-- The texts of the groups, with the positions of their first characters and of what follows them, if the first text begins at `i` -/
def captured : Nat → List (Bool × Meaning) → List Str → List (Str × Nat × Nat)
  | i, (true, _) :: l, w :: ws => (w, i, i + w.length) :: captured (i + w.length) l ws
  | i, (false, _) :: l, w :: ws => captured (i + w.length) l ws
  | _, _, _ => []

end Pip.Re
