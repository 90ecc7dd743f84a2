import Verif.Spec.Regex
/-!
# Which match is preferred

A regular expression does not only have matches at a position, it also prefers some to others: of two alternatives the
matches of the first, of a repetition those with a further time, or, if it is followed by `?`, those without. This file
lists the matches at a position in order of preference, for the texts of the grammar of `Spec/Regex.lean`.
-/

namespace Pip.Re

/-- The texts matched at a position, preferred first: `o pre rest` if `pre` is before the position and `rest` after it -/
abbrev Order := Str → Str → List Str

namespace Order
open Classical

/-- the empty string -/
def eps : Order := fun _ _ => [[]]
/-- one character -/
noncomputable def chr (p : Char → Prop) : Order := fun _ rest =>
  match rest with
  | c :: _ => if p c then [[c]] else []
  | [] => []
/-- an assertion about the position -/
noncomputable def pos (p : Str → Str → Prop) : Order := fun pre rest => if p pre rest then [[]] else []
/-- a text, and then what matches after it -/
def after (o : Order) (pre rest u : Str) : List Str := (o (pre ++ u) (rest.drop u.length)).map (u ++ ·)
/-- one after the other: the choice in the first counts first -/
def seq (a b : Order) : Order := fun pre rest => (a pre rest).flatMap (b.after pre rest)
/-- one or the other -/
def alt (a b : Order) : Order := fun pre rest => a pre rest ++ b pre rest
/-- `n` times -/
def rep (a : Order) : Nat → Order
  | 0 => eps
  | n + 1 => seq a (rep a n)
/-- Any number of further times, but at most `hi`, more often preferred if `greedy`. After a time that matches nothing there is
no other. The argument `n` bounds the number of times. -/
def more (greedy : Bool) (a : Order) : Nat → Option Nat → Order
  | 0, _ => eps
  | n + 1, hi => fun pre rest =>
    if hi = some 0 then [[]]
    else
      let again := (a pre rest).flatMap fun u => if u = [] then [[]] else (more greedy a n (hi.map (· - 1))).after pre rest u
      if greedy then again ++ [[]] else [] :: again
/-- at least `lo` times and, if there is a `hi`, at most so often -/
def times (greedy : Bool) (a : Order) (lo : Nat) (hi : Option Nat) : Order :=
  seq (rep a lo) fun pre rest => more greedy a (rest.length + 1) (hi.map (· - lo)) pre rest
/-- something follows here -/
noncomputable def ahead (a : Order) : Order := pos fun pre rest => a pre rest ≠ []
noncomputable def notAhead (a : Order) : Order := pos fun pre rest => a pre rest = []
/-- something precedes here -/
noncomputable def behind (m : Meaning) : Order := pos fun pre rest => ∃ u v, pre = u ++ v ∧ m u v rest
noncomputable def notBehind (m : Meaning) : Order := pos fun pre rest => ¬ ∃ u v, pre = u ++ v ∧ m u v rest
end Order

/-! The grammar of `Spec/Regex.lean` with the order of preference -/

mutual
inductive PAtom (S : Sem) : Str → Order → Prop
  | one {t : Str} {p : Char → Prop} : One S t p → PAtom S t (.chr p)
  | group {t : Str} {o : Order} : PAlts S t o → PAtom S (s% "(?:" ++ t ++ s% ")") o
  | capture {t : Str} {o : Order} : PAlts S t o → PAtom S (s% "(" ++ t ++ s% ")") o
  | ahead {t : Str} {o : Order} : PAlts S t o → PAtom S (s% "(?=" ++ t ++ s% ")") o.ahead
  | notAhead {t : Str} {o : Order} : PAlts S t o → PAtom S (s% "(?!" ++ t ++ s% ")") o.notAhead
  | behind {t : Str} {n : Nat} {m : Meaning} : Fixed S t n m → PAtom S (s% "(?<=" ++ t ++ s% ")") (.behind m)
  | notBehind {t : Str} {n : Nat} {m : Meaning} : Fixed S t n m → PAtom S (s% "(?<!" ++ t ++ s% ")") (.notBehind m)
inductive PPiece (S : Sem) : Str → Order → Prop
  | one {t : Str} {o : Order} : PAtom S t o → PPiece S t o
  | at {t : Str} {p : Str → Str → Prop} : At S t p → PPiece S t (.pos p)
  | greedy {t q : Str} {o : Order} {lo : Nat} {hi : Option Nat} : PAtom S t o → Quant q lo hi → PPiece S (t ++ q) (o.times true lo hi)
  | lazy {t q : Str} {o : Order} {lo : Nat} {hi : Option Nat} : PAtom S t o → Quant q lo hi →
      PPiece S (t ++ q ++ s% "?") (o.times false lo hi)
inductive PBranch (S : Sem) : Str → Order → Prop
  | nil : PBranch S [] .eps
  | cons {t u : Str} {a b : Order} : PPiece S t a → PBranch S u b → PBranch S (t ++ u) (a.seq b)
inductive PAlts (S : Sem) : Str → Order → Prop
  | one {t : Str} {o : Order} : PBranch S t o → PAlts S t o
  | more {t u : Str} {a b : Order} : PBranch S t a → PAlts S u b → PAlts S (t ++ s% "|" ++ u) (a.alt b)
end

/-- The preferred match at index `a`; one that is empty does not count at index `i` if `adv`. -/
def Order.first (o : Order) (s : Str) (i : Nat) (adv : Bool) (a : Nat) : Option Str :=
  (o (s.take a) (s.drop a)).find? fun w => !(adv && a == i && w.isEmpty)

/-- The matches found in a string from index `i` on: each one begins as early as possible, not before the end of the one before
it, and is the preferred one there; an empty match is not directly after another empty match at the same place. -/
inductive Firsts (o : Order) (s : Str) : Nat → Bool → List Match → Prop
  | done {i : Nat} {adv : Bool} : (∀ a, i ≤ a → a ≤ s.length → o.first s i adv a = none) → Firsts o s i adv []
  | more {i : Nat} {adv : Bool} {q : Match} {l : List Match} : i ≤ q.start → q.start ≤ s.length →
      (∀ a, i ≤ a → a < q.start → o.first s i adv a = none) → o.first s i adv q.start = some q.all →
      q.stop = q.start + q.all.length → Firsts o s q.stop q.all.isEmpty l → Firsts o s i adv (q :: l)

end Pip.Re
