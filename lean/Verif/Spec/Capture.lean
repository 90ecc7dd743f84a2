import Verif.Spec.Prefer
import Verif.Spec.RegexClass
/-!
# What groups capture, and back-references

The matches at a position in order of preference, as in `Spec/Prefer.lean`, each with what the groups have captured. Groups
count from 1 in the order of their opening parentheses. A group keeps what it matched last; a back-reference matches the
same text again. The grammar is that of `Spec/Regex.lean` with back-references to groups that are closed.
-/

namespace Pip.Re

/-- Where the text of a group begins and ends, if it is set -/
abbrev Groups := Nat → Option (Nat × Nat)

/-- Nothing is set. -/
def Groups.none : Groups := fun _ => .none
def Groups.set (g : Groups) (k : Nat) (x : Nat × Nat) : Groups := fun i => if i = k then some x else g i
/-- The text of a group -/
def Groups.text (g : Groups) (s : Str) (k : Nat) : Option Str := (g k).map fun x => (s.take x.2).drop x.1

/-- The texts have the same length and correspond character by character. -/
def SameText (eq : Char → Char → Prop) : Str → Str → Prop
  | [], [] => True
  | c :: u, d :: v => eq c d ∧ SameText eq u v
  | _, _ => False

/-- The texts matched at a position, preferred first, with the groups after the match: `o pre rest g` if `g` are the groups
before it -/
abbrev COrder := Str → Str → Groups → List (Str × Groups)

namespace COrder
open Classical

def eps : COrder := fun _ _ g => [([], g)]
noncomputable def chr (p : Char → Prop) : COrder := fun _ rest g =>
  match rest with
  | c :: _ => if p c then [([c], g)] else []
  | [] => []
noncomputable def pos (p : Str → Str → Prop) : COrder := fun pre rest g => if p pre rest then [([], g)] else []
/-- a match, and then what matches after it -/
def after (o : COrder) (pre rest : Str) (x : Str × Groups) : List (Str × Groups) :=
  (o (pre ++ x.1) (rest.drop x.1.length) x.2).map fun y => (x.1 ++ y.1, y.2)
def seq (a b : COrder) : COrder := fun pre rest g => (a pre rest g).flatMap (b.after pre rest)
def alt (a b : COrder) : COrder := fun pre rest g => a pre rest g ++ b pre rest g
def rep (a : COrder) : Nat → COrder
  | 0 => eps
  | n + 1 => seq a (rep a n)
/-- Any number of further times, as in `Order.more` -/
def more (greedy : Bool) (a : COrder) : Nat → Option Nat → COrder
  | 0, _ => eps
  | n + 1, hi => fun pre rest g =>
    if hi = some 0 then [([], g)]
    else
      let again := (a pre rest g).flatMap fun x => if x.1 = [] then [x] else (more greedy a n (hi.map (· - 1))).after pre rest x
      if greedy then again ++ [([], g)] else ([], g) :: again
def times (greedy : Bool) (a : COrder) (lo : Nat) (hi : Option Nat) : COrder :=
  seq (rep a lo) fun pre rest g => more greedy a (rest.length + 1) (hi.map (· - lo)) pre rest g
/-- what matches is the text of a group -/
def capture (k : Nat) (a : COrder) : COrder := fun pre rest g =>
  (a pre rest g).map fun x => (x.1, x.2.set k (pre.length, pre.length + x.1.length))
/-- the text of a group again; `eq c d` if `d` can be there for `c` -/
noncomputable def ref (eq : Char → Char → Prop) (k : Nat) : COrder := fun pre rest g =>
  match g.text (pre ++ rest) k with
  | some u => if SameText eq u (rest.take u.length) then [(rest.take u.length, g)] else []
  | none => []
/-- something follows here; the groups of the preferred match stay set -/
def ahead (a : COrder) : COrder := fun pre rest g =>
  match a pre rest g with
  | x :: _ => [([], x.2)]
  | [] => []
def notAhead (a : COrder) : COrder := fun pre rest g =>
  match a pre rest g with
  | _ :: _ => []
  | [] => [([], g)]
noncomputable def behind (m : Meaning) : COrder := pos fun pre rest => ∃ u v, pre = u ++ v ∧ m u v rest
noncomputable def notBehind (m : Meaning) : COrder := pos fun pre rest => ¬ ∃ u v, pre = u ++ v ∧ m u v rest
end COrder

/-! `CAlts S eq l k t k' o`: the text `t` has the order `o`, its groups have the numbers from `k` up to `k' - 1`, and the
groups in `l` are open. -/

mutual
inductive CAtom (S : Sem) (eq : Char → Char → Prop) : List Nat → Nat → Str → Nat → COrder → Prop
  | one {l : List Nat} {k : Nat} {t : Str} {p : Char → Prop} : One S t p → CAtom S eq l k t k (.chr p)
  | group {l : List Nat} {k k' : Nat} {t : Str} {o : COrder} : CAlts S eq l k t k' o → CAtom S eq l k (s% "(?:" ++ t ++ s% ")") k' o
  | capture {l : List Nat} {k k' : Nat} {t : Str} {o : COrder} : CAlts S eq (k :: l) (k + 1) t k' o →
      CAtom S eq l k (s% "(" ++ t ++ s% ")") k' (o.capture k)
  | ref {l : List Nat} {k n : Nat} : 1 ≤ n → n ≤ 98 → n < k → n ∉ l → CAtom S eq l k (s% "\\" ++ showNat n) k (.ref eq n)
  | ahead {l : List Nat} {k k' : Nat} {t : Str} {o : COrder} : CAlts S eq l k t k' o → CAtom S eq l k (s% "(?=" ++ t ++ s% ")") k' o.ahead
  | notAhead {l : List Nat} {k k' : Nat} {t : Str} {o : COrder} : CAlts S eq l k t k' o →
      CAtom S eq l k (s% "(?!" ++ t ++ s% ")") k' o.notAhead
  | behind {l : List Nat} {k n : Nat} {t : Str} {m : Meaning} : Fixed S t n m → CAtom S eq l k (s% "(?<=" ++ t ++ s% ")") k (.behind m)
  | notBehind {l : List Nat} {k n : Nat} {t : Str} {m : Meaning} : Fixed S t n m →
      CAtom S eq l k (s% "(?<!" ++ t ++ s% ")") k (.notBehind m)
inductive CPiece (S : Sem) (eq : Char → Char → Prop) : List Nat → Nat → Str → Nat → COrder → Prop
  | one {l : List Nat} {k k' : Nat} {t : Str} {o : COrder} : CAtom S eq l k t k' o → CPiece S eq l k t k' o
  | at {l : List Nat} {k : Nat} {t : Str} {p : Str → Str → Prop} : At S t p → CPiece S eq l k t k (.pos p)
  | greedy {l : List Nat} {k k' : Nat} {t q : Str} {o : COrder} {lo : Nat} {hi : Option Nat} : CAtom S eq l k t k' o → Quant q lo hi →
      CPiece S eq l k (t ++ q) k' (o.times true lo hi)
  | lazy {l : List Nat} {k k' : Nat} {t q : Str} {o : COrder} {lo : Nat} {hi : Option Nat} : CAtom S eq l k t k' o → Quant q lo hi →
      CPiece S eq l k (t ++ q ++ s% "?") k' (o.times false lo hi)
inductive CBranch (S : Sem) (eq : Char → Char → Prop) : List Nat → Nat → Str → Nat → COrder → Prop
  | nil {l : List Nat} {k : Nat} : CBranch S eq l k [] k .eps
  /-- no digit after a back-reference -/
  | cons {l : List Nat} {k k' k'' : Nat} {t u : Str} {a b : COrder} : CPiece S eq l k t k' a → CBranch S eq l k' u k'' b →
      (∀ n, 1 ≤ n → n ≤ 98 → t = s% "\\" ++ showNat n → ∀ c v, u = c :: v → isDigit c = false) → CBranch S eq l k (t ++ u) k'' (a.seq b)
inductive CAlts (S : Sem) (eq : Char → Char → Prop) : List Nat → Nat → Str → Nat → COrder → Prop
  | one {l : List Nat} {k k' : Nat} {t : Str} {o : COrder} : CBranch S eq l k t k' o → CAlts S eq l k t k' o
  | more {l : List Nat} {k k' k'' : Nat} {t u : Str} {a b : COrder} : CBranch S eq l k t k' a → CAlts S eq l k' u k'' b →
      CAlts S eq l k (t ++ s% "|" ++ u) k'' (a.alt b)
end

/-- The lower case letter -/
def lowerOf (db : Rex.CharDb) (f : Flags) (c : Char) : Char :=
  if c.toNat < 128 then c.toLower else if f.a then c else db.lower c

/-- The same character, in the sense of back-references: if case is ignored, the lower case letters are compared. -/
def refSame (db : Rex.CharDb) (f : Flags) (c d : Char) : Prop := c = d ∨ f.i = true ∧ lowerOf db f c = lowerOf db f d

/-- What a match object says about the groups 1, …, `n` -/
def GroupsAre (s : Str) (n : Nat) (g : Groups) (q : Match) : Prop :=
  q.groups = (List.range n).map (fun i => g.text s (i + 1)) ∧
  q.regs = (List.range n).map fun i =>
    match g (i + 1) with
    | some x => ((x.1 : Int), (x.2 : Int))
    | none => (-1, -1)

/-- The preferred match at index `a`, as in `Order.first` -/
def COrder.first (o : COrder) (s : Str) (i : Nat) (adv : Bool) (a : Nat) : Option (Str × Groups) :=
  (o (s.take a) (s.drop a) .none).find? fun x => !(adv && a == i && x.1.isEmpty)

/-- The matches found, as in `Firsts`, with the groups -/
inductive Captured (o : COrder) (n : Nat) (s : Str) : Nat → Bool → List Match → Prop
  | done {i : Nat} {adv : Bool} : (∀ a, i ≤ a → a ≤ s.length → o.first s i adv a = none) → Captured o n s i adv []
  | more {i : Nat} {adv : Bool} {q : Match} {g : Groups} {l : List Match} : i ≤ q.start → q.start ≤ s.length →
      (∀ a, i ≤ a → a < q.start → o.first s i adv a = none) → o.first s i adv q.start = some (q.all, g) →
      q.stop = q.start + q.all.length → GroupsAre s n g q → Captured o n s q.stop q.all.isEmpty l → Captured o n s i adv (q :: l)

end Pip.Re
