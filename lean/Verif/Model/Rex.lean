import Verif.Model.Types
/-!
# The `re` module of Python, and the Patterns of Pip built on it

A parser for regular expressions, a backtracking matcher and the functions of `re` that Pip uses, after CPython 3.11
(`re/_parser.py`, `re/_compiler.py`, `_sre.c`), together with the methods of `Pattern` that prepare regular expressions
and replacements (ptypes.py:189-220). They give an environment `Ext.withRe`; what the parser does not support (inline
flags, comments, conditionals, atomic groups, possessive quantifiers, `\N{...}`, back-references in look-behinds) is left
to the environment it is built on, about which nothing is assumed.

A match attempt is the list of all ways to match in the order in which the backtracking matcher tries them. The groups
that a failed attempt has set are forgotten (CPython had errors there).
-/

namespace Pip.Rex

/-- What `re` asks about characters that are not ASCII -/
structure CharDb where
  /-- `str.isalnum()` -/
  word : Char → Bool
  /-- the other characters that are equal if case is ignored -/
  fold : Char → List Char
  /-- the lower case letter (`_PyUnicode_ToLowercase`) -/
  lower : Char → Char

/-- How a regular expression is applied -/
structure Env where
  db : CharDb
  f : Flags

def isAscii (c : Char) : Bool := c.toNat < 128

/-- `\w` on ASCII characters -/
def asciiWord (c : Char) : Bool := isUpperAZ c || isLowerAZ c || isDigit09 c || c == '_'

/-- `\s` on ASCII characters with the flag `re.ASCII` -/
def asciiSpace (c : Char) : Bool := (s% " \t\n\r\x0c\x0b").elem c

/-- The letter in the other case -/
def asciiSwap (c : Char) : Char :=
  if isUpperAZ c then Char.ofNat (c.toNat + 32) else if isLowerAZ c then Char.ofNat (c.toNat - 32) else c

inductive Cat where
  | digit | space | word
  deriving DecidableEq, Repr

/-- `\d`, `\s` and `\w` -/
def Cat.has (E : Env) : Cat → Char → Bool
  | .digit, c => if E.f.a then isDigit09 c else isDigit c
  | .space, c => if E.f.a then asciiSpace c else isSpace c
  | .word, c => if isAscii c then asciiWord c else !E.f.a && E.db.word c

/-- The other characters that are equal if case is ignored -/
def Env.variants (E : Env) (c : Char) : List Char :=
  if isAscii c then
    if isUpperAZ c || isLowerAZ c then
      asciiSwap c :: (if E.f.a then [] else (E.db.fold c).filter fun d => !isAscii d)
    else []
  else if E.f.a then [] else E.db.fold c

/-- Whether two characters are equal, in the sense of the flags -/
def Env.same (E : Env) (c d : Char) : Bool := c == d || E.f.i && (E.variants d).elem c

/-- The lower case letter -/
def Env.lower (E : Env) (c : Char) : Char :=
  if isAscii c then (if isUpperAZ c then asciiSwap c else c) else if E.f.a then c else E.db.lower c

/-- Whether two characters are equal in a back-reference: unlike for literals, case is ignored by comparing the lower case
letters only (`GROUPREF_IGNORE`, `GROUPREF_UNI_IGNORE`) -/
def Env.again (E : Env) (c d : Char) : Bool := c == d || E.f.i && E.lower c == E.lower d

/-- The members of a character set -/
inductive Item where
  | one (c : Char)
  | range (lo hi : Char)
  | cat (k : Cat) (neg : Bool)
  deriving DecidableEq, Repr

def Item.plain : Item → Char → Bool
  | .one c, d => c == d
  | .range lo hi, d => lo.toNat ≤ d.toNat && d.toNat ≤ hi.toNat
  | .cat .., _ => false

def Item.has (E : Env) (it : Item) (c : Char) : Bool :=
  match it with
  | .cat k neg => k.has E c != neg
  | _ => it.plain c || E.f.i && (E.variants c).any it.plain

/-- A regular expression after parsing -/
inductive Rx where
  | eps
  /-- a character in a set, or not in it -/
  | set (neg : Bool) (items : List Item)
  | dot
  | bol
  | eol
  /-- `\A` -/
  | start
  /-- `\Z` -/
  | stop
  /-- `\b`, `\B` -/
  | wordb (neg : Bool)
  | seq (a b : Rx)
  | alt (a b : Rx)
  | cap (k : Nat) (a : Rx)
  | ref (k : Nat)
  | rep (a : Rx) (lo : Nat) (hi : Option Nat) (greedy : Bool)
  /-- look-ahead -/
  | ahead (neg : Bool) (a : Rx)
  /-- look-behind at `w` characters -/
  | behind (neg : Bool) (w : Nat) (a : Rx)

def Rx.lit (c : Char) : Rx := .set false [.one c]

/-! ### Matching -/

/-- A position in the string, and the groups set so far, the latest first -/
structure Pos where
  pre : Str
  post : Str
  caps : List (Nat × Nat × Nat)
  deriving DecidableEq, Repr

/-- The text between two indices -/
def between (s : Str) (i j : Nat) : Str := (s.drop i).take (j - i)

/-- Exactly `n` times -/
def times (body : Pos → List Pos) : Nat → Pos → List Pos
  | 0, p => [p]
  | n + 1, p => (body p).flatMap (times body n)

/-- One time less -/
def less : Option Nat → Option Nat
  | some n => some (n - 1)
  | none => none

/-- Further times, at most `m`, as often as possible; after an iteration that matches nothing there is no other. The
first argument bounds the number of characters left. -/
def greedyMore (body : Pos → List Pos) : Nat → Option Nat → Pos → List Pos
  | 0, _, p => [p]
  | n + 1, m, p =>
    if m = some 0 then [p]
    else (body p).flatMap (fun q => if q.post.length = p.post.length then [q] else greedyMore body n (less m) q) ++ [p]

/-- Further times, as rarely as possible -/
def lazyMore (body : Pos → List Pos) : Nat → Option Nat → Pos → List Pos
  | 0, _, p => [p]
  | n + 1, m, p =>
    if m = some 0 then [p]
    else p :: (body p).flatMap (fun q => if q.post.length = p.post.length then [q] else lazyMore body n (less m) q)

/-- The text begins with the given one, in the sense of the flags -/
def eatRef (E : Env) : Str → Pos → List Pos
  | [], p => [p]
  | c :: t, p =>
    match p.post with
    | d :: post => if E.again c d then eatRef E t ⟨p.pre ++ [d], post, p.caps⟩ else []
    | [] => []

/-- All ways to match from a position, preferred first -/
def Rx.run (E : Env) : Rx → Pos → List Pos
  | .eps, p => [p]
  | .set neg items, p =>
    match p.post with
    | c :: post => if items.any (·.has E c) != neg then [⟨p.pre ++ [c], post, p.caps⟩] else []
    | [] => []
  | .dot, p =>
    match p.post with
    | c :: post => if E.f.s || c != '\n' then [⟨p.pre ++ [c], post, p.caps⟩] else []
    | [] => []
  | .bol, p => if p.pre = [] || E.f.m && p.pre.getLast? = some '\n' then [p] else []
  | .eol, p => if p.post = [] || p.post = ['\n'] || E.f.m && p.post.head? = some '\n' then [p] else []
  | .start, p => if p.pre = [] then [p] else []
  | .stop, p => if p.post = [] then [p] else []
  | .wordb neg, p =>
    if p.pre = [] ∧ p.post = [] then []
    else if ((p.pre.getLast?.any (Cat.word.has E)) != (p.post.head?.any (Cat.word.has E))) != neg then [p] else []
  | .seq a b, p => (a.run E p).flatMap (b.run E)
  | .alt a b, p => a.run E p ++ b.run E p
  | .cap k a, p => (a.run E p).map fun q => { q with caps := (k, p.pre.length, q.pre.length) :: q.caps }
  | .ref k, p =>
    match p.caps.lookup k with
    | some (i, j) => eatRef E (between (p.pre ++ p.post) i j) p
    | none => []
  | .rep a lo hi greedy, p =>
    (times (a.run E) lo p).flatMap fun q =>
      if greedy then greedyMore (a.run E) (q.post.length + 1) (hi.map (· - lo)) q
      else lazyMore (a.run E) (q.post.length + 1) (hi.map (· - lo)) q
  | .ahead neg a, p =>
    match a.run E p with
    | q :: _ => if neg then [] else [⟨p.pre, p.post, q.caps⟩]
    | [] => if neg then [p] else []
  | .behind neg w a, p =>
    if w ≤ p.pre.length then
      let n := p.pre.length - w
      match a.run E ⟨p.pre.take n, p.pre.drop n ++ p.post, p.caps⟩ with
      | q :: _ => if neg then [] else [⟨p.pre, p.post, q.caps⟩]
      | [] => if neg then [p] else []
    else if neg then [p] else []

/-- The first match at or after a position: the text before it, and the position after it. If `adv`, an empty match at the
position does not count. -/
def seekFrom (E : Env) (r : Rx) (pre : Str) (adv : Bool) (post : Str) : Option (Str × Pos) :=
  match (r.run E ⟨pre, post, []⟩).find? fun q => !(adv && q.post.length == post.length) with
  | some q => some (pre, q)
  | none =>
    match post with
    | [] => none
    | c :: t => seekFrom E r (pre ++ [c]) false t

/-- The matches from a position on. After an empty match the next one at the same position must not be empty. The first
argument bounds the number of matches. -/
def allFrom (E : Env) (r : Rx) : Nat → Str → Bool → Str → List (Str × Pos)
  | 0, _, _, _ => []
  | n + 1, pre, adv, post =>
    match seekFrom E r pre adv post with
    | none => []
    | some (st, q) => (st, q) :: allFrom E r n q.pre (q.pre.length == st.length) q.post

/-! ### Parsing -/

/-- Errors of `re.compile`, and what is not supported -/
inductive PErr where
  | bad | other
  deriving DecidableEq, Repr

abbrev P := Except PErr

/-- What the parser knows about groups: the number of the next one, the names, those that are still open, whether a
look-behind is being parsed -/
structure Ctx where
  next : Nat := 1
  names : List (Str × Nat) := []
  opened : List Nat := []
  inBehind : Bool := false
  deriving DecidableEq, Repr

def isOct (c : Char) : Bool := '0'.toNat ≤ c.toNat && c.toNat ≤ '7'.toNat

/-- The value of a hexadecimal digit -/
def hexVal (c : Char) : Option Nat :=
  if isDigit09 c then some (c.toNat - 48)
  else if 'a'.toNat ≤ c.toNat && c.toNat ≤ 'f'.toNat then some (c.toNat - 87)
  else if 'A'.toNat ≤ c.toNat && c.toNat ≤ 'F'.toNat then some (c.toNat - 55)
  else none

/-- Exactly `n` hexadecimal digits -/
def takeHex : Nat → Nat → Str → P (Nat × Str)
  | 0, v, s => .ok (v, s)
  | n + 1, v, c :: s =>
    match hexVal c with
    | some d => takeHex n (v * 16 + d) s
    | none => .error .bad
  | _ + 1, _, [] => .error .bad

/-- At most `n` octal digits -/
def takeOct : Nat → Nat → Str → Nat × Str
  | 0, v, s => (v, s)
  | n + 1, v, c :: s => if isOct c then takeOct n (v * 8 + (c.toNat - 48)) s else (v, c :: s)
  | _ + 1, v, [] => (v, [])

/-- The character with a code; the others are not modelled -/
def chrOf (n : Nat) : P Char := if h : n.isValidChar then .ok (Char.ofNatAux n h) else .error .other

/-- The escapes that stand for a character: `\a`, `\f`, `\n`, `\r`, `\t`, `\v`, and in sets and templates `\b` -/
def simpleEsc (c : Char) : Option Char :=
  if c = 'a' then some '\x07' else if c = 'f' then some '\x0c' else if c = 'n' then some '\n'
  else if c = 'r' then some '\r' else if c = 't' then some '\t' else if c = 'v' then some '\x0b' else none

/-- The escapes that stand for a category -/
def catEsc (c : Char) : Option Item :=
  if c = 'd' then some (.cat .digit false) else if c = 'D' then some (.cat .digit true)
  else if c = 's' then some (.cat .space false) else if c = 'S' then some (.cat .space true)
  else if c = 'w' then some (.cat .word false) else if c = 'W' then some (.cat .word true) else none

def isLetter (c : Char) : Bool := isUpperAZ c || isLowerAZ c

/-- `\x..`, `\u....`, `\U........` -/
def hexEsc (c : Char) (s : Str) : Option (P (Char × Str)) :=
  let go (n : Nat) : P (Char × Str) := do
    let (v, s) ← takeHex n 0 s
    return (← chrOf v, s)
  if c = 'x' then some (go 2) else if c = 'u' then some (go 4) else if c = 'U' then some (go 8) else none

/-- A digit escape outside of sets, not beginning with 0: a group number or a character -/
def digitEsc (d : Char) (s : Str) : P (Sum Nat Char × Str) :=
  match s with
  | e :: s' =>
    if isDigit09 e then
      match s' with
      | g :: s'' =>
        if isOct d && isOct e && isOct g then do
          let v := (d.toNat - 48) * 64 + (e.toNat - 48) * 8 + (g.toNat - 48)
          if v > 255 then .error .bad else return (.inr (← chrOf v), s'')
        else return (.inl ((d.toNat - 48) * 10 + (e.toNat - 48)), s')
      | [] => return (.inl ((d.toNat - 48) * 10 + (e.toNat - 48)), s')
    else return (.inl (d.toNat - 48), s)
  | [] => return (.inl (d.toNat - 48), s)

/-- A back-reference -/
def Ctx.ref (C : Ctx) (k : Nat) : P Rx :=
  if C.inBehind then .error .other
  else if k < C.next && !C.opened.elem k then .ok (.ref k) else .error .bad

/-- An escape outside of sets (`_escape`): what it matches and whether it is an assertion about the position -/
def escape (C : Ctx) (s : Str) : P (Rx × Bool × Str) :=
  match s with
  | [] => .error .bad
  | c :: s =>
    if c = 'A' then .ok (.start, true, s)
    else if c = 'Z' then .ok (.stop, true, s)
    else if c = 'b' then .ok (.wordb false, true, s)
    else if c = 'B' then .ok (.wordb true, true, s)
    else
      match catEsc c, simpleEsc c, hexEsc c s with
      | some it, _, _ => .ok (.set false [it], false, s)
      | none, some d, _ => .ok (.lit d, false, s)
      | none, none, some x => do
        let (d, s) ← x
        return (.lit d, false, s)
      | none, none, none =>
        if c = 'N' then .error .other
        else if c = '0' then do
          let (v, s) := takeOct 2 0 s
          return (.lit (← chrOf v), false, s)
        else if isDigit09 c then do
          match ← digitEsc c s with
          | (.inl k, s) => return (← C.ref k, false, s)
          | (.inr d, s) => return (.lit d, false, s)
        else if isLetter c then .error .bad
        else .ok (.lit c, false, s)

/-- An escape in a set (`_class_escape`) -/
def classEsc (s : Str) : P (Item × Str) :=
  match s with
  | [] => .error .bad
  | c :: s =>
    if c = 'b' then .ok (.one '\x08', s)
    else
      match catEsc c, simpleEsc c, hexEsc c s with
      | some it, _, _ => .ok (it, s)
      | none, some d, _ => .ok (.one d, s)
      | none, none, some x => do
        let (d, s) ← x
        return (.one d, s)
      | none, none, none =>
        if c = 'N' then .error .other
        else if isOct c then do
          let (v, s) := takeOct 2 (c.toNat - 48) s
          if v > 255 then .error .bad else return (.one (← chrOf v), s)
        else if isDigit09 c || isLetter c then .error .bad
        else .ok (.one c, s)

/-- A member of a set -/
def classAtom (s : Str) : P (Item × Str) :=
  match s with
  | [] => .error .bad
  | c :: s => if c = '\\' then classEsc s else .ok (.one c, s)

/-- The members of a set up to its end; a `]` that comes first is a member. -/
def setItems : Nat → Bool → Str → P (List Item × Str)
  | 0, _, _ => .error .other
  | n + 1, first, s =>
    match s with
    | [] => .error .bad
    | c :: t =>
      if c = ']' ∧ first = false then .ok ([], t)
      else do
        let (it, s) ← classAtom (c :: t)
        match s with
        | '-' :: s =>
          match s with
          | [] => .error .bad
          | ']' :: s => return ([it, .one '-'], s)
          | s => do
            let (it', s) ← classAtom s
            match it, it' with
            | .one lo, .one hi =>
              if hi.toNat < lo.toNat then .error .bad
              else do
                let (l, s) ← setItems n false s
                return (.range lo hi :: l, s)
            | _, _ => .error .bad
        | s => do
          let (l, s) ← setItems n false s
          return (it :: l, s)

/-- A set, after the opening bracket -/
def setRx (s : Str) : P (Rx × Str) :=
  match s with
  | '^' :: s => do
    let (l, s) ← setItems (s.length + 1) true s
    return (.set true l, s)
  | s => do
    let (l, s) ← setItems (s.length + 1) true s
    return (.set false l, s)

/-- The digits at the beginning -/
def takeDigits (s : Str) : Str × Str := (s.takeWhile isDigit09, s.dropWhile isDigit09)

/-- A quantifier in braces, after the opening brace -/
def braces (s : Str) : P (Option (Nat × Option Nat × Str)) :=
  match s with
  | '}' :: _ => .ok none
  | _ =>
    let (lo, s) := takeDigits s
    let (hi, s) := match s with
      | ',' :: s => takeDigits s
      | s => (lo, s)
    match s with
    | '}' :: s =>
      let min := parseNat lo
      let max := if hi.isEmpty then none else some (parseNat hi)
      if min ≥ 4294967295 || max.any (· ≥ 4294967295) then .error .other
      else if max.any (· < min) then .error .bad
      else .ok (some (min, max, s))
    | _ => .ok none

/-- A quantifier: least and greatest number -/
def quant (s : Str) : P (Option (Nat × Option Nat × Str)) :=
  match s with
  | '*' :: s => .ok (some (0, none, s))
  | '+' :: s => .ok (some (1, none, s))
  | '?' :: s => .ok (some (0, some 1, s))
  | '{' :: s => braces s
  | _ => .ok none

/-- An atom with the quantifier after it, if there is one -/
def quantify (a : Rx) (isAt : Bool) (s : Str) : P (Rx × Str) := do
  match ← quant s with
  | none => return (a, s)
  | some (lo, hi, s) =>
    if isAt then .error .bad
    else
      match s with
      | '?' :: s => return (.rep a lo hi false, s)
      | '+' :: _ => .error .other
      | s => return (.rep a lo hi true, s)

/-- The text before a character, and the text after it -/
def untilChar (e : Char) : Str → P (Str × Str)
  | [] => .error .bad
  | c :: s =>
    if c = e then .ok ([], s)
    else do
      let (t, r) ← untilChar e s
      return (c :: t, r)

/-- The name of a group: an identifier; those that are not ASCII are not modelled. -/
def checkName (t : Str) : P Unit :=
  match t with
  | [] => .error .bad
  | c :: _ =>
    if !t.all isAscii then .error .other
    else if t.all asciiWord && !isDigit09 c then .ok () else .error .bad

/-- Addition of greatest widths -/
def addWidth : Option Nat → Option Nat → Option Nat
  | some a, some b => some (a + b)
  | _, _ => none

/-- The least and the greatest width (`getwidth`) -/
def Rx.width : Rx → Nat × Option Nat
  | .set .. | .dot => (1, some 1)
  | .seq a b => (a.width.1 + b.width.1, addWidth a.width.2 b.width.2)
  | .alt a b => (Nat.min a.width.1 b.width.1, match a.width.2, b.width.2 with
      | some x, some y => some (Nat.max x y)
      | _, _ => none)
  | .cap _ a => a.width
  | .rep a lo hi _ => (lo * a.width.1, match hi, a.width.2 with
      | _, some 0 => some 0
      | some 0, _ => some 0
      | some h, some w => some (h * w)
      | _, _ => none)
  | .ref _ => (0, none)
  | _ => (0, some 0)

/-- The closing parenthesis -/
def closing (s : Str) : P Str :=
  match s with
  | ')' :: s => .ok s
  | _ => .error .bad

/-- A new group is open -/
def Ctx.push (C : Ctx) : Ctx := { C with next := C.next + 1, opened := C.next :: C.opened }

/-- The group is closed; names and numbers stay. -/
def Ctx.pop (C old : Ctx) : Ctx := { C with opened := old.opened }

mutual
/-- `_parse_sub` -/
def parseAlts : Nat → Ctx → Str → P (Rx × Ctx × Str)
  | 0, _, _ => .error .other
  | n + 1, C, s => do
    let (a, C, s) ← parseBranch n C s
    match s with
    | '|' :: s =>
      let (b, C, s) ← parseAlts n C s
      return (.alt a b, C, s)
    | s => return (a, C, s)
/-- `_parse`: up to `|`, `)` or the end -/
def parseBranch : Nat → Ctx → Str → P (Rx × Ctx × Str)
  | 0, _, _ => .error .other
  | n + 1, C, s =>
    match s with
    | [] => .ok (.eps, C, [])
    | c :: t =>
      if c = '|' ∨ c = ')' then .ok (.eps, C, c :: t)
      else do
        let (a, isAt, C, s) ← parseAtom n C c t
        let (r, s) ← quantify a isAt s
        let (b, C, s) ← parseBranch n C s
        return (.seq r b, C, s)
/-- One item: what it matches and whether it is an assertion about the position -/
def parseAtom : Nat → Ctx → Char → Str → P (Rx × Bool × Ctx × Str)
  | 0, _, _, _ => .error .other
  | n + 1, C, c, s =>
    if c = '.' then .ok (.dot, false, C, s)
    else if c = '^' then .ok (.bol, true, C, s)
    else if c = '$' then .ok (.eol, true, C, s)
    else if c = '\\' then do
      let (r, isAt, s) ← escape C s
      return (r, isAt, C, s)
    else if c = '[' then do
      let (r, s) ← setRx s
      return (r, false, C, s)
    else if c = '(' then
      match s with
      | '?' :: s => parseExt n C s
      | s => do
        let (r, C', s) ← parseAlts n C.push s
        let s ← closing s
        return (.cap C.next r, false, C'.pop C, s)
    else if c = '*' ∨ c = '+' ∨ c = '?' then .error .bad
    else if c = '{' then do
      match ← braces s with
      | some _ => .error .bad
      | none => return (.lit c, false, C, s)
    else .ok (.lit c, false, C, s)
/-- After `(?` -/
def parseExt : Nat → Ctx → Str → P (Rx × Bool × Ctx × Str)
  | 0, _, _ => .error .other
  | n + 1, C, s =>
    match s with
    | [] => .error .bad
    | ':' :: s => do
      let (r, C, s) ← parseAlts n C s
      let s ← closing s
      return (r, false, C, s)
    | '=' :: s => do
      let (r, C, s) ← parseAlts n C s
      let s ← closing s
      return (.ahead false r, false, C, s)
    | '!' :: s => do
      let (r, C, s) ← parseAlts n C s
      let s ← closing s
      return (.ahead true r, false, C, s)
    | '<' :: '=' :: s => parseBehind n C false s
    | '<' :: '!' :: s => parseBehind n C true s
    | 'P' :: '<' :: s => do
      let (t, s) ← untilChar '>' s
      checkName t
      if (C.names.lookup t).isSome then .error .bad
      else
        let (r, C', s) ← parseAlts n { C.push with names := (t, C.next) :: C.names } s
        let s ← closing s
        return (.cap C.next r, false, C'.pop C, s)
    | 'P' :: '=' :: s => do
      let (t, s) ← untilChar ')' s
      checkName t
      match C.names.lookup t with
      | none => .error .bad
      | some k => return (← C.ref k, false, C, s)
    | _ => .error .other
/-- A look-behind -/
def parseBehind : Nat → Ctx → Bool → Str → P (Rx × Bool × Ctx × Str)
  | 0, _, _, _ => .error .other
  | n + 1, C, neg, s => do
    let (r, C', s) ← parseAlts n { C with inBehind := true } s
    let s ← closing s
    if r.width.2 = some r.width.1 then return (.behind neg r.width.1 r, false, { C' with inBehind := C.inBehind }, s)
    else .error .bad
end

/-- A compiled regular expression: what to match, the number of groups, their names -/
structure Compiled where
  rx : Rx
  groups : Nat
  names : List (Str × Nat)

/-- `re.compile(text)` -/
def compileRe (text : Str) : P Compiled := do
  let (r, C, s) ← parseAlts (4 * text.length + 4) {} text
  match s with
  | [] => return ⟨r, C.next - 1, C.names⟩
  | _ => .error .bad

/-! ### Templates -/

/-- A part of a template for `sub` -/
inductive Part where
  | chr (c : Char)
  | grp (k : Nat)
  deriving DecidableEq, Repr

/-- A group of a template -/
def Compiled.group (c : Compiled) (k : Nat) : P Part := if k ≤ c.groups then .ok (.grp k) else .error .bad

/-- The group `\g<name>` of a template -/
def Compiled.named (c : Compiled) (t : Str) : P Part :=
  match t with
  | [] => .error .bad
  | _ =>
    if t.all isDigit09 then c.group (parseNat t)
    else do
      checkName t
      match c.names.lookup t with
      | some k => return .grp k
      | none => .error .other

/-- An escape of a template -/
def tmplEsc (C : Compiled) (s : Str) : P (List Part × Str) :=
  match s with
  | [] => .error .bad
  | c :: s =>
    if c = 'g' then
      match s with
      | '<' :: s => do
        let (t, s) ← untilChar '>' s
        return ([← C.named t], s)
      | _ => .error .bad
    else if c = '0' then do
      let (v, s) := takeOct 2 0 s
      return ([.chr (← chrOf v)], s)
    else if isDigit09 c then do
      match ← digitEsc c s with
      | (.inl k, s) => return ([← C.group k], s)
      | (.inr d, s) => return ([.chr d], s)
    else if c = 'b' then .ok ([.chr '\x08'], s)
    else if c = '\\' then .ok ([.chr '\\'], s)
    else
      match simpleEsc c with
      | some d => .ok ([.chr d], s)
      | none => if isLetter c then .error .bad else .ok ([.chr '\\', .chr c], s)

/-- `parse_template` -/
def tmpl (C : Compiled) : Nat → Str → P (List Part)
  | 0, _ => .error .other
  | _ + 1, [] => .ok []
  | n + 1, c :: s =>
    if c = '\\' then do
      let (ps, s) ← tmplEsc C s
      return ps ++ (← tmpl C n s)
    else return .chr c :: (← tmpl C n s)

/-- The text of a group, if it is set -/
def Pos.group (s : Str) (q : Pos) (k : Nat) : Option Str := (q.caps.lookup k).map fun (i, j) => between s i j

/-- The text of a part for a match in `s` from `st` to `q` -/
def Part.text (s : Str) (st : Str) (q : Pos) : Part → Str
  | .chr c => [c]
  | .grp 0 => between s st.length q.pre.length
  | .grp k => (q.group s k).getD []

/-! ### The functions -/

/-- The match object for a match of a regular expression with `n` groups of which the first is the whole match -/
def mkMatch (n : Nat) (s : Str) (st : Str) (q : Pos) : Match where
  start := st.length
  stop := q.pre.length
  all := between s st.length q.pre.length
  groups := (List.range (n - 1)).map fun i => q.group s (i + 2)
  regs := (List.range (n - 1)).map fun i =>
    match q.caps.lookup (i + 2) with
    | some (a, b) => ((a : Int), (b : Int))
    | none => (-1, -1)

/-- All matches in a string -/
def Compiled.all (E : Env) (c : Compiled) (s : Str) : List (Str × Pos) := allFrom E c.rx (2 * s.length + 2) [] false s

/-- The string with the matches replaced; `pos` is the end of the previous match. -/
def splice (s : Str) (new : Str × Pos → Str) : Nat → List (Str × Pos) → Str
  | pos, [] => s.drop pos
  | pos, m :: l => between s pos m.1.length ++ new m ++ splice s new m.2.pre.length l

/-- `regex.sub(template, s)` -/
def Compiled.sub (E : Env) (c : Compiled) (template s : Str) : P Str := do
  let ps ← tmpl c (template.length + 1) template
  return splice s (fun m => ps.flatMap (Part.text s m.1 m.2)) 0 (c.all E s)

/-- The pieces and groups of `regex.split(s)` -/
def pieces (n : Nat) (s : Str) : Nat → List (Str × Pos) → List (Option Str)
  | pos, [] => [some (s.drop pos)]
  | pos, m :: l => some (between s pos m.1.length) :: ((List.range n).map fun i => m.2.group s (i + 1)) ++
      pieces n s m.2.pre.length l

def Compiled.split (E : Env) (c : Compiled) (s : Str) : List (Option Str) := pieces c.groups s 0 (c.all E s)

end Pip.Rex

namespace Pip
open Rex

/-! ### Patterns -/

/-- `((?:\\{2})*)\\([1-9]\d?)` at the beginning: the backslashes, the number, the rest (ptypes.py:194, 209) -/
def refAt : Str → Option (Str × Str × Str)
  | '\\' :: '\\' :: s => (refAt s).map fun (p, d, r) => ('\\' :: '\\' :: p, d, r)
  | '\\' :: d :: s =>
    if isDigit09 d && d != '0' then
      match s with
      | e :: t => if isDigit e then some ([], [d, e], t) else some ([], [d], s)
      | [] => some ([], [d], [])
    else none
  | _ => none

/-- The numbers of all back-references incremented (ptypes.py:194-198, 209-213); `bs`: there is a backslash before. The
first argument bounds the length. -/
def incRefs : Nat → Bool → Str → Str
  | 0, _, s => s
  | _ + 1, _, [] => []
  | n + 1, bs, c :: s =>
    if bs then c :: incRefs n (c == '\\') s
    else
      match refAt (c :: s) with
      | some (p, d, r) => p ++ s% "\\" ++ showNat (parseNat d + 1) ++ incRefs n false r
      | none => c :: incRefs n (c == '\\') s

/-- The text compiled by `Pattern.asRegex` (ptypes.py:189-200) -/
def asRegexText (raw : Str) : Str :=
  let t := s% "(?P<all>" ++ raw ++ s% ")"
  incRefs t.length false t

/-- `((?:\\{2})*)&` at the beginning (ptypes.py:215): the backslashes and the rest -/
def ampAt : Str → Option (Str × Str)
  | '\\' :: '\\' :: s => (ampAt s).map fun (p, r) => ('\\' :: '\\' :: p, r)
  | '&' :: s => some ([], s)
  | _ => none

/-- Ampersands turned into back-references to the whole match (ptypes.py:215-217) -/
def ampRefs : Nat → Bool → Str → Str
  | 0, _, s => s
  | _ + 1, _, [] => []
  | n + 1, bs, c :: s =>
    if bs then c :: ampRefs n (c == '\\') s
    else
      match ampAt (c :: s) with
      | some (p, r) => p ++ s% "\\g<all>" ++ ampRefs n false r
      | none => c :: ampRefs n (c == '\\') s

/-- `Pattern.asReplacement` (ptypes.py:207-220) -/
def asReplacement (raw : Str) : Str :=
  let t := incRefs raw.length false raw
  replaceStr (s% "\\&") (s% "&") (ampRefs t.length false t)

/-- `Pattern.asRegex` (ptypes.py:189-200): if the group named "all" is not the whole expression, because the parentheses of the
raw text are not balanced, it is not modelled. -/
def compileAll (raw : Str) : P Compiled := do
  let c ← compileRe (asRegexText raw)
  match c.rx with
  | .seq (.cap 1 _) .eps => return c
  | _ => .error .other

/-- What a function of `re` gives: `re.error`, or what the given environment says -/
def reCall {α : Type} (x : P α) (other : Except Exc α) : Except Exc α :=
  match x with
  | .ok a => .ok a
  | .error .bad => .error .reError
  | .error .other => other

/-- The environment with the functions of `re` -/
abbrev Ext.withRe (X : Ext) (db : CharDb) : Ext :=
  { X with
    finditer := fun raw f s => reCall (do
      let c ← compileAll raw
      return (c.all ⟨db, f⟩ s).map fun m => mkMatch c.groups s m.1 m.2) (X.finditer raw f s)
    search := fun raw f s => reCall (do
      let c ← compileAll raw
      return (seekFrom ⟨db, f⟩ c.rx [] false s).map fun m => mkMatch c.groups s m.1 m.2) (X.search raw f s)
    fullmatch := fun raw f s => reCall (do
      let c ← compileAll raw
      return ((c.rx.run ⟨db, f⟩ ⟨[], s, []⟩).find? (·.post.isEmpty)).map fun q => mkMatch c.groups s [] q) (X.fullmatch raw f s)
    sub := fun raw f template s => reCall (do
      let c ← compileAll raw
      c.sub ⟨db, f⟩ template s) (X.sub raw f template s)
    split := fun raw f s => reCall (do
      let c ← compileRe raw
      return c.split ⟨db, f⟩ s) (X.split raw f s)
    resub := fun raw s => reCall (do
      let c ← compileRe raw
      c.sub ⟨db, {}⟩ [] s) (X.resub raw s) }

end Pip
