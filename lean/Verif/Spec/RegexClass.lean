import Verif.Spec.Regex
import Verif.Model.Rex
/-!
# What character sets and the flags of regular expressions mean
-/

namespace Pip.Re
open Rex

/-- The same letter, if case is ignored. For characters that are not ASCII the table says it. -/
def SameLetter (db : CharDb) (f : Flags) (c d : Char) : Prop :=
  if c.toNat < 128 ∧ d.toNat < 128 then c.toLower = d.toLower
  else f.a = false ∧ c ∈ db.fold d ∧ (d.toNat < 128 → d.isAlpha = true)

/-- What `\d`, `\s` and `\w` match -/
structure Cats where
  digit : Char → Prop
  space : Char → Prop
  word : Char → Prop

def reCats (db : CharDb) (f : Flags) : Cats where
  digit c := if f.a then c.isDigit = true else isDigit c = true
  space c := if f.a then c ∈ [' ', '\t', '\n', '\r', '\x0c', '\x0b'] else isSpace c = true
  word c := if c.toNat < 128 then c.isAlphanum = true ∨ c = '_' else f.a = false ∧ db.word c = true

/-- The escapes for categories of characters -/
inductive CatText (K : Cats) : Str → (Char → Prop) → Prop
  | digit : CatText K (s% "\\d") K.digit
  | notDigit : CatText K (s% "\\D") fun c => ¬ K.digit c
  | space : CatText K (s% "\\s") K.space
  | notSpace : CatText K (s% "\\S") fun c => ¬ K.space c
  | word : CatText K (s% "\\w") K.word
  | notWord : CatText K (s% "\\W") fun c => ¬ K.word c

/-- The letters that stand for control characters after a backslash -/
def controls : List (Char × Char) := [('a', '\x07'), ('f', '\x0c'), ('n', '\n'), ('r', '\r'), ('t', '\t'), ('v', '\x0b')]

/-- Hexadecimal digits -/
inductive HexDigit : Char → Nat → Prop
  | lower {c : Char} {n : Nat} : (s% "0123456789abcdef")[n]? = some c → HexDigit c n
  | upper {c : Char} {n : Nat} : (s% "0123456789ABCDEF")[n]? = some c → HexDigit c n

/-- The escapes that stand for a character -/
inductive CharText : Str → Char → Prop
  | esc {c : Char} : escapable c = true → CharText ['\\', c] c
  | control {c d : Char} : (c, d) ∈ controls → CharText ['\\', c] d
  | hex {a b : Char} {m n : Nat} : HexDigit a m → HexDigit b n → CharText ['\\', 'x', a, b] (Char.ofNat (16 * m + n))

/-- The characters that stand for themselves in a set -/
def setOrdinary (c : Char) : Bool := !(s% "]\\-").elem c

/-- The texts that stand for a character in a set -/
inductive SetChar : Str → Char → Prop
  | plain {c : Char} : setOrdinary c = true → SetChar [c] c
  | text {t : Str} {c : Char} : CharText t c → SetChar t c
  | backspace : SetChar (s% "\\b") '\x08'

/-- The members of sets -/
inductive Member (lit : Char → Char → Prop) (K : Cats) : Str → (Char → Prop) → Prop
  | one {t : Str} {c : Char} : SetChar t c → Member lit K t (lit c)
  | range {t u : Str} {a b : Char} : SetChar t a → SetChar u b → a.toNat ≤ b.toNat →
      Member lit K (t ++ '-' :: u) fun d => ∃ c : Char, a.toNat ≤ c.toNat ∧ c.toNat ≤ b.toNat ∧ lit c d
  | cat {t : Str} {p : Char → Prop} : CatText K t p → Member lit K t p

/-- Members one after the other, the last of which may be a dash -/
inductive Members (lit : Char → Char → Prop) (K : Cats) : Str → (Char → Prop) → Prop
  | one {t : Str} {p : Char → Prop} : Member lit K t p → Members lit K t p
  | more {t u : Str} {p q : Char → Prop} : Member lit K t p → Members lit K u q → Members lit K (t ++ u) fun c => p c ∨ q c
  | dash : Members lit K ['-'] (lit '-')

/-- What may be between the brackets: the first member may be a dash or a bracket. -/
inductive SetText (lit : Char → Char → Prop) (K : Cats) : Str → (Char → Prop) → Prop
  | plain {t : Str} {p : Char → Prop} : Members lit K t p → SetText lit K t p
  | first {c : Char} : c ∈ ['-', ']'] → SetText lit K [c] (lit c)
  | firsts {c : Char} {t : Str} {p : Char → Prop} : c ∈ ['-', ']'] → Members lit K t p → SetText lit K (c :: t) fun d => lit c d ∨ p d

/-- The further atoms that match one character: escapes and sets -/
inductive Class (lit : Char → Char → Prop) (K : Cats) : Str → (Char → Prop) → Prop
  | chr {t : Str} {c : Char} : CharText t c → Class lit K t (lit c)
  | cat {t : Str} {p : Char → Prop} : CatText K t p → Class lit K t p
  | set {t : Str} {p : Char → Prop} : SetText lit K t p → t.head? ≠ some '^' → Class lit K (s% "[" ++ t ++ s% "]") p
  | notSet {t : Str} {p : Char → Prop} : SetText lit K t p → Class lit K (s% "[^" ++ t ++ s% "]") fun c => ¬ p c

/-- The meaning of regular expressions with given flags -/
def reSem (db : CharDb) (f : Flags) : Sem where
  lit c d := c = d ∨ f.i = true ∧ SameLetter db f c d
  dot c := f.s = true ∨ c ≠ '\n'
  bol pre _ := pre = [] ∨ f.m = true ∧ pre.getLast? = some '\n'
  eol _ post := post = [] ∨ post = ['\n'] ∨ f.m = true ∧ post.head? = some '\n'
  word := (reCats db f).word
  other := Class (fun c d => c = d ∨ f.i = true ∧ SameLetter db f c d) (reCats db f)
  other_ne := by
    rintro t m (h | h | h | h)
    · cases h <;> simp
    · cases h <;> simp
    · simp
    · simp

end Pip.Re
