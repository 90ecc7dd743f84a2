import Verif.Model.Rgx
import Verif.Model.Ops
/-!
# Scanner

Transcription of tokens.py and scanning.py.
-/

namespace Pip

/-- Exceptions. The first three are errors.py:6-19; the next ones are Python built-ins that the code raises,
catches or lets escape; `fuel` and `unmodelled` belong to the model (see DESIGN.md). -/
inductive Exc where
  | fatal | badSyntax | incomplete
  | typeError | valueError | indexError | zeroDivision | nameError | attributeError | overflow
  | reError | keyError
  | fuel | unmodelled
  deriving DecidableEq, Repr

/-- The subclasses of `tokens.Token` (tokens.py:31-63). -/
inductive Kind where
  | cmd | op | sym | name | num | str | pat | char | esc | nil
  deriving DecidableEq, Repr

/-- A token: its class and its text (tokens.py:3-29). -/
structure Tok where
  kind : Kind
  text : Str
  deriving DecidableEq, Repr

/-- `isinstance(token, tokens.Literal)` (tokens.py:43-63) -/
def Tok.isLiteral (t : Tok) : Bool :=
  match t.kind with
  | .num | .str | .pat | .char | .esc | .nil => true
  | _ => false

deriving instance DecidableEq for Except

namespace Scan
open Rgx

/-- scanning.py:10-15 -/
def nameRgx : Rgx := alts [
  plus (chr isUpperAZ),
  chr (fun c => ('a'.toNat ≤ c.toNat && c.toNat ≤ 'i'.toNat) || ('k'.toNat ≤ c.toNat && c.toNat ≤ 'z'.toNat)
                 || c == '_'),
  seq (lit '$') (chr (fun c => (s% "][()$`'").elem c || isDigit09 c)),
  seq (lit '$') (seq (chr isLowerAZ) (star (chr (fun c => isLowerAZ c || isDigit09 c || c == '_')))),
  seq (lit '$') (seq (lit '_') (opt (seq (lit '_') (opt (lit '_'))))),
  seq (lit '\\') (chr (fun c => 'a'.toNat ≤ c.toNat && c.toNat ≤ 'g'.toNat))]

/-- scanning.py:16 -/
def stringRgx : Rgx := seq (lit '"') (seq (star (chr (· != '"'))) (lit '"'))

/-- scanning.py:17 -/
def patternRgx : Rgx :=
  seq (lit '`') (seq (star (alt (chr (fun c => c != '`' && c != '\\')) (seq (lit '\\') dot))) (lit '`'))

/-- scanning.py:18 -/
def charRgx : Rgx := seq (lit '\'') (alt dot (lit '\n'))

/-- scanning.py:19 -/
def escStringRgx : Rgx :=
  seq (str (s% "\\\"")) (seq (star (alt (seq (lit '\\') (chr (· != '"'))) (chr (· != '\\')))) (str (s% "\\\"")))

/-- scanning.py:20 -/
def numberRgx : Rgx := seq (plus (chr isDigit)) (opt (seq (lit '.') (plus (chr isDigit))))

/-- scanning.py:21 -/
def symbolsRgx : Rgx := alts [cls (s% "][(){};$"), str (s% "\\$"), str (s% "EL")]

/-- Operator texts from longest to shortest (scanning.py:27-30; no text is longer than two characters). -/
def sortedTexts : List Str :=
  operatorTexts.filter (fun t => t.length == 2) ++ operatorTexts.filter (fun t => t.length == 1)

/-- scanning.py:27-30 -/
def operRgx : Rgx := alts (sortedTexts.map str)

/-- scanning.py:33-40 -/
def tokenRgx : Rgx :=
  alts [nameRgx, stringRgx, patternRgx, charRgx, escStringRgx, numberRgx, symbolsRgx, operRgx]

/-- scanning.py:47 -/
def lineCommentRgx : Rgx :=
  seq (alt (seq (star (chr isSpace)) (seq (lit '\n') (seq (star (chr isSpace)) (lit ';'))))
           (str (s% "  ")))
      (star dot)

/-- scanning.py:49 -/
def blockCommentRgx : Rgx := seq (str (s% "{;")) (seq (lazyStar any) (str (s% ";}")))

/-- scanning.py:50 -/
def whitespaceRgx : Rgx := plus (chr isSpace)

/-- `newToken` (scanning.py:53-75). -/
def newToken (text : Str) : Option Tok :=
  if text ∈ operatorTexts then some ⟨.op, text⟩
  else if (findCmd text).isSome then some ⟨.cmd, text⟩
  else if text.take 1 = s% "'" then some ⟨.char, text⟩
  else if text.take 1 = s% "\"" then some ⟨.str, text⟩
  else if text.take 2 = s% "\\\"" then some ⟨.esc, text⟩
  else if text.take 1 = s% "`" then some ⟨.pat, text⟩
  else if symbolsRgx.full text then some ⟨.sym, text⟩
  else if nameRgx.full text then some ⟨.name, text⟩
  else if numberRgx.full text then some ⟨.num, text⟩
  else none

/-- The cut of a token text (scanning.py:101-118): the token's text and the number of characters consumed.
`text.isalpha() and text.isupper()` holds of a text matched by `tokenRgx` exactly when it is a run of ASCII
capitals, which is how it is modelled. -/
def cut (text : Str) : Str × Nat :=
  let (text, index) :=
    if text ≠ [] ∧ text.all isUpperAZ then
      let index := if text.length % 2 = 1 then 1 else 2
      let index := if text = s% "PIP" then 3 else index
      (text.take index, index)
    else (text, text.length)
  if text = s% "EI" then (s% "EL", index - 1) else (text, index)

/-- What one pass through the loop of `tokenize` does. -/
inductive Step where
  /-- discard text, `rest` remains -/
  | skip (rest : Str)
  /-- append a token (`none` is Python's None), `rest` remains -/
  | tok (t : Option Tok) (rest : Str)
  /-- raise IncompleteSyntax -/
  | die
  deriving DecidableEq, Repr

/-- Body of the loop of `tokenize` (scanning.py:84-131) on non-empty code. -/
@[irreducible] def step (code : Str) : Step :=
  match lineCommentRgx.match? code with
  | some (_, rest) => .skip rest
  | none =>
  match blockCommentRgx.match? code with
  | some (_, rest) => .skip rest
  | none =>
  if code.take 2 = s% "{;" then .die else
  match whitespaceRgx.match? code with
  | some (_, rest) => .skip rest
  | none =>
  match tokenRgx.match? code with
  | some (text, _) =>
    let (text, index) := cut text
    .tok (newToken text) (code.drop index)
  | none =>
  if (s% "\"`'").elem (code.headD ' ') || code.take 2 = s% "\\\"" then .die
  else .skip (code.drop 1)

/-- The loop of `tokenize` (scanning.py:83-132); the first argument bounds the number of passes. -/
def loop : Nat → Str → Except Exc (List (Option Tok))
  | _, [] => .ok []
  | 0, _ :: _ => .error .fuel
  | n + 1, c :: cs =>
    match step (c :: cs) with
    | .skip rest => loop n rest
    | .tok t rest => match loop n rest with
      | .ok ts => .ok (t :: ts)
      | .error e => .error e
    | .die => .error .incomplete

/-- `tokenize` (scanning.py:78-132). Every pass consumes at least one character, so the number of
characters bounds the number of passes (proved in `Props/Scan`). Python's list may contain None where
`newToken` fails to classify a text; hence the `Option`. -/
def tokenize (code : Str) : Except Exc (List (Option Tok)) := loop (code.length + 1) ('\n' :: code)

/-- `scan` (scanning.py:134-138): the end marker None is appended. -/
def scan (code : Str) : Except Exc (List (Option Tok)) :=
  match tokenize (code ++ s% "\n") with
  | .ok ts => .ok (ts ++ [none])
  | .error e => .error e

/-- `addSpaces` of a token list (scanning.py:140-148). -/
def addSpaces (ts : List (Option Tok)) : Str := joinStr (s% " ") (ts.filterMap fun t => t.map (·.text))

end Scan
end Pip
