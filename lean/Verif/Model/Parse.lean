import Verif.Model.Val
/-!
# Parser

Transcription of parsing.py:11-323. The Python functions pop tokens off a shared list; here they return the
remaining tokens. The token list holds `none` where Python has None; reading past its end is `indexError`.
Recursion is bounded by a budget whose exhaustion is `Exc.fuel`; `Props/Parse` proves that the budget used by
`parseAll` is never exhausted.
-/

namespace Pip
namespace Parse

abbrev Toks := List (Option Tok)
abbrev Res (α : Type) := Except Exc (α × Toks)

/-- Sequencing: an exception ends the computation. -/
def andThen {α β : Type} (x : Res α) (f : α → Toks → Res β) : Res β :=
  match x with
  | .ok (a, ts) => f a ts
  | .error e => .error e

/-- `token == "text"` for a token or None (tokens.py:11-12). -/
def isText (t : Option Tok) (s : Str) : Bool :=
  match t with
  | some t => t.text == s
  | none => false

/-- `assignOp` (parsing.py:7) -/
def assignOp : Op := (findOp ops2 (s% ":")).getD chainOp

/-- `operators.opsByArity[1]["ST"]`, `operators.opsByArity[1]["J"]` (parsing.py:223-224) -/
def strOp : Op := (findOp ops1 (s% "ST")).getD chainOp
def joinOp : Op := (findOp ops1 (s% "J")).getD chainOp

/-- Pop an optional semicolon (parsing.py:57-58, 82-83, 169-170). -/
def semi {α : Type} (x : α) : Toks → Res α
  | [] => .error .indexError
  | t :: r => if isText t (s% ";") then .ok (x, r) else .ok (x, t :: r)

mutual
/-- `bubble` (parsing.py:174-200) followed by appending `extra` to the active tree (parsing.py:158-165):
the operator moves down the right edge of the tree. Python appends the operands after parsing them, which
cannot influence the rearrangement. -/
def attach (op : Op) (extra : List Tree) : Tree → Tree
  | .node nop args =>
    if (nop.arity = 2 ∨ nop.arity = 3) ∧ (nop.prec < op.prec ∨ (nop.prec = op.prec ∧ op.assoc = .right)) then
      .node nop (attachLast op extra args)
    else if op = chainOp ∧ nop = chainOp then .node nop (args ++ extra)
    else .node op (.node nop args :: extra)
  | t => .node op (t :: extra)
/-- `exprTree[-1] = newTree` (parsing.py:187-192) -/
def attachLast (op : Op) (extra : List Tree) : List Tree → List Tree
  | [] => []
  | [t] => [attach op extra t]
  | t :: u :: r => t :: attachLast op extra (u :: r)
end

/-- Name after a backslash in an escaped string: `([a-z_]|[A-Z]{1,2})` (parsing.py:217). -/
def interpName : Str → Option (Str × Str)
  | [] => none
  | c :: r =>
    if isLowerAZ c || c == '_' then some ([c], r)
    else if isUpperAZ c then
      match r with
      | d :: r' => if isUpperAZ d then some ([c, d], r') else some ([c], r)
      | [] => some ([c], [])
    else none

/-- `re.split(r"\\([a-z_]|[A-Z]{1,2})", rawText)` (parsing.py:217): the first literal and the pairs of
interpolated name and following literal. The first argument bounds the number of steps (the length of the
text suffices). -/
def interp : Nat → Str → Str × List (Str × Str)
  | 0, s => (s, [])
  | _ + 1, [] => ([], [])
  | n + 1, c :: r =>
    match (if c = '\\' then interpName r else none) with
    | some (name, r') => let (l, ps) := interp n r'; ([], (name, l) :: ps)
    | none => let (l, ps) := interp n r; (c :: l, ps)

/-- The escaped-string token `\"...\"` of a literal (parsing.py:227, 232). -/
def escTok (lit : Str) : Tree := .tok ⟨.esc, s% "\\\"" ++ lit ++ s% "\\\""⟩

/-- Escaped strings (parsing.py:211-233). -/
def escaped (t : Tok) : Tree :=
  let raw := (t.text.drop 2).take (t.text.length - 4)
  match interp raw.length raw with
  | (_, []) => .tok t
  | (lit, ps) =>
    .node parenOp [.node joinOp [.node enlistOp
      (escTok lit :: ps.flatMap fun p => [.node strOp [.tok ⟨.name, p.1⟩], escTok p.2])]]

/-- What a parenthesised sequence of expressions stands for (parsing.py:251-261): nil, a grouped expression
or a send-expression. -/
def group : List Tree → Tree
  | [] => .tok ⟨.nil, s% "()"⟩
  | [e] => .node parenOp [e]
  | l => .node sendOp l

mutual
/-- `parse` (parsing.py:11-19) -/
def parse : Nat → Toks → Res (List Tree)
  | 0, _ => .error .fuel
  | n + 1, ts =>
    match ts with
    | [] => .error .indexError
    | none :: _ => .ok ([], ts)
    | some t :: _ =>
      if t.text = s% "}" then .ok ([], ts)
      else
        andThen (parseStatement n ts) fun st ts =>
        andThen (parse n ts) fun sts ts =>
        .ok (st :: sts, ts)

/-- `parseStatement` (parsing.py:21-60) -/
def parseStatement : Nat → Toks → Res Tree
  | 0, _ => .error .fuel
  | n + 1, ts =>
    match ts with
    | [] => .error .indexError
    | none :: _ => .error .incomplete
    | some t :: r =>
      if t.kind = .cmd then
        match findCmd t.text with
        | none => .error .keyError
        | some c =>
          andThen (parseArgs n c.args r) fun args ts =>
          semi (.cmd c args) ts
      else
        andThen (parseExpr n (-1) ts) fun e ts =>
        semi e ts

/-- The loop over `command.argtypes` (parsing.py:31-51) -/
def parseArgs : Nat → List ArgType → Toks → Res (List Tree)
  | 0, _, _ => .error .fuel
  | n + 1, as, ts =>
    match as with
    | [] => .ok ([], ts)
    | .els :: as =>
      match ts with
      | [] => .error .indexError
      | t :: r =>
        if isText t (s% "EL") then
          andThen (parseBlock n r) fun b ts =>
          andThen (parseArgs n as ts) fun l ts =>
          .ok (.code b :: l, ts)
        else
          andThen (parseArgs n as ts) fun l ts =>
          .ok (.code [] :: l, ts)
    | .code :: as =>
      andThen (parseBlock n ts) fun b ts =>
      andThen (parseArgs n as ts) fun l ts =>
      .ok (.code b :: l, ts)
    | .loopvar :: as =>
      andThen (parseNameList n ts) fun e ts =>
      andThen (parseArgs n as ts) fun l ts =>
      .ok (e :: l, ts)
    | .expr :: as =>
      andThen (parseExpr n (-1) ts) fun e ts =>
      andThen (parseArgs n as ts) fun l ts =>
      .ok (e :: l, ts)

/-- `parseNameList` (parsing.py:62-85) -/
def parseNameList : Nat → Toks → Res Tree
  | 0, _ => .error .fuel
  | n + 1, ts =>
    match ts with
    | [] => .error .indexError
    | none :: _ => .error .incomplete
    | some t :: r =>
      if t.kind = .name then semi (.tok t) r
      else if t.text = s% "[" then
        andThen (nameLoop n r) fun l ts =>
        if l.isEmpty then .error .badSyntax else semi (.node enlistOp l) ts
      else .error .badSyntax

/-- The loop of `parseNameList` (parsing.py:69-71), including the removal of the closing bracket. -/
def nameLoop : Nat → Toks → Res (List Tree)
  | 0, _ => .error .fuel
  | n + 1, ts =>
    match ts with
    | [] => .error .indexError
    | t :: r =>
      if isText t (s% "]") then .ok ([], r)
      else
        andThen (parseNameList n ts) fun x ts =>
        andThen (nameLoop n ts) fun l ts =>
        .ok (x :: l, ts)

/-- `parseBlock` (parsing.py:87-106) -/
def parseBlock : Nat → Toks → Res (List Tree)
  | 0, _ => .error .fuel
  | n + 1, ts =>
    match ts with
    | [] => .error .indexError
    | t :: r =>
      if isText t (s% "{") then
        andThen (parse n r) fun b ts =>
        match ts with
        | [] => .error .indexError
        | none :: _ => .error .incomplete
        | some u :: r => if u.text = s% "}" then .ok (b, r) else .error .badSyntax
      else
        andThen (parseStatement n ts) fun st ts =>
        .ok ([st], ts)

/-- `parseExpr` (parsing.py:117-171) -/
def parseExpr : Nat → Int → Toks → Res Tree
  | 0, _, _ => .error .fuel
  | n + 1, min, ts =>
    andThen (parseOperand n ts) fun e ts =>
    andThen (exprLoop n min e ts) fun e ts =>
    if min = -1 then semi e ts else .ok (e, ts)

/-- The loop of `parseExpr` (parsing.py:120-165) -/
def exprLoop : Nat → Int → Tree → Toks → Res Tree
  | 0, _, _, _ => .error .fuel
  | n + 1, min, e, ts =>
    match ts with
    | [] => .error .indexError
    | none :: _ => .ok (e, ts)
    | some t :: r =>
      if t.kind = .op then
        match (findOp ops2 t.text).or (findOp ops3 t.text) with
        | none => .ok (e, ts)
        | some op =>
          match r with
          | [] => .error .indexError
          | u :: r' =>
            if isText u (s% ":") then
              if (assignOp.prec : Int) < min then .ok (e, ts)
              else operands n min e { op with assign := true, prec := assignOp.prec, assoc := assignOp.assoc } r'
            else
              if (op.prec : Int) < min then .ok (e, ts)
              else operands n min e op r
      else .ok (e, ts)

/-- The remaining operands of a binary or ternary operator, and the next passes of the loop
(parsing.py:147-165) -/
def operands : Nat → Int → Tree → Op → Toks → Res Tree
  | 0, _, _, _, _ => .error .fuel
  | n + 1, min, e, op, ts =>
    if op.assoc = .chain then
      andThen (parseOperand n ts) fun x ts =>
      exprLoop n min (attach chainOp [.opr op, x] e) ts
    else if op.arity = 3 then
      andThen (parseExpr n (-1) ts) fun m ts =>
      andThen (parseOperand n ts) fun x ts =>
      exprLoop n min (attach op [m, x] e) ts
    else
      andThen (parseOperand n ts) fun x ts =>
      exprLoop n min (attach op [x] e) ts

/-- The loops collecting expressions up to a closing bracket (parsing.py:241-248, 266-272), including the
removal of the bracket. -/
def exprList : Nat → Str → Toks → Res (List Tree)
  | 0, _, _ => .error .fuel
  | n + 1, close, ts =>
    match ts with
    | [] => .error .indexError
    | none :: _ => .error .incomplete
    | some t :: r =>
      if t.text = close then .ok ([], r)
      else
        andThen (parseExpr n (-1) ts) fun e ts =>
        andThen (exprList n close ts) fun l ts =>
        .ok (e :: l, ts)

/-- `parseOperand` (parsing.py:208-323) -/
def parseOperand : Nat → Toks → Res Tree
  | 0, _ => .error .fuel
  | n + 1, ts =>
    match ts with
    | [] => .error .indexError
    | none :: _ => .error .incomplete
    | some t :: r =>
      if t.kind = .esc then .ok (escaped t, r)
      else if t.kind = .name ∨ t.isLiteral then .ok (.tok t, r)
      else if t.text = s% "(" then
        andThen (exprList n (s% ")") r) fun l ts =>
        .ok (group l, ts)
      else if t.text = s% "[" then
        andThen (exprList n (s% "]") r) fun l ts =>
        .ok (.node enlistOp l, ts)
      else if t.text = s% "{" then
        andThen (parseBlock n ts) fun b ts =>
        .ok (.node blockOp [.code b], ts)
      else if (findOp ops1 t.text).isSome ∨ t.text = s% "$" ∨ t.text = s% "\\$" then
        if t.text = s% "$" ∨ t.text = s% "\\$" then
          match r with
          | [] => .error .indexError
          | none :: _ => .error .incomplete
          | some u :: r =>
            match findOp ops2 u.text with
            | none => .error .badSyntax
            | some op =>
              unary n { op with fold := op.fold || t.text = s% "$", scan := op.scan || t.text = s% "\\$",
                                arity := 1 } r
        else
          match findOp ops1 t.text with
          | none => .error .keyError
          | some op => unary n op r
      else .error .badSyntax

/-- The meta-operators and the operand of a unary operator (parsing.py:297-311) -/
def unary : Nat → Op → Toks → Res Tree
  | 0, _, _ => .error .fuel
  | n + 1, op, ts =>
    match ts with
    | [] => .error .indexError
    | t :: r =>
      if isText t (s% "*") then
        match r with
        | [] => .error .indexError
        | u :: r' =>
          if isText u (s% ":") then
            unaryOperand n { op with map := true, assign := true, prec := assignOp.prec } r'
          else unaryOperand n { op with map := true } r
      else if isText t (s% ":") then unaryOperand n { op with assign := true, prec := assignOp.prec } r
      else unaryOperand n op ts

/-- parsing.py:310-311 -/
def unaryOperand : Nat → Op → Toks → Res Tree
  | 0, _, _ => .error .fuel
  | n + 1, op, ts =>
    andThen (parseExpr n ((op.prec : Int) + 1) ts) fun e ts =>
    .ok (.node op [e], ts)
end

/-- A budget that always suffices (proved in `Props/Parse`). -/
def budget (ts : Toks) : Nat := 16 * ts.length + 16

/-- `parse(tokenList)` as called by pip.py: statements up to the end of the program or an unmatched `}`. -/
def parseAll (ts : Toks) : Except Exc (List Tree) :=
  match parse (budget ts) ts with
  | .ok (sts, _) => .ok sts
  | .error e => .error e

end Parse
end Pip
