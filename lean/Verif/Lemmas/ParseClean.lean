import Verif.Model.Parse
/-!
The parser on token lists whose end marker is left implicit, and the proof that it agrees with the parser of
`Model/Parse` (so reading past the end marker never happens).
-/

set_option linter.unusedSimpArgs false
set_option linter.unusedVariables false

namespace Pip
namespace PP
open Parse

abbrev Res (α : Type) := Except Exc (α × List Tok)

def andThen {α β : Type} (x : Res α) (f : α → List Tok → Res β) : Res β :=
  match x with
  | .ok (a, ts) => f a ts
  | .error e => .error e

def isT (ts : List Tok) (s : Str) : Bool :=
  match ts with
  | t :: _ => t.text == s
  | [] => false

def semi {α : Type} (x : α) (ts : List Tok) : Res α :=
  if isT ts (s% ";") then .ok (x, ts.tail) else .ok (x, ts)

mutual
def parse : Nat → List Tok → Res (List Tree)
  | 0, _ => .error .fuel
  | n + 1, ts =>
    match ts with
    | [] => .ok ([], ts)
    | t :: _ =>
      if t.text = s% "}" then .ok ([], ts)
      else
        andThen (parseStatement n ts) fun st ts =>
        andThen (parse n ts) fun sts ts =>
        .ok (st :: sts, ts)

def parseStatement : Nat → List Tok → Res Tree
  | 0, _ => .error .fuel
  | n + 1, ts =>
    match ts with
    | [] => .error .incomplete
    | t :: r =>
      if t.kind = .cmd then
        match findCmd t.text with
        | none => .error .keyError
        | some c =>
          andThen (parseArgs n c.args r) fun args ts =>
          semi (.cmd c args) ts
      else
        andThen (parseExpr n (-1) ts) fun e ts =>
        semi e ts

def parseArgs : Nat → List ArgType → List Tok → Res (List Tree)
  | 0, _, _ => .error .fuel
  | n + 1, as, ts =>
    match as with
    | [] => .ok ([], ts)
    | .els :: as =>
        if isT ts (s% "EL") then
          andThen (parseBlock n ts.tail) fun b ts =>
          andThen (parseArgs n as ts) fun l ts =>
          .ok (.code b :: l, ts)
        else
          andThen (parseArgs n as ts) fun l ts =>
          .ok (.code [] :: l, ts)
    | .code :: as =>
      andThen (parseBlock n ts) fun b ts =>
      andThen (parseArgs n as ts) fun l ts =>
      .ok (.code b :: l, ts)
    | .loopvar :: as =>
      andThen (parseNameList n ts) fun e ts =>
      andThen (parseArgs n as ts) fun l ts =>
      .ok (e :: l, ts)
    | .expr :: as =>
      andThen (parseExpr n (-1) ts) fun e ts =>
      andThen (parseArgs n as ts) fun l ts =>
      .ok (e :: l, ts)

def parseNameList : Nat → List Tok → Res Tree
  | 0, _ => .error .fuel
  | n + 1, ts =>
    match ts with
    | [] => .error .incomplete
    | t :: r =>
      if t.kind = .name then semi (.tok t) r
      else if t.text = s% "[" then
        andThen (nameLoop n r) fun l ts =>
        if l.isEmpty then .error .badSyntax else semi (.node enlistOp l) ts
      else .error .badSyntax

def nameLoop : Nat → List Tok → Res (List Tree)
  | 0, _ => .error .fuel
  | n + 1, ts =>
      if isT ts (s% "]") then .ok ([], ts.tail)
      else
        andThen (parseNameList n ts) fun x ts =>
        andThen (nameLoop n ts) fun l ts =>
        .ok (x :: l, ts)

def parseBlock : Nat → List Tok → Res (List Tree)
  | 0, _ => .error .fuel
  | n + 1, ts =>
      if isT ts (s% "{") then
        andThen (parse n ts.tail) fun b ts =>
        match ts with
        | [] => .error .incomplete
        | u :: r => if u.text = s% "}" then .ok (b, r) else .error .badSyntax
      else
        andThen (parseStatement n ts) fun st ts =>
        .ok ([st], ts)

def parseExpr : Nat → Int → List Tok → Res Tree
  | 0, _, _ => .error .fuel
  | n + 1, min, ts =>
    andThen (parseOperand n ts) fun e ts =>
    andThen (exprLoop n min e ts) fun e ts =>
    if min = -1 then semi e ts else .ok (e, ts)

def exprLoop : Nat → Int → Tree → List Tok → Res Tree
  | 0, _, _, _ => .error .fuel
  | n + 1, min, e, ts =>
    match ts with
    | [] => .ok (e, ts)
    | t :: r =>
      if t.kind = .op then
        match (findOp ops2 t.text).or (findOp ops3 t.text) with
        | none => .ok (e, ts)
        | some op =>
            if isT r (s% ":") then
              if (assignOp.prec : Int) < min then .ok (e, ts)
              else operands n min e { op with assign := true, prec := assignOp.prec, assoc := assignOp.assoc } r.tail
            else
              if (op.prec : Int) < min then .ok (e, ts)
              else operands n min e op r
      else .ok (e, ts)

def operands : Nat → Int → Tree → Op → List Tok → Res Tree
  | 0, _, _, _, _ => .error .fuel
  | n + 1, min, e, op, ts =>
    if op.assoc = .chain then
      andThen (parseOperand n ts) fun x ts =>
      exprLoop n min (attach chainOp [.opr op, x] e) ts
    else if op.arity = 3 then
      andThen (parseExpr n (-1) ts) fun m ts =>
      andThen (parseOperand n ts) fun x ts =>
      exprLoop n min (attach op [m, x] e) ts
    else
      andThen (parseOperand n ts) fun x ts =>
      exprLoop n min (attach op [x] e) ts

def exprList : Nat → Str → List Tok → Res (List Tree)
  | 0, _, _ => .error .fuel
  | n + 1, close, ts =>
    match ts with
    | [] => .error .incomplete
    | t :: r =>
      if t.text = close then .ok ([], r)
      else
        andThen (parseExpr n (-1) ts) fun e ts =>
        andThen (exprList n close ts) fun l ts =>
        .ok (e :: l, ts)

def parseOperand : Nat → List Tok → Res Tree
  | 0, _ => .error .fuel
  | n + 1, ts =>
    match ts with
    | [] => .error .incomplete
    | t :: r =>
      if t.kind = .esc then .ok (escaped t, r)
      else if t.kind = .name ∨ t.isLiteral then .ok (.tok t, r)
      else if t.text = s% "(" then
        andThen (exprList n (s% ")") r) fun l ts =>
        .ok (group l, ts)
      else if t.text = s% "[" then
        andThen (exprList n (s% "]") r) fun l ts =>
        .ok (.node enlistOp l, ts)
      else if t.text = s% "{" then
        andThen (parseBlock n ts) fun b ts =>
        .ok (.node blockOp [.code b], ts)
      else if (findOp ops1 t.text).isSome ∨ t.text = s% "$" ∨ t.text = s% "\\$" then
        if t.text = s% "$" ∨ t.text = s% "\\$" then
          match r with
          | [] => .error .incomplete
          | u :: r =>
            match findOp ops2 u.text with
            | none => .error .badSyntax
            | some op =>
              unary n { op with fold := op.fold || t.text = s% "$", scan := op.scan || t.text = s% "\\$",
                                arity := 1 } r
        else
          match findOp ops1 t.text with
          | none => .error .keyError
          | some op => unary n op r
      else .error .badSyntax

def unary : Nat → Op → List Tok → Res Tree
  | 0, _, _ => .error .fuel
  | n + 1, op, ts =>
      if isT ts (s% "*") then
        if isT ts.tail (s% ":") then
          unaryOperand n { op with map := true, assign := true, prec := assignOp.prec } ts.tail.tail
        else unaryOperand n { op with map := true } ts.tail
      else if isT ts (s% ":") then unaryOperand n { op with assign := true, prec := assignOp.prec } ts.tail
      else unaryOperand n op ts

def unaryOperand : Nat → Op → List Tok → Res Tree
  | 0, _, _ => .error .fuel
  | n + 1, op, ts =>
    andThen (parseExpr n ((op.prec : Int) + 1) ts) fun e ts =>
    .ok (.node op [e], ts)
end

/-! ### Agreement with the model -/

/-- The token list as `scan` delivers it. -/
def emb (l : List Tok) : Toks := l.map some ++ [none]

def lift {α : Type} : Res α → Parse.Res α
  | .ok (a, r) => .ok (a, emb r)
  | .error e => .error e

@[simp] theorem emb_nil : emb [] = [none] := rfl
@[simp] theorem emb_cons (t : Tok) (r) : emb (t :: r) = some t :: emb r := rfl
@[simp] theorem lift_ok {α} (a : α) (r) : lift (.ok (a, r)) = .ok (a, emb r) := rfl
@[simp] theorem lift_error {α} (e) : lift (.error e : Res α) = .error e := rfl

theorem lift_andThen {α β : Type} (x : Res α) (f : α → List Tok → Res β) (g : α → Toks → Parse.Res β)
    (h : ∀ a r, g a (emb r) = lift (f a r)) : Parse.andThen (lift x) g = lift (andThen x f) := by
  match x with
  | .ok (a, r) => exact h a r
  | .error e => rfl

theorem lift_semi {α : Type} (x : α) (l : List Tok) : Parse.semi x (emb l) = lift (semi x l) := by
  cases l with
  | nil => simp [Parse.semi, semi, isText, isT, beq_iff_eq]
  | cons t r =>
    simp only [emb_cons, Parse.semi, semi, isText, isT, beq_iff_eq]
    split <;> simp

theorem agree (n : Nat) :
    (∀ l, Parse.parse n (emb l) = lift (parse n l)) ∧
    (∀ l, Parse.parseStatement n (emb l) = lift (parseStatement n l)) ∧
    (∀ as l, Parse.parseArgs n as (emb l) = lift (parseArgs n as l)) ∧
    (∀ l, Parse.parseNameList n (emb l) = lift (parseNameList n l)) ∧
    (∀ l, Parse.nameLoop n (emb l) = lift (nameLoop n l)) ∧
    (∀ l, Parse.parseBlock n (emb l) = lift (parseBlock n l)) ∧
    (∀ m l, Parse.parseExpr n m (emb l) = lift (parseExpr n m l)) ∧
    (∀ m e l, Parse.exprLoop n m e (emb l) = lift (exprLoop n m e l)) ∧
    (∀ m e op l, Parse.operands n m e op (emb l) = lift (operands n m e op l)) ∧
    (∀ c l, Parse.exprList n c (emb l) = lift (exprList n c l)) ∧
    (∀ l, Parse.parseOperand n (emb l) = lift (parseOperand n l)) ∧
    (∀ op l, Parse.unary n op (emb l) = lift (unary n op l)) ∧
    (∀ op l, Parse.unaryOperand n op (emb l) = lift (unaryOperand n op l)) := by
  induction n with
  | zero =>
    refine ⟨?_, ?_, ?_, ?_, ?_, ?_, ?_, ?_, ?_, ?_, ?_, ?_, ?_⟩ <;> intros <;> rfl
  | succ n ih =>
    obtain ⟨h1, h2, h3, h4, h5, h6, h7, h8, h9, h10, h11, h12, h13⟩ := ih
    refine ⟨?_, ?_, ?_, ?_, ?_, ?_, ?_, ?_, ?_, ?_, ?_, ?_, ?_⟩
    · intro l
      cases l with
      | nil => rfl
      | cons t r =>
        simp only [emb_cons, Parse.parse, parse]
        split
        · simp
        · rw [← emb_cons, h2]
          exact lift_andThen _ _ _ fun a r => by
            rw [h1]; exact lift_andThen _ _ _ fun b r => rfl
    · intro l
      cases l with
      | nil => rfl
      | cons t r =>
        simp only [emb_cons, Parse.parseStatement, parseStatement]
        split
        · cases findCmd t.text with
          | none => rfl
          | some c => simp only [h3]; exact lift_andThen _ _ _ fun a r => lift_semi _ _
        · rw [← emb_cons, h7]; exact lift_andThen _ _ _ fun a r => lift_semi _ _
    · intro as l
      match as with
      | [] => rfl
      | .els :: as =>
        cases l with
        | nil =>
          simp only [emb_nil, Parse.parseArgs, parseArgs, isText, isT, beq_iff_eq]
          rw [← emb_nil, h3]
          exact lift_andThen _ _ _ fun a r => rfl
        | cons t r =>
          simp only [emb_cons, Parse.parseArgs, parseArgs, isText, isT, beq_iff_eq]
          split
          · rw [h6]; exact lift_andThen _ _ _ fun a r => by rw [h3]; exact lift_andThen _ _ _ fun b r => rfl
          · rw [← emb_cons, h3]; exact lift_andThen _ _ _ fun a r => rfl
      | .code :: as =>
        simp only [Parse.parseArgs, parseArgs]
        rw [h6]; exact lift_andThen _ _ _ fun a r => by rw [h3]; exact lift_andThen _ _ _ fun b r => rfl
      | .loopvar :: as =>
        simp only [Parse.parseArgs, parseArgs]
        rw [h4]; exact lift_andThen _ _ _ fun a r => by rw [h3]; exact lift_andThen _ _ _ fun b r => rfl
      | .expr :: as =>
        simp only [Parse.parseArgs, parseArgs]
        rw [h7]; exact lift_andThen _ _ _ fun a r => by rw [h3]; exact lift_andThen _ _ _ fun b r => rfl
    · intro l
      cases l with
      | nil => rfl
      | cons t r =>
        simp only [emb_cons, Parse.parseNameList, parseNameList]
        split
        · exact lift_semi _ _
        · split
          · rw [h5]; exact lift_andThen _ _ _ fun a r => by
              split
              · rfl
              · exact lift_semi _ _
          · rfl
    · intro l
      cases l with
      | nil =>
        simp only [emb_nil, Parse.nameLoop, nameLoop, isText, isT, beq_iff_eq]
        rw [← emb_nil, h4]
        exact lift_andThen _ _ _ fun a r => by rw [h5]; exact lift_andThen _ _ _ fun b r => rfl
      | cons t r =>
        simp only [emb_cons, Parse.nameLoop, nameLoop, isText, isT, beq_iff_eq]
        split
        · rfl
        · rw [← emb_cons, h4]
          exact lift_andThen _ _ _ fun a r => by rw [h5]; exact lift_andThen _ _ _ fun b r => rfl
    · intro l
      cases l with
      | nil =>
        simp only [emb_nil, Parse.parseBlock, parseBlock, isText, isT, beq_iff_eq]
        rw [← emb_nil, h2]
        exact lift_andThen _ _ _ fun a r => rfl
      | cons t r =>
        simp only [emb_cons, Parse.parseBlock, parseBlock, isText, isT, beq_iff_eq]
        split
        · rw [h1]; exact lift_andThen _ _ _ fun a r => by
            cases r with
            | nil => rfl
            | cons u r => simp only [emb_cons]; split <;> rfl
        · rw [← emb_cons, h2]; exact lift_andThen _ _ _ fun a r => rfl
    · intro m l
      simp only [Parse.parseExpr, parseExpr]
      rw [h11]
      exact lift_andThen _ _ _ fun a r => by
        rw [h8]
        exact lift_andThen _ _ _ fun b r => by
          split
          · exact lift_semi _ _
          · rfl
    · intro m e l
      cases l with
      | nil => rfl
      | cons t r =>
        simp only [emb_cons, Parse.exprLoop, exprLoop]
        split
        · cases (findOp ops2 t.text).or (findOp ops3 t.text) with
          | none => rfl
          | some op =>
            cases r with
            | nil =>
              simp only [emb_nil, isText, isT, beq_iff_eq]
              simp only [Bool.false_eq_true, if_false]
              split
              · rfl
              · rw [← emb_nil, h9]
            | cons u r =>
              simp only [emb_cons, isText, isT, beq_iff_eq]
              split
              · split
                · rfl
                · rw [h9]; rfl
              · split
                · rfl
                · rw [← emb_cons, h9]
        · rfl
    · intro m e op l
      simp only [Parse.operands, operands]
      split
      · rw [h11]; exact lift_andThen _ _ _ fun a r => h8 ..
      · split
        · rw [h7]; exact lift_andThen _ _ _ fun a r => by
            rw [h11]; exact lift_andThen _ _ _ fun a r => h8 ..
        · rw [h11]; exact lift_andThen _ _ _ fun a r => h8 ..
    · intro c l
      cases l with
      | nil => rfl
      | cons t r =>
        simp only [emb_cons, Parse.exprList, exprList]
        split
        · rfl
        · rw [← emb_cons, h7]
          exact lift_andThen _ _ _ fun a r => by rw [h10]; exact lift_andThen _ _ _ fun b r => rfl
    · intro l
      cases l with
      | nil => rfl
      | cons t r =>
        simp only [emb_cons, Parse.parseOperand, parseOperand]
        split
        · rfl
        split
        · rfl
        split
        · rw [h10]; exact lift_andThen _ _ _ fun a r => rfl
        split
        · rw [h10]; exact lift_andThen _ _ _ fun a r => rfl
        split
        · rw [← emb_cons, h6]; exact lift_andThen _ _ _ fun a r => rfl
        split
        · split
          · cases r with
            | nil => rfl
            | cons u r =>
              simp only [emb_cons]
              cases findOp ops2 u.text with
              | none => rfl
              | some op => exact h12 ..
          · cases findOp ops1 t.text with
            | none => rfl
            | some op => exact h12 ..
        · rfl
    · intro op l
      cases l with
      | nil =>
        simp only [emb_nil, Parse.unary, unary, isText, isT, Bool.false_eq_true, if_false]
        exact h13 op []
      | cons t r =>
        simp only [emb_cons, Parse.unary, unary, isText, isT, beq_iff_eq, List.tail_cons]
        split
        · cases r with
          | nil => simp only [emb_nil, isT, Bool.false_eq_true, if_false]; exact h13 _ []
          | cons u r =>
            simp only [emb_cons, isT, beq_iff_eq, List.tail_cons]
            split
            · exact h13 ..
            · exact h13 _ (u :: r)
        · split
          · exact h13 ..
          · exact h13 _ (t :: r)
    · intro op l
      simp only [Parse.unaryOperand, unaryOperand]
      rw [h7]; exact lift_andThen _ _ _ fun a r => rfl

end PP
end Pip
