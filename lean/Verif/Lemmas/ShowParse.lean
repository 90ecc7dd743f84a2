import Verif.Lemmas.ShowRel
/-! Parsing the tokens of displayed trees. -/

set_option linter.unusedSimpArgs false

namespace Pip
open Rgx Scan PP
open Parse (assignOp escaped group attach)

/-- Expressions and statements start with none of these tokens. -/
def First (u : List Tok) : Prop :=
  ∃ t w, u = t :: w ∧ t.text ≠ s% ")" ∧ t.text ≠ s% "]" ∧ t.text ≠ s% "}" ∧ t.text ≠ s% ";" 

/-- Operands do not start with operators. -/
def FirstO (u : List Tok) : Prop :=
  ∃ t w, u = t :: w ∧ t.text ≠ s% "*" ∧ t.text ≠ s% ":" ∧ t.kind ≠ .op ∧ t.kind ≠ .cmd

/-- No infix operator follows. -/
def NoInfix (r : List Tok) : Prop := ∀ t ∈ r.head?, NotInfix t

theorem noInfix_cons' {t : Tok} (h : NotInfix t) (r : List Tok) : NoInfix (t :: r) := by
  intro u hu; simp at hu; subst hu; exact h
theorem noInfix_cons {t : Tok} (h : t.kind ≠ .op) (r : List Tok) : NoInfix (t :: r) := noInfix_cons' (fun h' => absurd h' h) r

theorem ev_loop_halt {r : List Tok} (h : NoInfix r) (m : Int) (e : Tree) : Ev (fun n => exprLoop n m e r) (.ok (e, r)) := by
  refine ev_const fun n => ?_
  cases r with
  | nil => rfl
  | cons t r =>
    have : NotInfix t := h t (by simp)
    simp only [exprLoop]
    split
    · rename_i hk; rw [this hk]
    · rfl

theorem First.append {u : List Tok} (h : First u) (v : List Tok) : First (u ++ v) := by
  obtain ⟨t, w, rfl, h⟩ := h; exact ⟨t, w ++ v, rfl, h⟩

theorem FirstO.append {u : List Tok} (h : FirstO u) (v : List Tok) : FirstO (u ++ v) := by
  obtain ⟨t, w, rfl, h⟩ := h; exact ⟨t, w ++ v, rfl, h⟩

/-- The tokens are followed by nothing, a closing brace or one semicolon; `q` is what remains. -/
def After (r q : List Tok) : Prop :=
  (r = q ∧ (r = [] ∨ ∃ x, r = tRc :: x)) ∨ (r = tSemi :: q ∧ isT q (s% ";") = false)

def EndOf (r : List Tok) : Prop := r = [] ∨ ∃ x, r = tRc :: x

def NotCmd (u : List Tok) : Prop := ∀ t ∈ u.head?, t.kind ≠ .cmd

/-- What parsing yields, by category -/
def ParseGoal : Cat → List Tok → List Tree → Prop
  | .closed, u, l | .operand, u, l => ∃ e, l = [e] ∧ (∀ r, Ev (fun n => parseOperand n (u ++ r)) (.ok (e, r))) ∧
      (∀ op ext, attach op ext e = .node op (e :: ext)) ∧ First u ∧ FirstO u
  | .oper, u, l | .expr, u, l => ∃ e, l = [e] ∧ (∀ r, NoInfix r → Ev (fun n => parseExpr n (-1) (u ++ r)) (semi e r)) ∧ First u ∧ NotCmd u
  | .items, u, l => ∀ c r, c = s% ")" ∨ c = s% "]" → Ev (fun n => exprList n c (u ++ ⟨.sym, c⟩ :: r)) (.ok (l, r))
  | .links, u, l => ∀ e as r, (∀ ext, attach chainOp ext e = .node chainOp (as ++ ext)) → NoInfix r →
      Ev (fun n => exprLoop n (-1) e (u ++ r)) (.ok (.node chainOp (as ++ l), r))
  | .stmt, u, l => ∃ e, l = [e] ∧ (∀ r q, After r q → Ev (fun n => parseStatement n (u ++ r)) (.ok (e, q))) ∧ First u
  | .stmts, u, l => (∀ r, EndOf r → Ev (fun n => parse n (u ++ r)) (.ok (l, r))) ∧ First u
  | .body, u, l => ∀ r, EndOf r → Ev (fun n => parse n (u ++ r)) (.ok (l, r))
  | .names, u, l => ∃ e, l = [e] ∧ (∀ r, Ev (fun n => parseNameList n (u ++ r)) (semi e r)) ∧ First u
  | .nameItems, u, l => (∀ r, Ev (fun n => nameLoop n (u ++ tRb :: r)) (.ok (l, r))) ∧ l ≠ []
  | .args as, u, l => ∀ r, Ev (fun n => parseArgs n as (u ++ r)) (.ok (l, r))

theorem ev_operand_expr {u r : List Tok} {e : Tree} (h : Ev (fun n => parseOperand n (u ++ r)) (.ok (e, r))) (hr : NoInfix r)
    {p : Int} (hp : p ≠ -1) : Ev (fun n => parseExpr n p (u ++ r)) (.ok (e, r)) := by
  refine ev_succ (ev_andThen h (ev_andThen (ev_loop_halt hr p e) ?_)) fun n => rfl
  rw [if_neg hp]
  exact ev_ok

theorem ev_operand_full {u r : List Tok} {e : Tree} (h : Ev (fun n => parseOperand n (u ++ r)) (.ok (e, r))) (hr : NoInfix r) :
    Ev (fun n => parseExpr n (-1) (u ++ r)) (semi e r) := by
  refine ev_succ (ev_andThen h (ev_andThen (ev_loop_halt hr (-1) e) ?_)) fun n => rfl
  rw [if_pos rfl]
  exact ⟨0, fun _ _ => rfl⟩

theorem isT_cons (t : Tok) (u : List Tok) (s : Str) : isT (t :: u) s = (t.text == s) := rfl

theorem firstO_isT {u : List Tok} (h : FirstO u) : isT u (s% "*") = false ∧ isT u (s% ":") = false := by
  obtain ⟨t, w, rfl, h1, h2, _⟩ := h
  exact ⟨by simpa [isT] using h1, by simpa [isT] using h2⟩

/-- A prefix operator with its meta-operators -/
theorem ev_meta {op : Op} (hf : op.map = false ∧ op.assign = false) (m a : Bool) {u r : List Tok} {e : Tree} (hu : FirstO u)
    (h : Ev (fun n => unaryOperand n (metaOps op m a) u) (.ok (e, r))) :
    Ev (fun n => unary n op ((if m then [⟨.op, s% "*"⟩] else []) ++ ((if a then [⟨.op, s% ":"⟩] else []) ++ u))) (.ok (e, r)) := by
  obtain ⟨h1, h2⟩ := firstO_isT hu
  have e0 : metaOps op false false = op := by
    unfold metaOps; cases op; simp at hf; simp [hf]
  have e1 : metaOps op true false = { op with map := true } := by
    unfold metaOps; cases op; simp at hf; simp [hf]
  have e2 : metaOps op false true = { op with assign := true, prec := assignOp.prec } := by
    unfold metaOps; cases op; simp at hf; simp [hf]
  have e3 : metaOps op true true = { op with map := true, assign := true, prec := assignOp.prec } := by
    unfold metaOps; cases op; simp at hf; simp [hf]
  refine ev_succ h fun n => ?_
  cases m <;> cases a
  · simp only [Bool.false_eq_true, if_false, List.nil_append, unary, h1, h2, e0]
  · simp only [Bool.false_eq_true, if_false, if_true, List.nil_append, List.cons_append, unary, isT, e2]
    rfl
  · simp only [Bool.false_eq_true, if_false, if_true, List.nil_append, List.cons_append, unary, isT_cons, e1, List.tail_cons, h2,
      beq_self_eq_true]
  · simp only [Bool.false_eq_true, if_false, if_true, List.nil_append, List.cons_append, unary, isT, e3, List.tail_cons]
    rfl

theorem op_symbols : ∀ op ∈ ops1 ++ ops2, op.text ≠ s% "(" ∧ op.text ≠ s% "[" ∧ op.text ≠ s% "{" ∧ op.text ≠ s% "$" ∧ op.text ≠ s% "\\$" ∧
    op.text ≠ s% ")" ∧ op.text ≠ s% "]" ∧ op.text ≠ s% "}" ∧ op.text ≠ s% ";" := by
  decide +kernel

theorem ev_prefix {op : Op} (ho : IsPrefix op) {u r : List Tok} {e : Tree} (hu : FirstO u)
    (h : Ev (fun n => parseExpr n ((op.prec : Int) + 1) u) (.ok (e, r))) :
    Ev (fun n => parseOperand n (opToks op ++ u)) (.ok (.node op [e], r)) ∧ First (opToks op ++ u) ∧ NotCmd (opToks op ++ u) := by
  have hun : Ev (fun n => unaryOperand n op u) (.ok (.node op [e], r)) := ev_succ (ev_andThen h ev_ok) fun n => rfl
  cases ho with
  | @plain op m a ho =>
    obtain ⟨f1, f2, f3, f4⟩ := ops1_flags op (findOp_mem ho)
    obtain ⟨g1, g2, g3, g4, g5, g6, g7, g8, g9⟩ := op_symbols op (by simp [findOp_mem ho])
    have hm := ev_meta ⟨f4, f3⟩ m a hu hun
    have et : opToks (metaOps op m a) ++ u = ⟨.op, op.text⟩ :: ((if m then [⟨.op, s% "*"⟩] else []) ++ ((if a then [⟨.op, s% ":"⟩] else []) ++ u)) := by
      unfold opToks metaOps
      simp [f1, f2]
    rw [et]
    refine ⟨ev_succ hm fun n => ?_, ⟨_, _, rfl, g6, g7, g8, g9⟩, by intro t ht; simp at ht; subst ht; simp⟩
    simp only [parseOperand, Tok.isLiteral, reduceCtorEq, if_false, Bool.false_eq_true, or_self, if_neg g1, if_neg g2, if_neg g3, g4, g5, ho,
      Option.isSome_some, or_false, if_true]
  | @fold op m a ho =>
    obtain ⟨f1, f2, f3, f4⟩ := ops2_flags op (by simp [findOp_mem ho])
    obtain ⟨g1, g2, g3, g4, g5, g6, g7, g8, g9⟩ := op_symbols op (by simp [findOp_mem ho])
    have hm := ev_meta (op := { op with fold := true, arity := 1 }) ⟨f4, f3⟩ m a hu hun
    have et : opToks (metaOps { op with fold := true, arity := 1 } m a) ++ u = ⟨.sym, s% "$"⟩ :: ⟨.op, op.text⟩ ::
        ((if m then [⟨.op, s% "*"⟩] else []) ++ ((if a then [⟨.op, s% ":"⟩] else []) ++ u)) := by
      unfold opToks metaOps
      simp
    rw [et]
    refine ⟨ev_succ hm fun n => ?_, ⟨_, _, rfl, by simp, by simp, by simp, by simp⟩, by intro t ht; simp at ht; subst ht; simp⟩
    have e1 : ({ op with fold := op.fold || decide (s% "$" = s% "$"), scan := op.scan || decide (s% "$" = s% "\\$"), arity := 1 } : Op) =
        { op with fold := true, arity := 1 } := by simp [f1, f2]
    simp only [parseOperand, Tok.isLiteral, reduceCtorEq, if_false, Bool.false_eq_true, or_self, if_neg (show ¬ s% "$" = s% "(" by decide),
      if_neg (show ¬ s% "$" = s% "[" by decide), if_neg (show ¬ s% "$" = s% "{" by decide), true_or, or_true, if_true, ho]
    exact congrArg (fun o => unary n o _) e1
  | @scan op m a ho =>
    obtain ⟨f1, f2, f3, f4⟩ := ops2_flags op (by simp [findOp_mem ho])
    obtain ⟨g1, g2, g3, g4, g5, g6, g7, g8, g9⟩ := op_symbols op (by simp [findOp_mem ho])
    have hm := ev_meta (op := { op with scan := true, arity := 1 }) ⟨f4, f3⟩ m a hu hun
    have et : opToks (metaOps { op with scan := true, arity := 1 } m a) ++ u = ⟨.sym, s% "\\$"⟩ :: ⟨.op, op.text⟩ ::
        ((if m then [⟨.op, s% "*"⟩] else []) ++ ((if a then [⟨.op, s% ":"⟩] else []) ++ u)) := by
      unfold opToks metaOps
      simp [f1]
    rw [et]
    refine ⟨ev_succ hm fun n => ?_, ⟨_, _, rfl, by simp, by simp, by simp, by simp⟩, by intro t ht; simp at ht; subst ht; simp⟩
    have e1 : ({ op with fold := op.fold || decide (s% "\\$" = s% "$"), scan := op.scan || decide (s% "\\$" = s% "\\$"), arity := 1 } : Op) =
        { op with scan := true, arity := 1 } := by simp [f1, f2]
    simp only [parseOperand, Tok.isLiteral, reduceCtorEq, if_false, Bool.false_eq_true, or_self, if_neg (show ¬ s% "\\$" = s% "(" by decide),
      if_neg (show ¬ s% "\\$" = s% "[" by decide), if_neg (show ¬ s% "\\$" = s% "{" by decide), true_or, or_true, if_true, ho]
    exact congrArg (fun o => unary n o _) e1

theorem ev_infix {op : Op} (ho : IsInfix op) {u : List Tok} {e : Tree} {o : PP.Res Tree} (hu : FirstO u)
    (h : Ev (fun n => operands n (-1) e op u) o) : Ev (fun n => exprLoop n (-1) e (opToks op ++ u)) o := by
  obtain ⟨h1, h2⟩ := firstO_isT hu
  refine ev_succ h fun n => ?_
  cases ho with
  | plain ho =>
    obtain ⟨f1, f2, f3, f4⟩ := ops2_flags op (by simpa using infix_mem (t := ⟨.op, op.text⟩) ho)
    have et : opToks op ++ u = ⟨.op, op.text⟩ :: u := by simp [opToks, f1, f2, f3, f4]
    rw [et]
    simp only [exprLoop, if_true, ho, h2, Bool.false_eq_true, if_false]
    rw [if_neg (by omega)]
  | @assign op ho =>
    obtain ⟨f1, f2, f3, f4⟩ := ops2_flags op (by simpa using infix_mem (t := ⟨.op, op.text⟩) ho)
    have et : opToks { op with assign := true, prec := assignOp.prec, assoc := assignOp.assoc } ++ u = ⟨.op, op.text⟩ :: ⟨.op, s% ":"⟩ :: u := by
      simp [opToks, f1, f2, f4]
    rw [et]
    simp only [exprLoop, if_true, ho, isT_cons, List.tail_cons, beq_self_eq_true]
    rw [if_neg (by omega)]

theorem ev_exprList {c : Str} {u r r' : List Tok} {e : Tree} {l : List Tree} (hc : c = s% ")" ∨ c = s% "]")
    (hf : First u) (h1 : Ev (fun n => parseExpr n (-1) (u ++ r)) (.ok (e, r'))) {q : List Tok}
    (h2 : Ev (fun n => exprList n c r') (.ok (l, q))) : Ev (fun n => exprList n c (u ++ r)) (.ok (e :: l, q)) := by
  obtain ⟨t, w, rfl, g1, g2, _⟩ := hf
  refine ev_succ (ev_andThen (f := fun n e ts => andThen (exprList n c ts) fun l ts => .ok (e :: l, ts)) h1
    (ev_andThen (f := fun n l ts => .ok (e :: l, ts)) h2 ev_ok)) fun n => ?_
  rcases hc with rfl | rfl
  · simp only [List.cons_append, exprList, if_neg g1]
  · simp only [List.cons_append, exprList, if_neg g2]

theorem After.noOp {r q : List Tok} (h : After r q) : NoInfix r := by
  rcases h with ⟨rfl, rfl | ⟨x, rfl⟩⟩ | ⟨rfl, _⟩
  · intro t ht; simp at ht
  · exact noInfix_cons (by simp [tRc]) _
  · exact noInfix_cons (by simp [tSemi]) _

theorem After.semi {r q : List Tok} {α : Type} (a : α) (h : After r q) : semi a r = .ok (a, q) := by
  rcases h with ⟨rfl, rfl | ⟨x, rfl⟩⟩ | ⟨rfl, _⟩ <;> rfl

theorem After.semi2 {r q : List Tok} {α : Type} (a : α) (h : After r q) : PP.semi a q = .ok (a, q) := by
  rcases h with ⟨rfl, rfl | ⟨x, rfl⟩⟩ | ⟨rfl, h⟩
  · rfl
  · rfl
  · unfold PP.semi; rw [h]; rfl

theorem EndOf.after {r : List Tok} (h : EndOf r) : After r r := .inl ⟨rfl, h⟩

theorem ev_block {u : List Tok} {l : List Tree} (h : ∀ r, EndOf r → Ev (fun n => parse n (u ++ r)) (.ok (l, r))) (r : List Tok) :
    Ev (fun n => parseBlock n (tLc :: (u ++ tRc :: r))) (.ok (l, r)) := by
  refine ev_succ (ev_andThen (f := fun n b ts => match ts with
        | [] => .error .incomplete
        | u :: r => if u.text = s% "}" then .ok (b, r) else .error .badSyntax) (h (tRc :: r) (.inr ⟨r, rfl⟩)) ?_) fun n => ?_
  · exact ev_const fun n => rfl
  · simp only [parseBlock, isT, tLc, beq_self_eq_true, if_true, List.tail_cons]
    rfl

theorem ev_cons {u r : List Tok} {q p : List Tok} {e : Tree} {l : List Tree} (hf : First u)
    (h1 : Ev (fun n => parseStatement n (u ++ r)) (.ok (e, q))) (h2 : Ev (fun n => parse n q) (.ok (l, p))) :
    Ev (fun n => parse n (u ++ r)) (.ok (e :: l, p)) := by
  obtain ⟨t, w, rfl, _, _, g, _⟩ := hf
  refine ev_succ (ev_andThen (f := fun n st ts => andThen (parse n ts) fun sts ts => .ok (st :: sts, ts)) h1
    (ev_andThen (f := fun n sts ts => .ok (e :: sts, ts)) h2 ev_ok)) fun n => ?_
  simp only [List.cons_append, parse, if_neg g]

theorem ev_parse_end {r : List Tok} (h : EndOf r) : Ev (fun n => parse n r) (.ok ([], r)) := by
  rcases h with rfl | ⟨x, rfl⟩
  · exact ev_const fun n => rfl
  · exact ev_const fun n => by simp [parse, tRc]

theorem First.isT {u : List Tok} (h : First u) : PP.isT u (s% ";") = false := by
  obtain ⟨t, w, rfl, _, _, _, g⟩ := h
  simpa [PP.isT] using g

theorem findCmd_text (c : Cmd) : findCmd c.text = some c := by cases c <;> decide +kernel

theorem attach_bracket {nop : Op} (h : nop.arity = 1 ∧ nop ≠ chainOp) (op : Op) (ext args : List Tree) :
    attach op ext (.node nop args) = .node op (.node nop args :: ext) := by
  unfold attach
  rw [if_neg (by rw [h.1]; omega), if_neg (by rintro ⟨_, h2⟩; exact h.2 h2)]

theorem paren_ar : parenOp.arity = 1 ∧ parenOp ≠ chainOp := by decide
theorem enlist_ar : enlistOp.arity = 1 ∧ enlistOp ≠ chainOp := by decide
theorem send_ar : sendOp.arity = 1 ∧ sendOp ≠ chainOp := by decide
theorem block_ar : blockOp.arity = 1 ∧ blockOp ≠ chainOp := by decide

theorem ev_group {u r : List Tok} {l : List Tree} (h : Ev (fun n => exprList n (s% ")") (u ++ tRp :: r)) (.ok (l, r))) :
    Ev (fun n => parseOperand n (tLp :: (u ++ [tRp]) ++ r)) (.ok (group l, r)) := by
  have e : tLp :: (u ++ [tRp]) ++ r = tLp :: (u ++ tRp :: r) := by simp
  rw [e]
  exact ev_succ (ev_andThen h (f := fun n l ts => .ok (group l, ts)) ev_ok) fun n => rfl

theorem first_lp (u : List Tok) : First (tLp :: u) ∧ FirstO (tLp :: u) :=
  ⟨⟨_, _, rfl, by simp [tLp], by simp [tLp], by simp [tLp], by simp [tLp]⟩, ⟨_, _, rfl, by simp [tLp], by simp [tLp], by simp [tLp], by simp [tLp]⟩⟩
theorem first_lb (u : List Tok) : First (tLb :: u) ∧ FirstO (tLb :: u) :=
  ⟨⟨_, _, rfl, by simp [tLb], by simp [tLb], by simp [tLb], by simp [tLb]⟩, ⟨_, _, rfl, by simp [tLb], by simp [tLb], by simp [tLb], by simp [tLb]⟩⟩
theorem first_lc (u : List Tok) : First (tLc :: u) ∧ FirstO (tLc :: u) :=
  ⟨⟨_, _, rfl, by simp [tLc], by simp [tLc], by simp [tLc], by simp [tLc]⟩, ⟨_, _, rfl, by simp [tLc], by simp [tLc], by simp [tLc], by simp [tLc]⟩⟩

theorem first_tok {t : Tok} (h : TokOK t) (u : List Tok) : First (t :: u) ∧ FirstO (t :: u) := by
  have hk := h.kind
  have key : ∀ (s : Str) (k : Kind), newToken s = some ⟨k, s⟩ → k ≠ .name → (Tok.mk k s).isLiteral = false → t.text ≠ s := by
    intro s k h1 h2 h3 e
    have := h.tok
    rw [e, h1] at this
    simp at this
    rw [← this] at hk
    rcases hk with hk | hk
    · exact h2 hk
    · rw [h3] at hk; cases hk
  refine ⟨⟨t, u, rfl, key _ .sym (by decide +kernel) (by simp) rfl, key _ .sym (by decide +kernel) (by simp) rfl,
    key _ .sym (by decide +kernel) (by simp) rfl, key _ .sym (by decide +kernel) (by simp) rfl⟩,
    ⟨t, u, rfl, key _ .op (by decide +kernel) (by simp) rfl, key _ .op (by decide +kernel) (by simp) rfl, ?_, ?_⟩⟩
  · intro e; rw [e] at hk; simp [Tok.isLiteral, e] at hk
  · intro e; rw [e] at hk; simp [Tok.isLiteral, e] at hk

theorem firstO_notCmd {u : List Tok} (h : FirstO u) : NotCmd u := by
  obtain ⟨t, w, rfl, _, _, _, h⟩ := h
  intro k hk; simp at hk; subst hk; exact h

theorem Sh.parse {c l s u l'} (h : Sh c l s u l') : ParseGoal c u l' := by
  induction h with
  | @tok t h =>
    refine ⟨_, rfl, fun r => ?_, fun op ext => by simp [attach], first_tok h []⟩
    refine ev_const fun n => ?_
    simp only [List.cons_append, List.nil_append, parseOperand]
    split
    · rename_i hk; rw [h.plain hk]
    · rw [if_pos h.kind]
  | nil => exact ⟨_, rfl, fun r => ev_nilPair r, fun op ext => by simp [attach], first_lp _⟩
  | @paren e e' s u _ ih =>
    obtain ⟨_, he, ih, hf, hn⟩ := ih
    simp at he; subst he
    refine ⟨_, rfl, fun r => ?_, fun _ _ => attach_bracket paren_ar _ _ _, first_lp _⟩
    refine ev_group (l := [e']) (ev_exprList (.inl rfl) hf (r' := tRp :: r) ?_ (ev_const fun n => rfl))
    exact ih (tRp :: r) (noInfix_cons (by simp [tRp]) r)
  | empty =>
    refine ⟨_, rfl, fun r => ?_, fun _ _ => attach_bracket enlist_ar _ _ _, first_lb _⟩
    have h : Ev (fun n => exprList n (s% "]") (⟨.sym, s% "]"⟩ :: r)) (.ok ([], r)) := ev_const fun n => rfl
    exact ev_succ (ev_andThen h (f := fun n l ts => .ok (.node enlistOp l, ts)) ev_ok) fun n => rfl
  | @list l l' s u _ ih =>
    refine ⟨_, rfl, fun r => ?_, fun _ _ => attach_bracket enlist_ar _ _ _, first_lb _⟩
    have e : tLb :: (u ++ [tRb]) ++ r = tLb :: (u ++ tRb :: r) := by simp
    rw [e]
    exact ev_succ (ev_andThen (ih _ r (.inr rfl)) (f := fun n l ts => .ok (.node enlistOp l, ts)) ev_ok) fun n => rfl
  | @send l l' s u _ hl ih =>
    refine ⟨_, rfl, fun r => ?_, fun _ _ => attach_bracket send_ar _ _ _, first_lp _⟩
    have := ev_group (ih _ r (.inl rfl))
    rw [show group l' = .node sendOp l' by
      match l', hl with
      | _ :: _ :: _, _ => rfl] at this
    exact this
  | @block l l' s u _ ih =>
    refine ⟨_, rfl, fun r => ?_, fun _ _ => attach_bracket block_ar _ _ _, first_lc _⟩
    have e : tLc :: (u ++ [tRc]) ++ r = tLc :: (u ++ tRc :: r) := by simp
    rw [e]
    exact ev_succ (ev_andThen (ev_block ih r) (f := fun n b ts => .ok (.node blockOp [.code b], ts)) ev_ok) fun n => rfl
  | opClosed _ ih => exact ih
  | @opWrapped e e' s u _ ih =>
    obtain ⟨_, he, ih, hf, hn⟩ := ih
    simp at he; subst he
    refine ⟨_, rfl, fun r => ?_, fun _ _ => attach_bracket paren_ar _ _ _, first_lp _⟩
    refine ev_group (l := [e']) (ev_exprList (.inl rfl) hf (r' := tRp :: r) ?_ (ev_const fun n => rfl))
    exact ih (tRp :: r) (noInfix_cons (by simp [tRp]) r)
  | @unary op e e' s u ho _ _ ih =>
    obtain ⟨_, he, ih, ha, hf, hfo⟩ := ih
    simp at he; subst he
    refine ⟨_, rfl, fun r hr => ?_, ?_⟩
    · have h1 := ev_operand_expr (ih r) hr (p := (op.prec : Int) + 1) (by omega)
      have h2 := (ev_prefix ho (hfo.append r) h1).1
      rw [List.append_assoc]
      rw [← List.append_assoc] at h2 ⊢
      exact ev_operand_full h2 hr
    · have h1 := ev_operand_expr (ih []) (r := []) (by intro t ht; simp at ht) (p := (op.prec : Int) + 1) (by omega)
      rw [List.append_nil] at h1
      exact (ev_prefix ho hfo h1).2
  | @binary op e e' f f' s u t w ho h1 h2 _ _ _ ih1 ih2 =>
    obtain ⟨_, he, ih1, ha, hf, hfo⟩ := ih1
    simp at he; subst he
    obtain ⟨_, he, ih2, ha2, hf2, hfo2⟩ := ih2
    simp at he; subst he
    refine ⟨_, rfl, fun r hr => ?_, hf.append _, firstO_notCmd (hfo.append _)⟩
    rw [List.append_assoc, List.append_assoc]
    refine ev_succ (ev_andThen (ih1 _) (ev_andThen (a := .node op [e', f']) (r := r) (ev_infix ho (hfo2.append r) ?_) ?_)) fun n => rfl
    · refine ev_succ (ev_andThen (ih2 r) (f := fun n x ts => exprLoop n (-1) (attach op [x] e') ts) ?_) fun n => ?_
      · rw [ha]; exact ev_loop_halt hr _ _
      · simp only [operands, if_neg h1, if_neg h2]
    · rw [if_pos rfl]; exact ⟨0, fun _ _ => rfl⟩
  | @ternary op e e' f f' g g' s u t w q v ho h1 h2 _ _ _ _ ih1 ih2 ih3 =>
    obtain ⟨_, he, ih1, ha, hf, hfo⟩ := ih1
    simp at he; subst he
    obtain ⟨_, he, ih2, ha2, hf2, hfo2⟩ := ih2
    simp at he; subst he
    obtain ⟨_, he, ih3, ha3, hf3, hfo3⟩ := ih3
    simp at he; subst he
    refine ⟨_, rfl, fun r hr => ?_, hf.append _, firstO_notCmd (hfo.append _)⟩
    rw [List.append_assoc, List.append_assoc, List.append_assoc]
    refine ev_succ (ev_andThen (ih1 _) (ev_andThen (a := .node op [e', f', g']) (r := r) (ev_infix ho (hfo2.append _) ?_) ?_)) fun n => rfl
    · have hm : Ev (fun n => parseExpr n (-1) (w ++ (tSemi :: v ++ r))) (.ok (f', v ++ r)) :=
        ev_operand_full (ih2 (tSemi :: v ++ r)) (noInfix_cons (by simp [tSemi]) _)
      refine ev_succ (ev_andThen hm (f := fun n m ts => andThen (parseOperand n ts) fun x ts => exprLoop n (-1) (attach op [m, x] e') ts)
        (ev_andThen (ih3 r) (f := fun n x ts => exprLoop n (-1) (attach op [f', x] e') ts) ?_)) fun n => ?_
      · rw [ha]; exact ev_loop_halt hr _ _
      · simp only [operands, if_neg h1, if_pos h2]
    · rw [if_pos rfl]; exact ⟨0, fun _ _ => rfl⟩
  | @chain e e' l l' s u t w _ _ ih1 ih2 =>
    obtain ⟨_, he, ih1, ha, hf, hfo⟩ := ih1
    simp at he; subst he
    refine ⟨_, rfl, fun r hr => ?_, hf.append _, firstO_notCmd (hfo.append _)⟩
    rw [List.append_assoc]
    refine ev_succ (ev_andThen (ih1 _) (ev_andThen (ih2 e' [e'] r (fun ext => ha _ _) hr) ?_)) fun n => rfl
    rw [if_pos rfl]; exact ⟨0, fun _ _ => rfl⟩
  | @link op e e' s u ho h1 _ ih =>
    obtain ⟨_, he, ih, ha, hf, hfo⟩ := ih
    simp at he; subst he
    intro e0 as r h0 hr
    rw [List.append_assoc]
    refine ev_infix ho (hfo.append r) (ev_succ (ev_andThen (ih r) (f := fun n x ts => exprLoop n (-1) (attach chainOp [.opr op, x] e0) ts) ?_) fun n => ?_)
    · rw [h0]; exact ev_loop_halt hr _ _
    · simp only [operands, if_pos h1]
  | @links op e e' l l' s u t w ho h1 _ _ ih ih2 =>
    obtain ⟨_, he, ih, ha, hf, hfo⟩ := ih
    simp at he; subst he
    intro e0 as r h0 hr
    rw [List.append_assoc, List.append_assoc]
    refine ev_infix ho (hfo.append _) (ev_succ (ev_andThen (ih (w ++ r)) (f := fun n x ts => exprLoop n (-1) (attach chainOp [.opr op, x] e0) ts) ?_) fun n => ?_)
    · rw [h0]
      have := ih2 (.node chainOp (as ++ [.opr op, e'])) (as ++ [.opr op, e']) r (fun ext => by
        unfold attach
        rw [if_neg (by decide), if_pos ⟨rfl, rfl⟩]) hr
      simpa using this
    · simp only [operands, if_pos h1]
  | exClosed _ ih =>
    obtain ⟨e, rfl, ih, ha, hf, hfo⟩ := ih
    exact ⟨e, rfl, fun r hr => ev_operand_full (ih r) hr, hf, firstO_notCmd hfo⟩
  | exOper _ ih => exact ih
  | @item e e' s u _ ih =>
    obtain ⟨_, he, ih, hf, hn⟩ := ih
    simp at he; subst he
    intro c r hc
    refine ev_exprList hc hf (r' := ⟨.sym, c⟩ :: r) ?_ (ev_const fun n => by simp [exprList])
    have := ih (⟨.sym, c⟩ :: r) (noInfix_cons (by simp) r)
    rw [show semi e' (⟨.sym, c⟩ :: r) = .ok (e', ⟨.sym, c⟩ :: r) by
      rcases hc with rfl | rfl <;> rfl] at this
    exact this
  | @items e e' l l' s u t w _ _ ih1 ih2 =>
    obtain ⟨_, he, ih, hf, hn⟩ := ih1
    simp at he; subst he
    intro c r hc
    rw [List.append_assoc]
    refine ev_exprList hc hf (r' := w ++ ⟨.sym, c⟩ :: r) ?_ (ih2 c r hc)
    exact ih (tSemi :: (w ++ ⟨.sym, c⟩ :: r)) (noInfix_cons (by simp [tSemi]) _)
  | @stExpr l l' s u _ ih =>
    obtain ⟨e, rfl, ih, hf, hn⟩ := ih
    refine ⟨e, rfl, fun r q hq => ?_, hf⟩
    have h1 := ih r hq.noOp
    rw [hq.semi] at h1
    refine ev_succ (ev_andThen h1 (f := fun n e ts => semi e ts) ?_) fun n => ?_
    · rw [hq.semi2]; exact ev_ok
    · obtain ⟨t, w, rfl, _⟩ := hf
      have := hn t (by simp)
      simp only [List.cons_append, parseStatement, if_neg this]
  | @stCmd c l l' s u _ ih =>
    refine ⟨_, rfl, fun r q hq => ?_, ?_⟩
    · refine ev_succ (ev_andThen (ih r) (f := fun n args ts => semi (.cmd c args) ts) ?_) fun n => ?_
      · rw [hq.semi]; exact ev_ok
      · simp only [List.cons_append, parseStatement, if_true, findCmd_text]
    · refine ⟨_, _, rfl, ?_, ?_, ?_, ?_⟩ <;> cases c <;> decide
  | @stOne e e' s u _ ih =>
    obtain ⟨_, he, ih, hf⟩ := ih
    simp at he; subst he
    exact ⟨fun r hr => ev_cons hf (ih r r hr.after) (ev_parse_end hr), hf⟩
  | @stMore e e' l l' s u t w _ _ ih1 ih2 =>
    obtain ⟨_, he, ih, hf⟩ := ih1
    simp at he; subst he
    obtain ⟨ih2, hf2⟩ := ih2
    refine ⟨fun r hr => ?_, hf.append _⟩
    rw [List.append_assoc]
    exact ev_cons hf (ih _ (w ++ r) (.inr ⟨rfl, (hf2.append r).isT⟩)) (ih2 r hr)
  | bodyNil => exact fun r hr => ev_parse_end hr
  | body _ _ ih => exact ih.1
  | @name t h hk =>
    refine ⟨_, rfl, fun r => ev_const fun n => ?_, (first_tok h []).1⟩
    simp only [List.cons_append, List.nil_append, parseNameList, if_pos hk]
  | @nameList l l' s u _ ih =>
    obtain ⟨ih, hl⟩ := ih
    refine ⟨_, rfl, fun r => ?_, (first_lb _).1⟩
    have e : tLb :: (u ++ [tRb]) ++ r = tLb :: (u ++ tRb :: r) := by simp
    rw [e]
    refine ev_succ (ev_andThen (ih r) (f := fun n l ts => if l.isEmpty then .error .badSyntax else semi (.node enlistOp l) ts) ?_) fun n => ?_
    · rw [if_neg (by simpa using hl)]; exact ⟨0, fun _ _ => rfl⟩
    · simp only [parseNameList, tLb, reduceCtorEq, if_false, if_true]
  | @nameOne e e' s u _ ih =>
    obtain ⟨_, he, ih, hf⟩ := ih
    simp at he; subst he
    refine ⟨fun r => ?_, by simp⟩
    have h1 := ih (tRb :: r)
    refine ev_succ (ev_andThen (a := e') (r := tRb :: r) h1 (f := fun n x ts => andThen (nameLoop n ts) fun l ts => .ok (x :: l, ts))
      (ev_andThen (f := fun n l ts => .ok (e' :: l, ts)) (x := fun n => nameLoop n (tRb :: r)) (a := []) (r := r) (ev_const fun n => rfl) ev_ok)) fun n => ?_
    obtain ⟨t, w, rfl, _, g, _⟩ := hf
    simp only [nameLoop]
    rw [if_neg (by simpa [isT] using g)]
  | @nameMore e e' l l' s u t w _ _ ih1 ih2 =>
    obtain ⟨_, he, ih, hf⟩ := ih1
    simp at he; subst he
    obtain ⟨ih2, hl⟩ := ih2
    refine ⟨fun r => ?_, by simp⟩
    rw [List.append_assoc]
    have h1 := ih (tSemi :: w ++ tRb :: r)
    refine ev_succ (ev_andThen (a := e') (r := w ++ tRb :: r) h1 (f := fun n x ts => andThen (nameLoop n ts) fun l ts => .ok (x :: l, ts))
      (ev_andThen (f := fun n l ts => .ok (e' :: l, ts)) (ih2 r) ev_ok)) fun n => ?_
    obtain ⟨t, w, rfl, _, g, _⟩ := hf
    simp only [nameLoop]
    rw [if_neg (by simpa [isT] using g)]
  | argsNil => exact fun r => ev_const fun n => rfl
  | @argEls as b b' l l' s u t w _ _ ih1 ih2 =>
    intro r
    have e : tEl :: tLc :: (u ++ tRc :: w) ++ r = tEl :: (tLc :: (u ++ tRc :: (w ++ r))) := by simp
    rw [e]
    refine ev_succ (ev_andThen (ev_block ih1 (w ++ r)) (f := fun n b ts => andThen (parseArgs n as ts) fun l ts => .ok (.code b :: l, ts))
      (ev_andThen (f := fun n l ts => .ok (.code b' :: l, ts)) (ih2 r) ev_ok)) fun n => ?_
    simp only [parseArgs, isT, tEl, beq_self_eq_true, if_true, List.tail_cons]
  | @argCode as b b' l l' s u t w _ _ ih1 ih2 =>
    intro r
    have e : tLc :: (u ++ tRc :: w) ++ r = tLc :: (u ++ tRc :: (w ++ r)) := by simp
    rw [e]
    exact ev_succ (ev_andThen (ev_block ih1 (w ++ r)) (f := fun n b ts => andThen (parseArgs n as ts) fun l ts => .ok (.code b :: l, ts))
      (ev_andThen (f := fun n l ts => .ok (.code b' :: l, ts)) (ih2 r) ev_ok)) fun n => rfl
  | @argVar as e e' l l' s u t w _ _ _ hw ih1 ih2 =>
    obtain ⟨_, he, ih, hf⟩ := ih1
    simp at he; subst he
    intro r
    rw [List.append_assoc]
    have h1 := ih (w ++ r)
    obtain ⟨k, x, rfl, hk⟩ := hw
    rw [show semi e' (k :: x ++ r) = .ok (e', k :: x ++ r) by simp [semi, isT, hk]] at h1
    exact ev_succ (ev_andThen h1 (f := fun n e ts => andThen (parseArgs n as ts) fun l ts => .ok (e :: l, ts))
      (ev_andThen (f := fun n l ts => .ok (e' :: l, ts)) (ih2 r) ev_ok)) fun n => rfl
  | @argExpr as e e' l l' s u t w _ _ _ hw ih1 ih2 =>
    obtain ⟨_, he, ih, hf, hn⟩ := ih1
    simp at he; subst he
    intro r
    rw [List.append_assoc]
    obtain ⟨k, x, rfl, hk, hk2⟩ := hw
    have h1 := ih (k :: x ++ r) (noInfix_cons' hk _)
    rw [show semi e' (k :: x ++ r) = .ok (e', k :: x ++ r) by simp [semi, isT, hk2]] at h1
    exact ev_succ (ev_andThen h1 (f := fun n e ts => andThen (parseArgs n as ts) fun l ts => .ok (e :: l, ts))
      (ev_andThen (f := fun n l ts => .ok (e' :: l, ts)) (ih2 r) ev_ok)) fun n => rfl

end Pip
