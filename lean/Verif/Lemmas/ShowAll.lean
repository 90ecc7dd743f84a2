import Verif.Lemmas.ShowLast
/-! Every tree spelled by tokens of a program is displayed by a text that parses to the tree with parentheses. -/

set_option linter.unusedSimpArgs false

namespace Pip
open Rgx Scan PP
open Parse (assignOp escaped group attach interp interpName escTok joinOp strOp)

/-- Tokens as the scanner makes them -/
def Scanned (t : Tok) : Prop := Solid t.text ∧ newToken t.text = some t

theorem faithful_scanned {t : Tok} (h : tokenize t.text = .ok [some t]) : Scanned t := by
  rw [tokenize_eq] at h
  obtain ⟨ws, hw, he⟩ := scanAll_solid _ _ _ (Nat.le_refl _) h
  match ws, hw, he with
  | _ :: _ :: _, _, he => simp at he
  | [x], hw, he =>
    simp at he
    have := newToken_text he.symm
    subst this
    exact ⟨hw _ (by simp), he.symm⟩

/-! ### Interpolation -/

theorem interpName_head (c : Char) (r : Str) : (interpName (c :: r)).isSome = (isLowerAZ c || c == '_' || isUpperAZ c) := by
  simp only [interpName]
  by_cases h : (isLowerAZ c || c == '_') = true
  · simp [h]
  · rw [if_neg h]
    have h' : (isLowerAZ c || c == '_') = false := by simpa using h
    rw [h']
    by_cases h2 : isUpperAZ c = true
    · rw [if_pos h2, h2]
      split
      · split <;> rfl
      · rfl
    · rw [if_neg h2]
      simpa using h2

/-- Literals between interpolations have no interpolations of their own. -/
def Plain (s : Str) : Prop := ∀ n, (interp n s).2 = [] 

theorem plain_nil : Plain [] := by intro n; cases n <;> rfl

theorem plain_cons {c : Char} {s : Str} (h : Plain s) (hc : c = '\\' → ∀ d ∈ s.head?, (isLowerAZ d || d == '_' || isUpperAZ d) = false) :
    Plain (c :: s) := by
  intro n
  cases n with
  | zero => rfl
  | succ n =>
    unfold interp
    have : (if c = '\\' then interpName s else none) = none := by
      split
      · rename_i e
        cases s with
        | nil => rfl
        | cons d ds =>
          have := hc e d rfl
          rw [← interpName_head d ds] at this
          simpa using this
      · rfl
    rw [this]
    exact h n

theorem interp_lits : ∀ (n : Nat) (s : Str), s.length ≤ n →
    Plain (interp n s).1 ∧ (∀ d ∈ (interp n s).1.head?, d ∈ s.head?) ∧ ∀ p ∈ (interp n s).2, Plain p.2
  | 0, s, h => by
    have : s = [] := List.length_eq_zero_iff.1 (Nat.le_zero.1 h)
    subst this
    exact ⟨plain_nil, by simp [interp], by simp [interp]⟩
  | n + 1, [], _ => ⟨plain_nil, by simp [interp], by simp [interp]⟩
  | n + 1, c :: r, h => by
    unfold interp
    split
    · rename_i name r' e
      have hr : r'.length ≤ n := by
        split at e
        · unfold interpName at e
          split at e
          · cases e
          · rename_i d ds
            simp at h
            split at e
            · simp at e; rw [← e.2]; omega
            · split at e
              · split at e
                · split at e
                  · simp at e h; rw [← e.2]; omega
                  · simp at e h; rw [← e.2]; simp; omega
                · simp at e; rw [e.2]; simp
              · cases e
        · cases e
      obtain ⟨h1, h2, h3⟩ := interp_lits n r' hr
      refine ⟨plain_nil, by simp, ?_⟩
      intro p hp
      rcases List.mem_cons.1 hp with rfl | hp
      · exact h1
      · exact h3 p hp
    · rename_i e
      obtain ⟨h1, h2, h3⟩ := interp_lits n r (by simp at h; omega)
      refine ⟨plain_cons h1 ?_, by simp, h3⟩
      intro hc d hd
      have hd' := h2 d hd
      cases r with
      | nil => simp at hd'
      | cons a as =>
        simp at hd'; subst hd'
        rw [if_pos hc] at e
        rw [← interpName_head a as, e]; rfl

theorem escaped_plain {s : Str} (h : Plain s) : escaped ⟨.esc, s% "\\\"" ++ s ++ s% "\\\""⟩ = escTok s := by
  unfold escaped
  have e : ((s% "\\\"" ++ s ++ s% "\\\"").drop 2).take ((s% "\\\"" ++ s ++ s% "\\\"").length - 4) = s := by
    simp
  simp only [e]
  have := h s.length
  split
  · rfl
  · rename_i lit ps hne hh
    rw [hh] at this
    exact absurd this hne

/-! ### Texts -/

def opTree : Tree → Bool
  | .node op _ => !decide op.isBracket
  | _ => false

def operandText (e : Tree) : Str := if opTree e then s% "(" ++ unparseExpr e ++ s% ")" else unparseExpr e

theorem brackets_text : parenOp.text = s% "PAREN" ∧ blockOp.text = s% "BLOCK" ∧ sendOp.text = s% "SEND" ∧ enlistOp.text = s% "LIST" ∧
    chainOp.text = s% "CHAIN" := by decide

/-- Operators of programs and those of brackets -/
def OpOK (op : Op) : Prop := op.text ∈ operatorTexts ∨ op.isBracket ∨ op = chainOp

theorem text_ne {op : Op} (h : op.text ∈ operatorTexts) : op.text ≠ s% "PAREN" ∧ op.text ≠ s% "BLOCK" ∧ op.text ≠ s% "SEND" ∧
    op.text ≠ s% "LIST" ∧ op.text ≠ s% "CHAIN" := by
  refine ⟨?_, ?_, ?_, ?_, ?_⟩ <;> (intro e; rw [e] at h; exact absurd h (by decide +kernel))

theorem bracketText_iff {op : Op} (h : OpOK op) : op.bracketText = decide op.isBracket := by
  rcases h with h | h | h
  · have h1 := text_ne h
    have h2 := text_not_bracket h
    unfold Op.bracketText
    simp [h1, h2]
  · have : op.bracketText = true := by
      rcases h with rfl | rfl | rfl | rfl <;> decide
    simp [this, h]
  · subst h; decide

/-- Trees of expressions -/
def ExprTree : Tree → Prop
  | .tok _ => True
  | .node op _ => OpOK op
  | _ => False

theorem operands_cons {e : Tree} (h : ExprTree e) (l : List Tree) : unparseOperands (e :: l) = operandText e :: unparseOperands l := by
  cases e with
  | node op args =>
    have := bracketText_iff h
    rw [unparseOperands, this]
    unfold operandText opTree
    simp only [unparseExpr]
    by_cases hb : op.isBracket <;> simp [hb]
  | tok t => rw [unparseOperands]; rfl; simp
  | _ => cases h

theorem operands_opr (op : Op) (l : List Tree) : unparseOperands (.opr op :: l) = op.str :: unparseOperands l := by
  rw [unparseOperands]
  · simp [unparseExpr]
  · simp

theorem stmt_expr {e : Tree} (h : ExprTree e) : unparseStmt e = unparseExpr e := by
  cases e <;> first | (simp [unparseStmt, unparseExpr]; done) | exact h.elim

theorem fullOperands_opr (op : Op) (l : List Tree) : fullOperands (.opr op :: l) = .opr op :: fullOperands l := by
  simp [fullOperands, wrap, full]

theorem ops_arity : (∀ op ∈ ops1, op.arity = 1) ∧ (∀ op ∈ ops2, op.arity = 2) ∧ (∀ op ∈ ops3, op.arity = 3) := by decide +kernel

theorem IsPrefix.arity {op : Op} (h : IsPrefix op) : op.arity = 1 := by
  cases h with
  | @plain op m a h => exact ops_arity.1 op (findOp_mem h)
  | fold => rfl
  | scan => rfl

theorem IsInfix.arity {op : Op} (h : IsInfix op) : op.arity = 2 ∨ op.arity = 3 := by
  have key : ∀ {op : Op}, (findOp ops2 op.text).or (findOp ops3 op.text) = some op → op.arity = 2 ∨ op.arity = 3 := by
    intro op h
    cases h2 : findOp ops2 op.text with
    | some o => rw [h2] at h; simp at h; subst h; exact .inl (ops_arity.2.1 _ (findOp_mem h2))
    | none => rw [h2] at h; simp at h; exact .inr (ops_arity.2.2 _ (findOp_mem h))
  cases h with
  | plain h => exact key h
  | @assign op h => exact key (op := op) h

theorem isPrefix_of {op : Op} {ts : List Tok} (h : Prefix op ts) : IsPrefix op := by
  induction h with
  | @plain t op h =>
    have e := findOp_text h
    obtain ⟨_, _, f3, f4⟩ := ops1_flags op (findOp_mem h)
    have := IsPrefix.plain (op := op) false false (by rw [e]; exact h)
    have e2 : metaOps op false false = op := by unfold metaOps; cases op; simp at f3 f4; simp [f3, f4]
    rwa [e2] at this
  | @fold d t op _ h =>
    have e := findOp_text h
    obtain ⟨_, _, f3, f4⟩ := ops2_flags op (by simp [findOp_mem h])
    have := IsPrefix.fold (op := op) false false (by rw [e]; exact h)
    have e2 : metaOps { op with fold := true, arity := 1 } false false = { op with fold := true, arity := 1 } := by
      unfold metaOps; cases op; simp at f3 f4; simp [f3, f4]
    rwa [e2] at this
  | @scan d t op _ h =>
    have e := findOp_text h
    obtain ⟨_, _, f3, f4⟩ := ops2_flags op (by simp [findOp_mem h])
    have := IsPrefix.scan (op := op) false false (by rw [e]; exact h)
    have e2 : metaOps { op with scan := true, arity := 1 } false false = { op with scan := true, arity := 1 } := by
      unfold metaOps; cases op; simp at f3 f4; simp [f3, f4]
    rwa [e2] at this
  | map _ _ ih =>
    cases ih with
    | @plain o m a h => exact IsPrefix.plain (op := o) true a h
    | @fold o m a h => exact IsPrefix.fold (op := o) true a h
    | @scan o m a h => exact IsPrefix.scan (op := o) true a h
  | assign _ _ ih =>
    cases ih with
    | @plain o m a h => have := IsPrefix.plain (op := o) m true h; cases a <;> exact this
    | @fold o m a h => have := IsPrefix.fold (op := o) m true h; cases a <;> exact this
    | @scan o m a h => have := IsPrefix.scan (op := o) m true h; cases a <;> exact this

theorem isInfix_of {op : Op} {ts : List Tok} (h : Infix op ts) : IsInfix op := by
  have key : ∀ {t : Str} {op : Op}, (findOp ops2 t).or (findOp ops3 t) = some op → op.text = t := by
    intro t op h
    cases h2 : findOp ops2 t with
    | some o => rw [h2] at h; simp at h; subst h; exact findOp_text h2
    | none => rw [h2] at h; simp at h; exact findOp_text h
  cases h with
  | @plain t op h => exact .plain (by rw [key h]; exact h)
  | @assign t c op h _ => exact .assign (op := op) (by rw [key h]; exact h)

/-! ### Statements of the induction -/

def ShowsChain (e : Tree) : Prop := ∀ as, e = .node chainOp as → ∃ e0 l u v, as = e0 :: l ∧ ExprTree e0 ∧
  Sh .operand [e0] (operandText e0) u [wrap e0 (full e0)] ∧ Sh .links l (joinStr (s% " ") (unparseOperands l)) v (fullOperands l)

def ShowsE (e : Tree) : Prop := ExprTree e ∧ (opTree e = false → ∃ u, Sh .closed [e] (unparseExpr e) u [full e]) ∧
  (opTree e = true → ∃ u, Sh .oper [e] (unparseExpr e) u [full e]) ∧ ShowsChain e

def ShowsL (l : List Tree) : Prop := l = [] ∨ ∃ u, Sh .items l (joinStr (s% "; ") (unparseExprs l)) u (fulls l)
def ShowsS (e : Tree) : Prop := ∃ u, Sh .stmt [e] (unparseStmt e) u [full e]
def ShowsSs (l : List Tree) : Prop := l = [] ∨ ∃ s u, Sh .stmts l s u (fulls l) ∧ unparseStmts l = s ++ s% "; "
def ShowsN (e : Tree) : Prop := ∃ u, Sh .names [e] (unparseExpr e) u [full e]
def ShowsNs (l : List Tree) : Prop := l = [] ∨ ∃ u, Sh .nameItems l (joinStr (s% "; ") (unparseExprs l)) u (fulls l)

def ArgsOK : List ArgType → Prop
  | .expr :: as => (∃ r, as = .code :: r ∨ as = .expr :: r) ∧ ArgsOK as
  | .loopvar :: as => (∃ r, as = .expr :: r) ∧ ArgsOK as
  | _ :: as => ArgsOK as
  | [] => True

def AmbOK : List ArgType → List Tree → Prop
  | .expr :: as, _ :: l => (∀ r, as = .expr :: r → ∀ t ∈ l.head?, ¬ ambiguous t) ∧ AmbOK as l
  | _ :: as, _ :: l => AmbOK as l
  | _, _ => True

def ShowsA (as : List ArgType) (l : List Tree) : Prop := ∃ u, Sh (.args as) l (unparseArgs as l) u (fulls l)

theorem cmd_argsOK (c : Cmd) : ArgsOK c.args := by cases c <;> simp [Cmd.args, ArgsOK]

theorem cmd_ambOK {c : Cmd} {l : List Tree} (h : c = .LOOPREGEX → ∀ t ∈ l[1]?, ¬ ambiguous t) : AmbOK c.args l := by
  cases c <;> simp [Cmd.args]
  case LOOPREGEX =>
    have := h rfl
    match l with
    | [] => simp [AmbOK]
    | [a] => simp [AmbOK]
    | [a, b] => simp [AmbOK] at this ⊢; exact this
    | a :: b :: [c] => simp [AmbOK] at this ⊢; exact this
    | a :: b :: c :: d :: r => simp [AmbOK] at this ⊢; exact this
  all_goals
    match l with
    | [] => simp [AmbOK]
    | [a] => simp [AmbOK]
    | [a, b] => simp [AmbOK]
    | a :: b :: [c] => simp [AmbOK]
    | a :: b :: c :: d :: r => simp [AmbOK]

theorem ShowsE.expr {e : Tree} (h : ShowsE e) : ∃ u, Sh .expr [e] (unparseExpr e) u [full e] := by
  obtain ⟨_, h1, h2, _⟩ := h
  cases ho : opTree e with
  | false => obtain ⟨u, h⟩ := h1 ho; exact ⟨u, .exClosed h⟩
  | true => obtain ⟨u, h⟩ := h2 ho; exact ⟨u, .exOper h⟩

theorem wrap_eq (e t : Tree) : wrap e t = if opTree e then .node parenOp [t] else t := by
  cases e with
  | node op args =>
    simp only [wrap, opTree]
    by_cases hb : op.isBracket <;> simp [hb]
  | _ => rfl

theorem ShowsE.operand {e : Tree} (h : ShowsE e) : ∃ u, Sh .operand [e] (operandText e) u [wrap e (full e)] := by
  obtain ⟨_, h1, h2, _⟩ := h
  unfold operandText
  rw [wrap_eq]
  cases ho : opTree e with
  | false => obtain ⟨u, h⟩ := h1 ho; exact ⟨u, by simpa using Sh.opClosed h⟩
  | true => obtain ⟨u, h⟩ := h2 ho; exact ⟨_, by simpa using Sh.opWrapped h⟩

theorem good_end {l l' : List Tree} {s : Str} {u : List Tok} (h : Sh .stmts l s u l') (he : EndsWell l) : ∀ z ∈ s.getLast?, ¬ Bad z := by
  intro z hz hb
  obtain ⟨t, h1, k, h2, h3⟩ := h.last z hz hb
  have := he t h1 k h2
  rcases h3 with h3 | h3
  · exact this.1 h3
  · exact this.2 h3

theorem strip_stmts {l l' : List Tree} {s : Str} {u : List Tok} (h : Sh .stmts l s u l') (he : ∀ z ∈ s.getLast?, ¬ Bad z) :
    stripChars (s% "; ") (s ++ s% "; ") = s := by
  refine strip_sep ?_ he
  obtain ⟨_, c, cs, rfl, h1, h2⟩ := h.scan
  refine ⟨c, cs, rfl, ?_⟩
  rintro (rfl | rfl)
  · exact absurd h1 (by decide)
  · exact h2 rfl

theorem ShowsSs.body {l : List Tree} (h : ShowsSs l) (he : EndsWell l) :
    ∃ u, Sh .body l (stripChars (s% "; ") (unparseStmts l)) u (fulls l) := by
  rcases h with rfl | ⟨s, u, h, e⟩
  · exact ⟨[], by simpa [unparseStmts, fulls, stripChars, lstripChars, rstripChars] using Sh.bodyNil⟩
  · refine ⟨u, ?_⟩
    rw [e, strip_stmts h (good_end h he)]
    exact .body (good_end h he) h

theorem tokOK_scanned {t : Tok} (h : Scanned t) (hk : t.kind = .name ∨ t.isLiteral = true) (hp : t.kind = .esc → escaped t = .tok t) : TokOK t :=
  ⟨h.1, h.2, hk, hp⟩

theorem showsE_tok {t : Tok} (h : TokOK t) : ShowsE (.tok t) := by
  refine ⟨trivial, fun _ => ⟨[t], ?_⟩, fun h => ?_, fun as e => ?_⟩
  · simpa [unparseExpr, full] using Sh.tok h
  · cases h
  · cases e

theorem showsE_nil : ShowsE (.tok tNil) := by
  refine ⟨trivial, fun _ => ⟨[tLp, tRp], ?_⟩, fun h => ?_, fun as e => ?_⟩
  · simpa [unparseExpr, full, tNil] using Sh.nil
  · cases h
  · cases e

theorem bracket_opTree {op : Op} (h : op.isBracket) (args : List Tree) : opTree (.node op args) = false := by simp [opTree, h]

theorem showsE_bracket {op : Op} (h : op.isBracket) {args : List Tree} (hs : ∃ u, Sh .closed [.node op args] (unparseNode op args) u [.node op (fulls args)]) :
    ShowsE (.node op args) := by
  refine ⟨.inr (.inl h), fun _ => ?_, fun h2 => ?_, fun as e => ?_⟩
  · simp only [unparseExpr, full, if_pos h]; exact hs
  · rw [bracket_opTree h] at h2; cases h2
  · cases e; exact absurd h chain_not_bracket

theorem paren_br : parenOp.isBracket := .inl rfl
theorem enlist_br : enlistOp.isBracket := .inr (.inl rfl)
theorem block_br : blockOp.isBracket := .inr (.inr (.inl rfl))
theorem send_br : sendOp.isBracket := .inr (.inr (.inr rfl))

theorem showsE_paren {e : Tree} (h : ShowsE e) : ShowsE (.node parenOp [e]) := by
  obtain ⟨u, h⟩ := h.expr
  refine showsE_bracket paren_br ?_
  obtain ⟨u', this⟩ : ∃ u', Sh _ _ _ u' _ := ⟨_, Sh.paren h⟩
  refine ⟨u', ?_⟩
  simpa [unparseNode, unparseExprs, fulls, brackets_text] using this

theorem showsE_list {l : List Tree} (h : ShowsL l) : ShowsE (.node enlistOp l) := by
  rcases h with rfl | ⟨u, h⟩
  · refine showsE_bracket enlist_br ?_
    obtain ⟨u', this⟩ : ∃ u', Sh _ _ _ u' _ := ⟨_, Sh.empty⟩
    refine ⟨u', ?_⟩
    simpa [unparseNode, unparseExprs, fulls, joinStr, brackets_text] using this
  · refine showsE_bracket enlist_br ?_
    obtain ⟨u', this⟩ : ∃ u', Sh _ _ _ u' _ := ⟨_, Sh.list h⟩
    refine ⟨u', ?_⟩
    simpa [unparseNode, brackets_text] using this

theorem fulls_length : ∀ l : List Tree, (fulls l).length = l.length
  | [] => by simp [fulls]
  | t :: l => by simp [fulls, fulls_length l]

theorem showsE_send {l : List Tree} (h : ShowsL l) (hl : 2 ≤ l.length) : ShowsE (.node sendOp l) := by
  rcases h with rfl | ⟨u, h⟩
  · simp at hl
  · refine showsE_bracket send_br ?_
    obtain ⟨u', this⟩ : ∃ u', Sh _ _ _ u' _ := ⟨_, Sh.send h (by rw [fulls_length]; exact hl)⟩
    refine ⟨u', ?_⟩
    simpa [unparseNode, brackets_text] using this

theorem showsE_block {l : List Tree} (h : ShowsSs l) (he : EndsWell l) : ShowsE (.node blockOp [.code l]) := by
  obtain ⟨u, h⟩ := h.body he
  refine showsE_bracket block_br ?_
  obtain ⟨u', this⟩ : ∃ u', Sh _ _ _ u' _ := ⟨_, Sh.block h⟩
  refine ⟨u', ?_⟩
  simpa [unparseNode, unparseBody, fulls, full, brackets_text] using this

theorem isPrefix_ne_chain {op : Op} (h : op.text ∈ operatorTexts) : op ≠ chainOp := by
  rintro rfl; exact absurd h (by decide +kernel)

theorem showsE_oper {op : Op} (h : op.text ∈ operatorTexts) {args : List Tree}
    (hs : ∃ u, Sh .oper [.node op args] (unparseNode op args) u [.node op (fullOperands args)]) : ShowsE (.node op args) := by
  have hb := text_not_bracket h
  refine ⟨.inl h, fun h2 => ?_, fun _ => ?_, fun as e => ?_⟩
  · simp [opTree, hb] at h2
  · simp only [unparseExpr, full, if_neg hb]; exact hs
  · cases e; exact absurd rfl (isPrefix_ne_chain h)

theorem showsE_unary {op : Op} (ho : IsPrefix op) (hc : op.text = s% ":" → op.assign = false) {e : Tree} (h : ShowsE e) :
    ShowsE (.node op [e]) := by
  obtain ⟨u, hs⟩ := h.operand
  refine showsE_oper ho.mem ?_
  obtain ⟨u', this⟩ : ∃ u', Sh _ _ _ u' _ := ⟨_, Sh.unary ho hc hs⟩
  refine ⟨u', ?_⟩
  have hne := text_ne ho.mem
  simpa [unparseNode, hne, ho.arity, operands_cons h.1, fullOperands] using this

theorem showsE_binary {op : Op} (ho : IsInfix op) (h1 : op.assoc ≠ .chain) (h2 : op.arity ≠ 3) (hc : op.text = s% ":" → op.assign = false)
    {e f : Tree} (he : ShowsE e) (hf : ShowsE f) : ShowsE (.node op [e, f]) := by
  obtain ⟨u, hs⟩ := he.operand
  obtain ⟨v, ht⟩ := hf.operand
  refine showsE_oper ho.mem ?_
  obtain ⟨u', this⟩ : ∃ u', Sh _ _ _ u' _ := ⟨_, Sh.binary ho h1 h2 hc hs ht⟩
  refine ⟨u', ?_⟩
  have hne := text_ne ho.mem
  have ha : op.arity = 2 := ho.arity.resolve_right h2
  simpa [unparseNode, hne, ha, operands_cons he.1, operands_cons hf.1, fullOperands] using this

theorem showsE_ternary {op : Op} (ho : IsInfix op) (h1 : op.assoc ≠ .chain) (h2 : op.arity = 3) (hc : op.text = s% ":" → op.assign = false)
    {e f g : Tree} (he : ShowsE e) (hf : ShowsE f) (hg : ShowsE g) : ShowsE (.node op [e, f, g]) := by
  obtain ⟨u, hs⟩ := he.operand
  obtain ⟨v, ht⟩ := hf.operand
  obtain ⟨w, hq⟩ := hg.operand
  refine showsE_oper ho.mem ?_
  obtain ⟨u', this⟩ : ∃ u', Sh _ _ _ u' _ := ⟨_, Sh.ternary ho h1 h2 hc hs ht hq⟩
  refine ⟨u', ?_⟩
  have hne := text_ne ho.mem
  simpa [unparseNode, hne, h2, operands_cons he.1, operands_cons hf.1, operands_cons hg.1, fullOperands] using this

theorem chain_eq {as : List Tree} : unparseNode chainOp as = joinStr (s% " ") (unparseOperands as) := by
  rw [unparseNode]
  simp [brackets_text]

theorem joinStr_more (sep a : Str) {l : List Str} (h : l ≠ []) : joinStr sep (a :: l) = a ++ sep ++ joinStr sep l := by
  cases l with
  | nil => exact absurd rfl h
  | cons b l => exact joinStr_cons_cons sep a b l

theorem links_ne {l l' : List Tree} {s u} (h : Sh .links l s u l') : unparseOperands l ≠ [] := by
  cases h with
  | link => rw [operands_opr]; simp
  | links => rw [operands_opr]; simp

theorem showsE_chain {e : Tree} {l : List Tree} {v : List Tok} (he : ExprTree e) {u : List Tok}
    (h1 : Sh .operand [e] (operandText e) u [wrap e (full e)])
    (h2 : Sh .links l (joinStr (s% " ") (unparseOperands l)) v (fullOperands l)) : ShowsE (.node chainOp (e :: l)) := by
  refine ⟨.inr (.inr rfl), fun h => ?_, fun _ => ?_, fun as e => ?_⟩
  · simp [opTree, chain_not_bracket] at h
  · obtain ⟨u', this⟩ : ∃ u', Sh _ _ _ u' _ := ⟨_, Sh.chain h1 h2⟩
    refine ⟨u', ?_⟩
    simp only [unparseExpr, full, if_neg chain_not_bracket, chain_eq, operands_cons he, joinStr_more _ _ (links_ne h2), fullOperands]
    simpa using this
  · cases e; exact ⟨_, _, u, v, rfl, he, h1, h2⟩

theorem unparseOperands_append : ∀ l m : List Tree, (∀ e ∈ l, ExprTree e ∨ ∃ op, e = .opr op) →
    unparseOperands (l ++ m) = unparseOperands l ++ unparseOperands m
  | [], m, _ => by simp [unparseOperands]
  | e :: l, m, h => by
    have ih := unparseOperands_append l m fun e he => h e (by simp [he])
    rcases h e (by simp) with h1 | ⟨op, rfl⟩
    · rw [List.cons_append, operands_cons h1, operands_cons h1, ih]; rfl
    · rw [List.cons_append, operands_opr, operands_opr, ih]; rfl

/-- One more link. The texts and trees are taken from the relation. -/
theorem links_snoc {c : Cat} {l l' : List Tree} {s : Str} {u : List Tok} (h : Sh c l s u l') : c = .links → ∀ {op : Op} {e e' : Tree} {t : Str} {v : List Tok},
    IsInfix op → op.assoc = .chain → Sh .operand [e] t v [e'] →
    Sh .links (l ++ [.opr op, e]) (s ++ ' ' :: (op.str ++ ' ' :: t)) (u ++ (opToks op ++ v)) (l' ++ [.opr op, e']) := by
  induction h with
  | @link o f f' s u h1 h2 h3 _ =>
    intro _ op e e' t v ho ha hs
    have := Sh.links h1 h2 h3 (.link ho ha hs)
    simpa using this
  | @links o f f' l l' s u t w h1 h2 h3 h4 _ ih =>
    intro _ op e e' q v ho ha hs
    have := Sh.links h1 h2 h3 (ih rfl ho ha hs)
    simpa using this
  | _ => intro h; cases h

theorem joinStr_snoc {sep : Str} : ∀ {l : List Str}, l ≠ [] → ∀ a b, joinStr sep (l ++ [a, b]) = joinStr sep l ++ sep ++ a ++ sep ++ b
  | [], h, _, _ => absurd rfl h
  | [x], _, a, b => by simp [joinStr]
  | x :: y :: l, _, a, b => by
    rw [List.cons_append, List.cons_append, joinStr_cons_cons, joinStr_cons_cons, ← List.cons_append, joinStr_snoc (l := y :: l) (by simp) a b]
    simp

theorem fullOperands_append : ∀ l m : List Tree, fullOperands (l ++ m) = fullOperands l ++ fullOperands m
  | [], m => by simp [fullOperands]
  | e :: l, m => by simp [fullOperands, fullOperands_append l m]

/-! ### The induction -/

theorem faithfulAll_append : ∀ {l m : List Tree}, FaithfulAll (l ++ m) → FaithfulAll l ∧ FaithfulAll m
  | [], m, h => ⟨trivial, h⟩
  | e :: l, m, h => by
    simp only [List.cons_append, FaithfulAll] at h ⊢
    have := faithfulAll_append h.2
    exact ⟨⟨h.1, this.1⟩, this.2⟩

theorem prefix_head {op : Op} (ho : IsPrefix op) {e : Tree} (ha : ¬ ambiguous (.node op [e])) : ∃ k x, opToks op = k :: x ∧ NotInfix k := by
  cases ho with
  | @plain op m a h =>
    obtain ⟨f1, f2, _⟩ := ops1_flags op (findOp_mem h)
    refine ⟨⟨.op, op.text⟩, _, by simp only [opToks, metaOps, f1, f2]; rfl, fun _ => ?_⟩
    have h2 : ¬ ((findOp ops2 op.text).or (findOp ops3 op.text)).isSome = true := fun h3 => ha ⟨f1, f2, h3⟩
    simpa using h2
  | @fold op m a h => exact ⟨⟨.sym, s% "$"⟩, _, by simp only [opToks, metaOps]; rfl, by intro h; cases h⟩
  | @scan op m a h =>
    obtain ⟨f1, f2, _⟩ := ops2_flags op (by simp [findOp_mem h])
    exact ⟨⟨.sym, s% "\\$"⟩, _, by simp only [opToks, metaOps, f1]; rfl, by intro h; cases h⟩

theorem firstO_head {u : List Tok} (h : FirstO u) : ∀ k ∈ u.head?, NotInfix k := by
  obtain ⟨t, w, rfl, _, _, h, _⟩ := h
  intro k hk; simp at hk; subst hk
  exact fun h' => absurd h' h

theorem oper_head {c : Cat} {l l' : List Tree} {s : Str} {u : List Tok} (h : Sh c l s u l') (hc : c = .oper) (ha : ∀ e ∈ l.head?, ¬ ambiguous e) :
    ∀ k ∈ u.head?, NotInfix k := by
  have op : ∀ {l s u l'}, Sh .operand l s u l' → FirstO u := fun h => by obtain ⟨_, _, _, _, _, h⟩ := h.parse; exact h
  cases h with
  | @unary op e e' s u ho _ _ =>
    obtain ⟨k, x, e1, e2⟩ := prefix_head ho (ha _ rfl)
    rw [e1]; intro k' hk; simp at hk; subst hk; exact e2
  | binary _ _ _ _ h _ => exact firstO_head ((op h).append _)
  | ternary _ _ _ _ h _ _ => exact firstO_head ((op h).append _)
  | chain h _ => exact firstO_head ((op h).append _)
  | _ => cases hc

theorem expr_head {e : Tree} {l' : List Tree} {s : Str} {u : List Tok} (h : Sh .expr [e] s u l') (ha : ¬ ambiguous e) :
    ∀ k ∈ u.head?, NotInfix k := by
  cases h with
  | exClosed h => obtain ⟨_, _, _, _, _, h⟩ := h.parse; exact firstO_head h
  | exOper h => exact oper_head h rfl (by intro e' he; simp at he; subst he; exact ha)

theorem args_head {a : ArgType} {as : List ArgType} {l l' : List Tree} {t : Str} {w : List Tok} (h : Sh (.args (a :: as)) l t w l') :
    (∃ x, t = ' ' :: x) ∧ ∃ k x, w = k :: x ∧ k.text ≠ s% ";" ∧ (a ≠ .loopvar → (a = .expr → ∀ e ∈ l.head?, ¬ ambiguous e) → NotInfix k) := by
  cases h with
  | argEls => exact ⟨⟨_, rfl⟩, _, _, rfl, by simp [tEl], fun _ _ h => by cases h⟩
  | argCode => exact ⟨⟨_, rfl⟩, _, _, rfl, by simp [tLc], fun _ _ h => by cases h⟩
  | argVar h =>
    obtain ⟨_, _, _, k, x, rfl, _, _, _, h⟩ := h.parse
    exact ⟨⟨_, rfl⟩, _, _, rfl, h, fun h => absurd rfl h⟩
  | argExpr h =>
    have h' := expr_head h
    obtain ⟨_, _, _, ⟨k, x, rfl, _, _, _, hk⟩, _⟩ := h.parse
    exact ⟨⟨_, rfl⟩, _, _, rfl, hk, fun _ ha => h' (ha rfl _ rfl) k rfl⟩

theorem items_one {e : Tree} {s : Str} {u : List Tok} {l' : List Tree} (h : Sh .items [e] s u l') : ∃ w, Sh .expr [e] s w l' := by
  cases h with
  | item h => exact ⟨_, h⟩
  | items _ h => cases h

theorem items_ne {c : Cat} {l l' : List Tree} {s : Str} {u : List Tok} (h : Sh c l s u l') (hc : c = .items ∨ c = .nameItems) :
    unparseExprs l ≠ [] := by
  cases h <;> first | (simp [unparseExprs]; done) | (rcases hc with h | h <;> cases h)

theorem links_trees {c : Cat} {l l' : List Tree} {s : Str} {u : List Tok} (h : Sh c l s u l') : c = .links →
    ∀ e ∈ l, ExprTree e ∨ ∃ op, e = .opr op := by
  have one : ∀ {c e s u l'}, Sh c [e] s u l' → (c = .operand ∨ c = .closed ∨ c = .oper) → ExprTree e := by
    intro c e s u l' h
    generalize hl : [e] = l at h
    induction h with
    | tok => intro _; simp at hl; subst hl; trivial
    | nil => intro _; simp at hl; subst hl; trivial
    | paren => intro _; simp at hl; subst hl; exact .inr (.inl paren_br)
    | empty => intro _; simp at hl; subst hl; exact .inr (.inl enlist_br)
    | list => intro _; simp at hl; subst hl; exact .inr (.inl enlist_br)
    | send => intro _; simp at hl; subst hl; exact .inr (.inl send_br)
    | block => intro _; simp at hl; subst hl; exact .inr (.inl block_br)
    | opClosed _ ih => intro _; exact ih hl (by simp)
    | opWrapped _ ih => intro _; exact ih hl (by simp)
    | unary h => intro _; simp at hl; subst hl; exact .inl h.mem
    | binary h => intro _; simp at hl; subst hl; exact .inl h.mem
    | ternary h => intro _; simp at hl; subst hl; exact .inl h.mem
    | chain => intro _; simp at hl; subst hl; exact .inr (.inr rfl)
    | _ => intro h; simp at h
  induction h with
  | @link op e e' s u _ _ h _ =>
    intro _ x hx
    simp at hx
    rcases hx with rfl | rfl
    · exact .inr ⟨_, rfl⟩
    · exact .inl (one h (.inl rfl))
  | @links op e e' l l' s u t w _ _ h _ _ ih =>
    intro _ x hx
    simp at hx
    rcases hx with rfl | rfl | hx
    · exact .inr ⟨_, rfl⟩
    · exact .inl (one h (.inl rfl))
    · exact ih rfl x hx
  | _ => intro h; cases h

theorem args_plain {a : ArgType} {as : List ArgType} {e : Tree} {l : List Tree} (h1 : a ≠ .els) (h2 : a ≠ .code) :
    unparseArgs (a :: as) (e :: l) = ' ' :: (unparseExpr e ++ unparseArgs as l) := by
  rw [unparseArgs]
  · simp
  · intro b h; exact absurd h h1
  · intro b h; exact absurd h h2

theorem joinOp_prefix : IsPrefix joinOp ∧ IsPrefix strOp := by
  constructor
  · have := IsPrefix.plain (op := joinOp) false false (by decide +kernel)
    rwa [show metaOps joinOp false false = joinOp by decide] at this
  · have := IsPrefix.plain (op := strOp) false false (by decide +kernel)
    rwa [show metaOps strOp false false = strOp by decide] at this

theorem faithfulAll_mem : ∀ {l : List Tree}, FaithfulAll l → ∀ e ∈ l, Faithful e
  | [], _, e, he => by simp at he
  | a :: l, h, e, he => by
    simp only [FaithfulAll] at h
    rcases List.mem_cons.1 he with rfl | he
    · exact h.1
    · exact faithfulAll_mem h.2 e he

theorem showsL_all : ∀ {l : List Tree}, (∀ e ∈ l, ShowsE e) → ShowsL l
  | [], _ => .inl rfl
  | e :: l, h => by
    obtain ⟨u1, h1⟩ := (h e (by simp)).expr
    rcases showsL_all fun x hx => h x (List.mem_cons_of_mem e hx) with rfl | ⟨u2, h2⟩
    · exact .inr ⟨u1, by simpa [unparseExprs, joinStr, fulls] using Sh.item h1⟩
    · obtain ⟨u', this⟩ : ∃ u', Sh _ _ _ u' _ := ⟨_, Sh.items h1 h2⟩
      refine .inr ⟨u', ?_⟩
      rw [unparseExprs, joinStr_more _ _ (items_ne h2 (.inl rfl)), fulls]
      simpa using this

theorem showsE_escTok {s : Str} (h : Plain s) (hf : Faithful (escTok s)) : ShowsE (escTok s) := by
  unfold escTok at hf ⊢
  simp only [Faithful] at hf
  rcases hf with hf | hf
  · simp at hf
  · exact showsE_tok (tokOK_scanned (faithful_scanned hf) (.inr rfl) fun _ => escaped_plain h)

theorem showsE_name {s : Str} (hf : Faithful (.tok ⟨.name, s⟩)) : ShowsE (.tok ⟨.name, s⟩) := by
  simp only [Faithful] at hf
  rcases hf with hf | hf
  · simp at hf
  · exact showsE_tok (tokOK_scanned (faithful_scanned hf) (.inl rfl) fun h => by cases h)

theorem showsE_escaped {t : Tok} (hk : t.kind = .esc) (hs : Scanned t) (hf : Faithful (escaped t)) : ShowsE (escaped t) := by
  have hp := interp_lits ((t.text.drop 2).take (t.text.length - 4)).length _ (Nat.le_refl _)
  cases hi : interp ((t.text.drop 2).take (t.text.length - 4)).length ((t.text.drop 2).take (t.text.length - 4)) with
  | mk lit ps =>
  rw [hi] at hp
  cases ps with
  | nil =>
    have e : escaped t = .tok t := by unfold escaped; simp only [hi]
    rw [e]
    exact showsE_tok (tokOK_scanned hs (.inr (by simp [Tok.isLiteral, hk])) fun _ => e)
  | cons p ps =>
    have e : escaped t = .node parenOp [.node joinOp [.node enlistOp
      (escTok lit :: (p :: ps).flatMap fun p => [.node strOp [.tok ⟨.name, p.1⟩], escTok p.2])]] := by
      unfold escaped; simp only [hi]
    rw [e] at hf ⊢
    simp only [Faithful, FaithfulAll] at hf
    have hall := hf.2.1.2.1.2
    refine showsE_paren (showsE_unary joinOp_prefix.1 (fun _ => by decide) (showsE_list (showsL_all ?_)))
    intro x hx
    rcases List.mem_cons.1 hx with rfl | hx
    · exact showsE_escTok hp.1 hall.1
    · have hfx := faithfulAll_mem hall.2 x hx
      obtain ⟨q, hq, hx⟩ := List.mem_flatMap.1 hx
      simp at hx
      rcases hx with rfl | rfl
      · simp only [Faithful, FaithfulAll] at hfx
        exact showsE_unary joinOp_prefix.2 (fun _ => by decide) (showsE_name (by simp only [Faithful]; exact hfx.2.1))
      · exact showsE_escTok (hp.2.2 q hq) hfx

/-- Everything a program's tokens spell is displayed by a text of the same meaning, unless it is not `Faithful`. -/
theorem shows {l : List Tree} {u : List Tok} (h : SpSs l u) : (∀ t ∈ u, Scanned t) → FaithfulAll l → ShowsSs l := by
  have sub : ∀ {u v : List Tok}, (∀ t ∈ u ++ v, Scanned t) → (∀ t ∈ u, Scanned t) ∧ ∀ t ∈ v, Scanned t :=
    fun h => ⟨fun t ht => h t (by simp [ht]), fun t ht => h t (by simp [ht])⟩
  refine SpSs.rec
    (motive_1 := fun e u _ => (∀ t ∈ u, Scanned t) → Faithful e → ShowsE e)
    (motive_2 := fun l u _ => (∀ t ∈ u, Scanned t) → FaithfulAll l → ShowsL l)
    (motive_3 := fun e u _ => (∀ t ∈ u, Scanned t) → Faithful e → ShowsS e)
    (motive_4 := fun l u _ => (∀ t ∈ u, Scanned t) → FaithfulAll l → ShowsSs l)
    (motive_5 := fun l u _ => (∀ t ∈ u, Scanned t) → FaithfulAll l → ShowsSs l)
    (motive_6 := fun e u _ => (∀ t ∈ u, Scanned t) → Faithful e → ShowsN e)
    (motive_7 := fun l u _ => (∀ t ∈ u, Scanned t) → FaithfulAll l → ShowsNs l)
    (motive_8 := fun as l u _ => (∀ t ∈ u, Scanned t) → FaithfulAll l → ArgsOK as → AmbOK as l → ShowsA as l)
    ?_ ?_ ?_ ?_ ?_ ?_ ?_ ?_ ?_ ?_ ?_ ?_ ?_ ?_ ?_ ?_ ?_ ?_ ?_ ?_ ?_ ?_ ?_ ?_ ?_ ?_ ?_ ?_ h
  -- atom
  · intro t hk he hs _
    exact showsE_tok (tokOK_scanned (hs t (by simp)) hk fun h => absurd h he)
  -- esc
  · intro t e hk he hs hf
    subst he
    exact showsE_escaped hk (hs t (by simp)) hf
  -- group
  · intro o c l u e _ _ _ he ih hs hf
    have hs := (sub (sub hs).1).2
    subst he
    match l with
    | [] => exact showsE_nil
    | [e] =>
      simp only [group, Faithful] at hf
      rcases ih hs hf.2 with h | ⟨u', h⟩
      · cases h
      · refine showsE_bracket paren_br ?_
        obtain ⟨w, h⟩ := items_one h
        obtain ⟨u', this⟩ : ∃ u', Sh _ _ _ u' _ := ⟨_, Sh.paren h⟩
        refine ⟨u', ?_⟩
        simpa [unparseNode, unparseExprs, fulls, brackets_text, joinStr] using this
    | a :: b :: l =>
      simp only [group, Faithful] at hf
      exact showsE_send (ih hs hf.2) (by simp)
  -- list
  · intro o c l u _ _ _ ih hs hf
    have hs := (sub (sub hs).1).2
    simp only [Faithful] at hf
    exact showsE_list (ih hs hf.2)
  -- block
  · intro o c l u _ _ _ ih hs hf
    have hs := (sub (sub hs).1).2
    simp only [Faithful, FaithfulAll] at hf
    exact showsE_block (ih hs hf.2.1.2) hf.2.1.1
  -- unary
  · intro op ts u e ho _ ih hs hf
    simp only [Faithful, FaithfulAll] at hf
    exact showsE_unary (isPrefix_of ho) hf.1 (ih (sub hs).2 hf.2.1)
  -- binary
  · intro op ts u w e f ho h1 h2 _ _ ih1 ih2 hs hf
    simp only [Faithful, FaithfulAll] at hf
    exact showsE_binary (isInfix_of ho) h1 h2 hf.1 (ih1 (sub (sub hs).1).1 hf.2.1) (ih2 (sub hs).2 hf.2.2.1)
  -- ternary
  · intro op ts u v s w e f g ho h1 h2 _ _ _ _ ih1 ih2 ih3 hs hf
    simp only [Faithful, FaithfulAll] at hf
    exact showsE_ternary (isInfix_of ho) h1 h2 hf.1 (ih1 (sub (sub (sub (sub hs).1).1).1).1 hf.2.1)
      (ih2 (sub (sub (sub hs).1).1).2 hf.2.2.1) (ih3 (sub hs).2 hf.2.2.2.1)
  -- chain
  · intro op ts u w e f ho h1 _ _ ih1 ih2 hs hf
    simp only [Faithful, FaithfulAll] at hf
    have he := ih1 (sub (sub hs).1).1 hf.2.1
    have hf := ih2 (sub hs).2 hf.2.2.2.1
    obtain ⟨_, h2⟩ := he.operand
    obtain ⟨_, h3⟩ := hf.operand
    obtain ⟨u', this⟩ : ∃ u', Sh _ _ _ u' _ := ⟨_, Sh.link (isInfix_of ho) h1 h3⟩
    refine showsE_chain he.1 h2 (v := u') ?_
    simpa [operands_opr, operands_cons hf.1, unparseOperands, joinStr, fullOperands_opr, fullOperands, wrap, full] using this
  -- chainMore
  · intro op ts u w as f ho h1 _ _ ih1 ih2 hs hf
    simp only [Faithful] at hf
    have hf2 := faithfulAll_append hf.2
    have he := ih1 (sub (sub hs).1).1 ⟨hf.1, hf2.1⟩
    simp only [FaithfulAll] at hf2
    have hg := ih2 (sub hs).2 hf2.2.2.1
    obtain ⟨e0, l, u', v', rfl, h2, h3, h4⟩ := he.2.2.2 as rfl
    obtain ⟨_, h5⟩ := hg.operand
    obtain ⟨u', this⟩ : ∃ u', Sh _ _ _ u' _ := ⟨_, links_snoc h4 rfl (isInfix_of ho) h1 h5⟩
    refine showsE_chain h2 h3 (v := u') ?_
    change Sh .links (l ++ [.opr op, f]) (joinStr _ (unparseOperands (l ++ [.opr op, f]))) u' (fullOperands (l ++ [.opr op, f]))
    rw [unparseOperands_append _ _ (links_trees h4 rfl), fullOperands_append, fullOperands_opr, operands_opr, operands_cons hg.1]
    simp only [unparseOperands, fullOperands]
    rw [joinStr_snoc (links_ne h4)]
    simpa using this
  -- SpL
  · exact fun _ _ => .inl rfl
  · intro e l u s w _ _ _ ih1 ih2 hs hf
    simp only [FaithfulAll] at hf
    obtain ⟨u1, h1⟩ := (ih1 (sub (sub hs).1).1 hf.1).expr
    rcases ih2 (sub hs).2 hf.2 with rfl | ⟨u2, h2⟩
    · exact .inr ⟨u1, by simpa [unparseExprs, joinStr, fulls] using Sh.item h1⟩
    · obtain ⟨u', this⟩ : ∃ u', Sh _ _ _ u' _ := ⟨_, Sh.items h1 h2⟩
      refine .inr ⟨u', ?_⟩
      rw [unparseExprs, joinStr_more _ _ (items_ne h2 (.inl rfl)), fulls]
      simpa using this
  -- SpS
  · intro e u s s' _ _ _ ih hs hf
    have h := ih (sub (sub hs).1).1 hf
    obtain ⟨u1, h1⟩ := h.expr
    refine ⟨u1, ?_⟩
    rw [stmt_expr h.1]
    exact .stExpr h1
  · intro t c as u s _ _ _ _ ih hs hf
    simp only [Faithful] at hf
    obtain ⟨u1, h1⟩ := ih (sub (sub hs).1).2 hf.2 (cmd_argsOK c) (cmd_ambOK hf.1)
    obtain ⟨u', this⟩ : ∃ u', Sh _ _ _ u' _ := ⟨_, Sh.stCmd h1⟩
    refine ⟨u', ?_⟩
    simpa [unparseStmt, full] using this
  -- SpSs
  · exact fun _ _ => .inl rfl
  · intro e l u w _ _ ih1 ih2 hs hf
    simp only [FaithfulAll] at hf
    obtain ⟨u1, h1⟩ := ih1 (sub hs).1 hf.1
    rcases ih2 (sub hs).2 hf.2 with rfl | ⟨s2, u2, h2, e2⟩
    · exact .inr ⟨_, u1, by simpa [fulls] using Sh.stOne h1, by simp [unparseStmts]⟩
    · obtain ⟨u', this⟩ : ∃ u', Sh _ _ _ u' _ := ⟨_, Sh.stMore h1 h2⟩
      refine .inr ⟨_, u', by simpa [fulls] using this, ?_⟩
      rw [unparseStmts, e2]
      simp
  -- SpB
  · intro o c b u _ _ _ ih hs hf
    exact ih (sub (sub hs).1).2 hf
  · intro e u _ ih hs hf
    simp only [FaithfulAll] at hf
    obtain ⟨u1, h1⟩ := ih hs hf.1
    exact .inr ⟨_, u1, by simpa [fulls] using Sh.stOne h1, by simp [unparseStmts]⟩
  -- SpN
  · intro t s hk _ hs hf
    have h := hs t (by simp)
    refine ⟨[t], ?_⟩
    simpa [unparseExpr, full] using Sh.name (tokOK_scanned h (.inl hk) fun he => by rw [hk] at he; cases he) hk
  · intro o c l u s _ _ hl _ _ ih hs hf
    simp only [Faithful] at hf
    rcases ih (sub (sub (sub hs).1).1).2 hf.2 with h | ⟨u1, h1⟩
    · exact absurd h hl
    · obtain ⟨u', this⟩ : ∃ u', Sh _ _ _ u' _ := ⟨_, Sh.nameList h1⟩
      refine ⟨u', ?_⟩
      simpa [unparseExpr, unparseNode, full, brackets_text, enlist_br] using this
  -- SpNs
  · exact fun _ _ => .inl rfl
  · intro e l u w _ _ ih1 ih2 hs hf
    simp only [FaithfulAll] at hf
    obtain ⟨u1, h1⟩ := ih1 (sub hs).1 hf.1
    rcases ih2 (sub hs).2 hf.2 with rfl | ⟨u2, h2⟩
    · exact .inr ⟨u1, by simpa [unparseExprs, joinStr, fulls] using Sh.nameOne h1⟩
    · obtain ⟨u', this⟩ : ∃ u', Sh _ _ _ u' _ := ⟨_, Sh.nameMore h1 h2⟩
      refine .inr ⟨u', ?_⟩
      rw [unparseExprs, joinStr_more _ _ (items_ne h2 (.inr rfl)), fulls]
      simpa using this
  -- SpA
  · intro _ _ _ _
    exact ⟨_, by simpa [unparseArgs, fulls] using Sh.argsNil⟩
  · intro as l w _ ih hs hf ha hb
    simp only [FaithfulAll, Faithful] at hf
    obtain ⟨u1, h1⟩ := ih hs hf.2 ha hb
    obtain ⟨u', this⟩ : ∃ u', Sh _ _ _ u' _ := ⟨_, Sh.argEls .bodyNil h1⟩
    refine ⟨u', ?_⟩
    simpa [unparseArgs, fulls, full, unparseStmts, stripChars, lstripChars, rstripChars] using this
  · intro as t b l u w _ _ _ ih1 ih2 hs hf ha hb
    simp only [FaithfulAll, Faithful] at hf
    obtain ⟨u0, h0⟩ := (ih1 (sub (sub hs).1).2 hf.1.2).body hf.1.1
    obtain ⟨u1, h1⟩ := ih2 (sub hs).2 hf.2 ha hb
    obtain ⟨u', this⟩ : ∃ u', Sh _ _ _ u' _ := ⟨_, Sh.argEls h0 h1⟩
    refine ⟨u', ?_⟩
    simpa [unparseArgs, fulls, full] using this
  · intro as b l u w _ _ ih1 ih2 hs hf ha hb
    simp only [FaithfulAll, Faithful] at hf
    obtain ⟨u0, h0⟩ := (ih1 (sub hs).1 hf.1.2).body hf.1.1
    obtain ⟨u1, h1⟩ := ih2 (sub hs).2 hf.2 ha hb
    obtain ⟨u', this⟩ : ∃ u', Sh _ _ _ u' _ := ⟨_, Sh.argCode h0 h1⟩
    refine ⟨u', ?_⟩
    simpa [unparseArgs, fulls, full] using this
  · intro as e l u w _ _ ih1 ih2 hs hf ha hb
    simp only [FaithfulAll] at hf
    simp only [ArgsOK, AmbOK] at ha hb
    obtain ⟨u0, h0⟩ := ih1 (sub hs).1 hf.1
    obtain ⟨u1, h1⟩ := ih2 (sub hs).2 hf.2 ha.2 hb
    obtain ⟨⟨r, rfl⟩, _⟩ := ha
    obtain ⟨hx, k, x, hk, hk2, _⟩ := args_head h1
    obtain ⟨u', this⟩ : ∃ u', Sh _ _ _ u' _ := ⟨_, Sh.argVar h0 h1 hx ⟨k, x, hk, hk2⟩⟩
    refine ⟨u', ?_⟩
    rw [args_plain (by simp) (by simp), fulls]
    exact this
  · intro as e l u s w _ _ _ ih1 ih2 hs hf ha hb
    simp only [FaithfulAll] at hf
    simp only [ArgsOK, AmbOK] at ha hb
    obtain ⟨u0, h0⟩ := (ih1 (sub (sub hs).1).1 hf.1).expr
    obtain ⟨u1, h1⟩ := ih2 (sub hs).2 hf.2 ha.2 hb.2
    have key : (∃ x, unparseArgs as l = ' ' :: x) ∧ ∃ k x, u1 = k :: x ∧ NotInfix k ∧ k.text ≠ s% ";" := by
      obtain ⟨⟨r, rfl | rfl⟩, _⟩ := ha
      · obtain ⟨hx, k, x, hk, hk2, hk3⟩ := args_head h1
        exact ⟨hx, k, x, hk, hk3 (by simp) (by simp), hk2⟩
      · obtain ⟨hx, k, x, hk, hk2, hk3⟩ := args_head h1
        exact ⟨hx, k, x, hk, hk3 (by simp) (fun _ => hb.1 r rfl), hk2⟩
    obtain ⟨u', this⟩ : ∃ u', Sh _ _ _ u' _ := ⟨_, Sh.argExpr h0 h1 key.1 key.2⟩
    refine ⟨u', ?_⟩
    rw [args_plain (by simp) (by simp), fulls]
    exact this

end Pip
