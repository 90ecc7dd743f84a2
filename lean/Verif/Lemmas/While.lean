import Verif.Lemmas.Calc
import Verif.Lemmas.Caps
import Verif.Lemmas.ReprEval
import Verif.Model.Main
/-! Scanning and parsing small imperative programs. -/

set_option linter.unusedSimpArgs false

namespace Pip.Wh
open Rgx Scan PP
open Parse (assignOp escaped group attach)

/-! ### Trees -/

def Ex.tree : Ex → Tree
  | .num n => .tok ⟨.num, showInt n⟩
  | .var c => Pip.var [c]
  | .paren e => .node parenOp [e.tree]
  | .pow e f => .node (op2 (s% "**")) [e.tree, f.tree]
  | .neg e => .node (op1 (s% "-")) [e.tree]
  | .mul e f => .node (op2 (s% "*")) [e.tree, f.tree]
  | .quot e f => .node (op2 (s% "//")) [e.tree, f.tree]
  | .rem e f => .node (op2 (s% "%")) [e.tree, f.tree]
  | .add e f => .node (op2 (s% "+")) [e.tree, f.tree]
  | .sub e f => .node (op2 (s% "-")) [e.tree, f.tree]

def Term.tree : Term → Tree
  | .ex e => e.tree
  | .cmp e o f => .node chainOp [e.tree, .opr (op2 o.text), f.tree]

mutual
def Stm.tree : Stm → Tree
  | .term e => e.tree
  | .set x e => .node (op2 (s% ":")) [Pip.var [x], e.tree]
  | .print e => .node (op1 (s% "P")) [e.tree]
  | .cond e a b => .cmd .IF [e.tree, .code (Stm.trees a), .code (Stm.trees b)]
  | .rep b e a => .cmd (if b then .WHILE else .TILL) [e.tree, .code (Stm.trees a)]
  | .loop e a => .cmd .LOOP [e.tree, .code (Stm.trees a)]
  | .iter x e a => .cmd .FOR [Pip.var [x], .node (op1 (s% ",")) [e.tree], .code (Stm.trees a)]
def Stm.trees : List Stm → List Tree
  | [] => []
  | s :: l => s.tree :: Stm.trees l
end

/-! ### Expressions -/

theorem numLit_not {s : Str} (h : NumLit s) (l : List Str) (hl : ∀ t ∈ l, isDigit (t.headD ' ') = false) : s ∉ l := by
  intro hm
  obtain ⟨c, cs, rfl, hc, _⟩ := (numLit_iff s).1 h
  have := hl _ hm
  rw [List.headD_cons, hc] at this
  cases this

theorem letter_ok : ∀ c ∈ letters, isStart c = true ∧ c ≠ '-' ∧ isSpace c = false ∧ c ≠ ';' ∧ isEnd c = true ∧
    [c] ∉ [s% ":", s% "*", s% ")", s% "]", s% "}", s% ";", s% "EL"] := by decide

theorem ex_ok {i : Nat} {e : Ex} {t : Str} (h : e.Text i t) : ∃ u, ScanTo t u ∧ Opens t ∧
    (3 ≤ i → t.head? ≠ some '-') ∧ Parses i u e.tree := by
  induction h with
  | num n =>
    have hn : NumLit (showInt n) := .inl ⟨showNat_ne n, showNat_all n⟩
    obtain ⟨c, cs, e, hc, _⟩ := (numLit_iff _).1 hn
    refine ⟨[⟨.num, showInt n⟩], fun z y hz => scanAll_num hn (end_space hz).1 (end_space hz).2 y,
      ⟨c, cs, e, by simp [isStart, hc]⟩, fun _ => ?_, parses_tok (.inr rfl) (numLit_not hn _ (by decide))⟩
    rw [e]
    simpa using digit_ne hc '-' (by decide)
  | @var c hc =>
    obtain ⟨k1, k3, _, _, _, k4⟩ := letter_ok c hc
    exact ⟨[⟨.name, [c]⟩], fun z y _ => scanAll_low hc (z :: y), ⟨c, [], rfl, k1⟩, fun _ => by simpa using k3, parses_tok (.inl rfl) k4⟩
  | paren h hg hg' ih =>
    obtain ⟨u, h1, h2, _, h4⟩ := ih
    exact ⟨_, scanTo_paren h1 h2 hg hg', ⟨_, _, rfl, by decide⟩, fun _ => by simp, parses_paren h4⟩
  | pow h h' hg hg' ih ih' =>
    obtain ⟨a, h1, ⟨c, cs, rfl, h2⟩, h3, h4⟩ := ih
    obtain ⟨b, g1, g2, g3, g4⟩ := ih'
    exact ⟨_, scanTo_infix h1 g1 g2 hg hg' (by simp [infixTexts]) (by simp), ⟨c, _, rfl, h2⟩, fun _ => h3 (by omega), parses_pow h4 g4⟩
  | neg h hg ih =>
    obtain ⟨a, h1, h2, h3, h4⟩ := ih
    exact ⟨_, scanTo_neg h1 h2 (h3 (by omega)) hg, ⟨_, _, rfl, by decide⟩, fun h => by omega, parses_neg h4⟩
  | mul h h' hg hg' ih ih' =>
    obtain ⟨a, h1, ⟨c, cs, rfl, h2⟩, h3, h4⟩ := ih
    obtain ⟨b, g1, g2, g3, g4⟩ := ih'
    exact ⟨_, scanTo_infix h1 g1 g2 hg hg' (by simp [infixTexts]) (by simp), ⟨c, _, rfl, h2⟩, fun h => by omega,
      parses_left (q := op2 (s% "*")) (by omega) (by simp [calcOps]) (by decide) h4 g4⟩
  | quot h h' hg hg' ih ih' =>
    obtain ⟨a, h1, ⟨c, cs, rfl, h2⟩, h3, h4⟩ := ih
    obtain ⟨b, g1, g2, g3, g4⟩ := ih'
    exact ⟨_, scanTo_infix h1 g1 g2 hg hg' (by simp [infixTexts]) (by simp), ⟨c, _, rfl, h2⟩, fun h => by omega,
      parses_left (q := op2 (s% "//")) (by omega) (by simp [calcOps]) (by decide) h4 g4⟩
  | rem h h' hg hg' ih ih' =>
    obtain ⟨a, h1, ⟨c, cs, rfl, h2⟩, h3, h4⟩ := ih
    obtain ⟨b, g1, g2, g3, g4⟩ := ih'
    exact ⟨_, scanTo_infix h1 g1 g2 hg hg' (by simp [infixTexts]) (by simp), ⟨c, _, rfl, h2⟩, fun h => by omega,
      parses_left (q := op2 (s% "%")) (by omega) (by simp [calcOps]) (by decide) h4 g4⟩
  | add h h' hg hg' ih ih' =>
    obtain ⟨a, h1, ⟨c, cs, rfl, h2⟩, h3, h4⟩ := ih
    obtain ⟨b, g1, g2, g3, g4⟩ := ih'
    exact ⟨_, scanTo_infix h1 g1 g2 hg hg' (by simp [infixTexts]) (by simp), ⟨c, _, rfl, h2⟩, fun h => by omega,
      parses_left (q := op2 (s% "+")) (by omega) (by simp [calcOps]) (by decide) h4 g4⟩
  | sub h h' hg hg' hm ih ih' =>
    obtain ⟨a, h1, ⟨c, cs, rfl, h2⟩, h3, h4⟩ := ih
    obtain ⟨b, g1, g2, g3, g4⟩ := ih'
    exact ⟨_, scanTo_infix h1 g1 g2 hg hg' (by simp [infixTexts]) (fun _ => hm), ⟨c, _, rfl, h2⟩, fun h => by omega,
      parses_left (q := op2 (s% "-")) (by omega) (by simp [calcOps]) (by decide) h4 g4⟩
  | up h ih =>
    obtain ⟨u, h1, h2, h3, h4⟩ := ih
    exact ⟨u, h1, h2, fun h => h3 (by omega), h4.up⟩

/-- Comparisons bind less than everything in an expression. -/
theorem ex_wrap (e : Ex) (ext : List Tree) : attach chainOp ext e.tree = .node chainOp (e.tree :: ext) := by
  cases e with
  | num n => simp [Ex.tree, attach]
  | var c => simp [Ex.tree, Pip.var, attach]
  | paren e => exact attach_bracket paren_ar _ _ _
  | neg e => exact attach_bracket (by decide) _ _ _
  | _ =>
    simp only [Ex.tree, attach]
    rw [if_neg (by decide), if_neg (by decide)]

/-! ### Terms -/

/-- Operators of arithmetic and comparisons pass through the context. -/
def Through (K : Tree → Tree) : Prop := Passes 0 K ∧ ∀ ext t, attach chainOp ext (K t) = K (attach chainOp ext t)

/-- The tokens of a term: how they are parsed. -/
structure TermP (u : List Tok) (e : Tree) : Prop where
  begins : Begins u
  split : ∃ e0 w, (∀ r, NoInfix r → Ev (fun n => parseOperand n (u ++ r)) (.ok (e0, w ++ r))) ∧
    ∀ (K : Tree → Tree) (m : Int), Through K → m ≤ 14 → ∀ r o, NoInfix r → Ev (fun n => exprLoop n m (K e) r) o →
      Ev (fun n => exprLoop n m (K e0) (w ++ r)) o

def cmpOp (o : Cmp) : Op := op2 o.text

theorem cmp_ok (o : Cmp) : (findOp ops2 o.text).or (findOp ops3 o.text) = some (cmpOp o) ∧ (cmpOp o).prec = 14 ∧ (cmpOp o).assoc = .chain ∧
    o.text ∈ infixTexts ∧ o.text ≠ s% "-" := by cases o <;> decide +kernel

theorem stops_cmp (o : Cmp) {u : List Tok} (hu : Begins u) : Stops (⟨.op, o.text⟩ :: u) := by
  intro e
  refine ev_const fun n => ?_
  obtain ⟨h1, h2, _⟩ := cmp_ok o
  simp only [exprLoop, if_true, h1, hu.colon.1, Bool.false_eq_true, if_false]
  rw [if_pos (by omega)]

theorem through_chain {K : Tree → Tree} (hK : Through K) (l x : Tree) : Passes 0 fun t => K (.node chainOp [l, x, t]) := by
  intro q hq hle ext t
  show attach q ext (K (.node chainOp [l, x, t])) = K (.node chainOp [l, x, attach q ext t])
  rw [hK.1 q hq hle]
  congr 1
  have h1 : chainOp.arity = 2 ∧ chainOp.prec = 14 := by decide
  rw [attach, if_pos ⟨.inl h1.1, .inl (by rw [h1.2]; unfold levelPrec at hle; omega)⟩]
  simp [Parse.attachLast]

theorem term_ok {e : Term} {t : Str} (h : e.Text t) : ∃ u, ScanTo t u ∧ Opens t ∧ TermP u e.tree := by
  cases h with
  | @ex e t h =>
    obtain ⟨u, h1, h2, _, h4⟩ := ex_ok h
    obtain ⟨e0, w, h5, h6⟩ := h4.split
    exact ⟨u, h1, h2, h4.begins, e0, w, fun r hr => h5 r fun _ => stops_noInfix hr,
      fun K m hK hm r o hr => h6 K m hK.1 (by unfold levelPrec; omega) r o fun _ => stops_noInfix hr⟩
  | @cmp e f o t u g g' h h' hg hg' =>
    obtain ⟨a, h1, ⟨c, cs, rfl, h2⟩, _, h4⟩ := ex_ok h
    obtain ⟨b, g1, g2, _, g4⟩ := ex_ok h'
    obtain ⟨k1, k2, k3, k4, k5⟩ := cmp_ok o
    obtain ⟨e0, w, h5, h6⟩ := h4.split
    obtain ⟨f0, w', g5, g6⟩ := g4.split
    refine ⟨_, scanTo_infix h1 g1 g2 hg hg' k4 (fun h => absurd h k5), ⟨c, _, rfl, h2⟩, h4.begins.append _, e0, w ++ ⟨.op, o.text⟩ :: b,
      fun r hr => ?_, fun K m hK hm r out hr hl => ?_⟩
    · rw [List.append_assoc, List.append_assoc]
      exact h5 _ fun _ => stops_cmp o (g4.begins.append r)
    · rw [List.append_assoc]
      refine h6 K m hK.1 (by unfold levelPrec; omega) _ out (fun _ => stops_cmp o (g4.begins.append r)) ?_
      rw [List.cons_append]
      have h3 : Ev (fun n => operands n m (K e.tree) (cmpOp o) (b ++ r)) out := by
        refine ev_succ (ev_andThen (f := fun n x ts => exprLoop n m (attach chainOp [.opr (cmpOp o), x] (K e.tree)) ts)
          (g5 r fun _ => stops_noInfix hr) ?_) fun n => ?_
        · rw [hK.2, ex_wrap]
          exact g6 (fun t => K (.node chainOp [e.tree, .opr (cmpOp o), t])) m (through_chain hK _ _) (by unfold levelPrec; omega) r out
            (fun _ => stops_noInfix hr) hl
        · simp only [operands, if_pos k3]
      refine ev_succ h3 fun n => ?_
      simp only [exprLoop, if_true, k1, (g4.begins.append r).colon.1, Bool.false_eq_true, if_false]
      rw [if_neg (by omega)]

/-! ### Statements with a value -/

/-- The tokens of a whole expression -/
structure Whole (u : List Tok) (e : Tree) : Prop where
  begins : Begins u
  parse : ∀ r, NoInfix r → Ev (fun n => parseExpr n (-1) (u ++ r)) (semi e r)

theorem TermP.whole {u : List Tok} {e : Tree} (h : TermP u e) : Whole u e := by
  refine ⟨h.begins, fun r hr => ?_⟩
  obtain ⟨e0, w, h1, h2⟩ := h.split
  refine ev_succ (ev_andThen (h1 r hr) (ev_andThen (h2 id (-1) ⟨passes_id 0, fun _ _ => rfl⟩ (by omega) r _ hr (ev_loop_halt hr (-1) e)) ?_))
    fun n => rfl
  exact ⟨0, fun _ _ => rfl⟩

/-- A prefix operator in front of a term -/
theorem whole_prefix {u : List Tok} {e : Tree} (hb : Begins u) {q : Op} (hq : findOp ops1 q.text = some q)
    (ha : ∀ r, NoInfix r → Ev (fun n => parseExpr n ((q.prec : Int) + 1) (u ++ r)) (.ok (e, r)))
    (ht : q.text ∉ [s% ":", s% "*", s% ")", s% "]", s% "}", s% ";", s% "EL", s% "(", s% "[", s% "{", s% "$", s% "\\$"]) :
    Whole (⟨.op, q.text⟩ :: u) (.node q [e]) := by
  simp only [List.mem_cons, List.not_mem_nil, or_false, not_or] at ht
  obtain ⟨t1, t2, t3, t4, t5, t6, t0, t7, t8, t9, t10, t11⟩ := ht
  refine ⟨⟨_, _, rfl, t1, t2, t3, t4, t5, t6, by simp, t0⟩, fun r hr => ?_⟩
  have a1 := ha r hr
  have a2 : Ev (fun n => unaryOperand n q (u ++ r)) (.ok (.node q [e], r)) := ev_succ (ev_andThen a1 ev_ok) fun n => rfl
  have a3 : Ev (fun n => unary n q (u ++ r)) (.ok (.node q [e], r)) := by
    refine ev_succ a2 fun n => ?_
    obtain ⟨c1, c2⟩ := (hb.append r).colon
    simp only [unary, c1, c2, Bool.false_eq_true, if_false]
  have a4 : Ev (fun n => parseOperand n (⟨.op, q.text⟩ :: u ++ r)) (.ok (.node q [e], r)) := by
    refine ev_succ a3 fun n => ?_
    rw [List.cons_append]
    simp [parseOperand, Tok.isLiteral, hq, t7, t8, t9, t10, t11]
  exact ev_operand_full a4 hr

theorem TermP.prefixed {u : List Tok} {e : Tree} (h : TermP u e) {q : Op} (hq : findOp ops1 q.text = some q) (hp : q.prec < 14)
    (ht : q.text ∉ [s% ":", s% "*", s% ")", s% "]", s% "}", s% ";", s% "EL", s% "(", s% "[", s% "{", s% "$", s% "\\$"]) :
    Whole (⟨.op, q.text⟩ :: u) (.node q [e]) := by
  refine whole_prefix h.begins hq (fun r hr => ?_) ht
  obtain ⟨e0, w0, h1, h2⟩ := h.split
  refine ev_succ (ev_andThen (h1 r hr) (ev_andThen (h2 id (q.prec + 1) ⟨passes_id 0, fun _ _ => rfl⟩ (by omega) r _ hr (ev_loop_halt hr _ e)) ?_))
    fun n => rfl
  rw [if_neg (by omega)]
  exact ev_ok

theorem parses_prefix {u : List Tok} {e : Tree} (h : Parses 0 u e) {q : Op} (hq : findOp ops1 q.text = some q) (hp : q.prec < 36)
    (ht : q.text ∉ [s% ":", s% "*", s% ")", s% "]", s% "}", s% ";", s% "EL", s% "(", s% "[", s% "{", s% "$", s% "\\$"]) :
    Whole (⟨.op, q.text⟩ :: u) (.node q [e]) := by
  refine whole_prefix h.begins hq (fun r hr => ?_) ht
  obtain ⟨e0, w0, h1, h2⟩ := h.split
  refine ev_succ (ev_andThen (h1 r fun _ => stops_noInfix hr) (ev_andThen (h2 id (q.prec + 1) (passes_id 0) (by unfold levelPrec; omega) r _
    (fun _ => stops_noInfix hr) (ev_loop_halt hr _ e)) ?_)) fun n => rfl
  rw [if_neg (by omega)]
  exact ev_ok

theorem through_assign (l : Tree) : Through fun t => .node (op2 (s% ":")) [l, t] := by
  have h1 : (op2 (s% ":")).arity = 2 ∧ (op2 (s% ":")).prec = 1 := by decide
  refine ⟨fun q hq hle ext t => ?_, fun ext t => ?_⟩
  · show attach q ext (.node (op2 (s% ":")) [l, t]) = .node (op2 (s% ":")) [l, attach q ext t]
    rw [attach, if_pos ⟨.inl h1.1, .inl (by rw [h1.2]; unfold levelPrec at hle; omega)⟩]
    simp [Parse.attachLast]
  · show attach chainOp ext (.node (op2 (s% ":")) [l, t]) = .node (op2 (s% ":")) [l, attach chainOp ext t]
    rw [attach, if_pos ⟨.inl h1.1, .inl (by decide)⟩]
    simp [Parse.attachLast]

/-- An assignment -/
theorem TermP.assigned {u : List Tok} {e : Tree} (h : TermP u e) {x : Char} (hx : x ∈ letters) :
    Whole (⟨.name, [x]⟩ :: ⟨.op, s% ":"⟩ :: u) (.node (op2 (s% ":")) [Pip.var [x], e]) := by
  obtain ⟨_, _, _, _, _, k⟩ := letter_ok x hx
  have hp := parses_tok (t := ⟨.name, [x]⟩) (.inl rfl) k
  refine ⟨by simpa using hp.begins.append (⟨.op, s% ":"⟩ :: u), fun r hr => ?_⟩
  obtain ⟨e0, w0, h1, h2⟩ := h.split
  have f1 : (findOp ops2 (s% ":")).or (findOp ops3 (s% ":")) = some (op2 (s% ":")) := by decide +kernel
  have b1 : Ev (fun n => operands n (-1) (Pip.var [x]) (op2 (s% ":")) (u ++ r)) (.ok (.node (op2 (s% ":")) [Pip.var [x], e], r)) := by
    refine ev_succ (ev_andThen (f := fun n y ts => exprLoop n (-1) (attach (op2 (s% ":")) [y] (Pip.var [x])) ts) (h1 r hr) ?_) fun n => ?_
    · exact h2 (fun t => .node (op2 (s% ":")) [Pip.var [x], t]) (-1) (through_assign _) (by omega) r _ hr (ev_loop_halt hr (-1) _)
    · simp only [operands, if_neg (show ¬(op2 (s% ":")).assoc = .chain by decide), show (op2 (s% ":")).arity = 2 by decide]
      rfl
  have b2 : Ev (fun n => exprLoop n (-1) (Pip.var [x]) (⟨.op, s% ":"⟩ :: (u ++ r))) (.ok (.node (op2 (s% ":")) [Pip.var [x], e], r)) := by
    refine ev_succ b1 fun n => ?_
    simp only [exprLoop, if_true, f1, (h.begins.append r).colon.1, Bool.false_eq_true, if_false]
    rw [if_neg (by omega)]
  have b3 : Ev (fun n => parseOperand n (⟨.name, [x]⟩ :: ⟨.op, s% ":"⟩ :: (u ++ r))) (.ok (Pip.var [x], ⟨.op, s% ":"⟩ :: (u ++ r))) :=
    ev_const fun n => by simp [parseOperand, Pip.var]
  refine ev_succ (ev_andThen b3 (ev_andThen b2 ?_)) fun n => rfl
  exact ⟨0, fun _ _ => rfl⟩

/-- Words in capital letters -/
theorem scanAll_caps {w : Str} {t : Tok} (hw : (w, t) ∈ [(s% "P", ⟨.op, s% "P"⟩), (s% "I", ⟨.cmd, s% "I"⟩), (s% "W", ⟨.cmd, s% "W"⟩),
    (s% "T", ⟨.cmd, s% "T"⟩), (s% "L", ⟨.cmd, s% "L"⟩), (s% "F", ⟨.cmd, s% "F"⟩), (s% "EL", tEl)]) {c : Char} (hc : isUpperAZ c = false) (x : Str) :
    scanAll (w ++ c :: x) = Scan.prefixed [some t] (scanAll (c :: x)) := by
  have key : ∀ p ∈ [(s% "P", (⟨.op, s% "P"⟩ : Tok)), (s% "I", ⟨.cmd, s% "I"⟩), (s% "W", ⟨.cmd, s% "W"⟩),
    (s% "T", ⟨.cmd, s% "T"⟩), (s% "L", ⟨.cmd, s% "L"⟩), (s% "F", ⟨.cmd, s% "F"⟩), (s% "EL", tEl)], p.1 ≠ [] ∧ p.1.all isUpperAZ = true ∧
    newToken (cut p.1).1 = some p.2 ∧ (cut p.1).2 = p.1.length := by decide +kernel
  obtain ⟨h1, h2, h3, h4⟩ := key _ hw
  simp only at h1 h2 h3 h4
  cases w with
  | nil => exact absurd rfl h1
  | cons a as =>
    have := step_caps (rest := c :: x) h2 (fun d hd => by simp at hd; subst hd; exact hc)
    rw [h3, h4, List.drop_left] at this
    exact scanAll_piece (by simp) this

theorem start_upper {c : Char} (h : isStart c = true ∨ c = ' ') : isUpperAZ c = false := by
  rcases h with h | rfl
  · rcases start_cases h with h | h
    · have : ∀ c : Char, isDigit c = true → isUpperAZ c = false := by
        intro c hc
        exact (digit_class hc).2.1
      exact this c h
    · have : ∀ z ∈ s% "abcdefghiklmnopstuvwxyz(-", isUpperAZ z = false := by decide
      exact this c h
  · decide

/-- A word in capital letters in front of a term -/
theorem scanTo_caps {w t g : Str} {k : Tok} {a : List Tok} (hw : (w, k) ∈ [(s% "P", ⟨.op, s% "P"⟩), (s% "I", ⟨.cmd, s% "I"⟩), (s% "W", ⟨.cmd, s% "W"⟩),
    (s% "T", ⟨.cmd, s% "T"⟩), (s% "L", ⟨.cmd, s% "L"⟩), (s% "F", ⟨.cmd, s% "F"⟩), (s% "EL", tEl)]) (ht : ScanTo t a) (ho : Opens t) (hg : Gap g) :
    ScanTo (w ++ (g ++ t)) (k :: a) := by
  intro z y hz
  obtain ⟨d, ds, e, hd⟩ := ho.head hg
  have e5 : g ++ (t ++ z :: y) = d :: (ds ++ z :: y) := by rw [← List.append_assoc, e]; rfl
  have e1 : w ++ (g ++ t) ++ z :: y = w ++ (g ++ (t ++ z :: y)) := by simp
  rw [e1, e5, scanAll_caps hw (start_upper hd), ← e5, ho.gap hg, ht z y hz, prefixed_prefixed]
  rfl

/-- A single-character operator in front of a term -/
theorem scanTo_op {c : Char} (hc : c ∈ s% ":,") {t g : Str} {a : List Tok} (ht : ScanTo t a) (ho : Opens t) (hg : Gap g) :
    ScanTo (c :: (g ++ t)) (⟨.op, [c]⟩ :: a) := by
  intro z y hz
  obtain ⟨d, ds, e, hd⟩ := ho.head hg
  have e5 : g ++ (t ++ z :: y) = d :: (ds ++ z :: y) := by rw [← List.append_assoc, e]; rfl
  have e1 : c :: (g ++ t) ++ z :: y = c :: (g ++ (t ++ z :: y)) := by simp
  have h1 : ∀ c ∈ s% ":,", c ∈ s% "+-*%<>=:," ∧ c ≠ '-' := by decide
  obtain ⟨h1, h2⟩ := h1 c hc
  rw [e1, e5, scanAll_op1 h1 hd (fun e => absurd e h2), ← e5, ho.gap hg, ht z y hz, prefixed_prefixed]
  rfl

/-- A variable in front of something that starts with an operator -/
theorem scanTo_letter {x c : Char} (hx : x ∈ letters) (hc : isSpace c = false) {g t : Str} {a : List Tok} (hg : Gap g) (ht : ScanTo (c :: t) a) :
    ScanTo (x :: (g ++ c :: t)) (⟨.name, [x]⟩ :: a) := by
  intro z y hz
  have e1 : x :: (g ++ c :: t) ++ z :: y = x :: (g ++ c :: (t ++ z :: y)) := by simp
  have e2 : c :: (t ++ z :: y) = c :: t ++ z :: y := rfl
  rw [e1, scanAll_low hx, scanAll_gaps hg _ hc, e2, ht z y hz, prefixed_prefixed]
  rfl

theorem simple_ok {s : Stm} {t : Str} (h : SimpleText s t) : ∃ u, ScanTo t u ∧ (∃ c cs, t = c :: cs ∧ isSpace c = false ∧ c ≠ ';') ∧ Whole u s.tree := by
  cases h with
  | term h =>
    obtain ⟨u, h1, ⟨c, cs, h2, h3⟩, h4⟩ := term_ok h
    exact ⟨u, h1, ⟨c, cs, h2, start_space h3⟩, by simpa [Stm.tree] using h4.whole⟩
  | @set x e t g g' hx h hg hg' =>
    obtain ⟨u, h1, h2, h4⟩ := term_ok h
    obtain ⟨_, _, k1, k2, _, _⟩ := letter_ok x hx
    exact ⟨_, scanTo_letter hx (by decide) hg (scanTo_op (by decide) h1 h2 hg'), ⟨x, _, rfl, k1, k2⟩, by simpa [Stm.tree] using h4.assigned hx⟩
  | @print e t g h hg =>
    obtain ⟨u, h1, h2, h4⟩ := term_ok h
    refine ⟨_, scanTo_caps (w := s% "P") (k := ⟨.op, s% "P"⟩) (by simp) h1 h2 hg, ⟨_, _, rfl, by decide, by decide⟩, ?_⟩
    have := h4.prefixed (q := op1 (s% "P")) (by decide +kernel) (by decide) (by decide)
    rw [show (op1 (s% "P")).text = s% "P" by decide] at this
    simpa [Stm.tree] using this

/-! ### Commands -/

theorem scanAll_sep {g : Str} (hg : Sep g) {c : Char} (x : Str) (hc : isSpace c = false) (hs : c ≠ ';') : scanAll (g ++ c :: x) = scanAll (c :: x) := by
  rcases hg with rfl | rfl | rfl
  · rfl
  · exact scanAll_gap x hc
  · exact scanAll_first x hc hs

/-- What statements start with -/
def Starts (t : Str) : Prop := t = [] ∨ ∃ c cs, t = c :: cs ∧ isSpace c = false ∧ c ≠ ';'

theorem scanAll_sepOf {g u : Str} (hg : SepOf g u) (hu : Starts u) (x : Str) : scanAll (g ++ (u ++ x)) = scanAll (u ++ x) := by
  rcases hu with rfl | ⟨c, cs, rfl, h1, h2⟩
  · rw [hg.2 rfl]; rfl
  · exact scanAll_sep hg.1 _ h1 h2

theorem sep_end {g : Str} (hg : Sep g) {c : Char} (hc : isEnd c = true) (x : Str) : ∃ d w, g ++ c :: x = d :: w ∧ isEnd d = true := by
  rcases hg with rfl | rfl | rfl
  · exact ⟨_, _, rfl, hc⟩
  · exact ⟨_, _, rfl, by decide⟩
  · exact ⟨_, _, rfl, by decide⟩

/-- Statements do not start with what may continue the one before. -/
def Fresh (u : List Tok) : Prop := u = [] ∨ First u ∧ isT u (s% "EL") = false

theorem fresh_isT {u r : List Tok} (h : Fresh u) (hr : EndOf r) : isT (u ++ r) (s% ";") = false ∧ isT (u ++ r) (s% "EL") = false := by
  rcases h with rfl | ⟨h1, h2⟩
  · rcases hr with rfl | ⟨x, rfl⟩
    · exact ⟨rfl, rfl⟩
    · exact ⟨rfl, rfl⟩
  · obtain ⟨t, w, rfl, h3⟩ := h1
    exact ⟨by simpa [isT] using h3.2.2.2, by simpa [isT] using h2⟩

/-- The tokens of statements, and of statements in braces -/
def Goal : Bool → List Stm → Str → Prop
  | false, l, t => ∃ u, ScanTo t u ∧ Starts t ∧ Fresh u ∧
      (∀ s l', l = s :: l' → s.simple = false → (∃ c cs, t = c :: cs ∧ isEnd c = true) ∧ ∃ k w, u = k :: w ∧ k.kind = .cmd) ∧
      ∀ r, EndOf r → Ev (fun n => PP.parse n (u ++ r)) (.ok (Stm.trees l, r))
  | true, l, t => ∃ u, (∀ y, scanAll (t ++ y) = Scan.prefixed (u.map some) (scanAll y)) ∧ (∃ cs, t = '{' :: cs) ∧ (∃ w, u = tLc :: w) ∧
      ∀ r, Ev (fun n => parseBlock n (u ++ r)) (.ok (Stm.trees l, r))

theorem Whole.statement {u : List Tok} {e : Tree} (h : Whole u e) {r q : List Tok} (hr : NoInfix r) (hq : semi e r = .ok (e, q))
    (hs : isT q (s% ";") = false) : Ev (fun n => parseStatement n (u ++ r)) (.ok (e, q)) := by
  have h1 := h.parse r hr
  rw [hq] at h1
  have h2 : Ev (fun _ => semi e q) (.ok (e, q)) := ⟨0, fun _ _ => by simp [semi, hs]⟩
  obtain ⟨t, w, rfl, _, _, _, _, _, _, g, _⟩ := h.begins
  refine ev_succ (ev_andThen (f := fun _ e ts => semi e ts) h1 h2) fun n => ?_
  simp only [List.cons_append, parseStatement, if_neg g]

theorem semi_not {r : List Tok} (h : isT r (s% ";") = false) (e : Tree) : semi e r = .ok (e, r) := by simp [semi, h]

theorem Whole.fresh {u : List Tok} {e : Tree} (h : Whole u e) (v : List Tok) : Fresh (u ++ v) := by
  refine .inr ⟨(h.begins.append v).first, ?_⟩
  obtain ⟨t, w, rfl, _, _, _, _, _, _, _, g⟩ := h.begins
  simpa [isT] using g

theorem endOf_noInfix {r : List Tok} (h : EndOf r) : NoInfix r := by
  rcases h with rfl | ⟨x, rfl⟩
  · intro t ht; simp at ht
  · exact noInfix_cons (by simp [tRc]) x

theorem endOf_semi {r : List Tok} (h : EndOf r) : isT r (s% ";") = false := by
  rcases h with rfl | ⟨x, rfl⟩ <;> rfl

/-- A command with an expression and statements in braces -/
theorem ev_command {c : Cmd} (hc : c.args = [.expr, .code]) {u b : List Tok} {e : Tree} {a : List Tree} (h : Whole u e) (hb : ∃ w, b = tLc :: w)
    (h' : ∀ r, Ev (fun n => parseBlock n (b ++ r)) (.ok (a, r))) {r : List Tok} (hr : isT r (s% ";") = false) :
    Ev (fun n => parseStatement n (⟨.cmd, c.text⟩ :: (u ++ (b ++ r)))) (.ok (.cmd c [e, .code a], r)) := by
  have h1 : Ev (fun n => parseExpr n (-1) (u ++ (b ++ r))) (.ok (e, b ++ r)) := by
    obtain ⟨w, rfl⟩ := hb
    exact h.parse _ (noInfix_cons (by simp [tLc]) _)
  have h2 : Ev (fun n => parseArgs n [] r) (.ok ([], r)) := ev_const fun n => rfl
  have h3 : Ev (fun n => parseArgs n [.code] (b ++ r)) (.ok ([.code a], r)) :=
    ev_succ (ev_andThen (f := fun n b ts => andThen (parseArgs n [] ts) fun l ts => .ok (.code b :: l, ts)) (h' r)
      (ev_andThen (f := fun _ l ts => .ok (.code a :: l, ts)) h2 ev_ok)) fun n => rfl
  have h4 : Ev (fun n => parseArgs n c.args (u ++ (b ++ r))) (.ok ([e, .code a], r)) := by
    rw [hc]
    exact ev_succ (ev_andThen (f := fun n e ts => andThen (parseArgs n [.code] ts) fun l ts => .ok (e :: l, ts)) h1
      (ev_andThen (f := fun _ l ts => .ok (e :: l, ts)) h3 ev_ok)) fun n => rfl
  refine ev_succ (ev_andThen (f := fun _ args ts => semi (.cmd c args) ts) h4 ⟨0, fun _ _ => semi_not hr _⟩) fun n => ?_
  simp only [parseStatement, if_true, findCmd_text]

/-- A condition, with or without the other case -/
theorem ev_if {u b : List Tok} {e : Tree} {a : List Tree} (h : Whole u e) (hb : ∃ w, b = tLc :: w)
    (h' : ∀ r, Ev (fun n => parseBlock n (b ++ r)) (.ok (a, r))) {x r : List Tok} {a' : List Tree} (hr : isT r (s% ";") = false)
    (hx : Ev (fun n => parseArgs n [.els] x) (.ok ([.code a'], r))) :
    Ev (fun n => parseStatement n (⟨.cmd, s% "I"⟩ :: (u ++ (b ++ x)))) (.ok (.cmd .IF [e, .code a, .code a'], r)) := by
  have h1 : Ev (fun n => parseExpr n (-1) (u ++ (b ++ x))) (.ok (e, b ++ x)) := by
    obtain ⟨w, rfl⟩ := hb
    exact h.parse _ (noInfix_cons (by simp [tLc]) _)
  have h3 : Ev (fun n => parseArgs n [.code, .els] (b ++ x)) (.ok ([.code a, .code a'], r)) :=
    ev_succ (ev_andThen (f := fun n b ts => andThen (parseArgs n [.els] ts) fun l ts => .ok (.code b :: l, ts)) (h' x)
      (ev_andThen (f := fun _ l ts => .ok (.code a :: l, ts)) hx ev_ok)) fun n => rfl
  have h4 : Ev (fun n => parseArgs n Cmd.IF.args (u ++ (b ++ x))) (.ok ([e, .code a, .code a'], r)) :=
    ev_succ (ev_andThen (f := fun n e ts => andThen (parseArgs n [.code, .els] ts) fun l ts => .ok (e :: l, ts)) h1
      (ev_andThen (f := fun _ l ts => .ok (e :: l, ts)) h3 ev_ok)) fun n => rfl
  refine ev_succ (ev_andThen (f := fun _ args ts => semi (.cmd .IF args) ts) h4 ⟨0, fun _ _ => semi_not hr _⟩) fun n => ?_
  have := findCmd_text .IF
  rw [show Cmd.IF.text = s% "I" by rfl] at this
  simp only [parseStatement, if_true, this]

theorem ev_noElse {r : List Tok} (hr : isT r (s% "EL") = false) : Ev (fun n => parseArgs n [.els] r) (.ok ([.code []], r)) := by
  have h2 : Ev (fun n => parseArgs n [] r) (.ok ([], r)) := ev_const fun n => rfl
  refine ev_succ (ev_andThen (f := fun _ l ts => .ok (.code [] :: l, ts)) h2 ev_ok) fun n => ?_
  simp only [parseArgs, hr, Bool.false_eq_true, if_false]

theorem ev_else {b r : List Tok} {a : List Tree} (h' : ∀ r, Ev (fun n => parseBlock n (b ++ r)) (.ok (a, r))) :
    Ev (fun n => parseArgs n [.els] (tEl :: (b ++ r))) (.ok ([.code a], r)) := by
  have h2 : Ev (fun n => parseArgs n [] r) (.ok ([], r)) := ev_const fun n => rfl
  refine ev_succ (ev_andThen (f := fun n b ts => andThen (parseArgs n [] ts) fun l ts => .ok (.code b :: l, ts)) (h' r)
      (ev_andThen (f := fun _ l ts => .ok (.code a :: l, ts)) h2 ev_ok)) fun n => ?_
  simp only [parseArgs, isT, tEl, beq_self_eq_true, if_true, List.tail_cons]

/-- `F` with a variable -/
theorem ev_for {x : Char} {u b : List Tok} {e : Tree} {a : List Tree} (h : Whole u e) (hb : ∃ w, b = tLc :: w)
    (h' : ∀ r, Ev (fun n => parseBlock n (b ++ r)) (.ok (a, r))) {r : List Tok} (hr : isT r (s% ";") = false) :
    Ev (fun n => parseStatement n (⟨.cmd, s% "F"⟩ :: ⟨.name, [x]⟩ :: (u ++ (b ++ r)))) (.ok (.cmd .FOR [Pip.var [x], e, .code a], r)) := by
  have h0 : Ev (fun n => parseNameList n (⟨.name, [x]⟩ :: (u ++ (b ++ r)))) (.ok (Pip.var [x], u ++ (b ++ r))) := by
    refine ev_const fun n => ?_
    simp only [parseNameList, if_true]
    exact semi_not (First.isT (h.begins.append _).first) _
  have h1 : Ev (fun n => parseExpr n (-1) (u ++ (b ++ r))) (.ok (e, b ++ r)) := by
    obtain ⟨w, rfl⟩ := hb
    exact h.parse _ (noInfix_cons (by simp [tLc]) _)
  have h2 : Ev (fun n => parseArgs n [] r) (.ok ([], r)) := ev_const fun n => rfl
  have h3 : Ev (fun n => parseArgs n [.code] (b ++ r)) (.ok ([.code a], r)) :=
    ev_succ (ev_andThen (f := fun n b ts => andThen (parseArgs n [] ts) fun l ts => .ok (.code b :: l, ts)) (h' r)
      (ev_andThen (f := fun _ l ts => .ok (.code a :: l, ts)) h2 ev_ok)) fun n => rfl
  have h4 : Ev (fun n => parseArgs n [.expr, .code] (u ++ (b ++ r))) (.ok ([e, .code a], r)) :=
    ev_succ (ev_andThen (f := fun n e ts => andThen (parseArgs n [.code] ts) fun l ts => .ok (e :: l, ts)) h1
      (ev_andThen (f := fun _ l ts => .ok (e :: l, ts)) h3 ev_ok)) fun n => rfl
  have h5 : Ev (fun n => parseArgs n Cmd.FOR.args (⟨.name, [x]⟩ :: (u ++ (b ++ r)))) (.ok ([Pip.var [x], e, .code a], r)) :=
    ev_succ (ev_andThen (f := fun n e ts => andThen (parseArgs n [.expr, .code] ts) fun l ts => .ok (e :: l, ts)) h0
      (ev_andThen (f := fun _ l ts => .ok (Pip.var [x] :: l, ts)) h4 ev_ok)) fun n => rfl
  refine ev_succ (ev_andThen (f := fun _ args ts => semi (.cmd .FOR args) ts) h5 ⟨0, fun _ _ => semi_not hr _⟩) fun n => ?_
  have := findCmd_text .FOR
  rw [show Cmd.FOR.text = s% "F" by rfl] at this
  simp only [parseStatement, if_true, this]

/-- Statements after a command -/
theorem ev_next {u b r : List Tok} {e : Tree} {l : List Tree} {k : Tok} (hk : k.kind = .cmd ∧ k.text ∉ [s% ")", s% "]", s% "}", s% ";"])
    (h1 : Ev (fun n => parseStatement n (k :: (u ++ (b ++ r)))) (.ok (e, b ++ r))) (h2 : Ev (fun n => PP.parse n (b ++ r)) (.ok (l, r))) :
    Ev (fun n => PP.parse n (k :: (u ++ b) ++ r)) (.ok (e :: l, r)) := by
  obtain ⟨_, hk⟩ := hk
  simp only [List.mem_cons, List.not_mem_nil, or_false, not_or] at hk
  have e1 : k :: (u ++ b) ++ r = [k] ++ (u ++ (b ++ r)) := by simp
  rw [e1]
  exact ev_cons ⟨k, [], rfl, hk⟩ h1 h2

/-- A term and a block -/
theorem scan_block {t g b : Str} {a w : List Tok} (ht : ScanTo t a) (hg : Sep g) (hb : ∀ y, scanAll (b ++ y) = Scan.prefixed (w.map some) (scanAll y))
    (hc : ∃ cs, b = '{' :: cs) (x : Str) : scanAll (t ++ (g ++ (b ++ x))) = Scan.prefixed ((a ++ w).map some) (scanAll x) := by
  obtain ⟨cs, rfl⟩ := hc
  obtain ⟨d, v, e, hd⟩ := sep_end hg (c := '{') (by decide) (cs ++ x)
  have e1 : g ++ ('{' :: cs ++ x) = g ++ '{' :: (cs ++ x) := rfl
  have e2 : '{' :: (cs ++ x) = '{' :: cs ++ x := rfl
  rw [e1, e, ht d v hd, ← e, scanAll_sep hg _ (by decide) (by decide), e2, hb, prefixed_prefixed, List.map_append]

/-- A term, a block and further statements -/
theorem scanTo_body {t g b g1 u : Str} {a w v : List Tok} (ht : ScanTo t a) (hg : Sep g)
    (hb : ∀ y, scanAll (b ++ y) = Scan.prefixed (w.map some) (scanAll y)) (hc : ∃ cs, b = '{' :: cs) (hg1 : SepOf g1 u) (hu : Starts u)
    (hv : ScanTo u v) : ScanTo (t ++ (g ++ (b ++ (g1 ++ u)))) (a ++ (w ++ v)) := by
  intro z y hz
  have e1 : t ++ (g ++ (b ++ (g1 ++ u))) ++ z :: y = t ++ (g ++ (b ++ (g1 ++ (u ++ z :: y)))) := by simp
  rw [e1, scan_block ht hg hb hc, scanAll_sepOf hg1 hu, hv z y hz, prefixed_prefixed]
  simp

theorem fresh_cmd {k : Tok} (h : k.text ∈ [s% "I", s% "W", s% "T", s% "L", s% "F"]) (w : List Tok) : Fresh (k :: w) := by
  have : ∀ t ∈ [s% "I", s% "W", s% "T", s% "L", s% "F"], t ≠ s% ")" ∧ t ≠ s% "]" ∧ t ≠ s% "}" ∧ t ≠ s% ";" ∧ t ≠ s% "EL" := by decide
  obtain ⟨h1, h2, h3, h4, h5⟩ := this _ h
  exact .inr ⟨⟨k, w, rfl, h1, h2, h3, h4⟩, by simpa [isT] using h5⟩

theorem scanTo_congr {t t' : Str} {u u' : List Tok} (h : ScanTo t u) (e : t = t') (e' : u = u') : ScanTo t' u' := by
  subst e e'; exact h

/-- Opens after a term -/
theorem _root_.Pip.Opens.more {t : Str} (h : Opens t) (x : Str) : Opens (t ++ x) := by
  obtain ⟨c, cs, rfl, h⟩ := h
  exact ⟨c, _, rfl, h⟩

theorem code_ok {m : Bool} {l : List Stm} {t : Str} (h : Code m l t) : Goal m l t := by
  induction h with
  | nil => exact ⟨[], fun z y _ => (prefixed_nil _).symm, .inl rfl, .inl rfl, by simp, fun r hr => ev_parse_end hr⟩
  | @last s t h =>
    obtain ⟨u, h1, h2, h3⟩ := simple_ok h
    refine ⟨u, h1, .inr h2, by simpa using h3.fresh [], ?_, fun r hr => ?_⟩
    · intro s' l' e hs
      cases e
      cases h <;> cases hs
    · exact ev_cons h3.begins.first (h3.statement (endOf_noInfix hr) (semi_not (endOf_semi hr) _) (endOf_semi hr)) (ev_parse_end hr)
  | @semi s l t u g h hl hg ih =>
    obtain ⟨a, h1, ⟨c, cs, rfl, h2⟩, h3⟩ := simple_ok h
    obtain ⟨b, g1, g2, g3, _, g4⟩ := ih
    refine ⟨a ++ tSemi :: b, ?_, .inr ⟨c, _, rfl, h2⟩, h3.fresh _, ?_, fun r hr => ?_⟩
    · intro z y hz
      have e1 : c :: cs ++ ';' :: (g ++ u) ++ z :: y = c :: cs ++ ';' :: (g ++ (u ++ z :: y)) := by simp
      rw [e1, h1 ';' _ (by decide), scanAll_sym (by decide), scanAll_sepOf hg g2, g1 z y hz, prefixed_prefixed, prefixed_prefixed]
      simp [tSemi]
    · intro s' l' e hs
      cases e
      cases h <;> cases hs
    · rw [List.append_assoc, List.cons_append]
      exact ev_cons h3.begins.first (h3.statement (q := b ++ r) (noInfix_cons (by simp [tSemi]) _) rfl (fresh_isT g3 hr).1) (g4 r hr)
  | @next s s' l t u g h hl hg hs ih =>
    obtain ⟨a, h1, ⟨c, cs, rfl, h2⟩, h3⟩ := simple_ok h
    obtain ⟨b, g1, g2, g3, g5, g4⟩ := ih
    obtain ⟨⟨d, ds, rfl, hd⟩, k, w, rfl, hk⟩ := g5 s' l rfl hs
    refine ⟨a ++ k :: w, ?_, .inr ⟨c, _, rfl, h2⟩, h3.fresh _, ?_, fun r hr => ?_⟩
    · intro z y hz
      have e1 : c :: cs ++ (g ++ d :: ds) ++ z :: y = c :: cs ++ (g ++ d :: (ds ++ z :: y)) := by simp
      obtain ⟨d', v, e, hd'⟩ := sep_end hg.1 hd (ds ++ z :: y)
      have e2 : d :: (ds ++ z :: y) = d :: ds ++ z :: y := rfl
      rw [e1, e, h1 d' v hd', ← e, e2, scanAll_sepOf hg g2, g1 z y hz, prefixed_prefixed]
      simp
    · intro s'' l' e hs
      cases e
      cases h <;> cases hs
    · rw [List.append_assoc]
      exact ev_cons h3.begins.first (h3.statement (q := k :: w ++ r) (noInfix_cons (by simp [hk]) _) (semi_not (fresh_isT g3 hr).1 _) (fresh_isT g3 hr).1) (g4 r hr)
  | @cond e a l t ta u g g' g1 h ha hl hg hg' h1 iha ihl =>
    obtain ⟨v, v1, v2, v3⟩ := term_ok h
    obtain ⟨b, b1, b2, b3, b4⟩ := iha
    obtain ⟨c, c1, c2, c3, _, c4⟩ := ihl
    refine ⟨⟨.cmd, s% "I"⟩ :: (v ++ (b ++ c)), scanTo_caps (w := s% "I") (by simp) (scanTo_body v1 hg' b1 b2 h1 c2 c1) (v2.more _) hg,
      .inr ⟨_, _, rfl, by decide, by decide⟩, fresh_cmd (by simp) _, fun _ _ _ _ => ⟨⟨_, _, rfl, by decide⟩, _, _, rfl, rfl⟩, fun r hr => ?_⟩
    obtain ⟨f1, f2⟩ := fresh_isT c3 hr
    have := ev_next (k := ⟨.cmd, s% "I"⟩) (u := v ++ b) ⟨rfl, by decide⟩ (by
      rw [List.append_assoc]
      exact ev_if v3.whole b3 b4 f1 (ev_noElse f2)) (c4 r hr)
    simpa [Stm.trees, Stm.tree] using this
  | @both e a b l t ta tb u g g' g1 g2 g3 h ha hb hl hg hg' h1 h2 h3 iha ihb ihl =>
    obtain ⟨v, v1, v2, v3⟩ := term_ok h
    obtain ⟨b, b1, b2, b3, b4⟩ := iha
    obtain ⟨b', d1, d2, d3, d4⟩ := ihb
    obtain ⟨c, c1, c2, c3, _, c4⟩ := ihl
    have hsc : ScanTo (t ++ (g' ++ (ta ++ (g1 ++ (s% "EL" ++ (g2 ++ (tb ++ (g3 ++ u)))))))) (v ++ (b ++ tEl :: (b' ++ c))) := by
      intro z y hz
      have e1 : t ++ (g' ++ (ta ++ (g1 ++ (s% "EL" ++ (g2 ++ (tb ++ (g3 ++ u))))))) ++ z :: y =
          t ++ (g' ++ (ta ++ (g1 ++ 'E' :: 'L' :: (g2 ++ (tb ++ (g3 ++ (u ++ z :: y))))))) := by simp
      have e2 : ∃ d w, g2 ++ (tb ++ (g3 ++ (u ++ z :: y))) = d :: w ∧ isUpperAZ d = false := by
        obtain ⟨cs, rfl⟩ := d2
        rcases h2 with rfl | rfl | rfl <;> exact ⟨_, _, rfl, by decide⟩
      obtain ⟨d, w, e2, hd⟩ := e2
      have e3 := scanAll_caps (w := s% "EL") (t := tEl) (by simp) hd w
      rw [← e2] at e3
      have e4 : scanAll (g2 ++ (tb ++ (g3 ++ (u ++ z :: y)))) = scanAll (tb ++ (g3 ++ (u ++ z :: y))) := by
        obtain ⟨cs, rfl⟩ := d2
        exact scanAll_sep h2 _ (by decide) (by decide)
      have e5 : 'E' :: 'L' :: (g2 ++ (tb ++ (g3 ++ (u ++ z :: y)))) = s% "EL" ++ (g2 ++ (tb ++ (g3 ++ (u ++ z :: y)))) := rfl
      rw [e1, scan_block v1 hg' b1 b2, scanAll_sep h1 _ (by decide) (by decide), e5, e3, e4, d1, scanAll_sepOf h3 c2, c1 z y hz,
        prefixed_prefixed, prefixed_prefixed, prefixed_prefixed]
      simp
    refine ⟨⟨.cmd, s% "I"⟩ :: (v ++ (b ++ tEl :: (b' ++ c))), scanTo_caps (w := s% "I") (by simp) hsc (v2.more _) hg,
      .inr ⟨_, _, rfl, by decide, by decide⟩, fresh_cmd (by simp) _, fun _ _ _ _ => ⟨⟨_, _, rfl, by decide⟩, _, _, rfl, rfl⟩, fun r hr => ?_⟩
    obtain ⟨f1, f2⟩ := fresh_isT c3 hr
    have := ev_next (k := ⟨.cmd, s% "I"⟩) (u := v ++ (b ++ tEl :: b')) ⟨rfl, by decide⟩ (by
      have e1 : v ++ (b ++ tEl :: b') ++ (c ++ r) = v ++ (b ++ tEl :: (b' ++ (c ++ r))) := by simp
      rw [e1]
      exact ev_if v3.whole b3 b4 f1 (ev_else d4)) (c4 r hr)
    simpa [Stm.trees, Stm.tree] using this
  | @rep b e a l t ta u g g' g1 h ha hl hg hg' h1 iha ihl =>
    obtain ⟨v, v1, v2, v3⟩ := term_ok h
    obtain ⟨w, b1, b2, b3, b4⟩ := iha
    obtain ⟨c, c1, c2, c3, _, c4⟩ := ihl
    cases b with
    | true =>
      refine ⟨⟨.cmd, s% "W"⟩ :: (v ++ (w ++ c)), scanTo_caps (w := s% "W") (by simp) (scanTo_body v1 hg' b1 b2 h1 c2 c1) (v2.more _) hg,
        .inr ⟨_, _, rfl, by decide, by decide⟩, fresh_cmd (by simp) _, fun _ _ _ _ => ⟨⟨_, _, rfl, by decide⟩, _, _, rfl, rfl⟩, fun r hr => ?_⟩
      have := ev_next (k := ⟨.cmd, s% "W"⟩) (u := v ++ w) ⟨rfl, by decide⟩ (by
        rw [List.append_assoc]
        exact ev_command (c := .WHILE) rfl v3.whole b3 b4 (fresh_isT c3 hr).1) (c4 r hr)
      simpa [Stm.trees, Stm.tree] using this
    | false =>
      refine ⟨⟨.cmd, s% "T"⟩ :: (v ++ (w ++ c)), scanTo_caps (w := s% "T") (by simp) (scanTo_body v1 hg' b1 b2 h1 c2 c1) (v2.more _) hg,
        .inr ⟨_, _, rfl, by decide, by decide⟩, fresh_cmd (by simp) _, fun _ _ _ _ => ⟨⟨_, _, rfl, by decide⟩, _, _, rfl, rfl⟩, fun r hr => ?_⟩
      have := ev_next (k := ⟨.cmd, s% "T"⟩) (u := v ++ w) ⟨rfl, by decide⟩ (by
        rw [List.append_assoc]
        exact ev_command (c := .TILL) rfl v3.whole b3 b4 (fresh_isT c3 hr).1) (c4 r hr)
      simpa [Stm.trees, Stm.tree] using this
  | @loop e a l t ta u g g' g1 h ha hl hg hg' h1 iha ihl =>
    obtain ⟨v, v1, v2, v3⟩ := term_ok h
    obtain ⟨w, b1, b2, b3, b4⟩ := iha
    obtain ⟨c, c1, c2, c3, _, c4⟩ := ihl
    refine ⟨⟨.cmd, s% "L"⟩ :: (v ++ (w ++ c)), scanTo_caps (w := s% "L") (by simp) (scanTo_body v1 hg' b1 b2 h1 c2 c1) (v2.more _) hg,
      .inr ⟨_, _, rfl, by decide, by decide⟩, fresh_cmd (by simp) _, fun _ _ _ _ => ⟨⟨_, _, rfl, by decide⟩, _, _, rfl, rfl⟩, fun r hr => ?_⟩
    have := ev_next (k := ⟨.cmd, s% "L"⟩) (u := v ++ w) ⟨rfl, by decide⟩ (by
      rw [List.append_assoc]
      exact ev_command (c := .LOOP) rfl v3.whole b3 b4 (fresh_isT c3 hr).1) (c4 r hr)
    simpa [Stm.trees, Stm.tree] using this
  | @iter x e a l t ta u g g' g1 g2 g3 hx h ha hl hg h1 h2 hg' h3 iha ihl =>
    obtain ⟨v, v1, v2, _, v3⟩ := ex_ok h
    obtain ⟨w, b1, b2, b3, b4⟩ := iha
    obtain ⟨c, c1, c2, c3, _, c4⟩ := ihl
    have hw := parses_prefix v3 (q := op1 (s% ",")) (by decide +kernel) (by decide) (by decide)
    rw [show (op1 (s% ",")).text = s% "," by decide] at hw
    have s1 := scanTo_letter hx (by decide) h1 (scanTo_op (c := ',') (by decide) (scanTo_body v1 hg' b1 b2 h3 c2 c1) (v2.more _) h2)
    refine ⟨⟨.cmd, s% "F"⟩ :: ⟨.name, [x]⟩ :: ⟨.op, s% ","⟩ :: (v ++ (w ++ c)), scanTo_caps (w := s% "F") (by simp) s1 ⟨_, _, rfl, (letter_ok x hx).1⟩ hg,
      .inr ⟨_, _, rfl, by decide, by decide⟩, fresh_cmd (by simp) _, fun _ _ _ _ => ⟨⟨_, _, rfl, by decide⟩, _, _, rfl, rfl⟩, fun r hr => ?_⟩
    have := ev_next (k := ⟨.cmd, s% "F"⟩) (u := ⟨.name, [x]⟩ :: ⟨.op, s% ","⟩ :: (v ++ w)) ⟨rfl, by decide⟩ (by
      have e1 : (⟨.name, [x]⟩ : Tok) :: ⟨.op, s% ","⟩ :: (v ++ w) ++ (c ++ r) = ⟨.name, [x]⟩ :: (⟨.op, s% ","⟩ :: v ++ (w ++ (c ++ r))) := by simp
      rw [e1]
      exact ev_for hw b3 b4 (fresh_isT c3 hr).1) (c4 r hr)
    simpa [Stm.trees, Stm.tree] using this
  | @braces l u g g' h hg hg' ih =>
    obtain ⟨b, g1, g2, _, _, g4⟩ := ih
    refine ⟨tLc :: (b ++ [tRc]), fun y => ?_, ⟨_, rfl⟩, ⟨_, rfl⟩, fun r => ?_⟩
    · have e1 : '{' :: (g ++ (u ++ (g' ++ s% "}"))) ++ y = '{' :: (g ++ (u ++ (g' ++ '}' :: y))) := by simp
      have e2 : (g ++ (u ++ (g' ++ '}' :: y))).head? ≠ some ';' := by
        rcases hg.1 with h | h | h
        · subst h
          rcases g2 with rfl | ⟨c, cs, rfl, _, h⟩
          · rcases hg' with rfl | rfl | rfl <;> simp
          · simpa using h
        · subst h; simp
        · subst h; simp
      obtain ⟨d, w, e, hd⟩ := sep_end hg' (c := '}') (by decide) y
      rw [e1, scanAll_brace _ e2, scanAll_sepOf hg g2, e, g1 d w hd, ← e, scanAll_sep hg' _ (by decide) (by decide), scanAll_sym (by decide),
        prefixed_prefixed, prefixed_prefixed]
      simp [tLc, tRc]
    · have e : tLc :: (b ++ [tRc]) ++ r = tLc :: (b ++ tRc :: r) := by simp
      rw [e]
      exact ev_block g4 r

theorem code_ne {m : Bool} {l : List Stm} {t : Str} (h : Code m l t) (hl : l ≠ []) : t ≠ [] := by
  cases h with
  | nil => exact absurd rfl hl
  | last h =>
    obtain ⟨_, _, ⟨c, cs, rfl, _⟩, _⟩ := simple_ok h
    simp
  | semi h => simp
  | next h =>
    obtain ⟨_, _, ⟨c, cs, rfl, _⟩, _⟩ := simple_ok h
    simp
  | _ => simp

/-- The whole program -/
theorem code_parse {l : List Stm} {t : Str} (h : Code false l t) (hl : l ≠ []) : parseText t = .ok (Stm.trees l) := by
  obtain ⟨u, h1, h2, h3, _, h5⟩ := code_ok h
  have h6 := h5 [] (.inl rfl)
  rw [List.append_nil] at h6
  obtain ⟨c, cs, rfl, c1, c2⟩ : ∃ c cs, t = c :: cs ∧ isSpace c = false ∧ c ≠ ';' := by
    rcases h2 with h2 | h2
    · exact absurd h2 (code_ne h hl)
    · exact h2
  have hs : scan (c :: cs) = .ok (emb u) := by
    have : tokenize (c :: cs ++ s% "\n") = .ok (u.map some) := by
      rw [tokenize_eq]
      have e3 : scanAll ['\n'] = .ok [] := by decide +kernel
      have e1 : '\n' :: (c :: cs ++ s% "\n") = '\n' :: c :: (cs ++ s% "\n") := rfl
      have e2 : c :: (cs ++ s% "\n") = c :: cs ++ '\n' :: [] := rfl
      rw [e1, scanAll_first _ c1 c2, e2, h1 _ _ (by decide), e3]
      simp [Scan.prefixed]
    unfold scan
    rw [this]; rfl
  unfold parseText
  rw [hs]
  exact parseAll_ev hs h6

end Pip.Wh
