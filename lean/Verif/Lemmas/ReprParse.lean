import Verif.Lemmas.ReprVal
/-! Parsing the canonical texts of data. -/

set_option linter.unusedSimpArgs false

namespace Pip
open Rgx Scan PP
open Parse (escaped group attach)

def negOp : Op := (findOp ops1 (s% "-")).getD parenOp
def commaOp : Op := (findOp ops2 (s% ",")).getD parenOp

/-- The parse tree of the canonical text of a Scalar -/
def scalarTree (s : Str) : Tree :=
  if wholeNum s then
    match s with
    | '-' :: r => .node negOp [.tok ⟨.num, r⟩]
    | _ => .tok ⟨.num, s⟩
  else if s.elem '"' then escaped ⟨.esc, s% "\\\"" ++ dbl s ++ s% "\\\""⟩
  else .tok ⟨.str, s% "\"" ++ s ++ s% "\""⟩

def boundTree : Option Int → Tree
  | some i => scalarTree (showInt i)
  | none => .tok ⟨.nil, s% "()"⟩

def ascOp : Op := (findOp ops1 (s% "A")).getD parenOp
def upToOp : Op := (findOp ops1 (s% ",")).getD parenOp
def dotOp : Op := (findOp ops1 (s% ".")).getD parenOp

/-- A unary operator if the flag is set -/
def flagged (b : Bool) (o : Op) (t : Tree) : Tree := if b then .node o [t] else t

/-- The parse tree of the canonical text of a Pattern -/
def patTree (r : Str) (f : Flags) : Tree :=
  flagged f.a ascOp (flagged f.i negOp (flagged f.m upToOp (flagged f.s dotOp (.tok ⟨.pat, patText r⟩))))

mutual
def valTree : Val → Tree
  | .scalar s => scalarTree s
  | .pattern r f => patTree r f
  | .range lo hi => .node parenOp [.node commaOp [boundTree lo, boundTree hi]]
  | .list l => .node enlistOp (valTrees l)
  | _ => .tok ⟨.nil, s% "()"⟩
def valTrees : List Val → List Tree
  | [] => []
  | v :: l => valTree v :: valTrees l
end

theorem scalarToks_num {s : Str} (h : NumLit s) : scalarToks s = [⟨.num, s⟩] := by
  unfold scalarToks
  rw [if_pos ((wholeNum_iff s).2 (.inl h))]
  obtain ⟨c, cs, rfl, hc, _⟩ := (numLit_iff s).1 h
  split
  · rename_i r e; cases e; exact absurd hc (by decide)
  · rfl

theorem scalarTree_num {s : Str} (h : NumLit s) : scalarTree s = .tok ⟨.num, s⟩ := by
  unfold scalarTree
  rw [if_pos ((wholeNum_iff s).2 (.inl h))]
  obtain ⟨c, cs, rfl, hc, _⟩ := (numLit_iff s).1 h
  split
  · rename_i r e; cases e; exact absurd hc (by decide)
  · rfl

theorem scalarToks_neg {s : Str} (h : NumLit s) : scalarToks ('-' :: s) = [tNeg, ⟨.num, s⟩] := by
  unfold scalarToks
  rw [if_pos ((wholeNum_iff _).2 (.inr ⟨s, rfl, h⟩))]; rfl

theorem scalarTree_neg {s : Str} (h : NumLit s) : scalarTree ('-' :: s) = .node negOp [.tok ⟨.num, s⟩] := by
  unfold scalarTree
  rw [if_pos ((wholeNum_iff _).2 (.inr ⟨s, rfl, h⟩))]; rfl

/-- No operator follows. -/
def NoOp (r : List Tok) : Prop := ∀ t ∈ r.head?, t.kind ≠ .op

theorem noOp_cons {t : Tok} (h : t.kind ≠ .op) (r : List Tok) : NoOp (t :: r) := by
  intro u hu; simp at hu; subst hu; exact h

theorem ev_loop_stop {r : List Tok} (h : NoOp r) (m : Int) (e : Tree) : Ev (fun n => exprLoop n m e r) (.ok (e, r)) := by
  refine ev_const fun n => ?_
  cases r with
  | nil => rfl
  | cons t r =>
    have : t.kind ≠ .op := h t (by simp)
    simp only [exprLoop, if_neg this]

/-- A number, possibly with a sign, is an operand. -/
theorem parse_num (s : Str) (hw : wholeNum s = true) {r : List Tok}
    (hr : NoOp r ∨ ∃ u, r = tComma :: u ∧ isT u (s% ":") = false) :
    Ev (fun n => parseOperand n (scalarToks s ++ r)) (.ok (scalarTree s, r)) := by
  rcases (wholeNum_iff s).1 hw with h | ⟨q, rfl, h⟩
  · rw [scalarToks_num h, scalarTree_num h]
    exact ev_const fun n => rfl
  · rw [scalarToks_neg h, scalarTree_neg h]
    obtain ⟨c, cs, rfl, hc, _⟩ := (numLit_iff q).1 h
    have hn1 : isT (⟨.num, c :: cs⟩ :: r) (s% "*") = false := by
      simp [isT]; exact fun e => absurd hc (by rw [e]; decide)
    have hn2 : isT (⟨.num, c :: cs⟩ :: r) (s% ":") = false := by
      simp [isT]; exact fun e => absurd hc (by rw [e]; decide)
    have hloop : Ev (fun n => exprLoop n ((negOp.prec : Int) + 1) (.tok ⟨.num, c :: cs⟩) r)
        (.ok (.tok ⟨.num, c :: cs⟩, r)) := by
      rcases hr with h | ⟨u, rfl, hu⟩
      · exact ev_loop_stop h _ _
      · refine ev_const fun n => ?_
        simp only [exprLoop, tComma, if_true]
        rw [show (findOp ops2 (s% ",")).or (findOp ops3 (s% ",")) = some commaOp by decide +kernel]
        simp only [hu, Bool.false_eq_true, if_false]
        rw [if_pos (by decide +kernel)]
    have h1 : Ev (fun n => parseExpr n ((negOp.prec : Int) + 1) (⟨.num, c :: cs⟩ :: r)) (.ok (.tok ⟨.num, c :: cs⟩, r)) := by
      refine ev_succ (ev_andThen (a := .tok ⟨.num, c :: cs⟩) (r := r) (ev_const fun n => rfl) (ev_andThen hloop ?_))
        fun n => rfl
      rw [if_neg (by decide +kernel)]
      exact ev_ok
    have h2 : Ev (fun n => unaryOperand n negOp (⟨.num, c :: cs⟩ :: r)) (.ok (.node negOp [.tok ⟨.num, c :: cs⟩], r)) :=
      ev_succ (ev_andThen h1 ev_ok) fun n => rfl
    have h3 : Ev (fun n => unary n negOp (⟨.num, c :: cs⟩ :: r)) (.ok (.node negOp [.tok ⟨.num, c :: cs⟩], r)) := by
      refine ev_succ h2 fun n => ?_
      simp only [unary, hn1, hn2, Bool.false_eq_true, if_false]
    refine ev_succ h3 fun n => ?_
    simp only [parseOperand, List.cons_append, List.nil_append]
    rfl

theorem scalarToks_head (s : Str) : ∃ t ts, scalarToks s = t :: ts ∧ t.text ≠ s% ")" ∧ t.text ≠ s% "]" ∧ t.text ≠ s% "}" ∧
    t.text ≠ s% ":" ∧ t.kind ≠ .cmd := by
  have hnum : ∀ {q : Str}, NumLit q → q ≠ s% ")" ∧ q ≠ s% "]" ∧ q ≠ s% "}" ∧ q ≠ s% ":" := by
    intro q h
    obtain ⟨c, cs, rfl, hc, _⟩ := (numLit_iff q).1 h
    refine ⟨?_, ?_, ?_, ?_⟩ <;> (intro e; simp at e; rw [e.1] at hc; exact absurd hc (by decide))
  unfold scalarToks
  split
  · rename_i hw
    split
    · exact ⟨tNeg, _, rfl, by decide, by decide, by decide, by decide, by decide⟩
    · rename_i hne
      rcases (wholeNum_iff _).1 hw with h | ⟨r, rfl, h⟩
      · obtain ⟨a, b, c, d⟩ := hnum h
        exact ⟨_, _, rfl, a, b, c, d, by simp⟩
      · exact absurd rfl (hne r)
  · split
    · exact ⟨_, _, rfl, by simp, by simp, by simp, by simp, by simp⟩
    · exact ⟨_, _, rfl, by simp, by simp, by simp, by simp, by simp⟩

theorem valToks_head : ∀ v : Val, Data v → ∃ t ts, valToks v = t :: ts ∧ t.text ≠ s% ")" ∧ t.text ≠ s% "]" ∧
    t.text ≠ s% "}" ∧ t.text ≠ s% ":" ∧ t.kind ≠ .cmd := by
  intro v h
  cases h with
  | scalar s => rw [valToks]; exact scalarToks_head s
  | @pattern r f _ =>
    rw [valToks]
    obtain ⟨a, i, m, s⟩ := f
    cases a <;> cases i <;> cases m <;> cases s <;>
      exact ⟨_, _, rfl, by simp [patText, tNeg, tComma], by simp [patText, tNeg, tComma], by simp [patText, tNeg, tComma],
        by simp [patText, tNeg, tComma], by simp [patText, tNeg, tComma]⟩
  | range lo hi => rw [valToks]; exact ⟨_, _, rfl, by simp, by simp, by simp, by simp, by simp⟩
  | nil => rw [valToks]; exact ⟨_, _, rfl, by simp, by simp, by simp, by simp, by simp⟩
  | list l _ => rw [valToks]; exact ⟨_, _, rfl, by simp, by simp, by simp, by simp, by simp⟩

theorem ev_nilPair (r : List Tok) : Ev (fun n => parseOperand n (⟨.sym, s% "("⟩ :: ⟨.sym, s% ")"⟩ :: r))
    (.ok (.tok ⟨.nil, s% "()"⟩, r)) := by
  have h : Ev (fun n => exprList n (s% ")") (⟨.sym, s% ")"⟩ :: r)) (.ok ([], r)) := ev_const fun n => rfl
  exact ev_succ (ev_andThen h (f := fun n l ts => .ok (group l, ts)) ev_ok) fun n => rfl

theorem wholeNum_showInt (i : Int) : wholeNum (showInt i) = true := (wholeNum_iff _).2 (by
  rcases showInt_num i with h | ⟨r, e, h⟩
  · exact .inl h
  · exact .inr ⟨r, e, h⟩)

theorem parse_bound (b : Option Int) {r : List Tok} (hr : NoOp r ∨ ∃ u, r = tComma :: u ∧ isT u (s% ":") = false) :
    Ev (fun n => parseOperand n (boundToks b ++ r)) (.ok (boundTree b, r)) := by
  cases b with
  | none => exact ev_nilPair r
  | some i => exact parse_num _ (wholeNum_showInt i) hr

theorem bound_colon (b : Option Int) (r : List Tok) : isT (boundToks b ++ r) (s% ":") = false := by
  cases b with
  | none => rfl
  | some i =>
    obtain ⟨t, ts, e, _, _, _, h, _⟩ := scalarToks_head (showInt i)
    simp only [boundToks, e, List.cons_append, isT]
    simpa using h

/-- The pair of bounds -/
theorem parse_pair (lo hi : Option Int) (r : List Tok) :
    Ev (fun n => parseExpr n (-1) (boundToks lo ++ tComma :: (boundToks hi ++ ⟨.sym, s% ")"⟩ :: r)))
      (.ok (.node commaOp [boundTree lo, boundTree hi], ⟨.sym, s% ")"⟩ :: r)) := by
  have hstop : NoOp (⟨.sym, s% ")"⟩ :: r) := noOp_cons (by simp) r
  have hcol := bound_colon hi (⟨.sym, s% ")"⟩ :: r)
  have hatt : attach commaOp [boundTree hi] (boundTree lo) = .node commaOp [boundTree lo, boundTree hi] := by
    have h1 : ∀ t, attach commaOp [boundTree hi] (.tok t) = .node commaOp [.tok t, boundTree hi] := fun t => by
      simp [attach]
    have h2 : ∀ t, attach commaOp [boundTree hi] (.node negOp [.tok t]) = .node commaOp [.node negOp [.tok t], boundTree hi] := by
      intro t
      unfold attach
      rw [if_neg (by decide +kernel), if_neg (by decide +kernel)]
    cases lo with
    | none => exact h1 _
    | some i =>
      rcases showInt_num i with h | ⟨r, e, h⟩
      · rw [boundTree, scalarTree_num h]; exact h1 _
      · rw [boundTree, e, scalarTree_neg h]; exact h2 _
  refine ev_succ (ev_andThen (parse_bound lo (.inr ⟨_, rfl, hcol⟩))
    (ev_andThen (a := .node commaOp [boundTree lo, boundTree hi]) (r := ⟨.sym, s% ")"⟩ :: r) ?_ ?_)) fun n => rfl
  · refine ev_succ (g := fun n => operands n (-1) (boundTree lo) commaOp (boundToks hi ++ ⟨.sym, s% ")"⟩ :: r)) ?_ ?_
    · refine ev_succ (ev_andThen (parse_bound hi (.inl hstop)) (f := fun n x ts => exprLoop n (-1) (attach commaOp [x] (boundTree lo)) ts) ?_)
        fun n => ?_
      · rw [hatt]; exact ev_loop_stop hstop _ _
      · simp only [operands]
        rw [if_neg (by decide +kernel), if_neg (by decide +kernel)]
    · intro n
      simp only [exprLoop, tComma, if_true]
      rw [show (findOp ops2 (s% ",")).or (findOp ops3 (s% ",")) = some commaOp by decide +kernel]
      simp only [hcol, Bool.false_eq_true, if_false]
      rw [if_neg (by decide +kernel)]
  · exact ev_ok

/-- Escaped strings and plain strings -/
theorem parse_scalar (s : Str) {r : List Tok} (hr : NoOp r) :
    Ev (fun n => parseOperand n (scalarToks s ++ r)) (.ok (scalarTree s, r)) := by
  by_cases hw : wholeNum s = true
  · exact parse_num s hw (.inl hr)
  · unfold scalarToks scalarTree
    rw [if_neg hw, if_neg hw]
    split <;> exact ev_const fun n => rfl

/-- A unary operator before an operand -/
theorem parse_unary {t : Str} {o : Op} (ht : t ∈ [s% "A", s% "-", s% ",", s% "."]) (ho : findOp ops1 t = some o) (hp : ((o.prec : Int) + 1 = -1) = False)
    {ts r : List Tok} {e : Tree} (h : Ev (fun n => parseOperand n ts) (.ok (e, r))) (hr : NoOp r)
    (h1 : isT ts (s% "*") = false) (h2 : isT ts (s% ":") = false) :
    Ev (fun n => parseOperand n (⟨.op, t⟩ :: ts)) (.ok (.node o [e], r)) := by
  have h3 : Ev (fun n => parseExpr n ((o.prec : Int) + 1) ts) (.ok (e, r)) := by
    refine ev_succ (ev_andThen h (ev_andThen (ev_loop_stop hr _ e) ?_)) fun n => rfl
    rw [if_neg (by rw [hp]; exact id)]
    exact ev_ok
  have h4 : Ev (fun n => unaryOperand n o ts) (.ok (.node o [e], r)) := ev_succ (ev_andThen h3 ev_ok) fun n => rfl
  have h5 : Ev (fun n => unary n o ts) (.ok (.node o [e], r)) := by
    refine ev_succ h4 fun n => ?_
    simp only [unary, h1, h2, Bool.false_eq_true, if_false]
  refine ev_succ h5 fun n => ?_
  have ht : t = s% "A" ∨ t = s% "-" ∨ t = s% "," ∨ t = s% "." := by simpa using ht
  rcases ht with rfl | rfl | rfl | rfl <;> simp [parseOperand, ho, Tok.isLiteral]

theorem parse_pattern (q : Str) (f : Flags) {r : List Tok} (hr : NoOp r) :
    Ev (fun n => parseOperand n (valToks (.pattern q f) ++ r)) (.ok (patTree q f, r)) := by
  have h0 : Ev (fun n => parseOperand n (⟨.pat, patText q⟩ :: r)) (.ok (.tok ⟨.pat, patText q⟩, r)) := ev_const fun n => rfl
  have hn : ∀ c, c ≠ '`' → isT (⟨.pat, patText q⟩ :: r) [c] = false := by
    intro c hc
    simp [isT, patText]
  have ha : findOp ops1 (s% "A") = some ascOp := by decide +kernel
  have hi : findOp ops1 (s% "-") = some negOp := by decide +kernel
  have hm : findOp ops1 (s% ",") = some upToOp := by decide +kernel
  have hs : findOp ops1 (s% ".") = some dotOp := by decide +kernel
  rw [valToks]
  obtain ⟨a, i, m, s⟩ := f
  cases a <;> cases i <;> cases m <;> cases s <;>
    simp only [flagToks, patTree, flagged, if_true, Bool.false_eq_true, if_false, List.append_nil, List.nil_append,
      List.cons_append, tNeg, tComma] <;>
    repeat' first
      | exact h0
      | exact hr
      | exact hn _ (by decide)
      | rfl
      | refine parse_unary (by simp) ha (by decide +kernel) ?_ ?_ ?_ ?_
      | refine parse_unary (by simp) hi (by decide +kernel) ?_ ?_ ?_ ?_
      | refine parse_unary (by simp) hm (by decide +kernel) ?_ ?_ ?_ ?_
      | refine parse_unary (by simp) hs (by decide +kernel) ?_ ?_ ?_ ?_

/-- An operand followed by a semicolon or by a closing bracket is an expression. -/
theorem ev_expr {ts r : List Tok} {t : Tree} (h : ∀ r, NoOp r → Ev (fun n => parseOperand n (ts ++ r)) (.ok (t, r)))
    (hr : NoOp r) : Ev (fun n => parseExpr n (-1) (ts ++ r)) (semi t r) := by
  refine ev_succ (ev_andThen (h r hr) (ev_andThen (ev_loop_stop hr (-1) t) ?_)) fun n => rfl
  simp only [if_true]
  exact ⟨0, fun _ _ => rfl⟩

/-- One item of a List and the rest -/
theorem ev_items {v : Val} {l : List Val} {r : List Tok}
    (hv : ∀ {r : List Tok}, NoOp r → Ev (fun n => parseOperand n (valToks v ++ r)) (.ok (valTree v, r)))
    (hh : ∃ t ts, valToks v = t :: ts ∧ t.text ≠ s% ")" ∧ t.text ≠ s% "]" ∧ t.text ≠ s% "}" ∧ t.text ≠ s% ":" ∧ t.kind ≠ .cmd)
    (hl : l = [] ∧ restToks l = [] ∨ ∃ u, restToks l = ⟨.sym, s% ";"⟩ :: u ∧
      Ev (fun n => exprList n (s% "]") (u ++ ⟨.sym, s% "]"⟩ :: r)) (.ok (valTrees l, r))) :
    Ev (fun n => exprList n (s% "]") (valToks v ++ (restToks l ++ ⟨.sym, s% "]"⟩ :: r)))
      (.ok (valTree v :: valTrees l, r)) := by
  obtain ⟨t, ts, e, _, h1, _⟩ := hh
  have step : ∀ {x r'}, (x.head?.map (·.kind) = some Kind.sym) → semi (valTree v) x = .ok (valTree v, r') →
      Ev (fun n => exprList n (s% "]") r') (.ok (valTrees l, r)) →
      Ev (fun n => exprList n (s% "]") (valToks v ++ x)) (.ok (valTree v :: valTrees l, r)) := by
    intro x r' hx hs hr'
    have hno : NoOp x := by
      intro u hu
      rw [hu] at hx
      simp at hx
      rw [hx]; simp
    have he := ev_expr (ts := valToks v) (t := valTree v) (fun r hr => hv hr) hno
    rw [hs] at he
    refine ev_succ (ev_andThen (f := fun n e ts => andThen (exprList n (s% "]") ts) fun l ts => .ok (e :: l, ts)) he
      (ev_andThen (f := fun n l ts => .ok (valTree v :: l, ts)) hr' ev_ok)) fun n => ?_
    simp only [e, List.cons_append, exprList, if_neg h1]
  rcases hl with ⟨rfl, h⟩ | ⟨u, h, hu⟩
  · rw [h]
    exact step (x := ⟨.sym, s% "]"⟩ :: r) rfl rfl (by rw [valTrees]; exact ev_const fun n => rfl)
  · rw [h]
    exact step (x := ⟨.sym, s% ";"⟩ :: (u ++ ⟨.sym, s% "]"⟩ :: r)) rfl rfl hu

mutual
theorem parse_val : ∀ (v : Val), Data v → ∀ {r : List Tok}, NoOp r →
    Ev (fun n => parseOperand n (valToks v ++ r)) (.ok (valTree v, r))
  | .scalar s, _, r, hr => by rw [valToks, valTree]; exact parse_scalar s hr
  | .pattern q f, _, r, hr => by rw [valTree]; exact parse_pattern q f hr
  | .nil, _, r, _ => by simp only [valToks, valTree]; exact ev_nilPair r
  | .range lo hi, _, r, hr => by
    rw [valToks, valTree]
    obtain ⟨t, ts, e, h1⟩ : ∃ t ts, boundToks lo = t :: ts ∧ t.text ≠ s% ")" := by
      cases lo with
      | none => exact ⟨_, _, rfl, by simp⟩
      | some i =>
        obtain ⟨t, ts, e, h, _⟩ := scalarToks_head (showInt i)
        exact ⟨t, ts, e, h⟩
    have h : Ev (fun n => exprList n (s% ")") (boundToks lo ++ tComma :: (boundToks hi ++ ⟨.sym, s% ")"⟩ :: r)))
        (.ok ([.node commaOp [boundTree lo, boundTree hi]], r)) := by
      refine ev_succ (ev_andThen (f := fun n e ts => andThen (exprList n (s% ")") ts) fun l ts => .ok (e :: l, ts))
        (parse_pair lo hi r) (ev_andThen (f := fun n l ts => .ok (Tree.node commaOp [boundTree lo, boundTree hi] :: l, ts)) (x := fun n => exprList n (s% ")") (⟨.sym, s% ")"⟩ :: r)) (a := []) (r := r) (ev_const fun n => rfl) ev_ok))
        fun n => ?_
      simp only [e, List.cons_append, exprList, if_neg h1]
    have e2 : (⟨.sym, s% "("⟩ :: (boundToks lo ++ tComma :: (boundToks hi ++ [⟨.sym, s% ")"⟩])) : List Tok) ++ r =
        ⟨.sym, s% "("⟩ :: (boundToks lo ++ tComma :: (boundToks hi ++ ⟨.sym, s% ")"⟩ :: r)) := by simp
    rw [e2]
    exact ev_succ (ev_andThen h (f := fun n l ts => .ok (group l, ts)) ev_ok) fun n => rfl
  | .list [], _, r, _ => by
    rw [valToks, valTree, itemToks, valTrees]
    have h : Ev (fun n => exprList n (s% "]") (⟨.sym, s% "]"⟩ :: r)) (.ok ([], r)) := ev_const fun n => rfl
    exact ev_succ (ev_andThen h (f := fun n l ts => .ok (.node enlistOp l, ts)) ev_ok) fun n => rfl
  | .list (v :: l), hd, r, _ => by
    rw [valToks, valTree, itemToks, valTrees]
    have e2 : (⟨.sym, s% "["⟩ :: (valToks v ++ restToks l ++ [⟨.sym, s% "]"⟩]) : List Tok) ++ r =
        ⟨.sym, s% "["⟩ :: (valToks v ++ (restToks l ++ ⟨.sym, s% "]"⟩ :: r)) := by simp
    rw [e2]
    have h := ev_items (parse_val v (data_list hd v (by simp))) (valToks_head v (data_list hd v (by simp)))
      (parse_rest l (fun w hw => data_list hd w (by simp [hw])) r)
    exact ev_succ (ev_andThen h (f := fun n l ts => .ok (.node enlistOp l, ts)) ev_ok) fun n => rfl
theorem parse_rest : ∀ (l : List Val), (∀ v ∈ l, Data v) → ∀ (r : List Tok),
    (l = [] ∧ restToks l = [] ∨ ∃ u, restToks l = ⟨.sym, s% ";"⟩ :: u ∧
      Ev (fun n => exprList n (s% "]") (u ++ ⟨.sym, s% "]"⟩ :: r)) (.ok (valTrees l, r)))
  | [], _, r => .inl ⟨rfl, by rw [restToks]⟩
  | v :: l, h, r => by
    refine .inr ⟨_, by rw [restToks], ?_⟩
    rw [valTrees, List.append_assoc]
    exact ev_items (parse_val v (h v (by simp))) (valToks_head v (h v (by simp)))
      (parse_rest l (fun w hw => h w (by simp [hw])) r)
end

end Pip
