import Verif.Lemmas.ShowBlocks
/-! Displaying what was displayed and parsed again, and what becomes of texts that lose their last character. -/

set_option linter.unusedSimpArgs false

namespace Pip
open Rgx Scan PP
open Parse (assignOp escaped group attach interp interpName escTok joinOp strOp)

/-- The tree that a text parses to is displayed by this text. -/
theorem Sh.again {c l s u l'} (h : Sh c l s u l') : Sh c l' s u l' := by
  induction h with
  | tok h => exact .tok h
  | nil => exact .nil
  | paren _ ih => exact .paren ih
  | empty => exact .empty
  | list _ ih => exact .list ih
  | send _ h ih => exact .send ih h
  | block _ ih => exact .block ih
  | opClosed _ ih => exact .opClosed ih
  | opWrapped _ ih => exact .opClosed (.paren (.exOper ih))
  | unary h1 h2 _ ih => exact .unary h1 h2 ih
  | binary h1 h2 h3 h4 _ _ ih1 ih2 => exact .binary h1 h2 h3 h4 ih1 ih2
  | ternary h1 h2 h3 h4 _ _ _ ih1 ih2 ih3 => exact .ternary h1 h2 h3 h4 ih1 ih2 ih3
  | chain _ _ ih1 ih2 => exact .chain ih1 ih2
  | link h1 h2 _ ih => exact .link h1 h2 ih
  | links h1 h2 _ _ ih1 ih2 => exact .links h1 h2 ih1 ih2
  | exClosed _ ih => exact .exClosed ih
  | exOper _ ih => exact .exOper ih
  | item _ ih => exact .item ih
  | items _ _ ih1 ih2 => exact .items ih1 ih2
  | stExpr _ ih => exact .stExpr ih
  | stCmd _ ih => exact .stCmd ih
  | stOne _ ih => exact .stOne ih
  | stMore _ _ ih1 ih2 => exact .stMore ih1 ih2
  | bodyNil => exact .bodyNil
  | body h _ ih => exact .body h ih
  | name h1 h2 => exact .name h1 h2
  | nameList _ ih => exact .nameList ih
  | nameOne _ ih => exact .nameOne ih
  | nameMore _ _ ih1 ih2 => exact .nameMore ih1 ih2
  | argsNil => exact .argsNil
  | argEls _ _ ih1 ih2 => exact .argEls ih1 ih2
  | argCode _ _ ih1 ih2 => exact .argCode ih1 ih2
  | argVar _ _ h1 h2 ih1 ih2 => exact .argVar ih1 ih2 h1 h2
  | argExpr _ _ h1 h2 ih1 ih2 => exact .argExpr ih1 ih2 h1 h2

def TextGoal : Cat → List Tree → Str → Prop
  | .closed, l, s => ∃ e, l = [e] ∧ ExprTree e ∧ s = unparseExpr e ∧ opTree e = false
  | .oper, l, s => ∃ e, l = [e] ∧ ExprTree e ∧ s = unparseExpr e ∧ opTree e = true
  | .expr, l, s => ∃ e, l = [e] ∧ ExprTree e ∧ s = unparseExpr e
  | .operand, l, s => ∃ e, l = [e] ∧ ExprTree e ∧ s = operandText e
  | .items, l, s | .nameItems, l, s => s = joinStr (s% "; ") (unparseExprs l)
  | .links, l, s => s = joinStr (s% " ") (unparseOperands l)
  | .stmt, l, s => ∃ e, l = [e] ∧ s = unparseStmt e
  | .stmts, l, s => unparseStmts l = s ++ s% "; "
  | .body, l, s => stripChars (s% "; ") (unparseStmts l) = s
  | .names, l, s => ∃ e, l = [e] ∧ s = unparseExpr e
  | .args as, l, s => s = unparseArgs as l

/-- The text is the one the code displays. -/
theorem Sh.text {c l s u l'} (h : Sh c l s u l') : TextGoal c l s := by
  induction h with
  | tok h => exact ⟨_, rfl, trivial, by simp [unparseExpr], rfl⟩
  | nil => exact ⟨_, rfl, trivial, by simp [unparseExpr, tNil], rfl⟩
  | paren _ ih =>
    obtain ⟨e, h1, h2, rfl⟩ := ih
    simp at h1; subst h1
    exact ⟨_, rfl, .inr (.inl paren_br), by simp [unparseExpr, unparseNode, brackets_text, unparseExprs], bracket_opTree paren_br _⟩
  | empty => exact ⟨_, rfl, .inr (.inl enlist_br), by simp [unparseExpr, unparseNode, brackets_text, unparseExprs, joinStr], bracket_opTree enlist_br _⟩
  | list _ ih =>
    cases ih
    exact ⟨_, rfl, .inr (.inl enlist_br), by simp [unparseExpr, unparseNode, brackets_text], bracket_opTree enlist_br _⟩
  | send _ _ ih =>
    cases ih
    exact ⟨_, rfl, .inr (.inl send_br), by simp [unparseExpr, unparseNode, brackets_text], bracket_opTree send_br _⟩
  | block _ ih =>
    cases ih
    exact ⟨_, rfl, .inr (.inl block_br), by simp [unparseExpr, unparseNode, brackets_text, unparseBody], bracket_opTree block_br _⟩
  | opClosed _ ih =>
    obtain ⟨e, rfl, h2, rfl, h3⟩ := ih
    exact ⟨e, rfl, h2, by simp [operandText, h3]⟩
  | opWrapped _ ih =>
    obtain ⟨e, h1, h2, rfl, h3⟩ := ih
    simp at h1; subst h1
    exact ⟨_, rfl, h2, by simp [operandText, h3]⟩
  | @unary op e e' s u h1 h2 _ ih =>
    obtain ⟨e, h, h3, rfl⟩ := ih
    simp at h; subst h
    have hne := text_ne h1.mem
    exact ⟨_, rfl, .inl h1.mem, by simp [unparseExpr, unparseNode, hne, h1.arity, operands_cons h3], by simp [opTree, text_not_bracket h1.mem]⟩
  | binary h1 h2 h3 h4 _ _ ih1 ih2 =>
    obtain ⟨e, h, h5, rfl⟩ := ih1
    obtain ⟨f, h', h6, rfl⟩ := ih2
    simp at h h'; subst h h'
    have hne := text_ne h1.mem
    have ha := h1.arity.resolve_right h3
    exact ⟨_, rfl, .inl h1.mem, by simp [unparseExpr, unparseNode, hne, ha, operands_cons h5, operands_cons h6], by simp [opTree, text_not_bracket h1.mem]⟩
  | ternary h1 h2 h3 h4 _ _ _ ih1 ih2 ih3 =>
    obtain ⟨e, h, h5, rfl⟩ := ih1
    obtain ⟨f, h', h6, rfl⟩ := ih2
    obtain ⟨g, h'', h7, rfl⟩ := ih3
    simp at h h' h''; subst h h' h''
    have hne := text_ne h1.mem
    exact ⟨_, rfl, .inl h1.mem, by simp [unparseExpr, unparseNode, hne, h3, operands_cons h5, operands_cons h6, operands_cons h7],
      by simp [opTree, text_not_bracket h1.mem]⟩
  | chain _ h2 ih1 ih2 =>
    obtain ⟨e, h, h5, rfl⟩ := ih1
    simp at h; subst h
    cases ih2
    refine ⟨_, rfl, .inr (.inr rfl), ?_, by simp [opTree, chain_not_bracket]⟩
    simp [unparseExpr, chain_eq, operands_cons h5, joinStr_more _ _ (links_ne h2)]
  | link h1 h2 _ ih =>
    obtain ⟨e, h, h5, rfl⟩ := ih
    simp at h; subst h
    simp [TextGoal, operands_opr, operands_cons h5, joinStr, unparseOperands]
  | links h1 h2 _ h4 ih1 ih2 =>
    obtain ⟨e, h, h5, rfl⟩ := ih1
    simp at h; subst h
    cases ih2
    rw [TextGoal, operands_opr, operands_cons h5, joinStr_more _ _ (by simp), joinStr_more _ _ (links_ne h4)]
    simp
  | exClosed _ ih =>
    obtain ⟨e, rfl, h2, rfl, _⟩ := ih
    exact ⟨e, rfl, h2, rfl⟩
  | exOper _ ih =>
    obtain ⟨e, rfl, h2, rfl, _⟩ := ih
    exact ⟨e, rfl, h2, rfl⟩
  | item _ ih =>
    obtain ⟨e, h, h2, rfl⟩ := ih
    simp at h; subst h
    simp [TextGoal, unparseExprs, joinStr]
  | items _ h2 ih1 ih2 =>
    obtain ⟨e, h, _, rfl⟩ := ih1
    simp at h; subst h
    cases ih2
    rw [TextGoal, unparseExprs, joinStr_more _ _ (items_ne h2 (.inl rfl))]
    simp
  | stExpr _ ih =>
    obtain ⟨e, rfl, h2, rfl⟩ := ih
    exact ⟨e, rfl, (stmt_expr h2).symm⟩
  | stCmd _ ih => cases ih; exact ⟨_, rfl, by simp [unparseStmt]⟩
  | stOne _ ih =>
    obtain ⟨e, h, rfl⟩ := ih
    simp at h; subst h
    simp [TextGoal, unparseStmts]
  | stMore _ _ ih1 ih2 =>
    obtain ⟨e, h, rfl⟩ := ih1
    simp at h; subst h
    simp only [TextGoal] at ih2 ⊢
    rw [unparseStmts, ih2]; simp
  | bodyNil => simp [TextGoal, unparseStmts, stripChars, lstripChars, rstripChars]
  | body h h2 ih =>
    simp only [TextGoal] at ih ⊢
    rw [ih]; exact strip_stmts h2 h
  | name => exact ⟨_, rfl, by simp [unparseExpr]⟩
  | nameList _ ih => cases ih; exact ⟨_, rfl, by simp [unparseExpr, unparseNode, brackets_text]⟩
  | nameOne _ ih =>
    obtain ⟨e, h, rfl⟩ := ih
    simp at h; subst h
    simp [TextGoal, unparseExprs, joinStr]
  | nameMore _ h2 ih1 ih2 =>
    obtain ⟨e, h, rfl⟩ := ih1
    simp at h; subst h
    cases ih2
    rw [TextGoal, unparseExprs, joinStr_more _ _ (items_ne h2 (.inr rfl))]
    simp
  | argsNil => simp [TextGoal, unparseArgs]
  | argEls _ _ ih1 ih2 => cases ih1; cases ih2; simp [TextGoal, unparseArgs]
  | argCode _ _ ih1 ih2 => cases ih1; cases ih2; simp [TextGoal, unparseArgs]
  | argVar _ _ h1 h2 ih1 ih2 =>
    obtain ⟨e, h, rfl⟩ := ih1
    simp at h; subst h
    cases ih2
    rw [TextGoal, args_plain (by simp) (by simp)]
  | argExpr _ _ h1 h2 ih1 ih2 =>
    obtain ⟨e, h, _, rfl⟩ := ih1
    simp at h; subst h
    cases ih2
    rw [TextGoal, args_plain (by simp) (by simp)]

/-! ### Texts that lose their last character -/

def spoiled (s : Str) : Str := s.dropLast ++ s% "}"

def EndsBad (s : Str) : Prop := ∃ z ∈ s.getLast?, Bad z

theorem spoiled_append {s t : Str} (h : t ≠ []) : spoiled (s ++ t) = s ++ spoiled t := by
  unfold spoiled; rw [List.dropLast_append_of_ne_nil h]; simp
theorem spoiled_cons {c : Char} {t : Str} (h : t ≠ []) : spoiled (c :: t) = c :: spoiled t := spoiled_append (s := [c]) h

theorem tok_brace : TokOK ⟨.char, s% "'}"⟩ := by
  have h : scanAll (s% "'}") = .ok [some ⟨.char, s% "'}"⟩] := by decide +kernel
  have hs : Scanned ⟨.char, s% "'}"⟩ := solid_of_scan h rfl
  exact ⟨hs.1, hs.2, .inr rfl, by intro h; cases h⟩

def Quoted (s : Str) : Prop := ∃ y, s = y ++ s% "'}"

theorem Quoted.append {t : Str} (h : Quoted t) (s : Str) : Quoted (s ++ t) := by
  obtain ⟨y, rfl⟩ := h; exact ⟨s ++ y, by simp⟩
theorem Quoted.cons {t : Str} (h : Quoted t) (c : Char) : Quoted (c :: t) := h.append [c]

def SpoilGoal (c : Cat) (s : Str) : Prop :=
  match c with
  | .closed | .operand | .oper | .expr | .stmt => EndsBad s → Quoted (spoiled s) ∧ ∃ e u e', Sh c [e] (spoiled s) u [e']
  | .links | .stmts => EndsBad s → Quoted (spoiled s) ∧ ∃ l u l', Sh c l (spoiled s) u l'
  | _ => True

theorem endsBad_close {s : Str} {z : Char} (hz : ¬ Bad z) : ¬ EndsBad (s ++ [z]) := by
  rintro ⟨y, h1, h2⟩; simp at h1; subst h1; exact hz h2
theorem endsBad_close' {c : Char} {s : Str} {z : Char} (hz : ¬ Bad z) : ¬ EndsBad (c :: (s ++ [z])) :=
  endsBad_close (s := c :: s) hz

theorem EndsBad.append {s t : Str} (ht : t ≠ []) (h : EndsBad (s ++ t)) : EndsBad t := by
  obtain ⟨z, h1, h2⟩ := h
  rw [last_append _ ht] at h1
  exact ⟨z, h1, h2⟩
theorem EndsBad.cons {c : Char} {t : Str} (ht : t ≠ []) (h : EndsBad (c :: t)) : EndsBad t := EndsBad.append (s := [c]) ht h

theorem Sh.single {c l s u l'} (h : Sh c l s u l') (hc : c = .operand ∨ c = .stmt) : (∃ e, l = [e]) ∧ ∃ e', l' = [e'] := by
  have h1 := h.text
  have h2 := h.again.text
  rcases hc with rfl | rfl
  · obtain ⟨e, h, _⟩ := h1
    obtain ⟨f, h', _⟩ := h2
    exact ⟨⟨e, h⟩, f, h'⟩
  · obtain ⟨e, h, _⟩ := h1
    obtain ⟨f, h', _⟩ := h2
    exact ⟨⟨e, h⟩, f, h'⟩

/-- With a closing brace in place of the last character it is the text of another tree. -/
theorem Sh.spoil {c l s u l'} (h : Sh c l s u l') : SpoilGoal c s := by
  induction h with
  | @tok t h =>
    rintro ⟨z, hz, hb⟩
    have : spoiled t.text = s% "'}" := by rcases tok_last h hz hb with e | e <;> rw [e] <;> rfl
    rw [this]
    exact ⟨⟨[], rfl⟩, _, _, _, .tok tok_brace⟩
  | nil => rintro ⟨z, hz, hb⟩; simp at hz; subst hz; simp [Bad] at hb
  | empty => rintro ⟨z, hz, hb⟩; simp at hz; subst hz; simp [Bad] at hb
  | paren | list | send | block | opWrapped => exact fun h => absurd h (endsBad_close' (by simp [Bad]))
  | opClosed _ ih =>
    intro hb
    obtain ⟨q1, e, u, e', h⟩ := ih hb
    exact ⟨q1, e, u, e', .opClosed h⟩
  | @unary op e e' s u ho hc h ih =>
    intro hb
    have hne := h.ne ⟨by simp, by simp⟩
    obtain ⟨q1, f, v, f', hf⟩ := ih ((hb.append (by simp)).cons hne)
    rw [spoiled_append (by simp), spoiled_cons hne]
    exact ⟨((q1).cons _).append _, _, _, _, .unary ho hc hf⟩
  | @binary op e e' f f' s u t w h1 h2 h3 h4 h5 h ih1 ih =>
    intro hb
    have hne := h.ne ⟨by simp, by simp⟩
    obtain ⟨q1, g, v, g', hg⟩ := ih ((((hb.append (by simp)).cons (by simp)).append (by simp)).cons hne)
    rw [spoiled_append (by simp), spoiled_cons (by simp), spoiled_append (by simp), spoiled_cons hne]
    exact ⟨((((q1).cons _).append _).cons _).append _, _, _, _, .binary h1 h2 h3 h4 h5 hg⟩
  | @ternary op e e' f f' g g' s u t w q v h1 h2 h3 h4 h5 h6 h ih1 ih2 ih =>
    intro hb
    have hne := h.ne ⟨by simp, by simp⟩
    obtain ⟨q1, k, x, k', hk⟩ := ih ((((((hb.append (by simp)).cons (by simp)).append (by simp)).cons (by simp)).append (by simp)).cons (by simp) |>.cons hne)
    rw [spoiled_append (by simp), spoiled_cons (by simp), spoiled_append (by simp), spoiled_cons (by simp), spoiled_append (by simp),
      spoiled_cons (by simp), spoiled_cons hne]
    exact ⟨(((((((q1).cons _).cons _).append _).cons _).append _).cons _).append _, _, _, _, .ternary h1 h2 h3 h4 h5 h6 hk⟩
  | @chain e e' l l' s u t w h1 h _ ih =>
    intro hb
    have hne := h.ne ⟨by simp, by simp⟩
    obtain ⟨q1, m, x, m', hm⟩ := ih ((hb.append (by simp)).cons hne)
    rw [spoiled_append (by simp), spoiled_cons hne]
    exact ⟨((q1).cons _).append _, _, _, _, .chain h1 hm⟩
  | @link op e e' s u h1 h2 h ih =>
    intro hb
    have hne := h.ne ⟨by simp, by simp⟩
    obtain ⟨q1, f, x, f', hf⟩ := ih ((hb.append (by simp)).cons hne)
    rw [spoiled_append (by simp), spoiled_cons hne]
    exact ⟨((q1).cons _).append _, _, _, _, .link h1 h2 hf⟩
  | @links op e e' l l' s u t w h1 h2 h3 h _ ih =>
    intro hb
    have hne := h.ne ⟨by simp, by simp⟩
    obtain ⟨q1, m, x, m', hm⟩ := ih ((((hb.append (by simp)).cons (by simp)).append (by simp)).cons hne)
    rw [spoiled_append (by simp), spoiled_cons (by simp), spoiled_append (by simp), spoiled_cons hne]
    exact ⟨((((q1).cons _).append _).cons _).append _, _, _, _, .links h1 h2 h3 hm⟩
  | exClosed _ ih =>
    intro hb
    obtain ⟨q1, e, u, e', h⟩ := ih hb
    exact ⟨q1, e, u, e', .exClosed h⟩
  | exOper _ ih =>
    intro hb
    obtain ⟨q1, e, u, e', h⟩ := ih hb
    exact ⟨q1, e, u, e', .exOper h⟩
  | stExpr _ ih =>
    intro hb
    obtain ⟨q1, e, u, e', h⟩ := ih hb
    exact ⟨q1, e, u, e', .stExpr h⟩
  | @stCmd c l l' s u h _ =>
    rintro ⟨z, hz, hb⟩
    have : LastGoal _ l s := h.last
    rcases this with rfl | ⟨x, rfl⟩
    · rw [List.append_nil] at hz; exact absurd hb (cmd_last c z hz)
    · rw [← List.append_assoc, last_append _ (by simp)] at hz
      simp at hz; subst hz; simp [Bad] at hb
  | stOne _ ih =>
    intro hb
    obtain ⟨q1, e, u, e', h⟩ := ih hb
    exact ⟨q1, [e], u, [e'], .stOne h⟩
  | @stMore e e' l l' s u t w h1 h _ ih =>
    intro hb
    have hne := h.ne ⟨by simp, by simp⟩
    obtain ⟨q1, m, x, m', hm⟩ := ih (((hb.append (by simp)).cons (by simp)).cons hne)
    rw [spoiled_append (by simp), spoiled_cons (by simp), spoiled_cons hne]
    exact ⟨(((q1).cons _).cons _).append _, _, _, _, .stMore h1 hm⟩
  | _ => trivial

theorem endsBad_iff {l l' : List Tree} {s : Str} {u : List Tok} (h : Sh .stmts l s u l') : EndsWell l ↔ ¬ EndsBad s := by
  constructor
  · rintro h1 ⟨z, h2, h3⟩
    exact good_end h h1 z h2 h3
  · intro h1 t ht k hk
    refine ⟨fun e => h1 (h.ends ⟨t, ht, k, hk, .inl e⟩), fun e => h1 (h.ends ⟨t, ht, k, hk, .inr e⟩)⟩

/-- Stripping takes one character off a text that ends in one to be stripped. -/
theorem strip_bad {l l' : List Tree} {s : Str} {u : List Tok} (h : Sh .stmts l s u l') (hb : EndsBad s) :
    stripChars (s% "; ") (s ++ s% "; ") ++ s% "}" = spoiled s := by
  obtain ⟨z, hz, hb⟩ := hb
  obtain ⟨x, rfl⟩ := List.getLast?_eq_some_iff.1 hz
  obtain ⟨⟨y, hy⟩, _⟩ := h.spoil ⟨z, hz, hb⟩
  have e : spoiled (x ++ [z]) = x ++ s% "}" := by simp [spoiled]
  rw [e] at hy ⊢
  have hx : x = y ++ s% "'" := by
    have : x ++ s% "}" = (y ++ s% "'") ++ s% "}" := by rw [hy]; simp
    exact List.append_cancel_right this
  subst hx
  obtain ⟨_, c, cs, e1, h1, h2⟩ := h.scan
  have hc : (s% "; ").elem c = false := by
    have : c ≠ ' ' := by rintro rfl; exact absurd h1 (by decide)
    simp [this, h2]
  have hz' : (s% "; ").elem z = true := by rcases hb with rfl | rfl <;> decide
  unfold stripChars lstripChars rstripChars
  rw [e1]
  have e2 : (c :: cs ++ s% "; ").dropWhile (s% "; ").elem = c :: cs ++ s% "; " := dropWhile_head hc
  rw [e2, ← e1]
  simp only [List.reverse_append, List.reverse_cons, List.reverse_nil, List.nil_append, List.cons_append]
  simp only [List.dropWhile_cons, hz', if_true, show (s% "; ").elem ' ' = true by decide, show (s% "; ").elem ';' = true by decide,
    show (s% "; ").elem '\'' = false by decide, Bool.false_eq_true, if_false]
  simp

/-! ### Scanning and parsing -/

theorem scan_shown {s : Str} {u : List Tok} (h : Scans s u) {y : Str} (hy : y = [] ∨ y = s% "\n") : scan (s ++ y) = .ok (emb u) := by
  obtain ⟨hs, c, cs, rfl, h1, h2⟩ := h
  have ht : tokenize (c :: cs ++ y ++ s% "\n") = .ok (u.map some) := by
    obtain ⟨k, hk, he⟩ : ∃ k, y ++ s% "\n" = '\n' :: k ∧ scanAll ('\n' :: k) = .ok [] := by
      rcases hy with rfl | rfl
      · exact ⟨[], rfl, by decide +kernel⟩
      · exact ⟨s% "\n", rfl, by decide +kernel⟩
    rw [tokenize_eq, List.append_assoc, hk]
    have e1 : '\n' :: (c :: cs ++ '\n' :: k) = '\n' :: c :: (cs ++ '\n' :: k) := rfl
    have e2 : c :: (cs ++ '\n' :: k) = c :: cs ++ '\n' :: k := rfl
    rw [e1, scanAll_first _ h1 h2, e2, hs '\n' k (by decide), he]
    simp [prefixed]
  unfold scan
  rw [ht]; rfl

theorem parseAll_error {code : Str} {l : List Tok} {e : Exc} (hs : scan code = .ok (emb l))
    (h : Ev (fun n => parse n l) (.error e)) : Parse.parseAll (emb l) = .error e := by
  obtain ⟨l', e', _, hw⟩ := scan_wf hs
  have el : l' = l := by
    have : emb l = emb l' := e'
    simp only [emb] at this
    have := List.append_cancel_right this
    exact (List.map_inj_right (by simp) |>.1 this).symm
  subst el
  obtain ⟨N, hN⟩ := h
  have hg := parse_good l' hw (Parse.budget (emb l')) (by rw [budget_emb]; omega)
  have hm := parse_mono (l := l') (n := Parse.budget (emb l')) (m := N + Parse.budget (emb l')) (by omega)
  rw [show parse (N + Parse.budget (emb l')) l' = _ from hN _ (by omega)] at hm
  rw [parseAll_emb]
  cases hp : parse (Parse.budget (emb l')) l' with
  | ok p =>
    rw [hp] at hm
    rcases hm with hm | hm <;> cases hm
  | error d =>
    rw [hp] at hm hg
    rcases hm with hm | hm
    · exact absurd hm (by intro h; simp at h; subst h; exact absurd hg (by simp [PP.Good]))
    · cases hm; rfl

theorem ev_andThen_error {α β : Type} {x : Nat → PP.Res α} {f : Nat → α → List Tok → PP.Res β} {e : Exc} (hx : Ev x (.error e)) :
    Ev (fun n => andThen (x n) (f n)) (.error e) := by
  obtain ⟨N, hN⟩ := hx
  refine ⟨N, fun n hn => ?_⟩
  simp only [hN n hn]; rfl

/-- An opening brace without the closing one -/
theorem ev_open {u : List Tok} {l : List Tree} (h : Ev (fun n => parse n u) (.ok (l, []))) :
    Ev (fun n => parse n (tLc :: u)) (.error .incomplete) := by
  have h1 : Ev (fun n => parseBlock n (tLc :: u)) (.error .incomplete) := by
    refine ev_succ (ev_andThen h (f := fun _ b ts => match ts with
        | [] => .error .incomplete
        | u :: r => if u.text = s% "}" then .ok (b, r) else .error .badSyntax) (v := .error .incomplete) ⟨0, fun _ _ => rfl⟩) fun n => ?_
    simp only [parseBlock, isT, tLc]
    rfl
  have h2 : Ev (fun n => parseOperand n (tLc :: u)) (.error .incomplete) := by
    refine ev_succ (ev_andThen_error h1 (f := fun n b ts => .ok (.node blockOp [.code b], ts))) fun n => ?_
    simp [parseOperand, tLc, Tok.isLiteral]
  have h3 : Ev (fun n => parseExpr n (-1) (tLc :: u)) (.error .incomplete) := ev_succ (ev_andThen_error h2) fun n => rfl
  have h4 : Ev (fun n => parseStatement n (tLc :: u)) (.error .incomplete) := by
    refine ev_succ (ev_andThen_error h3 (f := fun n e ts => semi e ts)) fun n => ?_
    simp [parseStatement, tLc]
  refine ev_succ (ev_andThen_error h4 (f := fun n st ts => andThen (parse n ts) fun sts ts => .ok (st :: sts, ts))) fun n => ?_
  simp [parse, tLc]

end Pip
