import Verif.Lemmas.ShowAgain
/-!
# C11: displayed functions

A function is displayed as its code. The functions considered are those written in a program: the program itself and the
blocks in it, at any depth (`blocksIn`). The text parses to the same code up to parentheses around operands, provided
nothing in the code is displayed ambiguously (`Faithful`, in `Spec/Display.lean`); the text of the function read back is
then the same text. The functions that cannot be read back because of how their text ends are characterised exactly.
-/

namespace Pip
open Rgx Scan PP

/-- What a program text parses to -/
abbrev parsed (code : Str) : Except Exc (List Tree) := (scan code).bind Parse.parseAll

theorem spelled_shown {code : Str} {sts : List Tree} (h : parsed code = .ok sts) {b : List Tree} (hb : b ∈ sts :: blocksIn sts) :
    ∃ v, SpSs (shown b) v ∧ ∀ t ∈ v, Scanned t := by
  obtain ⟨u, h1, h2⟩ := program_spelled h
  rcases List.mem_cons.1 hb with rfl | hb
  · exact spSs_shown h1 h2
  · obtain ⟨v, h3, h4⟩ := blocks_spelled h1 b hb
    exact spSs_shown h3 fun t ht => h2 t (h4 t ht)

theorem shown_ne (b : List Tree) : shown b ≠ [] := by
  unfold shown
  split
  · rintro rfl; rename_i h; simp at h
  · simp

theorem shows_text {code : Str} {sts : List Tree} (h : parsed code = .ok sts) {b : List Tree} (hb : b ∈ sts :: blocksIn sts)
    (hf : FaithfulAll (shown b)) : ∃ s u, Sh .stmts (shown b) s u (fulls (shown b)) ∧ unparseStmts (shown b) = s ++ s% "; " := by
  obtain ⟨v, h1, h2⟩ := spelled_shown h hb
  rcases shows h1 h2 hf with e | h
  · exact absurd e (shown_ne b)
  · exact h

/-- **C11**: the text of a function parses to its code with parentheses around the operands that are operator expressions. -/
theorem C11_display_parses {code : Str} {sts : List Tree} (h : parsed code = .ok sts) {b : List Tree} (hb : b ∈ sts :: blocksIn sts)
    (hf : Faithful (.code (shown b))) : parsed (blockOf b).repr = .ok [.node blockOp [.code (fulls (shown b))]] := by
  simp only [Faithful] at hf
  obtain ⟨v, h1, h2⟩ := spelled_shown h hb
  obtain ⟨u, hs⟩ := (shows h1 h2 hf.2).body hf.1
  have := parse_shown (.stOne (.stExpr (.exClosed (.block hs))))
  rw [repr_blockOf]
  simpa [unparse] using this

mutual
theorem bare_full : ∀ t : Tree, bare (full t) = bare t
  | .node op args => by
    by_cases h : op.isBracket
    · simp only [full, if_pos h, bare, bares_fulls args]
    · have hp : op ≠ parenOp := by rintro rfl; exact h (.inl rfl)
      simp only [full, if_neg h, bare, if_neg hp, bares_operands args]
  | .cmd c args => by simp only [full, bare, bares_fulls args]
  | .code l => by simp only [full, bare, bares_fulls l]
  | .tok t => by simp only [full]
  | .opr op => by simp only [full]
  | .val v => by simp only [full]
  | .lval v => by simp only [full]
theorem bares_fulls : ∀ l : List Tree, bares (fulls l) = bares l
  | [] => by simp only [fulls]
  | t :: l => by simp only [fulls, bares, bare_full t, bares_fulls l]
theorem bares_operands : ∀ l : List Tree, bares (fullOperands l) = bares l
  | [] => by simp only [fullOperands, bares]
  | t :: l => by
    have : bare (wrap t (full t)) = bare t := by
      rw [wrap_eq]
      split
      · simp only [bare, bares, if_true, List.headD_cons, bare_full t]
      · exact bare_full t
    simp only [fullOperands, bares, this, bares_operands l]
end

/-- **C11**: reading the text of a function back yields the same code, up to parentheses. -/
theorem C11_display_roundtrip {code : Str} {sts : List Tree} (h : parsed code = .ok sts) {b : List Tree} (hb : b ∈ sts :: blocksIn sts)
    (hf : Faithful (.code (shown b))) : ∃ l, parsed (blockOf b).repr = .ok [.node blockOp [.code l]] ∧ bares l = bares (shown b) :=
  ⟨_, C11_display_parses h hb hf, bares_fulls _⟩

theorem isExpr_full (t : Tree) : isExpr (full t) = isExpr t := by cases t <;> simp [full, isExpr]

theorem fulls_last : ∀ l : List Tree, (fulls l).getLast? = l.getLast?.map full
  | [] => by simp [fulls]
  | [t] => by simp [fulls]
  | a :: b :: l => by
    have := fulls_last (b :: l)
    simp only [fulls] at this ⊢
    rw [List.getLast?_cons_cons, List.getLast?_cons_cons, this]

theorem shown_isExpr (b : List Tree) : ((shown b).getLast?).any isExpr = true := by
  unfold shown
  split
  · assumption
  · simp [isExpr, Tok.isLiteral]

theorem shown_fulls (b : List Tree) : shown (fulls (shown b)) = fulls (shown b) := by
  have : ((fulls (shown b)).getLast?).any isExpr = true := by
    have := shown_isExpr b
    rw [fulls_last]
    cases hl : (shown b).getLast? with
    | none => rw [hl] at this; simp at this
    | some t => rw [hl] at this; simpa [isExpr_full] using this
  conv => lhs; rw [shown]
  rw [if_pos this]

/-- **C11**: the function read back is displayed by the same text, so that displaying and reading it again and again
changes nothing more. -/
theorem C11_display_fixpoint {code : Str} {sts : List Tree} (h : parsed code = .ok sts) {b : List Tree} (hb : b ∈ sts :: blocksIn sts)
    (hf : Faithful (.code (shown b))) : ∃ l, parsed (blockOf b).repr = .ok [.node blockOp [.code l]] ∧
      (blockOf l).repr = (blockOf b).repr ∧ parsed (blockOf l).repr = .ok [.node blockOp [.code l]] := by
  have h1 := C11_display_parses h hb hf
  simp only [Faithful] at hf
  obtain ⟨s, u, hs, e⟩ := shows_text h hb hf.2
  have e2 : unparseStmts (fulls (shown b)) = s ++ s% "; " := hs.again.text
  have e3 : (blockOf (fulls (shown b))).repr = (blockOf b).repr := by
    rw [repr_blockOf, repr_blockOf, shown_fulls]
    simp only [unparse, e, e2]
  exact ⟨_, h1, e3, by rw [e3]; exact h1⟩

/-- **C11**, what fails exactly: if nothing inside a function is displayed ambiguously, then its text parses iff the code does
not end in the character literal of a space or of a semicolon; otherwise the closing brace becomes part of that literal, and
the text is an incomplete program. -/
theorem C11_display_fails_iff {code : Str} {sts : List Tree} (h : parsed code = .ok sts) {b : List Tree} (hb : b ∈ sts :: blocksIn sts)
    (hf : FaithfulAll (shown b)) :
    (EndsWell (shown b) ↔ ∃ l, parsed (blockOf b).repr = .ok l) ∧
    (¬ EndsWell (shown b) → parsed (blockOf b).repr = .error .incomplete) := by
  have key : ¬ EndsWell (shown b) → parsed (blockOf b).repr = .error .incomplete := by
    intro hn
    obtain ⟨s, u, hs, e⟩ := shows_text h hb hf
    have hbad : EndsBad s := by
      refine Classical.byContradiction fun hc => ?_
      exact hn ((endsBad_iff hs).2 hc)
    have hrep : (blockOf b).repr = '{' :: spoiled s := by
      rw [repr_blockOf, unparse, e, List.append_assoc, strip_bad hs hbad]; rfl
    obtain ⟨_, l, v, l', hv⟩ := hs.spoil hbad
    have h1 := hv.parse.1 [] (.inl rfl)
    rw [List.append_nil] at h1
    have hsc : Scans ('{' :: spoiled s) (tLc :: v) := by
      obtain ⟨q, c, cs, ec, h2, h3⟩ : Scans (spoiled s) v := hv.scan
      refine ⟨fun z y hz => ?_, '{', _, rfl, by decide, by decide⟩
      rw [List.cons_append, scanAll_brace _ (by rw [ec]; simpa using h3), q z y hz, prefixed_prefixed]
      simp [tLc]
    have hscan := scan_shown hsc (.inl rfl)
    rw [List.append_nil] at hscan
    rw [hrep]
    show (scan _).bind _ = _
    rw [hscan]
    exact parseAll_error hscan (ev_open h1)
  refine ⟨⟨fun he => ⟨_, C11_display_parses h hb (by simp only [Faithful]; exact ⟨he, hf⟩)⟩, ?_⟩, key⟩
  rintro ⟨l, hl⟩
  refine Classical.byContradiction fun hc => ?_
  rw [key hc] at hl
  cases hl

/-- **C11**: as an operand of the operator V the text is the function read back. -/
theorem C11_display_evaluates {code : Str} {sts : List Tree} (h : parsed code = .ok sts) {b : List Tree} (hb : b ∈ sts :: blocksIn sts)
    (hf : Faithful (.code (shown b))) : compile (blockOf b).repr = .ok (.block [] (.node blockOp [.code (fulls (shown b))])) := by
  simp only [Faithful] at hf
  obtain ⟨v, h1, h2⟩ := spelled_shown h hb
  obtain ⟨u, hs⟩ := (shows h1 h2 hf.2).body hf.1
  have hd : Sh .stmts _ _ _ _ := .stOne (.stExpr (.exClosed (.block hs)))
  have e : (blockOf b).repr = '{' :: (stripChars (s% "; ") (unparseStmts (shown b)) ++ s% "}") := by rw [repr_blockOf]; rfl
  have hscan := scan_shown hd.scan (.inr rfl)
  rw [← e] at hscan
  have h3 := hd.parse.1 [] (.inl rfl)
  rw [List.append_nil] at h3
  have h4 := parseAll_ev hscan h3
  unfold compile
  simp only [hscan, dieSyntax, bind, Except.bind, h4, pure, Except.pure]
  simp [blockOf, isExpr]

/-! ### Examples -/

instance (l : List Tree) : Decidable (EndsWell l) :=
  decidable_of_iff (∀ k ∈ (l.getLast?.bind endTok).toList, k.text ≠ s% "' " ∧ k.text ≠ s% "';") (by
    unfold EndsWell
    cases l.getLast? <;> simp)

def infixOp (s : Str) : Op := ((findOp ops2 s).or (findOp ops3 s)).getD chainOp
def nameTok (s : Str) : Tree := .tok ⟨.name, s⟩
def numTok (s : Str) : Tree := .tok ⟨.num, s⟩

/-- `{I a {x:a+1} a*(b-c)@2}` -/
def exampleCode : Str := s% "{I a {x:a+1} a*(b-c)@2}"

def exampleBody : List Tree :=
  [.cmd .IF [nameTok (s% "a"), .code [.node (infixOp (s% ":")) [nameTok (s% "x"), .node (infixOp (s% "+")) [nameTok (s% "a"), numTok (s% "1")]]],
    .code []],
   .node (infixOp (s% "*")) [nameTok (s% "a"), .node (infixOp (s% "@")) [.node parenOp [.node (infixOp (s% "-")) [nameTok (s% "b"), nameTok (s% "c")]],
     numTok (s% "2")]]]

theorem example_parsed : parsed exampleCode = .ok [.node blockOp [.code exampleBody]] := by decide +kernel

theorem example_shown : shown exampleBody = exampleBody := by decide +kernel

theorem example_faithful : Faithful (.code (shown exampleBody)) := by
  rw [example_shown]
  simp only [exampleBody, Faithful, FaithfulAll, nameTok, numTok, reduceCtorEq, false_implies, true_and, and_true]
  repeat' apply And.intro
  all_goals decide +kernel

example : parsed (blockOf exampleBody).repr = .ok [.node blockOp [.code (fulls (shown exampleBody))]] :=
  C11_display_parses example_parsed (by simp [blocksIn, blocks, bodies]) example_faithful

example : (blockOf exampleBody).repr = s% "{I a {x : (a + 1)} EL {}; a * ((b - c) @ 2)}" := by
  rw [repr_blockOf, example_shown]
  simp only [exampleBody, nameTok, numTok, unparse, unparseStmts, unparseStmt, unparseArgs, Cmd.args, unparseNode, unparseOperands, unparseExpr,
    unparseExprs, unparseBody]
  decide +kernel

/-- `{x.'; }` is displayed as `{x . '}`. -/
def badBody : List Tree := [.node (infixOp (s% ".")) [nameTok (s% "x"), .tok ⟨.char, s% "';"⟩]]

theorem bad_parsed : parsed (s% "{x.';}") = .ok [.node blockOp [.code badBody]] := by decide +kernel

example : parsed (blockOf badBody).repr = .error .incomplete := by
  refine (C11_display_fails_iff bad_parsed (by simp [blocksIn, blocks, bodies]) ?_).2 (by decide +kernel)
  have : shown badBody = badBody := by decide +kernel
  rw [this]
  simp only [badBody, Faithful, FaithfulAll, nameTok]
  decide +kernel

/-! ### Other functions that are not read back

`Faithful` excludes them. In each case the program parses, and the text of the function means something else. -/

/-- A function with code `b` is displayed as `s`. -/
theorem repr_of {b : List Tree} {s : Str} (h1 : shown b = b) (h2 : s% "{" ++ unparse b ++ s% "}" = s) : (blockOf b).repr = s := by
  rw [repr_blockOf, h1, h2]

/-- `{x: :y}` -/
def assignBody : List Tree := [.node { infixOp (s% ":") with assign := true } [nameTok (s% "x"), nameTok (s% "y")]]

/-- `:` with the meta-operator `:` is displayed as `::`, which swaps its operands. -/
theorem C11_assign_counterexample : parsed (s% "{x: :y}") = .ok [.node blockOp [.code assignBody]] ∧ (blockOf assignBody).repr = s% "{x :: y}" ∧
    ∃ c, parsed (s% "{x :: y}") = .ok [.node blockOp [.code c]] ∧ bares c ≠ bares assignBody := by
  refine ⟨by decide +kernel, repr_of (by decide +kernel) ?_, [.node (infixOp (s% "::")) [nameTok (s% "x"), nameTok (s% "y")]], by decide +kernel, ?_⟩
  · simp only [assignBody, unparse, nameTok, unparseStmts, unparseStmt, unparseNode, unparseOperands, unparseExpr]
    decide +kernel
  · simp only [assignBody, bares, bare, nameTok]
    decide +kernel

/-- `{LR x;-y{z}5}` -/
def loopBody : List Tree := [.cmd .LOOPREGEX [nameTok (s% "x"), .node ((findOp ops1 (s% "-")).getD chainOp) [nameTok (s% "y")], .code [nameTok (s% "z")]],
  numTok (s% "5")]

/-- Nothing is displayed between the two expressions of LR, so that an operator may join them. -/
theorem C11_loop_counterexample : parsed (s% "{LR x;-y{z}5}") = .ok [.node blockOp [.code loopBody]] ∧
    (blockOf loopBody).repr = s% "{LR x - y {z}; 5}" ∧
    ∃ c, parsed (s% "{LR x - y {z}; 5}") = .ok [.node blockOp [.code c]] ∧ bares c ≠ bares loopBody := by
  refine ⟨by decide +kernel, repr_of (by decide +kernel) ?_, [.cmd .LOOPREGEX [.node (infixOp (s% "-")) [nameTok (s% "x"), nameTok (s% "y")],
    .node blockOp [.code [nameTok (s% "z")]], .code [numTok (s% "5")]]], by decide +kernel, ?_⟩
  · simp only [loopBody, unparse, nameTok, numTok, unparseStmts, unparseStmt, unparseArgs, Cmd.args, unparseNode, unparseOperands, unparseExpr]
    decide +kernel
  · simp only [loopBody, bares, bare, nameTok, numTok]
    decide +kernel

def pieceBody (l r : Str) (n : Str) : List Tree :=
  [.node parenOp [.node Parse.joinOp [.node enlistOp [.tok ⟨.esc, l⟩, .node Parse.strOp [nameTok n], .tok ⟨.esc, r⟩]]]]

/-- The piece of an escaped string before an interpolation is displayed as a string of its own; if it ends in a backslash, its
closing quote is taken for text. -/
theorem C11_escaped_counterexample : parsed (s% "{\\\"\\\\a\\\"}") = .ok [.node blockOp [.code (pieceBody (s% "\\\"\\\\\"") (s% "\\\"\\\"") (s% "a"))]] ∧
    (blockOf (pieceBody (s% "\\\"\\\\\"") (s% "\\\"\\\"") (s% "a"))).repr = s% "{(J [\\\"\\\\\"; ST a; \\\"\\\"])}" ∧
    parsed (s% "{(J [\\\"\\\\\"; ST a; \\\"\\\"])}") = .error .incomplete := by
  refine ⟨by decide +kernel, repr_of (by decide +kernel) ?_, by decide +kernel⟩
  simp only [pieceBody, unparse, nameTok, unparseStmts, unparseStmt, unparseNode, unparseOperands, unparseExpr, unparseExprs]
  decide +kernel

/-- Any name of a letter can be interpolated, even that of a command. -/
theorem C11_name_counterexample : parsed (s% "{\\\"\\P\\\"}") = .ok [.node blockOp [.code (pieceBody (s% "\\\"\\\"") (s% "\\\"\\\"") (s% "P"))]] ∧
    (blockOf (pieceBody (s% "\\\"\\\"") (s% "\\\"\\\"") (s% "P"))).repr = s% "{(J [\\\"\\\"; ST P; \\\"\\\"])}" ∧
    parsed (s% "{(J [\\\"\\\"; ST P; \\\"\\\"])}") = .error .badSyntax := by
  refine ⟨by decide +kernel, repr_of (by decide +kernel) ?_, by decide +kernel⟩
  simp only [pieceBody, unparse, nameTok, unparseStmts, unparseStmt, unparseNode, unparseOperands, unparseExpr, unparseExprs]
  decide +kernel

/-- A function without code reads back as a function that returns nil, which unlike the former counts as true. -/
theorem C11_empty_counterexample : (blockOf []).repr = s% "{()}" ∧ (blockOf []).truthy = false ∧
    ∃ c, parsed (s% "{()}") = .ok [.node blockOp [.code c]] ∧ (blockOf c).truthy = true := by
  refine ⟨?_, by decide +kernel, [.tok tNil], by decide +kernel, by decide +kernel⟩
  rw [repr_blockOf]
  have : shown [] = [.tok tNil] := by decide +kernel
  rw [this]
  simp only [unparse, unparseStmts, unparseStmt]
  decide +kernel

end Pip
