import Verif.Lemmas.Calc
import Verif.Props.CommandLine
import Verif.Props.Table
/-!
# C112: arithmetic, from the command line to the output

A program that is an arithmetic expression in the usual notation (`Spec/Calc.lean`) prints the integer that it stands for. This
goes through everything: the command line, the scanner, the parser, the evaluator and the printing of the result.
-/

namespace Pip
open Rgx Scan PP

variable {X : Ext}

/-- The variables have the values of the arguments. -/
def HasArgs (args : List Int) (s : St X) : Prop :=
  ∀ (k : Nat) (c : Char) (v : Int), (s% "abcde")[k]? = some c → args[k]? = some v → Vals (var [c]) s (.ok (ofInt v), s)

theorem numLit_notMem {s : Str} (h : NumLit s) (l : List Str) (hl : ∀ t ∈ l, isDigit (t.headD ' ') = false) : s ∉ l := by
  intro hm
  obtain ⟨c, cs, rfl, hc, _⟩ := (numLit_iff s).1 h
  have := hl _ hm
  rw [List.headD_cons, hc] at this
  cases this

theorem showNat_lit (n : Nat) : NumLit (showInt n) := .inl ⟨showNat_ne n, showNat_all n⟩

theorem vals_infix (n : Str) (k : Takes) (f : Val → Val → Except Exc Val) (h : (n, k, fun a b => val (f a b)) ∈ binarySyms X) {a b : Tree}
    {s : St X} {v w u : Int} (ha : a.notOpr = true) (hb : b.notOpr = true) (hv : Vals a s (.ok (ofInt v), s)) (hw : Vals b s (.ok (ofInt w), s))
    (hf : f (ofInt v) (ofInt w) = .ok (ofInt u)) : Vals (.node (op2 n) [a, b]) s (.ok (ofInt u), s) :=
  C73_value_binary n k _ h a b s s s _ _ _ ha hb hv hw (by cases k <;> rfl) (by cases k <;> rfl) (by rw [hf]; rfl)

theorem vals_paren {t : Tree} {s : St X} {o : Outcome X Val} (h : Vals t s o) : Vals (.node parenOp [t]) s o := by
  rw [vals_iff] at h ⊢
  rcases h with ⟨h1, h2⟩ | h
  · exact .ok (evals_paren h1) h2
  · exact .fail (evals_paren h)

/-- The tokens and the tree of an expression -/
theorem calc_ok {args : List Int} {i : Nat} {t : Str} {v : Int} (h : Calc args i t v) : ∃ u e, ScanTo t u ∧ Opens t ∧
    (3 ≤ i → t.head? ≠ some '-') ∧ Parses i u e ∧ e.notOpr = true ∧ isExpr e = true ∧
    ∀ (X : Ext) (s : St X), HasArgs args s → Vals e s (.ok (ofInt v), s) := by
  induction h with
  | num n =>
    have hn := showNat_lit n
    obtain ⟨c, cs, e, hc, _⟩ := (numLit_iff _).1 hn
    refine ⟨[⟨.num, showInt n⟩], .tok ⟨.num, showInt n⟩, fun z y hz => scanAll_num hn (end_space hz).1 (end_space hz).2 y,
      ⟨c, cs, e, by simp [isStart, hc]⟩, fun _ => ?_, parses_tok (.inr rfl) (numLit_notMem hn _ (by decide)), rfl, rfl,
      fun X s _ => vals_of_evals (evals_num _ s)⟩
    rw [e]
    simpa using digit_ne hc '-' (by decide)
  | @arg k c v hc hv =>
    have hm : c ∈ s% "abcde" := List.mem_of_getElem? hc
    have key : ∀ c ∈ s% "abcde", isStart c = true ∧ c ∈ Wh.letters ∧ c ≠ '-' ∧
      [c] ∉ [s% ":", s% "*", s% ")", s% "]", s% "}", s% ";", s% "EL"] := by decide
    obtain ⟨k1, k2, k3, k4⟩ := key c hm
    exact ⟨[⟨.name, [c]⟩], var [c], fun z y _ => scanAll_low k2 (z :: y), ⟨c, [], rfl, k1⟩, fun _ => by simpa using k3,
      parses_tok (.inl rfl) k4, rfl, rfl, fun X s hs => hs k c v hc hv⟩
  | @paren t g g' v h hg hg' ih =>
    obtain ⟨u, e, h1, h2, _, h4, h5, h6, h7⟩ := ih
    exact ⟨_, _, scanTo_paren h1 h2 hg hg', ⟨_, _, rfl, by decide⟩, fun _ => by simp, parses_paren h4, rfl, rfl,
      fun X s hs => vals_paren (h7 X s hs)⟩
  | @pow t u g g' v w h h' hg hg' ih ih' =>
    obtain ⟨a, e, h1, ⟨c, cs, rfl, h2⟩, h3, h4, h5, h6, h7⟩ := ih
    obtain ⟨b, f, g1, g2, g3, g4, g5, g6, g7⟩ := ih'
    refine ⟨_, _, scanTo_infix h1 g1 g2 hg hg' (by simp [infixTexts]) (by simp), ⟨c, _, rfl, h2⟩, fun _ => h3 (by omega), parses_pow h4 g4, rfl, rfl,
      fun X s hs => vals_infix (s% "**") .items2 (fun a b => opPOW X a (some b)) (by row) h5 g5 (h7 X s hs) (g7 X s hs) (C40_power X v w (-1) (by decide)).1⟩
  | @neg t g v h hg ih =>
    obtain ⟨a, e, h1, h2, h3, h4, h5, h6, h7⟩ := ih
    refine ⟨_, _, scanTo_neg h1 h2 (h3 (by omega)) hg, ⟨_, _, rfl, by decide⟩, fun h => by omega, parses_neg h4, rfl, rfl, fun X s hs => ?_⟩
    exact C73_value_unary (s% "-") .items2 _ (by row) e s s _ (ofInt (-v)) h5 (h7 X s hs) rfl (by rw [(C40_exact X v 0).2.2.2.1]; rfl)
  | @mul t u g g' v w h h' hg hg' ih ih' =>
    obtain ⟨a, e, h1, ⟨c, cs, rfl, h2⟩, h3, h4, h5, h6, h7⟩ := ih
    obtain ⟨b, f, g1, g2, g3, g4, g5, g6, g7⟩ := ih'
    exact ⟨_, _, scanTo_infix h1 g1 g2 hg hg' (by simp [infixTexts]) (by simp), ⟨c, _, rfl, h2⟩, fun h => by omega,
      parses_left (q := op2 (s% "*")) (by omega) (by simp [calcOps]) (by decide) h4 g4, rfl, rfl,
      fun X s hs => (C73_integers e f s s s v w h5 g5 (h7 X s hs) (g7 X s hs)).2.2.1⟩
  | @quot t u g g' v w h h' hg hg' h0 ih ih' =>
    obtain ⟨a, e, h1, ⟨c, cs, rfl, h2⟩, h3, h4, h5, h6, h7⟩ := ih
    obtain ⟨b, f, g1, g2, g3, g4, g5, g6, g7⟩ := ih'
    exact ⟨_, _, scanTo_infix h1 g1 g2 hg hg' (by simp [infixTexts]) (by simp), ⟨c, _, rfl, h2⟩, fun h => by omega,
      parses_left (q := op2 (s% "//")) (by omega) (by simp [calcOps]) (by decide) h4 g4, rfl, rfl,
      fun X s hs => ((C73_integers e f s s s v w h5 g5 (h7 X s hs) (g7 X s hs)).2.2.2.1 h0).1⟩
  | @rem t u g g' v w h h' hg hg' h0 ih ih' =>
    obtain ⟨a, e, h1, ⟨c, cs, rfl, h2⟩, h3, h4, h5, h6, h7⟩ := ih
    obtain ⟨b, f, g1, g2, g3, g4, g5, g6, g7⟩ := ih'
    exact ⟨_, _, scanTo_infix h1 g1 g2 hg hg' (by simp [infixTexts]) (by simp), ⟨c, _, rfl, h2⟩, fun h => by omega,
      parses_left (q := op2 (s% "%")) (by omega) (by simp [calcOps]) (by decide) h4 g4, rfl, rfl,
      fun X s hs => ((C73_integers e f s s s v w h5 g5 (h7 X s hs) (g7 X s hs)).2.2.2.1 h0).2⟩
  | @add t u g g' v w h h' hg hg' ih ih' =>
    obtain ⟨a, e, h1, ⟨c, cs, rfl, h2⟩, h3, h4, h5, h6, h7⟩ := ih
    obtain ⟨b, f, g1, g2, g3, g4, g5, g6, g7⟩ := ih'
    exact ⟨_, _, scanTo_infix h1 g1 g2 hg hg' (by simp [infixTexts]) (by simp), ⟨c, _, rfl, h2⟩, fun h => by omega,
      parses_left (q := op2 (s% "+")) (by omega) (by simp [calcOps]) (by decide) h4 g4, rfl, rfl,
      fun X s hs => (C73_integers e f s s s v w h5 g5 (h7 X s hs) (g7 X s hs)).1⟩
  | @sub t u g g' v w h h' hg hg' hm ih ih' =>
    obtain ⟨a, e, h1, ⟨c, cs, rfl, h2⟩, h3, h4, h5, h6, h7⟩ := ih
    obtain ⟨b, f, g1, g2, g3, g4, g5, g6, g7⟩ := ih'
    exact ⟨_, _, scanTo_infix h1 g1 g2 hg hg' (by simp [infixTexts]) (fun _ => hm), ⟨c, _, rfl, h2⟩, fun h => by omega,
      parses_left (q := op2 (s% "-")) (by omega) (by simp [calcOps]) (by decide) h4 g4, rfl, rfl,
      fun X s hs => (C73_integers e f s s s v w h5 g5 (h7 X s hs) (g7 X s hs)).2.1⟩
  | up h ih =>
    obtain ⟨u, e, h1, h2, h3, h4, h5⟩ := ih
    exact ⟨u, e, h1, h2, fun h => h3 (by omega), h4.up, h5⟩

/-- An arithmetic expression is accepted as a program: it is one expression, and evaluating it gives its value and changes
nothing. -/
theorem C112_expression (args : List Int) (code : Str) (v : Int) (h : Calc args 0 code v) :
    ∃ e, parseText code = .ok [e] ∧ isExpr e = true ∧ ∀ (X : Ext) (s : St X), HasArgs args s → Vals e s (.ok (ofInt v), s) := by
  obtain ⟨u, e, h1, ⟨c, cs, rfl, h2⟩, _, h4, _, h6, h7⟩ := calc_ok h
  refine ⟨e, ?_, h6, h7⟩
  have hs : scan (c :: cs) = .ok (emb u) := by
    have : tokenize (c :: cs ++ s% "\n") = .ok (u.map some) := by
      rw [tokenize_eq]
      have e3 : scanAll ['\n'] = .ok [] := by decide +kernel
      have e1 : '\n' :: (c :: cs ++ s% "\n") = '\n' :: c :: (cs ++ s% "\n") := rfl
      have e2 : c :: (cs ++ s% "\n") = c :: cs ++ '\n' :: [] := rfl
      rw [e1, scanAll_first _ (start_space h2).1 (start_space h2).2, e2, h1 _ _ (by decide), e3]
      simp [prefixed]
    unfold scan
    rw [this]; rfl
  unfold parseText
  rw [hs]
  exact parseAll_ev hs h4.program

/-- With parentheses, spaces, a power of a power and a quotient, for `a` = 6 and `b` = 7 -/
theorem calc_example : Calc [6, 7] 0 (s% "a*(b + 1)-2**3**2 //-7") 122 := by
  have a : Calc [6, 7] 4 (s% "a") 6 := .arg (k := 0) rfl rfl
  have b : Calc [6, 7] 4 (s% "b") 7 := .arg (k := 1) rfl rfl
  have n1 : Calc [6, 7] 4 (s% "1") (1 : Nat) := .num 1
  have n2 : Calc [6, 7] 4 (s% "2") (2 : Nat) := .num 2
  have n3 : Calc [6, 7] 4 (s% "3") (3 : Nat) := .num 3
  have n7 : Calc [6, 7] 4 (s% "7") (7 : Nat) := .num 7
  have p1 : Calc [6, 7] 0 (s% "b + 1") 8 := .add b.up.up.up.up n1.up.up.up (.inr rfl) (.inr rfl)
  have p2 : Calc [6, 7] 4 (s% "(b + 1)") 8 := .paren p1 (.inl rfl) (.inl rfl)
  have p3 : Calc [6, 7] 1 (s% "a*(b + 1)") 48 := .mul a.up.up.up p2.up.up (.inl rfl) (.inl rfl)
  have q1 : Calc [6, 7] 3 (s% "3**2") (9 : Nat) := .pow n3 n2.up (.inl rfl) (.inl rfl)
  have q2 : Calc [6, 7] 3 (s% "2**3**2") 512 := .pow n2 q1 (.inl rfl) (.inl rfl)
  have q3 : Calc [6, 7] 2 (s% "-7") (-7) := .neg n7.up (.inl rfl)
  have q4 : Calc [6, 7] 1 (s% "2**3**2 //-7") (-74) := .quot q2.up.up q3 (.inr rfl) (.inl rfl) (by decide)
  exact .sub p3.up q4 (.inl rfl) (.inl rfl) (by decide)

/-- The conditions on the notation are needed: two spaces start a comment, and two minus signs are one operator. -/
example : parseText (s% "1  +2") = parseText (s% "1") ∧ (parseText (s% "1--2")).toOption ≠ (parseText (s% "1-(-2)")).toOption := by
  decide +kernel

/-- Calling it as a function -/
theorem C112_function (args : List Int) (code : Str) (v : Int) (h : Calc args 0 code v) (sts : List Tree) (hp : parseText code = .ok sts)
    (s : St X) : Calls (blockOf sts) (args.map ofInt) s (.ok (ofInt v), s) := by
  obtain ⟨e, h1, h2, h3⟩ := C112_expression args code v h
  rw [hp] at h1
  cases h1
  have hb : blockOf [e] = .block [] e := by simp [blockOf, h2]
  rw [hb]
  generalize ht : s.openScope (some (.block [] e)) (args.map ofInt) = t
  refine calls_body.2 (bodyAs_ok.2 ⟨t, t, runs_pure.2 (by rw [ht]), h3 X t ?_, by rw [← ht, closeScope_open]⟩)
  intro k c v hc hv
  have hm : c ∈ s% "abcde" := List.mem_of_getElem? hc
  have key : ∀ c ∈ s% "abcde", isLocal [c] = true ∧ ([c] ≠ s% "q" ∧ [c] ≠ s% "r" ∧ ¬([c].length = 3 ∧ [c].all isAlphaAZ = true)) := by decide
  have := Vals.var (key c hm).2 t
  have e2 : t.read [c] = ofInt v := by
    rw [← ht]
    simp only [St.read, St.var, (key c hm).1, if_true, St.openScope]
    rw [localVars_abcde _ _ k c hc, List.getElem?_map, hv]
    rfl
  rwa [e2] at this

namespace CmdLine
open Cli

/-- **C112**: however the program and its arguments are given, the output is the decimal text of the value. -/
theorem C112_calculator (X : Ext) (files : Str → Option Str) (ws : List Str) (inp : List Str) (rng : X.Rng) (ss : List Setting)
    (args : List Str) (h : Line ws ss args) (hc : Compatible ss) (hw : ws ≠ [])
    (hn : ∀ o ∈ [Opt.help, .version, .repl, .debug, .verbose, .execArgs], ¬Given ss o) (f : Fmt) (hf : Chooses ss f)
    (code : Str) (args1 inp1 : List Str) (hs : Source files ss args inp code args1 inp1) (ints : List Int) (inp2 : List Str)
    (ht : Takes ss args1 inp1 (ints.map showInt) inp2) (v : Int) (hv : Calc ints 0 code v) :
    ∃ N, ∀ n, N ≤ n → mainWith X n files ws inp rng = (showInt v ++ s% "\n", .done) := by
  obtain ⟨e, h1, h2, _⟩ := C112_expression ints code v hv
  have hi : (ints.map showInt).map Val.scalar = ints.map ofInt := by simp [ofInt]
  have hcall := fun s : St (X.withFmt f) => C112_function (X := X.withFmt f) ints code v hv [e] h1 s
  generalize hs0 : St.init (X.withFmt f) inp2 rng = s0
  obtain ⟨_, N, hN⟩ := hcall { s0 with args := ints.map ofInt, main := some (blockOf [e]), vars := wiped (X.withFmt f) (ints.map ofInt) (some (blockOf [e])) }
  refine ⟨N, fun n hle => ?_⟩
  rw [C111_program X n files ws inp rng ss args h hc hw hn f hf code args1 inp1 hs _ inp2 ht [e] h1, hi, hs0]
  unfold executeProgram
  have := hN n hle
  simp only at this
  simp only [List.isEmpty_cons, Bool.false_eq_true, if_false, M.bind_apply, setMain, this]
  have ho : s0.out = [] := by rw [← hs0]; rfl
  simp [ofInt, opPRINT, M.emit, ended, ho, Val.str]

/-- The same expression with `pip -e` and the arguments 6 and 7 -/
example (X : Ext) (files : Str → Option Str) (rng : X.Rng) :
    ∃ N, ∀ n, N ≤ n → mainWith X n files [s% "-e", s% "a*(b + 1)-2**3**2 //-7", s% "6", s% "7"] [] rng = (s% "122\n", .done) := by
  have hl : Line [s% "-e", s% "a*(b + 1)-2**3**2 //-7", s% "6", s% "7"] [(.execute, some (s% "a*(b + 1)-2**3**2 //-7"))] [s% "6", s% "7"] :=
    .plain (ws := [s% "-e", s% "a*(b + 1)-2**3**2 //-7"]) (ws' := []) (ss' := []) [s% "6", s% "7"]
      (.lead (.short [] (by simp) .execute (.inl rfl)) (.noDash _ (by decide)) .nil) (by
        intro a ha
        simp only [List.mem_cons, List.not_mem_nil, or_false] at ha
        rcases ha with rfl | rfl <;> exact .noDash _ (by decide)) .nil
  have hg : ∀ o, Given [(Opt.execute, some (s% "a*(b + 1)-2**3**2 //-7"))] o → o = .execute := by
    rintro o ⟨x, hx, rfl⟩
    simp at hx; rw [hx]
  refine C112_calculator X files _ [] rng _ _ hl ?_ (by simp) ?_ .none ?_ _ _ _ (.execute _ rfl) [6, 7] [] ?_ 122 calc_example
  · intro x hx y hy hc
    simp at hx hy
    rw [hx, hy] at hc
    exact hc.1 rfl
  · intro o ho hgo
    rw [hg o hgo] at ho
    exact absurd ho (by decide)
  · refine .inr ⟨fun h => absurd (hg _ h) (by decide), .inr ⟨fun o ho h => ?_, rfl⟩⟩
    rw [hg o h] at ho
    exact absurd ho (by decide)
  · exact .inl ⟨fun h => absurd (hg _ h) (by decide), rfl, rfl⟩

end CmdLine
end Pip
