import Verif.Lemmas.ParseTop
import Verif.Props.Scan
/-!
# Parser properties (C05-C10)

Token lists are written `l.map some ++ [none]`: the tokens and the end marker, as `scan` delivers them.
-/

namespace Pip
open Parse Scan

/-! ## C05 -/

/-- Parsing the scanner's output ends with statements, BadSyntax or IncompleteSyntax, whatever the source. -/
theorem C05_parse_total (code : Str) (ts : Toks) (h : scan code = .ok ts) :
    (∃ sts, parseAll ts = .ok sts) ∨ parseAll ts = .error .badSyntax ∨ parseAll ts = .error .incomplete := by
  obtain ⟨l, rfl, _, hw⟩ := scan_wf h
  rw [parseAll_emb]
  have hg := parse_good l hw (budget (PP.emb l)) (by rw [budget_emb]; omega)
  match hp : PP.parse (budget (PP.emb l)) l with
  | .ok (sts, r) => exact .inl ⟨sts, rfl⟩
  | .error e =>
    rw [hp] at hg
    rcases hg with h | h <;> subst h
    · exact .inr (.inl rfl)
    · exact .inr (.inr rfl)

/-- The same for arbitrary token lists, if command tokens carry names of commands. -/
theorem C05_parse_tokens (l : List Tok) (h : ∀ t ∈ l, t.kind = .cmd → (findCmd t.text).isSome) :
    (∃ sts, parseAll (l.map some ++ [none]) = .ok sts) ∨ parseAll (l.map some ++ [none]) = .error .badSyntax ∨
      parseAll (l.map some ++ [none]) = .error .incomplete := by
  show (∃ sts, parseAll (PP.emb l) = .ok sts) ∨ parseAll (PP.emb l) = .error .badSyntax ∨ parseAll (PP.emb l) = .error .incomplete
  rw [parseAll_emb]
  have hg := parse_good l h (budget (PP.emb l)) (by rw [budget_emb]; omega)
  match hp : PP.parse (budget (PP.emb l)) l with
  | .ok (sts, r) => exact .inl ⟨sts, rfl⟩
  | .error e =>
    rw [hp] at hg
    rcases hg with h | h <;> subst h
    · exact .inr (.inl rfl)
    · exact .inr (.inr rfl)

/-- The budget is no restriction: any larger one gives the same outcome. -/
theorem C05_parse_budget (code : Str) (ts : Toks) (h : scan code = .ok ts) (n : Nat) (hn : budget ts ≤ n) :
    parse n ts = parse (budget ts) ts := by
  obtain ⟨l, rfl, _, hw⟩ := scan_wf h
  rw [(PP.agree _).1 l, (PP.agree _).1 l]
  rcases parse_mono (l := l) hn with h' | h'
  · have hg := parse_good l hw (budget (PP.emb l)) (by rw [budget_emb]; omega)
    rw [h'] at hg
    rcases hg with h | h <;> simp at h
  · rw [h']

example : ((scan (s% "I x{a:{b*2}}EL Pc")).bind parseAll).toOption.isSome = true := by decide +kernel
example : (scan (s% "(1")).bind parseAll = .error .incomplete := by decide +kernel
example : (scan (s% "1)")).bind parseAll = .error .badSyntax := by decide +kernel

/-! ## C06 -/

/-- Bad syntax stays bad syntax whatever tokens follow. -/
theorem C06_bad_stays_bad (l more : List Tok) (h : parseAll (l.map some ++ [none]) = .error .badSyntax) :
    parseAll ((l ++ more).map some ++ [none]) = .error .badSyntax := by
  change parseAll (PP.emb l) = _ at h
  change parseAll (PP.emb (l ++ more)) = _
  rw [parseAll_emb] at h ⊢
  match hp : PP.parse (budget (PP.emb l)) l with
  | .ok (sts, r) => rw [hp] at h; simp at h
  | .error e =>
    rw [hp] at h
    have : e = .badSyntax := by simpa using h
    subst this
    have h1 := ((PP.stab more _).1 l).2 hp
    have h2 : budget (PP.emb l) ≤ budget (PP.emb (l ++ more)) := by
      rw [budget_emb, budget_emb, List.length_append]; omega
    rcases parse_mono (l := l ++ more) h2 with h' | h'
    · rw [h1] at h'; simp at h'
    · rw [h', h1]

/-- No further lines of text turn bad syntax into anything but bad syntax (or an unfinished string or comment). -/
theorem C06_bad_text (code more : Str) (h : (scan code).bind parseAll = .error .badSyntax) :
    (scan (code ++ s% "\n\n" ++ more)).bind parseAll = .error .badSyntax ∨
    scan (code ++ s% "\n\n" ++ more) = .error .incomplete := by
  match hs : scan code with
  | .error e =>
    rcases C01_scan_total code with ⟨ts, h'⟩ | h'
    · rw [hs] at h'; simp at h'
    · rw [h'] at h; simp [Except.bind] at h
  | .ok ts =>
    rw [hs] at h
    obtain ⟨l, rfl, h1, _⟩ := scan_wf hs
    have e : code ++ s% "\n\n" ++ more ++ s% "\n" = (code ++ s% "\n") ++ s% "\n" ++ (more ++ s% "\n") := by simp
    have hl := C02_scan_lines (code ++ s% "\n") (more ++ s% "\n") _ h1
    rw [← e] at hl
    match hm : tokenize (more ++ s% "\n") with
    | .error e' =>
      right
      rcases C01_scan_total more with ⟨ts, h'⟩ | h'
      · unfold scan at h'; rw [hm] at h'; simp at h'
      · unfold scan at h'; rw [hm] at h'
        have : e' = .incomplete := by simpa using h'
        subst this
        unfold scan
        rw [hl, hm]
    | .ok tm =>
      left
      obtain ⟨m, rfl, _⟩ := tokenize_wf hm
      have hsc : scan (code ++ s% "\n\n" ++ more) = .ok ((l ++ m).map some ++ [none]) := by
        unfold scan
        rw [hl, hm]; simp
      rw [hsc]
      exact C06_bad_stays_bad l m h

example : (scan (s% "W 1 )")).bind parseAll = .error .badSyntax := by decide +kernel

/-! ## C07 -/

/-- Whenever parsing is incomplete, there are tokens that complete it: those the scanner makes of some line
of text. -/
theorem C07_incomplete_completable (l : List Tok) (hw : ∀ t ∈ l, t.kind = .cmd → (findCmd t.text).isSome)
    (h : parseAll (l.map some ++ [none]) = .error .incomplete) :
    ∃ (text : Str) (k : List Tok) (sts : List Tree), tokenize text = .ok (k.map some) ∧ '\n' ∉ text ∧
      parseAll ((l ++ k).map some ++ [none]) = .ok sts := by
  change parseAll (PP.emb l) = _ at h
  rw [parseAll_emb] at h
  match hp : PP.parse (budget (PP.emb l)) l with
  | .ok (sts, r) => rw [hp] at h; simp at h
  | .error e =>
    rw [hp] at h
    have : e = .incomplete := by simpa using h
    subst this
    obtain ⟨k, sts, _, hk, N, hN⟩ := (PP.complete _).1 l hp
    refine ⟨_, k, sts, kit_text k hk, kit_line k hk, ?_⟩
    change parseAll (PP.emb (l ++ k)) = _
    have hwk : ∀ t ∈ l ++ k, PP.WF t := by
      intro t ht
      rcases List.mem_append.1 ht with h | h
      · exact hw t h
      · exact newToken_wf (kit_solid t (hk t h)).2
    rw [parseAll_emb]
    have hg := parse_good (l ++ k) hwk (budget (PP.emb (l ++ k))) (by rw [budget_emb]; omega)
    rcases parse_mono (l := l ++ k) (Nat.le_add_right (budget (PP.emb (l ++ k))) N) with h' | h'
    · rw [h'] at hg
      rcases hg with h | h <;> simp at h
    · have h3 := hN (budget (PP.emb (l ++ k)) + N) (Nat.le_add_left _ _)
      simp only at h3
      rw [h3] at h'
      rw [← h']

/-- At the REPL: after any input for which the parser asks for more, there are lines which, typed next, make
the whole parse. -/
theorem C07_repl_no_dead_end (code : Str) (ts : Toks) (hs : scan code = .ok ts) (h : parseAll ts = .error .incomplete) :
    ∃ (lines : List Str) (ts' : Toks) (sts : List Tree), (∀ l ∈ lines, '\n' ∉ l) ∧
      scan (lines.foldl (fun c l => c ++ l ++ s% "\n") code) = .ok ts' ∧ parseAll ts' = .ok sts := by
  obtain ⟨l, rfl, h1, hw⟩ := scan_wf hs
  obtain ⟨text, k, sts, k1, k2, k3⟩ := C07_incomplete_completable l hw h
  refine ⟨[[], [], text], (l ++ k).map some ++ [none], sts, ?_, ?_, k3⟩
  · intro x hx
    simp at hx
    rcases hx with rfl | rfl
    · simp
    · exact k2
  · have e : [[], [], text].foldl (fun c l => c ++ l ++ s% "\n") code ++ s% "\n" =
        ((code ++ s% "\n") ++ s% "\n" ++ text) ++ s% "\n" ++ s% "\n" := by simp
    unfold scan
    have a1 := C02_scan_lines (code ++ s% "\n") text _ h1
    rw [k1] at a1
    have a2 := C02_scan_lines _ (s% "\n") _ a1
    rw [show tokenize (s% "\n") = .ok [] by decide +kernel] at a2
    rw [e, a2]
    simp

/-- The restriction to the parser is needed. A backslash at the end of a line inside a pattern makes the
scanner ask for more for ever, although nothing can complete the input. -/
theorem C07_pattern_dead_end (more : Str) : scan (s% "`\\\n" ++ more) = .error .incomplete := by
  unfold scan
  have e : s% "`\\\n" ++ more ++ s% "\n" = '`' :: '\\' :: '\n' :: (more ++ s% "\n") := rfl
  rw [e, tokenize_solid_head (by decide) (by decide)]
  rw [scanAll_die]
  rw [step_eq]
  have h1 : isSpace '`' = false := by decide
  have h2 : lineC ('`' :: '\\' :: '\n' :: (more ++ s% "\n")) = none := by
    simp [lineC, h1]
  have h3 : lexTok ('`' :: '\\' :: '\n' :: (more ++ s% "\n")) = none := by
    have a : isUpperAZ '`' = false := by decide
    have b : isLow1 '`' = false := by decide
    simp [lexTok, lexPat, a, b]
  rw [h2, h3]
  simp [blockC, whiteC, h1]

example : (scan (s% "F[a[b")).bind parseAll = .error .incomplete ∧
    (scan (s% "a?$+*:-")).bind parseAll = .error .incomplete ∧
    (scan (s% "I a{Y[{(b")).bind parseAll = .error .incomplete := by decide +kernel
example : ((scan (s% "I a{Y[{(b\n\n) } ] }")).bind parseAll).toOption.isSome = true := by decide +kernel

/-! ## C08 -/

/-- In every tree made by the parser, operators are nested as precedence and associativity demand. -/
theorem C08_precedence (l : List Tok) (sts : List Tree) (h : parseAll (l.map some ++ [none]) = .ok sts) :
    ∀ t ∈ sts, Prec t := by
  change parseAll (PP.emb l) = _ at h
  rw [parseAll_emb] at h
  match hp : PP.parse (budget (PP.emb l)) l with
  | .ok (sts', r) =>
    rw [hp] at h
    have : sts' = sts := by simpa using h
    subst this
    exact (precAll_iff _).1 ((PP.prec _).1 l _ _ hp)
  | .error e => rw [hp] at h; simp at h

/-- Binary and ternary operators of the same precedence have the same associativity. -/
theorem C08_assoc_by_level : ∀ a ∈ ops2 ++ ops3, ∀ b ∈ ops2 ++ ops3, a.prec = b.prec → a.assoc = b.assoc := by
  decide +kernel

/-- A small tree as text, to make examples readable. -/
def showTree : Nat → Tree → Str
  | 0, _ => []
  | _, .tok t => t.text
  | _, .opr op => op.text
  | n + 1, .node op args => s% "(" ++ op.text ++ args.flatMap (fun a => ' ' :: showTree n a) ++ s% ")"
  | n + 1, .cmd c args => s% "(" ++ c.text ++ args.flatMap (fun a => ' ' :: showTree n a) ++ s% ")"
  | n + 1, .code l => s% "{" ++ l.flatMap (fun a => ' ' :: showTree n a) ++ s% "}"
  | _, _ => s% "?"

def showParse (s : Str) : Except Exc (List Str) :=
  ((scan s).bind parseAll).map fun l => l.map (showTree 20)

example : showParse (s% "a+b*c-d") = .ok [s% "(- (+ a (* b c)) d)"] ∧
    showParse (s% "a:b:-c*d") = .ok [s% "(: a (: b (* (- c) d)))"] ∧
    showParse (s% "a<b<c?#d+1!e") = .ok [s% "(? (CHAIN a < b < c) (+ (# d) 1) (! e))"] ∧
    showParse (s% "x+:y@z.w") = .ok [s% "(+ x (. (@ y z) w))"] := by decide +kernel

/-! ## C09 -/

/-- The statements returned are spelled, in the sense of the grammar, by exactly the tokens in front of the end
or of the first unmatched closing brace. -/
theorem C09_tree_spells_tokens (l : List Tok) (sts : List Tree) (h : parseAll (l.map some ++ [none]) = .ok sts) :
    ∃ u rest, l = u ++ rest ∧ SpSs sts u ∧ ∀ t ∈ rest.head?, t.text = s% "}" := by
  change parseAll (PP.emb l) = _ at h
  rw [parseAll_emb] at h
  match hp : PP.parse (budget (PP.emb l)) l with
  | .ok (sts', r) =>
    rw [hp] at h
    have : sts' = sts := by simpa using h
    subst this
    obtain ⟨u, h1, h2⟩ := (PP.sound _).1 l _ _ hp
    exact ⟨u, r, h1, h2, PP.parse_end _ _ _ _ hp⟩
  | .error e => rw [hp] at h; simp at h

example : showParse (s% "F i,a{b+:i;Pb}I(c)[d e]EL{}") =
    .ok [s% "(F i (, a) { (+ b i) (P b)})", s% "(I (PAREN c) { (LIST d e)} {})"] := by decide +kernel

/-! ## C10 -/

/-- Everything after an unmatched closing brace is dropped. -/
theorem C10_brace_truncates (l junk : List Tok) (sts : List Tree) (h : parseAll (l.map some ++ [none]) = .ok sts) :
    parseAll ((l ++ ⟨.sym, s% "}"⟩ :: junk).map some ++ [none]) = .ok sts := by
  change parseAll (PP.emb l) = _ at h
  change parseAll (PP.emb (l ++ ⟨.sym, s% "}"⟩ :: junk)) = _
  rw [parseAll_emb] at h ⊢
  match hp : PP.parse (budget (PP.emb l)) l with
  | .ok (sts', r) =>
    rw [hp] at h
    have : sts' = sts := by simpa using h
    subst this
    have hst : PP.StopB (⟨.sym, s% "}"⟩ :: junk) := ⟨PP.stop_brace junk, by simp⟩
    have h1 := ((PP.stab (⟨.sym, s% "}"⟩ :: junk) _).1 l).1 _ _ hp (.inr hst)
    have h2 : budget (PP.emb l) ≤ budget (PP.emb (l ++ ⟨.sym, s% "}"⟩ :: junk)) := by
      rw [budget_emb, budget_emb, List.length_append]; omega
    rcases parse_mono (l := l ++ ⟨.sym, s% "}"⟩ :: junk) h2 with h' | h'
    · rw [h1] at h'; simp at h'
    · rw [h', h1]
  | .error e => rw [hp] at h; simp at h

example : (scan (s% "1}2)")).bind parseAll = (scan (s% "1")).bind parseAll ∧
    (scan (s% "1")).bind parseAll = .ok [.tok ⟨.num, s% "1"⟩] := by decide +kernel

end Pip
