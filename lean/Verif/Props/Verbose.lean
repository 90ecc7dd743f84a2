import Verif.Lemmas.OutFrame
import Verif.Props.CommandLine
/-! C20: what has been printed has no influence on the run. C114: what `-v` and `-d` add to the output. -/

namespace Pip
variable {X : Ext}

/-! ### C20: the output is not an input -/

/-- Two runs from states that differ only in what has been printed before do the same and print the same. -/
theorem C20_printed (stmts : List Tree) (args : List Val) (n : Nat) (s : St X) (before : Str) :
    let quiet := executeProgram (run X n) stmts args { s with out := [] }
    executeProgram (run X n) stmts args { s with out := before } = (quiet.1, { quiet.2 with out := before ++ quiet.2.out }) := by
  have h := executeProgram_after stmts args n before { s with out := [] }
  simp only [St.after, List.append_nil] at h
  exact h

example : (executeProgram (run toyExt 20) [.node (op1 (s% "P")) [var (s% "q")]] [] { toySt [s% "u"] with out := s% "> " }).2.out =
    s% "> u\nu\n" := by decide

end Pip

namespace Pip.CmdLine
open Cli

/-! ### C114: the verbose mode -/

/-- What is done when the program is parsed -/
def afterParse {X : Ext} (n : Nat) (o : Options) (args : List Str) (sts : List Tree) : M X Unit :=
  (if o.readlines then M.readAll else pure args) >>= fun raw =>
  (if o.execArgs then mapL (execArg (run X n)) raw else pure (raw.map .scalar)) >>= fun vals =>
  executeProgram (run X n) sts vals

theorem afterParse_after {X : Ext} (n : Nat) (o : Options) (args : List Str) (sts : List Tree) (s : St X) (p : Str) :
    afterParse n o args sts (s.after p) = Printed p (afterParse n o args sts s) := by
  have key : (outCong X).rel (afterParse n o args sts) (afterParse n o args sts) := by
    unfold afterParse
    refine (outCong X).bind (x := if o.readlines then M.readAll else pure args) 
      (y := if o.readlines then M.readAll else pure args) (fun s p => ?_) fun raw => ?_
    · cases o.readlines <;> rfl
    · refine (outCong X).bind (x := if o.execArgs then mapL (execArg (run X n)) raw else pure (raw.map .scalar))
        (y := if o.execArgs then mapL (execArg (run X n)) raw else pure (raw.map .scalar)) ?_ fun vals => ?_
      · split
        · exact Cong.mapL (execArg_after n) _
        · exact (outCong X).pure _
      · exact fun s p => executeProgram_after sts vals n p s
  exact key s p

theorem pipRun_text {X : Ext} {n : Nat} {files : Str → Option Str} {o : Options} {s s1 : St X} {c : Str} {args : List Str}
    (h : programText files none false o s = (.ok (some (c, args)), s1)) :
    pipRun (run X n) files none false o s =
      ((if o.verbose then parseVerbose c else M.lift (parseText c)) >>= fun sts => afterParse n o args sts) s1 := by
  unfold pipRun
  rw [M.bind_apply, h]
  simp only
  have e : ∀ sts, (afterParse n o args sts : M X Unit) = (do
      let raw ← if o.readlines then M.readAll else pure args
      let vals ← if o.execArgs then mapL (execArg (run X n)) raw else pure (raw.map .scalar)
      executeProgram (run X n) sts vals) := by
    intro sts
    unfold afterParse
    cases o.readlines <;> cases o.execArgs <;> rfl
  simp only [e]
  cases o.verbose <;> rfl

theorem programText_effective {X : Ext} (files : Str → Option Str) (o : Options) :
    (programText files none false o.effective : M X _) = programText files none false o := by
  unfold Options.effective
  split <;> rfl

theorem effective_same (o : Options) : o.effective.readlines = o.readlines ∧ o.effective.execArgs = o.execArgs ∧
    o.effective.repl = o.repl ∧ o.effective.verbose = (o.verbose || o.debug) := by
  unfold Options.effective
  split
  · next h => simp [h]
  · next h => simp only [Bool.not_eq_true] at h; simp [h]

theorem joinStr_intercalate (sep : Str) : ∀ l : List Str, joinStr sep l = sep.intercalate l
  | [] => rfl
  | [x] => by simp [joinStr]
  | x :: y :: l => by
    have := joinStr_intercalate sep (y :: l)
    simp only [joinStr, this, List.intercalate, List.intersperse, List.flatten_cons, List.append_assoc]

theorem utf8_sum : ∀ c : Str, (c.map Char.utf8Size).sum = (String.ofList c).utf8ByteSize
  | [] => rfl
  | a :: c => by
    have := utf8_sum c
    rw [List.map_cons, List.sum_cons, this, show a :: c = [a] ++ c from rfl, String.ofList_append, String.utf8ByteSize_append]
    simp

/-- The first line that `-v` prints -/
def SizeLine (code : Str) : Str :=
  showNat (String.ofList code).utf8ByteSize ++ s% " bytes (UTF-8), " ++ showNat code.length ++ s% " characters\n\n"

/-- The second line that `-v` prints: the tokens, separated by spaces -/
def TokenLine (ts : List (Option Tok)) : Str :=
  [' '].intercalate (ts.filterMap fun t => t.map (·.text)) ++ s% "\n\n"

/-- Two command lines that say the same except for `-v` and `-d` -/
structure SameBut (ss ss' : List Setting) : Prop where
  flag : ∀ o, o ∉ [Opt.verbose, .debug, .warnings] → o ∉ formats → (Given ss o ↔ Given ss' o)
  value : ∀ o ∈ [Opt.execute, .file], lastArg ss o = lastArg ss' o
  format : ∃ f, Chooses ss f ∧ Chooses ss' f

theorem Source.same {files : Str → Option Str} {ss ss' : List Setting} {args inp : List Str} {c : Str} {a i : List Str}
    (h : SameBut ss ss') (hs : Source files ss args inp c a i) : Source files ss' args inp c a i := by
  cases hs with
  | execute _ he => exact .execute _ (by rw [← h.value _ (by decide)]; exact he)
  | file f _ he hf => exact .file f _ (by rw [← h.value _ (by decide)]; exact he) hf
  | stdin he => exact .stdin ((h.flag _ (by decide) (by decide)).1 he)
  | first f _ _ hn ha hf =>
    refine .first f _ _ (fun o ho hg => hn o ho ((h.flag o ?_ ?_).2 hg)) ha hf
    all_goals
      clear hg
      revert o
      decide

/-- With `-v`, or `-d`, the process first prints how long the program is, then its tokens, then its parse tree, each followed by an
empty line. Then it prints what it prints without, and it ends in the same way. With `-d` the option to compare with is `-p`. -/
theorem C114_verbose (X : Ext) (n : Nat) (files : Str → Option Str) (ws ws' : List Str) (inp : List Str) (rng : X.Rng)
    (ss ss' : List Setting) (args : List Str) (h : Line ws ss args) (h' : Line ws' ss' args) (hc : Compatible ss) (hc' : Compatible ss')
    (hw : ws ≠ []) (hw' : ws' ≠ []) (hn : ∀ o ∈ [Opt.help, .version, .repl], ¬Given ss o) (hsame : SameBut ss ss')
    (hv : Given ss .verbose ∨ Given ss .debug) (hv' : ¬Given ss' .verbose ∧ ¬Given ss' .debug)
    (code : Str) (args1 inp1 : List Str) (hs : Source files ss args inp code args1 inp1) :
    (∀ e, Scan.scan code = .error e → mainWith X n files ws inp rng = (SizeLine code, .raised e)) ∧
    ∀ ts, Scan.scan code = .ok ts →
      (∀ e, Parse.parseAll ts = .error e → mainWith X n files ws inp rng = (SizeLine code ++ TokenLine ts, .raised e)) ∧
      ∀ sts, Parse.parseAll ts = .ok sts →
        mainWith X n files ws inp rng =
          (SizeLine code ++ TokenLine ts ++ X.pprint sts ++ s% "\n" ++ (mainWith X n files ws' inp rng).1,
            (mainWith X n files ws' inp rng).2) := by
  obtain ⟨f, hf, hf'⟩ := hsame.format
  have hn' : ∀ o ∈ [Opt.help, .version, .repl], ¬Given ss' o := by
    intro o ho hg
    refine hn o ho ((hsame.flag o ?_ ?_).2 hg)
    all_goals
      clear hg
      revert o
      decide
  obtain ⟨r, h1, h2⟩ := C110_accepts ws ss args h hc (hn _ (by decide))
  obtain ⟨r', h1', h2'⟩ := C110_accepts ws' ss' args h' hc' (hn' _ (by decide))
  have hver : r.effective.verbose = true := by
    rw [(effective_same r).2.2.2, Bool.or_eq_true]
    exact hv.imp h2.verbose.2 h2.debug.2
  have hver' : r'.effective.verbose = false := by
    rw [(effective_same r').2.2.2, not_true h2'.verbose hv'.1, not_true h2'.debug hv'.2]
    rfl
  have hrl : r.effective.readlines = r'.effective.readlines := by
    rw [(effective_same r).1, (effective_same r').1, Bool.eq_iff_iff, h2.readlines, h2'.readlines]
    exact hsame.flag _ (by decide) (by decide)
  have hxa : r.effective.execArgs = r'.effective.execArgs := by
    rw [(effective_same r).2.1, (effective_same r').2.1, Bool.eq_iff_iff, h2.execArgs, h2'.execArgs]
    exact hsame.flag _ (by decide) (by decide)
  have e := chooses_unique h2 hc hf
  have e' := chooses_unique h2' hc' hf'
  have run1 : mainWith X n files ws inp rng =
      ended (pipRun (run (X.withFmt f) n) files none false r.effective (St.init (X.withFmt f) inp rng)) fun _ => .done := by
    rw [main_args hw, pipWith, h1]
    simp only [not_true h2.version (hn _ (by decide)), Bool.false_eq_true, if_false, pipOpts, (effective_same r).2.2.1,
      not_true h2.repl (hn _ (by decide))]
    subst e
    rfl
  have run2 : mainWith X n files ws' inp rng =
      ended (pipRun (run (X.withFmt f) n) files none false r'.effective (St.init (X.withFmt f) inp rng)) fun _ => .done := by
    rw [main_args hw', pipWith, h1']
    simp only [not_true h2'.version (hn' _ (by decide)), Bool.false_eq_true, if_false, pipOpts, (effective_same r').2.2.1,
      not_true h2'.repl (hn' _ (by decide))]
    subst e'
    rfl
  rw [run1, run2]
  rw [pipRun_text (by rw [programText_effective]; exact source_text h2 hc hs (hn _ (by decide)) _ rfl),
    pipRun_text (by rw [programText_effective]; exact source_text h2' hc' (hs.same hsame) (hn' _ (by decide)) _ rfl)]
  rw [hver, hver']
  have hsame2 : ∀ sts, (afterParse n r.effective args1 sts : M (X.withFmt f) _) = afterParse n r'.effective args1 sts := by
    intro sts
    unfold afterParse
    rw [hrl, hxa]
  have hsz : sizeText code = SizeLine code := by
    unfold sizeText SizeLine
    rw [utf8_sum]
  have htk : ∀ ts, Scan.addSpaces ts ++ s% "\n\n" = TokenLine ts := by
    intro ts
    unfold Scan.addSpaces TokenLine
    rw [joinStr_intercalate]
  refine ⟨fun e he => ?_, fun ts hts => ⟨fun e he => ?_, fun sts hsts => ?_⟩⟩
  · simp only [if_true, M.bind_apply, parseVerbose, M.emit, he, M.lift, hsz, ended]
    rfl
  · simp only [if_true, M.bind_apply, parseVerbose, M.emit, hts, he, M.lift, hsz, ended, htk]
    rfl
  · have hpt : parseText code = .ok sts := by
      unfold parseText
      rw [hts]
      exact hsts
    simp only [if_true, Bool.false_eq_true, if_false, M.bind_apply, parseVerbose, M.emit, hts, hsts, hpt, M.lift, M.pure_apply, hsz, htk, hsame2]
    have ha := afterParse_after (X := X.withFmt f) n r'.effective args1 sts { St.init (X.withFmt f) inp rng with inp := inp1 }
      (SizeLine code ++ TokenLine ts ++ X.pprint sts ++ s% "\n")
    rcases hr : afterParse (X := X.withFmt f) n r'.effective args1 sts { St.init (X.withFmt f) inp rng with inp := inp1 } with ⟨x, s'⟩
    rw [hr] at ha
    have key : ended (Printed (SizeLine code ++ TokenLine ts ++ X.pprint sts ++ s% "\n") (x, s')) (fun _ => End.done) =
        (SizeLine code ++ TokenLine ts ++ X.pprint sts ++ s% "\n" ++ (ended (x, s') fun _ => End.done).1,
          (ended (x, s') fun _ => End.done).2) := by
      cases x <;> rfl
    rw [show afterParse (X := X.withFmt f) n r'.effective args1 sts { St.init (X.withFmt f) inp rng with inp := inp1 } = _ from hr] at *
    rw [← key, ← ha]
    simp only [St.after, St.init, List.nil_append, List.append_nil, List.append_assoc]
    rfl

/-- `pip -v -e Pa 3` and `pip -e Pa 3` -/
example : SameBut [(.verbose, none), (.execute, some (s% "Pa"))] [(.execute, some (s% "Pa"))] := by
  refine ⟨fun o h _ => ?_, fun o _ => ?_, .none, .inr ⟨by simp [Given], .inr ⟨by unfold Given; decide, rfl⟩⟩, .inr ⟨by simp [Given], .inr ⟨by unfold Given; decide, rfl⟩⟩⟩
  · simp only [List.mem_cons, not_or] at h
    simp only [Given, List.mem_cons, List.not_mem_nil, or_false, exists_eq_or_imp, exists_eq_left]
    exact ⟨fun hh => hh.resolve_left fun e => h.1 e.symm, .inr⟩
  · cases o <;> decide
/-- `pip -d -e Pa` and `pip -p -e Pa` -/
example : Chooses [(.debug, none)] .p ∧ Chooses [(.repr, none)] .p :=
  ⟨.inl ⟨by simp [Given], rfl⟩, .inr ⟨by simp [Given], .inl ⟨.repr, by decide, by simp [Given], rfl⟩⟩⟩
example : mainWith { toyExt with pprint := fun _ => s% "[tree]\n" } 40 (fun _ => none) [s% "-v", s% "-e", s% "P a.\"é\"", s% "3"] [] () =
    (s% "8 bytes (UTF-8), 7 characters\n\nP a . \"é\"\n\n[tree]\n\n3é\n3é\n", .done) := by decide +kernel
example : mainWith { toyExt with pprint := fun _ => s% "[tree]\n" } 40 (fun _ => none) [s% "-d", s% "-e", s% "a+4", s% "3"] [] () =
    (s% "3 bytes (UTF-8), 3 characters\n\na + 4\n\n[tree]\n\n7\n", .done) := by decide +kernel
example : mainWith toyExt 40 (fun _ => none) [s% "-v", s% "-e", s% "Pa)"] [] () =
    (s% "3 bytes (UTF-8), 3 characters\n\nP a )\n\n", .raised .badSyntax) := by decide +kernel
example : mainWith toyExt 40 (fun _ => none) [s% "-v", s% "-e", s% "P\"a"] [] () =
    (s% "3 bytes (UTF-8), 3 characters\n\n", .raised .incomplete) := by decide +kernel

end Pip.CmdLine
