import Verif.Lemmas.CommandLoop
import Verif.Props.Main
import Verif.Props.Repr
/-! C110: which command lines are accepted and which options they set. C111: what the interpreter does with a command line, from
the arguments of the process to its output and exit code. -/

namespace Pip.CmdLine
open Cli

/-! ### C110: the command line -/

/-- A command line of the documented form sets exactly the options that are written in it, if none of them exclude each other,
whether they are written with letters, together, with names or abbreviated names, before or after the arguments. -/
theorem C110_accepts (ws : List Str) (ss : List Setting) (args : List Str) (h : Line ws ss args) (hc : Compatible ss)
    (hh : ¬Given ss .help) : ∃ r, parseArgs ws = .ok r ∧ Meets r ss args := by
  obtain ⟨seen, h1, _⟩ := checked_ok ss [] (fun x hx he => hh ⟨x, hx, he⟩) (by simp) hc
  refine ⟨_, ?_, meets_setAll ss args⟩
  rw [parseArgs_line h, h1]
  rfl

/-- Nothing else is accepted. -/
theorem C110_only (ws : List Str) (r : Options) (h : parseArgs ws = .ok r) :
    ∃ ss args, Line ws ss args ∧ Compatible ss ∧ ¬Given ss .help ∧ Meets r ss args := by
  obtain ⟨ss, args, hl⟩ := line_of_parseArgs h
  rw [parseArgs_line hl] at h
  cases hk : checked [] ss with
  | error e => rw [hk] at h; cases h
  | ok seen =>
    rw [hk] at h
    obtain ⟨h1, _, h3⟩ := checked_of_ok ss _ _ hk
    refine ⟨ss, args, hl, h3, fun ⟨x, hx, he⟩ => h1 x hx he, ?_⟩
    cases h
    exact meets_setAll ss args

/-- Two options that exclude each other end the program with a usage message. -/
theorem C110_exclusive (ws : List Str) (ss : List Setting) (args : List Str) (h : Line ws ss args) (hc : ¬Compatible ss)
    (hh : ¬Given ss .help) : parseArgs ws = .error .usage := by
  rw [parseArgs_line h, checked_usage (fun x hx he => hh ⟨x, hx, he⟩) hc]
  rfl

/-- `-h` shows the help, unless options before it exclude each other. -/
theorem C110_help (ws : List Str) (ss ts : List Setting) (x : Option Str) (args : List Str) (h : Line ws (ss ++ (.help, x) :: ts) args)
    (hc : Compatible ss) (hh : ¬Given ss .help) : parseArgs ws = .error .help := by
  obtain ⟨seen, h1, _⟩ := checked_ok ss [] (fun x hx he => hh ⟨x, hx, he⟩) (by simp) hc
  rw [parseArgs_line h, checked_append, h1]
  have hn : ¬(seen.any fun o' => o' ≠ Opt.help && o'.group = Opt.help.group && o'.group ≠ 0) = true := by
    rw [any_clash]
    rintro ⟨o, _, hx⟩
    rcases hx.2 with h | h
    · exact absurd h.2 (by decide)
    · exact absurd h.2 (by decide)
  simp only [Except.bind, checked, if_neg hn]
  rfl

/-- The meaning of a command line is unambiguous as far as the program is concerned. -/
theorem C110_unique (ws : List Str) (ss ss' : List Setting) (args args' : List Str) (h : Line ws ss args) (h' : Line ws ss' args')
    (hc : Compatible ss) (hh : ¬Given ss .help) :
    args = args' ∧ (∀ o, ¬HasArg o → (Given ss o ↔ Given ss' o)) ∧ ∀ o, HasArg o → lastArg ss o = lastArg ss' o := by
  obtain ⟨r, h1, h2⟩ := C110_accepts ws ss args h hc hh
  have h3 := parseArgs_line h'
  rw [h1] at h3
  cases hk : checked [] ss' with
  | error e => rw [hk] at h3; cases h3
  | ok seen =>
    rw [hk] at h3
    have h4 : Meets r ss' args' := by
      rw [Except.ok.inj h3]
      exact meets_setAll ss' args'
    have hh' : ¬Given ss' .help := fun ⟨x, hx, he⟩ => (checked_of_ok ss' _ _ hk).1 x hx he
    refine ⟨h2.args.symm.trans h4.args, ?_, ?_⟩
    · intro o ho
      cases o with
      | help => exact ⟨fun h => absurd h hh, fun h => absurd h hh'⟩
      | execute => exact absurd (.inl rfl) ho
      | file => exact absurd (.inr rfl) ho
      | debug => exact h2.debug.symm.trans h4.debug
      | stdin => exact h2.stdin.symm.trans h4.stdin
      | repl => exact h2.repl.symm.trans h4.repl
      | lines => exact h2.lines.symm.trans h4.lines
      | newline => exact h2.newline.symm.trans h4.newline
      | repr => exact h2.repr.symm.trans h4.repr
      | reprlines => exact h2.reprlines.symm.trans h4.reprlines
      | readlines => exact h2.readlines.symm.trans h4.readlines
      | space => exact h2.space.symm.trans h4.space
      | spacelines => exact h2.spacelines.symm.trans h4.spacelines
      | verbose => exact h2.verbose.symm.trans h4.verbose
      | version => exact h2.version.symm.trans h4.version
      | warnings => exact h2.warnings.symm.trans h4.warnings
      | execArgs => exact h2.execArgs.symm.trans h4.execArgs
    · rintro o (rfl | rfl)
      · exact h2.execute.symm.trans h4.execute
      · exact h2.file.symm.trans h4.file

/-- `pip -pw -e Pa -5 x --verb` -/
theorem line_example : Line [s% "-pw", s% "-e", s% "Pa", s% "-5", s% "x", s% "--verb"]
    [(.repr, none), (.warnings, none), (.execute, some (s% "Pa")), (.verbose, none)] [s% "-5", s% "x"] := by
  have h1 : Opts [s% "-pw", s% "-e", s% "Pa"] [(.repr, none), (.warnings, none), (.execute, some (s% "Pa"))] :=
    .word (ss := [(.repr, none), (.warnings, none)]) (.short [.repr, .warnings] (by simp) (by simp [HasArg]))
      (.lead (ss := []) (o := .execute) (.short [] (by simp) .execute (.inl rfl)) (.noDash _ (by decide)) .nil)
  have h2 : Opts [s% "--verb"] [(.verbose, none)] :=
    .word (ss := [(.verbose, none)]) (.long (s% "verb") (by decide) .verbose (by simp [HasArg])
      (.inr ⟨by decide, fun o => by cases o <;> decide⟩)) .nil
  refine Line.plain [s% "-5", s% "x"] h1 ?_ h2
  intro a ha
  rcases List.mem_cons.1 ha with rfl | ha
  · refine .other _ (fun o t => by cases o <;> simp [letter]) (fun n o h => by cases h) (.inl ⟨s% "5", [], [], ?_, by simp, .inl rfl, .inl ⟨by simp, rfl⟩⟩)
    intro c hc
    rw [List.mem_singleton.1 hc]
    decide
  · rw [List.mem_singleton.1 ha]
    exact .noDash _ (by decide)

example : Compatible [(.repr, none), (.warnings, none), (.execute, some (s% "Pa")), (.verbose, none)] := by
  unfold Compatible Clash
  decide
example : parseArgs [s% "-pw", s% "-e", s% "Pa", s% "-5", s% "x", s% "--verb"] =
    .ok { repr := true, warnings := true, execute := some (s% "Pa"), verbose := true, args := [s% "-5", s% "x"] } := by decide +kernel
/-- `-n` and `-p` exclude each other. -/
example : ¬Compatible [(.newline, none), (.repr, none)] := by
  unfold Compatible Clash
  decide
example : parseArgs [s% "-np"] = .error .usage := by decide +kernel
/-- The same option twice is not an error; the last argument counts. -/
example : parseArgs [s% "-e1", s% "-e=2", s% "--execu=3"] = .ok { execute := some (s% "3") } := by decide +kernel
/-- Arguments in two places -/
example : parseArgs [s% "a", s% "-p", s% "b"] = .error .usage := by decide +kernel
example : parseArgs [s% "-p", s% "a", s% "--", s% "-p"] = .ok { repr := true, args := [s% "a", s% "-p"] } := by decide +kernel
example : parseArgs [s% "--re"] = .error .usage := by decide +kernel
example : parseArgs [s% "-wh", s% "--repr"] = .error .help := by decide +kernel

/-! ### C111: the whole program -/

/-- The format of Lists that an option chooses -/
def fmtOf : Opt → Fmt
  | .repr => .p
  | .reprlines => .P
  | .space => .s
  | .spacelines => .S
  | .newline => .n
  | .lines => .l
  | _ => .none

/-- The format of Lists: that of the format option given, and `-d` implies `-p`. -/
def Chooses (ss : List Setting) (f : Fmt) : Prop :=
  (Given ss .debug ∧ f = .p) ∨ (¬Given ss .debug ∧
    ((∃ o ∈ formats, Given ss o ∧ f = fmtOf o) ∨ ((∀ o ∈ formats, ¬Given ss o) ∧ f = .none)))

/-- Where the code comes from: the code, the arguments that remain and the standard input that remains -/
inductive Source (files : Str → Option Str) (ss : List Setting) (args inp : List Str) : Str → List Str → List Str → Prop
  | execute (c : Str) (h : lastArg ss .execute = some c) : Source files ss args inp c args inp
  | file (f c : Str) (h : lastArg ss .file = some f) (hf : files f = some c) : Source files ss args inp c args inp
  | stdin (h : Given ss .stdin) : Source files ss args inp (joinStr (s% "\n") inp) args []
  | first (f c : Str) (rest : List Str) (h : ∀ o ∈ sources, ¬Given ss o) (ha : args = f :: rest) (hf : files f = some c) :
    Source files ss args inp c rest inp

theorem lastArg_given {ss : List Setting} {o : Opt} {x : Str} (h : lastArg ss o = some x) : Given ss o := by
  unfold lastArg at h
  cases hl : (ss.filter fun y => y.1 = o).getLast? with
  | none => rw [hl] at h; cases h
  | some y =>
    have := List.mem_of_getLast? hl
    rw [List.mem_filter] at this
    exact ⟨y, this.1, by simpa using this.2⟩

theorem lastArg_none {ss : List Setting} {o : Opt} (h : ¬Given ss o) : lastArg ss o = none := by
  cases hl : lastArg ss o with
  | none => rfl
  | some x => exact absurd (lastArg_given hl) h

theorem Compatible.not_given {ss : List Setting} (hc : Compatible ss) {a b : Opt} (ha : Given ss a) (h : Clash a b) : ¬Given ss b := by
  rintro ⟨y, hy, rfl⟩
  obtain ⟨x, hx, rfl⟩ := ha
  exact hc x hx y hy h

theorem chooses_unique {r : Options} {ss : List Setting} {args : List Str} (hm : Meets r ss args) (hc : Compatible ss) {f : Fmt}
    (h : Chooses ss f) : r.effective.listFormat = f := by
  have no : ∀ o ∈ formats, ∀ o' ∈ formats, Given ss o → o' ≠ o → ¬Given ss o' :=
    fun o ho o' ho' hg hne => hc.not_given hg ⟨hne.symm, .inr ⟨ho, ho'⟩⟩
  have cv : ∀ {b : Bool} {o : Opt}, (b = true ↔ Given ss o) → ¬Given ss o → b = false := by
    intro b o hb hn
    cases b with
    | false => rfl
    | true => exact absurd (hb.1 rfl) hn
  rcases h with ⟨hd, rfl⟩ | ⟨hd, h⟩
  · simp [Options.effective, hm.debug.2 hd, Options.listFormat]
  · have hd := cv hm.debug hd
    simp only [Options.effective, hd, Bool.false_eq_true, if_false, Options.listFormat]
    rcases h with ⟨o, ho, hg, rfl⟩ | ⟨hn, rfl⟩
    · have hno := fun o' ho' => no o ho o' ho' hg
      simp only [formats, List.mem_cons, List.not_mem_nil, or_false] at ho
      rcases ho with rfl | rfl | rfl | rfl | rfl | rfl
      · rw [cv hm.repr (hno _ (by decide) (by decide)), cv hm.reprlines (hno _ (by decide) (by decide)),
          cv hm.space (hno _ (by decide) (by decide)), cv hm.spacelines (hno _ (by decide) (by decide)),
          cv hm.newline (hno _ (by decide) (by decide)), hm.lines.2 hg]
        rfl
      · rw [cv hm.repr (hno _ (by decide) (by decide)), cv hm.reprlines (hno _ (by decide) (by decide)),
          cv hm.space (hno _ (by decide) (by decide)), cv hm.spacelines (hno _ (by decide) (by decide)), hm.newline.2 hg]
        rfl
      · rw [hm.repr.2 hg]; rfl
      · rw [cv hm.repr (hno _ (by decide) (by decide)), hm.reprlines.2 hg]; rfl
      · rw [cv hm.repr (hno _ (by decide) (by decide)), cv hm.reprlines (hno _ (by decide) (by decide)), hm.space.2 hg]; rfl
      · rw [cv hm.repr (hno _ (by decide) (by decide)), cv hm.reprlines (hno _ (by decide) (by decide)),
          cv hm.space (hno _ (by decide) (by decide)), hm.spacelines.2 hg]
        rfl
    · rw [cv hm.repr (hn _ (by decide)), cv hm.reprlines (hn _ (by decide)), cv hm.space (hn _ (by decide)),
        cv hm.spacelines (hn _ (by decide)), cv hm.newline (hn _ (by decide)), cv hm.lines (hn _ (by decide))]
      rfl

theorem main_args {X : Ext} {n : Nat} {files : Str → Option Str} {ws : List Str} (hw : ws ≠ []) (inp : List Str) (rng : X.Rng) :
    mainWith X n files ws inp rng = pipWith X n files none false ws inp [] rng := by
  cases ws with
  | nil => exact absurd rfl hw
  | cons w ws => cases inp <;> rfl

/-- A command line that is not accepted: nothing runs and nothing is written to standard output by the interpreter, and the exit
code is 0 for the help and 2 otherwise. -/
theorem C111_rejected (X : Ext) (n : Nat) (files : Str → Option Str) (ws : List Str) (hw : ws ≠ []) (inp : List Str) (rng : X.Rng) (q : Quit)
    (h : parseArgs ws = .error q) : (mainWith X n files ws inp rng).1 = [] ∧ ((mainWith X n files ws inp rng).2.code = 0 ↔ q = .help) ∧
      ((mainWith X n files ws inp rng).2.code = 2 ↔ q = .usage) := by
  rw [main_args hw, pipWith, h]
  cases q <;> simp [End.code]

/-- `-V` prints the version and runs nothing, whatever else is given. -/
theorem C111_version (X : Ext) (n : Nat) (files : Str → Option Str) (ws : List Str) (inp : List Str) (rng : X.Rng) (ss : List Setting)
    (args : List Str) (h : Line ws ss args) (hc : Compatible ss) (hh : ¬Given ss .help) (hw : ws ≠ []) (hv : Given ss .version) :
    mainWith X n files ws inp rng = (s% "Pip 1.2.0 (updated 2024-03-30)\n", .done) := by
  obtain ⟨r, h1, h2⟩ := C110_accepts ws ss args h hc hh
  rw [main_args hw, pipWith, h1]
  simp only [h2.version.2 hv, if_true, List.nil_append]

theorem not_true {b : Bool} {p : Prop} (h : b = true ↔ p) (hn : ¬p) : b = false := by
  cases b with
  | false => rfl
  | true => exact absurd (h.1 rfl) hn

/-- `-R` starts the interactive mode with the format of Lists chosen. -/
theorem C111_repl (X : Ext) (n : Nat) (files : Str → Option Str) (ws : List Str) (inp : List Str) (rng : X.Rng) (ss : List Setting)
    (args : List Str) (h : Line ws ss args) (hc : Compatible ss) (hh : ¬Given ss .help) (hw : ws ≠ []) (hv : ¬Given ss .version)
    (hr : Given ss .repl) (f : Fmt) (hf : Chooses ss f) :
    mainWith X n files ws inp rng = ended (repl (run (X.withFmt f) n) (St.init (X.withFmt f) inp rng)) .repl := by
  obtain ⟨r, h1, h2⟩ := C110_accepts ws ss args h hc hh
  have hr : r.effective.repl = true := by
    unfold Options.effective
    split <;> exact h2.repl.2 hr
  rw [main_args hw, pipWith, h1]
  simp only [not_true h2.version hv, Bool.false_eq_true, if_false, pipOpts, hr, if_true]
  have e := chooses_unique h2 hc hf
  subst e
  rfl

/-- The text that the program is given by `-r`: with it the arguments are the lines of the remaining standard input. -/
def Takes (ss : List Setting) (args inp args' inp' : List Str) : Prop :=
  (¬Given ss .readlines ∧ args' = args ∧ inp' = inp) ∨ (Given ss .readlines ∧ args' = inp ∧ inp' = [])

theorem source_text {X : Ext} {files : Str → Option Str} {ss : List Setting} {args inp : List Str} {c : Str} {args' inp' : List Str}
    {r : Options} (hm : Meets r ss args) (hc : Compatible ss) (hs : Source files ss args inp c args' inp') (hr : ¬Given ss .repl)
    (s : St X) (hi : s.inp = inp) : programText files none false r s = (.ok (some (c, args')), { s with inp := inp' }) := by
  subst hi
  have no : ∀ {a b : Opt}, Given ss a → a ∈ sources → b ∈ sources → a ≠ b → ¬Given ss b :=
    fun ha h1 h2 h3 => hc.not_given ha ⟨h3, .inl ⟨h1, h2⟩⟩
  cases hs with
  | execute _ h =>
    unfold programText
    rw [hm.execute, h, hm.args]
    rfl
  | file f _ h hf =>
    have he := lastArg_none (no (lastArg_given h) (b := .execute) (by decide) (by decide) (by decide))
    unfold programText
    rw [hm.execute, hm.file, he, h, hm.args]
    simp only [programText.fromFile, Bool.false_eq_true, if_false, M.bind_apply, M.pure_apply, hf]
  | stdin h =>
    have he := lastArg_none (no h (b := .execute) (by decide) (by decide) (by decide))
    have hf := lastArg_none (no h (b := .file) (by decide) (by decide) (by decide))
    unfold programText
    rw [hm.execute, hm.file, hm.stdin.2 h, he, hf]
    simp only [programText.fromInput, M.bind_apply, M.readAll, M.pure_apply, hm.args]
  | first f _ _ h ha hf =>
    have he := lastArg_none (h .execute (by decide))
    have hf' := lastArg_none (h .file (by decide))
    unfold programText
    rw [hm.execute, hm.file, not_true hm.stdin (h .stdin (by decide)), he, hf', hm.args, ha]
    simp only [programText.fromFile, Bool.false_eq_true, if_false, M.bind_apply, M.pure_apply, hf]

/-- A program is run on its arguments with the format of Lists chosen; its output is the output of the process, whose exit code is 0
if it ends normally and 1 if it raises an exception. -/
theorem C111_program (X : Ext) (n : Nat) (files : Str → Option Str) (ws : List Str) (inp : List Str) (rng : X.Rng) (ss : List Setting)
    (args : List Str) (h : Line ws ss args) (hc : Compatible ss) (hw : ws ≠ [])
    (hn : ∀ o ∈ [Opt.help, .version, .repl, .debug, .verbose, .execArgs], ¬Given ss o) (f : Fmt) (hf : Chooses ss f)
    (code : Str) (args1 inp1 : List Str) (hs : Source files ss args inp code args1 inp1) (args2 inp2 : List Str)
    (ht : Takes ss args1 inp1 args2 inp2) (sts : List Tree) (hp : parseText code = .ok sts) :
    mainWith X n files ws inp rng =
      ended (executeProgram (run (X.withFmt f) n) sts (args2.map .scalar) (St.init (X.withFmt f) inp2 rng)) fun _ => .done := by
  obtain ⟨r, h1, h2⟩ := C110_accepts ws ss args h hc (hn _ (by decide))
  have hd := not_true h2.debug (hn _ (by decide))
  have he : r.effective = r := by simp [Options.effective, hd]
  have e := chooses_unique h2 hc hf
  rw [main_args hw, pipWith, h1]
  simp only [not_true h2.version (hn _ (by decide)), Bool.false_eq_true, if_false]
  rw [he] at e ⊢
  simp only [pipOpts, not_true h2.repl (hn _ (by decide)), Bool.false_eq_true, if_false]
  subst e
  congr 1
  unfold pipRun
  rw [M.bind_apply, source_text h2 hc hs (hn _ (by decide)) _ rfl]
  have hp' : ∀ s : St (X.withFmt r.listFormat), (M.lift (parseText code) : M _ _) s = (.ok sts, s) := by intro s; rw [hp]; rfl
  simp only [M.bind_apply, hp', not_true h2.verbose (hn _ (by decide)), not_true h2.execArgs (hn _ (by decide)), Bool.false_eq_true, if_false, M.pure_apply]
  rcases ht with ⟨hr, rfl, rfl⟩ | ⟨hr, rfl, rfl⟩
  · simp only [not_true h2.readlines hr, Bool.false_eq_true, if_false, M.pure_apply]
    rfl
  · simp only [h2.readlines.2 hr, if_true, M.readAll]
    rfl

theorem parseText_repr {v : Val} (h : Data v) : parseText v.repr = .ok [valTree v] := by
  have h1 := scan_repr_plain h
  unfold parseText
  rw [h1]
  exact parseAll_ev h1 (parse_repr h)

theorem runs_execArg {X : Ext} {v w : Val} (h : ReadsBack X v w) (s : St X) : Runs (fun R => execArg R v.repr) s (.ok w, s) := by
  obtain ⟨_, n, hn⟩ := (evals_reads h s).1
  refine ⟨by simp, n, fun m hm => ?_⟩
  have hp : (M.lift (parseText v.repr) : M X _) s = (.ok [valTree v], s) := by rw [parseText_repr (data_reads h)]; rfl
  unfold execArg
  simp only [M.bind_apply, hp, show (run X m).ev (valTree v) s = _ from hn m hm]
  rfl

theorem runs_execArgs {X : Ext} : ∀ (l m : List Val), ReadsBack X (.list l) (.list m) → ∀ s : St X,
    Runs (fun R => mapL (execArg R) (l.map Val.repr)) s (.ok m, s)
  | [], m, h, s => by cases h; exact runs_pure.2 rfl
  | v :: l, m, h, s => by
    cases h with
    | item h1 h2 =>
      exact (runs_execArg h1 s).then (f := fun y R => mapL (execArg R) (l.map Val.repr) >>= fun ys => pure (y :: ys))
        ((runs_execArgs l _ h2 s).then (runs_pure.2 rfl))

/-- With `-x` the texts of values stand for the values: the program is run on what they are read back as. -/
theorem C111_values (X : Ext) (files : Str → Option Str) (ws : List Str) (inp : List Str) (rng : X.Rng) (ss : List Setting)
    (args : List Str) (h : Line ws ss args) (hc : Compatible ss) (hw : ws ≠ []) (hx : Given ss .execArgs)
    (hn : ∀ o ∈ [Opt.help, .version, .repl, .debug, .verbose], ¬Given ss o) (f : Fmt) (hf : Chooses ss f)
    (code : Str) (args1 inp1 : List Str) (hs : Source files ss args inp code args1 inp1) (vals : List Val) (inp2 : List Str)
    (ht : Takes ss args1 inp1 (vals.map Val.repr) inp2) (back : List Val) (hb : ReadsBack (X.withFmt f) (.list vals) (.list back))
    (sts : List Tree) (hp : parseText code = .ok sts) :
    ∃ N, ∀ n, N ≤ n → mainWith X n files ws inp rng =
      ended (executeProgram (run (X.withFmt f) n) sts back (St.init (X.withFmt f) inp2 rng)) fun _ => .done := by
  obtain ⟨r, h1, h2⟩ := C110_accepts ws ss args h hc (hn _ (by decide))
  have hd := not_true h2.debug (hn _ (by decide))
  have he : r.effective = r := by simp [Options.effective, hd]
  have e := chooses_unique h2 hc hf
  rw [he] at e
  subst e
  obtain ⟨_, N, hN⟩ := runs_execArgs vals back hb (St.init (X.withFmt r.listFormat) inp2 rng)
  refine ⟨N, fun n hle => ?_⟩
  rw [main_args hw, pipWith, h1]
  simp only [not_true h2.version (hn _ (by decide)), Bool.false_eq_true, if_false]
  rw [he]
  simp only [pipOpts, not_true h2.repl (hn _ (by decide)), Bool.false_eq_true, if_false]
  congr 1
  unfold pipRun
  rw [M.bind_apply, source_text h2 hc hs (hn _ (by decide)) _ rfl]
  have hp' : ∀ s : St (X.withFmt r.listFormat), (M.lift (parseText code) : M _ _) s = (.ok sts, s) := by intro s; rw [hp]; rfl
  have hN' : ∀ s : St (X.withFmt r.listFormat), s = St.init (X.withFmt r.listFormat) inp2 rng →
      mapL (execArg (run (X.withFmt r.listFormat) n)) (vals.map Val.repr) s = (.ok back, s) := by rintro s rfl; exact hN n hle
  simp only [M.bind_apply, hp', not_true h2.verbose (hn _ (by decide)), h2.execArgs.2 hx, if_true, Bool.false_eq_true, if_false]
  rcases ht with ⟨hr, e1, rfl⟩ | ⟨hr, e1, rfl⟩
  · simp only [not_true h2.readlines hr, Bool.false_eq_true, if_false, ← e1]
    exact M.bind_ok (hN' _ rfl)
  · simp only [h2.readlines.2 hr, if_true, ← e1]
    exact M.bind_ok (hN' _ rfl)

/-- A program with a syntax error, or a file that cannot be read: there is no output, and the exit code is 1. -/
theorem C111_broken (X : Ext) (n : Nat) (files : Str → Option Str) (ws : List Str) (inp : List Str) (rng : X.Rng) (ss : List Setting)
    (args : List Str) (h : Line ws ss args) (hc : Compatible ss) (hw : ws ≠ [])
    (hn : ∀ o ∈ [Opt.help, .version, .repl, .debug, .verbose], ¬Given ss o)
    (hb : (∃ code args1 inp1 e, Source files ss args inp code args1 inp1 ∧ parseText code = .error e) ∨
      (∃ f, lastArg ss .file = some f ∧ files f = none) ∨
      ((∀ o ∈ sources, ¬Given ss o) ∧ ∃ f rest, args = f :: rest ∧ files f = none)) :
    (mainWith X n files ws inp rng).1 = [] ∧ (mainWith X n files ws inp rng).2.code = 1 := by
  obtain ⟨r, h1, h2⟩ := C110_accepts ws ss args h hc (hn _ (by decide))
  have hd := not_true h2.debug (hn _ (by decide))
  have he : r.effective = r := by simp [Options.effective, hd]
  rw [main_args hw, pipWith, h1]
  simp only [not_true h2.version (hn _ (by decide)), Bool.false_eq_true, if_false]
  rw [he]
  simp only [pipOpts, not_true h2.repl (hn _ (by decide)), Bool.false_eq_true, if_false]
  have key : ∀ s : St (X.withFmt r.listFormat), s.inp = inp → s.out = [] → ∃ e s', pipRun (run (X.withFmt r.listFormat) n) files none false r s =
      (.error e, s') ∧ s'.out = [] := by
    intro s hi ho
    rcases hb with ⟨code, args1, inp1, e, hs, hp⟩ | ⟨f, hf, hn'⟩ | ⟨hn', f, rest, ha, hf⟩
    · refine ⟨e, { s with inp := inp1 }, ?_, ho⟩
      unfold pipRun
      rw [M.bind_apply, source_text h2 hc hs (hn _ (by decide)) _ hi]
      simp only [M.bind_apply, hp, not_true h2.verbose (hn _ (by decide)), Bool.false_eq_true, if_false]
      rfl
    · refine ⟨.fatal, s, ?_, ho⟩
      have hx := lastArg_none (hc.not_given (lastArg_given hf) (b := .execute) ⟨by decide, .inl ⟨by decide, by decide⟩⟩)
      unfold pipRun programText
      rw [M.bind_apply, h2.execute, h2.file, hx, hf]
      simp only [programText.fromFile, Bool.false_eq_true, if_false, M.bind_apply, M.pure_apply, hn']
      rfl
    · refine ⟨.fatal, s, ?_, ho⟩
      unfold pipRun programText
      rw [M.bind_apply, h2.execute, h2.file, not_true h2.stdin (hn' .stdin (by decide)), lastArg_none (hn' .execute (by decide)),
        lastArg_none (hn' .file (by decide)), h2.args, ha]
      simp only [programText.fromFile, Bool.false_eq_true, if_false, M.bind_apply, M.pure_apply, hf]
      rfl
  obtain ⟨e, s', h3, h4⟩ := key { St.init (X.withFmt r.listFormat) inp rng with out := [] } rfl rfl
  rw [h3]
  exact ⟨h4, rfl⟩

/-- Without options and arguments the command line is asked for, and then, unless it says where the code is, the code, which is
the rest of standard input. -/
theorem C111_interactive (X : Ext) (n : Nat) (files : Str → Option Str) (l : Str) (inp : List Str) (rng : X.Rng) (ss : List Setting)
    (args : List Str) (h : Line (splitArgs l) ss args) (hc : Compatible ss)
    (hn : ∀ o ∈ [Opt.help, .version, .debug, .verbose, .execArgs, .readlines], ¬Given ss o) (hs : ∀ o ∈ sources, ¬Given ss o)
    (f : Fmt) (hf : Chooses ss f) (sts : List Tree) (hp : parseText (joinStr (s% "\n") inp) = .ok sts) :
    mainWith X n files [] (l :: inp) rng =
      ended (executeProgram (run (X.withFmt f) n) sts (args.map .scalar) { St.init (X.withFmt f) [] rng with
        out := s% "=== Welcome to Pip, version 1.2.0 ===\nEnter command-line args, terminated by newline (-h for help, -R for repl):\nEnter your program, terminated by Ctrl-D or Ctrl-Z:\nExecuting...\n" })
        fun _ => .done := by
  obtain ⟨r, h1, h2⟩ := C110_accepts _ ss args h hc (hn _ (by decide))
  have hd := not_true h2.debug (hn _ (by decide))
  have he : r.effective = r := by simp [Options.effective, hd]
  have e := chooses_unique h2 hc hf
  show pipWith X n files none true (splitArgs l) inp welcome rng = _
  rw [pipWith, h1]
  simp only [not_true h2.version (hn _ (by decide)), Bool.false_eq_true, if_false]
  rw [he] at e ⊢
  simp only [pipOpts, not_true h2.repl (hs _ (by decide)), Bool.false_eq_true, if_false]
  subst e
  congr 1
  unfold pipRun programText
  rw [M.bind_apply, h2.execute, h2.file, not_true h2.stdin (hs .stdin (by decide)), lastArg_none (hs .execute (by decide)),
    lastArg_none (hs .file (by decide))]
  have hp' : ∀ s : St (X.withFmt r.listFormat), (M.lift (parseText (joinStr (s% "\n") inp)) : M _ _) s = (.ok sts, s) := by
    intro s; rw [hp]; rfl
  simp only [if_true, M.bind_apply, M.emit, programText.fromInput, M.readAll, M.pure_apply, St.init, hp',
    not_true h2.verbose (hn _ (by decide)), not_true h2.readlines (hn _ (by decide)), not_true h2.execArgs (hn _ (by decide)), Bool.false_eq_true, if_false, h2.args]
  rfl

/-- `pip -s -e [a;b] 3 4`, `pip prog 3 4`, and `pip` with the program on standard input -/
example : mainWith toyExt 40 (fun f => if f = s% "prog" then some (s% "a.b") else none)
    [s% "-s", s% "-e", s% "[a;b]", s% "3", s% "4"] [] () = (s% "3 4\n", .done) := by decide +kernel
example : mainWith toyExt 40 (fun f => if f = s% "prog" then some (s% "a.b") else none)
    [s% "prog", s% "3", s% "4"] [] () = (s% "34\n", .done) := by decide +kernel
example : mainWith toyExt 40 (fun _ => none) [s% "-xe", s% "a@1", s% "[3;[4;5];6]"] [] () = (s% "45\n", .done) := by decide +kernel
example : mainWith toyExt 40 (fun _ => none) [s% "-re", s% "a@1"] [s% "[3;[4;5];6]"] () = (s% "3\n", .done) := by decide +kernel
example : (mainWith toyExt 40 (fun _ => none) [] [s% "-s 'x y' 4", s% "[a", s% "b]"] ()).2 = .done := by decide +kernel
example : (mainWith toyExt 40 (fun _ => none) [s% "prog"] [] ()).2.code = 1 := by decide +kernel
example : Source (fun f => if f = s% "prog" then some (s% "a.b") else none) [(.repr, none)] [s% "prog", s% "3"] [] (s% "a.b") [s% "3"] [] :=
  .first _ _ _ (by rintro o ho ⟨x, hx, rfl⟩; rw [List.mem_singleton.1 hx] at ho; revert ho; decide) rfl (by decide)
example : Chooses [(.repr, none)] .p := .inr ⟨by simp [Given], .inl ⟨.repr, by decide, by simp [Given], rfl⟩⟩

end Pip.CmdLine
