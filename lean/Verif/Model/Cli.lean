import Verif.Model.Main
/-! The command line (pip.py:110-189) as `argparse` of Python 3.11 reads it: the table of options is pip's, the algorithm is
transcribed from `ArgumentParser._parse_known_args` for parsers with one positional argument (`nargs="*"`) and options
with no or one argument. The texts of the help and of the error messages are not modelled. -/

namespace Pip.Cli

inductive Opt where
  | help | debug | execute | file | stdin | repl | lines | newline | repr | reprlines | readlines | space | spacelines | verbose
  | version | warnings | execArgs
  deriving DecidableEq, Repr

/-- The option strings in the order of their definition (pip.py:113-185); argparse adds `-h`. -/
def table : List (Str × Opt) :=
  [(s% "-h", .help), (s% "--help", .help), (s% "-d", .debug), (s% "--debug", .debug), (s% "-e", .execute), (s% "--execute", .execute),
    (s% "-f", .file), (s% "--file", .file), (s% "-i", .stdin), (s% "--stdin", .stdin), (s% "-R", .repl), (s% "--repl", .repl),
    (s% "-l", .lines), (s% "--lines", .lines), (s% "-n", .newline), (s% "--newline", .newline), (s% "-p", .repr), (s% "--repr", .repr),
    (s% "-P", .reprlines), (s% "--reprlines", .reprlines), (s% "-r", .readlines), (s% "--readlines", .readlines), (s% "-s", .space),
    (s% "--space", .space), (s% "-S", .spacelines), (s% "--spacelines", .spacelines), (s% "-v", .verbose), (s% "--verbose", .verbose),
    (s% "-V", .version), (s% "--version", .version), (s% "-w", .warnings), (s% "--warnings", .warnings), (s% "-x", .execArgs),
    (s% "--exec-args", .execArgs)]

/-- The options with an argument -/
def Opt.takes : Opt → Bool
  | .execute | .file => true
  | _ => false

/-- The mutually exclusive groups: 1 are the code sources, 2 the list formats (pip.py:111-112). -/
def Opt.group : Opt → Nat
  | .execute | .file | .stdin | .repl => 1
  | .lines | .newline | .repr | .reprlines | .space | .spacelines => 2
  | _ => 0

/-- How argparse ends the program: with the help text (exit code 0) or an error message (exit code 2) -/
inductive Quit where
  | help | usage
  deriving DecidableEq, Repr

/-- What an argument string is taken for: an argument, `--`, or an option with its name in the table, whether `=` followed,
and the text attached to it; `unknown` looks like an option but is none. -/
inductive Kind where
  | arg | dashes | opt (o : Opt) (single sep : Bool) (text : Option Str) | unknown
  deriving DecidableEq, Repr

/-- `str.partition('=')` -/
def cutEq : Str → Str × Option Str
  | [] => ([], none)
  | c :: s => if c = '=' then ([], some s) else ((c :: (cutEq s).1), (cutEq s).2)

/-- `\d+$`, where `$` also matches before a newline at the end -/
def digitsEnd (s : Str) : Bool :=
  let r := s.dropWhile isDigit
  (s.takeWhile isDigit) ≠ [] && (r = [] || r = ['\n'])

/-- `_negative_number_matcher`: `^-\d+$|^-\d*\.\d+$` -/
def negNumber : Str → Bool
  | '-' :: s => digitsEnd s || (match s.dropWhile isDigit with | '.' :: r => digitsEnd r | _ => false)
  | _ => false

/-- The second character is a dash: the name is a long one -/
def isSingle : Str → Bool
  | _ :: '-' :: _ => false
  | _ => true

/-- `_parse_optional` with `_get_option_tuples` -/
def classify1 (a : Str) : Except Quit Kind :=
  match a with
  | '-' :: rest =>
    match table.lookup a with
    | some o => .ok (.opt o (isSingle a) false none)
    | none =>
      if rest = [] then .ok .arg
      else
        match (cutEq a).2, table.lookup (cutEq a).1 with
        | some x, some o => .ok (.opt o (isSingle (cutEq a).1) true (some x))
        | _, _ =>
          match rest with
          | '-' :: _ =>
            match table.filter (fun p => (cutEq a).1.isPrefixOf p.1) with
            | [p] => .ok (.opt p.2 false (cutEq a).2.isSome (cutEq a).2)
            | [] => other
            | _ => .error .usage
          | c :: text =>
            match table.lookup ['-', c] with
            | some o => .ok (.opt o true false (some text))
            | none => other
          | [] => .ok .arg
  | _ => .ok .arg
where
  other : Except Quit Kind := if negNumber a || a.elem ' ' then .ok .arg else .ok .unknown

/-- The kinds of all argument strings -/
def classify : List Str → Except Quit (List (Str × Kind))
  | [] => .ok []
  | a :: l =>
    if a = s% "--" then .ok ((a, .dashes) :: l.map fun b => (b, .arg))
    else do
      let k ← classify1 a
      let ks ← classify l
      return (a, k) :: ks

/-- The options in one argument string: those that are complete, the one that needs the next string, and what is not known -/
abbrev Found := List (Opt × Option Str) × Option Opt × List Str

/-- An option with nothing attached to it -/
def alone (o : Opt) : Found := if o.takes then ([], some o, []) else ([(o, none)], none, [])

/-- An option with a text attached to it (`consume_optional`): its argument, or further options without dashes -/
def attached : Str → Opt → Bool → Bool → Except Quit Found
  | [], o, _, _ => if o.takes then .ok ([(o, some [])], none, []) else .error .usage
  | c :: t, o, single, sep =>
    if o.takes then .ok ([(o, some (c :: t))], none, [])
    else if !single || sep || c = '-' then .error .usage
    else
      match table.lookup ['-', c] with
      | none => .ok ([(o, none)], none, ['-' :: c :: t])
      | some o' =>
        match t with
        | [] => .ok ((o, none) :: (alone o').1, (alone o').2)
        | d :: t' => do
          let r ← if d = '=' then attached t' o' true true else attached (d :: t') o' true false
          return ((o, none) :: r.1, r.2)

def explode (o : Opt) (single sep : Bool) : Option Str → Except Quit Found
  | none => .ok (alone o)
  | some t => attached t o single sep

/-- The namespace, the options seen, whether the positional arguments are complete, and the strings that are not recognised -/
structure Cst where
  opts : Options := {}
  seen : List Opt := []
  /-- no argument yet, in the arguments, or after them -/
  phase : Nat := 0
  extras : List Str := []

def setOpt (o : Options) : Opt → Option Str → Options
  | .help, _ => o
  | .debug, _ => { o with debug := true }
  | .execute, x => { o with execute := x }
  | .file, x => { o with file := x }
  | .stdin, _ => { o with stdin := true }
  | .repl, _ => { o with repl := true }
  | .lines, _ => { o with lines := true }
  | .newline, _ => { o with newline := true }
  | .repr, _ => { o with repr := true }
  | .reprlines, _ => { o with reprlines := true }
  | .readlines, _ => { o with readlines := true }
  | .space, _ => { o with space := true }
  | .spacelines, _ => { o with spacelines := true }
  | .verbose, _ => { o with verbose := true }
  | .version, _ => { o with version := true }
  | .warnings, _ => { o with warnings := true }
  | .execArgs, _ => { o with execArgs := true }

/-- `take_action` for an option -/
def take (s : Cst) (x : Opt × Option Str) : Except Quit Cst :=
  if s.seen.any fun o => o ≠ x.1 && o.group = x.1.group && o.group ≠ 0 then .error .usage
  else if x.1 = .help then .error .help
  else .ok { s with opts := setOpt s.opts x.1 x.2, seen := x.1 :: s.seen }

def takeAll : Cst → List (Opt × Option Str) → Except Quit Cst
  | s, [] => .ok s
  | s, x :: l => do
    let s' ← take s x
    takeAll s' l

/-- After an option the positional arguments, if there were any, are complete. -/
def Cst.close (s : Cst) : Cst := { s with phase := if s.phase = 1 then 2 else s.phase }

/-- The main loop. The first run of arguments becomes `args` without the `--`, further ones are not recognised. -/
def loop : List (Str × Kind) → Cst → Except Quit Cst
  | [], s => .ok s
  | (a, .arg) :: l, s =>
    if s.phase = 2 then loop l { s with extras := s.extras ++ [a] }
    else loop l { s with phase := 1, opts := { s.opts with args := s.opts.args ++ [a] } }
  | (a, .dashes) :: l, s =>
    if s.phase = 2 then loop l { s with extras := s.extras ++ [a] }
    else loop l { s with phase := 1 }
  | (a, .unknown) :: l, s => loop l { s.close with extras := s.extras ++ [a] }
  | (_, .opt o single sep text) :: l, s => do
    let (done, pending, ex) ← explode o single sep text
    match pending with
    | none => do
      let s ← takeAll { s.close with extras := s.extras ++ ex } done
      loop l s
    | some o' =>
      match l with
      | (b, .arg) :: l => do
        let s ← takeAll s.close (done ++ [(o', some b)])
        loop l s
      | _ => .error .usage

/-- `argparser.parse_args(argv)` (pip.py:187-192) -/
def parseArgs (argv : List Str) : Except Quit Options := do
  let ks ← classify argv
  let s ← loop ks {}
  if s.extras = [] then return s.opts else .error .usage

/-! ### The whole program -/

/-- How a call of the interpreter ends: normally, in argparse, with an exception (FatalError, which `main` turns into
the exit code 1, or another one, which is not caught), at the end of the input of an interactive call, or in the
read-eval-print loop -/
inductive End where
  | done | argparse (q : Quit) | raised (e : Exc) | eof | repl (e : ReplEnd)
  deriving DecidableEq, Repr

/-- The exit code of the process. SystemExit is raised by argparse; Python ends with 1 for exceptions that are not caught. -/
def End.code : End → Nat
  | .done => 0
  | .argparse .help => 0
  | .argparse .usage => 2
  | .raised _ => 1
  | .eof => 1
  | .repl .bye => 0
  | .repl _ => 1

/-- What goes to standard output and how a computation ends -/
def ended {X : Ext} {α : Type} (r : Except Exc α × St X) (f : α → End) : Str × End :=
  match r.1 with
  | .ok a => (r.2.out, f a)
  | .error e => (r.2.out, .raised e)

/-- `pip` with the options as `-d` has changed them (pip.py:197-325): the output, beginning with `out`, and how it ends. -/
def pipOpts (X : Ext) (n : Nat) (files : Str → Option Str) (code : Option Str) (interactive : Bool) (o : Options)
    (inp : List Str) (out : Str) (rng : X.Rng) : Str × End :=
  let X' := X.withFmt o.listFormat
  let s : St X' := { St.init X' inp rng with out := out }
  if o.repl then ended (repl (run X' n) s) .repl
  else ended (pipRun (run X' n) files code interactive o s) fun _ => .done

/-- `pip` (pip.py:69-325) after the arguments are split. The text of the help is not modelled. -/
def pipWith (X : Ext) (n : Nat) (files : Str → Option Str) (code : Option Str) (interactive : Bool) (argv : List Str)
    (inp : List Str) (out : Str) (rng : X.Rng) : Str × End :=
  match parseArgs argv with
  | .error q => (out, .argparse q)
  | .ok o =>
    if o.version then (out ++ s% "Pip 1.2.0 (updated 2024-03-30)\n", .done)
    else pipOpts X n files code interactive o.effective inp out rng

/-- The greeting of an interactive call (pip.py:73-75) -/
def welcome : Str :=
  s% "=== Welcome to Pip, version 1.2.0 ===\nEnter command-line args, terminated by newline (-h for help, -R for repl):\n"

/-- `main` (pip.py:41-51, 72-76): with no arguments the command line is read from standard input. -/
def mainWith (X : Ext) (n : Nat) (files : Str → Option Str) (argv : List Str) (inp : List Str) (rng : X.Rng) : Str × End :=
  match argv, inp with
  | [], [] => (welcome, .eof)
  | [], l :: inp => pipWith X n files none true (splitArgs l) inp welcome rng
  | argv, inp => pipWith X n files none false argv inp [] rng

end Pip.Cli
