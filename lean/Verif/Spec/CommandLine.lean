import Verif.Model.Cli
/-! What a command line of pip looks like, in terms of the letters and names of the options (documented by `pip -h`).
A word is one of the strings the shell passes to the program. -/

namespace Pip.CmdLine
open Cli (Opt)

/-- The letter of an option -/
def letter : Opt → Char
  | .help => 'h' | .debug => 'd' | .execute => 'e' | .file => 'f' | .stdin => 'i' | .repl => 'R' | .lines => 'l' | .newline => 'n'
  | .repr => 'p' | .reprlines => 'P' | .readlines => 'r' | .space => 's' | .spacelines => 'S' | .verbose => 'v' | .version => 'V'
  | .warnings => 'w' | .execArgs => 'x'

/-- The name of an option -/
def name : Opt → Str
  | .help => s% "help" | .debug => s% "debug" | .execute => s% "execute" | .file => s% "file" | .stdin => s% "stdin"
  | .repl => s% "repl" | .lines => s% "lines" | .newline => s% "newline" | .repr => s% "repr" | .reprlines => s% "reprlines"
  | .readlines => s% "readlines" | .space => s% "space" | .spacelines => s% "spacelines" | .verbose => s% "verbose"
  | .version => s% "version" | .warnings => s% "warnings" | .execArgs => s% "exec-args"

/-- Only `-e` and `-f` have an argument. -/
def HasArg (o : Opt) : Prop := o = .execute ∨ o = .file

/-- A name may be abbreviated if no other name begins like this. -/
def Means (t : Str) (o : Opt) : Prop := t = name o ∨ (t <+: name o ∧ ∀ o', t <+: name o' → o' = o)

/-- An option that is set, with its argument -/
abbrev Setting := Opt × Option Str

def flags (os : List Opt) : List Setting := os.map fun o => (o, none)

/-- The letters of options, which can be written together -/
def letters (os : List Opt) : Str := os.map letter

/-- A word with options that are complete -/
inductive Word : Str → List Setting → Prop
  /-- `-abc` -/
  | short (os : List Opt) (hn : os ≠ []) (h : ∀ o ∈ os, ¬HasArg o) : Word ('-' :: letters os) (flags os)
  /-- `-abcetext` -/
  | shortArg (os : List Opt) (h : ∀ o ∈ os, ¬HasArg o) (o : Opt) (ho : HasArg o) (t : Str) (hn : t ≠ []) (he : t.head? ≠ some '=') :
    Word ('-' :: (letters os ++ letter o :: t)) (flags os ++ [(o, some t)])
  /-- `-abce=text` -/
  | shortEq (os : List Opt) (h : ∀ o ∈ os, ¬HasArg o) (o : Opt) (ho : HasArg o) (t : Str) :
    Word ('-' :: (letters os ++ letter o :: '=' :: t)) (flags os ++ [(o, some t)])
  /-- `--name` -/
  | long (n : Str) (hn : n ≠ []) (o : Opt) (ho : ¬HasArg o) (h : Means n o) : Word ('-' :: '-' :: n) [(o, none)]
  /-- `--name=text` -/
  | longEq (n : Str) (o : Opt) (ho : HasArg o) (h : Means n o) (t : Str) : Word ('-' :: '-' :: (n ++ '=' :: t)) [(o, some t)]

/-- A word with options of which the last has its argument in the next word -/
inductive Lead : Str → List Setting → Opt → Prop
  /-- `-abce` -/
  | short (os : List Opt) (h : ∀ o ∈ os, ¬HasArg o) (o : Opt) (ho : HasArg o) : Lead ('-' :: (letters os ++ [letter o])) (flags os) o
  /-- `--execute` -/
  | long (n : Str) (hn : n ≠ []) (o : Opt) (ho : HasArg o) (h : Means n o) : Lead ('-' :: '-' :: n) [] o

/-- `-5`, `-.5`, `-1.5`, also with a newline at the end -/
def NegNumber (w : Str) : Prop :=
  ∃ i f e : Str, (∀ c ∈ i, isDigit c = true) ∧ (∀ c ∈ f, isDigit c = true) ∧ (e = [] ∨ e = ['\n']) ∧
    ((i ≠ [] ∧ w = '-' :: (i ++ e)) ∨ (f ≠ [] ∧ w = '-' :: (i ++ '.' :: (f ++ e))))

/-- A word that is an argument of the program: it does not begin with a dash, is only a dash, or does not begin like an option
and is a negative number or has a space in it. -/
inductive Plain : Str → Prop
  | noDash (w : Str) (h : w.head? ≠ some '-') : Plain w
  | dash : Plain ['-']
  | other (w : Str) (h1 : ∀ o t, w ≠ '-' :: letter o :: t) (h2 : ∀ n o, w = '-' :: '-' :: n → ¬n.takeWhile (· != '=') <+: name o)
      (h : NegNumber w ∨ ' ' ∈ w) : Plain w

/-- Words that are options and their arguments -/
inductive Opts : List Str → List Setting → Prop
  | nil : Opts [] []
  | word {w : Str} {ss : List Setting} {ws : List Str} {ts : List Setting} (h : Word w ss) (r : Opts ws ts) : Opts (w :: ws) (ss ++ ts)
  | lead {w : Str} {ss : List Setting} {o : Opt} {b : Str} {ws : List Str} {ts : List Setting} (h : Lead w ss o) (hb : Plain b)
      (r : Opts ws ts) : Opts (w :: b :: ws) (ss ++ (o, some b) :: ts)

/-- A command line with the options it sets and the arguments of the program: they come one after another, before, after or
between options. Everything after `--` is an argument. -/
inductive Line : List Str → List Setting → List Str → Prop
  | plain {ws ws' : List Str} {ss ss' : List Setting} (args : List Str) (h : Opts ws ss) (ha : ∀ a ∈ args, Plain a) (h' : Opts ws' ss') :
    Line (ws ++ args ++ ws') (ss ++ ss') args
  | dashes {ws : List Str} {ss : List Setting} (args rest : List Str) (h : Opts ws ss) (ha : ∀ a ∈ args, Plain a) :
    Line (ws ++ args ++ s% "--" :: rest) ss (args ++ rest)

/-- Options of which at most one may be given: where the code comes from -/
def sources : List Opt := [.execute, .file, .stdin, .repl]
/-- Likewise: the format of Lists -/
def formats : List Opt := [.lines, .newline, .repr, .reprlines, .space, .spacelines]

/-- Two options exclude each other. -/
def Clash (a b : Opt) : Prop := a ≠ b ∧ ((a ∈ sources ∧ b ∈ sources) ∨ (a ∈ formats ∧ b ∈ formats))

/-- No two options exclude each other. -/
def Compatible (ss : List Setting) : Prop := ∀ x ∈ ss, ∀ y ∈ ss, ¬Clash x.1 y.1

/-- Is an option set? -/
def Given (ss : List Setting) (o : Opt) : Prop := ∃ x ∈ ss, x.1 = o

/-- The argument of an option: the last one -/
def lastArg (ss : List Setting) (o : Opt) : Option Str := ((ss.filter fun x => x.1 = o).getLast?).bind (·.2)

/-- Exactly these options are set, and these are the arguments. -/
structure Meets (r : Options) (ss : List Setting) (args : List Str) : Prop where
  debug : r.debug = true ↔ Given ss .debug
  execute : r.execute = lastArg ss .execute
  file : r.file = lastArg ss .file
  stdin : r.stdin = true ↔ Given ss .stdin
  repl : r.repl = true ↔ Given ss .repl
  lines : r.lines = true ↔ Given ss .lines
  newline : r.newline = true ↔ Given ss .newline
  repr : r.repr = true ↔ Given ss .repr
  reprlines : r.reprlines = true ↔ Given ss .reprlines
  readlines : r.readlines = true ↔ Given ss .readlines
  space : r.space = true ↔ Given ss .space
  spacelines : r.spacelines = true ↔ Given ss .spacelines
  verbose : r.verbose = true ↔ Given ss .verbose
  version : r.version = true ↔ Given ss .version
  warnings : r.warnings = true ↔ Given ss .warnings
  execArgs : r.execArgs = true ↔ Given ss .execArgs
  args : r.args = args

end Pip.CmdLine
