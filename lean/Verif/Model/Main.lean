import Verif.Model.Eval
/-! The main program (pip.py): the splitter for simulated command lines, the choice of the list format, running a
program and the read-eval-print loop.

Not modelled: the layout of the parse tree that `-v` prints (see `Ext.pprint`), the text on standard error, KeyboardInterrupt. The command line is in `Model/Cli.lean`. -/

namespace Pip

/-! ### The simulated command line -/

/-- The state of the loop at pip.py:91-109: the open quote, the buffer (`none` for None), the arguments so far -/
structure Split where
  quote : Option Char
  buffer : Option Str
  argv : List Str

/-- `buffer or ""` -/
def orEmpty (b : Option Str) : Str := b.getD []

/-- One character (pip.py:92-109) -/
def Split.step (st : Split) (c : Char) : Split :=
  if c = '\'' ∨ c = '"' then
    match st.quote with
    | none => { st with quote := some c, buffer := some (orEmpty st.buffer) }
    | some q => if q = c then { st with quote := none } else { st with buffer := some (orEmpty st.buffer ++ [c]) }
  else if c = ' ' ∧ st.quote = none then
    match st.buffer with
    | some b => { st with argv := st.argv ++ [b], buffer := none }
    | none => st
  else { st with buffer := some (orEmpty st.buffer ++ [c]) }

/-- The arguments in a simulated command line (pip.py:87-109) -/
def splitArgs (argv : Str) : List Str := ((argv ++ s% " ").foldl Split.step ⟨none, none, []⟩).argv

/-! ### Options -/

/-- The result of argparse (pip.py:110-189) -/
structure Options where
  debug : Bool := false
  execute : Option Str := none
  file : Option Str := none
  stdin : Bool := false
  repl : Bool := false
  lines : Bool := false
  newline : Bool := false
  repr : Bool := false
  reprlines : Bool := false
  readlines : Bool := false
  space : Bool := false
  spacelines : Bool := false
  verbose : Bool := false
  version : Bool := false
  warnings : Bool := false
  execArgs : Bool := false
  args : List Str := []
  deriving DecidableEq, Repr

/-- `-d` sets the other flags (pip.py:195-196). -/
def Options.effective (o : Options) : Options := if o.debug then { o with warnings := true, verbose := true, repr := true } else o

/-- `listFormat` (pip.py:197-203) -/
def Options.listFormat (o : Options) : Fmt :=
  if o.repr then .p
  else if o.reprlines then .P
  else if o.space then .s
  else if o.spacelines then .S
  else if o.newline then .n
  else if o.lines then .l
  else .none

/-- `List.outFormat = listFormat` (execution.py:29) -/
def Ext.withFmt (X : Ext) (f : Fmt) : Ext := { X with fmt := f }

variable {X : Ext} (R : Rec X)

/-! ### Running a program -/

/-- `while True: l.append(input())` until EOFError (pip.py:237-241, 270-274) -/
def M.readAll : M X (List Str) := fun s => (.ok s.inp, { s with inp := [] })

/-- The code of the program (pip.py:207-243); `none` if there is nothing to run. Also the arguments that remain. -/
def programText (files : Str → Option Str) (code : Option Str) (interactive : Bool) (o : Options) :
    M X (Option (Str × List Str)) := do
  match code, o.execute, o.file, o.stdin with
  | some c, _, _, _ => return some (c, o.args)
  | none, some c, _, _ => return some (c, o.args)
  | none, none, some f, _ => fromFile f o.args
  | none, none, none, true => fromInput
  | none, none, none, false =>
    if interactive then do
      M.emit (s% "Enter your program, terminated by Ctrl-D or Ctrl-Z:\n")
      fromInput
    else
      match o.args with
      | f :: rest => fromFile f rest
      | [] => return none
where
  /-- pip.py:224-233 -/
  fromFile (f : Str) (args : List Str) : M X (Option (Str × List Str)) := do
    if interactive then M.emit (s% "Reading " ++ f ++ s% "\n") else pure ()
    match files f with
    | some c => return some (c, args)
    | none => M.throw .fatal
  /-- pip.py:234-243 -/
  fromInput : M X (Option (Str × List Str)) := do
    let ls ← M.readAll
    return some (joinStr (s% "\n") ls, o.args)

/-- Scanning and parsing (pip.py:249-263, 281-294) -/
def parseText (code : Str) : Except Exc (List Tree) := do
  let ts ← Scan.scan code
  Parse.parseAll ts

/-- `f"{bytecount} bytes (UTF-8), {charcount} characters"` and a blank line (pip.py:244-248) -/
def sizeText (code : Str) : Str :=
  showNat ((code.map Char.utf8Size).sum) ++ s% " bytes (UTF-8), " ++ showNat code.length ++ s% " characters\n\n"

/-- Scanning and parsing the program with `-v` (pip.py:244-266) -/
def parseVerbose (code : Str) : M X (List Tree) := do
  M.emit (sizeText code)
  let ts ← M.lift (Scan.scan code)
  M.emit (Scan.addSpaces ts ++ s% "\n\n")
  let sts ← M.lift (Parse.parseAll ts)
  M.emit (X.pprint sts ++ s% "\n")
  return sts

/-- One argument under `-x` (pip.py:280-304). An argument that is a name or evaluates to None becomes an Lval or None
among the arguments of the main function, which is not modelled. Nor is the loss of the class of a FatalError. -/
def execArg (arg : Str) : M X Val := do
  let sts ← M.lift (parseText arg)
  match sts with
  | [] => M.throw .indexError
  | t :: _ =>
    let r ← R.ev t
    match r with
    | .v v => return v
    | _ => M.throw .unmodelled

/-- What `pip` does after the options are parsed, except for `-V` and `-R` (pip.py:207-325) -/
def pipRun (files : Str → Option Str) (code : Option Str) (interactive : Bool) (o : Options) : M X Unit := do
  let p ← programText files code interactive o
  match p with
  | none => M.emit (s% "Type pip -h for usage information.\n")
  | some (program, args) => do
    let sts ← if o.verbose then parseVerbose program else M.lift (parseText program)
    let raw ← if o.readlines then M.readAll else pure args
    let vals ← if o.execArgs then mapL (execArg R) raw else pure (raw.map .scalar)
    if interactive then M.emit (s% "Executing...\n") else pure ()
    executeProgram R sts vals

/-! ### The read-eval-print loop -/

/-- How the loop ends: by a command (pip.py:360), or by an exception that it does not catch. `input()` raises EOFError
at the end of the input, which is not caught either. -/
inductive ReplEnd where
  | bye | eof | crash (e : Exc)
  deriving DecidableEq, Repr

/-- Reading the code of one round (pip.py:335-352): lines are added while the code is incomplete. `none` at the end of
the input, otherwise the code and its statements or the exception. Every pass but the last consumes a line. -/
def readCode : Nat → Str → M X (Option (Str × Except Exc (List Tree)))
  | 0, _ => M.throw .fuel
  | n + 1, code =>
    match parseText code with
    | .error .incomplete => do
      M.emit (s% ".. ")
      let l ← M.readLine
      match l with
      | none => return none
      | some l => readCode n (code ++ l ++ s% "\n")
    | r => return some (code, r)

/-- A word is complete. -/
def pushWord (p : Str × List Str) : List Str := if p.1.isEmpty then p.2 else p.1 :: p.2

/-- The word that the text begins with and the remaining words -/
def wordsAux : Str → Str × List Str
  | [] => ([], [])
  | c :: cs => if isSpace c then ([], pushWord (wordsAux cs)) else (c :: (wordsAux cs).1, (wordsAux cs).2)

/-- `s.split()` -/
def splitWords (s : Str) : List Str := pushWord (wordsAux s)

/-- REPL_HELP_TEXT (pip.py:12-38) -/
def replHelp : Str :=
  s% "\n" ++
  s% "Enter Pip statements at the prompt. Entering an expression displays\n" ++
  s% "its value. Incomplete statements/expressions can be continued on\n" ++
  s% "subsequent lines. $_, $__, and $___ store the values of the last\n" ++
  s% "three expressions.\n" ++
  s% "\n" ++
  s% ">> Fi,3Pi\n" ++
  s% "0\n" ++
  s% "1\n" ++
  s% "2\n" ++
  s% ">> 6*7\n" ++
  s% "42\n" ++
  s% ">> [$_\n" ++
  s% "..  '!]\n" ++
  s% "[42;\"!\"]\n" ++
  s% "\n" ++
  s% "REPL commands (abbreviated versions like ;h or ;he work too):\n" ++
  s% "\n" ++
  s% ";warnings   Toggle display of warning messages (can also be invoked\n" ++
  s% "            as ;warnings off or ;warnings on)\n" ++
  s% ";quit       Quit the REPL\n" ++
  s% ";exit       Identical to ;quit\n" ++
  s% ";help       Display this help message\n"

/-- What a line makes the loop do (pip.py:354-380). `warnings` only changes what goes to standard error. -/
inductive ReplCmd where
  | quit | help | warnings | none
  deriving DecidableEq, Repr

/-- `code.startswith(";") and code[1:].strip()` and the choice of the command (pip.py:354-364) -/
def replCmd (X : Ext) (code : Str) : ReplCmd :=
  match code with
  | ';' :: rest =>
    match splitWords (X.lower rest) with
    | [] => .none
    | w :: _ =>
      if w.isPrefixOf (s% "quit") || w.isPrefixOf (s% "exit") || w = s% "x" then .quit
      else if w.isPrefixOf (s% "help") then .help
      else if w.isPrefixOf (s% "warnings") then .warnings
      else .none
  | _ => .none

/-- The statements of one round (pip.py:382-386) -/
def replStmts : List Tree → M X Unit
  | [] => pure ()
  | t :: ts => do
    let r ← R.exec t
    match r with
    | some v => do
      opPRINT (.scalar v.repr)
      updateHistory v
    | none => pure ()
    replStmts ts

/-- Is the exception caught at pip.py:387? -/
def Exc.isFatal : Exc → Bool
  | .fatal | .badSyntax | .incomplete => true
  | _ => false

/-- `except (FatalError, RuntimeError)` (pip.py:387-390): the loop goes on in the state in which the exception was
raised. `none` if it goes on, otherwise the exception that ends it. The two exceptions that are not exceptions of the
code are passed on. -/
def M.catchFatal (x : M X Unit) : M X (Option Exc) := fun s =>
  match x s with
  | (.ok _, s') => (.ok none, s')
  | (.error e, s') =>
    if e.isFatal then (.ok none, s')
    else if e = .fuel ∨ e = .unmodelled then (.error e, s')
    else (.ok (some e), s')

/-- The loop (pip.py:334-392). Every pass consumes a line. -/
def replLoop (R : Rec X) : Nat → M X ReplEnd
  | 0 => M.throw .fuel
  | n + 1 => do
    M.emit (s% ">> ")
    let l ← M.readLine
    match l with
    | none => return .eof
    | some l => do
      let s ← M.get
      let c ← readCode (s.inp.length + 1) (l ++ s% "\n")
      match c with
      | none => return .eof
      | some (_, .error .badSyntax) => replLoop R n
      | some (_, .error e) => return .crash e
      | some (code, .ok sts) =>
        match replCmd X code with
        | .quit => return .bye
        | cmd => do
          if cmd = .help then M.emit (replHelp ++ s% "\n") else pure ()
          let r ← M.catchFatal (replStmts R sts)
          match r with
          | some e => return .crash e
          | none => replLoop R n

/-- `repl` (pip.py:328-395) from the state of a new ProgramState -/
def repl : M X ReplEnd := do
  M.emit (s% "Pip 1.2.0\nType ;help for more information.\n")
  let s ← M.get
  let e ← replLoop R (s.inp.length + 1)
  if e = .bye then M.emit (s% "Bye!\n") else pure ()
  return e

end Pip
