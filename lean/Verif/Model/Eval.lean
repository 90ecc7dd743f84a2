import Verif.Model.State
import Verif.Model.Rex
/-!
# The evaluator

Transcription of `ProgramState.evaluate`, `executeStatement`, the commands, the meta-operators and the operators that
call functions, assign variables, read input or use random numbers (execution.py). The recursion of the evaluator has no
structural bound, so every definition below takes a record `R : Rec X` of the functions it calls back; `run n` ties the
knot with a step budget `n`, at the end of which the exception `fuel` is raised. (In Python the budget is the recursion
limit.) All results are independent of the budget (`Props/Eval.lean`, C66).
-/

namespace Pip

/-- What `evaluate` returns: a value, an lvalue or Python's None (some operators fall off the end). -/
inductive Res where
  | v (v : Val)
  | l (l : Lval)
  | none
  deriving DecidableEq

/-- The functions called recursively. -/
structure Rec (X : Ext) where
  /-- `evaluate` -/
  ev : Tree → M X Res
  /-- `executeStatement`; None for commands -/
  exec : Tree → M X (Option Val)
  /-- the function of an operator -/
  op : Fn → List Tree → M X Res
  /-- budget of loops over infinite Ranges -/
  fuel : Nat

section
variable {X : Ext}

/-! ### Lvalues -/

/-- Names of the special variables (execution.py:44-47) -/
def isSpecial (n : Str) : Bool := n = s% "q" || n = s% "r"

mutual
/-- `currentVal[index]...[index] = rval` on the value of a variable (execution.py:375-393): the new value of the variable.
Indices into anything but a List give new objects, so that assigning below them changes nothing; but a slice of an empty
List or Scalar is the object itself (ptypes.py:124-126, 415-417), and a slice of a List is a new List of the same items, so
that assigning below these changes them (`setView`). IndexError on the way down ends in a NameError because of the undefined
name in the warning (execution.py:379). `Model/Heap.lean` has the same in terms of objects. -/
def setPath (f : Fmt) (item : Val) : List Idx → Val → Except Exc Val
  | [], v => .ok v
  | i :: is, v =>
    if is.isEmpty then
      match v.set f i item with
      | .error .indexError => .ok v
      | .error .zeroDivision => .ok v
      | r => r
    else
      match v.get i with
      | .error .indexError => .error .nameError
      | .error e => .error e
      | .ok c =>
        match v, i with
        | .list l, .slice lo hi =>
          if l.isEmpty then setPath f item is c
          else (setView f item l is (cycSlice (List.range l.length) lo hi)).map .list
        | .list l, .int k => (setPath f item is c).map fun c' => .list (l.set (k % l.length).toNat c')
        | .scalar t, .slice _ _ => if t.isEmpty then setPath f item is c else (setPath f item is c).map fun _ => v
        | _, _ => (setPath f item is c).map fun _ => v
/-- The same for a new List of the items of `l` at the given positions: what becomes of `l`. -/
def setView (f : Fmt) (item : Val) (l : List Val) : List Idx → List Nat → Except Exc (List Val)
  | [], _ => .ok l
  | i :: is, ps =>
    if is.isEmpty then
      match (Val.list (ps.filterMap (l[·]?))).set f i item with
      | .error .indexError => .ok l
      | .error .zeroDivision => .ok l
      | .error e => .error e
      | .ok _ => .ok l
    else
      match i with
      | .int k =>
        match ps[(k % ps.length).toNat]? with
        | none => .error .nameError
        | some p =>
          match l[p]? with
          | none => .ok l
          | some c => (setPath f item is c).map (l.set p)
      | .slice lo hi => setView f item l is (cycSlice ps lo hi)
end

/-- `assign` for a name (execution.py:342-398) -/
def assignName (n : Str) (sl : List Idx) (v : Val) : M X Unit :=
  if isSpecial n then
    -- only `r` has a setter (execution.py:488-493)
    if sl.isEmpty ∧ n = s% "r" then M.seed (v.str X.fmt) else pure ()
  else if sl.isEmpty then M.setVar n v
  else do
    let s ← M.get
    match s.var n with
    | none => pure ()
    | some cur =>
      match cur with
      | .range lo hi =>
        let l ← M.lift ((Val.range lo hi).items)
        M.setVar n (.list l)
        let r ← M.lift (setPath X.fmt v sl (.list l))
        M.setVar n r
      | .list l =>
        let r ← M.lift (setPath X.fmt v sl (.list l))
        M.setVar n r
      | .scalar t =>
        let r ← M.lift (setPath X.fmt v sl (.scalar t))
        M.setVar n r
      | _ => pure ()

/-- The items that a destructuring assignment to `n` lvalues uses (execution.py:315-324): none for nil, `none` if the
value is not iterable. -/
def firstItems (n : Nat) (v : Val) : Option (List Val) :=
  match v.iter with
  | .fin l => some l
  | .inf lo => some ((intsFrom lo n).map ofInt)
  | .no => none

mutual
/-- `assign` (execution.py:308-398) -/
def assign : Lval → Val → M X Unit
  | .name n _ sl, v => assignName n sl v
  | .list ls _, v =>
    match firstItems ls.length v with
    | none => pure ()
    | some vs => assigns ls vs
/-- The loop over `zip_longest` (execution.py:325-339): surplus values are ignored, surplus lvalues get nil. -/
def assigns : List Lval → List Val → M X Unit
  | [], _ => pure ()
  | l :: ls, [] => do
    assign l .nil
    assigns ls []
  | l :: ls, v :: vs => do
    assign l v
    assigns ls vs
end

/-- `getq` and `getr` (execution.py:478-486) -/
def getSpecial (n : Str) : M X Val :=
  if n = s% "q" then do
    match ← M.readLine with
    | some l => pure (.scalar l)
    | none => pure .nil
  else M.randFloat

/-- `for index in expr.sliceList: result = result[index]` (execution.py:293-301) -/
def readPath : List Idx → Val → Except Exc Val
  | [], v => .ok v
  | i :: is, v =>
    if v.isIterable then
      match v.get i with
      | .error .indexError => .ok .nil
      | .error e => .error e
      | .ok c => readPath is c
    else .ok .nil

/-- Python's `base.isalpha()` for names, which contain no other letters than those of ASCII -/
def isAlphaAZ (c : Char) : Bool := ('a' ≤ c && c ≤ 'z') || ('A' ≤ c && c ≤ 'Z')

mutual
/-- `getRval` of an Lval (execution.py:258-303). The only name of three letters is PIP (scanning.py:108-109); it reads a
file if there is one. -/
def rval : Lval → M X Val
  | .name n cell sl => do
    if n.length = 3 ∧ n.all isAlphaAZ = true then
      match X.tao with
      | some t => assignName n sl (.scalar t)
      | none => pure ()
    else pure ()
    if isSpecial n then
      match cell with
      | none => M.throw .unmodelled
      | some k =>
        let v ← M.cellOr k (getSpecial n)
        M.lift (readPath sl v)
    else
      let s ← M.get
      match s.var n with
      | some v => M.lift (readPath sl v)
      | none => pure .nil
  | .list ls _ => do
    let vs ← rvals ls
    return .list vs
def rvals : List Lval → M X (List Val)
  | [] => pure []
  | l :: ls => do
    let v ← rval l
    let vs ← rvals ls
    return v :: vs
end

/-- The field `evaluated` of an Lval, copied into a new Lval (execution.py:4343-4350) -/
def copyCell : Option Nat → M X (Option Nat)
  | none => pure none
  | some k => do
    let s ← M.get
    let k' ← M.newCell (s.cells k)
    return some k'

/-- `Lval(lval, index)` (execution.py:4341-4350) -/
def indexLval (l : Lval) (i : Idx) : M X Lval :=
  match l with
  | .name n cell sl => do
    let c ← copyCell cell
    return .name n c (sl ++ [i])
  | .list ls sl => pure (.list ls (sl ++ [i]))

/-- `Lval.copy` (execution.py:4359-4360) -/
def copyLval : Lval → M X Lval
  | .name n cell sl => do
    let c ← copyCell cell
    return .name n c sl
  | .list ls sl => pure (.list ls sl)

/-- `Lval(name)` (execution.py:95-97, 4351-4357) -/
def nameLval (n : Str) : M X Lval :=
  if isSpecial n then do
    let k ← M.newCell none
    return .name n (some k) []
  else pure (.name n none [])

/-! ### Helpers -/

/-- `getRval` of a result; None is a fatal error (execution.py:304-306). -/
def resRval : Res → M X Val
  | .v v => pure v
  | .l l => rval l
  | .none => M.throw .fatal

/-- A result as part of a new parse tree -/
def resTree : Res → Option Tree
  | .v v => some (.val v)
  | .l l => some (.lval l)
  | .none => none

/-- A result that becomes an item of a List. Lvals and None inside Lists are not modelled. -/
def needVal : Res → M X Val
  | .v v => pure v
  | _ => M.throw .unmodelled

/-- The result of a pure operator; `none` is Python's None. -/
def liftRes (x : Except Exc Val) : M X Res := do
  let v ← M.lift x
  return .v v
def liftOpt (x : Except Exc (Option Val)) : M X Res := do
  match ← M.lift x with
  | some v => return .v v
  | none => return .none

/-- `Lval("name")` for the variables set by the interpreter -/
def setGlobal (n : Str) (v : Val) : M X Unit := assign (.name n none []) v

/-- `updateHistoryVars` (execution.py:434-440) -/
def updateHistory (v : Val) : M X Unit := do
  let s ← M.get
  if (s.var (s% "$_")).isSome then
    if (s.var (s% "$__")).isSome then
      let w ← rval (.name (s% "$__") none [])
      assign (.name (s% "$___") none []) w
    else pure ()
    let w ← rval (.name (s% "$_") none [])
    assign (.name (s% "$__") none []) w
  else pure ()
  assign (.name (s% "$_") none []) v

/-- `toPipType` of a group of a match -/
def groupVal : Option Str → Val
  | some s => .scalar s
  | none => .nil

/-- All groups of a match, the whole match first -/
def Match.vals (m : Match) : List Val := .scalar m.all :: m.groups.map groupVal

/-- `assignRegexVars` (execution.py:442-476) on a match in `string` -/
def assignRegexVars (string : Str) (m : Match) : M X Unit := do
  setGlobal (s% "$$") (.list (m.vals.drop 1))
  setGlobal (s% "$0") (m.vals.getD 0 .nil)
  setGlobal (s% "$1") (m.vals.getD 1 .nil)
  setGlobal (s% "$2") (m.vals.getD 2 .nil)
  setGlobal (s% "$3") (m.vals.getD 3 .nil)
  setGlobal (s% "$4") (m.vals.getD 4 .nil)
  setGlobal (s% "$5") (m.vals.getD 5 .nil)
  setGlobal (s% "$6") (m.vals.getD 6 .nil)
  setGlobal (s% "$7") (m.vals.getD 7 .nil)
  setGlobal (s% "$8") (m.vals.getD 8 .nil)
  setGlobal (s% "$9") (m.vals.getD 9 .nil)
  setGlobal (s% "$(") (ofInt m.start)
  setGlobal (s% "$)") (ofInt m.stop)
  setGlobal (s% "$`") (.scalar (string.take m.start))
  setGlobal (s% "$'") (.scalar (string.drop m.stop))
  setGlobal (s% "$[") (.list (m.regs.map fun p => ofInt p.1))
  setGlobal (s% "$]") (.list (m.regs.map fun p => ofInt p.2))

/-- PRINT (execution.py:3002-3009) -/
def opPRINT (v : Val) : M X Unit :=
  match v with
  | .nil => pure ()
  | v => M.emit (v.str X.fmt ++ s% "\n")

/-- OUTPUT (execution.py:2758-2764) -/
def opOUTPUT (v : Val) : M X Unit :=
  match v with
  | .nil => pure ()
  | v => M.emit (v.str X.fmt)

/-- `isExpr` (parsing.py:108-115) -/
def isExpr : Tree → Bool
  | .node .. => true
  | .tok t => t.kind = .name || t.isLiteral
  | _ => false

/-- BLOCK (execution.py:996-1003); a missing return expression is nil (ptypes.py:686-690). -/
def blockOf (stmts : List Tree) : Val :=
  match stmts.getLast? with
  | some t => if isExpr t then .block stmts.dropLast t else .block stmts (.val .nil)
  | none => .block [] (.val .nil)

/-! ### Functions -/

variable (R : Rec X)

/-- `getRval` (execution.py:247-306) of anything but an operator -/
def getRval (t : Tree) : M X Val :=
  match t with
  | .val v => pure v
  | .lval l => rval l
  | t => do
    let r ← R.ev t
    resRval r

/-- `evaluate` of something that becomes an item of a List -/
def evVal (t : Tree) : M X Val := do
  let r ← R.ev t
  needVal r

/-- `for statement in code: self.executeStatement(statement)` -/
def execAll (stmts : List Tree) : M X Unit := iterL (fun t => do let _ ← R.exec t; pure ()) stmts

/-- The statements of a function body, with the history variables updated (execution.py:406-411) -/
def runBody (stmts : List Tree) : M X Unit :=
  iterL (fun t => do
    match ← R.exec t with
    | some v => updateHistory v
    | none => pure ()) stmts

/-- `functionCall` (execution.py:400-418) with arguments that are values already. Calling None (RECURSE outside of a
function) raises AttributeError after the scope has been opened. -/
def callVal (f : Option Val) (args : List Val) : M X Val :=
  M.inScope f args <|
    match f with
    | some (.block stmts ret) => do
      runBody R stmts
      getRval R ret
    | _ => M.throw .attributeError

/-- `functionCall` with values or lvalues -/
def argVal : Tree → M X Val
  | .val v => pure v
  | .lval l => rval l
  | _ => M.throw .typeError

/-- `[f(item) for item in v]` -/
def mapV {β : Type} (v : Val) (f : Val → M X β) : M X (List β) :=
  match v.iter with
  | .fin l => mapL f l
  | .inf lo => loopInf (fun i => do let _ ← f (ofInt i); pure ()) R.fuel lo
  | .no => M.throw .typeError

/-- `[item for item in v if f(item)]` -/
def filterV (v : Val) (f : Val → M X Bool) : M X (List Val) :=
  match v.iter with
  | .fin l => filterL f l
  | .inf lo => loopInf (fun i => do let _ ← f (ofInt i); pure ()) R.fuel lo
  | .no => M.throw .typeError

/-- `[f(x, y) for x, y in zip(v, w)]` -/
def zipV {β : Type} (v w : Val) (f : Val → Val → M X β) : M X (List β) :=
  match v.iter, w.iter with
  | .fin l, .fin m => mapL (fun p => f p.1 p.2) (l.zip m)
  | .fin l, .inf lo => mapL (fun p => f p.1 p.2) (l.zip ((intsFrom lo l.length).map ofInt))
  | .inf lo, .fin m => mapL (fun p => f p.1 p.2) (((intsFrom lo m.length).map ofInt).zip m)
  | .inf a, .inf b => loopInf (fun i => do let _ ← f (ofInt (a + i)) (ofInt (b + i)); pure ()) R.fuel 0
  | _, _ => M.throw .typeError

/-- The function of an operator applied to values -/
def opVal (fn : Fn) (args : List Val) : M X Val := do
  let r ← R.op fn (args.map .val)
  needVal r

/-! ### Commands -/

/-- `assign` to the loop variable; an empty list of names evaluates to a value, which has no attribute `base`. -/
def assignRes (r : Res) (v : Val) : M X Unit :=
  match r with
  | .l l => assign l v
  | _ => M.throw .attributeError

/-- FOR (execution.py:495-507) -/
def cmdFOR (loopVar iterable : Tree) (code : List Tree) : M X Unit := do
  let r ← R.ev loopVar
  let it ← getRval R iterable
  match it.iter with
  | .fin items => iterL (fun v => do assignRes r v; execAll R code) items
  | .inf lo => loopInf (fun i => do assignRes r (ofInt i); execAll R code) R.fuel lo
  | .no => pure ()

/-- IF (execution.py:509-517) -/
def cmdIF (cond : Tree) (code elseCode : List Tree) : M X Unit := do
  let c ← getRval R cond
  if c.truthy then execAll R code else execAll R elseCode

/-- The number of times LOOP runs its code (execution.py:521-532) -/
def loopCount : Val → Except Exc Int
  | .scalar s => .ok (toInt s)
  | .list l => .ok l.length
  | .range lo hi =>
    match (Val.range lo hi).len with
    | .ok n => .ok n
    | .error e => .error e
  | _ => .ok 0

/-- LOOP (execution.py:519-534) -/
def cmdLOOP (count : Tree) (code : List Tree) : M X Unit := do
  let c ← getRval R count
  let n ← M.lift (loopCount c)
  repeatM (execAll R code) n.toNat

/-- LOOPREGEX (execution.py:536-554) -/
def cmdLOOPREGEX (regex string : Tree) (code : List Tree) : M X Unit := do
  let regex ← getRval R regex
  let string ← getRval R string
  let (regex, string) ← M.lift (match regex, string with
    | .scalar s, .pattern r f => .ok (.pattern r f, .scalar s)
    | .scalar s, t => do return (← opREGEX (.scalar s), t)
    | r, t => .ok (r, t))
  match regex, string with
  | .pattern r f, .scalar s =>
    let ms ← M.lift (X.finditer r f s)
    iterL (fun m => do assignRegexVars s m; execAll R code) ms
  | _, _ => pure ()

/-- WHILE (execution.py:564-570); the further passes of the loop are a new execution of the command. -/
def cmdWHILE (cond : Tree) (code : List Tree) : M X Unit := do
  let c ← getRval R cond
  if c.truthy then
    execAll R code
    let _ ← R.exec (.cmd .WHILE [cond, .code code])
    pure ()
  else pure ()

/-- TILL (execution.py:556-562) -/
def cmdTILL (cond : Tree) (code : List Tree) : M X Unit := do
  let c ← getRval R cond
  if c.truthy then pure ()
  else
    execAll R code
    let _ ← R.exec (.cmd .TILL [cond, .code code])
    pure ()

/-- The dispatch of execution.py:74-82; a wrong number of arguments raises TypeError. -/
def runCmd (c : Cmd) (args : List Tree) : M X Unit :=
  match c, args with
  | .FOR, [v, it, .code code] => cmdFOR R v it code
  | .IF, [c, .code code, .code els] => cmdIF R c code els
  | .LOOP, [n, .code code] => cmdLOOP R n code
  | .LOOPREGEX, [r, s, .code code] => cmdLOOPREGEX R r s code
  | .TILL, [c, .code code] => cmdTILL R c code
  | .WHILE, [c, .code code] => cmdWHILE R c code
  | .WIPEGLOBALS, [] => M.wipe
  | _, _ => M.throw .typeError

/-- `executeStatement` (execution.py:72-91) -/
def execStmt (t : Tree) : M X (Option Val) :=
  match t with
  | .cmd c args => do
    runCmd R c args
    return none
  | .code _ => M.throw .fatal
  | t => do
    let v ← getRval R t
    return some v

/-! ### Meta-operators -/

def Op.noAssign (o : Op) : Op := { o with assign := false }
def Op.noMap (o : Op) : Op := { o with map := false }
def Op.noFold (o : Op) : Op := { o with fold := false }
def Op.noScan (o : Op) : Op := { o with scan := false }

/-- `[operator, returnExpr]` around a function (execution.py:633-638, 681-686, 699-704) -/
def wrapBlock (op : Op) (stmts : List Tree) (ret : Tree) : Val := .block stmts (.node op [ret])

/-- `evaluate([op, a, b])` where an operand is the result of the previous evaluation; None is a fatal error there. -/
def evL (op : Op) (r : Res) (v : Val) : M X Res :=
  match resTree r with
  | some t => R.ev (.node op [t, .val v])
  | none => M.throw .fatal
def evR (op : Op) (r : Res) (v : Val) : M X Res :=
  match resTree r with
  | some t => R.ev (.node op [.val v, t])
  | none => M.throw .fatal

/-- The arguments `x, op, v1, op, v2, ...` of a comparison chain -/
def chainArgs (op : Op) (x : Val) (l : List Val) : List Tree := .val x :: l.flatMap fun v => [.opr op, .val v]

/-- The fold of a non-empty list (execution.py:646-670) -/
def foldList (op : Op) (x : Val) (l : List Val) : M X Res :=
  match op.assoc with
  | .left => foldL (evL R op) (.v x) l
  | .right =>
    match (x :: l).reverse with
    | y :: m => foldL (evR R op) (.v y) m
    | [] => M.throw .fatal
  | .chain => if l.isEmpty then pure (.v (.scalar (s% "1"))) else R.ev (.node chainOp (chainArgs op x l))
  | .none => M.throw .fatal

/-- FOLDMETA (execution.py:629-675) -/
def foldMeta (op : Op) (t : Tree) : M X Res := do
  let it ← getRval R t
  match it with
  | .block stmts ret => return .v (wrapBlock op stmts ret)
  | .range _ none => return .v .nil
  | v =>
    if v.isIterable then
      match ← M.lift v.items with
      | [] => return .v op.dflt.val
      | x :: l => foldList R op.noFold x l
    else return .v .nil

/-- The accumulated results of a fold, in the order in which they are computed -/
def scanL (f : Res → Val → M X Res) : Res → List Val → M X (List Res)
  | _, [] => pure []
  | r, v :: l => do
    let r ← f r v
    let rs ← scanL f r l
    return r :: rs

/-- The chains `x op v1`, `x op v1 op v2`, ... (execution.py:729-735) -/
def scanChain (op : Op) : List Tree → List Val → M X (List Res)
  | _, [] => pure []
  | acc, v :: l => do
    let r ← R.ev (.node chainOp (acc ++ [.opr op, .val v]))
    let rs ← scanChain op (acc ++ [.opr op, .val v]) l
    return r :: rs

/-- The scan of a non-empty list (execution.py:713-742) -/
def scanList (op : Op) (x : Val) (l : List Val) : M X (List Res) :=
  match op.assoc with
  | .left => do
    let rs ← scanL (evL R op) (.v x) l
    return .v x :: rs
  | .right =>
    match (x :: l).reverse with
    | y :: m => do
      let rs ← scanL (evR R op) (.v y) m
      return (.v y :: rs).reverse
    | [] => M.throw .fatal
  | .chain => do
    let rs ← scanChain R op [.val x] l
    return .v (.scalar (s% "1")) :: rs
  | .none => M.throw .fatal

/-- SCANMETA (execution.py:695-751) -/
def scanMeta (op : Op) (t : Tree) : M X Res := do
  let it ← getRval R t
  match it with
  | .block stmts ret => return .v (wrapBlock op stmts ret)
  | .range _ none => return .v .nil
  | v =>
    if v.isIterable then
      match ← M.lift v.items with
      | [] => return .v (.list [])
      | x :: l => do
        let rs ← scanList R op.noScan x l
        let vs ← mapL needVal rs
        return .v (.list vs)
    else return .v .nil

/-- MAPMETA (execution.py:677-693) -/
def mapMeta (op : Op) (t : Tree) : M X Res := do
  let it ← getRval R t
  match it with
  | .block stmts ret => return .v (wrapBlock op stmts ret)
  | v =>
    if v.isIterable then do
      let vs ← mapV R v fun x => evVal R (.node op.noMap [.val x])
      return .v (.list vs)
    else return .v .nil

/-! ### Operators -/

/-- AND, OR, IFTE (execution.py:795-801, 2750-2756, 1849-1855): the operands are not evaluated beforehand. -/
def opAND (a b : Tree) : M X Res := do
  let v ← getRval R a
  if v.truthy then
    let w ← getRval R b
    return .v w
  else return .v v
def opOR (a b : Tree) : M X Res := do
  let v ← getRval R a
  if v.truthy then return .v v
  else
    let w ← getRval R b
    return .v w
def opIFTE (c a b : Tree) : M X Res := do
  let v ← getRval R c
  if v.truthy then R.ev a else R.ev b

/-- ASSIGN (execution.py:855-864) -/
def opASSIGN (lhs rhs : Res) : M X Res :=
  match lhs with
  | .l l =>
    match rhs with
    | .none => M.throw .unmodelled
    | r => do
      let v ← resRval r
      assign l v
      return .l l
  | _ => pure rhs

/-- SWAP (execution.py:3905-3919) -/
def opSWAP (a b : Tree) : M X Res := do
  let r1 ← R.ev a
  let r2 ← R.ev b
  let v1 ← resRval r1
  let v2 ← resRval r2
  match r1 with
  | .l l => assign l v2
  | _ => pure ()
  match r2 with
  | .l l => assign l v1
  | _ => pure ()
  return r1

/-- The index that a right operand of `@` stands for (execution.py:869-880) -/
inductive AtIdx where
  | idx (i : Idx)
  | list (l : List Val)
  | pat (raw : Str) (f : Flags)
  | bad

def atIdx : Val → AtIdx
  | .scalar s => .idx (.int (toInt s))
  | .range lo hi => .idx (.slice lo hi)
  | .list l => .list l
  | .pattern r f => .pat r f
  | _ => .bad

/-- All matches of a Pattern in a string, setting the match variables (execution.py:906-912) -/
def allMatches (r : Str) (f : Flags) (s : Str) : M X Res := do
  let ms ← M.lift (X.finditer r f s)
  let vs ← mapL (fun m => do assignRegexVars s m; return .scalar m.all) ms
  return .v (.list vs)

/-- AT of a value (execution.py:906-937) -/
def atVal (v : Val) (i : AtIdx) (rhs : Val) : M X Res :=
  match i, v with
  | .pat r f, .scalar s => allMatches r f s
  | .pat _ _, v =>
    if v.isListy then do
      let vs ← mapV R v fun x => opVal R .AT [x, rhs]
      return .v (.list vs)
    else pure (.v .nil)
  | .list ix, v =>
    if v.isIterable then do
      let vs ← mapL (fun i => opVal R .AT [v, i]) ix
      return .v (.list vs)
    else pure (.v .nil)
  | .idx i, v =>
    if v.isIterable then
      if v.isEmpty then pure (.v .nil)
      else
        match v.get i with
        | .error .indexError => pure (.v .nil)
        | r => liftRes r
    else pure (.v .nil)
  | .bad, _ => pure (.v .nil)

/-- AT of an lvalue with an index (execution.py:882-901) -/
def atLval (l : Lval) (i : Idx) : M X Res :=
  match l, i with
  | .list ls _, .int k =>
    match ls[(k % ls.length).toNat]? with
    | some l => pure (.l l)
    | none => pure (.v .nil)
  | .list ls _, .slice lo hi => do
    let ls ← mapL copyLval (cycSlice ls lo hi)
    return .l (.list ls [])
  | l, i => do
    let l ← indexLval l i
    return .l l

/-- AT (execution.py:866-937) with an index value -/
def opATwith (lhs : Tree) (rhs : Val) : M X Res :=
  match lhs, atIdx rhs with
  | _, .bad => pure (.v .nil)
  | .lval l, .idx i => atLval l i
  | .lval l, i => do
    let v ← rval l
    atVal R v i rhs
  | .val v, i => atVal R v i rhs
  | _, _ => M.throw .typeError

def opAT (lhs : Tree) (rhs : Option Tree) : M X Res :=
  match rhs with
  | none => opATwith R lhs (.scalar (s% "0"))
  | some t => do
    let r ← argVal t
    opATwith R lhs r

/-- `self.AT(value, index)` on a result (execution.py:3493-3495) -/
def sendAT (r : Res) (i : Tree) : M X Res :=
  match resTree r with
  | some t => opAT R t (some i)
  | none => M.throw .unmodelled

/-- SEND (execution.py:3479-3499) -/
def opSEND (head : Tree) (tail : List Tree) : M X Res := do
  let head ← match head with
    | .lval l => do
      let v ← rval l
      match v with
      | .block .. => pure (Tree.val v)
      | _ => pure (Tree.lval l)
    | t => pure t
  match head with
  | .val (.block stmts ret) =>
    let args ← mapL argVal tail
    let v ← callVal R (some (.block stmts ret)) args
    return .v v
  | .lval l => foldL (sendAT R) (.l l) tail
  | .val v => if v.isIterable then foldL (sendAT R) (.v v) tail else return .v .nil
  | _ => return .v .nil

/-- The four operators taking part of an iterable: `slice(None, n)`, `slice(n, None)`, the suffix of length `n`
(execution.py:2009-2028, 3326-3345, 2966-2989, 3876-3903). -/
inductive Part where
  | left | right | suffix

def Part.idx (p : Part) (n : Int) : Idx :=
  match p with
  | .left => .slice none (some n)
  | .right => .slice (some n) none
  | .suffix => if n = 0 then .slice (some 0) (some 0) else .slice (some (-n)) none

/-- LEFTOF, RIGHTOF, PREFIX, SUFFIX (execution.py:2009-2028, 3326-3345, 2966-2989, 3876-3903); `fn` is the operator itself
and `dflt` the right operand of the unary form. -/
def opPART (fn : Fn) (p : Part) (dflt : Val) (lhs : Tree) (rhs : Option Tree) : M X Res := do
  let rhs ← match rhs with
    | none => pure dflt
    | some t => argVal t
  match rhs with
  | .scalar s =>
    match lhs with
    | .lval l => do
      let l ← indexLval l (p.idx (toInt s))
      return .l l
    | .val v => if v.isIterable then liftRes (v.get (p.idx (toInt s))) else return .v .nil
    | _ => M.throw .typeError
  | .list _ | .range .. =>
    let v ← argVal lhs
    let vs ← mapV R rhs fun n => opVal R fn [v, n]
    return .v (.list vs)
  | _ => return .v .nil

/-- `ops.opsByArity[2]["+"]`, `["-"]` (execution.py:1180, 1883, 2302) -/
def plusOp : Op := (findOp ops2 (s% "+")).getD chainOp
def minusOp : Op := (findOp ops2 (s% "-")).getD chainOp

/-- INC, DEC (execution.py:1179-1189, 1882-1892) -/
def opINCDEC (op : Op) (rhs : Tree) : M X Res := do
  let v ← argVal rhs
  let r ← R.ev (.node op [.val v, .val (.scalar (s% "1"))])
  match rhs with
  | .lval l =>
    let v ← needVal r
    assign l v
    return .l l
  | _ => return r

/-- The end of POP, DEQUEUE, PICK (execution.py:1258-1263): a list of variables is left alone. -/
def putBack (it : Tree) (v : Val) : M X Unit :=
  match it with
  | .lval (.name n c sl) => assign (.name n c sl) v
  | _ => pure ()

/-- The item removed by POP and the rest (execution.py:2874-2905) -/
def popOf : Val → Option (Val × Val)
  | .list (x :: l) => some (x, .list l)
  | .scalar (c :: s) => some (.scalar [c], .scalar s)
  | .range lo hi =>
    if (Val.range lo hi).isEmpty then none else some (ofInt (lo0 lo), .range (some (lo0 lo + 1)) hi)
  | _ => none

/-- The item removed by DEQUEUE and the rest (execution.py:1226-1257) -/
def dequeueOf : Val → Option (Val × Val)
  | .list l => (l.getLast?).map fun x => (x, .list l.dropLast)
  | .scalar s => (s.getLast?).map fun c => (.scalar [c], .scalar s.dropLast)
  | .range lo (some hi) =>
    if (Val.range lo (some hi)).isEmpty then none else some (ofInt (hi - 1), .range lo (some (hi - 1)))
  | _ => none

/-- The item removed by PICK and the rest (execution.py:2819-2866) -/
def pickOf (i : Int) : Val → Option (Val × Val)
  | .list l => (l[(i % l.length).toNat]?).map fun x => (x, .list (l.eraseIdx (i % l.length).toNat))
  | .scalar s => (s[(i % s.length).toNat]?).map fun c => (.scalar [c], .scalar (s.eraseIdx (i % s.length).toNat))
  | .range lo none => if i = 0 then some (ofInt (lo0 lo), .range (some (lo0 lo + 1)) none) else none
  | .range lo (some hi) =>
    let l := rangeInts lo hi
    if l.isEmpty then none
    else
      let k := (i % l.length).toNat
      if k = 0 then some (ofInt (lo0 lo), .range (some (lo0 lo + 1)) (some hi))
      else (l[k]?).map fun x => (ofInt x, .list ((l.eraseIdx k).map ofInt))
  | _ => none

/-- POP, DEQUEUE (execution.py:2874-2910, 1226-1263) -/
def opTAKE (f : Val → Option (Val × Val)) (it : Tree) : M X Res := do
  let v ← argVal it
  match f v with
  | none => return .v .nil
  | some (item, rest) =>
    putBack it rest
    return .v item

/-- PICK (execution.py:2810-2872) -/
def opPICK (it index : Tree) : M X Res := do
  let i ← argVal index
  match i with
  | .scalar s => opTAKE (pickOf (toInt s)) it
  | _ => return .v .nil

/-- The new value of PUSH and PUSHBACK (execution.py:3013-3020, 3033-3040) -/
def pushed (front : Bool) (item v : Val) : Except Exc Val :=
  match v with
  | .list _ | .range .. => if front then opPREPENDELEM v item else opAPPENDELEM v item
  | .scalar _ | .pattern .. =>
    if front then opCAT (.scalar (item.str X.fmt)) v else opCAT v (.scalar (item.str X.fmt))
  | .nil => .ok (.list [item])
  | .block .. => .ok v

/-- PUSH, PUSHBACK (execution.py:3011-3049) -/
def opPUSH (front : Bool) (it item : Tree) : M X Res := do
  let x ← argVal item
  let v ← argVal it
  let w ← M.lift (pushed (X := X) front x v)
  match it with
  | .lval (.name n c sl) =>
    assign (.name n c sl) w
    return .l (.name n c sl)
  | _ => return .v w

/-- YANK (execution.py:4245-4249) -/
def opYANK (v : Val) : M X Res := do
  assign (.name (s% "y") none []) v
  return .l (.name (s% "y") none [])

/-- LIST (execution.py:2100-2109) -/
def allLvals : List Tree → Option (List Lval)
  | [] => some []
  | .lval l :: ts => (allLvals ts).map (l :: ·)
  | _ :: _ => none
def opLIST (items : List Tree) : M X Res :=
  match items, allLvals items with
  | _ :: _, some ls => pure (.l (.list ls []))
  | _, _ => do
    let vs ← mapL argVal items
    return .v (.list vs)

/-- The loop of CHAIN (execution.py:1070-1081): compare neighbours while the results are true. -/
def chainLoop : Tree → List Tree → M X Res
  | x, .opr o :: y :: rest => do
    let r ← R.ev (.node o [x, y])
    let v ← needVal r
    if v.truthy && !rest.isEmpty then chainLoop y rest else return .v v
  | _, _ => M.throw .fatal

/-- CHAIN (execution.py:1064-1082). For a chain without operators the code returns the Python object True; the parser
makes no such chains. -/
def opCHAIN (args : List Tree) : M X Res :=
  if args.length % 2 = 0 then M.throw .fatal
  else
    match args with
    | [_] => M.throw .unmodelled
    | x :: rest => chainLoop R x rest
    | [] => M.throw .fatal

/-- FatalErrors of the scanner and the parser are raised again as FatalError (execution.py:1393-1402). -/
def dieSyntax {α : Type} (x : Except Exc α) : Except Exc α :=
  match x with
  | .error .badSyntax => .error .fatal
  | .error .incomplete => .error .fatal
  | r => r

/-- The program that a string contains, as a Block (execution.py:1391-1403) -/
def compile (s : Str) : Except Exc Val := do
  let ts ← dieSyntax (Scan.scan (s ++ s% "\n"))
  let sts ← dieSyntax (Parse.parseAll ts)
  return blockOf sts

/-- EVAL with one operand (execution.py:1406-1410): the block runs in the current scope. -/
def opEVAL1 (code : Val) : M X Res := do
  let code ← match code with
    | .scalar s => M.lift (compile s)
    | v => pure v
  match code with
  | .block stmts ret =>
    execAll R stmts
    R.ev ret
  | _ => return .v .nil

/-- EVAL with two operands (execution.py:1387-1405) -/
def opEVAL2 (code argList : Val) : M X Res := do
  let (code, argList) := match argList with
    | .block stmts ret => (Val.block stmts ret, code)
    | a => (code, a)
  let code ← match code with
    | .scalar s => M.lift (compile s)
    | v => pure v
  match code with
  | .block stmts ret =>
    let args ← M.lift argList.items
    let v ← callVal R (some (.block stmts ret)) args
    return .v v
  | _ => return .v .nil

/-- Unary FILTER and FILTERNOT (execution.py:1432-1440, 1504-1512) -/
def filterTrue (want : Bool) (v : Val) : Except Exc Val :=
  if v.isIterable then do
    let l ← v.items
    return .list (l.filter fun x => x.truthy == want)
  else .ok .nil

/-- The function and the iterable, in either order (execution.py:1441-1444 etc.) -/
def fnAndIter (a b : Val) : Option (Val × Val) :=
  match a, b with
  | .block s r, v => if v.isIterable then some (.block s r, v) else none
  | v, .block s r => if v.isIterable then some (.block s r, v) else none
  | _, _ => none

/-- FILTER and FILTERNOT with a function (execution.py:1430-1450, 1502-1522) -/
def opFILTER (want : Bool) (a b : Val) : M X Res :=
  match fnAndIter a b with
  | some (f, it) => do
    let l ← filterV R it fun x => do
      let v ← callVal R (some f) [x]
      return v.truthy == want
    return .v (.list l)
  | none => pure (.v .nil)

/-- The items with their positions -/
def enumL {α : Type} : Nat → List α → List (Nat × α)
  | _, [] => []
  | n, x :: l => (n, x) :: enumL (n + 1) l

/-- `for index, item in enumerate(iterable) if function(index, item)` -/
def filterEnum (f it : Val) : M X (List (Nat × Val)) :=
  match it.iter with
  | .fin l => filterL (fun p => do
      let v ← callVal R (some f) [ofInt p.1, p.2]
      return v.truthy) (enumL 0 l)
  | .inf lo => loopInf (fun i => do let _ ← callVal R (some f) [ofInt i, ofInt (lo + i)]; pure ()) R.fuel 0
  | .no => M.throw .typeError

/-- FILTERENUMERATE (execution.py:1452-1467) -/
def opFILTERENUMERATE (a b : Val) : M X Res :=
  match fnAndIter a b with
  | some (f, it) => do
    let l ← filterEnum R f it
    return .v (.list (l.map (·.2)))
  | none => pure (.v .nil)

/-- FILTERINDEXES (execution.py:1473-1500) -/
def opFILTERINDEXES1 (v : Val) : Except Exc Val :=
  if v.isIterable then do
    let l ← v.items
    return .list (((enumL 0 l).filter fun p => p.2.truthy).map fun p => ofInt p.1)
  else .ok .nil
def opFILTERINDEXES (a b : Val) : M X Res :=
  match fnAndIter a b with
  | some (f, it) => do
    let l ← filterEnum R f it
    return .v (.list (l.map fun p => ofInt p.1))
  | none => pure (.v .nil)

/-- FILTERUNPACK (execution.py:1524-1576) -/
def opFILTERUNPACK1 (v : Val) : Except Exc Val :=
  if v.isIterable then do
    let l ← v.items
    return .list (l.filter fun x => x.isIterable && (match x.get (.int 0) with | .ok y => y.truthy | .error _ => false))
  else .ok .nil

/-- `list(item)`, nothing if it cannot be unpacked; FILTERUNPACK does not unpack Patterns (`strict`). -/
def unpack (strict : Bool) (v : Val) : List Val :=
  if strict && !v.isIterable then []
  else match v.pyList with
    | .ok l => l
    | .error _ => []

def opFILTERUNPACK (a b : Val) : M X Res :=
  match fnAndIter a b with
  | some (f, it) => do
    let l ← filterV R it fun x => do
      let v ← callVal R (some f) (unpack true x)
      return v.truthy
    return .v (.list l)
  | none => pure (.v .nil)

/-- FIND (execution.py:1578-1605) -/
def opFIND (iterable item : Val) : M X Res :=
  match item, iterable with
  | .pattern r f, .scalar s => do
    match ← M.lift (X.search r f s) with
    | some m =>
      assignRegexVars s m
      return .v (ofInt m.start)
    | none => return .v .nil
  | item, it =>
    if item.isListy && (it.isScalar || it.isRange) then
      if item.isInf then pure (.v .nil)
      else do
        let vs ← mapV R item fun x => opVal R .FIND [it, x]
        return .v (.list vs)
    else if item.isScalar && it.isIterable || it.isList then
      match Val.index X item it 0 with
      | .ok i => pure (.v (ofInt i))
      | .error _ => pure (.v .nil)
    else pure (.v .nil)

/-- The loop of FINDALL (execution.py:1627-1637): positions from `start` on. A List or Scalar of length `n` has at most
`n + 1` positions, a Range one. -/
def findAllLoop (item it : Val) : Nat → Nat → Except Exc (List Val)
  | 0, _ => .error .fuel
  | n + 1, start =>
    match Val.index X item it start with
    | .ok i =>
      match findAllLoop item it n (i.toNat + 1) with
      | .ok l => .ok (ofInt i :: l)
      | .error e => .error e
    | .error .valueError => .ok []
    | .error e => .error e

/-- A number of steps in which `findAllLoop` finishes -/
def findBound : Val → Nat
  | .scalar s => s.length + 2
  | .list l => l.length + 2
  | _ => 3

/-- FINDALL (execution.py:1607-1642) -/
def opFINDALL (iterable item : Val) : M X Res :=
  match item, iterable with
  | .pattern r f, .scalar s => do
    let ms ← M.lift (X.finditer r f s)
    let vs ← mapL (fun m => do assignRegexVars s m; return ofInt m.start) ms
    return .v (.list vs)
  | item, it =>
    if item.isListy && (it.isScalar || it.isRange) then
      if item.isInf then pure (.v .nil)
      else do
        let vs ← mapV R item fun x => opVal R .FINDALL [it, x]
        return .v (.list vs)
    else if item.isScalar && it.isIterable || it.isList then do
      let vs ← M.lift (findAllLoop (X := X) item it (findBound it) 0)
      return .v (.list vs)
    else pure (.v .nil)

/-- The string and the Pattern of FIRSTMATCH and FULLMATCH (execution.py:1645-1648, 1765-1768) -/
def matchArgs (string regex : Val) : Except Exc (Val × Val) :=
  match string, regex with
  | .pattern r f, .scalar s => .ok (.scalar s, .pattern r f)
  | v, .scalar s => do
    let p ← opREGEX (.scalar s)
    return (v, p)
  | v, w => .ok (v, w)

/-- FIRSTMATCH (execution.py:1644-1659) -/
def opFIRSTMATCH (string regex : Val) : M X Res := do
  match ← M.lift (matchArgs string regex) with
  | (.scalar s, .pattern r f) =>
    match ← M.lift (X.search r f s) with
    | some m =>
      assignRegexVars s m
      return .v (.scalar m.all)
    | none => return .v .nil
  | _ => return .v .nil

/-- `all(f(item) for item in l)` -/
def allL {α : Type} (f : α → M X Bool) : List α → M X Bool
  | [] => pure true
  | x :: l => do
    let b ← f x
    if b then allL f l else return false

/-- `all(f(i) for i in lo, lo + 1, ...)` -/
def allInf (f : Int → M X Bool) : Nat → Int → M X Bool
  | 0, _ => M.throw .fuel
  | n + 1, i => do
    let b ← f i
    if b then allInf f n (i + 1) else return false

/-- FULLMATCH (execution.py:1764-1782) -/
def opFULLMATCH (string regex : Val) : M X Res := do
  match ← M.lift (matchArgs string regex) with
  | (.scalar s, .pattern r f) =>
    match ← M.lift (X.fullmatch r f s) with
    | some m =>
      assignRegexVars s m
      return .v (.scalar (s% "1"))
    | none => return .v (.scalar (s% "0"))
  | (.list l, .pattern r f) =>
    let b ← allL (fun x => do
      let v ← opVal R .FULLMATCH [.pattern r f, x]
      return v.truthy) l
    return .v (ofBool b)
  | (.range lo (some hi), .pattern r f) =>
    let b ← allL (fun i => do
      let v ← opVal R .FULLMATCH [.pattern r f, ofInt i]
      return v.truthy) (rangeInts lo hi)
    return .v (ofBool b)
  | (.range lo none, .pattern r f) =>
    let b ← allInf (fun i => do
      let v ← opVal R .FULLMATCH [.pattern r f, ofInt i]
      return v.truthy) R.fuel (lo0 lo)
    return .v (ofBool b)
  | _ => return .v (.scalar (s% "0"))

/-- `Scalar(haystack.count(needle))`: the count of a Scalar may be nil. -/
def scalarOf : Val → Val
  | .nil => .scalar []
  | v => v

/-- IN (execution.py:1857-1880) -/
def opIN (needle haystack : Val) : M X Res :=
  match needle, haystack with
  | .list l, .scalar s => do
    let vs ← mapL (fun x => opVal R .IN [x, .scalar s]) l
    return .v (.list vs)
  | .range lo hi, .scalar s => do
    let vs ← mapV R (.range lo hi) fun x => opVal R .IN [x, .scalar s]
    return .v (.list vs)
  | .pattern r f, .scalar s => do
    let ms ← M.lift (X.finditer r f s)
    iterL (assignRegexVars s) ms
    return .v (ofInt ms.length)
  | .nil, .scalar _ => pure (.v .nil)
  | .nil, .range .. => pure (.v .nil)
  | n, h =>
    if h.isIterable then do
      let c ← M.lift (Val.count X n h)
      return .v (scalarOf c)
    else pure (.v (.scalar (s% "0")))

/-- MAP (execution.py:2158-2178) -/
def opMAP (a b : Val) : M X Res :=
  let (lhs, it) := match b with
    | .block s r => if a.isIterable then (Val.block s r, a) else (a, b)
    | _ => (a, b)
  if it.isIterable then
    match lhs with
    | .block s r => do
      let vs ← mapV R it fun x => callVal R (some (.block s r)) [x]
      return .v (.list vs)
    | .list fs => do
      let vs ← mapL (fun f => opVal R .MAP [f, it]) fs
      return .v (.list vs)
    | v => do
      let vs ← mapV R it fun _ => pure v
      return .v (.list vs)
  else pure (.v .nil)

/-- MAPFLATTEN, MAPJOIN (execution.py:2237-2246), FILTERJOIN (execution.py:1469-1471): `g` of the result. -/
def thenPure (x : M X Res) (g : Val → Except Exc Val) : M X Res := do
  let r ← x
  let v ← needVal r
  liftRes (g v)

/-- The sizes of the grid of MAPCOORDS (execution.py:2182-2209) -/
def gridSize : Val → Except Exc (Option (Int × Int))
  | .scalar s => .ok (some (toInt s, toInt s))
  | v =>
    if v.isListy then
      if v.isEmpty then .ok none
      else do
        let a ← v.get (.int 0)
        let b ← v.get (.int 1)
        match a, b with
        | .scalar r, .scalar c => return some (toInt r, toInt c)
        | _, _ => return none
    else .ok none

/-- MAPCOORDS (execution.py:2180-2223) -/
def opMAPCOORDS (lhs rhs : Val) : M X Res := do
  match ← M.lift (gridSize rhs) with
  | none => return .v .nil
  | some (r, c) =>
    let rows ← mapL (fun i => do
      let row ← mapL (fun j =>
        match lhs with
        | .block st ret => callVal R (some (.block st ret)) [ofInt i, ofInt j]
        | v => pure v) (pyRange c)
      return Val.list row) (pyRange r)
    return .v (.list rows)

/-- MAPZIP (execution.py:2337-2350) -/
def opMAPZIP (a b c : Val) : M X Res :=
  let (lhs, it1) := match b with
    | .block s r => if a.isIterable then (Val.block s r, a) else (a, b)
    | _ => (a, b)
  match lhs with
  | .block s r =>
    if it1.isIterable && c.isIterable then do
      let vs ← zipV R it1 c fun x y => callVal R (some (.block s r)) [x, y]
      return .v (.list vs)
    else pure (.v .nil)
  | _ => pure (.v .nil)

/-- MAPENUMERATE (execution.py:2225-2235) -/
def opMAPENUMERATE (a b : Val) : M X Res :=
  match fnAndIter a b with
  | some (f, it) => do
    let n ← M.lift it.len
    opMAPZIP R f (.range none (some n)) it
  | none => pure (.v .nil)

/-- MAPPAIRS (execution.py:2260-2270) -/
def opMAPPAIRS (a b : Val) : M X Res :=
  match fnAndIter a b with
  | some (f, it) => do
    let rest ← M.lift (it.get (.slice (some 1) none))
    opMAPZIP R f it rest
  | none => pure (.v .nil)

/-- MAPMAP (execution.py:2248-2258); the warning for other operands refers to an undefined name. -/
def opMAPMAP (a b : Val) : M X Res :=
  let (lhs, it) := match b with
    | .block s r => if a.isIterable then (Val.block s r, a) else (a, b)
    | _ => (a, b)
  if it.isIterable then do
    let vs ← mapV R it fun x => opVal R .MAP [lhs, x]
    return .v (.list vs)
  else M.throw .nameError

/-- MAPREGEX (execution.py:2272-2295) -/
def opMAPREGEX (lhs regex string : Val) : M X Res := do
  let (lhs, regex, string) := match regex, string with
    | .block s r, t => (Val.block s r, lhs, t)
    | x, .block s r => (Val.block s r, x, lhs)
    | x, t => (lhs, x, t)
  let (regex, string) ← M.lift (match regex, string with
    | .scalar s, .pattern r f => .ok (.pattern r f, .scalar s)
    | .scalar s, t => do return (← opREGEX (.scalar s), t)
    | r, t => .ok (r, t))
  match lhs, regex, string with
  | .block st ret, .pattern r f, .scalar s =>
    let ms ← M.lift (X.finditer r f s)
    let vs ← mapL (fun m => do
      assignRegexVars s m
      callVal R (some (.block st ret)) m.vals) ms
    return .v (.list vs)
  | _, _, _ => return .v .nil

/-- MAPSUM (execution.py:2297-2306) -/
def opMAPSUM (a b : Val) : M X Res := do
  let r ← opMAP R a b
  let v ← needVal r
  let l ← M.lift v.items
  foldL (evL R plusOp) (.v (.scalar (s% "0"))) l

/-- MAPUNPACK (execution.py:2308-2335) -/
def opMAPUNPACK (a b : Val) : M X Res :=
  match fnAndIter a b with
  | some (f, it) => do
    let vs ← mapV R it fun x => callVal R (some f) (unpack false x)
    return .v (.list vs)
  | none => pure (.v .nil)

/-- SORTKEYED, DESCENDINGKEYED (execution.py:3535-3569, 1265-1301). The keys of Patterns, Blocks and nil are 0, of infinite
Ranges `[]`, which is also what their `toNumber` gives. -/
def opSORTKEYED (desc : Bool) (a b : Val) : M X Res :=
  let (f, it) := match a, b with
    | .block s r, v => (Val.block s r, v)
    | v, .block s r => (Val.block s r, v)
    | v, w => (v, w)
  match f with
  | .block s r =>
    if it.isIterable then do
      let l ← M.lift it.pyList
      let v ← M.catchType (do
        let ks ← mapL (fun x => do
          let k ← callVal R (some (.block s r)) [x]
          return (k.key X, x)) l
        return sortByKeys X desc ks) .nil
      return .v v
    else pure (.v .nil)
  | _ => pure (.v .nil)

/-- RANDCHOICE (execution.py:3076-3083); `randrange(0)` raises ValueError. -/
def opRANDCHOICE (v : Val) : M X Res :=
  if v.isIterable then do
    let n ← M.lift v.len
    if n = 0 then M.throw .valueError
    else
      let k ← M.randBelow n
      liftRes (v.get (.int k))
  else pure (.v .nil)

/-- `random.randrange(a, b)` -/
def randRange (a b : Int) : M X Res :=
  if b ≤ a then M.throw .valueError
  else do
    let k ← M.randBelow (b - a).toNat
    return .v (ofInt (a + k))

/-- RANDRANGE, RANDRANGETO (execution.py:3085-3105) -/
def opRANDRANGE (lhs rhs : Val) : M X Res :=
  match lhs, rhs with
  | .nil, .scalar t => randRange 0 (toInt t)
  | .scalar s, .scalar t => randRange (toInt s) (toInt t)
  | _, _ => pure (.v .nil)
def opRANDRANGETO (rhs : Val) : M X Res :=
  match rhs with
  | .scalar t => randRange 0 (toInt t)
  | _ => pure (.v .nil)

/-- `x[i], x[j] = x[j], x[i]` -/
def swapAt {α : Type} (l : List α) (i j : Nat) : List α :=
  match l[i]?, l[j]? with
  | some a, some b => (l.set i b).set j a
  | _, _ => l

/-- `random.shuffle`: `for i in reversed(range(1, len(x))): j = randbelow(i + 1); swap` -/
def shuffle {α : Type} : Nat → List α → M X (List α)
  | 0, l => pure l
  | i + 1, l => do
    let j ← M.randBelow (i + 2)
    shuffle i (swapAt l (i + 1) j)

/-- SHUFFLE (execution.py:3501-3513) -/
def opSHUFFLE (v : Val) : M X Res :=
  if v.isIterable then do
    let l ← M.lift v.pyList
    let l ← shuffle (l.length - 1) l
    match v with
    | .scalar _ => liftRes (opJOIN (.list l) none)
    | _ => return .v (.list l)
  else pure (.v .nil)

/-- RECURSE (execution.py:3132-3135) -/
def opRECURSE (v : Val) : M X Res := do
  let s ← M.get
  let r ← callVal R s.scope.fn [v]
  return .v r

/-- A Range becomes a List (execution.py:3182-3184) -/
def castRange (v : Val) : Except Exc Val :=
  if v.isRange then do
    let l ← v.items
    return .list l
  else .ok v

/-- The text with the matches replaced; `pos` is the end of the previous match. -/
def spliceMatches (s : Str) : Nat → List (Match × Str) → Str
  | pos, [] => s.drop pos
  | pos, (m, t) :: l => (s.drop pos).take (m.start - pos) ++ t ++ spliceMatches s m.stop l

/-- REPLACE of a Pattern in a string (execution.py:3212-3235). For a function, `re.sub` calls it for every match that
`finditer` gives. -/
def replacePattern (r : Str) (f : Flags) (new : Val) (s : Str) : M X Res :=
  match new with
  | .pattern raw _ => do
    let t ← M.lift (X.sub r f (asReplacement raw) s)
    return .v (.scalar t)
  | .block st ret => do
    let ms ← M.lift (X.finditer r f s)
    let ps ← mapL (fun m => do
      assignRegexVars s m
      let v ← callVal R (some (.block st ret)) m.vals
      return (m, v.str X.fmt)) ms
    return .v (.scalar (spliceMatches s 0 ps))
  | v => do
    let t ← M.lift (X.sub r f (replaceStr (s% "\\") (s% "\\\\") (v.str X.fmt)) s)
    return .v (.scalar t)

/-- REPLACE (execution.py:3181-3243) -/
def opREPLACE (lhs old new : Val) : M X Res := do
  let lhs ← M.lift (castRange lhs)
  let old ← M.lift (castRange old)
  let new ← M.lift (castRange new)
  let old ← M.lift (match old, new with
    | .scalar t, .pattern _ _ => opREGEX (.scalar t)
    | .scalar t, .block _ _ => opREGEX (.scalar t)
    | o, _ => .ok o)
  match lhs, old with
  | .list l, o =>
    if o.isIterable || o.isPattern then do
      let vs ← mapL (fun x => opVal R .REPLACE [x, o, new]) l
      return .v (.list vs)
    else return .v .nil
  | .scalar s, .list os =>
    match new with
    | .list ns =>
      let v ← foldL (fun r p => opVal R .REPLACE [r, p.1, p.2]) (.scalar s) (os.zip ns)
      let v ← foldL (fun r o => opVal R .REPLACE [r, o, .nil]) v (os.drop ns.length)
      return .v v
    | new =>
      let v ← foldL (fun r o => opVal R .REPLACE [r, o, new]) (.scalar s) os
      return .v v
  | .scalar s, .pattern r f => replacePattern R r f new s
  | .scalar s, .scalar t => return .v (.scalar (replaceStr t (new.str X.fmt) s))
  | _, _ => return .v .nil

/-! ### The table of operators -/

def pure1 (f : Val → Except Exc Val) : List Val → Except Exc (Option Val)
  | [a] => some <$> f a
  | _ => .error .typeError
def pure2 (f : Val → Val → Except Exc Val) : List Val → Except Exc (Option Val)
  | [a, b] => some <$> f a b
  | _ => .error .typeError
def pure3 (f : Val → Val → Val → Except Exc Val) : List Val → Except Exc (Option Val)
  | [a, b, c] => some <$> f a b c
  | _ => .error .typeError
/-- Operators with an optional second operand -/
def pure12 (f : Val → Option Val → Except Exc Val) : List Val → Except Exc (Option Val)
  | [a] => some <$> f a none
  | [a, b] => some <$> f a (some b)
  | _ => .error .typeError

/-- The operators that depend on their operands only (`Model/OpsNum.lean`, `Model/OpsSeq.lean`). -/
def pureOp (X : Ext) (fn : Fn) (args : List Val) : Except Exc (Option Val) :=
  match fn with
  | .NOT => pure1 opNOT args
  | .OBJEQUAL => pure2 opOBJEQUAL args
  | .RVALIFTE => pure3 opRVALIFTE args
  | .RVALOR => pure2 opRVALOR args
  | .RVALAND => pure2 opRVALAND args
  | .NUMLESS => pure2 (opNUMLESS X) args
  | .NUMGREATER => pure2 (opNUMGREATER X) args
  | .NUMEQUAL => pure2 (opNUMEQUAL X) args
  | .NUMLESSEQ => pure2 (opNUMLESSEQ X) args
  | .NUMGREATEREQ => pure2 (opNUMGREATEREQ X) args
  | .NUMNOTEQUAL => pure2 (opNUMNOTEQUAL X) args
  | .STRLESS => pure2 opSTRLESS args
  | .STRGREATER => pure2 opSTRGREATER args
  | .STREQUAL => pure2 opSTREQUAL args
  | .STRLESSEQ => pure2 opSTRLESSEQ args
  | .STRGREATEREQ => pure2 opSTRGREATEREQ args
  | .STRNOTEQUAL => pure2 opSTRNOTEQUAL args
  | .LENEQUAL => pure2 opLENEQUAL args
  | .LENLESS => pure2 opLENLESS args
  | .LENGREATER => pure2 opLENGREATER args
  | .NOTIN => pure2 (opNOTIN X) args
  | .REPR => pure1 opREPR args
  | .STR => pure1 (opSTR X) args
  | .COMBINATIONS => pure2 opCOMBINATIONS args
  | .MAX => pure1 (opMAX X) args
  | .MIN => pure1 (opMIN X) args
  | .SORTNUM => pure1 (opSORTNUM X) args
  | .SORTSTRING => pure1 (opSORTSTRING X) args
  | .DESCENDINGNUM => pure1 (opDESCENDINGNUM X) args
  | .DESCENDINGSTRING => pure1 (opDESCENDINGSTRING X) args
  | .UNIQUE => pure1 opUNIQUE args
  | .ENUMERATE => pure1 opENUMERATE args
  | .PERMUTATIONS => pure1 opPERMUTATIONS args
  | .FLATTEN => pure1 opFLATTEN args
  | .FLATTENALL => pure1 opFLATTENALL args
  | .APPENDELEM => pure2 opAPPENDELEM args
  | .APPENDLIST => pure2 opAPPENDLIST args
  | .PREPENDELEM => pure2 opPREPENDELEM args
  | .SPLIT => pure12 (opSPLIT X) args
  | .SPLITAT => pure2 opSPLITAT args
  | .GROUP => pure12 (opGROUP X) args
  | .CHOP => pure12 (opCHOP X) args
  | .JOIN => pure12 opJOIN args
  | .JOINWRAP => pure2 opJOINWRAP args
  | .REPEATLIST => pure2 opREPEATLIST args
  | .ZIP => pure12 opZIP args
  | .ZIPDEFAULT => pure12 opZIPDEFAULT args
  | .ZIPJOIN => pure12 (opZIPJOIN X) args
  | .WEAVE =>
    match args with
    | [a] => opWEAVE a none
    | [a, b] => opWEAVE a (some b)
    | _ => .error .typeError
  | .UNWEAVE => pure12 opUNWEAVE args
  | .CARTESIANPRODUCT => pure12 opCARTESIANPRODUCT args
  | .COORDINATEGRID => pure12 opCOORDINATEGRID args
  | .ZEROGRID => pure12 opZEROGRID args
  | .ONEGRID => pure12 opONEGRID args
  | .TODIGITS => pure12 (fun a b => opTODIGITS b a) args
  | .FROMDIGITS => pure12 (opFROMDIGITS X) args
  | .REPLACEAT => pure3 (opREPLACEAT X) args
  | .TRANSLITERATE => pure3 (opTRANSLITERATE X) args
  | .REVERSE => pure1 opREVERSE args
  | .REFLECT => pure1 opREFLECT args
  | .PALINDROMIZE => pure1 opPALINDROMIZE args
  | .QUADREFLECT => pure1 opQUADREFLECT args
  | .QUADPALINDROMIZE => pure1 opQUADPALINDROMIZE args
  | .IDENTITYMATRIX => pure1 opIDENTITYMATRIX args
  | .WRAP => pure2 opWRAP args
  | .CAT => pure2 opCAT args
  | .REGEX => pure1 opREGEX args
  | .DOT => pure1 opDOT args
  | .KLEENESTAR => pure1 opKLEENESTAR args
  | .REMOVE => pure2 (opREMOVE X) args
  | .DELETECHARS => pure2 opDELETECHARS args
  | .STRMUL => pure2 opSTRMUL args
  | .STRIP => pure12 (opSTRIP X) args
  | .LSTRIP => pure12 (opLSTRIP X) args
  | .RSTRIP => pure12 (opRSTRIP X) args
  | .TRIM => pure12 opTRIM args
  | .LOWERCASE => pure1 (opLOWERCASE X) args
  | .UPPERCASE => pure1 (opUPPERCASE X) args
  | .SWAPCASE => pure1 (opSWAPCASE X) args
  | .TITLECASE => pure1 (opTITLECASE X) args
  | .INITIALCAPS => pure1 (opINITIALCAPS X) args
  | .RANGE => pure2 opRANGE args
  | .INCLRANGE =>
    match args with
    | [a, b] => opINCLRANGE a b
    | _ => .error .typeError
  | .TOBASE => pure12 opTOBASE args
  | .RANGETO => pure1 opRANGETO args
  | .INCLRANGETO => pure1 opINCLRANGETO args
  | .BITWISEAND => pure2 opBITWISEAND args
  | .BITWISEOR => pure2 opBITWISEOR args
  | .BITWISEXOR => pure2 opBITWISEXOR args
  | .ARCTAN => pure12 (opARCTAN X) args
  | .NUMCMP => pure2 (opNUMCMP X) args
  | .FLOOR => pure12 (opFLOOR X) args
  | .CEIL => pure12 (opCEIL X) args
  | .ROUNDZERO => pure12 (opROUNDZERO X) args
  | .ROUNDNEAREST => pure12 (opROUNDNEAREST X) args
  | .BITWISENOT => pure1 opBITWISENOT args
  | .SINE => pure1 (opSINE X) args
  | .COSINE => pure1 (opCOSINE X) args
  | .TANGENT => pure1 (opTANGENT X) args
  | .SECANT => pure1 (opSECANT X) args
  | .COSEC => pure1 (opCOSEC X) args
  | .COTAN => pure1 (opCOTAN X) args
  | .RADIANS => pure1 (opRADIANS X) args
  | .DEGREES => pure1 (opDEGREES X) args
  | .BITLENGTH => pure1 opBITLENGTH args
  | .ADD => pure2 (opADD X) args
  | .SUB => pure2 (opSUB X) args
  | .ABSOLUTEDIFF => pure2 (opABSOLUTEDIFF X) args
  | .MUL => pure2 (opMUL X) args
  | .DIV => pure2 (opDIV X) args
  | .MOD => pure12 (opMOD X) args
  | .INTDIV => pure2 (opINTDIV X) args
  | .POS => pure1 (opPOS X) args
  | .NEG => pure1 (opNEG X) args
  | .INVERT => pure1 (opINVERT X) args
  | .HALVE => pure1 (opHALVE X) args
  | .HALVEUP => pure1 (opHALVEUP X) args
  | .DOUBLE => pure1 (opDOUBLE X) args
  | .SQUARE => pure1 (opSQUARE X) args
  | .POW => pure12 (opPOW X) args
  | .POWEROFTEN => pure12 (opPOWEROFTEN X) args
  | .SQRT => pure1 (opSQRT X) args
  | .EXPONENTIAL => pure1 (opEXPONENTIAL X) args
  | .NATURALLOG => pure1 (opNATURALLOG X) args
  | .BINARYLOG => pure1 (opBINARYLOG X) args
  | .DECIMALLOG => pure1 (opDECIMALLOG X) args
  | .ROOT => pure2 (opROOT X) args
  | .FROMBASE => pure12 opFROMBASE args
  | .LEN => pure1 opLEN args
  | .ASC => pure1 opASC args
  | .CHR => pure1 opCHR args
  | .ABS => pure1 (opABS X) args
  | .SIGN => pure1 (opSIGN X) args
  | _ => .error .typeError

/-- The values among arguments, if they are all values -/
def valArgs : List Tree → Option (List Val)
  | [] => some []
  | .val v :: ts => (valArgs ts).map (v :: ·)
  | _ :: _ => none

/-- An argument as a result -/
def argRes : Tree → Res
  | .val v => .v v
  | .lval l => .l l
  | _ => .none

/-- The operators whose operands are not all values -/
def rawOp (fn : Fn) (args : List Tree) : M X Res :=
  match fn, args with
  | .AND, [a, b] => opAND R a b
  | .OR, [a, b] => opOR R a b
  | .IFTE, [c, a, b] => opIFTE R c a b
  | .BLOCK, [.code stmts] => pure (.v (blockOf stmts))
  | .ASSIGN, [a, b] => opASSIGN (argRes a) (argRes b)
  | .SWAP, [a, b] => opSWAP R a b
  | .AT, [a] => opAT R a none
  | .AT, [a, b] => opAT R a (some b)
  | .SEND, a :: args => opSEND R a args
  | .LEFTOF, [a] => opPART R .LEFTOF .left (.scalar (s% "-1")) a none
  | .LEFTOF, [a, b] => opPART R .LEFTOF .left (.scalar (s% "-1")) a (some b)
  | .RIGHTOF, [a] => opPART R .RIGHTOF .right (.scalar (s% "1")) a none
  | .RIGHTOF, [a, b] => opPART R .RIGHTOF .right (.scalar (s% "1")) a (some b)
  | .PREFIX, [a] => opPART R .PREFIX .left (.scalar (s% "-1")) a none
  | .PREFIX, [a, b] => opPART R .PREFIX .left (.scalar (s% "-1")) a (some b)
  | .SUFFIX, [a] => opPART R .SUFFIX .suffix (.scalar (s% "-1")) a none
  | .SUFFIX, [a, b] => opPART R .SUFFIX .suffix (.scalar (s% "-1")) a (some b)
  | .INC, [a] => opINCDEC R plusOp a
  | .DEC, [a] => opINCDEC R minusOp a
  | .POP, [a] => opTAKE popOf a
  | .DEQUEUE, [a] => opTAKE dequeueOf a
  | .PICK, [a, b] => opPICK a b
  | .PUSH, [a, b] => opPUSH true a b
  | .PUSHBACK, [a, b] => opPUSH false a b
  | .LIST, args => opLIST args
  | .CHAIN, args => opCHAIN R args
  | _, _ => M.throw .typeError

/-- The operators on values that are not pure -/
def valOp (fn : Fn) (args : List Val) : M X Res :=
  match fn, args with
  | .OUTPUT, [a] => do opOUTPUT a; return .v a
  | .PRINT, [a] => do opPRINT a; return .v a
  | .YANK, [a] => opYANK a
  | .YANKOUTPUT, [a] => do opOUTPUT a; opYANK a
  | .YANKPRINT, [a] => do opPRINT a; opYANK a
  | .EVAL, [a] => opEVAL1 R a
  | .EVAL, [a, b] => opEVAL2 R a b
  | .FILTER, [a] => liftRes (filterTrue true a)
  | .FILTER, [a, b] => opFILTER R true a b
  | .FILTERNOT, [a] => liftRes (filterTrue false a)
  | .FILTERNOT, [a, b] => opFILTER R false a b
  | .FILTERUNPACK, [a] => liftRes (opFILTERUNPACK1 a)
  | .FILTERUNPACK, [a, b] => opFILTERUNPACK R a b
  | .FILTERINDEXES, [a] => liftRes (opFILTERINDEXES1 a)
  | .FILTERINDEXES, [a, b] => opFILTERINDEXES R a b
  | .FILTERJOIN, [a] => thenPure (liftRes (filterTrue true a)) (opJOIN · none)
  | .FILTERJOIN, [a, b] => thenPure (opFILTER R true a b) (opJOIN · none)
  | .FILTERENUMERATE, [a, b] => opFILTERENUMERATE R a b
  | .RECURSE, [a] => opRECURSE R a
  | .MAP, [a, b] => opMAP R a b
  | .MAPCOORDS, [a, b] => opMAPCOORDS R a b
  | .MAPENUMERATE, [a, b] => opMAPENUMERATE R a b
  | .MAPJOIN, [a, b] => thenPure (opMAP R a b) (opJOIN · none)
  | .MAPMAP, [a, b] => opMAPMAP R a b
  | .MAPPAIRS, [a, b] => opMAPPAIRS R a b
  | .MAPSUM, [a, b] => opMAPSUM R a b
  | .MAPUNPACK, [a, b] => opMAPUNPACK R a b
  | .MAPFLATTEN, [a, b] => thenPure (opMAP R a b) opFLATTEN
  | .SORTKEYED, [a, b] => opSORTKEYED R false a b
  | .DESCENDINGKEYED, [a, b] => opSORTKEYED R true a b
  | .MAPREGEX, [a, b, c] => opMAPREGEX R a b c
  | .MAPZIP, [a, b, c] => opMAPZIP R a b c
  | .FULLMATCH, [a, b] => opFULLMATCH R a b
  | .IN, [a, b] => opIN R a b
  | .RANDCHOICE, [a] => opRANDCHOICE a
  | .SHUFFLE, [a] => opSHUFFLE a
  | .FIND, [a, b] => opFIND R a b
  | .FINDALL, [a, b] => opFINDALL R a b
  | .REPLACE, [a, b, c] => opREPLACE R a b c
  | .FIRSTMATCH, [a, b] => opFIRSTMATCH a b
  | .RANDRANGE, [a, b] => opRANDRANGE a b
  | .RANDRANGETO, [a] => opRANDRANGETO a
  | fn, args => liftOpt (pureOp X fn args)

/-- Which operators take trees or lvalues -/
def isRaw : Fn → Bool
  | .AND | .OR | .IFTE | .BLOCK | .ASSIGN | .SWAP | .AT | .SEND | .LEFTOF | .RIGHTOF | .PREFIX | .SUFFIX | .INC | .DEC
  | .POP | .DEQUEUE | .PICK | .PUSH | .PUSHBACK | .LIST | .CHAIN => true
  | _ => false

/-- `getattr(self, operator.function)(*args)` (execution.py:220-227); a wrong number of arguments raises TypeError. -/
def callOp (fn : Fn) (args : List Tree) : M X Res :=
  if isRaw fn then rawOp R fn args
  else
    match valArgs args with
    | some vs => valOp R fn vs
    | none => M.throw .typeError

/-! ### Evaluation -/

/-- `if operator.flags:` (execution.py:132) -/
def Op.hasFlags (o : Op) : Bool := o.vals || o.rvals || o.listEach || o.rangeEach || o.inLambda

/-- Does an argument need expansion? (execution.py:142-147) -/
def expands (o : Op) : Tree → Bool
  | .val v => o.rangeEach && v.isRange || o.listEach && v.isList
  | _ => false

/-- Evaluation of one argument (execution.py:136-141). An argument that evaluates to None is not modelled. -/
def prepArg (o : Op) (t : Tree) : M X Tree :=
  if o.rvals then
    match t with
    | .opr p => pure (.opr p)
    | t => do
      let v ← getRval R t
      return .val v
  else if o.vals then do
    let r ← R.ev t
    match resTree r with
    | some t => return t
    | none => M.throw .unmodelled
  else pure t

/-- Is an argument a function? (execution.py:148-155) -/
def isFnArg (o : Op) (t : Tree) : M X Bool :=
  if o.inLambda && !expands o t then
    match t with
    | .val v => pure v.isBlock
    | .lval l => do
      let v ← rval l
      return v.isBlock
    | _ => pure false
  else pure false

/-- The loop over the arguments (execution.py:132-156) -/
def prepArgs (o : Op) : List Tree → M X (List (Tree × Bool))
  | [] => pure []
  | t :: ts => do
    let a ← prepArg R o t
    let b ← isFnArg o a
    let rest ← prepArgs o ts
    return (a, b) :: rest

/-- Lvalues become values (execution.py:163-169). -/
def toVals (ts : List Tree) : M X (List Tree) :=
  mapL (fun t => match t with
    | .lval l => do
      let v ← rval l
      return .val v
    | t => pure t) ts

/-- The function built from an operator applied to functions (execution.py:157-192): the statements of all function
operands and the operator applied to their return expressions. -/
def stmtsOf : Tree → List Tree
  | .val (.block stmts _) => stmts
  | _ => []
def retOf : Tree → Tree
  | .val (.block _ ret) => ret
  | t => t
def lambdaOf (o : Op) (args : List Tree) : Val := .block (args.flatMap stmtsOf) (.node o (args.map retOf))

/-- The items left over when two operands have different lengths (execution.py:203-210) -/
def leftover (a b : Val) : Except Exc (List Val) := do
  let n ← a.len
  let m ← b.len
  if n > m then (← a.get (.slice (some m) none)).items
  else if m > n then (← b.get (.slice (some n) none)).items
  else return []

/-- The expansion of Lists and Ranges, and the plain call (execution.py:193-231) -/
def expandOrCall (o : Op) (args : List Tree) : M X Res :=
  match args with
  | [.val a] =>
    if expands o (.val a) then do
      let vs ← mapV R a fun x => evVal R (.node o [.val x])
      return .v (.list vs)
    else callOp R o.fn [.val a]
  | [.val a, .val b] =>
    if expands o (.val a) then
      if expands o (.val b) then do
        let vs ← zipV R a b fun x y => evVal R (.node o [.val x, .val y])
        let rest ← M.lift (leftover a b)
        return .v (.list (vs ++ rest))
      else do
        let vs ← mapV R a fun x => evVal R (.node o [.val x, .val b])
        return .v (.list vs)
    else if expands o (.val b) then do
      let vs ← mapV R b fun y => evVal R (.node o [.val a, .val y])
      return .v (.list vs)
    else callOp R o.fn [.val a, .val b]
  | args => callOp R o.fn args

/-- An operator without meta-operators (execution.py:129-231) -/
def applyOp (o : Op) (args : List Tree) : M X Res :=
  if o.hasFlags then do
    let ps ← prepArgs R o args
    if ps.any (·.2) then do
      let ts ← if o.rvals then pure (ps.map (·.1)) else toVals (ps.map (·.1))
      return .v (lambdaOf o ts)
    else M.dieType (expandOrCall R o (ps.map (·.1)))
  else M.dieType (callOp R o.fn args)

/-- Compute and assign (execution.py:112-119) -/
def computeAssign (o : Op) (args : List Tree) : M X Res :=
  match args with
  | [] => M.throw .indexError
  | t :: ts => do
    let l ← R.ev t
    match resTree l with
    | some lt =>
      let r ← R.ev (.node o.noAssign (lt :: ts))
      opASSIGN l r
    | none => M.throw .fatal

/-- A parse tree `[operator, arg1, ...]` (execution.py:108-233). Parentheses return whatever their operand evaluates to
(execution.py:2793-2795), even None. -/
def evalNode (o : Op) (args : List Tree) : M X Res :=
  if o.assign then computeAssign R o args
  else
    match args with
    | t :: ts =>
      if o.map then mapMeta R o t
      else if o.fold then foldMeta R o t
      else if o.scan then scanMeta R o t
      else if o.fn = .PARENTHESIZE ∧ ts = [] then R.ev t
      else applyOp R o (t :: ts)
    | [] => if o.map || o.fold || o.scan then M.throw .indexError else applyOp R o []

/-- `evaluate` (execution.py:93-233) -/
def evalTree (t : Tree) : M X Res :=
  match t with
  | .tok t =>
    if t.kind = .name then do
      let l ← nameLval t.text
      return .l l
    else if t.isLiteral then pure (.v (literal t))
    else M.throw .fatal
  | .val v => pure (.v v)
  | .lval l => pure (.l l)
  | .node o args => evalNode R o args
  | _ => M.throw .fatal

end

/-- The evaluator with a step budget -/
def run (X : Ext) : Nat → Rec X
  | 0 => ⟨fun _ => M.throw .fuel, fun _ => M.throw .fuel, fun _ _ => M.throw .fuel, 0⟩
  | n + 1 => ⟨evalTree (run X n), execStmt (run X n), callOp (run X n), n⟩

/-- `ProgramState.__init__` (execution.py:27-51) -/
def St.init (X : Ext) (inp : List Str) (rng : X.Rng) : St X where
  vars := wiped X [] none
  scope := ⟨none, fun _ => none⟩
  below := []
  depth := -1
  args := []
  main := none
  inp := inp
  out := []
  rng := rng
  cells := fun _ => none
  ncell := 0
  swallowed := 0

/-- `self.args = args`, `self.mainFunction = ...`, WIPEGLOBALS (execution.py:57-65) -/
def setMain {X : Ext} (main : Val) (args : List Val) : M X Unit := fun s =>
  (.ok (), { s with args := args, main := some main, vars := wiped X args (some main) })

/-- `executeProgram` (execution.py:53-70) -/
def executeProgram {X : Ext} (R : Rec X) (stmts : List Tree) (args : List Val) : M X Unit :=
  if stmts.isEmpty then pure ()
  else do
    setMain (blockOf stmts) args
    let v ← callVal R (some (blockOf stmts)) args
    opPRINT v

end Pip
