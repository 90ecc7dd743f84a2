import Verif.Model.Parse
/-!
# Canonical text of values and parse trees

`__repr__` of ptypes.py and `unparse`/`unparseExpr` of parsing.py. They call each other because a Block contains
parse trees and parse trees may contain values.
-/

namespace Pip

/-- `-?\d+` (ptypes.py:16) -/
def intRgx : Rgx := .seq (Rgx.opt (Rgx.lit '-')) (Rgx.plus (.chr isDigit))

/-- `-?\d+\.\d+` (ptypes.py:15) -/
def pipFloatRgx : Rgx :=
  .seq (Rgx.opt (Rgx.lit '-')) (.seq (Rgx.plus (.chr isDigit)) (.seq (Rgx.lit '.') (Rgx.plus (.chr isDigit))))

/-- `Scalar.__repr__` (ptypes.py:55-69) -/
def reprScalar (s : Str) : Str :=
  let whole := match (pipFloatRgx.match? s).or (intRgx.match? s) with
    | some (_, rest) => rest.isEmpty
    | none => false
  if whole then s
  else if s.elem '"' then s% "\\\"" ++ replaceStr (s% "\\") (s% "\\\\") s ++ s% "\\\""
  else s% "\"" ++ s ++ s% "\""

/-- The flag prefix of `Pattern.__repr__` (ptypes.py:264-273) -/
def reprFlags (f : Flags) : Str :=
  (if f.a then s% "A" else []) ++ (if f.i then s% "-" else []) ++ (if f.m then s% "," else []) ++
  (if f.s then s% "." else [])

/-- A bound of `Range.__repr__` (ptypes.py:538-539) -/
def reprBound : Option Int → Str
  | some i => showInt i
  | none => s% "()"

/-- `Operator.__str__` (operators.py:41-56) -/
def Op.str (op : Op) : Str :=
  (if op.fold then s% "$" else if op.scan then s% "\\$" else []) ++ op.text ++
  (if op.map then (if op.text ++ s% "*" ∈ operatorTexts then s% " *" else s% "*") else []) ++
  (if op.assign then s% ":" else [])

/-- `item[0] in ["PAREN", "BLOCK", "SEND", "LIST"]` (parsing.py:373-375); operators compare by text. -/
def Op.bracketText (op : Op) : Bool :=
  op.text = s% "PAREN" ∨ op.text = s% "BLOCK" ∨ op.text = s% "SEND" ∨ op.text = s% "LIST"

mutual
/-- `repr(value)` (ptypes.py:55-69, 264-274, 371-372, 537-540, 713-715, 757-758) -/
def Val.repr : Val → Str
  | .scalar s => reprScalar s
  | .pattern raw f => reprFlags f ++ s% "`" ++ replaceStr (s% "`") (s% "\\`") raw ++ s% "`"
  | .list l => s% "[" ++ joinStr (s% ";") (Val.reprs l) ++ s% "]"
  | .range lo hi => s% "(" ++ reprBound lo ++ s% "," ++ reprBound hi ++ s% ")"
  | .block sts ret => s% "{" ++ stripChars (s% "; ") (unparseStmts sts ++ (unparseStmt ret ++ s% "; ")) ++ s% "}"
  | .nil => s% "()"
def Val.reprs : List Val → List Str
  | [] => []
  | v :: l => Val.repr v :: Val.reprs l
/-- The loop of `unparse` (parsing.py:329-348); `statementSep` is always empty. -/
def unparseStmts : List Tree → Str
  | [] => []
  | t :: l => (unparseStmt t ++ s% "; ") ++ unparseStmts l
/-- The body of the loop of `unparse` (parsing.py:330-346) -/
def unparseStmt : Tree → Str
  | .cmd c args => c.text ++ unparseArgs c.args args
  | .tok t => t.text
  | .node op args => unparseNode op args
  | .code l => unparseStmts l
  | .opr op => op.str
  | .val v => Val.repr v
  | .lval _ => []
/-- The arguments of a command (parsing.py:336-344) -/
def unparseArgs : List ArgType → List Tree → Str
  | .els :: as, .code b :: l => s% " EL {" ++ stripChars (s% "; ") (unparseStmts b) ++ s% "}" ++ unparseArgs as l
  | .code :: as, .code b :: l => s% " {" ++ stripChars (s% "; ") (unparseStmts b) ++ s% "}" ++ unparseArgs as l
  | _ :: as, t :: l => s% " " ++ unparseExpr t ++ unparseArgs as l
  | _, _ => []
/-- `unparseExpr` (parsing.py:352-393). The last four cases of bare code, commands and lvalues never occur inside
expressions. -/
def unparseExpr : Tree → Str
  | .node op args => unparseNode op args
  | .tok t => t.text
  | .val v => Val.repr v
  | .opr op => op.str
  | .code l => unparseStmts l
  | .cmd c _ => c.text
  | .lval _ => []
/-- `unparseExpr` of a list headed by an operator (parsing.py:355-387). Operands beyond or short of the arity do
not occur. -/
def unparseNode (op : Op) : List Tree → Str
  | args =>
    if op.text = s% "PAREN" then s% "(" ++ (unparseExprs args).headD [] ++ s% ")"
    else if op.text = s% "BLOCK" then s% "{" ++ unparseBody args ++ s% "}"
    else if op.text = s% "SEND" then s% "(" ++ joinStr (s% "; ") (unparseExprs args) ++ s% ")"
    else if op.text = s% "LIST" then s% "[" ++ joinStr (s% "; ") (unparseExprs args) ++ s% "]"
    else if op.text = s% "CHAIN" then joinStr (s% " ") (unparseOperands args)
    else if op.arity = 1 then op.str ++ s% " " ++ ((unparseOperands args)[0]?.getD [])
    else if op.arity = 2 then
      ((unparseOperands args)[0]?.getD []) ++ s% " " ++ op.str ++ s% " " ++ ((unparseOperands args)[1]?.getD [])
    else
      ((unparseOperands args)[0]?.getD []) ++ s% " " ++ op.str ++ s% " " ++ ((unparseOperands args)[1]?.getD []) ++
        s% "; " ++ ((unparseOperands args)[2]?.getD [])
/-- `unparse(tree[1])` for a block expression (parsing.py:358) -/
def unparseBody : List Tree → Str
  | .code b :: _ => stripChars (s% "; ") (unparseStmts b)
  | _ => []
def unparseExprs : List Tree → List Str
  | [] => []
  | t :: l => unparseExpr t :: unparseExprs l
/-- Operands, in parentheses if they are operator expressions (parsing.py:366-378) -/
def unparseOperands : List Tree → List Str
  | [] => []
  | .node op args :: l =>
    (if op.bracketText then unparseNode op args else s% "(" ++ unparseNode op args ++ s% ")") :: unparseOperands l
  | t :: l => unparseExpr t :: unparseOperands l
end

/-- `unparse(tree)` (parsing.py:326-350) -/
def unparse (l : List Tree) : Str := stripChars (s% "; ") (unparseStmts l)

end Pip
