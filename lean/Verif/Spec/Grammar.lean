import Verif.Model.Parse
/-!
# The grammar

`SpE e u` says that the token sequence `u`, read from left to right, spells the expression tree `e`: the
grammar of Pip, without any regard to precedence or to how the parser works. The other relations are for the
other syntactic categories.
-/

namespace Pip
open Parse (escaped group assignOp)

/-- An optional semicolon. -/
inductive Semi : List Tok → Prop
  | none : Semi []
  | some {t : Tok} : t.text = s% ";" → Semi [t]

/-- Spelling of a prefix operator: an operator of arity one, or `$` or `\$` and an operator of arity two;
then the meta-operators `*` and `:`. -/
inductive Prefix : Op → List Tok → Prop
  | plain {t : Tok} {op : Op} : findOp ops1 t.text = .some op → Prefix op [t]
  | fold {d t : Tok} {op : Op} : d.text = s% "$" → findOp ops2 t.text = .some op →
      Prefix { op with fold := true, arity := 1 } [d, t]
  | scan {d t : Tok} {op : Op} : d.text = s% "\\$" → findOp ops2 t.text = .some op →
      Prefix { op with scan := true, arity := 1 } [d, t]
  | map {op : Op} {ts : List Tok} {t : Tok} : Prefix op ts → t.text = s% "*" →
      Prefix { op with map := true } (ts ++ [t])
  | assign {op : Op} {ts : List Tok} {t : Tok} : Prefix op ts → t.text = s% ":" →
      Prefix { op with assign := true, prec := assignOp.prec } (ts ++ [t])

/-- Spelling of an infix operator, possibly with the meta-operator `:`. -/
inductive Infix : Op → List Tok → Prop
  | plain {t : Tok} {op : Op} : (findOp ops2 t.text).or (findOp ops3 t.text) = .some op → Infix op [t]
  | assign {t c : Tok} {op : Op} : (findOp ops2 t.text).or (findOp ops3 t.text) = .some op →
      c.text = s% ":" →
      Infix { op with assign := true, prec := assignOp.prec, assoc := assignOp.assoc } [t, c]

mutual
/-- Expressions. An escaped string with interpolations stands for the expression `escaped` makes of it. -/
inductive SpE : Tree → List Tok → Prop
  | atom {t : Tok} : (t.kind = .name ∨ t.isLiteral = true) → t.kind ≠ .esc → SpE (.tok t) [t]
  | esc {t : Tok} {e : Tree} : t.kind = .esc → e = escaped t → SpE e [t]
  | group {o c : Tok} {l : List Tree} {u : List Tok} {e : Tree} : o.text = s% "(" → SpL l u →
      c.text = s% ")" → e = group l → SpE e ([o] ++ u ++ [c])
  | list {o c : Tok} {l : List Tree} {u : List Tok} : o.text = s% "[" → SpL l u → c.text = s% "]" →
      SpE (.node enlistOp l) ([o] ++ u ++ [c])
  | block {o c : Tok} {b : List Tree} {u : List Tok} : o.text = s% "{" → SpSs b u → c.text = s% "}" →
      SpE (.node blockOp [.code b]) ([o] ++ u ++ [c])
  | unary {op : Op} {ts u : List Tok} {e : Tree} : Prefix op ts → SpE e u → SpE (.node op [e]) (ts ++ u)
  | binary {op : Op} {ts u w : List Tok} {l r : Tree} : Infix op ts → op.assoc ≠ .chain → op.arity ≠ 3 →
      SpE l u → SpE r w → SpE (.node op [l, r]) (u ++ ts ++ w)
  | ternary {op : Op} {ts u v s w : List Tok} {l m r : Tree} : Infix op ts → op.assoc ≠ .chain → op.arity = 3 →
      SpE l u → SpE m v → Semi s → SpE r w → SpE (.node op [l, m, r]) (u ++ ts ++ v ++ s ++ w)
  | chain {op : Op} {ts u w : List Tok} {l r : Tree} : Infix op ts → op.assoc = .chain →
      SpE l u → SpE r w → SpE (.node chainOp [l, .opr op, r]) (u ++ ts ++ w)
  | chainMore {op : Op} {ts u w : List Tok} {as : List Tree} {r : Tree} : Infix op ts → op.assoc = .chain →
      SpE (.node chainOp as) u → SpE r w → SpE (.node chainOp (as ++ [.opr op, r])) (u ++ ts ++ w)
/-- Sequences of expressions inside parentheses or brackets. -/
inductive SpL : List Tree → List Tok → Prop
  | nil : SpL [] []
  | cons {e : Tree} {l : List Tree} {u s w : List Tok} : SpE e u → Semi s → SpL l w → SpL (e :: l) (u ++ s ++ w)
/-- Statements. -/
inductive SpS : Tree → List Tok → Prop
  | expr {e : Tree} {u s s' : List Tok} : SpE e u → Semi s → Semi s' → SpS e (u ++ s ++ s')
  | cmd {t : Tok} {c : Cmd} {as : List Tree} {u s : List Tok} : t.kind = .cmd → findCmd t.text = .some c →
      SpA c.args as u → Semi s → SpS (.cmd c as) ([t] ++ u ++ s)
/-- Sequences of statements. -/
inductive SpSs : List Tree → List Tok → Prop
  | nil : SpSs [] []
  | cons {e : Tree} {l : List Tree} {u w : List Tok} : SpS e u → SpSs l w → SpSs (e :: l) (u ++ w)
/-- Bodies of commands: statements in braces, or a single statement. -/
inductive SpB : List Tree → List Tok → Prop
  | braces {o c : Tok} {b : List Tree} {u : List Tok} : o.text = s% "{" → SpSs b u → c.text = s% "}" →
      SpB b ([o] ++ u ++ [c])
  | single {e : Tree} {u : List Tok} : SpS e u → SpB [e] u
/-- Loop variables. -/
inductive SpN : Tree → List Tok → Prop
  | name {t : Tok} {s : List Tok} : t.kind = .name → Semi s → SpN (.tok t) ([t] ++ s)
  | list {o c : Tok} {l : List Tree} {u s : List Tok} : o.text = s% "[" → SpNs l u → l ≠ [] → c.text = s% "]" →
      Semi s → SpN (.node enlistOp l) ([o] ++ u ++ [c] ++ s)
inductive SpNs : List Tree → List Tok → Prop
  | nil : SpNs [] []
  | cons {e : Tree} {l : List Tree} {u w : List Tok} : SpN e u → SpNs l w → SpNs (e :: l) (u ++ w)
/-- Arguments of commands. -/
inductive SpA : List ArgType → List Tree → List Tok → Prop
  | nil : SpA [] [] []
  | noElse {as : List ArgType} {l : List Tree} {w : List Tok} : SpA as l w → SpA (.els :: as) (.code [] :: l) w
  | els {as : List ArgType} {t : Tok} {b l : List Tree} {u w : List Tok} : t.text = s% "EL" → SpB b u →
      SpA as l w → SpA (.els :: as) (.code b :: l) ([t] ++ u ++ w)
  | code {as : List ArgType} {b l : List Tree} {u w : List Tok} : SpB b u → SpA as l w →
      SpA (.code :: as) (.code b :: l) (u ++ w)
  | loopvar {as : List ArgType} {e : Tree} {l : List Tree} {u w : List Tok} : SpN e u → SpA as l w →
      SpA (.loopvar :: as) (e :: l) (u ++ w)
  | expr {as : List ArgType} {e : Tree} {l : List Tree} {u s w : List Tok} : SpE e u → Semi s → SpA as l w →
      SpA (.expr :: as) (e :: l) (u ++ s ++ w)
end

end Pip
