import Verif.Spec.Calc
/-!
# Small imperative programs

Programs with integer variables, assignments, printing, conditions and loops: how they are written, and what they print. The
meaning is the usual one, in terms of the values of the variables before and after; it mentions neither tokens nor trees. Of the
model only the decimal text of an integer is used.
-/

namespace Pip.Wh

/-- The names of variables: `j`, `q` and `r` are something else. -/
def letters : Str := s% "abcdefghiklmnopstuvwxyz"

/-! ### Expressions -/

inductive Ex
  | num (n : Nat)
  | var (c : Char)
  | paren (e : Ex)
  | pow (e f : Ex)
  | neg (e : Ex)
  | mul (e f : Ex)
  | quot (e f : Ex)
  | rem (e f : Ex)
  | add (e f : Ex)
  | sub (e f : Ex)

/-- The values of the variables that are integers -/
abbrev Env := Char → Option Int

/-- The value, if there is one: it needs the values of the variables, exponents that are not negative, divisors that are not
zero. Quotients are rounded towards minus infinity. -/
def Ex.val (σ : Env) : Ex → Option Int
  | .num n => some n
  | .var c => if c ∈ letters then σ c else none
  | .paren e => e.val σ
  | .pow e f => (e.val σ).bind fun v => (f.val σ).bind fun w => if 0 ≤ w then some (v ^ w.toNat) else none
  | .neg e => (e.val σ).map fun v => -v
  | .mul e f => (e.val σ).bind fun v => (f.val σ).map fun w => v * w
  | .quot e f => (e.val σ).bind fun v => (f.val σ).bind fun w => if w = 0 then none else some (v.fdiv w)
  | .rem e f => (e.val σ).bind fun v => (f.val σ).bind fun w => if w = 0 then none else some (v.fmod w)
  | .add e f => (e.val σ).bind fun v => (f.val σ).map fun w => v + w
  | .sub e f => (e.val σ).bind fun v => (f.val σ).map fun w => v - w

/-- How expressions are written. The level is 0 for sums, 1 for products, 2 for expressions with a sign, 3 for powers, and 4 for
numbers, variables and expressions in parentheses. -/
inductive Ex.Text : Nat → Ex → Str → Prop
  | num (n : Nat) : Text 4 (.num n) (showInt n)
  | var {c : Char} (hc : c ∈ letters) : Text 4 (.var c) [c]
  | paren {e : Ex} {t g g' : Str} (h : Text 0 e t) (hg : Gap g) (hg' : Gap g') : Text 4 (.paren e) ('(' :: (g ++ (t ++ (g' ++ s% ")"))))
  | pow {e f : Ex} {t u g g' : Str} (h : Text 4 e t) (h' : Text 3 f u) (hg : Gap g) (hg' : Gap g') :
      Text 3 (.pow e f) (t ++ (g ++ (s% "**" ++ (g' ++ u))))
  | neg {e : Ex} {t g : Str} (h : Text 3 e t) (hg : Gap g) : Text 2 (.neg e) ('-' :: (g ++ t))
  | mul {e f : Ex} {t u g g' : Str} (h : Text 1 e t) (h' : Text 2 f u) (hg : Gap g) (hg' : Gap g') :
      Text 1 (.mul e f) (t ++ (g ++ (s% "*" ++ (g' ++ u))))
  | quot {e f : Ex} {t u g g' : Str} (h : Text 1 e t) (h' : Text 2 f u) (hg : Gap g) (hg' : Gap g') :
      Text 1 (.quot e f) (t ++ (g ++ (s% "//" ++ (g' ++ u))))
  | rem {e f : Ex} {t u g g' : Str} (h : Text 1 e t) (h' : Text 2 f u) (hg : Gap g) (hg' : Gap g') :
      Text 1 (.rem e f) (t ++ (g ++ (s% "%" ++ (g' ++ u))))
  | add {e f : Ex} {t u g g' : Str} (h : Text 0 e t) (h' : Text 1 f u) (hg : Gap g) (hg' : Gap g') :
      Text 0 (.add e f) (t ++ (g ++ (s% "+" ++ (g' ++ u))))
  /-- Two minus signs side by side would be another operator. -/
  | sub {e f : Ex} {t u g g' : Str} (h : Text 0 e t) (h' : Text 1 f u) (hg : Gap g) (hg' : Gap g')
      (hm : (g' ++ u).head? ≠ some '-') : Text 0 (.sub e f) (t ++ (g ++ (s% "-" ++ (g' ++ u))))
  | up {i : Nat} {e : Ex} {t : Str} (h : Text (i + 1) e t) : Text i e t

/-- Comparisons -/
inductive Cmp
  | lt | gt | eq | le | ge | ne

def Cmp.text : Cmp → Str
  | .lt => s% "<"
  | .gt => s% ">"
  | .eq => s% "="
  | .le => s% "<="
  | .ge => s% ">="
  | .ne => s% "!="

def Cmp.holds : Cmp → Int → Int → Bool
  | .lt, v, w => v < w
  | .gt, v, w => v > w
  | .eq, v, w => v = w
  | .le, v, w => v ≤ w
  | .ge, v, w => v ≥ w
  | .ne, v, w => v ≠ w

/-- An expression or one comparison -/
inductive Term
  | ex (e : Ex)
  | cmp (e : Ex) (o : Cmp) (f : Ex)

/-- The value; comparisons have the values 1 and 0. -/
def Term.val (σ : Env) : Term → Option Int
  | .ex e => e.val σ
  | .cmp e o f => (e.val σ).bind fun v => (f.val σ).map fun w => if o.holds v w then 1 else 0

inductive Term.Text : Term → Str → Prop
  | ex {e : Ex} {t : Str} (h : Ex.Text 0 e t) : Text (.ex e) t
  | cmp {e f : Ex} {o : Cmp} {t u g g' : Str} (h : Ex.Text 0 e t) (h' : Ex.Text 0 f u) (hg : Gap g) (hg' : Gap g') :
      Text (.cmp e o f) (t ++ (g ++ (o.text ++ (g' ++ u))))

/-! ### Statements -/

inductive Stm
  /-- an expression whose value is not used -/
  | term (e : Term)
  /-- `x:e` -/
  | set (x : Char) (e : Term)
  /-- `P e` -/
  | print (e : Term)
  /-- `I e{...}EL{...}` -/
  | cond (e : Term) (a b : List Stm)
  /-- `W e{...}`, as long as `e` is true, and `T e{...}`, as long as it is false -/
  | rep (b : Bool) (e : Term) (a : List Stm)
  /-- `L e{...}`, as often as `e` says -/
  | loop (e : Term) (a : List Stm)
  /-- `F x,e{...}`, with the values 0, 1, ... below `e` for `x` -/
  | iter (x : Char) (e : Ex) (a : List Stm)

/-- Does the statement have a value? -/
def Stm.simple : Stm → Bool
  | .term _ | .set _ _ | .print _ => true
  | _ => false

/-- Nothing, a space or the end of a line. -/
def Sep (g : Str) : Prop := g = [] ∨ g = s% " " ∨ g = s% "\n"

/-- The same in front of a text; nothing is there if the text is empty. -/
def SepOf (g u : Str) : Prop := Sep g ∧ (u = [] → g = [])

inductive SimpleText : Stm → Str → Prop
  | term {e : Term} {t : Str} (h : e.Text t) : SimpleText (.term e) t
  | set {x : Char} {e : Term} {t g g' : Str} (hx : x ∈ letters) (h : e.Text t) (hg : Gap g) (hg' : Gap g') :
      SimpleText (.set x e) (x :: (g ++ (':' :: (g' ++ t))))
  | print {e : Term} {t g : Str} (h : e.Text t) (hg : Gap g) : SimpleText (.print e) ('P' :: (g ++ t))

/-- How statements are written. Semicolons are needed after a statement with a value unless it is the last one or a command
follows. With `true` this is for the statements in braces. -/
inductive Code : Bool → List Stm → Str → Prop
  | nil : Code false [] []
  | last {s : Stm} {t : Str} (h : SimpleText s t) : Code false [s] t
  | semi {s : Stm} {l : List Stm} {t u g : Str} (h : SimpleText s t) (hl : Code false l u) (hg : SepOf g u) :
      Code false (s :: l) (t ++ (';' :: (g ++ u)))
  | next {s s' : Stm} {l : List Stm} {t u g : Str} (h : SimpleText s t) (hl : Code false (s' :: l) u) (hg : SepOf g u)
      (hs : s'.simple = false) : Code false (s :: s' :: l) (t ++ (g ++ u))
  | cond {e : Term} {a l : List Stm} {t ta u g g' g1 : Str} (h : e.Text t) (ha : Code true a ta) (hl : Code false l u) (hg : Gap g)
      (hg' : Sep g') (h1 : SepOf g1 u) : Code false (.cond e a [] :: l) ('I' :: (g ++ (t ++ (g' ++ (ta ++ (g1 ++ u))))))
  | both {e : Term} {a b l : List Stm} {t ta tb u g g' g1 g2 g3 : Str} (h : e.Text t) (ha : Code true a ta) (hb : Code true b tb)
      (hl : Code false l u) (hg : Gap g) (hg' : Sep g') (h1 : Sep g1) (h2 : Sep g2) (h3 : SepOf g3 u) :
      Code false (.cond e a b :: l) ('I' :: (g ++ (t ++ (g' ++ (ta ++ (g1 ++ (s% "EL" ++ (g2 ++ (tb ++ (g3 ++ u))))))))))
  | rep {b : Bool} {e : Term} {a l : List Stm} {t ta u g g' g1 : Str} (h : e.Text t) (ha : Code true a ta) (hl : Code false l u)
      (hg : Gap g) (hg' : Sep g') (h1 : SepOf g1 u) :
      Code false (.rep b e a :: l) ((if b then 'W' else 'T') :: (g ++ (t ++ (g' ++ (ta ++ (g1 ++ u))))))
  | loop {e : Term} {a l : List Stm} {t ta u g g' g1 : Str} (h : e.Text t) (ha : Code true a ta) (hl : Code false l u) (hg : Gap g)
      (hg' : Sep g') (h1 : SepOf g1 u) : Code false (.loop e a :: l) ('L' :: (g ++ (t ++ (g' ++ (ta ++ (g1 ++ u))))))
  | iter {x : Char} {e : Ex} {a l : List Stm} {t ta u g g' g1 g2 g3 : Str} (hx : x ∈ letters) (h : e.Text 0 t) (ha : Code true a ta)
      (hl : Code false l u) (hg : Gap g) (h1 : Gap g1) (h2 : Gap g2) (hg' : Sep g') (h3 : SepOf g3 u) :
      Code false (.iter x e a :: l) ('F' :: (g ++ (x :: (g1 ++ (',' :: (g2 ++ (t ++ (g' ++ (ta ++ (g3 ++ u))))))))))
  | braces {l : List Stm} {u g g' : Str} (h : Code false l u) (hg : SepOf g u) (hg' : Sep g') :
      Code true l ('{' :: (g ++ (u ++ (g' ++ s% "}"))))

/-! ### Meaning -/

def Env.put (σ : Env) (x : Char) (v : Int) : Env := fun c => if c = x then some v else σ c

/-- What there is to do: statements, or passes of a loop, perhaps with values for a variable. -/
inductive Task
  | code (l : List Stm)
  | passes (x : Option Char) (vs : List Int) (a : List Stm)

/-- The integers from 0 up to but not including `v` -/
def below (v : Int) : List Int := (List.range v.toNat).map Int.ofNat

/-- `Does t σ σ' out`: from the values `σ` this ends with the values `σ'`, and the integers `out` are printed. -/
inductive Does : Task → Env → Env → List Int → Prop
  | nil {σ : Env} : Does (.code []) σ σ []
  | term {σ σ' : Env} {e : Term} {v : Int} {l : List Stm} {o : List Int} (hv : e.val σ = some v) (h : Does (.code l) σ σ' o) :
      Does (.code (.term e :: l)) σ σ' o
  | set {σ σ' : Env} {x : Char} {e : Term} {v : Int} {l : List Stm} {o : List Int} (hx : x ∈ letters) (hv : e.val σ = some v)
      (h : Does (.code l) (σ.put x v) σ' o) : Does (.code (.set x e :: l)) σ σ' o
  | print {σ σ' : Env} {e : Term} {v : Int} {l : List Stm} {o : List Int} (hv : e.val σ = some v) (h : Does (.code l) σ σ' o) :
      Does (.code (.print e :: l)) σ σ' (v :: o)
  | yes {σ σ1 σ' : Env} {e : Term} {v : Int} {a b l : List Stm} {o o' : List Int} (hv : e.val σ = some v) (h0 : v ≠ 0)
      (ha : Does (.code a) σ σ1 o) (h : Does (.code l) σ1 σ' o') : Does (.code (.cond e a b :: l)) σ σ' (o ++ o')
  | no {σ σ1 σ' : Env} {e : Term} {a b l : List Stm} {o o' : List Int} (hv : e.val σ = some 0)
      (hb : Does (.code b) σ σ1 o) (h : Does (.code l) σ1 σ' o') : Does (.code (.cond e a b :: l)) σ σ' (o ++ o')
  | stop {σ σ' : Env} {b : Bool} {e : Term} {v : Int} {a l : List Stm} {o : List Int} (hv : e.val σ = some v)
      (h0 : decide (v ≠ 0) ≠ b) (h : Does (.code l) σ σ' o) : Does (.code (.rep b e a :: l)) σ σ' o
  | again {σ σ1 σ' : Env} {b : Bool} {e : Term} {v : Int} {a l : List Stm} {o o' : List Int} (hv : e.val σ = some v)
      (h0 : decide (v ≠ 0) = b) (ha : Does (.code a) σ σ1 o) (h : Does (.code (.rep b e a :: l)) σ1 σ' o') :
      Does (.code (.rep b e a :: l)) σ σ' (o ++ o')
  | loop {σ σ1 σ' : Env} {e : Term} {v : Int} {a l : List Stm} {o o' : List Int} (hv : e.val σ = some v)
      (ha : Does (.passes none (below v) a) σ σ1 o) (h : Does (.code l) σ1 σ' o') : Does (.code (.loop e a :: l)) σ σ' (o ++ o')
  | iter {σ σ1 σ' : Env} {x : Char} {e : Ex} {v : Int} {a l : List Stm} {o o' : List Int} (hx : x ∈ letters) (hv : e.val σ = some v)
      (ha : Does (.passes (some x) (below v) a) σ σ1 o) (h : Does (.code l) σ1 σ' o') : Does (.code (.iter x e a :: l)) σ σ' (o ++ o')
  | done {σ : Env} {x : Option Char} {a : List Stm} : Does (.passes x [] a) σ σ []
  | pass {σ σ1 σ' : Env} {v : Int} {vs : List Int} {a : List Stm} {o o' : List Int} (ha : Does (.code a) σ σ1 o)
      (h : Does (.passes none vs a) σ1 σ' o') : Does (.passes none (v :: vs) a) σ σ' (o ++ o')
  | passTo {σ σ1 σ' : Env} {x : Char} {v : Int} {vs : List Int} {a : List Stm} {o o' : List Int} (hx : x ∈ letters) (ha : Does (.code a) (σ.put x v) σ1 o)
      (h : Does (.passes (some x) vs a) σ1 σ' o') : Does (.passes (some x) (v :: vs) a) σ σ' (o ++ o')

/-- The values at the start: those of the arguments in `a` to `e`, and some constants. -/
def start (args : List Int) : Env := fun c =>
  if c ∈ s% "abcde" then args[(s% "abcde").idxOf c]?
  else if c = 'i' then some 0
  else if c = 'o' then some 1
  else if c = 'v' then some (-1)
  else if c = 't' then some 10
  else if c = 'h' then some 100
  else if c = 'm' then some 1000
  else none

/-- What a whole program prints: if its last statement has a value, that value is printed at the end. -/
inductive Prints (args : List Int) : List Stm → List Int → Prop
  | command {l : List Stm} {s : Stm} {σ' : Env} {o : List Int} (hs : s.simple = false)
      (h : Does (.code (l ++ [s])) (start args) σ' o) : Prints args (l ++ [s]) o
  | term {l : List Stm} {e : Term} {σ' : Env} {o : List Int} {v : Int} (h : Does (.code l) (start args) σ' o) (hv : e.val σ' = some v) :
      Prints args (l ++ [.term e]) (o ++ [v])
  | set {l : List Stm} {x : Char} {e : Term} {σ' : Env} {o : List Int} {v : Int} (hx : x ∈ letters) (h : Does (.code l) (start args) σ' o)
      (hv : e.val σ' = some v) : Prints args (l ++ [.set x e]) (o ++ [v])
  | print {l : List Stm} {e : Term} {σ' : Env} {o : List Int} {v : Int} (h : Does (.code l) (start args) σ' o) (hv : e.val σ' = some v) :
      Prints args (l ++ [.print e]) (o ++ [v, v])

/-- One line per integer -/
def lines (o : List Int) : Str := o.flatMap fun v => showInt v ++ s% "\n"

end Pip.Wh
