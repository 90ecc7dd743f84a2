import Verif.Props.Deque
import Verif.Props.Lambda
import Verif.Props.Control
import Verif.Props.Maps
import Verif.Props.Repr
import Verif.Props.Scan
import Verif.Props.Parse
/-!
# C84, C85, C86, C87, C88: output, yanking, incrementing, recursion, calling, indexing, evaluating text
-/

namespace Pip
variable {X : Ext}

/-! ### C84: `O`, `P`, `Y`, `YO`, `YP` -/

/-- The state after some text was written -/
def St.wrote (s : St X) (t : Str) : St X := { s with out := s.out ++ t }

/-- What `O` writes for a value: nothing for nil, else its text. -/
def outText (X : Ext) (v : Val) : Str := if v = .nil then [] else v.str X.fmt
/-- What `P` writes for a value: nothing for nil, else its text and a newline. -/
def lineText (X : Ext) (v : Val) : Str := if v = .nil then [] else v.str X.fmt ++ s% "\n"

theorem opOUTPUT_apply (v : Val) (s : St X) : opOUTPUT v s = (.ok (), s.wrote (outText X v)) := by
  cases v <;> simp [opOUTPUT, outText, St.wrote] <;> rfl

theorem opPRINT_apply (v : Val) (s : St X) : opPRINT v s = (.ok (), s.wrote (lineText X v)) := by
  cases v <;> simp [opPRINT, lineText, St.wrote] <;> rfl

theorem plain_y : PlainVar (s% "y") := by
  unfold PlainVar
  decide

theorem opYANK_apply (v : Val) (s : St X) : opYANK v s = (.ok (.l (.name (s% "y") none [])), s.put (s% "y") v) := by
  unfold opYANK
  rw [assign_plain plain_y, M.bind_ok (setVar_apply _ _ _)]
  rfl

/-- The outcome of an operator on one operand that does not use the budget -/
theorem evals_unary {o : Op} (h : o.Direct) {e : Tree} (hn : e.notOpr = true) {s s1 s2 : St X} {v : Val} {r : Res}
    (he : Vals e s (.ok v, s1)) (hr : ∀ R : Rec X, valOp R o.fn [v] s1 = (.ok r, s2)) :
    Evals (.node o [e]) s (.ok r, s2) :=
  (h.evals (by simpa using hn) (mapEach_single he)).2
    ⟨(.ok r, s2), ⟨ok_ne_fuel, 0, fun m _ => hr (run X m)⟩, rfl⟩

/-- `O e` writes the text of the value (nothing for nil), changes nothing else, and yields the value. -/
theorem C84_output (e : Tree) (hn : e.notOpr = true) (s s1 : St X) (v : Val) (he : Vals e s (.ok v, s1)) :
    Vals (.node (op1 (s% "O")) [e]) s (.ok v, s1.wrote (outText X v)) :=
  Vals.of_evals (evals_unary (by decide) hn he fun _ => by
    show (opOUTPUT v >>= fun _ => pure (Res.v v)) s1 = _
    rw [M.bind_ok (opOUTPUT_apply v s1)]
    rfl)

/-- `P e` does the same with a newline at the end. -/
theorem C84_print (e : Tree) (hn : e.notOpr = true) (s s1 : St X) (v : Val) (he : Vals e s (.ok v, s1)) :
    Vals (.node (op1 (s% "P")) [e]) s (.ok v, s1.wrote (lineText X v)) :=
  Vals.of_evals (evals_unary (by decide) hn he fun _ => by
    show (opPRINT v >>= fun _ => pure (Res.v v)) s1 = _
    rw [M.bind_ok (opPRINT_apply v s1)]
    rfl)

theorem vals_yank {o : Op} (h : o.Direct) {e : Tree} (hn : e.notOpr = true) {s s1 s2 : St X} {v : Val}
    (he : Vals e s (.ok v, s1))
    (hr : ∀ R : Rec X, valOp R o.fn [v] s1 = (.ok (.l (.name (s% "y") none [])), s2.put (s% "y") v)) :
    ∃ s', Vals (.node o [e]) s (.ok v, s') ∧ Assigned (s% "y") v s2 s' := by
  refine ⟨s2.put (s% "y") v, ?_, s2.put_assigned _ v⟩
  obtain ⟨n, hk⟩ := Runs.at (evals_unary h hn he hr) 2
  have := Vals.of_lval plain_y (e := .node o [e]) (s := s) (s1 := s2.put (s% "y") v) (n := n) hk
  rwa [St.read_of_var (St.put_assigned ..).here] at this

/-- `Y e` assigns the value to the variable `y`, changes nothing else, and yields the value. -/
theorem C84_yank (e : Tree) (hn : e.notOpr = true) (s s1 : St X) (v : Val) (he : Vals e s (.ok v, s1)) :
    ∃ s', Vals (.node (op1 (s% "Y")) [e]) s (.ok v, s') ∧ Assigned (s% "y") v s1 s' :=
  vals_yank (by decide) hn he fun _ => opYANK_apply v s1

/-- `YO e` does both, -/
theorem C84_yank_output (e : Tree) (hn : e.notOpr = true) (s s1 : St X) (v : Val) (he : Vals e s (.ok v, s1)) :
    ∃ s', Vals (.node (op1 (s% "YO")) [e]) s (.ok v, s') ∧ Assigned (s% "y") v (s1.wrote (outText X v)) s' :=
  vals_yank (by decide) hn he fun _ => by
    show (opOUTPUT v >>= fun _ => opYANK v) s1 = _
    rw [M.bind_ok (opOUTPUT_apply v s1), opYANK_apply]

/-- and so does `YP e`, with a newline. -/
theorem C84_yank_print (e : Tree) (hn : e.notOpr = true) (s s1 : St X) (v : Val) (he : Vals e s (.ok v, s1)) :
    ∃ s', Vals (.node (op1 (s% "YP")) [e]) s (.ok v, s') ∧ Assigned (s% "y") v (s1.wrote (lineText X v)) s' :=
  vals_yank (by decide) hn he fun _ => by
    show (opPRINT v >>= fun _ => opYANK v) s1 = _
    rw [M.bind_ok (opPRINT_apply v s1), opYANK_apply]

/-- If the operand fails, nothing is written or assigned. -/
theorem C84_failing (o : Op) (ho : o ∈ [op1 (s% "O"), op1 (s% "P"), op1 (s% "Y"), op1 (s% "YO"), op1 (s% "YP")])
    (e : Tree) (hn : e.notOpr = true) (s s1 : St X) (ex : Exc) (he : Vals e s (.error ex, s1)) :
    Evals (.node o [e]) s (.error ex, s1) := by
  have h : o.Direct := by
    revert o
    decide
  exact (evals_rvals h.toRvals (by simpa using hn)).2 (.fail (.fail he))

example : toyOut (s% "O4P5P u Y7P y+1u") [] [] = some (s% "45\n8\n") := by decide +kernel
example : toyOut (s% "YO3YP y+1y") [] [] = some (s% "34\n4\n") := by decide +kernel

/-! ### C85: `U`, `++`, `D`, `--` -/

/-- The symbols and what they do to a number -/
inductive Steps : Op → Op → Prop
  | inc : Steps (op1 (s% "U")) (op2 (s% "+"))
  | incTight : Steps (op1 (s% "++")) (op2 (s% "+"))
  | dec : Steps (op1 (s% "D")) (op2 (s% "-"))
  | decTight : Steps (op1 (s% "--")) (op2 (s% "-"))

theorem Steps.flags {o p : Op} (h : Steps o p) : o.ValsLam := by
  cases h <;> (constructor <;> decide)

theorem Steps.call {o p : Op} (h : Steps o p) (R : Rec X) (t : Tree) : callOp R o.fn [t] = opINCDEC R p t := by
  cases h <;> rfl

theorem Steps.evals {o p : Op} (h : Steps o p) {s s1 : St X} {v w : Val}
    (hw : Vals (.node p [.val v, .val (.scalar (s% "1"))]) s (.ok w, s1)) :
    Evals (.node p [.val v, .val (.scalar (s% "1"))]) s (.ok (.v w), s1) := by
  have hp : p.Pure := by
    cases h <;> exact ⟨⟨by decide, by decide, by decide, by decide, by decide, by decide⟩, by decide, by decide⟩
  rw [vals_iff] at hw
  obtain ⟨r, s2, h1, h2⟩ := then_ok_iff.1 hw
  obtain ⟨rfl, hl, _⟩ := evals_pure hp (vs := [v, .scalar (s% "1")]) h1
  cases r with
  | v u =>
    have := runs_pure.1 h2
    simp only [Prod.mk.injEq, Except.ok.injEq] at this
    obtain ⟨rfl, rfl⟩ := this
    exact h1
  | l l => exact absurd (hl _ rfl) (by simp [Res.isL])
  | none => exact absurd ((runs_throw (by decide)).1 h2) (by simp)

/-- On a variable `x`: `x` becomes `x + 1` (`x - 1`), whatever that is, nothing else changes, and the new value is the
result. -/
theorem C85_variable (o p : Op) (h : Steps o p) (x : Str) (hx : PlainVar x) (s s1 : St X) (v w : Val)
    (hv : s.var x = some v) (hb : v.isBlock = false)
    (hw : Vals (.node p [.val v, .val (.scalar (s% "1"))]) s (.ok w, s1)) :
    ∃ s2, Vals (.node o [var x]) s (.ok w, s2) ∧ Assigned x w s1 s2 := by
  refine ⟨s1.put x w, ?_, s1.put_assigned x w⟩
  obtain ⟨n, hn⟩ := Runs.at (h.evals hw) 1
  have := Vals.of_lval hx (e := .node o [var x]) (s := s) (s1 := s1.put x w) (n := n) fun m hm => by
    rw [h.flags.var1 hx (by rw [St.read_of_var hv]; exact hb), h.call]
    apply M.dieType_ok
    unfold opINCDEC
    have h2 : argVal (.lval (.name x none [])) s = (.ok v, s) := by
      show rval _ s = _
      rw [rval_plain hx, St.read_of_var hv]
    rw [M.bind_ok h2, M.bind_ok (hn m hm)]
    show (needVal (.v w) >>= fun v => _) s1 = _
    rw [M.bind_ok (show needVal (.v w) s1 = (.ok w, s1) from rfl)]
    simp only [assign_plain hx]
    rw [M.bind_ok (setVar_apply x w s1)]
    rfl
  rwa [St.read_of_var (St.put_assigned ..).here] at this

/-- In particular for integers. -/
theorem C85_integer (x : Str) (hx : PlainVar x) (s : St X) (i : Int) (hv : s.var x = some (ofInt i)) :
    (∀ n ∈ [s% "U", s% "++"], ∃ s2, Vals (.node (op1 n) [var x]) s (.ok (ofInt (i + 1)), s2) ∧ Assigned x (ofInt (i + 1)) s s2) ∧
    (∀ n ∈ [s% "D", s% "--"], ∃ s2, Vals (.node (op1 n) [var x]) s (.ok (ofInt (i - 1)), s2) ∧ Assigned x (ofInt (i - 1)) s s2) := by
  obtain ⟨h1, h2, _⟩ := C73_integers (X := X) (.val (ofInt i)) (.val (ofInt 1)) s s s i 1 rfl rfl (vals_val.2 rfl) (vals_val.2 rfl)
  constructor
  · intro n hn
    simp only [List.mem_cons, List.not_mem_nil, or_false] at hn
    rcases hn with rfl | rfl
    · exact C85_variable _ _ .inc x hx s s _ _ hv rfl h1
    · exact C85_variable _ _ .incTight x hx s s _ _ hv rfl h1
  · intro n hn
    simp only [List.mem_cons, List.not_mem_nil, or_false] at hn
    rcases hn with rfl | rfl
    · exact C85_variable _ _ .dec x hx s s _ _ hv rfl h2
    · exact C85_variable _ _ .decTight x hx s s _ _ hv rfl h2

/-- On a value that is not in a variable: the result is the value plus (minus) one and nothing is assigned. -/
theorem C85_value (o p : Op) (h : Steps o p) (e : Tree) (s s1 s2 : St X) (v w : Val) (he : Evals e s (.ok (.v v), s1))
    (hb : v.isBlock = false) (hw : Vals (.node p [.val v, .val (.scalar (s% "1"))]) s1 (.ok w, s2)) :
    Vals (.node o [e]) s (.ok w, s2) := by
  obtain ⟨n, hn⟩ := Runs.at (h.evals hw) 1
  obtain ⟨k, hk⟩ := Runs.at he 1
  refine Vals.of_evals (runs_of ok_ne_fuel (max n k) 2 fun m hm => ?_)
  show (run X (m + 1 + 1)).ev _ s = _
  rw [h.flags.ev1 (hk m (by omega)) rfl hb, h.call]
  apply M.dieType_ok
  unfold opINCDEC
  rw [M.bind_ok (show argVal (Res.v v).tree s1 = (.ok v, s1) from rfl), M.bind_ok (hn m (by omega))]
  rfl

example : toyOut (s% "x:5Ux++xD y--x x") [] [] = some (s% "6\n") := by decide +kernel
example : toyOut (s% "x:[1;5;9]Ux x") [] [] = some (s% "2610\n") := by decide +kernel
example : toyOut (s% "U 5") [] [] = some (s% "6\n") := by decide +kernel

/-! ### C86: `RE` -/

/-- `RE e` calls the function that is running, with the value of `e` as its only argument. -/
theorem C86_recurse (e : Tree) (hn : e.notOpr = true) (s s1 : St X) (v f : Val) (he : Vals e s (.ok v, s1))
    (hf : s1.scope.fn = some f) (out : Outcome X Res) :
    Evals (.node (op1 (s% "RE")) [e]) s out ↔ ∃ r : Outcome X Val, Calls f [v] s1 r ∧ out = died (r.map .v) := by
  rw [Op.Direct.evals (by decide) (by simpa using hn) (mapEach_single he)]
  have : ∀ r : Outcome X Res, Runs (fun R => valOp R (op1 (s% "RE")).fn [v]) s1 r ↔
      ∃ r' : Outcome X Val, Calls f [v] s1 r' ∧ r = r'.map .v := by
    intro r
    refine Iff.trans (runs_eq (y := fun R => callVal R (some f) [v] >>= fun w => pure (Res.v w)) (s' := s1) fun R => ?_)
      (runs_map (mono_callVal (some f) [v]) Res.v)
    show (M.get >>= fun s => callVal R s.scope.fn [v] >>= fun r => pure (Res.v r)) s1 = _
    rw [M.bind_ok (M.get_apply s1), hf]
  simp only [this]
  constructor
  · rintro ⟨r, ⟨r', h1, rfl⟩, rfl⟩
    exact ⟨r', h1, rfl⟩
  · rintro ⟨r', h1, rfl⟩
    exact ⟨_, ⟨r', h1, rfl⟩, rfl⟩

/-- While the body of a function runs, that function is the one that is running: it is set when the function is called,
and unless an error is caught inside of `SK` or `DK` the statements leave it alone (C19). -/
theorem C86_running (stmts : List Tree) (ret : Tree) (args : List Val) (s s' : St X) (v : Val)
    (h : Calls (.block stmts ret) args s (.ok v, s')) :
    ∃ s0 s1 s2, s0.scope.fn = some (.block stmts ret) ∧ Runs (fun R => runBody R stmts) s0 (.ok (), s1) ∧
      Vals ret s1 (.ok v, s2) ∧ s' = s2.closeScope ∧
      (s1.swallowed = s0.swallowed → s1.scope.fn = some (.block stmts ret)) := by
  obtain ⟨s1, s2, h1, h2, h3⟩ := bodyAs_ok.1 (calls_body.1 h)
  refine ⟨_, s1, s2, rfl, h1, h2, h3, fun hs => ?_⟩
  obtain ⟨_, n, hn⟩ := h1
  have := (mono_runBody stmts).frame n (s.openScope (some (.block stmts ret)) args)
  rw [show runBody (run X n) stmts _ = _ from hn n (Nat.le_refl n)] at this
  exact (this.2 () rfl hs).fn

/-- Factorials: `{a?a*RE a-1 1}` -/
def factorialText : Str := s% "{a?a*RE a-1 1}"
def factorialBody : Tree :=
  .node (op3 (s% "?")) [var (s% "a"), .node (op2 (s% "*")) [var (s% "a"), .node (op1 (s% "RE"))
    [.node (op2 (s% "-")) [var (s% "a"), .tok ⟨.num, s% "1"⟩]]], .tok ⟨.num, s% "1"⟩]

def fact : Nat → Nat
  | 0 => 1
  | n + 1 => (n + 1) * fact n

theorem factorial_parses : compile factorialText = .ok (.block [] (.node blockOp [.code [factorialBody]])) := by
  decide +kernel

/-- An integer is false iff it is zero. -/
theorem C15_integer (i : Int) : (ofInt i).truthy = false ↔ i = 0 := by
  constructor
  · intro h
    rw [ofInt, C15_scalar] at h
    by_cases hi : i = 0
    · exact hi
    exfalso
    have first : ∃ c r, showInt i = c :: r ∧ c ≠ '0' ∧ c ≠ '.' := by
      cases i with
      | negSucc n => exact ⟨'-', _, rfl, by decide, by decide⟩
      | ofNat n =>
        obtain ⟨d, l, e, h1, _⟩ := natDigits_head 10 n (by omega)
        have hd : d < 10 := natDigits_lt 10 n (by omega) d (by rw [e]; simp)
        have h0 : 0 < d := h1 (by have : (Int.ofNat n) ≠ 0 := hi; simp at this; omega)
        refine ⟨digitChar d, l.map digitChar, ?_, ?_⟩
        · show showNat n = _
          rw [showNat, e]
          rfl
        · clear e h1
          have : d = 1 ∨ d = 2 ∨ d = 3 ∨ d = 4 ∨ d = 5 ∨ d = 6 ∨ d = 7 ∨ d = 8 ∨ d = 9 := by omega
          rcases this with rfl | rfl | rfl | rfl | rfl | rfl | rfl | rfl | rfl <;> decide
    obtain ⟨c, r, e, h1, h2⟩ := first
    rw [e] at h
    rcases h with h | h | ⟨w, h, hw⟩
    · cases h
    · rcases h.1 c (by simp) with rfl | rfl
      · exact h1 rfl
      · exact h2 rfl
    · cases w with
      | nil => exact absurd hw.2.2 (by simp)
      | cons x w =>
        simp only [List.cons_append, List.cons.injEq] at h
        rcases hw.1 x (by simp) with rfl | rfl
        · exact h1 h.1
        · exact h2 h.1
  · rintro rfl
    decide

example : (ofInt (-10)).truthy = true := by decide +kernel

/-- Recursion: the function with the text `{a?a*RE a-1 1}` computes factorials of all natural numbers. -/
theorem C86_factorial (n : Nat) (s : St X) : Calls (.block [] factorialBody) [ofInt n] s (.ok (ofInt (fact n)), s) := by
  have hp : PlainVar (s% "a") := by
    unfold PlainVar
    decide
  induction n generalizing s with
  | zero =>
    generalize ht : s.openScope (some (.block [] factorialBody)) [ofInt ((0 : Nat) : Int)] = t
    refine calls_body.2 (bodyAs_ok.2 ⟨t, t, runs_pure.2 (by rw [ht]), ?_, by rw [← ht, closeScope_open]⟩)
    have ha := Vals.var (X := X) hp t
    refine Vals.of_evals ((C23_ifte _ _ _ _ _).2 ⟨(.ok (.v (ofInt 1)), t), .ok ha ?_, rfl⟩)
    rw [if_neg]
    · exact evals_num _ _
    · subst ht
      show ¬(ofInt 0).truthy = true
      decide
  | succ n ih =>
    generalize ht : s.openScope (some (.block [] factorialBody)) [ofInt ((n + 1 : Nat) : Int)] = t
    refine calls_body.2 (bodyAs_ok.2 ⟨t, t, runs_pure.2 (by rw [ht]), ?_, by rw [← ht, closeScope_open]⟩)
    have ha := Vals.var (X := X) hp t
    have hr : t.read (s% "a") = ofInt ((n + 1 : Nat) : Int) := by
      subst ht
      rfl
    have hf : t.scope.fn = some (.block [] factorialBody) := by
      subst ht
      rfl
    rw [hr] at ha
    have h1 := (C73_integers (X := X) (var (s% "a")) (.tok ⟨.num, s% "1"⟩) t t t _ 1 rfl rfl ha
      (Vals.of_evals (evals_num _ _))).2.1
    have h2 : Vals (.node (op1 (s% "RE")) [.node (op2 (s% "-")) [var (s% "a"), .tok ⟨.num, s% "1"⟩]]) t
        (.ok (ofInt (fact n)), t) := by
      refine Vals.of_evals ((C86_recurse _ rfl t t _ _ h1 hf _).2 ⟨(.ok (ofInt (fact n)), t), ?_, rfl⟩)
      have := ih t
      rwa [show (((n + 1 : Nat) : Int) - 1) = n by omega]
    have h3 := (C73_integers (X := X) (var (s% "a")) _ t t t _ _ rfl rfl ha h2).2.2.1
    have h4 : Vals factorialBody t (.ok (ofInt (((n + 1 : Nat) : Int) * fact n)), t) := by
      rw [vals_iff] at h3 ⊢
      obtain ⟨r, s2, h5, h6⟩ := then_ok_iff.1 h3
      refine .ok ((C23_ifte _ _ _ _ _).2 ⟨(.ok r, s2), .ok ha ?_, rfl⟩) h6
      rw [if_pos]
      · exact h5
      · have := (not_congr (C15_integer ((n + 1 : Nat) : Int))).2 (by omega)
        simpa using this
    have e : (((n + 1 : Nat) : Int) * fact n) = (fact (n + 1) : Nat) := by
      rw [fact]
      push_cast
      rfl
    rwa [e] at h4

example : toyOut (s% "f:{a?a*RE a-1 1}(f 5)") [] [] = some (s% "120\n") := by decide +kernel

/-! ### C87: `(f x y)`, `(l i j)` -/

/-- The results have these values, and reading them changes nothing. -/
def Hold (s : St X) : List Res → List Val → Prop
  | [], [] => True
  | r :: rs, v :: vs => resRval r s = (.ok v, s) ∧ Hold s rs vs
  | _, _ => False

/-- The item of a non-empty list, string or finite Range at a position, counted modulo the length. -/
inductive AtPos : Val → Int → Val → Prop
  | list {l : List Val} {i : Int} {x : Val} : l[(i % l.length).toNat]? = some x → AtPos (.list l) i x
  | string {t : Str} {i : Int} {c : Char} : t[(i % t.length).toNat]? = some c → AtPos (.scalar t) i (.scalar [c])
  | range {a b i : Int} : a < b → AtPos (.range (some a) (some b)) i (ofInt (a + i % (b - a)))

/-- The item of an item of an item … -/
inductive ItemPath : Val → List Int → Val → Prop
  | nil {v : Val} : ItemPath v [] v
  | cons {v w u : Val} {i : Int} {is : List Int} : AtPos v i w → ItemPath w is u → ItemPath v (i :: is) u

theorem send_flags : sendOp.OnlyVals := by constructor <;> decide

theorem hold_evals {s : St X} : ∀ {args : List Tree} {rs : List Res} {vs : List Val} {s0 s1 : St X},
    MapEach Evals args s0 (.ok rs, s1) → Hold s rs vs →
      ∃ n, ∀ m, n ≤ m → evals (run X m) args s0 = (.ok (rs.map Res.tree), s1)
  | [], rs, vs, s0, s1, h, _ => by
    cases h
    exact ⟨0, fun _ _ => rfl⟩
  | a :: args, rs, vs, s0, s1, h, hh => by
    obtain ⟨r, s', rs', h1, h2, rfl⟩ := mapEach_cons_ok.1 h
    cases vs with
    | nil => exact absurd hh (by simp [Hold])
    | cons v vs =>
      obtain ⟨_, n, hn⟩ := h1
      obtain ⟨n', hn'⟩ := hold_evals h2 hh.2
      refine ⟨max n n', fun m hm => ?_⟩
      have hr : r ≠ .none := by
        rintro rfl
        exact absurd (congrArg Prod.fst hh.1) (by simp [resRval, M.throw])
      unfold evals
      rw [M.bind_ok (hn m (by omega)), Res.resTree hr]
      simp only
      rw [M.bind_ok (hn' m (by omega))]
      rfl

theorem hold_argVal {s : St X} : ∀ {rs : List Res} {vs : List Val}, Hold s rs vs →
    mapL argVal (rs.map Res.tree) s = (.ok vs, s)
  | [], [], _ => rfl
  | r :: rs, v :: vs, h => by
    have hr : r ≠ .none := by
      rintro rfl
      exact absurd (congrArg Prod.fst h.1) (by simp [resRval, M.throw])
    show (argVal r.tree >>= fun b => mapL argVal (rs.map Res.tree) >>= fun bs => pure (b :: bs)) s = _
    rw [argVal_tree hr, M.bind_ok h.1, M.bind_ok (hold_argVal h.2)]
    rfl
  | [], _ :: _, h => absurd h (by simp [Hold])
  | _ :: _, [], h => absurd h (by simp [Hold])

/-- The operands of a bracketed expression are evaluated from left to right; variables among them are read afterwards. -/
theorem evals_send {es : List Tree} {rs : List Res} {vs : List Val} {s s1 : St X} (h : MapEach Evals es s (.ok rs, s1))
    (hv : Hold s1 rs vs) {out : Outcome X Res} :
    Evals (.node sendOp es) s out ↔ ∃ r, Runs (fun R => callOp R .SEND (rs.map Res.tree)) s1 r ∧ out = died r := by
  obtain ⟨n, hn⟩ := hold_evals h hv
  refine Iff.trans (runs_shift (y := fun R => evals R es >>= fun l => (callOp R .SEND l).dieType) (s' := s) fun m => ?_) ?_
  · rw [ev_onlyVals send_flags]
    simp only [expandOrCall_onlyVals _ send_flags]
    rfl
  · refine (runs_bind_of (x := fun R => evals R es) (f := fun l R => (callOp R .SEND l).dieType) ⟨ok_ne_fuel, n, hn⟩).trans ?_
    exact runs_dieType fun C R R' h => Cong.callOp h _ _

/-- `(f x y …)` where `f` is a function calls it with the values of the operands. -/
theorem C87_call (es : List Tree) (rs : List Res) (f : Val) (vs : List Val) (s s1 : St X)
    (h : MapEach Evals es s (.ok rs, s1)) (hv : Hold s1 rs (f :: vs)) (hf : f.isBlock = true) (out : Outcome X Res) :
    Evals (.node sendOp es) s out ↔ ∃ r : Outcome X Val, Calls f vs s1 r ∧ out = died (r.map .v) := by
  cases rs with
  | nil => exact absurd hv (by simp [Hold])
  | cons r0 rs =>
    obtain ⟨h0, hv'⟩ := hv
    rw [evals_send h (vs := f :: vs) ⟨h0, hv'⟩]
    have : ∀ r : Outcome X Res, Runs (fun R => callOp R .SEND ((r0 :: rs).map Res.tree)) s1 r ↔
        ∃ r' : Outcome X Val, Calls f vs s1 r' ∧ r = r'.map .v := by
      intro r
      refine Iff.trans (runs_eq (y := fun R => callVal R (some f) vs >>= fun w => pure (Res.v w)) (s' := s1) fun R => ?_)
        (runs_map (mono_callVal (some f) vs) Res.v)
      show opSEND R r0.tree (rs.map Res.tree) s1 = _
      unfold opSEND
      cases f with
      | block st ret =>
        cases r0 with
        | none => exact absurd (congrArg Prod.fst h0) (by simp [resRval, M.throw])
        | v w =>
          simp only [resRval, M.pure_apply, Prod.mk.injEq, Except.ok.injEq, and_true] at h0
          subst h0
          show (mapL argVal (rs.map Res.tree) >>= fun args => _) s1 = _
          rw [M.bind_ok (hold_argVal hv')]
        | l l =>
          simp only [Res.tree]
          refine (M.bind_ok (show rval l s1 = _ from h0)).trans ?_
          show (mapL argVal (rs.map Res.tree) >>= fun args => _) s1 = _
          rw [M.bind_ok (hold_argVal hv')]
      | _ => exact absurd hf (by simp [Val.isBlock])
    simp only [this]
    constructor
    · rintro ⟨r, ⟨r', h1, rfl⟩, rfl⟩
      exact ⟨r', h1, rfl⟩
    · rintro ⟨r', h1, rfl⟩
      exact ⟨_, ⟨r', h1, rfl⟩, rfl⟩

theorem AtPos.facts {v w : Val} {i : Int} (h : AtPos v i w) :
    v.isIterable = true ∧ v.isEmpty = false ∧ v.get (.int i) = .ok w := by
  cases h with
  | list h =>
    refine ⟨rfl, ?_, ?_⟩
    · rename_i l
      cases l with
      | nil => cases h
      | cons => rfl
    · simp only [Val.get, h]
  | string h =>
    refine ⟨rfl, ?_, ?_⟩
    · rename_i t _
      cases t with
      | nil => cases h
      | cons => rfl
    · simp only [Val.get, h]
  | range h => exact ⟨rfl, decide_eq_false (by simpa [lo0] using h), C12_index_range _ _ _ h⟩

theorem ItemPath.readPath {v u : Val} {is : List Int} (h : ItemPath v is u) : Pip.readPath (is.map .int) v = .ok u := by
  induction h with
  | nil => rfl
  | cons h1 _ ih =>
    obtain ⟨h2, _, h3⟩ := h1.facts
    simp only [List.map_cons, Pip.readPath, h2, if_true, h3]
    exact ih

theorem foldL_at (R : Rec X) {s : St X} : ∀ {is : List Int} {rs : List Res} {v w : Val}, Hold s rs (is.map ofInt) →
    ItemPath v is w → foldL (sendAT R) (.v v) (rs.map Res.tree) s = (.ok (.v w), s)
  | [], [], v, w, _, h => by
    cases h
    rfl
  | i :: is, r :: rs, v, w, hh, .cons h1 h2 => by
    have hr : r ≠ .none := by
      rintro rfl
      exact absurd (congrArg Prod.fst hh.1) (by simp [resRval, M.throw])
    obtain ⟨h3, h4, h5⟩ := h1.facts
    show (sendAT R (.v v) r.tree >>= fun b => foldL (sendAT R) b (rs.map Res.tree)) s = _
    refine (M.bind_ok (a := .v _) (s' := s) ?_).trans (foldL_at R hh.2 h2)
    show (argVal r.tree >>= fun r => opATwith R (.val v) r) s = _
    rw [argVal_tree hr, M.bind_ok hh.1]
    simp only [opATwith, ofInt, atIdx, toInt_showInt, atVal, h3, h4, h5, if_true, Bool.false_eq_true, if_false]
    rfl
  | [], _ :: _, _, _, h, _ => absurd h (by simp [Hold])
  | _ :: _, [], _, _, h, _ => absurd h (by simp [Hold])

/-- `(l i j …)` is the item of the item … at the given positions, counted modulo the lengths. -/
theorem C87_items (es : List Tree) (rs : List Res) (v w : Val) (is : List Int) (s s1 : St X)
    (h : MapEach Evals es s (.ok (.v v :: rs), s1)) (hv : Hold s1 rs (is.map ofInt)) (hi : is ≠ []) (hp : ItemPath v is w) :
    Evals (.node sendOp es) s (.ok (.v w), s1) := by
  refine (evals_send h (vs := v :: is.map ofInt) ⟨rfl, hv⟩).2 ⟨(.ok (.v w), s1), ⟨ok_ne_fuel, 0, fun m _ => ?_⟩, rfl⟩
  show opSEND _ (.val v) (rs.map Res.tree) s1 = _
  have : v.isIterable = true := by
    cases hp with
    | nil => exact absurd rfl hi
    | cons h1 _ => exact h1.facts.1
  unfold opSEND
  cases v with
  | block => cases this
  | pattern => cases this
  | nil => cases this
  | _ => exact foldL_at _ hv hp

theorem foldL_atVar (R : Rec X) {s : St X} {x : Str} : ∀ {is : List Int} {rs : List Res} {sl : List Idx},
    Hold s rs (is.map ofInt) →
    foldL (sendAT R) (.l (.name x none sl)) (rs.map Res.tree) s = (.ok (.l (.name x none (sl ++ is.map .int))), s)
  | [], [], sl, _ => by
    simp only [List.map_nil, List.append_nil]
    rfl
  | i :: is, r :: rs, sl, hh => by
    have hr : r ≠ .none := by
      rintro rfl
      exact absurd (congrArg Prod.fst hh.1) (by simp [resRval, M.throw])
    show (sendAT R (.l (.name x none sl)) r.tree >>= fun b => foldL (sendAT R) b (rs.map Res.tree)) s = _
    refine (M.bind_ok (a := .l (.name x none (sl ++ [.int i]))) (s' := s) ?_).trans ?_
    · show (argVal r.tree >>= fun r => opATwith R (.lval (.name x none sl)) r) s = _
      rw [argVal_tree hr, M.bind_ok hh.1]
      simp only [opATwith, ofInt, atIdx, toInt_showInt]
      rfl
    · rw [foldL_atVar R hh.2]
      simp
  | [], _ :: _, _, h => absurd h (by simp [Hold])
  | _ :: _, [], _, h => absurd h (by simp [Hold])

/-- The same if the first operand is a variable, with the value that it has after the other operands were evaluated. -/
theorem C87_variable (x : Str) (hx : PlainVar x) (es : List Tree) (rs : List Res) (v w : Val) (is : List Int) (s s1 : St X)
    (h : MapEach Evals es s (.ok rs, s1)) (hv : Hold s1 rs (is.map ofInt)) (hi : is ≠ []) (hr : s1.var x = some v)
    (hp : ItemPath v is w) : Vals (.node sendOp (var x :: es)) s (.ok w, s1) := by
  have h0 : Evals (var x) s (.ok (.l (.name x none [])), s) := runs_of ok_ne_fuel 0 1 fun m _ => ev_var hx m s
  have he : Evals (.node sendOp (var x :: es)) s (.ok (.l (.name x none (is.map .int))), s1) := by
    refine (evals_send (mapEach_cons_ok.2 ⟨_, s, rs, h0, h, rfl⟩) (vs := v :: is.map ofInt) ⟨?_, hv⟩).2
      ⟨(.ok (.l (.name x none (is.map .int))), s1), ⟨ok_ne_fuel, 0, fun m _ => ?_⟩, rfl⟩
    · show rval _ s1 = _
      rw [rval_plain hx, St.read_of_var hr]
    · show opSEND _ (.lval (.name x none [])) (rs.map Res.tree) s1 = _
      have : v.isIterable = true := by
        cases hp with
        | nil => exact absurd rfl hi
        | cons h1 _ => exact h1.facts.1
      unfold opSEND
      refine (M.bind_ok (show rval (.name x none []) s1 = (.ok v, s1) by rw [rval_plain hx, St.read_of_var hr])).trans ?_
      cases v with
      | block => cases this
      | _ => exact foldL_atVar _ (sl := []) hv
  obtain ⟨n, hn⟩ := Runs.at he 1
  refine runs_of ok_ne_fuel n 1 fun m hm => ?_
  show getRval (run X (m + 1)) _ s = _
  rw [getRval_eq, M.bind_ok (hn m hm)]
  show rval _ s1 = _
  unfold rval
  rw [if_neg hx.2.2, if_neg (by simp [hx.special])]
  simp only [M.bind_ok (M.get_apply s1), hr, hp.readPath]
  rfl

example : toyOut (s% "f:{a.b}(f 5 6)") [] [] = some (s% "56\n") := by decide +kernel
example : toyOut (s% "l:[4;[5;6;\"abc\"]](l 1 2 2)") [] [] = some (s% "c\n") := by decide +kernel
/-- Variables among the operands are read last. -/
example : toyOut (s% "x:1f:{a.b}(f x x:2)") [] [] = some (s% "22\n") := by decide +kernel

/-! ### C88: `V` -/

theorem opEVAL1_block (R : Rec X) (st : List Tree) (ret : Tree) :
    opEVAL1 R (.block st ret) = (execAll R st >>= fun _ => R.ev ret) := rfl

theorem runs_eval (st : List Tree) (ret : Tree) {s : St X} {r : Outcome X Res} :
    Runs (fun R => execAll R st >>= fun _ => R.ev ret) s r ↔ Then (ExecsAll st) (fun _ => Evals ret) s r :=
  runs_bind (X := X) (x := fun R => execAll R st) (fun _ _ _ h => Cong.execAll h st) (f := fun _ R => R.ev ret)

/-- `V f` runs the statements of a function and evaluates its last expression, in the scope where `V` is. -/
theorem C88_block (e : Tree) (hn : e.notOpr = true) (s s1 : St X) (st : List Tree) (ret : Tree)
    (he : Vals e s (.ok (.block st ret), s1)) (out : Outcome X Res) :
    Evals (.node (op1 (s% "V")) [e]) s out ↔ ∃ r, Then (ExecsAll st) (fun _ => Evals ret) s1 r ∧ out = died r := by
  rw [vOp_direct.evals (by simpa using hn) (mapEach_single he)]
  exact exists_congr fun r => and_congr_left fun _ => runs_eval st ret

/-- `V t` does the same with the program that a text is parsed to; -/
theorem C88_text (e : Tree) (hn : e.notOpr = true) (s s1 : St X) (t : Str) (st : List Tree) (ret : Tree)
    (he : Vals e s (.ok (.scalar t), s1)) (ht : compile t = .ok (.block st ret)) (out : Outcome X Res) :
    Evals (.node (op1 (s% "V")) [e]) s out ↔ ∃ r, Then (ExecsAll st) (fun _ => Evals ret) s1 r ∧ out = died r := by
  rw [vOp_direct.evals (by simpa using hn) (mapEach_single he)]
  refine exists_congr fun r => and_congr_left fun _ => Iff.trans (runs_eq (s' := s1) fun R => ?_) (runs_eval st ret)
  show (M.lift (compile t) >>= fun code => _) s1 = _
  rw [ht]
  rfl

/-- and if the text is not a program, it dies with a fatal error. -/
theorem C88_syntax (e : Tree) (hn : e.notOpr = true) (s s1 : St X) (t : Str)
    (he : Vals e s (.ok (.scalar t), s1)) (ht : ∀ st ret, compile t ≠ .ok (.block st ret)) :
    Evals (.node (op1 (s% "V")) [e]) s (.error .fatal, s1) := by
  have hc : compile t = .error .fatal := by
    unfold compile at ht ⊢
    rcases C01_scan_total (t ++ s% "\n") with ⟨ts, h⟩ | h
    · rcases C05_parse_total _ _ h with ⟨sts, h'⟩ | h' | h'
      · exfalso
        have hb : ∃ st ret, blockOf sts = .block st ret := by
          unfold blockOf
          split
          · split
            · exact ⟨_, _, rfl⟩
            · exact ⟨_, _, rfl⟩
          · exact ⟨_, _, rfl⟩
        obtain ⟨st, ret, hb⟩ := hb
        refine ht st ret ?_
        rw [h]
        simp only [dieSyntax, bind, Except.bind, h', pure, Except.pure, hb]
      · rw [h]
        simp only [dieSyntax, bind, Except.bind, h']
      · rw [h]
        simp only [dieSyntax, bind, Except.bind, h']
    · rw [h]
      rfl
  refine (vOp_direct.evals (by simpa using hn) (mapEach_single he)).2 ⟨(.error .fatal, s1), ⟨by simp, 0, fun m _ => ?_⟩, rfl⟩
  show (M.lift (compile t) >>= fun code => _) s1 = _
  rw [hc]
  rfl

/-- `f V l` and `l V f` call the function with the items of `l`. -/
theorem C88_call (a b : Tree) (ha : a.notOpr = true) (hb : b.notOpr = true) (s s1 s2 : St X) (st : List Tree) (ret : Tree)
    (v : Val) (args : List Val) (hv : v.isBlock = false) (hi : v.items = .ok args)
    (h : (Vals a s (.ok (.block st ret), s1) ∧ Vals b s1 (.ok v, s2)) ∨
      (Vals a s (.ok v, s1) ∧ Vals b s1 (.ok (.block st ret), s2))) (out : Outcome X Res) :
    Evals (.node (op2 (s% "V")) [a, b]) s out ↔
      ∃ r : Outcome X Val, Calls (.block st ret) args s2 r ∧ out = died (r.map .v) := by
  have key : ∀ vs : List Val, (vs = [.block st ret, v] ∨ vs = [v, .block st ret]) → ∀ r : Outcome X Res,
      Runs (fun R => valOp R (op2 (s% "V")).fn vs) s2 r ↔
        ∃ r' : Outcome X Val, Calls (.block st ret) args s2 r' ∧ r = r'.map .v := by
    intro vs hvs r
    refine Iff.trans (runs_eq (y := fun R => callVal R (some (.block st ret)) args >>= fun w => pure (Res.v w)) (s' := s2)
      fun R => ?_) (runs_map (mono_callVal (some (.block st ret)) args) Res.v)
    rcases hvs with rfl | rfl
    · show opEVAL2 R (.block st ret) v s2 = _
      have : opEVAL2 R (.block st ret) v =
          (M.lift v.items >>= fun args => callVal R (some (.block st ret)) args >>= fun w => pure (Res.v w)) := by
        cases v with
        | block => cases hv
        | _ => rfl
      rw [this, hi]
      rfl
    · show opEVAL2 R v (.block st ret) s2 = _
      show (M.lift _ >>= fun args => callVal R (some (.block st ret)) args >>= fun w => pure (Res.v w)) s2 = _
      rw [hi]
      rfl
  have gen : ∀ vs : List Val, (vs = [.block st ret, v] ∨ vs = [v, .block st ret]) → MapEach Vals [a, b] s (.ok vs, s2) →
      (Evals (.node (op2 (s% "V")) [a, b]) s out ↔
        ∃ r : Outcome X Val, Calls (.block st ret) args s2 r ∧ out = died (r.map .v)) := by
    intro vs hvs hm
    rw [Op.Direct.evals (by decide) (by simp [ha, hb]) hm]
    simp only [key vs hvs]
    constructor
    · rintro ⟨r, ⟨r', h1, rfl⟩, rfl⟩
      exact ⟨r', h1, rfl⟩
    · rintro ⟨r', h1, rfl⟩
      exact ⟨_, ⟨r', h1, rfl⟩, rfl⟩
  rcases h with ⟨h1, h2⟩ | ⟨h1, h2⟩
  · exact gen _ (.inl rfl) (mapEach_two h1 h2)
  · exact gen _ (.inr rfl) (mapEach_two h1 h2)

/-- `t V l`, with a text that is a program, calls the function with that body. -/
theorem C88_call_text (a b : Tree) (ha : a.notOpr = true) (hb : b.notOpr = true) (s s1 s2 : St X) (t : Str) (st : List Tree)
    (ret : Tree) (v : Val) (args : List Val) (hv : v.isBlock = false) (hi : v.items = .ok args) (h1 : Vals a s (.ok (.scalar t), s1))
    (h2 : Vals b s1 (.ok v, s2)) (ht : compile t = .ok (.block st ret)) (out : Outcome X Res) :
    Evals (.node (op2 (s% "V")) [a, b]) s out ↔
      ∃ r : Outcome X Val, Calls (.block st ret) args s2 r ∧ out = died (r.map .v) := by
  have key : ∀ r : Outcome X Res, Runs (fun R => valOp R (op2 (s% "V")).fn [.scalar t, v]) s2 r ↔
      ∃ r' : Outcome X Val, Calls (.block st ret) args s2 r' ∧ r = r'.map .v := by
    intro r
    refine Iff.trans (runs_eq (y := fun R => callVal R (some (.block st ret)) args >>= fun w => pure (Res.v w)) (s' := s2)
      fun R => ?_) (runs_map (mono_callVal (some (.block st ret)) args) Res.v)
    show opEVAL2 R (.scalar t) v s2 = _
    have : opEVAL2 R (.scalar t) v = (M.lift (compile t) >>= fun code => match code with
        | .block stmts ret => do
          let args ← M.lift v.items
          let w ← callVal R (some (.block stmts ret)) args
          return .v w
        | _ => return .v .nil) := by
      cases v with
      | block => cases hv
      | _ => rfl
    rw [this, ht, hi]
    rfl
  rw [Op.Direct.evals (by decide) (by simp [ha, hb]) (mapEach_two h1 h2)]
  simp only [key]
  constructor
  · rintro ⟨r, ⟨r', h1, rfl⟩, rfl⟩
    exact ⟨r', h1, rfl⟩
  · rintro ⟨r', h1, rfl⟩
    exact ⟨_, ⟨r', h1, rfl⟩, rfl⟩

example : toyOut (s% "\"a.b\"V[3;4]") [] [] = some (s% "34\n") := by decide +kernel
example : toyOut (s% "x:4;V\"x:x+1\"x") [] [] = some (s% "5\n") := by decide +kernel
example : toyOut (s% "{a.b}V[3;4]") [] [] = some (s% "34\n") := by decide +kernel
example : toyOut (s% "V\"(\"") [] [] = none := by decide +kernel

end Pip
