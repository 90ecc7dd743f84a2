import Verif.Lemmas.Runs
/-! # Variables: reading, assigning, evaluating a name -/

namespace Pip
variable {X : Ext} {α β : Type}

theorem SameRest.refl (s : St X) : SameRest s s := ⟨rfl, rfl, rfl, rfl, rfl, rfl, rfl, rfl, rfl, rfl, rfl⟩
theorem SameRest.trans {s t u : St X} (h : SameRest s t) (h' : SameRest t u) : SameRest s u where
  below := h'.below.trans h.below
  depth := h'.depth.trans h.depth
  fn := h'.fn.trans h.fn
  args := h'.args.trans h.args
  main := h'.main.trans h.main
  inp := h'.inp.trans h.inp
  out := h'.out.trans h.out
  rng := h'.rng.trans h.rng
  cells := h'.cells.trans h.cells
  ncell := h'.ncell.trans h.ncell
  swallowed := h'.swallowed.trans h.swallowed

/-- The state after an assignment -/
def St.put (s : St X) (n : Str) (v : Val) : St X :=
  if isLocal n then { s with scope := { s.scope with vars := setFn s.scope.vars n v } }
  else { s with vars := setFn s.vars n v }

theorem setVar_apply (n : Str) (v : Val) (s : St X) : M.setVar n v s = (.ok (), s.put n v) := rfl

theorem St.put_var (s : St X) (n : Str) (v : Val) (m : Str) : (s.put n v).var m = if m = n then some v else s.var m := by
  unfold St.put St.var
  by_cases h : m = n
  · subst h
    cases isLocal m <;> simp [setFn]
  · cases h1 : isLocal n <;> cases h2 : isLocal m <;> simp [setFn, h]

theorem St.put_rest (s : St X) (n : Str) (v : Val) : SameRest s (s.put n v) := by
  unfold St.put
  split <;> exact ⟨rfl, rfl, rfl, rfl, rfl, rfl, rfl, rfl, rfl, rfl, rfl⟩

theorem St.put_assigned (s : St X) (n : Str) (v : Val) : Assigned n v s (s.put n v) where
  here := by rw [St.put_var, if_pos rfl]
  other m h := by rw [St.put_var, if_neg h]
  rest := s.put_rest n v

theorem PlainVar.special {n : Str} (h : PlainVar n) : isSpecial n = false := by
  simp [isSpecial, h.1, h.2.1]

theorem nameLval_plain {n : Str} (h : PlainVar n) : (nameLval n : M X Lval) = pure (.name n none []) := by
  simp [nameLval, h.special]

theorem assign_plain {n : Str} (h : PlainVar n) (c : Option Nat) (v : Val) :
    (assign (.name n c []) v : M X Unit) = M.setVar n v := by
  simp [assign, assignName, h.special]

theorem rval_plain {n : Str} (h : PlainVar n) (c : Option Nat) (s : St X) :
    rval (.name n c []) s = (.ok (s.read n), s) := by
  unfold rval
  rw [if_neg h.2.2, if_neg (by simp [h.special])]
  simp only [M.pure_bind', M.bind_ok (M.get_apply s), St.read]
  cases s.var n <;> rfl

/-! ### Evaluation of the simplest trees -/

theorem ev_var {n : Str} (h : PlainVar n) (m : Nat) (s : St X) :
    (run X (m + 1)).ev (var n) s = (.ok (.l (.name n none [])), s) := by
  show evalTree (run X m) (var n) s = _
  simp only [evalTree, var, if_pos, nameLval_plain h, M.pure_bind', M.pure_apply]

theorem ev_val (v : Val) (m : Nat) (s : St X) : (run X (m + 1)).ev (.val v) s = (.ok (.v v), s) := rfl
theorem ev_lval (l : Lval) (m : Nat) (s : St X) : (run X (m + 1)).ev (.lval l) s = (.ok (.l l), s) := rfl
theorem ev_node (o : Op) (ts : List Tree) (m : Nat) : (run X (m + 1)).ev (.node o ts) = evalNode (run X m) o ts := rfl
theorem exec_cmd (c : Cmd) (ts : List Tree) (m : Nat) (s : St X) :
    (run X (m + 1)).exec (.cmd c ts) s = (do runCmd (run X m) c ts; return none : M X (Option Val)) s := rfl

/-- `getRval` is `evaluate` followed by reading the lvalue. -/
theorem getRval_eq (t : Tree) (m : Nat) : getRval (run X (m + 1)) t = (do let r ← (run X (m + 1)).ev t; resRval r) := by
  cases t <;> rfl

theorem getRval_var {n : Str} (h : PlainVar n) (m : Nat) (s : St X) :
    getRval (run X (m + 1)) (var n) s = (.ok (s.read n), s) := by
  rw [getRval_eq, M.bind_ok (ev_var h m s)]
  exact rval_plain h none s

/-- An expression with a value evaluates to a result with that value. -/
theorem ev_of_getRval {t : Tree} {m : Nat} {s s' : St X} {v : Val} (h : getRval (run X (m + 1)) t s = (.ok v, s')) :
    ∃ r s1, (run X (m + 1)).ev t s = (.ok r, s1) ∧ resRval r s1 = (.ok v, s') ∧ r ≠ .none := by
  rw [getRval_eq] at h
  rcases e : (run X (m + 1)).ev t s with ⟨r, s1⟩
  cases r with
  | error e' =>
    rw [M.bind_error e] at h
    cases h
  | ok r =>
    rw [M.bind_ok e] at h
    refine ⟨r, s1, rfl, h, ?_⟩
    rintro rfl
    cases h

/-- Outcomes for all large budgets, from the outcome with a fixed number of extra steps -/
theorem runs_of {x : Rec X → M X α} {s : St X} {o : Except Exc α × St X} (ho : o.1 ≠ .error .fuel) (n k : Nat)
    (h : ∀ m, n ≤ m → x (run X (m + k)) s = o) : Runs x s o := by
  refine ⟨ho, n + k, fun m hm => ?_⟩
  obtain ⟨j, rfl⟩ : ∃ j, m = j + k := ⟨m - k, by omega⟩
  exact h j (by omega)

/-- The outcome for all large budgets -/
theorem Runs.at {x : Rec X → M X α} {s : St X} {o : Except Exc α × St X} (h : Runs x s o) (k : Nat) :
    ∃ n, ∀ m, n ≤ m → x (run X (m + k)) s = o := by
  obtain ⟨_, n, hn⟩ := h
  exact ⟨n, fun m hm => hn _ (by omega)⟩

/-- Two computations with the same outcomes for all budgets from `k` on -/
theorem runs_congr {x y : Rec X → M X α} {s s' : St X} {o : Except Exc α × St X} (k : Nat)
    (h : ∀ m, x (run X (m + k)) s = o ↔ y (run X (m + k)) s' = o) : Runs x s o ↔ Runs y s' o := by
  constructor
  · rintro ⟨ho, n, hn⟩
    exact runs_of ho n k fun m hm => (h m).1 (hn _ (by omega))
  · rintro ⟨ho, n, hn⟩
    exact runs_of ho n k fun m hm => (h m).2 (hn _ (by omega))

theorem ok_ne_fuel {a : α} {s : St X} : ((Except.ok a, s) : Except Exc α × St X).1 ≠ .error .fuel := by
  intro h
  cases h

theorem Vals.var {n : Str} (h : PlainVar n) (s : St X) : Vals (Pip.var n) s (.ok (s.read n), s) :=
  runs_of ok_ne_fuel 0 1 fun m _ => getRval_var h m s

/-! ### Operators whose operands are evaluated to values or lvalues -/

/-- The flags of `:`, `::` and the list brackets -/
structure Op.OnlyVals (o : Op) : Prop where
  vals : o.vals = true
  rvals : o.rvals = false
  listEach : o.listEach = false
  rangeEach : o.rangeEach = false
  inLambda : o.inLambda = false
  assign : o.assign = false
  map : o.map = false
  fold : o.fold = false
  scan : o.scan = false
  fn : o.fn ≠ .PARENTHESIZE

theorem Op.OnlyVals.expands {o : Op} (h : o.OnlyVals) (t : Tree) : expands o t = false := by
  cases t <;> simp [Pip.expands, h.rangeEach, h.listEach]

theorem evalNode_of_plain (R : Rec X) {o : Op} (ha : o.assign = false) (hm : o.map = false) (hf : o.fold = false)
    (hs : o.scan = false) (hp : o.fn ≠ .PARENTHESIZE) (ts : List Tree) : evalNode R o ts = applyOp R o ts := by
  cases ts with
  | nil => simp [evalNode, ha, hm, hf, hs]
  | cons t ts => simp [evalNode, ha, hm, hf, hs, hp]

/-- Evaluation of operands one after the other to results -/
def evals (R : Rec X) : List Tree → M X (List Tree)
  | [] => pure []
  | t :: ts => do
    let r ← R.ev t
    match resTree r with
    | some t' => do
      let rest ← evals R ts
      return t' :: rest
    | none => M.throw .unmodelled

theorem prepArgs_onlyVals (R : Rec X) {o : Op} (h : o.OnlyVals) (ts : List Tree) :
    prepArgs R o ts = (do let l ← evals R ts; return l.map fun t => (t, false)) := by
  induction ts with
  | nil => rfl
  | cons t ts ih =>
    unfold prepArgs evals
    rw [ih]
    simp only [prepArg, h.rvals, h.vals, isFnArg, h.inLambda, Bool.false_eq_true, if_false, if_true, Bool.false_and,
      M.bind_assoc', M.pure_bind']
    congr 1
    funext r
    cases resTree r with
    | none => rfl
    | some t' => simp only [M.pure_bind', M.bind_assoc']; rfl

theorem ev_onlyVals {o : Op} (h : o.OnlyVals) (ts : List Tree) (m : Nat) :
    (run X (m + 1)).ev (.node o ts) = (do
      let l ← evals (run X m) ts
      M.dieType (expandOrCall (run X m) o l)) := by
  rw [ev_node, evalNode_of_plain _ h.assign h.map h.fold h.scan h.fn]
  unfold applyOp
  rw [if_pos (by simp [Op.hasFlags, h.vals]), prepArgs_onlyVals _ h]
  simp only [M.bind_assoc', M.pure_bind']
  congr 1
  funext l
  rw [if_neg (by simp)]
  simp [Function.comp_def]

theorem expandOrCall_onlyVals (R : Rec X) {o : Op} (h : o.OnlyVals) (l : List Tree) :
    expandOrCall R o l = callOp R o.fn l := by
  unfold expandOrCall
  split
  · rw [if_neg (by simp [h.expands])]
  · rw [if_neg (by simp [h.expands]), if_neg (by simp [h.expands])]
  · rfl

theorem assignOp_onlyVals : (op2 (s% ":")).OnlyVals := by constructor <;> decide
theorem swapOp_onlyVals : (op2 (s% "::")).OnlyVals := by constructor <;> decide
theorem enlistOp_onlyVals : enlistOp.OnlyVals := by constructor <;> decide

/-- `x:e` for an expression `e` with a value -/
theorem ev_assign {l : Lval} {t e : Tree} {v : Val} {s s0 s1 s2 : St X} {m : Nat}
    (ht : (run X (m + 1)).ev t s = (.ok (.l l), s0)) (he : getRval (run X (m + 1)) e s0 = (.ok v, s1))
    (ha : assign l v s1 = (.ok (), s2)) :
    (run X (m + 2)).ev (.node (op2 (s% ":")) [t, e]) s = (.ok (.l l), s2) := by
  obtain ⟨r, s', h1, h2, h3⟩ := ev_of_getRval he
  rw [ev_onlyVals assignOp_onlyVals]
  have key : evals (run X (m + 1)) [t, e] s = (.ok [.lval l, match r with | .l l => .lval l | .v v => .val v | .none => .val .nil], s') := by
    simp only [evals]
    rw [M.bind_ok ht]
    simp only [resTree, M.bind_assoc']
    rw [M.bind_ok h1]
    cases r with
    | v v => rfl
    | l l => rfl
    | none => exact absurd rfl h3
  rw [M.bind_ok key]
  apply M.dieType_ok
  rw [expandOrCall_onlyVals _ assignOp_onlyVals]
  show opASSIGN (.l l) (argRes _) s' = _
  cases r with
  | none => exact absurd rfl h3
  | v w =>
    simp only [argRes, opASSIGN]
    rw [M.bind_ok h2, M.bind_ok ha]
    rfl
  | l l' =>
    simp only [argRes, opASSIGN]
    rw [M.bind_ok h2, M.bind_ok ha]
    rfl

end Pip
