import Verif.Lemmas.Vars
/-! # Operands that are read more than once -/

namespace Pip
variable {X : Ext} {α β : Type}

/-- `s'` differs from `s` only by cells having been filled, input read and random numbers drawn. -/
structure Filled (s s' : St X) : Prop where
  vars : s'.vars = s.vars
  scope : s'.scope = s.scope
  cells : ∀ k v, s.cells k = some v → s'.cells k = some v

theorem Filled.refl (s : St X) : Filled s s := ⟨rfl, rfl, fun _ _ h => h⟩
theorem Filled.trans {s t u : St X} (h : Filled s t) (h' : Filled t u) : Filled s u :=
  ⟨h'.vars.trans h.vars, h'.scope.trans h.scope, fun k v e => h'.cells k v (h.cells k v e)⟩
theorem Filled.var {s s' : St X} (h : Filled s s') (n : Str) : s'.var n = s.var n := by
  simp only [St.var, h.vars, h.scope]

theorem getSpecial_filled (n : Str) (s s' : St X) (v : Val) (h : getSpecial n s = (.ok v, s')) :
    s'.vars = s.vars ∧ s'.scope = s.scope ∧ s'.cells = s.cells := by
  unfold getSpecial at h
  split at h
  · simp only [M.bind_apply, M.readLine] at h
    cases hi : s.inp with
    | nil =>
      rw [hi] at h
      simp only [M.pure_apply, Prod.mk.injEq, Except.ok.injEq] at h
      rw [← h.2]
      exact ⟨rfl, rfl, rfl⟩
    | cons l ls =>
      rw [hi] at h
      simp only [M.pure_apply, Prod.mk.injEq, Except.ok.injEq] at h
      rw [← h.2]
      exact ⟨rfl, rfl, rfl⟩
  · simp only [M.randFloat, Prod.mk.injEq] at h
    rw [← h.2]
    exact ⟨rfl, rfl, rfl⟩

mutual
/-- Reading an lvalue twice gives the same value, and the second reading has no effect. -/
theorem rval_again : ∀ (l : Lval) (_ : ∀ n ∈ l.names, ¬(n.length = 3 ∧ n.all isAlphaAZ = true)) (s s' : St X) (v : Val),
    rval l s = (.ok v, s') → Filled s s' ∧ ∀ s'', Filled s' s'' → rval l s'' = (.ok v, s'')
  | .name n cell sl, hc, s, s', v, h => by
    have hn : ¬(n.length = 3 ∧ n.all isAlphaAZ = true) := hc n (by simp [Lval.names])
    have red : ∀ s : St X, rval (.name n cell sl) s =
        (if isSpecial n then
          match cell with
          | none => M.throw .unmodelled
          | some k => do
            let v ← M.cellOr k (getSpecial n)
            M.lift (readPath sl v)
        else do
          let s ← M.get
          match s.var n with
          | some v => M.lift (readPath sl v)
          | none => pure .nil) s := by
      intro s
      unfold rval
      rw [if_neg hn]
      rfl
    rw [red] at h
    by_cases hs : isSpecial n = true
    · rw [if_pos hs] at h
      cases cell with
      | none => cases h
      | some k =>
        simp only [M.bind_apply] at h
        rcases e : M.cellOr k (getSpecial n) s with ⟨r, s1⟩
        rw [e] at h
        cases r with
        | error _ => cases h
        | ok w =>
          simp only at h
          have hk : s1.cells k = some w ∧ Filled s s1 := by
            simp only [M.cellOr] at e
            cases hck : s.cells k with
            | some u =>
              rw [hck] at e
              simp only [Prod.mk.injEq, Except.ok.injEq] at e
              rw [← e.2, ← e.1]
              exact ⟨hck, .refl s⟩
            | none =>
              rw [hck] at e
              rcases e2 : getSpecial n s with ⟨r2, s2⟩
              rw [e2] at e
              cases r2 with
              | error _ => cases e
              | ok u =>
                simp only [Prod.mk.injEq, Except.ok.injEq] at e
                obtain ⟨e3, e4⟩ := e
                subst e3
                obtain ⟨h1, h2, h3⟩ := getSpecial_filled n s s2 u e2
                rw [← e4]
                refine ⟨by simp, ⟨h1, h2, fun j v hj => ?_⟩⟩
                simp only
                split
                · next hjk => subst hjk; rw [hck] at hj; cases hj
                · rw [h3]; exact hj
          have hl : s1 = s' ∧ readPath sl w = .ok v := by
            simp only [M.lift, Prod.mk.injEq] at h
            exact ⟨h.2, h.1⟩
          obtain ⟨rfl, hp⟩ := hl
          refine ⟨hk.2, fun s'' hf => ?_⟩
          rw [red, if_pos hs]
          simp only
          rw [M.bind_ok (a := w) (s' := s'')]
          · simp only [M.lift, hp]
          · simp only [M.cellOr, hf.cells k w hk.1]
    · rw [if_neg hs] at h
      rw [M.bind_ok (M.get_apply s)] at h
      refine ⟨?_, fun s'' hf => ?_⟩
      · cases hv : s.var n with
        | none =>
          rw [hv] at h
          simp only [M.pure_apply, Prod.mk.injEq] at h
          rw [← h.2]
          exact .refl s
        | some u =>
          rw [hv] at h
          simp only [M.lift, Prod.mk.injEq] at h
          rw [← h.2]
          exact .refl s
      · have hss : s' = s := by
          cases hv : s.var n with
          | none =>
            rw [hv] at h
            simp only [M.pure_apply, Prod.mk.injEq] at h
            exact h.2.symm
          | some u =>
            rw [hv] at h
            simp only [M.lift, Prod.mk.injEq] at h
            exact h.2.symm
        subst hss
        rw [red, if_neg hs, M.bind_ok (M.get_apply s''), hf.var n]
        cases hv : s'.var n with
        | none =>
          rw [hv] at h
          simp only [M.pure_apply, Prod.mk.injEq] at h ⊢
          exact ⟨h.1, trivial⟩
        | some u =>
          rw [hv] at h
          simp only [M.lift, Prod.mk.injEq] at h ⊢
          exact ⟨h.1, trivial⟩
  | .list ls sl, hc, s, s', v, h => by
    unfold rval at h
    simp only [M.bind_apply] at h
    rcases e : rvals ls s with ⟨r, s1⟩
    rw [e] at h
    cases r with
    | error _ => cases h
    | ok vs =>
      simp only [M.pure_apply, Prod.mk.injEq, Except.ok.injEq] at h
      obtain ⟨rfl, rfl⟩ := h
      obtain ⟨h1, h2⟩ := rvals_again ls (by simpa [Lval.names] using hc) s s1 vs e
      refine ⟨h1, fun s'' hf => ?_⟩
      unfold rval
      rw [M.bind_ok (h2 s'' hf)]
      rfl
theorem rvals_again : ∀ (ls : List Lval) (_ : ∀ n ∈ Lval.namesL ls, ¬(n.length = 3 ∧ n.all isAlphaAZ = true))
    (s s' : St X) (vs : List Val),
    rvals ls s = (.ok vs, s') → Filled s s' ∧ ∀ s'', Filled s' s'' → rvals ls s'' = (.ok vs, s'')
  | [], _, s, s', vs, h => by
    unfold rvals at h
    simp only [M.pure_apply, Prod.mk.injEq, Except.ok.injEq] at h
    obtain ⟨rfl, rfl⟩ := h
    refine ⟨.refl s, fun s'' _ => ?_⟩
    unfold rvals
    rfl
  | l :: ls, hc, s, s', vs, h => by
    unfold rvals at h
    simp only [M.bind_apply] at h
    rcases e : rval l s with ⟨r, s1⟩
    rw [e] at h
    cases r with
    | error _ => cases h
    | ok v =>
      simp only at h
      rcases e2 : rvals ls s1 with ⟨r2, s2⟩
      rw [e2] at h
      cases r2 with
      | error _ => cases h
      | ok us =>
        simp only [M.pure_apply, Prod.mk.injEq, Except.ok.injEq] at h
        obtain ⟨rfl, rfl⟩ := h
        obtain ⟨a1, a2⟩ := rval_again l (fun n hn => hc n (by simp [Lval.namesL, hn])) s s1 v e
        obtain ⟨b1, b2⟩ := rvals_again ls (fun n hn => hc n (by simp [Lval.namesL, hn])) s1 s2 us e2
        refine ⟨a1.trans b1, fun s'' hf => ?_⟩
        unfold rvals
        rw [M.bind_ok (a2 s'' (b1.trans hf)), M.bind_ok (b2 s'' hf)]
        rfl
end

/-- A result with a value, as an argument -/
def Res.tree : Res → Tree
  | .v w => .val w
  | .l x => .lval x
  | .none => .val .nil

theorem Res.resTree {r : Res} (h : r ≠ .none) : resTree r = some r.tree := by
  cases r with
  | none => exact absurd rfl h
  | _ => rfl

theorem argVal_tree {r : Res} (h : r ≠ .none) : (argVal r.tree : M X Val) = resRval r := by
  cases r with
  | none => exact absurd rfl h
  | _ => rfl

/-- What `HasVal` gives for large budgets -/
theorem HasVal.at {e : Tree} {s s' : St X} {v : Val} (h : HasVal e s v s') (k : Nat) :
    ∃ r s0 n, (∀ m, n ≤ m → (run X (m + k)).ev e s = (.ok r, s0)) ∧ resRval r s0 = (.ok v, s') ∧ r ≠ .none ∧
      resRval r s' = (.ok v, s') := by
  obtain ⟨r, s0, h1, h2, h3⟩ := h
  obtain ⟨n, hn⟩ := Runs.at h1 k
  refine ⟨r, s0, n, hn, h2, ?_, ?_⟩
  · rintro rfl
    cases h2
  · cases r with
    | none => cases h2
    | v w =>
      simp only [resRval, M.pure_apply, Prod.mk.injEq] at h2 ⊢
      exact ⟨h2.1, trivial⟩
    | l l => exact (rval_again l h3 s0 s' v h2).2 s' (.refl s')

theorem HasVal.vals {e : Tree} {s s' : St X} {v : Val} (h : HasVal e s v s') : Vals e s (.ok v, s') := by
  obtain ⟨r, s0, n, h1, h2, _, _⟩ := h.at 1
  refine runs_of ok_ne_fuel n 1 fun m hm => ?_
  show getRval (run X (m + 1)) e s = _
  rw [getRval_eq, M.bind_ok (h1 m hm), h2]

/-- The flags of the operators that take lvalues and build functions -/
structure Op.ValsLam (o : Op) : Prop where
  vals : o.vals = true
  rvals : o.rvals = false
  listEach : o.listEach = false
  rangeEach : o.rangeEach = false
  inLambda : o.inLambda = true
  assign : o.assign = false
  map : o.map = false
  fold : o.fold = false
  scan : o.scan = false
  fn : o.fn ≠ .PARENTHESIZE

theorem Op.ValsLam.expands {o : Op} (h : o.ValsLam) (t : Tree) : expands o t = false := by
  cases t <;> simp [Pip.expands, h.rangeEach, h.listEach]

theorem Op.ValsLam.expandOrCall (R : Rec X) {o : Op} (h : o.ValsLam) (l : List Tree) :
    expandOrCall R o l = callOp R o.fn l := by
  unfold Pip.expandOrCall
  split
  · rw [if_neg (by simp [h.expands])]
  · rw [if_neg (by simp [h.expands]), if_neg (by simp [h.expands])]
  · rfl

theorem Op.ValsLam.isFnArg {o : Op} (h : o.ValsLam) {r : Res} {v : Val} {s s' : St X}
    (hr : resRval r s = (.ok v, s')) (hb : v.isBlock = false) : Pip.isFnArg o r.tree s = (.ok false, s') := by
  unfold Pip.isFnArg
  rw [if_pos (by simp [h.inLambda, h.expands])]
  cases r with
  | none => cases hr
  | v w =>
    simp only [resRval, M.pure_apply, Prod.mk.injEq, Except.ok.injEq] at hr
    obtain ⟨rfl, rfl⟩ := hr
    simp only [Res.tree, hb]
    rfl
  | l l =>
    simp only [Res.tree]
    have hr' : rval l s = (.ok v, s') := hr
    rw [M.bind_ok hr', hb]
    rfl

/-- One prepared operand -/
theorem Op.ValsLam.prep {o : Op} (h : o.ValsLam) (R : Rec X) {e : Tree} {ts : List Tree} {r : Res} {v : Val}
    {s s0 s' : St X} (he : R.ev e s = (.ok r, s0)) (hr : resRval r s0 = (.ok v, s')) (hb : v.isBlock = false) :
    prepArgs R o (e :: ts) s = (do let rest ← prepArgs R o ts; return (r.tree, false) :: rest : M X _) s' := by
  have hn : r ≠ .none := by rintro rfl; cases hr
  show (prepArg R o e >>= fun a => Pip.isFnArg o a >>= fun b => prepArgs R o ts >>= fun rest => pure ((a, b) :: rest)) s = _
  have h1 : prepArg R o e s = (.ok r.tree, s0) := by
    simp only [prepArg, h.rvals, h.vals, Bool.false_eq_true, if_false, if_true]
    rw [M.bind_ok he, Res.resTree hn]
    rfl
  rw [M.bind_ok h1, M.bind_ok (h.isFnArg hr hb)]

/-- Evaluation with one operand that is not a function -/
theorem Op.ValsLam.ev1 {o : Op} (h : o.ValsLam) {m : Nat} {a : Tree} {r : Res} {v : Val} {s s0 s1 : St X}
    (ha : (run X m).ev a s = (.ok r, s0)) (hr : resRval r s0 = (.ok v, s1)) (hb : v.isBlock = false) :
    (run X (m + 1)).ev (.node o [a]) s = M.dieType (callOp (run X m) o.fn [r.tree]) s1 := by
  rw [ev_node, evalNode_of_plain _ h.assign h.map h.fold h.scan h.fn]
  unfold applyOp
  rw [if_pos (by simp [Op.hasFlags, h.vals])]
  rw [M.bind_ok (a := [(r.tree, false)]) (s' := s1)]
  · simp only [List.any_cons, List.any_nil, Bool.or_false, Bool.false_eq_true, if_false, List.map_cons, List.map_nil,
      h.expandOrCall]
  · rw [h.prep _ ha hr hb]
    rfl

/-- Evaluation with two operands that are not functions -/
theorem Op.ValsLam.ev2 {o : Op} (h : o.ValsLam) {m : Nat} {a b : Tree} {r q : Res} {v w : Val}
    {s s0 s1 s2 s3 : St X}
    (ha : (run X m).ev a s = (.ok r, s0)) (hr : resRval r s0 = (.ok v, s1)) (hv : v.isBlock = false)
    (hb : (run X m).ev b s1 = (.ok q, s2)) (hq : resRval q s2 = (.ok w, s3)) (hw : w.isBlock = false) :
    (run X (m + 1)).ev (.node o [a, b]) s = M.dieType (callOp (run X m) o.fn [r.tree, q.tree]) s3 := by
  rw [ev_node, evalNode_of_plain _ h.assign h.map h.fold h.scan h.fn]
  unfold applyOp
  rw [if_pos (by simp [Op.hasFlags, h.vals])]
  rw [M.bind_ok (a := [(r.tree, false), (q.tree, false)]) (s' := s3)]
  · simp only [List.any_cons, List.any_nil, Bool.or_false, Bool.false_eq_true, if_false, List.map_cons, List.map_nil,
      h.expandOrCall]
  · rw [h.prep _ ha hr hv, M.bind_ok (a := [(q.tree, false)]) (s' := s3)]
    · rfl
    · rw [h.prep _ hb hq hw]
      rfl

/-- With a variable as the only operand -/
theorem Op.ValsLam.var1 {o : Op} (h : o.ValsLam) {x : Str} (hx : PlainVar x) {s : St X}
    (hb : (s.read x).isBlock = false) (m : Nat) :
    (run X (m + 2)).ev (.node o [var x]) s = M.dieType (callOp (run X (m + 1)) o.fn [.lval (.name x none [])]) s :=
  h.ev1 (r := .l (.name x none [])) (ev_var hx m s) (rval_plain hx none s) hb

/-- With a variable as the first operand and an expression with a value as the second; `t` is what the operator gets as
its second operand. -/
theorem Op.ValsLam.var2 {o : Op} (h : o.ValsLam) {x : Str} (hx : PlainVar x) {e : Tree} {w : Val} {s s1 : St X}
    (hb : (s.read x).isBlock = false) (he : HasVal e s w s1) (hw : w.isBlock = false) :
    ∃ t n, argVal t s1 = (.ok w, s1) ∧ ∀ m, n ≤ m → (run X (m + 2)).ev (.node o [var x, e]) s =
      M.dieType (callOp (run X (m + 1)) o.fn [.lval (.name x none []), t]) s1 := by
  obtain ⟨r, s0, n, h1, h2, h3, h4⟩ := he.at 1
  refine ⟨r.tree, n, by rw [argVal_tree h3, h4], fun m hm => ?_⟩
  exact h.ev2 (r := .l (.name x none [])) (ev_var hx m s) (rval_plain hx none s) hb (h1 m hm) h2 hw

/-- With a value as the first operand -/
theorem Op.ValsLam.val2 {o : Op} (h : o.ValsLam) {a e : Tree} {v w : Val} {s s1 s2 : St X}
    (ha : Evals a s (.ok (.v v), s1)) (hb : v.isBlock = false) (he : HasVal e s1 w s2) (hw : w.isBlock = false) :
    ∃ t n, argVal t s2 = (.ok w, s2) ∧ ∀ m, n ≤ m → (run X (m + 2)).ev (.node o [a, e]) s =
      M.dieType (callOp (run X (m + 1)) o.fn [.val v, t]) s2 := by
  obtain ⟨r, s0, n, h1, h2, h3, h4⟩ := he.at 1
  obtain ⟨n', h1'⟩ := Runs.at ha 1
  refine ⟨r.tree, max n n', by rw [argVal_tree h3, h4], fun m hm => ?_⟩
  exact h.ev2 (r := .v v) (h1' m (by omega)) rfl hb (h1 m (by omega)) h2 hw

theorem Vals.of_evals {e : Tree} {s s' : St X} {v : Val} (h : Evals e s (.ok (.v v), s')) : Vals e s (.ok v, s') := by
  obtain ⟨n, hn⟩ := Runs.at h 1
  refine runs_of ok_ne_fuel n 1 fun m hm => ?_
  show getRval (run X (m + 1)) e s = _
  have h1 : (run X (m + 1)).ev e s = _ := hn m hm
  rw [getRval_eq, M.bind_ok h1]
  rfl

theorem HasVal.of_evals {e : Tree} {s s' : St X} {v : Val} (h : Evals e s (.ok (.v v), s')) : HasVal e s v s' :=
  ⟨.v v, s', h, rfl, trivial⟩

theorem HasVal.var {n : Str} (h : PlainVar n) (s : St X) : HasVal (Pip.var n) s (s.read n) s := by
  refine ⟨.l (.name n none []), s, runs_of ok_ne_fuel 0 1 fun m _ => ev_var h m s, rval_plain h none s, ?_⟩
  intro k hk
  simp only [Lval.names, List.mem_singleton] at hk
  subst hk
  exact h.2.2

theorem HasVal.val (v : Val) (s : St X) : HasVal (.val v) s v s :=
  ⟨.v v, s, runs_of ok_ne_fuel 0 1 fun m _ => ev_val v m s, rfl, trivial⟩

end Pip
