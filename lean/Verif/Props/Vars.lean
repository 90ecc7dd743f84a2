import Verif.Lemmas.Vars
import Verif.Spec.Toy
/-! # C21, C22, C30, C31, C33, C69, C70: variables -/

namespace Pip
variable {X : Ext}

/-! ### C22: assignment -/

/-- `x:e` for a plain variable: the expression yields the value of `e`, afterwards `x` reads as that value and nothing
else has changed since the evaluation of `e`. -/
theorem C22_assign (x : Str) (hx : PlainVar x) (e : Tree) (v : Val) (s s1 : St X) (he : Vals e s (.ok v, s1)) :
    ∃ s2, Vals (.node (op2 (s% ":")) [var x, e]) s (.ok v, s2) ∧ Assigned x v s1 s2 ∧
      Vals (var x) s2 (.ok v, s2) := by
  obtain ⟨n, hn⟩ := he.at 1
  have hv : (s1.put x v).read x = v := by simp [St.read, St.put_var]
  refine ⟨s1.put x v, ?_, s1.put_assigned x v, ?_⟩
  · refine runs_of ok_ne_fuel n 2 fun m hm => ?_
    have h := ev_assign (ev_var hx m s) (hn m hm) (by rw [assign_plain hx]; exact setVar_apply x v s1)
    show getRval (run X (m + 1 + 1)) _ s = _
    rw [getRval_eq, M.bind_ok h]
    show rval _ _ = _
    rw [rval_plain hx, hv]
  · have := Vals.var hx (s1.put x v)
    rwa [hv] at this

/-- `b:a` in a function called with one argument -/
example : PlainVar (s% "b") ∧ Vals (var (s% "a")) ((toySt []).openScope none [.scalar (s% "7")])
    (.ok (.scalar (s% "7")), (toySt []).openScope none [.scalar (s% "7")]) :=
  ⟨by unfold PlainVar; decide, Vals.var (by unfold PlainVar; decide) _⟩

/-! ### C31: swap -/

/-- `x::y` exchanges the values of two plain variables and changes nothing else. -/
theorem C31_swap (x y : Str) (hx : PlainVar x) (hy : PlainVar y) (hxy : x ≠ y) (s : St X) :
    ∃ s', Vals (.node (op2 (s% "::")) [var x, var y]) s (.ok (s.read y), s') ∧ s'.read x = s.read y ∧
      s'.read y = s.read x ∧ (∀ n, n ≠ x → n ≠ y → s'.var n = s.var n) ∧ SameRest s s' := by
  refine ⟨(s.put x (s.read y)).put y (s.read x), ?_, ?_, ?_, ?_, ?_⟩
  · refine runs_of ok_ne_fuel 0 2 fun m _ => ?_
    show getRval (run X (m + 1 + 1)) _ s = _
    have key : (run X (m + 1 + 1)).ev (.node (op2 (s% "::")) [var x, var y]) s =
        (.ok (.l (.name x none [])), (s.put x (s.read y)).put y (s.read x)) := by
      rw [ev_onlyVals swapOp_onlyVals]
      have h1 : evals (run X (m + 1)) [var x, var y] s = (.ok [.lval (.name x none []), .lval (.name y none [])], s) := by
        simp only [evals]
        rw [M.bind_ok (ev_var hx m s)]
        simp only [resTree, M.bind_assoc']
        rw [M.bind_ok (ev_var hy m s)]
        rfl
      rw [M.bind_ok h1]
      apply M.dieType_ok
      rw [expandOrCall_onlyVals _ swapOp_onlyVals]
      show opSWAP (run X (m + 1)) _ _ s = _
      unfold opSWAP
      rw [M.bind_ok (ev_lval _ m s), M.bind_ok (ev_lval _ m s)]
      simp only [resRval]
      rw [M.bind_ok (rval_plain hx none s), M.bind_ok (rval_plain hy none s)]
      simp only [assign_plain hx, assign_plain hy]
      rw [M.bind_ok (setVar_apply x (s.read y) s), M.bind_ok (setVar_apply y (s.read x) (s.put x (s.read y)))]
      rfl
    rw [getRval_eq, M.bind_ok key]
    show rval _ _ = _
    rw [rval_plain hx]
    simp [St.read, St.put_var, hxy]
  · simp [St.read, St.put_var, hxy]
  · simp [St.read, St.put_var]
  · intro n h1 h2
    simp [St.put_var, h1, h2]
  · exact (St.put_rest ..).trans (St.put_rest ..)

/-- Doing it twice restores what every variable reads as. -/
theorem C31_twice (x y : Str) (hx : PlainVar x) (hy : PlainVar y) (hxy : x ≠ y) (s s1 s2 : St X) (v1 v2 : Val)
    (h1 : Vals (.node (op2 (s% "::")) [var x, var y]) s (.ok v1, s1))
    (h2 : Vals (.node (op2 (s% "::")) [var x, var y]) s1 (.ok v2, s2)) :
    (∀ n, s2.read n = s.read n) ∧ SameRest s s2 := by
  obtain ⟨t1, e1, a1, b1, c1, d1⟩ := C31_swap x y hx hy hxy s
  obtain rfl : t1 = s1 := congrArg Prod.snd (e1.det h1)
  obtain ⟨t2, e2, a2, b2, c2, d2⟩ := C31_swap x y hx hy hxy t1
  obtain rfl : t2 = s2 := congrArg Prod.snd (e2.det h2)
  refine ⟨fun n => ?_, d1.trans d2⟩
  by_cases hn : n = x
  · subst hn; rw [a2, b1]
  · by_cases hm : n = y
    · subst hm; rw [b2, a1]
    · simp only [St.read, c2 n hn hm, c1 n hn hm]

example : PlainVar (s% "x") ∧ PlainVar (s% "$__") ∧ s% "x" ≠ s% "$__" := by
  refine ⟨by unfold PlainVar; decide, by unfold PlainVar; decide, by decide⟩

/-! ### C30: destructuring -/

theorem assigns_plain : ∀ (xs : List Str) (vs : List Val) (s : St X), (∀ x ∈ xs, PlainVar x) → xs.Nodup →
    ∃ s', assigns (xs.map fun x => Lval.name x none []) vs s = (.ok (), s') ∧
      (∀ i (h : i < xs.length), s'.var xs[i] = some (vs[i]?.getD .nil)) ∧
      (∀ n, n ∉ xs → s'.var n = s.var n) ∧ SameRest s s'
  | [], vs, s, _, _ => ⟨s, by unfold assigns; rfl, fun i h => absurd h (by simp), fun _ _ => rfl, .refl s⟩
  | x :: xs, vs, s, hx, hn => by
    obtain ⟨hn1, hn2⟩ := List.nodup_cons.1 hn
    have hp : PlainVar x := hx x (by simp)
    obtain ⟨s', h1, h2, h3, h4⟩ := assigns_plain xs vs.tail (s.put x (vs[0]?.getD .nil))
      (fun y hy => hx y (by simp [hy])) hn2
    refine ⟨s', ?_, ?_, ?_, (s.put_rest _ _).trans h4⟩
    · cases vs with
      | nil =>
        simp only [List.map_cons, assigns, assign_plain hp]
        rw [M.bind_ok (setVar_apply x _ s)]
        exact h1
      | cons v vs =>
        simp only [List.map_cons, assigns, assign_plain hp]
        rw [M.bind_ok (setVar_apply x v s)]
        exact h1
    · intro i hi
      cases i with
      | zero =>
        simp only [List.getElem_cons_zero]
        rw [h3 x hn1, St.put_var, if_pos rfl]
      | succ i =>
        simp only [List.getElem_cons_succ]
        rw [h2 i (by simpa using hi)]
        cases vs <;> simp
    · intro n hn
      simp only [List.mem_cons, not_or] at hn
      rw [h3 n hn.2, St.put_var, if_neg hn.1]

theorem ev_varList (xs : List Str) (hx : ∀ x ∈ xs, PlainVar x) (m : Nat) (s : St X) :
    evals (run X (m + 1)) (xs.map var) s = (.ok (xs.map fun x => .lval (.name x none [])), s) := by
  induction xs with
  | nil => rfl
  | cons x xs ih =>
    simp only [List.map_cons, evals]
    rw [M.bind_ok (ev_var (hx x (by simp)) m s)]
    simp only [resTree]
    rw [M.bind_ok (ih fun y hy => hx y (by simp [hy]))]
    rfl

theorem allLvals_names (xs : List Str) :
    allLvals (xs.map fun x => .lval (.name x none [])) = some (xs.map fun x => .name x none []) := by
  induction xs with
  | nil => rfl
  | cons x xs ih => simp [allLvals, ih]

/-- `[x1 x2 ...]` on plain variables is an lvalue. -/
theorem ev_enlistVars (x : Str) (xs : List Str) (hx : ∀ y ∈ x :: xs, PlainVar y) (m : Nat) (s : St X) :
    (run X (m + 2)).ev (.node enlistOp ((x :: xs).map var)) s =
      (.ok (.l (.list ((x :: xs).map fun x => .name x none []) [])), s) := by
  rw [ev_onlyVals enlistOp_onlyVals, M.bind_ok (ev_varList (x :: xs) hx m s)]
  apply M.dieType_ok
  rw [expandOrCall_onlyVals _ enlistOp_onlyVals]
  show opLIST _ s = _
  unfold opLIST
  rw [allLvals_names]
  rfl

theorem rvals_plain (xs : List Str) (hx : ∀ y ∈ xs, PlainVar y) (s : St X) :
    rvals (xs.map fun x => .name x none []) s = (.ok (xs.map s.read), s) := by
  induction xs with
  | nil => unfold rvals; rfl
  | cons x xs ih =>
    simp only [List.map_cons, rvals]
    rw [M.bind_ok (rval_plain (hx x (by simp)) none s), M.bind_ok (ih fun y hy => hx y (by simp [hy]))]
    rfl

theorem getRval_varList {xs : List Str} (hx : ∀ y ∈ xs, PlainVar y) {t : Tree} {m : Nat} {s s2 : St X}
    (h : (run X (m + 1)).ev t s = (.ok (.l (.list (xs.map fun x => .name x none []) [])), s2)) :
    getRval (run X (m + 1)) t s = (.ok (.list (xs.map s2.read)), s2) := by
  rw [getRval_eq, M.bind_ok h]
  show rval _ s2 = _
  unfold rval
  rw [M.bind_ok (rvals_plain xs hx s2)]
  rfl

/-- `[x1 ... xn]:e` with distinct plain variables assigns the i-th item of the value to `xi`, nil if there is none, and
changes nothing else. -/
theorem C30_destructure (x : Str) (xs : List Str) (hx : ∀ y ∈ x :: xs, PlainVar y) (hd : (x :: xs).Nodup) (e : Tree)
    (v : Val) (vs : List Val) (hv : v.iter = .fin vs) (s s1 : St X) (he : Vals e s (.ok v, s1)) :
    ∃ s2, Vals (.node (op2 (s% ":")) [.node enlistOp ((x :: xs).map var), e]) s
        (.ok (.list ((x :: xs).map s2.read)), s2) ∧
      (∀ i (h : i < (x :: xs).length), s2.var (x :: xs)[i] = some (vs[i]?.getD .nil)) ∧
      (∀ n, n ∉ x :: xs → s2.var n = s1.var n) ∧ SameRest s1 s2 := by
  obtain ⟨n, hn⟩ := he.at 2
  obtain ⟨s2, h1, h2, h3, h4⟩ := assigns_plain (x :: xs) vs s1 hx hd
  refine ⟨s2, runs_of ok_ne_fuel n 3 fun m hm => ?_, h2, h3, h4⟩
  refine getRval_varList hx ?_
  refine ev_assign (m := m + 1) (ev_enlistVars x xs hx m s) (hn m hm) ?_
  simp only [assign, firstItems, hv]
  exact h1

/-- From an infinite Range the variables get consecutive integers. -/
theorem C30_infinite (x : Str) (xs : List Str) (hx : ∀ y ∈ x :: xs, PlainVar y) (hd : (x :: xs).Nodup) (e : Tree)
    (v : Val) (lo : Int) (hv : v.iter = .inf lo) (s s1 : St X) (he : Vals e s (.ok v, s1)) :
    ∃ s2, Vals (.node (op2 (s% ":")) [.node enlistOp ((x :: xs).map var), e]) s
        (.ok (.list ((x :: xs).map s2.read)), s2) ∧
      (∀ i (h : i < (x :: xs).length), s2.var (x :: xs)[i] = some (ofInt (lo + i))) ∧
      (∀ n, n ∉ x :: xs → s2.var n = s1.var n) ∧ SameRest s1 s2 := by
  obtain ⟨n, hn⟩ := he.at 2
  obtain ⟨s2, h1, h2, h3, h4⟩ := assigns_plain (x :: xs) ((intsFrom lo (x :: xs).length).map ofInt) s1 hx hd
  refine ⟨s2, runs_of ok_ne_fuel n 3 fun m hm => ?_, ?_, h3, h4⟩
  · refine getRval_varList hx ?_
    refine ev_assign (m := m + 1) (ev_enlistVars x xs hx m s) (hn m hm) ?_
    simp only [assign, firstItems, hv, List.length_map]
    exact h1
  · intro i hi
    rw [h2 i hi]
    have : (intsFrom lo (x :: xs).length)[i]? = some (lo + i) := by
      have gen : ∀ (k : Nat) (lo : Int) (i : Nat), i < k → (intsFrom lo k)[i]? = some (lo + i) := by
        intro k
        induction k with
        | zero => intro _ _ h; omega
        | succ k ih =>
          intro lo i hi
          cases i with
          | zero => simp [intsFrom]
          | succ i =>
            simp only [intsFrom, List.getElem?_cons_succ]
            rw [ih (lo + 1) i (by omega)]
            congr 1
            push_cast
            omega
      exact gen _ lo i hi
    rw [List.getElem?_map, this]
    rfl

example : toyOut (s% "[x y z]:[1 2] [z 8y 9x]") [] [] = some (s% "8291\n") := by decide +kernel

/-! ### C21: arguments -/

theorem localVars_abcde (f : Option Val) (args : List Val) (i : Nat) (c : Char) (h : (s% "abcde")[i]? = some c) :
    localVars f args [c] = args[i]? := by
  unfold localVars
  have hi : i < 5 := by
    rcases Nat.lt_or_ge i 5 with h' | h'
    · exact h'
    · rw [List.getElem?_eq_none (by simpa using h')] at h
      cases h
  match i, hi with
  | 0, _ | 1, _ | 2, _ | 3, _ | 4, _ =>
    simp only [List.getElem?_cons_zero, List.getElem?_cons_succ, Option.some.injEq] at h
    subst h
    rcases args with _ | ⟨a, _ | ⟨b, _ | ⟨c, _ | ⟨d, _ | ⟨e, r⟩⟩⟩⟩⟩ <;> simp [List.find?]

theorem localVars_other (f : Option Val) (args : List Val) (n : Str) (h : ∀ c ∈ s% "abcde", n ≠ [c]) :
    localVars f args n = if n = s% "f" then f else if n = s% "g" then some (.list args) else none := by
  unfold localVars
  have : ((s% "abcde").zip args).find? (fun p => n = [p.1]) = none := by
    rw [List.find?_eq_none]
    intro p hp
    have := h p.1 (List.of_mem_zip (a := p.1) (b := p.2) hp).1
    simpa using this
  rw [this]

/-- The body of a function called with `args` runs in a state in which `a` ... `e` are the first arguments (undefined
beyond), `g` is the list of all of them, `f` is the function itself, the history variables are undefined and all
global variables are the caller's; the call yields the value of the body. -/
theorem C21_arguments (stmts : List Tree) (ret : Tree) (args : List Val) (s : St X) :
    ∃ s1 : St X,
      (∀ (i : Nat) (c : Char), (s% "abcde")[i]? = some c → s1.var [c] = args[i]?) ∧
      s1.var (s% "g") = some (.list args) ∧
      s1.var (s% "f") = some (.block stmts ret) ∧
      (∀ n, n = s% "$_" ∨ n = s% "$__" ∨ n = s% "$___" → s1.var n = none) ∧
      (∀ n, isLocal n = false → s1.var n = s.var n) ∧
      (∀ v s2, Runs (fun R => do runBody R stmts; getRval R ret) s1 (.ok v, s2) →
        Calls (.block stmts ret) args s (.ok v, s2.closeScope)) := by
  refine ⟨s.openScope (some (.block stmts ret)) args, ?_, ?_, ?_, ?_, ?_, ?_⟩
  · intro i c h
    have : isLocal [c] = true := by
      have : c ∈ s% "abcde" := List.mem_of_getElem? h
      simp at this
      rcases this with rfl | rfl | rfl | rfl | rfl <;> decide
    simp only [St.var, this, if_true, St.openScope]
    exact localVars_abcde _ args i c h
  · show (if isLocal (s% "g") then localVars _ args (s% "g") else _) = _
    rw [if_pos (by decide), localVars_other _ _ _ (by decide)]
    rfl
  · show (if isLocal (s% "f") then localVars _ args (s% "f") else _) = _
    rw [if_pos (by decide), localVars_other _ _ _ (by decide)]
    rfl
  · rintro n (rfl | rfl | rfl)
    · show (if isLocal (s% "$_") then localVars _ args (s% "$_") else _) = _
      rw [if_pos (by decide), localVars_other _ _ _ (by decide)]
      rfl
    · show (if isLocal (s% "$__") then localVars _ args (s% "$__") else _) = _
      rw [if_pos (by decide), localVars_other _ _ _ (by decide)]
      rfl
    · show (if isLocal (s% "$___") then localVars _ args (s% "$___") else _) = _
      rw [if_pos (by decide), localVars_other _ _ _ (by decide)]
      rfl
  · intro n hn
    simp [St.var, hn, St.openScope]
  · intro v s2 h
    obtain ⟨_, n, hn⟩ := h
    refine ⟨ok_ne_fuel, n, fun m hm => ?_⟩
    have := hn m hm
    simp only at this
    show M.inScope _ _ _ s = _
    simp only [M.inScope, this]

/-- Calling `{a}` ... `{e}`, `{f}` and `{g}` gives the arguments, the function and the list of the arguments, and changes
nothing. -/
theorem C21_read (args : List Val) (s : St X) (i : Nat) (c : Char) (h : (s% "abcde")[i]? = some c) :
    Calls (.block [] (var [c])) args s (.ok (args[i]?.getD .nil), s) := by
  have hp : PlainVar [c] := by
    have : c ∈ s% "abcde" := List.mem_of_getElem? h
    simp at this
    rcases this with rfl | rfl | rfl | rfl | rfl <;> (unfold PlainVar; decide)
  have hl : isLocal [c] = true := by
    have : c ∈ s% "abcde" := List.mem_of_getElem? h
    simp at this
    rcases this with rfl | rfl | rfl | rfl | rfl <;> decide
  have := Vals.var hp (s.openScope (some (.block [] (var [c]))) args)
  obtain ⟨_, n, hn⟩ := this
  refine ⟨ok_ne_fuel, n, fun m hm => ?_⟩
  show M.inScope _ _ _ s = _
  have h1 := hn m hm
  simp only at h1
  have h2 : (do runBody (run X m) []; getRval (run X m) (var [c])) (s.openScope (some (.block [] (var [c]))) args) =
      getRval (run X m) (var [c]) (s.openScope (some (.block [] (var [c]))) args) := rfl
  have h3 : (s.openScope (some (.block [] (var [c]))) args).read [c] = args[i]?.getD .nil := by
    simp only [St.read, St.var, hl, if_true, St.openScope]
    rw [localVars_abcde _ args i c h]
  have h4 : (s.openScope (some (.block [] (var [c]))) args).closeScope = s := by
    simp [St.openScope, St.closeScope]
  simp only [M.inScope]
  rw [h2, h1, h3]
  simp only [h4]

example : (s% "abcde")[2]? = some 'c' := rfl
example : toyOut (s% "({[a c 9g]}1 2)") [] [] = some (s% "1912\n") := by decide +kernel

/-! ### C33: compute and assign -/

/-- The operators to which compute-and-assign applies: all those of the table -/
def Op.evaluates (o : Op) : Bool := o.rvals || o.vals || !o.hasFlags && (o.fn == .AND || o.fn == .OR || o.fn == .IFTE)

theorem table_evaluates : ∀ o ∈ ops1 ++ ops2 ++ ops3 ++ [parenOp, enlistOp, sendOp, chainOp], o.evaluates = true := by
  decide +kernel

theorem evalNode_lval {x : Str} (hx : PlainVar x) (ts : List Tree) (o : Op) (ho : o.assign = false)
    (he : o.evaluates = true) (m : Nat) :
    evalNode (run X (m + 1)) o (.lval (.name x none []) :: ts) = evalNode (run X (m + 1)) o (var x :: ts) := by
  have hev : (run X (m + 1)).ev (.lval (.name x none [])) = (run X (m + 1)).ev (var x) := by
    funext s
    rw [ev_var hx, ev_lval]
  have hget : getRval (run X (m + 1)) (.lval (.name x none [])) = getRval (run X (m + 1)) (var x) := by
    rw [getRval_eq, getRval_eq, hev]
  simp only [evalNode, ho, Bool.false_eq_true, if_false, mapMeta, foldMeta, scanMeta, hget, hev]
  have key : applyOp (run X (m + 1)) o (.lval (.name x none []) :: ts) = applyOp (run X (m + 1)) o (var x :: ts) := by
    unfold applyOp
    by_cases hf : o.hasFlags = true
    · have : prepArg (run X (m + 1)) o (.lval (.name x none [])) = prepArg (run X (m + 1)) o (var x) := by
        unfold prepArg
        by_cases hr : o.rvals = true
        · simp only [hr, if_true, hget]
          rfl
        · have hv : o.vals = true := by simpa [Op.evaluates, hr, hf] using he
          simp only [hr, hv, if_true, hev, Bool.false_eq_true, if_false]
      simp only [hf, if_true, prepArgs, this]
    · have hfn : o.fn = .AND ∨ o.fn = .OR ∨ o.fn = .IFTE := by
        have hr : o.rvals = false := by
          simp only [Op.hasFlags, Bool.not_eq_true, Bool.or_eq_false_iff] at hf
          exact hf.1.1.1.2
        have hv : o.vals = false := by
          simp only [Op.hasFlags, Bool.not_eq_true, Bool.or_eq_false_iff] at hf
          exact hf.1.1.1.1
        simpa [Op.evaluates, hr, hv, hf, or_assoc] using he
      rw [if_neg hf, if_neg hf]
      congr 1
      rcases hfn with h | h | h <;> rw [h] <;> simp only [callOp, isRaw, if_true]
      · unfold rawOp
        rcases ts with _ | ⟨a, _ | ⟨b, ts⟩⟩ <;> simp only [opAND, hget]
      · unfold rawOp
        rcases ts with _ | ⟨a, _ | ⟨b, ts⟩⟩ <;> simp only [opOR, hget]
      · unfold rawOp
        rcases ts with _ | ⟨a, _ | ⟨b, _ | ⟨c, ts⟩⟩⟩ <;> simp only [opIFTE, hget]
  rw [key]

/-- Both sides of C33 compute the same result and assign it; only `x: x op e` turns a TypeError of the assignment into a
fatal error. -/
theorem computeAssign_run {x : Str} (hx : PlainVar x) (ts : List Tree) (o : Op) (ho : o.assign = false)
    (he : o.evaluates = true) (m : Nat) (s : St X) :
    (run X (m + 3)).ev (.node { o with assign := true } (var x :: ts)) s =
      ((run X (m + 2)).ev (.node o (var x :: ts)) >>= opASSIGN (.l (.name x none []))) s ∧
    (run X (m + 3)).ev (.node (op2 (s% ":")) [var x, .node o (var x :: ts)]) s =
      ((run X (m + 2)).ev (.node o (var x :: ts)) >>= fun r => (opASSIGN (.l (.name x none [])) r).dieType) s := by
  constructor
  · rw [ev_node]
    show computeAssign (run X (m + 2)) _ (var x :: ts) s = _
    simp only [computeAssign]
    rw [M.bind_ok (ev_var hx (m + 1) s)]
    simp only [resTree]
    have : ({ o with assign := true } : Op).noAssign = o := by
      cases o
      simp only [Op.noAssign]
      simp only at ho
      rw [ho]
    rw [this, ev_node, evalNode_lval hx ts o ho he, ← ev_node]
  · rw [ev_onlyVals assignOp_onlyVals]
    simp only [evals]
    rw [M.bind_assoc', M.bind_ok (ev_var hx (m + 1) s)]
    simp only [resTree, M.bind_assoc']
    simp only [M.bind_apply]
    rcases (run X (m + 2)).ev (.node o (var x :: ts)) s with ⟨r, s1⟩
    cases r with
    | error e => rfl
    | ok r =>
      simp only
      cases r with
      | none => rfl
      | v v =>
        simp only [M.bind_apply, M.pure_apply]
        rw [expandOrCall_onlyVals _ assignOp_onlyVals]
        rfl
      | l l =>
        simp only [M.bind_apply, M.pure_apply]
        rw [expandOrCall_onlyVals _ assignOp_onlyVals]
        rfl

/-- `x op: e` and `x: x op e` end with the same result and the same state: for every operator of the table (with any
meta-operators), any further operands, any plain variable. -/
theorem C33_computeAssign (x : Str) (hx : PlainVar x) (ts : List Tree) (o : Op) (ho : o.assign = false)
    (he : o.evaluates = true) (s s' : St X) (r : Res) :
    Evals (.node { o with assign := true } (var x :: ts)) s (.ok r, s') ↔
      Evals (.node (op2 (s% ":")) [var x, .node o (var x :: ts)]) s (.ok r, s') := by
  refine runs_congr 3 fun m => ?_
  obtain ⟨h1, h2⟩ := computeAssign_run (X := X) hx ts o ho he m s
  simp only [h1, h2, M.bind_apply]
  rcases (run X (m + 2)).ev (.node o (var x :: ts)) s with ⟨q, s1⟩
  cases q with
  | error e => rfl
  | ok q =>
    simp only [M.dieType]
    rcases opASSIGN (.l (.name x none [])) q s1 with ⟨e | a, s2⟩
    · cases e <;> simp
    · rfl

/-- They also die with the same exceptions, except that a TypeError of the assignment is a fatal error in `x: x op e`. -/
theorem C33_error (x : Str) (hx : PlainVar x) (ts : List Tree) (o : Op) (ho : o.assign = false)
    (he : o.evaluates = true) (s s' : St X) (e : Exc) (h1 : e ≠ .typeError) (h2 : e ≠ .fatal) :
    Evals (.node { o with assign := true } (var x :: ts)) s (.error e, s') ↔
      Evals (.node (op2 (s% ":")) [var x, .node o (var x :: ts)]) s (.error e, s') := by
  refine runs_congr 3 fun m => ?_
  obtain ⟨g1, g2⟩ := computeAssign_run (X := X) hx ts o ho he m s
  simp only [g1, g2, M.bind_apply]
  rcases (run X (m + 2)).ev (.node o (var x :: ts)) s with ⟨q, s1⟩
  cases q with
  | error e => rfl
  | ok q =>
    simp only [M.dieType]
    rcases opASSIGN (.l (.name x none [])) q s1 with ⟨e' | a, s2⟩
    · cases e' <;> simp [h1.symm, h2.symm]
    · rfl

example : (op2 (s% "+")).assign = false ∧ (op2 (s% "+")).evaluates = true := by decide
example : toyOut (s% "x:3 x*:7 x") [] [] = some (s% "21\n") := by decide +kernel

/-! ### C69: history -/

theorem plain_hist : PlainVar (s% "$_") ∧ PlainVar (s% "$__") ∧ PlainVar (s% "$___") := by
  refine ⟨?_, ?_, ?_⟩ <;> (unfold PlainVar; decide)

/-- `updateHistory` on the state in which a statement ended with value `v` -/
theorem updateHistory_run (v : Val) (s : St X) : ∃ s', updateHistory v s = (.ok (), s') ∧ s'.var (s% "$_") = some v ∧
    (∀ w, s.var (s% "$_") = some w → s'.var (s% "$__") = some w) ∧
    (∀ w u, s.var (s% "$_") = some w → s.var (s% "$__") = some u → s'.var (s% "$___") = some u) ∧
    (∀ n, n ≠ s% "$_" → n ≠ s% "$__" → n ≠ s% "$___" → s'.var n = s.var n) ∧ SameRest s s' := by
  obtain ⟨p1, p2, p3⟩ := plain_hist
  unfold updateHistory
  simp only [assign_plain p1, assign_plain p2, assign_plain p3]
  rw [M.bind_ok (M.get_apply s)]
  cases h1 : s.var (s% "$_") with
  | none =>
    refine ⟨s.put (s% "$_") v, rfl, ?_, ?_, ?_, ?_, St.put_rest ..⟩
    · simp [St.put_var]
    · intro w h; cases h
    · intro w u h; cases h
    · intro n h2 _ _; simp [St.put_var, h2]
  | some w =>
    simp only [Option.isSome_some, if_true]
    cases h2 : s.var (s% "$__") with
    | none =>
      simp only [Option.isSome_none, Bool.false_eq_true, if_false, M.bind_assoc']
      rw [M.bind_ok (rval_plain p1 none s), M.bind_ok (setVar_apply _ _ _)]
      refine ⟨_, setVar_apply _ _ _, ?_, ?_, ?_, ?_, (St.put_rest ..).trans (St.put_rest ..)⟩
      · simp [St.put_var]
      · intro w' h; simp [St.put_var, St.read, h1] at h ⊢; exact h
      · intro w' u _ h; cases h
      · intro n a b c; simp [St.put_var, a, b]
    | some u =>
      simp only [Option.isSome_some, if_true, M.bind_assoc']
      rw [M.bind_ok (rval_plain p2 none s), M.bind_ok (setVar_apply _ _ _), M.bind_ok (rval_plain p1 none _),
        M.bind_ok (setVar_apply _ _ _)]
      refine ⟨_, setVar_apply _ _ _, ?_, ?_, ?_, ?_,
        ((St.put_rest ..).trans (St.put_rest ..)).trans (St.put_rest ..)⟩
      · simp [St.put_var]
      · intro w' h; simp [St.put_var, St.read, h1] at h ⊢; exact h
      · intro w' u' _ h; simp [St.put_var, St.read, h2] at h ⊢; exact h
      · intro n a b c; simp [St.put_var, a, b, c]

/-- When a statement of a function body ends with value `v`, the body goes on in a state in which `$_` is `v`, `$__` is
what `$_` was and `$___` what `$__` was; nothing else has changed. -/
theorem C69_history (t : Tree) (ts : List Tree) (v : Val) (s s1 : St X) (h : Execs t s (.ok (some v), s1)) :
    ∃ s2, s2.var (s% "$_") = some v ∧
      (∀ w, s1.var (s% "$_") = some w → s2.var (s% "$__") = some w) ∧
      (∀ w u, s1.var (s% "$_") = some w → s1.var (s% "$__") = some u → s2.var (s% "$___") = some u) ∧
      (∀ n, n ≠ s% "$_" → n ≠ s% "$__" → n ≠ s% "$___" → s2.var n = s1.var n) ∧ SameRest s1 s2 ∧
      (∀ o, Runs (fun R => runBody R (t :: ts)) s o ↔ Runs (fun R => runBody R ts) s2 o) := by
  obtain ⟨s2, h0, h1, h2, h3, h4, h5⟩ := updateHistory_run v s1
  refine ⟨s2, h1, h2, h3, h4, h5, fun o => ?_⟩
  obtain ⟨_, n, hn⟩ := h
  have key : ∀ m, n ≤ m → runBody (run X m) (t :: ts) s = runBody (run X m) ts s2 := by
    intro m hm
    have e : (run X m).exec t s = _ := hn m hm
    show iterL _ (t :: ts) s = _
    unfold iterL
    rw [M.bind_ok (a := ()) (s' := s2)]
    · rfl
    · rw [M.bind_ok e]
      exact h0
  constructor
  · rintro ⟨ho, k, hk⟩
    exact ⟨ho, max n k, fun m hm => (key m (by omega)).symm.trans (hk m (by omega))⟩
  · rintro ⟨ho, k, hk⟩
    exact ⟨ho, max n k, fun m hm => (key m (by omega)).trans (hk m (by omega))⟩

/-- Commands leave the history alone. -/
theorem C69_command (t : Tree) (ts : List Tree) (s s1 : St X) (h : Execs t s (.ok none, s1)) (o) :
    Runs (fun R => runBody R (t :: ts)) s o ↔ Runs (fun R => runBody R ts) s1 o := by
  obtain ⟨_, n, hn⟩ := h
  have key : ∀ m, n ≤ m → runBody (run X m) (t :: ts) s = runBody (run X m) ts s1 := by
    intro m hm
    have e : (run X m).exec t s = _ := hn m hm
    show iterL _ (t :: ts) s = _
    unfold iterL
    rw [M.bind_ok (a := ()) (s' := s1)]
    · rfl
    · rw [M.bind_ok e]
      rfl
  constructor
  · rintro ⟨ho, k, hk⟩
    exact ⟨ho, max n k, fun m hm => (key m (by omega)).symm.trans (hk m (by omega))⟩
  · rintro ⟨ho, k, hk⟩
    exact ⟨ho, max n k, fun m hm => (key m (by omega)).trans (hk m (by omega))⟩

example : toyOut (s% "4 5 6 [$_$__$___]") [] [] = some (s% "654\n") := by decide +kernel

/-! ### C70: WIPEGLOBALS -/

/-- After `WG`, whatever has happened since the program started: every global variable is as at the start of the program
(`start` is the state in which the main function is called), `\g` the list of the arguments, `\f` the main function,
and nothing else has changed. -/
theorem C70_wipe (main : Val) (args : List Val) (s0 start s : St X) (h0 : setMain main args s0 = (.ok (), start))
    (ha : s.args = start.args) (hm : s.main = start.main) :
    ∃ s', Execs (.cmd .WIPEGLOBALS []) s (.ok none, s') ∧
      (∀ n, isLocal n = false → s'.var n = start.var n) ∧ (∀ n, isLocal n = true → s'.var n = s.var n) ∧
      s'.var (s% "\\g") = some (.list args) ∧ s'.var (s% "\\f") = some main ∧
      (∀ (i : Nat) (c : Char), (s% "abcde")[i]? = some c → s'.var ['\\', c] = args[i]?) ∧ SameRest s s' := by
  obtain rfl : { s0 with args := args, main := some main, vars := wiped X args (some main) } = start := by
    simpa [setMain] using h0
  simp only at ha hm
  refine ⟨{ s with vars := wiped X args (some main) }, ?_, ?_, ?_, ?_, ?_, ?_, ?_⟩
  · refine runs_of ok_ne_fuel 0 1 fun m _ => ?_
    rw [exec_cmd]
    show (M.wipe >>= fun _ => _) s = _
    rw [M.bind_ok (a := ()) (s' := { s with vars := wiped X args (some main) })]
    · rfl
    · simp only [M.wipe, ha, hm]
  · intro n hn
    simp [St.var, hn]
  · intro n hn
    simp [St.var, hn]
  · show (if isLocal (s% "\\g") then _ else wiped X args (some main) (s% "\\g")) = _
    rw [if_neg (by decide)]
    unfold wiped
    have : ((s% "abcde").zip args).find? (fun p => s% "\\g" = ['\\', p.1]) = none := by
      rw [List.find?_eq_none]
      intro p hp
      have := (List.of_mem_zip (a := p.1) (b := p.2) hp).1
      simp at this
      rcases this with h | h | h | h | h <;> simp [h]
    rw [this]
    rfl
  · show (if isLocal (s% "\\f") then _ else wiped X args (some main) (s% "\\f")) = _
    rw [if_neg (by decide)]
    unfold wiped
    have : ((s% "abcde").zip args).find? (fun p => s% "\\f" = ['\\', p.1]) = none := by
      rw [List.find?_eq_none]
      intro p hp
      have := (List.of_mem_zip (a := p.1) (b := p.2) hp).1
      simp at this
      rcases this with h | h | h | h | h <;> simp [h]
    rw [this]
    rfl
  · intro i c h
    have hc : c ∈ s% "abcde" := List.mem_of_getElem? h
    have hl : isLocal ['\\', c] = false := by
      simp at hc
      rcases hc with rfl | rfl | rfl | rfl | rfl <;> decide
    show (if isLocal ['\\', c] then _ else wiped X args (some main) ['\\', c]) = _
    rw [if_neg (by simp [hl])]
    have hi : i < 5 := by
      rcases Nat.lt_or_ge i 5 with h' | h'
      · exact h'
      · rw [List.getElem?_eq_none (by simpa using h')] at h
        cases h
    unfold wiped
    match i, hi with
    | 0, _ | 1, _ | 2, _ | 3, _ | 4, _ =>
      simp only [List.getElem?_cons_zero, List.getElem?_cons_succ, Option.some.injEq] at h
      subst h
      rcases args with _ | ⟨a, _ | ⟨b, _ | ⟨c, _ | ⟨d, _ | ⟨e, r⟩⟩⟩⟩⟩ <;> simp [List.find?, globals]
  · exact ⟨rfl, rfl, rfl, rfl, rfl, rfl, rfl, rfl, rfl, rfl, rfl⟩

example : toyOut (s% "h:5 a:6 x:7 WG[h a x\\a]J',") [.scalar (s% "1")] [] = some (s% "100,6,,1\n") := by decide +kernel

end Pip
