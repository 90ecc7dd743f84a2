import Verif.Lemmas.Blur
/-! # Operators whose result depends on their operands only -/

namespace Pip
variable {X : Ext} {α β : Type}

/-- The functions of `valOp` with effects, callbacks or random results -/
def isEffect : Fn → Bool
  | .OUTPUT | .PRINT | .YANK | .YANKOUTPUT | .YANKPRINT | .EVAL | .FILTER | .FILTERNOT | .FILTERUNPACK |
  .FILTERINDEXES | .FILTERJOIN | .FILTERENUMERATE | .RECURSE | .MAP | .MAPCOORDS | .MAPENUMERATE | .MAPJOIN | .MAPMAP
  | .MAPPAIRS | .MAPSUM | .MAPUNPACK | .MAPFLATTEN | .SORTKEYED | .DESCENDINGKEYED | .MAPREGEX | .MAPZIP | .FULLMATCH
  | .IN | .RANDCHOICE | .SHUFFLE | .FIND | .FINDALL | .REPLACE | .FIRSTMATCH | .RANDRANGE | .RANDRANGETO => true
  | _ => false

theorem valOp_pure (R : Rec X) (f : Fn) (h : isEffect f = false) (vs : List Val) :
    valOp R f vs = liftOpt (pureOp X f vs) := by
  cases f <;> first | rfl | cases h

/-- Operators on values without effects -/
structure Op.Pure (o : Op) : Prop extends o.Rvals where
  raw : isRaw o.fn = false
  effect : isEffect o.fn = false

theorem valArgs_vals (vs : List Val) : valArgs (vs.map .val) = some vs := by
  induction vs with
  | nil => rfl
  | cons v vs ih =>
    simp only [List.map_cons, valArgs, ih]
    rfl

theorem Op.Pure.callOp {o : Op} (h : o.Pure) (R : Rec X) (vs : List Val) :
    Pip.callOp R o.fn (vs.map .val) = liftOpt (pureOp X o.fn vs) := by
  simp only [Pip.callOp, h.raw, Bool.false_eq_true, if_false, valArgs_vals, valOp_pure R _ h.effect]

/-! ### Computations that ignore the state -/

/-- The outcome does not depend on the state, and the state does not change. -/
def Const (x : M X α) : Prop := ∃ r, ∀ s, x s = (r, s)

theorem Const.pure (a : α) : Const (pure a : M X α) := ⟨.ok a, fun _ => rfl⟩
theorem Const.throw (e : Exc) : Const (M.throw e : M X α) := ⟨.error e, fun _ => rfl⟩
theorem Const.lift (x : Except Exc α) : Const (M.lift x : M X α) := ⟨x, fun _ => rfl⟩
theorem Const.bind {x : M X α} {f : α → M X β} (hx : Const x) (hf : ∀ a, Const (f a)) : Const (x >>= f) := by
  obtain ⟨r, hr⟩ := hx
  cases r with
  | error e => exact ⟨.error e, fun s => M.bind_error (hr s)⟩
  | ok a =>
    obtain ⟨r', h'⟩ := hf a
    exact ⟨r', fun s => (M.bind_ok (hr s)).trans (h' s)⟩
theorem Const.dieType {x : M X α} (hx : Const x) : Const x.dieType := by
  obtain ⟨r, hr⟩ := hx
  cases r with
  | ok a => exact ⟨.ok a, fun s => by rw [dieType_died, hr]; rfl⟩
  | error e => exact ⟨.error (if e = .typeError then .fatal else e), fun s => by rw [dieType_died, hr]; cases e <;> rfl⟩
theorem Const.mapL {f : α → M X β} (hf : ∀ a, Const (f a)) : ∀ l, Const (mapL f l)
  | [] => .pure _
  | x :: l => .bind (hf x) fun _ => .bind (Const.mapL hf l) fun _ => .pure _
theorem Const.loopInf {f : Int → M X Unit} (hf : ∀ a, Const (f a)) : ∀ n lo, Const (loopInf f n lo : M X α)
  | 0, _ => .throw _
  | n + 1, _ => .bind (hf _) fun _ => Const.loopInf hf n _

/-- A result that is not an lvalue -/
def Res.isL : Res → Bool
  | .l _ => true
  | _ => false

/-- The outcome does not depend on the state, the state does not change and the result is not an lvalue. -/
def ConstV (x : M X Res) : Prop := ∃ r : Except Exc Res, (∀ s, x s = (r, s)) ∧ ∀ a, r = .ok a → a.isL = false

theorem ConstV.const {x : M X Res} (h : ConstV x) : Const x := h.imp fun _ h => h.1
theorem ConstV.bind {x : M X α} {f : α → M X Res} (hx : Const x) (hf : ∀ a, ConstV (f a)) : ConstV (x >>= f) := by
  obtain ⟨r, hr⟩ := hx
  cases r with
  | error e => exact ⟨.error e, fun s => M.bind_error (hr s), by simp⟩
  | ok a =>
    obtain ⟨r', h', h2⟩ := hf a
    exact ⟨r', fun s => (M.bind_ok (hr s)).trans (h' s), h2⟩
theorem ConstV.pure (v : Val) : ConstV (Pure.pure (.v v) : M X Res) :=
  ⟨.ok (.v v), fun _ => rfl, by rintro a h; cases h; rfl⟩
theorem ConstV.throw (e : Exc) : ConstV (M.throw e : M X Res) := ⟨.error e, fun _ => rfl, by simp⟩
theorem ConstV.liftOpt (x : Except Exc (Option Val)) : ConstV (liftOpt x : M X Res) := by
  refine .bind (.lift x) fun a => ?_
  cases a with
  | some v => exact .pure v
  | none => exact ⟨.ok .none, fun _ => rfl, by rintro a h; cases h; rfl⟩
theorem ConstV.dieType {x : M X Res} (hx : ConstV x) : ConstV x.dieType := by
  obtain ⟨r, hr, h2⟩ := hx
  cases r with
  | ok a => exact ⟨.ok a, fun s => by rw [dieType_died, hr]; rfl, h2⟩
  | error e =>
    exact ⟨.error (if e = .typeError then .fatal else e), fun s => by rw [dieType_died, hr]; cases e <;> rfl, by simp⟩
theorem ConstV.of_ok {x : M X α} {f : α → M X Res} {a : α} (hx : ∀ s, x s = (.ok a, s)) (hf : ConstV (f a)) :
    ConstV (x >>= f) := by
  obtain ⟨r', h', h2⟩ := hf
  exact ⟨r', fun s => (M.bind_ok (hx s)).trans (h' s), h2⟩

/-! ### Operators applied to values -/

theorem prepArgs_vals {o : Op} (h : o.rvals = true) (R : Rec X) : ∀ (vs : List Val) (s : St X),
    prepArgs R o (vs.map .val) s = (.ok (vs.map fun v => (.val v, o.inLambda && v.isBlock)), s)
  | [], s => rfl
  | v :: vs, s => by
    have h1 : prepArg R o (.val v) s = (.ok (.val v), s) := by
      simp only [prepArg, h, if_true]
      rfl
    have h2 := isFnArg_shape (X := X) o (t := .val v) (.inl ⟨v, rfl⟩) s
    simp only [List.map_cons, prepArgs]
    rw [M.bind_ok h1, M.bind_ok h2, M.bind_ok (prepArgs_vals h R vs s)]
    rfl

theorem constV_node {o : Op} (h : o.Pure) : ∀ (n : Nat) (vs : List Val), ConstV ((run X n).ev (.node o (vs.map .val)))
  | 0, _ => .throw _
  | n + 1, vs => by
    have ih := constV_node h n
    have hev : ∀ vs : List Val, Const (evVal (run X n) (.node o (vs.map .val))) := fun vs =>
      .bind (ih vs).const fun r => by
        cases r with
        | v v => exact .pure v
        | l l => exact .throw _
        | none => exact .throw _
    have hmap : ∀ (v : Val) (f : Val → List Val), Const (mapV (run X n) v fun x => evVal (run X n) (.node o ((f x).map .val))) := by
      intro v f
      unfold mapV
      split
      · exact .mapL (fun x => hev (f x)) _
      · exact .loopInf (fun i => .bind (hev (f (ofInt i))) fun _ => .pure _) _ _
      · exact .throw _
    have hzip : ∀ (v w : Val), Const (zipV (run X n) v w fun x y => evVal (run X n) (.node o ([x, y].map .val))) := by
      intro v w
      unfold zipV
      split
      · exact .mapL (fun (p : Val × Val) => hev [p.1, p.2]) _
      · exact .mapL (fun (p : Val × Val) => hev [p.1, p.2]) _
      · exact .mapL (fun (p : Val × Val) => hev [p.1, p.2]) _
      · exact .loopInf (fun i => .bind (hev [_, _]) fun _ => .pure _) _ _
      · exact .throw _
    have hcall : ∀ us : List Val, ConstV (Pip.callOp (run X n) o.fn (us.map .val)) := by
      intro us
      rw [h.callOp]
      exact .liftOpt _
    have hexp : ∀ us : List Val, ConstV (expandOrCall (run X n) o (us.map .val)) := by
      intro us
      rcases us with _ | ⟨a, _ | ⟨b, _ | ⟨c, us⟩⟩⟩
      · exact hcall []
      · simp only [List.map_cons, List.map_nil, expandOrCall]
        split
        · exact .bind (hmap a fun x => [x]) fun _ => .pure _
        · exact hcall [a]
      · simp only [List.map_cons, List.map_nil, expandOrCall]
        split
        · split
          · exact .bind (hzip a b) fun _ => .bind (.lift _) fun _ => .pure _
          · exact .bind (hmap a fun x => [x, b]) fun _ => .pure _
        · split
          · exact .bind (hmap b fun x => [a, x]) fun _ => .pure _
          · exact hcall [a, b]
      · exact hcall (a :: b :: c :: us)
    show ConstV (evalNode (run X n) o (vs.map .val))
    rw [evalNode_of_plain _ h.assign h.map h.fold h.scan h.fn]
    unfold applyOp
    rw [if_pos (by simp [Op.hasFlags, h.rvals])]
    refine .of_ok (prepArgs_vals h.rvals _ vs) ?_
    split
    · simp only [h.rvals, if_true]
      exact .of_ok (fun _ => rfl) (.pure _)
    · rw [List.map_map]
      exact .dieType (hexp vs)

/-- The outcome of an operator without effects on values, wherever it is evaluated -/
theorem evals_pure {o : Op} (h : o.Pure) {vs : List Val} {s s' : St X} {r : Except Exc Res}
    (he : Evals (.node o (vs.map .val)) s (r, s')) :
    s' = s ∧ (∀ a, r = .ok a → a.isL = false) ∧ ∀ t : St X, Evals (.node o (vs.map .val)) t (r, t) := by
  obtain ⟨ho, n, hn⟩ := he
  obtain ⟨r0, h0, h1⟩ := constV_node (X := X) h n vs
  have h2 : (r0, s) = (r, s') := (h0 s).symm.trans (hn n (Nat.le_refl n))
  simp only [Prod.mk.injEq] at h2
  obtain ⟨rfl, rfl⟩ := h2
  refine ⟨rfl, h1, fun t => ?_⟩
  exact Mono.runs (mono_ev _) (h0 t) ho

end Pip
