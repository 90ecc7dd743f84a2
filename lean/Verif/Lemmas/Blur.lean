import Verif.Lemmas.Rvals
/-! # Operands can be evaluated beforehand -/

namespace Pip
variable {X : Ext} {α β γ : Type}

/-! ### Sequencing -/

theorem then_assoc {P : St X → Outcome X α → Prop} {Q : α → St X → Outcome X β → Prop} {S : β → St X → Outcome X γ → Prop}
    {s : St X} {o : Outcome X γ} : Then (Then P Q) S s o ↔ Then P (fun a => Then (Q a) S) s o := by
  constructor
  · rintro (⟨h1, h2⟩ | h1)
    · generalize ho : ((.ok _, _) : Outcome X β) = o1 at h1
      cases h1 with
      | ok h3 h4 => subst ho; exact .ok h3 (.ok h4 h2)
      | fail => cases ho
    · generalize ho : ((.error _, _) : Outcome X β) = o1 at h1
      cases h1 with
      | ok h3 h4 => subst ho; exact .ok h3 (.fail h4)
      | fail h3 =>
        simp only [Prod.mk.injEq, Except.error.injEq] at ho
        obtain ⟨rfl, rfl⟩ := ho
        exact .fail h3
  · rintro (⟨h1, h2⟩ | h1)
    · cases h2 with
      | ok h3 h4 => exact .ok (.ok h1 h3) h4
      | fail h3 => exact .fail (.ok h1 h3)
    · exact .fail (.fail h1)

theorem then_pure {P : St X → Outcome X α → Prop} {s : St X} {o : Outcome X α} :
    Then P (fun a s o => o = (.ok a, s)) s o ↔ P s o := by
  constructor
  · rintro (⟨h1, rfl⟩ | h1) <;> exact h1
  · intro h
    rcases o with ⟨e | a, s1⟩
    · exact .fail h
    · exact .ok h rfl

theorem blur_idem (o : Outcome X α) : blur (blur o) = blur o := by
  rcases o with ⟨e | a, s⟩
  · cases e <;> rfl
  · rfl

theorem blur_ok {o : Outcome X α} {a : α} {s : St X} : (.ok a, s) = blur o ↔ o = (.ok a, s) := by
  rcases o with ⟨r | r, s'⟩
  · cases r <;> simp [blur]
  · simp [blur, eq_comm]

theorem upto_ok {P : St X → Outcome X α → Prop} {s s' : St X} {a : α} : Upto P s (.ok a, s') ↔ P s (.ok a, s') := by
  constructor
  · rintro ⟨o, h1, h2⟩
    rwa [blur_ok.1 h2] at h1
  · intro h
    exact ⟨_, h, rfl⟩

theorem upto_upto {P : St X → Outcome X α → Prop} {s : St X} {o : Outcome X α} : Upto (Upto P) s o ↔ Upto P s o := by
  constructor
  · rintro ⟨_, ⟨o, h, rfl⟩, rfl⟩
    exact ⟨o, h, blur_idem o⟩
  · rintro ⟨o, h, rfl⟩
    exact ⟨_, ⟨o, h, rfl⟩, (blur_idem o).symm⟩

theorem upto_congr {P P' : St X → Outcome X α → Prop} (h : ∀ s o, P s o ↔ P' s o) {s : St X} {o : Outcome X α} :
    Upto P s o ↔ Upto P' s o := exists_congr fun _ => and_congr_left fun _ => h _ _

theorem upto_then {P : St X → Outcome X α → Prop} {Q : α → St X → Outcome X β → Prop} {s : St X} {o : Outcome X β} :
    Upto (Then P Q) s o ↔ Then (Upto P) (fun a => Upto (Q a)) s o := by
  constructor
  · rintro ⟨_, ⟨h1, h2⟩ | h1, rfl⟩
    · exact .ok (upto_ok.2 h1) ⟨_, h2, rfl⟩
    · rename_i s1 e
      have : Upto P s (blur (.error e, s1)) := ⟨_, h1, rfl⟩
      cases e <;> exact .fail this
  · rintro (⟨h1, _, h2, rfl⟩ | ⟨⟨e | a, s1⟩, h1, h2⟩)
    · exact ⟨_, .ok (upto_ok.1 h1) h2, rfl⟩
    · refine ⟨_, .fail h1, ?_⟩
      cases e <;> simp only [blur, Prod.mk.injEq, Except.error.injEq] at h2 <;> rw [h2.1, h2.2] <;> rfl
    · cases h2

/-! ### Computations without the kind of the exception -/

def M.blur (x : M X α) : M X α := fun s => Pip.blur (x s)

theorem blur_notFuel {o : Outcome X α} : (Pip.blur o).1 = .error .fuel ↔ o.1 = .error .fuel := by
  rcases o with ⟨r | r, s'⟩
  · cases r <;> simp [Pip.blur]
  · simp [Pip.blur]

theorem runs_blur {x : Rec X → M X α} (hx : Mono x) {s : St X} {o : Outcome X α} :
    Runs (fun R => (x R).blur) s o ↔ Upto (Runs x) s o := by
  constructor
  · rintro ⟨ho, n, hn⟩
    have h0 : blur (x (run X n) s) = o := hn n (Nat.le_refl n)
    refine ⟨x (run X n) s, hx.runs rfl ?_, h0.symm⟩
    intro h
    exact ho (by rw [← h0, blur_notFuel, h])
  · rintro ⟨o', ⟨ho, n, hn⟩, rfl⟩
    exact ⟨fun h => ho (blur_notFuel.1 h), n, fun m hm => congrArg blur (hn m hm)⟩

theorem M.blur_dieType (x : M X α) : x.dieType.blur = x.blur := by
  funext s
  simp only [M.blur, dieType_died]
  rcases x s with ⟨e | a, s1⟩
  · cases e <;> rfl
  · rfl

/-- The continuation may be changed by changes that blur hides. -/
theorem M.blur_bind_congr (x : M X α) {f g : α → M X β} (h : ∀ a, (f a).blur = (g a).blur) :
    (x >>= f).blur = (x >>= g).blur := by
  funext s
  simp only [M.blur, M.bind_apply]
  rcases x s with ⟨e | a, s1⟩
  · rfl
  · exact congrFun (h a) s1

theorem upto_eq {x y : Rec X → M X α} (hx : Mono x) (hy : Mono y) {s : St X} {o : Outcome X α}
    (h : ∀ m, (x (run X (m + 1))).blur = (y (run X (m + 1))).blur) : Upto (Runs x) s o ↔ Upto (Runs y) s o := by
  rw [← runs_blur hx, ← runs_blur hy]
  exact runs_eq1 fun m => by rw [h]

/-! ### Operands -/

/-- Operators that evaluate their two operands -/
structure Op.Plain (o : Op) : Prop where
  assign : o.assign = false
  map : o.map = false
  fold : o.fold = false
  scan : o.scan = false
  fn : o.fn ≠ .PARENTHESIZE
  ev : o.rvals = true ∨ o.vals = true ∨ o.hasFlags = false ∧ (o.fn = .AND ∨ o.fn = .OR)

theorem mono_evalNode (o : Op) (ts : List Tree) : Mono fun R : Rec X => evalNode R o ts :=
  fun _ _ _ h => Cong.evalNode h o ts

theorem evals_node {o : Op} {ts : List Tree} {s : St X} {r : Outcome X Res} :
    Evals (.node o ts) s r ↔ Runs (fun R => evalNode R o ts) s r := evals_iff

/-- Continue with the result of an operand -/
def withRes (R : Rec X) (o : Op) (f : Tree → List Tree) (r : Res) : M X Res :=
  match resTree r with
  | some t => evalNode R o (f t)
  | none => M.throw .fatal

theorem mono_withRes (o : Op) (f : Tree → List Tree) (r : Res) : Mono fun R : Rec X => withRes R o f r := by
  unfold withRes
  cases resTree r with
  | none => exact fun C _ _ _ => C.throw _
  | some t => exact mono_evalNode o (f t)

theorem prep_blur {β : Type} {o : Op} (he : o.rvals = true ∨ o.vals = true) {t : Tree} (ht : t.notOpr = true) (m : Nat)
    (G : Tree → M X β) :
    (prepArg (run X (m + 1)) o t >>= G).blur = ((run X (m + 1)).ev t >>= fun r => match resTree r with
      | some t' => prepArg (run X (m + 1)) o t' >>= G
      | none => M.throw .fatal).blur := by
  by_cases hr : o.rvals = true
  · have h1 : prepArg (run X (m + 1)) o t = getRval (run X (m + 1)) t >>= fun v => pure (.val v) := by
      cases t <;> first | (simp only [prepArg, hr, if_true]; done) | cases ht
    rw [h1, getRval_eq, M.bind_assoc', M.bind_assoc']
    refine M.blur_bind_congr _ fun r => ?_
    cases r with
    | v v => simp only [resTree, prepArg, hr, if_true]; rfl
    | l l =>
      simp only [resTree, prepArg, hr, if_true, M.bind_assoc']
      rfl
    | none => rfl
  · have hv : o.vals = true := he.resolve_left hr
    simp only [prepArg, hr, hv, if_true, Bool.false_eq_true, if_false, M.bind_assoc']
    refine M.blur_bind_congr _ fun r => ?_
    cases r with
    | v v => rfl
    | l l => rfl
    | none => rfl

theorem first_blur {o : Op} (h : o.Plain) {t : Tree} (u : Tree) (ht : t.notOpr = true) (m : Nat) :
    (evalNode (run X (m + 1)) o [t, u]).blur =
      ((run X (m + 1)).ev t >>= withRes (run X (m + 1)) o fun t => [t, u]).blur := by
  unfold withRes
  simp only [evalNode_of_plain _ h.assign h.map h.fold h.scan h.fn]
  by_cases he : o.rvals = true ∨ o.vals = true
  · have hf : o.hasFlags = true := by rcases he with he | he <;> simp [Op.hasFlags, he]
    simp only [applyOp, hf, if_true, prepArgs, M.bind_assoc']
    exact prep_blur he ht m _
  · obtain ⟨hf, hfn⟩ := (h.ev.resolve_left (fun h => he (.inl h))).resolve_left (fun h => he (.inr h))
    simp only [applyOp, hf, Bool.false_eq_true, if_false, M.blur_dieType]
    have hb : ∀ r : Res, (match resTree r with | some t => (callOp (run X (m + 1)) o.fn [t, u]).dieType | none => M.throw .fatal).blur =
        (match resTree r with | some t => callOp (run X (m + 1)) o.fn [t, u] | none => M.throw .fatal : M X Res).blur := by
      intro r
      cases resTree r with
      | none => rfl
      | some t => exact M.blur_dieType _
    rw [M.blur_bind_congr _ hb]
    rcases hfn with e | e <;> simp only [e, callOp, isRaw, if_true, rawOp, opAND, opOR, getRval_eq, M.bind_assoc'] <;>
      refine M.blur_bind_congr _ fun r => ?_ <;> cases r <;> rfl

theorem second_blur {o : Op} (h : o.Plain) (he : o.rvals = true ∨ o.vals = true) (x : Val) {t : Tree} (ht : t.notOpr = true)
    (m : Nat) :
    (evalNode (run X (m + 1)) o [.val x, t]).blur =
      ((run X (m + 1)).ev t >>= withRes (run X (m + 1)) o fun t => [.val x, t]).blur := by
  unfold withRes
  simp only [evalNode_of_plain _ h.assign h.map h.fold h.scan h.fn]
  have hf : o.hasFlags = true := by rcases he with he | he <;> simp [Op.hasFlags, he]
  have hp : ∀ G : Tree → M X Res, prepArg (run X (m + 1)) o (.val x) >>= G = G (.val x) := by
    intro G
    by_cases hr : o.rvals = true
    · simp only [prepArg, hr, if_true]
      rfl
    · have hv : o.vals = true := he.resolve_left hr
      simp only [prepArg, hr, hv, if_true, Bool.false_eq_true, if_false]
      rfl
  have hi : ∃ b, ∀ G : Bool → M X Res, isFnArg o (.val x) >>= G = G b := by
    refine ⟨o.inLambda && (Tree.val x).isFn, fun G => ?_⟩
    funext s
    exact M.bind_ok (isFnArg_shape o (.inl ⟨x, rfl⟩) s)
  obtain ⟨b, hi⟩ := hi
  simp only [applyOp, hf, if_true, prepArgs, M.bind_assoc', hp, hi]
  exact prep_blur he ht m _

/-- The result of an operand takes its place. -/
def Then.Sub (o : Op) (f : Tree → List Tree) (r : Res) (s : St X) (out : Outcome X Res) : Prop :=
  match resTree r with
  | some t => Upto (Evals (.node o (f t))) s out
  | none => out = (.error .fatal, s)

theorem runs_withRes {o : Op} {f : Tree → List Tree} {r : Res} {s : St X} {out : Outcome X Res} :
    Upto (Runs fun R => withRes R o f r) s out ↔ Then.Sub o f r s out := by
  unfold withRes Then.Sub
  cases resTree r with
  | none =>
    constructor
    · rintro ⟨_, h, rfl⟩
      rw [(runs_throw (by decide)).1 h]
      rfl
    · intro h
      exact ⟨_, (runs_throw (by decide)).2 rfl, h⟩
  | some t => exact upto_congr fun _ _ => evals_node.symm

theorem evals_first {o : Op} (h : o.Plain) {t : Tree} (u : Tree) (ht : t.notOpr = true) {s : St X} {out : Outcome X Res} :
    Upto (Evals (.node o [t, u])) s out ↔ Then (Upto (Evals t)) (Then.Sub o fun t => [t, u]) s out := by
  refine (upto_congr fun _ _ => evals_node).trans ?_
  refine (upto_eq (y := fun R => R.ev t >>= withRes R o fun t => [t, u]) (mono_evalNode _ _) ?_ (first_blur h u ht)).trans ?_
  · exact fun C _ _ hh => C.bind (mono_ev t C _ _ hh) fun r => mono_withRes o _ r C _ _ hh
  refine (upto_congr fun _ _ => runs_bind (mono_ev t) (f := fun r R => withRes R o (fun t => [t, u]) r)).trans ?_
  exact upto_then.trans (then_congr fun _ _ _ => runs_withRes)

theorem evals_second {o : Op} (h : o.Plain) (he : o.rvals = true ∨ o.vals = true) (x : Val) {t : Tree} (ht : t.notOpr = true)
    {s : St X} {out : Outcome X Res} :
    Upto (Evals (.node o [.val x, t])) s out ↔ Then (Upto (Evals t)) (Then.Sub o fun t => [.val x, t]) s out := by
  refine (upto_congr fun _ _ => evals_node).trans ?_
  refine (upto_eq (y := fun R => R.ev t >>= withRes R o fun t => [.val x, t]) (mono_evalNode _ _) ?_
    (second_blur h he x ht)).trans ?_
  · exact fun C _ _ hh => C.bind (mono_ev t C _ _ hh) fun r => mono_withRes o _ r C _ _ hh
  refine (upto_congr fun _ _ => runs_bind (mono_ev t) (f := fun r R => withRes R o (fun t => [.val x, t]) r)).trans ?_
  exact upto_then.trans (then_congr fun _ _ _ => runs_withRes)

end Pip
