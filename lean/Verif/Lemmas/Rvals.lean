import Verif.Lemmas.Rel
/-! # Operators whose operands are evaluated to values -/

namespace Pip
variable {X : Ext} {α β : Type}

theorem then_congr {P : St X → Outcome X α → Prop} {Q Q' : α → St X → Outcome X β → Prop}
    (h : ∀ a s o, Q a s o ↔ Q' a s o) {s : St X} {o : Outcome X β} : Then P Q s o ↔ Then P Q' s o := by
  have : Q = Q' := by
    funext a s o
    exact propext (h a s o)
  rw [this]

theorem then_congr_left {P P' : St X → Outcome X α → Prop} {Q : α → St X → Outcome X β → Prop}
    (h : ∀ s o, P s o ↔ P' s o) {s : St X} {o : Outcome X β} : Then P Q s o ↔ Then P' Q s o := by
  have : P = P' := by
    funext s o
    exact propext (h s o)
  rw [this]

theorem mapEach_congr {P Q : α → St X → Outcome X β → Prop} {l : List α} (h : ∀ a ∈ l, ∀ s o, P a s o ↔ Q a s o)
    {s : St X} {o : Outcome X (List β)} : MapEach P l s o ↔ MapEach Q l s o := by
  induction l generalizing s o with
  | nil => exact ⟨by rintro ⟨⟩; exact .nil, by rintro ⟨⟩; exact .nil⟩
  | cons x l ih =>
    have ih := fun {s o} => ih (fun a ha => h a (List.mem_cons_of_mem _ ha)) (s := s) (o := o)
    have hx := h x (List.mem_cons_self ..)
    constructor
    · intro hh
      cases hh with
      | next h1 h2 => exact .next ((hx _ _).1 h1) (ih.1 h2)
      | fail h1 => exact .fail ((hx _ _).1 h1)
    · intro hh
      cases hh with
      | next h1 h2 => exact .next ((hx _ _).2 h1) (ih.2 h2)
      | fail h1 => exact .fail ((hx _ _).2 h1)

theorem each_congr {P Q : α → St X → Outcome X Unit → Prop} (h : ∀ a s o, P a s o ↔ Q a s o) {l : List α} {s : St X}
    {o : Outcome X Unit} : Each P l s o ↔ Each Q l s o := by
  have : P = Q := by
    funext a s o
    exact propext (h a s o)
  rw [this]

/-- Deterministic computations give deterministic lists of results. -/
theorem MapEach.det {P : α → St X → Outcome X β → Prop} (hP : ∀ a s o o', P a s o → P a s o' → o = o') :
    ∀ {l : List α} {s : St X} {o o' : Outcome X (List β)}, MapEach P l s o → MapEach P l s o' → o = o'
  | [], _, _, _, .nil, .nil => rfl
  | _ :: _, _, _, _, .next h1 h2, .next h1' h2' => by
    have := hP _ _ _ _ h1 h1'
    simp only [Prod.mk.injEq, Except.ok.injEq] at this
    obtain ⟨rfl, rfl⟩ := this
    rw [MapEach.det hP h2 h2']
  | _ :: _, _, _, _, .next h1 _, .fail h1' => by
    have := hP _ _ _ _ h1 h1'
    simp at this
  | _ :: _, _, _, _, .fail h1, .next h1' _ => by
    have := hP _ _ _ _ h1 h1'
    simp at this
  | _ :: _, _, _, _, .fail h1, .fail h1' => by
    have := hP _ _ _ _ h1 h1'
    simpa using this

theorem then_of_det {P : St X → Outcome X α → Prop} (hP : ∀ s o o', P s o → P s o' → o = o')
    {Q : α → St X → Outcome X β → Prop} {s s1 : St X} {a : α} {o : Outcome X β} (h : P s (.ok a, s1)) :
    Then P Q s o ↔ Q a s1 o := by
  constructor
  · rintro (⟨h1, h2⟩ | h1)
    · have := hP _ _ _ h h1
      simp only [Prod.mk.injEq, Except.ok.injEq] at this
      obtain ⟨rfl, rfl⟩ := this
      exact h2
    · have := hP _ _ _ h h1
      simp at this
  · exact .ok h

/-- The operators whose operands are evaluated to values, without meta-operators -/
structure Op.Rvals (o : Op) : Prop where
  rvals : o.rvals = true
  assign : o.assign = false
  map : o.map = false
  fold : o.fold = false
  scan : o.scan = false
  fn : o.fn ≠ .PARENTHESIZE

/-- An operand is evaluated, the operators in a chain are not. -/
def Prep (t : Tree) (s : St X) (o : Outcome X Tree) : Prop :=
  match t with
  | .opr p => o = (.ok (.opr p), s)
  | t => ∃ o' : Outcome X Val, Vals t s o' ∧ o = o'.map .val

/-- Is an argument a function? -/
def Tree.isFn : Tree → Bool
  | .val v => v.isBlock
  | _ => false

theorem mono_prepArg (o : Op) (t : Tree) : Mono fun R : Rec X => prepArg R o t := fun _ _ _ h => Cong.prepArg h o t
theorem mono_prepArgs (o : Op) (ts : List Tree) : Mono fun R : Rec X => prepArgs R o ts :=
  fun _ _ _ h => Cong.prepArgs h o ts
theorem mono_expandOrCall (o : Op) (ts : List Tree) : Mono fun R : Rec X => expandOrCall R o ts :=
  fun _ _ _ h => Cong.expandOrCall h o ts
theorem mono_callOp (f : Fn) (ts : List Tree) : Mono fun R : Rec X => callOp R f ts := fun _ _ _ h => Cong.callOp h f ts

theorem runs_prepArg {o : Op} (h : o.rvals = true) (t : Tree) {s : St X} {r : Outcome X Tree} :
    Runs (fun R => prepArg R o t) s r ↔ Prep t s r := by
  cases t <;> simp only [prepArg, h, if_true, Prep] <;> first | exact runs_pure | exact runs_map (mono_getRval _) _

theorem Prep.shape {t t' : Tree} {s s' : St X} (h : Prep t s (.ok t', s')) : (∃ v, t' = .val v) ∨ ∃ p, t' = .opr p := by
  unfold Prep at h
  split at h
  · simp only [Prod.mk.injEq, Except.ok.injEq] at h
    exact .inr ⟨_, h.1⟩
  · obtain ⟨⟨r | r, s1⟩, _, h2⟩ := h
    · cases h2
    · simp only [Outcome.map, Prod.mk.injEq, Except.ok.injEq] at h2
      exact .inl ⟨_, h2.1⟩

theorem isFnArg_shape (o : Op) {t : Tree} (h : (∃ v, t = .val v) ∨ ∃ p, t = .opr p) (s : St X) :
    isFnArg o t s = (.ok (o.inLambda && t.isFn), s) := by
  rcases h with ⟨v, rfl⟩ | ⟨p, rfl⟩
  · unfold isFnArg
    cases hl : o.inLambda
    · rfl
    · cases he : expands o (.val v)
      · rfl
      · have : v.isBlock = false := by
          cases v <;> simp_all [expands, Val.isRange, Val.isList, Val.isBlock]
        simp [Tree.isFn, this, M.pure_apply]
  · unfold isFnArg
    cases hl : o.inLambda <;> simp [Tree.isFn, M.pure_apply, expands]

/-- The preparation of the operands -/
theorem runs_prepArgs {o : Op} (h : o.rvals = true) : ∀ (ts : List Tree) {s : St X} {r : Outcome X (List (Tree × Bool))},
    Runs (fun R => prepArgs R o ts) s r ↔
      ∃ r' : Outcome X (List Tree), MapEach Prep ts s r' ∧ r = r'.map (List.map fun t => (t, o.inLambda && t.isFn))
  | [], s, r => by
    refine runs_pure.trans ⟨fun h => ⟨(.ok [], s), .nil, h⟩, ?_⟩
    rintro ⟨_, ⟨⟩, rfl⟩
    rfl
  | t :: ts, s, r => by
    have step : Runs (fun R => prepArgs R o (t :: ts)) s r ↔ Then (Runs fun R => prepArg R o t)
        (fun a => Runs fun R => isFnArg o a >>= fun b => prepArgs R o ts >>= fun rest => pure ((a, b) :: rest)) s r :=
      runs_bind (mono_prepArg o t) (f := fun a R => isFnArg o a >>= fun b => prepArgs R o ts >>= fun rest =>
        pure ((a, b) :: rest))
    rw [step]
    have inner : ∀ {a : Tree} {s : St X} {r : Outcome X (List (Tree × Bool))}, ((∃ v, a = .val v) ∨ ∃ p, a = .opr p) →
        (Runs (fun R => isFnArg o a >>= fun b => prepArgs R o ts >>= fun rest => pure ((a, b) :: rest)) s r ↔
          ∃ r' : Outcome X (List (Tree × Bool)), Runs (fun R => prepArgs R o ts) s r' ∧
            r = r'.map ((a, o.inLambda && a.isFn) :: ·)) := by
      intro a s r ha
      refine (runs_bind_ok (isFnArg_shape o ha s)).trans ?_
      exact runs_map (mono_prepArgs o ts) _
    constructor
    · rintro (⟨h1, h2⟩ | h1)
      · have h1 := (runs_prepArg h t).1 h1
        obtain ⟨r1, h3, rfl⟩ := (inner h1.shape).1 h2
        obtain ⟨r2, h4, rfl⟩ := (runs_prepArgs h ts).1 h3
        exact ⟨_, .next h1 h4, by simp [Outcome.map_map]⟩
      · exact ⟨_, .fail ((runs_prepArg h t).1 h1), rfl⟩
    · rintro ⟨r', h1, rfl⟩
      cases h1 with
      | next h1 h2 =>
        refine .ok ((runs_prepArg h t).2 h1) ((inner h1.shape).2 ⟨_, (runs_prepArgs h ts).2 ⟨_, h2, rfl⟩, ?_⟩)
        simp [Outcome.map_map]
      | fail h1 => exact .fail ((runs_prepArg h t).2 h1)

/-- What the operator does once its operands have values: build a function if one of them is a function, expand Lists and
Ranges, or compute. -/
def Applied (o : Op) (us : List Tree) (s : St X) (r : Outcome X Res) : Prop :=
  if o.inLambda && us.any Tree.isFn then r = (.ok (.v (lambdaOf o us)), s)
  else ∃ r', Runs (fun R => expandOrCall R o us) s r' ∧ r = died r'

theorem evals_prep {o : Op} (h : o.Rvals) (ts : List Tree) {s : St X} {r : Outcome X Res} :
    Evals (.node o ts) s r ↔ Then (MapEach Prep ts) (Applied o) s r := by
  rw [evals_iff]
  have step : Runs (fun R => evalTree R (.node o ts)) s r ↔ Runs (fun R => prepArgs R o ts >>= fun ps =>
      if ps.any (·.2) then pure (.v (lambdaOf o (ps.map (·.1)))) else M.dieType (expandOrCall R o (ps.map (·.1)))) s r := by
    refine runs_eq fun R => ?_
    show evalNode R o ts s = _
    rw [evalNode_of_plain R h.assign h.map h.fold h.scan h.fn, applyOp, if_pos (by simp [Op.hasFlags, h.rvals])]
    simp only [h.rvals, if_true]
    rfl
  rw [step]
  refine (runs_bind (mono_prepArgs o ts) (f := fun ps R => if ps.any (·.2) then pure (.v (lambdaOf o (ps.map (·.1))))
    else M.dieType (expandOrCall R o (ps.map (·.1))))).trans ?_
  have inner : ∀ (us : List Tree) (s : St X) (r : Outcome X Res), Runs (fun R => (fun (ps : List (Tree × Bool)) (R : Rec X) =>
      if ps.any (·.2) then pure (.v (lambdaOf o (ps.map (·.1))))
      else M.dieType (expandOrCall R o (ps.map (·.1)))) (us.map fun t => (t, o.inLambda && t.isFn)) R) s r ↔
        Applied o us s r := by
    intro us s r
    simp only [List.any_map, List.map_map, Function.comp_def, List.map_id', Applied]
    have : (us.any fun x => o.inLambda && x.isFn) = (o.inLambda && us.any Tree.isFn) := by
      cases o.inLambda <;> simp
    rw [this]
    cases (o.inLambda && us.any Tree.isFn)
    · exact runs_dieType (mono_expandOrCall o us)
    · exact runs_pure
  constructor
  · rintro (⟨h1, h2⟩ | h1)
    · obtain ⟨⟨e | us, s'⟩, h3, h4⟩ := (runs_prepArgs h.rvals ts).1 h1
      · cases h4
      · simp only [Outcome.map, Prod.mk.injEq, Except.ok.injEq] at h4
        obtain ⟨rfl, rfl⟩ := h4
        exact .ok h3 ((inner _ _ _).1 h2)
    · obtain ⟨⟨e | us, s'⟩, h3, h4⟩ := (runs_prepArgs h.rvals ts).1 h1
      · simp only [Outcome.map, Prod.mk.injEq, Except.error.injEq] at h4
        obtain ⟨rfl, rfl⟩ := h4
        exact .fail h3
      · cases h4
  · rintro (⟨h1, h2⟩ | h1)
    · exact .ok ((runs_prepArgs h.rvals ts).2 ⟨_, h1, rfl⟩) ((inner _ _ _).2 h2)
    · exact .fail ((runs_prepArgs h.rvals ts).2 ⟨_, h1, rfl⟩)

/-- Expressions that are not the bare operators of a chain -/
def Tree.notOpr : Tree → Bool
  | .opr _ => false
  | _ => true

theorem prep_vals {t : Tree} (h : t.notOpr = true) {s : St X} {r : Outcome X Tree} :
    Prep t s r ↔ ∃ r' : Outcome X Val, Vals t s r' ∧ r = r'.map .val := by
  cases t <;> first | exact Iff.rfl | cases h

theorem mapEach_map {P : α → St X → Outcome X β → Prop} {γ : Type} (g : β → γ) {l : List α} {s : St X}
    {r : Outcome X (List γ)} :
    MapEach (fun a s r => ∃ r' : Outcome X β, P a s r' ∧ r = r'.map g) l s r ↔
      ∃ r' : Outcome X (List β), MapEach P l s r' ∧ r = r'.map (List.map g) := by
  induction l generalizing s r with
  | nil =>
    constructor
    · rintro ⟨⟩
      exact ⟨_, .nil, rfl⟩
    · rintro ⟨_, ⟨⟩, rfl⟩
      exact .nil
  | cons x l ih =>
    constructor
    · intro h
      cases h with
      | next h1 h2 =>
        obtain ⟨⟨e | y, s1⟩, h3, h4⟩ := h1
        · cases h4
        · simp only [Outcome.map, Prod.mk.injEq, Except.ok.injEq] at h4
          obtain ⟨rfl, rfl⟩ := h4
          obtain ⟨r', h5, rfl⟩ := ih.1 h2
          exact ⟨_, .next h3 h5, by simp [Outcome.map_map]⟩
      | fail h1 =>
        obtain ⟨⟨e | y, s1⟩, h3, h4⟩ := h1
        · simp only [Outcome.map, Prod.mk.injEq, Except.error.injEq] at h4
          obtain ⟨rfl, rfl⟩ := h4
          exact ⟨_, .fail h3, rfl⟩
        · cases h4
    · rintro ⟨r', h, rfl⟩
      cases h with
      | next h1 h2 =>
        have := MapEach.next (P := fun a s r => ∃ r' : Outcome X β, P a s r' ∧ r = r'.map g) ⟨_, h1, rfl⟩ (ih.2 ⟨_, h2, rfl⟩)
        simpa [Outcome.map_map] using this
      | fail h1 => exact .fail ⟨_, h1, rfl⟩

theorem mapEach_prep {ts : List Tree} (h : ∀ t ∈ ts, t.notOpr = true) {s : St X} {r : Outcome X (List Tree)} :
    MapEach Prep ts s r ↔ ∃ r' : Outcome X (List Val), MapEach Vals ts s r' ∧ r = r'.map (List.map .val) :=
  (mapEach_congr fun t ht _ _ => prep_vals (h t ht)).trans (mapEach_map _)

/-- An operator whose operands are evaluated to values, for all operands -/
theorem evals_rvals {o : Op} (h : o.Rvals) {ts : List Tree} (ht : ∀ t ∈ ts, t.notOpr = true) {s : St X}
    {r : Outcome X Res} :
    Evals (.node o ts) s r ↔ Then (MapEach Vals ts) (fun vs => Applied o (vs.map .val)) s r := by
  rw [evals_prep h]
  constructor
  · rintro (⟨h1, h2⟩ | h1)
    · obtain ⟨⟨e | us, s'⟩, h3, h4⟩ := (mapEach_prep ht).1 h1
      · cases h4
      · simp only [Outcome.map, Prod.mk.injEq, Except.ok.injEq] at h4
        obtain ⟨rfl, rfl⟩ := h4
        exact .ok h3 h2
    · obtain ⟨⟨e | us, s'⟩, h3, h4⟩ := (mapEach_prep ht).1 h1
      · simp only [Outcome.map, Prod.mk.injEq, Except.error.injEq] at h4
        obtain ⟨rfl, rfl⟩ := h4
        exact .fail h3
      · cases h4
  · rintro (⟨h1, h2⟩ | h1)
    · exact .ok ((mapEach_prep ht).2 ⟨_, h1, rfl⟩) h2
    · exact .fail ((mapEach_prep ht).2 ⟨_, h1, rfl⟩)

theorem vals_val {v : Val} {s : St X} {r : Outcome X Val} : Vals (.val v) s r ↔ r = (.ok v, s) :=
  runs_pure

theorem mapEach_vals_val (vs : List Val) (s : St X) : MapEach Vals (vs.map .val) s (.ok vs, s) := by
  induction vs with
  | nil => exact .nil
  | cons v vs ih => exact .next (o := (.ok vs, s)) (vals_val.2 rfl) ih

theorem Vals.det {t : Tree} {s : St X} {o o' : Outcome X Val} (h : Vals t s o) (h' : Vals t s o') : o = o' :=
  Runs.det h h'

/-- Operands that are values already -/
theorem evals_applied {o : Op} (h : o.Rvals) (vs : List Val) {s : St X} {r : Outcome X Res} :
    Evals (.node o (vs.map .val)) s r ↔ Applied o (vs.map .val) s r := by
  rw [evals_rvals h (by simp [Tree.notOpr])]
  exact then_of_det (P := MapEach Vals (vs.map .val)) (fun _ _ _ => MapEach.det (P := Vals) fun _ _ _ _ => Vals.det) (mapEach_vals_val vs s)

theorem Prep.det {t : Tree} {s : St X} {o o' : Outcome X Tree} (h : Prep t s o) (h' : Prep t s o') : o = o' := by
  by_cases hp : t.notOpr = true
  · obtain ⟨r, h1, rfl⟩ := (prep_vals hp).1 h
    obtain ⟨r', h2, rfl⟩ := (prep_vals hp).1 h'
    rw [h1.det h2]
  · cases t with
    | opr q => exact Eq.trans (h : _ = _) (h' : _ = _).symm
    | _ => exact absurd rfl hp

theorem MapEach.length {P : α → St X → Outcome X β → Prop} : ∀ {l : List α} {s s' : St X} {ys : List β},
    MapEach P l s (.ok ys, s') → ys.length = l.length := by
  intro l
  induction l with
  | nil => rintro s s' ys ⟨⟩; rfl
  | cons x l ih =>
    intro s s' ys h
    generalize ho : ((.ok ys, s') : Outcome X (List β)) = o at h
    cases h with
    | fail => cases ho
    | @next _ _ _ s2 y o h1 h2 =>
      rcases o with ⟨e | ys', s3⟩
      · cases ho
      simp only [Outcome.map, Prod.mk.injEq, Except.ok.injEq] at ho
      obtain ⟨rfl, rfl⟩ := ho
      simp [ih h2]

/-! ### Computations whose results are values -/

/-- The result is a value, not an lvalue or None. -/
def IsV (x : M X Res) : Prop := ∀ s r s', x s = (.ok r, s') → ∃ v, r = .v v

theorem IsV.pure (v : Val) : IsV (pure (.v v) : M X Res) := by
  intro s r s' h
  simp only [M.pure_apply, Prod.mk.injEq, Except.ok.injEq] at h
  exact ⟨v, h.1.symm⟩
theorem IsV.throw (e : Exc) : IsV (M.throw e : M X Res) := by
  intro s r s' h
  cases h
theorem IsV.bind {x : M X α} {f : α → M X Res} (h : ∀ a, IsV (f a)) : IsV (x >>= f) := by
  intro s r s' h'
  rw [M.bind_apply] at h'
  rcases e : x s with ⟨e' | a, s1⟩
  · rw [e] at h'
    cases h'
  · rw [e] at h'
    exact h a _ _ _ h'
theorem IsV.liftRes (x : Except Exc Val) : IsV (liftRes x : M X Res) := IsV.bind fun v => IsV.pure v

/-- One step of a proof that the result is a value -/
macro "isv" : tactic => `(tactic| repeat' first
  | with_reducible exact IsV.pure _
  | with_reducible exact IsV.throw _
  | with_reducible exact IsV.liftRes _
  | (with_reducible apply IsV.bind)
  | split
  | (intro _; try dsimp only))

theorem IsV.opFULLMATCH (R : Rec X) (a b : Val) : IsV (opFULLMATCH R a b) := by
  unfold Pip.opFULLMATCH
  isv

end Pip
