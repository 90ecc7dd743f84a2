import Verif.Lemmas.Cong
import Verif.Spec.Eval
/-! # Instances of `Cong`, and how to compute with `Runs` -/

namespace Pip
variable {X : Ext} {α β : Type}

/-! ### Computing in the monad -/

theorem M.bind_ok {x : M X α} {f : α → M X β} {s s' : St X} {a : α} (h : x s = (.ok a, s')) :
    (x >>= f) s = f a s' := by
  show M.bind x f s = _
  simp only [M.bind, h]

theorem M.bind_error {x : M X α} {f : α → M X β} {s s' : St X} {e : Exc} (h : x s = (.error e, s')) :
    (x >>= f) s = (.error e, s') := by
  show M.bind x f s = _
  simp only [M.bind, h]

theorem M.bind_apply (x : M X α) (f : α → M X β) (s : St X) :
    (x >>= f) s = match x s with | (.ok a, s') => f a s' | (.error e, s') => (.error e, s') := rfl
theorem M.pure_apply (a : α) (s : St X) : (pure a : M X α) s = (.ok a, s) := rfl
theorem M.throw_apply (e : Exc) (s : St X) : (M.throw e : M X α) s = (.error e, s) := rfl
theorem M.get_apply (s : St X) : (M.get : M X (St X)) s = (.ok s, s) := rfl
theorem M.lift_ok (a : α) (s : St X) : (M.lift (.ok a) : M X α) s = (.ok a, s) := rfl
theorem M.lift_error (e : Exc) (s : St X) : (M.lift (.error e) : M X α) s = (.error e, s) := rfl
theorem M.dieType_ok {x : M X α} {s s' : St X} {a : α} (h : x s = (.ok a, s')) : x.dieType s = (.ok a, s') := by
  simp only [M.dieType, h]

theorem M.pure_bind' (a : α) (f : α → M X β) : (pure a >>= f) = f a := rfl
theorem M.bind_assoc' {γ : Type} (x : M X α) (f : α → M X β) (g : β → M X γ) :
    (x >>= f) >>= g = x >>= fun a => f a >>= g := by
  funext s
  simp only [M.bind_apply]
  rcases x s with ⟨r, s'⟩
  cases r <;> rfl

/-! ### Independence from the budget -/

/-- Out of budget, or the same outcome -/
def budgetCong (X : Ext) : Cong X where
  rel x y := ∀ s, (x s).1 = .error .fuel ∨ x s = y s
  pure _ _ := .inr rfl
  bind {α β x y f g} hx hf s := by
    simp only [M.bind_apply]
    rcases hx s with h | h
    · rcases e : x s with ⟨r, s'⟩
      rw [e] at h
      simp only at h
      subst h
      exact .inl rfl
    · rw [h]
      rcases y s with ⟨r, s'⟩
      cases r with
      | ok a => exact hf a s'
      | error e => exact .inr rfl
  throw _ _ := .inr rfl
  fuel _ _ := .inl rfl
  get h _ s := h s s
  setVar _ _ _ := .inr rfl
  emit _ _ := .inr rfl
  readLine _ := .inr rfl
  randBelow _ _ := .inr rfl
  randFloat _ := .inr rfl
  seed _ _ := .inr rfl
  newCell _ _ := .inr rfl
  cellOr k {x y} hx s := by
    simp only [M.cellOr]
    split
    · exact .inr rfl
    · rcases hx s with h | h
      · rcases e : x s with ⟨r, s'⟩
        rw [e] at h
        simp only at h
        subst h
        exact .inl rfl
      · rw [h]
        exact .inr rfl
  wipe _ := .inr rfl
  dieType {α x y} hx s := by
    simp only [M.dieType]
    rcases hx s with h | h
    · rcases e : x s with ⟨r, s'⟩
      rw [e] at h
      simp only at h
      subst h
      exact .inl rfl
    · rw [h]
      exact .inr rfl
  catchType {α x y} a hx s := by
    simp only [M.catchType]
    rcases hx s with h | h
    · rcases e : x s with ⟨r, s'⟩
      rw [e] at h
      simp only at h
      subst h
      exact .inl rfl
    · rw [h]
      exact .inr rfl
  inScope {α x y} f as hx s := by
    simp only [M.inScope]
    rcases hx (s.openScope f as) with h | h
    · rcases e : x (s.openScope f as) with ⟨r, s'⟩
      rw [e] at h
      simp only at h
      subst h
      exact .inl rfl
    · rw [h]
      exact .inr rfl

/-- A computation compatible with all relations -/
def Mono (x : Rec X → M X α) : Prop :=
  ∀ (C : Cong X) (R R' : Rec X), C.Recs R R' → C.rel (x R) (x R')

theorem mono_ev (t : Tree) : Mono fun R : Rec X => R.ev t := fun _ _ _ h => h.ev t
theorem mono_exec (t : Tree) : Mono fun R : Rec X => R.exec t := fun _ _ _ h => h.exec t
theorem mono_op (f : Fn) (ts : List Tree) : Mono fun R : Rec X => R.op f ts := fun _ _ _ h => h.op f ts
theorem mono_getRval (t : Tree) : Mono fun R : Rec X => getRval R t := fun _ _ _ h => Cong.getRval h t
theorem mono_execAll (ts : List Tree) : Mono fun R : Rec X => execAll R ts := fun _ _ _ h => Cong.execAll h ts
theorem mono_callVal (f : Option Val) (as : List Val) : Mono fun R : Rec X => callVal R f as :=
  fun _ _ _ h => Cong.callVal h f as

/-- Once a computation ends within a budget, the outcome is the same for every larger one. -/
theorem Mono.runs {x : Rec X → M X α} (hx : Mono x) {n : Nat} {s : St X} {o : Except Exc α × St X}
    (h : x (run X n) s = o) (ho : o.1 ≠ .error .fuel) : Runs x s o := by
  refine ⟨ho, n, fun m hm => ?_⟩
  rcases hx (budgetCong X) _ _ ((budgetCong X).run n m hm) s with e | e
  · rw [h] at e
    exact absurd e ho
  · rw [← e, h]

theorem Runs.det {x : Rec X → M X α} {s : St X} {o o' : Except Exc α × St X} (h : Runs x s o) (h' : Runs x s o') :
    o = o' := by
  obtain ⟨_, n, hn⟩ := h
  obtain ⟨_, m, hm⟩ := h'
  rw [← hn (max n m) (Nat.le_max_left ..), hm (max n m) (Nat.le_max_right ..)]

/-! ### The streams -/

theorem Streams.refl (s : St X) : Streams s s := ⟨List.prefix_refl _, List.suffix_refl _⟩
theorem Streams.trans {s t u : St X} (h : Streams s t) (h' : Streams t u) : Streams s u :=
  ⟨h.1.trans h'.1, h'.2.trans h.2⟩

/-- The streams only move forward. -/
def streamCong (X : Ext) : Cong X where
  rel x _ := ∀ s, Streams s (x s).2
  pure _ s := .refl s
  bind {α β x y f g} hx hf s := by
    simp only [M.bind_apply]
    have h := hx s
    rcases e : x s with ⟨r, s'⟩
    rw [e] at h
    cases r with
    | ok a => exact h.trans (hf a s')
    | error e => exact h
  throw _ s := .refl s
  fuel _ s := .refl s
  get h _ s := h s s
  setVar _ _ s := by
    simp only [M.setVar]
    split <;> exact ⟨List.prefix_refl _, List.suffix_refl _⟩
  emit t s := ⟨List.prefix_append _ _, List.suffix_refl _⟩
  readLine s := by
    simp only [M.readLine]
    split
    · exact .refl s
    · next h => exact ⟨List.prefix_refl _, by rw [h]; exact List.suffix_cons _ _⟩
  randBelow _ _ := ⟨List.prefix_refl _, List.suffix_refl _⟩
  randFloat _ := ⟨List.prefix_refl _, List.suffix_refl _⟩
  seed _ _ := ⟨List.prefix_refl _, List.suffix_refl _⟩
  newCell _ _ := ⟨List.prefix_refl _, List.suffix_refl _⟩
  cellOr k {x y} hx s := by
    simp only [M.cellOr]
    split
    · exact .refl s
    · have h := hx s
      rcases e : x s with ⟨r, s'⟩
      rw [e] at h
      cases r <;> exact h
  wipe _ := ⟨List.prefix_refl _, List.suffix_refl _⟩
  dieType {α x y} hx s := by
    simp only [M.dieType]
    have h := hx s
    rcases e : x s with ⟨r, s'⟩
    rw [e] at h
    rcases r with (_ | _ | _ | _ | _ | _) | _ <;> exact h
  catchType {α x y} a hx s := by
    simp only [M.catchType]
    have h := hx s
    rcases e : x s with ⟨r, s'⟩
    rw [e] at h
    rcases r with (_ | _ | _ | _ | _ | _) | _ <;> exact h
  inScope {α x y} f as hx s := by
    simp only [M.inScope]
    have h : Streams (s.openScope f as) (x (s.openScope f as)).2 := hx _
    rcases e : x (s.openScope f as) with ⟨r, s'⟩
    rw [e] at h
    cases r with
    | ok a =>
      simp only [St.closeScope]
      split <;> exact h
    | error e => exact h

/-! ### The frame -/

theorem Framed.refl (s : St X) : Framed s s := ⟨rfl, rfl, rfl, rfl, rfl⟩
theorem Framed.trans {s t u : St X} (h : Framed s t) (h' : Framed t u) : Framed s u :=
  ⟨h'.below.trans h.below, h'.depth.trans h.depth, h'.fn.trans h.fn, h'.args.trans h.args, h'.main.trans h.main⟩

/-- The number of swallowed exceptions does not decrease; if the computation returns and swallowed none, it leaves the
frame alone. -/
def FrameStep (s : St X) (o : Except Exc α × St X) : Prop :=
  s.swallowed ≤ o.2.swallowed ∧ (∀ a, o.1 = .ok a → o.2.swallowed = s.swallowed → Framed s o.2)

theorem FrameStep.refl (r : Except Exc α) (s : St X) : FrameStep s (r, s) := ⟨Nat.le_refl _, fun _ _ _ => .refl s⟩

def frameCong (X : Ext) : Cong X where
  rel x _ := ∀ s, FrameStep s (x s)
  pure _ s := .refl _ s
  bind {α β x y f g} hx hf s := by
    simp only [M.bind_apply]
    have h := hx s
    rcases e : x s with ⟨r, s'⟩
    rw [e] at h
    cases r with
    | ok a =>
      have h' := hf a s'
      refine ⟨Nat.le_trans h.1 h'.1, fun b hb hs => ?_⟩
      simp only at hs
      have e1 : s'.swallowed = s.swallowed := by
        have := h.1; have := h'.1; simp only at *; omega
      exact (h.2 a rfl e1).trans (h'.2 b hb (hs.trans e1.symm))
    | error e => exact ⟨h.1, fun _ h => by cases h⟩
  throw _ s := .refl _ s
  fuel _ s := .refl _ s
  get h _ s := h s s
  setVar _ _ s := by
    simp only [M.setVar]
    refine ⟨?_, fun _ _ _ => ?_⟩
    · show s.swallowed ≤ (if _ then _ else _ : St X).swallowed
      split <;> exact Nat.le_refl _
    · show Framed s (if _ then _ else _ : St X)
      split <;> exact ⟨rfl, rfl, rfl, rfl, rfl⟩
  emit t s := ⟨Nat.le_refl _, fun _ _ _ => ⟨rfl, rfl, rfl, rfl, rfl⟩⟩
  readLine s := by
    simp only [M.readLine]
    split <;> exact ⟨Nat.le_refl _, fun _ _ _ => ⟨rfl, rfl, rfl, rfl, rfl⟩⟩
  randBelow _ _ := ⟨Nat.le_refl _, fun _ _ _ => ⟨rfl, rfl, rfl, rfl, rfl⟩⟩
  randFloat _ := ⟨Nat.le_refl _, fun _ _ _ => ⟨rfl, rfl, rfl, rfl, rfl⟩⟩
  seed _ _ := ⟨Nat.le_refl _, fun _ _ _ => ⟨rfl, rfl, rfl, rfl, rfl⟩⟩
  newCell _ _ := ⟨Nat.le_refl _, fun _ _ _ => ⟨rfl, rfl, rfl, rfl, rfl⟩⟩
  cellOr k {x y} hx s := by
    simp only [M.cellOr]
    split
    · exact .refl _ s
    · have h := hx s
      rcases e : x s with ⟨r, s'⟩
      rw [e] at h
      cases r with
      | ok v => exact ⟨h.1, fun _ _ hs => by
          obtain ⟨a, b, c, d, e⟩ := h.2 v rfl hs
          exact ⟨a, b, c, d, e⟩⟩
      | error e => exact ⟨h.1, fun _ h => by cases h⟩
  wipe _ := ⟨Nat.le_refl _, fun _ _ _ => ⟨rfl, rfl, rfl, rfl, rfl⟩⟩
  dieType {α x y} hx s := by
    simp only [M.dieType]
    have h := hx s
    rcases e : x s with ⟨r, s'⟩
    rw [e] at h
    rcases r with ex | a
    · cases ex <;> exact ⟨h.1, fun _ h => by cases h⟩
    · exact h
  catchType {α x y} a hx s := by
    simp only [M.catchType]
    have h := hx s
    rcases e : x s with ⟨r, s'⟩
    rw [e] at h
    rcases r with ex | a
    · have h1 : s.swallowed ≤ s'.swallowed := h.1
      cases ex <;> first
        | exact ⟨h.1, fun _ h => by cases h⟩
        | refine ⟨Nat.le_succ_of_le h1, fun _ _ he => ?_⟩
          simp only at he
          omega
    · exact h
  inScope {α x y} f as hx s := by
    simp only [M.inScope]
    have h : FrameStep (s.openScope f as) (x (s.openScope f as)) := hx _
    rcases e : x (s.openScope f as) with ⟨r, s'⟩
    rw [e] at h
    cases r with
    | ok a =>
      have h1 : s.swallowed ≤ s'.swallowed := h.1
      have e1 : s'.closeScope.swallowed = s'.swallowed := by
        simp only [St.closeScope]
        split <;> rfl
      refine ⟨by show s.swallowed ≤ s'.closeScope.swallowed; omega, fun b _ hs => ?_⟩
      have hs' : s'.closeScope.swallowed = s.swallowed := hs
      have fr : Framed (s.openScope f as) s' := h.2 a rfl (show s'.swallowed = s.swallowed by omega)
      have hb : s'.below = s.scope :: s.below := fr.below
      have hd : s'.depth = s.depth + 1 := fr.depth
      simp only [St.closeScope, hb]
      exact ⟨rfl, by simp only; omega, rfl, fr.args, fr.main⟩
    | error e => exact ⟨h.1, fun _ h => by cases h⟩

/-- A call that returns restores the scope exactly. -/
theorem inScope_scope (x : M X α) (hx : ∀ s, FrameStep s (x s)) (f : Option Val) (as : List Val) (s s' : St X) (a : α)
    (h : M.inScope f as x s = (.ok a, s')) (hs : s'.swallowed = s.swallowed) : s'.scope = s.scope := by
  simp only [M.inScope] at h
  have h0 : FrameStep (s.openScope f as) (x (s.openScope f as)) := hx _
  rcases e : x (s.openScope f as) with ⟨r, s1⟩
  rw [e] at h h0
  cases r with
  | error e => cases h
  | ok b =>
    obtain ⟨rfl, rfl⟩ : b = a ∧ s1.closeScope = s' := by simpa using h
    have e1 : s1.closeScope.swallowed = s1.swallowed := by
      simp only [St.closeScope]
      split <;> rfl
    have fr : Framed (s.openScope f as) s1 := h0.2 b rfl (show s1.swallowed = s.swallowed by omega)
    have hb : s1.below = s.scope :: s.below := fr.below
    simp only [St.closeScope, hb]

/-! ### Unary instances -/

theorem Mono.streams {x : Rec X → M X α} (hx : Mono x) (n : Nat) (s : St X) : Streams s (x (run X n) s).2 :=
  hx (streamCong X) _ _ ((streamCong X).run n n (Nat.le_refl n)) s
theorem Mono.frame {x : Rec X → M X α} (hx : Mono x) (n : Nat) (s : St X) : FrameStep s (x (run X n) s) :=
  hx (frameCong X) _ _ ((frameCong X).run n n (Nat.le_refl n)) s

end Pip
