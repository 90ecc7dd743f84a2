import Verif.Lemmas.Operand
import Verif.Spec.Toy
/-! # C67: reading input -/

namespace Pip
variable {X : Ext} {α : Type}

/-- Remembered readings stay remembered. -/
def Kept (s s' : St X) : Prop := s.ncell ≤ s'.ncell ∧ ∀ k v, k < s.ncell → s.cells k = some v → s'.cells k = some v

theorem Kept.refl (s : St X) : Kept s s := ⟨Nat.le_refl _, fun _ _ _ h => h⟩
theorem Kept.trans {s t u : St X} (h : Kept s t) (h' : Kept t u) : Kept s u :=
  ⟨Nat.le_trans h.1 h'.1, fun k v hk hv => h'.2 k v (Nat.lt_of_lt_of_le hk h.1) (h.2 k v hk hv)⟩

def keptCong (X : Ext) : Cong X where
  rel x _ := ∀ s, Kept s (x s).2
  pure _ s := .refl s
  bind {α β x y f g} hx hf s := by
    simp only [M.bind_apply]
    have h := hx s
    rcases e : x s with ⟨r, s'⟩
    rw [e] at h
    cases r with
    | ok a => exact h.trans (hf a s')
    | error e => exact h
  throw _ s := .refl s
  fuel _ s := .refl s
  get h _ s := h s s
  setVar _ _ s := by
    simp only [M.setVar]
    split <;> exact ⟨Nat.le_refl _, fun _ _ _ h => h⟩
  emit t s := ⟨Nat.le_refl _, fun _ _ _ h => h⟩
  readLine s := by
    simp only [M.readLine]
    split <;> exact ⟨Nat.le_refl _, fun _ _ _ h => h⟩
  randBelow _ _ := ⟨Nat.le_refl _, fun _ _ _ h => h⟩
  randFloat _ := ⟨Nat.le_refl _, fun _ _ _ h => h⟩
  seed _ _ := ⟨Nat.le_refl _, fun _ _ _ h => h⟩
  newCell w s := by
    refine ⟨Nat.le_succ _, fun k v hk hv => ?_⟩
    simp only [M.newCell]
    rw [if_neg (by omega)]
    exact hv
  cellOr k {x y} hx s := by
    simp only [M.cellOr]
    cases hk : s.cells k with
    | some v => exact .refl s
    | none =>
      have h := hx s
      rcases e : x s with ⟨r, s'⟩
      rw [e] at h
      cases r with
      | error e => exact h
      | ok v =>
        refine ⟨h.1, fun j w hj hw => ?_⟩
        simp only
        split
        · next hjk => subst hjk; rw [hk] at hw; cases hw
        · exact h.2 j w hj hw
  wipe _ := ⟨Nat.le_refl _, fun _ _ _ h => h⟩
  dieType {α x y} hx s := by
    simp only [M.dieType]
    have h := hx s
    rcases e : x s with ⟨r, s'⟩
    rw [e] at h
    rcases r with (_ | _ | _ | _ | _ | _) | _ <;> exact h
  catchType {α x y} a hx s := by
    simp only [M.catchType]
    have h := hx s
    rcases e : x s with ⟨r, s'⟩
    rw [e] at h
    rcases r with (_ | _ | _ | _ | _ | _) | _ <;> exact h
  inScope {α x y} f as hx s := by
    simp only [M.inScope]
    have h : Kept (s.openScope f as) (x (s.openScope f as)).2 := hx _
    rcases e : x (s.openScope f as) with ⟨r, s'⟩
    rw [e] at h
    cases r with
    | ok a =>
      simp only [St.closeScope]
      split <;> exact h
    | error e => exact h

theorem Mono.kept {x : Rec X → M X α} (hx : Mono x) (n : Nat) (s : St X) : Kept s (x (run X n) s).2 :=
  hx (keptCong X) _ _ ((keptCong X).run n n (Nat.le_refl n)) s

/-- The value of the line read by `q`: nil at the end of the input -/
def lineVal : List Str → Val
  | [] => .nil
  | l :: _ => .scalar l

/-- The expression `q` evaluates to a reference and reads nothing yet. Reading the reference gives the next line, or nil at
the end of the input, and removes that line from the input. -/
theorem q_steps (s : St X) : ∃ s0 s1, (∀ m, (run X (m + 1)).ev (var (s% "q")) s = (.ok (.l (.name (s% "q") (some s.ncell) [])), s0)) ∧
    s0.inp = s.inp ∧ rval (.name (s% "q") (some s.ncell) []) s0 = (.ok (lineVal s.inp), s1) ∧
    s1.inp = s.inp.tail ∧ s1.cells s.ncell = some (lineVal s.inp) ∧ s.ncell < s1.ncell ∧ s1.vars = s.vars ∧
    s1.scope = s.scope ∧ s1.out = s.out ∧ s1.rng = s.rng := by
  have hr : ∀ t : St X, rval (.name (s% "q") (some s.ncell) []) t =
      (M.cellOr s.ncell (getSpecial (s% "q")) >>= fun v => M.lift (readPath [] v)) t := by
    intro t
    unfold rval
    rw [if_neg (by decide), if_pos (by decide)]
  cases hi : s.inp with
  | nil =>
    refine ⟨{ s with cells := fun k => if k = s.ncell then none else s.cells k, ncell := s.ncell + 1 },
      { s with cells := fun k => if k = s.ncell then some .nil else (if k = s.ncell then none else s.cells k),
               ncell := s.ncell + 1 },
      fun m => rfl, hi, ?_, hi, by simp [lineVal], Nat.lt_succ_self _, rfl, rfl, rfl, rfl⟩
    rw [hr]
    have : M.cellOr s.ncell (getSpecial (s% "q"))
        { s with cells := fun k => if k = s.ncell then none else s.cells k, ncell := s.ncell + 1 } =
        (.ok .nil, { s with
          cells := fun k => if k = s.ncell then some .nil else (if k = s.ncell then none else s.cells k),
          ncell := s.ncell + 1 }) := by
      simp [M.cellOr, getSpecial, M.bind_apply, M.readLine, hi, M.pure_apply]
    rw [M.bind_ok this]
    rfl
  | cons l ls =>
    refine ⟨{ s with cells := fun k => if k = s.ncell then none else s.cells k, ncell := s.ncell + 1 },
      { s with cells := fun k => if k = s.ncell then some (.scalar l) else (if k = s.ncell then none else s.cells k),
               ncell := s.ncell + 1, inp := ls },
      fun m => rfl, hi, ?_, rfl, by simp [lineVal], Nat.lt_succ_self _, rfl, rfl, rfl, rfl⟩
    rw [hr]
    have : M.cellOr s.ncell (getSpecial (s% "q"))
        { s with cells := fun k => if k = s.ncell then none else s.cells k, ncell := s.ncell + 1 } =
        (.ok (.scalar l), { s with
          cells := fun k => if k = s.ncell then some (.scalar l) else (if k = s.ncell then none else s.cells k),
          ncell := s.ncell + 1, inp := ls }) := by
      simp [M.cellOr, getSpecial, M.bind_apply, M.readLine, hi, M.pure_apply]
    rw [M.bind_ok this]
    rfl

/-- The value of the expression `q` is the next line of the input, nil at its end; exactly that line is consumed and
nothing else changes. -/
theorem C67_value (s : St X) : ∃ s', Vals (var (s% "q")) s (.ok (lineVal s.inp), s') ∧ s'.inp = s.inp.tail ∧
    s'.vars = s.vars ∧ s'.scope = s.scope ∧ s'.out = s.out ∧ s'.rng = s.rng := by
  obtain ⟨s0, s1, h1, h2, h3, h4, _, _, h5⟩ := q_steps s
  refine ⟨s1, runs_of ok_ne_fuel 0 1 fun m _ => ?_, h4, h5⟩
  show getRval (run X (m + 1)) _ s = _
  rw [getRval_eq, M.bind_ok (h1 m)]
  exact h3

theorem q_again {s1 s2 : St X} {k : Nat} {v : Val} (h : Kept s1 s2) (hk : k < s1.ncell) (hv : s1.cells k = some v) :
    rval (.name (s% "q") (some k) []) s2 = (.ok v, s2) := by
  unfold rval
  rw [if_neg (by decide), if_pos (by decide)]
  simp only
  have : M.cellOr k (getSpecial (s% "q")) s2 = (.ok v, s2) := by
    simp only [M.cellOr, h.2 k v hk hv]
  show ((M.cellOr k (getSpecial (s% "q")) >>= fun v => M.lift (readPath [] v)) s2) = _
  rw [M.bind_ok this]
  rfl

/-- One evaluation of `q` gives one reference, which may be read many times: the first reading consumes a line; after that,
whatever expressions are evaluated, statements executed or functions called in between (even if they end in an error),
reading the same reference gives the same value and consumes nothing. -/
theorem C67_once (s : St X) : ∃ r s0 s1, Evals (var (s% "q")) s (.ok r, s0) ∧ s0.inp = s.inp ∧
    resRval r s0 = (.ok (lineVal s.inp), s1) ∧ s1.inp = s.inp.tail ∧
    (∀ t o s2, Evals t s1 (o, s2) → resRval r s2 = (.ok (lineVal s.inp), s2)) ∧
    (∀ ts o s2, ExecsAll ts s1 (o, s2) → resRval r s2 = (.ok (lineVal s.inp), s2)) ∧
    (∀ f as o s2, Calls f as s1 (o, s2) → resRval r s2 = (.ok (lineVal s.inp), s2)) := by
  obtain ⟨s0, s1, h1, h2, h3, h4, h5, h6, _⟩ := q_steps s
  have fin : ∀ {α : Type} {x : Rec X → M X α}, Mono x → ∀ o s2, Runs x s1 (o, s2) →
      resRval (.l (.name (s% "q") (some s.ncell) [])) s2 = (.ok (lineVal s.inp), s2) := by
    intro α x hx o s2 h
    obtain ⟨_, n, hn⟩ := h
    have := hx.kept n s1
    rw [hn n (Nat.le_refl n)] at this
    exact q_again this h6 h5
  exact ⟨.l (.name (s% "q") (some s.ncell) []), s0, s1, runs_of ok_ne_fuel 0 1 fun m _ => h1 m, h2, h3, h4,
    fun t o s2 h => fin (mono_ev t) o s2 h, fun ts o s2 h => fin (mono_execAll ts) o s2 h,
    fun f as o s2 h => fin (mono_callVal (some f) as) o s2 h⟩

/-- `q` as the operand of an operator that reads it several times -/
theorem C67_operand (s : St X) : ∃ s', HasVal (var (s% "q")) s (lineVal s.inp) s' ∧ s'.inp = s.inp.tail := by
  obtain ⟨s0, s1, h1, h2, h3, h4, _⟩ := q_steps s
  refine ⟨s1, ⟨.l (.name (s% "q") (some s.ncell) []), s0, runs_of ok_ne_fuel 0 1 fun m _ => h1 m, h3, ?_⟩, h4⟩
  intro n hn
  simp only [Lval.names, List.mem_singleton] at hn
  subst hn
  decide

example : toyOut (s% "[q@0 q@1 7q]") [] [s% "ab", s% "cd", s% "ef"] = some (s% "ad7ef\n") := by decide +kernel
example : toyOut (s% "[q 7q 8q]") [] [s% "ab"] = some (s% "ab78\n") := by decide +kernel

end Pip
