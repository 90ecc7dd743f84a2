import Verif.Lemmas.Operand
import Verif.Spec.Loops
/-! # How `Runs` distributes over the combinators -/

namespace Pip
variable {X : Ext} {α β : Type}

theorem Runs.notFuel {x : Rec X → M X α} {s s' : St X} {e : Exc} (h : Runs x s (.error e, s')) : e ≠ .fuel := by
  rintro rfl
  exact h.1 rfl

/-- The outcome decides whether computations run, at whatever recursive functions. -/
theorem runs_eq {x y : Rec X → M X α} {s s' : St X} {o : Outcome X α} (h : ∀ R, x R s = y R s') :
    Runs x s o ↔ Runs y s' o := by
  unfold Runs
  simp only [h]

/-- The same for the evaluator with a positive budget -/
theorem runs_eq1 {x y : Rec X → M X α} {s s' : St X} {o : Outcome X α} (h : ∀ m, x (run X (m + 1)) s = y (run X (m + 1)) s') :
    Runs x s o ↔ Runs y s' o :=
  runs_congr 1 fun m => by rw [h m]

theorem runs_shift {x y : Rec X → M X α} {s s' : St X} {o : Outcome X α} (h : ∀ m, x (run X (m + 1)) s = y (run X m) s') :
    Runs x s o ↔ Runs y s' o := by
  constructor
  · rintro ⟨ho, n, hn⟩
    exact ⟨ho, n, fun m hm => by rw [← h, hn (m + 1) (by omega)]⟩
  · rintro ⟨ho, n, hn⟩
    exact runs_of ho n 1 fun m hm => by rw [h, hn m hm]

theorem runs_const {x : M X α} {s : St X} {o : Outcome X α} (ho : (x s).1 ≠ .error .fuel) :
    Runs (fun _ => x) s o ↔ o = x s := by
  constructor
  · rintro ⟨_, n, hn⟩
    exact (hn n (Nat.le_refl n)).symm
  · rintro rfl
    exact ⟨ho, 0, fun _ _ => rfl⟩

theorem runs_pure {a : α} {s : St X} {o : Outcome X α} : Runs (fun _ => (pure a : M X α)) s o ↔ o = (.ok a, s) :=
  runs_const ok_ne_fuel

theorem runs_throw {e : Exc} {s : St X} {o : Outcome X α} (he : e ≠ .fuel) :
    Runs (fun _ => (M.throw e : M X α)) s o ↔ o = (.error e, s) :=
  runs_const (by simp [M.throw, he])

theorem runs_bind {x : Rec X → M X α} {f : α → Rec X → M X β} (hx : Mono x) {s : St X} {o : Outcome X β} :
    Runs (fun R => x R >>= fun a => f a R) s o ↔ Then (Runs x) (fun a => Runs (f a)) s o := by
  constructor
  · rintro ⟨ho, n, hn⟩
    rcases e : x (run X n) s with ⟨r, s1⟩
    have h0 := hn n (Nat.le_refl n)
    cases r with
    | error ex =>
      obtain rfl : (.error ex, s1) = o := (M.bind_error e).symm.trans h0
      exact .fail (hx.runs e (by simpa using ho))
    | ok a =>
      have hr := hx.runs e ok_ne_fuel
      refine .ok hr ⟨ho, n, fun m hm => ?_⟩
      have h1 : x (run X m) s = (.ok a, s1) := by
        rcases hx (budgetCong X) _ _ ((budgetCong X).run n m hm) s with h | h
        · rw [e] at h
          cases h
        · rw [← h, e]
      exact (M.bind_ok h1).symm.trans (hn m hm)
  · intro h
    cases h with
    | ok h1 h2 =>
      obtain ⟨_, n, hn⟩ := h1
      obtain ⟨ho, n', hn'⟩ := h2
      exact ⟨ho, max n n', fun m hm => (M.bind_ok (hn m (by omega))).trans (hn' m (by omega))⟩
    | fail h1 =>
      obtain ⟨ho, n, hn⟩ := h1
      exact ⟨by simpa using ho, n, fun m hm => M.bind_error (hn m hm)⟩

/-- A first step that does not call back -/
theorem runs_bind_ok {c : M X α} {f : α → Rec X → M X β} {s s1 : St X} {a : α} {o : Outcome X β} (h : c s = (.ok a, s1)) :
    Runs (fun R => c >>= fun a => f a R) s o ↔ Runs (f a) s1 o :=
  runs_eq fun _ => M.bind_ok h

theorem Runs.then {x : Rec X → M X α} {f : α → Rec X → M X β} {s s1 : St X} {a : α} {o : Outcome X β}
    (hx : Runs x s (.ok a, s1)) (hf : Runs (f a) s1 o) : Runs (fun R => x R >>= fun a => f a R) s o := by
  obtain ⟨_, n, hn⟩ := hx
  obtain ⟨ho, n', hn'⟩ := hf
  exact ⟨ho, max n n', fun m hm => (M.bind_ok (hn m (by omega))).trans (hn' m (by omega))⟩

theorem Runs.thenFail {x : Rec X → M X α} {f : α → Rec X → M X β} {s s1 : St X} {e : Exc}
    (hx : Runs x s (.error e, s1)) : Runs (fun R => x R >>= fun a => f a R) s (.error e, s1) := by
  obtain ⟨ho, n, hn⟩ := hx
  exact ⟨by simpa using ho, n, fun m hm => M.bind_error (hn m hm)⟩

/-- After a computation with a known result -/
theorem then_of {x : Rec X → M X α} {Q : α → St X → Outcome X β → Prop} {s s1 : St X} {a : α} {o : Outcome X β}
    (h : Runs x s (.ok a, s1)) : Then (Runs x) Q s o ↔ Q a s1 o := by
  constructor
  · rintro (⟨h1, h2⟩ | h1)
    · have := h.det h1
      simp only [Prod.mk.injEq, Except.ok.injEq] at this
      obtain ⟨rfl, rfl⟩ := this
      exact h2
    · have := h.det h1
      simp at this
  · exact .ok h

theorem runs_bind_of {x : Rec X → M X α} {f : α → Rec X → M X β} {s s1 : St X} {a : α} {o : Outcome X β}
    (h : Runs x s (.ok a, s1)) : Runs (fun R => x R >>= fun a => f a R) s o ↔ Runs (f a) s1 o := by
  constructor
  · rintro ⟨ho, n, hn⟩
    obtain ⟨_, n', hn'⟩ := h
    exact ⟨ho, max n n', fun m hm => ((M.bind_ok (hn' m (by omega))).symm.trans (hn m (by omega)))⟩
  · exact h.then

theorem dieType_died (x : M X α) (s : St X) : x.dieType s = died (x s) := by
  simp only [M.dieType, died]
  rcases x s with ⟨r | r, s'⟩
  · cases r <;> rfl
  · rfl

theorem died_notFuel {o : Outcome X α} : (died o).1 = .error .fuel ↔ o.1 = .error .fuel := by
  rcases o with ⟨r | r, s'⟩
  · cases r <;> simp [died]
  · simp [died]

theorem runs_dieType {x : Rec X → M X α} (hx : Mono x) {s : St X} {o : Outcome X α} :
    Runs (fun R => (x R).dieType) s o ↔ ∃ o', Runs x s o' ∧ o = died o' := by
  constructor
  · rintro ⟨ho, n, hn⟩
    have h0 : died (x (run X n) s) = o := (dieType_died _ _).symm.trans (hn n (Nat.le_refl n))
    refine ⟨x (run X n) s, hx.runs rfl ?_, h0.symm⟩
    intro h
    exact ho (by rw [← h0, died_notFuel, h])
  · rintro ⟨o', ⟨ho, n, hn⟩, rfl⟩
    exact ⟨fun h => ho (died_notFuel.1 h), n, fun m hm => (dieType_died _ _).trans (by rw [hn m hm])⟩

theorem died_ok {o : Outcome X α} {a : α} {s : St X} : (.ok a, s) = died o ↔ o = (.ok a, s) := by
  rcases o with ⟨r | r, s'⟩
  · cases r <;> simp [died]
  · simp [died, eq_comm]

theorem runs_dieType_ok {x : Rec X → M X α} {s s' : St X} {a : α} :
    Runs (fun R => (x R).dieType) s (.ok a, s') ↔ Runs x s (.ok a, s') := by
  unfold Runs
  simp only [ne_eq, reduceCtorEq, not_false_eq_true, true_and, dieType_died]
  constructor <;> rintro ⟨n, hn⟩ <;> refine ⟨n, fun m hm => ?_⟩
  · exact died_ok.1 (hn m hm).symm
  · exact (died_ok.2 (hn m hm)).symm

/-! ### The evaluator itself -/

theorem evals_iff {t : Tree} {s : St X} {o : Outcome X Res} : Evals t s o ↔ Runs (fun R => evalTree R t) s o :=
  runs_shift fun _ => rfl

theorem execs_iff {t : Tree} {s : St X} {o : Outcome X (Option Val)} : Execs t s o ↔ Runs (fun R => execStmt R t) s o :=
  runs_shift fun _ => rfl

theorem vals_iff {t : Tree} {s : St X} {o : Outcome X Val} :
    Vals t s o ↔ Then (Evals t) (fun r => Runs fun _ => resRval r) s o :=
  Iff.trans (runs_eq1 fun m => by rw [getRval_eq]) (runs_bind (X := X) (mono_ev t) (f := fun r _ => resRval r))

/-! ### Loops -/

theorem runs_iterL {f : α → Rec X → M X Unit} (hf : ∀ a, Mono (f a)) :
    ∀ (l : List α) {s : St X} {o : Outcome X Unit},
      Runs (fun R => iterL (fun a => f a R) l) s o ↔ Each (fun a => Runs (f a)) l s o
  | [], s, o => by
    constructor
    · intro h
      rw [runs_pure.1 h]
      exact .nil
    · rintro ⟨⟩
      exact runs_pure.2 rfl
  | x :: l, s, o => by
    refine (runs_bind (hf x) (f := fun _ R => iterL (fun a => f a R) l)).trans ?_
    constructor
    · rintro (⟨h1, h2⟩ | h)
      · exact .next h1 ((runs_iterL hf l).1 h2)
      · exact .fail h
    · intro h
      cases h with
      | next h1 h2 => exact .ok h1 ((runs_iterL hf l).2 h2)
      | fail h => exact .fail h

theorem Outcome.map_map {γ : Type} (f : α → β) (g : β → γ) (o : Outcome X α) :
    (o.map f).map g = o.map fun a => g (f a) := by
  rcases o with ⟨r | r, s⟩ <;> rfl

theorem Outcome.map_id' (o : Outcome X α) : o.map (fun a => a) = o := by
  rcases o with ⟨r | r, s⟩ <;> rfl

theorem runs_map {x : Rec X → M X α} (hx : Mono x) (g : α → β) {s : St X} {o : Outcome X β} :
    Runs (fun R => x R >>= fun a => pure (g a)) s o ↔ ∃ o' : Outcome X α, Runs x s o' ∧ o = o'.map g := by
  refine (runs_bind hx (f := fun a _ => pure (g a))).trans ?_
  constructor
  · rintro (⟨h1, h2⟩ | h)
    · exact ⟨_, h1, runs_pure.1 h2⟩
    · exact ⟨_, h, rfl⟩
  · rintro ⟨⟨r | r, s'⟩, h, rfl⟩
    · exact .fail h
    · exact .ok h (runs_pure.2 rfl)

theorem mono_mapL {f : α → Rec X → M X β} (hf : ∀ a, Mono (f a)) (l : List α) :
    Mono fun R => mapL (fun a => f a R) l := fun C _ _ h => Cong.mapL (fun a => hf a C _ _ h) l

theorem runs_mapL {f : α → Rec X → M X β} (hf : ∀ a, Mono (f a)) :
    ∀ (l : List α) {s : St X} {o : Outcome X (List β)},
      Runs (fun R => mapL (fun a => f a R) l) s o ↔ MapEach (fun a => Runs (f a)) l s o
  | [], s, o => by
    constructor
    · intro h
      rw [runs_pure.1 h]
      exact .nil
    · rintro ⟨⟩
      exact runs_pure.2 rfl
  | x :: l, s, o => by
    refine (runs_bind (hf x) (f := fun y R => mapL (fun a => f a R) l >>= fun ys => pure (y :: ys))).trans ?_
    constructor
    · rintro (⟨h1, h2⟩ | h)
      · obtain ⟨o', h3, rfl⟩ := (runs_map (mono_mapL hf l) _).1 h2
        exact .next h1 ((runs_mapL hf l).1 h3)
      · exact .fail h
    · intro h
      cases h with
      | next h1 h2 => exact .ok h1 ((runs_map (mono_mapL hf l) _).2 ⟨_, (runs_mapL hf l).2 h2, rfl⟩)
      | fail h => exact .fail h

theorem mono_filterL {f : α → Rec X → M X Bool} (hf : ∀ a, Mono (f a)) (l : List α) :
    Mono fun R => filterL (fun a => f a R) l := fun C _ _ h => Cong.filterL (fun a => hf a C _ _ h) l

theorem runs_filterL {f : α → Rec X → M X Bool} (hf : ∀ a, Mono (f a)) :
    ∀ (l : List α) {s : St X} {o : Outcome X (List α)},
      Runs (fun R => filterL (fun a => f a R) l) s o ↔ FilterEach (fun a => Runs (f a)) l s o
  | [], s, o => by
    constructor
    · intro h
      rw [runs_pure.1 h]
      exact .nil
    · rintro ⟨⟩
      exact runs_pure.2 rfl
  | x :: l, s, o => by
    refine (runs_bind (hf x) (f := fun b R => filterL (fun a => f a R) l >>= fun ys =>
      pure (if b then x :: ys else ys))).trans ?_
    constructor
    · rintro (@⟨_, b, _, h1, h2⟩ | h)
      · obtain ⟨o', h3, rfl⟩ := (runs_map (mono_filterL hf l) _).1 h2
        cases b with
        | true => exact .keep h1 ((runs_filterL hf l).1 h3)
        | false =>
          have := FilterEach.drop (P := fun a => Runs (f a)) h1 ((runs_filterL hf l).1 h3)
          simpa [Outcome.map_id'] using this
      · exact .fail h
    · intro h
      cases h with
      | keep h1 h2 => exact .ok h1 ((runs_map (mono_filterL hf l) _).2 ⟨_, (runs_filterL hf l).2 h2, rfl⟩)
      | drop h1 h2 =>
        refine .ok h1 ((runs_map (mono_filterL hf l) _).2 ⟨_, (runs_filterL hf l).2 h2, ?_⟩)
        simp [Outcome.map_id']
      | fail h => exact .fail h

theorem repeatM_iterL (x : M X Unit) : ∀ n, repeatM x n = iterL (fun _ => x) (List.replicate n ())
  | 0 => rfl
  | n + 1 => by
    show (x >>= fun _ => repeatM x n) = (x >>= fun _ => iterL (fun _ => x) (List.replicate n ()))
    rw [repeatM_iterL x n]

theorem runs_repeatM {x : Rec X → M X Unit} (hx : Mono x) (n : Nat) {s : St X} {o : Outcome X Unit} :
    Runs (fun R => repeatM (x R) n) s o ↔ Each (fun _ => Runs x) (List.replicate n ()) s o := by
  simp only [repeatM_iterL]
  exact runs_iterL (fun _ => hx) _

/-- A loop without end stops with an exception of one of its passes. -/
theorem runs_loopInf {f : Int → Rec X → M X Unit} (hf : ∀ a, Mono (f a)) {lo : Int} {s : St X} {o : Outcome X α} :
    Runs (fun R => loopInf (fun i => f i R) R.fuel lo) s o ↔
      ∃ k e s', o = (.error e, s') ∧ Each (fun i => Runs (f i)) (intsFrom lo k) s (.error e, s') := by
  have mono : ∀ i, ∀ n m, n ≤ m → ∀ s, (f i (run X n) s).1 = .error .fuel ∨ f i (run X n) s = f i (run X m) s :=
    fun i n m h s => hf i (budgetCong X) _ _ ((budgetCong X).run n m h) s
  constructor
  · rintro ⟨ho, n, hn⟩
    have h0 := hn n (Nat.le_refl n)
    have key : ∀ (k : Nat) (lo : Int) (s : St X), (loopInf (fun i => f i (run X n)) k lo : M X α) s = o →
        ∃ k e s', o = (.error e, s') ∧ Each (fun i => Runs (f i)) (intsFrom lo k) s (.error e, s') := by
      intro k
      induction k with
      | zero =>
        intro lo s h
        rw [← h] at ho
        exact absurd rfl ho
      | succ k ih =>
        intro lo s h
        rcases e : f lo (run X n) s with ⟨r, s1⟩
        cases r with
        | error ex =>
          have h' : (.error ex, s1) = o := by rw [← h]; exact (M.bind_error e).symm
          refine ⟨1, ex, s1, h'.symm, .fail ?_⟩
          refine (hf lo).runs e ?_
          rw [← h'] at ho
          simpa using ho
        | ok u =>
          have h' : (loopInf (fun i => f i (run X n)) k (lo + 1) : M X α) s1 = o := by
            rw [← h]
            exact (M.bind_ok (f := fun _ => (loopInf (fun i => f i (run X n)) k (lo + 1) : M X α)) e).symm
          obtain ⟨k', ex, s', h1, h2⟩ := ih _ _ h'
          exact ⟨k' + 1, ex, s', h1, .next ((hf lo).runs e ok_ne_fuel) h2⟩
    exact key _ _ _ h0
  · rintro ⟨k, e, s', rfl, h⟩
    have key : ∀ (k : Nat) (lo : Int) (s : St X), Each (fun i => Runs (f i)) (intsFrom lo k) s (.error e, s') →
        e ≠ .fuel ∧ ∃ n, ∀ m, n ≤ m → ∀ j, k ≤ j → (loopInf (fun i => f i (run X m)) j lo : M X α) s = (.error e, s') := by
      intro k
      induction k with
      | zero =>
        intro lo s h
        nomatch h
      | succ k ih =>
        intro lo s h
        have h : Each (fun i => Runs (f i)) (lo :: intsFrom (lo + 1) k) s (.error e, s') := h
        cases h with
        | next h1 h2 =>
          obtain ⟨he, n, hn⟩ := ih _ _ h2
          obtain ⟨_, n', hn'⟩ := h1
          refine ⟨he, max n n', fun m hm j hj => ?_⟩
          obtain ⟨j, rfl⟩ : ∃ i, j = i + 1 := ⟨j - 1, by omega⟩
          show (f lo (run X m) >>= fun _ => loopInf (fun i => f i (run X m)) j (lo + 1) : M X α) s = _
          rw [M.bind_ok (hn' m (by omega)), hn m (by omega) j (by omega)]
        | fail h1 =>
          refine ⟨h1.notFuel, ?_⟩
          obtain ⟨_, n', hn'⟩ := h1
          refine ⟨n', fun m hm j hj => ?_⟩
          obtain ⟨j, rfl⟩ : ∃ i, j = i + 1 := ⟨j - 1, by omega⟩
          show (f lo (run X m) >>= fun _ => loopInf (fun i => f i (run X m)) j (lo + 1) : M X α) s = _
          rw [M.bind_error (hn' m (by omega))]
    obtain ⟨he, n, hn⟩ := key k lo s h
    refine runs_of (by simpa using he) (max n k) 1 fun m hm => ?_
    exact hn _ (by omega) m (by omega)

end Pip
