import Verif.Lemmas.Runs
import Verif.Model.Main
/-!
Lines of the input that are not read have no influence on what a computation does (used by C116).
-/
namespace Pip
variable {X : Ext} {α β : Type}

/-- Computations that, started with the lines `p ++ r`, either read into `r` or do not see whether `r` or `r'` follows -/
def Blind (r r' : List Str) (x : M X α) : Prop :=
  (∀ s, (x s).2.inp.length ≤ s.inp.length) ∧ ∀ (s : St X) p, s.inp = p ++ r → (x s).2.inp.length < r.length ∨
    ∃ p', (x s).2.inp = p' ++ r ∧ x { s with inp := p ++ r' } = ((x s).1, { (x s).2 with inp := p' ++ r' })

theorem Blind.same {r r' : List Str} {x : M X α} (h : ∀ s i, x { s with inp := i } = ((x s).1, { (x s).2 with inp := i })) :
    Blind r r' x := by
  have e : ∀ s : St X, (x s).2.inp = s.inp := fun s => by
    have := congrArg (fun o => o.2.inp) (h s s.inp)
    exact this
  exact ⟨fun s => Nat.le_of_eq (by rw [e]), fun s p hp => .inr ⟨p, by rw [e, hp], h s _⟩⟩

theorem Blind.bind {r r' : List Str} {x : M X α} {f : α → M X β} (hx : Blind r r' x) (hf : ∀ a, Blind r r' (f a)) :
    Blind r r' (x >>= f) := by
  refine ⟨fun s => ?_, fun s p hp => ?_⟩
  · have h := hx.1 s
    rw [M.bind_apply]
    rcases e : x s with ⟨o, s1⟩
    rw [e] at h
    cases o with
    | ok a => exact Nat.le_trans ((hf a).1 s1) h
    | error e => exact h
  · have h := hx.2 s p hp
    simp only [M.bind_apply]
    rcases e : x s with ⟨o, s1⟩
    rw [e] at h
    rcases h with h | ⟨p', h1, h2⟩
    · left
      cases o with
      | ok a => exact Nat.lt_of_le_of_lt ((hf a).1 s1) h
      | error e => exact h
    · rw [h2]
      cases o with
      | ok a => exact (hf a).2 s1 p' h1
      | error e => exact .inr ⟨p', h1, rfl⟩

/-- Computations that pass the state on, whatever the result becomes -/
theorem Blind.post {r r' : List Str} {x : M X α} {y : M X β} (hx : Blind r r' x) (g : Except Exc α → Except Exc β)
    (t : Except Exc α → St X → St X) (ht : ∀ o s, (t o s).inp = s.inp)
    (htt : ∀ o (s : St X) i, t o { s with inp := i } = { t o s with inp := i }) (hy : ∀ s, y s = (g (x s).1, t (x s).1 (x s).2)) :
    Blind r r' y := by
  refine ⟨fun s => ?_, fun s p hp => ?_⟩
  · rw [hy, ht]; exact hx.1 s
  · rw [hy s, hy { s with inp := p ++ r' }]
    simp only [ht]
    rcases hx.2 s p hp with h | ⟨p', h1, h2⟩
    · exact .inl h
    · exact .inr ⟨p', h1, by rw [h2]; exact congrArg (Prod.mk _) (htt _ _ _)⟩

theorem St.closeScope_inp (s : St X) (i : List Str) : ({ s with inp := i } : St X).closeScope = { s.closeScope with inp := i } := by
  unfold St.closeScope
  simp only
  split <;> rfl

theorem St.closeScope_inp_eq (s : St X) : s.closeScope.inp = s.inp := by
  unfold St.closeScope
  split <;> rfl

theorem blind_readLine {r r' : List Str} (hr : r ≠ []) : Blind r r' (M.readLine : M X _) := by
  refine ⟨fun s => ?_, fun s p hp => ?_⟩
  · simp only [M.readLine]
    split <;> simp_all
  · cases p with
    | nil =>
      left
      simp only [List.nil_append] at hp
      obtain ⟨l, ls, rfl⟩ := List.exists_cons_of_ne_nil hr
      simp [M.readLine, hp]
    | cons l p =>
      right
      simp only [List.cons_append] at hp
      exact ⟨p, by simp [M.readLine, hp], by simp [M.readLine, hp]⟩

theorem blind_readAll {r r' : List Str} (hr : r ≠ []) : Blind r r' (M.readAll : M X _) :=
  ⟨fun s => by simp [M.readAll], fun s p hp => .inl (by simpa [M.readAll] using List.length_pos_iff.2 hr)⟩

/-- What follows the lines that are read makes no difference. -/
def blindCong (X : Ext) (r r' : List Str) (hr : r ≠ []) : Cong X where
  rel x _ := Blind r r' x
  pure _ := .same fun _ _ => rfl
  bind hx hf := hx.bind hf
  throw _ := .same fun _ _ => rfl
  fuel _ := .same fun _ _ => rfl
  get {β f g} h hf := by
    refine ⟨fun s => (h s).1 s, fun s p hp => ?_⟩
    have e : (M.get >>= f) { s with inp := p ++ r' } = f s { s with inp := p ++ r' } := by
      show f _ _ = _
      rw [show f { s with inp := p ++ r' } = f s from hf s s.out _]
    rw [e]
    exact (h s).2 s p hp
  setVar n v := .same fun s i => by
    simp only [M.setVar]
    split <;> rfl
  emit t := .same fun _ _ => rfl
  readLine := blind_readLine hr
  randBelow _ := .same fun _ _ => rfl
  randFloat := .same fun _ _ => rfl
  seed _ := .same fun _ _ => rfl
  newCell _ := .same fun _ _ => rfl
  cellOr k {x y} hx := by
    have key : ∀ s : St X, M.cellOr k x s = match s.cells k with
        | some v => (.ok v, s)
        | none => ((x s).1, match (x s).1 with
          | .ok v => { (x s).2 with cells := fun j => if j = k then some v else (x s).2.cells j }
          | .error _ => (x s).2) := by
      intro s
      simp only [M.cellOr]
      cases s.cells k with
      | some v => rfl
      | none =>
        rcases e : x s with ⟨o, s1⟩
        cases o <;> rfl
    refine ⟨fun s => ?_, fun s p hp => ?_⟩
    · rw [key]
      cases s.cells k with
      | some v => exact Nat.le_refl _
      | none =>
        have h := hx.1 s
        rcases e : x s with ⟨o, s1⟩
        rw [e] at h
        cases o <;> exact h
    · rw [key, key { s with inp := p ++ r' }]
      simp only
      cases s.cells k with
      | some v => exact .inr ⟨p, hp, rfl⟩
      | none =>
        have h := hx.2 s p hp
        rcases e : x s with ⟨o, s1⟩
        rw [e] at h
        rcases h with h | ⟨p', h1, h2⟩
        · left; cases o <;> exact h
        · right
          refine ⟨p', ?_, ?_⟩
          · cases o <;> exact h1
          · simp only [h2]
            cases o <;> rfl
  wipe := .same fun _ _ => rfl
  dieType {α x y} hx := by
    refine hx.post (fun o => match o with | .error .typeError => .error .fatal | o => o) (fun _ s => s) (fun _ _ => rfl)
      (fun _ _ _ => rfl) fun s => ?_
    simp only [M.dieType]
    rcases x s with ⟨(_ | _ | _ | _ | _ | _) | _, s1⟩ <;> rfl
  catchType {α x y} a hx := by
    refine hx.post (fun o => match o with | .error .typeError => .ok a | o => o)
      (fun o s => match o with | .error .typeError => { s with swallowed := s.swallowed + 1 } | _ => s) ?_ ?_ fun s => ?_
    · rintro ((_ | _ | _ | _ | _ | _) | _) s <;> rfl
    · rintro ((_ | _ | _ | _ | _ | _) | _) s i <;> rfl
    · simp only [M.catchType]
      rcases x s with ⟨(_ | _ | _ | _ | _ | _) | _, s1⟩ <;> rfl
  inScope {α x y} f as hx := by
    have key : ∀ s : St X, M.inScope f as x s = ((x (s.openScope f as)).1,
        (match (x (s.openScope f as)).1 with | .ok _ => (x (s.openScope f as)).2.closeScope | .error _ => (x (s.openScope f as)).2)) := by
      intro s
      simp only [M.inScope]
      rcases x (s.openScope f as) with ⟨o, s1⟩
      cases o <;> rfl
    have h' : Blind r r' fun s => x (s.openScope f as) := ⟨fun s => hx.1 (s.openScope f as), fun s p hp =>
      hx.2 (s.openScope f as) p hp⟩
    refine h'.post id (fun o s => match o with | .ok _ => s.closeScope | .error _ => s) ?_ ?_ key
    · rintro (_ | _) s
      · rfl
      · exact St.closeScope_inp_eq s
    · rintro (_ | _) s i
      · rfl
      · exact St.closeScope_inp s i

/-- The same for functions of the process -/
theorem blind_execArg {r r' : List Str} (hr : r ≠ []) (n : Nat) (a : Str) : Blind r r' (execArg (run X n) a) := by
  let C := blindCong X r r' hr
  show C.rel (execArg (run X n) a) (execArg (run X n) a)
  unfold execArg
  refine C.bind (Cong.lift _) fun sts => ?_
  split
  · exact C.throw _
  · refine C.bind ((C.run n n (Nat.le_refl n)).ev _) fun r => ?_
    split
    · exact C.pure _
    · exact C.throw _

theorem blind_executeProgram {r r' : List Str} (hr : r ≠ []) (stmts : List Tree) (args : List Val) (n : Nat) :
    Blind r r' (executeProgram (run X n) stmts args) := by
  let C := blindCong X r r' hr
  show C.rel (executeProgram (run X n) stmts args) (executeProgram (run X n) stmts args)
  unfold executeProgram
  split
  · exact C.pure _
  · refine C.bind (y := setMain (blockOf stmts) args) (Blind.same fun _ _ => rfl) fun _ => ?_
    refine C.bind (Cong.callVal (C.run n n (Nat.le_refl n)) _ _) fun v => ?_
    unfold opPRINT
    split
    · exact C.pure _
    · exact C.emit _

theorem blind_ite {r r' : List Str} {c : Prop} [Decidable c] {x y : M X α} (hx : Blind r r' x) (hy : Blind r r' y) :
    Blind r r' (if c then x else y) := by
  split
  · exact hx
  · exact hy

theorem blind_pure {r r' : List Str} (a : α) : Blind r r' (pure a : M X α) := .same fun _ _ => rfl
theorem blind_throw {r r' : List Str} (e : Exc) : Blind r r' (M.throw e : M X α) := .same fun _ _ => rfl
theorem blind_emit {r r' : List Str} (t : Str) : Blind r r' (M.emit t : M X _) := .same fun _ _ => rfl
theorem blind_lift {r r' : List Str} (x : Except Exc α) : Blind r r' (M.lift x : M X α) := by
  cases x with
  | ok a => exact blind_pure a
  | error e => exact blind_throw e

theorem blind_programText {r r' : List Str} (hr : r ≠ []) (files : Str → Option Str) (code : Option Str) (interactive : Bool)
    (o : Options) : Blind r r' (programText files code interactive o : M X _) := by
  have h1 : ∀ f args, Blind r r' (programText.fromFile files interactive f args : M X _) := by
    intro f args
    unfold programText.fromFile
    have h : Blind r r' (match files f with | some c => pure (some (c, args)) | none => M.throw .fatal : M X _) := by
      split
      · exact blind_pure _
      · exact blind_throw _
    cases interactive
    · exact (blind_pure ()).bind fun _ => h
    · exact (blind_emit _).bind fun _ => h
  have h2 : Blind r r' (programText.fromInput o : M X _) := by
    unfold programText.fromInput
    exact (blind_readAll hr).bind fun _ => blind_pure _
  unfold programText
  split
  · exact blind_pure _
  · exact blind_pure _
  · exact h1 _ _
  · exact h2
  · refine blind_ite ((blind_emit _).bind fun _ => h2) ?_
    split
    · exact h1 _ _
    · exact blind_pure _

theorem blind_pipRun {r r' : List Str} (hr : r ≠ []) (n : Nat) (files : Str → Option Str) (code : Option Str) (interactive : Bool)
    (o : Options) : Blind r r' (pipRun (run X n) files code interactive o) := by
  unfold pipRun
  refine (blind_programText hr files code interactive o).bind fun p => ?_
  rcases p with _ | ⟨program, args⟩
  · exact blind_emit _
  · have k1 : ∀ sts vals, Blind r r' (if interactive = true then M.emit (s% "Executing...\n") >>= fun _ =>
        executeProgram (run X n) sts vals else executeProgram (run X n) sts vals) := fun sts vals =>
      blind_ite ((blind_emit _).bind fun _ => blind_executeProgram hr sts vals n) (blind_executeProgram hr sts vals n)
    have k2 := fun sts raw => blind_ite (c := o.execArgs = true)
      (Blind.bind (Cong.mapL (C := blindCong X r r' hr) (f := execArg (run X n)) (g := execArg (run X n))
        (fun a => blind_execArg hr n a) raw) (k1 sts)) (Blind.bind (blind_pure (raw.map .scalar)) (k1 sts))
    have k3 := fun sts => blind_ite (c := o.readlines = true) ((blind_readAll hr).bind (k2 sts)) ((blind_pure args).bind (k2 sts))
    refine blind_ite (Blind.bind ?_ k3) ((blind_lift _).bind k3)
    unfold parseVerbose
    exact (blind_emit _).bind fun _ => (blind_lift _).bind fun _ => (blind_emit _).bind fun _ => (blind_lift _).bind fun _ =>
      (blind_emit _).bind fun _ => blind_pure _

theorem Mono.blind {x : Rec X → M X α} (hx : Mono x) {r r' : List Str} (hr : r ≠ []) (n : Nat) : Blind r r' (x (run X n)) :=
  hx (blindCong X r r' hr) _ _ ((blindCong X r r' hr).run n n (Nat.le_refl n))

end Pip
