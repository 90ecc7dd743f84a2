import Verif.Lemmas.Runs
import Verif.Model.Main
/-!
What has been printed before has no influence on what a computation does (used by C20 and C114).
-/
namespace Pip
variable {X : Ext} {α β : Type}

/-- The state with more printed before -/
def St.after (p : Str) (s : St X) : St X := { s with out := p ++ s.out }

/-- An outcome with more printed before -/
def Printed (p : Str) (r : Except Exc α × St X) : Except Exc α × St X := (r.1, r.2.after p)

theorem St.after_nil (s : St X) : s.after [] = s := rfl

theorem St.after_openScope (p : Str) (s : St X) (f : Option Val) (as : List Val) :
    (s.after p).openScope f as = (s.openScope f as).after p := rfl

theorem St.after_closeScope (p : Str) (s : St X) : (s.after p).closeScope = s.closeScope.after p := by
  unfold St.closeScope St.after
  simp only
  split <;> rfl

/-- What has been printed before makes no difference. -/
def outCong (X : Ext) : Cong X where
  rel x _ := ∀ s p, x (s.after p) = Printed p (x s)
  pure _ _ _ := rfl
  bind {α β x y f g} hx hf s p := by
    simp only [M.bind_apply]
    have h := hx s p
    rcases e : x s with ⟨r, s'⟩
    rw [h, e]
    cases r with
    | ok a => exact hf a s' p
    | error e => rfl
  throw _ _ _ := rfl
  fuel _ _ _ := rfl
  get {β f g} h hf s p := by
    show f (s.after p) (s.after p) = Printed p (f s s)
    rw [show f (s.after p) = f s from hf s _ s.inp]
    exact h s s p
  setVar n v s p := by
    simp only [M.setVar, St.after, Printed]
    split <;> rfl
  emit t s p := by
    simp only [M.emit, St.after, Printed, List.append_assoc]
  readLine s p := by
    simp only [M.readLine]
    rcases e : s.inp with _ | ⟨l, ls⟩
    · simp only [St.after, Printed, e]
    · simp only [St.after, Printed, e]
  randBelow _ _ _ := rfl
  randFloat _ _ := rfl
  seed _ _ _ := rfl
  newCell _ _ _ := rfl
  cellOr k {x y} hx s p := by
    simp only [M.cellOr]
    have e1 : (s.after p).cells k = s.cells k := rfl
    rw [e1]
    split
    · rfl
    · have h := hx s p
      rcases e : x s with ⟨r, s'⟩
      rw [h, e]
      cases r <;> rfl
  wipe _ _ := rfl
  dieType {α x y} hx s p := by
    simp only [M.dieType]
    have h := hx s p
    rcases e : x s with ⟨r, s'⟩
    rw [h, e]
    rcases r with (_ | _ | _ | _ | _ | _) | _ <;> rfl
  catchType {α x y} a hx s p := by
    simp only [M.catchType]
    have h := hx s p
    rcases e : x s with ⟨r, s'⟩
    rw [h, e]
    rcases r with (_ | _ | _ | _ | _ | _) | _ <;> rfl
  inScope {α x y} f as hx s p := by
    simp only [M.inScope, St.after_openScope]
    have h := hx (s.openScope f as) p
    rcases e : x (s.openScope f as) with ⟨r, s'⟩
    rw [h, e]
    cases r with
    | ok a => exact congrArg (Prod.mk _) (St.after_closeScope p s')
    | error e => rfl

theorem Mono.after {x : Rec X → M X α} (hx : Mono x) (n : Nat) (p : Str) (s : St X) :
    x (run X n) (s.after p) = Printed p (x (run X n) s) :=
  hx (outCong X) _ _ ((outCong X).run n n (Nat.le_refl n)) s p

theorem executeProgram_after (stmts : List Tree) (args : List Val) (n : Nat) (p : Str) (s : St X) :
    executeProgram (run X n) stmts args (s.after p) = Printed p (executeProgram (run X n) stmts args s) := by
  have key : (outCong X).rel (executeProgram (run X n) stmts args) (executeProgram (run X n) stmts args) := by
    unfold executeProgram
    split
    · exact (outCong X).pure _
    · refine (outCong X).bind (y := setMain (blockOf stmts) args) (fun s p => rfl) fun _ => ?_
      refine (outCong X).bind (Cong.callVal ((outCong X).run n n (Nat.le_refl n)) _ _) fun v => ?_
      unfold opPRINT
      split
      · exact (outCong X).pure _
      · exact (outCong X).emit _
  exact key s p

theorem execArg_after (n : Nat) (a : Str) : (outCong X).rel (execArg (run X n) a) (execArg (run X n) a) := by
  unfold execArg
  refine (outCong X).bind (Cong.lift _) fun sts => ?_
  split
  · exact (outCong X).throw _
  · refine (outCong X).bind (((outCong X).run n n (Nat.le_refl n)).ev _) fun r => ?_
    split
    · exact (outCong X).pure _
    · exact (outCong X).throw _

end Pip
