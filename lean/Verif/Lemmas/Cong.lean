import Verif.Model.Eval
/-!
# Relations compatible with the evaluator

A relation between computations that holds of the primitive operations and is preserved by the combinators holds between
the evaluator with one set of recursive functions and the evaluator with related ones. Used for the independence from the
step budget (C66), the frame property (C19), the monotonicity of the streams (C20) and the independence from unread input
(C116).
-/

namespace Pip
variable {X : Ext} {α β : Type}

theorem St.var_out (s : St X) (o : Str) (i : List Str) (n : Str) : ({ s with out := o, inp := i } : St X).var n = s.var n := rfl

/-- A relation compatible with everything the evaluator is made of. -/
structure Cong (X : Ext) where
  rel : ∀ {α : Type}, M X α → M X α → Prop
  pure : ∀ {α : Type} (a : α), rel (Pure.pure a) (Pure.pure a)
  bind : ∀ {α β : Type} {x y : M X α} {f g : α → M X β}, rel x y → (∀ a, rel (f a) (g a)) →
    rel (x >>= f) (y >>= g)
  throw : ∀ {α : Type} (e : Exc), rel (M.throw e : M X α) (M.throw e)
  fuel : ∀ {α : Type} (y : M X α), rel (M.throw .fuel) y
  /-- The state may be read, but not what has been printed, nor the input. -/
  get : ∀ {β : Type} {f g : St X → M X β}, (∀ s, rel (f s) (g s)) → (∀ s o i, f { s with out := o, inp := i } = f s) →
    rel (M.get >>= f) (M.get >>= g)
  setVar : ∀ n v, rel (M.setVar n v) (M.setVar n v)
  emit : ∀ t, rel (M.emit t) (M.emit t)
  readLine : rel M.readLine M.readLine
  randBelow : ∀ n, rel (M.randBelow n) (M.randBelow n)
  randFloat : rel M.randFloat M.randFloat
  seed : ∀ t, rel (M.seed t) (M.seed t)
  newCell : ∀ v, rel (M.newCell v) (M.newCell v)
  cellOr : ∀ k {x y : M X Val}, rel x y → rel (M.cellOr k x) (M.cellOr k y)
  wipe : rel M.wipe M.wipe
  dieType : ∀ {α : Type} {x y : M X α}, rel x y → rel x.dieType y.dieType
  catchType : ∀ {α : Type} {x y : M X α} (a : α), rel x y → rel (x.catchType a) (y.catchType a)
  inScope : ∀ {α : Type} {x y : M X α} (f : Option Val) (as : List Val), rel x y →
    rel (M.inScope f as x) (M.inScope f as y)

/-- Related recursive functions -/
structure Cong.Recs (C : Cong X) (R R' : Rec X) : Prop where
  ev : ∀ t, C.rel (R.ev t) (R'.ev t)
  exec : ∀ t, C.rel (R.exec t) (R'.exec t)
  op : ∀ f ts, C.rel (R.op f ts) (R'.op f ts)
  fuel : R.fuel ≤ R'.fuel

namespace Cong
variable {C : Cong X}

theorem lift (x : Except Exc α) : C.rel (M.lift x) (M.lift x) := by
  cases x with
  | ok a => exact C.pure a
  | error e => exact C.throw e

/-- One step of a proof that two computations of the same form are related. -/
macro "cong1" : tactic => `(tactic| first
  | assumption
  | with_reducible exact C.pure _
  | with_reducible exact C.throw _
  | with_reducible exact C.fuel _
  | with_reducible exact Cong.lift _
  | (with_reducible refine C.get ?_ ?_; rotate_left; (intro _ _ _; first | rfl | simp only [St.var_out]))
  | with_reducible exact C.setVar _ _
  | with_reducible exact C.emit _
  | with_reducible exact C.readLine
  | with_reducible exact C.randBelow _
  | with_reducible exact C.randFloat
  | with_reducible exact C.seed _
  | with_reducible exact C.newCell _
  | with_reducible apply C.cellOr
  | with_reducible exact C.wipe
  | with_reducible apply C.dieType
  | with_reducible apply C.catchType
  | with_reducible apply C.inScope
  | with_reducible apply C.bind
  | (intro _; try dsimp only)
  | split)
macro "cong" : tactic => `(tactic| repeat' cong1)

theorem mapL {f g : α → M X β} (h : ∀ a, C.rel (f a) (g a)) : ∀ l, C.rel (mapL f l) (mapL g l)
  | [] => C.pure _
  | x :: l => C.bind (h x) fun _ => C.bind (mapL h l) fun _ => C.pure _

theorem iterL {f g : α → M X Unit} (h : ∀ a, C.rel (f a) (g a)) : ∀ l, C.rel (iterL f l) (iterL g l)
  | [] => C.pure _
  | x :: l => C.bind (h x) fun _ => iterL h l

theorem filterL {f g : α → M X Bool} (h : ∀ a, C.rel (f a) (g a)) : ∀ l, C.rel (filterL f l) (filterL g l)
  | [] => C.pure _
  | x :: l => C.bind (h x) fun _ => C.bind (filterL h l) fun _ => C.pure _

theorem foldL {f g : β → α → M X β} (h : ∀ b a, C.rel (f b a) (g b a)) : ∀ l b, C.rel (foldL f b l) (foldL g b l)
  | [], _ => C.pure _
  | x :: l, _ => C.bind (h _ x) fun _ => foldL h l _

theorem loopInf {f g : Int → M X Unit} (h : ∀ a, C.rel (f a) (g a)) :
    ∀ (n m : Nat) (_ : n ≤ m) lo, C.rel (loopInf f n lo : M X α) (loopInf g m lo)
  | 0, _, _, _ => C.fuel _
  | n + 1, 0, hh, _ => absurd hh (by omega)
  | n + 1, m + 1, hh, _ => C.bind (h _) fun _ => loopInf h n m (by omega) _

theorem repeatM {x y : M X Unit} (h : C.rel x y) : ∀ n, C.rel (repeatM x n) (repeatM y n)
  | 0 => C.pure _
  | n + 1 => C.bind h fun _ => repeatM h n

theorem allL {f g : α → M X Bool} (h : ∀ a, C.rel (f a) (g a)) : ∀ l, C.rel (allL f l) (allL g l)
  | [] => C.pure _
  | x :: l => C.bind (h x) fun b => by
    cases b
    · exact C.pure _
    · exact allL h l

theorem allInf {f g : Int → M X Bool} (h : ∀ a, C.rel (f a) (g a)) :
    ∀ (n m : Nat) (_ : n ≤ m) i, C.rel (allInf f n i) (allInf g m i)
  | 0, _, _, _ => C.fuel _
  | n + 1, 0, hh, _ => absurd hh (by omega)
  | n + 1, m + 1, hh, _ => C.bind (h _) fun b => by
    cases b
    · exact C.pure _
    · exact allInf h n m (by omega) _

/-! ### Lvalues -/

theorem assignName (n sl v) : C.rel (assignName n sl v) (assignName n sl v) := by
  unfold Pip.assignName
  cong

mutual
theorem assign : ∀ l v, C.rel (assign l v) (assign l v)
  | .name n _ sl, v => by unfold Pip.assign; exact assignName n sl v
  | .list ls _, v => by
    unfold Pip.assign
    split
    · exact C.pure _
    · exact assigns ls _
theorem assigns : ∀ ls vs, C.rel (assigns ls vs) (assigns ls vs)
  | [], _ => by unfold Pip.assigns; exact C.pure _
  | l :: ls, [] => by unfold Pip.assigns; exact C.bind (assign l _) fun _ => assigns ls []
  | l :: ls, v :: vs => by unfold Pip.assigns; exact C.bind (assign l _) fun _ => assigns ls vs
end

theorem getSpecial (n) : C.rel (getSpecial n) (getSpecial n) := by
  unfold Pip.getSpecial
  cong

mutual
theorem rval : ∀ l, C.rel (rval l) (rval l)
  | .name n cell sl => by
    unfold Pip.rval
    repeat' first | with_reducible exact assignName _ _ _ | with_reducible exact getSpecial _ | cong1
  | .list ls _ => by
    unfold Pip.rval
    exact C.bind (rvals ls) fun _ => C.pure _
theorem rvals : ∀ ls, C.rel (rvals ls) (rvals ls)
  | [] => by unfold Pip.rvals; exact C.pure _
  | l :: ls => by
    unfold Pip.rvals
    exact C.bind (rval l) fun _ => C.bind (rvals ls) fun _ => C.pure _
end

theorem copyCell (k) : C.rel (copyCell k) (copyCell k) := by
  unfold Pip.copyCell
  cong

theorem indexLval (l i) : C.rel (indexLval l i) (indexLval l i) := by
  unfold Pip.indexLval
  repeat' first | with_reducible exact copyCell _ | cong1

theorem copyLval (l) : C.rel (copyLval l) (copyLval l) := by
  unfold Pip.copyLval
  repeat' first | with_reducible exact copyCell _ | cong1

theorem nameLval (n) : C.rel (nameLval n) (nameLval n) := by
  unfold Pip.nameLval
  cong

/-! ### Helpers -/

theorem resRval (r) : C.rel (resRval r) (resRval r) := by
  unfold Pip.resRval
  repeat' first | with_reducible exact rval _ | cong1

theorem needVal (r) : C.rel (needVal r) (needVal r) := by
  unfold Pip.needVal
  cong

theorem liftRes (r) : C.rel (liftRes r) (liftRes r) := by
  unfold Pip.liftRes
  cong

theorem liftOpt (r) : C.rel (liftOpt r) (liftOpt r) := by
  unfold Pip.liftOpt
  cong

theorem setGlobal (n v) : C.rel (setGlobal n v) (setGlobal n v) := assign _ _

theorem updateHistory (v) : C.rel (updateHistory v) (updateHistory v) := by
  unfold Pip.updateHistory
  refine C.get (fun s => ?_) fun s o i => by rw [St.var_out s o i (s% "$_"), St.var_out s o i (s% "$__")]
  repeat' first | with_reducible exact assign _ _ | with_reducible exact rval _ | cong1

theorem assignRegexVars (s m) : C.rel (assignRegexVars s m) (assignRegexVars s m) := by
  unfold Pip.assignRegexVars
  repeat' first | with_reducible exact setGlobal _ _ | cong1

theorem opPRINT (v) : C.rel (opPRINT v) (opPRINT v) := by
  unfold Pip.opPRINT
  cong

theorem opOUTPUT (v) : C.rel (opOUTPUT v) (opOUTPUT v) := by
  unfold Pip.opOUTPUT
  cong

theorem argVal (t) : C.rel (argVal t) (argVal t) := by
  unfold Pip.argVal
  repeat' first | with_reducible exact rval _ | cong1

theorem assignRes (r v) : C.rel (assignRes r v) (assignRes r v) := by
  unfold Pip.assignRes
  repeat' first | with_reducible exact assign _ _ | cong1

macro "cong2" : tactic => `(tactic| first
  | with_reducible exact assignName _ _ _ | with_reducible exact assign _ _ | with_reducible exact assigns _ _ | with_reducible exact getSpecial _ | with_reducible exact rval _ | with_reducible exact rvals _
  | with_reducible exact copyCell _ | with_reducible exact indexLval _ _ | with_reducible exact copyLval _ | with_reducible exact nameLval _ | with_reducible exact resRval _ | with_reducible exact needVal _
  | with_reducible exact liftRes _ | with_reducible exact liftOpt _ | with_reducible exact setGlobal _ _ | with_reducible exact updateHistory _ | with_reducible exact assignRegexVars _ _
  | with_reducible exact opPRINT _ | with_reducible exact opOUTPUT _ | with_reducible exact argVal _ | with_reducible exact assignRes _ _
  | cong1)

theorem putBack (t v) : C.rel (putBack t v) (putBack t v) := by
  unfold Pip.putBack
  repeat' cong2

theorem opTAKE (f t) : C.rel (opTAKE f t) (opTAKE f t) := by
  unfold Pip.opTAKE
  repeat' first | with_reducible exact putBack _ _ | cong2

theorem opPICK (f t) : C.rel (opPICK f t) (opPICK f t) := by
  unfold Pip.opPICK
  repeat' first | with_reducible exact opTAKE _ _ | cong2

theorem opPUSH (f t v) : C.rel (opPUSH f t v) (opPUSH f t v) := by
  unfold Pip.opPUSH
  repeat' cong2

theorem opYANK (v) : C.rel (opYANK v) (opYANK v) := by
  unfold Pip.opYANK
  repeat' cong2

theorem opLIST (v) : C.rel (opLIST v) (opLIST v) := by
  unfold Pip.opLIST
  repeat' first | with_reducible apply mapL | cong2

theorem opASSIGN (a b) : C.rel (opASSIGN a b) (opASSIGN a b) := by
  unfold Pip.opASSIGN
  repeat' cong2

theorem atLval (a b) : C.rel (atLval a b) (atLval a b) := by
  unfold Pip.atLval
  repeat' first | with_reducible apply mapL | cong2

theorem allMatches (r f s) : C.rel (allMatches r f s) (allMatches r f s) := by
  unfold Pip.allMatches
  repeat' first | with_reducible apply mapL | cong2

theorem opFIRSTMATCH (a b) : C.rel (opFIRSTMATCH a b) (opFIRSTMATCH a b) := by
  unfold Pip.opFIRSTMATCH
  repeat' cong2

theorem opRANDCHOICE (a) : C.rel (opRANDCHOICE a) (opRANDCHOICE a) := by
  unfold Pip.opRANDCHOICE
  repeat' cong2

theorem randRange (a b) : C.rel (randRange a b) (randRange a b) := by
  unfold Pip.randRange
  repeat' cong2

theorem opRANDRANGE (a b) : C.rel (opRANDRANGE a b) (opRANDRANGE a b) := by
  unfold Pip.opRANDRANGE
  repeat' first | with_reducible exact randRange _ _ | cong2

theorem opRANDRANGETO (a) : C.rel (opRANDRANGETO a) (opRANDRANGETO a) := by
  unfold Pip.opRANDRANGETO
  repeat' first | with_reducible exact randRange _ _ | cong2

theorem shuffle : ∀ n (l : List α), C.rel (shuffle n l) (shuffle n l)
  | 0, _ => C.pure _
  | n + 1, _ => C.bind (C.randBelow _) fun _ => shuffle n _

theorem opSHUFFLE (a) : C.rel (opSHUFFLE a) (opSHUFFLE a) := by
  unfold Pip.opSHUFFLE
  repeat' first | with_reducible exact shuffle _ _ | cong2

theorem toVals (ts) : C.rel (toVals ts) (toVals ts) := by
  unfold Pip.toVals
  apply mapL
  repeat' cong2

theorem isFnArg (o t) : C.rel (isFnArg o t) (isFnArg o t) := by
  unfold Pip.isFnArg
  repeat' cong2

/-! ### What calls the evaluator -/

variable {R R' : Rec X}

theorem getRval (h : C.Recs R R') (t) : C.rel (getRval R t) (getRval R' t) := by
  unfold Pip.getRval
  repeat' first | with_reducible exact h.ev _ | cong2

theorem evVal (h : C.Recs R R') (t) : C.rel (evVal R t) (evVal R' t) := by
  unfold Pip.evVal
  repeat' first | with_reducible exact h.ev _ | cong2

theorem execAll (h : C.Recs R R') (t) : C.rel (execAll R t) (execAll R' t) := by
  unfold Pip.execAll
  apply iterL
  repeat' first | with_reducible exact h.exec _ | cong2

theorem runBody (h : C.Recs R R') (t) : C.rel (runBody R t) (runBody R' t) := by
  unfold Pip.runBody
  apply iterL
  repeat' first | with_reducible exact h.exec _ | cong2

theorem callVal (h : C.Recs R R') (f as) : C.rel (callVal R f as) (callVal R' f as) := by
  unfold Pip.callVal
  repeat' first | with_reducible exact runBody h _ | with_reducible exact getRval h _ | cong2

theorem mapV (h : C.Recs R R') (v) {f g : Val → M X β} (hf : ∀ a, C.rel (f a) (g a)) :
    C.rel (mapV R v f) (mapV R' v g) := by
  unfold Pip.mapV
  split
  · exact mapL hf _
  · exact loopInf (fun a => C.bind (hf _) fun _ => C.pure _) _ _ h.fuel _
  · exact C.throw _

theorem filterV (h : C.Recs R R') (v) {f g : Val → M X Bool} (hf : ∀ a, C.rel (f a) (g a)) :
    C.rel (filterV R v f) (filterV R' v g) := by
  unfold Pip.filterV
  split
  · exact filterL hf _
  · exact loopInf (fun a => C.bind (hf _) fun _ => C.pure _) _ _ h.fuel _
  · exact C.throw _

theorem zipV (h : C.Recs R R') (v w) {f g : Val → Val → M X β} (hf : ∀ a b, C.rel (f a b) (g a b)) :
    C.rel (zipV R v w f) (zipV R' v w g) := by
  unfold Pip.zipV
  split
  · exact mapL (fun _ => hf _ _) _
  · exact mapL (fun _ => hf _ _) _
  · exact mapL (fun _ => hf _ _) _
  · exact loopInf (fun a => C.bind (hf _ _) fun _ => C.pure _) _ _ h.fuel _
  · exact C.throw _

theorem opVal (h : C.Recs R R') (f as) : C.rel (opVal R f as) (opVal R' f as) := by
  unfold Pip.opVal
  repeat' first | with_reducible exact h.op _ _ | cong2

macro "cong3" h:ident : tactic => `(tactic| first
  | with_reducible exact Cong.Recs.ev $h _ | with_reducible exact Cong.Recs.exec $h _
  | with_reducible exact Cong.Recs.op $h _ _
  | with_reducible exact getRval $h _ | with_reducible exact evVal $h _ | with_reducible exact execAll $h _
  | with_reducible exact runBody $h _ | with_reducible exact callVal $h _ _ | with_reducible exact opVal $h _ _
  | with_reducible apply mapV $h | with_reducible apply filterV $h | with_reducible apply zipV $h
  | with_reducible apply mapL | with_reducible apply iterL | with_reducible apply filterL
  | with_reducible apply foldL | with_reducible apply repeatM | with_reducible apply allL
  | cong2)

theorem cmdFOR (h : C.Recs R R') (a b c) : C.rel (cmdFOR R a b c) (cmdFOR R' a b c) := by
  unfold Pip.cmdFOR
  repeat' first | with_reducible exact loopInf (fun a => C.bind (assignRes _ _) fun _ => execAll h _) _ _ h.fuel _ | cong3 h

theorem cmdIF (h : C.Recs R R') (a b c) : C.rel (cmdIF R a b c) (cmdIF R' a b c) := by
  unfold Pip.cmdIF
  repeat' cong3 h

theorem cmdLOOP (h : C.Recs R R') (a b) : C.rel (cmdLOOP R a b) (cmdLOOP R' a b) := by
  unfold Pip.cmdLOOP
  repeat' cong3 h

theorem cmdLOOPREGEX (h : C.Recs R R') (a b c) : C.rel (cmdLOOPREGEX R a b c) (cmdLOOPREGEX R' a b c) := by
  unfold Pip.cmdLOOPREGEX
  repeat' cong3 h

theorem cmdWHILE (h : C.Recs R R') (a b) : C.rel (cmdWHILE R a b) (cmdWHILE R' a b) := by
  unfold Pip.cmdWHILE
  repeat' cong3 h

theorem cmdTILL (h : C.Recs R R') (a b) : C.rel (cmdTILL R a b) (cmdTILL R' a b) := by
  unfold Pip.cmdTILL
  repeat' cong3 h

theorem runCmd (h : C.Recs R R') (c as) : C.rel (runCmd R c as) (runCmd R' c as) := by
  unfold Pip.runCmd
  split
  · exact cmdFOR h _ _ _
  · exact cmdIF h _ _ _
  · exact cmdLOOP h _ _
  · exact cmdLOOPREGEX h _ _ _
  · exact cmdTILL h _ _
  · exact cmdWHILE h _ _
  · exact C.wipe
  · exact C.throw _

theorem execStmt (h : C.Recs R R') (t) : C.rel (execStmt R t) (execStmt R' t) := by
  unfold Pip.execStmt
  repeat' first | with_reducible exact runCmd h _ _ | cong3 h

theorem evL (h : C.Recs R R') (o r v) : C.rel (evL R o r v) (evL R' o r v) := by
  unfold Pip.evL
  repeat' cong3 h

theorem evR (h : C.Recs R R') (o r v) : C.rel (evR R o r v) (evR R' o r v) := by
  unfold Pip.evR
  repeat' cong3 h

theorem foldList (h : C.Recs R R') (o x l) : C.rel (foldList R o x l) (foldList R' o x l) := by
  unfold Pip.foldList
  repeat' first | with_reducible exact evL h _ _ _ | with_reducible exact evR h _ _ _ | cong3 h

theorem foldMeta (h : C.Recs R R') (o t) : C.rel (foldMeta R o t) (foldMeta R' o t) := by
  unfold Pip.foldMeta
  repeat' first | with_reducible exact foldList h _ _ _ | cong3 h

theorem scanL {f g : Res → Val → M X Res} (h : ∀ b a, C.rel (f b a) (g b a)) :
    ∀ l b, C.rel (scanL f b l) (scanL g b l)
  | [], _ => C.pure _
  | x :: l, _ => C.bind (h _ x) fun _ => C.bind (scanL h l _) fun _ => C.pure _

theorem scanChain (h : C.Recs R R') (o) : ∀ l acc, C.rel (scanChain R o acc l) (scanChain R' o acc l)
  | [], _ => C.pure _
  | _ :: l, _ => C.bind (h.ev _) fun _ => C.bind (scanChain h o l _) fun _ => C.pure _

theorem scanList (h : C.Recs R R') (o x l) : C.rel (scanList R o x l) (scanList R' o x l) := by
  unfold Pip.scanList
  repeat' first
    | with_reducible exact scanL (evL h _) _ _ | with_reducible exact scanL (evR h _) _ _
    | with_reducible exact scanChain h _ _ _ | cong3 h

theorem scanMeta (h : C.Recs R R') (o t) : C.rel (scanMeta R o t) (scanMeta R' o t) := by
  unfold Pip.scanMeta
  repeat' first | with_reducible exact scanList h _ _ _ | cong3 h

theorem mapMeta (h : C.Recs R R') (o t) : C.rel (mapMeta R o t) (mapMeta R' o t) := by
  unfold Pip.mapMeta
  repeat' cong3 h

theorem opAND (h : C.Recs R R') (a b) : C.rel (opAND R a b) (opAND R' a b) := by
  unfold Pip.opAND
  repeat' cong3 h

theorem opOR (h : C.Recs R R') (a b) : C.rel (opOR R a b) (opOR R' a b) := by
  unfold Pip.opOR
  repeat' cong3 h

theorem opIFTE (h : C.Recs R R') (a b c) : C.rel (opIFTE R a b c) (opIFTE R' a b c) := by
  unfold Pip.opIFTE
  repeat' cong3 h

theorem opSWAP (h : C.Recs R R') (a b) : C.rel (opSWAP R a b) (opSWAP R' a b) := by
  unfold Pip.opSWAP
  repeat' cong3 h

theorem atVal (h : C.Recs R R') (v i r) : C.rel (atVal R v i r) (atVal R' v i r) := by
  unfold Pip.atVal
  repeat' first | with_reducible exact allMatches _ _ _ | cong3 h

theorem opATwith (h : C.Recs R R') (v r) : C.rel (opATwith R v r) (opATwith R' v r) := by
  unfold Pip.opATwith
  repeat' first | with_reducible exact atVal h _ _ _ | with_reducible exact atLval _ _ | cong3 h

theorem opAT (h : C.Recs R R') (v r) : C.rel (opAT R v r) (opAT R' v r) := by
  unfold Pip.opAT
  repeat' first | with_reducible exact opATwith h _ _ | cong3 h

theorem sendAT (h : C.Recs R R') (v r) : C.rel (sendAT R v r) (sendAT R' v r) := by
  unfold Pip.sendAT
  repeat' first | with_reducible exact opAT h _ _ | cong3 h

theorem opSEND (h : C.Recs R R') (v r) : C.rel (opSEND R v r) (opSEND R' v r) := by
  unfold Pip.opSEND
  repeat' first | with_reducible exact sendAT h _ _ | cong3 h

theorem opPART (h : C.Recs R R') (f p d l r) : C.rel (opPART R f p d l r) (opPART R' f p d l r) := by
  unfold Pip.opPART
  repeat' cong3 h

theorem opINCDEC (h : C.Recs R R') (o t) : C.rel (opINCDEC R o t) (opINCDEC R' o t) := by
  unfold Pip.opINCDEC
  repeat' cong3 h

theorem chainLoop (h : C.Recs R R') : ∀ (n : Nat) (l) (_ : l.length ≤ n) (t),
    C.rel (chainLoop R t l) (chainLoop R' t l)
  | 0, [], _, _ => by unfold Pip.chainLoop; exact C.throw _
  | n + 1, l, hn, t => by
    unfold Pip.chainLoop
    split
    · rename_i o y rest
      refine C.bind (h.ev _) fun _ => C.bind (needVal _) fun _ => ?_
      split
      · exact chainLoop h n rest (by simp at hn; omega) _
      · exact C.pure _
    · exact C.throw _

theorem opCHAIN (h : C.Recs R R') (as) : C.rel (opCHAIN R as) (opCHAIN R' as) := by
  unfold Pip.opCHAIN
  repeat' first | with_reducible exact chainLoop h _ _ (Nat.le_refl _) _ | cong3 h

theorem opEVAL1 (h : C.Recs R R') (a) : C.rel (opEVAL1 R a) (opEVAL1 R' a) := by
  unfold Pip.opEVAL1
  repeat' cong3 h

theorem opEVAL2 (h : C.Recs R R') (a b) : C.rel (opEVAL2 R a b) (opEVAL2 R' a b) := by
  unfold Pip.opEVAL2
  repeat' cong3 h

theorem opFILTER (h : C.Recs R R') (w a b) : C.rel (opFILTER R w a b) (opFILTER R' w a b) := by
  unfold Pip.opFILTER
  repeat' cong3 h

theorem filterEnum (h : C.Recs R R') (a b) : C.rel (filterEnum R a b) (filterEnum R' a b) := by
  unfold Pip.filterEnum
  repeat' first
    | with_reducible exact loopInf (fun a => C.bind (callVal h _ _) fun _ => C.pure _) _ _ h.fuel _ | cong3 h

theorem opFILTERENUMERATE (h : C.Recs R R') (a b) : C.rel (opFILTERENUMERATE R a b) (opFILTERENUMERATE R' a b) := by
  unfold Pip.opFILTERENUMERATE
  repeat' first | with_reducible exact filterEnum h _ _ | cong3 h

theorem opFILTERINDEXES (h : C.Recs R R') (a b) : C.rel (opFILTERINDEXES R a b) (opFILTERINDEXES R' a b) := by
  unfold Pip.opFILTERINDEXES
  repeat' first | with_reducible exact filterEnum h _ _ | cong3 h

theorem opFILTERUNPACK (h : C.Recs R R') (a b) : C.rel (opFILTERUNPACK R a b) (opFILTERUNPACK R' a b) := by
  unfold Pip.opFILTERUNPACK
  repeat' cong3 h

theorem opFIND (h : C.Recs R R') (a b) : C.rel (opFIND R a b) (opFIND R' a b) := by
  unfold Pip.opFIND
  repeat' cong3 h

theorem opFINDALL (h : C.Recs R R') (a b) : C.rel (opFINDALL R a b) (opFINDALL R' a b) := by
  unfold Pip.opFINDALL
  repeat' cong3 h

theorem opFULLMATCH (h : C.Recs R R') (a b) : C.rel (opFULLMATCH R a b) (opFULLMATCH R' a b) := by
  unfold Pip.opFULLMATCH
  repeat' first
    | with_reducible exact allInf (fun a => C.bind (opVal h _ _) fun _ => C.pure _) _ _ h.fuel _ | cong3 h

theorem opIN (h : C.Recs R R') (a b) : C.rel (opIN R a b) (opIN R' a b) := by
  unfold Pip.opIN
  repeat' cong3 h

theorem opMAP (h : C.Recs R R') (a b) : C.rel (opMAP R a b) (opMAP R' a b) := by
  unfold Pip.opMAP
  repeat' cong3 h

theorem thenPure {x y : M X Res} (h : C.rel x y) (g) : C.rel (thenPure x g) (thenPure y g) := by
  unfold Pip.thenPure
  repeat' cong2

theorem opMAPCOORDS (h : C.Recs R R') (a b) : C.rel (opMAPCOORDS R a b) (opMAPCOORDS R' a b) := by
  unfold Pip.opMAPCOORDS
  repeat' cong3 h

theorem opMAPZIP (h : C.Recs R R') (a b c) : C.rel (opMAPZIP R a b c) (opMAPZIP R' a b c) := by
  unfold Pip.opMAPZIP
  repeat' cong3 h

theorem opMAPENUMERATE (h : C.Recs R R') (a b) : C.rel (opMAPENUMERATE R a b) (opMAPENUMERATE R' a b) := by
  unfold Pip.opMAPENUMERATE
  repeat' first | with_reducible exact opMAPZIP h _ _ _ | cong3 h

theorem opMAPPAIRS (h : C.Recs R R') (a b) : C.rel (opMAPPAIRS R a b) (opMAPPAIRS R' a b) := by
  unfold Pip.opMAPPAIRS
  repeat' first | with_reducible exact opMAPZIP h _ _ _ | cong3 h

theorem opMAPMAP (h : C.Recs R R') (a b) : C.rel (opMAPMAP R a b) (opMAPMAP R' a b) := by
  unfold Pip.opMAPMAP
  repeat' cong3 h

theorem opMAPREGEX (h : C.Recs R R') (a b c) : C.rel (opMAPREGEX R a b c) (opMAPREGEX R' a b c) := by
  unfold Pip.opMAPREGEX
  repeat' cong3 h

theorem opMAPSUM (h : C.Recs R R') (a b) : C.rel (opMAPSUM R a b) (opMAPSUM R' a b) := by
  unfold Pip.opMAPSUM
  repeat' first | with_reducible exact opMAP h _ _ | with_reducible exact evL h _ _ _ | cong3 h

theorem opMAPUNPACK (h : C.Recs R R') (a b) : C.rel (opMAPUNPACK R a b) (opMAPUNPACK R' a b) := by
  unfold Pip.opMAPUNPACK
  repeat' cong3 h

theorem opSORTKEYED (h : C.Recs R R') (d a b) : C.rel (opSORTKEYED R d a b) (opSORTKEYED R' d a b) := by
  unfold Pip.opSORTKEYED
  repeat' cong3 h

theorem opRECURSE (h : C.Recs R R') (a) : C.rel (opRECURSE R a) (opRECURSE R' a) := by
  unfold Pip.opRECURSE
  repeat' cong3 h

theorem replacePattern (h : C.Recs R R') (r f n s) : C.rel (replacePattern R r f n s) (replacePattern R' r f n s) := by
  unfold Pip.replacePattern
  repeat' cong3 h

theorem opREPLACE (h : C.Recs R R') (a b c) : C.rel (opREPLACE R a b c) (opREPLACE R' a b c) := by
  unfold Pip.opREPLACE
  repeat' first | with_reducible exact replacePattern h _ _ _ _ | cong3 h

theorem rawOp (h : C.Recs R R') (f as) : C.rel (rawOp R f as) (rawOp R' f as) := by
  unfold Pip.rawOp
  repeat' first
    | with_reducible exact opAND h _ _ | with_reducible exact opOR h _ _ | with_reducible exact opIFTE h _ _ _
    | with_reducible exact opASSIGN _ _ | with_reducible exact opSWAP h _ _ | with_reducible exact opAT h _ _
    | with_reducible exact opSEND h _ _ | with_reducible exact opPART h _ _ _ _ _
    | with_reducible exact opINCDEC h _ _ | with_reducible exact opTAKE _ _ | with_reducible exact opPICK _ _
    | with_reducible exact opPUSH _ _ _ | with_reducible exact opLIST _ | with_reducible exact opCHAIN h _
    | cong3 h

theorem valOp (h : C.Recs R R') (f as) : C.rel (valOp R f as) (valOp R' f as) := by
  unfold Pip.valOp
  repeat' first
    | with_reducible exact opYANK _ | with_reducible exact opEVAL1 h _ | with_reducible exact opEVAL2 h _ _
    | with_reducible exact opFILTER h _ _ _ | with_reducible exact opFILTERUNPACK h _ _
    | with_reducible exact opFILTERINDEXES h _ _ | with_reducible exact opFILTERENUMERATE h _ _
    | with_reducible apply thenPure
    | with_reducible exact opRECURSE h _ | with_reducible exact opMAP h _ _ | with_reducible exact opMAPCOORDS h _ _
    | with_reducible exact opMAPENUMERATE h _ _ | with_reducible exact opMAPMAP h _ _
    | with_reducible exact opMAPPAIRS h _ _ | with_reducible exact opMAPSUM h _ _
    | with_reducible exact opMAPUNPACK h _ _ | with_reducible exact opSORTKEYED h _ _ _
    | with_reducible exact opMAPREGEX h _ _ _ | with_reducible exact opMAPZIP h _ _ _
    | with_reducible exact opFULLMATCH h _ _ | with_reducible exact opIN h _ _
    | with_reducible exact opRANDCHOICE _ | with_reducible exact opSHUFFLE _
    | with_reducible exact opFIND h _ _ | with_reducible exact opFINDALL h _ _
    | with_reducible exact opREPLACE h _ _ _ | with_reducible exact opFIRSTMATCH _ _
    | with_reducible exact opRANDRANGE _ _ | with_reducible exact opRANDRANGETO _
    | cong3 h

theorem callOp (h : C.Recs R R') (f as) : C.rel (callOp R f as) (callOp R' f as) := by
  unfold Pip.callOp
  repeat' first | with_reducible exact rawOp h _ _ | with_reducible exact valOp h _ _ | cong3 h

theorem prepArg (h : C.Recs R R') (o t) : C.rel (prepArg R o t) (prepArg R' o t) := by
  unfold Pip.prepArg
  repeat' cong3 h

theorem prepArgs (h : C.Recs R R') (o) : ∀ ts, C.rel (prepArgs R o ts) (prepArgs R' o ts)
  | [] => C.pure _
  | _ :: ts => C.bind (prepArg h o _) fun _ => C.bind (isFnArg o _) fun _ => C.bind (prepArgs h o ts) fun _ => C.pure _

theorem expandOrCall (h : C.Recs R R') (o ts) : C.rel (expandOrCall R o ts) (expandOrCall R' o ts) := by
  unfold Pip.expandOrCall
  repeat' first | with_reducible exact callOp h _ _ | cong3 h

theorem applyOp (h : C.Recs R R') (o ts) : C.rel (applyOp R o ts) (applyOp R' o ts) := by
  unfold Pip.applyOp
  repeat' first
    | with_reducible exact prepArgs h _ _ | with_reducible exact expandOrCall h _ _ | with_reducible exact toVals _
    | with_reducible exact callOp h _ _ | cong3 h

theorem computeAssign (h : C.Recs R R') (o ts) : C.rel (computeAssign R o ts) (computeAssign R' o ts) := by
  unfold Pip.computeAssign
  repeat' first | with_reducible exact opASSIGN _ _ | cong3 h

theorem evalNode (h : C.Recs R R') (o ts) : C.rel (evalNode R o ts) (evalNode R' o ts) := by
  unfold Pip.evalNode
  repeat' first
    | with_reducible exact computeAssign h _ _ | with_reducible exact mapMeta h _ _ | with_reducible exact foldMeta h _ _
    | with_reducible exact scanMeta h _ _ | with_reducible exact applyOp h _ _ | cong3 h

theorem evalTree (h : C.Recs R R') (t) : C.rel (evalTree R t) (evalTree R' t) := by
  unfold Pip.evalTree
  repeat' first | with_reducible exact evalNode h _ _ | cong3 h

/-- The evaluator with a budget is related to the evaluator with a larger budget. -/
theorem run (C : Cong X) : ∀ (n m : Nat), n ≤ m → C.Recs (run X n) (run X m)
  | 0, _, _ => ⟨fun _ => C.fuel _, fun _ => C.fuel _, fun _ _ => C.fuel _, Nat.zero_le _⟩
  | n + 1, 0, h => absurd h (by omega)
  | n + 1, m + 1, h =>
    have ih := run C n m (by omega)
    ⟨evalTree ih, execStmt ih, callOp ih, by show n ≤ m; omega⟩

end Cong
end Pip
