import Verif.Lemmas.PureNode
import Verif.Props.Meta
import Verif.Props.Vars
/-!
# C28: functions built by operators
-/

namespace Pip
variable {X : Ext}

/-- Running the statements and the return expression of a function in a scope of its own, in which the running function is
`g` -/
def BodyAs (g : Val) (stmts : List Tree) (ret : Tree) (args : List Val) : St X → Outcome X Val → Prop :=
  Runs fun R => M.inScope (some g) args do
    runBody R stmts
    getRval R ret

theorem calls_body {stmts : List Tree} {ret : Tree} {args : List Val} {s : St X} {o : Outcome X Val} :
    Calls (.block stmts ret) args s o ↔ BodyAs (.block stmts ret) stmts ret args s o := Iff.rfl

theorem mono_runBody (ts : List Tree) : Mono fun R : Rec X => runBody R ts := fun _ _ _ h => Cong.runBody h ts

theorem runs_inScope {α : Type} {f : Option Val} {args : List Val} {x : Rec X → M X α} (hx : Mono x) {s s' : St X} {a : α} :
    Runs (fun R => M.inScope f args (x R)) s (.ok a, s') ↔
      ∃ s1, Runs x (s.openScope f args) (.ok a, s1) ∧ s' = s1.closeScope := by
  constructor
  · rintro ⟨_, n, hn⟩
    have h := hn n (Nat.le_refl n)
    simp only [M.inScope] at h
    rcases e : x (run X n) (s.openScope f args) with ⟨r | r, s1⟩
    · rw [e] at h
      cases h
    · rw [e] at h
      simp only [Prod.mk.injEq, Except.ok.injEq] at h
      obtain ⟨rfl, rfl⟩ := h
      exact ⟨s1, hx.runs e (by simp), rfl⟩
  · rintro ⟨s1, ⟨_, n, hn⟩, rfl⟩
    refine ⟨by simp, n, fun m hm => ?_⟩
    simp only [M.inScope, hn m hm]

theorem bodyAs_ok {g : Val} {stmts : List Tree} {ret : Tree} {args : List Val} {s s' : St X} {v : Val} :
    BodyAs g stmts ret args s (.ok v, s') ↔ ∃ s1 s2, Runs (fun R => runBody R stmts) (s.openScope (some g) args) (.ok (), s1) ∧
      Vals ret s1 (.ok v, s2) ∧ s' = s2.closeScope := by
  have hm : Mono fun R : Rec X => (do runBody R stmts; getRval R ret) := fun C _ _ h =>
    C.bind (Cong.runBody h stmts) fun _ => Cong.getRval h ret
  refine (runs_inScope hm).trans ?_
  constructor
  · rintro ⟨s2, h, rfl⟩
    obtain ⟨_, s1, h1, h2⟩ := then_ok_iff.1 ((runs_bind (mono_runBody stmts) (f := fun _ R => getRval R ret)).1 h)
    exact ⟨s1, s2, h1, h2, rfl⟩
  · rintro ⟨s1, s2, h1, h2, rfl⟩
    exact ⟨s2, (runs_bind (mono_runBody stmts) (f := fun _ R => getRval R ret)).2 (.ok h1 h2), rfl⟩

/-- The value of an operator without effects on values is the same everywhere, and computing it changes nothing. -/
theorem vals_pure {o : Op} (h : o.Pure) {vs : List Val} {s s' : St X} {r : Except Exc Val}
    (he : Vals (.node o (vs.map .val)) s (r, s')) :
    s' = s ∧ ∀ t : St X, Vals (.node o (vs.map .val)) t (r, t) := by
  rw [vals_iff] at he
  generalize ho : (r, s') = out at he
  cases he with
  | @ok s1 a _ h1 h2 =>
    obtain ⟨rfl, hl, ht⟩ := evals_pure h h1
    have hl := hl a rfl
    subst ho
    cases a with
    | v v =>
      have h2 := runs_pure.1 h2
      simp only [Prod.mk.injEq] at h2
      obtain ⟨rfl, rfl⟩ := h2
      exact ⟨rfl, fun t => vals_iff.2 (.ok (ht t) (runs_pure.2 rfl))⟩
    | l l => cases hl
    | none =>
      have h2 := (runs_throw (by simp)).1 h2
      simp only [Prod.mk.injEq] at h2
      obtain ⟨rfl, rfl⟩ := h2
      exact ⟨rfl, fun t => vals_iff.2 (.ok (ht t) ((runs_throw (by simp)).2 rfl))⟩
  | @fail s1 e h1 =>
    obtain ⟨rfl, _, ht⟩ := evals_pure h h1
    simp only [Prod.mk.injEq] at ho
    obtain ⟨rfl, rfl⟩ := ho
    exact ⟨rfl, fun t => vals_iff.2 (.fail (ht t))⟩

/-- The value of an operator: first its operands, then the operator on the values -/
theorem vals_node {o : Op} (h : o.Rvals) {ts : List Tree} (ht : ∀ t ∈ ts, t.notOpr = true) {s : St X} {out : Outcome X Val} :
    Vals (.node o ts) s out ↔ Then (MapEach Vals ts) (fun vs => Vals (.node o (vs.map .val))) s out := by
  rw [vals_iff]
  constructor
  · rintro (⟨h1, h2⟩ | h1)
    · obtain ⟨vs, s1, h3, h4⟩ := then_ok_iff.1 ((evals_rvals h ht).1 h1)
      exact .ok h3 (vals_iff.2 (.ok ((evals_applied h vs).2 h4) h2))
    · rcases (evals_rvals h ht).1 h1 with ⟨h3, h4⟩ | h3
      · exact .ok h3 (vals_iff.2 (.fail ((evals_applied h _).2 h4)))
      · exact .fail h3
  · rintro (⟨h1, h2⟩ | h1)
    · rcases vals_iff.1 h2 with ⟨h3, h4⟩ | h3
      · exact .ok ((evals_rvals h ht).2 (.ok h1 ((evals_applied h _).1 h3))) h4
      · exact .fail ((evals_rvals h ht).2 (.ok h1 ((evals_applied h _).1 h3)))
    · exact .fail ((evals_rvals h ht).2 (.fail h1))

theorem mapEach_cons_ok {α β : Type} {P : α → St X → Outcome X β → Prop} {x : α} {l : List α} {s s' : St X} {ys : List β} :
    MapEach P (x :: l) s (.ok ys, s') ↔ ∃ y s1 zs, P x s (.ok y, s1) ∧ MapEach P l s1 (.ok zs, s') ∧ ys = y :: zs := by
  constructor
  · intro h
    generalize ho : ((.ok ys, s') : Outcome X (List β)) = out at h
    cases h with
    | @next _ _ _ s1 y o h1 h2 =>
      obtain ⟨e | zs, s2⟩ := o
      · cases ho
      · simp only [Outcome.map, Prod.mk.injEq, Except.ok.injEq] at ho
        obtain ⟨rfl, rfl⟩ := ho
        exact ⟨y, s1, zs, h1, h2, rfl⟩
    | fail => cases ho
  · rintro ⟨y, s1, zs, h1, h2, rfl⟩
    exact .next (o := (.ok zs, s')) h1 h2

theorem mapEach_one {pre post : List Val} {ret : Tree} {s s' : St X} {us : List Val} :
    MapEach Vals (pre.map .val ++ ret :: post.map .val) s (.ok us, s') ↔
      ∃ w, Vals ret s (.ok w, s') ∧ us = pre ++ w :: post := by
  induction pre generalizing us with
  | nil =>
    constructor
    · intro h
      obtain ⟨w, s1, ws, h1, h2, rfl⟩ := mapEach_cons_ok.1 h
      obtain h3 := (MapEach.det (P := Vals) (fun _ _ _ _ => Vals.det) h2 (mapEach_vals_val post s1))
      simp only [Prod.mk.injEq, Except.ok.injEq] at h3
      obtain ⟨rfl, rfl⟩ := h3
      exact ⟨w, h1, rfl⟩
    · rintro ⟨w, h1, rfl⟩
      exact mapEach_cons_ok.2 ⟨w, s', post, h1, mapEach_vals_val post s', rfl⟩
  | cons p pre ih =>
    constructor
    · intro h
      obtain ⟨w, s1, ws, h1, h2, rfl⟩ := mapEach_cons_ok.1 h
      have h1 := vals_val.1 h1
      simp only [Prod.mk.injEq, Except.ok.injEq] at h1
      obtain ⟨rfl, rfl⟩ := h1
      obtain ⟨w', h3, rfl⟩ := ih.1 h2
      exact ⟨w', h3, rfl⟩
    · rintro ⟨w, h1, rfl⟩
      exact mapEach_cons_ok.2 ⟨p, s, pre ++ w :: post, vals_val.2 rfl, ih.2 ⟨w, h1, rfl⟩, rfl⟩

theorem flatMap_stmts {l : List Val} (h : ∀ v ∈ l, v.isBlock = false) : (l.map Tree.val).flatMap stmtsOf = [] := by
  rw [List.flatMap_eq_nil_iff]
  intro t ht
  obtain ⟨v, hv, rfl⟩ := List.mem_map.1 ht
  have := h v hv
  cases v <;> first | rfl | cases this

theorem map_ret {l : List Val} (h : ∀ v ∈ l, v.isBlock = false) : (l.map Tree.val).map retOf = l.map .val := by
  rw [List.map_map]
  refine List.map_congr_left fun v hv => ?_
  have := h v hv
  cases v <;> first | rfl | cases this

/-- An operator written around a function gives a function. -/
theorem vals_lambda {o : Op} (h : o.Rvals) (hl : o.inLambda = true) {us : List Val} (hu : ∃ u ∈ us, u.isBlock = true) (s : St X) :
    Vals (.node o (us.map .val)) s (.ok (lambdaOf o (us.map .val)), s) := by
  refine vals_iff.2 (.ok (a := .v (lambdaOf o (us.map .val))) ((evals_applied h us).2 ?_) (runs_pure.2 rfl))
  unfold Applied
  rw [if_pos]
  obtain ⟨u, hu, hb⟩ := hu
  simp only [hl, Bool.true_and, List.any_eq_true]
  exact ⟨.val u, List.mem_map_of_mem hu, hb⟩

/-- **C28.** An operator without effects, one of whose operands is a function, gives a function `L`; calling `L` gives
the result of the operator on the result of the function and the other operands. The statements and return expression
of the original function are run once, with the same arguments and effects. In their scope `L` is the running
function. -/
theorem C28_call (o : Op) (h : o.Pure) (hl : o.inLambda = true) (pre post : List Val) (stmts : List Tree) (ret : Tree)
    (hpre : ∀ v ∈ pre, v.isBlock = false) (hpost : ∀ v ∈ post, v.isBlock = false) (hr : ret.notOpr = true) :
    ∃ L : Val, (∀ s : St X, Vals (.node o ((pre ++ .block stmts ret :: post).map .val)) s (.ok L, s)) ∧
      ∀ (args : List Val) (s s' : St X) (v : Val), Calls L args s (.ok v, s') ↔
        ∃ w, BodyAs L stmts ret args s (.ok w, s') ∧ Vals (.node o ((pre ++ w :: post).map .val)) s' (.ok v, s') := by
  have hm : ∀ w, (pre ++ w :: post).map Tree.val = pre.map .val ++ .val w :: post.map .val := by simp
  have hL : lambdaOf o ((pre ++ .block stmts ret :: post).map .val) =
      .block stmts (.node o (pre.map .val ++ ret :: post.map .val)) := by
    rw [hm]
    simp only [lambdaOf, List.flatMap_append, List.flatMap_cons, List.map_append, List.map_cons, flatMap_stmts hpre,
      flatMap_stmts hpost, map_ret hpre, map_ret hpost, List.nil_append, List.append_nil]
    rfl
  refine ⟨lambdaOf o ((pre ++ .block stmts ret :: post).map .val), vals_lambda h.toRvals hl ⟨.block stmts ret, by simp, rfl⟩, ?_⟩
  rw [hL]
  intro args s s' v
  have hno : ∀ t ∈ pre.map Tree.val ++ ret :: post.map .val, t.notOpr = true := by
    intro t ht
    simp only [List.mem_append, List.mem_cons, List.mem_map] at ht
    rcases ht with ⟨_, _, rfl⟩ | rfl | ⟨_, _, rfl⟩
    · rfl
    · exact hr
    · rfl
  rw [calls_body, bodyAs_ok]
  simp only [bodyAs_ok]
  constructor
  · rintro ⟨s1, s2, h1, h2, rfl⟩
    obtain ⟨us, s3, h3, h4⟩ := then_ok_iff.1 ((vals_node h.toRvals hno).1 h2)
    obtain ⟨w, h5, rfl⟩ := mapEach_one.1 h3
    obtain ⟨rfl, h6⟩ := vals_pure h h4
    exact ⟨w, ⟨s1, _, h1, h5, rfl⟩, h6 _⟩
  · rintro ⟨w, ⟨s1, s2, h1, h5, rfl⟩, h4⟩
    exact ⟨s1, s2, h1, (vals_node h.toRvals hno).2 (.ok (mapEach_one.2 ⟨w, h5, rfl⟩) ((vals_pure h h4).2 s2)), rfl⟩

/-! ### Functions without statements -/

/-- Expressions made of literals, arguments and operators without effects -/
inductive Simple : Tree → Prop
  | val (v : Val) : Simple (.val v)
  | lit (t : Tok) : t.kind ≠ .name → t.isLiteral = true → Simple (.tok t)
  | arg (c : Char) : c ∈ s% "abcdeg" → Simple (var [c])
  | node (o : Op) (ts : List Tree) : o.Pure → (∀ t ∈ ts, Simple t) → Simple (.node o ts)

theorem Simple.notOpr {t : Tree} (h : Simple t) : t.notOpr = true := by
  cases h <;> rfl

/-- The states agree on the arguments. -/
def SameArgs (s t : St X) : Prop := ∀ c ∈ s% "abcdeg", s.read [c] = t.read [c]

theorem plain_arg {c : Char} (h : c ∈ s% "abcdeg") : PlainVar [c] := by
  simp at h
  rcases h with rfl | rfl | rfl | rfl | rfl | rfl <;> exact ⟨by decide, by decide, by decide⟩

/-- The value of the expression depends only on the arguments, and computing it changes nothing. -/
def ArgsOnly (X : Ext) (t : Tree) : Prop := ∀ (s s' : St X) (v : Val), Vals t s (.ok v, s') →
  s' = s ∧ ∀ s2, SameArgs s s2 → Vals t s2 (.ok v, s2)

theorem mapEach_argsOnly {ts : List Tree} (ih : ∀ t ∈ ts, ArgsOnly X t) (s s' : St X) (vs : List Val)
    (h : MapEach Vals ts s (.ok vs, s')) : s' = s ∧ ∀ s2, SameArgs s s2 → MapEach Vals ts s2 (.ok vs, s2) := by
  induction ts generalizing vs with
  | nil =>
    cases h
    exact ⟨rfl, fun s2 _ => .nil⟩
  | cons t ts iht =>
    obtain ⟨w, s1, ws, h1, h2, rfl⟩ := mapEach_cons_ok.1 h
    obtain ⟨rfl, h3⟩ := ih t (by simp) _ _ _ h1
    obtain ⟨rfl, h4⟩ := iht (fun t ht => ih t (by simp [ht])) ws h2
    exact ⟨rfl, fun s2 hs => mapEach_cons_ok.2 ⟨w, s2, ws, h3 s2 hs, h4 s2 hs, rfl⟩⟩

theorem Simple.argsOnly {t : Tree} (h : Simple t) : ArgsOnly X t := by
  induction h with
  | val v =>
    intro s s' w hv
    have hv := vals_val.1 hv
    simp only [Prod.mk.injEq, Except.ok.injEq] at hv
    obtain ⟨rfl, rfl⟩ := hv
    exact ⟨rfl, fun s2 _ => vals_val.2 rfl⟩
  | lit t hk hl =>
    intro s s' w hv
    have key : ∀ s : St X, Vals (.tok t) s (.ok (literal t), s) := fun s =>
      vals_iff.2 (.ok (a := .v (literal t)) (evals_iff.2 (Iff.mpr (runs_eq (y := fun _ => pure (.v (literal t))) fun R => by
        simp [evalTree, hk, hl]) (runs_pure.2 rfl))) (runs_pure.2 rfl))
    have hv := hv.det (key s)
    simp only [Prod.mk.injEq, Except.ok.injEq] at hv
    obtain ⟨rfl, rfl⟩ := hv
    exact ⟨rfl, fun s2 _ => key s2⟩
  | arg c hc =>
    intro s s' w hv
    have hv := hv.det (Vals.var (plain_arg hc) s)
    simp only [Prod.mk.injEq, Except.ok.injEq] at hv
    obtain ⟨rfl, rfl⟩ := hv
    refine ⟨rfl, fun s2 hs => ?_⟩
    rw [hs c hc]
    exact Vals.var (plain_arg hc) s2
  | node o ts ho ht ih =>
    intro s s' w hv
    have hno : ∀ t ∈ ts, t.notOpr = true := fun t h => (ht t h).notOpr
    obtain ⟨vs, s1, h1, h2⟩ := then_ok_iff.1 ((vals_node ho.toRvals hno).1 hv)
    obtain ⟨rfl, h3⟩ := mapEach_argsOnly ih _ _ _ h1
    obtain ⟨rfl, h4⟩ := vals_pure ho h2
    exact ⟨rfl, fun s2 hs => (vals_node ho.toRvals hno).2 (.ok (h3 s2 hs) (h4 s2))⟩

theorem sameArgs_open (s t : St X) (g g' : Option Val) (args : List Val) :
    SameArgs (s.openScope g args) (t.openScope g' args) := by
  intro c hc
  have hl : isLocal [c] = true := by
    simp at hc
    rcases hc with rfl | rfl | rfl | rfl | rfl | rfl <;> decide +kernel
  have hf : ([c] : Str) ≠ s% "f" := by
    simp at hc
    rcases hc with rfl | rfl | rfl | rfl | rfl | rfl <;> decide
  simp only [St.read, St.var, hl, if_true, St.openScope, localVars, if_neg hf]

theorem closeScope_open (s : St X) (g : Option Val) (args : List Val) : (s.openScope g args).closeScope = s := by
  cases s
  simp [St.openScope, St.closeScope]

/-- A call of a simple function -/
theorem calls_simple {ret : Tree} (h : Simple ret) (g : Option Val) {args : List Val} {s s' : St X} {v : Val} :
    Calls (.block [] ret) args s (.ok v, s') ↔
      s' = s ∧ Vals ret (s.openScope g args) (.ok v, s.openScope g args) := by
  rw [calls_body, bodyAs_ok]
  constructor
  · rintro ⟨s1, s2, h1, h2, rfl⟩
    have h1 := runs_pure.1 h1
    simp only [Prod.mk.injEq, true_and] at h1
    subst h1
    obtain ⟨rfl, h3⟩ := h.argsOnly _ _ _ h2
    exact ⟨closeScope_open .., h3 _ (sameArgs_open s s _ _ _)⟩
  · rintro ⟨rfl, h1⟩
    exact ⟨_, _, runs_pure.2 rfl, (h.argsOnly _ _ _ h1).2 _ (sameArgs_open s' s' _ _ _), (closeScope_open ..).symm⟩

/-- The operand of an operator when the functions among the operands are called -/
def Operand (args : List Val) (u : Val) (s : St X) (out : Outcome X Val) : Prop :=
  match u with
  | .block stmts ret => Calls (.block stmts ret) args s out
  | u => out = (.ok u, s)

/-- **C28**, for any number of functions among the operands, without statements and made of literals, arguments and
operators without effects: calling the result is calling the functions and applying the operator. -/
theorem C28_commutes (o : Op) (h : o.Pure) (hl : o.inLambda = true) (us : List Val) (hu : ∃ u ∈ us, u.isBlock = true)
    (hs : ∀ stmts ret, .block stmts ret ∈ us → stmts = [] ∧ Simple ret) :
    ∃ L : Val, (∀ s : St X, Vals (.node o (us.map .val)) s (.ok L, s)) ∧
      ∀ (args : List Val) (s s' : St X) (v : Val), Calls L args s (.ok v, s') ↔
        ∃ ws, MapEach (Operand args) us s (.ok ws, s') ∧ Vals (.node o (ws.map .val)) s' (.ok v, s') := by
  refine ⟨_, vals_lambda h.toRvals hl hu, fun args s s' v => ?_⟩
  have h1 : (us.map Tree.val).flatMap stmtsOf = [] := by
    rw [List.flatMap_eq_nil_iff]
    intro t ht
    obtain ⟨u, hu, rfl⟩ := List.mem_map.1 ht
    cases u with
    | block stmts ret => exact (hs _ _ hu).1
    | _ => rfl
  have h2 : ∀ t ∈ (us.map Tree.val).map retOf, Simple t := by
    intro t ht
    simp only [List.map_map, List.mem_map, Function.comp] at ht
    obtain ⟨u, hu, rfl⟩ := ht
    cases u with
    | block stmts ret => exact (hs _ _ hu).2
    | _ => exact .val _
  have key : ∀ (us : List Val) (g : Option Val), (∀ stmts ret, .block stmts ret ∈ us → stmts = [] ∧ Simple ret) →
      ∀ (s s' : St X) (ws : List Val), MapEach (Operand args) us s (.ok ws, s') ↔ s' = s ∧
        MapEach Vals ((us.map Tree.val).map retOf) (s.openScope g args) (.ok ws, s.openScope g args) := by
    intro us g
    induction us with
    | nil =>
      intro _ s s' ws
      constructor
      · rintro ⟨⟩
        exact ⟨rfl, .nil⟩
      · rintro ⟨rfl, h⟩
        cases h
        exact .nil
    | cons u us ih =>
      intro hs s s' ws
      have ih := ih fun stmts ret h => hs stmts ret (by simp [h])
      have hu : ∀ (s s' : St X) (w : Val), Operand args u s (.ok w, s') ↔ s' = s ∧
          Vals (retOf (.val u)) (s.openScope g args) (.ok w, s.openScope g args) := by
        intro s s' w
        cases u with
        | block stmts ret =>
          obtain ⟨rfl, hr⟩ := hs _ _ (List.mem_cons_self ..)
          exact calls_simple hr g
        | _ =>
          simp only [Operand, retOf, vals_val, Prod.mk.injEq, Except.ok.injEq, and_true]
          exact and_comm
      simp only [List.map_cons]
      constructor
      · intro hm
        obtain ⟨y, s1, zs, h1, h2, rfl⟩ := mapEach_cons_ok.1 hm
        obtain ⟨rfl, h1⟩ := (hu _ _ _).1 h1
        obtain ⟨rfl, h2⟩ := (ih _ _ _).1 h2
        exact ⟨rfl, mapEach_cons_ok.2 ⟨y, _, zs, h1, h2, rfl⟩⟩
      · rintro ⟨rfl, hm⟩
        obtain ⟨y, s1, zs, h1, h2, rfl⟩ := mapEach_cons_ok.1 hm
        have hy : Simple (retOf (.val u)) := by
          cases u with
          | block stmts ret => exact (hs _ _ (List.mem_cons_self ..)).2
          | _ => exact .val _
        obtain ⟨rfl, _⟩ := hy.argsOnly _ _ _ h1
        exact mapEach_cons_ok.2 ⟨y, _, zs, (hu _ _ _).2 ⟨rfl, h1⟩, (ih _ _ _).2 ⟨rfl, h2⟩, rfl⟩
  unfold lambdaOf
  rw [h1, calls_simple (.node o _ h h2) none]
  constructor
  · rintro ⟨rfl, hv⟩
    obtain ⟨ws, s1, h3, h4⟩ := then_ok_iff.1 ((vals_node h.toRvals fun t ht => (h2 t ht).notOpr).1 hv)
    obtain ⟨rfl, _⟩ := mapEach_argsOnly (fun t ht => (h2 t ht).argsOnly) _ _ _ h3
    exact ⟨ws, (key us none hs _ _ _).2 ⟨rfl, h3⟩, (vals_pure h h4).2 _⟩
  · rintro ⟨ws, h3, h4⟩
    obtain ⟨rfl, h3⟩ := (key us none hs _ _ _).1 h3
    exact ⟨rfl, (vals_node h.toRvals fun t ht => (h2 t ht).notOpr).2 (.ok h3 ((vals_pure h h4).2 _))⟩

/-- The operators of the table that C28 covers. The others that build functions choose at random, use regexes or take
lvalues. -/
theorem C28_table : ∀ o ∈ ops1 ++ ops2 ++ ops3, o.inLambda = true → o.rvals = true → isRaw o.fn = false →
    isEffect o.fn = false → o.Pure := by
  have : ∀ o ∈ ops1 ++ ops2 ++ ops3, o.inLambda = true → o.rvals = true → isRaw o.fn = false →
    isEffect o.fn = false → o.assign = false ∧ o.map = false ∧ o.fold = false ∧
    o.scan = false ∧ o.fn ≠ .PARENTHESIZE := by decide +kernel
  intro o ho hl hr h1 h2
  obtain ⟨h3, h4, h5, h6, h7⟩ := this o ho hl hr h1 h2
  exact { rvals := hr, assign := h3, map := h4, fold := h5, scan := h6, fn := h7, raw := h1, effect := h2 }

/-- How many these are -/
example : ((ops1 ++ ops2 ++ ops3).filter fun o => o.inLambda && o.rvals && !isRaw o.fn && !isEffect o.fn).length = 164 ∧
    ((ops1 ++ ops2 ++ ops3).filter fun o => o.inLambda).length = 192 := by decide +kernel

theorem plus_pure : (op2 (s% "+")).Pure :=
  C28_table _ (by decide +kernel) (by decide +kernel) (by decide +kernel) (by decide +kernel) (by decide +kernel)

/-- `{a*3}+1` and `{Pa a*3}+_` -/
example : ∃ u ∈ [Val.block [] (.node (op2 (s% "*")) [var (s% "a"), .tok ⟨.num, s% "3"⟩]), .scalar (s% "1")], u.isBlock = true :=
  ⟨_, List.mem_cons_self .., rfl⟩
example : Simple (.node (op2 (s% "+")) [var (s% "a"), .tok ⟨.num, s% "3"⟩]) := by
  refine .node _ _ plus_pure fun t ht => ?_
  simp only [List.mem_cons, List.not_mem_nil, or_false] at ht
  rcases ht with rfl | rfl
  · exact .arg 'a' (by decide)
  · exact .lit _ (by decide) (by decide)
example : toyOut (s% "y:{Pa a*3}+1P(y4)z:_+{b*a}P(z5 6)") [] [] = some (s% "4\n13\n35\n35\n") := by decide +kernel

/-- The running function inside is the one that was built, so a function that calls itself behaves differently: `f` is
`{a?a+(fa-1)0}` with 10 added at every level. -/
example : toyOut (s% "y:{a?a+(fa-1)0}z:y+10P(y3)P(z3)") [] [] = some (s% "6\n46\n46\n") := by decide +kernel

end Pip
