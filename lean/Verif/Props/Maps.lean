import Verif.Props.Func
import Verif.Props.Meta
import Verif.Props.Patterns
import Verif.Props.Table
/-!
# C82, C83: the variants of mapping and filtering
-/

namespace Pip
variable {X : Ext}

/-! ### Specifications -/

/-- Mapping `f` over one item of the operand of `MM`: the results for its items, nil if it has none. -/
inductive MapsItem (f : Val) : Val → St X → Outcome X Val → Prop
  | iterable {x : Val} {l : List Val} {s : St X} {r : Outcome X (List Val)} : x.isIterable = true → x.items = .ok l →
    MapEach (fun y => Calls f [y]) l s r → MapsItem f x s (r.map .list)
  | other {x : Val} {s : St X} : x.isIterable = false → MapsItem f x s (.ok .nil, s)

/-- The arguments an item is unpacked into -/
inductive Unpacks : Val → List Val → Prop
  | iterable {x : Val} {l : List Val} : x.isIterable = true → x.items = .ok l → Unpacks x l
  | infinite {lo : Option Int} : Unpacks (.range lo none) []
  | nil : Unpacks .nil []
  | block {st : List Tree} {ret : Tree} : Unpacks (.block st ret) []

/-- One call by `MR`: the match variables are set, then the function is called with the match and its groups. -/
def CallsMatch (f : Val) (string : Str) (q : Match) (s : St X) (r : Outcome X Val) : Prop :=
  ∃ s', MatchVars string q s s' ∧ Calls f (.scalar q.all :: q.groups.map groupVal) s' r

/-! ### An operator after an operator -/

/-- What `M`, `FI` and `FN` return -/
def plainRes (x : M X Res) : Prop := ∀ s u s', x s = (.ok u, s') → ∃ v, u = .v v ∧ v.isBlock = false ∧ v.isRange = false

theorem plainRes_pure {v : Val} (h : v.isBlock = false ∧ v.isRange = false) : plainRes (X := X) (pure (.v v)) := by
  intro s u s' e
  simp only [M.pure_apply, Prod.mk.injEq, Except.ok.injEq] at e
  exact ⟨v, e.1.symm, h⟩

theorem plainRes_bind {α : Type} {x : M X α} {f : α → M X Res} (h : ∀ a, plainRes (f a)) : plainRes (x >>= f) := by
  intro s u s' e
  rw [M.bind_apply] at e
  rcases hx : x s with ⟨r | r, s1⟩
  · rw [hx] at e
    cases e
  · rw [hx] at e
    exact h _ _ _ _ e

theorem plainRes_throw (e : Exc) : plainRes (X := X) (M.throw e) := by
  intro s u s' h
  cases h

theorem plainRes_map (R : Rec X) (a b : Val) : plainRes (opMAP R a b) := by
  unfold opMAP
  dsimp only
  repeat' first
    | exact plainRes_bind fun _ => plainRes_pure (v := .list _) ⟨rfl, rfl⟩
    | exact plainRes_pure (v := .nil) ⟨rfl, rfl⟩
    | split

theorem plainRes_filter (R : Rec X) (want : Bool) (a b : Val) : plainRes (opFILTER R want a b) := by
  unfold opFILTER
  split
  · exact plainRes_bind fun _ => plainRes_pure (v := .list _) ⟨rfl, rfl⟩
  · exact plainRes_pure (v := .nil) ⟨rfl, rfl⟩

theorem plainRes_filter1 (want : Bool) (a : Val) : plainRes (X := X) (liftRes (filterTrue want a)) := by
  unfold liftRes filterTrue
  split
  · cases hi : a.items with
    | error e => exact plainRes_throw e
    | ok l => exact plainRes_pure (v := .list _) ⟨rfl, rfl⟩
  · exact plainRes_pure (v := .nil) ⟨rfl, rfl⟩

theorem plainRes_valOp_map (R : Rec X) (vs : List Val) : plainRes (valOp R .MAP vs) := by
  match vs with
  | [a, b] => exact plainRes_map R a b
  | [] => exact plainRes_throw _
  | [_] => exact plainRes_throw _
  | _ :: _ :: _ :: _ => exact plainRes_throw _

theorem plainRes_valOp_filter (R : Rec X) (vs : List Val) : plainRes (valOp R .FILTER vs) := by
  match vs with
  | [a, b] => exact plainRes_filter R true a b
  | [] => exact plainRes_throw _
  | [a] => exact plainRes_filter1 true a
  | _ :: _ :: _ :: _ => exact plainRes_throw _

theorem died_map_ok {α : Type} {a : α} {s : St X} : died ((.ok a, s) : Outcome X α) = (.ok a, s) := rfl

theorem died_died {α : Type} (o : Outcome X α) : died (died o) = died o := by
  rcases o with ⟨e | a, s⟩
  · cases e <;> rfl
  · rfl

theorem runs_thenPure {x : Rec X → M X Res} (hx : Mono x) (hp : ∀ R, plainRes (x R)) (g : Val → Except Exc Val) {s : St X}
    {r : Outcome X Res} : Runs (fun R => thenPure (x R) g) s r ↔
      Then (Runs x) (fun u s r => ∃ v, u = .v v ∧ v.isBlock = false ∧ v.isRange = false ∧ Runs (fun _ => liftRes (g v)) s r) s r := by
  refine (runs_bind hx (f := fun u _ => needVal u >>= fun v => liftRes (g v))).trans ?_
  constructor
  · rintro (⟨h1, h2⟩ | h1)
    · obtain ⟨_, n, hn⟩ := id h1
      obtain ⟨v, rfl, hb, hr⟩ := hp _ _ _ _ (hn n (Nat.le_refl n))
      exact .ok h1 ⟨v, rfl, hb, hr, h2⟩
    · exact .fail h1
  · rintro (⟨h1, v, rfl, hb, hr, h2⟩ | h1)
    · exact .ok h1 h2
    · exact .fail h1

/-- An operator that applies the function of `q` to the result of `o` -/
theorem evals_after {o p q : Op} (ho : o.Direct) (hp : p.Direct) (hq : q.Rvals) (hraw : isRaw q.fn = false)
    (hres : ∀ (R : Rec X) vs, plainRes (valOp R o.fn vs)) {g : Val → Except Exc Val}
    (hg : ∀ (R : Rec X) v, valOp R q.fn [v] = liftRes (g v)) (hl : q.listEach = false)
    (hc : ∀ (R : Rec X) vs, valOp R p.fn vs = thenPure (valOp R o.fn vs) g) {ts : List Tree} (ht : ∀ t ∈ ts, t.notOpr = true)
    {s : St X} {out : Outcome X Res} : Evals (.node p ts) s out ↔ Evals (.node q [.node o ts]) s out := by
  have direct : ∀ {o : Op} (_ : o.Direct) (vs : List Val) (s : St X) (out : Outcome X Res),
      Applied o (vs.map .val) s out ↔ ∃ r, Runs (fun R => valOp R o.fn vs) s r ∧ out = died r := by
    intro o ho vs s out
    rw [← evals_applied ho.toRvals, ho.evals (by simp [Tree.notOpr]) (mapEach_vals_val vs s)]
  have last : ∀ (v : Val) (_ : v.isBlock = false) (_ : v.isRange = false) (s : St X) (out : Outcome X Res),
      Applied q [.val v] s out ↔ ∃ r, Runs (fun _ => liftRes (g v)) s r ∧ out = died r := by
    intro v hb hr s out
    have := evals_applied (X := X) hq [v] (s := s) (r := out)
    rw [List.map_cons, List.map_nil] at this
    rw [← this, evals_direct hq hraw (ts := [.val v]) (by simp [Tree.notOpr]) (mapEach_vals_val [v] s) (by simp [hb])
      (by simp [expands, hr, hl])]
    simp only [hg]
  rw [evals_rvals hp.toRvals ht, evals_rvals hq (by simp [Tree.notOpr])]
  have single : ∀ (t : Tree) (s : St X) (out : Outcome X Res), Then (MapEach Vals [t]) (fun vs => Applied q (vs.map .val)) s out ↔
      Then (Vals t) (fun v => Applied q [.val v]) s out := by
    intro t s out
    constructor
    · rintro (⟨h1, h2⟩ | h1)
      · obtain ⟨y, s3, zs, h3, h4, rfl⟩ := mapEach_cons_ok.1 h1
        cases h4
        exact .ok h3 h2
      · generalize ho : ((.error _, _) : Outcome X (List Val)) = o at h1
        cases h1 with
        | next h3 h4 => cases h4; cases ho
        | fail h3 => cases ho; exact .fail h3
    · rintro (⟨h1, h2⟩ | h1)
      · exact .ok (mapEach_single h1) h2
      · exact .fail (.fail h1)
  rw [single]
  refine Iff.trans ?_ (then_congr_left fun _ _ => vals_iff).symm
  refine Iff.trans ?_ then_assoc.symm
  refine Iff.trans ?_ (then_congr_left fun _ _ => evals_rvals ho.toRvals ht).symm
  refine Iff.trans ?_ then_assoc.symm
  refine then_congr fun vs s out => ?_
  rw [direct hp]
  have hm : Mono fun R : Rec X => valOp R o.fn vs := fun C _ _ h => Cong.valOp h _ _
  simp only [hc]
  constructor
  · rintro ⟨r, h, rfl⟩
    rcases (runs_thenPure hm (fun R => hres R vs) g).1 h with ⟨h1, v, rfl, hb, hr, h2⟩ | h1
    · exact .ok ((direct ho vs _ _).2 ⟨_, h1, rfl⟩) (.ok (runs_pure.2 rfl) ((last v hb hr _ _).2 ⟨_, h2, rfl⟩))
    · rename_i s1 e
      have h3 := (direct ho vs _ _).2 ⟨_, h1, rfl⟩
      generalize hd : died ((.error e, s1) : Outcome X Res) = d at h3
      have hd' : died ((.error e, s1) : Outcome X Res) = d := hd
      cases e <;> · cases hd; exact .fail h3
  · intro h
    have : ∃ r, Then (Runs fun R => valOp R o.fn vs) (fun u s r => ∃ v, u = .v v ∧ v.isBlock = false ∧ v.isRange = false ∧
        Runs (fun _ => liftRes (g v)) s r) s r ∧ out = died r := by
      cases h with
      | ok h1 h2 =>
        obtain ⟨r, h3, h4⟩ := (direct ho vs _ _).1 h1
        obtain rfl := died_ok.1 h4
        obtain ⟨_, n, hn⟩ := id h3
        obtain ⟨v, rfl, hb, hr⟩ := hres _ _ _ _ _ (hn n (Nat.le_refl n))
        have e : (resRval (Res.v v) : M X Val) = pure v := rfl
        simp only [e] at h2
        rcases h2 with ⟨h5, h6⟩ | h5
        · have := runs_pure.1 h5
          simp only [Prod.mk.injEq, Except.ok.injEq] at this
          obtain ⟨rfl, rfl⟩ := this
          obtain ⟨r, h7, h8⟩ := (last _ hb hr _ _).1 h6
          exact ⟨r, .ok h3 ⟨_, rfl, hb, hr, h7⟩, h8⟩
        · cases runs_pure.1 h5
      | fail h1 =>
        obtain ⟨⟨e | a, s1⟩, h3, h4⟩ := (direct ho vs _ _).1 h1
        · refine ⟨(.error e, s1), .fail h3, ?_⟩
          cases e <;> · simp only [died, Prod.mk.injEq, Except.error.injEq] at h4 ⊢; exact ⟨h4.1, h4.2⟩
        · cases h4
    obtain ⟨r, h1, h2⟩ := this
    exact ⟨r, (runs_thenPure hm (fun R => hres R vs) g).2 h1, h2⟩

/-! ### C82 -/

theorem valOp_join (R : Rec X) (v : Val) : valOp R .JOIN [v] = liftRes (opJOIN v none) := by
  show liftOpt (opJOIN v none >>= fun r => pure (some r)) = _
  cases opJOIN v none <;> rfl

theorem valOp_flatten (R : Rec X) (v : Val) : valOp R .FLATTEN [v] = liftRes (opFLATTEN v) := by
  show liftOpt (opFLATTEN v >>= fun r => pure (some r)) = _
  cases opFLATTEN v <;> rfl

theorem after_map_join (R : Rec X) (vs : List Val) : valOp R .MAPJOIN vs = thenPure (valOp R .MAP vs) (opJOIN · none) := by
  match vs with
  | [a, b] => rfl
  | [] => rfl
  | [_] => rfl
  | _ :: _ :: _ :: _ => rfl

theorem after_map_flatten (R : Rec X) (vs : List Val) : valOp R .MAPFLATTEN vs = thenPure (valOp R .MAP vs) opFLATTEN := by
  match vs with
  | [a, b] => rfl
  | [] => rfl
  | [_] => rfl
  | _ :: _ :: _ :: _ => rfl

theorem after_filter_join (R : Rec X) (vs : List Val) : valOp R .FILTERJOIN vs = thenPure (valOp R .FILTER vs) (opJOIN · none) := by
  match vs with
  | [a, b] => rfl
  | [] => rfl
  | [_] => rfl
  | _ :: _ :: _ :: _ => rfl

/-- `a MJ b` is `J(a M b)`, for all operands. -/
theorem C82_map_join (a b : Tree) (ha : a.notOpr = true) (hb : b.notOpr = true) (s : St X) (out : Outcome X Res) :
    Evals (.node (op2 (s% "MJ")) [a, b]) s out ↔ Evals (.node (op1 (s% "J")) [.node (op2 (s% "M")) [a, b]]) s out := by
  have h1 : (op2 (s% "M")).Direct ∧ (op2 (s% "MJ")).Direct := by decide +kernel
  have h2 : (op1 (s% "J")).Rvals := by constructor <;> decide +kernel
  have e1 : (op2 (s% "M")).fn = .MAP := by decide +kernel
  have e2 : (op2 (s% "MJ")).fn = .MAPJOIN := by decide +kernel
  have e3 : (op1 (s% "J")).fn = .JOIN := by decide +kernel
  refine evals_after h1.1 h1.2 h2 (by rw [e3]; rfl) (g := (opJOIN · none)) ?_ ?_ (by decide +kernel) ?_ (by simp [ha, hb])
  · rw [e1]; exact plainRes_valOp_map
  · rw [e3]; exact valOp_join
  · rw [e1, e2]; exact after_map_join

/-- `a MF b` is `FL(a M b)`, for all operands. -/
theorem C82_map_flatten (a b : Tree) (ha : a.notOpr = true) (hb : b.notOpr = true) (s : St X) (out : Outcome X Res) :
    Evals (.node (op2 (s% "MF")) [a, b]) s out ↔ Evals (.node (op1 (s% "FL")) [.node (op2 (s% "M")) [a, b]]) s out := by
  have h1 : (op2 (s% "M")).Direct ∧ (op2 (s% "MF")).Direct := by decide +kernel
  have h2 : (op1 (s% "FL")).Rvals := by constructor <;> decide +kernel
  have e1 : (op2 (s% "M")).fn = .MAP := by decide +kernel
  have e2 : (op2 (s% "MF")).fn = .MAPFLATTEN := by decide +kernel
  have e3 : (op1 (s% "FL")).fn = .FLATTEN := by decide +kernel
  refine evals_after h1.1 h1.2 h2 (by rw [e3]; rfl) (g := opFLATTEN) ?_ ?_ (by decide +kernel) ?_ (by simp [ha, hb])
  · rw [e1]; exact plainRes_valOp_map
  · rw [e3]; exact valOp_flatten
  · rw [e1, e2]; exact after_map_flatten

/-- `a FJ b` is `J(a FI b)`, and `FJ a` is `J FI a`. -/
theorem C82_filter_join (a b : Tree) (ha : a.notOpr = true) (hb : b.notOpr = true) (s : St X) (out : Outcome X Res) :
    (Evals (.node (op2 (s% "FJ")) [a, b]) s out ↔ Evals (.node (op1 (s% "J")) [.node (op2 (s% "FI")) [a, b]]) s out) ∧
    (Evals (.node (op1 (s% "FJ")) [a]) s out ↔ Evals (.node (op1 (s% "J")) [.node (op1 (s% "FI")) [a]]) s out) := by
  have h1 : ((op2 (s% "FI")).Direct ∧ (op2 (s% "FJ")).Direct) ∧ (op1 (s% "FI")).Direct ∧ (op1 (s% "FJ")).Direct := by decide +kernel
  have h2 : (op1 (s% "J")).Rvals := by constructor <;> decide +kernel
  have e1 : (op2 (s% "FI")).fn = .FILTER ∧ (op1 (s% "FI")).fn = .FILTER := by decide +kernel
  have e2 : (op2 (s% "FJ")).fn = .FILTERJOIN ∧ (op1 (s% "FJ")).fn = .FILTERJOIN := by decide +kernel
  have e3 : (op1 (s% "J")).fn = .JOIN := by decide +kernel
  constructor
  · refine evals_after h1.1.1 h1.1.2 h2 (by rw [e3]; rfl) (g := (opJOIN · none)) ?_ ?_ (by decide +kernel) ?_ (by simp [ha, hb])
    · rw [e1.1]; exact plainRes_valOp_filter
    · rw [e3]; exact valOp_join
    · rw [e1.1, e2.1]; exact after_filter_join
  · refine evals_after h1.2.1 h1.2.2 h2 (by rw [e3]; rfl) (g := (opJOIN · none)) ?_ ?_ (by decide +kernel) ?_ (by simp [ha])
    · rw [e1.2]; exact plainRes_valOp_filter
    · rw [e3]; exact valOp_join
    · rw [e1.2, e2.2]; exact after_filter_join

example : toyOut (s% "P{a.0}MJ[1 2]P{[aa]}MF[1 2]P{a>1}FJ[1 2 3]PFJ[4 0 5]") [] [] =
    some (s% "1020\n1122\n23\n45\n45\n") := by decide +kernel

/-- The results of a mapping are joined to a string. -/
theorem C82_join_strings (a b : Tree) (s s1 s2 s3 : St X) (v w f : Val) (l : List Val) (ts : List Str) (ha : a.notOpr = true)
    (hb : b.notOpr = true) (hv : Vals a s (.ok v, s1)) (hw : Vals b s1 (.ok w, s2)) (h : FnAndItems v w f l)
    (hc : MapEach (fun x => Calls f [x]) l s2 (.ok (ts.map .scalar), s3)) :
    Vals (.node (op2 (s% "MJ")) [a, b]) s (.ok (.scalar ts.flatten), s3) := by
  have ho : (op2 (s% "MJ")).Direct := by decide +kernel
  refine .of_evals ((ho.evals (by simp [ha, hb]) (mapEach_two hv hw)).2 ⟨(.ok (.v (.scalar ts.flatten)), s3), ?_, rfl⟩)
  rw [show (op2 (s% "MJ")).fn = .MAPJOIN by decide +kernel]
  refine (runs_thenPure (x := fun R => opMAP R v w) (fun C _ _ h => Cong.valOp h .MAP [v, w]) (fun R => plainRes_map R v w) _).2
    (.ok (a := .v (.list (ts.map .scalar))) (s1 := s3) ((runs_eq fun R => congrFun (opMAP_fn R h) s2).2
      ((runs_calls f (fun x => [x]) (fun vs => .v (.list vs)) l).2 ⟨_, hc, rfl⟩)) ⟨_, rfl, rfl, rfl, ?_⟩)
  have : opJOIN (.list (ts.map .scalar)) none = .ok (.scalar ts.flatten) := by
    have := joinPy_none ts
    rw [joinPy] at this
    simp only [opJOIN, join1, Option.any_none, Bool.false_eq_true, if_false, this]
  rw [this]
  exact runs_pure.2 rfl

theorem plus_ints (i j : Int) (s : St X) : Evals (.node plusOp [.val (ofInt i), .val (ofInt j)]) s (.ok (.v (ofInt (i + j))), s) := by
  have h : plusOp.Rvals := by constructor <;> decide +kernel
  have hf : plusOp.fn = .ADD := by decide +kernel
  refine (evals_direct h (by rw [hf]; rfl) (by simp [Tree.notOpr]) (mapEach_vals_val [ofInt i, ofInt j] s)
    (by simp [ofInt, Val.isBlock]) (by simp [expands, ofInt, Val.isList, Val.isRange])).2 ⟨(.ok (.v (ofInt (i + j))), s), ?_, rfl⟩
  rw [hf]
  have := (C40_exact X i j).1
  refine (runs_eq (y := fun _ => pure (.v (ofInt (i + j)))) fun R => ?_).2 (runs_pure.2 rfl)
  show liftOpt (opADD X (ofInt i) (ofInt j) >>= fun r => pure (some r)) s = _
  rw [this]
  rfl

theorem runs_sum (is : List Int) : ∀ (i : Int) (s : St X),
    Runs (fun R => foldL (evL R plusOp) (.v (ofInt i)) (is.map ofInt)) s (.ok (.v (ofInt (i + is.sum))), s) := by
  induction is with
  | nil => exact fun i s => runs_pure.2 (by simp)
  | cons j is ih =>
    intro i s
    refine Runs.then (x := fun R => evL R plusOp (.v (ofInt i)) (ofInt j)) (f := fun r R => foldL (evL R plusOp) r (is.map ofInt))
      (plus_ints i j s) ?_
    have := ih (i + j) s
    rw [show i + (j :: is).sum = i + j + is.sum by simp; omega]
    exact this

theorem runs_mapsum {v w f : Val} {l vs : List Val} {s2 s3 : St X} (h : FnAndItems v w f l)
    (hc : MapEach (fun x => Calls f [x]) l s2 (.ok vs, s3)) (r : Outcome X Res) :
    Runs (fun R => valOp R .MAPSUM [v, w]) s2 r ↔ Runs (fun R => foldL (evL R plusOp) (.v (ofInt 0)) vs) s3 r := by
  have h1 : Runs (fun R => opMAP R v w) s2 (.ok (.v (.list vs)), s3) :=
    (runs_eq fun R => congrFun (opMAP_fn R h) s2).2 ((runs_calls f (fun x => [x]) (fun vs => .v (.list vs)) l).2 ⟨_, hc, rfl⟩)
  exact runs_bind_of h1 (f := fun r R => needVal r >>= fun v => M.lift v.items >>= fun l => foldL (evL R plusOp) (.v (.scalar (s% "0"))) l)

theorem blur_died {α : Type} (o : Outcome X α) : blur (died o) = blur o := by
  rcases o with ⟨e | a, s⟩
  · cases e <;> rfl
  · rfl

/-- `f MS l`: 0 plus the results of `f`, added from the left. -/
theorem C82_sum (a b : Tree) (s s1 s2 s3 : St X) (v w f : Val) (l vs : List Val) (ha : a.notOpr = true)
    (hb : b.notOpr = true) (hv : Vals a s (.ok v, s1)) (hw : Vals b s1 (.ok w, s2)) (h : FnAndItems v w f l)
    (hc : MapEach (fun x => Calls f [x]) l s2 (.ok vs, s3)) (out : Outcome X Res) :
    Upto (Evals (.node (op2 (s% "MS")) [a, b])) s out ↔
      Upto (Evals (leftTree (op2 (s% "+")) (.val (ofInt 0)) vs)) s3 out := by
  have ho : (op2 (s% "MS")).Direct := by decide +kernel
  have hp : (op2 (s% "+")).Plain := plain_of_table (by decide +kernel)
  rw [← runs_foldL_left hp vs (.val (ofInt 0)) rfl, then_val]
  have key := fun out => ho.evals (by simp [ha, hb]) (mapEach_two hv hw) (out := out)
  rw [show (op2 (s% "MS")).fn = .MAPSUM by decide +kernel] at key
  constructor
  · rintro ⟨o', h1, rfl⟩
    obtain ⟨r, h2, rfl⟩ := (key _).1 h1
    exact ⟨r, (runs_mapsum h hc r).1 h2, blur_died r⟩
  · rintro ⟨r, h1, rfl⟩
    exact ⟨died r, (key _).2 ⟨r, (runs_mapsum h hc r).2 h1, rfl⟩, (blur_died r).symm⟩

/-- For integer results, `MS` gives their sum. -/
theorem C82_sum_integers (a b : Tree) (s s1 s2 s3 : St X) (v w f : Val) (l : List Val) (is : List Int) (ha : a.notOpr = true)
    (hb : b.notOpr = true) (hv : Vals a s (.ok v, s1)) (hw : Vals b s1 (.ok w, s2)) (h : FnAndItems v w f l)
    (hc : MapEach (fun x => Calls f [x]) l s2 (.ok (is.map ofInt), s3)) :
    Vals (.node (op2 (s% "MS")) [a, b]) s (.ok (ofInt is.sum), s3) := by
  have ho : (op2 (s% "MS")).Direct := by decide +kernel
  refine .of_evals ((ho.evals (by simp [ha, hb]) (mapEach_two hv hw)).2 ⟨(.ok (.v (ofInt is.sum)), s3), ?_, rfl⟩)
  rw [show (op2 (s% "MS")).fn = .MAPSUM by decide +kernel]
  have := runs_sum is 0 s3
  rw [Int.zero_add] at this
  exact (runs_mapsum h hc _).2 this

/-- The documentation says that `a MS b` is `$+(a M b)`; for a single result that is no number it is not. -/
theorem C82_sum_fold : toyOut (s% "P{\"x\"}MS[1]") [] [] = some (s% "0\n0\n") ∧
    toyOut (s% "P$+({\"x\"}M[1])") [] [] = some (s% "x\nx\n") := by
  exact ⟨by decide +kernel, by decide +kernel⟩

example : toyOut (s% "P{a*a}MS[1 2 3]") [] [] = some (s% "14\n14\n") := by decide +kernel

/-! ### C83 -/

theorem FnAndItems.isFn {v w f : Val} {l : List Val} (h : FnAndItems v w f l) : ∃ st ret, f = .block st ret := by
  cases h <;> exact ⟨_, _, rfl⟩

/-- `f MU l` calls `f` with the items of each item as arguments. -/
theorem C83_unpack (a b : Tree) (s s1 s2 : St X) (v w f : Val) (l : List Val) (args : Val → List Val) (ha : a.notOpr = true)
    (hb : b.notOpr = true) (hv : Vals a s (.ok v, s1)) (hw : Vals b s1 (.ok w, s2)) (h : FnAndItems v w f l)
    (hu : ∀ x ∈ l, Unpacks x (args x)) (out : Outcome X Res) :
    Evals (.node (op2 (s% "MU")) [a, b]) s out ↔ ∃ r : Outcome X (List Val), MapEach (fun x => Calls f (args x)) l s2 r ∧
      out = died (r.map fun vs => .v (.list vs)) := by
  have ho : (op2 (s% "MU")).Direct := by decide +kernel
  obtain ⟨it, h1, h2, h3⟩ := h.iter
  rw [ho.evals (by simp [ha, hb]) (mapEach_two hv hw), show (op2 (s% "MU")).fn = .MAPUNPACK by decide +kernel]
  have hun : ∀ x ∈ l, unpack false x = args x := by
    intro x hx
    have := hu x hx
    generalize args x = m at this
    cases this with
    | iterable h4 h5 => simp [unpack, Val.pyList, items_iter h5]
    | _ => rfl
  refine exists_died fun r => Iff.trans (runs_eq fun R => ?_) ((runs_calls f (unpack false) (fun vs => .v (.list vs)) l).trans
    (exists_congr fun r' => and_congr_left fun _ => mapEach_congr fun x hx s o => by rw [hun x hx]))
  simp only [valOp, opMAPUNPACK, h1, mapV, h3]

/-- `MU` unpacks Patterns as well, into Scalars of one character each (`FU` does not). -/
theorem C83_unpack_pattern (a b : Tree) (s s1 s2 : St X) (v w f : Val) (l : List Val) (args : Val → List Val) (ha : a.notOpr = true)
    (hb : b.notOpr = true) (hv : Vals a s (.ok v, s1)) (hw : Vals b s1 (.ok w, s2)) (h : FnAndItems v w f l)
    (hu : ∀ x ∈ l, Unpacks x (args x) ∨ ∃ r g, x = .pattern r g ∧ args x = r.map fun c => .scalar [c])
    (out : Outcome X Res) :
    Evals (.node (op2 (s% "MU")) [a, b]) s out ↔ ∃ r : Outcome X (List Val), MapEach (fun x => Calls f (args x)) l s2 r ∧
      out = died (r.map fun vs => .v (.list vs)) := by
  have ho : (op2 (s% "MU")).Direct := by decide +kernel
  obtain ⟨it, h1, h2, h3⟩ := h.iter
  rw [ho.evals (by simp [ha, hb]) (mapEach_two hv hw), show (op2 (s% "MU")).fn = .MAPUNPACK by decide +kernel]
  have hun : ∀ x ∈ l, unpack false x = args x := by
    intro x hx
    rcases hu x hx with this | ⟨r, g, rfl, e⟩
    · generalize args x = m at this
      cases this with
      | iterable h4 h5 => simp [unpack, Val.pyList, items_iter h5]
      | _ => rfl
    · rw [e]
      rfl
  refine exists_died fun r => Iff.trans (runs_eq fun R => ?_) ((runs_calls f (unpack false) (fun vs => .v (.list vs)) l).trans
    (exists_congr fun r' => and_congr_left fun _ => mapEach_congr fun x hx s o => by rw [hun x hx]))
  simp only [valOp, opMAPUNPACK, h1, mapV, h3]

example : toyOut (s% "({a.\",\".b}MU[`xy`])@0") [] [] = some (s% "x,y\n") := by decide +kernel

/-- `f FU l`: the items for which `f`, called with the items of the item, is true. -/
theorem C83_filter_unpack (a b : Tree) (s s1 s2 : St X) (v w f : Val) (l : List Val) (args : Val → List Val)
    (ha : a.notOpr = true) (hb : b.notOpr = true) (hv : Vals a s (.ok v, s1)) (hw : Vals b s1 (.ok w, s2)) (h : FnAndItems v w f l)
    (hu : ∀ x ∈ l, Unpacks x (args x)) (out : Outcome X Res) :
    Evals (.node (op2 (s% "FU")) [a, b]) s out ↔ ∃ r : Outcome X (List Val),
      FilterEach (fun x => CallsTruth true f (args x)) l s2 r ∧ out = died (r.map fun vs => .v (.list vs)) := by
  have ho : (op2 (s% "FU")).Direct := by decide +kernel
  obtain ⟨it, h1, h2, h3⟩ := h.iter
  rw [ho.evals (by simp [ha, hb]) (mapEach_two hv hw), show (op2 (s% "FU")).fn = .FILTERUNPACK by decide +kernel]
  have hun : ∀ x ∈ l, unpack true x = args x := by
    intro x hx
    have := hu x hx
    generalize args x = m at this
    cases this with
    | iterable h4 h5 => simp [unpack, Val.pyList, items_iter h5, h4]
    | _ => rfl
  have e : ∀ R : Rec X, ∀ m : List Val, (∀ x ∈ m, x ∈ l) →
      filterL (fun x => callVal R (some f) (unpack true x) >>= fun v => pure v.truthy) m =
      filterL (fun x => callVal R (some f) (args x) >>= fun v => pure (v.truthy == true)) m := by
    intro R m
    induction m with
    | nil => exact fun _ => rfl
    | cons x m ih =>
      intro hm
      simp only [filterL, ih fun y hy => hm y (by simp [hy]), hun x (hm x (by simp)), beq_true]
  refine exists_died fun r => Iff.trans (runs_eq fun R => ?_) (runs_filter true f args (fun vs => .v (.list vs)) l)
  simp only [valOp, opFILTERUNPACK, h1, filterV, h3]
  rw [e R l fun _ h => h]

theorem opMAPZIP_fn (R : Rec X) {v w u f : Val} {l m : List Val} (h : FnAndItems v w f l) (hi : u.isIterable = true)
    (hm : u.items = .ok m) : opMAPZIP R v w u =
      (mapL (fun p : Val × Val => callVal R (some f) [p.1, p.2]) (l.zip m) >>= fun vs => pure (Res.v (.list vs))) := by
  cases h with
  | @left st ret _ _ hj hl =>
    have : opMAPZIP R (.block st ret) w u = (zipV R w u (fun x y => callVal R (some (.block st ret)) [x, y]) >>= fun vs =>
        pure (Res.v (.list vs))) := by
      have hb : ∀ st ret, w ≠ .block st ret := by rintro st ret rfl; cases hj
      unfold opMAPZIP
      split
      rename_i p lhs it1 e
      split at e
      · exact absurd rfl (hb _ _)
      · cases e
        simp [hj, hi]
    rw [this, zipV, items_iter hl, items_iter hm]
  | @right st ret _ _ hj hl =>
    have : opMAPZIP R v (.block st ret) u = (zipV R v u (fun x y => callVal R (some (.block st ret)) [x, y]) >>= fun vs =>
        pure (Res.v (.list vs))) := by
      simp [opMAPZIP, hj, hi]
    rw [this, zipV, items_iter hl, items_iter hm]

/-- `MZ`: `f` is called with the items of two iterables in parallel, up to the end of the shorter one. -/
theorem C83_zip (a b c : Tree) (s s1 s2 s3 : St X) (v w u f : Val) (l m : List Val) (ha : a.notOpr = true)
    (hb : b.notOpr = true) (hc : c.notOpr = true) (hv : Vals a s (.ok v, s1)) (hw : Vals b s1 (.ok w, s2))
    (hu : Vals c s2 (.ok u, s3)) (h : FnAndItems v w f l) (hi : u.isIterable = true) (hm : u.items = .ok m) (out : Outcome X Res) :
    Evals (.node (op3 (s% "MZ")) [a, b, c]) s out ↔ ∃ r : Outcome X (List Val),
      MapEach (fun p => Calls f [p.1, p.2]) (l.zip m) s3 r ∧ out = died (r.map fun vs => .v (.list vs)) := by
  have ho : (op3 (s% "MZ")).Direct := by decide +kernel
  have h3 : MapEach Vals [a, b, c] s (.ok [v, w, u], s3) := MapEach.next (o := (.ok [w, u], s3)) hv (mapEach_two hw hu)
  rw [ho.evals (by simp [ha, hb, hc]) h3, show (op3 (s% "MZ")).fn = .MAPZIP by decide +kernel]
  refine exists_died fun r => Iff.trans (runs_eq fun R => ?_)
    (runs_calls f (fun p : Val × Val => [p.1, p.2]) (fun vs => .v (.list vs)) (l.zip m))
  exact congrFun (opMAPZIP_fn R h hi hm) s3

theorem rest_items {v : Val} {l : List Val} (hi : v.isIterable = true) (hl : v.items = .ok l) :
    ∃ rest, v.get (.slice (some 1) none) = .ok rest ∧ rest.isIterable = true ∧ ∃ m, rest.items = .ok m ∧ l.zip m = l.zip l.tail := by
  have cut : ∀ {α : Type} (l : List α), cycSlice l (some 1) none = l.tail := by
    intro α l
    cases l with
    | nil => rfl
    | cons x l => exact cycSlice_from (x :: l) 1 (by simp)
  cases v with
  | scalar t =>
    simp only [Val.items, Val.iter, Except.ok.injEq] at hl
    subst hl
    exact ⟨_, rfl, rfl, _, rfl, by rw [cut]; cases t <;> rfl⟩
  | list t =>
    simp only [Val.items, Val.iter, Except.ok.injEq] at hl
    subst hl
    exact ⟨_, rfl, rfl, _, rfl, by rw [cut]⟩
  | range lo hi' =>
    cases hi' with
    | none => cases hl
    | some b =>
      simp only [Val.items, Val.iter, Except.ok.injEq] at hl
      subst hl
      by_cases he : (Val.range lo (some b)).isEmpty = true
      · refine ⟨.range lo (some b), by simp [Val.get, rangeSlice, he], rfl, _, rfl, ?_⟩
        simp only [Val.isEmpty, decide_eq_true_eq] at he
        have : rangeInts lo b = [] := by
          rw [rangeInts, show (b - lo0 lo).toNat = 0 by omega]
          rfl
        simp [this]
      · have hlt : lo0 lo < b := by simpa [Val.isEmpty] using he
        obtain ⟨k, hk⟩ : ∃ k, (b - lo0 lo).toNat = k + 1 := ⟨(b - lo0 lo).toNat - 1, by omega⟩
        refine ⟨.range (some (lo0 lo + 1)) (some b), ?_, rfl, _, rfl, ?_⟩
        · simp only [Val.get, rangeSlice, he, Bool.false_eq_true, if_false, Option.getD_some, Option.getD_none]
          rw [if_pos (by omega)]
          have e1 : clampIdx (b - lo0 lo).toNat 1 = 1 := by simp [clampIdx]; omega
          have e2 : clampIdx (b - lo0 lo).toNat ((b - lo0 lo).toNat : Int) = (b - lo0 lo).toNat := by
            unfold clampIdx
            rw [if_neg (by omega)]
            omega
          rw [e1, e2, show lo0 lo + ((b - lo0 lo).toNat : Int) = b by omega]
          rfl
        · have e1 : rangeInts lo b = lo0 lo :: intsFrom (lo0 lo + 1) k := by rw [rangeInts, hk]; rfl
          have e2 : rangeInts (some (lo0 lo + 1)) b = intsFrom (lo0 lo + 1) k := by
            have e3 : lo0 (some (lo0 lo + 1)) = lo0 lo + 1 := rfl
            rw [rangeInts, e3, show (b - (lo0 lo + 1)).toNat = k by omega]
          rw [e1, e2]
          rfl
  | _ => cases hi

/-- `f MP l`: `f` is called with each item and its successor. -/
theorem C83_pairs (a b : Tree) (s s1 s2 : St X) (v w f : Val) (l : List Val) (ha : a.notOpr = true)
    (hb : b.notOpr = true) (hv : Vals a s (.ok v, s1)) (hw : Vals b s1 (.ok w, s2)) (h : FnAndItems v w f l)
    (out : Outcome X Res) :
    Evals (.node (op2 (s% "MP")) [a, b]) s out ↔ ∃ r : Outcome X (List Val),
      MapEach (fun p => Calls f [p.1, p.2]) (l.zip l.tail) s2 r ∧ out = died (r.map fun vs => .v (.list vs)) := by
  have ho : (op2 (s% "MP")).Direct := by decide +kernel
  rw [ho.evals (by simp [ha, hb]) (mapEach_two hv hw), show (op2 (s% "MP")).fn = .MAPPAIRS by decide +kernel]
  refine exists_died fun r => Iff.trans (runs_eq fun R => ?_)
    (runs_calls f (fun p : Val × Val => [p.1, p.2]) (fun vs => .v (.list vs)) (l.zip l.tail))
  obtain ⟨it, h1, h2, h3⟩ := h.iter
  obtain ⟨st, ret, rfl⟩ := h.isFn
  have hit : it.items = .ok l := by simp [Val.items, h3]
  obtain ⟨rest, h4, h5, m, h6, h7⟩ := rest_items h2 hit
  have := opMAPZIP_fn R (.left (st := st) (ret := ret) h2 hit) h5 h6
  rw [h7] at this
  simp only [valOp, opMAPPAIRS, h1, h4]
  exact congrFun this s2

/-! #### Two levels -/

theorem runs_map_item {f x : Val} {s : St X} {r : Outcome X Val} (hf : ∃ st ret, f = .block st ret)
    (hx : x.isIterable = true → ∃ l, x.items = .ok l) :
    Runs (fun R => opVal R .MAP [f, x]) s r ↔ MapsItem f x s r := by
  have step : Runs (fun R => opVal R .MAP [f, x]) s r ↔ Then (Runs fun R => opMAP R f x) (fun u => Runs fun _ => needVal u) s r := by
    refine (runs_bind (x := fun R => R.op .MAP ([f, x].map .val)) (f := fun r _ => needVal r) (mono_op _ _)).trans ?_
    refine then_congr_left fun s r => runs_shift fun m => ?_
    exact congrFun (callOp_vals (run X m) (fn := .MAP) (by rfl) [f, x]) s
  rw [step]
  obtain ⟨st, ret, rfl⟩ := hf
  cases hi : x.isIterable with
  | false =>
    have : ∀ R : Rec X, opMAP R (.block st ret) x = pure (.v .nil) := by
      intro R
      unfold opMAP
      cases x <;> first | rfl | cases hi
    simp only [this]
    rw [then_of (runs_pure.2 rfl)]
    constructor
    · intro h
      rw [runs_pure.1 h]
      exact .other hi
    · rintro (⟨h1, _, _⟩ | _)
      · rw [hi] at h1; cases h1
      · exact runs_pure.2 rfl
  | true =>
    obtain ⟨l, hl⟩ := hx hi
    have h1 : ∀ s (r : Outcome X Res), Runs (fun R => opMAP R (.block st ret) x) s r ↔ _ := fun s r =>
      (runs_eq fun R => congrFun (opMAP_fn R (.left hi hl)) s).trans
        (runs_calls (.block st ret) (fun x => [x]) (fun vs => .v (.list vs)) l)
    constructor
    · rintro (⟨h2, h3⟩ | h2)
      · obtain ⟨⟨e | vs, s4⟩, h4, h5⟩ := (h1 _ _).1 h2
        · cases h5
        · simp only [Outcome.map, Prod.mk.injEq, Except.ok.injEq] at h5
          obtain ⟨rfl, rfl⟩ := h5
          rw [runs_pure.1 h3]
          exact MapsItem.iterable (r := (.ok vs, _)) hi hl h4
      · obtain ⟨⟨e | vs, s4⟩, h4, h5⟩ := (h1 _ _).1 h2
        · simp only [Outcome.map, Prod.mk.injEq, Except.error.injEq] at h5
          obtain ⟨rfl, rfl⟩ := h5
          exact MapsItem.iterable (r := (.error _, _)) hi hl h4
        · cases h5
    · intro h
      cases h with
      | @iterable l' _ r h3 h4 h5 =>
        rw [hl] at h4
        cases h4
        rcases r with ⟨e | vs, s4⟩
        · exact .fail ((h1 _ _).2 ⟨_, h5, rfl⟩)
        · exact .ok ((h1 _ _).2 ⟨_, h5, rfl⟩) (runs_pure.2 rfl)
      | other h3 => rw [hi] at h3; cases h3

/-- `f MM l`: `f` is mapped over each item of `l`. -/
theorem C83_nested (a b : Tree) (s s1 s2 : St X) (v w f : Val) (l : List Val) (ha : a.notOpr = true)
    (hb : b.notOpr = true) (hv : Vals a s (.ok v, s1)) (hw : Vals b s1 (.ok w, s2)) (h : FnAndItems v w f l)
    (hl : ∀ x ∈ l, x.isIterable = true → ∃ m, x.items = .ok m) (out : Outcome X Res) :
    Evals (.node (op2 (s% "MM")) [a, b]) s out ↔ ∃ r : Outcome X (List Val), MapEach (MapsItem f) l s2 r ∧
      out = died (r.map fun vs => .v (.list vs)) := by
  have ho : (op2 (s% "MM")).Direct := by decide +kernel
  rw [ho.evals (by simp [ha, hb]) (mapEach_two hv hw), show (op2 (s% "MM")).fn = .MAPMAP by decide +kernel]
  have hm : ∀ x, Mono fun R : Rec X => opVal R .MAP [f, x] := fun x _ _ _ h => Cong.opVal h _ _
  refine exists_died fun r => Iff.trans (runs_eq (y := fun R => mapL (fun x => opVal R .MAP [f, x]) l >>= fun vs => pure (.v (.list vs)))
    fun R => ?_) ((runs_map (mono_mapL hm l) _).trans (exists_congr fun r' => and_congr_left fun _ =>
      (runs_mapL hm l).trans (mapEach_congr fun x hx s o => runs_map_item h.isFn (hl x hx))))
  cases h with
  | @left st ret _ _ hj hl =>
    have : opMAPMAP R (.block st ret) w = (mapV R w (fun x => opVal R .MAP [.block st ret, x]) >>= fun vs =>
        pure (Res.v (.list vs))) := by
      unfold opMAPMAP
      cases w <;> first | rfl | cases hj
    refine (congrFun this s2).trans ?_
    rw [mapV, items_iter hl]
  | @right st ret _ _ hj hl =>
    have : opMAPMAP R v (.block st ret) = (mapV R v (fun x => opVal R .MAP [.block st ret, x]) >>= fun vs =>
        pure (Res.v (.list vs))) := by
      unfold opMAPMAP
      cases v <;> first | rfl | cases hj
    refine (congrFun this s2).trans ?_
    rw [mapV, items_iter hl]

/-- `fs M l` with a List of functions: each is mapped over `l`, one after the other. -/
theorem C83_functions (a b : Tree) (s s1 s2 : St X) (fs l : List Val) (it : Val) (ha : a.notOpr = true) (hb : b.notOpr = true)
    (hv : Vals a s (.ok (.list fs), s1)) (hw : Vals b s1 (.ok it, s2)) (hfs : ∀ f ∈ fs, ∃ st ret, f = .block st ret)
    (hi : it.isIterable = true) (hl : it.items = .ok l) (out : Outcome X Res) :
    Evals (.node (op2 (s% "M")) [a, b]) s out ↔ ∃ r : Outcome X (List Val),
      MapEach (fun f s o => ∃ r : Outcome X (List Val), MapEach (fun y => Calls f [y]) l s r ∧ o = r.map .list) fs s2 r ∧
      out = died (r.map fun vs => .v (.list vs)) := by
  have ho : (op2 (s% "M")).Direct := by decide +kernel
  rw [ho.evals (by simp [ha, hb]) (mapEach_two hv hw), show (op2 (s% "M")).fn = .MAP by decide +kernel]
  have hm : ∀ f, Mono fun R : Rec X => opVal R .MAP [f, it] := fun x _ _ _ h => Cong.opVal h _ _
  refine exists_died fun r => Iff.trans (runs_eq (y := fun R => mapL (fun f => opVal R .MAP [f, it]) fs >>= fun vs => pure (.v (.list vs)))
    fun R => ?_) ((runs_map (mono_mapL hm fs) _).trans (exists_congr fun r' => and_congr_left fun _ =>
      (runs_mapL hm fs).trans (mapEach_congr fun f hf s o => (runs_map_item (hfs f hf) fun _ => ⟨l, hl⟩).trans ?_)))
  · have : opMAP R (.list fs) it = (mapL (fun f => opVal R .MAP [f, it]) fs >>= fun vs => pure (Res.v (.list vs))) := by
      unfold opMAP
      cases it <;> first | rfl | cases hi
    exact congrFun this s2
  · constructor
    · intro h
      cases h with
      | @iterable l' _ r h3 h4 h5 =>
        rw [hl] at h4
        cases h4
        exact ⟨r, h5, rfl⟩
      | other h3 => rw [hi] at h3; cases h3
    · rintro ⟨r, h, rfl⟩
      exact .iterable hi hl h

example : toyOut (s% "([{a+1};{a*2}]M[1;5])J\",\"") [] [] = some (s% "2,6,2,10\n") := by decide +kernel

/-! #### Matches -/

theorem MapEach.imp {α β : Type} {P Q : α → St X → Outcome X β → Prop} {l : List α} {s : St X} {r : Outcome X (List β)}
    (h : MapEach P l s r) (hq : ∀ a ∈ l, ∀ s o, P a s o → Q a s o) : MapEach Q l s r := by
  induction h with
  | nil => exact .nil
  | next h1 _ ih => exact .next (hq _ (by simp) _ _ h1) (ih fun a ha => hq a (by simp [ha]))
  | fail h1 => exact .fail (hq _ (by simp) _ _ h1)

attribute [local irreducible] assignRegexVars

/-- `f MR s, p`: for each match, from left to right, the match variables are set and `f` is called with the match and its groups. The
operands can be given in other orders, and a string instead of the Pattern. -/
theorem C83_matches (a b c : Tree) (s s1 s2 s3 : St X) (v w u : Val) (st : List Tree) (ret : Tree) (r : Str) (f : Flags) (str : Str)
    (ms : List Match) (ha : a.notOpr = true) (hb : b.notOpr = true) (hc : c.notOpr = true) (hv : Vals a s (.ok v, s1))
    (hw : Vals b s1 (.ok w, s2)) (hu : Vals c s2 (.ok u, s3))
    (h : [v, w, u] ∈ [[.block st ret, .pattern r f, .scalar str], [.block st ret, .scalar str, .pattern r f],
      [.scalar str, .pattern r f, .block st ret], [.pattern r f, .block st ret, .scalar str], [.scalar str, .block st ret, .pattern r f],
      [.pattern r f, .scalar str, .block st ret]])
    (hm : X.finditer r f str = .ok ms) (out : Outcome X Res) (he : Evals (.node (op3 (s% "MR")) [a, b, c]) s out) :
    ∃ r : Outcome X (List Val), MapEach (CallsMatch (.block st ret) str) ms s3 r ∧ out = died (r.map fun vs => .v (.list vs)) := by
  have ho : (op3 (s% "MR")).Direct := by decide +kernel
  have h3 : MapEach Vals [a, b, c] s (.ok [v, w, u], s3) := MapEach.next (o := (.ok [w, u], s3)) hv (mapEach_two hw hu)
  rw [ho.evals (by simp [ha, hb, hc]) h3, show (op3 (s% "MR")).fn = .MAPREGEX by decide +kernel] at he
  have hmono : ∀ m : Match, Mono fun R : Rec X => assignRegexVars str m >>= fun _ => callVal R (some (.block st ret)) m.vals := by
    intro m C _ _ h
    exact C.bind (Cong.assignRegexVars _ _) fun _ => Cong.callVal h _ _
  have e : ∀ R : Rec X, valOp R .MAPREGEX [v, w, u] = (M.lift (X.finditer r f str) >>= fun ms =>
      mapL (fun m => assignRegexVars str m >>= fun _ => callVal R (some (.block st ret)) m.vals) ms >>= fun vs => pure (.v (.list vs))) := by
    intro R
    simp only [List.mem_cons, List.cons.injEq, and_true, List.not_mem_nil, or_false] at h
    rcases h with ⟨rfl, rfl, rfl⟩ | ⟨rfl, rfl, rfl⟩ | ⟨rfl, rfl, rfl⟩ | ⟨rfl, rfl, rfl⟩ | ⟨rfl, rfl, rfl⟩ | ⟨rfl, rfl, rfl⟩ <;> rfl
  obtain ⟨o, h4, rfl⟩ := he
  simp only [e, hm] at h4
  obtain ⟨r', h5, rfl⟩ := (runs_map (mono_mapL hmono ms) _).1 h4
  refine ⟨r', ?_, rfl⟩
  refine ((runs_mapL hmono ms).1 h5).imp fun q _ s r h => ?_
  obtain ⟨s', h6, h7⟩ := match_vars str q s
  exact ⟨s', h7, (runs_bind_ok (f := fun _ R => callVal R (some (.block st ret)) q.vals) h6).1 h⟩

/-- `FU l`: the items whose own first item is true. -/
theorem C83_filter_first (a : Tree) (s s1 : St X) (v : Val) (l : List Val) (ha : a.notOpr = true) (hv : Vals a s (.ok v, s1))
    (hi : v.isIterable = true) (hl : v.items = .ok l) :
    ∃ yes no, Vals (.node (op1 (s% "FU")) [a]) s (.ok (.list yes), s1) ∧
      Parted (fun x t => (x.isIterable = true ∧ ∃ y, x.get (.int 0) = .ok y ∧ y.truthy = true) ↔ t = true) l yes no := by
  have hd : (op1 (s% "FU")).Direct := by decide +kernel
  have part : ∀ (p : Val → Bool) (l : List Val), Parted (fun x t => p x = t) l (l.filter p) (l.filter fun x => !p x) := by
    intro p l
    induction l with
    | nil => exact .nil
    | cons x l ih =>
      cases ht : p x
      · simpa [ht] using Parted.no (P := fun x t => p x = t) ht ih
      · simpa [ht] using Parted.yes (P := fun x t => p x = t) ht ih
  have conv : ∀ {P Q : Val → Bool → Prop} {l y n : List Val}, (∀ x t, P x t → Q x t) → Parted P l y n → Parted Q l y n := by
    intro P Q l y n h hp
    induction hp with
    | nil => exact .nil
    | yes h1 _ ih => exact .yes (h _ _ h1) ih
    | no h1 _ ih => exact .no (h _ _ h1) ih
  refine ⟨_, _, .of_evals ((hd.evals (by simp [ha]) (mapEach_single hv)).2 ⟨(.ok (.v (.list (l.filter fun x => x.isIterable &&
    (match x.get (.int 0) with | .ok y => y.truthy | .error _ => false)))), s1), ?_, rfl⟩), conv ?_ (part _ l)⟩
  · rw [show (op1 (s% "FU")).fn = .FILTERUNPACK by decide +kernel]
    refine (runs_eq (y := fun _ => pure _) fun R => ?_).2 (runs_pure.2 rfl)
    simp only [valOp, opFILTERUNPACK1, hi, if_true, hl]
    rfl
  · rintro x t rfl
    rw [Bool.and_eq_true]
    refine and_congr_right fun _ => ?_
    cases x.get (.int 0) <;> simp

example : toyOut (s% "P*{a*b}MU[[1 2][3 4]]P*{a>b}FU[[1 2][4 3]]P*{a.b}MP[1 2 3]P*{a+b}MZ[1 2][10 20 30]P*{a+1}MM[[1 2][3]]P*FU[[0 5][6 0]]") [] [] =
    some (s% "2\n12\n43\n12\n23\n11\n22\n23\n4\n60\n60\n") := by decide +kernel

/-- The matches of the Pattern `.(.)`: pairs of characters -/
def pairMatches (r s : Str) : List Match :=
  if r = s% ".(.)" then (List.range (s.length / 2)).map fun i =>
    ⟨2 * i, 2 * i + 2, (s.drop (2 * i)).take 2, [some ((s.drop (2 * i + 1)).take 1)], [(2 * i + 1, 2 * i + 2)]⟩
  else []

def pairExt : Ext := { toyExt with finditer := fun r _ s => Except.ok (pairMatches r s) }

example : (match compile (s% "P*{b.a.$'}MR`.(.)`\"abcd\"") with
    | .ok (.block stmts ret) => match executeProgram (run pairExt 60) (stmts ++ [ret]) [] (St.init pairExt [] ()) with
      | (.ok _, s) => some s.out
      | _ => none
    | _ => none) = some (s% "babcd\ndcd\nbabcddcd\n") := by decide +kernel

end Pip
