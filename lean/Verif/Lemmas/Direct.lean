import Verif.Props.Lambda
import Verif.Props.Items
/-!
# Operators on values that are neither expanded nor turned into functions
-/

namespace Pip
variable {X : Ext}

theorem valArgs_map (vs : List Val) : valArgs (vs.map .val) = some vs := by
  induction vs with
  | nil => rfl
  | cons v vs ih => simp [valArgs, ih]

theorem callOp_vals (R : Rec X) {fn : Fn} (h : isRaw fn = false) (vs : List Val) :
    callOp R fn (vs.map .val) = valOp R fn vs := by
  simp only [callOp, h, Bool.false_eq_true, if_false, valArgs_map]

/-- The operands are evaluated in order, then the operator is called with their values. -/
theorem evals_direct {o : Op} (h : o.Rvals) (hr : isRaw o.fn = false) {ts : List Tree} (ht : ∀ t ∈ ts, t.notOpr = true)
    {vs : List Val} {s s1 : St X} (hv : MapEach Vals ts s (.ok vs, s1))
    (hf : o.inLambda = true → ∀ v ∈ vs, v.isBlock = false) (hx : ∀ v ∈ vs, expands o (.val v) = false)
    {out : Outcome X Res} :
    Evals (.node o ts) s out ↔ ∃ r, Runs (fun R => valOp R o.fn vs) s1 r ∧ out = died r := by
  rw [evals_rvals h ht, then_of_det (P := MapEach Vals ts) (fun _ _ _ => MapEach.det (P := Vals) fun _ _ _ _ => Vals.det) hv]
  unfold Applied
  rw [if_neg]
  · have : ∀ R : Rec X, expandOrCall R o (vs.map .val) = valOp R o.fn vs := by
      intro R
      rw [← callOp_vals R hr]
      match vs, hx with
      | [], _ => rfl
      | [a], hx =>
        simp only [List.map_cons, List.map_nil, expandOrCall, hx a (by simp), Bool.false_eq_true, if_false]
      | [a, b], hx =>
        simp only [List.map_cons, List.map_nil, expandOrCall, hx a (by simp), hx b (by simp), Bool.false_eq_true, if_false]
      | _ :: _ :: _ :: _, _ => rfl
    simp only [this]
  · intro hl
    simp only [Bool.and_eq_true, List.any_eq_true, List.mem_map] at hl
    obtain ⟨hl, t, ⟨v, hv, rfl⟩, hb⟩ := hl
    have := hf hl v hv
    simp [Tree.isFn, this] at hb

/-- An operator that is never expanded and never turned into a function -/
structure Op.Direct (o : Op) : Prop extends o.Rvals where
  raw : isRaw o.fn = false
  inLambda : o.inLambda = false
  listEach : o.listEach = false
  rangeEach : o.rangeEach = false

theorem Op.Direct.expands {o : Op} (h : o.Direct) (v : Val) : expands o (.val v) = false := by
  simp [Pip.expands, h.listEach, h.rangeEach]

theorem Op.Direct.evals {o : Op} (h : o.Direct) {ts : List Tree} (ht : ∀ t ∈ ts, t.notOpr = true) {vs : List Val}
    {s s1 : St X} (hv : MapEach Vals ts s (.ok vs, s1)) {out : Outcome X Res} :
    Evals (.node o ts) s out ↔ ∃ r, Runs (fun R => valOp R o.fn vs) s1 r ∧ out = died r :=
  evals_direct h.toRvals h.raw ht hv (by simp [h.inLambda]) fun v _ => h.expands v

instance (o : Op) : Decidable o.Direct :=
  decidable_of_iff (o.rvals = true ∧ o.assign = false ∧ o.map = false ∧ o.fold = false ∧ o.scan = false ∧
      o.fn ≠ .PARENTHESIZE ∧ isRaw o.fn = false ∧ o.inLambda = false ∧ o.listEach = false ∧ o.rangeEach = false)
    ⟨fun ⟨h1, h2, h3, h4, h5, h6, h7, h8, h9, h10⟩ => ⟨⟨h1, h2, h3, h4, h5, h6⟩, h7, h8, h9, h10⟩,
      fun ⟨⟨h1, h2, h3, h4, h5, h6⟩, h7, h8, h9, h10⟩ => ⟨h1, h2, h3, h4, h5, h6, h7, h8, h9, h10⟩⟩

theorem mapEach_two {a b : Tree} {s s1 s2 : St X} {v w : Val} (hv : Vals a s (.ok v, s1)) (hw : Vals b s1 (.ok w, s2)) :
    MapEach Vals [a, b] s (.ok [v, w], s2) :=
  MapEach.next (o := (.ok [w], s2)) hv (MapEach.next (o := (.ok [], s2)) hw .nil)

theorem mapEach_single {a : Tree} {s s1 : St X} {v : Val} (hv : Vals a s (.ok v, s1)) : MapEach Vals [a] s (.ok [v], s1) :=
  MapEach.next (o := (.ok [], s1)) hv .nil

/-- Outcomes of a computation known up to a function -/
theorem exists_died {α : Type} {x : Rec X → M X Res} {P : Outcome X α → Prop} {g : α → Res} {s : St X}
    (key : ∀ r, Runs x s r ↔ ∃ r' : Outcome X α, P r' ∧ r = r'.map g) {out : Outcome X Res} :
    (∃ r, Runs x s r ∧ out = died r) ↔ ∃ r' : Outcome X α, P r' ∧ out = died (r'.map g) := by
  constructor
  · rintro ⟨r, h1, rfl⟩
    obtain ⟨r', h2, rfl⟩ := (key _).1 h1
    exact ⟨r', h2, rfl⟩
  · rintro ⟨r, h2, rfl⟩
    exact ⟨_, (key _).2 ⟨r, h2, rfl⟩, rfl⟩

end Pip
