import Verif.Props.Build
import Verif.Props.Cut
/-!
# C119: lists as operands of operators that take one thing at a time
-/

namespace Pip

/-- `f` is applied to the items of a list, from left to right; the first error ends it. A Range counts as the list of its
members. -/
structure OverItems (f : Val → E Val) : Prop where
  list : ∀ l : List Val, f (.list l) = (l.mapM f).map .list
  range : ∀ a b : Int, f (rng (a, b)) = f (asList a b)

/-- The results of a list are the list of the results, in the same order, and there is an error only if one item has one. -/
theorem C119_items {f : Val → E Val} (h : OverItems f) (l rs : List Val) :
    f (.list l) = .ok (.list rs) ↔ List.Forall₂ (fun v r => f v = .ok r) l rs := by
  rw [h.list]
  have : l.mapM f = .ok rs ↔ List.Forall₂ (fun v r => f v = .ok r) l rs := by
    induction l generalizing rs with
    | nil =>
      rw [List.mapM_nil]
      constructor
      · rintro ⟨⟩; exact .nil
      · rintro ⟨⟩; rfl
    | cons v l ih =>
      rw [List.mapM_cons]
      constructor
      · intro hm
        cases hv : f v with
        | error e => rw [hv] at hm; cases hm
        | ok w =>
          cases hl : l.mapM f with
          | error e => rw [hv, hl] at hm; cases hm
          | ok ws =>
            rw [hv, hl] at hm
            cases hm
            exact .cons hv ((ih ws).1 hl)
      · rintro (_ | ⟨hv, hl⟩)
        rw [hv, (ih _).2 hl]
        rfl
  rw [← this]
  cases l.mapM f with
  | error e => constructor <;> rintro ⟨⟩
  | ok r =>
    constructor
    · rintro ⟨⟩; rfl
    · rintro ⟨⟩; rfl

theorem overItems_of {f : Val → E Val} {fs : List Val → E (List Val)} (h0 : fs [] = .ok [])
    (h1 : ∀ v l, fs (v :: l) = (do return (← f v) :: (← fs l))) (h : ∀ l, f (.list l) = (do return .list (← fs l)))
    (hr : ∀ lo hi : Int, f (rng (lo, hi)) = (do return .list (← (rangeInts (some lo) hi).mapM fun i => f (ofInt i)))) : OverItems f := by
  have hs : ∀ l, fs l = l.mapM f := by
    intro l
    induction l with
    | nil => rw [h0]; rfl
    | cons v l ih => rw [h1, List.mapM_cons, ih]
  have hl : ∀ l, f (.list l) = (l.mapM f).map .list := by
    intro l
    rw [h, hs]
    cases l.mapM f <;> rfl
  refine ⟨hl, fun a b => ?_⟩
  rw [hr, asList, hl, List.mapM_map]
  show _ = (List.mapM (fun i => f (ofInt i)) (rangeInts (some a) b)).map _
  cases (rangeInts (some a) b).mapM fun i => f (ofInt i) <;> rfl

/-- Numbers of pieces or sizes of groups, separators, and strings that are looked for -/
theorem C119_second (X : Ext) (v : Val) (t : Str) :
    OverItems (fun k => opGROUP X v (some k)) ∧ OverItems (fun k => opCHOP X v (some k)) ∧
    OverItems (fun sep => opJOIN v (some sep)) ∧ OverItems (fun sep => opJOINWRAP v sep) ∧
    OverItems (fun x => opNOTIN X x (.scalar t)) :=
  ⟨overItems_of (fs := groupBys X v) (by rw [groupBys]) (fun _ _ => by rw [groupBys]; rfl)
      (fun _ => by simp only [opGROUP, Option.getD_some]; rw [groupBy])
      (fun _ _ => by simp only [opGROUP, Option.getD_some, rng]; rw [groupBy]; rfl),
    overItems_of (fs := chopBys X v) (by rw [chopBys]) (fun _ _ => by rw [chopBys]; rfl)
      (fun _ => by simp only [opCHOP, Option.getD_some]; rw [chopBy])
      (fun _ _ => by simp only [opCHOP, Option.getD_some, rng]; rw [chopBy]; rfl),
    overItems_of (fs := joinBys v) (by rw [joinBys]) (fun _ _ => by rw [joinBys]; rfl)
      (fun _ => by simp only [opJOIN]; rw [joinBy])
      (fun _ _ => by simp only [opJOIN, rng]; rw [joinBy]; rfl),
    overItems_of (fs := opJOINWRAPs v) (by rw [opJOINWRAPs]) (fun _ _ => by rw [opJOINWRAPs])
      (fun _ => by rw [opJOINWRAP])
      (fun _ _ => by simp only [rng]; rw [opJOINWRAP]; rfl),
    overItems_of (fs := fun l => notIns X l (.scalar t)) (by rw [notIns]) (fun _ _ => by rw [notIns]; rfl)
      (fun _ => by simp only [opNOTIN]; rw [notIn])
      (fun lo hi => by
        simp only [opNOTIN, rng]; rw [notIn]
        have : ∀ l : List Int, (l.mapM fun i => notIn X (ofInt i) (.scalar t)) =
            .ok (l.map fun i => ofBool (!isSub (showInt i) t)) := by
          intro l
          induction l with
          | nil => rfl
          | cons i l ih => rw [List.mapM_cons, ih]; rfl
        rw [this]
        rfl)⟩

/-- Numbers whose digits are asked for, strings to be stripped and strings whose characters are replaced -/
theorem C119_first (X : Ext) (side : Side) (base : Option Val) (old new : Val) (extra : Option Val) (h1 : extra ≠ some .nil)
    (h2 : ∀ v, extra = some v → v.isBlock = false) :
    OverItems (opTODIGITS base) ∧ OverItems (stripOp X side extra) ∧ OverItems (fun v => opTRANSLITERATE X v old new) :=
  ⟨overItems_of (fs := opTODIGITSs base) (by rw [opTODIGITSs]) (fun _ _ => by rw [opTODIGITSs])
      (fun _ => by rw [opTODIGITS])
      (fun lo hi => by
        have : ∀ l : List Int, (l.mapM fun i => opTODIGITS base (ofInt i)) =
            (match baseArg base with
              | none => .ok (l.map fun _ => .nil)
              | some b => .ok (l.map fun i => if b < 2 then .nil else digitsOf b (showInt i))) := by
          intro l
          induction l with
          | nil => rw [List.mapM_nil]; cases baseArg base <;> rfl
          | cons i l ih =>
            rw [List.mapM_cons, ih, ofInt, opTODIGITS]
            cases baseArg base with
            | none => rfl
            | some b => simp only []; split <;> rfl
        rw [this, rng, opTODIGITS]
        cases baseArg base <;> rfl),
    overItems_of (fs := stripOps X side extra) (by rw [stripOps]) (fun _ _ => by rw [stripOps])
      (fun l => by
        rw [stripOp]
        · exact h1
        · intro p q h; cases h2 _ h)
      (fun lo hi => by
        rw [rng, stripOp]
        · rfl
        · exact h1
        · intro p q h; cases h2 _ h),
    overItems_of (fs := translits X old new) (by rw [translits]) (fun _ _ => by rw [translits]; rfl)
      (fun _ => by simp only [opTRANSLITERATE]; rw [translit])
      (fun _ _ => by simp only [opTRANSLITERATE, rng]; rw [translit]; rfl)⟩

/-- Stripping with a list strips with its items, one after the other. -/
theorem C119_strip (X : Ext) (side : Side) (s : Str) (e : Val) (es : List Val) :
    stripOp X side (some (.list [])) (.scalar s) = .ok (.scalar s) ∧
    ∀ t, stripOp X side (some e) (.scalar s) = .ok (.scalar t) →
      stripOp X side (some (.list (e :: es))) (.scalar s) = stripOp X side (some (.list es)) (.scalar t) := by
  refine ⟨by simp only [stripOp, strip1, stripWith, stripWiths], fun t ht => ?_⟩
  simp only [stripOp, strip1] at ht
  simp only [stripOp, strip1, stripWith, stripWiths, ht]
  rfl

example : opGROUP toyExt (.scalar (s% "abcd")) (some (.list [ofInt 1, ofInt 3])) =
    .ok (.list [strs [s% "a", s% "b", s% "c", s% "d"], strs [s% "abc", s% "d"]]) := by decide +kernel
example : opJOIN (strs [s% "a", s% "b"]) (some (.list [.scalar (s% "-"), strs [s% "+"]])) =
    .ok (.list [.scalar (s% "a-b"), strs [s% "a+b"]]) := by decide +kernel
example : opNOTIN toyExt (.list [.scalar (s% "b"), .scalar (s% "x")]) (.scalar (s% "abc")) = .ok (ints [0, 1]) := by decide +kernel
example : opTODIGITS (some (ofInt 2)) (rng (4, 6)) = .ok (.list [ints [1, 0, 0], ints [1, 0, 1]]) := by decide +kernel
example : opSTRIP toyExt (.scalar (s% "abxcba")) (some (strs [s% "a", s% "b"])) = .ok (.scalar (s% "xc")) := by decide +kernel

end Pip
