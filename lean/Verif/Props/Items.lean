import Verif.Props.Meta
import Verif.Props.Values
/-!
# C27: item-wise operators
-/

namespace Pip
variable {X : Ext}

/-! ### C27 -/

/-- An operand that an operator treats item by item: a List, or for some operators a Range, with these items -/
inductive Itemwise (o : Op) : Val → List Val → Prop
  | list (l : List Val) : o.listEach = true → Itemwise o (.list l) l
  | range (lo : Option Int) (hi : Int) : o.rangeEach = true →
    Itemwise o (.range lo (some hi)) ((rangeInts lo hi).map ofInt)

/-- The value of an expression as an item of a List -/
def Item (t : Tree) : St X → Outcome X Val → Prop := Then (Evals t) fun r => Runs fun _ => needVal r

theorem Itemwise.expands {o : Op} {v : Val} {l : List Val} (h : Itemwise o v l) : expands o (.val v) = true := by
  cases h <;> simp_all [Pip.expands, Val.isRange, Val.isList]

theorem Itemwise.notFn {o : Op} {v : Val} {l : List Val} (h : Itemwise o v l) : (Tree.val v).isFn = false := by
  cases h <;> rfl

theorem Itemwise.iter {o : Op} {v : Val} {l : List Val} (h : Itemwise o v l) : v.iter = .fin l := by
  cases h <;> rfl

theorem Itemwise.len {o : Op} {v : Val} {l : List Val} (h : Itemwise o v l) : v.len = .ok l.length := by
  cases h with
  | list l => rfl
  | range lo hi => simp [Val.len, rangeInts_length]

theorem cycSlice_from {α : Type} (l : List α) (k : Nat) (h : k ≤ l.length) : cycSlice l (some k) none = l.drop k := by
  have : cycSlice l (some k) none = cycSlice l (some k) (some l.length) := rfl
  rw [this, C13_slice_plain l k l.length h (Nat.le_refl _), List.take_of_length_le (by simp)]

theorem Itemwise.rest {o : Op} {v : Val} {l : List Val} (h : Itemwise o v l) (k : Nat) (hk : k ≤ l.length) :
    (do (← v.get (.slice (some k) none)).items : Except Exc (List Val)) = .ok (l.drop k) := by
  cases h with
  | list l =>
    show (Val.list (cycSlice _ _ _)).items = _
    rw [cycSlice_from _ k hk]
    rfl
  | range lo hi =>
    show (rangeSlice lo (some hi) _ _).items = _
    rw [rangeSlice_items, cycSlice_from _ k hk]

theorem Itemwise.leftover {o : Op} {v w : Val} {l m : List Val} (hv : Itemwise o v l) (hw : Itemwise o w m) :
    leftover v w = .ok (l.drop m.length ++ m.drop l.length) := by
  unfold Pip.leftover
  rw [hv.len, hw.len]
  show (if l.length > m.length then (do (← v.get (.slice (some m.length) none)).items : Except Exc (List Val))
    else if m.length > l.length then (do (← w.get (.slice (some l.length) none)).items : Except Exc (List Val))
    else return []) = _
  split
  · rw [hv.rest _ (by omega), List.drop_eq_nil_of_le (as := m) (by omega), List.append_nil]
  · split
    · rw [hw.rest _ (by omega), List.drop_eq_nil_of_le (as := l) (by omega), List.nil_append]
    · rw [List.drop_eq_nil_of_le (as := m) (by omega), List.drop_eq_nil_of_le (as := l) (by omega)]
      rfl

theorem mono_evVal (t : Tree) : Mono fun R : Rec X => evVal R t := fun _ _ _ h => Cong.evVal h t

theorem runs_evVal {t : Tree} {s : St X} {out : Outcome X Val} : Runs (fun R => evVal R t) s out ↔ Item t s out :=
  runs_bind (mono_ev t) (f := fun r _ => needVal r)

/-- The List of the results -/
theorem runs_items {α : Type} (f : α → Tree) (l : List α) (g : List Val → List Val) {s : St X} {out : Outcome X Res} :
    Runs (fun R => mapL (fun x => evVal R (f x)) l >>= fun vs => pure (Res.v (.list (g vs)))) s out ↔
      ∃ r : Outcome X (List Val), MapEach (fun x => Item (f x)) l s r ∧ out = r.map fun vs => .v (.list (g vs)) := by
  refine (runs_map (mono_mapL (fun x => mono_evVal (f x)) l) _).trans ?_
  refine exists_congr fun r => and_congr_left fun _ => ?_
  refine (runs_mapL (fun x => mono_evVal (f x)) l).trans ?_
  exact mapEach_congr fun _ _ _ _ => runs_evVal

/-- One operand: the List of the results for the items, computed in order. -/
theorem C27_unary (o : Op) (h : o.Rvals) (e : Tree) (s s1 : St X) (v : Val) (l : List Val) (hn : e.notOpr = true)
    (hv : Vals e s (.ok v, s1)) (hi : Itemwise o v l) (out : Outcome X Res) :
    Evals (.node o [e]) s out ↔ ∃ r : Outcome X (List Val), MapEach (fun x => Item (.node o [.val x])) l s1 r ∧
      out = died (r.map fun vs => .v (.list vs)) := by
  have hm : MapEach Vals [e] s (.ok [v], s1) := MapEach.next (o := (.ok [], s1)) hv .nil
  rw [evals_rvals h (by simp [hn]), then_of_det (P := MapEach Vals [e]) (fun _ _ _ => MapEach.det (P := Vals) fun _ _ _ _ => Vals.det) hm]
  unfold Applied
  rw [if_neg (by simp [hi.notFn])]
  have key : ∀ out, Runs (fun R => expandOrCall R o [.val v]) s1 out ↔ ∃ r : Outcome X (List Val),
      MapEach (fun x => Item (.node o [.val x])) l s1 r ∧ out = r.map fun vs => .v (.list vs) := by
    intro out
    refine Iff.trans (runs_eq fun R => ?_) (runs_items (fun x => .node o [.val x]) l fun vs => vs)
    simp only [expandOrCall, hi.expands, if_true, mapV, hi.iter]
  constructor
  · rintro ⟨r', h1, rfl⟩
    obtain ⟨r, h2, rfl⟩ := (key _).1 h1
    exact ⟨r, h2, rfl⟩
  · rintro ⟨r, h2, rfl⟩
    exact ⟨_, (key _).2 ⟨r, h2, rfl⟩, rfl⟩

/-- What an operator does with two operands that have been evaluated -/
theorem applied_two {o : Op} (h : o.Rvals) {a b : Tree} {s s1 s2 : St X} {v w : Val} (ha : a.notOpr = true)
    (hb : b.notOpr = true) (hv : Vals a s (.ok v, s1)) (hw : Vals b s1 (.ok w, s2))
    (hf : o.inLambda = true → v.isBlock = false ∧ w.isBlock = false) {out : Outcome X Res} :
    Evals (.node o [a, b]) s out ↔ ∃ r, Runs (fun R => expandOrCall R o [.val v, .val w]) s2 r ∧ out = died r := by
  have hm : MapEach Vals [a, b] s (.ok [v, w], s2) :=
    MapEach.next (o := (.ok [w], s2)) hv (MapEach.next (o := (.ok [], s2)) hw .nil)
  rw [evals_rvals h (by simp [ha, hb]),
    then_of_det (P := MapEach Vals [a, b]) (fun _ _ _ => MapEach.det (P := Vals) fun _ _ _ _ => Vals.det) hm]
  unfold Applied
  rw [if_neg]
  · rfl
  · intro hl
    simp only [List.map_cons, List.map_nil, List.any_cons, List.any_nil, Bool.or_false, Bool.and_eq_true, Bool.or_eq_true,
      Tree.isFn] at hl
    obtain ⟨h1, h2⟩ := hf hl.1
    simp [h1, h2] at hl

/-- Two operands with items: the results for the pairs of items, then the remaining items of the longer operand. -/
theorem C27_both (o : Op) (h : o.Rvals) (a b : Tree) (s s1 s2 : St X) (v w : Val) (l m : List Val) (ha : a.notOpr = true)
    (hb : b.notOpr = true) (hv : Vals a s (.ok v, s1)) (hw : Vals b s1 (.ok w, s2)) (hi : Itemwise o v l) (hj : Itemwise o w m)
    (out : Outcome X Res) :
    Evals (.node o [a, b]) s out ↔ ∃ r : Outcome X (List Val),
      MapEach (fun p => Item (.node o [.val p.1, .val p.2])) (l.zip m) s2 r ∧
      out = died (r.map fun vs => .v (.list (vs ++ (l.drop m.length ++ m.drop l.length)))) := by
  rw [applied_two h ha hb hv hw fun _ => by cases hi <;> cases hj <;> exact ⟨rfl, rfl⟩]
  have key : ∀ out, Runs (fun R => expandOrCall R o [.val v, .val w]) s2 out ↔ ∃ r : Outcome X (List Val),
      MapEach (fun p => Item (.node o [.val p.1, .val p.2])) (l.zip m) s2 r ∧
      out = r.map fun vs => .v (.list (vs ++ (l.drop m.length ++ m.drop l.length))) := by
    intro out
    refine Iff.trans (runs_eq fun R => ?_) (runs_items (fun p : Val × Val => .node o [.val p.1, .val p.2]) (l.zip m)
      fun vs => vs ++ (l.drop m.length ++ m.drop l.length))
    simp only [expandOrCall, hi.expands, hj.expands, if_true, zipV, hi.iter, hj.iter, hi.leftover hj]
    rfl
  constructor
  · rintro ⟨r', h1, rfl⟩
    obtain ⟨r, h2, rfl⟩ := (key _).1 h1
    exact ⟨r, h2, rfl⟩
  · rintro ⟨r, h2, rfl⟩
    exact ⟨_, (key _).2 ⟨r, h2, rfl⟩, rfl⟩

/-- Only the left operand has items. -/
theorem C27_left (o : Op) (h : o.Rvals) (a b : Tree) (s s1 s2 : St X) (v w : Val) (l : List Val) (ha : a.notOpr = true)
    (hb : b.notOpr = true) (hv : Vals a s (.ok v, s1)) (hw : Vals b s1 (.ok w, s2)) (hi : Itemwise o v l)
    (hj : expands o (.val w) = false) (hf : w.isBlock = false) (out : Outcome X Res) :
    Evals (.node o [a, b]) s out ↔ ∃ r : Outcome X (List Val),
      MapEach (fun x => Item (.node o [.val x, .val w])) l s2 r ∧ out = died (r.map fun vs => .v (.list vs)) := by
  rw [applied_two h ha hb hv hw fun _ => by cases hi <;> exact ⟨rfl, hf⟩]
  have key : ∀ out, Runs (fun R => expandOrCall R o [.val v, .val w]) s2 out ↔ ∃ r : Outcome X (List Val),
      MapEach (fun x => Item (.node o [.val x, .val w])) l s2 r ∧ out = r.map fun vs => .v (.list vs) := by
    intro out
    refine Iff.trans (runs_eq fun R => ?_) (runs_items (fun x => .node o [.val x, .val w]) l fun vs => vs)
    simp only [expandOrCall, hi.expands, hj, if_true, Bool.false_eq_true, if_false, mapV, hi.iter]
  constructor
  · rintro ⟨r', h1, rfl⟩
    obtain ⟨r, h2, rfl⟩ := (key _).1 h1
    exact ⟨r, h2, rfl⟩
  · rintro ⟨r, h2, rfl⟩
    exact ⟨_, (key _).2 ⟨r, h2, rfl⟩, rfl⟩

/-- Only the right operand has items. -/
theorem C27_right (o : Op) (h : o.Rvals) (a b : Tree) (s s1 s2 : St X) (v w : Val) (m : List Val) (ha : a.notOpr = true)
    (hb : b.notOpr = true) (hv : Vals a s (.ok v, s1)) (hw : Vals b s1 (.ok w, s2)) (hi : expands o (.val v) = false)
    (hf : v.isBlock = false) (hj : Itemwise o w m) (out : Outcome X Res) :
    Evals (.node o [a, b]) s out ↔ ∃ r : Outcome X (List Val),
      MapEach (fun y => Item (.node o [.val v, .val y])) m s2 r ∧ out = died (r.map fun vs => .v (.list vs)) := by
  rw [applied_two h ha hb hv hw fun _ => by cases hj <;> exact ⟨hf, rfl⟩]
  have key : ∀ out, Runs (fun R => expandOrCall R o [.val v, .val w]) s2 out ↔ ∃ r : Outcome X (List Val),
      MapEach (fun y => Item (.node o [.val v, .val y])) m s2 r ∧ out = r.map fun vs => .v (.list vs) := by
    intro out
    refine Iff.trans (runs_eq fun R => ?_) (runs_items (fun y => .node o [.val v, .val y]) m fun vs => vs)
    simp only [expandOrCall, hi, hj.expands, if_true, Bool.false_eq_true, if_false, mapV, hj.iter]
  constructor
  · rintro ⟨r', h1, rfl⟩
    obtain ⟨r, h2, rfl⟩ := (key _).1 h1
    exact ⟨r, h2, rfl⟩
  · rintro ⟨r, h2, rfl⟩
    exact ⟨_, (key _).2 ⟨r, h2, rfl⟩, rfl⟩

theorem item_ok {t : Tree} {s s' : St X} {v : Val} : Item t s (.ok v, s') ↔ Evals t s (.ok (.v v), s') := by
  unfold Item
  rw [then_ok_iff]
  constructor
  · rintro ⟨r, s1, h1, h2⟩
    cases r with
    | v w =>
      have := runs_pure.1 h2
      simp only [Prod.mk.injEq, Except.ok.injEq] at this
      obtain ⟨rfl, rfl⟩ := this
      exact h1
    | l l => cases (runs_throw (by decide)).1 h2
    | none => cases (runs_throw (by decide)).1 h2
  · intro h
    exact ⟨_, _, h, runs_pure.2 rfl⟩

theorem MapEach.get {α β : Type} {P : α → St X → Outcome X β → Prop} : ∀ {l : List α} {s s' : St X} {ys : List β}
    (_ : MapEach P l s (.ok ys, s')) {i : Nat} {x : α} {y : β} (_ : l[i]? = some x) (_ : ys[i]? = some y),
    ∃ s s', P x s (.ok y, s') := by
  intro l
  induction l with
  | nil =>
    intro s s' ys _ i x y h
    simp at h
  | cons a l ih =>
    intro s s' ys h i x y hx hy
    generalize ho : ((.ok ys, s') : Outcome X (List β)) = o at h
    cases h with
    | fail => cases ho
    | @next _ _ _ s2 b o h1 h2 =>
      rcases o with ⟨e | ys', s3⟩
      · cases ho
      simp only [Outcome.map, Prod.mk.injEq, Except.ok.injEq] at ho
      obtain ⟨rfl, rfl⟩ := ho
      cases i with
      | zero =>
        simp only [List.getElem?_cons_zero, Option.some.injEq] at hx hy
        subst hx hy
        exact ⟨_, _, h1⟩
      | succ i => exact ih h2 (by simpa using hx) (by simpa using hy)

/-- The result of an item-wise operator on nested Lists is nested in the same way. -/
inductive SameShape : Val → Val → Prop
  | list {l m : List Val} : l.length = m.length →
    (∀ (i : Nat) (x y : Val), l[i]? = some x → m[i]? = some y → SameShape x y) → SameShape (.list l) (.list m)
  | other {v w : Val} : v.isList = false → SameShape v w

theorem C27_shape_unary (o : Op) (h : o.Rvals) (hl : o.listEach = true) : ∀ (v w : Val) (s s' : St X)
    (_ : Evals (.node o [.val v]) s (.ok (.v w), s')), SameShape v w
  | .list l, w, s, s', he => by
    have hv : Vals (.val (.list l)) s (.ok (.list l), s) := vals_val.2 rfl
    obtain ⟨⟨e | vs, s2⟩, h1, h2⟩ := (C27_unary o h (.val (.list l)) s s _ l rfl hv (.list l hl) _).1 he
    · cases died_ok.1 h2
    · have := died_ok.1 h2
      simp only [Outcome.map, Prod.mk.injEq, Except.ok.injEq, Res.v.injEq] at this
      obtain ⟨rfl, rfl⟩ := this
      refine .list h1.length.symm fun i x y hx hy => ?_
      have hxl : x ∈ l := List.mem_of_getElem? hx
      obtain ⟨t, t', ht⟩ := h1.get hx hy
      exact C27_shape_unary o h hl x y t t' (item_ok.1 ht)
  | .scalar _, _, _, _, _ => .other rfl
  | .pattern .., _, _, _, _ => .other rfl
  | .range .., _, _, _, _ => .other rfl
  | .block .., _, _, _, _ => .other rfl
  | .nil, _, _, _, _ => .other rfl
termination_by v => sizeOf v
decreasing_by
  have := List.sizeOf_lt_of_mem hxl
  simp_wf
  omega

/-- The nesting of the result of an item-wise operator on two operands: where both are Lists, the length of the longer one,
with its surplus items unchanged; where one is a List, its length. Functions are exempt (see C28). -/
inductive Combined : Val → Val → Val → Prop
  | both {l m r : List Val} : r.length = max l.length m.length →
    (∀ (i : Nat) (x y z : Val), l[i]? = some x → m[i]? = some y → r[i]? = some z → Combined x y z) →
    (∀ i, m.length ≤ i → i < l.length → r[i]? = l[i]?) → (∀ i, l.length ≤ i → i < m.length → r[i]? = m[i]?) →
    Combined (.list l) (.list m) (.list r)
  | left {l r : List Val} {w : Val} : w.isListy = false → r.length = l.length →
    (∀ (i : Nat) (x z : Val), l[i]? = some x → r[i]? = some z → Combined x w z) → Combined (.list l) w (.list r)
  | right {m r : List Val} {v : Val} : v.isListy = false → r.length = m.length →
    (∀ (i : Nat) (y z : Val), m[i]? = some y → r[i]? = some z → Combined v y z) → Combined v (.list m) (.list r)
  | other {v w u : Val} : v.isList = false ∧ w.isList = false ∨ v.isBlock = true ∨ w.isBlock = true ∨ v.isRange = true ∨
    w.isRange = true → Combined v w u

theorem C27_shape_binary (o : Op) (h : o.Rvals) (hl : o.listEach = true) (v w u : Val) (s s' : St X)
    (he : Evals (.node o [.val v, .val w]) s (.ok (.v u), s')) : Combined v w u := by
  have pick : ∀ {r : Outcome X (List Val)} {g : List Val → Res} {u : Val} {s' : St X},
      (.ok (.v u), s') = died (r.map g) → ∃ vs, r = (.ok vs, s') ∧ g vs = .v u := by
    rintro ⟨e | vs, s2⟩ g u s' h2
    · cases died_ok.1 h2
    · have := died_ok.1 h2
      simp only [Outcome.map, Prod.mk.injEq, Except.ok.injEq] at this
      exact ⟨vs, by rw [this.2], this.1⟩
  by_cases hf : v.isBlock = true ∨ w.isBlock = true ∨ v.isRange = true ∨ w.isRange = true
  · exact .other (.inr hf)
  have hvb : v.isBlock = false := by simp_all
  have hwb : w.isBlock = false := by simp_all
  have hvr : v.isRange = false := by simp_all
  have hwr : w.isRange = false := by simp_all
  have hv : Vals (.val v) s (.ok v, s) := vals_val.2 rfl
  have hw : Vals (.val w) s (.ok w, s) := vals_val.2 rfl
  have nx : ∀ {x : Val}, x.isRange = false → x.isList = false → expands o (.val x) = false := by
    intro x h1 h2
    simp [expands, h1, h2]
  have ev : ∀ {x : Val} {l : List Val}, x = .list l → Itemwise o x l := by
    rintro x l rfl
    exact .list l hl
  cases hvl : v.isList with
  | false =>
    cases hwl : w.isList with
    | false => exact .other (.inl ⟨hvl, hwl⟩)
    | true =>
      obtain ⟨m, hwm⟩ : ∃ m, w = .list m := by cases w <;> simp_all [Val.isList]
      obtain ⟨r, h1, h2⟩ := (C27_right o h _ _ s s s v w m rfl rfl hv hw (nx hvr hvl) hvb (ev hwm) _).1 he
      obtain ⟨vs, rfl, h3⟩ := pick h2
      simp only [Res.v.injEq] at h3
      subst h3 hwm
      refine .right (by simp [Val.isListy, hvl, hvr]) h1.length fun i y z hy hz => ?_
      have hyl : y ∈ m := List.mem_of_getElem? hy
      obtain ⟨t, t', ht⟩ := h1.get hy hz
      exact C27_shape_binary o h hl v y z t t' (item_ok.1 ht)
  | true =>
    obtain ⟨l, hvm⟩ : ∃ l, v = .list l := by cases v <;> simp_all [Val.isList]
    cases hwl : w.isList with
    | false =>
      obtain ⟨r, h1, h2⟩ := (C27_left o h _ _ s s s v w l rfl rfl hv hw (ev hvm) (nx hwr hwl) hwb _).1 he
      obtain ⟨vs, rfl, h3⟩ := pick h2
      simp only [Res.v.injEq] at h3
      subst h3 hvm
      refine .left (by simp [Val.isListy, hwl, hwr]) h1.length fun i x z hx hz => ?_
      have hxl : x ∈ l := List.mem_of_getElem? hx
      obtain ⟨t, t', ht⟩ := h1.get hx hz
      exact C27_shape_binary o h hl x w z t t' (item_ok.1 ht)
    | true =>
      obtain ⟨m, hwm⟩ : ∃ m, w = .list m := by cases w <;> simp_all [Val.isList]
      obtain ⟨r, h1, h2⟩ := (C27_both o h _ _ s s s v w l m rfl rfl hv hw (ev hvm) (ev hwm) _).1 he
      obtain ⟨vs, rfl, h3⟩ := pick h2
      simp only [Res.v.injEq] at h3
      subst h3 hvm hwm
      have hlen : vs.length = min l.length m.length := by rw [h1.length, List.length_zip]
      refine .both ?_ (fun i x y z hx hy hz => ?_) (fun i hi hi' => ?_) fun i hi hi' => ?_
      · simp only [List.length_append, List.length_drop, hlen]
        omega
      · have hxl : x ∈ l := List.mem_of_getElem? hx
        have hil : i < l.length := (List.getElem?_eq_some_iff.1 hx).1
        have him : i < m.length := (List.getElem?_eq_some_iff.1 hy).1
        rw [List.getElem?_append_left (by omega)] at hz
        have hxy : (l.zip m)[i]? = some (x, y) := by
          rw [List.getElem?_zip_eq_some]
          exact ⟨hx, hy⟩
        obtain ⟨t, t', ht⟩ := h1.get hxy hz
        exact C27_shape_binary o h hl x y z t t' (item_ok.1 ht)
      · rw [List.getElem?_append_right (by omega), List.getElem?_append_left (by simp; omega), List.getElem?_drop]
        congr 1
        omega
      · rw [List.getElem?_append_right (by omega), List.getElem?_append_right (by simp; omega), List.getElem?_drop]
        congr 1
        simp
        omega
termination_by sizeOf v + sizeOf w
decreasing_by
  · have := List.sizeOf_lt_of_mem hyl
    subst hwm
    simp_wf
    omega
  · have := List.sizeOf_lt_of_mem hxl
    subst hvm
    simp_wf
    omega
  · have := List.sizeOf_lt_of_mem hxl
    have := List.sizeOf_lt_of_mem (List.mem_of_getElem? hy)
    subst hvm hwm
    simp_wf
    omega

/-- The item-wise operators of the table -/
theorem C27_table : ∀ o ∈ ops1 ++ ops2, o.listEach = true → o.Rvals := by
  have : ∀ o ∈ ops1 ++ ops2, o.listEach = true → o.rvals = true ∧ o.assign = false ∧ o.map = false ∧ o.fold = false ∧
    o.scan = false ∧ o.fn ≠ .PARENTHESIZE := by decide +kernel
  intro o ho hl
  obtain ⟨h1, h2, h3, h4, h5, h6⟩ := this o ho hl
  exact ⟨h1, h2, h3, h4, h5, h6⟩

example : (op2 (s% "+")).Rvals ∧ (op2 (s% "+")).listEach = true ∧ (op1 (s% "-")).listEach = true := by
  exact ⟨C27_table _ (by decide +kernel) (by decide +kernel), by decide +kernel, by decide +kernel⟩
example : toyOut (s% "P*[1[2 3]4]+[10 20]") [] [] = some (s% "11\n2223\n4\n1122234\n") ∧
    toyOut (s% "P*-[1[2 3]4]") [] [] = some (s% "-1\n-2-3\n-4\n-1-2-3-4\n") ∧
    toyOut (s% "P*5*[1[2 3]4]") [] [] = some (s% "5\n1015\n20\n5101520\n") := by
  exact ⟨by decide +kernel, by decide +kernel, by decide +kernel⟩

end Pip
