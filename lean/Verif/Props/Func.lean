import Verif.Lemmas.Direct
import Verif.Props.Build
import Verif.Props.Lambda
import Verif.Props.Order
/-!
# C58, C47, C52, C34: operators that call a function for every item
-/

namespace Pip
variable {X : Ext}

/-! ### Specifications -/

/-- One operand is the function `f`, the other one an iterable with the items `l`; the order does not matter. -/
inductive FnAndItems : Val → Val → Val → List Val → Prop
  | left {st : List Tree} {ret : Tree} {v : Val} {l : List Val} : v.isIterable = true → v.items = .ok l →
    FnAndItems (.block st ret) v (.block st ret) l
  | right {st : List Tree} {ret : Tree} {v : Val} {l : List Val} : v.isIterable = true → v.items = .ok l →
    FnAndItems v (.block st ret) (.block st ret) l

/-- The truth value of the result of a call -/
def CallsTruth (want : Bool) (f : Val) (args : List Val) (s : St X) (o : Outcome X Bool) : Prop :=
  ∃ r : Outcome X Val, Calls f args s r ∧ o = r.map fun v => v.truthy == want

/-- `l` consists of `yes` and `no`, in their order; `P` holds of the former with `true` and of the latter with `false`. -/
inductive Parted {α : Type} (P : α → Bool → Prop) : List α → List α → List α → Prop
  | nil : Parted P [] [] []
  | yes {x : α} {l y n : List α} : P x true → Parted P l y n → Parted P (x :: l) (x :: y) n
  | no {x : α} {l y n : List α} : P x false → Parted P l y n → Parted P (x :: l) y (x :: n)

/-- The items with their positions -/
def positions {α : Type} (l : List α) : List (Nat × α) := (List.range l.length).zip l

/-! ### Lemmas -/

theorem items_iter {v : Val} {l : List Val} (h : v.items = .ok l) : v.iter = .fin l := by
  unfold Val.items at h
  split at h <;> simp_all

theorem FnAndItems.iter {a b f : Val} {l : List Val} (h : FnAndItems a b f l) :
    ∃ it, fnAndIter a b = some (f, it) ∧ it.isIterable = true ∧ it.iter = .fin l := by
  cases h with
  | left hi hl => exact ⟨_, by simp [fnAndIter, hi], hi, items_iter hl⟩
  | right hi hl =>
    refine ⟨a, ?_, hi, items_iter hl⟩
    cases a <;> first | rfl | cases hi

theorem opMAP_fn (R : Rec X) {a b f : Val} {l : List Val} (h : FnAndItems a b f l) :
    opMAP R a b = (mapL (fun x => callVal R (some f) [x]) l >>= fun vs => pure (Res.v (.list vs))) := by
  cases h with
  | @left st ret _ _ hi hl =>
    have : opMAP R (.block st ret) b = (mapV R b (fun x => callVal R (some (.block st ret)) [x]) >>= fun vs =>
        pure (Res.v (.list vs))) := by
      cases b <;> first | rfl | cases hi
    rw [this, mapV, items_iter hl]
  | @right st ret _ _ hi hl =>
    have : opMAP R a (.block st ret) = (mapV R a (fun x => callVal R (some (.block st ret)) [x]) >>= fun vs =>
        pure (Res.v (.list vs))) := by
      cases a <;> first | rfl | cases hi
    rw [this, mapV, items_iter hl]

theorem runs_calls (f : Val) {γ : Type} (g : γ → List Val) (h : List Val → Res) (l : List γ) {s : St X} {r : Outcome X Res} :
    Runs (fun R => mapL (fun x => callVal R (some f) (g x)) l >>= fun vs => pure (h vs)) s r ↔
      ∃ r' : Outcome X (List Val), MapEach (fun x => Calls f (g x)) l s r' ∧ r = r'.map h := by
  have hm := fun x : γ => mono_callVal (X := X) (some f) (g x)
  refine (runs_map (mono_mapL hm l) h).trans ?_
  exact exists_congr fun r' => and_congr_left fun _ => runs_mapL hm l

theorem runs_callsTruth (want : Bool) (f : Val) (args : List Val) {s : St X} {r : Outcome X Bool} :
    Runs (fun R => callVal R (some f) args >>= fun v => pure (v.truthy == want)) s r ↔ CallsTruth want f args s r :=
  runs_map (mono_callVal (some f) args) _

theorem mono_callsTruth (want : Bool) (f : Val) (args : List Val) :
    Mono fun R : Rec X => callVal R (some f) args >>= fun v => pure (v.truthy == want) := fun C _ _ h =>
  C.bind (Cong.callVal h _ _) fun _ => C.pure _

theorem filterEach_congr {α : Type} {P Q : α → St X → Outcome X Bool → Prop} (h : ∀ a s o, P a s o ↔ Q a s o) {l : List α}
    {s : St X} {o : Outcome X (List α)} : FilterEach P l s o ↔ FilterEach Q l s o := by
  have : P = Q := by
    funext a s o
    exact propext (h a s o)
  rw [this]

theorem runs_filter (want : Bool) (f : Val) {γ : Type} (g : γ → List Val) (h : List γ → Res) (l : List γ) {s : St X}
    {r : Outcome X Res} :
    Runs (fun R => filterL (fun x => callVal R (some f) (g x) >>= fun v => pure (v.truthy == want)) l >>= fun vs => pure (h vs)) s r ↔
      ∃ r' : Outcome X (List γ), FilterEach (fun x => CallsTruth want f (g x)) l s r' ∧ r = r'.map h := by
  have hm := fun x : γ => mono_callsTruth (X := X) want f (g x)
  refine (runs_map (mono_filterL hm l) h).trans ?_
  refine exists_congr fun r' => and_congr_left fun _ => ?_
  exact (runs_filterL hm l).trans (filterEach_congr fun a _ _ => runs_callsTruth want f (g a))

/-! ### C58 -/

/-- `f M l`: the List of the results of calling `f` with each item, in order. -/
theorem C58_map (a b : Tree) (s s1 s2 : St X) (v w f : Val) (l : List Val) (ha : a.notOpr = true) (hb : b.notOpr = true)
    (hv : Vals a s (.ok v, s1)) (hw : Vals b s1 (.ok w, s2)) (h : FnAndItems v w f l) (out : Outcome X Res) :
    Evals (.node (op2 (s% "M")) [a, b]) s out ↔ ∃ r : Outcome X (List Val), MapEach (fun x => Calls f [x]) l s2 r ∧
      out = died (r.map fun vs => .v (.list vs)) := by
  have ho : (op2 (s% "M")).Direct := by decide +kernel
  have hf : (op2 (s% "M")).fn = .MAP := by decide +kernel
  rw [ho.evals (by simp [ha, hb]) (mapEach_two hv hw), hf]
  refine exists_died fun r => Iff.trans (runs_eq fun R => ?_) (runs_calls f (fun x => [x]) (fun vs => .v (.list vs)) l)
  exact congrFun (opMAP_fn R h) s2

/-- The result of `M` has one item for every item of the operand. -/
theorem C58_map_length (a b : Tree) (s s1 s2 s3 : St X) (v w f u : Val) (l : List Val) (ha : a.notOpr = true)
    (hb : b.notOpr = true) (hv : Vals a s (.ok v, s1)) (hw : Vals b s1 (.ok w, s2)) (h : FnAndItems v w f l)
    (he : Evals (.node (op2 (s% "M")) [a, b]) s (.ok (.v u), s3)) :
    ∃ vs, u = .list vs ∧ vs.length = l.length ∧
      ∀ (i : Nat) x y, l[i]? = some x → vs[i]? = some y → ∃ t t' : St X, Calls f [x] t (.ok y, t') := by
  obtain ⟨⟨e | vs, s4⟩, h1, h2⟩ := (C58_map a b s s1 s2 v w f l ha hb hv hw h _).1 he
  · cases died_ok.1 h2
  · have := died_ok.1 h2
    simp only [Outcome.map, Prod.mk.injEq, Except.ok.injEq, Res.v.injEq] at this
    obtain ⟨rfl, rfl⟩ := this
    exact ⟨vs, rfl, h1.length, fun i x y hx hy => h1.get hx hy⟩

/-- `f FI l` and `f FN l`: the items for which the result of `f` is true, or false. -/
theorem C58_filter (want : Bool) (a b : Tree) (s s1 s2 : St X) (v w f : Val) (l : List Val) (ha : a.notOpr = true)
    (hb : b.notOpr = true) (hv : Vals a s (.ok v, s1)) (hw : Vals b s1 (.ok w, s2)) (h : FnAndItems v w f l)
    (out : Outcome X Res) :
    Evals (.node (op2 (if want then s% "FI" else s% "FN")) [a, b]) s out ↔
      ∃ r : Outcome X (List Val), FilterEach (fun x => CallsTruth want f [x]) l s2 r ∧
        out = died (r.map fun vs => .v (.list vs)) := by
  have ho : (op2 (if want then s% "FI" else s% "FN")).Direct := by cases want <;> decide +kernel
  obtain ⟨it, h1, h2, h3⟩ := h.iter
  rw [ho.evals (by simp [ha, hb]) (mapEach_two hv hw)]
  refine exists_died fun r => Iff.trans (runs_eq fun R => ?_) (runs_filter want f (fun x => [x]) (fun vs => .v (.list vs)) l)
  have : valOp R (op2 (if want then s% "FI" else s% "FN")).fn [v, w] = opFILTER R want v w := by
    cases want
    · rw [show (op2 (if false then s% "FI" else s% "FN")).fn = .FILTERNOT by decide +kernel]; rfl
    · rw [show (op2 (if true then s% "FI" else s% "FN")).fn = .FILTER by decide +kernel]; rfl
  rw [this]
  simp only [opFILTER, h1, filterV, h3]

theorem Parted.spec {α : Type} {P : α → Bool → Prop} {l y n : List α} (h : Parted P l y n) :
    y.Sublist l ∧ n.Sublist l ∧ (y ++ n).Perm l ∧ (∀ x ∈ y, P x true) ∧ ∀ x ∈ n, P x false := by
  induction h with
  | nil => simp
  | @yes x l y n hx _ ih =>
    obtain ⟨h1, h2, h3, h4, h5⟩ := ih
    exact ⟨h1.cons_cons x, h2.cons x, h3.cons x, by simpa using ⟨hx, h4⟩, h5⟩
  | @no x l y n hx _ ih =>
    obtain ⟨h1, h2, h3, h4, h5⟩ := ih
    refine ⟨h1.cons x, h2.cons_cons x, ?_, h4, by simpa using ⟨hx, h5⟩⟩
    exact List.perm_middle.trans (h3.cons x)

/-- For a function without effects on the items of `l`, `FI` and `FN` divide the items between them. -/
theorem C58_partition (a b : Tree) (s s1 s2 : St X) (v w f : Val) (l : List Val) (ha : a.notOpr = true)
    (hb : b.notOpr = true) (hv : Vals a s (.ok v, s1)) (hw : Vals b s1 (.ok w, s2)) (h : FnAndItems v w f l)
    (hp : ∀ x ∈ l, ∃ u, Calls f [x] s2 (.ok u, s2)) :
    ∃ yes no, Evals (.node (op2 (s% "FI")) [a, b]) s (.ok (.v (.list yes)), s2) ∧
      Evals (.node (op2 (s% "FN")) [a, b]) s (.ok (.v (.list no)), s2) ∧
      Parted (fun x t => ∃ u, Calls f [x] s2 (.ok u, s2) ∧ u.truthy = t) l yes no ∧ (yes ++ no).Perm l := by
  have key : ∀ l : List Val, (∀ x ∈ l, ∃ u, Calls f [x] s2 (.ok u, s2)) → ∃ yes no,
      FilterEach (fun x => CallsTruth true f [x]) l s2 (.ok yes, s2) ∧
      FilterEach (fun x => CallsTruth false f [x]) l s2 (.ok no, s2) ∧
      Parted (fun x t => ∃ u, Calls f [x] s2 (.ok u, s2) ∧ u.truthy = t) l yes no := by
    intro l
    induction l with
    | nil => exact fun _ => ⟨[], [], .nil, .nil, .nil⟩
    | cons x l ih =>
      intro hp
      obtain ⟨yes, no, h1, h2, h3⟩ := ih fun x hx => hp x (by simp [hx])
      obtain ⟨u, hu⟩ := hp x (by simp)
      cases ht : u.truthy with
      | false =>
        refine ⟨yes, x :: no, FilterEach.drop (P := fun x => CallsTruth true f [x]) ⟨_, hu, ?_⟩ h1,
          FilterEach.keep (P := fun x => CallsTruth false f [x]) (o := (.ok no, s2)) ⟨_, hu, ?_⟩ h2, .no ⟨u, hu, ht⟩ h3⟩
        · simp [Outcome.map, ht]
        · simp [Outcome.map, ht]
      | true =>
        refine ⟨x :: yes, no, FilterEach.keep (P := fun x => CallsTruth true f [x]) (o := (.ok yes, s2)) ⟨_, hu, ?_⟩ h1,
          FilterEach.drop (P := fun x => CallsTruth false f [x]) ⟨_, hu, ?_⟩ h2, .yes ⟨u, hu, ht⟩ h3⟩
        · simp [Outcome.map, ht]
        · simp [Outcome.map, ht]
  obtain ⟨yes, no, h1, h2, h3⟩ := key l hp
  exact ⟨yes, no, (C58_filter true a b s s1 s2 v w f l ha hb hv hw h _).2 ⟨_, h1, rfl⟩,
    (C58_filter false a b s s1 s2 v w f l ha hb hv hw h _).2 ⟨_, h2, rfl⟩, h3, h3.spec.2.2.1⟩

/-- Unary `FI` and `FN` divide the items by their own truth values. -/
theorem C58_truth (a : Tree) (s s1 : St X) (v : Val) (l : List Val) (ha : a.notOpr = true) (hv : Vals a s (.ok v, s1))
    (hi : v.isIterable = true) (hl : v.items = .ok l) :
    ∃ yes no, (∀ out, Evals (.node (op1 (s% "FI")) [a]) s out ↔ out = (.ok (.v (.list yes)), s1)) ∧
      (∀ out, Evals (.node (op1 (s% "FN")) [a]) s out ↔ out = (.ok (.v (.list no)), s1)) ∧
      Parted (fun x t => x.truthy = t) l yes no ∧ (yes ++ no).Perm l := by
  have hd : (op1 (s% "FI")).Direct ∧ (op1 (s% "FN")).Direct := by decide +kernel
  have hp : Parted (fun (x : Val) t => x.truthy = t) l (l.filter fun x => x.truthy == true) (l.filter fun x => x.truthy == false) := by
    clear hl
    induction l with
    | nil => exact .nil
    | cons x l ih =>
      cases ht : x.truthy
      · simpa [ht] using Parted.no (P := fun (x : Val) t => x.truthy = t) ht ih
      · simpa [ht] using Parted.yes (P := fun (x : Val) t => x.truthy = t) ht ih
  have pure_out : ∀ (x : M X Res) (u : Val), x s1 = (.ok (.v u), s1) → ∀ out,
      (∃ r, Runs (fun _ => x) s1 r ∧ out = died r) ↔ out = (.ok (.v u), s1) := by
    intro x u hx out
    have : ∀ r, Runs (fun _ => x) s1 r ↔ r = (.ok (.v u), s1) := fun r =>
      (runs_eq (y := fun _ => pure (.v u)) fun _ => hx).trans runs_pure
    constructor
    · rintro ⟨r, h, rfl⟩
      rw [(this r).1 h]
      rfl
    · rintro rfl
      exact ⟨_, (this _).2 rfl, rfl⟩
  refine ⟨_, _, fun out => ?_, fun out => ?_, hp, hp.spec.2.2.1⟩
  · rw [hd.1.evals (by simp [ha]) (mapEach_single hv), show (op1 (s% "FI")).fn = .FILTER by decide +kernel]
    refine pure_out (liftRes (filterTrue true v)) _ ?_ out
    simp only [filterTrue, hi, if_true, hl]
    rfl
  · rw [hd.2.evals (by simp [ha]) (mapEach_single hv), show (op1 (s% "FN")).fn = .FILTERNOT by decide +kernel]
    refine pure_out (liftRes (filterTrue false v)) _ ?_ out
    simp only [filterTrue, hi, if_true, hl]
    rfl

example : toyOut (s% "P*{a*a}M[1 2 3]") [] [] = some (s% "1\n4\n9\n149\n") ∧
    toyOut (s% "P*{a%2}FI[1 2 3]P*[4 5 6]FN{a%2}") [] [] = some (s% "1\n3\n4\n6\n46\n") ∧
    toyOut (s% "P*FI[1 0 3]P*FN\"1200\"") [] [] = some (s% "1\n3\n0\n0\n00\n") := by
  exact ⟨by decide +kernel, by decide +kernel, by decide +kernel⟩

/-! ### C47 -/

theorem enumL_positions {α : Type} (l : List α) : enumL 0 l = positions l := by
  have : ∀ (l : List α) (n : Nat), enumL n l = (List.range' n l.length).zip l := by
    intro l
    induction l with
    | nil => exact fun _ => rfl
    | cons x l ih =>
      intro n
      simp [enumL, ih, List.range'_succ]
  rw [this, positions, List.range_eq_range']

/-- Position `i` of the enumeration is `i` with the item at `i`. -/
theorem positions_get {α : Type} (l : List α) (i : Nat) : (positions l)[i]? = l[i]?.map fun x => (i, x) := by
  unfold positions
  by_cases h : i < l.length
  · simp [List.getElem?_zip_eq_some, h]
  · rw [List.getElem?_eq_none (by simpa using Nat.le_of_not_lt h), List.getElem?_eq_none (by omega)]
    rfl

/-- `f FX l` and `f FE l`: the positions, or the items, for which `f` gives a true value when called with position and
item. -/
theorem C47_filter (a b : Tree) (s s1 s2 : St X) (v w f : Val) (l : List Val) (ha : a.notOpr = true)
    (hb : b.notOpr = true) (hv : Vals a s (.ok v, s1)) (hw : Vals b s1 (.ok w, s2)) (h : FnAndItems v w f l)
    (out : Outcome X Res) :
    (Evals (.node (op2 (s% "FX")) [a, b]) s out ↔
      ∃ r : Outcome X (List (Nat × Val)), FilterEach (fun p => CallsTruth true f [ofInt p.1, p.2]) (positions l) s2 r ∧
        out = died (r.map fun ps => .v (.list (ps.map fun p => ofInt p.1)))) ∧
    (Evals (.node (op2 (s% "FE")) [a, b]) s out ↔
      ∃ r : Outcome X (List (Nat × Val)), FilterEach (fun p => CallsTruth true f [ofInt p.1, p.2]) (positions l) s2 r ∧
        out = died (r.map fun ps => .v (.list (ps.map fun p => p.2)))) := by
  have ho : (op2 (s% "FX")).Direct ∧ (op2 (s% "FE")).Direct := by decide +kernel
  obtain ⟨it, h1, h2, h3⟩ := h.iter
  have hm := mapEach_two hv hw
  have hn : ∀ t ∈ [a, b], t.notOpr = true := by simp [ha, hb]
  rw [ho.1.evals hn hm, ho.2.evals hn hm, show (op2 (s% "FX")).fn = .FILTERINDEXES by decide +kernel,
    show (op2 (s% "FE")).fn = .FILTERENUMERATE by decide +kernel]
  have key : ∀ R : Rec X, filterEnum R f it =
      filterL (fun p => callVal R (some f) [ofInt p.1, p.2] >>= fun v => pure (v.truthy == true)) (positions l) := by
    intro R
    simp only [filterEnum, h3, enumL_positions]
    congr 1
    funext p
    simp
  constructor
  · refine exists_died fun r => Iff.trans (runs_eq fun R => ?_) (runs_filter true f (fun p : Nat × Val => [ofInt p.1, p.2])
      (fun ps => .v (.list (ps.map fun p => ofInt p.1))) (positions l))
    simp only [valOp, opFILTERINDEXES, h1, key]
  · refine exists_died fun r => Iff.trans (runs_eq fun R => ?_) (runs_filter true f (fun p : Nat × Val => [ofInt p.1, p.2])
      (fun ps => .v (.list (ps.map fun p => p.2))) (positions l))
    simp only [valOp, opFILTERENUMERATE, h1, key]

/-- `FX l`: the positions of the true items, in increasing order. -/
theorem C47_true (a : Tree) (s s1 : St X) (v : Val) (l : List Val) (ha : a.notOpr = true) (hv : Vals a s (.ok v, s1))
    (hi : v.isIterable = true) (hl : v.items = .ok l) :
    ∃ ix : List Nat, (∀ out, Evals (.node (op1 (s% "FX")) [a]) s out ↔ out = (.ok (.v (.list (ix.map fun i : Nat => ofInt i))), s1)) ∧
      ix.Pairwise (· < ·) ∧ ∀ i, i ∈ ix ↔ ∃ x, l[i]? = some x ∧ x.truthy = true := by
  have hd : (op1 (s% "FX")).Direct := by decide +kernel
  refine ⟨((positions l).filter fun p => p.2.truthy).map (·.1), fun out => ?_, ?_, fun i => ?_⟩
  · rw [hd.evals (by simp [ha]) (mapEach_single hv), show (op1 (s% "FX")).fn = .FILTERINDEXES by decide +kernel]
    have : ∀ r, Runs (fun R : Rec X => valOp R .FILTERINDEXES [v]) s1 r ↔
        r = (.ok (.v (.list ((((positions l).filter fun p => p.2.truthy).map (·.1)).map fun i : Nat => ofInt i))), s1) := by
      intro r
      refine (runs_eq (y := fun _ => pure _) fun R => ?_).trans runs_pure
      simp only [valOp, opFILTERINDEXES1, hi, if_true, hl, enumL_positions, List.map_map]
      rfl
    constructor
    · rintro ⟨r, h, rfl⟩
      rw [(this r).1 h]
      rfl
    · rintro rfl
      exact ⟨_, (this _).2 rfl, rfl⟩
  · refine List.Pairwise.sublist (List.filter_sublist.map _) (?_ : ((positions l).map (·.1)).Pairwise (· < ·))
    rw [positions, List.map_fst_zip (by simp)]
    exact List.pairwise_lt_range
  · have hmem : ∀ p, p ∈ positions l ↔ l[p.1]? = some p.2 := by
      rintro ⟨j, x⟩
      simp only [List.mem_iff_getElem?, positions_get, Option.map_eq_some_iff, Prod.mk.injEq]
      exact ⟨fun ⟨_, _, h, e1, e2⟩ => e1 ▸ e2 ▸ h, fun h => ⟨_, _, h, rfl, rfl⟩⟩
    simp only [List.mem_map, List.mem_filter, hmem]
    constructor
    · rintro ⟨p, ⟨hp, ht⟩, rfl⟩
      exact ⟨_, hp, ht⟩
    · rintro ⟨x, hx, ht⟩
      exact ⟨(i, x), ⟨hx, ht⟩, rfl⟩

theorem zip_enum (l : List Val) : ((rangeInts none l.length).map ofInt).zip l = (positions l).map fun p => (ofInt p.1, p.2) := by
  apply List.ext_getElem?
  intro i
  rw [List.getElem?_map, positions_get]
  have hm := C14_members 0 l.length
  have e : rangeInts none (l.length : Int) = rangeInts (some 0) l.length := rfl
  by_cases h : i < l.length
  · have h1 := hm.2 i (by simpa using h)
    rw [← e] at h1
    rw [List.getElem?_eq_getElem h]
    exact List.getElem?_zip_eq_some.2 ⟨by rw [List.getElem?_map, h1]; simp, List.getElem?_eq_getElem h⟩
  · rw [List.getElem?_eq_none (by simp; omega), List.getElem?_eq_none (by omega)]
    rfl

/-- `f ME l`: the results of `f` called with each position and item. -/
theorem C47_map (a b : Tree) (s s1 s2 : St X) (v w f : Val) (l : List Val) (ha : a.notOpr = true)
    (hb : b.notOpr = true) (hv : Vals a s (.ok v, s1)) (hw : Vals b s1 (.ok w, s2)) (h : FnAndItems v w f l)
    (out : Outcome X Res) :
    Evals (.node (op2 (s% "ME")) [a, b]) s out ↔
      ∃ r : Outcome X (List Val), MapEach (fun p => Calls f [ofInt p.1, p.2]) (positions l) s2 r ∧
        out = died (r.map fun vs => .v (.list vs)) := by
  have ho : (op2 (s% "ME")).Direct := by decide +kernel
  obtain ⟨it, h1, h2, h3⟩ := h.iter
  obtain ⟨st, ret, rfl⟩ : ∃ st ret, f = .block st ret := by cases h <;> exact ⟨_, _, rfl⟩
  have hlen : it.len = .ok l.length := by
    cases it with
    | scalar t => simp only [Val.iter, It.fin.injEq] at h3; subst h3; simp [Val.len]
    | list t => simp only [Val.iter, It.fin.injEq] at h3; subst h3; simp [Val.len]
    | range lo hi =>
      cases hi with
      | none => cases h3
      | some hi => simp only [Val.iter, It.fin.injEq] at h3; subst h3; simp [Val.len, rangeInts_length]
    | _ => cases h2
  rw [ho.evals (by simp [ha, hb]) (mapEach_two hv hw), show (op2 (s% "ME")).fn = .MAPENUMERATE by decide +kernel]
  refine exists_died fun r => Iff.trans (runs_eq fun R => ?_) (runs_calls (.block st ret) (fun p : Nat × Val => [ofInt p.1, p.2])
      (fun vs => .v (.list vs)) (positions l))
  have key : ∀ (g : Val → Val → M X Val) (l : List (Nat × Val)), mapL (fun p : Val × Val => g p.1 p.2)
      (l.map fun p => (ofInt p.1, p.2)) = mapL (fun p : Nat × Val => g (ofInt p.1) p.2) l := by
    intro g l
    induction l with
    | nil => rfl
    | cons x l ih => simp only [List.map_cons, mapL, ih]
  have e : zipV R (.range none (some l.length)) it (fun x y => callVal R (some (.block st ret)) [x, y]) =
      mapL (fun p => callVal R (some (.block st ret)) [ofInt p.1, p.2]) (positions l) := by
    unfold zipV
    rw [h3, show Val.iter (.range none (some (l.length : Int))) = .fin ((rangeInts none l.length).map ofInt) from rfl]
    simp only [zip_enum]
    exact key (fun x y => callVal R (some (.block st ret)) [x, y]) (positions l)
  have e2 : opMAPZIP R (.block st ret) (.range none (some l.length)) it =
      (zipV R (.range none (some l.length)) it (fun x y => callVal R (some (.block st ret)) [x, y]) >>= fun vs =>
        pure (Res.v (.list vs))) := by
    have h5 : Val.isIterable (.range none (some (l.length : Int))) = true := rfl
    simp only [opMAPZIP, h2, h5, Bool.and_true, if_true]
  show opMAPENUMERATE R v w s2 = _
  simp only [opMAPENUMERATE, h1, hlen]
  rw [← e, ← e2]
  rfl

example : toyOut (s% "P*{a*b}ME[5 6 7]P*{a*b>6}FX[5 6 7]P*{a*b>6}FE[5 6 7]P*FX[4 0 5]") [] [] =
    some (s% "0\n6\n14\n2\n7\n0\n2\n02\n") := by decide +kernel

/-! ### C52 -/

/-- The pairs `(0, 0), ..., (0, c - 1), (1, 0), ..., (r - 1, c - 1)` -/
def cells (r c : Nat) : List (Nat × Nat) := (List.range r).flatMap fun i => (List.range c).map fun j => (i, j)

/-- A list cut into `r` rows of `c` items -/
def rowsOf (r c : Nat) (l : List Val) : List Val := (List.range r).map fun i => .list ((l.drop (i * c)).take c)

/-- The size that a right operand of `MC` stands for -/
inductive GridSize : Val → Int → Int → Prop
  | square {t : Str} : GridSize (.scalar t) (toInt t) (toInt t)
  | single {t : Str} : GridSize (.list [.scalar t]) (toInt t) (toInt t)
  | pair {t u : Str} {l : List Val} : GridSize (.list (.scalar t :: .scalar u :: l)) (toInt t) (toInt u)
  | range {lo : Option Int} : GridSize (.range lo none) (lo0 lo) (lo0 lo + 1)

theorem mapEach_append {α β : Type} {P : α → St X → Outcome X β → Prop} {l m : List α} {s : St X} {r : Outcome X (List β)} :
    MapEach P (l ++ m) s r ↔ Then (MapEach P l) (fun xs s r => ∃ r' : Outcome X (List β), MapEach P m s r' ∧ r = r'.map (xs ++ ·)) s r := by
  induction l generalizing s r with
  | nil =>
    constructor
    · intro h
      exact .ok (a := []) .nil ⟨r, h, by rcases r with ⟨_ | _, _⟩ <;> rfl⟩
    · intro h
      cases h with
      | ok h1 h2 =>
        cases h1
        obtain ⟨r', h3, rfl⟩ := h2
        rcases r' with ⟨_ | _, _⟩ <;> exact h3
      | fail h1 => cases h1
  | cons x l ih =>
    constructor
    · intro h
      cases h with
      | next h1 h2 =>
        have h3 := ih.1 h2
        cases h3 with
        | @ok s2 a _ h4 h5 =>
          obtain ⟨r', h6, rfl⟩ := h5
          exact .ok (.next (o := (.ok a, s2)) h1 h4) ⟨r', h6, by simp [Outcome.map_map]⟩
        | @fail s2 e h4 => exact .fail (.next (o := (.error e, s2)) h1 h4)
      | fail h1 => exact .fail (.fail h1)
    · rintro (⟨h1, r', h2, rfl⟩ | h1)
      · obtain ⟨y, s3, zs, h3, h4, rfl⟩ := mapEach_cons_ok.1 h1
        have := MapEach.next (P := P) h3 (ih.2 (.ok h4 ⟨r', h2, rfl⟩))
        simpa [Outcome.map_map] using this
      · rename_i s1 e
        generalize ho : ((.error e, s1) : Outcome X (List β)) = o at h1
        cases h1 with
        | @next _ _ _ s2 y o h3 h4 =>
          rcases o with ⟨e' | ys, s5⟩
          · simp only [Outcome.map, Prod.mk.injEq, Except.error.injEq] at ho
            obtain ⟨rfl, rfl⟩ := ho
            exact MapEach.next (P := P) (o := (.error e, s1)) h3 (ih.2 (.fail h4))
          · cases ho
        | fail h3 =>
          cases ho
          exact .fail h3

theorem mapEach_flatMap {α β γ : Type} {P : α → St X → Outcome X β → Prop} (g : γ → List α) {l : List γ} {s : St X}
    {r : Outcome X (List β)} :
    MapEach P (l.flatMap g) s r ↔
      ∃ r' : Outcome X (List (List β)), MapEach (fun i => MapEach P (g i)) l s r' ∧ r = r'.map List.flatten := by
  induction l generalizing s r with
  | nil =>
    constructor
    · rintro ⟨⟩
      exact ⟨_, .nil, rfl⟩
    · rintro ⟨_, ⟨⟩, rfl⟩
      exact .nil
  | cons x l ih =>
    rw [List.flatMap_cons, mapEach_append]
    constructor
    · rintro (⟨h1, r', h2, rfl⟩ | h1)
      · obtain ⟨r2, h3, rfl⟩ := ih.1 h2
        exact ⟨_, .next h1 h3, by simp [Outcome.map_map]⟩
      · exact ⟨_, .fail h1, rfl⟩
    · rintro ⟨r', h, rfl⟩
      cases h with
      | next h1 h2 => exact .ok h1 ⟨_, ih.2 ⟨_, h2, rfl⟩, by simp [Outcome.map_map]⟩
      | fail h1 => exact .fail h1

theorem pyRange_range (n : Int) : pyRange n = (List.range n.toNat).map fun i : Nat => (i : Int) := by
  have h := pyRange_get n.toNat
  have e : pyRange (n.toNat : Int) = pyRange n := by unfold pyRange; rw [Int.toNat_natCast]
  rw [e] at h
  apply List.ext_getElem?
  intro i
  by_cases hi : i < n.toNat
  · rw [h.2 i hi]
    simp [hi]
  · rw [List.getElem?_eq_none (by omega), List.getElem?_eq_none (by simpa using hi)]

theorem mapL_map {α β γ : Type} (g : α → β) (f : β → M X γ) (l : List α) : mapL f (l.map g) = mapL (fun x => f (g x)) l := by
  induction l with
  | nil => rfl
  | cons x l ih => simp only [List.map_cons, mapL, ih]

theorem rowsOf_flatten (c : Nat) (rows : List (List Val)) (h : ∀ row ∈ rows, row.length = c) :
    rowsOf rows.length c rows.flatten = rows.map .list := by
  induction rows with
  | nil => rfl
  | cons row rows ih =>
    have h0 : row.length = c := h row (by simp)
    have ih := ih fun r hr => h r (by simp [hr])
    simp only [rowsOf, List.length_cons, List.range_succ_eq_map, List.map_cons, List.map_map, List.flatten_cons, Nat.zero_mul,
      List.drop_zero]
    congr 1
    · rw [List.take_append_of_le_length (by omega), List.take_of_length_le (by omega)]
    · rw [← ih]
      unfold rowsOf
      refine List.map_congr_left fun i _ => ?_
      simp only [Function.comp]
      rw [show i.succ * c = row.length + i * c by rw [h0, Nat.succ_mul]; omega, ← List.drop_drop, List.drop_left]

theorem MapEach.all {α β : Type} {P : α → St X → Outcome X β → Prop} {Q : β → Prop}
    (h : ∀ a s y s', P a s (.ok y, s') → Q y) : ∀ {l : List α} {s s' : St X} {ys : List β}, MapEach P l s (.ok ys, s') → ∀ y ∈ ys, Q y := by
  intro l
  induction l with
  | nil => rintro s s' ys ⟨⟩; simp
  | cons x l ih =>
    intro s s' ys hm
    obtain ⟨y, s1, zs, h1, h2, rfl⟩ := mapEach_cons_ok.1 hm
    intro z hz
    rcases List.mem_cons.1 hz with rfl | hz
    · exact h _ _ _ _ h1
    · exact ih h2 z hz

/-- `f MC n`: `f` is called once for every cell, row by row; the results form the rows. -/
theorem C52_mapcoords (a b : Tree) (s s1 s2 : St X) (st : List Tree) (ret : Tree) (w : Val) (r c : Int) (ha : a.notOpr = true)
    (hb : b.notOpr = true) (hv : Vals a s (.ok (.block st ret), s1)) (hw : Vals b s1 (.ok w, s2)) (h : GridSize w r c)
    (out : Outcome X Res) :
    Evals (.node (op2 (s% "MC")) [a, b]) s out ↔
      ∃ res : Outcome X (List Val),
        MapEach (fun p => Calls (.block st ret) [ofInt p.1, ofInt p.2]) (cells r.toNat c.toNat) s2 res ∧
        out = died (res.map fun vs => .v (.list (rowsOf r.toNat c.toNat vs))) := by
  have ho : (op2 (s% "MC")).Direct := by decide +kernel
  have hg : gridSize w = .ok (some (r, c)) := by
    cases h with
    | square => rfl
    | single => simp [gridSize, Val.isListy, Val.isList, Val.isEmpty, Val.get, bind, Except.bind, pure, Except.pure]
    | pair =>
      rename_i t u l
      have h1 : (1 : Int) % ((l.length : Int) + 1 + 1) = 1 := Int.emod_eq_of_lt (by omega) (by omega)
      simp [gridSize, Val.isListy, Val.isList, Val.isEmpty, Val.get, bind, Except.bind, pure, Except.pure, h1]
    | range =>
      rename_i lo
      have e : Val.isEmpty (.range lo none) = false := rfl
      simp [gridSize, Val.isListy, Val.isRange, e, Val.get, rangeAt, bind, Except.bind, pure, Except.pure, ofInt, toInt_showInt]
  rw [ho.evals (by simp [ha, hb]) (mapEach_two hv hw), show (op2 (s% "MC")).fn = .MAPCOORDS by decide +kernel]
  refine exists_died fun res => ?_
  have hm : ∀ p : Nat × Nat, Mono fun R : Rec X => callVal R (some (.block st ret)) [ofInt p.1, ofInt p.2] := fun p =>
    mono_callVal _ _
  have hrow : ∀ i : Nat, Mono fun R : Rec X => mapL (fun j : Nat => callVal R (some (.block st ret)) [ofInt i, ofInt j])
      (List.range c.toNat) := fun i => mono_mapL (fun j => hm (i, j)) _
  have hrow' : ∀ i : Nat, Mono fun R : Rec X => mapL (fun j : Nat => callVal R (some (.block st ret)) [ofInt i, ofInt j])
      (List.range c.toNat) >>= fun row => pure (Val.list row) := fun i C _ _ hh => C.bind (hrow i C _ _ hh) fun _ => C.pure _
  have step : Runs (fun R : Rec X => valOp R .MAPCOORDS [.block st ret, w]) s2 res ↔
      Runs (fun R : Rec X => mapL (fun i : Nat => mapL (fun j : Nat => callVal R (some (.block st ret)) [ofInt i, ofInt j])
        (List.range c.toNat) >>= fun row => pure (Val.list row)) (List.range r.toNat) >>= fun rows =>
          pure (Res.v (.list rows))) s2 res := by
    refine runs_eq fun R => ?_
    show opMAPCOORDS R (.block st ret) w s2 = _
    have e1 : ∀ i : Int, mapL (fun j => callVal R (some (.block st ret)) [ofInt i, ofInt j]) (pyRange c) =
        mapL (fun j : Nat => callVal R (some (.block st ret)) [ofInt i, ofInt j]) (List.range c.toNat) := by
      intro i
      rw [pyRange_range, mapL_map]
    have e3 : opMAPCOORDS R (.block st ret) w s2 = (mapL (fun i => mapL (fun j => callVal R (some (.block st ret)) [ofInt i, ofInt j])
        (pyRange c) >>= fun row => pure (Val.list row)) (pyRange r) >>= fun rows => pure (Res.v (.list rows))) s2 := by
      simp only [opMAPCOORDS, hg]
      rfl
    rw [e3]
    simp only [e1]
    rw [pyRange_range r, mapL_map]
  rw [step, runs_map (mono_mapL hrow' _)]
  have e2 : ∀ r', Runs (fun R : Rec X => mapL (fun i : Nat => mapL (fun j : Nat => callVal R (some (.block st ret)) [ofInt i, ofInt j])
        (List.range c.toNat) >>= fun row => pure (Val.list row)) (List.range r.toNat)) s2 r' ↔
      ∃ r2 : Outcome X (List (List Val)), MapEach (fun i : Nat => MapEach (fun p : Nat × Nat => Calls (.block st ret) [ofInt p.1, ofInt p.2])
        ((List.range c.toNat).map fun j => (i, j))) (List.range r.toNat) s2 r2 ∧ r' = r2.map (List.map .list) := by
    intro r'
    rw [runs_mapL hrow', ← mapEach_map]
    refine mapEach_congr fun i _ s o => ?_
    rw [runs_map (hrow i)]
    refine exists_congr fun r2 => and_congr_left fun _ => ?_
    refine Iff.trans (runs_eq fun R => ?_) (runs_mapL hm _)
    rw [mapL_map]
  unfold cells
  simp only [e2, mapEach_flatMap]
  have hlen : ∀ r2 : Outcome X (List (List Val)), MapEach (fun i : Nat => MapEach (fun p : Nat × Nat => Calls (.block st ret) [ofInt p.1, ofInt p.2])
        ((List.range c.toNat).map fun j => (i, j))) (List.range r.toNat) s2 r2 →
      (r2.map (List.map Val.list)).map (fun rows => Res.v (.list rows)) =
      (r2.map List.flatten).map fun vs => Res.v (.list (rowsOf r.toNat c.toNat vs)) := by
    rintro ⟨e | rows, s3⟩ h2
    · rfl
    · have h3 : rows.length = r.toNat := by simpa using h2.length
      have h4 : ∀ row ∈ rows, row.length = c.toNat := h2.all fun i s y s' hy => by simpa using hy.length
      simp only [Outcome.map]
      rw [← h3, rowsOf_flatten c.toNat rows h4]
  constructor
  · rintro ⟨r', ⟨r2, h2, rfl⟩, rfl⟩
    exact ⟨_, ⟨r2, h2, rfl⟩, hlen r2 h2⟩
  · rintro ⟨r', ⟨r2, h2, rfl⟩, rfl⟩
    exact ⟨_, ⟨r2, h2, rfl⟩, (hlen r2 h2).symm⟩

example : cells 2 3 = [(0, 0), (0, 1), (0, 2), (1, 0), (1, 1), (1, 2)] := by decide
example : toyOut (s% "P*{10*a+b}MC[2 3]") [] [] = some (s% "012\n101112\n012101112\n") := by decide +kernel

/-! ### C34 -/

theorem mapEach_zip {α β γ : Type} {P : α → St X → Outcome X β → Prop} (g : α → β → γ) {l : List α} {s : St X}
    {r : Outcome X (List γ)} :
    MapEach (fun a s r => ∃ r' : Outcome X β, P a s r' ∧ r = r'.map (g a)) l s r ↔
      ∃ r' : Outcome X (List β), MapEach P l s r' ∧ r = r'.map (List.zipWith g l) := by
  induction l generalizing s r with
  | nil =>
    constructor
    · rintro ⟨⟩
      exact ⟨_, .nil, rfl⟩
    · rintro ⟨_, ⟨⟩, rfl⟩
      exact .nil
  | cons x l ih =>
    constructor
    · intro h
      cases h with
      | next h1 h2 =>
        obtain ⟨⟨e | y, s1⟩, h3, h4⟩ := h1
        · cases h4
        · simp only [Outcome.map, Prod.mk.injEq, Except.ok.injEq] at h4
          obtain ⟨rfl, rfl⟩ := h4
          obtain ⟨r', h5, rfl⟩ := ih.1 h2
          exact ⟨_, .next h3 h5, by simp [Outcome.map_map]⟩
      | fail h1 =>
        obtain ⟨⟨e | y, s1⟩, h3, h4⟩ := h1
        · simp only [Outcome.map, Prod.mk.injEq, Except.error.injEq] at h4
          obtain ⟨rfl, rfl⟩ := h4
          exact ⟨_, .fail h3, rfl⟩
        · cases h4
    · rintro ⟨r', h, rfl⟩
      cases h with
      | next h1 h2 =>
        have := MapEach.next (P := fun a s r => ∃ r' : Outcome X β, P a s r' ∧ r = r'.map (g a)) ⟨_, h1, rfl⟩ (ih.2 ⟨_, h2, rfl⟩)
        simpa [Outcome.map_map] using this
      | fail h1 => exact .fail ⟨_, h1, rfl⟩

/-- The outcome of a computation whose TypeErrors are caught -/
def caught {α : Type} (d : α) : Outcome X α → Outcome X α
  | (.error .typeError, s) => (.ok d, { s with swallowed := s.swallowed + 1 })
  | o => o

theorem runs_catchType {α : Type} {x : Rec X → M X α} (hx : Mono x) (d : α) {s : St X} {o : Outcome X α} :
    Runs (fun R => (x R).catchType d) s o ↔ ∃ o', Runs x s o' ∧ o = caught d o' := by
  have e : ∀ (y : M X α) s, y.catchType d s = caught d (y s) := by
    intro y s
    simp only [M.catchType, caught]
    rcases y s with ⟨e | _, _⟩
    · cases e <;> rfl
    · rfl
  have hf : ∀ o : Outcome X α, (caught d o).1 = .error .fuel ↔ o.1 = .error .fuel := by
    rintro ⟨e | _, _⟩
    · cases e <;> simp [caught]
    · simp [caught]
  constructor
  · rintro ⟨ho, n, hn⟩
    have h0 : caught d (x (run X n) s) = o := (e _ _).symm.trans (hn n (Nat.le_refl n))
    refine ⟨x (run X n) s, hx.runs rfl fun h => ho (by rw [← h0, hf, h]), h0.symm⟩
  · rintro ⟨o', ⟨ho, n, hn⟩, rfl⟩
    exact ⟨fun h => ho ((hf _).1 h), n, fun m hm => (e _ _).trans (by rw [hn m hm])⟩

/-- What `SK` and `DK` do, in terms of the calls of the key function -/
theorem evals_keyed (desc : Bool) (a b : Tree) (s s1 s2 : St X) (v w f : Val) (l : List Val) (ha : a.notOpr = true)
    (hb : b.notOpr = true) (hv : Vals a s (.ok v, s1)) (hw : Vals b s1 (.ok w, s2)) (h : FnAndItems v w f l)
    (out : Outcome X Res) :
    Evals (.node (op2 (if desc then s% "DK" else s% "SK")) [a, b]) s out ↔
      ∃ r : Outcome X (List Val), MapEach (fun x => Calls f [x]) l s2 r ∧
        out = died ((caught .nil (r.map fun ks => sortByKeys X desc (List.zipWith (fun x k => (k.key X, x)) l ks))).map .v) := by
  have ho : (op2 (if desc then s% "DK" else s% "SK")).Direct ∧
      (op2 (if desc then s% "DK" else s% "SK")).fn = if desc then .DESCENDINGKEYED else .SORTKEYED := by
    cases desc <;> decide +kernel
  obtain ⟨it, h1, h2, h3⟩ := h.iter
  obtain ⟨st, ret, rfl⟩ : ∃ st ret, f = .block st ret := by cases h <;> exact ⟨_, _, rfl⟩
  rw [ho.1.evals (by simp [ha, hb]) (mapEach_two hv hw), ho.2]
  have hc : ∀ x : Val, Mono fun R : Rec X => callVal R (some (.block st ret)) [x] >>= fun k => pure (k.key X, x) := fun x C _ _ hh =>
    C.bind (mono_callVal _ _ C _ _ hh) fun _ => C.pure _
  have hm := mono_mapL hc l
  have step : ∀ r, Runs (fun R : Rec X => valOp R (if desc then .DESCENDINGKEYED else .SORTKEYED) [v, w]) s2 r ↔
      Runs (fun R : Rec X => M.catchType (mapL (fun x => callVal R (some (.block st ret)) [x] >>= fun k => pure (k.key X, x)) l >>=
        fun ks => pure (sortByKeys X desc ks)) .nil >>= fun v => pure (Res.v v)) s2 r := by
    intro r
    refine runs_eq fun R => ?_
    have e1 : valOp R (if desc then .DESCENDINGKEYED else .SORTKEYED) [v, w] = opSORTKEYED R desc v w := by cases desc <;> rfl
    have e2 : it.pyList = .ok l := by rw [Val.pyList, h3]
    rw [e1]
    cases h with
    | left hi hl =>
      have e3 : it = w := by
        simp only [fnAndIter, hi, if_true, Option.some.injEq, Prod.mk.injEq, true_and] at h1
        exact h1.symm
      subst e3
      simp only [opSORTKEYED, h2, if_true, e2]
      rfl
    | right hi hl =>
      have e3 : it = v := by
        cases v <;> simp_all [fnAndIter]
      subst e3
      have e4 : opSORTKEYED R desc it (.block st ret) = opSORTKEYED R desc (.block st ret) it := by
        cases it <;> simp_all [opSORTKEYED, Val.isIterable]
      rw [e4]
      simp only [opSORTKEYED, h2, if_true, e2]
      rfl
  have hk : ∀ r, Runs (fun R : Rec X => mapL (fun x => callVal R (some (.block st ret)) [x] >>= fun k => pure (k.key X, x)) l) s2 r ↔
      ∃ r' : Outcome X (List Val), MapEach (fun x => Calls (.block st ret) [x]) l s2 r' ∧
        r = r'.map (List.zipWith (fun x k => (k.key X, x)) l) := by
    intro r
    rw [runs_mapL hc, ← mapEach_zip]
    refine mapEach_congr fun x _ s o => ?_
    exact runs_map (mono_callVal _ _) fun k => (k.key X, x)
  have hm2 : Mono fun R : Rec X => mapL (fun x => callVal R (some (.block st ret)) [x] >>= fun k => pure (k.key X, x)) l >>=
      fun ks => pure (sortByKeys X desc ks) := fun C _ _ hh => C.bind (hm C _ _ hh) fun _ => C.pure _
  have hm3 : Mono fun R : Rec X => M.catchType (mapL (fun x => callVal R (some (.block st ret)) [x] >>= fun k => pure (k.key X, x)) l >>=
      fun ks => pure (sortByKeys X desc ks)) .nil := fun C _ _ hh => C.catchType _ (hm2 C _ _ hh)
  simp only [step, runs_map hm3, runs_catchType hm2, runs_map hm, hk]
  constructor
  · rintro ⟨_, ⟨_, ⟨_, ⟨_, ⟨r, h, rfl⟩, rfl⟩, rfl⟩, rfl⟩, rfl⟩
    exact ⟨r, h, by rw [Outcome.map_map]⟩
  · rintro ⟨r, h, rfl⟩
    exact ⟨_, ⟨_, ⟨_, ⟨_, ⟨r, h, rfl⟩, rfl⟩, rfl⟩, rfl⟩, by rw [Outcome.map_map]⟩

theorem zipWith_pairs (X : Ext) (l ks : List Val) :
    List.zipWith (fun x k => (Val.key X k, x)) l ks = (ks.zip l).map fun p => (p.1.key X, p.2) := by
  induction l generalizing ks with
  | nil => cases ks <;> rfl
  | cons x l ih =>
    cases ks with
    | nil => rfl
    | cons k ks => simp [ih]

/-- `SK` and `DK`: the key function is called once for each item, in order. With keys that are integers the result has
the items of the pairs of key and item sorted stably by key. -/
theorem C34_keyed (a b : Tree) (s s1 s2 s3 : St X) (v w f : Val) (l ks : List Val) (ha : a.notOpr = true)
    (hb : b.notOpr = true) (hv : Vals a s (.ok v, s1)) (hw : Vals b s1 (.ok w, s2)) (h : FnAndItems v w f l)
    (hk : MapEach (fun x => Calls f [x]) l s2 (.ok ks, s3)) (κ : Val → Int) (hi : ∀ k ∈ ks, k.key X = .num (.int (κ k))) :
    ∃ r r' : List (Val × Val), (∀ out, Evals (.node (op2 (s% "SK")) [a, b]) s out ↔ out = (.ok (.v (.list (r.map (·.2)))), s3)) ∧
      (∀ out, Evals (.node (op2 (s% "DK")) [a, b]) s out ↔ out = (.ok (.v (.list (r'.map (·.2)))), s3)) ∧
      StableSort (fun p q => decide (κ p.1 ≤ κ q.1)) (ks.zip l) r ∧
      StableSort (fun p q => decide (κ q.1 ≤ κ p.1)) (ks.zip l) r' ∧
      (r.map (·.2)).Perm l ∧ (r'.map (·.2)).Perm l := by
  have hlen : ks.length = l.length := hk.length
  have hz : (ks.zip l).map (·.2) = l := List.map_snd_zip (by omega)
  have main : ∀ desc : Bool, sortByKeys X desc (List.zipWith (fun x k => (k.key X, x)) l ks) =
      .list (((ks.zip l).mergeSort fun p q => if desc then decide (κ q.1 ≤ κ p.1) else decide (κ p.1 ≤ κ q.1)).map (·.2)) := by
    intro desc
    have hlt : ∀ p ∈ ks.zip l, ∀ q ∈ ks.zip l, keyLt X (p.1.key X) (q.1.key X) = some (decide (κ p.1 < κ q.1)) := by
      intro p hp q hq
      rw [hi _ (List.of_mem_zip hp).1, hi _ (List.of_mem_zip hq).1]
      simp [keyLt, nlt]
    rw [zipWith_pairs]
    have hc : comparable X (((ks.zip l).map fun p => (p.1.key X, p.2)).map (·.1)) = true := by
      simp only [comparable, List.all_eq_true, List.map_map]
      intro k hk k' hk'
      obtain ⟨p, hp, rfl⟩ := List.mem_map.1 hk
      obtain ⟨q, hq, rfl⟩ := List.mem_map.1 hk'
      simp only [Function.comp, hlt p hp q hq, Option.isSome_some]
    rw [sortByKeys, if_pos hc, sortKeyed]
    have e := List.map_mergeSort (l := ks.zip l) (f := fun p => (p.1.key X, p.2))
      (r := fun p q => if desc then decide (κ q.1 ≤ κ p.1) else decide (κ p.1 ≤ κ q.1))
      (s := fun a b => if desc then !((keyLt X a.1 b.1).getD false) else !((keyLt X b.1 a.1).getD false))
      (by
        intro p hp q hq
        simp only [hlt p hp q hq, hlt q hq p hp, Option.getD_some, ← decide_not, Int.not_lt])
    rw [← e, List.map_map]
    rfl
  have final : ∀ (desc : Bool) out, Evals (.node (op2 (if desc then s% "DK" else s% "SK")) [a, b]) s out ↔ out = (.ok (.v (.list
      (((ks.zip l).mergeSort fun p q => if desc then decide (κ q.1 ≤ κ p.1) else decide (κ p.1 ≤ κ q.1)).map (·.2)))), s3) := by
    intro desc out
    rw [evals_keyed desc a b s s1 s2 v w f l ha hb hv hw h]
    constructor
    · rintro ⟨r, h1, rfl⟩
      rw [MapEach.det (P := fun x => Calls f [x]) (fun _ _ _ _ => Runs.det) h1 hk]
      simp only [Outcome.map, main desc]
      rfl
    · rintro rfl
      refine ⟨_, hk, ?_⟩
      simp only [Outcome.map, main desc]
      rfl
  have s1 := stableSort_mergeSort (fun p q : Val × Val => decide (κ p.1 ≤ κ q.1)) (by simp only [decide_eq_true_eq]; intros; omega)
    (by simp only [Bool.or_eq_true, decide_eq_true_eq]; intros; omega) (ks.zip l)
  have s2 := stableSort_mergeSort (fun p q : Val × Val => decide (κ q.1 ≤ κ p.1)) (by simp only [decide_eq_true_eq]; intros; omega)
    (by simp only [Bool.or_eq_true, decide_eq_true_eq]; intros; omega) (ks.zip l)
  exact ⟨_, _, final false, final true, s1, s2, by simpa [hz] using s1.1.map (·.2), by simpa [hz] using s2.1.map (·.2)⟩

/-- With other keys the result is a permutation of the items, or nil. -/
theorem C34_keyed_permutation (desc : Bool) (a b : Tree) (s s1 s2 s3 : St X) (v w f : Val) (l ks : List Val) (ha : a.notOpr = true)
    (hb : b.notOpr = true) (hv : Vals a s (.ok v, s1)) (hw : Vals b s1 (.ok w, s2)) (h : FnAndItems v w f l)
    (hk : MapEach (fun x => Calls f [x]) l s2 (.ok ks, s3)) :
    ∃ u, (∀ out, Evals (.node (op2 (if desc then s% "DK" else s% "SK")) [a, b]) s out ↔ out = (.ok (.v u), s3)) ∧
      (u = .nil ∨ ∃ r, u = .list r ∧ r.Perm l) := by
  have hlen : ks.length = l.length := hk.length
  have hz : (ks.zip l).map (·.2) = l := List.map_snd_zip (by omega)
  refine ⟨sortByKeys X desc (List.zipWith (fun x k => (k.key X, x)) l ks), fun out => ?_, ?_⟩
  · rw [evals_keyed desc a b s s1 s2 v w f l ha hb hv hw h]
    constructor
    · rintro ⟨r, h1, rfl⟩
      rw [MapEach.det (P := fun x => Calls f [x]) (fun _ _ _ _ => Runs.det) h1 hk]
      rfl
    · rintro rfl
      exact ⟨_, hk, rfl⟩
  · rw [sortByKeys]
    split
    · refine .inr ⟨_, rfl, ?_⟩
      have := (List.mergeSort_perm (List.zipWith (fun x k => (k.key X, x)) l ks) fun a b =>
        if desc then !((keyLt X a.1 b.1).getD false) else !((keyLt X b.1 a.1).getD false)).map (·.2)
      rw [zipWith_pairs, List.map_map] at this
      rw [zipWith_pairs]
      exact this.trans (List.Perm.of_eq hz)
    · exact .inl rfl

/-- An exception in the key function ends the sort; a TypeError makes the result nil. -/
theorem C34_keyed_exception (desc : Bool) (a b : Tree) (s s1 s2 s3 : St X) (v w f : Val) (l : List Val) (e : Exc) (ha : a.notOpr = true)
    (hb : b.notOpr = true) (hv : Vals a s (.ok v, s1)) (hw : Vals b s1 (.ok w, s2)) (h : FnAndItems v w f l)
    (hk : MapEach (fun x => Calls f [x]) l s2 (.error e, s3)) (out : Outcome X Res) :
    Evals (.node (op2 (if desc then s% "DK" else s% "SK")) [a, b]) s out ↔
      out = if e = .typeError then (.ok (.v .nil), { s3 with swallowed := s3.swallowed + 1 }) else (.error e, s3) := by
  have he : died (Outcome.map Res.v (caught .nil (Outcome.map (fun ks : List Val =>
      sortByKeys X desc (List.zipWith (fun x k => (k.key X, x)) l ks)) (.error e, s3)))) =
      if e = .typeError then (.ok (.v .nil), { s3 with swallowed := s3.swallowed + 1 }) else (.error e, s3) := by
    cases e <;> rfl
  rw [evals_keyed desc a b s s1 s2 v w f l ha hb hv hw h, ← he]
  constructor
  · rintro ⟨r, h1, rfl⟩
    rw [MapEach.det (P := fun x => Calls f [x]) (fun _ _ _ _ => Runs.det) h1 hk]
  · rintro rfl
    exact ⟨_, hk, rfl⟩

/-- The function `_` as key function: the keys are the items. -/
example (l : List Val) (s : St X) : MapEach (fun x => Calls (.block [] (var (s% "a"))) [x]) l s (.ok l, s) := by
  induction l with
  | nil => exact .nil
  | cons x l ih =>
    refine MapEach.next (P := fun x => Calls (.block [] (var (s% "a"))) [x]) ?_ ih
    rw [calls_simple (.arg 'a' (by decide)) none]
    exact ⟨rfl, Vals.var (plain_arg (by decide)) _⟩

example : ∀ k ∈ [ofInt 3, .scalar (s% "x"), ofInt (-1)], k.key toyExt = .num (.int (match k with | .scalar s => toInt s | _ => 0)) := by
  intro k hk
  simp only [List.mem_cons, List.not_mem_nil, or_false] at hk
  rcases hk with rfl | rfl | rfl <;> rfl

end Pip
