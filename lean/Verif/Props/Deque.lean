import Verif.Lemmas.Operand
import Verif.Props.Values
import Verif.Props.Vars
import Verif.Spec.Toy
/-! # C32, C59, C62: double-ended queues, assignment to an index, heads and tails -/

namespace Pip
variable {X : Ext}

/-! ### C32: double-ended queue -/

theorem pu_flags : (op2 (s% "PU")).ValsLam := by constructor <;> decide
theorem pb_flags : (op2 (s% "PB")).ValsLam := by constructor <;> decide
theorem pk_flags : (op2 (s% "PK")).ValsLam := by constructor <;> decide
theorem po_flags : (op1 (s% "PO")).ValsLam := by constructor <;> decide
theorem dq_flags : (op1 (s% "DQ")).ValsLam := by constructor <;> decide

theorem St.read_of_var {s : St X} {x : Str} {v : Val} (h : s.var x = some v) : s.read x = v := by
  simp [St.read, h]

/-- The result is the variable itself. -/
theorem Vals.of_lval {x : Str} (hx : PlainVar x) {e : Tree} {s s1 : St X} {n : Nat}
    (h : ∀ m, n ≤ m → (run X (m + 2)).ev e s = (.ok (.l (.name x none [])), s1)) : Vals e s (.ok (s1.read x), s1) := by
  refine runs_of ok_ne_fuel n 2 fun m hm => ?_
  show getRval (run X (m + 1 + 1)) e s = _
  rw [getRval_eq, M.bind_ok (h m hm)]
  exact rval_plain hx none s1

theorem pushed_var {o : Op} (ho : o.ValsLam) (front : Bool)
    (hc : ∀ (R : Rec X) a b, callOp R o.fn [a, b] = opPUSH front a b) {x : Str} (hx : PlainVar x) {e : Tree}
    {v w u : Val} {s s1 : St X} (hb : (s.read x).isBlock = false) (he : HasVal e s v s1)
    (hv : v.isBlock = false) (hl : s1.var x = some u) (hp : pushed (X := X) front v u = .ok w) :
    ∃ s2, Vals (.node o [var x, e]) s (.ok w, s2) ∧ Assigned x w s1 s2 := by
  obtain ⟨t, n, ht, h⟩ := ho.var2 hx hb he hv
  refine ⟨s1.put x w, ?_, s1.put_assigned x w⟩
  have hr : (s1.put x w).read x = w := St.read_of_var (by simp [St.put_var])
  have := Vals.of_lval hx (e := .node o [var x, e]) (s := s) (s1 := s1.put x w) (n := n) fun m hm => by
    rw [h m hm, hc]
    apply M.dieType_ok
    unfold opPUSH
    rw [M.bind_ok ht]
    have h2 : argVal (.lval (.name x none [])) s1 = (.ok u, s1) := by
      show rval _ s1 = _
      rw [rval_plain hx, St.read_of_var hl]
    rw [M.bind_ok h2, hp, M.bind_ok (M.lift_ok _ _)]
    simp only [assign_plain hx]
    rw [M.bind_ok (setVar_apply x w s1)]
    rfl
  rwa [hr] at this

/-- `x PU e` on a variable holding a list adds the value at the front, changes nothing else and yields the new list. (If
the value is a function, the operator builds a function instead, hence the condition.) -/
theorem C32_push (x : Str) (hx : PlainVar x) (e : Tree) (v : Val) (l : List Val) (s s1 : St X)
    (hb : (s.read x).isBlock = false) (he : HasVal e s v s1) (hv : v.isBlock = false)
    (hl : s1.var x = some (.list l)) :
    ∃ s2, Vals (.node (op2 (s% "PU")) [var x, e]) s (.ok (.list (v :: l)), s2) ∧ Assigned x (.list (v :: l)) s1 s2 :=
  pushed_var pu_flags true (fun _ _ _ => rfl) hx hb he hv hl rfl

/-- `x PB e` adds at the back. -/
theorem C32_pushBack (x : Str) (hx : PlainVar x) (e : Tree) (v : Val) (l : List Val) (s s1 : St X)
    (hb : (s.read x).isBlock = false) (he : HasVal e s v s1) (hv : v.isBlock = false)
    (hl : s1.var x = some (.list l)) :
    ∃ s2, Vals (.node (op2 (s% "PB")) [var x, e]) s (.ok (.list (l ++ [v])), s2) ∧
      Assigned x (.list (l ++ [v])) s1 s2 :=
  pushed_var pb_flags false (fun _ _ _ => rfl) hx hb he hv hl rfl

theorem take_var {f : Val → Option (Val × Val)} {x : Str} (hx : PlainVar x) {v item rest : Val} {s : St X}
    (hl : s.var x = some v) (hf : f v = some (item, rest)) :
    opTAKE f (.lval (.name x none [])) s = (.ok (.v item), s.put x rest) := by
  unfold opTAKE
  have h2 : argVal (.lval (.name x none [])) s = (.ok v, s) := by
    show rval _ s = _
    rw [rval_plain hx, St.read_of_var hl]
  rw [M.bind_ok h2, hf]
  simp only [putBack, assign_plain hx]
  rw [M.bind_ok (setVar_apply x rest s)]
  rfl

theorem take_none {f : Val → Option (Val × Val)} {x : Str} (hx : PlainVar x) {v : Val} {s : St X}
    (hl : s.var x = some v) (hf : f v = none) : opTAKE f (.lval (.name x none [])) s = (.ok (.v .nil), s) := by
  unfold opTAKE
  have h2 : argVal (.lval (.name x none [])) s = (.ok v, s) := by
    show rval _ s = _
    rw [rval_plain hx, St.read_of_var hl]
  rw [M.bind_ok h2, hf]
  rfl

theorem taken_var {o : Op} (ho : o.ValsLam) (f : Val → Option (Val × Val))
    (hc : ∀ (R : Rec X) a, callOp R o.fn [a] = opTAKE f a) {x : Str} (hx : PlainVar x) {u : Val}
    {item : Val} {rest : Val} {s : St X} (hl : s.var x = some u) (hu : u.isBlock = false) (hf : f u = some (item, rest)) :
    ∃ s2, Vals (.node o [var x]) s (.ok item, s2) ∧ Assigned x rest s s2 := by
  refine ⟨s.put x rest, Vals.of_evals ?_, s.put_assigned x rest⟩
  refine runs_of ok_ne_fuel 0 2 fun m _ => ?_
  show (run X (m + 2)).ev (.node o [var x]) s = _
  rw [ho.var1 hx (by rw [St.read_of_var hl]; exact hu), hc]
  exact M.dieType_ok (take_var hx hl hf)

/-- `PO x` removes and yields the first item. -/
theorem C32_pop (x : Str) (hx : PlainVar x) (y : Val) (l : List Val) (s : St X) (hl : s.var x = some (.list (y :: l))) :
    ∃ s2, Vals (.node (op1 (s% "PO")) [var x]) s (.ok y, s2) ∧ Assigned x (.list l) s s2 :=
  taken_var po_flags popOf (fun _ _ => rfl) hx hl rfl rfl

/-- `DQ x` removes and yields the last item. -/
theorem C32_dequeue (x : Str) (hx : PlainVar x) (y : Val) (l : List Val) (s : St X)
    (hl : s.var x = some (.list (l ++ [y]))) :
    ∃ s2, Vals (.node (op1 (s% "DQ")) [var x]) s (.ok y, s2) ∧ Assigned x (.list l) s s2 :=
  taken_var dq_flags dequeueOf (fun _ _ => rfl) hx hl rfl (by simp [dequeueOf])

/-- On an empty list both yield nil and change nothing. -/
theorem C32_empty (x : Str) (hx : PlainVar x) (s : St X) (hl : s.var x = some (.list [])) :
    Vals (.node (op1 (s% "PO")) [var x]) s (.ok .nil, s) ∧ Vals (.node (op1 (s% "DQ")) [var x]) s (.ok .nil, s) := by
  constructor
  · refine Vals.of_evals (runs_of ok_ne_fuel 0 2 fun m _ => ?_)
    show (run X (m + 2)).ev _ s = _
    rw [po_flags.var1 hx (by rw [St.read_of_var hl]; rfl)]
    exact M.dieType_ok (take_none (f := popOf) hx hl rfl)
  · refine Vals.of_evals (runs_of ok_ne_fuel 0 2 fun m _ => ?_)
    show (run X (m + 2)).ev _ s = _
    rw [dq_flags.var1 hx (by rw [St.read_of_var hl]; rfl)]
    exact M.dieType_ok (take_none (f := dequeueOf) hx hl rfl)

/-- `x PK e` removes and yields the item at the position modulo the length; the others keep their order. -/
theorem C32_pick (x : Str) (hx : PlainVar x) (e : Tree) (i : Int) (k : Nat) (y : Val) (l : List Val) (s s1 : St X)
    (hb : (s.read x).isBlock = false) (he : HasVal e s (ofInt i) s1) (hl : s1.var x = some (.list l))
    (hk : (k : Int) = i % l.length) (hy : l[k]? = some y) :
    ∃ s2, Vals (.node (op2 (s% "PK")) [var x, e]) s (.ok y, s2) ∧
      Assigned x (.list (l.take k ++ l.drop (k + 1))) s1 s2 := by
  obtain ⟨t, n, ht, h⟩ := pk_flags.var2 hx hb he rfl
  refine ⟨s1.put x _, Vals.of_evals (runs_of ok_ne_fuel n 2 fun m hm => ?_), s1.put_assigned x _⟩
  show (run X (m + 2)).ev _ s = _
  rw [h m hm]
  apply M.dieType_ok
  show opPICK _ t s1 = _
  unfold opPICK
  rw [M.bind_ok ht]
  simp only [ofInt, toInt_showInt]
  refine take_var hx hl ?_
  have hk' : (i % (l.length : Int)).toNat = k := by omega
  simp only [pickOf, hk', hy, Option.map_some, List.eraseIdx_eq_take_drop_succ]

/-- `PO` undoes `PU`, and `DQ` undoes `PB`. -/
theorem C32_undo (x : Str) (hx : PlainVar x) (e : Tree) (v : Val) (l : List Val) (s s1 : St X)
    (hb : (s.read x).isBlock = false) (he : HasVal e s v s1) (hv : v.isBlock = false)
    (hl : s1.var x = some (.list l)) :
    (∃ s2 s3 w, Vals (.node (op2 (s% "PU")) [var x, e]) s (.ok w, s2) ∧
      Vals (.node (op1 (s% "PO")) [var x]) s2 (.ok v, s3) ∧ (∀ n, s3.var n = s1.var n) ∧ SameRest s1 s3) ∧
    (∃ s2 s3 w, Vals (.node (op2 (s% "PB")) [var x, e]) s (.ok w, s2) ∧
      Vals (.node (op1 (s% "DQ")) [var x]) s2 (.ok v, s3) ∧ (∀ n, s3.var n = s1.var n) ∧ SameRest s1 s3) := by
  have fin : ∀ {s2 s3 : St X} {w : Val}, Assigned x w s1 s2 → Assigned x (.list l) s2 s3 →
      (∀ n, s3.var n = s1.var n) ∧ SameRest s1 s3 := by
    intro s2 s3 w a b
    refine ⟨fun n => ?_, a.rest.trans b.rest⟩
    by_cases hn : n = x
    · subst hn; rw [b.here, hl]
    · rw [b.other n hn, a.other n hn]
  constructor
  · obtain ⟨s2, h1, h2⟩ := C32_push x hx e v l s s1 hb he hv hl
    obtain ⟨s3, h3, h4⟩ := C32_pop x hx v l s2 h2.here
    exact ⟨s2, s3, _, h1, h3, fin h2 h4⟩
  · obtain ⟨s2, h1, h2⟩ := C32_pushBack x hx e v l s s1 hb he hv hl
    obtain ⟨s3, h3, h4⟩ := C32_dequeue x hx v l s2 h2.here
    exact ⟨s2, s3, _, h1, h3, fin h2 h4⟩

example : PlainVar (s% "x") ∧ HasVal (var (s% "t")) ((toySt []).put (s% "x") (.list [.nil])) (.scalar (s% "10"))
    ((toySt []).put (s% "x") (.list [.nil])) ∧
    ((toySt []).put (s% "x") (.list [.nil])).var (s% "x") = some (.list [.nil]) :=
  ⟨by unfold PlainVar; decide, HasVal.var (by unfold PlainVar; decide) _, by rw [St.put_var, if_pos rfl]⟩
example : toyOut (s% "x:[1 2]xPU5xPB6xPU7PO x[DQx 8xPKv 9x]") [] [] = some (s% "682951\n") := by decide +kernel

/-! ### C59: assignment to an index -/

theorem at_flags : (op2 (s% "@")).ValsLam := by constructor <;> decide

/-- `x@i` on a variable is an lvalue. -/
theorem ev_at {x : Str} (hx : PlainVar x) {ie : Tree} {i : Int} {s s1 : St X}
    (hb : (s.read x).isBlock = false) (hi : HasVal ie s (ofInt i) s1) :
    ∃ n, ∀ m, n ≤ m → (run X (m + 2)).ev (.node (op2 (s% "@")) [var x, ie]) s =
      (.ok (.l (.name x none [.int i])), s1) := by
  obtain ⟨t, n, ht, h⟩ := at_flags.var2 hx hb hi rfl
  refine ⟨n, fun m hm => ?_⟩
  rw [h m hm]
  apply M.dieType_ok
  show (argVal t >>= fun r => opATwith (run X (m + 1)) _ r) s1 = _
  rw [M.bind_ok ht]
  simp only [opATwith, ofInt, atIdx, toInt_showInt, atLval, indexLval, copyCell, M.pure_bind', List.nil_append]
  rfl

theorem rval_at {x : Str} (hx : PlainVar x) {i : Int} {v c : Val} {s : St X} (hv : s.var x = some v)
    (hi : v.isIterable = true) (hc : v.get (.int i) = .ok c) : rval (.name x none [.int i]) s = (.ok c, s) := by
  unfold rval
  rw [if_neg hx.2.2, if_neg (by simp [hx.special])]
  simp only [M.pure_bind', M.bind_ok (M.get_apply s), hv, readPath, hi, if_true, hc]
  rfl

theorem index_assign {x : Str} (hx : PlainVar x) {ie e : Tree} {i : Int} {cur new c v : Val} {s s1 s2 : St X}
    (hb : (s.read x).isBlock = false) (hi : HasVal ie s (ofInt i) s1) (he : Vals e s1 (.ok v, s2))
    (hcur : s2.var x = some cur) (ht : cur.isScalar = true ∨ cur.isList = true)
    (hset : setPath X.fmt v [.int i] cur = .ok new) (hn : new.isIterable = true) (hc : new.get (.int i) = .ok c) :
    ∃ s3, Vals (.node (op2 (s% ":")) [.node (op2 (s% "@")) [var x, ie], e]) s (.ok c, s3) ∧ Assigned x new s2 s3 := by
  obtain ⟨n, hat⟩ := ev_at hx hb hi
  obtain ⟨n', he'⟩ := Runs.at he 2
  refine ⟨s2.put x new, ?_, s2.put_assigned x new⟩
  refine runs_of ok_ne_fuel (max n n') 3 fun m hm => ?_
  have h := ev_assign (m := m + 1) (l := .name x none [.int i]) (s2 := s2.put x new) (hat m (by omega)) (he' m (by omega)) (by
    simp only [assign, assignName, hx.special, Bool.false_eq_true, if_false, List.isEmpty_cons]
    rw [M.bind_ok (M.get_apply s2), hcur]
    cases cur with
    | scalar t =>
      simp only [hset]
      rfl
    | list l =>
      simp only [hset]
      rfl
    | _ => simp [Val.isScalar, Val.isList] at ht)
  show getRval (run X (m + 2 + 1)) _ s = _
  rw [getRval_eq, M.bind_ok h]
  exact rval_at hx (by simp [St.put_var]) hn hc

/-- `x@i:e` on a variable holding a non-empty list replaces the item at `i` modulo the length, keeps all other items and
everything else, and yields the value. -/
theorem C59_assign_list (x : Str) (hx : PlainVar x) (ie e : Tree) (i : Int) (v : Val) (l : List Val) (s s1 s2 : St X)
    (hb : (s.read x).isBlock = false) (hi : HasVal ie s (ofInt i) s1) (he : Vals e s1 (.ok v, s2))
    (hl : s2.var x = some (.list l)) (hne : l ≠ []) :
    ∃ s3 l', Vals (.node (op2 (s% ":")) [.node (op2 (s% "@")) [var x, ie], e]) s (.ok v, s3) ∧
      Assigned x (.list l') s2 s3 ∧ l'.length = l.length ∧
      ∀ j : Nat, l'[j]? = if (j : Int) = i % l.length then some v else l[j]? := by
  have hpos : 0 < l.length := List.length_pos_iff.2 hne
  have h0 : 0 ≤ i % (l.length : Int) := Int.emod_nonneg _ (by omega)
  have h1 : i % (l.length : Int) < l.length := Int.emod_lt_of_pos _ (by omega)
  obtain ⟨s3, h2, h3⟩ := index_assign hx hb hi he hl (.inr rfl) (new := .list (l.set (i % l.length).toNat v))
    (c := v) (by
      simp only [setPath, List.isEmpty_nil, if_true, Val.set, List.isEmpty_iff, hne, if_false])
    rfl (by
      simp only [Val.get, List.length_set]
      rw [List.getElem?_set_self (by omega)])
  refine ⟨s3, _, h2, h3, by simp, fun j => ?_⟩
  rw [List.getElem?_set]
  by_cases hj : (j : Int) = i % l.length
  · rw [if_pos hj, if_pos (by omega), if_pos (by omega)]
  · rw [if_neg hj, if_neg (by omega)]

/-- On a string the character at that position is replaced by the text of the value. What the expression yields is the
character at `i` modulo the new length. -/
theorem C59_assign_string (x : Str) (hx : PlainVar x) (ie e : Tree) (i : Int) (v : Val) (p q : Str) (c : Char)
    (s s1 s2 : St X) (hb : (s.read x).isBlock = false) (hi : HasVal ie s (ofInt i) s1) (he : Vals e s1 (.ok v, s2))
    (hl : s2.var x = some (.scalar (p ++ c :: q))) (hk : (p.length : Int) = i % (p ++ c :: q).length)
    (hne : p ++ v.str X.fmt ++ q ≠ []) :
    ∃ s3 d, Vals (.node (op2 (s% ":")) [.node (op2 (s% "@")) [var x, ie], e]) s (.ok (.scalar [d]), s3) ∧
      (p ++ v.str X.fmt ++ q)[(i % (p ++ v.str X.fmt ++ q).length).toNat]? = some d ∧
      Assigned x (.scalar (p ++ v.str X.fmt ++ q)) s2 s3 := by
  have hpos : 0 < (p ++ v.str X.fmt ++ q).length := List.length_pos_iff.2 hne
  have h0 : 0 ≤ i % ((p ++ v.str X.fmt ++ q).length : Int) := Int.emod_nonneg _ (by omega)
  have h1 : i % ((p ++ v.str X.fmt ++ q).length : Int) < (p ++ v.str X.fmt ++ q).length := Int.emod_lt_of_pos _ (by omega)
  obtain ⟨s3, h2, h3⟩ := index_assign hx hb hi he hl (.inl rfl) (new := .scalar (p ++ v.str X.fmt ++ q))
    (c := .scalar [(p ++ v.str X.fmt ++ q)[(i % (p ++ v.str X.fmt ++ q).length).toNat]'(by omega)]) (by
      have hk' : (i % ((p ++ c :: q).length : Int)).toNat = p.length := by omega
      simp only [setPath, List.isEmpty_nil, if_true, Val.set, hk']
      simp)
    rfl (by
      simp only [Val.get]
      rw [List.getElem?_eq_getElem (by omega)])
  exact ⟨s3, _, h2, List.getElem?_eq_getElem (by omega), h3⟩

example : toyOut (s% "x:[1 2 3]x@v:[4 5]x@3:6x") [] [] = some (s% "6245\n") := by decide +kernel
example : toyOut (s% "x:\"abc\"x@v:45x@0:6x") [] [] = some (s% "6b45\n") := by decide +kernel

/-! ### C62: heads and tails -/

/-- The four operators that take a part -/
inductive PartOp where
  | head | leftOf | tail | rightOf

/-- How they are written -/
def PartOp.text : PartOp → Str
  | .head => s% "H"
  | .leftOf => s% "@<"
  | .tail => s% "S"
  | .rightOf => s% "@>"

/-- Which part is meant -/
def PartOp.part {α : Type} (o : PartOp) (n : Nat) (l : List α) : List α :=
  match o with
  | .head => l.take n
  | .leftOf => l.take n
  | .tail => l.drop (l.length - n)
  | .rightOf => l.drop n

/-- The slices of the model -/
def PartOp.sel : PartOp → Part
  | .head => .left
  | .leftOf => .left
  | .tail => .suffix
  | .rightOf => .right

theorem cycSlice_left {α : Type} (l : List α) (n : Nat) (h : n ≤ l.length) : cycSlice l none (some n) = l.take n := by
  have := C13_slice_plain l 0 n (by omega) h
  simpa [cycSlice] using this

theorem cycSlice_right {α : Type} (l : List α) (n : Nat) (h : n ≤ l.length) : cycSlice l (some n) none = l.drop n := by
  have := C13_slice_plain l n l.length h (Nat.le_refl _)
  rw [List.take_of_length_le (by simp)] at this
  rw [← this]
  simp [cycSlice]

theorem cycSlice_suffix {α : Type} (l : List α) (n : Nat) (hn : 0 < n) (h : n ≤ l.length) :
    cycSlice l (some (-(n : Int))) none = l.drop (l.length - n) := by
  rw [← cycSlice_right l (l.length - n) (by omega)]
  unfold cycSlice
  simp only [Option.getD_some]
  rw [if_pos (c := -(n : Int) < 0) (by omega), if_neg (c := ((l.length - n : Nat) : Int) < 0) (by omega),
    show -(n : Int) + l.length = ((l.length - n : Nat) : Int) by omega]

theorem PartOp.slice (h : PartOp) (n : Nat) :
    ∃ a b, h.sel.idx n = .slice a b ∧
      ∀ {α : Type} (l : List α), n ≤ l.length → cycSlice l a b = h.part n l := by
  cases h with
  | head => exact ⟨none, some n, rfl, fun l h => cycSlice_left l n h⟩
  | leftOf => exact ⟨none, some n, rfl, fun l h => cycSlice_left l n h⟩
  | rightOf => exact ⟨some n, none, rfl, fun l h => cycSlice_right l n h⟩
  | tail =>
    rcases Nat.eq_zero_or_pos n with rfl | hn
    · refine ⟨some 0, some 0, rfl, fun l _ => ?_⟩
      simpa [PartOp.part] using C13_slice_plain l 0 0 (by omega) (by omega)
    · refine ⟨some (-(n : Int)), none, ?_, fun l h => cycSlice_suffix l n hn h⟩
      show (if (n : Int) = 0 then Idx.slice (some 0) (some 0) else Idx.slice (some (-(n : Int))) none) = _
      rw [if_neg (by omega)]

theorem PartOp.flags (h : PartOp) : (op2 h.text).ValsLam := by
  cases h <;> (constructor <;> decide)

theorem PartOp.call (h : PartOp) (R : Rec X) (a b : Tree) :
    ∃ fn d, callOp R (op2 h.text).fn [a, b] = opPART R fn h.sel d a (some b) := by
  cases h with
  | head => exact ⟨.PREFIX, .scalar (s% "-1"), rfl⟩
  | leftOf => exact ⟨.LEFTOF, .scalar (s% "-1"), rfl⟩
  | rightOf => exact ⟨.RIGHTOF, .scalar (s% "1"), rfl⟩
  | tail => exact ⟨.SUFFIX, .scalar (s% "-1"), rfl⟩

theorem PartOp.evals (h : PartOp) {a b : Tree} {n : Nat}
    {v w : Val} {s s1 s2 : St X} (ha : Evals a s (.ok (.v v), s1)) (hb : HasVal b s1 (ofInt n) s2)
    (hv : v.isIterable = true) (hw : v.get (h.sel.idx n) = .ok w) :
    Evals (.node (op2 h.text) [a, b]) s (.ok (.v w), s2) := by
  obtain ⟨t, k, ht, hev⟩ := h.flags.val2 ha (by cases v <;> simp_all [Val.isIterable, Val.isBlock]) hb rfl
  refine runs_of ok_ne_fuel k 2 fun m hm => ?_
  show (run X (m + 2)).ev _ s = _
  rw [hev m hm]
  apply M.dieType_ok
  obtain ⟨fn, d, e⟩ := h.call (run X (m + 1)) (.val v) t
  rw [e]
  show (argVal t >>= fun rhs => _) s2 = _
  rw [M.bind_ok ht]
  simp only [ofInt, toInt_showInt, hv, if_true, hw]
  rfl

/-- On an expression that evaluates to a list: `a H n` and `a @< n` are its first `n` items, `a S n` its last `n` items
and `a @> n` what follows the first `n`. -/
theorem C62_list (h : PartOp) (a b : Tree) (n : Nat)
    (l : List Val) (hn : n ≤ l.length) (s s1 s2 : St X) (ha : Evals a s (.ok (.v (.list l)), s1))
    (hb : HasVal b s1 (ofInt n) s2) : Evals (.node (op2 h.text) [a, b]) s (.ok (.v (.list (h.part n l))), s2) := by
  obtain ⟨lo, hi, h1, h2⟩ := h.slice n
  refine h.evals ha hb rfl ?_
  rw [h1, ← h2 l hn]
  rfl

/-- The same for strings. -/
theorem C62_string (h : PartOp) (a b : Tree) (n : Nat)
    (t : Str) (hn : n ≤ t.length) (s s1 s2 : St X) (ha : Evals a s (.ok (.v (.scalar t)), s1))
    (hb : HasVal b s1 (ofInt n) s2) : Evals (.node (op2 h.text) [a, b]) s (.ok (.v (.scalar (h.part n t))), s2) := by
  obtain ⟨lo, hi, h1, h2⟩ := h.slice n
  refine h.evals ha hb rfl ?_
  rw [h1, ← h2 t hn]
  rfl

theorem PartOp.evVar (h : PartOp) {x : Str} (hx : PlainVar x)
    {b : Tree} {n : Nat} {s s1 : St X} (hr : (s.read x).isBlock = false) (hb : HasVal b s (ofInt n) s1) :
    ∃ k, ∀ m, k ≤ m → (run X (m + 2)).ev (.node (op2 h.text) [var x, b]) s =
      (.ok (.l (.name x none [h.sel.idx n])), s1) := by
  obtain ⟨t, k, ht, hev⟩ := h.flags.var2 hx hr hb rfl
  refine ⟨k, fun m hm => ?_⟩
  rw [hev m hm]
  apply M.dieType_ok
  obtain ⟨fn, d, e⟩ := h.call (run X (m + 1)) (.lval (.name x none [])) t
  rw [e]
  show (argVal t >>= fun rhs => _) s1 = _
  rw [M.bind_ok ht]
  simp only [ofInt, toInt_showInt, indexLval, copyCell, M.pure_bind', List.nil_append]
  rfl

/-- On a variable: the same, of the value that the variable has after the second operand was evaluated. -/
theorem C62_variable (h : PartOp) (x : Str) (hx : PlainVar x)
    (b : Tree) (n : Nat) (s s1 : St X) (hr : (s.read x).isBlock = false) (hb : HasVal b s (ofInt n) s1) :
    (∀ l : List Val, n ≤ l.length → s1.var x = some (.list l) →
      Vals (.node (op2 h.text) [var x, b]) s (.ok (.list (h.part n l)), s1)) ∧
    (∀ t : Str, n ≤ t.length → s1.var x = some (.scalar t) →
      Vals (.node (op2 h.text) [var x, b]) s (.ok (.scalar (h.part n t)), s1)) := by
  obtain ⟨k, hk⟩ := h.evVar hx hr hb
  obtain ⟨lo, hi, h1, h2⟩ := h.slice n
  have gen : ∀ v w, s1.var x = some v → v.isIterable = true → v.get (.slice lo hi) = .ok w →
      Vals (.node (op2 h.text) [var x, b]) s (.ok w, s1) := by
    intro v w hv hi hw
    refine runs_of ok_ne_fuel k 2 fun m hm => ?_
    show getRval (run X (m + 1 + 1)) _ s = _
    rw [getRval_eq, M.bind_ok (hk m hm)]
    show rval _ s1 = _
    unfold rval
    rw [if_neg hx.2.2, if_neg (by simp [hx.special])]
    simp only [M.bind_ok (M.get_apply s1), hv, readPath, hi, if_true, h1, hw]
    rfl
  constructor
  · intro l hl hv
    refine gen _ _ hv rfl ?_
    rw [← h2 l hl]
    rfl
  · intro t ht hv
    refine gen _ _ hv rfl ?_
    rw [← h2 t ht]
    rfl

/-- Deviation: on a bracketed list of variables the four operators have no effect: `[x y]@<1` is `[x;y]`. -/
theorem C62_brackets (h : PartOp) (x : Str) (xs : List Str)
    (hx : ∀ y ∈ x :: xs, PlainVar y) (b : Tree) (n : Nat) (s s1 : St X) (hb : HasVal b s (ofInt n) s1) :
    Vals (.node (op2 h.text) [.node enlistOp ((x :: xs).map var), b]) s (.ok (.list ((x :: xs).map s1.read)), s1) := by
  obtain ⟨r, s0, k, e1, e2, e3, e4⟩ := hb.at 2
  refine runs_of ok_ne_fuel k 3 fun m hm => ?_
  have key : (run X (m + 3)).ev (.node (op2 h.text) [.node enlistOp ((x :: xs).map var), b]) s =
      (.ok (.l (.list ((x :: xs).map fun x => .name x none []) [h.sel.idx n])), s1) := by
    have hl : resRval (.l (.list ((x :: xs).map fun x => .name x none []) [])) s =
        (.ok (.list ((x :: xs).map s.read)), s) := by
      show rval _ s = _
      unfold rval
      rw [M.bind_ok (rvals_plain (x :: xs) hx s)]
      rfl
    rw [h.flags.ev2 (ev_enlistVars x xs hx m s) hl rfl (e1 m hm) e2 rfl]
    apply M.dieType_ok
    obtain ⟨fn, d, e⟩ := h.call (run X (m + 2)) (.lval (.list ((x :: xs).map fun x => .name x none []) [])) r.tree
    have ht : argVal r.tree s1 = (.ok (ofInt n), s1) := by rw [argVal_tree e3, e4]
    rw [show Res.tree (.l (.list ((x :: xs).map fun x => .name x none []) [])) =
      .lval (.list ((x :: xs).map fun x => .name x none []) []) from rfl, e]
    show (argVal r.tree >>= fun rhs => _) s1 = _
    rw [M.bind_ok ht]
    simp only [ofInt, toInt_showInt, indexLval, List.nil_append, M.pure_bind']
    rfl
  show getRval (run X (m + 2 + 1)) _ s = _
  rw [getRval_eq, M.bind_ok key]
  show rval _ s1 = _
  unfold rval
  rw [M.bind_ok (rvals_plain (x :: xs) hx s1)]
  rfl

example : toyOut (s% "x:[1 2 3][xH1 8xS2 9x@<2 7x@>2 6(\"abc\"S1)]") [] [] = some (s% "1823912736c
") := by decide +kernel
example : toyOut (s% "[i t]@<1") [] [] = some (s% "010
") := by decide +kernel

end Pip
