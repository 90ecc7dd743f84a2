import Verif.Props.Taking
/-!
# C100: items of values and variables
-/

namespace Pip
variable {X : Ext}

/-- The item of a value at an index: counted cyclically; nil if there are no items. -/
inductive CycItem : Val → Int → Val → Prop
  | list {l : List Val} {k : Nat} {i : Int} {w : Val} : (k : Int) = i % l.length → l[k]? = some w → CycItem (.list l) i w
  | string {t : Str} {k : Nat} {i : Int} {c : Char} : (k : Int) = i % t.length → t[k]? = some c → CycItem (.scalar t) i (.scalar [c])
  | range {lo : Option Int} {hi i : Int} : lo.getD 0 < hi → CycItem (.range lo (some hi)) i (ofInt (lo.getD 0 + i % (hi - lo.getD 0)))
  | infinite {lo : Option Int} {i : Int} : 0 ≤ i → CycItem (.range lo none) i (ofInt (lo.getD 0 + i))
  | before {lo : Option Int} {i : Int} : i < 0 → CycItem (.range lo none) i .nil
  | emptyList {i : Int} : CycItem (.list []) i .nil
  | emptyString {i : Int} : CycItem (.scalar []) i .nil
  | emptyRange {lo : Option Int} {hi i : Int} : hi ≤ lo.getD 0 → CycItem (.range lo (some hi)) i .nil
  | nil {i : Int} : CycItem .nil i .nil
  | pattern {r : Str} {f : Flags} {i : Int} : CycItem (.pattern r f) i .nil

theorem CycItem.notBlock {v w : Val} {i : Int} (h : CycItem v i w) : v.isBlock = false := by cases h <;> rfl

theorem CycItem.get {v w : Val} {i : Int} (h : CycItem v i w) :
    v.isIterable = true ∧ v.isEmpty = false ∧ v.get (.int i) = .ok w ∨
    v.isIterable = true ∧ v.isEmpty = true ∧ v.get (.int i) = .error .indexError ∧ w = .nil ∨ v.isIterable = false ∧ w = .nil := by
  cases h with
  | @list l k _ _ h1 h2 =>
    refine .inl ⟨rfl, ?_, ?_⟩
    · cases l with
      | nil => simp at h2
      | cons _ _ => rfl
    · rw [Val.get, show (i % (l.length : Int)).toNat = k by omega, h2]
  | @string t k _ c h1 h2 =>
    refine .inl ⟨rfl, ?_, ?_⟩
    · cases t with
      | nil => simp at h2
      | cons _ _ => rfl
    · rw [Val.get, show (i % (t.length : Int)).toNat = k by omega, h2]
  | @range lo hi _ h1 =>
    have he : (Val.range lo (some hi)).isEmpty = false := decide_eq_false (by simp only [lo0]; omega)
    refine .inl ⟨rfl, he, ?_⟩
    rw [Val.get, rangeAt, he]
    rfl
  | @infinite lo _ h1 =>
    refine .inl ⟨rfl, rfl, ?_⟩
    rw [Val.get, rangeAt]
    simp only [Val.isEmpty, Bool.false_eq_true, if_false]
    rw [if_neg (by omega)]
    rfl
  | @before lo _ h1 =>
    refine .inl ⟨rfl, rfl, ?_⟩
    rw [Val.get, rangeAt]
    simp only [Val.isEmpty, Bool.false_eq_true, if_false]
    rw [if_pos h1]
  | emptyList => exact .inr (.inl ⟨rfl, rfl, rfl, rfl⟩)
  | emptyString => exact .inr (.inl ⟨rfl, rfl, rfl, rfl⟩)
  | @emptyRange lo hi _ h1 =>
    have he : (Val.range lo (some hi)).isEmpty = true := decide_eq_true (by simp only [lo0]; omega)
    refine .inr (.inl ⟨rfl, he, ?_, rfl⟩)
    rw [Val.get, rangeAt, he]
    rfl
  | nil => exact .inr (.inr ⟨rfl, rfl⟩)
  | pattern => exact .inr (.inr ⟨rfl, rfl⟩)

theorem CycItem.atVal {v w : Val} {i : Int} (h : CycItem v i w) (R : Rec X) (rhs : Val) (s : St X) :
    atVal R v (.idx (.int i)) rhs s = (.ok (.v w), s) := by
  rcases h.get with ⟨h1, h2, h3⟩ | ⟨h1, h2, h3, rfl⟩ | ⟨h1, rfl⟩
  · simp only [Pip.atVal, h1, h2, h3, if_true, Bool.false_eq_true, if_false]
    rfl
  · simp only [Pip.atVal, h1, h2, if_true]
    rfl
  · simp only [Pip.atVal, h1, Bool.false_eq_true, if_false]
    rfl

theorem CycItem.readPath {v w : Val} {i : Int} (h : CycItem v i w) : readPath [.int i] v = .ok w := by
  rcases h.get with ⟨h1, h2, h3⟩ | ⟨h1, h2, h3, rfl⟩ | ⟨h1, rfl⟩
  · simp [Pip.readPath, h1, h3]
  · simp [Pip.readPath, h1, h3]
  · simp [Pip.readPath, h1]

/-- There is exactly one item for every value that is no function. -/
theorem cycItem_total (v : Val) (i : Int) (h : v.isBlock = false) : ∃ w, CycItem v i w := by
  cases v with
  | block => cases h
  | nil => exact ⟨_, .nil⟩
  | pattern => exact ⟨_, .pattern⟩
  | scalar t =>
    cases t with
    | nil => exact ⟨_, .emptyString⟩
    | cons c t =>
      obtain ⟨d, h1, _⟩ := C12_index_string (c :: t) i (by simp)
      exact ⟨_, .string (Int.toNat_of_nonneg (Int.emod_nonneg _ (by simp; omega))) h1⟩
  | list l =>
    cases l with
    | nil => exact ⟨_, .emptyList⟩
    | cons c t =>
      obtain ⟨d, h1, _⟩ := C12_index_list (c :: t) i (by simp)
      exact ⟨_, .list (Int.toNat_of_nonneg (Int.emod_nonneg _ (by simp; omega))) h1⟩
  | range lo hi =>
    cases hi with
    | none =>
      by_cases hi : i < 0
      · exact ⟨_, .before hi⟩
      · exact ⟨_, .infinite (by omega)⟩
    | some hi =>
      by_cases hh : lo.getD 0 < hi
      · exact ⟨_, .range hh⟩
      · exact ⟨_, .emptyRange (by omega)⟩

/-- C100: `a@i` is the item of the value of `a`; -/
theorem C100_value (a b : Tree) (v w : Val) (i : Int) (s s1 s2 : St X) (ha : Evals a s (.ok (.v v), s1)) (hb : HasVal b s1 (ofInt i) s2)
    (h : CycItem v i w) : Vals (.node (op2 (s% "@")) [a, b]) s (.ok w, s2) := by
  obtain ⟨t, n, ht, hev⟩ := at_flags.val2 ha h.notBlock hb rfl
  refine .of_evals (runs_of ok_ne_fuel n 2 fun m hm => ?_)
  show (run X (m + 2)).ev _ s = _
  rw [hev m hm]
  apply M.dieType_ok
  show (argVal t >>= fun r => opATwith (run X (m + 1)) _ r) s2 = _
  rw [M.bind_ok ht]
  simp only [opATwith, ofInt, atIdx, toInt_showInt]
  exact h.atVal _ _ _

theorem rval_item {x : Str} (hx : PlainVar x) {v w : Val} {i : Int} {s : St X} (hv : s.var x = some v) (h : CycItem v i w) :
    rval (.name x none [.int i]) s = (.ok w, s) := by
  unfold rval
  rw [if_neg hx.2.2, if_neg (by simp [hx.special])]
  simp only [M.pure_bind', M.bind_ok (M.get_apply s), hv, h.readPath]
  rfl

/-- `x@i` is the item of the value that the variable has after the index was evaluated; -/
theorem C100_variable (x : Str) (hx : PlainVar x) (b : Tree) (v w : Val) (i : Int) (s s1 : St X) (hr : (s.read x).isBlock = false)
    (hb : HasVal b s (ofInt i) s1) (hv : s1.var x = some v) (h : CycItem v i w) :
    Vals (.node (op2 (s% "@")) [var x, b]) s (.ok w, s1) := by
  obtain ⟨n, hat⟩ := ev_at hx hr hb
  refine runs_of ok_ne_fuel n 2 fun m hm => ?_
  show getRval (run X (m + 1 + 1)) _ s = _
  rw [getRval_eq, M.bind_ok (hat m hm)]
  exact rval_item hx hv h

/-- without an index it is the first item. -/
theorem C100_first (a : Tree) (v w : Val) (s s1 : St X) (ha : Evals a s (.ok (.v v), s1)) (h : CycItem v 0 w) :
    Vals (.node (op1 (s% "@")) [a]) s (.ok w, s1) := by
  have hf : (op1 (s% "@")).ValsLam := by constructor <;> decide
  obtain ⟨n, ha⟩ := Runs.at ha 0
  refine .of_evals (runs_of ok_ne_fuel n 1 fun m hm => ?_)
  show (run X (m + 1)).ev _ s = _
  rw [hf.ev1 (ha m hm) (show resRval (.v v) s1 = (.ok v, s1) from rfl) h.notBlock]
  apply M.dieType_ok
  rw [show (op1 (s% "@")).fn = .AT by decide]
  show atVal (run X m) v (.idx (.int (toInt (s% "0")))) (.scalar (s% "0")) s1 = _
  rw [show toInt (s% "0") = 0 by decide]
  exact h.atVal _ _ _

theorem C100_first_variable (x : Str) (hx : PlainVar x) (v w : Val) (s : St X) (hv : s.var x = some v) (h : CycItem v 0 w) :
    Vals (.node (op1 (s% "@")) [var x]) s (.ok w, s) := by
  have hf : (op1 (s% "@")).ValsLam := by constructor <;> decide
  refine runs_of ok_ne_fuel 0 2 fun m _ => ?_
  show getRval (run X (m + 1 + 1)) _ s = _
  have : (run X (m + 2)).ev (.node (op1 (s% "@")) [var x]) s = (.ok (.l (.name x none [.int 0])), s) := by
    rw [hf.var1 hx (by rw [St.read_of_var hv]; exact h.notBlock)]
    apply M.dieType_ok
    rw [show (op1 (s% "@")).fn = .AT by decide]
    show opATwith (run X (m + 1)) (.lval (.name x none [])) (.scalar (s% "0")) s = _
    have : toInt (s% "0") = 0 := by decide
    simp only [opATwith, atIdx, this, atLval, indexLval, copyCell, M.pure_bind', List.nil_append]
    rfl
  rw [getRval_eq, M.bind_ok this]
  exact rval_item hx hv h

/-- The operators that leave out the first or the last item -/
inductive RestOp where
  | butLast | head | butFirst | tail

def RestOp.text : RestOp → Str
  | .butLast => s% "@<"
  | .head => s% "H"
  | .butFirst => s% "@>"
  | .tail => s% "S"

def RestOp.part {α : Type} : RestOp → List α → List α
  | .butLast, l => l.dropLast
  | .head, l => l.dropLast
  | .butFirst, l => l.tail
  | .tail, l => l.tail

def RestOp.idx : RestOp → Idx
  | .butLast | .head => .slice none (some (-1))
  | .butFirst | .tail => .slice (some 1) none

theorem cycSlice_butLast {α : Type} (l : List α) : cycSlice l none (some (-1)) = l.dropLast := by
  by_cases h : l = []
  · subst h; rfl
  · have hn : 0 < l.length := List.length_pos_iff.2 h
    rw [List.dropLast_eq_take, ← cycSlice_left l (l.length - 1) (by omega)]
    unfold cycSlice
    simp only [Option.getD_some]
    rw [if_pos (c := (-1 : Int) < 0) (by omega), if_neg (c := ((l.length - 1 : Nat) : Int) < 0) (by omega),
      show (-1 : Int) + l.length = ((l.length - 1 : Nat) : Int) by omega]

theorem cycSlice_butFirst {α : Type} (l : List α) : cycSlice l (some 1) none = l.tail := by
  by_cases h : l = []
  · subst h; rfl
  · have hn : 0 < l.length := List.length_pos_iff.2 h
    have := cycSlice_right l 1 hn
    rw [List.drop_one] at this
    exact this

theorem RestOp.get (o : RestOp) : (∀ l : List Val, (Val.list l).get o.idx = .ok (.list (o.part l))) ∧
    ∀ t : Str, (Val.scalar t).get o.idx = .ok (.scalar (o.part t)) := by
  cases o
  all_goals
    simp only [RestOp.idx, Val.get, cycSlice_butLast, cycSlice_butFirst, RestOp.part, implies_true, and_self]

theorem RestOp.flags (o : RestOp) : (op1 o.text).ValsLam := by
  cases o <;> (constructor <;> decide)

theorem RestOp.call (o : RestOp) (R : Rec X) (a : Tree) :
    ∃ fn p d, callOp R (op1 o.text).fn [a] = opPART R fn p (.scalar d) a none ∧ p.idx (toInt d) = o.idx := by
  cases o with
  | butLast => exact ⟨.LEFTOF, .left, s% "-1", rfl, by decide⟩
  | head => exact ⟨.PREFIX, .left, s% "-1", rfl, by decide⟩
  | butFirst => exact ⟨.RIGHTOF, .right, s% "1", rfl, by decide⟩
  | tail => exact ⟨.SUFFIX, .suffix, s% "-1", rfl, by decide⟩

/-- `@<a`, `H a`: all but the last item; `@>a`, `S a`: all but the first. -/
theorem C100_rest (o : RestOp) (a : Tree) (s s1 : St X) :
    (∀ l : List Val, Evals a s (.ok (.v (.list l)), s1) → Vals (.node (op1 o.text) [a]) s (.ok (.list (o.part l)), s1)) ∧
    (∀ t : Str, Evals a s (.ok (.v (.scalar t)), s1) → Vals (.node (op1 o.text) [a]) s (.ok (.scalar (o.part t)), s1)) := by
  have gen : ∀ v w, v.isIterable = true → v.get o.idx = .ok w → Evals a s (.ok (.v v), s1) → Vals (.node (op1 o.text) [a]) s (.ok w, s1) := by
    intro v w hi hw ha
    obtain ⟨n, ha⟩ := Runs.at ha 0
    refine .of_evals (runs_of ok_ne_fuel n 1 fun m hm => ?_)
    show (run X (m + 1)).ev _ s = _
    rw [o.flags.ev1 (ha m hm) (show resRval (.v v) s1 = (.ok v, s1) from rfl) (by cases v <;> simp_all [Val.isIterable, Val.isBlock])]
    apply M.dieType_ok
    obtain ⟨fn, p, d, e, ei⟩ := o.call (run X m) (Res.tree (.v v))
    show callOp (run X m) _ _ s1 = _
    rw [e]
    show (opPART _ fn p (.scalar d) (.val v) none) s1 = _
    simp only [opPART, M.pure_bind', ei, hi, if_true, hw]
    rfl
  exact ⟨fun l => gen _ _ rfl (o.get.1 l), fun t => gen _ _ rfl (o.get.2 t)⟩

theorem C100_rest_variable (o : RestOp) (x : Str) (hx : PlainVar x) (s : St X) :
    (∀ l : List Val, s.var x = some (.list l) → Vals (.node (op1 o.text) [var x]) s (.ok (.list (o.part l)), s)) ∧
    (∀ t : Str, s.var x = some (.scalar t) → Vals (.node (op1 o.text) [var x]) s (.ok (.scalar (o.part t)), s)) := by
  have gen : ∀ v w, v.isIterable = true → v.get o.idx = .ok w → s.var x = some v → Vals (.node (op1 o.text) [var x]) s (.ok w, s) := by
    intro v w hi hw hv
    refine runs_of ok_ne_fuel 0 2 fun m _ => ?_
    show getRval (run X (m + 1 + 1)) _ s = _
    have : (run X (m + 2)).ev (.node (op1 o.text) [var x]) s = (.ok (.l (.name x none [o.idx])), s) := by
      rw [o.flags.var1 hx (by rw [St.read_of_var hv]; cases v <;> simp_all [Val.isIterable, Val.isBlock])]
      apply M.dieType_ok
      obtain ⟨fn, p, d, e, ei⟩ := o.call (run X (m + 1)) (.lval (.name x none []))
      rw [e]
      simp only [opPART, M.pure_bind', ei, indexLval, copyCell, M.pure_bind', List.nil_append]
      rfl
    rw [getRval_eq, M.bind_ok this]
    show rval _ s = _
    unfold rval
    rw [if_neg hx.2.2, if_neg (by simp [hx.special])]
    simp only [M.bind_ok (M.get_apply s), hv, readPath, hi, if_true, hw]
    rfl
  exact ⟨fun l => gen _ _ rfl (o.get.1 l), fun t => gen _ _ rfl (o.get.2 t)⟩

/-- With a list of variables in brackets, `[x y z]@i` is the variable itself: it can be assigned to. -/
theorem C100_brackets (x : Str) (xs : List Str) (hx : ∀ y ∈ x :: xs, PlainVar y) (b : Tree) (i : Int) (k : Nat) (y : Str) (s s1 : St X)
    (hb : HasVal b s (ofInt i) s1) (hk : (k : Int) = i % ((x :: xs).length : Nat)) (hy : (x :: xs)[k]? = some y) :
    Evals (.node (op2 (s% "@")) [.node enlistOp ((x :: xs).map var), b]) s (.ok (.l (.name y none [])), s1) := by
  obtain ⟨r, s0, n, e1, e2, e3, e4⟩ := hb.at 2
  refine runs_of ok_ne_fuel n 3 fun m hm => ?_
  have hl : resRval (.l (.list ((x :: xs).map fun x => .name x none []) [])) s = (.ok (.list ((x :: xs).map s.read)), s) := by
    show rval _ s = _
    unfold rval
    rw [M.bind_ok (rvals_plain (x :: xs) hx s)]
    rfl
  show (run X (m + 3)).ev _ s = _
  rw [at_flags.ev2 (ev_enlistVars x xs hx m s) hl rfl (e1 m hm) e2 rfl]
  apply M.dieType_ok
  have ht : argVal r.tree s1 = (.ok (ofInt i), s1) := by rw [argVal_tree e3, e4]
  show (argVal r.tree >>= fun q => opATwith (run X (m + 2)) _ q) s1 = _
  rw [M.bind_ok ht]
  have hk' : (i % (((x :: xs).map fun x => Lval.name x none []).length : Int)).toNat = k := by
    rw [List.length_map]; omega
  show opATwith _ (.lval (.list ((x :: xs).map fun x => .name x none []) [])) _ s1 = _
  simp only [opATwith, ofInt, atIdx, toInt_showInt, atLval]
  rw [hk', List.getElem?_map, hy]
  rfl

/-- So `[x y z]@i : e` assigns to one of the variables. -/
theorem C100_brackets_assign (x : Str) (xs : List Str) (hx : ∀ y ∈ x :: xs, PlainVar y) (b e : Tree) (i : Int) (k : Nat) (y : Str) (v : Val)
    (s s1 s2 : St X) (hb : HasVal b s (ofInt i) s1) (hk : (k : Int) = i % ((x :: xs).length : Nat)) (hy : (x :: xs)[k]? = some y)
    (he : Vals e s1 (.ok v, s2)) :
    ∃ s3, Vals (.node (op2 (s% ":")) [.node (op2 (s% "@")) [.node enlistOp ((x :: xs).map var), b], e]) s (.ok v, s3) ∧ Assigned y v s2 s3 := by
  have hyx : PlainVar y := hx y (List.mem_of_getElem? hy)
  obtain ⟨n, hn⟩ := Runs.at (C100_brackets x xs hx b i k y s s1 hb hk hy) 2
  obtain ⟨n', he'⟩ := Runs.at he 2
  refine ⟨s2.put y v, ?_, s2.put_assigned y v⟩
  have hr : (s2.put y v).read y = v := St.read_of_var (by simp [St.put_var])
  have := Vals.of_lval hyx (e := .node (op2 (s% ":")) [.node (op2 (s% "@")) [.node enlistOp ((x :: xs).map var), b], e]) (s := s)
    (s1 := s2.put y v) (n := max n n' + 1) fun m hm => by
      obtain ⟨m, rfl⟩ : ∃ k, m = k + 1 := ⟨m - 1, by omega⟩
      exact ev_assign (m := m + 1) (hn m (by omega)) (he' m (by omega)) (by
        rw [assign_plain hyx]
        exact setVar_apply y v s2)
  rwa [hr] at this

example : CycItem (.list [.nil, ofInt 5]) (-1) (ofInt 5) := .list (k := 1) (by decide) rfl
example : toyOut (s% "x:\"abc\"[@x;@<x;@>x;Hx;Sx;@\"xyz\";@>[1;2;3];@<\"xyz\"]J\",\"") [] [] = some (s% "a,ab,bc,ab,bc,x,2,3,xy\n") := by decide +kernel
example : toyOut (s% "x:l@0[x 1]") [] [] = some (s% "1\n") := by decide +kernel
example : toyOut (s% "[x y i]@v:5[x;y;i]J\",\"") [] [] = some (s% ",,5\n") := by decide +kernel
example : toyOut (s% "P(3,8)@7P`a`@0P@\"xyz\"P@\"\"") [] [] = some (s% "5\nx\n") := by decide +kernel

end Pip
