import Verif.Lemmas.HeapPath
import Verif.Lemmas.Vars
/-!
# Statements on the heap
-/

namespace Pip

open Heap

variable {X : Ext}

/-- What an assignment of an object with the mutable objects `fr` does to the heap. -/
structure Post (h h' : Heap) (F F' : Str → List Addr) (fr : List Addr) : Prop where
  le : h.length ≤ h'.length
  sub : ∀ x, ∀ y ∈ F' x, (∃ z, y ∈ F z) ∨ y ∈ fr ∨ h.length ≤ y
  keep : ∀ a v fq, Den h a v fq → (∀ y ∈ fq, (∀ z, y ∉ F z) ∧ y ∉ fr) → Den h' a v fq

theorem Post.keeps {h h' : Heap} {F F' : Str → List Addr} {fr : List Addr} (p : Post h h' F F' fr) :
    ∀ {l vs fq}, Dens h l vs fq → (∀ y ∈ fq, (∀ z, y ∉ F z) ∧ y ∉ fr) → Dens h' l vs fq
  | _, _, _, .nil, _ => .nil
  | _, _, _, .cons d ds, j =>
    .cons (p.keep _ _ _ d fun y hy => j y (List.mem_append_left _ hy))
      (p.keeps ds fun y hy => j y (List.mem_append_right _ hy))

theorem Post.refl (h : Heap) (F : Str → List Addr) (fr : List Addr) : Post h h F F fr :=
  ⟨Nat.le_refl _, fun x _ hy => .inl ⟨x, hy⟩, fun _ _ _ d _ => d⟩

theorem Post.trans {h h' h'' : Heap} {F F' F'' : Str → List Addr} {fr fr' frs : List Addr} (p : Post h h' F F' fr)
    (q : Post h' h'' F' F'' fr') (s : ∀ x ∈ fr, x ∈ frs) (s' : ∀ x ∈ fr', x ∈ frs ∨ h.length ≤ x) :
    Post h h'' F F'' frs where
  le := Nat.le_trans p.le q.le
  sub x y hy := by
    rcases q.sub x y hy with ⟨z, hz⟩ | h1 | h1
    · rcases p.sub z y hz with h2 | h2 | h2
      · exact .inl h2
      · exact .inr (.inl (s y h2))
      · exact .inr (.inr h2)
    · rcases s' y h1 with h2 | h2
      · exact .inr (.inl h2)
      · exact .inr (.inr h2)
    · exact .inr (.inr (Nat.le_trans p.le h1))
  keep a v fq d j := by
    refine q.keep a v fq (p.keep a v fq d fun y hy => ⟨(j y hy).1, fun h1 => (j y hy).2 (s y h1)⟩) fun y hy => ⟨fun z hz => ?_, fun h1 => ?_⟩
    · rcases p.sub z y hz with ⟨z', h2⟩ | h2 | h2
      · exact (j y hy).1 z' h2
      · exact (j y hy).2 (s y h2)
      · exact Nat.not_lt.2 h2 (d.lt y hy)
    · rcases s' y h1 with h2 | h2
      · exact (j y hy).2 h2
      · exact Nat.not_lt.2 h2 (d.lt y hy)

/-- New objects do no harm. -/
theorem Sep.append {s : HSt} {ρ F} (p : Sep s ρ F) (g : Heap) : Sep ⟨s.heap ++ g, s.vars⟩ ρ F where
  undef := p.undef
  value x a e := by
    obtain ⟨v, e1, d⟩ := p.value x a e
    exact ⟨v, e1, d.append g⟩
  nodup := p.nodup
  disjoint := p.disjoint

theorem Post.append (h g : Heap) (F : Str → List Addr) (fr : List Addr) : Post h (h ++ g) F F fr :=
  ⟨by simp, fun x _ hy => .inl ⟨x, hy⟩, fun _ _ _ d _ => d.append g⟩

theorem Sep.lt {s : HSt} {ρ F} (p : Sep s ρ F) (x : Str) : ∀ y ∈ F x, y < s.heap.length := by
  intro y hy
  cases hv : s.vars x with
  | none => rw [(p.undef x hv).2] at hy; cases hy
  | some a =>
    obtain ⟨v, -, d⟩ := p.value x a hv
    exact d.lt y hy

/-- `assign` to an index of a variable in the rest of the model -/
theorem assignName_path {x : Str} (hx : PlainVar x) {sl : List Idx} (hs : sl ≠ []) (w : Val) (st : St X) :
    assignName x sl w st =
      match st.var x with
      | none => (.ok (), st)
      | some (.range lo hi) =>
        match (Val.range lo hi).items with
        | .error e => (.error e, st)
        | .ok l =>
          match setPath X.fmt w sl (.list l) with
          | .error e => (.error e, st.put x (.list l))
          | .ok r => (.ok (), (st.put x (.list l)).put x r)
      | some (.list l) =>
        match setPath X.fmt w sl (.list l) with
        | .error e => (.error e, st)
        | .ok r => (.ok (), st.put x r)
      | some (.scalar t) =>
        match setPath X.fmt w sl (.scalar t) with
        | .error e => (.error e, st)
        | .ok r => (.ok (), st.put x r)
      | some _ => (.ok (), st) := by
  have he : sl.isEmpty = false := by cases sl <;> simp_all
  unfold assignName
  rw [hx.special]
  simp only [he, Bool.false_eq_true, if_false, M.bind_ok (M.get_apply st)]
  cases hv : st.var x with
  | none => rfl
  | some v =>
    cases v with
    | scalar t =>
      simp only
      cases hp : setPath X.fmt w sl (.scalar t) <;> rfl
    | list l =>
      simp only
      cases hp : setPath X.fmt w sl (.list l) <;> rfl
    | range lo hi =>
      simp only
      cases hi' : (Val.range lo hi).items with
      | error e => rfl
      | ok l =>
        simp only
        rw [M.bind_ok (M.lift_ok _ _), M.bind_ok (setVar_apply _ _ _)]
        cases hp : setPath X.fmt w sl (.list l) <;> rfl
    | pattern _ _ => rfl
    | block _ _ => rfl
    | nil => rfl

/-- Replacing the object of a variable or changing it -/
theorem Sep.change {s : HSt} {st : St X} {F} (p : Sep s st.var F) {x : Str} {a : Addr} {v : Val} {h' : Heap} {fp : List Addr}
    (d : Den h' a v fp) (nd : fp.Nodup) (hj : ∀ y, y ≠ x → ∀ z ∈ fp, z ∉ F y)
    (hk : ∀ y b w, y ≠ x → Den s.heap b w (F y) → Den h' b w (F y)) :
    Sep (HSt.setVar ⟨h', s.vars⟩ x a) (st.put x v).var (fun y => if y = x then fp else F y) where
  undef y hy := by
    simp only [HSt.setVar] at hy
    split at hy
    · cases hy
    · rename_i e
      rw [St.put_var, if_neg e, if_neg e]; exact p.undef y hy
  value y b hy := by
    simp only [HSt.setVar] at hy
    rw [St.put_var]
    split at hy
    · rename_i e
      cases hy
      simp only [e, if_true]
      exact ⟨v, rfl, d⟩
    · rename_i e
      simp only [e, if_false]
      obtain ⟨w, h1, h2⟩ := p.value y b hy
      exact ⟨w, h1, hk y b w e h2⟩
  nodup y := by
    split
    · exact nd
    · exact p.nodup y
  disjoint y z hyz c hc := by
    split at hc
    · rw [if_neg (by rename_i e; intro e2; exact hyz (e.trans e2.symm))]
      exact hj z (by rename_i e; intro e2; exact hyz (e.trans e2.symm)) c hc
    · split
      · rename_i e _
        intro hm
        exact hj y e c hm hc
      · exact p.disjoint y z hyz c hc

theorem Den.inv_scalar {h : Heap} {a : Addr} {t : Str} {fp} (d : Den h a (.scalar t) fp) : h[a]? = some (.scalar t) := by
  cases d with
  | scalar e => exact e
  | const e i => exact i.elim

theorem Den.inv_list {h : Heap} {a : Addr} {l : List Val} {fp} (d : Den h a (.list l) fp) :
    ∃ as, h[a]? = some (.list as) := by
  cases d with
  | list e _ => exact ⟨_, e⟩
  | const e i => exact i.elim

theorem Den.inv_const {h : Heap} {a : Addr} {v : Val} {fp} (d : Den h a v fp) (i : v.Immutable) :
    h[a]? = some (.const v) := by
  cases d <;> first | assumption | exact i.elim

/-- Getting an item makes new objects only. -/
theorem getItem_ext {h : Heap} {a : Addr} {i : Idx} {b : Addr} {h' : Heap} (e : h.getItem a i = .ok (b, h')) :
    ∃ g, h' = h ++ g := by
  unfold Heap.getItem at e
  split at e
  · split at e
    · cases e; exact ⟨_, rfl⟩
    · cases e
  · split at e
    · cases e; exact ⟨[], by simp⟩
    · cases e; exact ⟨_, rfl⟩
  · split at e
    · cases e; exact ⟨[], by simp⟩
    · cases e
  · split at e
    · cases e; exact ⟨[], by simp⟩
    · cases e; exact ⟨_, rfl⟩
  · rename_i j _ _ v _
    cases hg : v.get j with
    | error _ => rw [hg] at e; cases e
    | ok c =>
      rw [hg] at e
      obtain ⟨g, fq, e2, -⟩ := put_spec c h
      refine ⟨g, ?_⟩
      injection e with e
      rw [← e2, e]
  · cases e

/-- The fuel does not matter if it suffices. -/
theorem setPath_fuel {n m : Nat} {f : Fmt} {r : Addr} {w : Val} {fr : List Addr}
    (hn : ∀ h a fp, Den h a w fp → Heap.load n h a = some w) (hm : ∀ h a fp, Den h a w fp → Heap.load m h a = some w) :
    ∀ (path : List Idx) {h : Heap} (a : Addr), Den h r w fr → Heap.setPath n f r path h a = Heap.setPath m f r path h a
  | [], h, a, d => rfl
  | i :: is, h, a, d => by
    simp only [Heap.setPath]
    have e : h.setItem n f a i r = h.setItem m f a i r := by
      unfold Heap.setItem
      rw [hn _ _ _ d, hm _ _ _ d]
    rw [e]
    split
    · rfl
    · cases hg : h.getItem a i with
      | error e => cases e <;> rfl
      | ok q =>
        obtain ⟨b, h'⟩ := q
        obtain ⟨g, rfl⟩ := getItem_ext hg
        simp only
        exact setPath_fuel hn hm is b (d.append g)

/-- Assigning an object that shares nothing with the variables -/
def AssignOK (s : HSt) (F : Str → List Addr) (fr : List Addr) (run : Nat → Except Exc Unit × HSt)
    (res : Except Exc Unit × St X) : Prop :=
  ∃ n0 s' F', (∀ n, n0 ≤ n → run n = (res.1, s')) ∧ Sep s' res.2.var F' ∧ Post s.heap s'.heap F F' fr

theorem Post.upd {h h' : Heap} {F F' : Str → List Addr} {fr : List Addr} {x : Str} (hm : ∀ y ∈ F x, Mut h y)
    (u : Upd h h' (F x)) (sub : ∀ x, ∀ y ∈ F' x, (∃ z, y ∈ F z) ∨ y ∈ fr ∨ h.length ≤ y) : Post h h' F F' fr :=
  ⟨u.1, sub, fun _ _ _ d j => d.upd u (fun y hy _ => hm y hy) fun y hy => (j y hy).1 x⟩

/-- Assigning to an index of a variable -/
theorem tree_ok {s : HSt} {st : St X} {F} (p : Sep s st.var F) {r : Addr} {w : Val} {fr : List Addr}
    (dr : Den s.heap r w fr) (nr : fr.Nodup) (hj : ∀ y ∈ fr, ∀ z, y ∉ F z) (sl : List Idx) {x : Str} {a : Addr} {v : Val}
    (hv : s.vars x = some a) (d : Den s.heap a v (F x)) : ∃ n0,
      match setPath X.fmt w sl v with
      | .error e => ∀ n, n0 ≤ n → Heap.setPath n X.fmt r sl s.heap a = .error e
      | .ok v' => ∃ h' F', (∀ n, n0 ≤ n → Heap.setPath n X.fmt r sl s.heap a = .ok h') ∧
          Sep ⟨h', s.vars⟩ (st.put x v').var F' ∧ Post s.heap h' F F' fr := by
  obtain ⟨n0, hn⟩ := load_fuel w
  refine ⟨n0, ?_⟩
  have key := (setPath_agree (n := n0) (f := X.fmt) (r := r) (w := w) (fr := fr) (hn n0 (Nat.le_refl _)) nr sl).1 d
    (p.nodup x) dr (fun y hy => hj y hy x)
  have hf : ∀ n, n0 ≤ n → Heap.setPath n X.fmt r sl s.heap a = Heap.setPath n0 X.fmt r sl s.heap a :=
    fun n hn' => setPath_fuel (hn n hn') (hn n0 (Nat.le_refl _)) sl a dr
  cases hs : setPath X.fmt w sl v with
  | error e => rw [hs] at key; exact fun n hn' => (hf n hn').trans key
  | ok v' =>
    rw [hs] at key
    obtain ⟨h', fp', e, d', n', b', u⟩ := key
    have hm : ∀ y ∈ F x, Mut s.heap y := d.mut
    refine ⟨h', fun y => if y = x then fp' else F y, fun n hn' => (hf n hn').trans e, ?_, Post.upd hm u ?_⟩
    · have hc := Sep.change p (x := x) d' n' ?_ ?_
      · have e2 : HSt.setVar ⟨h', s.vars⟩ x a = ⟨h', s.vars⟩ := by
          simp only [HSt.setVar]
          congr 1
          funext m
          split
          · rename_i e; rw [e, hv]
          · rfl
        rw [e2] at hc
        exact hc
      · intro y hy z hz h1
        rcases b' z hz with h2 | h2 | h2
        · exact p.disjoint y x hy z h1 h2
        · exact hj z h2 y h1
        · exact Nat.not_lt.2 h2 (p.lt y z h1)
      · intro y b w' hy db
        exact db.upd u (fun z hz _ => hm z hz) fun z hz h1 => p.disjoint y x hy z hz h1
    · intro y z hz
      split at hz
      · rcases b' z hz with h2 | h2 | h2
        · exact .inl ⟨x, h2⟩
        · exact .inr (.inl h2)
        · exact .inr (.inr h2)
      · exact .inl ⟨y, hz⟩

theorem assign_ok {s : HSt} {st : St X} {F} (p : Sep s st.var F) {r : Addr} {w : Val} {fr : List Addr}
    (dr : Den s.heap r w fr) (nr : fr.Nodup) (hj : ∀ y ∈ fr, ∀ z, y ∉ F z) {x : Str} (hx : PlainVar x) (sl : List Idx) :
    AssignOK s F fr (fun n => s.assign n X.fmt x sl r) (assignName x sl w st) := by
  by_cases hs : sl = []
  · subst hs
    refine ⟨0, s.setVar x r, fun y => if y = x then fr else F y, fun n _ => ?_, ?_, ?_⟩
    · simp [HSt.assign, assignName, hx.special, setVar_apply]
    · have : (assignName x [] w st).2 = st.put x w := by simp [assignName, hx.special, setVar_apply]
      rw [this]
      exact Sep.change p dr nr (fun y _ z hz => hj z hz y) fun _ _ _ _ d => d
    · refine ⟨Nat.le_refl _, fun y z hz => ?_, fun _ _ _ d _ => d⟩
      split at hz
      · exact .inr (.inl hz)
      · exact .inl ⟨y, hz⟩
  · have he : sl.isEmpty = false := by cases sl <;> simp_all
    rw [assignName_path hx hs]
    cases hv : s.vars x with
    | none =>
      rw [(p.undef x hv).1]
      exact ⟨0, s, F, fun n _ => by simp [HSt.assign, he, hv], p, Post.refl _ _ _⟩
    | some a =>
      obtain ⟨v, e1, d⟩ := p.value x a hv
      rw [e1]
      cases v with
      | scalar t =>
        obtain ⟨n0, key⟩ := tree_ok p dr nr hj sl hv d
        have hc := d.inv_scalar
        simp only
        cases hp : setPath X.fmt w sl (.scalar t) with
        | error e =>
          rw [hp] at key
          exact ⟨n0, s, F, fun n hn => by simp [HSt.assign, he, hv, hc, key n hn], p, Post.refl _ _ _⟩
        | ok v' =>
          rw [hp] at key
          obtain ⟨h', F', e, p', q⟩ := key
          exact ⟨n0, _, F', fun n hn => by simp [HSt.assign, he, hv, hc, e n hn], p', q⟩
      | list l =>
        obtain ⟨n0, key⟩ := tree_ok p dr nr hj sl hv d
        obtain ⟨as, hc⟩ := d.inv_list
        simp only
        cases hp : setPath X.fmt w sl (.list l) with
        | error e =>
          rw [hp] at key
          exact ⟨n0, s, F, fun n hn => by simp [HSt.assign, he, hv, hc, key n hn], p, Post.refl _ _ _⟩
        | ok v' =>
          rw [hp] at key
          obtain ⟨h', F', e, p', q⟩ := key
          exact ⟨n0, _, F', fun n hn => by simp [HSt.assign, he, hv, hc, e n hn], p', q⟩
      | range lo hi =>
        have hc := d.inv_const trivial
        simp only
        cases hi' : (Val.range lo hi).items with
        | error e => exact ⟨0, s, F, fun n _ => by simp [HSt.assign, he, hv, hc, hi'], p, Post.refl _ _ _⟩
        | ok l =>
          simp only
          obtain ⟨g, fq, e2, dq, nq, bq⟩ := put_spec (.list l) s.heap
          have p1 : Sep (HSt.setVar ⟨s.heap ++ g, s.vars⟩ x (s.heap.put (.list l)).1) (st.put x (.list l)).var
              (fun y => if y = x then fq else F y) :=
            Sep.change p dq nq (fun y _ z hz h1 => Nat.not_lt.2 (bq z hz) (p.lt y z h1)) fun _ _ _ _ d => d.append g
          have q1 : Post s.heap (s.heap ++ g) F (fun y => if y = x then fq else F y) fr := by
            refine ⟨by simp, fun y z hz => ?_, fun _ _ _ d _ => d.append g⟩
            split at hz
            · exact .inr (.inr (bq z hz))
            · exact .inl ⟨y, hz⟩
          have hj1 : ∀ y ∈ fr, ∀ z, y ∉ (if z = x then fq else F z) := by
            intro y hy z hz
            split at hz
            · exact Nat.not_lt.2 (bq y hz) (dr.lt y hy)
            · exact hj y hy z hz
          obtain ⟨n0, key⟩ := tree_ok p1 (dr.append g) nr hj1 sl (x := x) (a := (s.heap.put (.list l)).1) (v := .list l)
            (by simp [HSt.setVar]) (by simp only [if_true]; exact dq)
          cases hp : setPath X.fmt w sl (.list l) with
          | error e =>
            rw [hp] at key
            refine ⟨n0, _, _, fun n hn => ?_, p1, q1⟩
            have := key n hn
            simp only [HSt.setVar] at this
            simp [HSt.assign, he, hv, hc, hi', e2, this]
          | ok v' =>
            rw [hp] at key
            obtain ⟨h', F', e, p', q⟩ := key
            refine ⟨n0, _, F', fun n hn => ?_, p', Post.trans q1 q (fun _ h => h) (fun _ h => .inl h)⟩
            have := e n hn
            simp only [HSt.setVar] at this
            simp [HSt.assign, he, hv, hc, hi', e2, this, HSt.setVar]
      | pattern _ _ =>
        have hc := d.inv_const trivial
        exact ⟨0, s, F, fun n _ => by simp [HSt.assign, he, hv, hc], p, Post.refl _ _ _⟩
      | block _ _ =>
        have hc := d.inv_const trivial
        exact ⟨0, s, F, fun n _ => by simp [HSt.assign, he, hv, hc], p, Post.refl _ _ _⟩
      | nil =>
        have hc := d.inv_const trivial
        exact ⟨0, s, F, fun n _ => by simp [HSt.assign, he, hv, hc], p, Post.refl _ _ _⟩

/-! ### Reading -/

/-- Reading an lvalue gives an object that shares nothing with the variables. -/
def ReadOK (s : HSt) (run : Nat → Except Exc Addr × HSt) (res : Except Exc Val) : Prop :=
  ∃ n0 g, match res with
    | .error e => ∀ n, n0 ≤ n → run n = (.error e, ⟨s.heap ++ g, s.vars⟩)
    | .ok w => ∃ a fr, (∀ n, n0 ≤ n → run n = (.ok a, ⟨s.heap ++ g, s.vars⟩)) ∧ Den (s.heap ++ g) a w fr ∧ fr.Nodup ∧
        ∀ x ∈ fr, s.heap.length ≤ x

def ReadsOK (s : HSt) (run : Nat → Except Exc (List Addr) × HSt) (res : Except Exc (List Val)) : Prop :=
  ∃ n0 g, match res with
    | .error e => ∀ n, n0 ≤ n → run n = (.error e, ⟨s.heap ++ g, s.vars⟩)
    | .ok ws => ∃ l fr, (∀ n, n0 ≤ n → run n = (.ok l, ⟨s.heap ++ g, s.vars⟩)) ∧ Dens (s.heap ++ g) l ws fr ∧ fr.Nodup ∧
        ∀ x ∈ fr, s.heap.length ≤ x

theorem read_ok {s : HSt} {st : St X} {F} (p : Sep s st.var F) {x : Str} (hx : PlainVar x) (c : Option Nat)
    (sl : List Idx) : ∃ res, rval (.name x c sl) st = (res, st) ∧ ReadOK s (fun n => s.read n x sl) res := by
  have hr : rval (.name x c sl) st =
      (match st.var x with | some v => (M.lift (Pip.readPath sl v) : M X Val) | none => pure .nil) st := by
    unfold rval
    rw [if_neg hx.2.2, if_neg (by simp [hx.special])]
    simp only [M.bind_ok (M.get_apply st)]
    cases st.var x <;> rfl
  rw [hr]
  cases hv : s.vars x with
  | none =>
    rw [(p.undef x hv).1]
    refine ⟨.ok .nil, rfl, 0, [.const .nil], s.heap.length, [], fun n _ => ?_, .const (getElem?_alloc _ _) trivial, by simp,
      by simp⟩
    simp [HSt.read, hv, alloc]
  | some a =>
    obtain ⟨v, e1, d⟩ := p.value x a hv
    rw [e1]
    have key := d.readPath sl
    refine ⟨Pip.readPath sl v, rfl, ?_⟩
    cases hp : Pip.readPath sl v with
    | error e =>
      rw [hp] at key
      obtain ⟨n0, key⟩ := key
      refine ⟨n0, [], fun n hn => ?_⟩
      simp [HSt.read, hv, key n hn]
    | ok w =>
      rw [hp] at key
      obtain ⟨n0, g, key⟩ := key
      obtain ⟨g', fq, e2, dq, nq, bq⟩ := put_spec w (s.heap ++ g)
      refine ⟨n0, g ++ g', _, fq, fun n hn => ?_, by rw [← List.append_assoc]; exact dq, nq, fun x hx => ?_⟩
      · simp [HSt.read, hv, key n hn, e2]
      · have := bq x hx
        rw [List.length_append] at this
        exact Nat.le_trans (Nat.le_add_right _ _) this

mutual
theorem readL_ok {st : St X} {F} : ∀ (l : Lval) {s : HSt}, Sep s st.var F → PlainL l →
    ∃ res, rval l st = (res, st) ∧ ReadOK s (fun n => s.readL n l) res
  | .name x c sl, s, p, hl => by
    simp only [PlainL] at hl
    obtain ⟨res, h1, h2⟩ := read_ok p hl c sl
    refine ⟨res, h1, ?_⟩
    simp only [HSt.readL]
    exact h2
  | .list ls sl, s, p, hl => by
    simp only [PlainL] at hl
    obtain ⟨res, h1, n0, g, h2⟩ := readLs_ok ls p hl
    cases res with
    | error e =>
      refine ⟨.error e, ?_, n0, g, fun n hn => ?_⟩
      · rw [rval, M.bind_error h1]
      · simp only [HSt.readL, h2 n hn]
    | ok ws =>
      obtain ⟨l, fr, h3, d, nd, b⟩ := h2
      refine ⟨.ok (.list ws), ?_, n0, g ++ [.list l], (s.heap ++ g).length, (s.heap ++ g).length :: fr, fun n hn => ?_, ?_,
        ?_, ?_⟩
      · rw [rval, M.bind_ok h1]; rfl
      · simp only [HSt.readL, h3 n hn, alloc, List.append_assoc]
      · rw [← List.append_assoc]
        exact .list (getElem?_alloc _ _) (d.append _)
      · exact List.nodup_cons.2 ⟨fun hm => Nat.lt_irrefl _ (d.lt _ hm), nd⟩
      · intro x hx
        rcases List.mem_cons.1 hx with rfl | hx
        · rw [List.length_append]; exact Nat.le_add_right _ _
        · exact b x hx
theorem readLs_ok {st : St X} {F} : ∀ (ls : List Lval) {s : HSt}, Sep s st.var F → PlainLs ls →
    ∃ res, rvals ls st = (res, st) ∧ ReadsOK s (fun n => s.readLs n ls) res
  | [], s, p, _ => by
    refine ⟨.ok [], by rw [rvals]; rfl, 0, [], [], [], fun n _ => ?_, .nil, by simp, by simp⟩
    simp [HSt.readLs]
  | l :: ls, s, p, hl => by
    simp only [PlainLs] at hl
    obtain ⟨res, h1, n0, g, h2⟩ := readL_ok l p hl.1
    cases res with
    | error e =>
      refine ⟨.error e, ?_, n0, g, fun n hn => ?_⟩
      · rw [rvals, M.bind_error h1]
      · simp only [HSt.readLs, h2 n hn]
    | ok w =>
      obtain ⟨a, fr, h3, d, nd, b⟩ := h2
      obtain ⟨res', h1', n0', g', h2'⟩ := readLs_ok ls (p.append g) hl.2
      cases res' with
      | error e =>
        refine ⟨.error e, ?_, n0 + n0', g ++ g', fun n hn => ?_⟩
        · rw [rvals, M.bind_ok h1, M.bind_error h1']
        · simp only [HSt.readLs, h3 n (by omega), h2' n (by omega), List.append_assoc]
      | ok ws =>
        obtain ⟨l', fr', h3', d', nd', b'⟩ := h2'
        refine ⟨.ok (w :: ws), ?_, n0 + n0', g ++ g', a :: l', fr ++ fr', fun n hn => ?_, ?_, ?_, ?_⟩
        · rw [rvals, M.bind_ok h1, M.bind_ok h1']; rfl
        · simp only [HSt.readLs, h3 n (by omega), h3' n (by omega), List.append_assoc]
        · rw [← List.append_assoc]
          exact .cons (d.append _) d'
        · refine List.nodup_append.2 ⟨nd, nd', fun x hx y hy e => ?_⟩
          subst e
          exact Nat.not_lt.2 (b' x hy) (d.lt x hx)
        · intro x hx
          rcases List.mem_append.1 hx with hx | hx
          · exact b x hx
          · have := b' x hx
            rw [List.length_append] at this
            exact Nat.le_trans (Nat.le_add_right _ _) this
end

/-! ### Assigning -/

theorem Den.firstItems {h : Heap} {r w fr} (d : Den h r w fr) (nr : fr.Nodup) (k : Nat) :
    match Pip.firstItems k w with
    | none => HSt.firstItems k h r = none
    | some ws => ∃ g ls fq, HSt.firstItems k h r = some (ls, h ++ g) ∧ Dens (h ++ g) ls ws fq ∧ fq.Nodup ∧
        ∀ x ∈ fq, x ∈ fr ∨ h.length ≤ x := by
  cases d with
  | @scalar _ s e =>
    simp only [Pip.firstItems, Val.iter, HSt.firstItems, e]
    obtain ⟨g, fq, e1, dq, nq, bq⟩ := puts_spec (s.map fun c => Val.scalar [c]) h
    exact ⟨g, _, fq, by rw [← e1], dq, nq, fun x hx => .inr (bq x hx)⟩
  | @list _ l vs fp e ds =>
    simp only [Pip.firstItems, Val.iter, HSt.firstItems, e]
    exact ⟨[], l, fp, by simp, ds.append _, (List.nodup_cons.1 nr).2, fun x hx => .inl (List.mem_cons_of_mem _ hx)⟩
  | @const _ v e im =>
    simp only [HSt.firstItems, e]
    cases hw : Pip.firstItems k w with
    | none => rfl
    | some ws =>
      obtain ⟨g, fq, e1, dq, nq, bq⟩ := puts_spec ws h
      refine ⟨g, _, fq, ?_, dq, nq, fun x hx => .inr (bq x hx)⟩
      simp only [Option.map]
      rw [← e1]

mutual
theorem assignL_ok : ∀ (l : Lval) {s : HSt} {st : St X} {F : Str → List Addr} {r : Addr} {w : Val} {fr : List Addr},
    Sep s st.var F → Den s.heap r w fr → fr.Nodup → (∀ y ∈ fr, ∀ z, y ∉ F z) → PlainL l →
    AssignOK s F fr (fun n => s.assignL n X.fmt l r) (assign l w st)
  | .name x c sl, s, st, F, r, w, fr, p, d, nd, hj, hl => by
    simp only [PlainL] at hl
    have := assign_ok p d nd hj hl sl
    simp only [HSt.assignL, assign]
    exact this
  | .list ls sl, s, st, F, r, w, fr, p, d, nd, hj, hl => by
    simp only [PlainL] at hl
    have hf := d.firstItems nd ls.length
    simp only [HSt.assignL, assign]
    cases hw : Pip.firstItems ls.length w with
    | none =>
      rw [hw] at hf
      exact ⟨0, s, F, fun n _ => by simp only [hf]; rfl, p, Post.refl _ _ _⟩
    | some ws =>
      rw [hw] at hf
      obtain ⟨g, as, fq, e, ds, nq, bq⟩ := hf
      obtain ⟨n0, s', F', h1, h2, h3⟩ := assignLs_ok ls (p.append g) ds nq (fun y hy z hz => by
        rcases bq y hy with h | h
        · exact hj y h z hz
        · exact Nat.not_lt.2 h (p.lt z y hz)) hl
      exact ⟨n0, s', F', fun n hn => by simp only [e]; exact h1 n hn, h2,
        (Post.append s.heap g F fr).trans h3 (fun _ h => h) bq⟩
theorem assignLs_ok : ∀ (ls : List Lval) {s : HSt} {st : St X} {F : Str → List Addr} {rs : List Addr} {ws : List Val}
    {fr : List Addr}, Sep s st.var F → Dens s.heap rs ws fr → fr.Nodup → (∀ y ∈ fr, ∀ z, y ∉ F z) → PlainLs ls →
    AssignOK s F fr (fun n => s.assignLs n X.fmt ls rs) (assigns ls ws st)
  | [], s, st, F, rs, ws, fr, p, d, nd, hj, hl => by
    refine ⟨0, s, F, fun n _ => ?_, ?_, Post.refl _ _ _⟩
    · simp only [HSt.assignLs]; rw [assigns]; rfl
    · rw [assigns]; exact p
  | l :: ls, s, st, F, rs, ws, fr, p, d, nd, hj, hl => by
    simp only [PlainLs] at hl
    cases d with
    | nil =>
      have hA := assignL_ok l (p.append [.const .nil]) (r := s.heap.length) (w := .nil) (fr := [])
        (.const (getElem?_alloc _ _) trivial) (by simp) (by simp) hl.1
      obtain ⟨n0, s', F', h1, h2, h3⟩ := hA
      have h3' : Post s.heap s'.heap F F' [] := (Post.append s.heap [.const .nil] F []).trans h3 (by simp) (by simp)
      cases ha : assign l .nil st with
      | mk res st' =>
        rw [ha] at h1 h2
        cases res with
        | error e =>
          rw [assigns, M.bind_error ha]
          exact ⟨n0, s', F', fun n hn => by simp only [HSt.assignLs, alloc, h1 n hn], h2, h3'⟩
        | ok u =>
          rw [assigns, M.bind_ok ha]
          obtain ⟨n1, s'', F'', h4, h5, h6⟩ := assignLs_ok ls (rs := []) (ws := []) (fr := []) h2 .nil (by simp) (by simp) hl.2
          exact ⟨n0 + n1, s'', F'', fun n hn => by
            simp only [HSt.assignLs, alloc, h1 n (by omega)]; exact h4 n (by omega), h5,
            h3'.trans h6 (by simp) (by simp)⟩
    | @cons a v fp as vs fps d ds =>
      obtain ⟨n1, n2, n3⟩ := List.nodup_append.1 nd
      have hA := assignL_ok l p d n1 (fun y hy => hj y (List.mem_append_left _ hy)) hl.1
      obtain ⟨n0, s', F', h1, h2, h3⟩ := hA
      cases ha : assign l v st with
      | mk res st' =>
        rw [ha] at h1 h2
        cases res with
        | error e =>
          rw [assigns, M.bind_error ha]
          exact ⟨n0, s', F', fun n hn => by simp only [HSt.assignLs, h1 n hn], h2,
            h3.trans (Post.refl _ _ []) (fun _ h => List.mem_append_left _ h) (by simp)⟩
        | ok u =>
          rw [assigns, M.bind_ok ha]
          have ds' : Dens s'.heap as vs fps := h3.keeps ds fun y hy =>
            ⟨fun z => hj y (List.mem_append_right _ hy) z, fun h => n3 y h y hy rfl⟩
          obtain ⟨m0, s'', F'', h4, h5, h6⟩ := assignLs_ok ls h2 ds' n2 (fun y hy z hz => by
            rcases h3.sub z y hz with ⟨z', h7⟩ | h7 | h7
            · exact hj y (List.mem_append_right _ hy) z' h7
            · exact n3 y h7 y hy rfl
            · exact Nat.not_lt.2 h7 (ds.lt y hy)) hl.2
          exact ⟨n0 + m0, s'', F'', fun n hn => by
            simp only [HSt.assignLs, h1 n (by omega)]; exact h4 n (by omega), h5,
            h3.trans h6 (fun _ h => List.mem_append_left _ h) (fun _ h => .inl (List.mem_append_right _ h))⟩
end

/-! ### Statements -/

theorem Sep.fresh {s : HSt} {ρ F} (p : Sep s ρ F) {fr : List Addr} (b : ∀ x ∈ fr, s.heap.length ≤ x) :
    ∀ y ∈ fr, ∀ z, y ∉ F z := fun y hy z hz => Nat.not_lt.2 (b y hy) (p.lt z y hz)

theorem step_ok {s : HSt} {st : St X} (p : Separate s st.var) (q : Stmt) (hq : q.Plain) :
    ∃ n0 s', (∀ n, n0 ≤ n → s.step n X.fmt q = ((q.run X st).1.map fun _ => (), s')) ∧ Separate s' (q.run X st).2.var := by
  obtain ⟨F, p⟩ := p
  cases q with
  | val l v =>
    obtain ⟨g, fq, e, d, nq, bq⟩ := put_spec v s.heap
    obtain ⟨n0, s', F', h1, h2, -⟩ := assignL_ok l (p.append g) d nq (p.fresh bq) hq
    refine ⟨n0, s', ?_, ?_⟩
    · intro n hn
      simp only [HSt.step, e, h1 n hn, Stmt.run, opASSIGN]
      have : (resRval (Res.v v) : M X Val) = pure v := rfl
      rw [this, M.pure_bind']
      cases ha : assign l v st with
      | mk res st' => cases res with
        | error e => rw [M.bind_error ha]; rfl
        | ok u => rw [M.bind_ok ha]; rfl
    · have e2 : (Stmt.run X (.val l v) st).2 = (assign l v st).2 := by
        simp only [Stmt.run, opASSIGN]
        have : (resRval (Res.v v) : M X Val) = pure v := rfl
        rw [this, M.pure_bind']
        cases ha : assign l v st with
        | mk res st' => cases res with
          | error e => rw [M.bind_error ha]
          | ok u => rw [M.bind_ok ha]; rfl
      rw [e2]
      exact ⟨F', h2⟩
  | copy l m =>
    have hr : (resRval (Res.l m) : M X Val) = rval m := rfl
    obtain ⟨res, e1, n1, g, h3⟩ := readL_ok m p hq.2
    simp only [Stmt.run, opASSIGN, hr]
    cases res with
    | error e =>
      rw [M.bind_error e1]
      exact ⟨n1, _, fun n hn => by simp only [HSt.step, h3 n hn]; rfl, F, p.append g⟩
    | ok w =>
      obtain ⟨a, fr, h3, d, nd, b⟩ := h3
      rw [M.bind_ok e1]
      obtain ⟨n0, s', F', h1, h2, -⟩ := assignL_ok l (p.append g) d nd (p.fresh b) hq.1
      cases ha : assign l w st with
      | mk res st' =>
        rw [ha] at h1 h2
        cases res with
        | error e =>
          rw [M.bind_error ha]
          exact ⟨n0 + n1, s', fun n hn => by simp only [HSt.step, h3 n (by omega)]; exact h1 n (by omega), F', h2⟩
        | ok u =>
          rw [M.bind_ok ha]
          exact ⟨n0 + n1, s', fun n hn => by simp only [HSt.step, h3 n (by omega)]; exact h1 n (by omega), F', h2⟩
  | swap l m =>
    have hr : ∀ m, (resRval (Res.l m) : M X Val) = rval m := fun _ => rfl
    obtain ⟨res, e1, n1, g, h3⟩ := readL_ok l p hq.1
    simp only [Stmt.run, opSWAP, M.bind_ok (ev_lval l 0 st), M.bind_ok (ev_lval m 0 st), hr]
    cases res with
    | error e =>
      rw [M.bind_error e1]
      exact ⟨n1, _, fun n hn => by simp only [HSt.step, h3 n hn]; rfl, F, p.append g⟩
    | ok v1 =>
      obtain ⟨a, fr, h3, d, nd, b⟩ := h3
      rw [M.bind_ok e1]
      obtain ⟨res, e2, n2, g2, h4⟩ := readL_ok m (p.append g) hq.2
      cases res with
      | error e =>
        rw [M.bind_error e2]
        exact ⟨n1 + n2, _, fun n hn => by simp only [HSt.step, h3 n (by omega), h4 n (by omega)]; rfl, F, (p.append g).append g2⟩
      | ok v2 =>
        obtain ⟨a2, fr2, h4, d2, nd2, b2⟩ := h4
        rw [M.bind_ok e2]
        obtain ⟨n3, s', F', h5, h6, h7⟩ := assignL_ok l ((p.append g).append g2) d2 nd2 ((p.append g).fresh b2) hq.1
        cases ha : assign l v2 st with
        | mk res st' =>
          rw [ha] at h5 h6
          simp only at h5
          cases res with
          | error e =>
            rw [M.bind_error ha]
            refine ⟨n1 + n2 + n3, s', fun n hn => ?_, F', h6⟩
            simp only [HSt.step, h3 n (by omega), h4 n (by omega), h5 n (by omega)]; rfl
          | ok u =>
            rw [M.bind_ok ha]
            have hfr : ∀ y ∈ fr, y ∉ fr2 := fun y hy h => Nat.not_lt.2 (b2 y h) (d.lt y hy)
            have d' : Den s'.heap a v1 fr := h7.keep _ _ _ (d.append g2) fun y hy =>
              ⟨fun z => p.fresh b y hy z, hfr y hy⟩
            obtain ⟨n4, s'', F'', h8, h9, -⟩ := assignL_ok m h6 d' nd (fun y hy z hz => by
              rcases h7.sub z y hz with ⟨z', h⟩ | h | h
              · exact p.fresh b y hy z' h
              · exact hfr y hy h
              · exact Nat.not_lt.2 h ((d.append g2).lt y hy)) hq.2
            cases ha2 : assign m v1 st' with
            | mk res st'' =>
              rw [ha2] at h8 h9
              cases res with
              | error e =>
                rw [M.bind_error ha2]
                refine ⟨n1 + n2 + n3 + n4, s'', fun n hn => ?_, F'', h9⟩
                simp only [HSt.step, h3 n (by omega), h4 n (by omega), h5 n (by omega)]
                exact h8 n (by omega)
              | ok u =>
                rw [M.bind_ok ha2]
                refine ⟨n1 + n2 + n3 + n4, s'', fun n hn => ?_, F'', h9⟩
                simp only [HSt.step, h3 n (by omega), h4 n (by omega), h5 n (by omega)]
                exact h8 n (by omega)

theorem steps_ok : ∀ (ps : List Stmt) {s : HSt} {st : St X}, Separate s st.var → (∀ q ∈ ps, q.Plain) →
    ∃ n0 s', (∀ n, n0 ≤ n → s.steps n X.fmt ps = ((Stmt.runAll X ps st).1, s')) ∧ Separate s' (Stmt.runAll X ps st).2.var
  | [], s, st, p, _ => ⟨0, s, fun _ _ => rfl, p⟩
  | q :: ps, s, st, p, hq => by
    obtain ⟨n0, s', h1, h2⟩ := step_ok p q (hq q List.mem_cons_self)
    cases ha : q.run X st with
    | mk res st' =>
      rw [ha] at h1 h2
      cases res with
      | error e =>
        rw [Stmt.runAll, M.bind_error ha]
        exact ⟨n0, s', fun n hn => by simp only [HSt.steps, h1 n hn]; rfl, h2⟩
      | ok u =>
        rw [Stmt.runAll, M.bind_ok ha]
        obtain ⟨n1, s'', h3, h4⟩ := steps_ok ps h2 fun q' h => hq q' (List.mem_cons_of_mem _ h)
        exact ⟨n0 + n1, s'', fun n hn => by
          simp only [HSt.steps, h1 n (by omega)]; exact h3 n (by omega), h4⟩

/-! ### Variables that are not assigned to -/

theorem assignName_other {x y : Str} (hx : PlainVar x) (h : x ≠ y) (sl : List Idx) (w : Val) (st : St X) :
    (assignName x sl w st).2.var y = st.var y := by
  have hy : ¬ y = x := fun e => h e.symm
  by_cases hs : sl = []
  · subst hs
    have : (assignName x [] w st).2 = st.put x w := by simp [assignName, hx.special, setVar_apply]
    rw [this, St.put_var, if_neg hy]
  · rw [assignName_path hx hs]
    split
    · rfl
    · split
      · rfl
      · split <;> simp [St.put_var, hy]
    · split <;> simp [St.put_var, hy]
    · split <;> simp [St.put_var, hy]
    · rfl

mutual
theorem assign_other {y : Str} : ∀ (l : Lval) (w : Val) (st : St X), PlainL l → ¬ AssignsL y l →
    (assign l w st).2.var y = st.var y
  | .name x c sl, w, st, hp, h => by
    simp only [PlainL, AssignsL] at hp h
    rw [assign]
    exact assignName_other hp h sl w st
  | .list ls sl, w, st, hp, h => by
    simp only [PlainL, AssignsL] at hp h
    rw [assign]
    cases firstItems ls.length w with
    | none => rfl
    | some ws => exact assigns_other ls ws st hp h
theorem assigns_other {y : Str} : ∀ (ls : List Lval) (ws : List Val) (st : St X), PlainLs ls → ¬ AssignsLs y ls →
    (assigns ls ws st).2.var y = st.var y
  | [], _, st, _, _ => by rw [assigns]; rfl
  | l :: ls, [], st, hp, h => by
    simp only [PlainLs, AssignsLs, not_or] at hp h
    have h1 := assign_other l .nil st hp.1 h.1
    cases ha : assign l .nil st with
    | mk res st' =>
      rw [ha] at h1
      cases res with
      | error e => rw [assigns, M.bind_error ha]; exact h1
      | ok u => rw [assigns, M.bind_ok ha, assigns_other ls [] st' hp.2 h.2]; exact h1
  | l :: ls, w :: ws, st, hp, h => by
    simp only [PlainLs, AssignsLs, not_or] at hp h
    have h1 := assign_other l w st hp.1 h.1
    cases ha : assign l w st with
    | mk res st' =>
      rw [ha] at h1
      cases res with
      | error e => rw [assigns, M.bind_error ha]; exact h1
      | ok u => rw [assigns, M.bind_ok ha, assigns_other ls ws st' hp.2 h.2]; exact h1
end

mutual
/-- Reading ordinary variables does not change the state. -/
theorem rval_state : ∀ (l : Lval) (st : St X), PlainL l → (rval l st).2 = st
  | .name x c sl, st, h => by
    simp only [PlainL] at h
    unfold rval
    rw [if_neg h.2.2, if_neg (by simp [h.special])]
    simp only [M.bind_ok (M.get_apply st)]
    cases st.var x with
    | none => rfl
    | some v => simp only; cases readPath sl v <;> rfl
  | .list ls sl, st, h => by
    simp only [PlainL] at h
    have h1 := rvals_state ls st h
    cases hr : rvals ls st with
    | mk res st' =>
      rw [hr] at h1
      cases res with
      | error e => rw [rval, M.bind_error hr]; exact h1
      | ok u => rw [rval, M.bind_ok hr]; exact h1
theorem rvals_state : ∀ (ls : List Lval) (st : St X), PlainLs ls → (rvals ls st).2 = st
  | [], st, _ => by rw [rvals]; rfl
  | l :: ls, st, h => by
    simp only [PlainLs] at h
    have h1 := rval_state l st h.1
    cases hr : rval l st with
    | mk res st' =>
      rw [hr] at h1
      simp only at h1
      subst h1
      cases res with
      | error e => rw [rvals, M.bind_error hr]
      | ok u =>
        rw [rvals, M.bind_ok hr]
        have h2 := rvals_state ls st' h.2
        cases hr2 : rvals ls st' with
        | mk res st'' =>
          rw [hr2] at h2
          cases res with
          | error e => rw [M.bind_error hr2]; exact h2
          | ok u => rw [M.bind_ok hr2]; exact h2
end

end Pip
