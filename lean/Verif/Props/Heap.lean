import Verif.Lemmas.HeapStmt
import Verif.Spec.Toy
/-! # C65: copies are independent -/

namespace Pip
variable {X : Ext}

/-- **C65** Scalars and Lists are mutable objects, and assigning to an index changes an object. Assignments of new values,
of variables or parts of them, destructuring assignments and swaps nevertheless behave as if variables held values: from a
state in which the variables share no mutable object, the result and the values of all variables are those of the model
with values, and again no mutable object is shared. -/
theorem C65_refines (ps : List Stmt) (hp : ∀ q ∈ ps, q.Plain) (s : HSt) (st : St X) (h : Separate s st.var) :
    ∃ n0 s', (∀ n, n0 ≤ n → s.steps n X.fmt ps = ((Stmt.runAll X ps st).1, s')) ∧
      Separate s' (Stmt.runAll X ps st).2.var := steps_ok ps h hp

/-- What separate variables are: the object of each has the value of the variable. -/
theorem C65_values {s : HSt} {ρ : Str → Option Val} (h : Separate s ρ) (x : Str) :
    (s.vars x = none ∧ ρ x = none) ∨
      ∃ a v n0, s.vars x = some a ∧ ρ x = some v ∧ ∀ n, n0 ≤ n → s.heap.load n a = some v := by
  obtain ⟨F, p⟩ := h
  cases hv : s.vars x with
  | none => exact .inl ⟨rfl, (p.undef x hv).1⟩
  | some a =>
    obtain ⟨v, e, d⟩ := p.value x a hv
    obtain ⟨n0, hn⟩ := load_fuel v
    exact .inr ⟨a, v, n0, rfl, e, fun n h => hn n h _ _ _ d⟩

/-- No statement changes the value of a variable that it does not assign to, whatever was copied from or to the variable
before. -/
theorem C65_independent (ps : List Stmt) (hp : ∀ q ∈ ps, q.Plain) (y : Str) (hy : ∀ q ∈ ps, ¬ q.Assigns y) (s : HSt)
    (st : St X) (h : Separate s st.var) (v : Val) (hv : st.var y = some v) :
    ∃ n0, ∀ n, n0 ≤ n → ∃ a, (s.steps n X.fmt ps).2.vars y = some a ∧ (s.steps n X.fmt ps).2.heap.load n a = some v := by
  obtain ⟨n0, s', e, h'⟩ := C65_refines ps hp s st h
  have key : ∀ (ps : List Stmt) (st : St X), (∀ q ∈ ps, q.Plain) → (∀ q ∈ ps, ¬ q.Assigns y) →
      (Stmt.runAll X ps st).2.var y = st.var y := by
    intro ps
    induction ps with
    | nil => intro st _ _; rfl
    | cons q ps ih =>
      intro st hp hy
      have h1 : (q.run X st).2.var y = st.var y := by
        have hq := hp q List.mem_cons_self
        have hyq := hy q List.mem_cons_self
        have asg : ∀ (l : Lval) (m : M X Val), PlainL l → ¬ AssignsL y l → (m st).2 = st →
            ((do let v ← m; assign l v; return (.l l) : M X Res) st).2.var y = st.var y := by
          intro l m hl hyl hm
          cases hm' : m st with
          | mk res st' =>
            rw [hm'] at hm
            simp only at hm
            subst hm
            cases res with
            | error e => rw [M.bind_error hm']
            | ok w =>
              rw [M.bind_ok hm']
              have h2 := assign_other l w st' hl hyl
              cases ha : assign l w st' with
              | mk res st'' =>
                rw [ha] at h2
                cases res with
                | error e => rw [M.bind_error ha]; exact h2
                | ok u => rw [M.bind_ok ha]; exact h2
        cases q with
        | val l v => exact asg l (pure v) hq hyq rfl
        | copy l m => exact asg l (rval m) hq.1 hyq (rval_state m st hq.2)
        | swap l m =>
          simp only [Stmt.Assigns, not_or] at hyq
          have hr : ∀ m, (resRval (Res.l m) : M X Val) = rval m := fun _ => rfl
          simp only [Stmt.run, opSWAP, M.bind_ok (ev_lval l 0 st), M.bind_ok (ev_lval m 0 st), hr]
          have s1 := rval_state l st hq.1
          have s2 := rval_state m st hq.2
          cases h1 : rval l st with
          | mk res st1 =>
            rw [h1] at s1
            simp only at s1
            subst s1
            cases res with
            | error e => rw [M.bind_error h1]
            | ok v1 =>
              rw [M.bind_ok h1]
              cases h2 : rval m st1 with
              | mk res st2 =>
                rw [h2] at s2
                simp only at s2
                subst s2
                cases res with
                | error e => rw [M.bind_error h2]
                | ok v2 =>
                  rw [M.bind_ok h2]
                  have a1 := assign_other l v2 st2 hq.1 hyq.1
                  cases ha : assign l v2 st2 with
                  | mk res st3 =>
                    rw [ha] at a1
                    cases res with
                    | error e => rw [M.bind_error ha]; exact a1
                    | ok u =>
                      rw [M.bind_ok ha]
                      have a2 := assign_other m v1 st3 hq.2 hyq.2
                      cases ha2 : assign m v1 st3 with
                      | mk res st4 =>
                        rw [ha2] at a2
                        cases res with
                        | error e => rw [M.bind_error ha2]; exact a2.trans a1
                        | ok u => rw [M.bind_ok ha2]; exact a2.trans a1
      cases hr : q.run X st with
      | mk res st' =>
        rw [hr] at h1
        cases res with
        | error e => rw [Stmt.runAll, M.bind_error hr]; exact h1
        | ok u =>
          rw [Stmt.runAll, M.bind_ok hr, ih st' (fun q' h => hp q' (List.mem_cons_of_mem _ h)) fun q' h =>
            hy q' (List.mem_cons_of_mem _ h)]
          exact h1
  rcases C65_values h' y with ⟨-, h2⟩ | ⟨a, w, n1, h1, h2, h3⟩
  · rw [key ps st hp hy, hv] at h2; cases h2
  · rw [key ps st hp hy, hv] at h2; cases h2
    refine ⟨n0 + n1, fun n hn => ⟨a, ?_, ?_⟩⟩
    · rw [e n (by omega)]; exact h1
    · rw [e n (by omega)]; exact h3 n (by omega)

/-- A program starts without variables of its own. -/
theorem separate_empty : Separate ⟨[], fun _ => none⟩ fun _ => none :=
  ⟨fun _ => [], fun _ _ => ⟨rfl, rfl⟩, fun _ _ h => by simp at h, by simp, by simp⟩

/-- A variable by itself, or a part of it -/
def lv (x : Str) (sl : List Idx) : Lval := .name x none sl

/-- The value of a variable on the heap -/
def HSt.valueOf (s : HSt) (x : Str) : Option Val := (s.vars x).bind (s.heap.load 20)

/-- `x:[[1;2];3] y:x@0 x@0@0:9 y@1:"ab"`: neither `y` nor `x` sees what was assigned to the other. -/
def copyProg : List Stmt :=
  [.val (lv (s% "x") []) (.list [.list [.scalar (s% "1"), .scalar (s% "2")], .scalar (s% "3")]),
   .copy (lv (s% "y") []) (lv (s% "x") [.int 0]),
   .val (lv (s% "x") [.int 0, .int 0]) (.scalar (s% "9")),
   .val (lv (s% "y") [.int 1]) (.scalar (s% "ab"))]

theorem copyProg_plain : ∀ q ∈ copyProg, q.Plain := by
  simp [copyProg, lv, Stmt.Plain, PlainL, PlainVar]

/-- A state without variables -/
def bareSt : St toyExt := { toySt [] with vars := fun _ => none, scope := ⟨none, fun _ => none⟩ }

theorem bareSt_separate : Separate ⟨[], fun _ => none⟩ bareSt.var := by
  have : bareSt.var = fun _ => none := by
    funext m
    simp only [St.var, bareSt]
    split <;> rfl
  rw [this]
  exact separate_empty

example := C65_refines (X := toyExt) copyProg copyProg_plain _ bareSt bareSt_separate

example :
    ((HSt.steps 20 .none ⟨[], fun _ => none⟩ copyProg).2.valueOf (s% "x"),
      (HSt.steps 20 .none ⟨[], fun _ => none⟩ copyProg).2.valueOf (s% "y")) =
    (some (.list [.list [.scalar (s% "9"), .scalar (s% "2")], .scalar (s% "3")]),
      some (.list [.scalar (s% "1"), .scalar (s% "ab")])) := by decide +kernel

/-- `x:[1;2] y:[3] [x;y]:[y;x] x@0:7 x SW y`: destructuring and swaps keep the variables apart. -/
def swapProg : List Stmt :=
  [.val (lv (s% "x") []) (.list [.scalar (s% "1"), .scalar (s% "2")]),
   .val (lv (s% "y") []) (.list [.scalar (s% "3")]),
   .copy (.list [lv (s% "x") [], lv (s% "y") []] []) (.list [lv (s% "y") [], lv (s% "x") []] []),
   .val (lv (s% "x") [.int 0]) (.scalar (s% "7")),
   .swap (lv (s% "x") []) (lv (s% "y") [])]

example :
    ((HSt.steps 20 .none ⟨[], fun _ => none⟩ swapProg).2.valueOf (s% "x"),
      (HSt.steps 20 .none ⟨[], fun _ => none⟩ swapProg).2.valueOf (s% "y")) =
    (some (.list [.scalar (s% "1"), .scalar (s% "2")]), some (.list [.scalar (s% "7")])) := by decide +kernel

/-- `x:[[1;2];[3;4]] x@(0,2)@1@0:9`: a slice is a new List of the same items, so that assigning below it changes the
variable, while assigning to its items (`x@(0,2)@1:9`) does not. -/
def sliceProg (path : List Idx) : List Stmt :=
  [.val (lv (s% "x") []) (.list [.list [.scalar (s% "1"), .scalar (s% "2")], .list [.scalar (s% "3"), .scalar (s% "4")]]),
   .val (lv (s% "x") (.slice (some 0) (some 2) :: path)) (.scalar (s% "9"))]

example : (HSt.steps 20 .none ⟨[], fun _ => none⟩ (sliceProg [.int 1, .int 0])).2.valueOf (s% "x") =
    some (.list [.list [.scalar (s% "1"), .scalar (s% "2")], .list [.scalar (s% "9"), .scalar (s% "4")]]) := by
  decide +kernel

example : (HSt.steps 20 .none ⟨[], fun _ => none⟩ (sliceProg [.int 1])).2.valueOf (s% "x") =
    some (.list [.list [.scalar (s% "1"), .scalar (s% "2")], .list [.scalar (s% "3"), .scalar (s% "4")]]) := by
  decide +kernel

/-! ### Exceptions -/

/-- The state after `x:"ab"M,3` -/
def mapSt : HSt :=
  let (a, h) := Heap.put [] (.scalar (s% "ab"))
  let (b, h) := h.mapConst a 3
  ⟨h, fun m => if m = s% "x" then some b else none⟩

/-- The three items of `"ab"M,3` are one object: `x:"ab"M,3 x@0@0:"z"` changes all of them. With values, only the first
would change. -/
theorem C65_map_counterexample :
    mapSt.valueOf (s% "x") = some (.list [.scalar (s% "ab"), .scalar (s% "ab"), .scalar (s% "ab")]) ∧
    (mapSt.step 20 .none (.val (lv (s% "x") [.int 0, .int 0]) (.scalar (s% "z")))).2.valueOf (s% "x") =
      some (.list [.scalar (s% "zb"), .scalar (s% "zb"), .scalar (s% "zb")]) ∧
    (match setPath .none (.scalar (s% "z")) [.int 0, .int 0]
        (.list [.scalar (s% "ab"), .scalar (s% "ab"), .scalar (s% "ab")]) with
      | .ok v => some v | .error _ => none) =
      some (.list [.scalar (s% "zb"), .scalar (s% "ab"), .scalar (s% "ab")]) := by
  refine ⟨?_, ?_, ?_⟩ <;> decide +kernel

/-- The items of `"ab"M,3` are not separate. -/
theorem C65_map_not_separate (ρ : Str → Option Val) : ¬ Separate mapSt ρ := by
  rintro ⟨F, p⟩
  obtain ⟨v, -, d⟩ := p.value (s% "x") 1 (by decide +kernel)
  have nd := p.nodup (s% "x")
  generalize F (s% "x") = fp at d nd
  cases d with
  | scalar e => exact absurd e (by simp [mapSt, Heap.put, Heap.alloc, Heap.mapConst])
  | @list _ l vs fp e ds =>
    have : l = [0, 0, 0] := by
      simp [mapSt, Heap.put, Heap.alloc, Heap.mapConst, List.replicate] at e
      exact e.symm
    subst this
    cases ds with
    | @cons _ _ f1 _ _ f2 d1 ds =>
      cases ds with
      | @cons _ _ f3 _ _ f4 d2 ds =>
        have hs : mapSt.heap[0]? = some (.scalar (s% "ab")) := rfl
        cases d1 with
        | list e _ => rw [hs] at e; cases e
        | const e _ => rw [hs] at e; cases e
        | scalar e1 =>
          cases d2 with
          | list e _ => rw [hs] at e; cases e
          | const e _ => rw [hs] at e; cases e
          | scalar e2 => simp at nd
  | const e _ => exact absurd e (by simp [mapSt, Heap.put, Heap.alloc, Heap.mapConst])

/-- The state after `x:$<[5]`, with SCALAR_ONE at the address 0 -/
def oneSt : HSt :=
  let (a, h) := Heap.foldChain1 0 [.scalar (s% "1")]
  ⟨h, fun m => if m = s% "x" then some a else none⟩

/-- `$<[5]` is the constant one of the interpreter itself: after `x:$<[5] x@0:7`, incrementing any variable adds 7. -/
theorem C65_one_counterexample :
    Heap.incBy 20 0 oneSt.heap = some (.scalar (s% "1")) ∧
    Heap.incBy 20 0 (oneSt.step 20 .none (.val (lv (s% "x") [.int 0]) (.scalar (s% "7")))).2.heap =
      some (.scalar (s% "7")) := by
  refine ⟨?_, ?_⟩ <;> decide +kernel

end Pip
