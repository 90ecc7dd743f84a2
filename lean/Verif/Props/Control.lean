import Verif.Lemmas.Rvals
import Verif.Lemmas.Types
import Verif.Spec.Toy
/-! # C23, C24, C29: short-circuit operators, comparison chains and loops -/

namespace Pip
variable {X : Ext} {α : Type}

/-! ### C23 -/

theorem evals_plain {o : Op} (hf : o.hasFlags = false) (ha : o.assign = false) (hm : o.map = false) (ho : o.fold = false)
    (hs : o.scan = false) (hp : o.fn ≠ .PARENTHESIZE) (ts : List Tree) {s : St X} {r : Outcome X Res} :
    Evals (.node o ts) s r ↔ ∃ r', Runs (fun R => callOp R o.fn ts) s r' ∧ r = died r' := by
  rw [evals_iff]
  refine Iff.trans (runs_eq (y := fun R => (callOp R o.fn ts).dieType) (s' := s) fun R => ?_) ?_
  · show evalNode R o ts s = _
    rw [evalNode_of_plain R ha hm ho hs hp, applyOp, if_neg (by simp [hf])]
  · exact runs_dieType fun C R R' h => Cong.callOp h _ _

/-- `a & b`: exactly what `a` does, and what `b` does afterwards if the value of `a` is true. -/
theorem C23_and (a b : Tree) (s : St X) (o : Outcome X Res) :
    Evals (.node (op2 (s% "&")) [a, b]) s o ↔
      ∃ o', Then (Vals a) (fun v s1 o' => if v.truthy then ∃ o1 : Outcome X Val, Vals b s1 o1 ∧ o' = o1.map .v
        else o' = (.ok (.v v), s1)) s o' ∧ o = died o' := by
  rw [evals_plain (by decide) (by decide) (by decide) (by decide) (by decide) (by decide)]
  refine exists_congr fun o' => and_congr_left fun _ => ?_
  refine (runs_bind (X := X) (β := Res) (mono_getRval a)
    (f := fun v R => if v.truthy then (do let w ← getRval R b; return .v w) else return .v v)).trans ?_
  refine then_congr fun v s1 o => ?_
  by_cases hv : v.truthy = true
  · simp only [hv, if_true]
    exact runs_map (mono_getRval b) _
  · simp only [hv, if_false, Bool.false_eq_true]
    exact runs_pure

/-- `a | b`: exactly what `a` does, and what `b` does afterwards if the value of `a` is false. -/
theorem C23_or (a b : Tree) (s : St X) (o : Outcome X Res) :
    Evals (.node (op2 (s% "|")) [a, b]) s o ↔
      ∃ o', Then (Vals a) (fun v s1 o' => if v.truthy then o' = (.ok (.v v), s1)
        else ∃ o1 : Outcome X Val, Vals b s1 o1 ∧ o' = o1.map .v) s o' ∧ o = died o' := by
  rw [evals_plain (by decide) (by decide) (by decide) (by decide) (by decide) (by decide)]
  refine exists_congr fun o' => and_congr_left fun _ => ?_
  refine (runs_bind (X := X) (β := Res) (mono_getRval a)
    (f := fun v R => if v.truthy then return .v v else (do let w ← getRval R b; return .v w))).trans ?_
  refine then_congr fun v s1 o => ?_
  by_cases hv : v.truthy = true
  · simp only [hv, if_true]
    exact runs_pure
  · simp only [hv, if_false, Bool.false_eq_true]
    exact runs_map (mono_getRval b) _

/-- `c ? a b`: exactly what `c` does and then one of the branches, whose result is the result. -/
theorem C23_ifte (c a b : Tree) (s : St X) (o : Outcome X Res) :
    Evals (.node (op3 (s% "?")) [c, a, b]) s o ↔
      ∃ o', Then (Vals c) (fun v s1 o' => if v.truthy then Evals a s1 o' else Evals b s1 o') s o' ∧ o = died o' := by
  rw [evals_plain (by decide) (by decide) (by decide) (by decide) (by decide) (by decide)]
  refine exists_congr fun o' => and_congr_left fun _ => ?_
  refine (runs_bind (X := X) (mono_getRval c) (f := fun v R => if v.truthy then R.ev a else R.ev b)).trans ?_
  refine then_congr fun v s1 o => ?_
  by_cases hv : v.truthy = true
  · simp only [hv, if_true]
    exact Iff.rfl
  · simp only [hv, if_false, Bool.false_eq_true]
    exact Iff.rfl

/-- The operand that is not needed has no effect whatsoever: any other expression could be in its place. -/
theorem C23_skip (a b b' : Tree) (s s1 : St X) (v : Val) (h : Vals a s (.ok v, s1)) (o : Outcome X Res) :
    (v.truthy = false → (Evals (.node (op2 (s% "&")) [a, b]) s o ↔ Evals (.node (op2 (s% "&")) [a, b']) s o)) ∧
    (v.truthy = true → (Evals (.node (op2 (s% "|")) [a, b]) s o ↔ Evals (.node (op2 (s% "|")) [a, b']) s o)) ∧
    (∀ c, v.truthy = true → (Evals (.node (op3 (s% "?")) [a, c, b]) s o ↔ Evals (.node (op3 (s% "?")) [a, c, b']) s o)) ∧
    (∀ c, v.truthy = false →
      (Evals (.node (op3 (s% "?")) [a, b, c]) s o ↔ Evals (.node (op3 (s% "?")) [a, b', c]) s o)) := by
  have key : ∀ {Q Q' : Val → St X → Outcome X Res → Prop}, (∀ o, Q v s1 o ↔ Q' v s1 o) →
      ((∃ o', Then (Vals a) Q s o' ∧ o = died o') ↔ ∃ o', Then (Vals a) Q' s o' ∧ o = died o') := by
    intro Q Q' hQ
    refine exists_congr fun o' => and_congr_left fun _ => ?_
    exact (then_of h).trans ((hQ o').trans (then_of h).symm)
  refine ⟨fun hv => ?_, fun hv => ?_, fun c hv => ?_, fun c hv => ?_⟩
  · rw [C23_and, C23_and]
    exact key fun o => by simp [hv]
  · rw [C23_or, C23_or]
    exact key fun o => by simp [hv]
  · rw [C23_ifte, C23_ifte]
    exact key fun o => by simp [hv]
  · rw [C23_ifte, C23_ifte]
    exact key fun o => by simp [hv]

/-- `0 & (P 5)` does not print, `1 & (P 5)` does; `i ? (P 1) (P 2)` prints one of them. -/
example : toyOut (s% "0&(P5)") [] [] = some (s% "0\n") ∧ toyOut (s% "1&(P5)") [] [] = some (s% "5\n5\n") ∧
    toyOut (s% "i?(P1)(P2)") [] [] = some (s% "2\n2\n") := by decide +kernel

/-! ### C24 -/

/-- The expression `a o1 b1 o2 b2 ...` -/
def chainTree (a : Tree) (ls : List (Op × Tree)) : Tree := .node chainOp (a :: ls.flatMap fun p => [.opr p.1, p.2])

/-- The comparison operators of the table -/
def Comparison (o : Op) : Prop := o ∈ ops2 ∧ o.assoc = .chain

/-- The links of a chain of values, in order: the result is the first false one or else the last one. -/
inductive Links : Val → List (Op × Val) → St X → Outcome X Val → Prop
  | last {x y : Val} {o : Op} {s s1 : St X} {r : Val} : Evals (.node o [.val x, .val y]) s (.ok (.v r), s1) →
    Links x [(o, y)] s (.ok r, s1)
  | stop {x y : Val} {o : Op} {l : List (Op × Val)} {s s1 : St X} {r : Val} :
    Evals (.node o [.val x, .val y]) s (.ok (.v r), s1) → r.truthy = false → Links x ((o, y) :: l) s (.ok r, s1)
  | next {x y : Val} {o : Op} {l : List (Op × Val)} {s s1 : St X} {r : Val} {out : Outcome X Val} :
    Evals (.node o [.val x, .val y]) s (.ok (.v r), s1) → r.truthy = true → Links y l s1 out → Links x ((o, y) :: l) s out
  | fail {x y : Val} {o : Op} {l : List (Op × Val)} {s s1 : St X} {e : Exc} :
    Evals (.node o [.val x, .val y]) s (.error e, s1) → Links x ((o, y) :: l) s (.error e, s1)

theorem Comparison.rvals {o : Op} (h : Comparison o) : o.Rvals ∧ o.inLambda = true ∧ o.listEach = false ∧ o.rangeEach = false := by
  have key : ∀ o ∈ ops2, o.assoc = .chain → (o.rvals = true ∧ o.assign = false ∧ o.map = false ∧ o.fold = false ∧
      o.scan = false ∧ o.fn ≠ .PARENTHESIZE) ∧ o.inLambda = true ∧ o.listEach = false ∧ o.rangeEach = false := by
    decide +kernel
  obtain ⟨⟨a, b, c, d, e, f⟩, g⟩ := key o h.1 h.2
  exact ⟨⟨a, b, c, d, e, f⟩, g⟩

/-- Comparing gives a value, and except for `~=` it changes nothing. -/
theorem Comparison.callOp {o : Op} (h : Comparison o) (R : Rec X) (x y : Val) (hf : o.fn ≠ .FULLMATCH) (s : St X) :
    callOp R o.fn [.val x, .val y] s = liftOpt (pureOp X o.fn [x, y]) s := by
  have key : ∀ o ∈ ops2, o.assoc = .chain → o.fn ∈ [Fn.NUMLESS, .NUMGREATER, .NUMEQUAL, .NUMLESSEQ, .NUMGREATEREQ, .NUMNOTEQUAL, .STRLESS,
    .STRGREATER, .STREQUAL, .STRLESSEQ, .STRGREATEREQ, .STRNOTEQUAL, .LENEQUAL, .LENLESS, .LENGREATER, .FULLMATCH] := by
    decide +kernel
  have := key o h.1 h.2
  simp only [List.mem_cons, List.not_mem_nil, or_false] at this
  rcases this with e | e | e | e | e | e | e | e | e | e | e | e | e | e | e | e <;> rw [e] at hf ⊢ <;> first | rfl | exact absurd rfl hf

theorem Comparison.isV {o : Op} (h : Comparison o) (R : Rec X) (x y : Val) : IsV (Pip.callOp R o.fn [.val x, .val y]) := by
  by_cases hf : o.fn = .FULLMATCH
  · rw [hf]
    exact IsV.opFULLMATCH R x y
  · have key : ∀ o ∈ ops2, o.assoc = .chain → o.fn ∈ [Fn.NUMLESS, .NUMGREATER, .NUMEQUAL, .NUMLESSEQ, .NUMGREATEREQ, .NUMNOTEQUAL,
      .STRLESS, .STRGREATER, .STREQUAL, .STRLESSEQ, .STRGREATEREQ, .STRNOTEQUAL, .LENEQUAL, .LENLESS, .LENGREATER, .FULLMATCH] := by
      decide +kernel
    have := key o h.1 h.2
    have pv : ∀ f : Val → Val → Except Exc Val, IsV (liftOpt (some <$> f x y) : M X Res) := by
      intro f s r s' hh
      cases e : f x y with
      | error e' =>
        rw [e] at hh
        cases hh
      | ok v =>
        rw [e] at hh
        have : (Except.ok (Res.v v), s) = (Except.ok r, s') := hh
        simp only [Prod.mk.injEq, Except.ok.injEq] at this
        exact ⟨v, this.1.symm⟩
    simp only [List.mem_cons, List.not_mem_nil, or_false] at this
    rcases this with e | e | e | e | e | e | e | e | e | e | e | e | e | e | e | e <;> rw [e] at hf ⊢ <;>
      first | exact pv _ | exact absurd rfl hf

/-- The comparison of two values that are not functions -/
theorem Comparison.evals {o : Op} (h : Comparison o) {x y : Val} (hx : x.isBlock = false) (hy : y.isBlock = false) {s : St X}
    {r : Outcome X Res} :
    Evals (.node o [.val x, .val y]) s r ↔ ∃ r', Runs (fun R => Pip.callOp R o.fn [.val x, .val y]) s r' ∧ r = died r' := by
  obtain ⟨hr, hl, h1, h2⟩ := h.rvals
  refine (evals_applied hr [x, y]).trans ?_
  unfold Applied
  rw [if_neg (by simp [Tree.isFn, hx, hy])]
  refine exists_congr fun r' => and_congr_left fun _ => runs_eq fun R => ?_
  show expandOrCall R o [.val x, .val y] s = _
  simp [expandOrCall, expands, h1, h2]

theorem Comparison.value {o : Op} (h : Comparison o) {x y : Val} (hx : x.isBlock = false) (hy : y.isBlock = false) {s s' : St X}
    {r : Res} (he : Evals (.node o [.val x, .val y]) s (.ok r, s')) : ∃ v, r = .v v := by
  obtain ⟨r', ⟨_, n, hn⟩, h2⟩ := (h.evals hx hy).1 he
  have h3 := died_ok.1 h2
  exact h.isV (run X n) x y s r s' (by rw [← h3]; exact hn n (Nat.le_refl n))

theorem chainOp_rvals : chainOp.Rvals := by constructor <;> decide

/-- The prepared arguments of a chain after the first -/
def linkArgs (ls : List (Op × Val)) : List Tree := ls.flatMap fun p => [.opr p.1, .val p.2]

theorem chainLoop_cons (R : Rec X) (x : Val) (p : Op × Val) (ls : List (Op × Val)) :
    chainLoop R (.val x) (linkArgs (p :: ls)) = (do
      let r ← R.ev (.node p.1 [.val x, .val p.2])
      let v ← needVal r
      if v.truthy && !(linkArgs ls).isEmpty then chainLoop R (.val p.2) (linkArgs ls) else return .v v) := by
  show chainLoop R (.val x) (.opr p.1 :: .val p.2 :: linkArgs ls) = _
  rw [chainLoop]

theorem mapEach_chain {ls : List (Op × Tree)} {s s1 : St X} {ys : List Val}
    (h : MapEach Vals (ls.map (·.2)) s (.ok ys, s1)) :
    MapEach Prep (ls.flatMap fun p => [.opr p.1, p.2]) s
      (.ok (linkArgs ((ls.map (·.1)).zip ys)), s1) := by
  induction ls generalizing s ys with
  | nil => cases h; exact .nil
  | cons p ls ih =>
    have h : MapEach Vals (p.2 :: ls.map (·.2)) s (.ok ys, s1) := h
    generalize ho : ((.ok ys, s1) : Outcome X (List Val)) = o at h
    cases h with
    | fail h1 => cases ho
    | @next _ _ _ s2 y o h1 h2 =>
      rcases o with ⟨e | ys', s3⟩
      · cases ho
      simp only [Outcome.map, Prod.mk.injEq, Except.ok.injEq] at ho
      obtain ⟨rfl, rfl⟩ := ho
      have hp : p.2.notOpr = true := by
        cases hp : p.2 with
        | opr q =>
          rw [hp] at h1
          obtain ⟨n, hn⟩ := Runs.at h1 1
          have := hn n (Nat.le_refl n)
          cases this
        | _ => rfl
      have h3 : Prep p.2 s (.ok (.val y), s2) := (prep_vals hp).2 ⟨_, h1, rfl⟩
      have h4 := MapEach.next (P := Prep) (x := .opr p.1) (s := s) (y := .opr p.1) rfl (.next h3 (ih h2))
      exact h4

theorem runs_chainLoop {ls : List (Op × Val)} (hl : ls ≠ []) (hc : ∀ p ∈ ls, Comparison p.1) :
    ∀ {x : Val} {s : St X} {r : Outcome X Res}, x.isBlock = false → (∀ p ∈ ls, p.2.isBlock = false) →
    (Runs (fun R => chainLoop R (.val x) (linkArgs ls)) s r ↔
      ∃ r' : Outcome X Val, Links x ls s r' ∧ r = r'.map .v) := by
  induction ls with
  | nil => exact absurd rfl hl
  | cons p ls ih =>
    intro x s r hx hy
    have hp := hc p (List.mem_cons_self ..)
    have hpy := hy p (List.mem_cons_self ..)
    have hrest : ∀ {r : Val} {s1 : St X} {out : Outcome X Res}, (Runs (fun R => (do
        let v ← needVal (.v r)
        if v.truthy && !(linkArgs ls).isEmpty then
          chainLoop R (.val p.2) (linkArgs ls) else return .v v : M X Res)) s1 out ↔
        if r.truthy && !ls.isEmpty then ∃ r' : Outcome X Val, Links p.2 ls s1 r' ∧ out = r'.map .v
        else out = (.ok (.v r), s1)) := by
      intro r s1 out
      have he : (linkArgs ls).isEmpty = ls.isEmpty := by cases ls <;> rfl
      refine (runs_bind_ok (c := needVal (.v r)) (f := fun v R =>
        if v.truthy && !(linkArgs ls).isEmpty then
          chainLoop R (.val p.2) (linkArgs ls) else return .v v) rfl).trans ?_
      rw [he]
      cases hb : r.truthy && !ls.isEmpty with
      | false => exact runs_pure
      | true =>
        simp only [if_true]
        have hne : ls ≠ [] := by
          rintro rfl
          simp at hb
        exact ih hne (fun q hq => hc q (List.mem_cons_of_mem _ hq)) hpy (fun q hq => hy q (List.mem_cons_of_mem _ hq))
    simp only [chainLoop_cons]
    refine Iff.trans (runs_bind (X := X) (mono_ev (.node p.1 [.val x, .val p.2])) (f := fun r R => do
        let v ← needVal r
        if v.truthy && !(linkArgs ls).isEmpty then
          chainLoop R (.val p.2) (linkArgs ls) else return .v v)) ?_
    constructor
    · rintro (⟨h1, h2⟩ | h1)
      · obtain ⟨v, rfl⟩ := hp.value hx hpy h1
        have h2 := hrest.1 h2
        cases hv : v.truthy with
        | false =>
          rw [hv] at h2
          exact ⟨_, .stop h1 hv, h2⟩
        | true =>
          rw [hv] at h2
          cases ls with
          | nil => exact ⟨_, .last h1, h2⟩
          | cons q ls =>
            obtain ⟨r', h3, h4⟩ := h2
            exact ⟨_, .next h1 hv h3, h4⟩
      · exact ⟨_, .fail h1, rfl⟩
    · rintro ⟨r', h, rfl⟩
      cases h with
      | last h1 =>
        refine .ok h1 (hrest.2 ?_)
        simp
        rfl
      | stop h1 hv =>
        refine .ok h1 (hrest.2 ?_)
        simp [hv]
        rfl
      | next h1 hv h3 =>
        refine .ok h1 (hrest.2 ?_)
        have hne : ls ≠ [] := by
          rintro rfl
          nomatch h3
        rw [if_pos (by cases ls with | nil => exact absurd rfl hne | cons => simp [hv])]
        exact ⟨_, h3, rfl⟩
      | fail h1 => exact .fail h1

/-- A chain of comparisons first evaluates its operands from left to right; the links are then compared from left to right,
and the first false one ends it. -/
theorem C24_chain (a : Tree) (ls : List (Op × Tree)) (hl : ls ≠ []) (hc : ∀ p ∈ ls, Comparison p.1) (s s1 : St X)
    (x : Val) (ys : List Val) (hv : MapEach Vals (a :: ls.map (·.2)) s (.ok (x :: ys), s1))
    (hb : ∀ v ∈ x :: ys, v.isBlock = false) (out : Outcome X Res) :
    Evals (chainTree a ls) s out ↔ ∃ r : Outcome X Val, Links x ((ls.map (·.1)).zip ys) s1 r ∧ out = died (r.map .v) := by
  have hm : MapEach Prep (a :: ls.flatMap fun p => [.opr p.1, p.2]) s (.ok (.val x :: linkArgs ((ls.map (·.1)).zip ys)), s1) := by
    generalize ho : ((.ok (x :: ys), s1) : Outcome X (List Val)) = o at hv
    cases hv with
    | fail h1 => cases ho
    | @next _ _ _ s2 y o h1 h2 =>
      rcases o with ⟨e | ys', s3⟩
      · cases ho
      simp only [Outcome.map, Prod.mk.injEq, Except.ok.injEq, List.cons.injEq] at ho
      obtain ⟨⟨rfl, rfl⟩, rfl⟩ := ho
      have hp : a.notOpr = true := by
        cases a with
        | opr q =>
          obtain ⟨n, hn⟩ := Runs.at h1 1
          have := hn n (Nat.le_refl n)
          cases this
        | _ => rfl
      have h3 : Prep a s (.ok (.val x), s2) := (prep_vals hp).2 ⟨_, h1, rfl⟩
      exact MapEach.next (P := Prep) h3 (mapEach_chain h2)
  have hlen : ys.length = ls.length := by
    have := hv.length
    simpa using this
  have hz : (ls.map (·.1)).zip ys ≠ [] := by
    cases ls with
    | nil => exact absurd rfl hl
    | cons p ls => cases ys with
      | nil => simp at hlen
      | cons y ys => simp
  have hz1 : ∀ p ∈ (ls.map (·.1)).zip ys, Comparison p.1 ∧ p.2.isBlock = false := by
    intro p hp
    have := List.of_mem_zip hp
    obtain ⟨q, hq, he⟩ := List.mem_map.1 this.1
    exact ⟨he ▸ hc q hq, hb _ (List.mem_cons_of_mem _ this.2)⟩
  refine (evals_prep chainOp_rvals _).trans ((then_of_det (P := MapEach Prep _) (fun _ _ _ => MapEach.det (P := Prep)
    fun _ _ _ _ => Prep.det) hm).trans ?_)
  unfold Applied
  rw [if_neg]
  · have hstep : ∀ r', Runs (fun R => expandOrCall R chainOp (.val x :: linkArgs ((ls.map (·.1)).zip ys))) s1 r' ↔
        ∃ r : Outcome X Val, Links x ((ls.map (·.1)).zip ys) s1 r ∧ r' = r.map .v := by
      intro r'
      refine Iff.trans (runs_eq (y := fun R => chainLoop R (.val x) (linkArgs ((ls.map (·.1)).zip ys))) (s' := s1) fun R => ?_)
        (runs_chainLoop hz (fun p hp => (hz1 p hp).1) (hb x (List.mem_cons_self ..)) fun p hp => (hz1 p hp).2)
      generalize (ls.map (·.1)).zip ys = zs at hz
      cases zs with
      | nil => exact absurd rfl hz
      | cons p zs =>
        show opCHAIN R (.val x :: linkArgs (p :: zs)) s1 = _
        unfold opCHAIN
        have hodd : (Tree.val x :: linkArgs (p :: zs)).length % 2 ≠ 0 := by
          have : ∀ zs : List (Op × Val), (linkArgs zs).length = 2 * zs.length := by
            intro zs
            induction zs with
            | nil => rfl
            | cons q zs ih =>
              show (linkArgs zs).length + 2 = _
              rw [ih, List.length_cons]
              omega
          simp only [List.length_cons, this]
          omega
        rw [if_neg hodd]
        rfl
    constructor
    · rintro ⟨r', h, rfl⟩
      obtain ⟨r, h1, rfl⟩ := (hstep r').1 h
      exact ⟨r, h1, rfl⟩
    · rintro ⟨r, h1, rfl⟩
      exact ⟨_, (hstep _).2 ⟨r, h1, rfl⟩, rfl⟩
  · have : ∀ zs : List (Op × Val), (∀ p ∈ zs, p.2.isBlock = false) → (linkArgs zs).any Tree.isFn = false := by
      intro zs
      induction zs with
      | nil => exact fun _ => rfl
      | cons q zs ih =>
        intro h
        show (Tree.isFn (.opr q.1) || (Tree.isFn (.val q.2) || (linkArgs zs).any Tree.isFn)) = false
        rw [ih fun p hp => h p (List.mem_cons_of_mem _ hp)]
        simp [Tree.isFn, h q (List.mem_cons_self ..)]
    simp [this _ fun p hp => (hz1 p hp).2, Tree.isFn, hb x (List.mem_cons_self ..)]

/-- Adjacent operands with the operator between them -/
def adjacent : Val → List (Op × Val) → List (Val × Op × Val)
  | _, [] => []
  | x, (o, y) :: ls => (x, o, y) :: adjacent y ls

/-- If all comparisons have results (`~=` excepted, which sets variables), the value of the chain is true if and only if all
links are, and nothing is changed. -/
theorem C24_conjunction (cmp : Val × Op × Val → Val) : ∀ (ls : List (Op × Val)) (x : Val) (s : St X) (_ : ls ≠ [])
    (_ : ∀ p ∈ ls, Comparison p.1 ∧ p.1.fn ≠ .FULLMATCH ∧ p.2.isBlock = false) (_ : x.isBlock = false)
    (_ : ∀ q ∈ adjacent x ls, pureOp X q.2.1.fn [q.1, q.2.2] = .ok (some (cmp q))),
    ∃ r, Links x ls s (.ok r, s) ∧ (r.truthy = true ↔ ∀ q ∈ adjacent x ls, (cmp q).truthy = true)
  | [], _, _, h, _, _, _ => absurd rfl h
  | (o, y) :: ls, x, s, _, hp, hx, hq => by
    obtain ⟨hc, hf, hy⟩ := hp (o, y) (List.mem_cons_self ..)
    have he : Evals (.node o [.val x, .val y]) s (.ok (.v (cmp (x, o, y))), s) := by
      refine (hc.evals hx hy).2 ⟨(.ok (.v (cmp (x, o, y))), s), ?_, rfl⟩
      refine (runs_eq (y := fun _ => pure (.v (cmp (x, o, y)))) (s' := s) fun R => ?_).2 (runs_pure.2 rfl)
      rw [hc.callOp R x y hf, hq (x, o, y) (List.mem_cons_self ..)]
      rfl
    cases hv : (cmp (x, o, y)).truthy with
    | false =>
      refine ⟨_, .stop he hv, ?_⟩
      simp [hv, adjacent]
    | true =>
      cases ls with
      | nil =>
        refine ⟨_, .last he, ?_⟩
        simp [hv, adjacent]
      | cons q ls =>
        obtain ⟨r, h1, h2⟩ := C24_conjunction cmp (q :: ls) y s (by simp) (fun p h => hp p (List.mem_cons_of_mem _ h)) hy
          (fun p h => hq p (List.mem_cons_of_mem _ h))
        refine ⟨r, .next he hv h1, ?_⟩
        rw [h2]
        show _ ↔ ∀ q' ∈ (x, o, y) :: adjacent y (q :: ls), (cmp q').truthy = true
        simp [hv]

/-- `1<2<3`, `1<3>2` are true; in `2<1<(P 7)` the last operand is evaluated although the first link is false. -/
example : toyOut (s% "1<2<3") [] [] = some (s% "1\n") ∧ toyOut (s% "1<3>2!=2") [] [] = some (s% "0\n") ∧
    toyOut (s% "2<1<(P7)") [] [] = some (s% "7\n0\n") ∧ Comparison (op2 (s% "<")) := by
  exact ⟨by decide +kernel, by decide +kernel, by decide +kernel, by decide +kernel, by decide +kernel⟩


/-! ### C29 -/

/-- How often `L` executes its code: a Scalar counts with its integer part, a List or finite Range with its number of items,
anything else not at all. -/
inductive Reps : Val → Nat → Prop
  | scalar (t : Str) : Reps (.scalar t) (toInt t).toNat
  | list (l : List Val) : Reps (.list l) l.length
  | range (lo : Option Int) (hi : Int) (l : List Val) : (Val.range lo (some hi)).items = .ok l →
    Reps (.range lo (some hi)) l.length
  | pattern (r : Str) (f : Flags) : Reps (.pattern r f) 0
  | block (b : List Tree) (r : Tree) : Reps (.block b r) 0
  | nil : Reps .nil 0

theorem Reps.loopCount {v : Val} {k : Nat} (h : Reps v k) : ∃ n : Int, loopCount v = .ok n ∧ n.toNat = k := by
  cases h with
  | scalar t => exact ⟨_, rfl, rfl⟩
  | list l => exact ⟨_, rfl, by simp⟩
  | range lo hi l h =>
    refine ⟨_, rfl, ?_⟩
    have : l = (rangeInts lo hi).map ofInt := by simpa [Val.items, Val.iter] using h.symm
    simp only [this, List.length_map, rangeInts, intsFrom_length]
    omega
  | pattern => exact ⟨_, rfl, rfl⟩
  | block => exact ⟨_, rfl, rfl⟩
  | nil => exact ⟨_, rfl, rfl⟩

/-- A command ends like its function, without a value. -/
theorem execs_cmd {c : Cmd} {ts : List Tree} {s : St X} {o : Outcome X (Option Val)} :
    Execs (.cmd c ts) s o ↔ ∃ o' : Outcome X Unit, Runs (fun R => runCmd R c ts) s o' ∧ o = o'.map fun _ => none := by
  rw [execs_iff]
  exact runs_map (x := fun R => runCmd R c ts) (fun C R R' h => Cong.runCmd h _ _) _

/-- `L n code` executes the code as often as the value of `n` says, unless it raises. -/
theorem C29_loop (n : Tree) (code : List Tree) (s s1 : St X) (v : Val) (k : Nat) (hv : Vals n s (.ok v, s1))
    (hk : Reps v k) (o : Outcome X (Option Val)) :
    Execs (.cmd .LOOP [n, .code code]) s o ↔
      ∃ o' : Outcome X Unit, Each (fun _ => ExecsAll code) (List.replicate k ()) s1 o' ∧ o = o'.map fun _ => none := by
  rw [execs_cmd]
  refine exists_congr fun o' => and_congr_left fun _ => ?_
  obtain ⟨j, hj, rfl⟩ := hk.loopCount
  refine Iff.trans ?_ (runs_repeatM (X := X) (mono_execAll code) j.toNat)
  refine (runs_bind_of (x := fun R => getRval R n) hv (f := fun c R => do
    let n ← M.lift (loopCount c)
    repeatM (execAll R code) n.toNat)).trans ?_
  exact runs_bind_ok (c := M.lift (loopCount v)) (f := fun n R => repeatM (execAll R code) n.toNat) (by rw [hj]; rfl)

/-- `L n code` when the count raises, or is an infinite Range: nothing is executed. -/
theorem C29_loop_fail (n : Tree) (code : List Tree) (s s1 : St X) :
    (∀ e, Vals n s (.error e, s1) → Execs (.cmd .LOOP [n, .code code]) s (.error e, s1)) ∧
    (∀ lo, Vals n s (.ok (.range lo none), s1) → Execs (.cmd .LOOP [n, .code code]) s (.error .valueError, s1)) := by
  constructor
  · intro e h
    exact execs_cmd.2 ⟨_, (h : Runs _ _ _).thenFail, rfl⟩
  · intro lo h
    refine execs_cmd.2 ⟨(.error .valueError, s1), (h : Runs _ _ _).then ?_, rfl⟩
    exact ⟨by simp, 0, fun m _ => rfl⟩

theorem mono_assignRes (r : Res) (v : Val) (code : List Tree) :
    Mono fun R : Rec X => (do assignRes r v; execAll R code : M X Unit) :=
  fun C _ _ h => C.bind (Cong.assignRes _ _) fun _ => Cong.execAll h _

/-- One pass of `F`: the variable is assigned, then the code executed. -/
def Pass (r : Res) (code : List Tree) (v : Val) : St X → Outcome X Unit → Prop :=
  Then (Runs fun _ => assignRes r v) fun _ => ExecsAll code

theorem runs_pass (r : Res) (code : List Tree) (v : Val) (s : St X) (o : Outcome X Unit) :
    Runs (fun R : Rec X => (do assignRes r v; execAll R code : M X Unit)) s o ↔ Pass r code v s o :=
  runs_bind (X := X) (x := fun _ => assignRes r v) (fun _ _ _ _ => Cong.assignRes _ _) (f := fun _ R => execAll R code)

/-- `F x in it code` evaluates the variable and the iterable, then does one pass per item, in order. Over an infinite Range
it ends only when a pass raises; over a function it does nothing. -/
theorem C29_for (x it : Tree) (code : List Tree) (s s0 s1 : St X) (r : Res) (v : Val)
    (hx : Evals x s (.ok r, s0)) (hv : Vals it s0 (.ok v, s1)) (o : Outcome X (Option Val)) :
    Execs (.cmd .FOR [x, it, .code code]) s o ↔ ∃ o' : Outcome X Unit, o = o'.map (fun _ => none) ∧
      match v.iter with
      | .fin l => Each (Pass r code) l s1 o'
      | .inf lo => ∃ k e s', o' = (.error e, s') ∧ Each (Pass r code) ((intsFrom lo k).map ofInt) s1 o'
      | .no => o' = (.ok (), s1) := by
  rw [execs_cmd]
  refine exists_congr fun o' => and_comm.trans (and_congr_right fun _ => ?_)
  have step : Runs (fun R => runCmd R .FOR [x, it, .code code]) s o' ↔ Runs (fun R : Rec X =>
      match v.iter with
      | .fin items => iterL (fun v => do assignRes r v; execAll R code) items
      | .inf lo => loopInf (fun i => do assignRes r (ofInt i); execAll R code) R.fuel lo
      | .no => pure ()) s1 o' := by
    refine (runs_bind_of (x := fun R => R.ev x) hx (f := fun r R => do
      let it ← getRval R it
      match it.iter with
      | .fin items => iterL (fun v => do assignRes r v; execAll R code) items
      | .inf lo => loopInf (fun i => do assignRes r (ofInt i); execAll R code) R.fuel lo
      | .no => pure ())).trans ?_
    exact runs_bind_of (x := fun R => getRval R it) hv
  rw [step]
  cases v.iter with
  | fin l => exact (runs_iterL (mono_assignRes r · code) l).trans (each_congr fun a s o => runs_pass r code a s o)
  | inf lo =>
    refine (runs_loopInf fun i => mono_assignRes r (ofInt i) code).trans ?_
    have hmap : ∀ (l : List Int) (s : St X) (o : Outcome X Unit),
        Each (fun i => Runs fun R : Rec X => (do assignRes r (ofInt i); execAll R code : M X Unit)) l s o ↔
          Each (Pass r code) (l.map ofInt) s o := by
      intro l
      induction l with
      | nil => exact fun s o => ⟨by rintro ⟨⟩; exact .nil, by rintro ⟨⟩; exact .nil⟩
      | cons i l ih =>
        intro s o
        constructor
        · intro h
          cases h with
          | next h1 h2 => exact .next ((runs_pass r code _ _ _).1 h1) ((ih _ _).1 h2)
          | fail h1 => exact .fail ((runs_pass r code _ _ _).1 h1)
        · intro h
          cases h with
          | next h1 h2 => exact .next ((runs_pass r code _ _ _).2 h1) ((ih _ _).2 h2)
          | fail h1 => exact .fail ((runs_pass r code _ _ _).2 h1)
    constructor
    · rintro ⟨k, e, s', rfl, h⟩
      exact ⟨k, e, s', rfl, (hmap _ _ _).1 h⟩
    · rintro ⟨k, e, s', rfl, h⟩
      exact ⟨k, e, s', rfl, (hmap _ _ _).2 h⟩
  | no => exact runs_pure

/-- Assignment to a plain variable always succeeds, so that a pass of `F` over a variable is: the variable gets the item,
and the code runs. -/
theorem C29_for_var (x : Str) (hx : PlainVar x) (code : List Tree) (v : Val) (s : St X) :
    ∃ s1, Assigned x v s s1 ∧ ∀ o, Pass (.l (.name x none [])) code v s o ↔ ExecsAll code s1 o := by
  refine ⟨s.put x v, s.put_assigned x v, fun o => then_of (a := ()) ?_⟩
  have h0 : (fun _ : Rec X => (assignRes (.l (.name x none [])) v : M X Unit)) = fun _ => M.setVar x v := by
    funext _
    exact assign_plain hx none v
  rw [h0]
  exact (runs_const (by rw [setVar_apply]; exact ok_ne_fuel)).2 (setVar_apply x v s).symm

theorem loop_iff (b : Bool) (cond : Tree) (code : List Tree) (c : Cmd)
    (hc : ∀ (R : Rec X), runCmd R c [cond, .code code] = (do
      let v ← getRval R cond
      if v.truthy = b then
        execAll R code
        let _ ← R.exec (.cmd c [cond, .code code])
        pure ()
      else pure ())) (s : St X) (o : Outcome X (Option Val)) :
    Execs (.cmd c [cond, .code code]) s o ↔
      ∃ o' : Outcome X Unit, Loop b (Vals cond) (ExecsAll code) s o' ∧ o = o'.map fun _ => none := by
  constructor
  · rintro ⟨ho, n, hn⟩
    have h0 : (run X n).exec (.cmd c [cond, .code code]) s = o := hn n (Nat.le_refl n)
    clear hn
    induction n generalizing s o with
    | zero =>
      rw [← h0] at ho
      exact absurd rfl ho
    | succ n ih =>
      rw [exec_cmd, hc] at h0
      rcases e1 : getRval (run X n) cond s with ⟨r | v, s1⟩
      · rw [M.bind_error (M.bind_error e1)] at h0
        subst h0
        exact ⟨(.error r, s1), .failCond ((mono_getRval cond).runs e1 (by simpa using ho)), rfl⟩
      have hv := (mono_getRval cond).runs e1 ok_ne_fuel
      by_cases hb : v.truthy = b
      · rcases e2 : execAll (run X n) code s1 with ⟨r | u, s2⟩
        · rw [M.bind_assoc', M.bind_ok e1, if_pos hb, M.bind_assoc', M.bind_error e2] at h0
          subst h0
          exact ⟨(.error r, s2), .failBody hv hb ((mono_execAll code).runs e2 (by simpa using ho)), rfl⟩
        have hx := (mono_execAll code).runs e2 ok_ne_fuel
        rcases e3 : (run X n).exec (.cmd c [cond, .code code]) s2 with ⟨r | w, s3⟩
        · rw [M.bind_assoc', M.bind_ok e1, if_pos hb, M.bind_assoc', M.bind_ok e2, M.bind_assoc', M.bind_error e3] at h0
          subst h0
          obtain ⟨o', h1, h2⟩ := ih s2 _ (by simpa using ho) e3
          exact ⟨o', .next hv hb hx h1, h2⟩
        · rw [M.bind_assoc', M.bind_ok e1, if_pos hb, M.bind_assoc', M.bind_ok e2, M.bind_assoc', M.bind_ok e3] at h0
          subst h0
          obtain ⟨⟨r | u, s4⟩, h1, h2⟩ := ih s2 _ ok_ne_fuel e3
          · cases h2
          · simp only [Outcome.map, Prod.mk.injEq] at h2
            obtain ⟨_, rfl⟩ := h2
            exact ⟨_, .next hv hb hx h1, rfl⟩
      · rw [M.bind_assoc', M.bind_ok e1, if_neg hb] at h0
        subst h0
        exact ⟨(.ok (), s1), .done hv hb, rfl⟩
  · rintro ⟨o', h, rfl⟩
    rw [execs_cmd]
    refine ⟨o', ?_, rfl⟩
    simp only [hc]
    induction h with
    | done h1 h2 =>
      refine (h1 : Runs _ _ _).then ?_
      simp only [h2, if_false]
      exact runs_pure.2 rfl
    | failCond h1 => exact (h1 : Runs _ _ _).thenFail
    | failBody h1 h2 h3 =>
      refine (h1 : Runs _ _ _).then ?_
      simp only [h2, if_true]
      exact (h3 : Runs _ _ _).thenFail
    | @next s s1 s2 v o h1 h2 h3 h4 ih =>
      refine (h1 : Runs _ _ _).then ?_
      simp only [h2, if_true]
      refine (h3 : Runs _ _ _).then ?_
      have h5 : Execs (.cmd c [cond, .code code]) s2 (o.map fun _ => none) := execs_cmd.2 ⟨o, by simpa only [hc] using ih, rfl⟩
      rcases o with ⟨r | u, s3⟩
      · exact (h5 : Runs _ _ _).thenFail
      · exact (h5 : Runs _ _ _).then (runs_pure.2 rfl)

/-- `W cond code`: the condition is evaluated before every pass, and the loop ends when it is false. -/
theorem C29_while (cond : Tree) (code : List Tree) (s : St X) (o : Outcome X (Option Val)) :
    Execs (.cmd .WHILE [cond, .code code]) s o ↔
      ∃ o' : Outcome X Unit, Loop true (Vals cond) (ExecsAll code) s o' ∧ o = o'.map fun _ => none :=
  loop_iff true cond code .WHILE (fun _ => rfl) s o

/-- `T cond code`: the same with the condition negated. -/
theorem C29_till (cond : Tree) (code : List Tree) (s : St X) (o : Outcome X (Option Val)) :
    Execs (.cmd .TILL [cond, .code code]) s o ↔
      ∃ o' : Outcome X Unit, Loop false (Vals cond) (ExecsAll code) s o' ∧ o = o'.map fun _ => none := by
  refine loop_iff false cond code .TILL (fun R => ?_) s o
  show (getRval R cond >>= _) = _
  congr 1
  funext v
  cases v.truthy <;> rfl

/-- `I cond code E code2`: one of the two. -/
theorem C29_if (cond : Tree) (code code2 : List Tree) (s : St X) (o : Outcome X (Option Val)) :
    Execs (.cmd .IF [cond, .code code, .code code2]) s o ↔
      ∃ o' : Outcome X Unit,
        Then (Vals cond) (fun v => if v.truthy then ExecsAll code else ExecsAll code2) s o' ∧ o = o'.map fun _ => none := by
  rw [execs_cmd]
  refine exists_congr fun o' => and_congr_left fun _ => ?_
  refine (runs_bind (X := X) (mono_getRval cond)
    (f := fun v R => if v.truthy then execAll R code else execAll R code2)).trans ?_
  refine then_congr fun v s1 o => ?_
  cases v.truthy <;> exact Iff.rfl

/-- A block of statements runs them in order. -/
theorem C29_block (code : List Tree) (s : St X) (o : Outcome X Unit) :
    ExecsAll code s o ↔ Each (fun t s o => ∃ o1 : Outcome X (Option Val), Execs t s o1 ∧ o = o1.map fun _ => ()) code s o :=
  (runs_iterL (X := X) (f := fun t R => do let _ ← R.exec t; pure ())
    (fun t C _ _ h => C.bind (h.exec t) fun _ => C.pure _) code).trans
    (each_congr fun t _ _ => runs_map (mono_exec t) _)

/-- `L 3`, `F`, `W` and `T` at work; the loop over the letters sees them in order. -/
example : toyOut (s% "L3{O1}") [] [] = some (s% "111") ∧ toyOut (s% "Fa\"xyz\"{Oa.\"-\"}") [] [] = some (s% "x-y-z-") ∧
    toyOut (s% "a:4W a{Oa a:a-1}") [] [] = some (s% "4321") ∧ toyOut (s% "Ti>2{Oi i:i+1}") [] [] = some (s% "012") := by
  decide +kernel

/-- `LR` executes its code once per match of the Pattern, in order, with the match variables set. -/
theorem C29_regex (p q : Tree) (code : List Tree) (s s1 s2 : St X) (r : Str) (f : Flags) (t : Str) (ms : List Match)
    (hp : Vals p s (.ok (.pattern r f), s1)) (hq : Vals q s1 (.ok (.scalar t), s2)) (hm : X.finditer r f t = .ok ms)
    (o : Outcome X (Option Val)) :
    Execs (.cmd .LOOPREGEX [p, q, .code code]) s o ↔
      ∃ o' : Outcome X Unit, Each (fun m => Then (Runs fun _ => assignRegexVars t m) fun _ => ExecsAll code) ms s2 o' ∧
        o = o'.map fun _ => none := by
  rw [execs_cmd]
  refine exists_congr fun o' => and_congr_left fun _ => ?_
  refine (runs_bind_of (x := fun R => getRval R p) hp).trans ?_
  refine (runs_bind_of (x := fun R => getRval R q) hq).trans ?_
  refine Iff.trans (runs_eq (y := fun R : Rec X => iterL (fun m => do assignRegexVars t m; execAll R code) ms) (s' := s2)
    fun R => ?_) ?_
  · show (M.lift (X.finditer r f t) >>= fun ms => iterL (fun m => do assignRegexVars t m; execAll R code) ms) s2 = _
    rw [hm]
    rfl
  · refine (runs_iterL (f := fun m R => do assignRegexVars t m; execAll R code) (fun m C _ _ h =>
      C.bind (Cong.assignRegexVars _ _) fun _ => Cong.execAll h _) ms).trans (each_congr fun m s o => ?_)
    exact runs_bind (X := X) (x := fun _ => assignRegexVars t m) (fun _ _ _ _ => Cong.assignRegexVars _ _)
      (f := fun _ R => execAll R code)

end Pip
