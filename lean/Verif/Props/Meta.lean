import Verif.Lemmas.Blur
import Verif.Props.Control
/-!
# Meta-operators: folds, scans and item-wise application
-/

namespace Pip
variable {X : Ext}

/-! ### C25: folds -/

/-- The binary operators of the table -/
theorem table_plain : ∀ o ∈ ops2, o.assign = false ∧ o.map = false ∧ o.fold = false ∧ o.scan = false ∧
    o.fn ≠ .PARENTHESIZE ∧ (o.rvals = true ∨ o.vals = true ∨ o.hasFlags = false ∧ (o.fn = .AND ∨ o.fn = .OR)) ∧
    (o.assoc = .right → o.rvals = true ∨ o.vals = true) := by decide +kernel

theorem plain_of_table {o : Op} (h : o ∈ ops2) : o.Plain := by
  obtain ⟨h1, h2, h3, h4, h5, h6, _⟩ := table_plain o h
  exact ⟨h1, h2, h3, h4, h5, h6⟩

/-- `x o v1 o v2 ...`, grouped to the left -/
def leftTree (o : Op) (x : Tree) (l : List Val) : Tree := l.foldl (fun t v => .node o [t, .val v]) x

/-- `v1 o (v2 o (... x))`, grouped to the right -/
def rightTree (o : Op) (l : List Val) (x : Tree) : Tree := l.foldr (fun v t => .node o [.val v, t]) x

/-- The fold of an iterable is the computation over its items. -/
theorem evals_fold {o : Op} (h : o.Plain) {e : Tree} {s s1 : St X} {v : Val} {items : List Val} (hv : Vals e s (.ok v, s1))
    (hi : v.isIterable = true) (hit : v.items = .ok items) {out : Outcome X Res} :
    Evals (.node { o with fold := true } [e]) s out ↔
      Runs (fun R => match items with | [] => pure (.v o.dflt.val) | x :: l => foldList R o x l) s1 out := by
  refine evals_node.trans ?_
  have hno : ({ o with fold := true } : Op).noFold = o := by
    cases o
    have := h.fold
    simp only at this
    simp [Op.noFold, this]
  have hd : ({ o with fold := true } : Op).dflt = o.dflt := rfl
  have h1 : ∀ R : Rec X, evalNode R { o with fold := true } [e] = foldMeta R { o with fold := true } e := by
    intro R
    simp [evalNode, h.assign, h.map]
  simp only [h1, foldMeta]
  refine (runs_bind_of hv (f := fun it R => match it with
    | .block stmts ret => return .v (wrapBlock { o with fold := true } stmts ret)
    | .range _ none => return .v .nil
    | v =>
      if v.isIterable then do
        match ← M.lift v.items with
        | [] => return .v o.dflt.val
        | x :: l => foldList R ({ o with fold := true } : Op).noFold x l
      else return .v .nil)).trans ?_
  rw [hno]
  refine runs_eq fun R => ?_
  split
  · cases hi
  · cases hit
  · rw [if_pos hi, hit]
    cases items <;> rfl

/-- Left fold of results into an expression -/
theorem runs_foldL_left {o : Op} (h : o.Plain) : ∀ (l : List Val) (t : Tree) (_ : t.notOpr = true) (s : St X)
    (out : Outcome X Res),
    Then (Upto (Evals t)) (fun r => Upto (Runs fun R => foldL (evL R o) r l)) s out ↔ Upto (Evals (leftTree o t l)) s out
  | [], t, _, s, out => by
    refine Iff.trans (then_congr (Q' := fun a s o => o = (.ok a, s)) ?_) then_pure
    intro a s o'
    constructor
    · rintro ⟨_, h, rfl⟩
      rw [runs_pure.1 h]
      rfl
    · rintro rfl
      exact ⟨_, runs_pure.2 rfl, rfl⟩
  | v :: l, t, ht, s, out => by
    show _ ↔ Upto (Evals (leftTree o (.node o [t, .val v]) l)) s out
    rw [← runs_foldL_left h l (.node o [t, .val v]) rfl]
    refine Iff.trans ?_ (then_congr_left fun _ _ => evals_first h (.val v) ht).symm
    refine Iff.trans ?_ then_assoc.symm
    refine then_congr fun r s o' => ?_
    refine (upto_congr fun _ _ => runs_bind (x := fun R => evL R o r v) (f := fun r R => foldL (evL R o) r l) ?_).trans ?_
    · exact fun _ _ _ hh => Cong.evL hh o r v
    refine upto_then.trans (then_congr_left fun s o' => ?_)
    unfold evL Then.Sub
    cases resTree r with
    | none =>
      constructor
      · rintro ⟨_, h, rfl⟩
        rw [(runs_throw (by decide)).1 h]
        rfl
      · intro h
        exact ⟨_, (runs_throw (by decide)).2 rfl, h⟩
    | some t' => exact Iff.rfl

/-- Right fold -/
theorem runs_foldL_right {o : Op} (h : o.Plain) (he : o.rvals = true ∨ o.vals = true) : ∀ (l : List Val) (t : Tree)
    (_ : t.notOpr = true) (s : St X) (out : Outcome X Res),
    Then (Upto (Evals t)) (fun r => Upto (Runs fun R => foldL (evR R o) r l)) s out ↔
      Upto (Evals (rightTree o l.reverse t)) s out
  | [], t, _, s, out => by
    refine Iff.trans (then_congr (Q' := fun a s o => o = (.ok a, s)) ?_) then_pure
    intro a s o'
    constructor
    · rintro ⟨_, h, rfl⟩
      rw [runs_pure.1 h]
      rfl
    · rintro rfl
      exact ⟨_, runs_pure.2 rfl, rfl⟩
  | v :: l, t, ht, s, out => by
    have hr : rightTree o (v :: l).reverse t = rightTree o l.reverse (.node o [.val v, t]) := by
      simp [rightTree]
    rw [hr, ← runs_foldL_right h he l (.node o [.val v, t]) rfl]
    refine Iff.trans ?_ (then_congr_left fun _ _ => evals_second h he v ht).symm
    refine Iff.trans ?_ then_assoc.symm
    refine then_congr fun r s o' => ?_
    refine (upto_congr fun _ _ => runs_bind (x := fun R => evR R o r v) (f := fun r R => foldL (evR R o) r l) ?_).trans ?_
    · exact fun _ _ _ hh => Cong.evR hh o r v
    refine upto_then.trans (then_congr_left fun s o' => ?_)
    unfold evR Then.Sub
    cases resTree r with
    | none =>
      constructor
      · rintro ⟨_, h, rfl⟩
        rw [(runs_throw (by decide)).1 h]
        rfl
      · intro h
        exact ⟨_, (runs_throw (by decide)).2 rfl, h⟩
    | some t' => exact Iff.rfl

theorem then_val {v : Val} {Q : Res → St X → Outcome X Res → Prop} {s : St X} {out : Outcome X Res} :
    Then (Upto (Evals (.val v))) Q s out ↔ Q (.v v) s out := by
  have hv : ∀ s o, Upto (Evals (.val v)) s o ↔ o = ((.ok (.v v), s) : Outcome X Res) := by
    intro s o
    constructor
    · rintro ⟨_, h, rfl⟩
      rw [runs_pure.1 (evals_iff.1 h)]
      rfl
    · rintro rfl
      exact ⟨_, evals_iff.2 (runs_pure.2 rfl), rfl⟩
  constructor
  · rintro (⟨h1, h2⟩ | h1)
    · have := (hv _ _).1 h1
      simp only [Prod.mk.injEq, Except.ok.injEq] at this
      obtain ⟨rfl, rfl⟩ := this
      exact h2
    · cases (hv _ _).1 h1
  · exact .ok ((hv _ _).2 rfl)

/-- `$o e` for a left-associative operator: the value of `x o v1 o v2 ...`, grouped to the left (and the same effects). -/
theorem C25_left (o : Op) (h : o ∈ ops2) (ha : o.assoc = .left) (e : Tree) (s s1 : St X) (v x : Val) (l : List Val)
    (hv : Vals e s (.ok v, s1)) (hi : v.isIterable = true) (hit : v.items = .ok (x :: l)) (out : Outcome X Res) :
    Upto (Evals (.node { o with fold := true } [e])) s out ↔ Upto (Evals (leftTree o (.val x) l)) s1 out := by
  have hp := plain_of_table h
  rw [← runs_foldL_left hp l (.val x) rfl, then_val]
  constructor
  · rintro ⟨o', h1, rfl⟩
    refine ⟨o', ?_, rfl⟩
    have := (evals_fold hp hv hi hit).1 h1
    simpa only [foldList, ha] using this
  · rintro ⟨o', h1, rfl⟩
    refine ⟨o', (evals_fold hp hv hi hit).2 ?_, rfl⟩
    simpa only [foldList, ha] using h1

/-- `$o e` for a right-associative operator: the value of `v1 o (v2 o (... y))` -/
theorem C25_right (o : Op) (h : o ∈ ops2) (ha : o.assoc = .right) (e : Tree) (s s1 : St X) (v y : Val) (l : List Val)
    (hv : Vals e s (.ok v, s1)) (hi : v.isIterable = true) (hit : v.items = .ok (l ++ [y])) (out : Outcome X Res) :
    Upto (Evals (.node { o with fold := true } [e])) s out ↔ Upto (Evals (rightTree o l (.val y))) s1 out := by
  have hp := plain_of_table h
  have he := (table_plain o h).2.2.2.2.2.2 ha
  have key : ∀ out, Evals (.node { o with fold := true } [e]) s out ↔ Runs (fun R => foldL (evR R o) (.v y) l.reverse) s1 out := by
    intro out
    refine (evals_fold hp hv hi hit).trans ?_
    cases hl : l ++ [y] with
    | nil => simp at hl
    | cons x m =>
      have hr : (x :: m).reverse = y :: l.reverse := by rw [← hl]; simp
      simp only [foldList, ha, hr]
  have := runs_foldL_right (X := X) hp he l.reverse (.val y) rfl s1 out
  rw [List.reverse_reverse, then_val] at this
  rw [← this]
  exact ⟨fun ⟨o', h1, h2⟩ => ⟨o', (key o').1 h1, h2⟩, fun ⟨o', h1, h2⟩ => ⟨o', (key o').2 h1, h2⟩⟩

/-- `$o e` for a comparison: the chain `x o v1 o v2 ...` (C24) -/
theorem C25_chain (o : Op) (h : Comparison o) (e : Tree) (s s1 : St X) (v x : Val) (l : List Val) (hl : l ≠ [])
    (hv : Vals e s (.ok v, s1)) (hi : v.isIterable = true) (hit : v.items = .ok (x :: l)) (out : Outcome X Res) :
    Evals (.node { o with fold := true } [e]) s out ↔
      Evals (chainTree (.val x) (l.map fun y => (o, .val y))) s1 out := by
  refine (evals_fold (plain_of_table h.1) hv hi hit).trans ?_
  have : l.isEmpty = false := by cases l <;> simp_all
  simp only [foldList, h.2, this, Bool.false_eq_true, if_false]
  have hc : chainTree (.val x) (l.map fun y => (o, .val y)) = .node chainOp (chainArgs o x l) := by
    simp [chainTree, chainArgs, List.flatMap_map]
  rw [hc]
  rfl

/-- The fold of one item is the item, for comparisons 1. -/
theorem C25_single (o : Op) (h : o ∈ ops2) (e : Tree) (s s1 : St X) (v x : Val) (hv : Vals e s (.ok v, s1))
    (hi : v.isIterable = true) (hit : v.items = .ok [x]) (ho : o.assoc ≠ .none) (out : Outcome X Res) :
    Evals (.node { o with fold := true } [e]) s out ↔
      out = (.ok (.v (if o.assoc = .chain then .scalar (s% "1") else x)), s1) := by
  refine (evals_fold (plain_of_table h) hv hi hit).trans ?_
  cases ha : o.assoc <;> simp only [foldList, ha] <;> first | exact absurd ha ho | exact runs_pure

/-- The fold of no items is the default of the operator. -/
theorem C25_empty (o : Op) (h : o ∈ ops2) (e : Tree) (s s1 : St X) (v : Val) (hv : Vals e s (.ok v, s1))
    (hi : v.isIterable = true) (hit : v.items = .ok []) (out : Outcome X Res) :
    Evals (.node { o with fold := true } [e]) s out ↔ out = (.ok (.v o.dflt.val), s1) :=
  (evals_fold (plain_of_table h) hv hi hit).trans runs_pure

/-- All operators of the table that can be folded have an associativity. -/
theorem C25_assoc : ∀ o ∈ ops2, o.assoc ≠ .none ∧ o.arity = 2 := by decide +kernel

example : toyOut (s% "$-[10 3 2]") [] [] = some (s% "5\n") ∧ toyOut (s% "$**[2 3 2]") [] [] = some (s% "512\n") ∧
    toyOut (s% "$<[1 2 3]") [] [] = some (s% "1\n") ∧ toyOut (s% "$<[1 3 2]") [] [] = some (s% "0\n") ∧
    toyOut (s% "$*[]") [] [] = some (s% "1\n") := by
  exact ⟨by decide +kernel, by decide +kernel, by decide +kernel, by decide +kernel, by decide +kernel⟩

/-! ### C26: scans -/

theorem then_ok_iff {α β : Type} {P : St X → Outcome X α → Prop} {Q : α → St X → Outcome X β → Prop} {s s2 : St X} {b : β} :
    Then P Q s (.ok b, s2) ↔ ∃ a s1, P s (.ok a, s1) ∧ Q a s1 (.ok b, s2) := by
  constructor
  · intro h
    generalize ho : ((.ok b, s2) : Outcome X β) = o at h
    cases h with
    | ok h1 h2 => subst ho; exact ⟨_, _, h1, h2⟩
    | fail => cases ho
  · rintro ⟨a, s1, h1, h2⟩
    exact .ok h1 h2

theorem mono_scanL {f : Rec X → Res → Val → M X Res} (hf : ∀ r v, Mono fun R => f R r v) (r : Res) (l : List Val) :
    Mono fun R => scanL (f R) r l := fun C _ _ hh => Cong.scanL (fun r v => hf r v C _ _ hh) l r

/-- The results of a scan are those of the expressions `T` for the prefixes. -/
theorem scan_iff {f : Rec X → Res → Val → M X Res} (hf : ∀ r v, Mono fun R => f R r v) (T : List Val → Tree) (s0 : St X)
    (hT : ∀ l v r s r1 s1, Evals (T l) s0 (.ok r, s) →
      (Evals (T (l ++ [v])) s0 (.ok r1, s1) ↔ Runs (fun R => f R r v) s (.ok r1, s1))) :
    ∀ (l pre : List Val) (r : Res) (s s2 : St X) (rs : List Res) (_ : Evals (T pre) s0 (.ok r, s)),
      Runs (fun R => scanL (f R) r l) s (.ok rs, s2) ↔ rs.length = l.length ∧ ∀ k ≤ l.length,
        ∃ q s', (r :: rs)[k]? = some q ∧ Evals (T (pre ++ l.take k)) s0 (.ok q, s') ∧ (k = l.length → s' = s2)
  | [], pre, r, s, s2, rs, h0 => by
    refine runs_pure.trans ?_
    constructor
    · intro h
      simp only [Prod.mk.injEq, Except.ok.injEq] at h
      obtain ⟨rfl, rfl⟩ := h
      refine ⟨rfl, fun k hk => ?_⟩
      obtain rfl : k = 0 := by simpa using hk
      exact ⟨r, s2, rfl, by simpa using h0, fun _ => rfl⟩
    · rintro ⟨h1, h2⟩
      obtain ⟨q, s', h3, h4, h5⟩ := h2 0 (Nat.le_refl _)
      have h6 := h4.det (by simpa using h0 : Evals (T (pre ++ List.take 0 [])) s0 (.ok r, s))
      simp only [Prod.mk.injEq, Except.ok.injEq] at h6
      rw [List.eq_nil_of_length_eq_zero h1, ← h5 rfl, h6.2]
  | v :: l, pre, r, s, s2, rs, h0 => by
    have step : Runs (fun R => scanL (f R) r (v :: l)) s (.ok rs, s2) ↔ ∃ r1 s1, Runs (fun R => f R r v) s (.ok r1, s1) ∧
        ∃ rs', Runs (fun R => scanL (f R) r1 l) s1 (.ok rs', s2) ∧ rs = r1 :: rs' := by
      refine (runs_bind (hf r v) (f := fun r1 R => scanL (f R) r1 l >>= fun rs => pure (r1 :: rs))).trans ?_
      rw [then_ok_iff]
      refine exists_congr fun r1 => exists_congr fun s1 => and_congr_right fun _ => ?_
      rw [runs_map (mono_scanL hf r1 l)]
      constructor
      · rintro ⟨⟨e | rs', s'⟩, h1, h2⟩
        · cases h2
        · simp only [Outcome.map, Prod.mk.injEq, Except.ok.injEq] at h2
          obtain ⟨rfl, rfl⟩ := h2
          exact ⟨_, h1, rfl⟩
      · rintro ⟨rs', h1, rfl⟩
        exact ⟨_, h1, rfl⟩
    rw [step]
    constructor
    · rintro ⟨r1, s1, h1, rs', h2, rfl⟩
      have h3 := (hT pre v r s r1 s1 h0).2 h1
      obtain ⟨h4, h5⟩ := (scan_iff hf T s0 hT l (pre ++ [v]) r1 s1 s2 rs' h3).1 h2
      refine ⟨by simp [h4], fun k hk => ?_⟩
      cases k with
      | zero => exact ⟨r, s, rfl, by simpa using h0, fun h => by simp at h⟩
      | succ k =>
        obtain ⟨q, s', h6, h7, h8⟩ := h5 k (by simpa using hk)
        refine ⟨q, s', by simpa using h6, by simpa using h7, fun h => h8 (by simpa using h)⟩
    · rintro ⟨h1, h2⟩
      obtain ⟨r1, s1, h3, h4, h5⟩ := h2 1 (by simp)
      have h4 : Evals (T (pre ++ [v])) s0 (.ok r1, s1) := by simpa using h4
      cases rs with
      | nil => simp at h1
      | cons r1' rs' =>
        obtain rfl : r1' = r1 := by simpa using h3
        refine ⟨r1', s1, (hT pre v r s r1' s1 h0).1 h4, rs', ?_, rfl⟩
        refine (scan_iff hf T s0 hT l (pre ++ [v]) r1' s1 s2 rs' h4).2 ⟨by simpa using h1, fun k hk => ?_⟩
        obtain ⟨q, s', h6, h7, h8⟩ := h2 (k + 1) (by simpa using hk)
        exact ⟨q, s', by simpa using h6, by simpa using h7, fun h => h8 (by simp [h])⟩

/-- The scan of an iterable is the computation over its items. -/
theorem evals_scan {o : Op} (h : o.Plain) {e : Tree} {s s1 : St X} {v x : Val} {l : List Val} (hv : Vals e s (.ok v, s1))
    (hi : v.isIterable = true) (hit : v.items = .ok (x :: l)) {out : Outcome X Res} :
    Evals (.node { o with scan := true } [e]) s out ↔
      Runs (fun R => scanList R o x l >>= fun rs => mapL needVal rs >>= fun vs => pure (.v (.list vs))) s1 out := by
  refine evals_node.trans ?_
  have hno : ({ o with scan := true } : Op).noScan = o := by
    cases o
    have := h.scan
    simp only at this
    simp [Op.noScan, this]
  have h1 : ∀ R : Rec X, evalNode R { o with scan := true } [e] = scanMeta R { o with scan := true } e := by
    intro R
    simp [evalNode, h.assign, h.map, h.fold]
  simp only [h1, scanMeta]
  refine (runs_bind_of hv (β := Res) (f := fun it R => match it with
    | .block stmts ret => return .v (wrapBlock { o with scan := true } stmts ret)
    | .range _ none => return .v .nil
    | v =>
      if v.isIterable then do
        match ← M.lift v.items with
        | [] => return .v (.list [])
        | x :: l => do
          let rs ← scanList R ({ o with scan := true } : Op).noScan x l
          let vs ← mapL needVal rs
          return .v (.list vs)
      else return .v .nil)).trans ?_
  rw [hno]
  refine runs_eq fun R => ?_
  split
  · cases hi
  · cases hit
  · rw [if_pos hi, hit]
    rfl

theorem mapL_needVal : ∀ (rs : List Res) (s s' : St X) (vs : List Val),
    mapL needVal rs s = (.ok vs, s') ↔ rs = vs.map .v ∧ s' = s
  | [], s, s', vs => by
    constructor
    · intro h
      simp only [mapL, M.pure_apply, Prod.mk.injEq, Except.ok.injEq] at h
      obtain ⟨rfl, rfl⟩ := h
      exact ⟨rfl, rfl⟩
    · rintro ⟨h, rfl⟩
      rw [List.map_eq_nil_iff.1 h.symm]
      rfl
  | r :: rs, s, s', vs => by
    cases r with
    | v w =>
      show (mapL needVal rs >>= fun ys => pure (w :: ys) : M X (List Val)) s = _ ↔ _
      rcases e : mapL needVal rs s with ⟨ex | ws, s1⟩
      · rw [M.bind_error e]
        constructor
        · intro h; cases h
        · rintro ⟨h, rfl⟩
          cases vs with
          | nil => cases h
          | cons v vs =>
            simp only [List.map_cons, List.cons.injEq] at h
            have := (mapL_needVal rs s' s' vs).2 ⟨h.2, rfl⟩
            rw [e] at this
            cases this
      · rw [M.bind_ok e]
        obtain ⟨h1, h2⟩ := (mapL_needVal rs s s1 ws).1 e
        subst h1 h2
        show ((.ok (w :: ws), s1) : Outcome X (List Val)) = _ ↔ _
        constructor
        · intro h
          simp only [Prod.mk.injEq, Except.ok.injEq] at h
          obtain ⟨rfl, rfl⟩ := h
          exact ⟨rfl, rfl⟩
        · rintro ⟨h, rfl⟩
          cases vs with
          | nil => cases h
          | cons v vs =>
            simp only [List.map_cons, List.cons.injEq, Res.v.injEq] at h
            obtain ⟨rfl, h⟩ := h
            have : ws = vs := (List.map_inj_right fun a b (h : Res.v a = Res.v b) => by simpa using h).1 h
            rw [this]
    | l w =>
      constructor
      · intro h
        cases h
      · rintro ⟨h, _⟩
        cases vs <;> simp at h
    | none =>
      constructor
      · intro h
        cases h
      · rintro ⟨h, _⟩
        cases vs <;> simp at h

/-- A scan succeeds with a List of values. -/
theorem scan_ok {x : Rec X → M X (List Res)} (hx : Mono x) {s s2 : St X} {res : Res} :
    Runs (fun R => x R >>= fun rs => mapL needVal rs >>= fun vs => pure (.v (.list vs))) s (.ok res, s2) ↔
      ∃ vs, res = .v (.list vs) ∧ Runs x s (.ok (vs.map .v), s2) := by
  refine (runs_bind hx (β := Res) (f := fun rs _ => mapL needVal rs >>= fun vs => pure (.v (.list vs)))).trans ?_
  rw [then_ok_iff]
  constructor
  · rintro ⟨rs, s1, h1, _, n, hn⟩
    have hn := hn n (Nat.le_refl n)
    rcases e : mapL needVal rs s1 with ⟨ex | vs, s'⟩
    · have := (M.bind_error (f := fun vs => (pure (.v (.list vs)) : M X Res)) e).symm.trans hn
      cases this
    · have := (M.bind_ok (f := fun vs => (pure (.v (.list vs)) : M X Res)) e).symm.trans hn
      simp only [M.pure_apply, Prod.mk.injEq, Except.ok.injEq] at this
      obtain ⟨rfl, rfl⟩ := this
      obtain ⟨rfl, rfl⟩ := (mapL_needVal _ _ _ _).1 e
      exact ⟨vs, rfl, h1⟩
  · rintro ⟨vs, rfl, h⟩
    refine ⟨_, _, h, ?_⟩
    exact (runs_bind_ok (β := Res) (f := fun vs _ => pure (.v (.list vs))) ((mapL_needVal _ s2 s2 vs).2 ⟨rfl, rfl⟩)).2 (runs_pure.2 rfl)

theorem evL_step {o : Op} (h : o.Plain) {t : Tree} (ht : t.notOpr = true) {s0 s s1 : St X} {r r1 : Res} {v : Val}
    (h0 : Evals t s0 (.ok r, s)) :
    Evals (.node o [t, .val v]) s0 (.ok r1, s1) ↔ Runs (fun R => evL R o r v) s (.ok r1, s1) := by
  rw [← upto_ok (P := Evals _), evals_first h _ ht, then_ok_iff]
  have key : Then.Sub o (fun t => [t, .val v]) r s (.ok r1, s1) ↔ Runs (fun R => evL R o r v) s (.ok r1, s1) := by
    unfold Then.Sub evL
    cases resTree r with
    | none =>
      constructor
      · intro h; cases h
      · intro h; cases (runs_throw (by decide)).1 h
    | some t' => exact upto_ok
  rw [← key]
  constructor
  · rintro ⟨a, s', h1, h2⟩
    have := (upto_ok.1 h1).det h0
    simp only [Prod.mk.injEq, Except.ok.injEq] at this
    obtain ⟨rfl, rfl⟩ := this
    exact h2
  · intro h2
    exact ⟨r, s, upto_ok.2 h0, h2⟩

theorem evR_step {o : Op} (h : o.Plain) (he : o.rvals = true ∨ o.vals = true) {t : Tree} (ht : t.notOpr = true)
    {s0 s s1 : St X} {r r1 : Res} {v : Val} (h0 : Evals t s0 (.ok r, s)) :
    Evals (.node o [.val v, t]) s0 (.ok r1, s1) ↔ Runs (fun R => evR R o r v) s (.ok r1, s1) := by
  rw [← upto_ok (P := Evals _), evals_second h he _ ht, then_ok_iff]
  have key : Then.Sub o (fun t => [.val v, t]) r s (.ok r1, s1) ↔ Runs (fun R => evR R o r v) s (.ok r1, s1) := by
    unfold Then.Sub evR
    cases resTree r with
    | none =>
      constructor
      · intro h; cases h
      · intro h; cases (runs_throw (by decide)).1 h
    | some t' => exact upto_ok
  rw [← key]
  constructor
  · rintro ⟨a, s', h1, h2⟩
    have := (upto_ok.1 h1).det h0
    simp only [Prod.mk.injEq, Except.ok.injEq] at this
    obtain ⟨rfl, rfl⟩ := this
    exact h2
  · intro h2
    exact ⟨r, s, upto_ok.2 h0, h2⟩

theorem leftTree_notOpr (o : Op) (x : Val) (l : List Val) : (leftTree o (.val x) l).notOpr = true := by
  have : ∀ (l : List Val) (t : Tree), t.notOpr = true → (leftTree o t l).notOpr = true := by
    intro l
    induction l with
    | nil => exact fun _ h => h
    | cons v l ih => exact fun t _ => ih _ rfl
  exact this l _ rfl

theorem rightTree_notOpr (o : Op) (x : Val) (l : List Val) : (rightTree o l (.val x)).notOpr = true := by
  cases l <;> rfl

theorem evals_val (x : Val) (s : St X) : Evals (.val x) s (.ok (.v x), s) := evals_iff.2 (runs_pure.2 rfl)

/-- `\$o e` for a left-associative operator: the k-th item is the fold of the first k+1 items (C25), and the final state is
the one in which the fold of all items ends. -/
theorem C26_left (o : Op) (h : o ∈ ops2) (ha : o.assoc = .left) (e : Tree) (s s1 s2 : St X) (v x : Val) (l : List Val)
    (hv : Vals e s (.ok v, s1)) (hi : v.isIterable = true) (hit : v.items = .ok (x :: l)) (res : Res) :
    Evals (.node { o with scan := true } [e]) s (.ok res, s2) ↔
      ∃ vs, res = .v (.list vs) ∧ vs.length = l.length + 1 ∧ ∀ k ≤ l.length, ∃ w s', vs[k]? = some w ∧
        Evals (leftTree o (.val x) (l.take k)) s1 (.ok (.v w), s') ∧ (k = l.length → s' = s2) := by
  have hp := plain_of_table h
  have hm : ∀ r v, Mono fun R : Rec X => evL R o r v := fun r v _ _ _ hh => Cong.evL hh o r v
  refine (evals_scan hp hv hi hit).trans ((scan_ok fun _ _ _ hh => Cong.scanList hh o x l).trans ?_)
  refine exists_congr fun vs => and_congr_right fun _ => ?_
  simp only [scanList, ha]
  rw [runs_map (mono_scanL hm _ _)]
  have key := fun rs => scan_iff hm (fun l => leftTree o (.val x) l) s1 (fun l v r s r1 s1 h0 => by
    have : leftTree o (.val x) (l ++ [v]) = .node o [leftTree o (.val x) l, .val v] := by simp [leftTree]
    simp only [this]
    exact evL_step hp (leftTree_notOpr o x l) h0) l [] (.v x) s1 s2 rs (evals_val x s1)
  constructor
  · rintro ⟨⟨ex | rs, s'⟩, h1, h2⟩
    · cases h2
    · simp only [Outcome.map, Prod.mk.injEq, Except.ok.injEq] at h2
      obtain ⟨h2, rfl⟩ := h2
      obtain ⟨h3, h4⟩ := (key rs).1 h1
      rw [← h2] at h4
      have hl : vs.length = l.length + 1 := by
        have := congrArg List.length h2
        simpa [h3] using this
      refine ⟨hl, fun k hk => ?_⟩
      obtain ⟨q, s', h5, h6, h7⟩ := h4 k hk
      rw [List.getElem?_map] at h5
      obtain ⟨w, h8, rfl⟩ := Option.map_eq_some_iff.1 h5
      exact ⟨w, s', h8, h6, h7⟩
  · rintro ⟨h1, h2⟩
    cases vs with
    | nil => simp at h1
    | cons w ws =>
      obtain ⟨w', s', h3, h4, _⟩ := h2 0 (Nat.zero_le _)
      have := h4.det (evals_val x s1)
      simp only [Prod.mk.injEq, Except.ok.injEq, Res.v.injEq] at this
      obtain ⟨rfl, _⟩ := this
      obtain rfl : w = w' := by simpa using h3
      refine ⟨(.ok (ws.map .v), s2), (key _).2 ⟨by simpa using h1, fun k hk => ?_⟩, rfl⟩
      obtain ⟨q, s', h5, h6, h7⟩ := h2 k hk
      refine ⟨.v q, s', ?_, h6, h7⟩
      rw [show (Res.v w :: ws.map .v) = (w :: ws).map .v from rfl, List.getElem?_map, h5]
      rfl

/-- `\$o e` for a right-associative operator: the k-th item is the fold of the items from the k-th on. -/
theorem C26_right (o : Op) (h : o ∈ ops2) (ha : o.assoc = .right) (e : Tree) (s s1 s2 : St X) (v y : Val) (l : List Val)
    (hv : Vals e s (.ok v, s1)) (hi : v.isIterable = true) (hit : v.items = .ok (l ++ [y])) (res : Res) :
    Evals (.node { o with scan := true } [e]) s (.ok res, s2) ↔
      ∃ vs, res = .v (.list vs) ∧ vs.length = l.length + 1 ∧ ∀ k ≤ l.length, ∃ w s', vs[k]? = some w ∧
        Evals (rightTree o (l.drop k) (.val y)) s1 (.ok (.v w), s') ∧ (k = 0 → s' = s2) := by
  have hp := plain_of_table h
  have he := (table_plain o h).2.2.2.2.2.2 ha
  have hm : ∀ r v, Mono fun R : Rec X => evR R o r v := fun r v _ _ _ hh => Cong.evR hh o r v
  obtain ⟨x, m, hl⟩ : ∃ x m, l ++ [y] = x :: m := by
    cases l with
    | nil => exact ⟨_, _, rfl⟩
    | cons a l => exact ⟨_, _, rfl⟩
  have hr : (x :: m).reverse = y :: l.reverse := by rw [← hl]; simp
  rw [hl] at hit
  refine (evals_scan hp hv hi hit).trans ((scan_ok fun _ _ _ hh => Cong.scanList hh o x m).trans ?_)
  refine exists_congr fun vs => and_congr_right fun _ => ?_
  simp only [scanList, ha, hr]
  rw [runs_map (mono_scanL hm _ _)]
  have key := fun rs => scan_iff hm (fun l => rightTree o l.reverse (.val y)) s1 (fun l v r s r1 s1 h0 => by
    have : rightTree o (l ++ [v]).reverse (.val y) = .node o [.val v, rightTree o l.reverse (.val y)] := by simp [rightTree]
    simp only [this]
    exact evR_step hp he (rightTree_notOpr o y _) h0) l.reverse [] (.v y) s1 s2 rs (evals_val y s1)
  simp only [List.length_reverse, List.nil_append] at key
  have hrev : ∀ k, k ≤ l.length → (l.reverse.take (l.length - k)).reverse = l.drop k := by
    intro k hk
    rw [List.take_reverse, List.reverse_reverse]
    congr 1
    omega
  constructor
  · rintro ⟨⟨ex | rs, s'⟩, h1, h2⟩
    · cases h2
    · simp only [Outcome.map, Prod.mk.injEq, Except.ok.injEq] at h2
      obtain ⟨h2, rfl⟩ := h2
      obtain ⟨h3, h4⟩ := (key rs).1 h1
      have h2 : (vs.reverse).map .v = .v y :: rs := by rw [List.map_reverse, h2, List.reverse_reverse]
      rw [← h2] at h4
      have hl : vs.length = l.length + 1 := by
        have := congrArg List.length h2
        simpa [h3] using this
      refine ⟨hl, fun k hk => ?_⟩
      obtain ⟨q, s', h5, h6, h7⟩ := h4 (l.length - k) (by omega)
      rw [List.getElem?_map] at h5
      obtain ⟨w, h8, rfl⟩ := Option.map_eq_some_iff.1 h5
      rw [hrev k hk] at h6
      refine ⟨w, s', ?_, h6, fun h => h7 (by omega)⟩
      rw [List.getElem?_reverse (by omega), hl] at h8
      rw [← h8]
      congr 1
      omega
  · rintro ⟨h1, h2⟩
    obtain ⟨ws, w, rfl⟩ : ∃ ws w, vs = ws ++ [w] := by
      cases hvs : vs.reverse with
      | nil => rw [List.reverse_eq_nil_iff.1 hvs] at h1; simp at h1
      | cons w ws => exact ⟨ws.reverse, w, by rw [← List.reverse_reverse vs, hvs]; simp⟩
    have hwl : ws.length = l.length := by simpa using h1
    obtain ⟨w', s', h3, h4, _⟩ := h2 l.length (Nat.le_refl _)
    rw [List.drop_length] at h4
    have := h4.det (evals_val y s1)
    simp only [Prod.mk.injEq, Except.ok.injEq, Res.v.injEq] at this
    obtain ⟨rfl, _⟩ := this
    obtain rfl : w = w' := by
      rw [List.getElem?_append_right (by omega)] at h3
      simpa [hwl] using h3
    refine ⟨(.ok (ws.reverse.map .v), s2), (key _).2 ⟨by simpa using hwl, fun k hk => ?_⟩, by simp [Outcome.map]⟩
    obtain ⟨q, s', h5, h6, h7⟩ := h2 (l.length - k) (by omega)
    refine ⟨.v q, s', ?_, ?_, fun h => h7 (by omega)⟩
    · rw [show (Res.v w :: ws.reverse.map .v) = (ws ++ [w]).reverse.map .v by simp, List.getElem?_map,
        List.getElem?_reverse (by simp; omega)]
      rw [show (ws ++ [w]).length - 1 - k = l.length - k by simp [hwl], h5]
      rfl
    · rw [← hrev (l.length - k) (by omega)] at h6
      rwa [show l.length - (l.length - k) = k by omega] at h6

/-- The last (first) item is the fold of the whole, with the same effects. -/
theorem C26_left_fold (o : Op) (h : o ∈ ops2) (ha : o.assoc = .left) (e : Tree) (s s1 s2 : St X) (v x : Val) (l vs : List Val)
    (hv : Vals e s (.ok v, s1)) (hi : v.isIterable = true) (hit : v.items = .ok (x :: l))
    (hs : Evals (.node { o with scan := true } [e]) s (.ok (.v (.list vs)), s2)) :
    ∃ w, vs.getLast? = some w ∧ Evals (.node { o with fold := true } [e]) s (.ok (.v w), s2) := by
  obtain ⟨_, hvs, h1, h2⟩ := (C26_left o h ha e s s1 s2 v x l hv hi hit _).1 hs
  simp only [Res.v.injEq, Val.list.injEq] at hvs
  subst hvs
  obtain ⟨w, s', h3, h4, h5⟩ := h2 l.length (Nat.le_refl _)
  obtain rfl := h5 rfl
  rw [List.take_length] at h4
  refine ⟨w, by rw [List.getLast?_eq_getElem?, h1]; exact h3, ?_⟩
  exact upto_ok.1 ((C25_left o h ha e s s1 v x l hv hi hit _).2 (upto_ok.2 h4))

theorem C26_right_fold (o : Op) (h : o ∈ ops2) (ha : o.assoc = .right) (e : Tree) (s s1 s2 : St X) (v y : Val)
    (l vs : List Val) (hv : Vals e s (.ok v, s1)) (hi : v.isIterable = true) (hit : v.items = .ok (l ++ [y]))
    (hs : Evals (.node { o with scan := true } [e]) s (.ok (.v (.list vs)), s2)) :
    ∃ w, vs.head? = some w ∧ Evals (.node { o with fold := true } [e]) s (.ok (.v w), s2) := by
  obtain ⟨_, hvs, h1, h2⟩ := (C26_right o h ha e s s1 s2 v y l hv hi hit _).1 hs
  simp only [Res.v.injEq, Val.list.injEq] at hvs
  subst hvs
  obtain ⟨w, s', h3, h4, h5⟩ := h2 0 (Nat.zero_le _)
  obtain rfl := h5 rfl
  refine ⟨w, by rw [List.head?_eq_getElem?]; exact h3, ?_⟩
  exact upto_ok.1 ((C25_right o h ha e s s1 v y l hv hi hit _).2 (upto_ok.2 h4))

/-- The prefixes of length at least one, in order -/
def prefixes (l : List Val) : List (List Val) := (List.range l.length).map fun k => l.take (k + 1)

theorem prefixes_cons (v : Val) (l : List Val) : prefixes (v :: l) = [v] :: (prefixes l).map (v :: ·) := by
  simp [prefixes, List.range_succ_eq_map, List.map_map, Function.comp_def]

/-- `\$o e` for a comparison: 1, and then the chains of the first two, three, ... items, evaluated in this order. -/
theorem C26_chain (o : Op) (h : Comparison o) (e : Tree) (s s1 s2 : St X) (v x : Val) (l : List Val)
    (hv : Vals e s (.ok v, s1)) (hi : v.isIterable = true) (hit : v.items = .ok (x :: l)) (res : Res) :
    Evals (.node { o with scan := true } [e]) s (.ok res, s2) ↔
      ∃ vs : List Val, res = .v (.list (.scalar (s% "1") :: vs)) ∧
        MapEach (fun p => Evals (chainTree (.val x) (p.map fun y => (o, .val y)))) (prefixes l) s1 (.ok (vs.map .v), s2) := by
  have key : ∀ (l pre : List Val) (s : St X) (out : Outcome X (List Res)),
      Runs (fun R => scanChain R o (chainArgs o x pre) l) s out ↔
        MapEach (fun p => Evals (.node chainOp (chainArgs o x (pre ++ p)))) (prefixes l) s out := by
    intro l
    induction l with
    | nil =>
      intro pre s out
      refine runs_pure.trans ⟨?_, ?_⟩
      · rintro rfl; exact .nil
      · rintro ⟨⟩; rfl
    | cons v l ih =>
      intro pre s out
      have hc : chainArgs o x pre ++ [.opr o, .val v] = chainArgs o x (pre ++ [v]) := by simp [chainArgs]
      rw [prefixes_cons]
      simp only [scanChain, hc]
      refine (runs_bind (mono_ev _) (f := fun r R => scanChain R o (chainArgs o x (pre ++ [v])) l >>= fun rs =>
        pure (r :: rs))).trans ?_
      have hm : Mono fun R : Rec X => scanChain R o (chainArgs o x (pre ++ [v])) l :=
        fun _ _ _ hh => Cong.scanChain hh o l _
      have hmap : ∀ (ps : List (List Val)) (s : St X) (out : Outcome X (List Res)),
          MapEach (fun p => Evals (.node chainOp (chainArgs o x (pre ++ [v] ++ p)))) ps s out ↔
          MapEach (fun p => Evals (.node chainOp (chainArgs o x (pre ++ p)))) (ps.map (v :: ·)) s out := by
        intro ps
        induction ps with
        | nil =>
          intro s out
          exact ⟨by rintro ⟨⟩; exact .nil, by rintro ⟨⟩; exact .nil⟩
        | cons p ps ih =>
          intro s out
          have ha : pre ++ [v] ++ p = pre ++ v :: p := by simp
          constructor
          · intro hh
            cases hh with
            | next h1 h2 => exact .next (by rwa [ha] at h1) ((ih _ _).1 h2)
            | fail h1 => exact .fail (by rwa [ha] at h1)
          · intro hh
            cases hh with
            | next h1 h2 => exact .next (by rwa [ha]) ((ih _ _).2 h2)
            | fail h1 => exact .fail (by rwa [ha])
      constructor
      · rintro (⟨h1, h2⟩ | h1)
        · obtain ⟨o', h3, rfl⟩ := (runs_map hm _).1 h2
          exact .next h1 ((hmap _ _ _).1 ((ih _ _ _).1 h3))
        · exact .fail h1
      · intro hh
        cases hh with
        | next h1 h2 => exact .ok h1 ((runs_map hm _).2 ⟨_, (ih _ _ _).2 ((hmap _ _ _).2 h2), rfl⟩)
        | fail h1 => exact .fail h1
  have hc : ∀ p : List Val, chainTree (.val x) (p.map fun y => (o, .val y)) = .node chainOp (chainArgs o x p) := by
    intro p
    simp [chainTree, chainArgs, List.flatMap_map]
  refine (evals_scan (plain_of_table h.1) hv hi hit).trans ((scan_ok fun _ _ _ hh => Cong.scanList hh o x l).trans ?_)
  simp only [scanList, h.2, hc]
  have hm : Mono fun R : Rec X => scanChain R o [.val x] l := fun _ _ _ hh => Cong.scanChain hh o l _
  have key' : ∀ out, Runs (fun R => scanChain R o [.val x] l) s1 out ↔
      MapEach (fun p => Evals (.node chainOp (chainArgs o x p))) (prefixes l) s1 out := fun out => key l [] s1 out
  constructor
  · rintro ⟨vs, rfl, h1⟩
    obtain ⟨⟨ex | rs, s'⟩, h2, h3⟩ := (runs_map hm _).1 h1
    · cases h3
    · simp only [Outcome.map, Prod.mk.injEq, Except.ok.injEq] at h3
      obtain ⟨h3, rfl⟩ := h3
      cases vs with
      | nil => cases h3
      | cons w ws =>
        simp only [List.map_cons, List.cons.injEq, Res.v.injEq] at h3
        obtain ⟨rfl, rfl⟩ := h3
        exact ⟨ws, rfl, (key' _).1 h2⟩
  · rintro ⟨vs, rfl, h1⟩
    exact ⟨_, rfl, (runs_map hm _).2 ⟨_, (key' _).2 h1, rfl⟩⟩

/-- The scan of no items is the empty List. -/
theorem C26_empty (o : Op) (h : o ∈ ops2) (e : Tree) (s s1 : St X) (v : Val) (hv : Vals e s (.ok v, s1))
    (hi : v.isIterable = true) (hit : v.items = .ok []) (out : Outcome X Res) :
    Evals (.node { o with scan := true } [e]) s out ↔ out = (.ok (.v (.list [])), s1) := by
  have hp := plain_of_table h
  refine evals_node.trans ?_
  have h1 : ∀ R : Rec X, evalNode R { o with scan := true } [e] = scanMeta R { o with scan := true } e := by
    intro R
    simp [evalNode, hp.assign, hp.map, hp.fold]
  simp only [h1, scanMeta]
  refine (runs_bind_of hv (β := Res) (f := fun it R => match it with
    | .block stmts ret => return .v (wrapBlock { o with scan := true } stmts ret)
    | .range _ none => return .v .nil
    | v =>
      if v.isIterable then do
        match ← M.lift v.items with
        | [] => return .v (.list [])
        | x :: l => do
          let rs ← scanList R ({ o with scan := true } : Op).noScan x l
          let vs ← mapL needVal rs
          return .v (.list vs)
      else return .v .nil)).trans ?_
  refine (runs_eq (y := fun _ => pure (.v (.list []))) (s' := s1) fun R => ?_).trans runs_pure
  split
  · cases hi
  · cases hit
  · rw [if_pos hi, hit]
    rfl

example : toyOut (s% "P*\\$-[10 3 2]") [] [] = some (s% "10\n7\n5\n1075\n") ∧
    toyOut (s% "P*\\$**[2 3 2]") [] [] = some (s% "512\n9\n2\n51292\n") ∧
    toyOut (s% "\\$<[1 2 3 3 4]") [] [] = some (s% "11100\n") := by
  exact ⟨by decide +kernel, by decide +kernel, by decide +kernel⟩

end Pip
