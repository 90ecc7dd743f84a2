import Verif.Lemmas.ReprEval
import Verif.Spec.Toy
/-!
# C17: canonical texts evaluate back to the value
-/

set_option linter.unusedSimpArgs false

namespace Pip
open Parse (escaped interp escTok)
variable {X : Ext}

/-! ### Evaluation of the parts -/

theorem evals_lit {t : Tok} (h1 : t.kind ≠ .name) (h2 : t.isLiteral = true) (s : St X) :
    Evals (.tok t) s (.ok (.v (literal t)), s) :=
  evals_iff.2 (by
    have : ∀ R : Rec X, evalTree R (.tok t) = pure (.v (literal t)) := fun R => by
      simp only [evalTree, if_neg h1, h2, if_true]
    simp only [this]
    exact runs_pure.2 rfl)

theorem vals_of_evals {t : Tree} {s s' : St X} {v : Val} (h : Evals t s (.ok (.v v), s')) : Vals t s (.ok v, s') :=
  (HasVal.of_evals h).vals

theorem evals_paren {t : Tree} {s : St X} {o : Outcome X Res} (h : Evals t s o) : Evals (.node parenOp [t]) s o :=
  evals_node.2 (by
    have : ∀ R : Rec X, evalNode R parenOp [t] = R.ev t := fun R => rfl
    simp only [this]
    exact h)

/-- Expressions with the given values that leave the state alone -/
inductive EachVal (s : St X) : List Tree → List Val → Prop
  | nil : EachVal s [] []
  | cons {t v ts vs} : Evals t s (.ok (.v v), s) → EachVal s ts vs → EachVal s (t :: ts) (v :: vs)

theorem runs_evals {s : St X} {ts : List Tree} {vs : List Val} (h : EachVal s ts vs) :
    Runs (fun R => evals R ts) s (.ok (vs.map .val), s) := by
  induction h with
  | nil => exact runs_pure.2 rfl
  | cons h _ ih =>
    simp only [evals]
    refine (runs_bind_of h).2 ?_
    simp only [resTree]
    refine (runs_bind_of ih).2 ?_
    exact runs_pure.2 rfl

theorem opLIST_vals (vs : List Val) (s : St X) : opLIST (vs.map .val) s = (.ok (.v (.list vs)), s) := by
  have hm : ∀ (vs : List Val), mapL argVal (vs.map .val) s = (.ok vs, s) := by
    intro vs
    induction vs with
    | nil => rfl
    | cons v vs ih =>
      simp only [List.map_cons, mapL]
      rw [M.bind_ok (show argVal (.val v) s = (.ok v, s) from rfl), M.bind_ok ih]; rfl
  cases vs with
  | nil => rfl
  | cons v vs =>
    have := hm (v :: vs)
    simp only [List.map_cons] at this ⊢
    simp only [opLIST, allLvals]
    rw [M.bind_ok this]; rfl

theorem evals_list {s : St X} {ts : List Tree} {vs : List Val} (h : EachVal s ts vs) :
    Evals (.node enlistOp ts) s (.ok (.v (.list vs)), s) := by
  have h2 : Runs (fun R => do
      let l ← evals R ts
      M.dieType (expandOrCall R enlistOp l)) s (.ok (.v (.list vs)), s) := by
    refine (runs_bind_of (f := fun l R => M.dieType (expandOrCall R enlistOp l)) (runs_evals h)).2 ?_
    refine runs_of ok_ne_fuel 0 0 fun m _ => ?_
    apply M.dieType_ok
    rw [expandOrCall_onlyVals _ enlistOp_onlyVals]
    exact opLIST_vals vs s
  exact (runs_shift fun m => by rw [ev_onlyVals enlistOp_onlyVals]).2 h2

/-- Operators on Scalars and nil -/
theorem evals_flat {o : Op} (h : o.Rvals) (hr : isRaw o.fn = false) (he : isEffect o.fn = false) {ts : List Tree}
    (ht : ∀ t ∈ ts, t.notOpr = true) {vs : List Val} {s s1 : St X} (hv : MapEach Vals ts s (.ok vs, s1))
    (hf : ∀ v ∈ vs, v.isScalar = true ∨ v = .nil) {v : Val} (hp : pureOp X o.fn vs = .ok (some v)) :
    Evals (.node o ts) s (.ok (.v v), s1) := by
  refine (evals_direct h hr ht hv (fun _ v hv => ?_) fun v hv => ?_).2 ⟨(.ok (.v v), s1), ?_, rfl⟩
  · rcases hf v hv with h | rfl
    · cases v <;> first | rfl | cases h
    · rfl
  · rcases hf v hv with h | rfl
    · cases v <;> first | (simp [expands, Val.isRange, Val.isList]; done) | cases h
    · simp [expands, Val.isRange, Val.isList]
  · simp only [valOp_pure _ _ he, hp]
    exact runs_pure.2 rfl

theorem negOp_rvals : negOp.Rvals := by constructor <;> decide +kernel
theorem commaOp_rvals : commaOp.Rvals := by constructor <;> decide +kernel
theorem strOp_rvals : Parse.strOp.Rvals := by constructor <;> decide +kernel
theorem joinOp_rvals : Parse.joinOp.Rvals := by constructor <;> decide +kernel
theorem negOp_fn : negOp.fn = .NEG := by decide +kernel
theorem commaOp_fn : commaOp.fn = .RANGE := by decide +kernel
theorem strOp_fn : Parse.strOp.fn = .STR := by decide +kernel
theorem joinOp_fn : Parse.joinOp.fn = .JOIN := by decide +kernel

theorem evals_num (r : Str) (s : St X) : Evals (.tok ⟨.num, r⟩) s (.ok (.v (.scalar r)), s) :=
  evals_lit (t := ⟨.num, r⟩) (by simp) rfl s

theorem evals_neg {r : Str} {n : Num X.F} (h : nneg X (toNum X r) = .ok n) (s : St X) :
    Evals (.node negOp [.tok ⟨.num, r⟩]) s (.ok (.v (ofNum X n)), s) := by
  refine evals_flat negOp_rvals (by rw [negOp_fn]; rfl) (by rw [negOp_fn]; rfl) (by simp [Tree.notOpr])
    (mapEach_single (vals_of_evals (evals_num r s))) (by simp [Val.isScalar]) ?_
  rw [negOp_fn]
  show (do return some (← opNEG X (.scalar r))) = _
  simp only [opNEG, h]
  rfl

/-- A bound of a Range -/
def boundVal : Option Int → Val
  | some i => ofInt i
  | none => .nil

theorem evals_bound (b : Option Int) (s : St X) : Evals (boundTree b) s (.ok (.v (boundVal b)), s) := by
  cases b with
  | none => exact evals_lit (t := ⟨.nil, s% "()"⟩) (by simp) rfl s
  | some i =>
    rcases showInt_num i with h | ⟨r, e, h⟩
    · rw [boundTree, scalarTree_num h]; exact evals_num _ s
    · rw [boundTree, e, scalarTree_neg h]
      have hr : ∃ n : Nat, r = showNat (n + 1) ∧ i = Int.negSucc n := by
        cases i with
        | ofNat n =>
          obtain ⟨c, cs, e', hc⟩ := showNat_cons n
          rw [show showInt (Int.ofNat n) = showNat n from rfl, e'] at e
          cases e; exact absurd hc (by decide)
        | negSucc n => rw [showInt_neg] at e; cases e; exact ⟨n, rfl, rfl⟩
      obtain ⟨n, rfl, rfl⟩ := hr
      have : nneg X (toNum X (showNat (n + 1))) = .ok (.int (Int.negSucc n)) := by
        have := toNum_showInt X (n + 1 : Nat)
        rw [showInt_nat] at this
        rw [this]; rfl
      exact evals_neg this s

theorem evals_range (lo hi : Option Int) (s : St X) :
    Evals (valTree (.range lo hi)) s (.ok (.v (.range lo hi)), s) := by
  rw [valTree]
  apply evals_paren
  have hn : ∀ b : Option Int, (boundTree b).notOpr = true := by
    intro b
    cases b with
    | none => rfl
    | some i =>
      rcases showInt_num i with h | ⟨r, e, h⟩
      · rw [boundTree, scalarTree_num h]; rfl
      · rw [boundTree, e, scalarTree_neg h]; rfl
  refine evals_flat commaOp_rvals (by rw [commaOp_fn]; rfl) (by rw [commaOp_fn]; rfl) (by simp [hn])
    (mapEach_two (vals_of_evals (evals_bound lo s)) (vals_of_evals (evals_bound hi s)))
    (by
      have hb : ∀ b : Option Int, (boundVal b).isScalar = true ∨ boundVal b = .nil := by
        intro b; cases b <;> simp [boundVal, ofInt, Val.isScalar]
      intro v hv
      simp at hv
      rcases hv with rfl | rfl <;> exact hb _) ?_
  rw [commaOp_fn]
  show (do return some (← opRANGE _ _)) = _
  rcases lo with _ | lo <;> rcases hi with _ | hi <;>
    simp [boundVal, ofInt, opRANGE, rangeOf, Val.isScalar, Val.isNil, toInt_showInt, bind, Except.bind, pure, Except.pure]

theorem ascOp_rvals : ascOp.Rvals := by constructor <;> decide +kernel
theorem upToOp_rvals : upToOp.Rvals := by constructor <;> decide +kernel
theorem dotOp_rvals : dotOp.Rvals := by constructor <;> decide +kernel
theorem ascOp_fn : ascOp.fn = .ASC := by decide +kernel
theorem upToOp_fn : upToOp.fn = .RANGETO := by decide +kernel
theorem dotOp_fn : dotOp.fn = .DOT := by decide +kernel

/-- A unary operator on a Pattern -/
theorem evals_toggle {o : Op} (h : o.Rvals) (hr : isRaw o.fn = false) (he : isEffect o.fn = false) {t : Tree}
    (ht : t.notOpr = true) {s : St X} {r : Str} {f : Flags} (hv : Evals t s (.ok (.v (.pattern r f)), s)) {v : Val}
    (hp : pureOp X o.fn [.pattern r f] = .ok (some v)) : Evals (.node o [t]) s (.ok (.v v), s) := by
  refine (evals_direct h hr (by simpa using ht) (mapEach_single (vals_of_evals hv)) (by simp [Val.isBlock])
    (by simp [expands, Val.isRange, Val.isList])).2 ⟨(.ok (.v v), s), ?_, rfl⟩
  simp only [valOp_pure _ _ he, hp]
  exact runs_pure.2 rfl

theorem evals_flagged {o : Op} (h : o.Rvals) (hr : isRaw o.fn = false) (he : isEffect o.fn = false) (b : Bool) {t : Tree}
    (ht : t.notOpr = true) {s : St X} {r : Str} {f g : Flags} (hv : Evals t s (.ok (.v (.pattern r f)), s))
    (hp : b = true → pureOp X o.fn [.pattern r f] = .ok (some (.pattern r g))) (hg : b = false → f = g) :
    Evals (flagged b o t) s (.ok (.v (.pattern r g)), s) ∧ (flagged b o t).notOpr = true := by
  cases b with
  | false => rw [← hg rfl]; exact ⟨hv, ht⟩
  | true => exact ⟨evals_toggle h hr he ht hv (hp rfl), rfl⟩

theorem evals_pattern (r : Str) (f : Flags) (s : St X) : Evals (patTree r f) s (.ok (.v (.pattern r f)), s) := by
  have h0 : Evals (X := X) (.tok ⟨.pat, patText r⟩) s (.ok (.v (.pattern r {})), s) := by
    have := evals_lit (X := X) (t := ⟨.pat, patText r⟩) (by simp) rfl s
    simpa only [literal, patText, List.drop_succ_cons, List.drop_zero, List.dropLast_concat, untick] using this
  obtain ⟨a, i, m, d⟩ := f
  obtain ⟨h1, n1⟩ := evals_flagged (g := ⟨false, false, false, d⟩) dotOp_rvals (by rw [dotOp_fn]; rfl)
    (by rw [dotOp_fn]; rfl) d (by rfl) h0 (by rintro rfl; rw [dotOp_fn]; rfl) (by rintro rfl; rfl)
  obtain ⟨h2, n2⟩ := evals_flagged (g := ⟨false, false, m, d⟩) upToOp_rvals (by rw [upToOp_fn]; rfl)
    (by rw [upToOp_fn]; rfl) m n1 h1 (by rintro rfl; rw [upToOp_fn]; rfl) (by rintro rfl; rfl)
  obtain ⟨h3, n3⟩ := evals_flagged (g := ⟨false, i, m, d⟩) negOp_rvals (by rw [negOp_fn]; rfl)
    (by rw [negOp_fn]; rfl) i n2 h2 (by rintro rfl; rw [negOp_fn]; rfl) (by rintro rfl; rfl)
  exact (evals_flagged (g := ⟨a, i, m, d⟩) ascOp_rvals (by rw [ascOp_fn]; rfl)
    (by rw [ascOp_fn]; rfl) a n3 h3 (by rintro rfl; rw [ascOp_fn]; rfl) (by rintro rfl; rfl)).1

theorem mixed_of_quote {s : Str} (h : ¬Mixed s) (hq : '"' ∈ s) : ∀ a c b, s = a ++ '\\' :: c :: b → isNameStart c = false := by
  intro a c b e
  rw [Bool.eq_false_iff]
  intro hc
  exact h ⟨hq, a, c, b, e, hc⟩

theorem esc_raw (t : Str) : ((s% "\\\"" ++ t ++ s% "\\\"").drop 2).take ((s% "\\\"" ++ t ++ s% "\\\"").length - 4) = t := by
  simp

theorem scalarTree_text {s : Str} (h1 : ¬NegLit s) (h2 : ¬Mixed s) : ∃ t : Tok, scalarTree s = .tok t ∧ t.kind ≠ .name ∧
    t.isLiteral = true ∧ literal t = .scalar s := by
  by_cases hn : NumLit s
  · exact ⟨_, scalarTree_num hn, by simp, rfl, rfl⟩
  · have hw : ¬wholeNum s = true := fun h => by
      rcases (wholeNum_iff s).1 h with h | h
      · exact hn h
      · exact h1 h
    unfold scalarTree
    rw [if_neg hw]
    by_cases hq : s.elem '"' = true
    · rw [if_pos hq]
      have hq' : '"' ∈ s := by simpa using hq
      refine ⟨⟨.esc, s% "\\\"" ++ dbl s ++ s% "\\\""⟩, ?_, by simp, rfl, ?_⟩
      · unfold escaped
        simp only
        rw [esc_raw, interp_dbl s.length s _ (Nat.le_refl _) (Nat.le_refl _),
          interp_plain _ _ (Nat.le_refl _) (mixed_of_quote h2 hq')]
        rfl
      · simp only [literal]
        rw [esc_raw]
        have := undbl s [] (.inl rfl)
        rw [List.append_nil, List.append_nil] at this
        rw [this]
    · rw [if_neg hq]
      refine ⟨_, rfl, by simp, rfl, ?_⟩
      simp [literal]

/-- Evaluating the tree of a canonical text -/
theorem evals_reads {v w : Val} (h : ReadsBack X v w) (s : St X) : Evals (valTree v) s (.ok (.v w), s) ∧
    ∀ l m, v = .list l → w = .list m → EachVal s (valTrees l) m := by
  induction h with
  | text h1 h2 =>
    refine ⟨?_, by rintro l m ⟨⟩⟩
    obtain ⟨t, e1, e2, e3, e4⟩ := scalarTree_text h1 h2
    rw [valTree, e1, ← e4]
    exact evals_lit e2 e3 s
  | neg h1 h2 =>
    refine ⟨?_, by rintro l m ⟨⟩⟩
    rw [valTree, scalarTree_neg h1]
    exact evals_neg h2 s
  | pattern f _ => exact ⟨by rw [valTree]; exact evals_pattern _ f s, by rintro l m ⟨⟩⟩
  | range lo hi => exact ⟨evals_range lo hi s, by rintro l m ⟨⟩⟩
  | nil =>
    refine ⟨?_, by rintro l m ⟨⟩⟩
    simp only [valTree]
    exact evals_lit (t := ⟨.nil, s% "()"⟩) (by simp) rfl s
  | empty =>
    have h : EachVal s (valTrees []) [] := by rw [valTrees]; exact .nil
    refine ⟨by rw [valTree]; exact evals_list h, ?_⟩
    rintro l m ⟨⟩ ⟨⟩; exact h
  | @item v w l m _ _ ih1 ih2 =>
    have h : EachVal s (valTrees (v :: l)) (w :: m) := by rw [valTrees]; exact .cons ih1.1 (ih2.2 l m rfl rfl)
    refine ⟨by rw [valTree]; exact evals_list h, ?_⟩
    rintro l m ⟨⟩ ⟨⟩; exact h

/-! ### Evaluating the text -/

theorem runs_compiled {c : Str} {t : Tree} (hc : compile c = .ok (.block [] t)) {s : St X} {o : Outcome X Res} (h : Evals t s o) :
    Runs (fun R => opEVAL1 R (.scalar c)) s o := by
  have : ∀ R : Rec X, opEVAL1 R (.scalar c) s = R.ev t s := by
    intro R
    unfold opEVAL1
    simp only
    rw [M.bind_ok (show M.lift (compile c) s = (.ok (.block [] t), s) by rw [hc]; rfl)]
    show (execAll R [] >>= fun _ => R.ev t) s = _
    rw [M.bind_ok (show execAll R [] s = (.ok (), s) from rfl)]
  obtain ⟨ho, n, hn⟩ := h
  exact ⟨ho, n, fun m hm => (this _).trans (hn m hm)⟩

/-- `V RP e` -/
def rereadTree (e : Tree) : Tree := .node (op1 (s% "V")) [.node (op1 (s% "RP")) [e]]

theorem vOp_direct : (op1 (s% "V")).Direct := by decide
theorem rpOp_direct : (op1 (s% "RP")).Direct := by decide

theorem evals_reread {e : Tree} (hn : e.notOpr = true) {s s' : St X} {v w : Val} (he : Vals e s (.ok v, s')) (hd : Data v) {s2 : St X}
    (h : Evals (valTree v) s' (.ok (.v w), s2)) : Evals (rereadTree e) s (.ok (.v w), s2) := by
  have h1 : Evals (.node (op1 (s% "RP")) [e]) s (.ok (.v (.scalar v.repr)), s') := by
    refine (rpOp_direct.evals (by simpa using hn) (mapEach_single he)).2 ⟨(.ok (.v (.scalar v.repr)), s'), ?_, rfl⟩
    rw [show (op1 (s% "RP")).fn = .REPR by decide +kernel]
    simp only [valOp_pure _ _ (show isEffect .REPR = false from rfl)]
    exact runs_pure.2 rfl
  refine (vOp_direct.evals (by simp [Tree.notOpr]) (mapEach_single (vals_of_evals h1))).2
    ⟨(.ok (.v w), s2), ?_, rfl⟩
  rw [show (op1 (s% "V")).fn = .EVAL by decide +kernel]
  exact runs_compiled (compile_repr hd) h

/-! ### The property -/

/-- Evaluating the text that RP makes of a data value gives the value that the text is read back as, and changes
nothing. -/
theorem C17_reads {e : Tree} (hn : e.notOpr = true) {s s' : St X} {v w : Val} (he : Vals e s (.ok v, s')) (h : ReadsBack X v w) :
    Evals (rereadTree e) s (.ok (.v w), s') :=
  evals_reread hn he (data_reads h) (evals_reads h s').1

theorem toNum_digits {r : Str} (h : Digits r) : toNum X r = .int (toInt r) := by
  have hl : lstrip r = r := by
    unfold lstrip
    cases r with
    | nil => rfl
    | cons c r => rw [List.dropWhile_cons, isDigit_space (h.2 c (by simp))]; rfl
  unfold toNum toInt
  have hno : ∀ c, isDigit c = false → c ∉ r := fun c hc hm => by rw [h.2 c hm] at hc; cases hc
  rw [hl, match_pyFloat_none (hno _ (by decide)) (hno _ (by decide)), match_int_digits h.1 h.2]

theorem toInt_minus {r : Str} (h : Digits r) : toInt ('-' :: r) = -toInt r := by
  have hl : lstrip r = r := by
    unfold lstrip
    cases r with
    | nil => rfl
    | cons c r => rw [List.dropWhile_cons, isDigit_space (h.2 c (by simp))]; rfl
  have hl2 : lstrip ('-' :: r) = '-' :: r := rfl
  unfold toInt
  rw [hl, hl2, match_int_digits h.1 h.2, match_int_neg h.1 h.2]
  show -(parseNat r : Int) = -parseInt r
  obtain ⟨c, cs, rfl⟩ : ∃ c cs, r = c :: cs := by
    cases r with
    | nil => exact absurd rfl h.1
    | cons c cs => exact ⟨c, cs, rfl⟩
  have hc := h.2 c (by simp)
  unfold parseInt
  split
  · rename_i heq; cases heq; exact absurd hc (by decide)
  · rfl

/-- A signed whole number is read back as the canonical text of its value: `-0` as `0`, `-007` as `-7`. -/
theorem C17_negative {e : Tree} (hn : e.notOpr = true) {s s' : St X} {r : Str} (hr : Digits r)
    (he : Vals e s (.ok (.scalar ('-' :: r)), s')) :
    Evals (rereadTree e) s (.ok (.v (ofInt (toInt ('-' :: r)))), s') := by
  refine C17_reads hn he ?_
  have h : nneg X (toNum X r) = .ok (.int (toInt ('-' :: r))) := by rw [toNum_digits hr, toInt_minus hr]; rfl
  exact ReadsBack.neg (.inl hr) h

theorem showInt_reads (i : Int) : ReadsBack X (.scalar (showInt i)) (.scalar (showInt i)) := by
  cases i with
  | ofNat n =>
    have hd : Digits (showNat n) := ⟨showNat_ne n, showNat_all n⟩
    refine .text ?_ ?_
    · rintro ⟨r, e, _⟩
      have := hd.2 '-' (by rw [show showInt (Int.ofNat n) = showNat n from rfl] at e; rw [e]; simp)
      exact absurd this (by decide)
    · rintro ⟨hq, _⟩
      exact absurd (hd.2 _ hq) (by decide)
  | negSucc n =>
    have hd : Digits (showNat (n + 1)) := ⟨showNat_ne _, showNat_all _⟩
    have h : nneg X (toNum X (showNat (n + 1))) = .ok (.int (Int.negSucc n)) := by
      have := toNum_showInt X (n + 1 : Nat)
      rw [showInt_nat] at this
      rw [this]; rfl
    exact ReadsBack.neg (.inl hd) h

theorem reads_self {v : Val} (hd : Data v) (hs : ∀ t, Within t v → ¬Mixed t ∧ (NegLit t → ∃ i, t = showInt i)) :
    ReadsBack X v v := by
  induction hd with
  | scalar t =>
    obtain ⟨h1, h2⟩ := hs t .self
    by_cases h : NegLit t
    · obtain ⟨i, rfl⟩ := h2 h
      exact showInt_reads i
    · exact .text h h1
  | pattern f h => exact .pattern f h
  | range lo hi => exact .range lo hi
  | nil => exact .nil
  | list l _ ih =>
    have : ∀ l : List Val, (∀ v ∈ l, ReadsBack X v v) → ReadsBack X (.list l) (.list l) := by
      intro l
      induction l with
      | nil => intro _; exact .empty
      | cons v l ih => intro h; exact .item (h v (by simp)) (ih fun w hw => h w (by simp [hw]))
    exact this l fun v hv => ih v hv fun t ht => hs t (.item hv ht)

/-- **C17**: data of any nesting evaluates back to itself, if no Scalar in it mixes quotes with backslashes before
letters and the signed numbers in it are canonical whole numbers. -/
theorem C17_roundtrip {e : Tree} (hn : e.notOpr = true) {s s' : St X} {v : Val} (he : Vals e s (.ok v, s')) (hd : Data v)
    (hs : ∀ t, Within t v → ¬Mixed t ∧ (NegLit t → ∃ i, t = showInt i)) : Evals (rereadTree e) s (.ok (.v v), s') :=
  C17_reads hn he (reads_self hd hs)

/-- A Pattern comes back with its regex and all its flags, if the regex can be quoted. -/
theorem C17_pattern {e : Tree} (hn : e.notOpr = true) {s s' : St X} {r : Str} (f : Flags)
    (he : Vals e s (.ok (.pattern r f), s')) (hr : Quotable r) : Evals (rereadTree e) s (.ok (.v (.pattern r f)), s') :=
  C17_reads hn he (.pattern f hr)

/-- The Pattern ``A-,.`\d\`` `` with a backtick at the end -/
example (s : St X) : Evals (rereadTree (.val (.pattern (s% "\\d`") ⟨true, true, true, true⟩))) s
    (.ok (.v (.pattern (s% "\\d`") ⟨true, true, true, true⟩)), s) :=
  C17_pattern rfl _ (HasVal.val _ s).vals (.pair (by decide) (by decide) (.plain (by decide) .nil))

/-- Other Patterns need not come back: the text of a single backslash is an unfinished literal, and evaluating it
ends the program. (`'\.```` ` makes such a Pattern.) -/
theorem C17_unquotable {e : Tree} (hn : e.notOpr = true) {s s' : St X} (f : Flags)
    (he : Vals e s (.ok (.pattern (s% "\\") f), s')) : Evals (rereadTree e) s (.error .fatal, s') := by
  have h1 : Evals (.node (op1 (s% "RP")) [e]) s (.ok (.v (.scalar (Val.pattern (s% "\\") f).repr)), s') := by
    refine (rpOp_direct.evals (by simpa using hn) (mapEach_single he)).2 ⟨(.ok (.v (.scalar _)), s'), ?_, rfl⟩
    rw [show (op1 (s% "RP")).fn = .REPR by decide +kernel]
    simp only [valOp_pure _ _ (show isEffect .REPR = false from rfl)]
    exact runs_pure.2 rfl
  refine (vOp_direct.evals (by simp [Tree.notOpr]) (mapEach_single (vals_of_evals h1))).2
    ⟨(.error .fatal, s'), ?_, rfl⟩
  rw [show (op1 (s% "V")).fn = .EVAL by decide +kernel]
  have hc : compile (Val.pattern (s% "\\") f).repr = .error .fatal := by
    obtain ⟨a, i, m, d⟩ := f
    simp only [Val.repr]
    cases a <;> cases i <;> cases m <;> cases d <;> decide +kernel
  refine runs_of (by simp) 0 0 fun m _ => ?_
  show opEVAL1 _ (.scalar _) s' = _
  unfold opEVAL1
  simp only
  rw [hc]; rfl

/-- `[1;"a b";[(2,());-3;"say \\"hi\\""]]` -/
def sampleData : Val := .list [.scalar (s% "1"), .scalar (s% "a b"),
  .list [.range (some 2) none, .scalar (s% "-3"), .scalar (s% "say \"hi\""), .nil]]

theorem sampleData_scalars {t : Str} (h : Within t sampleData) :
    t ∈ [s% "1", s% "a b", s% "-3", s% "say \"hi\""] := by
  rcases h with _ | ⟨hv, h⟩
  simp at hv
  rcases hv with rfl | rfl | rfl
  · cases h; simp
  · cases h; simp
  · rcases h with _ | ⟨hv, h⟩
    simp at hv
    rcases hv with rfl | rfl | rfl | rfl <;> cases h <;> simp

theorem not_mixed {t : Str} (h : '\\' ∉ t) : ¬Mixed t := by
  rintro ⟨_, a, c, b, rfl, _⟩; simp at h

example (s : St X) : Evals (rereadTree (.val sampleData)) s (.ok (.v sampleData), s) := by
  refine C17_roundtrip rfl (HasVal.val _ s).vals ?_ ?_
  · refine .list _ fun v hv => ?_
    simp at hv
    rcases hv with rfl | rfl | rfl
    · exact .scalar _
    · exact .scalar _
    · refine .list _ fun v hv => ?_
      simp at hv
      rcases hv with rfl | rfl | rfl | rfl
      · exact .range _ _
      · exact .scalar _
      · exact .scalar _
      · exact .nil
  · intro t ht
    have := sampleData_scalars ht
    simp at this
    rcases this with rfl | rfl | rfl | rfl
    · exact ⟨not_mixed (by decide), fun _ => ⟨1, by decide⟩⟩
    · exact ⟨not_mixed (by decide), by rintro ⟨r, e, _⟩; simp at e⟩
    · exact ⟨not_mixed (by decide), fun _ => ⟨-3, by decide⟩⟩
    · exact ⟨not_mixed (by decide), by rintro ⟨r, e, _⟩; simp at e⟩

/-- `-0` becomes `0`. -/
example (s : St X) : Evals (rereadTree (.val (.scalar (s% "-0")))) s (.ok (.v (.scalar (s% "0"))), s) :=
  C17_negative (r := s% "0") rfl ⟨by simp, by decide⟩ (HasVal.val _ s).vals

theorem reads_some {v : Val} (hd : Data v) (hs : ∀ t, Within t v → ¬Mixed t)
    (hneg : ∀ r, Within ('-' :: r) v → NumLit r → ∃ n, nneg X (toNum X r) = .ok n) : ∃ w, ReadsBack X v w := by
  induction hd with
  | scalar t =>
    by_cases h : NegLit t
    · obtain ⟨r, rfl, hr⟩ := h
      obtain ⟨n, hn⟩ := hneg r .self hr
      exact ⟨_, .neg hr hn⟩
    · exact ⟨_, .text h (hs t .self)⟩
  | pattern f h => exact ⟨_, .pattern f h⟩
  | range lo hi => exact ⟨_, .range lo hi⟩
  | nil => exact ⟨_, .nil⟩
  | list l _ ih =>
    have : ∀ l : List Val, (∀ v ∈ l, ∃ w, ReadsBack X v w) → ∃ m, ReadsBack X (.list l) (.list m) := by
      intro l
      induction l with
      | nil => intro _; exact ⟨_, .empty⟩
      | cons v l ih =>
        intro h
        obtain ⟨w, hw⟩ := h v (by simp)
        obtain ⟨m, hm⟩ := ih fun w hw => h w (by simp [hw])
        exact ⟨_, .item hw hm⟩
    obtain ⟨m, hm⟩ := this l fun v hv => ih v hv (fun t ht => hs t (.item hv ht)) fun r hr => hneg r (.item hv hr)
    exact ⟨_, hm⟩

/-- Without mixed texts, the value comes back exactly if every signed number in it prints like its own negation's
negation. -/
theorem C17_exact {e : Tree} (hn : e.notOpr = true) {s s' : St X} {v : Val} (he : Vals e s (.ok v, s')) (hd : Data v)
    (hs : ∀ t, Within t v → ¬Mixed t) (hneg : ∀ r, Within ('-' :: r) v → NumLit r → ∃ n, nneg X (toNum X r) = .ok n) :
    Evals (rereadTree e) s (.ok (.v v), s') ↔ ReadsBack X v v := by
  constructor
  · intro h
    obtain ⟨w, hw⟩ := reads_some (X := X) hd hs hneg
    have := Runs.det h (C17_reads hn he hw)
    simp only [Prod.mk.injEq, Except.ok.injEq, Res.v.injEq, and_true] at this
    rw [← this] at hw; exact hw
  · exact C17_reads hn he

/-! ### Interpolated texts -/

theorem evals_escTok (l : Str) (s : St X) : Evals (escTok l) s (.ok (.v (.scalar (replaceStr (s% "\\\\") (s% "\\") l))), s) := by
  have := evals_lit (X := X) (t := ⟨.esc, s% "\\\"" ++ l ++ s% "\\\""⟩) (by simp) rfl s
  simp only [literal, esc_raw] at this
  exact this

theorem evals_strName {n : Str} (h : PlainVar n) (s : St X) :
    Evals (.node Parse.strOp [.tok ⟨.name, n⟩]) s (.ok (.v (.scalar ((s.read n).str X.fmt))), s) := by
  have hd : Parse.strOp.Direct := by decide
  refine (hd.evals (by simp [Tree.notOpr, var]) (mapEach_single (HasVal.var h s).vals)).2
    ⟨(.ok (.v (.scalar ((s.read n).str X.fmt))), s), ?_, rfl⟩
  rw [strOp_fn]
  simp only [valOp_pure _ _ (show isEffect .STR = false from rfl)]
  exact runs_pure.2 rfl

theorem unlit (l : Str) (ps : List (Str × Str)) :
    replaceStr (s% "\\\\") (s% "\\") (lastLit l ps) = l ++ (if ps = [] then [] else s% "\\") := by
  unfold lastLit
  apply undbl
  split <;> simp

/-- The values of the pieces of a text -/
def pieceVals (g : Str → Str) : List (Str × Str) → List Val
  | [] => []
  | (n, l) :: ps => .scalar (g n) :: .scalar (l ++ (if ps = [] then [] else s% "\\")) :: pieceVals g ps

theorem eachVal_pieces (s : St X) : ∀ ps : List (Str × Str), (∀ p ∈ ps, PlainVar p.1) →
    EachVal s ((dblPairs ps).flatMap fun p => [.node Parse.strOp [.tok ⟨.name, p.1⟩], escTok p.2])
      (pieceVals (fun n => (s.read n).str X.fmt) ps)
  | [], _ => .nil
  | (n, l) :: ps, h => by
    simp only [dblPairs, List.flatMap_cons, pieceVals, List.cons_append, List.nil_append]
    refine .cons (evals_strName (h (n, l) (by simp)) s) (.cons ?_ (eachVal_pieces s ps fun p hp => h p (by simp [hp])))
    have := evals_escTok (X := X) (lastLit l ps) s
    rw [unlit] at this
    exact this

theorem joinItems_pieces (g : Str → Str) : ∀ (ps : List (Str × Str)) (a : Str),
    joinItems none (pieceVals g ps) (some (.scalar (a ++ (if ps = [] then [] else s% "\\")))) =
      .ok (some (.scalar (a ++ glue g ps)))
  | [], a => by simp [pieceVals, joinItems, glue]
  | (n, l) :: ps, a => by
    simp only [pieceVals, joinItems, joinList, bind, Except.bind, joinStep, cat, List.cons_ne_nil, if_false]
    have := joinItems_pieces g ps (a ++ s% "\\" ++ g n ++ l)
    rw [← List.append_assoc, this]
    simp [glue]

/-- A text with quotes in which backslashes precede names comes back with the names replaced by the values of these
variables. -/
theorem C17_interpolation {e : Tree} (hn : e.notOpr = true) {s s' : St X} {t u : Str} (he : Vals e s (.ok (.scalar t), s'))
    (hm : Mixed t) (hu : Interpolated (fun n => (s'.read n).str X.fmt) t u) :
    Evals (rereadTree e) s (.ok (.v (.scalar u)), s') := by
  refine evals_reread hn he (.scalar t) ?_
  obtain ⟨hq, a, c, b, e1, hc⟩ := hm
  obtain ⟨h1, h2⟩ := interpolated_interp hu t.length (Nat.le_refl _)
  have hw : ¬wholeNum t = true := by
    intro h
    have : ∀ r : Str, NumLit r → '"' ∉ r := by
      rintro r (⟨_, h⟩ | ⟨a, b, ⟨_, ha⟩, ⟨_, hb⟩, rfl⟩) hm
      · exact absurd (h _ hm) (by decide)
      · simp at hm
        rcases hm with hm | hm
        · exact absurd (ha _ hm) (by decide)
        · exact absurd (hb _ hm) (by decide)
    rcases (wholeNum_iff t).1 h with h | ⟨r, rfl, h⟩
    · exact this _ h hq
    · simp at hq; exact this r ‹_› hq
  have hps : (interp t.length t).2 ≠ [] := by
    rw [e1]; exact interp_some _ _ (Nat.le_refl _) hc
  have hplain : ∀ p ∈ (interp t.length t).2, PlainVar p.1 := by
    intro p hp
    obtain ⟨h1, h2, h3⟩ := h2 p hp
    exact ⟨h1, h2, by rintro ⟨h, _⟩; omega⟩
  rw [valTree]
  unfold scalarTree
  rw [if_neg hw, if_pos (by simpa using hq)]
  unfold escaped
  simp only
  rw [esc_raw, interp_dbl t.length t _ (Nat.le_refl _) (Nat.le_refl _)]
  generalize interp t.length t = q at h1 hps hplain
  obtain ⟨l, ps⟩ := q
  simp only at h1 hps hplain
  have hd : dblPairs ps ≠ [] := by
    cases ps with
    | nil => exact absurd rfl hps
    | cons p ps => simp [dblPairs]
  have hl : EachVal s' (escTok (lastLit l ps) :: (dblPairs ps).flatMap fun p => [.node Parse.strOp [.tok ⟨.name, p.1⟩], escTok p.2])
      (.scalar (l ++ (if ps = [] then [] else s% "\\")) :: pieceVals (fun n => (s'.read n).str X.fmt) ps) := by
    refine .cons ?_ (eachVal_pieces s' ps hplain)
    have := evals_escTok (X := X) (lastLit l ps) s'
    rw [unlit] at this
    exact this
  have hj : Evals (.node Parse.joinOp [.node enlistOp (escTok (lastLit l ps) :: (dblPairs ps).flatMap fun p =>
      [.node Parse.strOp [.tok ⟨.name, p.1⟩], escTok p.2])]) s' (.ok (.v (.scalar u)), s') := by
    refine (evals_direct joinOp_rvals (by rw [joinOp_fn]; rfl) (by simp [Tree.notOpr])
      (mapEach_single (vals_of_evals (evals_list hl))) (by simp [Val.isBlock])
      (by intro v hv; simp [expands, show Parse.joinOp.listEach = false by decide, show Parse.joinOp.rangeEach = false by decide])).2 ⟨(.ok (.v (.scalar u)), s'), ?_, rfl⟩
    rw [joinOp_fn]
    simp only [valOp_pure _ _ (show isEffect .JOIN = false from rfl)]
    have : pureOp X .JOIN [.list (.scalar (l ++ (if ps = [] then [] else s% "\\")) :: pieceVals (fun n => (s'.read n).str X.fmt) ps)] =
        .ok (some (.scalar u)) := by
      show (do return some (← opJOIN _ none)) = _
      simp only [opJOIN, join1, Option.any_none, Bool.false_eq_true, if_false, joinList, joinItems, joinStep, bind, Except.bind]
      rw [joinItems_pieces, ← h1]
      rfl
    rw [this]
    exact runs_pure.2 rfl
  split
  · rename_i heq; simp at heq; exact absurd heq.2 hd
  · rename_i heq
    simp only [Prod.mk.injEq] at heq
    obtain ⟨rfl, rfl⟩ := heq
    exact evals_paren hj

/-- The text `"\a` with `a` holding 5 -/
example (s : St X) (h : s.read (s% "a") = .scalar (s% "5")) :
    Evals (rereadTree (.val (.scalar (s% "\"\\a")))) s (.ok (.v (.scalar (s% "\"\\5"))), s) := by
  refine C17_interpolation rfl (HasVal.val _ s).vals ⟨by simp, s% "\"", 'a', [], rfl, by decide⟩ ?_
  refine .other (by simp) ?_
  have : s% "\\5" = '\\' :: (((s.read (s% "a")).str X.fmt) ++ []) := by rw [h]; simp [Val.str]
  rw [this]
  exact .name (n := s% "a") (.inl ⟨'a', rfl, .inl (by decide)⟩) (by simp) (by simp) .nil

end Pip
