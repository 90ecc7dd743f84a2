import Verif.Lemmas.Compare
/-!
# Properties of comparisons

C54 extrema, C55 numeric comparisons, C56 string comparisons.
-/

namespace Pip

/-! ### C54 -/

/-- A text that is read as an integer. -/
def IntText (X : Ext) (s : Str) : Prop := toNum X s = .int (toInt s)

theorem intText_showInt (X : Ext) (i : Int) : IntText X (showInt i) := by
  unfold IntText; rw [toNum_showInt, toInt_showInt]

theorem maxLoop_spec (X : Ext) : ∀ (l : List Str) (m : Str), IntText X m → (∀ s ∈ l, IntText X s) →
    ∃ pre r post, m :: l = pre ++ r :: post ∧ maxLoop X (.scalar m) (l.map .scalar) = some (.scalar r) ∧
      (∀ x ∈ pre, toInt x < toInt r) ∧ ∀ x ∈ post, toInt x ≤ toInt r := by
  intro l
  induction l with
  | nil => intro m _ _; exact ⟨[], m, [], rfl, rfl, by simp, by simp⟩
  | cons s l ih =>
    intro m hm hl
    have hs := hl s (by simp)
    unfold IntText at hm hs
    simp only [List.map_cons, maxLoop, Val.key, keyLt, hm, hs, nlt]
    by_cases h : toInt m < toInt s
    · obtain ⟨pre, r, post, e, h1, h2, h3⟩ := ih s (hl s (by simp)) fun x hx => hl x (by simp [hx])
      refine ⟨m :: pre, r, post, by rw [e]; rfl, ?_, ?_, h3⟩
      · simp only [h, decide_true, h1]
      · intro x hx
        rcases List.mem_cons.1 hx with rfl | hx
        · cases pre with
          | nil => simp only [List.nil_append, List.cons.injEq] at e; rw [← e.1]; exact h
          | cons p pre =>
            simp only [List.cons_append, List.cons.injEq] at e
            have := h2 p (by simp)
            rw [← e.1] at this; omega
        · exact h2 x hx
    · obtain ⟨pre, r, post, e, h1, h2, h3⟩ := ih m hm fun x hx => hl x (by simp [hx])
      cases pre with
      | nil =>
        simp only [List.nil_append, List.cons.injEq] at e
        obtain ⟨rfl, rfl⟩ := e
        refine ⟨[], m, s :: l, rfl, by simp only [h, decide_false, h1], by simp, ?_⟩
        intro x hx
        rcases List.mem_cons.1 hx with rfl | hx
        · omega
        · exact h3 x hx
      | cons p pre =>
        simp only [List.cons_append, List.cons.injEq] at e
        obtain ⟨rfl, rfl⟩ := e
        refine ⟨m :: s :: pre, r, post, rfl, by simp only [h, decide_false, h1], ?_, h3⟩
        have := h2 m (by simp)
        intro x hx
        simp only [List.mem_cons] at hx
        rcases hx with rfl | rfl | hx
        · exact this
        · omega
        · exact h2 x (by simp [hx])

theorem minLoop_spec (X : Ext) : ∀ (l : List Str) (m : Str), IntText X m → (∀ s ∈ l, IntText X s) →
    ∃ pre r post, m :: l = pre ++ r :: post ∧ minLoop X (.scalar m) (l.map .scalar) = some (.scalar r) ∧
      (∀ x ∈ pre, toInt r < toInt x) ∧ ∀ x ∈ post, toInt r ≤ toInt x := by
  intro l
  induction l with
  | nil => intro m _ _; exact ⟨[], m, [], rfl, rfl, by simp, by simp⟩
  | cons s l ih =>
    intro m hm hl
    have hs := hl s (by simp)
    unfold IntText at hm hs
    simp only [List.map_cons, minLoop, Val.key, keyLt, hm, hs, nlt]
    by_cases h : toInt s < toInt m
    · obtain ⟨pre, r, post, e, h1, h2, h3⟩ := ih s (hl s (by simp)) fun x hx => hl x (by simp [hx])
      refine ⟨m :: pre, r, post, by rw [e]; rfl, ?_, ?_, h3⟩
      · simp only [h, decide_true, h1]
      · intro x hx
        rcases List.mem_cons.1 hx with rfl | hx
        · cases pre with
          | nil => simp only [List.nil_append, List.cons.injEq] at e; rw [← e.1]; exact h
          | cons p pre =>
            simp only [List.cons_append, List.cons.injEq] at e
            have := h2 p (by simp)
            rw [← e.1] at this; omega
        · exact h2 x hx
    · obtain ⟨pre, r, post, e, h1, h2, h3⟩ := ih m hm fun x hx => hl x (by simp [hx])
      cases pre with
      | nil =>
        simp only [List.nil_append, List.cons.injEq] at e
        obtain ⟨rfl, rfl⟩ := e
        refine ⟨[], m, s :: l, rfl, by simp only [h, decide_false, h1], by simp, ?_⟩
        intro x hx
        rcases List.mem_cons.1 hx with rfl | hx
        · omega
        · exact h3 x hx
      | cons p pre =>
        simp only [List.cons_append, List.cons.injEq] at e
        obtain ⟨rfl, rfl⟩ := e
        refine ⟨m :: s :: pre, r, post, rfl, by simp only [h, decide_false, h1], ?_, h3⟩
        have := h2 m (by simp)
        intro x hx
        simp only [List.mem_cons] at hx
        rcases hx with rfl | rfl | hx
        · exact this
        · omega
        · exact h2 x (by simp [hx])

/-- `MX` of a non-empty list of integer texts is its first item of greatest value: all items before it are less, none
after it is greater. -/
theorem C54_max (X : Ext) (l : List Str) (hl : l ≠ []) (h : ∀ s ∈ l, IntText X s) :
    ∃ pre m post, l = pre ++ m :: post ∧ opMAX X (.list (l.map .scalar)) = .ok (.scalar m) ∧
      (∀ x ∈ pre, toInt x < toInt m) ∧ ∀ x ∈ post, toInt x ≤ toInt m := by
  cases l with
  | nil => exact absurd rfl hl
  | cons m l =>
    obtain ⟨pre, r, post, e, h1, h2, h3⟩ := maxLoop_spec X l m (h m (by simp)) fun s hs => h s (by simp [hs])
    refine ⟨pre, r, post, e, ?_, h2, h3⟩
    simp only [opMAX, extremum, Val.isIterable, if_true, Val.items, Val.iter, List.map_cons, bind, Except.bind, h1]
    rfl

/-- `MN` likewise gives the first item of least value. -/
theorem C54_min (X : Ext) (l : List Str) (hl : l ≠ []) (h : ∀ s ∈ l, IntText X s) :
    ∃ pre m post, l = pre ++ m :: post ∧ opMIN X (.list (l.map .scalar)) = .ok (.scalar m) ∧
      (∀ x ∈ pre, toInt m < toInt x) ∧ ∀ x ∈ post, toInt m ≤ toInt x := by
  cases l with
  | nil => exact absurd rfl hl
  | cons m l =>
    obtain ⟨pre, r, post, e, h1, h2, h3⟩ := minLoop_spec X l m (h m (by simp)) fun s hs => h s (by simp [hs])
    refine ⟨pre, r, post, e, ?_, h2, h3⟩
    simp only [opMIN, extremum, Val.isIterable, if_true, Val.items, Val.iter, List.map_cons, bind, Except.bind, h1]
    rfl

/-- Of an empty list, string or Range there is none. -/
theorem C54_empty (X : Ext) (a b : Int) (h : b ≤ a) :
    opMAX X (.list []) = .ok .nil ∧ opMIN X (.list []) = .ok .nil ∧ opMAX X (.scalar []) = .ok .nil ∧
    opMIN X (.scalar []) = .ok .nil ∧ opMAX X (.range (some a) (some b)) = .ok .nil ∧
    opMIN X (.range (some a) (some b)) = .ok .nil := by
  have : (Val.range (some a) (some b)).items = .ok [] := by
    simp only [Val.items, Val.iter, rangeInts, lo0, Option.getD_some, show (b - a).toNat = 0 by omega]; rfl
  refine ⟨rfl, rfl, rfl, rfl, ?_, ?_⟩ <;>
    simp only [opMAX, opMIN, extremum, Val.isIterable, if_true, this] <;> rfl

/-- All integer texts in the usual notation are integer texts. -/
theorem C54_not_vacuous (X : Ext) : ∀ s ∈ [showInt 3, showInt (-7), showInt 12], IntText X s := by
  simp only [List.mem_cons, List.not_mem_nil, or_false]
  rintro s (rfl | rfl | rfl) <;> exact intText_showInt X _

/-! ### C55 -/

/-- Comparisons of integers. -/
theorem C55_integers (X : Ext) (a b : Int) :
    opNUMEQUAL X (ofInt a) (ofInt b) = .ok (ofBool (decide (a = b))) ∧
    opNUMNOTEQUAL X (ofInt a) (ofInt b) = .ok (ofBool (decide (a ≠ b))) ∧
    opNUMLESS X (ofInt a) (ofInt b) = .ok (ofBool (decide (a < b))) ∧
    opNUMGREATER X (ofInt a) (ofInt b) = .ok (ofBool (decide (a > b))) ∧
    opNUMLESSEQ X (ofInt a) (ofInt b) = .ok (ofBool (decide (a ≤ b))) ∧
    opNUMGREATEREQ X (ofInt a) (ofInt b) = .ok (ofBool (decide (a ≥ b))) ∧
    opNUMCMP X (ofInt a) (ofInt b) = .ok (ofInt (a - b).sign) := by
  refine ⟨?_, ?_, ?_, ?_, ?_, ?_, ?_⟩
  · simp only [opNUMEQUAL, ofInt, numEq, toNum_showInt, neq]
  · simp only [opNUMNOTEQUAL, ofInt, numNe, toNum_showInt, neq, ne_eq, decide_not]
  · simp only [opNUMLESS, ofInt, numLess, toNum_showInt, nlt, Bool.false_eq_true, if_false]
  · simp only [opNUMGREATER, ofInt, numGreater, toNum_showInt, nlt, Bool.false_eq_true, if_false, gt_iff_lt]
  · simp only [opNUMLESSEQ, ofInt, numLe, toNum_showInt, nle]
  · simp only [opNUMGREATEREQ, ofInt, numGe, toNum_showInt, nle, ge_iff_le]
  · simp only [opNUMCMP, ofInt, numGreater, numLess, toNum_showInt, nlt, Bool.false_eq_true, if_false,
      decide_eq_true_eq]
    rcases Int.lt_trichotomy a b with h | h | h
    · rw [if_neg (by omega), if_pos h, Int.sign_eq_neg_one_of_neg (by omega)]; rfl
    · subst h; rw [if_neg (by omega), if_neg (by omega), Int.sub_self]; rfl
    · rw [if_pos h, Int.sign_eq_one_of_pos (by omega)]; rfl

/-- A list of integers as a Pip value. -/
def ints (l : List Int) : Val := .list (l.map ofInt)

theorem lt_gt_absurd {l l' : List Int} (h : l < l') (h' : l' < l) : False := List.lt_irrefl l (List.lt_trans h h')

/-- Comparisons of lists of integers are equality and the lexicographic order. -/
theorem C55_lists (X : Ext) (l l' : List Int) :
    opNUMEQUAL X (ints l) (ints l') = .ok (ofBool (decide (l = l'))) ∧
    opNUMNOTEQUAL X (ints l) (ints l') = .ok (ofBool (decide (l ≠ l'))) ∧
    opNUMLESS X (ints l) (ints l') = .ok (ofBool (decide (l < l'))) ∧
    opNUMGREATER X (ints l) (ints l') = .ok (ofBool (decide (l' < l))) ∧
    opNUMLESSEQ X (ints l) (ints l') = .ok (ofBool (decide (l < l' ∨ l = l'))) ∧
    opNUMGREATEREQ X (ints l) (ints l') = .ok (ofBool (decide (l' < l ∨ l = l'))) ∧
    opNUMCMP X (ints l) (ints l') = .ok (ofInt (if l' < l then 1 else if l < l' then -1 else 0)) := by
  have heq : numEq X (ints l) (ints l') = decide (l = l') := by
    simp only [ints, numEq, List.length_map]
    by_cases hlen : l.length = l'.length
    · rw [numEqs_int X l l' hlen]; simp [hlen]
    · have : l ≠ l' := fun h => hlen (by rw [h])
      simp [hlen, this]
  have hlt : ∀ l l' : List Int, numLess X false (ints l) (ints l') = decide (l < l') := by
    intro l l'
    rw [Bool.eq_iff_iff, decide_eq_true_eq]
    have := (numLesss_int X l l').1
    simp only [ints, numLess, List.length_map, Bool.false_eq_true, if_false, lenLess]
    exact this
  have hle : ∀ l l' : List Int, numLe X (ints l) (ints l') = decide (l < l' ∨ l = l') := by
    intro l l'
    rw [Bool.eq_iff_iff, decide_eq_true_eq]
    have := (numLesss_int X l l').2
    simp only [ints, numLe, List.length_map, if_true, lenLess]
    refine this.trans ⟨fun h => ?_, ?_⟩
    · by_cases h1 : l < l'
      · exact .inl h1
      · exact .inr (List.le_antisymm h h1)
    · rintro (h | rfl) h'
      · exact lt_gt_absurd h h'
      · exact List.lt_irrefl _ h'
  refine ⟨?_, ?_, ?_, ?_, ?_, ?_, ?_⟩
  · rw [opNUMEQUAL, heq]
  · rw [opNUMNOTEQUAL, numNe_not, heq]; simp
  · rw [opNUMLESS, hlt]
  · rw [opNUMGREATER, numGreater_converse, hlt]
  · rw [opNUMLESSEQ, hle]
  · rw [opNUMGREATEREQ, numGe_converse X _ _ (pyEq_symm _ _), hle]
    simp only [eq_comm]
  · rw [opNUMCMP, numGreater_converse, hlt, hlt]
    simp only [decide_eq_true_eq]
    split
    · rfl
    · split <;> rfl

/-- The laws of a linear order, in terms of the operators, on lists of integers. -/
theorem C55_linear_order (X : Ext) (a b c : List Int) :
    numLess X false (ints a) (ints a) = false ∧
    (numLess X false (ints a) (ints b) = true → numLess X false (ints b) (ints c) = true →
      numLess X false (ints a) (ints c) = true) ∧
    (numLess X false (ints a) (ints b) = true ∨ numEq X (ints a) (ints b) = true ∨
      numLess X false (ints b) (ints a) = true) ∧
    (numEq X (ints a) (ints b) = true ↔ a = b) := by
  have inj : ∀ {x y : Bool}, (Except.ok (ofBool x) : E Val) = .ok (ofBool y) → x = y := by
    intro x y h; cases x <;> cases y <;> simp [ofBool, boolStr] at h ⊢
  have lt : ∀ l l', numLess X false (ints l) (ints l') = decide (l < l') :=
    fun l l' => inj ((C55_lists X l l').2.2.1)
  have eq : ∀ l l', numEq X (ints l) (ints l') = decide (l = l') := fun l l' => inj ((C55_lists X l l').1)
  simp only [lt, eq, decide_eq_true_eq, decide_eq_false_iff_not]
  refine ⟨List.lt_irrefl a, List.lt_trans, ?_, trivial⟩
  by_cases h1 : a < b
  · exact .inl h1
  · by_cases h2 : b < a
    · exact .inr (.inr h2)
    · exact .inr (.inl (List.le_antisymm h2 h1))

/-- For all values whatsoever, `!=` is the negation of `=`, `>` the converse of `<` and `>=` the converse of `<=`. -/
theorem C55_all_values (X : Ext) (a b : Val) :
    (∃ p, opNUMEQUAL X a b = .ok (ofBool p) ∧ opNUMNOTEQUAL X a b = .ok (ofBool (!p))) ∧
    opNUMGREATER X a b = opNUMLESS X b a ∧ opNUMGREATEREQ X a b = opNUMLESSEQ X b a := by
  refine ⟨⟨_, rfl, by rw [opNUMNOTEQUAL, numNe_not]⟩, ?_, ?_⟩
  · rw [opNUMGREATER, opNUMLESS, numGreater_converse]
  · rw [opNUMGREATEREQ, opNUMLESSEQ, numGe_converse X a b (pyEq_symm a b)]

/-- Deviation: numbers and lists are incomparable, and a list comparison skips incomparable items. Hence `<` is not
transitive on lists that mix them: `[1;3] < [[];4] < [0;5] < [1;3]`. -/
theorem C55_mixed_deviation (X : Ext) :
    numLess X false (.list [ofInt 1, ofInt 3]) (.list [.list [], ofInt 4]) = true ∧
    numLess X false (.list [.list [], ofInt 4]) (.list [ofInt 0, ofInt 5]) = true ∧
    numLess X false (.list [ofInt 0, ofInt 5]) (.list [ofInt 1, ofInt 3]) = true := by
  refine ⟨?_, ?_, ?_⟩ <;>
    simp [numLess, numLesss, ofInt, toNum_showInt, nlt]

/-- Deviation: two Ranges are compared by their bounds, so empty Ranges do not compare like empty lists. -/
theorem C55_empty_range_deviation (X : Ext) :
    numLess X false (.list []) (ints [1]) = true ∧ numLess X false (.range (some 5) (some 5)) (ints [1]) = true ∧
    numLess X false (.range (some 5) (some 5)) (.range (some 1) (some 2)) = false := by
  refine ⟨?_, ?_, rfl⟩ <;> simp [numLess, numLesss, numLessR, ints, rangeLen, rangeTake, lo0, intsFrom, lenLess]

example : ([1, 2] : List Int) < [1, 3] ∧ ([1] : List Int) < [1, -5] := by decide

/-! ### C56 -/

theorem beq_dec (a b : Str) : (a == b) = decide (a = b) := by
  rw [Bool.eq_iff_iff, beq_iff_eq, decide_eq_true_eq]

/-- String comparisons are equality and the lexicographic order of code points. -/
theorem C56_strings (a b : Str) :
    opSTREQUAL (.scalar a) (.scalar b) = .ok (ofBool (decide (a = b))) ∧
    opSTRNOTEQUAL (.scalar a) (.scalar b) = .ok (ofBool (decide (a ≠ b))) ∧
    opSTRLESS (.scalar a) (.scalar b) = .ok (ofBool (decide (a < b))) ∧
    opSTRGREATER (.scalar a) (.scalar b) = .ok (ofBool (decide (b < a))) ∧
    opSTRLESSEQ (.scalar a) (.scalar b) = .ok (ofBool (decide (a < b ∨ a = b))) ∧
    opSTRGREATEREQ (.scalar a) (.scalar b) = .ok (ofBool (decide (b < a ∨ a = b))) := by
  have lt : ∀ a b : Str, ltStr a b = decide (a < b) := by
    intro a b; rw [Bool.eq_iff_iff, ltStr_iff, decide_eq_true_eq]
  have nlt : ∀ a b : Str, (!decide (b < a)) = decide (a < b ∨ a = b) := by
    intro a b
    rw [← decide_not]
    congr 1
    rw [eq_iff_iff]
    constructor
    · intro h
      by_cases h1 : a < b
      · exact .inl h1
      · exact .inr (List.le_antisymm h h1)
    · rintro (h | rfl) h'
      · exact List.lt_irrefl _ (List.lt_trans h h')
      · exact List.lt_irrefl _ h'
  refine ⟨?_, ?_, ?_, ?_, ?_, ?_⟩
  · simp only [opSTREQUAL, strEq, beq_dec]
  · simp only [opSTRNOTEQUAL, strNe, bne, ne_eq, decide_not, beq_dec]
  · simp only [opSTRLESS, strLess, Bool.false_eq_true, if_false, lt]
  · simp only [opSTRGREATER, strGreater, Bool.false_eq_true, if_false, lt]
  · simp only [opSTRLESSEQ, strLe, lt, nlt]
  · simp only [opSTRGREATEREQ, strGe, lt, nlt, eq_comm]

/-- A list of strings as a Pip value. -/
def strs (l : List Str) : Val := .list (l.map .scalar)

/-- Lists of strings compare lexicographically. -/
theorem C56_lists (l l' : List Str) :
    opSTREQUAL (strs l) (strs l') = .ok (ofBool (decide (l = l'))) ∧
    opSTRNOTEQUAL (strs l) (strs l') = .ok (ofBool (decide (l ≠ l'))) ∧
    opSTRLESS (strs l) (strs l') = .ok (ofBool (decide (l < l'))) ∧
    opSTRGREATER (strs l) (strs l') = .ok (ofBool (decide (l' < l))) ∧
    opSTRLESSEQ (strs l) (strs l') = .ok (ofBool (decide (l < l' ∨ l = l'))) ∧
    opSTRGREATEREQ (strs l) (strs l') = .ok (ofBool (decide (l' < l ∨ l = l'))) := by
  have heqs : ∀ l l' : List Str, l.length = l'.length →
      strEqs (l.map .scalar) (l'.map .scalar) = decide (l = l') ∧
      strNes (l.map .scalar) (l'.map .scalar) = decide (l ≠ l') := by
    intro l
    induction l with
    | nil => intro l' h; cases l' with | nil => simp [strEqs, strNes] | cons => simp at h
    | cons a l ih =>
      intro l' h
      cases l' with
      | nil => simp at h
      | cons b l' =>
        simp only [List.length_cons, Nat.add_right_cancel_iff] at h
        have := ih l' h
        simp only [List.map_cons, strEqs, strNes, strEq, strNe, this]
        simp only [List.cons.injEq, Bool.decide_and, ne_eq, decide_not, Bool.not_and, bne, beq_dec, and_self]
  have heq : strEq (strs l) (strs l') = decide (l = l') ∧ strNe (strs l) (strs l') = decide (l ≠ l') := by
    simp only [strs, strEq, strNe, List.length_map]
    by_cases hlen : l.length = l'.length
    · rw [(heqs l l' hlen).1, (heqs l l' hlen).2]; simp [hlen]
    · have : l ≠ l' := fun h => hlen (by rw [h])
      simp [hlen, this]
  have hlt : ∀ l l' : List Str, strLess false (strs l) (strs l') = decide (l < l') := by
    intro l l'
    rw [Bool.eq_iff_iff, decide_eq_true_eq]
    have := (strLesss_strs l l').1
    simp only [strs, strLess, List.length_map, Bool.false_eq_true, if_false]
    exact this
  have hnlt : ∀ l l' : List Str, ¬ l' < l ↔ l < l' ∨ l = l' := by
    intro l l'
    refine ⟨fun h => ?_, ?_⟩
    · by_cases h1 : l < l'
      · exact .inl h1
      · exact .inr (List.le_antisymm h h1)
    · rintro (h | rfl) h'
      · exact List.lt_irrefl _ (List.lt_trans h h')
      · exact List.lt_irrefl _ h'
  have hle : ∀ l l' : List Str, strLe (strs l) (strs l') = decide (l < l' ∨ l = l') := by
    intro l l'
    rw [Bool.eq_iff_iff, decide_eq_true_eq, ← hnlt]
    have := (strLesss_strs l l').2
    simp only [strs, strLe, List.length_map]
    exact this
  have hge : strGe (strs l) (strs l') = strLe (strs l') (strs l) := by
    simp only [strs, strGe, strLe, strGreaters_eq, Bool.not_false]
    rw [strLesss_swap]; rfl
  refine ⟨?_, ?_, ?_, ?_, ?_, ?_⟩
  · rw [opSTREQUAL, heq.1]
  · rw [opSTRNOTEQUAL, heq.2]
  · rw [opSTRLESS, hlt]
  · rw [opSTRGREATER, strGreater_eq, strLess_swap]; simp only [Bool.not_false, Bool.not_true, hlt]
  · rw [opSTRLESSEQ, hle]
  · rw [opSTRGREATEREQ, hge, hle]
    simp only [eq_comm]

/-- `GT` is the converse of `LT` for all values. -/
theorem C56_all_values (a b : Val) : opSTRGREATER a b = opSTRLESS b a := by
  rw [opSTRGREATER, opSTRLESS, strGreater_eq, strLess_swap]; rfl

/-- Deviation: `Q` compares Patterns and Scalars by their texts, `NE` by type and text, so both can be true. -/
theorem C56_pattern_deviation (f : Flags) :
    strEq (.scalar (s% "a")) (.pattern (s% "a") f) = true ∧ strNe (.scalar (s% "a")) (.pattern (s% "a") f) = true := by
  constructor <;> simp [strEq, strNe, pyEq]

example : (s% "10") < (s% "9") ∧ (s% "a") < (s% "ab") ∧ ¬ (s% "a") < (s% "Z") := by decide

end Pip
