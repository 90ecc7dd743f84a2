import Verif.Lemmas.Types
/-!
# Properties of values

C12 indexing, C13 slices, C14 Ranges as lists, C15 truthiness, C16 integers as text.
-/

namespace Pip

/-! ### C12 -/

/-- Strings: the character at position `i mod n`. -/
theorem C12_index_string (s : Str) (i : Int) (h : s ≠ []) :
    ∃ c, s[(i % s.length).toNat]? = some c ∧ (Val.scalar s).get (.int i) = .ok (.scalar [c]) := by
  have hn : 0 < s.length := List.length_pos_iff.2 h
  have hlt : (i % s.length).toNat < s.length := by
    have := Int.emod_lt_of_pos i (by omega : (0 : Int) < s.length)
    have := Int.emod_nonneg i (by omega : (s.length : Int) ≠ 0)
    omega
  refine ⟨s[(i % s.length).toNat], List.getElem?_eq_getElem hlt, ?_⟩
  simp only [Val.get]
  rw [List.getElem?_eq_getElem hlt]

/-- Lists: the item at position `i mod n`. -/
theorem C12_index_list (l : List Val) (i : Int) (h : l ≠ []) :
    ∃ v, l[(i % l.length).toNat]? = some v ∧ (Val.list l).get (.int i) = .ok v := by
  have hn : 0 < l.length := List.length_pos_iff.2 h
  have hlt : (i % l.length).toNat < l.length := by
    have := Int.emod_lt_of_pos i (by omega : (0 : Int) < l.length)
    have := Int.emod_nonneg i (by omega : (l.length : Int) ≠ 0)
    omega
  refine ⟨l[(i % l.length).toNat], List.getElem?_eq_getElem hlt, ?_⟩
  simp only [Val.get]
  rw [List.getElem?_eq_getElem hlt]

/-- Finite Ranges: the integer `lower + (i mod n)`. -/
theorem C12_index_range (a b i : Int) (h : a < b) :
    (Val.range (some a) (some b)).get (.int i) = .ok (.scalar (showInt (a + i % (b - a)))) := by
  show (if decide (b ≤ a) = true then _ else Except.ok (ofInt (a + i % (b - a)))) = _
  rw [if_neg (by simpa using h)]
  rfl

/-- Without a lower bound a Range starts at zero. -/
theorem C12_index_range_zero (b i : Int) (h : 0 < b) :
    (Val.range none (some b)).get (.int i) = .ok (.scalar (showInt (i % b))) := by
  show (if decide (b ≤ 0) = true then _ else Except.ok (ofInt (0 + i % (b - 0)))) = _
  rw [if_neg (by simpa using h)]
  simp [ofInt]

/-- Empty iterables cannot be indexed. -/
theorem C12_index_empty (i : Int) (a b : Int) (h : b ≤ a) :
    (Val.scalar []).get (.int i) = .error .indexError ∧ (Val.list []).get (.int i) = .error .indexError ∧
    (Val.range (some a) (some b)).get (.int i) = .error .indexError := by
  refine ⟨rfl, rfl, ?_⟩
  show (if decide (b ≤ a) = true then Except.error Exc.indexError else _) = _
  rw [if_pos (by simpa using h)]

example : (Val.scalar (s% "abc")).get (.int (-4)) = .ok (.scalar (s% "c")) := by decide +kernel
example : (Val.range (some 5) (some 8)).get (.int 100) = .ok (.scalar (s% "6")) := by decide +kernel

/-! ### C13 -/

/-- Slices of a non-empty string or list are windows of its cyclic repetition. -/
theorem C13_slice_window {α : Type} (l : List α) (hl : l ≠ []) (lo hi : Option Int) :
    (cycSlice l lo hi).length = (sliceBound l.length l.length hi - sliceBound l.length 0 lo).toNat ∧
    ∀ k : Nat, (k : Int) < sliceBound l.length l.length hi - sliceBound l.length 0 lo →
      (cycSlice l lo hi)[k]? = cyc l (sliceBound l.length 0 lo + k) :=
  cycSlice_spec l hl lo hi

/-- Slicing strings and lists is that operation on their characters and items. -/
theorem C13_slice_values (s : Str) (l : List Val) (lo hi : Option Int) :
    (Val.scalar s).get (.slice lo hi) = .ok (.scalar (cycSlice s lo hi)) ∧
    (Val.list l).get (.slice lo hi) = .ok (.list (cycSlice l lo hi)) ∧
    (Val.scalar []).get (.slice lo hi) = .ok (.scalar []) ∧
    (Val.list []).get (.slice lo hi) = .ok (.list []) := ⟨rfl, rfl, rfl, rfl⟩

/-- Within bounds a slice is the ordinary one. -/
theorem C13_slice_plain {α : Type} (l : List α) (a b : Nat) (hab : a ≤ b) (hb : b ≤ l.length) :
    cycSlice l (some a) (some b) = (l.drop a).take (b - a) := by
  by_cases hl : l = []
  · subst hl; simp [cycSlice_nil]
  have hn : 0 < l.length := List.length_pos_iff.2 hl
  obtain ⟨h1, h2⟩ := cycSlice_spec l hl (some a) (some b)
  have ea : sliceBound l.length 0 (some (a : Int)) = a := by simp only [sliceBound]; rw [if_neg (by omega)]
  have eb : sliceBound l.length l.length (some (b : Int)) = b := by simp only [sliceBound]; rw [if_neg (by omega)]
  rw [ea, eb] at h1 h2
  apply List.ext_getElem?
  intro k
  by_cases hk : k < b - a
  · rw [h2 k (by omega), List.getElem?_take, if_pos hk, List.getElem?_drop]
    unfold cyc
    congr 1
    rw [show (a : Int) + k = ((a + k : Nat) : Int) by omega, ← Int.natCast_emod, Int.toNat_natCast,
      Nat.mod_eq_of_lt (by omega)]
  · rw [List.getElem?_eq_none (by rw [h1]; omega), List.getElem?_eq_none]
    simp only [List.length_take, List.length_drop]; omega

example : cycSlice (s% "abc") (some (-5)) (some 4) = s% "bcabca" := by decide +kernel
example : cycSlice (s% "abc") (some (-2)) none = s% "bc" := by decide +kernel

/-! ### C14 -/

/-- A finite Range as a List of its members. -/
def asList (a b : Int) : Val := .list ((rangeInts (some a) b).map ofInt)

/-- Its members are the integers from `a` up to but not including `b`, in order. -/
theorem C14_members (a b : Int) :
    (rangeInts (some a) b).length = (b - a).toNat ∧
    ∀ k : Nat, (k : Int) < b - a → (rangeInts (some a) b)[k]? = some (a + k) := by
  refine ⟨rangeInts_length _ _, fun k hk => ?_⟩
  have := rangeInts_get (some a) b k (by simp only [lo0, Option.getD_some]; omega)
  simpa [lo0] using this

/-- Length, truth value, iteration and conversion to text agree with those of the List. -/
theorem C14_same_observations (f : Fmt) (a b : Int) :
    (Val.range (some a) (some b)).len = (asList a b).len ∧
    (Val.range (some a) (some b)).truthy = (asList a b).truthy ∧
    (Val.range (some a) (some b)).items = (asList a b).items ∧
    (Val.range (some a) (some b)).str f = (asList a b).str f := by
  refine ⟨?_, ?_, rfl, ?_⟩
  · simp only [Val.len, asList, List.length_map, rangeInts_length]
  · simp only [Val.truthy, asList]
    rw [range_isEmpty]
    simp [Val.isEmpty]
  · have strs : ∀ l : List Int, Val.strs f (l.map ofInt) = l.map showInt := by
      intro l; induction l with
      | nil => rfl
      | cons i l ih => simp only [List.map_cons, Val.strs, ih]; rfl
    have reprs : ∀ l : List Int, Val.reprs (l.map ofInt) = (l.map showInt).map reprScalar := by
      intro l; induction l with
      | nil => simp [Val.reprs]
      | cons i l ih => simp only [List.map_cons, Val.reprs, ih, ofInt, Val.repr]
    have joineds : ∀ (sep : Str) (l : List Int), Val.joineds f sep (l.map ofInt) = l.map showInt := by
      intro sep l; induction l with
      | nil => rfl
      | cons i l ih => simp only [List.map_cons, Val.joineds, ih]; rfl
    simp only [Val.str, asList, strRange, strs, reprs, joineds]

/-- Indexing agrees. -/
theorem C14_same_index (a b i : Int) :
    (Val.range (some a) (some b)).get (.int i) = (asList a b).get (.int i) := by
  by_cases h : a < b
  · rw [C12_index_range a b i h]
    simp only [asList, Val.get]
    have hlen : ((rangeInts (some a) b).map ofInt).length = (b - a).toNat := by
      rw [List.length_map, rangeInts_length]; rfl
    rw [hlen]
    have e : ((b - a).toNat : Int) = b - a := by omega
    rw [e]
    have h1 := Int.emod_lt_of_pos i (by omega : (0 : Int) < b - a)
    have h2 := Int.emod_nonneg i (by omega : b - a ≠ 0)
    rw [List.getElem?_map, (C14_members a b).2 _ (by omega)]
    simp only [Option.map_some, ofInt]
    congr 3
    omega
  · rw [(C12_index_empty i a b (by omega)).2.2]
    simp only [asList, Val.get]
    have : rangeInts (some a) b = [] := by
      rw [← List.length_eq_zero_iff, (C14_members a b).1]; omega
    rw [this]
    simp

/-- Slices have the same items (they are Ranges again when the bounds are within the Range, and Lists otherwise). -/
theorem C14_same_slice (a b : Int) (lo hi : Option Int) :
    ((Val.range (some a) (some b)).get (.slice lo hi)).toOption.map Val.items =
    ((asList a b).get (.slice lo hi)).toOption.map Val.items := by
  simp only [Val.get, asList, Except.toOption, Option.map_some]
  rw [rangeSlice_items]
  rfl

/-- Membership of integers agrees. -/
theorem C14_same_membership (X : Ext) (a b i : Int) :
    Val.contains X (ofInt i) (.range (some a) (some b)) = Val.contains X (ofInt i) (asList a b) := by
  have e : Val.contains X (ofInt i) (.range (some a) (some b)) = .ok (decide (a ≤ i) && decide (i < b)) := by
    simp only [Val.contains, ofInt, toNum_showInt]; rfl
  rw [e]
  simp only [Val.contains, asList]
  congr 1
  rw [Bool.eq_iff_iff]
  simp only [Bool.and_eq_true, decide_eq_true_eq, List.any_eq_true, List.mem_map]
  constructor
  · intro h
    exact ⟨_, ⟨i, (mem_rangeInts (some a) b i).2 h, rfl⟩, by simp [ofInt, pyEq]⟩
  · rintro ⟨v, ⟨j, hj, rfl⟩, h⟩
    have hj := (mem_rangeInts (some a) b j).1 hj
    simp only [ofInt, pyEq, beq_iff_eq] at h
    have := showInt_inj h
    subst this
    exact hj

/-- Deviation: a Range contains numbers between its bounds that are not among its members, here `1.5` (whenever
`float("1.5")` compares greater than 0 and less than 3). -/
theorem C14_membership_deviation (X : Ext) (h1 : X.le (.int 0) (.flt (X.parse (s% "1.5"))) = true)
    (h2 : X.lt (.flt (X.parse (s% "1.5"))) (.int 3) = true) :
    Val.contains X (.scalar (s% "1.5")) (.range (some 0) (some 3)) = .ok true ∧
    Val.contains X (.scalar (s% "1.5")) (asList 0 3) = .ok false := by
  have e : toNum X (s% "1.5") = .flt (X.parse (s% "1.5")) := by
    have : pyFloatRgx.match? (lstrip (s% "1.5")) = some (s% "1.5", []) := by decide +kernel
    simp only [toNum, this]
  refine ⟨?_, ?_⟩
  · simp only [Val.contains, e, nle, nlt, lo0, Option.getD_some, h1, h2, Bool.and_self]
  · have h : (List.map ofInt (rangeInts (some 0) 3)).any (pyEq (Val.scalar (s% "1.5"))) = false := by decide +kernel
    simp only [Val.contains, asList, h]

/-- An infinite Range is the sequence `a, a + 1, ...`: indexing and slicing with non-negative bounds. -/
theorem C14_infinite (a : Int) (i : Int) (h : 0 ≤ i) (s e : Nat) :
    (Val.range (some a) none).get (.int i) = .ok (ofInt (a + i)) ∧
    (Val.range (some a) none).get (.slice (some s) (some e)) = .ok (.range (some (a + s)) (some (a + e))) ∧
    (Val.range (some a) none).get (.slice (some s) none) = .ok (.range (some (a + s)) none) := by
  refine ⟨?_, ?_, ?_⟩
  · show (if i < 0 then Except.ok Val.nil else Except.ok (ofInt (a + i))) = _
    rw [if_neg (by omega)]
  · simp only [Val.get, rangeSlice, Val.isEmpty, Bool.false_eq_true, if_false]
    rw [if_neg (by simp)]
    rfl
  · simp only [Val.get, rangeSlice, Val.isEmpty, Bool.false_eq_true, if_false]
    rw [if_neg (by simp)]
    rfl

/-- Counting from the end of an infinite Range gives nil. -/
theorem C14_infinite_negative (a i : Int) (h : i < 0) (e : Option Int) :
    (Val.range (some a) none).get (.int i) = .ok .nil ∧
    (Val.range (some a) none).get (.slice (some i) e) = .ok .nil := by
  constructor
  · simp only [Val.get, rangeAt, Val.isEmpty, Bool.false_eq_true, if_false]
    rw [if_pos h]
  · simp only [Val.get, rangeSlice, Val.isEmpty, Bool.false_eq_true, if_false, Option.any_some]
    rw [if_pos (.inl (by simpa using h))]

example : (Val.range (some 2) (some 5)).get (.slice (some (-7)) (some 1)) = .ok (.list (
  [s% "4", s% "2", s% "3", s% "4", s% "2"].map Val.scalar)) := by decide +kernel
example : (Val.range (some 2) (some 9)).get (.slice (some (-3)) (some 6)) = .ok (.range (some 6) (some 8)) := by
  decide +kernel

/-! ### C15 -/

/-- A Scalar is false iff it is empty or a decimal zero, possibly followed by a newline. -/
theorem C15_scalar (s : Str) :
    (Val.scalar s).truthy = false ↔ s = [] ∨ IsZeroText s ∨ ∃ w, s = w ++ ['\n'] ∧ IsZeroText w := by
  rw [← zero_match]
  simp only [Val.truthy, Bool.and_eq_false_iff]
  cases s <;> cases zeroRgx.match? _ <;> simp

/-- Lists, Patterns and Ranges are false iff they have no items; Blocks are false iff they are empty; nil is
false. -/
theorem C15_others (l : List Val) (raw : Str) (fl : Flags) (a b : Int) (lo : Option Int) (sts : List Tree) (ret : Tree) :
    ((Val.list l).truthy = false ↔ l = []) ∧ ((Val.pattern raw fl).truthy = false ↔ raw = []) ∧
    ((Val.range (some a) (some b)).truthy = false ↔ ¬ ∃ i, a ≤ i ∧ i < b) ∧
    ((Val.range none (some b)).truthy = false ↔ ¬ ∃ i, 0 ≤ i ∧ i < b) ∧
    (Val.range lo none).truthy = true ∧
    ((Val.block sts ret).truthy = false ↔ sts = [] ∧ ret = .val .nil) ∧ Val.nil.truthy = false := by
  refine ⟨?_, ?_, ?_, ?_, rfl, ?_, rfl⟩
  · simp [Val.truthy, Val.isEmpty]
  · simp [Val.truthy, Val.isEmpty]
  · show (!decide (b ≤ a)) = false ↔ _
    simp only [Bool.not_eq_false', decide_eq_true_eq]
    constructor
    · rintro h ⟨i, h1, h2⟩; omega
    · intro h
      apply Int.not_lt.1
      intro hlt
      exact h ⟨a, by omega, hlt⟩
  · show (!decide (b ≤ 0)) = false ↔ _
    simp only [Bool.not_eq_false', decide_eq_true_eq]
    constructor
    · rintro h ⟨i, h1, h2⟩; omega
    · intro h
      apply Int.not_lt.1
      intro hlt
      exact h ⟨0, by omega, hlt⟩
  · simp only [Val.truthy, Val.isEmpty, Bool.not_eq_false', Bool.and_eq_true, List.isEmpty_iff]
    constructor
    · rintro ⟨h1, h2⟩
      refine ⟨h1, ?_⟩
      split at h2
      · rfl
      · cases h2
    · rintro ⟨h1, rfl⟩; exact ⟨h1, rfl⟩

example : (Val.scalar (s% "000.0")).truthy = false ∧ (Val.scalar (s% "0.")).truthy = false ∧
  (Val.scalar (s% ".")).truthy = true ∧ (Val.scalar (s% "0.0.")).truthy = true ∧ (Val.scalar (s% "-0")).truthy = true ∧
  (Val.scalar (s% "0\n")).truthy = false ∧ (Val.scalar (s% "\n")).truthy = true := by decide +kernel

/-! ### C16 -/

/-- The Scalar of an integer is read back as that integer by arithmetic (`toNumber`) and by indexing and integer
conversion (`int()`), and different integers have different texts. -/
theorem C16_integers_as_text (X : Ext) (n m : Int) :
    toNum X (showInt n) = .int n ∧ toInt (showInt n) = n ∧ (showInt n = showInt m → n = m) :=
  ⟨toNum_showInt X n, toInt_showInt n, showInt_inj⟩

/-- The text is the usual decimal one: digits without leading zero, and a minus sign for negative numbers. -/
theorem C16_decimal (n : Nat) :
    (∀ c ∈ showInt n, isDigit09 c = true) ∧ (0 < n → (showInt n).head? ≠ some '0') ∧
    (0 < n → showInt (-(n : Int)) = '-' :: showInt n) ∧ showInt 0 = s% "0" := by
  refine ⟨showNat_digit09 n, ?_, ?_, by decide +kernel⟩
  · intro h
    obtain ⟨d, l, e, hd, -⟩ := natDigits_head 10 n (by omega)
    have hlt := natDigits_lt 10 n (by omega) d (by rw [e]; simp)
    have hd := hd h
    rw [showInt_nat, showNat, e]
    simp only [List.map_cons, List.head?_cons, ne_eq, Option.some.injEq]
    intro h0
    match d, hlt, hd with
    | 1, _, _ | 2, _, _ | 3, _, _ | 4, _, _ | 5, _, _ | 6, _, _ | 7, _, _ | 8, _, _ | 9, _, _ =>
      exact absurd h0 (by decide)
  · intro h
    obtain ⟨k, rfl⟩ : ∃ k, n = k + 1 := ⟨n - 1, by omega⟩
    rfl

example : showInt (-1230) = s% "-1230" ∧ toInt (s% "  -1230.7") = -1230 := by decide +kernel

end Pip
