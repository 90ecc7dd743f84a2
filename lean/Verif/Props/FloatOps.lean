import Verif.Props.Float
import Verif.Props.Values
/-! C91: comparisons with floats, truth of floats. C92: rounding to integers, halving. C93: remainders of floats. -/

namespace Pip
open Floats

variable (X : Ext) (L : Libm X.Rng) {a b : Str} {p q : ℚ}

/-! ### C91: comparisons -/

theorem stands_ext (h : Stands X L a p) : Num.ext (toNum (X.withDbl L) a) = some (.num p) := by
  rcases h with ⟨i, h, rfl⟩ | h <;> rw [h] <;> rfl

theorem nlt_stands (ha : Stands X L a p) (hb : Stands X L b q) :
    nlt (X.withDbl L) (toNum (X.withDbl L) a) (toNum (X.withDbl L) b) = decide (p < q) := by
  have key : cmpBy Ext3.lt (toNum (X.withDbl L) a) (toNum (X.withDbl L) b) = decide (p < q) := by
    unfold cmpBy
    rw [stands_ext X L ha, stands_ext X L hb]; rfl
  rcases ha with ⟨i, ha, rfl⟩ | ha
  · rcases hb with ⟨j, hb, rfl⟩ | hb
    · rw [ha, hb]
      show decide (i < j) = _
      rw [decide_eq_decide]; exact Int.cast_lt.symm
    · rw [ha, hb] at key ⊢; exact key
  · rw [ha] at key ⊢; exact key

theorem nle_stands (ha : Stands X L a p) (hb : Stands X L b q) :
    nle (X.withDbl L) (toNum (X.withDbl L) a) (toNum (X.withDbl L) b) = decide (p ≤ q) := by
  have key : cmpBy Ext3.le (toNum (X.withDbl L) a) (toNum (X.withDbl L) b) = decide (p ≤ q) := by
    unfold cmpBy
    rw [stands_ext X L ha, stands_ext X L hb]; rfl
  rcases ha with ⟨i, ha, rfl⟩ | ha
  · rcases hb with ⟨j, hb, rfl⟩ | hb
    · rw [ha, hb]
      show decide (i ≤ j) = _
      rw [decide_eq_decide]; exact Int.cast_le.symm
    · rw [ha, hb] at key ⊢; exact key
  · rw [ha] at key ⊢; exact key

theorem neq_stands (ha : Stands X L a p) (hb : Stands X L b q) :
    neq (X.withDbl L) (toNum (X.withDbl L) a) (toNum (X.withDbl L) b) = decide (p = q) := by
  have key : cmpBy Ext3.eq (toNum (X.withDbl L) a) (toNum (X.withDbl L) b) = decide (p = q) := by
    unfold cmpBy
    rw [stands_ext X L ha, stands_ext X L hb]; rfl
  rcases ha with ⟨i, ha, rfl⟩ | ha
  · rcases hb with ⟨j, hb, rfl⟩ | hb
    · rw [ha, hb]
      show decide (i = j) = _
      rw [decide_eq_decide]; exact Int.cast_inj.symm
    · rw [ha, hb] at key ⊢; exact key
  · rw [ha] at key ⊢; exact key

/-- **C91.** The six comparisons of numbers compare the exact values, also between an integer of any size and a float. -/
theorem C91_compare (ha : Stands X L a p) (hb : Stands X L b q) :
    opNUMLESS (X.withDbl L) (.scalar a) (.scalar b) = .ok (ofBool (decide (p < q))) ∧
    opNUMGREATER (X.withDbl L) (.scalar a) (.scalar b) = .ok (ofBool (decide (q < p))) ∧
    opNUMEQUAL (X.withDbl L) (.scalar a) (.scalar b) = .ok (ofBool (decide (p = q))) ∧
    opNUMLESSEQ (X.withDbl L) (.scalar a) (.scalar b) = .ok (ofBool (decide (p ≤ q))) ∧
    opNUMGREATEREQ (X.withDbl L) (.scalar a) (.scalar b) = .ok (ofBool (decide (q ≤ p))) ∧
    opNUMNOTEQUAL (X.withDbl L) (.scalar a) (.scalar b) = .ok (ofBool (decide (p ≠ q))) := by
  refine ⟨?_, ?_, ?_, ?_, ?_, ?_⟩
  · rw [← nlt_stands X L ha hb]; rfl
  · rw [← nlt_stands X L hb ha]; rfl
  · rw [← neq_stands X L ha hb]; rfl
  · rw [← nle_stands X L ha hb]; rfl
  · rw [← nle_stands X L hb ha]; rfl
  · rw [decide_not, ← neq_stands X L ha hb]; rfl

/-- `9007199254740993 > 9007199254740992.0`, although the conversion to a float would make them equal. -/
example : Stands X L (s% "9007199254740993") 9007199254740993 ∧ Stands X L (s% "9007199254740992.0") 9007199254740992 := by
  refine ⟨.inl ⟨9007199254740993, toNum_showInt _ 9007199254740993, by norm_num⟩, .inr ?_⟩
  have := toNum_decimal X L ⟨false, [9,0,0,7,1,9,9,2,5,4,7,4,0,9,9,2], some [0], none⟩
    ⟨by decide, by decide, by decide, by intro s l h; cases h⟩
  refine this.trans (congrArg Num.flt ?_)
  clear this
  have h : Dbl.round (⟨false, [9,0,0,7,1,9,9,2,5,4,7,4,0,9,9,2], some [0], none⟩ : Decimal).value = .fin 9007199254740992 := by
    clear * -; decide +kernel
  exact h

/-! The truth of floats -/

theorem exists_nonzero {ds : Str} (h : parseNat ds ≠ 0) : ∃ c ∈ ds, c ≠ '0' := by
  by_contra hc
  push Not at hc
  have : ds = List.replicate ds.length '0' := List.eq_replicate_iff.2 ⟨rfl, hc⟩
  rw [this, parseNat_zeros] at h
  exact h rfl

theorem truthy_of_char {s : Str} {c : Char} (h : c ∈ s) (hc : c ≠ '0' ∧ c ≠ '.' ∧ c ≠ '\n') : (Val.scalar s).truthy = true := by
  by_contra hf
  rw [Bool.not_eq_true] at hf
  rcases (C15_scalar s).1 hf with rfl | hz | ⟨w, rfl, hz⟩
  · cases h
  · rcases hz.1 c h with h | h
    · exact hc.1 h
    · exact hc.2.1 h
  · rcases List.mem_append.1 h with h | h
    · rcases hz.1 c h with h | h
      · exact hc.1 h
      · exact hc.2.1 h
    · exact hc.2.2 (List.mem_singleton.1 h)

theorem mem_layout {ds : Str} {k : ℤ} {c : Char} (h : c ∈ ds) : c ∈ Dbl.layout ds k := by
  unfold Dbl.layout
  split
  · split
    · simp [h]
    · split
      · simp [h]
      · rw [← List.take_append_drop k.toNat ds] at h
        rcases List.mem_append.1 h with h | h <;> simp [h]
  · by_cases hl : ds.length = 1
    · rw [List.take_of_length_le (by omega)]; simp [h]
    · rw [if_neg hl]
      rw [← List.take_append_drop 1 ds] at h
      rcases List.mem_append.1 h with h | h
      · simp [h]
      · simp only [List.mem_append]
        exact .inl (.inl (.inr (.inr h)))

theorem digit_chars {c : Char} (h : isDigit c = true) : c ≠ '.' ∧ c ≠ '\n' := by
  constructor
  · rintro rfl; revert h; decide +kernel
  · rintro rfl; revert h; decide +kernel

theorem truthy_showInt {i : ℤ} (h : i ≠ 0) : (Val.scalar (showInt i)).truthy = true := by
  cases i with
  | ofNat n =>
    have hn : n ≠ 0 := by rintro rfl; exact h rfl
    obtain ⟨c, h1, h2⟩ := exists_nonzero (ds := showNat n) (by rw [parseNat_showNat]; exact hn)
    exact truthy_of_char (s := showNat n) h1 ⟨h2, digit_chars (showNat_all n c h1)⟩
  | negSucc n => exact truthy_of_char (c := '-') (s := '-' :: showNat (n + 1)) (by simp) (by decide)

/-- **C91.** A float result is true exactly if it is not zero. -/
theorem C91_truth (r : ℚ) (h : IsFloat r) : (ofNum (X.withDbl L) (.flt (.fin r))).truthy = decide (r ≠ 0) := by
  have hn : numStr (X.withDbl L) (.flt (.fin r)) =
    if (s% ".0").isSuffixOf (Dbl.str (.fin r)) then showInt (Dbl.truncRat r) else Dbl.str (.fin r) := rfl
  by_cases h0 : r = 0
  · subst h0
    rfl
  · simp only [ne_eq, h0, not_false_eq_true, decide_true]
    rcases toNum_numStr_dbl X L h with hv | ⟨i, hi, hs⟩
    · unfold ofNum
      rw [hn] at hv ⊢
      split
      next hsuf =>
        rw [if_pos hsuf, toNum_showInt] at hv
        cases hv
      next hsuf =>
        show (Val.scalar (if r = 0 then _ else if r < 0 then _ else _)).truthy = true
        rw [if_neg h0]
        split
        · exact truthy_of_char (c := '-') (by simp) (by decide)
        next hneg =>
          have hpos : 0 < r := lt_of_le_of_ne (not_lt.1 hneg) (Ne.symm h0)
          obtain ⟨h1, h2⟩ := Dbl.digitsOf_spec hpos h.1 (lt_of_le_of_lt (le_abs_self _) h.2)
          have h3 : (Dbl.digitsOf r).1 ≠ 0 := by
            intro e; rw [e] at h2; exact h2 rfl
          rw [Dbl.showPos_eq]
          obtain ⟨c, hc1, hc2⟩ := exists_nonzero (ds := showNat (Dbl.digitsOf r).1) (by rw [parseNat_showNat]; exact h3)
          exact truthy_of_char (mem_layout hc1) ⟨hc2, digit_chars (showNat_all _ c hc1)⟩
    · unfold ofNum
      rw [hs]
      exact truthy_showInt (by rintro rfl; simp at hi; exact h0 hi)

/-! ### C92: rounding to integers -/

theorem nearest_even {x : ℚ} (h : |x - Dbl.nearest x| = 1 / 2) : ∃ k : ℤ, Dbl.nearest x = 2 * k := by
  have hx : x - Dbl.nearest x = 1 / 2 ∨ x - Dbl.nearest x = -(1 / 2) := by
    rcases abs_choice (x - Dbl.nearest x) with e | e <;> rw [e] at h
    · exact .inl h
    · right; linarith
  rcases hx with e | e
  · refine (Dbl.nearest_tie (z := Dbl.nearest x + 1) (by omega) ?_).2
    push_cast
    rw [show x - (Dbl.nearest x + 1) = -(1 / 2) by linarith, e, abs_neg]
  · refine (Dbl.nearest_tie (z := Dbl.nearest x - 1) (by omega) ?_).2
    push_cast
    rw [show x - (Dbl.nearest x - 1) = 1 / 2 by linarith, e, abs_neg]

theorem roundOp_none (Y : Ext) (r : Num Y.F → E (Num Y.F)) (s : Str) :
    roundOp Y r (.scalar s) none = (r (toNum Y s)).bind fun n => .ok (ofNum Y n) := rfl

theorem floor_stands (h : Stands X L a p) : nfloor (X.withDbl L) (toNum (X.withDbl L) a) = .ok (.int ⌊p⌋) := by
  rcases h with ⟨i, h, rfl⟩ | h <;> rw [h]
  · rw [Int.floor_intCast]; rfl
  · rfl

theorem rat_ceil (x : ℚ) : x.ceil = ⌈x⌉ := by
  rw [Rat.ceil_eq_neg_floor_neg]
  rfl

theorem ceil_stands (h : Stands X L a p) : nceil (X.withDbl L) (toNum (X.withDbl L) a) = .ok (.int ⌈p⌉) := by
  rcases h with ⟨i, h, rfl⟩ | h <;> rw [h]
  · rw [Int.ceil_intCast]; rfl
  · show Except.ok (Num.int p.ceil) = _
    rw [rat_ceil]

theorem trunc_stands (h : Stands X L a p) :
    ntrunc (X.withDbl L) (toNum (X.withDbl L) a) = .ok (.int (if p < 0 then ⌈p⌉ else ⌊p⌋)) := by
  rcases h with ⟨i, h, rfl⟩ | h <;> rw [h]
  · rw [Int.ceil_intCast, Int.floor_intCast, ite_self]; rfl
  · show Except.ok (Num.int (if p < 0 then p.ceil else p.floor)) = _
    rw [rat_ceil]; rfl

/-- **C92.** FL, CE and RZ give the exact integers below, above and towards zero. -/
theorem C92_round (h : Stands X L a p) :
    opFLOOR (X.withDbl L) (.scalar a) none = .ok (ofInt ⌊p⌋) ∧
    opCEIL (X.withDbl L) (.scalar a) none = .ok (ofInt ⌈p⌉) ∧
    opROUNDZERO (X.withDbl L) (.scalar a) none = .ok (ofInt (if p < 0 then ⌈p⌉ else ⌊p⌋)) := by
  refine ⟨?_, ?_, ?_⟩
  · unfold opFLOOR; rw [roundOp_none, floor_stands X L h]; rfl
  · unfold opCEIL; rw [roundOp_none, ceil_stands X L h]; rfl
  · unfold opROUNDZERO; rw [roundOp_none, trunc_stands X L h]; rfl

/-- **C92.** RN gives the nearest integer, the even one of two. -/
theorem C92_nearest (h : Stands X L a p) (ho : ¬ Overflow p) : ∃ n : ℤ,
    opROUNDNEAREST (X.withDbl L) (.scalar a) none = .ok (ofInt n) ∧ |p - n| ≤ 1 / 2 ∧ (|p - n| = 1 / 2 → ∃ k, n = 2 * k) := by
  refine ⟨Dbl.nearest p, ?_, Dbl.nearest_le p, nearest_even⟩
  have hop : opROUNDNEAREST (X.withDbl L) (.scalar a) none =
      ((X.withDbl L).fn2 .remainder (toNum (X.withDbl L) a) (.int 1)).bind fun r =>
        if nlt (X.withDbl L) (.int 0) r then (nfloor (X.withDbl L) (toNum (X.withDbl L) a)).bind fun n => .ok (ofNum _ n)
        else (nceil (X.withDbl L) (toNum (X.withDbl L) a)).bind fun n => .ok (ofNum _ n) := rfl
  have h1 : Num.dbl (.int 1) = .ok (.fin 1) := ofRat_eq (by decide +kernel) ⟨_, rfl⟩
  rw [hop, floor_stands X L h, ceil_stands X L h]
  -- the remainder of a float
  have hrem : ∀ x : ℚ, Num.dbl (toNum (X.withDbl L) a) = .ok (.fin x) →
      (X.withDbl L).fn2 .remainder (toNum (X.withDbl L) a) (.int 1) = .ok (.flt (.fin (x - Dbl.nearest x))) := by
    intro x hx
    have := viaDbl_ok (f := Dbl.remainder) hx h1
    have e : Dbl.remainder (.fin x) (.fin 1) = .ok (.fin (x - Dbl.nearest x)) := by
      show Except.ok (Dbl.fin (x - Dbl.nearest (x / 1) * 1)) = _
      rw [div_one, mul_one]
    rw [e] at this
    exact this
  have hlt : ∀ x : ℚ, nlt (X.withDbl L) (.int 0) (.flt (.fin x)) = decide (0 < x) := by
    intro x
    show decide (((0 : ℤ) : ℚ) < x) = _
    simp
  rcases h with ⟨i, h, rfl⟩ | h
  · obtain ⟨j, hj⟩ := Dbl.rnd_isInt i
    have hx : Num.dbl (toNum (X.withDbl L) a) = .ok (.fin (j : ℚ)) := by
      rw [h]
      show Dbl.ofRat i = _
      unfold Dbl.ofRat
      rw [(Dbl.round_fin ho).1, hj]
    rw [hrem _ hx, Dbl.nearest_int, Dbl.nearest_int, sub_self]
    simp only [Except.bind, hlt, lt_self_iff_false, decide_false, Bool.false_eq_true, if_false, Int.ceil_intCast]
    rfl
  · have hx : Num.dbl (toNum (X.withDbl L) a) = .ok (.fin p) := by rw [h]; rfl
    rw [hrem _ hx]
    simp only [Except.bind, hlt]
    have f1 := Int.floor_le p
    have f2 := Int.lt_floor_add_one p
    rcases Dbl.nearest_cases p with ⟨c, d⟩ | ⟨c, d⟩
    · rw [c]
      by_cases hp : 0 < p - ⌊p⌋
      · rw [decide_eq_true hp]; rfl
      · rw [decide_eq_false hp]
        have : ⌈p⌉ = ⌊p⌋ := by rw [Int.ceil_eq_iff]; constructor <;> linarith
        rw [this]; rfl
    · rw [c]
      have hp : ¬ 0 < p - (⌊p⌋ + 1 : ℤ) := by push_cast; linarith
      rw [decide_eq_false hp]
      have : ⌈p⌉ = ⌊p⌋ + 1 := by rw [Int.ceil_eq_iff]; push_cast; constructor <;> linarith
      rw [this]; rfl

/-- 2.5 is rounded to 2. -/
example : ¬ Overflow (5 / 2) ∧ |(5 / 2 : ℚ) - (2 : ℤ)| = 1 / 2 := by
  constructor
  · unfold Overflow; decide +kernel
  · norm_num

/-- An integer too large for a float cannot be rounded to the nearest integer: Pip dies with OverflowError. -/
theorem C92_nearest_large (i : ℤ) (h : Overflow i) :
    opROUNDNEAREST (X.withDbl L) (ofInt i) none = .error .overflow := by
  have hop : opROUNDNEAREST (X.withDbl L) (ofInt i) none =
      (viaDbl Dbl.remainder (toNum (X.withDbl L) (showInt i)) (.int 1)).bind fun r =>
        if nlt (X.withDbl L) (.int 0) r then (nfloor (X.withDbl L) (toNum (X.withDbl L) (showInt i))).bind fun n => .ok (ofNum _ n)
        else (nceil (X.withDbl L) (toNum (X.withDbl L) (showInt i))).bind fun n => .ok (ofNum _ n) := rfl
  rw [hop, toNum_showInt]
  have : Num.dbl (.int i) = .error .overflow := by
    show Dbl.ofRat i = _
    unfold Dbl.ofRat
    rw [Dbl.round_inf h]
  unfold viaDbl
  rw [this]; rfl

example : Overflow ((2 ^ 1024 : ℤ) : ℚ) := by unfold Overflow; decide +kernel

/-! Halving -/

theorem halve_eq (i : ℤ) (h : IsFloat ((i : ℚ) / 2)) :
    ndiv (X.withDbl L) (toNum (X.withDbl L) (showInt i)) (.int 2) = .ok (.flt (.fin ((i : ℚ) / 2))) := by
  rw [toNum_showInt]
  show (do return Num.flt (← Dbl.ofRat ((i : ℚ) / ((2 : ℤ) : ℚ)))) = _
  unfold Dbl.ofRat
  rw [show ((2 : ℤ) : ℚ) = 2 by norm_num, Dbl.round_self h]; rfl

/-- **C92.** HV and HU halve an integer, rounding down and up, if half the integer is a float: in particular up to
`2 ^ 53`. -/
theorem C92_halve (i : ℤ) (h : IsFloat ((i : ℚ) / 2)) :
    opHALVE (X.withDbl L) (ofInt i) = .ok (ofInt (i / 2)) ∧ opHALVEUP (X.withDbl L) (ofInt i) = .ok (ofInt ((i + 1) / 2)) := by
  have hv : opHALVE (X.withDbl L) (ofInt i) = (ndiv (X.withDbl L) (toNum (X.withDbl L) (showInt i)) (.int 2)).bind fun n =>
    (nfloor (X.withDbl L) n).bind fun n => .ok (ofNum _ n) := rfl
  have hu : opHALVEUP (X.withDbl L) (ofInt i) = (ndiv (X.withDbl L) (toNum (X.withDbl L) (showInt i)) (.int 2)).bind fun n =>
    (nceil (X.withDbl L) n).bind fun n => .ok (ofNum _ n) := rfl
  rw [hv, hu, halve_eq X L i h]
  constructor
  · show Except.ok (ofInt (Rat.floor ((i : ℚ) / 2))) = _
    have : Rat.floor ((i : ℚ) / 2) = i / 2 := by
      have := Rat.floor_intCast_div_natCast i 2
      exact_mod_cast this
    rw [this]
  · show Except.ok (ofInt (Rat.ceil ((i : ℚ) / 2))) = _
    rw [rat_ceil]
    have : ⌈(i : ℚ) / 2⌉ = (i + 1) / 2 := by
      have e := Rat.ceil_intCast_div_natCast i 2
      push_cast at e
      rw [e]; omega
    rw [this]

theorem C92_halve_small (i : ℤ) (h : |i| ≤ 2 ^ 53) : IsFloat ((i : ℚ) / 2) := by
  refine ⟨Dbl.digits_half h, ?_⟩
  have := (Dbl.isDouble_int h).2
  rw [abs_div, abs_of_pos (by norm_num : (0 : ℚ) < 2)]
  have h0 := abs_nonneg (i : ℚ)
  exact lt_of_le_of_lt (by linarith) this

example : |(7 : ℤ)| ≤ 2 ^ 53 := by norm_num

/-- Beyond that they err: HU of 9007199254740993 is one too small, HV of 9007199254740995 one too large. -/
theorem C92_halve_large :
    opHALVEUP (X.withDbl L) (ofInt 9007199254740993) = .ok (ofInt 4503599627370496) ∧
    (9007199254740993 + 1) / 2 = 4503599627370497 ∧
    opHALVE (X.withDbl L) (ofInt 9007199254740995) = .ok (ofInt 4503599627370498) ∧
    9007199254740995 / 2 = 4503599627370497 := by
  have hv : ∀ i, opHALVE (X.withDbl L) (ofInt i) = (ndiv (X.withDbl L) (toNum (X.withDbl L) (showInt i)) (.int 2)).bind fun n =>
    (nfloor (X.withDbl L) n).bind fun n => .ok (ofNum _ n) := fun _ => rfl
  have hu : ∀ i, opHALVEUP (X.withDbl L) (ofInt i) = (ndiv (X.withDbl L) (toNum (X.withDbl L) (showInt i)) (.int 2)).bind fun n =>
    (nceil (X.withDbl L) n).bind fun n => .ok (ofNum _ n) := fun _ => rfl
  have hd : ∀ (i : ℤ) (r : ℚ), Dbl.round ((i : ℚ) / ((2 : ℤ) : ℚ)) = .fin r →
      ndiv (X.withDbl L) (toNum (X.withDbl L) (showInt i)) (.int 2) = .ok (.flt (.fin r)) := by
    intro i r h
    rw [toNum_showInt]
    show (do return Num.flt (← Dbl.ofRat ((i : ℚ) / ((2 : ℤ) : ℚ)))) = _
    unfold Dbl.ofRat
    rw [h]; rfl
  refine ⟨?_, by norm_num, ?_, by norm_num⟩
  · rw [hu, hd _ 4503599627370496 (by decide +kernel)]
    show Except.ok (ofInt (Rat.ceil 4503599627370496)) = _
    rw [show Rat.ceil 4503599627370496 = 4503599627370496 by decide +kernel]
  · rw [hv, hd _ 4503599627370498 (by decide +kernel)]
    show Except.ok (ofInt (Rat.floor 4503599627370498)) = _
    rw [show Rat.floor 4503599627370498 = 4503599627370498 by decide +kernel]

end Pip
