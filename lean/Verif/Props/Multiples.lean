import Verif.Props.FloatOps
import Verif.Props.Table
import Verif.Spec.Toy
/-!
# C106: rounding to multiples
-/

namespace Pip
open Floats

/-! ### Quotients of integers -/

namespace Dbl

/-- The relative error of rounding numbers that are not very small -/
theorem rnd_relative {x : ℚ} (h : (2 : ℚ) ^ (-53 : ℤ) ≤ |x|) : |x - rnd x| ≤ |x| * 2 ^ (-53 : ℤ) := by
  have hp : 0 < |x| := lt_of_lt_of_le (two_pos _) h
  obtain ⟨h1, h2⟩ := ilog2_spec hp
  have hl : -53 ≤ ilog2 |x| := by
    have := two_lt_iff.1 (lt_of_le_of_lt h h2)
    omega
  have hu : unit x = 2 ^ (ilog2 |x| - 52) := by
    unfold unit lastExp
    rw [max_eq_left (by omega)]
  have he := rnd_error x
  rw [hu, two_sub] at he
  have e : (2 : ℚ) ^ (-53 : ℤ) = 1 / (2 ^ (52 : ℤ) * 2) := by norm_num
  rw [e]
  calc _ ≤ _ := he
    _ = 2 ^ ilog2 |x| * (1 / (2 ^ (52 : ℤ) * 2)) := by field_simp
    _ ≤ _ := mul_le_mul_of_nonneg_right h1 (by positivity)

/-- The rounded quotient of two integers is an integer only if the quotient is one. -/
theorem rnd_quot_ne {i j N : ℤ} (hi : |i| < 2 ^ 53) (hj : 0 < j) (hj' : j ≤ 2 ^ 53) (h : i ≠ N * j) :
    rnd ((i : ℚ) / j) ≠ N := by
  have hjq : (0 : ℚ) < j := by exact_mod_cast hj
  have hjq' : (j : ℚ) ≤ 2 ^ 53 := by exact_mod_cast hj'
  have hiq : |(i : ℚ)| < 2 ^ 53 := by exact_mod_cast hi
  intro he
  by_cases hi0 : i = 0
  · subst hi0
    simp only [Int.cast_zero, zero_div, rnd_zero] at he
    have : N = 0 := by exact_mod_cast he.symm
    subst this
    simp at h
  have h1 : (1 : ℚ) ≤ |(i : ℚ)| := by
    have := Int.one_le_abs hi0
    exact_mod_cast this
  have hx : |(i : ℚ) / j| = |(i : ℚ)| / j := by rw [abs_div, abs_of_pos hjq]
  have hs : (2 : ℚ) ^ (-53 : ℤ) ≤ |(i : ℚ) / j| := by
    rw [hx, le_div_iff₀ hjq]
    calc (2 : ℚ) ^ (-53 : ℤ) * j ≤ 2 ^ (-53 : ℤ) * 2 ^ 53 := mul_le_mul_of_nonneg_left hjq' (two_pos _).le
      _ = 1 := by norm_num
      _ ≤ _ := h1
  have hr := rnd_relative hs
  rw [he, hx] at hr
  have hd : (1 : ℚ) ≤ |(i : ℚ) - N * j| := by
    have := Int.one_le_abs (sub_ne_zero.2 h)
    exact_mod_cast this
  have e : |(i : ℚ) / j - N| = |(i : ℚ) - N * j| / j := by
    rw [← abs_of_pos hjq, ← abs_div, abs_of_pos hjq]
    congr 1
    field_simp
  rw [e, div_le_iff₀ hjq] at hr
  have : |(i : ℚ)| / j * 2 ^ (-53 : ℤ) * j = |(i : ℚ)| * 2 ^ (-53 : ℤ) := by field_simp
  rw [this] at hr
  have : |(i : ℚ)| * 2 ^ (-53 : ℤ) < 2 ^ 53 * 2 ^ (-53 : ℤ) := mul_lt_mul_of_pos_right hiq (two_pos _)
  have h3 : (2 : ℚ) ^ 53 * 2 ^ (-53 : ℤ) = 1 := by norm_num
  rw [h3] at this
  linarith

theorem quot_abs {i j : ℤ} (hj : 0 < j) : |⌊(i : ℚ) / j⌋| ≤ |i| + 1 ∧ |⌊(i : ℚ) / j⌋ + 1| ≤ |i| + 1 := by
  have hf : ⌊(i : ℚ) / j⌋ = i / j := by
    have := Rat.floor_intCast_div_natCast i j.toNat
    rwa [show ((j.toNat : ℕ) : ℚ) = (j : ℚ) by
      have : ((j.toNat : ℕ) : ℤ) = j := Int.toNat_of_nonneg hj.le
      exact_mod_cast congrArg (Int.cast : ℤ → ℚ) this, Int.toNat_of_nonneg hj.le] at this
  rw [hf]
  have h1 := Int.emod_add_mul_ediv i j
  have h2 := Int.emod_nonneg i hj.ne'
  have h3 := Int.emod_lt_of_pos i hj
  have h4 : i / j ≤ |i| := by
    rcases le_or_gt 0 i with h | h
    · rw [abs_of_nonneg h]
      exact Int.ediv_le_self _ h
    · have : i / j < 0 := Int.ediv_neg_of_neg_of_pos h hj
      have := abs_nonneg i
      omega
  have h5 : -|i| ≤ i / j := by
    rcases le_or_gt 0 i with h | h
    · have := Int.ediv_nonneg h hj.le
      have := abs_nonneg i
      omega
    · rw [abs_of_neg h, neg_neg]
      rw [Int.le_ediv_iff_mul_le hj]
      nlinarith
  constructor <;> rw [abs_le] <;> constructor <;> omega

theorem floor_quot {i j : ℤ} (hi : |i| < 2 ^ 53) (hj : 0 < j) (hj' : j ≤ 2 ^ 53) :
    ⌊rnd ((i : ℚ) / j)⌋ = ⌊(i : ℚ) / j⌋ ∧ ⌈rnd ((i : ℚ) / j)⌉ = ⌈(i : ℚ) / j⌉ := by
  have hjq : (0 : ℚ) < j := by exact_mod_cast hj
  obtain ⟨q1, q2⟩ := quot_abs (i := i) hj
  have f1 := Int.floor_le ((i : ℚ) / j)
  have f2 := Int.lt_floor_add_one ((i : ℚ) / j)
  have hn : Digits53 (⌊(i : ℚ) / j⌋ : ℚ) := digits_int (by omega)
  have hn1 : Digits53 ((⌊(i : ℚ) / j⌋ + 1 : ℤ) : ℚ) := digits_int (by omega)
  have r1 := le_rnd hn f1
  have r2 := rnd_le hn1 (by push_cast; exact f2.le)
  have r3 : rnd ((i : ℚ) / j) ≠ ((⌊(i : ℚ) / j⌋ + 1 : ℤ) : ℚ) := by
    refine rnd_quot_ne hi hj hj' fun h => ?_
    have : (i : ℚ) / j = ((⌊(i : ℚ) / j⌋ + 1 : ℤ) : ℚ) := by
      rw [div_eq_iff hjq.ne']
      exact_mod_cast h
    push_cast at this
    linarith
  have r4 := lt_of_le_of_ne r2 r3
  push_cast at r4
  have hfl : ⌊rnd ((i : ℚ) / j)⌋ = ⌊(i : ℚ) / j⌋ := by
    rw [Int.floor_eq_iff]
    exact ⟨r1, r4⟩
  refine ⟨hfl, ?_⟩
  by_cases he : i = ⌊(i : ℚ) / j⌋ * j
  · have : (i : ℚ) / j = (⌊(i : ℚ) / j⌋ : ℚ) := by
      rw [div_eq_iff hjq.ne']
      exact_mod_cast he
    rw [this, rnd_of_digits hn]
  · have r5 := rnd_quot_ne hi hj hj' he
    have r6 : (⌊(i : ℚ) / j⌋ : ℚ) < rnd ((i : ℚ) / j) := lt_of_le_of_ne r1 (Ne.symm r5)
    have f3 : (⌊(i : ℚ) / j⌋ : ℚ) < (i : ℚ) / j := by
      refine lt_of_le_of_ne f1 fun h => he ?_
      have := (div_eq_iff hjq.ne').1 h.symm
      exact_mod_cast this
    have c1 : ⌈rnd ((i : ℚ) / j)⌉ = ⌊(i : ℚ) / j⌋ + 1 := by
      rw [Int.ceil_eq_iff]
      push_cast
      constructor <;> linarith
    have c2 : ⌈(i : ℚ) / j⌉ = ⌊(i : ℚ) / j⌋ + 1 := by
      rw [Int.ceil_eq_iff]
      push_cast
      constructor <;> linarith
    rw [c1, c2]

theorem quot_not_overflow {i j : ℤ} (hi : |i| < 2 ^ 53) (hj : 0 < j) : ¬ Overflow ((i : ℚ) / j) := by
  intro h
  have hjq : (1 : ℚ) ≤ j := by exact_mod_cast hj
  have hiq : |(i : ℚ)| < 2 ^ 53 := by exact_mod_cast hi
  have : |(i : ℚ) / j| ≤ |(i : ℚ)| := by
    rw [abs_div, abs_of_pos (by linarith : (0 : ℚ) < j)]
    exact div_le_self (abs_nonneg _) hjq
  have h1 : (2 : ℚ) ^ 1024 - 2 ^ 970 ≤ |(i : ℚ) / j| := h
  have h2 : (2 : ℚ) ^ 53 < 2 ^ 1024 - 2 ^ 970 := by decide +kernel
  exact lt_irrefl _ (lt_of_le_of_lt (le_trans h1 this) (hiq.trans h2))

end Dbl

/-! ### The operators -/

variable (X : Ext) (L : Libm X.Rng)

theorem ndiv_quot {i j : ℤ} (hi : |i| < 2 ^ 53) (hj : 0 < j) :
    ndiv (X.withDbl L) (.int i) (.int j) = .ok (.flt (.fin (Dbl.rnd ((i : ℚ) / j)))) := by
  unfold ndiv
  split
  · next h => cases h; exact absurd hj (by simp)
  · show (if j = 0 then _ else _) = _
    rw [if_neg hj.ne']
    unfold Dbl.ofRat
    rw [(Dbl.round_fin (Dbl.quot_not_overflow hi hj)).1]
    rfl

theorem roundOp_int (r : Num Dbl → E (Num Dbl)) (i j : ℤ) (hj : j ≠ 0) (hi : |i| < 2 ^ 53) (n : ℤ)
    (h1 : |j| = 1 → r (.int i) = .ok (.int n)) (h2 : r (.flt (.fin (Dbl.rnd ((i : ℚ) / |j|)))) = .ok (.int n)) :
    roundOp (X.withDbl L) r (ofInt i) (some (ofInt j)) = .ok (ofInt (n * |j|)) := by
  have hp : precision (X.withDbl L) (some (ofInt j)) = .ok (some (.int |j|)) := by
    unfold precision ofInt
    simp only [toNum_showInt, nabs]
    rw [← Int.abs_eq_natAbs]
    rfl
  have hjp : 0 < |j| := abs_pos.2 hj
  unfold roundOp
  rw [hp]
  show (if neq (X.withDbl L) (.int |j|) (.int 0) then _ else _) = _
  have n0 : neq (X.withDbl L) (.int |j|) (.int 0) = false := by
    show decide (|j| = 0) = false
    simp [hj]
  rw [n0]
  simp only [Bool.false_eq_true, if_false]
  have n1 : neq (X.withDbl L) (.int |j|) (.int 1) = decide (|j| = 1) := rfl
  rw [n1]
  by_cases h : |j| = 1
  · simp only [h, decide_true, if_true, toNum_showInt, h1 h, mul_one]
    rfl
  · simp only [h, decide_false, Bool.false_eq_true, if_false, toNum_showInt]
    have := ndiv_quot X L hi hjp
    push_cast at this
    rw [this]
    show (r (.flt (.fin (Dbl.rnd ((i : ℚ) / |(j : ℚ)|))))).bind _ = _
    push_cast at h2
    rw [h2]
    rfl

theorem mult_floor (i : ℤ) {k : ℤ} (hk : 0 < k) : ⌊(i : ℚ) / k⌋ * k ≤ i ∧ i < ⌊(i : ℚ) / k⌋ * k + k := by
  have hkq : (0 : ℚ) < k := by exact_mod_cast hk
  have f1 := Int.floor_le ((i : ℚ) / k)
  have f2 := Int.lt_floor_add_one ((i : ℚ) / k)
  rw [le_div_iff₀ hkq] at f1
  rw [div_lt_iff₀ hkq] at f2
  constructor
  · exact_mod_cast f1
  · have : (i : ℚ) < ((⌊(i : ℚ) / k⌋ * k + k : ℤ) : ℚ) := by push_cast; linarith
    exact_mod_cast this

theorem mult_ceil (i : ℤ) {k : ℤ} (hk : 0 < k) : i ≤ ⌈(i : ℚ) / k⌉ * k ∧ ⌈(i : ℚ) / k⌉ * k < i + k := by
  have hkq : (0 : ℚ) < k := by exact_mod_cast hk
  have f1 := Int.le_ceil ((i : ℚ) / k)
  have f2 := Int.ceil_lt_add_one ((i : ℚ) / k)
  rw [div_le_iff₀ hkq] at f1
  have f3 : ((⌈(i : ℚ) / k⌉ : ℤ) : ℚ) * k < i + k := by
    calc _ < ((i : ℚ) / k + 1) * k := mul_lt_mul_of_pos_right f2 hkq
      _ = _ := by field_simp
  constructor
  · exact_mod_cast f1
  · exact_mod_cast f3

variable {X L}

/-- `i|<j`: the largest multiple of `j` that is at most `i` -/
theorem C106_floor (a b : Tree) (s s1 s2 : St (X.withDbl L)) (i j : ℤ) (ha : a.notOpr = true) (hb : b.notOpr = true)
    (hv : Vals a s (.ok (ofInt i), s1)) (hw : Vals b s1 (.ok (ofInt j), s2)) (hj : j ≠ 0) (hi : |i| < 2 ^ 53) (hj' : |j| ≤ 2 ^ 53) :
    ∃ m, Vals (.node (op2 (s% "|<")) [a, b]) s (.ok (ofInt m), s2) ∧ j ∣ m ∧ m ≤ i ∧ i < m + |j| := by
  have hjp : 0 < |j| := abs_pos.2 hj
  refine ⟨⌊(i : ℚ) / (|j| : ℤ)⌋ * |j|, ?_, (dvd_abs _ _).2 (dvd_refl _) |>.mul_left _, mult_floor i hjp⟩
  refine C73_value_binary _ _ _ (by row) a b s s1 s2 _ _ _ ha hb hv hw rfl rfl (congrArg val (roundOp_int X L _ i j hj hi _ ?_ ?_))
  · intro h
    rw [h]
    simp [nfloor]
  · show (Dbl.fin _).toInt Rat.floor = _
    show Except.ok (Num.int ⌊Dbl.rnd ((i : ℚ) / (|j| : ℤ))⌋) = _
    rw [(Dbl.floor_quot hi hjp hj').1]

/-- `i>|j`: the smallest multiple of `j` that is at least `i` -/
theorem C106_ceil (a b : Tree) (s s1 s2 : St (X.withDbl L)) (i j : ℤ) (ha : a.notOpr = true) (hb : b.notOpr = true)
    (hv : Vals a s (.ok (ofInt i), s1)) (hw : Vals b s1 (.ok (ofInt j), s2)) (hj : j ≠ 0) (hi : |i| < 2 ^ 53) (hj' : |j| ≤ 2 ^ 53) :
    ∃ m, Vals (.node (op2 (s% ">|")) [a, b]) s (.ok (ofInt m), s2) ∧ j ∣ m ∧ i ≤ m ∧ m < i + |j| := by
  have hjp : 0 < |j| := abs_pos.2 hj
  refine ⟨⌈(i : ℚ) / (|j| : ℤ)⌉ * |j|, ?_, (dvd_abs _ _).2 (dvd_refl _) |>.mul_left _, mult_ceil i hjp⟩
  refine C73_value_binary _ _ _ (by row) a b s s1 s2 _ _ _ ha hb hv hw rfl rfl (congrArg val (roundOp_int X L _ i j hj hi _ ?_ ?_))
  · intro h
    rw [h]
    simp [nceil]
  · show (Dbl.fin _).toInt Rat.ceil = _
    show Except.ok (Num.int (Rat.ceil (Dbl.rnd ((i : ℚ) / (|j| : ℤ))))) = _
    rw [rat_ceil, (Dbl.floor_quot hi hjp hj').2]

/-- `i RZ j`: the multiple of `j` nearest to `i` among those that are not farther from zero -/
theorem C106_zero (a b : Tree) (s s1 s2 : St (X.withDbl L)) (i j : ℤ) (ha : a.notOpr = true) (hb : b.notOpr = true)
    (hv : Vals a s (.ok (ofInt i), s1)) (hw : Vals b s1 (.ok (ofInt j), s2)) (hj : j ≠ 0) (hi : |i| < 2 ^ 53) (hj' : |j| ≤ 2 ^ 53) :
    ∃ m, Vals (.node (op2 (s% "RZ")) [a, b]) s (.ok (ofInt m), s2) ∧ j ∣ m ∧ |m| ≤ |i| ∧ |i - m| < |j| ∧ 0 ≤ m * i := by
  have hjp : 0 < |j| := abs_pos.2 hj
  have hjq : (0 : ℚ) < (|j| : ℤ) := by exact_mod_cast hjp
  obtain ⟨q1, q2⟩ := Dbl.floor_quot hi hjp hj'
  by_cases hneg : i < 0
  · obtain ⟨m1, m2⟩ := mult_ceil i hjp
    have hm0 : ⌈(i : ℚ) / (|j| : ℤ)⌉ * |j| ≤ 0 := by
      refine mul_nonpos_of_nonpos_of_nonneg ?_ hjp.le
      rw [Int.ceil_le]
      refine div_nonpos_of_nonpos_of_nonneg ?_ hjq.le
      have : i ≤ 0 := hneg.le
      exact_mod_cast this
    refine ⟨⌈(i : ℚ) / (|j| : ℤ)⌉ * |j|, ?_, (dvd_abs _ _).2 (dvd_refl _) |>.mul_left _, ?_, ?_, ?_⟩
    · refine C73_value_binary _ _ _ (by row) a b s s1 s2 _ _ _ ha hb hv hw rfl rfl
        (congrArg val (roundOp_int X L _ i j hj hi _ ?_ ?_))
      · intro h
        rw [h]
        simp [ntrunc]
      · show (Dbl.fin _).toInt Dbl.truncRat = _
        show Except.ok (Num.int (Dbl.truncRat (Dbl.rnd ((i : ℚ) / (|j| : ℤ))))) = _
        have hr : Dbl.rnd ((i : ℚ) / (|j| : ℤ)) < 0 := by
          have h0 : Dbl.rnd ((i : ℚ) / (|j| : ℤ)) ≤ ((0 : ℤ) : ℚ) := by
            refine Dbl.rnd_le (Dbl.digits_int (by norm_num)) ?_
            rw [Int.cast_zero]
            refine div_nonpos_of_nonpos_of_nonneg ?_ hjq.le
            have : i ≤ 0 := hneg.le
            exact_mod_cast this
          have := lt_of_le_of_ne h0 (Dbl.rnd_quot_ne hi hjp hj' (by simpa using hneg.ne))
          simpa using this
        unfold Dbl.truncRat
        rw [if_pos hr, rat_ceil, q2]
    · rw [abs_of_nonpos hm0, abs_of_neg hneg]
      omega
    · rw [abs_lt]
      constructor <;> omega
    · exact mul_nonneg_of_nonpos_of_nonpos hm0 hneg.le
  · have hpos : 0 ≤ i := not_lt.1 hneg
    obtain ⟨m1, m2⟩ := mult_floor i hjp
    have hx0 : 0 ≤ (i : ℚ) / (|j| : ℤ) := div_nonneg (by exact_mod_cast hpos) hjq.le
    have hm0 : 0 ≤ ⌊(i : ℚ) / (|j| : ℤ)⌋ * |j| := mul_nonneg (Int.floor_nonneg.2 hx0) hjp.le
    refine ⟨⌊(i : ℚ) / (|j| : ℤ)⌋ * |j|, ?_, (dvd_abs _ _).2 (dvd_refl _) |>.mul_left _, ?_, ?_, ?_⟩
    · refine C73_value_binary _ _ _ (by row) a b s s1 s2 _ _ _ ha hb hv hw rfl rfl
        (congrArg val (roundOp_int X L _ i j hj hi _ ?_ ?_))
      · intro h
        rw [h]
        simp [ntrunc]
      · show (Dbl.fin _).toInt Dbl.truncRat = _
        show Except.ok (Num.int (Dbl.truncRat (Dbl.rnd ((i : ℚ) / (|j| : ℤ))))) = _
        have hr : ¬ Dbl.rnd ((i : ℚ) / (|j| : ℤ)) < 0 := by
          rw [not_lt]
          exact Dbl.le_rnd Dbl.digits_zero hx0
        unfold Dbl.truncRat
        rw [if_neg hr, ← q1]
        rfl
    · rw [abs_of_nonneg hm0, abs_of_nonneg hpos]
      omega
    · rw [abs_lt]
      constructor <;> omega
    · exact mul_nonneg hm0 hpos

/-- `i RN j`: the multiple of `j` nearest to `i`, of two the one that is an even multiple -/
theorem C106_nearest (a b : Tree) (s s1 s2 : St (X.withDbl L)) (i j : ℤ) (ha : a.notOpr = true) (hb : b.notOpr = true)
    (hv : Vals a s (.ok (ofInt i), s1)) (hw : Vals b s1 (.ok (ofInt j), s2)) (hj : j ≠ 0) (hi : |i| ≤ 2 ^ 52) (hj' : |j| ≤ 2 ^ 52) :
    ∃ n, Vals (.node (op2 (s% "RN")) [a, b]) s (.ok (ofInt (n * j)), s2) ∧ 2 * |i - n * j| ≤ |j| ∧
      (2 * |i - n * j| = |j| → ∃ k, n = 2 * k) := by
  have hjp : 0 < |j| := abs_pos.2 hj
  have hjq : (0 : ℚ) < (|j| : ℤ) := by exact_mod_cast hjp
  set n := Dbl.nearest ((i : ℚ) / (|j| : ℤ)) with hn
  have e1 : |(i : ℚ) / (|j| : ℤ) - n| * (|j| : ℤ) = ((|i - n * (|j|)| : ℤ) : ℚ) := by
    push_cast
    rw [show |(j : ℚ)| = ((|j| : ℤ) : ℚ) by push_cast; rfl]
    conv_lhs => rw [← abs_of_pos hjq, ← abs_mul, abs_of_pos hjq]
    congr 1
    field_simp
  have b1 : 2 * |i - n * (|j|)| ≤ |j| := by
    have h := Dbl.nearest_le ((i : ℚ) / (|j| : ℤ))
    have h2 := mul_le_mul_of_nonneg_right h hjq.le
    rw [e1] at h2
    have : (2 : ℚ) * ((|i - n * (|j|)| : ℤ) : ℚ) ≤ (|j| : ℤ) := by linarith
    exact_mod_cast this
  have b2 : 2 * |i - n * (|j|)| = |j| → ∃ k, n = 2 * k := by
    intro h
    refine nearest_even ?_
    have h' : (2 : ℚ) * ((|i - n * (|j|)| : ℤ) : ℚ) = (|j| : ℤ) := by exact_mod_cast h
    rw [← e1] at h'
    have : |(i : ℚ) / (|j| : ℤ) - n| * (|j| : ℤ) = 1 / 2 * (|j| : ℤ) := by linarith
    exact mul_right_cancel₀ hjq.ne' this
  have hm : |n * (|j|)| ≤ 2 ^ 53 := by
    have h1 : |n * (|j|)| ≤ |i| + |i - n * (|j|)| := by
      have := abs_sub_abs_le_abs_sub (n * |j|) i
      rw [abs_sub_comm] at this
      omega
    omega
  have hi53 : |i| ≤ 2 ^ 53 := by omega
  have hop : opROUNDNEAREST (X.withDbl L) (ofInt i) (some (ofInt j)) = .ok (ofInt (n * |j|)) := by
    have hp : precision (X.withDbl L) (some (ofInt j)) = .ok (some (.int |j|)) := by
      unfold precision ofInt
      simp only [toNum_showInt, nabs]
      rw [← Int.abs_eq_natAbs]
      rfl
    have dI : Num.dbl (.int i) = .ok (.fin (i : ℚ)) := ofRat_eq (Dbl.round_self (Dbl.isDouble_int hi53)) ⟨_, rfl⟩
    have dJ : Num.dbl (.int |j|) = .ok (.fin ((|j| : ℤ) : ℚ)) :=
      ofRat_eq (Dbl.round_self (Dbl.isDouble_int (by rw [abs_abs]; omega))) ⟨_, rfl⟩
    have hrem : ∀ k : ℤ, Num.dbl (.int k) = .ok (.fin (k : ℚ)) → k ≠ 0 →
        dblFn2 L.fn2 .remainder (.int i) (.int k) = .ok (.flt (.fin (i - Dbl.nearest ((i : ℚ) / k) * k))) := by
      intro k hk hk0
      have := viaDbl_ok (f := Dbl.remainder) dI hk
      have e : Dbl.remainder (.fin i) (.fin (k : ℚ)) = .ok (.fin (i - Dbl.nearest ((i : ℚ) / k) * k)) := by
        unfold Dbl.remainder
        split <;> simp_all
      rw [e] at this
      exact this
    unfold opROUNDNEAREST
    rw [hp]
    show (if neq (X.withDbl L) (.int |j|) (.int 0) then _ else _) = _
    have n0 : neq (X.withDbl L) (.int |j|) (.int 0) = false := by
      show decide (|j| = 0) = false
      simp [hj]
    have n1 : neq (X.withDbl L) (.int |j|) (.int 1) = decide (|j| = 1) := rfl
    rw [n0, n1]
    simp only [Bool.false_eq_true, if_false]
    by_cases h : |j| = 1
    · have hn1 : n = i := by
        rw [hn, h]
        simp [Dbl.nearest_int]
      simp only [h, decide_true, if_true, toNum_showInt, mul_one, hn1]
      have := hrem 1 (h ▸ dJ) one_ne_zero
      rw [this]
      show (if _ then _ else _) = _
      split <;> rfl
    · simp only [h, decide_false, Bool.false_eq_true, if_false, toNum_showInt]
      rw [hrem |j| dJ hjp.ne', ← hn]
      show (viaDbl (fun x y => .ok (x.sub y)) (.int i) (.flt (.fin (i - n * (|j| : ℤ))))).bind _ = _
      have hs : Dbl.sub (.fin (i : ℚ)) (.fin (i - n * (|j| : ℤ))) = .fin ((n * |j| : ℤ) : ℚ) := by
        show Dbl.round (i + -(i - n * (|j| : ℤ))) = _
        have : ((i : ℚ) + -(i - n * (|j| : ℤ))) = ((n * |j| : ℤ) : ℚ) := by push_cast; ring
        rw [this]
        exact Dbl.round_self (Dbl.isDouble_int hm)
      have := viaDbl_ok (f := fun x y => .ok (x.sub y)) (b := .flt (.fin (i - n * (|j| : ℤ)))) dI rfl
      rw [this]
      simp only [hs]
      show Except.ok (Val.scalar (numStr (X.withDbl L) (.flt (.fin ((n * |j| : ℤ) : ℚ))))) = _
      rw [numStr_int X L (Dbl.isDouble_int hm) (lt_of_le_of_lt hm (by norm_num))]
      rfl
  rcases abs_cases j with ⟨h, _⟩ | ⟨h, _⟩
  · rw [h] at hop b1 b2
    refine ⟨n, ?_, ?_, ?_⟩
    · exact C73_value_binary _ _ _ (by row) a b s s1 s2 _ _ _ ha hb hv hw rfl rfl (congrArg val hop)
    · rw [h]; exact b1
    · rw [h]; exact b2
  · rw [h, mul_neg, ← neg_mul] at hop b1 b2
    refine ⟨-n, ?_, ?_, ?_⟩
    · exact C73_value_binary _ _ _ (by row) a b s s1 s2 _ _ _ ha hb hv hw rfl rfl (congrArg val hop)
    · rw [h]; exact b1
    · rw [h]
      intro hh
      obtain ⟨k, hk⟩ := b2 hh
      exact ⟨-k, by omega⟩

/-- With floats RN gives the float nearest to the multiple of the second operand that is nearest to the first one; this is
rounded once only. (For 1 and -1 as the second operand see `C92_nearest`.) -/
theorem C106_nearest_float {x y : Str} {p q : ℚ} (ha : Stands X L x p) (hb : Stands X L y q) (hp : IsFloat p) (hq : IsFloat q)
    (hq0 : q ≠ 0) (hq1 : |q| ≠ 1) : ∃ n : ℤ, Delivers X L (n * q) (opROUNDNEAREST (X.withDbl L) (.scalar x) (some (.scalar y))) ∧
      |p - n * q| ≤ |q| / 2 ∧ (|p - n * q| = |q| / 2 → ∃ k, n = 2 * k) := by
  have hqp : 0 < |q| := abs_pos.2 hq0
  set n := Dbl.nearest (p / |q|) with hn
  have e1 : |p / (|q|) - n| * |q| = |p - n * (|q|)| := by
    conv_lhs => rw [← abs_of_pos hqp, ← abs_mul, abs_of_pos hqp]
    congr 1
    field_simp
  have b1 : |p - n * (|q|)| ≤ |q| / 2 := by
    have h2 := mul_le_mul_of_nonneg_right (Dbl.nearest_le (p / |q|)) hqp.le
    rw [← hn, e1] at h2
    linarith
  have b2 : |p - n * (|q|)| = |q| / 2 → ∃ k, n = 2 * k := by
    intro h
    refine nearest_even ?_
    rw [← e1] at h
    have : |p / (|q|) - n| * |q| = 1 / 2 * |q| := by linarith
    exact mul_right_cancel₀ hqp.ne' this
  obtain ⟨P, hP, hPi⟩ : ∃ P, nabs (X.withDbl L) (toNum (X.withDbl L) y) = .ok P ∧ P.dbl = .ok (.fin |q|) ∧ P.ext = some (.num |q|) := by
    have hd : IsFloat |q| := by
      rcases abs_choice q with h | h <;> rw [h]
      · exact hq
      · exact ⟨Dbl.Digits53.neg hq.1, by rw [abs_neg]; exact hq.2⟩
    rcases hb with ⟨i, h, rfl⟩ | h
    · refine ⟨.int i.natAbs, by rw [h]; rfl, ?_, ?_⟩
      · refine ofRat_eq ?_ ⟨_, rfl⟩
        have : (((i.natAbs : ℕ) : ℤ) : ℚ) = |(i : ℚ)| := by
          rw [← Int.abs_eq_natAbs]
          push_cast
          rfl
        rw [this]
        exact Dbl.round_self hd
      · show some (Ext3.num (((i.natAbs : ℕ) : ℤ) : ℚ)) = _
        rw [← Int.abs_eq_natAbs]
        push_cast
        rfl
    · have : (if q < 0 then -q else q) = |q| := by
        split
        · next h => rw [abs_of_neg h]
        · next h => rw [abs_of_nonneg (not_lt.1 h)]
      refine ⟨.flt (.fin |q|), ?_, rfl, rfl⟩
      rw [h]
      show Except.ok (Num.flt (Dbl.fin (if q < 0 then -q else q))) = _
      rw [this]
  have neqs : ∀ k : ℤ, neq (X.withDbl L) P (.int k) = decide (|q| = k) := by
    intro k
    have key : cmpBy Ext3.eq P (.int k) = decide (|q| = k) := by
      unfold cmpBy
      rw [hPi.2]
      rfl
    cases P with
    | int i =>
      have : (i : ℚ) = |q| := by simpa [Num.ext] using hPi.2
      rw [← this]
      show decide (i = k) = _
      rw [decide_eq_decide]
      exact Int.cast_inj.symm
    | flt f => exact key
  have hop : opROUNDNEAREST (X.withDbl L) (.scalar x) (some (.scalar y)) =
      .ok (ofNum (X.withDbl L) (.flt (Dbl.round (n * |q|)))) := by
    unfold opROUNDNEAREST
    have : precision (X.withDbl L) (some (.scalar y)) = .ok (some P) := by
      show (nabs (X.withDbl L) (toNum (X.withDbl L) y)).bind (fun n => .ok (some n)) = _
      rw [hP]
      rfl
    rw [this]
    show (if neq (X.withDbl L) P (.int 0) then _ else _) = _
    rw [neqs 0, neqs 1]
    simp only [Int.cast_zero, Int.cast_one, hqp.ne', hq1, decide_false, Bool.false_eq_true, if_false]
    have hx := stands_dbl X L ha hp
    have hrem : dblFn2 L.fn2 .remainder (toNum (X.withDbl L) x) P = .ok (.flt (.fin (p - n * |q|))) := by
      have := viaDbl_ok (f := Dbl.remainder) hx hPi.1
      have e : Dbl.remainder (.fin p) (.fin |q|) = .ok (.fin (p - n * |q|)) := by
        unfold Dbl.remainder
        split <;> simp_all
      rw [e] at this
      exact this
    rw [hrem]
    show (nsub (X.withDbl L) (toNum (X.withDbl L) x) (.flt (.fin (p - n * |q|)))).bind _ = _
    rw [nsub_flt (.inr ⟨_, rfl⟩)]
    have := viaDbl_ok (f := fun x y => .ok (x.sub y)) (b := .flt (.fin (p - n * |q|))) hx rfl
    show (viaDbl (fun x y => .ok (x.sub y)) _ _).bind _ = _
    rw [this]
    have : Dbl.sub (.fin p) (.fin (p - n * |q|)) = Dbl.round (n * |q|) := by
      show Dbl.round (p + -(p - n * |q|)) = _
      congr 1
      ring
    simp only [this]
    rfl
  have hdel := delivers_round X L (n * |q|)
  rw [← hop] at hdel
  rcases abs_cases q with ⟨h, _⟩ | ⟨h, _⟩
  · rw [h] at hdel b1 b2
    refine ⟨n, hdel, ?_, ?_⟩
    · rw [h]; exact b1
    · rw [h]; exact b2
  · have e2 : (n : ℚ) * |q| = ((-n : ℤ) : ℚ) * q := by rw [h]; push_cast; ring
    rw [e2] at hdel b1 b2
    refine ⟨-n, hdel, b1, fun hh => ?_⟩
    obtain ⟨k, hk⟩ := b2 hh
    exact ⟨-k, by omega⟩

/-- Deviation: the quotient is rounded to a float first, so with large numbers "rounding down" may give a larger number. -/
theorem C106_large (a b : Tree) (s s1 s2 : St (X.withDbl L)) (ha : a.notOpr = true) (hb : b.notOpr = true)
    (hv : Vals a s (.ok (ofInt 9007199254740995), s1)) (hw : Vals b s1 (.ok (ofInt 2), s2)) :
    Vals (.node (op2 (s% "|<")) [a, b]) s (.ok (ofInt 9007199254740996), s2) := by
  suffices h : opFLOOR (X.withDbl L) (ofInt 9007199254740995) (some (ofInt 2)) = .ok (ofInt 9007199254740996) from
    C73_value_binary _ _ _ (by row) a b s s1 s2 _ _ _ ha hb hv hw rfl rfl (congrArg val h)
  have hd : ndiv (X.withDbl L) (.int 9007199254740995) (.int 2) = .ok (.flt (.fin 4503599627370498)) := by
    show (do return Num.flt (← Dbl.ofRat (((9007199254740995 : ℤ) : ℚ) / ((2 : ℤ) : ℚ)))) = _
    have : Dbl.ofRat (((9007199254740995 : ℤ) : ℚ) / ((2 : ℤ) : ℚ)) = .ok (.fin 4503599627370498) :=
      ofRat_eq (by decide +kernel) ⟨_, rfl⟩
    rw [this]
    rfl
  have hp : precision (X.withDbl L) (some (ofInt 2)) = .ok (some (.int 2)) := by
    unfold precision ofInt
    simp only [toNum_showInt]
    rfl
  unfold opFLOOR roundOp
  rw [hp]
  show (do return ofNum (X.withDbl L) (← nmul (X.withDbl L) (← nfloor (X.withDbl L) (← ndiv (X.withDbl L)
    (toNum _ (showInt 9007199254740995)) (.int 2))) (.int 2))) = _
  rw [toNum_showInt, hd]
  rfl

/-- With the second operand 0 nothing is rounded: any text stays as it is. -/
theorem C106_none (n : Str) (hn : n ∈ [s% "|<", s% ">|", s% "RZ", s% "RN"]) (a b : Tree) (s s1 s2 : St X) (x : Str)
    (ha : a.notOpr = true) (hb : b.notOpr = true) (hv : Vals a s (.ok (.scalar x), s1)) (hw : Vals b s1 (.ok (ofInt 0), s2)) :
    Vals (.node (op2 n) [a, b]) s (.ok (.scalar x), s2) := by
  simp only [List.mem_cons, List.not_mem_nil, or_false] at hn
  rcases hn with rfl | rfl | rfl | rfl <;>
    exact C73_value_binary _ _ _ (by row) a b s s1 s2 _ _ _ ha hb hv hw rfl rfl rfl

/-- A number with nil or a Pattern as the other operand gives nil. -/
theorem C106_other (n : Str) (hn : n ∈ [s% "|<", s% ">|", s% "RZ", s% "RN"]) (a b : Tree) (s s1 s2 : St X) (i : ℤ) (v w : Val)
    (ha : a.notOpr = true) (hb : b.notOpr = true) (hv : Vals a s (.ok v, s1)) (hw : Vals b s1 (.ok w, s2))
    (h : (v = ofInt i ∧ (w = .nil ∨ ∃ r f, w = .pattern r f)) ∨ ((v = .nil ∨ ∃ r f, v = .pattern r f) ∧ w = ofInt i)) :
    Vals (.node (op2 n) [a, b]) s (.ok .nil, s2) := by
  have hp : precision X (some (ofInt i)) = .ok (some (.int i.natAbs)) := by
    unfold precision ofInt
    simp only [toNum_showInt]
    rfl
  have h1 : ∀ r : Num X.F → E (Num X.F), roundOp X r v (some w) = .ok .nil := by
    intro r
    unfold roundOp
    rcases h with ⟨rfl, rfl | ⟨_, _, rfl⟩⟩ | ⟨rfl | ⟨_, _, rfl⟩, rfl⟩
    · rfl
    · rfl
    · rw [hp]; rfl
    · rw [hp]; rfl
  have h2 : opROUNDNEAREST X v (some w) = .ok .nil := by
    unfold opROUNDNEAREST
    rcases h with ⟨rfl, rfl | ⟨_, _, rfl⟩⟩ | ⟨rfl | ⟨_, _, rfl⟩, rfl⟩
    · rfl
    · rfl
    · rw [hp]; rfl
    · rw [hp]; rfl
  have hk : Takes.items2.ok v = true ∧ Takes.items2.ok w = true := by
    rcases h with ⟨rfl, rfl | ⟨_, _, rfl⟩⟩ | ⟨rfl | ⟨_, _, rfl⟩, rfl⟩ <;> exact ⟨rfl, rfl⟩
  simp only [List.mem_cons, List.not_mem_nil, or_false] at hn
  rcases hn with rfl | rfl | rfl | rfl
  · exact C73_value_binary _ _ _ (by row) a b s s1 s2 _ _ _ ha hb hv hw hk.1 hk.2 (congrArg val (h1 _))
  · exact C73_value_binary _ _ _ (by row) a b s s1 s2 _ _ _ ha hb hv hw hk.1 hk.2 (congrArg val (h1 _))
  · exact C73_value_binary _ _ _ (by row) a b s s1 s2 _ _ _ ha hb hv hw hk.1 hk.2 (congrArg val (h1 _))
  · exact C73_value_binary _ _ _ (by row) a b s s1 s2 _ _ _ ha hb hv hw hk.1 hk.2 (congrArg val h2)

/-! ### Cases -/

def dblToy : Ext := toyExt.withDbl ⟨fun _ n => .ok n, fun _ n _ => .ok n, fun r => (.fin 0, r)⟩

def dblOut (text : Str) : Option Str :=
  match compile text with
  | .ok (.block stmts ret) =>
    match executeProgram (run dblToy 60) (stmts ++ [ret]) [] (St.init dblToy [] ()) with
    | (.ok _, s) => some s.out
    | _ => none
  | _ => none

/-- Multiples of 5: below, above, towards zero, nearest; 5 is an odd multiple of 5 and as far from 7.5 as 10. -/
example : dblOut (s% "P-17|<5 P-17>|5 P-17RZ-5 P-17RN5 15RN10") = some (s% "-20\n-15\n-15\n-15\n20\n") := by
  decide +kernel

example : dblOut (s% "P3.14159RN0.01 2.675RN0.01") = some (s% "3.14\n2.67\n") := by
  decide +kernel

/-- With floats: 0.3 counts as less than three times 0.1. -/
example : dblOut (s% "0.3|<0.1") = some (s% "0.2\n") := by
  decide +kernel

example : dblOut (s% "\"abc\"|<0") = some (s% "abc\n") := by
  decide +kernel

example : (-17 : ℤ).natAbs < 2 ^ 53 := by decide

end Pip
