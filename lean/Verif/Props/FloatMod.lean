import Verif.Props.FloatOps
import Verif.Props.Arith
/-! C93: remainders and integer quotients of floats. -/

namespace Pip
open Floats

variable (X : Ext) (L : Libm X.Rng) {a b : Str} {p q : ℚ}

namespace Dbl

/-- What remains of one float after taking away a multiple of another one is a float, if it is no larger than both. -/
theorem digits_combine {p q r : ℚ} (hp : Digits53 p) (hq : Digits53 q) (k : ℤ) (hr : r = p - k * q)
    (h1 : |r| ≤ |p|) (h2 : |r| ≤ |q|) : Digits53 r := by
  obtain ⟨m, e, hm, he, rfl⟩ := hp
  obtain ⟨n, f, hn, hf, rfl⟩ := hq
  have hb : ∀ (z u g : ℤ), |u| ≤ 2 ^ 53 → |((z : ℚ) * 2 ^ g)| ≤ |(u : ℚ) * 2 ^ g| → |z| ≤ 2 ^ 53 := by
    intro z u g hu hz
    rw [abs_mul, abs_mul, abs_of_pos (two_pos g)] at hz
    have := le_of_mul_le_mul_right hz (two_pos g)
    exact le_trans (by exact_mod_cast this) hu
  rcases le_total e f with hef | hef
  · have hz : r = ((m - k * n * 2 ^ (f - e).toNat : ℤ) : ℚ) * 2 ^ e := by
      rw [hr]; push_cast
      have : (2 : ℚ) ^ f = 2 ^ (f - e).toNat * 2 ^ e := by
        rw [← zpow_natCast, ← two_add]; congr 1; omega
      rw [this]; ring
    exact ⟨_, e, hb _ m e hm (hz ▸ h1), he, hz⟩
  · have hz : r = ((m * 2 ^ (e - f).toNat - k * n : ℤ) : ℚ) * 2 ^ f := by
      rw [hr]; push_cast
      have : (2 : ℚ) ^ e = 2 ^ (e - f).toNat * 2 ^ f := by
        rw [← zpow_natCast, ← two_add]; congr 1; omega
      rw [this]; ring
    exact ⟨_, f, hb _ n f hn (hz ▸ h2), hf, hz⟩

theorem not_overflow {x : ℚ} (h : IsDouble x) : ¬ Overflow x := by
  intro ho
  have h1 := round_self h
  rw [round_inf ho] at h1
  cases h1

theorem not_overflow_of_le {x y : ℚ} (h : IsDouble y) (hx : |x| ≤ |y|) : ¬ Overflow x :=
  fun ho => not_overflow h (le_trans ho hx)

/-- The relative error of rounding -/
theorem rnd_rel_normal {x : ℚ} (h : (2 : ℚ) ^ (-1022 : ℤ) ≤ |x|) : |x - rnd x| ≤ |x| * 2 ^ (-53 : ℤ) := by
  have hpos : 0 < |x| := lt_of_lt_of_le (two_pos _) h
  have hl : -1074 ≤ ilog2 |x| - 52 := by
    have h1 := (ilog2_spec hpos).2
    have := two_lt_iff.1 (lt_of_le_of_lt h h1)
    omega
  have hu : unit x = 2 ^ (ilog2 |x| - 52) := by unfold unit lastExp; rw [max_eq_left hl]
  have h1 := rnd_error x
  have h2 := (ilog2_spec hpos).1
  rw [hu] at h1
  have : (2 : ℚ) ^ (ilog2 |x| - 52) / 2 = 2 ^ ilog2 |x| * 2 ^ (-53 : ℤ) := by
    rw [← two_add, show ilog2 |x| - 52 = (ilog2 |x| + -53) + 1 by ring, two_add]; norm_num
  rw [this] at h1
  exact le_trans h1 (mul_le_mul_of_nonneg_right h2 (two_pos _).le)

/-- The same for numbers that are no finer than the finest floats -/
theorem rnd_rel {x : ℚ} (h : ∃ z : ℤ, x = z * 2 ^ (-1074 : ℤ)) : |x - rnd x| ≤ |x| * 2 ^ (-53 : ℤ) := by
  by_cases h0 : x = 0
  · rw [h0, rnd_zero]; simp
  have hpos : 0 < |x| := abs_pos.2 h0
  obtain ⟨z, hz⟩ := h
  by_cases hl : (2 : ℚ) ^ (-1022 : ℤ) ≤ |x|
  · exact rnd_rel_normal hl
  · have hu : unit x = 2 ^ (-1074 : ℤ) := by
      have := two_lt_iff.1 (lt_of_le_of_lt (ilog2_spec hpos).1 (not_le.1 hl))
      unfold unit lastExp; rw [max_eq_right (by omega)]
    have h1 := rnd_best_multiple x z
    rw [hu, ← hz, sub_self, abs_zero] at h1
    exact le_trans h1 (mul_nonneg hpos.le (two_pos _).le)

theorem trunc_cases {x : ℚ} : (0 ≤ x ∧ truncRat x = ⌊x⌋) ∨ (x < 0 ∧ truncRat x = ⌈x⌉) := by
  by_cases h : x < 0
  · right
    refine ⟨h, ?_⟩
    unfold truncRat
    rw [if_pos h, rat_ceil]
  · left
    refine ⟨not_lt.1 h, ?_⟩
    unfold truncRat
    rw [if_neg h]; rfl

/-- `fmod` is exact. -/
theorem fmod_isDouble {p q : ℚ} (hp : IsDouble p) (hq : IsDouble q) (h0 : q ≠ 0) :
    IsDouble (fmod p q) ∧ |fmod p q| ≤ |p| ∧ |fmod p q| < |q| ∧ |truncRat (p / q) * q| ≤ |p| := by
  have hm : fmod p q = (p / q - truncRat (p / q)) * q := by
    unfold fmod; rw [sub_mul, div_mul_cancel₀ _ h0]
  have hp' : p = p / q * q := (div_mul_cancel₀ _ h0).symm
  have hqp := abs_pos.2 h0
  have key : |p / q - truncRat (p / q)| ≤ |p / q| ∧ |p / q - truncRat (p / q)| < 1 ∧ |(truncRat (p / q) : ℚ)| ≤ |p / q| := by
    generalize p / q = x
    rcases trunc_cases (x := x) with ⟨h, e⟩ | ⟨h, e⟩ <;> rw [e]
    · have h1 := Int.floor_le x
      have h2 := Int.lt_floor_add_one x
      have h3 : (0 : ℚ) ≤ ⌊x⌋ := by exact_mod_cast Int.floor_nonneg.2 h
      rw [abs_of_nonneg (by linarith), abs_of_nonneg h, abs_of_nonneg h3]
      exact ⟨by linarith, by linarith, h1⟩
    · have h1 := Int.le_ceil x
      have h2 := Int.ceil_lt_add_one x
      have h3 : (⌈x⌉ : ℚ) ≤ 0 := by exact_mod_cast Int.ceil_le.2 (by simpa using h.le)
      rw [abs_of_nonpos (by linarith), abs_of_neg h, abs_of_nonpos h3]
      exact ⟨by linarith, by linarith, by linarith⟩
  have h1 : |fmod p q| ≤ |p| := by
    conv_rhs => rw [hp']
    rw [hm, abs_mul, abs_mul]
    exact mul_le_mul_of_nonneg_right key.1 hqp.le
  have h2 : |fmod p q| < |q| := by
    rw [hm, abs_mul]
    calc _ < 1 * |q| := mul_lt_mul_of_pos_right key.2.1 hqp
      _ = _ := one_mul _
  refine ⟨⟨digits_combine hp.1 hq.1 (truncRat (p / q)) rfl h1 h2.le, lt_of_le_of_lt h1 hp.2⟩, h1, h2, ?_⟩
  conv_rhs => rw [hp']
  rw [abs_mul, abs_mul]
  exact mul_le_mul_of_nonneg_right key.2.2 hqp.le

/-- Whether the remainder of C needs a correction -/
theorem fmod_adjust {p q : ℚ} (h0 : q ≠ 0) :
    (fmod p q ≠ 0 ∧ (decide (q < 0) != decide (fmod p q < 0)) = true ∧ truncRat (p / q) = ⌊p / q⌋ + 1) ∨
    (¬ (fmod p q ≠ 0 ∧ (decide (q < 0) != decide (fmod p q < 0)) = true) ∧ truncRat (p / q) = ⌊p / q⌋) := by
  have hm : fmod p q = (p / q - truncRat (p / q)) * q := by
    unfold fmod; rw [sub_mul, div_mul_cancel₀ _ h0]
  rw [hm]
  generalize p / q = x
  rcases trunc_cases (x := x) with ⟨h, e⟩ | ⟨h, e⟩ <;> rw [e]
  · right
    refine ⟨?_, rfl⟩
    rintro ⟨h1, h2⟩
    have h3 : 0 < x - ⌊x⌋ := lt_of_le_of_ne (by have := Int.floor_le x; linarith) (by
      intro e; rw [← e, zero_mul] at h1; exact h1 rfl)
    rcases lt_or_gt_of_ne h0 with hq | hq
    · have := mul_neg_of_pos_of_neg h3 hq
      rw [decide_eq_true hq, decide_eq_true this] at h2; exact absurd h2 (by decide)
    · have := mul_pos h3 hq
      rw [decide_eq_false (not_lt.2 hq.le), decide_eq_false (not_lt.2 this.le)] at h2; exact absurd h2 (by decide)
  · by_cases hx : (⌈x⌉ : ℚ) = x
    · right
      refine ⟨by rw [hx, sub_self, zero_mul]; simp, ?_⟩
      rw [← hx]; simp
    · left
      have h1 := Int.le_ceil x
      have h3 : x - ⌈x⌉ < 0 := by
        have := lt_of_le_of_ne h1 (Ne.symm hx); linarith
      refine ⟨mul_ne_zero h3.ne h0, ?_, ?_⟩
      · rcases lt_or_gt_of_ne h0 with hq | hq
        · have := mul_pos_of_neg_of_neg h3 hq
          simp [hq, this.le, not_lt.2]
        · have := mul_neg_of_neg_of_pos h3 hq
          simp [hq.le, this, not_lt.2]
      · rw [Int.ceil_eq_iff]
        have h4 := Int.floor_le x
        have h5 := Int.lt_floor_add_one x
        push_cast
        refine ⟨?_, h5.le⟩
        refine lt_of_le_of_ne (by linarith) ?_
        intro e'
        apply hx
        have : x = ((⌊x⌋ : ℤ) : ℚ) := by linarith
        rw [this]; simp

/-- The quotient of `divMod` -/
def quo (p q : ℚ) : Dbl :=
  match (if fmod p q ≠ 0 ∧ (decide (q < 0) != decide (fmod p q < 0)) = true then
        sub (match div (sub (.fin p) (.fin (fmod p q))) (.fin q) with | .ok d => d | .error _ => .nan) (.fin 1)
        else match div (sub (.fin p) (.fin (fmod p q))) (.fin q) with | .ok d => d | .error _ => .nan) with
  | .fin 0 => .fin 0
  | .fin q => if 1 / 2 < q - q.floor then round (q.floor + 1) else .fin q.floor
  | d => d

theorem divMod_fin {p q : ℚ} (h0 : q ≠ 0) : divMod (.fin p) (.fin q) = .ok (quo p q,
    if fmod p q ≠ 0 ∧ (decide (q < 0) != decide (fmod p q < 0)) = true then add (.fin (fmod p q)) (.fin q) else .fin (fmod p q)) := by
  unfold divMod
  split
  · next h => cases h; exact absurd rfl h0
  · next h1 h2 => cases h1; cases h2; rfl
  all_goals simp_all

end Dbl

theorem opMOD_scalar (Y : Ext) (a b : Str) : opMOD Y (.scalar a) (some (.scalar b)) =
    zeroDivNil ((nmod Y (toNum Y a) (toNum Y b)).bind fun n => .ok (ofNum Y n)) := rfl

theorem opINTDIV_scalar (Y : Ext) (a b : Str) : opINTDIV Y (.scalar a) (.scalar b) =
    zeroDivNil ((nfloordiv Y (toNum Y a) (toNum Y b)).bind fun n => .ok (ofNum Y n)) := rfl

theorem nmod_flt {Y : Ext} (hf : IsPoint Y a ∨ IsPoint Y b) :
    nmod Y (toNum Y a) (toNum Y b) = Y.fn2 .mod (toNum Y a) (toNum Y b) := by
  rcases hf with ⟨f, hf⟩ | ⟨f, hf⟩
  · rw [hf]; rfl
  · rw [hf]; cases toNum Y a <;> rfl

theorem nfloordiv_flt {Y : Ext} (hf : IsPoint Y a ∨ IsPoint Y b) :
    nfloordiv Y (toNum Y a) (toNum Y b) = Y.fn2 .floordiv (toNum Y a) (toNum Y b) := by
  rcases hf with ⟨f, hf⟩ | ⟨f, hf⟩
  · rw [hf]; rfl
  · rw [hf]; cases toNum Y a <;> rfl

/-- **C93.** `a % b` with a float among the operands is the float nearest to `p - ⌊p / q⌋ * q`. -/
theorem C93_mod (ha : Stands X L a p) (hb : Stands X L b q) (hp : IsFloat p) (hq : IsFloat q)
    (hf : IsPoint (X.withDbl L) a ∨ IsPoint (X.withDbl L) b) (h0 : q ≠ 0) :
    ∃ s t, opMOD (X.withDbl L) (.scalar a) (some (.scalar b)) = .ok (.scalar s) ∧ Stands X L s t ∧
      Rounded (p - ⌊p / q⌋ * q) t := by
  have hm : ∃ d, Dbl.divMod (.fin p) (.fin q) = .ok (d, Dbl.round (p - ⌊p / q⌋ * q)) := by
    refine ⟨Dbl.quo p q, (Dbl.divMod_fin h0).trans ?_⟩
    congr 2
    obtain ⟨h1, -⟩ := Dbl.fmod_isDouble hp hq h0
    rcases Dbl.fmod_adjust (p := p) h0 with ⟨c1, c2, e⟩ | ⟨c, e⟩
    · rw [if_pos ⟨c1, c2⟩]
      show Dbl.round (Dbl.fmod p q + q) = _
      congr 1
      unfold Dbl.fmod
      rw [e]; push_cast; ring
    · rw [if_neg c, ← Dbl.round_self h1]
      unfold Dbl.fmod
      rw [e]
  have ho : ¬ Overflow (p - ⌊p / q⌋ * q) := by
    refine Dbl.not_overflow_of_le hq ?_
    have h1 := Int.floor_le (p / q)
    have h2 := Int.lt_floor_add_one (p / q)
    have : p - ⌊p / q⌋ * q = (p / q - ⌊p / q⌋) * q := by rw [sub_mul, div_mul_cancel₀ _ h0]
    rw [this, abs_mul, abs_of_nonneg (by linarith)]
    calc _ ≤ 1 * |q| := mul_le_mul_of_nonneg_right (by linarith) (abs_nonneg _)
      _ = _ := one_mul _
  obtain ⟨d, hm⟩ := hm
  have : opMOD (X.withDbl L) (.scalar a) (some (.scalar b)) =
      .ok (ofNum (X.withDbl L) (.flt (Dbl.round (p - ⌊p / q⌋ * q)))) := by
    rw [opMOD_scalar, nmod_flt hf]
    have : (X.withDbl L).fn2 .mod (toNum (X.withDbl L) a) (toNum (X.withDbl L) b) =
        .ok (.flt (Dbl.round (p - ⌊p / q⌋ * q))) := by
      have := viaDbl_ok (f := fun x y => do return (← x.divMod y).2) (stands_dbl X L ha hp) (stands_dbl X L hb hq)
      rw [hm] at this
      exact this
    rw [this]; rfl
  rw [this]
  exact (delivers_round X L _).1 ho

/-- **C93.** With operands of the same sign the remainder is exact. -/
theorem C93_mod_exact (ha : Stands X L a p) (hb : Stands X L b q) (hp : IsFloat p) (hq : IsFloat q)
    (hf : IsPoint (X.withDbl L) a ∨ IsPoint (X.withDbl L) b) (h0 : q ≠ 0) (hs : 0 ≤ p / q) :
    ∃ s, opMOD (X.withDbl L) (.scalar a) (some (.scalar b)) = .ok (.scalar s) ∧ Stands X L s (p - ⌊p / q⌋ * q) := by
  obtain ⟨s, t, h1, h2, h3, h4, -⟩ := C93_mod X L ha hb hp hq hf h0
  refine ⟨s, h1, ?_⟩
  have hd := (Dbl.fmod_isDouble hp hq h0).1
  have e : Dbl.fmod p q = p - ⌊p / q⌋ * q := by
    rcases Dbl.trunc_cases (x := p / q) with ⟨-, e⟩ | ⟨h, -⟩
    · unfold Dbl.fmod; rw [e]
    · exact absurd hs (not_le.2 h)
  rw [e] at hd
  have := h4 _ hd
  rw [sub_self, abs_zero] at this
  have : p - ⌊p / q⌋ * q = t := by
    have := abs_nonpos_iff.1 this
    linarith
  rw [this]; exact h2

theorem tiny_quo : Dbl.quo (-6646139978924579 / 2 ^ 119) 1 = .fin (-1) := by decide +kernel
theorem tiny_rem : (if Dbl.fmod (-6646139978924579 / 2 ^ 119) 1 ≠ 0 ∧
      (decide ((1 : ℚ) < 0) != decide (Dbl.fmod (-6646139978924579 / 2 ^ 119) 1 < 0)) = true then
    Dbl.add (.fin (Dbl.fmod (-6646139978924579 / 2 ^ 119) 1)) (.fin 1) else .fin (Dbl.fmod (-6646139978924579 / 2 ^ 119) 1)) =
    .fin 1 := by decide +kernel

/-- The float of the text `-1e-20` -/
theorem tiny : ∃ r : ℚ, Dbl.round (⟨true, [1], none, some (true, [2, 0])⟩ : Decimal).value = .fin r ∧ IsFloat r ∧
    Dbl.divMod (.fin r) (.fin 1) = .ok (.fin (-1), .fin 1) := by
  refine ⟨-6646139978924579 / 2 ^ 119, by decide +kernel, ⟨⟨-6646139978924579, -119, by norm_num, by norm_num, ?_⟩, by decide +kernel⟩, ?_⟩
  · rw [zpow_neg, div_eq_mul_inv]; norm_num
  · rw [Dbl.divMod_fin one_ne_zero, tiny_quo, tiny_rem]

/-- The remainder of floats of different signs need not be below the divisor: `-1e-20 % 1` is 1. -/
theorem C93_mod_large : opMOD (X.withDbl L) (.scalar (s% "-1e-20")) (some (ofInt 1)) = .ok (ofInt 1) := by
  have ha : ∃ p, Stands X L (s% "-1e-20") p ∧ IsFloat p ∧ IsPoint (X.withDbl L) (s% "-1e-20") ∧
      Dbl.divMod (.fin p) (.fin 1) = .ok (.fin (-1), .fin 1) := by
    have h := toNum_decimal X L ⟨true, [1], none, some (true, [2, 0])⟩
      ⟨by decide, by decide, by decide, by intro s l h; cases h; decide⟩
    obtain ⟨r, hr, hr1, hr2⟩ := tiny
    have h' : toNum (X.withDbl L) (s% "-1e-20") = .flt (.fin r) := h.trans (congrArg Num.flt hr)
    exact ⟨r, .inr h', hr1, ⟨_, h'⟩, hr2⟩
  obtain ⟨p, h1, h2, h3, h4⟩ := ha
  have h5 : Num.dbl (toNum (X.withDbl L) (showInt 1)) = .ok (.fin 1) := by
    rw [toNum_showInt]; exact ofRat_eq (by decide +kernel) ⟨_, rfl⟩
  show opMOD (X.withDbl L) (.scalar (s% "-1e-20")) (some (.scalar (showInt 1))) = _
  rw [opMOD_scalar, nmod_flt (.inl h3)]
  have := viaDbl_ok (f := fun x y => do return (← x.divMod y).2) (stands_dbl X L h1 h2) h5
  rw [h4] at this
  have e : (X.withDbl L).fn2 .mod (toNum (X.withDbl L) (s% "-1e-20")) (toNum (X.withDbl L) (showInt 1)) = .ok (.flt (.fin 1)) := this
  rw [e]
  have := numStr_int X L (i := 1) (Dbl.isDouble_int (by norm_num)) (by norm_num)
  exact congrArg (Except.ok ∘ Val.scalar) this

/-! ### Integer quotients -/

namespace Dbl

theorem sub_fin (x y : ℚ) : sub (.fin x) (.fin y) = round (x - y) := by
  show round (x + -y) = _
  rw [sub_eq_add_neg]

theorem div_fin {x y : ℚ} (h0 : y ≠ 0) : div (.fin x) (.fin y) = .ok (round (x / y)) := by
  unfold div
  split
  · next h => cases h; exact absurd rfl h0
  · next h1 h2 => cases h1; cases h2; rfl
  all_goals simp_all

theorem fine {x : ℚ} (h : Digits53 x) : ∃ z : ℤ, x = z * 2 ^ (-1074 : ℤ) := by
  obtain ⟨m, e, -, he, rfl⟩ := h
  refine ⟨m * 2 ^ (e + 1074).toNat, ?_⟩
  rw [Int.cast_mul, Int.cast_pow, Int.cast_ofNat]
  rw [mul_assoc, ← zpow_natCast, ← two_add]
  congr 2; omega

/-- A number near an integer is rounded to a number near it, at most twice as far. -/
theorem rnd_near {x : ℚ} {t : ℤ} (ht : |t| ≤ 2 ^ 53) : |rnd x - t| ≤ 2 * |x - t| := by
  have := rnd_best x (digits_int ht)
  calc |rnd x - t| = |(rnd x - x) + (x - t)| := by congr 1; ring
    _ ≤ |rnd x - x| + |x - t| := abs_add_le _ _
    _ ≤ _ := by rw [abs_sub_comm (rnd x)]; linarith

theorem round_near {x : ℚ} {t : ℤ} (ht : |t| ≤ 2 ^ 53) (h : |x - t| ≤ 1) : ∃ r, round x = .fin r ∧ |r - t| ≤ 2 * |x - t| := by
  refine ⟨rnd x, ?_, rnd_near ht⟩
  refine (round_fin ?_).1
  intro ho
  have h1 : |x| ≤ 2 ^ 53 + 1 := by
    calc |x| = |t + (x - t)| := by congr 1; ring
      _ ≤ |(t : ℚ)| + |x - t| := abs_add_le _ _
      _ ≤ _ := add_le_add (by exact_mod_cast ht) h
  have h2 : (2 : ℚ) ^ 53 + 1 < 2 ^ 1024 - 2 ^ 970 := by decide +kernel
  exact absurd (le_trans ho h1) (not_le.2 h2)

/-- The last step of the quotient -/
theorem snap {x : ℚ} {u : ℤ} (hu : |u| ≤ 2 ^ 53) (h : |x - u| < 1 / 2) :
    (match Dbl.fin x with
      | .fin 0 => .fin 0
      | .fin q => if 1 / 2 < q - q.floor then round (q.floor + 1) else .fin q.floor
      | d => d) = Dbl.fin u := by
  obtain ⟨h1, h2⟩ := abs_lt.1 h
  split
  · next e =>
    cases e
    change -(1 / 2) < (0 : ℚ) - u at h1
    change (0 : ℚ) - u < 1 / 2 at h2
    have : u = 0 := by
      have a1 : (u : ℚ) < 1 := by linarith
      have a2 : (-1 : ℚ) < u := by linarith
      have a1 : u < 1 := by exact_mod_cast a1
      have a2 : -1 < u := by exact_mod_cast a2
      omega
    rw [this]; rfl
  · next e =>
    cases e
    rcases le_or_gt (u : ℚ) x with hx | hx
    · have : x.floor = u := by
        rw [floor_eq, Int.floor_eq_iff]; constructor <;> linarith
      rw [this, if_neg (by linarith)]
    · have : x.floor = u - 1 := by
        rw [floor_eq, Int.floor_eq_iff]; push_cast; constructor <;> linarith
      rw [this]
      push_cast
      rw [if_pos (by linarith), sub_add_cancel, round_self (isDouble_int hu)]
  · next h1 h2 => exact absurd rfl (h2 x)

theorem quo_eq {p q : ℚ} (hp : IsDouble p) (hq : IsDouble q) (h0 : q ≠ 0) (hb : |⌊p / q⌋| ≤ 2 ^ 49) :
    quo p q = .fin ⌊p / q⌋ := by
  obtain ⟨-, -, -, hle⟩ := fmod_isDouble hp hq h0
  set t := truncRat (p / q) with ht
  have htb : |t| ≤ 2 ^ 49 := by
    rcases trunc_cases (x := p / q) with ⟨h, e⟩ | ⟨h, e⟩
    · rw [ht, e]; exact hb
    · have h1 : ⌊p / q⌋ ≤ ⌈p / q⌉ := Int.floor_le_ceil _
      have h2 : ⌈p / q⌉ ≤ 0 := Int.ceil_le.2 (by simpa using h.le)
      rw [ht, e]
      rw [abs_of_nonpos (le_trans h1 h2)] at hb
      rw [abs_of_nonpos h2]; omega
  have ht53 : |t| ≤ 2 ^ 53 := le_trans htb (by norm_num)
  have hu53 : |⌊p / q⌋| ≤ 2 ^ 53 := le_trans hb (by norm_num)
  have hsub : p - fmod p q = t * q := by unfold fmod; ring
  -- the multiple of the divisor, rounded
  have hov : ¬ Overflow (t * q) := not_overflow_of_le hp hle
  have hs : sub (.fin p) (.fin (fmod p q)) = .fin (rnd (t * q)) := by
    rw [sub_fin, hsub]; exact (round_fin hov).1
  have herr : |rnd (t * q) / q - t| ≤ 1 / 16 := by
    have hfine : ∃ z : ℤ, (t : ℚ) * q = z * 2 ^ (-1074 : ℤ) := by
      obtain ⟨z, hz⟩ := fine hq.1
      exact ⟨t * z, by rw [hz, Int.cast_mul, mul_assoc]⟩
    have h1 := rnd_rel hfine
    have hqp := abs_pos.2 h0
    have e : rnd (t * q) / q - t = (rnd (t * q) - t * q) / q := by field_simp
    rw [e, abs_div, div_le_iff₀ hqp, abs_sub_comm]
    refine le_trans h1 ?_
    rw [abs_mul]
    have h2 : |(t : ℚ)| ≤ 2 ^ 49 := by exact_mod_cast htb
    calc |(t : ℚ)| * |q| * 2 ^ (-53 : ℤ) = |(t : ℚ)| * 2 ^ (-53 : ℤ) * |q| := by ring
      _ ≤ 2 ^ 49 * 2 ^ (-53 : ℤ) * |q| :=
        mul_le_mul_of_nonneg_right (mul_le_mul_of_nonneg_right h2 (two_pos _).le) hqp.le
      _ = 1 / 16 * |q| := by norm_num
  obtain ⟨d, hd1, hd2⟩ := round_near ht53 (le_trans herr (by norm_num))
  have hdiv : div (sub (.fin p) (.fin (fmod p q))) (.fin q) = .ok (.fin d) := by rw [hs, div_fin h0, hd1]
  unfold quo
  rw [hdiv]
  rcases fmod_adjust (p := p) h0 with ⟨c1, c2, e⟩ | ⟨c, e⟩
  · rw [if_pos ⟨c1, c2⟩]
    rw [← ht] at e
    have hd3 : |(d - 1) - (⌊p / q⌋ : ℤ)| ≤ 1 / 8 := by
      have : (d - 1) - (⌊p / q⌋ : ℤ) = d - t := by rw [e]; push_cast; ring
      rw [this]; linarith
    obtain ⟨d', h1, h2⟩ := round_near hu53 (le_trans hd3 (by norm_num))
    simp only [sub_fin, h1]
    exact snap hu53 (by linarith)
  · rw [if_neg c]
    rw [← ht] at e
    rw [← e]
    exact snap ht53 (by linarith)

end Dbl

/-- **C93.** `a // b` with a float among the operands is the integer `⌊p / q⌋`, if that is at most `2 ^ 49`. -/
theorem C93_intdiv (ha : Stands X L a p) (hb : Stands X L b q) (hp : IsFloat p) (hq : IsFloat q)
    (hf : IsPoint (X.withDbl L) a ∨ IsPoint (X.withDbl L) b) (h0 : q ≠ 0) (hl : |⌊p / q⌋| ≤ 2 ^ 49) :
    opINTDIV (X.withDbl L) (.scalar a) (.scalar b) = .ok (ofInt ⌊p / q⌋) := by
  rw [opINTDIV_scalar, nfloordiv_flt hf]
  have : (X.withDbl L).fn2 .floordiv (toNum (X.withDbl L) a) (toNum (X.withDbl L) b) = .ok (.flt (.fin ⌊p / q⌋)) := by
    have := viaDbl_ok (f := fun x y => do return (← x.divMod y).1) (stands_dbl X L ha hp) (stands_dbl X L hb hq)
    rw [Dbl.divMod_fin h0, Dbl.quo_eq hp hq h0 hl] at this
    exact this
  rw [this]
  have := numStr_int X L (i := ⌊p / q⌋) (Dbl.isDouble_int (le_trans hl (by norm_num)))
    (lt_of_le_of_lt hl (by norm_num))
  exact congrArg (Except.ok ∘ Val.scalar) this

/-- `1 // 0.1` is 9, because the float 0.1 is a little more than a tenth. -/
example : ⌊(1 : ℚ) / (3602879701896397 / 2 ^ 55)⌋ = 9 ∧ Dbl.round (1 / 10) = .fin (3602879701896397 / 2 ^ 55) := by
  constructor
  · rw [Int.floor_eq_iff]; norm_num
  · decide +kernel

theorem value_75 : Dbl.round (⟨false, [7], some [5], none⟩ : Decimal).value = .fin (15 / 2) := by decide +kernel

theorem toNum_75 : toNum (X.withDbl L) (s% "7.5") = .flt (.fin (15 / 2)) :=
  (toNum_decimal X L ⟨false, [7], some [5], none⟩ ⟨by decide, by decide, by decide, by intro s l h; cases h⟩).trans
    (congrArg Num.flt value_75)

theorem isFloat_75 : IsFloat (15 / 2) := ⟨⟨15, -1, by norm_num, by norm_num, by norm_num⟩, by decide +kernel⟩

/-- `7.5 // 2` is 3, `7.5 % 2` is 1.5. -/
example : opINTDIV (X.withDbl L) (.scalar (s% "7.5")) (ofInt 2) = .ok (ofInt 3) ∧
    ∃ s, opMOD (X.withDbl L) (.scalar (s% "7.5")) (some (ofInt 2)) = .ok (.scalar s) ∧ Stands X L s (3 / 2) := by
  have h2 : IsFloat 2 := by
    have := Dbl.isDouble_int (i := 2) (by norm_num)
    rwa [Int.cast_ofNat] at this
  have hs : Stands X L (showInt 2) 2 := .inl ⟨2, toNum_showInt _ 2, by norm_num⟩
  have hfl : ⌊(15 / 2 : ℚ) / 2⌋ = 3 := by rw [Int.floor_eq_iff]; norm_num
  constructor
  · rw [← hfl]
    exact C93_intdiv X L (.inr (toNum_75 X L)) hs isFloat_75 h2 (.inl ⟨_, toNum_75 X L⟩) (by norm_num) (by rw [hfl]; norm_num)
  · have := C93_mod_exact X L (.inr (toNum_75 X L)) hs isFloat_75 h2 (.inl ⟨_, toNum_75 X L⟩) (by norm_num) (by norm_num)
    rw [hfl, show (15 / 2 : ℚ) - (3 : ℤ) * 2 = 3 / 2 by norm_num] at this
    exact this

/-- **C93.** Division by zero yields nil. -/
theorem C93_zero (ha : Stands X L a p) (hb : Stands X L b 0) (hp : IsFloat p)
    (hf : IsPoint (X.withDbl L) a ∨ IsPoint (X.withDbl L) b) :
    opINTDIV (X.withDbl L) (.scalar a) (.scalar b) = .ok .nil ∧
    opMOD (X.withDbl L) (.scalar a) (some (.scalar b)) = .ok .nil := by
  have hz : IsFloat 0 := by
    have := Dbl.isDouble_int (i := 0) (by norm_num)
    rwa [Int.cast_zero] at this
  have hd : Dbl.divMod (.fin p) (.fin 0) = .error .zeroDivision := rfl
  constructor
  · rw [opINTDIV_scalar, nfloordiv_flt hf]
    have : (X.withDbl L).fn2 .floordiv (toNum (X.withDbl L) a) (toNum (X.withDbl L) b) = .error .zeroDivision := by
      have := viaDbl_ok (f := fun x y => do return (← x.divMod y).1) (stands_dbl X L ha hp) (stands_dbl X L hb hz)
      rw [hd] at this
      exact this
    rw [this]; rfl
  · rw [opMOD_scalar, nmod_flt hf]
    have : (X.withDbl L).fn2 .mod (toNum (X.withDbl L) a) (toNum (X.withDbl L) b) = .error .zeroDivision := by
      have := viaDbl_ok (f := fun x y => do return (← x.divMod y).2) (stands_dbl X L ha hp) (stands_dbl X L hb hz)
      rw [hd] at this
      exact this
    rw [this]; rfl

end Pip
