import Verif.Lemmas.FloatText
import Verif.Spec.Floats
/-! Rounding to floats: ties, overflow, texts of integers. -/

namespace Pip
namespace Dbl
open Floats

theorem isFloat_iff {x : ℚ} : IsFloat x ↔ IsDouble x := Iff.rfl

theorem nearest_tie {q : ℚ} {z : ℤ} (hne : z ≠ nearest q) (h : |q - z| = |q - nearest q|) :
    |q - nearest q| = 1 / 2 ∧ ∃ k : ℤ, nearest q = 2 * k := by
  have f1 := Int.floor_le q
  have f2 := Int.lt_floor_add_one q
  have hz : z ≤ ⌊q⌋ ∨ ⌊q⌋ + 1 ≤ z := by omega
  have low : z ≤ ⌊q⌋ → (z : ℚ) ≤ ⌊q⌋ := fun h => by exact_mod_cast h
  have high : ⌊q⌋ + 1 ≤ z → (⌊q⌋ : ℚ) + 1 ≤ z := fun h => by exact_mod_cast h
  have key : q - ⌊q⌋ = 1 / 2 := by
    rcases nearest_cases q with ⟨c, d⟩ | ⟨c, d⟩
    · rw [c] at h hne
      rw [abs_of_nonneg (a := q - ⌊q⌋) (by linarith)] at h
      rcases hz with hz | hz
      · have : (z : ℚ) ≤ ⌊q⌋ - 1 := by
          have : z ≤ ⌊q⌋ - 1 := by omega
          exact_mod_cast this
        rw [abs_of_nonneg (by linarith)] at h
        linarith
      · have := high hz
        rw [abs_of_nonpos (by linarith)] at h
        linarith
    · rw [c] at h hne
      push_cast at h
      rw [abs_of_nonpos (a := q - (⌊q⌋ + 1)) (by linarith)] at h
      rcases hz with hz | hz
      · have := low hz
        rw [abs_of_nonneg (by linarith)] at h
        linarith
      · have : (⌊q⌋ : ℚ) + 1 + 1 ≤ z := by
          have : ⌊q⌋ + 1 + 1 ≤ z := by omega
          exact_mod_cast this
        rw [abs_of_nonpos (by linarith)] at h
        linarith
  have hn := nearest_def q
  rw [key, if_neg (by norm_num), if_neg (by norm_num)] at hn
  by_cases he : ⌊q⌋ % 2 = 0
  · rw [if_pos he] at hn
    rw [hn, key]
    exact ⟨by norm_num, ⌊q⌋ / 2, by omega⟩
  · rw [if_neg he] at hn
    rw [hn]
    refine ⟨?_, (⌊q⌋ + 1) / 2, by omega⟩
    push_cast
    rw [show q - (⌊q⌋ + 1) = -(1 / 2) by linarith, abs_neg]
    norm_num

theorem rnd_tie_multiple {x : ℚ} {z : ℤ} (hx : x ≠ 0) (hne : z * unit x ≠ rnd x) (h : |x - z * unit x| = |x - rnd x|) :
    ∃ k : ℤ, rnd x = 2 * k * (2 * |x - rnd x|) := by
  have hu := unit_pos x
  have e := rnd_eq hx
  have sc : ∀ n : ℤ, |x - n * unit x| = |x / unit x - n| * unit x := fun n => by
    rw [← abs_of_pos hu, ← abs_mul, abs_of_pos hu, sub_mul, div_mul_cancel₀ _ hu.ne']
  rw [e, sc, sc] at h
  obtain ⟨h1, k, h2⟩ := nearest_tie (q := x / unit x) (z := z) (by rintro rfl; exact hne e.symm)
    (mul_right_cancel₀ hu.ne' h)
  refine ⟨k, ?_⟩
  rw [e, sc, h1, h2]
  push_cast
  ring

theorem rnd_tie {x y : ℚ} (hy : Digits53 y) (hne : y ≠ rnd x) (h : |x - y| = |x - rnd x|) :
    ∃ k : ℤ, rnd x = 2 * k * (2 * |x - rnd x|) := by
  by_cases hx : x = 0
  · subst hx
    exact ⟨0, by simp [rnd_zero]⟩
  rcases digits_between (q := x) hy with ⟨z, rfl⟩ | ⟨hb, z, hz⟩
  · exact rnd_tie_multiple hx hne h
  · have hil := (ilog2_spec (abs_pos.2 hx)).1
    rcases lt_or_gt_of_ne hx with hn | hp
    · have hax : |x| = -x := abs_of_neg hn
      have h1 := rnd_best_multiple x (-z)
      push_cast at h1
      rw [← h, neg_mul, ← hz] at h1
      have hy' := abs_le.1 hb
      rw [abs_of_nonpos (by linarith [hy'.1]), abs_of_nonpos (by linarith)] at h1
      have : y = ((-z : ℤ) : ℚ) * unit x := by
        push_cast; rw [neg_mul, ← hz]; linarith [hy'.1]
      rw [this] at hne h
      exact rnd_tie_multiple hx hne h
    · have hax : |x| = x := abs_of_pos hp
      have h1 := rnd_best_multiple x z
      rw [← h, ← hz] at h1
      have hy' := abs_le.1 hb
      rw [abs_of_nonneg (by linarith [hy'.2]), abs_of_nonneg (by linarith)] at h1
      have : y = (z : ℚ) * unit x := by rw [← hz]; linarith [hy'.2]
      rw [this] at hne h
      exact rnd_tie_multiple hx hne h

/-! ### Overflow -/

theorem top_eq : top = 2 ^ (1024 : ℤ) := by
  unfold top; rw [show (1024 : ℤ) = ((1024 : ℕ) : ℤ) by norm_num, zpow_natCast]

theorem two_1024 : (2 : ℚ) ^ (1024 : ℤ) = 2 ^ 53 * 2 ^ (971 : ℤ) := by
  rw [show (1024 : ℤ) = ((53 : ℕ) : ℤ) + 971 by norm_num, two_add, zpow_natCast]

theorem two_971 : (2 : ℚ) ^ (971 : ℤ) = 2 * 2 ^ (970 : ℤ) := by
  rw [show (971 : ℤ) = 1 + 970 by norm_num, two_add, zpow_one]

theorem digits_max : Digits53 ((2 ^ 53 - 1) * 2 ^ (971 : ℤ)) :=
  ⟨2 ^ 53 - 1, 971, by norm_num, by norm_num, by rw [Int.cast_sub, Int.cast_pow, Int.cast_ofNat, Int.cast_one]⟩

theorem digits_top : Digits53 (2 ^ (1024 : ℤ)) := ⟨2 ^ 53, 971, by norm_num, by norm_num, by rw [two_1024, Int.cast_pow, Int.cast_ofNat]⟩

theorem rnd_lt_top {x : ℚ} (h : x < 2 ^ (1024 : ℤ) - 2 ^ (970 : ℤ)) : rnd x < 2 ^ (1024 : ℤ) := by
  by_contra hc
  rw [not_lt] at hc
  have h1 := rnd_best x digits_max
  have h2 := two_1024
  have h3 := two_971
  have h4 := two_pos 970
  have hm := digits_max
  generalize (2 : ℚ) ^ (1024 : ℤ) = T at *
  generalize (2 : ℚ) ^ (971 : ℤ) = U at *
  generalize (2 : ℚ) ^ (970 : ℤ) = H at *
  by_cases hx : x ≤ (2 ^ 53 - 1) * U
  · have := rnd_le hm hx
    linarith
  · rw [not_le] at hx
    rw [abs_of_nonpos (by linarith), abs_of_nonneg (by linarith)] at h1
    linarith

theorem top_le_rnd {x : ℚ} (h : 2 ^ (1024 : ℤ) - 2 ^ (970 : ℤ) ≤ x) : 2 ^ (1024 : ℤ) ≤ rnd x := by
  by_cases hx : 2 ^ (1024 : ℤ) ≤ x
  · exact le_rnd digits_top hx
  rw [not_le] at hx
  have h2 := two_1024
  have h3 := two_971
  have h4 := two_pos 970
  have h5 : (2 : ℚ) ^ (1023 : ℤ) = 2 ^ 53 * 2 ^ (970 : ℤ) := by
    rw [show (1023 : ℤ) = ((53 : ℕ) : ℤ) + 970 by norm_num, two_add, zpow_natCast]
  have hil : (2 : ℚ) ^ (1023 : ℤ) ≤ x → ilog2 x = 1023 := fun h => ilog2_eq h hx
  have hu : 0 < x → ilog2 x = 1023 → unit x = 2 ^ (971 : ℤ) := by
    intro h1 h2
    unfold unit lastExp
    rw [abs_of_pos h1, h2]
    rfl
  generalize (2 : ℚ) ^ (1024 : ℤ) = T at *
  generalize (2 : ℚ) ^ (1023 : ℤ) = T' at *
  generalize (2 : ℚ) ^ (971 : ℤ) = U at *
  generalize (2 : ℚ) ^ (970 : ℤ) = H at *
  have hpos : 0 < x := by linarith
  have hU : 0 < U := by linarith
  rw [rnd_eq hpos.ne', hu hpos (hil (by linarith))]
  have hlo : (2 ^ 53 - 1 / 2 : ℚ) ≤ x / U := by rw [le_div_iff₀ hU]; linarith
  have hhi : x / U < 2 ^ 53 := by rw [div_lt_iff₀ hU]; linarith
  have hf : ⌊x / U⌋ = 2 ^ 53 - 1 := by
    rw [Int.floor_eq_iff]; push_cast; constructor <;> linarith
  have hn : nearest (x / U) = 2 ^ 53 := by
    rw [nearest_def, hf]
    push_cast
    rw [if_neg (by linarith)]
    split
    · norm_num
    · norm_num
  rw [hn, h2, Int.cast_pow, Int.cast_ofNat]

theorem overflow_iff (x : ℚ) : Overflow x ↔ 2 ^ (1024 : ℤ) - 2 ^ (970 : ℤ) ≤ |x| := by
  unfold Overflow
  rw [show (1024 : ℤ) = ((1024 : ℕ) : ℤ) by norm_num, show (970 : ℤ) = ((970 : ℕ) : ℤ) by norm_num, zpow_natCast, zpow_natCast]

theorem round_fin {x : ℚ} (h : ¬ Overflow x) : round x = .fin (rnd x) ∧ Rounded x (rnd x) := by
  rw [overflow_iff, not_le, abs_lt] at h
  have h1 := rnd_lt_top h.2
  have h2 := rnd_lt_top (x := -x) (by linarith)
  rw [rnd_neg] at h2
  have hd : IsDouble (rnd x) := ⟨rnd_digits x, by rw [top_eq, abs_lt]; constructor <;> linarith⟩
  exact ⟨round_eq hd rfl, hd, fun y hy => rnd_best x hy.1, fun y hy hne he => rnd_tie hy.1 hne he⟩

theorem round_inf {x : ℚ} (h : Overflow x) : round x = .inf (decide (x < 0)) := by
  rw [overflow_iff] at h
  have h2 := two_1024
  have h3 := two_971
  have h4 := two_pos 970
  have hle := @top_le_rnd
  unfold round
  rw [top_eq]
  generalize (2 : ℚ) ^ (1024 : ℤ) = T at *
  generalize (2 : ℚ) ^ (971 : ℤ) = U at *
  generalize (2 : ℚ) ^ (970 : ℤ) = H at *
  by_cases hx : x < 0
  · rw [abs_of_neg hx] at h
    have := hle h
    rw [rnd_neg] at this
    rw [if_neg (by linarith), if_pos (by linarith)]
    simp [hx]
  · rw [abs_of_nonneg (not_lt.1 hx)] at h
    have := hle h
    rw [if_pos (by linarith)]
    simp [hx]

theorem isDouble_int {i : ℤ} (h : |i| ≤ 2 ^ 53) : IsDouble (i : ℚ) :=
  ⟨digits_int h, by
    have : ((|i| : ℤ) : ℚ) ≤ ((2 ^ 53 : ℤ) : ℚ) := by exact_mod_cast h
    rw [Int.cast_abs] at this
    rw [top_eq]
    refine lt_of_le_of_lt this ?_
    rw [two_1024]
    have := two_pos 971
    have h1 : (1 : ℚ) < 2 ^ (971 : ℤ) := by
      have := two_lt (show (0 : ℤ) < 971 by norm_num)
      rwa [zpow_zero] at this
    generalize (2 : ℚ) ^ (971 : ℤ) = U at *
    push_cast
    linarith⟩

theorem round_self {x : ℚ} (h : IsDouble x) : round x = .fin x := round_eq h (rnd_of_digits h.1)

/-! ### Texts of integers -/

theorem shortest_int {i : ℤ} (hd : Digits53 (i : ℚ)) {k : ℤ} :
    ∀ (m n : ℕ), (n : ℤ) ≤ k → k ≤ n + m → 0 ≤ (shortest (i : ℚ) k n m).2
  | 0, n, h1, h2 => by simp only [shortest]; omega
  | m + 1, n, h1, h2 => by
    unfold shortest
    split
    next d hd => simp only; omega
    next hn =>
      refine shortest_int hd m (n + 1) ?_ (by push_cast at *; omega)
      by_contra hc
      have : k - n = 0 := by push_cast at hc; omega
      rw [this] at hn
      unfold pick reads at hn
      simp only [zpow_zero, div_one, mul_one] at hn
      have hf : (Rat.floor (i : ℚ)) = i := Rat.floor_intCast i
      rw [hf] at hn
      simp only [rnd_of_digits hd] at hn
      split at hn <;> simp_all

theorem dropZeros_exp : ∀ (n d : ℕ) (p : ℤ), p ≤ (dropZeros n d p).2
  | 0, d, p => le_refl _
  | n + 1, d, p => by
    unfold dropZeros
    split
    · exact le_trans (by omega) (dropZeros_exp n _ _)
    · exact le_refl _

theorem digitsAux_length : ∀ (f n : ℕ) (acc : List ℕ) (k : ℕ), n < 10 ^ (k + 1) →
    (digitsAux 10 f n acc).length ≤ k + 1 + acc.length
  | 0, n, acc, k, h => by simp [digitsAux]
  | f + 1, n, acc, k, h => by
    unfold digitsAux
    split
    · simp; omega
    next hn =>
      cases k with
      | zero => simp at h; omega
      | succ k =>
        have := digitsAux_length f (n / 10) (n % 10 :: acc) k (by rw [pow_succ] at h; omega)
        simp only [List.length_cons] at this
        omega

theorem showNat_lt {n k : ℕ} (h : n < 10 ^ (k + 1)) : (showNat n).length ≤ k + 1 := by
  have := digitsAux_length (n + 1) n [] k h
  simpa [showNat, natDigits] using this

theorem digits_ten16 : Digits53 (10 ^ 16) := ⟨10 ^ 16 / 2 ^ 3, 3, by norm_num, by norm_num, by norm_num⟩

/-- The text of a positive integer below `10 ^ 16` has no exponent. -/
theorem showPos_int {i : ℤ} (h : 0 < i) (hd : IsDouble (i : ℚ)) (hb : i < 10 ^ 16) : s% ".0" <:+ showPos (i : ℚ) := by
  have hpos : (0 : ℚ) < i := by exact_mod_cast h
  have ht : (i : ℚ) < top := lt_of_le_of_lt (le_abs_self _) hd.2
  obtain ⟨h1, h2⟩ := digitsOf_spec hpos hd.1 ht
  obtain ⟨k1, k2⟩ := decExp_digits hpos hd.1 ht
  have hp : 0 ≤ (digitsOf (i : ℚ)).2 := by
    unfold digitsOf
    refine le_trans ?_ (dropZeros_exp _ _ _)
    refine shortest_int hd.1 16 1 ?_ ?_
    · have : (1 : ℚ) ≤ i := by exact_mod_cast h
      have : (10 : ℚ) ^ (0 : ℤ) < 10 ^ decExp 400 (i : ℚ) := by rw [zpow_zero]; linarith
      have := (zpow_lt_zpow_iff_right₀ (by norm_num : (1 : ℚ) < 10)).1 this
      push_cast; omega
    · have : (i : ℚ) < 10 ^ (16 : ℤ) := by
        have : (i : ℚ) < ((10 ^ 16 : ℤ) : ℚ) := by exact_mod_cast hb
        refine lt_of_lt_of_le this ?_
        norm_num
      have := (zpow_lt_zpow_iff_right₀ (by norm_num : (1 : ℚ) < 10)).1 (lt_of_le_of_lt k1 this)
      push_cast; omega
  rw [showPos_eq]
  generalize digitsOf (i : ℚ) = x at *
  have e : (x.1 : ℚ) * 10 ^ x.2 = ((x.1 * 10 ^ x.2.toNat : ℕ) : ℚ) := by
    conv_lhs => rw [show x.2 = (x.2.toNat : ℤ) by omega, ten_nat]
    push_cast
    rfl
  have hlt : x.1 * 10 ^ x.2.toNat < 10 ^ 16 := by
    by_contra hc
    rw [not_lt] at hc
    have hc : (10 ^ 16 : ℚ) ≤ x.1 * 10 ^ x.2 := by rw [e]; exact_mod_cast hc
    have := le_rnd digits_ten16 hc
    rw [h1] at this
    have : (10 ^ 16 : ℤ) ≤ i := by exact_mod_cast this
    omega
  have hx : 0 < x.1 := by omega
  have hp16 : x.2.toNat < 16 := by
    by_contra hc
    have : 10 ^ 16 ≤ 10 ^ x.2.toNat := Nat.pow_le_pow_right (by norm_num) (by omega)
    have : 1 * 10 ^ 16 ≤ x.1 * 10 ^ x.2.toNat := Nat.mul_le_mul hx this
    omega
  have hlen : (showNat x.1).length ≤ 15 - x.2.toNat + 1 := by
    refine showNat_lt ?_
    by_contra hc
    rw [not_lt] at hc
    have := Nat.mul_le_mul_right (10 ^ x.2.toNat) hc
    rw [← pow_add, show 15 - x.2.toNat + 1 + x.2.toNat = 16 by omega] at this
    omega
  have hl0 := List.length_pos_iff.2 (showNat_ne x.1)
  unfold layout
  rw [if_pos (by omega), if_neg (by omega), if_pos (by omega)]
  exact List.suffix_append _ _

end Dbl

/-- The text of a float that is an integer below `10 ^ 16` is that of the integer. -/
theorem numStr_int (X : Ext) (L : Libm X.Rng) {i : ℤ} (hd : Dbl.IsDouble (i : ℚ)) (hb : |i| < 10 ^ 16) :
    numStr (X.withDbl L) (.flt (.fin (i : ℚ))) = showInt i := by
  have hn : numStr (X.withDbl L) (.flt (.fin (i : ℚ))) =
    if (s% ".0").isSuffixOf (Dbl.str (.fin (i : ℚ))) then showInt (Dbl.truncRat i) else Dbl.str (.fin (i : ℚ)) := rfl
  rw [hn, Dbl.truncRat_int, if_pos]
  rw [List.isSuffixOf_iff_suffix]
  show _ <:+ (if (i : ℚ) = 0 then _ else if (i : ℚ) < 0 then _ else _)
  have hb := abs_lt.1 hb
  split
  · exact ⟨s% "0", rfl⟩
  next h0 =>
    split
    next hneg =>
      have hneg : i < 0 := by exact_mod_cast hneg
      have := Dbl.showPos_int (i := -i) (by omega) (by push_cast; exact hd.neg) (by omega)
      push_cast at this
      exact this.trans (List.suffix_cons _ _)
    next hneg =>
      refine Dbl.showPos_int ?_ hd hb.2
      rw [not_lt] at hneg
      have : (0 : ℚ) < i := lt_of_le_of_ne hneg (Ne.symm h0)
      exact_mod_cast this

end Pip
