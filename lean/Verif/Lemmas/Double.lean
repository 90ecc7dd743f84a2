import Verif.Model.Double
import Mathlib.Data.Rat.Floor
import Mathlib.Algebra.Order.Field.Power
import Mathlib.Tactic.Linarith
import Mathlib.Tactic.Positivity
import Mathlib.Tactic.NormNum
import Mathlib.Tactic.Ring
import Mathlib.Tactic.FieldSimp
/-! Rounding to 53 binary digits. -/

namespace Pip
namespace Dbl

/-! ### The exponent -/

theorem two_pos (k : ℤ) : (0 : ℚ) < 2 ^ k := zpow_pos (by norm_num) k

theorem two_lt {a b : ℤ} (h : a < b) : (2 : ℚ) ^ a < 2 ^ b := zpow_lt_zpow_right₀ (by norm_num) h
theorem two_le {a b : ℤ} (h : a ≤ b) : (2 : ℚ) ^ a ≤ 2 ^ b := zpow_le_zpow_right₀ (by norm_num) h

theorem two_le_iff {a b : ℤ} : (2 : ℚ) ^ a ≤ 2 ^ b ↔ a ≤ b := zpow_le_zpow_iff_right₀ (by norm_num)
theorem two_lt_iff {a b : ℤ} : (2 : ℚ) ^ a < 2 ^ b ↔ a < b := zpow_lt_zpow_iff_right₀ (by norm_num)

theorem two_add (a b : ℤ) : (2 : ℚ) ^ (a + b) = 2 ^ a * 2 ^ b := zpow_add₀ (by norm_num) a b
theorem two_sub (a b : ℤ) : (2 : ℚ) ^ (a - b) = 2 ^ a / 2 ^ b := zpow_sub₀ (by norm_num) a b
theorem two_nat (n : ℕ) : (2 : ℚ) ^ (n : ℤ) = ((2 ^ n : ℕ) : ℚ) := by push_cast; exact zpow_natCast 2 n

theorem log2_bounds {n : ℕ} (h : 0 < n) : (2 : ℚ) ^ ((n.log2 : ℕ) : ℤ) ≤ n ∧ (n : ℚ) < 2 ^ ((n.log2 : ℕ) + 1 : ℤ) := by
  have h1 : 2 ^ n.log2 ≤ n := Nat.log2_self_le (by omega)
  have h2 : n < 2 ^ (n.log2 + 1) := Nat.lt_log2_self
  constructor
  · rw [two_nat]; exact_mod_cast h1
  · rw [show ((n.log2 : ℕ) + 1 : ℤ) = ((n.log2 + 1 : ℕ) : ℤ) by push_cast; ring, two_nat]; exact_mod_cast h2

theorem ilog2_spec {q : ℚ} (h : 0 < q) : (2 : ℚ) ^ ilog2 q ≤ q ∧ q < 2 ^ (ilog2 q + 1) := by
  have hn : 0 < q.num.natAbs := Int.natAbs_pos.2 (Rat.num_pos.2 h).ne'
  obtain ⟨n1, n2⟩ := log2_bounds hn
  obtain ⟨d1, d2⟩ := log2_bounds q.den_pos
  have hq : q = (q.num.natAbs : ℚ) / q.den := by
    conv_lhs => rw [← Rat.num_div_den q]
    congr 1
    have := (Int.natAbs_of_nonneg (Rat.num_pos.2 h).le).symm
    conv_lhs => rw [this]
    exact Int.cast_natCast _
  have dp : (0 : ℚ) < q.den := by exact_mod_cast q.den_pos
  have hi : q < 2 ^ (((q.num.natAbs.log2 : ℕ) : ℤ) - ((q.den.log2 : ℕ) : ℤ) + 1) := by
    rw [show ((q.num.natAbs.log2 : ℕ) : ℤ) - ((q.den.log2 : ℕ) : ℤ) + 1 = ((q.num.natAbs.log2 : ℕ) + 1 : ℤ) - ((q.den.log2 : ℕ) : ℤ)
      by ring, two_sub]
    conv_lhs => rw [hq]
    exact div_lt_div₀ n2 d1 (two_pos _).le (two_pos _)
  have lo : 2 ^ (((q.num.natAbs.log2 : ℕ) : ℤ) - ((q.den.log2 : ℕ) : ℤ) - 1) ≤ q := by
    rw [show ((q.num.natAbs.log2 : ℕ) : ℤ) - ((q.den.log2 : ℕ) : ℤ) - 1 = ((q.num.natAbs.log2 : ℕ) : ℤ) - ((q.den.log2 : ℕ) + 1 : ℤ)
      by ring, two_sub]
    conv_rhs => rw [hq]
    exact div_le_div₀ (by positivity) n1 dp d2.le
  unfold ilog2
  dsimp only
  split
  next h => exact ⟨h, hi⟩
  next h => exact ⟨lo, by rw [sub_add_cancel]; exact lt_of_not_ge h⟩

theorem ilog2_eq {q : ℚ} {e : ℤ} (h1 : (2 : ℚ) ^ e ≤ q) (h2 : q < 2 ^ (e + 1)) : ilog2 q = e := by
  obtain ⟨a, b⟩ := ilog2_spec (lt_of_lt_of_le (two_pos e) h1)
  have := two_lt_iff.1 (lt_of_le_of_lt a h2)
  have := two_lt_iff.1 (lt_of_le_of_lt h1 b)
  omega

/-! ### The nearest integer -/

theorem floor_eq (q : ℚ) : q.floor = ⌊q⌋ := rfl

theorem nearest_def (q : ℚ) : nearest q = if q - ⌊q⌋ < 1 / 2 then ⌊q⌋ else if 1 / 2 < q - ⌊q⌋ then ⌊q⌋ + 1 else
    if ⌊q⌋ % 2 = 0 then ⌊q⌋ else ⌊q⌋ + 1 := by
  unfold nearest
  rfl

theorem nearest_cases (q : ℚ) : (nearest q = ⌊q⌋ ∧ q - ⌊q⌋ ≤ 1 / 2) ∨ (nearest q = ⌊q⌋ + 1 ∧ 1 / 2 ≤ q - ⌊q⌋) := by
  rw [nearest_def]
  by_cases h : q - ⌊q⌋ < 1 / 2
  · exact .inl ⟨by rw [if_pos h], h.le⟩
  · by_cases h' : 1 / 2 < q - ⌊q⌋
    · exact .inr ⟨by rw [if_neg h, if_pos h'], h'.le⟩
    · rw [if_neg h, if_neg h']
      by_cases h'' : ⌊q⌋ % 2 = 0
      · exact .inl ⟨by rw [if_pos h''], not_lt.1 h'⟩
      · exact .inr ⟨by rw [if_neg h''], not_lt.1 h⟩

theorem nearest_le (q : ℚ) : |q - nearest q| ≤ 1 / 2 := by
  have a := Int.floor_le q
  have b := Int.lt_floor_add_one q
  rcases nearest_cases q with ⟨h, h'⟩ | ⟨h, h'⟩ <;> rw [h, abs_le]
  · constructor <;> linarith
  · push_cast; constructor <;> linarith

/-- No integer is nearer. -/
theorem nearest_best (q : ℚ) (z : ℤ) : |q - nearest q| ≤ |q - z| := by
  have a := Int.floor_le q
  have b := Int.lt_floor_add_one q
  rcases lt_or_ge ⌊q⌋ z with hz | hz
  · have hz' : (⌊q⌋ : ℚ) + 1 ≤ z := by exact_mod_cast hz
    rw [abs_sub_comm q z, abs_of_nonneg (show (0 : ℚ) ≤ z - q by linarith)]
    rcases nearest_cases q with ⟨h, h'⟩ | ⟨h, h'⟩ <;> rw [h, abs_le] <;> push_cast <;> constructor <;> linarith
  · have hz' : (z : ℚ) ≤ ⌊q⌋ := by exact_mod_cast hz
    rw [abs_of_nonneg (show (0 : ℚ) ≤ q - z by linarith)]
    rcases nearest_cases q with ⟨h, h'⟩ | ⟨h, h'⟩ <;> rw [h, abs_le] <;> push_cast <;> constructor <;> linarith

theorem nearest_int (z : ℤ) : nearest (z : ℚ) = z := by
  have := nearest_best z z
  rw [sub_self, abs_zero] at this
  have := abs_eq_zero.1 (le_antisymm this (abs_nonneg _))
  have : ((z : ℚ)) = nearest z := by linarith
  exact_mod_cast this.symm

/-! ### Numbers with 53 binary digits -/

/-- `m * 2 ^ e` with at most 53 digits, and not below the smallest exponent -/
def Digits53 (x : ℚ) : Prop := ∃ m e : ℤ, |m| ≤ 2 ^ 53 ∧ -1074 ≤ e ∧ x = m * 2 ^ e

/-- The unit of rounding -/
def unit (q : ℚ) : ℚ := 2 ^ lastExp |q|

theorem unit_pos (q : ℚ) : 0 < unit q := two_pos _

theorem rnd_zero : rnd 0 = 0 := by simp [rnd]

theorem rnd_eq {q : ℚ} (h : q ≠ 0) : rnd q = nearest (q / unit q) * unit q := by
  have : (if q < 0 then -q else q) = |q| := by
    split
    next h => exact (abs_of_neg h).symm
    next h => exact (abs_of_nonneg (not_lt.1 h)).symm
  simp only [rnd, if_neg h, this, unit]

theorem rnd_multiple (q : ℚ) : ∃ z : ℤ, rnd q = z * unit q := by
  by_cases h : q = 0
  · exact ⟨0, by subst h; simp [rnd_zero]⟩
  · exact ⟨_, rnd_eq h⟩

theorem rnd_digits (q : ℚ) : Digits53 (rnd q) := by
  by_cases h : q = 0
  · subst h; exact ⟨0, 0, by norm_num, by norm_num, by simp [rnd_zero]⟩
  rw [rnd_eq h]
  refine ⟨_, _, ?_, le_max_right _ _, rfl⟩
  have hq : 0 < |q| := abs_pos.2 h
  obtain ⟨-, b⟩ := ilog2_spec hq
  have hb : |q / unit q| ≤ 2 ^ 53 := by
    rw [abs_div, abs_of_pos (unit_pos q), div_le_iff₀ (unit_pos q), unit]
    have : ((2 : ℚ) ^ 53) = 2 ^ (53 : ℤ) := by norm_num
    rw [this, ← two_add]
    exact le_trans b.le (two_le (by have := le_max_left (ilog2 |q| - 52) (-1074); unfold lastExp; omega))
  have h1 := nearest_le (q / unit q)
  obtain ⟨h2, h3⟩ := abs_le.1 hb
  obtain ⟨h4, h5⟩ := abs_le.1 h1
  have h6 : ((nearest (q / unit q) : ℤ) : ℚ) < (2 ^ 53 + 1 : ℤ) := by push_cast; linarith
  have h7 : ((-(2 ^ 53 + 1) : ℤ) : ℚ) < (nearest (q / unit q) : ℤ) := by push_cast; linarith
  have h6 : nearest (q / unit q) < (2 ^ 53 + 1 : ℤ) := by exact_mod_cast h6
  have h7 : -(2 ^ 53 + 1 : ℤ) < nearest (q / unit q) := by exact_mod_cast h7
  rw [abs_le]
  constructor <;> omega

/-- No multiple of the unit is nearer. -/
theorem rnd_best_multiple (q : ℚ) (z : ℤ) : |q - rnd q| ≤ |q - z * unit q| := by
  by_cases h : q = 0
  · subst h; rw [rnd_zero, sub_self, abs_zero]; exact abs_nonneg _
  have hu := unit_pos q
  have := nearest_best (q / unit q) z
  have e : ∀ w : ℤ, |q - w * unit q| = |q / unit q - w| * unit q := by
    intro w
    rw [← abs_of_pos hu, ← abs_mul, abs_of_pos hu, sub_mul, div_mul_cancel₀ _ hu.ne']
  rw [rnd_eq h, e, e]
  exact mul_le_mul_of_nonneg_right this hu.le

/-- Numbers with 53 digits are multiples of the unit of `q`, or nearer to zero than a multiple between them and `q`. -/
theorem digits_between {q x : ℚ} (hx : Digits53 x) :
    (∃ z : ℤ, x = z * unit q) ∨ |x| ≤ 2 ^ ilog2 |q| ∧ ∃ z : ℤ, (2 : ℚ) ^ ilog2 |q| = z * unit q := by
  obtain ⟨m, e, hm, he, rfl⟩ := hx
  by_cases hE : lastExp |q| ≤ e
  · left
    refine ⟨m * 2 ^ (e - lastExp |q|).toNat, ?_⟩
    unfold unit
    have : (2 : ℚ) ^ e = 2 ^ (((e - lastExp |q|).toNat : ℕ) : ℤ) * 2 ^ lastExp |q| := by
      rw [← two_add]; congr 1; omega
    rw [this, two_nat]; push_cast; ring
  · right
    have hl : lastExp |q| = ilog2 |q| - 52 := by unfold lastExp at *; omega
    constructor
    · rw [abs_mul, abs_of_pos (two_pos e)]
      have h1 : |(m : ℚ)| ≤ 2 ^ (53 : ℤ) := by
        have : ((|m| : ℤ) : ℚ) ≤ ((2 ^ 53 : ℤ) : ℚ) := by exact_mod_cast hm
        rw [Int.cast_abs] at this
        refine le_trans this ?_
        norm_num
      calc |(m : ℚ)| * 2 ^ e ≤ 2 ^ (53 : ℤ) * 2 ^ e := mul_le_mul_of_nonneg_right h1 (two_pos e).le
        _ = 2 ^ (53 + e) := (two_add _ _).symm
        _ ≤ 2 ^ ilog2 |q| := two_le (by omega)
    · refine ⟨2 ^ 52, ?_⟩
      unfold unit
      rw [hl, show ilog2 |q| = 52 + (ilog2 |q| - 52) by ring, two_add]
      norm_num

/-- No number with 53 digits is nearer. -/
theorem rnd_best (q : ℚ) {x : ℚ} (hx : Digits53 x) : |q - rnd q| ≤ |q - x| := by
  by_cases h : q = 0
  · subst h; simp [rnd_zero]
  rcases digits_between (q := q) hx with ⟨z, rfl⟩ | ⟨h1, z, h2⟩
  · exact rnd_best_multiple q z
  · obtain ⟨a, -⟩ := ilog2_spec (abs_pos.2 h)
    rcases lt_or_gt_of_ne h with hn | hp
    · refine le_trans (rnd_best_multiple q (-z)) ?_
      have e : ((-z : ℤ) : ℚ) * unit q = -2 ^ ilog2 |q| := by rw [h2]; push_cast; ring
      rw [e]
      rw [abs_of_neg hn] at *
      obtain ⟨h3, h4⟩ := abs_le.1 h1
      rw [abs_of_nonpos (by linarith), abs_of_nonpos (by linarith)]
      linarith
    · refine le_trans (rnd_best_multiple q z) ?_
      rw [← h2]
      rw [abs_of_pos hp] at *
      obtain ⟨h3, h4⟩ := abs_le.1 h1
      rw [abs_of_nonneg (by linarith), abs_of_nonneg (by linarith)]
      linarith

theorem rnd_of_digits {x : ℚ} (hx : Digits53 x) : rnd x = x := by
  have := rnd_best x hx
  rw [sub_self, abs_zero] at this
  have := abs_eq_zero.1 (le_antisymm this (abs_nonneg _))
  linarith

theorem rnd_rnd (q : ℚ) : rnd (rnd q) = rnd q := rnd_of_digits (rnd_digits q)

theorem digits_iff {x : ℚ} : Digits53 x ↔ rnd x = x := ⟨rnd_of_digits, fun h => h ▸ rnd_digits x⟩

theorem le_rnd {q x : ℚ} (hx : Digits53 x) (h : x ≤ q) : x ≤ rnd q := by
  by_contra hc
  rw [not_le] at hc
  have := rnd_best q hx
  rw [abs_of_nonneg (by linarith), abs_of_nonneg (by linarith)] at this
  linarith

theorem rnd_le {q x : ℚ} (hx : Digits53 x) (h : q ≤ x) : rnd q ≤ x := by
  by_contra hc
  rw [not_le] at hc
  have := rnd_best q hx
  rw [abs_of_nonpos (by linarith), abs_of_nonpos (by linarith)] at this
  linarith

theorem digits_int {i : ℤ} (h : |i| ≤ 2 ^ 53) : Digits53 (i : ℚ) := ⟨i, 0, h, by norm_num, by simp⟩
theorem digits_zero : Digits53 0 := ⟨0, 0, by norm_num, by norm_num, by simp⟩
theorem Digits53.neg {x : ℚ} : Digits53 x → Digits53 (-x) := by
  rintro ⟨m, e, hm, he, rfl⟩
  exact ⟨-m, e, by rwa [abs_neg], he, by push_cast; ring⟩

theorem rnd_int {i : ℤ} (h : |i| ≤ 2 ^ 53) : rnd (i : ℚ) = i := rnd_of_digits (digits_int h)

/-- Half an odd number has one digit more. -/
theorem digits_half {i : ℤ} (h : |i| ≤ 2 ^ 53) : Digits53 ((i : ℚ) / 2) :=
  ⟨i, -1, h, by norm_num, by rw [zpow_neg_one]; ring⟩

theorem nearest_neg (q : ℚ) : nearest (-q) = -nearest q := by
  by_cases hq : (⌊q⌋ : ℚ) = q
  · rw [← hq, ← Int.cast_neg, nearest_int, nearest_int]
  have a : (⌊q⌋ : ℚ) < q := lt_of_le_of_ne (Int.floor_le q) hq
  have b := Int.lt_floor_add_one q
  have hf : ⌊-q⌋ = -⌊q⌋ - 1 := by
    rw [Int.floor_eq_iff]; push_cast; constructor <;> linarith
  rw [nearest_def, nearest_def, hf]
  push_cast
  by_cases h1 : q - ⌊q⌋ < 1 / 2
  · rw [if_pos h1, if_neg (by linarith), if_pos (by linarith)]; ring
  · by_cases h2 : 1 / 2 < q - ⌊q⌋
    · rw [if_neg h1, if_pos h2, if_pos (by linarith)]; ring
    · rw [if_neg h1, if_neg h2, if_neg (by linarith), if_neg (by linarith)]
      by_cases h3 : ⌊q⌋ % 2 = 0
      · rw [if_pos h3, if_neg (by omega)]; ring
      · rw [if_neg h3, if_pos (by omega)]; ring

theorem unit_neg (q : ℚ) : unit (-q) = unit q := by unfold unit; rw [abs_neg]

theorem rnd_neg (q : ℚ) : rnd (-q) = -rnd q := by
  by_cases h : q = 0
  · subst h; simp [rnd_zero]
  rw [rnd_eq h, rnd_eq (neg_ne_zero.2 h), unit_neg, neg_div, nearest_neg]
  push_cast; ring

/-- Half a unit is the greatest error. -/
theorem rnd_error (q : ℚ) : |q - rnd q| ≤ unit q / 2 := by
  by_cases h : q = 0
  · subst h; rw [rnd_zero, sub_self, abs_zero]; exact (half_pos (unit_pos 0)).le
  have hu := unit_pos q
  have e : |q - nearest (q / unit q) * unit q| = |q / unit q - nearest (q / unit q)| * unit q := by
    rw [← abs_of_pos hu, ← abs_mul, abs_of_pos hu, sub_mul, div_mul_cancel₀ _ hu.ne']
  rw [rnd_eq h, e]
  calc _ ≤ 1 / 2 * unit q := mul_le_mul_of_nonneg_right (nearest_le _) hu.le
    _ = _ := by ring

end Dbl
end Pip
