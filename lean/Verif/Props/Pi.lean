import Verif.Props.Presets
import Verif.Props.Float
import Mathlib.Analysis.Real.Pi.Bounds
/-!
# C101: the preset `PI`, and the version
-/

namespace Pip
open Floats

variable {X : Ext}

/-- C101: `VD` and `VN` hold the date and the number of the version (version.py:1-5), -/
theorem C101_version (main : Val) (args : List Val) (s0 s : St X) (h : setMain main args s0 = (.ok (), s)) :
    s.var (s% "VD") = some (.scalar (s% "2024-03-30")) ∧ s.var (s% "VN") = some (.scalar (s% "1.2.0")) :=
  ⟨preset% h, preset% h⟩

/-- A float from 2 on lies on the grid of step `2 ^ -51`. -/
theorem grid_of_float {y : ℚ} (h : IsFloat y) (h2 : 2 ≤ y) : ∃ k : ℤ, y = k / 2 ^ 51 := by
  obtain ⟨⟨m, e, hm, -, rfl⟩, -⟩ := h
  by_cases he : -51 ≤ e
  · obtain ⟨n, rfl⟩ : ∃ n : ℕ, e = n - 51 := ⟨(e + 51).toNat, by omega⟩
    refine ⟨m * 2 ^ n, ?_⟩
    rw [zpow_sub₀ (by norm_num)]
    push_cast
    rw [zpow_natCast, mul_div_assoc]
    norm_num
  · have h3 : ((2 : ℚ) ^ e) ≤ 2 ^ (-52 : ℤ) := zpow_le_zpow_right₀ (by norm_num) (by omega)
    have h4 : (m : ℚ) ≤ 2 ^ 53 := by exact_mod_cast (abs_le.1 hm).2
    have h5 : (0 : ℚ) < 2 ^ e := by positivity
    have h6 : (m : ℚ) * 2 ^ e ≤ 2 ^ 53 * 2 ^ (-52 : ℤ) := by
      have h7 : (m : ℚ) * 2 ^ e ≤ 2 ^ 53 * 2 ^ e := by
        exact mul_le_mul_of_nonneg_right h4 h5.le
      exact h7.trans (mul_le_mul_of_nonneg_left h3 (by norm_num))
    have h8 : (m : ℚ) * 2 ^ e = 2 := le_antisymm (h6.trans (by norm_num)) h2
    exact ⟨2 ^ 52, by rw [h8]; norm_num⟩

/-- and `PI` the text of a float, namely of the float nearest to the number π. -/
theorem C101_pi (X : Ext) (L : Libm X.Rng) (main : Val) (args : List Val) (s0 s : St (X.withDbl L))
    (h : setMain main args s0 = (.ok (), s)) :
    ∃ t r, s.var (s% "PI") = some (.scalar t) ∧ t = s% "3.141592653589793" ∧ toNum (X.withDbl L) t = .flt (.fin r) ∧ IsFloat r ∧
      ∀ y : ℚ, IsFloat y → y ≠ r → |(r : ℝ) - Real.pi| < |(y : ℝ) - Real.pi| := by
  have hr : (884279719003555 / 281474976710656 : ℚ) = (7074237752028440 : ℤ) / 2 ^ 51 := by norm_num
  have hf : IsFloat (884279719003555 / 281474976710656 : ℚ) :=
    ⟨⟨884279719003555, -48, by norm_num, by norm_num, by norm_num⟩, by
      rw [abs_of_pos (by norm_num)]
      exact lt_of_lt_of_le (by norm_num) (pow_le_pow_right₀ (by norm_num) (show 2 ≤ 1024 by omega) : (2 : ℚ) ^ 2 ≤ 2 ^ 1024)⟩
  have ht : numStr (X.withDbl L) (.flt dblPi) = s% "3.141592653589793" := numStr_of X L (by decide +kernel) rfl
  refine ⟨_, 884279719003555 / 281474976710656, ?_, rfl, ?_, hf, ?_⟩
  · rw [← ht]
    exact preset% h
  · rcases C89_write X L _ hf with ⟨i, _, hi⟩ | hw
    · exfalso
      have : (884279719003555 : ℤ) = i * 281474976710656 := by
        have := congrArg (· * (281474976710656 : ℚ)) hi
        norm_num at this
        exact_mod_cast this
      omega
    · rw [← ht]
      exact hw
  · intro y hy hne
    have l1 := Real.pi_gt_d20
    have l2 := Real.pi_lt_d20
    have hc : |((884279719003555 / 281474976710656 : ℚ) : ℝ) - Real.pi| < 1 / 2 ^ 52 := by
      push_cast
      rw [abs_lt]
      constructor <;> norm_num at * <;> linarith
    refine hc.trans_le ?_
    by_cases h2 : 2 ≤ y
    · obtain ⟨k, rfl⟩ := grid_of_float hy h2
      have hk : k ≠ 7074237752028440 := by rintro rfl; exact hne hr.symm
      push_cast
      rcases lt_or_gt_of_ne hk with hk | hk
      · have : (k : ℝ) ≤ 7074237752028439 := by exact_mod_cast (by omega : k ≤ 7074237752028439)
        rw [abs_sub_comm]
        refine le_trans ?_ (le_abs_self _)
        norm_num at *
        linarith
      · have : (7074237752028441 : ℝ) ≤ k := by exact_mod_cast (by omega : 7074237752028441 ≤ k)
        refine le_trans ?_ (le_abs_self _)
        norm_num at *
        linarith
    · have : (y : ℝ) < 2 := by exact_mod_cast not_le.1 h2
      rw [abs_sub_comm]
      refine le_trans ?_ (le_abs_self _)
      norm_num at *
      linarith

example : toyOut (s% "VN") [] [] = some (s% "1.2.0\n") := by decide +kernel
example (X : Ext) (L : Libm X.Rng) (s0 : St (X.withDbl L)) :
    ∃ s, setMain (.block [] (.val .nil)) [.scalar (s% "3")] s0 = (.ok (), s) := ⟨_, rfl⟩

end Pip
