import Verif.Lemmas.FloatArith
import Verif.Spec.Written
import Mathlib.Data.Nat.Log
/-! The texts of floats have as few digits as possible, and numbers with 15 digits survive. -/

namespace Pip
open Floats
namespace Dbl

theorem rnd_mono {x y : ℚ} (h : x ≤ y) : rnd x ≤ rnd y := by
  by_contra hc
  rw [not_le] at hc
  have h1 : y < rnd x := by
    by_contra h'
    exact absurd (le_rnd (rnd_digits x) (not_lt.1 h')) (not_le.2 hc)
  have h2 : rnd y < x := by
    by_contra h'
    exact absurd (rnd_le (rnd_digits y) (not_lt.1 h')) (not_le.2 hc)
  have b1 := rnd_best x (rnd_digits y)
  have b2 := rnd_best y (rnd_digits x)
  rw [abs_of_neg (by linarith), abs_of_pos (by linarith)] at b1
  rw [abs_of_pos (by linarith), abs_of_neg (by linarith)] at b2
  have : x = y := by linarith
  subst this
  exact absurd hc (lt_irrefl _)

theorem rnd_between {q x y : ℚ} (hq : Digits53 q) (hx : rnd x = q) (h : x ≤ y ∧ y ≤ q ∨ q ≤ y ∧ y ≤ x) : rnd y = q := by
  have hqq := rnd_of_digits hq
  rcases h with ⟨h1, h2⟩ | ⟨h1, h2⟩
  · exact le_antisymm (by rw [← hqq]; exact rnd_mono h2) (by rw [← hx]; exact rnd_mono h1)
  · exact le_antisymm (by rw [← hx]; exact rnd_mono h2) (hqq.symm.trans_le (rnd_mono h1))

theorem pick_some {q : ℚ} (hq : Digits53 q) {p z : ℤ} (h : rnd (z * 10 ^ p) = q) : pick q p ≠ none := by
  have hu := ten_pos p
  intro hn
  unfold pick at hn
  simp only [floor_eq] at hn
  have h1 := Int.floor_le (q / 10 ^ p)
  have h2 := Int.lt_floor_add_one (q / 10 ^ p)
  rw [le_div_iff₀ hu] at h1
  rw [div_lt_iff₀ hu] at h2
  have key : reads q ((⌊q / 10 ^ p⌋ : ℤ) * 10 ^ p) = true ∨ reads q ((⌊q / 10 ^ p⌋ + 1 : ℤ) * 10 ^ p) = true := by
    rcases le_or_gt z ⌊q / 10 ^ p⌋ with hz | hz
    · left
      refine decide_eq_true (rnd_between hq h (.inl ⟨?_, h1⟩))
      exact mul_le_mul_of_nonneg_right (by exact_mod_cast hz) hu.le
    · right
      refine decide_eq_true (rnd_between hq h (.inr ⟨?_, ?_⟩))
      · push_cast; exact h2.le
      · exact mul_le_mul_of_nonneg_right (by exact_mod_cast hz) hu.le
  split at hn
  · cases hn
  · cases hn
  · cases hn
  · next a b =>
    rcases key with k | k
    · rw [k] at a; cases a
    · rw [k] at b; cases b

theorem shortest_digits {q : ℚ} {k : ℤ} (h : 0 < q) (hk : q < 10 ^ k) : ∀ (m n : ℕ), ∃ j : ℕ,
    (shortest q k n m).2 = k - j ∧ 0 ≤ (shortest q k n m).1 ∧ (shortest q k n m).1 ≤ 10 ^ j ∧
    n ≤ j ∧ j ≤ n + m ∧ ∀ N, n ≤ N → pick q (k - N) ≠ none → j ≤ N
  | m, n => by
    have hu := ten_pos (k - n)
    have h0 : ((0 : ℤ) : ℚ) ≤ q / 10 ^ (k - n) := by
      rw [Int.cast_zero]; exact (div_pos h hu).le
    have h1 : q / 10 ^ (k - n) < ((10 ^ n : ℤ) : ℚ) := by
      rw [div_lt_iff₀ hu]
      refine lt_of_lt_of_le hk ?_
      have : ((10 ^ n : ℤ) : ℚ) = 10 ^ (n : ℤ) := by push_cast; exact (zpow_natCast 10 n).symm
      rw [this, ← ten_add]
      exact ten_le (by omega)
    have hb := nearest_between h0 h1
    have f1 := Int.le_floor.2 h0
    have f2 := Int.floor_lt.2 h1
    match m with
    | 0 => exact ⟨n, rfl, hb.1, hb.2, le_rfl, by omega, fun N hN _ => hN⟩
    | m + 1 =>
      unfold shortest
      split
      next d hd =>
        refine ⟨n, rfl, ?_, ?_, le_rfl, by omega, fun N hN _ => hN⟩
        all_goals
          simp only
          unfold pick at hd
          simp only [floor_eq] at hd
          split at hd
          · simp only [Option.some.injEq] at hd; omega
          · simp only [Option.some.injEq] at hd; omega
          · simp only [Option.some.injEq] at hd; omega
          · cases hd
      next hn =>
        obtain ⟨j, a1, a2, a3, a6, a4, a5⟩ := shortest_digits h hk m (n + 1)
        refine ⟨j, a1, a2, a3, by omega, by omega, fun N hN hp => ?_⟩
        rcases Nat.eq_or_lt_of_le hN with rfl | hN
        · exact absurd hn hp
        · exact a5 N hN hp

theorem hasDigits_mono {m n : ℕ} {v : ℚ} (h : HasDigits m v) (hn : m ≤ n) : HasDigits n v := by
  obtain ⟨d, p, h1, h2⟩ := h
  exact ⟨d, p, lt_of_lt_of_le h1 (Nat.pow_le_pow_right (by norm_num) hn), h2⟩

/-- No number with fewer digits than the text reads as the float. -/
theorem digitsOf_fewest {q : ℚ} (h : 0 < q) (hq : Digits53 q) (ht : q < top) {N : ℕ} {w : ℚ} (hw : 0 < w) (hr : rnd w = q)
    (hd : HasDigits N w) : HasDigits N ((digitsOf q).1 * 10 ^ (digitsOf q).2) := by
  obtain ⟨k1, k2⟩ := decExp_digits h hq ht
  obtain ⟨j, a1, a2, a3, hj1, -, a5⟩ := shortest_digits h k2 16 1
  unfold digitsOf
  rw [dropZeros_val]
  generalize shortest q (decExp 400 q) 1 16 = x at *
  generalize decExp 400 q = k at *
  obtain ⟨d, p, hd1, hd2⟩ := hd
  rw [abs_of_pos hw] at hd2
  have hN : 1 ≤ N := by
    by_contra hc
    have : N = 0 := by omega
    subst this
    have : d = 0 := by simpa using hd1
    subst this
    simp at hd2
    linarith
  have hj : j ≤ N := by
    by_cases hp : k - N ≤ p
    · refine a5 N hN (pick_some hq (z := d * 10 ^ (p - (k - N)).toNat) ?_)
      have e : (((d * 10 ^ (p - (k - N)).toNat : ℤ)) : ℚ) * 10 ^ (k - N) = w := by
        rw [hd2]
        push_cast
        rw [mul_assoc, ← zpow_natCast, ← ten_add]
        congr 2
        omega
      rw [e]
      exact hr
    · have hlt : w < 10 ^ (k - 1) := by
        rw [hd2]
        have c1 : (d : ℚ) < 10 ^ (N : ℤ) := by rw [ten_nat]; exact_mod_cast hd1
        calc (d : ℚ) * 10 ^ p < 10 ^ (N : ℤ) * 10 ^ p := mul_lt_mul_of_pos_right c1 (ten_pos p)
          _ = 10 ^ (N + p) := (ten_add _ _).symm
          _ ≤ _ := ten_le (by omega)
      have := a5 1 le_rfl (pick_some hq (z := 1) (by
        rw [Int.cast_one, one_mul]
        exact rnd_between hq hr (.inl ⟨hlt.le, k1⟩)))
      omega
  have hz : (x.1.toNat : ℤ) = x.1 := by omega
  refine hasDigits_mono ?_ hj
  have hv : |(x.1.toNat : ℚ) * 10 ^ x.2| = x.1.toNat * 10 ^ x.2 :=
    abs_of_nonneg (mul_nonneg (Nat.cast_nonneg _) (ten_pos _).le)
  have hle : x.1.toNat ≤ 10 ^ j := by
    have : ((10 ^ j : ℕ) : ℤ) = 10 ^ j := by push_cast; rfl
    omega
  rcases Nat.lt_or_ge x.1.toNat (10 ^ j) with hl | hl
  · exact ⟨_, _, hl, hv⟩
  · have he : x.1.toNat = 10 ^ j := le_antisymm hle hl
    have hp : 1 < 10 ^ j := Nat.one_lt_pow (by omega) (by norm_num)
    refine ⟨1, x.2 + j, hp, ?_⟩
    rw [hv, he, ten_add, ten_nat]
    push_cast
    ring

/-! ### The nearest of them -/

theorem pick_best {q : ℚ} (hq : Digits53 q) {p z m : ℤ} (hz : pick q p = some z) (h : rnd (m * 10 ^ p) = q) :
    |(z : ℚ) * 10 ^ p - q| ≤ |(m : ℚ) * 10 ^ p - q| := by
  have hu := ten_pos p
  unfold pick at hz
  simp only [floor_eq] at hz
  have h1 := Int.floor_le (q / 10 ^ p)
  have h2 := Int.lt_floor_add_one (q / 10 ^ p)
  rw [le_div_iff₀ hu] at h1
  rw [div_lt_iff₀ hu] at h2
  have below : ∀ m : ℤ, m ≤ ⌊q / 10 ^ p⌋ → (m : ℚ) * 10 ^ p ≤ (⌊q / 10 ^ p⌋ : ℤ) * 10 ^ p := fun m hm =>
    mul_le_mul_of_nonneg_right (by exact_mod_cast hm) hu.le
  have above : ∀ m : ℤ, ⌊q / 10 ^ p⌋ < m → ((⌊q / 10 ^ p⌋ + 1 : ℤ) : ℚ) * 10 ^ p ≤ (m : ℚ) * 10 ^ p := fun m hm =>
    mul_le_mul_of_nonneg_right (by exact_mod_cast hm) hu.le
  split at hz
  · simp only [Option.some.injEq] at hz
    subst hz
    have key : ∀ z : ℤ, |(z : ℚ) * 10 ^ p - q| = |q / 10 ^ p - z| * 10 ^ p := by
      intro z
      rw [← abs_of_pos hu, ← abs_mul, abs_of_pos hu, sub_mul, div_mul_cancel₀ _ hu.ne', abs_sub_comm]
    rw [key, key]
    exact mul_le_mul_of_nonneg_right (nearest_best _ _) hu.le
  · next a b =>
    simp only [Option.some.injEq] at hz
    subst hz
    rcases le_or_gt m ⌊q / 10 ^ p⌋ with hm | hm
    · have := below m hm
      rw [abs_of_nonpos (by linarith), abs_of_nonpos (by linarith)]
      linarith
    · have : reads q ((⌊q / 10 ^ p⌋ + 1 : ℤ) * 10 ^ p) = true :=
        decide_eq_true (rnd_between hq h (.inr ⟨by push_cast; exact h2.le, above m hm⟩))
      rw [this] at b
      cases b
  · next a b =>
    simp only [Option.some.injEq] at hz
    subst hz
    rcases le_or_gt m ⌊q / 10 ^ p⌋ with hm | hm
    · have : reads q ((⌊q / 10 ^ p⌋ : ℤ) * 10 ^ p) = true := decide_eq_true (rnd_between hq h (.inl ⟨below m hm, h1⟩))
      rw [this] at a
      cases a
    · have := above m hm
      have h3 : q < ((⌊q / 10 ^ p⌋ + 1 : ℤ) : ℚ) * 10 ^ p := by push_cast; exact h2
      rw [abs_of_pos (by linarith), abs_of_pos (by linarith)]
      linarith
  · cases hz

theorem shortest_best {q : ℚ} (hq : Digits53 q) (k : ℤ) : ∀ (m n : ℕ) (z : ℤ), rnd (z * 10 ^ (shortest q k n m).2) = q →
    |((shortest q k n m).1 : ℚ) * 10 ^ (shortest q k n m).2 - q| ≤ |(z : ℚ) * 10 ^ (shortest q k n m).2 - q|
  | 0, n, z, _ => by
    have hu := ten_pos (k - n)
    have key : ∀ z : ℤ, |(z : ℚ) * 10 ^ (k - n) - q| = |q / 10 ^ (k - n) - z| * 10 ^ (k - n) := by
      intro z
      rw [← abs_of_pos hu, ← abs_mul, abs_of_pos hu, sub_mul, div_mul_cancel₀ _ hu.ne', abs_sub_comm]
    show |((nearest (q / 10 ^ (k - n)) : ℤ) : ℚ) * 10 ^ (k - n) - q| ≤ |(z : ℚ) * 10 ^ (k - n) - q|
    rw [key, key]
    exact mul_le_mul_of_nonneg_right (nearest_best _ _) hu.le
  | m + 1, n, z, h => by
    unfold shortest at h ⊢
    split at h
    next d hd =>
      exact pick_best hq hd h
    next hd =>
      exact shortest_best hq k m (n + 1) z h

/-- Of the numbers with as few digits that read as the float, the one written is nearest to it. -/
theorem digitsOf_nearest {q : ℚ} (h : 0 < q) (hq : Digits53 q) (ht : q < top) {w : ℚ} (hw : 0 < w) (hr : rnd w = q)
    (hd : ∀ n, HasDigits n ((digitsOf q).1 * 10 ^ (digitsOf q).2) → HasDigits n w) :
    |((digitsOf q).1 * 10 ^ (digitsOf q).2 : ℚ) - q| ≤ |w - q| := by
  obtain ⟨k1, k2⟩ := decExp_digits h hq ht
  obtain ⟨j, a1, a2, a3, hj1, -, a5⟩ := shortest_digits h k2 16 1
  have best := shortest_best hq (decExp 400 q) 16 1
  unfold digitsOf at hd ⊢
  rw [dropZeros_val] at hd ⊢
  generalize shortest q (decExp 400 q) 1 16 = x at *
  generalize decExp 400 q = k at *
  have hz : (x.1.toNat : ℤ) = x.1 := by omega
  have hv : |(x.1.toNat : ℚ) * 10 ^ x.2| = x.1.toNat * 10 ^ x.2 :=
    abs_of_nonneg (mul_nonneg (Nat.cast_nonneg _) (ten_pos _).le)
  have hle : x.1.toNat ≤ 10 ^ j := by
    have : ((10 ^ j : ℕ) : ℤ) = 10 ^ j := by push_cast; rfl
    omega
  have hdj : HasDigits j ((x.1.toNat : ℚ) * 10 ^ x.2) := by
    rcases Nat.lt_or_ge x.1.toNat (10 ^ j) with hl | hl
    · exact ⟨_, _, hl, hv⟩
    · have he : x.1.toNat = 10 ^ j := le_antisymm hle hl
      have hp : 1 < 10 ^ j := Nat.one_lt_pow (by omega) (by norm_num)
      refine ⟨1, x.2 + j, hp, ?_⟩
      rw [hv, he, ten_add, ten_nat]
      push_cast
      ring
  obtain ⟨d, p, hd1, hd2⟩ := hd j hdj
  rw [abs_of_pos hw] at hd2
  have hcast : ((x.1.toNat : ℕ) : ℚ) = (x.1 : ℚ) := by
    rw [← Int.cast_natCast, hz]
  rw [hcast]
  rw [a1] at best ⊢
  by_cases hp : k - j ≤ p
  · have e : (((d * 10 ^ (p - (k - j)).toNat : ℤ)) : ℚ) * 10 ^ (k - j) = w := by
      rw [hd2]
      push_cast
      rw [mul_assoc, ← zpow_natCast, ← ten_add]
      congr 2
      omega
    have := best (d * 10 ^ (p - (k - j)).toNat) (by rw [e]; exact hr)
    rwa [e] at this
  · have hlt : w < 10 ^ (k - 1) := by
      rw [hd2]
      have c1 : (d : ℚ) < 10 ^ (j : ℤ) := by rw [ten_nat]; exact_mod_cast hd1
      calc (d : ℚ) * 10 ^ p < 10 ^ (j : ℤ) * 10 ^ p := mul_lt_mul_of_pos_right c1 (ten_pos p)
        _ = 10 ^ (j + p) := (ten_add _ _).symm
        _ ≤ _ := ten_le (by omega)
    have e : ((10 ^ (j - 1) : ℤ) : ℚ) * 10 ^ (k - j) = 10 ^ (k - 1) := by
      push_cast
      rw [← zpow_natCast, ← ten_add]
      congr 1
      omega
    have := best (10 ^ (j - 1)) (by
      rw [e]
      exact rnd_between hq hr (.inl ⟨hlt.le, k1⟩))
    rw [e] at this
    refine this.trans ?_
    rw [abs_of_nonpos (by linarith), abs_of_nonpos (by linarith)]
    linarith

/-! ### Fifteen digits -/

theorem hasDigits_full {v : ℚ} (h : 0 < v) (hd : HasDigits 15 v) : ∃ (d : ℕ) (p : ℤ), 10 ^ 14 ≤ d ∧ d < 10 ^ 15 ∧ v = d * 10 ^ p := by
  obtain ⟨d, p, h1, h2⟩ := hd
  rw [abs_of_pos h] at h2
  have hd : d ≠ 0 := by
    rintro rfl
    simp at h2
    linarith
  have l1 := Nat.pow_log_le_self 10 hd
  have l2 := Nat.lt_pow_succ_log_self (b := 10) (by norm_num) d
  have l3 : Nat.log 10 d < 15 := by
    by_contra hc
    have := Nat.pow_le_pow_right (n := 10) (by norm_num) (not_lt.1 hc)
    omega
  generalize Nat.log 10 d = l at *
  obtain ⟨i, hi⟩ : ∃ i, l + i = 14 := ⟨14 - l, by omega⟩
  refine ⟨d * 10 ^ i, p - i, ?_, ?_, ?_⟩
  · calc 10 ^ 14 = 10 ^ l * 10 ^ i := by rw [← pow_add, hi]
      _ ≤ _ := Nat.mul_le_mul_right _ l1
  · calc d * 10 ^ i < 10 ^ (l + 1) * 10 ^ i := Nat.mul_lt_mul_of_pos_right l2 (by positivity)
      _ = 10 ^ 15 := by rw [← pow_add]; congr 1; omega
  · rw [h2, Nat.cast_mul, mul_assoc, ← ten_nat, ← ten_add]
    congr 2
    ring

theorem rnd_normal {v : ℚ} (h : (2 : ℚ) ^ (-1022 : ℤ) ≤ v) : |v - rnd v| ≤ v / 2 ^ 53 := by
  have hv : 0 < v := lt_of_lt_of_le (two_pos _) h
  refine (rnd_error v).trans ?_
  unfold unit
  rw [abs_of_pos hv]
  obtain ⟨i1, i2⟩ := ilog2_spec hv
  have : -1022 < ilog2 v + 1 := two_lt_iff.1 (lt_of_le_of_lt h i2)
  have e : lastExp v = ilog2 v - 52 := by
    unfold lastExp
    omega
  rw [e, two_sub]
  have : (2 : ℚ) ^ (52 : ℤ) = 2 ^ 52 := by norm_num
  rw [this]
  linarith

theorem fifteen_lt {v w : ℚ} (hv : (2 : ℚ) ^ (-1022 : ℤ) ≤ v) (dv : HasDigits 15 v) (dw : HasDigits 15 w)
    (h : rnd v = rnd w) : ¬ v < w := by
  intro hlt
  have pv : 0 < v := lt_of_lt_of_le (two_pos _) hv
  have rv := rnd_normal hv
  have rw' := rnd_normal (hv.trans hlt.le)
  rw [← h] at rw'
  obtain ⟨d, p, d1, d2, d3⟩ := hasDigits_full pv dv
  obtain ⟨d', p', e1, e2, e3⟩ := hasDigits_full (pv.trans hlt) dw
  have hc : w - v ≤ (v + w) / 2 ^ 53 := by
    have := abs_le.1 rv
    have := abs_le.1 rw'
    linarith
  clear rv rw' h hv
  have hp := ten_pos p
  rcases lt_trichotomy p' p with hpp | rfl | hpp
  · have h1 : w < v := by
      rw [d3, e3]
      have c1 : (d' : ℚ) < 10 ^ 15 := by exact_mod_cast e2
      have c2 : (10 : ℚ) ^ 14 ≤ d := by exact_mod_cast d1
      have c3 : (10 : ℚ) ^ p' * 10 ≤ 10 ^ p := by rw [← ten_succ]; exact ten_le (by omega)
      have c4 := ten_pos p'
      calc (d' : ℚ) * 10 ^ p' < 10 ^ 15 * 10 ^ p' := mul_lt_mul_of_pos_right c1 c4
        _ = 10 ^ 14 * (10 ^ p' * 10) := by ring
        _ ≤ 10 ^ 14 * 10 ^ p := by gcongr
        _ ≤ _ := by gcongr
    linarith
  · generalize (10 : ℚ) ^ p' = u at *
    have c1 : (d : ℚ) < d' := by
      rw [d3, e3] at hlt
      exact lt_of_mul_lt_mul_right hlt hp.le
    have c2 : (d : ℚ) + 1 ≤ d' := by
      have : d < d' := by exact_mod_cast c1
      exact_mod_cast this
    have c3 : (d' : ℚ) < 10 ^ 15 := by exact_mod_cast e2
    have c4 : (d : ℚ) < 10 ^ 15 := by exact_mod_cast d2
    have c5 : (d' : ℚ) - d ≤ (d + d') / 2 ^ 53 := by
      rw [d3, e3] at hc
      refine le_of_mul_le_mul_right ?_ hp
      linarith
    linarith
  · have c0 : (10 : ℚ) ^ p * 10 ≤ 10 ^ p' := by rw [← ten_succ]; exact ten_le (by omega)
    have c1 : (d : ℚ) + 1 ≤ 10 ^ 15 := by exact_mod_cast d2
    have c2 : (10 : ℚ) ^ 14 ≤ d' := by exact_mod_cast e1
    have c3 : 10 ^ 15 * 10 ^ p ≤ w := by
      rw [e3]
      calc (10 : ℚ) ^ 15 * 10 ^ p = 10 ^ 14 * (10 ^ p * 10) := by ring
        _ ≤ 10 ^ 14 * 10 ^ p' := by gcongr
        _ ≤ _ := by gcongr
    have c4 : v + 10 ^ p ≤ 10 ^ 15 * 10 ^ p := by
      rw [d3]
      calc (d : ℚ) * 10 ^ p + 10 ^ p = (d + 1) * 10 ^ p := by ring
        _ ≤ _ := by gcongr
    generalize (10 : ℚ) ^ p = u at *
    linarith

/-- Different numbers with 15 digits have different floats. -/
theorem fifteen {v w : ℚ} (hv : (2 : ℚ) ^ (-1022 : ℤ) ≤ v) (hw : (2 : ℚ) ^ (-1022 : ℤ) ≤ w) (dv : HasDigits 15 v) (dw : HasDigits 15 w)
    (h : rnd v = rnd w) : v = w := by
  rcases lt_trichotomy v w with hlt | rfl | hlt
  · exact absurd hlt (fifteen_lt hv dv dw h)
  · rfl
  · exact absurd hlt (fifteen_lt hw dw dv h.symm)

end Dbl
end Pip
