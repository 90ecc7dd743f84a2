import Verif.Lemmas.Double
import Verif.Lemmas.Num
/-! The decimal texts of floats. -/

namespace Pip
namespace Dbl

theorem ten_pos (k : ℤ) : (0 : ℚ) < 10 ^ k := zpow_pos (by norm_num) k
theorem ten_le {a b : ℤ} (h : a ≤ b) : (10 : ℚ) ^ a ≤ 10 ^ b := zpow_le_zpow_right₀ (by norm_num) h
theorem ten_add (a b : ℤ) : (10 : ℚ) ^ (a + b) = 10 ^ a * 10 ^ b := zpow_add₀ (by norm_num) a b
theorem ten_succ (a : ℤ) : (10 : ℚ) ^ (a + 1) = 10 ^ a * 10 := by rw [ten_add, zpow_one]
theorem ten_pred (a : ℤ) : (10 : ℚ) ^ (a - 1) = 10 ^ a / 10 := by rw [zpow_sub_one₀ (by norm_num)]; ring
theorem ten_nat (n : ℕ) : (10 : ℚ) ^ (n : ℤ) = ((10 ^ n : ℕ) : ℚ) := by push_cast; exact zpow_natCast 10 n

/-! ### The decimal exponent -/

theorem decExp_spec : ∀ (n : ℕ) {q : ℚ}, (10 : ℚ) ^ (-(n : ℤ) - 1) ≤ q → q < 10 ^ (n : ℤ) →
    (10 : ℚ) ^ (decExp n q - 1) ≤ q ∧ q < 10 ^ decExp n q
  | 0, q, h1, h2 => by simpa [decExp] using ⟨h1, h2⟩
  | n + 1, q, h1, h2 => by
    have e1 : (10 : ℚ) ^ (-((n + 1 : ℕ) : ℤ) - 1) = 10 ^ (-(n : ℤ) - 1) / 10 := by
      rw [← ten_pred]; congr 1; push_cast; ring
    have e2 : (10 : ℚ) ^ ((n + 1 : ℕ) : ℤ) = 10 ^ (n : ℤ) * 10 := by
      rw [← ten_succ]; congr 1
    have l1 : (10 : ℚ) ^ (-(n : ℤ) - 1) ≤ 1 / 10 := by
      have := ten_le (show -(n : ℤ) - 1 ≤ -1 by omega)
      rwa [zpow_neg_one, inv_eq_one_div] at this
    have l2 : (1 : ℚ) ≤ 10 ^ (n : ℤ) := by
      have := ten_le (show (0 : ℤ) ≤ n by omega)
      rwa [zpow_zero] at this
    rw [e1] at h1
    rw [e2] at h2
    unfold decExp
    split
    next h =>
      obtain ⟨a, b⟩ := decExp_spec n (q := q / 10) (by linarith) (by linarith)
      rw [show decExp n (q / 10) + 1 - 1 = (decExp n (q / 10) - 1) + 1 by ring, ten_succ, ten_succ]
      constructor <;> linarith
    next h =>
      split
      next h' =>
        obtain ⟨a, b⟩ := decExp_spec n (q := q * 10) (by linarith) (by linarith)
        rw [ten_pred] at a
        rw [ten_pred, ten_pred]
        constructor <;> linarith
      next h' =>
        rw [not_lt] at h'
        rw [not_le] at h
        constructor
        · rw [show (0 : ℤ) - 1 = -1 by ring, zpow_neg_one]; linarith
        · rw [zpow_zero]; exact h

theorem digits_small {q : ℚ} (h : 0 < q) (hd : Digits53 q) : (2 : ℚ) ^ (-1074 : ℤ) ≤ q := by
  obtain ⟨m, e, hm, he, rfl⟩ := hd
  have hm : 0 < m := by
    have := (mul_pos_iff_of_pos_right (two_pos e)).1 h
    exact_mod_cast this
  have h1 : (1 : ℚ) ≤ m := by exact_mod_cast hm
  have h2 := two_le he
  have h3 := two_pos e
  nlinarith

theorem decExp_digits {q : ℚ} (h : 0 < q) (hd : Digits53 q) (ht : q < top) :
    (10 : ℚ) ^ (decExp 400 q - 1) ≤ q ∧ q < 10 ^ decExp 400 q := by
  refine decExp_spec 400 ?_ ?_
  · refine le_trans ?_ (digits_small h hd)
    refine le_trans (b := (8 : ℚ) ^ (-401 : ℤ)) ?_ ?_
    · rw [show -((400 : ℕ) : ℤ) - 1 = -((401 : ℕ) : ℤ) by norm_num, show (-401 : ℤ) = -((401 : ℕ) : ℤ) by norm_num,
        zpow_neg, zpow_neg, zpow_natCast, zpow_natCast]
      exact inv_anti₀ (by positivity) (pow_le_pow_left₀ (by norm_num) (by norm_num) 401)
    · rw [show (8 : ℚ) = 2 ^ (3 : ℤ) by norm_num, ← zpow_mul]
      exact two_le (by norm_num)
  · refine lt_of_lt_of_le ht ?_
    unfold top
    refine le_trans (b := (8 : ℚ) ^ (400 : ℤ)) ?_ ?_
    · rw [show (8 : ℚ) = 2 ^ (3 : ℤ) by norm_num, ← zpow_mul, ← zpow_natCast]
      exact two_le (by norm_num)
    · rw [show (400 : ℤ) = ((400 : ℕ) : ℤ) by norm_num, zpow_natCast, zpow_natCast]
      exact pow_le_pow_left₀ (by norm_num) (by norm_num) 400

/-! ### The distance of neighbours -/


theorem two_mul_of_le {a b : ℤ} (h : a ≤ b) : ∃ z : ℤ, (2 : ℚ) ^ b = z * 2 ^ a :=
  ⟨2 ^ (b - a).toNat, by
    rw [show b = ((b - a).toNat : ℤ) + a by omega, two_add, two_nat]
    push_cast
    congr 2
    congr 1; omega⟩

theorem step_le {u x y : ℚ} (hu : 0 < u) (h : x < y) {m n : ℤ} (hx : x = m * u) (hy : y = n * u) : x + u ≤ y := by
  subst hx hy
  have : m < n := by
    have := lt_of_mul_lt_mul_right h hu.le
    exact_mod_cast this
  have : (m : ℚ) + 1 ≤ n := by exact_mod_cast this
  nlinarith

/-- Other numbers with 53 digits are not too near. -/
theorem gap {q y : ℚ} (hq : Digits53 q) (hy : Digits53 y) (hne : y ≠ q) : q ≤ 2 ^ 53 * |y - q| := by
  obtain ⟨m, e, hm, -, he⟩ := hq
  obtain ⟨m', e', hm', -, he'⟩ := hy
  have hm : (m : ℚ) ≤ 2 ^ 53 := by exact_mod_cast (abs_le.1 hm).2
  have hm' : (m' : ℚ) ≤ 2 ^ 53 := by exact_mod_cast (abs_le.1 hm').2
  have pu := two_pos e
  have pu' := two_pos e'
  have apart : ∀ {u : ℚ} {a b : ℤ}, 0 < u → q = a * u → y = b * u → u ≤ |y - q| := by
    intro u a b hu ha hb
    rcases lt_or_gt_of_ne hne with hl | hl
    · have := step_le hu hl hb ha
      rw [abs_sub_comm]; exact le_trans (by linarith) (le_abs_self _)
    · have := step_le hu hl ha hb
      exact le_trans (by linarith) (le_abs_self _)
  by_cases hle : e ≤ e'
  · obtain ⟨z, hz⟩ := two_mul_of_le hle
    have := apart pu he (b := m' * z) (by rw [he', hz]; push_cast; ring)
    nlinarith
  · rw [not_le] at hle
    obtain ⟨z, hz⟩ := two_mul_of_le hle.le
    have ha := apart pu' (a := m * z) (by rw [he, hz]; push_cast; ring) he'
    by_cases hb : q ≤ 2 ^ 53 * 2 ^ e'
    · linarith
    · rw [not_le] at hb
      obtain ⟨z, hz⟩ := two_mul_of_le (show e' + 1 ≤ e by omega)
      have := step_le (two_pos (e' + 1)) hb (m := 2 ^ 52) (n := m * z) (by rw [two_add, zpow_one]; push_cast; ring)
        (by rw [he, hz]; push_cast; ring)
      rw [two_add, zpow_one] at this
      have h3 : y ≤ 2 ^ 53 * 2 ^ e' := by rw [he']; nlinarith
      have h4 : q - y ≤ |y - q| := by rw [abs_sub_comm]; exact le_abs_self _
      linarith

/-! ### Seventeen digits are enough. -/

theorem near_reads {q x : ℚ} (hq : Digits53 q) (hx : 2 * 2 ^ 53 * |x - q| < q) : rnd x = q := by
  by_contra hne
  have h1 := gap hq (rnd_digits x) hne
  have h2 := rnd_best x hq
  have h3 : |rnd x - q| ≤ |x - rnd x| + |x - q| := by
    have := abs_add_le (rnd x - x) (x - q)
    rw [abs_sub_comm (rnd x) x] at this
    simpa using this
  linarith

theorem seventeen {q : ℚ} {k : ℤ} (hq : Digits53 q) (hk : (10 : ℚ) ^ (k - 1) ≤ q) :
    rnd (nearest (q / 10 ^ (k - 17)) * 10 ^ (k - 17)) = q := by
  refine near_reads hq ?_
  have hu := ten_pos (k - 17)
  have h1 := nearest_le (q / 10 ^ (k - 17))
  generalize hn : nearest (q / 10 ^ (k - 17)) = n at *
  have h2 : (10 : ℚ) ^ (k - 1) = 10 ^ (k - 17) * 10 ^ 16 := by
    rw [show k - 1 = (k - 17) + 16 by ring, ten_add]; norm_cast
  generalize (10 : ℚ) ^ (k - 17) = u at *
  have h3 : |(n : ℚ) * u - q| ≤ u / 2 := by
    have : (n : ℚ) * u - q = -((q / u - n) * u) := by field_simp; ring
    rw [this, abs_neg, abs_mul, abs_of_pos hu]
    nlinarith
  rw [h2] at hk
  nlinarith

theorem shortest_reads {q : ℚ} {k : ℤ} (hq : Digits53 q) (hk : (10 : ℚ) ^ (k - 1) ≤ q) :
    ∀ (m n : ℕ), n + m = 17 → rnd ((shortest q k n m).1 * 10 ^ (shortest q k n m).2) = q
  | 0, n, e => by
    have : (n : ℤ) = 17 := by omega
    simp only [shortest, this]
    exact seventeen hq hk
  | m + 1, n, e => by
    unfold shortest
    split
    next d hd =>
      simp only
      unfold pick reads at hd
      simp only [floor_eq] at hd
      split at hd
      next h1 h2 =>
        simp only [Option.some.injEq] at h1 h2 hd
        rw [← hd]
        rcases nearest_cases (q / 10 ^ (k - n)) with c | c
        · rw [c.1]; exact of_decide_eq_true h1
        · rw [c.1]; exact of_decide_eq_true h2
      next h1 h2 =>
        simp only [Option.some.injEq] at h1 hd
        rw [← hd]; exact of_decide_eq_true h1
      next h1 h2 =>
        simp only [Option.some.injEq] at h2 hd
        rw [← hd]; exact of_decide_eq_true h2
      next => cases hd
    next => exact shortest_reads hq hk m (n + 1) (by omega)

theorem nearest_between {q : ℚ} {a b : ℤ} (h1 : (a : ℚ) ≤ q) (h2 : q < b) : a ≤ nearest q ∧ nearest q ≤ b := by
  have f1 := Int.le_floor.2 h1
  have f2 := Int.floor_lt.2 h2
  rcases nearest_cases q with c | c <;> omega

theorem shortest_bound {q : ℚ} {k : ℤ} (h : 0 < q) (hk : q < 10 ^ k) :
    ∀ (m n : ℕ), n + m ≤ 17 → 0 ≤ (shortest q k n m).1 ∧ (shortest q k n m).1 ≤ 10 ^ 17
  | m, n, e => by
    have hu := ten_pos (k - n)
    have h0 : ((0 : ℤ) : ℚ) ≤ q / 10 ^ (k - n) := by
      rw [Int.cast_zero]; exact (div_pos h hu).le
    have h1 : q / 10 ^ (k - n) < ((10 ^ 17 : ℤ) : ℚ) := by
      rw [div_lt_iff₀ hu]
      refine lt_of_lt_of_le hk ?_
      rw [show k = (n : ℤ) + (k - n) by ring, ten_add, show (n : ℤ) + (k - n) - n = k - n by ring]
      refine mul_le_mul_of_nonneg_right ?_ hu.le
      have := ten_le (show (n : ℤ) ≤ 17 by omega)
      refine this.trans ?_
      norm_num
    have hb := nearest_between h0 h1
    have f1 := Int.le_floor.2 h0
    have f2 := Int.floor_lt.2 h1
    match m with
    | 0 => simpa [shortest] using hb
    | m + 1 =>
      unfold shortest
      split
      next d hd =>
        simp only
        unfold pick at hd
        simp only [floor_eq] at hd
        split at hd
        · simp only [Option.some.injEq] at hd; omega
        · simp only [Option.some.injEq] at hd; omega
        · simp only [Option.some.injEq] at hd; omega
        · cases hd
      next => exact shortest_bound h hk m (n + 1) (by omega)

theorem dropZeros_val : ∀ (n d : ℕ) (p : ℤ),
    ((dropZeros n d p).1 : ℚ) * 10 ^ (dropZeros n d p).2 = d * 10 ^ p
  | 0, d, p => rfl
  | n + 1, d, p => by
    unfold dropZeros
    split
    next h =>
      rw [dropZeros_val n, ten_succ]
      have : (d : ℚ) = (d / 10 : ℕ) * 10 := by
        have : d = d / 10 * 10 := by omega
        exact_mod_cast this
      rw [this]; ring_nf
    next => rfl

theorem dropZeros_last : ∀ (n d : ℕ) (p : ℤ), 0 < d → d < 10 ^ n → (dropZeros n d p).1 % 10 ≠ 0
  | 0, d, p, h, hb => by simp at hb; omega
  | n + 1, d, p, h, hb => by
    unfold dropZeros
    split
    next hc => exact dropZeros_last n _ _ (by omega) (by omega)
    next hc => simp only; omega

/-- The digits and the exponent in the text of a float -/
def digitsOf (q : ℚ) : ℕ × ℤ :=
  dropZeros 20 (shortest q (decExp 400 q) 1 16).1.toNat (shortest q (decExp 400 q) 1 16).2

theorem showPos_eq (q : ℚ) : showPos q = layout (showNat (digitsOf q).1) ((showNat (digitsOf q).1).length + (digitsOf q).2) :=
  rfl

theorem digitsOf_spec {q : ℚ} (h : 0 < q) (hq : Digits53 q) (ht : q < top) :
    rnd ((digitsOf q).1 * 10 ^ (digitsOf q).2) = q ∧ (digitsOf q).1 % 10 ≠ 0 := by
  obtain ⟨h1, h2⟩ := decExp_digits h hq ht
  have hr := shortest_reads hq h1 16 1 rfl
  have hb := shortest_bound h h2 16 1 (by norm_num)
  unfold digitsOf
  generalize shortest q (decExp 400 q) 1 16 = s at *
  have hpos : 0 < s.1 := by
    by_contra hc
    have : s.1 = 0 := by omega
    rw [this] at hr
    simp [rnd_zero] at hr
    linarith
  constructor
  · rw [dropZeros_val]
    have : ((s.1.toNat : ℕ) : ℚ) = (s.1 : ℚ) := by
      have : ((s.1.toNat : ℕ) : ℤ) = s.1 := Int.toNat_of_nonneg hb.1
      exact_mod_cast this
    rw [this]; exact hr
  · refine dropZeros_last _ _ _ (by omega) ?_
    have : s.1.toNat ≤ 10 ^ 17 := by omega
    omega

end Dbl
end Pip
