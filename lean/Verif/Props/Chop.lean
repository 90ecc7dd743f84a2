import Verif.Lemmas.FloatCut
import Verif.Props.Cut
/-! C94: CH chops into a number of pieces; GR with sizes that are floats. -/

/-- Closes an equation that holds by computation, which only the kernel does. -/
elab "krfl" : tactic => do
  let g ← Lean.Elab.Tactic.getMainGoal
  match (← g.getType').eq? with
  | some (_, a, _) => g.assign (← Lean.Meta.mkEqRefl a)
  | none => throwError "not an equation"

namespace Pip
open Floats

variable (X : Ext) (L : Libm X.Rng) {a : Str} {q : ℚ}

/-- About `q` pieces of `n` items: `q` or the next two whole numbers above `q - 1`; every piece is about `n / q` long, only the
last one may be shorter. For a whole number `q` this means: `q` or `q + 1` pieces, each of them at most `n / q + 1` long and
all but the last at least `n / q - 1`. -/
structure Pieces {α : Type} (n : ℕ) (q : ℚ) (cs : List (List α)) : Prop where
  count : q - 1 < cs.length ∧ cs.length < q + 2
  upper : ∀ c ∈ cs, q * c.length < n + q + 1
  lower : ∀ c ∈ cs.dropLast, n < q * c.length + q + 1

theorem Tiles.mem {a b : Nat} {l : List (Nat × Nat)} (h : Tiles a b l) : ∀ p ∈ l, p.1 ≤ p.2 ∧ p.2 ≤ b := by
  induction h with
  | nil => simp
  | cons h h' ih =>
    intro p hp
    rcases List.mem_cons.1 hp with rfl | hp
    · exact ⟨h, h'.le⟩
    · exact ih p hp

theorem sub_length {α : Type} (s : List α) {p : Nat × Nat} (h : p.1 ≤ p.2 ∧ p.2 ≤ s.length) : (sub s p).length = p.2 - p.1 := by
  unfold sub
  rw [List.length_take, List.length_drop]; omega

theorem sub_all {α : Type} (s : List α) : sub s (0, s.length) = s := by simp [sub]

/-! The steps -/

theorem step_exists {n : ℕ} {j i : ℚ} (hn : n ≤ 2 ^ 25) (hj : Dbl.IsDouble j) (hi : Dbl.IsDouble i) (hb : |j| ≤ 2 ^ 200)
    (h1 : |i + j| ≤ n + |j|) : ∃ e, Dbl.IsDouble e ∧ FloatStep n j ((n + |j|) * 2 ^ (-53 : ℤ)) i e := by
  have hfine : ∃ z : ℤ, i + j = z * 2 ^ (-1074 : ℤ) := by
    obtain ⟨z, hz⟩ := Dbl.fine hi.1
    obtain ⟨w, hw⟩ := Dbl.fine hj.1
    exact ⟨z + w, by rw [hz, hw, Int.cast_add, add_mul]⟩
  have ho : ¬ Overflow (i + j) := by
    intro ho
    have hnq : (n : ℚ) ≤ 2 ^ 25 := by exact_mod_cast hn
    have h2 : (2 : ℚ) ^ 25 + 2 ^ 200 < 2 ^ 1024 - 2 ^ 970 := by decide +kernel
    have h3 : |i + j| ≤ 2 ^ 25 + 2 ^ 200 := le_trans h1 (add_le_add hnq hb)
    exact absurd (le_trans ho h3) (not_le.2 h2)
  obtain ⟨h3, h4⟩ := Dbl.round_fin ho
  refine ⟨Dbl.rnd (i + j), h4.1, h3, ?_⟩
  rw [abs_sub_comm]
  exact le_trans (Dbl.rnd_rel hfine) (mul_le_mul_of_nonneg_right h1 (Dbl.two_pos _).le)

/-- The relative errors are small. -/
theorem chop_bounds {n : ℕ} {q j : ℚ} (hq : 1 ≤ q) (hq' : q ≤ 2 ^ 25)
    (hj : |n / q - j| ≤ n / q * 2 ^ (-53 : ℤ)) :
    n * (1 - 1 / 2 ^ 27) ≤ q * (j - (n + j) * 2 ^ (-53 : ℤ)) ∧ q * (j + (n + j) * 2 ^ (-53 : ℤ)) ≤ n * (1 + 1 / 2 ^ 27) := by
  have hh : (2 : ℚ) ^ (-53 : ℤ) = 1 / 2 ^ 53 := by norm_num
  rw [hh] at hj ⊢
  have hq0 : 0 < q := by linarith
  have hn0 : (0 : ℚ) ≤ n := Nat.cast_nonneg n
  have hd : |n - q * j| ≤ n * (1 / 2 ^ 53) := by
    have : n - q * j = q * (n / q - j) := by field_simp
    rw [this, abs_mul, abs_of_pos hq0]
    calc q * |n / q - j| ≤ q * (n / q * (1 / 2 ^ 53)) := mul_le_mul_of_nonneg_left hj hq0.le
      _ = n * (1 / 2 ^ 53) := by field_simp
  obtain ⟨h1, h2⟩ := abs_le.1 hd
  have h3 : q * n ≤ 2 ^ 25 * n := mul_le_mul_of_nonneg_right hq' hn0
  constructor <;> nlinarith

theorem sub_lengths {α : Type} {s : List α} {ps : List (Nat × Nat)} (ht : ∀ p ∈ ps, p.1 ≤ p.2 ∧ p.2 ≤ s.length)
    {p : Nat × Nat} (hp : p ∈ ps) : ((sub s p).length : ℚ) = (p.2 : ℚ) - p.1 := by
  rw [sub_length s (ht p hp), Nat.cast_sub (ht p hp).1]

theorem pieces_of_spans {α : Type} {s : List α} {ps : List (Nat × Nat)} (ht : ∀ p ∈ ps, p.1 ≤ p.2 ∧ p.2 ≤ s.length)
    {q j : ℚ} (h0 : 0 < s.length) (hn : s.length ≤ 2 ^ 25) (hq : 1 ≤ q) (hq' : q ≤ 2 ^ 25)
    (hj : |s.length / q - j| ≤ s.length / q * 2 ^ (-53 : ℤ)) (hs : Spans s.length j ((s.length + j) * 2 ^ (-53 : ℤ)) ps) :
    Pieces s.length q (ps.map (sub s)) := by
  obtain ⟨b1, b2⟩ := chop_bounds hq hq' hj
  have hn0 : (0 : ℚ) < s.length := by exact_mod_cast h0
  have hnq : (s.length : ℚ) ≤ 2 ^ 25 := by exact_mod_cast hn
  have hq0 : 0 < q := by linarith
  generalize (s.length + j) * 2 ^ (-53 : ℤ) = η at hs b1 b2
  have hne : ps ≠ [] := by
    rintro rfl
    have := hs.many
    simp only [List.length_nil, Nat.cast_zero, zero_mul] at this
    linarith
  have hL : (0 : ℚ) ≤ ps.length := Nat.cast_nonneg _
  refine ⟨⟨?_, ?_⟩, ?_, ?_⟩
  · rw [List.length_map]
    by_contra hc
    have h1 := hs.many
    have h2 : s.length * q ≤ ps.length * (s.length * (1 + 1 / 2 ^ 27)) :=
      calc s.length * q = q * s.length := mul_comm _ _
        _ ≤ q * (ps.length * (j + η)) := mul_le_mul_of_nonneg_left h1 hq0.le
        _ = ps.length * (q * (j + η)) := by ring
        _ ≤ _ := mul_le_mul_of_nonneg_left b2 hL
    have h3 : q ≤ ps.length * (1 + 1 / 2 ^ 27) := by
      refine le_of_mul_le_mul_left ?_ hn0
      calc _ ≤ _ := h2
        _ = _ := by ring
    have h4 : (ps.length : ℚ) ≤ q - 1 := not_lt.1 hc
    have h5 : ps.length * (1 + 1 / 2 ^ 27 : ℚ) ≤ (q - 1) * (1 + 1 / 2 ^ 27) := mul_le_mul_of_nonneg_right h4 (by norm_num)
    linarith
  · rw [List.length_map]
    by_contra hc
    have h1 := hs.few hne
    have h4 : q + 2 ≤ (ps.length : ℚ) := not_lt.1 hc
    have hL' : (0 : ℚ) ≤ ps.length - 1 := by linarith
    have h2 : (ps.length - 1) * (s.length * (1 - 1 / 2 ^ 27)) < s.length * q :=
      calc (ps.length - 1) * (s.length * (1 - 1 / 2 ^ 27)) ≤ (ps.length - 1) * (q * (j - η)) :=
            mul_le_mul_of_nonneg_left b1 hL'
        _ = q * ((ps.length - 1) * (j - η)) := by ring
        _ < q * s.length := mul_lt_mul_of_pos_left h1 hq0
        _ = _ := mul_comm _ _
    have h3 : (ps.length - 1 : ℚ) * (1 - 1 / 2 ^ 27) < q := by
      refine lt_of_mul_lt_mul_left ?_ hn0.le
      calc _ = _ := by ring
        _ < _ := h2
    have h5 : (q + 1) * (1 - 1 / 2 ^ 27 : ℚ) ≤ (ps.length - 1 : ℚ) * (1 - 1 / 2 ^ 27) :=
      mul_le_mul_of_nonneg_right (by linarith) (by norm_num)
    linarith
  · intro c hc
    obtain ⟨p, hp, rfl⟩ := List.mem_map.1 hc
    rw [sub_lengths ht hp]
    have := hs.upper p hp
    have h2 := mul_lt_mul_of_pos_left this hq0
    linarith
  · intro c hc
    rw [← List.map_dropLast] at hc
    obtain ⟨p, hp, rfl⟩ := List.mem_map.1 hc
    rw [sub_lengths ht (List.dropLast_subset _ hp)]
    have := hs.lower p hp
    have h2 := mul_lt_mul_of_pos_left this hq0
    linarith

theorem is_dbl_nat {n : ℕ} (hn : n ≤ 2 ^ 53) : Dbl.IsDouble (n : ℚ) := by
  have := Dbl.isDouble_int (i := (n : ℤ)) (by rw [abs_of_nonneg (by positivity)]; exact_mod_cast hn)
  rwa [Int.cast_natCast] at this

theorem ndiv_is {n : ℕ} {c r : ℚ} {C : Num Dbl} (hn : n ≤ 2 ^ 53) (hC : C.Is c) (h0 : c ≠ 0) (hr : Dbl.round (n / c) = .fin r) :
    ndiv (X.withDbl L) (.int n) C = .ok (.flt (.fin r)) := by
  rcases hC with ⟨z, rfl, rfl⟩ | rfl
  · have hz : z ≠ 0 := by rintro rfl; exact h0 (by simp)
    unfold ndiv
    split
    · next h => cases h; exact absurd rfl hz
    · show (if z = 0 then _ else do return Num.flt (← Dbl.ofRat (((n : ℤ) : ℚ) / z))) = _
      rw [if_neg hz, Int.cast_natCast]
      unfold Dbl.ofRat
      rw [hr]; rfl
  · have hd : Num.dbl (.int (n : ℤ)) = .ok (.fin (n : ℚ)) := by
      have h1 := is_dbl_nat hn
      have h2 := (Num.is_int (n : ℤ)).dbl (by rwa [Int.cast_natCast])
      rwa [Int.cast_natCast] at h2
    have := viaDbl_ok (f := Dbl.div) hd (rfl : Num.dbl (.flt (.fin c)) = .ok (.fin c))
    rw [Dbl.div_fin h0, hr] at this
    exact this

theorem rounds_eq : floatRounds = (2 ^ 64 - 1) + 1 := by decide +kernel

theorem jump_round {n : ℕ} (h0 : 0 < n) (hn : n ≤ 2 ^ 25) (hq : 1 ≤ q) (hq' : q ≤ 2 ^ 25) : ∃ j,
    Dbl.round (n / q) = .fin j ∧ Dbl.round (n / -q) = .fin (-j) ∧ Dbl.IsDouble j ∧ 0 < j ∧ j ≤ 2 ^ 25 ∧
    |n / q - j| ≤ n / q * 2 ^ (-53 : ℤ) := by
  have hq0 : 0 < q := by linarith
  have hnq : (n : ℚ) ≤ 2 ^ 25 := by exact_mod_cast hn
  have h1n : (1 : ℚ) ≤ n := by exact_mod_cast h0
  have hx0 : 0 < n / q := div_pos (by linarith) hq0
  have hx1 : n / q ≤ n := div_le_self (by linarith) hq
  have hx2 : (2 : ℚ) ^ (-1022 : ℤ) ≤ n / q := by
    have h1 : (2 : ℚ) ^ (-1022 : ℤ) ≤ 2 ^ (-25 : ℤ) := Dbl.two_le (by norm_num)
    have h2 : (2 : ℚ) ^ (-25 : ℤ) ≤ n / q := by
      rw [le_div_iff₀ hq0]
      calc (2 : ℚ) ^ (-25 : ℤ) * q ≤ 2 ^ (-25 : ℤ) * 2 ^ 25 := mul_le_mul_of_nonneg_left hq' (Dbl.two_pos _).le
        _ = 1 := by norm_num
        _ ≤ n := h1n
    exact le_trans h1 h2
  have ho : ¬ Overflow (n / q) := Dbl.not_overflow_of_le (is_dbl_nat (le_trans hn (by norm_num))) (by
    rw [abs_of_pos hx0, abs_of_nonneg (by linarith)]; exact hx1)
  have ho' : ¬ Overflow (n / -q) := by
    rw [div_neg]
    unfold Overflow at ho ⊢
    rwa [abs_neg]
  have hrel := Dbl.rnd_rel_normal (by rw [abs_of_pos hx0]; exact hx2)
  rw [abs_of_pos hx0] at hrel
  have hsmall : (n : ℚ) / q * 2 ^ (-53 : ℤ) < n / q := by
    calc (n : ℚ) / q * 2 ^ (-53 : ℤ) < n / q * 1 := mul_lt_mul_of_pos_left (by norm_num) hx0
      _ = _ := mul_one _
  refine ⟨Dbl.rnd (n / q), (Dbl.round_fin ho).1, ?_, (Dbl.round_fin ho).2.1, ?_, ?_, hrel⟩
  · rw [(Dbl.round_fin ho').1, div_neg, Dbl.rnd_neg]
  · have := (abs_le.1 hrel).2
    linarith
  · refine Dbl.rnd_le ?_ (le_trans hx1 hnq)
    exact ⟨2 ^ 25, 0, by norm_num, by norm_num, by norm_num⟩

/-- CHOP of anything with slices -/
theorem chop_up {v : Val} {n : ℕ} {g : Nat × Nat → Val} (hg : Slices v n g) (hv : v.isIterable = true) (hl : v.len = .ok n)
    (ha : Stands X L a q) (h0 : 0 < n) (hn : n ≤ 2 ^ 25) (hq : 1 ≤ q) (hq' : q ≤ 2 ^ 25) :
    ∃ ps j, opCHOP (X.withDbl L) v (some (.scalar a)) = .ok (.list (ps.map g)) ∧ Tiles 0 n ps ∧
      |n / q - j| ≤ n / q * 2 ^ (-53 : ℤ) ∧ Spans n j ((n + j) * 2 ^ (-53 : ℤ)) ps := by
  obtain ⟨j, hj1, -, hj2, hj3, hj4, hj5⟩ := jump_round h0 hn hq hq'
  have hq0 : 0 < q := by linarith
  have ha' : (toNum (X.withDbl L) a).Is q := ha
  obtain ⟨b1, -⟩ := chop_bounds hq hq' hj5
  have hn0 : (0 : ℚ) < n := by exact_mod_cast h0
  have hη : (n + j) * 2 ^ (-53 : ℤ) < j := by
    have : 0 < q * (j - (n + j) * 2 ^ (-53 : ℤ)) := lt_of_lt_of_le (mul_pos hn0 (by norm_num)) b1
    have := pos_of_mul_pos_right this hq0.le
    linarith
  have hfuel : (n : ℚ) - 0 ≤ ((2 ^ 64 - 1 : ℕ) : ℚ) * (j - (n + j) * 2 ^ (-53 : ℤ)) := by
    generalize (n + j) * 2 ^ (-53 : ℤ) = η at *
    have h1 : (n : ℚ) ≤ 2 * q * (j - η) := by linarith
    have h2 : (2 * q : ℚ) ≤ ((2 ^ 64 - 1 : ℕ) : ℚ) := by
      have : ((2 ^ 64 - 1 : ℕ) : ℚ) = 2 ^ 64 - 1 := by norm_num
      rw [this]; linarith
    have h3 := mul_le_mul_of_nonneg_right h2 (show 0 ≤ j - η by linarith)
    linarith
  obtain ⟨ps, h1, h2, h3, -⟩ := cutUp_tiles X L hg hη (P := Dbl.IsDouble) (fun _ h => h) (by
      intro i hi hi0 hin
      have := step_exists hn hj2 hi (by rw [abs_of_pos hj3]; exact le_trans hj4 (by norm_num)) (by
        rw [abs_of_pos hj3, abs_of_nonneg (by linarith)]; linarith)
      rwa [abs_of_pos hj3] at this)
    (2 ^ 64 - 1) 0 (.int 0) (.inl ⟨0, rfl, by simp⟩) (le_refl _)
    (by have := Dbl.isDouble_int (i := 0) (by norm_num); rwa [Int.cast_zero] at this) hfuel
  refine ⟨ps, j, ?_, ?_, hj5, ?_⟩
  · have hc : opCHOP (X.withDbl L) v (some (.scalar a)) = chop1 (X.withDbl L) v (.scalar a) := rfl
    rw [hc]
    unfold chop1
    dsimp only
    have hlt : nlt (X.withDbl L) (.int 0) (toNum (X.withDbl L) a) = true := by
      rw [(Num.is_int 0).lt X L ha']; simpa using hq0
    rw [hv, if_pos rfl, hlt, if_pos rfl, hl]
    simp only [bind, Except.bind]
    rw [ndiv_is X L (le_trans hn (by norm_num)) ha' hq0.ne' hj1]
    simp only
    rw [rounds_eq, h1]
    rfl
  · rwa [min_eq_left hn0.le, Int.floor_zero] at h2
  · rwa [sub_zero] at h3

theorem chop_down {v : Val} {n : ℕ} {g : Nat × Nat → Val} (hg : Slices v n g) (hv : v.isIterable = true) (hl : v.len = .ok n)
    (ha : Stands X L a (-q)) (h0 : 0 < n) (hn : n ≤ 2 ^ 25) (hq : 1 ≤ q) (hq' : q ≤ 2 ^ 25) :
    ∃ ps j, opCHOP (X.withDbl L) v (some (.scalar a)) = .ok (.list (ps.map g)) ∧ Tiles 0 n ps.reverse ∧
      |n / q - j| ≤ n / q * 2 ^ (-53 : ℤ) ∧ Spans n j ((n + j) * 2 ^ (-53 : ℤ)) ps := by
  obtain ⟨j, -, hj1, hj2, hj3, hj4, hj5⟩ := jump_round h0 hn hq hq'
  have hq0 : 0 < q := by linarith
  have ha' : (toNum (X.withDbl L) a).Is (-q) := ha
  obtain ⟨b1, -⟩ := chop_bounds hq hq' hj5
  have hn0 : (0 : ℚ) < n := by exact_mod_cast h0
  have hη : (n + j) * 2 ^ (-53 : ℤ) < j := by
    have : 0 < q * (j - (n + j) * 2 ^ (-53 : ℤ)) := lt_of_lt_of_le (mul_pos hn0 (by norm_num)) b1
    have := pos_of_mul_pos_right this hq0.le
    linarith
  have hfuel : (n : ℚ) ≤ ((2 ^ 64 - 1 : ℕ) : ℚ) * (j - (n + j) * 2 ^ (-53 : ℤ)) := by
    generalize (n + j) * 2 ^ (-53 : ℤ) = η at *
    have h1 : (n : ℚ) ≤ 2 * q * (j - η) := by linarith
    have h2 : (2 * q : ℚ) ≤ ((2 ^ 64 - 1 : ℕ) : ℚ) := by
      have : ((2 ^ 64 - 1 : ℕ) : ℚ) = 2 ^ 64 - 1 := by norm_num
      rw [this]; linarith
    have h3 := mul_le_mul_of_nonneg_right h2 (show 0 ≤ j - η by linarith)
    linarith
  have hjneg : Dbl.IsDouble (-j) := ⟨hj2.1.neg, by rw [abs_neg]; exact hj2.2⟩
  obtain ⟨ps, h1, h2, h3, -⟩ := cutDown_tiles X L hg hη (P := Dbl.IsDouble) (fun _ h => h) (by
      intro i hi hi0 hin
      have := step_exists hn hjneg hi (by rw [abs_neg, abs_of_pos hj3]; exact le_trans hj4 (by norm_num)) (by
        rw [abs_neg, abs_of_pos hj3, abs_le]; constructor <;> linarith)
      rwa [abs_neg, abs_of_pos hj3] at this)
    (2 ^ 64 - 1) n (.int n) (.inl ⟨n, rfl, by simp⟩) (le_refl _)
    (is_dbl_nat (le_trans hn (by norm_num))) hfuel
  refine ⟨ps, j, ?_, ?_, hj5, h3⟩
  · have hc : opCHOP (X.withDbl L) v (some (.scalar a)) = chop1 (X.withDbl L) v (.scalar a) := rfl
    rw [hc]
    unfold chop1
    dsimp only
    have hlt : nlt (X.withDbl L) (.int 0) (toNum (X.withDbl L) a) = false := by
      rw [(Num.is_int 0).lt X L ha']; simp; linarith
    have hlt' : nlt (X.withDbl L) (toNum (X.withDbl L) a) (.int 0) = true := by
      rw [ha'.lt X L (Num.is_int 0)]; simp; linarith
    rw [hv, if_pos rfl, hlt, if_neg (by simp), hlt', if_pos rfl, hl]
    simp only [bind, Except.bind]
    rw [ndiv_is X L (le_trans hn (by norm_num)) ha' (by linarith) hj1]
    simp only
    rw [rounds_eq, h1]
    rfl
  · rw [max_eq_left hn0.le, Int.ceil_natCast, Int.toNat_natCast] at h2
    exact h2.tiles

theorem chop_equal {v : Val} {n : ℕ} {g : Nat × Nat → Val} (hg : Slices v n g) (hv : v.isIterable = true) (hl : v.len = .ok n)
    {k d : ℕ} (hn : n = k * d) (hk : 0 < k) (hd : 0 < d) (hb : k * d ≤ 2 ^ 53) :
    ∃ ps, opCHOP (X.withDbl L) v (some (ofInt k)) = .ok (.list (ps.map g)) ∧ Tiles 0 n ps ∧ ps.length = k ∧
      ∀ p ∈ ps, p.2 - p.1 ≤ d := by
  have hkq : (0 : ℚ) < k := by exact_mod_cast hk
  have hdq : (0 : ℚ) < d := by exact_mod_cast hd
  have hnq : (n : ℚ) = k * d := by exact_mod_cast hn
  have hdb : Dbl.IsDouble (d : ℚ) := is_dbl_nat (le_trans (Nat.le_mul_of_pos_left d hk) hb)
  have hdiv : Dbl.round (n / k) = .fin d := by
    rw [hnq, mul_div_cancel_left₀ _ hkq.ne', Dbl.round_self hdb]
  have hP : ∀ i : ℚ, (∃ m : ℕ, m ≤ k ∧ i = m * d) → Dbl.IsDouble i := by
    rintro i ⟨m, hm, rfl⟩
    have := is_dbl_nat (n := m * d) (le_trans (Nat.mul_le_mul_right d hm) hb)
    rwa [Nat.cast_mul] at this
  obtain ⟨ps, h1, h2, h3, -⟩ := cutUp_tiles X L hg (η := 0) hdq (P := fun i => ∃ m : ℕ, m ≤ k ∧ i = m * d) hP (by
      rintro i ⟨m, hm, rfl⟩ _ hin
      have hlt : m < k := by
        rw [hnq] at hin
        exact_mod_cast lt_of_mul_lt_mul_right hin hdq.le
      have he : (m : ℚ) * d + d = ((m + 1 : ℕ) : ℚ) * d := by push_cast; ring
      refine ⟨((m + 1 : ℕ) : ℚ) * d, ⟨m + 1, hlt, rfl⟩, ?_, ?_⟩
      · rw [he, Dbl.round_self (hP _ ⟨m + 1, hlt, rfl⟩)]
      · rw [he, sub_self, abs_zero])
    (2 ^ 64 - 1) 0 (.int 0) (.inl ⟨0, rfl, by simp⟩) (le_refl _) ⟨0, Nat.zero_le _, by simp⟩ (by
      rw [sub_zero, sub_zero]
      have h1 : (n : ℚ) ≤ 2 ^ 53 := by rw [hn]; exact_mod_cast hb
      have h2 : ((2 ^ 64 - 1 : ℕ) : ℚ) = 2 ^ 64 - 1 := by norm_num
      have h3 : (1 : ℚ) ≤ d := by exact_mod_cast hd
      rw [h2]
      calc (n : ℚ) ≤ (2 ^ 64 - 1) * 1 := by linarith
        _ ≤ _ := mul_le_mul_of_nonneg_left h3 (by norm_num))
  refine ⟨ps, ?_, ?_, ?_, ?_⟩
  · have hc : opCHOP (X.withDbl L) v (some (ofInt k)) = chop1 (X.withDbl L) v (.scalar (showInt k)) := rfl
    rw [hc]
    unfold chop1
    dsimp only
    have hlt : nlt (X.withDbl L) (.int 0) (.int k) = true := by
      rw [(Num.is_int 0).lt X L (Num.is_int k)]; simpa using hk
    rw [hv, if_pos rfl, toNum_showInt, hlt, if_pos rfl, hl]
    simp only [bind, Except.bind]
    rw [ndiv_is X L (by rw [hn]; exact hb) (.inl ⟨(k : ℤ), rfl, by simp⟩ : (Num.int (k : ℤ) : Num Dbl).Is k) hkq.ne' hdiv]
    simp only
    rw [rounds_eq, h1]
    rfl
  · rwa [min_eq_left (Nat.cast_nonneg n), Int.floor_zero] at h2
  · have a1 := h3.many
    have hne : ps ≠ [] := by
      rintro rfl
      simp only [List.length_nil, Nat.cast_zero, zero_mul, sub_zero] at a1
      rw [hnq] at a1
      have := mul_pos hkq hdq
      linarith
    have a2 := h3.few hne
    rw [sub_zero, hnq] at a1 a2
    rw [add_zero] at a1
    rw [sub_zero] at a2
    have b1 : k ≤ ps.length := by exact_mod_cast le_of_mul_le_mul_right a1 hdq
    have b2 : (ps.length : ℚ) - 1 < k := lt_of_mul_lt_mul_right a2 hdq.le
    have b3 : (ps.length : ℚ) < k + 1 := by linarith
    have b4 : ps.length < k + 1 := by exact_mod_cast b3
    omega
  · intro p hp
    have := h3.upper p hp
    have h4 := h2.mem p hp
    have : (p.2 : ℚ) < p.1 + d + 1 := by linarith
    have : p.2 < p.1 + d + 1 := by exact_mod_cast this
    omega

theorem Tiles.sum {a b : Nat} {l : List (Nat × Nat)} (h : Tiles a b l) : (l.map fun p => p.2 - p.1).sum = b - a := by
  induction h with
  | nil => simp
  | cons h h' ih =>
    have := h'.le
    rw [List.map_cons, List.sum_cons, ih]; simp only; omega

theorem all_full {d : ℕ} : ∀ {l : List ℕ}, (∀ x ∈ l, x ≤ d) → l.sum = l.length * d → ∀ x ∈ l, x = d
  | [], _, _ => by simp
  | x :: l, h, hs => by
    have hl : l.sum ≤ l.length * d := by
      have := List.sum_le_card_nsmul l d (fun y hy => h y (List.mem_cons_of_mem _ hy))
      simpa using this
    have hx := h x List.mem_cons_self
    rw [List.sum_cons, List.length_cons, Nat.add_mul, Nat.one_mul] at hs
    intro y hy
    rcases List.mem_cons.1 hy with rfl | hy
    · omega
    · exact all_full (fun y hy => h y (List.mem_cons_of_mem _ hy)) (by omega) y hy

theorem equal_pieces {α : Type} (s : List α) {ps : List (Nat × Nat)} {k d : ℕ} (h : Tiles 0 s.length ps) (hs : s.length = k * d)
    (hk : ps.length = k) (hd : ∀ p ∈ ps, p.2 - p.1 ≤ d) : ∀ c ∈ ps.map (sub s), c.length = d := by
  have hsum := h.sum
  intro c hc
  obtain ⟨p, hp, rfl⟩ := List.mem_map.1 hc
  rw [sub_length s (h.mem p hp)]
  refine all_full (l := ps.map fun p => p.2 - p.1) ?_ ?_ _ (List.mem_map_of_mem hp)
  · intro x hx
    obtain ⟨p, hp, rfl⟩ := List.mem_map.1 hx
    exact hd p hp
  · rw [hsum, List.length_map, hk, hs]; rfl

theorem group_up {v : Val} {n : ℕ} {g : Nat × Nat → Val} (hg : Slices v n g) (hv : v.isIterable = true) (hl : v.len = .ok n)
    {j : ℚ} (ha : toNum (X.withDbl L) a = .flt (.fin j)) (hd : IsFloat j) (hn : n ≤ 2 ^ 25) (hj : 1 / 2 ^ 25 ≤ j)
    (hj' : j ≤ 2 ^ 200) :
    ∃ ps, opGROUP (X.withDbl L) v (some (.scalar a)) = .ok (.list (ps.map g)) ∧ Tiles 0 n ps ∧
      Spans n j ((n + j) / 2 ^ 53) ps := by
  have hj0 : 0 < j := lt_of_lt_of_le (by norm_num) hj
  have hnq : (n : ℚ) ≤ 2 ^ 25 := by exact_mod_cast hn
  have hn0 : (0 : ℚ) ≤ n := Nat.cast_nonneg n
  have hh : (n + j) / 2 ^ 53 = (n + j) * 2 ^ (-53 : ℤ) := by
    rw [div_eq_mul_inv]; norm_num
  have hη : (n + j) / 2 ^ 53 ≤ j / 2 := by
    rw [div_le_iff₀ (by norm_num)]
    nlinarith
  obtain ⟨ps, h1, h2, h3, -⟩ := cutUp_tiles X L hg (j := j) (η := (n + j) / 2 ^ 53) (by linarith) (P := Dbl.IsDouble) (fun _ h => h) (by
      intro i hi hi0 hin
      have := step_exists hn hd hi (by rw [abs_of_pos hj0]; exact hj') (by
        rw [abs_of_pos hj0, abs_of_nonneg (by linarith)]; linarith)
      rwa [abs_of_pos hj0, ← hh] at this)
    (2 ^ 64 - 1) 0 (.int 0) (.inl ⟨0, rfl, by simp⟩) (le_refl _)
    (by have := Dbl.isDouble_int (i := 0) (by norm_num); rwa [Int.cast_zero] at this) (by
      generalize (n + j) / 2 ^ 53 = η at *
      have h2 : ((2 ^ 64 - 1 : ℕ) : ℚ) = 2 ^ 64 - 1 := by norm_num
      have h3 : (1 : ℚ) / 2 ^ 26 ≤ j - η := by
        have : (1 : ℚ) / 2 ^ 26 = 1 / 2 ^ 25 / 2 := by norm_num
        linarith
      rw [h2, sub_zero]
      calc (n : ℚ) ≤ 2 ^ 25 := hnq
        _ ≤ (2 ^ 64 - 1) * (1 / 2 ^ 26) := by norm_num
        _ ≤ _ := mul_le_mul_of_nonneg_left h3 (by norm_num))
  refine ⟨ps, ?_, ?_, ?_⟩
  · have hc : opGROUP (X.withDbl L) v (some (.scalar a)) = group1 (X.withDbl L) v (.scalar a) := rfl
    rw [hc]
    unfold group1
    dsimp only
    have hlt : nlt (X.withDbl L) (.int 0) (.flt (.fin j)) = true := by
      rw [(Num.is_int 0).lt X L (Num.is_flt j)]; simpa using hj0
    rw [hv, if_pos rfl, ha]
    dsimp only
    rw [hlt, if_pos rfl, hl]
    simp only [bind, Except.bind]
    rw [rounds_eq, h1]
    rfl
  · rwa [min_eq_left hn0, Int.floor_zero] at h2
  · rwa [sub_zero] at h3

/-- **C94.** CH with a positive number of pieces: nothing is lost or reordered; about that number of pieces of about the same
length. -/
theorem C94_chop (s : Str) (l : List Val) (ha : Stands X L a q) (hq : 1 ≤ q) (hq' : q ≤ 2 ^ 25) :
    (0 < s.length → s.length ≤ 2 ^ 25 → ∃ cs : List Str, opCHOP (X.withDbl L) (.scalar s) (some (.scalar a)) = .ok (.list (cs.map .scalar)) ∧
      cs.flatten = s ∧ Pieces s.length q cs) ∧
    (0 < l.length → l.length ≤ 2 ^ 25 → ∃ cs : List (List Val), opCHOP (X.withDbl L) (.list l) (some (.scalar a)) = .ok (.list (cs.map .list)) ∧
      cs.flatten = l ∧ Pieces l.length q cs) := by
  constructor
  · intro h0 hn
    obtain ⟨ps, j, h1, h2, h3, h4⟩ := chop_up X L (slices_scalar s) rfl rfl ha h0 hn hq hq'
    refine ⟨ps.map (sub s), by rw [h1, List.map_map]; rfl, (h2.flatten s).trans (sub_all s), ?_⟩
    exact pieces_of_spans h2.mem h0 hn hq hq' h3 h4
  · intro h0 hn
    obtain ⟨ps, j, h1, h2, h3, h4⟩ := chop_up X L (slices_list l) rfl rfl ha h0 hn hq hq'
    refine ⟨ps.map (sub l), by rw [h1, List.map_map]; rfl, (h2.flatten l).trans (sub_all l), ?_⟩
    exact pieces_of_spans h2.mem h0 hn hq hq' h3 h4

/-- **C94.** With a negative number, the pieces are taken from the right, the last one first. -/
theorem C94_chop_right (s : Str) (l : List Val) (ha : Stands X L a (-q)) (hq : 1 ≤ q) (hq' : q ≤ 2 ^ 25) :
    (0 < s.length → s.length ≤ 2 ^ 25 → ∃ cs : List Str, opCHOP (X.withDbl L) (.scalar s) (some (.scalar a)) = .ok (.list (cs.map .scalar)) ∧
      cs.reverse.flatten = s ∧ Pieces s.length q cs) ∧
    (0 < l.length → l.length ≤ 2 ^ 25 → ∃ cs : List (List Val), opCHOP (X.withDbl L) (.list l) (some (.scalar a)) = .ok (.list (cs.map .list)) ∧
      cs.reverse.flatten = l ∧ Pieces l.length q cs) := by
  constructor
  · intro h0 hn
    obtain ⟨ps, j, h1, h2, h3, h4⟩ := chop_down X L (slices_scalar s) rfl rfl ha h0 hn hq hq'
    refine ⟨ps.map (sub s), by rw [h1, List.map_map]; rfl, ?_, ?_⟩
    · rw [← List.map_reverse]; exact (h2.flatten s).trans (sub_all s)
    · exact pieces_of_spans (fun p hp => h2.mem p (List.mem_reverse.2 hp)) h0 hn hq hq' h3 h4
  · intro h0 hn
    obtain ⟨ps, j, h1, h2, h3, h4⟩ := chop_down X L (slices_list l) rfl rfl ha h0 hn hq hq'
    refine ⟨ps.map (sub l), by rw [h1, List.map_map]; rfl, ?_, ?_⟩
    · rw [← List.map_reverse]; exact (h2.flatten l).trans (sub_all l)
    · exact pieces_of_spans (fun p hp => h2.mem p (List.mem_reverse.2 hp)) h0 hn hq hq' h3 h4

/-- **C94.** If the number of pieces divides the length, there are exactly that many pieces of exactly the same length. -/
theorem C94_equal (s : Str) (l : List Val) (k d : ℕ) (hk : 0 < k) (hd : 0 < d) (hb : k * d ≤ 2 ^ 53) :
    (s.length = k * d → ∃ cs : List Str, opCHOP (X.withDbl L) (.scalar s) (some (ofInt k)) = .ok (.list (cs.map .scalar)) ∧
      cs.flatten = s ∧ cs.length = k ∧ ∀ c ∈ cs, c.length = d) ∧
    (l.length = k * d → ∃ cs : List (List Val), opCHOP (X.withDbl L) (.list l) (some (ofInt k)) = .ok (.list (cs.map .list)) ∧
      cs.flatten = l ∧ cs.length = k ∧ ∀ c ∈ cs, c.length = d) := by
  constructor
  · intro h0
    obtain ⟨ps, h1, h2, h3, h4⟩ := chop_equal X L (slices_scalar s) rfl rfl h0 hk hd hb
    refine ⟨ps.map (sub s), by rw [h1, List.map_map]; rfl, (h2.flatten s).trans (sub_all s), by rw [List.length_map, h3], ?_⟩
    exact equal_pieces s h2 h0 h3 h4
  · intro h0
    obtain ⟨ps, h1, h2, h3, h4⟩ := chop_equal X L (slices_list l) rfl rfl h0 hk hd hb
    refine ⟨ps.map (sub l), by rw [h1, List.map_map]; rfl, (h2.flatten l).trans (sub_all l), by rw [List.length_map, h3], ?_⟩
    exact equal_pieces l h2 h0 h3 h4

/-- **C94.** GR with a float as the size: nothing is lost or reordered, the pieces are about that long, only the last one may be
shorter. -/
theorem C94_group (s : Str) (l : List Val) {j : ℚ} (ha : toNum (X.withDbl L) a = .flt (.fin j)) (hd : IsFloat j)
    (hj : 1 / 2 ^ 25 ≤ j) (hj' : j ≤ 2 ^ 200) :
    (s.length ≤ 2 ^ 25 → ∃ cs : List Str, opGROUP (X.withDbl L) (.scalar s) (some (.scalar a)) = .ok (.list (cs.map .scalar)) ∧
      cs.flatten = s ∧ (∀ c ∈ cs, (c.length : ℚ) < j + (s.length + j) / 2 ^ 53 + 1) ∧
      ∀ c ∈ cs.dropLast, j - (s.length + j) / 2 ^ 53 - 1 < (c.length : ℚ)) ∧
    (l.length ≤ 2 ^ 25 → ∃ cs : List (List Val), opGROUP (X.withDbl L) (.list l) (some (.scalar a)) = .ok (.list (cs.map .list)) ∧
      cs.flatten = l ∧ (∀ c ∈ cs, (c.length : ℚ) < j + (l.length + j) / 2 ^ 53 + 1) ∧
      ∀ c ∈ cs.dropLast, j - (l.length + j) / 2 ^ 53 - 1 < (c.length : ℚ)) := by
  constructor
  · intro hn
    obtain ⟨ps, h1, h2, h3⟩ := group_up X L (slices_scalar s) rfl rfl ha hd hn hj hj'
    refine ⟨ps.map (sub s), by rw [h1, List.map_map]; rfl, (h2.flatten s).trans (sub_all s), ?_, ?_⟩
    · intro c hc
      obtain ⟨p, hp, rfl⟩ := List.mem_map.1 hc
      rw [sub_lengths h2.mem hp]; exact h3.upper p hp
    · intro c hc
      rw [← List.map_dropLast] at hc
      obtain ⟨p, hp, rfl⟩ := List.mem_map.1 hc
      rw [sub_lengths h2.mem (List.dropLast_subset _ hp)]; exact h3.lower p hp
  · intro hn
    obtain ⟨ps, h1, h2, h3⟩ := group_up X L (slices_list l) rfl rfl ha hd hn hj hj'
    refine ⟨ps.map (sub l), by rw [h1, List.map_map]; rfl, (h2.flatten l).trans (sub_all l), ?_, ?_⟩
    · intro c hc
      obtain ⟨p, hp, rfl⟩ := List.mem_map.1 hc
      rw [sub_lengths h2.mem hp]; exact h3.upper p hp
    · intro c hc
      rw [← List.map_dropLast] at hc
      obtain ⟨p, hp, rfl⟩ := List.mem_map.1 hc
      rw [sub_lengths h2.mem (List.dropLast_subset _ hp)]; exact h3.lower p hp

/-- 3 pieces of "abcdefghij" -/
example : opCHOP (X.withDbl L) (.scalar (s% "abcdefghij")) (some (ofInt 3)) = .ok (strs [s% "abc", s% "def", s% "ghij"]) := by
  krfl

example : Stands X L (showInt 3) 3 ∧ (1 : ℚ) ≤ 3 ∧ (3 : ℚ) ≤ 2 ^ 25 :=
  ⟨.inl ⟨3, toNum_showInt _ 3, by norm_num⟩, by norm_num, by norm_num⟩

example : opCHOP (X.withDbl L) (.scalar (s% "abcdefghij")) (some (ofInt (-3))) = .ok (strs [s% "hij", s% "efg", s% "abcd"]) := by
  krfl

example : opGROUP (X.withDbl L) (.scalar (s% "abcdefghij")) (some (.scalar (s% "2.5"))) =
    .ok (strs [s% "ab", s% "cde", s% "fg", s% "hij"]) := by
  krfl

example : toNum (X.withDbl L) (s% "7.5") = .flt (.fin (15 / 2)) ∧ IsFloat (15 / 2) ∧ (1 : ℚ) / 2 ^ 25 ≤ 15 / 2 ∧ (15 / 2 : ℚ) ≤ 2 ^ 200 :=
  ⟨toNum_75 X L, isFloat_75, by norm_num, by norm_num⟩

/-- Asking for 10 pieces can give 11: the sums of the float 0.1 stay below 1. -/
theorem C94_eleven : opCHOP (X.withDbl L) (.scalar (s% "a")) (some (ofInt 10)) =
    .ok (strs [[], [], [], [], [], [], [], [], [], [], s% "a"]) := by
  krfl

end Pip
