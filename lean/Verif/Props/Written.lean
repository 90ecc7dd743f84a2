import Verif.Lemmas.Written
import Verif.Props.Analysis
/-! C113: how floats are written. -/

namespace Pip
open Floats Written

variable (X : Ext) (L : Libm X.Rng)

/-- **C113.** A float that is no integer, or an integer from `10 ^ 16` on, is written in the usual form. The number written is
one that reads as the float again, no decimal number that does so has fewer digits, and none with as few digits is nearer to
the float. -/
theorem C113_text (r : ℚ) (h : IsFloat r) (hi : (¬ ∃ i : ℤ, r = i) ∨ 10 ^ 16 ≤ |r|) :
    ∃ d : Decimal, d.Usual ∧ numStr (X.withDbl L) (.flt (.fin r)) = d.text ∧ Rounded d.value r ∧
      (∀ (n : ℕ) (e : Decimal), e.Ok → Rounded e.value r → ¬ Overflow e.value → HasDigits n e.value → HasDigits n d.value) ∧
      ∀ e : Decimal, e.Ok → Rounded e.value r → ¬ Overflow e.value → (∀ n, HasDigits n d.value → HasDigits n e.value) →
        |d.value - r| ≤ |e.value - r| := by
  have hng : ∀ {n : ℕ} {v : ℚ}, HasDigits n v → HasDigits n (-v) := by
    rintro n v ⟨x, p, h1, h2⟩
    exact ⟨x, p, h1, by rw [abs_neg]; exact h2⟩
  have hrd : ∀ {x s : ℚ}, Rounded x s → ¬ Overflow x → Dbl.rnd x = s := by
    intro x s hx ho
    exact rounded_unique (Dbl.round_fin ho).2 hx
  have hro : ∀ {x s : ℚ}, IsFloat s → Dbl.rnd x = s → Rounded x s := by
    intro x s hs hx
    have := Dbl.round_eq hs hx
    by_cases ho : Overflow x
    · rw [Dbl.round_inf ho] at this; cases this
    · have h2 := (Dbl.round_fin ho).2
      rwa [hx] at h2
  rcases lt_trichotomy r 0 with h0 | h0 | h0
  · have hn : IsFloat (-r) := Dbl.IsDouble.neg h
    obtain ⟨d, a1, a2, a3, a4, a5, a6⟩ := text_pos (r := -r) (by linarith) hn (by
      rcases hi with hi | hi
      · left
        rintro ⟨i, hi'⟩
        exact hi ⟨-i, by push_cast; linarith⟩
      · right
        rwa [abs_of_neg h0] at hi)
    refine ⟨invert d, invert_usual a1, ?_, ?_, ?_, ?_⟩
    · refine numStr_of X L ?_ (usual_end (invert_usual a1))
      rw [invert_text a2, ← a3, ← str_neg (by linarith), neg_neg]
    · refine hro h ?_
      rw [invert_value, Dbl.rnd_neg, a4, neg_neg]
    · intro n e _ he ho hd
      rw [invert_value]
      exact hng (a5 n (-e.value) (by rw [Dbl.rnd_neg, hrd he ho]) (hng hd))
    · intro e _ he ho hd
      rw [invert_value] at hd ⊢
      have := a6 (-e.value) (by rw [Dbl.rnd_neg, hrd he ho]) fun n hn => hng (hd n (hng hn))
      rw [← abs_neg, ← abs_neg (e.value - r)]
      convert this using 2 <;> ring
  · subst h0
    rcases hi with hi | hi
    · exact absurd ⟨0, by simp⟩ hi
    · norm_num at hi
  · obtain ⟨d, a1, a2, a3, a4, a5, a6⟩ := text_pos h0 h (by rwa [abs_of_pos h0] at hi)
    refine ⟨d, a1, numStr_of X L ?_ (usual_end a1), hro h a4, ?_, ?_⟩
    · rw [str_pos h0, a3]
    · intro n e _ he ho hd
      exact a5 n _ (hrd he ho) hd
    · intro e _ he ho hd
      exact a6 _ (hrd he ho) hd

/-- The sum of 0.1 and 0.2 is no integer; its text has 17 digits. -/
example : ¬ ∃ i : ℤ, (5404319552844596 / 2 ^ 54 : ℚ) = i := by
  rintro ⟨i, hi⟩
  have h : (5404319552844596 : ℚ) = ((i * 2 ^ 54 : ℤ) : ℚ) := by
    push_cast
    rw [← hi]
    norm_num
  have h2 : (5404319552844596 : ℤ) = i * 2 ^ 54 := by exact_mod_cast h
  omega

/-- The usual form of some numbers: with a point, and with an exponent -/
example : numStr (X.withDbl L) (.flt (Dbl.round (1 / 10 ^ 4))) = s% "0.0001" ∧ numStr (X.withDbl L) (.flt (Dbl.round (1 / 10 ^ 5))) = s% "1e-05" ∧
    numStr (X.withDbl L) (.flt (Dbl.round (-123456789 / 10 ^ 2))) = s% "-1234567.89" ∧
    numStr (X.withDbl L) (.flt (Dbl.round (15 * 10 ^ 120))) = s% "1.5e+121" :=
  ⟨numStr_of X L (by decide +kernel) rfl, numStr_of X L (by decide +kernel) rfl, numStr_of X L (by decide +kernel) rfl,
    numStr_of X L (by decide +kernel) rfl⟩

/-- **C113.** A decimal of at most 15 digits in the usual form is written as it was read, unless it is out of the range of
normal floats. -/
theorem C113_same (d : Decimal) (h : d.Usual) (h15 : HasDigits 15 d.value) (hlo : (2 : ℚ) ^ (-1022 : ℤ) ≤ |d.value|) (ho : ¬ Overflow d.value) :
    numStr (X.withDbl L) (toNum (X.withDbl L) d.text) = d.text := by
  rw [toNum_decimal X L d h.ok, (Dbl.round_fin ho).1]
  refine numStr_of X L ?_ (usual_end h)
  cases hn : d.neg with
  | false =>
    have hnn : 0 ≤ d.value := by
      obtain ⟨D, p, -, h2, -⟩ := usual_layout h hn
      rw [h2]
      exact mul_nonneg (Nat.cast_nonneg _) (Dbl.ten_pos _).le
    rw [abs_of_nonneg hnn] at hlo
    have hpos : 0 < Dbl.rnd d.value := by
      refine lt_of_lt_of_le (Dbl.two_pos (-1022)) ?_
      rw [← Dbl.rnd_of_digits normal_digits]
      exact Dbl.rnd_mono hlo
    rw [str_pos hpos]
    exact same_pos h hn hlo h15 ho
  | true =>
    have hf := invert_usual h
    have hfn : (invert d).neg = false := by simp [invert, hn]
    have hv := invert_value d
    have hnn : 0 ≤ (invert d).value := by
      obtain ⟨D, p, -, h2, -⟩ := usual_layout hf hfn
      rw [h2]
      exact mul_nonneg (Nat.cast_nonneg _) (Dbl.ten_pos _).le
    rw [← abs_neg, ← hv, abs_of_nonneg hnn] at hlo
    have hpos : 0 < Dbl.rnd (invert d).value := by
      refine lt_of_lt_of_le (Dbl.two_pos (-1022)) ?_
      rw [← Dbl.rnd_of_digits normal_digits]
      exact Dbl.rnd_mono hlo
    have hs := same_pos hf hfn hlo (by
      obtain ⟨x, p, h1, h2⟩ := h15
      exact ⟨x, p, h1, by rw [hv, abs_neg]; exact h2⟩) (by
      unfold Overflow at ho ⊢
      rwa [hv, abs_neg])
    have e : Dbl.rnd d.value = -Dbl.rnd (invert d).value := by rw [hv, Dbl.rnd_neg, neg_neg]
    have ht : d.text = '-' :: (invert d).text := by
      have := invert_text hfn
      rwa [invert_invert] at this
    rw [e, str_neg hpos, hs, ht]

/-- **C113.** So adding zero multiplying by one and the operator `+` leave such a text as it is, and negation puts a sign before it. -/
theorem C113_unchanged (d : Decimal) (h : d.Usual) (h15 : HasDigits 15 d.value) (hlo : (2 : ℚ) ^ (-1022 : ℤ) ≤ |d.value|) (ho : ¬ Overflow d.value) :
    opADD (X.withDbl L) (.scalar d.text) (ofInt 0) = .ok (.scalar d.text) ∧
    opMUL (X.withDbl L) (.scalar d.text) (ofInt 1) = .ok (.scalar d.text) ∧
    opPOS (X.withDbl L) (.scalar d.text) = .ok (.scalar d.text) ∧
    (d.neg = false → opNEG (X.withDbl L) (.scalar d.text) = .ok (.scalar ('-' :: d.text))) := by
  have hs := C113_same X L d h h15 hlo ho
  have ht := toNum_decimal X L d h.ok
  obtain ⟨h1, h2⟩ := Dbl.round_fin ho
  rw [h1] at ht
  have hst : Stands X L d.text (Dbl.rnd d.value) := .inr ht
  have hself : Dbl.round (Dbl.rnd d.value) = .fin (Dbl.rnd d.value) := Dbl.round_eq h2.1 (Dbl.rnd_of_digits h2.1.1)
  have hint : ∀ i : ℤ, Stands X L (showInt i) i := fun i => .inl ⟨i, toNum_showInt _ i, rfl⟩
  have h0 : IsFloat ((0 : ℤ) : ℚ) := ⟨⟨0, 0, by norm_num, by norm_num, by norm_num⟩, by norm_num⟩
  have h01 : IsFloat ((1 : ℤ) : ℚ) := ⟨⟨1, 0, by norm_num, by norm_num, by norm_num⟩, by
    rw [Int.cast_one, abs_one]
    exact one_lt_pow₀ one_lt_two (by decide)⟩
  have hof : ofNum (X.withDbl L) (.flt (.fin (Dbl.rnd d.value))) = .scalar d.text := by
    rw [ht] at hs
    exact congrArg Val.scalar hs
  refine ⟨?_, ?_, ?_, ?_⟩
  · have e : (X.withDbl L).fn2 .add (toNum (X.withDbl L) d.text) (toNum (X.withDbl L) (showInt 0)) = .ok (.flt (Dbl.round (Dbl.rnd d.value + (0 : ℤ)))) :=
      viaDbl_ok (stands_dbl X L hst h2.1) (stands_dbl X L (hint 0) h0)
    show opADD (X.withDbl L) (.scalar d.text) (.scalar (showInt 0)) = _
    rw [opADD_scalar, nadd_flt (.inl ⟨_, ht⟩), e, Int.cast_zero, add_zero, hself]
    exact congrArg Except.ok hof
  · have e : (X.withDbl L).fn2 .mul (toNum (X.withDbl L) d.text) (toNum (X.withDbl L) (showInt 1)) = .ok (.flt (Dbl.round (Dbl.rnd d.value * (1 : ℤ)))) :=
      viaDbl_ok (stands_dbl X L hst h2.1) (stands_dbl X L (hint 1) h01)
    show opMUL (X.withDbl L) (.scalar d.text) (.scalar (showInt 1)) = _
    rw [opMUL_scalar, nmul_flt (.inl ⟨_, ht⟩), e, Int.cast_one, mul_one, hself]
    exact congrArg Except.ok hof
  · show Except.ok (ofNum (X.withDbl L) (toNum (X.withDbl L) d.text)) = _
    rw [ht]
    exact congrArg Except.ok hof
  · intro hn
    have hv := invert_value d
    have hs' := C113_same X L (invert d) (invert_usual h) (by
      obtain ⟨x, p, h1, h2⟩ := h15
      exact ⟨x, p, h1, by rw [hv, abs_neg]; exact h2⟩) (by rwa [hv, abs_neg]) (by
      unfold Overflow at ho ⊢
      rwa [hv, abs_neg])
    have ho' : ¬ Overflow (invert d).value := by
      unfold Overflow at ho ⊢
      rwa [hv, abs_neg]
    rw [toNum_decimal X L _ (invert_usual h).ok, (Dbl.round_fin ho').1, hv, Dbl.rnd_neg, invert_text hn] at hs'
    show (nneg (X.withDbl L) (toNum (X.withDbl L) d.text)).bind (fun n => .ok (ofNum (X.withDbl L) n)) = _
    rw [ht]
    exact congrArg (fun s => Except.ok (Val.scalar s)) hs'

/-- `0.1` is in the usual form, has one digit and is in the range. -/
example : (⟨false, [0], some [1], none⟩ : Decimal).Usual ∧ HasDigits 15 (⟨false, [0], some [1], none⟩ : Decimal).value ∧
    (2 : ℚ) ^ (-1022 : ℤ) ≤ |(⟨false, [0], some [1], none⟩ : Decimal).value| ∧ ¬ Overflow (⟨false, [0], some [1], none⟩ : Decimal).value ∧
    (⟨false, [0], some [1], none⟩ : Decimal).text = s% "0.1" := by
  refine ⟨⟨⟨by decide, by decide, by decide, by rintro _ _ ⟨⟩⟩, by rintro _ ⟨⟩; decide, fun _ => ⟨by decide +kernel, by decide +kernel, by decide, by decide⟩,
    by rintro _ _ ⟨⟩⟩, ⟨1, -1, by norm_num, by decide +kernel⟩, by decide +kernel, by unfold Overflow; decide +kernel, by decide⟩

/-- So is `-6.02214076e+23`. -/
example : (⟨true, [6], some [0, 2, 2, 1, 4, 0, 7, 6], some (false, [2, 3])⟩ : Decimal).Usual ∧
    (⟨true, [6], some [0, 2, 2, 1, 4, 0, 7, 6], some (false, [2, 3])⟩ : Decimal).text = s% "-6.02214076e+23" := by
  refine ⟨⟨⟨by decide, by decide, by decide, by rintro _ _ ⟨⟩; decide⟩, by rintro _ ⟨⟩; decide, by rintro ⟨⟩,
    by rintro _ _ ⟨⟩; exact ⟨by decide +kernel, by decide, by decide, by decide, by decide⟩⟩, by decide⟩

/-- Sixteen digits are too many: `9.000000000000001` has them and is in the usual form, and it is written with another last
digit. -/
theorem C113_sixteen : numStr (X.withDbl L) (toNum (X.withDbl L) (s% "9.000000000000001")) = s% "9.000000000000002" := by
  have h := toNum_decimal X L ⟨false, [9], some [0, 0, 0, 0, 0, 0, 0, 0, 0, 0, 0, 0, 0, 0, 1], none⟩
    ⟨by decide, by decide, by decide, by rintro _ _ ⟨⟩⟩
  have e : (⟨false, [9], some [0, 0, 0, 0, 0, 0, 0, 0, 0, 0, 0, 0, 0, 0, 1], none⟩ : Decimal).text = s% "9.000000000000001" := by decide
  rw [e] at h
  rw [h]
  exact numStr_of X L (by decide +kernel) rfl

end Pip
