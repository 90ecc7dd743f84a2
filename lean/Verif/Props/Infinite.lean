import Verif.Props.FloatMod
/-! C90, C91, C93 for numbers beyond the largest float: arithmetic, comparisons, remainders. -/

namespace Pip
open Floats

variable (X : Ext) (L : Libm X.Rng) {a b c : Str} {p : ℚ} {m n : Bool}

/-- The text is a decimal number that no float reaches: `neg` says whether it is negative. -/
def Beyond (s : Str) (neg : Bool) : Prop := ∃ d : Decimal, d.Ok ∧ Overflow d.value ∧ s = d.text ∧ neg = decide (d.value < 0)

/-- The texts of the infinities -/
def infText (neg : Bool) : Str := if neg then s% "-inf" else s% "inf"

/-- `-1e+309` -/
theorem beyond_example : Beyond (s% "-1e+309") true :=
  ⟨⟨true, [1], none, some (false, [3, 0, 9])⟩, ⟨by decide, by decide, by decide, by intro s l h; cases h; decide⟩,
    by unfold Overflow; decide +kernel, by decide +kernel, by decide +kernel⟩

theorem Beyond.toNum (h : Beyond a n) : toNum (X.withDbl L) a = .flt (.inf n) := by
  obtain ⟨d, h1, h2, rfl, rfl⟩ := h
  exact C89_read_inf X L d h1 h2

theorem ofNum_inf (n : Bool) : ofNum (X.withDbl L) (.flt (.inf n)) = .scalar (infText n) := by
  cases n
  · exact congrArg Val.scalar (numStr_of X L (f := .inf false) rfl rfl)
  · exact congrArg Val.scalar (numStr_of X L (f := .inf true) rfl rfl)

theorem ofNum_nan : ofNum (X.withDbl L) (.flt .nan) = .scalar (s% "nan") :=
  congrArg Val.scalar (numStr_of X L (f := .nan) rfl rfl)

theorem ofNum_int {i : ℤ} (h : |i| < 2 ^ 53) : ofNum (X.withDbl L) (.flt (.fin i)) = ofInt i := by
  have h1 : |i| ≤ 2 ^ 53 := le_of_lt h
  have h2 : |i| < 10 ^ 16 := lt_trans h (by norm_num)
  have h3 := numStr_int X L (Dbl.isDouble_int h1) h2
  unfold ofNum ofInt
  rw [h3]

theorem zero_of (hy : Num.dbl (.int 0) = .ok (.fin p)) : p = 0 := by
  have h0 : Dbl.ofRat ((0 : ℤ) : ℚ) = .ok (.fin 0) := ofRat_eq (by decide +kernel) ⟨0, rfl⟩
  have : Num.dbl (.int 0) = Dbl.ofRat ((0 : ℤ) : ℚ) := rfl
  rw [h0] at this
  rw [this] at hy
  cases hy
  rfl

theorem div_inf (h0 : p ≠ 0) : Dbl.div (.inf n) (.fin p) = .ok (.inf (n != decide (p < 0))) := by
  unfold Dbl.div
  split
  · next h => cases h; exact absurd rfl h0
  · next h _ => cases h
  · next h _ => cases h
  · next h1 h2 => cases h1; cases h2; rfl
  · next h => exact absurd rfl (h n p rfl)

/-- **C90.** What is beyond the floats stays there under addition, subtraction, multiplication and division by numbers; its
product with zero is no number, and a number divided by it is 0. -/
theorem C90_beyond (ha : Beyond a n) (hb : Stands X L b p) (hp : IsFloat p) :
    opADD (X.withDbl L) (.scalar a) (.scalar b) = .ok (.scalar (infText n)) ∧
    opADD (X.withDbl L) (.scalar b) (.scalar a) = .ok (.scalar (infText n)) ∧
    opSUB (X.withDbl L) (.scalar a) (.scalar b) = .ok (.scalar (infText n)) ∧
    opSUB (X.withDbl L) (.scalar b) (.scalar a) = .ok (.scalar (infText !n)) ∧
    opMUL (X.withDbl L) (.scalar a) (.scalar b) =
      .ok (.scalar (if p = 0 then s% "nan" else infText (if p < 0 then !n else n))) ∧
    opMUL (X.withDbl L) (.scalar b) (.scalar a) =
      .ok (.scalar (if p = 0 then s% "nan" else infText (if p < 0 then !n else n))) ∧
    opDIV (X.withDbl L) (.scalar a) (.scalar b) =
      .ok (if p = 0 then .nil else .scalar (infText (if p < 0 then !n else n))) ∧
    opDIV (X.withDbl L) (.scalar b) (.scalar a) = .ok (ofInt 0) := by
  have ha := ha.toNum X L
  have hd := stands_dbl X L hb hp
  have h1 : Num.dbl (toNum (X.withDbl L) a) = .ok (.inf n) := by rw [ha]; rfl
  have hm : ∀ p n, ofNum (X.withDbl L) (.flt (Dbl.infBy p n)) = .scalar (if p = 0 then s% "nan" else infText (if p < 0 then !n else n)) := by
    intro p n
    unfold Dbl.infBy
    split
    · exact ofNum_nan X L
    · rw [ofNum_inf]
      by_cases h : p < 0 <;> simp [h]
  have fa : ∃ f, toNum (X.withDbl L) a = .flt f := ⟨_, ha⟩
  refine ⟨?_, ?_, ?_, ?_, ?_, ?_, ?_, ?_⟩
  · rw [opADD_scalar, nadd_flt (.inl fa)]
    show (viaDbl _ _ _).bind _ = _
    rw [viaDbl_ok h1 hd, ← ofNum_inf X L]; rfl
  · rw [opADD_scalar, nadd_flt (.inr fa)]
    show (viaDbl _ _ _).bind _ = _
    rw [viaDbl_ok hd h1, ← ofNum_inf X L]; rfl
  · rw [opSUB_scalar, nsub_flt (.inl fa)]
    show (viaDbl _ _ _).bind _ = _
    rw [viaDbl_ok h1 hd, ← ofNum_inf X L]; rfl
  · rw [opSUB_scalar, nsub_flt (.inr fa)]
    show (viaDbl _ _ _).bind _ = _
    rw [viaDbl_ok hd h1, ← ofNum_inf X L]; rfl
  · rw [opMUL_scalar, nmul_flt (.inl fa)]
    show (viaDbl _ _ _).bind _ = _
    rw [viaDbl_ok h1 hd, ← hm]; rfl
  · rw [opMUL_scalar, nmul_flt (.inr fa)]
    show (viaDbl _ _ _).bind _ = _
    rw [viaDbl_ok hd h1, ← hm]; rfl
  · have hn : ∀ x y : Num Dbl, x = .flt (.inf n) → y.dbl = .ok (.fin p) →
        zeroDivNil ((ndiv (X.withDbl L) x y).bind fun n => .ok (ofNum (X.withDbl L) n)) =
        .ok (if p = 0 then .nil else .scalar (infText (if p < 0 then !n else n))) := by
      rintro x y rfl hy
      by_cases h0 : p = 0
      · subst h0
        have : ndiv (X.withDbl L) (.flt (.inf n)) y = .error .zeroDivision := by
          unfold ndiv
          split
          · rfl
          · show viaDbl _ _ _ = _
            rw [viaDbl_ok (x := .inf n) rfl hy]; rfl
        rw [this, if_pos rfl]; rfl
      · have : ndiv (X.withDbl L) (.flt (.inf n)) y = .ok (.flt (.inf (n != decide (p < 0)))) := by
          unfold ndiv
          split
          · exact absurd (zero_of hy) h0
          · show viaDbl _ _ _ = _
            rw [viaDbl_ok (x := .inf n) rfl hy, div_inf h0]; rfl
        rw [this, if_neg h0]
        show Except.ok (ofNum _ _) = _
        rw [ofNum_inf]
        by_cases h : p < 0 <;> simp [h]
    exact hn _ _ ha hd
  · rw [opDIV_scalar, ha]
    have hn : ndiv (X.withDbl L) (toNum (X.withDbl L) b) (.flt (.inf n)) = .ok (.flt (.fin ((0 : ℤ) : ℚ))) := by
      have : ∀ y : Num Dbl, y.dbl = .ok (.fin p) → ndiv (X.withDbl L) y (.flt (.inf n)) = .ok (.flt (.fin ((0 : ℤ) : ℚ))) := by
        intro y hy
        have : ndiv (X.withDbl L) y (.flt (.inf n)) = viaDbl Dbl.div y (.flt (.inf n)) := by cases y <;> rfl
        rw [this, viaDbl_ok hy (y := .inf n) rfl]
        rfl
      exact this _ hd
    rw [hn]
    exact congrArg Except.ok (ofNum_int X L (i := 0) (by norm_num))

/-- **C90.** With two such numbers, sums of different signs, differences of the same sign and quotients are no numbers. -/
theorem C90_beyond_both (ha : Beyond a n) (hb : Beyond b m) :
    opADD (X.withDbl L) (.scalar a) (.scalar b) = .ok (.scalar (if n = m then infText n else s% "nan")) ∧
    opSUB (X.withDbl L) (.scalar a) (.scalar b) = .ok (.scalar (if n = m then s% "nan" else infText n)) ∧
    opMUL (X.withDbl L) (.scalar a) (.scalar b) = .ok (.scalar (infText (n != m))) ∧
    opDIV (X.withDbl L) (.scalar a) (.scalar b) = .ok (.scalar (s% "nan")) := by
  have ha := ha.toNum X L
  have hb := hb.toNum X L
  refine ⟨?_, ?_, ?_, ?_⟩
  · rw [opADD_scalar, ha, hb]
    cases n <;> cases m <;> first | exact congrArg Except.ok (ofNum_inf X L _) | exact congrArg Except.ok (ofNum_nan X L)
  · rw [opSUB_scalar, ha, hb]
    cases n <;> cases m <;> first | exact congrArg Except.ok (ofNum_inf X L _) | exact congrArg Except.ok (ofNum_nan X L)
  · rw [opMUL_scalar, ha, hb]
    exact congrArg Except.ok (ofNum_inf X L _)
  · rw [opDIV_scalar, ha, hb]
    exact congrArg Except.ok (ofNum_nan X L)

/-! ### C91: comparisons -/

/-- **C91.** Comparisons put the numbers beyond the floats above or below all numbers, whatever the size of an integer; they
are equal to each other. -/
theorem C91_beyond (ha : Beyond a n) (hb : Stands X L b p) (hc : Beyond c m) :
    opNUMLESS (X.withDbl L) (.scalar a) (.scalar b) = .ok (ofBool n) ∧
    opNUMLESS (X.withDbl L) (.scalar b) (.scalar a) = .ok (ofBool !n) ∧
    opNUMLESSEQ (X.withDbl L) (.scalar a) (.scalar b) = .ok (ofBool n) ∧
    opNUMLESSEQ (X.withDbl L) (.scalar b) (.scalar a) = .ok (ofBool !n) ∧
    opNUMGREATER (X.withDbl L) (.scalar a) (.scalar b) = .ok (ofBool !n) ∧
    opNUMGREATEREQ (X.withDbl L) (.scalar a) (.scalar b) = .ok (ofBool !n) ∧
    opNUMEQUAL (X.withDbl L) (.scalar a) (.scalar b) = .ok (ofBool false) ∧
    opNUMNOTEQUAL (X.withDbl L) (.scalar a) (.scalar b) = .ok (ofBool true) ∧
    opNUMLESS (X.withDbl L) (.scalar a) (.scalar c) = .ok (ofBool (n && !m)) ∧
    opNUMLESSEQ (X.withDbl L) (.scalar a) (.scalar c) = .ok (ofBool (n || !m)) ∧
    opNUMEQUAL (X.withDbl L) (.scalar a) (.scalar c) = .ok (ofBool (n == m)) := by
  have ha := ha.toNum X L
  have hc := hc.toNum X L
  have l1 : nlt (X.withDbl L) (toNum (X.withDbl L) a) (toNum (X.withDbl L) b) = n := by
    rw [ha]; rcases hb with ⟨i, hb, rfl⟩ | hb <;> rw [hb] <;> cases n <;> rfl
  have l2 : nlt (X.withDbl L) (toNum (X.withDbl L) b) (toNum (X.withDbl L) a) = !n := by
    rw [ha]; rcases hb with ⟨i, hb, rfl⟩ | hb <;> rw [hb] <;> cases n <;> rfl
  have l3 : nle (X.withDbl L) (toNum (X.withDbl L) a) (toNum (X.withDbl L) b) = n := by
    rw [ha]; rcases hb with ⟨i, hb, rfl⟩ | hb <;> rw [hb] <;> cases n <;> rfl
  have l4 : nle (X.withDbl L) (toNum (X.withDbl L) b) (toNum (X.withDbl L) a) = !n := by
    rw [ha]; rcases hb with ⟨i, hb, rfl⟩ | hb <;> rw [hb] <;> cases n <;> rfl
  have l5 : neq (X.withDbl L) (toNum (X.withDbl L) a) (toNum (X.withDbl L) b) = false := by
    rw [ha]; rcases hb with ⟨i, hb, rfl⟩ | hb <;> rw [hb] <;> cases n <;> rfl
  have l6 : nlt (X.withDbl L) (toNum (X.withDbl L) a) (toNum (X.withDbl L) c) = (n && !m) := by
    rw [ha, hc]; cases n <;> cases m <;> rfl
  have l7 : nle (X.withDbl L) (toNum (X.withDbl L) a) (toNum (X.withDbl L) c) = (n || !m) := by
    rw [ha, hc]; cases n <;> cases m <;> rfl
  have l8 : neq (X.withDbl L) (toNum (X.withDbl L) a) (toNum (X.withDbl L) c) = (n == m) := by
    rw [ha, hc]; cases n <;> cases m <;> rfl
  refine ⟨?_, ?_, ?_, ?_, ?_, ?_, ?_, ?_, ?_, ?_, ?_⟩
  · rw [← l1]; rfl
  · rw [← l2]; rfl
  · rw [← l3]; rfl
  · rw [← l4]; rfl
  · rw [← l2]; rfl
  · rw [← l4]; rfl
  · rw [← l5]; rfl
  · rw [← Bool.not_false, ← l5]; rfl
  · rw [← l6]; rfl
  · rw [← l7]; rfl
  · rw [← l8]; rfl

/-! ### C93: remainders -/

/-- **C93.** A number divided by one beyond the floats: if the signs are the same, the quotient is 0 and the remainder the
number itself; if not, the quotient is -1 and the remainder infinite. -/
theorem C93_beyond (ha : Stands X L a p) (hp : IsFloat p) (hb : Beyond b n) :
    opINTDIV (X.withDbl L) (.scalar a) (.scalar b) = .ok (ofInt (if p ≠ 0 ∧ decide (p < 0) ≠ n then -1 else 0)) ∧
    (p ≠ 0 ∧ decide (p < 0) ≠ n → opMOD (X.withDbl L) (.scalar a) (some (.scalar b)) = .ok (.scalar (infText n))) ∧
    (¬ (p ≠ 0 ∧ decide (p < 0) ≠ n) → ∃ s, opMOD (X.withDbl L) (.scalar a) (some (.scalar b)) = .ok (.scalar s) ∧ Stands X L s p) := by
  have hb := hb.toNum X L
  have hf : IsPoint (X.withDbl L) b := ⟨_, hb⟩
  have hd := stands_dbl X L ha hp
  have h1 : Num.dbl (toNum (X.withDbl L) b) = .ok (.inf n) := by rw [hb]; rfl
  have key : ∀ r : Dbl × Dbl, Dbl.divMod (.fin p) (.inf n) = .ok r →
      opINTDIV (X.withDbl L) (.scalar a) (.scalar b) = .ok (ofNum (X.withDbl L) (.flt r.1)) ∧
      opMOD (X.withDbl L) (.scalar a) (some (.scalar b)) = .ok (ofNum (X.withDbl L) (.flt r.2)) := by
    intro r hr
    constructor
    · rw [opINTDIV_scalar, nfloordiv_flt (.inr hf)]
      have := viaDbl_ok (f := fun x y => do return (← x.divMod y).1) hd h1
      rw [hr] at this
      have e : (X.withDbl L).fn2 .floordiv (toNum (X.withDbl L) a) (toNum (X.withDbl L) b) = .ok (.flt r.1) := this
      rw [e]; rfl
    · rw [opMOD_scalar, nmod_flt (.inr hf)]
      have := viaDbl_ok (f := fun x y => do return (← x.divMod y).2) hd h1
      rw [hr] at this
      have e : (X.withDbl L).fn2 .mod (toNum (X.withDbl L) a) (toNum (X.withDbl L) b) = .ok (.flt r.2) := this
      rw [e]; rfl
  have hi : ∀ i : ℤ, |i| < 2 ^ 53 → ofNum (X.withDbl L) (.flt (.fin (i : ℚ))) = ofInt i := fun i h => ofNum_int X L h
  have zero := hi 0 (by norm_num)
  have one := hi (-1) (by norm_num)
  norm_num at zero one
  by_cases h : p ≠ 0 ∧ decide (p < 0) ≠ n
  · obtain ⟨k1, k2⟩ := key (.fin (-1), .inf n) (by
      show (if p = 0 then _ else if _ then _ else _) = _
      rw [if_neg h.1, if_neg h.2])
    rw [k1, k2]
    exact ⟨by rw [if_pos h]; exact congrArg Except.ok one, fun _ => congrArg Except.ok (ofNum_inf X L n), fun h' => absurd h h'⟩
  · obtain ⟨k1, k2⟩ := key (.fin 0, .fin p) (by
      show (if p = 0 then _ else if _ then _ else _) = _
      by_cases h0 : p = 0
      · rw [if_pos h0, h0]
      · rw [if_neg h0, if_pos (by
          by_contra hc
          exact h ⟨h0, hc⟩)])
    rw [k1, k2]
    exact ⟨by rw [if_neg h]; exact congrArg Except.ok zero, fun h' => absurd h' h, fun _ => ⟨_, rfl, C89_write X L p hp⟩⟩

/-- `-3 // -1e+309` is 0, and `-3 % -1e+309` is -3. -/
example : Stands X L (s% "-3") (-3) ∧ IsFloat (-3) ∧ Beyond (s% "-1e+309") true :=
  ⟨.inl ⟨-3, toNum_showInt _ (-3), by norm_num⟩, Dbl.isDouble_int (i := -3) (by norm_num), beyond_example⟩

end Pip
