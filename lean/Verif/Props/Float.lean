import Verif.Lemmas.FloatArith
import Verif.Spec.Toy
/-! C89: floats and their texts. C90: arithmetic with floats is correctly rounded. -/

namespace Pip
open Floats

variable (X : Ext) (L : Libm X.Rng)

theorem numStr_of {f : Dbl} {s : Str} (h : Dbl.str f = s) (hs : (s% ".0").isSuffixOf s = false) :
    numStr (X.withDbl L) (.flt f) = s := by
  have : numStr (X.withDbl L) (.flt f) =
    if (s% ".0").isSuffixOf (Dbl.str f) then showInt ((X.withDbl L).trunc f) else Dbl.str f := rfl
  rw [this, h, hs]; rfl

theorem toNum_none (Y : Ext) {s : Str} (h1 : pyFloatRgx.match? (lstrip s) = none) (h2 : intRgx.match? (lstrip s) = none) :
    toNum Y s = .int 0 := by
  unfold toNum
  rw [h1, h2]

/-! ### C89: texts -/

theorem parseNat_digits {l : List ℕ} (h : ∀ x ∈ l, x < 10) : parseNat (digits l) = denotes l := by
  unfold digits denotes
  induction l using List.reverseRecOn with
  | nil => rfl
  | append_singleton l d ih =>
    rw [List.map_append, parseNat_append, ih (fun x hx => h x (by simp [hx])), List.reverse_append, List.reverse_singleton,
      List.singleton_append, Nat.ofDigits_cons]
    have : parseNat [digitChar d] = d := by
      unfold parseNat
      simp [digitVal_digitChar (h d (by simp))]
    rw [List.map_singleton, this]
    simp only [List.length_singleton, pow_one]
    omega

theorem digs_digits {l : List ℕ} (h : ∀ x ∈ l, x < 10) : Digs (digits l) := by
  intro c hc
  obtain ⟨d, hd, rfl⟩ := List.mem_map.1 hc
  exact digitChar_digit (h d hd)

theorem digits_ne {l : List ℕ} (h : l ≠ []) : digits l ≠ [] := by simp [digits, h]

/-- The text without the sign -/
theorem decimal_text (d : Decimal) (h : d.Ok) : ∃ s v, FloatText s v ∧
    d.text = (if d.neg then ['-'] else []) ++ s ∧ d.value = if d.neg then -v else v := by
  obtain ⟨neg, int, frac, exp⟩ := d
  have hd := h.digits
  simp only [List.mem_append] at hd
  have hint : ∀ x ∈ int, x < 10 := fun x hx => hd x (.inl (.inl hx))
  have hfrac : ∀ x ∈ frac.getD [], x < 10 := fun x hx => hd x (.inl (.inr hx))
  have hexp : ∃ x, ExpText (exp.elim [] fun e => 'e' :: (if e.1 then '-' else '+') :: digits e.2) x ∧
      x = exp.elim (0 : ℤ) fun e => if e.1 then -(denotes e.2 : ℤ) else denotes e.2 := by
    cases exp with
    | none => exact ⟨0, .inl ⟨rfl, rfl⟩, rfl⟩
    | some e =>
      obtain ⟨sg, l⟩ := e
      have hl : ∀ x ∈ l, x < 10 := fun x hx => hd x (.inr hx)
      refine ⟨_, .inr ⟨if sg then '-' else '+', digits l, rfl, digits_ne (h.exp sg l rfl), digs_digits hl, ?_⟩, rfl⟩
      cases sg
      · exact .inl ⟨rfl, by rw [parseNat_digits hl]; rfl⟩
      · exact .inr ⟨rfl, by rw [parseNat_digits hl]; rfl⟩
  obtain ⟨x, hx, ex⟩ := hexp
  have key : ∃ s v, FloatText s v ∧ s = digits int ++ ((frac.elim [] fun f => '.' :: digits f) ++
      exp.elim [] fun e => 'e' :: (if e.1 then '-' else '+') :: digits e.2) ∧
      v = denotes (int ++ frac.getD []) * 10 ^ (-((frac.getD []).length : ℤ)) * 10 ^ x := by
    cases frac with
    | none =>
      have hne : exp ≠ none := by simpa using h.float
      refine ⟨_, _, FloatText.noPoint (digits_ne h.int) (digs_digits hint) hx ?_, rfl, ?_⟩
      · cases exp with
        | none => exact absurd rfl hne
        | some e => simp
      · rw [parseNat_digits hint]; simp
    | some f =>
      refine ⟨_, _, FloatText.point (digits_ne h.int) (digs_digits hint) (digs_digits (l := f) hfrac) hx, rfl, ?_⟩
      have : digits int ++ digits f = digits (int ++ f) := by simp [digits]
      rw [this, parseNat_digits (by
        intro y hy
        rcases List.mem_append.1 hy with hy | hy
        · exact hint y hy
        · exact hfrac y hy)]
      have hl : (digits f).length = f.length := by simp [digits]
      rw [hl]
      simp only [Option.getD_some]
      rw [mul_assoc, ← Dbl.ten_add]
      congr 2
      ring
  obtain ⟨s, v, h1, h2, h3⟩ := key
  refine ⟨s, v, h1, ?_, ?_⟩
  · rw [h2]; rfl
  · unfold Decimal.value
    simp only
    rw [← ex, h3]
    cases neg <;> simp

theorem toNum_decimal (d : Decimal) (h : d.Ok) : toNum (X.withDbl L) d.text = .flt (Dbl.round d.value) := by
  obtain ⟨s, v, h1, h2, h3⟩ := decimal_text d h
  rw [h2, h3]
  cases d.neg
  · exact h1.toNum_plain X L
  · exact h1.toNum_minus X L

/-- **C89.** A Scalar written with a point or an exponent stands for the float nearest to the number it denotes. -/
theorem C89_read (d : Decimal) (h : d.Ok) (ho : ¬ Overflow d.value) :
    ∃ r, Rounded d.value r ∧ toNum (X.withDbl L) d.text = .flt (.fin r) := by
  obtain ⟨h1, h2⟩ := Dbl.round_fin ho
  exact ⟨_, h2, by rw [toNum_decimal X L d h, h1]⟩

/-- `-12.5e+3` is a decimal, and its number is -12500. -/
example : (⟨true, [1, 2], some [5], some (false, [3])⟩ : Decimal).Ok ∧
    (⟨true, [1, 2], some [5], some (false, [3])⟩ : Decimal).text = s% "-12.5e+3" ∧
    (⟨true, [1, 2], some [5], some (false, [3])⟩ : Decimal).value = -12500 :=
  ⟨⟨by decide, by decide, by decide, by intro s l h; cases h; decide⟩, by decide +kernel, by decide +kernel⟩

/-- Beyond the largest float it is an infinity. -/
theorem C89_read_inf (d : Decimal) (h : d.Ok) (ho : Overflow d.value) :
    toNum (X.withDbl L) d.text = .flt (.inf (decide (d.value < 0))) := by
  rw [toNum_decimal X L d h, Dbl.round_inf ho]

/-- `1e+400` -/
example : (⟨false, [1], none, some (false, [4, 0, 0])⟩ : Decimal).Ok ∧
    (⟨false, [1], none, some (false, [4, 0, 0])⟩ : Decimal).text = s% "1e+400" ∧
    Overflow (⟨false, [1], none, some (false, [4, 0, 0])⟩ : Decimal).value :=
  ⟨⟨by decide, by decide, by decide, by intro s l h; cases h; decide⟩, by decide +kernel, by unfold Overflow; decide +kernel⟩

/-- **C89.** A float result, once it is a Scalar, stands for the same number: writing loses nothing. -/
theorem C89_write (r : ℚ) (h : IsFloat r) : Stands X L (numStr (X.withDbl L) (.flt (.fin r))) r := by
  rcases toNum_numStr_dbl X L h with h | ⟨i, h1, h2⟩
  · exact .inr h
  · refine .inl ⟨i, ?_, h1⟩
    rw [h2]; exact toNum_showInt _ i

/-- 0.1 + 0.2 is written with 17 digits, which are needed. -/
example : numStr (X.withDbl L) (.flt (.fin (5404319552844596 / 2 ^ 54))) = s% "0.30000000000000004" := by
  exact numStr_of X L (by decide +kernel) rfl

/-- **C89.** Different floats have different texts. -/
theorem C89_write_inj (r r' : ℚ) (h : IsFloat r) (h' : IsFloat r')
    (e : numStr (X.withDbl L) (.flt (.fin r)) = numStr (X.withDbl L) (.flt (.fin r'))) : r = r' := by
  have a := C89_write X L r h
  have b := C89_write X L r' h'
  rw [e] at a
  rcases a with ⟨i, a, rfl⟩ | a <;> rcases b with ⟨j, b, rfl⟩ | b <;> rw [a] at b
  · cases b; rfl
  · cases b
  · cases b
  · cases b; rfl

/-- **C89.** A float that is an integer below `10 ^ 16` is written like the integer. -/
theorem C89_write_int (i : ℤ) (h : IsFloat i) (hb : |i| < 10 ^ 16) :
    numStr (X.withDbl L) (.flt (.fin i)) = showInt i := numStr_int X L h hb

example : IsFloat ((-6 : ℤ) : ℚ) ∧ |(-6 : ℤ)| < 10 ^ 16 := ⟨Dbl.isDouble_int (by norm_num), by norm_num⟩

/-- From there on it is not: `10 ^ 16` becomes `1e+16`, and where an integer is wanted, that is 1. -/
theorem C89_write_large : numStr (X.withDbl L) (.flt (.fin ((10 ^ 16 : ℤ) : ℚ))) = s% "1e+16" ∧ toInt (s% "1e+16") = 1 := by
  exact ⟨numStr_of X L (by decide +kernel) rfl, by decide +kernel⟩

/-- Infinities do not survive: their text stands for zero. -/
theorem C89_inf (n : Bool) : toNum (X.withDbl L) (numStr (X.withDbl L) (.flt (.inf n))) = .int 0 := by
  cases n
  · rw [numStr_of X L (show Dbl.str (.inf false) = s% "inf" from rfl) rfl]
    exact toNum_none _ (by decide +kernel) (by decide +kernel)
  · rw [numStr_of X L (show Dbl.str (.inf true) = s% "-inf" from rfl) rfl]
    exact toNum_none _ (by decide +kernel) (by decide +kernel)

/-! ### C90: arithmetic -/

theorem stands_dbl {s : Str} {p : ℚ} (h : Stands X L s p) (hp : IsFloat p) :
    Num.dbl (toNum (X.withDbl L) s) = .ok (.fin p) := by
  rcases h with ⟨i, h, rfl⟩ | h
  · rw [h]
    show Dbl.ofRat i = _
    unfold Dbl.ofRat
    rw [Dbl.round_self hp]
  · rw [h]; rfl

theorem viaDbl_ok {f : Dbl → Dbl → Except Exc Dbl} {a b : Num Dbl} {x y : Dbl} (ha : a.dbl = .ok x) (hb : b.dbl = .ok y) :
    viaDbl f a b = (f x y).map .flt := by
  unfold viaDbl
  rw [ha, hb]
  show (f x y >>= fun z => pure (Num.flt z)) = _
  cases f x y <;> rfl

/-- What a rounded result means for the user: a Scalar that stands for the nearest float, or an infinity -/
def Delivers (x : ℚ) (r : E Val) : Prop :=
  (¬ Overflow x → ∃ s t, r = .ok (.scalar s) ∧ Stands X L s t ∧ Rounded x t) ∧
  (Overflow x → r = .ok (.scalar (if x < 0 then s% "-inf" else s% "inf")))

theorem delivers_round (x : ℚ) : Delivers X L x (.ok (ofNum (X.withDbl L) (.flt (Dbl.round x)))) := by
  constructor
  · intro h
    obtain ⟨h1, h2⟩ := Dbl.round_fin h
    rw [h1]
    exact ⟨_, _, rfl, C89_write X L _ h2.1, h2⟩
  · intro h
    rw [Dbl.round_inf h]
    by_cases hx : x < 0
    · simp only [hx, decide_true, if_true]
      exact congrArg (Except.ok ∘ Val.scalar) (numStr_of X L (f := .inf true) rfl rfl)
    · simp only [hx, decide_false, if_false]
      exact congrArg (Except.ok ∘ Val.scalar) (numStr_of X L (f := .inf false) rfl rfl)

theorem nadd_flt {Y : Ext} {a b : Num Y.F} (h : (∃ f, a = .flt f) ∨ ∃ f, b = .flt f) : nadd Y a b = Y.fn2 .add a b := by
  rcases h with ⟨f, rfl⟩ | ⟨f, rfl⟩
  · rfl
  · cases a <;> rfl
theorem nsub_flt {Y : Ext} {a b : Num Y.F} (h : (∃ f, a = .flt f) ∨ ∃ f, b = .flt f) : nsub Y a b = Y.fn2 .sub a b := by
  rcases h with ⟨f, rfl⟩ | ⟨f, rfl⟩
  · rfl
  · cases a <;> rfl
theorem nmul_flt {Y : Ext} {a b : Num Y.F} (h : (∃ f, a = .flt f) ∨ ∃ f, b = .flt f) : nmul Y a b = Y.fn2 .mul a b := by
  rcases h with ⟨f, rfl⟩ | ⟨f, rfl⟩
  · rfl
  · cases a <;> rfl

theorem opADD_scalar (Y : Ext) (a b : Str) : opADD Y (.scalar a) (.scalar b) =
    (nadd Y (toNum Y a) (toNum Y b)).bind fun n => .ok (ofNum Y n) := rfl
theorem opSUB_scalar (Y : Ext) (a b : Str) : opSUB Y (.scalar a) (.scalar b) =
    (nsub Y (toNum Y a) (toNum Y b)).bind fun n => .ok (ofNum Y n) := rfl
theorem opMUL_scalar (Y : Ext) (a b : Str) : opMUL Y (.scalar a) (.scalar b) =
    (nmul Y (toNum Y a) (toNum Y b)).bind fun n => .ok (ofNum Y n) := rfl
theorem opDIV_scalar (Y : Ext) (a b : Str) : opDIV Y (.scalar a) (.scalar b) =
    zeroDivNil ((ndiv Y (toNum Y a) (toNum Y b)).bind fun n => .ok (ofNum Y n)) := rfl

theorem ofRat_eq {x : ℚ} {f : Dbl} (h : Dbl.round x = f) (hf : ∃ q, f = .fin q) : Dbl.ofRat x = .ok f := by
  obtain ⟨q, rfl⟩ := hf
  unfold Dbl.ofRat
  rw [h]

variable {a b : Str} {p q : ℚ}

/-- **C90.** The sum of two numbers, of which one is written with a point, is the exact sum, rounded once. -/
theorem C90_add (ha : Stands X L a p) (hb : Stands X L b q) (hp : IsFloat p) (hq : IsFloat q)
    (hf : IsPoint (X.withDbl L) a ∨ IsPoint (X.withDbl L) b) :
    Delivers X L (p + q) (opADD (X.withDbl L) (.scalar a) (.scalar b)) := by
  have : opADD (X.withDbl L) (.scalar a) (.scalar b) = .ok (ofNum (X.withDbl L) (.flt (Dbl.round (p + q)))) := by
    rw [opADD_scalar, nadd_flt hf]
    have : (X.withDbl L).fn2 .add (toNum (X.withDbl L) a) (toNum (X.withDbl L) b) = .ok (.flt (Dbl.round (p + q))) :=
      viaDbl_ok (stands_dbl X L ha hp) (stands_dbl X L hb hq)
    rw [this]; rfl
  rw [this]
  exact delivers_round X L _

/-- **C90.** Differences -/
theorem C90_sub (ha : Stands X L a p) (hb : Stands X L b q) (hp : IsFloat p) (hq : IsFloat q)
    (hf : IsPoint (X.withDbl L) a ∨ IsPoint (X.withDbl L) b) :
    Delivers X L (p - q) (opSUB (X.withDbl L) (.scalar a) (.scalar b)) := by
  have : opSUB (X.withDbl L) (.scalar a) (.scalar b) = .ok (ofNum (X.withDbl L) (.flt (Dbl.round (p - q)))) := by
    rw [opSUB_scalar, nsub_flt hf]
    have : (X.withDbl L).fn2 .sub (toNum (X.withDbl L) a) (toNum (X.withDbl L) b) = .ok (.flt (Dbl.round (p - q))) := by
      rw [sub_eq_add_neg]
      exact viaDbl_ok (stands_dbl X L ha hp) (stands_dbl X L hb hq)
    rw [this]; rfl
  rw [this]
  exact delivers_round X L _

/-- **C90.** Products -/
theorem C90_mul (ha : Stands X L a p) (hb : Stands X L b q) (hp : IsFloat p) (hq : IsFloat q)
    (hf : IsPoint (X.withDbl L) a ∨ IsPoint (X.withDbl L) b) :
    Delivers X L (p * q) (opMUL (X.withDbl L) (.scalar a) (.scalar b)) := by
  have : opMUL (X.withDbl L) (.scalar a) (.scalar b) = .ok (ofNum (X.withDbl L) (.flt (Dbl.round (p * q)))) := by
    rw [opMUL_scalar, nmul_flt hf]
    have : (X.withDbl L).fn2 .mul (toNum (X.withDbl L) a) (toNum (X.withDbl L) b) = .ok (.flt (Dbl.round (p * q))) :=
      viaDbl_ok (stands_dbl X L ha hp) (stands_dbl X L hb hq)
    rw [this]; rfl
  rw [this]
  exact delivers_round X L _

/-- **C90.** Quotients -/
theorem C90_div (ha : Stands X L a p) (hb : Stands X L b q) (hp : IsFloat p) (hq : IsFloat q)
    (hf : IsPoint (X.withDbl L) a ∨ IsPoint (X.withDbl L) b) (h0 : q ≠ 0) :
    Delivers X L (p / q) (opDIV (X.withDbl L) (.scalar a) (.scalar b)) := by
  have : opDIV (X.withDbl L) (.scalar a) (.scalar b) = .ok (ofNum (X.withDbl L) (.flt (Dbl.round (p / q)))) := by
    rw [opDIV_scalar]
    have hd : Dbl.div (.fin p) (.fin q) = .ok (Dbl.round (p / q)) := by
      unfold Dbl.div
      split
      · next h => cases h; exact absurd rfl h0
      · next h1 h2 => cases h1; cases h2; rfl
      all_goals simp_all
    have hn : ndiv (X.withDbl L) (toNum (X.withDbl L) a) (toNum (X.withDbl L) b) = .ok (.flt (Dbl.round (p / q))) := by
      have h1 : viaDbl Dbl.div (toNum (X.withDbl L) a) (toNum (X.withDbl L) b) = .ok (.flt (Dbl.round (p / q))) := by
        have := viaDbl_ok (f := Dbl.div) (stands_dbl X L ha hp) (stands_dbl X L hb hq)
        rw [hd] at this; exact this
      rcases hf with ⟨f, hf⟩ | ⟨f, hf⟩
      · rw [hf] at h1 ⊢
        rcases hb with ⟨j, hb, rfl⟩ | hb
        · rw [hb] at h1 ⊢
          have hj : j ≠ 0 := by rintro rfl; simp at h0
          unfold ndiv
          split
          · next h => cases h; exact absurd rfl hj
          · exact h1
        · rw [hb] at h1 ⊢; exact h1
      · rw [hf] at h1 ⊢
        have : ndiv (X.withDbl L) (toNum (X.withDbl L) a) (.flt f) = dblFn2 L.fn2 .div (toNum (X.withDbl L) a) (.flt f) := rfl
        rw [this]
        cases hA : toNum (X.withDbl L) a with
        | int i => rw [hA] at h1; exact h1
        | flt g => rw [hA] at h1; exact h1
    rw [hn]; rfl
  rw [this]
  exact delivers_round X L _

theorem half_dec : Dbl.round (⟨false, [0], some [5], none⟩ : Decimal).value = .fin (1 / 2) := by decide +kernel

/-- The operands of `0.5+3`: the hypotheses of the theorems above -/
example : Stands X L (s% "0.5") (1 / 2) ∧ Stands X L (s% "3") 3 ∧ IsFloat (1 / 2) ∧ IsFloat 3 ∧
    IsPoint (X.withDbl L) (s% "0.5") := by
  have h : toNum (X.withDbl L) (s% "0.5") = .flt (.fin (1 / 2)) := by
    have := toNum_decimal X L ⟨false, [0], some [5], none⟩ ⟨by decide, by decide, by decide, by intro s l h; cases h⟩
    exact this.trans (congrArg Num.flt half_dec)
  refine ⟨.inr h, .inl ⟨3, toNum_showInt _ 3, by norm_num⟩, ?_, ?_, _, h⟩
  · exact ⟨⟨1, -1, by norm_num, by norm_num, by norm_num⟩, by decide +kernel⟩
  · exact ⟨⟨3, 0, by norm_num, by norm_num, by norm_num⟩, by decide +kernel⟩

/-- **C90.** The quotient of two integers of any size is the exact quotient, rounded once; Pip dies with OverflowError if
that is too large. -/
theorem C90_div_int (i j : ℤ) (h0 : j ≠ 0) :
    (¬ Overflow ((i : ℚ) / j) → ∃ s t, opDIV (X.withDbl L) (ofInt i) (ofInt j) = .ok (.scalar s) ∧ Stands X L s t ∧
      Rounded ((i : ℚ) / j) t) ∧
    (Overflow ((i : ℚ) / j) → opDIV (X.withDbl L) (ofInt i) (ofInt j) = .error .overflow) := by
  have hn : ndiv (X.withDbl L) (.int i) (.int j) = (Dbl.ofRat ((i : ℚ) / j)).map .flt := by
    unfold ndiv
    split
    · next h => cases h; exact absurd rfl h0
    · show (if j = 0 then _ else _) = _
      rw [if_neg h0]
      cases Dbl.ofRat ((i : ℚ) / j) <;> rfl
  have ho : opDIV (X.withDbl L) (ofInt i) (ofInt j) =
      zeroDivNil (do return ofNum (X.withDbl L) (← (Dbl.ofRat ((i : ℚ) / j)).map .flt)) := by
    rw [← hn]
    show zeroDivNil (do return ofNum (X.withDbl L) (← ndiv (X.withDbl L) (toNum _ (showInt i)) (toNum _ (showInt j)))) = _
    rw [toNum_showInt, toNum_showInt]
  constructor
  · intro h
    obtain ⟨h1, h2⟩ := Dbl.round_fin h
    refine ⟨_, _, ?_, C89_write X L _ h2.1, h2⟩
    rw [ho]
    unfold Dbl.ofRat
    rw [h1]; rfl
  · intro h
    rw [ho]
    unfold Dbl.ofRat
    rw [Dbl.round_inf h]; rfl

theorem third : Dbl.round (((1 : ℤ) : ℚ) / ((3 : ℤ) : ℚ)) = .fin (6004799503160661 / 2 ^ 54) := by decide +kernel

/-- `1/3` is the float below a third, and it is written `0.3333333333333333`. -/
example : opDIV (X.withDbl L) (ofInt 1) (ofInt 3) = .ok (.scalar (s% "0.3333333333333333")) := by
  have h : opDIV (X.withDbl L) (ofInt 1) (ofInt 3) =
      .ok (ofNum (X.withDbl L) (.flt (.fin (6004799503160661 / 2 ^ 54)))) := by
    show zeroDivNil (do return ofNum (X.withDbl L) (← ndiv (X.withDbl L) (toNum _ (showInt 1)) (toNum _ (showInt 3)))) = _
    rw [toNum_showInt, toNum_showInt]
    have : ndiv (X.withDbl L) (.int 1) (.int 3) = .ok (.flt (.fin (6004799503160661 / 2 ^ 54))) := by
      show (do return Num.flt (← Dbl.ofRat (((1 : ℤ) : ℚ) / ((3 : ℤ) : ℚ)))) = _
      have : Dbl.ofRat (((1 : ℤ) : ℚ) / ((3 : ℤ) : ℚ)) = .ok (.fin (6004799503160661 / 2 ^ 54)) :=
        ofRat_eq third ⟨_, rfl⟩
      rw [this]; rfl
    rw [this]; rfl
  rw [h]
  exact congrArg (Except.ok ∘ Val.scalar) (numStr_of X L (by decide +kernel) rfl)

/-- **C90.** An exact quotient is exact: if `j` divides `i`, `i/j` is the integer, up to `2 ^ 53`. -/
theorem C90_div_exact (i j : ℤ) (h0 : j ≠ 0) (h : |i| ≤ 2 ^ 53) :
    opDIV (X.withDbl L) (ofInt (i * j)) (ofInt j) = .ok (ofInt i) := by
  have hj : (j : ℚ) ≠ 0 := by exact_mod_cast h0
  have hx : (((i * j : ℤ) : ℚ) / j) = i := by push_cast; field_simp
  have hd := Dbl.isDouble_int h
  have hn : ndiv (X.withDbl L) (.int (i * j)) (.int j) = .ok (.flt (.fin (i : ℚ))) := by
    unfold ndiv
    split
    · next h => cases h; exact absurd rfl h0
    · show (if j = 0 then _ else (do return Num.flt (← Dbl.ofRat (((i * j : ℤ) : ℚ) / j)))) = _
      rw [if_neg h0, hx]
      unfold Dbl.ofRat
      rw [Dbl.round_self hd]; rfl
  show zeroDivNil (do return ofNum (X.withDbl L) (← ndiv (X.withDbl L) (toNum _ (showInt _)) (toNum _ (showInt j)))) = _
  rw [toNum_showInt, toNum_showInt, hn]
  show Except.ok (Val.scalar (numStr (X.withDbl L) (.flt (.fin (i : ℚ))))) = _
  rw [numStr_int X L hd (lt_of_le_of_lt h (by norm_num))]
  rfl

/-- Integers that are no floats are rounded before they are added, so the sum is rounded twice and may not be the nearest:
9007199254740993 + 0.5 becomes 9007199254740992, although 9007199254740994 is nearer. -/
theorem C90_add_twice : opADD (X.withDbl L) (ofInt 9007199254740993) (.scalar (s% "0.5")) = .ok (ofInt 9007199254740992) ∧
    IsFloat 9007199254740994 ∧
    |(9007199254740993 + 1 / 2 : ℚ) - 9007199254740994| < |(9007199254740993 + 1 / 2 : ℚ) - 9007199254740992| := by
  refine ⟨?_, ⟨⟨4503599627370497, 1, by norm_num, by norm_num, by norm_num⟩, by decide +kernel⟩, by decide +kernel⟩
  have hh : toNum (X.withDbl L) (s% "0.5") = .flt (.fin (1 / 2)) := by
    have := toNum_decimal X L ⟨false, [0], some [5], none⟩ ⟨by decide, by decide, by decide, by intro s l h; cases h⟩
    exact this.trans (congrArg Num.flt half_dec)
  unfold ofInt
  rw [opADD_scalar, toNum_showInt, hh]
  have h : Num.dbl (.int 9007199254740993) = .ok (.fin 9007199254740992) := ofRat_eq (by decide +kernel) ⟨_, rfl⟩
  have hr : Dbl.round (9007199254740992 + 1 / 2) = .fin ((9007199254740992 : ℤ) : ℚ) := by decide +kernel
  have : nadd (X.withDbl L) (.int 9007199254740993) (.flt (.fin (1 / 2))) = .ok (.flt (.fin ((9007199254740992 : ℤ) : ℚ))) := by
    show viaDbl _ _ _ = _
    rw [viaDbl_ok h rfl]
    show Except.ok (Num.flt (Dbl.round (9007199254740992 + 1 / 2))) = _
    rw [hr]
  rw [this]
  exact congrArg (Except.ok ∘ Val.scalar) (C89_write_int X L 9007199254740992 (Dbl.isDouble_int (by norm_num)) (by norm_num))

end Pip
