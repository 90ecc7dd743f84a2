import Verif.Props.Multiples
import Verif.Props.FloatMod
import Mathlib.Analysis.Real.Pi.Bounds
/-!
# C107: logarithms, trigonometric functions, roots and powers

What the functions of the C library return is a parameter (`Libm`); the properties say which function is applied to which
number, for which numbers there is no result, and what happens to it.
-/

namespace Pip
open Floats
variable {X : Ext} {L : Libm X.Rng}

/-! ### Vocabulary -/

/-- The number of the interpreter that has the value `p`: an integer or a float -/
def HasValue (n : Num Dbl) (p : ℚ) : Prop := (∃ i : ℤ, n = .int i ∧ p = i) ∨ n = .flt (.fin p)

/-- The library's function `f` gives the float `y` for the number `p`. -/
def LibGives (L : Libm X.Rng) (f : F1) (p y : ℚ) : Prop :=
  (∀ n, HasValue n p → L.fn1 f n = .ok (.flt (.fin y))) ∧ IsFloat y

/-- The library's function `f` of two numbers -/
def LibGives2 (L : Libm X.Rng) (f : F2) (p q y : ℚ) : Prop :=
  (∀ n m, HasValue n p → HasValue m q → L.fn2 f n m = .ok (.flt (.fin y))) ∧ IsFloat y

/-- The operators that are functions of the library -/
def plainFunctions : List (Str × F1) :=
  [(s% "SI", .sin), (s% "CO", .cos), (s% "TA", .tan), (s% "AT", .atan), (s% "EX", .exp)]

/-- The logarithms, to the bases e, 2 and 10 -/
def logarithms : List (Str × F1) := [(s% "LN", .log), (s% "LB", .log2), (s% "LD", .log10)]

/-- The reciprocals: secant, cosecant, cotangent -/
def reciprocals : List (Str × F1) := [(s% "SE", .cos), (s% "CS", .sin), (s% "CT", .tan)]

theorem stands_value {a : Str} {p : ℚ} (h : Stands X L a p) : HasValue (toNum (X.withDbl L) a) p := h

theorem value_lt {n m : Num Dbl} {p q : ℚ} (hn : HasValue n p) (hm : HasValue m q) :
    nlt (X.withDbl L) n m = decide (p < q) := by
  rcases hn with ⟨i, rfl, rfl⟩ | rfl <;> rcases hm with ⟨j, rfl, rfl⟩ | rfl
  · show decide (i < j) = _
    simp
  all_goals rfl

theorem value_eq {n m : Num Dbl} {p q : ℚ} (hn : HasValue n p) (hm : HasValue m q) :
    neq (X.withDbl L) n m = decide (p = q) := by
  rcases hn with ⟨i, rfl, rfl⟩ | rfl <;> rcases hm with ⟨j, rfl, rfl⟩ | rfl
  · show decide (i = j) = _
    simp
  all_goals rfl

theorem value_int (i : ℤ) : HasValue (.int i) i := .inl ⟨i, rfl, rfl⟩

theorem value_lt0 {n : Num Dbl} {p : ℚ} (hn : HasValue n p) : nlt (X.withDbl L) n (.int 0) = decide (p < 0) := by
  rw [value_lt hn (value_int 0)]; simp

theorem value_0lt {n : Num Dbl} {p : ℚ} (hn : HasValue n p) : nlt (X.withDbl L) (.int 0) n = decide (0 < p) := by
  rw [value_lt (value_int 0) hn]; simp

theorem vals1 {X : Ext} {n : Str} {k : Takes} {g : Val → E Val} (h : (n, k, fun a => val (g a)) ∈ unarySyms X) {a : Tree}
    {s s1 : St X} {v u : Val} (ha : a.notOpr = true) (hv : Vals a s (.ok v, s1)) (hk : k.ok v = true) (hg : g v = .ok u) :
    Vals (.node (op1 n) [a]) s (.ok u, s1) :=
  C73_value_unary n k _ h a s s1 v u ha hv hk (congrArg val hg)

theorem vals2 {X : Ext} {n : Str} {k : Takes} {g : Val → Val → E Val} (h : (n, k, fun a b => val (g a b)) ∈ binarySyms X)
    {a b : Tree} {s s1 s2 : St X} {v w u : Val} (ha : a.notOpr = true) (hb : b.notOpr = true) (hv : Vals a s (.ok v, s1))
    (hw : Vals b s1 (.ok w, s2)) (hk : k.ok v = true) (hk' : k.ok w = true) (hg : g v w = .ok u) :
    Vals (.node (op2 n) [a, b]) s (.ok u, s2) :=
  C73_value_binary n k _ h a b s s1 s2 v w u ha hb hv hw hk hk' (congrArg val hg)

theorem ndiv_one {y : ℚ} (h : y ≠ 0) : ndiv (X.withDbl L) (.int 1) (.flt (.fin y)) = .ok (.flt (Dbl.round (1 / y))) := by
  show viaDbl Dbl.div _ _ = _
  rw [viaDbl_ok (x := .fin 1) (y := .fin y) (by decide +kernel) rfl]
  simp [Dbl.div, h, Except.map]

theorem ndiv_one_zero : ndiv (X.withDbl L) (.int 1) (.flt (.fin 0)) = .error .zeroDivision := by
  show viaDbl Dbl.div _ _ = _
  rw [viaDbl_ok (x := .fin 1) (y := .fin 0) (by decide +kernel) rfl]
  rfl

theorem npow_flt (n : Num Dbl) (f : Dbl) : npow (X.withDbl L) n (.flt f) = L.fn2 .pow n (.flt f) := by
  cases n <;> rfl

/-- There is at most one float for an exact result. -/
theorem rounded_unique {x r y : ℚ} (h : Rounded x r) (h' : Rounded x y) : r = y := by
  by_contra hne
  have e : |x - y| = |x - r| := le_antisymm (h'.2.1 _ h.1) (h.2.1 _ h'.1)
  obtain ⟨k, hk⟩ := h.2.2 y h'.1 (fun e => hne e.symm) e
  obtain ⟨j, hj⟩ := h'.2.2 r h.1 hne e.symm
  rw [e] at hj
  have hd : 0 < |x - r| := by
    rw [abs_pos]
    intro h0
    rw [h0, abs_zero, abs_eq_zero] at e
    exact hne (by linarith)
  generalize hg : |x - r| = d at *
  have hs : r - y = 2 * d ∨ r - y = -(2 * d) := by
    rcases abs_eq_abs.1 (e.trans hg.symm) with h1 | h1
    · exact absurd (by linarith) hne
    · rcases abs_cases (x - r) with ⟨h2, _⟩ | ⟨h2, _⟩
      · right; linarith
      · left; linarith
  have h2 : ((2 * (k - j) : ℤ) : ℚ) * (2 * d) = r - y := by rw [hk, hj]; push_cast; ring
  have h2d : (2 * d : ℚ) ≠ 0 := by linarith
  rcases hs with h3 | h3
  · have : ((2 * (k - j) : ℤ) : ℚ) = 1 := mul_right_cancel₀ h2d (by linarith)
    have : 2 * (k - j) = 1 := by exact_mod_cast this
    omega
  · have : ((2 * (k - j) : ℤ) : ℚ) = -1 := mul_right_cancel₀ h2d (by linarith)
    have : 2 * (k - j) = -1 := by exact_mod_cast this
    omega

/-- The reciprocal of a number -/
theorem ndiv_recip {n : Num Dbl} {p t : ℚ} (hn : HasValue n p) (h0 : p ≠ 0) (ho : ¬ Overflow (1 / p)) (ht : Rounded (1 / p) t) :
    ndiv (X.withDbl L) (.int 1) n = .ok (.flt (.fin t)) := by
  obtain ⟨h1, h2⟩ := Dbl.round_fin ho
  have e : Dbl.rnd (1 / p) = t := rounded_unique h2 ht
  rw [e] at h1
  rcases hn with ⟨i, rfl, rfl⟩ | rfl
  · have hi : i ≠ 0 := by exact_mod_cast h0
    have : ndiv (X.withDbl L) (.int 1) (.int i) = (do return .flt (← Dbl.ofRat (((1 : ℤ) : ℚ) / i)) : E (Num Dbl)) := by
      unfold ndiv
      split
      · next h => cases h; exact absurd rfl hi
      · show (if i = 0 then _ else _) = _
        rw [if_neg hi]
    rw [this, ofRat_eq (f := .fin t) (by push_cast; exact h1) ⟨_, rfl⟩]
    rfl
  · rw [ndiv_one h0, h1]

theorem dbl_180 : Num.dbl (.int 180) = .ok (.fin 180) := by decide +kernel

/-- The float that the interpreter takes for π -/
def piFloat : ℚ := 884279719003555 / 281474976710656

section
variable (a : Tree) (s s1 : St (X.withDbl L)) (x : Str) (p y : ℚ) (ha : a.notOpr = true)
  (hv : Vals a s (.ok (.scalar x), s1)) (hx : Stands X L x p)
include ha hv hx

/-! ### One number -/

/-- Sine, cosine, tangent, arc tangent and the exponential function give the library's float. -/
theorem C107_function (n : Str) (f : F1) (h : (n, f) ∈ plainFunctions) (hy : LibGives L f p y) :
    ∃ t, Vals (.node (op1 n) [a]) s (.ok (.scalar t), s1) ∧ Stands X L t y := by
  refine ⟨_, ?_, C89_write X L y hy.2⟩
  simp only [plainFunctions, List.mem_cons, List.not_mem_nil, or_false, Prod.mk.injEq] at h
  rcases h with ⟨rfl, rfl⟩ | ⟨rfl, rfl⟩ | ⟨rfl, rfl⟩ | ⟨rfl, rfl⟩ | ⟨rfl, rfl⟩
  all_goals
    refine vals1 (by row) ha hv rfl ?_
    have := hy.1 _ (stands_value hx)
    simp only [opSINE, opCOSINE, opTANGENT, opARCTAN, opEXPONENTIAL, mathOp]
    show (do return ofNum (X.withDbl L) (← L.fn1 _ (toNum (X.withDbl L) x)) : E Val) = _
    rw [this]
    rfl

/-- The logarithm of a positive number is the library's float for the right base. -/
theorem C107_log (n : Str) (f : F1) (h : (n, f) ∈ logarithms) (hp : 0 < p) (hy : LibGives L f p y) :
    ∃ t, Vals (.node (op1 n) [a]) s (.ok (.scalar t), s1) ∧ Stands X L t y := by
  refine ⟨_, ?_, C89_write X L y hy.2⟩
  simp only [logarithms, List.mem_cons, List.not_mem_nil, or_false, Prod.mk.injEq] at h
  rcases h with ⟨rfl, rfl⟩ | ⟨rfl, rfl⟩ | ⟨rfl, rfl⟩
  all_goals
    refine vals1 (by row) ha hv rfl ?_
    have := hy.1 _ (stands_value hx)
    simp only [opNATURALLOG, opBINARYLOG, opDECIMALLOG, logOp]
    rw [value_0lt (stands_value hx), if_pos (by simpa using hp)]
    show (do return ofNum (X.withDbl L) (← L.fn1 _ (toNum (X.withDbl L) x)) : E Val) = _
    rw [this]
    rfl

/-- Zero and negative numbers have no logarithm. -/
theorem C107_log_none (n : Str) (hn : n ∈ [s% "LN", s% "LB", s% "LD"]) (hp : p ≤ 0) :
    Vals (.node (op1 n) [a]) s (.ok .nil, s1) := by
  simp only [List.mem_cons, List.not_mem_nil, or_false] at hn
  rcases hn with rfl | rfl | rfl
  all_goals
    refine vals1 (by row) ha hv rfl ?_
    simp only [opNATURALLOG, opBINARYLOG, opDECIMALLOG, logOp]
    rw [value_0lt (stands_value hx), if_neg (by simpa using hp)]

/-- Secant, cosecant and cotangent are the rounded reciprocals. -/
theorem C107_reciprocal (n : Str) (f : F1) (h : (n, f) ∈ reciprocals) (hy : LibGives L f p y) (h0 : y ≠ 0) :
    ∃ r, Delivers X L (1 / y) (.ok r) ∧ Vals (.node (op1 n) [a]) s (.ok r, s1) := by
  refine ⟨_, delivers_round X L (1 / y), ?_⟩
  simp only [reciprocals, List.mem_cons, List.not_mem_nil, or_false, Prod.mk.injEq] at h
  rcases h with ⟨rfl, rfl⟩ | ⟨rfl, rfl⟩ | ⟨rfl, rfl⟩
  all_goals
    refine vals1 (by row) ha hv rfl ?_
    have := hy.1 _ (stands_value hx)
    simp only [opSECANT, opCOSEC, opCOTAN, recipOp]
    show (do return ofNum (X.withDbl L) (← ndiv (X.withDbl L) (.int 1) (← L.fn1 _ (toNum (X.withDbl L) x))) : E Val) = _
    rw [this]
    show (do return ofNum (X.withDbl L) (← ndiv (X.withDbl L) (.int 1) (.flt (.fin y))) : E Val) = _
    rw [ndiv_one h0]
    rfl

/-- Where the function is zero, the division is not caught: the interpreter itself fails (`CT 0`). -/
theorem C107_reciprocal_zero (n : Str) (f : F1) (h : (n, f) ∈ reciprocals) (hy : LibGives L f p 0) :
    Evals (.node (op1 n) [a]) s (.error .zeroDivision, s1) := by
  have e : ∀ f, dblFn1 L.fn1 f (toNum (X.withDbl L) x) = .ok (.flt (.fin 0)) →
      recipOp (X.withDbl L) f (.scalar x) = .error .zeroDivision := by
    intro f hf
    simp only [recipOp]
    show (do return ofNum (X.withDbl L) (← ndiv (X.withDbl L) (.int 1) (← dblFn1 L.fn1 f (toNum (X.withDbl L) x))) : E Val) = _
    rw [hf]
    show (do return ofNum (X.withDbl L) (← ndiv (X.withDbl L) (.int 1) (.flt (.fin 0))) : E Val) = _
    rw [ndiv_one_zero]
    rfl
  simp only [reciprocals, List.mem_cons, List.not_mem_nil, or_false, Prod.mk.injEq] at h
  rcases h with ⟨rfl, rfl⟩ | ⟨rfl, rfl⟩ | ⟨rfl, rfl⟩
  on_goal 1 => have e := e .cos (hy.1 _ (stands_value hx))
  on_goal 2 => have e := e .sin (hy.1 _ (stands_value hx))
  on_goal 3 => have e := e .tan (hy.1 _ (stands_value hx))
  all_goals
    refine (C73_unary _ _ _ (by row) a s s1 _ ha hv rfl ?_ _).2 ?_
    · simp only [opSECANT, opCOSEC, opCOTAN, e, val]; simp
    · simp only [opSECANT, opCOSEC, opCOTAN, e, val]; rfl

/-- The square root of a negative number is nil. -/
theorem C107_sqrt_none (hp : p < 0) : Vals (.node (op1 (s% "RT")) [a]) s (.ok .nil, s1) := by
  refine vals1 (by row) ha hv rfl ?_
  simp only [opSQRT]
  rw [value_lt0 (stands_value hx), if_pos (by simpa using hp)]

/-- Other square roots are powers with the exponent one half. -/
theorem C107_sqrt (hp : 0 ≤ p) (hy : LibGives2 L .pow p (1 / 2) y) :
    ∃ t, Vals (.node (op1 (s% "RT")) [a]) s (.ok (.scalar t), s1) ∧ Stands X L t y := by
  refine ⟨_, ?_, C89_write X L y hy.2⟩
  refine vals1 (by row) ha hv rfl ?_
  simp only [opSQRT]
  rw [value_lt0 (stands_value hx), if_neg (by simpa using hp)]
  have hh : half (X.withDbl L) = .flt (.fin (1 / 2)) := by
    exact congrArg Num.flt (show Dbl.parse (s% "0.5") = .fin (1 / 2) by decide +kernel)
  have : npow (X.withDbl L) (toNum (X.withDbl L) x) (half (X.withDbl L)) = .ok (.flt (.fin y)) := by
    rw [hh, npow_flt, hy.1 _ _ (stands_value hx) (.inr rfl)]
  rw [this]
  rfl

/-! ### Angles -/

/-- Degrees to radians: the float nearest to a 180th, times π, rounded again -/
theorem C107_radians (hp : IsFloat p) : ∃ q r, Rounded (p / 180) q ∧ Delivers X L (q * piFloat) (.ok r) ∧
    Vals (.node (op1 (s% "RD")) [a]) s (.ok r, s1) := by
  have ho : ¬ Overflow (p / 180) := by
    unfold Overflow
    rw [abs_div]
    have := hp.2
    have h2 : |p| / |(180 : ℚ)| < 2 ^ 1024 / 180 := by
      rw [abs_of_pos (by norm_num : (0 : ℚ) < 180)]
      exact div_lt_div_of_pos_right this (by norm_num)
    exact not_le.2 (lt_trans h2 (by decide +kernel))
  obtain ⟨h1, h2⟩ := Dbl.round_fin ho
  refine ⟨_, _, h2, delivers_round X L _, ?_⟩
  refine vals1 (by row) ha hv rfl ?_
  have hd : ndiv (X.withDbl L) (toNum (X.withDbl L) x) (.int 180) = .ok (.flt (.fin (Dbl.rnd (p / 180)))) := by
    rw [← h1]
    rcases hx with ⟨i, hi, rfl⟩ | hi <;> rw [hi]
    · show (do return Num.flt (← Dbl.ofRat ((i : ℚ) / (180 : ℤ))) : E (Num Dbl)) = _
      rw [ofRat_eq (f := .fin (Dbl.rnd (i / 180))) (by push_cast; exact h1) ⟨_, rfl⟩, h1]
      rfl
    · show viaDbl Dbl.div _ _ = _
      rw [viaDbl_ok (x := .fin p) (y := .fin 180) rfl dbl_180, Dbl.div_fin (by norm_num)]
      rfl
  simp only [opRADIANS]
  rw [hd]
  rfl

/-- Radians to degrees: the float nearest to the quotient by π, times 180, rounded again -/
theorem C107_degrees (hp : IsFloat p) : ∃ q r, Rounded (p / piFloat) q ∧ Delivers X L (q * 180) (.ok r) ∧
    Vals (.node (op1 (s% "DG")) [a]) s (.ok r, s1) := by
  have ho : ¬ Overflow (p / piFloat) := by
    unfold Overflow piFloat
    rw [abs_div]
    have := hp.2
    have h2 : |p| / |(884279719003555 / 281474976710656 : ℚ)| < 2 ^ 1024 / 2 := by
      rw [abs_of_pos (by norm_num : (0 : ℚ) < 884279719003555 / 281474976710656)]
      exact div_lt_div₀ this (by norm_num) (by positivity) (by norm_num)
    exact not_le.2 (lt_trans h2 (by decide +kernel))
  obtain ⟨h1, h2⟩ := Dbl.round_fin ho
  refine ⟨_, _, h2, delivers_round X L _, ?_⟩
  refine vals1 (by row) ha hv rfl ?_
  have hd : ndiv (X.withDbl L) (toNum (X.withDbl L) x) (.flt dblPi) = .ok (.flt (.fin (Dbl.rnd (p / piFloat)))) := by
    rw [← h1]
    have : ndiv (X.withDbl L) (toNum (X.withDbl L) x) (.flt dblPi) = viaDbl Dbl.div (toNum (X.withDbl L) x) (.flt dblPi) := by
      rcases hx with ⟨i, hi, rfl⟩ | hi <;> rw [hi] <;> rfl
    rw [this, viaDbl_ok (x := .fin p) (y := .fin piFloat) (stands_dbl X L hx hp) rfl, Dbl.div_fin (by norm_num [piFloat])]
    rfl
  simp only [opDEGREES]
  show (do return ofNum (X.withDbl L) (← nmul (X.withDbl L) (← ndiv (X.withDbl L) (toNum (X.withDbl L) x) (.flt dblPi)) (.int 180)) : E Val) = _
  rw [hd]
  show (do return ofNum (X.withDbl L) (← nmul (X.withDbl L) (.flt (.fin (Dbl.rnd (p / piFloat)))) (.int 180)) : E Val) = _
  have : nmul (X.withDbl L) (.flt (.fin (Dbl.rnd (p / piFloat)))) (.int 180) = .ok (.flt (Dbl.round (Dbl.rnd (p / piFloat) * 180))) := by
    show viaDbl (fun x y => .ok (x.mul y)) _ _ = _
    rw [viaDbl_ok (x := .fin (Dbl.rnd (p / piFloat))) (y := .fin 180) rfl dbl_180]
    rfl
  rw [this]
  rfl

end

/-- No float is nearer to π. -/
theorem C107_pi : IsFloat piFloat ∧ ∀ y, IsFloat y → |Real.pi - piFloat| ≤ |Real.pi - y| := by
  constructor
  · refine ⟨⟨884279719003555, -48, by norm_num, by norm_num, by norm_num [piFloat]⟩, by decide +kernel⟩
  · rintro y ⟨⟨m, e, hm, _, he⟩, _⟩
    by_contra hc
    rw [not_le] at hc
    have h1 := Real.pi_gt_d20
    have h2 := Real.pi_lt_d20
    have hf : |Real.pi - piFloat| < 125 / 10 ^ 18 := by
      rw [abs_lt]; unfold piFloat; push_cast; constructor <;> norm_num <;> linarith
    have hy := lt_trans hc hf
    have hfy : |y - piFloat| < 25 / 10 ^ 17 := by
      have : |(y : ℝ) - piFloat| < 25 / 10 ^ 17 := by
        rw [abs_lt] at hf hy ⊢
        constructor <;> linarith [hf.1, hf.2, hy.1, hy.2]
      have h3 : ((|y - piFloat| : ℚ) : ℝ) < ((25 / 10 ^ 17 : ℚ) : ℝ) := by push_cast; exact this
      exact_mod_cast h3
    rw [abs_lt] at hfy
    by_cases hE : -51 ≤ e
    · obtain ⟨k, hk⟩ : ∃ k : ℤ, y = k * 2 ^ (-51 : ℤ) := by
        refine ⟨m * 2 ^ (e + 51).toNat, ?_⟩
        rw [he]
        have : (2 : ℚ) ^ e = 2 ^ (e + 51).toNat * 2 ^ (-51 : ℤ) := by
          rw [← zpow_natCast, Int.toNat_of_nonneg (by omega), ← zpow_add₀ (by norm_num)]
          congr 1; ring
        rw [this]; push_cast; ring
      have hpf : piFloat = 7074237752028440 * 2 ^ (-51 : ℤ) := by norm_num [piFloat]
      have hkd : |(k : ℚ) - 7074237752028440| < 1 := by
        rw [hk, hpf] at hfy
        have e1 : (2 : ℚ) ^ (-51 : ℤ) = 1 / 2251799813685248 := by norm_num
        rw [e1] at hfy
        rw [abs_lt]
        constructor <;> linarith [hfy.1, hfy.2]
      have : k = 7074237752028440 := by
        have h5 : |k - 7074237752028440| < 1 := by exact_mod_cast hkd
        have := Int.abs_lt_one_iff.1 h5
        omega
      have hyf : y = piFloat := by rw [hk, hpf, this]; norm_num
      rw [hyf] at hc
      exact lt_irrefl _ hc
    · have h3 : (3 : ℚ) < y := by
        have : (3.1 : ℚ) < piFloat := by norm_num [piFloat]
        linarith [hfy.1]
      have h4 : y ≤ 2 := by
        rw [he]
        have hm' : (m : ℚ) ≤ 2 ^ 53 := by exact_mod_cast (abs_le.1 hm).2
        calc (m : ℚ) * 2 ^ e ≤ 2 ^ 53 * 2 ^ e := mul_le_mul_of_nonneg_right hm' (by positivity)
          _ ≤ 2 ^ 53 * 2 ^ (-52 : ℤ) := mul_le_mul_of_nonneg_left (zpow_le_zpow_right₀ (by norm_num) (by omega)) (by positivity)
          _ = 2 := by norm_num
      linarith

/-! ### Two numbers -/

section
variable (a b : Tree) (s s1 s2 : St (X.withDbl L)) (x z : Str) (p q y : ℚ) (ha : a.notOpr = true) (hb : b.notOpr = true)
  (hv : Vals a s (.ok (.scalar x), s1)) (hw : Vals b s1 (.ok (.scalar z), s2)) (hx : Stands X L x p) (hz : Stands X L z q)
include ha hb hv hw hx hz

/-- The arc tangent of two numbers: first the ordinate, then the abscissa -/
theorem C107_atan2 (hy : LibGives2 L .atan2 p q y) :
    ∃ t, Vals (.node (op2 (s% "AT")) [a, b]) s (.ok (.scalar t), s2) ∧ Stands X L t y := by
  refine ⟨_, ?_, C89_write X L y hy.2⟩
  refine vals2 (g := fun a b => opARCTAN (X.withDbl L) a (some b)) (by row) ha hb hv hw rfl rfl ?_
  simp only [opARCTAN]
  show (do return ofNum (X.withDbl L) (← L.fn2 .atan2 (toNum (X.withDbl L) x) (toNum (X.withDbl L) z)) : E Val) = _
  rw [hy.1 _ _ (stands_value hx) (stands_value hz)]
  rfl

omit hz in
/-- There is no zeroth root. -/
theorem C107_root_zero (hp : p = 0) : Vals (.node (op2 (s% "RT")) [a, b]) s (.ok .nil, s2) := by
  refine vals2 (by row) ha hb hv hw rfl rfl ?_
  simp only [opROOT]
  rw [value_eq (stands_value hx) (value_int 0), if_pos (by simpa using hp)]

/-- A root of a negative number is nil if the reciprocal of its index is not an integer. -/
theorem C107_root_none (h0 : p ≠ 0) (ho : ¬ Overflow (1 / p)) {t : ℚ} (ht : Rounded (1 / p) t) (hi : ∀ i : ℤ, t ≠ i) (hq : q < 0) :
    Vals (.node (op2 (s% "RT")) [a, b]) s (.ok .nil, s2) := by
  refine vals2 (by row) ha hb hv hw rfl rfl ?_
  simp only [opROOT]
  rw [value_eq (stands_value hx) (value_int 0), if_neg (by simpa using h0), value_lt0 (stands_value hz),
    if_pos (by simpa using hq), ndiv_recip (stands_value hx) h0 ho ht]
  have hne : t ≠ ((Dbl.truncRat t : ℤ) : ℚ) := hi _
  have : neq (X.withDbl L) (.int (Dbl.truncRat t)) (.flt (.fin t)) = false := by
    rw [value_eq (value_int _) (.inr rfl)]
    simpa using fun e => hne e.symm
  show (if !(neq (X.withDbl L) (.int (Dbl.truncRat t)) (.flt (.fin t))) then pure Val.nil
    else zeroDivNil (do return ofNum (X.withDbl L) (← npow (X.withDbl L) (toNum (X.withDbl L) z) (.flt (.fin t)))) : E Val) = _
  rw [this]
  rfl

/-- Other roots are powers whose exponent is the float nearest to the reciprocal of the index. -/
theorem C107_root (h0 : p ≠ 0) (ho : ¬ Overflow (1 / p)) {t : ℚ} (ht : Rounded (1 / p) t) (hi : 0 ≤ q ∨ ∃ i : ℤ, t = i)
    (hy : LibGives2 L .pow q t y) :
    ∃ u, Vals (.node (op2 (s% "RT")) [a, b]) s (.ok (.scalar u), s2) ∧ Stands X L u y := by
  refine ⟨_, ?_, C89_write X L y hy.2⟩
  refine vals2 (by row) ha hb hv hw rfl rfl ?_
  have hd := ndiv_recip (X := X) (L := L) (stands_value hx) h0 ho ht
  simp only [opROOT]
  rw [value_eq (stands_value hx) (value_int 0), if_neg (by simpa using h0), value_lt0 (stands_value hz), hd]
  have hpow : (do return ofNum (X.withDbl L) (← npow (X.withDbl L) (toNum (X.withDbl L) z) (.flt (.fin t))) : E Val) =
      .ok (ofNum (X.withDbl L) (.flt (.fin y))) := by
    rw [npow_flt, hy.1 _ _ (stands_value hz) (.inr rfl)]
    rfl
  split
  · next hlt =>
    have hlt : q < 0 := by simpa using hlt
    obtain ⟨i, rfl⟩ := hi.resolve_left (not_le.2 hlt)
    have htr : Dbl.truncRat (i : ℚ) = i := by
      unfold Dbl.truncRat
      split
      · exact Rat.ceil_intCast i
      · exact Rat.floor_intCast i
    have : neq (X.withDbl L) (.int (Dbl.truncRat i)) (.flt (.fin i)) = true := by
      rw [value_eq (value_int _) (.inr rfl), htr]
      simp
    show (if !(neq (X.withDbl L) (.int (Dbl.truncRat i)) (.flt (.fin i))) then pure Val.nil
      else zeroDivNil (do return ofNum (X.withDbl L) (← npow (X.withDbl L) (toNum (X.withDbl L) z) (.flt (.fin i)))) : E Val) = _
    rw [this, hpow]
    rfl
  · show zeroDivNil (do return ofNum (X.withDbl L) (← npow (X.withDbl L) (toNum (X.withDbl L) z) (.flt (.fin t)))) = _
    rw [hpow]
    rfl

/-- A power of a negative number with an exponent that is no integer is nil, whatever the library makes of it. -/
theorem C107_pow_none (n : Str) (hn : n ∈ [s% "**", s% "E"]) (hp : p < 0) (hq : ∀ i : ℤ, q ≠ i)
    (hr : ∀ m, HasValue m p → ∃ r, L.fn2 .pow m (.flt (.fin q)) = .ok r) :
    Vals (.node (op2 n) [a, b]) s (.ok .nil, s2) := by
  have hz' : toNum (X.withDbl L) z = .flt (.fin q) := by
    rcases hz with ⟨i, _, h⟩ | h
    · exact absurd h (hq i)
    · exact h
  have key : opPOW (X.withDbl L) (.scalar x) (some (.scalar z)) = .ok .nil := by
    obtain ⟨r, hr⟩ := hr _ (stands_value hx)
    simp only [opPOW]
    rw [hz', npow_flt, hr]
    simp only
    rw [value_lt0 (stands_value hx), if_pos (by simpa using hp)]
    show (if neq (X.withDbl L) (.int (Dbl.truncRat q)) (.flt (.fin q)) = true then pure (ofNum (X.withDbl L) r) else pure .nil : E Val) = _
    rw [value_eq (value_int _) (.inr rfl), if_neg (by simpa using fun e : _ = q => hq _ e.symm)]
    rfl
  simp only [List.mem_cons, List.not_mem_nil, or_false] at hn
  rcases hn with rfl | rfl <;>
    exact vals2 (g := fun a b => opPOW (X.withDbl L) a (some b)) (by row) ha hb hv hw rfl rfl key

/-- Other powers with a float, and negative integer powers, are the library's floats. -/
theorem C107_pow (n : Str) (hn : n ∈ [s% "**", s% "E"]) (hd : 0 ≤ p ∨ ∃ i : ℤ, q = i)
    (hf : IsPoint (X.withDbl L) x ∨ IsPoint (X.withDbl L) z ∨ (p ≠ 0 ∧ q < 0)) (hy : LibGives2 L .pow p q y) :
    ∃ u, Vals (.node (op2 n) [a, b]) s (.ok (.scalar u), s2) ∧ Stands X L u y := by
  refine ⟨_, ?_, C89_write X L y hy.2⟩
  have hpow : npow (X.withDbl L) (toNum (X.withDbl L) x) (toNum (X.withDbl L) z) = .ok (.flt (.fin y)) := by
    rw [← hy.1 _ _ (stands_value hx) (stands_value hz)]
    rcases hx with ⟨i, hi, rfl⟩ | hi <;> rcases hz with ⟨j, hj, rfl⟩ | hj <;> rw [hi, hj]
    · rcases hf with ⟨f, h⟩ | ⟨f, h⟩ | ⟨h1, h2⟩
      · rw [hi] at h; cases h
      · rw [hj] at h; cases h
      · have h1 : i ≠ 0 := by exact_mod_cast h1
        have h2 : j < 0 := by exact_mod_cast h2
        show (if 0 ≤ j then _ else if i = 0 then _ else _) = _
        rw [if_neg (by omega), if_neg h1]
        rfl
    all_goals rfl
  have key : opPOW (X.withDbl L) (.scalar x) (some (.scalar z)) = .ok (ofNum (X.withDbl L) (.flt (.fin y))) := by
    simp only [opPOW]
    rw [hpow]
    simp only
    rw [value_lt0 (stands_value hx)]
    split
    · next hlt =>
      have hlt : p < 0 := by simpa using hlt
      obtain ⟨i, rfl⟩ := hd.resolve_left (not_le.2 hlt)
      have htr : ∃ m : ℤ, ntrunc (X.withDbl L) (toNum (X.withDbl L) z) = .ok (.int m) ∧ m = i := by
        rcases hz with ⟨j, hj, h⟩ | hj <;> rw [hj]
        · exact ⟨j, rfl, by exact_mod_cast h.symm⟩
        · refine ⟨Dbl.truncRat i, rfl, ?_⟩
          unfold Dbl.truncRat
          split
          · exact Rat.ceil_intCast i
          · exact Rat.floor_intCast i
      obtain ⟨m, hm, rfl⟩ := htr
      rw [hm]
      show (if neq (X.withDbl L) (.int m) (toNum (X.withDbl L) z) = true then pure (ofNum (X.withDbl L) _) else pure .nil : E Val) = _
      rw [value_eq (value_int _) (stands_value hz), if_pos (by simp)]
      rfl
    · rfl
  simp only [List.mem_cons, List.not_mem_nil, or_false] at hn
  rcases hn with rfl | rfl <;>
    exact vals2 (g := fun a b => opPOW (X.withDbl L) a (some b)) (by row) ha hb hv hw rfl rfl key

/-- Powers of ten with a float or a negative exponent: the first number times the library's power, rounded -/
theorem C107_ten (hp : IsFloat p) (hf : IsPoint (X.withDbl L) z ∨ q < 0) (hy : LibGives2 L .pow 10 q y) :
    ∃ r, Delivers X L (p * y) (.ok r) ∧ Vals (.node (op2 (s% "EE")) [a, b]) s (.ok r, s2) := by
  refine ⟨_, delivers_round X L (p * y), ?_⟩
  refine vals2 (g := fun a b => opPOWEROFTEN (X.withDbl L) a (some b)) (by row) ha hb hv hw rfl rfl ?_
  have hpow : npow (X.withDbl L) (.int 10) (toNum (X.withDbl L) z) = .ok (.flt (.fin y)) := by
    rw [← hy.1 _ _ (value_int 10) (stands_value hz)]
    rcases hz with ⟨j, hj, rfl⟩ | hj <;> rw [hj]
    · rcases hf with ⟨f, h⟩ | h2
      · rw [hj] at h; cases h
      · have h2 : j < 0 := by exact_mod_cast h2
        show (if 0 ≤ j then _ else if (10 : ℤ) = 0 then _ else _) = _
        rw [if_neg (by omega), if_neg (by decide)]
        rfl
    · rfl
  simp only [opPOWEROFTEN]
  rw [hpow]
  have : nmul (X.withDbl L) (toNum (X.withDbl L) x) (.flt (.fin y)) = .ok (.flt (Dbl.round (p * y))) := by
    have e : nmul (X.withDbl L) (toNum (X.withDbl L) x) (.flt (.fin y)) =
        viaDbl (fun x y => .ok (x.mul y)) (toNum (X.withDbl L) x) (.flt (.fin y)) := by
      cases toNum (X.withDbl L) x <;> rfl
    rw [e, viaDbl_ok (x := .fin p) (y := .fin y) (stands_dbl X L hx hp) rfl]
    rfl
  show (do return ofNum (X.withDbl L) (← nmul (X.withDbl L) (toNum (X.withDbl L) x) (.flt (.fin y))) : E Val) = _
  rw [this]
  rfl

end

/-! ### Operands that are no numbers -/

/-- nil and Patterns have no image under any of these. -/
theorem C107_other {X : Ext} (n : Str) (hn : n ∈ [s% "SI", s% "CO", s% "TA", s% "SE", s% "CS", s% "CT", s% "AT", s% "RD", s% "DG",
    s% "RT", s% "EX", s% "LN", s% "LB", s% "LD", s% "EE", s% "**", s% "E"]) (a : Tree) (s s1 : St X) (v : Val)
    (ha : a.notOpr = true) (hv : Vals a s (.ok v, s1)) (h : v = .nil ∨ ∃ r f, v = .pattern r f) :
    Vals (.node (op1 n) [a]) s (.ok .nil, s1) := by
  simp only [List.mem_cons, List.not_mem_nil, or_false] at hn
  rcases h with rfl | ⟨r, f, rfl⟩ <;>
    rcases hn with rfl | rfl | rfl | rfl | rfl | rfl | rfl | rfl | rfl | rfl | rfl | rfl | rfl | rfl | rfl | rfl | rfl <;>
    exact C73_value_unary _ _ _ (by row) a s s1 _ _ ha hv rfl rfl

/-! ### Cases -/

/-- A library whose functions are constant: it shows which function has been called. -/
def constLib : Libm toyExt.Rng where
  fn1 f _ := .ok (.flt (.fin (match f with
    | .sin => 1 / 2 | .cos => 1 / 4 | .tan => 0 | .atan => 3 / 4 | .exp => 5 / 2 | .log => 7 / 2 | .log2 => 9 / 2 | .log10 => 11 / 2 | _ => 1)))
  fn2 f _ _ := .ok (.flt (.fin (match f with | .pow => 1 / 8 | .atan2 => 3 / 8 | _ => 1)))
  random r := (.fin 0, r)

def constOut (text : Str) : Option (Option Exc × Str) :=
  match compile text with
  | .ok (.block stmts ret) =>
    match executeProgram (run (toyExt.withDbl constLib) 60) (stmts ++ [ret]) [] (St.init (toyExt.withDbl constLib) [] ()) with
    | (.ok _, s) => some (none, s.out)
    | (.error e, s) => some (some e, s.out)
  | _ => none

theorem dyadic_float (m : ℤ) (k : ℕ) (hm : |m| ≤ 2 ^ 53) (hk : k ≤ 3) : IsFloat (m / 2 ^ k) := by
  refine ⟨⟨m, -k, hm, by omega, ?_⟩, ?_⟩
  · rw [zpow_neg, div_eq_mul_inv, zpow_natCast]
  · have h1 : |(m : ℚ)| ≤ 2 ^ 53 := by exact_mod_cast hm
    have h2 : |(m : ℚ) / 2 ^ k| ≤ |(m : ℚ)| := by
      rw [abs_div, abs_of_pos (show (0 : ℚ) < 2 ^ k by positivity)]
      exact div_le_self (abs_nonneg _) (one_le_pow₀ (by norm_num))
    exact lt_of_le_of_lt (h2.trans h1) (pow_lt_pow_right₀ (by norm_num) (by norm_num))

theorem eighth_float (m : ℤ) (x : ℚ) (hm : |m| ≤ 2 ^ 53) (h : x = m / 8) : IsFloat x := by
  have := dyadic_float m 3 hm le_rfl
  rw [h]
  norm_num at this ⊢
  exact this

theorem one_is_float : IsFloat (1 / 2) ∧ IsFloat (1 / 8) ∧ IsFloat (3 / 8) ∧ IsFloat (7 / 2) ∧ IsFloat 0 :=
  ⟨eighth_float 4 _ (by norm_num) (by norm_num), eighth_float 1 _ (by norm_num) (by norm_num),
    eighth_float 3 _ (by norm_num) (by norm_num), eighth_float 28 _ (by norm_num) (by norm_num),
    eighth_float 0 _ (by norm_num) (by norm_num)⟩

/-- The hypotheses about the library hold of this one. -/
example (p : ℚ) : LibGives constLib .sin p (1 / 2) ∧ LibGives constLib .tan p 0 ∧ LibGives constLib .log p (7 / 2) :=
  ⟨⟨fun _ _ => rfl, one_is_float.1⟩, ⟨fun _ _ => rfl, one_is_float.2.2.2.2⟩, ⟨fun _ _ => rfl, one_is_float.2.2.2.1⟩⟩

example (p q : ℚ) : LibGives2 constLib .pow p q (1 / 8) ∧ LibGives2 constLib .atan2 p q (3 / 8) :=
  ⟨⟨fun _ _ _ _ => rfl, one_is_float.2.1⟩, ⟨fun _ _ _ _ => rfl, one_is_float.2.2.1⟩⟩

example : constOut (s% "P SI2 P CO2 P TA2 P AT2 EX2") = some (none, s% "0.5\n0.25\n0\n0.75\n2.5\n") := by decide +kernel
example : constOut (s% "P LN2 P LB2 P LD2 P LN0 LD-1") = some (none, s% "3.5\n4.5\n5.5\n") := by decide +kernel
example : constOut (s% "P SE2 CS2") = some (none, s% "4\n2\n") := by decide +kernel
example : constOut (s% "P 1 CT2") = some (some .zeroDivision, s% "1\n") := by decide +kernel
example : constOut (s% "P RT2 P RT-2 P 3RT5 P 3RT-5 P 0RT5 1AT2") = some (none, s% "0.125\n0.125\n0.375\n") := by
  decide +kernel
example : constOut (s% "P 2**0.5 P (-2)**0.5 P (-2)**-1 2E2.0") = some (none, s% "0.125\n0.125\n0.125\n") := by
  decide +kernel
example : constOut (s% "P 24EE-3 5EE2") = some (none, s% "3\n500\n") := by decide +kernel
example : constOut (s% "P RD180 P RD90 DG1") = some (none, s% "3.141592653589793\n1.5707963267948966\n57.29577951308232\n") := by
  decide +kernel
example : constOut (s% "SI`a`") = some (none, s% "") := by decide +kernel

end Pip
