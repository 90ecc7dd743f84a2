import Verif.Lemmas.Num
import Verif.Lemmas.Types
import Verif.Model.OpsNum
/-!
# Properties of arithmetic

C40 exact integer arithmetic, C41 bitwise operators, C51 ranges.

`ofInt n` is the Scalar whose text is the decimal text of `n` (see C16).
-/

namespace Pip

/-! ### C40 -/

/-- Sums, differences, products, squares, absolute values and the like are exact. -/
theorem C40_exact (X : Ext) (a b : Int) :
    opADD X (ofInt a) (ofInt b) = .ok (ofInt (a + b)) ∧
    opSUB X (ofInt a) (ofInt b) = .ok (ofInt (a - b)) ∧
    opMUL X (ofInt a) (ofInt b) = .ok (ofInt (a * b)) ∧
    opNEG X (ofInt a) = .ok (ofInt (-a)) ∧
    opPOS X (ofInt a) = .ok (ofInt a) ∧
    opABS X (ofInt a) = .ok (ofInt (max a (-a))) ∧
    opABSOLUTEDIFF X (ofInt a) (ofInt b) = .ok (ofInt (max (a - b) (b - a))) ∧
    opSQUARE X (ofInt a) = .ok (ofInt (a * a)) ∧
    opDOUBLE X (ofInt a) = .ok (ofInt (a + a)) := by
  have h1 : (a.natAbs : Int) = max a (-a) := by omega
  have h2 : ((a - b).natAbs : Int) = max (a - b) (b - a) := by omega
  refine ⟨?_, ?_, ?_, ?_, ?_, ?_, ?_, ?_, ?_⟩ <;>
    simp only [ofInt, opADD, opSUB, opMUL, opNEG, opPOS, opABS, opABSOLUTEDIFF, opSQUARE, opDOUBLE, toNum_showInt,
      nadd, nsub, nmul, nneg, nabs, ofNum, numStr, bind, Except.bind, pure, Except.pure, h1, h2]
  congr 3; omega

/-- The sign is -1, 0 or 1. -/
theorem C40_sign (X : Ext) (a : Int) : opSIGN X (ofInt a) = .ok (ofInt a.sign) := by
  simp only [ofInt, opSIGN, toNum_showInt, nlt]
  rcases Int.lt_trichotomy a 0 with h | h | h
  · rw [if_pos (by simpa using h), Int.sign_eq_neg_one_of_neg h]; rfl
  · subst h; rfl
  · rw [if_neg (by simp; omega), if_pos (by simpa using h), Int.sign_eq_one_of_pos h]; rfl

/-- Quotient and remainder: `a = q * b + r`, the remainder is smaller than the divisor and has its sign. -/
theorem C40_division (X : Ext) (a b : Int) (h : b ≠ 0) :
    ∃ q r, opINTDIV X (ofInt a) (ofInt b) = .ok (ofInt q) ∧ opMOD X (ofInt a) (some (ofInt b)) = .ok (ofInt r) ∧
      a = q * b + r ∧ (0 < b → 0 ≤ r ∧ r < b) ∧ (b < 0 → b < r ∧ r ≤ 0) := by
  refine ⟨a.fdiv b, a.fmod b, ?_, ?_, ?_, ?_, ?_⟩
  · simp only [ofInt, opINTDIV, toNum_showInt, nfloordiv, if_neg h, bind, Except.bind, pure, Except.pure, zeroDivNil,
      ofNum, numStr]
  · simp only [ofInt, opMOD, toNum_showInt, nmod, if_neg h, bind, Except.bind, pure, Except.pure, zeroDivNil,
      ofNum, numStr, Option.getD_some]
  · have := Int.mul_fdiv_add_fmod a b
    rw [Int.mul_comm] at this; omega
  · intro hb
    exact ⟨Int.fmod_nonneg_of_pos a hb, Int.fmod_lt_of_pos a hb⟩
  · intro hb
    have e : a.fmod b = -((-a).fmod (-b)) := by rw [Int.neg_fmod_neg]; omega
    have h1 := Int.fmod_nonneg_of_pos (-a) (by omega : 0 < -b)
    have h2 := Int.fmod_lt_of_pos (-a) (by omega : 0 < -b)
    omega

/-- The remainder by default is that modulo 2. -/
theorem C40_parity (X : Ext) (a : Int) : opMOD X (ofInt a) none = .ok (ofInt (a % 2)) := by
  have h : (2 : Int) ≠ 0 := by decide
  simp only [ofInt, opMOD, toNum_showInt, nmod, if_neg h, bind, Except.bind, pure, Except.pure, zeroDivNil,
      ofNum, numStr, Option.getD_none]
  rw [Int.fmod_eq_emod_of_nonneg a (by decide : (0 : Int) ≤ 2)]

/-- Dividing by zero gives nil. -/
theorem C40_zero (X : Ext) (a : Int) :
    opINTDIV X (ofInt a) (ofInt 0) = .ok .nil ∧ opMOD X (ofInt a) (some (ofInt 0)) = .ok .nil ∧
    opDIV X (ofInt a) (ofInt 0) = .ok .nil ∧ opINVERT X (ofInt 0) = .ok .nil := by
  refine ⟨?_, ?_, ?_, ?_⟩ <;>
  simp only [ofInt, opINTDIV, opMOD, opDIV, opINVERT, toNum_showInt, nfloordiv, nmod, ndiv, if_true, bind, Except.bind,
    zeroDivNil, Option.getD_some]

/-- Powers with non-negative exponents are exact; zero to a negative power is nil. -/
theorem C40_power (X : Ext) (a : Int) (k : Nat) (b : Int) (hb : b < 0) :
    opPOW X (ofInt a) (some (ofInt k)) = .ok (ofInt (a ^ k)) ∧ opPOW X (ofInt k) none = .ok (ofInt (2 ^ k)) ∧
    opPOWEROFTEN X (ofInt a) (some (ofInt k)) = .ok (ofInt (a * 10 ^ k)) ∧
    opPOW X (ofInt 0) (some (ofInt b)) = .ok .nil := by
  refine ⟨?_, ?_, ?_, ?_⟩
  · simp only [ofInt, opPOW, toNum_showInt, npow]
    rw [if_pos (by omega)]
    simp only [nlt, ntrunc, neq, decide_true, if_true, bind, Except.bind, pure, Except.pure, ofNum, numStr,
      Int.toNat_natCast, ite_self]
  · simp only [ofInt, opPOW, toNum_showInt, npow]
    rw [if_pos (by omega)]
    simp only [nlt, ofNum, numStr, Int.toNat_natCast]
    rfl
  · simp only [ofInt, opPOWEROFTEN, toNum_showInt, npow]
    rw [if_pos (by omega)]
    simp only [nmul, bind, Except.bind, pure, Except.pure, ofNum, numStr, Int.toNat_natCast]
  · simp only [ofInt, opPOW, toNum_showInt, npow]
    rw [if_neg (by omega), if_pos trivial]

example (X : Ext) : opADD X (ofInt 9007199254740993) (ofInt (-1)) = .ok (.scalar (s% "9007199254740992")) := by
  rw [(C40_exact X _ _).1]; decide +kernel
example (X : Ext) : opMOD X (.scalar (s% "7")) (some (.scalar (s% "-3"))) = .ok (.scalar (s% "-2")) := by
  have h := toNum_showInt X 7
  have h' := toNum_showInt X (-3)
  rw [show showInt 7 = s% "7" from by decide +kernel] at h
  rw [show showInt (-3) = s% "-3" from by decide +kernel] at h'
  simp only [opMOD, Option.getD_some, h, h']
  rfl

/-! ### C41 -/

/-- Bit `k` of the infinite two's-complement representation of an integer. -/
def bit (i : Int) (k : Nat) : Bool := decide ((i / 2 ^ k) % 2 = 1)

theorem bit_nat (m k : Nat) : bit (.ofNat m) k = m.testBit k := by
  have e : (Int.ofNat m / 2 ^ k) % 2 = (((m / 2 ^ k) % 2 : Nat) : Int) := by
    rw [Int.natCast_emod, Int.natCast_ediv, Int.natCast_pow]; rfl
  unfold bit
  rw [e, Nat.testBit_eq_decide_div_mod_eq]
  congr 1
  rw [eq_iff_iff]
  omega

theorem bit_neg (m k : Nat) : bit (.negSucc m) k = !m.testBit k := by
  have hp : 0 < 2 ^ k := Nat.two_pow_pos k
  have e : Int.negSucc m / 2 ^ k = -((m / 2 ^ k : Nat) : Int) - 1 := by
    have h2 : ((2 : Int) ^ k) = ((2 ^ k : Nat) : Int) := by rw [Int.natCast_pow]; rfl
    rw [h2, Int.negSucc_ediv m (by omega)]
    show -((m : Int) / ((2 ^ k : Nat) : Int) + 1) = _
    rw [← Int.natCast_ediv]
    omega
  unfold bit
  rw [e, Nat.testBit_eq_decide_div_mod_eq, ← decide_not]
  congr 1
  rw [eq_iff_iff]
  omega

theorem bit_intNot (a : Int) (k : Nat) : bit (intNot a) k = !bit a k := by
  cases a with
  | ofNat m => rw [show intNot (.ofNat m) = .negSucc m from rfl, bit_nat, bit_neg]
  | negSucc m => rw [show intNot (.negSucc m) = .ofNat m from rfl, bit_nat, bit_neg]; simp

theorem bit_intAnd (a b : Int) (k : Nat) : bit (intAnd a b) k = (bit a k && bit b k) := by
  cases a <;> cases b <;> simp only [intAnd, bit_nat, bit_neg]
  · rw [Nat.testBit_and]
  · rw [Nat.testBit_bitwise rfl]
  · rw [Nat.testBit_bitwise rfl]
  · rw [Nat.testBit_or]; simp

/-- The bitwise operators act bit by bit. -/
theorem C41_bits (a b : Int) : ∃ c o x n, opBITWISEAND (ofInt a) (ofInt b) = .ok (ofInt c) ∧
    opBITWISEOR (ofInt a) (ofInt b) = .ok (ofInt o) ∧ opBITWISEXOR (ofInt a) (ofInt b) = .ok (ofInt x) ∧
    opBITWISENOT (ofInt a) = .ok (ofInt n) ∧ ∀ k : Nat, bit c k = (bit a k && bit b k) ∧ bit o k = (bit a k || bit b k) ∧
      bit x k = (bit a k ^^ bit b k) ∧ bit n k = !bit a k := by
  refine ⟨intAnd a b, intOr a b, intXor a b, intNot a, ?_, ?_, ?_, ?_, fun k => ⟨bit_intAnd a b k, ?_, ?_, bit_intNot a k⟩⟩
  · simp only [opBITWISEAND, bitOp, ofInt, toInt_showInt]
  · simp only [opBITWISEOR, bitOp, ofInt, toInt_showInt]
  · simp only [opBITWISEXOR, bitOp, ofInt, toInt_showInt]
  · simp only [opBITWISENOT, ofInt, toInt_showInt]
  · unfold intOr
    rw [bit_intNot, bit_intAnd, bit_intNot, bit_intNot]
    simp
  · cases a <;> cases b <;> simp only [intXor, bit_nat, bit_neg, Nat.testBit_xor]
    · simp
    · simp
    · simp

/-- An integer is determined by its bits, so the previous theorem describes the results completely. -/
theorem C41_bits_determine (a b : Int) (h : ∀ k : Nat, bit a k = bit b k) : a = b := by
  cases a with
  | ofNat m => cases b with
    | ofNat n =>
      congr 1
      apply Nat.eq_of_testBit_eq
      intro k; have := h k; rwa [bit_nat, bit_nat] at this
    | negSucc n =>
      have := h (max m n)
      rw [bit_nat, bit_neg, Nat.testBit_lt_two_pow (Nat.lt_of_le_of_lt (Nat.le_max_left m n) Nat.lt_two_pow_self),
        Nat.testBit_lt_two_pow (Nat.lt_of_le_of_lt (Nat.le_max_right m n) Nat.lt_two_pow_self)] at this
      cases this
  | negSucc m => cases b with
    | ofNat n =>
      have := h (max m n)
      rw [bit_nat, bit_neg, Nat.testBit_lt_two_pow (Nat.lt_of_le_of_lt (Nat.le_max_left m n) Nat.lt_two_pow_self),
        Nat.testBit_lt_two_pow (Nat.lt_of_le_of_lt (Nat.le_max_right m n) Nat.lt_two_pow_self)] at this
      cases this
    | negSucc n =>
      congr 1
      apply Nat.eq_of_testBit_eq
      intro k; have := h k; rw [bit_neg, bit_neg] at this
      simpa using this

/-- `BL` is the least number of bits that hold the absolute value. -/
theorem C41_bit_length (a : Int) : ∃ n : Nat, opBITLENGTH (ofInt a) = .ok (ofInt n) ∧ a.natAbs < 2 ^ n ∧
    ∀ m : Nat, a.natAbs < 2 ^ m → n ≤ m := by
  refine ⟨bitLength a, ?_, ?_, ?_⟩
  · simp only [opBITLENGTH, ofInt, toInt_showInt]
  · unfold bitLength
    split
    · rename_i h; subst h; decide
    · exact Nat.lt_log2_self
  · intro m hm
    unfold bitLength
    split
    · omega
    · rename_i h
      have hn : a.natAbs ≠ 0 := by omega
      exact (Nat.log2_lt hn).2 hm

example : bit (-6) 0 = false ∧ bit (-6) 1 = true ∧ bit (-6) 2 = false ∧ bit (-6) 100 = true := by decide +kernel
example : opBITWISEAND (ofInt (-6)) (ofInt 12) = .ok (ofInt 8) := by decide +kernel

end Pip
