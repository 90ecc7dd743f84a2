import Verif.Lemmas.Bases
import Verif.Lemmas.Types
/-!
# Properties of base conversion and ranges

C38 `TB`/`FB`, C39 `TD`/`FD`, C51 ranges.
-/

namespace Pip

/-! ### C38 -/

/-- The text of `n` in base `b`: a minus sign for negative numbers, then digits below `b` whose value is `|n|`, without
leading zero (the text of 0 is `0`). -/
theorem C38_text (n : Int) (b : Nat) (hb : 2 ≤ b) (hb' : b ≤ 36) :
    ∃ ds : List Nat, opTOBASE (ofInt n) (some (ofInt b)) =
        .ok (.scalar ((if n < 0 then ['-'] else []) ++ ds.map fun d =>
          (s% "0123456789ABCDEFGHIJKLMNOPQRSTUVWXYZ").getD d '?')) ∧
      (∀ d ∈ ds, d < b) ∧ ds.foldl (fun acc d => acc * b + d) 0 = n.natAbs ∧
      ((n = 0 ∧ ds = [0]) ∨ (n ≠ 0 ∧ ∃ d l, ds = d :: l ∧ 0 < d)) := by
  have hbase : baseArg (some (ofInt b)) = some (b : Int) := by simp only [baseArg, ofInt, toInt_showInt]
  simp only [opTOBASE, hbase]
  rw [if_neg (by omega)]
  by_cases hn : n = 0
  · refine ⟨[0], ?_, by simp; omega, by subst hn; simp, .inl ⟨hn, rfl⟩⟩
    subst hn
    simp only [ofInt, toInt_showInt, if_true]
    rfl
  · refine ⟨digs b n.natAbs, ?_, digs_lt b _ hb, digs_val b _ hb, .inr ⟨hn, digs_head b _ hb (by omega)⟩⟩
    simp only [ofInt, toInt_showInt, if_neg hn, Int.toNat_natCast]
    rw [toBaseLoop_eq b hb _ _ _ (Nat.le_refl _), List.append_nil]
    rfl

/-- Reading the text back gives the number. -/
theorem C38_round_trip (n : Int) (b : Nat) (hb : 2 ≤ b) (hb' : b ≤ 36) :
    ∃ s, opTOBASE (ofInt n) (some (ofInt b)) = .ok (.scalar s) ∧
      opFROMBASE (.scalar s) (some (ofInt b)) = .ok (ofInt n) := by
  have hbase : baseArg (some (ofInt b)) = some (b : Int) := by simp only [baseArg, ofInt, toInt_showInt]
  by_cases hn : n = 0
  · subst hn
    refine ⟨s% "0", ?_, ?_⟩
    · simp only [opTOBASE, hbase]
      rw [if_neg (by omega)]
      simp only [ofInt, toInt_showInt, if_true]
    · simp only [opFROMBASE, hbase]
      rw [if_neg (by omega)]
      have e1 : replaceStr (s% "_") (s% " ") (s% "0") = s% "0" := by decide
      have e2 : ∀ b : Nat, 2 ≤ b → pyIntBase b (s% "0") = some 0 := by
        intro b hb
        have h1 : ((List.dropWhile intSpace (s% "0")).reverse.dropWhile intSpace).reverse = s% "0" := by decide
        have h2 : takeSign (s% "0") = (false, s% "0") := rfl
        have h3 : baseDigits b (s% "0") 0 = some 0 := by
          have : baseDigit? '0' = some 0 := by decide +kernel
          simp only [baseDigits, this]
          rw [if_pos (by omega)]; simp
        simp only [pyIntBase, h1, h2, dropPrefix, h3]
        rfl
      simp only [List.isEmpty_cons, Bool.false_eq_true, if_false, e1, Int.toNat_natCast, e2 b hb]
  · refine ⟨(if n < 0 then ['-'] else []) ++ (digs b n.natAbs).map b36, ?_, ?_⟩
    · simp only [opTOBASE, hbase]
      rw [if_neg (by omega)]
      simp only [ofInt, toInt_showInt, if_neg hn, Int.toNat_natCast]
      rw [toBaseLoop_eq b hb _ _ _ (Nat.le_refl _), List.append_nil]
      rfl
    · have hpos : 0 < n.natAbs := by omega
      obtain ⟨d, l, e, -⟩ := digs_head b _ hb hpos
      have key := pyIntBase_text b hb hb' (decide (n < 0)) n.natAbs hpos
      simp only [decide_eq_true_eq] at key
      have hne : ((if n < 0 then ['-'] else []) ++ (digs b n.natAbs).map b36).isEmpty = false := by
        rw [e]; split <;> rfl
      have hus : '_' ∉ (if n < 0 then ['-'] else []) ++ (digs b n.natAbs).map b36 := by
        intro hm
        rcases List.mem_append.1 hm with hm | hm
        · split at hm <;> simp at hm
        · obtain ⟨x, hx, hx2⟩ := List.mem_map.1 hm
          exact (b36_facts x (Nat.lt_of_lt_of_le (digs_lt b _ hb x hx) hb')).2.2.1 hx2
      simp only [opFROMBASE, hbase]
      rw [if_neg (by omega)]
      simp only [hne, Bool.false_eq_true, if_false, replaceStr_none '_' _ _ hus, Int.toNat_natCast, key]
      congr 2
      split <;> omega

/-- Bases outside 2..36 give nil. -/
theorem C38_bad_base (n b : Int) (h : b < 2 ∨ b > 36) :
    opTOBASE (ofInt n) (some (ofInt b)) = .ok .nil ∧ opFROMBASE (ofInt n) (some (ofInt b)) = .ok .nil := by
  have hbase : baseArg (some (ofInt b)) = some b := by simp only [baseArg, ofInt, toInt_showInt]
  constructor
  · simp only [opTOBASE, hbase, if_pos h]
  · simp only [opFROMBASE, hbase, if_pos h]

example : opTOBASE (.scalar (s% "-255")) (some (.scalar (s% "16"))) = .ok (.scalar (s% "-FF")) := by decide +kernel
example : opFROMBASE (.scalar (s% "-ff")) (some (.scalar (s% "16"))) = .ok (.scalar (s% "-255")) := by decide +kernel

/-! ### C39 -/

/-- The digits of `n` in base `b`: below `b` in absolute value, all with the sign of `n`, the first not zero, with value
`n`. -/
theorem C39_digits (n : Int) (b : Nat) (hb : 2 ≤ b) :
    ∃ ds : List Nat, opTODIGITS (some (ofInt b)) (ofInt n) =
        .ok (.list (ds.map fun d : Nat => ofInt (if n < 0 then -(d : Int) else d))) ∧
      (∀ d ∈ ds, d < b) ∧ ds.foldl (fun acc d => acc * b + d) 0 = n.natAbs ∧ ds.head? ≠ some 0 := by
  refine ⟨digs b n.natAbs, ?_, digs_lt b _ hb, digs_val b _ hb, ?_⟩
  · simp only [opTODIGITS, ofInt, baseArg, toInt_showInt, digitsOf]
    rw [if_neg (by omega), Int.toNat_natCast, toDigitsLoop_eq b _ hb _ _ _ (Nat.le_refl _), List.append_nil]
    congr 3
    funext d
    split <;> simp [ofInt]
  · by_cases h : n = 0
    · subst h; simp [digs]
    · obtain ⟨d, l, e, hd⟩ := digs_head b n.natAbs hb (by omega)
      rw [e]; simp; omega

/-- Reading the digits back gives the number. -/
theorem C39_round_trip (X : Ext) (n : Int) (b : Nat) (hb : 2 ≤ b) :
    ∃ l, opTODIGITS (some (ofInt b)) (ofInt n) = .ok (.list l) ∧
      opFROMDIGITS X (.list l) (some (ofInt b)) = .ok (ofInt n) := by
  refine ⟨toDigitsLoop b (if n < 0 then -1 else 1) n.natAbs n.natAbs [], ?_, ?_⟩
  · simp only [opTODIGITS, ofInt, baseArg, toInt_showInt, digitsOf]
    rw [if_neg (by omega), Int.toNat_natCast]
  · rw [toDigitsLoop_eq b _ hb _ _ _ (Nat.le_refl _), List.append_nil]
    simp only [opFROMDIGITS, ofInt, toNum_showInt, Val.isIterable, if_true, Val.pyList, Val.iter, bind, Except.bind,
      pure, Except.pure]
    have e : (List.map (fun d : Nat => Val.scalar (showInt ((if n < 0 then -1 else 1) * (d : Int)))) (digs b n.natAbs)).reverse =
        ((digs b n.natAbs).map fun d : Nat => (if n < 0 then -1 else 1) * (d : Int)).reverse.map ofInt := by
      rw [← List.map_reverse, ← List.map_reverse, List.map_map]; rfl
    rw [e, fromDigitsLoop_eq, lsd_reverse, digs_val b _ hb]
    simp only [ofNum, numStr, Int.pow_zero, Int.zero_add, Int.one_mul]
    congr 3
    split <;> omega

example : opTODIGITS (some (ofInt 10)) (.scalar (s% "-305")) = .ok (.list [ofInt (-3), ofInt 0, ofInt (-5)]) := by
  decide +kernel

/-! ### C51 -/

/-- The Scalars of the `n` integers from `a` on. -/
def countUp (a : Int) (n : Nat) : List Val := (List.range n).map fun k : Nat => ofInt (a + k)

theorem intsFrom_countUp (a : Int) (n : Nat) : (intsFrom a n).map ofInt = countUp a n := by
  apply List.ext_getElem?
  intro i
  by_cases h : i < n
  · simp [List.getElem?_map, intsFrom_get a n i h, countUp, List.getElem?_range, h]
  · rw [List.getElem?_eq_none (by rw [List.length_map, intsFrom_length]; omega),
      List.getElem?_eq_none (by simp [countUp]; omega)]

/-- `a,b` iterates over `a ≤ i < b` in order, `,b` over `0 ≤ i < b`, `a\,b` over `a ≤ i ≤ b`, `\,b` over
`1 ≤ i ≤ b`. -/
theorem C51_members (a b : Int) :
    (opRANGE (ofInt a) (ofInt b) >>= Val.items) = .ok (countUp a (b - a).toNat) ∧
    (opRANGETO (ofInt b) >>= Val.items) = .ok (countUp 0 b.toNat) ∧
    (∃ v, opINCLRANGE (ofInt a) (ofInt b) = .ok (some v) ∧ v.items = .ok (countUp a (b + 1 - a).toNat)) ∧
    (opINCLRANGETO (ofInt b) >>= Val.items) = .ok (countUp 1 b.toNat) := by
  refine ⟨?_, ?_, ?_, ?_⟩
  · simp only [opRANGE, ofInt, Val.isScalar, Bool.true_or, Bool.and_self, if_true, rangeOf, toInt_showInt, bind,
      Except.bind, pure, Except.pure, Val.items, Val.iter, rangeInts, lo0, Option.getD_some]
    rw [← intsFrom_countUp]
  · simp only [opRANGETO, ofInt, toInt_showInt, bind, Except.bind, Val.items, Val.iter, rangeInts, lo0, Option.getD_none,
      Int.sub_zero]
    rw [← intsFrom_countUp]
  · refine ⟨.range (some a) (some (b + 1)), ?_, ?_⟩
    · simp only [opINCLRANGE, ofInt, Val.isScalar, Bool.true_or, if_true, rangeOf, toInt_showInt, bind,
        Except.bind, pure, Except.pure]
    · simp only [Val.items, Val.iter, rangeInts, lo0, Option.getD_some]
      rw [← intsFrom_countUp]
  · simp only [opINCLRANGETO, ofInt, toInt_showInt, bind, Except.bind, Val.items, Val.iter, rangeInts, lo0,
      Option.getD_some]
    rw [← intsFrom_countUp, show b + 1 - 1 = b by omega]

/-- A missing upper bound (nil) makes the Range infinite, a missing lower bound is 0. -/
theorem C51_nil_bounds (a : Int) :
    opRANGE (ofInt a) .nil = .ok (.range (some a) none) ∧ opRANGE .nil (ofInt a) = .ok (.range none (some a)) ∧
    (Val.range none (some a)).items = .ok (countUp 0 a.toNat) := by
  refine ⟨?_, ?_, ?_⟩
  · simp only [opRANGE, ofInt, rangeOf, toInt_showInt]; rfl
  · simp only [opRANGE, ofInt, rangeOf, toInt_showInt]; rfl
  · simp only [Val.items, Val.iter, rangeInts, lo0, Option.getD_none, Int.sub_zero]
    rw [← intsFrom_countUp]

/-- Adding or subtracting an integer shifts a finite Range. -/
theorem C51_shift (X : Ext) (a b k : Int) :
    opADD X (.range (some a) (some b)) (ofInt k) = .ok (.range (some (a + k)) (some (b + k))) ∧
    opADD X (ofInt k) (.range (some a) (some b)) = .ok (.range (some (a + k)) (some (b + k))) ∧
    opSUB X (.range (some a) (some b)) (ofInt k) = .ok (.range (some (a - k)) (some (b - k))) := by
  refine ⟨?_, ?_, ?_⟩ <;>
    simp [opADD, opSUB, addRange, ofInt, toNum_showInt, toInt_showInt, neq, mkRange, lo0]

/-- Deviation: adding an integer to an infinite Range gives a finite one, with the shifted start as upper bound. -/
theorem C51_shift_infinite_deviation (X : Ext) (a k : Int) :
    opADD X (.range (some a) none) (ofInt k) = .ok (.range none (some (a + k))) ∧
    opSUB X (.range (some a) none) (ofInt k) = .ok (.range none (some (a - k))) := by
  constructor <;> simp [opADD, opSUB, addRange, ofInt, toNum_showInt, toInt_showInt, neq, mkRange, lo0]

/-- Deviation: `a\,b` tests the type of its left operand only; with a List on the right it returns no value at all. -/
theorem C51_inclusive_range_deviation (a : Int) (l : List Val) : opINCLRANGE (ofInt a) (.list l) = .ok none := rfl

example : (opRANGE (ofInt (-1)) (ofInt 2) >>= Val.items) = .ok [ofInt (-1), ofInt 0, ofInt 1] := by decide +kernel

end Pip
