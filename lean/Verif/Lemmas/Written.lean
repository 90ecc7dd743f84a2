import Verif.Lemmas.Shortest
import Verif.Props.Float
import Mathlib.Data.Nat.Digits.Lemmas
/-! The form of the texts of floats. -/

namespace Pip
open Floats
namespace Written

theorem denotes_append (a b : List ℕ) : denotes (a ++ b) = denotes a * 10 ^ b.length + denotes b := by
  unfold denotes
  rw [List.reverse_append, Nat.ofDigits_append, List.length_reverse]
  ring

theorem denotes_zeros (n : ℕ) (l : List ℕ) : denotes (List.replicate n 0 ++ l) = denotes l := by
  induction n with
  | zero => rfl
  | succ n ih =>
    rw [List.replicate_succ, List.cons_append, ← List.singleton_append, denotes_append, ih]
    simp [denotes]

/-- Digits without a zero in front -/
structure Lead (l : List ℕ) : Prop where
  head : ∃ c t, l = c :: t ∧ c ≠ 0
  lt : ∀ x ∈ l, x < 10

theorem Lead.ne {l : List ℕ} (h : Lead l) : l ≠ [] := by
  obtain ⟨c, t, rfl, _⟩ := h.head
  simp

theorem Lead.bounds {l : List ℕ} (h : Lead l) : 10 ^ (l.length - 1) ≤ denotes l ∧ denotes l < 10 ^ l.length := by
  obtain ⟨⟨c, t, rfl, hc⟩, hl⟩ := h
  constructor
  · rw [← List.singleton_append, denotes_append]
    have : denotes [c] = c := by simp [denotes]
    rw [this]
    simp only [List.length_append, List.length_singleton]
    rw [show 1 + t.length - 1 = t.length by omega]
    calc 10 ^ t.length = 1 * 10 ^ t.length := (one_mul _).symm
      _ ≤ c * 10 ^ t.length := Nat.mul_le_mul_right _ (by omega)
      _ ≤ _ := Nat.le_add_right _ _
  · have := Nat.ofDigits_lt_base_pow_length (b := 10) (l := (c :: t).reverse) (by norm_num) (by
      intro x hx
      exact hl x (List.mem_reverse.1 hx))
    rwa [List.length_reverse] at this

theorem natDigits_lead {n : ℕ} (h : 0 < n) : Lead (natDigits 10 n) ∧ denotes (natDigits 10 n) = n := by
  obtain ⟨d, l, e, h1, -⟩ := natDigits_head 10 n (by omega)
  have hl := natDigits_lt 10 n (by omega)
  refine ⟨⟨⟨d, l, e, by have := h1 h; omega⟩, hl⟩, ?_⟩
  have := parseNat_showNat n
  rw [← parseNat_digits hl]
  exact this

theorem Lead.natDigits {l : List ℕ} (h : Lead l) : natDigits 10 (denotes l) = l := by
  have key : ∀ {l : List ℕ}, Lead l → Nat.digits 10 (denotes l) = l.reverse := by
    intro l h
    unfold denotes
    refine Nat.digits_ofDigits 10 (by norm_num) _ (fun x hx => h.lt x (List.mem_reverse.1 hx)) fun hne => ?_
    obtain ⟨⟨c, t, rfl, hc⟩, _⟩ := h
    simpa using hc
  have hpos : 0 < denotes l := lt_of_lt_of_le (by positivity) h.bounds.1
  obtain ⟨h1, h2⟩ := natDigits_lead hpos
  have a := key h
  have b := key h1
  rw [h2, a] at b
  exact List.reverse_injective b.symm

theorem Lead.showNat {l : List ℕ} (h : Lead l) : showNat (denotes l) = digits l := by
  unfold Pip.showNat
  rw [h.natDigits]
  rfl

/-- A list with a last digit that is not zero -/
theorem last_mod {l : List ℕ} (h : l.getLast?.any (· ≠ 0) = true) (hl : ∀ x ∈ l, x < 10) : l ≠ [] ∧ denotes l % 10 ≠ 0 := by
  induction l using List.reverseRecOn with
  | nil => cases h
  | append_singleton l d _ =>
    refine ⟨by simp, ?_⟩
    rw [List.getLast?_concat] at h
    have hd : d ≠ 0 := by simpa using h
    have := hl d (by simp)
    rw [denotes_append]
    have e : denotes [d] = d := by simp [denotes]
    rw [e, List.length_singleton]
    omega

theorem mod_last {l : List ℕ} (hl : ∀ x ∈ l, x < 10) (hn : l ≠ []) (h : denotes l % 10 ≠ 0) : l.getLast?.any (· ≠ 0) = true := by
  induction l using List.reverseRecOn with
  | nil => exact absurd rfl hn
  | append_singleton l d _ =>
    rw [List.getLast?_concat]
    rw [denotes_append] at h
    have e : denotes [d] = d := by simp [denotes]
    rw [e, List.length_singleton] at h
    have hd : d ≠ 0 := by
      rintro rfl
      omega
    simpa using hd

theorem last_append {a b : List ℕ} (h : b.getLast?.any (· ≠ 0) = true) : (a ++ b).getLast?.any (· ≠ 0) = true := by
  rw [List.getLast?_append]
  cases hb : b.getLast? with
  | none => rw [hb] at h; cases h
  | some x => rw [hb] at h; simpa using h

/-- The bounds of the number with the digits `l` and the point after `k` of them -/
theorem bounds {l : List ℕ} (h : Lead l) (p : ℤ) :
    (10 : ℚ) ^ (l.length + p - 1) ≤ denotes l * 10 ^ p ∧ (denotes l : ℚ) * 10 ^ p < 10 ^ (l.length + p) := by
  obtain ⟨h1, h2⟩ := h.bounds
  have hl : 0 < l.length := List.length_pos_iff.2 h.ne
  have hp := Dbl.ten_pos p
  constructor
  · rw [show (l.length : ℤ) + p - 1 = ((l.length - 1 : ℕ) : ℤ) + p by omega, Dbl.ten_add, Dbl.ten_nat]
    exact mul_le_mul_of_nonneg_right (by exact_mod_cast h1) hp.le
  · rw [Dbl.ten_add, Dbl.ten_nat]
    exact mul_lt_mul_of_pos_right (by exact_mod_cast h2) hp

/-- The place of the point for the two forms -/
theorem small_iff {l : List ℕ} (h : Lead l) (p : ℤ) : 1 / 10 ^ 4 ≤ (denotes l : ℚ) * 10 ^ p ↔ -4 < l.length + p := by
  obtain ⟨h1, h2⟩ := bounds h p
  have e : (1 : ℚ) / 10 ^ 4 = 10 ^ (-4 : ℤ) := by rw [zpow_neg]; norm_num
  rw [e]
  constructor
  · intro h
    exact (zpow_lt_zpow_iff_right₀ (by norm_num : (1 : ℚ) < 10)).1 (lt_of_le_of_lt h h2)
  · intro h
    exact (Dbl.ten_le (by omega)).trans h1

theorem large_iff {l : List ℕ} (h : Lead l) (p : ℤ) : (denotes l : ℚ) * 10 ^ p < 10 ^ 16 ↔ l.length + p ≤ 16 := by
  obtain ⟨h1, h2⟩ := bounds h p
  have e : (10 : ℚ) ^ 16 = 10 ^ (16 : ℤ) := by norm_num
  rw [e]
  constructor
  · intro h
    have := (zpow_lt_zpow_iff_right₀ (by norm_num : (1 : ℚ) < 10)).1 (lt_of_le_of_lt h1 h)
    omega
  · intro h
    exact lt_of_lt_of_le h2 (Dbl.ten_le (by omega))

/-- The number and the last digit determine the digits. -/
theorem unique {d d' : ℕ} {p p' : ℤ} (h : (d : ℚ) * 10 ^ p = d' * 10 ^ p') (hd : d % 10 ≠ 0) (hd' : d' % 10 ≠ 0) : d = d' ∧ p = p' := by
  have key : ∀ {d d' : ℕ} {p p' : ℤ}, (d : ℚ) * 10 ^ p = d' * 10 ^ p' → d % 10 ≠ 0 → ¬ p < p' := by
    intro d d' p p' h hd hlt
    have hp := (Dbl.ten_pos p).ne'
    have : (d : ℚ) = ((d' * 10 ^ (p' - p).toNat : ℕ) : ℚ) := by
      refine mul_right_cancel₀ hp ?_
      rw [h, Nat.cast_mul, mul_assoc, ← Dbl.ten_nat, ← Dbl.ten_add]
      congr 2
      omega
    have : d = d' * 10 ^ (p' - p).toNat := by exact_mod_cast this
    obtain ⟨n, hn⟩ : ∃ n, (p' - p).toNat = n + 1 := ⟨(p' - p).toNat - 1, by omega⟩
    rw [hn, pow_succ, ← mul_assoc] at this
    omega
  have h1 := key h hd
  have h2 := key h.symm hd'
  have hp : p = p' := by omega
  subst hp
  exact ⟨by exact_mod_cast mul_right_cancel₀ (Dbl.ten_pos p).ne' h, rfl⟩

/-- The exponent as a list of digits -/
def expDigits (e : ℤ) : List ℕ := (if e.natAbs < 10 then [0] else []) ++ Pip.natDigits 10 e.natAbs

theorem showExp_digits (e : ℤ) : Dbl.showExp e = (if e < 0 then '-' else '+') :: digits (expDigits e) := by
  unfold Dbl.showExp expDigits
  by_cases h1 : e < 0 <;> by_cases h2 : e.natAbs < 10 <;> simp [h1, h2, digits, Pip.showNat] <;> rfl

theorem denotes_exp (e : ℤ) (h : e ≠ 0) : denotes (expDigits e) = e.natAbs := by
  have := (natDigits_lead (n := e.natAbs) (by omega)).2
  unfold expDigits
  split
  · exact (denotes_zeros 1 _).trans this
  · exact this

/-- Digits of an exponent in the usual form -/
theorem exp_unique {l : List ℕ} (hl : ∀ x ∈ l, x < 10) (h2 : 2 ≤ l.length) (hh : 2 < l.length → l.head? ≠ some 0) {e : ℤ}
    (he : e.natAbs = denotes l) (h0 : e ≠ 0) : expDigits e = l := by
  unfold expDigits
  match l, h2, hl, hh, he with
  | [a, b], _, hl, _, he =>
    have ha := hl a (by simp)
    have hb := hl b (by simp)
    have hd : denotes [a, b] = a * 10 + b := by simp [denotes, Nat.ofDigits_cons]; ring
    rw [hd] at he
    split
    next h =>
      have : a = 0 := by omega
      subst this
      have hlead : Lead [b] := ⟨⟨b, [], rfl, by omega⟩, by simpa using hb⟩
      have := hlead.natDigits
      rw [show denotes [b] = b by simp [denotes]] at this
      rw [he, Nat.zero_mul, Nat.zero_add, this]
      rfl
    next h =>
      have hlead : Lead [a, b] := ⟨⟨a, [b], rfl, by omega⟩, by simp; omega⟩
      have := hlead.natDigits
      rw [hd] at this
      rw [he, this]
      rfl
  | a :: b :: c :: l, _, hl, hh, he =>
    have hlead : Lead (a :: b :: c :: l) := ⟨⟨a, _, rfl, by simpa using hh (by simp)⟩, hl⟩
    have := hlead.bounds.1
    rw [if_neg, he, hlead.natDigits]
    · rfl
    · rw [he]
      have h3 : 10 ^ 2 ≤ 10 ^ ((a :: b :: c :: l).length - 1) := Nat.pow_le_pow_right (by norm_num) (by simp)
      omega

theorem small_iff' {l : List ℕ} (h : Lead l) (p : ℤ) : (denotes l : ℚ) * 10 ^ p < 1 / 10 ^ 4 ↔ ¬ -4 < (l.length : ℤ) + p := by
  rw [← small_iff h, not_le]

theorem large_iff' {l : List ℕ} (h : Lead l) (p : ℤ) : (10 : ℚ) ^ 16 ≤ denotes l * 10 ^ p ↔ ¬ (l.length : ℤ) + p ≤ 16 := by
  rw [← large_iff h, not_lt]

theorem digits_append (a b : List ℕ) : digits (a ++ b) = digits a ++ digits b := List.map_append

theorem digits_length (a : List ℕ) : (digits a).length = a.length := by simp [digits]

theorem digits_take (n : ℕ) (a : List ℕ) : (digits a).take n = digits (a.take n) := List.map_take.symm

theorem digits_drop (n : ℕ) (a : List ℕ) : (digits a).drop n = digits (a.drop n) := List.map_drop.symm

theorem digits_zeros (n : ℕ) : digits (List.replicate n 0) = List.replicate n '0' := by
  unfold digits
  rw [List.map_replicate]
  rfl

/-- Zeros in front and the rest -/
theorem zeros_lead : ∀ {f : List ℕ}, (∀ x ∈ f, x < 10) → f.getLast?.any (· ≠ 0) = true → ∃ z l, f = List.replicate z 0 ++ l ∧ Lead l
  | [], _, h => by cases h
  | 0 :: f, hl, h => by
    have h' : f.getLast?.any (· ≠ 0) = true := by
      cases f with
      | nil => simp at h
      | cons x f => rwa [List.getLast?_cons_cons] at h
    obtain ⟨z, l, e, hlead⟩ := zeros_lead (fun x hx => hl x (List.mem_cons_of_mem _ hx)) h'
    exact ⟨z + 1, l, by rw [e]; rfl, hlead⟩
  | (c + 1) :: f, hl, _ => ⟨0, _, rfl, ⟨c + 1, f, rfl, by omega⟩, hl⟩

/-- The usual form is the layout. -/
theorem usual_layout {d : Decimal} (h : d.Usual) (hn : d.neg = false) : ∃ (D : ℕ) (p : ℤ), D % 10 ≠ 0 ∧ d.value = D * 10 ^ p ∧
    d.text = Dbl.layout (Pip.showNat D) ((Pip.showNat D).length + p) := by
  obtain ⟨neg, int, frac, exp⟩ := d
  obtain ⟨ok, hlast, hpos, hsci⟩ := h
  cases hn
  have hd := ok.digits
  simp only [List.mem_append] at hd hlast
  have hint : ∀ x ∈ int, x < 10 := fun x hx => hd x (.inl (.inl hx))
  have hfrac : ∀ x ∈ frac.getD [], x < 10 := fun x hx => hd x (.inl (.inr hx))
  cases exp with
  | none =>
    obtain ⟨h1, h2, h3, h4⟩ := hpos rfl
    cases frac with
    | none => exact absurd rfl h3
    | some f =>
      have hf := hlast f rfl
      simp only [Option.getD_some] at hfrac
      have hall : ∀ x ∈ int ++ f, x < 10 := by
        intro x hx
        rcases List.mem_append.1 hx with hx | hx
        · exact hint x hx
        · exact hfrac x hx
      have hval : (⟨false, int, some f, none⟩ : Decimal).value = denotes (int ++ f) * 10 ^ (-(f.length : ℤ)) := by
        simp [Decimal.value]
      have htext : (⟨false, int, some f, none⟩ : Decimal).text = digits int ++ '.' :: digits f := by simp [Decimal.text]
      rw [hval] at h1 h2
      rw [hval, htext]
      rw [abs_of_nonneg (mul_nonneg (Nat.cast_nonneg _) (Dbl.ten_pos _).le)] at h1 h2
      rcases h4 with rfl | h4
      · obtain ⟨z, l, rfl, hlead⟩ := zeros_lead hfrac hf
        have e : denotes ([0] ++ (List.replicate z 0 ++ l)) = denotes l :=
          (denotes_zeros 1 _).trans (denotes_zeros z l)
        have hll : l.getLast?.any (· ≠ 0) = true := by
          refine mod_last hlead.lt hlead.ne ?_
          have := (last_mod hf hfrac).2
          rwa [denotes_zeros] at this
        rw [e] at h1 h2 ⊢
        refine ⟨denotes l, _, (last_mod hll hlead.lt).2, rfl, ?_⟩
        rw [small_iff hlead] at h1
        rw [large_iff hlead] at h2
        rw [hlead.showNat, digits_length]
        have hk : (l.length : ℤ) + -((List.replicate z 0 ++ l).length : ℤ) = -z := by
          simp
        rw [hk] at h1 h2 ⊢
        unfold Dbl.layout
        rw [if_pos ⟨h1, h2⟩, if_pos (by omega), show (-(-(z : ℤ))).toNat = z by omega, digits_append, digits_zeros]
        rfl
      · have hlead : Lead (int ++ f) := by
          refine ⟨?_, hall⟩
          cases hi : int with
          | nil => exact absurd hi ok.int
          | cons c t =>
            rw [hi] at h4
            exact ⟨c, t ++ f, rfl, by simpa using h4⟩
        refine ⟨denotes (int ++ f), _, (last_mod (last_append hf) hall).2, rfl, ?_⟩
        rw [small_iff hlead] at h1
        rw [large_iff hlead] at h2
        rw [hlead.showNat, digits_length]
        have hk : ((int ++ f).length : ℤ) + -(f.length : ℤ) = int.length := by
          simp
        have hi : 0 < int.length := List.length_pos_iff.2 ok.int
        have hf0 : 0 < f.length := List.length_pos_iff.2 (last_mod hf hfrac).1
        rw [hk] at h1 h2 ⊢
        unfold Dbl.layout
        rw [if_pos ⟨h1, h2⟩, if_neg (by omega), if_neg (by rw [digits_length, List.length_append]; omega)]
        rw [Int.toNat_natCast, digits_take, digits_drop, List.take_left, List.drop_left]
        simp
  | some x =>
    obtain ⟨s, e⟩ := x
    obtain ⟨h1, h2, h3, h4, h5⟩ := hsci s e rfl
    have hexp : ∀ x ∈ e, x < 10 := fun x hx => hd x (.inr hx)
    obtain ⟨c, rfl⟩ := List.length_eq_one_iff.1 h2
    have hc : c ≠ 0 := by simpa using h3
    have hall : ∀ x ∈ c :: frac.getD [], x < 10 := by
      intro x hx
      rcases List.mem_cons.1 hx with rfl | hx
      · exact hint _ (by simp)
      · exact hfrac x hx
    have hlead : Lead (c :: frac.getD []) := ⟨⟨c, _, rfl, hc⟩, hall⟩
    have hmod : denotes (c :: frac.getD []) % 10 ≠ 0 := by
      cases frac with
      | none =>
        have := hall c (by simp)
        have e : denotes [c] = c := by simp [denotes]
        simp only [Option.getD_none]
        rw [e]
        omega
      | some f => exact (last_mod (last_append (a := [c]) (hlast f rfl)) hall).2
    generalize hX : (if s then -(denotes e : ℤ) else denotes e) = X at *
    have hval : (⟨false, [c], frac, some (s, e)⟩ : Decimal).value = denotes (c :: frac.getD []) * 10 ^ (X - ((frac.getD []).length : ℤ)) := by
      rw [sub_eq_neg_add, Dbl.ten_add, ← mul_assoc, ← hX]
      simp [Decimal.value]
    rw [hval] at h1 ⊢
    rw [abs_of_nonneg (mul_nonneg (Nat.cast_nonneg _) (Dbl.ten_pos _).le), small_iff' hlead, large_iff' hlead] at h1
    have hk : ((c :: frac.getD []).length : ℤ) + (X - ((frac.getD []).length : ℤ)) = X + 1 := by
      simp only [List.length_cons]
      push_cast
      ring
    rw [hk] at h1
    have hX0 : X ≠ 0 := by omega
    refine ⟨denotes (c :: frac.getD []), _, hmod, rfl, ?_⟩
    rw [hlead.showNat, digits_length, hk]
    have hnat : X.natAbs = denotes e := by
      rw [← hX]
      split <;> simp
    have hs : decide (X < 0) = s := by
      rw [← hX] at hX0 ⊢
      cases s with
      | true =>
        simp only [if_true] at hX0 ⊢
        exact decide_eq_true (by omega)
      | false =>
        simp only [Bool.false_eq_true, if_false] at hX0 ⊢
        exact decide_eq_false (by omega)
    unfold Dbl.layout
    rw [if_neg (by omega), show X + 1 - 1 = X by ring, showExp_digits, exp_unique hexp h4 h5 hnat hX0, digits_length]
    have hsgn : (if X < 0 then '-' else '+') = if s = true then '-' else '+' := by
      rw [← hs]
      by_cases h : X < 0 <;> simp [h]
    rw [hsgn]
    cases frac with
    | none => simp [Decimal.text, digits]
    | some f =>
      have hf0 := (last_mod (hlast f rfl) hfrac).1
      have hne : (c :: (some f).getD []).length ≠ 1 := by
        have := List.length_pos_iff.2 hf0
        simp only [Option.getD_some, List.length_cons]
        omega
      rw [if_neg hne]
      simp [Decimal.text, digits]

/-- The layout is the usual form, unless it is that of an integer. -/
theorem layout_usual {D : ℕ} (hD : D % 10 ≠ 0) (p : ℤ) (hi : ¬ (0 ≤ p ∧ (Pip.showNat D).length + p ≤ 16)) :
    ∃ d : Decimal, d.Usual ∧ d.neg = false ∧ d.value = D * 10 ^ p ∧ d.text = Dbl.layout (Pip.showNat D) ((Pip.showNat D).length + p) := by
  obtain ⟨hlead, hden⟩ := natDigits_lead (n := D) (by omega)
  have hsh : Pip.showNat D = digits (Pip.natDigits 10 D) := rfl
  rw [hsh, digits_length] at hi
  rw [hsh, digits_length]
  generalize Pip.natDigits 10 D = l at *
  subst hden
  have hll : l.getLast?.any (· ≠ 0) = true := mod_last hlead.lt hlead.ne hD
  have hl0 : 0 < l.length := List.length_pos_iff.2 hlead.ne
  have habs : |(denotes l : ℚ) * 10 ^ p| = denotes l * 10 ^ p := abs_of_nonneg (mul_nonneg (Nat.cast_nonneg _) (Dbl.ten_pos _).le)
  generalize hk : (l.length : ℤ) + p = k at *
  by_cases hform : -4 < k ∧ k ≤ 16
  · have hsm := (small_iff hlead p).2 (by omega)
    have hla := (large_iff hlead p).2 (by omega)
    by_cases hk0 : k ≤ 0
    · have hval : (⟨false, [0], some (List.replicate (-k).toNat 0 ++ l), none⟩ : Decimal).value = denotes l * 10 ^ p := by
        have e : denotes ([0] ++ (List.replicate (-k).toNat 0 ++ l)) = denotes l := (denotes_zeros 1 _).trans (denotes_zeros _ l)
        have ep : -(((List.replicate (-k).toNat 0 ++ l).length : ℕ) : ℤ) = p := by
          rw [List.length_append, List.length_replicate]
          omega
        simp only [Decimal.value, Option.getD_some, e, ep, Option.elim_none, zpow_zero, mul_one, Bool.false_eq_true, if_false, one_mul]
      refine ⟨_, ⟨⟨by simp, ?_, .inl (by simp), by rintro _ _ ⟨⟩⟩, ?_, fun _ => ⟨?_, ?_, by simp, .inl rfl⟩, by rintro _ _ ⟨⟩⟩, rfl, hval, ?_⟩
      · intro x hx
        simp only [List.cons_append, List.nil_append, Option.getD_some, List.mem_cons, List.mem_append, List.mem_replicate, Option.map_none,
          Option.getD_none, List.not_mem_nil, or_false] at hx
        rcases hx with rfl | ⟨_, rfl⟩ | hx
        · norm_num
        · norm_num
        · exact hlead.lt x hx
      · rintro f ⟨⟩
        exact last_append hll
      · rw [hval, habs]; exact hsm
      · rw [hval, habs]; exact hla
      · unfold Dbl.layout
        rw [if_pos hform, if_pos hk0]
        simp only [Decimal.text, Option.elim_some, Option.elim_none, digits_append, digits_zeros, List.append_nil, Bool.false_eq_true, if_false]
        rfl
    · have hkl : k < l.length := by omega
      have htd : l.take k.toNat ++ l.drop k.toNat = l := List.take_append_drop _ _
      have hlen : (l.drop k.toNat).length = l.length - k.toNat := List.length_drop
      have hval : (⟨false, l.take k.toNat, some (l.drop k.toNat), none⟩ : Decimal).value = denotes l * 10 ^ p := by
        have ep : -(((l.drop k.toNat).length : ℕ) : ℤ) = p := by omega
        simp only [Decimal.value, Option.getD_some, htd, ep, Option.elim_none, zpow_zero, mul_one, Bool.false_eq_true, if_false, one_mul]
      refine ⟨_, ⟨⟨?_, ?_, .inl (by simp), by rintro _ _ ⟨⟩⟩, ?_, fun _ => ⟨?_, ?_, by simp, .inr ?_⟩, by rintro _ _ ⟨⟩⟩, rfl, hval, ?_⟩
      · intro e
        have := congrArg List.length e
        simp only [List.length_take, List.length_nil] at this
        omega
      · intro x hx
        refine hlead.lt x ?_
        rw [← htd]
        simpa using hx
      · rintro f ⟨⟩
        have hdn : l.drop k.toNat ≠ [] := by
          intro e
          have := congrArg List.length e
          simp only [hlen, List.length_nil] at this
          omega
        rw [List.getLast?_drop, if_neg (by omega)]
        exact hll
      · rw [hval, habs]; exact hsm
      · rw [hval, habs]; exact hla
      · obtain ⟨c, t, rfl, hc⟩ := hlead.head
        obtain ⟨n, hn⟩ : ∃ n, k.toNat = n + 1 := ⟨k.toNat - 1, by omega⟩
        rw [hn]
        simpa using hc
      · unfold Dbl.layout
        rw [if_pos hform, if_neg hk0, if_neg (by rw [digits_length]; omega), digits_take, digits_drop]
        simp [Decimal.text]
  · obtain ⟨c, t, rfl, hc⟩ := hlead.head
    have hX0 : k - 1 ≠ 0 := by omega
    have hX : (if decide (k - 1 < 0) = true then -(denotes (expDigits (k - 1)) : ℤ) else denotes (expDigits (k - 1))) = k - 1 := by
      rw [denotes_exp _ hX0]
      by_cases h : k - 1 < 0
      · rw [if_pos (decide_eq_true h)]; omega
      · rw [if_neg (by simpa using h)]; omega
    have hg : ((if t = [] then none else some t : Option (List ℕ)).getD []) = t := by
      split
      next h => exact h.symm
      next => rfl
    have hval : (⟨false, [c], if t = [] then none else some t, some (decide (k - 1 < 0), expDigits (k - 1))⟩ : Decimal).value =
        denotes (c :: t) * 10 ^ p := by
      have : p = -(t.length : ℤ) + (k - 1) := by
        rw [← hk, List.length_cons]
        push_cast
        ring
      simp only [Decimal.value, hg, Option.elim_some, hX, Bool.false_eq_true, if_false, one_mul, List.singleton_append]
      rw [this, Dbl.ten_add, mul_assoc]
    have hexp : ∀ x ∈ expDigits (k - 1), x < 10 := by
      intro x hx
      unfold expDigits at hx
      rcases List.mem_append.1 hx with hx | hx
      · split at hx
        · simp at hx; omega
        · cases hx
      · exact natDigits_lt 10 _ (by omega) x hx
    have hlx := (natDigits_lead (n := (k - 1).natAbs) (by omega)).1
    refine ⟨_, ⟨⟨by simp, ?_, .inr (by simp), ?_⟩, ?_, by rintro ⟨⟩, ?_⟩, rfl, hval, ?_⟩
    · intro x hx
      simp only [hg] at hx
      simp only [List.mem_append, Option.map_some, Option.getD_some] at hx
      rcases hx with (hx | hx) | hx
      · exact hlead.lt x (by simp at hx; simp [hx])
      · exact hlead.lt x (by simp [hx])
      · exact hexp x hx
    · rintro s l ⟨⟩
      unfold expDigits
      intro e
      exact hlx.ne (List.append_eq_nil_iff.1 e).2
    · intro f hf
      dsimp only at hf
      split at hf
      · cases hf
      · next h =>
        cases hf
        cases t with
        | nil => exact absurd rfl h
        | cons a t => rwa [List.getLast?_cons_cons] at hll
    · rintro s e ⟨⟩
      rw [hval, habs, small_iff' hlead, large_iff' hlead, hk]
      refine ⟨by omega, rfl, by simpa using hc, ?_, ?_⟩
      · unfold expDigits
        have := List.length_pos_iff.2 hlx.ne
        split
        · rw [List.length_append, List.length_singleton]; omega
        · next h =>
          have := showNat_length (n := (k - 1).natAbs) (by omega)
          unfold Pip.showNat at this
          rw [List.length_map] at this
          simpa using this
      · intro h2
        unfold expDigits at h2 ⊢
        split
        next h =>
          rw [if_pos h, List.length_append, List.length_singleton] at h2
          obtain ⟨q, hq⟩ : ∃ q, (natDigits 10 (k - 1).natAbs).length = q + 2 :=
            ⟨(natDigits 10 (k - 1).natAbs).length - 2, by omega⟩
          have := hlx.bounds.1
          rw [(natDigits_lead (n := (k - 1).natAbs) (by omega)).2, hq, show q + 2 - 1 = q + 1 by omega, Nat.pow_succ] at this
          have := Nat.pow_pos (n := q) (show 0 < 10 by norm_num)
          omega
        next h =>
          obtain ⟨a, u, e, ha⟩ := hlx.head
          rw [e]
          simpa using ha
    · unfold Dbl.layout
      rw [if_neg hform, showExp_digits, digits_length]
      have hsgn : (if k - 1 < 0 then '-' else '+') = if decide (k - 1 < 0) = true then '-' else '+' := by
        by_cases h : k - 1 < 0 <;> simp [h]
      rw [hsgn]
      cases t with
      | nil => simp [Decimal.text, digits]
      | cons a t => simp [Decimal.text, digits]

/-! ### The sign, the end of the text -/

/-- The number with the other sign -/
def invert (d : Decimal) : Decimal := ⟨!d.neg, d.int, d.frac, d.exp⟩

theorem invert_value (d : Decimal) : (invert d).value = -d.value := by
  unfold invert Decimal.value
  cases d.neg <;> simp

theorem invert_text {d : Decimal} (h : d.neg = false) : (invert d).text = '-' :: d.text := by
  unfold invert Decimal.text
  rw [h]
  rfl

theorem invert_invert (d : Decimal) : invert (invert d) = d := by
  unfold invert
  simp

theorem invert_usual {d : Decimal} (h : d.Usual) : (invert d).Usual := by
  obtain ⟨⟨a, b, c, e⟩, h2, h3, h4⟩ := h
  refine ⟨⟨a, b, c, e⟩, h2, ?_, ?_⟩
  · rw [invert_value, abs_neg]; exact h3
  · rw [invert_value, abs_neg]; exact h4

theorem digitChar_ne {a : ℕ} (ha : a < 10) : digitChar a ≠ '.' := by
  intro e
  have := digitChar_digit ha
  rw [e] at this
  exact absurd this (by decide)

theorem digitChar_zero {a : ℕ} (ha : a < 10) (e : digitChar a = '0') : a = 0 := by
  have := digitVal_digitChar ha
  rw [e] at this
  exact this.symm.trans (by decide)

theorem usual_end {d : Decimal} (h : d.Usual) : (s% ".0").isSuffixOf d.text = false := by
  rw [Bool.eq_false_iff]
  intro hs
  obtain ⟨t, ht⟩ := List.isSuffixOf_iff_suffix.1 hs
  have hd := h.ok.digits
  simp only [List.mem_append] at hd
  cases he : d.exp with
  | none =>
    obtain ⟨-, -, h3, -⟩ := h.positional he
    cases hf : d.frac with
    | none => exact h3 hf
    | some f =>
      have hl := h.last f hf
      obtain ⟨f', x, rfl⟩ := List.eq_nil_or_concat' f |>.resolve_left (by rintro rfl; cases hl)
      have hx : x < 10 := hd x (.inl (.inr (by simp [hf])))
      have hx0 : x ≠ 0 := by simpa using hl
      have := congrArg (fun l => l.reverse[0]?) ht
      simp [Decimal.text, he, hf, digits] at this
      exact hx0 (digitChar_zero hx this.symm)
  | some x =>
    obtain ⟨s, e⟩ := x
    obtain ⟨-, -, -, h4, -⟩ := h.scientific s e he
    obtain ⟨e', b, rfl⟩ := List.eq_nil_or_concat' e |>.resolve_left (by rintro rfl; simp at h4)
    obtain ⟨e'', a, rfl⟩ := List.eq_nil_or_concat' e' |>.resolve_left (by rintro rfl; simp at h4)
    have ha : a < 10 := hd a (.inr (by simp [he]))
    have hr := congrArg (fun l => l.reverse[1]?) ht
    simp [Decimal.text, he, digits] at hr
    exact digitChar_ne ha hr.symm

/-! ### The text of a float -/

/-- The float of a text -/
theorem round_rnd {x r : ℚ} (h : Dbl.round x = .fin r) : Dbl.rnd x = r := by
  by_cases ho : Overflow x
  · rw [Dbl.round_inf ho] at h; cases h
  · rw [(Dbl.round_fin ho).1] at h
    injection h

theorem str_pos {q : ℚ} (h : 0 < q) : Dbl.str (.fin q) = Dbl.showPos q := by
  show (if q = 0 then _ else if q < 0 then _ else _) = _
  rw [if_neg h.ne', if_neg (by linarith)]

theorem str_neg {q : ℚ} (h : 0 < q) : Dbl.str (.fin (-q)) = '-' :: Dbl.showPos q := by
  show (if -q = 0 then _ else if -q < 0 then _ else _) = _
  rw [if_neg (by linarith), if_pos (by linarith), neg_neg]

theorem digits_tenth : Dbl.Digits53 (10 ^ 16) :=
  ⟨10 ^ 16 / 2 ^ 10, 10, by norm_num, by norm_num, by norm_num⟩

theorem digits_nine : Dbl.Digits53 (9 * 10 ^ 15) :=
  ⟨9 * 10 ^ 15 / 2 ^ 10, 10, by norm_num, by norm_num, by norm_num⟩

/-- A number of one digit below `10 ^ 16` -/
theorem one_digit {v : ℚ} (h0 : 0 < v) (h : HasDigits 1 v) (hv : v < 10 ^ 16) : v ≤ 9 * 10 ^ 15 := by
  obtain ⟨d, p, hd, he⟩ := h
  rw [abs_of_pos h0] at he
  subst he
  have hd0 : d ≠ 0 := by
    rintro rfl
    simp at h0
  have h1 : (1 : ℚ) ≤ d := by exact_mod_cast Nat.one_le_iff_ne_zero.2 hd0
  have h9 : (d : ℚ) ≤ 9 := by
    have : d ≤ 9 := by omega
    exact_mod_cast this
  have hp : p ≤ 15 := by
    by_contra hc
    have : (10 : ℚ) ^ 16 ≤ 10 ^ p := by
      have := Dbl.ten_le (show (16 : ℤ) ≤ p by omega)
      exact_mod_cast this
    have := Dbl.ten_pos p
    nlinarith
  have : (10 : ℚ) ^ p ≤ 10 ^ 15 := by
    have := Dbl.ten_le hp
    exact_mod_cast this
  have := Dbl.ten_pos p
  nlinarith

theorem text_pos {r : ℚ} (h0 : 0 < r) (h : IsFloat r) (hi : (¬ ∃ i : ℤ, r = i) ∨ 10 ^ 16 ≤ r) :
    ∃ d : Decimal, d.Usual ∧ d.neg = false ∧ Dbl.showPos r = d.text ∧ Dbl.rnd d.value = r ∧
      (∀ n w, Dbl.rnd w = r → HasDigits n w → HasDigits n d.value) ∧
      ∀ w, Dbl.rnd w = r → (∀ n, HasDigits n d.value → HasDigits n w) → |d.value - r| ≤ |w - r| := by
  have hd : Dbl.IsDouble r := h
  have ht : r < Dbl.top := lt_of_le_of_lt (le_abs_self r) hd.2
  obtain ⟨h1, h2⟩ := Dbl.digitsOf_spec h0 hd.1 ht
  have hpos : ∀ w, Dbl.rnd w = r → 0 < w := by
    intro w hw
    by_contra hc
    have := Dbl.rnd_mono (not_lt.1 hc)
    rw [hw, Dbl.rnd_zero] at this
    linarith
  have hfew : ∀ n w, Dbl.rnd w = r → HasDigits n w → HasDigits n ((Dbl.digitsOf r).1 * 10 ^ (Dbl.digitsOf r).2) :=
    fun n w hw hn => Dbl.digitsOf_fewest h0 hd.1 ht (hpos w hw) hw hn
  have hnear : ∀ w, Dbl.rnd w = r → (∀ n, HasDigits n ((Dbl.digitsOf r).1 * 10 ^ (Dbl.digitsOf r).2) → HasDigits n w) →
      |((Dbl.digitsOf r).1 * 10 ^ (Dbl.digitsOf r).2 : ℚ) - r| ≤ |w - r| :=
    fun w hw hn => Dbl.digitsOf_nearest h0 hd.1 ht (hpos w hw) hw hn
  obtain ⟨d, a1, a2, a3, a4⟩ := layout_usual h2 (Dbl.digitsOf r).2 (by
    rintro ⟨hp, hl⟩
    rcases hi with hi | hi
    · obtain ⟨v, -, -, hs⟩ := Dbl.showPos_text h0 hd
      refine hi (hs ?_)
      rw [Dbl.showPos_eq]
      unfold Dbl.layout
      have := List.length_pos_iff.2 (showNat_ne (Dbl.digitsOf r).1)
      rw [if_pos ⟨by omega, hl⟩, if_neg (by omega), if_pos (by omega)]
      exact List.suffix_append _ _
    · obtain ⟨hlead, hden⟩ := natDigits_lead (n := (Dbl.digitsOf r).1) (by omega)
      have hlt := (large_iff hlead (Dbl.digitsOf r).2).2 (by
        have e : (Pip.showNat (Dbl.digitsOf r).1).length = (natDigits 10 (Dbl.digitsOf r).1).length := List.length_map _
        rw [← e]
        exact hl)
      rw [hden] at hlt
      have hr := Dbl.rnd_between hd.1 h1 (.inl ⟨hlt.le, hi⟩)
      rw [Dbl.rnd_of_digits digits_tenth] at hr
      have hone := hfew 1 (10 ^ 16) (by rw [Dbl.rnd_of_digits digits_tenth, hr]) ⟨1, 16, by norm_num, by norm_num⟩
      have hvp : (0 : ℚ) < (Dbl.digitsOf r).1 * 10 ^ (Dbl.digitsOf r).2 :=
        mul_pos (by exact_mod_cast (show 0 < (Dbl.digitsOf r).1 by omega)) (Dbl.ten_pos _)
      have := Dbl.rnd_mono (one_digit hvp hone hlt)
      rw [h1, Dbl.rnd_of_digits digits_nine, ← hr] at this
      norm_num at this)
  rw [← a3] at h1 hfew hnear
  exact ⟨d, a1, a2, by rw [Dbl.showPos_eq, a4], h1, hfew, hnear⟩

/-- The smallest normal number and the digits it is written with -/
theorem normal_digits : Dbl.Digits53 ((2 : ℚ) ^ (-1022 : ℤ)) := ⟨1, -1022, by norm_num, by norm_num, by simp⟩

theorem normal_written : (2 : ℚ) ^ (-1022 : ℤ) ≤ (Dbl.digitsOf ((2 : ℚ) ^ (-1022 : ℤ))).1 * 10 ^ (Dbl.digitsOf ((2 : ℚ) ^ (-1022 : ℤ))).2 := by
  decide +kernel

theorem same_pos {d : Decimal} (h : d.Usual) (hn : d.neg = false) (hv : (2 : ℚ) ^ (-1022 : ℤ) ≤ d.value) (h15 : HasDigits 15 d.value)
    (ho : ¬ Overflow d.value) : Dbl.showPos (Dbl.rnd d.value) = d.text := by
  obtain ⟨D, p, h1, h2, h3⟩ := usual_layout h hn
  have hq : IsFloat (Dbl.rnd d.value) := (Dbl.round_fin ho).2.1
  have hd : Dbl.IsDouble (Dbl.rnd d.value) := hq
  have hge : (2 : ℚ) ^ (-1022 : ℤ) ≤ Dbl.rnd d.value := by
    rw [← Dbl.rnd_of_digits normal_digits]
    exact Dbl.rnd_mono hv
  have hq0 : 0 < Dbl.rnd d.value := lt_of_lt_of_le (Dbl.two_pos _) hge
  have ht : Dbl.rnd d.value < Dbl.top := lt_of_le_of_lt (le_abs_self _) hd.2
  obtain ⟨a1, a2⟩ := Dbl.digitsOf_spec hq0 hd.1 ht
  have hfew := Dbl.digitsOf_fewest hq0 hd.1 ht (lt_of_lt_of_le (Dbl.two_pos _) hv) rfl h15
  rw [Dbl.showPos_eq]
  generalize hqq : Dbl.rnd d.value = q at *
  have hge' : (2 : ℚ) ^ (-1022 : ℤ) ≤ (Dbl.digitsOf q).1 * 10 ^ (Dbl.digitsOf q).2 := by
    by_contra hc
    have := Dbl.rnd_between hd.1 a1 (.inl ⟨(not_le.1 hc).le, hge⟩)
    rw [Dbl.rnd_of_digits normal_digits] at this
    rw [← this] at hc
    exact hc normal_written
  have e := Dbl.fifteen hv hge' h15 hfew (by rw [a1, hqq])
  rw [h2] at e
  obtain ⟨e1, e2⟩ := unique e h1 a2
  rw [h3, e1, e2]

end Written
end Pip
