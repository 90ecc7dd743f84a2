import Verif.Lemmas.Num
import Verif.Model.OpsNum
/-! Helper lemmas: base conversion. -/

namespace Pip

theorem digitsAux_acc (b : Nat) : ∀ f n acc, digitsAux b f n acc = digitsAux b f n [] ++ acc := by
  intro f
  induction f with
  | zero => intro n acc; rfl
  | succ f ih =>
    intro n acc
    simp only [digitsAux]
    split
    · rfl
    · rw [ih, ih _ [n % b]]; simp

theorem digitsAux_fuel (b : Nat) (hb : 2 ≤ b) : ∀ f f' n acc, n < f → n < f' →
    digitsAux b f n acc = digitsAux b f' n acc := by
  intro f
  induction f with
  | zero => intro f' n acc h; omega
  | succ f ih =>
    intro f' n acc h h'
    cases f' with
    | zero => omega
    | succ f' =>
      simp only [digitsAux]
      split
      · rfl
      · have h1 : n / b < n := Nat.div_lt_self (by omega) (by omega)
        exact ih _ _ _ (by omega) (by omega)

/-- The digits of a number, none for zero. -/
def digs (b n : Nat) : List Nat := if n = 0 then [] else natDigits b n

theorem digs_step (b n : Nat) (hb : 2 ≤ b) (hn : 0 < n) : digs b n = digs b (n / b) ++ [n % b] := by
  unfold digs
  rw [if_neg (by omega)]
  unfold natDigits
  rw [digitsAux]
  split
  · rename_i h
    rw [if_pos (Nat.div_eq_of_lt h), Nat.mod_eq_of_lt h]; rfl
  · rename_i h
    have h0 : 0 < n / b := Nat.div_pos (by omega) (by omega)
    have h1 : n / b < n := Nat.div_lt_self (by omega) (by omega)
    rw [if_neg (by omega), digitsAux_acc, digitsAux_fuel b hb n (n / b + 1) _ _ h1 (by omega)]

theorem digs_lt (b n : Nat) (hb : 2 ≤ b) : ∀ d ∈ digs b n, d < b := by
  unfold digs
  split
  · simp
  · exact natDigits_lt b n hb

theorem digs_val (b n : Nat) (hb : 2 ≤ b) : ofDigits b (digs b n) = n := by
  unfold digs
  split
  · subst_vars; rfl
  · exact ofDigits_natDigits b n hb

theorem digs_head (b n : Nat) (hb : 2 ≤ b) (hn : 0 < n) : ∃ d l, digs b n = d :: l ∧ 0 < d := by
  unfold digs
  rw [if_neg (by omega)]
  obtain ⟨d, l, e, h, -⟩ := natDigits_head b n hb
  exact ⟨d, l, e, h hn⟩

theorem toBaseLoop_eq (b : Nat) (hb : 2 ≤ b) : ∀ f n acc, n ≤ f →
    toBaseLoop b f n acc = (digs b n).map (fun d => baseAlphabet.getD d '?') ++ acc := by
  intro f
  induction f with
  | zero =>
    intro n acc h
    obtain rfl : n = 0 := by omega
    rfl
  | succ f ih =>
    intro n acc h
    simp only [toBaseLoop]
    split
    · rename_i hn
      have h1 : n / b < n := Nat.div_lt_self (by omega) (by omega)
      rw [ih _ _ (by omega), digs_step b n hb hn]
      simp
    · obtain rfl : n = 0 := by omega
      rfl

theorem toDigitsLoop_eq (b : Nat) (sign : Int) (hb : 2 ≤ b) : ∀ f n acc, n ≤ f →
    toDigitsLoop b sign f n acc = (digs b n).map (fun d : Nat => ofInt (sign * d)) ++ acc := by
  intro f
  induction f with
  | zero =>
    intro n acc h
    obtain rfl : n = 0 := by omega
    rfl
  | succ f ih =>
    intro n acc h
    simp only [toDigitsLoop]
    split
    · rename_i hn
      have h1 : n / b < n := Nat.div_lt_self (by omega) (by omega)
      rw [ih _ _ (by omega), digs_step b n hb hn]
      simp
    · obtain rfl : n = 0 := by omega
      rfl

/-- The digit of a base-36 alphabet. -/
def b36 (d : Nat) : Char := baseAlphabet.getD d '?'

theorem b36_facts : ∀ d, d < 36 → baseDigit? (b36 d) = some d ∧ intSpace (b36 d) = false ∧ b36 d ≠ '_' ∧
    b36 d ≠ '-' ∧ b36 d ≠ '+' ∧ (b36 d = '0' → d = 0) := by decide +kernel

theorem baseDigits_eq (b : Nat) (hb : b ≤ 36) : ∀ (l : List Nat) (acc : Nat), (∀ d ∈ l, d < b) →
    baseDigits b (l.map b36) acc = some (l.foldl (fun acc d => acc * b + d) acc) := by
  intro l
  induction l with
  | nil => intro acc _; rfl
  | cons d l ih =>
    intro acc h
    have hd := h d (by simp)
    simp only [List.map_cons, baseDigits, (b36_facts d (by omega)).1, if_pos hd, List.foldl_cons]
    exact ih _ fun x hx => h x (by simp [hx])

theorem splitAux_single (c : Char) : ∀ s : Str, c ∉ s → splitAux [c] 0 s = (s, []) := by
  intro s
  induction s with
  | nil => intro _; rfl
  | cons d s ih =>
    intro h
    have h1 : ([c].isPrefixOf (d :: s)) = false := by
      simp only [List.isPrefixOf, Bool.and_true]
      simp only [List.mem_cons, not_or] at h
      simpa using h.1
    simp only [splitAux, h1, Bool.false_eq_true, if_false, ih (fun hm => h (by simp [hm]))]

theorem replaceStr_none (c : Char) (new s : Str) (h : c ∉ s) : replaceStr [c] new s = s := by
  simp only [replaceStr, List.isEmpty_cons, Bool.false_eq_true, if_false, splitStr, splitAux_single c s h]
  rfl

theorem dropWhile_head {p : Char → Bool} {c : Char} {s : Str} (h : p c = false) : (c :: s).dropWhile p = c :: s := by
  simp [List.dropWhile, h]

/-- Stripping does nothing if neither end can be stripped. -/
theorem strip_ends {p : Char → Bool} {s : Str} (h1 : ∀ c r, s = c :: r → p c = false)
    (h2 : ∀ r c, s = r ++ [c] → p c = false) : ((s.dropWhile p).reverse.dropWhile p).reverse = s := by
  have e1 : s.dropWhile p = s := by
    cases s with
    | nil => rfl
    | cons c r => exact dropWhile_head (h1 c r rfl)
  rw [e1]
  have e2 : s.reverse.dropWhile p = s.reverse := by
    cases hr : s.reverse with
    | nil => rfl
    | cons c r =>
      apply dropWhile_head
      apply h2 r.reverse c
      rw [← List.reverse_reverse s, hr]; simp
  rw [e2, List.reverse_reverse]

theorem pyIntBase_text (b : Nat) (hb : 2 ≤ b) (hb' : b ≤ 36) (neg : Bool) (n : Nat) (hn : 0 < n) :
    pyIntBase b ((if neg then ['-'] else []) ++ (digs b n).map b36) =
      some (if neg then -(n : Int) else n) := by
  obtain ⟨d, l, e, hd⟩ := digs_head b n hb hn
  have hlt := digs_lt b n hb
  have hval := digs_val b n hb
  have hall : ∀ x ∈ digs b n, x < 36 := fun x hx => Nat.lt_of_lt_of_le (hlt x hx) hb'
  have hf : ∀ c ∈ (digs b n).map b36, intSpace c = false := by
    intro c hc
    obtain ⟨x, hx, rfl⟩ := List.mem_map.1 hc
    exact (b36_facts x (hall x hx)).2.1
  have hd36 : d < 36 := hall d (by rw [e]; simp)
  have facts := b36_facts d hd36
  have hstrip : ((((if neg then ['-'] else []) ++ (digs b n).map b36).dropWhile intSpace).reverse.dropWhile
      intSpace).reverse = (if neg then ['-'] else []) ++ (digs b n).map b36 := by
    apply strip_ends
    · intro c r h
      cases neg with
      | true =>
        simp only [if_true, List.cons_append, List.nil_append, List.cons.injEq] at h
        rw [← h.1]; decide
      | false =>
        simp only [Bool.false_eq_true, if_false, List.nil_append] at h
        exact hf c (by rw [h]; simp)
    · intro r c h
      have hm : c ∈ (if neg then ['-'] else []) ++ (digs b n).map b36 := by rw [h]; simp
      rcases List.mem_append.1 hm with hm | hm
      · cases neg with
        | true =>
          simp only [if_true, List.mem_singleton] at hm
          subst hm; decide
        | false => simp at hm
      · exact hf c hm
  have hdrop : dropPrefix b ((digs b n).map b36) = (digs b n).map b36 := by
    rw [e]
    simp only [List.map_cons]
    unfold dropPrefix
    split
    · rename_i c rest heq
      simp only [List.cons.injEq] at heq
      exact absurd (facts.2.2.2.2.2 heq.1) (by omega)
    · rfl
  have hdig : baseDigits b ((digs b n).map b36) 0 = some n := by
    rw [baseDigits_eq b hb' _ _ hlt]
    exact congrArg some hval
  have hsign : takeSign ((if neg then ['-'] else []) ++ (digs b n).map b36) = (neg, (digs b n).map b36) := by
    cases neg with
    | true => rfl
    | false =>
      simp only [Bool.false_eq_true, if_false, List.nil_append]
      rw [e]
      simp only [List.map_cons]
      unfold takeSign
      split
      · rename_i heq; simp only [List.cons.injEq] at heq; exact absurd heq.1 facts.2.2.2.1
      · rename_i heq; simp only [List.cons.injEq] at heq; exact absurd heq.1 facts.2.2.2.2.1
      · rfl
  simp only [pyIntBase, hstrip, hsign, hdrop]
  rw [e] at hdig ⊢
  simp only [List.map_cons] at hdig ⊢
  rw [hdig]
  rfl

/-- The value of digits, least significant first. -/
def lsd (b : Int) : List Int → Int
  | [] => 0
  | d :: l => d + b * lsd b l

theorem lsd_append (b : Int) : ∀ l d, lsd b (l ++ [d]) = lsd b l + b ^ l.length * d := by
  intro l
  induction l with
  | nil => intro d; simp [lsd]
  | cons x l ih =>
    intro d
    simp only [List.cons_append, lsd, ih, List.length_cons]
    rw [Int.mul_add, Int.add_assoc, ← Int.mul_assoc, Int.pow_succ, Int.mul_comm b (b ^ l.length)]

theorem fromDigitsLoop_eq (X : Ext) (b : Int) : ∀ (l : List Int) (e : Nat) (acc : Int),
    fromDigitsLoop X (.int b) (l.map ofInt) e (.int acc) = .ok (some (.int (acc + b ^ e * lsd b l))) := by
  intro l
  induction l with
  | nil => intro e acc; simp [fromDigitsLoop, lsd]
  | cons d l ih =>
    intro e acc
    have hp : npow X (.int b) (.int (e : Int)) = .ok (.int (b ^ e)) := by
      simp only [npow]; rw [if_pos (by omega)]; simp
    simp only [List.map_cons, ofInt, fromDigitsLoop, toNum_showInt, hp, nmul, nadd, bind, Except.bind]
    rw [ih (e + 1) (acc + d * b ^ e)]
    simp only [lsd]
    congr 3
    rw [Int.mul_add, Int.add_assoc, Int.mul_comm d, ← Int.mul_assoc, Int.pow_succ]

theorem lsd_reverse (b : Nat) (sign : Int) : ∀ l : List Nat,
    lsd b ((l.map fun d : Nat => sign * (d : Int)).reverse) = sign * (ofDigits b l : Int) := by
  intro l
  have key : ∀ r : List Nat, lsd b (r.map fun d : Nat => sign * (d : Int)) = sign * (ofDigits b r.reverse : Int) := by
    intro r
    induction r with
    | nil => simp [lsd, ofDigits]
    | cons d r ih =>
      simp only [List.map_cons, lsd, ih, List.reverse_cons]
      simp only [ofDigits, List.foldl_append, List.foldl_cons, List.foldl_nil]
      rw [Int.natCast_add, Int.natCast_mul, Int.mul_add]
      rw [Int.add_comm, ← Int.mul_assoc, ← Int.mul_assoc, Int.mul_comm (b : Int), Int.mul_assoc sign,
        Int.mul_assoc sign, Int.mul_comm (b : Int)]
  rw [← List.map_reverse, key, List.reverse_reverse]

end Pip
