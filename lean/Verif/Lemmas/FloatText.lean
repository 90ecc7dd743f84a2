import Verif.Lemmas.Decimal
import Verif.Lemmas.Lex
/-! The texts of floats match the regular expression for floats, and their numbers. -/

namespace Pip
open Rgx Scan

/-- Only digits -/
def Digs (s : Str) : Prop := ∀ c ∈ s, isDigit c = true

theorem Digs.append {a b : Str} (ha : Digs a) (hb : Digs b) : Digs (a ++ b) := by
  intro c hc
  rcases List.mem_append.1 hc with h | h
  · exact ha c h
  · exact hb c h

theorem Digs.take {a : Str} (ha : Digs a) (n : Nat) : Digs (a.take n) := fun c hc => ha c (List.mem_of_mem_take hc)
theorem Digs.drop {a : Str} (ha : Digs a) (n : Nat) : Digs (a.drop n) := fun c hc => ha c (List.mem_of_mem_drop hc)
theorem Digs.zeros (n : Nat) : Digs (List.replicate n '0') := by
  intro c hc
  rw [(List.mem_replicate.1 hc).2]; decide +kernel

/-- An exponent with its sign after `e`, or nothing -/
def ExpText (e : Str) (x : Int) : Prop :=
  e = [] ∧ x = 0 ∨ ∃ sg ds, e = 'e' :: sg :: ds ∧ ds ≠ [] ∧ Digs ds ∧
    (sg = '+' ∧ x = parseNat ds ∨ sg = '-' ∧ x = -parseNat ds)

/-- A text of a float without a sign, and its number -/
inductive FloatText : Str → Rat → Prop
  | point {a b e : Str} {x : Int} : a ≠ [] → Digs a → Digs b → ExpText e x →
      FloatText (a ++ '.' :: (b ++ e)) (parseNat (a ++ b) * (10 : Rat) ^ (x - b.length))
  | noPoint {a e : Str} {x : Int} : a ≠ [] → Digs a → ExpText e x → e ≠ [] →
      FloatText (a ++ e) (parseNat a * (10 : Rat) ^ x)

theorem ExpText.head {e : Str} {x : Int} (h : ExpText e x) : ∀ c r, e = c :: r → c = 'e' := by
  intro c r hc
  rcases h with ⟨rfl, -⟩ | ⟨sg, ds, rfl, -⟩
  · cases hc
  · cases hc; rfl

theorem dropWhile_append_stop {p : Char → Bool} {a b : Str} (ha : ∀ c ∈ a, p c = true)
    (hb : ∀ c r, b = c :: r → p c = false) : (a ++ b).dropWhile p = b := by
  induction a with
  | nil =>
    cases b with
    | nil => rfl
    | cons c r => simp [hb c r rfl]
  | cons c a ih => simp [ha c (by simp), ih (fun x hx => ha x (by simp [hx]))]

theorem takeWhile_append_stop {p : Char → Bool} {a b : Str} (ha : ∀ c ∈ a, p c = true)
    (hb : ∀ c r, b = c :: r → p c = false) : (a ++ b).takeWhile p = a := by
  induction a with
  | nil =>
    cases b with
    | nil => rfl
    | cons c r => simp [hb c r rfl]
  | cons c a ih => simp [ha c (by simp), ih (fun x hx => ha x (by simp [hx]))]

theorem isDigit_e : isDigit 'e' = false := by decide +kernel
theorem isDigit_dot : isDigit '.' = false := by decide +kernel
theorem isDigit_minus : isDigit '-' = false := by decide +kernel

/-! ### The regular expression -/

theorem run_plus_digit {s : Str} {c : Char} (h : isDigit c = true) :
    (Rgx.plus (.chr isDigit)).run (c :: s) = (Rgx.star (.chr isDigit)).run s := by
  unfold Rgx.plus
  rw [run_seq, Rgx.run_chr_cons, if_pos h]
  simp

theorem head_plus {s : Str} (hne : s ≠ []) (h : Digs s) : ((Rgx.plus (.chr isDigit)).run s).head? = some [] := by
  cases s with
  | nil => exact absurd rfl hne
  | cons c r =>
    rw [run_plus_digit (h c (by simp)), Rgx.run_star_chr_head, dropWhile_all (fun x hx => h x (by simp [hx]))]

theorem run_plus_seq {a s : Str} {B : Rgx} (hne : a ≠ []) (ha : Digs a) (hs : ∀ c r, s = c :: r → isDigit c = false)
    (hB : ∀ c cs, isDigit c = true → B.run (c :: cs) = []) :
    (Rgx.seq (Rgx.plus (.chr isDigit)) B).run (a ++ s) = B.run s := by
  cases a with
  | nil => exact absurd rfl hne
  | cons c r =>
    have := Rgx.run_star_chr_seq isDigit B hB (r ++ s)
    rw [run_seq] at this
    rw [List.cons_append, run_seq, run_plus_digit (ha c (by simp)), this,
      dropWhile_append_stop (fun x hx => ha x (by simp [hx])) hs]

theorem head_exp {e : Str} {x : Int} (h : ExpText e x) (hne : e ≠ []) : (expRgx.run e).head? = some [] := by
  rcases h with ⟨rfl, -⟩ | ⟨sg, ds, rfl, hd, hds, hs⟩
  · exact absurd rfl hne
  · unfold expRgx Rgx.cls
    have : (s% "+-").elem sg = true := by rcases hs with ⟨rfl, -⟩ | ⟨rfl, -⟩ <;> rfl
    rw [run_seq, run_lit_cons, if_pos (by rfl), List.flatMap_cons, List.flatMap_nil, List.append_nil, run_seq,
      Rgx.run_chr_cons]
    simp only [this, if_true, List.flatMap_cons, List.flatMap_nil, List.append_nil]
    exact head_plus hd hds

theorem head_optExp {e : Str} {x : Int} (h : ExpText e x) : ((Rgx.opt expRgx).run e).head? = some [] := by
  unfold Rgx.opt
  rw [run_alt, List.head?_append]
  by_cases hne : e = []
  · subst hne; rfl
  · rw [head_exp h hne]; rfl

theorem head_flatMap {α β} {l : List α} {a : α} {b : β} {f : α → List β} (h : l.head? = some a) (hf : (f a).head? = some b) :
    (l.flatMap f).head? = some b := by
  cases l with
  | nil => cases h
  | cons x l =>
    cases h
    rw [List.flatMap_cons, List.head?_append, hf]; rfl

theorem run_lit_digit {a c : Char} {cs : Str} (h : isDigit c = true) (ha : isDigit a = false) : (Rgx.lit a).run (c :: cs) = [] := by
  rw [run_lit_cons, if_neg]
  intro e
  rw [beq_iff_eq] at e
  rw [e, ha] at h; cases h

theorem FloatText.cons {s : Str} {v : Rat} (h : FloatText s v) : ∃ c r, s = c :: r ∧ isDigit c = true := by
  cases h with
  | point ha hd =>
    rename_i a b e x hb he
    cases a with
    | nil => exact absurd rfl ha
    | cons c r => exact ⟨c, _, rfl, hd c (by simp)⟩
  | noPoint ha hd =>
    rename_i a e x hb he
    cases a with
    | nil => exact absurd rfl ha
    | cons c r => exact ⟨c, _, rfl, hd c (by simp)⟩

/-- The regular expression after the sign -/
def floatAlts : Rgx := Rgx.alts
    [.seq (Rgx.plus (.chr isDigit)) (.seq (Rgx.lit '.') (.seq (.star (.chr isDigit)) (Rgx.opt expRgx))),
     .seq (Rgx.plus (.chr isDigit)) expRgx,
     .seq (Rgx.lit '.') (.seq (Rgx.plus (.chr isDigit)) (Rgx.opt expRgx))]

theorem run_seq_lit_digit {a c : Char} {cs : Str} {B : Rgx} (h : isDigit c = true) (ha : isDigit a = false) :
    (Rgx.seq (Rgx.lit a) B).run (c :: cs) = [] := by
  rw [run_seq, run_lit_digit h ha]; rfl

theorem head_floatAlts {s : Str} {v : Rat} (h : FloatText s v) : (floatAlts.run s).head? = some [] := by
  unfold floatAlts
  rw [run_alts, List.flatMap_cons, List.flatMap_cons, List.head?_append, List.head?_append]
  cases h with
  | point ha hd hb he =>
    rename_i a b e x
    rw [run_plus_seq ha hd (fun c r hc => by cases hc; exact isDigit_dot) (fun c cs h => run_seq_lit_digit h isDigit_dot),
      run_seq, run_lit_cons, if_pos (by rfl), List.flatMap_cons, List.flatMap_nil, List.append_nil, run_seq]
    rw [head_flatMap (a := e) (b := []) _ (head_optExp he)]
    · rfl
    · rw [Rgx.run_star_chr_head, dropWhile_append_stop hb]
      intro c r hc
      rw [he.head c r hc]; exact isDigit_e
  | noPoint ha hd he hne =>
    rename_i a e x
    have hs : ∀ c r, e = c :: r → isDigit c = false := fun c r hc => by rw [he.head c r hc]; exact isDigit_e
    rw [run_plus_seq ha hd hs (fun c cs h => run_seq_lit_digit h isDigit_dot),
      run_plus_seq (B := expRgx) ha hd hs (fun c cs h => run_seq_lit_digit h isDigit_e), head_exp he hne]
    have : (Rgx.seq (Rgx.lit '.') (.seq (.star (.chr isDigit)) (Rgx.opt expRgx))).run e = [] := by
      cases e with
      | nil => rfl
      | cons c r => rw [he.head c r rfl]; rfl
    rw [this]; rfl

theorem run_pyFloat (s : Str) : pyFloatRgx.run s = (Rgx.seq (Rgx.opt (Rgx.lit '-')) floatAlts).run s := rfl

theorem FloatText.match_plain {s : Str} {v : Rat} (h : FloatText s v) : pyFloatRgx.match? s = some (s, []) := by
  obtain ⟨c, r, e, hc⟩ := h.cons
  have : (pyFloatRgx.run s).head? = some [] := by
    rw [run_pyFloat, run_seq]
    unfold Rgx.opt
    rw [run_alt, e, run_lit_digit hc isDigit_minus, ← e]
    simp only [run_eps, List.nil_append, List.flatMap_cons, List.flatMap_nil, List.append_nil]
    exact head_floatAlts h
  rw [Rgx.match?_eq, this]; simp

theorem FloatText.match_minus {s : Str} {v : Rat} (h : FloatText s v) : pyFloatRgx.match? ('-' :: s) = some ('-' :: s, []) := by
  have : (pyFloatRgx.run ('-' :: s)).head? = some [] := by
    rw [run_pyFloat, run_seq]
    unfold Rgx.opt
    rw [run_alt, run_lit_cons, if_pos (by rfl)]
    exact head_flatMap rfl (head_floatAlts h)
  rw [Rgx.match?_eq, this]; simp

theorem FloatText.lstrip {s : Str} {v : Rat} (h : FloatText s v) : lstrip s = s := by
  obtain ⟨c, r, rfl, hc⟩ := h.cons
  unfold Pip.lstrip
  rw [List.dropWhile_cons, isDigit_space hc]; rfl

theorem lstrip_minus (s : Str) : lstrip ('-' :: s) = '-' :: s := by
  unfold lstrip
  rw [List.dropWhile_cons]; rfl

/-! ### The number -/

theorem Digs.no {s : Str} (h : Digs s) {a : Char} (ha : isDigit a = false) : ∀ c ∈ s, (c != a) = true := by
  intro c hc
  rw [bne_iff_ne]
  rintro rfl
  rw [h c hc] at ha; cases ha

theorem FloatText.decVal {s : Str} {v : Rat} (h : FloatText s v) : Dbl.decVal s = v := by
  have hexp : ∀ {e : Str} {x : Int}, ExpText e x → Dbl.expVal (e.drop 1) = x := by
    intro e x h
    rcases h with ⟨rfl, rfl⟩ | ⟨sg, ds, rfl, -, -, ⟨rfl, rfl⟩ | ⟨rfl, rfl⟩⟩ <;> rfl
  unfold Dbl.decVal
  cases h with
  | point ha hd hb he =>
    rename_i a b e x
    have hp : ∀ c ∈ a ++ '.' :: b, (c != 'e') = true := by
      intro c hc
      rcases List.mem_append.1 hc with h | h
      · exact hd.no isDigit_e c h
      · rcases List.mem_cons.1 h with rfl | h
        · decide
        · exact hb.no isDigit_e c h
    have hs : ∀ c r, e = c :: r → (c != 'e') = false := fun c r hc => by rw [he.head c r hc]; decide
    have e1 : a ++ '.' :: (b ++ e) = (a ++ '.' :: b) ++ e := by simp
    have hs' : ∀ c r, '.' :: b = c :: r → (c != '.') = false := fun c r hc => by cases hc; decide
    rw [e1, takeWhile_append_stop hp hs, dropWhile_append_stop hp hs, hexp he]
    dsimp only
    rw [takeWhile_append_stop (hd.no isDigit_dot) hs', dropWhile_append_stop (hd.no isDigit_dot) hs']
    rfl
  | noPoint ha hd he hne =>
    rename_i a e x
    have hs : ∀ c r, e = c :: r → (c != 'e') = false := fun c r hc => by rw [he.head c r hc]; decide
    rw [takeWhile_append_stop (hd.no isDigit_e) hs, dropWhile_append_stop (hd.no isDigit_e) hs, hexp he]
    have h1 := takeWhile_append_stop (b := []) (hd.no isDigit_dot) (fun c r h => by cases h)
    have h2 := dropWhile_append_stop (b := []) (hd.no isDigit_dot) (fun c r h => by cases h)
    rw [List.append_nil] at h1 h2
    dsimp only
    rw [h1, h2]
    simp

theorem FloatText.parse_plain {s : Str} {v : Rat} (h : FloatText s v) : Dbl.parse s = Dbl.round v := by
  obtain ⟨c, r, e, hc⟩ := h.cons
  unfold Dbl.parse
  split
  · cases e
    rw [isDigit_minus] at hc; cases hc
  · rw [h.decVal]

theorem FloatText.parse_minus {s : Str} {v : Rat} (h : FloatText s v) : Dbl.parse ('-' :: s) = Dbl.round (-v) := by
  show Dbl.round (-Dbl.decVal s) = _
  rw [h.decVal]

theorem FloatText.toNum_plain {s : Str} {v : Rat} (h : FloatText s v) (X : Ext) (L : Libm X.Rng) :
    toNum (X.withDbl L) s = .flt (Dbl.round v) := by
  unfold toNum
  rw [h.lstrip, h.match_plain]
  exact congrArg Num.flt h.parse_plain

theorem FloatText.toNum_minus {s : Str} {v : Rat} (h : FloatText s v) (X : Ext) (L : Libm X.Rng) :
    toNum (X.withDbl L) ('-' :: s) = .flt (Dbl.round (-v)) := by
  unfold toNum
  rw [lstrip_minus, h.match_minus]
  exact congrArg Num.flt h.parse_minus

/-! ### The layout -/

theorem parseNat_append (a b : Str) : parseNat (a ++ b) = parseNat a * 10 ^ b.length + parseNat b := by
  have key : ∀ (l : Str) (n : Nat), l.foldl (fun acc c => acc * 10 + digitVal c) n
      = n * 10 ^ l.length + l.foldl (fun acc c => acc * 10 + digitVal c) 0 := by
    intro l
    induction l with
    | nil => intro n; simp
    | cons c l ih =>
      intro n
      simp only [List.foldl_cons, List.length_cons]
      rw [ih (n * 10 + digitVal c), ih (0 * 10 + digitVal c)]
      ring
  unfold parseNat
  rw [List.foldl_append, key]

theorem digitVal_zero : digitVal '0' = 0 := by decide +kernel

theorem parseNat_zeros (n : Nat) : parseNat (List.replicate n '0') = 0 := by
  induction n with
  | zero => rfl
  | succ n ih =>
    rw [List.replicate_succ', parseNat_append, ih]
    simp [parseNat, digitVal_zero]

theorem showExp_text (e : Int) : ExpText ('e' :: Dbl.showExp e) e := by
  have hz : parseNat (s% "0" ++ showNat e.natAbs) = e.natAbs := by
    rw [parseNat_append, parseNat_showNat]
    have : parseNat (s% "0") = 0 := by decide +kernel
    rw [this]; simp
  have hp : parseNat ((if e.natAbs < 10 then s% "0" else []) ++ showNat e.natAbs) = e.natAbs := by
    split
    · exact hz
    · exact parseNat_showNat _
  have hd : Digs ((if e.natAbs < 10 then s% "0" else []) ++ showNat e.natAbs) := by
    refine Digs.append ?_ (showNat_all _)
    split
    · exact Digs.zeros 1
    · intro c hc; cases hc
  have hn : (if e.natAbs < 10 then s% "0" else []) ++ showNat e.natAbs ≠ [] := by
    intro h
    exact showNat_ne _ (List.append_eq_nil_iff.1 h).2
  right
  unfold Dbl.showExp
  by_cases h : e < 0
  · refine ⟨'-', _, ?_, hn, hd, .inr ⟨rfl, ?_⟩⟩
    · rw [if_pos h]; rfl
    · rw [hp]; omega
  · refine ⟨'+', _, ?_, hn, hd, .inl ⟨rfl, ?_⟩⟩
    · rw [if_neg h]; rfl
    · rw [hp]; omega

theorem layout_text {ds : Str} (hne : ds ≠ []) (hd : Digs ds) (p : Int) :
    FloatText (Dbl.layout ds (ds.length + p)) (parseNat ds * (10 : Rat) ^ p) := by
  generalize hk : (ds.length : Int) + p = k
  have hl : 0 < ds.length := List.length_pos_iff.2 hne
  unfold Dbl.layout
  have nil0 : ExpText [] 0 := .inl ⟨rfl, rfl⟩
  split
  · split
    next h1 h2 =>
      have := FloatText.point (a := s% "0") (b := List.replicate (-k).toNat '0' ++ ds) (by decide) (Digs.zeros 1)
        ((Digs.zeros _).append hd) nil0
      convert this using 1
      · simp
      · have hv : parseNat (s% "0" ++ (List.replicate (-k).toNat '0' ++ ds)) = parseNat ds := by
          rw [parseNat_append, parseNat_append, parseNat_zeros]
          have : parseNat (s% "0") = 0 := by decide +kernel
          rw [this]; simp
        rw [hv]
        congr 2
        simp only [List.length_append, List.length_replicate]
        omega
    next h1 h2 =>
      split
      next h3 =>
        have := FloatText.point (a := ds ++ List.replicate (k.toNat - ds.length) '0') (b := s% "0")
          (by simp [hne]) (hd.append (Digs.zeros _)) (Digs.zeros 1) nil0
        convert this using 1
        · simp
        · rw [parseNat_append, parseNat_append, parseNat_zeros, show parseNat (s% "0") = 0 by decide +kernel]
          simp only [List.length_replicate, List.length_cons, List.length_nil]
          have hp : p = ((k.toNat - ds.length : ℕ) : ℤ) := by omega
          rw [hp, Dbl.ten_nat]
          push_cast
          norm_num
          ring
      next h3 =>
        have := FloatText.point (a := ds.take k.toNat) (b := ds.drop k.toNat)
          (by
            intro e
            have := congrArg List.length e
            simp only [List.length_take, List.length_nil] at this
            omega) (hd.take _) (hd.drop _) nil0
        convert this using 1
        · simp
        · rw [List.take_append_drop]
          congr 2
          simp only [List.length_drop]
          omega
  · split
    next h1 h2 =>
      have := FloatText.noPoint (a := ds) hne hd (showExp_text (k - 1)) (by simp)
      convert this using 1
      · rw [List.take_of_length_le (by omega)]; simp
      · congr 2; omega
    next h1 h2 =>
      have := FloatText.point (a := ds.take 1) (b := ds.drop 1)
          (by
            intro e
            have := congrArg List.length e
            simp only [List.length_take, List.length_nil] at this
            omega) (hd.take _) (hd.drop _) (showExp_text (k - 1))
      convert this using 1
      · simp
      · rw [List.take_append_drop]
        congr 2
        simp only [List.length_drop]
        omega

/-! ### Which texts end with `.0` -/

theorem suffix_pair {s : Str} (h : s% ".0" <:+ s) : ∃ t, s = t ++ s% ".0" := ⟨h.choose, h.choose_spec.symm⟩

theorem not_suffix_last {a ds : Str} (hne : ds ≠ []) (hl : parseNat ds % 10 ≠ 0) : ¬ s% ".0" <:+ a ++ ds := by
  intro h
  obtain ⟨l, c, rfl⟩ : ∃ l c, ds = l ++ [c] := ⟨_, _, (List.dropLast_append_getLast hne).symm⟩
  obtain ⟨t, ht⟩ := suffix_pair h
  have hc : c = '0' := by
    have e : (a ++ (l ++ [c])).getLast? = (t ++ s% ".0").getLast? := by rw [ht]
    rw [← List.append_assoc, List.getLast?_concat, show t ++ s% ".0" = (t ++ ['.']) ++ ['0'] by simp, List.getLast?_concat] at e
    exact Option.some.inj e
  subst hc
  apply hl
  rw [parseNat_append]
  have : parseNat ['0'] = 0 := by decide +kernel
  rw [this]
  simp

theorem not_suffix_digits {a ds : Str} (hd : Digs ds) (hl : 2 ≤ ds.length) : ¬ s% ".0" <:+ a ++ ds := by
  intro h
  have h2 : s% ".0" <:+ ds := List.suffix_of_suffix_length_le h (List.suffix_append a ds) hl
  have : '.' ∈ ds := h2.subset (by decide)
  have := hd _ this
  rw [isDigit_dot] at this; cases this

theorem showNat_length {n : Nat} (h : 10 ≤ n) : 2 ≤ (showNat n).length := by
  by_contra hc
  have h1 : (showNat n).length = 1 := by
    have := List.length_pos_iff.2 (showNat_ne n); omega
  obtain ⟨c, hcn⟩ := List.length_eq_one_iff.1 h1
  have h2 := parseNat_showNat n
  unfold showNat at hcn
  obtain ⟨d, hd, e⟩ := List.map_eq_singleton_iff.1 hcn
  have hlt := natDigits_lt 10 n (by omega) d (by rw [hd]; simp)
  unfold showNat at h2
  rw [hd] at h2
  have : parseNat [digitChar d] = d := by
    unfold parseNat
    simp [digitVal_digitChar hlt]
  rw [List.map_singleton, this] at h2
  omega

theorem layout_suffix {ds : Str} (hne : ds ≠ []) (hl : parseNat ds % 10 ≠ 0) (p : Int)
    (h : s% ".0" <:+ Dbl.layout ds (ds.length + p)) : 0 ≤ p := by
  generalize hk : (ds.length : Int) + p = k at h
  have hlen : 0 < ds.length := List.length_pos_iff.2 hne
  unfold Dbl.layout at h
  split at h
  · split at h
    · exact absurd h (not_suffix_last hne hl)
    · split at h
      · omega
      · next h1 h2 h3 =>
        refine absurd h (not_suffix_last ?_ ?_)
        · intro e
          have := congrArg List.length e
          simp only [List.length_drop, List.length_nil] at this
          omega
        · intro e
          apply hl
          have hn : ds.drop k.toNat ≠ [] := by
            intro e
            have := congrArg List.length e
            simp only [List.length_drop, List.length_nil] at this
            omega
          rw [← List.take_append_drop k.toNat ds, parseNat_append]
          obtain ⟨n, hn⟩ : ∃ n, (ds.drop k.toNat).length = n + 1 :=
            Nat.exists_eq_succ_of_ne_zero (by rw [ne_eq, List.length_eq_zero_iff]; exact hn)
          rw [hn, pow_succ, ← mul_assoc, Nat.add_mod, Nat.mul_mod_left, e]
  · exfalso
    have hx : ∃ a xs, Dbl.showExp (k - 1) = a ++ xs ∧ Digs xs ∧ 2 ≤ xs.length := by
      unfold Dbl.showExp
      refine ⟨_, (if (k - 1).natAbs < 10 then s% "0" else []) ++ showNat (k - 1).natAbs, List.append_assoc _ _ _, ?_, ?_⟩
      · refine Digs.append ?_ (showNat_all _)
        split
        · exact Digs.zeros 1
        · intro c hc; cases hc
      · split
        · have := List.length_pos_iff.2 (showNat_ne (k - 1).natAbs)
          simp only [List.length_append, List.length_cons, List.length_nil]; omega
        · have := showNat_length (n := (k - 1).natAbs) (by omega)
          simpa using this
    obtain ⟨a, xs, e, hxs, hxl⟩ := hx
    rw [e, ← List.append_assoc] at h
    exact not_suffix_digits hxs hxl h

/-! ### There and back -/

namespace Dbl

/-- The finite floats -/
def IsDouble (x : ℚ) : Prop := Digits53 x ∧ |x| < top

theorem IsDouble.neg {x : ℚ} (h : IsDouble x) : IsDouble (-x) := ⟨h.1.neg, by rw [abs_neg]; exact h.2⟩

theorem round_eq {x q : ℚ} (h : IsDouble q) (hx : rnd x = q) : round x = .fin q := by
  unfold round
  have := abs_lt.1 h.2
  rw [hx, if_neg (by linarith), if_neg (by linarith)]

theorem lastExp_nonneg {q : ℚ} (h : 2 ^ 53 ≤ q) : 0 ≤ lastExp q := by
  have hpos : 0 < q := lt_of_lt_of_le (by norm_num) h
  have := (ilog2_spec hpos).2
  have h2 : (2 : ℚ) ^ (53 : ℤ) < 2 ^ (ilog2 q + 1) := lt_of_le_of_lt (by norm_num; exact h) this
  have := two_lt_iff.1 h2
  unfold lastExp
  omega

/-- Rounding gives an integer for an integer. -/
theorem rnd_isInt (i : ℤ) : ∃ j : ℤ, rnd (i : ℚ) = j := by
  by_cases h : |i| ≤ 2 ^ 53
  · exact ⟨i, rnd_int h⟩
  · obtain ⟨z, hz⟩ := rnd_multiple (i : ℚ)
    have hE : 0 ≤ lastExp |(i : ℚ)| := by
      apply lastExp_nonneg
      rw [not_le] at h
      have : ((2 ^ 53 : ℤ) : ℚ) ≤ ((|i| : ℤ) : ℚ) := by exact_mod_cast h.le
      rw [Int.cast_abs] at this
      refine le_trans ?_ this
      norm_num
    refine ⟨z * 2 ^ (lastExp |(i : ℚ)|).toNat, ?_⟩
    rw [hz]
    unfold unit
    conv_lhs => rw [show lastExp |(i : ℚ)| = ((lastExp |(i : ℚ)|).toNat : ℤ) by omega, two_nat]
    push_cast
    rfl

theorem truncRat_int (i : ℤ) : truncRat (i : ℚ) = i := by
  unfold truncRat
  split
  · exact Rat.ceil_intCast i
  · show ⌊(i : ℚ)⌋ = i
    exact Int.floor_intCast i

theorem showPos_text {q : ℚ} (h : 0 < q) (hd : IsDouble q) :
    ∃ v, FloatText (showPos q) v ∧ rnd v = q ∧ (s% ".0" <:+ showPos q → ∃ i : ℤ, q = i) := by
  have ht : q < top := lt_of_le_of_lt (le_abs_self q) hd.2
  obtain ⟨h1, h2⟩ := digitsOf_spec h hd.1 ht
  rw [showPos_eq]
  generalize digitsOf q = x at *
  have hp := parseNat_showNat x.1
  have := layout_text (showNat_ne x.1) (showNat_all x.1) x.2
  rw [hp] at this
  refine ⟨_, this, h1, fun hs => ?_⟩
  have hnn := layout_suffix (showNat_ne x.1) (by rw [hp]; exact h2) x.2 hs
  have e : (x.1 : ℚ) * 10 ^ x.2 = (((x.1 * 10 ^ x.2.toNat : ℕ) : ℤ) : ℚ) := by
    conv_lhs => rw [show x.2 = (x.2.toNat : ℤ) by omega, ten_nat]
    push_cast
    rfl
  obtain ⟨j, hj⟩ := rnd_isInt ((x.1 * 10 ^ x.2.toNat : ℕ) : ℤ)
  refine ⟨j, ?_⟩
  rw [← h1, e]
  exact hj

theorem suffix_minus {s : Str} (h : s% ".0" <:+ '-' :: s) : s% ".0" <:+ s := by
  rcases List.suffix_cons_iff.1 h with h | h
  · exact absurd (congrArg List.head? h) (by simp)
  · exact h

end Dbl

/-- The text of a float has the float as its number, or the same integer. -/
theorem toNum_numStr_dbl (X : Ext) (L : Libm X.Rng) {q : ℚ} (hd : Dbl.IsDouble q) :
    (toNum (X.withDbl L) (numStr (X.withDbl L) (.flt (.fin q))) = .flt (.fin q)) ∨
    ∃ i : ℤ, q = i ∧ numStr (X.withDbl L) (.flt (.fin q)) = showInt i := by
  have hn : numStr (X.withDbl L) (.flt (.fin q)) =
    if (s% ".0").isSuffixOf (Dbl.str (.fin q)) then showInt (Dbl.truncRat q) else Dbl.str (.fin q) := rfl
  have hint : ∀ i : ℤ, q = i → showInt (Dbl.truncRat q) = showInt i := by
    rintro i rfl; rw [Dbl.truncRat_int]
  rw [hn]
  rcases lt_trichotomy q 0 with h | h | h
  · obtain ⟨v, hv, hr, hs⟩ := Dbl.showPos_text (q := -q) (by linarith) hd.neg
    have hstr : Dbl.str (.fin q) = '-' :: Dbl.showPos (-q) := by
      show (if q = 0 then _ else if q < 0 then _ else _) = _
      rw [if_neg h.ne, if_pos h]
    rw [hstr]
    split
    next hsuf =>
      right
      obtain ⟨i, hi⟩ := hs (Dbl.suffix_minus (List.isSuffixOf_iff_suffix.1 hsuf))
      have : q = ((-i : ℤ) : ℚ) := by push_cast; linarith
      exact ⟨-i, this, hint _ this⟩
    next =>
      left
      rw [hv.toNum_minus]
      congr 1
      exact Dbl.round_eq hd (by rw [Dbl.rnd_neg, hr, neg_neg])
  · right
    subst h
    refine ⟨0, by simp, ?_⟩
    have : Dbl.str (.fin 0) = s% "0.0" := rfl
    rw [this, if_pos (by decide)]
    exact hint 0 (by simp)
  · obtain ⟨v, hv, hr, hs⟩ := Dbl.showPos_text h hd
    have hstr : Dbl.str (.fin q) = Dbl.showPos q := by
      show (if q = 0 then _ else if q < 0 then _ else _) = _
      rw [if_neg h.ne', if_neg (by linarith)]
    rw [hstr]
    split
    next hsuf =>
      right
      obtain ⟨i, hi⟩ := hs (List.isSuffixOf_iff_suffix.1 hsuf)
      exact ⟨i, hi, hint _ hi⟩
    next =>
      left
      rw [hv.toNum_plain]
      congr 1
      exact Dbl.round_eq hd hr

end Pip
