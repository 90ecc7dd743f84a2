import Verif.Lemmas.Num
import Verif.Spec.Values
/-! Helper lemmas about values. -/

set_option linter.unusedSimpArgs false
set_option linter.unusedVariables false

namespace Pip
open Rgx Scan

/-! ### Cyclic slices -/

/-- `m` copies of `l`. -/
def reps {α : Type} (m : Nat) (l : List α) : List α := (List.replicate m l).flatten

theorem reps_succ {α : Type} (m : Nat) (l : List α) : reps (m + 1) l = l ++ reps m l := by
  simp [reps, List.replicate_succ]

theorem reps_succ' {α : Type} (m : Nat) (l : List α) : reps (m + 1) l = reps m l ++ l := by
  simp [reps, List.replicate_succ']

theorem reps_one {α : Type} (l : List α) : reps 1 l = l := by simp [reps]

theorem reps_length {α : Type} (m : Nat) (l : List α) : (reps m l).length = m * l.length := by
  simp [reps]

theorem reps_get {α : Type} (l : List α) : ∀ (m i : Nat), i < m * l.length → (reps m l)[i]? = l[i % l.length]? := by
  intro m
  induction m with
  | zero => intro i h; omega
  | succ m ih =>
    intro i h
    rw [reps_succ]
    by_cases hi : i < l.length
    · rw [List.getElem?_append_left hi, Nat.mod_eq_of_lt hi]
    · rw [List.getElem?_append_right (by omega), ih _ (by rw [Nat.succ_mul] at h; omega)]
      rw [Nat.mod_eq_sub_mod (by omega : i ≥ l.length)]

theorem padFront_spec {α : Type} (l : List α) (hl : l ≠ []) :
    ∀ (f : Nat) (start stop : Int) (m : Nat), start.natAbs ≤ f ∨ 0 ≤ start →
      ∃ (j m' : Nat), padFront l f start stop (reps m l) = (start + j * l.length, stop + j * l.length, reps m' l) ∧
        0 ≤ start + j * l.length ∧ m ≤ m' := by
  have hn : 0 < l.length := List.length_pos_iff.2 hl
  intro f
  induction f with
  | zero =>
    intro start stop m h
    refine ⟨0, m, ?_, ?_, Nat.le_refl _⟩
    · simp [padFront]
    · have : 0 ≤ start := by rcases h with h | h <;> omega
      simpa using this
  | succ f ih =>
    intro start stop m h
    simp only [padFront]
    split
    · rename_i hneg
      rw [← reps_succ]
      obtain ⟨j, m', e, h1, h2⟩ := ih (start + l.length) (stop + l.length) (m + 1) (by omega)
      refine ⟨j + 1, m', ?_, ?_, by omega⟩
      · rw [e]
        have e1 : ((j + 1 : Nat) : Int) * (l.length : Int) = j * l.length + l.length := by
          rw [Int.natCast_add, Int.add_mul]; simp
        rw [e1]
        simp only [Prod.mk.injEq, and_true]
        constructor <;> omega
      · have e1 : ((j + 1 : Nat) : Int) * (l.length : Int) = j * l.length + l.length := by
          rw [Int.natCast_add, Int.add_mul]; simp
        omega
    · refine ⟨0, m, ?_, ?_, Nat.le_refl _⟩
      · simp
      · simp; omega

theorem padBack_spec {α : Type} (l : List α) (hl : l ≠ []) :
    ∀ (f : Nat) (stop : Int) (m : Nat), stop.toNat ≤ f + (reps m l).length →
      ∃ m', padBack l f stop (reps m l) = reps m' l ∧ stop ≤ (reps m' l).length := by
  have hn : 0 < l.length := List.length_pos_iff.2 hl
  intro f
  induction f with
  | zero =>
    intro stop m h
    exact ⟨m, rfl, by omega⟩
  | succ f ih =>
    intro stop m h
    simp only [padBack]
    split
    · rw [← reps_succ']
      apply ih
      rw [reps_succ', List.length_append]; omega
    · exact ⟨m, rfl, by omega⟩

/-- Closed form of cyclic slicing. -/
theorem cycSlice_spec {α : Type} (l : List α) (hl : l ≠ []) (lo hi : Option Int) :
    (cycSlice l lo hi).length = (sliceBound l.length l.length hi - sliceBound l.length 0 lo).toNat ∧
    ∀ k : Nat, (k : Int) < sliceBound l.length l.length hi - sliceBound l.length 0 lo →
      (cycSlice l lo hi)[k]? = cyc l (sliceBound l.length 0 lo + k) := by
  have hn : 0 < l.length := List.length_pos_iff.2 hl
  have hemp : l.isEmpty = false := by cases l <;> simp_all
  have e1 : (if lo.getD 0 < 0 then lo.getD 0 + l.length else lo.getD 0) = sliceBound l.length 0 lo := by
    cases lo <;> simp [sliceBound]
  have e2 : (if hi.getD l.length < 0 then hi.getD l.length + l.length else hi.getD l.length)
      = sliceBound l.length l.length hi := by
    cases hi with
    | none => simp [sliceBound]; omega
    | some i => simp [sliceBound]
  unfold cycSlice
  simp only [hemp, Bool.false_eq_true, if_false, e1, e2]
  generalize sliceBound l.length 0 lo = S
  generalize sliceBound l.length l.length hi = E
  by_cases hse : S ≥ E
  · rw [if_pos hse]
    exact ⟨by simp; omega, fun k hk => by omega⟩
  · rw [if_neg hse]
    obtain ⟨j, m, e, hp, -⟩ := padFront_spec l hl S.natAbs S E 1 (.inl (Nat.le_refl _))
    rw [reps_one] at e
    rw [e]
    simp only
    obtain ⟨m', e', hlen⟩ := padBack_spec l hl (E + j * l.length).toNat (E + j * l.length) m (by omega)
    rw [e']
    refine ⟨?_, ?_⟩
    · simp only [List.length_take, List.length_drop]; omega
    · intro k hk
      rw [List.getElem?_take]
      rw [if_pos (by omega), List.getElem?_drop]
      rw [reps_length] at hlen
      rw [reps_get l m' _ (by omega)]
      unfold cyc
      congr 1
      have e3 : ((S + k) % (l.length : Int)) = ((S + j * l.length + k) % (l.length : Int)) := by
        rw [show S + j * l.length + k = S + k + l.length * j by rw [Int.mul_comm]; omega, Int.add_mul_emod_self_left]
      rw [e3]
      have e4 : (S + j * l.length + k) = (((S + j * l.length).toNat + k : Nat) : Int) := by omega
      rw [e4, ← Int.natCast_emod, Int.toNat_natCast]

theorem cycSlice_nil {α : Type} (lo hi : Option Int) : cycSlice ([] : List α) lo hi = [] := rfl

/-! ### Zero -/

theorem lang_star_lit {a : Char} : ∀ {w : Str}, (Rgx.star (Rgx.lit a)).Lang w ↔ ∃ k, w = List.replicate k a := by
  intro w
  constructor
  · intro h
    generalize hr : Rgx.star (Rgx.lit a) = r at h
    induction h with
    | starNil => exact ⟨0, rfl⟩
    | starCons hne hu hv ihu ihv =>
      cases hr
      obtain ⟨k, e⟩ := ihv rfl
      have := lang_lit hu
      subst this
      exact ⟨k + 1, by rw [e]; rfl⟩
    | _ => cases hr
  · rintro ⟨k, rfl⟩
    induction k with
    | zero => exact .starNil
    | succ k ih =>
      rw [List.replicate_succ, show a :: List.replicate k a = [a] ++ List.replicate k a from rfl]
      exact .starCons (by simp) (.chr (by simp)) ih

theorem lang_lit' {a : Char} {w : Str} : (Rgx.lit a).Lang w ↔ w = [a] :=
  ⟨lang_lit, fun h => by subst h; exact .chr (by simp)⟩

theorem lang_seq {a b : Rgx} {w : Str} : (Rgx.seq a b).Lang w ↔ ∃ u v, w = u ++ v ∧ a.Lang u ∧ b.Lang v := by
  constructor
  · intro h
    cases h with
    | seq h1 h2 => exact ⟨_, _, rfl, h1, h2⟩
  · rintro ⟨u, v, rfl, h1, h2⟩; exact .seq h1 h2

theorem lang_alt {a b : Rgx} {w : Str} : (Rgx.alt a b).Lang w ↔ a.Lang w ∨ b.Lang w := by
  constructor
  · intro h
    cases h with
    | altL h => exact .inl h
    | altR h => exact .inr h
  · rintro (h | h)
    · exact .altL h
    · exact .altR h

theorem lang_eps {w : Str} : Rgx.eps.Lang w ↔ w = [] := by
  constructor
  · intro h; cases h; rfl
  · rintro rfl; exact .eps

theorem lang_plus_lit {a : Char} {w : Str} : (Rgx.plus (Rgx.lit a)).Lang w ↔ ∃ k, w = List.replicate (k + 1) a := by
  unfold Rgx.plus
  simp only [lang_seq, lang_lit', lang_star_lit]
  constructor
  · rintro ⟨u, v, rfl, rfl, k, rfl⟩; exact ⟨k, rfl⟩
  · rintro ⟨k, rfl⟩; exact ⟨[a], _, rfl, rfl, k, rfl⟩

/-- The text part of `zeroRgx`. -/
def zeroBody : Rgx := Rgx.alts
    [.seq (Rgx.plus (Rgx.lit '0')) (Rgx.opt (.seq (Rgx.lit '.') (.star (Rgx.lit '0')))),
     .seq (.star (Rgx.lit '0')) (.seq (Rgx.lit '.') (Rgx.plus (Rgx.lit '0')))]

theorem lang_zero {w : Str} : zeroBody.Lang w ↔
    (∃ k, w = List.replicate (k + 1) '0') ∨ (∃ j k, 0 < j + k ∧ w = List.replicate j '0' ++ '.' :: List.replicate k '0') := by
  unfold zeroBody Rgx.alts Rgx.alts Rgx.opt
  simp only [lang_alt, lang_seq, lang_plus_lit, lang_star_lit, lang_lit', lang_eps]
  constructor
  · rintro (⟨u, v, rfl, ⟨j, rfl⟩, (⟨u, v, rfl, rfl, k, rfl⟩ | rfl)⟩ | ⟨u, v, rfl, ⟨j, rfl⟩, u, v, rfl, rfl, k, rfl⟩)
    · exact .inr ⟨j + 1, k, by omega, rfl⟩
    · exact .inl ⟨j, by simp⟩
    · exact .inr ⟨j, k + 1, by omega, rfl⟩
  · rintro (⟨k, rfl⟩ | ⟨j, k, hp, rfl⟩)
    · exact .inl ⟨_, [], by simp, ⟨k, rfl⟩, .inr rfl⟩
    · cases j with
      | zero =>
        obtain ⟨k, rfl⟩ : ∃ k', k = k' + 1 := ⟨k - 1, by omega⟩
        exact .inr ⟨[], _, rfl, ⟨0, rfl⟩, ['.'], _, rfl, rfl, k, rfl⟩
      | succ j => exact .inl ⟨_, _, rfl, ⟨j, rfl⟩, .inl ⟨['.'], _, rfl, rfl, k, rfl⟩⟩

theorem zeroText_forms {w : Str} : IsZeroText w ↔
    (∃ k, w = List.replicate (k + 1) '0') ∨ (∃ j k, 0 < j + k ∧ w = List.replicate j '0' ++ '.' :: List.replicate k '0') := by
  have all0 : ∀ w : Str, (∀ c ∈ w, c = '0' ∨ c = '.') → w.count '.' = 0 → ∃ k, w = List.replicate k '0' := by
    intro w h1 h2
    refine ⟨w.length, List.eq_replicate_iff.2 ⟨rfl, ?_⟩⟩
    intro c hc
    rcases h1 c hc with h | h
    · exact h
    · subst h; exact absurd hc (List.count_eq_zero.1 h2)
  constructor
  · rintro ⟨h1, h2, h3⟩
    by_cases hd : '.' ∈ w
    · obtain ⟨u, v, rfl⟩ := List.append_of_mem hd
      rw [List.count_append, List.count_cons_self] at h2
      obtain ⟨j, hj⟩ := all0 u (fun c hc => h1 c (by simp [hc])) (by omega)
      obtain ⟨k, hk⟩ := all0 v (fun c hc => h1 c (by simp [hc])) (by omega)
      refine .inr ⟨j, k, ?_, by rw [hj, hk]⟩
      subst hj hk
      simp at h3
      omega
    · obtain ⟨k, rfl⟩ := all0 w h1 (List.count_eq_zero.2 hd)
      cases k with
      | zero => simp at h3
      | succ k => exact .inl ⟨k, rfl⟩
  · rintro (⟨k, rfl⟩ | ⟨j, k, hp, rfl⟩)
    · refine ⟨fun c hc => .inl (List.eq_of_mem_replicate hc), ?_, by simp⟩
      rw [List.count_replicate]; simp
    · refine ⟨?_, ?_, ?_⟩
      · intro c hc
        simp at hc
        rcases hc with ⟨-, rfl⟩ | rfl | ⟨-, rfl⟩ <;> simp
      · rw [List.count_append, List.count_cons_self, List.count_replicate, List.count_replicate]; simp
      · simp; omega

theorem zeroBody_noEol : zeroBody.noEol := by
  simp [zeroBody, Rgx.noEol, Rgx.opt, Rgx.plus, Rgx.lit, Rgx.alts]

theorem zero_match (s : Str) : (zeroRgx.match? s).isSome = true ↔ IsZeroText s ∨ ∃ w, s = w ++ ['\n'] ∧ IsZeroText w := by
  have h1 : (zeroRgx.match? s).isSome = true ↔ ∃ r ∈ zeroBody.run s, r = [] ∨ r = ['\n'] := by
    have : zeroRgx = .seq zeroBody .eol := rfl
    rw [Rgx.match?_eq, this, run_seq]
    constructor
    · intro h
      cases hf : (zeroBody.run s).flatMap (Rgx.run .eol) with
      | nil => rw [hf] at h; simp at h
      | cons x xs =>
        have hx : x ∈ (zeroBody.run s).flatMap (Rgx.run .eol) := by rw [hf]; simp
        obtain ⟨r, hr, hx⟩ := List.mem_flatMap.1 hx
        refine ⟨r, hr, ?_⟩
        simp only [Rgx.run] at hx
        split at hx
        · assumption
        · simp at hx
    · rintro ⟨r, hr, h⟩
      have : r ∈ (zeroBody.run s).flatMap (Rgx.run .eol) :=
        List.mem_flatMap.2 ⟨r, hr, by simp only [Rgx.run]; rw [if_pos h]; simp⟩
      cases hf : (zeroBody.run s).flatMap (Rgx.run .eol) with
      | nil => rw [hf] at this; simp at this
      | cons x xs => simp
  rw [h1]
  constructor
  · rintro ⟨r, hr, h⟩
    obtain ⟨w, e, hw⟩ := (Rgx.mem_run zeroBody_noEol s r).1 hr
    have hw := zeroText_forms.2 (lang_zero.1 hw)
    rcases h with rfl | rfl
    · exact .inl (by rw [e]; simpa using hw)
    · exact .inr ⟨w, e, hw⟩
  · rintro (h | ⟨w, e, hw⟩)
    · exact ⟨[], (Rgx.mem_run zeroBody_noEol s []).2 ⟨s, by simp, lang_zero.2 (zeroText_forms.1 h)⟩, .inl rfl⟩
    · exact ⟨['\n'], (Rgx.mem_run zeroBody_noEol s _).2 ⟨w, e, lang_zero.2 (zeroText_forms.1 hw)⟩, .inr rfl⟩

/-! ### Ranges -/

theorem intsFrom_length (lo : Int) (n : Nat) : (intsFrom lo n).length = n := by
  induction n generalizing lo with
  | zero => rfl
  | succ n ih => simp [intsFrom, ih]

theorem intsFrom_get (lo : Int) (n k : Nat) (h : k < n) : (intsFrom lo n)[k]? = some (lo + k) := by
  induction n generalizing lo k with
  | zero => omega
  | succ n ih =>
    cases k with
    | zero => simp [intsFrom]
    | succ k =>
      simp only [intsFrom, List.getElem?_cons_succ]
      rw [ih _ _ (by omega)]
      congr 1
      omega

theorem mem_intsFrom (lo : Int) (n : Nat) (i : Int) : i ∈ intsFrom lo n ↔ lo ≤ i ∧ i < lo + n := by
  induction n generalizing lo with
  | zero => simp [intsFrom]
  | succ n ih => simp [intsFrom, ih]; omega

theorem rangeInts_length (lo : Option Int) (hi : Int) : (rangeInts lo hi).length = (hi - lo0 lo).toNat :=
  intsFrom_length _ _

theorem mem_rangeInts (lo : Option Int) (hi i : Int) : i ∈ rangeInts lo hi ↔ lo0 lo ≤ i ∧ i < hi := by
  rw [rangeInts, mem_intsFrom]; omega

theorem rangeInts_get (lo : Option Int) (hi : Int) (k : Nat) (h : k < (hi - lo0 lo).toNat) :
    (rangeInts lo hi)[k]? = some (lo0 lo + k) := intsFrom_get _ _ _ h

theorem range_isEmpty (lo : Option Int) (hi : Int) :
    (Val.range lo (some hi)).isEmpty = (rangeInts lo hi).isEmpty := by
  have := rangeInts_length lo hi
  simp only [Val.isEmpty]
  cases h : rangeInts lo hi with
  | nil => rw [h] at this; simp at this ⊢; omega
  | cons x xs => rw [h] at this; simp at this ⊢; omega

theorem clampIdx_neg {n : Nat} {i : Int} (h : i < 0) : clampIdx n i = (i + n).toNat := by
  simp [clampIdx, h]
theorem clampIdx_pos {n : Nat} {i : Int} (h : 0 ≤ i) : clampIdx n i = min i.toNat n := by
  unfold clampIdx; rw [if_neg (by omega)]

/-- Slices of finite Ranges are the slices of the list of members. -/
theorem rangeSlice_items (lo : Option Int) (hi : Int) (a b : Option Int) :
    (rangeSlice lo (some hi) a b).items = .ok (cycSlice ((rangeInts lo hi).map ofInt) a b) := by
  unfold rangeSlice
  rw [range_isEmpty]
  cases hemp : (rangeInts lo hi).isEmpty with
  | true =>
    rw [List.isEmpty_iff] at hemp
    simp only [if_true, Val.items, Val.iter, hemp, List.map_nil]
    rfl
  | false =>
    have hne : (rangeInts lo hi).map ofInt ≠ [] := by
      intro h
      rw [List.map_eq_nil_iff] at h
      rw [h] at hemp; simp at hemp
    have hlen := rangeInts_length lo hi
    have hpos : 0 < (hi - lo0 lo).toNat := by
      rw [← hlen]
      exact List.length_pos_iff.2 (by intro h; rw [h] at hemp; simp at hemp)
    have hc : ∀ a b : Option Int, cycSlice ((rangeInts lo hi).map ofInt) (some (a.getD 0))
        (some (b.getD (hi - lo0 lo).toNat)) = cycSlice ((rangeInts lo hi).map ofInt) a b := by
      intro a b
      unfold cycSlice
      simp only [Option.getD_some, List.length_map, hlen]
    simp only [Bool.false_eq_true, if_false]
    split
    · rename_i hcond
      simp only [Val.items, Val.iter]
      congr 1
      have hl2 : ((rangeInts lo hi).map ofInt).length = (hi - lo0 lo).toNat := by simp [hlen]
      obtain ⟨h1, h2⟩ := cycSlice_spec _ hne a b
      rw [hl2] at h1 h2
      have eA : sliceBound (hi - lo0 lo).toNat 0 a = if a.getD 0 < 0 then a.getD 0 + (hi - lo0 lo).toNat else a.getD 0 := by
        cases a <;> simp [sliceBound]
      have eB : sliceBound (hi - lo0 lo).toNat (hi - lo0 lo).toNat b =
          if b.getD (hi - lo0 lo).toNat < 0 then b.getD (hi - lo0 lo).toNat + (hi - lo0 lo).toNat
          else b.getD (hi - lo0 lo).toNat := by
        cases b with
        | none => simp only [sliceBound, Option.getD_none]; rw [if_neg (by omega)]
        | some i => simp only [sliceBound, Option.getD_some]
      rw [eA, eB] at h1 h2
      generalize ha : a.getD 0 = A at *
      generalize hb : b.getD (hi - lo0 lo).toNat = B at *
      generalize hn : (hi - lo0 lo).toNat = n at *
      have hlo : lo0 (some (lo0 lo + ↑(clampIdx n A))) = lo0 lo + clampIdx n A := rfl
      have hAv : A < 0 ∧ (clampIdx n A : Int) = A + n ∨ 0 ≤ A ∧ clampIdx n A = min A.toNat n := by
        by_cases h : A < 0
        · exact .inl ⟨h, by rw [clampIdx_neg h]; omega⟩
        · exact .inr ⟨by omega, clampIdx_pos (by omega)⟩
      have hBv : B < 0 ∧ clampIdx n B = (B + n).toNat ∨ 0 ≤ B ∧ clampIdx n B = min B.toNat n := by
        by_cases h : B < 0
        · exact .inl ⟨h, clampIdx_neg h⟩
        · exact .inr ⟨by omega, clampIdx_pos (by omega)⟩
      apply List.ext_getElem?
      intro k
      rw [List.getElem?_map]
      by_cases hk : (k : Int) < (clampIdx n B : Int) - clampIdx n A
      · rw [rangeInts_get _ _ _ (by rw [hlo]; omega), hlo]
        rw [h2 k (by split <;> split <;> omega)]
        unfold cyc
        rw [hl2, List.getElem?_map]
        have e : ((if A < 0 then A + (n : Int) else A) + k) % (n : Int) = (clampIdx n A : Int) + k := by
          have : (if A < 0 then A + (n : Int) else A) = clampIdx n A := by split <;> omega
          rw [this]
          exact Int.emod_eq_of_lt (by omega) (by omega)
        rw [e, rangeInts_get _ _ _ (by omega)]
        simp only [Option.map_some, Option.some.injEq]
        congr 1
        omega
      · rw [List.getElem?_eq_none (by rw [rangeInts_length, hlo]; omega), Option.map_none]
        rw [List.getElem?_eq_none]
        rw [h1]
        split <;> split <;> omega
    · simp only [Val.items, Val.iter]
      rw [hc]

end Pip
