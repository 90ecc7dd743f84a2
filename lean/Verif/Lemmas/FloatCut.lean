import Verif.Props.FloatMod
import Verif.Lemmas.Cut
/-! Loops whose index grows by a float (CHOP and GROUP). -/

namespace Pip
open Floats

variable (X : Ext) (L : Libm X.Rng)

/-- Consecutive spans from `a` to `b` -/
inductive Tiles : Nat → Nat → List (Nat × Nat) → Prop
  | nil (a : Nat) : Tiles a a []
  | cons {a b c : Nat} {l : List (Nat × Nat)} : a ≤ b → Tiles b c l → Tiles a c ((a, b) :: l)

theorem Tiles.le {a b : Nat} {l : List (Nat × Nat)} (h : Tiles a b l) : a ≤ b := by
  induction h with
  | nil => exact Nat.le_refl _
  | cons h _ ih => omega

theorem Tiles.flatten {α : Type} (s : List α) {a b : Nat} {l : List (Nat × Nat)} (h : Tiles a b l) :
    (l.map (sub s)).flatten = sub s (a, b) := by
  induction h with
  | nil => simp [sub]
  | @cons a b c l h h' ih =>
    rw [List.map_cons, List.flatten_cons, ih]
    have hbc := h'.le
    unfold sub
    simp only
    rw [show c - a = (b - a) + (c - b) by omega, List.take_add, List.drop_drop]
    congr 3; omega

/-- The same spans from the last to the first -/
inductive TilesDown : Nat → Nat → List (Nat × Nat) → Prop
  | nil (a : Nat) : TilesDown a a []
  | cons {a b c : Nat} {l : List (Nat × Nat)} : b ≤ c → TilesDown a b l → TilesDown a c ((b, c) :: l)

theorem TilesDown.tiles {a b : Nat} {l : List (Nat × Nat)} (h : TilesDown a b l) : Tiles a b l.reverse := by
  have app : ∀ {a b c : Nat} {l : List (Nat × Nat)}, Tiles a b l → b ≤ c → Tiles a c (l ++ [(b, c)]) := by
    intro a b c l h hc
    induction h with
    | nil => exact .cons hc (.nil _)
    | cons h1 _ ih => exact .cons h1 (ih hc)
  induction h with
  | nil => exact .nil _
  | cons h _ ih => rw [List.reverse_cons]; exact app ih h

/-- The number has the value `i`. -/
def Num.Is (I : Num Dbl) (i : ℚ) : Prop := (∃ z : ℤ, I = .int z ∧ i = z) ∨ I = .flt (.fin i)

theorem Num.Is.dbl {I : Num Dbl} {i : ℚ} (h : I.Is i) (hd : Dbl.IsDouble i) : I.dbl = .ok (.fin i) := by
  rcases h with ⟨z, rfl, rfl⟩ | rfl
  · show Dbl.ofRat z = _
    unfold Dbl.ofRat
    rw [Dbl.round_self hd]
  · rfl

theorem Num.Is.ext {I : Num Dbl} {i : ℚ} (h : I.Is i) : I.ext = some (.num i) := by
  rcases h with ⟨z, rfl, rfl⟩ | rfl <;> rfl

theorem Num.Is.floor {I : Num Dbl} {i : ℚ} (h : I.Is i) : nfloor (X.withDbl L) I = .ok (.int ⌊i⌋) := by
  rcases h with ⟨z, rfl, rfl⟩ | rfl
  · rw [Int.floor_intCast]; rfl
  · rfl

theorem Num.Is.ceil {I : Num Dbl} {i : ℚ} (h : I.Is i) : nceil (X.withDbl L) I = .ok (.int ⌈i⌉) := by
  rcases h with ⟨z, rfl, rfl⟩ | rfl
  · rw [Int.ceil_intCast]; rfl
  · show Except.ok (Num.int i.ceil) = _
    rw [rat_ceil]

theorem Num.Is.lt {I J : Num Dbl} {i j : ℚ} (h : I.Is i) (h' : J.Is j) : nlt (X.withDbl L) I J = decide (i < j) := by
  have key : cmpBy Ext3.lt I J = decide (i < j) := by
    unfold cmpBy
    rw [h.ext, h'.ext]; rfl
  rcases h with ⟨z, rfl, rfl⟩ | rfl
  · rcases h' with ⟨w, rfl, rfl⟩ | rfl
    · show decide (z < w) = _
      rw [decide_eq_decide]; exact Int.cast_lt.symm
    · exact key
  · exact key

theorem Num.Is.add {I : Num Dbl} {i j : ℚ} (h : I.Is i) (hd : Dbl.IsDouble i) :
    nadd (X.withDbl L) I (.flt (.fin j)) = .ok (.flt (Dbl.round (i + j))) := by
  have : viaDbl (fun x y => .ok (x.add y)) I (.flt (.fin j)) = .ok (.flt (Dbl.round (i + j))) :=
    viaDbl_ok (f := fun x y => .ok (x.add y)) (h.dbl hd) (rfl : Num.dbl (.flt (.fin j)) = .ok (.fin j))
  cases I <;> exact this

theorem Num.is_int (z : ℤ) : (Num.int z : Num Dbl).Is z := .inl ⟨z, rfl, rfl⟩
theorem Num.is_flt (r : ℚ) : (Num.flt (.fin r)).Is r := .inr rfl

/-- The values `j` of the steps and a bound `η` of their errors -/
structure FloatStep (n : ℕ) (j η : ℚ) (i : ℚ) (e : ℚ) : Prop where
  round : Dbl.round (i + j) = .fin e
  err : |e - (i + j)| ≤ η

theorem cutAt_ok {v : Val} {n : Nat} {g : Nat × Nat → Val} (hg : Slices v n g) {r : Num Dbl → E (Num Dbl)} {A B : Num Dbl}
    {a b : ℕ} (ha : r A = .ok (.int a)) (hb : r B = .ok (.int b)) (h1 : a ≤ b) (h2 : b ≤ n) :
    cutAt (X.withDbl L) r v A B = .ok (g (a, b)) := by
  unfold cutAt
  rw [ha, hb]
  exact hg.1 a b h1 h2

theorem floor_nat {x : ℚ} (h : 0 ≤ x) : ⌊x⌋ = ((⌊x⌋).toNat : ℤ) := (Int.toNat_of_nonneg (Int.floor_nonneg.2 h)).symm
theorem ceil_nat {x : ℚ} (h : 0 ≤ x) : ⌈x⌉ = ((⌈x⌉).toNat : ℤ) := (Int.toNat_of_nonneg (Int.ceil_nonneg h)).symm

/-- What the spans of a loop look like: their number, their sizes. The last one may be too small. -/
structure Spans (d j η : ℚ) (ps : List (Nat × Nat)) : Prop where
  many : d ≤ ps.length * (j + η)
  few : ps ≠ [] → (ps.length - 1) * (j - η) < d
  upper : ∀ p ∈ ps, (p.2 : ℚ) - p.1 < j + η + 1
  lower : ∀ p ∈ ps.dropLast, j - η - 1 < (p.2 : ℚ) - p.1

theorem Spans.cons {d d' j η : ℚ} {ps : List (Nat × Nat)} (h : Spans d' j η ps) {p : Nat × Nat} (h0 : 0 < d)
    (h1 : d ≤ d' + (j + η)) (h2 : d' + (j - η) ≤ d) (h3 : (p.2 : ℚ) - p.1 < j + η + 1)
    (h4 : ps ≠ [] → j - η - 1 < (p.2 : ℚ) - p.1) : Spans d j η (p :: ps) where
  many := by
    have := h.many
    rw [List.length_cons]; push_cast; linarith
  few := by
    intro _
    rw [List.length_cons]; push_cast
    by_cases hp : ps = []
    · subst hp; simpa using h0
    · have := h.few hp
      linarith
  upper := by
    intro q hq
    rcases List.mem_cons.1 hq with rfl | hq
    · exact h3
    · exact h.upper q hq
  lower := by
    intro q hq
    cases ps with
    | nil => cases hq
    | cons p' ps =>
      rcases List.mem_cons.1 hq with rfl | hq
      · exact h4 (by simp)
      · exact h.lower q hq

theorem cutUp_tiles {v : Val} {n : Nat} {g : Nat × Nat → Val} (hg : Slices v n g) {j η : ℚ} (hη : η < j)
    {P : ℚ → Prop} (hP : ∀ i, P i → Dbl.IsDouble i) (hs : ∀ i, P i → 0 ≤ i → i < n → ∃ e, P e ∧ FloatStep n j η i e) :
    ∀ (f : ℕ) (i : ℚ) (I : Num Dbl), I.Is i → 0 ≤ i → P i → n - i ≤ f * (j - η) →
      ∃ ps, cutUp (X.withDbl L) v n (.flt (.fin j)) (f + 1) I = .ok (ps.map g) ∧ Tiles ⌊min i n⌋.toNat n ps ∧
        Spans (n - i) j η ps ∧ (ps = [] ↔ n ≤ i) := by
  intro f
  induction f with
  | zero =>
    intro i I hI h0 _ hf
    have hle : (n : ℚ) ≤ i := by simpa using hf
    refine ⟨[], ?_, ?_, ⟨?_, by simp, by simp, by simp⟩, by simpa using hle⟩
    · unfold cutUp
      rw [hI.lt X L (Num.is_int n), decide_eq_false (by simpa using hle)]; rfl
    · rw [min_eq_right hle]; simp; exact .nil _
    · simpa using hle
  | succ f ih =>
    intro i I hI h0 hd hf
    by_cases hlt : i < n
    · obtain ⟨e, hPe, he⟩ := hs i hd h0 hlt
      obtain ⟨he1, he2⟩ := abs_le.1 he.err
      have hie : i < e := by linarith
      have h0e : 0 ≤ e := le_trans h0 hie.le
      obtain ⟨ps, h1, h2, h3, h4⟩ := ih e (.flt (.fin e)) (Num.is_flt e) h0e hPe (by push_cast at hf; linarith)
      have hn0 : (0 : ℚ) ≤ n := Nat.cast_nonneg n
      have hmin : 0 ≤ min e (n : ℚ) := le_min h0e hn0
      have hfl : ⌊i⌋ ≤ ⌊min e (n : ℚ)⌋ := Int.floor_le_floor (le_min hie.le hlt.le)
      have hbn : ⌊min e (n : ℚ)⌋.toNat ≤ n := by
        have : ⌊min e (n : ℚ)⌋ ≤ (n : ℤ) := by
          have := Int.floor_le_floor (min_le_right e (n : ℚ))
          simpa using this
        omega
      have hB : (if nlt (X.withDbl L) (.int n) (.flt (.fin e)) then Num.int n else .flt (.fin e)).Is (min e n) := by
        rw [(Num.is_int n).lt X L (Num.is_flt e)]
        by_cases hc : ((n : ℤ) : ℚ) < e
        · rw [decide_eq_true hc, if_pos rfl, min_eq_right (by simpa using hc.le)]
          exact Num.is_int n
        · rw [decide_eq_false hc, if_neg (by simp), min_eq_left (by simpa using hc)]
          exact Num.is_flt e
      have hcut := cutAt_ok X L hg (r := nfloor (X.withDbl L)) (a := ⌊i⌋.toNat) (b := ⌊min e (n : ℚ)⌋.toNat)
        ((hI.floor X L).trans (by rw [← floor_nat h0])) ((hB.floor X L).trans (by rw [← floor_nat hmin])) (by omega) hbn
      have hqi : ((⌊i⌋.toNat : ℕ) : ℚ) = ⌊i⌋ := by have := floor_nat h0; exact_mod_cast congrArg (fun z : ℤ => (z : ℚ)) this.symm
      have hqe : ((⌊min e (n : ℚ)⌋.toNat : ℕ) : ℚ) = ⌊min e (n : ℚ)⌋ := by
        have := floor_nat hmin; exact_mod_cast congrArg (fun z : ℤ => (z : ℚ)) this.symm
      refine ⟨(⌊i⌋.toNat, ⌊min e (n : ℚ)⌋.toNat) :: ps, ?_, ?_, ?_, ?_⟩
      · unfold cutUp
        rw [hI.lt X L (Num.is_int n), decide_eq_true (by simpa using hlt), if_pos rfl]
        simp only [hI.add X L (hP i hd), he.round, bind, Except.bind]
        rw [hcut]
        simp only [h1, List.map_cons]
        rfl
      · rw [min_eq_left hlt.le]
        exact .cons (by omega) h2
      · refine h3.cons (by linarith) (by linarith) (by linarith) ?_ ?_
        · rw [hqi, hqe]
          have a1 := Int.floor_le (min e (n : ℚ))
          have a2 := Int.lt_floor_add_one i
          have a3 := min_le_left e (n : ℚ)
          linarith
        · intro hp
          rw [hqi, hqe]
          have hen : e < n := not_le.1 fun hc => hp (h4.2 hc)
          rw [min_eq_left hen.le]
          have a1 := Int.floor_le i
          have a2 := Int.lt_floor_add_one e
          linarith
      · simpa using hlt
    · have hle : (n : ℚ) ≤ i := not_lt.1 hlt
      refine ⟨[], ?_, ?_, ⟨?_, by simp, by simp, by simp⟩, by simpa using hle⟩
      · unfold cutUp
        rw [hI.lt X L (Num.is_int n), decide_eq_false (by simpa using hle)]; rfl
      · rw [min_eq_right hle]; simp; exact .nil _
      · simpa using hle

/-- The same from the right; the step is `-j`. -/
theorem cutDown_tiles {v : Val} {n : Nat} {g : Nat × Nat → Val} (hg : Slices v n g) {j η : ℚ} (hη : η < j)
    {P : ℚ → Prop} (hP : ∀ i, P i → Dbl.IsDouble i) (hs : ∀ i, P i → 0 < i → i ≤ n → ∃ e, P e ∧ FloatStep n (-j) η i e) :
    ∀ (f : ℕ) (i : ℚ) (I : Num Dbl), I.Is i → i ≤ n → P i → i ≤ f * (j - η) →
      ∃ ps, cutDown (X.withDbl L) v (.flt (.fin (-j))) (f + 1) I = .ok (ps.map g) ∧ TilesDown 0 ⌈max i 0⌉.toNat ps ∧
        Spans i j η ps ∧ (ps = [] ↔ i ≤ 0) := by
  intro f
  induction f with
  | zero =>
    intro i I hI h0 _ hf
    have hle : i ≤ 0 := by simpa using hf
    refine ⟨[], ?_, ?_, ⟨?_, by simp, by simp, by simp⟩, by simpa using hle⟩
    · unfold cutDown
      rw [(Num.is_int 0).lt X L hI, decide_eq_false (by simpa using hle)]; rfl
    · rw [max_eq_right hle]; simp; exact .nil _
    · simpa using hle
  | succ f ih =>
    intro i I hI h0 hd hf
    by_cases hlt : 0 < i
    · obtain ⟨e, hPe, he⟩ := hs i hd hlt h0
      obtain ⟨he1, he2⟩ := abs_le.1 he.err
      have hie : e < i := by linarith
      have h0e : e ≤ n := le_trans hie.le h0
      obtain ⟨ps, h1, h2, h3, h4⟩ := ih e (.flt (.fin e)) (Num.is_flt e) h0e hPe (by push_cast at hf; linarith)
      have hmax : 0 ≤ max e 0 := le_max_right _ _
      have hcl : ⌈max e 0⌉ ≤ ⌈i⌉ := Int.ceil_le_ceil (max_le hie.le hlt.le)
      have hbn : ⌈i⌉.toNat ≤ n := by
        have : ⌈i⌉ ≤ (n : ℤ) := Int.ceil_le.2 (by exact_mod_cast h0)
        omega
      have hB : (if nlt (X.withDbl L) (.flt (.fin e)) (.int 0) then Num.int 0 else .flt (.fin e)).Is (max e 0) := by
        rw [(Num.is_flt e).lt X L (Num.is_int 0)]
        by_cases hc : e < ((0 : ℤ) : ℚ)
        · rw [decide_eq_true hc, if_pos rfl, max_eq_right (by simpa using hc.le)]
          exact .inl ⟨0, rfl, by simp⟩
        · rw [decide_eq_false hc, if_neg (by simp), max_eq_left (by simpa using hc)]
          exact Num.is_flt e
      have hcut := cutAt_ok X L hg (r := nceil (X.withDbl L)) (a := ⌈max e 0⌉.toNat) (b := ⌈i⌉.toNat)
        ((hB.ceil X L).trans (by rw [← ceil_nat hmax])) ((hI.ceil X L).trans (by rw [← ceil_nat hlt.le])) (by omega) hbn
      have hqi : ((⌈i⌉.toNat : ℕ) : ℚ) = ⌈i⌉ := by
        have := ceil_nat hlt.le; exact_mod_cast congrArg (fun z : ℤ => (z : ℚ)) this.symm
      have hqe : ((⌈max e 0⌉.toNat : ℕ) : ℚ) = ⌈max e 0⌉ := by
        have := ceil_nat hmax; exact_mod_cast congrArg (fun z : ℤ => (z : ℚ)) this.symm
      refine ⟨(⌈max e 0⌉.toNat, ⌈i⌉.toNat) :: ps, ?_, ?_, ?_, ?_⟩
      · unfold cutDown
        rw [(Num.is_int 0).lt X L hI, decide_eq_true (by simpa using hlt), if_pos rfl]
        simp only [hI.add X L (hP i hd), he.round, bind, Except.bind]
        rw [hcut]
        simp only [h1, List.map_cons]
        rfl
      · rw [max_eq_left hlt.le]
        exact .cons (by omega) h2
      · refine h3.cons hlt (by linarith) (by linarith) ?_ ?_
        · rw [hqi, hqe]
          have a1 := Int.le_ceil (max e 0)
          have a2 := Int.ceil_lt_add_one i
          have a3 := le_max_left e 0
          linarith
        · intro hp
          rw [hqi, hqe]
          have hen : 0 < e := not_le.1 fun hc => hp (h4.2 hc)
          rw [max_eq_left hen.le]
          have a1 := Int.le_ceil i
          have a2 := Int.ceil_lt_add_one e
          linarith
      · simpa using hlt
    · have hle : i ≤ 0 := not_lt.1 hlt
      refine ⟨[], ?_, ?_, ⟨?_, by simp, by simp, by simp⟩, by simpa using hle⟩
      · unfold cutDown
        rw [(Num.is_int 0).lt X L hI, decide_eq_false (by simpa using hle)]; rfl
      · rw [max_eq_right hle]; simp; exact .nil _
      · simpa using hle

end Pip
