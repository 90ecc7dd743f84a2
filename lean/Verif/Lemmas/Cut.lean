import Verif.Lemmas.Weave
import Verif.Props.Values
/-! Helper lemmas: grouping, splitting, stripping. -/

set_option linter.unusedSimpArgs false

namespace Pip

/-! ### Slices of iterables by position -/

/-- The items from position `i` up to position `e`. -/
def sub {α : Type} (l : List α) (p : Nat × Nat) : List α := (l.drop p.1).take (p.2 - p.1)

/-- `g` gives the slices of `v` within its length `n`. -/
def Slices (v : Val) (n : Nat) (g : Nat × Nat → Val) : Prop :=
  (∀ i e : Nat, i ≤ e → e ≤ n → v.get (.slice (some i) (some e)) = .ok (g (i, e))) ∧
  ∀ i : Nat, i ≤ n → v.get (.slice (some i) none) = .ok (g (i, n))

theorem cycSlice_none {α : Type} (l : List α) (lo : Option Int) : cycSlice l lo none = cycSlice l lo (some l.length) := rfl

theorem slices_scalar (s : Str) : Slices (.scalar s) s.length fun p => .scalar (sub s p) := by
  refine ⟨fun i e h1 h2 => ?_, fun i h => ?_⟩
  · simp only [Val.get, C13_slice_plain s i e h1 h2, sub]
  · simp only [Val.get, cycSlice_none, C13_slice_plain s i s.length h (Nat.le_refl _), sub]

theorem slices_list (s : List Val) : Slices (.list s) s.length fun p => .list (sub s p) := by
  refine ⟨fun i e h1 h2 => ?_, fun i h => ?_⟩
  · simp only [Val.get, C13_slice_plain s i e h1 h2, sub]
  · simp only [Val.get, cycSlice_none, C13_slice_plain s i s.length h (Nat.le_refl _), sub]

theorem slices_range (a b : Int) (h : a < b) :
    Slices (.range (some a) (some b)) (b - a).toNat fun p => .range (some (a + p.1)) (some (a + p.2)) := by
  have ne : (Val.range (some a) (some b)).isEmpty = false := by
    show decide (b ≤ a) = false
    simpa using h
  have hc : ∀ n i : Nat, i ≤ n → clampIdx n i = i := by
    intro n i hi
    simp only [clampIdx]
    rw [if_neg (by omega)]
    omega
  refine ⟨fun i e h1 h2 => ?_, fun i h => ?_⟩
  · have : rangeSlice (some a) (some b) (some i) (some e) = if (i : Int) ≥ -((b - a).toNat : Int) ∧ (e : Int) ≤ (b - a).toNat then
        .range (some (a + clampIdx (b - a).toNat i)) (some (a + clampIdx (b - a).toNat e))
      else .list (cycSlice ((rangeInts (some a) b).map ofInt) (some i) (some e)) := by
      unfold rangeSlice; rw [if_neg (by simp [ne])]; rfl
    simp only [Val.get]
    rw [this, if_pos (by omega), hc _ _ h2, hc _ _ (Nat.le_trans h1 h2)]
  · have : rangeSlice (some a) (some b) (some i) none = if (i : Int) ≥ -((b - a).toNat : Int) ∧ ((b - a).toNat : Int) ≤ (b - a).toNat then
        .range (some (a + clampIdx (b - a).toNat i)) (some (a + clampIdx (b - a).toNat (b - a).toNat))
      else .list (cycSlice ((rangeInts (some a) b).map ofInt) (some i) (some (b - a).toNat)) := by
      unfold rangeSlice; rw [if_neg (by simp [ne])]; rfl
    simp only [Val.get]
    rw [this, if_pos (by omega), hc _ _ (Nat.le_refl _), hc _ _ h]

/-! ### Grouping -/

def spansUp (n jump : Nat) : Nat → Nat → List (Nat × Nat)
  | 0, _ => []
  | f + 1, i => if i < n then (i, min (i + jump) n) :: spansUp n jump f (i + jump) else []

def spansDown (step : Nat) : Nat → Nat → List (Nat × Nat)
  | 0, _ => []
  | f + 1, i => if i > 0 then (i - step, i) :: spansDown step f (i - step) else []

theorem groupUp_spans {v : Val} {n : Nat} {g : Nat × Nat → Val} (hg : Slices v n g) (jump : Nat) :
    ∀ f i, groupUp v n jump f i = .ok ((spansUp n jump f i).map g) := by
  intro f
  induction f with
  | zero => intro i; rfl
  | succ f ih =>
    intro i
    simp only [groupUp, spansUp]
    split
    · rw [hg.1 i (min (i + jump) n) (by omega) (by omega), ih]; rfl
    · rfl

theorem groupDown_spans {v : Val} {n : Nat} {g : Nat × Nat → Val} (hg : Slices v n g) (step : Nat) :
    ∀ f i, i ≤ n → groupDown v step f i = .ok ((spansDown step f i).map g) := by
  intro f
  induction f with
  | zero => intro i _; rfl
  | succ f ih =>
    intro i hi
    simp only [groupDown, spansDown]
    split
    · rw [hg.1 (i - step) i (by omega) hi, ih _ (by omega)]; rfl
    · rfl

theorem spansUp_chunks {α : Type} (l : List α) (jump : Nat) (hj : 0 < jump) : ∀ f i, l.length ≤ i + f →
    ((spansUp l.length jump f i).map (sub l)).flatten = l.drop i ∧
    (∀ c ∈ ((spansUp l.length jump f i).map (sub l)).dropLast, c.length = jump) ∧
    ∀ c ∈ (spansUp l.length jump f i).map (sub l), 0 < c.length ∧ c.length ≤ jump := by
  intro f
  induction f with
  | zero => intro i h; simp [spansUp]; omega
  | succ f ih =>
    intro i h
    simp only [spansUp]
    split
    · rename_i hi
      obtain ⟨h1, h2, h3⟩ := ih (i + jump) (by omega)
      have hlen : (sub l (i, min (i + jump) l.length)).length = min jump (l.length - i) := by
        simp only [sub, List.length_take, List.length_drop]; omega
      refine ⟨?_, ?_, ?_⟩
      · rw [List.map_cons, List.flatten_cons, h1]
        simp only [sub]
        rw [← List.drop_drop]
        by_cases hm : i + jump ≤ l.length
        · rw [Nat.min_eq_left hm, Nat.add_sub_cancel_left, List.take_append_drop]
        · rw [Nat.min_eq_right (by omega), List.take_of_length_le (by simp), List.drop_eq_nil_of_le (i := jump) (by simp; omega)]
          simp
      · rw [List.map_cons]
        cases he : (spansUp l.length jump f (i + jump)).map (sub l) with
        | nil => simp
        | cons c cs =>
          rw [he] at h2
          intro d hd
          rw [List.dropLast_cons_cons] at hd
          rcases List.mem_cons.1 hd with rfl | hd
          · rw [hlen]
            have : spansUp l.length jump f (i + jump) ≠ [] := by intro h; rw [h] at he; simp at he
            have : i + jump < l.length := by
              cases f with
              | zero => exact absurd rfl this
              | succ f =>
                simp only [spansUp] at this
                split at this
                · assumption
                · exact absurd rfl this
            omega
          · exact h2 d hd
      · intro c hc
        rw [List.map_cons] at hc
        rcases List.mem_cons.1 hc with rfl | hc
        · rw [hlen]; omega
        · exact h3 c hc
    · rename_i hi
      simp; omega

theorem spansDown_chunks {α : Type} (l : List α) (step : Nat) (hj : 0 < step) : ∀ f i, i ≤ f → i ≤ l.length →
    ((spansDown step f i).map (sub l)).reverse.flatten = l.take i ∧
    (∀ c ∈ ((spansDown step f i).map (sub l)).dropLast, c.length = step) ∧
    ∀ c ∈ (spansDown step f i).map (sub l), 0 < c.length ∧ c.length ≤ step := by
  intro f
  induction f with
  | zero => intro i h _; simp [spansDown]; omega
  | succ f ih =>
    intro i h hl
    simp only [spansDown]
    split
    · rename_i hi
      obtain ⟨h1, h2, h3⟩ := ih (i - step) (by omega) (by omega)
      have hlen : (sub l (i - step, i)).length = min step i := by
        simp only [sub, List.length_take, List.length_drop]; omega
      refine ⟨?_, ?_, ?_⟩
      · rw [List.map_cons, List.reverse_cons, List.flatten_append, h1]
        simp only [sub, List.flatten_cons, List.flatten_nil, List.append_nil]
        rw [← List.take_add, show i - step + (i - (i - step)) = i by omega]
      · rw [List.map_cons]
        cases he : (spansDown step f (i - step)).map (sub l) with
        | nil => simp
        | cons c cs =>
          rw [he] at h2
          intro d hd
          rw [List.dropLast_cons_cons] at hd
          rcases List.mem_cons.1 hd with rfl | hd
          · rw [hlen]
            have : spansDown step f (i - step) ≠ [] := by intro h; rw [h] at he; simp at he
            have : 0 < i - step := by
              cases f with
              | zero => exact absurd rfl this
              | succ f =>
                simp only [spansDown] at this
                split at this
                · assumption
                · exact absurd rfl this
            omega
          · exact h2 d hd
      · intro c hc
        rw [List.map_cons] at hc
        rcases List.mem_cons.1 hc with rfl | hc
        · rw [hlen]; omega
        · exact h3 c hc
    · rename_i hi
      have : i = 0 := by omega
      simp [this]

theorem sub_rangeInts (a b : Int) (i e : Nat) (h1 : i ≤ e) (h2 : e ≤ (b - a).toNat) :
    sub (rangeInts (some a) b) (i, e) = rangeInts (some (a + i)) (a + e) := by
  apply List.ext_getElem?
  intro k
  simp only [sub]
  by_cases hk : k < e - i
  · rw [List.getElem?_take, if_pos hk, List.getElem?_drop, (C14_members a b).2 _ (by omega),
      (C14_members _ _).2 _ (by omega)]
    congr 1; omega
  · rw [List.getElem?_eq_none (by simp; omega), List.getElem?_eq_none]
    rw [(C14_members _ _).1]; omega

theorem spansUp_mem {n jump : Nat} : ∀ f i p, p ∈ spansUp n jump f i → p.1 ≤ p.2 ∧ p.2 ≤ n := by
  intro f
  induction f with
  | zero => intro i p h; simp [spansUp] at h
  | succ f ih =>
    intro i p h
    simp only [spansUp] at h
    split at h
    · rcases List.mem_cons.1 h with rfl | h
      · simp only; omega
      · exact ih _ p h
    · simp at h

theorem spansDown_mem {step : Nat} : ∀ f i p, p ∈ spansDown step f i → p.1 ≤ p.2 ∧ p.2 ≤ i := by
  intro f
  induction f with
  | zero => intro i p h; simp [spansDown] at h
  | succ f ih =>
    intro i p h
    simp only [spansDown] at h
    split at h
    · rcases List.mem_cons.1 h with rfl | h
      · simp only; omega
      · have := ih _ p h; omega
    · simp at h

/-! ### Cutting at indices -/

def spansAt (n : Nat) (ix : List Int) : Nat → Nat → Nat → List (Nat × Nat)
  | 0, _, prev => [(prev, n)]
  | f + 1, i, prev =>
    if ix.elem (i : Int) || ix.elem ((i : Int) - n) then (prev, i) :: spansAt n ix f (i + 1) i
    else spansAt n ix f (i + 1) prev

theorem splitAtLoop_spans {v : Val} {n : Nat} {g : Nat × Nat → Val} (hg : Slices v n g) (ix : List Int) :
    ∀ f i prev, prev ≤ i → i + f = n → splitAtLoop v n ix f i prev = .ok ((spansAt n ix f i prev).map g) := by
  intro f
  induction f with
  | zero => intro i prev h1 h2; simp only [splitAtLoop, spansAt]; rw [hg.2 prev (by omega)]; rfl
  | succ f ih =>
    intro i prev h1 h2
    simp only [splitAtLoop, spansAt]
    split
    · rw [hg.1 prev i h1 (by omega), ih (i + 1) i (by omega) (by omega)]; rfl
    · exact ih (i + 1) prev (by omega) (by omega)

theorem spansAt_ne (n : Nat) (ix : List Int) : ∀ f i prev, spansAt n ix f i prev ≠ [] := by
  intro f
  induction f with
  | zero => intro i prev; simp [spansAt]
  | succ f ih => intro i prev; simp only [spansAt]; split <;> simp [ih]

theorem spansAt_pieces {α : Type} (l : List α) (ix : List Int) : ∀ f i prev, prev ≤ i → i + f = l.length →
    ((spansAt l.length ix f i prev).map (sub l)).flatten = l.drop prev ∧
    cutPlaces prev ((spansAt l.length ix f i prev).map (sub l)) =
      (List.range' i f).filter fun p : Nat => ix.elem (p : Int) || ix.elem ((p : Int) - l.length) := by
  intro f
  induction f with
  | zero =>
    intro i prev h1 h2
    simp [spansAt, sub, cutPlaces, List.take_of_length_le]
  | succ f ih =>
    intro i prev h1 h2
    simp only [spansAt, List.range'_succ, List.filter_cons]
    split
    · obtain ⟨e1, e2⟩ := ih (i + 1) i (by omega) (by omega)
      rw [List.map_cons, List.flatten_cons, e1]
      constructor
      · simp only [sub]
        have : l.drop i = (l.drop prev).drop (i - prev) := by rw [List.drop_drop]; congr 1; omega
        rw [this, List.take_append_drop]
      · rw [← e2]
        have hlen : (sub l (prev, i)).length = i - prev := by
          simp only [sub, List.length_take, List.length_drop]; omega
        cases he : (spansAt l.length ix f (i + 1) i).map (sub l) with
        | nil => exact absurd (List.map_eq_nil_iff.1 he) (spansAt_ne _ _ _ _ _)
        | cons c cs => simp only [cutPlaces, hlen]; rw [show prev + (i - prev) = i by omega]
    · exact ih (i + 1) prev (by omega) (by omega)

theorem spansAt_mem {n : Nat} {ix : List Int} : ∀ f i prev, prev ≤ i → i + f = n →
    ∀ p ∈ spansAt n ix f i prev, p.1 ≤ p.2 ∧ p.2 ≤ n := by
  intro f
  induction f with
  | zero => intro i prev h1 h2 p hp; simp [spansAt] at hp; subst hp; simp only; omega
  | succ f ih =>
    intro i prev h1 h2 p hp
    simp only [spansAt] at hp
    split at hp
    · rcases List.mem_cons.1 hp with rfl | hp
      · simp only; omega
      · exact ih (i + 1) i (by omega) (by omega) p hp
    · exact ih (i + 1) prev (by omega) (by omega) p hp

/-! ### Splitting at a separator -/

theorem splitAux_join (sep : Str) (hs : sep ≠ []) : ∀ (s : Str) (k : Nat), k ≤ s.length →
    joinStr sep ((splitAux sep k s).1 :: (splitAux sep k s).2) = s.drop k := by
  intro s
  induction s with
  | nil => intro k hk; cases k <;> simp [splitAux, joinStr]
  | cons c s ih =>
    intro k hk
    cases k with
    | succ k => simp only [splitAux, List.drop_succ_cons]; exact ih k (by simpa using hk)
    | zero =>
      simp only [splitAux, List.drop_zero]
      split
      · rename_i hp
        obtain ⟨rest, hr⟩ := List.isPrefixOf_iff_prefix.1 hp
        cases sep with
        | nil => exact absurd rfl hs
        | cons d sep =>
          simp only [List.cons_append, List.cons.injEq] at hr
          obtain ⟨rfl, hr⟩ := hr
          have h1 : (d :: sep).length - 1 ≤ s.length := by rw [← hr]; simp
          have := ih _ h1
          simp only [joinStr, List.nil_append]
          rw [this, ← hr]
          simp
      · have := ih 0 (by simp)
        cases he : (splitAux sep 0 s).2 with
        | nil => rw [he] at this; simp only [joinStr] at this ⊢; rw [this]; simp
        | cons y ys => rw [he] at this; simp only [joinStr] at this ⊢; simp only [List.cons_append]; rw [this]; simp

theorem splitAux_skip (sep : Str) : ∀ (p rest : Str), splitAux sep p.length (p ++ rest) = splitAux sep 0 rest := by
  intro p
  induction p with
  | nil => intro rest; rfl
  | cons c p ih => intro rest; exact ih rest

theorem splitAux_first (sep : Str) (hs : sep ≠ []) : ∀ (x rest : Str),
    (∀ i < x.length, ¬ sep <+: (x ++ sep).drop i) →
    splitAux sep 0 (x ++ sep ++ rest) = (x, (splitAux sep 0 rest).1 :: (splitAux sep 0 rest).2) := by
  intro x
  induction x with
  | nil =>
    intro rest _
    cases sep with
    | nil => exact absurd rfl hs
    | cons d sep =>
      simp only [List.nil_append, List.cons_append, splitAux]
      rw [if_pos (by rw [List.isPrefixOf_iff_prefix]; exact ⟨rest, rfl⟩)]
      have := splitAux_skip (d :: sep) sep rest
      simp only [List.length_cons, Nat.add_sub_cancel] at this ⊢
      rw [this]
  | cons c x ih =>
    intro rest h
    simp only [List.cons_append, splitAux]
    rw [if_neg]
    · have := ih rest fun i hi => by
        have := h (i + 1) (by simpa using hi)
        simpa using this
      rw [List.append_assoc] at this ⊢
      rw [this]
    · rw [List.isPrefixOf_iff_prefix]
      intro hp
      have h0 := h 0 (by simp)
      apply h0
      simp only [List.drop_zero]
      have h1 : (c :: x ++ sep) <+: c :: (x ++ sep ++ rest) := ⟨rest, by simp⟩
      exact List.prefix_of_prefix_length_le hp h1 (by simp; omega)

theorem splitAux_last (sep : Str) : ∀ (x : Str), (∀ i < x.length, ¬ sep <+: (x ++ sep).drop i) →
    splitAux sep 0 x = (x, []) := by
  intro x
  induction x with
  | nil => intro _; rfl
  | cons c x ih =>
    intro h
    simp only [splitAux]
    rw [if_neg]
    · rw [ih fun i hi => by simpa using h (i + 1) (by simpa using hi)]
    · rw [List.isPrefixOf_iff_prefix]
      intro hp
      exact h 0 (by simp) (hp.trans (by simp only [List.drop_zero]; exact ⟨sep, rfl⟩))

theorem splitStr_join (sep : Str) (hs : sep ≠ []) : ∀ (l : List Str), l ≠ [] →
    (∀ x ∈ l, ∀ i < x.length, ¬ sep <+: (x ++ sep).drop i) → splitStr sep (joinStr sep l) = l := by
  intro l
  induction l with
  | nil => intro h; exact absurd rfl h
  | cons x l ih =>
    intro _ h
    cases l with
    | nil =>
      simp only [joinStr, splitStr]
      rw [splitAux_last sep x (h x (by simp))]
    | cons y l =>
      have := ih (by simp) fun z hz => h z (by simp [hz])
      simp only [joinStr, splitStr] at this ⊢
      rw [splitAux_first sep hs x _ (h x (by simp)), this]

end Pip
