import Verif.Lemmas.Cut
import Verif.Props.Compare
import Verif.Spec.Toy
/-!
# Cutting, splitting, stripping, transliterating

C42 groups, C43 cuts at indices, C44 split and join, C50 strip and trim, C53 transliteration and deletion.
-/

namespace Pip

/-! ### C42 -/

/-- Chunks of `k` characters or items, from the left. -/
theorem C42_chunks (X : Ext) (s : Str) (l : List Val) (k : Nat) (hk : 0 < k) :
    (∃ cs, opGROUP X (.scalar s) (some (ofInt k)) = .ok (.list (cs.map .scalar)) ∧ cs.flatten = s ∧ ChunkSizes k cs) ∧
    (∃ cs, opGROUP X (.list l) (some (ofInt k)) = .ok (.list (cs.map .list)) ∧ cs.flatten = l ∧ ChunkSizes k cs) := by
  constructor
  · have h := spansUp_chunks s k hk s.length 0 (by omega)
    refine ⟨_, ?_, by simpa using h.1, h.2⟩
    simp only [opGROUP, Option.getD_some, ofInt, groupBy, group1, Val.isIterable, if_true, toNum_showInt]
    rw [if_pos (by omega)]
    simp only [Val.len, bind, Except.bind, pure, Except.pure, Int.toNat_natCast, groupUp_spans (slices_scalar s), List.map_map]
    rfl
  · have h := spansUp_chunks l k hk l.length 0 (by omega)
    refine ⟨_, ?_, by simpa using h.1, h.2⟩
    simp only [opGROUP, Option.getD_some, ofInt, groupBy, group1, Val.isIterable, if_true, toNum_showInt]
    rw [if_pos (by omega)]
    simp only [Val.len, bind, Except.bind, pure, Except.pure, Int.toNat_natCast, groupUp_spans (slices_list l), List.map_map]
    rfl

/-- For a negative size the chunks are cut from the right, and come in that order. -/
theorem C42_chunks_right (X : Ext) (s : Str) (l : List Val) (k : Nat) (hk : 0 < k) :
    (∃ cs, opGROUP X (.scalar s) (some (ofInt (-k))) = .ok (.list (cs.map .scalar)) ∧ cs.reverse.flatten = s ∧
      ChunkSizes k cs) ∧
    (∃ cs, opGROUP X (.list l) (some (ofInt (-k))) = .ok (.list (cs.map .list)) ∧ cs.reverse.flatten = l ∧
      ChunkSizes k cs) := by
  constructor
  · have h := spansDown_chunks s k hk s.length s.length (Nat.le_refl _) (Nat.le_refl _)
    refine ⟨_, ?_, by simpa using h.1, h.2⟩
    simp only [opGROUP, Option.getD_some, ofInt, groupBy, group1, Val.isIterable, if_true, toNum_showInt]
    rw [if_neg (by omega), if_pos (by omega)]
    simp only [Val.len, bind, Except.bind, pure, Except.pure, Int.natAbs_neg, Int.natAbs_natCast,
      groupDown_spans (slices_scalar s) _ _ _ (Nat.le_refl _), List.map_map]
    rfl
  · have h := spansDown_chunks l k hk l.length l.length (Nat.le_refl _) (Nat.le_refl _)
    refine ⟨_, ?_, by simpa using h.1, h.2⟩
    simp only [opGROUP, Option.getD_some, ofInt, groupBy, group1, Val.isIterable, if_true, toNum_showInt]
    rw [if_neg (by omega), if_pos (by omega)]
    simp only [Val.len, bind, Except.bind, pure, Except.pure, Int.natAbs_neg, Int.natAbs_natCast,
      groupDown_spans (slices_list l) _ _ _ (Nat.le_refl _), List.map_map]
    rfl

/-- The Range with the given bounds -/
def rng (p : Int × Int) : Val := .range (some p.1) (some p.2)

/-- A non-empty Range is cut into Ranges. -/
theorem C42_ranges (X : Ext) (a b : Int) (h : a < b) (k : Nat) (hk : 0 < k) :
    (∃ ps : List (Int × Int), opGROUP X (rng (a, b)) (some (ofInt k)) = .ok (.list (ps.map rng)) ∧
      (ps.map fun p => rangeInts (some p.1) p.2).flatten = rangeInts (some a) b ∧
      ChunkSizes k (ps.map fun p => rangeInts (some p.1) p.2)) ∧
    (∃ ps : List (Int × Int), opGROUP X (rng (a, b)) (some (ofInt (-k))) = .ok (.list (ps.map rng)) ∧
      (ps.map fun p => rangeInts (some p.1) p.2).reverse.flatten = rangeInts (some a) b ∧
      ChunkSizes k (ps.map fun p => rangeInts (some p.1) p.2)) := by
  have hn : (rangeInts (some a) b).length = (b - a).toNat := (C14_members a b).1
  constructor
  · have h1 := spansUp_chunks (rangeInts (some a) b) k hk (b - a).toNat 0 (by omega)
    rw [hn] at h1
    have e : (spansUp (b - a).toNat k (b - a).toNat 0).map (sub (rangeInts (some a) b)) =
        ((spansUp (b - a).toNat k (b - a).toNat 0).map fun p => ((a + p.1 : Int), (a + p.2 : Int))).map
          fun p => rangeInts (some p.1) p.2 := by
      rw [List.map_map]
      apply List.map_congr_left
      intro p hp
      obtain ⟨q1, q2⟩ := spansUp_mem _ _ p hp
      exact sub_rangeInts a b p.1 p.2 q1 q2
    rw [e] at h1
    refine ⟨_, ?_, by simpa using h1.1, h1.2⟩
    simp only [rng, opGROUP, Option.getD_some, ofInt, groupBy, group1, Val.isIterable, if_true, toNum_showInt]
    rw [if_pos (by omega)]
    simp only [Val.len, bind, Except.bind, pure, Except.pure, Int.toNat_natCast, lo0, Option.getD_some,
      groupUp_spans (slices_range a b h), List.map_map]
    rfl
  · have h1 := spansDown_chunks (rangeInts (some a) b) k hk (b - a).toNat (b - a).toNat (Nat.le_refl _) (by omega)
    have e : (spansDown k (b - a).toNat (b - a).toNat).map (sub (rangeInts (some a) b)) =
        ((spansDown k (b - a).toNat (b - a).toNat).map fun p => ((a + p.1 : Int), (a + p.2 : Int))).map
          fun p => rangeInts (some p.1) p.2 := by
      rw [List.map_map]
      apply List.map_congr_left
      intro p hp
      obtain ⟨q1, q2⟩ := spansDown_mem _ _ p hp
      exact sub_rangeInts a b p.1 p.2 q1 q2
    rw [e] at h1
    refine ⟨_, ?_, ?_, h1.2⟩
    · simp only [rng, opGROUP, Option.getD_some, ofInt, groupBy, group1, Val.isIterable, if_true, toNum_showInt]
      rw [if_neg (by omega), if_pos (by omega)]
      simp only [Val.len, bind, Except.bind, pure, Except.pure, Int.natAbs_neg, Int.natAbs_natCast, lo0, Option.getD_some,
        groupDown_spans (slices_range a b h) _ _ _ (Nat.le_refl _), List.map_map]
      rfl
    · rw [h1.1, ← hn, List.take_length]

/-- Size zero gives nil. -/
theorem C42_zero (X : Ext) (v : Val) : opGROUP X v (some (ofInt 0)) = .ok .nil := by
  simp only [opGROUP, Option.getD_some, ofInt, groupBy, group1, toNum_showInt]
  split <;> rfl

example : opGROUP toyExt (.scalar (s% "abcdefg")) (some (ofInt (-3))) = .ok (strs [s% "efg", s% "bcd", s% "a"]) := by
  decide +kernel

/-! ### C43 -/

/-- The places where a sequence of `n` items is to be cut: those listed, negative ones counted from the end. -/
def places (n : Nat) (ix : List Int) : List Nat :=
  (List.range n).filter fun p => decide ((p : Int) ∈ ix ∨ (p : Int) - n ∈ ix)

theorem splitIndices_ints (ix : List Int) : splitIndices (ints ix) = .ok (some ix) := by
  simp only [splitIndices, ints]
  congr 1
  induction ix with
  | nil => rfl
  | cons i ix ih =>
    rw [List.map_cons, List.mapM_cons, ih]
    simp only [ofInt, toInt_showInt]
    rfl

theorem places_eq (n : Nat) (ix : List Int) :
    (List.range' 0 n).filter (fun p : Nat => ix.elem (p : Int) || ix.elem ((p : Int) - n)) = places n ix := by
  rw [places, List.range_eq_range']
  apply List.filter_congr
  intro p _
  rw [Bool.eq_iff_iff]
  simp

/-- The pieces of a string, list or non-empty Range joined are the original, and the cuts are at the given places. -/
theorem C43_pieces (s : Str) (l : List Val) (ix : List Int) :
    (∃ ps, opSPLITAT (.scalar s) (ints ix) = .ok (.list (ps.map .scalar)) ∧ ps ≠ [] ∧ ps.flatten = s ∧
      cutPlaces 0 ps = places s.length ix) ∧
    (∃ ps, opSPLITAT (.list l) (ints ix) = .ok (.list (ps.map .list)) ∧ ps ≠ [] ∧ ps.flatten = l ∧
      cutPlaces 0 ps = places l.length ix) := by
  constructor
  · obtain ⟨h1, h2⟩ := spansAt_pieces s ix s.length 0 0 (Nat.le_refl _) (by omega)
    refine ⟨_, ?_, ?_, by simpa using h1, by rw [h2, places_eq]⟩
    · simp only [opSPLITAT, splitIndices_ints, bind, Except.bind, pure, Except.pure, Val.isIterable, if_true, Val.len,
        splitAtLoop_spans (slices_scalar s) ix _ 0 0 (Nat.le_refl _) (Nat.zero_add _), List.map_map]
      rfl
    · simp [spansAt_ne]
  · obtain ⟨h1, h2⟩ := spansAt_pieces l ix l.length 0 0 (Nat.le_refl _) (by omega)
    refine ⟨_, ?_, ?_, by simpa using h1, by rw [h2, places_eq]⟩
    · simp only [opSPLITAT, splitIndices_ints, bind, Except.bind, pure, Except.pure, Val.isIterable, if_true, Val.len,
        splitAtLoop_spans (slices_list l) ix _ 0 0 (Nat.le_refl _) (Nat.zero_add _), List.map_map]
      rfl
    · simp [spansAt_ne]

theorem C43_ranges (a b : Int) (h : a < b) (ix : List Int) :
    ∃ ps : List (Int × Int), opSPLITAT (rng (a, b)) (ints ix) = .ok (.list (ps.map rng)) ∧
      (ps.map fun p => rangeInts (some p.1) p.2).flatten = rangeInts (some a) b ∧
      cutPlaces 0 (ps.map fun p => rangeInts (some p.1) p.2) = places (b - a).toNat ix := by
  have hn : (rangeInts (some a) b).length = (b - a).toNat := (C14_members a b).1
  have h1 := spansAt_pieces (rangeInts (some a) b) ix (b - a).toNat 0 0 (Nat.le_refl _) (by omega)
  rw [hn] at h1
  have e : (spansAt (b - a).toNat ix (b - a).toNat 0 0).map (sub (rangeInts (some a) b)) =
      ((spansAt (b - a).toNat ix (b - a).toNat 0 0).map fun p => ((a + p.1 : Int), (a + p.2 : Int))).map
        fun p => rangeInts (some p.1) p.2 := by
    rw [List.map_map]
    apply List.map_congr_left
    intro p hp
    obtain ⟨q1, q2⟩ := spansAt_mem _ 0 0 (Nat.le_refl _) (Nat.zero_add _) p hp
    exact sub_rangeInts a b p.1 p.2 q1 q2
  rw [e] at h1
  refine ⟨_, ?_, h1.1, by rw [h1.2, places_eq]⟩
  simp only [rng, opSPLITAT, splitIndices_ints, bind, Except.bind, pure, Except.pure, Val.isIterable, if_true, Val.len,
    lo0, Option.getD_some, splitAtLoop_spans (slices_range a b h) ix _ 0 0 (Nat.le_refl _) (Nat.zero_add _), List.map_map]
  rfl

/-- A single index is a list of one index. -/
theorem C43_single (v : Val) (i : Int) : opSPLITAT v (ofInt i) = opSPLITAT v (ints [i]) := by
  simp only [opSPLITAT, splitIndices_ints]
  simp only [splitIndices, ofInt, toInt_showInt]

example : opSPLITAT (.scalar (s% "abcdefg")) (ints [2, -2]) = .ok (strs [s% "ab", s% "cde", s% "fg"]) := by decide +kernel
example : cutPlaces 0 [s% "ab", s% "cde", s% "fg"] = places 7 [2, -2] := by decide +kernel

/-! ### C44 -/

/-- Splitting at a non-empty separator and joining with it gives the string back. -/
theorem C44_split_join (X : Ext) (x sep : Str) (h : sep ≠ []) :
    ∃ ps : List Str, opSPLIT X (.scalar x) (some (.scalar sep)) = .ok (strs ps) ∧
      opJOIN (strs ps) (some (.scalar sep)) = .ok (.scalar x) := by
  refine ⟨splitStr sep x, ?_, ?_⟩
  · simp only [opSPLIT]
    rw [if_neg (by simpa using h)]
    rfl
  · have := joinPy_scalars (some sep) (splitStr sep x)
    simp only [Option.map_some, Option.getD_some] at this
    simp only [opJOIN, joinBy, join1, strs, Option.any_some, Val.isScalar, Bool.true_or, Bool.not_true, Bool.false_eq_true,
      if_false]
    rw [joinPy] at this
    rw [this, splitStr, splitAux_join sep h x 0 (by simp)]
    rfl

/-- Joining strings with a separator and splitting at it gives the strings back, provided the separator does not occur
earlier in any of the strings followed by the separator. -/
theorem C44_join_split (X : Ext) (l : List Str) (sep : Str) (h : sep ≠ []) (hl : l ≠ [])
    (hx : ∀ x ∈ l, ∀ i < x.length, ¬ sep <+: (x ++ sep).drop i) :
    ∃ x : Str, opJOIN (strs l) (some (.scalar sep)) = .ok (.scalar x) ∧
      opSPLIT X (.scalar x) (some (.scalar sep)) = .ok (strs l) := by
  refine ⟨joinStr sep l, ?_, ?_⟩
  · have := joinPy_scalars (some sep) l
    simp only [Option.map_some, Option.getD_some] at this
    simp only [opJOIN, joinBy, join1, strs, Option.any_some, Val.isScalar, Bool.true_or, Bool.not_true, Bool.false_eq_true,
      if_false]
    rw [joinPy] at this
    exact this
  · simp only [opSPLIT]
    rw [if_neg (by simpa using h), splitStr_join sep h l hl hx]
    rfl

/-- In particular for a separator of one character that is in none of the strings. -/
theorem C44_join_split_char (X : Ext) (l : List Str) (c : Char) (hl : l ≠ []) (hx : ∀ x ∈ l, c ∉ x) :
    ∃ x : Str, opJOIN (strs l) (some (.scalar [c])) = .ok (.scalar x) ∧
      opSPLIT X (.scalar x) (some (.scalar [c])) = .ok (strs l) := by
  refine C44_join_split X l [c] (by simp) hl fun x hm i hi hp => hx x hm ?_
  rw [List.drop_append_of_le_length (by omega), List.drop_eq_getElem_cons hi] at hp
  obtain ⟨r, hr⟩ := hp
  simp only [List.cons_append, List.nil_append, List.cons.injEq] at hr
  rw [hr.1]
  exact List.getElem_mem hi

example : ∀ x ∈ [s% "ab", [], s% "b"], ∀ i < x.length, ¬ (s% "ba") <+: (x ++ s% "ba").drop i := by decide
/-- The condition cannot be dropped, even if the separator is in no string of the list. -/
example : opJOIN (strs [s% "ab", s% "ac"]) (some (.scalar (s% "bab"))) = .ok (.scalar (s% "abbabac")) ∧
    opJOIN (strs [s% "ba", s% "c"]) (some (.scalar (s% "ba"))) = .ok (.scalar (s% "babac")) ∧
    opSPLIT toyExt (.scalar (s% "babac")) (some (.scalar (s% "ba"))) = .ok (strs [[], [], s% "c"]) := by decide +kernel

/-! ### C50 -/

/-- `r` is `s` without the longest run of characters satisfying `p` at its left end. -/
def StrippedLeft (p : Char → Bool) (s r : Str) : Prop :=
  ∃ q, s = q ++ r ∧ (∀ c ∈ q, p c = true) ∧ ∀ c, r.head? = some c → p c = false

/-- The same at the right end. -/
def StrippedRight (p : Char → Bool) (s r : Str) : Prop :=
  ∃ q, s = r ++ q ∧ (∀ c ∈ q, p c = true) ∧ ∀ c, r.getLast? = some c → p c = false

theorem dropWhile_left (p : Char → Bool) (s : Str) : StrippedLeft p s (s.dropWhile p) := by
  refine ⟨s.takeWhile p, (List.takeWhile_append_dropWhile).symm, fun c hc => List.all_eq_true.1 List.all_takeWhile c hc, ?_⟩
  intro c hc
  have := List.head?_dropWhile_not p s
  rw [hc] at this
  simpa using this

theorem dropWhile_right (p : Char → Bool) (s : Str) : StrippedRight p s (s.reverse.dropWhile p).reverse := by
  obtain ⟨q, h1, h2, h3⟩ := dropWhile_left p s.reverse
  refine ⟨q.reverse, ?_, by simpa using h2, by simpa using h3⟩
  rw [← List.reverse_append, ← h1, List.reverse_reverse]

/-- The strip operators with characters, and without (white space). -/
theorem C50_strip (X : Ext) (s cs : Str) :
    (∃ r, opLSTRIP X (.scalar s) (some (.scalar cs)) = .ok (.scalar r) ∧ StrippedLeft (fun c => decide (c ∈ cs)) s r) ∧
    (∃ r, opRSTRIP X (.scalar s) (some (.scalar cs)) = .ok (.scalar r) ∧ StrippedRight (fun c => decide (c ∈ cs)) s r) ∧
    (∃ t r, opSTRIP X (.scalar s) (some (.scalar cs)) = .ok (.scalar r) ∧ StrippedLeft (fun c => decide (c ∈ cs)) s t ∧
      StrippedRight (fun c => decide (c ∈ cs)) t r) ∧
    (∃ r, opLSTRIP X (.scalar s) none = .ok (.scalar r) ∧ StrippedLeft isSpace s r) ∧
    (∃ r, opRSTRIP X (.scalar s) none = .ok (.scalar r) ∧ StrippedRight isSpace s r) ∧
    (∃ t r, opSTRIP X (.scalar s) none = .ok (.scalar r) ∧ StrippedLeft isSpace s t ∧ StrippedRight isSpace t r) := by
  have e : (fun c => decide (c ∈ cs)) = (cs.elem ·) := by
    funext c; simp [Bool.eq_iff_iff]
  rw [e]
  exact ⟨⟨_, rfl, dropWhile_left _ s⟩, ⟨_, rfl, dropWhile_right _ s⟩, ⟨_, _, rfl, dropWhile_left _ s, dropWhile_right _ _⟩,
    ⟨_, rfl, dropWhile_left _ s⟩, ⟨_, rfl, dropWhile_right _ s⟩, ⟨_, _, rfl, dropWhile_left _ s, dropWhile_right _ _⟩⟩

/-- Stripping a list strips its items. -/
theorem C50_strip_list (X : Ext) (side : Side) (l : List Str) (cs : Str) :
    stripOp X side (some (.scalar cs)) (strs l) = .ok (strs (l.map (side.chars cs))) := by
  have : stripOps X side (some (.scalar cs)) (l.map .scalar) = .ok ((l.map (side.chars cs)).map .scalar) := by
    induction l with
    | nil => rfl
    | cons x l ih => simp only [List.map_cons, stripOps, stripOp, strip1, stripWith, ih]; rfl
  simp only [strs, stripOp, this]
  rfl

/-- `TM` removes `n` characters at each end, or everything. -/
theorem C50_trim (s : Str) (n : Nat) :
    ∃ r, opTRIM (.scalar s) (some (ofInt n)) = .ok (.scalar r) ∧
      ((2 * n ≤ s.length ∧ ∃ p q, s = p ++ r ++ q ∧ p.length = n ∧ q.length = n) ∨ (s.length < 2 * n ∧ r = [])) := by
  refine ⟨_, by simp only [opTRIM, trim1, ofInt, toInt_showInt]; rfl, ?_⟩
  rw [show max (n : Int) 0 = n by omega]
  by_cases h : 2 * n ≤ s.length
  · refine .inl ⟨h, s.take n, s.drop (s.length - n), ?_, by simp; omega, by simp; omega⟩
    simp only [pySlice, Option.getD_some, clampIdx]
    rw [if_neg (by omega), if_neg (by omega)]
    have e1 : min ((n : Int)).toNat s.length = n := by omega
    have e2 : min ((s.length : Int) - n).toNat s.length = s.length - n := by omega
    rw [e1, e2]
    have : s.drop (s.length - n) = (s.drop n).drop (s.length - n - n) := by rw [List.drop_drop]; congr 1; omega
    rw [this, List.append_assoc, List.take_append_drop, List.take_append_drop]
  · refine .inr ⟨by omega, ?_⟩
    simp only [pySlice, Option.getD_some, clampIdx]
    rw [← List.length_eq_zero_iff, List.length_take, List.length_drop]
    split <;> split <;> omega

/-- Deviation: with a Range the two ends have their own counts, and a count at the right end that exceeds the length
leaves characters instead of none. -/
theorem C50_trim_deviation : opTRIM (.scalar (s% "abcd")) (some (rng (0, 6))) = .ok (.scalar (s% "ab")) := by decide +kernel

example : opTRIM (.scalar (s% "abcdef")) (some (ofInt 2)) = .ok (.scalar (s% "cd")) := by decide +kernel

/-! ### C53 -/

theorem C53_delete (s cs : Str) :
    opDELETECHARS (.scalar s) (.scalar cs) = .ok (.scalar (s.filter fun c => decide (c ∉ cs))) := by
  simp only [opDELETECHARS]
  congr 2
  apply List.filter_congr
  intro c _
  rw [Bool.eq_iff_iff]
  simp

/-- The pairs of corresponding characters as entries of the table. -/
theorem trPairs_chars (X : Ext) : ∀ old new : Str,
    trPairs X true true (old.map fun c => .scalar [c]) (new.map fun c => .scalar [c]) =
      (old.zip new).map fun p => (.int p.1.toNat, some (.int p.2.toNat)) := by
  intro old
  induction old with
  | nil => intro new; rfl
  | cons o old ih =>
    intro new
    cases new with
    | nil => rfl
    | cons n new => simp only [List.map_cons, trPairs, trEntry, if_true, ih, List.zip_cons_cons]; rfl

/-- The character that replaces `c`. -/
def trPick (old new : Str) (c : Char) : Char :=
  match (old.zip new).reverse.find? fun p => c == p.1 with
  | some p => p.2
  | none => c

theorem trChar_chars (X : Ext) (old new : Str) (c : Char) :
    trChar X ((old.zip new).map fun p => (.int p.1.toNat, some (.int p.2.toNat))) c =
      .ok [trPick old new c] := by
  simp only [trChar, trPick, ← List.map_reverse, List.find?_map]
  have e : ((fun p : Num X.F × Option (Num X.F) => neq X (.int c.toNat) p.1) ∘
      fun p : Char × Char => ((.int p.1.toNat, some (.int p.2.toNat)) : Num X.F × Option (Num X.F))) = fun p => c == p.1 := by
    funext p
    show decide ((c.toNat : Int) = p.1.toNat) = (c == p.1)
    by_cases h : c = p.1
    · subst h; simp
    · rw [beq_false_of_ne h, decide_eq_false]
      intro h2
      exact h (Char.toNat_inj.1 (Int.ofNat_inj.1 h2))
  rw [e]
  cases (old.zip new).reverse.find? fun p => c == p.1 with
  | none => rfl
  | some p =>
    rw [Option.map_some]
    show (if _ then _ else if _ then _ else _) = _
    have hv : p.2.toNat < 0xd800 ∨ 0xdfff < p.2.toNat ∧ p.2.toNat < 0x110000 := p.2.valid
    rw [if_neg (by omega), if_neg (by omega), Int.toNat_natCast, Char.ofNat_toNat]

theorem mapM_ok' {α β : Type} (f : α → E β) (h : α → β) (hf : ∀ x, f x = .ok (h x)) (l : List α) :
    l.mapM f = .ok (l.map h) := by
  have := mapM_ok f id h hf l
  rwa [List.map_id] at this

/-- Every character is replaced on its own, by the character of `new` at the last position (within `new`) where `old`
has it; the others stay. -/
theorem C53_transliterate (X : Ext) (old new : Str) : ∃ g : Char → Char,
    (∀ s, opTRANSLITERATE X (.scalar s) (.scalar old) (.scalar new) = .ok (.scalar (s.map g))) ∧
    (∀ c p, old[p]? = some c → p < new.length → (∀ q, p < q → q < new.length → old[q]? ≠ some c) →
      new[p]? = some (g c)) ∧
    ∀ c, c ∉ old.take new.length → g c = c := by
  refine ⟨trPick old new, ?_, ?_, ?_⟩
  · intro s
    have hz : zipPools [.scalar old, .scalar new] =
        .ok [old.map fun c => .scalar [c], new.map fun c => .scalar [c]] := rfl
    simp only [opTRANSLITERATE, translit, trans1, Val.isIterable, Bool.and_self, if_true, Val.isInf, Bool.false_eq_true,
      if_false, hz, bind, Except.bind, pure, Except.pure, Val.isScalar, trPairs_chars]
    rw [mapM_ok' _ _ (trChar_chars X old new)]
    have := flatten_singletons (s.map (trPick old new))
    rw [List.map_map] at this
    show Except.ok (Val.scalar (s.map ((fun c => [c]) ∘ trPick old new)).flatten) = _
    rw [this]
  · intro c p hp hl hq
    have hlo : p < old.length := (List.getElem?_eq_some_iff.1 hp).1
    have hlen : p < (old.zip new).length := by rw [List.length_zip]; omega
    have hz : (old.zip new)[p]? = some (c, new[p]) := by
      rw [List.getElem?_zip_eq_some]
      exact ⟨hp, List.getElem?_eq_getElem hl⟩
    have hg : (old.zip new)[p] = (c, new[p]) := by
      rw [List.getElem?_eq_getElem hlen] at hz; simpa using hz
    have hsplit : old.zip new = (old.zip new).take p ++ (c, new[p]) :: (old.zip new).drop (p + 1) := by
      rw [← hg, ← List.drop_eq_getElem_cons hlen, List.take_append_drop]
    have hnone : ((old.zip new).drop (p + 1)).reverse.find? (fun q => c == q.1) = none := by
      rw [List.find?_eq_none]
      intro x hx
      rw [List.mem_reverse] at hx
      obtain ⟨k, hk⟩ := List.mem_iff_getElem?.1 hx
      rw [List.getElem?_drop, List.getElem?_zip_eq_some] at hk
      intro hc
      have : x.1 = c := by simpa using (beq_iff_eq.1 hc).symm
      rw [this] at hk
      exact hq (p + 1 + k) (by omega) (List.getElem?_eq_some_iff.1 hk.2).1 hk.1
    rw [List.getElem?_eq_getElem hl]
    congr 1
    rw [trPick, hsplit, List.reverse_append, List.reverse_cons, List.append_assoc, List.find?_append, hnone]
    simp
  · intro c hc
    have : (old.zip new).reverse.find? (fun q => c == q.1) = none := by
      rw [List.find?_eq_none]
      intro x hx hx2
      rw [List.mem_reverse] at hx
      obtain ⟨k, hk⟩ := List.mem_iff_getElem?.1 hx
      rw [List.getElem?_zip_eq_some] at hk
      apply hc
      rw [beq_iff_eq.1 hx2]
      refine List.mem_of_getElem? (i := k) ?_
      rw [List.getElem?_take, if_pos (List.getElem?_eq_some_iff.1 hk.2).1]
      exact hk.1
    rw [trPick, this]

/-- Lists of strings are transliterated item by item. -/
theorem C53_lists (X : Ext) (l : List Val) (old new : Val) : opTRANSLITERATE X (.list l) old new =
    (l.mapM fun v => opTRANSLITERATE X v old new).map .list := by
  have : ∀ l, translits X old new l = l.mapM fun v => translit X old new v := by
    intro l
    induction l with
    | nil => rfl
    | cons v l ih => simp only [translits, List.mapM_cons, ih]
  simp only [opTRANSLITERATE, translit, this, bind, Except.bind, pure, Except.pure]
  cases l.mapM fun v => translit X old new v <;> rfl

example : opTRANSLITERATE toyExt (.scalar (s% "hello")) (.scalar (s% "elx")) (.scalar (s% "ip")) =
    .ok (.scalar (s% "hippo")) := by decide +kernel

end Pip
