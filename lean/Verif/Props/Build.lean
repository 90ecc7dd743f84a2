import Verif.Lemmas.Comb
import Verif.Props.Cut
/-!
# Building lists

C45 zips, C46 products, combinations and permutations, C47 enumeration, C52 grids, C57 flattening, C59 replacement at an
index, C60 append, prepend, concatenate, repeat.
-/

namespace Pip

/-- A list of lists. -/
def mat (ls : List (List Val)) : Val := .list (ls.map .list)

/-! ### C45 -/

theorem zipPools_lists (ls : List (List Val)) : zipPools (ls.map .list) = .ok ls := by
  have h : (ls.map Val.list).filterMap (fun v => v.len.toOption) = ls.map List.length := by
    rw [List.filterMap_map]
    simp [Function.comp_def, Val.len, Except.toOption]
  simp only [zipPools, h]
  cases ls with
  | nil => rfl
  | cons l ls =>
    simp only [List.map_cons, List.map_map]
    congr 2
    exact (List.map_congr_left fun _ _ => rfl).trans (List.map_id _)

theorem opZIP_mat (ls : List (List Val)) : opZIP (mat ls) none = .ok (mat (zipAll ls)) := by
  have h1 : (Val.list (ls.map Val.list)).items = .ok (ls.map .list) := rfl
  have h2 : (Val.list (ls.map Val.list)).isIterable = true := rfl
  simp only [opZIP, mat, h2, if_true, h1, bind, Except.bind, pure, Except.pure]
  rw [if_neg (by simp [Val.isIterable]), zipPools_lists]

theorem zipAll_spec {α : Type} (ls : List (List α)) (h : ls ≠ []) :
    (∀ l ∈ ls, (zipAll ls).length ≤ l.length) ∧ (∃ l ∈ ls, (zipAll ls).length = l.length) ∧
    ∀ i < (zipAll ls).length, ∃ row : List α, (zipAll ls)[i]? = some row ∧ row.length = ls.length ∧
      ∀ (j : Nat) l, ls[j]? = some l → row[j]? = l[i]? := by
  cases ls with
  | nil => exact absurd rfl h
  | cons x ls =>
    obtain ⟨h1, h2, h3⟩ := foldl_min_le List.length ls x.length
    have hl : (zipAll (x :: ls)).length = ls.foldl (fun m l => min m l.length) x.length := by simp [zipAll]
    refine ⟨?_, ?_, ?_⟩
    · rw [hl]
      intro l hm
      rcases List.mem_cons.1 hm with rfl | hm
      · exact h1
      · exact h2 l hm
    · rw [hl]
      rcases h3 with h3 | ⟨l, hm, h3⟩
      · exact ⟨x, by simp, h3⟩
      · exact ⟨l, by simp [hm], h3⟩
    · rw [hl]
      intro i hi
      obtain ⟨e1, e2⟩ := column_get (x :: ls) i (by
        intro l hm
        rcases List.mem_cons.1 hm with rfl | hm
        · omega
        · have := h2 l hm; omega)
      exact ⟨column (x :: ls) i, by simp [zipAll, hi], e1, e2⟩

/-- `Z` of a non-empty list of lists: as many rows as the shortest list is long, and item `(i, j)` is item `(j, i)`. -/
theorem C45_zip (ls : List (List Val)) (h : ls ≠ []) :
    ∃ rows : List (List Val), opZIP (mat ls) none = .ok (mat rows) ∧
      (∀ l ∈ ls, rows.length ≤ l.length) ∧ (∃ l ∈ ls, rows.length = l.length) ∧
      ∀ i < rows.length, ∃ row : List Val, rows[i]? = some row ∧ row.length = ls.length ∧
        ∀ (j : Nat) l, ls[j]? = some l → row[j]? = l[i]? :=
  ⟨_, opZIP_mat ls, zipAll_spec ls h⟩

/-- `Z` with two arguments zips the two; strings are zipped as the lists of their characters. -/
theorem C45_forms (a b : Val) (ss : List Str) :
    opZIP a (some b) = opZIP (.list [a, b]) none ∧
    opZIP (strs ss) none = opZIP (mat (ss.map fun s => s.map fun c => .scalar [c])) none := by
  refine ⟨rfl, ?_⟩
  rw [opZIP_mat]
  have h1 : (Val.list (ss.map Val.scalar)).items = .ok (ss.map .scalar) := rfl
  have h2 : (Val.list (ss.map Val.scalar)).isIterable = true := rfl
  simp only [opZIP, strs, h2, if_true, h1, bind, Except.bind, pure, Except.pure]
  rw [if_neg (by simp [Val.isIterable])]
  have : zipPools (ss.map .scalar) = .ok (ss.map fun s => s.map fun c => .scalar [c]) := by
    have h : (ss.map Val.scalar).filterMap (fun v => v.len.toOption) = ss.map List.length := by
      rw [List.filterMap_map]
      simp [Function.comp_def, Val.len, Except.toOption]
    simp only [zipPools, h]
    cases ss with
    | nil => rfl
    | cons l ls =>
      simp only [List.map_cons, List.map_map]
      congr 2
  rw [this]
  rfl

/-- A list zipped with an infinite Range is numbered by it. -/
theorem C45_infinite (a : Int) (l : List Val) :
    opZIP (.range (some a) none) (some (.list l)) = opZIP (asList a (a + l.length)) (some (.list l)) := by
  have e : zipPools [.range (some a) none, .list l] = .ok [rangeTake (some a) none l.length, l] := rfl
  have e' : zipPools [asList a (a + l.length), .list l] = .ok [(rangeInts (some a) (a + l.length)).map ofInt, l] := rfl
  simp only [opZIP, bind, Except.bind, pure, Except.pure]
  rw [if_neg (by simp [Val.isIterable]), if_neg (by simp [Val.isIterable, asList]), e, e']
  have : rangeTake (some a) none l.length = (rangeInts (some a) (a + l.length)).map ofInt := by
    simp only [rangeTake, rangeInts, lo0, Option.getD_some]
    rw [show (a + (l.length : Int) - a).toNat = l.length by omega]
  rw [this]

/-- `Z` is an involution on matrices with at least one row and one column. -/
theorem C45_involution (ls : List (List Val)) (m : Nat) (h : ls ≠ []) (hm : 0 < m) (hr : ∀ l ∈ ls, l.length = m) :
    ∃ rows : List (List Val), opZIP (mat ls) none = .ok (mat rows) ∧ opZIP (mat rows) none = .ok (mat ls) := by
  refine ⟨_, opZIP_mat ls, ?_⟩
  rw [opZIP_mat]
  congr 2
  obtain ⟨h1, ⟨l0, hl0, h2⟩, h3⟩ := zipAll_spec ls h
  have hn : (zipAll ls).length = m := by rw [h2, hr l0 hl0]
  have hne : zipAll ls ≠ [] := by intro he; rw [he] at hn; simp at hn; omega
  obtain ⟨k1, ⟨r0, hr0, k2⟩, k3⟩ := zipAll_spec (zipAll ls) hne
  obtain ⟨i0, hi0⟩ := List.mem_iff_getElem?.1 hr0
  obtain ⟨row, e1, e2, _⟩ := h3 i0 (List.getElem?_eq_some_iff.1 hi0).1
  rw [hi0] at e1
  have hlen : (zipAll (zipAll ls)).length = ls.length := by
    rw [k2]; have : r0 = row := by simpa using e1
    rw [this, e2]
  apply List.ext_getElem?
  intro j
  by_cases hj : j < ls.length
  · obtain ⟨col, c1, c2, c3⟩ := k3 j (by omega)
    rw [c1, List.getElem?_eq_getElem hj]
    congr 1
    apply List.ext_getElem?
    intro i
    have hlj : ls[j].length = m := hr _ (List.getElem_mem hj)
    by_cases hi : i < m
    · obtain ⟨row, r1, r2, r3⟩ := h3 i (by omega)
      rw [c3 i row r1, r3 j ls[j] (List.getElem?_eq_getElem hj)]
    · rw [List.getElem?_eq_none (by omega), List.getElem?_eq_none (by omega)]
  · rw [List.getElem?_eq_none (by omega), List.getElem?_eq_none (by omega)]

/-- `ZD` pads all lists to the longest with the default. -/
theorem C45_zip_default (ls : List (List Val)) (d : Val) :
    ∃ rows : List (List Val), opZIPDEFAULT (mat ls) (some d) = .ok (mat rows) ∧
      (∀ l ∈ ls, l.length ≤ rows.length) ∧ (rows = [] ∨ ∃ l ∈ ls, rows.length = l.length) ∧
      ∀ i < rows.length, ∃ row : List Val, rows[i]? = some row ∧ row.length = ls.length ∧
        ∀ (j : Nat) l, ls[j]? = some l → row[j]? = some (l[i]?.getD d) := by
  have hmax : ∀ (ls : List (List Val)) (m : Nat), ls.foldl (fun m l => max m l.length) m = m ∨
      ∃ l ∈ ls, ls.foldl (fun m l => max m l.length) m = l.length := by
    intro ls
    induction ls with
    | nil => intro m; simp
    | cons x ls ih =>
      intro m
      simp only [List.foldl_cons]
      rcases ih (max m x.length) with h | ⟨l, hl, h⟩
      · by_cases hx : m ≤ x.length
        · right; exact ⟨x, by simp, by omega⟩
        · left; omega
      · right; exact ⟨l, by simp [hl], h⟩
  have hmM : (ls.map Val.list).mapM Val.items = .ok ls := by
    have := mapM_ok Val.items Val.list id (fun _ => rfl) ls
    rwa [List.map_id] at this
  refine ⟨zipLongest d ls, ?_, ?_, ?_, ?_⟩
  · have : (Val.list (ls.map Val.list)).items = .ok (ls.map .list) := rfl
    have h2 : (Val.list (ls.map Val.list)).isIterable = true := rfl
    simp only [opZIPDEFAULT, mat, h2, if_true, this, bind, Except.bind, pure, Except.pure]
    rw [if_neg (by simp [Val.isIterable]), hmM]
    rfl
  · intro l hl
    simpa [zipLongest] using (foldl_max_ge List.length ls 0).2 l hl
  · rcases hmax ls 0 with h | ⟨l, hl, h⟩
    · left; simp [zipLongest, h]
    · right; exact ⟨l, hl, by simpa [zipLongest] using h⟩
  · intro i hi
    have hi : i < ls.foldl (fun m l => max m l.length) 0 := by simpa [zipLongest] using hi
    refine ⟨ls.map fun l => l.getD i d, by simp [zipLongest, hi], by simp, fun j l hj => ?_⟩
    rw [List.getElem?_map, hj]
    simp

example : opZIP (mat [[ofInt 1, ofInt 2], [ofInt 3, ofInt 4, ofInt 5]]) none =
    .ok (mat [[ofInt 1, ofInt 3], [ofInt 2, ofInt 4]]) := by decide +kernel

/-! ### C46 -/

/-- The Cartesian product lists, in lexicographic order of positions and without repetition, all ways to pick one item
of each list. -/
theorem C46_product (ls : List (List Val)) : ∃ idx : List (List Nat),
    opCARTESIANPRODUCT (mat ls) none = .ok (mat (idx.map (pickEach ls))) ∧ idx.Pairwise (· < ·) ∧
    (∀ t, t ∈ idx ↔ t.length = ls.length ∧ ∀ (i : Nat) (l : List Val), ls[i]? = some l → ∃ p, t[i]? = some p ∧ p < l.length) ∧
    idx.length = (ls.map List.length).foldr (· * ·) 1 := by
  refine ⟨cartProd (ls.map fun l => List.range l.length), ?_, ?_, ?_, ?_⟩
  · rw [← cartProd_pick]
    have h1 : (Val.list (ls.map Val.list)).items = .ok (ls.map .list) := rfl
    have h2 : (ls.map Val.list).mapM Val.pyList = .ok ls := by
      have := mapM_ok Val.pyList Val.list id (fun _ => rfl) ls
      rwa [List.map_id] at this
    simp only [opCARTESIANPRODUCT, mat, Val.isIterable, if_true, h1, bind, Except.bind, pure, Except.pure]
    rw [if_neg (by simp [Val.isNil, Val.isBlock, Val.isPattern]), h2]
  · apply cartProd_sorted
    intro l hl
    obtain ⟨m, _, rfl⟩ := List.mem_map.1 hl
    exact List.pairwise_lt_range
  · intro t
    rw [cartProd_mem]
    simp only [List.length_map, List.getElem?_map, Option.map_eq_some_iff]
    constructor
    · rintro ⟨h1, h2⟩
      refine ⟨h1, fun i l hl => ?_⟩
      obtain ⟨x, hx, hm⟩ := h2 i _ ⟨l, hl, rfl⟩
      exact ⟨x, hx, List.mem_range.1 hm⟩
    · rintro ⟨h1, h2⟩
      refine ⟨h1, ?_⟩
      rintro i _ ⟨l, hl, rfl⟩
      obtain ⟨x, hx, hm⟩ := h2 i l hl
      exact ⟨x, hx, List.mem_range.2 hm⟩
  · rw [cartProd_length, List.map_map]
    congr 1
    apply List.map_congr_left
    simp

theorem combos_range (n k : Nat) :
    (combos k (List.range n)).Pairwise (· < ·) ∧
    (∀ t, t ∈ combos k (List.range n) ↔ t.length = k ∧ t.Pairwise (· < ·) ∧ ∀ p ∈ t, p < n) ∧
    (combos k (List.range n)).length = n.choose k := by
  refine ⟨combos_sorted _ _ List.pairwise_lt_range, fun t => ?_, by simp [combos_length]⟩
  rw [List.range_eq_range', combos_mem]
  simp

/-- Combinations list, in lexicographic order and without repetition, all increasing choices of `k` positions. -/
theorem C46_combinations (l : List Val) (s : Str) (k : Nat) :
    (∃ idx : List (List Nat), opCOMBINATIONS (.list l) (ofInt k) = .ok (mat (idx.map (pick l))) ∧
      idx.Pairwise (· < ·) ∧ (∀ t, t ∈ idx ↔ t.length = k ∧ t.Pairwise (· < ·) ∧ ∀ p ∈ t, p < l.length) ∧
      idx.length = l.length.choose k) ∧
    (∃ idx : List (List Nat), opCOMBINATIONS (.scalar s) (ofInt k) = .ok (strs (idx.map (pick s))) ∧
      idx.Pairwise (· < ·) ∧ (∀ t, t ∈ idx ↔ t.length = k ∧ t.Pairwise (· < ·) ∧ ∀ p ∈ t, p < s.length) ∧
      idx.length = s.length.choose k) := by
  constructor
  · refine ⟨_, ?_, combos_range _ _⟩
    rw [← combos_pick]
    simp only [opCOMBINATIONS, ofInt, Val.isIterable, if_true, Val.pyList, Val.iter, bind, Except.bind, toInt_showInt]
    rw [if_neg (by omega), Int.toNat_natCast]
    rfl
  · refine ⟨_, ?_, combos_range _ _⟩
    rw [← combos_pick]
    simp only [opCOMBINATIONS, ofInt, Val.isIterable, if_true, Val.pyList, Val.iter, bind, Except.bind, toInt_showInt]
    rw [if_neg (by omega), Int.toNat_natCast]
    simp only [tuplesOf]
    rw [combos_map, mapM_ok (fun t => joinPy t none) _ _ (fun t => joinPy_chars t)]
    rfl

/-- Permutations list, in lexicographic order and without repetition, all orderings of the positions. -/
theorem C46_permutations (l : List Val) (s : Str) :
    (∃ idx : List (List Nat), opPERMUTATIONS (.list l) = .ok (mat (idx.map (pick l))) ∧
      idx.Pairwise (· < ·) ∧ (∀ t, t ∈ idx ↔ t.Perm (List.range l.length)) ∧ idx.length = l.length.factorial) ∧
    (∃ idx : List (List Nat), opPERMUTATIONS (.scalar s) = .ok (strs (idx.map (pick s))) ∧
      idx.Pairwise (· < ·) ∧ (∀ t, t ∈ idx ↔ t.Perm (List.range s.length)) ∧ idx.length = s.length.factorial) := by
  have h : ∀ n, (perms (List.range n)).Pairwise (· < ·) ∧ (∀ t, t ∈ perms (List.range n) ↔ t.Perm (List.range n)) ∧
      (perms (List.range n)).length = n.factorial := fun n =>
    ⟨permsAux_sorted _ _ List.pairwise_lt_range, fun t => permsAux_mem _ _ t rfl, by
      rw [perms, permsAux_length _ _ rfl, List.length_range]⟩
  constructor
  · refine ⟨_, ?_, h _⟩
    rw [← perms_pick]
    rfl
  · refine ⟨_, ?_, h _⟩
    rw [← perms_pick]
    simp only [opPERMUTATIONS, Val.isIterable, if_true, Val.pyList, Val.iter, bind, Except.bind, tuplesOf]
    rw [perms_map, mapM_ok (fun t => joinPy t none) _ _ (fun t => joinPy_chars t)]
    rfl

example : opPERMUTATIONS (.scalar (s% "abc")) =
    .ok (strs [s% "abc", s% "acb", s% "bac", s% "bca", s% "cab", s% "cba"]) := by decide +kernel
example : opCOMBINATIONS (.scalar (s% "abcd")) (ofInt 2) =
    .ok (strs [s% "ab", s% "ac", s% "ad", s% "bc", s% "bd", s% "cd"]) := by decide +kernel

/-! ### C47 -/

theorem enumFrom_get : ∀ (l : List Val) (n i : Nat), (enumFrom n l)[i]? = (l[i]?).map fun v => .list [ofInt (n + i : Nat), v] := by
  intro l
  induction l with
  | nil => intro n i; simp [enumFrom]
  | cons v l ih =>
    intro n i
    cases i with
    | zero => simp [enumFrom]
    | succ i =>
      simp only [enumFrom, List.getElem?_cons_succ, ih]
      rw [show n + 1 + i = n + (i + 1) by omega]

/-- `EN` pairs each item with its position. -/
theorem C47_enumerate (v : Val) (l : List Val) (hit : v.isIterable = true) (h : v.items = .ok l) :
    ∃ r, opENUMERATE v = .ok (.list r) ∧ r.length = l.length ∧
      ∀ (i : Nat) x, l[i]? = some x → r[i]? = some (Val.list [ofInt i, x]) := by
  have hinf : v.isInf = false := by
    cases v with
    | range lo hi =>
      cases hi with
      | none => simp [Val.items, Val.iter] at h
      | some b => rfl
    | _ => rfl
  refine ⟨enumFrom 0 l, ?_, ?_, fun i x hx => by rw [enumFrom_get, hx]; simp⟩
  · simp only [opENUMERATE, hit, if_true, hinf, Bool.false_eq_true, if_false, h]; rfl
  · have : ∀ (l : List Val) n, (enumFrom n l).length = l.length := by
      intro l
      induction l with
      | nil => intro n; rfl
      | cons v l ih => intro n; simp [enumFrom, ih]
    exact this l 0

example : opENUMERATE (.scalar (s% "ab")) =
    .ok (mat [[ofInt 0, .scalar (s% "a")], [ofInt 1, .scalar (s% "b")]]) := by decide +kernel

/-! ### C52 -/

theorem pyRange_get (n : Nat) : (pyRange n).length = n ∧ ∀ i < n, (pyRange n)[i]? = some (i : Int) := by
  have := C14_members 0 n
  simp only [rangeInts, lo0, Option.getD_some] at this
  have e : ((n : Int) - 0).toNat = n := by omega
  rw [e] at this
  refine ⟨by rw [pyRange, Int.toNat_natCast, this.1], fun i hi => ?_⟩
  rw [pyRange, Int.toNat_natCast, this.2 i (by omega)]
  simp

/-- `m` is an `r` by `c` matrix with the given cells. -/
def IsGrid (r c : Nat) (cell : Nat → Nat → Val) (m : List (List Val)) : Prop :=
  m.length = r ∧ ∀ i < r, ∃ row, m[i]? = some row ∧ row.length = c ∧ ∀ j < c, row[j]? = some (cell i j)

theorem grid_spec (r c : Nat) (cell : Int → Int → Val) :
    IsGrid r c (fun i j => cell i j) ((pyRange r).map fun i => (pyRange c).map fun j => cell i j) := by
  refine ⟨by simp [(pyRange_get r).1], fun i hi => ?_⟩
  refine ⟨(pyRange c).map fun j => cell i j, by rw [List.getElem?_map, (pyRange_get r).2 i hi]; rfl,
    by simp [(pyRange_get c).1], fun j hj => ?_⟩
  rw [List.getElem?_map, (pyRange_get c).2 j hj]
  rfl

/-- The grid builders; with one argument the grid is square. -/
theorem C52_grids (r c : Nat) :
    (∃ m, opCOORDINATEGRID (ofInt r) (some (ofInt c)) = .ok (mat m) ∧ IsGrid r c (fun i j => .list [ofInt i, ofInt j]) m) ∧
    (∃ m, opZEROGRID (ofInt r) (some (ofInt c)) = .ok (mat m) ∧ IsGrid r c (fun _ _ => ofInt 0) m) ∧
    (∃ m, opONEGRID (ofInt r) (some (ofInt c)) = .ok (mat m) ∧ IsGrid r c (fun _ _ => ofInt 1) m) ∧
    (∃ m, opIDENTITYMATRIX (ofInt r) = .ok (mat m) ∧ IsGrid r r (fun i j => ofInt (if i = j then 1 else 0)) m) := by
  have key : ∀ cell : Int → Int → Val, gridOp cell (ofInt r) (some (ofInt c)) =
      .ok (mat ((pyRange r).map fun i => (pyRange c).map fun j => cell i j)) := by
    intro cell
    simp only [gridOp, ofInt, Option.getD_some, toInt_showInt, mat, List.map_map]
    rfl
  refine ⟨⟨_, key _, grid_spec r c _⟩, ⟨_, key _, ?_⟩, ⟨_, key _, ?_⟩,
    ⟨(pyRange r).map fun i => (pyRange r).map fun j => .scalar (if i == j then s% "1" else s% "0"), ?_, ?_⟩⟩
  · exact grid_spec r c fun _ _ => .scalar (s% "0")
  · exact grid_spec r c fun _ _ => .scalar (s% "1")
  · simp only [opIDENTITYMATRIX, ofInt, toInt_showInt, mat, List.map_map]
    rfl
  · have := grid_spec r r fun i j => .scalar (if i == j then s% "1" else s% "0")
    have e : (fun i j : Nat => Val.scalar (if (i : Int) == (j : Int) then s% "1" else s% "0")) =
        fun i j : Nat => ofInt (if i = j then 1 else 0) := by
      funext i j
      by_cases h : i = j
      · subst h; simp; decide +kernel
      · rw [if_neg h, if_neg (by simp only [beq_iff_eq]; omega)]; decide +kernel
    rwa [e] at this

theorem C52_square (r : Val) :
    opCOORDINATEGRID r none = opCOORDINATEGRID r (some r) ∧ opZEROGRID r none = opZEROGRID r (some r) ∧
    opONEGRID r none = opONEGRID r (some r) := ⟨rfl, rfl, rfl⟩

example : opCOORDINATEGRID (ofInt 1) (some (ofInt 2)) =
    .ok (.list [mat [[ofInt 0, ofInt 0], [ofInt 0, ofInt 1]]]) := by decide +kernel

/-! ### C57 -/

mutual
/-- `r` is the sequence of the leaves of a value, from left to right. -/
inductive Leaves : Val → List Val → Prop where
  | list {l r} : LeavesAll l r → Leaves (.list l) r
  | range {a b} : Leaves (.range (some a) (some b)) ((rangeInts (some a) b).map ofInt)
  | leaf {v} : v.isListy = false → Leaves v [v]
inductive LeavesAll : List Val → List Val → Prop where
  | nil : LeavesAll [] []
  | cons {v l r s} : Leaves v r → LeavesAll l s → LeavesAll (v :: l) (r ++ s)
end

mutual
theorem leaves_sound : ∀ (v : Val) (r : List Val), Leaves v r → leaves v = .ok r ∧ ∀ x ∈ r, x.isListy = false
  | _, _, .list h => by simp only [leaves]; exact leavess_sound _ _ h
  | _, _, .range => by
    refine ⟨by simp only [leaves], fun x hx => ?_⟩
    obtain ⟨i, _, rfl⟩ := List.mem_map.1 hx
    rfl
  | v, _, .leaf h => by
    refine ⟨?_, fun x hx => by simp at hx; subst hx; exact h⟩
    cases v <;> simp [Val.isListy, Val.isList, Val.isRange] at h <;> simp only [leaves]
theorem leavess_sound : ∀ (l r : List Val), LeavesAll l r → leavess l = .ok r ∧ ∀ x ∈ r, x.isListy = false
  | _, _, .nil => by simp [leavess]
  | _, _, .cons h1 h2 => by
    obtain ⟨a1, a2⟩ := leaves_sound _ _ h1
    obtain ⟨b1, b2⟩ := leavess_sound _ _ h2
    refine ⟨by simp only [leavess, a1, b1]; rfl, fun x hx => ?_⟩
    rcases List.mem_append.1 hx with h | h
    · exact a2 x h
    · exact b2 x h
end

/-- `FA` gives the leaves of a list, which are no lists, and does nothing to a list of leaves. -/
theorem C57_flatten_all (l r : List Val) (h : LeavesAll l r) :
    opFLATTENALL (.list l) = .ok (.list r) ∧ (∀ x ∈ r, x.isListy = false) ∧ opFLATTENALL (.list r) = .ok (.list r) := by
  have fa : ∀ l r, LeavesAll l r → opFLATTENALL (.list l) = .ok (.list r) := by
    intro l r h
    have := (leavess_sound l r h).1
    simp only [opFLATTENALL, Val.isListy, Val.isList, Bool.true_or, if_true, leaves, this]
    rfl
  refine ⟨fa l r h, (leavess_sound l r h).2, fa r r ?_⟩
  have h2 := (leavess_sound l r h).2
  clear h
  induction r with
  | nil => exact .nil
  | cons v r ih => exact .cons (r := [v]) (.leaf (h2 v (by simp))) (ih fun x hx => h2 x (by simp [hx]))

mutual
/-- Every value without an infinite Range has leaves, so the theorem applies to it. -/
def finite : Val → Bool
  | .list l => finites l
  | .range (some _) (some _) => true
  | .range _ _ => false
  | _ => true
def finites : List Val → Bool
  | [] => true
  | v :: l => finite v && finites l
end

mutual
theorem finite_leaves : ∀ v, finite v = true → ∃ r, Leaves v r
  | .list l, h => by
    simp only [finite] at h
    obtain ⟨r, hr⟩ := finites_leaves l h
    exact ⟨r, .list hr⟩
  | .range (some _) (some _), _ => ⟨_, .range⟩
  | .range none (some _), h => by simp [finite] at h
  | .range (some _) none, h => by simp [finite] at h
  | .range none none, h => by simp [finite] at h
  | .scalar _, _ => ⟨_, .leaf rfl⟩
  | .pattern .., _ => ⟨_, .leaf rfl⟩
  | .block .., _ => ⟨_, .leaf rfl⟩
  | .nil, _ => ⟨_, .leaf rfl⟩
theorem finites_leaves : ∀ l, finites l = true → ∃ r, LeavesAll l r
  | [], _ => ⟨_, .nil⟩
  | v :: l, h => by
    simp only [finites, Bool.and_eq_true] at h
    obtain ⟨r, hr⟩ := finite_leaves v h.1
    obtain ⟨s, hs⟩ := finites_leaves l h.2
    exact ⟨_, .cons hr hs⟩
end

theorem C57_all_finite (l : List Val) (h : finites l = true) : ∃ r, LeavesAll l r := finites_leaves l h

/-- `FL` concatenates the lists among the items and keeps the other items. -/
theorem C57_flatten (l : List (Val ⊕ List Val)) (h : ∀ v, .inl v ∈ l → v.isListy = false) :
    opFLATTEN (.list (l.map fun x => match x with | .inl v => v | .inr m => .list m)) =
      .ok (.list (l.flatMap fun x => match x with | .inl v => [v] | .inr m => m)) := by
  have : flattenLoop (l.map fun x => match x with | .inl v => v | .inr m => .list m) =
      .ok (l.flatMap fun x => match x with | .inl v => [v] | .inr m => m) := by
    induction l with
    | nil => rfl
    | cons x l ih =>
      have ih := ih fun v hv => h v (by simp [hv])
      cases x with
      | inl v =>
        simp only [List.map_cons, flattenLoop, List.flatMap_cons, ih]
        rw [if_neg (by rw [h v (by simp)]; simp)]
        rfl
      | inr m =>
        simp only [List.map_cons, flattenLoop, List.flatMap_cons, ih]
        rfl
  simp only [opFLATTEN, Val.isListy, Val.isList, Bool.true_or, if_true, Val.items, Val.iter, bind, Except.bind, this]
  rfl

example : opFLATTENALL (.list [ofInt 1, .list [ofInt 2, .list [ofInt 3]], rng (4, 6)]) =
    .ok (.list [ofInt 1, ofInt 2, ofInt 3, ofInt 4, ofInt 5]) := by decide +kernel

/-! ### C59 -/

/-- `RA` with an index replaces the item at `i mod n` of a list and no other. -/
theorem C59_list (X : Ext) (l : List Val) (i : Int) (v : Val) (h : l ≠ []) :
    ∃ r, opREPLACEAT X (.list l) (ofInt i) v = .ok (.list r) ∧ r.length = l.length ∧
      ∀ k < l.length, r[k]? = if (k : Int) = i % l.length then some v else l[k]? := by
  have hn : 0 < l.length := List.length_pos_iff.2 h
  refine ⟨l.set (i % l.length).toNat v, ?_, by simp, fun k hk => ?_⟩
  · simp only [opREPLACEAT, replaceAt, ofInt, Val.isIterable, if_true, Val.set, toInt_showInt]
    rw [if_neg (by simpa using h)]
  · have := Int.emod_nonneg i (by omega : (l.length : Int) ≠ 0)
    by_cases he : (k : Int) = i % l.length
    · rw [if_pos he, ← he, Int.toNat_natCast, List.getElem?_set_self hk]
    · rw [if_neg he, List.getElem?_set_ne (by omega)]

/-- The same for strings and a single character. -/
theorem C59_string (X : Ext) (s : Str) (i : Int) (c : Char) (h : s ≠ []) :
    ∃ r : Str, opREPLACEAT X (.scalar s) (ofInt i) (.scalar [c]) = .ok (.scalar r) ∧ r.length = s.length ∧
      ∀ k < s.length, r[k]? = if (k : Int) = i % s.length then some c else s[k]? := by
  have hn : 0 < s.length := List.length_pos_iff.2 h
  have h1 := Int.emod_nonneg i (by omega : (s.length : Int) ≠ 0)
  have h2 := Int.emod_lt_of_pos i (by omega : (0 : Int) < s.length)
  have hlt : (i % s.length).toNat < s.length := by omega
  have e : s.take (i % s.length).toNat ++ [c] ++ s.drop ((i % s.length).toNat + 1) = s.set (i % s.length).toNat c := by
    rw [List.set_eq_take_append_cons_drop, if_pos hlt]; simp
  refine ⟨s.set (i % s.length).toNat c, ?_, by simp, fun k hk => ?_⟩
  · simp only [opREPLACEAT, replaceAt, ofInt, Val.isIterable, if_true, Val.set, toInt_showInt]
    rw [if_neg (by simpa using h), ← e]
    rfl
  · by_cases he : (k : Int) = i % s.length
    · rw [if_pos he, ← he, Int.toNat_natCast, List.getElem?_set_self hk]
    · rw [if_neg he, List.getElem?_set_ne (by omega)]

example : opREPLACEAT toyExt (ints [5, 6, 7]) (ofInt (-1)) (.scalar (s% "x")) =
    .ok (.list [ofInt 5, ofInt 6, .scalar (s% "x")]) := by decide +kernel

/-! ### C60 -/

/-- Append, prepend, concatenate, repeat. -/
theorem C60_lists (l m : List Val) (v : Val) (n : Int) :
    opAPPENDELEM (.list l) v = .ok (.list (l ++ [v])) ∧ opPREPENDELEM (.list l) v = .ok (.list (v :: l)) ∧
    opAPPENDLIST (.list l) (.list m) = .ok (.list (l ++ m)) ∧
    opREPEATLIST (.list l) (ofInt n) = .ok (.list (List.replicate n.toNat l).flatten) := by
  refine ⟨rfl, rfl, rfl, ?_⟩
  simp only [opREPEATLIST, ofInt, toInt_showInt]
  rfl

theorem C60_strings (s t : Str) (n : Int) :
    opCAT (.scalar s) (.scalar t) = .ok (.scalar (s ++ t)) ∧
    opSTRMUL (.scalar s) (ofInt n) = .ok (.scalar (List.replicate n.toNat s).flatten) := by
  refine ⟨rfl, ?_⟩
  simp only [opSTRMUL, ofInt, toInt_showInt, repList]

/-- Single items count as lists of one item, Ranges as the lists of their members. -/
theorem C60_items (s t : Str) (v : Val) (l : List Val) (a b : Int) :
    opAPPENDELEM (.scalar s) v = .ok (.list [.scalar s, v]) ∧ opPREPENDELEM (.scalar s) v = .ok (.list [v, .scalar s]) ∧
    opAPPENDLIST (.scalar s) (.scalar t) = .ok (strs [s, t]) ∧ opAPPENDLIST (.scalar s) (.list l) = .ok (.list (.scalar s :: l)) ∧
    opAPPENDELEM (rng (a, b)) v = opAPPENDELEM (asList a b) v ∧ opPREPENDELEM (rng (a, b)) v = opPREPENDELEM (asList a b) v :=
  ⟨rfl, rfl, rfl, rfl, rfl, rfl⟩

end Pip
