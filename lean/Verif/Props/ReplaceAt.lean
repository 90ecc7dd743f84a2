import Verif.Props.Build
import Verif.Props.Values

/-! # C59: replacement at several indices and at slices -/

namespace Pip

/-! ### Several indices -/

/-- What is written to position `k` by the assignments `ws`, of which later ones count more. -/
inductive Written {α : Type} (k : Nat) : List (Nat × α) → Option α → Prop
  | none {ws} : (∀ w ∈ ws, w.1 ≠ k) → Written k ws none
  | last {p q : List (Nat × α)} {x : α} : (∀ w ∈ q, w.1 ≠ k) → Written k (p ++ (k, x) :: q) (some x)

/-- The assignments, one after the other -/
def setMany {α : Type} (l : List α) : List (Nat × α) → List α
  | [] => l
  | (k, x) :: ws => setMany (l.set k x) ws

theorem setMany_length {α : Type} (ws : List (Nat × α)) (l : List α) : (setMany l ws).length = l.length := by
  induction ws generalizing l with
  | nil => rfl
  | cons w ws ih => simp only [setMany, ih, List.length_set]

theorem setMany_same {α : Type} {k : Nat} (ws : List (Nat × α)) (l : List α) (h : ∀ w ∈ ws, w.1 ≠ k) :
    (setMany l ws)[k]? = l[k]? := by
  induction ws generalizing l with
  | nil => rfl
  | cons w ws ih =>
    rw [setMany, ih _ fun v hv => h v (List.mem_cons_of_mem _ hv), List.getElem?_set_ne (h w List.mem_cons_self)]

theorem setMany_append {α : Type} (p q : List (Nat × α)) (l : List α) : setMany l (p ++ q) = setMany (setMany l p) q := by
  induction p generalizing l with
  | nil => rfl
  | cons w p ih => simp only [List.cons_append, setMany, ih]

theorem setMany_written {α : Type} {k : Nat} {ws : List (Nat × α)} {o : Option α} (h : Written k ws o) (l : List α)
    (hk : k < l.length) : (setMany l ws)[k]? = o.or l[k]? := by
  cases h with
  | none h => rw [setMany_same _ _ h]; rfl
  | last h =>
    rw [setMany_append, setMany, setMany_same _ _ h, List.getElem?_set_self (by rw [setMany_length]; exact hk)]
    rfl

/-- The assignments meant by indices into a list of `n` items and new values, which are repeated if necessary. -/
def writes {α : Type} (n : Nat) (is : List Int) (ns : List α) : List (Nat × α) :=
  (is.zipIdx.filterMap fun p => ns[p.2 % ns.length]?.map fun x => ((p.1 % (n : Int)).toNat, x))

theorem set_list (X : Ext) (l : List Val) (h : l ≠ []) (i : Int) (v : Val) :
    replaceAt X (ofInt i) (.list l) v = .ok (.list (l.set (i % l.length).toNat v)) := by
  simp only [replaceAt, ofInt, Val.isIterable, if_true, Val.set, toInt_showInt]
  rw [if_neg (by simpa using h)]

theorem set_string (X : Ext) (s : Str) (h : s ≠ []) (i : Int) (c : Char) :
    replaceAt X (ofInt i) (.scalar s) (.scalar [c]) = .ok (.scalar (s.set (i % s.length).toNat c)) := by
  have hn : 0 < s.length := List.length_pos_iff.2 h
  have h1 := Int.emod_nonneg i (by omega : (s.length : Int) ≠ 0)
  have h2 := Int.emod_lt_of_pos i (by omega : (0 : Int) < s.length)
  have hlt : (i % s.length).toNat < s.length := by omega
  have e : s.take (i % s.length).toNat ++ [c] ++ s.drop ((i % s.length).toNat + 1) = s.set (i % s.length).toNat c := by
    rw [List.set_eq_take_append_cons_drop, if_pos hlt]; simp
  simp only [replaceAt, ofInt, Val.isIterable, if_true, Val.set, toInt_showInt]
  rw [if_neg (by simpa using h), ← e]
  rfl

theorem get_cycled (ns : List Val) (j : Nat) (x : Val) (h : ns[j % ns.length]? = some x) :
    Val.get (.list ns) (.int (j : Nat)) = .ok x := by
  simp only [Val.get]
  rw [show ((j : Int) % (ns.length : Int)).toNat = j % ns.length by rw [← Int.natCast_emod, Int.toNat_natCast], h]

theorem each_loop {α : Type} (X : Ext) (inj : List α → Val) (item : α → Val) (ns : List α) (hns : ns ≠ [])
    (hset : ∀ (l : List α), l ≠ [] → ∀ (i : Int) (x : α),
      replaceAt X (ofInt i) (inj l) (item x) = .ok (inj (l.set (i % l.length).toNat x)))
    (is : List Int) (l : List α) (hl : l ≠ []) (j : Nat) :
    replaceAtEach X (is.map ofInt) (inj l) (ns.map item) j = .ok (inj (setMany l
      ((is.zipIdx j).filterMap fun p => ns[p.2 % ns.length]?.map fun x => ((p.1 % (l.length : Int)).toNat, x)))) := by
  induction is generalizing l j with
  | nil => rw [List.map_nil, replaceAtEach]; rfl
  | cons i is ih =>
    have hpos : 0 < ns.length := List.length_pos_iff.2 hns
    have hlt : j % ns.length < ns.length := Nat.mod_lt _ hpos
    have hx : ns[j % ns.length]? = some ns[j % ns.length] := List.getElem?_eq_getElem hlt
    rw [List.map_cons, replaceAtEach, get_cycled _ _ (item ns[j % ns.length]) (by
      rw [List.length_map, List.getElem?_map, hx]; rfl)]
    simp only [bind, Except.bind, hset l hl]
    rw [ih _ (by rw [← List.length_pos_iff, List.length_set]; exact List.length_pos_iff.2 hl), List.length_set,
      List.zipIdx_cons, List.filterMap_cons]
    simp only [hx, Option.map_some, setMany]

theorem all_loop {α : Type} (X : Ext) (inj : List α → Val) (new : Val) (x : α)
    (hset : ∀ (l : List α), l ≠ [] → ∀ (i : Int), replaceAt X (ofInt i) (inj l) new = .ok (inj (l.set (i % l.length).toNat x)))
    (is : List Int) (l : List α) (hl : l ≠ []) :
    replaceAtAll X (is.map ofInt) (inj l) new = .ok (inj (setMany l (is.map fun i => ((i % (l.length : Int)).toNat, x)))) := by
  induction is generalizing l with
  | nil => rw [List.map_nil, replaceAtAll]; rfl
  | cons i is ih =>
    rw [List.map_cons, replaceAtAll]
    simp only [bind, Except.bind, hset l hl]
    rw [ih _ (by rw [← List.length_pos_iff, List.length_set]; exact List.length_pos_iff.2 hl), List.length_set]
    rfl

/-- `RA` with a list of indices and a list of new values writes the new values, repeated as often as necessary, to the
places meant by the indices: at every place is the value written there last, or the old item if there is none. -/
theorem C59_each (X : Ext) (l ns : List Val) (is : List Int) (hl : l ≠ []) (hns : ns ≠ []) :
    ∃ r, opREPLACEAT X (.list l) (.list (is.map ofInt)) (.list ns) = .ok (.list r) ∧ r.length = l.length ∧
      ∀ k < l.length, ∀ o, Written k (writes l.length is ns) o → r[k]? = o.or l[k]? := by
  refine ⟨_, ?_, setMany_length _ _, fun k hk o h => setMany_written h l hk⟩
  have := each_loop X Val.list id ns hns (fun l hl i x => set_list X l hl i x) is l hl 0
  rw [List.map_id] at this
  unfold opREPLACEAT
  rw [replaceAt.eq_1]
  exact this

/-- The same for a string and characters -/
theorem C59_each_string (X : Ext) (s ns : Str) (is : List Int) (hs : s ≠ []) (hns : ns ≠ []) :
    ∃ r : Str, opREPLACEAT X (.scalar s) (.list (is.map ofInt)) (.list (ns.map fun c => .scalar [c])) = .ok (.scalar r) ∧
      r.length = s.length ∧ ∀ k < s.length, ∀ o, Written k (writes s.length is ns) o → r[k]? = o.or s[k]? := by
  refine ⟨_, ?_, setMany_length _ _, fun _ hk _ h => setMany_written h s hk⟩
  unfold opREPLACEAT
  rw [replaceAt.eq_1]
  exact each_loop X Val.scalar (fun c => .scalar [c]) ns hns (fun l hl i x => set_string X l hl i x) is s hs 0

/-- `RA` with a list of indices and another new value writes it to all these places and changes nothing else. -/
theorem C59_all (X : Ext) (l : List Val) (v : Val) (is : List Int) (hl : l ≠ []) (hv : ∀ m, v ≠ .list m) :
    ∃ r, opREPLACEAT X (.list l) (.list (is.map ofInt)) v = .ok (.list r) ∧ r.length = l.length ∧
      ∀ k < l.length, ((∃ i ∈ is, i % l.length = k) → r[k]? = some v) ∧
        ((∀ i ∈ is, i % l.length ≠ k) → r[k]? = l[k]?) := by
  have hp : 0 < l.length := List.length_pos_iff.2 hl
  refine ⟨setMany l (is.map fun i => ((i % (l.length : Int)).toNat, v)), ?_, setMany_length _ _, fun k hk => ⟨?_, ?_⟩⟩
  · have := all_loop X Val.list v v (fun l hl i => set_list X l hl i v) is l hl
    unfold opREPLACEAT
    cases v with
    | list m => exact absurd rfl (hv m)
    | _ => rw [replaceAt]; exacts [this, hv]
  · clear hv
    generalize hm : l.length = n at *
    intro h
    induction is generalizing l with
    | nil => obtain ⟨i, hi, -⟩ := h; cases hi
    | cons i is ih =>
      rw [List.map_cons, setMany]
      by_cases h2 : ∃ i ∈ is, i % (n : Int) = k
      · exact ih (l.set _ v) (by rw [← List.length_pos_iff, List.length_set]; omega) (by rw [List.length_set, hm]) h2
      · have h3 : i % (n : Int) = k := by
          obtain ⟨j, hj, he⟩ := h
          rcases List.mem_cons.1 hj with rfl | hj
          · exact he
          · exact absurd ⟨j, hj, he⟩ h2
        rw [setMany_same, h3, Int.toNat_natCast, List.getElem?_set_self (by omega)]
        intro w hw
        obtain ⟨j, hj, rfl⟩ := List.mem_map.1 hw
        intro he
        have := Int.emod_nonneg j (by omega : (n : Int) ≠ 0)
        exact h2 ⟨j, hj, by simp only at he; omega⟩
  · intro h
    apply setMany_same
    intro w hw
    obtain ⟨j, hj, rfl⟩ := List.mem_map.1 hw
    intro he
    have := Int.emod_nonneg j (by omega : (l.length : Int) ≠ 0)
    exact h j hj (by simp only at he; omega)

/-- Every place has something written to it, or not. -/
theorem C59_written {α : Type} (k : Nat) (ws : List (Nat × α)) : ∃ o, Written k ws o := by
  induction ws with
  | nil => exact ⟨none, .none (by simp)⟩
  | cons w ws ih =>
    obtain ⟨o, h⟩ := ih
    cases h with
    | none h =>
      by_cases hw : w.1 = k
      · obtain ⟨a, x⟩ := w
        cases hw
        exact ⟨some x, .last (p := []) h⟩
      · exact ⟨none, .none fun v hv => by rcases List.mem_cons.1 hv with rfl | hv; exacts [hw, h v hv]⟩
    | last h => exact ⟨_, .last (p := w :: _) h⟩

/-- The index nil changes nothing; an index that is a Pattern or a Block gives nil. -/
theorem C59_other (X : Ext) (v w : Val) (r : Str) (f : Flags) : opREPLACEAT X v .nil w = .ok v ∧
    opREPLACEAT X v (.pattern r f) w = .ok .nil := ⟨by simp only [opREPLACEAT, replaceAt], by simp only [opREPLACEAT, replaceAt]⟩

example : opREPLACEAT toyExt (ints [5, 6, 7, 8]) (ints [0, -1, 1, 4]) (strs [s% "x", s% "y"]) =
    .ok (.list [.scalar (s% "y"), .scalar (s% "x"), ofInt 7, .scalar (s% "y")]) := by decide +kernel
example : opREPLACEAT toyExt (.scalar (s% "abcd")) (ints [0, -1, 5]) (strs [s% "x", s% "y"]) =
    .ok (.scalar (s% "xxcy")) := by decide +kernel
example : opREPLACEAT toyExt (ints [5, 6, 7, 8]) (ints [0, -1]) (.scalar (s% "x")) =
    .ok (.list [.scalar (s% "x"), ofInt 6, ofInt 7, .scalar (s% "x")]) := by decide +kernel

/-! ### Slices -/

/-- Where an end of a slice is in a list of `n` items: negative numbers count from the end, and what is outside is moved
to the nearer end. -/
def edge (n : Nat) (i : Int) : Int := max 0 (min n (if i < 0 then i + n else i))

/-- `r` is `l` with the items between two places replaced by `new`. -/
def SegmentReplaced {α : Type} (l : List α) (a b : Int) (new r : List α) : Prop :=
  ∃ p m q, l = p ++ m ++ q ∧ r = p ++ new ++ q ∧ (p.length : Int) = a ∧ (m.length : Int) = max 0 (b - a)

theorem setSlice_segment {α : Type} (l : List α) (lo hi : Option Int) (new : List α) :
    SegmentReplaced l (edge l.length (lo.getD 0)) (edge l.length (hi.getD l.length)) new (pySetSlice l lo hi new) := by
  have hc : ∀ i : Int, ((clampIdx l.length i : Nat) : Int) = edge l.length i := by
    intro i
    simp only [clampIdx, edge]
    split <;> omega
  have hle : ∀ i, edge l.length i ≤ l.length := fun i => by simp only [edge]; omega
  have key : ∀ a b : Nat, a ≤ l.length → b ≤ l.length → SegmentReplaced l a b new (l.take a ++ new ++ l.drop (max a b)) := by
    intro a b ha hb
    refine ⟨l.take a, (l.drop a).take (b - a), l.drop (max a b), ?_, rfl, by simp; omega, by simp; omega⟩
    rw [List.append_assoc, show max a b = a + (b - a) by omega, ← List.drop_drop, List.take_append_drop,
      List.take_append_drop]
  have ha := hc (lo.getD 0)
  have ha' := hle (lo.getD 0)
  rw [← ha]
  cases hi with
  | some h =>
    have hb := hc h
    have hb' := hle h
    rw [Option.getD_some, ← hb]
    exact key _ _ (by omega) (by omega)
  | none =>
    have hb : edge l.length (l.length : Int) = (l.length : Int) := by simp only [edge]; split <;> omega
    rw [Option.getD_none, hb]
    exact key _ _ (by omega) (by omega)

/-- `RA` with a Range replaces the items between the two ends by the items of the new value. -/
theorem C59_slice (X : Ext) (l new : List Val) (t : Str) (lo hi : Option Int) :
    (∃ r, opREPLACEAT X (.list l) (.range lo hi) (.list new) = .ok (.list r) ∧
      SegmentReplaced l (edge l.length (lo.getD 0)) (edge l.length (hi.getD l.length)) new r) ∧
    (∃ r, opREPLACEAT X (.list l) (.range lo hi) (.scalar t) = .ok (.list r) ∧
      SegmentReplaced l (edge l.length (lo.getD 0)) (edge l.length (hi.getD l.length)) (t.map fun c => .scalar [c]) r) :=
  ⟨⟨_, by simp only [opREPLACEAT, replaceAt, Val.isIterable, if_true, Val.set]; rfl, setSlice_segment l lo hi new⟩,
    ⟨_, by simp only [opREPLACEAT, replaceAt, Val.isIterable, if_true, Val.set]; rfl, setSlice_segment l lo hi _⟩⟩

/-- In a string the new value is written as text. -/
theorem C59_slice_string (X : Ext) (s t : Str) (lo hi : Option Int) :
    ∃ r, opREPLACEAT X (.scalar s) (.range lo hi) (.scalar t) = .ok (.scalar r) ∧
      SegmentReplaced s (edge s.length (lo.getD 0)) (edge s.length (hi.getD s.length)) t r :=
  ⟨_, by simp only [opREPLACEAT, replaceAt, Val.isIterable, if_true, Val.set, Val.str], setSlice_segment s lo hi t⟩

/-- Replacing a slice that lies within the list by itself changes nothing. -/
theorem C59_slice_same (X : Ext) (l : List Val) (s : Str) (a b : Nat) (hab : a ≤ b) :
    (b ≤ l.length → ∃ v, Val.get (.list l) (.slice (some a) (some b)) = .ok v ∧
      opREPLACEAT X (.list l) (rng (a, b)) v = .ok (.list l)) ∧
    (b ≤ s.length → ∃ v, Val.get (.scalar s) (.slice (some a) (some b)) = .ok v ∧
      opREPLACEAT X (.scalar s) (rng (a, b)) v = .ok (.scalar s)) := by
  have key : ∀ {α : Type} (l : List α), b ≤ l.length → pySetSlice l (some a) (some b) (cycSlice l (some a) (some b)) = l := by
    intro α l hb
    rw [C13_slice_plain l a b hab hb]
    have e1 : clampIdx l.length (a : Int) = a := by simp only [clampIdx]; split <;> omega
    have e2 : clampIdx l.length (b : Int) = b := by simp only [clampIdx]; split <;> omega
    simp only [pySetSlice, Option.getD_some, e1, e2]
    rw [List.append_assoc, show max a b = a + (b - a) by omega, ← List.drop_drop, List.take_append_drop,
      List.take_append_drop]
  refine ⟨fun hb => ⟨_, rfl, ?_⟩, fun hb => ⟨_, rfl, ?_⟩⟩
  · simp only [opREPLACEAT, rng, replaceAt, Val.isIterable, if_true, Val.set, Val.pyList, Val.iter]
    exact congrArg (fun r => Except.ok (Val.list r)) (key l hb)
  · simp only [opREPLACEAT, rng, replaceAt, Val.isIterable, if_true, Val.set, Val.str]
    exact congrArg (fun r => Except.ok (Val.scalar r)) (key s hb)

/-- Outside the list it does not: slices are read around the end, but written only up to it. -/
theorem C59_slice_deviation : Val.get (ints [1, 2]) (.slice (some 0) (some 3)) = .ok (ints [1, 2, 1]) ∧
    opREPLACEAT toyExt (ints [1, 2]) (rng (0, 3)) (ints [1, 2, 1]) = .ok (ints [1, 2, 1]) := by decide +kernel

example : opREPLACEAT toyExt (ints [5, 6, 7, 8]) (rng (1, -1)) (ints [0]) = .ok (ints [5, 0, 8]) := by decide +kernel
example : opREPLACEAT toyExt (.scalar (s% "abcd")) (rng (3, 1)) (.scalar (s% "xy")) = .ok (.scalar (s% "abcxyd")) := by
  decide +kernel

end Pip
