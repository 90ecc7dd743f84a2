import Verif.Props.Deque
import Mathlib.Data.List.InsertIdx
/-!
# C99: pushing to and taking from strings, Ranges and nil
-/

namespace Pip
variable {X : Ext}

theorem rangeInts_from {l : Option Int} {lo : Int} (h : l.getD 0 = lo) (n : Nat) :
    rangeInts l (lo + n) = (List.range n).map fun (j : Nat) => lo + j := by
  apply List.ext_getElem?
  intro k
  by_cases hk : k < n
  · rw [rangeInts_get _ _ _ (by simp only [lo0, h]; omega)]
    simp [List.getElem?_range hk, lo0, h]
  · rw [List.getElem?_eq_none (by rw [rangeInts_length]; simp only [lo0, h]; omega), List.getElem?_eq_none (by simpa using hk)]

/-! ### Taking -/

/-- `PO x` on a string removes and yields the first character. -/
theorem C99_pop_string (x : Str) (hx : PlainVar x) (c : Char) (t : Str) (s : St X) (hl : s.var x = some (.scalar (c :: t))) :
    ∃ s2, Vals (.node (op1 (s% "PO")) [var x]) s (.ok (.scalar [c]), s2) ∧ Assigned x (.scalar t) s s2 :=
  taken_var po_flags popOf (fun _ _ => rfl) hx hl rfl rfl

/-- On a Range, also one without end, it removes and yields the first number. -/
theorem C99_pop_range (x : Str) (hx : PlainVar x) (lo : Int) (l hi : Option Int) (hlo : l.getD 0 = lo) (hh : ∀ h, hi = some h → lo < h)
    (s : St X) (hl : s.var x = some (.range l hi)) :
    ∃ s2, Vals (.node (op1 (s% "PO")) [var x]) s (.ok (ofInt lo), s2) ∧ Assigned x (.range (some (lo + 1)) hi) s s2 := by
  refine taken_var po_flags popOf (fun _ _ => rfl) hx hl rfl ?_
  have : (Val.range l hi).isEmpty = false := by
    cases hi with
    | none => rfl
    | some h =>
      have := hh h rfl
      simp only [Val.isEmpty, lo0, hlo]
      simpa using this
  simp only [popOf, this, Bool.false_eq_true, if_false, lo0, hlo]

/-- `DQ x` on a string removes and yields the last character. -/
theorem C99_dequeue_string (x : Str) (hx : PlainVar x) (c : Char) (t : Str) (s : St X) (hl : s.var x = some (.scalar (t ++ [c]))) :
    ∃ s2, Vals (.node (op1 (s% "DQ")) [var x]) s (.ok (.scalar [c]), s2) ∧ Assigned x (.scalar t) s s2 :=
  taken_var dq_flags dequeueOf (fun _ _ => rfl) hx hl rfl (by simp [dequeueOf])

/-- On a Range it removes and yields the last number. -/
theorem C99_dequeue_range (x : Str) (hx : PlainVar x) (l : Option Int) (hi : Int) (hh : l.getD 0 < hi)
    (s : St X) (hl : s.var x = some (.range l (some hi))) :
    ∃ s2, Vals (.node (op1 (s% "DQ")) [var x]) s (.ok (ofInt (hi - 1)), s2) ∧ Assigned x (.range l (some (hi - 1))) s s2 := by
  refine taken_var dq_flags dequeueOf (fun _ _ => rfl) hx hl rfl ?_
  have : (Val.range l (some hi)).isEmpty = false := by
    simp only [Val.isEmpty, lo0]
    exact decide_eq_false (by omega)
  simp only [dequeueOf, this, Bool.false_eq_true, if_false]

theorem picked_var {x : Str} (hx : PlainVar x) {e : Tree} {i : Int} {u item rest : Val} {s s1 : St X}
    (hb : (s.read x).isBlock = false) (he : HasVal e s (ofInt i) s1) (hl : s1.var x = some u) (hf : pickOf i u = some (item, rest)) :
    ∃ s2, Vals (.node (op2 (s% "PK")) [var x, e]) s (.ok item, s2) ∧ Assigned x rest s1 s2 := by
  obtain ⟨t, n, ht, h⟩ := pk_flags.var2 hx hb he rfl
  refine ⟨s1.put x _, Vals.of_evals (runs_of ok_ne_fuel n 2 fun m hm => ?_), s1.put_assigned x _⟩
  show (run X (m + 2)).ev _ s = _
  rw [h m hm]
  apply M.dieType_ok
  show opPICK _ t s1 = _
  unfold opPICK
  rw [M.bind_ok ht]
  simp only [ofInt, toInt_showInt]
  exact take_var hx hl hf

/-- `x PK e` on a string removes and yields the character at the position modulo the length. -/
theorem C99_pick_string (x : Str) (hx : PlainVar x) (e : Tree) (i : Int) (p q : Str) (c : Char) (s s1 : St X)
    (hb : (s.read x).isBlock = false) (he : HasVal e s (ofInt i) s1) (hl : s1.var x = some (.scalar (p ++ c :: q)))
    (hk : (p.length : Int) = i % (p.length + q.length + 1 : Nat)) :
    ∃ s2, Vals (.node (op2 (s% "PK")) [var x, e]) s (.ok (.scalar [c]), s2) ∧ Assigned x (.scalar (p ++ q)) s1 s2 := by
  refine picked_var hx hb he hl ?_
  have hk' : (i % ((p ++ c :: q).length : Int)).toNat = p.length := by
    rw [show (p ++ c :: q).length = p.length + q.length + 1 by simp; omega, ← hk]
    rfl
  simp only [pickOf, hk']
  simp [List.eraseIdx_append_of_length_le]

/-- On a Range it removes and yields the number at the position; the first leaves a Range, another a List. -/
theorem C99_pick_range (x : Str) (hx : PlainVar x) (e : Tree) (i lo : Int) (l : Option Int) (k n : Nat) (s s1 : St X)
    (hb : (s.read x).isBlock = false) (he : HasVal e s (ofInt i) s1) (hlo : l.getD 0 = lo) (hl : s1.var x = some (.range l (some (lo + n))))
    (hn : 0 < n) (hk : (k : Int) = i % n) :
    ∃ s2 rest, Vals (.node (op2 (s% "PK")) [var x, e]) s (.ok (ofInt (lo + k)), s2) ∧ Assigned x rest s1 s2 ∧
      rest = if k = 0 then .range (some (lo + 1)) (some (lo + n))
        else .list ((List.range n).filter (· ≠ k) |>.map fun (j : Nat) => ofInt (lo + j)) := by
  have hr : rangeInts l (lo + n) = (List.range n).map fun (j : Nat) => lo + j := rangeInts_from hlo n
  have hlen : (rangeInts l (lo + n)).length = n := by rw [hr]; simp
  have hkn : k < n := by
    have := Int.emod_lt_of_pos i (show (0 : Int) < n by omega)
    omega
  have hk' : (i % ((rangeInts l (lo + n)).length : Int)).toNat = k := by rw [hlen]; omega
  have he' : (rangeInts l (lo + n)).isEmpty = false := by
    rw [List.isEmpty_eq_false_iff_exists_mem, hr]
    exact ⟨lo + (0 : Nat), List.mem_map.2 ⟨0, by simpa using hn, rfl⟩⟩
  have her : (List.range n).filter (· ≠ k) = (List.range n).eraseIdx k := by
    rw [List.eraseIdx_eq_take_drop_succ]
    have e1 : List.range n = List.range k ++ k :: (List.range (n - k - 1)).map (k + 1 + ·) := by
      rw [show n = k + (1 + (n - k - 1)) by omega, List.range_add, List.range_add]
      simp [Nat.add_assoc, Function.comp_def]
    rw [e1]
    rw [List.filter_append, List.filter_cons_of_neg (by simp)]
    have e2 : (List.range k).filter (· ≠ k) = List.range k := List.filter_eq_self.2 fun a ha => by
      have := List.mem_range.1 ha
      simp; omega
    have e3 : ((List.range (n - k - 1)).map (k + 1 + ·)).filter (· ≠ k) = (List.range (n - k - 1)).map (k + 1 + ·) :=
      List.filter_eq_self.2 fun a ha => by
        obtain ⟨j, _, rfl⟩ := List.mem_map.1 ha
        simp; omega
    rw [e2, e3]
    congr 1
    · rw [List.take_left' (by simp)]
    · rw [show List.range k ++ k :: (List.range (n - k - 1)).map (k + 1 + ·) = (List.range k ++ [k]) ++ (List.range (n - k - 1)).map (k + 1 + ·) by simp,
        List.drop_left' (by simp)]
  obtain ⟨s2, h1, h2⟩ := picked_var hx hb he hl (item := ofInt (lo + k)) (rest := if k = 0 then .range (some (lo + 1)) (some (lo + n))
        else .list ((List.range n).filter (· ≠ k) |>.map fun (j : Nat) => ofInt (lo + j))) (by
    simp only [pickOf, he', Bool.false_eq_true, if_false, hk', lo0, hlo]
    by_cases h0 : k = 0
    · simp [h0]
    · rw [if_neg h0, if_neg h0, her, hr]
      simp only [List.getElem?_map, List.getElem?_range hkn, Option.map_some]
      rw [← List.eraseIdx_map, ← List.eraseIdx_map, List.map_map]
      rfl)
  exact ⟨s2, _, h1, h2, rfl⟩

/-- From what has no items, and from what is no string, List or Range, nothing is taken and the result is nil; neither can the last
item of a Range without end be taken. -/
theorem C99_none (x : Str) (hx : PlainVar x) (v : Val) (s : St X) (hl : s.var x = some v) :
    (v = .scalar [] ∨ v = .list [] ∨ (∃ l h : Int, h ≤ l ∧ v = .range (some l) (some h)) ∨ (∃ r f, v = .pattern r f) ∨ v = .nil →
      Vals (.node (op1 (s% "PO")) [var x]) s (.ok .nil, s)) ∧
    (v = .scalar [] ∨ v = .list [] ∨ (∃ l h : Int, h ≤ l ∧ v = .range (some l) (some h)) ∨ (∃ r f, v = .pattern r f) ∨ v = .nil ∨
      (∃ l, v = .range l none) → Vals (.node (op1 (s% "DQ")) [var x]) s (.ok .nil, s)) := by
  constructor
  · intro h
    refine Vals.of_evals (runs_of ok_ne_fuel 0 2 fun m _ => ?_)
    show (run X (m + 2)).ev _ s = _
    have hv : v.isBlock = false ∧ popOf v = none := by
      rcases h with rfl | rfl | ⟨l, h, hlh, rfl⟩ | ⟨r, f, rfl⟩ | rfl
      all_goals first | exact ⟨rfl, rfl⟩ | skip
      exact ⟨rfl, by simp [popOf, Val.isEmpty, lo0, hlh]⟩
    rw [po_flags.var1 hx (by rw [St.read_of_var hl]; exact hv.1)]
    exact M.dieType_ok (take_none (f := popOf) hx hl hv.2)
  · intro h
    refine Vals.of_evals (runs_of ok_ne_fuel 0 2 fun m _ => ?_)
    show (run X (m + 2)).ev _ s = _
    have hv : v.isBlock = false ∧ dequeueOf v = none := by
      rcases h with rfl | rfl | ⟨l, h, hlh, rfl⟩ | ⟨r, f, rfl⟩ | rfl | ⟨l, rfl⟩
      all_goals first | exact ⟨rfl, rfl⟩ | skip
      exact ⟨rfl, by simp [dequeueOf, Val.isEmpty, lo0, hlh]⟩
    rw [dq_flags.var1 hx (by rw [St.read_of_var hl]; exact hv.1)]
    exact M.dieType_ok (take_none (f := dequeueOf) hx hl hv.2)

/-! ### Pushing -/

/-- Pushing to nil makes a List of one item. -/
theorem C99_push_nil (x : Str) (hx : PlainVar x) (e : Tree) (v : Val) (s s1 : St X)
    (hb : (s.read x).isBlock = false) (he : HasVal e s v s1) (hv : v.isBlock = false) (hl : s1.var x = some .nil) :
    (∃ s2, Vals (.node (op2 (s% "PU")) [var x, e]) s (.ok (.list [v]), s2) ∧ Assigned x (.list [v]) s1 s2) ∧
    (∃ s2, Vals (.node (op2 (s% "PB")) [var x, e]) s (.ok (.list [v]), s2) ∧ Assigned x (.list [v]) s1 s2) :=
  ⟨pushed_var pu_flags true (fun _ _ _ => rfl) hx hb he hv hl rfl, pushed_var pb_flags false (fun _ _ _ => rfl) hx hb he hv hl rfl⟩

/-- Pushing to a string puts the text of the value before or after it. -/
theorem C99_push_string (x : Str) (hx : PlainVar x) (e : Tree) (v : Val) (t : Str) (s s1 : St X)
    (hb : (s.read x).isBlock = false) (he : HasVal e s v s1) (hv : v.isBlock = false) (hl : s1.var x = some (.scalar t)) :
    (∃ s2, Vals (.node (op2 (s% "PU")) [var x, e]) s (.ok (.scalar (v.str X.fmt ++ t)), s2) ∧
      Assigned x (.scalar (v.str X.fmt ++ t)) s1 s2) ∧
    (∃ s2, Vals (.node (op2 (s% "PB")) [var x, e]) s (.ok (.scalar (t ++ v.str X.fmt)), s2) ∧
      Assigned x (.scalar (t ++ v.str X.fmt)) s1 s2) :=
  ⟨pushed_var pu_flags true (fun _ _ _ => rfl) hx hb he hv hl rfl, pushed_var pb_flags false (fun _ _ _ => rfl) hx hb he hv hl rfl⟩

/-- Pushing to a Range makes a List of the numbers and the value. -/
theorem C99_push_range (x : Str) (hx : PlainVar x) (e : Tree) (v : Val) (l : Option Int) (lo : Int) (n : Nat) (s s1 : St X)
    (hb : (s.read x).isBlock = false) (he : HasVal e s v s1) (hv : v.isBlock = false) (hlo : l.getD 0 = lo)
    (hl : s1.var x = some (.range l (some (lo + n)))) :
    let ns := (List.range n).map fun (j : Nat) => ofInt (lo + j)
    (∃ s2, Vals (.node (op2 (s% "PU")) [var x, e]) s (.ok (.list (v :: ns)), s2) ∧ Assigned x (.list (v :: ns)) s1 s2) ∧
    (∃ s2, Vals (.node (op2 (s% "PB")) [var x, e]) s (.ok (.list (ns ++ [v])), s2) ∧ Assigned x (.list (ns ++ [v])) s1 s2) := by
  have hr : (rangeInts l (lo + n)).map ofInt = (List.range n).map fun (j : Nat) => ofInt (lo + j) := by
    rw [rangeInts_from hlo n, List.map_map]
    rfl
  refine ⟨pushed_var pu_flags true (fun _ _ _ => rfl) hx hb he hv hl ?_, pushed_var pb_flags false (fun _ _ _ => rfl) hx hb he hv hl ?_⟩
  · rw [← hr]; rfl
  · rw [← hr]; rfl

example : toyOut (s% "x:\"abcde\"[POx DQx xPK1x]J\",\"") [] [] = some (s% "a,e,c,bd\n") := by decide +kernel
example : toyOut (s% "x:3,8[POx DQx xPK1x]J\",\"") [] [] = some (s% "3,7,5,4,6\n") := by decide +kernel
example : toyOut (s% "x:()xPU5x:x@0x PB2x") [] [] = some (s% "52\n") := by decide +kernel
example : toyOut (s% "x:,3xPB9xJ\",\"") [] [] = some (s% "0,1,2,9\n") := by decide +kernel

end Pip
