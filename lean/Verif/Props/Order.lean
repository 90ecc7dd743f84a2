import Verif.Lemmas.Seq
import Verif.Lemmas.Weave
import Verif.Props.Compare
import Verif.Props.Values
import Verif.Spec.Toy
/-!
# Sorting, duplicates, reversal, weaving

C34 sorting, C35 unique items, C36 reversal and palindromes, C37 weaving.
-/

namespace Pip

/-! ### C34 -/

/-- The keys of the items are compared by a strict order `lt` through `κ`. -/
def OrderedBy {α : Type} (X : Ext) (κ : Val → α) (lt : α → α → Bool) (l : List Val) : Prop :=
  (∀ a b c, lt b a = false → lt c b = false → lt c a = false) ∧ (∀ a b, lt a b = true → lt b a = false) ∧
  ∀ a ∈ l, ∀ b ∈ l, keyLt X (a.key X) (b.key X) = some (lt (κ a) (κ b))

theorem sortNum_eq {α : Type} (X : Ext) (κ : Val → α) (lt : α → α → Bool) (l : List Val) (h : OrderedBy X κ lt l)
    (desc : Bool) : sortNum X desc (.list l) =
      .ok (.list (l.mergeSort fun a b => if desc then !lt (κ a) (κ b) else !lt (κ b) (κ a))) := by
  have hc : comparable X ((l.map fun x => (x.key X, x)).map (·.1)) = true := by
    simp only [comparable, List.all_eq_true, List.mem_map, List.map_map, Function.comp]
    rintro _ ⟨a, ha, rfl⟩ _ ⟨b, hb, rfl⟩
    simp only [h.2.2 a ha b hb, Option.isSome_some]
  simp only [sortNum, Val.isIterable, if_true, Val.pyList, Val.iter, bind, Except.bind, pure, Except.pure, sortByKeys,
    hc, sortKeyed]
  have e := List.map_mergeSort (l := l) (f := fun x => (x.key X, x))
    (r := fun a b => if desc then !lt (κ a) (κ b) else !lt (κ b) (κ a))
    (s := fun a b => if desc then !((keyLt X a.1 b.1).getD false) else !((keyLt X b.1 a.1).getD false))
    (by intro a ha b hb; simp only [h.2.2 a ha b hb, h.2.2 b hb a ha, Option.getD_some])
  rw [← e, List.map_map]
  congr 2
  exact List.map_id _

theorem sortNum_stable {α : Type} (X : Ext) (κ : Val → α) (lt : α → α → Bool) (l : List Val) (h : OrderedBy X κ lt l) :
    ∃ r r', opSORTNUM X (.list l) = .ok (.list r) ∧ opDESCENDINGNUM X (.list l) = .ok (.list r') ∧
      StableSort (fun a b => !lt (κ b) (κ a)) l r ∧ StableSort (fun a b => !lt (κ a) (κ b)) l r' ∧
      opSORTNUM X (.list r) = .ok (.list r) ∧ opDESCENDINGNUM X (.list r') = .ok (.list r') := by
  have ht1 : ∀ a b c : Val, (!lt (κ b) (κ a)) = true → (!lt (κ c) (κ b)) = true → (!lt (κ c) (κ a)) = true := by
    intro a b c h1 h2
    simp only [Bool.not_eq_true'] at *
    exact h.1 _ _ _ h1 h2
  have ht2 : ∀ a b c : Val, (!lt (κ a) (κ b)) = true → (!lt (κ b) (κ c)) = true → (!lt (κ a) (κ c)) = true := by
    intro a b c h1 h2
    simp only [Bool.not_eq_true'] at *
    exact h.1 _ _ _ h2 h1
  have ho1 : ∀ a b : Val, ((!lt (κ b) (κ a)) || (!lt (κ a) (κ b))) = true := by
    intro a b
    cases e : lt (κ b) (κ a) with
    | false => rfl
    | true => rw [h.2.1 _ _ e]; rfl
  have ho2 : ∀ a b : Val, ((!lt (κ a) (κ b)) || (!lt (κ b) (κ a))) = true := fun a b => ho1 b a
  have s1 := stableSort_mergeSort _ ht1 ho1 l
  have s2 := stableSort_mergeSort _ ht2 ho2 l
  have again : ∀ r : List Val, r.Perm l → OrderedBy X κ lt r := fun r hr =>
    ⟨h.1, h.2.1, fun a ha b hb => h.2.2 a (hr.mem_iff.1 ha) b (hr.mem_iff.1 hb)⟩
  refine ⟨_, _, sortNum_eq X κ lt l h false, sortNum_eq X κ lt l h true, by simpa using s1, by simpa using s2, ?_, ?_⟩
  · rw [opSORTNUM, sortNum_eq X κ lt _ (again _ (List.mergeSort_perm _ _)), List.mergeSort_of_pairwise]
    simpa using s1.2.1
  · rw [opDESCENDINGNUM, sortNum_eq X κ lt _ (again _ (List.mergeSort_perm _ _)), List.mergeSort_of_pairwise]
    simpa using s2.2.1

/-- `SN` and `DN` on items that are integers (or have an integer as their number) sort stably by that number; sorting again changes
nothing. -/
theorem C34_numeric (X : Ext) (κ : Val → Int) (l : List Val) (h : ∀ v ∈ l, v.key X = .num (.int (κ v))) :
    ∃ r r', opSORTNUM X (.list l) = .ok (.list r) ∧ opDESCENDINGNUM X (.list l) = .ok (.list r') ∧
      StableSort (fun a b => decide (κ a ≤ κ b)) l r ∧ StableSort (fun a b => decide (κ b ≤ κ a)) l r' ∧
      opSORTNUM X (.list r) = .ok (.list r) ∧ opDESCENDINGNUM X (.list r') = .ok (.list r') := by
  obtain ⟨r, r', h1, h2, h3, h4, h5⟩ := sortNum_stable X κ (fun a b => decide (a < b)) l
    ⟨by intro a b c; simp; omega, by intro a b; simp; omega,
      by intro a ha b hb; rw [h a ha, h b hb]; simp [keyLt, nlt]⟩
  have e : ∀ a b : Val, (!decide (κ b < κ a)) = decide (κ a ≤ κ b) := by
    intro a b; rw [← decide_not]; exact decide_eq_decide.2 (by omega)
  simp only [e] at h3 h4
  exact ⟨r, r', h1, h2, h3, h4, h5⟩

/-- Scalars that are integers satisfy the hypothesis. -/
theorem C34_integers (X : Ext) (l : List Int) :
    ∃ r r', opSORTNUM X (ints l) = .ok (ints r) ∧ opDESCENDINGNUM X (ints l) = .ok (ints r') ∧
      r.Perm l ∧ r.Pairwise (· ≤ ·) ∧ r'.Perm l ∧ r'.Pairwise (· ≥ ·) := by
  have hk : ∀ v ∈ l.map ofInt, v.key X = .num (.int ((fun v => match v with | .scalar s => toInt s | _ => 0) v)) := by
    intro v hv
    obtain ⟨i, _, rfl⟩ := List.mem_map.1 hv
    simp only [ofInt, Val.key, toNum_showInt, toInt_showInt]
  obtain ⟨r, r', h1, h2, h3, h4, _⟩ := C34_numeric X _ (l.map ofInt) hk
  have hm : ∀ r : List Val, r.Perm (l.map ofInt) → r = (r.map fun v => match v with | .scalar s => toInt s | _ => 0).map ofInt := by
    intro r hr
    rw [List.map_map]
    refine (List.map_id' r).symm.trans (List.map_congr_left fun v hv => ?_)
    obtain ⟨i, _, rfl⟩ := List.mem_map.1 (hr.mem_iff.1 hv)
    simp [ofInt, toInt_showInt]
  have hp : ∀ r : List Val, r.Perm (l.map ofInt) → (r.map fun v => match v with | .scalar s => toInt s | _ => 0).Perm l := by
    intro r hr
    have := hr.map fun v => match v with | .scalar s => toInt s | _ => 0
    rw [List.map_map] at this
    refine this.trans (List.Perm.of_eq ?_)
    refine (List.map_congr_left fun i _ => ?_).trans (List.map_id' l)
    simp [ofInt, toInt_showInt]
  refine ⟨_, _, ?_, ?_, hp r h3.1, ?_, hp r' h4.1, ?_⟩
  · rw [ints, h1, ints, ← hm r h3.1]
  · rw [ints, h2, ints, ← hm r' h4.1]
  · rw [List.pairwise_map]
    exact h3.2.1.imp fun h => by simpa using h
  · rw [List.pairwise_map]
    exact h4.2.1.imp fun h => by simpa using h

/-- Whatever the items are, `SN` and `DN` of a list are nil or a permutation of it. -/
theorem C34_permutation (X : Ext) (l : List Val) :
    (opSORTNUM X (.list l) = .ok .nil ∨ ∃ r, opSORTNUM X (.list l) = .ok (.list r) ∧ r.Perm l) ∧
    (opDESCENDINGNUM X (.list l) = .ok .nil ∨ ∃ r, opDESCENDINGNUM X (.list l) = .ok (.list r) ∧ r.Perm l) := by
  have : ∀ desc, (sortNum X desc (.list l) = .ok .nil ∨ ∃ r, sortNum X desc (.list l) = .ok (.list r) ∧ r.Perm l) := by
    intro desc
    simp only [sortNum, Val.isIterable, if_true, Val.pyList, Val.iter, bind, Except.bind, pure, Except.pure, sortByKeys]
    split
    · refine .inr ⟨_, rfl, ?_⟩
      refine ((List.mergeSort_perm _ _).map _).trans (List.Perm.of_eq ?_)
      rw [List.map_map]
      exact List.map_id _
    · exact .inl rfl
  exact ⟨this false, this true⟩

/-- `SS` and `DS` of any list sort it stably by the texts of its items, compared character by character; sorting
again changes nothing. -/
theorem C34_strings (X : Ext) (l : List Val) :
    ∃ r r', opSORTSTRING X (.list l) = .ok (.list r) ∧ opDESCENDINGSTRING X (.list l) = .ok (.list r') ∧
      StableSort (fun a b => decide (a.str X.fmt ≤ b.str X.fmt)) l r ∧
      StableSort (fun a b => decide (b.str X.fmt ≤ a.str X.fmt)) l r' ∧
      opSORTSTRING X (.list r) = .ok (.list r) ∧ opDESCENDINGSTRING X (.list r') = .ok (.list r') := by
  have e : ∀ a b : Str, (!ltStr b a) = decide (a ≤ b) := by
    intro a b
    rw [Bool.eq_iff_iff, decide_eq_true_eq, Bool.not_eq_true', ← Bool.not_eq_true, ltStr_iff, List.not_lt]
  have s1 := stableSort_mergeSort (fun a b : Val => decide (a.str X.fmt ≤ b.str X.fmt))
    (fun a b c => by simpa using List.le_trans) (fun a b => by simpa using List.le_total _ _) l
  have s2 := stableSort_mergeSort (fun a b : Val => decide (b.str X.fmt ≤ a.str X.fmt))
    (fun a b c => by simpa using fun h1 h2 => List.le_trans h2 h1) (fun a b => by simpa using List.le_total _ _) l
  have e1 : ∀ l, opSORTSTRING X (.list l) = .ok (.list (l.mergeSort fun a b : Val => decide (a.str X.fmt ≤ b.str X.fmt))) := by
    intro l
    simp [opSORTSTRING, sortStr, Val.isIterable, Val.pyList, Val.iter, bind, Except.bind, pure, Except.pure, e]
  have e2 : ∀ l, opDESCENDINGSTRING X (.list l) =
      .ok (.list (l.mergeSort fun a b : Val => decide (b.str X.fmt ≤ a.str X.fmt))) := by
    intro l
    simp [opDESCENDINGSTRING, sortStr, Val.isIterable, Val.pyList, Val.iter, bind, Except.bind, pure, Except.pure, e]
  refine ⟨_, _, e1 l, e2 l, s1, s2, ?_, ?_⟩
  · rw [e1, List.mergeSort_of_pairwise s1.2.1]
  · rw [e2, List.mergeSort_of_pairwise s2.2.1]

/-- `SS` and `DS` of a string sort its characters by code point. -/
theorem C34_characters (X : Ext) (s : Str) :
    ∃ r r', opSORTSTRING X (.scalar s) = .ok (.scalar r) ∧ opDESCENDINGSTRING X (.scalar s) = .ok (.scalar r') ∧
      r.Perm s ∧ r.Pairwise (fun a b => a.toNat ≤ b.toNat) ∧ r'.Perm s ∧ r'.Pairwise (fun a b => b.toNat ≤ a.toNat) := by
  refine ⟨_, _, rfl, rfl, List.mergeSort_perm _ _, ?_, List.mergeSort_perm _ _, ?_⟩
  · have := List.pairwise_mergeSort (le := fun a b : Char => decide (a.toNat ≤ b.toNat))
      (fun a b c => by simp; omega) (fun a b => by simp; omega) s
    simpa using this
  · have := List.pairwise_mergeSort (le := fun a b : Char => decide (b.toNat ≤ a.toNat))
      (fun a b c => by simp; omega) (fun a b => by simp; omega) s
    simpa using this

/-- The hypothesis of `C34_numeric` holds for a list of strings with numbers at their beginning. -/
example : ∀ v ∈ [Val.scalar (s% "12a"), .nil, .scalar (s% "-3")], v.key toyExt = .num (.int (match v with
    | .scalar s => toInt s
    | _ => 0)) := by
  intro v hv
  simp only [List.mem_cons, List.not_mem_nil, or_false] at hv
  rcases hv with rfl | rfl | rfl <;> rfl

/-! ### C35 -/

/-- `UQ` keeps the first occurrences of the items of a list. -/
theorem C35_list (l : List Val) (h : Val.plains l = true) :
    ∃ r, opUNIQUE (.list l) = .ok (.list r) ∧ FirstOccurrences l r ∧ opUNIQUE (.list r) = .ok (.list r) := by
  refine ⟨_, rfl, ⟨uniqueLoop_nodup l [] h, ?_, ?_⟩, ?_⟩
  · intro x; simp [uniqueLoop_mem l [] h]
  · intro r₁ x r₂ e
    obtain ⟨l₁, l₂, e', hm⟩ := uniqueLoop_first l [] h r₁ x r₂ e
    exact ⟨l₁, l₂, e', fun y => hm y (by simp)⟩
  · simp only [opUNIQUE]
    rw [uniqueLoop_id _ [] _ (uniqueLoop_nodup l [] h) (by simp)]
    rw [plains_iff] at h ⊢
    intro v hv
    exact h v ((uniqueLoop_mem l [] ((plains_iff l).2 h) v).1 hv).1

/-- `UQ` of a string keeps the first occurrences of its characters. -/
theorem C35_string (s : Str) :
    ∃ r : Str, opUNIQUE (.scalar s) = .ok (.scalar r) ∧ FirstOccurrences s r ∧ opUNIQUE (.scalar r) = .ok (.scalar r) := by
  have hpl : ∀ s : Str, Val.plains (s.map fun c => .scalar [c]) = true := by
    intro s; rw [plains_iff]; intro v hv
    obtain ⟨c, _, rfl⟩ := List.mem_map.1 hv; rfl
  have inj : ∀ c d : Char, Val.scalar [c] = .scalar [d] → c = d := by intro c d h; simpa using h
  have hex : ∃ r : Str, uniqueLoop (s.map fun c => Val.scalar [c]) [] = r.map fun c => Val.scalar [c] := by
    have : ∀ (s : Str) seen, ∃ r : Str, uniqueLoop (s.map fun c => Val.scalar [c]) seen = r.map fun c => Val.scalar [c] := by
      intro s
      induction s with
      | nil => intro seen; exact ⟨[], rfl⟩
      | cons c s ih =>
        intro seen
        simp only [List.map_cons, uniqueLoop]
        split
        · exact ih seen
        · obtain ⟨r, hr⟩ := ih (.scalar [c] :: seen)
          exact ⟨c :: r, by rw [hr]; rfl⟩
    exact this s []
  obtain ⟨r, hr⟩ := hex
  have hmem : ∀ (c : Char) (s : Str), Val.scalar [c] ∈ s.map (fun c => Val.scalar [c]) ↔ c ∈ s := by
    intro c s; simp
  have hnd : r.Nodup := by
    have := uniqueLoop_nodup _ [] (hpl s)
    rw [hr, List.nodup_iff_pairwise_ne, List.pairwise_map] at this
    rw [List.nodup_iff_pairwise_ne]
    exact this.imp fun h e => h (by rw [e])
  refine ⟨r, by rw [opUNIQUE, hr, joinPy_chars], ⟨hnd, ?_, ?_⟩, ?_⟩
  · intro c
    have := uniqueLoop_mem _ [] (hpl s) (.scalar [c])
    rw [hr, hmem, hmem] at this
    simpa using this
  · intro r₁ c r₂ e
    obtain ⟨l₁, l₂, e', hm⟩ := uniqueLoop_first _ [] (hpl s) (r₁.map fun c => .scalar [c]) (.scalar [c])
      (r₂.map fun c => .scalar [c]) (by rw [hr, e]; simp)
    obtain ⟨a, b, ea, eb, ec⟩ := List.map_eq_append_iff.1 e'
    obtain ⟨d, b', eb', hd, hb⟩ := List.map_eq_cons_iff.1 ec
    obtain rfl := inj d c hd
    refine ⟨a, b', by rw [ea, eb'], fun y => ?_⟩
    have := hm (.scalar [y]) (by simp)
    rw [hmem, ← eb, hmem] at this
    exact this
  · rw [opUNIQUE, uniqueLoop_id _ [] (hpl r) _ (by simp), joinPy_chars]
    rw [List.nodup_iff_pairwise_ne, List.pairwise_map]
    exact (List.nodup_iff_pairwise_ne.1 hnd).imp fun h e => h (inj _ _ e)

example : opUNIQUE (.scalar (s% "mississippi")) = .ok (.scalar (s% "misp")) := by
  simp only [opUNIQUE, List.map, uniqueLoop, List.any, sameItem_plain (.scalar _) _ (by simp [Val.plain])]
  decide +kernel

/-! ### C36 -/

/-- `RV` reverses positions and is its own inverse. -/
theorem C36_reverse (s : Str) (l : List Val) (a b : Int) :
    (∃ r, opREVERSE (.scalar s) = .ok (.scalar r) ∧ opREVERSE (.scalar r) = .ok (.scalar s) ∧
      r.length = s.length ∧ ∀ i < s.length, r[i]? = s[s.length - 1 - i]?) ∧
    (∃ r, opREVERSE (.list l) = .ok (.list r) ∧ opREVERSE (.list r) = .ok (.list l) ∧
      r.length = l.length ∧ ∀ i < l.length, r[i]? = l[l.length - 1 - i]?) ∧
    opREVERSE (.range (some a) (some b)) = opREVERSE (asList a b) := by
  refine ⟨⟨_, rfl, by simp [opREVERSE], by simp, ?_⟩, ⟨_, rfl, by simp [opREVERSE], by simp, ?_⟩, rfl⟩
  · intro i hi; rw [List.getElem?_reverse hi]
  · intro i hi; rw [List.getElem?_reverse hi]

/-- `RF` appends the reverse; for Ranges as for the list of their members. -/
theorem C36_reflect (s : Str) (l : List Val) (a b : Int) :
    opREFLECT (.scalar s) = .ok (.scalar (s ++ s.reverse)) ∧ opREFLECT (.list l) = .ok (.list (l ++ l.reverse)) ∧
    opREFLECT (.range (some a) (some b)) = opREFLECT (asList a b) :=
  ⟨rfl, rfl, rfl⟩

/-- `r` is the palindrome that begins with `x` and has its last item in the middle. -/
def IsPalindromeOf {α : Type} (x r : List α) : Prop :=
  r.reverse = r ∧ r.length = 2 * x.length - 1 ∧ r.take x.length = x

theorem palin_spec {α : Type} (x : List α) : IsPalindromeOf x (palin x) := by
  refine ⟨?_, ?_, by simp [palin]⟩
  · rcases List.eq_nil_or_concat x with rfl | ⟨y, z, rfl⟩
    · rfl
    · simp [palin]
  · simp [palin]; omega

/-- `PZ` makes a palindrome. -/
theorem C36_palindrome (s : Str) (l : List Val) (a b : Int) :
    (∃ r, opPALINDROMIZE (.scalar s) = .ok (.scalar r) ∧ IsPalindromeOf s r) ∧
    (∃ r, opPALINDROMIZE (.list l) = .ok (.list r) ∧ IsPalindromeOf l r) ∧
    opPALINDROMIZE (.range (some a) (some b)) = opPALINDROMIZE (asList a b) :=
  ⟨⟨_, rfl, palin_spec s⟩, ⟨_, rfl, palin_spec l⟩, rfl⟩

/-- `QR` and `QP` of a list of rows do so to the list and to every row. -/
theorem C36_quad (rows : List Str) :
    opQUADREFLECT (strs rows) = .ok (strs ((rows ++ rows.reverse).map fun r => r ++ r.reverse)) ∧
    ∃ rs : List Str, opQUADPALINDROMIZE (strs rows) = .ok (strs rs) ∧ rs.reverse = rs ∧
      rs.length = 2 * rows.length - 1 ∧ ∀ (i : Nat) (x : Str), rows[i]? = some x → ∃ r, rs[i]? = some r ∧ IsPalindromeOf x r := by
  have hm : ∀ (f : Val → E Val) (g : Str → Str) (_ : ∀ s, f (.scalar s) = .ok (.scalar (g s))) (l : List Str),
      (l.map Val.scalar).mapM f = .ok ((l.map g).map .scalar) := by
    intro f g hf l
    induction l with
    | nil => rfl
    | cons x l ih =>
      rw [List.map_cons, List.mapM_cons, hf, ih]; rfl
  constructor
  · simp only [opQUADREFLECT, quad, strs, opREFLECT, bind, Except.bind, pure, Except.pure, Val.items, Val.iter]
    rw [← List.map_reverse, ← List.map_append, hm opREFLECT (fun r => r ++ r.reverse) fun _ => rfl]
  · refine ⟨(palin rows).map palin, ?_, ?_, ?_, ?_⟩
    · simp only [opQUADPALINDROMIZE, quad, strs, opPALINDROMIZE, bind, Except.bind, pure, Except.pure, Val.items, Val.iter]
      rw [show palin (rows.map Val.scalar) = (palin rows).map .scalar by simp [palin],
        hm opPALINDROMIZE palin fun _ => rfl]
    · rw [← List.map_reverse, (palin_spec rows).1]
    · rw [List.length_map, (palin_spec rows).2.1]
    · intro i x hx
      refine ⟨palin x, ?_, palin_spec x⟩
      have hi : i < rows.length := (List.getElem?_eq_some_iff.1 hx).1
      rw [List.getElem?_map, palin, List.getElem?_append_left hi, hx]
      rfl

example : opQUADPALINDROMIZE (strs [s% "ab", s% "cd"]) = .ok (strs [s% "aba", s% "cdc", s% "aba"]) := by decide +kernel

/-! ### C37 -/

/-- `strands` are the `k` strands of `l`: strand `j` holds the items at positions `j`, `j + k`, `j + 2k`, ... -/
def AreStrands {α : Type} (k : Nat) (l : List α) (strands : List (List α)) : Prop :=
  strands.length = k ∧ ∀ j < k, ∃ st, strands[j]? = some st ∧ ∀ i, st[i]? = l[j + i * k]?

/-- Strings: the strands of `UW` and weaving them back. -/
theorem C37_string (s : Str) (k : Nat) (hk : 1 ≤ k) :
    ∃ ss : List Str, opUNWEAVE (.scalar s) (some (ofInt k)) = .ok (strs ss) ∧ AreStrands k s ss ∧
      opWEAVE (strs ss) none = .ok (some (.scalar s)) := by
  refine ⟨unweave k s, ?_, unweave_strands hk s, ?_⟩
  · simp only [opUNWEAVE, ofInt, toInt_showInt, Val.isIterable, if_true]
    rw [if_neg (by omega), Int.toNat_natCast, unweave_map,
      mapM_ok (fun t => joinPy t none) _ _ (fun t => joinPy_chars t)]
    rfl
  · have hne : unweave k s ≠ [] := by
      intro h
      have := (unweave_strands hk s).1
      rw [h] at this; simp at this; omega
    simp only [opWEAVE, strs, Val.items, Val.iter, bind, Except.bind, pure, Except.pure]
    rw [if_neg (by simp [Val.isBlock, Val.isPattern])]
    have hp : weavePools (((unweave k s).map Val.scalar).map weaveItem) = .ok (unweave k (s.map fun c => Val.scalar [c])) := by
      rw [List.map_map, weavePools, mapM_ok _ _ (fun t => t.map fun c => Val.scalar [c]), unweave_map]
      intro t; rfl
    rw [hp]
    simp only [weave_unweave hk, joinPy_chars]
    rw [if_neg, if_neg]
    · simp [Val.isListy, Val.isList, Val.isRange]
    · rw [unweave_map]
      simpa using hne

/-- Lists (and Ranges): the strands of `UW` and weaving them back. -/
theorem C37_list (l : List Val) (k : Nat) (hk : 1 ≤ k) :
    ∃ ls : List (List Val), opUNWEAVE (.list l) (some (ofInt k)) = .ok (.list (ls.map .list)) ∧ AreStrands k l ls ∧
      opWEAVE (.list (ls.map .list)) none = .ok (some (.list l)) := by
  refine ⟨unweave k l, ?_, unweave_strands hk l, ?_⟩
  · simp only [opUNWEAVE, ofInt, toInt_showInt, Val.isIterable, if_true]
    rw [if_neg (by omega), Int.toNat_natCast]
    rfl
  · have hne : unweave k l ≠ [] := by
      intro h
      have := (unweave_strands hk l).1
      rw [h] at this; simp at this; omega
    simp only [opWEAVE, Val.items, Val.iter, bind, Except.bind, pure, Except.pure]
    rw [if_neg (by simp [Val.isBlock, Val.isPattern])]
    have hp : weavePools (((unweave k l).map Val.list).map weaveItem) = .ok (unweave k l) := by
      rw [List.map_map, weavePools, mapM_ok _ _ id, List.map_id]
      intro t; rfl
    rw [hp]
    simp only [weave_unweave hk]
    rw [if_neg (by simpa using hne), if_pos]
    obtain ⟨x, hx⟩ := List.exists_mem_of_ne_nil _ hne
    rw [List.any_eq_true]
    exact ⟨.list x, List.mem_map.2 ⟨x, hx, rfl⟩, rfl⟩

theorem C37_range (a b : Int) (k : Option Val) :
    opUNWEAVE (.range (some a) (some b)) k = opUNWEAVE (asList a b) k := by
  cases k with
  | none => rfl
  | some k => cases k <;> rfl

example : opUNWEAVE (.scalar (s% "abcdefgh")) (some (ofInt 3)) = .ok (strs [s% "adg", s% "beh", s% "cf"]) := by decide +kernel

end Pip
