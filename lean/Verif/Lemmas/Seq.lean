import Verif.Lemmas.Num
import Verif.Lemmas.Types
import Verif.Lemmas.Compare
import Verif.Model.OpsSeq
import Verif.Spec.Seq
/-! Helper lemmas: operators on sequences. -/

set_option linter.unusedSimpArgs false

namespace Pip

/-! ### Joining -/

theorem joinFlat_scalars (sep : Option Str) : ∀ (l : List Str) (r : Str),
    joinFlat (sep.map .scalar) (l.map .scalar) (some (.scalar r)) =
      some (.scalar (r ++ (l.map fun x => sep.getD [] ++ x).flatten)) := by
  intro l
  induction l with
  | nil => intro r; simp [joinFlat]
  | cons x l ih =>
    intro r
    have : joinStep (sep.map .scalar) (some (.scalar r)) (.scalar x) = .scalar (r ++ (sep.getD [] ++ x)) := by
      cases sep <;> simp [joinStep, cat]
    simp only [List.map_cons, joinFlat, this, ih]
    simp

theorem joinItems_scalars (sep : Option Val) : ∀ (l : List Str) (r : Option Val),
    joinItems sep (l.map .scalar) r = .ok (joinFlat sep (l.map .scalar) r) := by
  intro l
  induction l with
  | nil => intro r; simp only [List.map_nil, joinItems, joinFlat]
  | cons x l ih =>
    intro r
    simp only [List.map_cons, joinItems, joinList, bind, Except.bind, ih, joinFlat]

theorem joinStr_cons (sep x : Str) (l : List Str) : joinStr sep (x :: l) = x ++ (l.map fun y => sep ++ y).flatten := by
  induction l generalizing x with
  | nil => simp [joinStr]
  | cons y l ih => simp only [joinStr, ih]; simp

theorem joinStr_nil (l : List Str) : joinStr [] l = l.flatten := by
  cases l with
  | nil => rfl
  | cons x l => rw [joinStr_cons]; simp

theorem joinFlat_scalars_none (sep : Option Str) (l : List Str) :
    (joinFlat (sep.map .scalar) (l.map .scalar) none).getD (.scalar []) = .scalar (joinStr (sep.getD []) l) := by
  cases l with
  | nil => rfl
  | cons x l =>
    have : joinStep (sep.map .scalar) none (.scalar x) = .scalar x := rfl
    simp only [List.map_cons, joinFlat, this, joinFlat_scalars, Option.getD_some, joinStr_cons]

/-- Joining strings. -/
theorem joinPy_scalars (sep : Option Str) (l : List Str) :
    joinPy (l.map .scalar) (sep.map .scalar) = .ok (.scalar (joinStr (sep.getD []) l)) := by
  simp only [joinPy, joinList, joinItems_scalars, bind, Except.bind, pure, Except.pure, joinFlat_scalars_none]

theorem joinPy_none (l : List Str) : joinPy (l.map .scalar) none = .ok (.scalar l.flatten) := by
  have := joinPy_scalars none l
  simpa [joinStr_nil] using this

theorem flatten_singletons {α : Type} (s : List α) : (s.map fun c => [c]).flatten = s := by
  induction s with
  | nil => rfl
  | cons c s ih => rw [List.map_cons, List.flatten_cons, ih]; rfl

theorem joinPy_chars (s : Str) : joinPy (s.map fun c => .scalar [c]) none = .ok (.scalar s) := by
  have := joinPy_none (s.map fun c => [c])
  rw [List.map_map] at this
  rw [show (s.map fun c => Val.scalar [c]) = s.map (Val.scalar ∘ fun c => [c]) from rfl, this]
  rw [flatten_singletons]

/-! ### Equality of values without functions -/

mutual
theorem pyEq_plain : ∀ a b : Val, a.plain = true → (pyEq a b = true ↔ a = b)
  | .list l, b, h => by
    cases b with
    | list l' =>
      simp only [Val.plain] at h
      simp only [pyEq, Val.list.injEq]
      exact pyEqs_plain l l' h
    | _ => simp [pyEq]
  | .block .., _, h => by simp [Val.plain] at h
  | .scalar _, b, _ => by cases b <;> simp [pyEq]
  | .pattern .., b, _ => by cases b <;> simp [pyEq]
  | .range .., b, _ => by cases b <;> simp [pyEq]
  | .nil, b, _ => by cases b <;> simp [pyEq]
theorem pyEqs_plain : ∀ a b : List Val, Val.plains a = true → (pyEqs a b = true ↔ a = b)
  | [], b, _ => by cases b <;> simp [pyEqs]
  | a :: l, b, h => by
    simp only [Val.plains, Bool.and_eq_true] at h
    cases b with
    | nil => simp [pyEqs]
    | cons b l' =>
      simp only [pyEqs, Bool.and_eq_true, List.cons.injEq, pyEq_plain a b h.1, pyEqs_plain l l' h.2]
end

theorem plains_iff : ∀ l : List Val, Val.plains l = true ↔ ∀ v ∈ l, v.plain = true := by
  intro l
  induction l with
  | nil => simp [Val.plains]
  | cons v l ih => simp [Val.plains, ih]

theorem sameItem_plain (a b : Val) (h : a.plain = true) : sameItem a b = decide (a = b) := by
  rw [Bool.eq_iff_iff, decide_eq_true_eq]
  simp only [sameItem, Bool.and_eq_true, beq_iff_eq, pyEq_plain a b h]
  constructor
  · exact And.right
  · rintro rfl; exact ⟨rfl, rfl⟩

/-! ### Sorting -/

theorem stableSort_mergeSort {α : Type} (le : α → α → Bool) (htrans : ∀ a b c, le a b = true → le b c = true → le a c = true)
    (htotal : ∀ a b, (le a b || le b a) = true) (l : List α) : StableSort le l (l.mergeSort le) := by
  refine ⟨List.mergeSort_perm l le, List.pairwise_mergeSort htrans htotal l, fun x => ?_⟩
  have hp : (l.filter fun y => le x y && le y x).Pairwise (fun a b => le a b = true) := by
    apply List.pairwise_of_forall_mem_list
    intro a ha b hb
    simp only [List.mem_filter, Bool.and_eq_true] at ha hb
    exact htrans a x b ha.2.2 hb.2.1
  have hs := List.sublist_mergeSort htrans htotal hp List.filter_sublist
  have h2 := hs.filter fun y => le x y && le y x
  rw [List.filter_filter] at h2
  simp only [Bool.and_self] at h2
  exact (h2.eq_of_length ((List.mergeSort_perm l le).filter _).length_eq.symm).symm

/-! ### First occurrences -/

theorem uniqueLoop_mem (l : List Val) : ∀ seen, Val.plains l = true → ∀ x, x ∈ uniqueLoop l seen ↔ x ∈ l ∧ x ∉ seen := by
  induction l with
  | nil => intro seen _ x; simp [uniqueLoop]
  | cons v l ih =>
    intro seen h x
    simp only [Val.plains, Bool.and_eq_true] at h
    have hany : seen.any (sameItem v) = true ↔ v ∈ seen := by
      simp only [List.any_eq_true, sameItem_plain v _ h.1, decide_eq_true_eq]
      exact ⟨fun ⟨y, hy, e⟩ => e ▸ hy, fun hy => ⟨v, hy, rfl⟩⟩
    simp only [uniqueLoop]
    by_cases hv : v ∈ seen
    · rw [if_pos (hany.2 hv), ih seen h.2]
      simp only [List.mem_cons]
      constructor
      · rintro ⟨h1, h2⟩; exact ⟨.inr h1, h2⟩
      · rintro ⟨rfl | h1, h2⟩
        · exact absurd hv h2
        · exact ⟨h1, h2⟩
    · rw [if_neg (fun h => hv (hany.1 h))]
      simp only [List.mem_cons, ih _ h.2, not_or]
      constructor
      · rintro (rfl | ⟨h1, h2, h3⟩)
        · exact ⟨.inl rfl, hv⟩
        · exact ⟨.inr h1, h3⟩
      · rintro ⟨rfl | h1, h2⟩
        · exact .inl rfl
        · by_cases hx : x = v
          · exact .inl hx
          · exact .inr ⟨h1, hx, h2⟩

theorem uniqueLoop_nodup (l : List Val) : ∀ seen, Val.plains l = true → (uniqueLoop l seen).Nodup := by
  induction l with
  | nil => intro seen _; simp [uniqueLoop]
  | cons v l ih =>
    intro seen h
    simp only [Val.plains, Bool.and_eq_true] at h
    simp only [uniqueLoop]
    split
    · exact ih seen h.2
    · rw [List.nodup_cons]
      refine ⟨?_, ih _ h.2⟩
      rw [uniqueLoop_mem l _ h.2]
      simp

theorem uniqueLoop_first (l : List Val) : ∀ seen, Val.plains l = true → ∀ r₁ x r₂,
    uniqueLoop l seen = r₁ ++ x :: r₂ → ∃ l₁ l₂, l = l₁ ++ x :: l₂ ∧ ∀ y, y ∉ seen → (y ∈ r₁ ↔ y ∈ l₁) := by
  induction l with
  | nil => intro seen _ r₁ x r₂ h; simp [uniqueLoop] at h
  | cons v l ih =>
    intro seen hp r₁ x r₂ h
    simp only [Val.plains, Bool.and_eq_true] at hp
    simp only [uniqueLoop] at h
    split at h
    · rename_i hany
      have hv : v ∈ seen := by
        simp only [List.any_eq_true, sameItem_plain v _ hp.1, decide_eq_true_eq] at hany
        obtain ⟨y, hy, rfl⟩ := hany; exact hy
      obtain ⟨l₁, l₂, e, hm⟩ := ih seen hp.2 r₁ x r₂ h
      refine ⟨v :: l₁, l₂, by rw [e]; rfl, fun y hy => ?_⟩
      rw [hm y hy, List.mem_cons]
      constructor
      · exact .inr
      · rintro (rfl | h)
        · exact absurd hv hy
        · exact h
    · cases r₁ with
      | nil =>
        simp only [List.nil_append, List.cons.injEq] at h
        exact ⟨[], l, by rw [h.1]; rfl, fun y _ => by simp⟩
      | cons w r₁ =>
        simp only [List.cons_append, List.cons.injEq] at h
        obtain ⟨rfl, h⟩ := h
        obtain ⟨l₁, l₂, e, hm⟩ := ih _ hp.2 r₁ x r₂ h
        refine ⟨v :: l₁, l₂, by rw [e]; rfl, fun y hy => ?_⟩
        simp only [List.mem_cons]
        by_cases hyv : y = v
        · simp [hyv]
        · rw [hm y (by simp [hyv, hy])]

theorem uniqueLoop_id (l : List Val) : ∀ seen, Val.plains l = true → l.Nodup → (∀ x ∈ l, x ∉ seen) →
    uniqueLoop l seen = l := by
  induction l with
  | nil => intro seen _ _ _; rfl
  | cons v l ih =>
    intro seen hp hn hs
    simp only [Val.plains, Bool.and_eq_true] at hp
    rw [List.nodup_cons] at hn
    simp only [uniqueLoop]
    rw [if_neg, ih _ hp.2 hn.2]
    · intro x hx hm
      rcases List.mem_cons.1 hm with rfl | hm
      · exact hn.1 hx
      · exact hs x (by simp [hx]) hm
    · simp only [List.any_eq_true, sameItem_plain v _ hp.1, decide_eq_true_eq]
      rintro ⟨y, hy, rfl⟩
      exact hs v (by simp) hy

end Pip
