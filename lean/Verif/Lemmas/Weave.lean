import Verif.Lemmas.Seq
/-! Helper lemmas: weaving and zipping. -/

namespace Pip

/-- The strands after the items `done`. -/
def Strands {α : Type} (k : Nat) (done : List α) (acc : List (List α)) : Prop :=
  acc.length = k ∧ ∀ j < k, ∃ st, acc[j]? = some st ∧ ∀ i, st[i]? = done[j + i * k]?

theorem strands_length {α : Type} {k : Nat} {done : List α} {st : List α} (hk : 0 < k) {j : Nat} (hj : j < k)
    (h : ∀ i, st[i]? = done[j + i * k]?) : ∀ i, i < st.length ↔ j + i * k < done.length := by
  intro i
  have := h i
  constructor
  · intro hi
    rw [List.getElem?_eq_getElem hi] at this
    exact (List.getElem?_eq_some_iff.1 this.symm).1
  · intro hi
    rw [List.getElem?_eq_getElem hi] at this
    exact (List.getElem?_eq_some_iff.1 this).1

theorem strands_step {α : Type} {k : Nat} (hk : 0 < k) {done : List α} {acc : List (List α)} (x : α)
    (h : Strands k done acc) : Strands k (done ++ [x]) (acc.modify (done.length % k) (· ++ [x])) := by
  refine ⟨by simp [h.1], fun j hj => ?_⟩
  obtain ⟨st, hst, hi⟩ := h.2 j hj
  by_cases hjj : done.length % k = j
  · refine ⟨st ++ [x], by rw [List.getElem?_modify, hst]; simp [hjj], fun i => ?_⟩
    have hlen := strands_length hk hj hi
    have hd : done.length = j + (done.length / k) * k := by
      have := Nat.mod_add_div done.length k
      rw [Nat.mul_comm, hjj] at this; omega
    have hl : st.length = done.length / k := by
      have h1 := hlen st.length
      have h2 := hlen (done.length / k)
      have h3 : ¬ j + st.length * k < done.length := fun h => Nat.lt_irrefl _ (h1.2 h)
      have h4 : ¬ done.length / k < st.length := fun h => by have := h2.1 h; omega
      rw [hd] at h3
      have h5 : ¬ st.length < done.length / k := fun h => h3 (by
        have := (Nat.mul_lt_mul_right hk).2 h; omega)
      omega
    by_cases hil : i < st.length
    · rw [List.getElem?_append_left hil, hi, List.getElem?_append_left ((hlen i).1 hil)]
    · have hge : done.length ≤ j + i * k := Nat.not_lt.1 fun h => hil ((hlen i).2 h)
      rw [List.getElem?_append_right (Nat.not_lt.1 hil), List.getElem?_append_right hge]
      by_cases he : i = st.length
      · have : j + i * k = done.length := by rw [he, hl]; exact hd.symm
        rw [he] at this ⊢
        rw [this]; simp
      · have h1 : st.length + 1 ≤ i := by omega
        have h2 := Nat.mul_le_mul_right k h1
        rw [Nat.add_mul, hl] at h2
        have h3 : done.length + 1 ≤ j + i * k := by omega
        rw [List.getElem?_eq_none (by simp; omega), List.getElem?_eq_none (by simp; omega)]
  · refine ⟨st, by rw [List.getElem?_modify, hst]; simp [hjj], fun i => ?_⟩
    rw [hi]
    by_cases hlt : j + i * k < done.length
    · rw [List.getElem?_append_left hlt]
    · have hne : j + i * k ≠ done.length := by
        intro h
        apply hjj
        rw [← h, Nat.add_mul_mod_self_right, Nat.mod_eq_of_lt hj]
      rw [List.getElem?_eq_none (by omega), List.getElem?_eq_none (by simp; omega)]

theorem unweaveLoop_strands {α : Type} {k : Nat} (hk : 0 < k) : ∀ (l done : List α) (acc : List (List α)),
    Strands k done acc → Strands k (done ++ l) (unweaveLoop k done.length l acc) := by
  intro l
  induction l with
  | nil => intro done acc h; simpa [unweaveLoop] using h
  | cons x l ih =>
    intro done acc h
    have := ih (done ++ [x]) _ (strands_step hk x h)
    simpa [unweaveLoop] using this

theorem unweave_strands {α : Type} {k : Nat} (hk : 0 < k) (l : List α) : Strands k l (unweave k l) := by
  have h0 : Strands k ([] : List α) (List.replicate k []) :=
    ⟨by simp, fun j hj => ⟨[], by simp [hj], fun i => by simp⟩⟩
  simpa [unweave] using unweaveLoop_strands hk l [] _ h0

theorem foldl_max_ge {α : Type} (f : α → Nat) : ∀ (ls : List α) (m : Nat),
    m ≤ ls.foldl (fun m l => max m (f l)) m ∧ ∀ l ∈ ls, f l ≤ ls.foldl (fun m l => max m (f l)) m := by
  intro ls
  induction ls with
  | nil => intro m; simp
  | cons x ls ih =>
    intro m
    have := ih (max m (f x))
    refine ⟨by simp only [List.foldl_cons]; omega, ?_⟩
    intro l hl
    rcases List.mem_cons.1 hl with rfl | hl
    · simp only [List.foldl_cons]; omega
    · exact this.2 l hl

theorem filterMap_range {α : Type} (l : List α) (p : Nat) : ∀ k, (List.range k).filterMap (fun j => l[j + p]?) = (l.drop p).take k := by
  intro k
  induction k with
  | zero => simp
  | succ k ih =>
    rw [List.range_succ, List.filterMap_append, ih, List.take_add_one, List.getElem?_drop, Nat.add_comm p k]
    congr 1

theorem filterMap_getElem {α β : Type} (f : α → Option β) (ls : List α) :
    ls.filterMap f = (List.range ls.length).filterMap fun j => (ls[j]?).bind f := by
  induction ls with
  | nil => rfl
  | cons x ls ih =>
    rw [List.length_cons, List.range_succ_eq_map, List.filterMap_cons, List.filterMap_cons, List.filterMap_map]
    simp only [List.getElem?_cons_zero, Option.bind_some, Function.comp_def, List.getElem?_cons_succ, ← ih]

theorem filterMap_congr' {α β : Type} {f g : α → Option β} : ∀ {l : List α}, (∀ x ∈ l, f x = g x) → l.filterMap f = l.filterMap g := by
  intro l
  induction l with
  | nil => intro _; rfl
  | cons x l ih =>
    intro h
    rw [List.filterMap_cons, List.filterMap_cons, h x (by simp), ih fun y hy => h y (by simp [hy])]

theorem column_strands {α : Type} {k : Nat} {l : List α} {ls : List (List α)} (h : Strands k l ls) (i : Nat) :
    column ls i = (l.drop (i * k)).take k := by
  rw [column, filterMap_getElem, h.1, ← filterMap_range]
  apply filterMap_congr'
  intro j hj
  obtain ⟨st, hst, hi⟩ := h.2 j (List.mem_range.1 hj)
  rw [hst, Option.bind_some, hi]

theorem flatMap_chunks {α : Type} (l : List α) (k : Nat) : ∀ m, (List.range m).flatMap (fun i => (l.drop (i * k)).take k) = l.take (m * k) := by
  intro m
  induction m with
  | zero => simp
  | succ m ih =>
    rw [List.range_succ, List.flatMap_append, ih, Nat.add_mul, Nat.one_mul, List.take_add]
    simp

/-- Weaving the strands gives the original items. -/
theorem weave_unweave {α : Type} {k : Nat} (hk : 0 < k) (l : List α) : weave (unweave k l) = l := by
  have h := unweave_strands hk l
  rw [weave, show column (unweave k l) = fun i => (l.drop (i * k)).take k from funext (column_strands h), flatMap_chunks]
  obtain ⟨st, hst, hi⟩ := h.2 0 hk
  have hm := (foldl_max_ge List.length (unweave k l) 0).2 st (List.mem_of_getElem? hst)
  rw [List.take_of_length_le]
  have hlen := strands_length hk hk hi
  have h1 : ¬ 0 + st.length * k < l.length := fun h => Nat.lt_irrefl _ ((hlen _).2 h)
  have h2 := Nat.mul_le_mul_right k hm
  omega

theorem map_modify' {α β : Type} (f : α → β) (g : α → α) (g' : β → β) (h : ∀ x, f (g x) = g' (f x)) :
    ∀ (l : List α) (i : Nat), (l.modify i g).map f = (l.map f).modify i g' := by
  intro l
  induction l with
  | nil => intro i; cases i <;> rfl
  | cons x l ih =>
    intro i
    cases i with
    | zero => simp [h]
    | succ i => simp [ih]

theorem unweaveLoop_map {α β : Type} (f : α → β) (k : Nat) : ∀ (l : List α) (i : Nat) (acc : List (List α)),
    unweaveLoop k i (l.map f) (acc.map (List.map f)) = (unweaveLoop k i l acc).map (List.map f) := by
  intro l
  induction l with
  | nil => intro i acc; rfl
  | cons x l ih =>
    intro i acc
    simp only [List.map_cons, unweaveLoop]
    rw [← ih, map_modify' (List.map f) (· ++ [x]) (· ++ [f x]) (by simp)]

theorem unweave_map {α β : Type} (f : α → β) (k : Nat) (l : List α) :
    unweave k (l.map f) = (unweave k l).map (List.map f) := by
  rw [unweave, unweave, ← unweaveLoop_map]
  simp

/-- `mapM` of a function that never fails on the items. -/
theorem mapM_ok {α β γ : Type} (f : β → E γ) (g : α → β) (h : α → γ) (hf : ∀ x, f (g x) = .ok (h x)) (l : List α) :
    (l.map g).mapM f = .ok (l.map h) := by
  induction l with
  | nil => rfl
  | cons x l ih => rw [List.map_cons, List.mapM_cons, hf, ih]; rfl

end Pip
