import Verif.Lemmas.Weave
import Mathlib.Data.Nat.Choose.Basic
/-! Helper lemmas: products, combinations, permutations, zips. -/

set_option linter.unusedSimpArgs false

namespace Pip

/-! ### Products -/

theorem sum_const {α : Type} (c : Nat) (f : α → Nat) : ∀ l : List α, (∀ x ∈ l, f x = c) → (l.map f).sum = l.length * c := by
  intro l
  induction l with
  | nil => intro _; simp
  | cons x l ih =>
    intro h
    rw [List.map_cons, List.sum_cons, ih fun y hy => h y (by simp [hy]), h x (by simp), List.length_cons, Nat.succ_mul, Nat.add_comm]

theorem flatMap_congr' {α β : Type} {f g : α → List β} {l : List α} (h : ∀ x ∈ l, f x = g x) : l.flatMap f = l.flatMap g := by
  rw [List.flatMap_def, List.flatMap_def, List.map_congr_left h]

theorem cartProd_mem {α : Type} : ∀ (ls : List (List α)) (t : List α), t ∈ cartProd ls ↔
    t.length = ls.length ∧ ∀ (i : Nat) (l : List α), ls[i]? = some l → ∃ x, t[i]? = some x ∧ x ∈ l := by
  intro ls
  induction ls with
  | nil => intro t; simp [cartProd, List.length_eq_zero_iff]
  | cons l ls ih =>
    intro t
    simp only [cartProd, List.mem_flatMap, List.mem_map]
    constructor
    · rintro ⟨x, hx, t', ht', rfl⟩
      obtain ⟨h1, h2⟩ := (ih t').1 ht'
      refine ⟨by simp [h1], fun i m hm => ?_⟩
      cases i with
      | zero => simp at hm; subst hm; exact ⟨x, rfl, hx⟩
      | succ i => simpa using h2 i m (by simpa using hm)
    · rintro ⟨h1, h2⟩
      cases t with
      | nil => simp at h1
      | cons x t =>
        obtain ⟨y, hy, hyl⟩ := h2 0 l rfl
        simp at hy; subst hy
        exact ⟨x, hyl, t, (ih t).2 ⟨by simpa using h1, fun i m hm => by simpa using h2 (i + 1) m (by simpa using hm)⟩, rfl⟩

theorem cartProd_sorted : ∀ (ls : List (List Nat)), (∀ l ∈ ls, l.Pairwise (· < ·)) → (cartProd ls).Pairwise (· < ·) := by
  intro ls
  induction ls with
  | nil => intro _; simp [cartProd]
  | cons l ls ih =>
    intro h
    have hs := ih fun m hm => h m (by simp [hm])
    simp only [cartProd]
    rw [List.pairwise_flatMap]
    refine ⟨fun x _ => ?_, ?_⟩
    · rw [List.pairwise_map]
      exact hs.imp fun hab => List.cons_lt_cons_iff.2 (.inr ⟨rfl, hab⟩)
    · refine (h l (by simp)).imp fun {a b} hab => ?_
      intro x hx y hy
      obtain ⟨_, _, rfl⟩ := List.mem_map.1 hx
      obtain ⟨_, _, rfl⟩ := List.mem_map.1 hy
      exact List.cons_lt_cons_iff.2 (.inl hab)

theorem cartProd_length {α : Type} : ∀ (ls : List (List α)), (cartProd ls).length = (ls.map List.length).foldr (· * ·) 1 := by
  intro ls
  induction ls with
  | nil => rfl
  | cons l ls ih =>
    simp only [cartProd, List.map_cons, List.foldr_cons, ← ih]
    rw [List.length_flatMap, sum_const (cartProd ls).length]
    intro x _
    simp

theorem range_getElem {α : Type} (l : List α) : (List.range l.length).map (fun i => l[i]?) = l.map some := by
  apply List.ext_getElem?
  intro i
  by_cases hi : i < l.length
  · simp [hi]
  · simp [hi]

theorem flatMap_range {α β : Type} (l : List α) (f : α → List β) :
    l.flatMap f = (List.range l.length).flatMap fun i => (l[i]?).toList.flatMap f := by
  have : (l.map some).flatMap (fun o => o.toList.flatMap f) = l.flatMap f := by
    rw [List.flatMap_map]; simp
  rw [← this, ← range_getElem, List.flatMap_map]

theorem cartProd_pick {α : Type} : ∀ (ls : List (List α)),
    cartProd ls = (cartProd (ls.map fun l => List.range l.length)).map (pickEach ls) := by
  intro ls
  induction ls with
  | nil => rfl
  | cons l ls ih =>
    simp only [cartProd, List.map_cons]
    rw [flatMap_range, List.map_flatMap]
    apply flatMap_congr'
    intro i hi
    have hi : i < l.length := by simpa using hi
    rw [ih, List.getElem?_eq_getElem hi]
    simp [pickEach, hi]

/-! ### Combinations -/

theorem combos_map {α β : Type} (f : α → β) : ∀ (l : List α) (k : Nat),
    combos k (l.map f) = (combos k l).map (List.map f) := by
  intro l
  induction l with
  | nil => intro k; cases k <;> rfl
  | cons x l ih =>
    intro k
    cases k with
    | zero => rfl
    | succ k => simp [combos, ih]

theorem pick_of_map {α : Type} {l : List α} {A : List (List α)} {I : List (List Nat)}
    (h : A.map (List.map some) = I.map (List.map fun i => l[i]?)) : A = I.map (pick l) := by
  have := congrArg (List.map (List.filterMap id)) h
  rw [List.map_map, List.map_map] at this
  have e1 : (List.filterMap (id : Option α → Option α)) ∘ (List.map some) = id := by
    funext t; simp [List.filterMap_map]
  have e2 : (List.filterMap (id : Option α → Option α)) ∘ (List.map fun i => l[i]?) = pick l := by
    funext t; simp [List.filterMap_map, pick]
  rwa [e1, e2, List.map_id] at this

theorem combos_pick {α : Type} (l : List α) (k : Nat) :
    combos k l = (combos k (List.range l.length)).map (pick l) := by
  apply pick_of_map
  rw [← combos_map, ← range_getElem, combos_map]

theorem combos_mem : ∀ (m a k : Nat) (t : List Nat), t ∈ combos k (List.range' a m) ↔
    t.length = k ∧ t.Pairwise (· < ·) ∧ ∀ p ∈ t, a ≤ p ∧ p < a + m := by
  intro m
  induction m with
  | zero =>
    intro a k t
    cases k with
    | zero =>
      simp only [combos, List.mem_singleton, List.length_eq_zero_iff]
      exact ⟨fun h => by subst h; simp, And.left⟩
    | succ k =>
      simp only [List.range'_zero, combos, List.not_mem_nil, false_iff]
      rintro ⟨h1, -, h3⟩
      cases t with
      | nil => simp at h1
      | cons x t => have := h3 x (by simp); omega
  | succ m ih =>
    intro a k t
    cases k with
    | zero =>
      simp only [combos, List.mem_singleton, List.length_eq_zero_iff]
      exact ⟨fun h => by subst h; simp, And.left⟩
    | succ k =>
      simp only [List.range'_succ, combos, List.mem_append, List.mem_map, ih]
      constructor
      · rintro (⟨t, ⟨h1, h2, h3⟩, rfl⟩ | ⟨h1, h2, h3⟩)
        · refine ⟨by simp [h1], List.pairwise_cons.2 ⟨fun p hp => by have := h3 p hp; omega, h2⟩, fun p hp => ?_⟩
          rcases List.mem_cons.1 hp with rfl | hp
          · omega
          · have := h3 p hp; omega
        · exact ⟨h1, h2, fun p hp => by have := h3 p hp; omega⟩
      · rintro ⟨h1, h2, h3⟩
        cases t with
        | nil => simp at h1
        | cons x t =>
          rw [List.pairwise_cons] at h2
          by_cases hx : x = a
          · refine .inl ⟨t, ⟨by simpa using h1, h2.2, fun p hp => ?_⟩, by rw [hx]⟩
            have := h2.1 p hp
            have := h3 p (by simp [hp])
            omega
          · refine .inr ⟨h1, List.pairwise_cons.2 h2, fun p hp => ?_⟩
            have h4 := h3 x (by simp)
            have h5 := h3 p hp
            rcases List.mem_cons.1 hp with rfl | hp
            · omega
            · have := h2.1 p hp; omega

theorem combos_head {α : Type} : ∀ (l : List α) (k : Nat) (t : List α), t ∈ combos (k + 1) l → ∃ x t', t = x :: t' ∧ x ∈ l := by
  intro l
  induction l with
  | nil => intro k t h; simp [combos] at h
  | cons y l ih =>
    intro k t h
    simp only [combos, List.mem_append, List.mem_map] at h
    rcases h with ⟨t', _, rfl⟩ | h
    · exact ⟨y, t', rfl, by simp⟩
    · obtain ⟨x, t', e, hx⟩ := ih k t h
      exact ⟨x, t', e, by simp [hx]⟩

theorem combos_sorted : ∀ (l : List Nat) (k : Nat), l.Pairwise (· < ·) → (combos k l).Pairwise (· < ·) := by
  intro l
  induction l with
  | nil => intro k _; cases k <;> simp [combos]
  | cons x l ih =>
    intro k h
    rw [List.pairwise_cons] at h
    cases k with
    | zero => simp [combos]
    | succ k =>
      simp only [combos]
      rw [List.pairwise_append]
      refine ⟨?_, ih (k + 1) h.2, ?_⟩
      · rw [List.pairwise_map]
        exact (ih k h.2).imp fun hab => List.cons_lt_cons_iff.2 (.inr ⟨rfl, hab⟩)
      · intro a ha b hb
        obtain ⟨a', _, rfl⟩ := List.mem_map.1 ha
        obtain ⟨y, b', rfl, hy⟩ := combos_head l k b hb
        exact List.cons_lt_cons_iff.2 (.inl (h.1 y hy))

theorem combos_length {α : Type} : ∀ (l : List α) (k : Nat), (combos k l).length = l.length.choose k := by
  intro l
  induction l with
  | nil => intro k; cases k <;> rfl
  | cons x l ih =>
    intro k
    cases k with
    | zero => simp [combos]
    | succ k => simp [combos, ih, Nat.choose_succ_succ]

/-! ### Permutations -/

theorem picks_map {α β : Type} (f : α → β) : ∀ l : List α,
    picks (l.map f) = (picks l).map fun p => (f p.1, p.2.map f) := by
  intro l
  induction l with
  | nil => rfl
  | cons x l ih => simp [picks, ih, Function.comp_def]

theorem permsAux_map {α β : Type} (f : α → β) : ∀ (n : Nat) (l : List α),
    permsAux n (l.map f) = (permsAux n l).map (List.map f) := by
  intro n
  induction n with
  | zero => intro l; rfl
  | succ n ih =>
    intro l
    cases l with
    | nil => rfl
    | cons x l =>
      simp only [permsAux]
      rw [picks_map]
      simp [ih, List.flatMap_map, List.map_flatMap, Function.comp_def]

theorem perms_map {α β : Type} (f : α → β) (l : List α) : perms (l.map f) = (perms l).map (List.map f) := by
  simp [perms, permsAux_map]

theorem perms_pick {α : Type} (l : List α) : perms l = (perms (List.range l.length)).map (pick l) := by
  apply pick_of_map
  rw [← perms_map, ← range_getElem, perms_map]

theorem picks_perm {α : Type} : ∀ (l : List α) (p : α × List α), p ∈ picks l → l.Perm (p.1 :: p.2) := by
  intro l
  induction l with
  | nil => intro p h; simp [picks] at h
  | cons x l ih =>
    intro p h
    simp only [picks, List.mem_cons, List.mem_map] at h
    rcases h with rfl | ⟨q, hq, rfl⟩
    · exact List.Perm.refl _
    · exact ((ih q hq).cons x).trans (List.Perm.swap _ _ _)

theorem picks_fst {α : Type} : ∀ l : List α, (picks l).map (·.1) = l := by
  intro l
  induction l with
  | nil => rfl
  | cons x l ih => simp [picks, Function.comp_def, ih]

theorem picks_sublist {α : Type} : ∀ (l : List α) (p : α × List α), p ∈ picks l → p.2.Sublist l := by
  intro l
  induction l with
  | nil => intro p h; simp [picks] at h
  | cons x l ih =>
    intro p h
    simp only [picks, List.mem_cons, List.mem_map] at h
    rcases h with rfl | ⟨q, hq, rfl⟩
    · exact List.sublist_cons_self _ _
    · exact (ih q hq).cons_cons x

theorem permsAux_mem {α : Type} : ∀ (n : Nat) (l t : List α), l.length = n → (t ∈ permsAux n l ↔ t.Perm l) := by
  intro n
  induction n with
  | zero =>
    intro l t h
    obtain rfl := List.length_eq_zero_iff.1 h
    simp [permsAux]
  | succ n ih =>
    intro l t h
    cases l with
    | nil => simp at h
    | cons x l =>
      simp only [permsAux, List.isEmpty_cons, Bool.false_eq_true, if_false, List.mem_flatMap, List.mem_map]
      constructor
      · rintro ⟨p, hp, t', ht', rfl⟩
        have h1 := picks_perm _ p hp
        have hl : p.2.length = n := by have := h1.length_eq; simp at this h; omega
        exact (((ih p.2 t' hl).1 ht').cons p.1).trans h1.symm
      · intro hp
        cases t with
        | nil => have := hp.length_eq; simp at this
        | cons y t =>
          have hy : y ∈ (picks (x :: l)).map (·.1) := by rw [picks_fst]; exact hp.mem_iff.1 (by simp)
          obtain ⟨p, hpm, rfl⟩ := List.mem_map.1 hy
          have h1 := picks_perm _ p hpm
          have hl : p.2.length = n := by have := h1.length_eq; simp at this h; omega
          exact ⟨p, hpm, t, (ih p.2 t hl).2 (hp.trans h1).cons_inv, rfl⟩

theorem permsAux_sorted : ∀ (n : Nat) (l : List Nat), l.Pairwise (· < ·) → (permsAux n l).Pairwise (· < ·) := by
  intro n
  induction n with
  | zero => intro l _; simp [permsAux]
  | succ n ih =>
    intro l h
    simp only [permsAux]
    split
    · simp
    · rw [List.pairwise_flatMap]
      refine ⟨fun p hp => ?_, ?_⟩
      · rw [List.pairwise_map]
        exact (ih p.2 (h.sublist (picks_sublist l p hp))).imp fun hab => List.cons_lt_cons_iff.2 (.inr ⟨rfl, hab⟩)
      · have : ((picks l).map (·.1)).Pairwise (· < ·) := by rw [picks_fst]; exact h
        rw [List.pairwise_map] at this
        refine this.imp fun {a b} hab => ?_
        intro x hx y hy
        obtain ⟨_, _, rfl⟩ := List.mem_map.1 hx
        obtain ⟨_, _, rfl⟩ := List.mem_map.1 hy
        exact List.cons_lt_cons_iff.2 (.inl hab)

theorem permsAux_length {α : Type} : ∀ (n : Nat) (l : List α), l.length = n → (permsAux n l).length = n.factorial := by
  intro n
  induction n with
  | zero => intro l _; rfl
  | succ n ih =>
    intro l h
    cases l with
    | nil => simp at h
    | cons x l =>
      simp only [permsAux, List.isEmpty_cons, Bool.false_eq_true, if_false]
      rw [List.length_flatMap, sum_const n.factorial, Nat.factorial_succ]
      · have := congrArg List.length (picks_fst (x :: l))
        rw [List.length_map] at this
        rw [this, h]
      · intro p hp
        rw [List.length_map, ih]
        have := (picks_perm _ p hp).length_eq
        simp at this h; omega

/-! ### Zips -/

theorem foldl_min_le {α : Type} (f : α → Nat) : ∀ (ls : List α) (m : Nat),
    ls.foldl (fun m l => min m (f l)) m ≤ m ∧ (∀ l ∈ ls, ls.foldl (fun m l => min m (f l)) m ≤ f l) ∧
    (ls.foldl (fun m l => min m (f l)) m = m ∨ ∃ l ∈ ls, ls.foldl (fun m l => min m (f l)) m = f l) := by
  intro ls
  induction ls with
  | nil => intro m; simp
  | cons x ls ih =>
    intro m
    obtain ⟨h1, h2, h3⟩ := ih (min m (f x))
    simp only [List.foldl_cons]
    refine ⟨by omega, ?_, ?_⟩
    · intro l hl
      rcases List.mem_cons.1 hl with rfl | hl
      · omega
      · exact h2 l hl
    · rcases h3 with h3 | ⟨l, hl, h3⟩
      · by_cases h : m ≤ f x
        · left; omega
        · right; exact ⟨x, by simp, by omega⟩
      · right; exact ⟨l, by simp [hl], h3⟩

theorem column_get {α : Type} : ∀ (ls : List (List α)) (i : Nat), (∀ l ∈ ls, i < l.length) →
    (column ls i).length = ls.length ∧ ∀ (j : Nat) (l : List α), ls[j]? = some l → (column ls i)[j]? = l[i]? := by
  intro ls i
  induction ls with
  | nil => intro _; simp [column]
  | cons x ls ih =>
    intro h
    have hx := h x (by simp)
    obtain ⟨h1, h2⟩ := ih fun l hl => h l (by simp [hl])
    have e : column (x :: ls) i = x[i] :: column ls i := by
      simp [column, List.getElem?_eq_getElem hx]
    rw [e]
    refine ⟨by simp [h1], fun j l hj => ?_⟩
    cases j with
    | zero => simp at hj; subst hj; simp [hx]
    | succ j => simpa using h2 j l (by simpa using hj)

end Pip
