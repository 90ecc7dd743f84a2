import Verif.Spec.Heap
import Verif.Lemmas.Types
/-!
# Lemmas on the heap of objects
-/

namespace Pip

open Heap

namespace Heap

/-- The object is mutable. -/
def Mut (h : Heap) (a : Addr) : Prop := (∃ s, h[a]? = some (.scalar s)) ∨ ∃ l, h[a]? = some (.list l)

theorem Mut.lt {h : Heap} {a : Addr} (m : Mut h a) : a < h.length := by
  rcases m with ⟨s, e⟩ | ⟨s, e⟩
  · exact (List.getElem?_eq_some_iff.1 e).1
  · exact (List.getElem?_eq_some_iff.1 e).1

end Heap

mutual
theorem Den.mut {h : Heap} : ∀ {a v fp}, Den h a v fp → ∀ x ∈ fp, Mut h x
  | _, _, _, .scalar e => by
    intro x hx; rw [List.mem_singleton] at hx; subst hx; exact .inl ⟨_, e⟩
  | _, _, _, .list e d => by
    intro x hx
    rcases List.mem_cons.1 hx with hx | hx
    · subst hx; exact .inr ⟨_, e⟩
    · exact d.mut x hx
  | _, _, _, .const _ _ => by intro x hx; cases hx
theorem Dens.mut {h : Heap} : ∀ {l vs fp}, Dens h l vs fp → ∀ x ∈ fp, Mut h x
  | _, _, _, .nil => by intro x hx; cases hx
  | _, _, _, .cons d ds => by
    intro x hx
    rcases List.mem_append.1 hx with hx | hx
    · exact d.mut x hx
    · exact ds.mut x hx
end

theorem Den.lt {h : Heap} {a v fp} (d : Den h a v fp) : ∀ x ∈ fp, x < h.length := fun x hx => (d.mut x hx).lt

theorem Dens.lt {h : Heap} {a v fp} (d : Dens h a v fp) : ∀ x ∈ fp, x < h.length := fun x hx => (d.mut x hx).lt

mutual
/-- The value stays the same if its own objects and the immutable ones stay the same. -/
theorem Den.frame {h h' : Heap} (hc : ∀ (x : Nat) v, h[x]? = some (Obj.const v) → h'[x]? = some (Obj.const v)) :
    ∀ {a v fp}, Den h a v fp → (∀ x ∈ fp, h'[x]? = h[x]?) → Den h' a v fp
  | _, _, _, .scalar e, f => .scalar (by rw [f _ (List.mem_singleton.2 rfl)]; exact e)
  | _, _, _, .list e d, f =>
    .list (by rw [f _ List.mem_cons_self]; exact e) (d.frame hc fun x hx => f x (List.mem_cons_of_mem _ hx))
  | _, _, _, .const e i, _ => .const (hc _ _ e) i
theorem Dens.frame {h h' : Heap} (hc : ∀ (x : Nat) v, h[x]? = some (Obj.const v) → h'[x]? = some (Obj.const v)) :
    ∀ {l vs fp}, Dens h l vs fp → (∀ x ∈ fp, h'[x]? = h[x]?) → Dens h' l vs fp
  | _, _, _, .nil, _ => .nil
  | _, _, _, .cons d ds, f =>
    .cons (d.frame hc fun x hx => f x (List.mem_append_left _ hx))
      (ds.frame hc fun x hx => f x (List.mem_append_right _ hx))
end

/-- `h'` differs from `h` in the objects `fp` and in new objects only. -/
def Upd (h h' : Heap) (fp : List Addr) : Prop :=
  h.length ≤ h'.length ∧ ∀ x, x < h.length → x ∉ fp → h'[x]? = h[x]?

theorem Upd.refl (h : Heap) (fp : List Addr) : Upd h h fp := ⟨Nat.le_refl _, fun _ _ _ => rfl⟩

theorem Upd.append (h g : Heap) (fp : List Addr) : Upd h (h ++ g) fp :=
  ⟨by simp, fun x hx _ => List.getElem?_append_left hx⟩

theorem Upd.set (h : Heap) (a : Addr) (o : Obj) : Upd h (List.set h a o) [a] :=
  ⟨by simp, fun x _ hx => by rw [List.getElem?_set_ne]; intro e; exact hx (by simp [e])⟩

theorem Upd.trans {h h' h'' : Heap} {fp fp' : List Addr} (u : Upd h h' fp) (u' : Upd h' h'' fp')
    (s : ∀ x ∈ fp', x ∈ fp ∨ h.length ≤ x) : Upd h h'' fp := by
  refine ⟨Nat.le_trans u.1 u'.1, fun x hx hn => ?_⟩
  rw [u'.2 x (Nat.lt_of_lt_of_le hx u.1), u.2 x hx hn]
  intro hm
  rcases s x hm with h1 | h1
  · exact hn h1
  · omega

theorem Upd.mono {h h' : Heap} {fp fp' : List Addr} (u : Upd h h' fp) (s : ∀ x ∈ fp, x ∈ fp') : Upd h h' fp' :=
  ⟨u.1, fun x hx hn => u.2 x hx fun hm => hn (s x hm)⟩

theorem Upd.const {h h' : Heap} {fp : List Addr} (u : Upd h h' fp) (m : ∀ x ∈ fp, x < h.length → Mut h x) :
    ∀ (x : Nat) v, h[x]? = some (Obj.const v) → h'[x]? = some (Obj.const v) := by
  intro x v e
  have hx := (List.getElem?_eq_some_iff.1 e).1
  rw [u.2 x hx, e]
  intro hm
  rcases m x hm hx with ⟨s, e'⟩ | ⟨s, e'⟩ <;> rw [e] at e' <;> cases e'

theorem Den.upd {h h' : Heap} {fp : List Addr} (u : Upd h h' fp) (m : ∀ x ∈ fp, x < h.length → Mut h x) {a v fq}
    (d : Den h a v fq) (j : ∀ x ∈ fq, x ∉ fp) : Den h' a v fq :=
  d.frame (u.const m) fun x hx => u.2 x (d.lt x hx) (j x hx)

theorem Dens.upd {h h' : Heap} {fp : List Addr} (u : Upd h h' fp) (m : ∀ x ∈ fp, x < h.length → Mut h x) {a v fq}
    (d : Dens h a v fq) (j : ∀ x ∈ fq, x ∉ fp) : Dens h' a v fq :=
  d.frame (u.const m) fun x hx => u.2 x (d.lt x hx) (j x hx)

theorem Den.append {h : Heap} (g : Heap) {a v fq} (d : Den h a v fq) : Den (h ++ g) a v fq :=
  d.upd (Upd.append h g []) (by simp) (by simp)

theorem Dens.append {h : Heap} (g : Heap) {a v fq} (d : Dens h a v fq) : Dens (h ++ g) a v fq :=
  d.upd (Upd.append h g []) (by simp) (by simp)

/-! ### New values -/

theorem getElem?_alloc (h : Heap) (o : Obj) : (h ++ [o])[h.length]? = some o := by simp

theorem put_const (h : Heap) (v : Val) (i : v.Immutable) : h.put v = (h.length, h ++ [Obj.const v]) := by
  cases v <;> first | exact i.elim | rfl

mutual
theorem put_spec : ∀ (v : Val) (h : Heap), ∃ g fp, (h.put v).2 = h ++ g ∧ Den (h ++ g) (h.put v).1 v fp ∧ fp.Nodup ∧
    ∀ x ∈ fp, h.length ≤ x
  | .scalar s, h => ⟨[.scalar s], [h.length], by simp [put, alloc], .scalar (by simp [put, alloc]), by simp, by simp⟩
  | .list l, h => by
    obtain ⟨g, fp, e, d, n, b⟩ := puts_spec l h
    refine ⟨g ++ [.list (h.puts l).1], (h ++ g).length :: fp, ?_, ?_, ?_, ?_⟩
    · simp [put, alloc, e]
    · rw [← List.append_assoc]
      simp only [put, alloc, e]
      exact .list (getElem?_alloc _ _) (d.append _)
    · refine List.nodup_cons.2 ⟨fun hm => ?_, n⟩
      exact Nat.lt_irrefl _ (d.lt _ hm)
    · intro x hx
      rcases List.mem_cons.1 hx with hx | hx
      · subst hx; simp
      · exact b x hx
  | .pattern r fl, h => ⟨[.const (.pattern r fl)], [], rfl, .const (getElem?_alloc _ _) trivial, by simp, by simp⟩
  | .range lo hi, h => ⟨[.const (.range lo hi)], [], rfl, .const (getElem?_alloc _ _) trivial, by simp, by simp⟩
  | .block b r, h => ⟨[.const (.block b r)], [], rfl, .const (getElem?_alloc _ _) trivial, by simp, by simp⟩
  | .nil, h => ⟨[.const .nil], [], rfl, .const (getElem?_alloc _ _) trivial, by simp, by simp⟩
theorem puts_spec : ∀ (l : List Val) (h : Heap), ∃ g fp, (h.puts l).2 = h ++ g ∧ Dens (h ++ g) (h.puts l).1 l fp ∧
    fp.Nodup ∧ ∀ x ∈ fp, h.length ≤ x
  | [], h => ⟨[], [], by simp [puts], by simp only [puts]; exact .nil, by simp, by simp⟩
  | v :: l, h => by
    obtain ⟨g, fp, e, d, n, b⟩ := put_spec v h
    obtain ⟨g', fp', e', d', n', b'⟩ := puts_spec l (h ++ g)
    refine ⟨g ++ g', fp ++ fp', ?_, ?_, ?_, ?_⟩
    · simp [puts, e, e']
    · rw [← List.append_assoc]
      simp only [puts, e]
      exact .cons (d.append _) d'
    · refine List.nodup_append.2 ⟨n, n', fun x hx y hy e => ?_⟩
      subst e
      exact absurd (d.lt x hx) (Nat.not_lt.2 (b' x hy))
    · intro x hx
      rcases List.mem_append.1 hx with hx | hx
      · exact b x hx
      · have h2 := b' x hx
        simp only [List.length_append] at h2
        omega
end

/-! ### Copies -/

mutual
theorem Den.copy {h : Heap} : ∀ {a v fp}, Den h a v fp → ∃ n0, ∀ n, n0 ≤ n → ∀ g, (copy n (h ++ g) a) = some (put (h ++ g) v)
  | _, _, _, .scalar e => ⟨1, fun n hn g => by
      obtain ⟨m, rfl⟩ : ∃ m, n = m + 1 := ⟨n - 1, by omega⟩
      simp only [Heap.copy, List.getElem?_append_left (List.getElem?_eq_some_iff.1 e).1, e, put]⟩
  | _, _, _, .list e d => by
    obtain ⟨n0, c⟩ := d.copies
    refine ⟨n0 + 1, fun n hn g => ?_⟩
    obtain ⟨m, rfl⟩ : ∃ m, n = m + 1 := ⟨n - 1, by omega⟩
    simp only [Heap.copy, List.getElem?_append_left (List.getElem?_eq_some_iff.1 e).1, e, put]
    rw [c m (by omega) g]
    rfl
  | _, v, _, .const e i => ⟨1, fun n hn g => by
      obtain ⟨m, rfl⟩ : ∃ m, n = m + 1 := ⟨n - 1, by omega⟩
      simp only [Heap.copy, List.getElem?_append_left (List.getElem?_eq_some_iff.1 e).1, e]
      rw [put_const _ _ i]; rfl⟩
theorem Dens.copies {h : Heap} : ∀ {l vs fp}, Dens h l vs fp → ∃ n0, ∀ n, n0 ≤ n → ∀ g,
    (Heap.copies n (h ++ g) l) = some (puts (h ++ g) vs)
  | _, _, _, .nil => ⟨0, fun n _ g => by cases n <;> simp [Heap.copies, puts]⟩
  | _, _, _, @Dens.cons _ a v _ l vs _ d ds => by
    obtain ⟨n0, c⟩ := d.copy
    obtain ⟨n1, c'⟩ := ds.copies
    refine ⟨n0 + n1 + 1, fun n hn g => ?_⟩
    obtain ⟨m, rfl⟩ : ∃ m, n = m + 1 := ⟨n - 1, by omega⟩
    obtain ⟨g', fp, e, -⟩ := put_spec v (h ++ g)
    simp only [Heap.copies, puts]
    rw [c m (by omega) g]
    simp only [e]
    rw [List.append_assoc, c' m (by omega) (g ++ g')]
end

theorem load_const (v : Val) (i : v.Immutable) : ∃ n0, ∀ n, n0 ≤ n → ∀ h a fp, Den h a v fp → Heap.load n h a = some v :=
  ⟨1, fun n hn h a fp d => by
    obtain ⟨m, rfl⟩ : ∃ m, n = m + 1 := ⟨n - 1, by omega⟩
    cases d with
    | scalar e => exact i.elim
    | list e _ => exact i.elim
    | const e _ => simp only [Heap.load, e]⟩

mutual
/-- The fuel that suffices depends on the value only. -/
theorem load_fuel : ∀ v : Val, ∃ n0, ∀ n, n0 ≤ n → ∀ h a fp, Den h a v fp → Heap.load n h a = some v
  | .scalar s => ⟨1, fun n hn h a fp d => by
      obtain ⟨m, rfl⟩ : ∃ m, n = m + 1 := ⟨n - 1, by omega⟩
      cases d with
      | scalar e => simp only [Heap.load, e]
      | const e i => exact i.elim⟩
  | .list vs => by
    obtain ⟨n0, c⟩ := loads_fuel vs
    refine ⟨n0 + 1, fun n hn h a fp d => ?_⟩
    obtain ⟨m, rfl⟩ : ∃ m, n = m + 1 := ⟨n - 1, by omega⟩
    cases d with
    | list e ds =>
      simp only [Heap.load, e]
      rw [c m (by omega) _ _ _ ds]
      rfl
    | const e i => exact i.elim
  | .pattern _ _ => load_const _ trivial
  | .range _ _ => load_const _ trivial
  | .block _ _ => load_const _ trivial
  | .nil => load_const _ trivial
theorem loads_fuel : ∀ vs : List Val, ∃ n0, ∀ n, n0 ≤ n → ∀ h l fp, Dens h l vs fp → Heap.loads n h l = some vs
  | [] => ⟨0, fun n _ h l fp d => by cases d; cases n <;> simp [Heap.loads]⟩
  | v :: vs => by
    obtain ⟨n0, c⟩ := load_fuel v
    obtain ⟨n1, c'⟩ := loads_fuel vs
    refine ⟨n0 + n1 + 1, fun n hn h l fp d => ?_⟩
    obtain ⟨m, rfl⟩ : ∃ m, n = m + 1 := ⟨n - 1, by omega⟩
    cases d with
    | cons d ds =>
      simp only [Heap.loads]
      rw [c m (by omega) _ _ _ d, c' m (by omega) _ _ _ ds]
end

/-! ### Parts of lists -/

theorem Dens.length {h : Heap} : ∀ {l vs fp}, Dens h l vs fp → l.length = vs.length
  | _, _, _, .nil => rfl
  | _, _, _, .cons _ ds => by simp [ds.length]

theorem Dens.app {h : Heap} : ∀ {l vs fp l' vs' fp'}, Dens h l vs fp → Dens h l' vs' fp' →
    Dens h (l ++ l') (vs ++ vs') (fp ++ fp')
  | _, _, _, _, _, _, .nil, d => d
  | _, _, _, _, _, _, .cons d ds, d' => by
    rw [List.append_assoc]
    exact .cons d (ds.app d')

theorem Dens.split {h : Heap} : ∀ (k : Nat) {l vs fp}, Dens h l vs fp → ∃ fp1 fp2, fp = fp1 ++ fp2 ∧
    Dens h (l.take k) (vs.take k) fp1 ∧ Dens h (l.drop k) (vs.drop k) fp2
  | 0, _, _, fp, d => ⟨[], fp, rfl, by simp only [List.take_zero]; exact .nil, d⟩
  | _ + 1, _, _, _, .nil => ⟨[], [], rfl, .nil, .nil⟩
  | k + 1, _, _, _, .cons d ds => by
    obtain ⟨fp1, fp2, rfl, d1, d2⟩ := ds.split k
    exact ⟨_, _, (List.append_assoc _ _ _).symm, .cons d d1, d2⟩

theorem Dens.at {h : Heap} {l vs fp} (d : Dens h l vs fp) (k : Nat) :
    (l[k]? = none ∧ vs[k]? = none) ∨ ∃ a v fp1 fq fp2, l[k]? = some a ∧ vs[k]? = some v ∧ fp = fp1 ++ (fq ++ fp2) ∧
      Dens h (l.take k) (vs.take k) fp1 ∧ Den h a v fq ∧ Dens h (l.drop (k + 1)) (vs.drop (k + 1)) fp2 := by
  by_cases hk : k < l.length
  · right
    obtain ⟨fp1, fp2, rfl, d1, d2⟩ := d.split k
    have hk' : k < vs.length := d.length ▸ hk
    rw [List.drop_eq_getElem_cons hk, List.drop_eq_getElem_cons hk'] at d2
    cases d2 with
    | cons e es => exact ⟨_, _, _, _, _, List.getElem?_eq_getElem hk, List.getElem?_eq_getElem hk', rfl, d1, e, es⟩
  · left
    have := d.length
    exact ⟨List.getElem?_eq_none (by omega), List.getElem?_eq_none (by omega)⟩

theorem set_eq_split {α : Type} (l : List α) (k : Nat) (a : α) (hk : k < l.length) :
    l.set k a = l.take k ++ a :: l.drop (k + 1) := by
  rw [List.set_eq_take_append_cons_drop, if_pos hk]

end Pip
