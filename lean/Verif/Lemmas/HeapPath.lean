import Verif.Lemmas.Heap
/-!
# Reading and assigning through indices on the heap
-/

namespace Pip

open Heap

/-! ### Slices -/

theorem padFront_map {α β : Type} (g : α → β) (l : List α) : ∀ (n : Nat) (start stop : Int) (rep : List α),
    padFront (l.map g) n start stop (rep.map g) =
      ((padFront l n start stop rep).1, (padFront l n start stop rep).2.1, (padFront l n start stop rep).2.2.map g)
  | 0, _, _, _ => rfl
  | n + 1, start, stop, rep => by
    simp only [padFront, List.length_map]
    split
    · rw [← List.map_append, padFront_map g l n]
    · rfl

theorem padBack_map {α β : Type} (g : α → β) (l : List α) : ∀ (n : Nat) (stop : Int) (rep : List α),
    padBack (l.map g) n stop (rep.map g) = (padBack l n stop rep).map g
  | 0, _, _ => rfl
  | n + 1, stop, rep => by
    simp only [padBack, List.length_map]
    split
    · rw [← List.map_append, padBack_map g l n]
    · rfl

theorem cycSlice_map {α β : Type} (g : α → β) (l : List α) (lo hi : Option Int) :
    cycSlice (l.map g) lo hi = (cycSlice l lo hi).map g := by
  simp only [cycSlice, List.isEmpty_map, List.length_map]
  by_cases he : l.isEmpty
  · simp only [he, if_true]
  simp only [he, Bool.false_eq_true, if_false]
  by_cases h2 : (if lo.getD 0 < 0 then lo.getD 0 + ↑l.length else lo.getD 0) ≥
      if hi.getD ↑l.length < 0 then hi.getD ↑l.length + ↑l.length else hi.getD ↑l.length
  · rw [if_pos h2, if_pos h2]; rfl
  rw [if_neg h2, if_neg h2, padFront_map]
  simp only [padBack_map, List.map_take, List.map_drop]

theorem padFront_mem {α : Type} (l : List α) {x : α} : ∀ (n : Nat) (start stop : Int) (rep : List α),
    x ∈ (padFront l n start stop rep).2.2 → x ∈ l ∨ x ∈ rep
  | 0, _, _, _, h => .inr h
  | n + 1, start, stop, rep, h => by
    simp only [padFront] at h
    split at h
    · rcases padFront_mem l n _ _ _ h with h | h
      · exact .inl h
      · exact List.mem_append.1 h
    · exact .inr h

theorem padBack_mem {α : Type} (l : List α) {x : α} : ∀ (n : Nat) (stop : Int) (rep : List α),
    x ∈ padBack l n stop rep → x ∈ l ∨ x ∈ rep
  | 0, _, _, h => .inr h
  | n + 1, stop, rep, h => by
    simp only [padBack] at h
    split at h
    · rcases padBack_mem l n _ _ h with h | h
      · exact .inl h
      · exact (List.mem_append.1 h).symm
    · exact .inr h

theorem cycSlice_mem {α : Type} (l : List α) (lo hi : Option Int) {x : α} (h : x ∈ cycSlice l lo hi) : x ∈ l := by
  simp only [cycSlice] at h
  split at h
  · exact h
  generalize (if lo.getD 0 < 0 then lo.getD 0 + ↑l.length else lo.getD 0) = S at h
  generalize (if hi.getD ↑l.length < 0 then hi.getD ↑l.length + ↑l.length else hi.getD ↑l.length) = E at h
  split at h
  · cases h
  rcases padBack_mem l _ _ _ (List.mem_of_mem_drop (List.mem_of_mem_take h)) with h | h
  · exact h
  · rcases padFront_mem l _ _ _ _ h with h | h <;> exact h

/-- A slice of a list of objects has the slice of the values. -/
theorem Dens.slice {h : Heap} {l vs fp} (d : Dens h l vs fp) (lo hi : Option Int) :
    ∃ fq, Dens h (cycSlice l lo hi) (cycSlice vs lo hi) fq := by
  have hz : ∀ {l vs fp}, Dens h l vs fp → ∀ z ∈ l.zip vs, ∃ fq, Den h z.1 z.2 fq := by
    intro l
    induction l with
    | nil => intro vs fp d z hz; simp at hz
    | cons a l ih =>
      intro vs fp d z hz
      cases d with
      | cons d ds =>
        rcases List.mem_cons.1 hz with rfl | hz
        · exact ⟨_, d⟩
        · exact ih ds z hz
  have h2 : ∀ zs : List (Addr × Val), (∀ z ∈ zs, ∃ fq, Den h z.1 z.2 fq) →
      ∃ fq, Dens h (zs.map Prod.fst) (zs.map Prod.snd) fq := by
    intro zs
    induction zs with
    | nil => intro _; exact ⟨[], .nil⟩
    | cons z zs ih =>
      intro hz
      obtain ⟨fq, dq⟩ := ih fun y hy => hz y (List.mem_cons_of_mem _ hy)
      obtain ⟨fr, dr⟩ := hz z List.mem_cons_self
      exact ⟨_, .cons dr dq⟩
  have e1 : l = (l.zip vs).map Prod.fst := (List.map_fst_zip (by rw [d.length]; exact Nat.le_refl _)).symm
  have e2 : vs = (l.zip vs).map Prod.snd := (List.map_snd_zip (by rw [d.length]; exact Nat.le_refl _)).symm
  obtain ⟨fq, dq⟩ := h2 (cycSlice (l.zip vs) lo hi) fun z hz' => hz d z (cycSlice_mem _ _ _ hz')
  rw [← cycSlice_map, ← cycSlice_map, ← e1, ← e2] at dq
  exact ⟨fq, dq⟩

/-! ### Getting items -/

/-- `getItem` gives an object with the value that `Val.get` gives; it makes new objects only. -/
theorem Den.getItem {h : Heap} {a v fp} (d : Den h a v fp) (i : Idx) :
    match v.get i with
    | .error e => h.getItem a i = .error e
    | .ok c => ∃ g b fq, h.getItem a i = .ok (b, h ++ g) ∧ Den (h ++ g) b c fq := by
  cases d with
  | @scalar _ s e =>
    cases i with
    | int k =>
      simp only [Val.get, Heap.getItem, e]
      cases hk : s[(k % s.length).toNat]? with
      | none => rfl
      | some c => exact ⟨_, _, _, rfl, .scalar (getElem?_alloc _ _)⟩
    | slice lo hi =>
      simp only [Val.get, Heap.getItem, e]
      by_cases he : s.isEmpty
      · rw [if_pos he]
        rw [List.isEmpty_iff] at he
        subst he
        refine ⟨[], a, [a], by simp, ?_⟩
        rw [cycSlice_nil, List.append_nil]
        exact .scalar e
      · rw [if_neg he]
        exact ⟨_, _, _, rfl, .scalar (getElem?_alloc _ _)⟩
  | @list _ l vs fp e ds =>
    cases i with
    | int k =>
      simp only [Val.get, Heap.getItem, e]
      rw [← ds.length]
      rcases ds.at (k % l.length).toNat with ⟨h1, h2⟩ | ⟨b, c, _, fq, _, h1, h2, -, -, dc, -⟩
      · rw [h1, h2]
      · rw [h1, h2]
        exact ⟨[], b, fq, by simp, by rw [List.append_nil]; exact dc⟩
    | slice lo hi =>
      simp only [Val.get, Heap.getItem, e]
      by_cases he : l.isEmpty
      · rw [if_pos he]
        rw [List.isEmpty_iff] at he
        subst he
        cases ds
        refine ⟨[], a, [a], by simp, ?_⟩
        rw [cycSlice_nil, List.append_nil]
        exact .list e .nil
      · rw [if_neg he]
        obtain ⟨fq, dq⟩ := ds.slice lo hi
        exact ⟨_, _, _, rfl, .list (getElem?_alloc _ _) (dq.append _)⟩
  | @const _ v e im =>
    simp only [Heap.getItem, e]
    cases hg : v.get i with
    | error e => rfl
    | ok c =>
      obtain ⟨g, fq, e2, dq, -⟩ := put_spec c h
      refine ⟨g, (h.put c).1, fq, ?_, dq⟩
      simp only [Except.map]
      rw [← e2]

theorem Den.isIterable {h : Heap} {a v fp} (d : Den h a v fp) : h.isIterable a = v.isIterable := by
  cases d with
  | scalar e => simp [Heap.isIterable, e, Val.isIterable]
  | list e _ => simp [Heap.isIterable, e, Val.isIterable]
  | const e _ => simp [Heap.isIterable, e]

/-- Reading gives a new object with the value read. -/
theorem Den.readPath : ∀ (sl : List Idx) {h : Heap} {a v fp}, Den h a v fp →
    match Pip.readPath sl v with
    | .error e => ∃ n0, ∀ n, n0 ≤ n → h.readPath n sl a = .error e
    | .ok w => ∃ n0 g, ∀ n, n0 ≤ n → h.readPath n sl a = .ok (put (h ++ g) w)
  | [], h, a, v, fp, d => by
    obtain ⟨n0, c⟩ := d.copy
    refine ⟨n0, [], fun n hn => ?_⟩
    have := c n hn []
    rw [List.append_nil] at this
    simp only [Heap.readPath, this, List.append_nil]
  | i :: is, h, a, v, fp, d => by
    simp only [Pip.readPath, Heap.readPath, d.isIterable]
    by_cases hi : v.isIterable = true
    · have hg := d.getItem i
      simp only [hi, if_true]
      cases hv : v.get i with
      | error e =>
        rw [hv] at hg
        simp only [hg]
        cases e <;> first | exact ⟨0, fun n _ => rfl⟩ | exact ⟨0, [], fun n _ => by rw [List.append_nil]; rfl⟩
      | ok c =>
        rw [hv] at hg
        obtain ⟨g, b, fq, e, dq⟩ := hg
        simp only [e]
        have ih := Den.readPath is dq
        cases hr : Pip.readPath is c with
        | error e => rw [hr] at ih; exact ih
        | ok w =>
          rw [hr] at ih
          obtain ⟨n0, g', ih⟩ := ih
          exact ⟨n0, g ++ g', fun n hn => by rw [← List.append_assoc]; exact ih n hn⟩
    · simp only [hi, Bool.false_eq_true, if_false]
      exact ⟨0, [], fun n _ => by rw [List.append_nil]; rfl⟩

/-! ### Setting items -/

theorem nodup_replace {fp1 fq fp2 fr : List Addr} (n : (fp1 ++ (fq ++ fp2)).Nodup) (nr : fr.Nodup)
    (d : ∀ x ∈ fr, x ∉ fp1 ∧ x ∉ fp2) : (fp1 ++ (fr ++ fp2)).Nodup := by
  rw [List.nodup_append] at n ⊢
  obtain ⟨n1, n2, n3⟩ := n
  rw [List.nodup_append] at n2 ⊢
  obtain ⟨n4, n5, n6⟩ := n2
  refine ⟨n1, ⟨nr, n5, fun x hx y hy e => (d x hx).2 (e ▸ hy)⟩, fun x hx y hy e => ?_⟩
  rcases List.mem_append.1 hy with hy | hy
  · exact (d y hy).1 (e ▸ hx)
  · exact n3 x hx y (List.mem_append_right _ hy) e

/-- The items of the assigned object -/
theorem Den.iterItems {h : Heap} {r w fr} (d : Den h r w fr) (nr : fr.Nodup) :
    match w.pyList with
    | .error e => h.iterItems r = .error e
    | .ok ws => ∃ g ls fq, h.iterItems r = .ok (ls, h ++ g) ∧ Dens (h ++ g) ls ws fq ∧ fq.Nodup ∧
        ∀ x ∈ fq, x ∈ fr ∨ h.length ≤ x := by
  cases d with
  | @scalar _ s e =>
    simp only [Val.pyList, Val.iter, Heap.iterItems, e]
    obtain ⟨g, fq, e1, dq, nq, bq⟩ := puts_spec (s.map fun c => Val.scalar [c]) h
    exact ⟨g, _, fq, by rw [← e1], dq, nq, fun x hx => .inr (bq x hx)⟩
  | @list _ l vs fp e ds =>
    simp only [Val.pyList, Val.iter, Heap.iterItems, e]
    exact ⟨[], l, fp, by simp, ds.append _, (List.nodup_cons.1 nr).2, fun x hx => .inl (List.mem_cons_of_mem _ hx)⟩
  | @const _ v e im =>
    simp only [Heap.iterItems, e]
    cases hw : w.pyList with
    | error e => rfl
    | ok ws =>
      obtain ⟨g, fq, e1, dq, nq, bq⟩ := puts_spec ws h
      refine ⟨g, _, fq, ?_, dq, nq, fun x hx => .inr (bq x hx)⟩
      simp only [Except.map]
      rw [← e1]

section
variable {n : Nat} {f : Fmt} {r : Addr} {w : Val} {fr : List Addr}

/-- `setItem` makes the change of `Val.set`. -/
theorem Den.setItem (hn : ∀ h a fp, Den h a w fp → Heap.load n h a = some w) {h : Heap} {a v fp} (d : Den h a v fp)
    (i : Idx) (dr : Den h r w fr) (nr : fr.Nodup) (har : a ∉ fr) :
    match v.set f i w with
    | .error e => h.setItem n f a i r = .error e
    | .ok v' => ∃ h', h.setItem n f a i r = .ok h' ∧ Upd h h' [a] ∧ Mut h a ∧
        (fp.Nodup → (∀ x ∈ fr, x ∉ fp) →
          ∃ fp', Den h' a v' fp' ∧ fp'.Nodup ∧ ∀ x ∈ fp', x ∈ fp ∨ x ∈ fr ∨ h.length ≤ x) := by
  cases d with
  | @scalar _ s e =>
    have ha : a < h.length := (List.getElem?_eq_some_iff.1 e).1
    have hs : ∀ o, (h.set a o)[a]? = some o := fun o => List.getElem?_set_self ha
    cases i with
    | int k =>
      simp only [Val.set, Heap.setItem, e, hn _ _ _ dr]
      by_cases hs' : s.isEmpty
      · rw [if_pos hs', if_pos hs']
      · rw [if_neg hs', if_neg hs']
        exact ⟨_, rfl, Upd.set _ _ _, .inl ⟨_, e⟩, fun _ _ => ⟨[a], .scalar (hs _), by simp, by simp⟩⟩
    | slice lo hi =>
      simp only [Val.set, Heap.setItem, e, hn _ _ _ dr]
      exact ⟨_, rfl, Upd.set _ _ _, .inl ⟨_, e⟩, fun _ _ => ⟨[a], .scalar (hs _), by simp, by simp⟩⟩
  | @list _ l vs fp e ds =>
    have ha : a < h.length := (List.getElem?_eq_some_iff.1 e).1
    have ma : ∀ x ∈ [a], x < h.length → Mut h x := by
      intro x hx _; rw [List.mem_singleton] at hx; subst hx; exact .inr ⟨_, e⟩
    cases i with
    | int k =>
      simp only [Val.set, Heap.setItem, e]
      have hl := ds.length
      by_cases hv : vs.isEmpty
      · have hl' : l.isEmpty = true := by
          rw [List.isEmpty_iff] at hv ⊢; subst hv; simpa using hl
        rw [if_pos hv, if_pos hl']
      · have hl' : ¬ l.isEmpty = true := by
          intro he; apply hv; rw [List.isEmpty_iff] at he ⊢; subst he; simpa using hl.symm
        rw [if_neg hv, if_neg hl', ← hl]
        refine ⟨_, rfl, Upd.set _ _ _, .inr ⟨_, e⟩, fun np hd => ?_⟩
        have hpos : 0 < l.length := by
          rw [List.isEmpty_iff] at hl'; exact List.length_pos_iff.2 hl'
        have hk : (k % (l.length : Int)).toNat < l.length := by
          have h1 := Int.emod_nonneg k (by omega : (l.length : Int) ≠ 0)
          have h2 := Int.emod_lt_of_pos k (by omega : 0 < (l.length : Int))
          omega
        generalize (k % (l.length : Int)).toNat = j at hk
        obtain ⟨nap, np⟩ := List.nodup_cons.1 np
        rcases ds.at j with ⟨h1, -⟩ | ⟨b, c, fp1, fq, fp2, -, -, rfl, d1, -, d2⟩
        · rw [List.getElem?_eq_none_iff] at h1; omega
        · have hd' : ∀ x ∈ fr, x ∉ fp1 ∧ x ∉ fp2 := fun x hx =>
            ⟨fun h1 => hd x hx (by simp [h1]), fun h1 => hd x hx (by simp [h1])⟩
          refine ⟨a :: (fp1 ++ (fr ++ fp2)), .list (List.getElem?_set_self ha) ?_, ?_, ?_⟩
          · rw [set_eq_split vs _ _ (hl ▸ hk), set_eq_split l _ _ hk]
            refine Dens.app (d1.upd (Upd.set _ _ _) ma ?_) (.cons (dr.upd (Upd.set _ _ _) ma ?_)
              (d2.upd (Upd.set _ _ _) ma ?_))
            · intro x hx h1; rw [List.mem_singleton] at h1; subst h1; exact nap (by simp [hx])
            · intro x hx h1; rw [List.mem_singleton] at h1; subst h1; exact har hx
            · intro x hx h1; rw [List.mem_singleton] at h1; subst h1; exact nap (by simp [hx])
          · refine List.nodup_cons.2 ⟨?_, nodup_replace np nr hd'⟩
            intro hm
            simp only [List.mem_append] at hm
            rcases hm with hm | hm | hm
            · exact nap (by simp [hm])
            · exact har hm
            · exact nap (by simp [hm])
          · intro x hx
            simp only [List.mem_cons, List.mem_append] at hx ⊢
            rcases hx with hx | hx | hx | hx <;> simp [hx]
    | slice lo hi =>
      simp only [Val.set, Heap.setItem, e]
      have hit := dr.iterItems nr
      cases hw : w.pyList with
      | error e => rw [hw] at hit; rw [hit]; rfl
      | ok ws =>
        rw [hw] at hit
        obtain ⟨g, ls, fq, e1, dq, nq, bq⟩ := hit
        rw [e1]
        have haq : a ∉ fq := fun hm => by
          rcases bq a hm with h1 | h1
          · exact har h1
          · exact Nat.not_lt.2 h1 ha
        have ma' : ∀ x ∈ [a], x < (h ++ g).length → Mut (h ++ g) x := by
          intro x hx _
          rw [List.mem_singleton] at hx; subst hx
          exact .inr ⟨l, by rw [List.getElem?_append_left ha]; exact e⟩
        have ha' : a < (h ++ g).length := by
          rw [List.length_append]; exact Nat.lt_of_lt_of_le ha (Nat.le_add_right _ _)
        refine ⟨_, rfl, (Upd.append h g [a]).trans (Upd.set _ _ _) (by simp), .inr ⟨_, e⟩, fun np hd => ?_⟩
        obtain ⟨nap, np⟩ := List.nodup_cons.1 np
        have key : ∀ i j : Nat, ∃ fp', Dens (List.set (h ++ g) a (.list (l.take i ++ ls ++ l.drop (max i j))))
            (l.take i ++ ls ++ l.drop (max i j)) (vs.take i ++ ws ++ vs.drop (max i j)) fp' ∧ fp'.Nodup ∧ a ∉ fp' ∧
            ∀ x ∈ fp', x ∈ fp ∨ x ∈ fq := by
          intro i j
          obtain ⟨fp1, fp2, rfl, d1, d2⟩ := ds.split i
          obtain ⟨fp3, fp4, rfl, -, d4⟩ := d2.split (max i j - i)
          rw [List.drop_drop, List.drop_drop, show i + (max i j - i) = max i j by omega] at d4
          refine ⟨fp1 ++ (fq ++ fp4), ?_, nodup_replace np nq ?_, ?_, ?_⟩
          · rw [List.append_assoc, List.append_assoc]
            refine Dens.app ((d1.append g).upd (Upd.set _ _ _) ma' ?_) (Dens.app (dq.upd (Upd.set _ _ _) ma' ?_)
              ((d4.append g).upd (Upd.set _ _ _) ma' ?_))
            · intro x hx h1; rw [List.mem_singleton] at h1; subst h1; exact nap (by simp [hx])
            · intro x hx h1; rw [List.mem_singleton] at h1; subst h1; exact haq hx
            · intro x hx h1; rw [List.mem_singleton] at h1; subst h1; exact nap (by simp [hx])
          · intro x hx
            have h1 := ds.lt x
            rcases bq x hx with h2 | h2
            · exact ⟨fun h3 => hd x h2 (by simp [h3]), fun h3 => hd x h2 (by simp [h3])⟩
            · exact ⟨fun h3 => Nat.lt_irrefl _ (Nat.lt_of_lt_of_le (h1 (by simp [h3])) h2),
                fun h3 => Nat.lt_irrefl _ (Nat.lt_of_lt_of_le (h1 (by simp [h3])) h2)⟩
          · intro hm
            simp only [List.mem_append] at hm
            rcases hm with hm | hm | hm
            · exact nap (by simp [hm])
            · exact haq hm
            · exact nap (by simp [hm])
          · intro x hx
            simp only [List.mem_append] at hx ⊢
            rcases hx with hx | hx | hx <;> simp [hx]
        have hl := ds.length
        obtain ⟨fp', d', n', a', b'⟩ := key (clampIdx l.length (lo.getD 0))
          (match hi with | some h => clampIdx l.length h | none => l.length)
        refine ⟨a :: fp', .list (List.getElem?_set_self ha') ?_, List.nodup_cons.2 ⟨a', n'⟩, ?_⟩
        · simp only [pySetSlice, ← hl]
          exact d'
        · intro x hx
          rcases List.mem_cons.1 hx with rfl | hx
          · simp
          · rcases b' x hx with h1 | h1
            · simp [h1]
            · rcases bq x h1 with h2 | h2 <;> simp [h2]
  | @const _ v e im =>
    have : v.set f i w = .error .typeError := by
      cases v <;> first | exact im.elim | (cases i <;> rfl)
    rw [this]
    simp only [Heap.setItem, e]

/-! ### Assigning through indices -/

theorem filterMap_picks {α : Type} (l : List α) : ∀ ps : List Nat, (∀ p ∈ ps, p < l.length) →
    ∀ k : Nat, (ps.filterMap (l[·]?))[k]? = ps[k]?.bind (l[·]?)
  | [], _, k => by simp
  | p :: ps, h, k => by
    have hp : p < l.length := h p List.mem_cons_self
    rw [List.filterMap_cons_some (List.getElem?_eq_getElem hp)]
    cases k with
    | zero => simp [hp]
    | succ k =>
      simp only [List.getElem?_cons_succ]
      exact filterMap_picks l ps (fun q hq => h q (List.mem_cons_of_mem _ hq)) k

theorem filterMap_length {α : Type} (l : List α) : ∀ ps : List Nat, (∀ p ∈ ps, p < l.length) →
    (ps.filterMap (l[·]?)).length = ps.length
  | [], _ => rfl
  | p :: ps, h => by
    have hp : p < l.length := h p List.mem_cons_self
    rw [List.filterMap_cons_some (List.getElem?_eq_getElem hp)]
    simp [filterMap_length l ps fun q hq => h q (List.mem_cons_of_mem _ hq)]

theorem filterMap_eq_map {α : Type} (l : List α) (ps : List Nat) (h : ∀ p ∈ ps, p < l.length) (d : α) :
    ps.filterMap (l[·]?) = ps.map fun p => l[p]?.getD d := by
  apply List.ext_getElem?
  intro k
  rw [filterMap_picks l ps h k, List.getElem?_map]
  cases hk : ps[k]? with
  | none => rfl
  | some p =>
    have hp := h p (List.mem_of_getElem? hk)
    simp [hp]

/-- Slicing the positions slices the items. -/
theorem filterMap_slice {α : Type} (l : List α) (ps : List Nat) (h : ∀ p ∈ ps, p < l.length) (lo hi : Option Int) :
    (cycSlice ps lo hi).filterMap (l[·]?) = cycSlice (ps.filterMap (l[·]?)) lo hi := by
  cases l with
  | nil =>
    have : ps = [] := by
      cases ps with
      | nil => rfl
      | cons p ps => exact absurd (h p List.mem_cons_self) (Nat.not_lt_zero _)
    subst this; rfl
  | cons d l =>
    rw [filterMap_eq_map _ ps h d, cycSlice_map, filterMap_eq_map _ _ (fun p hp => h p (cycSlice_mem _ _ _ hp)) d]

theorem filterMap_all {α : Type} (l : List α) : (List.range l.length).filterMap (l[·]?) = l := by
  apply List.ext_getElem?
  intro k
  rw [filterMap_picks l _ (by simp)]
  by_cases hk : k < l.length
  · rw [List.getElem?_range hk]; rfl
  · rw [List.getElem?_eq_none (by simp; omega), List.getElem?_eq_none (by omega)]; rfl

/-- The values of a view -/
theorem Dens.view {h : Heap} {l vs fp} (d : Dens h l vs fp) : ∀ ps : List Nat,
    ∃ fq, Dens h (ps.filterMap (l[·]?)) (ps.filterMap (vs[·]?)) fq
  | [] => ⟨[], .nil⟩
  | p :: ps => by
    obtain ⟨fq, dq⟩ := d.view ps
    rcases d.at p with ⟨h1, h2⟩ | ⟨a, v, _, fq', _, h1, h2, -, -, da, -⟩
    · rw [List.filterMap_cons_none h1, List.filterMap_cons_none h2]; exact ⟨fq, dq⟩
    · rw [List.filterMap_cons_some h1, List.filterMap_cons_some h2]; exact ⟨_, .cons da dq⟩

/-- The claim for an object of a variable -/
def InTree (n : Nat) (f : Fmt) (r : Addr) (w : Val) (fr : List Addr) (path : List Idx) : Prop :=
  ∀ {h : Heap} {a v fp}, Den h a v fp → fp.Nodup → Den h r w fr → (∀ x ∈ fr, x ∉ fp) →
    match Pip.setPath f w path v with
    | .error e => Heap.setPath n f r path h a = .error e
    | .ok v' => ∃ h' fp', Heap.setPath n f r path h a = .ok h' ∧ Den h' a v' fp' ∧ fp'.Nodup ∧
        (∀ x ∈ fp', x ∈ fp ∨ x ∈ fr ∨ h.length ≤ x) ∧ Upd h h' fp

/-- The claim for a new List of objects of a variable -/
def InView (n : Nat) (f : Fmt) (r : Addr) (w : Val) (fr : List Addr) (path : List Idx) : Prop :=
  ∀ {h : Heap} {l vs fp} {b : Addr} {ps : List Nat}, Dens h l vs fp → fp.Nodup →
    h[b]? = some (.list (ps.filterMap (l[·]?))) → (∀ p ∈ ps, p < l.length) → b ∉ fp → Den h r w fr →
    (∀ x ∈ fr, x ∉ fp) → b ∉ fr →
    match Pip.setView f w vs path ps with
    | .error e => Heap.setPath n f r path h b = .error e
    | .ok vs' => ∃ h' fp', Heap.setPath n f r path h b = .ok h' ∧ Dens h' l vs' fp' ∧ fp'.Nodup ∧
        (∀ x ∈ fp', x ∈ fp ∨ x ∈ fr ∨ h.length ≤ x) ∧ Upd h h' (b :: fp)

theorem self_mem {h : Heap} {a v fp} (d : Den h a v fp) : a ∈ fp ∨ v.Immutable := by
  cases d with
  | scalar _ => simp
  | list _ _ => simp
  | const _ i => exact .inr i

/-- Assigning below a new object changes nothing that was there before. -/
theorem loose {is : List Idx} (ih : InTree n f r w fr is) {h : Heap} {a v fp} (d : Den h a v fp)
    (np : fp.Nodup) (dr : Den h r w fr) {g : Heap} {b : Addr} {c : Val} {fq : List Addr}
    (dq : Den (h ++ g) b c fq) (nq : fq.Nodup) (bq : ∀ x ∈ fq, h.length ≤ x) :
    match (Pip.setPath f w is c).map fun _ => v with
    | .error e => Heap.setPath n f r is (h ++ g) b = .error e
    | .ok v' => ∃ h' fp', Heap.setPath n f r is (h ++ g) b = .ok h' ∧ Den h' a v' fp' ∧ fp'.Nodup ∧
        (∀ x ∈ fp', x ∈ fp ∨ x ∈ fr ∨ h.length ≤ x) ∧ Upd h h' fp := by
  have := ih dq nq (dr.append g) (fun x hx h1 => Nat.not_lt.2 (bq x h1) (dr.lt x hx))
  cases hs : Pip.setPath f w is c with
  | error e => rw [hs] at this; exact this
  | ok c' =>
    rw [hs] at this
    obtain ⟨h', fp', e, -, -, -, u⟩ := this
    refine ⟨h', fp, e, ?_, np, fun x hx => .inl hx, ?_⟩
    · exact (d.append g).upd u (fun x hx _ => dq.mut x hx) fun x hx h1 => Nat.not_lt.2 (bq x h1) (d.lt x hx)
    · exact (Upd.append h g fp).trans u fun x hx => .inr (bq x hx)

theorem not_mem {h : Heap} {a v fp} (d : Den h a v fp) (dr : Den h r w fr) (hd : ∀ x ∈ fr, x ∉ fp) : a ∉ fr := by
  intro hm
  have hm' := dr.mut a hm
  cases d with
  | scalar _ => exact hd a hm (by simp)
  | list _ _ => exact hd a hm (by simp)
  | const e _ => rcases hm' with ⟨s, e'⟩ | ⟨s, e'⟩ <;> rw [e] at e' <;> cases e'

theorem nodup_disjoint {fp1 fq fp2 : List Addr} (n : (fp1 ++ (fq ++ fp2)).Nodup) :
    fq.Nodup ∧ ∀ x ∈ fq, x ∉ fp1 ∧ x ∉ fp2 := by
  rw [List.nodup_append] at n
  obtain ⟨n1, n2, n3⟩ := n
  rw [List.nodup_append] at n2
  obtain ⟨n4, n5, n6⟩ := n2
  exact ⟨n4, fun x hx => ⟨fun h => n3 x h x (by simp [hx]) rfl, fun h => n6 x hx x h rfl⟩⟩

/-- Assigning below an item of a list -/
theorem below {is : List Idx} (ih : InTree n f r w fr is) {h : Heap} {l vs fp} (ds : Dens h l vs fp)
    (np : fp.Nodup) (dr : Den h r w fr) (hd : ∀ x ∈ fr, x ∉ fp) {k : Nat} {b : Addr} {c : Val} (hb : l[k]? = some b)
    (hc : vs[k]? = some c) :
    match (Pip.setPath f w is c).map fun c' => vs.set k c' with
    | .error e => Heap.setPath n f r is h b = .error e
    | .ok vs' => ∃ h' fp', Heap.setPath n f r is h b = .ok h' ∧ Dens h' l vs' fp' ∧ fp'.Nodup ∧
        (∀ x ∈ fp', x ∈ fp ∨ x ∈ fr ∨ h.length ≤ x) ∧ Upd h h' fp := by
  rcases ds.at k with ⟨h1, -⟩ | ⟨b', c', fp1, fq, fp2, h1, h2, rfl, d1, dq, d2⟩
  · rw [hb] at h1; cases h1
  rw [hb] at h1; cases h1
  rw [hc] at h2; cases h2
  obtain ⟨nq, dq'⟩ := nodup_disjoint np
  have := ih dq nq dr fun x hx h1 => hd x hx (by simp [h1])
  cases hs : Pip.setPath f w is c with
  | error e => rw [hs] at this; exact this
  | ok c' =>
    rw [hs] at this
    obtain ⟨h', fq', e, dq2, nq2, bq, u⟩ := this
    have hm : ∀ x ∈ fq, x < h.length → Mut h x := fun x hx _ => dq.mut x hx
    refine ⟨h', fp1 ++ (fq' ++ fp2), e, ?_, nodup_replace np nq2 ?_, ?_, u.mono fun x hx => by simp [hx]⟩
    · have hk := (List.getElem?_eq_some_iff.1 hc).1
      have hk' := (List.getElem?_eq_some_iff.1 hb).1
      have el : l = l.take k ++ b :: l.drop (k + 1) := by
        conv => lhs; rw [← List.set_getElem_self hk', (List.getElem?_eq_some_iff.1 hb).2, set_eq_split _ _ _ hk']
      show Dens h' l (vs.set k c') _
      rw [set_eq_split _ _ _ hk, el]
      exact Dens.app (d1.upd u hm fun x hx h1 => (dq' x h1).1 hx)
        (.cons dq2 (d2.upd u hm fun x hx h1 => (dq' x h1).2 hx))
    · intro x hx
      rcases bq x hx with h1 | h1 | h1
      · exact dq' x h1
      · exact ⟨fun h2 => hd x h1 (by simp [h2]), fun h2 => hd x h1 (by simp [h2])⟩
      · exact ⟨fun h2 => Nat.not_lt.2 h1 (ds.lt x (by simp [h2])), fun h2 => Nat.not_lt.2 h1 (ds.lt x (by simp [h2]))⟩
    · intro x hx
      simp only [List.mem_append] at hx ⊢
      rcases hx with hx | hx | hx
      · simp [hx]
      · rcases bq x hx with h1 | h1 | h1 <;> simp [h1]
      · simp [hx]

theorem setPath_agree (hn : ∀ h a fp, Den h a w fp → Heap.load n h a = some w) (nr : fr.Nodup) :
    ∀ path, InTree n f r w fr path ∧ InView n f r w fr path
  | [] => ⟨fun {h a v fp} d np dr hd => ⟨h, fp, rfl, d, np, fun x hx => .inl hx, Upd.refl _ _⟩,
      fun {h l vs fp b ps} d np hb hp hbf dr hd hbr => by
        simp only [Pip.setView]
        exact ⟨h, fp, rfl, d, np, fun x hx => .inl hx, Upd.refl _ _⟩⟩
  | i :: is => by
    obtain ⟨ih1, ih2⟩ := setPath_agree hn nr is
    constructor
    · intro h a v fp d np dr hd
      simp only [Pip.setPath, Heap.setPath]
      have har := not_mem d dr hd
      by_cases hi : is.isEmpty
      · rw [if_pos hi, if_pos hi]
        have hs := Den.setItem (f := f) hn d i dr nr har
        cases hv : v.set f i w with
        | error e =>
          rw [hv] at hs
          simp only [hs]
          cases e <;> first | rfl | exact ⟨h, fp, rfl, d, np, fun x hx => .inl hx, Upd.refl _ _⟩
        | ok v' =>
          rw [hv] at hs
          obtain ⟨h', e, u, m, hf⟩ := hs
          obtain ⟨fp', d', n', b'⟩ := hf np hd
          simp only [e]
          refine ⟨h', fp', rfl, d', n', b', u.mono fun x hx => ?_⟩
          rw [List.mem_singleton] at hx; subst hx
          rcases self_mem d with h1 | h1
          · exact h1
          · exact absurd hv (by cases v <;> first | exact h1.elim | (cases i <;> simp [Val.set]))
      · rw [if_neg hi, if_neg hi]
        cases d with
        | @scalar _ s e =>
          cases i with
          | int k =>
            simp only [Val.get, Heap.getItem, e]
            cases hk : s[(k % s.length).toNat]? with
            | none => rfl
            | some c =>
              simp only [alloc]
              exact loose ih1 (.scalar e) np dr (.scalar (getElem?_alloc _ _)) (by simp) (by simp)
          | slice lo hi =>
            simp only [Val.get, Heap.getItem, e]
            by_cases he : s.isEmpty
            · rw [if_pos he, if_pos he]
              rw [List.isEmpty_iff] at he; subst he
              exact ih1 (.scalar e) np dr hd
            · rw [if_neg he, if_neg he]
              exact loose ih1 (.scalar e) np dr (.scalar (getElem?_alloc _ _)) (by simp) (by simp)
        | @list _ l vs fp e ds =>
          obtain ⟨nap, np'⟩ := List.nodup_cons.1 np
          have hd' : ∀ x ∈ fr, x ∉ fp := fun x hx h1 => hd x hx (by simp [h1])
          have ha : a < h.length := (List.getElem?_eq_some_iff.1 e).1
          cases i with
          | int k =>
            simp only [Val.get, Heap.getItem, e]
            rw [← ds.length]
            rcases ds.at (k % l.length).toNat with ⟨h1, h2⟩ | ⟨b, c, _, fq, _, h1, h2, -, -, dc, -⟩
            · rw [h1, h2]
            · simp only [h1, h2]
              have hb := below ih1 ds np' dr hd' h1 h2
              cases hs : Pip.setPath f w is c with
              | error e => rw [hs] at hb; exact hb
              | ok c' =>
                rw [hs] at hb
                obtain ⟨h', fp', e1, d1, n1, b1, u⟩ := hb
                refine ⟨h', a :: fp', e1, .list ?_ d1, List.nodup_cons.2 ⟨fun hm => ?_, n1⟩, ?_, ?_⟩
                · rw [u.2 a ha nap, e]
                · rcases b1 a hm with h3 | h3 | h3
                  · exact nap h3
                  · exact har h3
                  · exact Nat.not_lt.2 h3 ha
                · intro x hx
                  rcases List.mem_cons.1 hx with rfl | hx
                  · simp
                  · rcases b1 x hx with h3 | h3 | h3 <;> simp [h3]
                · exact u.mono fun x hx => List.mem_cons_of_mem _ hx
          | slice lo hi =>
            simp only [Val.get, Heap.getItem, e]
            have hl := ds.length
            by_cases he : vs.isEmpty
            · have he' : l.isEmpty = true := by
                rw [List.isEmpty_iff] at he ⊢; subst he; simpa using hl
              rw [if_pos he, if_pos he']
              rw [List.isEmpty_iff] at he he'
              subst he; subst he'
              exact ih1 (.list e ds) np dr hd
            · have he' : ¬ l.isEmpty = true := by
                intro h1; apply he; rw [List.isEmpty_iff] at h1 ⊢; subst h1; simpa using hl.symm
              rw [if_neg he, if_neg he']
              simp only [alloc]
              have hv := ih2 (h := h ++ [Obj.list (cycSlice l lo hi)]) (b := h.length)
                (ps := cycSlice (List.range l.length) lo hi) (ds.append _) np'
                (by rw [filterMap_slice _ _ (by simp), filterMap_all]; exact getElem?_alloc _ _)
                (fun p hp => by simpa using cycSlice_mem _ _ _ hp)
                (fun hm => Nat.lt_irrefl _ (ds.lt _ hm)) (dr.append _) hd' (fun hm => Nat.lt_irrefl _ (dr.lt _ hm))
              rw [← hl]
              cases hs : Pip.setView f w vs is (cycSlice (List.range l.length) lo hi) with
              | error e => rw [hs] at hv; exact hv
              | ok vs' =>
                rw [hs] at hv
                obtain ⟨h', fp', e1, d1, n1, b1, u⟩ := hv
                have u' : Upd h h' fp := (Upd.append h _ fp).trans u fun x hx => by
                  rcases List.mem_cons.1 hx with rfl | hx
                  · exact .inr (Nat.le_refl _)
                  · exact .inl hx
                have b2 : ∀ x ∈ fp', x ∈ fp ∨ x ∈ fr ∨ h.length ≤ x := fun x hx => by
                  rcases b1 x hx with h3 | h3 | h3
                  · exact .inl h3
                  · exact .inr (.inl h3)
                  · rw [List.length_append] at h3
                    exact .inr (.inr (Nat.le_trans (Nat.le_add_right _ _) h3))
                refine ⟨h', a :: fp', e1, .list ?_ d1, List.nodup_cons.2 ⟨fun hm => ?_, n1⟩, ?_, ?_⟩
                · rw [u'.2 a ha nap, e]
                · rcases b2 a hm with h3 | h3 | h3
                  · exact nap h3
                  · exact har h3
                  · exact Nat.not_lt.2 h3 ha
                · intro x hx
                  rcases List.mem_cons.1 hx with rfl | hx
                  · simp
                  · rcases b2 x hx with h3 | h3 | h3 <;> simp [h3]
                · exact u'.mono fun x hx => List.mem_cons_of_mem _ hx
        | @const _ v e im =>
          simp only [Heap.getItem, e]
          cases hg : v.get i with
          | error e => cases e <;> rfl
          | ok c =>
            obtain ⟨g, fq, e2, dq, nq, bq⟩ := put_spec c h
            have key := loose ih1 (.const e im) np dr dq nq bq
            rw [← e2] at key
            cases v <;> first | exact im.elim | exact key
    · intro h l vs fp b ps ds np hb hp hbf dr hd hbr
      simp only [Pip.setView, Heap.setPath]
      have hl := ds.length
      by_cases hi : is.isEmpty
      · rw [if_pos hi, if_pos hi]
        obtain ⟨fq, dq⟩ := ds.view ps
        have hs := Den.setItem (f := f) hn (.list hb dq) i dr nr hbr
        cases hv : (Val.list (ps.filterMap (vs[·]?))).set f i w with
        | error e =>
          rw [hv] at hs
          simp only [hs]
          cases e <;> first | rfl | exact ⟨h, fp, rfl, ds, np, fun x hx => .inl hx, Upd.refl _ _⟩
        | ok v' =>
          rw [hv] at hs
          obtain ⟨h', e, u, m, -⟩ := hs
          simp only [e]
          refine ⟨h', fp, rfl, ds.upd u ?_ ?_, np, fun x hx => .inl hx, u.mono (by simp)⟩
          · intro x hx _; rw [List.mem_singleton] at hx; subst hx; exact m
          · intro x hx h1; rw [List.mem_singleton] at h1; subst h1; exact hbf hx
      · rw [if_neg hi, if_neg hi]
        cases i with
        | int k =>
          simp only [Heap.getItem, hb, filterMap_length l ps hp, filterMap_picks l ps hp]
          cases hk : ps[(k % ps.length).toNat]? with
          | none => rfl
          | some p =>
            have hp' := hp p (List.mem_of_getElem? hk)
            simp only [Option.bind_some, List.getElem?_eq_getElem hp', List.getElem?_eq_getElem (hl ▸ hp' : p < vs.length)]
            have := below ih1 ds np dr hd (List.getElem?_eq_getElem hp')
              (List.getElem?_eq_getElem (hl ▸ hp' : p < vs.length))
            cases hs : Pip.setPath f w is vs[p] with
            | error e => rw [hs] at this; exact this
            | ok c' =>
              rw [hs] at this
              obtain ⟨h', fp', e1, d1, n1, b1, u⟩ := this
              exact ⟨h', fp', e1, d1, n1, b1, u.mono fun x hx => List.mem_cons_of_mem _ hx⟩
        | slice lo hi =>
          simp only [Heap.getItem, hb]
          by_cases he : (ps.filterMap (l[·]?)).isEmpty
          · rw [if_pos he]
            have : ps = [] := by
              rw [List.isEmpty_iff] at he
              have := filterMap_length l ps hp
              rw [he] at this
              exact List.length_eq_zero_iff.1 this.symm
            subst this
            exact ih2 ds np hb hp hbf dr hd hbr
          · rw [if_neg he]
            simp only [alloc]
            have hv := ih2 (h := h ++ [Obj.list (cycSlice (ps.filterMap (l[·]?)) lo hi)]) (b := h.length)
              (ps := cycSlice ps lo hi) (ds.append _) np (by rw [filterMap_slice _ _ hp]; exact getElem?_alloc _ _)
              (fun p hp' => hp p (cycSlice_mem _ _ _ hp'))
              (fun hm => Nat.lt_irrefl _ (ds.lt _ hm)) (dr.append _) hd (fun hm => Nat.lt_irrefl _ (dr.lt _ hm))
            cases hs : Pip.setView f w vs is (cycSlice ps lo hi) with
            | error e => rw [hs] at hv; exact hv
            | ok vs' =>
              rw [hs] at hv
              obtain ⟨h', fp', e1, d1, n1, b1, u⟩ := hv
              refine ⟨h', fp', e1, d1, n1, fun x hx => ?_, ?_⟩
              · rcases b1 x hx with h3 | h3 | h3
                · exact .inl h3
                · exact .inr (.inl h3)
                · rw [List.length_append] at h3
                  exact .inr (.inr (Nat.le_trans (Nat.le_add_right _ _) h3))
              · refine (Upd.append h _ _).trans u fun x hx => ?_
                rcases List.mem_cons.1 hx with rfl | hx
                · exact .inr (Nat.le_refl _)
                · exact .inl (List.mem_cons_of_mem _ hx)

end

end Pip
