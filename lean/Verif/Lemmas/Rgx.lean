import Verif.Model.Rgx
/-! Helper lemmas about the backtracking matcher. -/

namespace Pip

/-- Language of a regex without `$`. -/
inductive Rgx.Lang : Rgx → Str → Prop
  | chr {p c} : p c = true → Lang (.chr p) [c]
  | eps : Lang .eps []
  | seq {a b u v} : Lang a u → Lang b v → Lang (.seq a b) (u ++ v)
  | altL {a b u} : Lang a u → Lang (.alt a b) u
  | altR {a b u} : Lang b u → Lang (.alt a b) u
  | starNil {a} : Lang (.star a) []
  | starCons {a u v} : u ≠ [] → Lang a u → Lang (.star a) v → Lang (.star a) (u ++ v)
  | lazyNil {a} : Lang (.lazyStar a) []
  | lazyCons {a u v} : u ≠ [] → Lang a u → Lang (.lazyStar a) v → Lang (.lazyStar a) (u ++ v)

/-- No `$` inside. -/
def Rgx.noEol : Rgx → Prop
  | .chr _ | .eps => True
  | .seq a b | .alt a b => a.noEol ∧ b.noEol
  | .star a | .lazyStar a => a.noEol
  | .eol => False

theorem starRun_iff {a : Rgx} (ih : ∀ s rest, rest ∈ a.run s ↔ ∃ w, s = w ++ rest ∧ a.Lang w) :
    ∀ n s rest, s.length ≤ n →
      (rest ∈ starRun a.run n s ↔ ∃ w, s = w ++ rest ∧ (Rgx.star a).Lang w) := by
  intro n
  induction n with
  | zero =>
    intro s rest h
    have : s = [] := List.length_eq_zero_iff.1 (Nat.le_zero.1 h)
    subst this
    simp only [starRun, List.mem_singleton]
    constructor
    · rintro rfl; exact ⟨[], rfl, .starNil⟩
    · rintro ⟨w, hw, _⟩; simp at hw; exact hw.2
  | succ n IH =>
    intro s rest h
    simp only [starRun, List.mem_append, List.mem_flatMap, List.mem_singleton]
    constructor
    · rintro (⟨r, hr, hm⟩ | rfl)
      · split at hm
        · obtain ⟨w, rfl, hw⟩ := (ih _ _).1 hr
          rename_i hlt
          have hl : r.length ≤ n := by simp at h hlt; omega
          obtain ⟨w', rfl, hw'⟩ := (IH _ _ hl).1 hm
          refine ⟨w ++ w', by simp, .starCons ?_ hw hw'⟩
          rintro rfl; simp at hlt
        · simp at hm
      · exact ⟨[], rfl, .starNil⟩
    · rintro ⟨w, rfl, hw⟩
      cases hw with
      | starNil => right; rfl
      | @starCons _ u v hu h1 h2 =>
        left
        refine ⟨v ++ rest, (ih _ _).2 ⟨u, by simp, h1⟩, ?_⟩
        have : 0 < u.length := List.length_pos_iff.2 hu
        rw [if_pos (by simp; omega)]
        exact (IH _ _ (by simp at h ⊢; omega)).2 ⟨v, rfl, h2⟩

theorem lazyRun_iff {a : Rgx} (ih : ∀ s rest, rest ∈ a.run s ↔ ∃ w, s = w ++ rest ∧ a.Lang w) :
    ∀ n s rest, s.length ≤ n →
      (rest ∈ lazyRun a.run n s ↔ ∃ w, s = w ++ rest ∧ (Rgx.lazyStar a).Lang w) := by
  intro n
  induction n with
  | zero =>
    intro s rest h
    have : s = [] := List.length_eq_zero_iff.1 (Nat.le_zero.1 h)
    subst this
    simp only [lazyRun, List.mem_singleton]
    constructor
    · rintro rfl; exact ⟨[], rfl, .lazyNil⟩
    · rintro ⟨w, hw, _⟩; simp at hw; exact hw.2
  | succ n IH =>
    intro s rest h
    simp only [lazyRun, List.mem_cons, List.mem_flatMap]
    constructor
    · rintro (rfl | ⟨r, hr, hm⟩)
      · exact ⟨[], rfl, .lazyNil⟩
      · split at hm
        · obtain ⟨w, rfl, hw⟩ := (ih _ _).1 hr
          rename_i hlt
          have hl : r.length ≤ n := by simp at h hlt; omega
          obtain ⟨w', rfl, hw'⟩ := (IH _ _ hl).1 hm
          refine ⟨w ++ w', by simp, .lazyCons ?_ hw hw'⟩
          rintro rfl; simp at hlt
        · simp at hm
    · rintro ⟨w, rfl, hw⟩
      cases hw with
      | lazyNil => left; rfl
      | @lazyCons _ u v hu h1 h2 =>
        right
        refine ⟨v ++ rest, (ih _ _).2 ⟨u, by simp, h1⟩, ?_⟩
        have : 0 < u.length := List.length_pos_iff.2 hu
        rw [if_pos (by simp; omega)]
        exact (IH _ _ (by simp at h ⊢; omega)).2 ⟨v, rfl, h2⟩

/-- The matcher finds exactly the words of the language. -/
theorem Rgx.mem_run {r : Rgx} (hr : r.noEol) (s rest : Str) :
    rest ∈ r.run s ↔ ∃ w, s = w ++ rest ∧ r.Lang w := by
  induction r generalizing s rest with
  | chr p =>
    cases s with
    | nil =>
      simp only [run, List.not_mem_nil, false_iff]
      rintro ⟨w, hw, h⟩
      cases h; simp at hw
    | cons c cs =>
      simp only [run]
      constructor
      · intro h
        split at h
        · simp at h; subst h; exact ⟨[c], rfl, .chr ‹_›⟩
        · simp at h
      · rintro ⟨w, hw, h⟩
        cases h with
        | @chr _ c' hc => simp at hw; obtain ⟨rfl, rfl⟩ := hw; simp [hc]
  | eps =>
    simp only [run, List.mem_singleton]
    constructor
    · rintro rfl; exact ⟨[], rfl, .eps⟩
    · rintro ⟨w, hw, h⟩; cases h; simpa using hw.symm
  | seq a b iha ihb =>
    simp only [run, List.mem_flatMap]
    constructor
    · rintro ⟨r, h1, h2⟩
      obtain ⟨w, rfl, hw⟩ := (iha hr.1 _ _).1 h1
      obtain ⟨w', rfl, hw'⟩ := (ihb hr.2 _ _).1 h2
      exact ⟨w ++ w', by simp, .seq hw hw'⟩
    · rintro ⟨w, rfl, h⟩
      cases h with
      | @seq _ _ u v hu hv =>
        exact ⟨v ++ rest, (iha hr.1 _ _).2 ⟨u, by simp, hu⟩, (ihb hr.2 _ _).2 ⟨v, rfl, hv⟩⟩
  | alt a b iha ihb =>
    simp only [run, List.mem_append]
    constructor
    · rintro (h | h)
      · obtain ⟨w, rfl, hw⟩ := (iha hr.1 _ _).1 h; exact ⟨w, rfl, .altL hw⟩
      · obtain ⟨w, rfl, hw⟩ := (ihb hr.2 _ _).1 h; exact ⟨w, rfl, .altR hw⟩
    · rintro ⟨w, rfl, h⟩
      cases h with
      | altL h => left; exact (iha hr.1 _ _).2 ⟨w, rfl, h⟩
      | altR h => right; exact (ihb hr.2 _ _).2 ⟨w, rfl, h⟩
  | star a ih =>
    simp only [run]
    exact starRun_iff (fun s rest => ih hr s rest) _ _ _ (Nat.le_refl _)
  | lazyStar a ih =>
    simp only [run]
    exact lazyRun_iff (fun s rest => ih hr s rest) _ _ _ (Nat.le_refl _)
  | eol => exact absurd hr (by simp [noEol])

theorem Rgx.match?_some {r : Rgx} (hr : r.noEol) {s t rest : Str} (h : r.match? s = some (t, rest)) :
    s = t ++ rest ∧ r.Lang t := by
  unfold match? at h
  cases hh : (r.run s).head? with
  | none => rw [hh] at h; simp at h
  | some x =>
    rw [hh] at h
    simp only [Option.map_some, Option.some.injEq, Prod.mk.injEq] at h
    obtain ⟨h1, rfl⟩ := h
    have hm : x ∈ r.run s := List.mem_of_head? hh
    obtain ⟨w, rfl, hw⟩ := (mem_run hr _ _).1 hm
    simp at h1
    subst h1
    exact ⟨rfl, hw⟩

theorem Rgx.full_iff {r : Rgx} (hr : r.noEol) (s : Str) : r.full s = true ↔ r.Lang s := by
  unfold full
  simp only [List.any_eq_true]
  constructor
  · rintro ⟨x, hx, he⟩
    have : x = [] := by simpa using he
    subst this
    obtain ⟨w, rfl, hw⟩ := (mem_run hr _ _).1 hx
    simpa using hw
  · intro h
    exact ⟨[], (mem_run hr _ _).2 ⟨s, by simp, h⟩, rfl⟩

theorem Rgx.match?_none {r : Rgx} {s : Str} : r.match? s = none ↔ r.run s = [] := by
  unfold match?; cases r.run s <;> simp

/-! ### Computing particular shapes -/

@[simp] theorem Rgx.run_chr_nil (p) : (Rgx.chr p).run [] = [] := rfl
theorem Rgx.run_chr_cons (p c cs) : (Rgx.chr p).run (c :: cs) = if p c then [cs] else [] := rfl

theorem Rgx.run_str (t s : Str) :
    (Rgx.str t).run s = if t.isPrefixOf s then [s.drop t.length] else [] := by
  induction t generalizing s with
  | nil => simp [str, run]
  | cons c t ih =>
    cases s with
    | nil => simp [str, run, lit]
    | cons d s =>
      simp only [str, run, lit, List.isPrefixOf, List.length_cons, List.drop_succ_cons]
      by_cases h : d = c
      · subst h; simp [ih]
      · have : (d == c) = false := by simpa using h
        have h2 : (c == d) = false := by simpa using fun e => h e.symm
        simp [this, h2]

/-- Greedy iteration of a one-character regex: all suffixes from the shortest to the whole. -/
theorem starRun_chr_head (p : Char → Bool) :
    ∀ n s, s.length ≤ n → (starRun (Rgx.chr p).run n s).head? = some (s.dropWhile p) := by
  intro n
  induction n with
  | zero =>
    intro s h
    have : s = [] := List.length_eq_zero_iff.1 (Nat.le_zero.1 h)
    subst this; rfl
  | succ n IH =>
    intro s h
    cases s with
    | nil => simp [starRun]
    | cons c cs =>
      simp only [starRun, Rgx.run_chr_cons]
      by_cases hc : p c
      · have := IH cs (by simp at h; omega)
        simp [hc, List.dropWhile, this]
      · simp [hc]

/-- Iterating a one-character class before something that cannot start inside the class. -/
theorem starRun_chr_flatMap (p : Char → Bool) (f : Str → List Str)
    (hf : ∀ c cs, p c = true → f (c :: cs) = []) :
    ∀ n s, s.length ≤ n → (starRun (Rgx.chr p).run n s).flatMap f = f (s.dropWhile p) := by
  intro n
  induction n with
  | zero =>
    intro s h
    have : s = [] := List.length_eq_zero_iff.1 (Nat.le_zero.1 h)
    subst this; simp [starRun]
  | succ n IH =>
    intro s h
    cases s with
    | nil => simp [starRun]
    | cons c cs =>
      simp only [starRun, Rgx.run_chr_cons]
      by_cases hc : p c
      · have := IH cs (by simp at h; omega)
        simp [hc, List.dropWhile, this, hf]
      · simp [hc]

theorem Rgx.run_star_chr_seq (p : Char → Bool) (b : Rgx)
    (hb : ∀ c cs, p c = true → b.run (c :: cs) = []) (s : Str) :
    (Rgx.seq (.star (.chr p)) b).run s = b.run (s.dropWhile p) := by
  simp only [run]
  exact starRun_chr_flatMap p b.run hb _ _ (Nat.le_refl _)

theorem Rgx.run_star_chr_head (p : Char → Bool) (s : Str) :
    ((Rgx.star (.chr p)).run s).head? = some (s.dropWhile p) :=
  starRun_chr_head p _ _ (Nat.le_refl _)

theorem Rgx.match?_eq (r : Rgx) (s : Str) :
    r.match? s = (r.run s).head?.map fun rest => (s.take (s.length - rest.length), rest) := rfl

end Pip
