import Verif.Spec.CommandLine
/-! How `Cli.classify1` and `Cli.explode` read the words of `Verif.Spec.CommandLine`. -/

namespace Pip.CmdLine
open Cli

/-! ### The table -/

theorem table_mem : ∀ p ∈ table, p.1 = ['-', letter p.2] ∨ p.1 = '-' :: '-' :: name p.2 := by decide

theorem table_letter (o : Opt) : table.lookup ['-', letter o] = some o := by cases o <;> decide

theorem table_name (o : Opt) : table.lookup ('-' :: '-' :: name o) = some o := by cases o <;> decide

theorem letter_inj {a b : Opt} (h : letter a = letter b) : a = b := by
  have := table_letter a
  rw [h, table_letter] at this
  exact (Option.some.inj this).symm

theorem name_inj {a b : Opt} (h : name a = name b) : a = b := by
  have := table_name a
  rw [h, table_name] at this
  exact (Option.some.inj this).symm

theorem letter_ne_dash (o : Opt) : letter o ≠ '-' := by cases o <;> decide
theorem letter_ne_eq (o : Opt) : letter o ≠ '=' := by cases o <;> decide
theorem name_ne_nil (o : Opt) : name o ≠ [] := by cases o <;> decide
theorem name_noEq (o : Opt) : '=' ∉ name o := by cases o <;> decide

theorem lookup_mem {α β : Type} [BEq α] [LawfulBEq α] {l : List (α × β)} {a : α} {b : β} (h : l.lookup a = some b) : (a, b) ∈ l := by
  induction l with
  | nil => cases h
  | cons p l ih =>
    rw [List.lookup_cons] at h
    split at h
    · rename_i he
      have he := beq_iff_eq.1 he
      cases h
      rw [he]
      exact List.mem_cons_self
    · exact List.mem_cons_of_mem _ (ih h)

theorem lookup_letter {c : Char} {o : Opt} (h : table.lookup ['-', c] = some o) : c = letter o := by
  rcases table_mem _ (lookup_mem h) with h | h
  · simpa using h
  · have h' : name o = [] := by
      have := congrArg List.length h
      simp at this
      simpa using this
    exact absurd h' (name_ne_nil o)

theorem lookup_letter_iff {c : Char} : table.lookup ['-', c] = none ↔ ∀ o, letter o ≠ c := by
  constructor
  · intro h o he
    rw [← he, table_letter] at h
    cases h
  · intro h
    cases he : table.lookup ['-', c] with
    | none => rfl
    | some o => exact absurd (lookup_letter he).symm (h o)

theorem lookup_long {n : Str} {o : Opt} (h : table.lookup ('-' :: '-' :: n) = some o) : n = name o := by
  rcases table_mem _ (lookup_mem h) with h | h
  · simp only [List.cons.injEq, true_and] at h
    exact absurd h.1.symm (letter_ne_dash o)
  · simpa using h

theorem lookup_two {c : Char} {d : Char} {t : Str} (hc : c ≠ '-') : table.lookup ('-' :: c :: d :: t) = none := by
  cases he : table.lookup ('-' :: c :: d :: t) with
  | none => rfl
  | some o =>
    rcases table_mem _ (lookup_mem he) with h | h
    · simp at h
    · simp only [List.cons.injEq, true_and] at h
      exact absurd h.1 hc

theorem table_nodup : table.Nodup := by decide

theorem filter_single {α : Type} {l : List α} (hd : l.Nodup) {p : α → Bool} {x : α} (hx : x ∈ l) (hp : p x = true)
    (hu : ∀ y ∈ l, p y = true → y = x) : l.filter p = [x] := by
  induction l with
  | nil => cases hx
  | cons y l ih =>
    rw [List.nodup_cons] at hd
    rcases List.mem_cons.1 hx with rfl | hx
    · rw [List.filter_cons_of_pos hp, List.filter_eq_nil_iff.2]
      intro z hz hpz
      have := hu z (List.mem_cons_of_mem _ hz) hpz
      exact hd.1 (this ▸ hz)
    · rw [List.filter_cons_of_neg]
      · exact ih hd.2 hx fun z hz => hu z (List.mem_cons_of_mem _ hz)
      · intro hpy
        have := hu y List.mem_cons_self hpy
        exact hd.1 (this ▸ hx)

theorem prefix_long {n : Str} {p : Str × Opt} (hp : p ∈ table) (h : ('-' :: '-' :: n).isPrefixOf p.1 = true) :
    p = ('-' :: '-' :: name p.2, p.2) ∧ n <+: name p.2 := by
  have h := List.isPrefixOf_iff_prefix.1 h
  rcases table_mem p hp with he | he
  · rw [he] at h
    simp only [List.cons_prefix_cons, true_and] at h
    exact absurd h.1.symm (letter_ne_dash _)
  · refine ⟨Prod.ext he rfl, ?_⟩
    rw [he] at h
    simpa only [List.cons_prefix_cons, true_and] using h

theorem filter_abbrev {n : Str} {o : Opt} (h : n <+: name o) (hu : ∀ o', n <+: name o' → o' = o) :
    table.filter (fun p => ('-' :: '-' :: n).isPrefixOf p.1) = [('-' :: '-' :: name o, o)] := by
  refine filter_single table_nodup (lookup_mem (table_name o)) ?_ ?_
  · exact List.isPrefixOf_iff_prefix.2 (by simpa only [List.cons_prefix_cons, true_and] using h)
  · intro p hp hpp
    obtain ⟨he, hx⟩ := prefix_long hp hpp
    have := hu _ hx
    rw [he, this]

theorem abbrev_filter {n : Str} {p : Str × Opt} (h : table.filter (fun p => ('-' :: '-' :: n).isPrefixOf p.1) = [p]) :
    n <+: name p.2 ∧ ∀ o', n <+: name o' → o' = p.2 := by
  have hm : p ∈ table.filter (fun p => ('-' :: '-' :: n).isPrefixOf p.1) := by rw [h]; exact List.mem_cons_self
  rw [List.mem_filter] at hm
  refine ⟨(prefix_long hm.1 hm.2).2, ?_⟩
  intro o' ho
  have : ('-' :: '-' :: name o', o') ∈ table.filter (fun p => ('-' :: '-' :: n).isPrefixOf p.1) := by
    rw [List.mem_filter]
    exact ⟨lookup_mem (table_name o'), List.isPrefixOf_iff_prefix.2 (by simpa only [List.cons_prefix_cons, true_and] using ho)⟩
  rw [h, List.mem_singleton] at this
  rw [← this]

theorem filter_none {n : Str} : table.filter (fun p => ('-' :: '-' :: n).isPrefixOf p.1) = [] ↔ ∀ o, ¬n <+: name o := by
  rw [List.filter_eq_nil_iff]
  constructor
  · intro h o ho
    exact h _ (lookup_mem (table_name o)) (List.isPrefixOf_iff_prefix.2 (by simpa only [List.cons_prefix_cons, true_and] using ho))
  · intro h p hp hpp
    exact h _ (prefix_long hp hpp).2

theorem takes_iff (o : Opt) : o.takes = true ↔ HasArg o := by cases o <;> simp [Opt.takes, HasArg]

theorem takes_false (o : Opt) : o.takes = false ↔ ¬HasArg o := by rw [← takes_iff, Bool.not_eq_true]

/-! ### Cutting at `=` -/

theorem cutEq_fst (s : Str) : (cutEq s).1 = s.takeWhile (· != '=') := by
  induction s with
  | nil => rfl
  | cons c s ih => by_cases h : c = '=' <;> simp [cutEq, h, ih]

theorem cutEq_snd (s : Str) : (cutEq s).2 = none ∧ '=' ∉ s ∨ ∃ x, (cutEq s).2 = some x ∧ s = (cutEq s).1 ++ '=' :: x := by
  induction s with
  | nil => exact .inl ⟨rfl, by simp⟩
  | cons c s ih =>
    by_cases h : c = '='
    · exact .inr ⟨s, by simp [cutEq, h], by simp [cutEq, h]⟩
    · rcases ih with ⟨h1, h2⟩ | ⟨x, h1, h2⟩
      · refine .inl ⟨by simp [cutEq, h, h1], ?_⟩
        simp [h2, Ne.symm h]
      · refine .inr ⟨x, by simp [cutEq, h, h1], ?_⟩
        simp only [cutEq, if_neg h, List.cons_append]
        exact congrArg _ h2

theorem cutEq_append {a : Str} (h : '=' ∉ a) (t : Str) : cutEq (a ++ '=' :: t) = (a, some t) := by
  induction a with
  | nil => simp [cutEq]
  | cons c a ih =>
    simp only [List.mem_cons, not_or] at h
    simp [cutEq, Ne.symm h.1, ih h.2]

theorem cutEq_self {a : Str} (h : '=' ∉ a) : cutEq a = (a, none) := by
  induction a with
  | nil => rfl
  | cons c a ih =>
    simp only [List.mem_cons, not_or] at h
    simp [cutEq, Ne.symm h.1, ih h.2]

theorem prefix_noEq {n : Str} {o : Opt} (h : n <+: name o) : '=' ∉ n := fun he => name_noEq o (h.subset he)

theorem Means.pre {n : Str} {o : Opt} (h : Means n o) : n <+: name o := by
  rcases h with rfl | h
  · exact List.prefix_rfl
  · exact h.1

/-! ### Words with letters -/

/-- What the letters after the first one say: `p` is an option that needs the next word. -/
inductive Tail : Str → Opt → List Setting → Option Opt → Prop
  | last (o : Opt) (h : ¬HasArg o) : Tail [] o [(o, none)] none
  | lead (o : Opt) (h : HasArg o) : Tail [] o [] (some o)
  | arg (o : Opt) (h : HasArg o) (t : Str) (hn : t ≠ []) (he : t.head? ≠ some '=') : Tail t o [(o, some t)] none
  | eq (o : Opt) (h : HasArg o) (t : Str) : Tail ('=' :: t) o [(o, some t)] none
  | more (o o' : Opt) (h : ¬HasArg o) (t : Str) (ss : List Setting) (p : Option Opt) (r : Tail t o' ss p) :
    Tail (letter o' :: t) o ((o, none) :: ss) p

/-- `attached` and `alone` on what follows a letter -/
def rest (t : Str) (o : Opt) : Except Quit Found :=
  match t with
  | [] => .ok (alone o)
  | '=' :: t => attached t o true true
  | t => attached t o true false

theorem rest_ne {c : Char} (h : c ≠ '=') (t : Str) (o : Opt) : rest (c :: t) o = attached (c :: t) o true false := by
  rw [rest]
  · intro x
    cases x
  · intro x hx
    exact h (List.cons.inj hx).1

theorem rest_more {o o' : Opt} (h : ¬HasArg o) (t : Str) :
    rest (letter o' :: t) o = (rest t o').bind fun r => .ok ((o, none) :: r.1, r.2) := by
  have h1 : rest (letter o' :: t) o = attached (letter o' :: t) o true false := rest_ne (letter_ne_eq o') t o
  rw [h1]
  unfold attached
  rw [(takes_false o).2 h]
  simp only [Bool.false_eq_true, if_false, Bool.not_true, Bool.false_or, decide_eq_true_eq, letter_ne_dash, table_letter]
  cases t with
  | nil => rfl
  | cons d t =>
    by_cases hd : d = '='
    · subst hd
      simp only [if_true]
      rfl
    · simp only [if_neg hd]
      rw [rest_ne hd]
      rfl

theorem Tail.rest {t : Str} {o : Opt} {ss : List Setting} {p : Option Opt} (h : Tail t o ss p) : rest t o = .ok (ss, p, []) := by
  induction h with
  | last o h => simp [CmdLine.rest, alone, (takes_false o).2 h]
  | lead o h => simp [CmdLine.rest, alone, (takes_iff o).2 h]
  | arg o h t hn he =>
    cases t with
    | nil => exact absurd rfl hn
    | cons c t =>
      rw [rest_ne (by simpa using he)]
      simp [attached, (takes_iff o).2 h]
  | eq o h t =>
    rw [CmdLine.rest]
    cases t <;> simp [attached, (takes_iff o).2 h]
  | more o o' h t ss p r ih => rw [rest_more h, ih]; rfl

theorem rest_tail {t : Str} : ∀ {o : Opt} {ss : List Setting} {p : Option Opt}, rest t o = .ok (ss, p, []) → Tail t o ss p := by
  induction t with
  | nil =>
    intro o ss p h
    simp only [rest, alone] at h
    cases ht : o.takes with
    | true =>
      rw [ht] at h
      simp only [if_true, Except.ok.injEq, Prod.mk.injEq] at h
      obtain ⟨rfl, rfl, -⟩ := h
      exact .lead o ((takes_iff o).1 ht)
    | false =>
      rw [ht] at h
      simp only [Bool.false_eq_true, if_false, Except.ok.injEq, Prod.mk.injEq] at h
      obtain ⟨rfl, rfl, -⟩ := h
      exact .last o ((takes_false o).1 ht)
  | cons c t ih =>
    intro o ss p h
    cases ht : o.takes with
    | true =>
      have ha := (takes_iff o).1 ht
      by_cases hc : c = '='
      · subst hc
        rw [rest] at h
        have : attached t o true true = .ok ([(o, some t)], none, []) := by cases t <;> simp [attached, ht]
        rw [this] at h
        simp only [Except.ok.injEq, Prod.mk.injEq] at h
        obtain ⟨rfl, rfl, -⟩ := h
        exact .eq o ha t
      · rw [rest_ne hc] at h
        unfold attached at h
        simp only [ht, if_true, Except.ok.injEq, Prod.mk.injEq] at h
        obtain ⟨rfl, rfl, -⟩ := h
        exact .arg o ha _ (by simp) (by simpa using hc)
    | false =>
      have ha := (takes_false o).1 ht
      by_cases hc : c = '='
      · subst hc
        rw [rest] at h
        cases t <;> (rw [attached] at h; simp [ht] at h)
      · cases hl : table.lookup ['-', c] with
        | none =>
          rw [rest_ne hc] at h
          unfold attached at h
          rw [ht] at h
          by_cases hd : c = '-'
          · simp [hd] at h
          · simp [hd, hl] at h
        | some o' =>
          rw [lookup_letter hl, rest_more ha] at h
          cases hr : rest t o' with
          | error e => rw [hr] at h; cases h
          | ok r =>
            obtain ⟨ss', p', ex⟩ := r
            rw [hr] at h
            simp only [Except.bind, Except.ok.injEq, Prod.mk.injEq] at h
            obtain ⟨rfl, rfl, rfl⟩ := h
            rw [lookup_letter hl]
            exact .more o o' ha t _ _ (ih hr)

/-- A word with letters -/
theorem classify_letter (o : Opt) (t : Str) : ∃ o' b1 b2 x, classify1 ('-' :: letter o :: t) = .ok (.opt o' b1 b2 x) ∧
    explode o' b1 b2 x = rest t o := by
  cases t with
  | nil =>
    refine ⟨o, true, false, none, ?_, rfl⟩
    unfold classify1
    simp only [table_letter]
    have : isSingle ['-', letter o] = true := by cases o <;> rfl
    rw [this]
  | cons d t =>
    by_cases hd : d = '='
    · subst hd
      refine ⟨o, true, true, some t, ?_, by rw [rest]; rfl⟩
      have hc : cutEq ('-' :: letter o :: '=' :: t) = (['-', letter o], some t) :=
        cutEq_append (a := ['-', letter o]) (by simp [Ne.symm (letter_ne_eq o)]) t
      have hs : isSingle ['-', letter o] = true := by cases o <;> rfl
      unfold classify1
      simp only [lookup_two (letter_ne_dash o), hc, table_letter, hs, reduceCtorEq, if_false]
    · refine ⟨o, true, false, some (d :: t), ?_, ?_⟩
      · have hc : table.lookup (cutEq ('-' :: letter o :: d :: t)).1 = none := by
          have h1 : (cutEq ('-' :: letter o :: d :: t)).1 = '-' :: letter o :: d :: (cutEq t).1 := by
            simp [cutEq, letter_ne_eq, hd]
          rw [h1, lookup_two (letter_ne_dash o)]
        unfold classify1
        simp only [lookup_two (letter_ne_dash o), hc, reduceCtorEq, if_false]
        split
        · rename_i h; cases h
        · split
          · rename_i h; exact absurd (List.cons.inj h).1 (letter_ne_dash o)
          · rename_i h
            obtain ⟨rfl, rfl⟩ := List.cons.inj h
            rw [table_letter]
          · rename_i h; cases h
      · rw [rest_ne hd]
        rfl

theorem Tail.flags {os : List Opt} (h : ∀ o ∈ os, ¬HasArg o) {t : Str} {o : Opt} {ss : List Setting} {p : Option Opt}
    (r : Tail t o ss p) : ∃ o1 t1, letters os ++ letter o :: t = letter o1 :: t1 ∧ Tail t1 o1 (CmdLine.flags os ++ ss) p := by
  induction os with
  | nil => exact ⟨o, t, rfl, r⟩
  | cons a os ih =>
    obtain ⟨o1, t1, h1, h2⟩ := ih fun o ho => h o (List.mem_cons_of_mem _ ho)
    exact ⟨a, letter o1 :: t1, congrArg _ h1, .more a o1 (h a List.mem_cons_self) _ _ _ h2⟩

theorem Tail.split {t : Str} {o : Opt} {ss : List Setting} {p : Option Opt} (h : Tail t o ss p) :
    ∃ os o' t' ss', (∀ x ∈ os, ¬HasArg x) ∧ letter o :: t = letters os ++ letter o' :: t' ∧ ss = CmdLine.flags os ++ ss' ∧
      ((¬HasArg o' ∧ t' = [] ∧ ss' = [(o', none)] ∧ p = none) ∨ (HasArg o' ∧ t' = [] ∧ ss' = [] ∧ p = some o') ∨
        (HasArg o' ∧ t' ≠ [] ∧ t'.head? ≠ some '=' ∧ ss' = [(o', some t')] ∧ p = none) ∨
        (HasArg o' ∧ ∃ x, t' = '=' :: x ∧ ss' = [(o', some x)] ∧ p = none)) := by
  induction h with
  | last o h => exact ⟨[], o, [], _, by simp, rfl, rfl, .inl ⟨h, rfl, rfl, rfl⟩⟩
  | lead o h => exact ⟨[], o, [], _, by simp, rfl, rfl, .inr (.inl ⟨h, rfl, rfl, rfl⟩)⟩
  | arg o h t hn he => exact ⟨[], o, t, _, by simp, rfl, rfl, .inr (.inr (.inl ⟨h, hn, he, rfl, rfl⟩))⟩
  | eq o h t => exact ⟨[], o, _, _, by simp, rfl, rfl, .inr (.inr (.inr ⟨h, t, rfl, rfl, rfl⟩))⟩
  | more o o' h t ss p r ih =>
    obtain ⟨os, o2, t2, ss2, h1, h2, h3, h4⟩ := ih
    refine ⟨o :: os, o2, t2, ss2, ?_, ?_, ?_, h4⟩
    · intro x hx
      rcases List.mem_cons.1 hx with rfl | hx
      · exact h
      · exact h1 x hx
    · rw [h2]; rfl
    · rw [h3]; rfl

/-! ### Words with names -/

theorem classify_long {n : Str} (hn : n ≠ []) {o : Opt} (h : Means n o) : ∃ b, classify1 ('-' :: '-' :: n) = .ok (.opt o b false none) := by
  cases hl : table.lookup ('-' :: '-' :: n) with
  | some o' =>
    refine ⟨isSingle ('-' :: '-' :: n), ?_⟩
    have : o' = o := by
      have he := lookup_long hl
      rcases h with h | h
      · exact name_inj (he ▸ h)
      · exact h.2 _ (he ▸ List.prefix_rfl)
    unfold classify1
    simp only [hl, this]
  | none =>
    rcases h with rfl | h
    · rw [table_name] at hl; cases hl
    · have hc : cutEq ('-' :: '-' :: n) = ('-' :: '-' :: n, none) :=
        cutEq_self (by simp [prefix_noEq h.1])
      refine ⟨false, ?_⟩
      unfold classify1
      simp only [hl, reduceCtorEq, if_false, hc, filter_abbrev h.1 h.2]
      rfl

theorem classify_longEq {n : Str} {o : Opt} (h : Means n o) (t : Str) :
    ∃ b, classify1 ('-' :: '-' :: (n ++ '=' :: t)) = .ok (.opt o b true (some t)) := by
  have hl : table.lookup ('-' :: '-' :: (n ++ '=' :: t)) = none := by
    cases he : table.lookup ('-' :: '-' :: (n ++ '=' :: t)) with
    | none => rfl
    | some o' =>
      have := lookup_long he
      exact absurd (this ▸ List.mem_append_right _ List.mem_cons_self) (name_noEq o')
  have hc : cutEq ('-' :: '-' :: (n ++ '=' :: t)) = ('-' :: '-' :: n, some t) :=
    cutEq_append (a := '-' :: '-' :: n) (by simp [prefix_noEq h.pre]) t
  cases hx : table.lookup ('-' :: '-' :: n) with
  | some o' =>
    have : o' = o := by
      have he := lookup_long hx
      rcases h with h | h
      · exact name_inj (he ▸ h)
      · exact h.2 _ (he ▸ List.prefix_rfl)
    refine ⟨isSingle ('-' :: '-' :: n), ?_⟩
    unfold classify1
    simp only [hl, reduceCtorEq, if_false, hc, hx, this]
  | none =>
    rcases h with rfl | h
    · rw [table_name] at hx; cases hx
    · refine ⟨false, ?_⟩
      unfold classify1
      simp only [hl, reduceCtorEq, if_false, hc, hx, filter_abbrev h.1 h.2]
      rfl

/-! ### Arguments -/

theorem takeWhile_digits {s : Str} : ∀ c ∈ s.takeWhile isDigit, isDigit c = true := by
  induction s with
  | nil => simp
  | cons a s ih =>
    intro c hc
    by_cases h : isDigit a = true
    · rw [List.takeWhile_cons_of_pos h] at hc
      rcases List.mem_cons.1 hc with rfl | hc
      · exact h
      · exact ih c hc
    · rw [List.takeWhile_cons_of_neg h] at hc
      cases hc

theorem digitsEnd_iff (s : Str) : digitsEnd s = true ↔
    ∃ i e : Str, i ≠ [] ∧ (∀ c ∈ i, isDigit c = true) ∧ (e = [] ∨ e = ['\n']) ∧ s = i ++ e := by
  have hnl : isDigit '\n' = false := by decide
  constructor
  · intro h
    simp only [digitsEnd, Bool.and_eq_true, Bool.or_eq_true, decide_eq_true_eq] at h
    exact ⟨_, _, h.1, takeWhile_digits, h.2, (List.takeWhile_append_dropWhile).symm⟩
  · rintro ⟨i, e, hi, hd, he, rfl⟩
    have h1 : (i ++ e).takeWhile isDigit = i := by
      rw [List.takeWhile_append_of_pos hd]
      rcases he with rfl | rfl <;> simp [hnl]
    have h2 : (i ++ e).dropWhile isDigit = e := by
      rw [List.dropWhile_append_of_pos hd]
      rcases he with rfl | rfl <;> simp [hnl]
    simp only [digitsEnd, h1, h2, Bool.and_eq_true, Bool.or_eq_true, decide_eq_true_eq]
    exact ⟨hi, he⟩

theorem negNumber_iff (w : Str) : negNumber w = true ↔ NegNumber w := by
  have hdot : isDigit '.' = false := by decide
  constructor
  · intro h
    unfold negNumber at h
    split at h
    · rename_i s
      rw [Bool.or_eq_true] at h
      rcases h with h | h
      · obtain ⟨i, e, hi, hd, he, rfl⟩ := (digitsEnd_iff s).1 h
        exact ⟨i, [], e, hd, by simp, he, .inl ⟨hi, rfl⟩⟩
      · split at h
        · rename_i r hr
          obtain ⟨f, e, hf, hd, he, rfl⟩ := (digitsEnd_iff r).1 h
          refine ⟨s.takeWhile isDigit, f, e, takeWhile_digits, hd, he, .inr ⟨hf, ?_⟩⟩
          rw [← hr, List.takeWhile_append_dropWhile]
        · cases h
    · cases h
  · rintro ⟨i, f, e, hi, hf, he, ⟨h, rfl⟩ | ⟨h, rfl⟩⟩
    · simp only [negNumber, Bool.or_eq_true]
      exact .inl ((digitsEnd_iff _).2 ⟨i, e, h, hi, he, rfl⟩)
    · simp only [negNumber, Bool.or_eq_true]
      refine .inr ?_
      have : (i ++ '.' :: (f ++ e)).dropWhile isDigit = '.' :: (f ++ e) := by
        rw [List.dropWhile_append_of_pos hi]
        simp [hdot]
      rw [this]
      exact (digitsEnd_iff _).2 ⟨f, e, h, hf, he, rfl⟩

theorem other_eq (a : Str) : (classify1.other a = .ok .arg ∧ (NegNumber a ∨ ' ' ∈ a)) ∨
    (classify1.other a = .ok .unknown ∧ ¬(NegNumber a ∨ ' ' ∈ a)) := by
  unfold classify1.other
  by_cases h : (negNumber a || a.elem ' ') = true
  · rw [if_pos h]
    rw [Bool.or_eq_true, negNumber_iff, List.elem_iff] at h
    exact .inl ⟨rfl, h⟩
  · rw [if_neg h]
    rw [Bool.or_eq_true, negNumber_iff, List.elem_iff] at h
    exact .inr ⟨rfl, h⟩

theorem lookup_noLetter {c : Char} (hc : c ≠ '-') (h : ∀ o, letter o ≠ c) (t : Str) : table.lookup ('-' :: c :: t) = none := by
  cases t with
  | nil => exact lookup_letter_iff.2 h
  | cons d t => exact lookup_two hc

theorem classify_noLetter {c : Char} (hc : c ≠ '-') (h : ∀ o, letter o ≠ c) (t : Str) :
    classify1 ('-' :: c :: t) = classify1.other ('-' :: c :: t) := by
  have hl : table.lookup (cutEq ('-' :: c :: t)).1 = none := by
    by_cases he : c = '='
    · subst he
      have : (cutEq ('-' :: '=' :: t)).1 = ['-'] := by simp [cutEq]
      rw [this]
      decide
    · have : (cutEq ('-' :: c :: t)).1 = '-' :: c :: (cutEq t).1 := by simp [cutEq, he]
      rw [this, lookup_noLetter hc h]
  unfold classify1
  simp only [lookup_noLetter hc h, hl, reduceCtorEq, if_false]
  split
  · rename_i h; cases h
  · rfl

/-- What is known about a word beginning with two dashes -/
def LongCase (n : Str) : Except Quit Cli.Kind → Prop
  | .ok .arg => (∀ o, ¬n.takeWhile (· != '=') <+: name o) ∧ (NegNumber ('-' :: '-' :: n) ∨ ' ' ∈ '-' :: '-' :: n)
  | .ok .dashes => False
  | .ok (.opt o _ sep x) => (x = none ∧ Means n o) ∨ (sep = true ∧ ∃ t m, x = some t ∧ n = m ++ '=' :: t ∧ Means m o)
  | .ok .unknown => (∀ o, ¬n.takeWhile (· != '=') <+: name o) ∧ ¬(NegNumber ('-' :: '-' :: n) ∨ ' ' ∈ '-' :: '-' :: n)
  | .error _ => ∃ o, n.takeWhile (· != '=') <+: name o

theorem classify_dashes (n : Str) : LongCase n (classify1 ('-' :: '-' :: n)) := by
  have hcut : (cutEq ('-' :: '-' :: n)).1 = '-' :: '-' :: n.takeWhile (· != '=') := by
    rw [cutEq_fst]
    simp
  have hself : ∀ {o : Opt}, (cutEq ('-' :: '-' :: n)).2 = none → Means (n.takeWhile (· != '=')) o → Means n o := by
    intro o he hm
    have : n.takeWhile (· != '=') = n := by
      rcases cutEq_snd ('-' :: '-' :: n) with ⟨_, h⟩ | ⟨x, h, _⟩
      · have h1 := cutEq_self h
        rw [h1] at hcut
        simpa using hcut.symm
      · rw [h] at he; cases he
    rwa [this] at hm
  have heq : ∀ {x : Str}, (cutEq ('-' :: '-' :: n)).2 = some x → n = n.takeWhile (· != '=') ++ '=' :: x := by
    intro x he
    rcases cutEq_snd ('-' :: '-' :: n) with ⟨h, _⟩ | ⟨y, h, h'⟩
    · rw [h] at he; cases he
    · rw [h] at he
      cases he
      rw [hcut] at h'
      simpa using h'
  unfold classify1
  cases hl : table.lookup ('-' :: '-' :: n) with
  | some o => exact .inl ⟨rfl, .inl (lookup_long hl)⟩
  | none =>
    simp only [reduceCtorEq, if_false]
    split
    · rename_i x o h1 h2
      refine .inr ⟨rfl, x, _, rfl, heq h1, .inl ?_⟩
      rw [hcut] at h2
      exact lookup_long h2
    · rw [hcut]
      split
      · rename_i p hp
        have hm := abbrev_filter hp
        cases hx : (cutEq ('-' :: '-' :: n)).2 with
        | none => exact .inl ⟨rfl, hself hx (.inr hm)⟩
        | some x => exact .inr ⟨rfl, x, _, rfl, heq hx, .inr hm⟩
      · rename_i hp
        rcases other_eq ('-' :: '-' :: n) with ⟨h, h'⟩ | ⟨h, h'⟩
        · rw [h]; exact ⟨filter_none.1 hp, h'⟩
        · rw [h]; exact ⟨filter_none.1 hp, h'⟩
      · rename_i h1 h2
        refine Classical.byContradiction fun hx => h2 (filter_none.2 ?_)
        simpa [LongCase] using hx

/-! ### Words -/

theorem classify_arg {a : Str} (hd : a ≠ s% "--") : classify1 a = .ok .arg ↔ Plain a := by
  constructor
  · intro h
    match a, hd, h with
    | [], _, _ => exact .noDash _ (by simp)
    | c :: r, hd, h =>
      by_cases hc : c = '-'
      · subst hc
        match r, hd, h with
        | [], _, _ => exact .dash
        | c :: t, hd, h =>
          by_cases hc : c = '-'
          · subst hc
            have := classify_dashes t
            rw [h] at this
            refine .other _ ?_ ?_ this.2
            · intro o x hx
              simp only [List.cons.injEq, true_and] at hx
              exact letter_ne_dash o hx.1.symm
            · intro n o hn
              simp only [List.cons.injEq, true_and] at hn
              subst hn
              exact this.1 o
          · by_cases hl : ∃ o, letter o = c
            · obtain ⟨o, rfl⟩ := hl
              obtain ⟨_, _, _, _, h', _⟩ := classify_letter o t
              rw [h] at h'
              cases h'
            · simp only [not_exists] at hl
              rw [classify_noLetter hc hl] at h
              rcases other_eq ('-' :: c :: t) with ⟨_, h'⟩ | ⟨h', _⟩
              · refine .other _ ?_ ?_ h'
                · intro o x hx
                  simp only [List.cons.injEq, true_and] at hx
                  exact hl o hx.1.symm
                · intro n o hn
                  simp only [List.cons.injEq, true_and] at hn
                  exact absurd hn.1 hc
              · rw [h'] at h; cases h
      · exact .noDash _ (by simpa using hc)
  · intro h
    cases h with
    | noDash _ h =>
      cases a with
      | nil => rfl
      | cons c a =>
        unfold classify1
        split
        · rename_i he; rw [he] at h; exact absurd rfl h
        · rfl
    | dash => decide
    | other _ h1 h2 h =>
      match a, hd, h1, h2, h with
      | [], _, _, _, h => rfl
      | c :: r, hd, h1, h2, h =>
        by_cases hc : c = '-'
        · subst hc
          match r, hd, h1, h2, h with
          | [], _, _, _, _ => decide
          | c :: t, hd, h1, h2, h =>
            by_cases hc : c = '-'
            · subst hc
              have := classify_dashes t
              have h2 := fun o => h2 t o rfl
              revert this
              cases hk : classify1 ('-' :: '-' :: t) with
              | error e =>
                intro h'
                obtain ⟨o, ho⟩ := h'
                exact absurd ho (h2 o)
              | ok k =>
                cases k with
                | arg => intro _; rfl
                | dashes => exact False.elim
                | unknown => intro h'; exact absurd h h'.2
                | opt o b1 b2 x =>
                  intro h'
                  exfalso
                  rcases h' with ⟨_, h'⟩ | ⟨_, t', m, _, rfl, h'⟩
                  · refine h2 o ?_
                    have := prefix_noEq h'.pre
                    have he : t.takeWhile (· != '=') = t := by
                      rw [← cutEq_fst, cutEq_self this]
                    rw [he]
                    exact h'.pre
                  · refine h2 o ?_
                    have := prefix_noEq h'.pre
                    rw [← cutEq_fst, cutEq_append this]
                    exact h'.pre
            · have hl : ∀ o, letter o ≠ c := fun o ho => h1 o t (by rw [ho])
              rw [classify_noLetter hc hl]
              rcases other_eq ('-' :: c :: t) with ⟨h', _⟩ | ⟨_, h'⟩
              · exact h'
              · exact absurd h h'
        · unfold classify1
          split
          · rename_i he; exact absurd (List.cons.inj he).1 hc
          · rfl

/-- A word with options: complete ones, and one that needs the next word -/
def Parsed (a : Str) (ss : List Setting) : Option Opt → Prop
  | none => Word a ss
  | some o => Lead a ss o

theorem Tail.parsed {t : Str} {o : Opt} {ss : List Setting} {p : Option Opt} (hh : Tail t o ss p) : Parsed ('-' :: letter o :: t) ss p := by
  obtain ⟨os, o', t', ss', h1, h2, h3, h4⟩ := hh.split
  rw [h2, h3]
  rcases h4 with ⟨h, rfl, rfl, rfl⟩ | ⟨h, rfl, rfl, rfl⟩ | ⟨h, hn, he, rfl, rfl⟩ | ⟨h, x, rfl, rfl, rfl⟩
  · have := Word.short (os ++ [o']) (by simp) (by
      intro y hy
      rcases List.mem_append.1 hy with hy | hy
      · exact h1 y hy
      · rw [List.mem_singleton.1 hy]; exact h)
    simpa [letters, CmdLine.flags, Parsed] using this
  · have := Lead.short os h1 o' h
    simpa [Parsed] using this
  · exact .shortArg os h1 o' h t' hn he
  · exact .shortEq os h1 o' h x

theorem parsed_iff (a : Str) (ss : List Setting) (p : Option Opt) :
    (∃ o b1 b2 x, classify1 a = .ok (.opt o b1 b2 x) ∧ explode o b1 b2 x = .ok (ss, p, []) ∧ a ≠ s% "--") ↔ Parsed a ss p := by
  have hlet : ∀ {o : Opt} {t : Str} {ss : List Setting} {p : Option Opt}, Tail t o ss p →
      ∃ o' b1 b2 x, classify1 ('-' :: letter o :: t) = .ok (.opt o' b1 b2 x) ∧ explode o' b1 b2 x = .ok (ss, p, []) ∧
        '-' :: letter o :: t ≠ s% "--" := by
    intro o t ss p h
    obtain ⟨o', b1, b2, x, h1, h2⟩ := classify_letter o t
    refine ⟨o', b1, b2, x, h1, h2.trans h.rest, ?_⟩
    intro he
    exact letter_ne_dash o (List.cons.inj (List.cons.inj he).2).1
  constructor
  · rintro ⟨o, b1, b2, x, h, he, hd⟩
    match a, h, hd with
    | [], h, _ => cases h
    | c :: r, h, hd =>
      by_cases hc : c = '-'
      · subst hc
        match r, h, hd with
        | [], h, _ => revert h; simp [show classify1 ['-'] = .ok .arg by decide]
        | c :: t, h, hd =>
          by_cases hc : c = '-'
          · subst hc
            have hn : t ≠ [] := by rintro rfl; exact hd rfl
            have := classify_dashes t
            rw [h] at this
            rcases this with ⟨rfl, hm⟩ | ⟨rfl, t', m, rfl, rfl, hm⟩
            · simp only [explode, alone, Except.ok.injEq] at he
              cases ht : o.takes with
              | true =>
                rw [ht] at he
                simp only [if_true, Prod.mk.injEq] at he
                obtain ⟨rfl, rfl, -⟩ := he
                exact .long t hn o ((takes_iff o).1 ht) hm
              | false =>
                rw [ht] at he
                simp only [Bool.false_eq_true, if_false, Prod.mk.injEq] at he
                obtain ⟨rfl, rfl, -⟩ := he
                exact .long t hn o ((takes_false o).1 ht) hm
            · simp only [explode] at he
              cases ht : o.takes with
              | true =>
                have : attached t' o b1 true = .ok ([(o, some t')], none, []) := by cases t' <;> (rw [attached]; simp [ht])
                rw [this] at he
                simp only [Except.ok.injEq, Prod.mk.injEq] at he
                obtain ⟨rfl, rfl, -⟩ := he
                exact .longEq m o ((takes_iff o).1 ht) hm t'
              | false =>
                exfalso
                cases t' <;> (rw [attached] at he; simp [ht] at he)
          · by_cases hl : ∃ o, letter o = c
            · obtain ⟨o1, rfl⟩ := hl
              obtain ⟨o', b1', b2', x', h1, h2⟩ := classify_letter o1 t
              rw [h] at h1
              cases h1
              rw [h2] at he
              exact (rest_tail he).parsed
            · simp only [not_exists] at hl
              rw [classify_noLetter hc hl] at h
              rcases other_eq ('-' :: c :: t) with ⟨h', _⟩ | ⟨h', _⟩ <;> (rw [h'] at h; cases h)
      · exfalso
        have : classify1 (c :: r) = .ok .arg := by
          unfold classify1
          split
          · rename_i he; exact absurd (List.cons.inj he).1 hc
          · rfl
        rw [this] at h
        cases h
  · intro h
    cases p with
    | none =>
      cases h with
      | short os hn h =>
        obtain ⟨os', o, rfl⟩ : ∃ os' o, os = os' ++ [o] := ⟨os.dropLast, os.getLast hn, (List.dropLast_concat_getLast hn).symm⟩
        obtain ⟨o1, t1, h1, h2⟩ := Tail.flags (fun x hx => h x (List.mem_append_left _ hx)) (Tail.last o (h o (by simp)))
        have e1 : letters (os' ++ [o]) = letter o1 :: t1 := by rw [← h1]; simp [letters]
        have e2 : flags (os' ++ [o]) = flags os' ++ [(o, none)] := by simp [flags]
        rw [e1, e2]
        exact hlet h2
      | shortArg os h o ho t hn he =>
        obtain ⟨o1, t1, h1, h2⟩ := Tail.flags h (Tail.arg o ho t hn he)
        rw [h1]
        exact hlet h2
      | shortEq os h o ho t =>
        obtain ⟨o1, t1, h1, h2⟩ := Tail.flags h (Tail.eq o ho t)
        rw [h1]
        exact hlet h2
      | long n hn o ho h =>
        obtain ⟨b, hb⟩ := classify_long hn h
        refine ⟨o, b, false, none, hb, ?_, ?_⟩
        · simp [explode, alone, (takes_false o).2 ho]
        · intro he
          exact hn (List.cons.inj (List.cons.inj he).2).2
      | longEq n o ho h t =>
        obtain ⟨b, hb⟩ := classify_longEq h t
        refine ⟨o, b, true, some t, hb, ?_, ?_⟩
        · simp only [explode]
          cases t <;> (rw [attached]; simp [(takes_iff o).2 ho])
        · intro he
          have := (List.cons.inj (List.cons.inj he).2).2
          simp at this
    | some o' =>
      cases h with
      | short os h o ho =>
        obtain ⟨o1, t1, h1, h2⟩ := Tail.flags h (Tail.lead _ ho)
        rw [h1]
        simpa using hlet h2
      | long n hn o ho h =>
        obtain ⟨b, hb⟩ := classify_long hn h
        refine ⟨_, b, false, none, hb, ?_, ?_⟩
        · simp [explode, alone, (takes_iff _).2 ho]
        · intro he
          exact hn (List.cons.inj (List.cons.inj he).2).2

end Pip.CmdLine
