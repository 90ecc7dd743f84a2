import Verif.Spec.RegexClass
import Verif.Lemmas.Rex
/-!
# The parser of regular expressions reads the grammar
-/

namespace Pip.Rex
open Re

/-! ### Characters -/

theorem char_ext {c d : Char} (h : c.toNat = d.toNat) : c = d := by
  apply Char.ext
  exact UInt32.toNat_inj.1 h

theorem swap_iff (c d : Char) (hc : c.toNat < 128) (hd : d.toNat < 128) :
    (c = d ∨ (isUpperAZ d || isLowerAZ d) = true ∧ c = asciiSwap d) ↔ c.toLower = d.toLower := by
  have key : ∀ a < 128, ∀ b < 128, ((Char.ofNat a = Char.ofNat b ∨
      (isUpperAZ (Char.ofNat b) || isLowerAZ (Char.ofNat b)) = true ∧ Char.ofNat a = asciiSwap (Char.ofNat b)) ↔
      (Char.ofNat a).toLower = (Char.ofNat b).toLower) := by decide +kernel
  have := key c.toNat hc d.toNat hd
  simpa using this

theorem same_iff (db : CharDb) (f : Flags) (c d : Char) :
    Env.same ⟨db, f⟩ c d = true ↔ c = d ∨ f.i = true ∧ SameLetter db f c d := by
  have halpha : (d.isAlpha = true) ↔ (isUpperAZ d || isLowerAZ d) = true := by
    simp [Char.isAlpha, Char.isUpper, Char.isLower, isUpperAZ, isLowerAZ, UInt32.le_iff_toNat_le]
  simp only [Env.same, Bool.or_eq_true, beq_iff_eq, Bool.and_eq_true, List.elem_eq_mem, decide_eq_true_eq]
  by_cases hcd : c = d
  · simp [hcd]
  · simp only [hcd, false_or]
    refine and_congr_right fun _ => ?_
    simp only [Env.variants, SameLetter, isAscii, decide_eq_true_eq]
    by_cases hd : d.toNat < 128
    · rw [if_pos hd]
      by_cases hl : (isUpperAZ d || isLowerAZ d) = true
      · rw [if_pos hl]
        by_cases hc : c.toNat < 128
        · rw [if_pos (show c.toNat < 128 ∧ d.toNat < 128 from ⟨hc, hd⟩), ← swap_iff c d hc hd]
          cases ha : f.a <;> simp [hl, hcd, hc]
        · rw [if_neg (show ¬ (c.toNat < 128 ∧ d.toNat < 128) from fun h => hc h.1)]
          have hs : c ≠ asciiSwap d := by
            rintro rfl
            apply hc
            have key : ∀ b < 128, (asciiSwap (Char.ofNat b)).toNat < 128 := by decide +kernel
            simpa using key d.toNat hd
          cases ha : f.a <;> simp [hs, hc, halpha.2 hl]
      · rw [if_neg hl]
        by_cases hc : c.toNat < 128
        · rw [if_pos (show c.toNat < 128 ∧ d.toNat < 128 from ⟨hc, hd⟩), ← swap_iff c d hc hd]
          simp [hl, hcd]
        · rw [if_neg (show ¬ (c.toNat < 128 ∧ d.toNat < 128) from fun h => hc h.1)]
          simp only [hd, halpha, hl]
          simp
    · rw [if_neg hd, if_neg (show ¬ (c.toNat < 128 ∧ d.toNat < 128) from fun h => hd h.2)]
      cases ha : f.a <;> simp [hd]

theorem chr_ext {p q : Char → Prop} (h : ∀ c, p c ↔ q c) : Meaning.chr p = Meaning.chr q := by
  rw [show p = q from funext fun c => propext (h c)]

theorem pos_ext {p q : Str → Str → Prop} (h : ∀ a b, p a b ↔ q a b) : Meaning.pos p = Meaning.pos q := by
  rw [show p = q from funext fun a => funext fun b => propext (h a b)]

theorem one_has (db : CharDb) (f : Flags) (c d : Char) : (Item.one c).has ⟨db, f⟩ d = true ↔ c = d ∨ f.i = true ∧ SameLetter db f c d := by
  rw [← same_iff]
  simp only [Item.has, Item.plain, Env.same, Bool.or_eq_true, Bool.and_eq_true, List.any_eq_true, List.elem_eq_mem, decide_eq_true_eq,
    beq_iff_eq]
  constructor
  · rintro (h | ⟨h, e, he, rfl⟩)
    · exact .inl h
    · exact .inr ⟨h, he⟩
  · rintro (h | ⟨h, he⟩)
    · exact .inl h
    · exact .inr ⟨h, c, he, rfl⟩

theorem range_has (db : CharDb) (f : Flags) (a b d : Char) : (Item.range a b).has ⟨db, f⟩ d = true ↔
    ∃ c : Char, a.toNat ≤ c.toNat ∧ c.toNat ≤ b.toNat ∧ (c = d ∨ f.i = true ∧ SameLetter db f c d) := by
  simp only [← same_iff]
  simp only [Item.has, Item.plain, Env.same, Bool.or_eq_true, Bool.and_eq_true, List.any_eq_true, List.elem_eq_mem, decide_eq_true_eq,
    beq_iff_eq]
  constructor
  · rintro (h | ⟨h, e, he, h1, h2⟩)
    · exact ⟨d, h.1, h.2, .inl rfl⟩
    · exact ⟨e, h1, h2, .inr ⟨h, he⟩⟩
  · rintro ⟨c, h1, h2, h | ⟨h, he⟩⟩
    · subst h
      exact .inl ⟨h1, h2⟩
    · exact .inr ⟨h, c, he, h1, h2⟩

theorem isDigit09_iff (c : Char) : isDigit09 c = c.isDigit := by
  simp [isDigit09, Char.isDigit, UInt32.le_iff_toNat_le]

theorem isUpperAZ_iff (c : Char) : isUpperAZ c = c.isUpper := by
  simp [isUpperAZ, Char.isUpper, UInt32.le_iff_toNat_le]

theorem isLowerAZ_iff (c : Char) : isLowerAZ c = c.isLower := by
  simp [isLowerAZ, Char.isLower, UInt32.le_iff_toNat_le]

theorem digit_has (db : CharDb) (f : Flags) (c : Char) : Cat.digit.has ⟨db, f⟩ c = true ↔ (reCats db f).digit c := by
  simp only [Cat.has, reCats, isDigit09_iff]
  cases f.a <;> simp

theorem space_has (db : CharDb) (f : Flags) (c : Char) : Cat.space.has ⟨db, f⟩ c = true ↔ (reCats db f).space c := by
  simp only [Cat.has, reCats, asciiSpace]
  cases f.a <;> simp

theorem word_has (db : CharDb) (f : Flags) (c : Char) : Cat.word.has ⟨db, f⟩ c = true ↔ (reCats db f).word c := by
  simp only [Cat.has, reCats, isAscii, asciiWord, isDigit09_iff, isUpperAZ_iff, isLowerAZ_iff]
  by_cases h : c.toNat < 128
  · simp [h, Char.isAlphanum, Char.isAlpha]
  · simp [h]

/-! ### Sets -/

section
variable {db : CharDb} {f : Flags}

/-- Items match what a predicate says. -/
def Has (E : Env) (l : List Item) (p : Char → Prop) : Prop := ∀ c, l.any (·.has E c) = true ↔ p c

theorem has_one {it : Item} {E : Env} {p : Char → Prop} (h : ∀ c, it.has E c = true ↔ p c) : Has E [it] p := by
  intro c
  simp [h]

theorem has_cons {it : Item} {l : List Item} {E : Env} {p q : Char → Prop} (h : ∀ c, it.has E c = true ↔ p c) (h' : Has E l q) :
    Has E (it :: l) fun c => p c ∨ q c := by
  intro c
  rw [List.any_cons, Bool.or_eq_true, h, h' c]

theorem catText (t : Str) (p : Char → Prop) (h : CatText (reCats db f) t p) :
    ∃ c it, t = ['\\', c] ∧ catEsc c = some it ∧ c.isAlpha = true ∧ c ≠ 'A' ∧ c ≠ 'Z' ∧ c ≠ 'b' ∧ c ≠ 'B' ∧ (∀ d, it.has ⟨db, f⟩ d = true ↔ p d) := by
  cases h with
  | digit => exact ⟨'d', _, rfl, rfl, rfl, by decide, by decide, by decide, by decide, fun d => by simp only [← digit_has]; simp [Item.has]⟩
  | notDigit => exact ⟨'D', _, rfl, rfl, rfl, by decide, by decide, by decide, by decide, fun d => by simp only [← digit_has]; simp [Item.has]⟩
  | space => exact ⟨'s', _, rfl, rfl, rfl, by decide, by decide, by decide, by decide, fun d => by simp only [← space_has]; simp [Item.has]⟩
  | notSpace => exact ⟨'S', _, rfl, rfl, rfl, by decide, by decide, by decide, by decide, fun d => by simp only [← space_has]; simp [Item.has]⟩
  | word => exact ⟨'w', _, rfl, rfl, rfl, by decide, by decide, by decide, by decide, fun d => by simp only [← word_has]; simp [Item.has]⟩
  | notWord => exact ⟨'W', _, rfl, rfl, rfl, by decide, by decide, by decide, by decide, fun d => by simp only [← word_has]; simp [Item.has]⟩

theorem escapable_facts {c : Char} (h : escapable c = true) (s : Str) :
    catEsc c = none ∧ simpleEsc c = none ∧ hexEsc c s = none ∧ isDigit09 c = false ∧ isOct c = false ∧ isLetter c = false ∧
      c ≠ 'A' ∧ c ≠ 'Z' ∧ c ≠ 'b' ∧ c ≠ 'B' ∧ c ≠ 'N' ∧ c ≠ '0' ∧ c ≠ 'g' := by
  have hne : ∀ d : Char, d.isAlphanum = true → c ≠ d := by
    rintro d hd rfl
    simp [escapable, hd] at h
  simp only [escapable, Char.isAlphanum, Char.isAlpha, Bool.not_eq_true', Bool.or_eq_false_iff] at h
  refine ⟨?_, ?_, ?_, by rw [isDigit09_iff]; exact h.2, ?_, by rw [isLetter, isUpperAZ_iff, isLowerAZ_iff]; simp [h], hne _ rfl, hne _ rfl,
    hne _ rfl, hne _ rfl, hne _ rfl, hne _ rfl, hne _ rfl⟩
  · simp [catEsc, hne 'd' rfl, hne 'D' rfl, hne 's' rfl, hne 'S' rfl, hne 'w' rfl, hne 'W' rfl]
  · simp [simpleEsc, hne 'a' rfl, hne 'f' rfl, hne 'n' rfl, hne 'r' rfl, hne 't' rfl, hne 'v' rfl]
  · simp [hexEsc, hne 'x' rfl, hne 'u' rfl, hne 'U' rfl]
  · have := h.2
    rw [← isDigit09_iff] at this
    simp only [isDigit09, isOct, Bool.and_eq_false_iff, decide_eq_false_iff_not, Nat.not_le] at this ⊢
    have e0 : '0'.toNat = 48 := rfl
    have e7 : '7'.toNat = 55 := rfl
    have e9 : '9'.toNat = 57 := rfl
    omega

theorem classEsc_escapable {c : Char} (h : escapable c = true) (s : Str) : classEsc (c :: s) = .ok (.one c, s) := by
  obtain ⟨h1, h2, h3, h4, h5, h6, _, _, h7, _, h8, h9, _⟩ := escapable_facts h s
  simp [classEsc, h1, h2, h3, h4, h5, h6, h7, h8]

theorem classEsc_cat {c : Char} {it : Item} (h : catEsc c = some it) (hb : c ≠ 'b') (s : Str) : classEsc (c :: s) = .ok (it, s) := by
  simp [classEsc, h, hb]

theorem setOrdinary_facts {c : Char} (h : setOrdinary c = true) : c ≠ ']' ∧ c ≠ '\\' ∧ c ≠ '-' := by
  simp only [setOrdinary, Bool.not_eq_true', List.elem_eq_mem, decide_eq_false_iff_not, List.mem_cons, List.not_mem_nil, or_false,
    not_or] at h
  exact h

theorem hexDigit_val {c : Char} {n : Nat} (h : HexDigit c n) : hexVal c = some n ∧ n < 16 := by
  have key : ∀ l : Str, l.length = 16 → (∀ i : Fin 16, (l[i.val]?).bind hexVal = some i.val) → l[n]? = some c → hexVal c = some n ∧ n < 16 := by
    intro l hl hd h
    have hn : n < 16 := by
      rw [← hl]
      exact (List.getElem?_eq_some_iff.1 h).1
    have := hd ⟨n, hn⟩
    simp only [h, Option.bind_some] at this
    exact ⟨this, hn⟩
  cases h with
  | lower h => exact key _ rfl (by decide) h
  | upper h => exact key _ rfl (by decide) h

theorem hexEsc_two {a b : Char} {m n : Nat} (ha : HexDigit a m) (hb : HexDigit b n) (s : Str) :
    hexEsc 'x' (a :: b :: s) = some (.ok (Char.ofNat (16 * m + n), s)) := by
  obtain ⟨h1, h2⟩ := hexDigit_val ha
  obtain ⟨h3, h4⟩ := hexDigit_val hb
  have hv : (16 * m + n).isValidChar := .inl (by omega)
  have e : (0 * 16 + m) * 16 + n = 16 * m + n := by omega
  have hc : chrOf (16 * m + n) = .ok (Char.ofNat (16 * m + n)) := by
    rw [chrOf, dif_pos hv, Char.ofNat, dif_pos hv]
  simp only [hexEsc, if_true, takeHex, h1, h3, e, bind, Except.bind, hc, pure, Except.pure]

theorem control_cases {c d : Char} (h : (c, d) ∈ controls) : simpleEsc c = some d ∧ catEsc c = none ∧ c ≠ 'A' ∧ c ≠ 'Z' ∧ c ≠ 'b' ∧ c ≠ 'B' := by
  have : ∀ x ∈ controls, simpleEsc x.1 = some x.2 ∧ catEsc x.1 = none ∧ x.1 ≠ 'A' ∧ x.1 ≠ 'Z' ∧ x.1 ≠ 'b' ∧ x.1 ≠ 'B' := by decide
  exact this _ h

theorem setChar_atom {t : Str} {c : Char} (h : SetChar t c) (s : Str) : classAtom (t ++ s) = .ok (.one c, s) := by
  cases h with
  | plain h => simp [classAtom, (setOrdinary_facts h).2.1]
  | backspace => rfl
  | text h =>
    cases h with
    | esc h => simpa [classAtom] using classEsc_escapable h s
    | @control x d h =>
      obtain ⟨h1, h2, _, _, h3, _⟩ := control_cases h
      simp [classAtom, classEsc, h1, h2, h3]
    | hex ha hb =>
      have h1 : catEsc 'x' = none := by decide
      have h2 : simpleEsc 'x' = none := by decide
      show classEsc ('x' :: _ :: _ :: s) = _
      simp only [classEsc, h1, h2, hexEsc_two ha hb, show ('x' : Char) ≠ 'b' by decide, if_false, bind, Except.bind, pure, Except.pure]

theorem _root_.Pip.Re.SetChar.head {t : Str} {c : Char} (h : SetChar t c) : ∃ d u, t = d :: u ∧ d ≠ ']' ∧ d ≠ '-' := by
  cases h with
  | @plain c h => exact ⟨c, [], rfl, (setOrdinary_facts h).1, (setOrdinary_facts h).2.2⟩
  | backspace => exact ⟨_, _, rfl, by decide, by decide⟩
  | text h => cases h <;> exact ⟨'\\', _, rfl, by decide, by decide⟩

theorem _root_.Pip.Re.Member.head {lit : Char → Char → Prop} {K : Cats} {t : Str} {p : Char → Prop} (h : Member lit K t p) :
    ∃ c u, t = c :: u ∧ c ≠ ']' ∧ c ≠ '-' := by
  cases h with
  | one h => exact h.head
  | range h _ _ =>
    obtain ⟨c, u, rfl, h1⟩ := h.head
    exact ⟨c, _, rfl, h1⟩
  | cat h => cases h <;> exact ⟨'\\', _, rfl, by decide, by decide⟩

theorem _root_.Pip.Re.Members.head {lit : Char → Char → Prop} {K : Cats} {t : Str} {p : Char → Prop} (h : Members lit K t p) :
    t = ['-'] ∧ p = lit '-' ∨ ∃ c u, t = c :: u ∧ c ≠ ']' ∧ c ≠ '-' := by
  cases h with
  | one h => exact .inr h.head
  | more h h' =>
    obtain ⟨c, u, rfl, h1⟩ := h.head
    exact .inr ⟨c, _, rfl, h1⟩
  | dash => exact .inl ⟨rfl, rfl⟩

/-- What comes after a member: not a dash, or a dash at the end of the set -/
def Follows (n : Nat) (s s' : Str) (l : List Item) : Prop :=
  (∀ t, s ≠ '-' :: t) ∧ setItems n false s = .ok (l, s') ∨ s = '-' :: ']' :: s' ∧ l = [.one '-']

theorem Follows.items {n : Nat} {s s' : Str} {l : List Item} (h : Follows (n + 1) s s' l) (hn : s ≠ [] → 1 ≤ n) : setItems (n + 1) false s = .ok (l, s') := by
  rcases h with h | ⟨rfl, rfl⟩
  · exact h.2
  · obtain ⟨n, rfl⟩ : ∃ k, n = k + 1 := ⟨n - 1, by have := hn (by simp); omega⟩
    rfl

theorem setItems_atom {n : Nat} {first : Bool} {t s s' : Str} {it : Item} {l : List Item} (hc : ∃ c u, t = c :: u ∧ ¬(c = ']' ∧ first = false))
    (h : classAtom (t ++ s) = .ok (it, s)) (hs : Follows n s s' l) : setItems (n + 1) first (t ++ s) = .ok (it :: l, s') := by
  obtain ⟨c, u, rfl, hc⟩ := hc
  show setItems (n + 1) first (c :: (u ++ s)) = _
  have h' : classAtom (c :: (u ++ s)) = .ok (it, s) := h
  simp only [setItems, if_neg hc, h', bind, Except.bind]
  rcases hs with ⟨h1, h2⟩ | ⟨rfl, rfl⟩
  · split
    · next x => exact absurd rfl (h1 x)
    · rw [h2]
      rfl
  · rfl

theorem member_items {t : Str} {p : Char → Prop}
    (h : Member (fun c d => c = d ∨ f.i = true ∧ SameLetter db f c d) (reCats db f) t p) (n : Nat) (first : Bool) (s s' : Str) (l : List Item)
    (hs : Follows (n + 1) s s' l) (hn : s ≠ [] → 1 ≤ n) :
    ∃ it, setItems (n + 2) first (t ++ s) = .ok (it :: l, s') ∧ ∀ c, it.has ⟨db, f⟩ c = true ↔ p c := by
  have hh : ∃ c u, t = c :: u ∧ ¬(c = ']' ∧ first = false) := by
    obtain ⟨c, u, e, h1, _⟩ := h.head
    exact ⟨c, u, e, fun h => h1 h.1⟩
  cases h with
  | @one t c h => exact ⟨.one c, setItems_atom hh (setChar_atom h s) hs, one_has db f c⟩
  | @range t u a b ha hb hab =>
    refine ⟨.range a b, ?_, range_has db f a b⟩
    obtain ⟨c, v, rfl, h1, _⟩ := ha.head
    obtain ⟨d, w, rfl, h2, _⟩ := hb.head
    have e : c :: v ++ '-' :: (d :: w) ++ s = c :: (v ++ '-' :: d :: (w ++ s)) := by simp
    have ha' : classAtom (c :: (v ++ '-' :: d :: (w ++ s))) = .ok (.one a, '-' :: d :: (w ++ s)) := setChar_atom ha _
    have hb' : classAtom (d :: (w ++ s)) = .ok (.one b, s) := setChar_atom hb s
    rw [e]
    simp only [setItems.eq_def (n + 2), h1, false_and, if_false, ha', bind, Except.bind, List.cons_append]
    split
    · next h => cases h
    · next h => exact absurd (List.cons.inj h).1 h2
    · rw [hb']
      simp only
      rw [if_neg (by omega), hs.items hn]
      rfl
  | cat h =>
    obtain ⟨c, it, rfl, hc, _, _, _, hb, _, hi⟩ := catText t p h
    exact ⟨it, setItems_atom hh (by simpa [classAtom] using classEsc_cat hc hb s) hs, hi⟩

theorem setItems_end (n : Nat) (s : Str) : setItems (n + 1) false (']' :: s) = .ok ([], s) := by simp [setItems]

theorem members_items {t : Str} {p : Char → Prop}
    (h : Members (fun c d => c = d ∨ f.i = true ∧ SameLetter db f c d) (reCats db f) t p) (n : Nat) (hn : t.length + 1 < n) (first : Bool) (s : Str) :
    ∃ l, setItems n first (t ++ ']' :: s) = .ok (l, s) ∧ Has ⟨db, f⟩ l p ∧ (t = ['-'] → l = [.one '-']) := by
  induction h generalizing n first with
  | @one t p h =>
    obtain ⟨c, u, rfl, _, hd⟩ := h.head
    simp only [List.length_cons] at hn
    obtain ⟨n, rfl⟩ : ∃ k, n = k + 3 := ⟨n - 3, by omega⟩
    obtain ⟨it, h1, h2⟩ := member_items h (n + 1) first (']' :: s) s [] (.inl ⟨by simp, setItems_end _ s⟩) (by omega)
    exact ⟨[it], h1, has_one h2, fun e => absurd (List.cons.inj e).1 hd⟩
  | @more t u p q h h' ih =>
    obtain ⟨c, v, rfl, _, hd⟩ := h.head
    simp only [List.length_append, List.length_cons] at hn
    obtain ⟨n, rfl⟩ : ∃ k, n = k + 3 := ⟨n - 3, by omega⟩
    obtain ⟨l, h1, h2, h5⟩ := ih (n + 2) (by omega) false
    obtain ⟨it, h3, h4⟩ := member_items h (n + 1) first (u ++ ']' :: s) s l (by
      rcases h'.head with ⟨rfl, _⟩ | ⟨d, w, rfl, _, hd⟩
      · exact .inr ⟨rfl, h5 rfl⟩
      · exact .inl ⟨fun x e => hd (List.cons.inj e).1, h1⟩) (by omega)
    exact ⟨it :: l, by rw [List.append_assoc]; exact h3, has_cons h4 h2, fun e => absurd (List.cons.inj e).1 hd⟩
  | dash =>
    simp only [List.length_cons] at hn
    obtain ⟨n, rfl⟩ : ∃ k, n = k + 3 := ⟨n - 3, by omega⟩
    refine ⟨[.one '-'], ?_, has_one (one_has db f '-'), fun _ => rfl⟩
    exact setItems_atom (t := ['-']) (s := ']' :: s) ⟨'-', [], rfl, by simp⟩ rfl (.inl ⟨by simp, setItems_end _ s⟩)

theorem setText_items {t : Str} {p : Char → Prop}
    (h : SetText (fun c d => c = d ∨ f.i = true ∧ SameLetter db f c d) (reCats db f) t p) (n : Nat) (hn : t.length + 1 < n) (s : Str) :
    ∃ l, setItems n true (t ++ ']' :: s) = .ok (l, s) ∧ Has ⟨db, f⟩ l p := by
  have hat : ∀ (c : Char) (x : Str), c ∈ ['-', ']'] → classAtom (c :: x) = .ok (.one c, x) := by
    intro c x hc
    simp only [List.mem_cons, List.not_mem_nil, or_false] at hc
    rcases hc with rfl | rfl <;> rfl
  cases h with
  | plain h =>
    obtain ⟨l, h1, h2, _⟩ := members_items h n hn true s
    exact ⟨l, h1, h2⟩
  | @first c hc =>
    simp only [List.length_cons] at hn
    obtain ⟨n, rfl⟩ : ∃ k, n = k + 3 := ⟨n - 3, by omega⟩
    exact ⟨[.one c], setItems_atom (t := [c]) (s := ']' :: s) ⟨c, [], rfl, by simp⟩ (hat c _ hc) (.inl ⟨by simp, setItems_end _ s⟩),
      has_one (one_has db f c)⟩
  | @firsts c t p hc h =>
    simp only [List.length_cons] at hn
    obtain ⟨n, rfl⟩ : ∃ k, n = k + 1 := ⟨n - 1, by omega⟩
    obtain ⟨l, h1, h2, h3⟩ := members_items h n (by omega) false s
    refine ⟨.one c :: l, ?_, has_cons (one_has db f c) h2⟩
    refine setItems_atom (t := [c]) (s := t ++ ']' :: s) ⟨c, [], rfl, by simp⟩ (hat c _ hc) ?_
    rcases h.head with ⟨rfl, _⟩ | ⟨d, w, rfl, _, hd⟩
    · exact .inr ⟨rfl, h3 rfl⟩
    · exact .inl ⟨fun x e => hd (List.cons.inj e).1, h1⟩

theorem setRx_set {t : Str} {p : Char → Prop}
    (h : SetText (fun c d => c = d ∨ f.i = true ∧ SameLetter db f c d) (reCats db f) t p) (hc : t.head? ≠ some '^') (s : Str) :
    ∃ l, setRx (t ++ ']' :: s) = .ok (.set false l, s) ∧ Has ⟨db, f⟩ l p := by
  cases t with
  | nil =>
    exfalso
    cases h with
    | plain h => rcases h.head with ⟨h, _⟩ | ⟨_, _, h, _⟩ <;> cases h
  | cons c t =>
  obtain ⟨l, h1, h2⟩ := setText_items h ((c :: t ++ ']' :: s).length + 1) (by simp only [List.length_append, List.length_cons]; omega) s
  refine ⟨l, ?_, h2⟩
  unfold setRx
  split
  · next x e => exact absurd (by rw [(List.cons.inj e).1]; rfl) hc
  · rw [h1]
    rfl

theorem setRx_not {t : Str} {p : Char → Prop}
    (h : SetText (fun c d => c = d ∨ f.i = true ∧ SameLetter db f c d) (reCats db f) t p) (s : Str) :
    ∃ l, setRx ('^' :: (t ++ ']' :: s)) = .ok (.set true l, s) ∧ Has ⟨db, f⟩ l p := by
  obtain ⟨l, h1, h2⟩ := setText_items h ((t ++ ']' :: s).length + 1) (by simp only [List.length_append, List.length_cons]; omega) s
  refine ⟨l, ?_, h2⟩
  unfold setRx
  simp only
  rw [h1]
  rfl

end

/-! ### Expressions -/

/-- There are no capturing groups. -/
def Rx.capFree : Rx → Bool
  | .cap _ _ => false
  | .seq a b | .alt a b => a.capFree && b.capFree
  | .rep a _ _ _ | .ahead _ a | .behind _ _ a => a.capFree
  | _ => true

/-- After reading a text as `r` the parser has opened and closed groups, and has not named them; if the text has no
parenthesis, there are none. -/
structure Ctx.After (C : Ctx) (t : Str) (r : Rx) (C' : Ctx) : Prop where
  names : C'.names = C.names
  opened : C'.opened = C.opened
  inBehind : C'.inBehind = C.inBehind
  next : C.next ≤ C'.next
  free : '(' ∉ t → r.capFree = true ∧ C'.next = C.next

theorem Ctx.After.refl (C : Ctx) (t : Str) {r : Rx} (h : '(' ∉ t → r.capFree = true) : C.After t r C :=
  ⟨rfl, rfl, rfl, Nat.le_refl _, fun ht => ⟨h ht, rfl⟩⟩

theorem Ctx.After.trans {A B C : Ctx} {t u v : Str} {a b r : Rx} (h : A.After t a B) (h' : B.After u b C)
    (hv : '(' ∉ v → '(' ∉ t ∧ '(' ∉ u) (hr : r.capFree = (a.capFree && b.capFree)) : A.After v r C := by
  refine ⟨h'.names.trans h.names, h'.opened.trans h.opened, h'.inBehind.trans h.inBehind, Nat.le_trans h.next h'.next, ?_⟩
  intro hn
  obtain ⟨h1, h2⟩ := hv hn
  exact ⟨by rw [hr, (h.free h1).1, (h'.free h2).1]; rfl, (h'.free h2).2.trans (h.free h1).2⟩

/-- The same with another text and another regular expression -/
theorem Ctx.After.as {C C' : Ctx} {t u : Str} {a r : Rx} (h : C.After t a C') (ht : '(' ∉ u → '(' ∉ t) (hr : a.capFree = true → r.capFree = true) :
    C.After u r C' :=
  ⟨h.names, h.opened, h.inBehind, h.next, fun hu => ⟨hr (h.free (ht hu)).1, (h.free (ht hu)).2⟩⟩

/-- A regular expression with the meaning -/
structure Rx.Means (db : CharDb) (f : Flags) (r : Rx) (m : Meaning) : Prop where
  den : r.den ⟨db, f⟩ = m
  noRef : r.noRef = true

section
variable {db : CharDb} {f : Flags}

theorem ordinary_facts {c : Char} (h : ordinary c = true) : c ≠ '.' ∧ c ≠ '^' ∧ c ≠ '$' ∧ c ≠ '*' ∧ c ≠ '+' ∧ c ≠ '?' ∧ c ≠ '{' ∧ c ≠ '[' ∧
    c ≠ '\\' ∧ c ≠ '|' ∧ c ≠ '(' ∧ c ≠ ')' := by
  simp only [ordinary, Bool.not_eq_true', List.elem_eq_mem, decide_eq_false_iff_not, List.mem_cons, List.not_mem_nil, or_false,
    not_or] at h
  exact h

theorem lit_means (c : Char) : (Rx.lit c).Means db f (.chr ((reSem db f).lit c)) :=
  ⟨chr_ext fun d => by simpa [reSem] using one_has db f c d, rfl⟩

theorem escape_escapable {c : Char} (h : escapable c = true) (C : Ctx) (s : Str) : escape C (c :: s) = .ok (.lit c, false, s) := by
  obtain ⟨h1, h2, h3, h4, h5, h6, h7, h8, h9, h10, h11, h12, _⟩ := escapable_facts h s
  simp [escape, h1, h2, h3, h4, h6, h7, h8, h9, h10, h11, h12]

/-- The start of an atom or of `^`, `$` -/
def atomStart (c : Char) : Bool := !(s% "*+?{|)").elem c

theorem takeDigits_show (n : Nat) {c : Char} (hc : isDigit09 c = false) (s : Str) :
    takeDigits (showNat n ++ c :: s) = (showNat n, c :: s) := by
  have hd := showNat_digit09 n
  unfold takeDigits
  rw [List.takeWhile_append_of_pos hd, List.dropWhile_append_of_pos hd]
  rw [List.takeWhile_cons_of_neg (by simp [hc]), List.dropWhile_cons_of_neg (by simp [hc])]
  simp

theorem takeDigits_none {c : Char} (hc : isDigit09 c = false) (s : Str) : takeDigits (c :: s) = ([], c :: s) := by
  unfold takeDigits
  rw [List.takeWhile_cons_of_neg (by simp [hc]), List.dropWhile_cons_of_neg (by simp [hc])]

theorem show_head (n : Nat) : ∃ c l, showNat n = c :: l ∧ c ≠ '}' := by
  cases hs : showNat n with
  | nil => exact absurd hs (showNat_ne n)
  | cons c l =>
    refine ⟨c, l, rfl, ?_⟩
    rintro rfl
    exact absurd (showNat_digit09 n '}' (by rw [hs]; simp)) (by decide)

theorem show_isEmpty (n : Nat) : (showNat n).isEmpty = false := by
  obtain ⟨c, l, h, _⟩ := show_head n
  rw [h]
  rfl

theorem braces_plain {t lo s : Str} (h0 : ∀ x, t ≠ '}' :: x) (h1 : takeDigits t = (lo, '}' :: s)) : braces t =
      let max := if lo.isEmpty then none else some (parseNat lo)
      if parseNat lo ≥ 4294967295 || max.any (· ≥ 4294967295) then .error .other
      else if max.any (· < parseNat lo) then .error .bad
      else .ok (some (parseNat lo, max, s)) := by
  unfold braces
  split
  · next x => exact absurd rfl (h0 x)
  · rw [h1]
    rfl

theorem braces_comma {t lo hi s s1 : Str} (h0 : ∀ x, t ≠ '}' :: x) (h1 : takeDigits t = (lo, ',' :: s1))
    (h2 : takeDigits s1 = (hi, '}' :: s)) : braces t =
      let max := if hi.isEmpty then none else some (parseNat hi)
      if parseNat lo ≥ 4294967295 || max.any (· ≥ 4294967295) then .error .other
      else if max.any (· < parseNat lo) then .error .bad
      else .ok (some (parseNat lo, max, s)) := by
  unfold braces
  split
  · next x => exact absurd rfl (h0 x)
  · rw [h1]
    simp only
    rw [h2]
    rfl

theorem quant_brace (s : Str) : quant ('{' :: s) = braces s := rfl

theorem quant_ok {q : Str} {lo : Nat} {hi : Option Nat} (h : Quant q lo hi) (s : Str) : quant (q ++ s) = .ok (some (lo, hi, s)) := by
  have pn : ∀ n : Nat, parseNat (showNat n) = n := parseNat_showNat
  have hne : ∀ (n : Nat) (u x : Str), showNat n ++ u ≠ '}' :: x := by
    intro n u x e
    obtain ⟨c, l, h, hc⟩ := show_head n
    rw [h] at e
    exact hc (List.cons.inj e).1
  cases h with
  | star => rfl
  | plus => rfl
  | opt => rfl
  | exactly _ hn =>
    have e : s% "{" ++ showInt lo ++ s% "}" ++ s = '{' :: (showNat lo ++ '}' :: s) := by simp [showInt]
    rw [e, quant_brace, braces_plain (hne _ _) (takeDigits_show lo (by decide) s)]
    simp [show_isEmpty, pn]
    omega
  | least _ hn =>
    have e : s% "{" ++ showInt lo ++ s% ",}" ++ s = '{' :: (showNat lo ++ ',' :: '}' :: s) := by simp [showInt]
    rw [e, quant_brace, braces_comma (hne _ _) (takeDigits_show lo (by decide) _) (takeDigits_none (by decide) s)]
    simp [pn]
    omega
  | most n hn =>
    have e : s% "{," ++ showInt n ++ s% "}" ++ s = '{' :: ',' :: (showNat n ++ '}' :: s) := by simp [showInt]
    rw [e, quant_brace, braces_comma (by simp) (takeDigits_none (by decide) _) (takeDigits_show n (by decide) s)]
    have p0 : parseNat [] = 0 := rfl
    have h3 : ¬ 4294967295 ≤ n := by omega
    simp [show_isEmpty, pn, p0, h3]
  | range _ k h1 h2 =>
    have e : s% "{" ++ showInt lo ++ s% "," ++ showInt k ++ s% "}" ++ s = '{' :: (showNat lo ++ ',' :: (showNat k ++ '}' :: s)) := by
      simp [showInt]
    rw [e, quant_brace, braces_comma (hne _ _) (takeDigits_show lo (by decide) _) (takeDigits_show k (by decide) s)]
    have h3 : ¬ 4294967295 ≤ k := by omega
    have h4 : ¬ 4294967295 ≤ lo := by omega
    have h5 : ¬ k < lo := by omega
    simp [show_isEmpty, pn, h3, h4, h5]

theorem quant_none {s : Str} (h : AfterPiece s) : quant s = .ok none := by
  unfold quant
  split
  · exact absurd (h _ _ rfl) (by decide)
  · exact absurd (h _ _ rfl) (by decide)
  · exact absurd (h _ _ rfl) (by decide)
  · exact absurd (h _ _ rfl) (by decide)
  · rfl

theorem quantify_none {s : Str} (h : AfterPiece s) (a : Rx) (isAt : Bool) : quantify a isAt s = .ok (a, s) := by
  unfold quantify
  rw [quant_none h]
  rfl

theorem quantify_some {s s' : Str} {a : Rx} {lo : Nat} {hi : Option Nat} (hq : quant s = .ok (some (lo, hi, s'))) (h : AfterPiece s') :
    quantify a false s = .ok (.rep a lo hi true, s') := by
  unfold quantify
  rw [hq]
  simp only [bind, Except.bind, Bool.false_eq_true, if_false]
  split
  · exact absurd (h _ _ rfl) (by decide)
  · exact absurd (h _ _ rfl) (by decide)
  · rfl

theorem quantify_lazy {s s' : Str} {a : Rx} {lo : Nat} {hi : Option Nat} (hq : quant s = .ok (some (lo, hi, '?' :: s'))) :
    quantify a false s = .ok (.rep a lo hi false, s') := by
  unfold quantify
  rw [hq]
  rfl

theorem rep_means {a : Rx} {m : Meaning} (h : a.Means db f m) (lo : Nat) (hi : Option Nat) (hl : ∀ k, hi = some k → lo ≤ k) (g : Bool) :
    (Rx.rep a lo hi g).Means db f (m.times lo hi) := by
  refine ⟨?_, h.noRef⟩
  show ((a.den ⟨db, f⟩).rep lo).seq (upTo (a.den ⟨db, f⟩) (hi.map (· - lo))) = _
  rw [h.den]
  apply Meaning.ext
  intro pre w post
  constructor
  · rintro ⟨u, v, e, h1, k, h2, h3⟩
    refine ⟨lo + k, by omega, ?_, ?_⟩
    · rintro j rfl
      have := h2 (j - lo) rfl
      have := hl j rfl
      omega
    · rw [rep_add]
      exact ⟨u, v, e, h1, h3⟩
  · rintro ⟨n, h1, h2, h3⟩
    obtain ⟨k, rfl⟩ : ∃ k, n = lo + k := ⟨n - lo, by omega⟩
    rw [rep_add] at h3
    obtain ⟨u, v, e, h4, h5⟩ := h3
    refine ⟨u, v, e, h4, k, ?_, h5⟩
    intro j hj
    cases hi with
    | none => cases hj
    | some i =>
      have := h2 i rfl
      have e : i - lo = j := Option.some.inj hj
      omega

theorem quant_le {q : Str} {lo : Nat} {hi : Option Nat} (h : Quant q lo hi) : ∀ k, hi = some k → lo ≤ k := by
  cases h <;> rintro k ⟨⟩ <;> omega

/-- What the parser makes of the text of an atom, a piece, a branch, a whole expression -/
def AtomOk (db : CharDb) (f : Flags) (t : Str) (m : Meaning) : Prop :=
  ∀ n C rest, 4 * t.length ≤ n → ∃ c u r C', t = c :: u ∧ atomStart c = true ∧ parseAtom n C c (u ++ rest) = .ok (r, false, C', rest) ∧
    r.Means db f m ∧ C.After t r C'
def PieceOk (db : CharDb) (f : Flags) (t : Str) (m : Meaning) : Prop :=
  ∀ n C rest, 4 * t.length ≤ n → AfterPiece rest → ∃ c u a isAt s C' r, t = c :: u ∧ atomStart c = true ∧
    parseAtom n C c (u ++ rest) = .ok (a, isAt, C', s) ∧ quantify a isAt s = .ok (r, rest) ∧ r.Means db f m ∧ C.After t r C'
def EndOk (p : Char → Prop) (s : Str) : Prop := ∀ c t, s = c :: t → p c
def BranchOk (db : CharDb) (f : Flags) (t : Str) (m : Meaning) : Prop :=
  ∀ n C rest, 4 * t.length + 1 ≤ n → EndOk (fun c => c = '|' ∨ c = ')') rest → ∃ r C', parseBranch n C (t ++ rest) = .ok (r, C', rest) ∧
    r.Means db f m ∧ C.After t r C'
def AltsOk (db : CharDb) (f : Flags) (t : Str) (m : Meaning) : Prop :=
  ∀ n C rest, 4 * t.length + 2 ≤ n → EndOk (fun c => c = ')') rest → ∃ r C', parseAlts n C (t ++ rest) = .ok (r, C', rest) ∧
    r.Means db f m ∧ C.After t r C'

/-- One character -/
def Rx.single : Rx → Bool
  | .set .. | .dot => true
  | _ => false

theorem Rx.single_width {r : Rx} (h : r.single = true) : r.width = (1, some 1) := by
  cases r <;> first | rfl | cases h

theorem Rx.single.capFree {r : Rx} (h : r.single = true) : r.capFree = true := by
  cases r <;> first | rfl | cases h

/-- What the parser makes of the text of an atom that matches one character -/
def OneOk (db : CharDb) (f : Flags) (t : Str) (p : Char → Prop) : Prop :=
  ∀ n C rest, 1 ≤ n → ∃ c u r, t = c :: u ∧ atomStart c = true ∧ parseAtom n C c (u ++ rest) = .ok (r, false, C, rest) ∧
    r.Means db f (.chr p) ∧ r.single = true

theorem cat_atom {c : Char} {it : Item} {p : Char → Prop} (hc : catEsc c = some it) (h1 : c ≠ 'A') (h2 : c ≠ 'Z') (h3 : c ≠ 'b') (h4 : c ≠ 'B')
    (hi : ∀ d, it.has ⟨db, f⟩ d = true ↔ p d) : OneOk db f ['\\', c] p := by
  intro n C rest hn
  obtain ⟨n, rfl⟩ : ∃ k, n = k + 1 := ⟨n - 1, by omega⟩
  refine ⟨'\\', [c], .set false [it], rfl, rfl, ?_, ⟨chr_ext fun d => by simp [hi], rfl⟩, rfl⟩
  simp [parseAtom, escape, hc, h1, h2, h3, h4, bind, Except.bind, pure, Except.pure]

theorem class_atom {t : Str} {p : Char → Prop} (h : (reSem db f).other t p) : OneOk db f t p := by
  cases h with
  | @chr t c h =>
    intro n C rest hn
    obtain ⟨n, rfl⟩ : ∃ k, n = k + 1 := ⟨n - 1, by omega⟩
    have key : ∃ u, t = '\\' :: u ∧ escape C (u ++ rest) = .ok (.lit c, false, rest) := by
      cases h with
      | esc h => exact ⟨_, rfl, escape_escapable h C rest⟩
      | @control x d h =>
        obtain ⟨h1, h2, h3, h4, h5, h6⟩ := control_cases h
        exact ⟨_, rfl, by simp [escape, h1, h2, h3, h4, h5, h6]⟩
      | @hex a b _ _ ha hb =>
        have h1 : catEsc 'x' = none := by decide
        have h2 : simpleEsc 'x' = none := by decide
        refine ⟨_, rfl, ?_⟩
        show escape C ('x' :: a :: b :: rest) = _
        simp only [escape, h1, h2, hexEsc_two ha hb, show ('x' : Char) ≠ 'A' by decide, show ('x' : Char) ≠ 'Z' by decide,
          show ('x' : Char) ≠ 'b' by decide, show ('x' : Char) ≠ 'B' by decide, if_false, bind, Except.bind, pure, Except.pure]
    obtain ⟨u, rfl, he⟩ := key
    refine ⟨'\\', u, .lit c, rfl, rfl, ?_, lit_means c, rfl⟩
    simp [parseAtom, he, bind, Except.bind, pure, Except.pure]
  | cat h =>
    obtain ⟨c, it, rfl, hc, _, h1, h2, h3, h4, hi⟩ := catText _ _ h
    exact cat_atom hc h1 h2 h3 h4 hi
  | @set t p h hc =>
    intro n C rest hn
    obtain ⟨n, rfl⟩ : ∃ k, n = k + 1 := ⟨n - 1, by omega⟩
    obtain ⟨l, h1, h2⟩ := setRx_set h hc rest
    refine ⟨'[', t ++ s% "]", .set false l, rfl, rfl, ?_, ⟨chr_ext fun d => by simpa using h2 d, rfl⟩, rfl⟩
    have e : t ++ s% "]" ++ rest = t ++ ']' :: rest := by simp
    rw [e]
    simp [parseAtom, h1, bind, Except.bind, pure, Except.pure]
  | @notSet t p h =>
    intro n C rest hn
    obtain ⟨n, rfl⟩ : ∃ k, n = k + 1 := ⟨n - 1, by omega⟩
    obtain ⟨l, h1, h2⟩ := setRx_not h rest
    refine ⟨'[', '^' :: (t ++ s% "]"), .set true l, rfl, rfl, ?_, ⟨chr_ext fun d => ?_, rfl⟩, rfl⟩
    · have e : '^' :: (t ++ s% "]") ++ rest = '^' :: (t ++ ']' :: rest) := by simp
      rw [e]
      simp [parseAtom, h1, bind, Except.bind, pure, Except.pure]
    · rw [← h2 d]
      simp

theorem starts_atomStart {c : Char} (h : starts c = true) : atomStart c = true := by
  cases ha : atomStart c with
  | true => rfl
  | false =>
    simp only [atomStart, Bool.not_eq_false', List.elem_eq_mem, decide_eq_true_eq, List.mem_cons, List.not_mem_nil, or_false] at ha
    rcases ha with rfl | rfl | rfl | rfl | rfl | rfl <;> exact absurd h (by decide)

theorem class_head : ∀ t m, (reSem db f).other t m → ∃ c u, t = c :: u ∧ starts c = true := by
  rintro t m (h | h | h | h)
  · cases h <;> exact ⟨'\\', _, rfl, rfl⟩
  · cases h <;> exact ⟨'\\', _, rfl, rfl⟩
  · exact ⟨'[', _, rfl, rfl⟩
  · exact ⟨'[', _, rfl, rfl⟩

theorem atom_piece {t : Str} {m : Meaning} (h : AtomOk db f t m) : PieceOk db f t m := by
  intro n C rest hn hr
  obtain ⟨c, u, r, C', rfl, hc, h1, h2, h3⟩ := h n C rest hn
  exact ⟨c, u, r, false, rest, C', r, rfl, hc, h1, quantify_none hr _ _, h2, h3⟩

theorem one_ok {t : Str} {p : Char → Prop} (h : One (reSem db f) t p) : OneOk db f t p := by
  cases h with
  | @lit c hc =>
    intro n C rest hn
    obtain ⟨n, rfl⟩ : ∃ k, n = k + 1 := ⟨n - 1, by omega⟩
    obtain ⟨h1, h2, h3, h4, h5, h6, h7, h8, h9, h10, h11, h12⟩ := ordinary_facts hc
    refine ⟨c, [], .lit c, rfl, starts_atomStart (by simp [starts, hc]), ?_, lit_means c, rfl⟩
    simp [parseAtom, h1, h2, h3, h4, h5, h6, h7, h8, h9, h11]
  | @esc c hc =>
    intro n C rest hn
    obtain ⟨n, rfl⟩ : ∃ k, n = k + 1 := ⟨n - 1, by omega⟩
    refine ⟨'\\', [c], .lit c, rfl, rfl, ?_, lit_means c, rfl⟩
    simp [parseAtom, escape_escapable hc, bind, Except.bind, pure, Except.pure]
  | dot =>
    intro n C rest hn
    obtain ⟨n, rfl⟩ : ∃ k, n = k + 1 := ⟨n - 1, by omega⟩
    exact ⟨'.', [], .dot, rfl, rfl, by simp [parseAtom], ⟨chr_ext fun d => by simp [reSem], rfl⟩, rfl⟩
  | other h => exact class_atom h

theorem one_atom {t : Str} {p : Char → Prop} (h : OneOk db f t p) : AtomOk db f t (.chr p) := by
  intro n C rest hn
  obtain ⟨c, u, r, rfl, hc, h1, h2, h3⟩ := h n C rest (by
    obtain ⟨c, u, r, rfl, _⟩ := h 1 C rest (Nat.le_refl _)
    simp only [List.length_cons] at hn
    omega)
  exact ⟨c, u, r, C, rfl, hc, h1, h2, .refl C _ fun _ => Rx.single.capFree h3⟩

theorem quant_piece {t q : Str} {m : Meaning} {lo : Nat} {hi : Option Nat} (h : AtomOk db f t m) (hq : Quant q lo hi) :
    PieceOk db f (t ++ q) (m.times lo hi) := by
  intro n C rest hn hr
  obtain ⟨c, u, r, C', rfl, hc, h1, h2, h3⟩ := h n C (q ++ rest) (by simp only [List.length_append] at hn; omega)
  exact ⟨c, u ++ q, r, false, q ++ rest, C', _, rfl, hc, by rw [List.append_assoc]; exact h1, quantify_some (quant_ok hq rest) hr,
    rep_means h2 _ _ (quant_le hq) _, h3.as (fun h => by simp at h ⊢; exact ⟨h.1, h.2.1⟩) id⟩

theorem lazy_piece {t q : Str} {m : Meaning} {lo : Nat} {hi : Option Nat} (h : AtomOk db f t m) (hq : Quant q lo hi) :
    PieceOk db f (t ++ q ++ s% "?") (m.times lo hi) := by
  intro n C rest hn hr
  obtain ⟨c, u, r, C', rfl, hc, h1, h2, h3⟩ := h n C (q ++ '?' :: rest) (by simp only [List.length_append] at hn; omega)
  exact ⟨c, u ++ q ++ s% "?", r, false, q ++ '?' :: rest, C', _, rfl, hc, by simpa using h1, quantify_lazy (quant_ok hq _),
    rep_means h2 _ _ (quant_le hq) _, h3.as (fun h => by simp at h ⊢; exact ⟨h.1, h.2.1⟩) id⟩

theorem edge_iff (db : CharDb) (f : Flags) (pre post : Str) : (reSem db f).edge pre post ↔
    ((pre.getLast?.any (Cat.word.has ⟨db, f⟩)) != (post.head?.any (Cat.word.has ⟨db, f⟩))) = true := by
  have key : ∀ o : Option Char, (∃ c, o = some c ∧ (reSem db f).word c) ↔ o.any (Cat.word.has ⟨db, f⟩) = true := by
    intro o
    cases o with
    | none => simp
    | some c => simp [word_has, reSem]
  unfold Sem.edge
  rw [key, key]
  cases pre.getLast?.any (Cat.word.has ⟨db, f⟩) <;> cases post.head?.any (Cat.word.has ⟨db, f⟩) <;> simp

theorem at_piece {t : Str} {p : Str → Str → Prop} (h : At (reSem db f) t p) : PieceOk db f t (.pos p) := by
  cases h with
  | bol =>
    intro n C rest hn hr
    obtain ⟨n, rfl⟩ : ∃ k, n = k + 1 := ⟨n - 1, by simp at hn; omega⟩
    exact ⟨'^', [], .bol, true, rest, C, .bol, rfl, rfl, by simp [parseAtom], quantify_none hr _ _, ⟨rfl, rfl⟩, .refl C _ fun _ => rfl⟩
  | eol =>
    intro n C rest hn hr
    obtain ⟨n, rfl⟩ : ∃ k, n = k + 1 := ⟨n - 1, by simp at hn; omega⟩
    exact ⟨'$', [], .eol, true, rest, C, .eol, rfl, rfl, by simp [parseAtom], quantify_none hr _ _, ⟨rfl, rfl⟩, .refl C _ fun _ => rfl⟩
  | start =>
    intro n C rest hn hr
    obtain ⟨n, rfl⟩ : ∃ k, n = k + 1 := ⟨n - 1, by simp at hn; omega⟩
    exact ⟨'\\', ['A'], .start, true, rest, C, .start, rfl, rfl, by simp [parseAtom, escape, bind, Except.bind, pure, Except.pure],
      quantify_none hr _ _, ⟨rfl, rfl⟩, .refl C _ fun _ => rfl⟩
  | stop =>
    intro n C rest hn hr
    obtain ⟨n, rfl⟩ : ∃ k, n = k + 1 := ⟨n - 1, by simp at hn; omega⟩
    exact ⟨'\\', ['Z'], .stop, true, rest, C, .stop, rfl, rfl, by simp [parseAtom, escape, bind, Except.bind, pure, Except.pure],
      quantify_none hr _ _, ⟨rfl, rfl⟩, .refl C _ fun _ => rfl⟩
  | edge =>
    intro n C rest hn hr
    obtain ⟨n, rfl⟩ : ∃ k, n = k + 1 := ⟨n - 1, by simp at hn; omega⟩
    refine ⟨'\\', ['b'], .wordb false, true, rest, C, .wordb false, rfl, rfl, by simp [parseAtom, escape, bind, Except.bind, pure, Except.pure],
      quantify_none hr _ _, ⟨pos_ext fun a b => ?_, rfl⟩, .refl C _ fun _ => rfl⟩
    rw [edge_iff]
    constructor
    · intro h
      simpa using h.2
    · intro h
      refine ⟨?_, by simpa using h⟩
      rintro ⟨rfl, rfl⟩
      simp at h
  | inner =>
    intro n C rest hn hr
    obtain ⟨n, rfl⟩ : ∃ k, n = k + 1 := ⟨n - 1, by simp at hn; omega⟩
    refine ⟨'\\', ['B'], .wordb true, true, rest, C, .wordb true, rfl, rfl, by simp [parseAtom, escape, bind, Except.bind, pure, Except.pure],
      quantify_none hr _ _, ⟨pos_ext fun a b => ?_, rfl⟩, .refl C _ fun _ => rfl⟩
    rw [edge_iff]
    constructor
    · rintro ⟨h1, h2⟩
      exact ⟨by simpa using h2, h1⟩
    · rintro ⟨h1, h2⟩
      exact ⟨h2, by simpa using h1⟩

theorem closing_ok (s : Str) : closing (')' :: s) = .ok s := rfl

/-- What matches a fixed number of characters, read as a branch -/
theorem fixed_ok {t : Str} {w : Nat} {m : Meaning} (h : Fixed (reSem db f) t w m) :
    ∀ n C rest, 2 * t.length + 1 ≤ n → ∃ r, parseBranch n C (t ++ ')' :: rest) = .ok (r, C, ')' :: rest) ∧ r.Means db f m ∧
      r.width = (w, some w) := by
  induction h with
  | nil =>
    intro n C rest hn
    obtain ⟨n, rfl⟩ : ∃ k, n = k + 1 := ⟨n - 1, by omega⟩
    exact ⟨.eps, by simp [parseBranch], ⟨rfl, rfl⟩, rfl⟩
  | @cons t u p w m h hu ih =>
    intro n C rest hn
    have hne : 0 < t.length := List.length_pos_iff.2 h.ne_nil
    simp only [List.length_append] at hn
    obtain ⟨n, rfl⟩ : ∃ k, n = k + 1 := ⟨n - 1, by omega⟩
    have hp : AfterPiece (u ++ ')' :: rest) := by
      cases hu with
      | nil => exact .cons (by decide)
      | cons h' _ =>
        obtain ⟨c, v, rfl, hc⟩ := h'.head class_head
        exact .cons (starts_quant hc)
    obtain ⟨c, v, a, rfl, hc, h3, h5, h6⟩ := one_ok h n C (u ++ ')' :: rest) (by omega)
    obtain ⟨b, h7, h8, h9⟩ := ih n C rest (by omega)
    refine ⟨.seq a b, ?_, ⟨?_, ?_⟩, ?_⟩
    · have hc' : ¬ (c = '|' ∨ c = ')') := by
        rintro (rfl | rfl) <;> exact absurd hc (by decide)
      simp only [List.cons_append, List.append_assoc, parseBranch, hc', if_false]
      rw [h3]
      simp only [bind, Except.bind]
      rw [quantify_none hp]
      simp only
      rw [h7]
      rfl
    · show (a.den _).seq (b.den _) = _
      rw [h5.den, h8.den]
    · simp [Rx.noRef, h5.noRef, h8.noRef]
    · simp only [Rx.width, Rx.single_width h6, h9, addWidth]
      rw [Nat.add_comm]

/-- The length of what is matched is fixed. -/
theorem fixed_length {S : Sem} {t : Str} {w : Nat} {m : Meaning} (h : Fixed S t w m) {pre x post : Str} (hm : m pre x post) : x.length = w := by
  induction h generalizing pre x with
  | nil => rw [show x = [] from hm]; rfl
  | cons _ _ ih =>
    obtain ⟨_, v, rfl, ⟨c, rfl, _⟩, h2⟩ := hm
    simp [ih h2]

theorem behind_iff {S : Sem} {t : Str} {w : Nat} {m : Meaning} (h : Fixed S t w m) (pre post : Str) :
    (w ≤ pre.length ∧ ∃ u v, pre.drop (pre.length - w) ++ post = u ++ v ∧ m (pre.take (pre.length - w)) u v) ↔
      ∃ u v, pre = u ++ v ∧ m u v post := by
  constructor
  · rintro ⟨hw, u, v, e, hm⟩
    have hl := fixed_length h hm
    obtain ⟨rfl, rfl⟩ := List.append_inj e (by simp; omega)
    exact ⟨_, _, (List.take_append_drop _ pre).symm, hm⟩
  · rintro ⟨u, v, rfl, hm⟩
    have hl := fixed_length h hm
    have e : (u ++ v).length - w = u.length := by simp; omega
    refine ⟨by simp; omega, v, post, ?_, ?_⟩
    · rw [e]; simp
    · rw [e]; simpa using hm

theorem behind_ok {t : Str} {w : Nat} {m : Meaning} (h : Fixed (reSem db f) t w m) (neg : Bool) (sign : Char)
    (hs : sign = if neg then '!' else '=') (m' : Meaning)
    (hm : m' = .pos fun pre post => (∃ u v, pre = u ++ v ∧ m u v post) ↔ neg = false) :
    AtomOk db f (s% "(?<" ++ [sign] ++ t ++ s% ")") m' := by
  intro n C rest hn
  simp only [List.length_append, List.length_cons, List.length_nil] at hn
  obtain ⟨n, rfl⟩ : ∃ k, n = k + 4 := ⟨n - 4, by omega⟩
  obtain ⟨r, h1, h2, h3⟩ := fixed_ok h n { C with inBehind := true } rest (by omega)
  refine ⟨'(', '?' :: '<' :: sign :: (t ++ s% ")"), .behind neg w r, C, rfl, rfl, ?_, ⟨?_, h2.noRef⟩, .refl C _ fun h => absurd (by simp) h⟩
  · have e : t ++ s% ")" ++ rest = t ++ ')' :: rest := by simp
    have hb : parseBehind (n + 2) C neg (t ++ ')' :: rest) = .ok (.behind neg w r, false, C, rest) := by
      simp only [parseBehind, parseAlts, bind, Except.bind]
      rw [h1]
      simp [closing, h3, pure, Except.pure]
    simp only [List.cons_append, e]
    have hx : parseExt (n + 3) C ('<' :: sign :: (t ++ ')' :: rest)) = parseBehind (n + 2) C neg (t ++ ')' :: rest) := by
      subst hs
      cases neg <;> rfl
    simp only [parseAtom, show ('(' : Char) ≠ '.' by decide, show ('(' : Char) ≠ '^' by decide, show ('(' : Char) ≠ '$' by decide,
      show ('(' : Char) ≠ '\\' by decide, show ('(' : Char) ≠ '[' by decide, if_false, if_true]
    rw [hx, hb]
  · rw [hm]
    refine pos_ext fun pre post => ?_
    rw [← behind_iff h, h2.den]

theorem ok_group {t : Str} {m : Meaning} (ih : AltsOk db f t m) : AtomOk db f (s% "(?:" ++ t ++ s% ")") m := by
  intro n C rest hn
  simp only [List.length_append, List.length_cons, List.length_nil] at hn
  obtain ⟨n, rfl⟩ : ∃ k, n = k + 2 := ⟨n - 2, by omega⟩
  obtain ⟨r, C', h1, h2, h3⟩ := ih n C (')' :: rest) (by omega) (by rintro _ _ ⟨⟩; rfl)
  refine ⟨'(', '?' :: ':' :: (t ++ s% ")"), r, C', rfl, rfl, ?_, h2, h3.as (fun h => absurd (by simp) h) id⟩
  have e : t ++ s% ")" ++ rest = t ++ ')' :: rest := by simp
  simp only [List.cons_append, e]
  simp [parseAtom, parseExt, h1, closing, bind, Except.bind, pure, Except.pure]

theorem ok_capture {t : Str} {m : Meaning} (h : Alts (reSem db f) t m) (ih : AltsOk db f t m) : AtomOk db f (s% "(" ++ t ++ s% ")") m := by
  intro n C rest hn
  simp only [List.length_append, List.length_cons, List.length_nil] at hn
  obtain ⟨n, rfl⟩ : ∃ k, n = k + 1 := ⟨n - 1, by omega⟩
  obtain ⟨r, C', h1, h2, h3⟩ := ih n C.push (')' :: rest) (by omega) (by rintro _ _ ⟨⟩; rfl)
  refine ⟨'(', t ++ s% ")", .cap C.next r, C'.pop C, rfl, rfl, ?_, ⟨h2.den, h2.noRef⟩, ⟨h3.names, rfl, h3.inBehind, ?_, fun h => absurd (by simp) h⟩⟩
  · have e : t ++ s% ")" ++ rest = t ++ ')' :: rest := by simp
    rw [e]
    have hq : ∀ x, t ++ ')' :: rest ≠ '?' :: x := by
      intro x hx
      rcases h.head class_head with rfl | ⟨c, u, rfl, hc⟩
      · exact absurd (List.cons.inj hx).1 (by decide)
      · obtain ⟨rfl, _⟩ := List.cons.inj hx
        exact absurd hc (by decide)
    simp only [parseAtom, show ('(' : Char) ≠ '.' by decide, show ('(' : Char) ≠ '^' by decide, show ('(' : Char) ≠ '$' by decide,
      show ('(' : Char) ≠ '\\' by decide, show ('(' : Char) ≠ '[' by decide, if_false, if_true]
    simp [h1, closing, bind, Except.bind, pure, Except.pure]
  · have := h3.next
    simp only [Ctx.push, Ctx.pop] at this ⊢
    omega

theorem ok_ahead {t : Str} {m : Meaning} (ih : AltsOk db f t m) : AtomOk db f (s% "(?=" ++ t ++ s% ")") m.ahead := by
  intro n C rest hn
  simp only [List.length_append, List.length_cons, List.length_nil] at hn
  obtain ⟨n, rfl⟩ : ∃ k, n = k + 2 := ⟨n - 2, by omega⟩
  obtain ⟨r, C', h1, h2, h3⟩ := ih n C (')' :: rest) (by omega) (by rintro _ _ ⟨⟩; rfl)
  refine ⟨'(', '?' :: '=' :: (t ++ s% ")"), .ahead false r, C', rfl, rfl, ?_, ⟨?_, h2.noRef⟩, h3.as (fun h => absurd (by simp) h) id⟩
  · have e : t ++ s% ")" ++ rest = t ++ ')' :: rest := by simp
    simp only [List.cons_append, e]
    simp [parseAtom, parseExt, h1, closing, bind, Except.bind, pure, Except.pure]
  · refine pos_ext fun pre post => ?_
    rw [h2.den]
    simp

theorem ok_notAhead {t : Str} {m : Meaning} (ih : AltsOk db f t m) : AtomOk db f (s% "(?!" ++ t ++ s% ")") m.notAhead := by
  intro n C rest hn
  simp only [List.length_append, List.length_cons, List.length_nil] at hn
  obtain ⟨n, rfl⟩ : ∃ k, n = k + 2 := ⟨n - 2, by omega⟩
  obtain ⟨r, C', h1, h2, h3⟩ := ih n C (')' :: rest) (by omega) (by rintro _ _ ⟨⟩; rfl)
  refine ⟨'(', '?' :: '!' :: (t ++ s% ")"), .ahead true r, C', rfl, rfl, ?_, ⟨?_, h2.noRef⟩, h3.as (fun h => absurd (by simp) h) id⟩
  · have e : t ++ s% ")" ++ rest = t ++ ')' :: rest := by simp
    simp only [List.cons_append, e]
    simp [parseAtom, parseExt, h1, closing, bind, Except.bind, pure, Except.pure]
  · refine pos_ext fun pre post => ?_
    rw [h2.den]
    simp

theorem ok_nil : BranchOk db f [] .eps := by
  intro n C rest hn hr
  obtain ⟨n, rfl⟩ : ∃ k, n = k + 1 := ⟨n - 1, by omega⟩
  refine ⟨.eps, C, ?_, ⟨rfl, rfl⟩, .refl C _ fun _ => rfl⟩
  cases rest with
  | nil => simp [parseBranch]
  | cons c rest => simp [parseBranch, hr c rest rfl]

theorem ok_cons {t u : Str} {m k : Meaning} (h1 : Piece (reSem db f) t m) (h2 : Branch (reSem db f) u k) (ih1 : PieceOk db f t m) (ih2 : BranchOk db f u k) :
    BranchOk db f (t ++ u) (m.seq k) := by
  intro n C rest hn hr
  simp only [List.length_append] at hn
  obtain ⟨n, rfl⟩ : ∃ k, n = k + 1 := ⟨n - 1, by omega⟩
  have hne : 0 < t.length := List.length_pos_iff.2 h1.ne_nil
  have hp : AfterPiece (u ++ rest) := by
    rcases h2.head class_head with rfl | ⟨c, v, rfl, hc⟩
    · intro c y e
      rcases hr c y (by simpa using e) with rfl | rfl <;> rfl
    · exact .cons (starts_quant hc)
  obtain ⟨c, v, a, isAt, s, C1, r, rfl, hc, h3, h4, h5, h6⟩ := ih1 n C (u ++ rest) (by omega) hp
  obtain ⟨b, C2, h7, h8, h9⟩ := ih2 n C1 rest (by omega) hr
  refine ⟨.seq r b, C2, ?_, ⟨?_, ?_⟩, h6.trans h9 (fun h => by simpa [not_or, and_assoc] using h) rfl⟩
  · have hc' : ¬ (c = '|' ∨ c = ')') := by
      rintro (rfl | rfl) <;> exact absurd hc (by decide)
    simp only [List.cons_append, List.append_assoc, parseBranch, hc', if_false]
    rw [h3]
    simp only [bind, Except.bind]
    rw [h4]
    simp only
    rw [h7]
    rfl
  · show (r.den _).seq (b.den _) = _
    rw [h5.den, h8.den]
  · simp [Rx.noRef, h5.noRef, h8.noRef]

theorem ok_one {t : Str} {m : Meaning} (ih : BranchOk db f t m) : AltsOk db f t m := by
  intro n C rest hn hr
  obtain ⟨n, rfl⟩ : ∃ k, n = k + 1 := ⟨n - 1, by omega⟩
  obtain ⟨r, C', h1, h2, h3⟩ := ih n C rest (by omega) fun c t e => .inr (hr c t e)
  refine ⟨r, C', ?_, h2, h3⟩
  simp only [parseAlts]
  rw [h1]
  simp only [bind, Except.bind]
  split
  · exact absurd (hr _ _ rfl) (by decide)
  · rfl

theorem ok_more {t u : Str} {m k : Meaning} (ih1 : BranchOk db f t m) (ih2 : AltsOk db f u k) : AltsOk db f (t ++ s% "|" ++ u) (m.alt k) := by
  intro n C rest hn hr
  simp only [List.length_append, List.length_cons, List.length_nil] at hn
  obtain ⟨n, rfl⟩ : ∃ k, n = k + 1 := ⟨n - 1, by omega⟩
  obtain ⟨a, C1, h3, h4, h5⟩ := ih1 n C ('|' :: (u ++ rest)) (by omega) (by rintro _ _ ⟨⟩; exact .inl rfl)
  obtain ⟨b, C2, h6, h7, h8⟩ := ih2 n C1 rest (by omega) hr
  refine ⟨.alt a b, C2, ?_, ⟨?_, ?_⟩, h5.trans h8 (fun h => by simpa [not_or] using h) rfl⟩
  · have e : t ++ s% "|" ++ u ++ rest = t ++ '|' :: (u ++ rest) := by simp
    rw [e]
    simp only [parseAlts]
    rw [h3]
    simp only [bind, Except.bind]
    rw [h6]
    rfl
  · show (a.den _).alt (b.den _) = _
    rw [h4.den, h7.den]
  · simp [Rx.noRef, h4.noRef, h7.noRef]

theorem parse_piece_ok {t : Str} {m : Meaning} (h : Piece (reSem db f) t m) : PieceOk db f t m :=
  Piece.rec (motive_1 := fun t m _ => AtomOk db f t m) (motive_2 := fun t m _ => PieceOk db f t m)
    (motive_3 := fun t m _ => BranchOk db f t m) (motive_4 := fun t m _ => AltsOk db f t m)
    (fun h => one_atom (one_ok h)) (fun _ => ok_group) ok_capture (fun _ => ok_ahead) (fun _ => ok_notAhead)
    (fun h => behind_ok h false '=' rfl _ (pos_ext fun pre post => by simp))
    (fun h => behind_ok h true '!' rfl _ (pos_ext fun pre post => by simp))
    (fun _ => atom_piece) at_piece (fun _ hq ih => quant_piece ih hq) (fun _ hq ih => lazy_piece ih hq)
    ok_nil ok_cons (fun _ => ok_one) (fun _ _ => ok_more) h

theorem parse_branch_ok {t : Str} {m : Meaning} (h : Branch (reSem db f) t m) : BranchOk db f t m :=
  Branch.rec (motive_1 := fun t m _ => AtomOk db f t m) (motive_2 := fun t m _ => PieceOk db f t m)
    (motive_3 := fun t m _ => BranchOk db f t m) (motive_4 := fun t m _ => AltsOk db f t m)
    (fun h => one_atom (one_ok h)) (fun _ => ok_group) ok_capture (fun _ => ok_ahead) (fun _ => ok_notAhead)
    (fun h => behind_ok h false '=' rfl _ (pos_ext fun pre post => by simp))
    (fun h => behind_ok h true '!' rfl _ (pos_ext fun pre post => by simp))
    (fun _ => atom_piece) at_piece (fun _ hq ih => quant_piece ih hq) (fun _ hq ih => lazy_piece ih hq)
    ok_nil ok_cons (fun _ => ok_one) (fun _ _ => ok_more) h

theorem parse_alts_ok {t : Str} {m : Meaning} (h : Alts (reSem db f) t m) : AltsOk db f t m :=
  Alts.rec (motive_1 := fun t m _ => AtomOk db f t m) (motive_2 := fun t m _ => PieceOk db f t m)
    (motive_3 := fun t m _ => BranchOk db f t m) (motive_4 := fun t m _ => AltsOk db f t m)
    (fun h => one_atom (one_ok h)) (fun _ => ok_group) ok_capture (fun _ => ok_ahead) (fun _ => ok_notAhead)
    (fun h => behind_ok h false '=' rfl _ (pos_ext fun pre post => by simp))
    (fun h => behind_ok h true '!' rfl _ (pos_ext fun pre post => by simp))
    (fun _ => atom_piece) at_piece (fun _ hq ih => quant_piece ih hq) (fun _ hq ih => lazy_piece ih hq)
    ok_nil ok_cons (fun _ => ok_one) (fun _ _ => ok_more) h

end

end Pip.Rex
