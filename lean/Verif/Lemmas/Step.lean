import Verif.Lemmas.Lex
/-! Deterministic reading of one scanner pass. -/

set_option linter.unusedSimpArgs false

namespace Pip
open Rgx
namespace Scan

/-- What remains after the line comment at the start of the code. -/
def lineC (s : Str) : Option Str :=
  if '\n' ∈ s.takeWhile isSpace ∧ (s.dropWhile isSpace).head? = some ';' then
    some ((s.dropWhile isSpace).tail.dropWhile (· != '\n'))
  else if s.take 2 = s% "  " then some ((s.drop 2).dropWhile (· != '\n'))
  else none

/-- What remains after the next `;}`. -/
def afterClose : Str → Option Str
  | [] => none
  | ';' :: '}' :: r => some r
  | _ :: cs => afterClose cs

/-- What remains after the block comment at the start of the code. -/
def blockC : Str → Option Str
  | '{' :: ';' :: r => afterClose r
  | _ => none

def whiteC : Str → Option Str
  | [] => none
  | c :: cs => if isSpace c then some (cs.dropWhile isSpace) else none

theorem isSpace_semi : isSpace ';' = false := by decide
theorem isSpace_nl : isSpace '\n' = true := by decide

theorem head_of_const {α} {l : List α} {y : α} (hne : l ≠ []) (h : ∀ x ∈ l, x = y) : l.head? = some y := by
  cases l with
  | nil => exact absurd rfl hne
  | cons a l => rw [List.head?_cons, h a (by simp)]

/-- First alternative of the line comment regex, up to the semicolon. -/
def alt1 : Rgx := seq (star (chr isSpace)) (seq (lit '\n') (seq (star (chr isSpace)) (lit ';')))

theorem lang_alt1 {w : Str} : alt1.Lang w ↔
    ∃ u v, u.all isSpace = true ∧ v.all isSpace = true ∧ w = u ++ '\n' :: (v ++ [';']) := by
  constructor
  · intro h
    cases h with
    | seq h1 h2 =>
      obtain ⟨x, rfl, h3⟩ := lang_seq_lit h2
      cases h3 with
      | seq h4 h5 =>
        rw [lang_lit h5]
        exact ⟨_, _, lang_star_chr.1 h1, lang_star_chr.1 h4, rfl⟩
  · rintro ⟨u, v, hu, hv, rfl⟩
    exact .seq (lang_star_chr.2 hu) (.seq (u := ['\n']) (.chr (by rfl)) (.seq (lang_star_chr.2 hv) (.chr (by rfl))))

theorem takeWhile_append_cons {p : Char → Bool} {u : Str} {c : Char} {r : Str} (hu : u.all p = true)
    (hc : p c = false) : (u ++ c :: r).takeWhile p = u ∧ (u ++ c :: r).dropWhile p = c :: r := by
  induction u with
  | nil => simp [hc]
  | cons a u ih =>
    simp only [List.all_cons, Bool.and_eq_true] at hu
    simp [hu.1, ih hu.2]

theorem run_alt1 (s rest : Str) : rest ∈ alt1.run s ↔
    '\n' ∈ s.takeWhile isSpace ∧ s.dropWhile isSpace = ';' :: rest := by
  rw [mem_run (by simp [alt1, noEol, Rgx.lit])]
  constructor
  · rintro ⟨w, rfl, hw⟩
    obtain ⟨u, v, hu, hv, rfl⟩ := lang_alt1.1 hw
    have e : (u ++ '\n' :: (v ++ [';'])) ++ rest = (u ++ '\n' :: v) ++ ';' :: rest := by simp
    have ha : (u ++ '\n' :: v).all isSpace = true := by
      rw [List.all_append, List.all_cons, hu, hv, isSpace_nl]; rfl
    obtain ⟨h1, h2⟩ := takeWhile_append_cons (r := rest) ha isSpace_semi
    rw [e, h1, h2]
    simp
  · rintro ⟨h1, h2⟩
    obtain ⟨u, v, huv⟩ := List.append_of_mem h1
    have ha : (s.takeWhile isSpace).all isSpace = true := List.all_takeWhile
    rw [huv] at ha
    simp only [List.all_append, List.all_cons, Bool.and_eq_true] at ha
    refine ⟨s.takeWhile isSpace ++ [';'], ?_, lang_alt1.2 ⟨u, v, ha.1, ha.2.2, by rw [huv]; simp⟩⟩
    have := List.takeWhile_append_dropWhile (p := isSpace) (l := s)
    rw [h2] at this
    simpa using this.symm

theorem head_line (s : Str) : (lineCommentRgx.run s).head? = lineC s := by
  have e : lineCommentRgx = seq (alt alt1 (Rgx.str (s% "  "))) (star dot) := rfl
  rw [e, run_seq, run_alt, List.flatMap_append, List.head?_append]
  have hd : ∀ x, ((star dot).run x).head? = some (x.dropWhile (· != '\n')) :=
    fun x => run_star_chr_head _ x
  unfold lineC
  by_cases h : '\n' ∈ s.takeWhile isSpace ∧ (s.dropWhile isSpace).head? = some ';'
  · rw [if_pos h]
    obtain ⟨r, hr⟩ : ∃ r, s.dropWhile isSpace = ';' :: r := by
      cases hx : s.dropWhile isSpace with
      | nil => rw [hx] at h; simp at h
      | cons a b => rw [hx] at h; simp at h; exact ⟨b, by rw [h.2]⟩
    have hm : r ∈ alt1.run s := (run_alt1 _ _).2 ⟨h.1, hr⟩
    have hall : ∀ x ∈ alt1.run s, x = r := by
      intro x hx
      have := ((run_alt1 _ _).1 hx).2
      rw [hr] at this; simpa using this.symm
    cases ha : alt1.run s with
    | nil => rw [ha] at hm; simp at hm
    | cons a l =>
      have : a = r := hall a (by rw [ha]; simp)
      subst this
      rw [List.flatMap_cons, List.head?_append, hd, hr]
      rfl
  · rw [if_neg h]
    have : alt1.run s = [] := by
      rw [List.eq_nil_iff_forall_not_mem]
      intro x hx
      have := (run_alt1 _ _).1 hx
      exact h ⟨this.1, by rw [this.2]; rfl⟩
    rw [this, List.flatMap_nil, List.head?_nil, Option.none_or, run_str]
    by_cases h2 : s.take 2 = s% "  "
    · rw [if_pos h2]
      have : (s% "  ").isPrefixOf s = true := by
        rw [List.isPrefixOf_iff_prefix, List.prefix_iff_eq_take]
        exact h2.symm
      rw [this]
      simp [hd]
    · rw [if_neg h2]
      have : (s% "  ").isPrefixOf s = false := by
        rw [Bool.eq_false_iff]
        intro hp
        rw [List.isPrefixOf_iff_prefix, List.prefix_iff_eq_take] at hp
        exact h2 hp.symm
      rw [this]
      simp

theorem head_lazy (n : Nat) : ∀ s : Str, s.length ≤ n →
    ((lazyRun Rgx.any.run n s).flatMap (Rgx.str (s% ";}")).run).head? = afterClose s := by
  induction n with
  | zero =>
    intro s h
    have : s = [] := List.length_eq_zero_iff.1 (Nat.le_zero.1 h)
    subst this; rfl
  | succ n ih =>
    intro s h
    cases s with
    | nil => rfl
    | cons c cs =>
      have hr : Rgx.any.run (c :: cs) = [cs] := rfl
      have := ih cs (by simp at h; omega)
      simp only [lazyRun, List.flatMap_cons, List.head?_append, hr, List.flatMap_nil, List.append_nil,
        List.length_cons, Nat.lt_add_one, if_true, this]
      rw [run_str]
      cases cs with
      | nil => simp [List.isPrefixOf, afterClose]
      | cons d ds =>
        by_cases hc : c = ';' ∧ d = '}'
        · obtain ⟨rfl, rfl⟩ := hc; simp [List.isPrefixOf, afterClose]
        · have : (s% ";}").isPrefixOf (c :: d :: ds) = false := by
            simp only [List.isPrefixOf, Bool.and_true, Bool.and_eq_false_iff]
            by_cases h1 : c = ';'
            · subst h1; right; simp only [true_and] at hc
              simpa using fun e => hc e.symm
            · left; simpa using fun e => h1 e.symm
          rw [this]
          simp only [Bool.false_eq_true, if_false, List.head?_nil, Option.none_or]
          conv => rhs; unfold afterClose
          split
          · rename_i h; simp at h
          · rename_i h; simp at h; exact absurd ⟨h.1, h.2.1⟩ hc
          · rename_i h; simp at h; rw [h.2]

theorem head_block (s : Str) : (blockCommentRgx.run s).head? = blockC s := by
  unfold blockCommentRgx
  rw [run_seq, run_str]
  by_cases h : (s% "{;").isPrefixOf s = true
  · obtain ⟨r, rfl⟩ := List.isPrefixOf_iff_prefix.1 h
    simp only [h, if_true, List.flatMap_cons, List.flatMap_nil, List.append_nil]
    exact head_lazy _ _ (Nat.le_refl _)
  · rw [if_neg h]
    unfold blockC
    split
    · exact absurd rfl h
    · rfl

theorem head_white (s : Str) : (whitespaceRgx.run s).head? = whiteC s := by
  unfold whitespaceRgx Rgx.plus
  rw [run_seq]
  cases s with
  | nil => rfl
  | cons c cs =>
    rw [run_chr_cons]
    by_cases h : isSpace c
    · simp only [whiteC, h, if_true, List.flatMap_cons, List.flatMap_nil, List.append_nil, run_star_chr_head]
    · simp [whiteC, h]

/-- One scanner pass, deterministically. -/
theorem step_eq (s : Str) : step s =
    match lineC s with
    | some rest => .skip rest
    | none =>
    match blockC s with
    | some rest => .skip rest
    | none =>
    if s.take 2 = s% "{;" then .die else
    match whiteC s with
    | some rest => .skip rest
    | none =>
    match lexTok s with
    | some rest =>
      .tok (newToken (cut (s.take (s.length - rest.length))).1)
        (s.drop (cut (s.take (s.length - rest.length))).2)
    | none =>
    if (s% "\"`'").elem (s.headD ' ') || s.take 2 = s% "\\\"" then .die
    else .skip (s.drop 1) := by
  unfold step
  rw [match?_eq, head_line, match?_eq, head_block, match?_eq, head_white, match_token]
  cases lineC s with
  | some r => rfl
  | none =>
    cases blockC s with
    | some r => rfl
    | none =>
      simp only [Option.map_none]
      split
      · rfl
      · cases whiteC s with
        | some r => rfl
        | none => cases lexTok s <;> rfl

end Scan
end Pip
