import Verif.Lemmas.Local
/-! Composition of scanner passes. -/

set_option linter.unusedSimpArgs false

namespace Pip
open Rgx
namespace Scan

/-- The scanner loop with just enough passes. -/
def scanAll (s : Str) : Except Exc (List (Option Tok)) := loop s.length s

theorem tokenize_eq (code : Str) : tokenize code = scanAll ('\n' :: code) := rfl

theorem scanAll_nil : scanAll [] = .ok [] := rfl

theorem scanAll_skip {c : Char} {cs rest : Str} (h : step (c :: cs) = .skip rest) :
    scanAll (c :: cs) = scanAll rest := by
  have hg := step_good c cs
  unfold scanAll
  rw [List.length_cons, loop_cons, h]
  rw [h] at hg
  cases hg with
  | skip hl => simp only [List.length_cons] at hl; exact loop_fuel _ _ _ (by omega) (Nat.le_refl _)

theorem scanAll_tok {c : Char} {cs rest : Str} {t : Option Tok} (h : step (c :: cs) = .tok t rest) :
    scanAll (c :: cs) = (match scanAll rest with | .ok ts => .ok (t :: ts) | .error e => .error e) := by
  have hg := step_good c cs
  unfold scanAll
  rw [List.length_cons, loop_cons, h]
  rw [h] at hg
  cases hg with
  | tok hl =>
    simp only [List.length_cons] at hl
    have := loop_fuel cs.length rest.length rest (by omega) (Nat.le_refl _)
    simp only [this]
    cases loop rest.length rest <;> rfl

theorem scanAll_die {c : Char} {cs : Str} (h : step (c :: cs) = .die) :
    scanAll (c :: cs) = .error .incomplete := by
  unfold scanAll
  rw [List.length_cons, loop_cons, h]

def Step.app (x : Str) : Step → Step
  | .skip r => .skip (r ++ x)
  | .tok t r => .tok t (r ++ x)
  | .die => .die

theorem takeWhile_not_all {p : Char → Bool} {s : Str} (x : Str) (h : ¬ s.all p = true) :
    (s ++ x).takeWhile p = s.takeWhile p ∧ (s ++ x).dropWhile p = s.dropWhile p ++ x ∧ s.dropWhile p ≠ [] := by
  induction s with
  | nil => simp at h
  | cons c s ih =>
    by_cases hc : p c
    · have : ¬ s.all p = true := by simpa [hc] using h
      obtain ⟨h1, h2, h3⟩ := ih this
      simp [hc, h1, h2, h3]
    · simp [hc]

theorem lineC_append {s y : Str} (h : ¬ s.all isSpace = true) :
    lineC (s ++ '\n' :: y) = (lineC s).map (· ++ '\n' :: y) := by
  obtain ⟨h1, h2, h3⟩ := takeWhile_not_all ('\n' :: y) h
  unfold lineC
  rw [h1, h2]
  have hh : (s.dropWhile isSpace ++ '\n' :: y).head? = (s.dropWhile isSpace).head? := by
    cases hs : s.dropWhile isSpace with
    | nil => exact absurd hs h3
    | cons a b => rfl
  have ht : (s.dropWhile isSpace ++ '\n' :: y).tail = (s.dropWhile isSpace).tail ++ '\n' :: y := by
    cases hs : s.dropWhile isSpace with
    | nil => exact absurd hs h3
    | cons a b => rfl
  rw [hh, ht]
  have hnl : ∀ u : Str, (u ++ '\n' :: y).dropWhile (· != '\n') = u.dropWhile (· != '\n') ++ '\n' :: y :=
    fun u => dropWhile_sep (by decide) u y
  split
  · simp [hnl]
  · match s, h with
    | [], h => simp at h
    | [c], h =>
      have hc : c ≠ ' ' := by rintro rfl; exact h (by decide)
      simp [hc]
    | c :: d :: ds, h =>
      simp only [List.cons_append, List.take_succ_cons, List.take_zero, List.drop_succ_cons, List.drop_zero]
      split
      · simp [hnl]
      · rfl

theorem afterClose_append {s r : Str} (x : Str) (h : afterClose s = some r) :
    afterClose (s ++ x) = some (r ++ x) := by
  fun_induction afterClose s with
  | case1 => simp at h
  | case2 r => simp at h; subst h; rfl
  | case3 c cs h1 ih =>
    rw [List.cons_append, afterClose]
    · exact ih h
    · intro q hc hq
      cases cs with
      | nil => simp [afterClose] at h
      | cons d ds => simp at hq; exact h1 ds hc (by rw [hq.1])

theorem cut_le {w : Str} (h : w ≠ []) : (cut w).2 ≤ w.length := by
  have : 0 < w.length := List.length_pos_iff.2 h
  unfold cut
  by_cases hu : w ≠ [] ∧ w.all isUpperAZ
  · simp only [hu, and_self, if_true, ne_eq, not_false_eq_true]
    by_cases hp : w = s% "PIP"
    · subst hp; decide
    · simp only [hp, if_false]
      split <;> split <;> simp <;> omega
  · rw [if_neg hu]
    simp only []
    split <;> simp

theorem step_append {c : Char} {cs y : Str} (hs : ¬ (c :: cs).all isSpace = true)
    (hd : step (c :: cs) ≠ .die) : step (c :: cs ++ '\n' :: y) = (step (c :: cs)).app ('\n' :: y) := by
  rw [step_eq] at hd
  rw [step_eq, step_eq (c :: cs), lineC_append hs]
  cases hl : lineC (c :: cs) with
  | some r => rfl
  | none =>
    rw [hl] at hd
    simp only [Option.map_none] at hd ⊢
    have hb : blockC (c :: cs ++ '\n' :: y) = (blockC (c :: cs)).map (· ++ '\n' :: y) := by
      cases hbc : blockC (c :: cs) with
      | some r =>
        unfold blockC at hbc
        split at hbc
        · rename_i h; simp at h; obtain ⟨rfl, rfl⟩ := h
          simp only [List.cons_append, blockC]; rw [afterClose_append _ hbc]; rfl
        · simp at hbc
      | none =>
        rw [hbc] at hd
        simp only [Option.map_none]
        unfold blockC
        split
        · rename_i r h
          exfalso
          cases cs with
          | nil => simp at h
          | cons d ds => simp at h; obtain ⟨rfl, rfl, -⟩ := h; exact hd (by simp)
        · rfl
    rw [hb]
    cases hbc : blockC (c :: cs) with
    | some r => rfl
    | none =>
      rw [hbc] at hd
      simp only [Option.map_none] at hd ⊢
      have ht : (c :: cs ++ '\n' :: y).take 2 = s% "{;" ↔ (c :: cs).take 2 = s% "{;" := by
        cases cs with
        | nil => simp
        | cons d ds => simp
      by_cases hbr : (c :: cs).take 2 = s% "{;"
      · rw [if_pos hbr] at hd; exact absurd rfl hd
      · rw [if_neg hbr] at hd ⊢
        rw [if_neg (fun h => hbr (ht.1 h))]
        by_cases hw : isSpace c
        · have : ¬ cs.all isSpace = true := by simpa [hw] using hs
          simp only [List.cons_append, whiteC, hw, if_true, (takeWhile_not_all ('\n' :: y) this).2.1]
          rfl
        · have hw1 : whiteC (c :: cs ++ '\n' :: y) = none := by simp [whiteC, hw]
          have hw2 : whiteC (c :: cs) = none := by simp [whiteC, hw]
          rw [hw1, hw2]
          rw [hw2] at hd
          simp only [] at hd ⊢
          cases hx : lexTok (c :: cs) with
          | some r =>
            rw [lexTok_append sep_nl c cs y (.inr (by rw [hx]; rfl)), hx]
            obtain ⟨t, e, _, hne⟩ := lexTok_restrict hx
            rw [e]
            simp only [Option.map_some, List.append_assoc]
            have e1 : (t ++ (r ++ '\n' :: y)).take ((t ++ (r ++ '\n' :: y)).length - (r ++ '\n' :: y).length) = t := by
              rw [List.length_append, Nat.add_sub_cancel, List.take_left]
            have e2 : (t ++ r).take ((t ++ r).length - r.length) = t := by
              rw [List.length_append, Nat.add_sub_cancel, List.take_left]
            rw [e1, e2]
            simp only [Step.app]
            rw [← List.append_assoc, List.drop_append_of_le_length]
            rw [List.length_append]
            have := cut_le hne
            omega
          | none =>
            rw [hx] at hd
            simp only [] at hd
            by_cases hq : ((s% "\"`'").elem ((c :: cs).headD ' ') || (c :: cs).take 2 = s% "\\\"") = true
            · rw [if_pos hq] at hd; exact absurd rfl hd
            · have hnq : ¬ quoteStart (c :: cs) := by
                intro h; apply hq
                rcases h with h | h
                · simp only [h, Bool.true_or]
                · simp [h]
              rw [lexTok_append sep_nl c cs y (.inl hnq), hx]
              simp only [Option.map_none]
              have hq' : ((s% "\"`'").elem ((c :: cs ++ '\n' :: y).headD ' ') ||
                  (c :: cs ++ '\n' :: y).take 2 = s% "\\\"") = ((s% "\"`'").elem ((c :: cs).headD ' ') ||
                  (c :: cs).take 2 = s% "\\\"") := by
                cases cs with
                | nil => simp
                | cons d ds => simp
              rw [hq', if_neg hq, if_neg hq]
              rfl

theorem all_dropWhile {p q : Char → Bool} {s : Str} (h : s.all p = true) : (s.dropWhile q).all p = true := by
  rw [List.all_eq_true] at h ⊢
  intro x hx
  exact h x ((List.dropWhile_suffix q).subset hx)

/-- A pass over code made of white space. -/
theorem step_space {c : Char} {cs : Str} (hs : (c :: cs).all isSpace = true) :
    step (c :: cs) = .skip [] ∨
    ∃ ds, cs = ' ' :: ds ∧ c = ' ' ∧ step (c :: cs) = .skip (ds.dropWhile (· != '\n')) := by
  have hc : isSpace c = true := by simp only [List.all_cons, Bool.and_eq_true] at hs; exact hs.1
  have hcs : cs.all isSpace = true := by simp only [List.all_cons, Bool.and_eq_true] at hs; exact hs.2
  have hd : (c :: cs).dropWhile isSpace = [] := dropWhile_all hs
  rw [step_eq]
  unfold lineC
  rw [hd]
  simp only [List.head?_nil, reduceCtorEq, and_false, if_false]
  by_cases h2 : (c :: cs).take 2 = s% "  "
  · right
    cases cs with
    | nil => simp at h2
    | cons d ds => simp at h2; obtain ⟨rfl, rfl⟩ := h2; exact ⟨ds, rfl, rfl, by simp⟩
  · left
    rw [if_neg h2]
    have hb : blockC (c :: cs) = none := by
      unfold blockC; split
      · rename_i h; simp at h; obtain ⟨rfl, -⟩ := h; exact absurd hc (by decide)
      · rfl
    rw [hb]
    have hbr : ¬ (c :: cs).take 2 = s% "{;" := by
      intro h; simp at h; obtain ⟨rfl, -⟩ := h; exact absurd hc (by decide)
    simp only [if_neg hbr, whiteC, hc, if_true, dropWhile_all hcs]

theorem scanAll_space (n : Nat) : ∀ s : Str, s.length ≤ n → s.all isSpace = true → scanAll s = .ok [] := by
  induction n with
  | zero =>
    intro s h _
    have : s = [] := List.length_eq_zero_iff.1 (Nat.le_zero.1 h)
    subst this; rfl
  | succ n ih =>
    intro s hl hs
    cases s with
    | nil => rfl
    | cons c cs =>
      rcases step_space hs with h | ⟨ds, rfl, rfl, h⟩
      · rw [scanAll_skip h]; rfl
      · rw [scanAll_skip h]
        apply ih
        · have := (List.dropWhile_suffix (l := ds) (fun x => x != '\n')).length_le
          simp at hl; omega
        · apply all_dropWhile
          simp only [List.all_cons, Bool.and_eq_true] at hs
          exact hs.2.2

theorem takeWhile_all_append {p : Char → Bool} {s : Str} (x : Str) (h : s.all p = true) :
    (s ++ x).takeWhile p = s ++ x.takeWhile p ∧ (s ++ x).dropWhile p = x.dropWhile p := by
  induction s with
  | nil => simp
  | cons c s ih =>
    simp only [List.all_cons, Bool.and_eq_true] at h
    simp [h.1, ih h.2]

/-- White space before a newline disappears. -/
theorem scanAll_space_nl (n : Nat) : ∀ s y : Str, s.length ≤ n → s.all isSpace = true →
    scanAll (s ++ '\n' :: y) = scanAll ('\n' :: y) := by
  induction n with
  | zero =>
    intro s y h _
    have : s = [] := List.length_eq_zero_iff.1 (Nat.le_zero.1 h)
    subst this; rfl
  | succ n ih =>
    intro s y hl hs
    cases s with
    | nil => rfl
    | cons c cs =>
      have hc : isSpace c = true := by simp only [List.all_cons, Bool.and_eq_true] at hs; exact hs.1
      have hcs : cs.all isSpace = true := by simp only [List.all_cons, Bool.and_eq_true] at hs; exact hs.2
      obtain ⟨h1, h2⟩ := takeWhile_all_append ('\n' :: y) hs
      have step_nl : step ('\n' :: y) =
          if (y.dropWhile isSpace).head? = some ';' then
            .skip ((y.dropWhile isSpace).tail.dropWhile (· != '\n'))
          else .skip (y.dropWhile isSpace) := by
        rw [step_eq]
        have hsp : ('\n' :: y).dropWhile isSpace = y.dropWhile isSpace := by simp [isSpace_nl]
        have hm : '\n' ∈ ('\n' :: y).takeWhile isSpace := by simp [isSpace_nl]
        unfold lineC
        rw [hsp]
        by_cases hsc : (y.dropWhile isSpace).head? = some ';'
        · simp only [hm, hsc, and_self, if_true]
        · simp [hsc, blockC, whiteC, isSpace_nl]
      have hsp : ('\n' :: y).dropWhile isSpace = y.dropWhile isSpace := by simp [isSpace_nl]
      have hm : '\n' ∈ (c :: cs ++ '\n' :: y).takeWhile isSpace := by
        rw [h1]; simp [isSpace_nl]
      by_cases hsc : (y.dropWhile isSpace).head? = some ';'
      · have e : step (c :: cs ++ '\n' :: y) = .skip ((y.dropWhile isSpace).tail.dropWhile (· != '\n')) := by
          rw [step_eq]
          unfold lineC
          rw [h2, hsp]
          simp only [hm, hsc, and_self, if_true]
        rw [List.cons_append] at e ⊢
        rw [scanAll_skip e]
        rw [if_pos hsc] at step_nl
        rw [scanAll_skip step_nl]
      · rw [if_neg hsc] at step_nl
        by_cases h2s : (c :: cs ++ '\n' :: y).take 2 = s% "  "
        · cases cs with
          | nil => simp at h2s
          | cons d ds =>
            simp at h2s; obtain ⟨rfl, rfl⟩ := h2s
            have e : step (' ' :: ' ' :: ds ++ '\n' :: y) = .skip (ds.dropWhile (· != '\n') ++ '\n' :: y) := by
              rw [step_eq]
              unfold lineC
              rw [h2, hsp]
              simp only [hsc, and_false, if_false]
              rw [if_pos (by rfl)]
              simp only [List.cons_append, List.drop_succ_cons, List.drop_zero]
              rw [dropWhile_sep (by decide)]
            rw [List.cons_append] at e ⊢
            rw [scanAll_skip e]
            apply ih
            · have := (List.dropWhile_suffix (l := ds) (fun x => x != '\n')).length_le
              simp at hl; omega
            · apply all_dropWhile
              simp only [List.all_cons, Bool.and_eq_true] at hcs
              exact hcs.2
        · have e : step (c :: cs ++ '\n' :: y) = .skip (y.dropWhile isSpace) := by
            rw [step_eq]
            unfold lineC
            rw [h2, hsp, if_neg h2s]
            simp only [hsc, and_false, if_false]
            have hb : blockC (c :: cs ++ '\n' :: y) = none := by
              unfold blockC; split
              · rename_i h; simp at h; obtain ⟨rfl, -⟩ := h; exact absurd hc (by decide)
              · rfl
            have hbr : ¬ (c :: cs ++ '\n' :: y).take 2 = s% "{;" := by
              intro h; simp at h; obtain ⟨rfl, -⟩ := h; exact absurd hc (by decide)
            rw [hb]
            simp only [if_neg hbr]
            simp only [List.cons_append, whiteC, hc, if_true]
            rw [(takeWhile_all_append ('\n' :: y) hcs).2, hsp]
          rw [List.cons_append] at e ⊢
          rw [scanAll_skip e, scanAll_skip step_nl]

/-- Scanning composes at a newline. -/
theorem scanAll_append (n : Nat) : ∀ (s y : Str) (ts : List (Option Tok)), s.length ≤ n → scanAll s = .ok ts →
    scanAll (s ++ '\n' :: y) =
      (match scanAll ('\n' :: y) with | .ok us => .ok (ts ++ us) | .error e => .error e) := by
  induction n with
  | zero =>
    intro s y ts h hs
    have : s = [] := List.length_eq_zero_iff.1 (Nat.le_zero.1 h)
    subst this
    rw [scanAll_nil] at hs
    simp at hs; subst hs
    simp only [List.nil_append]
    split <;> simp [*]
  | succ n ih =>
    intro s y ts hl hs
    by_cases hsp : s.all isSpace = true
    · rw [scanAll_space _ _ (Nat.le_refl _) hsp] at hs
      simp at hs; subst hs
      rw [scanAll_space_nl _ _ _ (Nat.le_refl _) hsp]
      simp only [List.nil_append]
      split <;> simp [*]
    · cases s with
      | nil => simp at hsp
      | cons c cs =>
        have hd : step (c :: cs) ≠ .die := by
          intro h; rw [scanAll_die h] at hs; simp at hs
        have hg := step_good c cs
        have ha := step_append (y := y) hsp hd
        cases hst : step (c :: cs) with
        | die => exact absurd hst hd
        | skip r =>
          rw [hst] at ha hg
          rw [scanAll_skip hst] at hs
          cases hg with
          | skip hlt =>
            simp only [List.length_cons] at hlt hl
            have := ih r y ts (by omega) hs
            rw [List.cons_append] at ha ⊢
            rw [scanAll_skip ha, this]
        | tok t r =>
          rw [hst] at ha hg
          rw [scanAll_tok hst] at hs
          cases hr : scanAll r with
          | error e => rw [hr] at hs; simp at hs
          | ok us =>
            rw [hr] at hs
            simp at hs; subst hs
            cases hg with
            | tok hlt =>
              simp only [List.length_cons] at hlt hl
              have := ih r y us (by omega) hr
              rw [List.cons_append] at ha ⊢
              rw [scanAll_tok ha, this]
              cases scanAll ('\n' :: y) <;> simp

end Scan
end Pip
