import Verif.Lemmas.Respace
import Verif.Spec.Scan
/-! Runs of capitals (scanning.py:102-118). -/

set_option linter.unusedSimpArgs false

namespace Pip

namespace Scan

theorem step_caps {a : Char} {as rest : Str} (ha : (a :: as).all isUpperAZ = true)
    (hr : ∀ c, rest.head? = some c → isUpperAZ c = false) :
    step (a :: (as ++ rest)) = .tok (newToken (cut (a :: as)).1) ((a :: as ++ rest).drop (cut (a :: as)).2) := by
  have hall := ha
  simp only [List.all_cons, Bool.and_eq_true] at hall
  have hd : (as ++ rest).dropWhile isUpperAZ = rest := by
    rw [(takeWhile_all_append rest hall.2).2]
    cases rest with
    | nil => rfl
    | cons c cs => simp [hr c rfl]
  have hl : lexTok (a :: (as ++ rest)) = some rest := by simp only [lexTok, hall.1, if_true, hd]
  have hb : (a :: (as ++ rest)).take 2 ≠ s% "{;" := by
    intro h
    have : a = '{' := by simp at h; exact h.1
    subst this; exact absurd hall.1 (by decide)
  rw [step_lex (upper_not_space hall.1) hb hl]
  have e : (a :: (as ++ rest)).take ((a :: (as ++ rest)).length - rest.length) = a :: as := by
    rw [← List.cons_append, List.length_append, Nat.add_sub_cancel, List.take_left]
  rw [e]; rfl

theorem prefixed_nil (r) : prefixed [] r = r := by cases r <;> rfl
theorem prefixed_append (a b r) : prefixed (a ++ b) r = prefixed a (prefixed b r) := by cases r <;> simp [prefixed]

theorem scanAll_tok' {c : Char} {cs rest : Str} {t : Option Tok} (h : step (c :: cs) = .tok t rest) :
    scanAll (c :: cs) = prefixed [t] (scanAll rest) := by
  rw [scanAll_tok h]; cases scanAll rest <;> rfl

theorem scan_caps (n : Nat) : ∀ w rest : Str, w.length ≤ n → w.all isUpperAZ = true → w ≠ s% "PIP" →
    (∀ c, rest.head? = some c → isUpperAZ c = false) →
    ∃ us : List Tok, us.map (·.text) = capPieces w ∧
      scanAll (w ++ rest) = prefixed (us.map some) (scanAll rest) := by
  induction n with
  | zero =>
    intro w rest h _ _ _
    have : w = [] := List.length_eq_zero_iff.1 (Nat.le_zero.1 h)
    subst this
    exact ⟨[], rfl, (prefixed_nil _).symm⟩
  | succ n ih =>
    intro w rest hl hw hp hr
    match w with
    | [] => exact ⟨[], rfl, (prefixed_nil _).symm⟩
    | a :: as =>
      have hall := hw
      simp only [List.all_cons, Bool.and_eq_true] at hall
      have hst := step_caps hw hr
      have hg := step_good a (as ++ rest)
      rw [hst] at hg
      by_cases hodd : (a :: as).length % 2 = 1
      · have hcut : cut (a :: as) = ([a], 1) := by
          unfold cut
          rw [if_pos ⟨by simp, hw⟩]
          simp only [if_pos hodd, if_neg hp, List.take_succ_cons, List.take_zero]
          rw [if_neg (by simp)]
        rw [hcut] at hst hg
        simp only [List.cons_append, List.drop_succ_cons, List.drop_zero] at hst hg
        have hne : as ≠ s% "PIP" := by rintro rfl; simp at hodd
        simp only [List.length_cons] at hl hodd
        obtain ⟨us, h1, h2⟩ := ih as rest (by omega) hall.2 hne hr
        generalize hnt : newToken [a] = t at hst hg
        cases hg with
        | tok _ =>
          rename_i t _
          refine ⟨t :: us, ?_, ?_⟩
          · rw [List.map_cons, newToken_text hnt, h1]
            unfold capPieces
            have : ¬ as.length % 2 = 1 := by omega
            simp [hodd, this]
          · rw [List.cons_append, scanAll_tok' hst, h2, ← prefixed_append]; rfl
      · match as with
        | [] => simp at hodd
        | b :: bs =>
          simp only [List.all_cons, Bool.and_eq_true] at hall
          simp only [List.length_cons] at hl
          have hev : ¬ bs.length % 2 = 1 := by simp only [List.length_cons] at hodd; omega
          by_cases hei : [a, b] = s% "EI"
          · have hcut : cut (a :: b :: bs) = (s% "EL", 1) := by
              unfold cut
              rw [if_pos ⟨by simp, hw⟩]
              simp only [if_neg hodd, if_neg hp, List.take_succ_cons, List.take_zero]
              rw [if_pos hei]
            rw [hcut] at hst hg
            simp only [List.cons_append, List.drop_succ_cons, List.drop_zero] at hst hg
            simp at hei
            obtain ⟨rfl, rfl⟩ := hei
            obtain ⟨us, h1, h2⟩ := ih ('I' :: bs) rest (by simp; omega) (by simp [hall.2.1]; simpa using hall.2.2)
              (by simp) hr
            generalize hnt : newToken (s% "EL") = t at hst hg
            cases hg with
            | tok _ =>
              rename_i t _
              refine ⟨t :: us, ?_, ?_⟩
              · rw [List.map_cons, newToken_text hnt, h1]
                unfold capPieces
                rw [if_neg hodd, if_pos (by simp only [List.length_cons]; omega)]
                simp [capPairs]
              · rw [List.cons_append, List.cons_append, scanAll_tok' hst]
                rw [List.cons_append] at h2
                rw [h2, ← prefixed_append]; rfl
          · have hcut : cut (a :: b :: bs) = ([a, b], 2) := by
              unfold cut
              rw [if_pos ⟨by simp, hw⟩]
              simp only [if_neg hodd, if_neg hp, List.take_succ_cons, List.take_zero]
              rw [if_neg hei]
            rw [hcut] at hst hg
            simp only [List.cons_append, List.drop_succ_cons, List.drop_zero] at hst hg
            have hne : bs ≠ s% "PIP" := by rintro rfl; simp at hev
            obtain ⟨us, h1, h2⟩ := ih bs rest (by omega) hall.2.2 hne hr
            generalize hnt : newToken [a, b] = t at hst hg
            cases hg with
            | tok _ =>
              rename_i t _
              refine ⟨t :: us, ?_, ?_⟩
              · rw [List.map_cons, newToken_text hnt, h1]
                unfold capPieces
                rw [if_neg hodd, if_neg hev]
                simp only [capPairs, if_neg hei, List.singleton_append]
              · rw [List.cons_append, List.cons_append, scanAll_tok' hst, h2, ← prefixed_append]; rfl

/-- The first pass of `tokenize`, before a character that is neither space nor `;`. -/
theorem tokenize_solid_head {c : Char} {cs : Str} (hc : isSpace c = false) (hs : c ≠ ';') :
    tokenize (c :: cs) = scanAll (c :: cs) := by
  rw [tokenize_eq]
  apply scanAll_skip
  rw [step_eq]
  have hsp : ('\n' :: c :: cs).dropWhile isSpace = c :: cs := by simp [isSpace_nl, hc]
  have h1 : lineC ('\n' :: c :: cs) = none := by
    unfold lineC
    rw [hsp]
    simp
    exact fun _ => hs
  rw [h1]
  simp [blockC, whiteC, isSpace_nl, hc]

theorem step_a (rest : Str) : step ('a' :: rest) = .tok (some ⟨.name, s% "a"⟩) rest := by
  have hl : lexTok ('a' :: rest) = some rest := by
    simp [lexTok, show isUpperAZ 'a' = false by decide, show isLow1 'a' = true by decide]
  have hb : ('a' :: rest).take 2 ≠ s% "{;" := by
    intro h; simp at h
  rw [step_lex (by decide) hb hl]
  have e : ('a' :: rest).take (('a' :: rest).length - rest.length) = s% "a" := by
    rw [List.length_cons, Nat.add_sub_cancel_left]; rfl
  rw [e]
  rw [show cut (s% "a") = (s% "a", 1) by decide, show newToken (s% "a") = some ⟨.name, s% "a"⟩ by decide +kernel]
  rfl

end Scan
end Pip
