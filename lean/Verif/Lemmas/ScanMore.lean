import Verif.Lemmas.ScanAll
import Verif.Spec.Scan
/-! Scanning code to which lines are added. -/

namespace Pip
namespace Scan

theorem afterClose_nl (r : Str) (h : afterClose r = none) : afterClose (r ++ s% "\n\n") = none := by
  fun_induction afterClose r with
  | case1 => decide
  | case2 r => simp at h
  | case3 c cs h1 ih =>
    rw [List.cons_append]
    have := ih h
    cases cs with
    | nil => 
      rw [afterClose]
      · exact this
      · intro r hr hc; simp at hc
    | cons d ds =>
      rw [afterClose]
      · exact this
      · intro r hr hc
        simp at hc
        exact h1 ds hr (by rw [hc.1])

theorem dropQuote_nl (q : Char) (hq : q ≠ '\n') (cs : Str) (h : cs.dropWhile (· != q) = []) :
    (cs ++ s% "\n\n").dropWhile (· != q) = [] := by
  induction cs with
  | nil => simp [hq.symm]
  | cons c cs ih =>
    simp only [List.dropWhile_cons] at h
    split at h
    · next hc => simp only [List.cons_append, List.dropWhile_cons, hc, if_true]; exact ih h
    · simp at h

theorem lexPat_nl (cs : Str) (h : lexPat cs = none) : lexPat (cs ++ s% "\n\n") = none := by
  fun_induction lexPat cs with
  | case1 => decide
  | case2 => simp at h
  | case3 cs => rfl
  | case4 c cs hc ih => simp [lexPat, hc, ih h]
  | case5 cs h1 h2 =>
    cases cs with
    | nil => rfl
    | cons d ds => exact absurd rfl (h2 d ds rfl)
  | case6 c cs h1 h2 h3 ih =>
    rw [List.cons_append, lexPat]
    · rw [if_neg h3]; exact ih h
    · exact h1
    · intro d ds e; exact absurd e h3

theorem lexEsc_nl (cs : Str) (h : lexEsc cs = none) : lexEsc (cs ++ s% "\n\n") = none := by
  fun_induction lexEsc cs with
  | case1 => decide
  | case2 => simp at h
  | case3 c cs hc ih => simp [lexEsc, hc, ih h]
  | case4 cs h1 =>
    cases cs with
    | nil => decide
    | cons d ds => exact absurd rfl (h1 d ds rfl)
  | case5 c cs h1 h3 ih =>
    rw [List.cons_append, lexEsc]
    · rw [if_neg h3]; exact ih h
    · intro d ds e; exact absurd e h3

/-- The scanner gives up on some code, but not if newlines follow: the code is a single quote. -/
theorem step_die_nl {c : Char} {cs : Str} (hs : ¬ (c :: cs).all isSpace = true) (hd : step (c :: cs) = .die)
    (hn : step (c :: cs ++ s% "\n\n") ≠ .die) : c = '\'' ∧ cs = [] := by
  rw [step_eq] at hd
  cases hl : lineC (c :: cs) with
  | some r => rw [hl] at hd; simp at hd
  | none =>
    rw [hl] at hd
    rw [step_eq, show (c :: cs ++ s% "\n\n") = (c :: cs ++ '\n' :: s% "\n") from rfl, lineC_append hs, hl] at hn
    simp only [Option.map_none] at hd hn
    cases hb : blockC (c :: cs) with
    | some r => rw [hb] at hd; simp at hd
    | none =>
      rw [hb] at hd
      simp only at hd
      have ht : (c :: cs ++ '\n' :: s% "\n").take 2 = s% "{;" ↔ (c :: cs).take 2 = s% "{;" := by
        cases cs with
        | nil => simp
        | cons d ds => simp
      have hb' : blockC (c :: cs ++ '\n' :: s% "\n") = none := by
        cases cs with
        | nil => simp [blockC]
        | cons d ds =>
          unfold blockC at hb ⊢
          split
          · next r h =>
            simp only [List.cons_append, List.cons.injEq] at h
            obtain ⟨rfl, rfl, rfl⟩ := h
            simp only at hb
            exact afterClose_nl ds hb
          · rfl
      rw [hb'] at hn
      simp only at hn
      by_cases hbr : (c :: cs).take 2 = s% "{;"
      · rw [if_pos (ht.2 hbr)] at hn; exact absurd rfl hn
      · rw [if_neg hbr] at hd
        rw [if_neg (fun h => hbr (ht.1 h))] at hn
        by_cases hw : isSpace c
        · simp [whiteC, hw] at hd
        · have hw1 : whiteC (c :: cs ++ '\n' :: s% "\n") = none := by simp [whiteC, hw]
          have hw2 : whiteC (c :: cs) = none := by simp [whiteC, hw]
          rw [hw1] at hn
          rw [hw2] at hd
          simp only at hd hn
          cases hx : lexTok (c :: cs) with
          | some r => rw [hx] at hd; simp at hd
          | none =>
            rw [hx] at hd
            simp only at hd
            have hq' : ((s% "\"`'").elem ((c :: cs ++ '\n' :: s% "\n").headD ' ') ||
                (c :: cs ++ '\n' :: s% "\n").take 2 = s% "\\\"") = ((s% "\"`'").elem ((c :: cs).headD ' ') ||
                (c :: cs).take 2 = s% "\\\"") := by
              cases cs with
              | nil => simp
              | cons d ds => simp
            rw [hq'] at hn
            split at hd
            · next hq =>
              rw [if_pos hq] at hn
              have hx' : lexTok (c :: cs ++ '\n' :: s% "\n") ≠ none := by
                intro h; rw [h] at hn; exact absurd rfl hn
              simp only [List.headD_cons, List.elem_eq_contains, List.contains_cons, List.contains_nil, Bool.or_eq_true,
                beq_iff_eq, Bool.false_eq_true, or_false, decide_eq_true_eq] at hq
              rcases hq with (rfl | rfl | rfl) | hq
              · exfalso; apply hx'
                have e : cs.dropWhile (· != '"') = [] := by
                  have : lexTok ('"' :: cs) = (match cs.dropWhile (· != '"') with | _ :: r => some r | [] => none) := rfl
                  rw [this] at hx
                  split at hx
                  · cases hx
                  · assumption
                have := dropQuote_nl '"' (by decide) cs e
                show (match (cs ++ '\n' :: s% "\n").dropWhile (· != '"') with | _ :: r => some r | [] => none) = none
                rw [show cs ++ '\n' :: s% "\n" = cs ++ s% "\n\n" from rfl, this]
              · exfalso; apply hx'
                have : lexTok ('`' :: cs) = lexPat cs := rfl
                rw [this] at hx
                exact lexPat_nl cs hx
              · refine ⟨rfl, ?_⟩
                cases cs with
                | nil => rfl
                | cons d ds =>
                  have : lexTok ('\'' :: d :: ds) = some ds := rfl
                  rw [this] at hx
                  cases hx
              · exfalso; apply hx'
                cases cs with
                | nil => simp at hq
                | cons d ds =>
                  simp only [List.take_succ_cons, List.take_zero, List.cons.injEq, and_true] at hq
                  obtain ⟨rfl, rfl⟩ := hq
                  exact lexEsc_nl ds hx
            · cases hd

theorem prefixed_nil (x) : prefixed [] x = x := by cases x <;> rfl

/-- The tokens of some lines of code do not change when further lines are added. -/
theorem scanAll_more (n : Nat) : ∀ (s y : Str) (ts : List (Option Tok)), s.length ≤ n →
    scanAll (s ++ s% "\n\n") = .ok ts → ∃ rest, scanAll (s ++ '\n' :: y) = prefixed ts (scanAll rest) := by
  induction n with
  | zero =>
    intro s y ts h hs
    have : s = [] := List.length_eq_zero_iff.1 (Nat.le_zero.1 h)
    subst this
    have e : scanAll (s% "\n\n") = .ok [] := by decide +kernel
    rw [List.nil_append, e] at hs
    simp at hs; subst hs
    exact ⟨'\n' :: y, by rw [prefixed_nil]; rfl⟩
  | succ n ih =>
    intro s y ts hl hs
    by_cases hsp : s.all isSpace = true
    · rw [scanAll_space _ _ (Nat.le_refl _) (by simp only [List.all_append, hsp]; decide)] at hs
      simp at hs; subst hs
      exact ⟨s ++ '\n' :: y, (prefixed_nil _).symm⟩
    · cases s with
      | nil => simp at hsp
      | cons c cs =>
        have hd2 : step (c :: cs ++ s% "\n\n") ≠ .die := by
          intro h; rw [List.cons_append] at h hs; rw [scanAll_die h] at hs; simp at hs
        have hg := step_good c cs
        by_cases hd : step (c :: cs) = .die
        · obtain ⟨rfl, rfl⟩ := step_die_nl hsp hd hd2
          have e : scanAll (['\''] ++ s% "\n\n") = .ok [newToken (s% "'\n")] := by decide +kernel
          rw [e] at hs
          simp at hs; subst hs
          refine ⟨y, ?_⟩
          have e1 : step ('\'' :: '\n' :: y) = .tok (newToken (s% "'\n")) y := by
            have hlt : lexTok ('\'' :: '\n' :: y) = some y := rfl
            have hlc : lineC ('\'' :: '\n' :: y) = none := by simp [lineC, show isSpace '\'' = false by decide]
            rw [step_eq, hlc, hlt]
            have h1 : ('\'' :: '\n' :: y).take (('\'' :: '\n' :: y).length - y.length) = s% "'\n" := by
              rw [show ('\'' :: '\n' :: y).length - y.length = 2 by simp only [List.length_cons]; omega]
              rfl
            simp only [h1]
            have h2 : cut (s% "'\n") = (s% "'\n", 2) := by decide
            simp [blockC, whiteC, show isSpace '\'' = false by decide, h2]
          show scanAll ('\'' :: '\n' :: y) = _
          rw [scanAll_tok e1]
          cases scanAll y <;> rfl
        · have ha := step_append (y := y) hsp hd
          have ha2 := step_append (y := s% "\n") hsp hd
          cases hst : step (c :: cs) with
          | die => exact absurd hst hd
          | skip r =>
            rw [hst] at ha ha2 hg
            have hs' : scanAll (r ++ s% "\n\n") = .ok ts := by
              have : scanAll (c :: cs ++ s% "\n\n") = scanAll (r ++ s% "\n\n") := scanAll_skip ha2
              rw [← this, hs]
            cases hg with
            | skip hlt =>
              simp only [List.length_cons] at hlt hl
              obtain ⟨rest, hr⟩ := ih r y ts (by omega) hs'
              refine ⟨rest, ?_⟩
              rw [List.cons_append] at ha ⊢
              rw [scanAll_skip ha, hr]
          | tok t r =>
            rw [hst] at ha ha2 hg
            have e : scanAll (c :: cs ++ s% "\n\n") = _ := scanAll_tok ha2
            rw [e] at hs
            cases hr : scanAll (r ++ s% "\n\n") with
            | error e =>
              rw [show r ++ '\n' :: s% "\n" = r ++ s% "\n\n" from rfl, hr] at hs; simp at hs
            | ok us =>
              rw [show r ++ '\n' :: s% "\n" = r ++ s% "\n\n" from rfl, hr] at hs
              simp at hs; subst hs
              cases hg with
              | tok hlt =>
                simp only [List.length_cons] at hlt hl
                obtain ⟨rest, hr'⟩ := ih r y us (by omega) hr
                refine ⟨rest, ?_⟩
                rw [List.cons_append] at ha ⊢
                rw [scanAll_tok ha, hr']
                cases scanAll rest <;> rfl

end Scan
end Pip
