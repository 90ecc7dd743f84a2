import Verif.Lemmas.ShowParse
/-! The last characters of displayed texts. -/

set_option linter.unusedSimpArgs false

namespace Pip
open Rgx Scan PP

theorem bad_of {p : Char → Bool} (h1 : p ' ' = false) (h2 : p ';' = false) {z : Char} (hz : p z = true) : ¬ Bad z := by
  rintro (rfl | rfl)
  · rw [hz] at h1; cases h1
  · rw [hz] at h2; cases h2

theorem last_cons (c : Char) {cs : Str} (h : cs ≠ []) : (c :: cs).getLast? = cs.getLast? := by
  cases cs with
  | nil => exact absurd rfl h
  | cons d ds => simp

theorem last_append (s : Str) {t : Str} (h : t ≠ []) : (s ++ t).getLast? = t.getLast? := by
  rw [List.getLast?_append]
  cases ht : t.getLast? with
  | none => exact absurd (List.getLast?_eq_none_iff.1 ht) h
  | some z => rfl

theorem all_of_dropWhile {p : Char → Bool} : ∀ {cs : Str}, cs.dropWhile p = [] → ∀ x ∈ cs, p x = true
  | [], _, x, hx => by simp at hx
  | c :: cs, h, x, hx => by
    rw [List.dropWhile_cons] at h
    split at h
    · rcases List.mem_cons.1 hx with rfl | hx
      · assumption
      · exact all_of_dropWhile h x hx
    · simp at h

theorem last_dropWhile {p : Char → Bool} (h1 : p ' ' = false) (h2 : p ';' = false) {cs : Str} (h : cs.dropWhile p = []) {z : Char}
    (hz : z ∈ cs.getLast?) : ¬ Bad z := by
  have h3 : ∀ x ∈ cs, p x = true := all_of_dropWhile h
  exact bad_of h1 h2 (h3 z (List.mem_of_getLast? hz))

theorem lexPat_last : ∀ (cs : Str), lexPat cs = some [] → cs.getLast? = some '`'
  | [], h => by simp [lexPat] at h
  | [c], h => by
    unfold lexPat at h
    split at h
    · simp at h
    · rename_i e; simp at e; simp [e]
    · rename_i e; simp at e
    · rename_i e; simp at e; obtain ⟨rfl, rfl⟩ := e; split at h <;> simp [lexPat] at h
  | c :: d :: ds, h => by
    unfold lexPat at h
    split at h
    · simp at h
    · rename_i e; simp at e h; rw [h] at e; simp at e
    · rename_i a b l e
      simp at e; obtain ⟨rfl, rfl, rfl⟩ := e
      split at h
      · simp at h
      · have := lexPat_last ds h
        rw [List.getLast?_cons_cons, last_cons _ (by rintro rfl; simp at this), this]
    · rename_i e
      simp at e; obtain ⟨rfl, rfl⟩ := e
      split at h
      · simp at h
      · have := lexPat_last (d :: ds) h
        rw [List.getLast?_cons_cons, this]

theorem lexEsc_last : ∀ (cs : Str), lexEsc cs = some [] → cs.getLast? = some '"'
  | [], h => by simp [lexEsc] at h
  | [c], h => by
    unfold lexEsc at h
    split at h
    · simp at h
    · rename_i e; simp at e
    · rename_i e; simp at e; obtain ⟨rfl, rfl⟩ := e; split at h <;> simp [lexEsc] at h
  | c :: d :: ds, h => by
    unfold lexEsc at h
    split at h
    · simp at h
    · rename_i a b l e
      simp at e; obtain ⟨rfl, rfl, rfl⟩ := e
      split at h
      · rename_i hd; simp at h; subst hd h; simp
      · have := lexEsc_last ds h
        rw [List.getLast?_cons_cons, last_cons _ (by rintro rfl; simp at this), this]
    · rename_i e
      simp at e; obtain ⟨rfl, rfl⟩ := e
      split at h
      · simp at h
      · have := lexEsc_last (d :: ds) h
        rw [List.getLast?_cons_cons, this]

theorem op_last : ∀ t ∈ operatorTexts, t.getLast? ≠ some ' ' ∧ t.getLast? ≠ some ';' := by decide +kernel

theorem lexOp_last {c : Char} {cs : Str} (h : lexOp c cs = some []) {z : Char} (hz : z ∈ (c :: cs).getLast?) : ¬ Bad z := by
  have key : (c :: cs) ∈ operatorTexts := by
    unfold lexOp at h
    split at h
    · split at h
      · assumption
      · simp at h
    · split at h
      · simp at h; subst h; assumption
      · split at h <;> simp at h
  have := op_last _ key
  rintro (rfl | rfl)
  · exact this.1 hz
  · exact this.2 hz

theorem lexNum_last {cs : Str} (h : lexNum cs = []) {z : Char} (hz : z ∈ cs.getLast?) : ¬ Bad z := by
  unfold lexNum at h
  split at h
  · rename_i d ds e
    split at h
    · rename_i hd
      have e2 : cs = cs.takeWhile isDigit ++ '.' :: d :: ds := by rw [← e, List.takeWhile_append_dropWhile]
      rw [e2, last_append _ (by simp), List.getLast?_cons_cons] at hz
      cases ds with
      | nil => simp at hz; subst hz; exact bad_of (p := isDigit) (by decide) (by decide) hd
      | cons a as =>
        rw [List.getLast?_cons_cons] at hz
        exact last_dropWhile (p := isDigit) (by decide) (by decide) h hz
    · simp at h
  · exact last_dropWhile (p := isDigit) (by decide) (by decide) h hz

theorem lexDollar_last {cs : Str} (h : lexDollar cs = []) {z : Char} (hz : z ∈ cs.getLast?) : ¬ Bad z := by
  unfold lexDollar at h
  split at h
  · simp at hz
  · rename_i c cs
    split at h
    · rename_i hc
      subst h
      simp at hz; subst hz
      exact bad_of (p := fun c => (s% "][()$`'").elem c || isDigit09 c) (by decide) (by decide) hc
    · split at h
      · rename_i hc
        cases cs with
        | nil => simp at hz; subst hz; exact bad_of (p := isLowerAZ) (by decide) (by decide) hc
        | cons a as => rw [List.getLast?_cons_cons] at hz; exact last_dropWhile (p := isIdent) (by decide) (by decide) h hz
      · split at h
        · rename_i hc
          unfold lexUnder at h
          split at h
          · subst h; simp at hz; subst hz; simp [Bad]
          · subst h; simp at hz; subst hz; simp [Bad]
          · subst h; simp at hz; subst hz; subst hc; simp [Bad]
        · simp at h

/-- Tokens end in a space or a semicolon only if they are character literals or the semicolon. -/
theorem solid_last {w : Str} (hs : Solid w) {z : Char} (hz : z ∈ w.getLast?) (hb : Bad z) : w = ['\'', z] ∨ w = s% ";" := by
  have h := hs.lex
  unfold lexTok at h
  split at h
  · simp at h
  · rename_i c cs
    have one : cs = [] → z = c := by rintro rfl; simp at hz; exact hz.symm
    have more : cs ≠ [] → z ∈ cs.getLast? := fun hc => by rwa [last_cons c hc] at hz
    split at h
    · rename_i hc
      simp only [Option.some.injEq] at h
      by_cases e : cs = []
      · rw [one e] at hb; exact absurd hb (bad_of (p := isUpperAZ) (by decide) (by decide) hc)
      · exact absurd hb (last_dropWhile (p := isUpperAZ) (by decide) (by decide) h (more e))
    · split at h
      · rename_i hc
        simp at h
        rw [one h] at hb; exact absurd hb (bad_of (p := isLow1) (by decide) (by decide) hc)
      · split at h
        · rename_i hc
          simp only [Option.some.injEq] at h
          by_cases e : cs = []
          · rw [one e, hc] at hb; simp [Bad] at hb
          · exact absurd hb (lexDollar_last h (more e))
        · split at h
          · rename_i hc
            subst hc
            unfold lexBack at h
            split at h
            · exact absurd hb (lexOp_last h hz)
            · rename_i d ds
              have hz' := more (by simp)
              split at h
              · rename_i hd
                simp at h; subst h; simp at hz'; subst hz'
                exact absurd hb (bad_of (p := isAG) (by decide) (by decide) hd)
              · split at h
                · rename_i hd
                  have h4 := lexEsc_last _ h
                  rw [last_cons d (by rintro rfl; simp at h4), h4] at hz'
                  simp at hz'; subst hz'; simp [Bad] at hb
                · split at h
                  · rename_i hd
                    simp at h; subst h; simp at hz'; subst hz'; subst hd; simp [Bad] at hb
                  · exact absurd hb (lexOp_last h hz)
          · split at h
            · rename_i hc
              split at h
              · rename_i x r e
                simp at h; subst h
                have e2 : cs = cs.takeWhile (· != '"') ++ [x] := by rw [← e, List.takeWhile_append_dropWhile]
                have hx : x = '"' := by
                  have := List.head?_dropWhile_not (p := (· != '"')) (l := cs)
                  rw [e] at this; simpa using this
                have hz' := more (by rintro rfl; simp at e)
                rw [e2, last_append _ (by simp)] at hz'
                simp at hz'; subst hz'; subst hx; simp [Bad] at hb
              · simp at h
            · split at h
              · have h4 := lexPat_last _ h
                rw [last_cons c (by rintro rfl; simp at h4), h4] at hz
                simp at hz; subst hz; simp [Bad] at hb
              · split at h
                · rename_i hc
                  subst hc
                  split at h
                  · simp at h; subst h; simp at hz; subst hz; exact .inl rfl
                  · simp at h
                · split at h
                  · rename_i hc
                    simp only [Option.some.injEq] at h
                    by_cases e : cs = []
                    · rw [one e] at hb; exact absurd hb (bad_of (p := isDigit) (by decide) (by decide) hc)
                    · exact absurd hb (lexNum_last h (more e))
                  · split at h
                    · rename_i hc
                      simp at h
                      subst h
                      have := one rfl
                      subst this
                      rcases hb with rfl | rfl
                      · exact absurd hc (by decide)
                      · exact .inr rfl
                    · exact absurd hb (lexOp_last h hz)

theorem tok_last {t : Tok} (h : TokOK t) {z : Char} (hz : z ∈ t.text.getLast?) (hb : Bad z) : t.text = s% "' " ∨ t.text = s% "';" := by
  rcases solid_last h.solid hz hb with e | e
  · rcases hb with rfl | rfl
    · exact .inl e
    · exact .inr e
  · obtain ⟨k, w, e2, _, _, _, h4⟩ := (first_tok h []).1
    simp at e2; rw [← e2.1] at h4; exact absurd e h4

/-! ### By category -/

theorem text_not_bracket {op : Op} (h : op.text ∈ operatorTexts) : ¬ op.isBracket := by
  rintro (rfl | rfl | rfl | rfl) <;> exact absurd h (by decide +kernel)

theorem chain_not_bracket : ¬ chainOp.isBracket := by decide

def LastTok (l : List Tree) : Prop := ∃ k, l.getLast? = some (.tok k) ∧ (k.text = s% "' " ∨ k.text = s% "';")
def LastEnd (l : List Tree) : Prop := ∃ e ∈ l.getLast?, ∃ k ∈ endTok e, k.text = s% "' " ∨ k.text = s% "';"

def LastGoal : Cat → List Tree → Str → Prop
  | .closed, l, s | .operand, l, s | .links, l, s => ∀ z ∈ s.getLast?, Bad z → LastTok l
  | .oper, l, s | .expr, l, s | .stmt, l, s | .stmts, l, s => ∀ z ∈ s.getLast?, Bad z → LastEnd l
  | .args _, _, s => s = [] ∨ ∃ x, s = x ++ s% "}"
  | _, _, _ => True

theorem LastTok.ends {l : List Tree} (h : LastTok l) : LastEnd l := by
  obtain ⟨k, h1, h2⟩ := h
  exact ⟨_, h1, k, rfl, h2⟩

theorem lastTok_node {op : Op} (hop : ¬ op.isBracket) {l : List Tree} (h : LastTok l) : LastEnd [.node op l] := by
  obtain ⟨k, h1, h2⟩ := h
  exact ⟨_, rfl, k, by simp [endTok, hop, h1], h2⟩

theorem last_close {a : Char} {s : Str} {b : Char} (hb : ¬ Bad b) {z : Char} (hz : z ∈ (a :: (s ++ [b])).getLast?) (h : Bad z) : False := by
  rw [last_cons a (by simp), last_append _ (by simp)] at hz
  simp at hz; subst hz; exact hb h

theorem LastTok.cons {l : List Tree} (h : LastTok l) (e : Tree) : LastTok (e :: l) := by
  obtain ⟨k, h1, h2⟩ := h
  refine ⟨k, ?_, h2⟩
  cases l with
  | nil => simp at h1
  | cons a l => rw [List.getLast?_cons_cons, h1]

theorem Scans.ne {s : Str} {u : List Tok} (h : Scans s u) : s ≠ [] := by
  obtain ⟨_, c, cs, rfl, _⟩ := h; simp

theorem Sh.ne {c l s u l'} (h : Sh c l s u l') (hc : c ≠ .body ∧ ∀ as, c ≠ .args as) : s ≠ [] := by
  have := h.scan
  cases c <;> first | exact Scans.ne this | simp at hc

theorem cmd_last : ∀ c : Cmd, ∀ z ∈ c.text.getLast?, ¬ Bad z := by
  intro c z hz
  cases c <;> (simp [Cmd.text] at hz; subst hz; simp [Bad])

theorem Sh.last {c l s u l'} (h : Sh c l s u l') : LastGoal c l s := by
  induction h with
  | @tok t h => exact fun z hz hb => ⟨t, rfl, tok_last h hz hb⟩
  | nil => intro z hz hb; simp at hz; subst hz; simp [Bad] at hb
  | paren _ _ => exact fun z hz hb => (last_close (by simp [Bad]) hz hb).elim
  | empty => intro z hz hb; simp at hz; subst hz; simp [Bad] at hb
  | list _ _ => exact fun z hz hb => (last_close (by simp [Bad]) hz hb).elim
  | send _ _ _ => exact fun z hz hb => (last_close (by simp [Bad]) hz hb).elim
  | block _ _ => exact fun z hz hb => (last_close (by simp [Bad]) hz hb).elim
  | opClosed _ ih => exact ih
  | opWrapped _ _ => exact fun z hz hb => (last_close (by simp [Bad]) hz hb).elim
  | @unary op e e' s u ho _ h ih =>
    intro z hz hb
    rw [last_append _ (by simp), last_cons _ (h.ne ⟨by simp, by simp⟩)] at hz
    exact lastTok_node (text_not_bracket ho.mem) (ih z hz hb)
  | @binary op e e' f f' s u t w ho _ _ _ _ h ih1 ih =>
    intro z hz hb
    rw [last_append _ (by simp), last_cons _ (by simp), last_append _ (by simp), last_cons _ (h.ne ⟨by simp, by simp⟩)] at hz
    exact lastTok_node (text_not_bracket ho.mem) ((ih z hz hb).cons _)
  | @ternary op e e' f f' g g' s u t w q v ho _ _ _ _ _ h ih1 ih2 ih =>
    intro z hz hb
    rw [last_append _ (by simp), last_cons _ (by simp), last_append _ (by simp), last_cons _ (by simp), last_append _ (by simp),
      last_cons _ (by simp), last_cons _ (h.ne ⟨by simp, by simp⟩)] at hz
    exact lastTok_node (text_not_bracket ho.mem) (((ih z hz hb).cons _).cons _)
  | @chain e e' l l' s u t w _ h _ ih =>
    intro z hz hb
    rw [last_append _ (by simp), last_cons _ (h.ne ⟨by simp, by simp⟩)] at hz
    exact lastTok_node chain_not_bracket ((ih z hz hb).cons _)
  | @link op e e' s u ho _ h ih =>
    intro z hz hb
    rw [last_append _ (by simp), last_cons _ (h.ne ⟨by simp, by simp⟩)] at hz
    exact (ih z hz hb).cons _
  | @links op e e' l l' s u t w ho _ _ h _ ih =>
    intro z hz hb
    rw [last_append _ (by simp), last_cons _ (by simp), last_append _ (by simp), last_cons _ (h.ne ⟨by simp, by simp⟩)] at hz
    exact ((ih z hz hb).cons _).cons _
  | exClosed _ ih => exact fun z hz hb => (ih z hz hb).ends
  | exOper _ ih => exact ih
  | stExpr _ ih => exact ih
  | @stCmd c l l' s u _ ih =>
    intro z hz hb
    rcases ih with rfl | ⟨x, rfl⟩
    · rw [List.append_nil] at hz; exact absurd hb (cmd_last c z hz)
    · rw [← List.append_assoc, last_append _ (by simp)] at hz
      simp at hz; subst hz; simp [Bad] at hb
  | stOne _ ih => exact ih
  | @stMore e e' l l' s u t w _ h _ ih =>
    intro z hz hb
    rw [last_append _ (by simp), last_cons _ (by simp), last_cons _ (h.ne ⟨by simp, by simp⟩)] at hz
    obtain ⟨f, h1, h2⟩ := ih z hz hb
    refine ⟨f, ?_, h2⟩
    cases l with
    | nil => simp at h1
    | cons a l => rw [List.getLast?_cons_cons]; exact h1
  | argsNil => exact .inl rfl
  | @argEls as b b' l l' s u t w _ _ _ ih =>
    right
    rcases ih with rfl | ⟨x, rfl⟩
    · exact ⟨s% " EL {" ++ s, by simp⟩
    · exact ⟨s% " EL {" ++ (s ++ '}' :: x), by simp⟩
  | @argCode as b b' l l' s u t w _ _ _ ih =>
    right
    rcases ih with rfl | ⟨x, rfl⟩
    · exact ⟨s% " {" ++ s, by simp⟩
    · exact ⟨s% " {" ++ (s ++ '}' :: x), by simp⟩
  | @argVar as e e' l l' s u t w _ _ ht _ _ ih =>
    right
    rcases ih with rfl | ⟨x, rfl⟩
    · obtain ⟨x, hx⟩ := ht; cases hx
    · exact ⟨' ' :: (s ++ x), by simp⟩
  | @argExpr as e e' l l' s u t w _ _ ht _ _ ih =>
    right
    rcases ih with rfl | ⟨x, rfl⟩
    · obtain ⟨x, hx⟩ := ht; cases hx
    · exact ⟨' ' :: (s ++ x), by simp⟩
  | _ => trivial

/-! ### Conversely -/

def EndGoal : Cat → List Tree → Str → Prop
  | .closed, l, s | .operand, l, s | .links, l, s => LastTok l → ∃ z ∈ s.getLast?, Bad z
  | .oper, l, s | .expr, l, s | .stmt, l, s | .stmts, l, s => LastEnd l → ∃ z ∈ s.getLast?, Bad z
  | _, _, _ => True

theorem lastTok_cons {a b : Tree} {l : List Tree} (h : LastTok (a :: b :: l)) : LastTok (b :: l) := by
  obtain ⟨k, h1, h2⟩ := h
  exact ⟨k, by rwa [List.getLast?_cons_cons] at h1, h2⟩

theorem node_lastTok {op : Op} (hop : ¬ op.isBracket) {l : List Tree} (h : LastEnd [.node op l]) : LastTok l := by
  obtain ⟨e, he, k, h1, h2⟩ := h
  simp at he; subst he
  simp only [endTok, if_neg hop] at h1
  split at h1
  · rename_i t ht
    simp at h1; subst h1; exact ⟨t, ht, h2⟩
  · simp at h1

theorem node_not_last {op : Op} {l : List Tree} : ¬ LastTok [.node op l] := by
  rintro ⟨k, h, _⟩; simp at h

theorem Sh.ends {c l s u l'} (h : Sh c l s u l') : EndGoal c l s := by
  induction h with
  | @tok t h =>
    rintro ⟨k, h1, h2⟩
    simp at h1; subst h1
    rcases h2 with e | e
    · exact ⟨' ', by rw [e]; rfl, .inl rfl⟩
    · exact ⟨';', by rw [e]; rfl, .inr rfl⟩
  | nil =>
    rintro ⟨k, h1, h2⟩
    simp at h1; subst h1; simp [tNil] at h2
  | opClosed _ ih => exact ih
  | opWrapped h _ =>
    intro hl
    generalize hc : Cat.oper = c at h
    cases h <;> first | exact absurd hl node_not_last | cases hc
  | @unary op e e' s u ho _ h ih =>
    intro hl
    rw [last_append _ (by simp), last_cons _ (h.ne ⟨by simp, by simp⟩)]
    exact ih (node_lastTok (text_not_bracket ho.mem) hl)
  | @binary op e e' f f' s u t w ho _ _ _ _ h ih1 ih =>
    intro hl
    rw [last_append _ (by simp), last_cons _ (by simp), last_append _ (by simp), last_cons _ (h.ne ⟨by simp, by simp⟩)]
    exact ih (lastTok_cons (node_lastTok (text_not_bracket ho.mem) hl))
  | @ternary op e e' f f' g g' s u t w q v ho _ _ _ _ _ h ih1 ih2 ih =>
    intro hl
    rw [last_append _ (by simp), last_cons _ (by simp), last_append _ (by simp), last_cons _ (by simp), last_append _ (by simp),
      last_cons _ (by simp), last_cons _ (h.ne ⟨by simp, by simp⟩)]
    exact ih (lastTok_cons (lastTok_cons (node_lastTok (text_not_bracket ho.mem) hl)))
  | @chain e e' l l' s u t w _ h _ ih =>
    intro hl
    rw [last_append _ (by simp), last_cons _ (h.ne ⟨by simp, by simp⟩)]
    have := node_lastTok chain_not_bracket hl
    refine ih ?_
    generalize hc : Cat.links = c at h
    cases h <;> first | exact lastTok_cons this | cases hc
  | @link op e e' s u ho _ h ih =>
    intro hl
    rw [last_append _ (by simp), last_cons _ (h.ne ⟨by simp, by simp⟩)]
    exact ih (lastTok_cons hl)
  | @links op e e' l l' s u t w ho _ _ h _ ih =>
    intro hl
    rw [last_append _ (by simp), last_cons _ (by simp), last_append _ (by simp), last_cons _ (h.ne ⟨by simp, by simp⟩)]
    refine ih ?_
    generalize hc : Cat.links = c at h
    cases h <;> first | exact lastTok_cons (lastTok_cons hl) | cases hc
  | exClosed h ih =>
    intro hl
    refine ih ?_
    generalize hc : Cat.closed = c at h
    obtain ⟨e, he, k, h1, h2⟩ := hl
    cases h <;> first
      | (simp at he; subst he; simp [endTok] at h1; subst h1; exact ⟨_, rfl, h2⟩)
      | (simp at he; subst he; simp [endTok, Op.isBracket] at h1; done)
      | (cases hc; done)
  | exOper _ ih => exact ih
  | stExpr _ ih => exact ih
  | stCmd =>
    rintro ⟨e, he, k, h1, h2⟩
    simp at he; subst he; simp [endTok] at h1
  | stOne _ ih => exact ih
  | @stMore e e' l l' s u t w _ h _ ih =>
    rintro ⟨f, h1, h2⟩
    rw [last_append _ (by simp), last_cons _ (by simp), last_cons _ (h.ne ⟨by simp, by simp⟩)]
    refine ih ⟨f, ?_, h2⟩
    generalize hc : Cat.stmts = c at h
    cases h <;> first | (rw [List.getLast?_cons_cons] at h1; exact h1) | cases hc
  | paren | empty | list | send | block => exact fun h => absurd h node_not_last
  | _ => trivial

theorem dropWhile_head {p : Char → Bool} {c : Char} {cs : Str} (h : p c = false) : (c :: cs).dropWhile p = c :: cs := by simp [h]

/-- Stripping displayed statements. -/
theorem strip_sep {s : Str} (h1 : ∃ c cs, s = c :: cs ∧ ¬ Bad c) (h2 : ∀ z ∈ s.getLast?, ¬ Bad z) : stripChars (s% "; ") (s ++ s% "; ") = s := by
  have hb : ∀ z, ¬ Bad z → (s% "; ").elem z = false := by
    intro z hz
    simp only [Bad, not_or] at hz
    simp [hz.1, hz.2]
  obtain ⟨c, cs, rfl, hc⟩ := h1
  unfold stripChars lstripChars rstripChars
  rw [List.cons_append, dropWhile_head (hb c hc)]
  rw [← List.cons_append, List.reverse_append]
  have e : (s% "; ").reverse = s% " ;" := rfl
  rw [e]
  have h3 : ∀ r : Str, (s% " ;" ++ r).dropWhile ((s% "; ").elem ·) = r.dropWhile ((s% "; ").elem ·) := fun r => by simp
  rw [h3]
  cases hr : (c :: cs).reverse with
  | nil => simp at hr
  | cons d ds =>
    have hd : (c :: cs).getLast? = some d := by rw [← List.head?_reverse, hr]; rfl
    rw [dropWhile_head (hb d (h2 d hd)), ← hr, List.reverse_reverse]

end Pip
