import Verif.Model.Scan
import Verif.Lemmas.Rgx
/-! Helper lemmas about the scanner. -/

namespace Pip
open Rgx

theorem Rgx.lang_alts {l : List Rgx} {w : Str} (h : (alts l).Lang w) : ∃ r ∈ l, r.Lang w := by
  induction l with
  | nil => cases h with | chr h => simp at h
  | cons r rs ih =>
    cases rs with
    | nil => exact ⟨r, by simp, h⟩
    | cons s ss =>
      cases h with
      | altL h => exact ⟨r, by simp, h⟩
      | altR h =>
        obtain ⟨q, hq, hw⟩ := ih h
        exact ⟨q, List.mem_cons_of_mem _ hq, hw⟩

theorem Rgx.noEol_alts {l : List Rgx} (h : ∀ r ∈ l, r.noEol) : (alts l).noEol := by
  induction l with
  | nil => trivial
  | cons r rs ih =>
    cases rs with
    | nil => exact h r (by simp)
    | cons s ss => exact ⟨h r (by simp), ih (fun q hq => h q (List.mem_cons_of_mem _ hq))⟩

theorem Rgx.noEol_str (t : Str) : (Rgx.str t).noEol := by
  induction t with
  | nil => trivial
  | cons c t ih => exact ⟨trivial, ih⟩

theorem Rgx.lang_str {t w : Str} (h : (Rgx.str t).Lang w) : w = t := by
  induction t generalizing w with
  | nil => cases h; rfl
  | cons c t ih =>
    cases h with
    | @seq _ _ u v hu hv =>
      cases hu with
      | @chr _ c' hc => simp at hc; subst hc; simp [ih hv]

namespace Scan

theorem noEol_name : nameRgx.noEol := by simp [nameRgx, alts, noEol, Rgx.plus, Rgx.lit, Rgx.opt]
theorem noEol_string : stringRgx.noEol := by simp [stringRgx, noEol, Rgx.lit]
theorem noEol_pattern : patternRgx.noEol := by simp [patternRgx, noEol, Rgx.lit, Rgx.dot]
theorem noEol_char : charRgx.noEol := by simp [charRgx, noEol, Rgx.lit, Rgx.dot]
theorem noEol_esc : escStringRgx.noEol := by simp [escStringRgx, noEol, Rgx.lit, Rgx.str]
theorem noEol_number : numberRgx.noEol := by simp [numberRgx, noEol, Rgx.lit, Rgx.plus, Rgx.opt]
theorem noEol_symbols : symbolsRgx.noEol := by simp [symbolsRgx, noEol, Rgx.lit, Rgx.cls, Rgx.alts, Rgx.str]
theorem noEol_oper : operRgx.noEol := by
  apply noEol_alts
  intro r hr
  obtain ⟨t, _, rfl⟩ := List.mem_map.1 hr
  exact noEol_str t
theorem noEol_token : tokenRgx.noEol :=
  ⟨noEol_name, noEol_string, noEol_pattern, noEol_char, noEol_esc, noEol_number, noEol_symbols, noEol_oper⟩
theorem noEol_line : lineCommentRgx.noEol := by simp [lineCommentRgx, noEol, Rgx.lit, Rgx.dot, Rgx.str]
theorem noEol_block : blockCommentRgx.noEol := by
  simp [blockCommentRgx, noEol, Rgx.lit, Rgx.any, Rgx.str]
theorem noEol_white : whitespaceRgx.noEol := by simp [whitespaceRgx, noEol, Rgx.plus]

theorem sortedTexts_mem {t : Str} (h : t ∈ sortedTexts) : t ∈ operatorTexts := by
  unfold sortedTexts at h
  rw [List.mem_append, List.mem_filter, List.mem_filter] at h
  rcases h with h | h <;> exact h.1

theorem operatorTexts_ne_nil : ∀ t ∈ operatorTexts, t ≠ [] := by decide +kernel

theorem lang_oper {w : Str} (h : operRgx.Lang w) : w ∈ operatorTexts := by
  obtain ⟨r, hr, hw⟩ := lang_alts h
  obtain ⟨t, ht, rfl⟩ := List.mem_map.1 hr
  rw [lang_str hw]; exact sortedTexts_mem ht

theorem lang_plus_ne {p w} (h : (Rgx.plus (.chr p)).Lang w) : w ≠ [] := by
  cases h with
  | seq h1 _ => cases h1; simp

theorem lang_lit {c w} (h : (Rgx.lit c).Lang w) : w = [c] := by
  cases h with | chr h => simp at h; simp [h]

theorem lang_seq_lit {c b w} (h : (Rgx.seq (Rgx.lit c) b).Lang w) : ∃ v, w = c :: v ∧ b.Lang v := by
  cases h with
  | seq h1 h2 => rw [lang_lit h1]; exact ⟨_, rfl, h2⟩

theorem lang_chr {p w} (h : (Rgx.chr p).Lang w) : ∃ c, w = [c] ∧ p c = true := by
  cases h with | chr h => exact ⟨_, rfl, h⟩

theorem lang_name_ne {w} (h : nameRgx.Lang w) : w ≠ [] := by
  obtain ⟨r, hr, hw⟩ := lang_alts h
  simp only [List.mem_cons, List.not_mem_nil, or_false] at hr
  rcases hr with rfl | rfl | rfl | rfl | rfl | rfl
  · exact lang_plus_ne hw
  · obtain ⟨c, rfl, _⟩ := lang_chr hw; simp
  all_goals obtain ⟨v, rfl, _⟩ := lang_seq_lit hw; simp

/-- The words of the token regex by alternative. -/
theorem lang_token {w : Str} (h : tokenRgx.Lang w) :
    nameRgx.Lang w ∨ stringRgx.Lang w ∨ patternRgx.Lang w ∨ charRgx.Lang w ∨ escStringRgx.Lang w ∨
    numberRgx.Lang w ∨ symbolsRgx.Lang w ∨ w ∈ operatorTexts := by
  obtain ⟨r, hr, hw⟩ := lang_alts h
  simp only [List.mem_cons, List.not_mem_nil, or_false] at hr
  rcases hr with rfl | rfl | rfl | rfl | rfl | rfl | rfl | rfl
  · exact .inl hw
  · exact .inr (.inl hw)
  · exact .inr (.inr (.inl hw))
  · exact .inr (.inr (.inr (.inl hw)))
  · exact .inr (.inr (.inr (.inr (.inl hw))))
  · exact .inr (.inr (.inr (.inr (.inr (.inl hw)))))
  · exact .inr (.inr (.inr (.inr (.inr (.inr (.inl hw))))))
  · exact .inr (.inr (.inr (.inr (.inr (.inr (.inr (lang_oper hw)))))))

theorem lang_string {w} (h : stringRgx.Lang w) : ∃ v, w = '"' :: v :=
  (lang_seq_lit h).imp fun _ h => h.1
theorem lang_pattern {w} (h : patternRgx.Lang w) : ∃ v, w = '`' :: v :=
  (lang_seq_lit h).imp fun _ h => h.1
theorem lang_charR {w} (h : charRgx.Lang w) : ∃ v, w = '\'' :: v :=
  (lang_seq_lit h).imp fun _ h => h.1
theorem lang_esc {w} (h : escStringRgx.Lang w) : ∃ v, w = '\\' :: '"' :: v := by
  cases h with
  | seq h1 h2 => rw [lang_str h1]; exact ⟨_, rfl⟩
theorem lang_number_ne {w} (h : numberRgx.Lang w) : w ≠ [] := by
  cases h with
  | @seq _ _ u v h1 h2 =>
    have := lang_plus_ne h1
    simp [this]
theorem lang_symbols_ne {w} (h : symbolsRgx.Lang w) : w ≠ [] := by
  obtain ⟨r, hr, hw⟩ := lang_alts h
  simp only [List.mem_cons, List.not_mem_nil, or_false] at hr
  rcases hr with rfl | rfl | rfl
  · obtain ⟨c, rfl, _⟩ := lang_chr hw; simp
  all_goals rw [lang_str hw]; simp

theorem lang_token_ne {w : Str} (h : tokenRgx.Lang w) : w ≠ [] := by
  rcases lang_token h with h | h | h | h | h | h | h | h
  · exact lang_name_ne h
  · obtain ⟨v, rfl⟩ := lang_string h; simp
  · obtain ⟨v, rfl⟩ := lang_pattern h; simp
  · obtain ⟨v, rfl⟩ := lang_charR h; simp
  · obtain ⟨v, rfl⟩ := lang_esc h; simp
  · exact lang_number_ne h
  · exact lang_symbols_ne h
  · exact operatorTexts_ne_nil w h

/-- Texts that `newToken` classifies. -/
theorem newToken_isSome {w : Str} (h : tokenRgx.Lang w) : (newToken w).isSome := by
  unfold newToken
  repeat' split
  all_goals first | rfl | skip
  rename_i h1 h2 h3 h4 h5 h6 h7 h8 h9
  exfalso
  rw [full_iff noEol_symbols] at h7
  rw [full_iff noEol_name] at h8
  rw [full_iff noEol_number] at h9
  rcases lang_token h with h | h | h | h | h | h | h | h
  · exact h8 h
  · obtain ⟨v, rfl⟩ := lang_string h; simp at h4
  · obtain ⟨v, rfl⟩ := lang_pattern h; simp at h6
  · obtain ⟨v, rfl⟩ := lang_charR h; simp at h3
  · obtain ⟨v, rfl⟩ := lang_esc h; simp at h5
  · exact h9 h
  · exact h7 h
  · exact h1 h

theorem lang_star_chr {p : Char → Bool} {w : Str} : (Rgx.star (.chr p)).Lang w ↔ w.all p = true := by
  constructor
  · intro h
    generalize hr : Rgx.star (.chr p) = r at h
    induction h with
    | starNil => rfl
    | starCons hu h1 h2 _ ih =>
      cases hr
      obtain ⟨c, rfl, hc⟩ := lang_chr h1
      simpa [hc] using ih
    | _ => cases hr
  · intro h
    induction w with
    | nil => exact .starNil
    | cons c w ih =>
      simp only [List.all_cons, Bool.and_eq_true] at h
      exact .starCons (u := [c]) (by simp) (.chr h.1) (ih h.2)

theorem lang_plus_chr {p : Char → Bool} {w : Str} :
    (Rgx.plus (.chr p)).Lang w ↔ w ≠ [] ∧ w.all p = true := by
  constructor
  · intro h
    cases h with
    | seq h1 h2 =>
      obtain ⟨c, rfl, hc⟩ := lang_chr h1
      simpa [hc] using lang_star_chr.1 h2
  · rintro ⟨hn, h⟩
    cases w with
    | nil => exact absurd rfl hn
    | cons c w =>
      simp only [List.all_cons, Bool.and_eq_true] at h
      exact .seq (u := [c]) (.chr h.1) (lang_star_chr.2 h.2)

theorem lang_upper {w : Str} (hn : w ≠ []) (h : w.all isUpperAZ = true) : tokenRgx.Lang w :=
  .altL (.altL (lang_plus_chr.2 ⟨hn, h⟩))

/-- The text of a cut token is again a token text, and at least one character is consumed. -/
theorem cut_spec {w : Str} (h : tokenRgx.Lang w) : tokenRgx.Lang (cut w).1 ∧ 0 < (cut w).2 := by
  unfold cut
  by_cases hu : w ≠ [] ∧ w.all isUpperAZ
  · simp only [hu, and_self, if_true, ne_eq, not_false_eq_true]
    by_cases hp : w = s% "PIP"
    · subst hp
      refine ⟨?_, by decide⟩
      exact lang_upper (by decide) (by decide)
    · simp only [hp, if_false]
      obtain ⟨hn, ha⟩ := hu
      have key : ∀ k, 0 < k → tokenRgx.Lang (w.take k) := by
        intro k hk
        apply lang_upper
        · cases w with
          | nil => exact absurd rfl hn
          | cons c w => cases k with
            | zero => omega
            | succ k => simp
        · rw [List.all_eq_true] at ha ⊢
          exact fun x hx => ha x (List.mem_of_mem_take hx)
      by_cases hl : w.length % 2 = 1
      · simp only [hl, if_true]
        split
        · exact ⟨lang_upper (by decide) (by decide), by
            rename_i he
            exfalso
            have : (List.take 1 w).length ≤ 1 := by simp; omega
            rw [he] at this; simp at this⟩
        · exact ⟨key 1 (by omega), by omega⟩
      · simp only [hl, if_false]
        split
        · exact ⟨lang_upper (by decide) (by decide), by omega⟩
        · exact ⟨key 2 (by omega), by omega⟩
  · rw [if_neg hu]
    have hne := lang_token_ne h
    have : w ≠ s% "EI" := by rintro rfl; exact hu (by decide)
    simp only [this, if_false]
    exact ⟨h, List.length_pos_iff.2 hne⟩

theorem match_shorter {r : Rgx} (hr : r.noEol) (hn : ¬ r.Lang []) {s t rest : Str}
    (h : r.match? s = some (t, rest)) : rest.length < s.length := by
  obtain ⟨rfl, hl⟩ := match?_some hr h
  cases t with
  | nil => exact absurd hl hn
  | cons c t => simp; omega

theorem line_ne : ¬ lineCommentRgx.Lang [] := by
  intro h
  generalize hw : ([] : Str) = w at h
  cases h with
  | @seq _ _ u v h1 h2 =>
    have : u = [] := by simpa using (List.append_eq_nil_iff.1 hw.symm).1
    subst this
    generalize hw' : ([] : Str) = w' at h1
    cases h1 with
    | altL h =>
      cases h with
      | @seq _ _ u v h1 h2 =>
        obtain ⟨x, rfl, _⟩ := lang_seq_lit h2
        simp at hw'
    | altR h => have := congrArg List.length (lang_str h); simp at this; omega

theorem block_ne : ¬ blockCommentRgx.Lang [] := by
  intro h
  generalize hw : ([] : Str) = w at h
  cases h with
  | @seq _ _ u v h1 h2 => rw [lang_str h1] at hw; simp at hw

theorem white_ne : ¬ whitespaceRgx.Lang [] := fun h => lang_plus_ne h rfl

/-- Every pass of the loop consumes something and every token it appends is a proper one. -/
inductive Good (code : Str) : Step → Prop
  | skip {rest} : rest.length < code.length → Good code (.skip rest)
  | tok {t rest} : rest.length < code.length → Good code (.tok (some t) rest)
  | die : Good code .die

theorem step_good (c : Char) (cs : Str) : Good (c :: cs) (step (c :: cs)) := by
  unfold step
  split
  · exact .skip (match_shorter noEol_line line_ne ‹_›)
  split
  · exact .skip (match_shorter noEol_block block_ne ‹_›)
  split
  · exact .die
  split
  · exact .skip (match_shorter noEol_white white_ne ‹_›)
  split
  · rename_i text _ hm
    obtain ⟨_, hl⟩ := match?_some noEol_token hm
    obtain ⟨h1, h2⟩ := cut_spec hl
    have hs := newToken_isSome h1
    obtain ⟨t, ht⟩ := Option.isSome_iff_exists.1 hs
    simp only [ht]
    exact .tok (by simp; omega)
  split
  · exact .die
  · exact .skip (by simp)

theorem loop_cons (n : Nat) (c : Char) (cs : Str) : loop (n + 1) (c :: cs) =
    match step (c :: cs) with
    | .skip rest => loop n rest
    | .tok t rest => match loop n rest with
      | .ok ts => .ok (t :: ts)
      | .error e => .error e
    | .die => .error .incomplete := rfl

/-- Enough passes are allotted: any two sufficient budgets give the same result. -/
theorem loop_fuel : ∀ n m code, code.length ≤ n → code.length ≤ m → loop n code = loop m code := by
  intro n
  induction n with
  | zero =>
    intro m code hn _
    have : code = [] := List.length_eq_zero_iff.1 (Nat.le_zero.1 hn)
    subst this; cases m <;> rfl
  | succ n ih =>
    intro m code hn hm
    cases code with
    | nil => cases m <;> rfl
    | cons c cs =>
      cases m with
      | zero => simp at hm
      | succ m =>
        rw [loop_cons, loop_cons]
        have hg := step_good c cs
        simp only [List.length_cons] at hn hm
        generalize step (c :: cs) = s at hg ⊢
        cases hg with
        | skip h => simp only [List.length_cons] at h; exact ih _ _ (by omega) (by omega)
        | @tok t rest h =>
          simp only [List.length_cons] at h
          have e := ih m rest (by omega) (by omega)
          simp only [e]
        | die => rfl

theorem loop_total : ∀ n code, code.length ≤ n →
    (∃ ts : List Tok, loop n code = .ok (ts.map some)) ∨ loop n code = .error .incomplete := by
  intro n
  induction n with
  | zero =>
    intro code hn
    have : code = [] := List.length_eq_zero_iff.1 (Nat.le_zero.1 hn)
    subst this; exact .inl ⟨[], rfl⟩
  | succ n ih =>
    intro code hn
    cases code with
    | nil => exact .inl ⟨[], rfl⟩
    | cons c cs =>
      rw [loop_cons]
      have hg := step_good c cs
      simp only [List.length_cons] at hn
      generalize step (c :: cs) = s at hg ⊢
      cases hg with
      | skip h => simp only [List.length_cons] at h; exact ih _ (by omega)
      | @tok t rest h =>
        simp only [List.length_cons] at h
        rcases ih rest (by omega) with ⟨ts, hts⟩ | he
        · left; exact ⟨t :: ts, by simp [hts]⟩
        · right; simp [he]
      | die => exact .inr rfl

end Scan
end Pip
