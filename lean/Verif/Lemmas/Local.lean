import Verif.Lemmas.Step
/-! Locality of tokens: what follows a separator does not matter. -/

set_option linter.unusedSimpArgs false

namespace Pip
open Rgx
namespace Scan

theorem dropWhile_sep {p : Char → Bool} {z : Char} (hz : p z = false) (cs y : Str) :
    (cs ++ z :: y).dropWhile p = cs.dropWhile p ++ z :: y := by
  induction cs with
  | nil => simp [hz]
  | cons c cs ih => by_cases h : p c <;> simp [h, ih]

/-- Characters at which names and literals end. -/
structure SepW (z : Char) : Prop where
  upper : isUpperAZ z = false
  ident : isIdent z = false
  lower : isLowerAZ z = false
  digit : isDigit z = false
  digit09 : isDigit09 z = false
  dot : z ≠ '.'
  under : z ≠ '_'
  ag : isAG z = false
  quote : z ≠ '"'
  dollar : z ≠ '$'
  op2 : ∀ t ∈ operatorTexts, t.getLast? ≠ some z

/-- Characters at which all tokens end. -/
structure Sep (z : Char) : Prop extends SepW z where
  special : (s% "][()$`'").elem z = false
  semi : z ≠ ';'
  brace : z ≠ '}'

theorem sep_nl : Sep '\n' where
  upper := by decide
  ident := by decide
  lower := by decide
  digit := by decide
  digit09 := by decide
  dot := by decide
  under := by decide
  ag := by decide
  quote := by decide
  dollar := by decide
  special := by decide
  op2 := by decide +kernel
  semi := by decide
  brace := by decide

theorem sep_space : Sep ' ' where
  upper := by decide
  ident := by decide
  lower := by decide
  digit := by decide
  digit09 := by decide
  dot := by decide
  under := by decide
  ag := by decide
  quote := by decide
  dollar := by decide
  special := by decide
  op2 := by decide +kernel
  semi := by decide
  brace := by decide

theorem lexPat_append {s r : Str} (x : Str) (h : lexPat s = some r) : lexPat (s ++ x) = some (r ++ x) := by
  fun_induction lexPat s with
  | case1 => simp at h
  | case2 cs => simp at h; subst h; simp [lexPat]
  | case3 cs => simp at h
  | case4 c cs hc ih => simp [lexPat, hc, ih h]
  | case5 => simp at h
  | case6 c cs h1 h2 h3 ih =>
    rw [List.cons_append, lexPat]
    · simp [h3, ih h]
    · exact fun e => h1 e
    · exact fun d ds e _ => h3 e

theorem lexPat_restrict {s r : Str} (h : lexPat s = some r) : ∃ t, s = t ++ r ∧ lexPat t = some [] := by
  fun_induction lexPat s with
  | case1 => simp at h
  | case2 cs => simp at h; subst h; exact ⟨['`'], rfl, rfl⟩
  | case3 cs => simp at h
  | case4 c cs hc ih =>
    obtain ⟨t, rfl, ht⟩ := ih h
    exact ⟨'\\' :: c :: t, rfl, by simp [lexPat, hc, ht]⟩
  | case5 => simp at h
  | case6 c cs h1 h2 h3 ih =>
    obtain ⟨t, rfl, ht⟩ := ih h
    refine ⟨c :: t, rfl, ?_⟩
    rw [lexPat]
    · simp [h3, ht]
    · exact fun e => h1 e
    · exact fun d ds e _ => h3 e

theorem lexEsc_append {s r : Str} (x : Str) (h : lexEsc s = some r) : lexEsc (s ++ x) = some (r ++ x) := by
  fun_induction lexEsc s with
  | case1 => simp at h
  | case2 cs => simp at h; subst h; simp [lexEsc]
  | case3 c cs hc ih => simp [lexEsc, hc, ih h]
  | case4 => simp at h
  | case5 c cs h1 h2 ih =>
    rw [List.cons_append, lexEsc]
    · simp [h2, ih h]
    · exact fun d ds e _ => h2 e

theorem lexEsc_restrict {s r : Str} (h : lexEsc s = some r) : ∃ t, s = t ++ r ∧ lexEsc t = some [] := by
  fun_induction lexEsc s with
  | case1 => simp at h
  | case2 cs => simp at h; subst h; exact ⟨['\\', '"'], rfl, rfl⟩
  | case3 c cs hc ih =>
    obtain ⟨t, rfl, ht⟩ := ih h
    exact ⟨'\\' :: c :: t, rfl, by simp [lexEsc, hc, ht]⟩
  | case4 => simp at h
  | case5 c cs h1 h2 ih =>
    obtain ⟨t, rfl, ht⟩ := ih h
    refine ⟨c :: t, rfl, ?_⟩
    rw [lexEsc]
    · simp [h2, ht]
    · exact fun d ds e _ => h2 e

theorem lexNum_other {cs : Str} (h : ∀ d ds, cs.dropWhile isDigit = '.' :: d :: ds → isDigit d = false) :
    lexNum cs = cs.dropWhile isDigit := by
  unfold lexNum
  split
  · rename_i d ds he
    rw [h d ds he]; simp [he]
  · rfl

theorem lexNum_frac {cs ds : Str} {d : Char} (h : cs.dropWhile isDigit = '.' :: d :: ds) (hd : isDigit d = true) :
    lexNum cs = ds.dropWhile isDigit := by
  unfold lexNum
  rw [h]; simp [hd]

theorem lexNum_before {z : Char} (hd0 : isDigit z = false) (hdot : z ≠ '.') (cs y : Str) :
    lexNum (cs ++ z :: y) = lexNum cs ++ z :: y := by
  have e : (cs ++ z :: y).dropWhile isDigit = cs.dropWhile isDigit ++ z :: y := dropWhile_sep hd0 _ _
  by_cases h : ∃ d ds, cs.dropWhile isDigit = '.' :: d :: ds ∧ isDigit d = true
  · obtain ⟨d, ds, h1, h2⟩ := h
    rw [lexNum_frac h1 h2, lexNum_frac (ds := ds ++ z :: y) (by rw [e, h1]; rfl) h2, dropWhile_sep hd0]
  · have h' : ∀ d ds, cs.dropWhile isDigit = '.' :: d :: ds → isDigit d = false := by
      intro d ds hd
      by_cases hx : isDigit d = true
      · exact absurd ⟨d, ds, hd, hx⟩ h
      · simpa using hx
    rw [lexNum_other h', lexNum_other, e]
    intro d ds hd
    rw [e] at hd
    cases hc : cs.dropWhile isDigit with
    | nil => rw [hc] at hd; simp at hd; exact absurd hd.1 hdot
    | cons a as =>
      rw [hc] at hd; simp at hd
      obtain ⟨rfl, hd⟩ := hd
      cases as with
      | nil => simp at hd; rw [← hd.1]; exact hd0
      | cons b bs => simp at hd; rw [← hd.1]; exact h' b bs (by rw [hc])

theorem lexNum_append {z : Char} (hz : SepW z) (cs y : Str) : lexNum (cs ++ z :: y) = lexNum cs ++ z :: y :=
  lexNum_before hz.digit hz.dot cs y

theorem dropWhile_all {p : Char → Bool} {s : Str} (h : s.all p = true) : s.dropWhile p = [] := by
  induction s with
  | nil => rfl
  | cons c s ih =>
    simp only [List.all_cons, Bool.and_eq_true] at h
    simp [h.1, ih h.2]

theorem split_drop (p : Char → Bool) (s : Str) : ∃ t, s = t ++ s.dropWhile p ∧ t.all p = true :=
  ⟨s.takeWhile p, (List.takeWhile_append_dropWhile).symm, List.all_takeWhile⟩

theorem lexNum_restrict (cs : Str) : ∃ t, cs = t ++ lexNum cs ∧ lexNum t = [] := by
  obtain ⟨u, hu, ha⟩ := split_drop isDigit cs
  by_cases h : ∃ d ds, cs.dropWhile isDigit = '.' :: d :: ds ∧ isDigit d = true
  · obtain ⟨d, ds, h1, h2⟩ := h
    rw [lexNum_frac h1 h2]
    obtain ⟨v, hv, hb⟩ := split_drop isDigit ds
    refine ⟨u ++ '.' :: d :: v, ?_, ?_⟩
    · conv => lhs; rw [hu, h1, hv]
      simp
    · have : (u ++ '.' :: d :: v).dropWhile isDigit = '.' :: d :: v :=
        (takeWhile_append_cons ha (by decide)).2
      rw [lexNum_frac this h2, dropWhile_all hb]
  · have h' : ∀ d ds, cs.dropWhile isDigit = '.' :: d :: ds → isDigit d = false := by
      intro d ds hd
      by_cases hx : isDigit d = true
      · exact absurd ⟨d, ds, hd, hx⟩ h
      · simpa using hx
    refine ⟨u, by rw [lexNum_other h']; exact hu, ?_⟩
    rw [lexNum_other, dropWhile_all ha]
    rw [dropWhile_all ha]; simp

theorem lexUnder_append {z : Char} (hz : SepW z) (cs y : Str) :
    lexUnder (cs ++ z :: y) = lexUnder cs ++ z :: y := by
  match cs with
  | [] =>
    show lexUnder (z :: y) = z :: y
    unfold lexUnder
    split
    · rename_i h; simp at h; exact absurd h.1 hz.under
    · rename_i h; simp at h; exact absurd h.1 hz.under
    · rfl
  | [c] =>
    by_cases hc : c = '_'
    · subst hc
      show lexUnder ('_' :: z :: y) = z :: y
      unfold lexUnder
      split
      · rename_i h; simp at h; exact absurd h.1 hz.under
      · rename_i h; simpa using h.symm
      · rename_i h; exact absurd rfl (h _)
    · have e : ∀ r, lexUnder (c :: r) = c :: r := by
        intro r; unfold lexUnder
        split
        · rename_i h; simp at h; exact absurd h.1 hc
        · rename_i h; simp at h; exact absurd h.1 hc
        · rfl
      simp [e]
  | c :: d :: r =>
    by_cases hc : c = '_'
    · subst hc
      by_cases hd : d = '_'
      · subst hd; rfl
      · have e : ∀ r, lexUnder ('_' :: d :: r) = d :: r := by
          intro r; unfold lexUnder
          split
          · rename_i h; simp at h; exact absurd h.1 hd
          · rename_i h; simpa using h.symm
          · rename_i h; exact absurd rfl (h _)
        simp [e]
    · have e : ∀ r, lexUnder (c :: r) = c :: r := by
        intro r; unfold lexUnder
        split
        · rename_i h; simp at h; exact absurd h.1 hc
        · rename_i h; simp at h; exact absurd h.1 hc
        · rfl
      simp [e]

theorem lexUnder_restrict (cs : Str) : ∃ t, cs = t ++ lexUnder cs ∧ lexUnder t = [] := by
  unfold lexUnder
  split
  · exact ⟨['_', '_'], rfl, rfl⟩
  · exact ⟨['_'], rfl, rfl⟩
  · exact ⟨[], rfl, rfl⟩

theorem lexDollar_append {z : Char} (hz : SepW z) (cs y : Str)
    (hs : cs ≠ [] ∨ (s% "][()$`'").elem z = false) : lexDollar (cs ++ z :: y) = lexDollar cs ++ z :: y := by
  cases cs with
  | nil => simp only [List.nil_append, lexDollar, hs.resolve_left (fun h => h rfl), hz.digit09, hz.lower, hz.under, Bool.or_self,
      Bool.false_eq_true, if_false]
  | cons c cs =>
    simp only [List.cons_append, lexDollar]
    split
    · rfl
    · split
      · exact dropWhile_sep hz.ident _ _
      · split
        · exact lexUnder_append hz _ _
        · rfl

theorem lexDollar_restrict (cs : Str) : ∃ t, cs = t ++ lexDollar cs ∧ lexDollar t = [] := by
  cases cs with
  | nil => exact ⟨[], rfl, rfl⟩
  | cons c cs =>
    simp only [lexDollar]
    split
    · rename_i h; exact ⟨[c], rfl, by simp only []; rw [if_pos h]⟩
    · split
      · obtain ⟨t, h1, h2⟩ := split_drop isIdent cs
        refine ⟨c :: t, by rw [List.cons_append, ← h1], ?_⟩
        simp only [lexDollar, *, Bool.false_eq_true, if_false, if_true, dropWhile_all h2]
      · split
        · obtain ⟨t, h1, h2⟩ := lexUnder_restrict cs
          refine ⟨c :: t, by rw [List.cons_append, ← h1], ?_⟩
          rename_i g1 g2 g3
          simp only []
          rw [if_neg g1, if_neg g2, if_pos g3, h2]
        · exact ⟨[], rfl, rfl⟩

theorem lexOp_append {z : Char} (hz : SepW z) (c : Char) (cs y : Str) :
    lexOp c (cs ++ z :: y) = (lexOp c cs).map (· ++ z :: y) := by
  have h2 : ¬ [c, z] ∈ operatorTexts := fun h => hz.op2 _ h rfl
  cases cs with
  | nil =>
    simp only [List.nil_append, lexOp, h2, if_false]
    split <;> rfl
  | cons d ds =>
    simp only [List.cons_append, lexOp]
    split
    · rfl
    · split <;> rfl

theorem lexOp_restrict {c : Char} {cs r : Str} (h : lexOp c cs = some r) :
    ∃ t, cs = t ++ r ∧ lexOp c t = some [] := by
  cases cs with
  | nil =>
    simp only [lexOp] at h
    split at h
    · simp at h; subst h; exact ⟨[], rfl, by simp [lexOp, *]⟩
    · simp at h
  | cons d ds =>
    simp only [lexOp] at h
    split at h
    · simp at h; subst h; exact ⟨[d], rfl, by simp [lexOp, *]⟩
    · split at h
      · simp at h; subst h; exact ⟨[], rfl, by simp [lexOp, *]⟩
      · simp at h

theorem lexBack_append {z : Char} (hz : SepW z) (cs y : Str) (h : cs.head? ≠ some '"' ∨ (lexBack cs).isSome) :
    lexBack (cs ++ z :: y) = (lexBack cs).map (· ++ z :: y) := by
  cases cs with
  | nil =>
    have := lexOp_append hz '\\' [] y
    simpa [lexBack, hz.ag, hz.quote, hz.dollar] using this
  | cons c cs =>
    simp only [List.cons_append, lexBack] at h ⊢
    split
    · rfl
    · split
      · rename_i h1 h2
        subst h2
        rcases h with h | h
        · simp at h
        · simp only [h1, Bool.false_eq_true, if_false, if_true] at h
          obtain ⟨r, hr⟩ := Option.isSome_iff_exists.1 h
          rw [hr, lexEsc_append _ hr]; rfl
      · split
        · rfl
        · exact lexOp_append hz '\\' (c :: cs) y

theorem lexBack_restrict {cs r : Str} (h : lexBack cs = some r) : ∃ t, cs = t ++ r ∧ lexBack t = some [] := by
  cases cs with
  | nil =>
    obtain ⟨t, h1, h2⟩ := lexOp_restrict (c := '\\') (cs := []) h
    have : t = [] := by simpa using (List.append_eq_nil_iff.1 h1.symm).1
    subst this
    exact ⟨[], h1, h2⟩
  | cons c cs =>
    simp only [lexBack] at h
    split at h
    · simp at h; subst h; exact ⟨[c], rfl, by simp [lexBack, *]⟩
    · split at h
      · obtain ⟨t, h1, h2⟩ := lexEsc_restrict h
        rename_i g1 g2
        exact ⟨c :: t, by rw [h1]; rfl, by simp only [lexBack]; rw [if_neg g1, if_pos g2, h2]⟩
      · split at h
        · simp at h; subst h; exact ⟨[c], rfl, by simp [lexBack, *]⟩
        · obtain ⟨t, h1, h2⟩ := lexOp_restrict h
          cases t with
          | nil => exact ⟨[], h1, h2⟩
          | cons a t =>
            simp at h1
            obtain ⟨rfl, rfl⟩ := h1
            exact ⟨c :: t, rfl, by simp only [lexBack, *, Bool.false_eq_true, if_false]⟩

/-- The code starts a string or pattern literal. -/
def quoteStart (s : Str) : Prop := (s% "\"`'").elem (s.headD ' ') = true ∨ s.take 2 = s% "\\\""

/-- A separator and what follows do not change the token at the start. -/
theorem lexTok_appendW {z : Char} (hz : SepW z) (c : Char) (cs y : Str)
    (hs : (c = '$' → cs ≠ []) ∨ (s% "][()$`'").elem z = false)
    (h : ¬ quoteStart (c :: cs) ∨ (lexTok (c :: cs)).isSome) :
    lexTok (c :: cs ++ z :: y) = (lexTok (c :: cs)).map (· ++ z :: y) := by
  have hq : c = '"' ∨ c = '`' ∨ c = '\'' → (lexTok (c :: cs)).isSome := by
    intro hc
    rcases h with h | h
    · exfalso; apply h; left; rcases hc with rfl | rfl | rfl <;> rfl
    · exact h
  have hb : c = '\\' → cs.head? ≠ some '"' ∨ (lexTok (c :: cs)).isSome := by
    intro hc
    rcases h with h | h
    · left; intro hd; apply h; right
      cases cs with
      | nil => simp at hd
      | cons a as => simp at hd; subst hd hc; rfl
    · right; exact h
  unfold lexTok at hq hb ⊢
  simp only [List.cons_append]
  split
  · simp [dropWhile_sep hz.upper]
  split
  · rfl
  split
  · rename_i h3
    rw [lexDollar_append hz cs y (hs.imp (fun h => h h3) id)]
    rfl
  split
  · rename_i h1 h2 h3 h4
    subst h4
    refine lexBack_append hz cs y ?_
    have := hb rfl
    simpa only [h1, h2, h3, if_false, if_true, Bool.false_eq_true] using this
  split
  · rename_i h1 h2 h3 h4 h5
    subst h5
    have := hq (Or.inl rfl)
    simp only [h1, h2, h3, h4, if_false, if_true, Bool.false_eq_true] at this
    cases hd : cs.dropWhile (· != '"') with
    | nil => rw [hd] at this; simp at this
    | cons a as =>
      have ha : a = '"' := by
        have := List.head?_dropWhile_not (p := (· != '"')) cs
        rw [hd] at this; simpa using this
      subst ha
      obtain ⟨t, h1, h2⟩ := split_drop (· != '"') cs
      have e : cs ++ z :: y = t ++ '"' :: (as ++ z :: y) := by
        conv => lhs; rw [h1, hd]
        simp
      rw [e, (takeWhile_append_cons h2 (by simp)).2]
      rfl
  split
  · rename_i h1 h2 h3 h4 h5 h6
    subst h6
    have := hq (Or.inr (Or.inl rfl))
    simp only [h1, h2, h3, h4, h5, if_false, if_true, Bool.false_eq_true] at this
    obtain ⟨r, hr⟩ := Option.isSome_iff_exists.1 this
    rw [hr, lexPat_append _ hr]; rfl
  split
  · rename_i h1 h2 h3 h4 h5 h6 h7
    subst h7
    have := hq (Or.inr (Or.inr rfl))
    simp only [h1, h2, h3, h4, h5, h6, if_false, if_true, Bool.false_eq_true] at this
    cases cs with
    | nil => simp at this
    | cons a as => rfl
  split
  · simp [lexNum_append hz]
  split
  · rfl
  · exact lexOp_append hz _ _ _

theorem lexTok_append {z : Char} (hz : Sep z) (c : Char) (cs y : Str)
    (h : ¬ quoteStart (c :: cs) ∨ (lexTok (c :: cs)).isSome) :
    lexTok (c :: cs ++ z :: y) = (lexTok (c :: cs)).map (· ++ z :: y) :=
  lexTok_appendW hz.toSepW c cs y (.inr hz.special) h

/-- The text of a token is a token by itself. -/
theorem lexTok_restrict {s r : Str} (h : lexTok s = some r) :
    ∃ t, s = t ++ r ∧ lexTok t = some [] ∧ t ≠ [] := by
  cases s with
  | nil => simp [lexTok] at h
  | cons c cs =>
    suffices ∃ t, cs = t ++ r ∧ lexTok (c :: t) = some [] by
      obtain ⟨t, h1, h2⟩ := this
      exact ⟨c :: t, by rw [h1]; rfl, h2, by simp⟩
    simp only [lexTok] at h ⊢
    split at h
    · simp at h
      obtain ⟨t, h1, h2⟩ := split_drop isUpperAZ cs
      exact ⟨t, by rw [← h, ← h1], by simp only [*, if_true, dropWhile_all h2]⟩
    simp only [*, if_false, Bool.false_eq_true]
    split at h
    · simp at h; subst h; exact ⟨[], rfl, by simp only [*, if_true]⟩
    simp only [*, if_false, Bool.false_eq_true]
    split at h
    · simp at h
      obtain ⟨t, h1, h2⟩ := lexDollar_restrict cs
      exact ⟨t, by rw [← h, ← h1], by simp only [*, if_true]⟩
    simp only [*, if_false, Bool.false_eq_true]
    split at h
    · obtain ⟨t, h1, h2⟩ := lexBack_restrict h
      exact ⟨t, h1, by simp only [*, if_true]⟩
    simp only [*, if_false, Bool.false_eq_true]
    split at h
    · rename_i hc
      cases hd : cs.dropWhile (· != '"') with
      | nil => rw [hd] at h; simp at h
      | cons a as =>
        rw [hd] at h; simp at h; subst h
        have ha : a = '"' := by
          have := List.head?_dropWhile_not (p := (· != '"')) cs
          rw [hd] at this; simpa using this
        subst ha
        obtain ⟨t, h1, h2⟩ := split_drop (· != '"') cs
        refine ⟨t ++ ['"'], ?_, ?_⟩
        · conv => lhs; rw [h1, hd]
          simp
        · rw [if_pos hc]
          rw [(takeWhile_append_cons (r := []) h2 (by simp)).2]
    simp only [*, if_false, Bool.false_eq_true]
    split at h
    · obtain ⟨t, h1, h2⟩ := lexPat_restrict h
      exact ⟨t, h1, by simp only [*, if_true]⟩
    simp only [*, if_false, Bool.false_eq_true]
    split at h
    · cases cs with
      | nil => simp at h
      | cons a as => simp at h; subst h; exact ⟨[a], rfl, by simp only [*, if_true]⟩
    simp only [*, if_false, Bool.false_eq_true]
    split at h
    · simp at h
      obtain ⟨t, h1, h2⟩ := lexNum_restrict cs
      exact ⟨t, by rw [← h, ← h1], by simp only [*, if_true]⟩
    simp only [*, if_false, Bool.false_eq_true]
    split at h
    · simp at h; subst h; exact ⟨[], rfl, by simp only [*, if_true]⟩
    simp only [*, if_false, Bool.false_eq_true]
    exact lexOp_restrict h

end Scan
end Pip
