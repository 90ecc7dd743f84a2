import Verif.Lemmas.ReprScan
/-! The tokens of the canonical texts of data. -/

set_option linter.unusedSimpArgs false

namespace Pip
open Rgx Scan

def tNeg : Tok := ⟨.op, s% "-"⟩
def tComma : Tok := ⟨.op, s% ","⟩

/-- The tokens of the canonical text of a Scalar -/
def scalarToks (s : Str) : List Tok :=
  if wholeNum s then
    match s with
    | '-' :: r => [tNeg, ⟨.num, r⟩]
    | _ => [⟨.num, s⟩]
  else if s.elem '"' then [⟨.esc, s% "\\\"" ++ dbl s ++ s% "\\\""⟩]
  else [⟨.str, s% "\"" ++ s ++ s% "\""⟩]

def boundToks : Option Int → List Tok
  | some i => scalarToks (showInt i)
  | none => [⟨.sym, s% "("⟩, ⟨.sym, s% ")"⟩]

/-- The tokens of the flags of a Pattern -/
def flagToks (f : Flags) : List Tok :=
  (if f.a then [⟨.op, s% "A"⟩] else []) ++ (if f.i then [tNeg] else []) ++ (if f.m then [tComma] else []) ++
  (if f.s then [⟨.op, s% "."⟩] else [])

mutual
def valToks : Val → List Tok
  | .scalar s => scalarToks s
  | .pattern r f => flagToks f ++ [⟨.pat, patText r⟩]
  | .range lo hi => ⟨.sym, s% "("⟩ :: (boundToks lo ++ tComma :: (boundToks hi ++ [⟨.sym, s% ")"⟩]))
  | .list l => ⟨.sym, s% "["⟩ :: (itemToks l ++ [⟨.sym, s% "]"⟩])
  | .nil => [⟨.sym, s% "("⟩, ⟨.sym, s% ")"⟩]
  | _ => []
def itemToks : List Val → List Tok
  | [] => []
  | v :: l => valToks v ++ restToks l
def restToks : List Val → List Tok
  | [] => []
  | v :: l => ⟨.sym, s% ";"⟩ :: (valToks v ++ restToks l)
end

theorem scanAll_minus {c : Char} (hc : isDigit c = true) (x : Str) :
    scanAll ('-' :: c :: x) = prefixed [some tNeg] (scanAll (c :: x)) := by
  refine scanAll_piece (by simp) ?_
  have key : ∀ t ∈ operatorTexts, ∀ d, t = ['-', d] → isDigit d = false := by
    have : ∀ t ∈ operatorTexts, t.head? = some '-' → (t.drop 1).all fun d => !isDigit d := by decide +kernel
    rintro _ ht d rfl
    simpa using this _ ht rfl
  have h1 : ['-', c] ∉ operatorTexts := fun h => by have := key _ h c rfl; rw [hc] at this; cases this
  have h5 : lexTok ('-' :: c :: x) = some (c :: x) := by
    have h2 : ['-'] ∈ operatorTexts := by decide +kernel
    simp [lexTok, isUpperAZ, isLow1, show isDigit '-' = false by decide, lexOp, h1, h2]
  rw [step_lex (by decide) (by simp) h5]
  have e : ('-' :: c :: x).take (('-' :: c :: x).length - (c :: x).length) = ['-'] := by simp
  rw [e, show newToken (cut ['-']).1 = some tNeg by decide +kernel, show (cut ['-']).2 = 1 by decide +kernel]
  rfl

theorem scanAll_comma {c : Char} (hc : isDigit c = true ∨ c = '-' ∨ c = '(') (x : Str) :
    scanAll (',' :: c :: x) = prefixed [some tComma] (scanAll (c :: x)) := by
  refine scanAll_piece (by simp) ?_
  have h1 : [',', c] ∉ operatorTexts := fun h => by
    have : ∀ t ∈ operatorTexts, t.head? = some ',' → (t.drop 1).all fun d => !isDigit d && d != '-' && d != '(' := by
      decide +kernel
    have := this _ h rfl
    simp at this
    rcases hc with hc | rfl | rfl
    · rw [hc] at this; exact absurd this.1.1 (by simp)
    · exact this.1.2 rfl
    · exact this.2 rfl
  have h5 : lexTok (',' :: c :: x) = some (c :: x) := by
    have h2 : [','] ∈ operatorTexts := by decide +kernel
    simp [lexTok, isUpperAZ, isLow1, show isDigit ',' = false by decide, lexOp, h1, h2]
  rw [step_lex (by decide) (by simp) h5]
  have e : (',' :: c :: x).take ((',' :: c :: x).length - (c :: x).length) = [','] := by simp
  rw [e, show newToken (cut [',']).1 = some tComma by decide +kernel, show (cut [',']).2 = 1 by decide +kernel]
  rfl

/-- A number before anything that does not continue it. -/
theorem scanAll_num {s : Str} (h : NumLit s) {z : Char} (h1 : isDigit z = false) (h2 : z ≠ '.') (y : Str) :
    scanAll (s ++ z :: y) = prefixed [some ⟨.num, s⟩] (scanAll (z :: y)) := by
  obtain ⟨hs, hn, _, _⟩ := solid_num h
  obtain ⟨c, cs, rfl, hc, hl⟩ := (numLit_iff s).1 h
  obtain ⟨hsp, hu, hl1⟩ : isSpace c = false ∧ isUpperAZ c = false ∧ isLow1 c = false := digit_class hc
  refine scanAll_piece (by simp) ?_
  have h5 : lexTok (c :: (cs ++ z :: y)) = some (z :: y) := by
    simp [lexTok, hu, hl1, digit_ne hc '$' (by decide), digit_ne hc '\\' (by decide), digit_ne hc '"' (by decide),
      digit_ne hc '`' (by decide), digit_ne hc '\'' (by decide), hc, lexNum_before h1 h2, hl]
  rw [List.cons_append, step_lex hsp (by simp [digit_ne hc '{' (by decide)]) h5, ← List.cons_append, List.length_append,
    Nat.add_sub_cancel, List.take_left, hs.cut]
  simp only [List.drop_left, hn]

theorem scan_scalar (s : Str) {z : Char} (hz : isDelim z = true) (y : Str) :
    scanAll (reprScalar s ++ z :: y) = prefixed ((scalarToks s).map some) (scanAll (z :: y)) := by
  have hzd : isDigit z = false := (sepW_delim hz).digit
  have hzp : z ≠ '.' := (sepW_delim hz).dot
  rw [reprScalar_eq]
  unfold scalarToks
  by_cases hw : wholeNum s = true
  · rw [if_pos hw, if_pos hw]
    rcases (wholeNum_iff s).1 hw with h | ⟨r, rfl, h⟩
    · rw [scanAll_num h hzd hzp]
      obtain ⟨c, cs, rfl, hc, _⟩ := (numLit_iff s).1 h
      split
      · rename_i r e; cases e; exact absurd hc (by decide)
      · rfl
    · obtain ⟨c, cs, rfl, hc, _⟩ := (numLit_iff r).1 h
      simp only [List.cons_append]
      rw [scanAll_minus hc, ← List.cons_append, scanAll_num h hzd hzp, prefixed_prefixed]; rfl
  · rw [if_neg hw, if_neg hw]
    by_cases hq : s.elem '"' = true
    · rw [if_pos hq, if_pos hq, dbl_eq]
      obtain ⟨h1, h2⟩ := solid_esc s
      rw [scanAll_word h1 (by simp) (by simp) hz, h2]; rfl
    · rw [if_neg hq, if_neg hq]
      obtain ⟨h1, h2⟩ := solid_str (s := s) (by simpa using hq)
      rw [scanAll_word h1 (by simp) (by simp) hz, h2]; rfl

/-- A flag before another one or before the backtick -/
theorem scanAll_flag {c d : Char} (h : (c, d) ∈ [('A', '-'), ('A', ','), ('A', '.'), ('A', '`'), ('-', ','), ('-', '.'),
    ('-', '`'), (',', '.'), (',', '`'), ('.', '`')]) (x : Str) :
    scanAll (c :: d :: x) = prefixed [some ⟨.op, [c]⟩] (scanAll (d :: x)) := by
  refine scanAll_piece (by simp) ?_
  have key : ∀ p ∈ [('A', '-'), ('A', ','), ('A', '.'), ('A', '`'), ('-', ','), ('-', '.'),
      ('-', '`'), (',', '.'), (',', '`'), ('.', '`')], isSpace p.1 = false ∧ p.1 ≠ '{' ∧
      newToken (cut [p.1]).1 = some ⟨.op, [p.1]⟩ ∧ (cut [p.1]).2 = 1 ∧ [p.1, p.2] ∉ operatorTexts ∧
      [p.1] ∈ operatorTexts ∧ isUpperAZ p.2 = false := by decide +kernel
  obtain ⟨h1, h2, h3, h4, h6, h7, h8⟩ := key _ h
  have h5 : lexTok (c :: d :: x) = some (d :: x) := by
    have hc : c = 'A' ∨ c = '-' ∨ c = ',' ∨ c = '.' := by
      simp at h; rcases h with h | h | h | h | h | h | h | h | h | h <;> simp [h]
    rcases hc with rfl | rfl | rfl | rfl
    · simp only [lexTok]
      rw [if_pos (by decide), List.dropWhile_cons, h8]; rfl
    all_goals simp [lexTok, isUpperAZ, isLow1, show isDigit '-' = false by decide, show isDigit ',' = false by decide,
      show isDigit '.' = false by decide, lexOp, h6, h7]
  rw [step_lex h1 (by simp [h2]) h5]
  have e : (c :: d :: x).take ((c :: d :: x).length - (d :: x).length) = [c] := by simp
  rw [e, h3, h4]; rfl

theorem scan_pattern {r : Str} (h : Quotable r) (f : Flags) {z : Char} (hz : isDelim z = true) (y : Str) :
    scanAll ((Val.pattern r f).repr ++ z :: y) = prefixed ((valToks (.pattern r f)).map some) (scanAll (z :: y)) := by
  have e : (Val.pattern r f).repr ++ z :: y = reprFlags f ++ '`' :: (tick r ++ '`' :: z :: y) := by
    simp [Val.repr, tick_eq]
  have hp : scanAll ('`' :: (tick r ++ '`' :: z :: y)) = prefixed [some ⟨.pat, patText r⟩] (scanAll (z :: y)) := by
    obtain ⟨h1, h2⟩ := solid_pat h
    have := scanAll_word h1 (by simp [patText]) (by simp [patText]) hz y
    rw [h2] at this
    rw [← this]
    simp [patText]
  rw [e, valToks]
  obtain ⟨a, i, m, s⟩ := f
  cases a <;> cases i <;> cases m <;> cases s <;>
    simp only [reprFlags, flagToks, if_true, Bool.false_eq_true, if_false, List.append_nil, List.nil_append,
      List.cons_append, List.map_cons, List.map_nil, tNeg, tComma] <;>
    (repeat rw [scanAll_flag (by decide)]) <;> rw [hp] <;> simp only [prefixed_prefixed] <;> rfl

theorem showInt_num (i : Int) : NumLit (showInt i) ∨ ∃ r, showInt i = '-' :: r ∧ NumLit r := by
  cases i with
  | ofNat n => exact .inl (.inl ⟨showNat_ne n, showNat_all n⟩)
  | negSucc n => exact .inr ⟨_, rfl, .inl ⟨showNat_ne _, showNat_all _⟩⟩

/-- A bound of a Range before `,` or `)` -/
theorem scan_bound (b : Option Int) {z : Char} (hz : z = ',' ∨ z = ')') (y : Str) :
    scanAll (reprBound b ++ z :: y) = prefixed ((boundToks b).map some) (scanAll (z :: y)) := by
  have hzd : isDigit z = false := by rcases hz with rfl | rfl <;> decide
  have hzp : z ≠ '.' := by rcases hz with rfl | rfl <;> decide
  cases b with
  | none =>
    show scanAll ('(' :: ')' :: z :: y) = _
    rw [scanAll_sym (by decide), scanAll_sym (by decide), prefixed_prefixed]; rfl
  | some i =>
    unfold boundToks scalarToks reprBound
    simp only
    have hw : wholeNum (showInt i) = true := (wholeNum_iff _).2 (by
      rcases showInt_num i with h | ⟨r, e, h⟩
      · exact .inl h
      · exact .inr ⟨r, e, h⟩)
    rw [if_pos hw]
    rcases showInt_num i with h | ⟨r, e, h⟩
    · rw [scanAll_num h hzd hzp]
      obtain ⟨c, cs, e, hc, _⟩ := (numLit_iff _).1 h
      rw [e]
      split
      · rename_i r e; cases e; exact absurd hc (by decide)
      · rfl
    · rw [e]
      obtain ⟨c, cs, rfl, hc, _⟩ := (numLit_iff r).1 h
      simp only [List.cons_append]
      rw [scanAll_minus hc, ← List.cons_append, scanAll_num h hzd hzp, prefixed_prefixed]; rfl

theorem reprBound_head (b : Option Int) : ∃ c cs, reprBound b = c :: cs ∧ (isDigit c = true ∨ c = '-' ∨ c = '(') := by
  cases b with
  | none => exact ⟨'(', _, rfl, .inr (.inr rfl)⟩
  | some i =>
    rcases showInt_num i with h | ⟨r, e, h⟩
    · obtain ⟨c, cs, e, hc, _⟩ := (numLit_iff _).1 h
      exact ⟨c, cs, e, .inl hc⟩
    · exact ⟨'-', r, e, .inr (.inl rfl)⟩

/-- The tail of a List's text -/
def restText (l : List Val) : Str := l.flatMap fun v => ';' :: v.repr

theorem reprs_text : ∀ (v : Val) (l : List Val), joinStr (s% ";") (Val.reprs (v :: l)) = v.repr ++ restText l
  | v, [] => by simp [Val.reprs, restText, joinStr]
  | v, w :: l => by
    have := reprs_text w l
    simp only [Val.reprs] at this ⊢
    rw [joinStr_cons_cons, this]
    simp [restText]

theorem data_list {l : List Val} (h : Data (.list l)) : ∀ v ∈ l, Data v := by cases h; assumption

mutual
theorem scan_val : ∀ (v : Val), Data v → ∀ {z : Char}, isDelim z = true → ∀ y : Str,
    scanAll (v.repr ++ z :: y) = prefixed ((valToks v).map some) (scanAll (z :: y))
  | .scalar s, _, _, hz, y => by rw [Val.repr, valToks]; exact scan_scalar s hz y
  | .pattern r f, h, _, hz, y => scan_pattern (by cases h; assumption) f hz y
  | .nil, _, z, hz, y => by
    have e : Val.nil.repr ++ z :: y = '(' :: ')' :: z :: y := by simp [Val.repr]
    rw [e, scanAll_sym (by decide), scanAll_sym (by decide), prefixed_prefixed, valToks]; rfl
  | .range lo hi, _, z, hz, y => by
    have e : (Val.range lo hi).repr ++ z :: y = '(' :: (reprBound lo ++ ',' :: (reprBound hi ++ ')' :: z :: y)) := by
      simp [Val.repr]
    rw [e, scanAll_sym (by decide), scan_bound lo (.inl rfl)]
    obtain ⟨c, cs, e2, hc⟩ := reprBound_head hi
    have e3 : reprBound hi ++ ')' :: z :: y = c :: (cs ++ ')' :: z :: y) := by rw [e2]; rfl
    rw [e3, scanAll_comma hc, ← e3, scan_bound hi (.inr rfl), scanAll_sym (by decide)]
    simp only [prefixed_prefixed, valToks, List.map_cons, List.map_append, List.map_nil, List.cons_append, List.nil_append,
      List.append_assoc]
  | .list [], _, z, hz, y => by
    have e : (Val.list []).repr ++ z :: y = '[' :: ']' :: z :: y := by simp [Val.repr, Val.reprs, joinStr]
    rw [e, scanAll_sym (by decide), scanAll_sym (by decide), prefixed_prefixed, valToks, itemToks]; rfl
  | .list (v :: l), h, z, hz, y => by
    have e : (Val.list (v :: l)).repr ++ z :: y = '[' :: (v.repr ++ (restText l ++ ']' :: z :: y)) := by
      simp [Val.repr, reprs_text]
    rw [e, scanAll_sym (by decide)]
    have hr := scan_rest l (fun w hw => data_list h w (by simp [hw])) (z :: y)
    have hv : ∀ x : Str, (x.head? = some ';' ∨ x.head? = some ']') → scanAll (v.repr ++ x) =
        prefixed ((valToks v).map some) (scanAll x) := by
      intro x hx
      cases x with
      | nil => simp at hx
      | cons a x => exact scan_val v (data_list h v (by simp)) (by
          simp at hx; rcases hx with rfl | rfl <;> rfl) x
    rw [hv _ (by cases l <;> simp [restText]), hr, scanAll_sym (by decide)]
    simp only [prefixed_prefixed, valToks, itemToks, List.map_cons, List.map_append, List.map_nil, List.cons_append,
      List.nil_append, List.append_assoc]
theorem scan_rest : ∀ (l : List Val), (∀ v ∈ l, Data v) → ∀ y : Str,
    scanAll (restText l ++ ']' :: y) = prefixed ((restToks l).map some) (scanAll (']' :: y))
  | [], _, y => by
    simp only [restText, restToks, List.flatMap_nil, List.nil_append, List.map_nil]
    cases scanAll (']' :: y) <;> rfl
  | v :: l, h, y => by
    have e : restText (v :: l) ++ ']' :: y = ';' :: (v.repr ++ (restText l ++ ']' :: y)) := by simp [restText]
    have hr := scan_rest l (fun w hw => h w (by simp [hw])) y
    have hv : ∀ x : Str, (x.head? = some ';' ∨ x.head? = some ']') → scanAll (v.repr ++ x) =
        prefixed ((valToks v).map some) (scanAll x) := by
      intro x hx
      cases x with
      | nil => simp at hx
      | cons a x => exact scan_val v (h v (by simp)) (by
          simp at hx; rcases hx with rfl | rfl <;> rfl) x
    rw [e, scanAll_sym (by decide), hv _ (by cases l <;> simp [restText]), hr]
    simp only [prefixed_prefixed, restToks, List.map_cons, List.map_append, List.map_nil, List.cons_append,
      List.nil_append, List.append_assoc]
end

end Pip
