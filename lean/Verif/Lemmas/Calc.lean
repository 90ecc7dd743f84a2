import Verif.Spec.While
import Verif.Lemmas.ShowParse
import Verif.Lemmas.ReprVal
import Verif.Spec.Eval
/-! Scanning and parsing arithmetic expressions. -/

set_option linter.unusedSimpArgs false

namespace Pip
open Rgx Scan PP
open Parse (assignOp escaped group attach)

/-! ### Scanning -/

/-- Characters that do not belong to a number before them -/
def isEnd (z : Char) : Bool := !isDigit z && z != '.'

/-- Characters that an expression starts with -/
def isStart (z : Char) : Bool := isDigit z || Wh.letters.elem z || z == '(' || z == '-'

theorem end_space {z : Char} (h : isEnd z = true) : isDigit z = false ∧ z ≠ '.' := by
  simpa [isEnd] using h

theorem start_cases {z : Char} (h : isStart z = true) : isDigit z = true ∨ z ∈ s% "abcdefghiklmnopstuvwxyz(-" := by
  simp only [isStart, Bool.or_eq_true, beq_iff_eq] at h
  rcases h with ((h | h) | rfl) | rfl
  · exact .inl h
  · have : ∀ z ∈ Wh.letters, z ∈ s% "abcdefghiklmnopstuvwxyz(-" := by decide
    exact .inr (this z (by simpa using h))
  · exact .inr (by decide)
  · exact .inr (by decide)

theorem start_space {z : Char} (h : isStart z = true) : isSpace z = false ∧ z ≠ ';' := by
  rcases start_cases h with h | h
  · exact ⟨(digit_class h).1, digit_ne h _ (by decide)⟩
  · have : ∀ z ∈ s% "abcdefghiklmnopstuvwxyz(-", isSpace z = false ∧ z ≠ ';' := by decide
    exact this z h

theorem scanAll_gaps {g : Str} (hg : Gap g) {c : Char} (x : Str) (hc : isSpace c = false) : scanAll (g ++ c :: x) = scanAll (c :: x) := by
  rcases hg with rfl | rfl
  · rfl
  · exact scanAll_gap x hc

theorem scanAll_low {c : Char} (h : c ∈ Wh.letters) (x : Str) :
    scanAll (c :: x) = prefixed [some ⟨.name, [c]⟩] (scanAll x) := by
  have key : isSpace c = false ∧ c ≠ '{' ∧ newToken (cut [c]).1 = some ⟨.name, [c]⟩ ∧ (cut [c]).2 = 1 ∧ isUpperAZ c = false ∧ isLow1 c = true := by
    have : ∀ c ∈ Wh.letters, isSpace c = false ∧ c ≠ '{' ∧ newToken (cut [c]).1 = some ⟨.name, [c]⟩ ∧ (cut [c]).2 = 1 ∧
      isUpperAZ c = false ∧ isLow1 c = true := by decide +kernel
    exact this c h
  obtain ⟨h1, h2, h3, h4, h5, h6⟩ := key
  refine scanAll_piece (by simp) ?_
  have h7 : lexTok (c :: x) = some x := by simp [lexTok, h5, h6]
  rw [step_lex h1 (by simp [h2]) h7]
  have e : (c :: x).take ((c :: x).length - x.length) = [c] := by simp
  rw [e, h3, h4]; rfl

/-- An operator of one character before the start of an expression or a space -/
theorem scanAll_op1 {c d : Char} (hc : c ∈ s% "+-*%<>=:,") (hd : isStart d = true ∨ d = ' ') (hm : c = '-' → d ≠ '-') (x : Str) :
    scanAll (c :: d :: x) = prefixed [some ⟨.op, [c]⟩] (scanAll (d :: x)) := by
  refine scanAll_piece (by simp) ?_
  have key : ∀ c ∈ s% "+-*%<>=:,", isSpace c = false ∧ c ≠ '{' ∧ newToken (cut [c]).1 = some ⟨.op, [c]⟩ ∧ (cut [c]).2 = 1 ∧
      [c] ∈ operatorTexts ∧ isUpperAZ c = false ∧ isLow1 c = false ∧ isDigit c = false ∧ (s% "$\\\"`'][(){};").elem c = false := by decide +kernel
  obtain ⟨h1, h2, h3, h4, h5, h6, h7, h8, h9⟩ := key c hc
  have h10 : [c, d] ∉ operatorTexts := fun h => by
    have k1 : ∀ t ∈ operatorTexts, (s% "+-*%<>=:,").elem (t.headD ' ') = true → (t.drop 1).all fun d => !isDigit d && !(s% "abcdefghiklmnopstuvwxyz( ").elem d := by
      decide +kernel
    have k2 : ∀ c ∈ s% "+-*%<>=:,", c ≠ '-' → [c, '-'] ∉ operatorTexts := by decide +kernel
    have := k1 _ h (by simpa using hc)
    simp at this
    rcases hd with hd | rfl
    · rcases start_cases hd with hd | hd
      · rw [hd] at this; exact absurd this.1 (by simp)
      · by_cases e : d = '-'
        · subst e
          exact k2 c hc (fun e => hm e rfl) h
        · have h3 : d ∈ s% "abcdefghiklmnopstuvwxyz( " := by
            have : ∀ d ∈ s% "abcdefghiklmnopstuvwxyz(-", d ≠ '-' → d ∈ s% "abcdefghiklmnopstuvwxyz( " := by decide
            exact this d hd e
          exact absurd h3 (by simpa using this.2)
    · simp at this
  have h11 : lexTok (c :: d :: x) = some (d :: x) := by
    simp at h9
    simp [lexTok, h6, h7, h8, h9, lexOp, h10, h5]
  rw [step_lex h1 (by simp [h2]) h11]
  have e : (c :: d :: x).take ((c :: d :: x).length - (d :: x).length) = [c] := by simp
  rw [e, h3, h4]; rfl

/-- An operator of two characters -/
theorem scanAll_op2 {c d : Char} (hc : [c, d] ∈ [s% "//", s% "**", s% "<=", s% ">=", s% "!="]) (x : Str) :
    scanAll (c :: d :: x) = prefixed [some ⟨.op, [c, d]⟩] (scanAll x) := by
  refine scanAll_piece (by simp) ?_
  have key : ∀ o ∈ [s% "//", s% "**", s% "<=", s% ">=", s% "!="], isSpace (o.headD ' ') = false ∧ o.headD ' ' ≠ '{' ∧
      newToken (cut o).1 = some ⟨.op, o⟩ ∧ (cut o).2 = 2 ∧ o ∈ operatorTexts ∧ isUpperAZ (o.headD ' ') = false ∧ isLow1 (o.headD ' ') = false ∧
      isDigit (o.headD ' ') = false ∧ (s% "$\\\"`'][(){};").elem (o.headD ' ') = false := by decide +kernel
  obtain ⟨h1, h2, h3, h4, h5, h6, h7, h8, h9⟩ := key _ hc
  rw [List.headD_cons] at h1 h2 h6 h7 h8 h9
  have h11 : lexTok (c :: d :: x) = some x := by
    simp at h9
    simp [lexTok, h6, h7, h8, h9, lexOp, h5]
  rw [step_lex h1 (by simp [h2]) h11]
  have e : (c :: d :: x).take ((c :: d :: x).length - x.length) = [c, d] := by
    rw [show (c :: d :: x).length - x.length = 2 by simp; omega]; rfl
  rw [e, h3, h4]; rfl

/-- Before the end of an operand the text gives the tokens. -/
def ScanTo (t : Str) (u : List Tok) : Prop :=
  ∀ z y, isEnd z = true → scanAll (t ++ z :: y) = prefixed (u.map some) (scanAll (z :: y))

def Opens (t : Str) : Prop := ∃ c cs, t = c :: cs ∧ isStart c = true

theorem Opens.gap {t : Str} (h : Opens t) {g : Str} (hg : Gap g) (x : Str) : scanAll (g ++ (t ++ x)) = scanAll (t ++ x) := by
  obtain ⟨c, cs, rfl, hc⟩ := h
  exact scanAll_gaps hg _ (start_space hc).1

theorem Opens.head {t : Str} (h : Opens t) {g : Str} (hg : Gap g) : ∃ c cs, g ++ t = c :: cs ∧ (isStart c = true ∨ c = ' ') := by
  obtain ⟨c, cs, rfl, hc⟩ := h
  cases g with
  | nil => exact ⟨c, cs, rfl, .inl hc⟩
  | cons d g => exact ⟨d, _, rfl, .inr hg.eq.1⟩

def infixTexts : List Str := [s% "+", s% "-", s% "*", s% "%", s% "//", s% "**", s% "<", s% ">", s% "=", s% "<=", s% ">=", s% "!="]

/-- An infix operator with its operands -/
theorem scanTo_infix {t u g g' o : Str} {a b : List Tok} (ht : ScanTo t a) (hu : ScanTo u b) (ho : Opens u) (hg : Gap g) (hg' : Gap g')
    (h : o ∈ infixTexts) (hm : o = s% "-" → (g' ++ u).head? ≠ some '-') :
    ScanTo (t ++ (g ++ (o ++ (g' ++ u)))) (a ++ ⟨.op, o⟩ :: b) := by
  intro z y hz
  obtain ⟨c, cs, rfl, hc, hc1, hc2⟩ : ∃ c cs, o = c :: cs ∧ isEnd c = true ∧ isSpace c = false ∧ c ≠ ';' := by
    have : ∀ o ∈ infixTexts, o ≠ [] ∧ isEnd (o.headD ' ') = true ∧ isSpace (o.headD ' ') = false ∧ o.headD ' ' ≠ ';' := by decide
    obtain ⟨h1, h2⟩ := this o h
    cases o with
    | nil => exact absurd rfl h1
    | cons c cs => exact ⟨c, cs, rfl, h2⟩
  have e1 : ∃ d w, g ++ (c :: cs ++ (g' ++ u)) ++ z :: y = d :: w ∧ isEnd d = true := by
    cases g with
    | nil => exact ⟨c, _, rfl, hc⟩
    | cons d g => exact ⟨d, _, rfl, by rw [hg.eq.1]; decide⟩
  obtain ⟨d, w, e1, hd⟩ := e1
  have e2 : g ++ (c :: cs ++ (g' ++ u)) ++ z :: y = g ++ c :: (cs ++ (g' ++ (u ++ z :: y))) := by simp
  rw [List.append_assoc, e1, ht d w hd, ← e1, e2, scanAll_gaps hg _ hc1]
  have e3 : scanAll (c :: (cs ++ (g' ++ (u ++ z :: y)))) = prefixed [some ⟨.op, c :: cs⟩] (scanAll (g' ++ (u ++ z :: y))) := by
    obtain ⟨d, ds, e4, hd⟩ := ho.head hg'
    have e5 : g' ++ (u ++ z :: y) = d :: (ds ++ z :: y) := by rw [← List.append_assoc, e4]; rfl
    rw [e5]
    simp only [infixTexts, List.mem_cons, List.not_mem_nil, or_false] at h
    rcases h with h | h | h | h | h | h | h | h | h | h | h | h <;> (cases h)
    · exact scanAll_op1 (by decide) hd (by simp) _
    · refine scanAll_op1 (by decide) hd (fun _ e => hm rfl ?_) _
      rw [e4, e]; rfl
    · exact scanAll_op1 (by decide) hd (by simp) _
    · exact scanAll_op1 (by decide) hd (by simp) _
    · exact scanAll_op2 (by decide) _
    · exact scanAll_op2 (by decide) _
    · exact scanAll_op1 (by decide) hd (by simp) _
    · exact scanAll_op1 (by decide) hd (by simp) _
    · exact scanAll_op1 (by decide) hd (by simp) _
    · exact scanAll_op2 (by decide) _
    · exact scanAll_op2 (by decide) _
    · exact scanAll_op2 (by decide) _
  rw [e3, ho.gap hg', hu z y hz, prefixed_prefixed, prefixed_prefixed]
  simp

theorem scanTo_neg {t g : Str} {a : List Tok} (ht : ScanTo t a) (ho : Opens t) (hn : t.head? ≠ some '-') (hg : Gap g) :
    ScanTo ('-' :: (g ++ t)) (⟨.op, s% "-"⟩ :: a) := by
  intro z y hz
  obtain ⟨d, ds, e, hd⟩ := ho.head hg
  have e5 : g ++ (t ++ z :: y) = d :: (ds ++ z :: y) := by rw [← List.append_assoc, e]; rfl
  have e1 : '-' :: (g ++ t) ++ z :: y = '-' :: (g ++ (t ++ z :: y)) := by simp
  have hm : d ≠ '-' := by
    rintro rfl
    cases g with
    | nil => exact hn (by rw [List.nil_append] at e; rw [e]; rfl)
    | cons c g => cases e; exact absurd hg.eq.1 (by decide)
  rw [e1, e5, scanAll_op1 (by decide) hd (fun _ => hm), ← e5, ho.gap hg, ht z y hz, prefixed_prefixed]
  rfl

theorem scanTo_paren {t g g' : Str} {a : List Tok} (ht : ScanTo t a) (ho : Opens t) (hg : Gap g) (hg' : Gap g') :
    ScanTo ('(' :: (g ++ (t ++ (g' ++ s% ")")))) (tLp :: (a ++ [tRp])) := by
  intro z y _
  have e1 : '(' :: (g ++ (t ++ (g' ++ s% ")"))) ++ z :: y = '(' :: (g ++ (t ++ (g' ++ ')' :: z :: y))) := by simp
  rw [e1, scanAll_sym (by decide), ho.gap hg]
  have e2 : ∃ d w, g' ++ ')' :: z :: y = d :: w ∧ isEnd d = true := by
    cases g' with
    | nil => exact ⟨_, _, rfl, by decide⟩
    | cons d g => exact ⟨d, _, rfl, by rw [hg'.eq.1]; decide⟩
  obtain ⟨d, w, e2, hd⟩ := e2
  rw [e2, ht d w hd, ← e2, scanAll_gaps hg' _ (by decide), scanAll_sym (by decide), prefixed_prefixed, prefixed_prefixed]
  simp [tLp, tRp]

/-! ### Parsing -/

/-- The infix operators of arithmetic -/
def calcOps : List Op := [op2 (s% "+"), op2 (s% "-"), op2 (s% "*"), op2 (s% "%"), op2 (s% "//"), op2 (s% "**")]

/-- The precedence of the operators of a level -/
def levelPrec (i : Nat) : Nat := 36 + i

theorem calcOps_ok : ∀ o ∈ calcOps, (findOp ops2 o.text).or (findOp ops3 o.text) = some o ∧ o.arity = 2 ∧ o.assoc ≠ .chain ∧ o ≠ chainOp ∧
    36 ≤ o.prec ∧ o.prec ≤ 39 ∧ (o.assoc = .right ↔ o.prec = 39) := by decide +kernel

/-- The tokens are there and do not start with a meta-operator or the end of something. -/
def Begins (u : List Tok) : Prop :=
  ∃ t w, u = t :: w ∧ t.text ≠ s% ":" ∧ t.text ≠ s% "*" ∧ t.text ≠ s% ")" ∧ t.text ≠ s% "]" ∧ t.text ≠ s% "}" ∧ t.text ≠ s% ";" ∧ t.kind ≠ .cmd ∧
    t.text ≠ s% "EL"

theorem Begins.first {u : List Tok} (h : Begins u) : First u := by
  obtain ⟨t, w, rfl, _, _, h1, h2, h3, h4, _⟩ := h
  exact ⟨t, w, rfl, h1, h2, h3, h4⟩

theorem Begins.append {u : List Tok} (h : Begins u) (v : List Tok) : Begins (u ++ v) := by
  obtain ⟨t, w, rfl, h⟩ := h
  exact ⟨t, w ++ v, rfl, h⟩

theorem Begins.colon {u : List Tok} (h : Begins u) : isT u (s% ":") = false ∧ isT u (s% "*") = false := by
  obtain ⟨t, w, rfl, h1, h2, _⟩ := h
  exact ⟨by simpa [isT] using h1, by simpa [isT] using h2⟩

/-- An operand of a sign ends here. -/
def Stops (r : List Tok) : Prop := ∀ e, Ev (fun n => exprLoop n 39 e r) (.ok (e, r))

theorem stops_noInfix {r : List Tok} (h : NoInfix r) : Stops r := fun e => ev_loop_halt h 39 e

theorem stops_op {o : Op} (ho : o ∈ calcOps) (hp : o.prec < 39) {u : List Tok} (hu : Begins u) : Stops (⟨.op, o.text⟩ :: u) := by
  intro e
  refine ev_const fun n => ?_
  obtain ⟨h1, _⟩ := calcOps_ok o ho
  simp only [exprLoop, if_true, h1, hu.colon.1, Bool.false_eq_true, if_false]
  rw [if_pos (by omega)]

/-- One pass of the loop -/
theorem ev_calcOp {o : Op} (ho : o ∈ calcOps) {m : Int} (hm : m ≤ o.prec) {u r : List Tok} (hu : Begins u) {e x : Tree} {out : PP.Res Tree}
    (h1 : Ev (fun n => parseOperand n u) (.ok (x, r))) (h2 : Ev (fun n => exprLoop n m (attach o [x] e) r) out) :
    Ev (fun n => exprLoop n m e (⟨.op, o.text⟩ :: u)) out := by
  obtain ⟨f1, f2, f3, f4, _⟩ := calcOps_ok o ho
  have h3 : Ev (fun n => operands n m e o u) out := by
    refine ev_succ (ev_andThen (f := fun n x ts => exprLoop n m (attach o [x] e) ts) h1 h2) fun n => ?_
    simp only [operands, if_neg f3, f2]
    rfl
  refine ev_succ h3 fun n => ?_
  simp only [exprLoop, if_true, f1, hu.colon.1, Bool.false_eq_true, if_false]
  rw [if_neg (by omega)]

/-- Operators that bind at least as tight as those of the level pass through the context. -/
def Passes (i : Nat) (K : Tree → Tree) : Prop := ∀ o ∈ calcOps, levelPrec i ≤ o.prec → ∀ ext t, attach o ext (K t) = K (attach o ext t)

theorem Passes.up {i : Nat} {K : Tree → Tree} (h : Passes i K) : Passes (i + 1) K :=
  fun o ho hp => h o ho (by unfold levelPrec at *; omega)

theorem passes_id (i : Nat) : Passes i id := fun _ _ _ _ _ => rfl

theorem Passes.right {i j : Nat} {K : Tree → Tree} (h : Passes i K) {o : Op} (ho : o ∈ calcOps) (hij : i ≤ j)
    (hp : o.prec < levelPrec j ∨ (o.prec = 39 ∧ levelPrec j = 39)) (l : Tree) : Passes j fun t => K (.node o [l, t]) := by
  intro q hq hle ext t
  obtain ⟨_, f2, _, _, _, _, _⟩ := calcOps_ok o ho
  obtain ⟨_, _, _, _, _, g6, g7⟩ := calcOps_ok q hq
  have hc : o.prec < q.prec ∨ (o.prec = q.prec ∧ q.assoc = .right) := by
    rcases hp with hp | ⟨hp, hj⟩
    · exact .inl (by omega)
    · exact .inr ⟨by omega, g7.2 (by omega)⟩
  show attach q ext (K (.node o [l, t])) = K (.node o [l, attach q ext t])
  rw [h q hq (by unfold levelPrec at *; omega)]
  congr 1
  rw [attach, if_pos ⟨.inl f2, hc⟩]
  simp [Parse.attachLast]

/-- The tokens of an expression of a level: how they are parsed. -/
structure Parses (i : Nat) (u : List Tok) (e : Tree) : Prop where
  begins : Begins u
  /-- an operand and the rest of the loop -/
  split : ∃ e0 w, (∀ r, (i ≤ 2 → Stops r) → Ev (fun n => parseOperand n (u ++ r)) (.ok (e0, w ++ r))) ∧
    ∀ (K : Tree → Tree) (m : Int), Passes i K → m ≤ levelPrec i → ∀ r o, (i ≤ 2 → Stops r) → Ev (fun n => exprLoop n m (K e) r) o →
      Ev (fun n => exprLoop n m (K e0) (w ++ r)) o
  wrap : ∀ o ∈ calcOps, (o.prec < levelPrec i ∨ (o.prec = levelPrec i ∧ o.assoc ≠ .right)) → ∀ ext, attach o ext e = .node o (e :: ext)

theorem Parses.up {i : Nat} {u : List Tok} {e : Tree} (h : Parses (i + 1) u e) : Parses i u e := by
  refine ⟨h.begins, ?_, fun o ho hp => h.wrap o ho (.inl (by unfold levelPrec at *; omega))⟩
  obtain ⟨e0, w, h1, h2⟩ := h.split
  exact ⟨e0, w, fun r hr => h1 r fun _ => hr (by omega),
    fun K m hK hm r o hr => h2 K m hK.up (by unfold levelPrec at *; omega) r o fun _ => hr (by omega)⟩

/-- Tokens that are an operand by themselves -/
theorem parses_closed {u : List Tok} {e : Tree} (hb : Begins u) (h : ∀ r, Ev (fun n => parseOperand n (u ++ r)) (.ok (e, r)))
    (hw : ∀ o ext, attach o ext e = .node o (e :: ext)) : Parses 4 u e :=
  ⟨hb, ⟨e, [], fun r _ => h r, fun _ _ _ _ _ _ _ h => h⟩, fun o _ _ ext => hw o ext⟩

theorem parses_pow {u w : List Tok} {e f : Tree} (h : Parses 4 u e) (h' : Parses 3 w f) :
    Parses 3 (u ++ ⟨.op, s% "**"⟩ :: w) (.node (op2 (s% "**")) [e, f]) := by
  have ho : op2 (s% "**") ∈ calcOps := by simp [calcOps]
  have ht : (op2 (s% "**")).text = s% "**" := by decide
  have hp : (op2 (s% "**")).prec = 39 := by decide
  obtain ⟨e0, w0, h1, h2⟩ := h.split
  obtain ⟨f0, w1, h3, h4⟩ := h'.split
  refine ⟨h.begins.append _, ⟨e0, w0 ++ ⟨.op, s% "**"⟩ :: w, fun r _ => ?_, fun K m hK hm r o _ hr => ?_⟩, fun o ho' hq ext => ?_⟩
  · rw [List.append_assoc, List.append_assoc]
    exact h1 _ (by omega)
  · rw [List.append_assoc]
    refine h2 K m hK.up (by unfold levelPrec at *; omega) _ o (by omega) ?_
    rw [List.cons_append, ← ht]
    refine ev_calcOp ho (by unfold levelPrec at *; rw [hp]; omega) (h'.begins.append _) (h3 r (by omega)) ?_
    rw [hK _ ho (by unfold levelPrec; omega), h.wrap _ ho (.inl (by rw [hp]; unfold levelPrec; omega))]
    exact h4 _ m (hK.right ho (Nat.le_refl 3) (.inr ⟨hp, rfl⟩) e) hm r o (by omega) hr
  · obtain ⟨_, f2, _, f4, _, _, f7⟩ := calcOps_ok o ho'
    rw [attach, if_neg, if_neg (by rintro ⟨h, _⟩; exact f4 h)]
    rintro ⟨_, h | ⟨h, h'⟩⟩
    · rw [hp] at h; unfold levelPrec at hq; omega
    · rw [hp] at h
      rcases hq with hq | ⟨_, hq⟩
      · unfold levelPrec at hq; omega
      · exact hq h'

theorem parses_neg {u : List Tok} {e : Tree} (h : Parses 3 u e) : Parses 2 (⟨.op, s% "-"⟩ :: u) (.node (op1 (s% "-")) [e]) := by
  have hp : (op1 (s% "-")).prec = 38 := by decide
  obtain ⟨e0, w0, h1, h2⟩ := h.split
  have key : ∀ r, Stops r → Ev (fun n => parseOperand n (⟨.op, s% "-"⟩ :: u ++ r)) (.ok (.node (op1 (s% "-")) [e], r)) := by
    intro r hr
    have a1 : Ev (fun n => parseExpr n (((op1 (s% "-")).prec : Int) + 1) (u ++ r)) (.ok (e, r)) := by
      rw [hp]
      refine ev_succ (ev_andThen (h1 r (by omega)) (ev_andThen (h2 id 39 (passes_id 3) (by unfold levelPrec; omega) r _ (by omega) (hr e)) ?_)) fun n => rfl
      exact ev_ok
    have a2 : Ev (fun n => unaryOperand n (op1 (s% "-")) (u ++ r)) (.ok (.node (op1 (s% "-")) [e], r)) := ev_succ (ev_andThen a1 ev_ok) fun n => rfl
    have a3 : Ev (fun n => unary n (op1 (s% "-")) (u ++ r)) (.ok (.node (op1 (s% "-")) [e], r)) := by
      refine ev_succ a2 fun n => ?_
      obtain ⟨c1, c2⟩ := (h.begins.append r).colon
      simp only [unary, c1, c2, Bool.false_eq_true, if_false]
    refine ev_succ a3 fun n => ?_
    have c : findOp ops1 (s% "-") = some (op1 (s% "-")) := by decide +kernel
    rw [List.cons_append]
    simp only [parseOperand, Tok.isLiteral, c]
    rfl
  refine ⟨⟨_, _, rfl, by simp, by simp, by simp, by simp, by simp, by simp, by simp, by simp⟩, ⟨.node (op1 (s% "-")) [e], [], fun r hr => key r (hr (by omega)),
    fun _ _ _ _ _ _ _ h => h⟩, fun o ho _ ext => attach_bracket (by decide) o ext [e]⟩

/-- Products and sums -/
theorem parses_left {i : Nat} (hi : i ≤ 1) {q : Op} (hq : q ∈ calcOps) (hp : q.prec = levelPrec i) {u w : List Tok} {e f : Tree} (h : Parses i u e)
    (h' : Parses (i + 1) w f) : Parses i (u ++ ⟨.op, q.text⟩ :: w) (.node q [e, f]) := by
  obtain ⟨e0, w0, h1, h2⟩ := h.split
  obtain ⟨f0, w1, h3, h4⟩ := h'.split
  obtain ⟨_, f2, _, f4, _, _, f7⟩ := calcOps_ok q hq
  have hn : q.assoc ≠ .right := fun e => by have := f7.1 e; unfold levelPrec at hp; omega
  have hst : ∀ r, Stops (⟨.op, q.text⟩ :: (w ++ r)) := fun r => stops_op hq (by unfold levelPrec at hp; omega) (h'.begins.append r)
  refine ⟨h.begins.append _, ⟨e0, w0 ++ ⟨.op, q.text⟩ :: w, fun r _ => ?_, fun K m hK hm r o hs hr => ?_⟩, fun o ho' ho ext => ?_⟩
  · rw [List.append_assoc, List.append_assoc]
    exact h1 _ fun _ => hst r
  · rw [List.append_assoc]
    refine h2 K m hK hm _ o (fun _ => hst r) ?_
    rw [List.cons_append]
    refine ev_calcOp hq (by omega) (h'.begins.append _) (h3 r fun _ => hs (by omega)) ?_
    rw [hK _ hq (by omega), h.wrap _ hq (.inr ⟨hp, hn⟩)]
    exact h4 _ m (hK.right hq (by omega) (.inl (by unfold levelPrec at *; omega)) e) (by unfold levelPrec at *; omega) r o (fun _ => hs (by omega)) hr
  · obtain ⟨_, _, _, g4, _, _, g7⟩ := calcOps_ok o ho'
    rw [attach, if_neg, if_neg (by rintro ⟨h, _⟩; exact g4 h)]
    rintro ⟨_, h | ⟨h, h'⟩⟩
    · rw [hp] at h; omega
    · rcases ho with ho | ⟨_, ho⟩
      · rw [hp] at h; omega
      · exact ho h'

/-- A whole expression -/
theorem Parses.expr {u r : List Tok} {e : Tree} (h : Parses 0 u e) (hr : NoInfix r) : Ev (fun n => parseExpr n (-1) (u ++ r)) (semi e r) := by
  obtain ⟨e0, w, h1, h2⟩ := h.split
  refine ev_succ (ev_andThen (h1 r fun _ => stops_noInfix hr) (ev_andThen (h2 id (-1) (passes_id 0) (by unfold levelPrec; omega) r _
    (fun _ => stops_noInfix hr) (ev_loop_halt hr (-1) e)) ?_)) fun n => rfl
  exact ⟨0, fun _ _ => rfl⟩

theorem parses_paren {u : List Tok} {e : Tree} (h : Parses 0 u e) : Parses 4 (tLp :: (u ++ [tRp])) (.node parenOp [e]) := by
  refine parses_closed ⟨_, _, rfl, by simp [tLp], by simp [tLp], by simp [tLp], by simp [tLp], by simp [tLp], by simp [tLp], by simp [tLp], by simp [tLp]⟩ (fun r => ?_)
    (fun o ext => attach_bracket paren_ar o ext [e])
  have h1 : Ev (fun n => parseExpr n (-1) (u ++ tRp :: r)) (.ok (e, tRp :: r)) := h.expr (noInfix_cons (by simp [tRp]) r)
  have h2 : Ev (fun n => exprList n (s% ")") (tRp :: r)) (.ok ([], r)) := ev_const fun n => by simp [exprList, tRp]
  exact ev_group (ev_exprList (.inl rfl) h.begins.first h1 h2)

theorem parses_tok {t : Tok} (h : t.kind = .name ∨ t.kind = .num) (hs : t.text ∉ [s% ":", s% "*", s% ")", s% "]", s% "}", s% ";", s% "EL"]) :
    Parses 4 [t] (.tok t) := by
  simp only [List.mem_cons, List.not_mem_nil, or_false, not_or] at hs
  obtain ⟨h1, h2, h3, h4, h5, h6, h7⟩ := hs
  refine parses_closed ⟨t, [], rfl, h1, h2, h3, h4, h5, h6, by rcases h with h | h <;> simp [h], h7⟩ (fun r => ?_) (fun o ext => by simp [attach])
  refine ev_const fun n => ?_
  simp only [List.singleton_append, parseOperand]
  rcases h with h | h
  · simp [h]
  · simp [h, Tok.isLiteral]

/-- A program consisting of an expression -/
theorem Parses.program {u : List Tok} {e : Tree} (h : Parses 0 u e) : Ev (fun n => parse n u) (.ok ([e], [])) := by
  have h1 := h.expr (r := []) (by intro t ht; simp at ht)
  rw [List.append_nil] at h1
  have h2 : Ev (fun n => parseStatement n u) (.ok (e, [])) := by
    obtain ⟨t, w, rfl, _, _, _, _, _, _, g, _⟩ := h.begins
    refine ev_succ (ev_andThen (f := fun _ e ts => semi e ts) h1 (ev_semi_nil e)) fun n => ?_
    simp only [parseStatement, if_neg g]
  have h3 := ev_cons (r := []) h.begins.first (by rw [List.append_nil]; exact h2) (ev_parse_end (.inl rfl))
  rwa [List.append_nil] at h3

end Pip
