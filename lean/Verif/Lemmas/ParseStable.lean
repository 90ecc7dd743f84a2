import Verif.Lemmas.ParsePrec
/-! What happens to the parser's outcome when tokens are added at the end. -/

set_option linter.unusedSimpArgs false
set_option linter.unusedVariables false

namespace Pip
namespace PP
open Parse

/-- Tokens that cannot continue an expression or statement that is already complete. -/
def Stop (r : List Tok) : Prop :=
  ∀ t ∈ r.head?, t.kind ≠ .op ∧ t.text ≠ s% ";" ∧ t.text ≠ s% "EL" ∧ t.text ≠ s% ":" ∧ t.text ≠ s% "*"

/-- The same for a sequence of statements: the end or a closing brace. -/
def StopB (r : List Tok) : Prop := Stop r ∧ ∀ t ∈ r.head?, t.text = s% "}"

theorem stop_isT {r : List Tok} (h : Stop r) : isT r (s% ";") = false ∧ isT r (s% "EL") = false ∧ isT r (s% ":") = false ∧
    isT r (s% "*") = false := by
  cases r with
  | nil => simp [isT]
  | cons t r => have := h t rfl; simp [isT, this]

theorem isT_append {l r : List Tok} {s : Str} (h : l ≠ []) : isT (l ++ r) s = isT l s := by
  cases l with
  | nil => exact absurd rfl h
  | cons t l => rfl

theorem isT_append_true {l r : List Tok} {s : Str} (h : isT l s = true) :
    isT (l ++ r) s = true ∧ (l ++ r).tail = l.tail ++ r := by
  obtain ⟨t, l', rfl, ht⟩ := isT_cons h
  exact ⟨h, rfl⟩

/-- On no tokens at all: not bad syntax, and nothing is accepted. -/
def Never {α : Type} (x : Res α) : Prop := ∃ e, x = .error e ∧ e ≠ .badSyntax

/-- On no tokens at all: not bad syntax, and if accepted, nothing is left. -/
def Quiet {α : Type} (x : Res α) : Prop := x ≠ .error .badSyntax ∧ ∀ v r, x = .ok (v, r) → r = []

theorem never_andThen {α β : Type} {x : Res α} {f : α → List Tok → Res β} (h : Never x) : Never (andThen x f) := by
  obtain ⟨e, rfl, he⟩ := h
  exact ⟨e, rfl, he⟩

theorem Never.quiet {α : Type} {x : Res α} (h : Never x) : Quiet x := by
  obtain ⟨e, rfl, he⟩ := h
  exact ⟨by simpa using he, by simp⟩

theorem quiet_andThen {α β : Type} {x : Res α} {f : α → List Tok → Res β} (h : Quiet x)
    (hf : ∀ a, Quiet (f a [])) : Quiet (andThen x f) := by
  match x, h with
  | .ok (a, r), h => rw [h.2 a r rfl]; exact hf a
  | .error e, h => exact ⟨fun h' => h.1 (by simpa [andThen] using h'), by simp [andThen]⟩

theorem quiet_ok {α : Type} (a : α) : Quiet (.ok (a, []) : Res α) := ⟨by simp, by simp⟩

theorem never_inc {α : Type} : Never (.error .incomplete : Res α) := ⟨_, rfl, by decide⟩
theorem never_fuel {α : Type} : Never (.error .fuel : Res α) := ⟨_, rfl, by decide⟩

theorem onNil (n : Nat) :
    Never (parseStatement n []) ∧ (∀ as, Quiet (parseArgs n as [])) ∧ Never (parseNameList n []) ∧ Never (nameLoop n []) ∧
    Never (parseBlock n []) ∧ (∀ m, Never (parseExpr n m [])) ∧ (∀ m e op, Never (operands n m e op [])) ∧
    (∀ c, Never (exprList n c [])) ∧ Never (parseOperand n []) ∧ (∀ op, Never (unary n op [])) ∧
    (∀ op, Never (unaryOperand n op [])) := by
  induction n with
  | zero => 
    refine ⟨never_fuel, fun _ => never_fuel.quiet, never_fuel, never_fuel, never_fuel, fun _ => never_fuel,
      fun _ _ _ => never_fuel, fun _ => never_fuel, never_fuel, fun _ => never_fuel, fun _ => never_fuel⟩
  | succ n ih =>
    obtain ⟨h1, h2, h3, h4, h5, h6, h7, h8, h9, h10, h11⟩ := ih
    refine ⟨never_inc, ?_, never_inc, ?_, ?_, ?_, ?_, fun _ => never_inc, never_inc, ?_, ?_⟩
    · intro as
      match as with
      | [] => exact quiet_ok _
      | .els :: as => 
        simp only [parseArgs, isT]
        exact quiet_andThen (h2 _) fun _ => quiet_ok _
      | .code :: as => exact (never_andThen h5).quiet
      | .loopvar :: as => exact (never_andThen h3).quiet
      | .expr :: as => exact (never_andThen (h6 _)).quiet
    · simp only [nameLoop, isT]; exact never_andThen h3
    · simp only [parseBlock, isT]; exact never_andThen h1
    · intro m; exact never_andThen h9
    · intro m e op
      simp only [operands]
      split
      · exact never_andThen h9
      · split
        · exact never_andThen (h6 _)
        · exact never_andThen h9
    · intro op; simp only [unary, isT]; exact h11 _
    · intro op; exact never_andThen (h6 _)

/-- `y` is the outcome of the computation `x` with `r` appended to its input. `C` says when `r` does not disturb
a computation that consumed all its input. -/
def Stab {α : Type} (C : Prop) (r : List Tok) (x y : Res α) : Prop :=
  (∀ v rest, x = .ok (v, rest) → rest ≠ [] ∨ C → y = .ok (v, rest ++ r)) ∧ (x = .error .badSyntax → y = .error .badSyntax)

theorem stab_error {α : Type} {C : Prop} {r : List Tok} {e : Exc} : Stab C r (.error e : Res α) (.error e) :=
  ⟨by simp, fun h => h⟩

theorem stab_ok {α : Type} {C : Prop} {r rest : List Tok} {v : α} : Stab C r (.ok (v, rest)) (.ok (v, rest ++ r)) := by
  refine ⟨fun v' rest' h _ => ?_, by simp⟩
  simp at h; obtain ⟨rfl, rfl⟩ := h; rfl

theorem Never.stab {α : Type} {C : Prop} {r : List Tok} {x y : Res α} (h : Never x) : Stab C r x y := by
  obtain ⟨e, rfl, he⟩ := h
  exact ⟨by simp, by simp [he]⟩

theorem stab_andThen {α β : Type} {C C' : Prop} {r : List Tok} {x y : Res α} {f : α → List Tok → Res β}
    (hx : Stab C r x y) (hf : ∀ a rest, rest ≠ [] ∨ C → Stab C' r (f a rest) (f a (rest ++ r)))
    (hn : ∀ a, Never (f a []) ∨ (Quiet (f a []) ∧ (C' → C))) : Stab C' r (andThen x f) (andThen y f) := by
  match x, hx with
  | .ok (a, rest), hx =>
    by_cases hc : rest ≠ [] ∨ C
    · rw [hx.1 a rest rfl hc]
      exact hf a rest hc
    · have : rest = [] := by by_cases h : rest = []; exact h; exact absurd (.inl h) hc
      subst this
      show Stab C' r (f a []) (andThen y f)
      rcases hn a with h | ⟨h, hcc⟩
      · exact h.stab
      · refine ⟨fun v rest' h1 h2 => ?_, fun h1 => absurd h1 h.1⟩
        have := h.2 v rest' h1
        subst this
        rcases h2 with h2 | h2
        · exact absurd rfl h2
        · exact absurd (.inr (hcc h2)) hc
  | .error e, hx =>
    refine ⟨by simp [andThen], fun h => ?_⟩
    have : e = .badSyntax := by simpa [andThen] using h
    subst this
    rw [hx.2 rfl]; rfl

theorem stab_andThen' {α β : Type} {C' : Prop} {r : List Tok} {x y : Res α} {f : α → List Tok → Res β}
    (hx : Stab True r x y) (hf : ∀ a rest, Stab C' r (f a rest) (f a (rest ++ r))) :
    Stab C' r (andThen x f) (andThen y f) := by
  match x, hx with
  | .ok (a, rest), hx =>
    rw [hx.1 a rest rfl (.inr trivial)]
    exact hf a rest
  | .error e, hx =>
    refine ⟨by simp [andThen], fun h => ?_⟩
    have : e = .badSyntax := by simpa [andThen] using h
    subst this
    rw [hx.2 rfl]; rfl

theorem quiet_semi {α : Type} (a : α) : Quiet (semi a []) := by simp [semi, isT]; exact quiet_ok _

theorem stab_semi {α : Type} {r : List Tok} (a : α) (rest : List Tok) (h : rest ≠ [] ∨ Stop r) :
    Stab (Stop r) r (semi a rest) (semi a (rest ++ r)) := by
  cases rest with
  | nil =>
    have := stop_isT (h.resolve_left (by simp))
    simp only [semi, List.nil_append, this.1, show isT [] (s% ";") = false from rfl, Bool.false_eq_true, if_false]
    exact stab_ok (rest := [])
  | cons t rest =>
    simp only [semi, List.cons_append]
    have : isT (t :: (rest ++ r)) (s% ";") = isT (t :: rest) (s% ";") := rfl
    rw [this]
    split
    · exact stab_ok
    · exact stab_ok (rest := t :: rest)

theorem assign_low : ∀ op ∈ ops2 ++ ops3, assignOp.prec ≤ op.prec := by decide +kernel

theorem stab (r : List Tok) (n : Nat) :
    (∀ l, Stab (StopB r) r (parse n l) (parse n (l ++ r))) ∧
    (∀ l, Stab (Stop r) r (parseStatement n l) (parseStatement n (l ++ r))) ∧
    (∀ as l, Stab (Stop r) r (parseArgs n as l) (parseArgs n as (l ++ r))) ∧
    (∀ l, Stab (Stop r) r (parseNameList n l) (parseNameList n (l ++ r))) ∧
    (∀ l, Stab True r (nameLoop n l) (nameLoop n (l ++ r))) ∧
    (∀ l, Stab (Stop r) r (parseBlock n l) (parseBlock n (l ++ r))) ∧
    (∀ m l, Stab (Stop r) r (parseExpr n m l) (parseExpr n m (l ++ r))) ∧
    (∀ m e l, Stab (Stop r) r (exprLoop n m e l) (exprLoop n m e (l ++ r))) ∧
    (∀ m e op l, Stab (Stop r) r (operands n m e op l) (operands n m e op (l ++ r))) ∧
    (∀ c l, Stab (Stop r) r (exprList n c l) (exprList n c (l ++ r))) ∧
    (∀ l, Stab (Stop r) r (parseOperand n l) (parseOperand n (l ++ r))) ∧
    (∀ op l, Stab (Stop r) r (unary n op l) (unary n op (l ++ r))) ∧
    (∀ op l, Stab (Stop r) r (unaryOperand n op l) (unaryOperand n op (l ++ r))) := by
  induction n with
  | zero => refine ⟨?_, ?_, ?_, ?_, ?_, ?_, ?_, ?_, ?_, ?_, ?_, ?_, ?_⟩ <;> intros <;> exact stab_error
  | succ n ih =>
    obtain ⟨h1, h2, h3, h4, h5, h6, h7, h8, h9, h10, h11, h12, h13⟩ := ih
    obtain ⟨g2, g3, g4, g5, g6, g7, g9, g10, g11, g12, g13⟩ := onNil n
    have g1 : Quiet (parse n []) := by
      cases n with
      | zero => exact never_fuel.quiet
      | succ n => exact quiet_ok _
    have g8 : ∀ m e, Quiet (exprLoop n m e []) := by
      intro m e
      cases n with
      | zero => exact never_fuel.quiet
      | succ n => exact quiet_ok _
    have consOk : ∀ {α : Type} {l : List Tok} {C C' : Prop} {f : Nat → List Tok → Res (List α)} {a : α}, 
        Stab C r (f n l) (f n (l ++ r)) → Quiet (f n []) → (C' → C) →
        Stab C' r (andThen (f n l) fun sts ts => .ok (a :: sts, ts)) (andThen (f n (l ++ r)) fun sts ts => .ok (a :: sts, ts)) := by
      intro α l C C' f a h1 h2 h3
      exact stab_andThen h1 (fun b rest _ => stab_ok) fun b => .inr ⟨quiet_ok _, h3⟩
    refine ⟨?_, ?_, ?_, ?_, ?_, ?_, ?_, ?_, ?_, ?_, ?_, ?_, ?_⟩
    · intro l
      cases l with
      | nil =>
        refine ⟨fun v rest h hc => ?_, by simp [parse]⟩
        simp [parse] at h
        obtain ⟨rfl, rfl⟩ := h
        have hc := hc.resolve_left (by simp)
        cases r with
        | nil => rfl
        | cons t r => simp [parse, hc.2 t rfl]
      | cons t l =>
        simp only [parse, List.cons_append]
        split
        · exact stab_ok (rest := t :: l)
        · refine stab_andThen (h2 (t :: l)) (fun a rest hr => ?_) fun a => .inr ⟨quiet_andThen g1 fun _ => quiet_ok _, fun h => h.1⟩
          exact stab_andThen (h1 rest) (fun _ _ _ => stab_ok) fun _ => .inr ⟨quiet_ok _, fun h => h⟩
    · intro l
      cases l with
      | nil => exact never_inc.stab
      | cons t l =>
        simp only [parseStatement, List.cons_append]
        split
        · cases findCmd t.text with
          | none => exact stab_error
          | some c => exact stab_andThen (h3 _ l) (fun a rest hr => stab_semi _ _ hr) fun a => .inr ⟨quiet_semi _, fun h => h⟩
        · exact stab_andThen (h7 _ (t :: l)) (fun a rest hr => stab_semi _ _ hr) fun a => .inr ⟨quiet_semi _, fun h => h⟩
    · intro as l
      have seq : ∀ {α : Type} {x y : Res α} {as} {g : α → Tree}, Stab (Stop r) r x y →
          Stab (Stop r) r (andThen x fun e ts => andThen (parseArgs n as ts) fun l ts => .ok (g e :: l, ts))
            (andThen y fun e ts => andThen (parseArgs n as ts) fun l ts => .ok (g e :: l, ts)) := by
        intro α x y as g h
        refine stab_andThen h (fun a rest hr => ?_) fun a => .inr ⟨quiet_andThen (g3 _) fun _ => quiet_ok _, fun h => h⟩
        exact stab_andThen (h3 as rest) (fun _ _ _ => stab_ok) fun _ => .inr ⟨quiet_ok _, fun h => h⟩
      match as with
      | [] => exact stab_ok
      | .els :: as =>
        simp only [parseArgs]
        by_cases hl : l = []
        · subst hl
          refine ⟨fun v rest h hc => ?_, ?_⟩
          · have hq : Quiet (parseArgs (n + 1) (.els :: as) []) := (onNil (n + 1)).2.1 _
            have := hq.2 v rest (by simpa [parseArgs] using h)
            subst this
            have hc := hc.resolve_left (by simp)
            simp only [isT, Bool.false_eq_true, if_false] at h
            simp only [List.nil_append, (stop_isT hc).2.1, Bool.false_eq_true, if_false]
            have := stab_andThen (f := fun l ts => Except.ok (Tree.code [] :: l, ts)) (C' := Stop r) (h3 as [])
              (fun _ _ _ => stab_ok) fun _ => .inr ⟨quiet_ok _, fun h => h⟩
            exact this.1 v [] h (.inr hc)
          · intro h
            simp only [isT, Bool.false_eq_true, if_false] at h
            exact absurd h (quiet_andThen (g3 as) fun _ => quiet_ok _).1
        · rw [isT_append hl]
          split
          · rename_i he
            rw [(isT_append_true he).2]
            exact seq (h6 l.tail)
          · exact stab_andThen (h3 as l) (fun _ _ _ => stab_ok) fun _ => .inr ⟨quiet_ok _, fun h => h⟩
      | .code :: as => exact seq (g := .code) (h6 l)
      | .loopvar :: as => exact seq (g := fun e => e) (h4 l)
      | .expr :: as => exact seq (g := fun e => e) (h7 _ l)
    · intro l
      have semi' : ∀ (a : Tree) (l : List Tok), Stab (Stop r) r (semi a l) (semi a (l ++ r)) := by
        intro a l
        by_cases hs : l ≠ [] ∨ Stop r
        · exact stab_semi _ _ hs
        · refine ⟨fun v rest h hc => ?_, ?_⟩
          · have : l = [] := by by_cases h : l = []; exact h; exact absurd (.inl h) hs
            subst this
            have := (quiet_semi a).2 v rest h
            subst this
            exact absurd (.inr (hc.resolve_left (by simp))) hs
          · intro h
            unfold semi at h
            split at h <;> simp at h
      cases l with
      | nil => exact never_inc.stab
      | cons t l =>
        simp only [parseNameList, List.cons_append]
        split
        · exact semi' _ _
        · split
          · refine stab_andThen' (h5 l) fun a rest => ?_
            split
            · exact stab_error
            · exact semi' _ _
          · exact stab_error
    · intro l
      by_cases hl : l = []
      · subst hl; exact ((onNil (n + 1)).2.2.2.1).stab
      · simp only [nameLoop]
        rw [isT_append hl]
        split
        · rename_i he
          rw [(isT_append_true he).2]
          exact stab_ok
        · refine stab_andThen (h4 l) (fun a rest hr => ?_) fun a => .inl (never_andThen g5)
          exact stab_andThen (h5 rest) (fun _ _ _ => stab_ok) fun _ => .inr ⟨quiet_ok _, fun h => h⟩
    · intro l
      by_cases hl : l = []
      · subst hl; exact ((onNil (n + 1)).2.2.2.2.1).stab
      · simp only [parseBlock]
        rw [isT_append hl]
        split
        · rename_i he
          rw [(isT_append_true he).2]
          refine stab_andThen (h1 l.tail) (fun a rest hr => ?_) fun a => .inl never_inc
          cases rest with
          | nil => exact never_inc.stab
          | cons c rest =>
            simp only [List.cons_append]
            split
            · exact stab_ok
            · exact stab_error
        · exact stab_andThen (h2 l) (fun _ _ _ => stab_ok) fun _ => .inr ⟨quiet_ok _, fun h => h⟩
    · intro m l
      simp only [parseExpr]
      have hq : ∀ e : Tree, Quiet (if m = -1 then semi e [] else .ok (e, [])) := by
        intro e; split; exact quiet_semi _; exact quiet_ok _
      refine stab_andThen (h11 l) (fun a rest hr => ?_) fun a => .inr ⟨quiet_andThen (g8 _ _) hq, fun h => h⟩
      refine stab_andThen (h8 m a rest) (fun b rest hr => ?_) fun b => .inr ⟨hq b, fun h => h⟩
      split
      · exact stab_semi _ _ hr
      · exact stab_ok
    · intro m e l
      cases l with
      | nil =>
        refine ⟨fun v rest h hc => ?_, by simp [exprLoop]⟩
        simp [exprLoop] at h
        obtain ⟨rfl, rfl⟩ := h
        have hc := hc.resolve_left (by simp)
        cases r with
        | nil => rfl
        | cons t r => simp [exprLoop, (hc t rfl).1]
      | cons t l =>
        simp only [exprLoop, List.cons_append]
        split
        · cases hop : (findOp ops2 t.text).or (findOp ops3 t.text) with
          | none => exact stab_ok (rest := t :: l)
          | some op =>
            simp only
            by_cases hl : l = []
            · subst hl
              simp only [isT, Bool.false_eq_true, if_false, List.nil_append]
              split
              · rename_i hlt
                have := assign_low op (by simpa using infix_mem hop)
                have hlt' : (assignOp.prec : Int) < m := by omega
                simp only [hlt', if_true, ite_self]
                exact stab_ok (rest := [t])
              · exact (g9 _ _ _).stab
            · rw [isT_append hl]
              split
              · rename_i he
                rw [(isT_append_true he).2]
                split
                · exact stab_ok (rest := t :: l)
                · exact h9 _ _ _ _
              · split
                · exact stab_ok (rest := t :: l)
                · exact h9 _ _ _ _
        · exact stab_ok (rest := t :: l)
    · intro m e op l
      simp only [operands]
      split
      · exact stab_andThen (h11 l) (fun a rest hr => h8 _ _ _) fun a => .inr ⟨g8 _ _, fun h => h⟩
      · split
        · refine stab_andThen (h7 _ l) (fun a rest hr => ?_) fun a => .inl (never_andThen g11)
          exact stab_andThen (h11 rest) (fun a rest hr => h8 _ _ _) fun a => .inr ⟨g8 _ _, fun h => h⟩
        · exact stab_andThen (h11 l) (fun a rest hr => h8 _ _ _) fun a => .inr ⟨g8 _ _, fun h => h⟩
    · intro c l
      cases l with
      | nil => exact never_inc.stab
      | cons t l =>
        simp only [exprList, List.cons_append]
        split
        · exact stab_ok
        · refine stab_andThen (h7 _ (t :: l)) (fun a rest hr => ?_) fun a => .inl (never_andThen (g10 _))
          exact stab_andThen (h10 c rest) (fun _ _ _ => stab_ok) fun _ => .inr ⟨quiet_ok _, fun h => h⟩
    · intro l
      cases l with
      | nil => exact never_inc.stab
      | cons t l =>
        simp only [parseOperand, List.cons_append]
        split
        · exact stab_ok
        split
        · exact stab_ok
        split
        · exact stab_andThen (h10 _ l) (fun _ _ _ => stab_ok) fun _ => .inr ⟨quiet_ok _, fun h => h⟩
        split
        · exact stab_andThen (h10 _ l) (fun _ _ _ => stab_ok) fun _ => .inr ⟨quiet_ok _, fun h => h⟩
        split
        · exact stab_andThen (h6 (t :: l)) (fun _ _ _ => stab_ok) fun _ => .inr ⟨quiet_ok _, fun h => h⟩
        split
        · split
          · cases l with
            | nil => exact never_inc.stab
            | cons u l =>
              simp only [List.cons_append]
              cases findOp ops2 u.text with
              | none => exact stab_error
              | some op => exact h12 _ _
          · cases findOp ops1 t.text with
            | none => exact stab_error
            | some op => exact h12 _ _
        · exact stab_error
    · intro op l
      by_cases hl : l = []
      · subst hl; exact ((onNil (n + 1)).2.2.2.2.2.2.2.2.2.1 op).stab
      · simp only [unary]
        rw [isT_append hl, isT_append hl]
        split
        · rename_i he
          rw [(isT_append_true he).2]
          by_cases hl' : l.tail = []
          · rw [hl']
            simp only [isT, Bool.false_eq_true, if_false]
            exact (g13 _).stab
          · rw [isT_append hl']
            split
            · rename_i he'
              rw [(isT_append_true he').2]
              exact h13 _ _
            · exact h13 _ _
        · split
          · rename_i he
            rw [(isT_append_true he).2]
            exact h13 _ _
          · exact h13 _ _
    · intro op l
      exact stab_andThen (h7 _ l) (fun _ _ _ => stab_ok) fun _ => .inr ⟨quiet_ok _, fun h => h⟩

end PP
end Pip
