import Verif.Lemmas.ParseClean
/-! The parser terminates with a tree or a syntax error; larger budgets change nothing. -/

set_option linter.unusedSimpArgs false
set_option linter.unusedVariables false

namespace Pip
namespace PP
open Parse

/-- Command tokens name commands (true of every token made by the scanner). -/
def WF (t : Tok) : Prop := t.kind = .cmd → (findCmd t.text).isSome

def Good {α : Type} (k : Nat) (x : Res α) : Prop :=
  match x with
  | .ok (_, r) => r.length ≤ k ∧ ∀ t ∈ r, WF t
  | .error e => e = .badSyntax ∨ e = .incomplete

theorem good_andThen {α β : Type} {k k' : Nat} {x : Res α} {f : α → List Tok → Res β} (hx : Good k x)
    (hf : ∀ a r, r.length ≤ k → (∀ t ∈ r, WF t) → Good k' (f a r)) : Good k' (andThen x f) := by
  match x with
  | .ok (a, r) => exact hf a r hx.1 hx.2
  | .error e => exact hx

theorem good_mono {α : Type} {k k' : Nat} {x : Res α} (h : Good k x) (hk : k ≤ k') : Good k' x := by
  match x with
  | .ok (a, r) => exact ⟨Nat.le_trans h.1 hk, h.2⟩
  | .error e => exact h

theorem wf_tail {l : List Tok} (h : ∀ t ∈ l, WF t) : ∀ t ∈ l.tail, WF t := by
  intro t ht; exact h t (List.mem_of_mem_tail ht)

theorem good_ok {α : Type} {k : Nat} {a : α} {r : List Tok} (h : r.length ≤ k) (hw : ∀ t ∈ r, WF t) :
    Good k (.ok (a, r)) := ⟨h, hw⟩

theorem good_semi {α : Type} {x : α} {k : Nat} {l : List Tok} (hl : l.length ≤ k) (h : ∀ t ∈ l, WF t) :
    Good k (semi x l) := by
  unfold semi
  split
  · exact ⟨by simp; omega, wf_tail h⟩
  · exact ⟨hl, h⟩

theorem isT_cons {l : List Tok} {s : Str} (h : isT l s = true) : ∃ t r, l = t :: r ∧ t.text = s := by
  cases l with
  | nil => simp [isT] at h
  | cons t r => exact ⟨t, r, rfl, by simpa [isT] using h⟩

theorem isT_pos {l : List Tok} {s : Str} (h : isT l s = true) : l.tail.length + 1 = l.length := by
  obtain ⟨t, r, rfl, _⟩ := isT_cons h; rfl

theorem args_len (c : Cmd) : c.args.length ≤ 3 := by cases c <;> decide

theorem total (n : Nat) :
    (∀ l, 16 * l.length + 4 ≤ n → (∀ t ∈ l, WF t) → Good l.length (parse n l)) ∧
    (∀ l, 16 * l.length + 3 ≤ n → (∀ t ∈ l, WF t) → Good (l.length - 1) (parseStatement n l)) ∧
    (∀ as l, 16 * l.length + 5 + as.length ≤ n → (∀ t ∈ l, WF t) → Good l.length (parseArgs n as l)) ∧
    (∀ l, 16 * l.length + 1 ≤ n → (∀ t ∈ l, WF t) → Good (l.length - 1) (parseNameList n l)) ∧
    (∀ l, 16 * l.length + 2 ≤ n → (∀ t ∈ l, WF t) → Good (l.length - 1) (nameLoop n l)) ∧
    (∀ l, 16 * l.length + 4 ≤ n ∨ (isT l (s% "{") = true ∧ 16 * l.length ≤ n + 11) → (∀ t ∈ l, WF t) →
      Good (l.length - 1) (parseBlock n l)) ∧
    (∀ m l, 16 * l.length + 2 ≤ n → (∀ t ∈ l, WF t) → Good (l.length - 1) (parseExpr n m l)) ∧
    (∀ m e l, 16 * l.length + 1 ≤ n → (∀ t ∈ l, WF t) → Good l.length (exprLoop n m e l)) ∧
    (∀ m e op l, 16 * l.length + 3 ≤ n → (∀ t ∈ l, WF t) → Good (l.length - 1) (operands n m e op l)) ∧
    (∀ c l, 16 * l.length + 3 ≤ n → (∀ t ∈ l, WF t) → Good (l.length - 1) (exprList n c l)) ∧
    (∀ l, 16 * l.length + 1 ≤ n → (∀ t ∈ l, WF t) → Good (l.length - 1) (parseOperand n l)) ∧
    (∀ op l, 16 * l.length + 4 ≤ n → (∀ t ∈ l, WF t) → Good (l.length - 1) (unary n op l)) ∧
    (∀ op l, 16 * l.length + 3 ≤ n → (∀ t ∈ l, WF t) → Good (l.length - 1) (unaryOperand n op l)) := by
  induction n with
  | zero =>
    refine ⟨?_, ?_, ?_, ?_, ?_, ?_, ?_, ?_, ?_, ?_, ?_, ?_, ?_⟩ <;> intros <;> first | omega | skip
    rename_i h _
    rcases h with h | ⟨h1, h2⟩
    · omega
    · have := isT_pos h1; omega
  | succ n ih =>
    obtain ⟨h1, h2, h3, h4, h5, h6, h7, h8, h9, h10, h11, h12, h13⟩ := ih
    refine ⟨?_, ?_, ?_, ?_, ?_, ?_, ?_, ?_, ?_, ?_, ?_, ?_, ?_⟩
    · intro l hn hw
      cases l with
      | nil => exact ⟨Nat.le_refl _, hw⟩
      | cons t r =>
        simp only [parse]
        split
        · exact ⟨Nat.le_refl _, hw⟩
        · simp only [List.length_cons] at hn
          refine good_andThen (h2 _ (by simp only [List.length_cons]; omega) hw) fun a r' hr hw' => ?_
          simp only [List.length_cons] at hr
          refine good_andThen (h1 r' (by omega) hw') fun b r'' hr' hw'' => ⟨?_, hw''⟩
          simp only [List.length_cons]; omega
    · intro l hn hw
      cases l with
      | nil => exact .inr rfl
      | cons t r =>
        simp only [parseStatement]
        have hwr : ∀ u ∈ r, WF u := fun u hu => hw u (by simp [hu])
        simp only [List.length_cons] at hn ⊢
        split
        · rename_i hk
          have := hw t (by simp) hk
          cases hc : findCmd t.text with
          | none => rw [hc] at this; simp at this
          | some c =>
            simp only
            have hc3 := args_len c
            refine good_andThen (h3 c.args r (by omega) hwr) fun a r' hr hw' => ?_
            exact good_semi (by omega) hw'
        · refine good_andThen (h7 _ _ (by simp only [List.length_cons]; omega) hw) fun a r' hr hw' => ?_
          exact good_semi (by simp at hr; omega) hw'
    · intro as l hn hw
      match as with
      | [] => exact ⟨Nat.le_refl _, hw⟩
      | .els :: as =>
        simp only [parseArgs]
        simp only [List.length_cons] at hn
        split
        · rename_i he
          have := isT_pos he
          refine good_andThen (h6 _ (.inl (by omega)) (wf_tail hw)) fun a r' hr hw' => ?_
          refine good_andThen (h3 as r' (by omega) hw') fun b r'' hr' hw'' => ⟨by omega, hw''⟩
        · refine good_andThen (h3 as l (by omega) hw) fun b r'' hr' hw'' => ⟨by omega, hw''⟩
      | .code :: as =>
        simp only [parseArgs]
        simp only [List.length_cons] at hn
        refine good_andThen (h6 _ (.inl (by omega)) hw) fun a r' hr hw' => ?_
        refine good_andThen (h3 as r' (by omega) hw') fun b r'' hr' hw'' => ⟨by omega, hw''⟩
      | .loopvar :: as =>
        simp only [parseArgs]
        simp only [List.length_cons] at hn
        refine good_andThen (h4 _ (by omega) hw) fun a r' hr hw' => ?_
        refine good_andThen (h3 as r' (by omega) hw') fun b r'' hr' hw'' => ⟨by omega, hw''⟩
      | .expr :: as =>
        simp only [parseArgs]
        simp only [List.length_cons] at hn
        refine good_andThen (h7 _ _ (by omega) hw) fun a r' hr hw' => ?_
        refine good_andThen (h3 as r' (by omega) hw') fun b r'' hr' hw'' => ⟨by omega, hw''⟩
    · intro l hn hw
      cases l with
      | nil => exact .inr rfl
      | cons t r =>
        simp only [parseNameList]
        have hwr : ∀ u ∈ r, WF u := fun u hu => hw u (by simp [hu])
        simp only [List.length_cons] at hn ⊢
        split
        · exact good_semi (by omega) hwr
        · split
          · refine good_andThen (h5 _ (by omega) hwr) fun a r' hr hw' => ?_
            split
            · exact .inl rfl
            · exact good_semi (by omega) hw'
          · exact .inl rfl
    · intro l hn hw
      simp only [nameLoop]
      split
      · rename_i he
        have := isT_pos he
        exact ⟨by omega, wf_tail hw⟩
      · by_cases hl : l = []
        · subst hl
          obtain ⟨k, rfl⟩ : ∃ k, n = k + 1 := ⟨n - 1, by simp at hn; omega⟩
          exact .inr rfl
        refine good_andThen (h4 _ (by omega) hw) fun a r' hr hw' => ?_
        · have := List.length_pos_iff.2 hl
          refine good_andThen (h5 _ (by omega) hw') fun b r'' hr' hw'' => ⟨by omega, hw''⟩
    · intro l hn hw
      simp only [parseBlock]
      split
      · rename_i he
        have := isT_pos he
        refine good_andThen (h1 _ (by omega) (wf_tail hw)) fun a r' hr hw' => ?_
        cases r' with
        | nil => exact .inr rfl
        | cons u r' =>
          simp only
          split
          · exact ⟨by simp at hr; omega, fun t ht => hw' t (by simp [ht])⟩
          · exact .inl rfl
      · rename_i he
        rcases hn with hn | ⟨h, _⟩
        · refine good_andThen (h2 _ (by omega) hw) fun a r' hr hw' => ⟨hr, hw'⟩
        · exact absurd h he
    · intro m l hn hw
      simp only [parseExpr]
      refine good_andThen (h11 _ (by omega) hw) fun a r' hr hw' => ?_
      by_cases hl : l = []
      · subst hl
        have : r' = [] := List.length_eq_zero_iff.1 (by simpa using hr)
        subst this
        refine good_andThen (h8 _ _ _ (by simp at hn ⊢; omega) hw') fun b r'' hr' hw'' => ?_
        split
        · exact good_semi (by simpa using hr') hw''
        · exact ⟨by simpa using hr', hw''⟩
      · have := List.length_pos_iff.2 hl
        refine good_andThen (h8 _ _ _ (by omega) hw') fun b r'' hr' hw'' => ?_
        split
        · exact good_semi (by omega) hw''
        · exact ⟨by omega, hw''⟩
    · intro m e l hn hw
      cases l with
      | nil => exact ⟨Nat.le_refl _, hw⟩
      | cons t r =>
        simp only [exprLoop]
        have hwr : ∀ u ∈ r, WF u := fun u hu => hw u (by simp [hu])
        split
        · cases (findOp ops2 t.text).or (findOp ops3 t.text) with
          | none => exact ⟨Nat.le_refl _, hw⟩
          | some op =>
            simp only [List.length_cons] at hn ⊢
            split
            · rename_i he
              have := isT_pos he
              split
              · exact ⟨Nat.le_refl _, hw⟩
              · exact good_mono (h9 _ _ _ _ (by omega) (wf_tail hwr)) (by omega)
            · split
              · exact ⟨Nat.le_refl _, hw⟩
              · exact good_mono (h9 _ _ _ _ (by omega) hwr) (by omega)
        · exact ⟨Nat.le_refl _, hw⟩
    · intro m e op l hn hw
      have key : ∀ e' : Tree → Tree, Good (l.length - 1) (andThen (parseOperand n l) fun x ts => exprLoop n m (e' x) ts) := by
        intro e'
        refine good_andThen (h11 _ (by omega) hw) fun a r' hr hw' => ?_
        refine good_mono (h8 _ _ _ (by omega) hw') hr
      simp only [operands]
      split
      · exact key _
      · split
        · refine good_andThen (h7 _ _ (by omega) hw) fun a r' hr hw' => ?_
          refine good_andThen (h11 _ (by omega) hw') fun b r'' hr' hw'' => ?_
          refine good_mono (h8 _ _ _ (by omega) hw'') (by omega)
        · exact key _
    · intro c l hn hw
      cases l with
      | nil => exact .inr rfl
      | cons t r =>
        simp only [exprList]
        have hwr : ∀ u ∈ r, WF u := fun u hu => hw u (by simp [hu])
        simp only [List.length_cons] at hn ⊢
        split
        · exact ⟨by omega, hwr⟩
        · refine good_andThen (h7 _ _ (by simp only [List.length_cons]; omega) hw) fun a r' hr hw' => ?_
          simp only [List.length_cons] at hr
          refine good_andThen (h10 _ _ (by omega) hw') fun b r'' hr' hw'' => ⟨by omega, hw''⟩
    · intro l hn hw
      cases l with
      | nil => exact .inr rfl
      | cons t r =>
        simp only [parseOperand]
        have hwr : ∀ u ∈ r, WF u := fun u hu => hw u (by simp [hu])
        simp only [List.length_cons] at hn ⊢
        split
        · exact ⟨by omega, hwr⟩
        split
        · exact ⟨by omega, hwr⟩
        split
        · refine good_andThen (h10 _ _ (by omega) hwr) fun a r' hr hw' => ⟨by omega, hw'⟩
        split
        · refine good_andThen (h10 _ _ (by omega) hwr) fun a r' hr hw' => ⟨by omega, hw'⟩
        split
        · rename_i hb
          refine good_andThen (h6 _ (.inr ⟨by simp [isT, hb], by simp only [List.length_cons]; omega⟩) hw)
            fun a r' hr hw' => ⟨by simpa using hr, hw'⟩
        split
        · split
          · cases r with
            | nil => exact .inr rfl
            | cons u r =>
              simp only
              cases findOp ops2 u.text with
              | none => exact .inl rfl
              | some op =>
                simp only [List.length_cons] at hn ⊢
                exact good_mono (h12 _ _ (by omega) (fun v hv => hwr v (by simp [hv]))) (by omega)
          · rename_i ho hd
            cases ho' : findOp ops1 t.text with
            | none => rw [ho'] at ho; simp at ho; exact absurd ho hd
            | some op => exact good_mono (h12 _ _ (by omega) hwr) (by omega)
        · exact .inl rfl
    · intro op l hn hw
      simp only [unary]
      split
      · rename_i he
        have := isT_pos he
        split
        · rename_i he
          have := isT_pos he
          exact good_mono (h13 _ _ (by omega) (wf_tail (wf_tail hw))) (by omega)
        · exact good_mono (h13 _ _ (by omega) (wf_tail hw)) (by omega)
      · split
        · rename_i he
          have := isT_pos he
          exact good_mono (h13 _ _ (by omega) (wf_tail hw)) (by omega)
        · exact h13 _ _ (by omega) hw
    · intro op l hn hw
      simp only [unaryOperand]
      refine good_andThen (h7 _ _ (by omega) hw) fun a r' hr hw' => ⟨hr, hw'⟩

/-! ### More budget changes nothing -/

def Le {α : Type} (x y : Res α) : Prop := x = .error .fuel ∨ y = x

theorem le_refl {α : Type} (x : Res α) : Le x x := .inr rfl

theorem le_andThen {α β : Type} {x y : Res α} {f g : α → List Tok → Res β} (h : Le x y)
    (hf : ∀ a r, Le (f a r) (g a r)) : Le (andThen x f) (andThen y g) := by
  rcases h with h | h
  · subst h; exact .inl rfl
  · subst h
    match y with
    | .ok (a, r) => exact hf a r
    | .error e => exact .inr rfl

def AllLe (n m : Nat) : Prop :=
    (∀ l, Le (parse n l) (parse m l)) ∧
    (∀ l, Le (parseStatement n l) (parseStatement m l)) ∧
    (∀ as l, Le (parseArgs n as l) (parseArgs m as l)) ∧
    (∀ l, Le (parseNameList n l) (parseNameList m l)) ∧
    (∀ l, Le (nameLoop n l) (nameLoop m l)) ∧
    (∀ l, Le (parseBlock n l) (parseBlock m l)) ∧
    (∀ q l, Le (parseExpr n q l) (parseExpr m q l)) ∧
    (∀ q e l, Le (exprLoop n q e l) (exprLoop m q e l)) ∧
    (∀ q e op l, Le (operands n q e op l) (operands m q e op l)) ∧
    (∀ c l, Le (exprList n c l) (exprList m c l)) ∧
    (∀ l, Le (parseOperand n l) (parseOperand m l)) ∧
    (∀ op l, Le (unary n op l) (unary m op l)) ∧
    (∀ op l, Le (unaryOperand n op l) (unaryOperand m op l))

theorem more_step {n m : Nat} (h : AllLe n m) : AllLe (n + 1) (m + 1) := by
  obtain ⟨h1, h2, h3, h4, h5, h6, h7, h8, h9, h10, h11, h12, h13⟩ := h
  refine ⟨?_, ?_, ?_, ?_, ?_, ?_, ?_, ?_, ?_, ?_, ?_, ?_, ?_⟩
  · intro l
    cases l with
    | nil => exact le_refl _
    | cons t r =>
      simp only [parse]
      split
      · exact le_refl _
      · exact le_andThen (h2 _) fun a r => le_andThen (h1 _) fun _ _ => le_refl _
  · intro l
    cases l with
    | nil => exact le_refl _
    | cons t r =>
      simp only [parseStatement]
      split
      · cases findCmd t.text with
        | none => exact le_refl _
        | some c => exact le_andThen (h3 _ _) fun _ _ => le_refl _
      · exact le_andThen (h7 _ _) fun _ _ => le_refl _
  · intro as l
    simp only [parseArgs]
    match as with
    | [] => exact le_refl _
    | .els :: as =>
      simp only
      split
      · exact le_andThen (h6 _) fun a r => le_andThen (h3 _ _) fun _ _ => le_refl _
      · exact le_andThen (h3 _ _) fun _ _ => le_refl _
    | .code :: as => exact le_andThen (h6 _) fun a r => le_andThen (h3 _ _) fun _ _ => le_refl _
    | .loopvar :: as => exact le_andThen (h4 _) fun a r => le_andThen (h3 _ _) fun _ _ => le_refl _
    | .expr :: as => exact le_andThen (h7 _ _) fun a r => le_andThen (h3 _ _) fun _ _ => le_refl _
  · intro l
    cases l with
    | nil => exact le_refl _
    | cons t r =>
      simp only [parseNameList]
      split
      · exact le_refl _
      · split
        · exact le_andThen (h5 _) fun _ _ => le_refl _
        · exact le_refl _
  · intro l
    simp only [nameLoop]
    split
    · exact le_refl _
    · exact le_andThen (h4 _) fun a r => le_andThen (h5 _) fun _ _ => le_refl _
  · intro l
    simp only [parseBlock]
    split
    · exact le_andThen (h1 _) fun _ _ => le_refl _
    · exact le_andThen (h2 _) fun _ _ => le_refl _
  · intro m l
    simp only [parseExpr]
    exact le_andThen (h11 _) fun a r => le_andThen (h8 _ _ _) fun _ _ => le_refl _
  · intro m e l
    cases l with
    | nil => exact le_refl _
    | cons t r =>
      simp only [exprLoop]
      split
      · cases (findOp ops2 t.text).or (findOp ops3 t.text) with
        | none => exact le_refl _
        | some op =>
          simp only
          split
          · split
            · exact le_refl _
            · exact h9 ..
          · split
            · exact le_refl _
            · exact h9 ..
      · exact le_refl _
  · intro m e op l
    simp only [operands]
    split
    · exact le_andThen (h11 _) fun a r => h8 ..
    · split
      · exact le_andThen (h7 _ _) fun a r => le_andThen (h11 _) fun a r => h8 ..
      · exact le_andThen (h11 _) fun a r => h8 ..
  · intro c l
    cases l with
    | nil => exact le_refl _
    | cons t r =>
      simp only [exprList]
      split
      · exact le_refl _
      · exact le_andThen (h7 _ _) fun a r => le_andThen (h10 _ _) fun _ _ => le_refl _
  · intro l
    cases l with
    | nil => exact le_refl _
    | cons t r =>
      simp only [parseOperand]
      split
      · exact le_refl _
      split
      · exact le_refl _
      split
      · exact le_andThen (h10 _ _) fun _ _ => le_refl _
      split
      · exact le_andThen (h10 _ _) fun _ _ => le_refl _
      split
      · exact le_andThen (h6 _) fun _ _ => le_refl _
      split
      · split
        · cases r with
          | nil => exact le_refl _
          | cons u r =>
            simp only
            cases findOp ops2 u.text with
            | none => exact le_refl _
            | some op => exact h12 ..
        · cases findOp ops1 t.text with
          | none => exact le_refl _
          | some op => exact h12 ..
      · exact le_refl _
  · intro op l
    simp only [unary]
    split
    · split
      · exact h13 ..
      · exact h13 ..
    · split
      · exact h13 ..
      · exact h13 ..
  · intro op l
    simp only [unaryOperand]
    exact le_andThen (h7 _ _) fun _ _ => le_refl _

theorem more (n : Nat) : AllLe n (n + 1) := by
  induction n with
  | zero =>
    refine ⟨?_, ?_, ?_, ?_, ?_, ?_, ?_, ?_, ?_, ?_, ?_, ?_, ?_⟩ <;> intros <;> exact .inl rfl
  | succ n ih => exact more_step ih

theorem le_steps {α : Type} {f : Nat → Res α} (h : ∀ n, Le (f n) (f (n + 1))) {n m : Nat} (hm : n ≤ m) :
    Le (f n) (f m) := by
  induction hm with
  | refl => exact le_refl _
  | @step k hk ih =>
    rcases ih with ih | ih
    · exact .inl ih
    · rcases h k with h' | h'
      · left; rw [← ih, h']
      · right; rw [h', ih]

/-- A successful outcome persists under a larger budget. -/
theorem le_ok {α : Type} {f : Nat → Res α} (h : ∀ n, Le (f n) (f (n + 1))) {n m : Nat} (hm : n ≤ m) {p}
    (hp : f n = .ok p) : f m = .ok p := by
  rcases le_steps h hm with h' | h'
  · rw [hp] at h'; simp at h'
  · rw [h', hp]

end PP
end Pip
