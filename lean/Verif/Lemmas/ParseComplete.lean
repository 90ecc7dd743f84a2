import Verif.Lemmas.ParseStable
/-! Incomplete input can be completed. -/

set_option linter.unusedSimpArgs false
set_option linter.unusedVariables false

namespace Pip
namespace PP
open Parse

/-- The tokens used for completing. -/
def tNum : Tok := ⟨.num, s% "0"⟩
def tName : Tok := ⟨.name, s% "a"⟩
def tPlus : Tok := ⟨.op, s% "+"⟩
def tSym (s : Str) : Tok := ⟨.sym, s⟩

/-- The operator made by `$` or `\$`. -/
def foldOp (t : Tok) (op : Op) : Op :=
  { op with
    fold := op.fold || t.text = s% "$"
    scan := op.scan || t.text = s% "\\$"
    arity := 1 }

def kit : List Tok := [tNum, tName, tPlus, tSym (s% "}"), tSym (s% ")"), tSym (s% "]")]

/-- With every sufficiently large budget. -/
def Ev {α : Type} (f : Nat → α) (v : α) : Prop := ∃ N, ∀ n, N ≤ n → f n = v

theorem ev_succ {α : Type} {f g : Nat → α} {v : α} (h : Ev g v) (hf : ∀ n, f (n + 1) = g n) : Ev f v := by
  obtain ⟨N, hN⟩ := h
  refine ⟨N + 1, fun n hn => ?_⟩
  obtain ⟨m, rfl⟩ : ∃ m, n = m + 1 := ⟨n - 1, by omega⟩
  rw [hf, hN m (by omega)]

theorem ev_const {α : Type} {f : Nat → α} {v : α} (h : ∀ n, f (n + 1) = v) : Ev f v :=
  ev_succ (g := fun _ => v) ⟨0, fun _ _ => rfl⟩ h

theorem ev_andThen {α β : Type} {x : Nat → Res α} {f : Nat → α → List Tok → Res β} {a r v} (hx : Ev x (.ok (a, r)))
    (hf : Ev (fun n => f n a r) v) : Ev (fun n => andThen (x n) (f n)) v := by
  obtain ⟨N, hN⟩ := hx
  obtain ⟨M, hM⟩ := hf
  refine ⟨N + M, fun n hn => ?_⟩
  simp only [hN n (by omega)]
  exact hM n (by omega)

structure Nice {α : Type} (X : Nat → List Tok → Res α) : Prop where
  mono : ∀ l n, Le (X n l) (X (n + 1) l)
  stab : ∀ r n l, Stab (Stop r) r (X n l) (X n (l ++ r))
  quiet : ∀ n, Quiet (X n [])

theorem ev_of_ok {α : Type} {X : Nat → List Tok → Res α} (h : Nice X) {n l p} (hp : X n l = .ok p) :
    Ev (fun n => X n l) (.ok p) := ⟨n, fun m hm => le_ok (f := fun n => X n l) (h.mono l) hm hp⟩

theorem ev_stab {α : Type} {X : Nat → List Tok → Res α} (h : Nice X) {l v rest r} (hp : Ev (fun n => X n l) (.ok (v, rest)))
    (hr : rest ≠ [] ∨ Stop r) : Ev (fun n => X n (l ++ r)) (.ok (v, rest ++ r)) := by
  obtain ⟨N, hN⟩ := hp
  exact ⟨N, fun n hn => (h.stab r n l).1 v rest (hN n hn) hr⟩

def Done {α : Type} (X : Nat → List Tok → Res α) (l : List Tok) : Prop :=
  ∃ k v, k ≠ [] ∧ (l = [] → Stop k) ∧ (∀ t ∈ k, t ∈ kit) ∧ Ev (fun n => X n (l ++ k)) (.ok (v, []))

theorem stop_append {a b : List Tok} (h : a ≠ []) (hs : Stop a) : Stop (a ++ b) := by
  cases a with
  | nil => exact absurd rfl h
  | cons t a => exact hs

/-- Two stages, one of which was incomplete. -/
theorem done_andThen {α β : Type} {X : Nat → List Tok → Res α} {f : Nat → α → List Tok → Res β} (hX : Nice X) {n l}
    (h : andThen (X n l) (f n) = .error .incomplete)
    (h1 : X n l = .error .incomplete → Done X l)
    (h2 : ∀ a rest, X n l = .ok (a, rest) → f n a rest = .error .incomplete → Done (fun n r => f n a r) rest)
    (h3 : ∀ a, ∃ k v, Stop k ∧ (∀ t ∈ k, t ∈ kit) ∧ Ev (fun n => f n a k) (.ok (v, []))) :
    Done (fun n l => andThen (X n l) (f n)) l := by
  match hx : X n l with
  | .ok (a, rest) =>
    rw [hx] at h
    obtain ⟨k, v, k1, k2, k3, k4⟩ := h2 a rest hx h
    refine ⟨k, v, k1, ?_, k3, ?_⟩
    · rintro rfl; exact k2 ((hX.quiet n).2 a rest hx)
    · refine ev_andThen (ev_stab hX (ev_of_ok hX hx) ?_) k4
      by_cases hr : rest = []
      · exact .inr (k2 hr)
      · exact .inl hr
  | .error e =>
    rw [hx] at h
    have : e = .incomplete := by simpa [andThen] using h
    subst this
    obtain ⟨k, a, k1, k2, k3, k4⟩ := h1 hx
    obtain ⟨k', v, j1, j2, j3⟩ := h3 a
    refine ⟨k ++ k', v, by simp [k1], fun h => stop_append k1 (k2 h), ?_, ?_⟩
    · intro t ht
      rcases List.mem_append.1 ht with h | h
      · exact k3 t h
      · exact j2 t h
    · have := ev_stab hX k4 (.inr j1)
      rw [List.append_assoc, List.nil_append] at this
      exact ev_andThen this j3

theorem done_succ {α : Type} {Z Y : Nat → List Tok → Res α} {l l' : List Tok} (hy : Done Y l')
    (hz : ∀ n k, (l' = [] → Stop k) → Z (n + 1) (l ++ k) = Y n (l' ++ k)) (hl : l = [] → l' = []) : Done Z l := by
  obtain ⟨k, v, k1, k2, k3, k4⟩ := hy
  exact ⟨k, v, k1, fun h => k2 (hl h), k3, ev_succ k4 fun n => hz n k k2⟩

theorem stop_nil : Stop [] := by intro t h; simp at h
theorem stop_num (r) : Stop (tNum :: r) := by intro t h; simp at h; subst h; decide
theorem stop_name (r) : Stop (tName :: r) := by intro t h; simp at h; subst h; decide
theorem stop_brace (r) : Stop (tSym (s% "}") :: r) := by intro t h; simp at h; subst h; decide
theorem stop_paren (r) : Stop (tSym (s% ")") :: r) := by intro t h; simp at h; subst h; decide
theorem stop_bracket (r) : Stop (tSym (s% "]") :: r) := by intro t h; simp at h; subst h; decide

theorem nice_statement : Nice parseStatement :=
  ⟨fun l n => (more n).2.1 l, fun r n l => (stab r n).2.1 l, fun n => (onNil n).1.quiet⟩
theorem nice_args (as) : Nice (fun n => parseArgs n as) :=
  ⟨fun l n => (more n).2.2.1 as l, fun r n l => (stab r n).2.2.1 as l, fun n => (onNil n).2.1 as⟩
theorem nice_nameList : Nice parseNameList :=
  ⟨fun l n => (more n).2.2.2.1 l, fun r n l => (stab r n).2.2.2.1 l, fun n => (onNil n).2.2.1.quiet⟩
theorem stab_weaken {α : Type} {C C' : Prop} {r : List Tok} {x y : Res α} (h : Stab C r x y) (hc : C' → C) : Stab C' r x y :=
  ⟨fun v rest hx ho => h.1 v rest hx (ho.imp id hc), h.2⟩
theorem nice_nameLoop : Nice nameLoop :=
  ⟨fun l n => (more n).2.2.2.2.1 l, fun r n l => stab_weaken ((stab r n).2.2.2.2.1 l) fun _ => trivial,
    fun n => (onNil n).2.2.2.1.quiet⟩
theorem nice_block : Nice parseBlock :=
  ⟨fun l n => (more n).2.2.2.2.2.1 l, fun r n l => (stab r n).2.2.2.2.2.1 l, fun n => (onNil n).2.2.2.2.1.quiet⟩
theorem nice_expr (m) : Nice (fun n => parseExpr n m) :=
  ⟨fun l n => (more n).2.2.2.2.2.2.1 m l, fun r n l => (stab r n).2.2.2.2.2.2.1 m l, fun n => ((onNil n).2.2.2.2.2.1 m).quiet⟩
theorem nice_operand : Nice parseOperand :=
  ⟨fun l n => (more n).2.2.2.2.2.2.2.2.2.2.1 l, fun r n l => (stab r n).2.2.2.2.2.2.2.2.2.2.1 l,
    fun n => (onNil n).2.2.2.2.2.2.2.2.1.quiet⟩
theorem nice_list (c) : Nice (fun n => exprList n c) :=
  ⟨fun l n => (more n).2.2.2.2.2.2.2.2.2.1 c l, fun r n l => (stab r n).2.2.2.2.2.2.2.2.2.1 c l,
    fun n => ((onNil n).2.2.2.2.2.2.2.1 c).quiet⟩

theorem ev_loop_nil (m e) : Ev (fun n => exprLoop n m e []) (.ok (e, [])) := ev_const fun _ => rfl
theorem ev_operand_num (r) : Ev (fun n => parseOperand n (tNum :: r)) (.ok (.tok tNum, r)) := ev_const fun _ => rfl
theorem ev_semi_nil {α : Type} (a : α) : Ev (fun _ => semi a []) (.ok (a, [])) := ⟨0, fun _ _ => rfl⟩
theorem ev_expr_num (m) : Ev (fun n => parseExpr n m [tNum]) (.ok (.tok tNum, [])) := by
  refine ev_succ (ev_andThen (ev_operand_num []) (ev_andThen (ev_loop_nil m (.tok tNum))
    (f := fun n e ts => if m = -1 then semi e ts else .ok (e, ts)) ?_)) fun n => rfl
  refine ⟨0, fun n _ => ?_⟩
  by_cases h : m = -1
  · simp [h]; rfl
  · simp [h]
theorem ev_statement_num : Ev (fun n => parseStatement n [tNum]) (.ok (.tok tNum, [])) :=
  ev_succ (ev_andThen (ev_expr_num (-1)) (f := fun _ e ts => semi e ts) (ev_semi_nil _)) fun n => rfl
theorem ev_block_num : Ev (fun n => parseBlock n [tNum]) (.ok ([.tok tNum], [])) :=
  ev_succ (ev_andThen ev_statement_num (f := fun _ e ts => .ok ([e], ts)) ⟨0, fun _ _ => rfl⟩) fun n => rfl
theorem ev_nameList_name : Ev (fun n => parseNameList n [tName]) (.ok (.tok tName, [])) := ev_const fun _ => rfl

theorem ev_unary_num (op : Op) : Ev (fun n => unary n op [tNum]) (.ok (.node op [.tok tNum], [])) := by
  have h : Ev (fun n => unaryOperand n op [tNum]) (.ok (.node op [.tok tNum], [])) :=
    ev_succ (ev_andThen (ev_expr_num ((op.prec : Int) + 1)) (f := fun _ e ts => (.ok (.node op [e], ts) : Res Tree)) ⟨0, fun _ _ => rfl⟩) fun n => rfl
  exact ev_succ h fun n => rfl

theorem kit_cons {t : Tok} {k : List Tok} (h : t ∈ kit) (hk : ∀ t ∈ k, t ∈ kit) : ∀ u ∈ t :: k, u ∈ kit := by
  intro u hu
  rcases List.mem_cons.1 hu with h' | h'
  · rw [h']; exact h
  · exact hk u h'
theorem kit_one {t : Tok} (h : t ∈ kit) : ∀ u ∈ [t], u ∈ kit := kit_cons h (by simp)

/-- Missing arguments of a command can be supplied. -/
theorem args_nil (as : List ArgType) : ∃ k v, Stop k ∧ (∀ t ∈ k, t ∈ kit) ∧ Ev (fun n => parseArgs n as k) (.ok (v, [])) := by
  have ok : ∀ {v r}, Ev (fun _ : Nat => (.ok (v, r) : Res (List Tree))) (.ok (v, r)) := ⟨0, fun _ _ => rfl⟩
  induction as with
  | nil => exact ⟨[], [], stop_nil, by simp, ev_const fun _ => rfl⟩
  | cons a as ih =>
    obtain ⟨k, v, h1, h2, h3⟩ := ih
    cases a with
    | els =>
      refine ⟨k, _, h1, h2, ev_succ (ev_andThen h3 (f := fun _ l ts => .ok (.code [] :: l, ts)) ok) fun n => ?_⟩
      simp only [parseArgs, (stop_isT h1).2.1, Bool.false_eq_true, if_false]
    | code =>
      refine ⟨tNum :: k, _, stop_num k, kit_cons (by decide) h2, ev_succ (ev_andThen (ev_stab nice_block ev_block_num (.inr h1))
        (f := fun n b ts => andThen (parseArgs n as ts) fun l ts => .ok (.code b :: l, ts)) (ev_andThen h3 ok)) fun n => rfl⟩
    | loopvar =>
      refine ⟨tName :: k, _, stop_name k, kit_cons (by decide) h2, ev_succ (ev_andThen (ev_stab nice_nameList ev_nameList_name (.inr h1))
        (f := fun n b ts => andThen (parseArgs n as ts) fun l ts => .ok (b :: l, ts)) (ev_andThen h3 ok)) fun n => rfl⟩
    | expr =>
      refine ⟨tNum :: k, _, stop_num k, kit_cons (by decide) h2, ev_succ (ev_andThen (ev_stab (nice_expr (-1)) (ev_expr_num (-1)) (.inr h1))
        (f := fun n b ts => andThen (parseArgs n as ts) fun l ts => .ok (b :: l, ts)) (ev_andThen h3 ok)) fun n => rfl⟩

theorem ev_ok {α : Type} {v : α} {r} : Ev (fun _ : Nat => (.ok (v, r) : Res α)) (.ok (v, r)) := ⟨0, fun _ _ => rfl⟩

/-- Completion of a `parse`, which may be followed by a closing brace. -/
theorem ev_parse_stab {l v r} (h : Ev (fun n => parse n l) (.ok (v, []))) (hr : StopB r) :
    Ev (fun n => parse n (l ++ r)) (.ok (v, r)) := by
  obtain ⟨N, hN⟩ := h
  exact ⟨N, fun n hn => ((stab r n).1 l).1 v [] (hN n hn) (.inr hr)⟩

theorem semi_inc {α : Type} {a : α} {l : List Tok} : semi a l ≠ .error .incomplete := by
  unfold semi; split <;> simp

/-- First stage incomplete, second stage always succeeds. -/
theorem done_first {α β : Type} {X : Nat → List Tok → Res α} {f : Nat → α → List Tok → Res β} (hX : Nice X) {n l}
    (h : andThen (X n l) (f n) = .error .incomplete) (h1 : X n l = .error .incomplete → Done X l)
    (h2 : ∀ a rest, f n a rest ≠ .error .incomplete) (h3 : ∀ a, ∃ v, Ev (fun n => f n a []) (.ok (v, []))) :
    Done (fun n l => andThen (X n l) (f n)) l :=
  done_andThen hX h h1 (fun a rest _ h' => absurd h' (h2 a rest)) fun a => by
    obtain ⟨v, hv⟩ := h3 a
    exact ⟨[], v, stop_nil, by simp, hv⟩

theorem done_map {α β : Type} {X : Nat → List Tok → Res α} (g : α → β) (hX : Nice X) {n l}
    (h : (andThen (X n l) fun a ts => .ok (g a, ts)) = .error .incomplete) (h1 : X n l = .error .incomplete → Done X l) :
    Done (fun n l => andThen (X n l) fun a ts => .ok (g a, ts)) l :=
  done_first (f := fun _ a ts => .ok (g a, ts)) hX h h1 (by simp) fun a => ⟨_, ev_ok⟩

theorem complete (n : Nat) :
    (∀ l, parse n l = .error .incomplete → ∃ k v, k ≠ [] ∧ (∀ t ∈ k, t ∈ kit) ∧ Ev (fun n => parse n (l ++ k)) (.ok (v, []))) ∧
    (∀ l, parseStatement n l = .error .incomplete → Done parseStatement l) ∧
    (∀ as l, parseArgs n as l = .error .incomplete → Done (fun n => parseArgs n as) l) ∧
    (∀ l, parseNameList n l = .error .incomplete → Done parseNameList l) ∧
    (∀ l, nameLoop n l = .error .incomplete → ∃ k v, k ≠ [] ∧ (l = [] → Stop k) ∧ (∀ t ∈ k, t ∈ kit) ∧ v ≠ [] ∧
      Ev (fun n => nameLoop n (l ++ k)) (.ok (v, []))) ∧
    (∀ l, parseBlock n l = .error .incomplete → Done parseBlock l) ∧
    (∀ m l, parseExpr n m l = .error .incomplete → Done (fun n => parseExpr n m) l) ∧
    (∀ m e l, exprLoop n m e l = .error .incomplete → Done (fun n => exprLoop n m e) l) ∧
    (∀ m e op l, operands n m e op l = .error .incomplete → Done (fun n => operands n m e op) l) ∧
    (∀ c l, c = s% ")" ∨ c = s% "]" → exprList n c l = .error .incomplete → Done (fun n => exprList n c) l) ∧
    (∀ l, parseOperand n l = .error .incomplete → Done parseOperand l) ∧
    (∀ op l, unary n op l = .error .incomplete → Done (fun n => unary n op) l) ∧
    (∀ op l, unaryOperand n op l = .error .incomplete → Done (fun n => unaryOperand n op) l) := by
  induction n with
  | zero => refine ⟨?_, ?_, ?_, ?_, ?_, ?_, ?_, ?_, ?_, ?_, ?_, ?_, ?_⟩ <;> intros <;> rename_i h <;> (cases h)
  | succ n ih =>
    obtain ⟨h1, h2, h3, h4, h5, h6, h7, h8, h9, h10, h11, h12, h13⟩ := ih
    have loopNil : ∀ m e, exprLoop n m e [] ≠ .error .incomplete := by
      intro m e; cases n <;> simp [exprLoop]
    have parseNil : parse n [] ≠ .error .incomplete := by
      cases n <;> simp [parse]
    refine ⟨?_, ?_, ?_, ?_, ?_, ?_, ?_, ?_, ?_, ?_, ?_, ?_, ?_⟩
    · intro l h
      cases l with
      | nil => simp [parse] at h
      | cons t l =>
        simp only [parse] at h
        split at h
        · simp at h
        · rename_i ht
          have unf : ∀ n k, parse (n + 1) ((t :: l) ++ k) = andThen (parseStatement n ((t :: l) ++ k)) fun st ts =>
              andThen (parse n ts) fun sts ts => .ok (st :: sts, ts) := by
            intro n k; simp [parse, ht]
          match hx : parseStatement n (t :: l) with
          | .ok (st, rest) =>
            rw [hx] at h
            simp only [andThen] at h
            match hy : parse n rest with
            | .ok (sts, rest') => rw [hy] at h; simp at h
            | .error e =>
              rw [hy] at h
              have : e = .incomplete := by simpa using h
              subst this
              obtain ⟨k, v, k1, k2, k3⟩ := h1 rest hy
              have hne : rest ≠ [] := by rintro rfl; exact parseNil hy
              refine ⟨k, _, k1, k2, ev_succ (ev_andThen (ev_stab nice_statement (ev_of_ok nice_statement hx) (.inl hne))
                (f := fun n st ts => andThen (parse n ts) fun sts ts => (.ok (st :: sts, ts) : Res (List Tree))) (ev_andThen k3 ev_ok)) fun n => unf n k⟩
          | .error e =>
            rw [hx] at h
            have : e = .incomplete := by simpa [andThen] using h
            subst this
            obtain ⟨k, v, k1, k2, k3, k4⟩ := h2 _ hx
            exact ⟨k, _, k1, k3, ev_succ (ev_andThen k4
              (f := fun n st ts => andThen (parse n ts) fun sts ts => (.ok (st :: sts, ts) : Res (List Tree)))
              (ev_andThen (a := []) (r := []) (ev_const fun n => rfl) ev_ok)) fun n => unf n k⟩
    · intro l h
      cases l with
      | nil => exact ⟨[tNum], _, by simp, fun _ => stop_num _, kit_one (by decide), ev_statement_num⟩
      | cons t l =>
        simp only [parseStatement] at h
        split at h
        · rename_i hk
          cases hc : findCmd t.text with
          | none => rw [hc] at h; simp at h
          | some c =>
            rw [hc] at h
            refine done_succ (done_first (nice_args c.args) h (h3 _ _) (fun _ _ => semi_inc)
              fun a => ⟨_, ev_semi_nil _⟩) ?_ (by simp)
            intro n k _
            simp [parseStatement, hk, hc]
        · rename_i hk
          refine done_succ (done_first (nice_expr (-1)) h (h7 _ _) (fun _ _ => semi_inc)
            fun a => ⟨_, ev_semi_nil _⟩) ?_ (by simp)
          intro n k _
          simp [parseStatement, hk]
    · intro as l h
      have seq : ∀ {α : Type} {X : Nat → List Tok → Res α} {as l} {g : α → Tree}, Nice X →
          (andThen (X n l) fun e ts => andThen (parseArgs n as ts) fun l ts => .ok (g e :: l, ts)) = .error .incomplete →
          (X n l = .error .incomplete → Done X l) → 
          Done (fun n l => andThen (X n l) fun e ts => andThen (parseArgs n as ts) fun l ts => .ok (g e :: l, ts)) l := by
        intro α X as l g hX h hd
        refine done_andThen (f := fun n e ts => andThen (parseArgs n as ts) fun l ts => .ok (g e :: l, ts)) hX h hd ?_ ?_
        · intro a rest _ h'
          exact done_map _ (nice_args as) h' (h3 _ _)
        · intro a
          obtain ⟨k, v, k1, k2, k3⟩ := args_nil as
          exact ⟨k, _, k1, k2, ev_andThen k3 ev_ok⟩
      match as, h with
      | [], h => simp [parseArgs] at h
      | .els :: as, h =>
        simp only [parseArgs] at h
        split at h
        · rename_i he
          obtain ⟨t, l, rfl, ht⟩ := isT_cons he
          refine done_succ (seq (g := .code) nice_block h (h6 l)) ?_ (by simp)
          intro n k _
          simp [parseArgs, isT, ht]
        · rename_i he
          refine done_succ (done_map _ (nice_args as) h (h3 _ _)) ?_ id
          intro n k hk
          have : isT (l ++ k) (s% "EL") = false := by
            cases l with
            | nil => exact (stop_isT (hk rfl)).2.1
            | cons t l => simpa [isT] using he
          simp [parseArgs, this]
      | .code :: as, h =>
        exact done_succ (seq (g := .code) nice_block h (h6 l)) (fun n k _ => rfl) id
      | .loopvar :: as, h =>
        exact done_succ (seq (g := fun e => e) nice_nameList h (h4 l)) (fun n k _ => rfl) id
      | .expr :: as, h =>
        exact done_succ (seq (g := fun e => e) (nice_expr (-1)) h (h7 _ l)) (fun n k _ => rfl) id
    · intro l h
      cases l with
      | nil => exact ⟨[tName], _, by simp, fun _ => stop_name _, kit_one (by decide), ev_nameList_name⟩
      | cons t l =>
        simp only [parseNameList] at h
        split at h
        · exact absurd h semi_inc
        · rename_i hk
          split at h
          · rename_i ht
            match hx : nameLoop n l with
            | .ok (v, rest) =>
              rw [hx] at h
              simp only [andThen] at h
              split at h
              · simp at h
              · exact absurd h semi_inc
            | .error e =>
              rw [hx] at h
              have : e = .incomplete := by simpa [andThen] using h
              subst this
              obtain ⟨k, v, k1, k2, k3, k4, k5⟩ := h5 l hx
              refine ⟨k, .node enlistOp v, k1, by simp, k3, ev_succ (ev_andThen k5
                (f := fun n l ts => if l.isEmpty then .error .badSyntax else semi (.node enlistOp l) ts) ?_) fun n => ?_⟩
              · refine ⟨0, fun n _ => ?_⟩
                cases v with
                | nil => exact absurd rfl k4
                | cons a v => rfl
              · simp [parseNameList, hk, ht]
          · simp at h
    · intro l h
      simp only [nameLoop] at h
      split at h
      · simp at h
      · rename_i hl
        have unf : ∀ n k, (l = [] → Stop k) → k ≠ [] → (l = [] → ∀ t ∈ k.head?, t.text ≠ s% "]") →
            nameLoop (n + 1) (l ++ k) = andThen (parseNameList n (l ++ k)) fun x ts =>
              andThen (nameLoop n ts) fun l ts => .ok (x :: l, ts) := by
          intro n k hk hne hb
          have : isT (l ++ k) (s% "]") = false := by
            cases l with
            | nil =>
              cases k with
              | nil => exact absurd rfl hne
              | cons t k => have := hb rfl t rfl; simpa [isT] using this
            | cons t l => simpa [isT] using hl
          simp [nameLoop, this]
        match hx : parseNameList n l with
        | .ok (a, rest) =>
          rw [hx] at h
          simp only [andThen] at h
          match hy : nameLoop n rest with
          | .ok (v, r') => rw [hy] at h; simp at h
          | .error e =>
            rw [hy] at h
            have : e = .incomplete := by simpa using h
            subst this
            obtain ⟨k, v, k1, k2, k3, k4, k5⟩ := h5 rest hy
            have hlne : l ≠ [] := by
              rintro rfl
              obtain ⟨e, he, _⟩ := (onNil n).2.2.1
              rw [he] at hx; simp at hx
            refine ⟨k, a :: v, k1, fun h => absurd h hlne, k3, by simp, ev_succ (ev_andThen (ev_stab nice_nameList (ev_of_ok nice_nameList hx) ?_)
              (f := fun n x ts => andThen (nameLoop n ts) fun l ts => .ok (x :: l, ts)) (ev_andThen k5 ev_ok))
              fun n => unf n k (fun h => absurd h hlne) k1 fun h => absurd h hlne⟩
            by_cases hr : rest = []
            · exact .inr (k2 hr)
            · exact .inl hr
        | .error e =>
          rw [hx] at h
          have : e = .incomplete := by simpa [andThen] using h
          subst this
          have step : ∃ k v, k ≠ [] ∧ (l = [] → Stop k ∧ ∀ t ∈ k.head?, t.text ≠ s% "]") ∧ (∀ t ∈ k, t ∈ kit) ∧
              Ev (fun n => parseNameList n (l ++ k)) (.ok (v, [])) := by
            by_cases hl : l = []
            · subst hl
              exact ⟨[tName], _, by simp, fun _ => ⟨stop_name _, by simp; decide⟩, kit_one (by decide), ev_nameList_name⟩
            · obtain ⟨k, v, k1, k2, k3, k4⟩ := h4 l hx
              exact ⟨k, v, k1, fun h => absurd h hl, k3, k4⟩
          obtain ⟨k, v, k1, k2, k3, k4⟩ := step
          refine ⟨k ++ [tSym (s% "]")], [v], by simp, fun h => stop_append k1 (k2 h).1, ?_, by simp, ?_⟩
          · intro t ht
            rcases List.mem_append.1 ht with h | h
            · exact k3 t h
            · simp at h; subst h; decide
          · have := ev_stab nice_nameList k4 (.inr (stop_bracket []))
            rw [List.append_assoc] at this
            refine ev_succ (ev_andThen this (f := fun n x ts => andThen (nameLoop n ts) fun l ts => .ok (x :: l, ts))
              (ev_andThen (a := []) (r := []) (ev_const fun n => rfl) ev_ok)) fun n => unf n _ ?_ (by simp) ?_
            · exact fun h => stop_append k1 (k2 h).1
            · intro h t ht
              cases k with
              | nil => exact absurd rfl k1
              | cons u k => exact (k2 h).2 t (by simpa using ht)
    · intro l h
      simp only [parseBlock] at h
      split at h
      · rename_i he
        obtain ⟨t, l, rfl, ht⟩ := isT_cons he
        simp only [List.tail_cons] at h
        have unf : ∀ n k, parseBlock (n + 1) ((t :: l) ++ k) = andThen (parse n (l ++ k)) fun b ts => match ts with
            | [] => .error .incomplete
            | u :: r => if u.text = s% "}" then .ok (b, r) else .error .badSyntax := by
          intro n k; simp only [parseBlock, isT, ht, List.cons_append, beq_self_eq_true, if_true, List.tail_cons]; rfl
        have fin : ∀ {k v}, (∀ t ∈ k, t ∈ kit) → Ev (fun n => parse n (l ++ k)) (.ok (v, [])) → Done parseBlock (t :: l) := by
          intro k v hk hv
          refine ⟨k ++ [tSym (s% "}")], v, by simp, by simp, ?_, ?_⟩
          · intro t ht
            rcases List.mem_append.1 ht with h | h
            · exact hk t h
            · simp at h; subst h; decide
          · have := ev_parse_stab hv (r := [tSym (s% "}")]) ⟨stop_brace [], by simp; decide⟩
            rw [List.append_assoc] at this
            refine ev_succ (ev_andThen this (f := fun n b ts => match ts with
              | [] => .error .incomplete
              | u :: r => if u.text = s% "}" then .ok (b, r) else .error .badSyntax) ⟨0, fun n _ => rfl⟩) fun n => unf n _
        match hx : parse n l with
        | .ok (b, []) =>
          exact fin (k := []) (by simp) ⟨n, fun m hm => by
            rw [List.append_nil]; exact le_ok (f := fun n => parse n l) (fun n => (more n).1 l) hm hx⟩
        | .ok (b, u :: rest) =>
          rw [hx] at h
          simp only [andThen] at h
          split at h <;> simp at h
        | .error e =>
          rw [hx] at h
          have : e = .incomplete := by simpa [andThen] using h
          subst this
          obtain ⟨k, v, k1, k2, k3⟩ := h1 l hx
          exact fin k2 k3
      · rename_i he
        by_cases hl : l = []
        · subst hl; exact ⟨[tNum], _, by simp, fun _ => stop_num _, kit_one (by decide), ev_block_num⟩
        · refine done_succ (done_map _ nice_statement h (h2 _)) ?_ id
          intro n k _
          have : isT (l ++ k) (s% "{") = false := by rw [isT_append hl]; simpa using he
          simp [parseBlock, this]
    · intro m l h
      simp only [parseExpr] at h
      have hsem : ∀ (e : Tree) (ts : List Tok), (if m = -1 then semi e ts else .ok (e, ts)) ≠ .error .incomplete := by
        intro e ts; split
        · exact semi_inc
        · simp
      have hsem' : ∀ e : Tree, Ev (fun _ : Nat => if m = -1 then semi e [] else .ok (e, [])) (.ok (e, [])) := by
        intro e; split
        · exact ev_semi_nil _
        · exact ev_ok
      refine done_succ (done_andThen (f := fun n e ts => andThen (exprLoop n m e ts) fun e ts =>
        if m = -1 then semi e ts else .ok (e, ts)) nice_operand h (h11 l) ?_ ?_) (fun n k _ => rfl) id
      · intro a rest hx h'
        match hy : exprLoop n m a rest with
        | .ok (e, r') =>
          rw [hy] at h'
          exact absurd h' (hsem e r')
        | .error e =>
          rw [hy] at h'
          have : e = .incomplete := by simpa [andThen] using h'
          subst this
          obtain ⟨k, v, k1, k2, k3, k4⟩ := h8 m a rest hy
          exact ⟨k, v, k1, k2, k3, ev_andThen k4 (f := fun _ e ts => if m = -1 then semi e ts else .ok (e, ts)) (hsem' v)⟩
      · intro a
        exact ⟨[], a, stop_nil, by simp, ev_andThen (ev_loop_nil m a)
          (f := fun _ e ts => if m = -1 then semi e ts else .ok (e, ts)) (hsem' a)⟩
    · intro m e l h
      cases l with
      | nil => simp [exprLoop] at h
      | cons t l =>
        simp only [exprLoop] at h
        split at h
        · rename_i hk
          cases hop : (findOp ops2 t.text).or (findOp ops3 t.text) with
          | none => rw [hop] at h; simp at h
          | some op =>
            rw [hop] at h
            simp only at h
            split at h
            · rename_i hc
              split at h
              · simp at h
              · rename_i hlt
                obtain ⟨c, l, rfl, hct⟩ := isT_cons hc
                refine done_succ (h9 _ _ _ _ h) ?_ (by simp)
                intro n k _
                simp [exprLoop, hk, hop, isT, hct, hlt]
            · rename_i hc
              split at h
              · simp at h
              · rename_i hlt
                refine done_succ (h9 _ _ _ _ h) ?_ (by simp)
                intro n k hk'
                have : isT (l ++ k) (s% ":") = false := by
                  by_cases hl : l = []
                  · subst hl; exact (stop_isT (hk' rfl)).2.2.1
                  · rw [isT_append hl]; simpa using hc
                simp [exprLoop, hk, hop, this, hlt]
        · simp at h
    · intro m e op l h
      simp only [operands] at h
      have fin : ∀ (g : Tree → Tree) l, (andThen (parseOperand n l) fun x ts => exprLoop n m (g x) ts) = .error .incomplete →
          Done (fun n l => andThen (parseOperand n l) fun x ts => exprLoop n m (g x) ts) l := by
        intro g l h
        refine done_andThen (f := fun n x ts => exprLoop n m (g x) ts) nice_operand h (h11 l) ?_ ?_
        · intro a rest _ h'
          exact h8 _ _ _ h'
        · intro a
          exact ⟨[], _, stop_nil, by simp, ev_loop_nil _ _⟩
      split at h
      · rename_i hc
        refine done_succ (fin _ l h) ?_ id
        intro n k _; simp [operands, hc]
      · rename_i hc
        split at h
        · rename_i ha
          refine done_succ (done_andThen (f := fun n y ts => andThen (parseOperand n ts) fun x ts =>
            exprLoop n m (attach op [y, x] e) ts) (nice_expr (-1)) h (h7 _ l) ?_ ?_) ?_ id
          · intro a rest _ h'
            exact fin _ rest h'
          · intro a
            exact ⟨[tNum], _, stop_num _, kit_one (by decide), ev_andThen (ev_operand_num []) (ev_loop_nil _ _)⟩
          · intro n k _; simp [operands, hc, ha]
        · rename_i ha
          refine done_succ (fin _ l h) ?_ id
          intro n k _; simp [operands, hc, ha]
    · intro c l hc h
      cases l with
      | nil =>
        refine ⟨[tSym c], [], by simp, ?_, ?_, ev_const fun n => ?_⟩
        · intro _; rcases hc with rfl | rfl
          · exact stop_paren _
          · exact stop_bracket _
        · rcases hc with rfl | rfl <;> exact kit_one (by decide)
        · simp [exprList, tSym]
      | cons t l =>
        simp only [exprList] at h
        split at h
        · simp at h
        · rename_i ht
          refine done_succ (done_andThen (f := fun n e ts => andThen (exprList n c ts) fun l ts => .ok (e :: l, ts))
            (nice_expr (-1)) h (h7 _ _) ?_ ?_) ?_ (by simp)
          · intro a rest _ h'
            exact done_map _ (nice_list c) h' (h10 c rest hc)
          · intro a
            refine ⟨[tSym c], _, ?_, ?_, ev_andThen (a := []) (r := []) (ev_const fun n => ?_) ev_ok⟩
            · rcases hc with rfl | rfl
              · exact stop_paren _
              · exact stop_bracket _
            · rcases hc with rfl | rfl <;> exact kit_one (by decide)
            · simp [exprList, tSym]
          · intro n k _; simp [exprList, ht]
    · intro l h
      cases l with
      | nil => exact ⟨[tNum], _, by simp, fun _ => stop_num _, kit_one (by decide), ev_operand_num _⟩
      | cons t l =>
        simp only [parseOperand] at h
        split at h
        · simp at h
        rename_i c1
        split at h
        · simp at h
        rename_i c2
        split at h
        · rename_i c3
          refine done_succ (done_map _ (nice_list _) h (h10 _ l (.inl rfl))) ?_ (by simp)
          intro n k _; simp only [parseOperand, List.cons_append]; rw [if_neg c1, if_neg c2, if_pos c3]
        rename_i c3
        split at h
        · rename_i c4
          refine done_succ (done_map _ (nice_list _) h (h10 _ l (.inr rfl))) ?_ (by simp)
          intro n k _; simp only [parseOperand, List.cons_append]; rw [if_neg c1, if_neg c2, if_neg c3, if_pos c4]
        rename_i c4
        split at h
        · rename_i c5
          refine done_succ (done_map _ nice_block h (h6 _)) ?_ (by simp)
          intro n k _; simp only [parseOperand, List.cons_append]; rw [if_neg c1, if_neg c2, if_neg c3, if_neg c4, if_pos c5]
        rename_i c5
        split at h
        · rename_i c6
          split at h
          · rename_i c7
            cases l with
            | nil =>
              have hplus : (findOp ops2 tPlus.text).isSome = true := by decide
              obtain ⟨op, hop⟩ := Option.isSome_iff_exists.1 hplus
              refine ⟨[tPlus, tNum], _, by simp, by simp, kit_cons (by decide) (kit_one (by decide)), 
                ev_succ (ev_unary_num (foldOp t op)) fun n => ?_⟩
              simp only [parseOperand, List.cons_append, List.nil_append, hop]; rw [if_neg c1, if_neg c2, if_neg c3, if_neg c4, if_neg c5, if_pos c6, if_pos c7]; rfl
            | cons u l =>
              simp only at h
              cases hop : findOp ops2 u.text with
              | none => rw [hop] at h; simp at h
              | some op =>
                rw [hop] at h
                refine done_succ (h12 _ _ h) ?_ (by simp)
                intro n k _; simp only [parseOperand, List.cons_append, hop]; rw [if_neg c1, if_neg c2, if_neg c3, if_neg c4, if_neg c5, if_pos c6, if_pos c7]
          · rename_i c7
            cases hop : findOp ops1 t.text with
            | none => rw [hop] at h; simp at h
            | some op =>
              rw [hop] at h
              refine done_succ (h12 _ _ h) ?_ (by simp)
              intro n k _
              simp only [parseOperand, List.cons_append]
              rw [if_neg c1, if_neg c2, if_neg c3, if_neg c4, if_neg c5, if_pos c6, if_neg c7, hop]
        · simp at h
    · intro op l h
      simp only [unary] at h
      split at h
      · rename_i he
        obtain ⟨t, l, rfl, ht⟩ := isT_cons he
        split at h
        · rename_i he'
          simp only [List.tail_cons] at he' h
          obtain ⟨c, l, rfl, hc⟩ := isT_cons he'
          refine done_succ (h13 _ _ h) ?_ (by simp)
          intro n k _; simp [unary, isT, ht, hc]
        · rename_i he'
          simp only [List.tail_cons] at he' h
          refine done_succ (h13 _ _ h) ?_ (by simp)
          intro n k hk
          have : isT (l ++ k) (s% ":") = false := by
            by_cases hl : l = []
            · subst hl; exact (stop_isT (hk rfl)).2.2.1
            · rw [isT_append hl]; simpa using he'
          have e1 : isT (t :: l ++ k) (s% "*") = true := he
          have e2 : (t :: l ++ k).tail = l ++ k := rfl
          simp only [unary, e1, e2, this, if_true, Bool.false_eq_true, if_false]
      · rename_i he
        split at h
        · rename_i he'
          obtain ⟨t, l, rfl, ht⟩ := isT_cons he'
          refine done_succ (h13 _ _ h) ?_ (by simp)
          intro n k _
          have e1 : isT (t :: l ++ k) (s% "*") = false := by simpa [isT] using he
          have e2 : isT (t :: l ++ k) (s% ":") = true := he'
          have e3 : (t :: l ++ k).tail = l ++ k := rfl
          simp only [unary, e1, e2, e3, if_true, Bool.false_eq_true, if_false, List.tail_cons]
        · rename_i he'
          refine done_succ (h13 _ _ h) ?_ id
          intro n k hk
          have : isT (l ++ k) (s% ":") = false ∧ isT (l ++ k) (s% "*") = false := by
            by_cases hl : l = []
            · subst hl; have := stop_isT (hk rfl); exact ⟨this.2.2.1, this.2.2.2⟩
            · rw [isT_append hl, isT_append hl]; exact ⟨by simpa using he', by simpa using he⟩
          simp only [unary, this.1, this.2, Bool.false_eq_true, if_false]
    · intro op l h
      exact done_succ (done_map _ (nice_expr _) h (h7 _ l)) (fun n k _ => rfl) id

end PP
end Pip
