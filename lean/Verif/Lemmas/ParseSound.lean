import Verif.Lemmas.ParseTotal
import Verif.Spec.Grammar
/-! What the parser accepts is spelled by the tokens it consumes. -/

set_option linter.unusedSimpArgs false
set_option linter.unusedVariables false

namespace Pip
open Parse

theorem ops1_arity : ∀ op ∈ ops1, op.arity = 1 := by decide +kernel
theorem ops2_arity : ∀ op ∈ ops2, op.arity = 2 ∧ op.fold = false ∧ op.scan = false ∧ op.assign = false ∧ op.map = false := by
  decide +kernel
theorem ops3_arity : ∀ op ∈ ops3, op.arity = 3 ∧ op.assoc ≠ .chain := by decide +kernel
theorem ops2_not_chain : ∀ op ∈ ops2 ++ ops3, op.text ≠ chainOp.text := by decide +kernel
theorem ops1_not_chain : ∀ op ∈ ops1, op.text ≠ chainOp.text := by decide +kernel
theorem chainOp_arity : chainOp.arity = 2 := by decide

theorem findOp_mem {l : List Op} {s : Str} {op : Op} (h : findOp l s = some op) : op ∈ l :=
  List.mem_of_find?_eq_some h

theorem prefix_arity {op ts} (h : Prefix op ts) : op.arity = 1 := by
  induction h with
  | plain h => exact ops1_arity _ (findOp_mem h)
  | fold _ h => rfl
  | scan _ h => rfl
  | map _ _ ih => exact ih
  | assign _ _ ih => exact ih

theorem infix_mem {t : Tok} {op : Op} (h : (findOp ops2 t.text).or (findOp ops3 t.text) = some op) :
    op ∈ ops2 ∨ op ∈ ops3 := by
  cases h2 : findOp ops2 t.text with
  | some o => rw [h2] at h; simp at h; subst h; exact .inl (findOp_mem h2)
  | none => rw [h2] at h; simp at h; exact .inr (findOp_mem h)

theorem infix_text {op ts} (h : Infix op ts) : op.text ≠ chainOp.text := by
  cases h with
  | plain h => exact ops2_not_chain _ (by simpa using infix_mem h)
  | @assign _ _ op h _ =>
    show op.text ≠ _
    exact ops2_not_chain _ (by simpa using infix_mem h)

theorem attachLast_append (op : Op) (extra : List Tree) (l : List Tree) (x : Tree) :
    attachLast op extra (l ++ [x]) = l ++ [attach op extra x] := by
  induction l with
  | nil => rfl
  | cons a l ih =>
    cases l with
    | nil => rfl
    | cons b l => simp only [List.cons_append] at ih ⊢; rw [attachLast, ih]

/-- The three ways a new operator is put on top of an expression. -/
inductive Extra : Op → List Tok → List Tree → List Tok → Prop
  | binary {op ts r w} : Infix op ts → op.assoc ≠ .chain → op.arity ≠ 3 → SpE r w → Extra op ts [r] w
  | ternary {op ts m v s r w} : Infix op ts → op.assoc ≠ .chain → op.arity = 3 → SpE m v → Semi s → SpE r w →
      Extra op ts [m, r] (v ++ s ++ w)
  | chain {op ts r w} : Infix op ts → op.assoc = .chain → SpE r w → Extra chainOp ts [.opr op, r] w

theorem extra_top {op ts extra w t u} (h : Extra op ts extra w) (ht : SpE t u) :
    SpE (.node op (t :: extra)) (u ++ ts ++ w) := by
  cases h with
  | binary h1 h2 h3 h4 => exact .binary h1 h2 h3 ht h4
  | ternary h1 h2 h3 h4 h5 h6 =>
    have := SpE.ternary h1 h2 h3 ht h4 h5 h6
    simpa only [List.append_assoc] using this
  | chain h1 h2 h3 => exact .chain h1 h2 ht h3

theorem extra_merge {ts extra w args u} (h : Extra chainOp ts extra w) (ht : SpE (.node chainOp args) u) :
    SpE (.node chainOp (args ++ extra)) (u ++ ts ++ w) := by
  cases h with
  | binary h1 h2 h3 h4 => exact absurd rfl (infix_text h1)
  | ternary h1 h2 h3 h4 h5 h6 => exact absurd rfl (infix_text h1)
  | chain h1 h2 h3 => exact .chainMore h1 h2 ht h3

theorem group_arity (l : List Tree) : ∀ op args, group l = .node op args → op.arity = 1 := by
  intro op args h
  match l with
  | [] => simp [group] at h
  | [e] => simp [group] at h; rw [← h.1]; rfl
  | a :: b :: l => simp [group] at h; rw [← h.1]; rfl

theorem escaped_arity (t : Tok) : ∀ op args, escaped t = .node op args → op.arity = 1 := by
  intro op args h
  unfold escaped at h
  simp only at h
  split at h
  · simp at h
  · simp at h; rw [← h.1]; rfl

/-- Arguments of operator nodes on the right edge: the last one is an expression and can be exchanged. -/
theorem last_arg (n : Nat) : ∀ {nop args u}, args.length ≤ n → SpE (.node nop args) u → (nop.arity = 2 ∨ nop.arity = 3) →
    ∃ front x v w, args = front ++ [x] ∧ u = v ++ w ∧ SpE x w ∧
      ∀ x' w', SpE x' w' → SpE (.node nop (front ++ [x'])) (v ++ w') := by
  induction n with
  | zero =>
    intro nop args u hl h ha
    have : args = [] := List.length_eq_zero_iff.1 (Nat.le_zero.1 hl)
    subst this
    generalize ht : Tree.node nop [] = t at h
    cases h with
    | atom => simp at ht
    | esc h1 h2 => have := escaped_arity _ _ _ (h2 ▸ ht.symm); omega
    | group h1 h2 h3 h4 => have := group_arity _ _ _ (h4 ▸ ht.symm); omega
    | list h1 h2 h3 => simp at ht; obtain ⟨rfl, _⟩ := ht; simp [enlistOp] at ha
    | block h1 h2 h3 => simp at ht
    | unary h1 h2 => simp at ht
    | binary h1 h2 h3 h4 h5 => simp at ht
    | ternary h1 h2 h3 h4 h5 h6 h7 => simp at ht
    | chain h1 h2 h3 h4 => simp at ht
    | chainMore h1 h2 h3 h4 => simp at ht
  | succ n ih =>
    intro nop args u hl h ha
    generalize ht : Tree.node nop args = t at h
    cases h with
    | atom => simp at ht
    | esc h1 h2 => have := escaped_arity _ _ _ (h2 ▸ ht.symm); omega
    | group h1 h2 h3 h4 => have := group_arity _ _ _ (h4 ▸ ht.symm); omega
    | list h1 h2 h3 => simp at ht; obtain ⟨rfl, _⟩ := ht; simp [enlistOp] at ha
    | block h1 h2 h3 => simp at ht; obtain ⟨rfl, _⟩ := ht; simp [blockOp] at ha
    | unary h1 h2 => simp at ht; obtain ⟨rfl, _⟩ := ht; have := prefix_arity h1; omega
    | @binary op ts v w l r h1 h2 h3 h4 h5 =>
      simp at ht; obtain ⟨rfl, rfl⟩ := ht
      exact ⟨[l], r, v ++ ts, w, rfl, rfl, h5, fun x' w' hx => .binary h1 h2 h3 h4 hx⟩
    | @ternary op ts v v' s w l m r h1 h2 h3 h4 h5 h6 h7 =>
      simp at ht; obtain ⟨rfl, rfl⟩ := ht
      exact ⟨[l, m], r, v ++ ts ++ v' ++ s, w, rfl, rfl, h7, fun x' w' hx => .ternary h1 h2 h3 h4 h5 h6 hx⟩
    | @chain op ts v w l r h1 h2 h3 h4 =>
      simp at ht; obtain ⟨rfl, rfl⟩ := ht
      exact ⟨[l, .opr op], r, v ++ ts, w, rfl, rfl, h4, fun x' w' hx => .chain h1 h2 h3 hx⟩
    | @chainMore op ts v w as r h1 h2 h3 h4 =>
      simp at ht; obtain ⟨rfl, rfl⟩ := ht
      exact ⟨as ++ [.opr op], r, v ++ ts, w, by simp, rfl, h4, fun x' w' hx => by
        have := SpE.chainMore h1 h2 h3 hx; simpa using this⟩

theorem attach_spells {op ts extra w} (hx : Extra op ts extra w) (n : Nat) : ∀ {t u}, sizeOf t ≤ n → SpE t u →
    SpE (attach op extra t) (u ++ ts ++ w) := by
  induction n with
  | zero => intro t u h; cases t <;> simp at h
  | succ n ih =>
    intro t u hn ht
    match t with
    | .node nop args =>
      rw [attach]
      split
      · rename_i hc
        obtain ⟨front, x, v, v', rfl, rfl, h3, h4⟩ := last_arg args.length (Nat.le_refl _) ht hc.1
        rw [attachLast_append]
        have hsz : sizeOf x ≤ n := by
          have : sizeOf x < sizeOf (front ++ [x]) := List.sizeOf_lt_of_mem (by simp)
          simp at hn ⊢; omega
        have := h4 _ _ (ih hsz h3)
        simpa only [List.append_assoc] using this
      · split
        · rename_i hc
          obtain ⟨rfl, rfl⟩ := hc
          exact extra_merge hx ht
        · exact extra_top hx ht
    | .tok a => exact extra_top hx ht
    | .cmd c a => exact extra_top hx ht
    | .code a => exact extra_top hx ht
    | .opr a => exact extra_top hx ht
    | .val a => exact extra_top hx ht
    | .lval a => exact extra_top hx ht

namespace PP

/-- Outcome of a parsing function: an accepted input is consumed tokens that spell the result, and a rest. -/
def Sound {α : Type} (l : List Tok) (R : α → List Tok → Prop) (x : Res α) : Prop :=
  ∀ a r, x = .ok (a, r) → ∃ u, l = u ++ r ∧ R a u

theorem sound_andThen {α β : Type} {l : List Tok} {R : α → List Tok → Prop} {R' : β → List Tok → Prop} {x : Res α}
    {f : α → List Tok → Res β} (hx : Sound l R x)
    (hf : ∀ a u r, R a u → Sound r (fun b w => R' b (u ++ w)) (f a r)) : Sound l R' (andThen x f) := by
  intro b r h
  match hxx : x with
  | .ok (a, r') =>
    rw [andThen] at h
    obtain ⟨u, h1, h2⟩ := hx a r' rfl
    obtain ⟨w, h3, h4⟩ := hf a u r' h2 b r h
    exact ⟨u ++ w, by rw [h1, h3, List.append_assoc], h4⟩
  | .error e => simp [andThen] at h

theorem sound_ok {α : Type} {l u r : List Tok} {R : α → List Tok → Prop} {a : α} (h : l = u ++ r) (hr : R a u) :
    Sound l R (.ok (a, r)) := by
  intro a' r' h'
  simp at h'
  obtain ⟨rfl, rfl⟩ := h'
  exact ⟨u, h, hr⟩

theorem sound_error {α : Type} {l : List Tok} {R : α → List Tok → Prop} {e : Exc} : Sound l R (.error e : Res α) := by
  intro a r h; simp at h

theorem sound_semi {α : Type} {x : α} {l : List Tok} {R : α → List Tok → Prop} (h : ∀ s, Semi s → R x s) :
    Sound l R (semi x l) := by
  unfold semi
  split
  · rename_i hs
    obtain ⟨t, r, rfl, ht⟩ := isT_cons hs
    exact sound_ok (u := [t]) rfl (h _ (.some ht))
  · exact sound_ok (u := []) rfl (h _ .none)

theorem sound_cons {α : Type} {t : Tok} {l : List Tok} {R R' : α → List Tok → Prop} {x : Res α} (h : Sound l R x)
    (hr : ∀ a u, R a u → R' a (t :: u)) : Sound (t :: l) R' x := by
  intro a r hx
  obtain ⟨u, h1, h2⟩ := h a r hx
  exact ⟨t :: u, by rw [h1]; rfl, hr a u h2⟩

theorem sound_cons2 {α : Type} {t t' : Tok} {l : List Tok} {R R' : α → List Tok → Prop} {x : Res α} (h : Sound l R x)
    (hr : ∀ a u, R a u → R' a (t :: t' :: u)) : Sound (t :: t' :: l) R' x :=
  sound_cons (R := fun a u => R' a (t :: u)) (sound_cons h hr) fun _ _ h => h

theorem sound_mono {α : Type} {l : List Tok} {R R' : α → List Tok → Prop} {x : Res α} (h : Sound l R x)
    (hr : ∀ a u, R a u → R' a u) : Sound l R' x := by
  intro a r hx
  obtain ⟨u, h1, h2⟩ := h a r hx
  exact ⟨u, h1, hr a u h2⟩

/-- An expression followed by an optional semicolon. -/
def ExprSemi (m : Int) (e : Tree) (u : List Tok) : Prop :=
  ∃ v s, u = v ++ s ∧ SpE e v ∧ Semi s ∧ (m ≠ -1 → s = [])

theorem sound (n : Nat) :
    (∀ l, Sound l SpSs (parse n l)) ∧
    (∀ l, Sound l SpS (parseStatement n l)) ∧
    (∀ as l, Sound l (SpA as) (parseArgs n as l)) ∧
    (∀ l, Sound l SpN (parseNameList n l)) ∧
    (∀ l, Sound l (fun x u => ∃ v c, u = v ++ [c] ∧ c.text = s% "]" ∧ SpNs x v) (nameLoop n l)) ∧
    (∀ l, Sound l SpB (parseBlock n l)) ∧
    (∀ m l, Sound l (ExprSemi m) (parseExpr n m l)) ∧
    (∀ m e v l, SpE e v → Sound l (fun x u => SpE x (v ++ u)) (exprLoop n m e l)) ∧
    (∀ m e v op ts l, SpE e v → Infix op ts → Sound l (fun x u => SpE x (v ++ ts ++ u)) (operands n m e op l)) ∧
    (∀ c l, Sound l (fun x u => ∃ v t, u = v ++ [t] ∧ t.text = c ∧ SpL x v) (exprList n c l)) ∧
    (∀ l, Sound l SpE (parseOperand n l)) ∧
    (∀ op ts l, Prefix op ts → Sound l (fun x u => SpE x (ts ++ u)) (unary n op l)) ∧
    (∀ op ts l, Prefix op ts → Sound l (fun x u => SpE x (ts ++ u)) (unaryOperand n op l)) := by
  induction n with
  | zero =>
    refine ⟨?_, ?_, ?_, ?_, ?_, ?_, ?_, ?_, ?_, ?_, ?_, ?_, ?_⟩ <;> intros <;> exact sound_error
  | succ n ih =>
    obtain ⟨h1, h2, h3, h4, h5, h6, h7, h8, h9, h10, h11, h12, h13⟩ := ih
    have h7' : ∀ l, Sound l (fun e u => ∃ v s, u = v ++ s ∧ SpE e v ∧ Semi s) (parseExpr n (-1) l) := fun l =>
      sound_mono (h7 (-1) l) fun a u ⟨v, s, h1, h2, h3, _⟩ => ⟨v, s, h1, h2, h3⟩
    refine ⟨?_, ?_, ?_, ?_, ?_, ?_, ?_, ?_, ?_, ?_, ?_, ?_, ?_⟩
    · intro l
      cases l with
      | nil => exact sound_ok (u := []) rfl .nil
      | cons t r =>
        simp only [parse]
        split
        · exact sound_ok (u := []) rfl .nil
        · exact sound_andThen (h2 _) fun a u r hu => sound_andThen (h1 _) fun b w r hw =>
            sound_ok (u := []) rfl (by rw [List.append_nil]; exact .cons hu hw)
    · intro l
      cases l with
      | nil => exact sound_error
      | cons t r =>
        simp only [parseStatement]
        split
        · rename_i hk
          cases hc : findCmd t.text with
          | none => exact sound_error
          | some c =>
            refine sound_cons (R := fun st u => SpS st (t :: u)) ?_ fun _ _ h => h
            exact sound_andThen (h3 _ _) fun a u r hu => sound_semi fun s hs => .cmd hk hc hu hs
        · refine sound_andThen (h7' _) fun a u r ⟨v, s, h1, h2, h3⟩ => sound_semi fun s' hs' => ?_
          rw [h1]; exact .expr h2 h3 hs'
    · intro as l
      match as with
      | [] => exact sound_ok (u := []) rfl .nil
      | .els :: as =>
        simp only [parseArgs]
        split
        · rename_i he
          obtain ⟨t, r, rfl, ht⟩ := isT_cons he
          refine sound_cons (R := fun x u => SpA (.els :: as) x (t :: u)) ?_ fun _ _ h => h
          exact sound_andThen (h6 _) fun a u r hu => sound_andThen (h3 _ _) fun b w r hw =>
            sound_ok (u := []) rfl (by rw [List.append_nil]; exact .els ht hu hw)
        · exact sound_andThen (h3 _ _) fun b w r hw =>
            sound_ok (u := []) rfl (by rw [List.append_nil]; exact .noElse hw)
      | .code :: as =>
        exact sound_andThen (h6 _) fun a u r hu => sound_andThen (h3 _ _) fun b w r hw =>
            sound_ok (u := []) rfl (by rw [List.append_nil]; exact .code hu hw)
      | .loopvar :: as =>
        exact sound_andThen (h4 _) fun a u r hu => sound_andThen (h3 _ _) fun b w r hw =>
            sound_ok (u := []) rfl (by rw [List.append_nil]; exact .loopvar hu hw)
      | .expr :: as =>
        exact sound_andThen (h7' _) fun a u r ⟨v, s, g1, g2, g3⟩ => sound_andThen (h3 _ _) fun b w r hw =>
            sound_ok (u := []) rfl (by rw [List.append_nil, g1]; exact .expr g2 g3 hw)
    · intro l
      cases l with
      | nil => exact sound_error
      | cons t r =>
        simp only [parseNameList]
        split
        · rename_i hk
          refine sound_cons (R := fun x u => SpN x (t :: u)) ?_ fun _ _ h => h
          exact sound_semi fun s hs => .name hk hs
        · split
          · rename_i ho
            refine sound_cons (R := fun x u => SpN x (t :: u)) ?_ fun _ _ h => h
            refine sound_andThen (h5 _) fun a u r ⟨v, c, g1, g2, g3⟩ => ?_
            split
            · exact sound_error
            · rename_i hne
              refine sound_semi fun s hs => ?_
              rw [g1]
              have := SpN.list ho g3 (by simpa using hne) g2 hs
              simpa using this
          · exact sound_error
    · intro l
      simp only [nameLoop]
      split
      · rename_i he
        obtain ⟨t, r, rfl, ht⟩ := isT_cons he
        exact sound_ok (u := [t]) rfl ⟨[], t, rfl, ht, .nil⟩
      · exact sound_andThen (h4 _) fun a u r hu => sound_andThen (h5 _) fun b w r ⟨v, c, g1, g2, g3⟩ =>
          sound_ok (u := []) rfl ⟨u ++ v, c, by rw [g1]; simp, g2, .cons hu g3⟩
    · intro l
      simp only [parseBlock]
      split
      · rename_i he
        obtain ⟨t, r, rfl, ht⟩ := isT_cons he
        refine sound_cons (R := fun x u => SpB x (t :: u)) ?_ fun _ _ h => h
        refine sound_andThen (h1 _) fun a u r hu => ?_
        cases r with
        | nil => exact sound_error
        | cons c r =>
          simp only
          split
          · rename_i hc
            exact sound_ok (u := [c]) rfl (.braces ht hu hc)
          · exact sound_error
      · exact sound_andThen (h2 _) fun a u r hu => sound_ok (u := []) rfl (by rw [List.append_nil]; exact .single hu)
    · intro m l
      simp only [parseExpr]
      refine sound_andThen (h11 _) fun a u r hu => ?_
      refine sound_andThen (h8 m a u r hu) fun b w r hw => ?_
      split
      · rename_i hm
        exact sound_semi fun s hs => ⟨u ++ w, s, by simp, hw, hs, fun h => absurd hm h⟩
      · exact sound_ok (u := []) rfl ⟨u ++ w, [], by simp, hw, .none, fun _ => rfl⟩
    · intro m e v l he
      have base : ∀ l', Sound l' (fun x u => SpE x (v ++ u)) (.ok (e, l')) := fun l' =>
        sound_ok (u := []) rfl (by rw [List.append_nil]; exact he)
      cases l with
      | nil => exact base _
      | cons t r =>
        simp only [exprLoop]
        split
        · cases hop : (findOp ops2 t.text).or (findOp ops3 t.text) with
          | none => exact base _
          | some op =>
            simp only
            split
            · rename_i hc
              obtain ⟨c, r, rfl, hc'⟩ := isT_cons hc
              split
              · exact base _
              · refine sound_cons2 (h9 m e v _ _ r he (.assign hop hc')) ?_
                intro a u h; simpa using h
            · split
              · exact base _
              · refine sound_cons (h9 m e v _ _ r he (.plain hop)) ?_
                intro a u h; simpa using h
        · exact base _
    · intro m e v op ts l he hop
      simp only [operands]
      split
      · rename_i hc
        refine sound_andThen (h11 _) fun a u r hu => ?_
        have := attach_spells (.chain hop hc hu) _ (Nat.le_refl _) he
        refine sound_mono (h8 m _ _ r this) fun b w hw => ?_
        simpa only [List.append_assoc] using hw
      · rename_i hc
        split
        · rename_i ha
          refine sound_andThen (h7' _) fun a u r ⟨v', s, g1, g2, g3⟩ => ?_
          refine sound_andThen (h11 _) fun b w r hw => ?_
          have := attach_spells (.ternary hop hc ha g2 g3 hw) _ (Nat.le_refl _) he
          refine sound_mono (h8 m _ _ r this) fun b w hw => ?_
          rw [g1]
          simpa only [List.append_assoc] using hw
        · rename_i ha
          refine sound_andThen (h11 _) fun a u r hu => ?_
          have := attach_spells (.binary hop hc ha hu) _ (Nat.le_refl _) he
          refine sound_mono (h8 m _ _ r this) fun b w hw => ?_
          simpa only [List.append_assoc] using hw
    · intro c l
      cases l with
      | nil => exact sound_error
      | cons t r =>
        simp only [exprList]
        split
        · rename_i hc
          exact sound_ok (u := [t]) rfl ⟨[], t, rfl, hc, .nil⟩
        · exact sound_andThen (h7' _) fun a u r ⟨v, s, g1, g2, g3⟩ => sound_andThen (h10 _ _) fun b w r ⟨v', c', k1, k2, k3⟩ =>
            sound_ok (u := []) rfl ⟨v ++ s ++ v', c', by rw [g1, k1]; simp, k2, .cons g2 g3 k3⟩
    · intro l
      cases l with
      | nil => exact sound_error
      | cons t r =>
        simp only [parseOperand]
        split
        · rename_i hk
          exact sound_ok (u := [t]) rfl (.esc hk rfl)
        rename_i hk
        split
        · rename_i hk'
          exact sound_ok (u := [t]) rfl (.atom hk' hk)
        split
        · rename_i ho
          refine sound_cons (R := fun x u => SpE x (t :: u)) ?_ fun _ _ h => h
          refine sound_andThen (h10 _ _) fun a u r ⟨v, c, g1, g2, g3⟩ => sound_ok (u := []) rfl ?_
          have := SpE.group ho g3 g2 rfl
          rw [g1]; simpa using this
        split
        · rename_i ho
          refine sound_cons (R := fun x u => SpE x (t :: u)) ?_ fun _ _ h => h
          refine sound_andThen (h10 _ _) fun a u r ⟨v, c, g1, g2, g3⟩ => sound_ok (u := []) rfl ?_
          have := SpE.list ho g3 g2
          rw [g1]; simpa using this
        split
        · rename_i ho
          refine sound_andThen (R := fun b u => ∃ v c, u = [t] ++ v ++ [c] ∧ c.text = s% "}" ∧ SpSs b v) ?_ ?_
          · have key := h1 r
            intro b r' hb
            match n, hb with
            | k + 1, hb =>
              simp only [parseBlock, isT, ho, beq_self_eq_true, if_true, List.tail_cons] at hb
              have hk := (more k).1 r
              match hp : parse k r, hb with
              | .ok (b', ts'), hb =>
                have hp' : parse (k + 1) r = .ok (b', ts') := by
                  rcases hk with hk | hk
                  · rw [hk] at hp; simp at hp
                  · rw [hk, hp]
                obtain ⟨u, g1, g2⟩ := key b' ts' hp'
                rw [andThen] at hb
                cases ts' with
                | nil => simp at hb
                | cons c ts' =>
                  simp only at hb
                  split at hb
                  · rename_i hc
                    simp at hb
                    obtain ⟨rfl, rfl⟩ := hb
                    exact ⟨[t] ++ u ++ [c], by simp [g1], u, c, rfl, hc, g2⟩
                  · simp at hb
              | .error e, hb => simp [andThen] at hb
          · intro b u r ⟨v, c, g1, g2, g3⟩
            refine sound_ok (u := []) rfl ?_
            rw [g1, List.append_nil]
            exact .block ho g3 g2
        split
        · split
          · rename_i hd
            cases r with
            | nil => exact sound_error
            | cons u r =>
              simp only
              cases hop : findOp ops2 u.text with
              | none => exact sound_error
              | some op =>
                have hf := ops2_arity op (findOp_mem hop)
                refine sound_cons2 (h12 _ [t, u] r ?_) ?_
                · rcases hd with hd | hd
                  · have h' : ¬ t.text = s% "\\$" := by rw [hd]; decide
                    have := Prefix.fold hd hop
                    simp only [hf.2.1, hf.2.2.1, hd, Bool.false_or] at this ⊢
                    simp only [decide_true, show decide (s% "$" = s% "\\$") = false by decide]
                    exact this
                  · have := Prefix.scan hd hop
                    simp only [hf.2.1, hf.2.2.1, hd, Bool.false_or] at this ⊢
                    simp only [decide_true, show decide (s% "\\$" = s% "$") = false by decide]
                    exact this
                · intro a w h; exact h
          · cases hop : findOp ops1 t.text with
            | none => exact sound_error
            | some op => exact sound_cons (h12 op [t] r (.plain hop)) fun a w h => h
        · exact sound_error
    · intro op ts l hop
      simp only [unary]
      split
      · rename_i hs
        obtain ⟨t, r, rfl, ht⟩ := isT_cons hs
        split
        · rename_i hs
          simp only [List.tail_cons] at hs ⊢
          obtain ⟨c, r, rfl, hc⟩ := isT_cons hs
          refine sound_cons2 (h13 _ _ r (.assign (.map hop ht) hc)) ?_
          intro a u h; simpa using h
        · refine sound_cons (h13 _ _ r (.map hop ht)) ?_
          intro a u h; simpa using h
      · split
        · rename_i hs
          obtain ⟨t, r, rfl, ht⟩ := isT_cons hs
          refine sound_cons (h13 _ _ r (.assign hop ht)) ?_
          intro a u h; simpa using h
        · exact h13 _ _ l hop
    · intro op ts l hop
      simp only [unaryOperand]
      refine sound_andThen (h7 _ _) fun a u r ⟨v, s, g1, g2, g3, g4⟩ => sound_ok (u := []) rfl ?_
      have hm : ((op.prec : Int) + 1) ≠ -1 := by omega
      rw [g1, g4 hm, List.append_nil, List.append_nil]
      exact .unary hop g2

end PP
end Pip
