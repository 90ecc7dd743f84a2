import Verif.Lemmas.ParseSound
import Verif.Spec.Prec
/-! Trees made by the parser respect precedence and associativity. -/

set_option linter.unusedSimpArgs false
set_option linter.unusedVariables false

namespace Pip
open Parse

theorem precAll_iff (l : List Tree) : PrecAll l ↔ ∀ t ∈ l, Prec t := by
  induction l with
  | nil => simp [PrecAll]
  | cons a l ih => simp [PrecAll, ih]

theorem precAll_append (l m : List Tree) : PrecAll (l ++ m) ↔ PrecAll l ∧ PrecAll m := by
  simp only [precAll_iff, List.mem_append]
  constructor
  · intro h; exact ⟨fun t ht => h t (.inl ht), fun t ht => h t (.inr ht)⟩
  · rintro ⟨h1, h2⟩ t (h | h)
    · exact h1 t h
    · exact h2 t h

theorem lastAtLeast_append (p : Nat) (l : List Tree) (x : Tree) : LastAtLeast p (l ++ [x]) ↔ PrefixAtLeast p x := by
  induction l with
  | nil => simp [LastAtLeast]
  | cons a l ih =>
    cases l with
    | nil => simp [LastAtLeast]
    | cons b l => simpa only [List.cons_append, LastAtLeast] using ih

theorem attach_root {op : Op} (hop : op.isInfix) (extra : List Tree) (t : Tree) :
    infixRoot (attach op extra t) = some op ∨
    (infixRoot (attach op extra t) = infixRoot t ∧
      ∃ nop, infixRoot t = some nop ∧ (nop.prec < op.prec ∨ (nop.prec = op.prec ∧ op.assoc = .right) ∨ nop = op)) := by
  cases t with
  | node nop args =>
    simp only [attach]
    split
    · rename_i h
      right
      have h' : nop.isInfix := h.1
      simp only [infixRoot, h', if_true, true_and]
      refine ⟨nop, rfl, ?_⟩
      rcases h.2 with h | h
      · exact .inl h
      · exact .inr (.inl h)
    · split
      · rename_i h
        obtain ⟨rfl, rfl⟩ := h
        right
        simp only [infixRoot, hop, if_true, true_and]
        exact ⟨_, rfl, .inr (.inr rfl)⟩
      · left; simp [infixRoot, hop]
  | _ => left; simp [attach, infixRoot, hop]

theorem attach_edge {op : Op} (hop : op.isInfix) (p : Nat) (front : List Tree) (x : Tree) (n : Nat) : ∀ t, sizeOf t ≤ n →
    Prec t → (PrefixAtLeast p (attach op (front ++ [x]) t) ↔ PrefixAtLeast p x) := by
  have top : ∀ t, PrefixAtLeast p (.node op (t :: (front ++ [x]))) ↔ PrefixAtLeast p x := by
    intro t
    simp only [PrefixAtLeast, hop, if_true]
    rw [← List.cons_append, lastAtLeast_append]
  induction n with
  | zero => intro t h; cases t <;> simp at h
  | succ n ih =>
    intro t hn ht
    cases t with
    | node nop args =>
      simp only [attach]
      split
      · rename_i hc
        have hni : nop.isInfix := hc.1
        simp only [Prec, NodeOK, hni, if_true] at ht
        match args, ht with
        | l :: y :: rest, ⟨⟨h1, h2, h3⟩, h4⟩ =>
          obtain ⟨fr, z, hz⟩ : ∃ fr z, l :: y :: rest = fr ++ [z] :=
            ⟨(l :: y :: rest).dropLast, (l :: y :: rest).getLast (by simp), (List.dropLast_concat_getLast _).symm⟩
          rw [hz, attachLast_append]
          simp only [PrefixAtLeast, hni, if_true, lastAtLeast_append]
          apply ih
          · have : sizeOf z < sizeOf (l :: y :: rest) := List.sizeOf_lt_of_mem (by rw [hz]; simp)
            simp at hn this; omega
          · exact (precAll_iff _).1 h4 z (by rw [hz]; simp)
      · split
        · rename_i hc
          obtain ⟨rfl, rfl⟩ := hc
          simp only [PrefixAtLeast, hop, if_true]
          rw [← List.append_assoc, lastAtLeast_append]
        · exact top _
    | _ => exact top _

theorem attach_prec {op : Op} (hop : op.isInfix) (front : List Tree) (x : Tree) (hx : PrecAll (front ++ [x]))
    (hr : RightOK op x) (hc : op = chainOp → ∀ r ∈ front, RightOK op r) (n : Nat) :
    ∀ t, sizeOf t ≤ n → Prec t → PrefixAtLeast op.prec t → Prec (attach op (front ++ [x]) t) := by
  have ne : ∃ a r, front ++ [x] = a :: r := by cases front <;> simp
  have last : ∀ r, (front ++ [x]).getLast? = some r → r = x := by intro r; simp; exact Eq.symm
  have all : op = chainOp → ∀ r ∈ front ++ [x], RightOK op r := by
    intro h r hr'
    rcases List.mem_append.1 hr' with h' | h'
    · exact hc h r h'
    · rw [List.mem_singleton.1 h']; exact hr
  have top : ∀ t, Prec t → LeftOK op t → Prec (.node op (t :: (front ++ [x]))) := by
    intro t ht hl
    obtain ⟨a, r, har⟩ := ne
    rw [har] at hx last all ⊢
    refine ⟨?_, ht, hx⟩
    simp only [NodeOK, hop, if_true]
    exact ⟨hl, fun r' h' => by rw [last r' h']; exact hr, all⟩
  induction n with
  | zero => intro t h; cases t <;> simp at h
  | succ n ih =>
    intro t hn ht hp
    cases t with
    | node nop args =>
      simp only [attach]
      split
      · rename_i hd
        have hni : nop.isInfix := hd.1
        have ht' := ht
        simp only [Prec, NodeOK, hni, if_true] at ht'
        match args, ht' with
        | l :: y :: rest, ⟨⟨h1, h2, h3⟩, h4⟩ =>
          obtain ⟨fr, z, hz⟩ : ∃ fr z, y :: rest = fr ++ [z] :=
            ⟨(y :: rest).dropLast, (y :: rest).getLast (by simp), (List.dropLast_concat_getLast _).symm⟩
          have hzr : RightOK nop z := h2 z (by rw [hz]; simp)
          have hzp : Prec z := (precAll_iff _).1 h4 z (by rw [hz]; simp)
          have hsz : sizeOf z ≤ n := by
            have : sizeOf z < sizeOf (l :: y :: rest) := List.sizeOf_lt_of_mem (by rw [hz]; simp)
            simp at hn this; omega
          have hpz : PrefixAtLeast op.prec z := by
            simp only [PrefixAtLeast, hni, if_true] at hp
            rw [hz, ← List.cons_append, lastAtLeast_append] at hp
            exact hp
          have hnew := ih z hsz hzp hpz
          have hroot : RightOK nop (attach op (front ++ [x]) z) := by
            intro rop hrop
            rcases attach_root hop (front ++ [x]) z with h | ⟨h, _⟩
            · rw [h] at hrop; simp at hrop; subst hrop
              exact hd.2
            · rw [h] at hrop; exact hzr rop hrop
          have e1 : attachLast op (front ++ [x]) (l :: y :: rest) = l :: (fr ++ [attach op (front ++ [x]) z]) := by
            rw [hz, ← List.cons_append, attachLast_append]; rfl
          rw [e1]
          obtain ⟨a, r, har⟩ : ∃ a r, fr ++ [attach op (front ++ [x]) z] = a :: r := by cases fr <;> simp
          refine ⟨?_, ?_⟩
          · rw [har]
            simp only [NodeOK, hni, if_true]
            rw [← har]
            refine ⟨h1, ?_, ?_⟩
            · intro r' h'; simp at h'; rw [← h']; exact hroot
            · intro hch r' h'
              rcases List.mem_append.1 h' with h' | h'
              · exact h3 hch r' (by rw [hz]; simp [h'])
              · rw [List.mem_singleton.1 h']; exact hroot
          · rw [hz] at h4
            simp only [PrecAll, precAll_append] at h4 ⊢
            exact ⟨h4.1, h4.2.1, hnew, trivial⟩
      · split
        · rename_i hcc
          obtain ⟨rfl, rfl⟩ := hcc
          have ht' := ht
          simp only [Prec, NodeOK, hop, if_true] at ht'
          match args, ht' with
          | l :: y :: rest, ⟨⟨h1, h2, h3⟩, h4⟩ =>
            refine ⟨?_, ?_⟩
            · simp only [NodeOK, hop, if_true, List.cons_append]
              refine ⟨h1, ?_, ?_⟩
              · intro r hr'
                have e : y :: (rest ++ (front ++ [x])) = (y :: rest ++ front) ++ [x] := by simp
                rw [e, List.getLast?_concat] at hr'
                simp only [Option.some.injEq] at hr'
                rw [← hr']; exact hr
              · intro _ r hr'
                rw [← List.cons_append] at hr'
                rcases List.mem_append.1 hr' with h' | h'
                · exact h3 trivial r h'
                · exact all rfl r h'
            · exact (precAll_append _ _).2 ⟨h4, hx⟩
        · rename_i hnd hcc
          refine top _ ht ⟨?_, hp⟩
          intro lop hl
          simp only [infixRoot] at hl
          split at hl
          · rename_i hi
            simp at hl; subst hl
            refine ⟨?_, fun h1 h2 => hcc ⟨h1, h2⟩⟩
            rcases Nat.lt_trichotomy nop.prec op.prec with h | h | h
            · exact absurd ⟨hi, .inl h⟩ hnd
            · right
              refine ⟨h.symm, fun ha => hnd ⟨hi, .inr ⟨h, ha⟩⟩⟩
            · exact .inl h
          · simp at hl
    | tok a => exact top _ ht ⟨by simp [infixRoot], hp⟩
    | cmd c a => exact top _ ht ⟨by simp [infixRoot], hp⟩
    | code a => exact top _ ht ⟨by simp [infixRoot], hp⟩
    | opr a => exact top _ ht ⟨by simp [infixRoot], hp⟩
    | val a => exact top _ ht ⟨by simp [infixRoot], hp⟩
    | lval a => exact top _ ht ⟨by simp [infixRoot], hp⟩

/-! ### The parser -/

/-- Precedence with which the next tokens would continue an expression. -/
def nextPrec : List Tok → Option Nat
  | [] => none
  | t :: r =>
    if t.kind = .op then
      match (findOp ops2 t.text).or (findOp ops3 t.text) with
      | none => none
      | some op => some (if PP.isT r (s% ":") then assignOp.prec else op.prec)
    else none

/-- Prefix operators at the end of `e` have nothing left to consume. -/
def EdgeOK (e : Tree) (r : List Tok) : Prop := ∀ p, nextPrec r = some p → PrefixAtLeast p e

theorem chain_prec : ∀ op ∈ ops2, op.assoc = .chain → op.prec = chainOp.prec := by decide +kernel
theorem infix_isInfix {t : Tok} {op : Op} (h : (findOp ops2 t.text).or (findOp ops3 t.text) = some op) : op.isInfix := by
  rcases infix_mem h with h | h
  · exact .inl (ops2_arity _ h).1
  · exact .inr (ops3_arity _ h).1

theorem ops1_text : ∀ op ∈ ops1, op.text ≠ parenOp.text ∧ op.text ≠ enlistOp.text ∧ op.text ≠ blockOp.text ∧
    op.text ≠ sendOp.text := by decide +kernel
theorem ops2_text : ∀ op ∈ ops2, op.text ≠ parenOp.text ∧ op.text ≠ enlistOp.text ∧ op.text ≠ blockOp.text ∧
    op.text ≠ sendOp.text := by decide +kernel

theorem prefix_text {op ts} (h : Prefix op ts) : op.text ≠ parenOp.text ∧ op.text ≠ enlistOp.text ∧
    op.text ≠ blockOp.text ∧ op.text ≠ sendOp.text := by
  induction h with
  | plain h => exact ops1_text _ (findOp_mem h)
  | fold _ h => have := ops2_text _ (findOp_mem h); exact this
  | scan _ h => have := ops2_text _ (findOp_mem h); exact this
  | map _ _ ih => exact ih
  | assign _ _ ih => exact ih

theorem prefix_not_bracket {op ts} (h : Prefix op ts) : ¬ op.isBracket := by
  obtain ⟨h1, h2, h3, h4⟩ := prefix_text h
  rintro (rfl | rfl | rfl | rfl) <;> contradiction
theorem prefix_not_infix {op ts} (h : Prefix op ts) : ¬ op.isInfix := by
  have := prefix_arity h; intro h; unfold Op.isInfix at h; omega

theorem prec_tok (t : Tok) : Prec (.tok t) := trivial
theorem bracket_not_infix {op : Op} (h : op.isBracket) : ¬ op.isInfix := by
  rcases h with rfl | rfl | rfl | rfl <;> decide
theorem prec_bracket {op : Op} (h : op.isBracket) {l : List Tree} (hl : PrecAll l) : Prec (.node op l) := by
  refine ⟨?_, hl⟩
  simp only [NodeOK, bracket_not_infix h, h, if_true, if_false]
theorem root_bracket {op : Op} (h : op.isBracket) {l : List Tree} : infixRoot (.node op l) = none := by
  simp only [infixRoot, bracket_not_infix h, if_false]
theorem edge_bracket {op : Op} (h : op.isBracket) {l : List Tree} (p : Nat) : PrefixAtLeast p (.node op l) := by
  simp only [PrefixAtLeast, bracket_not_infix h, h, if_true, if_false]

theorem group_prec {l : List Tree} (hl : PrecAll l) : Prec (group l) := by
  match l, hl with
  | [], _ => exact trivial
  | [e], h => exact prec_bracket (.inl rfl) h
  | a :: b :: l, h => exact prec_bracket (.inr (.inr (.inr rfl))) h
theorem group_root (l : List Tree) : infixRoot (group l) = none := by
  match l with
  | [] => rfl
  | [e] => exact root_bracket (.inl rfl)
  | a :: b :: l => exact root_bracket (.inr (.inr (.inr rfl)))
theorem group_edge (l : List Tree) (p : Nat) : PrefixAtLeast p (group l) := by
  match l with
  | [] => simp [group, PrefixAtLeast]
  | [e] => exact edge_bracket (.inl rfl) p
  | a :: b :: l => exact edge_bracket (.inr (.inr (.inr rfl))) p

theorem prec_prefix {op : Op} (h1 : ¬ op.isInfix) (h2 : ¬ op.isBracket) {e : Tree} (he : Prec e) (ho : OperandOK op e) :
    Prec (.node op [e]) := by
  refine ⟨?_, he, trivial⟩
  simp only [NodeOK, h1, h2, if_false]
  exact ⟨e, rfl, ho⟩

theorem escaped_prec (t : Tok) : Prec (escaped t) ∧ infixRoot (escaped t) = none ∧ ∀ p, PrefixAtLeast p (escaped t) := by
  unfold escaped
  simp only
  split
  · exact ⟨trivial, rfl, fun p => by simp [PrefixAtLeast]⟩
  · refine ⟨prec_bracket (.inl rfl) ⟨?_, trivial⟩, root_bracket (.inl rfl), edge_bracket (.inl rfl)⟩
    refine prec_prefix (by decide) (by decide) ?_ ?_
    · refine prec_bracket (.inr (.inl rfl)) ((precAll_iff _).2 ?_)
      intro t ht
      simp only [List.mem_cons, List.mem_flatMap] at ht
      rcases ht with rfl | ⟨p, _, ht⟩
      · exact trivial
      · simp at ht
        rcases ht with rfl | rfl
        · exact prec_prefix (by decide) (by decide) trivial (by simp [OperandOK, infixRoot])
        · exact trivial
    · simp [OperandOK, root_bracket (op := enlistOp) (.inr (.inl rfl))]

namespace PP

def Post {α : Type} (P : α → List Tok → Prop) (x : Res α) : Prop := ∀ a r, x = .ok (a, r) → P a r

theorem post_andThen {α β : Type} {P : α → List Tok → Prop} {Q : β → List Tok → Prop} {x : Res α}
    {f : α → List Tok → Res β} (hx : Post P x) (hf : ∀ a r, P a r → Post Q (f a r)) : Post Q (andThen x f) := by
  intro b r h
  match hxx : x with
  | .ok (a, r') => exact hf a r' (hx a r' rfl) b r h
  | .error e => simp [andThen] at h

theorem post_ok {α : Type} {P : α → List Tok → Prop} {a : α} {r : List Tok} (h : P a r) : Post P (.ok (a, r)) := by
  intro a' r' h'; simp at h'; obtain ⟨rfl, rfl⟩ := h'; exact h
theorem post_error {α : Type} {P : α → List Tok → Prop} {e : Exc} : Post P (.error e : Res α) := by
  intro a r h; simp at h
theorem post_semi {α : Type} {P : α → Prop} {a : α} {l : List Tok} (h : P a) : Post (fun a _ => P a) (semi a l) := by
  unfold semi; split <;> exact post_ok h
theorem post_mono {α : Type} {P Q : α → List Tok → Prop} {x : Res α} (h : Post P x) (hq : ∀ a r, P a r → Q a r) :
    Post Q x := fun a r hx => hq a r (h a r hx)

/-- Expressions parsed with minimal precedence `m`. -/
def ExprOK (m : Int) (e : Tree) : Prop := Prec e ∧ ∀ rop, infixRoot e = some rop → m ≤ rop.prec

theorem prec (n : Nat) :
    (∀ l, Post (fun a _ => PrecAll a) (parse n l)) ∧
    (∀ l, Post (fun a _ => Prec a) (parseStatement n l)) ∧
    (∀ as l, Post (fun a _ => PrecAll a) (parseArgs n as l)) ∧
    (∀ l, Post (fun a _ => Prec a) (parseNameList n l)) ∧
    (∀ l, Post (fun a _ => PrecAll a) (nameLoop n l)) ∧
    (∀ l, Post (fun a _ => PrecAll a) (parseBlock n l)) ∧
    (∀ m l, Post (fun e r => ExprOK m e ∧ (m ≠ -1 → EdgeOK e r ∧ ∀ p, nextPrec r = some p → (p : Int) < m)) (parseExpr n m l)) ∧
    (∀ m e l, ExprOK m e → EdgeOK e l → Post (fun e r => ExprOK m e ∧ EdgeOK e r ∧ ∀ p, nextPrec r = some p → (p : Int) < m)
      (exprLoop n m e l)) ∧
    (∀ m e op l, ExprOK m e → op.isInfix → (op.assoc = .chain → op.prec = chainOp.prec) → PrefixAtLeast op.prec e → m ≤ op.prec →
      Post (fun e r => ExprOK m e ∧ EdgeOK e r ∧ ∀ p, nextPrec r = some p → (p : Int) < m) (operands n m e op l)) ∧
    (∀ c l, Post (fun a _ => PrecAll a) (exprList n c l)) ∧
    (∀ l, Post (fun e r => Prec e ∧ infixRoot e = none ∧ EdgeOK e r) (parseOperand n l)) ∧
    (∀ op ts l, Prefix op ts → Post (fun e r => Prec e ∧ infixRoot e = none ∧ EdgeOK e r) (unary n op l)) ∧
    (∀ op ts l, Prefix op ts → Post (fun e r => Prec e ∧ infixRoot e = none ∧ EdgeOK e r) (unaryOperand n op l)) := by
  induction n with
  | zero => refine ⟨?_, ?_, ?_, ?_, ?_, ?_, ?_, ?_, ?_, ?_, ?_, ?_, ?_⟩ <;> intros <;> exact post_error
  | succ n ih =>
    obtain ⟨h1, h2, h3, h4, h5, h6, h7, h8, h9, h10, h11, h12, h13⟩ := ih
    have h7' : ∀ l, Post (fun e _ => Prec e) (parseExpr n (-1) l) := fun l => post_mono (h7 _ l) fun _ _ h => h.1.1
    refine ⟨?_, ?_, ?_, ?_, ?_, ?_, ?_, ?_, ?_, ?_, ?_, ?_, ?_⟩
    · intro l
      cases l with
      | nil => exact post_ok trivial
      | cons t r =>
        simp only [parse]
        split
        · exact post_ok trivial
        · exact post_andThen (h2 _) fun a r ha => post_andThen (h1 _) fun b r hb => post_ok ⟨ha, hb⟩
    · intro l
      cases l with
      | nil => exact post_error
      | cons t r =>
        simp only [parseStatement]
        split
        · cases hc : findCmd t.text with
          | none => exact post_error
          | some c => exact post_andThen (h3 _ _) fun a r ha => post_semi (P := Prec) ha
        · exact post_andThen (h7' _) fun a r ha => post_semi ha
    · intro as l
      match as with
      | [] => exact post_ok trivial
      | .els :: as =>
        simp only [parseArgs]
        split
        · exact post_andThen (h6 _) fun a r ha => post_andThen (h3 _ _) fun b r hb => post_ok ⟨ha, hb⟩
        · exact post_andThen (h3 _ _) fun b r hb => post_ok ⟨trivial, hb⟩
      | .code :: as => exact post_andThen (h6 _) fun a r ha => post_andThen (h3 _ _) fun b r hb => post_ok ⟨ha, hb⟩
      | .loopvar :: as => exact post_andThen (h4 _) fun a r ha => post_andThen (h3 _ _) fun b r hb => post_ok ⟨ha, hb⟩
      | .expr :: as => exact post_andThen (h7' _) fun a r ha => post_andThen (h3 _ _) fun b r hb => post_ok ⟨ha, hb⟩
    · intro l
      cases l with
      | nil => exact post_error
      | cons t r =>
        simp only [parseNameList]
        split
        · exact post_semi (prec_tok _)
        · split
          · refine post_andThen (h5 _) fun a r ha => ?_
            split
            · exact post_error
            · exact post_semi (prec_bracket (.inr (.inl rfl)) ha)
          · exact post_error
    · intro l
      simp only [nameLoop]
      split
      · exact post_ok trivial
      · exact post_andThen (h4 _) fun a r ha => post_andThen (h5 _) fun b r hb => post_ok ⟨ha, hb⟩
    · intro l
      simp only [parseBlock]
      split
      · refine post_andThen (h1 _) fun a r ha => ?_
        cases r with
        | nil => exact post_error
        | cons c r =>
          simp only
          split
          · exact post_ok ha
          · exact post_error
      · exact post_andThen (h2 _) fun a r ha => post_ok ⟨ha, trivial⟩
    · intro m l
      simp only [parseExpr]
      refine post_andThen (h11 _) fun a r ⟨ha1, ha2, ha3⟩ => ?_
      refine post_andThen (h8 m a r ⟨ha1, by simp [ha2]⟩ ha3) fun b r ⟨hb1, hb2, hb3⟩ => ?_
      split
      · rename_i hm
        refine post_mono (post_semi (P := ExprOK m) hb1) fun _ _ h => ⟨h, fun h => absurd hm h⟩
      · exact post_ok ⟨hb1, fun _ => ⟨hb2, hb3⟩⟩
    · intro m e l he hed
      cases l with
      | nil => exact post_ok ⟨he, hed, by simp [nextPrec]⟩
      | cons t r =>
        simp only [exprLoop]
        split
        · rename_i hk
          cases hop : (findOp ops2 t.text).or (findOp ops3 t.text) with
          | none => exact post_ok ⟨he, hed, by simp [nextPrec, hop]⟩
          | some op =>
            simp only
            split
            · rename_i hc
              have hnp : nextPrec (t :: r) = some assignOp.prec := by simp [nextPrec, hk, hop, hc]
              split
              · rename_i hlt
                refine post_ok ⟨he, hed, ?_⟩
                intro p hp; rw [hnp] at hp; simp at hp; subst hp; exact hlt
              · rename_i hlt
                have hi : op.isInfix := infix_isInfix hop
                exact h9 m e _ _ he hi (fun h => absurd (show assignOp.assoc = .chain from h) (by decide)) (hed _ hnp)
                  (by simpa using hlt)
            · rename_i hc
              have hnp : nextPrec (t :: r) = some op.prec := by simp [nextPrec, hk, hop, hc]
              split
              · rename_i hlt
                refine post_ok ⟨he, hed, ?_⟩
                intro p hp; rw [hnp] at hp; simp at hp; subst hp; exact hlt
              · rename_i hlt
                refine h9 m e _ _ he (infix_isInfix hop) ?_ (hed _ hnp) (by simpa using hlt)
                intro hch
                rcases infix_mem hop with h | h
                · exact chain_prec _ h hch
                · exact absurd hch (ops3_arity _ h).2
        · rename_i hk
          exact post_ok ⟨he, hed, by simp [nextPrec, hk]⟩
    · intro m e op l he hop hch hed hm
      have root : ∀ (op : Op) extra, op.isInfix → m ≤ op.prec → ∀ rop, infixRoot (attach op extra e) = some rop → m ≤ rop.prec := by
        intro op extra hop hm rop hr
        rcases attach_root hop extra e with h | ⟨h, _⟩
        · rw [h] at hr; simp at hr; subst hr; exact hm
        · rw [h] at hr; exact he.2 rop hr
      simp only [operands]
      split
      · rename_i hc
        refine post_andThen (h11 _) fun x r ⟨hx1, hx2, hx3⟩ => ?_
        rw [hch hc] at hed hm
        have hi : chainOp.isInfix := by decide
        refine h8 m _ r ⟨?_, root _ _ hi hm⟩ ?_
        · exact attach_prec hi [.opr op] x ⟨trivial, hx1, trivial⟩ (by intro rop h; rw [hx2] at h; simp at h)
            (fun _ r hr => by simp at hr; subst hr; intro rop h; simp [infixRoot] at h) _ e (Nat.le_refl _) he.1 hed
        · intro p hp
          exact (attach_edge hi p [.opr op] x _ e (Nat.le_refl _) he.1).2 (hx3 p hp)
      · rename_i hc
        have hne : op = chainOp → False := by rintro rfl; exact hc rfl
        split
        · refine post_andThen (h7' _) fun y r hy => post_andThen (h11 _) fun x r ⟨hx1, hx2, hx3⟩ => ?_
          refine h8 m _ r ⟨?_, root _ _ hop hm⟩ ?_
          · exact attach_prec hop [y] x ⟨hy, hx1, trivial⟩ (by intro rop h; rw [hx2] at h; simp at h)
              (fun h => (hne h).elim) _ e (Nat.le_refl _) he.1 hed
          · intro p hp
            exact (attach_edge hop p [y] x _ e (Nat.le_refl _) he.1).2 (hx3 p hp)
        · refine post_andThen (h11 _) fun x r ⟨hx1, hx2, hx3⟩ => ?_
          refine h8 m _ r ⟨?_, root _ _ hop hm⟩ ?_
          · exact attach_prec hop [] x ⟨hx1, trivial⟩ (by intro rop h; rw [hx2] at h; simp at h)
              (fun h => (hne h).elim) _ e (Nat.le_refl _) he.1 hed
          · intro p hp
            exact (attach_edge hop p [] x _ e (Nat.le_refl _) he.1).2 (hx3 p hp)
    · intro c l
      cases l with
      | nil => exact post_error
      | cons t r =>
        simp only [exprList]
        split
        · exact post_ok trivial
        · exact post_andThen (h7' _) fun a r ha => post_andThen (h10 _ _) fun b r hb => post_ok ⟨ha, hb⟩
    · intro l
      cases l with
      | nil => exact post_error
      | cons t r =>
        simp only [parseOperand]
        split
        · obtain ⟨g1, g2, g3⟩ := escaped_prec t
          exact post_ok ⟨g1, g2, fun p _ => g3 p⟩
        split
        · exact post_ok ⟨trivial, rfl, fun p _ => by simp [PrefixAtLeast]⟩
        split
        · exact post_andThen (h10 _ _) fun a r ha => post_ok ⟨group_prec ha, group_root a, fun p _ => group_edge a p⟩
        split
        · exact post_andThen (h10 _ _) fun a r ha => post_ok ⟨prec_bracket (.inr (.inl rfl)) ha,
            root_bracket (.inr (.inl rfl)), fun p _ => edge_bracket (.inr (.inl rfl)) p⟩
        split
        · exact post_andThen (h6 _) fun a r ha => post_ok ⟨prec_bracket (.inr (.inr (.inl rfl))) ⟨ha, trivial⟩,
            root_bracket (.inr (.inr (.inl rfl))), fun p _ => edge_bracket (.inr (.inr (.inl rfl))) p⟩
        split
        · split
          · rename_i hd
            cases r with
            | nil => exact post_error
            | cons u r =>
              simp only
              cases hop : findOp ops2 u.text with
              | none => exact post_error
              | some op =>
                have hf := ops2_arity op (findOp_mem hop)
                refine h12 _ [t, u] r ?_
                rcases hd with hd | hd
                · have := Prefix.fold hd hop
                  simp only [hf.2.1, hf.2.2.1, hd, Bool.false_or] at this ⊢
                  simp only [decide_true, show decide (s% "$" = s% "\\$") = false by decide]
                  exact this
                · have := Prefix.scan hd hop
                  simp only [hf.2.1, hf.2.2.1, hd, Bool.false_or] at this ⊢
                  simp only [decide_true, show decide (s% "\\$" = s% "$") = false by decide]
                  exact this
          · cases hop : findOp ops1 t.text with
            | none => exact post_error
            | some op => exact h12 op [t] r (.plain hop)
        · exact post_error
    · intro op ts l hop
      simp only [unary]
      split
      · rename_i hs
        obtain ⟨t, r, rfl, ht⟩ := isT_cons hs
        split
        · rename_i hs
          simp only [List.tail_cons] at hs ⊢
          obtain ⟨c, r, rfl, hc⟩ := isT_cons hs
          exact h13 _ _ r (.assign (.map hop ht) hc)
        · exact h13 _ _ r (.map hop ht)
      · split
        · rename_i hs
          obtain ⟨t, r, rfl, ht⟩ := isT_cons hs
          exact h13 _ _ r (.assign hop ht)
        · exact h13 _ _ l hop
    · intro op ts l hop
      simp only [unaryOperand]
      refine post_andThen (h7 _ _) fun a r ⟨ha, hb⟩ => post_ok ?_
      have hm : ((op.prec : Int) + 1) ≠ -1 := by omega
      obtain ⟨hb1, hb2⟩ := hb hm
      have h1 := prefix_not_infix hop
      have h2 := prefix_not_bracket hop
      refine ⟨prec_prefix h1 h2 ha.1 ?_, by simp [infixRoot, h1], ?_⟩
      · intro rop hr; have := ha.2 rop hr; omega
      · intro p hp
        simp only [PrefixAtLeast, h1, h2, if_false, LastAtLeast]
        exact ⟨by have := hb2 p hp; omega, hb1 p hp⟩

end PP
end Pip
