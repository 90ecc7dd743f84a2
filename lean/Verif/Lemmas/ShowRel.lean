import Verif.Lemmas.Show
/-! Trees with their texts, the tokens of these and the trees these parse to. -/

set_option linter.unusedSimpArgs false

namespace Pip
open Rgx Scan PP
open Parse (assignOp escaped group attach)

/-- Names and literals that scan back to themselves -/
structure TokOK (t : Tok) : Prop where
  solid : Solid t.text
  tok : newToken t.text = some t
  kind : t.kind = .name ∨ t.isLiteral = true
  plain : t.kind = .esc → escaped t = .tok t

/-- Prefix operators with the flags of the meta-operators `*` and `:` -/
def metaOps (op : Op) (m a : Bool) : Op :=
  { op with map := m, assign := a, prec := if a then assignOp.prec else op.prec }

inductive IsPrefix : Op → Prop
  | plain {op : Op} (m a : Bool) : findOp ops1 op.text = some op → IsPrefix (metaOps op m a)
  | fold {op : Op} (m a : Bool) : findOp ops2 op.text = some op → IsPrefix (metaOps { op with fold := true, arity := 1 } m a)
  | scan {op : Op} (m a : Bool) : findOp ops2 op.text = some op → IsPrefix (metaOps { op with scan := true, arity := 1 } m a)

inductive IsInfix : Op → Prop
  | plain {op : Op} : (findOp ops2 op.text).or (findOp ops3 op.text) = some op → IsInfix op
  | assign {op : Op} : (findOp ops2 op.text).or (findOp ops3 op.text) = some op →
      IsInfix { op with assign := true, prec := assignOp.prec, assoc := assignOp.assoc }

/-- The token does not continue an expression. -/
def NotInfix (k : Tok) : Prop := k.kind = .op → (findOp ops2 k.text).or (findOp ops3 k.text) = none

/-- Categories of lists of trees -/
inductive Cat where
  | closed | operand | oper | expr | items | links | stmt | stmts | body | names | nameItems | args (as : List ArgType)

def tLp : Tok := ⟨.sym, s% "("⟩
def tRp : Tok := ⟨.sym, s% ")"⟩
def tLb : Tok := ⟨.sym, s% "["⟩
def tRb : Tok := ⟨.sym, s% "]"⟩
def tLc : Tok := ⟨.sym, s% "{"⟩
def tRc : Tok := ⟨.sym, s% "}"⟩
def tSemi : Tok := ⟨.sym, s% ";"⟩
def tEl : Tok := ⟨.sym, s% "EL"⟩
def tNil : Tok := ⟨.nil, s% "()"⟩

/-- The characters stripped off the ends of displayed code -/
def Bad (z : Char) : Prop := z = ' ' ∨ z = ';'

/-- `Sh c l s u l'`: the trees `l` of category `c` are displayed as `s`, which scans to `u`, which parses to `l'`. -/
inductive Sh : Cat → List Tree → Str → List Tok → List Tree → Prop
  | tok {t : Tok} : TokOK t → Sh .closed [.tok t] t.text [t] [.tok t]
  | nil : Sh .closed [.tok tNil] (s% "()") [tLp, tRp] [.tok tNil]
  | paren {e e' : Tree} {s u} : Sh .expr [e] s u [e'] →
      Sh .closed [.node parenOp [e]] ('(' :: (s ++ s% ")")) (tLp :: (u ++ [tRp])) [.node parenOp [e']]
  | empty : Sh .closed [.node enlistOp []] (s% "[]") [tLb, tRb] [.node enlistOp []]
  | list {l l' s u} : Sh .items l s u l' →
      Sh .closed [.node enlistOp l] ('[' :: (s ++ s% "]")) (tLb :: (u ++ [tRb])) [.node enlistOp l']
  | send {l l' s u} : Sh .items l s u l' → 2 ≤ l'.length →
      Sh .closed [.node sendOp l] ('(' :: (s ++ s% ")")) (tLp :: (u ++ [tRp])) [.node sendOp l']
  | block {l l' s u} : Sh .body l s u l' →
      Sh .closed [.node blockOp [.code l]] ('{' :: (s ++ s% "}")) (tLc :: (u ++ [tRc])) [.node blockOp [.code l']]
  | opClosed {l l' s u} : Sh .closed l s u l' → Sh .operand l s u l'
  | opWrapped {e e' : Tree} {s u} : Sh .oper [e] s u [e'] →
      Sh .operand [e] ('(' :: (s ++ s% ")")) (tLp :: (u ++ [tRp])) [.node parenOp [e']]
  | unary {op : Op} {e e' : Tree} {s u} : IsPrefix op → (op.text = s% ":" → op.assign = false) → Sh .operand [e] s u [e'] →
      Sh .oper [.node op [e]] (op.str ++ ' ' :: s) (opToks op ++ u) [.node op [e']]
  | binary {op : Op} {e e' f f' : Tree} {s u t w} : IsInfix op → op.assoc ≠ .chain → op.arity ≠ 3 →
      (op.text = s% ":" → op.assign = false) → Sh .operand [e] s u [e'] → Sh .operand [f] t w [f'] →
      Sh .oper [.node op [e, f]] (s ++ ' ' :: (op.str ++ ' ' :: t)) (u ++ (opToks op ++ w)) [.node op [e', f']]
  | ternary {op : Op} {e e' f f' g g' : Tree} {s u t w q v} : IsInfix op → op.assoc ≠ .chain → op.arity = 3 →
      (op.text = s% ":" → op.assign = false) → Sh .operand [e] s u [e'] → Sh .operand [f] t w [f'] → Sh .operand [g] q v [g'] →
      Sh .oper [.node op [e, f, g]] (s ++ ' ' :: (op.str ++ ' ' :: (t ++ ';' :: ' ' :: q))) (u ++ (opToks op ++ (w ++ tSemi :: v)))
        [.node op [e', f', g']]
  | chain {e e' : Tree} {l l' s u t w} : Sh .operand [e] s u [e'] → Sh .links l t w l' →
      Sh .oper [.node chainOp (e :: l)] (s ++ ' ' :: t) (u ++ w) [.node chainOp (e' :: l')]
  | link {op : Op} {e e' : Tree} {s u} : IsInfix op → op.assoc = .chain → Sh .operand [e] s u [e'] →
      Sh .links [.opr op, e] (op.str ++ ' ' :: s) (opToks op ++ u) [.opr op, e']
  | links {op : Op} {e e' : Tree} {l l' s u t w} : IsInfix op → op.assoc = .chain → Sh .operand [e] s u [e'] → Sh .links l t w l' →
      Sh .links (.opr op :: e :: l) (op.str ++ ' ' :: (s ++ ' ' :: t)) (opToks op ++ (u ++ w)) (.opr op :: e' :: l')
  | exClosed {l l' s u} : Sh .closed l s u l' → Sh .expr l s u l'
  | exOper {l l' s u} : Sh .oper l s u l' → Sh .expr l s u l'
  | item {e e' : Tree} {s u} : Sh .expr [e] s u [e'] → Sh .items [e] s u [e']
  | items {e e' : Tree} {l l' s u t w} : Sh .expr [e] s u [e'] → Sh .items l t w l' →
      Sh .items (e :: l) (s ++ ';' :: ' ' :: t) (u ++ tSemi :: w) (e' :: l')
  | stExpr {l l' s u} : Sh .expr l s u l' → Sh .stmt l s u l'
  | stCmd {c : Cmd} {l l' s u} : Sh (.args c.args) l s u l' →
      Sh .stmt [.cmd c l] (c.text ++ s) (⟨.cmd, c.text⟩ :: u) [.cmd c l']
  | stOne {e e' : Tree} {s u} : Sh .stmt [e] s u [e'] → Sh .stmts [e] s u [e']
  | stMore {e e' : Tree} {l l' s u t w} : Sh .stmt [e] s u [e'] → Sh .stmts l t w l' →
      Sh .stmts (e :: l) (s ++ ';' :: ' ' :: t) (u ++ tSemi :: w) (e' :: l')
  | bodyNil : Sh .body [] [] [] []
  | body {l l' s u} : (∀ z ∈ s.getLast?, ¬ Bad z) → Sh .stmts l s u l' → Sh .body l s u l'
  | name {t : Tok} : TokOK t → t.kind = .name → Sh .names [.tok t] t.text [t] [.tok t]
  | nameList {l l' s u} : Sh .nameItems l s u l' →
      Sh .names [.node enlistOp l] ('[' :: (s ++ s% "]")) (tLb :: (u ++ [tRb])) [.node enlistOp l']
  | nameOne {e e' : Tree} {s u} : Sh .names [e] s u [e'] → Sh .nameItems [e] s u [e']
  | nameMore {e e' : Tree} {l l' s u t w} : Sh .names [e] s u [e'] → Sh .nameItems l t w l' →
      Sh .nameItems (e :: l) (s ++ ';' :: ' ' :: t) (u ++ tSemi :: w) (e' :: l')
  | argsNil : Sh (.args []) [] [] [] []
  | argEls {as b b' l l' s u t w} : Sh .body b s u b' → Sh (.args as) l t w l' →
      Sh (.args (.els :: as)) (.code b :: l) (s% " EL {" ++ (s ++ '}' :: t)) (tEl :: tLc :: (u ++ tRc :: w)) (.code b' :: l')
  | argCode {as b b' l l' s u t w} : Sh .body b s u b' → Sh (.args as) l t w l' →
      Sh (.args (.code :: as)) (.code b :: l) (s% " {" ++ (s ++ '}' :: t)) (tLc :: (u ++ tRc :: w)) (.code b' :: l')
  | argVar {as} {e e' : Tree} {l l' s u t w} : Sh .names [e] s u [e'] → Sh (.args as) l t w l' →
      (∃ x, t = ' ' :: x) → (∃ k x, w = k :: x ∧ k.text ≠ s% ";") →
      Sh (.args (.loopvar :: as)) (e :: l) (' ' :: (s ++ t)) (u ++ w) (e' :: l')
  | argExpr {as} {e e' : Tree} {l l' s u t w} : Sh .expr [e] s u [e'] → Sh (.args as) l t w l' →
      (∃ x, t = ' ' :: x) → (∃ k x, w = k :: x ∧ NotInfix k ∧ k.text ≠ s% ";") →
      Sh (.args (.expr :: as)) (e :: l) (' ' :: (s ++ t)) (u ++ w) (e' :: l')

/-! ### Operator tables -/

theorem ops1_flags : ∀ op ∈ ops1, op.fold = false ∧ op.scan = false ∧ op.assign = false ∧ op.map = false := by decide +kernel
theorem ops2_flags : ∀ op ∈ ops2 ++ ops3, op.fold = false ∧ op.scan = false ∧ op.assign = false ∧ op.map = false := by decide +kernel

theorem findOp_text {l : List Op} {s : Str} {op : Op} (h : findOp l s = some op) : op.text = s := by
  unfold findOp at h
  have := List.find?_some h
  simpa using this

theorem IsPrefix.mem {op : Op} (h : IsPrefix op) : op.text ∈ operatorTexts := by
  unfold operatorTexts
  cases h with
  | @plain op m a h => exact List.mem_map.2 ⟨op, by simp [findOp_mem h], rfl⟩
  | @fold op m a h => exact List.mem_map.2 ⟨op, by simp [findOp_mem h], rfl⟩
  | @scan op m a h => exact List.mem_map.2 ⟨op, by simp [findOp_mem h], rfl⟩

theorem IsInfix.mem {op : Op} (h : IsInfix op) : op.text ∈ operatorTexts := by
  have key : ∀ {op : Op}, (findOp ops2 op.text).or (findOp ops3 op.text) = some op → op.text ∈ operatorTexts := by
    intro op h
    unfold operatorTexts
    cases h2 : findOp ops2 op.text with
    | some o => rw [h2] at h; simp at h; subst h; exact List.mem_map_of_mem (by simp [findOp_mem h2])
    | none => rw [h2] at h; simp at h; exact List.mem_map_of_mem (by simp [findOp_mem h])
  cases h with
  | plain h => exact key h
  | @assign op h => exact key (op := op) h

theorem assignOp_assoc : assignOp.assoc = .right := by decide +kernel

theorem IsInfix.chain {op : Op} (h : IsInfix op) (ha : op.assoc = .chain) :
    (findOp ops2 op.text).or (findOp ops3 op.text) = some op ∧ op.assign = false ∧ op.map = false ∧ op.fold = false ∧ op.scan = false := by
  cases h with
  | plain h =>
    obtain ⟨h1, h2, h3, h4⟩ := ops2_flags op (by simpa using infix_mem (t := ⟨.op, op.text⟩) h)
    exact ⟨h, h3, h4, h1, h2⟩
  | assign h =>
    have : assignOp.assoc = .chain := ha
    rw [assignOp_assoc] at this; cases this

/-! ### Scanning -/

/-- The text scans to the tokens before a delimiter, and starts with none. -/
def Scans (s : Str) (u : List Tok) : Prop :=
  (∀ z y, isDelim z = true → scanAll (s ++ z :: y) = prefixed (u.map some) (scanAll (z :: y))) ∧
  ∃ c cs, s = c :: cs ∧ isSpace c = false ∧ c ≠ ';'

theorem scan_bracket {a : Char} (ha : (s% "][(").elem a = true) {b : Char} (hb : isDelim b = true) (hb' : (s% "][()};").elem b = true)
    {s : Str} {u : List Tok} (h : Scans s u) :
    Scans (a :: (s ++ [b])) (⟨.sym, [a]⟩ :: (u ++ [⟨.sym, [b]⟩])) := by
  have ha' : a = ']' ∨ a = '[' ∨ a = '(' := by simpa using ha
  refine ⟨fun z y hz => ?_, a, _, rfl, ?_, ?_⟩
  · have h1 : (s% "][()};").elem a = true := by rcases ha' with rfl | rfl | rfl <;> decide
    have e : a :: (s ++ [b]) ++ z :: y = a :: (s ++ b :: (z :: y)) := by simp
    rw [e, scanAll_sym h1, h.1 b _ hb, scanAll_sym hb', prefixed_prefixed, prefixed_prefixed]
    simp
  · rcases ha' with rfl | rfl | rfl <;> decide
  · rcases ha' with rfl | rfl | rfl <;> decide

theorem scans_sep {s t : Str} {u w : List Tok} (hs : Scans s u) (ht : Scans t w) : Scans (s ++ ';' :: ' ' :: t) (u ++ tSemi :: w) := by
  obtain ⟨hs, c, cs, rfl, h1, h2⟩ := hs
  obtain ⟨ht, d, ds, rfl, h3, h4⟩ := ht
  refine ⟨fun z y hz => ?_, c, _, rfl, h1, h2⟩
  have := ht z y hz
  simp only [List.append_assoc, List.cons_append] at hs this ⊢
  rw [hs ';' _ (by decide), scanAll_sym (by decide), scanAll_gap _ h3, this, prefixed_prefixed, prefixed_prefixed]
  simp [tSemi]

theorem scans_space {s t : Str} {u w : List Tok} (hs : Scans s u) (ht : Scans t w) : Scans (s ++ ' ' :: t) (u ++ w) := by
  obtain ⟨hs, c, cs, rfl, h1, h2⟩ := hs
  obtain ⟨ht, d, ds, rfl, h3, h4⟩ := ht
  refine ⟨fun z y hz => ?_, c, _, rfl, h1, h2⟩
  have := ht z y hz
  simp only [List.append_assoc, List.cons_append] at hs this ⊢
  rw [hs ' ' _ (by decide), scanAll_gap _ h3, this, prefixed_prefixed]
  simp

theorem scans_op {op : Op} {t : Str} {w : List Tok} (h : op.text ∈ operatorTexts) (hc : op.text = s% ":" → op.assign = false)
    (ht : Scans t w) : Scans (op.str ++ ' ' :: t) (opToks op ++ w) := by
  obtain ⟨ht, d, ds, rfl, h3, h4⟩ := ht
  obtain ⟨c, cs, e, h1, h2, _⟩ := op_str_head h
  refine ⟨fun z y hz => ?_, c, cs ++ ' ' :: d :: ds, by rw [e]; rfl, h1, h2⟩
  have := ht z y hz
  simp only [List.append_assoc, List.cons_append] at this ⊢
  rw [scan_op h hc, scanAll_gap _ h3, this, prefixed_prefixed]
  simp

theorem scans_tok {t : Tok} (h : TokOK t) : Scans t.text [t] := by
  obtain ⟨c, cs, e, hc⟩ := h.solid.head
  have hk := h.kind
  have hd : t.text ≠ s% "$" := by
    intro he
    have := h.tok
    rw [he, show newToken (s% "$") = some ⟨.sym, s% "$"⟩ by decide +kernel] at this
    simp at this; subst this; simp [Tok.isLiteral] at hk
  have hb : t.text ≠ s% "{" := by
    intro he
    have := h.tok
    rw [he, show newToken (s% "{") = some ⟨.sym, s% "{"⟩ by decide +kernel] at this
    simp at this; subst this; simp [Tok.isLiteral] at hk
  refine ⟨fun z y hz => ?_, c, cs, e, hc, ?_⟩
  · rw [scanAll_word h.solid hd hb hz, h.tok]; rfl
  · rintro rfl
    have h1 := solid_semi h.solid (by rw [e]; rfl)
    have := h.tok
    rw [h1, show newToken (s% ";") = some ⟨.sym, s% ";"⟩ by decide +kernel] at this
    simp at this; subst this; simp [Tok.isLiteral] at hk

theorem cmd_solid : ∀ c : Cmd, Solid c.text ∧ newToken c.text = some ⟨.cmd, c.text⟩ ∧ c.text ≠ s% "$" ∧ c.text ≠ s% "{" ∧
    c.text.head? ≠ some ';' := by
  intro c
  have key : ∀ w : Str, w ≠ [] → w.all isUpperAZ = true → cut w = (w, w.length) → Solid w := fun w h1 h2 h3 => solid_upper h1 h2 h3
  cases c <;> exact ⟨key _ (by decide) (by decide) (by decide), by decide +kernel, by decide, by decide, by decide⟩

/-- What scanning yields, by category -/
def ScanGoal : Cat → Str → List Tok → Prop
  | .body, s, u => s = [] ∧ u = [] ∨ Scans s u
  | .args _, s, u => (∀ z y, isDelim z = true → scanAll (s ++ z :: y) = prefixed (u.map some) (scanAll (z :: y))) ∧
      (s = [] ∨ ∃ x, s = ' ' :: x)
  | _, s, u => Scans s u

theorem scan_braces {s t : Str} {u w : List Tok} (h : ScanGoal .body s u) (z : Char) (y : Str)
    (ht : scanAll (t ++ z :: y) = prefixed (w.map some) (scanAll (z :: y))) :
    scanAll ('{' :: (s ++ '}' :: (t ++ z :: y))) = prefixed ((tLc :: (u ++ tRc :: w)).map some) (scanAll (z :: y)) := by
  rcases h with ⟨rfl, rfl⟩ | ⟨h, c, cs, rfl, h1, h2⟩
  · rw [scanAll_brace _ (by simp), List.nil_append, scanAll_sym (by decide), ht, prefixed_prefixed, prefixed_prefixed]
    rfl
  · rw [scanAll_brace _ (by simpa using h2), h '}' _ (by decide), scanAll_sym (by decide), ht, prefixed_prefixed, prefixed_prefixed,
      prefixed_prefixed]
    simp [tLc, tRc]

theorem Sh.scan {c l s u l'} (h : Sh c l s u l') : ScanGoal c s u := by
  induction h with
  | tok h => exact scans_tok h
  | nil =>
    refine ⟨fun z y hz => ?_, '(', _, rfl, by decide, by decide⟩
    show scanAll ('(' :: ')' :: z :: y) = _
    rw [scanAll_sym (by decide), scanAll_sym (by decide), prefixed_prefixed]; rfl
  | paren _ ih => exact scan_bracket (by decide) (by decide) (by decide) ih
  | empty =>
    refine ⟨fun z y hz => ?_, '[', _, rfl, by decide, by decide⟩
    show scanAll ('[' :: ']' :: z :: y) = _
    rw [scanAll_sym (by decide), scanAll_sym (by decide), prefixed_prefixed]; rfl
  | list _ ih => exact scan_bracket (by decide) (by decide) (by decide) ih
  | send _ _ ih => exact scan_bracket (by decide) (by decide) (by decide) ih
  | block _ ih =>
    refine ⟨fun z y hz => ?_, '{', _, rfl, by decide, by decide⟩
    have := scan_braces (t := []) (w := []) ih z y (by simp [prefixed_nil])
    simpa using this
  | opClosed _ ih => exact ih
  | opWrapped _ ih => exact scan_bracket (by decide) (by decide) (by decide) ih
  | unary h hc _ ih => exact scans_op h.mem hc ih
  | binary h _ _ hc _ _ ih1 ih2 => exact scans_space ih1 (scans_op h.mem hc ih2)
  | ternary h _ _ hc _ _ _ ih1 ih2 ih3 => exact scans_space ih1 (scans_op h.mem hc (scans_sep ih2 ih3))
  | chain _ _ ih1 ih2 => exact scans_space ih1 ih2
  | @link op e e' s u h ha _ ih =>
    exact scans_op h.mem (fun _ => (h.chain ha).2.1) ih
  | @links op e e' l l' s u t w h ha _ _ ih1 ih2 =>
    exact scans_op h.mem (fun _ => (h.chain ha).2.1) (scans_space ih1 ih2)
  | exClosed _ ih => exact ih
  | exOper _ ih => exact ih
  | item _ ih => exact ih
  | items _ _ ih1 ih2 => exact scans_sep ih1 ih2
  | stExpr _ ih => exact ih
  | @stCmd c l l' s u _ ih =>
    obtain ⟨h1, h2, h3, h4, h5⟩ := cmd_solid c
    obtain ⟨d, ds, e, hd⟩ := h1.head
    refine ⟨fun z y hz => ?_, d, ds ++ s, by rw [e]; rfl, hd, ?_⟩
    · rw [List.append_assoc, List.map_cons]
      rcases ih with ⟨ih, rfl | ⟨x, rfl⟩⟩
      · have := ih z y hz
        rw [List.nil_append] at this ⊢
        rw [scanAll_word h1 h3 h4 hz, h2]
        have hh := congrArg (prefixed [some ⟨.cmd, c.text⟩]) this
        rw [prefixed_prefixed] at hh
        exact hh
      · rw [List.cons_append, scanAll_word h1 h3 h4 (by decide), h2, ← List.cons_append, ih z y hz, prefixed_prefixed]
        rfl
    · rintro rfl; rw [e] at h5; simp at h5
  | stOne _ ih => exact ih
  | stMore _ _ ih1 ih2 => exact scans_sep ih1 ih2
  | bodyNil => exact .inl ⟨rfl, rfl⟩
  | body _ _ ih => exact .inr ih
  | name h _ => exact scans_tok h
  | nameList _ ih => exact scan_bracket (by decide) (by decide) (by decide) ih
  | nameOne _ ih => exact ih
  | nameMore _ _ ih1 ih2 => exact scans_sep ih1 ih2
  | argsNil => exact ⟨fun z y hz => by simp [prefixed_nil], .inl rfl⟩
  | @argEls as b b' l l' s u t w _ _ ih1 ih2 =>
    refine ⟨fun z y hz => ?_, .inr ⟨_, rfl⟩⟩
    have := scan_braces ih1 z y (ih2.1 z y hz)
    have e : s% " EL {" ++ (s ++ '}' :: t) ++ z :: y = ' ' :: 'E' :: ('L' :: ' ' :: ('{' :: (s ++ '}' :: (t ++ z :: y)))) := by simp
    rw [e, scanAll_gap _ (by decide)]
    have hel : Solid (s% "EL") := solid_upper (by decide) (by decide) (by decide)
    have h2 := scanAll_word hel (by decide) (by decide) (show isDelim ' ' = true by decide) ('{' :: (s ++ '}' :: (t ++ z :: y)))
    simp only [List.cons_append, List.nil_append] at h2
    rw [h2, scanAll_gap _ (by decide), this, prefixed_prefixed, show newToken (s% "EL") = some ⟨.sym, s% "EL"⟩ by decide +kernel]
    rfl
  | @argCode as b b' l l' s u t w _ _ ih1 ih2 =>
    refine ⟨fun z y hz => ?_, .inr ⟨_, rfl⟩⟩
    have := scan_braces ih1 z y (ih2.1 z y hz)
    have e : s% " {" ++ (s ++ '}' :: t) ++ z :: y = ' ' :: '{' :: (s ++ '}' :: (t ++ z :: y)) := by simp
    rw [e, scanAll_gap _ (by decide), this]
  | argVar _ _ ht _ ih1 ih2 =>
    obtain ⟨x, rfl⟩ := ht
    obtain ⟨h, c, cs, rfl, h1, h2⟩ := ih1
    refine ⟨fun z y hz => ?_, .inr ⟨_, rfl⟩⟩
    have h3 := ih2.1 z y hz
    have h4 := h ' ' (x ++ z :: y) (by decide)
    simp only [List.cons_append, List.append_assoc] at h3 h4 ⊢
    rw [scanAll_gap _ h1, h4, h3, prefixed_prefixed]
    simp
  | argExpr _ _ ht _ ih1 ih2 =>
    obtain ⟨x, rfl⟩ := ht
    obtain ⟨h, c, cs, rfl, h1, h2⟩ := ih1
    refine ⟨fun z y hz => ?_, .inr ⟨_, rfl⟩⟩
    have h3 := ih2.1 z y hz
    have h4 := h ' ' (x ++ z :: y) (by decide)
    simp only [List.cons_append, List.append_assoc] at h3 h4 ⊢
    rw [scanAll_gap _ h1, h4, h3, prefixed_prefixed]
    simp

end Pip
