import Verif.Lemmas.ShowAll
import Verif.Lemmas.ReprEval
/-! The functions of a program, and displaying them. -/

set_option linter.unusedSimpArgs false

namespace Pip
open Rgx Scan PP
open Parse (assignOp escaped group attach interp interpName escTok joinOp strOp)

theorem mem_blocksIn {b : List Tree} : ∀ {l : List Tree}, b ∈ blocksIn l ↔ ∃ e ∈ l, b ∈ blocks e
  | [] => by simp [blocksIn]
  | e :: l => by simp [blocksIn, mem_blocksIn (l := l)]

theorem blocks_node {op : Op} (h : op ≠ blockOp) (args : List Tree) : blocks (.node op args) = blocksIn args := by
  simp [blocks, h]

theorem block_ne {op : Op} (h : op.text ∈ operatorTexts) : op ≠ blockOp := by
  rintro rfl; exact absurd h (by decide +kernel)

theorem blocks_escaped (t : Tok) : blocks (escaped t) = [] := by
  unfold escaped
  simp only
  split
  · simp [blocks]
  · rename_i lit ps _ _
    rw [blocks_node (by decide)]
    simp only [blocksIn, List.append_nil]
    rw [blocks_node (by decide +kernel)]
    simp only [blocksIn, List.append_nil]
    rw [blocks_node (by decide)]
    rw [List.eq_nil_iff_forall_not_mem]
    intro b hb
    obtain ⟨e, he, hb⟩ := mem_blocksIn.1 hb
    rcases List.mem_cons.1 he with rfl | he
    · simp [escTok, blocks] at hb
    · obtain ⟨p, _, hp⟩ := List.mem_flatMap.1 he
      simp at hp
      rcases hp with rfl | rfl
      · rw [blocks_node (by decide +kernel)] at hb; simp [blocksIn, blocks] at hb
      · simp [escTok, blocks] at hb

/-- The functions of what tokens spell are spelled by some of them. -/
theorem blocks_spelled {l : List Tree} {u : List Tok} (h : SpSs l u) : ∀ b ∈ blocksIn l, ∃ v, SpSs b v ∧ ∀ t ∈ v, t ∈ u := by
  have up : ∀ {b : List Tree} {u w : List Tok}, (∀ t ∈ u, t ∈ w) → (∃ v, SpSs b v ∧ ∀ t ∈ v, t ∈ u) → ∃ v, SpSs b v ∧ ∀ t ∈ v, t ∈ w :=
    fun h ⟨v, h1, h2⟩ => ⟨v, h1, fun t ht => h t (h2 t ht)⟩
  refine SpSs.rec
    (motive_1 := fun e u _ => ∀ b ∈ blocks e, ∃ v, SpSs b v ∧ ∀ t ∈ v, t ∈ u)
    (motive_2 := fun l u _ => ∀ b ∈ blocksIn l, ∃ v, SpSs b v ∧ ∀ t ∈ v, t ∈ u)
    (motive_3 := fun e u _ => ∀ b ∈ blocks e, ∃ v, SpSs b v ∧ ∀ t ∈ v, t ∈ u)
    (motive_4 := fun l u _ => ∀ b ∈ blocksIn l, ∃ v, SpSs b v ∧ ∀ t ∈ v, t ∈ u)
    (motive_5 := fun l u _ => ∀ b ∈ blocksIn l, ∃ v, SpSs b v ∧ ∀ t ∈ v, t ∈ u)
    (motive_6 := fun e u _ => ∀ b ∈ blocks e, ∃ v, SpSs b v ∧ ∀ t ∈ v, t ∈ u)
    (motive_7 := fun l u _ => ∀ b ∈ blocksIn l, ∃ v, SpSs b v ∧ ∀ t ∈ v, t ∈ u)
    (motive_8 := fun as l u _ => ∀ b ∈ blocksIn l, ∃ v, SpSs b v ∧ ∀ t ∈ v, t ∈ u)
    ?_ ?_ ?_ ?_ ?_ ?_ ?_ ?_ ?_ ?_ ?_ ?_ ?_ ?_ ?_ ?_ ?_ ?_ ?_ ?_ ?_ ?_ ?_ ?_ ?_ ?_ ?_ ?_ h
  · intro t _ _ b hb; simp [blocks] at hb
  · intro t e _ he b hb; subst he; rw [blocks_escaped] at hb; simp at hb
  · intro o c l u e _ _ _ he ih b hb
    subst he
    refine up (by simp +contextual) (ih b ?_)
    match l with
    | [] => simp [group, blocks] at hb
    | [e] => rwa [group, blocks_node (by decide)] at hb
    | a :: c :: l =>
      change b ∈ blocks (.node sendOp (a :: c :: l)) at hb
      rwa [blocks_node (by decide)] at hb
  · intro o c l u _ _ _ ih b hb
    rw [blocks_node (by decide)] at hb
    exact up (by simp +contextual) (ih b hb)
  · intro o c l u _ hl _ ih b hb
    simp only [blocks, if_true, bodies, blocksIn, List.append_nil, List.singleton_append, List.mem_cons] at hb
    rcases hb with rfl | hb
    · exact ⟨u, hl, by simp +contextual⟩
    · exact up (by simp +contextual) (ih b hb)
  · intro op ts u e ho _ ih b hb
    rw [blocks_node (block_ne (isPrefix_of ho).mem)] at hb
    simp only [blocksIn, List.append_nil] at hb
    exact up (by simp +contextual) (ih b hb)
  · intro op ts u w e f ho _ _ _ _ ih1 ih2 b hb
    rw [blocks_node (block_ne (isInfix_of ho).mem)] at hb
    simp only [blocksIn, List.append_nil, List.mem_append] at hb
    rcases hb with hb | hb
    · exact up (by simp +contextual) (ih1 b hb)
    · exact up (by simp +contextual) (ih2 b hb)
  · intro op ts u v s w e f g ho _ _ _ _ _ _ ih1 ih2 ih3 b hb
    rw [blocks_node (block_ne (isInfix_of ho).mem)] at hb
    simp only [blocksIn, List.append_nil, List.mem_append] at hb
    rcases hb with hb | hb | hb
    · exact up (by simp +contextual) (ih1 b hb)
    · exact up (by simp +contextual) (ih2 b hb)
    · exact up (by simp +contextual) (ih3 b hb)
  · intro op ts u w e f ho _ _ _ ih1 ih2 b hb
    rw [blocks_node (by decide)] at hb
    simp only [blocksIn, blocks, List.append_nil, List.nil_append, List.mem_append] at hb
    rcases hb with hb | hb
    · exact up (by simp +contextual) (ih1 b hb)
    · exact up (by simp +contextual) (ih2 b hb)
  · intro op ts u w as f ho _ _ _ ih1 ih2 b hb
    rw [blocks_node (by decide)] at hb
    rw [blocks_node (by decide)] at ih1
    obtain ⟨e, he, hb2⟩ := mem_blocksIn.1 hb
    simp only [List.mem_append, List.mem_cons, List.not_mem_nil, or_false] at he
    rcases he with he | rfl | rfl
    · exact up (by simp +contextual) (ih1 b (mem_blocksIn.2 ⟨e, he, hb2⟩))
    · simp [blocks] at hb2
    · exact up (by simp +contextual) (ih2 b hb2)
  · intro b hb; simp [blocksIn] at hb
  · intro e l u s w _ _ _ ih1 ih2 b hb
    simp only [blocksIn, List.mem_append] at hb
    rcases hb with hb | hb
    · exact up (by simp +contextual) (ih1 b hb)
    · exact up (by simp +contextual) (ih2 b hb)
  · intro e u s s' _ _ _ ih b hb
    exact up (by simp +contextual) (ih b hb)
  · intro t c as u s _ _ _ _ ih b hb
    simp only [blocks] at hb
    exact up (by simp +contextual) (ih b hb)
  · intro b hb; simp [blocksIn] at hb
  · intro e l u w _ _ ih1 ih2 b hb
    simp only [blocksIn, List.mem_append] at hb
    rcases hb with hb | hb
    · exact up (by simp +contextual) (ih1 b hb)
    · exact up (by simp +contextual) (ih2 b hb)
  · intro o c l u _ _ _ ih b hb
    exact up (by simp +contextual) (ih b hb)
  · intro e u _ ih b hb
    simp only [blocksIn, List.append_nil] at hb
    exact ih b hb
  · intro t s _ _ b hb; simp [blocks] at hb
  · intro o c l u s _ _ _ _ _ ih b hb
    rw [blocks_node (by decide)] at hb
    exact up (by simp +contextual) (ih b hb)
  · intro b hb; simp [blocksIn] at hb
  · intro e l u w _ _ ih1 ih2 b hb
    simp only [blocksIn, List.mem_append] at hb
    rcases hb with hb | hb
    · exact up (by simp +contextual) (ih1 b hb)
    · exact up (by simp +contextual) (ih2 b hb)
  · intro b hb; simp [blocksIn] at hb
  · intro as l w _ ih b hb
    simp only [blocksIn, blocks, List.nil_append] at hb
    exact ih b hb
  · intro as t c l u w _ _ _ ih1 ih2 b hb
    simp only [blocksIn, blocks, List.mem_append] at hb
    rcases hb with hb | hb
    · exact up (by simp +contextual) (ih1 b hb)
    · exact up (by simp +contextual) (ih2 b hb)
  · intro as c l u w _ _ ih1 ih2 b hb
    simp only [blocksIn, blocks, List.mem_append] at hb
    rcases hb with hb | hb
    · exact up (by simp +contextual) (ih1 b hb)
    · exact up (by simp +contextual) (ih2 b hb)
  · intro as e l u w _ _ ih1 ih2 b hb
    simp only [blocksIn, List.mem_append] at hb
    rcases hb with hb | hb
    · exact up (by simp +contextual) (ih1 b hb)
    · exact up (by simp +contextual) (ih2 b hb)
  · intro as e l u s w _ _ _ ih1 ih2 b hb
    simp only [blocksIn, List.mem_append] at hb
    rcases hb with hb | hb
    · exact up (by simp +contextual) (ih1 b hb)
    · exact up (by simp +contextual) (ih2 b hb)

/-! ### Displaying -/

theorem unparseStmts_append : ∀ l m : List Tree, unparseStmts (l ++ m) = unparseStmts l ++ unparseStmts m
  | [], m => by simp [unparseStmts]
  | e :: l, m => by simp [unparseStmts, unparseStmts_append l m]

/-- The text of a function -/
theorem repr_blockOf (b : List Tree) : (blockOf b).repr = s% "{" ++ unparse (shown b) ++ s% "}" := by
  have key : ∀ (l : List Tree) (t : Tree), (Val.block l t).repr = s% "{" ++ unparse (l ++ [t]) ++ s% "}" := by
    intro l t
    rw [Val.repr, unparse, unparseStmts_append]
    simp [unparseStmts]
  have nil : ∀ l : List Tree, (Val.block l (.val .nil)).repr = s% "{" ++ unparse (l ++ [.tok ⟨.nil, s% "()"⟩]) ++ s% "}" := by
    intro l
    rw [key]
    simp only [unparse, unparseStmts_append, unparseStmts, unparseStmt, Val.repr]
  unfold blockOf shown
  cases hl : b.getLast? with
  | none =>
    have : b = [] := by simpa using hl
    subst this
    simpa using nil []
  | some t =>
    simp only [Option.any_some]
    by_cases ht : isExpr t = true
    · rw [if_pos ht, if_pos ht, key]
      congr 3
      obtain ⟨l, rfl⟩ := List.getLast?_eq_some_iff.1 hl
      simp
    · rw [if_neg ht, if_neg ht, nil]

theorem spSs_append {l m : List Tree} {u v : List Tok} (h : SpSs l u) (h2 : SpSs m v) : SpSs (l ++ m) (u ++ v) := by
  induction l generalizing u with
  | nil => cases h; exact h2
  | cons e l ih =>
    cases h with
    | cons h3 h4 =>
      rw [List.append_assoc]
      exact .cons h3 (ih h4)

theorem spSs_nil : SpSs [.tok ⟨.nil, s% "()"⟩] [tLp, tRp] := by
  have h1 : SpE (.tok ⟨.nil, s% "()"⟩) ([tLp] ++ [] ++ [tRp]) := .group rfl .nil rfl rfl
  have h2 : SpS (.tok ⟨.nil, s% "()"⟩) ([tLp] ++ [] ++ [tRp] ++ [] ++ []) := .expr h1 .none .none
  exact .cons (l := []) (w := []) h2 .nil

theorem paren_scanned : Scanned tLp ∧ Scanned tRp := by
  have h1 : scanAll tLp.text = .ok [some tLp] := by decide +kernel
  have h2 : scanAll tRp.text = .ok [some tRp] := by decide +kernel
  exact ⟨solid_of_scan h1 rfl, solid_of_scan h2 rfl⟩

theorem spSs_shown {b : List Tree} {u : List Tok} (h : SpSs b u) (hu : ∀ t ∈ u, Scanned t) :
    ∃ v, SpSs (shown b) v ∧ ∀ t ∈ v, Scanned t := by
  unfold shown
  split
  · exact ⟨u, h, hu⟩
  · refine ⟨_, spSs_append h spSs_nil, ?_⟩
    intro t ht
    simp only [List.mem_append, List.mem_cons, List.not_mem_nil, or_false] at ht
    rcases ht with ht | rfl | rfl
    · exact hu t ht
    · exact paren_scanned.1
    · exact paren_scanned.2

theorem parse_shown {s : Str} {u : List Tok} {l l' : List Tree} (h : Sh .stmts l s u l') :
    (scan s).bind Parse.parseAll = .ok l' := by
  obtain ⟨hs, c, cs, rfl, h1, h2⟩ := h.scan
  have h3 := h.parse.1 [] (.inl rfl)
  rw [List.append_nil] at h3
  have ht : ∀ k : Str, k = s% "\n" → tokenize (c :: cs ++ s% "\n") = .ok (u.map some) := by
    rintro _ rfl
    rw [tokenize_eq]
    have e1 : '\n' :: (c :: cs ++ s% "\n") = '\n' :: c :: (cs ++ s% "\n") := rfl
    have e2 : c :: (cs ++ s% "\n") = c :: cs ++ '\n' :: [] := rfl
    rw [e1, scanAll_first _ h1 h2, e2, hs '\n' [] (by decide), show scanAll (s% "\n") = .ok [] by decide +kernel]
    simp [prefixed]
  have hsc : scan (c :: cs) = .ok (emb u) := by
    unfold scan
    rw [ht _ rfl]; rfl
  rw [hsc]
  exact parseAll_ev hsc h3

/-- The tokens of a program are as the scanner makes them. -/
theorem scan_scanned {code : Str} {l : List Tok} (h : scan code = .ok (emb l)) : ∀ t ∈ l, Scanned t := by
  obtain ⟨l', e, ht, _⟩ := scan_wf h
  have el : l' = l := by
    simp only [emb] at e
    have := List.append_cancel_right e
    exact (List.map_inj_right (by simp) |>.1 this).symm
  subst el
  rw [tokenize_eq] at ht
  obtain ⟨ws, hw, he⟩ := scanAll_solid _ _ _ (Nat.le_refl _) ht
  intro t hm
  have : some t ∈ ws.map newToken := by rw [← he]; exact List.mem_map_of_mem hm
  obtain ⟨w, hw2, hw3⟩ := List.mem_map.1 this
  have := newToken_text hw3
  subst this
  exact ⟨hw _ hw2, hw3⟩

/-- The statements of a program, and its tokens -/
theorem program_spelled {code : Str} {sts : List Tree} (h : (scan code).bind Parse.parseAll = .ok sts) :
    ∃ u, SpSs sts u ∧ ∀ t ∈ u, Scanned t := by
  cases hs : scan code with
  | error e => rw [hs] at h; cases h
  | ok ts =>
    rw [hs] at h
    obtain ⟨l, rfl, _, hw⟩ := scan_wf hs
    have hsc := scan_scanned hs
    change Parse.parseAll (emb l) = _ at h
    rw [parseAll_emb] at h
    match hp : PP.parse (Parse.budget (PP.emb l)) l with
    | .ok (sts', r) =>
      rw [hp] at h
      simp at h; subst h
      obtain ⟨u, hu, h2⟩ := (PP.sound _).1 _ _ _ hp
      exact ⟨u, h2, fun t ht => hsc t (by rw [hu]; simp [ht])⟩
    | .error e => rw [hp] at h; cases h

end Pip
