import Verif.Lemmas.Num
import Verif.Lemmas.Types
import Verif.Model.OpsNum
/-! Helper lemmas: comparisons. -/

set_option linter.unusedSimpArgs false

namespace Pip

theorem numNeR_not (X : Ext) : ∀ l l', numNeR X l l' = !numEqR X l l' := by
  intro l
  induction l with
  | nil => intro l'; cases l' <;> rfl
  | cons a l ih =>
    intro l'
    cases l' with
    | nil => cases a <;> rfl
    | cons b l' => cases a <;> cases b <;> simp only [numNeR, numEqR, ih, Bool.not_and]

mutual
theorem numNe_not (X : Ext) : ∀ a b, numNe X a b = !numEq X a b
  | .list l, b => by
    have hs := numNes_not X l
    cases b <;> simp only [numNe, numEq, hs, Bool.not_and, bne]
    split <;> simp
  | .range lo hi, b => by
    cases b <;> simp only [numNe, numEq, numNeR_not, Bool.not_and, bne]
    split <;> simp
  | .scalar _, b => by cases b <;> simp only [numNe, numEq]
  | .pattern .., b => by cases b <;> simp only [numNe, numEq]
  | .block .., b => by cases b <;> simp only [numNe, numEq]
  | .nil, b => by cases b <;> simp only [numNe, numEq]
theorem numNes_not (X : Ext) : ∀ l l', numNes X l l' = !numEqs X l l'
  | [], l' => by cases l' <;> simp only [numNes, numEqs, Bool.not_true]
  | a :: l, l' => by
    have h1 := numNe_not X a
    have h2 := numNes_not X l
    cases l' <;> simp only [numNes, numEqs, h1, h2, Bool.not_and, Bool.not_true]
end

theorem rangeGreater_eq (same : Bool) (a b c d : Option Int) : rangeGreater same a b c d = rangeLess same c d a b := by
  unfold rangeGreater rangeLess
  by_cases h1 : lo0 a > lo0 c
  · rw [if_pos h1, if_pos h1]
  · rw [if_neg h1, if_neg h1]
    by_cases h2 : lo0 a < lo0 c
    · rw [if_pos h2, if_pos h2]
    · rw [if_neg h2, if_neg h2]
      by_cases h3 : b = d
      · rw [if_pos h3, if_pos h3.symm]
      · rw [if_neg h3, if_neg (fun h => h3 h.symm)]
        cases b <;> cases d <;> simp at h3 ⊢

theorem scalars_rangeTake (lo hi : Option Int) (n : Nat) : ∀ v ∈ rangeTake lo hi n, ∃ i, v = ofInt i := by
  intro v hv
  obtain ⟨i, -, rfl⟩ := List.mem_map.1 hv
  exact ⟨i, rfl⟩

/-- Comparison with the Scalars of a Range on the left is that with them on the right, reversed. -/
theorem numLessR_swap (X : Ext) (sw : Bool) : ∀ (r l : List Val), (∀ v ∈ r, ∃ i, v = ofInt i) →
    numLessR X sw r l = numLesss X (!sw) l r := by
  intro r
  induction r with
  | nil => intro l _; cases l <;> rfl
  | cons a r ih =>
    intro l h
    obtain ⟨i, rfl⟩ := h a (by simp)
    have ih := fun l => ih l fun v hv => h v (by simp [hv])
    cases l with
    | nil => rfl
    | cons b l =>
      cases b <;> cases sw <;> simp only [ofInt, numLessR, numLesss, numLess, ih, Bool.not_true, Bool.not_false,
        Bool.false_eq_true, if_false, if_true]

mutual
/-- The parameter that swaps the arguments does so. -/
theorem numLess_swap (X : Ext) : ∀ (sw : Bool) (a b : Val), numLess X sw a b = numLess X (!sw) b a
  | sw, .list l, .list l' => by
    have hs := numLesss_swap X sw l l'
    cases sw <;> simp only [numLess, hs, Bool.not_true, Bool.not_false, Bool.false_eq_true, if_false, if_true]
  | sw, .list l, .range lo hi => by
    have hr := numLessR_swap X (!sw) (rangeTake lo hi l.length) l (scalars_rangeTake _ _ _)
    cases sw <;> simp only [numLess, Bool.not_true, Bool.not_false, Bool.false_eq_true, if_false, if_true] at hr ⊢ <;>
      rw [hr]
  | sw, .range lo hi, .list l' => by
    have hr := numLessR_swap X sw (rangeTake lo hi l'.length) l' (scalars_rangeTake _ _ _)
    cases sw <;> simp only [numLess, Bool.not_true, Bool.not_false, Bool.false_eq_true, if_false, if_true] at hr ⊢ <;>
      rw [hr]
  | sw, .range lo hi, .range lo' hi' => by cases sw <;> simp [numLess]
  | sw, .range lo hi, .scalar _ => by simp [numLess]
  | sw, .range lo hi, .pattern .. => by simp [numLess]
  | sw, .range lo hi, .block .. => by simp [numLess]
  | sw, .range lo hi, .nil => by simp [numLess]
  | sw, .list _, .scalar _ => by simp [numLess]
  | sw, .list _, .pattern .. => by simp [numLess]
  | sw, .list _, .block .. => by simp [numLess]
  | sw, .list _, .nil => by simp [numLess]
  | sw, .scalar _, b => by cases sw <;> cases b <;> simp [numLess]
  | sw, .pattern .., b => by cases b <;> simp [numLess]
  | sw, .block .., b => by cases b <;> simp [numLess]
  | sw, .nil, b => by cases b <;> simp [numLess]
theorem numLesss_swap (X : Ext) : ∀ (sw : Bool) (l l' : List Val), numLesss X sw l l' = numLesss X (!sw) l' l
  | sw, [], l' => by cases l' <;> simp only [numLesss]
  | sw, a :: l, l' => by
    cases l' with
    | nil => simp only [numLesss]
    | cons b l' =>
      have h1 := numLess_swap X sw a b
      have h2 := numLess_swap X (!sw) a b
      have h3 := numLesss_swap X sw l l'
      simp only [numLesss, h1, h2, h3, Bool.not_not]
end

theorem numGreaterR_eq (X : Ext) (sw : Bool) : ∀ r l, numGreaterR X sw r l = numLessR X (!sw) r l := by
  intro r
  induction r with
  | nil => intro l; cases l <;> rfl
  | cons a r ih =>
    intro l
    cases l with
    | nil => cases a <;> rfl
    | cons b l => cases sw <;> cases a <;> cases b <;> simp [numGreaterR, numLessR, ih]

theorem lenGreater_false (a b : Option Nat) (h : ¬ (a = none ∧ b = none)) :
    lenGreater false a b = lenLess false b a := by
  cases a <;> cases b <;> simp [lenGreater, lenLess] at h ⊢

theorem lenGreater_true (a b : Option Nat) (h : ¬ (a = none ∧ b = none)) :
    lenGreater true a b = lenLess true b a := by
  cases a <;> cases b <;> simp [lenGreater, lenLess] at h ⊢

mutual
theorem numGreater_eq (X : Ext) : ∀ (sw : Bool) (a b : Val), numGreater X sw a b = numLess X (!sw) a b
  | sw, .list l, b => by
    have hs := fun sw l' => numGreaters_eq X sw l l'
    cases b <;> cases sw <;>
      simp only [numGreater, numLess, hs, Bool.not_true, Bool.not_false, Bool.false_eq_true, if_false, if_true]
      <;> rw [lenGreater_false] <;> simp
  | sw, .range lo hi, b => by
    cases b <;> cases sw <;> simp only [numGreater, numLess, numGreaterR_eq, rangeGreater_eq, Bool.not_true, Bool.not_false,
      Bool.false_eq_true, if_false, if_true] <;> rw [lenGreater_false] <;> simp
  | sw, .scalar _, b => by cases sw <;> cases b <;> simp [numGreater, numLess]
  | sw, .pattern .., b => by cases b <;> simp [numGreater, numLess]
  | sw, .block .., b => by cases b <;> simp [numGreater, numLess]
  | sw, .nil, b => by cases b <;> simp [numGreater, numLess]
theorem numGreaters_eq (X : Ext) : ∀ (sw : Bool) (l l' : List Val), numGreaters X sw l l' = numLesss X (!sw) l l'
  | sw, [], l' => by cases l' <;> simp only [numGreaters, numLesss]
  | sw, a :: l, l' => by
    have h1 := fun sw b => numGreater_eq X sw a b
    have h2 := fun sw l' => numGreaters_eq X sw l l'
    cases l' with
    | nil => simp only [numGreaters, numLesss]
    | cons b l' => simp only [numGreaters, numLesss, h1, h2]
end

/-- `>` is the converse of `<`, for all values. -/
theorem numGreater_converse (X : Ext) (a b : Val) : numGreater X false a b = numLess X false b a := by
  rw [numGreater_eq, Bool.not_false, numLess_swap]; rfl

theorem numGe_converse (X : Ext) (a b : Val) (hp : pyEq a b = pyEq b a) : numGe X a b = numLe X b a := by
  cases a <;> cases b <;> simp only [numGe, numLe, hp, rangeGreater_eq, numGreaters_eq, numGreaterR_eq, Bool.not_false]
  · rw [numLesss_swap]
    rw [lenGreater_true _ _ (by simp)]; rfl
  · rename_i l lo hi
    rw [numLessR_swap _ _ _ _ (scalars_rangeTake _ _ _), lenGreater_true _ _ (by simp)]; rfl
  · rename_i lo hi l
    rw [numLessR_swap _ _ _ _ (scalars_rangeTake _ _ _), lenGreater_true _ _ (by simp)]; rfl

mutual
theorem pyEq_symm : ∀ a b : Val, pyEq a b = pyEq b a
  | .list l, b => by
    cases b with
    | list l' => simp only [pyEq]; exact pyEqs_symm l l'
    | _ => simp only [pyEq]
  | .block s r, b => by
    cases b with
    | block s' r' => simp only [pyEq]; rw [treeEqs_symm s s', treeEq_symm r r']
    | _ => simp only [pyEq]
  | .scalar _, b => by cases b <;> simp only [pyEq, Bool.beq_comm]
  | .pattern .., b => by
    cases b <;> simp only [pyEq]
    rw [BEq.comm]; congr 1; exact BEq.comm
  | .range .., b => by
    cases b <;> simp only [pyEq]
    rw [BEq.comm]; congr 1; exact BEq.comm
  | .nil, b => by cases b <;> simp only [pyEq]
theorem pyEqs_symm : ∀ a b : List Val, pyEqs a b = pyEqs b a
  | [], b => by cases b <;> simp only [pyEqs]
  | a :: l, b => by
    cases b with
    | nil => simp only [pyEqs]
    | cons b l' => simp only [pyEqs]; rw [pyEq_symm a b, pyEqs_symm l l']
theorem treeEq_symm : ∀ a b : Tree, treeEq a b = treeEq b a
  | .tok a, b => by cases b <;> simp only [treeEq]; exact BEq.comm
  | .node o a, b => by
    cases b with
    | node p b => simp only [treeEq]; rw [treeEqs_symm a b, BEq.comm]
    | _ => simp only [treeEq]
  | .cmd o a, b => by
    cases b with
    | cmd p b => simp only [treeEq]; rw [treeEqs_symm a b, BEq.comm]
    | _ => simp only [treeEq]
  | .code a, b => by
    cases b with
    | code b => simp only [treeEq]; exact treeEqs_symm a b
    | _ => simp only [treeEq]
  | .opr a, b => by cases b <;> simp only [treeEq]; exact BEq.comm
  | .val a, b => by
    cases b with
    | val b => simp only [treeEq]; exact pyEq_symm a b
    | _ => simp only [treeEq]
  | .lval a, b => by cases b <;> simp only [treeEq]; exact BEq.comm
theorem treeEqs_symm : ∀ a b : List Tree, treeEqs a b = treeEqs b a
  | [], b => by cases b <;> simp only [treeEqs]
  | a :: l, b => by
    cases b with
    | nil => simp only [treeEqs]
    | cons b l' => simp only [treeEqs]; rw [treeEq_symm a b, treeEqs_symm l l']
end

/-! ### Integers and lists of integers -/

theorem numLesss_int (X : Ext) : ∀ l l' : List Int,
    (((numLesss X false (l.map ofInt) (l'.map ofInt)).getD (decide (l.length < l'.length)) = true ↔ l < l') ∧
     ((numLesss X false (l.map ofInt) (l'.map ofInt)).getD (decide (l.length ≤ l'.length)) = true ↔ ¬ l' < l)) := by
  intro l
  induction l with
  | nil =>
    intro l'
    cases l' with
    | nil => simp [numLesss]
    | cons b l' => simp [numLesss]
  | cons a l ih =>
    intro l'
    cases l' with
    | nil => simp [numLesss]
    | cons b l' =>
      have ih := ih l'
      simp only [List.map_cons, numLesss, List.length_cons, Nat.add_lt_add_iff_right, Nat.add_le_add_iff_right,
        List.cons_lt_cons_iff]
      simp only [ofInt, numLess, toNum_showInt, nlt, Bool.not_false, Bool.false_eq_true, if_false, if_true,
        decide_eq_true_eq]
      rcases Int.lt_trichotomy a b with h | h | h
      · rw [if_pos h]
        simp only [Option.getD_some, true_iff, h, true_or]
        refine ⟨trivial, ?_⟩
        rintro (h' | ⟨h', -⟩) <;> omega
      · subst h
        rw [if_neg (Int.lt_irrefl a), if_neg (Int.lt_irrefl a)]
        have ih := ih
        refine ⟨ih.1.trans ?_, ih.2.trans ?_⟩ <;> simp
      · rw [if_neg (by omega), if_pos h]
        simp only [Option.getD_some, h, true_or, not_true, iff_false, Bool.false_eq_true]
        refine ⟨⟨False.elim, ?_⟩, trivial⟩
        rintro (h' | ⟨h', -⟩) <;> omega

theorem numEqs_int (X : Ext) : ∀ l l' : List Int, l.length = l'.length →
    numEqs X (l.map ofInt) (l'.map ofInt) = decide (l = l') := by
  intro l
  induction l with
  | nil => intro l' h; cases l' with | nil => simp [numEqs] | cons => simp at h
  | cons a l ih =>
    intro l' h
    cases l' with
    | nil => simp at h
    | cons b l' =>
      simp only [List.length_cons, Nat.add_right_cancel_iff] at h
      simp only [List.map_cons, numEqs, ih l' h]
      simp only [ofInt, numEq, toNum_showInt, neq, List.cons.injEq, Bool.decide_and]

/-! ### Strings -/

theorem ltStr_iff : ∀ a b : Str, ltStr a b = true ↔ a < b := by
  intro a
  induction a with
  | nil => intro b; cases b <;> simp [ltStr]
  | cons c a ih =>
    intro b
    cases b with
    | nil => simp [ltStr]
    | cons d b =>
      simp only [ltStr, Bool.or_eq_true, decide_eq_true_eq, Bool.and_eq_true, beq_iff_eq, ih, List.cons_lt_cons_iff]
      have : c.toNat < d.toNat ↔ c < d := Iff.rfl
      rw [this]

theorem strLesss_strs : ∀ l l' : List Str,
    (((strLesss false (l.map Val.scalar) (l'.map Val.scalar)).getD (decide (l.length < l'.length)) = true ↔ l < l') ∧
     ((strLesss false (l.map Val.scalar) (l'.map Val.scalar)).getD (decide (l.length ≤ l'.length)) = true ↔ ¬ l' < l)) := by
  intro l
  induction l with
  | nil =>
    intro l'
    cases l' with
    | nil => simp [strLesss]
    | cons b l' => simp [strLesss]
  | cons a l ih =>
    intro l'
    cases l' with
    | nil => simp [strLesss]
    | cons b l' =>
      have ih := ih l'
      simp only [List.map_cons, strLesss, List.length_cons, Nat.add_lt_add_iff_right, Nat.add_le_add_iff_right,
        List.cons_lt_cons_iff]
      simp only [strLess, Bool.not_false, Bool.false_eq_true, if_false, if_true, ltStr_iff]
      by_cases h : a < b
      · have h' := List.lt_asymm h
        rw [if_pos h]
        simp only [Option.getD_some, true_iff, h, true_or, h', false_or, not_and]
        refine ⟨trivial, ?_⟩
        rintro rfl; exact absurd h (List.lt_irrefl _)
      · rw [if_neg h]
        by_cases h2 : b < a
        · rw [if_pos h2]
          simp only [Option.getD_some, h2, true_or, not_true, h, false_or, Bool.false_eq_true, false_iff, not_and,
            iff_false, not_false_eq_true, and_true]
          rintro rfl; exact absurd h2 (List.lt_irrefl _)
        · rw [if_neg h2]
          have : a = b := List.le_antisymm h2 h
          subst this
          refine ⟨ih.1.trans ?_, ih.2.trans ?_⟩ <;> simp [List.lt_irrefl]

mutual
theorem strLess_swap : ∀ (sw : Bool) (a b : Val), strLess sw a b = strLess (!sw) b a
  | sw, .list l, b => by
    have hs := fun l' => strLesss_swap sw l l'
    cases b <;> cases sw <;> simp [strLess, hs]
  | sw, .range lo hi, b => by cases b <;> simp [strLess]
  | sw, .scalar _, b => by cases sw <;> cases b <;> simp [strLess]
  | sw, .pattern .., b => by cases b <;> simp [strLess]
  | sw, .block .., b => by cases b <;> simp [strLess]
  | sw, .nil, b => by cases b <;> simp [strLess]
theorem strLesss_swap : ∀ (sw : Bool) (l l' : List Val), strLesss sw l l' = strLesss (!sw) l' l
  | sw, [], l' => by cases l' <;> simp only [strLesss]
  | sw, a :: l, l' => by
    cases l' with
    | nil => simp only [strLesss]
    | cons b l' =>
      have h1 := strLess_swap sw a b
      have h2 := strLess_swap (!sw) a b
      have h3 := strLesss_swap sw l l'
      simp only [strLesss, h1, h2, h3, Bool.not_not]
end

mutual
theorem strGreater_eq : ∀ (sw : Bool) (a b : Val), strGreater sw a b = strLess (!sw) a b
  | sw, .list l, b => by
    have hs := fun sw l' => strGreaters_eq sw l l'
    cases b <;> cases sw <;> simp [strGreater, strLess, hs]
  | sw, .range lo hi, b => by cases b <;> simp [strGreater, strLess]
  | sw, .scalar _, b => by cases sw <;> cases b <;> simp [strGreater, strLess]
  | sw, .pattern .., b => by cases b <;> simp [strGreater, strLess]
  | sw, .block .., b => by cases b <;> simp [strGreater, strLess]
  | sw, .nil, b => by cases b <;> simp [strGreater, strLess]
theorem strGreaters_eq : ∀ (sw : Bool) (l l' : List Val), strGreaters sw l l' = strLesss (!sw) l l'
  | sw, [], l' => by cases l' <;> simp only [strGreaters, strLesss]
  | sw, a :: l, l' => by
    have h1 := fun sw b => strGreater_eq sw a b
    have h2 := fun sw l' => strGreaters_eq sw l l'
    cases l' with
    | nil => simp only [strGreaters, strLesss]
    | cons b l' => simp only [strGreaters, strLesss, h1, h2]
end

end Pip
