import Verif.Props.Cut
import Verif.Props.Order
/-!
# Additions to C34, C37, C50, C53

Sorting Lists of Lists, default second operands, transliteration with tables of character codes.
-/

namespace Pip

variable {X : Ext}

/-! ### C34: Lists are sorted lexicographically -/

/-- The lexicographic order -/
def lexLt : List Int → List Int → Bool
  | _, [] => false
  | [], _ :: _ => true
  | a :: l, b :: l' => decide (a < b) || (decide (a = b) && lexLt l l')

/-- A list comes before another one if it is a proper prefix of it or smaller at the first difference. -/
theorem lexLt_iff (l l' : List Int) : lexLt l l' = true ↔
    (∃ b r, l' = l ++ b :: r) ∨ ∃ p a b r r', l = p ++ a :: r ∧ l' = p ++ b :: r' ∧ a < b := by
  induction l generalizing l' with
  | nil =>
    cases l' with
    | nil => simp [lexLt]
    | cons b r => exact ⟨fun _ => .inl ⟨b, r, rfl⟩, fun _ => rfl⟩
  | cons a l ih =>
    cases l' with
    | nil => simp [lexLt]
    | cons b l' =>
      simp only [lexLt, Bool.or_eq_true, decide_eq_true_eq, Bool.and_eq_true, ih l']
      constructor
      · rintro (h | ⟨rfl, ⟨b, r, rfl⟩ | ⟨p, x, y, r, r', rfl, rfl, h⟩⟩)
        · exact .inr ⟨[], a, b, l, l', rfl, rfl, h⟩
        · exact .inl ⟨b, r, rfl⟩
        · exact .inr ⟨a :: p, x, y, r, r', rfl, rfl, h⟩
      · rintro (⟨c, r, h⟩ | ⟨p, x, y, r, r', h1, h2, h⟩)
        · obtain ⟨rfl, rfl⟩ := List.cons.inj h
          exact .inr ⟨rfl, .inl ⟨c, r, rfl⟩⟩
        · cases p with
          | nil =>
            obtain ⟨rfl, rfl⟩ := List.cons.inj h1
            obtain ⟨rfl, rfl⟩ := List.cons.inj h2
            exact .inl h
          | cons z p =>
            obtain ⟨rfl, rfl⟩ := List.cons.inj h1
            obtain ⟨rfl, rfl⟩ := List.cons.inj h2
            exact .inr ⟨rfl, .inr ⟨p, x, y, r, r', rfl, rfl, h⟩⟩

theorem lexLt_asymm (a b : List Int) : lexLt a b = true → lexLt b a = false := by
  induction a generalizing b with
  | nil => intro _; cases b <;> rfl
  | cons x a ih =>
    cases b with
    | nil => simp [lexLt]
    | cons y b =>
      simp only [lexLt, Bool.or_eq_true, decide_eq_true_eq, Bool.and_eq_true, Bool.or_eq_false_iff, decide_eq_false_iff_not,
        Bool.and_eq_false_iff]
      rintro (h | ⟨rfl, h⟩)
      · exact ⟨by omega, .inl (by omega)⟩
      · exact ⟨by omega, .inr (ih b h)⟩

theorem lexLt_trans (a b c : List Int) : lexLt b a = false → lexLt c b = false → lexLt c a = false := by
  induction a generalizing b c with
  | nil => intro _ _; cases c <;> rfl
  | cons x a ih =>
    cases b with
    | nil => simp [lexLt]
    | cons y b =>
      cases c with
      | nil => simp [lexLt]
      | cons z c =>
        simp only [lexLt, Bool.or_eq_false_iff, decide_eq_false_iff_not, Bool.and_eq_false_iff]
        rintro ⟨h1, h2⟩ ⟨h3, h4⟩
        refine ⟨by omega, ?_⟩
        by_cases h : z = x
        · right
          subst h
          have : y = z := by omega
          subst this
          rcases h2 with h2 | h2
          · exact absurd rfl h2
          · rcases h4 with h4 | h4
            · exact absurd rfl h4
            · exact ih b c h2 h4
        · exact .inl h

theorem keys_ints (l : List Int) : Val.keys X (l.map ofInt) = l.map fun i => .num (.int i) := by
  induction l with
  | nil => rfl
  | cons i l ih => simp only [List.map_cons, Val.keys, ih, ofInt, Val.key, toNum_showInt]

theorem keyLts_ints (l l' : List Int) :
    keyLts X (l.map fun i => .num (.int i)) (l'.map fun i => .num (.int i)) = some (lexLt l l') := by
  induction l generalizing l' with
  | nil => cases l' <;> rfl
  | cons a l ih =>
    cases l' with
    | nil => rfl
    | cons b l' =>
      simp only [List.map_cons, keyLts, keyEq, neq, keyLt, nlt, ih, lexLt, decide_eq_true_eq]
      by_cases h : a = b
      · subst h; simp
      · rw [if_neg h]; simp [h]

/-- `SN` and `DN` sort a List of Lists of integers lexicographically. -/
theorem C34_lists (l : List (List Int)) :
    ∃ r r' : List (List Int), opSORTNUM X (.list (l.map ints)) = .ok (.list (r.map ints)) ∧
      opDESCENDINGNUM X (.list (l.map ints)) = .ok (.list (r'.map ints)) ∧ r.Perm l ∧ r'.Perm l ∧
      r.Pairwise (fun a b => lexLt b a = false) ∧ r'.Pairwise (fun a b => lexLt a b = false) := by
  let κ : Val → List Int := fun v => match v with
    | .list l => l.map fun x => match x with | .scalar s => toInt s | _ => 0
    | _ => []
  have hκ : ∀ a : List Int, κ (ints a) = a := by
    intro a
    show (a.map ofInt).map _ = a
    rw [List.map_map]
    refine (List.map_congr_left (g := id) fun i _ => ?_).trans (List.map_id a)
    simp [ofInt, toInt_showInt]
  have ho : OrderedBy X κ lexLt (l.map ints) := by
    refine ⟨lexLt_trans, lexLt_asymm, ?_⟩
    intro a ha b hb
    obtain ⟨a, _, rfl⟩ := List.mem_map.1 ha
    obtain ⟨b, _, rfl⟩ := List.mem_map.1 hb
    rw [hκ, hκ]
    show keyLts X (Val.keys X _) (Val.keys X _) = _
    rw [keys_ints, keys_ints, keyLts_ints]
  obtain ⟨r, r', h1, h2, h3, h4, _⟩ := sortNum_stable X κ lexLt (l.map ints) ho
  have back : ∀ r : List Val, r.Perm (l.map ints) → r = (r.map κ).map ints ∧ (r.map κ).Perm l := by
    intro r hr
    have e : ∀ v ∈ r, ints (κ v) = v := by
      intro v hv
      obtain ⟨a, _, rfl⟩ := List.mem_map.1 (hr.mem_iff.1 hv)
      rw [hκ]
    constructor
    · rw [List.map_map]
      exact ((List.map_congr_left (g := id) fun v hv => e v hv).trans (List.map_id r)).symm
    · have := hr.map κ
      rwa [List.map_map, show κ ∘ ints = id from funext hκ, List.map_id] at this
  refine ⟨r.map κ, r'.map κ, ?_, ?_, (back r h3.1).2, (back r' h4.1).2, ?_, ?_⟩
  · rw [← (back r h3.1).1]; exact h1
  · rw [← (back r' h4.1).1]; exact h2
  · rw [List.pairwise_map]; exact h3.2.1.imp (by simp)
  · rw [List.pairwise_map]; exact h4.2.1.imp (by simp)

example : lexLt [2] [2, 1] = true ∧ lexLt [] [2] = true ∧ lexLt [1, 5] [2] = true ∧ lexLt [2, 1] [2] = false := by decide

/-! ### Default second operands -/

/-- `UW` without a number makes two strands, `TM` removes one character at each end. -/
theorem C37_default (v : Val) : opUNWEAVE v none = opUNWEAVE v (some (ofInt 2)) := by
  simp only [opUNWEAVE, ofInt, toInt_showInt]

theorem C50_trim_default (v : Val) : opTRIM v none = opTRIM v (some (ofInt 1)) := by
  have h : ∀ v, trim1 none v = trim1 (some (ofInt 1)) v := by
    intro v
    simp only [trim1, ofInt, toInt_showInt]
  have h' : trim1 none = trim1 (some (ofInt 1)) := funext h
  unfold opTRIM
  split <;> simp only [h']

/-- Stripping nil changes nothing. -/
theorem C50_strip_nil (side : Side) (v : Val) : stripOp X side (some .nil) v = .ok v := by
  cases v <;> rfl

/-! ### C53 -/

/-- What an entry of the tables of `TR` means: a character code and its replacement (`none` deletes), or nothing. -/
inductive TrEntry : Val → Val → Option (Nat × Option Char) → Prop
  | code (i : Nat) (c : Char) : TrEntry (ofInt i) (ofInt c.toNat) (some (i, some c))
  | delete (i : Nat) : TrEntry (ofInt i) .nil (some (i, none))
  | skipOld (v w : Val) : v.isScalar = false → TrEntry v w none
  | skipNew (v w : Val) : w.isScalar = false → w.isNil = false → TrEntry v w none

/-- The replacement of a character: by the last entry for it, and by itself if there is none -/
def TrResult (es : List (Option (Nat × Option Char))) (c : Char) (out : Str) : Prop :=
  (∃ pre post t, es = pre ++ some (c.toNat, t) :: post ∧ (∀ e ∈ post, ∀ u, e ≠ some (c.toNat, u)) ∧ out = t.toList) ∨
  ((∀ e ∈ es, ∀ u, e ≠ some (c.toNat, u)) ∧ out = [c])

theorem trPairs_entries {es : List (Val × Val × Option (Nat × Option Char))} (h : ∀ e ∈ es, TrEntry e.1 e.2.1 e.2.2) :
    trPairs X false false (es.map (·.1)) (es.map (·.2.1)) =
      (es.filterMap (·.2.2)).map fun p => (.int p.1, p.2.map fun c => .int c.toNat) := by
  induction es with
  | nil => rfl
  | cons e es ih =>
    have ih := ih fun e he => h e (List.mem_cons_of_mem _ he)
    obtain ⟨v, w, o⟩ := e
    have h0 : TrEntry v w o := h _ (List.mem_cons_self ..)
    simp only [List.map_cons, trPairs]
    cases h0 with
    | code i c => simp [trEntry, ofInt, toNum_showInt, ih]
    | delete i => simp [trEntry, ofInt, toNum_showInt, ih]
    | skipOld _ _ hv => cases v <;> simp [trEntry, ih] at hv ⊢ <;> simp [Val.isScalar] at hv
    | skipNew _ _ hw hn =>
      have : trEntry X false w = none := by
        cases w <;> first | rfl | (simp [Val.isScalar, Val.isNil] at hw hn)
      rw [this]
      simp only [ih, List.filterMap_cons_none]
      split
      · next h => cases h
      · rfl

/-- With Lists of character codes every character is replaced on its own by the last entry for it; nil deletes, entries
of other types are ignored. -/
theorem C53_codes (es : List (Val × Val × Option (Nat × Option Char))) (h : ∀ e ∈ es, TrEntry e.1 e.2.1 e.2.2) :
    ∃ g : Char → Str, (∀ s, opTRANSLITERATE X (.scalar s) (.list (es.map (·.1))) (.list (es.map (·.2.1))) = .ok (.scalar (s.flatMap g))) ∧
      ∀ c, TrResult (es.map (·.2.2)) c (g c) := by
  let ps := es.filterMap (·.2.2)
  let g : Char → Str := fun c => match ps.reverse.find? fun p => c.toNat == p.1 with
    | some p => p.2.toList
    | none => [c]
  refine ⟨g, ?_, ?_⟩
  · intro s
    have hz : zipPools [.list (es.map (·.1)), .list (es.map (·.2.1))] = .ok [es.map (·.1), es.map (·.2.1)] := by
      rfl
    have hc : ∀ c, trChar X (ps.map fun p => (.int p.1, p.2.map fun c => .int c.toNat)) c = .ok (g c) := by
      intro c
      simp only [trChar, g, ← List.map_reverse, List.find?_map]
      have e : ((fun p : Num X.F × Option (Num X.F) => neq X (.int c.toNat) p.1) ∘
          fun p : Nat × Option Char => ((.int p.1, p.2.map fun c => .int c.toNat) : Num X.F × Option (Num X.F))) =
          fun p => c.toNat == p.1 := by
        funext p
        show decide ((c.toNat : Int) = p.1) = (c.toNat == p.1)
        rw [Bool.eq_iff_iff, decide_eq_true_eq, beq_iff_eq]
        omega
      rw [e]
      cases ps.reverse.find? fun p => c.toNat == p.1 with
      | none => rfl
      | some p =>
        obtain ⟨i, _ | d⟩ := p
        · rfl
        · show (if _ then _ else if _ then _ else _) = _
          have hv : d.toNat < 0xd800 ∨ 0xdfff < d.toNat ∧ d.toNat < 0x110000 := d.valid
          rw [if_neg (by omega), if_neg (by omega), Int.toNat_natCast, Char.ofNat_toNat]
          rfl
    simp only [opTRANSLITERATE, translit, trans1, Val.isIterable, Bool.and_self, if_true, Val.isInf, Bool.false_eq_true,
      if_false, hz, bind, Except.bind, pure, Except.pure, Val.isScalar, trPairs_entries h]
    rw [mapM_ok' _ _ hc]
    rw [List.flatMap_def]
  · intro c
    show TrResult _ _ (match ps.reverse.find? fun p => c.toNat == p.1 with
      | some p => p.2.toList
      | none => [c])
    have key : ∀ (es : List (Option (Nat × Option Char))),
        TrResult es c (match (es.filterMap id).reverse.find? fun p => c.toNat == p.1 with
          | some p => p.2.toList
          | none => [c]) := by
      intro es
      have hid : (fun a : Option (Nat × Option Char) => id a) = id := rfl
      split
      · next p hp =>
        obtain ⟨hc, as, bs, e, ha⟩ := List.find?_eq_some_iff_append.1 hp
        have e' : es.filterMap id = bs.reverse ++ p :: as.reverse := by
          have := congrArg List.reverse e
          simpa using this
        obtain ⟨l1, l2, rfl, e1, e2⟩ := List.filterMap_eq_append_iff.1 e'
        obtain ⟨l3, x, l4, rfl, h3, hx, h4⟩ := List.filterMap_eq_cons_iff.1 e2
        have hp1 : p.1 = c.toNat := (beq_iff_eq.1 hc).symm
        refine .inl ⟨l1 ++ l3, l4, p.2, ?_, ?_, rfl⟩
        · have : x = some (c.toNat, p.2) := by rw [← hp1]; exact hx
          simp [this]
        · rintro y hy u rfl
          have : (c.toNat, u) ∈ as.reverse := by
            rw [← h4]
            exact List.mem_filterMap.2 ⟨_, hy, rfl⟩
          simpa using ha _ (List.mem_reverse.1 this)
      · next hn =>
        refine .inr ⟨?_, rfl⟩
        rintro y hy u rfl
        have := List.find?_eq_none.1 hn (c.toNat, u) (List.mem_reverse.2 (List.mem_filterMap.2 ⟨_, hy, rfl⟩))
        simp at this
    have := key (es.map (·.2.2))
    rwa [List.filterMap_map] at this

-- `TR` with a List: `b` becomes `Z`, `a` is deleted, the entry with a List is ignored
example : opTRANSLITERATE toyExt (.scalar (s% "abcab")) (.list [ofInt 98, ofInt 97, ofInt 99]) (.list [ofInt 90, .nil, .list []]) =
    .ok (.scalar (s% "ZcZ")) := by decide +kernel

end Pip
