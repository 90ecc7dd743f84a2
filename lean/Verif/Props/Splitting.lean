import Verif.Props.Stripping
/-!
# C103: splitting with Patterns
-/

namespace Pip
open Re Rex

variable {X : Ext} {db : CharDb}

/-- The parts of a string before, between and after some matches -/
def gaps (s : Str) : Nat → List Match → List Str
  | i, [] => [s.drop i]
  | i, q :: l => (s.take q.start).drop i :: gaps s q.stop l

/-- Two lists, alternating -/
def alternating : List Str → List Str → List Str
  | g :: gs, q :: qs => g :: q :: alternating gs qs
  | gs, [] => gs
  | [], _ :: _ => []

/-- There is one part more than there are matches; -/
theorem C103_count (s : Str) (i : Nat) (ms : List Match) : (gaps s i ms).length = ms.length + 1 := by
  induction ms generalizing i with
  | nil => rfl
  | cons q l ih => rw [gaps, List.length_cons, ih, List.length_cons]

/-- with the matches put back the string is complete. -/
theorem C103_complete {m : Meaning} {s : Str} {i : Nat} {adv : Bool} {ms : List Match} (h : Matches m s i adv ms) :
    (alternating (gaps s i ms) (ms.map (·.all))).flatten = s.drop i := by
  induction h with
  | done _ => simp [gaps, alternating]
  | @more i adv q l hm hq hn _ _ ih =>
    rw [gaps, List.map_cons, alternating, List.flatten_cons, List.flatten_cons, ih, hq, ← List.append_assoc, drop_take_append hn.1 hm.1]
    have := drop_take_append (s := s) (i := i) (j := q.stop) (k := max q.stop s.length) (by have := hn.1; have := hm.1; omega) (by omega)
    rwa [List.take_of_length_le (Nat.le_max_right _ _)] at this

/-- The number of groups of a Pattern -/
def SepGroups (r : Str) (n : Nat) : Prop := ∃ c, compileRe r = .ok c ∧ c.groups = n

theorem pieces_zero (s : Str) (k : Nat) (l : List (Str × Pos)) : ∀ i, pieces 0 s i l = (gaps s i (l.map fun x => mkMatch k s x.1 x.2)).map some := by
  induction l with
  | nil => intro i; rfl
  | cons x l ih =>
    intro i
    rw [pieces, ih, List.map_cons, gaps, between_eq]
    rfl

theorem pieces_one (s : Str) (k : Nat) (l : List (Str × Pos)) (hl : ∀ x ∈ l, x.2.caps.lookup 1 = some (x.1.length, x.2.pre.length)) :
    ∀ i, pieces 1 s i l = (alternating (gaps s i (l.map fun x => mkMatch k s x.1 x.2)) ((l.map fun x => mkMatch k s x.1 x.2).map (·.all))).map some := by
  induction l with
  | nil => intro i; rfl
  | cons x l ih =>
    intro i
    have e : (List.range 1).map (fun j => x.2.group s (j + 1)) = [some (between s x.1.length x.2.pre.length)] := by
      rw [List.range_one, List.map_singleton, Pos.group, hl x (List.mem_cons_self ..)]
      rfl
    rw [pieces, ih fun y hy => hl y (List.mem_cons_of_mem _ hy), List.map_cons, gaps, List.map_cons, alternating, between_eq, e]
    rfl

/-! ### The operator -/

theorem split_vals {a b : Tree} {s s1 s2 : St X} {str r : Str} {f : Flags} {ps : List Str} (ha : a.notOpr = true) (hb : b.notOpr = true)
    (hv : Vals a s (.ok (.scalar str), s1)) (hp : Vals b s1 (.ok (.pattern r f), s2)) (hr : r ≠ []) (h : X.split r f str = .ok (ps.map some)) :
    Vals (.node (op2 (s% "^")) [a, b]) s (.ok (.list (ps.map .scalar)), s2) := by
  have hd : (op2 (s% "^")).Rvals := by constructor <;> decide +kernel
  have hf : (op2 (s% "^")).fn = .SPLIT := by decide +kernel
  refine .of_evals ((evals_direct hd (by rw [hf]; rfl) (by simp [ha, hb]) (mapEach_two hv hp) (by simp [Val.isBlock])
      (by simp [expands, Val.isRange, Val.isList])).2 ⟨(.ok (.v (.list (ps.map .scalar))), s2), ?_, rfl⟩)
  have key : opSPLIT X (.scalar str) (some (.pattern r f)) = .ok (.list (ps.map .scalar)) := by
    cases r with
    | nil => exact absurd rfl hr
    | cons c r =>
      show (X.split (c :: r) f str >>= _) = _
      rw [except_of_ok h]
      show Except.ok (Val.list _) = _
      rw [List.map_map]
      rfl
  have hw : ∀ R : Rec X, valOp R .SPLIT [.scalar str, .pattern r f] = liftOpt (some <$> opSPLIT X (.scalar str) (some (.pattern r f))) := fun _ => rfl
  rw [hf]
  simp only [hw, key]
  exact runs_of_eq rfl

/-- C103: `s ^ p` with a Pattern without groups is the List of the parts between the matches. -/
theorem C103_split (X : Ext) (a b : Tree) (s s1 s2 : St (X.withRe db)) (str r : Str) (f : Flags) (m : Meaning)
    (ha : a.notOpr = true) (hb : b.notOpr = true) (hv : Vals a s (.ok (.scalar str), s1)) (hp : Vals b s1 (.ok (.pattern r f), s2))
    (hr : r ≠ []) (hm : Alts (reSem db f) r m) (hg : SepGroups r 0) :
    ∃ ms, Matches m str 0 false ms ∧ Vals (.node (op2 (s% "^")) [a, b]) s (.ok (.list ((gaps str 0 ms).map .scalar)), s2) := by
  obtain ⟨c, hc, h1⟩ := compileRe_alts hm
  obtain ⟨c', hc', hg⟩ := hg
  rw [hc] at hc'
  cases hc'
  have ht := Rx.tracks ⟨db, f⟩ c.rx h1.noRef
  rw [h1.den] at ht
  refine ⟨_, allFrom_spec ht c.groups str (2 * str.length + 2) [] str false rfl (by simp), split_vals ha hb hv hp hr ?_⟩
  show reCall (compileRe r >>= _) _ = _
  rw [except_of_ok hc, Compiled.split, hg, pieces_zero str 0]
  rfl

/-- If the whole Pattern is a group, the matches are in the List too, between the parts; so joined it gives the string. -/
theorem C103_keep (X : Ext) (a b : Tree) (s s1 s2 : St (X.withRe db)) (str r : Str) (f : Flags) (m : Meaning)
    (ha : a.notOpr = true) (hb : b.notOpr = true) (hv : Vals a s (.ok (.scalar str), s1))
    (hp : Vals b s1 (.ok (.pattern (s% "(" ++ r ++ s% ")") f), s2)) (hm : Alts (reSem db f) r m) (hg : SepGroups (s% "(" ++ r ++ s% ")") 1) :
    ∃ ms ps, Matches m str 0 false ms ∧ ps = alternating (gaps str 0 ms) (ms.map (·.all)) ∧ ps.flatten = str ∧
      Vals (.node (op2 (s% "^")) [a, b]) s (.ok (.list (ps.map .scalar)), s2) := by
  obtain ⟨r', C, h1, h2, _⟩ := parse_alts_ok hm (4 * (s% "(" ++ r ++ s% ")").length + 1) ({} : Ctx).push (s% ")") (by simp; omega)
    (by rintro _ _ ⟨⟩; rfl)
  have hc : compileRe (s% "(" ++ r ++ s% ")") = .ok ⟨.seq (.cap 1 r') .eps, (C.pop {}).next - 1, (C.pop {}).names⟩ := by
    have e : s% "(" ++ r ++ s% ")" = '(' :: (r ++ s% ")") := rfl
    have hq : ∀ x, r ++ s% ")" ≠ '?' :: x := by
      intro x hx
      rcases hm.head class_head with rfl | ⟨c, u, rfl, hc⟩
      · exact absurd (List.cons.inj hx).1 (by decide)
      · obtain ⟨rfl, _⟩ := List.cons.inj hx
        exact absurd hc (by decide)
    unfold compileRe
    generalize 4 * (s% "(" ++ r ++ s% ")").length = n at h1
    rw [e]
    have h3 : parseAtom (n + 2) {} '(' (r ++ s% ")") = .ok (.cap 1 r', false, C.pop {}, []) := by
      simp only [parseAtom, show ('(' : Char) ≠ '.' by decide, show ('(' : Char) ≠ '^' by decide, show ('(' : Char) ≠ '$' by decide,
        show ('(' : Char) ≠ '\\' by decide, show ('(' : Char) ≠ '[' by decide, if_false, if_true]
      simp [h1, closing, bind, Except.bind, pure, Except.pure]
    have h4 : parseAlts (n + 4) {} ('(' :: (r ++ s% ")")) = .ok (.seq (.cap 1 r') .eps, C.pop {}, []) := by
      rw [parseAlts, parseBranch]
      simp only [show ¬ (('(' : Char) = '|' ∨ ('(' : Char) = ')') by decide, if_false]
      rw [h3]
      rfl
    rw [h4]
    rfl
  obtain ⟨c', hc', hg⟩ := hg
  rw [hc] at hc'
  cases hc'
  have ht := tracks_all h2
  have hms := allFrom_spec ht 1 str (2 * str.length + 2) [] str false rfl (by simp)
  refine ⟨_, _, hms, rfl, C103_complete hms, split_vals ha hb hv hp (by simp) ?_⟩
  show reCall (compileRe (s% "(" ++ r ++ s% ")") >>= _) _ = _
  rw [except_of_ok hc, Compiled.split, hg, Compiled.all, pieces_one str 1 _ fun x hx => all_caps _ hx]
  rfl

/-- A group that takes no part in a match is put into the List as the text `None`. -/
theorem C103_none : opSPLIT reExt (.scalar (s% "xby")) (some (.pattern (s% "(a)|b") {})) = .ok (.list [.scalar (s% "x"), .scalar (s% "None"), .scalar (s% "y")]) := by
  decide +kernel

/-- A Pattern without parentheses has no groups. -/
example : SepGroups (s% "[,;]\\s*") 0 := ⟨_, rfl, by decide +kernel⟩
example : SepGroups (s% "(\\d+|x)") 1 := ⟨_, rfl, by decide +kernel⟩
example : reOut (s% "(\"a,b;  c\"^`[,;]\\s*`)J\"|\"") = some (s% "a|b|c\n") := by decide +kernel
example : reOut (s% "(\"a12bxc\"^`(\\d+|x)`)J\"|\"") = some (s% "a|12|b|x|c\n") := by decide +kernel

end Pip
