import Verif.Lemmas.RexCaptureFind
import Verif.Props.Prefer
import Verif.Props.Splitting
import Verif.Props.Replacing
/-!
# C118: what the groups of a match are, and back-references
-/

namespace Pip
open Re Rex Rex.Cap

theorem cap_fresh {o : COrder} {s : Str} {i a : Nat} : o.first s i false a = (o (s.take a) (s.drop a) .none).head? := by
  cases h : o (s.take a) (s.drop a) .none <;> simp [COrder.first, h]

/-- C118: a search finds the preferred match at the first index where there is one, with the groups that this match sets. -/
theorem C118_search (X : Ext) (db : CharDb) (f : Flags) (t : Str) (k : Nat) (o : COrder) (h : CAlts (reSem db f) (refSame db f) [] 1 t k o)
    (s : Str) :
    ((X.withRe db).search t f s = .ok none ∧ ∀ a, a ≤ s.length → o (s.take a) (s.drop a) .none = []) ∨
    ∃ q g, (X.withRe db).search t f s = .ok (some q) ∧ q.start ≤ s.length ∧ (∀ a, a < q.start → o (s.take a) (s.drop a) .none = []) ∧
      (o (s.take q.start) (s.drop q.start) .none).head? = some (q.all, g) ∧ q.stop = q.start + q.all.length ∧ GroupsAre s (k - 1) g q := by
  obtain ⟨c, hc, hf, rfl⟩ := cap_compile h
  rw [(prefer_calls X hc s).1]
  have hk := seek_cap hf (s := s) (pre := []) (post := s) rfl false
  cases e : seekFrom ⟨db, f⟩ c.rx [] false s with
  | none =>
    rw [e] at hk
    refine .inl ⟨rfl, fun a ha => ?_⟩
    have := hk a (Nat.zero_le _) ha
    rwa [cap_fresh, List.head?_eq_none_iff] at this
  | some x =>
    rw [e] at hk
    obtain ⟨st, q⟩ := x
    obtain ⟨_, h2, h3, ⟨w, g, h4, h5, hg⟩, h6⟩ := hk
    have ha : (mkMatch c.groups s st q).all = w := match_text (by rw [← h5]; exact h6) _ q h5
    refine .inr ⟨_, g, rfl, h2, fun a ha => ?_, ?_, ?_, match_groups hg _⟩
    · have := h3 a (Nat.zero_le _) ha
      rwa [cap_fresh, List.head?_eq_none_iff] at this
    · rw [ha, ← cap_fresh (i := 0)]
      exact h4
    · rw [ha]
      show q.pre.length = st.length + w.length
      rw [h5, List.length_append]

/-- The matches found one after the other -/
theorem C118_finditer (X : Ext) (db : CharDb) (f : Flags) (t : Str) (k : Nat) (o : COrder) (h : CAlts (reSem db f) (refSame db f) [] 1 t k o)
    (s : Str) : ∃ qs, (X.withRe db).finditer t f s = .ok qs ∧ Captured o (k - 1) s 0 false qs := by
  obtain ⟨c, hc, hf, rfl⟩ := cap_compile h
  exact ⟨_, (prefer_calls X hc s).2.2, all_cap hf (mkMatch_makes s _) _ [] s false rfl (by simp)⟩

/-- There is only one such list. -/
theorem C118_unique (o : COrder) (n : Nat) (s : Str) (i : Nat) (adv : Bool) (l l' : List Match) (h : Captured o n s i adv l)
    (h' : Captured o n s i adv l') : l = l' := by
  induction h generalizing l' with
  | done h =>
    cases h' with
    | done _ => rfl
    | more h1 h2 _ h4 => rw [h _ h1 h2] at h4; cases h4
  | more h1 h2 h3 h4 h5 hg _ ih =>
    cases h' with
    | done h => rw [h _ h1 h2] at h4; cases h4
    | @more _ _ q' _ l' g1 g2 g3 g4 g5 gg g6 =>
      rename_i q _ _ _ _
      have e1 : q.start = q'.start := by
        rcases Nat.lt_trichotomy q.start q'.start with hlt | he | hlt
        · rw [g3 _ h1 hlt] at h4; cases h4
        · exact he
        · rw [h3 _ g1 hlt] at g4; cases g4
      rw [e1, g4] at h4
      injection h4 with h4
      obtain ⟨e2, rfl⟩ := Prod.ext_iff.1 h4
      have e2 : q.all = q'.all := e2.symm
      have e3 : q.stop = q'.stop := by rw [h5, g5, e1, e2]
      have e4 : q.groups = q'.groups := hg.1.trans gg.1.symm
      have e5 : q.regs = q'.regs := hg.2.trans gg.2.symm
      rw [ih l' (by rw [e3, e2]; exact g6)]
      congr 1
      cases q
      cases q'
      simp_all

/-- A match of the whole string: the first one in the order that is the whole string -/
theorem C118_fullmatch (X : Ext) (db : CharDb) (f : Flags) (t : Str) (k : Nat) (o : COrder) (h : CAlts (reSem db f) (refSame db f) [] 1 t k o)
    (s : Str) :
    ((X.withRe db).fullmatch t f s = .ok none ∧ ∀ g, (s, g) ∉ o [] s .none) ∨
    ∃ q g, (X.withRe db).fullmatch t f s = .ok (some q) ∧ ((o [] s .none).find? fun x => x.1 == s) = some (s, g) ∧
      q.start = 0 ∧ q.stop = s.length ∧ q.all = s ∧ GroupsAre s (k - 1) g q := by
  obtain ⟨c, hc, hf, rfl⟩ := cap_compile h
  rw [(prefer_calls X hc s).2.1]
  have hsame : ((c.rx.run ⟨db, f⟩ ⟨[], s, []⟩).find? (·.post.isEmpty)).map (placeFrom true) =
      ((o [] s .none).find? fun x => x.1 == s).map (pastFrom [] s) := by
    refine find_same (hf.same _ _) fun q w hw e => ?_
    obtain ⟨x, hx⟩ := hf.part _ _ _ _ hw
    have h2 : q.post = s.drop w.1.length := (Prod.ext_iff.1 (Prod.ext_iff.1 e).2).1
    have h3 : s.drop w.1.length = x := by rw [← hx, List.drop_left]
    rw [h2, h3, Bool.eq_iff_iff, List.isEmpty_iff, beq_iff_eq, ← hx]
    constructor
    · rintro rfl; simp
    · intro e; simpa using e
  cases e : (c.rx.run ⟨db, f⟩ ⟨[], s, []⟩).find? (·.post.isEmpty) with
  | none =>
    rw [e] at hsame
    refine .inl ⟨rfl, fun g hm => ?_⟩
    have := List.find?_eq_none.1 (Option.map_eq_none_iff.1 hsame.symm) (s, g) hm
    simp at this
  | some q =>
    rw [e] at hsame
    obtain ⟨⟨w, g⟩, h1, h2⟩ := Option.map_eq_some_iff.1 hsame.symm
    obtain rfl : w = s := by simpa using List.find?_some h1
    obtain ⟨h3, h4⟩ := Prod.ext_iff.1 h2
    have h3 : q.pre = w := by simpa [pastFrom, placeFrom] using h3.symm
    have h5 := (Prod.ext_iff.1 h4).2
    refine .inr ⟨_, g, rfl, h1, rfl, ?_, match_text (st := []) (post := []) (by simp) _ q (by simpa using h3),
      match_groups (fun j => (congrFun h5 j).symm) _⟩
    show q.pre.length = w.length
    rw [h3]

/-- Without the groups it is the order of C117. -/
theorem C118_prefer (db : CharDb) (f : Flags) (t : Str) (k : Nat) (o : COrder) (h : CAlts (reSem db f) (refSame db f) [] 1 t k o) (o' : Order)
    (h' : PAlts (reSem db f) t o') (pre rest : Str) : (o pre rest .none).map (·.1) = o' pre rest := by
  obtain ⟨c, hc, hf, _⟩ := cap_compile h
  obtain ⟨c', hc', hf', _⟩ := prefer_compile h'
  obtain rfl : c = c' := by rw [hc] at hc'; injection hc'
  have e1 := congrArg (List.map fun x : Str × Str × Re.Groups => x.1) (hf.same pre rest)
  have e2 := congrArg (List.map fun x : Str × Str => x.1) (hf'.same ⟨pre, rest, []⟩)
  rw [List.map_map, List.map_map] at e1 e2
  have e3 : (o pre rest .none).map (fun x => pre ++ x.1) = (o' pre rest).map fun w => pre ++ w := e1.symm.trans e2
  have e4 := congrArg (List.map fun x : Str => x.drop pre.length) e3
  simpa [Function.comp_def] using e4

/-- Every text without back-references has such an order. -/
theorem C118_total (db : CharDb) (f : Flags) (t : Str) (o : Order) (h : PAlts (reSem db f) t o) :
    ∃ k o', CAlts (reSem db f) (refSame db f) [] 1 t k o' ∧ ∀ pre rest, (o' pre rest .none).map (·.1) = o pre rest := by
  obtain ⟨k, o', ho⟩ := cap_exists h [] 1
  exact ⟨k, o', ho, fun pre rest => C118_prefer db f t k o' ho o h pre rest⟩

theorem cap_le {S : Sem} {eq : Char → Char → Prop} {l : List Nat} {k k' : Nat} {t : Str} {o : COrder} (h : CAlts S eq l k t k' o) : k ≤ k' :=
  CAlts.rec (motive_1 := fun _ k _ k' _ _ => k ≤ k') (motive_2 := fun _ k _ k' _ _ => k ≤ k') (motive_3 := fun _ k _ k' _ _ => k ≤ k')
    (motive_4 := fun _ k _ k' _ _ => k ≤ k')
    (fun _ => Nat.le_refl _) (fun _ ih => ih) (fun _ ih => by omega) (fun _ _ _ _ => Nat.le_refl _) (fun _ ih => ih) (fun _ ih => ih)
    (fun _ => Nat.le_refl _) (fun _ => Nat.le_refl _) (fun _ ih => ih) (fun _ => Nat.le_refl _) (fun _ _ ih => ih) (fun _ _ ih => ih)
    (Nat.le_refl _) (fun _ _ _ ih1 ih2 => Nat.le_trans ih1 ih2) (fun _ ih => ih) (fun _ _ ih1 ih2 => Nat.le_trans ih1 ih2) h

/-- The number of groups, with and without the group for the whole text -/
theorem C118_count (db : CharDb) (f : Flags) (t : Str) (k : Nat) (o : COrder) (h : CAlts (reSem db f) (refSame db f) [] 1 t k o) :
    Pip.Groups t (k - 1) ∧ SepGroups t (k - 1) := by
  have hk := cap_le h
  obtain ⟨c, hc, _, hg⟩ := cap_compile h
  obtain ⟨c', hc', _, hg'⟩ := cap_compile_raw h
  exact ⟨⟨c, hc, by omega⟩, c', hc', hg'⟩

/-- `s R p t` with a Pattern `t`: each match is replaced by the text of the template, with the groups as they are in the match. -/
theorem C118_replace (X : Ext) (db : CharDb) (a b c : Tree) (s s1 s2 s3 : St (X.withRe db)) (str r t : Str) (f f' : Flags) (k : Nat) (o : COrder)
    (g : Match → Str) (ha : a.notOpr = true) (hb : b.notOpr = true) (hc : c.notOpr = true)
    (hv : Vals a s (.ok (.scalar str), s1)) (hw : Vals b s1 (.ok (.pattern r f), s2)) (hu : Vals c s2 (.ok (.pattern t f'), s3))
    (h : CAlts (reSem db f) (refSame db f) [] 1 r k o) (ht : Template (k - 1) t g) :
    ∃ ms, Captured o (k - 1) str 0 false ms ∧
      Vals (.node (op3 (s% "R")) [a, b, c]) s (.ok (.scalar (replaced g str 0 ms)), s3) := by
  obtain ⟨ms, h1, h2⟩ := C118_finditer X db f r k o h str
  obtain ⟨ms', h3, h4⟩ := C97_pattern a b c s s1 s2 s3 str r t f f' (k - 1) g ha hb hc hv hw hu (C118_count db f r k o h).1 ht
  rw [h1] at h3
  injection h3 with h3
  exact ⟨ms, h2, h3 ▸ h4⟩

/-! ### C103: splitting with groups -/

/-- The parts before, between and after the matches, and after each part but the last the groups of the match there -/
def withGroups (s : Str) : Nat → List Match → List (Option Str)
  | i, [] => [some (s.drop i)]
  | i, q :: l => some ((s.take q.start).drop i) :: (q.groups ++ withGroups s q.stop l)

theorem pieces_groups (k : Nat) (s : Str) (l : List (Str × Pos)) : ∀ i, pieces k s i l = withGroups s i (l.map fun x => mkRaw k s x.1 x.2) := by
  induction l with
  | nil => intro i; rfl
  | cons x l ih =>
    intro i
    rw [pieces, ih, List.map_cons, withGroups, between_eq]
    rfl

theorem split_groups_vals {X : Ext} {a b : Tree} {s s1 s2 : St X} {str r : Str} {f : Flags} {ps : List (Option Str)} (ha : a.notOpr = true)
    (hb : b.notOpr = true) (hv : Vals a s (.ok (.scalar str), s1)) (hp : Vals b s1 (.ok (.pattern r f), s2)) (hr : r ≠ [])
    (h : X.split r f str = .ok ps) :
    Vals (.node (op2 (s% "^")) [a, b]) s (.ok (.list (ps.map fun p => .scalar (p.getD (s% "None")))), s2) := by
  have hd : (op2 (s% "^")).Rvals := by constructor <;> decide +kernel
  have hf : (op2 (s% "^")).fn = .SPLIT := by decide +kernel
  refine .of_evals ((evals_direct hd (by rw [hf]; rfl) (by simp [ha, hb]) (mapEach_two hv hp) (by simp [Val.isBlock])
      (by simp [expands, Val.isRange, Val.isList])).2 ⟨(.ok (.v (.list (ps.map fun p => .scalar (p.getD (s% "None"))))), s2), ?_, rfl⟩)
  have key : opSPLIT X (.scalar str) (some (.pattern r f)) = .ok (.list (ps.map fun p => .scalar (p.getD (s% "None")))) := by
    cases r with
    | nil => exact absurd rfl hr
    | cons c r =>
      show (X.split (c :: r) f str >>= _) = _
      rw [except_of_ok h]
      rfl
  have hw : ∀ R : Rec X, valOp R .SPLIT [.scalar str, .pattern r f] = liftOpt (some <$> opSPLIT X (.scalar str) (some (.pattern r f))) := fun _ => rfl
  rw [hf]
  simp only [hw, key]
  exact runs_of_eq rfl

/-- C103: `s ^ p` with any groups and back-references: the parts between the matches, with the groups of each match between them; for a
group that is not set the text `None`. -/
theorem C103_groups (X : Ext) (db : CharDb) (a b : Tree) (s s1 s2 : St (X.withRe db)) (str r : Str) (f : Flags) (k : Nat) (o : COrder)
    (ha : a.notOpr = true) (hb : b.notOpr = true) (hv : Vals a s (.ok (.scalar str), s1)) (hp : Vals b s1 (.ok (.pattern r f), s2))
    (hr : r ≠ []) (h : CAlts (reSem db f) (refSame db f) [] 1 r k o) :
    ∃ ms, Captured o (k - 1) str 0 false ms ∧ Vals (.node (op2 (s% "^")) [a, b]) s
      (.ok (.list ((withGroups str 0 ms).map fun p => .scalar (p.getD (s% "None")))), s2) := by
  obtain ⟨c, hc, hf, hg⟩ := cap_compile_raw h
  refine ⟨_, all_cap hf (mkRaw_makes str (k - 1)) (2 * str.length + 2) [] str false rfl (by simp), split_groups_vals ha hb hv hp hr ?_⟩
  show reCall (compileRe r >>= _) _ = _
  rw [except_of_ok hc, Compiled.split, hg, pieces_groups]
  rfl

/-- The numbers of back-references count the groups here, too. -/
example : reOut (s% "(\"a--b++c-d\"^`([-+])(\\1)`)J\"|\"") = some (s% "a|-|-|b|+|+|c-d\n") := by decide +kernel
example : reOut (s% "(\"a,b;c\"^`(,)|(;)`)J\"|\"") = some (s% "a|,|None|b|None|;|c\n") := by decide +kernel

/-- `(a|b)(?:\1c)*` has a back-reference in a repetition. -/
example (db : CharDb) (f : Flags) : CAlts (reSem db f) (refSame db f) [] 1 (s% "(a|b)(?:\\1c)*") 2
    (((((COrder.chr ((reSem db f).lit 'a')).seq .eps).alt ((COrder.chr ((reSem db f).lit 'b')).seq .eps)).capture 1).seq
      ((((COrder.ref (refSame db f) 1).seq ((COrder.chr ((reSem db f).lit 'c')).seq .eps)).times true 0 none).seq .eps)) :=
  .one (.cons (t := s% "(a|b)") (u := s% "(?:\\1c)*")
    (.one (.capture (t := s% "a|b") (.more (t := s% "a") (u := s% "b") (.cons (t := s% "a") (u := []) (.one (.one (.lit rfl))) .nil (by rintro _ _ _ _ _ _ ⟨⟩))
      (.one (.cons (t := s% "b") (u := []) (.one (.one (.lit rfl))) .nil (by rintro _ _ _ _ _ _ ⟨⟩))))))
    (.cons (t := s% "(?:\\1c)*") (u := []) (.greedy (t := s% "(?:\\1c)") (q := s% "*") (.group (t := s% "\\1c")
      (.one (.cons (t := s% "\\1") (u := s% "c") (.one (.ref (n := 1) (by decide) (by decide) (by decide) (by simp)))
        (.cons (t := s% "c") (u := []) (.one (.one (.lit rfl))) .nil (by rintro _ _ _ _ _ _ ⟨⟩)) (by rintro _ _ _ _ _ _ ⟨⟩; decide)))) .star) .nil
      (by rintro _ _ _ _ _ _ ⟨⟩)) (by rintro n _ _ hn; cases hn))

example : reExt.search (s% "(a|b)(?:\\1c)*") {} (s% "xbbcbcac") = .ok (some ⟨1, 6, s% "bbcbc", [some (s% "b")], [(1, 2)]⟩) := by decide +kernel
example : reOut (s% "\"abba cddc xyz\"R`(.)(.)\\2\\1``<\\2>`") = some (s% "<b> <d> xyz\n") := by decide +kernel
example : reOut (s% "\"xyz abz\"R`(\\w)(\\w)(?=z)``\\2\\1`") = some (s% "yxz baz\n") := by decide +kernel
/-- a group keeps its text if it is not tried or fails in a later time -/
example : reExt.search (s% "(?:(a)|b)*") {} (s% "ab") = .ok (some ⟨0, 2, s% "ab", [some (s% "a")], [(0, 1)]⟩) := by decide +kernel
example : reExt.search (s% "((a)b|(c))+\\2") {} (s% "abca") =
    .ok (some ⟨0, 4, s% "abca", [some (s% "c"), some (s% "a"), some (s% "c")], [(2, 3), (0, 1), (2, 3)]⟩) := by decide +kernel
/-- a reference to a group that is not set does not match -/
example : reExt.search (s% "(?:(a)|b)\\1") {} (s% "bba") = .ok none := by decide +kernel
/-- the groups of something that follows stay set -/
example : reExt.search (s% "(?=(a+))a*b\\1") {} (s% "baaabac") = .ok (some ⟨3, 6, s% "aba", [some (s% "a")], [(3, 4)]⟩) := by decide +kernel
example : reExt.search (s% "(a)\\1") { i := true } (s% "xaA") = .ok (some ⟨1, 3, s% "aA", [some (s% "a")], [(1, 2)]⟩) := by decide +kernel
example : reExt.fullmatch (s% "(a|ab)(c|bcd)*") {} (s% "abcd") = .ok (some ⟨0, 4, s% "abcd", [some (s% "a"), some (s% "bcd")], [(0, 1), (1, 4)]⟩) := by
  decide +kernel

end Pip
