import Verif.Props.Replacing
/-!
# C102: stripping with Patterns

`s |> p`, `s <| p` and `s || p` with a Pattern `p` whose text is a concatenation (no `|` outside of parentheses).
-/

namespace Pip
open Re Rex

variable {X : Ext} {db : CharDb}

/-- Matches that are not empty are removed from the beginning until there are none. -/
inductive StripsLeft (m : Meaning) : Str → Str → Prop
  | done {s : Str} : (∀ w rest, s = w ++ rest → m [] w rest → w = []) → StripsLeft m s s
  | step {w rest t : Str} : w ≠ [] → m [] w rest → StripsLeft m rest t → StripsLeft m (w ++ rest) t

/-- The places that count as the end of a string: its end and the place before a newline that is the last character -/
def AtEnd (post : Str) : Prop := post = [] ∨ post = ['\n']

/-- Matches that are not empty are removed from the end until there are none. What is before a newline at the end counts
as being at the end; so in one round two matches can be removed, one before the newline and the newline. -/
inductive StripsRight (m : Meaning) : Str → Str → Prop
  | done {s : Str} : (∀ u w post, s = u ++ w ++ post → AtEnd post → m u w post → w = []) → StripsRight m s s
  | step {u w post t : Str} : w ≠ [] → AtEnd post → m u w post → StripsRight m (u ++ post) t → StripsRight m (u ++ w ++ post) t
  | two {u w t : Str} : w ≠ [] → m u w ['\n'] → m (u ++ w) ['\n'] [] → StripsRight m u t → StripsRight m (u ++ w ++ ['\n']) t

/-! ### One round -/

/-- A text of the grammar is compiled to an expression with the meaning. -/
theorem compileRe_alts {f : Flags} {raw : Str} {m : Meaning} (h : Alts (reSem db f) raw m) :
    ∃ c, compileRe raw = .ok c ∧ c.rx.Means db f m := by
  obtain ⟨r, C, h1, h2, _⟩ := parse_alts_ok h (4 * raw.length + 4) {} [] (by omega) (by rintro _ _ ⟨⟩)
  rw [List.append_nil] at h1
  refine ⟨⟨r, C.next - 1, C.names⟩, ?_, h2⟩
  rw [compileRe, except_of_ok h1]
  rfl

/-- One round removes the matches. -/
theorem resub_alts (X : Ext) {raw : Str} {m : Meaning} (h : Alts (reSem db {}) raw m) (s : Str) :
    ∃ ms, Matches m s 0 false ms ∧ (X.withRe db).resub raw s = .ok (replaced (fun _ => []) s 0 ms) := by
  obtain ⟨c, hc, hm⟩ := compileRe_alts h
  have ht := Rx.tracks ⟨db, {}⟩ c.rx hm.noRef
  rw [hm.den] at ht
  refine ⟨_, allFrom_spec ht c.groups s (2 * s.length + 2) [] s false rfl (by simp), ?_⟩
  show reCall (compileRe raw >>= _) _ = _
  rw [except_of_ok hc]
  have := sub_literal ⟨db, {}⟩ c [] s
  rw [show replaceStr (s% "\\") (s% "\\\\") [] = [] from rfl] at this
  rw [this]
  rfl

theorem branch_snoc {S : Sem} {t u : Str} {m k : Meaning} (h : Branch S t m) (hk : Piece S u k) : Branch S (t ++ u) (m.seq k) := by
  have := h.append (.cons hk .nil)
  rwa [List.append_nil, Meaning.seq_eps] at this

/-- The rest of a string from an index on with some matches removed, none of them empty; if nothing is removed, there is none. -/
inductive Cuts (m : Meaning) (s : Str) : Nat → Str → Prop
  | none {i : Nat} : (∀ a b, MatchAt m s a b → i ≤ a → a = b) → Cuts m s i (s.drop i)
  | one {i a b : Nat} {t : Str} : i ≤ a → a < b → MatchAt m s a b → Cuts m s b t → Cuts m s i ((s.take a).drop i ++ t)

theorem drop_take_append {s : Str} {i j k : Nat} (h1 : i ≤ j) (h2 : j ≤ k) : (s.take j).drop i ++ (s.take k).drop j = (s.take k).drop i := by
  have : (s.take k).drop j = ((s.take k).drop i).drop (j - i) := by rw [List.drop_drop]; congr 1; omega
  rw [this, show (s.take j).drop i = ((s.take k).drop i).take (j - i) by rw [List.take_drop, List.take_take]; congr 2; omega,
    List.take_append_drop]

theorem cuts {m : Meaning} {s : Str} {i : Nat} {adv : Bool} {ms : List Match} (h : Matches m s i adv ms) :
    Cuts m s i (replaced (fun _ => []) s i ms) := by
  induction h with
  | done h =>
    refine .none fun a b hm hi => Classical.byContradiction fun hne => h a b hm ⟨hi, fun _ hai hb => hne (by omega)⟩
  | @more i adv q l hm _ hn hmin _ ih =>
    rw [replaced, List.append_nil]
    by_cases hq : q.start = q.stop
    · generalize replaced (fun _ => []) s q.stop l = t at ih
      have h1 := hn.1
      have key : ∀ a b, MatchAt m s a b → i ≤ a → a ≠ b → q.stop ≤ a := fun a b h2 h3 h4 => by
        rw [← hq]
        exact hmin a b h2 ⟨h3, fun _ hai hb => h4 (by omega)⟩
      cases ih with
      | none h =>
        have : (s.take q.start).drop i ++ s.drop q.stop = s.drop i := by
          rw [hq]
          have := drop_take_append (s := s) (i := i) (j := q.stop) (k := max q.stop s.length) (by omega) (by omega)
          rwa [List.take_of_length_le (Nat.le_max_right _ _)] at this
        rw [this]
        exact .none fun a b h2 h3 => Classical.byContradiction fun h4 => h4 (h a b h2 (key a b h2 h3 h4))
      | @one _ a b t h2 h3 h4 h5 =>
        rw [← List.append_assoc, hq, drop_take_append (by omega) h2]
        exact .one (by omega) h3 h4 h5
    · exact .one hn.1 (by have := hm.1; omega) hm ih

theorem matchAt_left {k : Meaning} {s : Str} {i j : Nat} : MatchAt ((Meaning.pos (reSem db {}).bol).seq k) s i j ↔
    i = 0 ∧ j ≤ s.length ∧ k [] (s.take j) (s.drop j) := by
  constructor
  · rintro ⟨h1, h2, u, v, h3, ⟨rfl, h4 | ⟨h4, _⟩⟩, h5⟩
    · have hi : i = 0 := by
        have := congrArg List.length h4
        rw [List.length_take, List.length_nil] at this
        omega
      subst hi
      refine ⟨rfl, h2, ?_⟩
      simp only [List.drop_zero, List.nil_append, List.take_zero, List.append_nil] at h3 h5
      rw [h3]
      exact h5
    · cases h4
  · rintro ⟨rfl, h1, h2⟩
    exact ⟨Nat.zero_le _, h1, [], s.take j, by simp, ⟨rfl, .inl rfl⟩, by simpa using h2⟩

theorem matchAt_right {k : Meaning} {s : Str} {i j : Nat} : MatchAt (k.seq (Meaning.pos (reSem db {}).eol)) s i j ↔
    i ≤ j ∧ j ≤ s.length ∧ AtEnd (s.drop j) ∧ k (s.take i) ((s.take j).drop i) (s.drop j) := by
  constructor
  · rintro ⟨h1, h2, u, v, h3, h4, rfl, h5⟩
    rw [List.append_nil] at h3
    rw [← h3] at h4
    refine ⟨h1, h2, ?_, h4⟩
    rcases h5 with h5 | h5 | ⟨h5, _⟩
    · exact .inl h5
    · exact .inr h5
    · cases h5
  · rintro ⟨h1, h2, h3, h4⟩
    refine ⟨h1, h2, _, [], by simp, h4, rfl, ?_⟩
    rcases h3 with h3 | h3
    · exact .inl h3
    · exact .inr (.inl h3)

/-- One round from the left -/
theorem left_round {k : Meaning} {s t : Str} (h : Cuts ((Meaning.pos (reSem db {}).bol).seq k) s 0 t) :
    t = s ∧ (∀ w rest, s = w ++ rest → k [] w rest → w = []) ∨ ∃ w, w ≠ [] ∧ k [] w t ∧ s = w ++ t := by
  cases h with
  | none h =>
    refine .inl ⟨rfl, ?_⟩
    rintro w rest rfl hk
    have := h 0 w.length (matchAt_left.2 ⟨rfl, by simp, by simpa using hk⟩) (Nat.zero_le _)
    exact List.length_eq_zero_iff.1 this.symm
  | @one _ a b t h1 h2 h3 h4 =>
    obtain ⟨rfl, h5, h6⟩ := matchAt_left.1 h3
    refine .inr ⟨s.take b, ?_, ?_⟩
    · intro he
      have := congrArg List.length he
      rw [List.length_take, List.length_nil] at this
      omega
    · cases h4 with
      | none _ => exact ⟨by simpa using h6, by simp⟩
      | one h7 _ h8 _ =>
        have := (matchAt_left.1 h8).1
        omega

/-- One round from the right -/
theorem right_round {k : Meaning} {s t : Str} (h : Cuts (k.seq (Meaning.pos (reSem db {}).eol)) s 0 t) :
    t = s ∧ (∀ u w post, s = u ++ w ++ post → AtEnd post → k u w post → w = []) ∨
    (∃ u w post, w ≠ [] ∧ AtEnd post ∧ k u w post ∧ s = u ++ w ++ post ∧ t = u ++ post) ∨
    ∃ w, w ≠ [] ∧ k t w ['\n'] ∧ k (t ++ w) ['\n'] [] ∧ s = t ++ w ++ ['\n'] := by
  cases h with
  | none h =>
    refine .inl ⟨rfl, ?_⟩
    rintro u w post rfl he hk
    have := h u.length (u.length + w.length) (matchAt_right.2 ⟨by omega, by simp, ?_, ?_⟩) (Nat.zero_le _)
    · exact List.length_eq_zero_iff.1 (by omega)
    · simpa using he
    · rw [show u.length + w.length = (u ++ w).length by simp, List.take_left, List.drop_left, List.drop_left, List.append_assoc, List.take_left]
      exact hk
  | @one _ a b t h1 h2 h3 h4 =>
    obtain ⟨h5, h6, h7, h8⟩ := matchAt_right.1 h3
    have hs : s = s.take a ++ (s.take b).drop a ++ s.drop b := by
      have := drop_take_append (s := s) (Nat.zero_le a) h5
      rw [List.drop_zero, List.drop_zero] at this
      rw [this, List.take_append_drop]
    have hw : (s.take b).drop a ≠ [] := by
      intro he
      have := congrArg List.length he
      rw [List.length_drop, List.length_take, List.length_nil] at this
      omega
    cases h4 with
    | none _ => exact .inr (.inl ⟨s.take a, _, s.drop b, hw, h7, h8, hs, by simp⟩)
    | @one _ a' b' t' h9 h10 h11 h12 =>
      obtain ⟨h13, h14, h15, h16⟩ := matchAt_right.1 h11
      have hlen := congrArg List.length hs
      rw [List.length_append, List.length_append, List.length_take, List.length_drop, List.length_take] at hlen
      rcases h7 with h7 | h7
      · rw [List.drop_eq_nil_iff] at h7
        omega
      · have hb : s.length = b + 1 := by
          have := congrArg List.length h7
          rw [List.length_drop, List.length_singleton] at this
          omega
        have ha' : a' = b := by omega
        have hb' : b' = b + 1 := by omega
        subst ha' hb'
        have e1 : s.drop (a' + 1) = [] := by rw [List.drop_eq_nil_iff]; omega
        have e2 : s.take (a' + 1) = s := List.take_of_length_le (by omega)
        cases h12 with
        | none _ =>
          rw [e1, e2, h7] at h16
          rw [h7] at h8
          refine .inr (.inr ⟨(s.take a').drop a, hw, ?_⟩)
          have e3 : (s.take a).drop 0 ++ ((s.take a').drop a' ++ s.drop (a' + 1)) = s.take a := by
            rw [e1]
            simp
          rw [e3]
          refine ⟨h8, ?_, ?_⟩
          · have := drop_take_append (s := s) (Nat.zero_le a) h5
            rw [List.drop_zero, List.drop_zero] at this
            rw [this]
            exact h16
          · rw [← h7]
            exact hs
        | one h17 h18 h19 _ =>
          have := (matchAt_right.1 h19).2.1
          omega

/-! ### All rounds -/

theorem left_loop (X : Ext) {r : Str} {k : Meaning} (h : Branch (reSem db {}) r k) : ∀ (n : Nat) (s : Str), s.length < n →
    ∃ t, resubLoop (X.withRe db) ('^' :: r) n s = .ok t ∧ StripsLeft k s t := by
  intro n
  induction n with
  | zero => intro s h; omega
  | succ n ih =>
    intro s hn
    obtain ⟨ms, h1, h2⟩ := resub_alts X (.one (Branch.cons .bol h)) s
    rw [List.singleton_append] at h2
    have h3 := left_round (cuts h1)
    generalize replaced (fun _ => []) s 0 ms = t at h2 h3
    have e : resubLoop (X.withRe db) ('^' :: r) (n + 1) s = if t = s then .ok s else resubLoop (X.withRe db) ('^' :: r) n t := by
      rw [resubLoop, except_of_ok h2]
      rfl
    rw [e]
    rcases h3 with ⟨rfl, h3⟩ | ⟨w, h3, h4, rfl⟩
    · rw [if_pos rfl]
      exact ⟨_, rfl, .done h3⟩
    · have hl : 0 < w.length := List.length_pos_iff.2 h3
      rw [if_neg fun he => by have := congrArg List.length he; rw [List.length_append] at this; omega]
      obtain ⟨t', h5, h6⟩ := ih t (by rw [List.length_append] at hn; omega)
      exact ⟨t', h5, .step h3 h4 h6⟩

theorem right_loop (X : Ext) {r : Str} {k : Meaning} (h : Branch (reSem db {}) r k) : ∀ (n : Nat) (s : Str), s.length < n →
    ∃ t, resubLoop (X.withRe db) (r ++ ['$']) n s = .ok t ∧ StripsRight k s t := by
  intro n
  induction n with
  | zero => intro s h; omega
  | succ n ih =>
    intro s hn
    obtain ⟨ms, h1, h2⟩ := resub_alts X (.one (branch_snoc h .eol)) s
    have h3 := right_round (cuts h1)
    generalize replaced (fun _ => []) s 0 ms = t at h2 h3
    have e : resubLoop (X.withRe db) (r ++ ['$']) (n + 1) s = if t = s then .ok s else resubLoop (X.withRe db) (r ++ ['$']) n t := by
      rw [resubLoop, except_of_ok h2]
      rfl
    rw [e]
    have go : t.length < s.length → ∃ t', (if t = s then .ok s else resubLoop (X.withRe db) (r ++ ['$']) n t) = .ok t' ∧ StripsRight k t t' := by
      intro hl
      rw [if_neg fun he => by rw [he] at hl; omega]
      exact ih t (by omega)
    rcases h3 with ⟨rfl, h3⟩ | ⟨u, w, post, h3, h4, h5, rfl, rfl⟩ | ⟨w, h3, h4, h5, rfl⟩
    · rw [if_pos rfl]
      exact ⟨_, rfl, .done h3⟩
    · have hl : 0 < w.length := List.length_pos_iff.2 h3
      obtain ⟨t', h6, h7⟩ := go (by simp only [List.length_append]; omega)
      exact ⟨t', h6, .step h3 h4 h5 h7⟩
    · obtain ⟨t', h6, h7⟩ := go (by simp only [List.length_append, List.length_singleton]; omega)
      exact ⟨t', h6, .two h3 h4 h5 h7⟩

/-! ### The operators -/

/-- The text of the operator -/
def Side.op : Side → Str
  | .left => s% "|>"
  | .right => s% "<|"
  | .both => s% "||"

/-- What the sides mean -/
def Strips (m : Meaning) : Side → Str → Str → Prop
  | .left, s, t => StripsLeft m s t
  | .right, s, t => StripsRight m s t
  | .both, s, t => ∃ u, StripsLeft m s u ∧ StripsRight m u t

theorem strips_eps {side : Side} {s : Str} : Strips .eps side s s := by
  have h1 : StripsLeft .eps s s := .done fun w _ _ h => h
  have h2 : StripsRight .eps s s := .done fun _ w _ _ _ h => h
  cases side
  · exact h1
  · exact h2
  · exact ⟨s, h1, h2⟩

theorem branch_nil {S : Sem} {m : Meaning} (h : Branch S [] m) : m = .eps := by
  generalize e : ([] : Str) = t at h
  cases h with
  | nil => rfl
  | @cons t _ _ _ h1 _ =>
    have := (List.append_eq_nil_iff.1 e.symm).1
    exact absurd this h1.ne_nil

theorem pattern_strips (X : Ext) (side : Side) {r : Str} {k : Meaning} (h : Branch (reSem db {}) r k) (s : Str) :
    ∃ t, side.pattern (X.withRe db) r s = .ok t ∧ Strips k side s t := by
  unfold Side.pattern
  cases r with
  | nil => exact ⟨s, rfl, by rw [branch_nil h]; exact strips_eps⟩
  | cons c r =>
    obtain ⟨t, h1, h2⟩ := left_loop X h (s.length + 1) s (by omega)
    cases side with
    | left => exact ⟨t, h1, h2⟩
    | right => exact right_loop X h (s.length + 1) s (by omega)
    | both =>
      obtain ⟨t', h3, h4⟩ := right_loop X h (t.length + 1) t (by omega)
      refine ⟨t', ?_, t, h2, h4⟩
      show (resubLoop (X.withRe db) ('^' :: c :: r) (s.length + 1) s >>= _) = _
      rw [except_of_ok h1]
      exact h3

/-- C102: `s |> p`, `s <| p`, `s || p`: matches of the Pattern are removed at the ends and nowhere else, until there are none. The flags
of the Pattern are ignored. -/
theorem C102_strip (X : Ext) (side : Side) (a b : Tree) (s s1 s2 : St (X.withRe db)) (str r : Str) (f : Flags) (m : Meaning)
    (ha : a.notOpr = true) (hb : b.notOpr = true) (hv : Vals a s (.ok (.scalar str), s1)) (hp : Vals b s1 (.ok (.pattern r f), s2))
    (h : Branch (reSem db {}) r m) : ∃ t, Vals (.node (op2 side.op) [a, b]) s (.ok (.scalar t), s2) ∧ Strips m side str t := by
  obtain ⟨t, h1, h2⟩ := pattern_strips X side h str
  have hd : (op2 side.op).Rvals := by cases side <;> constructor <;> decide +kernel
  have hr : isRaw (op2 side.op).fn = false := by cases side <;> decide +kernel
  have key : stripOp (X.withRe db) side (some (.pattern r f)) (.scalar str) = .ok (.scalar t) := by
    show (side.pattern (X.withRe db) r str >>= _) = _
    rw [except_of_ok h1]
    rfl
  have hx : ∀ v ∈ [Val.scalar str, .pattern r f], expands (op2 side.op) (.val v) = false := by
    intro v hv
    simp only [List.mem_cons, List.not_mem_nil, or_false] at hv
    rcases hv with rfl | rfl <;> simp [expands, Val.isRange, Val.isList]
  have hw : ∀ R : Rec (X.withRe db), valOp R (op2 side.op).fn [.scalar str, .pattern r f] = liftOpt (some <$> stripOp (X.withRe db) side (some (.pattern r f)) (.scalar str)) := by
    intro R
    cases side <;> rfl
  refine ⟨t, .of_evals ((evals_direct hd hr (by simp [ha, hb]) (mapEach_two hv hp) (by simp [Val.isBlock]) hx).2
    ⟨(.ok (.v (.scalar t)), s2), ?_, rfl⟩), h2⟩
  simp only [hw, key]
  exact runs_of_eq rfl

/-! ### Consequences -/

/-- What is left by `|>` is the end of the string. -/
theorem C102_suffix {m : Meaning} {s t : Str} (h : StripsLeft m s t) : t <:+ s := by
  induction h with
  | done _ => exact List.suffix_refl _
  | step _ _ _ ih => exact ih.trans (List.suffix_append _ _)

/-- What is left by `<|` is the beginning of the string if it has no newline. -/
theorem C102_prefix {m : Meaning} {s t : Str} (h : StripsRight m s t) (hs : '\n' ∉ s) : t <+: s := by
  induction h with
  | done _ => exact List.prefix_refl _
  | @step u w post t _ hp _ _ ih =>
    rcases hp with rfl | rfl
    · simp only [List.append_nil] at ih hs ⊢
      exact (ih fun h => hs (by simp [h])).trans (List.prefix_append _ _)
    · exact absurd (by simp) hs
  | two => exact absurd (by simp) hs

/-- The rest has no match any more at that end. -/
theorem C102_clean {m : Meaning} {s t : Str} :
    (StripsLeft m s t → ∀ w rest, t = w ++ rest → m [] w rest → w = []) ∧
    (StripsRight m s t → ∀ u w post, t = u ++ w ++ post → AtEnd post → m u w post → w = []) := by
  constructor
  · intro h
    induction h with
    | done h => exact h
    | step _ _ _ ih => exact ih
  · intro h
    induction h with
    | done h => exact h
    | step _ _ _ _ ih => exact ih
    | two _ _ _ _ ih => exact ih

/-! ### What does not hold -/

/-- With `|` outside of parentheses it is not so: in `^a|b` and `a|b$` only one alternative is bound to the end. -/
theorem C102_alternation : ¬ ∀ (r : Str) (m : Meaning) (s t : Str), Alts (reSem asciiDb {}) r m →
    Side.left.pattern reExt r s = .ok t → StripsLeft m s t := by
  intro h
  have hm : Alts (reSem asciiDb {}) (s% "a|b") ((Meaning.chr ((reSem asciiDb {}).lit 'a')).alt (.chr ((reSem asciiDb {}).lit 'b'))) :=
    .more (t := s% "a") (Atom.branch (.lit (by decide))) (.one (Atom.branch (.lit (by decide))))
  have h1 := C102_suffix (h _ _ (s% "cbc") (s% "cc") hm (by decide +kernel))
  exact absurd h1 (by decide)

/-- Before a newline at the end matches are removed too. -/
theorem C102_newline : ∃ (r : Str) (m : Meaning) (s t : Str), Branch (reSem asciiDb {}) r m ∧ Side.right.pattern reExt r s = .ok t ∧ ¬ t <+: s :=
  ⟨s% "b", _, s% "ab\n", s% "a\n", Atom.branch (.lit (by decide)), by decide +kernel, by decide⟩

/-- The flags of the Pattern do not count: `"Ab" |> i` with the Pattern `a` and the flag `i` is unchanged though the Pattern matches. -/
theorem C102_flags : ¬ ∀ (r : Str) (f : Flags) (m : Meaning) (s : Str) (t : Val), Branch (reSem asciiDb f) r m →
    stripOp reExt .left (some (.pattern r f)) (.scalar s) = .ok t → ∃ u, t = .scalar u ∧ StripsLeft m s u := by
  intro h
  obtain ⟨u, h1, h2⟩ := h (s% "a") { i := true } _ (s% "Ab") (.scalar (s% "Ab")) (Atom.branch (.lit (by decide))) (by decide +kernel)
  cases h1
  have := C102_clean.1 h2 (s% "A") (s% "b") rfl ⟨'A', rfl, .inr ⟨rfl, ?_⟩⟩
  · cases this
  · simp [SameLetter]

example : reOut (s% "\"aabcbaa\"|>`a|b`") = some (s% "caa\n") := by decide +kernel
example : reOut (s% "P\"123abc45\"|>`\\d`P\"123abc45\"<|`\\d`\"123a4bc45\"||`\\d+`") = some (s% "abc45\n123abc\na4bc\n") := by decide +kernel
example : reOut (s% "\"abab+ab\"||`(ab)`") = some (s% "+\n") := by decide +kernel

end Pip
