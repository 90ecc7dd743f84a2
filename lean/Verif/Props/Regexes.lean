import Verif.Props.Patterns
import Verif.Props.Deque
import Verif.Spec.ToyRe
/-!
# C95: regular expressions
-/

namespace Pip
open Re Rex

variable {X : Ext}

theorem except_of_ok {ε α β : Type} {x : Except ε α} {a : α} {f : α → Except ε β} (h : x = .ok a) : (x >>= f) = f a := by
  rw [h]
  rfl

theorem finds_of {db : CharDb} {f : Flags} {r : Str} {c : Compiled} {m : Meaning} (X : Ext) (hc : compileAll r = .ok c)
    (ht : Tracks (c.rx.run ⟨db, f⟩) m) : Finds (X.withRe db) r f m where
  full := by
    intro s
    refine ⟨((c.rx.run ⟨db, f⟩ ⟨[], s, []⟩).find? (·.post.isEmpty)).map fun q => mkMatch c.groups s [] q, ?_, ?_⟩
    · show reCall (compileAll r >>= _) _ = _
      rw [hc]
      rfl
    · rw [Option.isSome_map, List.find?_isSome]
      constructor
      · rintro ⟨q, hq, hp⟩
        obtain ⟨w, h1, h2, h3⟩ := ht.sound _ _ hq
        have hp : q.post = [] := by simpa using hp
        rw [hp, List.append_nil] at h2
        rw [hp] at h3
        subst h2
        exact h3
      · intro h
        obtain ⟨q, hq, _, h2⟩ := ht.complete ⟨[], s, []⟩ s [] (by simp) h
        exact ⟨q, hq, by simp [h2]⟩
  search := by
    intro s
    have hs := seek_spec ht s s [] false rfl
    refine ⟨(seekFrom ⟨db, f⟩ c.rx [] false s).map fun m => mkMatch c.groups s m.1 m.2, ?_, ?_, ?_⟩
    · show reCall (compileAll r >>= _) _ = _
      rw [hc]
      rfl
    · intro hn i j hij
      rw [Option.map_eq_none_iff] at hn
      rw [hn] at hs
      exact hs i j hij ⟨Nat.zero_le _, by simp⟩
    · intro q hq
      rw [Option.map_eq_some_iff] at hq
      obtain ⟨y, h1, rfl⟩ := hq
      rw [h1] at hs
      obtain ⟨h2, h3, h4, h5, h6⟩ := hs
      exact ⟨h3, between_eq s _ _, fun i j hij => h5 i j hij ⟨Nat.zero_le _, by simp⟩⟩
  finditer := by
    intro s
    refine ⟨(c.all ⟨db, f⟩ s).map fun m => mkMatch c.groups s m.1 m.2, ?_, ?_⟩
    · show reCall (compileAll r >>= _) _ = _
      rw [hc]
      rfl
    · exact allFrom_spec ht c.groups s _ [] s false rfl (by simp)

/-- C95: `re` finds what the texts of the grammar mean. -/
theorem C95_faithful (X : Ext) (db : CharDb) : ReFaithful (X.withRe db) (reSem db) := by
  intro r f m h
  obtain ⟨c, x, hc, hr, hm⟩ := compileAll_alts h
  have ht := tracks_all hm
  rw [← hr] at ht
  exact finds_of X hc ht

/-- Repeating `^`, `$` or the empty Pattern gives a text that `re` rejects. -/
theorem C80_repeat_error (X : Ext) (db : CharDb) (r : Str) (hr : r ∈ [s% "^", s% "$", []]) (f g : Flags) (s : Str) :
    (∃ t, opPOS X (.pattern r f) = .ok (.pattern t f) ∧ (X.withRe db).fullmatch t g s = .error .reError) ∧
    (∃ t, opKLEENESTAR (.pattern r f) = .ok (.pattern t f) ∧ (X.withRe db).fullmatch t g s = .error .reError) := by
  simp only [List.mem_cons, List.not_mem_nil, or_false] at hr
  rcases hr with rfl | rfl | rfl
  all_goals exact ⟨⟨_, rfl, rfl⟩, ⟨_, rfl, rfl⟩⟩

/-- `[a-c]+d|x` is a text of the grammar -/
example (db : CharDb) (f : Flags) : ∃ m, Alts (reSem db f) (s% "[a-c]+d|x") m :=
  ⟨_, .more (t := s% "[a-c]+d") (u := s% "x")
    (.cons (t := s% "[a-c]+") (u := s% "d") (.plus (t := s% "[a-c]") (.other (.set (t := s% "a-c") (.plain (.one (.range (t := s% "a") (u := s% "c") (.plain rfl) (.plain rfl) (by decide)))) (by decide))))
      (.cons (t := s% "d") (u := []) (.one (.lit rfl)) .nil)) (.one (.cons (t := s% "x") (u := []) (.one (.lit rfl)) .nil))⟩

/-- `[]\n-\x41^-]` also -/
example (db : CharDb) (f : Flags) : ∃ m, Alts (reSem db f) (s% "[]\\n-\\x41^-]") m :=
  ⟨_, .one (Atom.branch (.other (.set (t := s% "]\\n-\\x41^-") (.firsts (t := s% "\\n-\\x41^-") (by decide)
    (.more (t := s% "\\n-\\x41") (u := s% "^-") (.range (t := s% "\\n") (u := s% "\\x41") (a := '\n') (b := 'A') (.text (.control (by decide)))
      (.text (.hex (m := 4) (n := 1) (.lower rfl) (.lower rfl))) (by decide))
      (.more (t := s% "^") (u := s% "-") (.one (.plain rfl)) .dash))) (by decide))))⟩

example : reExt.finditer (s% "[]\\n-\\x41^-]") {} (s% "]5AB^-") =
    .ok [⟨0, 1, s% "]", [], []⟩, ⟨1, 2, s% "5", [], []⟩, ⟨2, 3, s% "A", [], []⟩, ⟨4, 5, s% "^", [], []⟩, ⟨5, 6, s% "-", [], []⟩] := by
  decide +kernel

/-- `(?<!b)a{2,3}?(?=\\b)` also -/
example (db : CharDb) (f : Flags) : ∃ m, Alts (reSem db f) (s% "(?<!b)a{2,3}?(?=\\b)") m :=
  ⟨_, .one (.cons (t := s% "(?<!b)") (u := s% "a{2,3}?(?=\\b)") (.one (.notBehind (t := s% "b") (.cons (t := s% "b") (u := []) (.lit rfl) .nil)))
    (.cons (t := s% "a{2,3}?") (u := s% "(?=\\b)") (.lazy (t := s% "a") (q := s% "{2,3}") (.one (.lit rfl)) (.range 2 3 (by decide) (by decide)))
      (.cons (t := s% "(?=\\b)") (u := []) (.one (.ahead (t := s% "\\b") (.one (.cons (t := s% "\\b") (u := []) (.at .edge) .nil)))) .nil)))⟩

example : reExt.finditer (s% "(?<!b)a{2,3}?(?=\\b)") {} (s% "baa aaa") = .ok [⟨4, 7, s% "aaa", [], []⟩] := by decide +kernel
example : reExt.finditer (s% "[a-c]+d|x") {} (s% "abdxad") =
    .ok [⟨0, 3, s% "abd", [], []⟩, ⟨3, 4, s% "x", [], []⟩, ⟨4, 6, s% "ad", [], []⟩] := by decide +kernel
/-- the first alternative that leads to a match, not the longest -/
example : reExt.finditer (s% "a|ab") {} (s% "abab") = .ok [⟨0, 1, s% "a", [], []⟩, ⟨2, 3, s% "a", [], []⟩] := by decide +kernel
/-- an empty match after a match that is not empty, at the same place -/
example : reExt.finditer (s% "b*") {} (s% "ab") = .ok [⟨0, 0, [], [], []⟩, ⟨1, 2, s% "b", [], []⟩, ⟨2, 2, [], [], []⟩] := by decide +kernel
example : reExt.fullmatch (s% "a|ab") {} (s% "ab") = .ok (some ⟨0, 2, s% "ab", [], []⟩) := by decide +kernel

/-! ### C98: back-references -/

/-- C98: the text that is compiled is the text of the Pattern as a group, with the numbers of the back-references one greater, -/
theorem C98_text (raw t : Str) (h : RefText (raw ++ s% ")") t) : asRegexText raw = s% "(?P<all>" ++ t := by
  have : RefText (s% "(?P<all>" ++ raw ++ s% ")") (s% "(?P<all>" ++ t) := by
    rw [List.append_assoc]
    exact NoRefs.chrs (by decide) _ _ h
  exact incRefs_ref this

example : asRegexText (s% "(a)(b)\\1\\\\2") = s% "(?P<all>(a)(b)\\2\\\\2)" := by decide +kernel
/-- `\99` is taken for a back-reference; it becomes the octal escape for `@`, -/
example : reExt.fullmatch (s% "\\99") {} (s% "@") = .ok (some ⟨0, 1, s% "@", [], []⟩) := by decide +kernel
/-- and the octal escape `\123` for `S` becomes the one for `[`. -/
example : reExt.fullmatch (s% "\\123") {} (s% "[") = .ok (some ⟨0, 1, s% "[", [], []⟩) := by decide +kernel

/-- What matches and then is there again -/
def Meaning.twice (m : Meaning) : Meaning := fun pre w post => ∃ u, w = u ++ u ∧ m pre u (u ++ post)

theorem eatRef_spec {db : CharDb} {f : Flags} (hi : f.i = false) (u : Str) : ∀ (p q : Pos),
    q ∈ eatRef ⟨db, f⟩ u p ↔ q.pre = p.pre ++ u ∧ p.post = u ++ q.post ∧ q.caps = p.caps := by
  have hsame : ∀ c d : Char, Env.again ⟨db, f⟩ c d = true ↔ c = d := by
    intro c d
    simp [Env.again, hi]
  induction u with
  | nil =>
    rintro ⟨pre, post, caps⟩ ⟨pre', post', caps'⟩
    simp only [eatRef, List.mem_singleton, List.append_nil, List.nil_append, Pos.mk.injEq]
    exact ⟨fun ⟨a, b, c⟩ => ⟨a, b.symm, c⟩, fun ⟨a, b, c⟩ => ⟨a, b.symm, c⟩⟩
  | cons c u ih =>
    rintro ⟨pre, post, caps⟩ q
    cases post with
    | nil => simp [eatRef]
    | cons d post =>
      simp only [eatRef]
      split
      · next h =>
        obtain rfl := (hsame c d).1 h
        rw [ih]
        simp
      · next h =>
        constructor
        · intro hq; cases hq
        · rintro ⟨_, h2, _⟩
          exact absurd ((hsame c d).2 (List.cons.inj h2).1.symm) h

/-- and so `(r)\\1` finds what `r` matches twice in a row. -/
theorem C98_twice (X : Ext) (db : CharDb) (r : Str) (f : Flags) (m : Meaning) (hi : f.i = false) (h : Alts (reSem db f) r m) :
    Finds (X.withRe db) (s% "(" ++ r ++ s% ")\\1") f (Meaning.twice m) := by
  obtain ⟨n, hn⟩ : ∃ n, 4 * (s% "(" ++ r ++ s% ")\\2").length + 36 = n + 5 := ⟨4 * r.length + 47, by simp; omega⟩
  obtain ⟨x, C, h1, h2, h3⟩ := parse_alts_ok h (n + 2) allCtx.push (s% ")\\2)") (by simp at hn; omega) (by rintro _ _ ⟨⟩; rfl)
  have hp : parseAlts (4 * (s% "(" ++ r ++ s% ")\\2").length + 36) allCtx ((s% "(" ++ r ++ s% ")\\2") ++ s% ")") =
      .ok (.seq (.cap 2 x) (.seq (.ref 2) .eps), C.pop allCtx, s% ")") := by
    rw [hn]
    have e : (s% "(" ++ r ++ s% ")\\2") ++ s% ")" = '(' :: (r ++ s% ")\\2)") := by simp
    rw [e]
    have hq : ∀ y, r ++ s% ")\\2)" ≠ '?' :: y := by
      intro y hy
      rcases h.head class_head with rfl | ⟨c, u, rfl, hc⟩
      · exact absurd (List.cons.inj hy).1 (by decide)
      · obtain ⟨rfl, _⟩ := List.cons.inj hy
        exact absurd hc (by decide)
    have h4 : parseAtom (n + 3) allCtx '(' (r ++ s% ")\\2)") = .ok (.cap 2 x, false, C.pop allCtx, s% "\\2)") := by
      simp only [parseAtom, show ('(' : Char) ≠ '.' by decide, show ('(' : Char) ≠ '^' by decide, show ('(' : Char) ≠ '$' by decide,
        show ('(' : Char) ≠ '\\' by decide, show ('(' : Char) ≠ '[' by decide, if_false, if_true]
      rw [except_of_ok h1]
      rfl
    have hnext : 3 ≤ C.next := h3.next
    have h5 : parseAtom (n + 2) (C.pop allCtx) '\\' (s% "2)") = .ok (.ref 2, false, C.pop allCtx, s% ")") := by
      have hr : (C.pop allCtx).ref 2 = .ok (.ref 2) := by
        have hb : (C.pop allCtx).inBehind = false := h3.inBehind
        have ho : (C.pop allCtx).opened = [1] := rfl
        have hx : (C.pop allCtx).next = C.next := rfl
        rw [Ctx.ref, hb, ho, hx, if_neg (by simp), if_pos]
        simp
        omega
      have : escape (C.pop allCtx) (s% "2)") = .ok (.ref 2, false, s% ")") := by
        show ((C.pop allCtx).ref 2 >>= fun y => pure (y, false, s% ")")) = _
        rw [hr]
        rfl
      rw [parseAtom]
      simp only [show ('\\' : Char) ≠ '.' by decide, show ('\\' : Char) ≠ '^' by decide, show ('\\' : Char) ≠ '$' by decide, if_false, if_true, this]
      · rfl
      · rintro _ ⟨⟩
    have h6 : parseBranch (n + 3) (C.pop allCtx) (s% "\\2)") = .ok (.seq (.ref 2) .eps, C.pop allCtx, s% ")") := by
      rw [parseBranch, if_neg (by decide), h5]
      rfl
    have h7 : parseBranch (n + 4) allCtx ('(' :: (r ++ s% ")\\2)")) = .ok (.seq (.cap 2 x) (.seq (.ref 2) .eps), C.pop allCtx, s% ")") := by
      rw [parseBranch, if_neg (by decide), except_of_ok h4]
      dsimp only
      rw [except_of_ok (show quantify (.cap 2 x) false (s% "\\2)") = .ok (.cap 2 x, s% "\\2)") from rfl)]
      dsimp only
      rw [except_of_ok h6]
      rfl
    rw [parseAlts, h7]
    rfl
  have ht : RefText ((s% "(" ++ r ++ s% ")\\1") ++ s% ")") ((s% "(" ++ r ++ s% ")\\2") ++ s% ")") := by
    rw [List.append_assoc, List.append_assoc, List.append_assoc, List.append_assoc]
    refine NoRefs.chrs (by decide) _ _ (noRefs_alts h _ _ (.chr (by decide) ?_))
    exact RefText.ref1 (d := 1) (by decide) (by decide) (by rintro _ _ ⟨⟩; decide) (.chr (by decide) .nil)
  refine finds_of X (compileAll_of ht hp) ?_
  have hx := Rx.tracks ⟨db, f⟩ x h2.noRef
  rw [h2.den] at hx
  have run : ∀ p q : Pos, q ∈ (Rx.seq (.cap 1 (.seq (.cap 2 x) (.seq (.ref 2) .eps))) .eps).run ⟨db, f⟩ p ↔
      ∃ y ∈ x.run ⟨db, f⟩ p, ∃ z ∈ eatRef ⟨db, f⟩ (between (y.pre ++ y.post) p.pre.length y.pre.length)
        { y with caps := (2, p.pre.length, y.pre.length) :: y.caps }, q = { z with caps := (1, p.pre.length, z.pre.length) :: z.caps } := by
    intro p q
    simp only [Rx.run, List.lookup, List.flatMap_singleton', List.mem_map, List.mem_flatMap]
    simp
    constructor
    · rintro ⟨z, ⟨y, hy, hz⟩, rfl⟩
      exact ⟨y, hy, z, hz, rfl⟩
    · rintro ⟨y, hy, z, hz, rfl⟩
      exact ⟨z, ⟨y, hy, hz⟩, rfl⟩
  have slice : ∀ {p y : Pos} {u : Str}, y.pre = p.pre ++ u → between (y.pre ++ y.post) p.pre.length y.pre.length = u := by
    intro p y u e
    rw [between_eq, List.take_left, e, List.drop_left]
  constructor
  · intro p q hq
    obtain ⟨y, hy, z, hz, rfl⟩ := (run p q).1 hq
    obtain ⟨u, e1, e2, e3⟩ := hx.sound p y hy
    rw [slice e1, eatRef_spec hi] at hz
    obtain ⟨z1, z2, _⟩ := hz
    dsimp only at z1 z2
    refine ⟨u ++ u, ?_, ?_, u, rfl, ?_⟩
    · show z.pre = _
      rw [z1, e1, List.append_assoc]
    · show p.post = _ ++ z.post
      rw [e2, z2, List.append_assoc]
    · show m p.pre u (u ++ z.post)
      rw [← z2]
      exact e3
  · rintro p w post hw ⟨u, rfl, hu⟩
    rw [List.append_assoc] at hw
    obtain ⟨y, hy, y1, y2⟩ := hx.complete p u (u ++ post) hw hu
    refine ⟨{ pre := y.pre ++ u, post := post, caps := (1, p.pre.length, (y.pre ++ u).length) :: (2, p.pre.length, y.pre.length) :: y.caps },
      (run p _).2 ⟨y, hy, ⟨y.pre ++ u, post, (2, p.pre.length, y.pre.length) :: y.caps⟩, ?_, rfl⟩, ?_, rfl⟩
    · rw [slice y1, eatRef_spec hi]
      exact ⟨rfl, y2, rfl⟩
    · show y.pre ++ u = _
      rw [y1, List.append_assoc]

example : reExt.finditer (s% "(a|b)\\1") {} (s% "abbaaa") =
    .ok [⟨1, 3, s% "bb", [some (s% "b")], [(1, 2)]⟩, ⟨3, 5, s% "aa", [some (s% "a")], [(3, 4)]⟩] := by decide +kernel

/-- A back-reference to a group that is not there, as in `(r)\\k` if there is no group in `r` and `k` is greater than 1, is an error
when the Pattern is used. -/
theorem C98_missing (X : Ext) (db : CharDb) (r : Str) (f g : Flags) (m : Meaning) (k : Nat) (h : Alts (reSem db f) r m) (hr : '(' ∉ r)
    (h2 : 2 ≤ k) (h8 : k ≤ 8) (s : Str) :
    (X.withRe db).search (s% "(" ++ r ++ s% ")\\" ++ showNat k) g s = .error .reError ∧
    (X.withRe db).finditer (s% "(" ++ r ++ s% ")\\" ++ showNat k) g s = .error .reError ∧
    (X.withRe db).fullmatch (s% "(" ++ r ++ s% ")\\" ++ showNat k) g s = .error .reError := by
  suffices hc : compileAll (s% "(" ++ r ++ s% ")\\" ++ showNat k) = .error .bad by
    refine ⟨?_, ?_, ?_⟩
    all_goals
      show reCall (compileAll _ >>= _) _ = _
      rw [hc]
      rfl
  obtain ⟨d, hd, e1, e2, e3⟩ : ∃ d, showNat k = [d] ∧ showNat (k + 1) = [digitChar (k + 1)] ∧ d = digitChar k ∧ ∀ C : Ctx,
      C.inBehind = false → C.next = 3 → escape C [digitChar (k + 1), ')'] = .error .bad := by
    have key : ∀ k < 9, 2 ≤ k → showNat k = [digitChar k] ∧ showNat (k + 1) = [digitChar (k + 1)] := by decide +kernel
    refine ⟨_, (key k (by omega) h2).1, (key k (by omega) h2).2, rfl, ?_⟩
    intro C hb hn
    have e : escape C [digitChar (k + 1), ')'] = (C.ref (k + 1) >>= fun y => pure (y, false, s% ")")) := by
      rcases (by omega : k = 2 ∨ k = 3 ∨ k = 4 ∨ k = 5 ∨ k = 6 ∨ k = 7 ∨ k = 8) with rfl | rfl | rfl | rfl | rfl | rfl | rfl <;> rfl
    rw [e, Ctx.ref, hb, hn, if_neg (by simp), if_neg (by simp; omega)]
    rfl
  obtain ⟨n, hn⟩ : ∃ n, 4 * (s% "(" ++ r ++ s% ")\\" ++ [digitChar (k + 1)]).length + 36 = n + 5 := ⟨4 * r.length + 47, by simp; omega⟩
  obtain ⟨x, C, h1, -, h3⟩ := parse_alts_ok h (n + 2) allCtx.push (s% ")\\" ++ [digitChar (k + 1), ')']) (by simp at hn; omega) (by rintro _ _ ⟨⟩; rfl)
  have hp : parseAlts (4 * (s% "(" ++ r ++ s% ")\\" ++ [digitChar (k + 1)]).length + 36) allCtx
      ((s% "(" ++ r ++ s% ")\\" ++ [digitChar (k + 1)]) ++ s% ")") = .error .bad := by
    rw [hn]
    have e : (s% "(" ++ r ++ s% ")\\" ++ [digitChar (k + 1)]) ++ s% ")" = '(' :: (r ++ (s% ")\\" ++ [digitChar (k + 1), ')'])) := by simp
    rw [e]
    have hq : ∀ y, r ++ (s% ")\\" ++ [digitChar (k + 1), ')']) ≠ '?' :: y := by
      intro y hy
      rcases h.head class_head with rfl | ⟨c, u, rfl, hc⟩
      · exact absurd (List.cons.inj hy).1 (by decide)
      · obtain ⟨rfl, _⟩ := List.cons.inj hy
        exact absurd hc (by decide)
    have h4 : parseAtom (n + 3) allCtx '(' (r ++ (s% ")\\" ++ [digitChar (k + 1), ')'])) =
        .ok (.cap 2 x, false, C.pop allCtx, '\\' :: [digitChar (k + 1), ')']) := by
      simp only [parseAtom, show ('(' : Char) ≠ '.' by decide, show ('(' : Char) ≠ '^' by decide, show ('(' : Char) ≠ '$' by decide,
        show ('(' : Char) ≠ '\\' by decide, show ('(' : Char) ≠ '[' by decide, if_false, if_true]
      rw [except_of_ok h1]
      rfl
    have hnext : C.next = 3 := (h3.free hr).2
    have h5 : parseAtom (n + 2) (C.pop allCtx) '\\' [digitChar (k + 1), ')'] = .error .bad := by
      have := e3 (C.pop allCtx) h3.inBehind hnext
      rw [parseAtom]
      simp only [show ('\\' : Char) ≠ '.' by decide, show ('\\' : Char) ≠ '^' by decide, show ('\\' : Char) ≠ '$' by decide, if_false, if_true, this]
      · rfl
      · intro y hy
        have hne : ∀ k < 9, digitChar (k + 1) ≠ '?' := by decide
        exact absurd (List.cons.inj hy).1 (hne k (by omega))
    have h6 : parseBranch (n + 3) (C.pop allCtx) ('\\' :: [digitChar (k + 1), ')']) = .error .bad := by
      rw [parseBranch, if_neg (by decide), h5]
      rfl
    have h7 : parseBranch (n + 4) allCtx ('(' :: (r ++ (s% ")\\" ++ [digitChar (k + 1), ')']))) = .error .bad := by
      rw [parseBranch, if_neg (by decide), except_of_ok h4]
      dsimp only
      rw [except_of_ok (show quantify (.cap 2 x) false ('\\' :: [digitChar (k + 1), ')']) = .ok (.cap 2 x, '\\' :: [digitChar (k + 1), ')']) from rfl)]
      dsimp only
      rw [h6]
      rfl
    rw [parseAlts, h7]
    rfl
  have ht : RefText ((s% "(" ++ r ++ s% ")\\" ++ [digitChar k]) ++ s% ")") ((s% "(" ++ r ++ s% ")\\" ++ [digitChar (k + 1)]) ++ s% ")") := by
    rw [List.append_assoc, List.append_assoc, List.append_assoc, List.append_assoc, List.append_assoc, List.append_assoc]
    refine NoRefs.chrs (by decide) _ _ (noRefs_alts h _ _ (.chr (by decide) ?_))
    have := RefText.ref1 (d := k) (s := s% ")") (by omega) (by omega) (by rintro _ _ ⟨⟩; decide) (.chr (by decide) .nil)
    rw [e1] at this
    exact this
  have ha : asRegexText (s% "(" ++ r ++ s% ")\\" ++ showNat k) = s% "(?P<all>" ++ (s% "(" ++ r ++ s% ")\\" ++ [digitChar (k + 1)]) ++ s% ")" := by
    rw [hd, e2]
    have : RefText (s% "(?P<all>" ++ (s% "(" ++ r ++ s% ")\\" ++ [digitChar k]) ++ s% ")")
        (s% "(?P<all>" ++ (s% "(" ++ r ++ s% ")\\" ++ [digitChar (k + 1)]) ++ s% ")") := by
      rw [List.append_assoc, List.append_assoc (s% "(?P<all>")]
      exact NoRefs.chrs (by decide) _ _ ht
    exact incRefs_ref this
  unfold compileAll
  rw [ha, compileRe_bad hp]
  rfl

example : reExt.search (s% "(a|b)\\2") {} (s% "abb") = .error .reError := by decide +kernel

/-! ### C96: all matches -/

/-- After some matches the variables are those of the last one; if there is none, nothing changes. -/
def AfterMatches (string : Str) (ms : List Match) (old new : St X) : Prop :=
  match ms.getLast? with
  | none => new = old
  | some q => MatchVars string q old new

theorem MatchVars.trans {t : Str} {p q : Match} {a b c : St X} (h1 : MatchVars t p a b) (h2 : MatchVars t q b c) : MatchVars t q a c :=
  { h2 with
    others := fun n hn => (h2.others n hn).trans (h1.others n hn)
    rest := by
      have e := h2.rest
      rw [h1.rest] at e
      exact e }

attribute [local irreducible] assignRegexVars

theorem lift_ok_bind {α β : Type} (a : α) (g : α → M X β) (s : St X) : (M.lift (.ok a) >>= g) s = g a s := rfl

/-- Setting the variables for each match and computing something from it -/
theorem mapL_matches {α : Type} (g : Match → α) (t : Str) (ms : List Match) (st : St X) :
    ∃ st', mapL (fun m => assignRegexVars t m >>= fun _ => pure (g m)) ms st = (.ok (ms.map g), st') ∧ AfterMatches t ms st st' := by
  induction ms generalizing st with
  | nil => exact ⟨st, rfl, rfl⟩
  | cons q ms ih =>
    obtain ⟨s1, h1, hv⟩ := match_vars t q st
    obtain ⟨s2, h2, ha⟩ := ih s1
    refine ⟨s2, ?_, ?_⟩
    · show ((assignRegexVars t q >>= fun _ => pure (g q)) >>= fun y => mapL _ ms >>= fun ys => pure (y :: ys)) st = _
      rw [M.bind_ok (a := g q) (s' := s1) (by rw [M.bind_ok h1]; rfl), M.bind_ok h2]
      rfl
    · cases ms with
      | nil =>
        cases ha
        exact hv
      | cons p ms =>
        unfold AfterMatches at ha ⊢
        rw [List.getLast?_cons_cons]
        cases hl : (p :: ms).getLast? with
        | none => simp at hl
        | some x =>
          rw [hl] at ha
          exact hv.trans ha

/-- C96: `s@p` is the list of the matches, -/
theorem C96_at (a b : Tree) (s s1 s2 : St X) (str r : Str) (f : Flags) (ms : List Match) (ha : Evals a s (.ok (.v (.scalar str)), s1))
    (hb : HasVal b s1 (.pattern r f) s2) (hm : X.finditer r f str = .ok ms) :
    ∃ s3, Vals (.node (op2 (s% "@")) [a, b]) s (.ok (.list (ms.map fun q => .scalar q.all)), s3) ∧ AfterMatches str ms s2 s3 := by
  obtain ⟨t, n, ht, h⟩ := at_flags.val2 ha rfl hb rfl
  obtain ⟨s3, h3, h4⟩ := mapL_matches (X := X) (fun q => Val.scalar q.all) str ms s2
  refine ⟨s3, .of_evals (runs_of ok_ne_fuel n 2 fun m hm' => ?_), h4⟩
  show (run X (m + 2)).ev _ s = _
  rw [h m hm']
  apply M.dieType_ok
  show (argVal t >>= fun r => opATwith (run X (m + 1)) _ r) s2 = _
  rw [M.bind_ok ht]
  show (M.lift (X.finditer r f str) >>= fun ms => mapL (fun q => assignRegexVars str q >>= fun _ => pure (Val.scalar q.all)) ms >>=
    fun vs => pure (Res.v (.list vs))) s2 = _
  rw [hm, lift_ok_bind, M.bind_ok h3]
  rfl

theorem findall_eq (R : Rec X) (str r : Str) (f : Flags) : valOp R .FINDALL [.scalar str, .pattern r f] =
    (M.lift (X.finditer r f str) >>= fun ms => mapL (fun q => assignRegexVars str q >>= fun _ => pure (ofInt q.start)) ms >>=
      fun vs => pure (.v (.list vs))) := rfl

/-- `s@*p` is the list of the indices where the matches begin, -/
theorem C96_findall (a b : Tree) (s s1 s2 : St X) (str r : Str) (f : Flags) (ms : List Match) (ha : a.notOpr = true) (hb : b.notOpr = true)
    (hv : Vals a s (.ok (.scalar str), s1)) (hp : Vals b s1 (.ok (.pattern r f), s2)) (hm : X.finditer r f str = .ok ms) :
    ∃ s3, Vals (.node (op2 (s% "@*")) [a, b]) s (.ok (.list (ms.map fun q => ofInt q.start)), s3) ∧ AfterMatches str ms s2 s3 := by
  have hd : (op2 (s% "@*")).Rvals := by constructor <;> decide +kernel
  have hf : (op2 (s% "@*")).fn = .FINDALL := by decide +kernel
  obtain ⟨s3, h3, h4⟩ := mapL_matches (X := X) (fun q => ofInt q.start) str ms s2
  refine ⟨s3, .of_evals ((evals_direct hd (by rw [hf]; rfl) (by simp [ha, hb]) (mapEach_two hv hp) (by simp [Val.isBlock])
      (by simp [expands, Val.isRange, Val.isList])).2 ⟨(.ok (.v _), s3), ?_, rfl⟩), h4⟩
  rw [hf]
  simp only [findall_eq, hm]
  refine runs_of_eq ?_
  rw [lift_ok_bind, M.bind_ok h3]
  rfl

theorem in_eq (R : Rec X) (str r : Str) (f : Flags) : valOp R .IN [.pattern r f, .scalar str] =
    (M.lift (X.finditer r f str) >>= fun ms => iterL (assignRegexVars str) ms >>= fun _ => pure (.v (ofInt ms.length))) := rfl

theorem iterL_matches (t : Str) (ms : List Match) (st : St X) :
    ∃ st', iterL (assignRegexVars t) ms st = (.ok (), st') ∧ AfterMatches t ms st st' := by
  obtain ⟨s', h, ha⟩ := mapL_matches (X := X) (fun _ => ()) t ms st
  refine ⟨s', ?_, ha⟩
  clear ha
  induction ms generalizing st with
  | nil => cases h; rfl
  | cons q ms ih =>
    obtain ⟨s1, h1, _⟩ := match_vars t q st
    obtain ⟨s2, h2, _⟩ := mapL_matches (X := X) (fun _ => ()) t ms s1
    have h' : mapL (fun m => assignRegexVars (X := X) t m >>= fun _ => pure ()) (q :: ms) st = (.ok ((q :: ms).map fun _ => ()), s2) := by
      show ((assignRegexVars t q >>= fun _ => pure ()) >>= fun y => mapL _ ms >>= fun ys => pure (y :: ys)) st = _
      rw [M.bind_ok (a := ()) (s' := s1) (by rw [M.bind_ok h1]; rfl), M.bind_ok h2]
      rfl
    obtain rfl : s' = s2 := congrArg Prod.snd (h.symm.trans h')
    show (assignRegexVars t q >>= fun _ => iterL _ ms) st = _
    rw [M.bind_ok h1]
    exact ih s1 h2

/-- and `p N s` is their number. -/
theorem C96_count (a b : Tree) (s s1 s2 : St X) (str r : Str) (f : Flags) (ms : List Match) (ha : a.notOpr = true) (hb : b.notOpr = true)
    (hp : Vals a s (.ok (.pattern r f), s1)) (hv : Vals b s1 (.ok (.scalar str), s2)) (hm : X.finditer r f str = .ok ms) :
    ∃ s3, Vals (.node (op2 (s% "N")) [a, b]) s (.ok (ofInt ms.length), s3) ∧ AfterMatches str ms s2 s3 := by
  have hd : (op2 (s% "N")).Rvals := by constructor <;> decide +kernel
  have hf : (op2 (s% "N")).fn = .IN := by decide +kernel
  obtain ⟨s3, h3, h4⟩ := iterL_matches str ms s2
  refine ⟨s3, .of_evals ((evals_direct hd (by rw [hf]; rfl) (by simp [ha, hb]) (mapEach_two hp hv) (by simp [Val.isBlock])
      (by simp [expands, Val.isRange, Val.isList])).2 ⟨(.ok (.v _), s3), ?_, rfl⟩), h4⟩
  rw [hf]
  simp only [in_eq, hm]
  refine runs_of_eq ?_
  rw [lift_ok_bind, M.bind_ok h3]
  rfl

example : reOut (s% "\"one two  three\"@`\\w+`@2") = some (s% "three\n") := by decide +kernel
example : reOut (s% "(\"banana\"@*`an`)J\",\"") = some (s% "1,3\n") := by decide +kernel
/-- matches do not overlap -/
example : reOut (s% "`ana`N\"banana\"") = some (s% "1\n") := by decide +kernel

/-! #### The first match -/

/-- `s@?p` is the index at which the first match begins, and the match variables are set; without a match it is nil. -/
theorem C96_find (a b : Tree) (s s1 s2 : St X) (str r : Str) (f : Flags) (o : Option Match) (ha : a.notOpr = true) (hb : b.notOpr = true)
    (hv : Vals a s (.ok (.scalar str), s1)) (hp : Vals b s1 (.ok (.pattern r f), s2)) (hm : X.search r f str = .ok o) :
    ∃ s3, Vals (.node (op2 (s% "@?")) [a, b]) s (.ok (o.elim .nil fun q => ofInt q.start), s3) ∧ AfterMatches str o.toList s2 s3 := by
  have hd : (op2 (s% "@?")).Rvals := by constructor <;> decide +kernel
  have hf : (op2 (s% "@?")).fn = .FIND := by decide +kernel
  have he : ∀ R : Rec X, valOp R .FIND [.scalar str, .pattern r f] = (M.lift (X.search r f str) >>= fun o => match o with
      | some m => assignRegexVars str m >>= fun _ => pure (.v (ofInt m.start))
      | none => pure (.v .nil)) := fun _ => rfl
  have key : ∀ v s3, Runs (fun R : Rec X => valOp R .FIND [.scalar str, .pattern r f]) s2 (.ok (.v v), s3) →
      Vals (.node (op2 (s% "@?")) [a, b]) s (.ok v, s3) := fun v s3 h =>
    .of_evals ((evals_direct hd (by rw [hf]; rfl) (by simp [ha, hb]) (mapEach_two hv hp) (by simp [Val.isBlock])
      (by simp [expands, Val.isRange, Val.isList])).2 ⟨(.ok (.v _), s3), by rw [hf]; exact h, rfl⟩)
  simp only [he, hm] at key
  cases o with
  | none => exact ⟨s2, key _ _ (runs_of_eq rfl), rfl⟩
  | some q =>
    obtain ⟨s3, h3, h4⟩ := match_vars str q s2
    refine ⟨s3, key _ _ (runs_of_eq ?_), h4⟩
    rw [lift_ok_bind]
    show (assignRegexVars str q >>= fun _ => _) s2 = _
    rw [M.bind_ok h3]
    rfl

example : reOut (s% "P\"banana\"@?`n.`P$)\"banana\"@?`x`") = some (s% "2\n4\n") := by decide +kernel

/-! #### Several strings -/

/-- Matching some strings one after the other, up to the first that does not match: whether all match, and the variables afterwards -/
inductive MatchesAll (m : Str → Option Match) : List Str → St X → Bool → St X → Prop
  | nil {s : St X} : MatchesAll m [] s true s
  | miss {t : Str} {ts : List Str} {s : St X} : m t = none → MatchesAll m (t :: ts) s false s
  | hit {t : Str} {ts : List Str} {q : Match} {s s1 s2 : St X} {b : Bool} : m t = some q → MatchVars t q s s1 →
    MatchesAll m ts s1 b s2 → MatchesAll m (t :: ts) s b s2

theorem MatchesAll.iff {m : Str → Option Match} {ts : List Str} {s s' : St X} {b : Bool} (h : MatchesAll m ts s b s') :
    b = true ↔ ∀ t ∈ ts, (m t).isSome = true := by
  induction h with
  | nil => simp
  | miss h => simp [h]
  | hit h _ _ ih => simp [h, ih]

/-- `l ~= p` is 1 if all strings of the List match as a whole, otherwise 0. -/
theorem C96_all (st : St X) (ts : List Str) (r : Str) (f : Flags) (m : Str → Option Match)
    (hm : ∀ t ∈ ts, X.fullmatch r f t = .ok (m t)) : ∃ b s', MatchesAll m ts st b s' ∧ (b = true ↔ ∀ t ∈ ts, (m t).isSome = true) ∧
      Runs (fun R => valOp R .FULLMATCH [.list (ts.map .scalar), .pattern r f]) st (.ok (.v (ofBool b)), s') := by
  have key : ∃ b s', MatchesAll m ts st b s' ∧ ∀ k, allL (fun x => do
      let v ← opVal (run X (k + 1)) .FULLMATCH [.pattern r f, x]
      return v.truthy) (ts.map .scalar) st = (.ok b, s') := by
    induction ts generalizing st with
    | nil => exact ⟨_, _, .nil, fun _ => rfl⟩
    | cons t ts ih =>
      have e : ∀ k, opVal (run X (k + 1)) .FULLMATCH [.pattern r f, .scalar t] = (opFULLMATCH (run X k) (.scalar t) (.pattern r f) >>= needVal) := by
        intro k
        rw [opVal]
        show (callOp (run X k) .FULLMATCH ([Val.pattern r f, .scalar t].map .val) >>= needVal) = _
        rw [callOp_vals (run X k) (fn := .FULLMATCH) (by rfl) [.pattern r f, .scalar t]]
        rfl
      have ht := hm t (by simp)
      cases hq : m t with
      | none =>
        refine ⟨false, st, .miss hq, fun k => ?_⟩
        rw [List.map_cons, allL, e, full_eq, ht, hq]
        rfl
      | some q =>
        obtain ⟨s1, h1, h2⟩ := match_vars t q st
        obtain ⟨b, s', h3, h4⟩ := ih s1 fun t ht => hm t (by simp [ht])
        refine ⟨b, s', .hit hq h2 h3, fun k => ?_⟩
        rw [List.map_cons, allL, e, full_eq, ht, hq]
        refine Eq.trans ?_ (h4 k)
        have e2 := bind_ok_eq (f := fun _ => (pure (.v (.scalar (s% "1"))) : M X Res)) h1
        exact bind_ok_eq (s' := s1) (a := true) (bind_ok_eq (a := Val.scalar (s% "1")) (bind_ok_eq e2))
  obtain ⟨b, s', h1, h2⟩ := key
  refine ⟨b, s', h1, h1.iff, runs_of ok_ne_fuel 0 1 fun k _ => ?_⟩
  have e : ∀ R : Rec X, valOp R .FULLMATCH [.list (ts.map .scalar), .pattern r f] = (allL (fun x => do
      let v ← opVal R .FULLMATCH [.pattern r f, x]
      return v.truthy) (ts.map .scalar) >>= fun b => pure (.v (ofBool b))) := fun _ => rfl
  simp only [e]
  rw [M.bind_ok (h2 k)]
  rfl

example : reOut (s% "P[\"ab\";\"b\"]~=`a*b`P[\"ab\";\"ba\"]~=`a*b`$0") = some (s% "1\n0\nab\n") := by decide +kernel

end Pip
