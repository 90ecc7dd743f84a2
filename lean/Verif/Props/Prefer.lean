import Verif.Lemmas.RexPreferFind
import Verif.Props.Preference
/-!
# C117: the match found is the preferred one
-/

namespace Pip
open Re Rex

/-- The operations on a compiled expression -/
theorem prefer_calls (X : Ext) {db : CharDb} {f : Flags} {t : Str} {c : Compiled} (hc : compileAll t = .ok c) (s : Str) :
    (X.withRe db).search t f s = .ok ((seekFrom ⟨db, f⟩ c.rx [] false s).map fun m => mkMatch c.groups s m.1 m.2) ∧
    (X.withRe db).fullmatch t f s = .ok (((c.rx.run ⟨db, f⟩ ⟨[], s, []⟩).find? (·.post.isEmpty)).map fun q => mkMatch c.groups s [] q) ∧
    (X.withRe db).finditer t f s = .ok ((allFrom ⟨db, f⟩ c.rx (2 * s.length + 2) [] false s).map fun m => mkMatch c.groups s m.1 m.2) := by
  refine ⟨?_, ?_, ?_⟩ <;> (show reCall (compileAll t >>= _) _ = _; rw [hc]; rfl)

theorem first_fresh {o : Order} {s : Str} {i a : Nat} : o.first s i false a = (o (s.take a) (s.drop a)).head? := by
  cases h : o (s.take a) (s.drop a) <;> simp [Order.first, h]

/-- C117: a search finds the preferred match at the first index where there is one. -/
theorem C117_search (X : Ext) (db : CharDb) (f : Flags) (t : Str) (o : Order) (h : PAlts (reSem db f) t o) (s : Str) :
    ((X.withRe db).search t f s = .ok none ∧ ∀ a, a ≤ s.length → o (s.take a) (s.drop a) = []) ∨
    ∃ q, (X.withRe db).search t f s = .ok (some q) ∧ q.start ≤ s.length ∧ (∀ a, a < q.start → o (s.take a) (s.drop a) = []) ∧
      (o (s.take q.start) (s.drop q.start)).head? = some q.all ∧ q.stop = q.start + q.all.length := by
  obtain ⟨c, hc, hf, _⟩ := prefer_compile h
  rw [(prefer_calls X hc s).1]
  have hk := seek_prefer hf (s := s) (pre := []) (post := s) rfl false
  cases e : seekFrom ⟨db, f⟩ c.rx [] false s with
  | none =>
    rw [e] at hk
    refine .inl ⟨rfl, fun a ha => ?_⟩
    have := hk a (Nat.zero_le _) ha
    rwa [first_fresh, List.head?_eq_none_iff] at this
  | some x =>
    rw [e] at hk
    obtain ⟨st, q⟩ := x
    obtain ⟨_, h2, h3, ⟨w, h4, h5⟩, h6⟩ := hk
    have ha : (mkMatch c.groups s st q).all = w := match_text (by rw [← h5]; exact h6) _ q h5
    refine .inr ⟨_, rfl, h2, fun a ha => ?_, ?_, ?_⟩
    · have := h3 a (Nat.zero_le _) ha
      rwa [first_fresh, List.head?_eq_none_iff] at this
    · rw [ha, ← first_fresh (i := 0)]
      exact h4
    · rw [ha]
      show q.pre.length = st.length + w.length
      rw [h5, List.length_append]

/-- The matches found one after the other -/
theorem C117_finditer (X : Ext) (db : CharDb) (f : Flags) (t : Str) (o : Order) (h : PAlts (reSem db f) t o) (s : Str) :
    ∃ qs, (X.withRe db).finditer t f s = .ok qs ∧ Firsts o s 0 false qs := by
  obtain ⟨c, hc, hf, _⟩ := prefer_compile h
  exact ⟨_, (prefer_calls X hc s).2.2, all_prefer hf _ s _ [] s false rfl (by simp)⟩

/-- There is only one such list of places and texts. -/
theorem C117_unique (o : Order) (s : Str) (i : Nat) (adv : Bool) (l l' : List Match) (h : Firsts o s i adv l) (h' : Firsts o s i adv l') :
    l.map (fun q => (q.start, q.stop, q.all)) = l'.map fun q => (q.start, q.stop, q.all) := by
  induction h generalizing l' with
  | done h =>
    cases h' with
    | done _ => rfl
    | more h1 h2 _ h4 => rw [h _ h1 h2] at h4; cases h4
  | more h1 h2 h3 h4 h5 _ ih =>
    cases h' with
    | done h => rw [h _ h1 h2] at h4; cases h4
    | @more _ _ q' l' g1 g2 g3 g4 g5 g6 =>
      rename_i q _ _
      have e1 : q.start = q'.start := by
        rcases Nat.lt_trichotomy q.start q'.start with hlt | he | hlt
        · rw [g3 _ h1 hlt] at h4; cases h4
        · exact he
        · rw [h3 _ g1 hlt] at g4; cases g4
      have e2 : q.all = q'.all := by
        rw [e1, g4] at h4
        injection h4 with h4
        exact h4.symm
      have e3 : q.stop = q'.stop := by rw [h5, g5, e1, e2]
      simp only [List.map_cons]
      rw [ih l' (by rw [e3, e2]; exact g6), e1, e2, e3]

/-- A match of the whole string is found if there is one, even if another is preferred. -/
theorem C117_fullmatch (X : Ext) (db : CharDb) (f : Flags) (t : Str) (o : Order) (h : PAlts (reSem db f) t o) (s : Str) :
    ((X.withRe db).fullmatch t f s = .ok none ∧ s ∉ o [] s) ∨
    ∃ q, (X.withRe db).fullmatch t f s = .ok (some q) ∧ s ∈ o [] s ∧ q.start = 0 ∧ q.stop = s.length ∧ q.all = s := by
  obtain ⟨c, hc, hf, _⟩ := prefer_compile h
  rw [(prefer_calls X hc s).2.1]
  have hsame : ((c.rx.run ⟨db, f⟩ ⟨[], s, []⟩).find? (·.post.isEmpty)).map Pos.place = ((o [] s).find? (· == s)).map (past [] s) := by
    refine find_same (hf.same _) fun q w hw e => ?_
    obtain ⟨x, hx⟩ := hf.part _ _ _ hw
    have h2 : q.post = s.drop w.length := (Prod.ext_iff.1 e).2
    have h3 : s.drop w.length = x := by rw [← hx, List.drop_left]
    rw [h2, h3, Bool.eq_iff_iff, List.isEmpty_iff, beq_iff_eq, ← hx]
    constructor
    · rintro rfl; simp
    · intro e; simpa using e
  cases e : (c.rx.run ⟨db, f⟩ ⟨[], s, []⟩).find? (·.post.isEmpty) with
  | none =>
    rw [e] at hsame
    refine .inl ⟨rfl, fun hm => ?_⟩
    have := List.find?_eq_none.1 (Option.map_eq_none_iff.1 hsame.symm) s hm
    simp at this
  | some q =>
    rw [e] at hsame
    obtain ⟨w, h1, h2⟩ := Option.map_eq_some_iff.1 hsame.symm
    obtain rfl : w = s := by simpa using List.find?_some h1
    have h3 : q.pre = w := by simpa [past, Pos.place] using (Prod.ext_iff.1 h2).1.symm
    refine .inr ⟨_, rfl, List.mem_of_find?_eq_some h1, rfl, ?_, match_text (st := []) (post := []) (by simp) _ q (by simpa using h3)⟩
    show q.pre.length = w.length
    rw [h3]

/-- Every text of the grammar has an order of preference, and the texts in it are those that match. -/
theorem C117_meaning (db : CharDb) (f : Flags) (t : Str) (m : Meaning) (h : Alts (reSem db f) t m) :
    (∃ o, PAlts (reSem db f) t o) ∧
    ∀ o, PAlts (reSem db f) t o → ∀ pre w post, w ∈ o pre (w ++ post) ↔ m pre w post := by
  refine ⟨alts_order h, fun o ho pre w post => ?_⟩
  obtain ⟨c, _, hf, ht⟩ := prefer_compile ho
  have hs := hf.same ⟨pre, w ++ post, []⟩
  constructor
  · intro hw
    have : past pre (w ++ post) w ∈ (c.rx.run ⟨db, f⟩ ⟨pre, w ++ post, []⟩).map Pos.place := by
      rw [hs]
      exact List.mem_map.2 ⟨w, hw, rfl⟩
    obtain ⟨q, hq, he⟩ := List.mem_map.1 this
    obtain ⟨v, h1, h2, h3⟩ := (ht m h).sound _ _ hq
    obtain ⟨h4, h5⟩ := Prod.ext_iff.1 he
    have e1 : q.pre = pre ++ w := h4
    have e2 : q.post = post := by rw [show q.post = _ from h5]; simp [past]
    rw [e2] at h3
    obtain rfl : v = w := List.append_cancel_left (h1.symm.trans e1)
    exact h3
  · intro hm
    obtain ⟨q, hq, h1, h2⟩ := (ht m h).complete ⟨pre, w ++ post, []⟩ w post rfl hm
    have : q.place ∈ (o pre (w ++ post)).map (past pre (w ++ post)) := by
      rw [← hs]
      exact List.mem_map.2 ⟨q, hq, rfl⟩
    obtain ⟨v, hv, he⟩ := List.mem_map.1 this
    have e : pre ++ v = pre ++ w := ((Prod.ext_iff.1 he).1.trans h1)
    rwa [List.append_cancel_left e] at hv

/-- The number of times that may be tried is only limited by the length of the string. -/
theorem more_enough {a : Order} (ha : ∀ pre rest u, u ∈ a pre rest → u <+: rest) (g : Bool) (n : Nat) : ∀ (m : Nat) (hi : Option Nat) (pre rest : Str),
    rest.length < n → rest.length < m → a.more g n hi pre rest = a.more g m hi pre rest := by
  induction n with
  | zero => intro _ _ _ _ h; omega
  | succ n ih =>
    intro m hi pre rest hn hm
    obtain ⟨m, rfl⟩ : ∃ k, m = k + 1 := ⟨m - 1, by omega⟩
    have e : ((a pre rest).flatMap fun u => if u = [] then [[]] else (a.more g n (hi.map (· - 1))).after pre rest u) =
        (a pre rest).flatMap fun u => if u = [] then [[]] else (a.more g m (hi.map (· - 1))).after pre rest u := by
      rw [List.flatMap_def, List.flatMap_def]
      refine congrArg _ (List.map_congr_left fun u hu => ?_)
      split
      · rfl
      · next hne =>
        have h1 := List.length_pos_iff.2 hne
        have h2 := (ha _ _ _ hu).length_le
        rw [Order.after, Order.after, ih m _ _ _ (by rw [List.length_drop]; omega) (by rw [List.length_drop]; omega)]
    rw [Order.more, Order.more]
    split
    · rfl
    · dsimp only
      rw [e]

/-- What a repetition prefers: a time and then the repetition, but nothing after a time that matches nothing; with `?` first nothing. -/
theorem C117_star (db : CharDb) (f : Flags) (t : Str) (o : Order) (h : PAtom (reSem db f) t o) (pre rest : Str) :
    o.times true 0 none pre rest =
      ((o pre rest).flatMap fun u => if u = [] then [[]] else (o.times true 0 none).after pre rest u) ++ [[]] ∧
    o.times false 0 none pre rest =
      [] :: (o pre rest).flatMap fun u => if u = [] then [[]] else (o.times false 0 none).after pre rest u := by
  have ha : ∀ pre rest u, u ∈ o pre rest → u <+: rest := by
    obtain ⟨c, _, hf, _⟩ := prefer_compile (.one (.cons (.one h) .nil))
    intro pre rest u hu
    have := hf.part pre rest u (by
      simp only [Order.seq, List.mem_flatMap]
      exact ⟨u, hu, by simp [Order.after, Order.eps]⟩)
    exact this
  have e0 : ∀ g pre rest, o.times g 0 none pre rest = o.more g (rest.length + 1) none pre rest := by
    intro g pre rest
    simp [Order.times, Order.seq, Order.rep, Order.eps, Order.after]
  have key : ∀ g, ((o pre rest).flatMap fun u => if u = [] then [[]] else (o.more g rest.length none).after pre rest u) =
      (o pre rest).flatMap fun u => if u = [] then [[]] else (o.times g 0 none).after pre rest u := by
    intro g
    rw [List.flatMap_def, List.flatMap_def]
    refine congrArg _ (List.map_congr_left fun u hu => ?_)
    split
    · rfl
    · next hne =>
      have h1 := List.length_pos_iff.2 hne
      have h2 := (ha _ _ _ hu).length_le
      rw [Order.after, Order.after, e0, more_enough ha g rest.length _ none _ _ (by rw [List.length_drop]; omega) (Nat.lt_succ_self _)]
  constructor
  · rw [e0, Order.more, ← key]
    rfl
  · rw [e0, Order.more, ← key]
    rfl

/-- `(?:ab?)*` is a text with a repetition in a repetition. -/
example (db : CharDb) (f : Flags) : PAlts (reSem db f) (s% "(?:ab?)*")
    (((((Order.chr ((reSem db f).lit 'a')).seq (((Order.chr ((reSem db f).lit 'b')).times true 0 (some 1)).seq .eps)).times true 0 none)).seq .eps) :=
  .one (.cons (t := s% "(?:ab?)*") (u := []) (.greedy (t := s% "(?:ab?)") (q := s% "*") (.group (t := s% "ab?")
    (.one (.cons (t := s% "a") (u := s% "b?") (.one (.one (.lit rfl)))
      (.cons (t := s% "b?") (u := []) (.greedy (t := s% "b") (q := s% "?") (.one (.lit rfl)) .opt) .nil)))) .star) .nil)

example : reExt.search (s% "(?:ab?)*") {} (s% "abaabc") = .ok (some ⟨0, 5, s% "abaab", [], []⟩) := by decide +kernel
example : reExt.search (s% "(?:ab?)*?c") {} (s% "abaabc") = .ok (some ⟨0, 6, s% "abaabc", [], []⟩) := by decide +kernel
/-- not the longest match: the first alternative is preferred each time -/
example : reExt.search (s% "(?:a|ab)(?:c|bcd)*") {} (s% "xabcdc") = .ok (some ⟨1, 6, s% "abcdc", [], []⟩) := by decide +kernel
example : reExt.search (s% "(?:a|ab|c)*") {} (s% "abc") = .ok (some ⟨0, 1, s% "a", [], []⟩) := by decide +kernel
/-- although the whole string could be matched -/
example : reExt.fullmatch (s% "(?:a|ab|c)*") {} (s% "abc") = .ok (some ⟨0, 3, s% "abc", [], []⟩) := by decide +kernel
/-- an empty match at the end of one that is not empty, and a time that matches nothing -/
example : reExt.finditer (s% "(?:a??b?)*") {} (s% "abca") =
    .ok [⟨0, 0, s% "", [], []⟩, ⟨0, 2, s% "ab", [], []⟩, ⟨2, 2, s% "", [], []⟩, ⟨3, 3, s% "", [], []⟩, ⟨3, 4, s% "a", [], []⟩, ⟨4, 4, s% "", [], []⟩] := by
  decide +kernel

end Pip
