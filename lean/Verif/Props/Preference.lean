import Verif.Lemmas.RexGroups
import Verif.Props.Regexes
/-!
# C108, C109: which match is found, and what the groups capture
-/

namespace Pip
open Re Rex

theorem fixed_branch {S : Sem} {v u : Str} {n : Nat} {k₀ k : Meaning} (hv : Fixed S v n k₀) (hu : Branch S u k) :
    Branch S (v ++ u) (k₀.seq k) := by
  induction hv with
  | nil => simpa [Meaning.eps_seq] using hu
  | cons h _ ih =>
    rw [List.append_assoc, Meaning.seq_assoc]
    exact .cons (.one (.one h)) ih

theorem run_piece {S : Sem} {g : Bool} {t : Str} {m : Meaning} (h : Run S g t m) : Piece S t m := by
  have inner : ∀ {t : Str} {m : Meaning}, Piece S t m → Alts S t m := by
    intro t m h
    have := Alts.one (Branch.cons h .nil)
    rwa [List.append_nil, Meaning.seq_eps] at this
  induction h with
  | greedy h hq => exact .greedy (.one h) hq
  | lazy h hq => exact .lazy (.one h) hq
  | group _ ih => exact .one (.group (inner ih))
  | capture _ ih => exact .one (.capture (inner ih))

/-- What a search finds, by what the parser makes of the text -/
theorem search_head {X : Ext} {db : CharDb} {f : Flags} {raw s : Str} {q : Match} {r : Rx} {C : Ctx} {m : Meaning} (ha : Alts (reSem db f) raw m)
    (hp : parseAlts (4 * raw.length + 36) allCtx (raw ++ s% ")") = .ok (r, C, s% ")"))
    (h : (X.withRe db).search raw f s = .ok (some q)) :
    ∃ y, (r.run ⟨db, f⟩ ⟨s.take q.start, s.drop q.start, []⟩).head? = some y ∧ y.post = s.drop q.stop ∧
      q.all = (s.take q.stop).drop q.start ∧ q.start ≤ q.stop ∧ q.stop ≤ s.length := by
  have hc := compileAll_of (noRefs_alts ha _ _ (.chr (by decide) .nil)) hp
  have hs : (X.withRe db).search raw f s =
      .ok ((seekFrom ⟨db, f⟩ (.seq (.cap 1 r) .eps) [] false s).map fun m => mkMatch (C.next - 1) s m.1 m.2) := by
    show reCall (compileAll raw >>= _) _ = _
    rw [hc]
    rfl
  rw [hs] at h
  injection h with h
  rw [Option.map_eq_some_iff] at h
  obtain ⟨⟨st, y⟩, h1, rfl⟩ := h
  obtain ⟨c, x, h2, h3, h4⟩ := compileAll_alts ha
  rw [hc] at h2
  injection h2 with h2
  subst h2
  obtain rfl : r = x := by
    simp only [Rx.seq.injEq, Rx.cap.injEq, true_and, and_true] at h3
    exact h3
  have hk := seek_spec (tracks_all h4) s s [] false rfl
  rw [h1] at hk
  obtain ⟨h5, ⟨h6, h7, _⟩, _, _, h8⟩ := hk
  obtain ⟨post, h9, h10⟩ := seek_head s [] h1
  obtain ⟨x, h11, h12, h13⟩ := cap_head h10
  have e1 : s.take st.length = st := h8.symm
  have e2 : s.drop st.length = post := drop_pre (by simpa using h9)
  refine ⟨x, ?_, ?_, between_eq _ _ _, h6, h7⟩
  · show (r.run _ ⟨s.take st.length, s.drop st.length, []⟩).head? = _
    rw [e1, e2]
    exact h11
  · rw [h13]
    exact (drop_pre h5).symm

/-- C108: a repetition of one character takes as much as possible, or as little as possible if it is followed by `?`. -/
theorem C108_run (X : Ext) (db : CharDb) (f : Flags) (g : Bool) (v t u : Str) (n : Nat) (k₀ m k : Meaning) (s : Str) (q : Match)
    (hv : Fixed (reSem db f) v n k₀) (ht : Run (reSem db f) g t m) (hu : Branch (reSem db f) u k)
    (h : (X.withRe db).search (v ++ (t ++ u)) f s = .ok (some q)) :
    ∃ a b c, q.all = a ++ b ++ c ∧ s = s.take q.start ++ a ++ b ++ c ++ s.drop q.stop ∧ a.length = n ∧
      k₀ (s.take q.start) a (b ++ c ++ s.drop q.stop) ∧ m (s.take q.start ++ a) b (c ++ s.drop q.stop) ∧
      k (s.take q.start ++ a ++ b) c (s.drop q.stop) ∧
      ∀ b' c' post, s = s.take q.start ++ a ++ b' ++ c' ++ post → m (s.take q.start ++ a) b' (c' ++ post) →
        k (s.take q.start ++ a ++ b') c' post → if g then b'.length ≤ b.length else b.length ≤ b'.length := by
  have hb : Branch (reSem db f) (v ++ (t ++ u)) (k₀.seq (m.seq k)) := fixed_branch hv (.cons (run_piece ht) hu)
  obtain ⟨hl, hh⟩ := run_leads ht hu
  obtain ⟨r, C, hp, hr⟩ := fixed_leads hv hl hh (4 * (v ++ (t ++ u)).length + 35) allCtx (s% ")") (by omega)
    (by rintro _ _ ⟨⟩; exact .inr rfl)
  have hp' : parseAlts (4 * (v ++ (t ++ u)).length + 36) allCtx (v ++ (t ++ u) ++ s% ")") = .ok (r, C, s% ")") := by
    simp only [parseAlts]
    rw [hp]
    rfl
  obtain ⟨y, h1, h2, h3, h4, h5⟩ := search_head (.one hb) hp' h
  obtain ⟨a, b, c, h6, h7, h8, h9, h10, h11, h12⟩ := hr _ _ h1
  rw [h2] at h7 h9 h10 h11
  dsimp only at h6 h7 h9 h10 h11 h12
  have hs : s = s.take q.start ++ a ++ b ++ c ++ s.drop q.stop := by
    conv_lhs => rw [← List.take_append_drop q.start s, h7]
    simp
  refine ⟨a, b, c, ?_, hs, h8, h9, h10, h11, ?_⟩
  · obtain ⟨e, _⟩ := split_at h4 h5
    rw [h3]
    have : s.take q.start ++ (s.take q.stop).drop q.start ++ s.drop q.stop = s.take q.start ++ (a ++ b ++ c) ++ s.drop q.stop := by
      rw [← e]
      simpa using hs
    exact List.append_cancel_left (List.append_cancel_right this)
  · intro b' c' post e hm hk
    have := h12 b' c' post ?_ hm hk
    · cases g
      · exact this
      · exact this
    · have e' : s.take q.start ++ s.drop q.start = s.take q.start ++ (a ++ b' ++ c' ++ post) := by
        rw [List.take_append_drop]
        simpa using e
      exact List.append_cancel_left e'

/-- `<.*>` and `<(.*?)>` are such texts: -/
example (db : CharDb) (f : Flags) : Fixed (reSem db f) (s% "<") 1 ((Meaning.chr ((reSem db f).lit '<')).seq .eps) ∧
    Run (reSem db f) true (s% ".*") ((Meaning.chr (reSem db f).dot).times 0 none) ∧
    Run (reSem db f) false (s% "(.*?)") ((Meaning.chr (reSem db f).dot).times 0 none) ∧
    Branch (reSem db f) (s% ">") ((Meaning.chr ((reSem db f).lit '>')).seq .eps) :=
  ⟨.cons (t := s% "<") (u := []) (.lit rfl) .nil, .greedy (t := s% ".") (q := s% "*") .dot .star,
    .capture (t := s% ".*?") (.lazy (t := s% ".") (q := s% "*") .dot .star), .cons (t := s% ">") (u := []) (.one (.one (.lit rfl))) .nil⟩

example : reExt.search (s% "<.*>") {} (s% "x<a><b>y") = .ok (some ⟨1, 7, s% "<a><b>", [], []⟩) := by decide +kernel
example : reExt.search (s% "<(.*?)>") {} (s% "x<a><b>y") = .ok (some ⟨1, 4, s% "<a>", [some (s% "a")], [(2, 3)]⟩) := by decide +kernel
example : reExt.search (s% "a{2,3}") {} (s% "baaaa") = .ok (some ⟨1, 4, s% "aaa", [], []⟩) := by decide +kernel
example : reExt.search (s% "a{2,3}?") {} (s% "baaaa") = .ok (some ⟨1, 3, s% "aa", [], []⟩) := by decide +kernel

/-- Of two alternatives the first is taken if it matches where the match begins. -/
theorem C108_alternative (X : Ext) (db : CharDb) (f : Flags) (t u : Str) (m k : Meaning) (s : Str) (q : Match)
    (ht : Branch (reSem db f) t m) (hu : Alts (reSem db f) u k) (h : (X.withRe db).search (t ++ s% "|" ++ u) f s = .ok (some q))
    (w post : Str) (hw : s.drop q.start = w ++ post) (hm : m (s.take q.start) w post) :
    m (s.take q.start) q.all (s.drop q.stop) := by
  obtain ⟨N, hN⟩ : ∃ N, 4 * (t ++ s% "|" ++ u).length + 36 = N + 1 := ⟨_, rfl⟩
  have hl : 4 * t.length + 4 * u.length + 40 = N + 1 := by
    rw [← hN]
    simp
    omega
  obtain ⟨a, C1, h3, h4, h5⟩ := parse_branch_ok ht N allCtx ('|' :: (u ++ s% ")")) (by omega) (by rintro _ _ ⟨⟩; exact .inl rfl)
  obtain ⟨b, C2, h6, h7, h8⟩ := parse_alts_ok hu N C1 (s% ")") (by omega) (by rintro _ _ ⟨⟩; rfl)
  have hp : parseAlts (4 * (t ++ s% "|" ++ u).length + 36) allCtx (t ++ s% "|" ++ u ++ s% ")") = .ok (.alt a b, C2, s% ")") := by
    have e : t ++ s% "|" ++ u ++ s% ")" = t ++ '|' :: (u ++ s% ")") := by simp
    rw [e, hN]
    simp only [parseAlts]
    rw [h3]
    simp only [bind, Except.bind]
    rw [h6]
    rfl
  obtain ⟨y, g1, g2, g3, g4, g5⟩ := search_head (.more ht hu) hp h
  have hta : Tracks (a.run ⟨db, f⟩) m := h4.den ▸ Rx.tracks ⟨db, f⟩ a h4.noRef
  have hne := (hta.nonempty ⟨s.take q.start, s.drop q.start, []⟩).2 ⟨w, post, hw, hm⟩
  rw [Rx.run] at g1
  cases e : a.run ⟨db, f⟩ ⟨s.take q.start, s.drop q.start, []⟩ with
  | nil => exact absurd e hne
  | cons x l =>
    rw [e] at g1
    obtain rfl : x = y := by simpa using g1
    obtain ⟨z, _, i2, i3⟩ := hta.sound _ x (by rw [e]; simp)
    rw [g2] at i2 i3
    dsimp only at i2 i3
    have : z = q.all := by
      obtain ⟨e, _⟩ := split_at g4 g5
      rw [g3]
      have e2 : s = s.take q.start ++ z ++ s.drop q.stop := by
        conv_lhs => rw [← List.take_append_drop q.start s, i2]
        simp
      exact List.append_cancel_left (List.append_cancel_right (e2.symm.trans e))
    rw [← this]
    exact i3

example : reExt.search (s% "a|ab") {} (s% "xab") = .ok (some ⟨1, 2, s% "a", [], []⟩) := by decide +kernel
/-- the second if the first does not match there -/
example : reExt.search (s% "b|ab") {} (s% "xab") = .ok (some ⟨1, 3, s% "ab", [], []⟩) := by decide +kernel

/-! ### C109: what the groups capture -/

/-- A match of parts one after the other: the groups are the texts matched by the parts that are groups. -/
def GroupsOf (s : Str) (l : List (Bool × Meaning)) (q : Match) : Prop :=
  ∃ ws, q.all = ws.flatten ∧ s = s.take q.start ++ ws.flatten ++ s.drop q.stop ∧ Fits l (s.take q.start) ws (s.drop q.stop) ∧
    q.groups = (captured q.start l ws).map (fun x => some x.1) ∧ q.regs = (captured q.start l ws).map fun x => ((x.2.1 : Int), (x.2.2 : Int))

theorem captured_length {l : List (Bool × Meaning)} : ∀ {pre : Str} {ws : List Str} {post : Str} (i : Nat), Fits l pre ws post →
    (captured i l ws).length = groupsIn l := by
  induction l with
  | nil =>
    intro pre ws post i h
    cases ws <;> first | rfl | cases h
  | cons x l ih =>
    intro pre ws post i h
    cases ws with
    | nil => cases h
    | cons w ws =>
      obtain ⟨b, m⟩ := x
      cases b
      · exact ih _ h.2
      · simp only [captured, List.length_cons, ih _ h.2]
        simp [groupsIn]

theorem captured_text {s : Str} {l : List (Bool × Meaning)} : ∀ {pre : Str} {ws : List Str} {post : Str}, s = pre ++ ws.flatten ++ post →
    ∀ x ∈ captured pre.length l ws, between s x.2.1 x.2.2 = x.1 := by
  induction l with
  | nil =>
    intro pre ws post _ x hx
    cases ws <;> cases hx
  | cons y l ih =>
    intro pre ws post hs x hx
    cases ws with
    | nil => obtain ⟨b, m⟩ := y; cases b <;> cases hx
    | cons w ws =>
      have hs' : s = (pre ++ w) ++ ws.flatten ++ post := by simpa using hs
      obtain ⟨b, m⟩ := y
      cases b
      · rw [captured, ← List.length_append] at hx
        exact ih hs' x hx
      · rw [captured, ← List.length_append] at hx
        rcases List.mem_cons.1 hx with rfl | hx
        · have e : s = pre ++ (w ++ (ws.flatten ++ post)) := by simpa using hs
          simp only [between, List.length_append]
          rw [e, List.drop_left, Nat.add_sub_cancel_left, List.take_left]
        · exact ih hs' x hx

theorem groupsOf_match {db : CharDb} {f : Flags} {r : Rx} {l : List (Bool × Meaning)} {s st post : Str} {q : Pos} {n : Nat}
    (hr : Captures ⟨db, f⟩ r 2 l) (hn : n = 1 + groupsIn l) (hs : s = st ++ post) (hq : q ∈ (Rx.seq (.cap 1 r) .eps).run ⟨db, f⟩ ⟨st, post, []⟩) :
    GroupsOf s l (mkMatch n s st q) := by
  simp only [Rx.run, List.mem_flatMap, List.mem_map, List.mem_singleton] at hq
  obtain ⟨_, ⟨x, hx, rfl⟩, rfl⟩ := hq
  obtain ⟨ws, h1, h2, h3, h4⟩ := hr _ _ hx
  dsimp only at h1 h2 h3 h4
  have hs' : s = st ++ ws.flatten ++ x.post := by rw [hs, h2, List.append_assoc]
  have e1 : s.take st.length = st := take_pre hs
  have e2 : s.drop x.pre.length = x.post := drop_pre (by rw [h1]; exact hs')
  have hl := captured_length st.length h3
  have hlook : ∀ i, i < groupsIn l → List.lookup (i + 2) ((1, st.length, x.pre.length) :: x.caps) = (captured st.length l ws)[i]?.map (·.2) := by
    intro i hi
    rw [List.lookup_cons, show ((i + 2 == 1) = false) by simp, h4]
    show List.lookup (i + 2) (capsAfter 2 _ _) = _
    rw [Nat.add_comm, lookup_caps _ _ _ _ (by rw [hl]; exact hi)]
  refine ⟨ws, ?_, ?_, ?_, ?_, ?_⟩
  · show between s st.length x.pre.length = _
    rw [between_eq, h1, take_pre hs', List.drop_left]
  · show s = s.take st.length ++ _ ++ s.drop x.pre.length
    rw [e1, e2]
    exact hs'
  · show Fits l (s.take st.length) ws (s.drop x.pre.length)
    rw [e1, e2]
    exact h3
  · show (List.range (n - 1)).map _ = _
    rw [hn, Nat.add_sub_cancel_left]
    apply List.ext_getElem
    · simp only [List.length_map, List.length_range]
      exact hl.symm
    · intro i h5 h6
      have hi : i < (captured st.length l ws).length := by
        rw [List.length_map] at h6
        exact h6
      simp only [List.getElem_map, List.getElem_range, Pos.group]
      rw [hlook i (by rw [← hl]; exact hi), List.getElem?_eq_getElem hi]
      show some (between s _ _) = some _
      rw [captured_text hs' _ (List.getElem_mem hi)]
      rfl
  · show (List.range (n - 1)).map _ = _
    rw [hn, Nat.add_sub_cancel_left]
    apply List.ext_getElem
    · simp only [List.length_map, List.length_range]
      exact hl.symm
    · intro i h5 h6
      have hi : i < (captured st.length l ws).length := by
        rw [List.length_map] at h6
        exact h6
      simp only [List.getElem_map, List.getElem_range]
      rw [hlook i (by rw [← hl]; exact hi), List.getElem?_eq_getElem hi]
      rfl

theorem seek_mem {E : Env} {r : Rx} {st : Str} {q : Pos} (post : Str) : ∀ (pre : Str) (adv : Bool), seekFrom E r pre adv post = some (st, q) →
    ∃ post', pre ++ post = st ++ post' ∧ q ∈ r.run E ⟨st, post', []⟩ := by
  induction post with
  | nil =>
    intro pre adv h
    rw [seekFrom] at h
    split at h
    · next q' e =>
      obtain ⟨rfl, rfl⟩ : pre = st ∧ q' = q := by simpa using h
      exact ⟨[], rfl, List.mem_of_find?_eq_some e⟩
    · simp at h
  | cons c post ih =>
    intro pre adv h
    rw [seekFrom] at h
    split at h
    · next q' e =>
      obtain ⟨rfl, rfl⟩ : pre = st ∧ q' = q := by simpa using h
      exact ⟨c :: post, rfl, List.mem_of_find?_eq_some e⟩
    · obtain ⟨post', h1, h2⟩ := ih _ _ h
      exact ⟨post', by simpa using h1, h2⟩

theorem all_mem {E : Env} {r : Rx} {m : Meaning} (ht : Tracks (r.run E) m) {x : Str × Pos} (n : Nat) : ∀ (pre : Str) (adv : Bool) (post : Str),
    x ∈ allFrom E r n pre adv post → ∃ post', pre ++ post = x.1 ++ post' ∧ x.2 ∈ r.run E ⟨x.1, post', []⟩ := by
  induction n with
  | zero => intro pre adv post h; cases h
  | succ n ih =>
    intro pre adv post h
    rw [allFrom] at h
    split at h
    · cases h
    · next st q e =>
      obtain ⟨post', h1, h2⟩ := seek_mem _ _ _ e
      rcases List.mem_cons.1 h with rfl | h
      · exact ⟨post', h1, h2⟩
      · obtain ⟨w, h3, h4, _⟩ := ht.sound _ _ h2
        obtain ⟨p2, h5, h6⟩ := ih _ _ _ h
        refine ⟨p2, ?_, h6⟩
        rw [← h5, h3, h1]
        dsimp only at h4 ⊢
        rw [h4, List.append_assoc]

/-- C109: the groups of a match are what the parts in parentheses matched, with their positions. -/
theorem C109_groups (X : Ext) (db : CharDb) (f : Flags) (t : Str) (l : List (Bool × Meaning)) (h : Parts (reSem db f) t l) (s : Str) :
    (∀ q, (X.withRe db).search t f s = .ok (some q) → GroupsOf s l q) ∧
    (∀ q, (X.withRe db).fullmatch t f s = .ok (some q) → GroupsOf s l q) ∧
    ∀ qs, (X.withRe db).finditer t f s = .ok qs → ∀ q ∈ qs, GroupsOf s l q := by
  obtain ⟨h0, m, hb⟩ := parts_ok h
  obtain ⟨r, C, hp, hr, hc⟩ := h0 (4 * t.length + 35) allCtx (s% ")") (by omega) (by rintro _ _ ⟨⟩; exact .inr rfl)
  have hp' : parseAlts (4 * t.length + 36) allCtx (t ++ s% ")") = .ok (r, C, s% ")") := by
    simp only [parseAlts]
    rw [hp]
    rfl
  have hcomp := compileAll_of (noRefs_alts (.one hb) _ _ (.chr (by decide) .nil)) hp'
  obtain ⟨c, x, h2, h3, h4⟩ := compileAll_alts (.one hb)
  rw [hcomp] at h2
  injection h2 with h2
  subst h2
  obtain rfl : r = x := by
    simp only [Rx.seq.injEq, Rx.cap.injEq, true_and, and_true] at h3
    exact h3
  have hn : C.next - 1 = 1 + groupsIn l := by
    rw [hc]
    show 2 + _ - 1 = _
    omega
  refine ⟨?_, ?_, ?_⟩
  · intro q hq
    have hs : (X.withRe db).search t f s =
        .ok ((seekFrom ⟨db, f⟩ (.seq (.cap 1 r) .eps) [] false s).map fun m => mkMatch (C.next - 1) s m.1 m.2) := by
      show reCall (compileAll t >>= _) _ = _
      rw [hcomp]
      rfl
    rw [hs] at hq
    injection hq with hq
    rw [Option.map_eq_some_iff] at hq
    obtain ⟨⟨st, y⟩, h5, rfl⟩ := hq
    obtain ⟨post, h6, h7⟩ := seek_mem _ _ _ h5
    exact groupsOf_match hr hn h6 h7
  · intro q hq
    have hs : (X.withRe db).fullmatch t f s =
        .ok ((((Rx.seq (.cap 1 r) .eps).run ⟨db, f⟩ ⟨[], s, []⟩).find? (·.post.isEmpty)).map fun q => mkMatch (C.next - 1) s [] q) := by
      show reCall (compileAll t >>= _) _ = _
      rw [hcomp]
      rfl
    rw [hs] at hq
    injection hq with hq
    rw [Option.map_eq_some_iff] at hq
    obtain ⟨y, h5, rfl⟩ := hq
    exact groupsOf_match hr hn rfl (List.mem_of_find?_eq_some h5)
  · intro qs hqs q hq
    have hs : (X.withRe db).finditer t f s =
        .ok ((allFrom ⟨db, f⟩ (.seq (.cap 1 r) .eps) (2 * s.length + 2) [] false s).map fun m => mkMatch (C.next - 1) s m.1 m.2) := by
      show reCall (compileAll t >>= _) _ = _
      rw [hcomp]
      rfl
    rw [hs] at hqs
    injection hqs with hqs
    subst hqs
    obtain ⟨y, h5, rfl⟩ := List.mem_map.1 hq
    obtain ⟨post, h6, h7⟩ := all_mem (tracks_all h4) _ _ _ _ h5
    exact groupsOf_match hr hn h6 h7

/-- `([0-9]+)-(.)` has three parts. -/
example (db : CharDb) (f : Flags) : ∃ m k, Parts (reSem db f) (s% "([0-9]+)-(.)") [(true, m), (false, k), (true, (Meaning.chr (reSem db f).dot).seq .eps)] :=
  ⟨_, _, .group (t := s% "[0-9]+") (u := s% "-(.)")
    (.one (.cons (t := s% "[0-9]+") (u := []) (.greedy (t := s% "[0-9]") (q := s% "+") (.one (.other (.set (t := s% "0-9") (.plain (.one (.range (t := s% "0") (u := s% "9") (.plain rfl) (.plain rfl) (by decide)))) (by decide)))) .plus) .nil))
    (by decide) (.plain (t := s% "-") (u := s% "(.)") (.one (.one (.lit rfl))) (by decide)
      (.group (t := s% ".") (u := []) (.one (.cons (t := s% ".") (u := []) (.one (.one .dot)) .nil)) (by decide) .nil))⟩

example : reExt.finditer (s% "([0-9]+)-(.)") {} (s% "12-a 3-bc") =
    .ok [⟨0, 4, s% "12-a", [some (s% "12"), some (s% "a")], [(0, 2), (3, 4)]⟩, ⟨5, 8, s% "3-b", [some (s% "3"), some (s% "b")], [(5, 6), (7, 8)]⟩] := by
  decide +kernel
example : reExt.search (s% "\\((.*),") {} (s% "f(x,y,z)") = .ok (some ⟨1, 6, s% "(x,y,", [some (s% "x,y")], [(2, 5)]⟩) := by decide +kernel

end Pip
