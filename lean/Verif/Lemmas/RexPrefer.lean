import Verif.Spec.Prefer
import Verif.Lemmas.RexFind
/-!
# The matcher tries the matches in the order of preference
-/

namespace Pip.Rex
open Re

/-- The position, without the groups -/
def Pos.place (q : Pos) : Str × Str := (q.pre, q.post)

/-- The position after a text -/
def past (pre post w : Str) : Str × Str := (pre ++ w, post.drop w.length)

/-- The ways of matching are those of the order, in this order. -/
structure Follow (body : Pos → List Pos) (o : Order) : Prop where
  same : ∀ p, (body p).map Pos.place = (o p.pre p.post).map (past p.pre p.post)
  part : ∀ pre post w, w ∈ o pre post → w <+: post

theorem flatMap_same {α β γ δ : Type} {f : α → γ} {g : β → γ} {F : α → List α} {G : β → List δ} {h : δ → γ} :
    ∀ {l : List α} {l' : List β}, l.map f = l'.map g → (∀ x y, x ∈ l → y ∈ l' → f x = g y → (F x).map f = (G y).map h) →
    (l.flatMap F).map f = (l'.flatMap G).map h := by
  intro l
  induction l with
  | nil =>
    intro l' e _
    cases l' with
    | nil => rfl
    | cons _ _ => cases e
  | cons x l ih =>
    intro l' e hF
    cases l' with
    | nil => cases e
    | cons y l' =>
      simp only [List.map_cons, List.cons.injEq] at e
      simp only [List.flatMap_cons, List.map_append]
      rw [hF x y (by simp) (by simp) e.1, ih e.2 fun a b ha hb => hF a b (by simp [ha]) (by simp [hb])]

theorem follow_eps : Follow (fun p => [p]) .eps :=
  ⟨fun p => by simp [Order.eps, past, Pos.place], fun _ _ w h => by
    obtain rfl : w = [] := by simpa [Order.eps] using h
    exact List.nil_prefix⟩

theorem after_past {o : Order} {pre post u : Str} {q : Pos} (h : q.place = past pre post u) (f : Pos → List Pos)
    (hf : (f q).map Pos.place = (o q.pre q.post).map (past q.pre q.post)) :
    (f q).map Pos.place = (o.after pre post u).map (past pre post) := by
  obtain ⟨h1, h2⟩ : q.pre = pre ++ u ∧ q.post = post.drop u.length := by simpa [Pos.place, past] using h
  rw [hf, Order.after, List.map_map, h1, h2]
  apply List.map_congr_left
  intro w _
  simp [past, List.drop_drop]

theorem prefix_after {o : Order} {pre post u : Str} (hu : u <+: post) (h : ∀ pre post w, w ∈ o pre post → w <+: post) :
    ∀ w ∈ o.after pre post u, w <+: post := by
  intro w hw
  obtain ⟨v, hv, rfl⟩ := List.mem_map.1 hw
  obtain ⟨x, rfl⟩ := hu
  have := h _ _ _ hv
  rw [List.drop_left] at this
  exact (List.prefix_append_right_inj u).2 this

theorem Follow.seq {f g : Pos → List Pos} {a b : Order} (hf : Follow f a) (hg : Follow g b) : Follow (fun p => (f p).flatMap g) (a.seq b) where
  same := fun p => flatMap_same (hf.same p) fun x y _ _ e => after_past e g (hg.same x)
  part := by
    intro pre post w hw
    obtain ⟨u, hu, hw⟩ := List.mem_flatMap.1 hw
    exact prefix_after (hf.part _ _ _ hu) hg.part w hw

theorem Follow.alt {f g : Pos → List Pos} {a b : Order} (hf : Follow f a) (hg : Follow g b) : Follow (fun p => f p ++ g p) (a.alt b) where
  same := fun p => by simp only [Order.alt, List.map_append, hf.same, hg.same]
  part := by
    intro pre post w hw
    rcases List.mem_append.1 hw with hw | hw
    · exact hf.part _ _ _ hw
    · exact hg.part _ _ _ hw

theorem Follow.times {f : Pos → List Pos} {a : Order} (hf : Follow f a) (n : Nat) : Follow (Rex.times f n) (a.rep n) := by
  induction n with
  | zero => exact follow_eps
  | succ n ih => exact hf.seq ih

theorem less_eq (hi : Option Nat) : less hi = hi.map (· - 1) := by cases hi <;> rfl

theorem more_part {a : Order} (ha : ∀ pre post w, w ∈ a pre post → w <+: post) (g : Bool) (n : Nat) : ∀ hi pre post w,
    w ∈ a.more g n hi pre post → w <+: post := by
  induction n with
  | zero =>
    intro hi pre post w h
    obtain rfl : w = [] := by simpa [Order.more, Order.eps] using h
    exact List.nil_prefix
  | succ n ih =>
    intro hi pre post w h
    rw [Order.more] at h
    split at h
    · obtain rfl : w = [] := by simpa using h
      exact List.nil_prefix
    · have : w = [] ∨ w ∈ (a pre post).flatMap fun u => if u = [] then [[]] else (a.more g n (hi.map (· - 1))).after pre post u := by
        cases g
        · exact List.mem_cons.1 h
        · rcases List.mem_append.1 h with h | h
          · exact .inr h
          · exact .inl (List.mem_singleton.1 h)
      rcases this with rfl | h
      · exact List.nil_prefix
      · obtain ⟨u, hu, h⟩ := List.mem_flatMap.1 h
        split at h
        · obtain rfl : w = [] := by simpa using h
          exact List.nil_prefix
        · exact prefix_after (ha _ _ _ hu) (ih _) w h

theorem more_same {f : Pos → List Pos} {a : Order} (hf : Follow f a) (g : Bool) (n : Nat) : ∀ hi p,
    (if g then greedyMore f n hi p else lazyMore f n hi p).map Pos.place = (a.more g n hi p.pre p.post).map (past p.pre p.post) := by
  induction n with
  | zero =>
    intro hi p
    cases g <;> simp [greedyMore, lazyMore, Order.more, Order.eps, past, Pos.place]
  | succ n ih =>
    intro hi p
    have key : ((f p).flatMap fun q => if q.post.length = p.post.length then [q] else
        if g then greedyMore f n (less hi) q else lazyMore f n (less hi) q).map Pos.place =
        ((a p.pre p.post).flatMap fun u => if u = [] then [[]] else (a.more g n (hi.map (· - 1))).after p.pre p.post u).map (past p.pre p.post) := by
      refine flatMap_same (hf.same p) fun q u _ hu e => ?_
      obtain ⟨h1, h2⟩ : q.pre = p.pre ++ u ∧ q.post = p.post.drop u.length := by simpa [Pos.place, past] using e
      have hl : q.post.length = p.post.length ↔ u = [] := by
        obtain ⟨v, hv⟩ := hf.part _ _ _ hu
        rw [h2, ← hv, List.drop_left, List.length_append]
        constructor
        · intro h
          exact List.eq_nil_of_length_eq_zero (by omega)
        · rintro rfl
          simp
      by_cases h0 : u = []
      · rw [if_pos (hl.2 h0), if_pos h0]
        subst h0
        simpa using e
      · rw [if_neg (fun h => h0 (hl.1 h)), if_neg h0, less_eq]
        exact after_past (o := a.more g n (hi.map (· - 1))) e (fun q => if g then greedyMore f n (hi.map (· - 1)) q else lazyMore f n (hi.map (· - 1)) q) (ih _ q)
    by_cases h0 : hi = some 0
    · cases g <;> simp [greedyMore, lazyMore, Order.more, h0, past, Pos.place]
    · cases g
      · simp only [lazyMore, Order.more, if_neg h0, Bool.false_eq_true, if_false, List.map_cons] at key ⊢
        rw [key]
        simp [past, Pos.place]
      · simp only [greedyMore, Order.more, if_neg h0, if_true, List.map_append, List.map_cons, List.map_nil] at key ⊢
        rw [key]
        simp [past, Pos.place]

theorem Follow.repeat {E : Env} {r : Rx} {a : Order} (h : Follow (r.run E) a) (lo : Nat) (hi : Option Nat) (g : Bool) :
    Follow ((Rx.rep r lo hi g).run E) (a.times g lo hi) := by
  have h2 : Follow (fun q => if g then greedyMore (r.run E) (q.post.length + 1) (hi.map (· - lo)) q
      else lazyMore (r.run E) (q.post.length + 1) (hi.map (· - lo)) q)
      (fun pre rest => a.more g (rest.length + 1) (hi.map (· - lo)) pre rest) :=
    ⟨fun p => more_same h g _ _ p, fun pre post w hw => more_part h.part g _ _ _ _ _ hw⟩
  exact (h.times lo).seq h2

theorem follow_chr {body : Pos → List Pos} {p : Char → Prop} (b : Char → Bool) (hb : ∀ c, b c = true ↔ p c)
    (h : ∀ pre c post caps, body ⟨pre, c :: post, caps⟩ = if b c then [⟨pre ++ [c], post, caps⟩] else [])
    (h0 : ∀ pre caps, body ⟨pre, [], caps⟩ = []) : Follow body (.chr p) where
  same := by
    rintro ⟨pre, post, caps⟩
    cases post with
    | nil => rw [h0]; rfl
    | cons c post =>
      rw [h, Order.chr]
      by_cases hc : p c
      · rw [if_pos ((hb c).2 hc), if_pos hc]
        simp [past, Pos.place]
      · rw [if_neg fun h => hc ((hb c).1 h), if_neg hc]
        rfl
  part := by
    intro pre post w hw
    cases post with
    | nil => simp [Order.chr] at hw
    | cons c post =>
      simp only [Order.chr] at hw
      split at hw
      · obtain rfl : w = [c] := by simpa using hw
        exact ⟨post, rfl⟩
      · cases hw

theorem follow_pos {body : Pos → List Pos} {p : Str → Str → Prop}
    (h : ∀ q, p q.pre q.post → (body q).map Pos.place = [q.place]) (h0 : ∀ q, ¬ p q.pre q.post → body q = []) : Follow body (.pos p) where
  same := by
    intro q
    rw [Order.pos]
    by_cases hp : p q.pre q.post
    · rw [if_pos hp, h q hp]
      simp [past, Pos.place]
    · rw [if_neg hp, h0 q hp]
      rfl
  part := by
    intro pre post w hw
    simp only [Order.pos] at hw
    split at hw
    · obtain rfl : w = [] := by simpa using hw
      exact List.nil_prefix
    · cases hw

theorem follow_single {db : CharDb} {f : Flags} {r : Rx} {p : Char → Prop} (h : r.single = true) (hm : r.Means db f (.chr p)) :
    Follow (r.run ⟨db, f⟩) (.chr p) := by
  have key : ∀ q : Char → Prop, Meaning.chr q = Meaning.chr p → ∀ c, q c ↔ p c := by
    intro q e c
    have := congrFun (congrFun (congrFun e []) [c]) []
    simpa [Meaning.chr] using this
  cases r with
  | set neg items => exact follow_chr (fun c => items.any (·.has ⟨db, f⟩ c) != neg) (key _ hm.den) (fun _ _ _ _ => rfl) (fun _ _ => rfl)
  | dot => exact follow_chr (fun c => f.s || c != '\n') (key _ hm.den) (fun _ _ _ _ => rfl) (fun _ _ => rfl)
  | _ => cases h

/-- Assertions about the position -/
theorem follow_look {db : CharDb} {f : Flags} {r : Rx} {p : Str → Str → Prop} (h : ∀ q, (r.run ⟨db, f⟩ q).map Pos.place = [q.place] ∨ r.run ⟨db, f⟩ q = [])
    (hm : r.Means db f (.pos p)) : Follow (r.run ⟨db, f⟩) (.pos p) := by
  have ht : Tracks (r.run ⟨db, f⟩) (.pos p) := hm.den ▸ Rx.tracks ⟨db, f⟩ r hm.noRef
  refine follow_pos (fun q hp => ?_) fun q hp => ?_
  · have := (ht.nonempty q).2 ⟨[], q.post, rfl, rfl, hp⟩
    rcases h q with e | e
    · exact e
    · exact absurd e this
  · refine Classical.byContradiction fun hne => ?_
    obtain ⟨u, v, e, rfl, hq⟩ := (ht.nonempty q).1 hne
    rw [List.nil_append] at e
    rw [e] at hp
    exact hp hq

/-! ### What the parser makes of the texts -/

def PAtomOk (db : CharDb) (f : Flags) (t : Str) (o : Order) : Prop :=
  ∀ n C rest, 4 * t.length ≤ n → ∃ c u r C', t = c :: u ∧ atomStart c = true ∧ parseAtom n C c (u ++ rest) = .ok (r, false, C', rest) ∧
    Follow (r.run ⟨db, f⟩) o
def PPieceOk (db : CharDb) (f : Flags) (t : Str) (o : Order) : Prop :=
  ∀ n C rest, 4 * t.length ≤ n → AfterPiece rest → ∃ c u a isAt s C' r, t = c :: u ∧ atomStart c = true ∧
    parseAtom n C c (u ++ rest) = .ok (a, isAt, C', s) ∧ quantify a isAt s = .ok (r, rest) ∧ Follow (r.run ⟨db, f⟩) o
def PBranchOk (db : CharDb) (f : Flags) (t : Str) (o : Order) : Prop :=
  ∀ n C rest, 4 * t.length + 1 ≤ n → EndOk (fun c => c = '|' ∨ c = ')') rest → ∃ r C', parseBranch n C (t ++ rest) = .ok (r, C', rest) ∧
    Follow (r.run ⟨db, f⟩) o
def PAltsOk (db : CharDb) (f : Flags) (t : Str) (o : Order) : Prop :=
  ∀ n C rest, 4 * t.length + 2 ≤ n → EndOk (fun c => c = ')') rest → ∃ r C', parseAlts n C (t ++ rest) = .ok (r, C', rest) ∧
    Follow (r.run ⟨db, f⟩) o

section
variable {db : CharDb} {f : Flags}

theorem p_piece {t : Str} {o : Order} (h : PAtomOk db f t o) : PPieceOk db f t o := by
  intro n C rest hn hr
  obtain ⟨c, u, r, C', rfl, hc, h1, h2⟩ := h n C rest hn
  exact ⟨c, u, r, false, rest, C', r, rfl, hc, h1, quantify_none hr _ _, h2⟩

theorem p_one {t : Str} {p : Char → Prop} (h : One (reSem db f) t p) : PAtomOk db f t (.chr p) := by
  intro n C rest hn
  have hne : 0 < t.length := List.length_pos_iff.2 h.ne_nil
  obtain ⟨c, u, r, rfl, hc, h1, h2, h3⟩ := one_ok h n C rest (by omega)
  exact ⟨c, u, r, C, rfl, hc, h1, follow_single h3 h2⟩

theorem p_greedy {t q : Str} {o : Order} {lo : Nat} {hi : Option Nat} (h : PAtomOk db f t o) (hq : Quant q lo hi) :
    PPieceOk db f (t ++ q) (o.times true lo hi) := by
  intro n C rest hn hr
  obtain ⟨c, u, r, C', rfl, hc, h1, h2⟩ := h n C (q ++ rest) (by simp only [List.length_append] at hn; omega)
  exact ⟨c, u ++ q, r, false, q ++ rest, C', _, rfl, hc, by rw [List.append_assoc]; exact h1, quantify_some (quant_ok hq rest) hr,
    h2.repeat lo hi true⟩

theorem p_lazy {t q : Str} {o : Order} {lo : Nat} {hi : Option Nat} (h : PAtomOk db f t o) (hq : Quant q lo hi) :
    PPieceOk db f (t ++ q ++ s% "?") (o.times false lo hi) := by
  intro n C rest hn hr
  obtain ⟨c, u, r, C', rfl, hc, h1, h2⟩ := h n C (q ++ '?' :: rest) (by simp only [List.length_append] at hn; omega)
  exact ⟨c, u ++ q ++ s% "?", r, false, q ++ '?' :: rest, C', _, rfl, hc, by simpa using h1, quantify_lazy (quant_ok hq _),
    h2.repeat lo hi false⟩

/-- The assertions -/
def Rx.assertion : Rx → Bool
  | .bol | .eol | .start | .stop | .wordb _ => true
  | _ => false

theorem assertion_run {r : Rx} (h : r.assertion = true) (E : Env) (q : Pos) : (r.run E q).map Pos.place = [q.place] ∨ r.run E q = [] := by
  cases r <;> (try (simp [Rx.assertion] at h; done)) <;> simp only [Rx.run] <;> (repeat' split) <;>
    first | exact .inl rfl | exact .inr rfl

/-- The parser makes an assertion of the text of one. -/
theorem at_assertion {t : Str} {p : Str → Str → Prop} (h : At (reSem db f) t p) {n : Nat} {C C' : Ctx} {rest s : Str} {c : Char} {u : Str} {a : Rx} {isAt : Bool}
    (ht : t = c :: u) (hp : parseAtom n C c (u ++ rest) = .ok (a, isAt, C', s)) : a.assertion = true ∧ s = rest ∧ C' = C := by
  cases n with
  | zero => cases h <;> cases ht <;> simp [parseAtom] at hp
  | succ n =>
    cases h <;> cases ht <;> simp [parseAtom, escape, bind, Except.bind, pure, Except.pure] at hp <;>
      exact ⟨by rw [← hp.1]; rfl, hp.2.2.2.symm, hp.2.2.1.symm⟩

theorem p_at {t : Str} {p : Str → Str → Prop} (h : At (reSem db f) t p) : PPieceOk db f t (.pos p) := by
  intro n C rest hn hr
  obtain ⟨c, u, a, isAt, s, C', r, e, hc, h1, h2, h3, _⟩ := at_piece h n C rest hn hr
  refine ⟨c, u, a, isAt, s, C', r, e, hc, h1, h2, follow_look (fun q => assertion_run ?_ _ q) h3⟩
  obtain ⟨ha, rfl, _⟩ := at_assertion h e h1
  rw [quantify_none hr] at h2
  injection h2 with h2
  injection h2 with h2 _
  exact h2 ▸ ha

/-- A look-behind whose match is known -/
theorem behind_run (E : Env) (neg : Bool) (w : Nat) (a : Rx) (q : Pos) :
    ((Rx.behind neg w a).run E q).map Pos.place = [q.place] ∨ (Rx.behind neg w a).run E q = [] := by
  simp only [Rx.run]
  repeat' split
  all_goals first | exact .inl rfl | exact .inr rfl

theorem p_behind {t : Str} {w : Nat} {m : Meaning} (h : Fixed (reSem db f) t w m) (neg : Bool) (sign : Char)
    (hs : sign = if neg then '!' else '=') (p : Str → Str → Prop)
    (hm : p = fun pre post => (∃ u v, pre = u ++ v ∧ m u v post) ↔ neg = false) :
    PAtomOk db f (s% "(?<" ++ [sign] ++ t ++ s% ")") (.pos p) := by
  intro n C rest hn
  simp only [List.length_append, List.length_cons, List.length_nil] at hn
  obtain ⟨n, rfl⟩ : ∃ k, n = k + 4 := ⟨n - 4, by omega⟩
  obtain ⟨r, h1, h2, h3⟩ := fixed_ok h n { C with inBehind := true } rest (by omega)
  have hmeans : (Rx.behind neg w r).Means db f (.pos p) := by
    refine ⟨?_, h2.noRef⟩
    rw [hm]
    refine pos_ext fun pre post => ?_
    rw [← behind_iff h, h2.den]
  refine ⟨'(', '?' :: '<' :: sign :: (t ++ s% ")"), .behind neg w r, C, rfl, rfl, ?_, follow_look (behind_run _ neg w r) hmeans⟩
  have e : t ++ s% ")" ++ rest = t ++ ')' :: rest := by simp
  have hb : parseBehind (n + 2) C neg (t ++ ')' :: rest) = .ok (.behind neg w r, false, C, rest) := by
    simp only [parseBehind, parseAlts, bind, Except.bind]
    rw [h1]
    simp [closing, h3, pure, Except.pure]
  simp only [List.cons_append, e]
  have hx : parseExt (n + 3) C ('<' :: sign :: (t ++ ')' :: rest)) = parseBehind (n + 2) C neg (t ++ ')' :: rest) := by
    subst hs
    cases neg <;> rfl
  simp only [parseAtom, show ('(' : Char) ≠ '.' by decide, show ('(' : Char) ≠ '^' by decide, show ('(' : Char) ≠ '$' by decide,
    show ('(' : Char) ≠ '\\' by decide, show ('(' : Char) ≠ '[' by decide, if_false, if_true]
  rw [hx, hb]

theorem p_group {t : Str} {o : Order} (ih : PAltsOk db f t o) : PAtomOk db f (s% "(?:" ++ t ++ s% ")") o := by
  intro n C rest hn
  simp only [List.length_append, List.length_cons, List.length_nil] at hn
  obtain ⟨n, rfl⟩ : ∃ k, n = k + 2 := ⟨n - 2, by omega⟩
  obtain ⟨r, C', h1, h2⟩ := ih n C (')' :: rest) (by omega) (by rintro _ _ ⟨⟩; rfl)
  refine ⟨'(', '?' :: ':' :: (t ++ s% ")"), r, C', rfl, rfl, ?_, h2⟩
  have e : t ++ s% ")" ++ rest = t ++ ')' :: rest := by simp
  simp only [List.cons_append, e]
  simp [parseAtom, parseExt, h1, closing, bind, Except.bind, pure, Except.pure]

theorem follow_cap {E : Env} {r : Rx} {o : Order} (h : Follow (r.run E) o) (k : Nat) : Follow ((Rx.cap k r).run E) o where
  same := by
    intro p
    rw [← h.same]
    simp only [Rx.run, List.map_map]
    rfl
  part := h.part

theorem p_capture {t : Str} {m : Meaning} {o : Order} (h : Alts (reSem db f) t m) (ih : PAltsOk db f t o) : PAtomOk db f (s% "(" ++ t ++ s% ")") o := by
  intro n C rest hn
  simp only [List.length_append, List.length_cons, List.length_nil] at hn
  obtain ⟨n, rfl⟩ : ∃ k, n = k + 1 := ⟨n - 1, by omega⟩
  obtain ⟨r, C', h1, h2⟩ := ih n C.push (')' :: rest) (by omega) (by rintro _ _ ⟨⟩; rfl)
  refine ⟨'(', t ++ s% ")", .cap C.next r, C'.pop C, rfl, rfl, ?_, follow_cap h2 _⟩
  have e : t ++ s% ")" ++ rest = t ++ ')' :: rest := by simp
  rw [e]
  have hq : ∀ x, t ++ ')' :: rest ≠ '?' :: x := by
    intro x hx
    rcases h.head class_head with rfl | ⟨c, u, rfl, hc⟩
    · exact absurd (List.cons.inj hx).1 (by decide)
    · obtain ⟨rfl, _⟩ := List.cons.inj hx
      exact absurd hc (by decide)
  simp only [parseAtom, show ('(' : Char) ≠ '.' by decide, show ('(' : Char) ≠ '^' by decide, show ('(' : Char) ≠ '$' by decide,
    show ('(' : Char) ≠ '\\' by decide, show ('(' : Char) ≠ '[' by decide, if_false, if_true]
  simp [h1, closing, bind, Except.bind, pure, Except.pure]

theorem follow_ahead {E : Env} {r : Rx} {o : Order} (h : Follow (r.run E) o) (neg : Bool) :
    Follow ((Rx.ahead neg r).run E) (.pos fun pre rest => o pre rest ≠ [] ↔ neg = false) := by
  have hne : ∀ q : Pos, r.run E q = [] ↔ o q.pre q.post = [] := by
    intro q
    have := congrArg List.length (h.same q)
    simp only [List.length_map] at this
    rw [← List.length_eq_zero_iff, ← List.length_eq_zero_iff, this]
  refine follow_pos (fun q hp => ?_) fun q hp => ?_ <;> have := hne q <;> simp only [Rx.run] <;>
    cases he : r.run E q <;> rw [he] at this <;> cases neg <;> simp_all [Pos.place]

theorem p_ahead {t : Str} {o : Order} (ih : PAltsOk db f t o) (neg : Bool) (sign : Char)
    (hs : sign = if neg then '!' else '=') (p : Str → Str → Prop) (hm : p = fun pre rest => o pre rest ≠ [] ↔ neg = false) :
    PAtomOk db f (s% "(?" ++ [sign] ++ t ++ s% ")") (.pos p) := by
  intro n C rest hn
  simp only [List.length_append, List.length_cons, List.length_nil] at hn
  obtain ⟨n, rfl⟩ : ∃ k, n = k + 2 := ⟨n - 2, by omega⟩
  obtain ⟨r, C', h1, h2⟩ := ih n C (')' :: rest) (by omega) (by rintro _ _ ⟨⟩; rfl)
  refine ⟨'(', '?' :: sign :: (t ++ s% ")"), .ahead neg r, C', rfl, rfl, ?_, hm ▸ follow_ahead h2 neg⟩
  have e : t ++ s% ")" ++ rest = t ++ ')' :: rest := by simp
  simp only [List.cons_append, e]
  subst hs
  cases neg <;> simp [parseAtom, parseExt, h1, closing, bind, Except.bind, pure, Except.pure]

theorem p_nil : PBranchOk db f [] .eps := by
  intro n C rest hn hr
  obtain ⟨n, rfl⟩ : ∃ k, n = k + 1 := ⟨n - 1, by omega⟩
  refine ⟨.eps, C, ?_, follow_eps⟩
  cases rest with
  | nil => simp [parseBranch]
  | cons c rest => simp [parseBranch, hr c rest rfl]

theorem p_cons {t u : Str} {m k : Meaning} {a b : Order} (h1 : Piece (reSem db f) t m) (h2 : Branch (reSem db f) u k) (ih1 : PPieceOk db f t a)
    (ih2 : PBranchOk db f u b) : PBranchOk db f (t ++ u) (a.seq b) := by
  intro n C rest hn hr
  simp only [List.length_append] at hn
  obtain ⟨n, rfl⟩ : ∃ k, n = k + 1 := ⟨n - 1, by omega⟩
  have hne : 0 < t.length := List.length_pos_iff.2 h1.ne_nil
  have hp : AfterPiece (u ++ rest) := by
    rcases h2.head class_head with rfl | ⟨c, v, rfl, hc⟩
    · intro c y e
      rcases hr c y (by simpa using e) with rfl | rfl <;> rfl
    · exact .cons (starts_quant hc)
  obtain ⟨c, v, x, isAt, s, C1, r, rfl, hc, h3, h4, h5⟩ := ih1 n C (u ++ rest) (by omega) hp
  obtain ⟨y, C2, h7, h8⟩ := ih2 n C1 rest (by omega) hr
  refine ⟨.seq r y, C2, ?_, h5.seq h8⟩
  have hc' : ¬ (c = '|' ∨ c = ')') := by
    rintro (rfl | rfl) <;> exact absurd hc (by decide)
  simp only [List.cons_append, List.append_assoc, parseBranch, hc', if_false]
  rw [h3]
  simp only [bind, Except.bind]
  rw [h4]
  simp only
  rw [h7]
  rfl

theorem p_alts {t : Str} {o : Order} (ih : PBranchOk db f t o) : PAltsOk db f t o := by
  intro n C rest hn hr
  obtain ⟨n, rfl⟩ : ∃ k, n = k + 1 := ⟨n - 1, by omega⟩
  obtain ⟨r, C', h1, h2⟩ := ih n C rest (by omega) fun c t e => .inr (hr c t e)
  refine ⟨r, C', ?_, h2⟩
  simp only [parseAlts]
  rw [h1]
  simp only [bind, Except.bind]
  split
  · exact absurd (hr _ _ rfl) (by decide)
  · rfl

theorem p_more {t u : Str} {a b : Order} (ih1 : PBranchOk db f t a) (ih2 : PAltsOk db f u b) : PAltsOk db f (t ++ s% "|" ++ u) (a.alt b) := by
  intro n C rest hn hr
  simp only [List.length_append, List.length_cons, List.length_nil] at hn
  obtain ⟨n, rfl⟩ : ∃ k, n = k + 1 := ⟨n - 1, by omega⟩
  obtain ⟨x, C1, h3, h4⟩ := ih1 n C ('|' :: (u ++ rest)) (by omega) (by rintro _ _ ⟨⟩; exact .inl rfl)
  obtain ⟨y, C2, h6, h7⟩ := ih2 n C1 rest (by omega) hr
  refine ⟨.alt x y, C2, ?_, h4.alt h7⟩
  have e : t ++ s% "|" ++ u ++ rest = t ++ '|' :: (u ++ rest) := by simp
  rw [e]
  simp only [parseAlts]
  rw [h3]
  simp only [bind, Except.bind]
  rw [h6]
  rfl

/-- The texts are those of the grammar without order, and are read so. -/
theorem p_parse {t : Str} {o : Order} (h : PAlts (reSem db f) t o) : (∃ m, Alts (reSem db f) t m) ∧ PAltsOk db f t o :=
  PAlts.rec (motive_1 := fun t o _ => (∃ m, Atom (reSem db f) t m) ∧ PAtomOk db f t o)
    (motive_2 := fun t o _ => (∃ m, Piece (reSem db f) t m) ∧ PPieceOk db f t o)
    (motive_3 := fun t o _ => (∃ m, Branch (reSem db f) t m) ∧ PBranchOk db f t o)
    (motive_4 := fun t o _ => (∃ m, Alts (reSem db f) t m) ∧ PAltsOk db f t o)
    (fun h => ⟨⟨_, .one h⟩, p_one h⟩) (fun _ ih => ⟨⟨_, .group ih.1.choose_spec⟩, p_group ih.2⟩)
    (fun _ ih => ⟨⟨_, .capture ih.1.choose_spec⟩, p_capture ih.1.choose_spec ih.2⟩)
    (fun _ ih => ⟨⟨_, .ahead ih.1.choose_spec⟩, p_ahead ih.2 false '=' rfl _ (by simp)⟩)
    (fun _ ih => ⟨⟨_, .notAhead ih.1.choose_spec⟩, p_ahead ih.2 true '!' rfl _ (by simp)⟩)
    (fun h => ⟨⟨_, .behind h⟩, p_behind h false '=' rfl _ (by simp)⟩)
    (fun h => ⟨⟨_, .notBehind h⟩, p_behind h true '!' rfl _ (by simp)⟩)
    (fun _ ih => ⟨⟨_, .one ih.1.choose_spec⟩, p_piece ih.2⟩) (fun h => ⟨⟨_, .at h⟩, p_at h⟩)
    (fun _ hq ih => ⟨⟨_, .greedy ih.1.choose_spec hq⟩, p_greedy ih.2 hq⟩)
    (fun _ hq ih => ⟨⟨_, .lazy ih.1.choose_spec hq⟩, p_lazy ih.2 hq⟩)
    ⟨⟨_, .nil⟩, p_nil⟩ (fun _ _ ih1 ih2 => ⟨⟨_, .cons ih1.1.choose_spec ih2.1.choose_spec⟩, p_cons ih1.1.choose_spec ih2.1.choose_spec ih1.2 ih2.2⟩)
    (fun _ ih => ⟨⟨_, .one ih.1.choose_spec⟩, p_alts ih.2⟩)
    (fun _ _ ih1 ih2 => ⟨⟨_, .more ih1.1.choose_spec ih2.1.choose_spec⟩, p_more ih1.2 ih2.2⟩) h

end

end Pip.Rex
