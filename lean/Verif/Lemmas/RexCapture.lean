import Verif.Spec.Capture
import Verif.Lemmas.RexPreferFind
import Verif.Lemmas.RexGroups
import Verif.Lemmas.RexSub
/-!
# The matcher sets the groups as specified
-/

namespace Pip.Rex.Cap
open Re Rex

variable {sh : Bool}

/-- The groups of a position; if `sh`, the first one is the whole text. -/
def view (sh : Bool) (q : Pos) : Groups := fun i => q.caps.lookup (i + sh.toNat)

def place (sh : Bool) (q : Pos) : Str × Str × Groups := (q.pre, q.post, view sh q)

/-- The position after a match -/
def past (pre post : Str) (x : Str × Groups) : Str × Str × Groups := (pre ++ x.1, post.drop x.1.length, x.2)

/-- The ways of matching are those of the order, in this order. -/
structure Follow (sh : Bool) (body : Pos → List Pos) (o : COrder) : Prop where
  same : ∀ p, (body p).map (place sh) = (o p.pre p.post (view sh p)).map (past p.pre p.post)
  part : ∀ pre post g x, x ∈ o pre post g → x.1 <+: post

theorem past_iff {q : Pos} {pre post : Str} {x : Str × Groups} : place sh q = past pre post x ↔
    q.pre = pre ++ x.1 ∧ q.post = post.drop x.1.length ∧ view sh q = x.2 := by
  simp [place, past]

theorem here (p : Pos) : past p.pre p.post ([], view sh p) = place sh p := by
  simp [past, place]

theorem follow_eps : Follow sh (fun p => [p]) .eps :=
  ⟨fun p => by simp [COrder.eps, here], fun _ _ g x h => by
    obtain rfl : x = ([], g) := by simpa [COrder.eps] using h
    exact List.nil_prefix⟩

theorem after_past {o : COrder} {pre post : Str} {x : Str × Groups} {q : Pos} (h : place sh q = past pre post x) (f : Pos → List Pos)
    (hf : (f q).map (place sh) = (o q.pre q.post (view sh q)).map (past q.pre q.post)) :
    (f q).map (place sh) = (o.after pre post x).map (past pre post) := by
  obtain ⟨h1, h2, h3⟩ := past_iff.1 h
  rw [hf, COrder.after, List.map_map, h1, h2, h3]
  apply List.map_congr_left
  intro w _
  simp [past, List.drop_drop]

theorem prefix_after {o : COrder} {pre post : Str} {x : Str × Groups} (hu : x.1 <+: post) (h : ∀ pre post g x, x ∈ o pre post g → x.1 <+: post) :
    ∀ y ∈ o.after pre post x, y.1 <+: post := by
  intro y hy
  obtain ⟨v, hv, rfl⟩ := List.mem_map.1 hy
  obtain ⟨u, g⟩ := x
  obtain ⟨z, rfl⟩ := hu
  have := h _ _ _ _ hv
  rw [List.drop_left] at this
  exact (List.prefix_append_right_inj u).2 this

theorem Follow.seq {f g : Pos → List Pos} {a b : COrder} (hf : Follow sh f a) (hg : Follow sh g b) : Follow sh (fun p => (f p).flatMap g) (a.seq b) where
  same := fun p => flatMap_same (hf.same p) fun x y _ _ e => after_past e g (hg.same x)
  part := by
    intro pre post g w hw
    obtain ⟨u, hu, hw⟩ := List.mem_flatMap.1 hw
    exact prefix_after (hf.part _ _ _ _ hu) hg.part w hw

theorem Follow.alt {f g : Pos → List Pos} {a b : COrder} (hf : Follow sh f a) (hg : Follow sh g b) : Follow sh (fun p => f p ++ g p) (a.alt b) where
  same := fun p => by simp only [COrder.alt, List.map_append, hf.same, hg.same]
  part := by
    intro pre post g w hw
    rcases List.mem_append.1 hw with hw | hw
    · exact hf.part _ _ _ _ hw
    · exact hg.part _ _ _ _ hw

theorem Follow.times {f : Pos → List Pos} {a : COrder} (hf : Follow sh f a) (n : Nat) : Follow sh (Rex.times f n) (a.rep n) := by
  induction n with
  | zero => exact follow_eps
  | succ n ih => exact hf.seq ih

theorem more_part {a : COrder} (ha : ∀ pre post g x, x ∈ a pre post g → x.1 <+: post) (b : Bool) (n : Nat) : ∀ hi pre post g x,
    x ∈ a.more b n hi pre post g → x.1 <+: post := by
  induction n with
  | zero =>
    intro hi pre post g x h
    obtain rfl : x = ([], g) := by simpa [COrder.more, COrder.eps] using h
    exact List.nil_prefix
  | succ n ih =>
    intro hi pre post g x h
    rw [COrder.more] at h
    split at h
    · obtain rfl : x = ([], g) := by simpa using h
      exact List.nil_prefix
    · have : x = ([], g) ∨ x ∈ (a pre post g).flatMap fun x => if x.1 = [] then [x] else (a.more b n (hi.map (· - 1))).after pre post x := by
        cases b
        · exact List.mem_cons.1 h
        · rcases List.mem_append.1 h with h | h
          · exact .inr h
          · exact .inl (List.mem_singleton.1 h)
      rcases this with rfl | h
      · exact List.nil_prefix
      · obtain ⟨u, hu, h⟩ := List.mem_flatMap.1 h
        split at h
        · obtain rfl : x = u := by simpa using h
          exact ha _ _ _ _ hu
        · exact prefix_after (ha _ _ _ _ hu) (ih _) x h

theorem more_same {f : Pos → List Pos} {a : COrder} (hf : Follow sh f a) (b : Bool) (n : Nat) : ∀ hi p,
    (if b then greedyMore f n hi p else lazyMore f n hi p).map (place sh) = (a.more b n hi p.pre p.post (view sh p)).map (past p.pre p.post) := by
  induction n with
  | zero =>
    intro hi p
    cases b <;> simp [greedyMore, lazyMore, COrder.more, COrder.eps, here]
  | succ n ih =>
    intro hi p
    have key : ((f p).flatMap fun q => if q.post.length = p.post.length then [q] else
        if b then greedyMore f n (less hi) q else lazyMore f n (less hi) q).map (place sh) =
        ((a p.pre p.post (view sh p)).flatMap fun x => if x.1 = [] then [x] else (a.more b n (hi.map (· - 1))).after p.pre p.post x).map
          (past p.pre p.post) := by
      refine flatMap_same (hf.same p) fun q x _ hx e => ?_
      obtain ⟨h1, h2, h3⟩ := past_iff.1 e
      have hl : q.post.length = p.post.length ↔ x.1 = [] := by
        obtain ⟨v, hv⟩ := hf.part _ _ _ _ hx
        rw [h2, ← hv, List.drop_left, List.length_append]
        constructor
        · intro h
          exact List.eq_nil_of_length_eq_zero (by omega)
        · intro h
          simp [h]
      by_cases h0 : x.1 = []
      · rw [if_pos (hl.2 h0), if_pos h0]
        simpa using e
      · rw [if_neg (fun h => h0 (hl.1 h)), if_neg h0, less_eq]
        exact after_past (o := a.more b n (hi.map (· - 1))) e (fun q => if b then greedyMore f n (hi.map (· - 1)) q else lazyMore f n (hi.map (· - 1)) q) (ih _ q)
    by_cases h0 : hi = some 0
    · cases b <;> simp [greedyMore, lazyMore, COrder.more, h0, here]
    · cases b
      · simp only [lazyMore, COrder.more, if_neg h0, Bool.false_eq_true, if_false, List.map_cons] at key ⊢
        rw [key, here]
      · simp only [greedyMore, COrder.more, if_neg h0, if_true, List.map_append, List.map_cons, List.map_nil] at key ⊢
        rw [key, here]

theorem Follow.repeat {E : Env} {r : Rx} {a : COrder} (h : Follow sh (r.run E) a) (lo : Nat) (hi : Option Nat) (b : Bool) :
    Follow sh ((Rx.rep r lo hi b).run E) (a.times b lo hi) := by
  have h2 : Follow sh (fun q => if b then greedyMore (r.run E) (q.post.length + 1) (hi.map (· - lo)) q
      else lazyMore (r.run E) (q.post.length + 1) (hi.map (· - lo)) q)
      (fun pre rest g => a.more b (rest.length + 1) (hi.map (· - lo)) pre rest g) :=
    ⟨fun p => more_same h b _ _ p, fun pre post g x hx => more_part h.part b _ _ _ _ _ _ hx⟩
  exact (h.times lo).seq h2

theorem follow_chr {body : Pos → List Pos} {p : Char → Prop} (b : Char → Bool) (hb : ∀ c, b c = true ↔ p c)
    (h : ∀ pre c post caps, body ⟨pre, c :: post, caps⟩ = if b c then [⟨pre ++ [c], post, caps⟩] else [])
    (h0 : ∀ pre caps, body ⟨pre, [], caps⟩ = []) : Follow sh body (.chr p) where
  same := by
    rintro ⟨pre, post, caps⟩
    cases post with
    | nil => rw [h0]; rfl
    | cons c post =>
      rw [h, COrder.chr]
      by_cases hc : p c
      · rw [if_pos ((hb c).2 hc), if_pos hc]
        simp [past, place]
        rfl
      · rw [if_neg fun h => hc ((hb c).1 h), if_neg hc]
        rfl
  part := by
    intro pre post g w hw
    cases post with
    | nil => simp [COrder.chr] at hw
    | cons c post =>
      simp only [COrder.chr] at hw
      split at hw
      · obtain rfl : w = ([c], g) := by simpa using hw
        exact ⟨post, rfl⟩
      · cases hw

theorem follow_pos {body : Pos → List Pos} {p : Str → Str → Prop}
    (h : ∀ q, p q.pre q.post → body q = [q]) (h0 : ∀ q, ¬ p q.pre q.post → body q = []) : Follow sh body (.pos p) where
  same := by
    intro q
    rw [COrder.pos]
    by_cases hp : p q.pre q.post
    · rw [if_pos hp, h q hp]
      simp [here]
    · rw [if_neg hp, h0 q hp]
      rfl
  part := by
    intro pre post g w hw
    simp only [COrder.pos] at hw
    split at hw
    · obtain rfl : w = ([], g) := by simpa using hw
      exact List.nil_prefix
    · cases hw

theorem follow_single {db : CharDb} {f : Flags} {r : Rx} {p : Char → Prop} (h : r.single = true) (hm : r.Means db f (.chr p)) :
    Follow sh (r.run ⟨db, f⟩) (.chr p) := by
  have key : ∀ q : Char → Prop, Meaning.chr q = Meaning.chr p → ∀ c, q c ↔ p c := by
    intro q e c
    have := congrFun (congrFun (congrFun e []) [c]) []
    simpa [Meaning.chr] using this
  cases r with
  | set neg items => exact follow_chr (fun c => items.any (·.has ⟨db, f⟩ c) != neg) (key _ hm.den) (fun _ _ _ _ => rfl) (fun _ _ => rfl)
  | dot => exact follow_chr (fun c => f.s || c != '\n') (key _ hm.den) (fun _ _ _ _ => rfl) (fun _ _ => rfl)
  | _ => cases h

/-- Assertions about the position -/
theorem follow_look {db : CharDb} {f : Flags} {r : Rx} {p : Str → Str → Prop} (h : ∀ q, r.run ⟨db, f⟩ q = [q] ∨ r.run ⟨db, f⟩ q = [])
    (hm : r.Means db f (.pos p)) : Follow sh (r.run ⟨db, f⟩) (.pos p) := by
  have ht : Tracks (r.run ⟨db, f⟩) (.pos p) := hm.den ▸ Rx.tracks ⟨db, f⟩ r hm.noRef
  refine follow_pos (fun q hp => ?_) fun q hp => ?_
  · have := (ht.nonempty q).2 ⟨[], q.post, rfl, rfl, hp⟩
    rcases h q with e | e
    · exact e
    · exact absurd e this
  · refine Classical.byContradiction fun hne => ?_
    obtain ⟨u, v, e, rfl, hq⟩ := (ht.nonempty q).1 hne
    rw [List.nil_append] at e
    rw [e] at hp
    exact hp hq

theorem view_set (q : Pos) (k a b : Nat) : view sh { q with caps := (k + sh.toNat, a, b) :: q.caps } = (view sh q).set k (a, b) := by
  funext i
  by_cases h : i = k
  · subst h
    simp [view, Groups.set]
  · simp only [view, Groups.set, if_neg h, List.lookup_cons]
    rw [show (i + sh.toNat == k + sh.toNat) = false by simpa using h]

theorem Follow.capture {E : Env} {r : Rx} {o : COrder} (h : Follow sh (r.run E) o) (k : Nat) : Follow sh ((Rx.cap (k + sh.toNat) r).run E) (o.capture k) where
  same := by
    intro p
    simp only [Rx.run, COrder.capture]
    have := flatMap_same (F := fun q : Pos => [{ q with caps := (k + sh.toNat, p.pre.length, q.pre.length) :: q.caps }])
      (G := fun x : Str × Groups => [(x.1, x.2.set k (p.pre.length, p.pre.length + x.1.length))]) (h := past p.pre p.post) (h.same p) (by
        intro q x _ _ e
        obtain ⟨h1, h2, h3⟩ := past_iff.1 e
        simp only [List.map_cons, List.map_nil, List.cons.injEq, and_true]
        rw [past_iff]
        refine ⟨h1, h2, ?_⟩
        rw [view_set, h3, h1, List.length_append])
    simpa only [← List.map_eq_flatMap] using this
  part := by
    intro pre post g x hx
    obtain ⟨y, hy, rfl⟩ := List.mem_map.1 hx
    exact h.part _ _ _ y hy

theorem Follow.ahead {E : Env} {r : Rx} {o : COrder} (h : Follow sh (r.run E) o) : Follow sh ((Rx.ahead false r).run E) o.ahead where
  same := by
    intro p
    have hs := h.same p
    simp only [Rx.run, COrder.ahead]
    cases e : r.run E p with
    | nil =>
      rw [e] at hs
      cases e' : o p.pre p.post (view sh p) with
      | nil => simp
      | cons x l => rw [e'] at hs; cases hs
    | cons q l =>
      rw [e] at hs
      cases e' : o p.pre p.post (view sh p) with
      | nil => rw [e'] at hs; cases hs
      | cons x l =>
        rw [e'] at hs
        obtain ⟨_, _, h3⟩ := past_iff.1 (List.cons.inj hs).1
        simp [past, place, ← h3]
        rfl
  part := by
    intro pre post g x hx
    simp only [COrder.ahead] at hx
    split at hx
    · rw [List.mem_singleton.1 hx]; exact List.nil_prefix
    · cases hx

theorem Follow.notAhead {E : Env} {r : Rx} {o : COrder} (h : Follow sh (r.run E) o) : Follow sh ((Rx.ahead true r).run E) o.notAhead where
  same := by
    intro p
    have hs := h.same p
    simp only [Rx.run, COrder.notAhead]
    cases e : r.run E p with
    | nil =>
      rw [e] at hs
      cases e' : o p.pre p.post (view sh p) with
      | nil => simp [here]
      | cons x l => rw [e'] at hs; cases hs
    | cons q l =>
      rw [e] at hs
      cases e' : o p.pre p.post (view sh p) with
      | nil => rw [e'] at hs; cases hs
      | cons x l => simp
  part := by
    intro pre post g x hx
    simp only [COrder.notAhead] at hx
    split at hx
    · cases hx
    · rw [List.mem_singleton.1 hx]; exact List.nil_prefix

/-! ### Back-references -/

theorem lower_eq (db : CharDb) (f : Flags) (c : Char) : Env.lower ⟨db, f⟩ c = lowerOf db f c := by
  have key : ∀ n < 128, (if isUpperAZ (Char.ofNat n) then asciiSwap (Char.ofNat n) else Char.ofNat n) = (Char.ofNat n).toLower := by decide +kernel
  simp only [Env.lower, lowerOf, isAscii, decide_eq_true_eq]
  split
  · next h => simpa using key c.toNat h
  · rfl

theorem again_iff (db : CharDb) (f : Flags) (c d : Char) : Env.again ⟨db, f⟩ c d = true ↔ refSame db f c d := by
  simp [Env.again, refSame, lower_eq]

open Classical in
theorem eatRef_eq {db : CharDb} {f : Flags} (u : Str) : ∀ p : Pos, eatRef ⟨db, f⟩ u p =
    if SameText (refSame db f) u (p.post.take u.length) then [⟨p.pre ++ p.post.take u.length, p.post.drop u.length, p.caps⟩] else [] := by
  induction u with
  | nil => rintro ⟨pre, post, caps⟩; simp [eatRef, SameText]
  | cons c u ih =>
    rintro ⟨pre, post, caps⟩
    cases post with
    | nil => simp [eatRef, SameText]
    | cons d post =>
      simp only [eatRef, List.length_cons, List.take_succ_cons, SameText, List.drop_succ_cons]
      by_cases h : refSame db f c d
      · rw [if_pos ((again_iff db f c d).2 h), ih]
        simp [h]
      · rw [if_neg fun h' => h ((again_iff db f c d).1 h')]
        simp [h]

theorem follow_ref (db : CharDb) (f : Flags) (k : Nat) : Follow sh ((Rx.ref (k + sh.toNat)).run ⟨db, f⟩) (.ref (refSame db f) k) where
  same := by
    intro p
    simp only [Rx.run, COrder.ref, Groups.text]
    rw [show view sh p k = p.caps.lookup (k + sh.toNat) from rfl]
    cases p.caps.lookup (k + sh.toNat) with
    | none => rfl
    | some x =>
      obtain ⟨i, j⟩ := x
      simp only [Option.map_some]
      rw [eatRef_eq, between_eq]
      split
      · next h =>
        have hl : ∀ u v : Str, SameText (refSame db f) u v → u.length = v.length := by
          intro u
          induction u with
          | nil => intro v hv; cases v <;> first | rfl | cases hv
          | cons c u ih =>
            intro v hv
            cases v with
            | nil => cases hv
            | cons d v => simp [ih v hv.2]
        simp only [List.map_cons, List.map_nil, List.cons.injEq, and_true]
        rw [past_iff]
        refine ⟨rfl, ?_, rfl⟩
        dsimp only
        rw [← hl _ _ h]
      · rfl
  part := by
    intro pre post g x hx
    simp only [COrder.ref] at hx
    split at hx
    · split at hx
      · rw [List.mem_singleton.1 hx]
        exact List.take_prefix _ _
      · cases hx
    · cases hx

/-- What the parser knows -/
structure Knows (sh : Bool) (C : Ctx) (l : List Nat) (k : Nat) : Prop where
  next : C.next = k + sh.toNat
  opened : C.opened = l.map (· + sh.toNat) ++ if sh then [1] else []
  inBehind : C.inBehind = false

def NoDig (s : Str) : Prop := ∀ c v, s = c :: v → isDigit c = false

theorem NoDig.cons {c : Char} {s : Str} (h : isDigit c = false) : NoDig (c :: s) := by
  rintro _ _ ⟨⟩
  exact h

theorem NoDig.digit09 {c : Char} {s : Str} (h : NoDig (c :: s)) : isDigit09 c = false := by
  have := h c s rfl
  cases hc : isDigit09 c with
  | false => rfl
  | true => rw [digit09_digit hc] at this; cases this

theorem oct_digit {c : Char} (h : isDigit09 c = false) : isOct c = false := by
  simp only [isDigit09, isOct, Bool.and_eq_false_iff, decide_eq_false_iff_not] at h ⊢
  have e7 : '7'.toNat = 55 := rfl
  have e9 : '9'.toNat = 57 := rfl
  omega

theorem escape_digit {C : Ctx} {c : Char} (h : isDigit09 c = true) (h0 : c ≠ '0') (s : Str) :
    escape C (c :: s) = digitEsc c s >>= fun x =>
      match x with
      | (.inl k, s) => C.ref k >>= fun y => pure (y, false, s)
      | (.inr d, s) => pure (.lit d, false, s) := by
  have key : ∀ n < 58, 48 ≤ n → Char.ofNat n = '0' ∨ Char.ofNat n ∈ ['1', '2', '3', '4', '5', '6', '7', '8', '9'] := by decide +kernel
  simp only [isDigit09, Bool.and_eq_true, decide_eq_true_eq] at h
  have e0 : '0'.toNat = 48 := rfl
  have e9 : '9'.toNat = 57 := rfl
  have hc := key c.toNat (by omega) (by omega)
  rw [Char.ofNat_toNat] at hc
  have hc := hc.resolve_left h0
  simp only [List.mem_cons, List.not_mem_nil, or_false] at hc
  rcases hc with rfl | rfl | rfl | rfl | rfl | rfl | rfl | rfl | rfl <;> rfl

theorem digits_two : ∀ m < 100, 1 ≤ m →
    (∃ c, showNat m = [c] ∧ isDigit09 c = true ∧ c ≠ '0' ∧ c.toNat - 48 = m) ∨
    ∃ c e, showNat m = [c, e] ∧ isDigit09 c = true ∧ c ≠ '0' ∧ isDigit09 e = true ∧ (c.toNat - 48) * 10 + (e.toNat - 48) = m := by
  intro m hm h1
  have key : ∀ m < 100, 1 ≤ m → (match showNat m with
      | [c] => decide (isDigit09 c = true ∧ c ≠ '0' ∧ c.toNat - 48 = m)
      | [c, e] => decide (isDigit09 c = true ∧ c ≠ '0' ∧ isDigit09 e = true ∧ (c.toNat - 48) * 10 + (e.toNat - 48) = m)
      | _ => false) = true := by decide +kernel
  have := key m hm h1
  split at this
  · next c e => exact .inl ⟨c, e, of_decide_eq_true this⟩
  · next c d e => exact .inr ⟨c, d, e, of_decide_eq_true this⟩
  · cases this

theorem parse_ref {C : Ctx} {l : List Nat} {k n : Nat} (hC : Knows sh C l k) (h1 : 1 ≤ n) (h98 : n ≤ 98) (hk : n < k) (hl : n ∉ l) {rest : Str}
    (hr : NoDig rest) (m : Nat) : parseAtom (m + 1) C '\\' (showNat (n + sh.toNat) ++ rest) = .ok (.ref (n + sh.toNat), false, C, rest) := by
  have hsh := Bool.toNat_le sh
  have href : C.ref (n + sh.toNat) = .ok (.ref (n + sh.toNat)) := by
    rw [Ctx.ref, hC.inBehind, hC.next, hC.opened, if_neg (by simp), if_pos]
    cases sh
    · simpa using ⟨hk, hl⟩
    · simp
      exact ⟨by omega, hl, by omega⟩
  have : escape C (showNat (n + sh.toNat) ++ rest) = .ok (.ref (n + sh.toNat), false, rest) := by
    rcases digits_two (n + sh.toNat) (by omega) (by omega) with ⟨c, e, hc, h0, hv⟩ | ⟨c, d, e, hc, h0, hd, hv⟩
    · rw [e]
      show escape C (c :: rest) = _
      rw [escape_digit hc h0]
      have hd : digitEsc c rest = .ok (.inl (n + sh.toNat), rest) := by
        cases rest with
        | nil => simp [digitEsc, hv]; rfl
        | cons x y => simp [digitEsc, hr.digit09, hv]; rfl
      rw [hd]
      simp only [bind, Except.bind, href]
      rfl
    · rw [e]
      show escape C (c :: d :: rest) = _
      rw [escape_digit hc h0]
      have hd : digitEsc c (d :: rest) = .ok (.inl (n + sh.toNat), rest) := by
        cases rest with
        | nil => simp [digitEsc, hd, hv]; rfl
        | cons x y => simp [digitEsc, hd, oct_digit hr.digit09, hv]; rfl
      rw [hd]
      simp only [bind, Except.bind, href]
      rfl
  simp only [parseAtom, show ('\\' : Char) ≠ '.' by decide, show ('\\' : Char) ≠ '^' by decide, show ('\\' : Char) ≠ '$' by decide, if_false, if_true]
  rw [this]
  rfl

/-! ### What the parser makes of the texts -/

def IsRef (t : Str) : Prop := ∃ n, 1 ≤ n ∧ n ≤ 98 ∧ t = s% "\\" ++ showNat n
/-- The second text is the first, if `sh` with the numbers of the back-references one greater. -/
def Text (sh : Bool) (s t : Str) : Prop := if sh then RefText s t else s = t
def Conv (sh : Bool) (t t' : Str) : Prop := ∀ s s', (IsRef t → NoDig s) → Text sh s s' → Text sh (t ++ s) (t' ++ s')
def Conv' (sh : Bool) (t t' : Str) : Prop := ∀ s s', NoDig s → Text sh s s' → Text sh (t ++ s) (t' ++ s')

theorem Text.nil : Text sh [] [] := by
  cases sh
  · rfl
  · exact RefText.nil

theorem NoRefs.text {t : Str} (h : NoRefs t) {s s' : Str} (hs : Text sh s s') : Text sh (t ++ s) (t ++ s') := by
  cases sh
  · exact congrArg (t ++ ·) hs
  · exact h s s' hs

theorem Text.chr {c : Char} {s t : Str} (h : c ≠ '\\') (hs : Text sh s t) : Text sh (c :: s) (c :: t) := NoRefs.text (NoRefs.chr h) hs

theorem NoRefs.conv {t : Str} (h : NoRefs t) : Conv sh t t := fun _ _ _ hs => NoRefs.text h hs

theorem Conv'.wrap {a t t' b : Str} (h : Conv' sh t t') (ha : NoRefs a) (hb : NoRefs b) (hd : ∀ s, NoDig (b ++ s)) : Conv sh (a ++ t ++ b) (a ++ t' ++ b) := by
  intro s s' _ hs
  simp only [List.append_assoc]
  exact NoRefs.text ha (h _ _ (hd s) (NoRefs.text hb hs))

theorem conv_ref {n : Nat} (h1 : 1 ≤ n) (h98 : n ≤ 98) : Conv sh (s% "\\" ++ showNat n) (s% "\\" ++ showNat (n + sh.toNat)) := by
  intro s s' hd hs
  have hd := hd ⟨n, h1, h98, rfl⟩
  cases sh
  · exact congrArg (s% "\\" ++ showNat n ++ ·) hs
  show RefText _ _
  have hs : RefText s s' := hs
  by_cases h9 : n ≤ 9
  · have : showNat n = [digitChar n] := by
      have key : ∀ n < 10, showNat n = [digitChar n] := by decide +kernel
      exact key n (by omega)
    rw [this]
    exact RefText.ref1 h1 h9 hd hs
  · have key : ∀ n < 100, 10 ≤ n → showNat n = [digitChar (n / 10), digitChar (n % 10)] ∧ isDigit (digitChar (n % 10)) = true ∧
        digitVal (digitChar (n % 10)) = n % 10 := by decide +kernel
    obtain ⟨e1, e2, e3⟩ := key n (by omega) (by omega)
    have := RefText.ref2 (d := n / 10) (by omega) (by omega) e2 hs
    rw [e3, show 10 * (n / 10) + n % 10 + 1 = n + 1 by omega] at this
    rw [e1]
    exact this

section
variable {db : CharDb} {f : Flags}

def CAtomOk (sh : Bool) (db : CharDb) (f : Flags) (l : List Nat) (k : Nat) (t : Str) (k' : Nat) (o : COrder) : Prop :=
  ∃ c u, Conv sh t (c :: u) ∧ starts c = true ∧ ∀ n C rest, 4 * (c :: u).length ≤ n → Knows sh C l k → (IsRef t → NoDig rest) →
    ∃ r C', parseAtom n C c (u ++ rest) = .ok (r, false, C', rest) ∧ Knows sh C' l k' ∧ Follow sh (r.run ⟨db, f⟩) o
def CPieceOk (sh : Bool) (db : CharDb) (f : Flags) (l : List Nat) (k : Nat) (t : Str) (k' : Nat) (o : COrder) : Prop :=
  ∃ c u, Conv sh t (c :: u) ∧ starts c = true ∧ ∀ n C rest, 4 * (c :: u).length ≤ n → Knows sh C l k → AfterPiece rest → (IsRef t → NoDig rest) →
    ∃ a isAt s C' r, parseAtom n C c (u ++ rest) = .ok (a, isAt, C', s) ∧ quantify a isAt s = .ok (r, rest) ∧ Knows sh C' l k' ∧
      Follow sh (r.run ⟨db, f⟩) o
def CBranchOk (sh : Bool) (db : CharDb) (f : Flags) (l : List Nat) (k : Nat) (t : Str) (k' : Nat) (o : COrder) : Prop :=
  ∃ t', Conv' sh t t' ∧ (t' = [] ∨ ∃ c u, t' = c :: u ∧ starts c = true) ∧ ∀ n C rest, 4 * t'.length + 1 ≤ n → Knows sh C l k →
    EndOk (fun c => c = '|' ∨ c = ')') rest → ∃ r C', parseBranch n C (t' ++ rest) = .ok (r, C', rest) ∧ Knows sh C' l k' ∧ Follow sh (r.run ⟨db, f⟩) o
def CAltsOk (sh : Bool) (db : CharDb) (f : Flags) (l : List Nat) (k : Nat) (t : Str) (k' : Nat) (o : COrder) : Prop :=
  ∃ t', Conv' sh t t' ∧ (t' = [] ∨ ∃ c u, t' = c :: u ∧ c ≠ '?') ∧ ∀ n C rest, 4 * t'.length + 2 ≤ n → Knows sh C l k →
    EndOk (fun c => c = ')') rest → ∃ r C', parseAlts n C (t' ++ rest) = .ok (r, C', rest) ∧ Knows sh C' l k' ∧ Follow sh (r.run ⟨db, f⟩) o

theorem quant_noDig {q : Str} {lo : Nat} {hi : Option Nat} (h : Quant q lo hi) (s : Str) : NoDig (q ++ s) := by
  cases h <;> exact .cons (by decide)

variable {l : List Nat} {k k' k'' : Nat} {t u : Str} {o a b : COrder}

theorem c_one {p : Char → Prop} (h : One (reSem db f) t p) : CAtomOk sh db f l k t k (.chr p) := by
  obtain ⟨c, u, rfl, hc⟩ := h.head class_head
  refine ⟨c, u, NoRefs.conv (noRefs_one h), hc, fun n C rest hn hC _ => ?_⟩
  have hl : (c :: u).length ≠ 0 := by simp
  obtain ⟨c', u', r, e, _, h1, h2, h3⟩ := one_ok h n C rest (by omega)
  obtain ⟨rfl, rfl⟩ := List.cons.inj e
  exact ⟨r, C, h1, hC, follow_single h3 h2⟩

theorem c_ref {n : Nat} (h1 : 1 ≤ n) (h98 : n ≤ 98) (hk : n < k) (hl : n ∉ l) : CAtomOk sh db f l k (s% "\\" ++ showNat n) k (.ref (refSame db f) n) := by
  refine ⟨'\\', showNat (n + sh.toNat), conv_ref h1 h98, rfl, fun m C rest hm hC hr => ?_⟩
  obtain ⟨m, rfl⟩ : ∃ j, m = j + 1 := ⟨m - 1, by simp only [List.length_cons] at hm; omega⟩
  exact ⟨_, C, parse_ref hC h1 h98 hk hl (hr ⟨n, h1, h98, rfl⟩) m, hC, follow_ref db f n⟩

theorem c_group (ih : CAltsOk sh db f l k t k' o) : CAtomOk sh db f l k (s% "(?:" ++ t ++ s% ")") k' o := by
  obtain ⟨t', hc, _, hp⟩ := ih
  refine ⟨'(', '?' :: ':' :: (t' ++ s% ")"), hc.wrap (.chrs (by decide)) (.chrs (by decide)) fun s => .cons (by decide), rfl, fun n C rest hn hC _ => ?_⟩
  simp only [List.length_append, List.length_cons, List.length_nil] at hn
  obtain ⟨n, rfl⟩ : ∃ k, n = k + 2 := ⟨n - 2, by omega⟩
  obtain ⟨r, C', h1, h2, h3⟩ := hp n C (')' :: rest) (by omega) hC (by rintro _ _ ⟨⟩; rfl)
  refine ⟨r, C', ?_, h2, h3⟩
  have e : t' ++ s% ")" ++ rest = t' ++ ')' :: rest := by simp
  simp only [List.cons_append, e]
  simp [parseAtom, parseExt, h1, closing, bind, Except.bind, pure, Except.pure]

theorem c_capture (ih : CAltsOk sh db f (k :: l) (k + 1) t k' o) : CAtomOk sh db f l k (s% "(" ++ t ++ s% ")") k' (o.capture k) := by
  obtain ⟨t', hc, hh, hp⟩ := ih
  refine ⟨'(', t' ++ s% ")", hc.wrap (.chrs (by decide)) (.chrs (by decide)) fun s => .cons (by decide), rfl, fun n C rest hn hC _ => ?_⟩
  simp only [List.length_append, List.length_cons, List.length_nil] at hn
  obtain ⟨n, rfl⟩ : ∃ k, n = k + 1 := ⟨n - 1, by omega⟩
  have hC' : Knows sh C.push (k :: l) (k + 1) := ⟨by simp only [Ctx.push, hC.next]; omega, by simp [Ctx.push, hC.next, hC.opened], hC.inBehind⟩
  obtain ⟨r, C', h1, h2, h3⟩ := hp n C.push (')' :: rest) (by omega) hC' (by rintro _ _ ⟨⟩; rfl)
  refine ⟨.cap C.next r, C'.pop C, ?_, ⟨h2.next, hC.opened, h2.inBehind⟩, by rw [hC.next]; exact h3.capture k⟩
  have e : t' ++ s% ")" ++ rest = t' ++ ')' :: rest := by simp
  rw [e]
  have hq : ∀ x, t' ++ ')' :: rest ≠ '?' :: x := by
    intro x hx
    rcases hh with rfl | ⟨c, u, rfl, hcq⟩
    · exact absurd (List.cons.inj hx).1 (by decide)
    · exact hcq (List.cons.inj hx).1
  simp only [parseAtom, show ('(' : Char) ≠ '.' by decide, show ('(' : Char) ≠ '^' by decide, show ('(' : Char) ≠ '$' by decide,
    show ('(' : Char) ≠ '\\' by decide, show ('(' : Char) ≠ '[' by decide, if_false, if_true]
  simp [h1, closing, bind, Except.bind, pure, Except.pure]

theorem c_ahead (ih : CAltsOk sh db f l k t k' o) : CAtomOk sh db f l k (s% "(?=" ++ t ++ s% ")") k' o.ahead := by
  obtain ⟨t', hc, _, hp⟩ := ih
  refine ⟨'(', '?' :: '=' :: (t' ++ s% ")"), hc.wrap (.chrs (by decide)) (.chrs (by decide)) fun s => .cons (by decide), rfl, fun n C rest hn hC _ => ?_⟩
  simp only [List.length_append, List.length_cons, List.length_nil] at hn
  obtain ⟨n, rfl⟩ : ∃ k, n = k + 2 := ⟨n - 2, by omega⟩
  obtain ⟨r, C', h1, h2, h3⟩ := hp n C (')' :: rest) (by omega) hC (by rintro _ _ ⟨⟩; rfl)
  refine ⟨.ahead false r, C', ?_, h2, h3.ahead⟩
  have e : t' ++ s% ")" ++ rest = t' ++ ')' :: rest := by simp
  simp only [List.cons_append, e]
  simp [parseAtom, parseExt, h1, closing, bind, Except.bind, pure, Except.pure]

theorem c_notAhead (ih : CAltsOk sh db f l k t k' o) : CAtomOk sh db f l k (s% "(?!" ++ t ++ s% ")") k' o.notAhead := by
  obtain ⟨t', hc, _, hp⟩ := ih
  refine ⟨'(', '?' :: '!' :: (t' ++ s% ")"), hc.wrap (.chrs (by decide)) (.chrs (by decide)) fun s => .cons (by decide), rfl, fun n C rest hn hC _ => ?_⟩
  simp only [List.length_append, List.length_cons, List.length_nil] at hn
  obtain ⟨n, rfl⟩ : ∃ k, n = k + 2 := ⟨n - 2, by omega⟩
  obtain ⟨r, C', h1, h2, h3⟩ := hp n C (')' :: rest) (by omega) hC (by rintro _ _ ⟨⟩; rfl)
  refine ⟨.ahead true r, C', ?_, h2, h3.notAhead⟩
  have e : t' ++ s% ")" ++ rest = t' ++ ')' :: rest := by simp
  simp only [List.cons_append, e]
  simp [parseAtom, parseExt, h1, closing, bind, Except.bind, pure, Except.pure]

/-- What matches a fixed number of characters has no groups. -/
theorem fixed_free {w : Nat} {m : Meaning} (h : Fixed (reSem db f) t w m) :
    ∀ n C rest r, 2 * t.length + 1 ≤ n → parseBranch n C (t ++ ')' :: rest) = .ok (r, C, ')' :: rest) → r.capFree = true := by
  have single : ∀ a : Rx, a.single = true → a.capFree = true := by
    intro a ha
    cases a <;> first | rfl | cases ha
  induction h with
  | nil =>
    intro n C rest r hn hp
    obtain ⟨n, rfl⟩ : ∃ k, n = k + 1 := ⟨n - 1, by omega⟩
    simp [parseBranch] at hp
    rw [← hp]
    rfl
  | @cons t u p w m h hu ih =>
    intro n C rest r hn hp
    have hne : 0 < t.length := List.length_pos_iff.2 h.ne_nil
    simp only [List.length_append] at hn
    obtain ⟨n, rfl⟩ : ∃ k, n = k + 1 := ⟨n - 1, by omega⟩
    have ha : AfterPiece (u ++ ')' :: rest) := by
      cases hu with
      | nil => exact .cons (by decide)
      | cons h' _ =>
        obtain ⟨c, v, rfl, hc⟩ := h'.head class_head
        exact .cons (starts_quant hc)
    obtain ⟨c, v, a, rfl, hc, h3, h5, h6⟩ := one_ok h n C (u ++ ')' :: rest) (by omega)
    obtain ⟨b, h7, h8, h9⟩ := fixed_ok hu n C rest (by omega)
    have hc' : ¬ (c = '|' ∨ c = ')') := by
      rintro (rfl | rfl) <;> exact absurd hc (by decide)
    simp only [List.cons_append, List.append_assoc, parseBranch, hc', if_false] at hp
    rw [h3] at hp
    simp only [bind, Except.bind] at hp
    rw [quantify_none ha] at hp
    simp only at hp
    rw [h7] at hp
    simp only [pure, Except.pure, Except.ok.injEq, Prod.mk.injEq, and_true] at hp
    rw [← hp]
    simp only [Rx.capFree, Bool.and_eq_true]
    exact ⟨single a h6, ih n C rest b (by omega) h7⟩

theorem c_behind {w : Nat} {m : Meaning} (h : Fixed (reSem db f) t w m) (neg : Bool) (sign : Char)
    (hs : sign = if neg then '!' else '=') (p : Str → Str → Prop)
    (hm : p = fun pre post => (∃ u v, pre = u ++ v ∧ m u v post) ↔ neg = false) :
    CAtomOk sh db f l k (s% "(?<" ++ [sign] ++ t ++ s% ")") k (.pos p) := by
  have hsn : sign ≠ '\\' := by subst hs; cases neg <;> decide
  refine ⟨'(', '?' :: '<' :: sign :: (t ++ s% ")"), ?_, rfl, fun n C rest hn hC _ => ?_⟩
  · exact NoRefs.conv ((((NoRefs.chrs (t := s% "(?<") (by decide)).append (.chr hsn)).append (noRefs_fixed h)).append (.chrs (t := s% ")") (by decide)))
  simp only [List.length_append, List.length_cons, List.length_nil] at hn
  obtain ⟨n, rfl⟩ : ∃ k, n = k + 4 := ⟨n - 4, by omega⟩
  obtain ⟨r, h1, h2, h3⟩ := fixed_ok h n { C with inBehind := true } rest (by omega)
  have hfree := fixed_free h n { C with inBehind := true } rest r (by omega) h1
  have hmeans : (Rx.behind neg w r).Means db f (.pos p) := by
    refine ⟨?_, h2.noRef⟩
    rw [hm]
    refine pos_ext fun pre post => ?_
    rw [← behind_iff h, h2.den]
  have hrun : ∀ q, (Rx.behind neg w r).run ⟨db, f⟩ q = [q] ∨ (Rx.behind neg w r).run ⟨db, f⟩ q = [] := by
    intro q
    simp only [Rx.run]
    split
    · split
      · next x l e =>
        have := free_caps r hfree _ x (by rw [e]; simp)
        split
        · exact .inr rfl
        · exact .inl (by rw [this])
      · split
        · exact .inl rfl
        · exact .inr rfl
    · split
      · exact .inl rfl
      · exact .inr rfl
  refine ⟨.behind neg w r, C, ?_, hC, follow_look hrun hmeans⟩
  have e : t ++ s% ")" ++ rest = t ++ ')' :: rest := by simp
  have hb : parseBehind (n + 2) C neg (t ++ ')' :: rest) = .ok (.behind neg w r, false, C, rest) := by
    simp only [parseBehind, parseAlts, bind, Except.bind]
    rw [h1]
    simp [closing, h3, pure, Except.pure]
  simp only [List.cons_append, e]
  have hx : parseExt (n + 3) C ('<' :: sign :: (t ++ ')' :: rest)) = parseBehind (n + 2) C neg (t ++ ')' :: rest) := by
    subst hs
    cases neg <;> rfl
  simp only [parseAtom, show ('(' : Char) ≠ '.' by decide, show ('(' : Char) ≠ '^' by decide, show ('(' : Char) ≠ '$' by decide,
    show ('(' : Char) ≠ '\\' by decide, show ('(' : Char) ≠ '[' by decide, if_false, if_true]
  rw [hx, hb]

theorem c_piece (h : CAtomOk sh db f l k t k' o) : CPieceOk sh db f l k t k' o := by
  obtain ⟨c, u, hc, hs, hp⟩ := h
  refine ⟨c, u, hc, hs, fun n C rest hn hC hr hd => ?_⟩
  obtain ⟨r, C', h1, h2, h3⟩ := hp n C rest hn hC hd
  exact ⟨r, false, rest, C', r, h1, quantify_none hr _ _, h2, h3⟩

theorem c_at {p : Str → Str → Prop} (h : At (reSem db f) t p) : CPieceOk sh db f l k t k (.pos p) := by
  obtain ⟨c, u, rfl, hc⟩ := h.head
  refine ⟨c, u, NoRefs.conv (noRefs_at h), hc, fun n C rest hn hC hr _ => ?_⟩
  obtain ⟨c', u', a, isAt, s, C', r, e, _, h1, h2, h3, _⟩ := at_piece h n C rest hn hr
  obtain ⟨rfl, rfl⟩ := List.cons.inj e
  obtain ⟨ha, rfl, rfl⟩ := at_assertion h rfl h1
  have h2' := h2
  rw [quantify_none hr] at h2'
  injection h2' with h2'
  injection h2' with h2' _
  have hr' : r.assertion = true := h2' ▸ ha
  refine ⟨a, isAt, s, C', r, h1, h2, hC, follow_look (fun q => ?_) h3⟩
  cases r <;> (try (simp [Rx.assertion] at hr'; done)) <;> simp only [Rx.run] <;> (repeat' split) <;>
    first | exact .inl rfl | exact .inr rfl

theorem c_greedy {q : Str} {lo : Nat} {hi : Option Nat} (h : CAtomOk sh db f l k t k' o) (hq : Quant q lo hi) :
    CPieceOk sh db f l k (t ++ q) k' (o.times true lo hi) := by
  obtain ⟨c, u, hc, hs, hp⟩ := h
  refine ⟨c, u ++ q, ?_, hs, fun n C rest hn hC hr _ => ?_⟩
  · intro s s' _ hs
    have := hc (q ++ s) (q ++ s') (fun _ => quant_noDig hq s) (NoRefs.text (noRefs_quant hq) hs)
    simpa using this
  · obtain ⟨r, C', h1, h2, h3⟩ := hp n C (q ++ rest) (by simp only [List.length_append, List.length_cons] at hn ⊢; omega) hC fun _ => quant_noDig hq rest
    exact ⟨r, false, q ++ rest, C', _, by rw [List.append_assoc]; exact h1, quantify_some (quant_ok hq rest) hr, h2, h3.repeat lo hi true⟩

theorem c_lazy {q : Str} {lo : Nat} {hi : Option Nat} (h : CAtomOk sh db f l k t k' o) (hq : Quant q lo hi) :
    CPieceOk sh db f l k (t ++ q ++ s% "?") k' (o.times false lo hi) := by
  obtain ⟨c, u, hc, hs, hp⟩ := h
  refine ⟨c, u ++ q ++ s% "?", ?_, hs, fun n C rest hn hC hr _ => ?_⟩
  · intro s s' _ hs
    have := hc (q ++ '?' :: s) (q ++ '?' :: s') (fun _ => quant_noDig hq _) (NoRefs.text (noRefs_quant hq) (.chr (by decide) hs))
    simpa using this
  · obtain ⟨r, C', h1, h2, h3⟩ := hp n C (q ++ '?' :: rest) (by simp only [List.length_append, List.length_cons] at hn ⊢; omega) hC
      fun _ => quant_noDig hq _
    exact ⟨r, false, q ++ '?' :: rest, C', _, by simpa using h1, quantify_lazy (quant_ok hq _), h2, h3.repeat lo hi false⟩

theorem c_nil : CBranchOk sh db f l k [] k .eps := by
  refine ⟨[], fun _ _ _ h => h, .inl rfl, fun n C rest hn hC hr => ?_⟩
  obtain ⟨n, rfl⟩ : ∃ k, n = k + 1 := ⟨n - 1, by omega⟩
  refine ⟨.eps, C, ?_, hC, follow_eps⟩
  cases rest with
  | nil => simp [parseBranch]
  | cons c rest => simp [parseBranch, hr c rest rfl]

/-- The texts begin with the same character. -/
theorem text_head {s t : Str} (h : Text sh s t) : s.head? = t.head? := by
  cases sh
  · exact congrArg List.head? h
  · have h : RefText s t := h
    cases h <;> rfl

theorem end_noDig {rest : Str} (h : EndOk (fun c => c = '|' ∨ c = ')') rest) : NoDig rest := by
  intro c v e
  rcases h c v e with rfl | rfl <;> decide

theorem c_cons (ih1 : CPieceOk sh db f l k t k' a) (ih2 : CBranchOk sh db f l k' u k'' b)
    (hd : ∀ n, 1 ≤ n → n ≤ 98 → t = s% "\\" ++ showNat n → ∀ c v, u = c :: v → isDigit c = false) : CBranchOk sh db f l k (t ++ u) k'' (a.seq b) := by
  obtain ⟨c, v, hc, hs, hp⟩ := ih1
  obtain ⟨u', hc', hh, hp'⟩ := ih2
  have hu : u.head? = u'.head? := by
    have := text_head (hc' [] [] (by rintro _ _ ⟨⟩) .nil)
    simpa using this
  have hdig : ∀ {x s : Str}, x.head? = u.head? → NoDig s → IsRef t → NoDig (x ++ s) := by
    rintro x s hx hs ⟨n, h1, h98, hn⟩
    cases x with
    | nil => exact hs
    | cons c x =>
      cases u with
      | nil => cases hx
      | cons c' u =>
        obtain rfl : c = c' := by simpa using hx
        exact .cons (hd n h1 h98 hn _ _ rfl)
  refine ⟨c :: (v ++ u'), ?_, .inr ⟨c, _, rfl, hs⟩, fun n C rest hn hC hr => ?_⟩
  · intro s s' hs hst
    have := hc (u ++ s) (u' ++ s') (hdig rfl hs) (hc' s s' hs hst)
    simpa using this
  · simp only [List.length_cons, List.length_append] at hn
    obtain ⟨n, rfl⟩ : ∃ k, n = k + 1 := ⟨n - 1, by omega⟩
    have ha : AfterPiece (u' ++ rest) := by
      rcases hh with rfl | ⟨c, v, rfl, hc⟩
      · intro c y e
        rcases hr c y (by simpa using e) with rfl | rfl <;> rfl
      · exact .cons (starts_quant hc)
    obtain ⟨x, isAt, s, C1, r, h3, h4, h5, h6⟩ := hp n C (u' ++ rest) (by simp only [List.length_cons]; omega) hC ha (hdig hu.symm (end_noDig hr))
    obtain ⟨y, C2, h7, h8, h9⟩ := hp' n C1 rest (by omega) h5 hr
    refine ⟨.seq r y, C2, ?_, h8, h6.seq h9⟩
    have hc' : ¬ (c = '|' ∨ c = ')') := by
      rintro (rfl | rfl) <;> exact absurd hs (by decide)
    simp only [List.cons_append, List.append_assoc, parseBranch, hc', if_false]
    rw [h3]
    simp only [bind, Except.bind]
    rw [h4]
    simp only
    rw [h7]
    rfl

theorem c_alts (ih : CBranchOk sh db f l k t k' o) : CAltsOk sh db f l k t k' o := by
  obtain ⟨t', hc, hh, hp⟩ := ih
  refine ⟨t', hc, ?_, fun n C rest hn hC hr => ?_⟩
  · rcases hh with h | ⟨c, u, h, hs⟩
    · exact .inl h
    · exact .inr ⟨c, u, h, by rintro rfl; exact absurd hs (by decide)⟩
  obtain ⟨n, rfl⟩ : ∃ k, n = k + 1 := ⟨n - 1, by omega⟩
  obtain ⟨r, C', h1, h2, h3⟩ := hp n C rest (by omega) hC fun c t e => .inr (hr c t e)
  refine ⟨r, C', ?_, h2, h3⟩
  simp only [parseAlts]
  rw [h1]
  simp only [bind, Except.bind]
  split
  · exact absurd (hr _ _ rfl) (by decide)
  · rfl

theorem c_more (ih1 : CBranchOk sh db f l k t k' a) (ih2 : CAltsOk sh db f l k' u k'' b) : CAltsOk sh db f l k (t ++ s% "|" ++ u) k'' (a.alt b) := by
  obtain ⟨t', hc, hh, hp⟩ := ih1
  obtain ⟨u', hc', hh', hp'⟩ := ih2
  refine ⟨t' ++ s% "|" ++ u', ?_, .inr ?_, fun n C rest hn hC hr => ?_⟩
  · intro s s' hs hst
    have := hc ('|' :: (u ++ s)) ('|' :: (u' ++ s')) (.cons (by decide)) (.chr (by decide) (hc' s s' hs hst))
    simpa using this
  · rcases hh with rfl | ⟨c, v, rfl, hs⟩
    · exact ⟨'|', u', rfl, by decide⟩
    · exact ⟨c, _, rfl, by rintro rfl; exact absurd hs (by decide)⟩
  · simp only [List.length_append, List.length_cons, List.length_nil] at hn
    obtain ⟨n, rfl⟩ : ∃ k, n = k + 1 := ⟨n - 1, by omega⟩
    obtain ⟨x, C1, h3, h4, h5⟩ := hp n C ('|' :: (u' ++ rest)) (by omega) hC (by rintro _ _ ⟨⟩; exact .inl rfl)
    obtain ⟨y, C2, h6, h7, h8⟩ := hp' n C1 rest (by omega) h4 hr
    refine ⟨.alt x y, C2, ?_, h7, h5.alt h8⟩
    have e : t' ++ s% "|" ++ u' ++ rest = t' ++ '|' :: (u' ++ rest) := by simp
    rw [e]
    simp only [parseAlts]
    rw [h3]
    simp only [bind, Except.bind]
    rw [h6]
    rfl

theorem c_parse (h : CAlts (reSem db f) (refSame db f) l k t k' o) : CAltsOk sh db f l k t k' o :=
  CAlts.rec (motive_1 := fun l k t k' o _ => CAtomOk sh db f l k t k' o) (motive_2 := fun l k t k' o _ => CPieceOk sh db f l k t k' o)
    (motive_3 := fun l k t k' o _ => CBranchOk sh db f l k t k' o) (motive_4 := fun l k t k' o _ => CAltsOk sh db f l k t k' o)
    (fun h => c_one h) (fun _ ih => c_group ih) (fun _ ih => c_capture ih) (fun h1 h2 h3 h4 => c_ref h1 h2 h3 h4)
    (fun _ ih => c_ahead ih) (fun _ ih => c_notAhead ih)
    (fun h => c_behind h false '=' rfl _ (by simp)) (fun h => c_behind h true '!' rfl _ (by simp))
    (fun _ ih => c_piece ih) (fun h => c_at h) (fun _ hq ih => c_greedy ih hq) (fun _ hq ih => c_lazy ih hq)
    c_nil (fun _ _ hd ih1 ih2 => c_cons ih1 ih2 hd) (fun _ ih => c_alts ih) (fun _ _ ih1 ih2 => c_more ih1 ih2) h

end

end Pip.Rex.Cap
