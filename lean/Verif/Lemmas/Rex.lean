import Verif.Model.Rex
import Verif.Lemmas.Regex
/-!
# The matcher finds what the meaning says
-/

namespace Pip.Rex
open Re

/-- The texts that a way of matching from a position consumes are those of the meaning. -/
structure Tracks (body : Pos → List Pos) (m : Meaning) : Prop where
  sound : ∀ p q, q ∈ body p → ∃ w, q.pre = p.pre ++ w ∧ p.post = w ++ q.post ∧ m p.pre w q.post
  complete : ∀ (p : Pos) w post, p.post = w ++ post → m p.pre w post → ∃ q ∈ body p, q.pre = p.pre ++ w ∧ q.post = post

theorem rep_add (m : Meaning) (a b : Nat) : m.rep (a + b) = (m.rep a).seq (m.rep b) := by
  induction a with
  | zero =>
    rw [Nat.zero_add, Meaning.rep, Meaning.eps_seq]
  | succ a ih =>
    rw [Nat.succ_add, Meaning.rep, ih, Meaning.rep, Meaning.seq_assoc]

theorem tracks_eps : Tracks (fun p => [p]) .eps where
  sound := by
    intro p q h
    rw [List.mem_singleton] at h
    subst h
    exact ⟨[], by simp, by simp, rfl⟩
  complete := by
    rintro p w post h rfl
    exact ⟨p, List.mem_singleton.2 rfl, by simp, by simpa using h⟩

theorem Tracks.seq {f g : Pos → List Pos} {m k : Meaning} (hf : Tracks f m) (hg : Tracks g k) :
    Tracks (fun p => (f p).flatMap g) (m.seq k) where
  sound := by
    intro p q h
    obtain ⟨r, hr, hq⟩ := List.mem_flatMap.1 h
    obtain ⟨u, h1, h2, h3⟩ := hf.sound p r hr
    obtain ⟨v, h4, h5, h6⟩ := hg.sound r q hq
    refine ⟨u ++ v, by rw [h4, h1, List.append_assoc], by rw [h2, h5, List.append_assoc], u, v, rfl, ?_, ?_⟩
    · rw [← h5]; exact h3
    · rw [← h1]; exact h6
  complete := by
    rintro p w post h ⟨u, v, rfl, h1, h2⟩
    obtain ⟨r, hr, h3, h4⟩ := hf.complete p u (v ++ post) (by rw [h, List.append_assoc]) h1
    obtain ⟨q, hq, h5, h6⟩ := hg.complete r v post h4 (by rw [h3]; exact h2)
    exact ⟨q, List.mem_flatMap.2 ⟨r, hr, hq⟩, by rw [h5, h3, List.append_assoc], h6⟩

theorem Tracks.alt {f g : Pos → List Pos} {m k : Meaning} (hf : Tracks f m) (hg : Tracks g k) :
    Tracks (fun p => f p ++ g p) (m.alt k) where
  sound := by
    intro p q h
    rcases List.mem_append.1 h with h | h
    · obtain ⟨w, h1, h2, h3⟩ := hf.sound p q h
      exact ⟨w, h1, h2, .inl h3⟩
    · obtain ⟨w, h1, h2, h3⟩ := hg.sound p q h
      exact ⟨w, h1, h2, .inr h3⟩
  complete := by
    rintro p w post h (h1 | h1)
    · obtain ⟨q, hq, h2⟩ := hf.complete p w post h h1
      exact ⟨q, List.mem_append.2 (.inl hq), h2⟩
    · obtain ⟨q, hq, h2⟩ := hg.complete p w post h h1
      exact ⟨q, List.mem_append.2 (.inr hq), h2⟩

theorem Tracks.times {f : Pos → List Pos} {m : Meaning} (hf : Tracks f m) (n : Nat) : Tracks (times f n) (m.rep n) := by
  induction n with
  | zero => exact tracks_eps
  | succ n ih => exact hf.seq ih

/-- Up to `hi` times -/
def upTo (m : Meaning) (hi : Option Nat) : Meaning := fun pre w post => ∃ k, (∀ h, hi = some h → k ≤ h) ∧ m.rep k pre w post

theorem greedy_sound {f : Pos → List Pos} {m : Meaning} (hf : Tracks f m) (n : Nat) (hi : Option Nat) (p q : Pos)
    (h : q ∈ greedyMore f n hi p) : ∃ w, q.pre = p.pre ++ w ∧ p.post = w ++ q.post ∧ upTo m hi p.pre w q.post := by
  have h0 : ∀ p : Pos, ∃ w, p.pre = p.pre ++ w ∧ p.post = w ++ p.post ∧ upTo m hi p.pre w p.post :=
    fun p => ⟨[], by simp, by simp, 0, by simp, rfl⟩
  induction n generalizing hi p with
  | zero =>
    rw [greedyMore, List.mem_singleton] at h
    subst h
    exact h0 _
  | succ n ih =>
    rw [greedyMore] at h
    split at h
    · rw [List.mem_singleton] at h
      subst h
      exact h0 _
    · next hi0 =>
      rcases List.mem_append.1 h with h | h
      · obtain ⟨r, hr, hq⟩ := List.mem_flatMap.1 h
        obtain ⟨u, h1, h2, h3⟩ := hf.sound p r hr
        split at hq
        · rw [List.mem_singleton] at hq
          subst hq
          refine ⟨u, h1, h2, 1, ?_, ?_⟩
          · rintro k rfl
            cases k with
            | zero => exact absurd rfl hi0
            | succ k => omega
          · show (m.seq .eps) _ _ _
            rw [Meaning.seq_eps]
            exact h3
        · obtain ⟨v, h4, h5, k, h6, h7⟩ := ih (less hi) r hq
            (fun p => ⟨[], by simp, by simp, 0, by simp, rfl⟩)
          refine ⟨u ++ v, by rw [h4, h1, List.append_assoc], by rw [h2, h5, List.append_assoc], k + 1, ?_, u, v, rfl, ?_, ?_⟩
          · rintro j rfl
            have := h6 (j - 1) rfl
            cases j with
            | zero => exact absurd rfl hi0
            | succ j => omega
          · rw [← h5]; exact h3
          · rw [← h1]; exact h7
      · rw [List.mem_singleton] at h
        subst h
        exact h0 _

theorem greedy_complete {f : Pos → List Pos} {m : Meaning} (hf : Tracks f m) (n : Nat) (hi : Option Nat) (p : Pos) (w post : Str)
    (h : p.post = w ++ post) (hn : w.length < n) (hm : upTo m hi p.pre w post) :
    ∃ q ∈ greedyMore f n hi p, q.pre = p.pre ++ w ∧ q.post = post := by
  induction n generalizing hi p w with
  | zero => omega
  | succ n ih =>
    obtain ⟨k, hk, hm⟩ := hm
    rw [greedyMore]
    by_cases h0 : hi = some 0
    · have := hk 0 h0
      obtain rfl : k = 0 := by omega
      obtain rfl : w = [] := hm
      rw [if_pos h0]
      exact ⟨p, List.mem_singleton.2 rfl, by simp, by simpa using h⟩
    · rw [if_neg h0]
      induction k with
      | zero =>
        obtain rfl : w = [] := hm
        exact ⟨p, by simp, by simp, by simpa using h⟩
      | succ k ihk =>
        obtain ⟨u, v, rfl, h1, h2⟩ := hm
        cases u with
        | nil => exact ihk (fun j hj => by have := hk j hj; omega) (by simpa using h2)
        | cons c u =>
          obtain ⟨r, hr, h3, h4⟩ := hf.complete p (c :: u) (v ++ post) (by rw [h, List.append_assoc]) h1
          obtain ⟨q, hq, h5, h6⟩ := ih (less hi) r v h4 (by simp at hn; omega)
            ⟨k, fun j hj => by
              cases hi with
              | none => cases hj
              | some i =>
                have := hk i rfl
                cases hj
                omega, by rw [h3]; exact h2⟩
          refine ⟨q, List.mem_append.2 (.inl (List.mem_flatMap.2 ⟨r, hr, ?_⟩)), by rw [h5, h3, List.append_assoc], h6⟩
          rw [if_neg]
          · exact hq
          · rw [h4, h]
            simp only [List.length_append, List.length_cons]
            omega

theorem mem_lazy (f : Pos → List Pos) (n : Nat) (hi : Option Nat) (p q : Pos) : q ∈ lazyMore f n hi p ↔ q ∈ greedyMore f n hi p := by
  induction n generalizing hi p with
  | zero => rfl
  | succ n ih =>
    rw [lazyMore, greedyMore]
    split
    · rfl
    · have : ∀ r, (q ∈ if r.post.length = p.post.length then [r] else lazyMore f n (less hi) r) ↔
          (q ∈ if r.post.length = p.post.length then [r] else greedyMore f n (less hi) r) := by
        intro r
        split
        · rfl
        · exact ih _ _
      simp only [List.mem_cons, List.mem_append, List.mem_flatMap, List.not_mem_nil, or_false, this]
      exact or_comm

theorem Tracks.more {f : Pos → List Pos} {m : Meaning} (hf : Tracks f m) (hi : Option Nat) (greedy : Bool) :
    Tracks (fun q => if greedy then greedyMore f (q.post.length + 1) hi q else lazyMore f (q.post.length + 1) hi q) (upTo m hi) := by
  have h : ∀ p q, q ∈ (if greedy then greedyMore f (p.post.length + 1) hi p else lazyMore f (p.post.length + 1) hi p) ↔
      q ∈ greedyMore f (p.post.length + 1) hi p := by
    intro p q
    cases greedy with
    | true => rfl
    | false => exact mem_lazy ..
  constructor
  · intro p q hq
    exact greedy_sound hf _ _ _ _ ((h p q).1 hq)
  · intro p w post hp hm
    obtain ⟨q, hq, h1⟩ := greedy_complete hf (p.post.length + 1) hi p w post hp (by rw [hp, List.length_append]; omega) hm
    exact ⟨q, (h p q).2 hq, h1⟩

theorem tracks_chr {body : Pos → List Pos} {p : Char → Prop} [DecidablePred p]
    (h : ∀ pre c post caps, body ⟨pre, c :: post, caps⟩ = if p c then [⟨pre ++ [c], post, caps⟩] else [])
    (h0 : ∀ pre caps, body ⟨pre, [], caps⟩ = []) : Tracks body (.chr p) := by
  constructor
  · rintro ⟨pre, post, caps⟩ q hq
    cases post with
    | nil => rw [h0] at hq; cases hq
    | cons c post =>
      rw [h] at hq
      split at hq
      · next hc =>
        rw [List.mem_singleton] at hq
        subst hq
        exact ⟨[c], rfl, rfl, c, rfl, hc⟩
      · cases hq
  · rintro ⟨pre, _, caps⟩ _ post rfl ⟨c, rfl, hc⟩
    refine ⟨⟨pre ++ [c], post, caps⟩, ?_, rfl, rfl⟩
    rw [List.singleton_append, h, if_pos hc]
    exact List.mem_singleton.2 rfl

theorem tracks_pos {body : Pos → List Pos} {p : Str → Str → Prop} [∀ a b, Decidable (p a b)]
    (h : ∀ q, body q = if p q.pre q.post then [q] else []) : Tracks body (.pos p) := by
  constructor
  · intro q r hr
    rw [h] at hr
    split at hr
    · next hp =>
      rw [List.mem_singleton] at hr
      subst hr
      exact ⟨[], by simp, by simp, rfl, hp⟩
    · cases hr
  · rintro q w post e ⟨rfl, hp⟩
    rw [List.nil_append] at e
    refine ⟨q, ?_, by simp, e⟩
    rw [h, if_pos (by rw [e]; exact hp)]
    exact List.mem_singleton.2 rfl

/-- What a regular expression without back-references means -/
def Rx.den (E : Env) : Rx → Meaning
  | .eps => .eps
  | .set neg items => .chr fun c => (items.any (·.has E c) != neg) = true
  | .dot => .chr fun c => (E.f.s || c != '\n') = true
  | .bol => .pos fun pre _ => pre = [] ∨ E.f.m = true ∧ pre.getLast? = some '\n'
  | .eol => .pos fun _ post => post = [] ∨ post = ['\n'] ∨ E.f.m = true ∧ post.head? = some '\n'
  | .start => .pos fun pre _ => pre = []
  | .stop => .pos fun _ post => post = []
  | .wordb neg => .pos fun pre post => ¬ (pre = [] ∧ post = []) ∧
      (((pre.getLast?.any (Cat.word.has E)) != (post.head?.any (Cat.word.has E))) != neg) = true
  | .seq a b => (a.den E).seq (b.den E)
  | .alt a b => (a.den E).alt (b.den E)
  | .cap _ a => a.den E
  | .ref _ => fun _ _ _ => False
  | .rep a lo hi _ => ((a.den E).rep lo).seq (upTo (a.den E) (hi.map (· - lo)))
  | .ahead neg a => .pos fun pre post => (∃ u v, post = u ++ v ∧ a.den E pre u v) ↔ neg = false
  | .behind neg w a => .pos fun pre post =>
      (w ≤ pre.length ∧ ∃ u v, pre.drop (pre.length - w) ++ post = u ++ v ∧ a.den E (pre.take (pre.length - w)) u v) ↔ neg = false

/-- There are no back-references. -/
def Rx.noRef : Rx → Bool
  | .ref _ => false
  | .seq a b | .alt a b => a.noRef && b.noRef
  | .cap _ a | .rep a _ _ _ | .ahead _ a | .behind _ _ a => a.noRef
  | _ => true

theorem Tracks.nonempty {f : Pos → List Pos} {m : Meaning} (hf : Tracks f m) (p : Pos) :
    f p ≠ [] ↔ ∃ u v, p.post = u ++ v ∧ m p.pre u v := by
  constructor
  · intro h
    obtain ⟨q, hq⟩ := List.exists_mem_of_ne_nil _ h
    obtain ⟨w, _, h2, h3⟩ := hf.sound p q hq
    exact ⟨w, _, h2, h3⟩
  · rintro ⟨u, v, h1, h2⟩ h
    obtain ⟨q, hq, _⟩ := hf.complete p u v h1 h2
    rw [h] at hq
    cases hq

theorem tracks_look {body f : Pos → List Pos} {good : Str → Str → Prop} (neg : Bool)
    (hg : ∀ p : Pos, f p ≠ [] ↔ good p.pre p.post)
    (hb : ∀ p, body p = match f p with
      | q :: _ => if neg then [] else [⟨p.pre, p.post, q.caps⟩]
      | [] => if neg then [p] else []) :
    Tracks body (.pos fun pre post => good pre post ↔ neg = false) := by
  constructor
  · intro p q hq
    rw [hb] at hq
    have := hg p
    cases hf : f p with
    | nil =>
      rw [hf] at hq this
      cases neg with
      | true =>
        simp only [if_true, List.mem_singleton] at hq
        subst hq
        refine ⟨[], by simp, by simp, rfl, ?_⟩
        simpa using this
      | false => simp at hq
    | cons r l =>
      rw [hf] at hq this
      cases neg with
      | true => simp at hq
      | false =>
        simp only [Bool.false_eq_true, if_false, List.mem_singleton] at hq
        subst hq
        exact ⟨[], by simp, by simp, rfl, by simpa using this⟩
  · rintro p w post e ⟨rfl, h⟩
    rw [List.nil_append] at e
    have := hg p
    rw [e] at this
    rw [hb]
    cases hf : f p with
    | nil =>
      rw [hf] at this
      cases neg with
      | true => exact ⟨p, by simp, by simp, e⟩
      | false => simp at this h; exact absurd h this
    | cons r l =>
      rw [hf] at this
      cases neg with
      | true => simp at this h; exact absurd this h
      | false => exact ⟨_, List.mem_singleton.2 rfl, by simp, e⟩

theorem Rx.tracks (E : Env) (r : Rx) (h : r.noRef = true) : Tracks (r.run E) (r.den E) := by
  induction r with
  | eps => exact tracks_eps
  | set neg items => exact tracks_chr (fun _ _ _ _ => rfl) (fun _ _ => rfl)
  | dot => exact tracks_chr (fun _ _ _ _ => rfl) (fun _ _ => rfl)
  | bol =>
    refine tracks_pos fun q => ?_
    simp only [run]
    congr 1
    simp
  | eol =>
    refine tracks_pos fun q => ?_
    simp only [run]
    congr 1
    simp [or_assoc]
  | start => exact tracks_pos fun q => rfl
  | stop => exact tracks_pos fun q => rfl
  | wordb neg =>
    refine tracks_pos fun q => ?_
    simp only [run]
    by_cases h1 : q.pre = [] ∧ q.post = []
    · rw [if_pos h1, if_neg fun h => h.1 h1]
    · rw [if_neg h1]
      simp [h1]
  | seq a b iha ihb =>
    rw [noRef, Bool.and_eq_true] at h
    exact (iha h.1).seq (ihb h.2)
  | alt a b iha ihb =>
    rw [noRef, Bool.and_eq_true] at h
    exact (iha h.1).alt (ihb h.2)
  | cap k a ih =>
    have := ih h
    constructor
    · intro p q hq
      obtain ⟨r, hr, rfl⟩ := List.mem_map.1 hq
      exact this.sound p r hr
    · intro p w post e hm
      obtain ⟨q, hq, h1⟩ := this.complete p w post e hm
      exact ⟨_, List.mem_map_of_mem hq, h1⟩
  | ref k => cases h
  | rep a lo hi greedy ih => exact ((ih h).times lo).seq ((ih h).more _ _)
  | ahead neg a ih => exact tracks_look neg (fun p => (ih h).nonempty p) (fun p => rfl)
  | behind neg w a ih =>
    refine tracks_look (f := fun p => if w ≤ p.pre.length then
      a.run E ⟨p.pre.take (p.pre.length - w), p.pre.drop (p.pre.length - w) ++ p.post, p.caps⟩ else []) neg (fun p => ?_) (fun p => ?_)
    · split
      · next hw =>
        rw [(ih h).nonempty]
        simp [hw]
      · next hw => simp [hw]
    · simp only [run]
      split <;> rfl

end Pip.Rex
