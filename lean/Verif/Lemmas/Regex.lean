import Verif.Spec.Regex
import Verif.Lemmas.Num
/-!
# The grammar of regular expressions: combining texts, and unique readability
-/

namespace Pip
open Re

/-! ### The algebra of meanings -/

namespace Re.Meaning

theorem ext {m k : Meaning} (h : ∀ pre w post, m pre w post ↔ k pre w post) : m = k := by
  funext a b c
  exact propext (h a b c)

theorem seq_eps (m : Meaning) : m.seq eps = m := by
  apply ext
  intro pre w post
  constructor
  · rintro ⟨u, v, rfl, h1, rfl⟩
    simpa using h1
  · intro h
    exact ⟨w, [], by simp, by simpa using h, rfl⟩

theorem eps_seq (m : Meaning) : eps.seq m = m := by
  apply ext
  intro pre w post
  constructor
  · rintro ⟨u, v, rfl, rfl, h⟩
    simpa using h
  · intro h
    exact ⟨[], w, by simp, rfl, by simpa using h⟩

theorem seq_assoc (m k l : Meaning) : (m.seq k).seq l = m.seq (k.seq l) := by
  apply ext
  intro pre w post
  constructor
  · rintro ⟨_, v, rfl, ⟨u, u', rfl, h1, h2⟩, h3⟩
    exact ⟨u, u' ++ v, by simp, by simpa using h1, u', v, rfl, h2, by simpa using h3⟩
  · rintro ⟨u, _, rfl, h1, u', v, rfl, h2, h3⟩
    exact ⟨u ++ u', v, by simp, ⟨u, u', rfl, by simpa using h1, h2⟩, by simpa using h3⟩

theorem alt_assoc (m k l : Meaning) : (m.alt k).alt l = m.alt (k.alt l) := by
  apply ext
  intro pre w post
  simp [alt, or_assoc]

theorem text_iff (lit : Char → Char → Prop) (hl : ∀ c d, lit c d ↔ c = d) (s pre w post : Str) :
    text lit s pre w post ↔ w = s := by
  induction s generalizing pre w with
  | nil => rfl
  | cons c s ih =>
    constructor
    · rintro ⟨_, v, rfl, ⟨d, rfl, hd⟩, h⟩
      rw [(ih _ _).1 h, (hl c d).1 hd]
      rfl
    · rintro rfl
      exact ⟨[c], s, rfl, ⟨c, rfl, (hl c c).2 rfl⟩, (ih _ _).2 rfl⟩

end Re.Meaning

/-! ### Texts -/

namespace Re
variable {S : Sem}

theorem Atom.lit {c : Char} (h : ordinary c = true) : Atom S [c] (.chr (S.lit c)) := .one (.lit h)
theorem Atom.esc {c : Char} (h : escapable c = true) : Atom S ['\\', c] (.chr (S.lit c)) := .one (.esc h)
theorem Atom.dot : Atom S (s% ".") (.chr S.dot) := .one .dot
theorem Atom.other {t : Str} {p : Char → Prop} (h : S.other t p) : Atom S t (.chr p) := .one (.other h)

theorem times_star (m : Meaning) : m.times 0 none = m.star := by
  apply Meaning.ext
  intro pre w post
  simp [Meaning.times, Meaning.star]

theorem times_plus (m : Meaning) : m.times 1 none = m.plus := by
  apply Meaning.ext
  intro pre w post
  constructor
  · rintro ⟨n, h1, _, h⟩
    obtain ⟨n, rfl⟩ : ∃ k, n = k + 1 := ⟨n - 1, by omega⟩
    exact ⟨n, h⟩
  · rintro ⟨n, h⟩
    exact ⟨n + 1, by omega, by simp, h⟩

theorem times_exactly (m : Meaning) (n : Nat) : m.times n (some n) = m.rep n := by
  apply Meaning.ext
  intro pre w post
  constructor
  · rintro ⟨k, h1, h2, h⟩
    have := h2 n rfl
    obtain rfl : k = n := by omega
    exact h
  · intro h
    exact ⟨n, Nat.le_refl _, by simp, h⟩

theorem times_opt (m : Meaning) : m.times 0 (some 1) = m.opt := by
  apply Meaning.ext
  intro pre w post
  constructor
  · rintro ⟨k, _, hk, h1⟩
    have := hk 1 rfl
    obtain rfl | rfl : k = 0 ∨ k = 1 := by omega
    · exact .inr h1
    · rw [Meaning.rep, Meaning.rep, Meaning.seq_eps] at h1
      exact .inl h1
  · rintro (h1 | h1)
    · refine ⟨1, by simp, by simp, ?_⟩
      rw [Meaning.rep, Meaning.rep, Meaning.seq_eps]
      exact h1
    · exact ⟨0, by simp, by simp, h1⟩

theorem Piece.bol : Piece S (s% "^") (.pos S.bol) := .at .bol
theorem Piece.eol : Piece S (s% "$") (.pos S.eol) := .at .eol
theorem Piece.star {t : Str} {m : Meaning} (h : Atom S t m) : Piece S (t ++ s% "*") m.star := times_star m ▸ .greedy h .star
theorem Piece.plus {t : Str} {m : Meaning} (h : Atom S t m) : Piece S (t ++ s% "+") m.plus := times_plus m ▸ .greedy h .plus
theorem Piece.opt {t : Str} {m : Meaning} (h : Atom S t m) : Piece S (t ++ s% "?") m.opt := times_opt m ▸ .greedy h .opt
theorem Piece.times {t : Str} {m : Meaning} (h : Atom S t m) (n : Nat) (hn : n < 4294967295) :
    Piece S (t ++ s% "{" ++ showInt n ++ s% "}") (m.rep n) := by
  have := Piece.greedy h (.exactly n hn)
  rw [times_exactly] at this
  simpa only [List.append_assoc] using this

theorem Branch.append {t u : Str} {m k : Meaning} (h : Branch S t m) (h' : Branch S u k) : Branch S (t ++ u) (m.seq k) := by
  refine Branch.rec (motive_1 := fun _ _ _ => True) (motive_2 := fun _ _ _ => True)
    (motive_3 := fun t m _ => Branch S (t ++ u) (m.seq k)) (motive_4 := fun _ _ _ => True)
    ?_ ?_ ?_ ?_ ?_ ?_ ?_ ?_ ?_ ?_ ?_ ?_ ?_ ?_ ?_ h
  all_goals try (intros; trivial)
  · rw [Meaning.eps_seq]
    exact h'
  · intro t u m k h1 h2 _ ih
    rw [List.append_assoc, Meaning.seq_assoc]
    exact .cons h1 ih

theorem Alts.append {t u : Str} {m k : Meaning} (h : Alts S t m) (h' : Alts S u k) : Alts S (t ++ s% "|" ++ u) (m.alt k) := by
  refine Alts.rec (motive_1 := fun _ _ _ => True) (motive_2 := fun _ _ _ => True)
    (motive_3 := fun t m _ => True) (motive_4 := fun t m _ => Alts S (t ++ s% "|" ++ u) (m.alt k))
    ?_ ?_ ?_ ?_ ?_ ?_ ?_ ?_ ?_ ?_ ?_ ?_ ?_ ?_ ?_ h
  all_goals try (intros; trivial)
  · intro t m h _
    exact .more h h'
  · intro t u m k h1 h2 _ ih
    rw [Meaning.alt_assoc]
    simp only [List.append_assoc] at ih ⊢
    have := Alts.more h1 ih
    simpa only [List.append_assoc] using this

theorem Atom.branch {t : Str} {m : Meaning} (h : Atom S t m) : Branch S t m := by
  have := Branch.cons (.one h) .nil
  simpa [Meaning.seq_eps] using this

theorem Piece.branch {t : Str} {m : Meaning} (h : Piece S t m) : Branch S t m := by
  have := Branch.cons h .nil
  simpa [Meaning.seq_eps] using this

theorem One.ne_nil {t : Str} {p : Char → Prop} (h : One S t p) : t ≠ [] := by
  cases h with
  | other h => exact S.other_ne _ _ h
  | _ => simp

theorem Quant.ne_nil {q : Str} {lo : Nat} {hi : Option Nat} (h : Quant q lo hi) : q ≠ [] := by
  cases h <;> simp

theorem At.ne_nil {t : Str} {p : Str → Str → Prop} (h : At S t p) : t ≠ [] := by
  cases h <;> simp

theorem Atom.ne_nil {t : Str} {m : Meaning} (h : Atom S t m) : t ≠ [] := by
  cases h with
  | one h => exact h.ne_nil
  | _ => simp

theorem Piece.ne_nil {t : Str} {m : Meaning} (h : Piece S t m) : t ≠ [] := by
  cases h with
  | one h => exact h.ne_nil
  | «at» h => exact h.ne_nil
  | greedy h => simp [h.ne_nil]
  | lazy h => simp

theorem Branch.of_nil {m : Meaning} (h : Branch S [] m) : m = .eps := by
  generalize ht : ([] : Str) = t at h
  cases h with
  | nil => rfl
  | cons h1 h2 => exact absurd (List.append_eq_nil_iff.1 ht.symm).1 h1.ne_nil

theorem Alts.of_nil {m : Meaning} (h : Alts S [] m) : m = .eps := by
  generalize ht : ([] : Str) = t at h
  cases h with
  | one h1 => exact Branch.of_nil (ht ▸ h1)
  | more h1 h2 => simp at ht

/-- A text of one character that is a piece and not an assertion is an atom. -/
theorem Piece.of_one {c : Char} {m : Meaning} (h : Piece S [c] m) (h1 : c ≠ '^') (h2 : c ≠ '$') : Atom S [c] m := by
  generalize ht : [c] = t at h
  cases h with
  | one h => exact h
  | «at» h =>
    cases h with
    | bol => exact absurd (List.cons.inj ht).1 h1
    | eol => exact absurd (List.cons.inj ht).1 h2
    | _ => cases ht
  | greedy h hq =>
    have h2 := congrArg List.length ht
    have h3 := List.length_pos_iff.2 h.ne_nil
    have h4 := List.length_pos_iff.2 hq.ne_nil
    simp only [List.length_append, List.length_cons, List.length_nil] at h2
    omega
  | lazy h hq =>
    have h2 := congrArg List.length ht
    have h3 := List.length_pos_iff.2 h.ne_nil
    simp only [List.length_append, List.length_cons, List.length_nil] at h2
    omega

/-- A text of one character that is not `|` is a piece. -/
theorem Alts.of_one {c : Char} {m : Meaning} (h : Alts S [c] m) (hc : c ≠ '|') : Piece S [c] m := by
  have branch : ∀ {m}, Branch S [c] m → Piece S [c] m := by
    intro m h
    generalize ht : [c] = t at h
    cases h with
    | nil => cases ht
    | @cons t u m k h1 h2 =>
      have h0 := h1.ne_nil
      cases t with
      | nil => exact absurd rfl h0
      | cons d t =>
        simp only [List.cons_append, List.cons.injEq] at ht
        obtain ⟨rfl, ht⟩ := ht
        obtain ⟨rfl, rfl⟩ := List.append_eq_nil_iff.1 ht.symm
        rw [h2.of_nil, Meaning.seq_eps]
        exact h1
  generalize ht : [c] = t at h
  cases h with
  | one h => exact ht ▸ branch (ht ▸ h)
  | @more t u m k h1 h2 =>
    exfalso
    cases t with
    | nil =>
      simp only [List.nil_append] at ht
      have ht' : [c] = '|' :: u := ht
      exact hc (List.cons.inj ht').1
    | cons d t =>
      have := congrArg List.length ht
      simp at this

/-- `wrap()` makes an atom, except of the texts ``, `|`, `^` and `$`. -/
theorem Alts.wrap {t : Str} {m : Meaning} (h : Alts S t m) (h0 : t ≠ []) (h1 : t ≠ s% "|") (h2 : t ≠ s% "^") (h3 : t ≠ s% "$") :
    Atom S (wrapRaw t) m := by
  unfold wrapRaw
  split
  · exact .group h
  · next hl =>
    match t, h0, h1, h2, h3, hl, h with
    | [c], _, h1, h2, h3, _, h =>
      exact (h.of_one fun e => h1 (by rw [e])).of_one (fun e => h2 (by rw [e])) fun e => h3 (by rw [e])
    | _ :: _ :: _, _, _, _, _, hl, _ => simp at hl

theorem Alts.wrapBranch {t : Str} {m : Meaning} (h : Alts S t m) (h1 : t ≠ s% "|") : Branch S (wrapRaw t) m := by
  unfold wrapRaw
  split
  · exact (Atom.group h).branch
  · next hl =>
    match t, h1, hl, h with
    | [], _, _, h => rw [h.of_nil]; exact .nil
    | [c], h1, _, h => exact (h.of_one fun e => h1 (by rw [e])).branch
    | _ :: _ :: _, _, hl, _ => simp at hl

/-- `wrap()` does not change the meaning. -/
theorem Alts.wrapAlts {t : Str} {m : Meaning} (h : Alts S t m) : Alts S (wrapRaw t) m := by
  by_cases h1 : t = s% "|"
  · subst h1
    exact h
  · exact .one (h.wrapBranch h1)

end Re

/-! ### What texts start with -/

namespace Re
variable {S : Sem}

/-- The characters that an atom starts with -/
def starts (c : Char) : Bool := ordinary c || (s% "\\.^$([").elem c

/-- The text does not start with one of these characters. -/
def Not1 (p : Char → Bool) (x : Str) : Prop := ∀ c y, x = c :: y → p c = false

theorem One.head (ho : ∀ t m, S.other t m → ∃ c u, t = c :: u ∧ starts c = true) {t : Str} {p : Char → Prop} (h : One S t p) :
    ∃ c u, t = c :: u ∧ starts c = true := by
  cases h with
  | @lit c hc => exact ⟨c, [], rfl, by simp [starts, hc]⟩
  | @esc c _ => exact ⟨'\\', [c], rfl, rfl⟩
  | dot => exact ⟨'.', [], rfl, rfl⟩
  | other h => exact ho _ _ h

theorem Atom.head (ho : ∀ t m, S.other t m → ∃ c u, t = c :: u ∧ starts c = true) {t : Str} {m : Meaning} (h : Atom S t m) : ∃ c u, t = c :: u ∧ starts c = true := by
  cases h with
  | one h => exact h.head ho
  | _ => exact ⟨'(', _, rfl, rfl⟩

theorem At.head {t : Str} {p : Str → Str → Prop} (h : At S t p) : ∃ c u, t = c :: u ∧ starts c = true := by
  cases h with
  | bol => exact ⟨'^', [], rfl, rfl⟩
  | eol => exact ⟨'$', [], rfl, rfl⟩
  | _ => exact ⟨'\\', _, rfl, rfl⟩

theorem Piece.head (ho : ∀ t m, S.other t m → ∃ c u, t = c :: u ∧ starts c = true) {t : Str} {m : Meaning} (h : Piece S t m) : ∃ c u, t = c :: u ∧ starts c = true := by
  cases h with
  | one h => exact h.head ho
  | «at» h => exact h.head
  | greedy h =>
    obtain ⟨c, u, rfl, hc⟩ := h.head ho
    exact ⟨c, _, rfl, hc⟩
  | lazy h =>
    obtain ⟨c, u, rfl, hc⟩ := h.head ho
    exact ⟨c, _, rfl, hc⟩

theorem Branch.head (ho : ∀ t m, S.other t m → ∃ c u, t = c :: u ∧ starts c = true) {t : Str} {m : Meaning} (h : Branch S t m) :
    t = [] ∨ ∃ c u, t = c :: u ∧ starts c = true := by
  cases h with
  | nil => exact .inl rfl
  | cons h1 h2 =>
    obtain ⟨c, u, rfl, hc⟩ := h1.head ho
    exact .inr ⟨c, _, rfl, hc⟩

theorem Alts.head (ho : ∀ t m, S.other t m → ∃ c u, t = c :: u ∧ starts c = true) {t : Str} {m : Meaning} (h : Alts S t m) :
    t = [] ∨ ∃ c u, t = c :: u ∧ (starts c = true ∨ c = '|') := by
  cases h with
  | one h =>
    rcases h.head ho with h | ⟨c, u, h, hc⟩
    · exact .inl h
    · exact .inr ⟨c, u, h, .inl hc⟩
  | more h1 h2 =>
    rcases h1.head ho with rfl | ⟨c, u, rfl, hc⟩
    · exact .inr ⟨'|', _, rfl, .inr rfl⟩
    · exact .inr ⟨c, _, rfl, .inl hc⟩

def isQuant (c : Char) : Bool := (s% "*+?{").elem c

theorem starts_quant {c : Char} (h : starts c = true) : isQuant c = false := by
  cases hq : isQuant c with
  | false => rfl
  | true =>
    simp only [isQuant, List.elem_eq_mem, decide_eq_true_eq, List.mem_cons, List.not_mem_nil, or_false] at hq
    rcases hq with rfl | rfl | rfl | rfl <;> exact absurd h (by decide)

theorem Not1.cons {p : Char → Bool} {c : Char} {x : Str} (h : p c = false) : Not1 p (c :: x) := by
  rintro _ _ ⟨⟩
  exact h

theorem Not1.mono {p q : Char → Bool} {x : Str} (h : Not1 p x) (hpq : ∀ c, q c = true → p c = true) : Not1 q x := by
  intro c y e
  have := h c y e
  cases hq : q c with
  | false => rfl
  | true => rw [hpq c hq] at this; cases this

/-- What may come after a piece, a branch, and a whole text -/
abbrev AfterPiece (x : Str) : Prop := Not1 isQuant x
abbrev AfterBranch (x : Str) : Prop := Not1 (fun c => starts c || isQuant c) x
abbrev AfterAlts (x : Str) : Prop := Not1 (fun c => starts c || isQuant c || c == '|') x

theorem AfterBranch.piece {x : Str} (h : AfterBranch x) : AfterPiece x := h.mono (by simp +contextual)
theorem AfterAlts.branch {x : Str} (h : AfterAlts x) : AfterBranch x := h.mono (by simp +contextual)

theorem Branch.afterPiece (ho : ∀ t m, S.other t m → ∃ c u, t = c :: u ∧ starts c = true) {t : Str} {m : Meaning} (h : Branch S t m) {x : Str} (hx : AfterBranch x) :
    AfterPiece (t ++ x) := by
  rcases h.head ho with rfl | ⟨c, u, rfl, hc⟩
  · exact hx.piece
  · exact .cons (starts_quant hc)

end Re

end Pip
