import Verif.Props.Main
import Verif.Props.Case
import Mathlib.Data.List.Infix
import Mathlib.Data.List.TakeWhile
import Mathlib.Tactic.Tauto
/-!
# C105: the commands of the interactive mode
-/

namespace Pip
variable {X : Ext}

/-! ### Specification -/

/-- White space in ASCII -/
def blanks : Str := [' ', '\t', '\n', '\x0b', '\x0c', '\r', '\x1c', '\x1d', '\x1e', '\x1f']

/-- `w` is the first word of the line. -/
def FirstWord (l w : Str) : Prop :=
  ∃ sp rest, l = sp ++ w ++ rest ∧ (∀ c ∈ sp, c ∈ blanks) ∧ w ≠ [] ∧ (∀ c ∈ w, c ∉ blanks) ∧ (∀ c ∈ rest.head?, c ∈ blanks)

def quitWords : List Str :=
  [s% "q", s% "qu", s% "qui", s% "quit", s% "e", s% "ex", s% "exi", s% "exit", s% "x"]

def helpWords : List Str := [s% "h", s% "he", s% "hel", s% "help"]

/-! ### Words -/

theorem isSpace_blank (c : Char) (hc : c.toNat < 128) : isSpace c = true ↔ c ∈ blanks :=
  ascii_char (P := fun c => isSpace c = true ↔ c ∈ blanks) (by decide +kernel) c hc

theorem small_blank (c : Char) (hc : c.toNat < 128) : small c ∈ blanks ↔ c ∈ blanks :=
  ascii_char (P := fun c => small c ∈ blanks ↔ c ∈ blanks) (by decide +kernel) c hc

theorem wordsAux_word : ∀ (w rest : Str), (∀ c ∈ w, isSpace c = false) → (∀ c ∈ rest.head?, isSpace c = true) →
    (wordsAux (w ++ rest)).1 = w
  | [], [], _, _ => rfl
  | [], c :: rest, _, h => by
    have := h c (by simp)
    simp [wordsAux, this]
  | c :: w, rest, hw, h => by
    have hc := hw c (by simp)
    simp [wordsAux, hc, wordsAux_word w rest (fun d hd => hw d (by simp [hd])) h]

theorem splitWords_first : ∀ (sp w rest : Str), (∀ c ∈ sp, isSpace c = true) → w ≠ [] → (∀ c ∈ w, isSpace c = false) →
    (∀ c ∈ rest.head?, isSpace c = true) → ∃ ws, splitWords (sp ++ w ++ rest) = w :: ws
  | [], w, rest, _, hne, hw, hr => by
    refine ⟨(wordsAux (w ++ rest)).2, ?_⟩
    have := wordsAux_word w rest hw hr
    simp only [List.nil_append, splitWords, pushWord, this]
    cases w with
    | nil => exact absurd rfl hne
    | cons c w => rfl
  | c :: sp, w, rest, hs, hne, hw, hr => by
    obtain ⟨ws, h⟩ := splitWords_first sp w rest (fun d hd => hs d (by simp [hd])) hne hw hr
    refine ⟨ws, ?_⟩
    have hc := hs c (by simp)
    simp only [List.cons_append, splitWords, wordsAux, hc, if_true, pushWord, List.isEmpty_nil]
    exact h

theorem splitWords_blank : ∀ (sp : Str), (∀ c ∈ sp, isSpace c = true) → splitWords sp = []
  | [], _ => rfl
  | c :: sp, h => by
    have hc := h c (by simp)
    simp only [splitWords, wordsAux, hc, if_true, pushWord, List.isEmpty_nil]
    exact splitWords_blank sp fun d hd => h d (by simp [hd])

theorem mem_inits_iff (w t : Str) (hw : w ≠ []) : w.isPrefixOf t = true ↔ w ∈ t.inits.tail := by
  rw [List.isPrefixOf_iff_prefix, ← List.mem_inits]
  cases t with
  | nil => simp [hw]
  | cons c t => simp [List.inits, hw]

theorem quit_iff (w : Str) (hw : w ≠ []) :
    (w.isPrefixOf (s% "quit") || w.isPrefixOf (s% "exit") || w = s% "x") = true ↔ w ∈ quitWords := by
  simp only [Bool.or_eq_true, mem_inits_iff w _ hw, decide_eq_true_eq]
  simp [List.inits, quitWords]
  tauto

theorem help_iff (w : Str) (hw : w ≠ []) : w.isPrefixOf (s% "help") = true ↔ w ∈ helpWords := by
  rw [mem_inits_iff w _ hw]
  simp [List.inits, helpWords]

theorem replCmd_word (l w : Str) (hl : Ascii l) (hw : FirstWord l w) :
    (replCmd X.withCase (';' :: l ++ s% "\n") = .quit ↔ w.map small ∈ quitWords) ∧
    (replCmd X.withCase (';' :: l ++ s% "\n") = .help ↔ w.map small ∈ helpWords) := by
  obtain ⟨sp, rest, rfl, hsp, hne, hww, hr⟩ := hw
  have hsp' : Ascii sp := fun c hc => hl c (by simp [hc])
  have hw' : Ascii w := fun c hc => hl c (by simp [hc])
  have hr' : Ascii rest := fun c hc => hl c (by simp [hc])
  have hall : Ascii (sp ++ w ++ rest ++ s% "\n") := by
    intro c hc
    rcases List.mem_append.1 hc with h | h
    · exact hl c h
    · simp only [List.mem_singleton] at h
      subst h
      decide
  obtain ⟨ws, h⟩ := splitWords_first (sp.map small) (w.map small) ((rest ++ s% "\n").map small)
    (by
      intro c hc
      obtain ⟨d, hd, rfl⟩ := List.mem_map.1 hc
      exact (isSpace_blank _ (small_ascii d (hsp' d hd))).2 ((small_blank d (hsp' d hd)).2 (hsp d hd)))
    (by simpa using hne)
    (by
      intro c hc
      obtain ⟨d, hd, rfl⟩ := List.mem_map.1 hc
      have := hww d hd
      rw [← small_blank d (hw' d hd), ← isSpace_blank _ (small_ascii d (hw' d hd))] at this
      simpa using this)
    (by
      intro c hc
      cases rest with
      | nil =>
        simp only [List.nil_append, List.map_cons, List.head?_cons, Option.mem_some_iff] at hc
        subst hc
        decide +kernel
      | cons d rest =>
        simp only [List.cons_append, List.map_cons, List.head?_cons, Option.mem_some_iff] at hc
        subst hc
        have hd : d.toNat < 128 := hr' d (by simp)
        exact (isSpace_blank _ (small_ascii d hd)).2 ((small_blank d hd).2 (hr d (by simp))))
  have hlow : (sp ++ w ++ rest ++ s% "\n").map small = sp.map small ++ w.map small ++ (rest ++ s% "\n").map small := by
    simp
  have hne' : w.map small ≠ [] := by simpa using hne
  unfold replCmd
  simp only [List.cons_append, (isAscii_iff _).2 hall, if_true, map_lower hall]
  rw [hlow, h]
  dsimp only
  have hq := quit_iff _ hne'
  have hh := help_iff _ hne'
  constructor
  · rw [← hq]
    split
    · simp [*]
    · constructor
      · intro h
        split at h
        · cases h
        · split at h <;> cases h
      · intro h
        contradiction
  · rw [← hh]
    split
    · next h1 =>
      constructor
      · intro h; cases h
      · intro h2
        have h1 := hq.1 h1
        have h2 := hh.1 h2
        simp only [helpWords, List.mem_cons, List.not_mem_nil, or_false] at h2
        rcases h2 with h2 | h2 | h2 | h2 <;> rw [h2] at h1 <;> revert h1 <;> decide
    · split
      · simp [*]
      · constructor
        · intro h
          split at h <;> cases h
        · intro h; contradiction

theorem replCmd_blank (l : Str) (hl : Ascii l) (h : ∀ c ∈ l, c ∈ blanks) : replCmd X.withCase (';' :: l ++ s% "\n") = .none := by
  have hall : Ascii (l ++ s% "\n") := by
    intro c hc
    rcases List.mem_append.1 hc with h | h
    · exact hl c h
    · simp only [List.mem_singleton] at h
      subst h
      decide
  unfold replCmd
  simp only [List.cons_append, (isAscii_iff _).2 hall, if_true, map_lower hall]
  rw [splitWords_blank]
  intro c hc
  obtain ⟨d, hd, rfl⟩ := List.mem_map.1 hc
  have hd' := hall d hd
  refine (isSpace_blank _ (small_ascii d hd')).2 ((small_blank d hd').2 ?_)
  rcases List.mem_append.1 hd with h' | h'
  · exact h d h'
  · simp only [List.mem_singleton] at h'
    subst h'
    decide

/-! ### Sessions -/

theorem reads_command {s : St X} {l : Str} {rest : List Str} (hi : s.inp = (';' :: l) :: rest) (hn : '\n' ∉ l) :
    Reads s (';' :: l ++ s% "\n") { s with inp := rest, out := s.out ++ s% ">> " } :=
  ⟨_, rest, 0, hi, Nat.zero_le _, by simp [linesText], by simp, by rw [C71_command l hn]; simp, by simp⟩

theorem Session.det {s : St X} {e e' : ReplEnd} {s1 s2 : St X} (h : Session s e s1) (h' : Session s e' s2) : e = e' ∧ s1 = s2 := by
  have := Runs.det (h.runs (s.inp.length + 1) (Nat.lt_succ_self _)) (h'.runs (s.inp.length + 1) (Nat.lt_succ_self _))
  simpa using this

theorem session_comment {s : St X} {l : Str} {rest : List Str} (hi : s.inp = (';' :: l) :: rest) (hn : '\n' ∉ l)
    (hc : replCmd X (';' :: l ++ s% "\n") ≠ .quit) (e : ReplEnd) (s' : St X) :
    Session s e s' ↔
      Session (helped (';' :: l ++ s% "\n") { s with inp := rest, out := s.out ++ s% ">> " }) e s' := by
  have hr := reads_command hi hn
  have hrun : Runs (fun R => replStmts (X := X) R []) (helped (';' :: l ++ s% "\n") { s with inp := rest, out := s.out ++ s% ">> " })
      (.ok (), helped (';' :: l ++ s% "\n") { s with inp := rest, out := s.out ++ s% ">> " }) := runs_pure.2 rfl
  constructor
  · intro h
    have h1 := h.runs (s.inp.length + 1) (Nat.lt_succ_self _)
    refine (C71_session _ s' e s.inp.length ?_).mp ?_
    · rw [helped_inp, hi]
      simp
    · have h1 : Runs (fun R => afterRead R s.inp.length (';' :: l ++ s% "\n")) _ (.ok e, s') :=
        (runs_eq fun R => (replLoop_reads R _ hr).symm).mpr h1
      refine (runs_eq fun R => ?_).mp h1
      simp only [afterRead, C71_command l hn, hc, if_false]
      rfl
  · exact fun h => .done hr (C71_command l hn) hc hrun h

/-- A line of a semicolon and a beginning of `quit` or `exit`, or `x`, in any letter case and whatever follows, ends the
session. -/
theorem C105_quit (s : St X.withCase) (l w : Str) (rest : List Str) (hi : s.inp = (';' :: l) :: rest) (hn : '\n' ∉ l)
    (hl : Ascii l) (hw : FirstWord l w) (hq : w.map small ∈ quitWords) (e : ReplEnd) (s' : St X.withCase) :
    Session s e s' ↔ e = .bye ∧ s' = { s with inp := rest, out := s.out ++ s% ">> " } := by
  have h : Session s .bye _ := .quit (reads_command hi hn) (C71_command l hn) ((replCmd_word l w hl hw).1.2 hq)
  exact ⟨fun h' => h'.det h, fun ⟨h1, h2⟩ => h1 ▸ h2 ▸ h⟩

/-- With a beginning of `help` the help text is printed. -/
theorem C105_help (s : St X.withCase) (l w : Str) (rest : List Str) (hi : s.inp = (';' :: l) :: rest) (hn : '\n' ∉ l)
    (hl : Ascii l) (hw : FirstWord l w) (hq : w.map small ∈ helpWords) (e : ReplEnd) (s' : St X.withCase) :
    Session s e s' ↔ Session { s with inp := rest, out := s.out ++ s% ">> " ++ replHelp ++ s% "\n" } e s' := by
  have hh := (replCmd_word (X := X) l w hl hw).2.2 hq
  rw [session_comment hi hn (by rw [hh]; simp)]
  unfold helped
  rw [if_pos hh]
  simp only [List.append_assoc]

/-- All other comments do nothing. -/
theorem C105_comment (s : St X.withCase) (l : Str) (rest : List Str) (hi : s.inp = (';' :: l) :: rest) (hn : '\n' ∉ l)
    (hl : Ascii l) (hw : ∀ w, FirstWord l w → w.map small ∉ quitWords ∧ w.map small ∉ helpWords) (e : ReplEnd)
    (s' : St X.withCase) :
    Session s e s' ↔ Session { s with inp := rest, out := s.out ++ s% ">> " } e s' := by
  have key : replCmd X.withCase (';' :: l ++ s% "\n") ≠ .quit ∧ replCmd X.withCase (';' :: l ++ s% "\n") ≠ .help := by
    by_cases hb : ∀ c ∈ l, c ∈ blanks
    · rw [replCmd_blank l hl hb]
      simp
    · have : ∃ w, FirstWord l w := by
        have hd : l.dropWhile (· ∈ blanks) ≠ [] := by
          intro h
          apply hb
          simpa using List.dropWhile_eq_nil_iff.1 h
        refine ⟨(l.dropWhile (· ∈ blanks)).takeWhile (· ∉ blanks), l.takeWhile (· ∈ blanks),
          (l.dropWhile (· ∈ blanks)).dropWhile (· ∉ blanks), ?_, ?_, ?_, ?_, ?_⟩
        · simp [List.append_assoc, List.takeWhile_append_dropWhile]
        · intro c hc
          simpa using List.mem_takeWhile_imp hc
        · have := List.head_dropWhile_not (fun c => decide (c ∈ blanks)) hd
          cases hx : l.dropWhile (fun c => decide (c ∈ blanks)) with
          | nil => exact absurd hx hd
          | cons c t =>
            simp only [hx, List.head_cons] at this
            simp only [List.takeWhile_cons]
            simp only [decide_eq_false_iff_not] at this
            simp [this]
        · intro c hc
          simpa using List.mem_takeWhile_imp hc
        · intro c hc
          cases hx : (l.dropWhile (fun c => decide (c ∈ blanks))).dropWhile (fun c => decide (c ∉ blanks)) with
          | nil => rw [hx] at hc; simp at hc
          | cons d t =>
            rw [hx] at hc
            simp only [List.head?_cons, Option.mem_some_iff] at hc
            subst hc
            have := List.head_dropWhile_not (fun c => decide (c ∉ blanks)) (l := l.dropWhile (fun c => decide (c ∈ blanks)))
              (by rw [hx]; simp)
            simp only [hx, List.head_cons] at this
            simpa using this
      obtain ⟨w, h⟩ := this
      have := replCmd_word (X := X) l w hl h
      exact ⟨fun h' => (hw w h).1 (this.1.1 h'), fun h' => (hw w h).2 (this.2.1 h')⟩
  rw [session_comment hi hn key.1]
  unfold helped
  rw [if_neg key.2]

/-! ### Cases -/

example : FirstWord (s% "  X 1") (s% "X") := ⟨s% "  ", s% " 1", rfl, by decide, by decide, by decide, by decide⟩

/-- A comment and the end; the rest of the input is not read. -/
example : (let r := repl (run caseExt 20) (St.init caseExt [s% ";xyz", s% "I1{P6*7}", s% "; EXI 3", s% "1"] ())
    (r.1.toOption, r.2.out, r.2.inp)) =
    (some .bye, s% "Pip 1.2.0\nType ;help for more information.\n>> >> 42\n>> Bye!\n", [s% "1"]) := by
  decide +kernel

/-- Help -/
example : (let r := replLoop (run caseExt 20) 4 (St.init caseExt [s% "; HE me", s% ";X", s% "1"] ())
    (r.1.toOption, r.2.out.take 31, r.2.inp)) = (some .bye, s% ">> \nEnter Pip statements at the", [s% "1"]) := by
  decide +kernel

end Pip
