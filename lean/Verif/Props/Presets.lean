import Verif.Props.Regexes
import Verif.Props.Lambda
/-!
# C101: the variables that have values from the start
-/

namespace Pip
open Re Rex

variable {X : Ext}

theorem preset {main : Val} {args : List Val} {s0 start : St X} (h0 : setMain main args s0 = (.ok (), start)) {n : Str} {v : Val}
    (hl : isLocal n = false) (hs : ∀ c ∈ s% "abcde", n ≠ ['\\', c]) (hg : n ≠ s% "\\g") (hf : n ≠ s% "\\f")
    (hv : ((globals X).find? fun p => n = p.1).map (·.2) = some v) : start.var n = some v := by
  obtain rfl : { s0 with args := args, main := some main, vars := wiped X args (some main) } = start := by
    simpa [setMain] using h0
  show (if isLocal n then _ else wiped X args (some main) n) = _
  rw [hl]
  have : ((s% "abcde").zip args).find? (fun p => n = ['\\', p.1]) = none := by
    rw [List.find?_eq_none]
    intro p hp
    have := (List.of_mem_zip (a := p.1) (b := p.2) hp).1
    simpa using hs p.1 this
  simp only [wiped, this, if_neg hg, if_neg hf, Bool.false_eq_true, if_false, hv]

macro "preset%" h:term : term => `(preset $h (by decide) (by decide) (by decide) (by decide) (by rfl))

/-- C101: numbers, -/
theorem C101_numbers (main : Val) (args : List Val) (s0 s : St X) (h : setMain main args s0 = (.ok (), s)) :
    s.var (s% "i") = some (ofInt 0) ∧ s.var (s% "o") = some (ofInt 1) ∧ s.var (s% "v") = some (ofInt (-1)) ∧
    s.var (s% "t") = some (ofInt 10) ∧ s.var (s% "h") = some (ofInt 100) ∧ s.var (s% "m") = some (ofInt 1000) :=
  ⟨preset% h, preset% h, preset% h, preset% h, preset% h, preset% h⟩

/-- texts, the empty List and nil, -/
theorem C101_texts (main : Val) (args : List Val) (s0 s : St X) (h : setMain main args s0 = (.ok (), s)) :
    s.var (s% "k") = some (.scalar (s% ", ")) ∧ s.var (s% "n") = some (.scalar (s% "\n")) ∧ s.var (s% "p") = some (.scalar (s% "()")) ∧
    s.var (s% "s") = some (.scalar (s% " ")) ∧ s.var (s% "x") = some (.scalar []) ∧ s.var (s% "y") = some (.scalar []) ∧
    s.var (s% "l") = some (.list []) ∧ s.var (s% "u") = some .nil :=
  ⟨preset% h, preset% h, preset% h, preset% h, preset% h, preset% h, preset% h, preset% h⟩

/-- The characters from one to another, in order -/
def charsFrom (a b : Char) : Str := (List.range (b.toNat + 1 - a.toNat)).map fun i => Char.ofNat (a.toNat + i)

/-- the alphabets: all letters, capitals, vowels, consonants, printable characters, in order, -/
theorem C101_alphabets (main : Val) (args : List Val) (s0 s : St X) (h : setMain main args s0 = (.ok (), s)) :
    s.var (s% "z") = some (.scalar (charsFrom 'a' 'z')) ∧ s.var (s% "AZ") = some (.scalar (charsFrom 'A' 'Z')) ∧
    s.var (s% "VW") = some (.scalar (s% "aeiou")) ∧ s.var (s% "VY") = some (.scalar (s% "aeiouy")) ∧
    s.var (s% "CZ") = some (.scalar ((charsFrom 'a' 'z').filter fun c => c ∉ s% "aeiou")) ∧
    s.var (s% "PA") = some (.scalar (charsFrom ' ' '~')) := by
  refine ⟨?_, ?_, preset% h, preset% h, ?_, ?_⟩
  · rw [show charsFrom 'a' 'z' = s% "abcdefghijklmnopqrstuvwxyz" by decide +kernel]; exact preset% h
  · rw [show charsFrom 'A' 'Z' = s% "ABCDEFGHIJKLMNOPQRSTUVWXYZ" by decide +kernel]; exact preset% h
  · rw [show ((charsFrom 'a' 'z').filter fun c => c ∉ s% "aeiou") = s% "bcdfghjklmnpqrstvwxyz" by decide +kernel]; exact preset% h
  · rw [show charsFrom ' ' '~' = (List.range 95).map fun i => Char.ofNat (i + 32) by decide +kernel]; exact preset% h

/-- functions that give their first argument, their second and all of them, -/
theorem C101_functions (main : Val) (args : List Val) (s0 s : St X) (h : setMain main args s0 = (.ok (), s)) :
    ∃ f b g, s.var (s% "_") = some f ∧ s.var (s% "B") = some b ∧ s.var (s% "G") = some g ∧ ∀ (vs : List Val) (s1 : St X),
      Calls f vs s1 (.ok (vs[0]?.getD .nil), s1) ∧ Calls b vs s1 (.ok (vs[1]?.getD .nil), s1) ∧ Calls g vs s1 (.ok (.list vs), s1) := by
  refine ⟨_, _, _, preset% h, preset% h, preset% h, fun vs s1 => ⟨C21_read vs s1 0 'a' rfl, C21_read vs s1 1 'b' rfl, ?_⟩⟩
  refine (calls_simple (.arg 'g' (by decide)) none).2 ⟨rfl, ?_⟩
  have := Vals.var (plain_arg (c := 'g') (by decide)) (s1.openScope none vs)
  have e : (s1.openScope none vs).read (s% "g") = .list vs := by
    simp only [St.read, St.var, St.openScope, show isLocal (s% "g") = true by decide, if_true]
    rw [localVars_other _ _ _ (by decide)]
    rfl
  rw [e] at this
  exact this

/-! ### Patterns -/

/-- The variable holds a Pattern that finds what `m` says. -/
def HoldsPattern (s : St X) (n : Str) (db : CharDb) (m : Meaning) : Prop :=
  ∃ r f, s.var n = some (.pattern r f) ∧ Finds (X.withRe db) r f m

/-- An optional minus and digits -/
def WholeText (w : Str) : Prop := ∃ ds, ds ≠ [] ∧ (∀ c ∈ ds, isDigit c = true) ∧ (w = ds ∨ w = '-' :: ds)

/-- The same, and perhaps a dot and digits -/
def DecimalText (w : Str) : Prop := ∃ u, WholeText u ∧ (w = u ∨ ∃ ds, ds ≠ [] ∧ (∀ c ∈ ds, isDigit c = true) ∧ w = u ++ '.' :: ds)

theorem finds_congr {r : Str} {f : Flags} {m k : Meaning} (h : Finds X r f m) (e : ∀ pre w post, m pre w post ↔ k pre w post) :
    Finds X r f k := by
  rw [← Meaning.ext e]
  exact h

theorem plus_chr (p : Char → Prop) (pre w post : Str) : (Meaning.chr p).plus pre w post ↔ w ≠ [] ∧ ∀ c ∈ w, p c := by
  have key : ∀ (n : Nat) (pre w post : Str), (Meaning.chr p).rep n pre w post ↔ w.length = n ∧ ∀ c ∈ w, p c := by
    intro n
    induction n with
    | zero =>
      intro pre w post
      show w = [] ↔ _
      constructor
      · rintro rfl; simp
      · rintro ⟨h, _⟩; exact List.length_eq_zero_iff.1 h
    | succ n ih =>
      intro pre w post
      constructor
      · rintro ⟨u, v, rfl, ⟨c, rfl, hc⟩, h⟩
        obtain ⟨h1, h2⟩ := (ih _ _ _).1 h
        refine ⟨by simp [h1], ?_⟩
        simpa [hc] using h2
      · rintro ⟨h1, h2⟩
        cases w with
        | nil => cases h1
        | cons c w =>
          exact ⟨[c], w, rfl, ⟨c, rfl, h2 c (by simp)⟩, (ih _ _ _).2 ⟨by simpa using h1, fun d hd => h2 d (by simp [hd])⟩⟩
  constructor
  · rintro ⟨n, h⟩
    obtain ⟨h1, h2⟩ := (key _ _ _ _).1 h
    exact ⟨by rintro rfl; simp at h1, h2⟩
  · rintro ⟨h1, h2⟩
    refine ⟨w.length - 1, (key _ _ _ _).2 ⟨?_, h2⟩⟩
    have := List.length_pos_iff.2 h1
    omega

theorem seq_chr (p : Char → Prop) (m : Meaning) (pre w post : Str) :
    ((Meaning.chr p).seq m) pre w post ↔ ∃ c v, w = c :: v ∧ p c ∧ m (pre ++ [c]) v post := by
  constructor
  · rintro ⟨u, v, rfl, ⟨c, rfl, hc⟩, h⟩
    exact ⟨c, v, rfl, hc, h⟩
  · rintro ⟨c, v, rfl, hc, h⟩
    exact ⟨[c], v, rfl, ⟨c, rfl, hc⟩, h⟩

theorem branch_set {S : Sem} {t : Str} {p : Char → Prop} (h : S.other t p) : Alts S t (.chr p) := .one (Atom.branch (.other h))

theorem oneOf {lit : Char → Char → Prop} {K : Cats} : ∀ {t : Str}, t ≠ [] → t.all setOrdinary = true →
    Members lit K t fun d => ∃ c ∈ t, lit c d
  | [], h, _ => absurd rfl h
  | [c], _, h => by
    have : (fun d => ∃ c' ∈ [c], lit c' d) = lit c := by funext d; simp
    rw [this]
    exact .one (.one (.plain (by simpa using h)))
  | c :: d :: t, _, h => by
    have h' : (setOrdinary c && (d :: t).all setOrdinary) = true := h
    rw [Bool.and_eq_true] at h'
    have := Members.more (t := [c]) (.one (.plain h'.1)) (oneOf (lit := lit) (K := K) (t := d :: t) (by simp) h'.2)
    have e : (fun x => ∃ c' ∈ c :: d :: t, lit c' x) = fun x => lit c x ∨ ∃ c' ∈ d :: t, lit c' x := by
      funext x
      simp
    rw [e]
    exact this

/-- `w` finds white space, `XD` a digit, `XI` an integer, `XN` a number, `XW` a character of a word, `XX` any character but a newline, -/
theorem C101_patterns (main : Val) (args : List Val) (s0 s : St X) (h : setMain main args s0 = (.ok (), s)) (db : CharDb) :
    HoldsPattern s (s% "w") db (fun _ w _ => w ≠ [] ∧ ∀ c ∈ w, isSpace c = true) ∧
    HoldsPattern s (s% "XD") db (fun _ w _ => ∃ c, w = [c] ∧ isDigit c = true) ∧
    HoldsPattern s (s% "XI") db (fun _ w _ => WholeText w) ∧
    HoldsPattern s (s% "XN") db (fun _ w _ => DecimalText w) ∧
    HoldsPattern s (s% "XW") db (fun _ w _ => ∃ c, w = [c] ∧ if c.toNat < 128 then c.isAlphanum = true ∨ c = '_' else db.word c = true) ∧
    HoldsPattern s (s% "XX") db (fun _ w _ => ∃ c, w = [c] ∧ c ≠ '\n') := by
  have hd : Atom (reSem db {}) (s% "\\d") (.chr fun c => isDigit c = true) := .other (.cat .digit)
  have hint : Branch (reSem db {}) (s% "-?\\d+") _ :=
    .cons (t := s% "-?") (u := s% "\\d+") (.opt (t := s% "-") (.lit (c := '-') rfl)) (Piece.branch (.plus (t := s% "\\d") hd))
  have hlit : ∀ c d, (reSem db {}).lit c d ↔ c = d := by
    intro c d
    simp [reSem]
  have hi : ∀ pre w post, ((Meaning.chr ((reSem db {}).lit '-')).opt.seq (Meaning.chr fun c => isDigit c = true).plus) pre w post ↔ WholeText w := by
    intro pre w post
    constructor
    · rintro ⟨u, v, rfl, hu, hv⟩
      obtain ⟨h1, h2⟩ := (plus_chr _ _ _ _).1 hv
      rcases hu with ⟨c, rfl, hc⟩ | rfl
      · exact ⟨v, h1, h2, .inr (by rw [← (hlit _ _).1 hc]; rfl)⟩
      · exact ⟨v, h1, h2, .inl rfl⟩
    · rintro ⟨ds, h1, h2, rfl | rfl⟩
      · exact ⟨[], w, rfl, .inr rfl, (plus_chr _ _ _ _).2 ⟨h1, h2⟩⟩
      · exact ⟨['-'], ds, rfl, .inl ⟨'-', rfl, (hlit _ _).2 rfl⟩, (plus_chr _ _ _ _).2 ⟨h1, h2⟩⟩
  refine ⟨⟨_, _, preset% h, ?_⟩, ⟨_, _, preset% h, ?_⟩, ⟨_, _, preset% h, ?_⟩, ⟨_, _, preset% h, ?_⟩, ⟨_, _, preset% h, ?_⟩, ⟨_, _, preset% h, ?_⟩⟩
  · refine finds_congr (C95_faithful X db _ _ _ (.one (Piece.branch (.plus (t := s% "\\s") (.other (.cat .space)))))) fun pre w post => ?_
    exact plus_chr _ _ _ _
  · exact C95_faithful X db _ _ _ (.one (Atom.branch hd))
  · exact finds_congr (C95_faithful X db _ _ _ (.one hint)) hi
  · have hfrac : Branch (reSem db {}) (s% "\\.\\d+") _ :=
      .cons (t := s% "\\.") (u := s% "\\d+") (.one (.esc (c := '.') rfl)) (Piece.branch (.plus (t := s% "\\d") hd))
    have hopt : Branch (reSem db {}) (s% "(?:\\.\\d+)?") _ := Piece.branch (.opt (t := s% "(?:\\.\\d+)") (.group (.one hfrac)))
    refine finds_congr (C95_faithful X db _ _ _ (.one (hint.append hopt))) fun pre w post => ?_
    constructor
    · rintro ⟨u, v, rfl, hu, hv⟩
      refine ⟨u, (hi _ _ _).1 hu, ?_⟩
      rcases hv with hv | rfl
      · obtain ⟨c, ds, rfl, hc, hds⟩ := (seq_chr _ _ _ _ _).1 hv
        obtain ⟨h1, h2⟩ := (plus_chr _ _ _ _).1 hds
        exact .inr ⟨ds, h1, h2, by rw [← (hlit _ _).1 hc]⟩
      · exact .inl (List.append_nil u)
    · rintro ⟨u, hu, rfl | ⟨ds, h1, h2, rfl⟩⟩
      · exact ⟨w, [], (List.append_nil w).symm, (hi _ _ _).2 hu, .inr rfl⟩
      · exact ⟨u, '.' :: ds, rfl, (hi _ _ _).2 hu, .inl ((seq_chr _ _ _ _ _).2 ⟨'.', ds, rfl, (hlit _ _).2 rfl, (plus_chr _ _ _ _).2 ⟨h1, h2⟩⟩)⟩
  · refine finds_congr (C95_faithful X db _ _ _ (.one (Atom.branch (t := s% "\\w") (.other (.cat .word))))) fun pre w post => ?_
    show (∃ c, w = [c] ∧ if c.toNat < 128 then c.isAlphanum = true ∨ c = '_' else (false = false ∧ db.word c = true)) ↔ _
    simp
  · refine finds_congr (C95_faithful X db _ _ _ (.one (Atom.branch (t := s% ".") .dot))) fun pre w post => ?_
    show (∃ c, w = [c] ∧ (false = true ∨ c ≠ '\n')) ↔ _
    simp

/-- `XL` a small letter, `XU` a capital, `XV` a vowel, `XY` a vowel or `y`, `XC` a consonant, -/
theorem C101_letters (main : Val) (args : List Val) (s0 s : St X) (h : setMain main args s0 = (.ok (), s)) (db : CharDb) :
    HoldsPattern s (s% "XL") db (fun _ w _ => ∃ c, w = [c] ∧ c.isLower = true) ∧
    HoldsPattern s (s% "XU") db (fun _ w _ => ∃ c, w = [c] ∧ c.isUpper = true) ∧
    HoldsPattern s (s% "XV") db (fun _ w _ => ∃ c, w = [c] ∧ c ∈ s% "aeiou") ∧
    HoldsPattern s (s% "XY") db (fun _ w _ => ∃ c, w = [c] ∧ c ∈ s% "aeiouy") ∧
    HoldsPattern s (s% "XC") db (fun _ w _ => ∃ c, w = [c] ∧ c.isLower = true ∧ c ∉ s% "aeiou") := by
  have hset : ∀ t : Str, t ≠ [] → t.all setOrdinary = true → t.head? ≠ some '^' → Finds (X.withRe db) (s% "[" ++ t ++ s% "]") {} (fun _ w _ => ∃ c, w = [c] ∧ c ∈ t) := by
    intro t h1 h2 h3
    refine finds_congr (C95_faithful X db _ _ _ (.one (Atom.branch (.other (.set (.plain (oneOf h1 h2)) h3))))) fun pre w post => ?_
    show (∃ c, w = [c] ∧ ∃ d ∈ t, d = c ∨ false = true ∧ _) ↔ _
    simp
  have hrange : ∀ a b : Char, setOrdinary a = true → setOrdinary b = true → a ≠ '^' → a.toNat ≤ b.toNat →
      Finds (X.withRe db) (s% "[" ++ [a, '-', b] ++ s% "]") {} (fun _ w _ => ∃ c : Char, w = [c] ∧ a.toNat ≤ c.toNat ∧ c.toNat ≤ b.toNat) := by
    intro a b h1 h2 h0 h3
    refine finds_congr (C95_faithful X db _ _ _ (.one (Atom.branch (.other (.set (t := [a, '-', b])
      (.plain (.one (.range (t := [a]) (u := [b]) (.plain h1) (.plain h2) h3))) (by simpa using h0)))))) fun pre w post => ?_
    show (∃ c, w = [c] ∧ ∃ d : Char, a.toNat ≤ d.toNat ∧ d.toNat ≤ b.toNat ∧ (d = c ∨ false = true ∧ _)) ↔ _
    simp
  have hlow : ∀ c : Char, 'a'.toNat ≤ c.toNat ∧ c.toNat ≤ 'z'.toNat ↔ c.isLower = true := by
    intro c
    simp [Char.isLower, UInt32.le_iff_toNat_le]
  have hup : ∀ c : Char, 'A'.toNat ≤ c.toNat ∧ c.toNat ≤ 'Z'.toNat ↔ c.isUpper = true := by
    intro c
    simp [Char.isUpper, UInt32.le_iff_toNat_le]
  refine ⟨⟨_, _, preset% h, ?_⟩, ⟨_, _, preset% h, ?_⟩, ⟨_, _, preset% h, hset (s% "aeiou") (by decide) (by decide) (by decide)⟩,
    ⟨_, _, preset% h, hset (s% "aeiouy") (by decide) (by decide) (by decide)⟩, ⟨_, _, preset% h, ?_⟩⟩
  · exact finds_congr (hrange 'a' 'z' rfl rfl (by decide) (by decide)) fun _ w _ => by simp only [hlow]
  · exact finds_congr (hrange 'A' 'Z' rfl rfl (by decide) (by decide)) fun _ w _ => by simp only [hup]
  · refine finds_congr (hset (s% "bcdfghjklmnpqrstvwxyz") (by decide) (by decide) (by decide)) fun _ w _ => ?_
    have : ∀ c : Char, c ∈ s% "bcdfghjklmnpqrstvwxyz" ↔ c.isLower = true ∧ c ∉ s% "aeiou" := by
      intro c
      constructor
      · intro hc
        have : ∀ c ∈ s% "bcdfghjklmnpqrstvwxyz", c.isLower = true ∧ c ∉ s% "aeiou" := by decide
        exact this c hc
      · rintro ⟨h1, h2⟩
        have : ∀ n : Nat, n < 128 → (Char.ofNat n).isLower = true → Char.ofNat n ∉ s% "aeiou" → Char.ofNat n ∈ s% "bcdfghjklmnpqrstvwxyz" := by
          decide +kernel
        have hc := (hlow c).2 h1
        have := this c.toNat (by have : 'z'.toNat = 122 := rfl; omega)
        rw [Char.ofNat_toNat] at this
        exact this h1 h2
    simp only [this]

/-- and `XA` a letter: of the characters of ASCII it finds exactly the letters. -/
theorem C101_letter (main : Val) (args : List Val) (s0 s : St X) (h : setMain main args s0 = (.ok (), s)) (db : CharDb) :
    ∃ m, HoldsPattern s (s% "XA") db m ∧ (∀ pre w post, m pre w post → ∃ c, w = [c]) ∧
      ∀ (c : Char) pre post, c.toNat < 128 → (m pre [c] post ↔ c.isAlpha = true) := by
  refine ⟨_, ⟨_, _, preset% h, C95_faithful X db _ _ _ (.one (Atom.branch (t := s% "[a-z]") (.other (.set (t := s% "a-z")
    (.plain (.one (.range (t := s% "a") (u := s% "z") (a := 'a') (b := 'z') (.plain rfl) (.plain rfl) (by decide)))) (by decide)))))⟩, ?_, ?_⟩
  · rintro pre w post ⟨c, rfl, _⟩
    exact ⟨c, rfl⟩
  · intro c pre post hc
    constructor
    · rintro ⟨d, hd, e, h1, h2, h3⟩
      obtain rfl : c = d := by simpa using hd
      have he : e.toNat < 128 := by
        have : 'z'.toNat = 122 := rfl
        omega
      have key : ∀ n : Nat, n < 128 → ∀ k : Nat, k < 128 → ('a'.toNat ≤ k ∧ k ≤ 'z'.toNat ∧
          (Char.ofNat k = Char.ofNat n ∨ (Char.ofNat k).toLower = (Char.ofNat n).toLower)) → (Char.ofNat n).isAlpha = true := by decide +kernel
      have := key c.toNat hc e.toNat he
      rw [Char.ofNat_toNat, Char.ofNat_toNat] at this
      refine this ⟨h1, h2, h3.imp_right fun h => ?_⟩
      have := h.2
      simpa [SameLetter, hc, he] using this
    · intro hal
      have hlow : (c.toLower).toNat < 128 ∧ 'a'.toNat ≤ c.toLower.toNat ∧ c.toLower.toNat ≤ 'z'.toNat ∧ c.toLower.toLower = c.toLower := by
        have key : ∀ n : Nat, n < 128 → (Char.ofNat n).isAlpha = true → ((Char.ofNat n).toLower).toNat < 128 ∧ 'a'.toNat ≤ (Char.ofNat n).toLower.toNat ∧
          (Char.ofNat n).toLower.toNat ≤ 'z'.toNat ∧ (Char.ofNat n).toLower.toLower = (Char.ofNat n).toLower := by decide +kernel
        have := key c.toNat hc
        rw [Char.ofNat_toNat] at this
        exact this hal
      refine ⟨c, rfl, c.toLower, hlow.2.1, hlow.2.2.1, .inr ⟨rfl, ?_⟩⟩
      simp [SameLetter, hc, hlow.1, hlow.2.2.2]

/-- At the start of a program the variables are set like this. -/
example : ∃ s, setMain (X := toyExt) .nil [] (toySt []) = (.ok (), s) := ⟨_, rfl⟩
example : reOut (s% "\"a-12 b3.5\"@XI J\",\"") = some (s% "-12,3,5\n") := by decide +kernel
example : reOut (s% "\"a-12 b3.5\"@XN J\",\"") = some (s% "-12,3.5\n") := by decide +kernel
example : reOut (s% "\"aB cD\"@XA J\",\"") = some (s% "a,B,c,D\n") := by decide +kernel
example : reOut (s% "\"a  b c\"Rw\"-\"") = some (s% "a-b-c\n") := by decide +kernel

end Pip
