import Verif.Props.Eval
import Verif.Props.Parse
import Verif.Props.Vars
import Verif.Lemmas.ScanMore
import Verif.Lemmas.Rel
import Verif.Lemmas.Seq
import Verif.Model.Main
/-! # C63, C64, C68, C71: the main program -/

namespace Pip
open Scan Parse
variable {X : Ext} {α : Type}

/-! ### C63: the simulated command line -/

/-- A piece of an argument: characters as they are, or characters between quotes -/
inductive Piece where
  | bare (s : Str) | quoted (q : Char) (s : Str)

/-- Bare pieces contain neither spaces nor quotes and are not empty; quoted pieces do not contain their quote. -/
def Piece.Ok : Piece → Prop
  | .bare s => s ≠ [] ∧ ∀ c ∈ s, c ≠ ' ' ∧ c ≠ '\'' ∧ c ≠ '"'
  | .quoted q s => (q = '\'' ∨ q = '"') ∧ q ∉ s
def Piece.text : Piece → Str
  | .bare s => s
  | .quoted q s => q :: s ++ [q]
def Piece.value : Piece → Str
  | .bare s => s
  | .quoted _ s => s

theorem split_bare (s : Str) (h : ∀ c ∈ s, c ≠ ' ' ∧ c ≠ '\'' ∧ c ≠ '"') (b : Option Str) (l : List Str) (hs : s ≠ []) :
    s.foldl Split.step ⟨none, b, l⟩ = ⟨none, some (orEmpty b ++ s), l⟩ := by
  induction s generalizing b with
  | nil => exact absurd rfl hs
  | cons c s ih =>
    obtain ⟨h1, h2, h3⟩ := h c (by simp)
    have e : Split.step ⟨none, b, l⟩ c = ⟨none, some (orEmpty b ++ [c]), l⟩ := by simp [Split.step, h1, h2, h3]
    rw [List.foldl_cons, e]
    by_cases hn : s = []
    · subst hn; rfl
    · rw [ih (fun x hx => h x (by simp [hx])) _ hn]; simp [orEmpty]

theorem split_inside (q : Char) (s : Str) (h : q ∉ s) (hq : q = '\'' ∨ q = '"') (b : Str) (l : List Str) :
    s.foldl Split.step ⟨some q, some b, l⟩ = ⟨some q, some (b ++ s), l⟩ := by
  induction s generalizing b with
  | nil => simp
  | cons c s ih =>
    have hc : q ≠ c := by intro e; exact h (by simp [e])
    have e : Split.step ⟨some q, some b, l⟩ c = ⟨some q, some (b ++ [c]), l⟩ := by
      simp only [Split.step]
      split
      · simp [hc, orEmpty]
      · simp [orEmpty]
    rw [List.foldl_cons, e, ih (fun hx => h (by simp [hx]))]; simp

theorem split_open (q : Char) (hq : q = '\'' ∨ q = '"') (b : Option Str) (l : List Str) :
    Split.step ⟨none, b, l⟩ q = ⟨some q, some (orEmpty b), l⟩ := by rcases hq with rfl | rfl <;> simp [Split.step]
theorem split_close (q : Char) (hq : q = '\'' ∨ q = '"') (b : Option Str) (l : List Str) :
    Split.step ⟨some q, b, l⟩ q = ⟨none, b, l⟩ := by rcases hq with rfl | rfl <;> simp [Split.step]

theorem split_piece (p : Piece) (h : p.Ok) (b : Option Str) (l : List Str) :
    p.text.foldl Split.step ⟨none, b, l⟩ = ⟨none, some (orEmpty b ++ p.value), l⟩ := by
  cases p with
  | bare s => exact split_bare s h.2 b l h.1
  | quoted q s =>
    obtain ⟨hq, hs⟩ := h
    simp only [Piece.text, Piece.value, List.cons_append, List.foldl_cons, List.foldl_append, List.foldl_nil]
    rw [split_open q hq, split_inside q s hs hq, split_close q hq]

theorem split_pieces (ps : List Piece) (h : ∀ p ∈ ps, p.Ok) (hn : ps ≠ []) (b : Option Str) (l : List Str) :
    (ps.flatMap Piece.text).foldl Split.step ⟨none, b, l⟩ = ⟨none, some (orEmpty b ++ ps.flatMap Piece.value), l⟩ := by
  induction ps generalizing b with
  | nil => exact absurd rfl hn
  | cons p ps ih =>
    simp only [List.flatMap_cons, List.foldl_append]
    rw [split_piece p (h p (by simp))]
    by_cases hp : ps = []
    · subst hp; simp
    · rw [ih (fun x hx => h x (by simp [hx])) hp]; simp [orEmpty]

theorem split_space (b : Option Str) (l : List Str) (k : Nat) :
    (List.replicate (k + 1) ' ').foldl Split.step ⟨none, b, l⟩ = ⟨none, none, l ++ b.toList⟩ := by
  induction k generalizing b l with
  | zero => cases b <;> simp [Split.step]
  | succ k ih =>
    rw [List.replicate_succ, List.foldl_cons]
    have e : Split.step ⟨none, b, l⟩ ' ' = ⟨none, none, l ++ b.toList⟩ := by cases b <;> simp [Split.step]
    rw [e, ih]; simp

theorem split_args (args : List (List Piece × Nat)) (h : ∀ a ∈ args, a.1 ≠ [] ∧ ∀ p ∈ a.1, p.Ok) (l : List Str) :
    (args.flatMap fun a => a.1.flatMap Piece.text ++ List.replicate (a.2 + 1) ' ').foldl Split.step ⟨none, none, l⟩ =
      ⟨none, none, l ++ args.map fun a => a.1.flatMap Piece.value⟩ := by
  induction args generalizing l with
  | nil => simp
  | cons a args ih =>
    obtain ⟨h1, h2⟩ := h a (by simp)
    simp only [List.flatMap_cons, List.foldl_append]
    rw [split_pieces a.1 h2 h1, split_space, ih (fun x hx => h x (by simp [hx]))]
    simp [orEmpty]

/-- Arguments made of bare and quoted pieces and separated by one or more spaces, with any number of spaces in front,
are found again, each being the concatenation of what its pieces stand for. -/
theorem C63_split (k : Nat) (args : List (List Piece × Nat)) (h : ∀ a ∈ args, a.1 ≠ [] ∧ ∀ p ∈ a.1, p.Ok) :
    splitArgs (List.replicate k ' ' ++ args.flatMap fun a => a.1.flatMap Piece.text ++ List.replicate (a.2 + 1) ' ') =
      args.map fun a => a.1.flatMap Piece.value := by
  unfold splitArgs
  simp only [List.foldl_append]
  have e : (List.replicate k ' ').foldl Split.step ⟨none, none, []⟩ = ⟨none, none, []⟩ := by
    cases k with
    | zero => rfl
    | succ k => rw [split_space]; rfl
  rw [e, split_args args h]
  simp [Split.step]

/-- No space is needed after the last argument. -/
theorem C63_join (args : List (List Piece)) (h : ∀ a ∈ args, a ≠ [] ∧ ∀ p ∈ a, p.Ok) :
    splitArgs (joinStr (s% " ") (args.map fun a => a.flatMap Piece.text)) = args.map fun a => a.flatMap Piece.value := by
  by_cases hn : args = []
  · subst hn; rfl
  have key : ∀ args : List (List Piece), args ≠ [] →
      joinStr (s% " ") (args.map fun a => a.flatMap Piece.text) ++ s% " " =
        (args.map fun a => (a, 0)).flatMap fun a => a.1.flatMap Piece.text ++ List.replicate (a.2 + 1) ' ' := by
    intro args hn
    induction args with
    | nil => exact absurd rfl hn
    | cons a args ih =>
      cases args with
      | nil => simp [joinStr]
      | cons b args =>
        have := ih (by simp)
        simp only [List.map_cons, joinStr, List.append_assoc, List.flatMap_cons] at this ⊢
        rw [this]; simp
  unfold splitArgs
  rw [key args hn, split_args _ (by simpa using h)]
  simp

/-- A way to write any argument: its double quotes in single quotes, everything else in double quotes -/
def quoteArg (a : Str) : Str :=
  if a = [] then s% "\"\"" else a.flatMap fun c => if c = '"' then s% "'\"'" else '"' :: c :: s% "\""

/-- Every list of arguments can be written, whatever characters they contain, empty ones included. -/
theorem C63_inverse (args : List Str) : splitArgs (joinStr (s% " ") (args.map quoteArg)) = args := by
  let ps : Str → List Piece := fun a =>
    if a = [] then [.quoted '"' []] else a.map fun c => if c = '"' then .quoted '\'' [c] else .quoted '"' [c]
  have h1 : ∀ a, quoteArg a = (ps a).flatMap Piece.text := by
    intro a
    simp only [quoteArg, ps]
    split
    · rfl
    · rw [List.flatMap_map]
      congr 1; funext c
      split
      · next h => subst h; rfl
      · rfl
  have h2 : ∀ a, (ps a).flatMap Piece.value = a := by
    intro a
    simp only [ps]
    split
    · next h => subst h; rfl
    · rw [List.flatMap_map]
      have : (fun c : Char => (if c = '"' then Piece.quoted '\'' [c] else .quoted '"' [c]).value) = fun c => [c] := by
        funext c; split <;> rfl
      rw [this]; simp
  have h3 : ∀ a, ps a ≠ [] ∧ ∀ p ∈ ps a, p.Ok := by
    intro a
    simp only [ps]
    split
    · simp [Piece.Ok]
    · next h =>
      refine ⟨by simpa using h, fun p hp => ?_⟩
      obtain ⟨c, _, rfl⟩ := List.mem_map.mp hp
      split
      · next h => subst h; exact ⟨.inl rfl, by decide⟩
      · next h => exact ⟨.inr rfl, by simpa using fun e => h e.symm⟩
  have := C63_join (args.map ps) (by simpa using fun a _ => h3 a)
  simp only [List.map_map, Function.comp_def, ← h1, h2] at this
  simpa using this

/-- Deviation: an argument whose last quote is not closed is lost, without an error. -/
theorem C63_unclosed (args : List (List Piece × Nat)) (h : ∀ a ∈ args, a.1 ≠ [] ∧ ∀ p ∈ a.1, p.Ok) (ps : List Piece)
    (hp : ∀ p ∈ ps, p.Ok) (q : Char) (hq : q = '\'' ∨ q = '"') (rest : Str) (hr : q ∉ rest) :
    splitArgs ((args.flatMap fun a => a.1.flatMap Piece.text ++ List.replicate (a.2 + 1) ' ') ++
      ps.flatMap Piece.text ++ q :: rest) = args.map fun a => a.1.flatMap Piece.value := by
  unfold splitArgs
  simp only [List.foldl_append, List.foldl_cons]
  rw [split_args args h]
  have e : ∃ b, (ps.flatMap Piece.text).foldl Split.step ⟨none, none, [] ++ args.map fun a => a.1.flatMap Piece.value⟩ =
      ⟨none, b, args.map fun a => a.1.flatMap Piece.value⟩ := by
    by_cases hn : ps = []
    · subst hn; exact ⟨none, rfl⟩
    · exact ⟨_, split_pieces ps hp hn _ _⟩
  obtain ⟨b, e⟩ := e
  rw [e, split_open q hq, split_inside q rest hr hq]
  rcases hq with rfl | rfl <;> simp [Split.step]

example : splitArgs (s% "-e 'Pa . \"x\"'  a\"b c\"d ''") = [s% "-e", s% "Pa . \"x\"", s% "ab cd", []] := by decide
example : splitArgs (s% "a 'b c") = [s% "a"] := by decide
example : quoteArg (s% "a\"") = s% "\"a\"'\"'" := by decide

/-! ### C64: the list format -/

/-- The flags for list formats in the order in which they are looked at -/
def Options.formatFlags (o : Options) : List (Bool × Fmt) :=
  [(o.repr, .p), (o.reprlines, .P), (o.space, .s), (o.spacelines, .S), (o.newline, .n), (o.lines, .l)]

/-- The format is that of the first flag set, the default format if there is none; `-d` counts as `-p`. -/
theorem C64_flag (o : Options) :
    (∀ f, o.effective.listFormat = f ↔
      (∃ before after, o.effective.formatFlags = before ++ (true, f) :: after ∧ ∀ p ∈ before, p.1 = false) ∨
        f = .none ∧ ∀ p ∈ o.effective.formatFlags, p.1 = false) ∧
      (o.debug = true → o.effective.listFormat = .p) := by
  have key : ∀ o : Options, o.listFormat = ((o.formatFlags.find? (·.1)).map (·.2)).getD .none := by
    intro o
    simp only [Options.listFormat, Options.formatFlags, List.find?_cons]
    cases o.repr <;> cases o.reprlines <;> cases o.space <;> cases o.spacelines <;> cases o.newline <;>
      cases o.lines <;> rfl
  have ne : ∀ o : Options, ∀ p ∈ o.formatFlags, p.2 ≠ .none := by
    intro o p hp
    simp only [Options.formatFlags, List.mem_cons, List.not_mem_nil, or_false] at hp
    rcases hp with rfl | rfl | rfl | rfl | rfl | rfl <;> simp
  refine ⟨fun f => ?_, fun hd => ?_⟩
  · rw [key]
    cases hf : o.effective.formatFlags.find? (·.1) with
    | none =>
      rw [List.find?_eq_none] at hf
      simp only [Option.map_none, Option.getD_none]
      constructor
      · rintro rfl
        exact .inr ⟨rfl, fun p hp => by simpa using hf p hp⟩
      · rintro (⟨b, a, e, _⟩ | ⟨rfl, _⟩)
        · exact absurd (rfl : true = true) (hf (true, f) (by simp [e]))
        · rfl
    | some p =>
      obtain ⟨hp, b, a, e, hb⟩ := List.find?_eq_some_iff_append.mp hf
      simp only [Option.map_some, Option.getD_some]
      constructor
      · rintro rfl
        exact .inl ⟨b, a, by rw [e, ← hp], fun x hx => by simpa using hb x hx⟩
      · rintro (⟨b', a', e', hb'⟩ | ⟨rfl, hall⟩)
        · have h2 : o.effective.formatFlags.find? (·.1) = some (true, f) := by
            rw [List.find?_eq_some_iff_append]
            exact ⟨rfl, b', a', e', fun x hx => by simp [hb' x hx]⟩
          rw [hf] at h2
          simp only [Option.some.injEq] at h2
          rw [h2]
        · have := hall p (by simp [e])
          rw [hp] at this
          cases this
  · simp [Options.effective, hd, Options.listFormat]

mutual
/-- The texts of the leaves of a value; an empty list has the leaf "". -/
def Val.leafTexts : Val → List Str
  | .scalar s => [s]
  | .pattern raw _ => [raw]
  | .list [] => [[]]
  | .list (v :: l) => Val.leafTexts v ++ Val.leafTextss l
  | .range lo (some h) => if rangeInts lo h = [] then [[]] else (rangeInts lo h).map showInt
  | .range lo none => [Val.repr (.range lo none)]
  | .block sts ret => [Val.repr (.block sts ret)]
  | .nil => [[]]
def Val.leafTextss : List Val → List Str
  | [] => []
  | v :: l => Val.leafTexts v ++ Val.leafTextss l
end

theorem joinStr_append (sep : Str) (a b : List Str) (ha : a ≠ []) (hb : b ≠ []) :
    joinStr sep (a ++ b) = joinStr sep a ++ sep ++ joinStr sep b := by
  induction a with
  | nil => exact absurd rfl ha
  | cons x a ih =>
    cases a with
    | nil =>
      cases b with
      | nil => exact absurd rfl hb
      | cons y b => simp [joinStr]
    | cons y a =>
      have := ih (by simp)
      simp only [List.cons_append, joinStr] at this ⊢
      rw [this]; simp

theorem leafTexts_ne (v : Val) : v.leafTexts ≠ [] := by
  cases v with
  | list l =>
    cases l with
    | nil => simp [Val.leafTexts]
    | cons v l =>
      simp only [Val.leafTexts]
      exact List.append_ne_nil_of_left_ne_nil (leafTexts_ne v) _
  | range lo hi =>
    cases hi with
    | none => simp [Val.leafTexts]
    | some h => simp only [Val.leafTexts]; split <;> simp_all
  | _ => simp [Val.leafTexts]

theorem leafTextss_ne : ∀ l : List Val, l ≠ [] → Val.leafTextss l ≠ []
  | [], h => absurd rfl h
  | v :: l, _ => by
    simp only [Val.leafTextss]
    exact List.append_ne_nil_of_left_ne_nil (leafTexts_ne v) _

/-- The formats that join on one separator -/
def Fmt.sep : Fmt → Option Str
  | .none => some []
  | .n => some (s% "\n")
  | .s => some (s% " ")
  | _ => Option.none

theorem fmtJoin_sep (f : Fmt) (sep : Str) (h : f.sep = some sep) (a b c d : List Str) :
    fmtJoin f a b c d = joinStr sep a := by
  cases f <;> simp only [Fmt.sep, Option.some.injEq, reduceCtorEq] at h <;> subst h <;>
    simp [fmtJoin, joinStr_nil]

mutual
theorem str_sep (f : Fmt) (sep : Str) (h : f.sep = some sep) : ∀ v : Val, v.str f = joinStr sep v.leafTexts
  | .scalar s => rfl
  | .pattern raw _ => rfl
  | .list [] => by
    simp only [Val.str, fmtJoin_sep f sep h, Val.strs, Val.leafTexts, joinStr]
  | .list (v :: l) => by
    simp only [Val.str, fmtJoin_sep f sep h, Val.leafTexts]
    rw [strs_sep f sep h (v :: l) (by simp)]
    rfl
  | .range lo (some hi) => by
    simp only [Val.str, strRange, fmtJoin_sep f sep h, Val.leafTexts]
    split
    · next e => rw [e]; rfl
    · rfl
  | .range lo none => rfl
  | .block sts ret => rfl
  | .nil => rfl
theorem strs_sep (f : Fmt) (sep : Str) (h : f.sep = some sep) : ∀ l : List Val, l ≠ [] →
    joinStr sep (Val.strs f l) = joinStr sep (Val.leafTextss l)
  | [], hn => absurd rfl hn
  | [v], _ => by
    simp only [Val.strs, Val.leafTextss, joinStr, List.append_nil]
    exact str_sep f sep h v
  | v :: w :: l, _ => by
    have ih := strs_sep f sep h (w :: l) (by simp)
    have hv := str_sep f sep h v
    simp only [Val.strs, Val.leafTextss, joinStr] at ih ⊢
    rw [joinStr_append sep _ _ (leafTexts_ne v) (List.append_ne_nil_of_left_ne_nil (leafTexts_ne w) _), ← ih, hv]
end

/-- Without a flag a value prints as its leaves one after the other, with `-s` and `-n` as its leaves separated by
spaces or newlines, however deep the lists are nested; Ranges print as lists. -/
theorem C64_leaves (v : Val) :
    v.str .none = v.leafTexts.flatten ∧ v.str .s = joinStr (s% " ") v.leafTexts ∧
      v.str .n = joinStr (s% "\n") v.leafTexts :=
  ⟨by rw [str_sep .none [] rfl, joinStr_nil], str_sep .s _ rfl v, str_sep .n _ rfl v⟩

theorem reprs_eq : ∀ l : List Val, Val.reprs l = l.map Val.repr
  | [] => by simp only [Val.reprs, List.map_nil]
  | v :: l => by simp only [Val.reprs, List.map_cons, reprs_eq l]

/-- With `-p` lists print as their canonical texts, and finite Ranges as the corresponding lists. -/
theorem C64_repr (l : List Val) (lo : Option Int) (hi : Int) :
    (Val.list l).str .p = (Val.list l).repr ∧
      (Val.range lo (some hi)).str .p = (Val.list ((rangeInts lo hi).map ofInt)).repr := by
  refine ⟨?_, ?_⟩
  · simp only [Val.str, fmtJoin, Val.repr]
  · simp only [Val.str, strRange, fmtJoin, Val.repr, reprs_eq, List.map_map]
    have : reprScalar ∘ showInt = Val.repr ∘ ofInt := by
      funext i
      simp only [Function.comp_apply, ofInt, Val.repr]
    rw [this]

mutual
/-- No finite Range inside -/
def Val.NoRange : Val → Prop
  | .list l => Val.NoRanges l
  | .range _ (some _) => False
  | _ => True
def Val.NoRanges : List Val → Prop
  | [] => True
  | v :: l => Val.NoRange v ∧ Val.NoRanges l
end

theorem noRanges_all : ∀ {l : List Val}, Val.NoRanges l → ∀ v ∈ l, v.NoRange
  | [], _, _, h => by cases h
  | w :: l, h, v, hv => by
    rcases List.mem_cons.mp hv with rfl | hv
    · exact h.1
    · exact noRanges_all h.2 v hv

mutual
theorem joined_leaves (f : Fmt) (sep : Str) : ∀ v : Val, v.NoRange → v.joined f sep = joinStr sep v.leafTexts
  | .scalar s, _ => rfl
  | .pattern raw _, _ => rfl
  | .list [], _ => by simp only [Val.joined, Val.joineds, Val.leafTexts, joinStr]
  | .list (v :: l), h => by
    simp only [Val.joined, Val.leafTexts]
    rw [joineds_leaves f sep (v :: l) h (by simp)]
    rfl
  | .range lo (some hi), h => h.elim
  | .range lo none, _ => rfl
  | .block sts ret, _ => rfl
  | .nil, _ => rfl
theorem joineds_leaves (f : Fmt) (sep : Str) : ∀ l : List Val, Val.NoRanges l → l ≠ [] →
    joinStr sep (Val.joineds f sep l) = joinStr sep (Val.leafTextss l)
  | [], _, hn => absurd rfl hn
  | [v], h, _ => by
    simp only [Val.joineds, Val.leafTextss, joinStr, List.append_nil]
    exact joined_leaves f sep v h.1
  | v :: w :: l, h, _ => by
    have ih := joineds_leaves f sep (w :: l) h.2 (by simp)
    have hv := joined_leaves f sep v h.1
    simp only [Val.joineds, Val.leafTextss, joinStr] at ih ⊢
    rw [joinStr_append sep _ _ (leafTexts_ne v) (List.append_ne_nil_of_left_ne_nil (leafTexts_ne w) _), ← ih, hv]
end

theorem joineds_eq (f : Fmt) (sep : Str) : ∀ l : List Val, Val.joineds f sep l = l.map (Val.joined f sep)
  | [] => rfl
  | v :: l => by simp only [Val.joineds, List.map_cons, joineds_eq f sep l]

/-- With `-P` every item of a list is on a line of its own, as its canonical text. With `-l` and `-S` every item is on
a line as well, as its leaves one after the other or separated by spaces, provided that it contains no finite Range. -/
theorem C64_lines (l : List Val) :
    (Val.list l).str .P = joinStr (s% "\n") (l.map Val.repr) ∧
      ((∀ v ∈ l, v.NoRange) →
        (Val.list l).str .l = joinStr (s% "\n") (l.map fun v => v.leafTexts.flatten) ∧
        (Val.list l).str .S = joinStr (s% "\n") (l.map fun v => joinStr (s% " ") v.leafTexts)) := by
  refine ⟨?_, fun h => ⟨?_, ?_⟩⟩
  · simp only [Val.str, fmtJoin, reprs_eq]
  · simp only [Val.str, fmtJoin, joineds_eq]
    congr 1
    refine List.map_congr_left fun v hv => ?_
    rw [joined_leaves .l [] v (h v hv), joinStr_nil]
  · simp only [Val.str, fmtJoin, joineds_eq]
    congr 1
    exact List.map_congr_left fun v hv => joined_leaves .S _ v (h v hv)

/-- Deviation: with `-l` and `-S` a Range that is an item of a list is not put on a line: each of its members is on a
line of its own, as if it were an item of the list itself. A list with the same members is put on one line. -/
theorem C64_range_lines (f : Fmt) (hf : f = .l ∨ f = .S) (before after : List Val) (lo : Option Int) (hi : Int)
    (hne : rangeInts lo hi ≠ []) :
    (Val.list (before ++ .range lo (some hi) :: after)).str f =
      (Val.list (before ++ (rangeInts lo hi).map ofInt ++ after)).str f := by
  have key : ∀ sep : Str, ∀ a b c : List Str, b ≠ [] → joinStr sep (a ++ joinStr sep b :: c) = joinStr sep (a ++ b ++ c) := by
    intro sep a b c hb
    have h1 : ∀ c, joinStr sep (joinStr sep b :: c) = joinStr sep (b ++ c) := by
      intro c
      cases c with
      | nil => simp [joinStr]
      | cons x c => rw [joinStr_append sep b _ hb (by simp)]; simp [joinStr]
    cases a with
    | nil => simpa using h1 c
    | cons x a =>
      rw [joinStr_append sep _ _ (by simp) (by simp), h1, List.append_assoc (x :: a) b c,
        joinStr_append sep (x :: a) (b ++ c) (by simp) (by simp [hb])]
  have e : ∀ sep : Str, (Val.range lo (some hi)).joined f sep = joinStr (s% "\n") ((rangeInts lo hi).map showInt) := by
    intro sep
    rcases hf with rfl | rfl <;> simp [Val.joined, strRange, fmtJoin]
  have e2 : ∀ sep, ((rangeInts lo hi).map ofInt).map (Val.joined f sep) = (rangeInts lo hi).map showInt := by
    intro sep
    rw [List.map_map]
    exact List.map_congr_left fun i _ => rfl
  rcases hf with rfl | rfl
  all_goals
    simp only [Val.str, fmtJoin, joineds_eq, List.map_append, List.map_cons, e, e2]
    exact key _ _ _ _ (by simpa using hne)

/-- `[0;1]` and the Range of 0 and 1 as items -/
example : (Val.list [.list [.scalar (s% "0"), .scalar (s% "1")], .nil]).str .S = s% "0 1\n" ∧
    (Val.list [.range none (some 2), .nil]).str .S = s% "0\n1\n" := by decide
example : (Val.list [.list [.scalar (s% "0"), .list []], .range none (some 2)]).str .s = s% "0  0 1" := by decide
example : Val.NoRange (.list [.list [.scalar (s% "0"), .list []], .range none none]) := by simp [Val.NoRange, Val.NoRanges]

/-- What the main function returns is printed in the format chosen on the command line, followed by a newline. -/
theorem C64_main (X : Ext) (o : Options) (stmts : List Tree) (hne : stmts ≠ []) (args : List Val)
    (s s' : St (X.withFmt o.effective.listFormat)) (v : Val) (hv : v ≠ .nil)
    (h : Calls (blockOf stmts) args
      { s with args := args, main := some (blockOf stmts), vars := wiped (X.withFmt o.effective.listFormat) args (some (blockOf stmts)) } (.ok v, s')) :
    Runs (fun R => executeProgram R stmts args) s
      (.ok (), { s' with out := s'.out ++ v.str o.effective.listFormat ++ s% "\n" }) := by
  obtain ⟨_, n, hn⟩ := h
  refine ⟨by simp, n, fun m hm => ?_⟩
  unfold executeProgram
  have e : stmts.isEmpty = false := by simpa using hne
  rw [e]
  simp only [Bool.false_eq_true, if_false, M.bind_apply, setMain]
  have := hn m hm
  simp only at this
  rw [this]
  cases v <;> first | exact absurd rfl hv | simp [opPRINT, M.emit, Ext.withFmt]

/-! ### C68: a fatal error in the read-eval-print loop -/

/-- The suspended scopes stay suspended, and the call depth counts the scopes opened. -/
def Stacked (s s' : St X) : Prop :=
  s.below <:+ s'.below ∧ s'.depth - s'.below.length = s.depth - s.below.length

theorem Stacked.refl (s : St X) : Stacked s s := ⟨List.suffix_refl _, rfl⟩
theorem Stacked.trans {s t u : St X} (h : Stacked s t) (h' : Stacked t u) : Stacked s u :=
  ⟨h.1.trans h'.1, h'.2.trans h.2⟩

/-- The scope stack is never cut below its height, whatever exceptions are raised and swallowed. -/
def stackCong (X : Ext) : Cong X where
  rel x _ := ∀ s, Stacked s (x s).2
  pure _ s := .refl s
  bind {α β x y f g} hx hf s := by
    simp only [M.bind_apply]
    have h := hx s
    rcases e : x s with ⟨r, s'⟩
    rw [e] at h
    cases r with
    | ok a => exact h.trans (hf a s')
    | error e => exact h
  throw _ s := .refl s
  fuel _ s := .refl s
  get h _ s := h s s
  setVar _ _ s := by
    simp only [M.setVar]
    split <;> exact ⟨List.suffix_refl _, rfl⟩
  emit t s := ⟨List.suffix_refl _, rfl⟩
  readLine s := by
    simp only [M.readLine]
    split <;> exact ⟨List.suffix_refl _, rfl⟩
  randBelow _ _ := ⟨List.suffix_refl _, rfl⟩
  randFloat _ := ⟨List.suffix_refl _, rfl⟩
  seed _ _ := ⟨List.suffix_refl _, rfl⟩
  newCell _ _ := ⟨List.suffix_refl _, rfl⟩
  cellOr k {x y} hx s := by
    simp only [M.cellOr]
    split
    · exact .refl s
    · have h := hx s
      rcases e : x s with ⟨r, s'⟩
      rw [e] at h
      cases r <;> exact h
  wipe _ := ⟨List.suffix_refl _, rfl⟩
  dieType {α x y} hx s := by
    simp only [M.dieType]
    have h := hx s
    rcases e : x s with ⟨r, s'⟩
    rw [e] at h
    rcases r with (_ | _ | _ | _ | _ | _) | _ <;> exact h
  catchType {α x y} a hx s := by
    simp only [M.catchType]
    have h := hx s
    rcases e : x s with ⟨r, s'⟩
    rw [e] at h
    rcases r with (_ | _ | _ | _ | _ | _) | _ <;> exact h
  inScope {α x y} f as hx s := by
    simp only [M.inScope]
    have h : Stacked (s.openScope f as) (x (s.openScope f as)).2 := hx _
    rcases e : x (s.openScope f as) with ⟨r, s'⟩
    rw [e] at h
    obtain ⟨⟨pre, hp⟩, hd⟩ := h
    have hp : pre ++ s.scope :: s.below = s'.below := hp
    have hd : s'.depth - (s'.below.length : Int) = s.depth + 1 - ((s.scope :: s.below).length : Int) := hd
    have hl := congrArg List.length hp
    simp only [List.length_append, List.length_cons] at hl hd
    cases r with
    | ok a =>
      show Stacked s s'.closeScope
      unfold St.closeScope
      cases pre with
      | nil =>
        have hp : s.scope :: s.below = s'.below := hp
        rw [← hp]
        refine ⟨List.suffix_refl _, ?_⟩
        simp only [List.length_nil] at hl ⊢
        omega
      | cons sc pre =>
        have hp : sc :: (pre ++ s.scope :: s.below) = s'.below := hp
        rw [← hp]
        refine ⟨(List.suffix_cons _ _).trans (List.suffix_append _ _), ?_⟩
        simp only [List.length_append, List.length_cons] at hl ⊢
        omega
    | error e =>
      refine ⟨?_, ?_⟩
      · show s.below <:+ s'.below
        rw [← hp]
        exact (List.suffix_cons _ _).trans (List.suffix_append _ _)
      · show s'.depth - (s'.below.length : Int) = s.depth - s.below.length
        omega

theorem Mono.stacked {x : Rec X → M X α} (hx : Mono x) (n : Nat) (s : St X) : Stacked s (x (run X n) s).2 :=
  hx (stackCong X) _ _ ((stackCong X).run n n (Nat.le_refl n)) s
theorem Mono.runs_stacked {x : Rec X → M X α} (hx : Mono x) {s : St X} {o} (h : Runs x s o) : Stacked s o.2 := by
  obtain ⟨_, n, hn⟩ := h
  rw [← hn n (Nat.le_refl n)]
  exact hx.stacked n s

/-- A call that ends with an exception does not close its scope: the caller's scope is still suspended, with the scopes
below it, and a scope opened by the call, or by a call within it, is the current one. -/
theorem C68_call (f : Val) (args : List Val) (s s' : St X) (e : Exc) (h : Calls f args s (.error e, s')) :
    (∃ opened, s'.below = opened ++ s.scope :: s.below ∧ s'.depth = s.depth + 1 + opened.length) := by
  obtain ⟨_, n, hn⟩ := h
  have hn := hn n (Nat.le_refl n)
  have hr := (stackCong X).run n n (Nat.le_refl n)
  simp only [callVal, M.inScope] at hn
  have key : Stacked (s.openScope (some f) args) s' := by
    have h : (stackCong X).rel (match some f with
        | some (.block stmts ret) => do runBody (run X n) stmts; getRval (run X n) ret
        | _ => M.throw .attributeError) (match some f with
        | some (.block stmts ret) => do runBody (run X n) stmts; getRval (run X n) ret
        | _ => M.throw .attributeError) := by
      split
      · exact (stackCong X).bind (Cong.runBody hr _) fun _ => Cong.getRval hr _
      · exact (stackCong X).throw _
    have h : Stacked _ _ := h (s.openScope (some f) args)
    split at hn
    · simp at hn
    · next e' s1 h1 =>
      simp only [Prod.mk.injEq] at hn
      obtain ⟨_, rfl⟩ := hn
      have h2 := congrArg Prod.snd h1
      simp only at h2
      rw [← h2]
      exact h
  obtain ⟨⟨pre, hp⟩, hd⟩ := key
  have hp : pre ++ s.scope :: s.below = s'.below := hp
  refine ⟨pre, hp.symm, ?_⟩
  have hd : s'.depth - (s'.below.length : Int) = s.depth + 1 - ((s.scope :: s.below).length : Int) := hd
  have hl := congrArg List.length hp
  simp only [List.length_append, List.length_cons] at hl hd
  omega

/-! ### C71: what the loop reads -/

/-- The text of some lines -/
def linesText (ls : List Str) : Str := ls.flatMap fun l => l ++ s% "\n"

/-- Lines are read until the code is complete or cannot be completed, and no further. -/
theorem C71_read (n : Nat) (code : Str) (s : St X) (hn : s.inp.length < n) :
    ∃ k ≤ s.inp.length, (∀ j < k, parseText (code ++ linesText (s.inp.take j)) = .error .incomplete) ∧
      ((parseText (code ++ linesText (s.inp.take k)) ≠ .error .incomplete ∧
          readCode n code s = (.ok (some (code ++ linesText (s.inp.take k), parseText (code ++ linesText (s.inp.take k)))),
            { s with inp := s.inp.drop k, out := s.out ++ (List.replicate k (s% ".. ")).flatten })) ∨
        (k = s.inp.length ∧ parseText (code ++ linesText s.inp) = .error .incomplete ∧
          readCode n code s =
            (.ok none, { s with inp := [], out := s.out ++ (List.replicate (k + 1) (s% ".. ")).flatten }))) := by
  induction n generalizing code s with
  | zero => omega
  | succ n ih =>
    by_cases hp : parseText code = .error .incomplete
    · cases hi : s.inp with
      | nil =>
        refine ⟨0, by simp, fun j hj => by omega, .inr ⟨rfl, by simpa [linesText] using hp, ?_⟩⟩
        simp only [readCode, hp, M.bind_apply, M.emit, M.readLine, hi]
        simp [pure, M.pure, hi]
      | cons l ls =>
        have hlen : ls.length < n := by rw [hi] at hn; simp at hn; omega
        obtain ⟨k, hk, h1, h2⟩ := ih (code ++ l ++ s% "\n") { s with inp := ls, out := s.out ++ s% ".. " } hlen
        have e : ∀ m, code ++ linesText ((l :: ls).take (m + 1)) = code ++ l ++ s% "\n" ++ linesText (ls.take m) := by
          intro m; simp [linesText]
        have er : readCode (n + 1) code s =
            readCode n (code ++ l ++ s% "\n") { s with inp := ls, out := s.out ++ s% ".. " } := by
          simp [readCode, hp, M.bind_apply, M.emit, M.readLine, hi]
        have hs : ∀ m, s.out ++ s% ".. " ++ (List.replicate m (s% ".. ")).flatten =
            s.out ++ (List.replicate (m + 1) (s% ".. ")).flatten := by
          intro m; rw [List.replicate_succ]; simp
        refine ⟨k + 1, by simpa using hk, fun j hj => ?_, ?_⟩
        · cases j with
          | zero => simpa [linesText] using hp
          | succ j => rw [e]; exact h1 j (by omega)
        · rw [er, e]
          rcases h2 with ⟨h2, h3⟩ | ⟨h2, h3, h4⟩
          · refine .inl ⟨h2, ?_⟩
            rw [h3]
            simp only [hs, List.drop_succ_cons]
          · refine .inr ⟨by simp [h2], ?_, ?_⟩
            · have := e ls.length
              simp only [List.take_length] at this
              rw [show (l :: ls).take (ls.length + 1) = l :: ls by simp] at this
              rw [this]; exact h3
            · rw [h4]; simp only [hs]
    · refine ⟨0, by simp, fun j hj => by omega, .inl ⟨by simpa [linesText] using hp, ?_⟩⟩
      have e : readCode (n + 1) code s = (.ok (some (code, parseText code)), s) := by
        rcases h : parseText code with e | sts
        · cases e <;> first | exact absurd h hp | (simp only [readCode, h]; rfl)
        · simp only [readCode, h]; rfl
      rw [e]; simp [linesText]

/-- Code is complete, incomplete or bad; nothing else happens. -/
theorem C71_parse (code : Str) : (∃ sts, parseText code = .ok sts) ∨ parseText code = .error .badSyntax ∨
    parseText code = .error .incomplete := by
  show (∃ sts, (scan code).bind parseAll = .ok sts) ∨ (scan code).bind parseAll = .error .badSyntax ∨
    (scan code).bind parseAll = .error .incomplete
  rcases C01_scan_total code with ⟨ts, h⟩ | h
  · rw [h]
    exact C05_parse_total code _ h
  · rw [h]; exact .inr (.inr rfl)

/-- The loop gives up on code only if it is hopeless: no further lines make it complete. (They may leave a string or a
comment unfinished; then the code is incomplete until that is finished, and bad again.) -/
theorem C71_hopeless (code : Str) (more : List Str) (h : parseText (code ++ s% "\n") = .error .badSyntax) :
    parseText (code ++ s% "\n" ++ linesText more) = .error .badSyntax ∨
      scan (code ++ s% "\n" ++ linesText more) = .error .incomplete := by
  rcases C01_scan_total (code ++ s% "\n") with ⟨ts, hs⟩ | hs
  · have h : parseAll (ts.map some ++ [none]) = .error .badSyntax := by
      have : parseText (code ++ s% "\n") = (scan (code ++ s% "\n")).bind parseAll := rfl
      rw [this, hs] at h
      exact h
    have hts : tokenize (code ++ s% "\n\n") = .ok (ts.map some) := by
      unfold scan at hs
      split at hs
      · next us e =>
        simp only [Except.ok.injEq, List.append_cancel_right_eq] at hs
        rw [show code ++ s% "\n\n" = code ++ s% "\n" ++ s% "\n" by simp, e, hs]
      · cases hs
    rw [tokenize_eq] at hts
    obtain ⟨rest, hr⟩ := scanAll_more _ ('\n' :: code) (linesText more ++ s% "\n") _ (Nat.le_refl _) hts
    have hr : tokenize (code ++ s% "\n" ++ linesText more ++ s% "\n") = prefixed (ts.map some) (scanAll rest) := by
      rw [tokenize_eq, ← hr]
      congr 1
      simp
    rcases C01_scan_total (code ++ s% "\n" ++ linesText more) with ⟨us, hu⟩ | hu
    · left
      have hu' := hu
      unfold scan at hu'
      rw [hr] at hu'
      cases hx : scanAll rest with
      | error e => rw [hx] at hu'; simp [prefixed] at hu'
      | ok vs =>
        rw [hx] at hu'
        simp only [prefixed, Except.ok.injEq, List.append_cancel_right_eq] at hu'
        obtain ⟨l, m, rfl, h1, h2⟩ := List.map_eq_append_iff.mp hu'.symm
        have : parseText (code ++ s% "\n" ++ linesText more) =
          (scan (code ++ s% "\n" ++ linesText more)).bind parseAll := rfl
        rw [this, hu]
        have hl : l = ts := by
          have := congrArg (List.filterMap id) h1
          simpa [List.filterMap_map] using this
        subst hl
        exact C06_bad_stays_bad l m h
    · exact .inr hu
  · have : parseText (code ++ s% "\n") = (scan (code ++ s% "\n")).bind parseAll := rfl
    rw [this, hs] at h
    cases h

/-- A line that starts with a semicolon is complete and does nothing, whatever follows on it: the commands of the loop
are never taken for code. -/
theorem C71_command (l : Str) (h : '\n' ∉ l) : parseText (';' :: l ++ s% "\n") = .ok [] := by
  have e : step ('\n' :: ';' :: (l ++ s% "\n\n")) = .skip (s% "\n\n") := by
    rw [step_eq]
    have : lineC ('\n' :: ';' :: (l ++ s% "\n\n")) = some (s% "\n\n") := by
      unfold lineC
      rw [if_pos]
      · simp only [List.dropWhile_cons, isSpace_nl, isSpace_semi, if_true, Bool.false_eq_true, if_false, List.tail_cons]
        congr 1
        rw [List.dropWhile_append_of_pos]
        · rfl
        · intro c hc
          simpa using fun e : c = '\n' => h (e ▸ hc)
      · simp [isSpace_nl, isSpace_semi]
    rw [this]
  have ht : tokenize (';' :: l ++ s% "\n" ++ s% "\n") = .ok [] := by
    rw [tokenize_eq]
    have := scanAll_skip e
    rw [show ('\n' :: (';' :: l ++ s% "\n" ++ s% "\n")) = '\n' :: ';' :: (l ++ s% "\n\n") by simp, this]
    decide +kernel
  show (scan (';' :: l ++ s% "\n")).bind parseAll = _
  unfold scan
  rw [ht]
  rfl

/-! ### Sessions -/

/-- The loop reads `code`: the fewest lines that are complete or hopeless. -/
def Reads (s : St X) (code : Str) (s1 : St X) : Prop :=
  ∃ l rest k, s.inp = l :: rest ∧ k ≤ rest.length ∧ code = linesText (l :: rest.take k) ∧
    (∀ j < k, parseText (linesText (l :: rest.take j)) = .error .incomplete) ∧ parseText code ≠ .error .incomplete ∧
    s1 = { s with inp := rest.drop k, out := s.out ++ s% ">> " ++ (List.replicate k (s% ".. ")).flatten }

/-- The input ends before the code is complete. -/
def ReadsEnd (s s1 : St X) : Prop :=
  ∃ l rest, s.inp = l :: rest ∧ (∀ j ≤ rest.length, parseText (linesText (l :: rest.take j)) = .error .incomplete) ∧
    s1 = { s with inp := [], out := s.out ++ s% ">> " ++ (List.replicate (rest.length + 1) (s% ".. ")).flatten }

/-- The help text is printed if it was asked for. -/
def helped (code : Str) (s : St X) : St X :=
  if replCmd X code = .help then { s with out := s.out ++ (replHelp ++ s% "\n") } else s

/-- A session, round by round. -/
inductive Session : St X → ReplEnd → St X → Prop
  /-- the input ends -/
  | eof {s} : s.inp = [] → Session s .eof { s with out := s.out ++ s% ">> " }
  | unfinished {s s1} : ReadsEnd s s1 → Session s .eof s1
  /-- hopeless code is forgotten -/
  | bad {s s1 code e s'} : Reads s code s1 → parseText code = .error .badSyntax → Session s1 e s' → Session s e s'
  | quit {s s1 code sts} : Reads s code s1 → parseText code = .ok sts → replCmd X code = .quit → Session s .bye s1
  /-- the statements run -/
  | done {s s1 code sts s2 e s'} : Reads s code s1 → parseText code = .ok sts → replCmd X code ≠ .quit →
      Runs (fun R => replStmts R sts) (helped code s1) (.ok (), s2) → Session s2 e s' → Session s e s'
  /-- a fatal error: the session goes on in the state that the statements were in -/
  | fatal {s s1 code sts s2 x e s'} : Reads s code s1 → parseText code = .ok sts → replCmd X code ≠ .quit →
      Runs (fun R => replStmts R sts) (helped code s1) (.error x, s2) → x.isFatal = true → Session s2 e s' → Session s e s'
  /-- any other exception ends the session -/
  | crash {s s1 code sts s2 x} : Reads s code s1 → parseText code = .ok sts → replCmd X code ≠ .quit →
      Runs (fun R => replStmts R sts) (helped code s1) (.error x, s2) → x.isFatal = false → x ≠ .unmodelled →
      Session s (.crash x) s2

theorem Cong.replStmts {C : Cong X} {R R' : Rec X} (h : C.Recs R R') : ∀ ts, C.rel (replStmts R ts) (replStmts R' ts)
  | [] => C.pure _
  | t :: ts => by
    unfold Pip.replStmts
    refine C.bind (h.exec t) fun r => ?_
    cases r with
    | none => exact Cong.replStmts h ts
    | some v => exact C.bind (Cong.opPRINT _) fun _ => C.bind (Cong.updateHistory v) fun _ => Cong.replStmts h ts

theorem mono_replStmts (ts : List Tree) : Mono fun R : Rec X => replStmts R ts := fun _ _ _ h => Cong.replStmts h ts

/-- What is read -/
theorem reads_cases (s : St X) : s.inp = [] ∨ (∃ code s1, Reads s code s1) ∨ ∃ s1, ReadsEnd s s1 := by
  cases hi : s.inp with
  | nil => exact .inl rfl
  | cons l rest =>
    right
    obtain ⟨k, hk, h1, h2⟩ := C71_read (rest.length + 1) (l ++ s% "\n")
      { s with inp := rest, out := s.out ++ s% ">> " } (Nat.lt_succ_self _)
    have e : ∀ m, l ++ s% "\n" ++ linesText m = linesText (l :: m) := by intro m; simp [linesText]
    simp only [e] at h1 h2
    rcases h2 with ⟨h2, h3⟩ | ⟨h2, h3, h4⟩
    · exact .inl ⟨_, _, l, rest, k, hi, hk, rfl, h1, h2, rfl⟩
    · refine .inr ⟨_, l, rest, hi, fun j hj => ?_, rfl⟩
      by_cases hjk : j < k
      · exact h1 j hjk
      · obtain rfl : j = rest.length := by omega
        simpa using h3

theorem readCode_reads {s s1 : St X} {code : Str} (h : Reads s code s1) : ∃ l rest, s.inp = l :: rest ∧
    readCode (rest.length + 1) (l ++ s% "\n") { s with inp := rest, out := s.out ++ s% ">> " } =
      (.ok (some (code, parseText code)), s1) := by
  obtain ⟨l, rest, k, hi, hk, rfl, h1, h2, rfl⟩ := h
  refine ⟨l, rest, hi, ?_⟩
  obtain ⟨k', hk', h1', h2'⟩ := C71_read (rest.length + 1) (l ++ s% "\n")
    { s with inp := rest, out := s.out ++ s% ">> " } (Nat.lt_succ_self _)
  have e : ∀ m, l ++ s% "\n" ++ linesText m = linesText (l :: m) := by intro m; simp [linesText]
  simp only [e] at h1' h2'
  rcases h2' with ⟨h2', h3⟩ | ⟨h2', h3, h4⟩
  · obtain rfl : k' = k := by
      rcases Nat.lt_trichotomy k k' with h | h | h
      · exact absurd (h1' k h) h2
      · exact h.symm
      · exact absurd (h1 k' h) h2'
    exact h3
  · exfalso
    by_cases hkk : k < k'
    · exact h2 (h1' k hkk)
    · obtain rfl : k = rest.length := by omega
      exact h2 (by simpa using h3)

theorem readCode_end {s s1 : St X} (h : ReadsEnd s s1) : ∃ l rest, s.inp = l :: rest ∧
    readCode (rest.length + 1) (l ++ s% "\n") { s with inp := rest, out := s.out ++ s% ">> " } = (.ok none, s1) := by
  obtain ⟨l, rest, hi, h1, rfl⟩ := h
  refine ⟨l, rest, hi, ?_⟩
  obtain ⟨k', hk', h1', h2'⟩ := C71_read (rest.length + 1) (l ++ s% "\n")
    { s with inp := rest, out := s.out ++ s% ">> " } (Nat.lt_succ_self _)
  have e : ∀ m, l ++ s% "\n" ++ linesText m = linesText (l :: m) := by intro m; simp [linesText]
  simp only [e] at h1' h2'
  rcases h2' with ⟨h2', h3⟩ | ⟨h2', h3, h4⟩
  · exact absurd (h1 k' hk') h2'
  · rw [h4, h2']

theorem Reads.shorter {s s1 : St X} {code : Str} (h : Reads s code s1) : s1.inp.length < s.inp.length := by
  obtain ⟨l, rest, k, hi, _, _, _, _, rfl⟩ := h
  rw [hi]
  simp only [List.length_drop, List.length_cons]
  omega

/-- The loop after the statements of a round -/
def goOn (R : Rec X) (n : Nat) : Outcome X Unit → Outcome X ReplEnd
  | (.ok _, s') => replLoop R n s'
  | (.error e, s') =>
    if e.isFatal then replLoop R n s'
    else if e = .fuel ∨ e = .unmodelled then (.error e, s')
    else (.ok (.crash e), s')

theorem catchFatal_goOn (R : Rec X) (n : Nat) (x : M X Unit) (s : St X) :
    (M.catchFatal x >>= fun r => match r with
      | some e => pure (.crash e)
      | none => replLoop R n) s = goOn R n (x s) := by
  simp only [M.bind_apply, M.catchFatal]
  rcases x s with ⟨r, s'⟩
  cases r with
  | ok _ => rfl
  | error e =>
    simp only [goOn]
    by_cases h1 : e.isFatal = true
    · simp only [h1, if_true]
    · by_cases h2 : e = .fuel ∨ e = .unmodelled
      · simp only [h1, h2, if_true, if_false, Bool.false_eq_true]
      · simp only [h1, h2, if_false, Bool.false_eq_true]
        rfl

/-- One pass of the loop after reading -/
def afterRead (R : Rec X) (n : Nat) (code : Str) (s : St X) : Outcome X ReplEnd :=
  match parseText code with
  | .error .badSyntax => replLoop R n s
  | .error e => (.ok (.crash e), s)
  | .ok sts =>
    if replCmd X code = .quit then (.ok .bye, s) else goOn R n (replStmts R sts (helped code s))

theorem replLoop_reads (R : Rec X) (n : Nat) {s s1 : St X} {code : Str} (h : Reads s code s1) :
    replLoop R (n + 1) s = afterRead R n code s1 := by
  obtain ⟨l, rest, hi, hr⟩ := readCode_reads h
  unfold replLoop
  simp only [M.bind_apply (x := M.emit _), M.bind_apply (x := M.readLine), M.bind_apply (x := M.get),
    M.bind_apply (x := readCode _ _), M.emit, M.readLine, hi, M.get_apply, hr]
  unfold afterRead
  cases hp : parseText code with
  | error e => cases e <;> rfl
  | ok sts =>
    simp only [helped]
    cases hc : replCmd X code with
    | quit => rfl
    | help =>
      simp only [reduceCtorEq, if_true, if_false]
      rw [M.bind_apply]
      exact catchFatal_goOn R n _ _
    | warnings =>
      simp only [reduceCtorEq, if_false]
      rw [M.bind_apply]
      exact catchFatal_goOn R n _ _
    | none =>
      simp only [reduceCtorEq, if_false]
      rw [M.bind_apply]
      exact catchFatal_goOn R n _ _

theorem replLoop_end (R : Rec X) (n : Nat) {s s1 : St X} (h : ReadsEnd s s1) :
    replLoop R (n + 1) s = (.ok .eof, s1) := by
  obtain ⟨l, rest, hi, hr⟩ := readCode_end h
  unfold replLoop
  simp only [M.bind_apply (x := M.emit _), M.bind_apply (x := M.readLine), M.bind_apply (x := M.get),
    M.bind_apply (x := readCode _ _), M.emit, M.readLine, hi, M.get_apply, hr]
  rfl

theorem replLoop_eof (R : Rec X) (n : Nat) {s : St X} (h : s.inp = []) :
    replLoop R (n + 1) s = (.ok .eof, { s with out := s.out ++ s% ">> " }) := by
  unfold replLoop
  simp only [M.bind_apply (x := M.emit _), M.bind_apply (x := M.readLine), M.emit, M.readLine, h]
  rfl

theorem helped_inp (code : Str) (s : St X) : (helped code s).inp = s.inp := by
  unfold helped; split <;> rfl

/-- The statements of a round do not unread anything. -/
theorem replStmts_inp {sts : List Tree} {s : St X} {o} (h : Runs (fun R => replStmts R sts) s o) :
    o.2.inp.length ≤ s.inp.length := by
  obtain ⟨_, n, hn⟩ := h
  have := (mono_replStmts sts).streams n s
  rw [show replStmts (run X n) sts s = _ from hn n (Nat.le_refl n)] at this
  exact this.2.length_le

theorem Session.runs {s s' : St X} {e : ReplEnd} (h : Session s e s') :
    ∀ n, s.inp.length < n → Runs (fun R => replLoop R n) s (.ok e, s') := by
  induction h with
  | eof h =>
    intro n hn
    obtain ⟨n, rfl⟩ : ∃ m, n = m + 1 := ⟨n - 1, by omega⟩
    exact ⟨ok_ne_fuel, 0, fun m _ => replLoop_eof _ n h⟩
  | unfinished h =>
    intro n hn
    obtain ⟨n, rfl⟩ : ∃ m, n = m + 1 := ⟨n - 1, by omega⟩
    exact ⟨ok_ne_fuel, 0, fun m _ => replLoop_end _ n h⟩
  | bad hr hp _ ih =>
    intro n hn
    obtain ⟨n, rfl⟩ : ∃ m, n = m + 1 := ⟨n - 1, by omega⟩
    have := hr.shorter
    refine (runs_eq fun R => ?_).mpr (ih n (by omega))
    rw [replLoop_reads R n hr, afterRead, hp]
  | quit hr hp hc =>
    intro n hn
    obtain ⟨n, rfl⟩ : ∃ m, n = m + 1 := ⟨n - 1, by omega⟩
    refine ⟨ok_ne_fuel, 0, fun m _ => ?_⟩
    show replLoop _ _ _ = _
    rw [replLoop_reads _ n hr, afterRead, hp]
    simp [hc]
  | done hr hp hc hs _ ih =>
    intro n hn
    obtain ⟨n, rfl⟩ : ∃ m, n = m + 1 := ⟨n - 1, by omega⟩
    have h1 := hr.shorter
    have h2 := replStmts_inp hs
    rw [helped_inp] at h2
    obtain ⟨ho, k, hk⟩ := ih n (by simp only at h2; omega)
    obtain ⟨_, j, hj⟩ := hs
    refine ⟨ho, max j k, fun m hm => ?_⟩
    show replLoop _ _ _ = _
    rw [replLoop_reads _ n hr, afterRead, hp]
    simp only [hc, if_false]
    rw [show replStmts (run X m) _ _ = _ from hj m (by omega)]
    exact hk m (by omega)
  | fatal hr hp hc hs hx _ ih =>
    intro n hn
    obtain ⟨n, rfl⟩ : ∃ m, n = m + 1 := ⟨n - 1, by omega⟩
    have h1 := hr.shorter
    have h2 := replStmts_inp hs
    rw [helped_inp] at h2
    obtain ⟨ho, k, hk⟩ := ih n (by simp only at h2; omega)
    obtain ⟨_, j, hj⟩ := hs
    refine ⟨ho, max j k, fun m hm => ?_⟩
    show replLoop _ _ _ = _
    rw [replLoop_reads _ n hr, afterRead, hp]
    simp only [hc, if_false]
    rw [show replStmts (run X m) _ _ = _ from hj m (by omega)]
    simp only [goOn, hx, if_true]
    exact hk m (by omega)
  | crash hr hp hc hs hx hu =>
    intro n hn
    obtain ⟨n, rfl⟩ : ∃ m, n = m + 1 := ⟨n - 1, by omega⟩
    have hf := hs.notFuel
    obtain ⟨_, j, hj⟩ := hs
    refine ⟨ok_ne_fuel, j, fun m hm => ?_⟩
    show replLoop _ _ _ = _
    rw [replLoop_reads _ n hr, afterRead, hp]
    simp only [hc, if_false]
    rw [show replStmts (run X m) _ _ = _ from hj m (by omega)]
    simp [goOn, hx, hf, hu]

theorem session_of_runs : ∀ (n : Nat) (s s' : St X) (e : ReplEnd), s.inp.length < n →
    Runs (fun R => replLoop R n) s (.ok e, s') → Session s e s'
  | 0, _, _, _, h, _ => absurd h (Nat.not_lt_zero _)
  | n + 1, s, s', e, hn, h => by
    rcases reads_cases s with hi | ⟨code, s1, hr⟩ | ⟨s1, hr⟩
    · obtain ⟨_, k, hk⟩ := h
      have := hk k (Nat.le_refl k)
      simp only [replLoop_eof _ n hi, Prod.mk.injEq, Except.ok.injEq] at this
      obtain ⟨rfl, rfl⟩ := this
      exact .eof hi
    · have hsh := hr.shorter
      have h : Runs (fun R => afterRead R n code) s1 (.ok e, s') :=
        (runs_eq fun R => (replLoop_reads R n hr).symm).mpr h
      rcases C71_parse code with ⟨sts, hp⟩ | hp | hp
      · by_cases hc : replCmd X code = .quit
        · obtain ⟨_, k, hk⟩ := h
          have := hk k (Nat.le_refl k)
          simp only [afterRead, hp, hc, if_true, Prod.mk.injEq, Except.ok.injEq] at this
          obtain ⟨rfl, rfl⟩ := this
          exact .quit hr hp hc
        · have h : Runs (fun R s => goOn R n (replStmts R sts (helped code s))) s1 (.ok e, s') :=
            (runs_eq fun R => by simp only [afterRead, hp, hc, if_false]).mp h
          obtain ⟨_, k, hk⟩ := h
          -- the statements end within the budget
          have hne : (replStmts (run X k) sts (helped code s1)).1 ≠ .error .fuel := by
            intro hfu
            have := hk k (Nat.le_refl k)
            rcases he : replStmts (run X k) sts (helped code s1) with ⟨r, s2⟩
            rw [he] at hfu
            simp only at hfu
            subst hfu
            simp only [he, goOn, Exc.isFatal, Bool.false_eq_true, if_false, true_or, if_true, Prod.mk.injEq, reduceCtorEq,
              false_and] at this
          have hs : Runs (fun R => replStmts R sts) (helped code s1) (replStmts (run X k) sts (helped code s1)) :=
            (mono_replStmts sts).runs rfl hne
          have hlen := replStmts_inp hs
          rw [helped_inp] at hlen
          rcases he : replStmts (run X k) sts (helped code s1) with ⟨r, s2⟩
          rw [he] at hs hlen
          have h2 : Runs (fun R _ => goOn R n (r, s2)) s1 (.ok e, s') := by
            obtain ⟨_, j, hj⟩ := hs
            refine ⟨ok_ne_fuel, max j k, fun m hm => ?_⟩
            have : goOn (run X m) n (replStmts (run X m) sts (helped code s1)) = _ := hk m (by omega)
            rw [show replStmts (run X m) sts (helped code s1) = _ from hj m (by omega)] at this
            exact this
          have hlt : s2.inp.length < n := by simp only at hlen; omega
          cases r with
          | ok _ =>
            have h3 : Runs (fun R => replLoop R n) s2 (.ok e, s') := (runs_eq fun R => rfl).mp h2
            exact .done hr hp hc hs (session_of_runs n s2 s' e hlt h3)
          | error x =>
            by_cases hx : x.isFatal = true
            · have h3 : Runs (fun R => replLoop R n) s2 (.ok e, s') :=
                (runs_eq fun R => by simp only [goOn, hx, if_true]).mp h2
              exact .fatal hr hp hc hs hx (session_of_runs n s2 s' e hlt h3)
            · obtain ⟨_, j, hj⟩ := h2
              have hj := hj j (Nat.le_refl j)
              have hf := hs.notFuel
              by_cases hu : x = .unmodelled
              · subst hu
                simp [goOn, Exc.isFatal] at hj
              · simp only [goOn, hx, hf, hu, or_self, Bool.false_eq_true, if_false, Prod.mk.injEq, Except.ok.injEq] at hj
                obtain ⟨rfl, rfl⟩ := hj
                exact .crash hr hp hc hs (by simpa using hx) hu
      · have h : Runs (fun R => replLoop R n) s1 (.ok e, s') :=
          (runs_eq fun R => by simp only [afterRead, hp]).mp h
        exact .bad hr hp (session_of_runs n s1 s' e (by omega) h)
      · exfalso
        obtain ⟨_, _, _, _, _, _, _, h5, _⟩ := hr
        exact h5 hp
    · obtain ⟨_, k, hk⟩ := h
      have := hk k (Nat.le_refl k)
      simp only [replLoop_end _ n hr, Prod.mk.injEq, Except.ok.injEq] at this
      obtain ⟨rfl, rfl⟩ := this
      exact .unfinished hr

/-- The loop does what `Session` says, for any bound on the number of rounds that exceeds the number of lines. It ends
only with the input, with a command to quit, or with an exception that is not fatal. -/
theorem C71_session (s s' : St X) (e : ReplEnd) (n : Nat) (hn : s.inp.length < n) :
    Runs (fun R => replLoop R n) s (.ok e, s') ↔ Session s e s' :=
  ⟨session_of_runs n s s' e hn, fun h => h.runs n hn⟩

/-- Deviation: after a fatal error the session goes on where it happened. If the code of a round is a statement that
dies, what follows is as if the session had been started in the state in which it died, the scopes that were open then
(see `C68_call`) included. -/
theorem C68_session (s s1 s2 : St X) (code : Str) (sts : List Tree) (x : Exc) (hr : Reads s code s1)
    (hp : parseText code = .ok sts) (hc : replCmd X code = .none)
    (hs : Runs (fun R => replStmts R sts) s1 (.error x, s2)) (hx : x.isFatal = true) (e : ReplEnd) (s' : St X) :
    Session s e s' ↔ Session s2 e s' := by
  have hh : helped code s1 = s1 := by simp [helped, hc]
  have hq : replCmd X code ≠ .quit := by simp [hc]
  constructor
  · intro h
    have h1 := h.runs (s.inp.length + 1) (Nat.lt_succ_self _)
    have h2 := hr.shorter
    have h3 := replStmts_inp hs
    refine (C71_session s2 s' e s.inp.length (by simp only at h3; omega)).mp ?_
    have h1 : Runs (fun R => afterRead R s.inp.length code) s1 (.ok e, s') :=
      (runs_eq fun R => (replLoop_reads R _ hr).symm).mpr h1
    obtain ⟨ho, k, hk⟩ := h1
    obtain ⟨_, j, hj⟩ := hs
    refine ⟨ho, max j k, fun m hm => ?_⟩
    have := hk m (by omega)
    simp only [afterRead, hp, hc, hh, reduceCtorEq, if_false] at this
    rw [show replStmts (run X m) sts s1 = _ from hj m (by omega)] at this
    simpa only [goOn, hx, if_true] using this
  · exact .fatal hr hp hq (by rw [hh]; exact hs) hx

/-- A session: `a` is 7 until a function that has set its own `a` to 3 dies; then `a` is 3. The third line is hopeless,
the fourth is continued. -/
example : (let r := replLoop (run toyExt 20) 7 (toySt [s% "I1{a:7}", s% "I1{({a:3;V\")\"}0)}", s% ")", s% "I1{",
    s% "Pa}", s% ";e"]); (r.1.toOption, r.2.out, r.2.below.length)) = (some .bye, s% ">> >> >> >> .. 3\n>> ", 1) := by
  decide +kernel

/-- A call that dies -/
example : ∃ s' : St toyExt, Calls (.block [] (.node (op1 (s% "V")) [.tok ⟨.str, s% "\")\""⟩])) [] (toySt [])
    (.error .fatal, s') := by
  have h : (match (callVal (run toyExt 20) (some (.block [] (.node (op1 (s% "V")) [.tok ⟨.str, s% "\")\""⟩]))) []
      (toySt [])).1 with
    | .error .fatal => true
    | _ => false) = true := by decide +kernel
  refine ⟨_, (mono_callVal _ _).runs (n := 20) (Prod.ext ?_ rfl) (by simp)⟩
  split at h
  · assumption
  · cases h

/-- When a statement of a round has the value `v`, the canonical text of `v` is printed on a line, the history variables
shift, and the rest of the round is executed; nothing else has changed. -/
theorem C71_display (t : Tree) (ts : List Tree) (v : Val) (s s1 : St X) (h : Execs t s (.ok (some v), s1)) :
    ∃ s2, s2.var (s% "$_") = some v ∧
      (∀ w, s1.var (s% "$_") = some w → s2.var (s% "$__") = some w) ∧
      (∀ w u, s1.var (s% "$_") = some w → s1.var (s% "$__") = some u → s2.var (s% "$___") = some u) ∧
      (∀ n, n ≠ s% "$_" → n ≠ s% "$__" → n ≠ s% "$___" → s2.var n = s1.var n) ∧
      SameRest { s1 with out := s1.out ++ (v.repr ++ s% "\n") } s2 ∧
      (∀ o, Runs (fun R => replStmts R (t :: ts)) s o ↔ Runs (fun R => replStmts R ts) s2 o) := by
  obtain ⟨s2, h0, h1, h2, h3, h4, h5⟩ := updateHistory_run v { s1 with out := s1.out ++ (v.repr ++ s% "\n") }
  refine ⟨s2, h1, h2, h3, h4, h5, fun o => ?_⟩
  obtain ⟨_, n, hn⟩ := h
  have key : ∀ m, n ≤ m → replStmts (run X m) (t :: ts) s = replStmts (run X m) ts s2 := by
    intro m hm
    have e : (run X m).exec t s = _ := hn m hm
    unfold replStmts
    rw [M.bind_ok e]
    simp only
    have e2 : opPRINT (.scalar v.repr) s1 = (.ok (), { s1 with out := s1.out ++ (v.repr ++ s% "\n") }) := rfl
    rw [M.bind_ok e2, M.bind_ok h0]
    cases ts <;> rfl
  constructor
  · rintro ⟨ho, k, hk⟩
    exact ⟨ho, max n k, fun m hm => (key m (by omega)).symm.trans (hk m (by omega))⟩
  · rintro ⟨ho, k, hk⟩
    exact ⟨ho, max n k, fun m hm => (key m (by omega)).trans (hk m (by omega))⟩

/-- The hypothesis is met by the statement `7`. -/
example : Execs (.tok ⟨.num, s% "7"⟩) (toySt []) (.ok (some (.scalar (s% "7"))), toySt []) :=
  (mono_exec _).runs (n := 5) rfl (by decide)

/-! ### C72: the arguments of the program -/

/-- Without `-r` and `-x` the program is called with its arguments as Scalars; nothing of standard input is read before it
starts. Where the code comes from makes no difference. -/
theorem C72_args (files : Str → Option Str) (code : Str) (o : Options) (hr : o.readlines = false)
    (hx : o.execArgs = false) (hv : o.verbose = false) (sts : List Tree) (hp : parseText code = .ok sts) (R : Rec X)
    (s : St X) :
    pipRun R files (some code) false o s = executeProgram R sts (o.args.map .scalar) s ∧
    pipRun R files none false { o with execute := some code } s = executeProgram R sts (o.args.map .scalar) s ∧
    (∀ name, files name = some code →
      pipRun R files none false { o with execute := none, file := some name } s =
        executeProgram R sts (o.args.map .scalar) s ∧
      pipRun R files none false { o with execute := none, file := none, stdin := false, args := name :: o.args } s =
        executeProgram R sts (o.args.map .scalar) s) := by
  have hp' : ∀ s : St X, (M.lift (parseText code) : M X _) s = (.ok sts, s) := by intro s; rw [hp]; rfl
  refine ⟨?_, ?_, fun name hf => ⟨?_, ?_⟩⟩
  · unfold pipRun
    rw [M.bind_apply]
    simp only [programText, Bool.false_eq_true, if_false, M.pure_apply, M.bind_apply, hp', hr, hx, hv]
  · unfold pipRun
    rw [M.bind_apply]
    simp only [programText, Bool.false_eq_true, if_false, M.pure_apply, M.bind_apply, hp', hr, hx, hv]
  all_goals
    unfold pipRun
    rw [M.bind_apply]
    simp only [programText, programText.fromFile, Bool.false_eq_true, if_false, M.pure_apply, M.bind_apply]
    rw [hf]
    simp only [Bool.false_eq_true, if_false, M.pure_apply, M.bind_apply, hp', hr, hx, hv]

/-- With `-r` the arguments are the lines of standard input, which is used up; with `-i` it is the code that is read from
there, and with both the program has no arguments. -/
theorem C72_input (files : Str → Option Str) (o : Options) (hx : o.execArgs = false) (hr : o.readlines = true)
    (hv : o.verbose = false) (R : Rec X) (s : St X) (code : Str) (sts : List Tree) (hp : parseText code = .ok sts) :
    pipRun R files (some code) false o s = executeProgram R sts (s.inp.map .scalar) { s with inp := [] } ∧
      (∀ lines, s.inp = lines → joinStr (s% "\n") lines = code →
        pipRun R files none false { o with execute := none, file := none, stdin := true } s =
            executeProgram R sts [] { s with inp := [] } ∧
        pipRun R files none false { o with execute := none, file := none, stdin := true, readlines := false } s =
            executeProgram R sts (o.args.map .scalar) { s with inp := [] }) := by
  have hp' : ∀ s : St X, (M.lift (parseText code) : M X _) s = (.ok sts, s) := by intro s; rw [hp]; rfl
  refine ⟨?_, fun lines hl hc => ⟨?_, ?_⟩⟩
  · unfold pipRun
    rw [M.bind_apply]
    simp only [programText, Bool.false_eq_true, if_false, if_true, M.pure_apply, M.bind_apply, hp', hr, hx, hv, M.readAll]
  all_goals
    unfold pipRun
    rw [M.bind_apply]
    simp only [programText, programText.fromInput, Bool.false_eq_true, if_false, if_true, M.pure_apply, M.bind_apply,
      M.readAll, hl, hc, hp', hr, hx, hv, List.map_nil]

example : parseText (s% "Pa") = .ok [.node (op1 (s% "P")) [var (s% "a")]] := by decide +kernel

end Pip
