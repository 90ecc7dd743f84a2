import Verif.Props.Table
import Verif.Model.Case
import Verif.Spec.Toy
/-!
# C104: letter case
-/

namespace Pip
variable {X : Ext}

/-! ### Specification -/

def smallLetters : Str := s% "abcdefghijklmnopqrstuvwxyz"
def bigLetters : Str := s% "ABCDEFGHIJKLMNOPQRSTUVWXYZ"

/-- The small letter of a big one; other characters as they are -/
def small (c : Char) : Char := ((bigLetters.zip smallLetters).lookup c).getD c
/-- The big letter of a small one; other characters as they are -/
def big (c : Char) : Char := ((smallLetters.zip bigLetters).lookup c).getD c

def IsLetter (c : Char) : Prop := c ∈ smallLetters ∨ c ∈ bigLetters

instance (c : Char) : Decidable (IsLetter c) := inferInstanceAs (Decidable (_ ∨ _))

/-- Strings of ASCII characters -/
def Ascii (s : Str) : Prop := ∀ c ∈ s, c.toNat < 128

/-- Does a word begin at the position: no letter before it? -/
def WordStart (s : Str) (i : Nat) : Prop := ∀ j c, j + 1 = i → s[j]? = some c → ¬ IsLetter c

/-! ### Characters -/

theorem ascii_char {P : Char → Prop} (h : ∀ n : Fin 128, P (Char.ofNat n)) (c : Char) (hc : c.toNat < 128) : P c := by
  have := h ⟨c.toNat, hc⟩
  simpa using this

theorem toLower_small (c : Char) (hc : c.toNat < 128) : c.toLower = small c :=
  ascii_char (P := fun c => c.toLower = small c) (by decide +kernel) c hc

theorem toUpper_big (c : Char) (hc : c.toNat < 128) : c.toUpper = big c :=
  ascii_char (P := fun c => c.toUpper = big c) (by decide +kernel) c hc

theorem isAlpha_letter (c : Char) (hc : c.toNat < 128) : c.isAlpha = true ↔ IsLetter c :=
  ascii_char (P := fun c => c.isAlpha = true ↔ IsLetter c) (by decide +kernel) c hc

theorem swapChar_spec (c : Char) (hc : c.toNat < 128) : swapChar c = if c ∈ bigLetters then small c else big c :=
  ascii_char (P := fun c => swapChar c = if c ∈ bigLetters then small c else big c) (by decide +kernel) c hc

theorem isAscii_iff (s : Str) : isAsciiStr s = true ↔ Ascii s := by
  simp [isAsciiStr, Ascii]

theorem ascii_cons {c : Char} {s : Str} : Ascii (c :: s) ↔ c.toNat < 128 ∧ Ascii s := by
  simp [Ascii]

theorem map_lower {s : Str} (h : Ascii s) : s.map Char.toLower = s.map small :=
  List.map_congr_left fun c hc => toLower_small c (h c hc)

theorem map_upper {s : Str} (h : Ascii s) : s.map Char.toUpper = s.map big :=
  List.map_congr_left fun c hc => toUpper_big c (h c hc)

theorem titleFrom_length : ∀ (s : Str) (p : Bool), (titleFrom p s).length = s.length
  | [], _ => rfl
  | c :: s, p => by simp [titleFrom, titleFrom_length s]

open Classical in
theorem titleFrom_get : ∀ (s : Str) (p : Bool) (i : Nat) (c : Char), Ascii s → s[i]? = some c →
    (titleFrom p s)[i]? = some (if (i = 0 → p = false) ∧ WordStart s i then big c else small c)
  | [], _, _, _, _, h => by simp at h
  | d :: s, p, 0, c, ha, h => by
    simp only [List.getElem?_cons_zero, Option.some.injEq] at h
    subst h
    have hd := (ascii_cons.1 ha).1
    have : WordStart (d :: s) 0 := by intro j c hj; omega
    simp only [titleFrom, List.getElem?_cons_zero, this, and_true, forall_const, toLower_small d hd, toUpper_big d hd]
    cases p <;> simp
  | d :: s, p, i + 1, c, ha, h => by
    obtain ⟨hd, hs⟩ := ascii_cons.1 ha
    simp only [List.getElem?_cons_succ] at h
    simp only [titleFrom, List.getElem?_cons_succ, titleFrom_get s d.isAlpha i c hs h]
    have : ((i = 0 → d.isAlpha = false) ∧ WordStart s i) ↔ WordStart (d :: s) (i + 1) := by
      constructor
      · rintro ⟨h1, h2⟩ j e hj he
        have hj : j = i := by omega
        subst hj
        cases j with
        | zero =>
          simp only [List.getElem?_cons_zero, Option.some.injEq] at he
          subst he
          rw [← isAlpha_letter _ hd]
          simp [h1 rfl]
        | succ k => exact h2 k e rfl (by simpa using he)
      · intro h1
        refine ⟨fun hi => ?_, fun j e hj he => h1 (j + 1) e (by omega) (by simpa using he)⟩
        subst hi
        have := h1 0 d rfl rfl
        rw [← isAlpha_letter _ hd] at this
        simpa using this
    simp [this]

/-! ### The operators -/

theorem case_vals {X : Ext} {n : Str} {f : Str → Str} (h : (n, Takes.items1, fun a => val (caseOp f a)) ∈ unarySyms X) {a : Tree}
    {s s1 : St X} {x : Str} (ha : a.notOpr = true) (hv : Vals a s (.ok (.scalar x), s1)) :
    Vals (.node (op1 n) [a]) s (.ok (.scalar (f x)), s1) :=
  C73_value_unary n _ _ h a s s1 _ _ ha hv rfl rfl

/-- `LC`: the letters become small. -/
theorem C104_lower (a : Tree) (s s1 : St X.withCase) (x : Str) (hx : Ascii x) (ha : a.notOpr = true)
    (hv : Vals a s (.ok (.scalar x), s1)) : Vals (.node (op1 (s% "LC")) [a]) s (.ok (.scalar (x.map small)), s1) := by
  have := case_vals (X := X.withCase) (n := s% "LC") (f := X.withCase.lower) (by row) ha hv
  simpa only [(isAscii_iff x).2 hx, if_true, map_lower hx] using this

/-- `UC`: the letters become big. -/
theorem C104_upper (a : Tree) (s s1 : St X.withCase) (x : Str) (hx : Ascii x) (ha : a.notOpr = true)
    (hv : Vals a s (.ok (.scalar x), s1)) : Vals (.node (op1 (s% "UC")) [a]) s (.ok (.scalar (x.map big)), s1) := by
  have := case_vals (X := X.withCase) (n := s% "UC") (f := X.withCase.upper) (by row) ha hv
  simpa only [(isAscii_iff x).2 hx, if_true, map_upper hx] using this

/-- `SC`: big letters become small and small letters big. -/
theorem C104_swap (a : Tree) (s s1 : St X.withCase) (x : Str) (hx : Ascii x) (ha : a.notOpr = true)
    (hv : Vals a s (.ok (.scalar x), s1)) :
    Vals (.node (op1 (s% "SC")) [a]) s (.ok (.scalar (x.map fun c => if c ∈ bigLetters then small c else big c)), s1) := by
  have := case_vals (X := X.withCase) (n := s% "SC") (f := X.withCase.swapcase) (by row) ha hv
  rw [← List.map_congr_left fun c hc => swapChar_spec c (hx c hc)]
  simpa only [(isAscii_iff x).2 hx, if_true] using this

/-- `IC`: the first character becomes big if it is a letter, all other letters small. -/
theorem C104_capitalize (a : Tree) (s s1 : St X.withCase) (c : Char) (x : Str) (hx : Ascii (c :: x)) (ha : a.notOpr = true)
    (hv : Vals a s (.ok (.scalar (c :: x)), s1)) :
    Vals (.node (op1 (s% "IC")) [a]) s (.ok (.scalar (big c :: x.map small)), s1) := by
  have := case_vals (X := X.withCase) (n := s% "IC") (f := X.withCase.capitalize) (by row) ha hv
  simpa only [(isAscii_iff _).2 hx, if_true, capStr, map_lower (ascii_cons.1 hx).2, toUpper_big c (ascii_cons.1 hx).1] using this

open Classical in
/-- `TC`: letters at the beginning of a word become big, the other letters small. A word begins after every character
that is not a letter, so also after an apostrophe. -/
theorem C104_title (a : Tree) (s s1 : St X.withCase) (x : Str) (hx : Ascii x) (ha : a.notOpr = true)
    (hv : Vals a s (.ok (.scalar x), s1)) :
    ∃ y : Str, Vals (.node (op1 (s% "TC")) [a]) s (.ok (.scalar y), s1) ∧ y.length = x.length ∧
      ∀ i c, x[i]? = some c → y[i]? = some (if WordStart x i then big c else small c) := by
  have := case_vals (X := X.withCase) (n := s% "TC") (f := X.withCase.title) (by row) ha hv
  simp only [(isAscii_iff x).2 hx, if_true] at this
  refine ⟨_, this, titleFrom_length _ _, fun i c h => ?_⟩
  simpa using titleFrom_get x false i c hx h

theorem small_ascii (c : Char) (hc : c.toNat < 128) : (small c).toNat < 128 :=
  ascii_char (P := fun c => (small c).toNat < 128) (by decide +kernel) c hc

theorem big_ascii (c : Char) (hc : c.toNat < 128) : (big c).toNat < 128 :=
  ascii_char (P := fun c => (big c).toNat < 128) (by decide +kernel) c hc

/-- Swapping twice changes nothing. -/
theorem C104_swap_swap (a : Tree) (s s1 : St X.withCase) (x : Str) (hx : Ascii x) (ha : a.notOpr = true)
    (hv : Vals a s (.ok (.scalar x), s1)) :
    Vals (.node (op1 (s% "SC")) [.node (op1 (s% "SC")) [a]]) s (.ok (.scalar x), s1) := by
  have h1 := C104_swap a s s1 x hx ha hv
  have h2 := C104_swap _ s s1 _ (fun c hc => ?_) rfl h1
  · rw [List.map_map] at h2
    have : x.map ((fun c => if c ∈ bigLetters then small c else big c) ∘ fun c => if c ∈ bigLetters then small c else big c) = x := by
      conv => rhs; rw [← List.map_id x]
      refine List.map_congr_left fun c hc => ?_
      exact ascii_char (P := fun c => ((fun c => if c ∈ bigLetters then small c else big c) ∘
        fun c => if c ∈ bigLetters then small c else big c) c = id c) (by decide +kernel) c (hx c hc)
    rwa [this] at h2
  · obtain ⟨d, hd, rfl⟩ := List.mem_map.1 hc
    have := small_ascii d (hx d hd)
    have := big_ascii d (hx d hd)
    split <;> assumption

/-- The last of `LC` and `UC` decides. -/
theorem C104_last (a : Tree) (s s1 : St X.withCase) (x : Str) (hx : Ascii x) (ha : a.notOpr = true)
    (hv : Vals a s (.ok (.scalar x), s1)) :
    Vals (.node (op1 (s% "LC")) [.node (op1 (s% "UC")) [a]]) s (.ok (.scalar (x.map small)), s1) ∧
    Vals (.node (op1 (s% "UC")) [.node (op1 (s% "LC")) [a]]) s (.ok (.scalar (x.map big)), s1) := by
  constructor
  · have h2 := C104_lower _ s s1 _ (fun c hc => ?_) rfl (C104_upper a s s1 x hx ha hv)
    · rw [List.map_map] at h2
      rwa [List.map_congr_left fun c hc => ascii_char (P := fun c => (small ∘ big) c = small c) (by decide +kernel) c (hx c hc)] at h2
    · obtain ⟨d, hd, rfl⟩ := List.mem_map.1 hc
      exact big_ascii d (hx d hd)
  · have h2 := C104_upper _ s s1 _ (fun c hc => ?_) rfl (C104_lower a s s1 x hx ha hv)
    · rw [List.map_map] at h2
      rwa [List.map_congr_left fun c hc => ascii_char (P := fun c => (big ∘ small) c = big c) (by decide +kernel) c (hx c hc)] at h2
    · obtain ⟨d, hd, rfl⟩ := List.mem_map.1 hc
      exact small_ascii d (hx d hd)

/-- Ranges are left as they are; Patterns and nil give nil. -/
theorem C104_other (n : Str) (hn : n ∈ [s% "LC", s% "UC", s% "SC", s% "TC", s% "IC"]) (a : Tree) (s s1 : St X) (v : Val)
    (ha : a.notOpr = true) (hv : Vals a s (.ok v, s1)) :
    (v.isRange = true → Vals (.node (op1 n) [a]) s (.ok v, s1)) ∧
    (v = .nil ∨ (∃ r f, v = .pattern r f) → Vals (.node (op1 n) [a]) s (.ok .nil, s1)) := by
  have key : ∃ f : Str → Str, (n, Takes.items1, fun a => val (caseOp f a)) ∈ unarySyms X := by
    simp only [List.mem_cons, List.not_mem_nil, or_false] at hn
    rcases hn with rfl | rfl | rfl | rfl | rfl
    · exact ⟨X.lower, by row⟩
    · exact ⟨X.upper, by row⟩
    · exact ⟨X.swapcase, by row⟩
    · exact ⟨X.title, by row⟩
    · exact ⟨X.capitalize, by row⟩
  obtain ⟨f, hf⟩ := key
  constructor
  · intro hr
    cases v with
    | range lo hi => exact C73_value_unary n _ _ hf a s s1 _ _ ha hv rfl rfl
    | _ => cases hr
  · rintro (rfl | ⟨r, g, rfl⟩)
    · exact C73_value_unary n _ _ hf a s s1 _ _ ha hv rfl rfl
    · exact C73_value_unary n _ _ hf a s s1 _ _ ha hv rfl rfl

/-! ### Cases -/

def caseExt : Ext := toyExt.withCase

def caseOut (text : Str) : Option Str :=
  match compile text with
  | .ok (.block stmts ret) =>
    match executeProgram (run caseExt 60) (stmts ++ [ret]) [] (St.init caseExt [] ()) with
    | (.ok _, s) => some s.out
    | _ => none
  | _ => none

example : caseOut (s% "PLC \"Don't PANIC 42!\" PUC \"Don't PANIC 42!\" PSC \"Don't PANIC 42!\" IC \"don't PANIC 42!\"") =
    some (s% "don't panic 42!\nDON'T PANIC 42!\ndON'T panic 42!\nDon't panic 42!\n") := by
  decide +kernel

/-- Also after an apostrophe -/
example : caseOut (s% "TC \"don't PANIC 4you!\"") = some (s% "Don'T Panic 4You!\n") := by
  decide +kernel

/-- The items of Lists; the numbers of Ranges are not changed. -/
example : caseOut (s% "PUC[\"ab\";[\"c\";1]] LC 1,4") = some (s% "ABC1\n123\n") := by
  decide +kernel

example : Ascii (s% "Don't PANIC 42!") := by
  unfold Ascii
  decide +kernel

end Pip
