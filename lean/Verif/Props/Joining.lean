import Verif.Lemmas.Cut
import Verif.Props.Build
import Verif.Props.Find
import Verif.Props.Func
import Verif.Props.Table
/-!
# C78 wrapping, joining with wrapping, joining columns; C79 replacing and removing
-/

namespace Pip
variable {X : Ext}

/-! ### C78 -/

/-- `WR` puts the second string before and after the first. -/
theorem C78_wrap (s t : Str) : opWRAP (.scalar s) (.scalar t) = .ok (.scalar (t ++ s ++ t)) := rfl

theorem joinWrapLoop_strs (t : Str) : ∀ (l : List Str) (r : Str),
    joinWrapLoop (.scalar t) (l.map .scalar) (.scalar r) = .ok (.scalar (r ++ l.flatMap (· ++ t)))
  | [], r => by simp [joinWrapLoop]
  | x :: l, r => by
    have := joinWrapLoop_strs t l (r ++ x ++ t)
    simp only [List.append_assoc] at this
    simpa [joinWrapLoop, joinList, cat, bind, Except.bind, pure, Except.pure] using this

/-- `JW` puts the separator between the items and at both ends. -/
theorem C78_joinwrap (l : List Str) (t : Str) :
    opJOINWRAP (strs l) (.scalar t) = .ok (.scalar (t ++ l.flatMap (· ++ t))) := by
  have : opJOINWRAP (strs l) (.scalar t) = joinWrapLoop (.scalar t) (l.map .scalar) (.scalar t) := rfl
  rw [this, joinWrapLoop_strs]

/-- If there are items, `JW` is joining and then wrapping. -/
theorem C78_join_then_wrap (l : List Str) (t : Str) (h : l ≠ []) :
    ∃ j, opJOIN (strs l) (some (.scalar t)) = .ok j ∧ opJOINWRAP (strs l) (.scalar t) = opWRAP j (.scalar t) := by
  refine ⟨.scalar (joinStr t l), ?_, ?_⟩
  · have := joinPy_scalars (some t) l
    simp only [Option.map_some, Option.getD_some] at this
    exact this
  · rw [C78_joinwrap, C78_wrap]
    congr 2
    induction l with
    | nil => exact absurd rfl h
    | cons x l ih =>
      cases l with
      | nil => simp [joinStr]
      | cons y l =>
        have := ih (by simp)
        simp only [List.append_assoc, List.append_cancel_left_eq] at this ⊢
        simp [joinStr, this]

/-- A string is joined as the List of its characters. -/
theorem C78_joinwrap_string (s t : Str) : opJOINWRAP (.scalar s) (.scalar t) = opJOINWRAP (strs (s.map fun c => [c])) (.scalar t) := by
  have e : strs (s.map fun c => [c]) = .list (s.map fun c => .scalar [c]) := by simp [strs]
  rw [e]
  rfl

/-- The columns of a text, the lines of which are filled up with spaces: as many columns as the longest line has
characters, each with one character for every line. -/
def Columns (lines cols : List Str) : Prop :=
  (∀ l ∈ lines, l.length ≤ cols.length) ∧ (cols = [] ∨ ∃ l ∈ lines, cols.length = l.length) ∧
  ∀ i, i < cols.length → cols[i]? = some (lines.map fun l => l[i]?.getD ' ')

theorem columns_zipLongest (lines : List Str) : Columns lines (zipLongest ' ' lines) := by
  have hmax : ∀ (ls : List Str) (m : Nat), ls.foldl (fun m l => max m l.length) m = m ∨
      ∃ l ∈ ls, ls.foldl (fun m l => max m l.length) m = l.length := by
    intro ls
    induction ls with
    | nil => intro m; exact .inl rfl
    | cons x ls ih =>
      intro m
      rcases ih (max m x.length) with h | ⟨l, hl, h⟩
      · rcases Nat.le_total m x.length with h' | h'
        · right
          exact ⟨x, by simp, by simp only [List.foldl_cons, h]; omega⟩
        · left
          simp only [List.foldl_cons, h]
          omega
      · exact .inr ⟨l, by simp [hl], by simpa using h⟩
  refine ⟨fun l hl => ?_, ?_, fun i hi => ?_⟩
  · simpa [zipLongest] using (foldl_max_ge List.length lines 0).2 l hl
  · rcases hmax lines 0 with h | ⟨l, hl, h⟩
    · left
      simp [zipLongest, h]
    · right
      exact ⟨l, hl, by simpa [zipLongest] using h⟩
  · have hi : i < lines.foldl (fun m l => max m l.length) 0 := by simpa [zipLongest] using hi
    simp [zipLongest, hi]

theorem zipLongest_map {α β : Type} (f : α → β) (d : α) (ls : List (List α)) :
    zipLongest (f d) (ls.map (·.map f)) = (zipLongest d ls).map (·.map f) := by
  have : ∀ (ls : List (List α)) (m : Nat), (ls.map (·.map f)).foldl (fun m l => max m l.length) m = ls.foldl (fun m l => max m l.length) m := by
    intro ls
    induction ls with
    | nil => intro _; rfl
    | cons x ls ih => intro m; simp only [List.map_cons, List.foldl_cons, List.length_map, ih]
  simp only [zipLongest, this, List.map_map]
  apply List.map_congr_left
  intro i _
  simp only [Function.comp_apply, List.map_map]
  apply List.map_congr_left
  intro l _
  simp only [Function.comp_apply, List.getD_eq_getElem?_getD, List.getElem?_map]
  cases l[i]? <;> rfl

theorem mapM_all {α β : Type} (f : α → Except Exc β) (g : α → β) : ∀ (l : List α), (∀ x ∈ l, f x = .ok (g x)) →
    l.mapM f = .ok (l.map g)
  | [], _ => rfl
  | x :: l, h => by
    rw [List.mapM_cons, h x (by simp), mapM_all f g l fun y hy => h y (by simp [hy])]
    rfl

theorem zipjoin_pools (ls : List Str) :
    (ls.map Val.scalar).mapM (fun v => if v.isIterable then v.items else Val.items (.scalar (v.str X.fmt))) =
      .ok (ls.map fun s => s.map fun c => .scalar [c]) := by
  rw [List.mapM_map]
  exact mapM_all _ _ _ fun s _ => rfl

theorem zipjoin_cols (ls : List Str) :
    (zipLongest (.scalar (s% " ")) (ls.map fun s => s.map fun c => Val.scalar [c])).mapM (fun t => joinPy t none) =
      .ok ((zipLongest ' ' ls).map .scalar) := by
  have := zipLongest_map (fun c => Val.scalar [c]) ' ' ls
  rw [show Val.scalar (s% " ") = Val.scalar [' '] from rfl, this, List.mapM_map]
  exact mapM_all _ _ _ fun t _ => joinPy_chars t

/-- `ZJ` of a text gives the text of its columns. -/
theorem C78_text (lines : List Str) (h : lines ≠ []) (hn : ∀ l ∈ lines, '\n' ∉ l) :
    ∃ cols, Columns lines cols ∧
      opZIPJOIN X (.scalar (joinStr (s% "\n") lines)) none = .ok (.scalar (joinStr (s% "\n") cols)) := by
  refine ⟨_, columns_zipLongest lines, ?_⟩
  have hs : splitStr (s% "\n") (joinStr (s% "\n") lines) = lines := by
    refine splitStr_join (s% "\n") (by decide) lines h fun x hx i hi hp => hn x hx ?_
    rw [List.drop_append_of_le_length (by omega), List.drop_eq_getElem_cons hi] at hp
    obtain ⟨r, hr⟩ := hp
    have hr' : '\n' :: r = x[i] :: (x.drop (i + 1) ++ s% "\n") := hr
    rw [(List.cons.inj hr').1]
    exact List.getElem_mem hi
  have hj := joinPy_scalars (some (s% "\n")) (zipLongest ' ' lines)
  simp only [opZIPJOIN, hs, bind, Except.bind, pure, Except.pure, zipjoin_pools, zipjoin_cols, if_true]
  exact hj

/-- `ZJ` of a List of strings gives the List of the columns; with two strings, of the pairs of characters. -/
theorem C78_lines (lines : List Str) :
    ∃ cols, Columns lines cols ∧ opZIPJOIN X (strs lines) none = .ok (strs cols) := by
  refine ⟨_, columns_zipLongest lines, ?_⟩
  have h1 : (Val.list (lines.map Val.scalar)).items = .ok (lines.map .scalar) := rfl
  have h2 : (Val.list (lines.map Val.scalar)).isIterable = true := rfl
  simp only [opZIPJOIN, strs, h1, h2, if_true, bind, Except.bind, pure, Except.pure, zipjoin_pools, zipjoin_cols,
    Bool.false_eq_true, if_false]

theorem C78_pair (a b : Str) : opZIPJOIN X (.scalar a) (some (.scalar b)) = opZIPJOIN X (strs [a, b]) none := rfl

theorem Columns.unique {lines c c' : List Str} (h : Columns lines c) (h' : Columns lines c') : c = c' := by
  have hl : c.length = c'.length := by
    have le : ∀ {c c' : List Str}, Columns lines c → Columns lines c' → c.length ≤ c'.length := by
      intro c c' h h'
      rcases h.2.1 with rfl | ⟨l, hl, e⟩
      · simp
      · rw [e]
        exact h'.1 l hl
    exact Nat.le_antisymm (le h h') (le h' h)
  apply List.ext_getElem? 
  intro i
  by_cases hi : i < c.length
  · rw [h.2.2 i hi, h'.2.2 i (hl ▸ hi)]
  · rw [List.getElem?_eq_none (by omega), List.getElem?_eq_none (by omega)]

/-- Taking the columns of a rectangular block twice gives it back. -/
theorem C78_transpose (lines cols : List Str) (m : Nat) (hm : 0 < m) (h : lines ≠ []) (hr : ∀ l ∈ lines, l.length = m)
    (hc : Columns lines cols) : Columns cols lines := by
  have hlen : cols.length = m := by
    obtain ⟨x, hx⟩ := List.exists_mem_of_ne_nil _ h
    rcases hc.2.1 with rfl | ⟨l, hl, e⟩
    · have h1 := hc.1 x hx
      rw [hr x hx, List.length_nil] at h1
      omega
    · rw [e, hr l hl]
  have hcol : ∀ c ∈ cols, c.length = lines.length := by
    intro c hc'
    obtain ⟨i, hi⟩ := List.mem_iff_getElem?.1 hc'
    have := hc.2.2 i (List.getElem?_eq_some_iff.1 hi).1
    rw [hi] at this
    rw [Option.some.inj this]
    simp
  have hne : cols ≠ [] := by
    rintro rfl
    simp at hlen
    omega
  refine ⟨fun c h => by rw [hcol c h], .inr ?_, fun j hj => ?_⟩
  · obtain ⟨c, hc'⟩ := List.exists_mem_of_ne_nil _ hne
    exact ⟨c, hc', (hcol c hc').symm⟩
  · rw [List.getElem?_eq_getElem hj]
    congr 1
    have hx : (lines[j]).length = m := hr _ (List.getElem_mem hj)
    apply List.ext_getElem?
    intro i
    by_cases hi : i < m
    · have e := hc.2.2 i (by omega)
      rw [List.getElem?_map, e]
      simp [List.getElem?_eq_getElem hj, List.getElem?_eq_getElem (show i < (lines[j]).length by omega)]
    · rw [List.getElem?_eq_none (by omega), List.getElem?_eq_none (by simp; omega)]

example : Columns [s% "abc", s% "d"] [s% "ad", s% "b ", s% "c "] := columns_zipLongest [s% "abc", s% "d"]
example : toyOut (s% "P\"ab\"WR'!P[1 2 3]JW'-P ZJ[\"abc\"\"de\"]P ZJ\"ab\ncd\"P\"abc\"ZJ\"12\"") [] [] =
    some (s% "!ab!\n-1-2-3-\nadbec \nac\nbd\na1b2c \na1b2c \n") := by decide +kernel

/-! ### C79 -/

/-- The string in which the occurrences of `old`, found from left to right without overlap, are replaced by `new` -/
inductive Replaced (old new : Str) : Str → Str → Prop
  | none {s : Str} : (∀ i, ¬OccursAt old s i) → Replaced old new s s
  | next {p q r : Str} : (∀ i < p.length, ¬OccursAt old (p ++ old ++ q) i) → Replaced old new q r →
    Replaced old new (p ++ old ++ q) (p ++ new ++ r)

theorem Replaced.cons {old new : Str} {c : Char} {s r : Str} (h0 : ¬OccursAt old (c :: s) 0) (h : Replaced old new s r) :
    Replaced old new (c :: s) (c :: r) := by
  cases h with
  | none h =>
    refine .none fun i => ?_
    cases i with
    | zero => exact h0
    | succ i => rw [occursAt_succ]; exact h i
  | @next p q r h1 h2 =>
    refine Replaced.next (p := c :: p) (fun i hi => ?_) h2
    cases i with
    | zero => exact h0
    | succ i =>
      simp only [List.cons_append]
      rw [occursAt_succ]
      exact h1 i (by simpa using hi)

theorem joinStr_two (sep x y : Str) (l : List Str) : joinStr sep (x :: y :: l) = x ++ sep ++ joinStr sep (y :: l) := rfl

theorem replaceStr_spec (old new : Str) (h : old ≠ []) (s : Str) : Replaced old new s (replaceStr old new s) := by
  have he : old.isEmpty = false := by simpa using h
  simp only [replaceStr, he, Bool.false_eq_true, if_false, splitStr]
  generalize hn : s.length = n
  induction n using Nat.strong_induction_on generalizing s with
  | _ n ih =>
    cases s with
    | nil =>
      refine .none fun i => ?_
      rw [occursAt_nil]
      exact fun h' => h h'.1
    | cons c s =>
      by_cases hp : old <+: c :: s
      · obtain ⟨q, hq⟩ := hp
        rw [← hq]
        have e := splitAux_first old h [] q (by simp)
        simp only [List.nil_append] at e
        simp only [e, joinStr_two, List.nil_append]
        have hl : q.length < n := by
          have := congrArg List.length hq
          simp only [List.length_append, List.length_cons] at this hn
          have : 0 < old.length := List.length_pos_iff.2 h
          omega
        exact Replaced.next (p := []) (by simp) (ih _ hl q rfl)
      · have e : splitAux old 0 (c :: s) = (c :: (splitAux old 0 s).1, (splitAux old 0 s).2) := by
          simp only [splitAux]
          rw [if_neg (by simpa using hp)]
        have hj : joinStr new ((c :: (splitAux old 0 s).1) :: (splitAux old 0 s).2) =
            c :: joinStr new ((splitAux old 0 s).1 :: (splitAux old 0 s).2) := by
          cases (splitAux old 0 s).2 <;> simp [joinStr]
        rw [e, hj]
        exact (ih s.length (by simp at hn; omega) s rfl).cons (by rw [occursAt_zero]; exact hp)

theorem Replaced.unique {old new : Str} {s r : Str} (h : Replaced old new s r) : ∀ {r'}, Replaced old new s r' → r = r' := by
  have occ : ∀ p q : Str, OccursAt old (p ++ old ++ q) p.length := fun p q => ⟨p, q, rfl, rfl⟩
  induction h with
  | none h =>
    intro r' h'
    cases h' with
    | none _ => rfl
    | @next p q r _ _ => exact absurd (occ p q) (h _)
  | @next p q r h1 h2 ih =>
    intro r' h'
    generalize hs : p ++ old ++ q = s at h' h1
    cases h' with
    | none h' => exact absurd (hs ▸ occ p q) (h' _)
    | @next p' q' r' h1' h2' =>
      have l1 : ¬p.length < p'.length := fun h => h1' _ h (hs ▸ occ p q)
      have l2 : ¬p'.length < p.length := fun h => h1 _ h (occ p' q')
      have e : p = p' := List.append_inj_left (by simpa using hs) (by omega)
      subst e
      have e' : q = q' := by simpa using hs
      subst e'
      rw [ih h2']

/-- The text by which a string or nil replaces -/
def replText : Val → Option Str
  | .scalar u => some u
  | .nil => some []
  | _ => none

/-- What replacing gives for strings, Lists of things to replace and Lists to replace in -/
inductive Replaces : Val → Val → Val → Val → Prop
  /-- all occurrences in a string -/
  | text {s t u r : Str} {new : Val} : t ≠ [] → replText new = some u → Replaced t u s r →
    Replaces (.scalar s) (.scalar t) new (.scalar r)
  /-- the empty string occurs before, between and after the characters -/
  | between {s u : Str} {new : Val} : replText new = some u →
    Replaces (.scalar s) (.scalar []) new (.scalar (u ++ s.flatMap fun c => c :: u))
  /-- several things to replace: one after the other, in the results of the previous replacements -/
  | done {s : Str} {new : Val} : (∃ u, replText new = some u) ∨ (∃ ns, new = .list ns) →
    Replaces (.scalar s) (.list []) new (.scalar s)
  | same {s r : Str} {o new w : Val} {os : List Val} : (∃ u, replText new = some u) → Replaces (.scalar s) o new (.scalar r) →
    Replaces (.scalar r) (.list os) new w → Replaces (.scalar s) (.list (o :: os)) new w
  | parallel {s r : Str} {o n w : Val} {os ns : List Val} : Replaces (.scalar s) o n (.scalar r) →
    Replaces (.scalar r) (.list os) (.list ns) w → Replaces (.scalar s) (.list (o :: os)) (.list (n :: ns)) w
  /-- if there are not enough replacements, the rest is deleted -/
  | missing {s r : Str} {o w : Val} {os : List Val} : Replaces (.scalar s) o .nil (.scalar r) →
    Replaces (.scalar r) (.list os) (.list []) w → Replaces (.scalar s) (.list (o :: os)) (.list []) w
  /-- in a List: in all items -/
  | nil {old new : Val} : old.isList = true ∨ old.isScalar = true → (∃ u, replText new = some u) ∨ (∃ ns, new = .list ns) →
    Replaces (.list []) old new (.list [])
  | cons {old new v w : Val} {l l' : List Val} : Replaces v old new w → Replaces (.list l) old new (.list l') →
    Replaces (.list (v :: l)) old new (.list (w :: l'))

theorem runs_opVal {fn : Fn} (h : isRaw fn = false) (vs : List Val) {s s1 : St X} {w : Val}
    (hr : Runs (fun R => valOp R fn vs) s (.ok (.v w), s1)) : Runs (fun R => opVal R fn vs) s (.ok w, s1) := by
  refine Runs.then (x := fun R => R.op fn (vs.map .val)) (f := fun r _ => needVal r) (a := .v w) ?_ (runs_pure.2 rfl)
  refine (runs_shift fun m => ?_).2 hr
  exact congrFun (callOp_vals (run X m) h vs) s

/-- Values that are not changed before replacing -/
theorem castRange_of {v : Val} (h : v.isRange = false) : castRange v = .ok v := by simp [castRange, h]

theorem replText_cases {new : Val} {u : Str} (h : replText new = some u) : new = .scalar u ∨ new = .nil ∧ u = [] := by
  cases new <;> simp [replText] at h
  · exact .inl (by rw [h])
  · exact .inr ⟨rfl, h⟩

theorem replace_same (R : Rec X) (s : Str) (os : List Val) (new : Val) (u : Str) (hu : replText new = some u) :
    opREPLACE R (.scalar s) (.list os) new =
      (foldL (fun r o => opVal R .REPLACE [r, o, new]) (.scalar s) os >>= fun v => pure (.v v)) := by
  rcases replText_cases hu with rfl | ⟨rfl, rfl⟩ <;> rfl

theorem replace_parallel (R : Rec X) (s : Str) (os ns : List Val) : opREPLACE R (.scalar s) (.list os) (.list ns) =
      (foldL (fun r (p : Val × Val) => opVal R .REPLACE [r, p.1, p.2]) (.scalar s) (os.zip ns) >>= fun v =>
        foldL (fun r o => opVal R .REPLACE [r, o, .nil]) v (os.drop ns.length) >>= fun v => pure (.v v)) := rfl

theorem Replaces.plainNew {v o n w : Val} (h : Replaces v o n w) : (∃ u, replText n = some u) ∨ ∃ ns, n = .list ns := by
  induction h with
  | text _ h _ => exact .inl ⟨_, h⟩
  | between h => exact .inl ⟨_, h⟩
  | done h => exact h
  | same h _ _ _ _ => exact .inl h
  | parallel _ _ _ _ => exact .inr ⟨_, rfl⟩
  | missing _ _ _ _ => exact .inr ⟨_, rfl⟩
  | nil _ h => exact h
  | cons _ _ ih _ => exact ih

theorem Replaces.plainOld {v o n w : Val} (h : Replaces v o n w) : o.isList = true ∨ o.isScalar = true := by
  induction h with
  | text _ _ _ => exact .inr rfl
  | between _ => exact .inr rfl
  | done _ => exact .inl rfl
  | same _ _ _ _ _ => exact .inl rfl
  | parallel _ _ _ _ => exact .inl rfl
  | missing _ _ _ _ => exact .inl rfl
  | nil h _ => exact h
  | cons _ _ ih _ => exact ih

theorem replace_each (R : Rec X) (l : List Val) {o n : Val} (ho : o.isList = true ∨ o.isScalar = true)
    (hn : (∃ u, replText n = some u) ∨ ∃ ns, n = .list ns) : opREPLACE R (.list l) o n =
      (mapL (fun x => opVal R .REPLACE [x, o, n]) l >>= fun vs => pure (.v (.list vs))) := by
  have hn' : n = .nil ∨ (∃ u, n = .scalar u) ∨ ∃ ns, n = .list ns := by
    rcases hn with ⟨u, hu⟩ | h
    · rcases replText_cases hu with rfl | ⟨rfl, rfl⟩
      · exact .inr (.inl ⟨_, rfl⟩)
      · exact .inl rfl
    · exact .inr (.inr h)
  rcases hn' with rfl | ⟨u, rfl⟩ | ⟨ns, rfl⟩ <;> cases o <;> first | rfl | (simp [Val.isList, Val.isScalar] at ho)

theorem replaces_runs {v o n w : Val} (h : Replaces v o n w) (s : St X) :
    Runs (fun R => opREPLACE R v o n) s (.ok (.v w), s) := by
  induction h with
  | @text s' t u r new ht hu hr =>
    have : replaceStr t u s' = r := (replaceStr_spec t u ht s').unique hr
    rcases replText_cases hu with rfl | ⟨rfl, rfl⟩ <;> exact (runs_pure.2 (by rw [← this]; rfl))
  | @between s' u new hu =>
    rcases replText_cases hu with rfl | ⟨rfl, rfl⟩ <;> exact (runs_pure.2 rfl)
  | @done s' new hu =>
    rcases hu with ⟨u, hu⟩ | ⟨ns, rfl⟩
    · simp only [replace_same _ _ _ _ u hu]
      exact (runs_pure.2 rfl)
    · simp only [replace_parallel, List.zip_nil_left, List.drop_nil]
      exact runs_pure.2 rfl
  | @same s' r o new w os hu h1 h2 ih1 ih2 =>
    obtain ⟨u, hu⟩ := hu
    simp only [replace_same _ _ _ _ u hu] at ih2 ⊢
    simp only [foldL, M.bind_assoc']
    exact (runs_opVal (fn := .REPLACE) rfl [_, _, _] ih1).then
      (f := fun v R => foldL (fun r o => opVal R .REPLACE [r, o, new]) v os >>= fun v => pure (Res.v v)) ih2
  | @parallel s' r o n w os ns h1 h2 ih1 ih2 =>
    simp only [replace_parallel] at ih2 ⊢
    simp only [List.zip_cons_cons, List.length_cons, List.drop_succ_cons, foldL, M.bind_assoc']
    exact (runs_opVal (fn := .REPLACE) rfl [_, _, _] ih1).then
      (f := fun v R => foldL (fun r (p : Val × Val) => opVal R .REPLACE [r, p.1, p.2]) v (os.zip ns) >>= fun v =>
        foldL (fun r o => opVal R .REPLACE [r, o, .nil]) v (os.drop ns.length) >>= fun v => pure (Res.v v)) ih2
  | @missing s' r o w os h1 h2 ih1 ih2 =>
    simp only [replace_parallel, List.zip_nil_right, List.length_nil, List.drop_zero, foldL, M.pure_bind', M.bind_assoc'] at ih2 ⊢
    exact (runs_opVal (fn := .REPLACE) rfl [_, _, _] ih1).then
      (f := fun v R => foldL (fun r o => opVal R .REPLACE [r, o, .nil]) v os >>= fun v => pure (Res.v v)) ih2
  | @nil old new h1 h2 =>
    simp only [replace_each _ _ h1 h2]
    exact runs_pure.2 rfl
  | @cons old new v w l l' h1 h2 ih1 ih2 =>
    simp only [replace_each _ _ h1.plainOld h1.plainNew, mapL, M.bind_assoc'] at ih2 ⊢
    refine (runs_opVal (fn := .REPLACE) rfl [_, _, _] ih1).then
      (f := fun y R => mapL (fun x => opVal R .REPLACE [x, old, new]) l >>= fun ys => pure (y :: ys) >>= fun vs => pure (Res.v (.list vs))) ?_
    have hm : Mono fun R : Rec X => mapL (fun x => opVal R .REPLACE [x, old, new]) l :=
      mono_mapL (f := fun x R => opVal R .REPLACE [x, old, new]) (fun x C _ _ h => Cong.opVal h _ _) l
    have := (runs_map hm fun vs => (Res.v (.list vs))).1 ih2
    obtain ⟨⟨e | vs, s1⟩, h3, h4⟩ := this
    · cases h4
    · simp only [Outcome.map, Prod.mk.injEq, Except.ok.injEq, Res.v.injEq, Val.list.injEq] at h4
      obtain ⟨rfl, rfl⟩ := h4
      exact h3.then (f := fun ys _ => pure (w :: ys) >>= fun vs => pure (Res.v (.list vs))) (runs_pure.2 rfl)

/-- `x R old new`: the value given by the rules of `Replaces` -/
theorem C79_replace (a b c : Tree) (s s1 s2 s3 : St X) (v o n w : Val) (ha : a.notOpr = true) (hb : b.notOpr = true)
    (hc : c.notOpr = true) (hv : Vals a s (.ok v, s1)) (ho : Vals b s1 (.ok o, s2)) (hn : Vals c s2 (.ok n, s3))
    (h : Replaces v o n w) : Vals (.node (op3 (s% "R")) [a, b, c]) s (.ok w, s3) := by
  have hd : (op3 (s% "R")).Direct := by decide +kernel
  have hf : (op3 (s% "R")).fn = .REPLACE := by decide +kernel
  refine .of_evals ((hd.evals (by simp [ha, hb, hc]) (MapEach.next (o := (.ok [o, n], s3)) hv (mapEach_two ho hn))).2 ⟨(.ok (.v w), s3), ?_, rfl⟩)
  rw [hf]
  exact replaces_runs h s3

/-- A Range counts as the List of its numbers, everything else as itself. -/
inductive Listed : Val → Val → Prop
  | range {a b : Int} : Listed (.range (some a) (some b)) (.list ((List.range (b - a).toNat).map fun k : Nat => ofInt (a + k)))
  | upTo {b : Int} : Listed (.range none (some b)) (.list ((List.range b.toNat).map fun k : Nat => ofInt k))
  | same {v : Val} : v.isRange = false → Listed v v

theorem intsFrom_range (a : Int) : ∀ n, intsFrom a n = (List.range n).map fun k : Nat => a + k := by
  intro n
  induction n generalizing a with
  | zero => rfl
  | succ n ih =>
    rw [intsFrom, ih, List.range_succ_eq_map, List.map_cons, List.map_map]
    simp only [Int.natCast_zero, Int.add_zero, List.cons.injEq, true_and]
    refine List.map_congr_left fun k _ => ?_
    simp only [Function.comp_apply, Nat.succ_eq_add_one, Int.natCast_add]
    omega

theorem castRange_listed {v w : Val} (h : Listed v w) : castRange v = .ok w := by
  cases h with
  | range =>
    show Except.ok (Val.list ((intsFrom _ _).map ofInt)) = _
    rw [intsFrom_range, List.map_map]
    rfl
  | @upTo b =>
    show Except.ok (Val.list ((intsFrom 0 (b - 0).toNat).map ofInt)) = _
    rw [intsFrom_range, List.map_map, Int.sub_zero]
    refine congrArg _ (congrArg _ (List.map_congr_left fun k _ => ?_))
    simp
  | same h => exact castRange_of h

theorem Listed.notRange {v w : Val} (h : Listed v w) : w.isRange = false := by
  cases h with
  | range => rfl
  | upTo => rfl
  | same h => exact h

/-- Ranges as operands of `R` are Lists. -/
theorem C79_range (a b c : Tree) (s s1 s2 s3 : St X) (v o n v' o' n' w : Val) (ha : a.notOpr = true) (hb : b.notOpr = true)
    (hc : c.notOpr = true) (hv : Vals a s (.ok v, s1)) (ho : Vals b s1 (.ok o, s2)) (hn : Vals c s2 (.ok n, s3))
    (hv' : Listed v v') (ho' : Listed o o') (hn' : Listed n n') (h : Replaces v' o' n' w) :
    Vals (.node (op3 (s% "R")) [a, b, c]) s (.ok w, s3) := by
  have hd : (op3 (s% "R")).Direct := by decide +kernel
  have hf : (op3 (s% "R")).fn = .REPLACE := by decide +kernel
  refine .of_evals ((hd.evals (by simp [ha, hb, hc]) (MapEach.next (o := (.ok [o, n], s3)) hv (mapEach_two ho hn))).2 ⟨(.ok (.v w), s3), ?_, rfl⟩)
  rw [hf]
  have e : ∀ R : Rec X, opREPLACE R v o n = opREPLACE R v' o' n' := by
    intro R
    simp only [opREPLACE, castRange_listed hv', castRange_listed ho', castRange_listed hn', castRange_of hv'.notRange, castRange_of ho'.notRange,
      castRange_of hn'.notRange]
  show Runs (fun R => opREPLACE R v o n) s3 _
  simp only [e]
  exact replaces_runs h s3

/-- Every combination of strings, nil and Lists of strings has a result. -/
theorem C79_total (s t : Str) (new : Val) (u : Str) (h : replText new = some u) : ∃ w, Replaces (.scalar s) (.scalar t) new w := by
  by_cases ht : t = []
  · subst ht
    exact ⟨_, .between h⟩
  · exact ⟨_, .text ht h (replaceStr_spec t u ht s)⟩

theorem C79_total_several (os ns : List Str) (s : Str) (new : Val) (u : Str) (h : replText new = some u) :
    (∃ r, Replaces (.scalar s) (strs os) new (.scalar r)) ∧ ∃ r, Replaces (.scalar s) (strs os) (strs ns) (.scalar r) := by
  have one : ∀ (s t : Str) (new : Val), (∃ u, replText new = some u) → ∃ r, Replaces (.scalar s) (.scalar t) new (.scalar r) := by
    rintro s t new ⟨u, h⟩
    by_cases ht : t = []
    · subst ht
      exact ⟨_, .between h⟩
    · exact ⟨_, .text ht h (replaceStr_spec t u ht s)⟩
  induction os generalizing s ns with
  | nil => exact ⟨⟨s, .done (.inl ⟨u, h⟩)⟩, s, .done (.inr ⟨_, rfl⟩)⟩
  | cons o os ih =>
    constructor
    · obtain ⟨r, hr⟩ := one s o new ⟨u, h⟩
      obtain ⟨r', hr'⟩ := (ih [] r).1
      exact ⟨r', .same ⟨u, h⟩ hr hr'⟩
    · cases ns with
      | nil =>
        obtain ⟨r, hr⟩ := one s o .nil ⟨[], rfl⟩
        obtain ⟨r', hr'⟩ := (ih [] r).2
        exact ⟨r', .missing hr hr'⟩
      | cons n ns =>
        obtain ⟨r, hr⟩ := one s o (.scalar n) ⟨n, rfl⟩
        obtain ⟨r', hr'⟩ := (ih ns r).2
        exact ⟨r', .parallel hr hr'⟩

/-- `RM` of a string in a string: the occurrences are replaced by nothing; the empty string and nil remove nothing. -/
theorem C79_remove_string (s t : Str) :
    ∃ r, opREMOVE X (.scalar s) (.scalar t) = .ok (.scalar r) ∧ (t ≠ [] → Replaced t [] s r) ∧ (t = [] → r = s) ∧
      opREMOVE X (.scalar s) .nil = .ok (.scalar s) := by
  refine ⟨replaceStr t [] s, rfl, fun h => replaceStr_spec t [] h s, ?_, rfl⟩
  rintro rfl
  simp only [replaceStr, List.isEmpty_nil, if_true, List.nil_append]
  induction s with
  | nil => rfl
  | cons c s ih => rw [List.flatMap_cons, ih]; rfl

/-- Several strings are removed one after the other. -/
theorem C79_remove_several (s t : Str) (ts : List Str) :
    opREMOVE X (.scalar s) (strs []) = .ok (.scalar s) ∧
    ∀ r, opREMOVE X (.scalar s) (.scalar t) = .ok r → opREMOVE X (.scalar s) (strs (t :: ts)) = opREMOVE X r (strs ts) := by
  refine ⟨rfl, ?_⟩
  intro r h
  have : r = .scalar (replaceStr t [] s) := by
    have : opREMOVE X (.scalar s) (.scalar t) = .ok (.scalar (replaceStr t [] s)) := rfl
    rw [this] at h
    exact (Except.ok.inj h).symm
  subst this
  simp only [opREMOVE, strs, List.map_cons, removeFrom, removeFroms, bind, Except.bind]

/-- `RM` in a List or Range keeps, in order, the items that are not equal to the second operand. -/
theorem C79_remove_items (v x : Val) (l : List Val) (hv : v.isScalar = false) (hi : v.isIterable = true) (hl : v.items = .ok l)
    (hx : x.plain = true) : opREMOVE X v x = .ok (.list (l.filter fun y => decide (x ≠ y))) := by
  have h1 : opREMOVE X v x = (do return .list ((← v.pyList).filter fun y => !pyEq x y)) := by
    cases v <;> first | (cases hv; done) | (simp only [opREMOVE, hi, if_true])
  have h2 : v.pyList = .ok l := by
    rw [Val.pyList, items_iter hl]
  rw [h1, h2]
  simp only [bind, Except.bind, pure, Except.pure]
  congr 3
  funext y
  have := pyEq_plain x y hx
  by_cases e : x = y
  · subst e
    simp [this.2 rfl]
  · have : pyEq x y = false := Bool.eq_false_iff.2 fun h => e (this.1 h)
    simp [this, e]

example : Listed (.range (some 1) (some 3)) (.list [ofInt 1, ofInt 2]) := .range (a := 1) (b := 3)
example : toyOut (s% "P\"a0b1c2d3\"R,3'xP\"a0b1c2d3\"R(1,3)(,2)P(8,12)R1'x") [] [] =
    some (s% "axbxcxd3\na0b0c1d3\n89x0xx\n89x0xx\n") := by decide +kernel
example : Replaces (.scalar (s% "aaabc")) (strs [s% "aa", s% "b"]) (strs [s% "b"]) (.scalar (s% "ac")) :=
  .parallel (.text (by decide) rfl (replaceStr_spec (s% "aa") (s% "b") (by decide) (s% "aaabc")))
    (.missing (.text (by decide) rfl (replaceStr_spec (s% "b") [] (by decide) (s% "babc"))) (.done (.inr ⟨_, rfl⟩)))
example : toyOut (s% "P\"aaabc\"R\"aa\"'xP\"abc\"R[\"a\"\"b\"][1 2]P[\"ab\"\"ba\"]R'a4P\"banana\"RM\"an\"P[1 2 1 3]RM1") [] [] =
    some (s% "xabc\n12c\n4bb4\nba\n23\n23\n") := by decide +kernel

end Pip
