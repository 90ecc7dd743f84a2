import Verif.Props.Regexes
import Verif.Props.Maps
import Verif.Lemmas.RexSub
/-!
# C97: replacing matches
-/

namespace Pip
open Re Rex

variable {X : Ext} {db : CharDb}

/-- A regular expression that is supported, with a number of groups -/
def Groups (r : Str) (n : Nat) : Prop := ∃ c, compileAll r = .ok c ∧ c.groups = n + 1

theorem compileAll_groups {r : Str} {c : Compiled} (h : compileAll r = .ok c) : 1 ≤ c.groups → ∃ n, Groups r n :=
  fun h1 => ⟨c.groups - 1, c, h, by omega⟩

/-- The texts of the grammar are supported. -/
theorem groups_alts {f : Flags} {r : Str} {m : Meaning} (h : Alts (reSem db f) r m) : ∃ n, Groups r n := by
  obtain ⟨x, C, h1, h2, h3⟩ := parse_alts_ok h (4 * r.length + 36) allCtx (s% ")") (by omega) (by rintro _ _ ⟨⟩; rfl)
  have h4 : 2 ≤ C.next := h3.next
  exact ⟨C.next - 2, _, compileAll_of (noRefs_alts h _ _ (.chr (by decide) .nil)) h1, by show C.next - 1 = _; omega⟩

/-- Supported regular expressions have a list of matches. -/
theorem Groups.finditer {r : Str} {n : Nat} (h : Groups r n) (X : Ext) (db : CharDb) (f : Flags) (s : Str) :
    ∃ ms, (X.withRe db).finditer r f s = .ok ms ∧ ∀ q ∈ ms, q.groups.length = n := by
  obtain ⟨c, hc, hg⟩ := h
  refine ⟨(c.all ⟨db, f⟩ s).map fun x => mkMatch c.groups s x.1 x.2, ?_, ?_⟩
  · show reCall (compileAll r >>= _) _ = _
    rw [hc]
    rfl
  · intro q hq
    obtain ⟨x, _, rfl⟩ := List.mem_map.1 hq
    show ((List.range (c.groups - 1)).map _).length = n
    rw [List.length_map, List.length_range]
    omega

theorem withRe_sub {r : Str} {c : Compiled} (hc : compileAll r = .ok c) (X : Ext) (db : CharDb) (f : Flags) (s t w : Str)
    (h : c.sub ⟨db, f⟩ t s = .ok w) : (X.withRe db).sub r f t s = .ok w := by
  show reCall (compileAll r >>= fun c => c.sub ⟨db, f⟩ t s) _ = _
  rw [hc]
  show reCall (c.sub ⟨db, f⟩ t s) _ = _
  rw [h]
  rfl

theorem withRe_finditer {r : Str} {c : Compiled} (hc : compileAll r = .ok c) (X : Ext) (db : CharDb) (f : Flags) (s : Str) :
    (X.withRe db).finditer r f s = .ok ((c.all ⟨db, f⟩ s).map fun x => mkMatch c.groups s x.1 x.2) := by
  show reCall (compileAll r >>= _) _ = _
  rw [hc]
  rfl

theorem replace_vals {a b c : Tree} {s s1 s2 s3 : St X} {v w u x : Val} (ha : a.notOpr = true) (hb : b.notOpr = true) (hc : c.notOpr = true)
    (hv : Vals a s (.ok v, s1)) (hw : Vals b s1 (.ok w, s2)) (hu : Vals c s2 (.ok u, s3))
    (h : ∀ R : Rec X, opREPLACE R v w u s3 = (.ok (.v x), s3)) : Vals (.node (op3 (s% "R")) [a, b, c]) s (.ok x, s3) := by
  have ho : (op3 (s% "R")).Direct := by decide +kernel
  have h3 : MapEach Vals [a, b, c] s (.ok [v, w, u], s3) := MapEach.next (o := (.ok [w, u], s3)) hv (mapEach_two hw hu)
  refine .of_evals ((ho.evals (by simp [ha, hb, hc]) h3).2 ⟨(.ok (.v x), s3), ?_, rfl⟩)
  rw [show (op3 (s% "R")).fn = .REPLACE by decide +kernel]
  exact (runs_eq (y := fun _ => pure (.v x)) fun R => h R).2 (runs_pure.2 rfl)

/-- C97: `s R p t` with a string `t` is `s` with every match replaced by `t` as it is: backslashes and ampersands have no meaning in it. -/
theorem C97_string (a b c : Tree) (s s1 s2 s3 : St (X.withRe db)) (str r t : Str) (f : Flags) (n : Nat)
    (ha : a.notOpr = true) (hb : b.notOpr = true) (hc : c.notOpr = true)
    (hv : Vals a s (.ok (.scalar str), s1)) (hw : Vals b s1 (.ok (.pattern r f), s2)) (hu : Vals c s2 (.ok (.scalar t), s3)) (hg : Groups r n) :
    ∃ ms, (X.withRe db).finditer r f str = .ok ms ∧
      Vals (.node (op3 (s% "R")) [a, b, c]) s (.ok (.scalar (replaced (fun _ => t) str 0 ms)), s3) := by
  obtain ⟨k, hk, _⟩ := hg
  refine ⟨_, withRe_finditer hk X db f str, replace_vals ha hb hc hv hw hu fun R => ?_⟩
  show (M.lift ((X.withRe db).sub r f (replaceStr (s% "\\") (s% "\\\\") t) str) >>= fun t => pure (Res.v (.scalar t))) s3 = _
  rw [withRe_sub hk X db f str _ _ (sub_literal ⟨db, f⟩ k t str)]
  rfl

/-- `s RM p` removes every match. -/
theorem C97_remove (str r : Str) (f : Flags) (n : Nat) (hg : Groups r n) :
    ∃ ms, (X.withRe db).finditer r f str = .ok ms ∧
      opREMOVE (X.withRe db) (.scalar str) (.pattern r f) = .ok (.scalar (replaced (fun _ => []) str 0 ms)) := by
  obtain ⟨k, hk, _⟩ := hg
  refine ⟨_, withRe_finditer hk X db f str, ?_⟩
  have h : k.sub ⟨db, f⟩ [] str = _ := sub_literal ⟨db, f⟩ k [] str
  show ((X.withRe db).sub r f [] str >>= fun t => pure (Val.scalar t)) = _
  rw [withRe_sub hk X db f str _ _ h]
  rfl

/-- With a Pattern as the third operand, `&` stands for the match, `\1` and so on for the groups. -/
theorem C97_pattern (a b c : Tree) (s s1 s2 s3 : St (X.withRe db)) (str r t : Str) (f f' : Flags) (n : Nat) (g : Match → Str)
    (ha : a.notOpr = true) (hb : b.notOpr = true) (hc : c.notOpr = true)
    (hv : Vals a s (.ok (.scalar str), s1)) (hw : Vals b s1 (.ok (.pattern r f), s2)) (hu : Vals c s2 (.ok (.pattern t f'), s3))
    (hg : Groups r n) (ht : Template n t g) :
    ∃ ms, (X.withRe db).finditer r f str = .ok ms ∧
      Vals (.node (op3 (s% "R")) [a, b, c]) s (.ok (.scalar (replaced g str 0 ms)), s3) := by
  obtain ⟨k, hk, hn⟩ := hg
  obtain ⟨h1, h2⟩ := compileAll_ok hk
  refine ⟨_, withRe_finditer hk X db f str, replace_vals ha hb hc hv hw hu fun R => ?_⟩
  show (M.lift ((X.withRe db).sub r f (asReplacement t) str) >>= fun t => pure (Res.v (.scalar t))) s3 = _
  rw [withRe_sub hk X db f str _ _ (sub_template h1 h2 hn ht str)]
  rfl

/-- The string with every match replaced by the given text -/
def replacedBy (s : Str) : Nat → List (Match × Str) → Str
  | i, [] => s.drop i
  | i, (q, t) :: l => (s.take q.start).drop i ++ t ++ replacedBy s q.stop l

theorem spliceMatches_eq (s : Str) : ∀ (l : List (Match × Str)) (i : Nat), spliceMatches s i l = replacedBy s i l
  | [], _ => rfl
  | (q, t) :: l, i => by rw [spliceMatches, replacedBy, spliceMatches_eq s l, List.drop_take]

attribute [local irreducible] assignRegexVars

/-- With a function as the third operand, it is called for every match, from left to right, with the match and its groups, the
match variables set; the match is replaced by what it returns. -/
theorem C97_function (a b c : Tree) (s s1 s2 s3 : St X) (str r : Str) (f : Flags) (st : List Tree) (ret : Tree) (ms : List Match)
    (ha : a.notOpr = true) (hb : b.notOpr = true) (hc : c.notOpr = true)
    (hv : Vals a s (.ok (.scalar str), s1)) (hw : Vals b s1 (.ok (.pattern r f), s2)) (hu : Vals c s2 (.ok (.block st ret), s3))
    (hm : X.finditer r f str = .ok ms) (out : Outcome X Res) (he : Evals (.node (op3 (s% "R")) [a, b, c]) s out) :
    ∃ r : Outcome X (List Val), MapEach (CallsMatch (.block st ret) str) ms s3 r ∧
      out = died (r.map fun vs => .v (.scalar (replacedBy str 0 (ms.zip (vs.map fun v => v.str X.fmt))))) := by
  have ho : (op3 (s% "R")).Direct := by decide +kernel
  have h3 : MapEach Vals [a, b, c] s (.ok [.scalar str, .pattern r f, .block st ret], s3) :=
    MapEach.next (o := (.ok [.pattern r f, .block st ret], s3)) hv (mapEach_two hw hu)
  rw [ho.evals (by simp [ha, hb, hc]) h3, show (op3 (s% "R")).fn = .REPLACE by decide +kernel] at he
  have hmono : ∀ m : Match, Mono fun R : Rec X => assignRegexVars str m >>= fun _ => callVal R (some (.block st ret)) m.vals >>=
      fun v => pure (m, v.str X.fmt) := by
    intro m C _ _ h
    exact C.bind (Cong.assignRegexVars _ _) fun _ => C.bind (Cong.callVal h _ _) fun _ => C.pure _
  have e : ∀ R : Rec X, valOp R .REPLACE [.scalar str, .pattern r f, .block st ret] = (M.lift (X.finditer r f str) >>= fun ms =>
      mapL (fun m => assignRegexVars str m >>= fun _ => callVal R (some (.block st ret)) m.vals >>= fun v => pure (m, v.str X.fmt)) ms >>=
        fun ps => pure (.v (.scalar (spliceMatches str 0 ps)))) := fun _ => rfl
  obtain ⟨o, h4, rfl⟩ := he
  simp only [e, hm] at h4
  obtain ⟨r', h5, rfl⟩ := (runs_map (mono_mapL hmono ms) _).1 h4
  have h6 := (runs_mapL hmono ms).1 h5
  have key : ∀ {l : List Match} {s : St X} {r' : Outcome X (List (Match × Str))},
      MapEach (fun m => Runs fun R : Rec X => assignRegexVars str m >>= fun _ => callVal R (some (.block st ret)) m.vals >>=
        fun v => pure (m, v.str X.fmt)) l s r' →
      ∃ r : Outcome X (List Val), MapEach (CallsMatch (.block st ret) str) l s r ∧
        r' = r.map fun vs => l.zip (vs.map fun v => v.str X.fmt) := by
    have one : ∀ {m : Match} {s : St X} {o : Outcome X (Match × Str)}, Runs (fun R : Rec X => assignRegexVars str m >>= fun _ =>
        callVal R (some (.block st ret)) m.vals >>= fun v => pure (m, v.str X.fmt)) s o →
        ∃ o' : Outcome X Val, CallsMatch (.block st ret) str m s o' ∧ o = o'.map fun v => (m, v.str X.fmt) := by
      intro m s o h
      obtain ⟨s', h7, h8⟩ := match_vars str m s
      obtain ⟨o', h9, rfl⟩ := (runs_map (X := X) (x := fun R => callVal R (some (.block st ret)) m.vals)
        (fun C _ _ h => Cong.callVal h _ _) _).1 ((runs_bind_ok (f := fun _ R => callVal R (some (.block st ret)) m.vals >>=
        fun v => pure (m, v.str X.fmt)) h7).1 h)
      exact ⟨o', ⟨s', h8, h9⟩, rfl⟩
    intro l s r' h
    induction h with
    | nil => exact ⟨_, .nil, rfl⟩
    | next h1 _ ih =>
      obtain ⟨o', h2, h3⟩ := one h1
      obtain ⟨r, h4, rfl⟩ := ih
      obtain ⟨x, t⟩ := o'
      cases x with
      | error e => cases h3
      | ok v =>
        cases h3
        refine ⟨_, .next h2 h4, ?_⟩
        obtain ⟨y, t'⟩ := r
        cases y <;> rfl
    | fail h1 =>
      obtain ⟨o', h2, h3⟩ := one h1
      obtain ⟨x, t⟩ := o'
      cases x with
      | error e =>
        cases h3
        exact ⟨_, .fail h2, rfl⟩
      | ok v => cases h3
  obtain ⟨r, h7, rfl⟩ := key h6
  refine ⟨r, h7, ?_⟩
  obtain ⟨y, t'⟩ := r
  cases y with
  | error e => rfl
  | ok vs => simp only [Outcome.map, spliceMatches_eq]

/-- A string as the second operand, with a Pattern or a function as the third, is searched for as it is. -/
theorem C97_text (str t r : Str) (new : Val) (hn : new.isPattern = true ∨ new.isBlock = true) (h : opREGEX (.scalar t) = .ok (.pattern r {}))
    (R : Rec X) : valOp R .REPLACE [.scalar str, .scalar t, new] = valOp R .REPLACE [.scalar str, .pattern r {}, new] := by
  cases new <;> simp [Val.isPattern, Val.isBlock] at hn
  all_goals
    cases h
    rfl

example : Groups (s% "(a)(b|c)") 2 := ⟨_, rfl, rfl⟩
example : Template 2 (s% "<&,\\2>\\n") fun q => '<' :: (q.all ++ ',' :: (q.groupText 2 ++ '>' :: '\n' :: [])) :=
  .chr (by decide) (by decide) (.whole (.chr (by decide) (by decide) (.group (k := 2) (t := s% ">\\n") (by decide) (by decide) (by decide)
    (by rintro _ _ ⟨⟩; rfl) (.chr (by decide) (by decide) (.control (by decide) .nil)))))

example : reOut (s% "\"a-bc-d\"R`\\w+`\"\\1\"") = some (s% "\\1-\\1-\\1\n") := by decide +kernel
example : reOut (s% "\"a-bc-d\"RM`\\w`") = some (s% "--\n") := by decide +kernel
example : reOut (s% "\"ab-cd\"R`(\\w)(\\w)`{c.b.a}") = some (s% "baab-dccd\n") := by decide +kernel
example : reOut (s% "\"ab-cd\"R`(\\w)(\\w)``\\2\\1&\\&`") = some (s% "baab&-dccd&\n") := by decide +kernel
example : reOut (s% "\"a.b.c\"R\".\"`[&]`") = some (s% "a[.]b[.]c\n") := by decide +kernel
example : reOut (s% "\"a.b\"R`[.]``<\\->`") = some (s% "a<\\->b\n") := by decide +kernel

end Pip
