import Verif.Lemmas.ReprParse
import Verif.Lemmas.Direct
import Verif.Lemmas.Vars
/-! Evaluating the canonical texts of data. -/

set_option linter.unusedSimpArgs false

namespace Pip
open Rgx Scan PP
open Parse (escaped group attach interp interpName escTok)
variable {X : Ext}

/-! ### Interpolation -/

theorem interpName_le {r : Str} {nm r' : Str} (h : interpName r = some (nm, r')) : r'.length ≤ r.length := by
  cases r with
  | nil => simp [interpName] at h
  | cons c r =>
    simp only [interpName] at h
    split at h
    · simp at h; simp [← h.2]
    · split at h
      · split at h
        · split at h
          · simp at h; rw [← h.2]; simp; omega
          · simp at h; rw [← h.2]; simp
        · simp at h; rw [← h.2]; simp
      · cases h

theorem interp_fuel : ∀ (m n : Nat) (s : Str), s.length ≤ n → s.length ≤ m → interp n s = interp m s
  | _, _, [], _, _ => by rename_i m n; cases m <;> cases n <;> rfl
  | m + 1, n + 1, c :: r, h1, h2 => by
    simp only [List.length_cons] at h1 h2
    simp only [interp]
    have : ∀ nm r', (if c = '\\' then interpName r else none) = some (nm, r') → r'.length ≤ r.length := by
      intro nm r' h
      split at h
      · exact interpName_le h
      · cases h
    cases hh : (if c = '\\' then interpName r else none) with
    | none => simp only; rw [interp_fuel m n r (by omega) (by omega)]
    | some p =>
      obtain ⟨nm, r'⟩ := p
      have := this nm r' hh
      simp only; rw [interp_fuel m n r' (by omega) (by omega)]
/-- A piece of the doubled text, with the backslash of the following name -/
def lastLit (l : Str) (ps : List (Str × Str)) : Str := dbl l ++ (if ps = [] then [] else s% "\\")

def dblPairs : List (Str × Str) → List (Str × Str)
  | [] => []
  | (n, l) :: ps => (n, lastLit l ps) :: dblPairs ps

theorem interpName_dbl (r : Str) : interpName (dbl r) = (interpName r).map fun p => (p.1, dbl p.2) := by
  have hu : ∀ c : Char, isUpperAZ c = true → c ≠ '\\' := by rintro c h rfl; exact absurd h (by decide)
  have hl : ∀ c : Char, (isLowerAZ c || c == '_') = true → c ≠ '\\' := by rintro c h rfl; exact absurd h (by decide)
  cases r with
  | nil => rfl
  | cons c r =>
    by_cases hc : c = '\\'
    · subst hc; rw [dbl_back]; rfl
    · rw [dbl_other hc]
      simp only [interpName]
      by_cases h1 : (isLowerAZ c || c == '_') = true
      · simp only [h1, if_true]; rfl
      · simp only [h1, Bool.false_eq_true, if_false]
        by_cases h2 : isUpperAZ c = true
        · simp only [h2, if_true]
          cases r with
          | nil => rfl
          | cons d r =>
            by_cases hd : d = '\\'
            · subst hd; rw [dbl_back]
              simp only [show isUpperAZ '\\' = false by decide, Bool.false_eq_true, if_false, Option.map_some, dbl_back]
            · rw [dbl_other hd]
              simp only
              by_cases h3 : isUpperAZ d = true
              · simp only [h3, if_true]; rfl
              · simp only [h3, Bool.false_eq_true, if_false, Option.map_some, dbl_other hd]
        · simp only [h2, Bool.false_eq_true, if_false]; rfl

theorem dbl_len (s : Str) : s.length ≤ (dbl s).length := by
  induction s with
  | nil => simp [dbl]
  | cons c s ih =>
    by_cases hc : c = '\\'
    · subst hc; rw [dbl_back]; simp; omega
    · rw [dbl_other hc]; simp; omega

theorem interp_dbl : ∀ (m : Nat) (s : Str) (n : Nat), s.length ≤ m → (dbl s).length ≤ n →
    interp n (dbl s) = (lastLit (interp m s).1 (interp m s).2, dblPairs (interp m s).2)
  | m, [], n, _, _ => by cases m <;> cases n <;> rfl
  | m + 1, c :: r, n, h1, h2 => by
    simp only [List.length_cons] at h1
    by_cases hc : c = '\\'
    · subst hc
      rw [dbl_back] at h2 ⊢
      obtain ⟨n, rfl⟩ : ∃ k, n = k + 2 := ⟨n - 2, by simp at h2; omega⟩
      simp only [List.length_cons] at h2
      have e0 : interpName ('\\' :: dbl r) = none := rfl
      simp only [interp, if_true, e0, interpName_dbl]
      cases hn : interpName r with
      | none =>
        simp only [Option.map_none]
        rw [interp_dbl m r n (by omega) (by omega)]
        simp only [lastLit, dbl_back, List.cons_append]
      | some p =>
        obtain ⟨nm, r'⟩ := p
        simp only [Option.map_some]
        have h3 := interpName_le hn
        have h4 := interpName_le (show interpName (dbl r) = some (nm, dbl r') by rw [interpName_dbl, hn]; rfl)
        rw [interp_dbl m r' n (by omega) (by omega)]
        simp [lastLit, dbl_nil, dblPairs]
    · rw [dbl_other hc] at h2 ⊢
      obtain ⟨n, rfl⟩ : ∃ k, n = k + 1 := ⟨n - 1, by simp at h2; omega⟩
      simp only [List.length_cons] at h2
      simp only [interp, if_neg hc]
      rw [interp_dbl m r n (by omega) (by omega)]
      simp only [lastLit, dbl_other hc, List.cons_append]

/-- Without a backslash before a letter or underscore, the text is one piece. -/
theorem interp_plain : ∀ (n : Nat) (s : Str), s.length ≤ n →
    (∀ a c b, s = a ++ '\\' :: c :: b → isNameStart c = false) → interp n s = (s, [])
  | n, [], _, _ => by cases n <;> rfl
  | n + 1, c :: r, hn, h => by
    simp only [List.length_cons] at hn
    have : (if c = '\\' then interpName r else none) = none := by
      split
      · rename_i hc; subst hc
        cases r with
        | nil => rfl
        | cons d r =>
          have := h [] d r rfl
          simp only [isNameStart, Bool.or_eq_false_iff] at this
          simp [interpName, this]
      · rfl
    simp only [interp, this]
    rw [interp_plain n r (by omega) fun a d b e => h (c :: a) d b (by rw [e]; rfl)]

/-- With one, there are several pieces. -/
theorem interp_some {c : Char} {b : Str} : ∀ (n : Nat) (a : Str), (a ++ '\\' :: c :: b).length ≤ n → isNameStart c = true →
    (interp n (a ++ '\\' :: c :: b)).2 ≠ []
  | 0, a, h, _ => by simp at h
  | n + 1, [], h, hc => by
    obtain ⟨p, hp⟩ : ∃ p, interpName (c :: b) = some p := by
      simp only [isNameStart, Bool.or_eq_true] at hc
      simp only [interpName]
      split
      · exact ⟨_, rfl⟩
      · rename_i h
        have : isUpperAZ c = true := by
          rcases hc with hc | hc
          · exact absurd (by simpa using hc) h
          · exact hc
        rw [if_pos this]
        split
        · split <;> exact ⟨_, rfl⟩
        · exact ⟨_, rfl⟩
    simp only [List.nil_append, interp, if_true, hp]
    simp
  | n + 1, d :: a, h, hc => by
    simp only [List.cons_append, List.length_cons] at h
    have ih := interp_some (c := c) (b := b) n a (by omega) hc
    simp only [List.cons_append, interp]
    cases hh : (if d = '\\' then interpName (a ++ '\\' :: c :: b) else none) with
    | none => exact ih
    | some p => simp

/-- What the pieces of a text give -/
def glue (g : Str → Str) : List (Str × Str) → Str
  | [] => []
  | (n, l) :: ps => '\\' :: (g n ++ (l ++ glue g ps))

theorem interpName_before {n r : Str} (h : NameBefore n r) : interpName (n ++ r) = some (n, r) := by
  have hul : ∀ c, isUpperAZ c = true → (isLowerAZ c || c == '_') = false := by
    intro c h
    simp only [isUpperAZ, Bool.and_eq_true, decide_eq_true_eq] at h
    rw [Bool.or_eq_false_iff]
    constructor
    · rw [Bool.eq_false_iff]; intro hl
      simp only [isLowerAZ, Bool.and_eq_true, decide_eq_true_eq] at hl
      have h1 := h.2; have h2 := hl.1
      have e1 : 'Z'.toNat = 90 := rfl
      have e2 : 'a'.toNat = 97 := rfl
      omega
    · rw [Bool.eq_false_iff]; intro he
      simp at he; subst he
      exact absurd h (by decide)
  rcases h with ⟨c, rfl, hc⟩ | ⟨c, d, rfl, hc, hd⟩ | ⟨c, rfl, hc, hr⟩
  · have : (isLowerAZ c || c == '_') = true := by
      rcases hc with h | rfl
      · simp [h]
      · decide
    simp [interpName, this]
  · have := hul c hc
    simp only [List.cons_append, List.nil_append, interpName, this, Bool.false_eq_true, if_false, hc, if_true, hd]
  · have := hul c hc
    simp only [List.cons_append, List.nil_append, interpName, this, Bool.false_eq_true, if_false, hc, if_true]
    cases r with
    | nil => rfl
    | cons d r =>
      have := hr d (by simp)
      simp [this]

theorem interpolated_interp {g : Str → Str} {s u : Str} (h : Interpolated g s u) : ∀ n, s.length ≤ n →
    u = (interp n s).1 ++ glue g (interp n s).2 ∧ ∀ p ∈ (interp n s).2, p.1 ≠ s% "q" ∧ p.1 ≠ s% "r" ∧ p.1.length ≤ 2 := by
  induction h with
  | nil => intro n _; cases n <;> simp [interp, glue]
  | @name nm r r' hb hq hr _ ih =>
    intro n hn
    obtain ⟨n, rfl⟩ : ∃ k, n = k + 1 := ⟨n - 1, by simp at hn; omega⟩
    simp at hn
    obtain ⟨h1, h2⟩ := ih n (by omega)
    simp only [interp, if_true, interpName_before hb]
    refine ⟨by simp only [glue, List.nil_append]; rw [← h1], ?_⟩
    intro p hp
    rcases List.mem_cons.1 hp with rfl | hp
    · refine ⟨hq, hr, ?_⟩
      rcases hb with ⟨c, rfl, _⟩ | ⟨c, d, rfl, _⟩ | ⟨c, rfl, _⟩ <;> simp
    · exact h2 p hp
  | @other c r r' hc _ ih =>
    intro n hn
    obtain ⟨n, rfl⟩ : ∃ k, n = k + 1 := ⟨n - 1, by simp at hn; omega⟩
    simp at hn
    obtain ⟨h1, h2⟩ := ih n (by omega)
    have : (if c = '\\' then interpName r else none) = none := by
      split
      · rename_i e
        cases r with
        | nil => rfl
        | cons d r =>
          have := hc e d (by simp)
          simp only [isNameStart, Bool.or_eq_false_iff] at this
          simp [interpName, this]
      · rfl
    simp only [interp, this]
    exact ⟨by rw [List.cons_append, ← h1], h2⟩

/-! ### The program in the canonical text -/

theorem data_reads {v w : Val} (h : ReadsBack X v w) : Data v := by
  induction h with
  | text => exact .scalar _
  | neg => exact .scalar _
  | pattern f h => exact .pattern f h
  | range => exact .range _ _
  | nil => exact .nil
  | empty => exact .list _ (by simp)
  | item _ _ h1 h2 =>
    refine .list _ fun v hv => ?_
    rcases List.mem_cons.1 hv with rfl | hv
    · exact h1
    · exact data_list h2 v hv

theorem repr_head {v : Val} (h : Data v) : ∃ c cs, v.repr = c :: cs ∧ isSpace c = false ∧ c ≠ ';' := by
  cases h with
  | scalar s =>
    rw [Val.repr, reprScalar_eq]
    split
    · rename_i hw
      rcases (wholeNum_iff s).1 hw with h | ⟨r, rfl, h⟩
      · obtain ⟨c, cs, rfl, hc, _⟩ := (numLit_iff _).1 h
        exact ⟨c, cs, rfl, isDigit_space hc, digit_ne hc ';' (by decide)⟩
      · exact ⟨'-', r, rfl, by decide, by decide⟩
    · split
      · exact ⟨'\\', _, rfl, by decide, by decide⟩
      · exact ⟨'"', _, rfl, by decide, by decide⟩
  | @pattern r f _ =>
    rw [Val.repr]
    obtain ⟨a, i, m, s⟩ := f
    cases a <;> cases i <;> cases m <;> cases s <;> exact ⟨_, _, rfl, by decide, by decide⟩
  | range lo hi => exact ⟨'(', reprBound lo ++ s% "," ++ reprBound hi ++ s% ")", by simp [Val.repr], by decide, by decide⟩
  | nil => exact ⟨'(', [')'], by simp [Val.repr], by decide, by decide⟩
  | list l _ => exact ⟨'[', joinStr (s% ";") (Val.reprs l) ++ s% "]", by simp [Val.repr], by decide, by decide⟩

theorem scan_repr {v : Val} (h : Data v) : scan (v.repr ++ s% "\n") = .ok (emb (valToks v)) := by
  obtain ⟨c, cs, e, hc, hs⟩ := repr_head h
  have h1 : tokenize (v.repr ++ s% "\n" ++ s% "\n") = .ok ((valToks v).map some) := by
    rw [tokenize_eq]
    have e1 : '\n' :: (v.repr ++ s% "\n" ++ s% "\n") = '\n' :: c :: (cs ++ s% "\n\n") := by simp [e]
    have e2 : c :: (cs ++ s% "\n\n") = v.repr ++ '\n' :: s% "\n" := by simp [e]
    rw [e1, scanAll_first _ hc hs, e2, scan_val v h (by decide), scanAll_last]
    simp [prefixed]
  unfold scan
  rw [h1]; rfl

theorem scan_repr_plain {v : Val} (h : Data v) : scan v.repr = .ok (emb (valToks v)) := by
  obtain ⟨c, cs, e, hc, hs⟩ := repr_head h
  have h1 : tokenize (v.repr ++ s% "\n") = .ok ((valToks v).map some) := by
    rw [tokenize_eq]
    have e1 : '\n' :: (v.repr ++ s% "\n") = '\n' :: c :: (cs ++ s% "\n") := by simp [e]
    have e2 : c :: (cs ++ s% "\n") = v.repr ++ '\n' :: [] := by simp [e]
    have e3 : scanAll ['\n'] = .ok [] := by decide +kernel
    rw [e1, scanAll_first _ hc hs, e2, scan_val v h (by decide), e3]
    simp [prefixed]
  unfold scan
  rw [h1]; rfl

/-- The parser succeeds with its own budget if it does with large ones. -/
theorem parseAll_ev {code : Str} {l : List Tok} {sts : List Tree} (hs : scan code = .ok (emb l))
    (h : Ev (fun n => parse n l) (.ok (sts, []))) : Parse.parseAll (emb l) = .ok sts := by
  obtain ⟨l', e, _, hw⟩ := scan_wf hs
  have el : l' = l := by
    have : emb l = emb l' := e
    simp only [emb] at this
    have := List.append_cancel_right this
    exact (List.map_inj_right (by simp) |>.1 this).symm
  subst el
  obtain ⟨N, hN⟩ := h
  have hg := parse_good l' hw (Parse.budget (emb l')) (by rw [budget_emb]; omega)
  have hm := parse_mono (l := l') (n := Parse.budget (emb l')) (m := N + Parse.budget (emb l')) (by omega)
  rw [show parse (N + Parse.budget (emb l')) l' = _ from hN _ (by omega)] at hm
  rw [parseAll_emb]
  cases hp : parse (Parse.budget (emb l')) l' with
  | ok p =>
    rw [hp] at hm
    rcases hm with hm | hm
    · cases hm
    · cases hm; rfl
  | error e =>
    rw [hp] at hm hg
    rcases hm with hm | hm
    · exact absurd hm (by intro he; simp at he; subst he; exact absurd hg (by simp [PP.Good]))
    · cases hm

theorem parse_repr {v : Val} (h : Data v) : Ev (fun n => parse n (valToks v)) (.ok ([valTree v], [])) := by
  obtain ⟨t, ts, e, _, _, h1, _, h2⟩ := valToks_head v h
  have hno : NoOp [] := by intro t ht; simp at ht
  have he := ev_expr (ts := valToks v) (t := valTree v) (r := []) (fun r hr => parse_val v h hr) hno
  rw [List.append_nil] at he
  have hst : Ev (fun n => parseStatement n (valToks v)) (.ok (valTree v, [])) := by
    refine ev_succ (ev_andThen he (f := fun n e ts => semi e ts) ⟨0, fun _ _ => rfl⟩) fun n => ?_
    simp only [e, parseStatement, if_neg h2]
  refine ev_succ (ev_andThen hst (f := fun n st ts => andThen (parse n ts) fun sts ts => .ok (st :: sts, ts))
    (ev_andThen (f := fun n sts ts => .ok (valTree v :: sts, ts)) (x := fun n => parse n []) (a := []) (r := [])
      (ev_const fun n => rfl) ev_ok)) fun n => ?_
  simp only [e, parse, if_neg h1]

theorem isExpr_valTree {v : Val} (h : Data v) : isExpr (valTree v) = true := by
  have hs : ∀ s, isExpr (scalarTree s) = true := by
    intro s
    unfold scalarTree
    split
    · split <;> rfl
    · split
      · unfold escaped; simp only; split <;> rfl
      · rfl
  cases h with
  | scalar s => rw [valTree]; exact hs s
  | @pattern r f _ =>
    rw [valTree]
    obtain ⟨a, i, m, s⟩ := f
    cases a <;> cases i <;> cases m <;> cases s <;> rfl
  | range lo hi => rw [valTree]; rfl
  | nil => simp only [valTree]; rfl
  | list l _ => rw [valTree]; rfl

theorem compile_repr {v : Val} (h : Data v) : compile v.repr = .ok (.block [] (valTree v)) := by
  have h1 := scan_repr h
  unfold compile
  rw [h1]
  simp only [dieSyntax]
  have h2 := parseAll_ev h1 (parse_repr h)
  simp only [bind, Except.bind]
  rw [h2]
  simp only [pure, Except.pure]
  unfold blockOf
  simp [isExpr_valTree h]

end Pip
