import Mathlib.Data.Nat.Factorial.Basic
import Verif.Lemmas.While
import Verif.Props.Calc
import Verif.Props.Control
import Verif.Props.Effects
import Verif.Props.Presets
import Verif.Props.Bases
import Verif.Props.Func
/-!
# C115: small imperative programs, from the command line to the output

Programs with integer variables, assignments, `P`, `I`, `W`, `T`, `L` and `F` (`Spec/While.lean`) print what the usual meaning of such programs
says. This goes through everything: the command line, the scanner, the parser, the execution of statements and the printing.
-/

namespace Pip.Wh
open Pip

variable {X : Ext}

/-- The variables have the values. -/
def Holds (σ : Env) (s : St X) : Prop := ∀ c v, c ∈ letters → σ c = some v → s.var [c] = some (ofInt v)

theorem letter_plain : ∀ c ∈ letters, PlainVar [c] := by unfold PlainVar; decide

theorem Holds.put {σ : Env} {s s' : St X} (h : Holds σ s) {x : Char} {v : Int} (ha : Assigned [x] (ofInt v) s s') : Holds (σ.put x v) s' := by
  intro c w hc hw
  unfold Env.put at hw
  split at hw
  · rename_i e
    subst e
    cases hw
    exact ha.here
  · rename_i e
    rw [ha.other [c] (by simpa using e)]
    exact h c w hc hw

theorem Holds.wrote {σ : Env} {s : St X} (h : Holds σ s) (t : Str) : Holds σ (s.wrote t) := h

theorem ex_notOpr (e : Ex) : e.tree.notOpr = true := by cases e <;> rfl
theorem term_notOpr (e : Term) : e.tree.notOpr = true := by
  cases e with
  | ex e => exact ex_notOpr e
  | cmp e o f => rfl

theorem ex_vals {σ : Env} {s : St X} (hs : Holds σ s) : ∀ {e : Ex} {v : Int}, e.val σ = some v → Vals e.tree s (.ok (ofInt v), s)
  | .num n, v, h => by
    cases h
    exact vals_of_evals (evals_num _ s)
  | .var c, v, h => by
    simp only [Ex.val] at h
    split at h
    · rename_i hc
      have := Vals.var (letter_plain c hc) s
      simpa [St.read, hs c v hc h, Ex.tree] using this
    · cases h
  | .paren e, v, h => vals_paren (ex_vals hs (e := e) h)
  | .pow e f, v, h => by
    simp only [Ex.val, Option.bind_eq_some_iff] at h
    obtain ⟨a, h1, b, h2, h3⟩ := h
    split at h3
    · rename_i hb
      cases h3
      obtain ⟨n, rfl⟩ := Int.eq_ofNat_of_zero_le hb
      exact vals_infix (s% "**") .items2 (fun a b => opPOW X a (some b)) (by row) (ex_notOpr _) (ex_notOpr _) (ex_vals hs h1) (ex_vals hs h2)
        (C40_power X a n (-1) (by decide)).1
    · cases h3
  | .neg e, v, h => by
    simp only [Ex.val, Option.map_eq_some_iff] at h
    obtain ⟨a, h1, rfl⟩ := h
    exact C73_value_unary (s% "-") .items2 _ (by row) e.tree s s _ (ofInt (-a)) (ex_notOpr e) (ex_vals hs h1) rfl
      (by rw [(C40_exact X a 0).2.2.2.1]; rfl)
  | .mul e f, v, h => by
    simp only [Ex.val, Option.bind_eq_some_iff, Option.map_eq_some_iff] at h
    obtain ⟨a, h1, b, h2, rfl⟩ := h
    exact (C73_integers _ _ s s s a b (ex_notOpr e) (ex_notOpr f) (ex_vals hs h1) (ex_vals hs h2)).2.2.1
  | .quot e f, v, h => by
    simp only [Ex.val, Option.bind_eq_some_iff] at h
    obtain ⟨a, h1, b, h2, h3⟩ := h
    split at h3
    · cases h3
    · rename_i hb
      cases h3
      exact ((C73_integers _ _ s s s a b (ex_notOpr e) (ex_notOpr f) (ex_vals hs h1) (ex_vals hs h2)).2.2.2.1 hb).1
  | .rem e f, v, h => by
    simp only [Ex.val, Option.bind_eq_some_iff] at h
    obtain ⟨a, h1, b, h2, h3⟩ := h
    split at h3
    · cases h3
    · rename_i hb
      cases h3
      exact ((C73_integers _ _ s s s a b (ex_notOpr e) (ex_notOpr f) (ex_vals hs h1) (ex_vals hs h2)).2.2.2.1 hb).2
  | .add e f, v, h => by
    simp only [Ex.val, Option.bind_eq_some_iff, Option.map_eq_some_iff] at h
    obtain ⟨a, h1, b, h2, rfl⟩ := h
    exact (C73_integers _ _ s s s a b (ex_notOpr e) (ex_notOpr f) (ex_vals hs h1) (ex_vals hs h2)).1
  | .sub e f, v, h => by
    simp only [Ex.val, Option.bind_eq_some_iff, Option.map_eq_some_iff] at h
    obtain ⟨a, h1, b, h2, rfl⟩ := h
    exact (C73_integers _ _ s s s a b (ex_notOpr e) (ex_notOpr f) (ex_vals hs h1) (ex_vals hs h2)).2.1

theorem cmp_comparison (o : Cmp) : Comparison (op2 o.text) ∧ (op2 o.text).fn ≠ .FULLMATCH := by
  cases o <;> exact ⟨⟨by decide +kernel, by decide +kernel⟩, by decide +kernel⟩

theorem ofBool_int (b : Bool) : ofBool b = ofInt (if b then 1 else 0) := by cases b <;> decide +kernel

theorem cmp_value (X : Ext) (o : Cmp) (a b : Int) :
    pureOp X (op2 o.text).fn [ofInt a, ofInt b] = .ok (some (ofInt (if o.holds a b then 1 else 0))) := by
  obtain ⟨h1, h2, h3, h4, h5, h6, _⟩ := C55_integers X a b
  have key : ∀ {x : Except Exc Val} {c : Bool}, x = .ok (ofBool c) → (some <$> x : Except Exc (Option Val)) = .ok (some (ofInt (if c then 1 else 0))) := by
    rintro x c rfl
    rw [← ofBool_int]; rfl
  cases o
  · exact key h3
  · exact key h4
  · exact key h1
  · exact key h5
  · exact key h6
  · exact key h2

theorem term_vals {σ : Env} {s : St X} (hs : Holds σ s) {e : Term} {v : Int} (h : e.val σ = some v) : Vals e.tree s (.ok (ofInt v), s) := by
  cases e with
  | ex e => exact ex_vals hs h
  | cmp e o f =>
    simp only [Term.val, Option.bind_eq_some_iff, Option.map_eq_some_iff] at h
    obtain ⟨a, h1, b, h2, rfl⟩ := h
    obtain ⟨hc, hf⟩ := cmp_comparison o
    have he : Evals (.node (op2 o.text) [.val (ofInt a), .val (ofInt b)]) s (.ok (.v (ofInt (if o.holds a b then 1 else 0))), s) := by
      refine (hc.evals rfl rfl).2 ⟨(.ok (.v _), s), ?_, rfl⟩
      refine (runs_eq (y := fun _ => pure (.v (ofInt (if o.holds a b then 1 else 0)))) (s' := s) fun R => ?_).2 (runs_pure.2 rfl)
      rw [hc.callOp R _ _ hf, cmp_value]
      rfl
    refine .of_evals ((C24_chain e.tree [(op2 o.text, f.tree)] (by simp) (by simpa using hc) s s (ofInt a) [ofInt b] ?_ ?_ _).2
      ⟨(.ok (ofInt (if o.holds a b then 1 else 0)), s), .last he, rfl⟩)
    · exact .next (o := (.ok [ofInt b], s)) (ex_vals hs h1) (.next (o := (.ok [], s)) (ex_vals hs h2) .nil)
    · simp [ofInt, Val.isBlock]

/-! ### Statements -/

theorem execs_expr {t : Tree} (h : isExpr t = true) {s s' : St X} {v : Val} (hv : Vals t s (.ok v, s')) : Execs t s (.ok (some v), s') := by
  rw [execs_iff]
  have : (fun R : Rec X => execStmt R t) = fun R => getRval R t >>= fun v => pure (some v) := by
    funext R
    cases t <;> first | rfl | cases h
  rw [this]
  exact (hv : Runs _ _ _).then (runs_pure.2 rfl)

theorem term_isExpr (e : Term) : isExpr e.tree = true := by
  rcases e with (_ | _ | _ | _ | _ | _ | _ | _ | _ | _) | _ <;> rfl

theorem line_int (X : Ext) (v : Int) : lineText X (ofInt v) = showInt v ++ s% "\n" := by simp [lineText, ofInt, Val.str]

theorem lines_append (o o' : List Int) : lines (o ++ o') = lines o ++ lines o' := by simp [lines]

/-- The statements can be executed, with this effect. -/
def Effect (R : St X → St X → Prop) (σ σ' : Env) (o : List Int) : Prop :=
  ∀ s, Holds σ s → ∃ s', R s s' ∧ Holds σ' s' ∧ s'.out = s.out ++ lines o

def All (X : Ext) (l : List Stm) : Env → Env → List Int → Prop := Effect (X := X) fun s s' => ExecsAll (Stm.trees l) s (.ok (), s')
def One (X : Ext) (t : Stm) : Env → Env → List Int → Prop := Effect (X := X) fun s s' => ∃ r, Execs t.tree s (.ok r, s')

theorem Effect.trans {R R' R'' : St X → St X → Prop} {σ σ1 σ2 : Env} {o o' : List Int} (h : Effect R σ σ1 o) (h' : Effect R' σ1 σ2 o')
    (hr : ∀ s s1 s2, R s s1 → R' s1 s2 → R'' s s2) : Effect R'' σ σ2 (o ++ o') := by
  intro s hs
  obtain ⟨s1, a1, a2, a3⟩ := h s hs
  obtain ⟨s2, b1, b2, b3⟩ := h' s1 a2
  exact ⟨s2, hr _ _ _ a1 b1, b2, by rw [b3, a3, lines_append, List.append_assoc]⟩

theorem execsAll_nil (s : St X) : ExecsAll [] s (.ok (), s) := (C29_block [] s _).2 .nil

theorem execsAll_cons {t : Tree} {ts : List Tree} {s s1 s2 : St X} {r : Option Val} (h : Execs t s (.ok r, s1)) (h' : ExecsAll ts s1 (.ok (), s2)) :
    ExecsAll (t :: ts) s (.ok (), s2) :=
  (C29_block _ s _).2 (.next ⟨_, h, rfl⟩ ((C29_block _ s1 _).1 h'))

theorem One.cons {t : Stm} {l : List Stm} {σ σ1 σ2 : Env} {o o' : List Int} (h : One X t σ σ1 o) (h' : All X l σ1 σ2 o') : All X (t :: l) σ σ2 (o ++ o') :=
  Effect.trans h h' fun _ _ _ ⟨_, h⟩ h' => execsAll_cons h h'

/-- The passes of a loop -/
def Turns (X : Ext) (x : Option Char) (vs : List Int) (a : List Stm) : Env → Env → List Int → Prop :=
  Effect (X := X) fun s s' => match x with
    | none => Each (fun _ => ExecsAll (Stm.trees a)) (vs.map fun _ => ()) s (.ok (), s')
    | some c => c ∈ letters → Each (Pass (.l (.name [c] none [])) (Stm.trees a)) (vs.map ofInt) s (.ok (), s')

/-- What has to be shown about a task -/
def Can (X : Ext) : Task → Env → Env → List Int → Prop
  | .code l, σ, σ', o => All X l σ σ' o ∧
      ∀ t l', l = t :: l' → ∃ σ1 o1 o2, o = o1 ++ o2 ∧ One X t σ σ1 o1 ∧ Does (.code l') σ1 σ' o2 ∧ All X l' σ1 σ' o2
  | .passes x vs a, σ, σ', o => Turns X x vs a σ σ' o

theorem can_cons {t : Stm} {l : List Stm} {σ σ1 σ2 : Env} {o o' : List Int} (h : One X t σ σ1 o) (hd : Does (.code l) σ1 σ2 o')
    (h' : All X l σ1 σ2 o') : Can X (.code (t :: l)) σ σ2 (o ++ o') := by
  refine ⟨h.cons h', fun t' l' e => ?_⟩
  cases e
  exact ⟨σ1, o, o', rfl, h, hd, h'⟩

theorem truthy_int (v : Int) : (ofInt v).truthy = decide (v ≠ 0) := by
  have := C15_integer v
  cases h : (ofInt v).truthy
  · simp [this.1 h]
  · have : v ≠ 0 := fun e => by simp [this.2 e] at h
    simp [this]

theorem one_simple {t : Stm} {σ σ' : Env} {v : Int} {o : List Int} (ht : isExpr t.tree = true)
    (h : Effect (X := X) (fun s s' => Vals t.tree s (.ok (ofInt v), s')) σ σ' o) : One X t σ σ' o := by
  intro s hs
  obtain ⟨s', h1, h2⟩ := h s hs
  exact ⟨s', ⟨_, execs_expr ht h1⟩, h2⟩

theorem vals_term {σ : Env} {e : Term} {v : Int} (hv : e.val σ = some v) :
    Effect (X := X) (fun s s' => Vals (Stm.term e).tree s (.ok (ofInt v), s')) σ σ [] := by
  intro s hs
  exact ⟨s, by simpa [Stm.tree] using term_vals hs hv, hs, by simp [lines]⟩

theorem vals_set {σ : Env} {e : Term} {x : Char} {v : Int} (hx : x ∈ letters) (hv : e.val σ = some v) :
    Effect (X := X) (fun s s' => Vals (Stm.set x e).tree s (.ok (ofInt v), s')) σ (σ.put x v) [] := by
  intro s hs
  obtain ⟨s2, h1, h2, _⟩ := C22_assign [x] (letter_plain x hx) e.tree (ofInt v) s s (term_vals hs hv)
  exact ⟨s2, by simpa [Stm.tree] using h1, hs.put h2, by simp [lines, h2.rest.out]⟩

theorem vals_print {σ : Env} {e : Term} {v : Int} (hv : e.val σ = some v) :
    Effect (X := X) (fun s s' => Vals (Stm.print e).tree s (.ok (ofInt v), s')) σ σ [v] := by
  intro s hs
  exact ⟨_, by simpa [Stm.tree] using C84_print e.tree (term_notOpr e) s s (ofInt v) (term_vals hs hv), hs.wrote _,
    by simp [St.wrote, line_int, lines]⟩

theorem simple_isExpr {t : Stm} (h : t.simple = true) : isExpr t.tree = true := by
  cases t with
  | term e => simpa [Stm.tree] using term_isExpr e
  | set => rfl
  | print => rfl
  | _ => cases h

theorem one_loop {b : Bool} {e : Term} {a : List Stm} {s : St X} {o : Outcome X (Option Val)} :
    Execs (Stm.rep b e a).tree s o ↔
      ∃ o' : Outcome X Unit, Loop b (Vals e.tree) (ExecsAll (Stm.trees a)) s o' ∧ o = o'.map fun _ => none := by
  cases b with
  | true => simpa [Stm.tree] using C29_while e.tree (Stm.trees a) s o
  | false => simpa [Stm.tree] using C29_till e.tree (Stm.trees a) s o

theorem below_length (v : Int) : (below v).length = v.toNat := by simp [below]

theorem range_below (v : Int) : (Val.range none (some v)).iter = .fin ((below v).map ofInt) := by
  have e := (C51_nil_bounds v).2.2
  rw [items_iter e]
  simp [countUp, below]

theorem does_can {t : Task} {σ σ' : Env} {o : List Int} (h : Does t σ σ' o) : Can X t σ σ' o := by
  induction h with
  | nil => exact ⟨fun s hs => ⟨s, execsAll_nil s, hs, by simp [lines]⟩, by simp⟩
  | term hv h ih => exact can_cons (o := []) (one_simple (simple_isExpr rfl) (vals_term hv)) h ih.1
  | set hx hv h ih => exact can_cons (o := []) (one_simple (simple_isExpr rfl) (vals_set hx hv)) h ih.1
  | @print σ σ' e v l o hv h ih => exact can_cons (o := [v]) (one_simple (simple_isExpr rfl) (vals_print hv)) h ih.1
  | @yes σ σ1 σ' e v a b l o o' hv h0 ha h iha ih =>
    refine can_cons (fun s hs => ?_) h ih.1
    obtain ⟨s1, h1, h2⟩ := iha.1 s hs
    refine ⟨s1, ⟨none, ?_⟩, h2⟩
    simp only [Stm.tree]
    exact (C29_if _ _ _ s _).2 ⟨(.ok (), s1), .ok (term_vals hs hv) (by rw [truthy_int]; simpa [h0] using h1), rfl⟩
  | @no σ σ1 σ' e a b l o o' hv hb h ihb ih =>
    refine can_cons (fun s hs => ?_) h ih.1
    obtain ⟨s1, h1, h2⟩ := ihb.1 s hs
    refine ⟨s1, ⟨none, ?_⟩, h2⟩
    simp only [Stm.tree]
    exact (C29_if _ _ _ s _).2 ⟨(.ok (), s1), .ok (term_vals hs hv) (by rw [truthy_int]; simpa using h1), rfl⟩
  | @stop σ σ' b e v a l o hv h0 h ih =>
    refine can_cons (o := []) (fun s hs => ?_) h ih.1
    exact ⟨s, ⟨none, one_loop.2 ⟨(.ok (), s), .done (term_vals hs hv) (by rw [truthy_int]; exact h0), rfl⟩⟩, hs, by simp [lines]⟩
  | @again σ σ1 σ' b e v a l o o' hv h0 ha h iha ih =>
    obtain ⟨σ2, o1, o2, rfl, i1, i2, i3⟩ := ih.2 _ _ rfl
    have h1 : One X (.rep b e a) σ σ2 (o ++ o1) := by
      intro s hs
      obtain ⟨s1, a1, a2, a3⟩ := iha.1 s hs
      obtain ⟨s2, ⟨r, b1⟩, b2, b3⟩ := i1 s1 a2
      obtain ⟨⟨x | x, s3⟩, c1, c2⟩ := one_loop.1 b1
      · cases c2
      · simp only [Outcome.map, Prod.mk.injEq, Except.ok.injEq] at c2
        obtain ⟨_, rfl⟩ := c2
        exact ⟨s2, ⟨none, one_loop.2 ⟨_, .next (term_vals hs hv) (by rw [truthy_int]; exact h0) a1 c1, rfl⟩⟩, b2,
          by rw [b3, a3, lines_append, List.append_assoc]⟩
    rw [← List.append_assoc]
    exact can_cons h1 i2 i3
  | @loop σ σ1 σ' e v a l o o' hv ha h iha ih =>
    refine can_cons (fun s hs => ?_) h ih.1
    obtain ⟨s1, h1, h2⟩ := iha s hs
    refine ⟨s1, ⟨none, ?_⟩, h2⟩
    simp only [Stm.tree]
    have hr : Reps (ofInt v) v.toNat := by
      have := Reps.scalar (showInt v)
      rwa [toInt_showInt] at this
    refine (C29_loop _ _ s s _ v.toNat (term_vals hs hv) hr _).2 ⟨(.ok (), s1), ?_, rfl⟩
    have e1 : ((below v).map fun _ => ()) = List.replicate v.toNat () := by
      rw [List.map_const', below_length]
    rw [← e1]
    exact h1
  | @iter σ σ1 σ' x e v a l o o' hx hv ha h iha ih =>
    refine can_cons (fun s hs => ?_) h ih.1
    obtain ⟨s1, h1, h2⟩ := iha s hs
    refine ⟨s1, ⟨none, ?_⟩, h2⟩
    simp only [Stm.tree]
    have hw : Vals (.node (op1 (s% ",")) [e.tree]) s (.ok (.range none (some v)), s) :=
      C73_value_unary (s% ",") .items2 _ (by row) e.tree s s _ _ (ex_notOpr e) (ex_vals hs hv) rfl (by simp [opRANGETO, ofInt, toInt_showInt]; rfl)
    have hn : Evals (Pip.var [x]) s (.ok (.l (.name [x] none [])), s) :=
      runs_of ok_ne_fuel 0 1 fun m _ => ev_var (letter_plain x hx) m s
    refine (C29_for _ _ _ s s s _ _ hn hw _).2 ⟨(.ok (), s1), rfl, ?_⟩
    rw [range_below]
    exact h1 hx
  | @done σ x a =>
    intro s hs
    refine ⟨s, ?_, hs, by simp [lines]⟩
    cases x with
    | none => exact .nil
    | some c => exact fun _ => .nil
  | @pass σ σ1 σ' v vs a o o' ha h iha ih => exact Effect.trans iha.1 ih fun s s1 s2 h1 h2 => .next h1 h2
  | @passTo σ σ1 σ' x v vs a o o' hx ha h iha ih =>
    have h1 : Effect (X := X) (fun s s' => Pass (.l (.name [x] none [])) (Stm.trees a) (ofInt v) s (.ok (), s')) σ σ1 o := by
      intro s hs
      obtain ⟨s1, a1, a2⟩ := C29_for_var [x] (letter_plain x hx) (Stm.trees a) (ofInt v) s
      obtain ⟨s2, b1, b2, b3⟩ := iha.1 s1 (hs.put a1)
      exact ⟨s2, (a2 _).2 b1, b2, by rw [b3, a1.rest.out]⟩
    exact Effect.trans h1 ih fun s s1 s2 h1 h2 _ => .next h1 (h2 hx)

/-! ### The body of the program -/

theorem trees_append (l l' : List Stm) : Stm.trees (l ++ l') = Stm.trees l ++ Stm.trees l' := by
  induction l with
  | nil => simp [Stm.trees]
  | cons t l ih => simp [Stm.trees, ih]

theorem Holds.history {σ : Env} {s : St X} (h : Holds σ s) (v : Val) :
    ∃ s', updateHistory v s = (.ok (), s') ∧ Holds σ s' ∧ s'.out = s.out := by
  obtain ⟨s', h1, _, _, _, h2, h3⟩ := updateHistory_run v s
  exact ⟨s', h1, fun c w hc hw => by rw [h2 [c] (by simp) (by simp) (by simp)]; exact h c w hc hw, h3.out⟩

theorem body_does : ∀ {l : List Stm} {σ σ' : Env} {o : List Int}, Does (.code l) σ σ' o →
    Effect (X := X) (fun s s' => Runs (fun R => runBody R (Stm.trees l)) s (.ok (), s')) σ σ' o
  | [], σ, σ', o, h => by
    cases h
    exact fun s hs => ⟨s, runs_pure.2 rfl, hs, by simp [lines]⟩
  | t :: l, σ, σ', o, h => by
    obtain ⟨σ1, o1, o2, rfl, h1, h2, _⟩ := (does_can (X := X) h).2 t l rfl
    have hb := body_does h2
    have h1' : Effect (X := X) (fun s s' => Runs (fun R : Rec X => do
        match ← R.exec t.tree with
        | some v => updateHistory v
        | none => pure ()) s (.ok (), s')) σ σ1 o1 := by
      intro s hs
      obtain ⟨s1, ⟨r, a1⟩, a2, a3⟩ := h1 s hs
      cases r with
      | none => exact ⟨s1, (runs_bind_of (x := fun R => R.exec t.tree) a1).2 (runs_pure.2 rfl), a2, a3⟩
      | some v =>
        obtain ⟨s2, b1, b2, b3⟩ := a2.history v
        refine ⟨s2, (runs_bind_of (x := fun R => R.exec t.tree) a1).2 ?_, b2, by rw [b3, a3]⟩
        exact ⟨by simp, 0, fun _ _ => b1⟩
    refine Effect.trans h1' hb fun s s1 s2 r1 r2 => ?_
    simp only [Stm.trees]
    exact (runs_bind_of r1 (f := fun _ R => runBody R (Stm.trees l))).2 r2

theorem start_holds {args : List Int} {main : Val} {s0 s : St X} (h : setMain main (args.map ofInt) s0 = (.ok (), s)) (f : Option Val) :
    Holds (start args) (s.openScope f (args.map ofInt)) := by
  intro c v hc hv
  unfold start at hv
  split at hv
  · rename_i hm
    have key : ∀ c ∈ s% "abcde", isLocal [c] = true ∧ (s% "abcde")[(s% "abcde").idxOf c]? = some c := by decide
    obtain ⟨k1, k2⟩ := key c hm
    simp only [St.var, k1, if_true, St.openScope]
    rw [localVars_abcde _ _ _ c k2, List.getElem?_map, hv]
    rfl
  · obtain ⟨h1, h2, h3, h4, h5, h6⟩ := C101_numbers main _ s0 s h
    have key : ∀ n, isLocal n = false → (s.openScope f (args.map ofInt)).var n = s.var n := by
      intro n hn
      simp [St.var, hn, St.openScope]
    repeat' split at hv
    all_goals first
      | cases hv; subst_vars; rw [key _ (by decide)]; assumption
      | cases hv

theorem closeScope_out (s : St X) : s.closeScope.out = s.out := by
  unfold St.closeScope
  split <;> rfl

/-- The main function of a program prints all but the value of the last statement, which it returns. -/
theorem C115_function {args : List Int} {l : List Stm} {o : List Int} (h : Prints args l o) (s0 s : St X)
    (hm : setMain (blockOf (Stm.trees l)) (args.map ofInt) s0 = (.ok (), s)) :
    ∃ w s', Calls (blockOf (Stm.trees l)) (args.map ofInt) s (.ok w, s') ∧
      ∃ s2, (opPRINT w : M X Unit) s' = (.ok (), s2) ∧ s2.out = s.out ++ lines o := by
  have hst := fun f => start_holds (X := X) hm f
  have expr : ∀ {l : List Stm} {t : Stm} {σ σ' : Env} {o o' : List Int} {v : Int}, blockOf (Stm.trees (l ++ [t])) = .block (Stm.trees l) t.tree →
      (∀ f, Holds σ (s.openScope f (args.map ofInt))) →
      Effect (X := X) (fun s s' => Runs (fun R => runBody R (Stm.trees l)) s (.ok (), s')) σ σ' o →
      (∀ s : St X, Holds σ' s → ∃ s', Vals t.tree s (.ok (ofInt v), s') ∧ s'.out = s.out ++ lines o') →
      ∃ w s', Calls (blockOf (Stm.trees (l ++ [t]))) (args.map ofInt) s (.ok w, s') ∧
        ∃ s2, (opPRINT w : M X Unit) s' = (.ok (), s2) ∧ s2.out = s.out ++ lines (o ++ (o' ++ [v])) := by
    intro l t σ σ' o o' v hb hs h1 h2
    rw [hb]
    obtain ⟨s1, a1, a2, a3⟩ := h1 _ (hs (some (.block (Stm.trees l) t.tree)))
    obtain ⟨s2, b1, b2⟩ := h2 s1 a2
    refine ⟨_, _, calls_body.2 (bodyAs_ok.2 ⟨s1, s2, a1, b1, rfl⟩), _, opPRINT_apply _ _, ?_⟩
    have ho : s2.closeScope.out = s2.out := closeScope_out s2
    have hi : (s.openScope (some (.block (Stm.trees l) t.tree)) (args.map ofInt)).out = s.out := rfl
    rw [line_int]
    simp [St.wrote, ho, b2, a3, hi, lines]
  have hbl : ∀ (l : List Stm) (t : Stm), t.simple = true → blockOf (Stm.trees (l ++ [t])) = .block (Stm.trees l) t.tree := by
    intro l t ht
    simp [blockOf, trees_append, Stm.trees, simple_isExpr ht]
  cases h with
  | @command l t σ' o ht h =>
    have hb : blockOf (Stm.trees (l ++ [t])) = .block (Stm.trees (l ++ [t])) (.val .nil) := by
      have : isExpr t.tree = false := by
        cases t <;> first | (cases ht; done) | simp [Stm.tree, isExpr]
      simp [blockOf, trees_append, Stm.trees, this]
    rw [hb]
    obtain ⟨s1, a1, a2, a3⟩ := body_does h _ (hst (some (.block (Stm.trees (l ++ [t])) (.val .nil))))
    refine ⟨.nil, _, calls_body.2 (bodyAs_ok.2 ⟨s1, s1, a1, runs_pure.2 rfl, rfl⟩), _, rfl, ?_⟩
    rw [closeScope_out, a3]
    rfl
  | term h hv =>
    exact expr (o' := []) (hbl _ _ rfl) hst (body_does h) fun s hs => by
      obtain ⟨s', h1, _, h2⟩ := vals_term hv s hs
      exact ⟨s', h1, h2⟩
  | set hx h hv =>
    exact expr (o' := []) (hbl _ _ rfl) hst (body_does h) fun s hs => by
      obtain ⟨s', h1, _, h2⟩ := vals_set hx hv s hs
      exact ⟨s', h1, h2⟩
  | @print l e σ' o v h hv =>
    exact expr (o' := [v]) (hbl _ _ rfl) hst (body_does h) fun s hs => by
      obtain ⟨s', h1, _, h2⟩ := vals_print hv s hs
      exact ⟨s', h1, h2⟩

/-- The statements are found in the text. -/
theorem C115_text {l : List Stm} {code : Str} (h : Code false l code) (hl : l ≠ []) : parseText code = .ok (Stm.trees l) := code_parse h hl

theorem Prints.ne {args : List Int} {l : List Stm} {o : List Int} (h : Prints args l o) : l ≠ [] := by cases h <;> simp

/-! ### Two programs -/

theorem sep_nil : Sep [] := .inl rfl
theorem sepOf_nil (u : Str) : SepOf [] u := ⟨.inl rfl, fun _ => rfl⟩

/-- Euclid's algorithm: `Wb{t:a%b;a:b;b:t}a` -/
def euclid : List Stm :=
  [.rep true (.ex (.var 'b')) [.set 't' (.ex (.rem (.var 'a') (.var 'b'))), .set 'a' (.ex (.var 'b')), .set 'b' (.ex (.var 't'))],
    .term (.ex (.var 'a'))]

theorem text_var (i : Nat) {c : Char} (hc : c ∈ letters) : Ex.Text (4 - i) (.var c) [c] := by
  match i with
  | 0 => exact .var hc
  | 1 => exact .up (.var hc)
  | 2 => exact .up (.up (.var hc))
  | 3 => exact .up (.up (.up (.var hc)))
  | i + 4 =>
    rw [show 4 - (i + 4) = 0 by omega]
    exact .up (.up (.up (.up (.var hc))))

theorem euclid_text : Code false euclid (s% "Wb{t:a%b;a:b;b:t}a") := by
  have hv : ∀ c ∈ letters, (Term.ex (.var c)).Text [c] := fun c hc => .ex (text_var 4 hc)
  have hb : Code true [.set 't' (.ex (.rem (.var 'a') (.var 'b'))), .set 'a' (.ex (.var 'b')), .set 'b' (.ex (.var 't'))]
      (s% "{t:a%b;a:b;b:t}") :=
    .braces (g := []) (g' := []) (u := s% "t:a%b;a:b;b:t")
      (.semi (g := []) (t := s% "t:a%b") (u := s% "a:b;b:t")
        (.set (g := []) (g' := []) (by decide)
          (.ex (.up (.rem (t := s% "a") (u := s% "b") (g := []) (g' := []) (text_var 3 (by decide)) (text_var 2 (by decide)) (.inl rfl) (.inl rfl))))
          (.inl rfl) (.inl rfl))
        (.semi (g := []) (t := s% "a:b") (u := s% "b:t") (.set (g := []) (g' := []) (by decide) (hv 'b' (by decide)) (.inl rfl) (.inl rfl))
          (.last (.set (g := []) (g' := []) (by decide) (hv 't' (by decide)) (.inl rfl) (.inl rfl))) (sepOf_nil _))
        (sepOf_nil _)) (sepOf_nil _) sep_nil
  exact .rep (g := []) (g' := []) (g1 := []) (b := true) (t := s% "b") (u := s% "a") (hv 'b' (by decide)) hb (.last (.term (hv 'a' (by decide))))
    (.inl rfl) sep_nil (sepOf_nil _)

theorem euclid_loop (a b : Nat) : ∀ σ : Env, σ 'a' = some (a : Int) → σ 'b' = some (b : Int) →
    ∃ σ', Does (.code (euclid.take 1)) σ σ' [] ∧ σ' 'a' = some (Nat.gcd a b : Int) := by
  induction b using Nat.strong_induction_on generalizing a with
  | _ b ih =>
    intro σ ha hb
    rcases Nat.eq_zero_or_pos b with rfl | hp
    · exact ⟨σ, .stop (v := 0) (by simpa [Term.val, Ex.val, letters] using hb) (by decide) .nil, by simpa using ha⟩
    · have hne : (b : Int) ≠ 0 := by omega
      have hne' : b ≠ 0 := by omega
      have hm : (a : Int).fmod b = ((a % b : Nat) : Int) := by
        rw [Int.fmod_eq_emod_of_nonneg _ (by omega)]
        rfl
      obtain ⟨σ', h1, h2⟩ := ih (a % b) (Nat.mod_lt _ hp) b (((σ.put 't' ((a % b : Nat) : Int)).put 'a' b).put 'b' ((a % b : Nat) : Int))
        (by simp [Env.put]) (by simp [Env.put])
      refine ⟨σ', ?_, by rw [h2, Nat.gcd_comm b, ← Nat.gcd_rec b a, Nat.gcd_comm b]⟩
      refine .again (o := []) (v := b) (σ1 := ((σ.put 't' ((a % b : Nat) : Int)).put 'a' b).put 'b' ((a % b : Nat) : Int))
        (by simpa [Term.val, Ex.val, letters] using hb) (by simpa using hne) ?_ h1
      refine .set (v := ((a % b : Nat) : Int)) (by decide) (by simp [Term.val, Ex.val, letters, ha, hb, hne', hm]) ?_
      refine .set (v := (b : Int)) (by decide) (by simp [Term.val, Ex.val, letters, Env.put, hb]) ?_
      exact .set (v := ((a % b : Nat) : Int)) (by decide) (by simp [Term.val, Ex.val, letters, Env.put]) .nil

/-- It prints the greatest common divisor. -/
theorem euclid_prints (a b : Nat) : Prints [(a : Int), (b : Int)] euclid [(Nat.gcd a b : Int)] := by
  obtain ⟨σ', h1, h2⟩ := euclid_loop a b (start [(a : Int), (b : Int)]) rfl rfl
  exact .term (l := euclid.take 1) (o := []) h1 (by simpa [Term.val, Ex.val, letters] using h2)

/-- Factorials: `x:1Fn,a{x:x*(n+1)}x` -/
def factorial : List Stm :=
  [.set 'x' (.ex (.num 1)), .iter 'n' (.var 'a') [.set 'x' (.ex (.mul (.var 'x') (.paren (.add (.var 'n') (.num 1)))))],
    .term (.ex (.var 'x'))]

theorem factorial_text : Code false factorial (s% "x:1Fn,a{x:x*(n+1)}x") := by
  have h1 : Ex.Text 4 (.num 1) (s% "1") := .num 1
  have hs : Ex.Text 0 (.add (.var 'n') (.num 1)) (s% "n+1") :=
    .add (t := s% "n") (u := s% "1") (g := []) (g' := []) (text_var 4 (by decide)) (.up (.up (.up h1))) (.inl rfl) (.inl rfl)
  have hp : Ex.Text 4 (.paren (.add (.var 'n') (.num 1))) (s% "(n+1)") := .paren (g := []) (g' := []) (t := s% "n+1") hs (.inl rfl) (.inl rfl)
  have hb : Code true [.set 'x' (.ex (.mul (.var 'x') (.paren (.add (.var 'n') (.num 1)))))] (s% "{x:x*(n+1)}") :=
    .braces (g := []) (g' := []) (u := s% "x:x*(n+1)")
      (.last (.set (g := []) (g' := []) (by decide)
        (.ex (.up (.mul (t := s% "x") (u := s% "(n+1)") (g := []) (g' := []) (text_var 3 (by decide)) (.up (.up hp)) (.inl rfl) (.inl rfl))))
        (.inl rfl) (.inl rfl))) (sepOf_nil _) sep_nil
  refine .next (g := []) (t := s% "x:1") (u := s% "Fn,a{x:x*(n+1)}x")
    (.set (g := []) (g' := []) (by decide) (.ex (.up (.up (.up (.up h1))))) (.inl rfl) (.inl rfl)) ?_ (sepOf_nil _) rfl
  exact .iter (g := []) (g' := []) (g1 := []) (g2 := []) (g3 := []) (t := s% "a") (u := s% "x") (by decide) (text_var 4 (by decide)) hb
    (.last (.term (.ex (text_var 4 (by decide))))) (.inl rfl) (.inl rfl) (.inl rfl) sep_nil (sepOf_nil _)

theorem factorial_loop : ∀ (m k : Nat) (σ : Env), σ 'x' = some (k.factorial : Int) → ∃ σ',
    Does (.passes (some 'n') ((List.range' k m).map Int.ofNat) [.set 'x' (.ex (.mul (.var 'x') (.paren (.add (.var 'n') (.num 1)))))]) σ σ' [] ∧
      σ' 'x' = some ((k + m).factorial : Int)
  | 0, k, σ, h => ⟨σ, .done, h⟩
  | m + 1, k, σ, h => by
    obtain ⟨σ', h1, h2⟩ := factorial_loop m (k + 1) ((σ.put 'n' k).put 'x' ((k + 1).factorial : Int)) (by simp [Env.put])
    refine ⟨σ', ?_, by rw [h2]; congr 3; omega⟩
    rw [List.range'_succ, List.map_cons]
    refine .passTo (o := []) (by decide) (.set (v := ((k + 1).factorial : Int)) (by decide) ?_ .nil) h1
    simp [Term.val, Ex.val, letters, Env.put, h, Nat.factorial_succ, Int.mul_comm]

/-- It prints the factorial. -/
theorem factorial_prints (a : Nat) : Prints [(a : Int)] factorial [(a.factorial : Int)] := by
  obtain ⟨σ', h1, h2⟩ := factorial_loop a 0 ((start [(a : Int)]).put 'x' 1) (by simp [Env.put])
  refine .term (l := factorial.take 2) (o := []) (σ' := σ') ?_ (by simpa [Term.val, Ex.val, letters] using h2)
  refine .set (v := 1) (by decide) rfl (.iter (v := a) (o := []) (o' := []) (by decide) (by simp [Ex.val, letters, Env.put, start]) ?_ .nil)
  rw [below, Int.toNat_natCast, List.range_eq_range']
  exact h1

end Pip.Wh

namespace Pip.CmdLine
open Pip Cli

/-- **C115**: however the program and its arguments are given, the output consists of the lines the meaning of the program says. -/
theorem C115_program (X : Ext) (files : Str → Option Str) (ws : List Str) (inp : List Str) (rng : X.Rng) (ss : List Setting)
    (args : List Str) (h : Line ws ss args) (hc : Compatible ss) (hw : ws ≠ [])
    (hn : ∀ o ∈ [Opt.help, .version, .repl, .debug, .verbose, .execArgs], ¬Given ss o) (f : Fmt) (hf : Chooses ss f)
    (code : Str) (args1 inp1 : List Str) (hs : Source files ss args inp code args1 inp1) (ints : List Int) (inp2 : List Str)
    (ht : Takes ss args1 inp1 (ints.map showInt) inp2) (l : List Wh.Stm) (hl : Wh.Code false l code) (o : List Int)
    (ho : Wh.Prints ints l o) : ∃ N, ∀ n, N ≤ n → mainWith X n files ws inp rng = (Wh.lines o, .done) := by
  have h1 := Wh.C115_text hl ho.ne
  have hi : (ints.map showInt).map Val.scalar = ints.map ofInt := by simp [ofInt]
  generalize hs0 : St.init (X.withFmt f) inp2 rng = s0
  obtain ⟨w, s', ⟨_, N, hN⟩, s2, hp, hq⟩ := Wh.C115_function (X := X.withFmt f) ho s0 _ rfl
  refine ⟨N, fun n hle => ?_⟩
  rw [C111_program X n files ws inp rng ss args h hc hw hn f hf code args1 inp1 hs _ inp2 ht _ h1, hi, hs0]
  unfold executeProgram
  have hne : (Wh.Stm.trees l).isEmpty = false := by
    have := ho.ne
    cases l with
    | nil => exact absurd rfl this
    | cons t l => simp [Wh.Stm.trees]
  have hN := hN n hle
  simp only at hN
  have ho : s0.out = [] := by rw [← hs0]; rfl
  simp only [hne, Bool.false_eq_true, if_false, M.bind_apply, setMain, hN, hp]
  simp only [ended, hq, ho, List.nil_append]

/-- With `pip -e` and arguments that are not negative -/
theorem C115_execute (X : Ext) (files : Str → Option Str) (inp : List Str) (rng : X.Rng) (code : Str) (hcode : code.head? ≠ some '-')
    (args : List Nat) (l : List Wh.Stm) (hl : Wh.Code false l code) (o : List Int) (ho : Wh.Prints (args.map Int.ofNat) l o) :
    ∃ N, ∀ n, N ≤ n → mainWith X n files (s% "-e" :: code :: args.map fun a : Nat => showInt a) inp rng = (Wh.lines o, .done) := by
  have hp : ∀ a ∈ args.map fun a : Nat => showInt a, Plain a := by
    intro w hw
    obtain ⟨a, _, rfl⟩ := List.mem_map.1 hw
    refine .noDash _ ?_
    obtain ⟨c, cs, e, hc, _⟩ := (numLit_iff _).1 (showNat_lit a)
    rw [e]
    simpa using Scan.digit_ne hc '-' (by decide)
  have hline : Line (s% "-e" :: code :: args.map fun a : Nat => showInt a) [(.execute, some code)] (args.map fun a : Nat => showInt a) := by
    have := Line.plain (ws := [s% "-e", code]) (ws' := []) (ss' := []) (args.map fun a : Nat => showInt a)
      (.lead (.short [] (by simp) .execute (.inl rfl)) (.noDash _ hcode) .nil) hp .nil
    simpa [flags] using this
  have hg : ∀ o, Given [(Opt.execute, some code)] o → o = .execute := by
    rintro o ⟨x, hx, rfl⟩
    simp at hx; rw [hx]
  have hi : (args.map Int.ofNat).map showInt = args.map fun a : Nat => showInt a := by simp
  refine C115_program X files _ inp rng _ _ hline ?_ (by simp) ?_ .none ?_ _ _ _ (.execute _ rfl) (args.map Int.ofNat) inp ?_ l hl o ho
  · intro x hx y hy hc
    simp at hx hy
    rw [hx, hy] at hc
    exact hc.1 rfl
  · intro o ho hgo
    rw [hg o hgo] at ho
    exact absurd ho (by decide)
  · refine .inr ⟨fun h => absurd (hg _ h) (by decide), .inr ⟨fun o ho h => ?_, rfl⟩⟩
    rw [hg o h] at ho
    exact absurd ho (by decide)
  · exact .inl ⟨fun h => absurd (hg _ h) (by decide), hi, rfl⟩

/-- `pip -e 'Wb{t:a%b;a:b;b:t}a' a b` prints the greatest common divisor, -/
theorem C115_gcd (X : Ext) (files : Str → Option Str) (inp : List Str) (rng : X.Rng) (a b : Nat) :
    ∃ N, ∀ n, N ≤ n → mainWith X n files [s% "-e", s% "Wb{t:a%b;a:b;b:t}a", showInt a, showInt b] inp rng =
      (showInt (Nat.gcd a b) ++ s% "\n", .done) := by
  simpa [Wh.lines] using C115_execute X files inp rng _ (by decide) [a, b] _ Wh.euclid_text _ (Wh.euclid_prints a b)

/-- and `pip -e 'x:1Fn,a{x:x*(n+1)}x' a` the factorial. -/
theorem C115_factorial (X : Ext) (files : Str → Option Str) (inp : List Str) (rng : X.Rng) (a : Nat) :
    ∃ N, ∀ n, N ≤ n → mainWith X n files [s% "-e", s% "x:1Fn,a{x:x*(n+1)}x", showInt a] inp rng =
      (showInt a.factorial ++ s% "\n", .done) := by
  simpa [Wh.lines] using C115_execute X files inp rng _ (by decide) [a] _ Wh.factorial_text _ (Wh.factorial_prints a)

/-- Conditions, the other loops, spaces and line ends: the outputs of two programs -/
example : toyOut (s% "Ia%2=0{P a}EL{\nP -a}T a>9{a:a+3}a") [.scalar (s% "5")] [] = some (s% "-5\n11\n") := by decide +kernel
example : toyOut (s% "L a{b:b+2;P b}") [.scalar (s% "2"), .scalar (s% "7")] [] = some (s% "9\n11\n") := by decide +kernel

/-- Why there are semicolons: `b-1` is one expression. -/
example : toyOut (s% "a:b-1") [.scalar (s% "5"), .scalar (s% "7")] [] = some (s% "6\n") ∧
    toyOut (s% "a:b;-1") [.scalar (s% "5"), .scalar (s% "7")] [] = some (s% "-1\n") := by decide +kernel

end Pip.CmdLine
