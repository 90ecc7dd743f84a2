import Verif.Lemmas.CommandLine
/-! The loop of `Cli.parseArgs` reads exactly the command lines of `Verif.Spec.CommandLine`. -/

namespace Pip.CmdLine
open Cli

/-! ### Setting options -/

theorem clash_iff (a b : Opt) : (a ≠ b && a.group = b.group && a.group ≠ 0) = true ↔ Clash a b := by
  unfold Clash
  cases a <;> cases b <;> decide

/-- The options seen after a list of settings, or how the program ends -/
def checked : List Opt → List Setting → Except Quit (List Opt)
  | seen, [] => .ok seen
  | seen, x :: l =>
    if seen.any fun o => o ≠ x.1 && o.group = x.1.group && o.group ≠ 0 then .error .usage
    else if x.1 = .help then .error .help
    else checked (x.1 :: seen) l

def setAll (o : Options) (ss : List Setting) : Options := ss.foldl (fun o x => setOpt o x.1 x.2) o

theorem takeAll_eq (ss : List Setting) : ∀ s : Cst,
    takeAll s ss = (checked s.seen ss).map fun seen => { s with opts := setAll s.opts ss, seen := seen } := by
  induction ss with
  | nil => intro s; rfl
  | cons x l ih =>
    intro s
    simp only [takeAll, take, checked]
    split
    · rfl
    · split
      · rfl
      · exact ih _

theorem checked_append (a b : List Setting) : ∀ seen, checked seen (a ++ b) = (checked seen a).bind fun s => checked s b := by
  induction a with
  | nil => intro seen; rfl
  | cons x a ih =>
    intro seen
    simp only [List.cons_append, checked]
    split
    · rfl
    · split
      · rfl
      · exact ih _

theorem setOpt_args (o : Options) (x : Opt) (y : Option Str) (a : List Str) :
    setOpt { o with args := a } x y = { setOpt o x y with args := a } := by cases x <;> rfl

theorem setAll_args (ss : List Setting) : ∀ (o : Options) (a : List Str), setAll { o with args := a } ss = { setAll o ss with args := a } := by
  induction ss with
  | nil => intro o a; rfl
  | cons x l ih =>
    intro o a
    simp only [setAll, List.foldl_cons, setOpt_args]
    exact ih _ _

theorem args_setAll (ss : List Setting) : ∀ o : Options, (setAll o ss).args = o.args := by
  induction ss with
  | nil => intro o; rfl
  | cons x l ih =>
    intro o
    simp only [setAll, List.foldl_cons]
    refine (ih _).trans ?_
    cases x.1 <;> rfl

/-! ### The rest of a command line -/

/-- After an option no further arguments are possible if there were some before. -/
def after (ph : Nat) : Nat := if ph = 1 then 2 else ph

/-- The rest of a command line; `ph`: no argument yet, in the arguments, or after them -/
inductive LineFrom : Nat → List Str → List Setting → List Str → Prop
  | nil (ph : Nat) : LineFrom ph [] [] []
  | word {ph : Nat} {w : Str} {ss : List Setting} {ws : List Str} {ts : List Setting} {args : List Str} (h : Word w ss)
      (r : LineFrom (after ph) ws ts args) : LineFrom ph (w :: ws) (ss ++ ts) args
  | lead {ph : Nat} {w : Str} {ss : List Setting} {o : Opt} {b : Str} {ws : List Str} {ts : List Setting} {args : List Str} (h : Lead w ss o)
      (hb : Plain b) (r : LineFrom (after ph) ws ts args) : LineFrom ph (w :: b :: ws) (ss ++ (o, some b) :: ts) args
  | arg {ph : Nat} {a : Str} {ws : List Str} {ts : List Setting} {args : List Str} (hp : ph ≠ 2) (h : Plain a) (r : LineFrom 1 ws ts args) :
    LineFrom ph (a :: ws) ts (a :: args)
  | dashes {ph : Nat} (hp : ph ≠ 2) (rest : List Str) : LineFrom ph (s% "--" :: rest) [] rest

theorem Plain.ne_dashes {a : Str} (h : Plain a) : a ≠ s% "--" := by
  rintro rfl
  cases h with
  | noDash _ h => exact h rfl
  | other _ h1 h2 h => exact h2 [] .help rfl (List.nil_prefix)

theorem loop_args (l : List Str) : ∀ s : Cst, s.phase ≠ 2 → ∃ ph, loop (l.map fun b => (b, Cli.Kind.arg)) s =
    .ok { s with opts := { s.opts with args := s.opts.args ++ l }, phase := ph } := by
  induction l with
  | nil => intro s _; exact ⟨s.phase, by simp [loop]⟩
  | cons a l ih =>
    intro s hs
    obtain ⟨ph, h⟩ := ih { s with phase := 1, opts := { s.opts with args := s.opts.args ++ [a] } } (by simp)
    refine ⟨ph, ?_⟩
    simp only [List.map_cons, loop, if_neg hs, h, List.append_assoc, List.singleton_append]

theorem after_close (s : Cst) : s.close.phase = after s.phase := rfl

theorem LineFrom.loop {ph : Nat} {ws : List Str} {ss : List Setting} {args : List Str} (h : LineFrom ph ws ss args) :
    ∃ ks, classify ws = .ok ks ∧ ∀ s : Cst, s.phase = ph → ∃ ph', Cli.loop ks s = (checked s.seen ss).map fun seen =>
      { s with opts := { setAll s.opts ss with args := s.opts.args ++ args }, seen := seen, phase := ph' } := by
  induction h with
  | nil ph =>
    refine ⟨[], rfl, fun s _ => ⟨s.phase, ?_⟩⟩
    simp [Cli.loop, checked, setAll, Except.map]
  | @word ph w ss ws ts args h r ih =>
    obtain ⟨ks, h1, h2⟩ := ih
    obtain ⟨o, b1, b2, x, hc, he, hd⟩ := (parsed_iff w ss none).2 h
    refine ⟨(w, .opt o b1 b2 x) :: ks, ?_, ?_⟩
    · rw [classify, if_neg hd, hc, h1]; rfl
    · intro s hs
      simp only [Cli.loop, he, takeAll_eq, checked_append]
      simp only [bind, Except.bind]
      have hcl : ({ s.close with extras := s.extras ++ [] } : Cst).seen = s.seen := rfl
      rw [hcl]
      cases hk : checked s.seen ss with
      | error e => exact ⟨0, rfl⟩
      | ok seen =>
        obtain ⟨ph', h3⟩ := h2 { s.close with extras := s.extras ++ [], opts := setAll s.opts ss, seen := seen } (by rw [← hs]; rfl)
        refine ⟨ph', ?_⟩
        simp only [Except.map]
        refine h3.trans ?_
        simp only [setAll, List.foldl_append, List.append_nil]
        have := args_setAll ss s.opts
        simp only [setAll] at this
        rw [this]
        rfl
  | @lead ph w ss o' b ws ts args h hb r ih =>
    obtain ⟨ks, h1, h2⟩ := ih
    obtain ⟨o, b1, b2, x, hc, he, hd⟩ := (parsed_iff w ss (some o')).2 h
    refine ⟨(w, .opt o b1 b2 x) :: (b, .arg) :: ks, ?_, ?_⟩
    · have : classify (b :: ws) = .ok ((b, .arg) :: ks) := by
        rw [classify, if_neg hb.ne_dashes, (classify_arg hb.ne_dashes).2 hb, h1]; rfl
      rw [classify, if_neg hd, hc, this]; rfl
    · intro s hs
      have es : ss ++ (o', some b) :: ts = (ss ++ [(o', some b)]) ++ ts := by simp
      rw [es]
      simp only [Cli.loop, he, takeAll_eq, checked_append (ss ++ [(o', some b)]) ts]
      simp only [bind, Except.bind]
      have hcl : s.close.seen = s.seen := rfl
      rw [hcl]
      cases hk : checked s.seen (ss ++ [(o', some b)]) with
      | error e => exact ⟨0, rfl⟩
      | ok seen =>
        obtain ⟨ph', h3⟩ := h2 { s.close with opts := setAll s.opts (ss ++ [(o', some b)]), seen := seen } (by rw [← hs]; rfl)
        refine ⟨ph', ?_⟩
        have e : s.close.opts = s.opts := rfl
        simp only [Except.map, e]
        refine h3.trans ?_
        have := args_setAll (ss ++ [(o', some b)]) s.opts
        simp only [this]
        simp only [setAll, List.foldl_append]
        rfl
  | @arg ph a ws ts args hp h r ih =>
    obtain ⟨ks, h1, h2⟩ := ih
    refine ⟨(a, .arg) :: ks, ?_, ?_⟩
    · rw [classify, if_neg h.ne_dashes, (classify_arg h.ne_dashes).2 h, h1]; rfl
    · intro s hs
      obtain ⟨ph', h3⟩ := h2 { s with phase := 1, opts := { s.opts with args := s.opts.args ++ [a] } } rfl
      refine ⟨ph', ?_⟩
      simp only [Cli.loop, hs, if_neg hp, h3, setAll_args, List.append_assoc, List.singleton_append]
  | @dashes ph hp rest =>
    refine ⟨(s% "--", .dashes) :: rest.map fun b => (b, .arg), rfl, ?_⟩
    intro s hs
    obtain ⟨ph', h3⟩ := loop_args rest { s with phase := 1 } (by simp)
    refine ⟨ph', ?_⟩
    simp only [Cli.loop, hs, if_neg hp, h3]
    rfl

theorem takeAll_extras {ss : List Setting} {s s' : Cst} (h : takeAll s ss = .ok s') : s'.extras = s.extras ∧ s'.phase = s.phase := by
  rw [takeAll_eq] at h
  cases hk : checked s.seen ss with
  | error e => rw [hk] at h; cases h
  | ok seen => rw [hk] at h; cases h; exact ⟨rfl, rfl⟩

theorem bind_ok {α β : Type} {x : Except Quit α} {f : α → Except Quit β} {b : β} (h : x >>= f = .ok b) :
    ∃ a, x = .ok a ∧ f a = .ok b := by
  cases x with
  | error e => cases h
  | ok a => exact ⟨a, rfl, h⟩

theorem extras_le : ∀ (ks : List (Str × Cli.Kind)) (s s' : Cst), Cli.loop ks s = .ok s' → s.extras <+: s'.extras
  | [], s, s', h => by
    simp only [Cli.loop, Except.ok.injEq] at h
    rw [h]
    exact List.prefix_rfl
  | (a, .arg) :: l, s, s', h => by
    simp only [Cli.loop] at h
    split at h
    · exact (List.prefix_append _ _).trans (extras_le l _ _ h)
    · have := extras_le l _ _ h
      exact this
  | (a, .dashes) :: l, s, s', h => by
    simp only [Cli.loop] at h
    split at h
    · exact (List.prefix_append _ _).trans (extras_le l _ _ h)
    · have := extras_le l _ _ h
      exact this
  | (a, .unknown) :: l, s, s', h => by
    simp only [Cli.loop] at h
    exact (List.prefix_append _ _).trans (extras_le l _ _ h)
  | (a, .opt o b1 b2 x) :: l, s, s', h => by
    rw [Cli.loop] at h
    obtain ⟨⟨done, pending, ex⟩, _, h⟩ := bind_ok h
    cases pending with
    | none =>
      obtain ⟨s2, h2, h⟩ := bind_ok h
      have := (takeAll_extras h2).1
      refine List.IsPrefix.trans ?_ (extras_le l _ _ h)
      rw [this]
      exact List.prefix_append _ _
    | some o' =>
      match l, h with
      | (b, .arg) :: l, h =>
        obtain ⟨s2, h2, h⟩ := bind_ok h
        have := (takeAll_extras h2).1
        refine List.IsPrefix.trans ?_ (extras_le l _ _ h)
        rw [this]
        exact List.prefix_rfl
      | [], h => cases h
      | (b, .dashes) :: l, h => cases h
      | (b, .unknown) :: l, h => cases h
      | (b, .opt ..) :: l, h => cases h

theorem extras_nil {ks : List (Str × Cli.Kind)} {s s' : Cst} (h : Cli.loop ks s = .ok s') (he : s'.extras = []) : s.extras = [] := by
  have := extras_le ks s s' h
  rw [he] at this
  exact List.prefix_nil.1 this

theorem classify_cons {a : Str} {l : List Str} {ks : List (Str × Cli.Kind)} (h : classify (a :: l) = .ok ks) (hd : a ≠ s% "--") :
    ∃ k ks', classify1 a = .ok k ∧ classify l = .ok ks' ∧ ks = (a, k) :: ks' := by
  rw [classify, if_neg hd] at h
  obtain ⟨k, h1, h⟩ := bind_ok h
  obtain ⟨ks', h2, h⟩ := bind_ok h
  exact ⟨k, ks', h1, h2, (Except.ok.inj h).symm⟩

theorem classify_not_dashes {a : Str} (h : classify1 a = .ok .dashes) : False := by
  match a, h with
  | [], h => cases h
  | c :: r, h =>
    by_cases hc : c = '-'
    · subst hc
      match r, h with
      | [], h => revert h; decide
      | c :: t, h =>
        by_cases hc : c = '-'
        · subst hc
          have := classify_dashes t
          rw [h] at this
          exact this
        · by_cases hl : ∃ o, letter o = c
          · obtain ⟨o, rfl⟩ := hl
            obtain ⟨_, _, _, _, h', _⟩ := classify_letter o t
            rw [h] at h'
            cases h'
          · simp only [not_exists] at hl
            rw [classify_noLetter hc hl] at h
            rcases other_eq ('-' :: c :: t) with ⟨h', _⟩ | ⟨h', _⟩ <;> (rw [h'] at h; cases h)
    · unfold classify1 at h
      split at h
      · rename_i he; exact absurd (List.cons.inj he).1 hc
      · cases h

theorem attached_lead : ∀ (n : Nat) (t : Str) (_ : t.length ≤ n) {o o' : Opt} {b1 b2 : Bool} {d : List Setting} {ex : List Str},
    attached t o b1 b2 = .ok (d, some o', ex) → ex = []
  | _, [], _, o, o', b1, b2, d, ex, h => by
    rw [attached] at h
    split at h <;> simp at h
  | 0, _ :: _, hn, _, _, _, _, _, _, _ => by simp at hn
  | n + 1, c :: t, hn, o, o', b1, b2, d, ex, h => by
    have hn : t.length ≤ n := by simpa using hn
    rw [attached.eq_def] at h
    simp only at h
    split at h
    · simp at h
    · split at h
      · simp at h
      · split at h
        · simp at h
        · rename_i o2 _
          match t, hn, h with
          | [], _, h =>
            simp only [alone] at h
            split at h <;> simp only [Except.ok.injEq, Prod.mk.injEq] at h
            · exact h.2.2.symm
            · exact h.2.2.symm
          | e :: t, hn, h =>
            simp only at h
            split at h
            · obtain ⟨⟨d', p', ex'⟩, h1, h2⟩ := bind_ok h
              simp only [pure, Except.pure, Except.ok.injEq, Prod.mk.injEq] at h2
              obtain ⟨-, rfl, rfl⟩ := h2
              exact attached_lead n t (by simp at hn; omega) h1
            · obtain ⟨⟨d', p', ex'⟩, h1, h2⟩ := bind_ok h
              simp only [pure, Except.pure, Except.ok.injEq, Prod.mk.injEq] at h2
              obtain ⟨-, rfl, rfl⟩ := h2
              exact attached_lead n (e :: t) hn h1

theorem explode_lead {o o' : Opt} {b1 b2 : Bool} {x : Option Str} {d : List Setting} {ex : List Str}
    (h : explode o b1 b2 x = .ok (d, some o', ex)) : ex = [] := by
  cases x with
  | none =>
    simp only [explode, alone] at h
    split at h <;> simp only [Except.ok.injEq, Prod.mk.injEq] at h
    · exact h.2.2.symm
    · exact h.2.2.symm
  | some t => exact attached_lead _ t (Nat.le_refl _) h

theorem loop_line : ∀ (n : Nat) (ws : List Str) (_ : ws.length ≤ n) (ks : List (Str × Cli.Kind)) (s s' : Cst), classify ws = .ok ks →
    Cli.loop ks s = .ok s' → s'.extras = [] → ∃ ss args, LineFrom s.phase ws ss args
  | _, [], _, _, s, _, _, _, _ => ⟨[], [], .nil _⟩
  | 0, _ :: _, hn, _, _, _, _, _, _ => by simp at hn
  | n + 1, a :: l, hn, ks, s, s', hc, hl, he => by
    have hn : l.length ≤ n := by simpa using hn
    by_cases hd : a = s% "--"
    · subst hd
      rw [classify, if_pos rfl] at hc
      cases hc
      by_cases hp : s.phase = 2
      · exfalso
        simp only [Cli.loop, if_pos hp] at hl
        have := extras_nil hl he
        simp at this
      · exact ⟨[], l, .dashes hp l⟩
    · obtain ⟨k, ks', h1, h2, rfl⟩ := classify_cons hc hd
      cases k with
      | arg =>
        by_cases hp : s.phase = 2
        · exfalso
          simp only [Cli.loop, if_pos hp] at hl
          have := extras_nil hl he
          simp at this
        · simp only [Cli.loop, if_neg hp] at hl
          obtain ⟨ss, args, h⟩ := loop_line n l hn ks' _ s' h2 hl he
          exact ⟨ss, a :: args, .arg hp ((classify_arg hd).1 h1) h⟩
      | dashes => exact (classify_not_dashes h1).elim
      | unknown =>
        exfalso
        simp only [Cli.loop] at hl
        have := extras_nil hl he
        simp at this
      | opt o b1 b2 x =>
        rw [Cli.loop] at hl
        obtain ⟨⟨done, pending, ex⟩, h3, hl⟩ := bind_ok hl
        have hex : ex = [] → Parsed a done pending := fun hx => (parsed_iff a done pending).1 ⟨o, b1, b2, x, h1, by rw [h3, hx], hd⟩
        cases pending with
        | none =>
          obtain ⟨s2, h4, hl⟩ := bind_ok hl
          have h5 := takeAll_extras h4
          have h6 := extras_nil hl he
          rw [h5.1] at h6
          obtain ⟨ss, args, h⟩ := loop_line n l hn ks' _ s' h2 hl he
          rw [h5.2] at h
          exact ⟨done ++ ss, args, .word (hex (List.append_eq_nil_iff.1 h6).2) h⟩
        | some o' =>
          match l, h2, hn with
          | [], h2, _ => cases h2; cases hl
          | b :: l, h2, hn =>
            by_cases hb : b = s% "--"
            · subst hb
              rw [classify, if_pos rfl] at h2
              cases h2
              cases hl
            · obtain ⟨k, ks2, h7, h8, rfl⟩ := classify_cons h2 hb
              cases k with
              | arg =>
                obtain ⟨s2, h4, hl⟩ := bind_ok hl
                have h5 := takeAll_extras h4
                obtain ⟨ss, args, h⟩ := loop_line n l (by simp at hn; omega) ks2 _ s' h8 hl he
                rw [h5.2] at h
                exact ⟨_, args, .lead (hex (explode_lead h3)) ((classify_arg hb).1 h7) h⟩
              | dashes => cases hl
              | unknown => cases hl
              | opt => cases hl

/-! ### Whole lines -/

theorem LineFrom.opts {ph : Nat} {ws : List Str} {ss : List Setting} {args : List Str} (h : LineFrom ph ws ss args) (hp : ph = 2) :
    Opts ws ss ∧ args = [] := by
  induction h with
  | nil => exact ⟨.nil, rfl⟩
  | word h r ih => exact ⟨.word h (ih (by rw [hp]; rfl)).1, (ih (by rw [hp]; rfl)).2⟩
  | lead h hb r ih => exact ⟨.lead h hb (ih (by rw [hp]; rfl)).1, (ih (by rw [hp]; rfl)).2⟩
  | arg h => exact absurd hp h
  | dashes h => exact absurd hp h

theorem Opts.from {ws : List Str} {ss : List Setting} (h : Opts ws ss) (ph : Nat) : LineFrom ph ws ss [] := by
  induction h generalizing ph with
  | nil => exact .nil ph
  | word h r ih => exact .word h (ih _)
  | lead h hb r ih => exact .lead h hb (ih _)

theorem Opts.then {ws : List Str} {ss : List Setting} (h : Opts ws ss) {ws' : List Str} {ss' : List Setting} {args : List Str}
    (r : LineFrom 0 ws' ss' args) : LineFrom 0 (ws ++ ws') (ss ++ ss') args := by
  induction h with
  | nil => exact r
  | @word w ss ws ts h _ ih =>
    rw [List.append_assoc]
    exact .word h ih
  | @lead w ss o b ws ts h hb _ ih =>
    rw [List.append_assoc]
    exact .lead h hb ih

theorem LineFrom.args {args : List Str} (h : ∀ a ∈ args, Plain a) {ph : Nat} (hp : ph ≠ 2) {ws : List Str} {ss : List Setting}
    {args' : List Str} (r : ∀ ph, ph ≠ 2 → LineFrom ph ws ss args') : LineFrom ph (args ++ ws) ss (args ++ args') := by
  induction args generalizing ph with
  | nil => exact r ph hp
  | cons a args ih => exact .arg hp (h a List.mem_cons_self) (ih (fun x hx => h x (List.mem_cons_of_mem _ hx)) (by decide))

theorem LineFrom.inArgs {ph : Nat} {ws : List Str} {ss : List Setting} {args : List Str} (h : LineFrom ph ws ss args) (hp : ph = 1) :
    (∃ ws', (∀ a ∈ args, Plain a) ∧ ws = args ++ ws' ∧ Opts ws' ss) ∨
      ∃ a b, (∀ x ∈ a, Plain x) ∧ ws = a ++ s% "--" :: b ∧ args = a ++ b ∧ ss = [] := by
  induction h with
  | nil => exact .inl ⟨[], by simp, rfl, .nil⟩
  | word h r _ =>
    obtain ⟨h1, rfl⟩ := r.opts (by rw [hp]; rfl)
    exact .inl ⟨_, by simp, rfl, .word h h1⟩
  | lead h hb r _ =>
    obtain ⟨h1, rfl⟩ := r.opts (by rw [hp]; rfl)
    exact .inl ⟨_, by simp, rfl, .lead h hb h1⟩
  | @arg ph a ws ts args hp' h r ih =>
    rcases ih rfl with ⟨ws', h1, rfl, h2⟩ | ⟨x, y, h1, rfl, rfl, rfl⟩
    · exact .inl ⟨ws', by simpa using ⟨h, h1⟩, rfl, h2⟩
    · exact .inr ⟨a :: x, y, by simpa using ⟨h, h1⟩, rfl, rfl, rfl⟩
  | dashes hp' rest => exact .inr ⟨[], rest, by simp, rfl, rfl, rfl⟩

theorem line_iff (ws : List Str) (ss : List Setting) (args : List Str) : Line ws ss args ↔ LineFrom 0 ws ss args := by
  constructor
  · intro h
    cases h with
    | @plain ws ws' ss ss' args h ha h' =>
      rw [List.append_assoc]
      refine h.then ?_
      have := LineFrom.args ha (ph := 0) (by decide) (args' := []) fun ph _ => h'.from ph
      simpa using this
    | @dashes ws ss args rest h ha =>
      rw [List.append_assoc]
      have := LineFrom.args ha (ph := 0) (by decide) (args' := rest) fun ph hp => LineFrom.dashes hp rest
      simpa using h.then this
  · intro h
    generalize hp : (0 : Nat) = ph at h
    induction h with
    | nil => exact .plain [] .nil (by simp) .nil
    | @word ph w ss ws ts args h r ih =>
      subst hp
      cases ih rfl with
      | @plain w1 w2 s1 s2 args h1 ha h2 =>
        have := Line.plain args (.word h h1) ha h2
        simpa using this
      | @dashes w1 s1 a b h1 ha =>
        have := Line.dashes a b (.word h h1) ha
        simpa using this
    | @lead ph w ss o b ws ts args h hb r ih =>
      subst hp
      cases ih rfl with
      | @plain w1 w2 s1 s2 args h1 ha h2 =>
        have := Line.plain args (.lead h hb h1) ha h2
        simpa using this
      | @dashes w1 s1 a b' h1 ha =>
        have := Line.dashes a b' (.lead h hb h1) ha
        simpa using this
    | @arg ph a ws ts args hp' h r ih =>
      rcases r.inArgs rfl with ⟨ws', h1, rfl, h2⟩ | ⟨x, y, h1, rfl, rfl, rfl⟩
      · have := Line.plain (a :: args) .nil (by simpa using ⟨h, h1⟩) h2
        simpa using this
      · have := Line.dashes (a :: x) y .nil (by simpa using ⟨h, h1⟩)
        simpa using this
    | dashes hp' rest =>
      have := Line.dashes [] rest .nil (by simp)
      simpa using this

/-- What a command line means -/
theorem parseArgs_line {ws : List Str} {ss : List Setting} {args : List Str} (h : Line ws ss args) :
    parseArgs ws = (checked [] ss).map fun _ => { setAll {} ss with args := args } := by
  obtain ⟨ks, h1, h2⟩ := ((line_iff ws ss args).1 h).loop
  obtain ⟨ph, h3⟩ := h2 {} rfl
  unfold parseArgs
  rw [h1]
  simp only [bind, Except.bind]
  rw [h3]
  cases checked [] ss with
  | error e => rfl
  | ok seen => simp [Except.map, pure, Except.pure]

theorem line_of_parseArgs {ws : List Str} {r : Options} (h : parseArgs ws = .ok r) : ∃ ss args, Line ws ss args := by
  unfold parseArgs at h
  obtain ⟨ks, h1, h⟩ := bind_ok h
  obtain ⟨s, h2, h⟩ := bind_ok h
  split at h
  · rename_i he
    obtain ⟨ss, args, hl⟩ := loop_line _ ws (Nat.le_refl _) ks _ s h1 h2 he
    exact ⟨ss, args, (line_iff ws ss args).2 hl⟩
  · cases h

/-! ### Which settings go together -/

theorem any_clash (seen : List Opt) (o : Opt) :
    (seen.any fun o' => o' ≠ o && o'.group = o.group && o'.group ≠ 0) = true ↔ ∃ o' ∈ seen, Clash o' o := by
  rw [List.any_eq_true]
  exact exists_congr fun o' => and_congr_right fun _ => clash_iff o' o

theorem checked_ok (ss : List Setting) : ∀ seen, (∀ x ∈ ss, x.1 ≠ .help) → (∀ o ∈ seen, ∀ x ∈ ss, ¬Clash o x.1) → Compatible ss →
    ∃ seen', checked seen ss = .ok seen' ∧ ∀ o ∈ seen', o ∈ seen ∨ ∃ x ∈ ss, x.1 = o := by
  induction ss with
  | nil => intro seen _ _ _; exact ⟨seen, rfl, fun o ho => .inl ho⟩
  | cons x l ih =>
    intro seen hh hs hc
    obtain ⟨seen', h1, h2⟩ := ih (x.1 :: seen) (fun y hy => hh y (List.mem_cons_of_mem _ hy)) (by
        intro o ho y hy
        rcases List.mem_cons.1 ho with rfl | ho
        · exact hc x List.mem_cons_self y (List.mem_cons_of_mem _ hy)
        · exact hs o ho y (List.mem_cons_of_mem _ hy))
      (fun y hy z hz => hc y (List.mem_cons_of_mem _ hy) z (List.mem_cons_of_mem _ hz))
    refine ⟨seen', ?_, ?_⟩
    · have hn : ¬(seen.any fun o' => o' ≠ x.1 && o'.group = x.1.group && o'.group ≠ 0) = true := by
        rw [any_clash]
        rintro ⟨o, ho, hx⟩
        exact hs o ho x List.mem_cons_self hx
      rw [checked, if_neg hn, if_neg (hh x List.mem_cons_self)]
      exact h1
    · intro o ho
      rcases h2 o ho with h | ⟨y, hy, rfl⟩
      · rcases List.mem_cons.1 h with rfl | h
        · exact .inr ⟨x, List.mem_cons_self, rfl⟩
        · exact .inl h
      · exact .inr ⟨y, List.mem_cons_of_mem _ hy, rfl⟩

theorem Clash.symm {a b : Opt} (h : Clash a b) : Clash b a :=
  ⟨h.1.symm, h.2.elim (fun h => .inl ⟨h.2, h.1⟩) fun h => .inr ⟨h.2, h.1⟩⟩

theorem checked_of_ok (ss : List Setting) : ∀ seen seen', checked seen ss = .ok seen' →
    (∀ x ∈ ss, x.1 ≠ .help) ∧ (∀ o ∈ seen, ∀ x ∈ ss, ¬Clash o x.1) ∧ Compatible ss := by
  induction ss with
  | nil => intro seen seen' _; exact ⟨by simp, by simp, fun x hx => by cases hx⟩
  | cons x l ih =>
    intro seen seen' h
    rw [checked] at h
    split at h
    · cases h
    · rename_i hn
      split at h
      · cases h
      · rename_i hx
        rw [any_clash] at hn
        obtain ⟨h1, h2, h3⟩ := ih _ _ h
        refine ⟨?_, ?_, ?_⟩
        · intro y hy
          rcases List.mem_cons.1 hy with rfl | hy
          · exact hx
          · exact h1 y hy
        · intro o ho y hy
          rcases List.mem_cons.1 hy with rfl | hy
          · exact fun hc => hn ⟨o, ho, hc⟩
          · exact h2 o (List.mem_cons_of_mem _ ho) y hy
        · intro y hy z hz
          rcases List.mem_cons.1 hy with rfl | hy
          · rcases List.mem_cons.1 hz with rfl | hz
            · exact fun hc => hc.1 rfl
            · exact h2 _ List.mem_cons_self z hz
          · rcases List.mem_cons.1 hz with rfl | hz
            · rename_i hy'
              exact fun hc => h2 _ List.mem_cons_self y hy' hc.symm
            · exact h3 y hy z hz

theorem checked_usage {ss : List Setting} (hh : ∀ x ∈ ss, x.1 ≠ .help) {seen : List Opt} (hc : ¬Compatible ss) :
    checked seen ss = .error .usage := by
  cases h : checked seen ss with
  | ok seen' => exact absurd (checked_of_ok ss _ _ h).2.2 hc
  | error e =>
    cases e with
    | usage => rfl
    | help =>
      exfalso
      clear hc
      induction ss generalizing seen with
      | nil => cases h
      | cons x l ih =>
        rw [checked] at h
        split at h
        · cases h
        · rw [if_neg (hh x List.mem_cons_self)] at h
          exact ih (fun y hy => hh y (List.mem_cons_of_mem _ hy)) h

/-! ### The namespace -/

theorem given_snoc (ss : List Setting) (x : Setting) (o : Opt) : Given (ss ++ [x]) o ↔ Given ss o ∨ x.1 = o := by
  simp only [Given, List.mem_append, List.mem_singleton]
  constructor
  · rintro ⟨y, hy | rfl, rfl⟩
    · exact .inl ⟨y, hy, rfl⟩
    · exact .inr rfl
  · rintro (⟨y, hy, rfl⟩ | rfl)
    · exact ⟨y, .inl hy, rfl⟩
    · exact ⟨x, .inr rfl, rfl⟩

theorem lastArg_snoc (ss : List Setting) (x : Setting) (o : Opt) : lastArg (ss ++ [x]) o = if x.1 = o then x.2 else lastArg ss o := by
  unfold lastArg
  by_cases h : x.1 = o
  · simp [List.filter_append, h]
  · simp [List.filter_append, h]

theorem meets_snoc {r : Options} {ss : List Setting} {args : List Str} (h : Meets r ss args) (x : Setting) :
    Meets (setOpt r x.1 x.2) (ss ++ [x]) args := by
  obtain ⟨o, t⟩ := x
  obtain ⟨h1, h2, h3, h4, h5, h6, h7, h8, h9, h10, h11, h12, h13, h14, h15, h16, h17⟩ := h
  cases o <;> constructor <;>
    simp only [given_snoc, lastArg_snoc, setOpt, reduceCtorEq, or_false, or_true, if_false, if_true] <;> assumption

theorem meets_setAll (ss : List Setting) (args : List Str) : Meets { setAll {} ss with args := args } ss args := by
  rw [← setAll_args]
  have key : ∀ (l : List Setting), Meets (setAll { args := args } l) l args := by
    intro l
    have : ∀ n (l : List Setting), l.length = n → Meets (setAll { args := args } l) l args := by
      intro n
      induction n with
      | zero =>
        intro l hl
        rw [List.length_eq_zero_iff.1 hl]
        constructor <;> simp [setAll, Given, lastArg]
      | succ n ih =>
        intro l hl
        have hne : l ≠ [] := by rintro rfl; cases hl
        rw [← List.dropLast_concat_getLast hne]
        have := meets_snoc (ih l.dropLast (by simp [hl])) (l.getLast hne)
        simpa [setAll, List.foldl_append] using this
    exact this _ l rfl
  exact key ss

end Pip.CmdLine
