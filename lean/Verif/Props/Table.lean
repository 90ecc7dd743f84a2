import Verif.Spec.Symbols
import Verif.Props.Items
import Verif.Props.Arith
import Verif.Props.Compare
import Verif.Lemmas.PureNode
import Verif.Lemmas.Direct
import Verif.Spec.Toy
/-!
# C73: operator symbols select their methods

For every operator of `Spec/Symbols.lean`: an expression with that operator evaluates its operands from left to right,
and the outcome is the outcome of the method on their values. A TypeError of the method ends as a fatal error.
-/

namespace Pip
variable {X : Ext}

/-- The operators that a row of the tables of symbols describes -/
structure Sym (o : Op) (n : Str) (k : Takes) : Prop extends o.Pure where
  text : o.text = n
  lam : k ≠ .any → o.inLambda = true
  noLam : k = .any → o.inLambda = false
  list : o.listEach = k.lists
  range : o.rangeEach = k.ranges

instance : DecidableEq Takes := fun a b => by
  cases a <;> cases b <;> first | exact .isTrue rfl | exact .isFalse nofun

instance (o : Op) (n : Str) (k : Takes) : Decidable (Sym o n k) :=
  decidable_of_iff (o.rvals = true ∧ o.assign = false ∧ o.map = false ∧ o.fold = false ∧ o.scan = false ∧
      o.fn ≠ .PARENTHESIZE ∧ isRaw o.fn = false ∧ isEffect o.fn = false ∧ o.text = n ∧ (k ≠ .any → o.inLambda = true) ∧
      (k = .any → o.inLambda = false) ∧ o.listEach = k.lists ∧
      o.rangeEach = k.ranges)
    ⟨fun ⟨h1, h2, h3, h4, h5, h6, h7, h8, h9, h10, h11, h12, h13⟩ => ⟨⟨⟨h1, h2, h3, h4, h5, h6⟩, h7, h8⟩, h9, h10, h11, h12, h13⟩,
      fun ⟨⟨⟨h1, h2, h3, h4, h5, h6⟩, h7, h8⟩, h9, h10, h11, h12, h13⟩ => ⟨h1, h2, h3, h4, h5, h6, h7, h8, h9, h10, h11, h12, h13⟩⟩

theorem Sym.expands {o : Op} {n : Str} {k : Takes} (h : Sym o n k) {v : Val} (hv : k.ok v = true) :
    Pip.expands o (.val v) = false := by
  have h1 := h.list
  have h2 := h.range
  cases k <;> simp_all [Pip.expands, Takes.ok, Takes.lists, Takes.ranges]

theorem Sym.fn' {o : Op} {n : Str} {k : Takes} (h : Sym o n k) {v : Val} (hv : k.ok v = true) (hl : o.inLambda = true) :
    v.isBlock = false := by
  have := h.noLam
  cases k <;> simp_all [Takes.ok]

theorem resOf_liftOpt (r : Except Exc (Option Val)) (s : St X) : liftOpt r s = (resOf r, s) := by
  rcases r with e | (_ | v) <;> rfl

/-- The general form: the outcome of the method -/
theorem Sym.evals {o : Op} {n : Str} {k : Takes} (h : Sym o n k) {ts : List Tree} (ht : ∀ t ∈ ts, t.notOpr = true)
    {vs : List Val} {s s1 : St X} (hv : MapEach Vals ts s (.ok vs, s1)) (hk : ∀ v ∈ vs, k.ok v = true)
    {r : Except Exc (Option Val)} (hr : pureOp X o.fn vs = r) (hf : r ≠ .error .fuel) (out : Outcome X Res) :
    Evals (.node o ts) s out ↔ out = died (resOf r, s1) := by
  rw [evals_direct h.toRvals h.raw ht hv (fun hl v hv => h.fn' (hk v hv) hl) (fun v hv => h.expands (hk v hv))]
  have hne : (resOf r, s1).1 ≠ .error .fuel := by
    rcases r with e | (_ | v)
    · simpa [resOf] using hf
    · simp [resOf]
    · simp [resOf]
  have : ∀ r', Runs (fun R => valOp R o.fn vs) s1 r' ↔ r' = (resOf r, s1) := by
    intro r'
    simp only [valOp_pure _ _ h.effect, hr]
    constructor
    · rintro ⟨_, n, hn⟩
      exact (hn n (Nat.le_refl n)).symm.trans (resOf_liftOpt r s1)
    · rintro rfl
      exact ⟨hne, 0, fun m _ => resOf_liftOpt r s1⟩
  simp only [this]
  constructor
  · rintro ⟨_, rfl, rfl⟩
    rfl
  · rintro rfl
    exact ⟨_, rfl, rfl⟩

theorem val_pure (r : Except Exc Val) : (some <$> r : Except Exc (Option Val)) = val r := by
  cases r <;> rfl

theorem unary_sym : ∀ p ∈ unarySyms X, Sym (op1 p.1) p.1 p.2.1 ∧ ∀ a, pureOp X (op1 p.1).fn [a] = p.2.2 a := by
  simp only [unarySyms, List.forall_mem_cons]
  and_intros
  all_goals first
    | (intro p hp; cases hp; done)
    | ((try dsimp only); decide +kernel)
    | (intro a
       first
        | exact val_pure _
        | rfl)

theorem binary_sym : ∀ p ∈ binarySyms X, Sym (op2 p.1) p.1 p.2.1 ∧ ∀ a b, pureOp X (op2 p.1).fn [a, b] = p.2.2 a b := by
  simp only [binarySyms, List.forall_mem_cons]
  and_intros
  all_goals first
    | (intro p hp; cases hp; done)
    | ((try dsimp only); decide +kernel)
    | (intro a b
       first
        | exact val_pure _
        | rfl)

theorem ternary_sym : ∀ p ∈ ternarySyms X, Sym (op3 p.1) p.1 p.2.1 ∧
    ∀ a b c, pureOp X (op3 p.1).fn [a, b, c] = p.2.2 a b c := by
  simp only [ternarySyms, List.forall_mem_cons]
  and_intros
  all_goals first
    | (intro p hp; cases hp; done)
    | ((try dsimp only); decide +kernel)
    | (intro a b c; exact val_pure _)

/-- **C73**, one operand -/
theorem C73_unary (n : Str) (k : Takes) (f : Val → Except Exc (Option Val)) (h : (n, k, f) ∈ unarySyms X) (a : Tree)
    (s s1 : St X) (v : Val) (ha : a.notOpr = true) (hv : Vals a s (.ok v, s1)) (hk : k.ok v = true)
    (hf : f v ≠ .error .fuel) (out : Outcome X Res) :
    Evals (.node (op1 n) [a]) s out ↔ out = died (resOf (f v), s1) :=
  (unary_sym _ h).1.evals (by simp [ha]) (mapEach_single hv) (by simpa using hk) ((unary_sym _ h).2 v) hf out

/-- **C73**, two operands -/
theorem C73_binary (n : Str) (k : Takes) (f : Val → Val → Except Exc (Option Val)) (h : (n, k, f) ∈ binarySyms X)
    (a b : Tree) (s s1 s2 : St X) (v w : Val) (ha : a.notOpr = true) (hb : b.notOpr = true) (hv : Vals a s (.ok v, s1))
    (hw : Vals b s1 (.ok w, s2)) (hk : k.ok v = true) (hk' : k.ok w = true) (hf : f v w ≠ .error .fuel)
    (out : Outcome X Res) :
    Evals (.node (op2 n) [a, b]) s out ↔ out = died (resOf (f v w), s2) :=
  (binary_sym _ h).1.evals (by simp [ha, hb]) (mapEach_two hv hw) (by simp [hk, hk']) ((binary_sym _ h).2 v w) hf out

/-- **C73**, three operands -/
theorem C73_ternary (n : Str) (k : Takes) (f : Val → Val → Val → Except Exc (Option Val)) (h : (n, k, f) ∈ ternarySyms X)
    (a b c : Tree) (s s1 s2 s3 : St X) (v w u : Val) (ha : a.notOpr = true) (hb : b.notOpr = true) (hc : c.notOpr = true)
    (hv : Vals a s (.ok v, s1)) (hw : Vals b s1 (.ok w, s2)) (hu : Vals c s2 (.ok u, s3)) (hk : k.ok v = true)
    (hk' : k.ok w = true) (hk'' : k.ok u = true) (hf : f v w u ≠ .error .fuel) (out : Outcome X Res) :
    Evals (.node (op3 n) [a, b, c]) s out ↔ out = died (resOf (f v w u), s3) :=
  (ternary_sym _ h).1.evals (by simp [ha, hb, hc])
    (MapEach.next (o := (.ok [w, u], s3)) hv (mapEach_two hw hu)) (by simp [hk, hk', hk'']) ((ternary_sym _ h).2 v w u) hf out

/-! ### Values -/

theorem C73_value_unary (n : Str) (k : Takes) (f : Val → Except Exc (Option Val)) (h : (n, k, f) ∈ unarySyms X) (a : Tree)
    (s s1 : St X) (v u : Val) (ha : a.notOpr = true) (hv : Vals a s (.ok v, s1)) (hk : k.ok v = true)
    (hf : f v = .ok (some u)) : Vals (.node (op1 n) [a]) s (.ok u, s1) :=
  .of_evals ((C73_unary n k f h a s s1 v ha hv hk (by simp [hf]) _).2 (by simp [hf, resOf, died]))

theorem C73_value_binary (n : Str) (k : Takes) (f : Val → Val → Except Exc (Option Val)) (h : (n, k, f) ∈ binarySyms X)
    (a b : Tree) (s s1 s2 : St X) (v w u : Val) (ha : a.notOpr = true) (hb : b.notOpr = true) (hv : Vals a s (.ok v, s1))
    (hw : Vals b s1 (.ok w, s2)) (hk : k.ok v = true) (hk' : k.ok w = true) (hf : f v w = .ok (some u)) :
    Vals (.node (op2 n) [a, b]) s (.ok u, s2) :=
  .of_evals ((C73_binary n k f h a b s s1 s2 v w ha hb hv hw hk hk' (by simp [hf]) _).2 (by simp [hf, resOf, died]))

theorem C73_value_ternary (n : Str) (k : Takes) (f : Val → Val → Val → Except Exc (Option Val))
    (h : (n, k, f) ∈ ternarySyms X) (a b c : Tree) (s s1 s2 s3 : St X) (v w u x : Val) (ha : a.notOpr = true)
    (hb : b.notOpr = true) (hc : c.notOpr = true) (hv : Vals a s (.ok v, s1)) (hw : Vals b s1 (.ok w, s2))
    (hu : Vals c s2 (.ok u, s3)) (hk : k.ok v = true) (hk' : k.ok w = true) (hk'' : k.ok u = true)
    (hf : f v w u = .ok (some x)) : Vals (.node (op3 n) [a, b, c]) s (.ok x, s3) :=
  .of_evals ((C73_ternary n k f h a b c s s1 s2 s3 v w u ha hb hc hv hw hu hk hk' hk'' (by simp [hf]) _).2
    (by simp [hf, resOf, died]))

/-! ### Lists and Ranges -/

/-- The items of an operand of a kind that is taken apart -/
def Takes.itemsOf (k : Takes) : Val → Option (List Val)
  | .list l => if k.lists then some l else none
  | .range lo (some hi) => if k.ranges then some ((rangeInts lo hi).map ofInt) else none
  | _ => none

theorem Sym.itemwise {o : Op} {n : Str} {k : Takes} (h : Sym o n k) {v : Val} {l : List Val} (hv : k.itemsOf v = some l) :
    Itemwise o v l := by
  unfold Takes.itemsOf at hv
  split at hv
  · split at hv
    · cases hv
      exact .list _ (h.list.trans ‹_›)
    · cases hv
  · split at hv
    · cases hv
      exact .range _ _ (h.range.trans ‹_›)
    · cases hv
  · cases hv

theorem mapEach_const {α β : Type} {P : α → St X → Outcome X β → Prop} (g : α → β) (s : St X) : ∀ (l : List α),
    (∀ x ∈ l, P x s (.ok (g x), s)) → MapEach P l s (.ok (l.map g), s)
  | [], _ => .nil
  | x :: l, h => MapEach.next (o := (.ok (l.map g), s)) (h x (by simp)) (mapEach_const g s l fun y hy => h y (by simp [hy]))

/-- One operand that is taken apart: the List of the results of the method on the items -/
theorem C73_items_unary (n : Str) (k : Takes) (f : Val → Except Exc (Option Val)) (h : (n, k, f) ∈ unarySyms X) (a : Tree)
    (s s1 : St X) (v : Val) (l : List Val) (g : Val → Val) (ha : a.notOpr = true) (hv : Vals a s (.ok v, s1))
    (hl : k.itemsOf v = some l) (hk : ∀ x ∈ l, k.ok x = true) (hf : ∀ x ∈ l, f x = .ok (some (g x))) :
    Vals (.node (op1 n) [a]) s (.ok (.list (l.map g)), s1) := by
  have hs := (unary_sym _ h).1
  refine .of_evals ((C27_unary _ hs.toRvals a s s1 v l ha hv (hs.itemwise hl) _).2 ⟨(.ok (l.map g), s1), ?_, rfl⟩)
  refine mapEach_const g s1 l fun x hx => item_ok.2 ?_
  exact (C73_unary n k f h (.val x) s1 s1 x rfl (vals_val.2 rfl) (hk x hx) (by simp [hf x hx]) _).2
    (by simp [hf x hx, resOf, died])

/-- Only the left operand is taken apart. -/
theorem C73_items_left (n : Str) (k : Takes) (f : Val → Val → Except Exc (Option Val)) (h : (n, k, f) ∈ binarySyms X)
    (a b : Tree) (s s1 s2 : St X) (v w : Val) (l : List Val) (g : Val → Val) (ha : a.notOpr = true) (hb : b.notOpr = true)
    (hv : Vals a s (.ok v, s1)) (hw : Vals b s1 (.ok w, s2)) (hl : k.itemsOf v = some l) (hkw : k.ok w = true)
    (hwb : w.isBlock = false) (hk : ∀ x ∈ l, k.ok x = true) (hf : ∀ x ∈ l, f x w = .ok (some (g x))) :
    Vals (.node (op2 n) [a, b]) s (.ok (.list (l.map g)), s2) := by
  have hs := (binary_sym _ h).1
  refine .of_evals ((C27_left _ hs.toRvals a b s s1 s2 v w l ha hb hv hw (hs.itemwise hl) (hs.expands hkw) hwb _).2
    ⟨(.ok (l.map g), s2), ?_, rfl⟩)
  refine mapEach_const g s2 l fun x hx => item_ok.2 ?_
  exact (C73_binary n k f h (.val x) (.val w) s2 s2 s2 x w rfl rfl (vals_val.2 rfl) (vals_val.2 rfl) (hk x hx) hkw
    (by simp [hf x hx]) _).2 (by simp [hf x hx, resOf, died])

/-- Only the right operand is taken apart. -/
theorem C73_items_right (n : Str) (k : Takes) (f : Val → Val → Except Exc (Option Val)) (h : (n, k, f) ∈ binarySyms X)
    (a b : Tree) (s s1 s2 : St X) (v w : Val) (l : List Val) (g : Val → Val) (ha : a.notOpr = true) (hb : b.notOpr = true)
    (hv : Vals a s (.ok v, s1)) (hw : Vals b s1 (.ok w, s2)) (hl : k.itemsOf w = some l) (hkv : k.ok v = true)
    (hvb : v.isBlock = false) (hk : ∀ x ∈ l, k.ok x = true) (hf : ∀ x ∈ l, f v x = .ok (some (g x))) :
    Vals (.node (op2 n) [a, b]) s (.ok (.list (l.map g)), s2) := by
  have hs := (binary_sym _ h).1
  refine .of_evals ((C27_right _ hs.toRvals a b s s1 s2 v w l ha hb hv hw (hs.expands hkv) hvb (hs.itemwise hl) _).2
    ⟨(.ok (l.map g), s2), ?_, rfl⟩)
  refine mapEach_const g s2 l fun x hx => item_ok.2 ?_
  exact (C73_binary n k f h (.val v) (.val x) s2 s2 s2 v x rfl rfl (vals_val.2 rfl) (vals_val.2 rfl) hkv (hk x hx)
    (by simp [hf x hx]) _).2 (by simp [hf x hx, resOf, died])

/-- Both operands are taken apart: results for the pairs of items, then the items without partner. -/
theorem C73_items_both (n : Str) (k : Takes) (f : Val → Val → Except Exc (Option Val)) (h : (n, k, f) ∈ binarySyms X)
    (a b : Tree) (s s1 s2 : St X) (v w : Val) (l m : List Val) (g : Val → Val → Val) (ha : a.notOpr = true)
    (hb : b.notOpr = true) (hv : Vals a s (.ok v, s1)) (hw : Vals b s1 (.ok w, s2)) (hl : k.itemsOf v = some l)
    (hm : k.itemsOf w = some m) (hk : ∀ p ∈ l.zip m, k.ok p.1 = true ∧ k.ok p.2 = true)
    (hf : ∀ p ∈ l.zip m, f p.1 p.2 = .ok (some (g p.1 p.2))) :
    Vals (.node (op2 n) [a, b]) s
      (.ok (.list ((l.zip m).map (fun p => g p.1 p.2) ++ (l.drop m.length ++ m.drop l.length))), s2) := by
  have hs := (binary_sym _ h).1
  refine .of_evals ((C27_both _ hs.toRvals a b s s1 s2 v w l m ha hb hv hw (hs.itemwise hl) (hs.itemwise hm) _).2
    ⟨(.ok ((l.zip m).map fun p => g p.1 p.2), s2), ?_, rfl⟩)
  refine mapEach_const (fun p : Val × Val => g p.1 p.2) s2 (l.zip m) fun p hp => item_ok.2 ?_
  exact (C73_binary n k f h (.val p.1) (.val p.2) s2 s2 s2 p.1 p.2 rfl rfl (vals_val.2 rfl) (vals_val.2 rfl) (hk p hp).1
    (hk p hp).2 (by simp [hf p hp]) _).2 (by simp [hf p hp, resOf, died])

/-! ### Cases -/

/-- Looking up a row of a table -/
macro "row" : tactic => `(tactic| (
  first | unfold unarySyms | unfold binarySyms | unfold ternarySyms
  repeat first
    | exact List.mem_cons_self
    | apply List.mem_cons_of_mem))

/-- Arithmetic in expressions -/
theorem C73_integers (a b : Tree) (s s1 s2 : St X) (i j : Int) (ha : a.notOpr = true) (hb : b.notOpr = true)
    (hv : Vals a s (.ok (ofInt i), s1)) (hw : Vals b s1 (.ok (ofInt j), s2)) :
    Vals (.node (op2 (s% "+")) [a, b]) s (.ok (ofInt (i + j)), s2) ∧
    Vals (.node (op2 (s% "-")) [a, b]) s (.ok (ofInt (i - j)), s2) ∧
    Vals (.node (op2 (s% "*")) [a, b]) s (.ok (ofInt (i * j)), s2) ∧
    (j ≠ 0 → Vals (.node (op2 (s% "//")) [a, b]) s (.ok (ofInt (i.fdiv j)), s2) ∧
      Vals (.node (op2 (s% "%")) [a, b]) s (.ok (ofInt (i.fmod j)), s2)) ∧
    Vals (.node (op2 (s% "<")) [a, b]) s (.ok (ofBool (i < j)), s2) ∧
    Vals (.node (op2 (s% ">")) [a, b]) s (.ok (ofBool (i > j)), s2) ∧
    Vals (.node (op2 (s% "=")) [a, b]) s (.ok (ofBool (i = j)), s2) := by
  have key : ∀ (n : Str) (k : Takes) (f : Val → Val → Except Exc Val) (u : Val), (n, k, fun a b => val (f a b)) ∈ binarySyms X →
      f (ofInt i) (ofInt j) = .ok u → Vals (.node (op2 n) [a, b]) s (.ok u, s2) := by
    intro n k f u h hu
    exact C73_value_binary n k _ h a b s s1 s2 _ _ u ha hb hv hw (by cases k <;> rfl) (by cases k <;> rfl) (by rw [hu]; rfl)
  obtain ⟨h1, h2, h3, _⟩ := C40_exact X i j
  refine ⟨key _ .items1 _ _ ?_ h1, key _ .items1 _ _ ?_ h2, key _ .items2 _ _ ?_ h3, fun hj => ⟨key _ .items2 (opINTDIV X) _ ?_ ?_,
    key _ .items2 (fun a b => opMOD X a (some b)) _ ?_ ?_⟩, key _ .whole (opNUMLESS X) _ ?_ ?_, key _ .whole (opNUMGREATER X) _ ?_ ?_,
    key _ .whole (opNUMEQUAL X) _ ?_ ?_⟩
  · row
  · row
  · row
  · row
  · simp only [ofInt, opINTDIV, toNum_showInt, nfloordiv, if_neg hj, bind, Except.bind, pure, Except.pure, zeroDivNil,
      ofNum, numStr]
  · row
  · simp only [ofInt, opMOD, toNum_showInt, nmod, if_neg hj, bind, Except.bind, pure, Except.pure, zeroDivNil,
      ofNum, numStr, Option.getD_some]
  · row
  · exact (C55_integers X i j).2.2.1
  · row
  · exact (C55_integers X i j).2.2.2.1
  · row
  · exact (C55_integers X i j).1

example (s : St X) : Vals (.node (op2 (s% "+")) [.val (ofInt 2), .node (op2 (s% "*")) [.val (ofInt 3), .val (ofInt 4)]]) s
    (.ok (ofInt 14), s) := by
  have h := (C73_integers (.val (ofInt 3)) (.val (ofInt 4)) s s s 3 4 rfl rfl (vals_val.2 rfl) (vals_val.2 rfl)).2.2.1
  exact (C73_integers (.val (ofInt 2)) _ s s s 2 12 rfl rfl (vals_val.2 rfl) h).1

/-- Item-wise: the lengths of the tables, and some programs -/
example : (unarySyms X).length = 90 ∧ (binarySyms X).length = 73 ∧ (ternarySyms X).length = 3 := ⟨rfl, rfl, rfl⟩
example : toyOut (s% "P2+3*4P*[1 2 3]+[10 20]P5>3P\"ab\".7P#\"abc\"") [] [] =
    some (s% "14\n11\n22\n3\n1\nab7\n3\n3\n") := by decide +kernel

end Pip
