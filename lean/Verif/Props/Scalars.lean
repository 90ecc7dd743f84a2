import Mathlib.Data.ENat.Basic
import Verif.Model.OpsSeq
import Verif.Lemmas.Seq
import Verif.Props.Table
import Verif.Props.Control
/-!
# C74–C77: character codes, lengths, equality, eager logic
-/

namespace Pip
variable {X : Ext}

/-! ### C74: character codes -/

/-- `A` gives the code of the first character, and `C` turns it back into that character. -/
theorem C74_chr_asc (c : Char) (s : Str) :
    opASC (.scalar (c :: s)) = .ok (ofInt c.toNat) ∧ opCHR (ofInt c.toNat) = .ok (.scalar [c]) := by
  refine ⟨rfl, ?_⟩
  have hv : c.toNat.isValidChar := c.valid
  have h1 : ¬((c.toNat : Int) < -2147483648 ∨ (c.toNat : Int) > 2147483647) := by
    rcases hv with h | ⟨_, h⟩ <;> omega
  have h2 : ¬((c.toNat : Int) < 0 ∨ (c.toNat : Int) ≥ 0x110000) := by
    rcases hv with h | ⟨_, h⟩ <;> omega
  have h3 : ¬(0xD800 ≤ (c.toNat : Int) ∧ (c.toNat : Int) < 0xE000) := by
    rcases hv with h | ⟨_, h⟩ <;> omega
  simp only [opCHR, ofInt, toInt_showInt, pyChr, if_neg h1, if_neg h2, if_neg h3, bind, Except.bind, pure, Except.pure,
    Int.toNat_natCast, Char.ofNat_toNat]

/-- `C` succeeds exactly for the codes of characters, and `A` turns the result back into the code. -/
theorem C74_asc_chr (n : Int) (v : Val) :
    opCHR (ofInt n) = .ok v ↔ 0 ≤ n ∧ n.toNat.isValidChar ∧ ∃ c : Char, v = .scalar [c] ∧ opASC v = .ok (ofInt n) := by
  constructor
  · intro h
    simp only [opCHR, ofInt, toInt_showInt, pyChr] at h
    split at h
    · cases h
    · split at h
      · cases h
      · split at h
        · cases h
        · simp only [bind, Except.bind, pure, Except.pure, Except.ok.injEq] at h
          have hv : n.toNat.isValidChar := by
            unfold Nat.isValidChar
            omega
          refine ⟨by omega, hv, _, h.symm, ?_⟩
          subst h
          have : (Char.ofNat n.toNat).toNat = n.toNat := by simp [Char.ofNat, hv, Char.ofNatAux, Char.toNat]
          simp only [opASC, this]
          rw [Int.toNat_of_nonneg (by omega)]
  · rintro ⟨h0, hv, c, rfl, h⟩
    simp only [opASC, Except.ok.injEq] at h
    have : (c.toNat : Int) = n := showInt_inj (Val.scalar.inj h)
    rw [← this]
    exact (C74_chr_asc c []).2

/-- The empty string has no code; the codes that are no characters end the program with an uncaught exception. -/
theorem C74_failures (n : Int) : opASC (.scalar []) = .ok .nil ∧
    (n < 0 ∨ 0x110000 ≤ n → opCHR (ofInt n) = .error .valueError ∨ opCHR (ofInt n) = .error .overflow) := by
  refine ⟨rfl, fun h => ?_⟩
  simp only [opCHR, ofInt, toInt_showInt, pyChr]
  by_cases h1 : n < -2147483648 ∨ n > 2147483647
  · rw [if_pos h1]
    exact .inr rfl
  · rw [if_neg h1, if_pos (by omega)]
    exact .inl rfl

example : opASC (.scalar (s% "€uro")) = .ok (ofInt 8364) ∧ opCHR (ofInt 8364) = .ok (.scalar (s% "€")) := C74_chr_asc '€' _
example : toyOut (s% "P A\"abc\"P C97P*A[\"x\"\"yz\"]") [] [] = some (s% "97\na\n120\n121\n120121\n") := by decide +kernel

/-! ### C75: lengths -/

/-- How many items a value has, if it has items at all -/
def size : Val → Option ℕ∞
  | .scalar s => some s.length
  | .list l => some l.length
  | .range lo (some hi) => some (hi - lo.getD 0).toNat
  | .range _ none => some ⊤
  | _ => none

theorem size_none {v : Val} (h : size v = none) : v.isIterable = false := by
  rcases v with s | ⟨r, f⟩ | l | ⟨lo, hi | hi⟩ | ⟨a, b⟩ | _ <;> first | rfl | cases h

/-- The size in terms of the methods of the model -/
theorem size_some {v : Val} {m : ℕ∞} (h : size v = some m) :
    v.isIterable = true ∧ ((∃ n : Nat, m = n ∧ v.len = .ok n ∧ v.isInf = false) ∨
      (m = ⊤ ∧ (∃ e, v.len = .error e) ∧ v.isInf = true ∧ v.isRange = true)) := by
  rcases v with s | ⟨r, f⟩ | l | ⟨lo, hi | hi⟩ | ⟨a, b⟩ | _ <;> first | (cases h; done) | skip
  · exact ⟨rfl, .inl ⟨s.length, (Option.some.inj h).symm, rfl, rfl⟩⟩
  · exact ⟨rfl, .inl ⟨l.length, (Option.some.inj h).symm, rfl, rfl⟩⟩
  · exact ⟨rfl, .inr ⟨(Option.some.inj h).symm, ⟨_, rfl⟩, rfl, rfl⟩⟩
  · exact ⟨rfl, .inl ⟨_, (Option.some.inj h).symm, by simp [Val.len, lo0], rfl⟩⟩

theorem C75_len (v : Val) :
    (∀ n : Nat, size v = some n → opLEN v = .ok (ofInt n)) ∧ (size v = none ∨ size v = some ⊤ → opLEN v = .ok .nil) := by
  constructor
  · intro n h
    obtain ⟨h1, ⟨k, h2, h3, _⟩ | ⟨h2, _⟩⟩ := size_some h
    · have : n = k := by exact_mod_cast h2
      subst this
      simp [opLEN, h1, h3]
    · exact absurd h2 (ENat.natCast_ne_top n)
  · rintro (h | h)
    · simp [opLEN, size_none h]
    · obtain ⟨h1, ⟨k, h2, _⟩ | ⟨_, ⟨e, h3⟩, _⟩⟩ := size_some h
      · exact absurd h2.symm (ENat.natCast_ne_top k)
      · simp [opLEN, h1, h3]

theorem C75_compare (v w : Val) (m n : ℕ∞) (hv : size v = some m) (hw : size w = some n) :
    ∃ e l g, opLENEQUAL v w = .ok (ofBool e) ∧ opLENLESS v w = .ok (ofBool l) ∧ opLENGREATER v w = .ok (ofBool g) ∧
      (e = true ↔ m = n) ∧ (l = true ↔ m < n) ∧ (g = true ↔ n < m) := by
  obtain ⟨h1, ⟨i, rfl, h2, h3⟩ | ⟨rfl, ⟨e, h2⟩, h3, h3'⟩⟩ := size_some hv <;>
    obtain ⟨h4, ⟨j, rfl, h5, h6⟩ | ⟨rfl, ⟨e', h5⟩, h6, h6'⟩⟩ := size_some hw
  · refine ⟨i == j, decide (i < j), decide (i > j), ?_, ?_, ?_, ?_, ?_, ?_⟩ <;>
      simp [opLENEQUAL, opLENLESS, opLENGREATER, h1, h2, h4, h5]
  · refine ⟨false, true, false, ?_, ?_, ?_, ?_, ?_, ?_⟩ <;>
      simp [opLENEQUAL, opLENLESS, opLENGREATER, h1, h2, h3, h4, h5, h6, h6']
  · refine ⟨false, false, true, ?_, ?_, ?_, ?_, ?_, ?_⟩ <;>
      simp [opLENEQUAL, opLENLESS, opLENGREATER, h1, h2, h3, h3', h4, h5, h6]
  · refine ⟨true, false, false, ?_, ?_, ?_, ?_, ?_, ?_⟩ <;>
      simp [opLENEQUAL, opLENLESS, opLENGREATER, h1, h2, h3, h3', h4, h5, h6, h6']

/-- Values without items have no length to compare. -/
theorem C75_none (v w : Val) (h : size v = none ∨ size w = none) :
    opLENEQUAL v w = .ok .nil ∧ opLENLESS v w = .ok .nil ∧ opLENGREATER v w = .ok .nil := by
  rcases h with h | h <;> simp [opLENEQUAL, opLENLESS, opLENGREATER, size_none h]

example : size (.scalar (s% "abc")) = some (3 : Nat) ∧ size (.range (some 2) (some 7)) = some (5 : Nat) ∧
    size (.range (some 2) none) = some ⊤ := ⟨rfl, rfl, rfl⟩
example : toyOut (s% "P#\"abc\"P#[1 2 3 4]P(#,7)P(\"ab\"#<\"abc\")P((1,())#>,9)P(1#=2#=3)") [] [] =
    some (s% "3\n4\n7\n1\n1\n1\n1\n") := by decide +kernel

/-! ### C76: equality and negation -/

mutual
theorem pyEq_refl : ∀ v : Val, pyEq v v = true
  | .scalar _ => by simp [pyEq]
  | .pattern _ _ => by simp [pyEq]
  | .list l => by simpa [pyEq] using pyEqs_refl l
  | .range _ _ => by simp [pyEq]
  | .block a r => by simp [pyEq, treeEqs_refl a, treeEq_refl r]
  | .nil => by simp [pyEq]
theorem pyEqs_refl : ∀ l : List Val, pyEqs l l = true
  | [] => by simp [pyEqs]
  | v :: l => by simp [pyEqs, pyEq_refl v, pyEqs_refl l]
theorem treeEq_refl : ∀ t : Tree, treeEq t t = true
  | .tok _ => by simp [treeEq]
  | .node _ a => by simp [treeEq, treeEqs_refl a]
  | .cmd _ a => by simp [treeEq, treeEqs_refl a]
  | .code a => by simpa [treeEq] using treeEqs_refl a
  | .opr _ => by simp [treeEq]
  | .val a => by simpa [treeEq] using pyEq_refl a
  | .lval _ => by simp [treeEq]
theorem treeEqs_refl : ∀ l : List Tree, treeEqs l l = true
  | [] => by simp [treeEqs]
  | v :: l => by simp [treeEqs, treeEq_refl v, treeEqs_refl l]
end

mutual
theorem pyEq_trans : ∀ u v w : Val, pyEq u v = true → pyEq v w = true → pyEq u w = true
  | .scalar _, v, w => by cases v <;> cases w <;> simp_all [pyEq]
  | .pattern _ _, v, w => by cases v <;> cases w <;> simp_all [pyEq]
  | .range _ _, v, w => by cases v <;> cases w <;> simp_all [pyEq]
  | .nil, v, w => by cases v <;> cases w <;> simp_all [pyEq]
  | .list l, v, w => by
    intro h1 h2
    cases v <;> try (simp [pyEq] at h1; done)
    cases w <;> try (simp [pyEq] at h2; done)
    simp only [pyEq] at h1 h2 ⊢
    exact pyEqs_trans l _ _ h1 h2
  | .block a r, v, w => by
    intro h1 h2
    cases v <;> try (simp [pyEq] at h1; done)
    cases w <;> try (simp [pyEq] at h2; done)
    simp only [pyEq, Bool.and_eq_true] at h1 h2 ⊢
    exact ⟨treeEqs_trans a _ _ h1.1 h2.1, treeEq_trans r _ _ h1.2 h2.2⟩
theorem pyEqs_trans : ∀ l m n : List Val, pyEqs l m = true → pyEqs m n = true → pyEqs l n = true
  | [], m, n => by cases m <;> cases n <;> simp [pyEqs]
  | u :: l, m, n => by
    intro h1 h2
    cases m <;> try (simp [pyEqs] at h1; done)
    cases n <;> try (simp [pyEqs] at h2; done)
    simp only [pyEqs, Bool.and_eq_true] at h1 h2 ⊢
    exact ⟨pyEq_trans u _ _ h1.1 h2.1, pyEqs_trans l _ _ h1.2 h2.2⟩
theorem treeEq_trans : ∀ u v w : Tree, treeEq u v = true → treeEq v w = true → treeEq u w = true
  | .tok _, v, w => by cases v <;> cases w <;> simp_all [treeEq]
  | .opr _, v, w => by cases v <;> cases w <;> simp_all [treeEq]
  | .lval _, v, w => by cases v <;> cases w <;> simp_all [treeEq]
  | .node o a, v, w => by
    intro h1 h2
    cases v <;> try (simp [treeEq] at h1; done)
    cases w <;> try (simp [treeEq] at h2; done)
    simp only [treeEq, Bool.and_eq_true, beq_iff_eq] at h1 h2 ⊢
    exact ⟨h1.1.trans h2.1, treeEqs_trans a _ _ h1.2 h2.2⟩
  | .cmd o a, v, w => by
    intro h1 h2
    cases v <;> try (simp [treeEq] at h1; done)
    cases w <;> try (simp [treeEq] at h2; done)
    simp only [treeEq, Bool.and_eq_true, beq_iff_eq] at h1 h2 ⊢
    exact ⟨h1.1.trans h2.1, treeEqs_trans a _ _ h1.2 h2.2⟩
  | .code a, v, w => by
    intro h1 h2
    cases v <;> try (simp [treeEq] at h1; done)
    cases w <;> try (simp [treeEq] at h2; done)
    simp only [treeEq] at h1 h2 ⊢
    exact treeEqs_trans a _ _ h1 h2
  | .val a, v, w => by
    intro h1 h2
    cases v <;> try (simp [treeEq] at h1; done)
    cases w <;> try (simp [treeEq] at h2; done)
    simp only [treeEq] at h1 h2 ⊢
    exact pyEq_trans a _ _ h1 h2
theorem treeEqs_trans : ∀ l m n : List Tree, treeEqs l m = true → treeEqs m n = true → treeEqs l n = true
  | [], m, n => by cases m <;> cases n <;> simp [treeEqs]
  | u :: l, m, n => by
    intro h1 h2
    cases m <;> try (simp [treeEqs] at h1; done)
    cases n <;> try (simp [treeEqs] at h2; done)
    simp only [treeEqs, Bool.and_eq_true] at h1 h2 ⊢
    exact ⟨treeEq_trans u _ _ h1.1 h2.1, treeEqs_trans l _ _ h1.2 h2.2⟩
end

/-- `==` compares exactly: on data it is equality. -/
theorem C76_data (v w : Val) (h : v.plain = true) : opOBJEQUAL v w = .ok (ofBool (decide (v = w))) := by
  have := pyEq_plain v w h
  simp only [opOBJEQUAL]
  congr 2
  by_cases e : v = w
  · rw [this.2 e, decide_eq_true e]
  · simp only [e, decide_false]
    exact Bool.eq_false_iff.2 fun h => e (this.1 h)

/-- `==` is an equivalence on all values, also on functions. -/
theorem C76_equivalence (u v w : Val) :
    opOBJEQUAL v v = .ok (ofBool true) ∧ opOBJEQUAL v w = opOBJEQUAL w v ∧
    (opOBJEQUAL u v = .ok (ofBool true) → opOBJEQUAL v w = .ok (ofBool true) → opOBJEQUAL u w = .ok (ofBool true)) := by
  have inj : ∀ {b : Bool}, ofBool b = ofBool true → b = true := by
    intro b
    cases b
    · intro h
      exact absurd h (by simp [ofBool, boolStr])
    · exact fun _ => rfl
  refine ⟨by simp only [opOBJEQUAL, pyEq_refl], by simp only [opOBJEQUAL, pyEq_symm v w], fun h1 h2 => ?_⟩
  simp only [opOBJEQUAL, Except.ok.injEq] at h1 h2 ⊢
  rw [pyEq_trans u v w (inj h1) (inj h2)]

/-- `!` gives 1 for false values and 0 for true ones. -/
theorem C76_not (v : Val) :
    opNOT v = .ok (ofBool (!v.truthy)) ∧ ∀ u, opNOT v = .ok u → u.truthy = !v.truthy ∧ opNOT u = .ok (ofBool v.truthy) := by
  refine ⟨rfl, fun u h => ?_⟩
  simp only [opNOT, Except.ok.injEq] at h
  subst h
  cases hv : v.truthy <;> exact ⟨by decide +kernel, by decide +kernel⟩

example : toyOut (s% "P\"1\"==1P1==1.0P[1[2 3]]==[1[2 3]]P(,3)==[0 1 2]P{a+1}=={a + 1}P!0P!\"a\"P!!5") [] [] =
    some (s% "1\n0\n1\n0\n1\n1\n0\n1\n1\n") := by decide +kernel

/-! ### C77: eager logic -/

/-- The operators `\&`, `\|` and `\?` evaluate all operands, from left to right, and choose by the truth value of the
first one. -/
theorem C77_eager (a b c : Tree) (s s1 s2 s3 : St X) (v w u : Val) (ha : a.notOpr = true) (hb : b.notOpr = true)
    (hc : c.notOpr = true) (hv : Vals a s (.ok v, s1)) (hw : Vals b s1 (.ok w, s2)) (hu : Vals c s2 (.ok u, s3))
    (hv0 : v.isBlock = false) (hw0 : w.isBlock = false) (hu0 : u.isBlock = false) :
    Vals (.node (op2 (s% "\\&")) [a, b]) s (.ok (if v.truthy then w else v), s2) ∧
    Vals (.node (op2 (s% "\\|")) [a, b]) s (.ok (if v.truthy then v else w), s2) ∧
    Vals (.node (op3 (s% "\\?")) [a, b, c]) s (.ok (if v.truthy then w else u), s3) := by
  refine ⟨C73_value_binary _ .whole (fun a b => val (opRVALAND a b)) ?_ a b s s1 s2 v w _ ha hb hv hw ?_ ?_ rfl,
    C73_value_binary _ .whole (fun a b => val (opRVALOR a b)) ?_ a b s s1 s2 v w _ ha hb hv hw ?_ ?_ rfl,
    C73_value_ternary _ .whole (fun a b c => val (opRVALIFTE a b c)) ?_ a b c s s1 s2 s3 v w u _ ha hb hc hv hw hu ?_ ?_ ?_ rfl⟩
  all_goals first
    | row
    | simp [Takes.ok, hv0, hw0, hu0]

/-- If the second operand changes nothing, the eager and the lazy operators give the same. -/
theorem C77_agree (a b : Tree) (s s1 : St X) (v w : Val) (ha : a.notOpr = true) (hb : b.notOpr = true)
    (hv : Vals a s (.ok v, s1)) (hw : Vals b s1 (.ok w, s1)) (hv0 : v.isBlock = false) (hw0 : w.isBlock = false) (u : Val)
    (s' : St X) :
    (Vals (.node (op2 (s% "\\&")) [a, b]) s (.ok u, s') ↔ Vals (.node (op2 (s% "&")) [a, b]) s (.ok u, s')) ∧
    (Vals (.node (op2 (s% "\\|")) [a, b]) s (.ok u, s') ↔ Vals (.node (op2 (s% "|")) [a, b]) s (.ok u, s')) := by
  obtain ⟨h1, h2, _⟩ := C77_eager a b b s s1 s1 s1 v w w ha hb hb hv hw hw hv0 hw0 hw0
  have same : ∀ {t t' : Tree} {x : Val}, Vals t s (.ok x, s1) → Vals t' s (.ok x, s1) →
      (Vals t s (.ok u, s') ↔ Vals t' s (.ok u, s')) := by
    intro t t' x h h'
    constructor
    · intro g
      rwa [← h.det g]
    · intro g
      rwa [← h'.det g]
  refine ⟨same h1 (.of_evals ((C23_and a b s _).2 ⟨(.ok (.v _), s1), .ok hv ?_, rfl⟩)),
    same h2 (.of_evals ((C23_or a b s _).2 ⟨(.ok (.v _), s1), .ok hv ?_, rfl⟩))⟩
  · cases v.truthy
    · simp
    · exact ⟨((.ok w, s1) : Outcome X Val), hw, rfl⟩
  · cases v.truthy
    · exact ⟨((.ok w, s1) : Outcome X Val), hw, rfl⟩
    · simp

example : toyOut (s% "x:0(0&Ux)P x(0\\&Ux)P x1|Ux P x1\\|Ux P x P1\\?2 3") [] [] = some (s% "0\n1\n1\n2\n2\n2\n") := by
  decide +kernel

end Pip
