import Verif.Lemmas.Runs
import Verif.Spec.Toy
/-! # C66, C20, C19, C18: determinism, streams and frames of evaluation -/

namespace Pip
variable {X : Ext} {α : Type}

/-! ### C66: the budget does not matter -/

/-- If an expression, a statement or a call ends within some budget, every larger budget gives the same outcome and
state. -/
theorem C66_eval (t : Tree) (n m : Nat) (h : n ≤ m) (s : St X) (hf : ((run X n).ev t s).1 ≠ .error .fuel) :
    (run X m).ev t s = (run X n).ev t s := by
  rcases (budgetCong X).run n m h |>.ev t s with e | e
  · exact absurd e hf
  · exact e.symm

theorem C66_exec (t : Tree) (n m : Nat) (h : n ≤ m) (s : St X) (hf : ((run X n).exec t s).1 ≠ .error .fuel) :
    (run X m).exec t s = (run X n).exec t s := by
  rcases (budgetCong X).run n m h |>.exec t s with e | e
  · exact absurd e hf
  · exact e.symm

theorem mono_program (stmts : List Tree) (args : List Val) (s : St X) (n m : Nat) (h : n ≤ m)
    (hf : (executeProgram (run X n) stmts args s).1 ≠ .error .fuel) :
    executeProgram (run X m) stmts args s = executeProgram (run X n) stmts args s := by
  have key : (budgetCong X).rel (executeProgram (run X n) stmts args) (executeProgram (run X m) stmts args) := by
    unfold executeProgram
    split
    · exact (budgetCong X).pure _
    · refine (budgetCong X).bind (fun s => .inr rfl) fun _ => ?_
      refine (budgetCong X).bind (Cong.callVal ((budgetCong X).run n m h) _ _) fun v => ?_
      exact fun s => .inr rfl
  rcases key s with e | e
  · exact absurd e hf
  · exact e.symm

/-- A whole program that ends within a budget has one outcome. -/
theorem C66_program (stmts : List Tree) (args : List Val) (s : St X) (n m : Nat)
    (hn : (executeProgram (run X n) stmts args s).1 ≠ .error .fuel)
    (hm : (executeProgram (run X m) stmts args s).1 ≠ .error .fuel) :
    executeProgram (run X n) stmts args s = executeProgram (run X m) stmts args s := by
  rcases Nat.le_total n m with h | h
  · exact (mono_program stmts args s n m h hn).symm
  · exact mono_program stmts args s m n h hm

/-- An expression that ends within some budget has exactly one outcome. -/
theorem C66_outcome (t : Tree) (s : St X) (n : Nat) (hf : ((run X n).ev t s).1 ≠ .error .fuel) :
    ∃ o, Evals t s o ∧ ∀ o', Evals t s o' → o' = o :=
  ⟨_, (mono_ev t).runs rfl hf, fun _ h => h.det ((mono_ev t).runs rfl hf)⟩

/-- The hypothesis is met by the expression `x` with budget 1, which budget 0 is not enough for. -/
example : ((run toyExt 1).ev (var (s% "x")) (toySt [])).1 ≠ .error .fuel ∧
    ((run toyExt 0).ev (var (s% "x")) (toySt [])).1 = .error .fuel := by
  refine ⟨?_, rfl⟩
  decide

/-! ### C20: streams -/

/-- Whatever an expression does, within whatever budget, what has been printed stays printed and input is consumed from
the front. -/
theorem C20_eval (t : Tree) (n : Nat) (s : St X) : Streams s ((run X n).ev t s).2 := (mono_ev t).streams n s
theorem C20_exec (t : Tree) (n : Nat) (s : St X) : Streams s ((run X n).exec t s).2 := (mono_exec t).streams n s

theorem C20_program (stmts : List Tree) (args : List Val) (n : Nat) (s : St X) :
    Streams s (executeProgram (run X n) stmts args s).2 := by
  have key : (streamCong X).rel (executeProgram (run X n) stmts args) (executeProgram (run X n) stmts args) := by
    unfold executeProgram
    split
    · exact (streamCong X).pure _
    · refine (streamCong X).bind (y := setMain (blockOf stmts) args) (fun s => ?_) fun _ => ?_
      · exact ⟨List.prefix_refl _, List.suffix_refl _⟩
      · refine (streamCong X).bind (Cong.callVal ((streamCong X).run n n (Nat.le_refl n)) _ _) fun v => ?_
        unfold opPRINT
        split
        · exact (streamCong X).pure _
        · exact (streamCong X).emit _
  exact key s

/-- A program that prints a line it has read -/
example : (executeProgram (run toyExt 20) [.node (op1 (s% "P")) [var (s% "q")]] [] (toySt [s% "u", s% "v"])).2.out =
    s% "u\nu\n" := by decide
example : (executeProgram (run toyExt 20) [.node (op1 (s% "P")) [var (s% "q")]] [] (toySt [s% "u", s% "v"])).2.inp =
    [s% "v"] := by decide

/-! ### C19: frames -/

/-- Evaluating an expression that returns, if no SK or DK had to swallow a TypeError, leaves every suspended scope, the
call depth and the running function as they were. -/
theorem C19_eval (t : Tree) (s s' : St X) (r : Res) (h : Evals t s (.ok r, s')) (hs : s'.swallowed = s.swallowed) :
    Framed s s' := by
  obtain ⟨_, n, hn⟩ := h
  have := (mono_ev t).frame n s
  rw [show (run X n).ev t s = _ from hn n (Nat.le_refl n)] at this
  exact this.2 r rfl hs

theorem C19_exec (t : Tree) (s s' : St X) (r : Option Val) (h : Execs t s (.ok r, s'))
    (hs : s'.swallowed = s.swallowed) : Framed s s' := by
  obtain ⟨_, n, hn⟩ := h
  have := (mono_exec t).frame n s
  rw [show (run X n).exec t s = _ from hn n (Nat.le_refl n)] at this
  exact this.2 r rfl hs

/-- The text of the deviation below -/
def leakText : Str := s% "[1]SK{(l@<2)+:{a}}"
/-- and its tree -/
def leakTree : Tree :=
  .node (op2 (s% "SK")) [.node enlistOp [.tok ⟨.num, s% "1"⟩], .node blockOp [.code [
    .node { op2 (s% "+") with assign := true, prec := 1, assoc := .right } [
      .node parenOp [.node (op2 (s% "@<")) [var (s% "l"), .tok ⟨.num, s% "2"⟩]],
      .node blockOp [.code [var (s% "a")]]]]]]

/-- Deviation: `[1] SK {(l@<2)+:{a}}` returns nil, but the scope of the key function stays open. The assignment raises
a TypeError outside the `try` of `evaluate`, and SORTKEYED swallows it. -/
theorem C19_leak : compile leakText = .ok (.block [] leakTree) ∧
    ∃ s' : St toyExt, Evals leakTree (toySt []) (.ok (.v .nil), s') ∧ s'.below ≠ (toySt []).below ∧
      s'.swallowed = 1 := by
  refine ⟨by decide +kernel, ((run toyExt 20).ev leakTree (toySt [])).2, ?_, ?_, by decide⟩
  · refine (mono_ev _).runs (n := 20) (Prod.ext ?_ rfl) (by decide)
    rfl
  · intro h
    exact absurd (congrArg List.length h) (by decide)

/-! ### C18: calls -/

/-- A call that returns leaves the caller's locals, the suspended scopes and the call depth exactly as they were. -/
theorem C18_call (f : Val) (args : List Val) (s s' : St X) (v : Val) (h : Calls f args s (.ok v, s'))
    (hs : s'.swallowed = s.swallowed) : s'.scope = s.scope ∧ s'.below = s.below ∧ s'.depth = s.depth := by
  obtain ⟨_, n, hn⟩ := h
  have fr := (mono_callVal (some f) args).frame n s
  rw [show callVal (run X n) (some f) args s = _ from hn n (Nat.le_refl n)] at fr
  have fr' : Framed s s' := fr.2 v rfl hs
  refine ⟨?_, fr'.below, fr'.depth⟩
  refine inScope_scope (X := X) _ (fun s => ?_) _ _ s s' v (hn n (Nat.le_refl n)) hs
  have hr := (frameCong X).run n n (Nat.le_refl n)
  have : (frameCong X).rel (match some f with
      | some (.block stmts ret) => do runBody (run X n) stmts; getRval (run X n) ret
      | _ => M.throw .attributeError) (match some f with
      | some (.block stmts ret) => do runBody (run X n) stmts; getRval (run X n) ret
      | _ => M.throw .attributeError) := by
    split
    · exact (frameCong X).bind (Cong.runBody hr _) fun _ => Cong.getRval hr _
    · exact (frameCong X).throw _
  exact this s

/-- The call of `{a:5 a}` returns 5 although it assigns to its own `a`. -/
example : ∃ s' : St toyExt, Calls (.block [.node (op2 (s% ":")) [var (s% "a"), .tok ⟨.num, s% "5"⟩]] (var (s% "a")))
    [.scalar (s% "1")] (toySt []) (.ok (.scalar (s% "5")), s') ∧ s'.swallowed = (toySt []).swallowed :=
  ⟨_, (mono_callVal _ _).runs (n := 20) (Prod.ext (by rfl) rfl) (by decide), by decide⟩

end Pip
