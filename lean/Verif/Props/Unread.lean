import Verif.Lemmas.InFrame
import Verif.Props.Input
/-! # C116: lines of the input that are not read have no influence -/

namespace Pip
variable {X : Ext} {α : Type}

theorem Blind.unread {r r' : List Str} {x : M X α} (h : Blind r r' x) {a : List Str} {s s' : St X} {res : Except Exc α}
    (hx : x { s with inp := a ++ r } = (res, s')) (hs : s'.inp = r) :
    x { s with inp := a ++ r' } = (res, { s' with inp := r' }) := by
  rcases h.2 { s with inp := a ++ r } a rfl with h | ⟨p, h1, h2⟩
  · rw [hx] at h
    simp only [hs, Nat.lt_irrefl] at h
  · rw [hx] at h1 h2
    obtain rfl : p = [] := by
      simp only [hs] at h1
      exact List.append_left_eq_self.1 h1.symm
    exact h2

/-- If a program is run, perhaps until an exception, and the lines from `r` on have not been read, then with any other lines
(or none) instead of `r` it does the same: same result, same output, same variables. There must be at least one line left,
otherwise the program may have seen the end of the input. -/
theorem C116_execute (stmts : List Tree) (args : List Val) (n : Nat) (s s' : St X) (a r : List Str) (res : Except Exc Unit)
    (h : executeProgram (run X n) stmts args { s with inp := a ++ r } = (res, s')) (hs : s'.inp = r) (hr : r ≠ []) (r' : List Str) :
    executeProgram (run X n) stmts args { s with inp := a ++ r' } = (res, { s' with inp := r' }) :=
  (blind_executeProgram hr stmts args n).unread h hs

/-- So it is for the command with all its options, and where the program itself comes from standard input, -/
theorem C116_process (files : Str → Option Str) (code : Option Str) (interactive : Bool) (o : Options) (n : Nat) (s s' : St X)
    (a r : List Str) (res : Except Exc Unit)
    (h : pipRun (run X n) files code interactive o { s with inp := a ++ r } = (res, s')) (hs : s'.inp = r) (hr : r ≠ [])
    (r' : List Str) :
    pipRun (run X n) files code interactive o { s with inp := a ++ r' } = (res, { s' with inp := r' }) :=
  (blind_pipRun hr n files code interactive o).unread h hs

theorem runs_unread {x : Rec X → M X α} (hm : Mono x) {a r : List Str} {s s' : St X} {res : Except Exc α}
    (h : Runs x { s with inp := a ++ r } (res, s')) (hs : s'.inp = r) (hr : r ≠ []) (r' : List Str) :
    Runs x { s with inp := a ++ r' } (res, { s' with inp := r' }) := by
  obtain ⟨h1, N, h2⟩ := h
  exact ⟨h1, N, fun n hn => (hm.blind hr n).unread (h2 n hn) hs⟩

/-- for expressions -/
theorem C116_evals (t : Tree) (s s' : St X) (a r : List Str) (res : Except Exc Res) (h : Evals t { s with inp := a ++ r } (res, s'))
    (hs : s'.inp = r) (hr : r ≠ []) (r' : List Str) : Evals t { s with inp := a ++ r' } (res, { s' with inp := r' }) :=
  runs_unread (fun _ _ _ h => h.ev t) h hs hr r'

/-- and for calls of functions. -/
theorem C116_calls (f : Val) (args : List Val) (s s' : St X) (a r : List Str) (res : Except Exc Val)
    (h : Calls f args { s with inp := a ++ r } (res, s')) (hs : s'.inp = r) (hr : r ≠ []) (r' : List Str) :
    Calls f args { s with inp := a ++ r' } (res, { s' with inp := r' }) :=
  runs_unread (mono_callVal _ _) h hs hr r'

/-- A program that leaves the only line unread does the same whatever the input is, and reads nothing. -/
theorem C116_silent (stmts : List Tree) (args : List Val) (n : Nat) (s s' : St X) (l : Str) (res : Except Exc Unit)
    (h : executeProgram (run X n) stmts args { s with inp := [l] } = (res, s')) (hs : s'.inp = [l]) (inp : List Str) :
    executeProgram (run X n) stmts args { s with inp := inp } = (res, { s' with inp := inp }) :=
  C116_execute stmts args n s s' [] [l] res h hs (by simp) inp

/-- The end of the input is seen: with a line left to read it would not be. -/
theorem C116_end : toyOut (s% "q") [] [] = some [] ∧ toyOut (s% "q") [] [s% "u"] = some (s% "u\n") :=
  ⟨by decide +kernel, by decide +kernel⟩

/-- A program that prints its first line twice and leaves the second unread -/
example : ∃ s', executeProgram (run toyExt 20) [.node (op1 (s% "P")) [var (s% "q")]] [] { toySt [] with inp := [s% "u"] ++ [s% "v"] } =
    (.ok (), s') ∧ s'.inp = [s% "v"] ∧ s'.out = s% "u\nu\n" := ⟨_, rfl, by decide +kernel, by decide +kernel⟩

end Pip
