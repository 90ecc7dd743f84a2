import Verif.Props.Joining
/-!
# C49: several strings to be counted
-/

namespace Pip
variable {X : Ext}

theorem runs_count (ts : List Str) (u : Str) (s : St X) :
    Runs (fun R => mapL (fun x => opVal R .IN [x, .scalar u]) (ts.map .scalar)) s
      (.ok ((ts.map fun t => countStr t u).map fun n : Nat => ofInt n), s) := by
  refine runs_of ok_ne_fuel 0 1 fun m _ => ?_
  show mapL (fun x => opVal (run X (m + 1)) .IN [x, .scalar u]) (ts.map .scalar) s = _
  induction ts with
  | nil => rfl
  | cons t ts ih =>
    have e : opVal (run X (m + 1)) .IN [.scalar t, .scalar u] s = (.ok (ofInt (countStr t u)), s) := by
      rw [opVal]
      show ((callOp (run X m) .IN ([Val.scalar t, .scalar u].map .val)) >>= needVal) s = _
      rw [callOp_vals (run X m) (fn := .IN) (by rfl) [.scalar t, .scalar u]]
      rfl
    rw [List.map_cons, mapL, M.bind_ok e, M.bind_ok ih]
    rfl

theorem evals_in {a b : Tree} {s s1 s2 : St X} {v : Val} {u : Str} {w : Val} (ha : a.notOpr = true) (hb : b.notOpr = true)
    (hv : Vals a s (.ok v, s1)) (hw : Vals b s1 (.ok (.scalar u), s2)) (hn : v.isBlock = false)
    (h : Runs (fun R => opIN R v (.scalar u)) s2 (.ok (.v w), s2)) : Vals (.node (op2 (s% "N")) [a, b]) s (.ok w, s2) := by
  obtain ⟨⟨h1, h5⟩, -⟩ := inOps
  refine .of_evals ((evals_direct h1.toRvals h1.raw (by simp [ha, hb]) (mapEach_two hv hw) (fun _ => by simp [hn]; rfl)
    (fun v _ => by simp [Pip.expands, h1.listEach, h1.rangeEach])).2 ⟨(.ok (.v w), s2), ?_, rfl⟩)
  rw [h5]
  exact h

/-- How often each of several strings occurs -/
def Counts (u : Str) (ts : List Str) (ns : List Nat) : Prop :=
  List.Forall₂ (fun t n => (t ≠ [] → Leftmost t u n) ∧ (t = [] → n = u.length + 1)) ts ns

theorem counts_countStr (u : Str) (ts : List Str) : Counts u ts (ts.map fun t => countStr t u) := by
  induction ts with
  | nil => exact .nil
  | cons t ts ih => exact .cons ⟨countStr_spec t u, by rintro rfl; rfl⟩ ih

/-- `l N u` for a list of strings: how often each occurs in `u` -/
theorem C49_several (a b : Tree) (s s1 s2 : St X) (ts : List Str) (u : Str) (ha : a.notOpr = true) (hb : b.notOpr = true)
    (hv : Vals a s (.ok (strs ts), s1)) (hw : Vals b s1 (.ok (.scalar u), s2)) :
    ∃ ns : List Nat, Vals (.node (op2 (s% "N")) [a, b]) s (.ok (.list (ns.map fun n : Nat => ofInt n)), s2) ∧ Counts u ts ns := by
  refine ⟨_, evals_in ha hb hv hw rfl ?_, counts_countStr u ts⟩
  exact (runs_count ts u s2).then (f := fun vs _ => pure (Res.v (.list vs))) (runs_pure.2 rfl)

/-- A Range counts as the list of its members. -/
theorem C49_several_range (a b : Tree) (s s1 s2 : St X) (lo hi : Int) (u : Str) (ha : a.notOpr = true) (hb : b.notOpr = true)
    (hv : Vals a s (.ok (rng (lo, hi)), s1)) (hw : Vals b s1 (.ok (.scalar u), s2)) :
    ∃ ns : List Nat, Vals (.node (op2 (s% "N")) [a, b]) s (.ok (.list (ns.map fun n : Nat => ofInt n)), s2) ∧
      Counts u ((List.range (hi - lo).toNat).map fun k : Nat => showInt (lo + k)) ns := by
  refine ⟨_, evals_in ha hb hv hw rfl ?_, counts_countStr u _⟩
  have h := runs_count ((List.range (hi - lo).toNat).map fun k : Nat => showInt (lo + k)) u s2
  have e : ((List.range (hi - lo).toNat).map fun k : Nat => showInt (lo + k)).map Val.scalar = (rangeInts (some lo) hi).map ofInt := by
    show _ = (intsFrom _ _).map ofInt
    rw [intsFrom_range, List.map_map, List.map_map]
    rfl
  rw [e] at h
  exact h.then (f := fun vs _ => pure (Res.v (.list vs))) (runs_pure.2 rfl)

example : toyOut (s% "[\"a\" \"b\" \"\"]N\"abab a\"") [] [] = some (s% "327\n") := by decide +kernel
example : toyOut (s% "1,4N\"1213\"") [] [] = some (s% "211\n") := by decide +kernel

end Pip
