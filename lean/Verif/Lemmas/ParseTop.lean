import Verif.Lemmas.ParseComplete
import Verif.Lemmas.Caps
/-! The parser applied to whole programs. -/

namespace Pip
open Parse Scan

theorem parseAll_emb (l : List Tok) : parseAll (PP.emb l) =
    match PP.parse (budget (PP.emb l)) l with
    | .ok (sts, _) => .ok sts
    | .error e => .error e := by
  unfold parseAll
  rw [(PP.agree _).1 l]
  cases PP.parse (budget (PP.emb l)) l <;> rfl

theorem budget_emb (l : List Tok) : budget (PP.emb l) = 16 * l.length + 32 := by
  simp [budget, PP.emb]; omega

theorem parse_good (l : List Tok) (h : ∀ t ∈ l, PP.WF t) (n : Nat) (hn : 16 * l.length + 4 ≤ n) :
    PP.Good l.length (PP.parse n l) := (PP.total n).1 l hn h

theorem parse_mono {l : List Tok} {n m : Nat} (h : n ≤ m) : PP.Le (PP.parse n l) (PP.parse m l) :=
  PP.le_steps (f := fun n => PP.parse n l) (fun n => (PP.more n).1 l) h

theorem newToken_wf {w : Str} {t : Tok} (h : newToken w = some t) : PP.WF t := by
  intro hk
  unfold newToken at h
  repeat' split at h
  all_goals simp at h; try (subst h; first | (simp at hk; done) | skip)
  all_goals try (rw [← h] at hk; simp at hk)
  all_goals assumption

theorem tokenize_wf {code : Str} {ts : List (Option Tok)} (h : tokenize code = .ok ts) :
    ∃ l : List Tok, ts = l.map some ∧ ∀ t ∈ l, PP.WF t := by
  rw [tokenize_eq] at h
  obtain ⟨ws, hw, rfl⟩ := scanAll_solid _ _ _ (Nat.le_refl _) h
  clear h
  induction ws with
  | nil => exact ⟨[], rfl, by simp⟩
  | cons w ws ih =>
    obtain ⟨l, h1, h2⟩ := ih fun w h => hw w (by simp [h])
    have hs := step_solid (hw w (by simp)) [] (.inl rfl)
    rw [List.append_nil] at hs
    obtain ⟨c, cs, rfl, _⟩ := (hw w (by simp)).head
    have hg := step_good c cs
    rw [hs] at hg
    generalize hnt : newToken (c :: cs) = t at hg
    cases hg with
    | tok _ =>
      rename_i t _
      refine ⟨t :: l, by simp only [List.map_cons, hnt, h1], ?_⟩
      intro u hu
      rcases List.mem_cons.1 hu with rfl | hu
      · exact newToken_wf hnt
      · exact h2 u hu

theorem scan_wf {code : Str} {ts : List (Option Tok)} (h : scan code = .ok ts) :
    ∃ l : List Tok, ts = PP.emb l ∧ tokenize (code ++ s% "\n") = .ok (l.map some) ∧ ∀ t ∈ l, PP.WF t := by
  unfold scan at h
  match ht : tokenize (code ++ s% "\n") with
  | .ok us =>
    rw [ht] at h
    simp at h
    obtain ⟨l, rfl, h2⟩ := tokenize_wf ht
    exact ⟨l, h.symm, rfl, h2⟩
  | .error e => rw [ht] at h; simp at h

theorem solid_of_scan {w : Str} {t : Tok} (h : scanAll w = .ok [some t]) (ht : t.text = w) : Solid w ∧ newToken w = some t := by
  obtain ⟨ws, hw, he⟩ := scanAll_solid _ _ _ (Nat.le_refl _) h
  match ws, hw, he with
  | _ :: _ :: _, _, he => simp at he
  | [x], hw, he =>
    simp at he
    have := newToken_text he.symm
    rw [ht] at this; subst this
    exact ⟨hw _ (by simp), he.symm⟩

theorem kit_solid : ∀ t ∈ PP.kit, Solid t.text ∧ newToken t.text = some t := by
  intro t ht
  have : scanAll t.text = .ok [some t] := by
    simp [PP.kit] at ht
    rcases ht with rfl | rfl | rfl | rfl | rfl | rfl <;> decide +kernel
  exact solid_of_scan this rfl

theorem kit_semi : ∀ t ∈ PP.kit, t.text ≠ s% ";" := by decide

/-- Text scanning to given completion tokens. -/
theorem kit_text (k : List Tok) (hk : ∀ t ∈ k, t ∈ PP.kit) :
    tokenize (joinStr (s% " ") (k.map (·.text))) = .ok (k.map some) := by
  have h := scan_listing (k.map (·.text)) (by
    intro w hw
    obtain ⟨t, ht, rfl⟩ := List.mem_map.1 hw
    exact (kit_solid t (hk t ht)).1) (by
    intro h
    cases k with
    | nil => simp at h
    | cons t k =>
      simp at h
      exact kit_semi t (hk t (by simp)) h)
  rw [h, List.map_map]
  congr 1
  apply List.map_congr_left
  intro t ht
  exact (kit_solid t (hk t ht)).2

theorem joinStr_mem {sep : Str} {c : Char} : ∀ {ws : List Str}, c ∈ joinStr sep ws → c ∈ sep ∨ ∃ w ∈ ws, c ∈ w
  | [], h => by simp [joinStr] at h
  | [w], h => .inr ⟨w, by simp, by simpa [joinStr] using h⟩
  | a :: b :: l, h => by
    rw [joinStr_cons_cons] at h
    simp only [List.mem_append] at h
    rcases h with (h | h) | h
    · exact .inr ⟨a, by simp, h⟩
    · exact .inl h
    · rcases joinStr_mem h with h | ⟨w, hw, h⟩
      · exact .inl h
      · exact .inr ⟨w, by simp [hw], h⟩

theorem kit_line (k : List Tok) (hk : ∀ t ∈ k, t ∈ PP.kit) : '\n' ∉ joinStr (s% " ") (k.map (·.text)) := by
  intro h
  rcases joinStr_mem h with h | ⟨w, hw, h⟩
  · simp at h
  · obtain ⟨t, ht, rfl⟩ := List.mem_map.1 hw
    have : ∀ t ∈ PP.kit, '\n' ∉ t.text := by decide
    exact this t (hk t ht) h

theorem PP.parse_end (n : Nat) : ∀ l sts r, PP.parse n l = .ok (sts, r) → ∀ t ∈ r.head?, t.text = s% "}" := by
  induction n with
  | zero => intro l sts r h; simp [PP.parse] at h
  | succ n ih =>
    intro l sts r h
    cases l with
    | nil => simp [PP.parse] at h; simp [h.2]
    | cons t l =>
      simp only [PP.parse] at h
      split at h
      · rename_i ht
        simp at h
        rw [← h.2]; simpa using ht
      · match hx : PP.parseStatement n (t :: l) with
        | .error e => rw [hx] at h; simp [PP.andThen] at h
        | .ok (st, r1) =>
          rw [hx] at h
          simp only [PP.andThen] at h
          match hy : PP.parse n r1 with
          | .error e => rw [hy] at h; simp at h
          | .ok (sts', r2) =>
            rw [hy] at h
            simp at h
            rw [← h.2]
            exact ih r1 sts' r2 hy

end Pip
