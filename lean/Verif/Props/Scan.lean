import Verif.Lemmas.Caps
import Verif.Spec.Scan
/-!
# Scanner properties (C01-C04)
-/

namespace Pip
open Scan

/-! ## C01 -/

/-- Scanning any source text gives proper tokens followed by one end marker, or IncompleteSyntax. -/
theorem C01_scan_total (code : Str) :
    (∃ ts : List Tok, scan code = .ok (ts.map some ++ [none])) ∨ scan code = .error .incomplete := by
  unfold scan
  rw [tokenize_eq]
  rcases loop_total ('\n' :: (code ++ s% "\n")).length ('\n' :: (code ++ s% "\n")) (Nat.le_refl _) with ⟨ts, h⟩ | h
  · left; refine ⟨ts, ?_⟩; unfold scanAll; rw [h]
  · right; unfold scanAll; rw [h]

/-- The bound on the number of passes is no restriction: any larger bound gives the same outcome. -/
theorem C01_scan_bound (code : Str) (n : Nat) (h : code.length + 1 ≤ n) :
    loop n ('\n' :: code) = tokenize code := loop_fuel n _ _ (by simpa using h) (Nat.le_refl _)

example : scan (s% "x:1") = .ok [some ⟨.name, s% "x"⟩, some ⟨.op, s% ":"⟩, some ⟨.num, s% "1"⟩, none] := by
  decide +kernel
example : scan (s% "x:\"abc") = .error .incomplete := by decide +kernel

/-! ## C02 -/

/-- Scanning composes at newlines. -/
theorem C02_scan_lines (a b : Str) (ta : List (Option Tok)) (h : tokenize a = .ok ta) :
    tokenize (a ++ s% "\n" ++ b) =
      match tokenize b with
      | .ok tb => .ok (ta ++ tb)
      | .error e => .error e := by
  rw [tokenize_eq] at h ⊢
  rw [tokenize_eq b, List.append_assoc]
  exact scanAll_append _ ('\n' :: a) b ta (Nat.le_refl _) h

example : tokenize (s% "{;c;}  x") = .ok [] ∧ tokenize (s% ";x") = .ok [] := by decide +kernel
example : tokenize (s% "Px  the first\n;second\n\"a\nb\"") =
    .ok [some ⟨.op, s% "P"⟩, some ⟨.name, s% "x"⟩, some ⟨.str, s% "\"a\nb\""⟩] := by decide +kernel

/-! ## C03 -/

/-- The verbose listing of the tokens scans back to the same tokens, unless it starts with `;`. -/
theorem C03_listing_rescans (code : Str) (ts : List (Option Tok)) (h : tokenize code = .ok ts)
    (hsemi : ∀ t, ts.head? = some (some t) → t.text ≠ s% ";") : tokenize (addSpaces ts) = .ok ts := by
  rw [tokenize_eq] at h
  obtain ⟨ws, hw, rfl⟩ := scanAll_solid _ _ _ (Nat.le_refl _) h
  have hall : ∀ w ∈ ws, ∃ t, newToken w = some t ∧ t.text = w := by
    intro w hm
    have h1 := step_solid (hw w hm) [] (.inl rfl)
    rw [List.append_nil] at h1
    obtain ⟨c, cs, rfl, _⟩ := (hw w hm).head
    have hg := step_good c cs
    rw [h1] at hg
    generalize hnt : newToken (c :: cs) = t at hg
    cases hg with
    | tok _ => rename_i t _; exact ⟨t, rfl, newToken_text hnt⟩
  have hl : addSpaces (ws.map newToken) = joinStr (s% " ") ws := by
    unfold addSpaces
    congr 1
    clear h hsemi hw
    induction ws with
    | nil => rfl
    | cons w ws ih =>
      obtain ⟨t, h1, h2⟩ := hall w (by simp)
      have := ih (fun w hw => hall w (by simp [hw]))
      rw [List.map_cons, h1]
      simp only [List.filterMap_cons, Option.map_some, h2, this]
  rw [hl]
  apply scan_listing ws hw
  intro hh
  cases ws with
  | nil => simp at hh
  | cons w ws =>
    simp at hh
    obtain ⟨t, h1, h2⟩ := hall w (by simp)
    exact hsemi t (by simp only [List.map_cons, List.head?_cons, h1]) (by rw [h2, hh])

example : (match tokenize (s% "Fi,9P--x.\"a  b\"R`\\`;`") with
    | .ok ts => addSpaces ts
    | .error _ => []) = s% "F i , 9 P -- x . \"a  b\" R `\\`;`" := by decide +kernel

/-- The restriction is needed: here the listing is read as a comment. -/
theorem C03_leading_semicolon :
    tokenize (s% "{;;};a") = .ok [some ⟨.sym, s% ";"⟩, some ⟨.name, s% "a"⟩] ∧
    tokenize (addSpaces [some ⟨.sym, s% ";"⟩, some ⟨.name, s% "a"⟩]) = .ok [] := by decide +kernel

/-! ## C04 -/

/-- A run of capitals other than `PIP`, followed by something else, becomes tokens spelling `capPieces`;
what follows scans as it would after a one-letter variable. -/
theorem C04_capital_runs (w rest : Str) (hne : w ≠ []) (hw : w.all isUpperAZ = true) (hp : w ≠ s% "PIP")
    (hr : ∀ c, rest.head? = some c → isUpperAZ c = false) :
    ∃ (us : List Tok) (after : Except Exc (List (Option Tok))),
      us.map (·.text) = capPieces w ∧
      tokenize (w ++ rest) = prefixed (us.map some) after ∧
      tokenize (s% "a" ++ rest) = prefixed [some ⟨.name, s% "a"⟩] after := by
  obtain ⟨us, h1, h2⟩ := scan_caps _ w rest (Nat.le_refl _) hw hp hr
  refine ⟨us, scanAll rest, h1, ?_, ?_⟩
  · cases w with
    | nil => exact absurd rfl hne
    | cons c cs =>
      simp only [List.all_cons, Bool.and_eq_true] at hw
      have : c ≠ ';' := by rintro rfl; exact absurd hw.1 (by decide)
      rw [List.cons_append] at h2 ⊢
      rw [tokenize_solid_head (upper_not_space hw.1) this, h2]
  · simp only [List.singleton_append]
    rw [tokenize_solid_head (by decide) (by decide), scanAll_tok' (step_a rest)]

/-- `PIP` alone is one token. -/
theorem C04_pip (rest : Str) (hr : ∀ c, rest.head? = some c → isUpperAZ c = false) :
    ∃ after, tokenize (s% "PIP" ++ rest) = prefixed [some ⟨.name, s% "PIP"⟩] after ∧
      tokenize (s% "a" ++ rest) = prefixed [some ⟨.name, s% "a"⟩] after := by
  refine ⟨scanAll rest, ?_, ?_⟩
  · have := step_caps (a := 'P') (as := s% "IP") (by decide) hr
    rw [show cut (s% "PIP") = (s% "PIP", 3) by decide,
      show newToken (s% "PIP") = some ⟨.name, s% "PIP"⟩ by decide +kernel] at this
    simp only [List.cons_append, List.nil_append]
    rw [tokenize_solid_head (by decide) (by decide)]
    exact scanAll_tok' this
  · simp only [List.singleton_append]
    rw [tokenize_solid_head (by decide) (by decide), scanAll_tok' (step_a rest)]

example : capPieces (s% "ABEICDE") = [s% "A", s% "BE", s% "IC", s% "DE"] := by decide
example : capPieces (s% "EIWR") = [s% "EL", s% "I", s% "WR"] := by decide
example : tokenize (s% "EIWRx") = .ok [some ⟨.sym, s% "EL"⟩, some ⟨.cmd, s% "I"⟩, some ⟨.op, s% "WR"⟩,
    some ⟨.name, s% "x"⟩] := by decide +kernel

end Pip
