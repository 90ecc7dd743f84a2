import Verif.Props.Indexing
import Verif.Props.Cut
/-!
# C100, C62: selecting several items, heads and tails
-/

namespace Pip
variable {X : Ext}

/-- `w` is the part of the endless repetition of `l` between two bounds, of which negative ones count from the end. -/
def IsWindow {α : Type} (l : List α) (lo hi : Option Int) (w : List α) : Prop :=
  w.length = (sliceBound l.length l.length hi - sliceBound l.length 0 lo).toNat ∧
  ∀ k : Nat, k < w.length → w[k]? = cyc l (sliceBound l.length 0 lo + k)

theorem isWindow_unique {α : Type} {l : List α} {lo hi : Option Int} {w w' : List α} (h : IsWindow l lo hi w)
    (h' : IsWindow l lo hi w') : w = w' := by
  apply List.ext_getElem?
  intro k
  have hl : w.length = w'.length := h.1.trans h'.1.symm
  by_cases hk : k < w.length
  · rw [h.2 k hk, h'.2 k (by omega)]
  · rw [List.getElem?_eq_none (by omega), List.getElem?_eq_none (by omega)]

theorem cycSlice_window {α : Type} {l : List α} (hl : l ≠ []) (lo hi : Option Int) : IsWindow l lo hi (cycSlice l lo hi) := by
  obtain ⟨h1, h2⟩ := C13_slice_window l hl lo hi
  exact ⟨h1, fun k hk => h2 k (by rw [h1] at hk; omega)⟩

mutual
/-- What an index selects from a value: an item, a window, or a list of what the indices in a list select. -/
inductive Selected (v : Val) : Val → Val → Prop
  | item {i : Int} {w : Val} : CycItem v i w → Selected v (ofInt i) w
  | part {lo hi : Option Int} {l w : List Val} : v = .list l → l ≠ [] → IsWindow l lo hi w → Selected v (.range lo hi) (.list w)
  | text {lo hi : Option Int} {l w : Str} : v = .scalar l → l ≠ [] → IsWindow l lo hi w → Selected v (.range lo hi) (.scalar w)
  | nil : Selected v .nil .nil
  | several {is ws : List Val} : SelectedAll v is ws → Selected v (.list is) (.list ws)
inductive SelectedAll (v : Val) : List Val → List Val → Prop
  | nil : SelectedAll v [] []
  | cons {i w : Val} {is ws : List Val} : Selected v i w → SelectedAll v is ws → SelectedAll v (i :: is) (w :: ws)
end

theorem opVal_at (v i : Val) (m : Nat) : opVal (run X (m + 1)) .AT [v, i] = (opATwith (run X m) (.val v) i >>= needVal) := by
  funext s
  rfl

mutual
theorem Selected.atWith {v i w : Val} (hv : v.isIterable = true) : Selected v i w → ∃ n, ∀ m, n ≤ m → ∀ s : St X,
    opATwith (run X m) (.val v) i s = (.ok (.v w), s)
  | .item h => ⟨0, fun m _ s => by
      simp only [opATwith, ofInt, atIdx, toInt_showInt]
      exact h.atVal _ _ _⟩
  | .part (l := l) (lo := lo) (hi := hi) hl hne hw => ⟨0, fun m _ s => by
      subst hl
      rw [isWindow_unique hw (cycSlice_window hne lo hi)]
      cases l with
      | nil => exact absurd rfl hne
      | cons a l => rfl⟩
  | .text (l := l) (lo := lo) (hi := hi) hl hne hw => ⟨0, fun m _ s => by
      subst hl
      rw [isWindow_unique hw (cycSlice_window hne lo hi)]
      cases l with
      | nil => exact absurd rfl hne
      | cons a l => rfl⟩
  | .nil => ⟨0, fun m _ s => rfl⟩
  | .several h => by
      obtain ⟨n, hn⟩ := SelectedAll.mapL hv h
      refine ⟨n, fun m hm s => ?_⟩
      simp only [opATwith, atIdx, atVal, hv, if_true]
      rw [M.bind_ok (hn m hm s)]
      rfl
theorem SelectedAll.mapL {v : Val} {is ws : List Val} (hv : v.isIterable = true) : SelectedAll v is ws → ∃ n, ∀ m, n ≤ m → ∀ s : St X,
    mapL (fun i => opVal (run X m) .AT [v, i]) is s = (.ok ws, s)
  | .nil => ⟨0, fun m _ s => rfl⟩
  | .cons (i := i) (w := w) h hs => by
      obtain ⟨n, hn⟩ := Selected.atWith hv h
      obtain ⟨n', hn'⟩ := SelectedAll.mapL hv hs
      refine ⟨max (n + 1) n', fun m hm s => ?_⟩
      obtain ⟨m', rfl⟩ : ∃ m', m = m' + 1 := ⟨m - 1, by omega⟩
      have e : opVal (run X (m' + 1)) .AT [v, i] s = (.ok w, s) := by
        rw [opVal_at, M.bind_ok (hn m' (by omega) s)]
        rfl
      rw [Pip.mapL, M.bind_ok e, M.bind_ok (hn' (m' + 1) (by omega) s)]
      rfl
end

theorem Selected.notBlock {v i w : Val} (h : Selected v i w) : i.isBlock = false := by cases h <;> rfl

/-- `a@b` where `b` is an index, a Range, nil, or a list of such, nested to any depth -/
theorem C100_select (a b : Tree) (v i w : Val) (s s1 s2 : St X) (hv : v.isIterable = true) (ha : Evals a s (.ok (.v v), s1))
    (hb : HasVal b s1 i s2) (h : Selected v i w) : Vals (.node (op2 (s% "@")) [a, b]) s (.ok w, s2) := by
  obtain ⟨t, n, ht, hev⟩ := at_flags.val2 ha (by cases v <;> first | rfl | cases hv) hb h.notBlock
  obtain ⟨n', hw⟩ := Selected.atWith (X := X) hv h
  refine .of_evals (runs_of ok_ne_fuel (max n n') 2 fun m hm => ?_)
  show (run X (m + 2)).ev _ s = _
  rw [hev m (by omega)]
  apply M.dieType_ok
  show (argVal t >>= fun r => opATwith (run X (m + 1)) _ r) s2 = _
  rw [M.bind_ok ht]
  exact hw (m + 1) (by omega) s2

/-- `x@b` where `b` is a list selects from the value that the variable has after `b` was evaluated. -/
theorem C100_select_variable (x : Str) (hx : PlainVar x) (b : Tree) (v : Val) (is ws : List Val) (s s1 : St X)
    (hr : (s.read x).isBlock = false) (hv : s1.var x = some v) (hi : v.isIterable = true) (hb : HasVal b s (.list is) s1)
    (h : SelectedAll v is ws) : Vals (.node (op2 (s% "@")) [var x, b]) s (.ok (.list ws), s1) := by
  obtain ⟨t, n, ht, hev⟩ := at_flags.var2 hx hr hb rfl
  obtain ⟨n', hw⟩ := SelectedAll.mapL (X := X) hi h
  refine .of_evals (runs_of ok_ne_fuel (max n n') 2 fun m hm => ?_)
  show (run X (m + 2)).ev _ s = _
  rw [hev m (by omega)]
  apply M.dieType_ok
  show (argVal t >>= fun r => opATwith (run X (m + 1)) _ r) s1 = _
  rw [M.bind_ok ht]
  simp only [opATwith, atIdx]
  rw [M.bind_ok (show rval (.name x none []) s1 = (.ok v, s1) from by rw [rval_plain hx none s1, St.read_of_var hv])]
  simp only [atVal, hi, if_true]
  rw [M.bind_ok (hw (m + 1) (by omega) s1)]
  rfl

/-- Every list of numbers selects exactly one list of items. -/
theorem C100_select_total (v : Val) (hv : v.isBlock = false) (is : List Int) :
    ∃ ws, SelectedAll v (is.map ofInt) ws ∧ ws.length = is.length := by
  induction is with
  | nil => exact ⟨[], .nil, rfl⟩
  | cons i is ih =>
    obtain ⟨w, hw⟩ := cycItem_total v i hv
    obtain ⟨ws, h1, h2⟩ := ih
    exact ⟨w :: ws, .cons (.item hw) h1, by simp [h2]⟩

example : toyOut (s% "\"abcdef\"@[0 7 [2 8]]") [] [] = some (s% "abcc\n") := by decide +kernel
example : toyOut (s% "y:\"abcdef\" y@[0 7 [1,4]]") [] [] = some (s% "abbcd\n") := by decide +kernel

/-! ### C62: several heads and tails -/

mutual
/-- What a length, or a list or Range of lengths, takes from a value -/
inductive Parts (o : PartOp) (v : Val) : Val → Val → Prop
  | list {n : Nat} {l : List Val} : v = .list l → n ≤ l.length → Parts o v (ofInt n) (.list (o.part n l))
  | string {n : Nat} {t : Str} : v = .scalar t → n ≤ t.length → Parts o v (ofInt n) (.scalar (o.part n t))
  | several {is ws : List Val} : PartsAll o v is ws → Parts o v (.list is) (.list ws)
  | range {a b : Int} {is ws : List Val} : asList a b = .list is → PartsAll o v is ws → Parts o v (rng (a, b)) (.list ws)
inductive PartsAll (o : PartOp) (v : Val) : List Val → List Val → Prop
  | nil : PartsAll o v [] []
  | cons {i w : Val} {is ws : List Val} : Parts o v i w → PartsAll o v is ws → PartsAll o v (i :: is) (w :: ws)
end

def PartOp.fn : PartOp → Fn
  | .head => .PREFIX
  | .leftOf => .LEFTOF
  | .tail => .SUFFIX
  | .rightOf => .RIGHTOF

theorem PartOp.fn_call (o : PartOp) : ∃ d, ∀ (R : Rec X) (a b : Tree), callOp R o.fn [a, b] = opPART R o.fn o.sel d a (some b) := by
  cases o with
  | rightOf => exact ⟨.scalar (s% "1"), fun _ _ _ => rfl⟩
  | _ => exact ⟨.scalar (s% "-1"), fun _ _ _ => rfl⟩

theorem PartOp.fn_eq (o : PartOp) : (op2 o.text).fn = o.fn := by cases o <;> decide

theorem opVal_part (o : PartOp) : ∃ d, ∀ (v i : Val) (m : Nat),
    opVal (run X (m + 1)) o.fn [v, i] = (opPART (run X m) o.fn o.sel d (.val v) (some (.val i)) >>= needVal) := by
  obtain ⟨d, hd⟩ := o.fn_call (X := X)
  refine ⟨d, fun v i m => ?_⟩
  rw [← hd]
  rfl

mutual
theorem Parts.opPart {o : PartOp} {v i w : Val} : Parts o v i w → ∃ n, ∀ m, n ≤ m → ∀ (d : Val) (a b : Tree) (s : St X),
    argVal a s = (.ok v, s) → (i.isListy = true ∨ a = .val v) →
    argVal b s = (.ok i, s) → opPART (run X m) o.fn o.sel d a (some b) s = (.ok (.v w), s)
  | .list (n := n) (l := l) hv hn => ⟨0, fun m _ d a b s h1 h3 h4 => by
      subst hv
      obtain rfl : a = .val (.list l) := h3.resolve_left (by simp [ofInt, Val.isListy, Val.isList, Val.isRange])
      obtain ⟨x, y, e, h⟩ := o.slice n
      show (argVal b >>= fun rhs => _) s = _
      rw [M.bind_ok h4, ← h l hn]
      simp only [ofInt, toInt_showInt, Val.isIterable, e]
      rfl⟩
  | .string (n := n) (t := t) hv hn => ⟨0, fun m _ d a b s h1 h3 h4 => by
      subst hv
      obtain rfl : a = .val (.scalar t) := h3.resolve_left (by simp [ofInt, Val.isListy, Val.isList, Val.isRange])
      obtain ⟨x, y, e, h⟩ := o.slice n
      show (argVal b >>= fun rhs => _) s = _
      rw [M.bind_ok h4, ← h t hn]
      simp only [ofInt, toInt_showInt, Val.isIterable, e]
      rfl⟩
  | .several (is := is) h => by
      obtain ⟨n, hn⟩ := PartsAll.mapL h
      refine ⟨n, fun m hm d a b s h1 _ h4 => ?_⟩
      show (argVal b >>= fun rhs => _) s = _
      rw [M.bind_ok h4]
      show (argVal a >>= fun v => Pip.mapL (fun n => opVal (run X m) o.fn [v, n]) is >>= fun vs => pure (Res.v (Val.list vs))) s = _
      rw [M.bind_ok h1, M.bind_ok (hn m hm s)]
      rfl
  | .range (a := lo) (b := hi) (is := is) he h => by
      obtain ⟨n, hn⟩ := PartsAll.mapL h
      refine ⟨n, fun m hm d a b s h1 _ h4 => ?_⟩
      show (argVal b >>= fun rhs => _) s = _
      rw [M.bind_ok h4]
      show (argVal a >>= fun v => Pip.mapL (fun n => opVal (run X m) o.fn [v, n]) ((rangeInts (some lo) hi).map ofInt) >>=
        fun vs => pure (Res.v (Val.list vs))) s = _
      rw [asList] at he
      injection he with he
      rw [he, M.bind_ok h1, M.bind_ok (hn m hm s)]
      rfl
theorem PartsAll.mapL {o : PartOp} {v : Val} {is ws : List Val} : PartsAll o v is ws → ∃ n, ∀ m, n ≤ m → ∀ s : St X,
    mapL (fun i => opVal (run X m) o.fn [v, i]) is s = (.ok ws, s)
  | .nil => ⟨0, fun m _ s => rfl⟩
  | .cons (i := i) (w := w) h hs => by
      obtain ⟨n, hn⟩ := Parts.opPart h
      obtain ⟨n', hn'⟩ := PartsAll.mapL hs
      obtain ⟨d, hd⟩ := opVal_part (X := X) o
      refine ⟨max (n + 1) n', fun m hm s => ?_⟩
      obtain ⟨m', rfl⟩ : ∃ m', m = m' + 1 := ⟨m - 1, by omega⟩
      have e : opVal (run X (m' + 1)) o.fn [v, i] s = (.ok w, s) := by
        rw [hd, M.bind_ok (hn m' (by omega) d (.val v) (.val i) s rfl (.inr rfl) rfl)]
        rfl
      rw [Pip.mapL, M.bind_ok e, M.bind_ok (hn' (m' + 1) (by omega) s)]
      rfl
end

theorem Parts.notBlock {o : PartOp} {v i w : Val} (h : Parts o v i w) : i.isBlock = false := by cases h <;> rfl

/-- `H`, `@<`, `S` and `@>` with a list or Range of lengths give the list of what they give with each. -/
theorem C62_several (o : PartOp) (a b : Tree) (v i w : Val) (s s1 s2 : St X) (hv : v.isIterable = true)
    (ha : Evals a s (.ok (.v v), s1)) (hb : HasVal b s1 i s2) (h : Parts o v i w) :
    Vals (.node (op2 o.text) [a, b]) s (.ok w, s2) := by
  obtain ⟨t, n, ht, hev⟩ := o.flags.val2 ha (by cases v <;> first | rfl | cases hv) hb h.notBlock
  obtain ⟨n', hw⟩ := Parts.opPart (X := X) h
  obtain ⟨d, hd⟩ := o.fn_call (X := X)
  refine .of_evals (runs_of ok_ne_fuel (max n n') 2 fun m hm => ?_)
  show (run X (m + 2)).ev _ s = _
  rw [hev m (by omega)]
  apply M.dieType_ok
  rw [o.fn_eq, hd]
  exact hw (m + 1) (by omega) d (.val v) t s2 rfl (.inr rfl) ht

/-- The same from the value that a variable has after the lengths were evaluated -/
theorem C62_several_variable (o : PartOp) (x : Str) (hx : PlainVar x) (b : Tree) (v i w : Val) (s s1 : St X)
    (hr : (s.read x).isBlock = false) (hv : s1.var x = some v) (hb : HasVal b s i s1) (hi : i.isListy = true)
    (h : Parts o v i w) : Vals (.node (op2 o.text) [var x, b]) s (.ok w, s1) := by
  obtain ⟨t, n, ht, hev⟩ := o.flags.var2 hx hr hb h.notBlock
  obtain ⟨n', hw⟩ := Parts.opPart (X := X) h
  obtain ⟨d, hd⟩ := o.fn_call (X := X)
  refine .of_evals (runs_of ok_ne_fuel (max n n') 2 fun m hm => ?_)
  show (run X (m + 2)).ev _ s = _
  rw [hev m (by omega)]
  apply M.dieType_ok
  rw [o.fn_eq, hd]
  exact hw (m + 1) (by omega) d _ t s1
    (by show rval (.name x none []) s1 = _; rw [rval_plain hx none s1, St.read_of_var hv]) (.inl hi) ht

example : toyOut (s% "\"abcdef\"@<[2 3]") [] [] = some (s% "ababc\n") := by decide +kernel
example : toyOut (s% "\"abc\"H1,4") [] [] = some (s% "aababc\n") := by decide +kernel

end Pip
