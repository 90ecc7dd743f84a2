import Verif.Spec.Eval
/-!
# Sequencing of outcomes

What it means to do one thing after the other, or one thing per item of a list, in terms of outcomes: an exception ends
the whole, and the state at that point is the final state.
-/

namespace Pip
variable {X : Ext} {α β : Type}

/-- A result or an exception, and the final state -/
abbrev Outcome (X : Ext) (α : Type) : Type := Except Exc α × St X

/-- A TypeError raised by an operator ends as a fatal error (execution.py:228-231). -/
def died (o : Outcome X α) : Outcome X α :=
  match o with
  | (.error .typeError, s) => (.error .fatal, s)
  | o => o

/-- The results changed by a function -/
def Outcome.map (f : α → β) (o : Outcome X α) : Outcome X β :=
  match o with
  | (.ok a, s) => (.ok (f a), s)
  | (.error e, s) => (.error e, s)

/-- First one computation, then another one that depends on the result of the first. -/
inductive Then (P : St X → Outcome X α → Prop) (Q : α → St X → Outcome X β → Prop) : St X → Outcome X β → Prop
  | ok {s s1 : St X} {a : α} {o : Outcome X β} : P s (.ok a, s1) → Q a s1 o → Then P Q s o
  | fail {s s1 : St X} {e : Exc} : P s (.error e, s1) → Then P Q s (.error e, s1)

/-- One computation per item, in order -/
inductive Each (P : α → St X → Outcome X Unit → Prop) : List α → St X → Outcome X Unit → Prop
  | nil {s : St X} : Each P [] s (.ok (), s)
  | next {x : α} {l : List α} {s s1 : St X} {o : Outcome X Unit} : P x s (.ok (), s1) → Each P l s1 o → Each P (x :: l) s o
  | fail {x : α} {l : List α} {s s1 : St X} {e : Exc} : P x s (.error e, s1) → Each P (x :: l) s (.error e, s1)

/-- One computation per item, in order, and the list of the results -/
inductive MapEach (P : α → St X → Outcome X β → Prop) : List α → St X → Outcome X (List β) → Prop
  | nil {s : St X} : MapEach P [] s (.ok [], s)
  | next {x : α} {l : List α} {s s1 : St X} {y : β} {o : Outcome X (List β)} :
    P x s (.ok y, s1) → MapEach P l s1 o → MapEach P (x :: l) s (o.map (y :: ·))
  | fail {x : α} {l : List α} {s s1 : St X} {e : Exc} : P x s (.error e, s1) → MapEach P (x :: l) s (.error e, s1)

/-- The items for which a computation gives true -/
inductive FilterEach (P : α → St X → Outcome X Bool → Prop) : List α → St X → Outcome X (List α) → Prop
  | nil {s : St X} : FilterEach P [] s (.ok [], s)
  | keep {x : α} {l : List α} {s s1 : St X} {o : Outcome X (List α)} :
    P x s (.ok true, s1) → FilterEach P l s1 o → FilterEach P (x :: l) s (o.map (x :: ·))
  | drop {x : α} {l : List α} {s s1 : St X} {o : Outcome X (List α)} :
    P x s (.ok false, s1) → FilterEach P l s1 o → FilterEach P (x :: l) s o
  | fail {x : α} {l : List α} {s s1 : St X} {e : Exc} : P x s (.error e, s1) → FilterEach P (x :: l) s (.error e, s1)

/-- A loop: the condition is evaluated, and as long as its truth value is `b`, the body is executed. -/
inductive Loop (b : Bool) (cond : St X → Outcome X Val → Prop) (body : St X → Outcome X Unit → Prop) :
    St X → Outcome X Unit → Prop
  | done {s s1 : St X} {v : Val} : cond s (.ok v, s1) → v.truthy ≠ b → Loop b cond body s (.ok (), s1)
  | next {s s1 s2 : St X} {v : Val} {o : Outcome X Unit} : cond s (.ok v, s1) → v.truthy = b → body s1 (.ok (), s2) →
    Loop b cond body s2 o → Loop b cond body s o
  | failBody {s s1 s2 : St X} {v : Val} {e : Exc} : cond s (.ok v, s1) → v.truthy = b → body s1 (.error e, s2) →
    Loop b cond body s (.error e, s2)
  | failCond {s s1 : St X} {e : Exc} : cond s (.error e, s1) → Loop b cond body s (.error e, s1)

/-- The outcome without the kind of the exception. (Running out of budget is not an outcome; it is kept apart so that the
definition can be used for the computations with a budget.) -/
def blur (o : Outcome X α) : Outcome X α :=
  match o with
  | (.ok a, s) => (.ok a, s)
  | (.error .fuel, s) => (.error .fuel, s)
  | (.error _, s) => (.error .fatal, s)

/-- The outcomes up to the kind of exception -/
def Upto (P : St X → Outcome X α → Prop) (s : St X) (o : Outcome X α) : Prop := ∃ o', P s o' ∧ o = blur o'

end Pip
