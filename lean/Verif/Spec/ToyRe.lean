import Verif.Spec.Toy
import Verif.Model.Rex
/-!
# Running programs with regular expressions

The environment of `Verif.Spec.Toy` with the functions of `re`, for examples; it knows no letters that are not ASCII.
-/

namespace Pip

def asciiDb : Rex.CharDb := ⟨fun _ => false, fun _ => [], id⟩

def reExt : Ext := toyExt.withRe asciiDb

/-- What the program with the given text prints; `none` if it does not parse or dies. -/
def reOut (text : Str) : Option Str :=
  match compile text with
  | .ok (.block stmts ret) =>
    match executeProgram (run reExt 60) (stmts ++ [ret]) [] (St.init reExt [] ()) with
    | (.ok _, s) => some s.out
    | _ => none
  | _ => none

end Pip
