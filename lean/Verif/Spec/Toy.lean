import Verif.Model.Eval
/-! A concrete instance of the external functions, for examples: no floats, patterns match nothing, case mapping does
nothing, the random numbers are zero. No theorem is about it. -/

namespace Pip

def toyExt : Ext where
  F := Unit
  parse _ := ()
  str _ := []
  trunc _ := 0
  fn1 _ n := .ok n
  fn2 _ n _ := .ok n
  lt _ _ := false
  le _ _ := false
  eq _ _ := false
  pi := ()
  finditer _ _ _ := .ok []
  search _ _ _ := .ok none
  fullmatch _ _ _ := .ok none
  sub _ _ _ s := .ok s
  split _ _ s := .ok [some s]
  resub _ s := .ok s
  lower s := s
  upper s := s
  swapcase s := s
  title s := s
  capitalize s := s
  Rng := Unit
  random r := ((), r)
  below _ r := (0, r)
  seed _ := ()
  tao := none
  fmt := .none

/-- The initial state with some lines to read -/
def toySt (inp : List Str) : St toyExt := St.init toyExt inp ()

/-- What the program with the given text prints when it gets the given arguments and input lines; `none` if it does not
parse or dies. -/
def toyOut (text : Str) (args : List Val) (inp : List Str) : Option Str :=
  match compile text with
  | .ok (.block stmts ret) =>
    match executeProgram (run toyExt 60) (stmts ++ [ret]) args (toySt inp) with
    | (.ok _, s) => some s.out
    | _ => none
  | _ => none

end Pip
