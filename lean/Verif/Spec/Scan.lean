import Verif.Model.Scan
/-! Vocabulary of the scanner properties. -/

namespace Pip

/-- Specification: two-letter pieces, `EI` being read as `EL` followed by `I`. -/
def capPairs : Str → List Str
  | [] => []
  | [a] => [[a]]
  | a :: b :: r => (if [a, b] = s% "EI" then [s% "EL", s% "I"] else [[a, b]]) ++ capPairs r

/-- Specification: a run of capitals of odd length starts with a one-letter piece. -/
def capPieces (w : Str) : List Str :=
  if w.length % 2 = 1 then [w.take 1] ++ capPairs (w.drop 1) else capPairs w

namespace Scan

/-- Put tokens in front of the outcome of a scan. -/
def prefixed (us : List (Option Tok)) : Except Exc (List (Option Tok)) → Except Exc (List (Option Tok))
  | .ok ts => .ok (us ++ ts)
  | .error e => .error e

end Scan
end Pip
