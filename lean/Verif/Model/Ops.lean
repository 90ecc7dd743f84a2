import Verif.Model.Str
/-!
# Operators

Transcription of operators.py. The table was generated from the source text of `precedenceTable`
(operators.py:113-441) and `cmdTable` (operators.py:86-94) by a script that applies the construction
loop operators.py:460-501 (numbering of precedence levels, `RANGE_EACH` implies `LIST_EACH`).
-/

namespace Pip

/-- Names of the methods of `ProgramState` implementing operators (the `function` field). -/
inductive Fn where
  | OUTPUT | PRINT | YANK | YANKOUTPUT | YANKPRINT | ASSIGN
  | SWAP | IFTE | OR | AND | NOT | OBJEQUAL
  | EVAL | FILTER | FILTERNOT | FILTERUNPACK | FILTERINDEXES | FILTERJOIN
  | RECURSE | MAP | MAPCOORDS | MAPENUMERATE | MAPJOIN | MAPMAP
  | MAPPAIRS | MAPSUM | MAPUNPACK | MAPFLATTEN | FILTERENUMERATE | SORTKEYED
  | DESCENDINGKEYED | MAPREGEX | MAPZIP | RVALIFTE | RVALOR | RVALAND
  | NUMLESS | NUMGREATER | NUMEQUAL | NUMLESSEQ | NUMGREATEREQ | NUMNOTEQUAL
  | STRLESS | STRGREATER | STREQUAL | STRLESSEQ | STRGREATEREQ | STRNOTEQUAL
  | LENEQUAL | LENLESS | LENGREATER | FULLMATCH | IN | NOTIN
  | REPR | STR | COMBINATIONS | MAX | MIN | RANDCHOICE
  | SHUFFLE | SORTNUM | SORTSTRING | DESCENDINGNUM | DESCENDINGSTRING | UNIQUE
  | ENUMERATE | PERMUTATIONS | FLATTEN | FLATTENALL | APPENDELEM | APPENDLIST
  | PREPENDELEM | PUSH | PUSHBACK | PICK | POP | DEQUEUE
  | SPLIT | SPLITAT | FIND | FINDALL | GROUP | CHOP
  | JOIN | JOINWRAP | REPEATLIST | ZIP | ZIPDEFAULT | ZIPJOIN
  | PREFIX | SUFFIX | WEAVE | UNWEAVE | CARTESIANPRODUCT | COORDINATEGRID
  | ZEROGRID | ONEGRID | TODIGITS | FROMDIGITS | REPLACEAT | TRANSLITERATE
  | REVERSE | REFLECT | PALINDROMIZE | QUADREFLECT | QUADPALINDROMIZE | IDENTITYMATRIX
  | REPLACE | WRAP | FIRSTMATCH | CAT | REGEX | DOT
  | KLEENESTAR | REMOVE | DELETECHARS | STRMUL | STRIP | LSTRIP
  | RSTRIP | TRIM | LOWERCASE | UPPERCASE | SWAPCASE | TITLECASE
  | INITIALCAPS | RANGE | INCLRANGE | RANDRANGE | TOBASE | RANGETO
  | INCLRANGETO | RANDRANGETO | BITWISEAND | BITWISEOR | BITWISEXOR | ARCTAN
  | NUMCMP | FLOOR | CEIL | ROUNDZERO | ROUNDNEAREST | BITWISENOT
  | SINE | COSINE | TANGENT | SECANT | COSEC | COTAN
  | RADIANS | DEGREES | BITLENGTH | ADD | SUB | ABSOLUTEDIFF
  | MUL | DIV | MOD | INTDIV | POS | NEG
  | INVERT | HALVE | HALVEUP | DOUBLE | SQUARE | POW
  | POWEROFTEN | SQRT | EXPONENTIAL | NATURALLOG | BINARYLOG | DECIMALLOG
  | ROOT | FROMBASE | INC | DEC | LEN | ASC
  | CHR | ABS | SIGN | AT | LEFTOF | RIGHTOF
  | PARENTHESIZE | LIST | BLOCK | SEND | CHAIN
  deriving DecidableEq, Repr

/-- Associativity (operators.py:96-102): `None` for unary operators, `"C"` for chaining comparisons. -/
inductive Assoc where
  | none | left | right | chain
  deriving DecidableEq, Repr

/-- Value of folding an empty iterable (operators.py:30-40), before conversion to a Pip value. -/
inductive Dflt where
  | nil | int (i : Int) | emptyStr | emptyList
  deriving DecidableEq, Repr

/-- `class Operator` (operators.py:16-74). The bit flags of operators.py:106-111 are separate fields. -/
structure Op where
  text : Str
  fn : Fn
  arity : Nat
  prec : Nat
  assoc : Assoc
  dflt : Dflt
  vals : Bool
  rvals : Bool
  listEach : Bool
  rangeEach : Bool
  inLambda : Bool
  /-- `+` turned into `+:` -/
  assign : Bool
  /-- `!` turned into `!*` -/
  map : Bool
  /-- `+` turned into `$+` -/
  fold : Bool
  /-- `+` turned into `\$+` -/
  scan : Bool
  deriving DecidableEq, Repr

/-- `opsByArity[1]` in table order (operators.py:113-441; no text occurs twice). -/
def ops1 : List Op := [
  ⟨s% "O", .OUTPUT, 1, 0, .none, .nil, false, true, false, false, false, false, false, false, false⟩,
  ⟨s% "P", .PRINT, 1, 0, .none, .nil, false, true, false, false, false, false, false, false, false⟩,
  ⟨s% "Y", .YANK, 1, 0, .none, .nil, false, true, false, false, false, false, false, false, false⟩,
  ⟨s% "YO", .YANKOUTPUT, 1, 0, .none, .nil, false, true, false, false, false, false, false, false, false⟩,
  ⟨s% "YP", .YANKPRINT, 1, 0, .none, .nil, false, true, false, false, false, false, false, false, false⟩,
  ⟨s% "!", .NOT, 1, 5, .none, .nil, false, true, false, false, false, false, false, false, false⟩,
  ⟨s% "V", .EVAL, 1, 7, .none, .nil, false, true, false, false, false, false, false, false, false⟩,
  ⟨s% "FI", .FILTER, 1, 7, .none, .nil, false, true, false, false, false, false, false, false, false⟩,
  ⟨s% "FN", .FILTERNOT, 1, 7, .none, .nil, false, true, false, false, false, false, false, false, false⟩,
  ⟨s% "FU", .FILTERUNPACK, 1, 7, .none, .nil, false, true, false, false, false, false, false, false, false⟩,
  ⟨s% "FX", .FILTERINDEXES, 1, 7, .none, .nil, false, true, false, false, false, false, false, false, false⟩,
  ⟨s% "FJ", .FILTERJOIN, 1, 7, .none, .nil, false, true, false, false, false, false, false, false, false⟩,
  ⟨s% "RE", .RECURSE, 1, 7, .none, .nil, false, true, false, false, false, false, false, false, false⟩,
  ⟨s% "\\!", .NOT, 1, 13, .none, .nil, false, true, false, false, true, false, false, false, false⟩,
  ⟨s% "RP", .REPR, 1, 16, .none, .nil, false, true, false, false, false, false, false, false, false⟩,
  ⟨s% "ST", .STR, 1, 16, .none, .nil, false, true, false, false, false, false, false, false, false⟩,
  ⟨s% "MX", .MAX, 1, 18, .none, .nil, false, true, false, false, true, false, false, false, false⟩,
  ⟨s% "M", .MAX, 1, 18, .none, .nil, false, true, false, false, true, false, false, false, false⟩,
  ⟨s% "MN", .MIN, 1, 18, .none, .nil, false, true, false, false, true, false, false, false, false⟩,
  ⟨s% "N", .MIN, 1, 18, .none, .nil, false, true, false, false, true, false, false, false, false⟩,
  ⟨s% "RC", .RANDCHOICE, 1, 18, .none, .nil, false, true, false, false, true, false, false, false, false⟩,
  ⟨s% "SH", .SHUFFLE, 1, 18, .none, .nil, false, true, false, false, true, false, false, false, false⟩,
  ⟨s% "SN", .SORTNUM, 1, 18, .none, .nil, false, true, false, false, true, false, false, false, false⟩,
  ⟨s% "SS", .SORTSTRING, 1, 18, .none, .nil, false, true, false, false, true, false, false, false, false⟩,
  ⟨s% "DN", .DESCENDINGNUM, 1, 18, .none, .nil, false, true, false, false, true, false, false, false, false⟩,
  ⟨s% "DS", .DESCENDINGSTRING, 1, 18, .none, .nil, false, true, false, false, true, false, false, false, false⟩,
  ⟨s% "UQ", .UNIQUE, 1, 18, .none, .nil, false, true, false, false, true, false, false, false, false⟩,
  ⟨s% "EN", .ENUMERATE, 1, 18, .none, .nil, false, true, false, false, true, false, false, false, false⟩,
  ⟨s% "PM", .PERMUTATIONS, 1, 18, .none, .nil, false, true, false, false, true, false, false, false, false⟩,
  ⟨s% "FL", .FLATTEN, 1, 18, .none, .nil, false, true, false, false, true, false, false, false, false⟩,
  ⟨s% "FA", .FLATTENALL, 1, 18, .none, .nil, false, true, false, false, true, false, false, false, false⟩,
  ⟨s% "PO", .POP, 1, 20, .none, .nil, true, false, false, false, true, false, false, false, false⟩,
  ⟨s% "DQ", .DEQUEUE, 1, 20, .none, .nil, true, false, false, false, true, false, false, false, false⟩,
  ⟨s% "^", .SPLIT, 1, 23, .none, .nil, false, true, true, true, true, false, false, false, false⟩,
  ⟨s% "<>", .GROUP, 1, 23, .none, .nil, false, true, false, false, true, false, false, false, false⟩,
  ⟨s% "CH", .CHOP, 1, 23, .none, .nil, false, true, false, false, true, false, false, false, false⟩,
  ⟨s% "J", .JOIN, 1, 23, .none, .nil, false, true, false, false, true, false, false, false, false⟩,
  ⟨s% "RV", .REVERSE, 1, 23, .none, .nil, false, true, false, false, true, false, false, false, false⟩,
  ⟨s% "R", .REVERSE, 1, 23, .none, .nil, false, true, false, false, true, false, false, false, false⟩,
  ⟨s% "RF", .REFLECT, 1, 23, .none, .nil, false, true, false, false, true, false, false, false, false⟩,
  ⟨s% "PZ", .PALINDROMIZE, 1, 23, .none, .nil, false, true, false, false, true, false, false, false, false⟩,
  ⟨s% "QR", .QUADREFLECT, 1, 23, .none, .nil, false, true, false, false, true, false, false, false, false⟩,
  ⟨s% "QP", .QUADPALINDROMIZE, 1, 23, .none, .nil, false, true, false, false, true, false, false, false, false⟩,
  ⟨s% "Z", .ZIP, 1, 23, .none, .nil, false, true, false, false, true, false, false, false, false⟩,
  ⟨s% "ZD", .ZIPDEFAULT, 1, 23, .none, .nil, false, true, false, false, true, false, false, false, false⟩,
  ⟨s% "ZJ", .ZIPJOIN, 1, 23, .none, .nil, false, true, false, false, true, false, false, false, false⟩,
  ⟨s% "H", .PREFIX, 1, 23, .none, .nil, true, false, false, false, true, false, false, false, false⟩,
  ⟨s% "S", .SUFFIX, 1, 23, .none, .nil, true, false, false, false, true, false, false, false, false⟩,
  ⟨s% "WV", .WEAVE, 1, 23, .none, .nil, false, true, false, false, true, false, false, false, false⟩,
  ⟨s% "UW", .UNWEAVE, 1, 23, .none, .nil, false, true, false, false, true, false, false, false, false⟩,
  ⟨s% "CP", .CARTESIANPRODUCT, 1, 23, .none, .nil, false, true, false, false, true, false, false, false, false⟩,
  ⟨s% "CG", .COORDINATEGRID, 1, 23, .none, .nil, false, true, true, true, true, false, false, false, false⟩,
  ⟨s% "ZG", .ZEROGRID, 1, 23, .none, .nil, false, true, true, true, true, false, false, false, false⟩,
  ⟨s% "OG", .ONEGRID, 1, 23, .none, .nil, false, true, true, true, true, false, false, false, false⟩,
  ⟨s% "EY", .IDENTITYMATRIX, 1, 23, .none, .nil, false, true, true, true, true, false, false, false, false⟩,
  ⟨s% "TD", .TODIGITS, 1, 23, .none, .nil, false, true, false, false, true, false, false, false, false⟩,
  ⟨s% "FD", .FROMDIGITS, 1, 23, .none, .nil, false, true, false, false, true, false, false, false, false⟩,
  ⟨s% "X", .REGEX, 1, 27, .none, .nil, false, true, false, false, true, false, false, false, false⟩,
  ⟨s% ".", .DOT, 1, 27, .none, .nil, false, true, true, false, true, false, false, false, false⟩,
  ⟨s% "K", .KLEENESTAR, 1, 27, .none, .nil, false, true, true, false, true, false, false, false, false⟩,
  ⟨s% "||", .STRIP, 1, 31, .none, .nil, false, true, true, false, true, false, false, false, false⟩,
  ⟨s% "|>", .LSTRIP, 1, 31, .none, .nil, false, true, true, false, true, false, false, false, false⟩,
  ⟨s% "<|", .RSTRIP, 1, 31, .none, .nil, false, true, true, false, true, false, false, false, false⟩,
  ⟨s% "TM", .TRIM, 1, 31, .none, .nil, false, true, true, false, true, false, false, false, false⟩,
  ⟨s% "LC", .LOWERCASE, 1, 31, .none, .nil, false, true, true, false, true, false, false, false, false⟩,
  ⟨s% "UC", .UPPERCASE, 1, 31, .none, .nil, false, true, true, false, true, false, false, false, false⟩,
  ⟨s% "SC", .SWAPCASE, 1, 31, .none, .nil, false, true, true, false, true, false, false, false, false⟩,
  ⟨s% "TC", .TITLECASE, 1, 31, .none, .nil, false, true, true, false, true, false, false, false, false⟩,
  ⟨s% "IC", .INITIALCAPS, 1, 31, .none, .nil, false, true, true, false, true, false, false, false, false⟩,
  ⟨s% ",", .RANGETO, 1, 33, .none, .nil, false, true, true, true, true, false, false, false, false⟩,
  ⟨s% "\\,", .INCLRANGETO, 1, 33, .none, .nil, false, true, true, true, true, false, false, false, false⟩,
  ⟨s% "RR", .RANDRANGETO, 1, 33, .none, .nil, false, true, true, true, true, false, false, false, false⟩,
  ⟨s% "TB", .TOBASE, 1, 33, .none, .nil, false, true, true, true, true, false, false, false, false⟩,
  ⟨s% "BN", .BITWISENOT, 1, 35, .none, .nil, false, true, true, true, true, false, false, false, false⟩,
  ⟨s% "SI", .SINE, 1, 35, .none, .nil, false, true, true, true, true, false, false, false, false⟩,
  ⟨s% "CO", .COSINE, 1, 35, .none, .nil, false, true, true, true, true, false, false, false, false⟩,
  ⟨s% "TA", .TANGENT, 1, 35, .none, .nil, false, true, true, true, true, false, false, false, false⟩,
  ⟨s% "SE", .SECANT, 1, 35, .none, .nil, false, true, true, true, true, false, false, false, false⟩,
  ⟨s% "CS", .COSEC, 1, 35, .none, .nil, false, true, true, true, true, false, false, false, false⟩,
  ⟨s% "CT", .COTAN, 1, 35, .none, .nil, false, true, true, true, true, false, false, false, false⟩,
  ⟨s% "AT", .ARCTAN, 1, 35, .none, .nil, false, true, true, true, true, false, false, false, false⟩,
  ⟨s% "RD", .RADIANS, 1, 35, .none, .nil, false, true, true, true, true, false, false, false, false⟩,
  ⟨s% "DG", .DEGREES, 1, 35, .none, .nil, false, true, true, true, true, false, false, false, false⟩,
  ⟨s% "BL", .BITLENGTH, 1, 35, .none, .nil, false, true, true, true, true, false, false, false, false⟩,
  ⟨s% "|<", .FLOOR, 1, 35, .none, .nil, false, true, true, true, true, false, false, false, false⟩,
  ⟨s% ">|", .CEIL, 1, 35, .none, .nil, false, true, true, true, true, false, false, false, false⟩,
  ⟨s% "RZ", .ROUNDZERO, 1, 35, .none, .nil, false, true, true, true, true, false, false, false, false⟩,
  ⟨s% "RN", .ROUNDNEAREST, 1, 35, .none, .nil, false, true, true, true, true, false, false, false, false⟩,
  ⟨s% "+", .POS, 1, 38, .none, .nil, false, true, true, false, true, false, false, false, false⟩,
  ⟨s% "-", .NEG, 1, 38, .none, .nil, false, true, true, true, true, false, false, false, false⟩,
  ⟨s% "/", .INVERT, 1, 38, .none, .nil, false, true, true, true, true, false, false, false, false⟩,
  ⟨s% "%", .MOD, 1, 38, .none, .nil, false, true, true, true, true, false, false, false, false⟩,
  ⟨s% "HV", .HALVE, 1, 38, .none, .nil, false, true, true, true, true, false, false, false, false⟩,
  ⟨s% "HU", .HALVEUP, 1, 38, .none, .nil, false, true, true, true, true, false, false, false, false⟩,
  ⟨s% "DB", .DOUBLE, 1, 38, .none, .nil, false, true, true, true, true, false, false, false, false⟩,
  ⟨s% "SQ", .SQUARE, 1, 38, .none, .nil, false, true, true, true, true, false, false, false, false⟩,
  ⟨s% "**", .POW, 1, 38, .none, .nil, false, true, true, true, true, false, false, false, false⟩,
  ⟨s% "E", .POW, 1, 38, .none, .nil, false, true, true, true, true, false, false, false, false⟩,
  ⟨s% "EE", .POWEROFTEN, 1, 38, .none, .nil, false, true, true, true, true, false, false, false, false⟩,
  ⟨s% "RT", .SQRT, 1, 38, .none, .nil, false, true, true, true, true, false, false, false, false⟩,
  ⟨s% "EX", .EXPONENTIAL, 1, 38, .none, .nil, false, true, true, true, true, false, false, false, false⟩,
  ⟨s% "LN", .NATURALLOG, 1, 38, .none, .nil, false, true, true, true, true, false, false, false, false⟩,
  ⟨s% "LB", .BINARYLOG, 1, 38, .none, .nil, false, true, true, true, true, false, false, false, false⟩,
  ⟨s% "LD", .DECIMALLOG, 1, 38, .none, .nil, false, true, true, true, true, false, false, false, false⟩,
  ⟨s% "U", .INC, 1, 41, .none, .nil, true, false, false, false, true, false, false, false, false⟩,
  ⟨s% "D", .DEC, 1, 41, .none, .nil, true, false, false, false, true, false, false, false, false⟩,
  ⟨s% "#", .LEN, 1, 41, .none, .nil, false, true, false, false, true, false, false, false, false⟩,
  ⟨s% "A", .ASC, 1, 41, .none, .nil, false, true, true, true, true, false, false, false, false⟩,
  ⟨s% "C", .CHR, 1, 41, .none, .nil, false, true, true, true, true, false, false, false, false⟩,
  ⟨s% "AB", .ABS, 1, 41, .none, .nil, false, true, true, true, true, false, false, false, false⟩,
  ⟨s% "SG", .SIGN, 1, 41, .none, .nil, false, true, true, true, true, false, false, false, false⟩,
  ⟨s% "FB", .FROMBASE, 1, 41, .none, .nil, false, true, true, true, true, false, false, false, false⟩,
  ⟨s% "@", .AT, 1, 43, .none, .nil, true, false, false, false, true, false, false, false, false⟩,
  ⟨s% "@<", .LEFTOF, 1, 43, .none, .nil, true, false, false, false, true, false, false, false, false⟩,
  ⟨s% "@>", .RIGHTOF, 1, 43, .none, .nil, true, false, false, false, true, false, false, false, false⟩,
  ⟨s% "++", .INC, 1, 43, .none, .nil, true, false, false, false, true, false, false, false, false⟩,
  ⟨s% "--", .DEC, 1, 43, .none, .nil, true, false, false, false, true, false, false, false, false⟩]

/-- `opsByArity[2]` in table order (operators.py:113-441; no text occurs twice). -/
def ops2 : List Op := [
  ⟨s% ":", .ASSIGN, 2, 1, .right, .nil, true, false, false, false, false, false, false, false, false⟩,
  ⟨s% "::", .SWAP, 2, 1, .right, .nil, true, false, false, false, false, false, false, false, false⟩,
  ⟨s% "|", .OR, 2, 3, .left, .int (0), false, false, false, false, false, false, false, false, false⟩,
  ⟨s% "&", .AND, 2, 4, .left, .int (1), false, false, false, false, false, false, false, false, false⟩,
  ⟨s% "==", .OBJEQUAL, 2, 6, .left, .int (1), false, true, false, false, false, false, false, false, false⟩,
  ⟨s% "M", .MAP, 2, 8, .right, .emptyList, false, true, false, false, false, false, false, false, false⟩,
  ⟨s% "MC", .MAPCOORDS, 2, 8, .right, .emptyList, false, true, false, false, false, false, false, false, false⟩,
  ⟨s% "ME", .MAPENUMERATE, 2, 8, .right, .emptyList, false, true, false, false, false, false, false, false, false⟩,
  ⟨s% "MJ", .MAPJOIN, 2, 8, .right, .emptyStr, false, true, false, false, false, false, false, false, false⟩,
  ⟨s% "MM", .MAPMAP, 2, 8, .right, .emptyList, false, true, false, false, false, false, false, false, false⟩,
  ⟨s% "MP", .MAPPAIRS, 2, 8, .right, .emptyList, false, true, false, false, false, false, false, false, false⟩,
  ⟨s% "MS", .MAPSUM, 2, 8, .right, .int (0), false, true, false, false, false, false, false, false, false⟩,
  ⟨s% "MU", .MAPUNPACK, 2, 8, .right, .emptyList, false, true, false, false, false, false, false, false, false⟩,
  ⟨s% "MF", .MAPFLATTEN, 2, 8, .right, .emptyList, false, true, false, false, false, false, false, false, false⟩,
  ⟨s% "FI", .FILTER, 2, 8, .right, .emptyList, false, true, false, false, false, false, false, false, false⟩,
  ⟨s% "FN", .FILTERNOT, 2, 8, .right, .emptyList, false, true, false, false, false, false, false, false, false⟩,
  ⟨s% "FE", .FILTERENUMERATE, 2, 8, .right, .emptyList, false, true, false, false, false, false, false, false, false⟩,
  ⟨s% "FU", .FILTERUNPACK, 2, 8, .right, .emptyList, false, true, false, false, false, false, false, false, false⟩,
  ⟨s% "FX", .FILTERINDEXES, 2, 8, .right, .emptyList, false, true, false, false, false, false, false, false, false⟩,
  ⟨s% "FJ", .FILTERJOIN, 2, 8, .right, .emptyList, false, true, false, false, false, false, false, false, false⟩,
  ⟨s% "SK", .SORTKEYED, 2, 8, .right, .emptyList, false, true, false, false, false, false, false, false, false⟩,
  ⟨s% "DK", .DESCENDINGKEYED, 2, 8, .right, .emptyList, false, true, false, false, false, false, false, false, false⟩,
  ⟨s% "V", .EVAL, 2, 8, .right, .nil, false, true, false, false, false, false, false, false, false⟩,
  ⟨s% "\\|", .RVALOR, 2, 11, .left, .int (0), false, true, false, false, true, false, false, false, false⟩,
  ⟨s% "\\&", .RVALAND, 2, 12, .left, .int (1), false, true, false, false, true, false, false, false, false⟩,
  ⟨s% "<", .NUMLESS, 2, 14, .chain, .int (1), false, true, false, false, true, false, false, false, false⟩,
  ⟨s% ">", .NUMGREATER, 2, 14, .chain, .int (1), false, true, false, false, true, false, false, false, false⟩,
  ⟨s% "=", .NUMEQUAL, 2, 14, .chain, .int (1), false, true, false, false, true, false, false, false, false⟩,
  ⟨s% "<=", .NUMLESSEQ, 2, 14, .chain, .int (1), false, true, false, false, true, false, false, false, false⟩,
  ⟨s% ">=", .NUMGREATEREQ, 2, 14, .chain, .int (1), false, true, false, false, true, false, false, false, false⟩,
  ⟨s% "!=", .NUMNOTEQUAL, 2, 14, .chain, .int (1), false, true, false, false, true, false, false, false, false⟩,
  ⟨s% "LT", .STRLESS, 2, 14, .chain, .int (1), false, true, false, false, true, false, false, false, false⟩,
  ⟨s% "GT", .STRGREATER, 2, 14, .chain, .int (1), false, true, false, false, true, false, false, false, false⟩,
  ⟨s% "Q", .STREQUAL, 2, 14, .chain, .int (1), false, true, false, false, true, false, false, false, false⟩,
  ⟨s% "LE", .STRLESSEQ, 2, 14, .chain, .int (1), false, true, false, false, true, false, false, false, false⟩,
  ⟨s% "GE", .STRGREATEREQ, 2, 14, .chain, .int (1), false, true, false, false, true, false, false, false, false⟩,
  ⟨s% "NE", .STRNOTEQUAL, 2, 14, .chain, .int (1), false, true, false, false, true, false, false, false, false⟩,
  ⟨s% "#=", .LENEQUAL, 2, 14, .chain, .int (1), false, true, false, false, true, false, false, false, false⟩,
  ⟨s% "#<", .LENLESS, 2, 14, .chain, .int (1), false, true, false, false, true, false, false, false, false⟩,
  ⟨s% "#>", .LENGREATER, 2, 14, .chain, .int (1), false, true, false, false, true, false, false, false, false⟩,
  ⟨s% "~=", .FULLMATCH, 2, 14, .chain, .int (1), false, true, false, false, true, false, false, false, false⟩,
  ⟨s% "N", .IN, 2, 15, .left, .nil, false, true, false, false, true, false, false, false, false⟩,
  ⟨s% "NI", .NOTIN, 2, 15, .left, .nil, false, true, false, false, true, false, false, false, false⟩,
  ⟨s% "CB", .COMBINATIONS, 2, 17, .left, .emptyList, false, true, false, false, true, false, false, false, false⟩,
  ⟨s% "AE", .APPENDELEM, 2, 19, .left, .emptyList, false, true, false, false, true, false, false, false, false⟩,
  ⟨s% "AL", .APPENDLIST, 2, 19, .left, .emptyList, false, true, false, false, true, false, false, false, false⟩,
  ⟨s% "PE", .PREPENDELEM, 2, 19, .left, .emptyList, false, true, false, false, true, false, false, false, false⟩,
  ⟨s% "PU", .PUSH, 2, 19, .left, .emptyList, true, false, false, false, true, false, false, false, false⟩,
  ⟨s% "PB", .PUSHBACK, 2, 19, .left, .emptyList, true, false, false, false, true, false, false, false, false⟩,
  ⟨s% "PK", .PICK, 2, 19, .left, .emptyList, true, false, false, false, true, false, false, false, false⟩,
  ⟨s% "^", .SPLIT, 2, 21, .left, .emptyList, false, true, true, true, true, false, false, false, false⟩,
  ⟨s% "^@", .SPLITAT, 2, 21, .left, .emptyList, false, true, false, false, true, false, false, false, false⟩,
  ⟨s% "@?", .FIND, 2, 21, .left, .nil, false, true, false, false, true, false, false, false, false⟩,
  ⟨s% "@*", .FINDALL, 2, 21, .left, .emptyList, false, true, false, false, true, false, false, false, false⟩,
  ⟨s% "<>", .GROUP, 2, 21, .left, .emptyList, false, true, false, false, true, false, false, false, false⟩,
  ⟨s% "CH", .CHOP, 2, 21, .left, .emptyList, false, true, false, false, true, false, false, false, false⟩,
  ⟨s% "J", .JOIN, 2, 21, .left, .emptyStr, false, true, false, false, true, false, false, false, false⟩,
  ⟨s% "JW", .JOINWRAP, 2, 21, .left, .nil, false, true, false, false, true, false, false, false, false⟩,
  ⟨s% "RL", .REPEATLIST, 2, 21, .left, .emptyList, false, true, false, false, true, false, false, false, false⟩,
  ⟨s% "Z", .ZIP, 2, 21, .left, .emptyList, false, true, false, false, true, false, false, false, false⟩,
  ⟨s% "ZD", .ZIPDEFAULT, 2, 21, .left, .emptyList, false, true, false, false, true, false, false, false, false⟩,
  ⟨s% "ZJ", .ZIPJOIN, 2, 21, .left, .emptyList, false, true, false, false, true, false, false, false, false⟩,
  ⟨s% "H", .PREFIX, 2, 21, .left, .emptyList, true, false, false, false, true, false, false, false, false⟩,
  ⟨s% "S", .SUFFIX, 2, 21, .left, .emptyList, true, false, false, false, true, false, false, false, false⟩,
  ⟨s% "WV", .WEAVE, 2, 21, .left, .emptyList, false, true, false, false, true, false, false, false, false⟩,
  ⟨s% "UW", .UNWEAVE, 2, 21, .left, .emptyList, false, true, false, false, true, false, false, false, false⟩,
  ⟨s% "CP", .CARTESIANPRODUCT, 2, 21, .left, .emptyList, false, true, false, false, true, false, false, false, false⟩,
  ⟨s% "CG", .COORDINATEGRID, 2, 21, .left, .nil, false, true, true, true, true, false, false, false, false⟩,
  ⟨s% "ZG", .ZEROGRID, 2, 21, .left, .nil, false, true, true, true, true, false, false, false, false⟩,
  ⟨s% "OG", .ONEGRID, 2, 21, .left, .nil, false, true, true, true, true, false, false, false, false⟩,
  ⟨s% "TD", .TODIGITS, 2, 21, .left, .emptyList, false, true, false, false, true, false, false, false, false⟩,
  ⟨s% "FD", .FROMDIGITS, 2, 21, .left, .int (0), false, true, false, false, true, false, false, false, false⟩,
  ⟨s% "WR", .WRAP, 2, 25, .left, .emptyStr, false, true, true, true, true, false, false, false, false⟩,
  ⟨s% "~", .FIRSTMATCH, 2, 25, .left, .emptyStr, false, true, true, true, true, false, false, false, false⟩,
  ⟨s% ".", .CAT, 2, 26, .left, .emptyStr, false, true, true, true, true, false, false, false, false⟩,
  ⟨s% "RM", .REMOVE, 2, 28, .left, .emptyStr, false, true, false, false, true, false, false, false, false⟩,
  ⟨s% "DC", .DELETECHARS, 2, 28, .left, .emptyStr, false, true, true, true, true, false, false, false, false⟩,
  ⟨s% "X", .STRMUL, 2, 29, .left, .emptyStr, false, true, true, true, true, false, false, false, false⟩,
  ⟨s% "||", .STRIP, 2, 30, .left, .emptyStr, false, true, true, false, true, false, false, false, false⟩,
  ⟨s% "|>", .LSTRIP, 2, 30, .left, .emptyStr, false, true, true, false, true, false, false, false, false⟩,
  ⟨s% "<|", .RSTRIP, 2, 30, .left, .emptyStr, false, true, true, false, true, false, false, false, false⟩,
  ⟨s% "TM", .TRIM, 2, 30, .left, .emptyStr, false, true, true, false, true, false, false, false, false⟩,
  ⟨s% ",", .RANGE, 2, 32, .left, .nil, false, true, true, true, true, false, false, false, false⟩,
  ⟨s% "\\,", .INCLRANGE, 2, 32, .left, .nil, false, true, true, true, true, false, false, false, false⟩,
  ⟨s% "RR", .RANDRANGE, 2, 32, .left, .int (0), false, true, true, true, true, false, false, false, false⟩,
  ⟨s% "TB", .TOBASE, 2, 32, .left, .int (0), false, true, true, true, true, false, false, false, false⟩,
  ⟨s% "BA", .BITWISEAND, 2, 34, .left, .int (-1), false, true, true, true, true, false, false, false, false⟩,
  ⟨s% "BO", .BITWISEOR, 2, 34, .left, .int (0), false, true, true, true, true, false, false, false, false⟩,
  ⟨s% "BX", .BITWISEXOR, 2, 34, .left, .int (0), false, true, true, true, true, false, false, false, false⟩,
  ⟨s% "AT", .ARCTAN, 2, 34, .left, .nil, false, true, true, true, true, false, false, false, false⟩,
  ⟨s% "CM", .NUMCMP, 2, 34, .left, .int (0), false, true, false, false, true, false, false, false, false⟩,
  ⟨s% "|<", .FLOOR, 2, 34, .left, .int (0), false, true, true, true, true, false, false, false, false⟩,
  ⟨s% ">|", .CEIL, 2, 34, .left, .int (0), false, true, true, true, true, false, false, false, false⟩,
  ⟨s% "RZ", .ROUNDZERO, 2, 34, .left, .int (0), false, true, true, true, true, false, false, false, false⟩,
  ⟨s% "RN", .ROUNDNEAREST, 2, 34, .left, .int (0), false, true, true, true, true, false, false, false, false⟩,
  ⟨s% "+", .ADD, 2, 36, .left, .int (0), false, true, true, false, true, false, false, false, false⟩,
  ⟨s% "-", .SUB, 2, 36, .left, .int (0), false, true, true, false, true, false, false, false, false⟩,
  ⟨s% "AD", .ABSOLUTEDIFF, 2, 36, .left, .int (0), false, true, true, true, true, false, false, false, false⟩,
  ⟨s% "*", .MUL, 2, 37, .left, .int (1), false, true, true, true, true, false, false, false, false⟩,
  ⟨s% "/", .DIV, 2, 37, .left, .int (1), false, true, true, true, true, false, false, false, false⟩,
  ⟨s% "%", .MOD, 2, 37, .left, .int (0), false, true, true, true, true, false, false, false, false⟩,
  ⟨s% "//", .INTDIV, 2, 37, .left, .int (1), false, true, true, true, true, false, false, false, false⟩,
  ⟨s% "**", .POW, 2, 39, .right, .int (1), false, true, true, true, true, false, false, false, false⟩,
  ⟨s% "E", .POW, 2, 39, .right, .int (1), false, true, true, true, true, false, false, false, false⟩,
  ⟨s% "EE", .POWEROFTEN, 2, 39, .right, .int (1), false, true, true, true, true, false, false, false, false⟩,
  ⟨s% "RT", .ROOT, 2, 39, .right, .int (1), false, true, true, true, true, false, false, false, false⟩,
  ⟨s% "FB", .FROMBASE, 2, 40, .left, .int (0), false, true, true, true, true, false, false, false, false⟩,
  ⟨s% "@", .AT, 2, 42, .left, .nil, true, false, false, false, true, false, false, false, false⟩,
  ⟨s% "@<", .LEFTOF, 2, 42, .left, .nil, true, false, false, false, true, false, false, false, false⟩,
  ⟨s% "@>", .RIGHTOF, 2, 42, .left, .nil, true, false, false, false, true, false, false, false, false⟩]

/-- `opsByArity[3]` in table order (operators.py:113-441; no text occurs twice). -/
def ops3 : List Op := [
  ⟨s% "?", .IFTE, 3, 2, .right, .nil, false, false, false, false, false, false, false, false, false⟩,
  ⟨s% "MR", .MAPREGEX, 3, 9, .right, .emptyList, false, true, false, false, false, false, false, false, false⟩,
  ⟨s% "MZ", .MAPZIP, 3, 9, .right, .emptyList, false, true, false, false, false, false, false, false, false⟩,
  ⟨s% "\\?", .RVALIFTE, 3, 10, .right, .nil, false, true, false, false, true, false, false, false, false⟩,
  ⟨s% "RA", .REPLACEAT, 3, 22, .left, .nil, false, true, false, false, true, false, false, false, false⟩,
  ⟨s% "TR", .TRANSLITERATE, 3, 22, .left, .nil, false, true, false, false, true, false, false, false, false⟩,
  ⟨s% "R", .REPLACE, 3, 24, .left, .nil, false, true, false, false, false, false, false, false, false⟩]

/-- `highestPrecedence` (operators.py:451) -/
def highestPrec : Nat := 44

/-- operators.py:452-456: pseudo-operators built by the parser. -/
def parenOp : Op := ⟨s% "PAREN", .PARENTHESIZE, 1, 44, .left, .nil, true, false, false, false, false, false, false, false, false⟩
def enlistOp : Op := ⟨s% "LIST", .LIST, 1, 44, .left, .nil, true, false, false, false, false, false, false, false, false⟩
def blockOp : Op := ⟨s% "BLOCK", .BLOCK, 1, 44, .left, .nil, false, false, false, false, false, false, false, false, false⟩
def sendOp : Op := ⟨s% "SEND", .SEND, 1, 44, .left, .nil, true, false, false, false, false, false, false, false, false⟩
/-- operators.py:490-499 -/
def chainOp : Op := ⟨s% "CHAIN", .CHAIN, 2, 14, .chain, .nil, false, true, false, false, true, false, false, false, false⟩

/-- `opsByArity[n][text]` -/
def findOp (ops : List Op) (text : Str) : Option Op := ops.find? fun o => o.text == text

/-- The set `operators.operators` (operators.py:447, 501) as a list. -/
def operatorTexts : List Str := (ops1 ++ ops2 ++ ops3).map (·.text)

/-- Kinds of command arguments (operators.py:77-84). -/
inductive ArgType where
  | loopvar | expr | code | els
  deriving DecidableEq, Repr

/-- `class Command` (operators.py:4-14): one constructor per entry of `cmdTable`. -/
inductive Cmd where
  | FOR | IF | LOOP | LOOPREGEX | TILL | WHILE | WIPEGLOBALS
  deriving DecidableEq, Repr

/-- `cmdTable` (operators.py:86-94): symbols. -/
def Cmd.text : Cmd → Str
  | .FOR => s% "F"
  | .IF => s% "I"
  | .LOOP => s% "L"
  | .LOOPREGEX => s% "LR"
  | .TILL => s% "T"
  | .WHILE => s% "W"
  | .WIPEGLOBALS => s% "WG"

/-- `cmdTable` (operators.py:86-94): argument types. -/
def Cmd.args : Cmd → List ArgType
  | .FOR => [.loopvar, .expr, .code]
  | .IF => [.expr, .code, .els]
  | .LOOP => [.expr, .code]
  | .LOOPREGEX => [.expr, .expr, .code]
  | .TILL => [.expr, .code]
  | .WHILE => [.expr, .code]
  | .WIPEGLOBALS => []

/-- All commands in table order. -/
def allCmds : List Cmd := [.FOR, .IF, .LOOP, .LOOPREGEX, .TILL, .WHILE, .WIPEGLOBALS]

/-- `operators.commands[text]` -/
def findCmd (text : Str) : Option Cmd := allCmds.find? fun c => c.text == text

end Pip
