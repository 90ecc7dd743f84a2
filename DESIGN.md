# Formal model of Pip

Pip (dloscutoff/pip, source in /repo) is an interpreter for a golfing language: `scanning.py` cuts text
into tokens, `parsing.py` builds trees with a precedence table from `operators.py`, `execution.py`
evaluates them over the value classes of `ptypes.py`, `pip.py` is the command line and REPL.
The model is a shallow Lean 4 transcription of these files, function by function, under
`lean/Verif/Model`; the claims are theorems under `lean/Verif/Props`.

## Modelling decisions

* **Strings** are `List Char`. Python strings may contain lone surrogates, Lean's `Char` may not;
  the only operator that can create one (`C`, i.e. `chr`) reports `unmodelled` in that range.
* **Python exceptions** are values of an `Exc` type carried by `Except`. `FatalError`, `BadSyntax`,
  `IncompleteSyntax`, `TypeError`, `ValueError`, `IndexError`, `NameError`, ... are distinguished because
  the code catches some and not others. Two extra constructors are not Python's: `fuel` (the step budget
  of the model ran out) and `unmodelled` (a behaviour deliberately left outside, listed below).
  No theorem concludes anything from `fuel` or `unmodelled` except where it says so.
* **Regular expressions of the scanner and of `ptypes.py`** are transcribed into a small regex datatype
  with backtracking semantics (`Model/Rgx.lean`), Python's `\d` and `\s` included (tables of Unicode
  decimal digits and white space).
* **User regexes** (`re` applied to patterns of the running program) are an abstract engine: a parameter
  of the model with no assumed laws. `Ext.withRe` (`Model/Rex.lean`) puts a concrete one in its place: a parser for the
  syntax of Python's `re` (3.11) and a backtracking matcher, transcribed from `re/_parser.py` and `re/_compiler.py` as
  text, with the substitution templates of `re.sub`. It depends on a table of the characters that are not ASCII (`CharDb`:
  which are alphanumeric, which are equal if case is ignored, the lower case letters). That CPython's matcher behaves like it is trusted. The
  syntax outside the transcription (inline flags, conditionals, named characters, possessive quantifiers) falls back to the
  abstract engine. The properties of C80 are stated for any engine with the laws `ReFaithful`; C95 proves these laws for
  the concrete engine.
* **Floats** are an abstract type with abstract operations, no assumed laws. Integer-only code paths are
  modelled exactly with `Int`. Where a theorem needs laws of float comparison they are explicit hypotheses.
  `Model/Double.lean` is the concrete environment: binary64 numbers as rationals, infinities and not-a-number,
  correctly rounded `+ - * /`, conversion from and to text as CPython does it (shortest digits), `%`, `//`,
  `math.remainder`, `floor`, `ceil`, `trunc`, exact comparisons. The C library's `pow`, `exp`, `log` and
  trigonometric functions stay abstract there (`Libm`). There is one zero: CPython's negative zero differs from
  it only in its text before Pip normalises it (`-0.0` becomes `0`) and in `atan2`.
* **Letter case** (`str.lower`, `upper`, `swapcase`, `title`, `capitalize`) is abstract. `Ext.withCase`
  (`Model/Case.lean`) defines the five functions on strings of ASCII characters and leaves all other strings abstract.
* **Evaluation** runs in a state monad in which the state survives exceptions; a step budget (`fuel`)
  bounds recursion depth (in Python: the recursion limit). Results are proved independent of the budget.
* **Value semantics**: lists are immutable values and an index assignment writes back the updated
  structure. This is what the code does as long as no list object is shared, which `getRval`'s deep copies
  ensure in most cases; the exceptions are listed below and treated in a separate heap model.
* **The text of the parse tree** that `-v` prints (`pprint` of Python) is abstract.
* **Warnings** (stderr text) are not modelled, except where constructing the warning itself raises.
* **Outside the model**: CPython's limit of 4300 digits for converting between int and text, RecursionError and
  memory limits, lone surrogates, the rare places where the code puts an Lval or Python's None inside a List or
  assigns None (the model throws `unmodelled` there), special variables used as Lvals without a cell, sharing of
  list objects outside the heap model (C65).
* Randomness, standard input and the clock-free rest of the environment are explicit state.


## Plan per property

| id | property | how |
|---|---|---|
| C01 | Scanning always terminates with tokens or IncompleteSyntax | model `tokenize` over a literal transcription of the scanner regexes; well-founded recursion on the remaining code; proof that every branch shortens it and `newToken` never yields None |
| C02 | Scanning composes line by line | lockstep induction of the scanner step function on `a ++ '\n' ++ b` |
| C03 | The verbose token listing re-scans to the same tokens | induction over the token list, using that every token text re-scans to itself before a space |
| C04 | Runs of capitals are split by parity | scanner step on a run of capitals; induction on its length |
| C05 | Parsing always terminates with statements or a syntax error | fuelled recursive-descent model, proof that linear fuel always suffices |
| C06 | BadSyntax cannot be repaired by adding more code | stability lemma of every parser function under appended tokens |
| C07 | IncompleteSyntax can always be repaired by adding more code | explicit completion for every parser function, with the same stability lemma |
| C08 | Parse trees respect operator precedence and associativity | invariant of `attach` (functional form of bubble) |
| C09 | Parsing loses and invents nothing | yield function on trees, invariant of `attach` |
| C10 | Text after an unmatched closing brace is ignored | stability lemma + concrete witness |
| C11 | Displayed blocks re-parse to the same block | relation between trees, their texts, the tokens of these and the trees parsed (`Sh`), preserved by induction over the grammar relation; exact characterisation of failures at the end of the text; counterexamples for the other ambiguities |
| C12 | Indexing wraps around | direct |
| C13 | Slices are windows of the cyclic repetition | closed form of the doubling loops |
| C14 | A finite Range is observationally the List of its members | refinement Range → List |
| C15 | Truthiness | regex characterisation |
| C16 | Integers survive storage as text | decimal printing/parsing |
| C17 | RP output evaluates back to the value | induction over nested values through scanner, parser and evaluator |
| C18 | Function calls leave the caller's locals untouched | frame lemma |
| C19 | No execution touches suspended scopes | frame lemma as an instance of the generic congruence |
| C20 | Output is append-only and input is consumed in order | another instance of the congruence, also on exceptions |
| C21 | Arguments are bound positionally | direct |
| C22 | Assignment is readable and framed | direct on the state |
| C23 | & | and ? short-circuit | one-step unfolding of evaluate |
| C24 | Comparison chains mean the conjunction of their links | induction over the chain |
| C25 | Fold follows the operator's associativity | induction over the list |
| C26 | Scan lists the folds of all prefixes | induction over the list |
| C27 | Item-wise operators preserve shape | induction over nested values |
| C28 | Lambda building commutes with application | one-step unfolding |
| C29 | Loops run their body the stated number of times | induction over the count/iterable |
| C30 | Destructuring assignment | induction over the names |
| C31 | Swap exchanges two variables | direct |
| C32 | PU PB PO DQ PK implement a double-ended queue | direct + list lemmas |
| C33 | Compute-and-assign equals assigning the computation | one-step unfolding |
| C34 | Sorting returns an ordered, stable permutation | pure sort functions (insertion into a stable merge model of `sorted`); SK/DK through the evaluator with a key function that returns values |
| C35 | UQ keeps exactly the first occurrences | pure operator function; list/number lemmas |
| C36 | Reversal, reflection and palindromes | pure operator function; list/number lemmas |
| C37 | Weave inverts unweave | pure operator function; list/number lemmas |
| C38 | Base conversion round-trips | pure operator function; list/number lemmas |
| C39 | Digit lists round-trip | pure operator function; list/number lemmas |
| C40 | Integer arithmetic is exact | pure operator function; list/number lemmas |
| C41 | Bitwise operators are two's complement | pure operator function; list/number lemmas |
| C42 | GROUP partitions into chunks | pure operator function; list/number lemmas |
| C43 | SPLITAT partitions at the given places | pure operator function; list/number lemmas |
| C44 | Split and join are inverse | pure operator function; list/number lemmas |
| C45 | Zip transposes | pure operator function; list/number lemmas |
| C46 | Cartesian product, combinations and permutations are complete | pure operator function; list/number lemmas |
| C47 | EN, ME and FX agree on positions | pure operators for EN, ME; FX through the evaluator |
| C48 | Find returns the first position, find-all every position | pure operator function; list/number lemmas |
| C49 | IN counts and NI decides absence | pure operator function; list/number lemmas |
| C50 | Stripping and trimming remove only at the ends | pure operator function; list/number lemmas |
| C51 | Ranges contain what they say | pure operator function; list/number lemmas |
| C52 | Grid builders | pure operators; MC by induction over the cells in the evaluator |
| C53 | Transliteration and character deletion act per character | pure operator function; list/number lemmas |
| C54 | MX and MN return extremal members | pure operator function; list/number lemmas |
| C55 | Numeric comparisons are coherent | pure operator function; list/number lemmas |
| C56 | String comparisons are the lexicographic order | pure operator function; list/number lemmas |
| C57 | Flattening | pure operator function; list/number lemmas |
| C58 | Map and filter laws | induction over the items in the evaluator, for functions whose calls return values |
| C59 | Replacement at an index changes only that index | pure operator for RA; assignment through the evaluator and `Val.set` |
| C60 | Append, prepend, concatenate, repeat | pure operator function; list/number lemmas |
| C61 | Random operators stay within bounds | the random source is an arbitrary function of the model environment |
| C62 | Heads and tails | pure slices, with the operator flags of H, S, @<, @> |
| C63 | The command-line splitter inverts quoting | transcription of the splitter of pip.py; induction over the arguments |
| C64 | List output format | transcription of the print operators; induction over nested lists |
| C65 | Copies are independent | heap model (Model/Heap.lean) in which Scalars and Lists are objects; refinement of the value model for all sequences of assignments, destructurings and swaps over plain variables; MAP with a constant and the shared constant one as counterexamples |
| C66 | Evaluation is deterministic and independent of the step budget | generic congruence (`Lemmas/Cong.lean`) over every function of the evaluator, instantiated with "more budget gives the same outcome" |
| C67 | q reads a line at most once per occurrence | cells that remember the first reading of an occurrence; a congruence shows that cells are never overwritten |
| C68 | A fatal error inside a function leaves the REPL in the function's scope | the state survives exceptions, so this is read off the model of the call |
| C69 | History variables shift | direct on the statement loop |
| C70 | WIPEGLOBALS resets exactly the globals | direct on the state |
| C71 | The REPL reads exactly as much as it needs | the round function on line lists; monotonicity of scanner failures |
| C72 | Program arguments and sources | direct on `pip` with the option record |
| C73 | Every symbol calls its method | tables written out in Spec/Symbols.lean, checked row by row against `opsByArity`; then the evaluator lemmas |
| C74 | Character codes | direct; valid code points |
| C75 | Lengths | `size : Val → Option ℕ∞` as the specification |
| C76 | Exact equality and negation | mutual structural induction on values and trees |
| C77 | Eager logic | from C73, compared with C23 |
| C78 | Wrapping, columns | independent spec of columns (character i of every line, or a space), induction over the lines |
| C79 | Replacing and removing | relational spec of leftmost non-overlapping occurrences, `Replaces` rules, C73 for the operator |
| C80 | Patterns | Spec/Regex.lean: a grammar relating texts to meanings (relations on before, match, after); unique readability; the operators make texts with the combined meaning. `re` itself is assumed to follow the meanings (`ReFaithful`, shown to be satisfiable) |
| C81 | Match variables | the assignments as a table of names and values |
| C82 | MJ, MF, FJ, MS | composition of operators as an equivalence of evaluations; sums by C40 |
| C83 | MU, FU, MZ, MP, MM, MR | one call per item with the arguments of a small relation; the calls as `MapEach`/`FilterEach` |
| C84 | O, P, Y, YO, YP | outcome of the method on one value; `Assigned` for y |
| C85 | U, D, ++, -- | defined by the outcome of + and - on the value; integers by C40 |
| C86 | RE | equivalence with a call of the running function; factorial by induction |
| C87 | (f x), (l i j) | evaluation of the operands as `MapEach Evals`, then call or path of items |
| C88 | V | equivalence with statements followed by an expression; syntax errors by C01, C05 |
| C89 | Texts of floats | theory of rounding to 53 digits; 17 digits suffice; shortest digits read back; layout of `repr` matches the number regex |
| C90 | + - * / of floats | spec of the nearest float without the rounding function (`Rounded`); optimality and ties of the rounding function |
| C91 | Comparisons of floats | exact order of rationals; a nonzero float has a nonzero digit |
| C92 | FL CE RZ RN HV HU | floor and ceiling of rationals; counterexamples above 2^53 |
| C93 | % and // of floats | `fmod` is exact (a combination no larger than both operands); relative error of the quotient |
| C94 | CH, GR with floats | the loop as a sequence of rounded sums with a bound on every error; consecutive floors tile the text; count and sizes from the bounds |
| C95 | Regular expressions | relation between the matcher's list of end positions and the meaning (`Tracks`), preserved by every constructor (iteration by a measure on the rest); the parser inverts the grammar by induction over the derivation |
| C96 | `@`, `@*`, `N` with Patterns | iteration over the matches with the state threaded; variables by composition of `MatchVars` |
| C97 | `R`, `RM` with Patterns | template parser inverts the template grammar; splice of non-overlapping matches |
| C98 | Back-references | text relation `RefText`, total and computed by the scan; one capture followed by one reference |
| C99 | Taking and pushing | the heap cell of the variable before and after; range arithmetic |
| C100 | Items | relation `CycItem` (total on non-functions), arithmetic of `%` |
| C101 | Preset variables | kernel evaluation of the initial table; Patterns by derivations in the grammar of C95 |
| C102 | Stripping with Patterns | one round as a relation (`Cuts`) derived from the list of matches; induction on the length for the rounds |
| C103 | Splitting with Patterns | parts between the matches; captured whole match from the compiled form |
| C104 | Letter case | ASCII case functions as an environment (`Ext.withCase`); character by character, all 128 by evaluation |
| C105 | Commands of the interactive mode | first word of the line; `Session` of C71 |
| C106 | Rounding to multiples | relative error of rounding: a rounded quotient of integers below 2^53 is an integer only if the quotient is |
| C107 | Logarithms, trigonometric functions, roots and powers | which function of the library is applied to which number; binary64 around it; bounds of π from Mathlib for the nearest float |
| C108 | Which match is found | the list of ways is sorted by length for repetitions of one character; the first way that can be continued is the best one with a continuation |
| C109 | Groups | the captures of a way are those of the parts in order; without groups nothing is captured |
| C110 | Command lines | grammar of words in `Spec/CommandLine.lean`; the classification of a word and the reading of letters agree with it in both directions, then the loop |
| C111 | Whole program | composition of C110 with the program runner; no fuel argument is needed since both sides run the same evaluator |
| C112 | Arithmetic programs | induction on the grammar of `Spec/Calc.lean`: tokens before any character that can follow, the operator loop in any context that lets tighter operators through, values by C73; then C111 |
| C113 | How floats are written | rounding is monotonic, so no shorter decimal than the one found reads as the float (`Lemmas/Shortest.lean`); two decimals of 15 digits are further apart than the rounding error; layouts and usual forms correspond (`Lemmas/Written.lean`) |
| C114 | The verbose mode only adds to the output | no computation of the evaluator reads what has been printed: one more instance of the congruence that C20 uses (`Lemmas/OutFrame.lean`); then the stages of `pip` one by one |
| C115 | Small imperative programs print what they should | `Spec/While.lean` has the language, its texts and its meaning, without tokens or trees; scanning and parsing by induction on the text, with one invariant for what follows (`Lemmas/While.lean`); execution by induction on the meaning, from C22, C24, C29, C40, C84 (`Props/While.lean`) |
| C116 | Input that is not read has no influence | a relation compatible with the evaluator (`Lemmas/Cong.lean`): a computation started with the lines `p ++ r` reads into `r` or does not see what is there (`Lemmas/InFrame.lean`) |
| C117 | The match found is the preferred one | orders of matches as lists, for the same grammar (`Spec/Prefer.lean`); the list of ways of the matcher is the list of the order, position by position (`Follow`, `Lemmas/RexPrefer.lean`) |
| C118 | What the groups of a match are, and back-references | orders of matches with the groups as lists (`Spec/Capture.lean`); the list of ways of the matcher, with the groups, is the list of the order (`Lemmas/RexCapture.lean`); the rewriting of `\n` to `\n+1` by `asRegex` is followed through the parser (`Conv`) |
| C119 | Lists as operands of operators that take one thing at a time | `OverItems`: `mapM` over the items and Ranges as lists, from the recursion equations |

## Trusted base

* Lean 4.33.0's kernel. No axioms are added; theorems depend at most on `propext`, `Classical.choice`,
  `Quot.sound`.
* The transcription itself: each definition cites the lines it models. The operator table is generated
  from `operators.py` by a text-processing script and then checked by eye.
* CPython semantics as used in the transcription (slicing, integer arithmetic, `str` methods, `sorted`,
  `itertools`).

* `argparse` of Python 3.11 as transcribed in `Model/Cli.lean`: which words are options, how abbreviations and
  bundled letters are read, exclusive groups, the order in which errors are found. The transcription was compared
  with the standard library's module on 20000 random command lines.
