{"id": "C01", "title": "Scanning always terminates with tokens or IncompleteSyntax", "statement": "scan(code) terminates for every source string; it either returns a list of proper tokens followed by exactly one end marker, or raises IncompleteSyntax. No other exception is possible and no None token ever appears before the end marker.", "quantifier": "for all strings over all Unicode characters", "why_tests_cant": "the input space is all strings; termination and absence of crashes cannot be sampled", "anchors": ["scanning.py:tokenize", "scanning.py:scan", "scanning.py:newToken"]}
{"id": "C02", "title": "Scanning composes line by line", "statement": "If tokenize(a) succeeds, then tokenize(a + newline + b) yields the tokens of a followed by whatever tokenize(b) yields (tokens or error). The REPL relies on this when it re-scans after reading another line.", "quantifier": "for all strings a, b such that a scans", "why_tests_cant": "two unbounded strings; interactions of comments, whitespace, strings and the newline at the seam", "anchors": ["scanning.py:tokenize", "pip.py:repl"]}
{"id": "C03", "title": "The verbose token listing re-scans to the same tokens", "statement": "If tokenize(code)=ts and ts does not begin with ';', then tokenizing the listing printed by -v (addSpaces(ts)) gives back exactly ts. When ts begins with ';' the listing is read as a comment instead, so the restriction is needed.", "quantifier": "for all source strings", "why_tests_cant": "every possible adjacency of tokens must be separable by one space", "anchors": ["scanning.py:addSpaces", "scanning.py:tokenize"]}
{"id": "C04", "title": "Runs of capitals are split by parity", "statement": "A maximal run of ASCII capitals other than PIP is cut into two-letter tokens, preceded by a single-letter token exactly when its length is odd (EI being read as EL I).", "quantifier": "for all runs of capitals of any length, in any following context", "why_tests_cant": "run length is unbounded", "anchors": ["scanning.py:tokenize"]}
{"id": "C05", "title": "Parsing always terminates with statements or a syntax error", "statement": "parse(scan(code)) terminates for every source string and either returns a statement list or raises BadSyntax or IncompleteSyntax; it never runs off the end of the token list.", "quantifier": "for all token lists", "why_tests_cant": "mutually recursive parser over unbounded input", "anchors": ["parsing.py:parse", "parsing.py:parseStatement", "parsing.py:parseExpr", "parsing.py:parseOperand", "parsing.py:parseBlock", "parsing.py:parseNameList"]}
{"id": "C06", "title": "BadSyntax cannot be repaired by adding more code", "statement": "If parsing some tokens raises BadSyntax, then parsing those tokens followed by any further tokens also raises BadSyntax; hence no further lines typed at the REPL could have completed the input.", "quantifier": "for all token lists and all continuations", "why_tests_cant": "quantifies over all continuations", "anchors": ["parsing.py:parse", "pip.py:repl"]}
{"id": "C07", "title": "IncompleteSyntax can always be repaired by adding more code", "statement": "If parsing some tokens raises IncompleteSyntax, there are further tokens after which the whole parses; hence the REPL's continuation prompt is never a dead end.", "quantifier": "for all token lists that parse to IncompleteSyntax there exists a continuation", "why_tests_cant": "an existential claim over unbounded continuations for every incomplete input", "anchors": ["parsing.py:parse", "pip.py:repl"]}
{"id": "C08", "title": "Parse trees respect operator precedence and associativity", "statement": "In every expression tree returned by the parser, a binary or ternary operator's left operand is never an unparenthesised operator of lower precedence (nor of equal precedence if right-associative) and its right operand is never one of lower precedence (nor of equal precedence if left-associative); the operand of a unary operator has strictly higher precedence.", "quantifier": "for all token lists that parse", "why_tests_cant": "all shapes of expressions, with in-place rearrangement of trees", "anchors": ["parsing.py:parseExpr", "parsing.py:bubble", "operators.py:precedenceTable"]}
{"id": "C09", "title": "Parsing loses and invents nothing", "statement": "The tree returned for an expression, read back from left to right (with brackets restored), is exactly the token sequence consumed, apart from optional semicolons.", "quantifier": "for all token lists that parse", "why_tests_cant": "all token lists", "anchors": ["parsing.py:parseExpr", "parsing.py:parseOperand", "parsing.py:bubble"]}
{"id": "C10", "title": "Text after an unmatched closing brace is ignored", "statement": "At top level, parsing stops at the first unmatched '}' and reports success; everything after it is silently dropped (a deviation: 1}2 runs as 1).", "quantifier": "for all statement texts p that parse and all continuations r", "why_tests_cant": "all continuations", "anchors": ["parsing.py:parse"]}
{"id": "C11", "title": "Displayed blocks re-parse to the same block", "statement": "The text of a function written in a program parses back to the same code up to parentheses around operands, and the function read back is displayed by the same text, provided no part of the code is displayed ambiguously (the assignment operator with the meta-operator ':', the second expression of LR starting with an infix operator, pieces of escaped strings with interpolations that do not scan back). Given that, the text fails to parse exactly when the code ends in the character literal of a space or a semicolon, and then it is an incomplete program.", "quantifier": "for all parse trees produced by the parser", "why_tests_cant": "all parse trees", "anchors": ["parsing.py:unparse", "parsing.py:unparseExpr", "ptypes.py:Block.__repr__"]}
{"id": "C12", "title": "Indexing wraps around", "statement": "For a non-empty Scalar, List or finite Range x of length n and any integer i, x@i is the item at position i mod n; indexing an empty one yields nil (with a warning), never a crash.", "quantifier": "for all iterables and all integers", "why_tests_cant": "all integers, positive, negative and huge", "anchors": ["ptypes.py:Scalar.__getitem__", "ptypes.py:List.__getitem__", "ptypes.py:Range.__getitem__", "execution.py:AT"]}
{"id": "C13", "title": "Slices are windows of the cyclic repetition", "statement": "For a non-empty Scalar or List of length n and a slice from s to e (negative bounds counted once from the end), the result has length max(0,e-s) and its k-th item is the item at position (s+k) mod n; slicing an empty one gives an empty one.", "quantifier": "for all values and all pairs of bounds, present or absent", "why_tests_cant": "bounds may exceed the length any number of times", "anchors": ["ptypes.py:Scalar.__getitem__", "ptypes.py:List.__getitem__"]}
{"id": "C14", "title": "A finite Range is observationally the List of its members", "statement": "Length, truthiness, iteration, indexing, slicing and membership tests of a finite Range agree with those of the List of its integers; slices of an infinite Range agree with the infinite sequence.", "quantifier": "for all bounds, indices and slices", "why_tests_cant": "all integers", "anchors": ["ptypes.py:Range"]}
{"id": "C15", "title": "Truthiness", "statement": "A Scalar is false iff it is empty or is a decimal representation of zero (optionally followed by one newline, a deviation from the documented rule); lists, ranges, patterns and blocks are false iff empty; nil is false.", "quantifier": "for all values", "why_tests_cant": "all strings", "anchors": ["ptypes.py:Scalar.__bool__", "ptypes.py:List.__bool__", "ptypes.py:Range.__bool__", "ptypes.py:Block.__bool__"]}
{"id": "C16", "title": "Integers survive storage as text", "statement": "For every integer n, the Scalar made from n is read back as n by arithmetic, by indexing and by int conversion.", "quantifier": "for all integers", "why_tests_cant": "unbounded integers", "anchors": ["ptypes.py:Scalar.__init__", "ptypes.py:Scalar.toNumber", "ptypes.py:Scalar.__int__"]}
{"id": "C17", "title": "RP output evaluates back to the value", "statement": "For data values (Scalars, Patterns, Lists, Ranges, nil, nested arbitrarily) evaluating the text produced by RP yields an equal value, except for the Scalars whose repr is not a faithful literal (such as -0, -007 or strings mixing double quotes with backslash-letter), which are characterised, and the Patterns with an unpaired backslash (witness). Patterns keep all four flags.", "quantifier": "for all data values of any nesting", "why_tests_cant": "all strings and all nestings", "anchors": ["ptypes.py:Scalar.__repr__", "ptypes.py:List.__repr__", "ptypes.py:Range.__repr__", "execution.py:EVAL", "execution.py:REPR", "ptypes.py:Pattern.__repr__"]}
{"id": "C18", "title": "Function calls leave the caller's locals untouched", "statement": "When a function call returns normally, the caller's local variables (a-g, $_, $__, $___), the call stack and the call depth are exactly as before the call. The one exception is a TypeError swallowed by SK or DK (a key function that fails inside a call leaves the scope of that call open): [1]SK{(l@<2)+:{a}} is an instance.", "quantifier": "for all functions, arguments, states", "why_tests_cant": "all programs, including nested and recursive calls", "anchors": ["execution.py:functionCall", "execution.py:openScope", "execution.py:closeScope"]}
{"id": "C19", "title": "No execution touches suspended scopes", "statement": "Evaluating any expression or executing any statement, if it returns normally, leaves every suspended local scope, the call depth and the identity of the running function unchanged; only the innermost scope's variables and globals may change. The one exception is a TypeError swallowed by SK or DK (a key function that fails inside a call leaves the scope of that call open): [1]SK{(l@<2)+:{a}} is an instance.", "quantifier": "for all programs and states", "why_tests_cant": "invariant over all executions", "anchors": ["execution.py:evaluate", "execution.py:executeStatement", "execution.py:functionCall"]}
{"id": "C20", "title": "Output is append-only and input is consumed in order", "statement": "Whatever a program does, and even if it dies with an error, what it had printed stays a prefix of the output, and the unread input is a suffix of the earlier unread input. What has been printed before has no influence on what a run does or prints.", "quantifier": "for all programs, states and outcomes", "why_tests_cant": "invariant over all executions including failing ones", "anchors": ["execution.py:PRINT", "execution.py:OUTPUT", "execution.py:getq"]}
{"id": "C21", "title": "Arguments are bound positionally", "statement": "In a function called with arguments x1..xn, the variables a..e start as x1..x5 (undefined beyond n), g is the list of all arguments and f is the function itself.", "quantifier": "for all argument lists of any length", "why_tests_cant": "any number of arguments", "anchors": ["execution.py:LocalScope", "execution.py:functionCall"]}
{"id": "C22", "title": "Assignment is readable and framed", "statement": "After x:v, reading x gives v and every other variable (local or global) reads as before; the expression itself yields v.", "quantifier": "for all variable names, values and states", "why_tests_cant": "all states", "anchors": ["execution.py:ASSIGN", "execution.py:assign", "execution.py:getRval", "execution.py:varTable"]}
{"id": "C23", "title": "& | and ? short-circuit", "statement": "x&y evaluates y only if x is true and returns the last value evaluated; x|y only if x is false; c?t e evaluates exactly one branch. The unevaluated operand has no effect whatsoever.", "quantifier": "for all expressions and states", "why_tests_cant": "the skipped operand may be any expression, even a diverging one", "anchors": ["execution.py:AND", "execution.py:OR", "execution.py:IFTE"]}
{"id": "C24", "title": "Comparison chains mean the conjunction of their links", "statement": "a<b<c... evaluates all its operands first, left to right; then it performs the adjacent comparisons left to right, stops at the first false link and returns the value of the last link performed. The result is true iff every adjacent comparison is.", "quantifier": "for all chains of any length", "why_tests_cant": "unbounded chain length", "anchors": ["execution.py:CHAIN", "parsing.py:parseExpr"]}
{"id": "C25", "title": "Fold follows the operator's associativity", "statement": "$op on a list folds from the left for left-associative operators, from the right for right-associative ones and as a comparison chain for comparison operators; on an empty list it gives the operator's default; one-element lists fold to their element (1 for comparisons).", "quantifier": "for all lists and operators", "why_tests_cant": "lists of any length", "anchors": ["execution.py:FOLDMETA", "operators.py:precedenceTable"]}
{"id": "C26", "title": "Scan lists the folds of all prefixes", "statement": "\\$op on a list of n items gives n items, the k-th being the fold of the first k items (of the last items for right-associative operators); in particular its last (first) item is the fold of the whole.", "quantifier": "for all lists", "why_tests_cant": "lists of any length", "anchors": ["execution.py:SCANMETA", "execution.py:FOLDMETA"]}
{"id": "C27", "title": "Item-wise operators preserve shape", "statement": "An item-wise unary operator maps a List to a List of the same length; an item-wise binary operator on two lists gives a list of the longer length whose i-th item combines the i-th items where both exist and is the leftover item of the longer list otherwise; with one list it combines each item with the other operand.", "quantifier": "for all operands of any nesting", "why_tests_cant": "lists of any length", "anchors": ["execution.py:evaluate"]}
{"id": "C28", "title": "Lambda building commutes with application", "statement": "Writing an operator around a function gives a new function. Calling it gives the operator applied to the result of the original function's statements and return expression, run once with the same arguments and effects. Inside, the running function is the new one, so a function that calls itself through f or RE sees the operator at every level. For functions made of literals, arguments and operators without effects, and for any number of them among the operands, calling the new function gives the same result as calling the functions and applying the operator.", "quantifier": "for all operators on values without effects that build functions, all functions and arguments", "why_tests_cant": "all functions", "anchors": ["execution.py:evaluate", "execution.py:functionCall"]}
{"id": "C29", "title": "Loops run their body the stated number of times", "statement": "L n runs its body exactly max(0,n) times; F runs it once per item in order with the variable bound to it; W and T stop exactly when the condition becomes false/true and unroll to condition-body-loop.", "quantifier": "for all bodies, counts and iterables", "why_tests_cant": "unbounded iteration", "anchors": ["execution.py:LOOP", "execution.py:FOR", "execution.py:WHILE", "execution.py:TILL", "execution.py:IF"]}
{"id": "C30", "title": "Destructuring assignment", "statement": "[x1 .. xn]:v with distinct plain variables assigns the i-th item of v to xi and nil to the surplus variables; surplus values are ignored.", "quantifier": "for all n and all iterables v", "why_tests_cant": "any lengths", "anchors": ["execution.py:assign"]}
{"id": "C31", "title": "Swap exchanges two variables", "statement": "x::y on two distinct plain variables exchanges their values and changes no other variable; doing it twice restores the state.", "quantifier": "for all states", "why_tests_cant": "all states", "anchors": ["execution.py:SWAP"]}
{"id": "C32", "title": "PU PB PO DQ PK implement a double-ended queue", "statement": "On a variable holding a List, PU adds at the front, PB at the back, PO removes and returns the first item, DQ the last, PK i the item at i mod n, leaving the other items in order; PO undoes PU, DQ undoes PB.", "quantifier": "for all lists, items and states", "why_tests_cant": "all lists", "anchors": ["execution.py:PUSH", "execution.py:PUSHBACK", "execution.py:POP", "execution.py:DEQUEUE", "execution.py:PICK"]}
{"id": "C33", "title": "Compute-and-assign equals assigning the computation", "statement": "x op: e leaves the same variables and gives the same value as x: x op e.", "quantifier": "for all plain variables, operators, expressions", "why_tests_cant": "all operators and states", "anchors": ["execution.py:evaluate"]}
{"id": "C34", "title": "Sorting returns an ordered, stable permutation", "statement": "SN/SS/SK (DN/DS/DK) return a list with exactly the same items, in non-decreasing (non-increasing) order of the key, keeping the relative order of items with equal keys; sorting is idempotent.", "quantifier": "for all lists", "why_tests_cant": "all lists of any length", "anchors": ["execution.py:SORTNUM", "execution.py:SORTSTRING", "execution.py:SORTKEYED", "execution.py:DESCENDINGNUM", "execution.py:DESCENDINGSTRING", "execution.py:DESCENDINGKEYED"]}
{"id": "C35", "title": "UQ keeps exactly the first occurrences", "statement": "UQ returns the items without duplicates, in order of first appearance, with the same set of items; it is idempotent.", "quantifier": "for all lists and strings", "why_tests_cant": "all lists", "anchors": ["execution.py:UNIQUE"]}
{"id": "C36", "title": "Reversal, reflection and palindromes", "statement": "RV is an involution that reverses positions; RF x is x followed by RV x; PZ x is a palindrome of length max(0,2n-1) beginning with x; QR and QP do so in both directions.", "quantifier": "for all strings and lists", "why_tests_cant": "all lengths", "anchors": ["execution.py:REVERSE", "execution.py:REFLECT", "execution.py:PALINDROMIZE", "execution.py:QUADREFLECT", "execution.py:QUADPALINDROMIZE"]}
{"id": "C37", "title": "Weave inverts unweave", "statement": "WV(x UW n) = x for every string or list x and every n >= 1; the k-th strand holds the items at positions congruent to k mod n.", "quantifier": "for all iterables and all n", "why_tests_cant": "all lengths and strand counts", "anchors": ["execution.py:WEAVE", "execution.py:UNWEAVE"]}
{"id": "C38", "title": "Base conversion round-trips", "statement": "For every integer n and base 2<=b<=36, (n TB b) FB b = n; the text uses only digits below b, has no leading zero and a minus sign exactly for negative n.", "quantifier": "for all integers and bases", "why_tests_cant": "unbounded integers", "anchors": ["execution.py:TOBASE", "execution.py:FROMBASE"]}
{"id": "C39", "title": "Digit lists round-trip", "statement": "For every integer n and integer base b>=2, (n TD b) FD b = n, every digit has absolute value below b and the sign of n.", "quantifier": "for all integers and bases", "why_tests_cant": "unbounded integers", "anchors": ["execution.py:TODIGITS", "execution.py:FROMDIGITS"]}
{"id": "C40", "title": "Integer arithmetic is exact", "statement": "+ - * // % ** AB AD SG SQ DB on integer Scalars give the mathematical results, with n = (n//d)*d + n%d and the sign of n%d that of d; dividing by zero gives nil.", "quantifier": "for all integers", "why_tests_cant": "unbounded integers", "anchors": ["execution.py:ADD", "execution.py:SUB", "execution.py:MUL", "execution.py:INTDIV", "execution.py:MOD", "execution.py:POW", "execution.py:ABS", "execution.py:SIGN"]}
{"id": "C41", "title": "Bitwise operators are two's complement", "statement": "BA BO BX BN act bit by bit on the infinite two's-complement representation, for all integers; BL gives the bit length of the absolute value.", "quantifier": "for all integers and bit positions", "why_tests_cant": "unbounded integers", "anchors": ["execution.py:BITWISEAND", "execution.py:BITWISEOR", "execution.py:BITWISEXOR", "execution.py:BITWISENOT", "execution.py:BITLENGTH"]}
{"id": "C42", "title": "GROUP partitions into chunks", "statement": "x<>n for a non-zero integer n cuts x into consecutive chunks whose concatenation is x, all of size |n| except possibly the last (the chunk at the left end for negative n).", "quantifier": "for all iterables and n", "why_tests_cant": "all lengths", "anchors": ["execution.py:GROUP"]}
{"id": "C43", "title": "SPLITAT partitions at the given places", "statement": "x^@i cuts x into consecutive pieces whose concatenation is x, with a cut exactly at the given in-range positions (negative ones counted from the end).", "quantifier": "for all iterables and index lists", "why_tests_cant": "all lengths", "anchors": ["execution.py:SPLITAT"]}
{"id": "C44", "title": "Split and join are inverse", "statement": "For a non-empty separator s, (x^s)Js = x for every string x; and (l J s)^s = l for every non-empty list l of strings none of which, joined, contains s elsewhere.", "quantifier": "for all strings", "why_tests_cant": "all strings", "anchors": ["execution.py:SPLIT", "execution.py:JOIN"]}
{"id": "C45", "title": "Zip transposes", "statement": "Z of a list of lists has as many rows as the shortest list is long and its (i,j) item is the (j,i) item; ZD pads to the longest; Z is an involution on rectangular non-empty matrices.", "quantifier": "for all lists of lists", "why_tests_cant": "all shapes", "anchors": ["execution.py:ZIP", "execution.py:ZIPDEFAULT", "execution.py:ZIPJOIN"]}
{"id": "C46", "title": "Cartesian product, combinations and permutations are complete", "statement": "CP, CB and PM list every tuple, every choice of k positions and every ordering of positions exactly once, in lexicographic order of positions, hence have prod n_i, C(n,k) and n! items.", "quantifier": "for all lists", "why_tests_cant": "all lengths", "anchors": ["execution.py:CARTESIANPRODUCT", "execution.py:COMBINATIONS", "execution.py:PERMUTATIONS"]}
{"id": "C47", "title": "EN, ME and FX agree on positions", "statement": "EN pairs each item with its position; position i of EN l is [i; l@i]; FX keeps exactly the positions of true items.", "quantifier": "for all iterables", "why_tests_cant": "all lengths", "anchors": ["execution.py:ENUMERATE", "execution.py:FILTERINDEXES", "execution.py:MAPENUMERATE"]}
{"id": "C48", "title": "Find returns the first position, find-all every position", "statement": "l@?x is the least i with l@i equal to x, or nil if there is none; l@*x lists all such positions in increasing order; on strings the positions are those where x occurs as a substring.", "quantifier": "for all lists, strings and items", "why_tests_cant": "all lengths", "anchors": ["execution.py:FIND", "execution.py:FINDALL"]}
{"id": "C49", "title": "IN counts and NI decides absence", "statement": "x N l is the number of items of l equal to x; x NI l is true iff x N l is 0 (lists). A list of strings, or a Range, before N and a string gives the list of the counts of each.", "quantifier": "for all lists and items", "why_tests_cant": "all lengths", "anchors": ["execution.py:IN", "execution.py:NOTIN"]}
{"id": "C50", "title": "Stripping and trimming remove only at the ends", "statement": "||, |> and <| remove the longest run of the given characters at both/left/right ends and nothing else; TM removes exactly n characters at each end, giving the empty string if there are too few.", "quantifier": "for all strings", "why_tests_cant": "all strings", "anchors": ["execution.py:STRIP", "execution.py:LSTRIP", "execution.py:RSTRIP", "execution.py:TRIM"]}
{"id": "C51", "title": "Ranges contain what they say", "statement": "a,b holds exactly the integers a<=i<b, a\\,b those with a<=i<=b, ,b starts at 0 and \\,b at 1; adding an integer to a finite Range shifts it. Deviation: adding an integer to an infinite Range yields a finite Range.", "quantifier": "for all integers", "why_tests_cant": "all integers", "anchors": ["execution.py:RANGE", "execution.py:INCLRANGE", "execution.py:RANGETO", "execution.py:INCLRANGETO", "execution.py:ADD", "execution.py:SUB"]}
{"id": "C52", "title": "Grid builders", "statement": "r CG c, r ZG c, r OG c are r rows of c cells, cell (i,j) being [i;j], 0, 1; EY n has 1 on the diagonal and 0 elsewhere; f MC n calls f once per cell in row-major order.", "quantifier": "for all sizes", "why_tests_cant": "all sizes", "anchors": ["execution.py:COORDINATEGRID", "execution.py:ZEROGRID", "execution.py:ONEGRID", "execution.py:IDENTITYMATRIX", "execution.py:MAPCOORDS"]}
{"id": "C53", "title": "Transliteration and character deletion act per character", "statement": "s TR old new replaces each character independently by the character at its last position in old (if new is long enough) and keeps the others; s DC cs deletes exactly the characters in cs.", "quantifier": "for all strings", "why_tests_cant": "all strings", "anchors": ["execution.py:TRANSLITERATE", "execution.py:DELETECHARS"]}
{"id": "C54", "title": "MX and MN return extremal members", "statement": "MX (MN) of a non-empty list of numbers is a member of the list, not smaller (larger) than any member, the first such; of an empty list it is nil.", "quantifier": "for all lists", "why_tests_cant": "all lengths", "anchors": ["execution.py:MAX", "execution.py:MIN"]}
{"id": "C55", "title": "Numeric comparisons are coherent", "statement": "On integer Scalars, and on lists of them, = is an equivalence, < a strict linear order, > its converse, <= means < or =, != the negation of =, CM the sign of the comparison.", "quantifier": "for all integers and lists of integers", "why_tests_cant": "all values", "anchors": ["execution.py:NUMLESS", "execution.py:NUMGREATER", "execution.py:NUMEQUAL", "execution.py:NUMLESSEQ", "execution.py:NUMGREATEREQ", "execution.py:NUMNOTEQUAL", "execution.py:NUMCMP"]}
{"id": "C56", "title": "String comparisons are the lexicographic order", "statement": "LT GT Q LE GE NE on strings (and lists of strings) form a linear order with its converse, equality and negation; strings compare by code points.", "quantifier": "for all strings", "why_tests_cant": "all strings", "anchors": ["execution.py:STRLESS", "execution.py:STRGREATER", "execution.py:STREQUAL", "execution.py:STRLESSEQ", "execution.py:STRGREATEREQ", "execution.py:STRNOTEQUAL"]}
{"id": "C57", "title": "Flattening", "statement": "FL concatenates one level, FA all levels: FA x contains no list and is the left-to-right sequence of the leaves; FA is idempotent.", "quantifier": "for all nested lists", "why_tests_cant": "arbitrary nesting", "anchors": ["execution.py:FLATTEN", "execution.py:FLATTENALL"]}
{"id": "C58", "title": "Map and filter laws", "statement": "f M l has the length of l with f applied to the items in order; f FI l and f FN l are disjoint subsequences that together are l (for f without side effects); unary FI/FN partition by truth.", "quantifier": "for all functions and lists", "why_tests_cant": "all lists", "anchors": ["execution.py:MAP", "execution.py:FILTER", "execution.py:FILTERNOT"]}
{"id": "C59", "title": "Replacement at an index changes only that index", "statement": "RA (and assignment x@i:v) change exactly the item at i mod n and keep length and all other items. With a list of indices, RA writes the new values (repeated as often as necessary) or the same new value to all these places, later ones winning, and leaves all other places alone. With a Range, it replaces exactly the items between the two ends by the new items, so that replacing a slice within the list by itself changes nothing.", "quantifier": "for all lists, strings (single characters), indices, lists of indices, Ranges", "why_tests_cant": "all lengths", "anchors": ["execution.py:REPLACEAT", "execution.py:assign", "ptypes.py:List.__setitem__", "ptypes.py:Scalar.__setitem__"]}
{"id": "C60", "title": "Append, prepend, concatenate, repeat", "statement": "AE, PE, AL give the list with the item at the end/at the front/the concatenation; l RL n is n copies of l in a row; s X n likewise for strings.", "quantifier": "for all lists and counts", "why_tests_cant": "all lengths", "anchors": ["execution.py:APPENDELEM", "execution.py:PREPENDELEM", "execution.py:APPENDLIST", "execution.py:REPEATLIST", "execution.py:STRMUL"]}
{"id": "C61", "title": "Random operators stay within bounds", "statement": "SH returns a permutation of its argument, RC a member, RR a number within bounds, for every behaviour of the random source; RC of an empty list and RR of an empty interval crash with an uncaught ValueError (deviation).", "quantifier": "for all random outcomes", "why_tests_cant": "all random sequences", "anchors": ["execution.py:SHUFFLE", "execution.py:RANDCHOICE", "execution.py:RANDRANGE"]}
{"id": "C62", "title": "Heads and tails", "statement": "For 0<=n<=length, x H n is the first n items, x S n the last n, x @< n and x @> n split x at n with (x@<n) followed by (x@>n) = x. Deviation: on a bracketed list of variables they are ignored. A list or Range of lengths, nested to any depth, gives the list of what each length gives.", "quantifier": "for all iterables and n", "why_tests_cant": "all lengths", "anchors": ["execution.py:PREFIX", "execution.py:SUFFIX", "execution.py:LEFTOF", "execution.py:RIGHTOF"]}
{"id": "C63", "title": "The command-line splitter inverts quoting", "statement": "Splitting the text obtained by quoting each argument (with a quote character it does not contain) and joining with spaces gives back exactly the arguments, including empty ones. Arguments may also be written without quotes or as a mixture, separated by any number of spaces. An argument whose last quote is not closed is silently lost (deviation).", "quantifier": "for all argument lists", "why_tests_cant": "all strings", "anchors": ["pip.py:pip"]}
{"id": "C64", "title": "List output format", "statement": "With no flag a list prints as the concatenation of its leaves; with -n, -s the items are joined by newline/space; -p prints its repr; -P prints one line per item, and so do -l and -S unless the item contains a finite Range, whose members are printed on separate lines (deviation). The flag chosen is the first set in the order p P s S n l.", "quantifier": "for all values and flags", "why_tests_cant": "arbitrary nesting", "anchors": ["ptypes.py:List.__str__", "ptypes.py:List.joined", "pip.py:pip"]}
{"id": "C65", "title": "Copies are independent", "statement": "Values read from a variable are deep copies: every sequence of assignments of new values, of variables or parts of variables, of destructuring assignments and of swaps, with any index paths on both sides, gives the results it would give if variables held values instead of references to mutable objects; in particular no statement changes a variable it does not assign to. Exceptions are exhibited: the items of a MAP with a constant are one object, and a chaining fold over one item is the interpreter's own constant one.", "quantifier": "for all heaps and sequences of mutations", "why_tests_cant": "aliasing over all histories", "anchors": ["ptypes.py:List.copy", "execution.py:getRval", "execution.py:assign", "execution.py:MAP"]}
{"id": "C66", "title": "Evaluation is deterministic and independent of the step budget", "statement": "In the model, if evaluation terminates within some number of steps it gives the same result and state for every larger number; Python's recursion limit is the only budget in the code.", "quantifier": "for all programs and budgets", "why_tests_cant": "all executions", "anchors": ["execution.py:evaluate"]}
{"id": "C67", "title": "q reads a line at most once per occurrence", "statement": "Each evaluation of the expression q consumes at most one input line however often its value is used inside one operator application, and yields nil at end of input.", "quantifier": "for all inputs and states", "why_tests_cant": "all inputs", "anchors": ["execution.py:getRval", "execution.py:getq"]}
{"id": "C68", "title": "A fatal error inside a function leaves the REPL in the function's scope", "statement": "When a fatal error escapes a function call the scope stack is not unwound: the REPL continues with the callee's locals (deviation).", "quantifier": "for all calls that die", "why_tests_cant": "all executions", "anchors": ["execution.py:functionCall", "pip.py:repl"]}
{"id": "C69", "title": "History variables shift", "statement": "After a statement with value v in a function body or the REPL, $_ is v, $__ the previous $_, $___ the previous $__.", "quantifier": "for all states and values", "why_tests_cant": "all histories", "anchors": ["execution.py:updateHistoryVars"]}
{"id": "C70", "title": "WIPEGLOBALS resets exactly the globals", "statement": "WG makes every global read as at program start, with \\a..\\g and \\f the program's arguments and main function, and leaves locals untouched.", "quantifier": "for all states", "why_tests_cant": "all histories", "anchors": ["execution.py:WIPEGLOBALS"]}
{"id": "C71", "title": "The REPL reads exactly as much as it needs", "statement": "In each round the REPL reads the fewest lines that form complete or hopeless code; hopeless code stays hopeless whatever lines follow (at most it is incomplete while a string or comment in them is open); a line starting with a semicolon is never executed; each value is displayed and recorded; a session ends only at the end of the input (by an uncaught EOFError), with a quit command or with an exception that is not fatal.", "quantifier": "for all input lines and states", "why_tests_cant": "all sessions", "anchors": ["pip.py:repl"]}
{"id": "C72", "title": "Program arguments and sources", "statement": "The same code is run with the same arguments whether it is passed directly, with -e, with -f or as the first argument. With -r the arguments are the remaining lines of standard input; with -i the code is.", "quantifier": "for all option combinations, inputs and programs", "why_tests_cant": "all programs and inputs", "anchors": ["pip.py:pip"]}
{"id": "C73", "title": "Every symbol calls its method", "statement": "Each of the 166 operator symbols that compute from values alone (90 with one operand, 73 with two, 3 with three) evaluates its operands once, left to right, and gives what the method of its name gives on their values; symbols that work on items give the List of the item results, pairing two Lists with unpaired items kept.", "quantifier": "for all operand expressions, states and values of the kinds a symbol takes as a whole or apart", "why_tests_cant": "every symbol combined with every kind of operand expression", "anchors": ["operators.py:opsByArity", "execution.py:evaluate"]}
{"id": "C74", "title": "Character codes", "statement": "A gives the code of the first character of a string and C turns it back; C works exactly for the codes of characters, and A recovers the code.", "quantifier": "for all strings and integers", "why_tests_cant": "all code points, surrogates and out-of-range codes", "anchors": ["execution.py:ASC", "execution.py:CHR"]}
{"id": "C75", "title": "Lengths", "statement": "# gives the number of items of strings, Lists and finite Ranges; #= #< #> compare the numbers of items, infinite Ranges being longer than all finite values and equal among themselves; other values give nil.", "quantifier": "for all pairs of values", "why_tests_cant": "all values including infinite ones", "anchors": ["execution.py:LEN", "execution.py:LENEQUAL", "execution.py:LENLESS", "execution.py:LENGREATER"]}
{"id": "C76", "title": "Exact equality and negation", "statement": "== is equality on data (so 1 == 1.0 is false), and an equivalence on all values including functions; ! gives 1 for false and 0 for true values.", "quantifier": "for all values", "why_tests_cant": "all nested values", "anchors": ["execution.py:OBJEQUAL", "execution.py:NOT"]}
{"id": "C77", "title": "Eager logic", "statement": "\\& \\| \\? evaluate all operands from left to right and choose by the truth value of the first; they agree with the lazy & and | when the second operand changes nothing.", "quantifier": "for all operand expressions and states", "why_tests_cant": "all expressions with effects", "anchors": ["execution.py:RVALAND", "execution.py:RVALOR", "execution.py:RVALIFTE"]}
{"id": "C78", "title": "Wrapping, joining with wrapping, and columns", "statement": "WR puts its second operand before and after the first; JW puts the separator between all items and at both ends (joining and then wrapping, if there are items); ZJ gives the columns of a text or List of strings, shorter lines being filled up with spaces, and applied twice to a rectangular block gives it back.", "quantifier": "for all strings, separators and Lists of strings", "why_tests_cant": "all texts and numbers of lines", "anchors": ["execution.py:WRAP", "execution.py:JOINWRAP", "execution.py:ZIPJOIN"]}
{"id": "C79", "title": "Replacing and removing strings", "statement": "R replaces the leftmost, non-overlapping occurrences of a string; an empty old string means between all characters; Lists of old strings are replaced one after the other with the corresponding (or the same) new string; R distributes over a List as first operand; Ranges count as the Lists of their numbers; RM of strings is replacing by nothing, RM in a List keeps the items not equal to the operand in order.", "quantifier": "for all strings, Lists of strings and states, within the rules given", "why_tests_cant": "all texts, occurrences and overlaps", "anchors": ["execution.py:REPLACE", "execution.py:REMOVE"]}
{"id": "C80", "title": "Patterns as regular expressions", "statement": "p+q matches what p matches followed by what q matches; p,q what either matches; p*n n repetitions; unary + and * at least one and any number of repetitions; C p the same as p; X s exactly the string s (so s ~= t for strings is equality), X of a List of strings or a Range any of them; A - , . switch flags. Exceptions: the Pattern | as operand of +, and repeating the empty Pattern or one that is just ^ or $ (an error).", "quantifier": "for all Patterns whose texts have a meaning in the grammar of regular expressions, all strings", "why_tests_cant": "all regular expressions and all strings; precedence mistakes appear only for particular operands", "anchors": ["ptypes.py:Pattern", "execution.py:ADD", "execution.py:RANGE", "execution.py:MUL", "execution.py:POS", "execution.py:KLEENESTAR", "execution.py:REGEX"]}
{"id": "C81", "title": "Variables set by a match", "statement": "After a match by ~ or ~=, $0 is the match, $1 to $9 the groups (nil if there is none), $$ all groups, $( $) the position, $` $' the text before and after it, $[ $] the positions of the groups; all other variables are unchanged; without a match nothing changes.", "quantifier": "for all strings, Patterns, matches and states", "why_tests_cant": "all numbers of groups and all states", "anchors": ["execution.py:assignRegexVars", "execution.py:FIRSTMATCH", "execution.py:FULLMATCH"]}
{"id": "C82", "title": "Mapping and filtering, then joining, flattening or summing", "statement": "a MJ b is J(a M b), a MF b is FL(a M b), a FJ b is J(a FI b) and FJ a is J(FI a), for all operands and including failures; MJ of a function with string results is their concatenation; f MS l is 0 plus the results added from the left, for integer results their sum. (The documented equality of MS with $+ of M fails for a single result that is no number.)", "quantifier": "for all operand expressions, functions, items, results and states", "why_tests_cant": "all functions, including those with effects or failures, and all operands", "anchors": ["execution.py:MAPJOIN", "execution.py:MAPFLATTEN", "execution.py:MAPSUM", "execution.py:FILTERJOIN"]}
{"id": "C83", "title": "Mapping and filtering over unpacked items, pairs, nested items and matches", "statement": "MU calls the function with the items of each item as arguments, FU keeps the items for which this is true (unary: whose first item is true), MZ runs through two iterables in parallel, MP through an iterable and its tail, MM maps over the items of each item (nil for items that are not iterable), MR calls the function once per match from left to right, with the match variables set before and the match and its groups as arguments. M with a List of functions maps each of them over the iterable, one after the other.", "quantifier": "for all functions, iterables, states, orders of operands", "why_tests_cant": "all functions with effects, all lengths, all matches", "anchors": ["execution.py:MAPUNPACK", "execution.py:FILTERUNPACK", "execution.py:MAPZIP", "execution.py:MAPPAIRS", "execution.py:MAPMAP", "execution.py:MAPREGEX", "execution.py:MAP"]}
{"id": "C84", "title": "Output and yanking", "statement": "O e writes exactly the text of the value of e, P e the same and a newline, nothing at all for nil; both yield the value and change nothing else. Y e assigns the value to y, changes nothing else and yields it; YO and YP do both. If e fails, nothing is written or assigned.", "quantifier": "for all expressions, values and states", "why_tests_cant": "all values, all states, all operands with their own effects", "anchors": ["execution.py:OUTPUT", "execution.py:PRINT", "execution.py:YANK", "execution.py:YANKOUTPUT", "execution.py:YANKPRINT"]}
{"id": "C85", "title": "Incrementing and decrementing", "statement": "U x and ++x on a variable assign x+1 to it, D x and --x assign x-1, whatever kind of value (item by item for lists); nothing else changes and the new value is the result. On anything that is not a variable they yield the value plus or minus one and assign nothing.", "quantifier": "for all variables, values other than functions, and states", "why_tests_cant": "all values and all integers of any size", "anchors": ["execution.py:INC", "execution.py:DEC"]}
{"id": "C86", "title": "Recursion", "statement": "RE e calls the function that is running with the value of e. While a function body runs, that function is the running one. For instance {a?a*RE a-1 1} yields the factorial of every natural number and leaves the state as it was.", "quantifier": "for all functions, arguments, states; all natural numbers", "why_tests_cant": "unbounded recursion depth and all functions", "anchors": ["execution.py:RECURSE", "execution.py:functionCall"]}
{"id": "C87", "title": "Calling and indexing with parentheses", "statement": "(f x y ...) calls the function f with the values of the operands, which are evaluated from left to right, variables among them being read last; (l i j ...) is the item of the item ... of a list, string or Range at the given positions modulo the lengths, also if l is a variable.", "quantifier": "for all functions, operands, nested values, positions and states", "why_tests_cant": "all nesting depths, all integers as positions, all effects of operands", "anchors": ["execution.py:SEND", "execution.py:AT"]}
{"id": "C88", "title": "Evaluating text and functions", "statement": "V f runs the statements of a function and then evaluates its last expression in the scope where V stands; V t does the same with the program that a text parses to and dies with a fatal error if the text is no program; f V l and l V f call the function with the items of l, and t V l does so with the program that the text t parses to.", "quantifier": "for all functions, texts, argument lists and states", "why_tests_cant": "all programs as texts", "anchors": ["execution.py:EVAL"]}
{"id": "C89", "title": "Floats survive being text", "statement": "A number written in decimal, with a point or an exponent, is read as the nearest float (ties to even), or as an infinity from half a unit above the largest float on. A finite float that is a result is written as a text that stands for exactly the same number; different floats give different texts; floats that are integers below 10^16 are written like integers. A text of an infinite result stands for 0.", "quantifier": "for all decimal numerals and all binary64 floats", "why_tests_cant": "all 2^64 floats and decimal numerals of any length", "anchors": ["ptypes.py:Scalar", "ptypes.py:Scalar.toNumber", "ptypes.py:Scalar.__init__"]}
{"id": "C90", "title": "Arithmetic with floats is correctly rounded", "statement": "+ - * / of two numbers one of which is a float (both exactly floats) yield the float nearest to the exact result, or an infinity when it is too large; / of two integers of any size yields the float nearest to the exact quotient, dying of an overflow when it is too large, and the integer itself when it is exact and at most 2^53. An integer that is not a float is rounded before the operation, which can change the result.", "quantifier": "for all operands", "why_tests_cant": "all pairs of floats; all integers of any size", "anchors": ["execution.py:ADD", "execution.py:SUB", "execution.py:MUL", "execution.py:DIV"]}
{"id": "C91", "title": "Comparisons with floats are exact", "statement": "The six numeric comparisons compare the exact values of their operands, also of an integer of any size with a float; a float result is false exactly if it is 0.", "quantifier": "for all integers and floats", "why_tests_cant": "all pairs of numbers, integers between floats included", "anchors": ["execution.py:NUMLESS", "execution.py:NUMGREATER", "execution.py:NUMEQUAL", "execution.py:NUMLESSEQ", "execution.py:NUMGREATEREQ", "execution.py:NUMNOTEQUAL", "ptypes.py:Scalar.__bool__"]}
{"id": "C92", "title": "Rounding numbers to integers", "statement": "FL, CE and RZ of a number yield exactly the next integer below, above and towards zero; RN yields the nearest integer, the even one of two, and dies of an overflow for integers too large for floats. HV and HU yield half of an integer rounded down and up, if half of it is a float (in particular up to 2^53); beyond that they can be off by one.", "quantifier": "for all integers and floats", "why_tests_cant": "all numbers; the errors begin at 2^53", "anchors": ["execution.py:FLOOR", "execution.py:CEIL", "execution.py:ROUNDZERO", "execution.py:ROUNDNEAREST", "execution.py:HALVE", "execution.py:HALVEUP"]}
{"id": "C93", "title": "Remainders and integer quotients of floats", "statement": "a % b with a float among the operands is the float nearest to the exact a - floor(a/b)*b, exactly that number when the signs agree; it can equal b when they differ. a // b is exactly the integer floor(a/b), as long as that is at most 2^49. Both are nil for b = 0.", "quantifier": "for all pairs of floats", "why_tests_cant": "all pairs of floats", "anchors": ["execution.py:MOD", "execution.py:INTDIV"]}
{"id": "C94", "title": "Chopping into a number of pieces", "statement": "t CH q cuts a text or List into consecutive pieces, from the left, or for a negative number from the right; nothing is lost or reordered. For a whole number q there are q or q+1 pieces, each at most n/q+1 long, all but the last at least n/q-1; exactly q equal pieces if q divides the length n. Asking for 10 pieces of one character gives 11. t GR r with a float r cuts into consecutive pieces of about the length r.", "quantifier": "for all texts and Lists up to 2^25 items, all numbers of pieces from 1 to 2^25 (2^53 items if the number divides)", "why_tests_cant": "accumulated rounding errors over all lengths and numbers", "anchors": ["execution.py:CHOP", "execution.py:GROUP"]}
{"id": "C95", "title": "Regular expressions match what they mean", "statement": "A Pattern made of characters, escapes, ., sets with ranges and categories, the assertions ^ $ \\A \\Z \\b \\B, groups, look-aheads, look-behinds at a fixed number of characters, the quantifiers * + ? {n} {m,n} {m,} {,n} (greedy or not), concatenation and | is compiled to a matcher that finds exactly what its text means: a full match exists iff the whole string has the meaning; searching finds a leftmost match iff there is any; all matches are found from left to right, each beginning as early as possible, not overlapping. The flags A i m s change the meaning of literals, categories, ^, $ and . as documented.", "quantifier": "for all texts of the grammar, all flags, all strings", "why_tests_cant": "all regular expressions and all strings; backtracking errors show only for particular combinations", "anchors": ["ptypes.py:Pattern.asRegex", "ptypes.py:Pattern"]}
{"id": "C96", "title": "Finding all matches", "statement": "s@p is the List of all matches of the Pattern p in s, s@*p the List of their start indices, p N s their number; after each the match variables are those of the last match. s@?p is the index of the first match, or nil; l~=p is 1 iff all strings of the List l match as a whole, tried one after the other up to the first that does not.", "quantifier": "for all strings, Patterns and programs computing them", "why_tests_cant": "all strings and Patterns; the operands may have effects", "anchors": ["execution.py:AT", "execution.py:FINDALL", "execution.py:IN", "execution.py:assignRegexVars", "execution.py:FIND", "execution.py:FULLMATCH"]}
{"id": "C97", "title": "Replacing with Patterns", "statement": "s R p t with a Pattern p replaces every match and leaves the rest as it is: by the text of t taken literally (backslashes included) if t is a string; if t is a Pattern by its text with & as the match, \\1 ... as the groups, \\& as an ampersand, \\\\ as a backslash and \\n, \\t ... as control characters; if t is a function by its results, called from left to right with the match and the groups, the match variables set before each call. s RM p removes the matches.", "quantifier": "for all strings, Patterns, replacement texts of the template grammar, functions", "why_tests_cant": "all templates, Patterns and strings; effects of the function", "anchors": ["execution.py:REPLACE", "execution.py:REMOVE", "ptypes.py:Pattern.asReplacement"]}
{"id": "C98", "title": "Back-references", "statement": "The numbers of back-references in a Pattern count the groups that the user wrote: the text that is compiled is the text of the Pattern in a group of its own with the numbers of all back-references increased by one, escaped backslashes left alone; (r)\\1 finds what r matches twice in a row. An octal escape that begins with a non-zero digit is taken for a back-reference.", "quantifier": "for all texts of Patterns; for the twice-property all r of the grammar and all flags but i", "why_tests_cant": "all Patterns and strings; off-by-one for numbers of one and two digits", "anchors": ["ptypes.py:Pattern.asRegex"]}
{"id": "C99", "title": "Taking from and pushing to strings, Ranges and nil", "statement": "PO, DQ and PK on a variable that holds a string or a Range remove and yield the first item, the last item and the item at a position modulo the length; a Range stays a Range if an end is taken and becomes a List otherwise; if there is nothing to take, nothing changes and the result is nil. PB and PU on nil make a List of one item, on a string they put the text of the value after or before it, on a Range they make a List.", "quantifier": "for all variables, strings, Ranges (PO also of infinite ones), positions, pushed values", "why_tests_cant": "all lengths, positions and bounds", "anchors": ["execution.py:POP", "execution.py:DEQUEUE", "execution.py:PICK", "execution.py:PUSH", "execution.py:PUSHBACK", "ptypes.py:Range"]}
{"id": "C100", "title": "Items of values and variables", "statement": "a@i is the item at i counted cyclically from either end, for Lists, strings and finite Ranges; for infinite Ranges items before the beginning are nil; of what has no items it is nil. @a is the first item, @<a and H a all but the last, @>a and S a all but the first. With a variable as left operand the value is the one that it has after the index was evaluated. [x;y;z]@i is one of the variables and can be assigned to. A list of indices, Ranges and such lists, nested to any depth, selects the list of what its items select.", "quantifier": "for all values that are no functions, all integer indices, all index expressions with effects", "why_tests_cant": "all values and indices; order of evaluation", "anchors": ["execution.py:AT", "execution.py:LEFTOF", "execution.py:RIGHTOF", "ptypes.py:Scalar.__getitem__", "ptypes.py:List.__getitem__", "ptypes.py:Range.__getitem__", "execution.py:Lval"]}
{"id": "C101", "title": "Preset variables", "statement": "At the start of the main program the variables have the documented values: numbers (h i m o t v), texts (k n p s x y), the empty List (l) and nil (u), the alphabets z AZ CZ PA VW VY in order, functions B G _ that give their arguments, the version in VD and VN, the float nearest to π in PI, and the Patterns w XA XC XD XI XL XN XU XV XW XX XY, which find exactly white space, letters, consonants, digits, integers, numbers and so on.", "quantifier": "for all programs and arguments; for the Patterns all strings", "why_tests_cant": "all strings for the Patterns (their meaning, not their text)", "anchors": ["execution.py:ProgramState"]}
{"id": "C102", "title": "Stripping with Patterns", "statement": "s|>p, s<|p and s||p with a Pattern p whose text has no | outside of parentheses remove non-empty matches at the beginning, at the end, at both, until there are none, and nothing else. The flags of p are ignored; the place before a newline at the end counts as the end. What is left by |> is a suffix of s, by <| a prefix if s has no newline, and has no match any more at that end. With | outside of parentheses it is not so: matches inside are removed.", "quantifier": "for all strings, Patterns of the grammar of C95, flags", "why_tests_cant": "all Patterns and strings; repeated rounds, empty matches, newlines", "anchors": ["execution.py:LSTRIP", "execution.py:RSTRIP", "execution.py:STRIP"]}
{"id": "C103", "title": "Splitting with Patterns", "statement": "s^p with a Pattern p without groups is the List of the parts of s before, between and after the matches of p, one more than there are matches; with the matches put back the string is complete. If the whole of p is one group, the matches are in the List too, between the parts, and the List joined gives s. A group without part in a match gives the text None. In general the List has the groups of each match (C118), in order, between the parts, and back-references count the groups of the Pattern.", "quantifier": "for all strings, Patterns of the grammar of C95, flags", "why_tests_cant": "all Patterns and strings; empty matches", "anchors": ["execution.py:SPLIT", "ptypes.py:Pattern.asSeparator"]}
{"id": "C104", "title": "Letter case", "statement": "On strings of ASCII characters LC makes every letter small, UC every letter big, SC swaps the case of every letter (twice: no change), IC makes the first character big and all others small, TC makes letters big that do not follow a letter and all others small; other characters stay. Of LC and UC the one applied last decides. Ranges are left as they are, Patterns and nil give nil.", "quantifier": "for all ASCII strings, operand expressions and states", "why_tests_cant": "all strings; the boundaries of words", "anchors": ["execution.py:LOWERCASE", "execution.py:UPPERCASE", "execution.py:SWAPCASE", "execution.py:TITLECASE", "execution.py:INITIALCAPS"]}
{"id": "C105", "title": "Commands of the interactive mode", "statement": "In the interactive mode a line that begins with a semicolon and whose first word is, in any letter case, x or a non-empty beginning of quit or exit ends the session without reading more; a beginning of help prints the help text; all other such lines do nothing.", "quantifier": "for all ASCII lines, states and remaining inputs", "why_tests_cant": "all spellings, spaces and arguments", "anchors": ["pip.py:repl"]}
{"id": "C106", "title": "Rounding to multiples", "statement": "For integers i|<j and i>|j are the largest multiple of j that is at most i and the smallest that is at least i, i RZ j the nearest multiple not farther from zero, i RN j the nearest multiple, the even one of two, if the numbers are below 2^53 (2^52 for RN). With floats RN gives the correctly rounded nearest multiple. With larger numbers rounding down may give a larger number (witness). j = 0 leaves any text unchanged; other operands give nil.", "quantifier": "for all integers in the bounds, all floats for RN", "why_tests_cant": "rounding of quotients of large numbers", "anchors": ["execution.py:FLOOR", "execution.py:CEIL", "execution.py:ROUNDZERO", "execution.py:ROUNDNEAREST"]}
{"id": "C107", "title": "Logarithms, trigonometric functions, roots and powers", "statement": "SI, CO, TA, AT and EX are the library's sine, cosine, tangent, arc tangent and exponential function of the operand; SE, CS and CT the correctly rounded reciprocals of cosine, sine and tangent, with an uncaught division by zero where those are 0 (a deviation); LN, LB and LD the logarithms of positive numbers and nil for others; AT with two operands the angle of a point. RT is the power 1/2 of non-negative numbers and nil for negative ones; a RT b is b to the power of the rounded 1/a, nil for a = 0 and for negative b if that is no integer. Powers with floats or negative exponents are the library's, nil for negative bases with exponents that are no integers; a EE b is a times 10 to the power b, rounded. RD and DG divide and multiply by 180 and the float nearest to π. nil and Patterns give nil.", "quantifier": "for all numbers and all results of the library", "why_tests_cant": "all numbers, all mathematical libraries", "anchors": ["execution.py:SINE", "execution.py:COSINE", "execution.py:TANGENT", "execution.py:SECANT", "execution.py:COSEC", "execution.py:COTAN", "execution.py:ARCTAN", "execution.py:EXPONENTIAL", "execution.py:NATURALLOG", "execution.py:BINARYLOG", "execution.py:DECIMALLOG", "execution.py:SQRT", "execution.py:ROOT", "execution.py:RADIANS", "execution.py:DEGREES", "execution.py:POW", "execution.py:POWEROFTEN"]}
{"id": "C108", "title": "Which match is found", "statement": "Of the matches that begin at the leftmost possible place, the one found is that where a repetition of a single character (or set), alone or in parentheses, after a fixed number of characters, takes as many characters as possible such that the rest of the Pattern still matches, or as few as possible if ? follows the quantifier. Of two alternatives the first is taken whenever it matches at that place, even if the second would match more.", "quantifier": "for all texts of the grammar of this form, all flags, all strings", "why_tests_cant": "all regular expressions and strings; the choice shows only where several matches are possible", "anchors": ["ptypes.py:Pattern.asRegex", "execution.py:FIRSTMATCH"]}
{"id": "C109", "title": "What the groups of a match contain", "statement": "For a Pattern that consists of parts one after the other, some of them in parentheses, a match (of the whole string, the first one, or each of all) consists of texts matched by the parts, and the groups are exactly the texts of the parts in parentheses, in order, with the positions where they begin and end.", "quantifier": "for all texts of the grammar of this form, all flags, all strings, all matches", "why_tests_cant": "all regular expressions and strings", "anchors": ["ptypes.py:Pattern.asRegex", "execution.py:assignRegexVars"]}
{"id": "C110", "title": "Which command lines are accepted", "statement": "A command line consists of options and arguments. Options are written as letters, several of them together, -e and -f last with the argument attached (also after =) or in the next word, or as names, which may be abbreviated as long as no other name begins like this, with the argument after = or in the next word. The arguments of the program come together in one place; they do not begin with a dash, are only a dash, negative numbers, or contain a space and do not begin like an option; after -- everything is an argument. Such a command line sets exactly the options written in it (the last -e or -f counts) unless two different code sources or two different list formats are given, which is a usage error, or -h, which shows the help. Nothing else is accepted.", "quantifier": "for all lists of words", "why_tests_cant": "all command lines; unusual words (spaces, signs, abbreviations, texts attached to letters) are rarely tried", "anchors": ["pip.py:pip"]}
{"id": "C111", "title": "From the command line to output and exit code", "statement": "With an accepted command line the interpreter prints the version for -V, starts the interactive mode for -R, and otherwise runs the program given by -e, read from the file of -f or of the first argument, or from standard input for -i, with the remaining arguments (with -r: the remaining lines of standard input) as Scalars (with -x: as the values whose texts they are) and with the list format of the option given (-d implies -p). The output is that of the program; the exit code is 0 if it ends normally and 1 if it raises an exception, has a syntax error or its file cannot be read, in which last two cases nothing is printed to standard output. Command lines that are not accepted run nothing and give exit code 2. Without any arguments the command line and the program are asked for.", "quantifier": "for all command lines, files, standard inputs, environments", "why_tests_cant": "all combinations of options, sources and inputs", "anchors": ["pip.py:main", "pip.py:pip"]}
{"id": "C112", "title": "Arithmetic programs print the right number", "statement": "A program that is an arithmetic expression in the usual notation - decimal integers, the arguments a to e, parentheses, sums and differences, products, floor quotients // and remainders %, signs, powers ** with non-negative exponents, with or without a space around operators - prints the integer it stands for, followed by a newline, where products bind tighter than sums, signs tighter than products and powers tighter than signs, powers associate to the right and the rest to the left. This holds however the code (-e, -f, a file, -i) and the integer arguments (words or, with -r, lines of standard input) are given and whatever list format is chosen.", "quantifier": "for all expressions of any size, all integers, all command lines, files, inputs, environments", "why_tests_cant": "unboundedly many nested expressions; scanner, parser, evaluator and command line have to work together", "anchors": ["pip.py:pip", "scanning.py:tokenize", "parsing.py:parseExpr", "execution.py:executeProgram"]}
{"id": "C113", "title": "How floats are written", "statement": "A float that is not an integer below 10^16 is written in the usual form: no zeros at the end of the fraction; from 0.0001 and below 10^16 without exponent and without superfluous zeros in front; otherwise one digit that is not zero, the fraction if there is one, and an exponent of at least two digits with sign. The decimal number written rounds to the float, no decimal number that does so has fewer digits, and none with as few digits is nearer to the float. Conversely a decimal of at most 15 digits in the usual form, in the range of normal floats, is written exactly as it was read, so adding zero, multiplying by one and unary plus do not change the text and negation puts a minus sign before it; with 16 digits this can fail.", "quantifier": "for all floats, for all decimals of up to 15 digits of any exponent in the range", "why_tests_cant": "2^64 floats, 10^15 * 600 decimals; the digits depend on the distances of neighbouring floats", "anchors": ["ptypes.py:Scalar.__init__", "ptypes.py:Scalar.toNumber", "operators.py:POS"]}
{"id": "C114", "title": "The verbose mode only adds to the output", "statement": "With -v, or -d, the interpreter first prints the length of the program in bytes (UTF-8) and in characters, then the tokens separated by single spaces, then the parse tree, each followed by an empty line. After that the output and the exit code are exactly those of the same command line without -v (for -d: with -p in its place). If the program cannot be scanned or parsed, only the parts before that point are printed.", "quantifier": "for all command lines, programs, files, inputs, environments", "why_tests_cant": "holds for every program, whatever it prints and reads and however it ends", "anchors": ["pip.py:pip", "scanning.py:addSpaces", "execution.py:executeProgram"]}
{"id": "C115", "title": "Small imperative programs print what they should", "statement": "Programs with integer variables, arithmetic, comparisons, assignments x:e, printing P e, I e{..}EL{..}, W e{..}, T e{..}, L e{..} and F x,e{..}, written with or without spaces and line ends, nested in any way, print exactly the lines that the usual (big-step) meaning of such programs says, followed by the value of the last statement if it has one, however the program and its integer arguments are given on the command line. For instance pip -e 'Wb{t:a%b;a:b;b:t}a' a b prints the greatest common divisor of any two natural numbers, and pip -e 'x:1Fn,a{x:x*(n+1)}x' a the factorial of any natural number.", "quantifier": "for all programs of this language, all ways to write them, all integer arguments, all command lines", "why_tests_cant": "infinitely many programs, loops that run arbitrarily long, integers of any size", "anchors": ["pip.py:pip", "scanning.py:tokenize", "parsing.py:parse", "parsing.py:parseStatement", "execution.py:executeProgram", "execution.py:IF", "execution.py:WHILE", "execution.py:TILL", "execution.py:LOOP", "execution.py:FOR", "execution.py:ASSIGN", "execution.py:PRINT"]}
{"id": "C116", "title": "Input that is not read has no influence", "statement": "If a run (with any options, whether it ends normally or with an error) has left some lines of standard input unread, then with any other lines, or none, in their place it gives the same result, the same output and the same variables, and leaves those lines unread. In particular a program that does not read the only line does the same for every input. The same holds for the evaluation of every expression and for every call of a function.", "quantifier": "for all programs, options, arguments, files, inputs, continuations of the input, environments and states", "why_tests_cant": "the independence from all possible continuations of the input, for every program", "anchors": ["pip.py:pip", "execution.py:executeProgram", "execution.py:getRval", "execution.py:functionCall"]}
{"id": "C117", "title": "The match found is the preferred one", "statement": "The matches of a Pattern at a position are ordered: of two alternatives those of the first come first; in a sequence the choice of the first part counts first; a repetition, nested ones included, prefers a further time, or, if ? follows it, no further time, and ends after a time that matches nothing. Searching finds the preferred match at the first index where there is any. Finding all matches gives at each step the first index from the end of the match before where there is a match (a second empty match at the same index does not count), and the preferred match there; this determines all of them. Matching the whole string succeeds exactly if the whole string is one of the matches at its beginning, preferred or not. The matches in the order are exactly those of the meaning of the Pattern (C95).", "quantifier": "for all texts of the grammar of regular expressions, all flags, all strings", "why_tests_cant": "all regular expressions with arbitrarily nested repetitions and alternatives, and all strings", "anchors": ["ptypes.py:Pattern.asRegex", "execution.py:FIRSTMATCH", "execution.py:FULLMATCH", "execution.py:FINDALL", "execution.py:REPLACE"]}
{"id": "C118", "title": "What the groups of a match are, and back-references", "statement": "The groups of a Pattern count from 1 in the order of their opening parentheses. In the match found - the preferred one at the first index where there is any - each group has the text it matched last on the way to this match, with its place in the string; a group that took no part has no text; the groups of what is asserted to follow stay set, those of what is asserted not to follow do not. A back-reference \\n, for n up to 98 and a group that is closed, matches exactly the text of the group again (ignoring case, a text with the same lower case letters), and nothing if the group is not set; the numbers are those that the user sees, although the group 'all' is put around the Pattern. The same holds for each of all the matches found one after the other, which are determined by this, and for a match of the whole string, which is the first in the order of preference that is the whole string. Without the groups the order of preference is that of C117. Replacing by a Pattern puts these texts for the numbers of the groups.", "quantifier": "for all texts of the grammar of regular expressions with nested groups, repetitions, alternatives and back-references, all flags, all strings", "why_tests_cant": "all regular expressions with arbitrarily nested groups and back-references, and all strings", "anchors": ["ptypes.py:Pattern.asRegex", "execution.py:FIRSTMATCH", "execution.py:FULLMATCH", "execution.py:FINDALL", "execution.py:assignRegexVars"]}
{"id": "C119", "title": "Lists as operands of operators that take one thing at a time", "statement": "GROUP, CHOP, JOIN and JOINWRAP with a list as their second operand, NI with a list as the first and a string as the second, and TD, the strip operators and TR with a list as the first apply to every item, from left to right, nested lists included: the result is the list of the results in the same order, and there is an error exactly if one of the items has one. A Range counts as the list of its members. Stripping with a list strips with its items one after the other.", "quantifier": "for all lists (nested to any depth), Ranges and other operands", "why_tests_cant": "all nestings and lengths", "anchors": ["execution.py:GROUP", "execution.py:CHOP", "execution.py:JOIN", "execution.py:JOINWRAP", "execution.py:NOTIN", "execution.py:TODIGITS", "execution.py:LSTRIP", "execution.py:TRANSLITERATE"]}
