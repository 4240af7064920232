{"id": "C01", "title": "Published slices never change", "statement": "Once a persistent slice has been obtained (Transient.Persist, or any value built from one), every element and the length it reports stay the same for ever, whatever sequence of Transient, Set, Append, Resize and Persist calls is later made on any slice or transient that shares storage with it; and edits on one transient are never visible through another transient.", "quantifier": "every finite history of Transient/Set/Append/Resize/Persist calls on any number of slices and transients, every index, every element type", "why_tests_cant": "Aliasing bugs need one particular interleaving of publish, edit, grow and shrink at particular sizes (chunk and tree-height boundaries); the set of histories is infinite and storage sharing is invisible until the damaging write.", "anchors": ["value/persist/slice.go: (*Transient).Persist, (*Slice).Transient, Set, Append, Resize, wleaf, wnode, writeTail, copy, id"]}
{"id": "C02", "title": "An edited slice behaves as a plain sequence", "statement": "Len, At, Set and Append on a transient agree with the same operations on an ordinary list: Append adds at the end, Set i x changes exactly position i, Resize to n keeps the first min(n, Len) elements and yields length n, Persist and Transient change nothing, and an index outside 0..Len-1 is refused.", "quantifier": "every history of operations, every length (unbounded number of tree levels), every index", "why_tests_cant": "Unit tests visit a few sizes; the representation changes shape at every multiple of 16 and every power of 16, and mistakes appear only for particular size/previous-size pairs.", "anchors": ["value/persist/slice.go: At, Len, Set, Append, appendTree, growTree, shrinkTree, copy, Resize, height"]}
{"id": "C03", "title": "The slice representation never fails internally", "statement": "No history of legal calls on slices and transients reaches a nil tree node, a node of the wrong kind, a tree whose height differs from the one computed from its length, or a tail longer than a chunk; so legal calls never crash.", "quantifier": "every history of legal calls and every in-range index", "why_tests_cant": "Requires an invariant over all reachable representations; a test sees only the representations it happens to build.", "anchors": ["value/persist/slice.go: height, At, wleaf, wnode, growTree, shrinkTree, Resize, Append"]}
{"id": "C04", "title": "Concurrent element updates lose nothing", "statement": "When several goroutines call Set on the same transient at pairwise different indexes, then in every interleaving of their atomic steps each call finishes and afterwards every index holds the value written to it and all other indexes are unchanged; previously published slices are unaffected.", "quantifier": "every number of concurrent Set calls, every interleaving of their loads, compare-and-swaps and stores, every starting slice", "why_tests_cant": "The outcome depends on the schedule of compare-and-swap steps; the race detector and stress tests sample only a vanishing fraction of schedules.", "anchors": ["value/persist/slice.go: (*Transient).Set, id, wleaf, wnode, writeTail"]}
{"id": "C05", "title": "Parallel loops cover each index exactly once", "statement": "The parallel loop used by element-wise operators hands every index 0..n-1 to exactly one worker, never an index outside that range, with no inverted range, whatever the vector length, per-item cost and number of processors; and it returns only after all workers are done, raising an error if and only if some worker raised one.", "quantifier": "every n, every item size, every processor count, every finishing order of workers, every subset of failing workers", "why_tests_cant": "Depends on GOMAXPROCS, length and timing; a test runs on one machine with one processor count.", "anchors": ["value/eval.go: pfor"]}
{"id": "C06", "title": "Element-wise operations do not depend on scheduling", "statement": "Applying a built-in scalar operator to vectors in parallel gives, for every interleaving of the workers' element writes, the same result as applying it one element at a time in order; if some element raises an error the whole operation raises an error and no partially filled result becomes visible.", "quantifier": "every interleaving of workers, every vector length, every scalar function (possibly failing)", "why_tests_cant": "Result must be equal across all schedules; tests execute one schedule.", "anchors": ["value/eval.go: pfor, binaryVectorOp, unaryVectorOp, safeBinary, safeUnary"]}
{"id": "C07", "title": "Indexed assignment with repeated indexes is deterministic", "statement": "x[i] = y stores the elements of y in index order, so when an index is repeated the last one wins, regardless of scheduling.", "quantifier": "every index vector (with and without repeats), every right-hand side, every schedule of the parallel loop", "why_tests_cant": "With repeats the result differs between schedules only for long index vectors on several processors.", "anchors": ["value/index.go: IndexAssign", "value/eval.go: pfor"]}
{"id": "C08", "title": "Integer arithmetic is exact", "statement": "For all integers a and b representable in Ivy, a+b, a-b, a*b, -a and abs a are the exact mathematical integers, whichever mixture of small and big representations the operands have; machine-word overflow never shows.", "quantifier": "every pair of integers, every representation the interpreter can hold them in", "why_tests_cant": "The pair space is unbounded and the danger lies at representation boundaries.", "anchors": ["value/binary.go: binary +, -, *", "value/unary.go: unary -, abs", "value/int.go: maybeBig", "value/bigint.go: shrink"]}
{"id": "C09", "title": "Integers have one canonical representation", "statement": "Every integer produced by an arithmetic operator is held in the small representation exactly when it fits the small range, so that equal integers are indistinguishable to every other operator (truth test, indexing, display).", "quantifier": "every integer operator and every pair of operands", "why_tests_cant": "Non-canonical values print identically and are only noticed by operators that inspect the representation (for instance a big zero that counts as true).", "anchors": ["value/binary.go: max, min, idiv", "value/unary.go: unary -, abs", "value/bigint.go: shrink", "value/int.go: maybeBig", "value/eval.go: isTrue"]}
{"id": "C10", "title": "Rational arithmetic is exact and in lowest terms", "statement": "For all rationals a and b, a+b, a-b, a*b and (b nonzero) a/b are the exact rationals, kept in lowest terms with positive denominator, and collapse to an integer exactly when the value is integral; a/0 is refused with an error.", "quantifier": "every pair of rationals/integers in any representation", "why_tests_cant": "Unbounded numerators and denominators; a wrong normalisation shows up only for special common factors.", "anchors": ["value/binary.go: +, -, *, /", "value/bigrat.go: binaryBigRatOp, shrink", "value/bigint.go: shrink"]}
{"id": "C11", "title": "div and mod are Euclidean", "statement": "For integers and exact rationals a and b with b nonzero, q = a div b and r = a mod b satisfy a = q*b + r with q an integer and 0 <= r < |b|; idiv and imod are the truncated pair (|r| < |b|, r has the sign of a).", "quantifier": "every pair of integers or rationals of any sign and size", "why_tests_cant": "Sign conventions are wrong only on particular sign/representation combinations.", "anchors": ["value/eval.go: QuoRem", "value/binary.go: div, mod, idiv, imod"]}
{"id": "C12", "title": "Operators never modify their operands", "statement": "Evaluating an operator leaves the values of its operands unchanged, so a variable keeps its value until it is assigned.", "quantifier": "every operator use of mod/encode/decode on every pair of numbers in every representation", "why_tests_cant": "Needs a check of every representation and sign; the damage is to a different variable than the one inspected.", "anchors": ["value/eval.go: QuoRem", "value/binary.go: mod, encode", "value/sys.go: secNsec, decodeTime"]}
{"id": "C13", "title": "The maxbits limit is enforced", "statement": "With a nonzero maxbits limit, no integer operation yields an integer that needs more bits than the limit: it stops with an error instead.", "quantifier": "every limit, every pair of operands, every integer operator (+ - * ** << !)", "why_tests_cant": "Requires a bound for all operands; tests try one large computation.", "anchors": ["value/value.go: mustFit", "value/binary.go: +, -, *, **, <<", "value/binary.go: bigIntExp", "value/config.go"]}
{"id": "C14", "title": "Integer powers are exact", "statement": "a ** n is the exact power for integer a and integer n >= 0, the exact rational 1/(a**-n) for n < 0 and a nonzero, and an error for 0 to a negative power.", "quantifier": "every integer base and exponent", "why_tests_cant": "Unbounded bases/exponents, several special-case code paths.", "anchors": ["value/binary.go: bigIntExp, binary **"]}
{"id": "C15", "title": "Factorial is the product 1*2*...*n", "statement": "!n, computed through the swinging-factorial and prime-sieve method, equals the product of the integers from 1 to n for every n >= 0, without machine overflow for n in the small range; negative arguments are refused.", "quantifier": "every n >= 0", "why_tests_cant": "The algorithm factors n! through primes; agreement must hold for every n, and tests check finitely many.", "anchors": ["value/fac.go: factorial, swing, product, primeGen"]}
{"id": "C16", "title": "Binomial coefficients", "statement": "n ! k counts the n-element subsets of k things: it is 0 when n > k and k!/(n!(k-n)!) otherwise.", "quantifier": "every pair of non-negative integers", "why_tests_cant": "Short-circuit conditions interact; wrong only on an edge of the plane.", "anchors": ["value/binary.go: binary !"]}
{"id": "C17", "title": "Floor and ceiling", "statement": "floor x is the greatest integer not above x and ceil x the least integer not below x, for every integer and rational x.", "quantifier": "every integer and rational", "why_tests_cant": "Sign and representation dependent truncation.", "anchors": ["value/unary.go: floor, ceil"]}
{"id": "C18", "title": "Ordering of values is a total preorder", "statement": "The comparison that underlies up, down, unique, union, intersect, in and index-of is reflexive, total, antisymmetric up to sign and transitive over all characters, exact numbers, vectors and matrices, so sorting and binary search are meaningful; it orders real numbers by numerical value.", "quantifier": "every triple of values, arbitrarily nested", "why_tests_cant": "Transitivity quantifies over all triples of values of arbitrary nesting.", "anchors": ["value/sets.go: OrderedCompare, sgn2, sgn2Int"]}
{"id": "C19", "title": "Match distinguishes shapes", "statement": "x === y yields 1 exactly when x and y have the same shape and the same elements.", "quantifier": "every pair of values", "why_tests_cant": "All pairs of shapes with equal data.", "anchors": ["value/binary.go: ===, !==", "value/sets.go: OrderedCompare"]}
{"id": "C20", "title": "Membership and index-of", "statement": "(x in y)[i] is 1 exactly when some element of y compares equal to x[i]; (y iota x)[i] is the first position in y at which x[i] occurs, or one less than the origin if it does not occur.", "quantifier": "every pair of vectors, every origin", "why_tests_cant": "Implemented through sorting and binary search; agreement with linear search must hold for all vectors including those with ties.", "anchors": ["value/vector.go: membership, contains, sortedCopy", "value/binary.go: in, iota"]}
{"id": "C21", "title": "Grade", "statement": "up v is a permutation of the index set of v that lists the elements in non-decreasing order, with equal elements in their original order; down v is non-increasing; v[up v] is sorted.", "quantifier": "every vector and every origin", "why_tests_cant": "Stability and permutation are universally quantified over ties.", "anchors": ["value/vector.go: grade", "value/unary.go: up, down"]}
{"id": "C22", "title": "Set operations", "statement": "unique v lists each distinct element of v once, in order of first occurrence; u union v is u followed by the elements of v not in u, in order; u intersect v lists the elements of u found in v, in order.", "quantifier": "every pair of vectors", "why_tests_cant": "Ties and order for all vectors.", "anchors": ["value/sets.go: union, intersect, unique"]}
{"id": "C23", "title": "Matrices are well formed and reshape is cyclic", "statement": "Every matrix has exactly as many elements as the product of its dimensions; s rho x has shape s and its k-th element in row-major order is x[k mod count x], and is refused for negative or over-large dimensions.", "quantifier": "every shape vector and every source array", "why_tests_cant": "Unbounded shapes and sizes with overflow-sensitive products.", "anchors": ["value/matrix.go: NewMatrix, reshape, size", "value/unary.go: rho"]}
{"id": "C24", "title": "Rotation and reversal laws", "statement": "Rotating by m then by n equals rotating by m+n, rotating by a multiple of the length is the identity, rotation keeps the shape; rot and flip are their own inverses, on vectors and along each axis of matrices.", "quantifier": "every array and every (positive or negative, arbitrarily large) rotation count", "why_tests_cant": "All lengths and counts including zero-length axes and counts beyond the length.", "anchors": ["value/vector.go: rotate, doRotate, reverse", "value/matrix.go: rotate, vrotate", "value/unary.go: rot, flip"]}
{"id": "C25", "title": "Transposition", "statement": "transp reverses the axes: the element at (i1..ik) of transp m is the element at (ik..i1) of m, and transposing twice gives m back; p transp m moves axis i to position p[i] and equal entries select diagonals.", "quantifier": "every matrix of every rank, every axis permutation", "why_tests_cant": "All ranks and shapes.", "anchors": ["value/matrix.go: transpose, binaryTranspose"]}
{"id": "C26", "title": "Take and drop", "statement": "n take v has length |n| and holds the first (n >= 0) or last (n < 0) elements padded with the fill value; n drop v is what take leaves out; catenating the taken and dropped parts restores v; the same holds per axis for matrices.", "quantifier": "every vector/matrix and every count in range", "why_tests_cant": "All combinations of signs, overtake and axes.", "anchors": ["value/matrix.go: take, drop", "value/vector.go: fillValue", "value/binary.go: take, drop"]}
{"id": "C27", "title": "Indexing selects exactly the requested cells", "statement": "x[i;j;...] has as its shape the catenation of the shapes of the index expressions (a missing index stands for the whole axis), and its element at (a;b;...) is the element of x at (i[a];j[b];...); any index outside the axis is an error.", "quantifier": "every array, rank, index list with or without missing indexes, origin", "why_tests_cant": "All ranks and index shapes; tests use cubes where the axis lengths coincide.", "anchors": ["value/index.go: indexState.init, initVectorIndex, Index"]}
{"id": "C28", "title": "Indexed assignment changes only the indexed cells, or nothing", "statement": "After x[i;j;...] = y the selected cells hold y's elements and every other cell and the shape are unchanged; if the assignment is refused with an error, x is entirely unchanged.", "quantifier": "every array, index list, right-hand side, failing or not", "why_tests_cant": "Frame conditions range over all cells; atomicity over all failure points.", "anchors": ["value/index.go: IndexAssign, indexState.init", "value/assign.go: Assign"]}
{"id": "C29", "title": "Reduce and scan", "statement": "f/ v1 v2 ... vn is v1 f (v2 f (... vn)) evaluated from the right, along the last axis of a matrix; element k of f\\ v equals f/ of the first k elements, whatever f is.", "quantifier": "every vector, matrix and operator, built-in or user-defined", "why_tests_cant": "Scan uses a shortcut for operators believed associative; correctness is a statement about all operators.", "anchors": ["value/eval.go: Reduce, ReduceFirst, Scan, ScanFirst, knownAssoc"]}
{"id": "C30", "title": "Inner and outer products", "statement": "The outer product o.f has shape (shape u, shape v) and element (i;j) = u[i] f v[j]; the inner product u f.g v has element (i;j) = f/ (u[i;] g v[;j]).", "quantifier": "every pair of arrays and every pair of operators", "why_tests_cant": "All shapes and operators.", "anchors": ["value/eval.go: innerProduct, outerProduct"]}
{"id": "C31", "title": "encode and decode are inverse", "statement": "For positive integer radices b and 0 <= x < product b, b decode (b encode x) = x, and b encode (b decode d) = d for digit vectors d with 0 <= d[i] < b[i].", "quantifier": "every radix vector and every number", "why_tests_cant": "Mixed radix identities over all lengths.", "anchors": ["value/binary.go: encode, decode"]}
{"id": "C32", "title": "Selection, fill and partition", "statement": "n sel v repeats v[i] n[i] times (|n[i]| fill values if negative), n fill v is its counterpart, and part splits v into the maximal runs on which the score is positive and non-increasing; on matrices part does the same with the rows.", "quantifier": "every score vector and every value", "why_tests_cant": "All score patterns, including leading zeros and single rows.", "anchors": ["value/vector.go: sel, doPartition, partition, fill", "value/matrix.go: sel, partition"]}
{"id": "C33", "title": "No operation changes the shape of an existing value", "statement": "Once computed, the shape of a matrix stays the same whatever later operations are evaluated on it or on values derived from it.", "quantifier": "every sequence of reduce, split, each, outer product, mix and transpose operations", "why_tests_cant": "Needs reasoning about shared backing arrays over all histories.", "anchors": ["value/eval.go: Reduce, Each, outerProduct", "value/matrix.go: split, mix"]}
{"id": "C34", "title": "Calls are balanced and frames are isolated", "statement": "Every call of a user-defined operator, however it ends (value or error) and however deeply it recurses, leaves the caller's parameters and local variables as they were.", "quantifier": "every program, recursion depth, error point", "why_tests_cant": "All nestings of calls and all error points.", "anchors": ["exec/function.go: EvalUnary, EvalBinary", "exec/context.go: push, pop, Local", "value/assign.go: Assign", "parse/function.go: funcVars, walk"]}
{"id": "C35", "title": "Local variables start undefined", "statement": "At entry to a user-defined operator every local variable other than the parameters is undefined, so the result of a call depends only on its arguments and global state, not on earlier calls.", "quantifier": "every operator body and every earlier history of calls", "why_tests_cant": "Depends on what earlier, finished calls left behind.", "anchors": ["exec/context.go: push, Local", "value/assign.go: Var", "parse/function.go: funcVars"]}
{"id": "C36", "title": "The call-depth limit is exact", "statement": "As long as the maxstack setting is not changed, the number of active calls never exceeds it; the call that would exceed it is refused with an error and evaluation unwinds cleanly.", "quantifier": "every program and every limit", "why_tests_cant": "All recursion patterns.", "anchors": ["exec/function.go: EvalUnary, EvalBinary", "exec/context.go: push"]}
{"id": "C37", "title": "The list of definitions mirrors the operators", "statement": "After any sequence of successful definitions and )clear/undefine commands, the definition list contains each defined operator exactly once, in order of its latest definition, and nothing else; it never refers to a missing operator.", "quantifier": "every sequence of successful definitions and redefinitions and of undefinitions, successful or not (failed definitions are C39)", "why_tests_cant": "All histories.", "anchors": ["exec/context.go: Define, Undefine", "parse/function.go: functionDefn"]}
{"id": "C38", "title": "A name is never both a variable and an operator", "statement": "At every point of a session no identifier denotes both a user-defined operator and a global variable.", "quantifier": "every sequence of assignments, definitions and undefinitions", "why_tests_cant": "All histories.", "anchors": ["exec/context.go: noVar, noOp, Define, AssignGlobal", "parse/parse.go: operand, expr"]}
{"id": "C39", "title": "A failed definition has no effect", "statement": "When an op definition is rejected (syntax error, duplicate parameter, name clash), the set of operators, the definition list and the variables are exactly as before.", "quantifier": "every rejected definition in every state", "why_tests_cant": "All failure points inside the definition parser.", "anchors": ["parse/function.go: functionDefn", "exec/context.go: Define, ForgetAll"]}
{"id": "C40", "title": "Saved values read back equal", "statement": "For every value held by a variable, the text written by )save, when read by )get, recreates the same value.", "quantifier": "every value: numbers, characters, vectors, nested vectors, matrices", "why_tests_cant": "Infinite set of nested values; corruption only for particular nestings.", "anchors": ["parse/save.go: save, put", "parse/parse.go: numberOrVector, operand"]}
{"id": "C41", "title": "Saved operators read back equal", "statement": "For every user-defined operator, the text written by )save or shown by )op parses back to the same operator.", "quantifier": "every operator body", "why_tests_cant": "Infinite set of expressions; parenthesisation errors show only for particular nestings.", "anchors": ["value/expr.go: ProgString, IsCompound", "value/complex.go: ProgString", "exec/function.go: (*Function).String", "parse/function.go: functionDefn"]}
{"id": "C42", "title": "Expressions group to the right", "statement": "All binary operators have equal precedence and group to the right, a unary operator applies to everything on its right, indexing binds tighter than any operator: every token sequence of the expression grammar has exactly that parse, and printing a parse tree and reading it back gives the same tree.", "quantifier": "every token sequence / every expression tree", "why_tests_cant": "Unbounded nesting.", "anchors": ["parse/parse.go: expr, operand, numberOrVector, index"]}
{"id": "C43", "title": "Special commands leave the number base alone", "statement": "Executing any special command other than those that set the base leaves the input and output bases as they were, even if the command fails; numbers inside special commands are read in decimal.", "quantifier": "every command, every argument, every failure point, every base setting", "why_tests_cant": "All failure points.", "anchors": ["parse/special.go: special, nextDecimalNumber"]}
{"id": "C44", "title": "Nested )get depth is bounded and recovers", "statement": "Reading files with )get nests at most the fixed limit, and after any sequence of successful or failing )get commands the session is again able to read files.", "quantifier": "every sequence of nested, failing and succeeding )get commands", "why_tests_cant": "Leaks accumulate over long histories.", "anchors": ["parse/special.go: runFromReader, runFromFile", "parse/run.go: runUntilError"]}
{"id": "C45", "title": "Bad input never kills the session", "statement": "Every operation on well-formed values either yields a value or reports an ordinary Ivy error; it never causes a run-time fault that terminates the interpreter.", "quantifier": "every operation on every well-formed value including arrays with a zero dimension", "why_tests_cant": "All shapes, notably zero-sized ones.", "anchors": ["value/matrix.go: rotate, vrotate, transpose, catenate, sel, grade", "value/index.go: Index, IndexAssign", "value/eval.go: innerProduct", "run/run.go: Run"]}
{"id": "C46", "title": "The text operator finds the formatting verb", "statement": "The verb used by `fmt text v` is the first verb in the format after skipping %% escapes, flags, width and precision; a format without a verb is treated as literal text or reported.", "quantifier": "every format string", "why_tests_cant": "All format strings.", "anchors": ["value/format.go: verbOf, verbIndex, formatString"]}
{"id": "C47", "title": "A seeded session is reproducible", "statement": "After setting the seed, the same program produces the same random values.", "quantifier": "every program, every schedule", "why_tests_cant": "Schedule dependent.", "anchors": ["value/unary.go: rand", "value/eval.go: pfor, safeUnary, unaryVectorOp", "config/config.go: Random"]}
{"id": "C48", "title": "Matrix inverse", "statement": "If inv m succeeds on a square matrix of exact rationals then m +.* inv m is the identity matrix; it is refused when m is singular and only then.", "quantifier": "every square matrix of every size over the rationals", "why_tests_cant": "Pivoting choices for all matrices.", "anchors": ["value/matrix.go: inverse"]}
{"id": "C49", "title": "Bit operators act on two's complement", "statement": "For integers of any size and sign, & | ^ and unary ^ act on every bit of the two's complement representation of unlimited width, whichever representations the operands have; << multiplies by a power of two and >> divides by it rounding down; negative or excessive shift counts are errors.", "quantifier": "every pair of integers, every bit position", "why_tests_cant": "Unbounded widths; the machine word and big integer code paths must agree on negative numbers.", "anchors": ["value/binary.go: &, |, ^, <<, >>, shiftCount", "value/unary.go: unary ^"]}
{"id": "C50", "title": "Comparisons, logic, min and max follow the numeric value", "statement": "== != < <= > >= decide the order of the rational numbers, and or xor nand nor not are the boolean functions of being nonzero, and min and max give the smaller and larger operand, independently of how the operands are represented.", "quantifier": "every pair of integers and rationals in every representation", "why_tests_cant": "Mixed representations go through promotion code; all pairs.", "anchors": ["value/binary.go: ==, !=, <, <=, >, >=, and, or, xor, nand, nor, min, max", "value/unary.go: not", "value/eval.go: EvalBinary"]}
{"id": "C52", "title": "Elementwise operators pair corresponding elements", "statement": "An elementwise binary operator applied to operands of the same shape, or of which one is a scalar or a vector as long as the last axis of the other, gives the larger shape with the operator applied to the corresponding elements; other operands are refused. Unary operators keep the shape.", "quantifier": "all shapes and ranks, all element operators, every schedule of the parallel loop", "why_tests_cant": "Shapes and ranks are unbounded, and several code paths choose among scalar, vector and matrix pairing.", "anchors": ["value/eval.go: binaryVectorOp, binaryMatrixOp, unaryVectorOp, unaryMatrixOp, isScalar, isVector"]}
{"id": "C51", "title": "Complex arithmetic is exact", "statement": "On complex numbers with integer or rational parts, + - * / and unary - / conj j real imag give the exact complex number, == and != decide equality, and the result is a real number, not a complex one, just when its imaginary part is zero. Division by zero and j of complex operands are refused; nothing else is.", "quantifier": "every pair of real or complex numbers with exact parts of any size, in any mixture, and all expressions built from these operators", "why_tests_cant": "Unbounded numerators and denominators; promotion of every mixture of representations; special case for real divisors.", "anchors": ["value/complex.go: NewComplex, shrink, neg, inverse, add, sub, mul, div", "value/binary.go: +, -, *, /, ==, !=, j", "value/unary.go: -, /, conj, j, real, imag, not"]}
{"id": "C57", "title": "The floor of a complex number", "statement": "floor z is McDonnell's complex floor of z whatever expression z came from: a Gaussian integer less than 1 away from z, unchanged when z is one, and moving with z when a Gaussian integer is added; ceil z is -floor -z.", "quantifier": "every complex number with exact parts, however its two parts are stored", "why_tests_cant": "The result depends on whether both parts happen to be one object in memory, which no expression shows.", "anchors": ["value/complex.go: floor, ceil", "value/eval.go: QuoRem"]}
{"id": "C53", "title": "Each goes through the parts of its operands", "statement": "f@ with k signs @ applied to v gives an array whose shape is the first k dimensions of v and whose element at c is f of the part of v at c; signs left over when v has fewer axes stay with f. u @f@ v does so for all pairs of parts of u and v, its shape being the leading dimensions of u followed by those of v. The applications happen in row-major order and the first error ends the evaluation. A single value on the side of an @ is refused.", "quantifier": "all values of every rank and shape, any number of signs on either side, all operators with any effects", "why_tests_cant": "Unbounded ranks, numbers of signs and shapes, including those with a zero dimension.", "anchors": ["value/eval.go: Each, BinaryEach, eachValue, eachMatrix, eachVector, eachOne", "exec/context.go: EvalUnary, EvalBinary"]}
{"id": "C58", "title": "The text operator formats every element", "statement": "fmt text v with a verb for numbers prints each number of v exactly once, in order, with the format given and its exact value; elements of a vector are separated by a blank, those of a matrix by a blank within a row, and by as many newlines as rows, planes and so on end there.", "quantifier": "all formats, all values of every rank and shape", "why_tests_cant": "Unbounded shapes, formats and nesting of elements.", "anchors": ["value/format.go: fmtText, formatOne", "value/matrix.go: fprintf"]}
{"id": "C60", "title": "Catenation puts one operand after the other", "statement": "u , v joins along the last axis and u ,% v along the first: each operand is an array with the other axes in common, or one of exactly the other axes (one line), or a single element, which is repeated. The result has the sum of the lengths along the axis, the elements of u first and those of v after, at the same other coordinates. Operands which do not fit are refused.", "quantifier": "all values of every rank and shape, including those with zero dimensions", "why_tests_cant": "Unbounded ranks and shapes; five combinations of shapes with their own strides.", "anchors": ["value/matrix.go: catenate, catenateFirst", "value/vector.go: catenate", "value/binary.go: , and ,%"]}
{"id": "C61", "title": "iota and where give coordinates", "statement": "iota of dimensions d1 d2 ... is the array of that shape which has at each place the coordinates of the place, counted from the origin (a number for one dimension). where v lists the coordinates of the elements of v in row-major order, each as many times as the element says. Dimensions and counts which are not non-negative integers, and arrays too large, are reported.", "quantifier": "all ranks, shapes, counts and origins", "why_tests_cant": "Unbounded shapes; the coordinates are counted by an odometer whose carries depend on all dimensions.", "anchors": ["value/unary.go: iota, where", "value/index.go: newIota, constIota"]}
{"id": "C62", "title": "Split and mix", "statement": "split of an array of rank two or more gives the array of its rows: shape without the last axis, each element the vector along it. mix of an array of arrays gives the array whose axes are those of the array followed by those of the elements: each element is put in the corner of the smallest shape that holds all of them (ones put in front of shapes of lower rank) and the rest is filled with zeros or blanks; nothing is lost. mix undoes split.", "quantifier": "all arrays of every shape, with elements of every shape", "why_tests_cant": "Unbounded ranks and shapes, any mixture of shapes among the elements in any order.", "anchors": ["value/matrix.go: split, mix, shrink", "value/unary.go: split, mix"]}
{"id": "C63", "title": "Random numbers lie in their range", "statement": "A roll ?n is one of the n integers that start at the origin, for every element of an array, nested or not; a deal a?b is a list of a different ones of the b integers that start at the origin, and b?b is all of them; rand x is at least zero and less than x.", "quantifier": "all operands, origins, precisions, states of the generator, and schedules of the goroutines", "why_tests_cant": "The bad draws have a probability that no test meets; origins and big integers are rarely combined.", "anchors": ["value/unary.go: ?, rand, bigIntRand, bigFloatRand", "value/binary.go: ?", "value/eval.go: pfor, safeUnary"]}
{"id": "C56", "title": "Names are names in every input base", "statement": "In every input base, a word of letters, digits and underscores that is not an operator and does not consist of digits of the base is a name; and a sign before a word that does not begin with a digit of the base is an operator, not part of a number.", "quantifier": "all words, what comes before and after them, all bases and all definitions of operators", "why_tests_cant": "The bases, the letters that are digits in them and the words make too many combinations; tests use base 0 or 16 with few names.", "anchors": ["scan/scan.go: lexAny, lexIdentifier, acceptNumber, isNumeral, isAllDigits"]}
{"id": "C64", "title": "The scanner loses nothing", "statement": "Scanning ends for every text. The text (without carriage returns) is the tokens one after another, with only spaces and tabs between them, up to the end or the first error; no token is empty; strings stand between equal quotes, newlines end the line with their comment, names are words.", "quantifier": "all texts, contexts and input bases", "why_tests_cant": "Unbounded texts; states of the scanner depend on what came before.", "anchors": ["scan/scan.go: Next, lexAny, lexOperator, lexComplex, lexIdentifier, lexQuote, lexRawQuote, lexComment"]}
{"id": "C65", "title": "The text of a number is read as that number", "statement": "In every input base, digits of the base with or without a sign are read as the number they stand for, however many; in base 0 the prefixes 0, 0o, 0x and 0b tell the base and underscores between digits mean nothing; a point and an exponent scale the number exactly; x/y is the quotient and ajb the complex number; digits outside the base, and a zero denominator, are errors.", "quantifier": "all texts of any length, all bases", "why_tests_cant": "Unbounded texts; three parsers are tried one after another, with different rules for prefixes, underscores and ranges.", "anchors": ["value/value.go: Parse, parseTwo", "value/int.go: setIntString", "value/bigint.go: setBigIntString", "value/bigrat.go: setBigRatFromFloatString"]}
{"id": "C66", "title": "A printed number can be read back", "statement": "If a number that is not floating-point is printed with the default format in an output base, the text, scanned and read with the same input base, is one number, equal to the first. No text stands for two numbers, and in the bases 0, 2, 8, 10, 16 without a limit of digits every number is printed.", "quantifier": "all integers, rationals and complex numbers, all bases, all places in a line", "why_tests_cant": "Unbounded numbers; texts that begin with letters take another path through the scanner, by way of names.", "anchors": ["value/int.go: Sprint", "value/bigint.go: Sprint", "value/bigrat.go: Sprint", "value/complex.go: Sprint", "scan/scan.go: lexIdentifier, lexComplex, scanNumber", "value/value.go: Parse"]}
{"id": "C59", "title": "Arrays are printed as tables of their elements", "statement": "A vector of numbers is printed on one line with one blank between the texts, a string without any. A matrix of numbers is a table with a line per row, texts moved to the right in columns, all lines of the same length; arrays of rank three are such tables with an empty line between them. Whatever the rank, each number is printed once, in order, so that the words read back are the elements, and different arrays of one shape never look alike. Arrays inside arrays are printed in boxes side by side, aligned. Every value can be printed.", "quantifier": "all values of all shapes, all texts of numbers, all output bases", "why_tests_cant": "Unbounded ranks, shapes and depths; the layout goes by way of positions in long lines that are cut up again, which goes wrong only for certain mixtures of shapes.", "anchors": ["value/vector.go: Sprint, multiLineSprint, fillValue", "value/matrix.go: Sprint, elemStrs, write2d, higherDim, indent", "value/char.go: Sprint"]}
{"id": "C67", "title": "Functions of floating-point numbers come to an end", "statement": "Exponential, logarithm, square root, sine, cosine, tangent, their inverses, the hyperbolic functions, their inverses and powers, of any floating-point number at any precision that can be set, end with a value or with an error that is reported.", "quantifier": "all precisions, all arguments, arguments computed with other precisions", "why_tests_cant": "Series and reductions are loops whose end depends on rounding; precisions and magnitudes are unbounded.", "anchors": ["value/loop.go: newLoop, done", "value/power.go: floatPower, exponential", "value/log.go: floatLog", "value/sqrt.go: floatSqrt", "value/sin.go: floatSin, floatCos, floatTan, twoPiReduce", "value/asin.go: floatAsin, floatAcos, floatAtan", "value/sinh.go", "value/asinh.go"]}
{"id": "C68", "title": "Logarithms of integers to integer bases are whole exactly when they should be", "statement": "b log v for integers is reported as a whole number i exactly when b to the power i is v.", "quantifier": "all integers, small and big", "why_tests_cant": "Unbounded integers; the algorithm squares the base and divides, and what goes wrong depends on the factors that are left over.", "anchors": ["value/log.go: logBaseU, intLog, uint64Log, bigIntLog"]}
{"id": "C69", "title": "Whole powers of floating-point numbers are exact when they fit", "statement": "A floating-point number raised to a whole power is exact if the result's mantissa fits the precision; otherwise its relative error is at most that of as many roundings as the exponent.", "quantifier": "all precisions, numbers and exponents", "why_tests_cant": "Rounding at every step; unbounded exponents and precisions.", "anchors": ["value/power.go: integerPower"]}
{"id": "C70", "title": "The square root is found, to the last place", "statement": "sqrt of a number that is not negative ends with a number within one unit in the last place of the true root, never with an error; roots of squares are exact.", "quantifier": "all precisions and all numbers", "why_tests_cant": "The iteration must converge for every number; neighbouring floating-point numbers can alternate for ever.", "anchors": ["value/sqrt.go: floatSqrt", "value/loop.go: done"]}
{"id": "C71", "title": "Exponential and hyperbolic functions are accurate", "statement": "The exponential function, sinh, cosh and tanh of a number are those of the real function up to a small relative error (some hundred units in the last place for each bit of precision); in particular the exponential function is positive.", "quantifier": "all precisions of at least 16 bits and all numbers", "why_tests_cant": "Rounding errors of hundreds of terms add up, and terms can cancel; tests look at a few arguments and a few digits.", "anchors": ["value/power.go: exponential", "value/sinh.go: floatSinh, floatCosh, floatTanh", "value/loop.go: done"]}
{"id": "C72", "title": "Sine and cosine are accurate", "statement": "The sine and cosine of a number differ from those of the real function by a small number of units of two to the minus precision, growing with the size of the argument only as the spacing of floating-point numbers does; in particular they stay in the range from -1 to 1 but for such an error.", "quantifier": "all precisions of at least 16 bits and all numbers, however large, positive and negative", "why_tests_cant": "The argument is reduced by thousands of inexact subtractions and the terms of the series cancel; tests cannot cover large and negative arguments at all precisions.", "anchors": ["value/sin.go: floatSin, floatCos, sincos, twoPiReduce", "value/loop.go: done"]}
{"id": "C73", "title": "The logarithm is accurate", "statement": "For every precision of 16 to 10000 bits and every positive float x of that precision, the natural logarithm comes to an end with a value, and it differs from the real logarithm of x by no more than (300(p+1) + 12|log x|) units of 2^-p. For x <= 0 the float function reports an error.", "quantifier": "all precisions 16..10000, all positive floats, any number of bits of exponent", "why_tests_cant": "Tests compare a handful of arguments with printed digits; they cannot show a bound for all arguments and precisions, nor convergence.", "anchors": ["value/log.go: floatLog", "value/loop.go: done", "value/const.go: strLog2"]}
{"id": "C74", "title": "Powers of floats are accurate", "statement": "For floats x > 0 and e of p bits, x ** e has a value, and its relative error is at most some thousand times p units of 2^-p plus multiples of |e| and |log x|. (Violated for small x with fractional e: 1e-100 ** .4 is negative in 256 bits.)", "quantifier": "all precisions 16..10000, all positive floats x, all floats |e| < 2^63", "why_tests_cant": "The error depends on base, exponent and precision together; the failures occur at arguments tests do not use.", "anchors": ["value/power.go: floatPower, integerPower, exponential", "value/log.go: floatLog"]}
{"id": "C75", "title": "Inverse trigonometric functions are accurate", "statement": "For every precision of 16 to 10000 bits, atan of every float, and asin and acos of every float in [-1, 1], come to an end with a value within about 252(p+1) units of 2^-p of the real function, plus, for asin and acos, 5/sqrt(1-x^2) units, the amount by which a rounding error of the argument is magnified.", "quantifier": "all precisions 16..10000, all floats (for asin, acos: in [-1, 1])", "why_tests_cant": "Three different series and two reductions are used depending on the argument; tests touch few points of each and no bound.", "anchors": ["value/asin.go: floatAsin, floatAcos, floatAtan, floatAtanLarge"]}
{"id": "C76", "title": "Inverse hyperbolic functions are accurate", "statement": "For every precision of 16 to 10000 bits, atanh on (-1,1), acosh on [1, inf) and asinh everywhere have a value that differs from the real function by some hundred times p units of 2^-p, a multiple of the value and what a rounding error of the argument causes; outside there is an error. (Violated for asinh of negative numbers: asinh -1e50 is an error in 256 bits.)", "quantifier": "all precisions 16..10000, all floats in the domain", "why_tests_cant": "Cancellation depends on size and sign of the argument; the failing arguments are large negative numbers no test uses.", "anchors": ["value/asinh.go: floatAsinh, floatAcosh, floatAtanh", "value/log.go: floatLog", "value/sqrt.go: floatSqrt"]}
{"id": "C77", "title": "The constants are right in every precision", "statement": "All 3010 decimals of e, pi, log 2 and log 10 stored in the program are right (the last one up to a unit), and in every precision up to 10000 bits the floating-point constants made of them differ from the real numbers by at most 4 units of 2^-p.", "quantifier": "all four constants, all digits, all precisions 1..10000", "why_tests_cant": "A test can compare digits with another list of digits; that the digits are those of the mathematical constants is a mathematical fact.", "anchors": ["value/const.go: strE, strPi, strLog2, strLog10, Consts"]}
{"id": "C78", "title": "Logarithms to a whole base are accurate", "statement": "For whole numbers b >= 2 and v >= 2, b log v differs from the real logarithm by at most 500(p+1)(1 + log_b v) units of 2^-p. (Violated: 10 log 250000 is 5 + log 2 instead of 5 + log 2.5.)", "quantifier": "all whole b >= 2, v >= 2, small or big, all precisions 16..10000", "why_tests_cant": "The error occurs only for multiples of higher powers of the base whose rest is not a multiple; the tests use powers and primes.", "anchors": ["value/log.go: logBaseU, intLog, uint64Log, bigIntLog, floatLog"]}
{"id": "C79", "title": "Times are converted back and forth", "statement": "'T' encode s is the date and time of day of the Gregorian calendar in the configured time zone, and 'T' decode of that vector is s again up to a rounding to nanoseconds; a vector with an offset is decoded with that offset; fields beyond their range are carried; no operand is changed. (Violated: an offset equal to that of the machine is replaced by that of the configured zone, and decode overwrites the seconds of its operand.)", "quantifier": "all numbers of seconds below 2^53 in size, all precisions from 53 bits, all zones, all vectors", "why_tests_cant": "The test suite tries time zero and the present, on one machine with one zone; the errors need a zone different from that of the machine, or a second use of a vector.", "anchors": ["value/sys.go: encodeTime, decodeTime, timeVec, secNsec, timeFromValue", "config/config.go: SetLocation, LocationAt, loadLocation"]}
{"id": "C80", "title": "Numbers are values", "statement": "Evaluating an expression changes no variable and no constant, and the value of a function depends on the values of its operands only: a session of assignments and expressions prints what it prints when variables stand for their values, and an expression evaluated twice gives the same value twice. (Violated: sin, cos, tan and the complex functions made of them compute in the float they are given, so that tan pi j 1 sets pi to zero.)", "quantifier": "all sessions of assignments and expressions over real and complex numbers, all precisions", "why_tests_cant": "The damage shows only in a later line, through another name for the same float object; the test suite prints each result once, from literals.", "anchors": ["value/sin.go: floatSin, floatCos, floatTan, twoPiReduce", "value/complex.go: complexSin, complexCos, complexTan, Phase, shrink", "value/sinh.go: complexSinh, complexCosh, complexTanh", "value/power.go: expComplex", "value/log.go: complexLog", "value/const.go: consts"]}
{"id": "C81", "title": "Functions of complex numbers are accurate", "statement": "Each part of the result of sin, cos, tan, sinh, cosh, tanh and ** of a complex number is within some ten thousand times p units of 2^-p (relative to the hyperbolic factor, and growing with the argument of the sine like the distance of neighbouring floats) of the function of complex analysis. (Violated by cos, sinh, cosh and ** for arguments of the cosine below -7: with 256 bits the real part of ** 0j-200 is below -300000000.)", "quantifier": "all complex operands made of two different float objects or exact numbers, all precisions from 16 bits up to that of the constants", "why_tests_cant": "An error bound is a statement about every operand and precision; tests compare a few printed digits at small arguments.", "anchors": ["value/complex.go: complexSin, complexCos, complexTan", "value/sin.go: floatSin, floatCos", "value/sinh.go: complexSinh, complexCosh, complexTanh", "value/power.go: expComplex"]}
{"id": "C82", "title": "Phase, absolute value and logarithm of complex numbers are accurate", "statement": "phase of every number, and log of every number that is not zero, end with a result; the phase is within 260(p+1) units of 2^-p of the argument in (-pi, pi], the logarithm has this phase as imaginary part and a real part within 310(p+1)+12|log|z|| units of log|z|; abs of a complex number is within 9 units relative to |z|.", "quantifier": "all real and complex operands, all precisions from 16 bits up to that of the constants, all states of a session in which the constants are intact", "why_tests_cant": "The right quadrant, the negative axis and tiny or huge parts are infinitely many cases, and termination of the series is not observable by a test that passes.", "anchors": ["value/complex.go: abs, Phase", "value/unary.go: realPhase", "value/log.go: logn, complexLog", "value/asin.go: floatAtan"]}
{"id": "C83", "title": "The square root of a complex number is accurate", "statement": "Each part of sqrt z is within 1000 units of 2^-p, relative to the absolute value of the root, of that of the principal root. (Violated: the smaller part is computed from a difference of almost equal numbers; with 64 bits the imaginary part of sqrt 3j1e-10 is zero instead of 2.9e-11. What holds is 14 units for the larger part, and 3 units of the square root of 2^-p for the smaller one.)", "quantifier": "all complex operands, all precisions from 16 bits", "why_tests_cant": "The loss shows for operands near the real axis only, where half of the digits or all of them are wrong; tests use round numbers such as sqrt 3j4.", "anchors": ["value/sqrt.go: sqrt, complexSqrt, floatSqrt"]}
{"id": "C84", "title": "Powers of complex and negative numbers", "statement": "z ** n with a whole exponent n is the nth power of z: exact, for positive and negative n, if the parts of z are exact; within (1 + 11 * 2^-p)^n - 1 of it relative to |z|^n if they are floats; and real if z is real. Other powers are exp (w log z), with the errors of these functions. (Violated: with 64 bits the cube of the float -3/2 is not real, and 0j-1 ** 101/2 has a real part beyond 1000.)", "quantifier": "all complex bases, all exponents of 32 bits with sign, all precisions from 16 bits (any for exact parts)", "why_tests_cant": "Exactness for every base and exponent is an algebraic identity about the squaring loop; tests check a few small powers.", "anchors": ["value/power.go: power, complexPower, complexIntegerPower", "value/complex.go: mul, inverse"]}
{"id": "C85", "title": "Numbers printed in a floating-point format are right to the digits shown", "statement": "With )format ending in f, e or g and a precision, every exact number is printed as a decimal number, rounded to nearest in the last place the format asks for, and it is read back as that decimal. (Violated: %e and %g with exponent cut digits off, so 19 is 1e+01 with %.0e; 1/1000000000 is 1e-10 with %.0e and 1.0.e-10 with %.2e; %.0g stops the program.)", "quantifier": "all integers, big integers up to )maxdigits and rationals, all precisions, all six verbs", "why_tests_cant": "The digits come from loops over powers of ten and a billion and from string surgery whose cases depend on where a number lies between powers of ten; tests try a few numbers and miss the boundaries.", "anchors": ["config/config.go: SetFormat", "value/int.go: floatString, eFormat, eExponent", "value/bigint.go: floatString, eExponent, trimEZeros", "value/bigrat.go: floatString, ratExponent, ratScale"]}
{"id": "C86", "title": "Floats are printed rounded to the digits asked for", "statement": "With )format ending in f, e or g and a precision, and with %.12g otherwise, every float whose exponent is at most 10000 is printed as a decimal number that is rounded to nearest in the last place the format asks for. (Violated: with %.2F every float is printed as %F.)", "quantifier": "all floats of all precisions, all formats", "why_tests_cant": "Which digit is the last right one depends on the exact decimal expansion of the float; a claim about all floats and precisions needs a proof about rounding and carrying.", "anchors": ["value/bigfloat.go: Sprint", "config/config.go: SetFormat, FloatFormat", "math/big: (*Float).Text"]}
{"id": "C87", "title": "Saved floats read back as they were", "statement": "A float written by )save is read back by )get as the same number: the digits written determine the float. (Violated: one digit too few is written; two different floats of 256 bits are written as the same text.)", "quantifier": "all precisions, all floats", "why_tests_cant": "Whether n digits determine all floats of p bits is a theorem about powers of 2 and 10; tests save and read some floats, and nearly all of them pass.", "anchors": ["parse/save.go: put", "value/value.go: Parse"]}
{"id": "C88", "title": "The constants in use are those of the precision that is set", "statement": "In every context, at every time, the constants used by the floating-point functions are those of the precision of the context; and no line changes variables that it does not assign. (Violated: the constants are shared by all contexts; an error after )prec leaves the old ones; every special command overwrites the variables e and pi, also those the user assigned.)", "quantifier": "all histories of any number of contexts, with files that read files", "why_tests_cant": "The state is shared by all contexts of a program and is changed at a few places only; whether it is right after every history needs an invariant.", "anchors": ["value/const.go: Consts", "exec/context.go: NewContext, SetConstants", "parse/parse.go: Line", "parse/special.go: special"]}
{"id": "C89", "title": "Huge numbers are printed rounded to the digits asked for", "statement": "Floats with binary exponents beyond 10000, and integers of more digits than )maxdigits, are printed as decimal numbers with an exponent that are right to the digits asked for. (Violated: with %.1g the text may have two exponents and is no number; with %.2f an exponent and two digits are shown; with few bits most digits are wrong.)", "quantifier": "all floats of all precisions, all formats, both signs of the exponent", "why_tests_cant": "The code computes a power of ten with rounded logarithms and an exponential series; how far the digits are from those of the number depends on the exponent and the precision, for all of which a bound needs an analysis of the errors.", "anchors": ["value/bigfloat.go: Sprint", "value/bigint.go: Sprint", "value/power.go: exponential"]}
{"id": "C55", "title": "A saved workspace brings back the settings", "statement": "After )get of a file written by )save, the settings are those in force when it was written: precision, limits, origin, prompt, format and bases. (Violated: )get sets the bases back to what they were before, )maxstack is not saved, and a limit of 2^31 or more given on the command line makes the whole file unreadable.)", "quantifier": "all settings, all definitions in the file, all sessions that read it", "why_tests_cant": "The file is run by the very command that saves and restores the bases around itself; that nothing in it survives, or does, is a matter of every combination of settings of the two sessions.", "anchors": ["parse/save.go: save", "parse/special.go: special", "parse/special.go: runFromFile"]}
{"id": "C90", "title": "Reset of package mobile brings back the initial state", "statement": "After mobile.Reset the settings are those with which the package started, whatever was evaluated before, and files can be read. (Violated: the precision, the limit of the stack, the debugging flags, the time zone and the depth of files that were refused stay.)", "quantifier": "all histories of lines, special commands, files and uses of ivy; all settings", "why_tests_cant": "Whether something outlasts Reset depends on everything that can have been evaluated before, in files and by ivy included.", "anchors": ["mobile/mobile.go: Reset", "config/config.go: Config", "parse/special.go: special"]}
{"id": "C91", "title": "atan and atanh of complex numbers", "statement": "atan of a complex number is near the arctangent and atanh of a complex number, or of a real one beyond ±1, near the number whose hyperbolic tangent it is; they fail at ±i and at ±1 only, and no part of the result is lost. (Violated: with 64 bits the imaginary part of atan of 1e-30 + 1e-30 i is zero.)", "quantifier": "all exact complex numbers, all precisions from 16 to 10000 bits, all states of memory with intact constants", "why_tests_cant": "Tests compare a few values; the error of a logarithm of a quotient near one, and on which side of the cut the result is, depend on the operand.", "anchors": ["value/asin.go: complexAtan", "value/asinh.go: complexAtanh", "value/asin.go: atan", "value/asinh.go: atanh"]}
{"id": "C92", "title": "asin, acos, asinh and acosh of complex numbers", "statement": "The inverse sines and cosines have a value everywhere, and it is near the principal one: acosh has a real part that is not negative, asin a real part between -π/2 and π/2, and so on. (Violated: the real part of acosh -2 is negative; asin -1e20 and acosh -1e20 fail with 64 bits.)", "quantifier": "all exact complex numbers with parts that are not zero in the half plane without cancellation, all precisions from 16 to 10000 bits", "why_tests_cant": "Which branch a composition of a square root and a logarithm ends on, and how much of it cancels, depends on the quadrant and the size of the operand.", "anchors": ["value/asin.go: complexAsin", "value/asin.go: complexAcos", "value/asinh.go: complexAsinh", "value/asinh.go: complexAcosh"]}
{"id": "C54", "title": "Characters and their codes", "statement": "char gives the character of each code point in a value of any structure and code gives the code point of each character, so each undoes the other; a number that is not a code point, or anything that is not a number, is refused. (Violated: an integer below -2^31 or above 2^31 that is kept in a machine word is cut to 32 bits, so char of -4294967231 can be A.)", "quantifier": "all values of any structure, all schedules of the parallel loops", "why_tests_cant": "There are more than a million code points, and any nesting of vectors and matrices; the integers that go wrong come from rare combinations of operators.", "anchors": ["value/unary.go: char, code", "value/char.go: validate", "value/eval.go: unaryVectorOp, unaryMatrixOp"]}
{"id": "C93", "title": "The parts of nested values", "statement": "flatten gives all the scalars in a value, however deeply nested, in the order of their positions and nothing else; first box x is x; first is the first element or zero; count is the first number of rho; and (rho x) rho , x is x for arrays that are not empty.", "quantifier": "all nested values", "why_tests_cant": "Values can be nested to any depth and of any shape.", "anchors": ["value/eval.go: flatten, flattenTo, box", "value/unary.go: rho, count, flatten, first, box", "value/matrix.go: reshape"]}
{"id": "C94", "title": "mdiv solves systems of linear equations", "statement": "u mdiv m, where m is a square matrix of exact numbers and u a vector or an array with as many rows, is the solution of the equations: m +.* (u mdiv m) is u; if there is no unique solution it is refused. For vectors it is the number x such that u - x*v is orthogonal to v. (Violated: some systems that have a solution are refused, such as that of the matrix 0 1 over 1 0.)", "quantifier": "all square matrices and right sides of exact real or complex numbers, all schedules of the parallel loops", "why_tests_cant": "Elimination is exact for some matrices and fails for others; a bug in the choice of rows or columns shows in particular patterns of zeros only.", "anchors": ["value/binary.go: mdiv", "value/matrix.go: inverse", "value/eval.go: innerProduct"]}
{"id": "C95", "title": "iota is right however many goroutines use it", "statement": "Results of iota share one array, which is made anew when it is too short. However many goroutines (of parallel operators) or sessions ask for numbers at a time, and however they are interleaved, each gets the numbers it asked for, they never change later, nobody writes to an array that others may read, and nobody waits for ever.", "quantifier": "all lists of calls of constIota at a time and all interleavings of their steps", "why_tests_cant": "A race shows in few interleavings; no test can try them all, and -race sees only those that happen.", "anchors": ["value/index.go: constIota", "value/index.go: growIota", "value/index.go: newIota"]}
{"id": "C96", "title": "Output of package mobile looks as printed", "statement": "The text that Eval of package mobile returns, shown as HTML, looks like what ivy printed: all spaces are kept, and backslashes, < and > appear; different outputs look different. (Violated: tabs become spaces that HTML collapses, and outputs that contain character references look like other ones.)", "quantifier": "all texts", "why_tests_cant": "Replacement of characters interacts with what the application and the browser do; only some sequences of characters go wrong.", "anchors": ["mobile/mobile.go: escaper", "mobile/mobile.go: Eval"]}
{"id": "C97", "title": "sys reads files by lines and gives settings", "statement": "sys \"read\" name gives the lines of the named file, each a vector of characters without its terminator (newline, or carriage return and newline; the last line may have none), in order, none lost and none added; a file that cannot be opened is an error. sys with the name of a setting gives it, and refuses arguments. (Violated: files with names of one character cannot be read.)", "quantifier": "all file contents and names, all settings", "why_tests_cant": "Line endings come in any combination; the lines must be right for every text, not for a sample file.", "anchors": ["value/sys.go: sys", "value/sys.go: sysRead", "value/unary.go: newCharVector", "parse/parse.go: evalString"]}
{"id": "C98", "title": "A demonstration shows every line", "statement": "Successive calls of Next on a Demo of package mobile return the results of the lines of its text, one after the other, each evaluated in the session that the lines before have left, and io.EOF from then on; no line is lost, empty ones included. (Violated: a line of 65536 bytes or more ends the demonstration.)", "quantifier": "all texts, sessions and numbers of calls", "why_tests_cant": "The lines, their endings and the limit of the scanner's buffer interact; tests use one short text.", "anchors": ["mobile/mobile.go: NewDemo", "mobile/mobile.go: Next"]}
{"id": "C99", "title": "Names of time zones", "statement": "A time zone is set by the name of a location of the system, by its last part, or by an abbreviation, in small letters, too; from then on times are converted with the offset that this location has at the time converted (summer time included). Other names are refused and nothing is set. (Violated: last parts in small letters, such as paris, are refused although the program means to accept them.)", "quantifier": "all systems of locations, names and times", "why_tests_cant": "The result depends on the files of the system and the season; tests run on one machine at one time.", "anchors": ["config/config.go: SetLocation", "config/config.go: LocationAt", "config/config.go: loadLocation"]}
{"id": "C100", "title": "Assignment to several variables at a time", "statement": "(a b ...) = v, with parentheses nested to any depth, gives each variable its part of v and changes nothing else; in particular (a b) = b a exchanges them. If v does not have the parts, it is an error and no variable changes. (Violated: some variables may have been assigned before the error.)", "quantifier": "all left sides of different variables in any nesting, all values and contexts", "why_tests_cant": "The left sides nest without limit, and the order of the single assignments must not matter.", "anchors": ["value/assign.go: Assign"]}
{"id": "C101", "title": "blanks for padding are right however many goroutines print", "statement": "The padding of columns comes from one shared string, which is replaced when it is too short. However many goroutines or sessions print at a time and however they are interleaved, each call gets as many blanks as it asked for, nobody sets the string while others may look at it, and nobody waits for ever, although a waiting writer keeps new readers out.", "quantifier": "all lists of calls of blanks at a time (lengths not negative) and all interleavings of their steps", "why_tests_cant": "A race or a deadlock shows in few interleavings; no test can try them all.", "anchors": ["value/vector.go: blanks"]}
{"id": "C102", "title": "the values of a line are printed in order, and _ is the last one printed", "statement": "The values of a line are printed in order with one blank between them, results of assignments and of print not at all, and afterwards the variable _ is the last value that was printed: assignments and calls of print are not stored there.", "quantifier": "all lists of values of a line, quiet or not, all texts that values are printed as, all sessions", "why_tests_cant": "The cases that go wrong, an assignment at the end of a line with other values, or a text that ends with a newline, are combinations the test files do not have.", "anchors": ["run/run.go: printValues", "run/run.go: Run", "value/assign.go: QuietValue", "doc.go: the variable _"]}
{"id": "C103", "title": "the operator ivy prints all values of a text but the last, in order, and gives the last", "statement": "For a text of any number of lines the operator ivy prints the values of all lines in the order of the lines, together with what the lines print themselves, except the last value, which is its result.", "quantifier": "all lists of lines, each with any values and anything it writes itself", "why_tests_cant": "Tests have texts of few lines that end with an expression; the order of output matters only if a line prints something itself.", "anchors": ["run/run.go: eval", "run/run.go: IvyEval"]}
{"id": "C104", "title": "that a value need not be printed does not matter inside of other values", "statement": "The mark that the result of an assignment or of print need not be printed is for printing only. It is never part of a vector or of a variable, and no operator ends the program because of it.", "quantifier": "all expressions made of numbers, variables, assignments, vectors and the operators -, print and print@, in all environments", "why_tests_cant": "It takes an assignment as an element of a vector, or print@, below a unary operator; no test has one.", "anchors": ["value/assign.go: QuietValue", "value/assign.go: assign", "value/expr.go: VectorExpr.Eval", "value/expr.go: UnaryExpr.Eval", "value/eval.go: EvalUnary", "value/eval.go: unaryVectorOp"]}
