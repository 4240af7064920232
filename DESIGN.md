# Verification design for ivy

Subject: robpike/ivy, read as text in `/repo`. Nothing is built or run. The model is Lean 4 under
`lean/Verif/`; each area has a `Model` file (definitions transcribed from Go, each with a file/line
citation), a `Lemmas` file (helpers) and a `Props` file (the property theorems, each followed by an
`example` that meets its hypotheses in a concrete non-trivial case).

## Conventions

* A Go panic with `value.Error` is an ordinary Ivy error; any other Go panic (nil dereference, integer
  division by zero, failed type assertion, slice bounds) is a *crash*. Models that can crash distinguish
  the two.
* Go `int`/`int64` arithmetic is modelled on unbounded `Int` with an explicit two's-complement wrap
  (`wrap64`) wherever overflow is conceivable. Elsewhere the model says why it cannot occur.
* `math/big` is trusted: `big.Int` is `Int`, `big.Rat` is the reduced fraction, their methods are the
  mathematical operations. Where *mutation* of a `*big.Rat` matters (C12) the model has an explicit heap.
* Slices of Go are modelled as lists where aliasing cannot matter and as (array, offset, length, capacity)
  over a heap where it can (C01-C04, C33).
* Goroutines are state machines whose atomic steps are interleaved by an arbitrary schedule (C04-C07, C47).

## Properties: what is modelled and how it is proved

| id | model | proof |
|----|-------|-------|
| C01 | heap of inodes, leaves, tail arrays with owner ids; all of Transient/Persist/Set/Append/Resize | ownership invariant by induction over histories |
| C02 | same | refinement to lists |
| C03 | same, nil/typed-nil pointers explicit, crash = `none` | representation invariant by induction |
| C04 | Set split into atomic steps (load, CAS, leaf store, tail lock) | invariant over all interleavings |
| C05 | `pfor` arithmetic and its wait/re-panic protocol | arithmetic induction |
| C06 | workers writing disjoint slots in any interleaving | permutation invariance of writes |
| C07 | same, with repeated slots. **Violated**: negation with a witness; partial for distinct indexes | |
| C08 | Int/BigInt fast paths with wrap64. **Violated** through bit operators (finding below); negation + partial | range invariant by induction over expressions |
| C09 | representation predicate. **Violated** by max, 0**n, 1**n, unary -, abs, idiv, bit operators; negation + partial | |
| C10 | BigRat ops and shrink | field arithmetic on `Rat` |
| C11 | QuoRem for Int, BigInt, BigRat; idiv/imod | Euclidean division |
| C12 | heap of big numbers. **Violated** by QuoRem on negative rationals; negation + partial | |
| C13 | mustFit and each integer operator. **Violated** by 2**n, <<, factorial and by wraparound in the check; negation + partial | |
| C14 | bigIntExp | induction / `Int.pow` |
| C15 | fac.go: sieve, swing, product, factorial | Legendre's formula |
| C16 | binary ! . **Violated** for `n ! 0`, n > 0; negation + partial | |
| C17 | floor/ceil | order characterisation |
| C18 | OrderedCompare over exact values of any nesting. **Violated** by real numbers in complex form; negation + partial | structural induction; refinement of the documented order |
| C19 | === . **Violated** for matrices with equal data; negation + partial | |
| C20 | sort + binary search | equivalence with linear search |
| C21 | SliceStable | permutation, sortedness, stability |
| C22 | union/intersect/unique. `unique` **violated** (relies on an unstable sort); negation + partial | list specifications |
| C23 | NewMatrix/reshape/size | arithmetic |
| C24 | doRotate, reverse, vrotate. **Violated** for one-element vectors and zero dimensions; negation + partial | modular arithmetic |
| C25 | transpose / binaryTranspose. **Violated** for zero columns; negation + partial | row-major index arithmetic, odometer invariant |
| C26 | take/drop | odometer invariant |
| C27 | index.go. **Violated** with two or more missing indexes of different lengths; negation + partial | |
| C28 | IndexAssign | frame lemma |
| C29 | Reduce/Scan. **Violated** when a user operator shadows a built-in word; negation + partial | |
| C30 | inner/outer product. Crash for an empty inner axis; **violated** for outer products with a single number (witnesses); partial | loops write each cell once; folds |
| C31 | encode/decode of numbers, vectors, matrices | mixed radix induction, uniqueness of Euclidean division |
| C32 | sel, fill, part on vectors and matrices, allZeros on nested values | loop invariant over rows; runs unique (`splitBy`) |
| C33 | shape slices with capacity and sharing. **Violated** through append on a shared array; negations + partial | refinement to immutable lists, ownership invariant |
| C34 | whole evaluator with call stack, built-ins as arbitrary programs. **Violated** by goroutines sharing the stack; negation + partial | induction on evaluation, frame invariant |
| C35 | the same. **Violated** (stale slots); negation + partial | simulation of two runs, definite assignment |
| C36 | the same | the same invariant |
| C37 | Define, Undefine, functionDefn | induction on histories |
| C41, C42 | `parse/parse.go`, `parse/function.go`, `value/expr.go`, `exec/function.go` from tokens on (`Verif/Syn`). **Violated** (printing); negations + partial; reading proved | soundness and completeness for a relational grammar |
| C38, C39 | the same. **Violated**; negations + partial | effect of one definition |
| C40 | `put`, `%q` and `UnquoteChar`, the scanner, the parser, `value.Parse`, `ParseString`, `rho` (no floating point). **Violated**: one-element vectors, texts inside of others, one-element matrices of vectors, a `rho` of the user | tokens of the text of each part by the scanner lemmas, the grammar (C42), evaluation; mutual induction on values |
| C43 | `parse/special.go` `special`, `nextDecimalNumber64`, `getString` (`Verif/Sess`) | every command, tokens, outcome of files run; all bases |
| C44 | `runFromFile`, `runFromReader`, `runUntilError`, lines of a session (`Verif/Sess`). **Violated** (leak); negation + partial | invariant relating depth, open files and refusals |
| C45 | the operators of all areas put together on nested values, with the evaluator, definitions and sessions (`Verif/Safe`). **Violated** by arrays without elements and by elements of local variables without value; negations + partial | a Hoare-style predicate per operator; induction on operators, on expressions and on the bound of the evaluator; simulation between the code and a guarded copy |
| C46 | `verbOf`, `verbIndex`, `formatString`. **Violated** for formats with `%%` before the verb and for signs after the period; negations + partial | the first verb is an inductive relation; cases of the scanning loop, induction on the length of the format |
| C56 | `scan/scan.go` from characters to tokens (`Verif/Scan`). **Violated** (names of j and digits; sign before the letter after the last digit); negations + partial | the runs of characters; cases of `lexAny` |
| C58 | `fmtText`, `formatOne`, `Matrix.fprintf`, down to the calls of `fmt.Fprintf`. **Violated** for nested elements; negation + partial | counters of a matrix are the row-major number of the element; induction over the elements |
| C59 | `Sprint` of vectors and matrices down to bytes: `multiLineSprint`, `elemStrs`, `write2d`, `higherDim`, `indent` (`Verif/Print`). **Violated** by some nested values (faults, misalignment), by characters beyond ASCII and in rank four; negations + partial | the lines are described while the loop over the elements runs: line j is line j of the boxes side by side; cutting them up again gives the boxes back; words of a text are counted through joins and indentation |
| C60 | `catenate`, `catenateFirst`, vectors, and the operators. **Violated** for a vector joined to a matrix without rows and for single fractions; negations + partial | one invariant for `copyElems` with arbitrary strides; the five cases are instances |
| C61 | `iota` of numbers and vectors, `where` of everything, `newIota`. | odometer = `unravel` of the running index (`tick_unravel`); the counts by induction; uniqueness of the list from order and counts |
| C62 | `split`, `mix`, `shrink`, on top of the modelled `take`. **Violated** for elements of several ranks; negations + partial | the loop over the elements computes maxima axis by axis; each element placed by `take` (C26); chunks of equal length |
| C47 | `?`, `rand`, `makeSeed`, `)seed`, with goroutines taking turns at the generator (`Verif/Rand`). **Violated**: `rand` draws in schedule-dependent order; negation + partial | one goroutine: every schedule is the sequential loop; sessions by induction |
| C63 | the same, with the rounding of `big.Float`. **Violated** for big integers and at the upper end of `rand`; negations + partial | invariant of the goroutines; rounding is monotone and keeps numbers of 53 bits |
| C64 | the same | every state function advances; the text of a token by cases of the state functions; induction on the text |
| C65 | `Parse` with the parts of strconv and math/big it calls (`ParseInt`, `Int.SetString`, `Rat.SetString`) on texts of characters | induction on the text for the three loops, against the value of a list of digits (`Nat.ofDigits`); negation by a witness for points in base 16 |
| C66 | `Sprint` of integers, rationals and complex numbers, `scan.go` and `Parse` | digits of a number by strong induction; the scanner follows the text through both of its paths (numbers and names); `Parse` by the lemmas of C65 |
| C67 | all series, loops and reductions of `value/{loop,power,log,sqrt,sin,asin,sinh,asinh}.go` on rounded rationals (`Verif/Flt`). **Violated** at 6 bits; negation + partial | loops: invariants that keep divisors from being zero; `twoPiReduce`: every subtraction counts (monotonicity of rounding) and values are multiples of a unit; arc tangent: two recursions at most, from the accuracy of √2 |
| C68 | `logBaseU`, `intLog`, `uint64Log`, `bigIntLog`. **Violated** by `2 log 12`; negation + partial | induction over the squarings: what is left is the quotient by the power found |
| C69 | `integerPower` | induction over the bits of the exponent, with mantissas for exactness and factors for the error |
| C70 | `floatSqrt`. **Violated** for numbers of higher precision; negation + partial | Newton's step with its four rounding errors over the reals; errors halve until they are a few units, then the values are the root's neighbours, which alternate only once, at a power of two |
| C71 | `exponential`, `floatSinh`, `floatCosh`, `floatTanh`, `loop.done`. **Violated** for negative arguments of the exponential function; negation + partial | every computed term is the true one up to a counted number of roundings (`Near`), the computed sum follows the partial sums, the stopping rule bounds the last term and a geometric series the rest; Mathlib's power series of the real functions |
| C72 | `floatSin`, `floatCos`, `sincos`, `twoPiReduce`. **Violated** for the cosine of negative arguments; negation + partial | the same for alternating terms; the reduction takes away a multiple of 2π up to 233 units of the argument (each loop's errors are bounded by the number of its subtractions) |
| C73 | `floatLog`, with `floatLog2` from the digits of `const.go` | proved for 16 to 10000 bits. The argument is scaled exactly; the series of `log (1-y)` is bounded by a geometric series (`geo_end`), the loop ends within its limit |
| C74 | `floatPower`, `integerPower`, `exponential`. **Violated** for small bases; negation + partial | errors of logarithms add up (`log_rel`): squarings of the whole part, the fraction by logarithm and exponential |
| C75 | `floatAtan` with its three series and the reduction, `floatAsin`, `floatAcos` | proved for 16 to 10000 bits. Arc tangents of near arguments are near (`arctan_diff`), Euler's series and the series at infinity are compared with `Real.arctan`'s |
| C76 | `floatAsinh`, `floatAcosh`, `floatAtanh`. **Violated** for `asinh` of negative numbers; negation + partial | relative error of the argument of the logarithm, from that of the root (`root_near`) |
| C77 | the four strings of digits of `const.go`, rounded | proved: kernel sums of Machin's formula (2 · 2048 + 2 · 512 terms), of `artanh 1/3`, `artanh 1/9` and of `1/n!` with 3020 decimals; the tails are bounded in the reals |
| C78 | `logBaseU` with its quotient of two `floatLog`s | violated (`C78_violated`: `10 log 250000`); partial: proved if the number is split without a rest, which holds for numbers that are no multiple of the base and those with one digit that is not zero |
| C79 | `encodeTime`, `decodeTime`, `secNsec`, zones of `config`; Go's `time` package as the Gregorian calendar | violated (`C79_violated_offset`, `_zone`, `_operand`); partial: calendar refined to successive days, round trip with error bound, carrying, frame |
| C80 | float objects on a heap: `floatSin`, `floatCos`, `floatTan` and the complex functions, which write into their operands; `phase`, `log`, `real`, `imag`, `float`, `j`, which share objects; sessions of assignments and expressions | violated (`C80_violated*`); partial: simulation of the heap by values for sessions that apply the writing functions to new values only (`Sim`, `eval_sim`) |
| C81 | `sin`, `cos`, `tan`, `sinh`, `cosh`, `tanh`, `**` of complex numbers. **Violated** by `cos`, `sinh`, `cosh`, `**` (cosine of arguments below -7); negations + partial | error bounds of C71 and C72 for the factors, errors of products and quotients, then the simulation of C80 |
| C82 | `phase`, `abs`, `log` of all numbers | quadrants by `Complex.arg` of Mathlib, relative errors through `arctan` and `log`; existence by the fuel bounds of C70, C73, C74 |
| C83 | `sqrt` of complex numbers. **Violated** (smaller part lost); negation + partial | the square root of a value near `(M ± x) / 2`: relative error for the larger part, `√` of the error for the smaller one |
| C84 | `x ** y` of complex numbers and of negative floats. **Violated** (powers of negative floats are not real; cosine of negative arguments); negations + partial | invariant of the squaring loop, exact and with relative errors `(1 + δ) ^ k - 1` |
| C85 | exact numbers printed with `%f`, `%e`, `%g` formats. **Violated** (cut off instead of rounded; wrong exponents; texts that are no numbers; crash); negations + partial | the loops for the exponent find the power of ten of the first digit; digits of quotients by powers of ten; what is printed is a decimal number with a value |
| C86 | floats printed with any format. **Violated** for the verb `F`; negation + partial | the exact decimal expansion; rounding is off by half a unit at most; the digits written are a window into the decimal's digits |
| C87 | floats through )save and )get. **Violated**; negation + partial | the number of digits written against the spacing of the floats |
| C88 | constants and contexts. **Violated**; negations + partial | invariant over all histories |
| C89 | huge floats and long integers printed. **Violated**; negations + partial | error analysis of the power of ten (with C71, C77), of the rescaling, and C86 for the digits |
| C55 | settings in the file of `)save`, read by `)get` or run (`Verif/Sess/SaveConf.lean`). **Violated**; negations + partial | file run line by line with the lemmas of C43, strings with those of C40 |
| C90 | `mobile.Reset` (`Verif/Sess/Reset.lean`). **Violated**; negations + partial | invariant over all lines, files and uses of `ivy` |
| C91 | `atan`, `atanh` of exact complex numbers (`Verif/Cell/Inverse.lean`). **Violated** for tiny parts; negation + partial | quotient is exact, logarithm as in C82, product as in C84; compared with `Complex.arctan` and with the inverse of `Complex.tanh` |
| C92 | `asin`, `acos`, `asinh`, `acosh` of exact complex numbers (`Verif/Cell/Inverse.lean`). **Violated** in one half plane; negations + partial | root and operand are in the same quadrant and do not cancel (`norm_le_add`); logarithms of near numbers are near (`log_near`) |
| C54 | `char` and `code` on nested values (`Verif/Safe/Model.lean`: `toChar`, `S1.eval`, `un1`). **Violated** for machine integers beyond 2^31; negation + partial | induction on the depth; the parallel loop over the elements is a pointwise map (`mapData_ok`) |
| C93 | `flatten`, `first`, `count`, `box`, unary `rho` and `,` on nested values (`Verif/Safe/Model.lean`) | leaves are named by paths, which are sorted lexicographically; mutual induction on values and lists |
| C94 | `mdiv` (`Verif/Arr/MdivModel.lean`). **Violated** as C48; negation + partial | the inner product with the inverse is a matrix product (`inner_left`); M (W u) = (M W) u |
| C95 | `constIota`, `growIota` with their lock, any number of goroutines (`Verif/Iota/Model.lean`) | invariant over all interleavings (`next_inv`), a bound on the steps that are left (`step_less`), case analysis for the absence of deadlocks |
| C96 | `escaper` of package mobile (`Verif/Sess/Html.lean`). **Violated** for tabs and `&`; negation + partial | induction over the text |
| C97 | `sys`, `sysRead`, `bufio.ScanLines` (`Verif/Sess/Sys.lean`). **Violated** for names of one character; negation + partial | the scanner's lines satisfy `Lines`, which determines them (`lines_scan`) |
| C98 | `Demo.Next` with the limit of `bufio.Scanner` (`Verif/Sess/Demo.lean`). **Violated** by long lines; negation + partial | induction over the calls; the lines are those of C97 |
| C99 | `loadLocation`, `SetLocation`, `LocationAt` (`Verif/Time/Zone.lean`). **Violated** for names in small letters; negation + partial | case analysis; the table by `decide` |
| C100 | `Assign` (`Verif/Exec/Model.lean`: `assignTo`). **Violated** when the value does not fit; negation + partial | induction over the specification `Fits`, and over the elements from the right |
| C101 | `blanks` with its lock, any number of goroutines (`Verif/Blanks/Model.lean`) | as C95 (`next_inv`, `step_less`) |
| C102 | `printValues`, the variable `_` in `Run` (`Verif/Sess/OutModel.lean`) | induction on the values (`values_shown`, `values_more`) and on the lines (`session_last`); violations by concrete lines |
| C103 | `eval` behind the operator `ivy` (`Verif/Sess/IvyOp.lean`) | induction on the lines (`evalLoop_works`); violations by concrete texts |
| C104 | vectors, assignments, variables, unary `-`, `print` and `print@` with the type `QuietValue` (`Verif/Exec/QuietModel.lean`) | induction on expressions and values (`eval_good`, `neg_works`); violations by evaluation |
| C48 | inverse of matrices and vectors, elements of any field. **Violated** (zero pivots); negation + partial | row-operation invariant; leading minors by determinants |
| C49 | & \| ^ on 64-bit vectors and on unbounded integers, shifts | bit by bit |
| C52 | binaryVectorOp, binaryMatrixOp, unary loops. **Violated** for matrices with one element and n by 1; negation + partial | cases on the shapes |
| C53 | Each, BinaryEach, eachMatrix, eachValue, for any operator with effects on any state. **Violated** for arrays without elements and single values; negations + partial | the iterator's list is shown to be the parts in row-major order; loops are `seqR` |
| C57 | complex `floor`, `ceil`. **Violated** (shared rational negated by `mod`); negation + partial | floor and fractional part of the components |
| C50 | comparisons, logic, min, max through type promotion | case analysis |
| C51 | complex numbers with exact parts: `+ - * / == != j`, unary `- / conj j real imag not`, expressions | values in Mathlib's ℂ; components by the theorems on numbers; induction over expressions |

## Notes per area

### Persistent slices (C01-C03, `Verif/Persist/{Model,Tree,Write,Ops,Api,Spec,WorldInv,Sim,Yield,PropLemmas,Props}`)
Modelled: all of value/persist/slice.go. A `World` holds every slice and every transient a program has obtained;
a history is any list of calls, and a call that panics is refused without effect. `Spec.Run` is the same
history over plain lists. Unbounded integers for lengths; heap allocation never fails.

### Concurrent Set (C04, `Verif/Persist/Conc*`)
Modelled: `TransientSlice.Set` split at every atomic load, CAS, mutex operation and element store; any number of
goroutines, each with any list of calls; any schedule. Assumed: atomics are sequentially consistent and the store
of one element is one step (in Go an interface is two words; two goroutines never store the same element under
the hypotheses, so tearing cannot be seen).

### Parallel loop, element-wise operators, indexed stores (C05-C07, `Verif/Par`)
Modelled: `pfor`, `sendRecover`, the loops of unaryVectorOp, unaryMatrixOp, binaryVectorOp, binaryMatrixOp,
`newVectorEditor`, `Publish`, the store loop of IndexAssign. The element operator is a function of the element
index that returns a value or an error (see C12 and finding 6 for when that is not so). The offset of a cell is a
function of the position; that it is the right offset is C27/C28.

**Finding (C07).** `x[200 rho 1] = iota 200` on a multi-core machine: the two goroutines both store into `x[1]`
and the result depends on the schedule (`C07_repeated_indexes_race`); in Go it is moreover a data race on an
interface value.

### Exact numbers (C08-C11, C13-C17, C49, C50, `Verif/Num`)
Modelled: the types Int, Char, BigInt, BigRat with `toType`, `shrink`, `maybeBig`, `mustFit`; EvalUnary/EvalBinary
with whichType and binaryArithType/divType/rationalType; the Int, Char, BigInt and BigRat entries of all operators
listed in `Op1` and `Op2` (Model.lean); QuoRem; all of fac.go; evaluation of expression trees over literals.
Simplified: an operation that continues in floating point is the outcome `float`; complex numbers do not occur
(the operators modelled do not produce them from exact numbers, `sqrt` and friends are not modelled).
`Spec.lean` states each operator over the rationals and gives expressions a meaning (`Means`), proved
unique (`C08_meaning_unique`).

**Finding (C08).** `|`, binary `^` and unary `^` on Int do not go through `maybeBig`. `x = -2147483647-1`, `y = -x`,
`z = y | 2147483647` is Int(4294967295); `z*z` overflows int64 and gives -8589934591 (`C08_violated`).

**Finding (C09).** Non-canonical integers: `0**3`, `1**3` and `max` with a big operand stay BigInt; unary `-`, `abs`,
`idiv`, QuoRem and the bit operators leave Ints outside the 32-bit range. `0**3` and `0 max -1e20` are zeros that
count as true (`C09_deviations`).

**Finding (C13).** The limit is not applied by `2**n`, `<<`, `!` and rationals, and its own product overflows:
`3**9223372036854775807` passes the check (`C13_deviations`, `C13_overflow_in_check`).

**Finding (C16).** `n ! 0` is 1 for every n (`C16_violated`).

### Complex numbers (C51, C57, `Verif/Num/C*.lean`; C48 for them, `Verif/Arr/InvCProps.lean`)

Modelled: `value/complex.go` up to `ceil` (without `abs`, `phase`, `Signum`, printing), and the entries for complexType of the operators named in C51 and
C57, on components that are `Num`. The spec is Mathlib's ℂ. `CNum.Good` (complex only if not real) is an invariant: every operator is proved to keep it.
Whether the two components are one object is a parameter of `floor`, the only method that notices.
Simplified: floating-point components are left out; so are the operators that produce them.

**Findings.** (C57) `Complex.floor` takes the fraction of its real part with `mod`, which negates a negative rational in place (C12); in `x j x` both
parts are the rational of `x`, so the fraction of the imaginary part is taken of the negated number: with `x = -2/3`, `floor x j x` is -1, not `-1j-1`
(`C57_violated`). `floor z` also changes the sign of negative parts of the variable `z` itself (C12).

### Cells of rationals (C12, `Verif/Heap`)
Modelled: every BigRat as a pointer to a cell; assignment copies pointers; `min`, `max`, `mod` by zero return an
operand's own cell; QuoRem negates in place and reads the second operand after changing the first. Programs are lists
of assignments to numbered variables. BigFloat and `encode` (which also call QuoRem), `secNsec` and the parts of
Complex are not modelled.

**Finding (C12).** `x = -7/2`, `x mod 2`, then `x` prints 7/2 and a second `x mod 2` prints 3/2 instead of 1/2
(`C12_violated`, `C12_wrong_value`). `C12_extent` bounds the damage to variables that share the operand's cell.

### Order, search, sets (C18-C22, `Verif/Order`)
Modelled: `OrderedCompare` on trees of characters, exact numbers, complex numbers with exact parts, vectors and
matrices; `sgn2` goes through the `<` and `==` of `Verif/Num`. `Spec.Below` and `Spec.SameData` state the documented
order independently, and `C18_meaning` ties the outcome to them. The sorts of Go's library are a parameter
(`SortLib`) constrained only by their documentation: a permutation, sorted if `less` is a strict weak order of the
elements, and for `SliceStable` ties in their original order. Two such libraries are constructed so that the theorems
are not vacuous. `sort.Search` is modelled as its loop. Floating-point numbers are not modelled (a comparison of an exact
number with a float rounds the exact one, which breaks transitivity too).

**Finding (C18).** `sqrt` of a complex number with a tiny imaginary part returns a complex number with imaginary part
zero (`sqrt.go:43` lacks a shrink); the order puts it among the reals against reals and among the complex numbers
against those: 6 < 1j1 < 5j0 < 6.
**Finding (C19).** `(2 3 rho iota 6) === 3 2 rho iota 6` is 1.
**Finding (C22).** `unique` depends on `sort.Slice` keeping equal elements in order.

### Arrays (C23-C26, `Verif/Arr`)
Modelled: `NewMatrix`, `size`, `reshape`, `rotate`, `vrotate`, `doRotate`, `reverse`, the loops of unary `rot` and
`flip`, `transpose`, `binaryTranspose`, `take`, `drop`, and the operators that call them. Elements are of any type;
vectors are lists and the transient editor a list of optional elements (justified by C01-C03). `Spec.lean` defines
coordinates, row-major order and the element at given coordinates (`Mat.at`); the theorems speak of those only.
Loops under `pfor` run over the ranges of any schedule that covers every index once (`Sched`; `pforSched` is the one
of `pfor`, from C05); concurrency itself is C04-C07. Go panics are the outcome `crash`, endless loops `hang`.
The element count of `take` wraps at 64 bits as in Go. Simplified: `size` errors on overflow as ElemSize does.

**Finding (C24).** `1 rot ,5` is a scalar, not a vector (`vector.go:418-420`).
**Finding (C24, C25, C45).** On a 2 0 matrix `1 rot m`, `1 flip m` and `transp m` divide by zero, and `rot m` never ends.

### Indexing (C27, C28, `Verif/Arr/Index*.lean`)
Modelled: all of `index.go`: `init`, `initVectorIndex`, `Index`, `IndexAssign`, with the editor a variable keeps between
indexed assignments (`Var`, `context.go:35-91`). An index is missing, an integer, a vector, a matrix or something else; the
elements of vectors and matrices of indexes are integers, vectors or something else. `IndexSpec.lean` says which places an index
denotes and which shape the selection should have. The stores of `IndexAssign` run under any schedule that covers
every selection once, one range after the other; races between ranges are C07. If a store could fail midway the model would
leave a broken editor behind, so `C28_refused` includes that no store fails. Values and indexes are assumed to have at
most 2^31-1 elements per dimension and in total, which `NewMatrix` enforces for two or more dimensions. Not modelled: evaluation of the index expressions.

**Finding (C27).** With two or more missing indexes the result has their lengths in reverse: for a 2 by 3 matrix `x[;]` has
shape `3 2` (`index.go:73-76` flips the offsets, but the loop at `121-129` still uses them in the other order). `C27_elements` proves the elements
always right, and the shape right exactly when the lengths are a palindrome. Hence `x[;] = x` is refused (`C28_missing_violated`).
**Finding (C27, C45).** Indexing a matrix that has no columns by row divides by zero.

### Reductions, scans, products, elementwise operators (C29, C30, C52, `Verif/Arr/Eval*.lean`)
Modelled: `Reduce`, `ReduceFirst`, `Scan`, `ScanFirst`, `Product`, `innerProduct`, `outerProduct`, `binaryVectorOp`, `binaryMatrixOp`,
`unaryVectorOp`, `unaryMatrixOp`, `isScalar`, `isVector`, `knownAssoc`, and the choice between operators of the user and built-in ones.
Elements are of any type; the operator is any function that gives a value, an error or a crash. `EvalSpec.lean` has the right fold,
lines along an axis, and which element an operand contributes at given coordinates. All loops run under any covering schedule; an
operator of the user that has side effects under a parallel loop is not modelled (a pure function). Values are `Plain`: what is stored as a matrix
has rank two or more (that rank-one matrices can arise is the finding below). `EvalNum.lean` instantiates scans with the operators
of `Verif/Num`: there the short way agrees with the reduction of each prefix by value.

**Finding (C29).** `Scan` decides by name whether an operator is associative (`eval.go:183-189`), but the user may define `min`, `max`,
`or`, `and` and `xor`: with `op a min b = a - b`, `min\ 5 3 1` is `5 2 1` although `min/ 5 3 1` is 3.
**Finding (C30, C45).** The inner product of a 2 0 and a 0 2 matrix divides by zero.
**Finding (C30).** The outer product of two numbers is a 1 by 1 matrix; of a matrix with an integer it has one more axis, with a fraction two, since
fractions and complex numbers become matrices of rank two (`bigrat.go:195-196`, `complex.go:78-79`) but other numbers of rank one. Class `Wide` says which.
**Finding (C52).** `(1 1 rho 5) + 7` has shape 1 (`eval.go:710-719` takes the shape of the right operand); a matrix of shape `3 1` is taken
for a vector of length three: it can be added to a 2 by 3 matrix, and added to a vector it gives an array of rank one that is stored as a matrix.

### Each (C53, `Verif/Arr/Each*.lean`)

Modelled: `Each` and `BinaryEach` (`value/eval.go:494-646`) with their iterators, the counting of the signs `@` in the name of the operator and the
operator itself as a parameter that gets the rest of the name and may change a state of any type. The iterators are lists of what they yield, each element of
which may itself be an error or a crash (the slice, the call of `NewMatrix`); the loop stops at the first. Left out: tracing.

**Finding (C53).** `f@` of a matrix of shape `2 0` is an empty vector, not two results, as the loop over the data has no turns; `f@@` of shape `2 3 0`
is an error about inconsistent shapes.
**Finding (C53).** The errors "arg is scalar", "left side is scalar", "right side is scalar" cannot happen: a number becomes a matrix of rank one or two first.
`f@ 2` is a vector of one element; `f@@ 1/2` is a 1 by 1 matrix but `f@@ 2` a vector whose element is `f@ 2`.

### Formatting with text (C46, C58, `Verif/Fmt/*.lean`)

Modelled: `value/format.go` whole and `Matrix.fprintf` (`value/matrix.go:161-194`): finding the verb, making the format, choosing the argument by verb and
type, the layout. The result is the list of calls of `fmt.Fprintf` with their format and argument, and of the bytes written between; what Go makes of them is not
modelled, nor is the UTF-8 encoding of runes that are not ASCII, the precision of `big.Float`, or floating-point numbers as operands.

**Findings (C46).** In `'%%%x' text 1/2` the index of the verb is relative to what follows the escape, so the verb is taken to be `%` and the fraction is
given to Go as it is, without splitting it. With `T` the byte replaced is a wrong one (`%%%T` becomes `%s%T`). `-1 text 3` makes the format
`%.-1f`, which Go does not accept; it is not reported.
**Finding (C58).** `'d' text 5 (1 2) 7` is `5  7`: nothing is printed for an element that is a vector or a matrix, with any of the verbs
`b d o O x X e E f F g G c U s q`.

### Catenation (C60, `Verif/Arr/Cat*.lean`)

`catenate` and `catenateFirst` (matrix.go:610-747) with `copyElems` and its strides, writing through the modelled vector editor; `,` and `,%` with the
promotion of their operands. The spec `Lines` says what an operand is for each list of the other coordinates, and `Abuts` what the result is; neither mentions strides or
the five cases of the code.

**Finding (C60, C45).** `(0 3 rho 0), iota 0` divides the size of the right operand by the number of rows, which is zero (matrix.go:659; likewise :667 with the operands exchanged):
the program ends with a run-time error of Go. `C60_violated`.

**Finding (C60).** `(1/2), 2 2 rho 1` is refused although `5, 2 2 rho 1` is not: `toType` makes a 1 by 1 matrix of a fraction or complex number and a 1-element one of an integer, and only the
latter is repeated. `C60_fraction_violated`.

### Coordinates (C61, `Verif/Arr/Where*.lean`)

`iota` and `where` (unary.go:624-671, 737-797) with both odometers. The spec says what is at each place (`C61_iota`), respectively how often each coordinate is in the list and in which order
(`Where`), which determines the list (`C61_where_unique`). The shared slice behind `iota` (`constIota`, index.go:401-419) is taken for its contents; its locking is the subject of C95.

### Split and mix (C62, `Verif/Arr/Mix*.lean`)

`split` and `mix` (matrix.go:957-1033) on arrays whose elements are values of the type `V α`. Single values as operands (unary.go: `self`) are not modelled. The fill is a parameter, a function of
the data of the element.

**Finding (C62).** `mix` takes the maxima of the dimensions aligned on the first axis (matrix.go:994-998) but places elements of lower rank on the last (`:1012`, `:1016`), so with the vector
`1 2 3 4 5` first and a 2 by 3 matrix second the result has shape `2 5 3` and 4 and 5 are not in it; in the other order it has shape `2 2 5` and is right. `C62_lost_violated`, `C62_order_violated`.

**Finding (C62).** Whether a matrix has to be extended is decided by comparing its shape with `1 1 ...` (`:1019`) and not with the shape of the result, so a 1 by 1 matrix next to a 2 by 2
one makes `mix` fail with "inconsistent shape". `C62_ones_violated`.

**Finding (C62).** `mix split 0 3 rho 0` is an empty vector: the shape of what is not there is lost. `C62_mix_split_violated`.

### Random numbers (C47, C63, `Verif/Rand/*.lean`)

The generator is a parameter: a state with `Int64N`, `rand.Int`, `Perm` and `Seed`, of which `Gen.Ok` states what the library promises. A schedule is the list of the goroutines that get
`randLock` in turn; each call of the generator is one step. `big.Float` arithmetic is exact arithmetic followed by rounding to nearest even at 53 bits, the precision `big.NewFloat` gives.
Not modelled: complex operands, nested operands of `rand`, the conversion of the operand of `rand` to a float.

**Finding (C47).** `safeUnary` keeps only `?` out of parallel loops (eval.go:176-180), but `rand` uses the generator too. With two processors `)seed 0` followed by `rand 200 rho 1` shows
numbers in an order that depends on the goroutines. `C47_violated`.

**Finding (C63).** `? n` for a big integer n is not moved by the origin (unary.go:54-67), though the comment says so: `? 2**40` can be 0 and never is 2**40. `C63_violated`.

**Finding (C63).** `rand x` can be x: the draw is from 0 to 2**prec inclusive, and the quotient by 2**prec+1 is rounded to 53 bits because `big.NewFloat(0)` has that precision whatever
`)prec` is (unary.go:148-160). For an x of more bits the result can be larger than x. `C63_rand_violated`, `C63_above_violated`.

### Positional notation (C31, `Verif/Arr/Radix*.lean`)
Modelled: `encode` and `decode` with every pairing of scalars, vectors and matrices, on the exact numbers of `Verif/Num` and its model of
`QuoRem`. `RadixSpec.lean` has the value of digits with given radices. Not modelled: times (`'T' encode`), floats, complex numbers,
negative fractions in `encode` (negated in place, C12). `C31_decode_encode` covers fractions, fractional radices, and a radix zero (open end) as well.

**Finding (C31, C45).** `2 decode 0 3 rho 0` divides by zero.
By design a single radix gives residues as a vector (`10 encode 1 2 3` is `1 2 3`), so the inverse for several numbers
needs two radices or a matrix (`C31_single_radix`).

### Replicating and partitioning (C32, `Verif/Arr/Sel*.lean`)

Modelled: `Vector.sel`, `allZeros`, `doPartition`, `Vector.partition`, `Matrix.partition`, and the operators `sel`, `fill`, `part` of `binary.go`.
What replaces an element is a parameter of `sel`, modelled on nested values by `allZeros`. The turns of the inner loops that append the same element
several times are one `replicate`. `Matrix.sel` (`matrix.go:749-796`) is never called and is not modelled.
`Runs` says what the maximal runs are without reference to the loop; `C32_part_runs_unique` shows that it leaves no choice.

**Findings (C32, C45).** `part` of a matrix of one row, and of any matrix with a score that starts with zero, fails with "inconsistent shape": the number
of groups is read when the score rolls over, which never happens for one row, and is too early when the first element of the second row is skipped.
`part` of a matrix without rows returns a matrix with dimension -1. `sel` of a matrix without rows divides by zero.

### Inverse (C48, `Verif/Arr/Inv*.lean`)

Modelled: `inv`, `Matrix.inverse`, `Vector.inverse`, with the operators on elements as parameters. The theorems on elimination hold for operators exact in
any field; the properties use the numbers of `Verif/Num` (values of the code up to floats, with the limit on sizes) and the inner product of C30. Left
half = right half times the matrix is kept by every row operation; the identity columns grow; the right half keeps the identity columns not yet reached,
from which the pivot is zero just if a leading minor is (`pivot_iff`). Complex and floating elements are left out.

**Findings.** (C48) no rows are exchanged for a zero pivot, so `inv 2 2 rho 0 1 1 0` is refused as not invertible. The test for more than two dimensions is
`case 3`, so matrices of four go on, and `inv 2 2 0 0 rho 1` ends the program (C45). `inv` of a vector of one element is an error.

### Execution (C34-C39, `Verif/Exec/*.lean`)

Modelled: the stack of `exec.Context` (`push`, `pop`, `Local`, including the slots that `pop` leaves filled), `EvalUnary`, `EvalBinary`,
`Function.EvalUnary/EvalBinary`, `Eval` of every kind of expression, `Assign`, `IndexAssign` up to its effect on the variable, `EvalFunctionBody`,
`Define`, `Undefine`, `noVar`, `functionDefn` after the header, `funcVars` and `walk`. Values are of an arbitrary type with the few operations the
evaluator asks of them (`Sem`). A built-in operator is an arbitrary program (`Act`) that may evaluate operators and expressions, look at and assign
global variables, define and delete operators, and go on after an error: that covers reductions, products, `each`, and the `ivy` operator, without a
model of each of them; the theorems hold for all such programs. Errors are results paired with the context they leave. Evaluation is bounded by fuel;
all theorems hold for every amount of it. `Ctx.peak` is a ghost variable.
Simplified: the text of messages; tracing; `maxstack` is constant during an evaluation; the array behind the stack is unbounded (new slots are nil).
`Verif/Exec/Race.lean` is a separate model of two goroutines in one context, one Go statement per step.

**Findings.** (C34) `safeUnary`/`safeBinary` look only at the name, so a user operator named like a built-in one is called by several goroutines on one
stack: frames are lost. (C35) `pop` does not clear slots and `push` exposes them again: `op g x = x == 0 : y = 5; y` gives 5 for `g 1` after `g 0`, an error before.
(C35) `walk` visits the right side of a conditional before its left side, so in `x > 0 : x = 3` the `x` that is read first is local, against the
comment at `parse/function.go:214-216`. (C38) `noOp` is never called: with `op a x b = a + b`, the assignment `x = 3` succeeds. (C39) A failed
definition leaves its entry in `Defs` (which makes `)save` and `)op` meet a missing operator), deletes a variable 0 of that name, and, when it fails
while declaring parameters, leaves them declared. (C45) An indexed assignment to a local variable without value (`op f x = x == 0 : y = 1; y[1] = x`)
calls a method of a nil interface in `whichType`.

### Syntax (C41, C42, `Verif/Syn/*.lean`)

Modelled, from tokens on: `parse/parse.go` (`expressionList`, `statementList`, `expr`, `operand`, `numberOrVector`, `number`, `index`, `indexList`,
`checkAssign`), `parse/function.go` (`functionDefn`, `funcArg`; the rest of `functionDefn` is `Exec.definition`), `ProgString` of all expressions
(`value/expr.go`), `IsCompound`, `(*Function).String` and `argProgString` (`exec/function.go`). Recursion is bounded by the number of tokens; the
bound is proved never to be met (`C42_total`). `Names` are the names that are operators; constants are of any type. `Verif/Syn/Spec.lean` is the grammar, as
inductive relations between lists of tokens and trees.
Simplified: tokens instead of characters; a token carries its value, or nothing if the number or string is malformed; an operator printed as
text becomes one token again (`Print.Scanned`); special commands and the line loop are left out.

**Findings.** (C41/C42) `IsCompound` is false of a constant with indexes, so `6 (5[1])` prints as `6 5[1]`, which is `(6 5)[1]`. A variable named like
an operator, which can be written only in parentheses, prints without them. (C41) `Complex.ProgString` prints `(1)j(2)`, a use of the operator `j`, so
the body `3 1j2` comes back as `(3 1) j 2`. An operator that is only declared prints as `op f x =`, which takes the following lines as its body.
`)save` writes `op _ f _` to declare a binary operator that is recursive or used before its definition; `functionDefn` rejects that ("multiple
arguments named _"), so no file with such an operator can be loaded. `references` looks only at plain uses: with `f` redefined after `g`, a use `f/` in `g`
is read back as a division by the variable `f`.

### Scanner (C56, C64, `Verif/Scan/*.lean`)

Modelled: all of `scan/scan.go` that makes tokens, function by function: `Next`, `lexAny`, `lexSpace`, `lexComment`, `lexOperator`, `lexIdentifier`,
`lexComplex`, `acceptNumber`, `scanNumber`, `lexQuote`, `lexRawQuote`, `isOperator`, `isNumeral`, `isAllDigits`, `digitsForBase`, `atTerminator`.
The text is a list of characters (valid UTF-8), loaded at once with carriage returns removed; package unicode is a parameter, of which
only its values on ASCII are assumed where that is needed (`Uni.Ok`). Operators known to the context are a parameter (`Ctx`). The tracing and the
goroutine-free `readOK` are left out.

**Finding (C56).** `isAllDigits` accepts a `j` without digits, so the names `j`, `j1`, `1j` and so on are scanned as numbers, which `value.Parse` refuses:
a variable `j` cannot be used (`C56_violated_name`). `isNumeral` compares with `'a' + base - 10` inclusive, so after `)base 10` the text `-a` is
"bad number syntax" (`C56_violated_sign`), after `)base 16` `-g`.
Not claimed: that text operators like `+.(` are sensible (the scanner takes any character after the period of a product).

### Saving variables (C40, `Verif/Save/*.lean`)

Model.lean: values (numbers of `Verif/Num/CModel`, characters, vectors, matrices, nested at will); `put` as written, with the quoting of strconv; `save`'s line for a variable;
`value.Parse` for texts without period or exponent in base 10; `ParseString`; the tokens of `Verif/Scan` handed to the parser of `Verif/Syn`; evaluation of literals, vectors and
`rho` (an operator of the user of that name comes first, as in `EvalBinary`). `load` is: scan a line, parse it, evaluate the right side.
Spec.lean: `mean` says what a value stands for, whatever its representation (an exact number, a character, an array of a shape); `Back` says the line read gives a value of the same
meaning. A matrix of one dimension comes back as a vector, which `mean` does not distinguish. `Setting` has the circumstances: input base 10 (which `save` sets first), `rho` known
to the scanner and the parser, and the name of the variable one that the scanner gives as a name (see C56).
Not modelled: floating-point numbers (they come back as rationals that approximate them), escapes for bytes above 127, the order of lines in the file, `)base`.

**Findings (C40).** `put` returns early for text, so inside of a vector the parenthesis it has opened is not closed: `("ab" ("cd"` cannot be read. A vector of one element is written like a
scalar and comes back as one (in a matrix with one element that is a vector, the vector is spread over the matrix). Matrices are written with `rho`, which is whatever the user has
defined it to be.

### Reading and printing numbers (C65, C66, `Verif/Lit/*.lean`)

`Verif/Lit/Model.lean` models `value.Parse` and what it calls in strconv and math/big, whose behaviour is therefore part of the model (from the
documentation and source of Go 1.22; those packages are not in the repository). The spec (`Verif/Lit/Spec.lean`) gives the value of a text by
`Nat.ofDigits` of the values of its characters, with no reference to the loops.

* **Finding (C65).** What has a point is read base 10 whatever `)ibase` is: with `)base 16`, `1.8` is 9/5 and `a.8` is an error, while `18` is
  24. `C65_violated`, `C65_violated_letter`. (`Parse` hands the text to `Rat.SetString`, which knows only the prefixes.) What is proved
  instead: in every base such a text is the exact decimal fraction (`C65_decimal`).
* The order of the three parsers matters: `1e3` is 1000 in base 10 and 483 in base 16 (`example` beside `C65_exponent`).
* C66 needs the hypothesis that no operator is named like a number: after `op a add b = a+b`, in base 16, `add` is the operator.
* Not modelled: floating-point numbers (an integer beyond `)maxdigits` is printed as one), formats other than the empty one (see C85).

### Sessions (C43, C44, C55, C90, `Verif/Sess/*.lean`)

Modelled: `parse/special.go` (`special` with every command, `nextDecimalNumber`, `nextDecimalNumber64`, `getString`, `runFromFile`, `runFromReader`,
`runUntilError` with their deferred functions and recovered errors), the line loop of `parse.go`/`run.go`, `SetBase`. A line of expressions is an
arbitrary program that looks at the settings and may run further lines (`ivy`), so the theorems hold whatever expressions do.
`get` is given a bound on the nesting of files, proved never to be met when it is 6 or more (`C44_bounded`). The counters `nest`, `peak`, `refused` are not
in the code. Simplified: output is left out; what `)save` writes and whether `)demo`, `)var x`, `)op x`, `)timezone` succeed are parameters; the demo's own
use of `runFromReader` is left out; numbers in commands are unsigned and without exponent; one goroutine.

**Findings.** (C44) `runDepth` is increased before the check and decreased by a function deferred after it, so each refusal leaves it one higher; after
nine refusals no file can be read for the rest of the process (`C44_violated`). (C43, not a violation) `)base 3 x` reports an error and sets the base;
`)prec 512 x` sets the precision but leaves pi and e as they were. `)get` restores the bases it found, so the bases a saved session sets are lost.
`)prompt` without argument shows the format.

**Settings (C55, C90).** `SaveConf.lean` has the file `)save` writes (save.go:57-130), with the lines of operators and variables as arbitrary lines that change no settings in the base they are read in; quoting is that of `Verif/Save`. The scanner is left out: decimal digits are one number token in every base
(scan.go:569-588). **Findings.** `special` (special.go:97-105, 372) sets both bases to 0 before any command and back after it, so the `)ibase` and `)obase` at the end of a saved file have no effect when it is read by `)get` (`C55_violated`); they have one when the file is run as a program (`C55_program`). `)maxstack` is not saved
(`C55_violated_stack`). `ivy -maxbits 3000000000` can be set and saved, but `)get` stops at that line, as numbers of special commands are below 2^31: no definition is read (`C55_lost`). `Reset.lean` has `mobile.Reset` (mobile.go:87-97), which "clears all state to the initial value", but leaves `)prec`, `)maxstack`, `)debug`,
`)timezone` and `runDepth` alone (`C90_violated`, `_others`, `_depth`).

### No run-time faults (C45, `Verif/Safe/*.lean`)

`Safe/Model.lean` puts the operators of `Verif/Num`, `Verif/Order` and `Verif/Arr` together on one type of nested values (`Val`: numbers, complex numbers, vectors,
matrices of any of those), gives them their names (`table1`, `table2`, `parse1`, `parse2`: reductions, scans, products, each), and instantiates the
evaluator of `Verif/Exec` with them (`ivy`); `session` runs lines. Not there: floating point (an error), the operators that need more than their operands
(`?`, `print`, `ivy`, `text`, `sys`, `mdiv`), user-defined operators inside derived ones (an error), decode and encode of complex numbers.
`Conf.guard` is not in the code: when it is set, operations that are known to fault are refused (`need`). Without it the model is the code.
`Gives P r` (`Safe/Hoare.lean`) says that `r` is a value with `P` or an error; `Ops1` to `Ops6` prove it for each operator, `Lemmas1`, `Lemmas2` for the
operators on nested values, `Lemmas3` for indexing, `Lemmas4` for the evaluator (`Goes`: also the state stays well-formed, frames are as before, and local
variables keep having values), `Lemmas5` for definitions and sessions. `Refine.lean` proves that the guarded interpreter agrees with the code up to the first
refusal.
`C45_operators_partial`, `C45_index_partial`: about the code, on operands with elements. `C45_session_partial`: guarded sessions. `C45_code_partial`: if the code
faults, there is a refusal at that line or before; without refusals the code and the guarded copy are the same. Some refusals are not needed
(`1, 2 0 rho 0` is refused though it is fine).
`SureLine` asks that no element is assigned of a local variable that may be without value; `C45_plain_lines`: it is enough that no conditional assigns.

**Findings (C45).** The sixteen expressions of `faults` in `Safe/Props.lean` each end the program (`C45_violated`), among them `up 0 2 rho 1`
(matrix.go:1043), `(iota 0) iota 2 2 rho 1` (binary.go:1181), `(iota 0) decode 1 2 rho 1` (binary.go:991-1020) and `(iota 0)[(iota 0) (iota 0)]`.
`rot 2 0 rho 1` never ends. An operator that assigns `x` in a conditional and then assigns `x[1]` ends the program (`C45_local_violated`). `decode` of a matrix of rank
one gives a matrix of rank zero, which other operators cannot handle. Not modelled here, but found: after a failed definition of a new operator
`)save` dereferences nil; printing a vector of strings of which one has several lines of unequal length can call `blanks` with a negative number.

### Printing of arrays (C59, `Verif/Print/*.lean`)

Modelled: `Vector.Sprint`, `oneLineSprint`, `multiLineSprint` (value/vector.go:109-285), `Matrix.Sprint`, `widths`, `elemStrs`, `write2d`, `higherDim`, `indent` (value/matrix.go:55-318),
`Char.Sprint`. Strings are lists of bytes, since widths are `len`. Slicing out of range and negative counts of blanks are crashes in the model, as in Go. The texts of
single numbers are a parameter; in `C59_readback` and `C59_distinct` they are those of `Verif/Lit`. Not modelled: formats (`)format`), quiet values, and that texts of
elements are made while the lines are laid out. The model's output was compared by hand with `testdata/print.ivy`.

`C59_vector`, `C59_string`, `C59_matrix`, `C59_text`, `C59_blocks` give the exact text; the spec (`table`) knows nothing of the long line that `elemStrs` cuts up. `C59_words`: for every
rank, the words of the text, without headings, are the texts of the elements. `C59_readback`: parsed in the same base they are the elements. `C59_nested_vector`, `C59_nested_matrix`: the exact
text for arrays of numbers and tables. `C59_boxes_partial`, `C59_boxes_matrix_partial`: for any elements, if their texts are rectangles and boxes of one line do not stand beside taller ones (`Regular`).

**Findings (C59, C45).** Printing `1 2 rho (2 2 rho iota 4) (1 2)` ends the program: the closing parenthesis of a one-line box makes the first line one longer than what
`multiLineSprint` records for the others (vector.go:261-276), and `elemStrs` slices beyond their ends (matrix.go:104-108). The same for `1 2 rho 1 (2 2 2 rho iota 8)` (empty
lines are skipped, vector.go:240-245), for `1 2 rho 1 ((2 2 rho iota 4) 5)` (the inner lines are trimmed, so they differ in length), and for the vector of the string "a\nbcdef" and "xy" (negative count
of blanks, vector.go:263). `C59_violated_crash*`.

**Findings (C59).** `(2 2 rho iota 4) (1 2) (2 2 rho iota 4)` is printed with its last box shifted by one column on the first line (`C59_violated_align`). Characters beyond ASCII
count as two or more columns (`C59_violated_utf8`). In arrays of rank four and more `higherDim` passes the data up to the end of the array for each part (matrix.go:285-288), so the columns of a part are
as wide as later parts need but not earlier ones, and characters lose the blanks between them if no number follows (`C59_violated_rank4`, `C59_violated_rank4_chars`).

### Functions of floating-point numbers (C67-C77, `Verif/Flt/*.lean`)

Modelled: `*big.Float` as a rational rounded to a number of bits (nearest, ties to even), with precision kept beside the value where it matters (`Fl`); `loop.done`; the functions of
value/power.go, sqrt.go, log.go, sin.go, asin.go, sinh.go, asinh.go on real arguments, step by step with every rounding. Simplified: exponents have no limit (so there are neither infinities nor
overflows), zero has no sign, the constants π and log 2 are parameters of the context (the theorems ask only for `3 ≤ π`), a division by zero (which would give an infinity or a panic) leaves the model
as a crash. Loops have fuel; the theorems are for all fuels from some number on. Not modelled here: functions of complex numbers (see C80–C83), `gamma`, formatting of results. The model was compared with
a second emulation in another language, and with values in `testdata`.

The rounding theory (`Lemmas1`) is proved from the definition: `rnd` gives a nearest number of `p` bits, is monotone, exact on numbers of `p` bits, with error at most half a unit.

**Findings.** `)prec 6` and `sin 992` never ends (`C67_violated`): at sizes where a unit in the last place is more than 4π, taking away 2π changes nothing (sin.go:154-156). `)prec` accepts such
precisions. `2 log 12` is 3, `10 log 1200` is 3: after the division by the square, `uint64Log` and `bigIntLog` divide once more without looking whether the rest is divisible (log.go:75-78, 100-103).
`C68_violated`. `sqrt x` where `x` was computed with a higher precision than the present one: `MantExp` gives `z` the precision of `x` (sqrt.go:65), the corrections have the precision of the context, so
`done` never finds two values closer than `z`'s unit: "did not converge" (`C70_violated`).

**Accuracy (C71, C72, `Lemmas8`-`Lemmas14`, `AccProps`).** The theorems are about real numbers: the functions are Mathlib's `Real.exp` etc. Units are `2 ^ -p`. The series theorems of `Lemmas8` are about any loop
that adds terms (`Adds`) and are used for all functions. For sine and cosine the constant for π is assumed right to four units of `2 ^ -p` (proved for the digits of `const.go` at 64 bits; Mathlib knows 20 digits of π).
**Findings.** `exponential` sums the series for negative arguments, too (power.go:102-126), where the terms cancel: with 256 bits, `**-92` is -1.4e-38 and `**-500` -4.1e138 (`C71_violated`, by evaluation in the kernel). `floatCos`
does not take the absolute value of its argument as `floatSin` does (sin.go:85-97), and `twoPiReduce` does nothing to negative numbers, so the series is summed at the argument itself: `cos -176` is 1.002, `cos -200` is
-322181293.48 (`C72_violated`), `cos -1000000` does not converge.
**Accuracy of inverse functions (C73-C77, `Lemmas15`-`Lemmas18`, `Consts`, `ConstLemmas`, `AccProps2`).** The theorems are for the constants of the source in every precision from 16 to 10000 bits (beyond, the program prints a
warning). Simplification: `SetString` is modelled as correct rounding of the decimal number; Go's may be off by a further unit in rare cases. The hypotheses on constants in C72 hold by `C77_constants`.
**Findings.** `floatPower` computes `exp (f log x)` for the fraction `f` of the exponent, with the series that cancels for `x < 1`: `1e-100 ** .4` is negative (`C74_violated`). `floatAsinh` adds `x` and `√(x²+1)` for negative
`x`, too: `asinh -1e50` is the error "log of non-positive value", and with 24 bits `asinh -1000` is -7.6246 instead of -7.6009 (`C76_violated`).

**Logarithms to a base (C78, `Verif/LogB`).** `10 log 250000` is `5 + log 2`: 25 is divided by 10 and rounded down (same cause as in C68).

### Times (C79, `Verif/Time/*.lean`)

Modelled: `encodeTime`, `decodeTime`, `timeVec`, `secNsec`, `timeFromValue`, `SetLocation`, `LocationAt`. Go's `time` package is trusted; it is the Gregorian calendar here, which is proved to be what
`Spec.next` generates from 1 January 1970. Zones are functions from instants to offsets. Numbers of years and seconds are not bounded by 64 bits (the theorems ask for less than `2 ^ 53` seconds).
Not modelled: files of zones (names: C99), `'T' text`, `sys 'time'` (the clock).

**Findings.** `decodeTime` compares the offset in the vector with that of the machine's own zone now, and if they agree uses the *configured* location instead (sys.go:229-236). On a machine in UTC, after
`)timezone "Asia/Tokyo"`, `'T' decode 2024 1 1 0 0 0 0` is nine hours early (`C79_violated_offset`); after `)timezone "Europe/London"` in summer, `'T' decode 'T' encode s` is an hour early for times in winter
(`C79_violated_zone`). `secNsec` computes in its argument (sys.go:288-290), which for `decodeTime` is the number in the user's vector: after `x = 'T' encode 1700000000`, the first
`'T' decode x` is right and the second is 1699999980.5 (`C79_violated_operand`).

### Numbers as objects (C80, `Verif/Cell/*.lean`)

Modelled: exact numbers, floats and complex numbers whose floats are cells of a heap, as `*big.Float` is a pointer. `complexSin` ... `complexTanh`, `expComplex` and the real functions write into the cells of
their operands (sin.go:20-97, 159-200; sinh.go:115-160; power.go:37-60); `phase` and `log` return the package's own constants `floatPiBy2` and `floatMinusPiBy2`
(complex.go:124-152, log.go:171-178); variables, `real`, `imag`, `float` and `j` pass pointers on. The reference (`Spec.lean`) has values only.

Not modelled: vectors and matrices (which share their elements likewise), infinities (they end a session as errors), the state after an error, `x ** y`, the inverse functions of complex numbers,
sizes of exact numbers beyond `)maxbits`.

**Findings.** `tan pi j 1` sets the variable `pi` to zero (`C80_violated_pi`), `** log 0j-1` is `0j-1` once and `0j1` afterwards (`C80_violated_again`, the constant itself is negated), `sin y` makes a negative
float `y` and all its copies positive (`C80_violated_variable`), and `sin x j x` reduces the imaginary part with the real one (`C80_violated_alias`).

### Functions of complex floats (C81–C83, `Verif/Cell/Lemmas4.lean`–`Lemmas9.lean`, `Props2.lean`, `Props3.lean`)

The model is that of C80; the reference is `Complex.sin`, …, `Complex.exp`, `Complex.arg`, `Complex.log` of Mathlib, and `w ^ 2 = z` with `0 ≤ w.re` for the root. The bounds of C81 and C83 are about the operand as it is
converted to floats, those of C82 about its exact value. C81 and C83 are about results, if there are any.

**Findings.** C81: with 256 bits, the real part of `** 0j-200` is below -300000000; with 24 bits, `cosh 0j-19` is more than one. C83: with 64 bits, the imaginary part of `sqrt 3j1e-10` is zero (`sqrt.go:36` subtracts the real part
from the absolute value).

Powers (C84, `Verif/Cell/Power.lean`, `PowerLemmas.lean`, `PowerProps.lean`): `power`, `complexPower`, `complexIntegerPower`, `inverse` (power.go:13-24, 144-180, complex.go:108-116), on the same heap. **Findings.** A real power with a float as operand makes a float of the other one too
(`binaryArithType`), so `complexPower` never sees a whole exponent for a negative float: with 64 bits, `(float -3/2) ** 3` is not real. `0j-1 ** 101/2` takes the cosine of about -79 and has a real part beyond 1000.

**Inverse tangents (C91).** `Verif/Cell/Inverse.lean` has `atan` and `atanh` (asin.go:41-49, 204-210, asinh.go:34-45, 102-111), and `asin`, `acos`, `asinh`, `acosh` of complex numbers. The quotient `(i-v)/(i+v)` of exact numbers is exact, so that the error is that of the logarithm of C82 and of one product.
**Finding.** If `v` is tiny the quotient is near one and the absolute value is rounded to one: with 64 bits `atan` of `1e-30 + 1e-30 i` has the imaginary part zero (`C91_violated`), and as the result is not shrunk it is a complex number that is real.
Not proved: anything about `atan` and `atanh` of complex floats.

**mdiv (C94).** `mdiv` (binary.go:377-401) of matrices is the inner product with the inverse, so it refuses what `inv` refuses (C48). **Finding.** `1 2 mdiv 2 2 rho 0 1 1 0` is the error "inverse of non-invertible matrix", although `2 1` is the solution (`C94_violated`). `Solves` in `MdivProps.lean` states the
equations column by column for a right side of any rank. `mdiv` is not among the operators of `Verif/Safe`.

**Shared numbers of iota (C95).** `Verif/Iota/Model.lean` runs `constIota` and `growIota` (index.go:401-439) in small steps: taking and releasing the lock, testing the length, making the array, setting one element, publishing. `C95_total` says
that in a state where nobody can take a step every call has returned its numbers; `C95_ends` that such a state is reached by every scheduler, after `origin + n + 43` steps for each call at most. `C95_alone` is the absence of races, which justifies that the steps are taken in one order.
The lock is that of `sync.RWMutex`: a waiting writer keeps new readers out. Origins are not negative (`)origin` checks it).

**HTML (C96).** `escaper` (mobile.go:43) character by character. The specification (`Verif/Sess/HtmlSpec.lean`) is what the comment there says of the application (it handles `<` and `>`) and of HTML (runs of spaces are collapsed), with four character references. **Findings.** A tab is replaced by four ordinary spaces,
which are not replaced again and are collapsed; `&` is not replaced, so that the output `&lt;` looks like `<`.

**sys (C97).** `sys` (sys.go:54-85) with its two tables of verbs, and `sysRead` (sys.go:149-177). What the settings give is a parameter (times: C79). Files are texts that are read as a whole; invalid UTF-8 and errors while reading are not modelled. **Finding.** `sys "read" "f"` is the usage error: a string of one character is a
`Char` (parse.go:510), and `sysRead` asks for a vector.

**Demonstrations (C98).** `Next` (mobile.go:75-85) around a scanner whose buffer of 65536 bytes a line has to leave room in, as in the source of package bufio. `Eval` is any function of the session and the line. **Finding.** A longer line gives the error "token too long", and so does every later call: the rest of the text is not shown.
Since each line is evaluated by a parser of its own, definitions of several lines do not work in a demonstration; that is not part of the model.

**Time zones (C99).** `loadLocation` (config.go:454-480) with the files of the system (`time.LoadLocation`, `filepath.Glob`) as parameters. **Finding.** To "allow us to say "paris" as well as "Paris"" the first letter of `zone` is made a capital, but the search uses `stdZone` (config.go:463-468): `)timezone "paris"` is refused
where file names distinguish letters, and so is `)timezone "chicago"`, since the table has `Chicago` and is asked for `CHICAGO`.

**Several variables (C100).** `Assign` (assign.go:26-60) for left sides of global and local variables; `Ctx.has` says that a local variable lies within the stack, as it does in a running operator. **Finding.** The elements are assigned from right to left and the parts are checked on the way, so `((b c) a) = 1 2` changes `a` and is an error then (`C100_violated`, for any evaluator in which the value is a vector of two parts, the first of them no vector).

**Shared blanks (C101).** `Verif/Blanks/Model.lean` runs `blanks` (vector.go:287-311) in small steps, with the lock as `sync.RWMutex` has it: who wants to write keeps other writers and new readers out from then on, and waits for the readers that have the lock. `C101_total` gives the
results of all calls in a state where nobody can take a step, and `C101_ends` says that such a state is reached after ten steps for each call at most. Go lets all waiting readers in before the next writer; the model allows any order, so it has more executions. Left out: negative lengths. There the slice expression
is a run-time fault (C59), with the lock held, but `run.Run` passes such faults on and the program ends.

**Printing of a line (C102).** `printValues` (run.go:131-163) and the assignment of `_` (run.go:87-89); how a value is printed is a parameter (C59). **Findings.** (1) `_` becomes the last value of the line if any value of the line was printed. After `3; x = 4` it is 4, against doc.go:58-61,
and it is a `QuietValue`, so that the line `_` prints nothing (`C102_underscore_violated`). (2) The blank between two values is left out if the text of the second one ends with a newline; the test was meant for the first one. `1; "2\n"` prints `12`, and `"2\n"; 1` has a blank at the beginning
of the second line (`C102_violated`). `C102_all` says what is printed in all cases. Files (`)get`, special.go:436-453) print each value on a line of its own and set `_` rightly (`C102_file`).

**The operator ivy (C103).** `eval` (run.go:104-129) keeps the values of a line until the next one has been evaluated. **Findings.** (1) A last line without values (a blank line, a comment with its newline, a definition, a command) counts as the last evaluation: `ivy "3\n\n"` prints 3 and gives an empty
vector (`C103_result_violated`). (2) What a line prints itself comes before the values of the line before it: `ivy "1\nprint 2\n3"` prints 2, then 1 (`C103_order_violated`).

**Quiet values (C104).** The models of C45 and the evaluator take `QuietValue` away; `Verif/Exec/QuietModel.lean` has it, for a small part of the language. **Finding.** `UnaryExpr.Eval` and `assign` unwrap their operand, but `VectorExpr.Eval` (expr.go:83-93) does not unwrap the elements, and `whichType` (eval.go:86)
hides the difference from `EvalUnary`. So `-(x = 3) 4` selects the function for `Int`, whose assertion `v.(Int)` fails; this is not a `value.Error`, and the program ends (`C104_violated`). The same goes for `- print@ 1 2`, as `print` gives quiet values and `Each` (eval.go:626-646) collects them (`C104_each_violated`). The vector may be kept in a variable (`C104_later_violated`), and by C102 the variable `_` can be quiet: `3; x = 4`,
then `-_ 1` (`C104_underscore_violated`). Binary operators convert their operands first (`toType`), which unwraps them; but `eachValue` (eval.go:556) takes a quiet left operand for a single value, so `(x = 1 2) @+ 3` is a vector of one vector (`C104_left_violated`). `C45_session_partial` is about evaluation without this type.

**Characters (C54).** `char` (unary.go:1166-1171) converts an `Int` of 64 bits to a `rune` of 32 bits before `validate` (char.go:60-65) looks at it. Integers are meant to be kept as `Int` only if they fit into 32 bits, but unary `-`, `idiv` and the bit operators
do not see to that (C09). **Finding.** `char 64 | - 2147483647 | - -2147483647 - 1` is `A`, although the operand is -4294967231 (`C54_violated`). `Alike` in `CharProps.lean` says what corresponding leaves are; `C54_char_partial` and `C54_code` are equivalences, so they say too when the operators fail.

**Parts (C93).** The model is that of C45 (`Verif/Safe`). `At` goes down a value along a list of positions; `AllLeaves` is the sorted list of all such lists that end at a scalar. The iterator of `flatten` (eval.go:1033-1062) is a list; its offsets, which `NewVectorSeq` does not look at, are left out.

**Inverse sines and cosines (C92).** `asin`, `acos`, `asinh`, `acosh` (asin.go:11-39, 188-202, asinh.go:11-32, 85-101) are `log (√(u² ± 1) + u)` with `u = v` or `u = iv`. **Findings.** If the real part of `u` is negative, root and `u` cancel: with 64 bits `asin -1e20` is the error "log of non-positive value". `acosh` of a number with a
negative real part is the negative of the principal value, up to the sign of the imaginary part: `acosh -2` is `-1.317j3.142` (`C92_violated_acosh`). In the other half plane the result, if there is one, is near the principal value (`C92_*_partial`). The bound is `14 √ε`, as the square root of C83 loses half of the bits of its smaller part.

### Numbers in floating-point formats (C85-C87, C89, `Verif/Shown/*.lean`)

Modelled: what `SetFormat` makes of a format (config.go:122-150), and `floatString` of `Int`, `BigInt` and `BigRat` with `eFormat`, `eExponent`, `ratExponent`, `ratScale`, `trimEZeros` (int.go:37-145, bigint.go:44-187, bigrat.go:45-164).
`(*big.Rat).FloatString` and `strconv`/`fmt` for decimal integers are modelled as their source in the Go library computes them. The specification (`Spec.lean`) says what a decimal number is and stands for (`Decimal`), where the last
place is that a format asks for (`unit`), and what rounding to it is (`Rounded`; `Near` is an error of less than one unit). Slices out of bounds are crashes.

**Findings.** (1) With `%e`, and with `%g` for numbers that need an exponent, digits are cut off and not rounded: 19 is `1e+01` with `%.0e`. Fractions are first rounded to one digit more and then cut off. (2) A fraction that rounds up to the next
power of ten has its point in the wrong place: `99999999/10000000` is `1.0.e+00` with `%.2e`. (3) `ratExponent` is one too small for the powers of a billion below one (the loop for billions counts one step more than that for tens):
`1/1000000000` is `1e-10` with `%.0e`, ten times too small, and `1.0.e-10` with `%.2e`. (4) `%.0g` crashes with a slice out of bounds for all integers and for many fractions. (5) `Int` does not cut off zeros with `%g` where `BigInt` does:
1000000 is `1.00000e+06` but 10000000000 is `1e+10`. (6) The width and the flags of a format are ignored, `%.f` has six decimals, and every format that ends in one of the letters `eEfFgG`, such as `%d apple`, is taken for a
floating-point format (`C85_formats`). (7) The comment of `ratScale` says that it multiplies; it divides.

The text of floats (C86, `Text.lean`, `TextLemmas.lean`, `TextProps.lean`): `BigFloat.Sprint` (bigfloat.go:36-50, 120) calls `(*big.Float).Text` of the Go library, which is modelled from its source (decimal.go, ftoa.go of `math/big`): exact
decimal conversion, rounding with halves to even, writing the digits. A decimal is kept as a number and a power of ten. **Finding.** `Text` does not know the verb `F`, which `SetFormat` accepts: with `)format "%.2F"` every float is printed as `%F`.

Saved floats (C87, `SaveProps.lean`): `put` (save.go:171-182) writes a float with `%.*g` and ⌊p·0.301029995664⌋+1 digits for p bits. **Finding.** These are the digits a decimal needs to survive a float, not those a float needs
to survive a decimal: at 256 bits 1000+4/2^246 and 1000+5/2^246 are saved as the same text. **Finding.** What is read is moreover an exact rational, never a float: after `x = sqrt 2`, `)save` and `)get`, `x` is a fraction and prints as one.

Huge floats (C89, `Huge.lean`, `HugeLemmas.lean`, `HugeLemmas2.lean`, `HugeProps.lean`, `HugeProps2.lean`): beyond the binary exponent 10000 `Sprint` (bigfloat.go:59-118) splits exponent·log 2/log 10 into an integer, which is shown, and a fraction, whose power of ten is
computed with the exponential series and multiplied into the mantissa. Proved is a bound of the error for all of these steps, that the loop which removes leading zeros ends after two steps, and that the branch for small exponents (lines 89-99) is never taken.
**Findings.** With `)format "%.1g"`, 255·2^10074 is printed as `1e+01e+3034`; with `%.2f`, 2^20000 as `4e+6020`; with `)prec 40` the error grows with the exponent and only seven of the twelve digits shown of 2^20000 are right.

Not modelled: infinities.

### Constants and contexts (C88, `Verif/Ctx/{Model,Props}.lean`)

The precision belongs to a context, but the constants (`floatPi`, `floatLog2`, …) are variables of package `value`. `Consts` (const.go:88-121) assigns them; it is called when a context is made, and after every special command that ends without error (parse.go:161-164).
The model runs histories: contexts are made, and each runs lines; a line may read a file of lines, which may read files. Of special commands only their effect on the precision is modelled, of other lines only assignments of variables.

**Findings.** (1) Two contexts of one program with different precisions (the package is a library, cf. `mobile`) use the constants of whichever ran a special command last: `C88_violated`. (2) `)prec 1000 x` is reported as an error, but the precision is then
1000 and the constants still have the old one: `C88_violated_error`. (3) After `e = 5`, `)origin 0` (or any special command, even `)help`) makes `e` 2.718… again: `C88_violated_variable`. (4) So a user's `e` or `pi` does not survive `)save` and `)get`: `C88_violated_saved`.

### Shapes (C33, `Verif/Shape/*.lean`)

Modelled: arrays, slices, `append`, and every place in `value` that makes the shape of a matrix out of others (list at `Op`). What the operations do
with data is left out, so the theorems hold for any numbers in fresh shapes and for any room Go's `append` leaves. Vectors and refused results are kept
as if they had a shape, which allows more histories than the code. The reference is a list of shapes that only grows (`Spec.lean`).

**Findings.** (C33) `append(u.Shape(), v.Shape()...)` (`eval.go:316`) and `append(m.shape, shape...)` (`matrix.go:1032`) write into the array of the left
operand if it has room. A reduction has, its shape being `shape[:k]`: after `m = 2 3 4 rho iota 24`, `(+/m) o.* 1 2` makes the shape of `m` 2 3 2 with 24
elements (`C33_violated`). An outer product itself may have; then two outer products with it as left operand share an array (`C33_violated_twice`).

## Axioms of each theorem

From `#print axioms` for every theorem of `MANIFEST.json` (554 theorems; the prefix `Verif.` is left out).

* None: `Exec.Quiet.C104_neg`, `Sess.Out.C102_violated`.
* Only `propext`: `Arr.C24_rot_hangs`, `Arr.C24_vec_violated`, `Arr.C32_part_refused`, `Arr.C32_sel_refused`, `Arr.C32_zeros`, `Arr.C48_vector_one_refused`, `Arr.C61_where_number`, `Arr.C62_mix_split_violated`, `Arr.C62_ones_violated`, `Arr.C62_order_violated`, `Arr.C62_split_refused`, `Exec.C100_violated`, `Exec.C34_violated`, `Exec.C36_refused_binary`, `Exec.C36_refused_unary`, `Exec.C38_define_partial`, `Exec.C38_disjoint_partial`, `Exec.C38_violated`, `Exec.C39_violated`, `Exec.C39_violated_declared`, `Exec.Quiet.C104_each_violated`, `Exec.Quiet.C104_left`, `Exec.Quiet.C104_partial`, `Exec.Quiet.C104_underscore_violated`, `Flt.C68_violated_big`, `Sess.C90_violated`, `Sess.C90_violated_others`, `Sess.C96_partial`, `Sess.Out.C102_all`, `Sess.Out.C102_file`, `Sess.Out.C102_partial`, `Sess.Out.C102_same`, `Sess.Out.C102_types`, `Sess.Out.C102_underscore_violated`, `Sess.Out.C103_one`, `Sess.Out.C103_order_violated`, `Sess.Out.C103_result`, `Sess.Out.C103_result_violated`, `Sess.Sys.C97_unique`, `Shape.C33_violated_twice`.
* Only `propext` and `Quot.sound`: `Arr.C23_rho_refused`, `Arr.C23_rho_vec`, `Arr.C24_no_columns_violated`, `Arr.C25_no_columns_violated`, `Arr.C26_take_drop_vec`, `Arr.C26_take_vec`, `Arr.C27_no_columns_violated`, `Arr.C27_violated`, `Arr.C28_missing_violated`, `Arr.C29_violated`, `Arr.C30_empty_violated`, `Arr.C32_part_matrix_violated`, `Arr.C32_sel_no_rows_violated`, `Arr.C48_shapes`, `Arr.C52_column_violated`, `Arr.C52_violated`, `Arr.C53_empty_violated`, `Arr.C53_violated`, `Arr.C60_violated`, `Arr.C61_where_refused`, `Arr.C62_lost_violated`, `Arr.C62_violated`, `Exec.C34_binary_partial`, `Exec.C34_expr_partial`, `Exec.C34_scoped`, `Exec.C34_unary_partial`, `Exec.C35_definite_partial`, `Exec.C35_violated`, `Exec.C36_accepted`, `Exec.C36_bound`, `Exec.C36_unwinds`, `Exec.C37_defs`, `Exec.C39_failed_partial`, `Exec.Quiet.C104_later_violated`, `Exec.Quiet.C104_left_violated`, `Exec.Quiet.C104_violated`, `Flt.C68_violated`, `Fmt.C46_date_violated`, `Fmt.C46_text_violated`, `Fmt.C58_bool`, `Fmt.C58_matrix`, `Fmt.C58_nested_violated`, `Fmt.C58_not_string`, `Fmt.C58_rune`, `Fmt.C58_vector`, `Lit.C66_prints`, `Order.C18_violated`, `Order.C19_violated`, `Par.C05_exact_cover`, `Par.C06_pointwise`, `Par.C07_repeated_indexes_race`, `Print.C59_string`, `Print.C59_text`, `Print.C59_vector`, `Rand.C47_seeds`, `Rand.C63_roll_big`, `Rand.C63_roll_partial`, `Safe.C45_plain_lines`, `Sess.C96_distinct`, `Sess.Out.C103_partial`, `Sess.Sys.C98_partial`, `Sess.Sys.C98_violated`, `Shape.C33_violated`, `Time.C79_carry`.
* `propext`, `Classical.choice` and `Quot.sound`: the other 448 theorems.

## Trusted base

* The Lean 4 kernel. Axioms allowed: `propext`, `Classical.choice`, `Quot.sound`. No others, no `sorry`.
* The transcription from Go to Lean, done by reading; each definition cites its source lines.
* Go's own semantics and standard library (`math/big`, `sort`, `slices`, `sync/atomic`, `fmt`, `strconv`).
* Not modelled: inverse trigonometric and hyperbolic functions of complex floating-point numbers, `config` output
  package demo, help text, mobile wrapper but `Reset`, `escaper` and `Next`, file system (files are texts by name in C44, C55 and C97).
