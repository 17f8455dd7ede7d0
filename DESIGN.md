# Formal model of MatrixLibs in Lean 4 — design

Source under study: `/repo` (header-only C++11 templates, `matrix/*.hpp`, plus `bench/`).
Nothing in `/repo` was built or run; the model was written by reading it.

## 1. Shape of the model

* **Outcomes.** `Res α = Except Stop α`. A C++ call either returns a value or stops with
  `Stop.throws e` (a C++ exception leaves the call), `Stop.terminates` (`std::terminate`),
  `Stop.ub k` (undefined behaviour of kind `k`: out of bounds, uninitialised read, signed
  overflow, division by zero, value outside the function's domain), `Stop.illFormed` (the
  instantiation does not compile) or `Stop.diverges` (loop fuel used up; proved unreachable).
* **Matrices.** `Mat T r c = Matrix (Fin r) (Fin c) T`, the value of
  `std::array<std::array<T,c>,r>`. All run-time element accesses go through `rd`/`wr`, which take
  unrestricted naturals and give `Stop.ub .outOfBounds` outside the array.
* **Loops.** `for (i = lo; i < hi; i++)` is `forUp lo hi`, a structural recursion threading the
  mutated locals; loops with an early `return` are `forRet`. `while` in `det` and the recursion
  of `pow` take fuel and give `Stop.diverges` when it runs out.
* **Scalars.** The element type `T` is any `CScalar T`: a record of `+ - * / == < abs sqrt`, unary
  minus, conversion from `int` literals and `T / size_t`, each allowed to stop. Instances:
  unsigned `w`-bit integers (`BitVec w`, wrapping), signed `w`-bit integers (`SInt w`, overflow is
  UB), exact rationals `ℚ`, reals `ℝ`, any field, an IEEE-style float. Theorems that need no
  arithmetic laws are proved for every `CScalar`, so they hold bit for bit for floats. Theorems
  that need laws assume `ExactRing`/`ExactField`/... ("the operation returns the mathematical
  result"), or take a `RingSem` (an interpretation of `T` in a ring with "returns the exact result
  or stops with a listed fault"), which covers signed integers.
* **size_t.** Index arithmetic that can wrap in the source (`it-1` in `conv2*`) is modelled modulo
  2^64 with the conversion to `int` modulo 2^32. Elsewhere loop counters are naturals; they are
  bounded by template parameters, so they cannot wrap.

## 2. Trusted base

* Lean's kernel; axioms at most `propext`, `Classical.choice`, `Quot.sound`. `Verif/Axioms.lean`
  checks this at build time for every property theorem (the build fails otherwise). No axiom,
  `sorry`, `native_decide` or `bv_decide` is used.
* Mathlib definitions used in specifications: `Matrix`, `Matrix.det`, matrix product/transpose/
  inverse/power, finite sums, `Real`, `Real.sqrt`, `List.Perm`, `List.Pairwise`.
* My reading of the C++ and of these library contracts: `std::array` (indexing, `fill`, `==`),
  `std::swap`, `std::map` (`operator[]`, ordered iteration) as a key-sorted association list,
  `std::sort` as an arbitrary function returning a sorted permutation (for both, elements that `<`
  does not order strictly weakly, e.g. with NaNs, are undefined behaviour), `std::abs`, `sqrt`,
  `std::cout` as an append-only character list, the random engine as an arbitrary draw sequence.
* Overload resolution is modelled for `concatenate`, `det`, `inv`, the binary operators, `sum`, `sub`,
  `mult` and `div`; that the names are visible (the operators are not found by argument-dependent lookup,
  since a matrix is a `std::array`) is assumed.
* Floating point (`Model/Float.lean`): IEEE 754 binary formats of any precision `p >= 2` and
  `emax >= p` (`float` and `double` are instances), round to nearest even, subnormals, signed zeros,
  infinities, one NaN. Assumed of the platform: operations are evaluated in the element type
  (`FLT_EVAL_METHOD` 0, no contraction to fused multiply-add, no `-ffast-math`), `sqrt` is correctly
  rounded, the rounding mode is the default (other modes: `Model/Mode.lean`, C149, under the assumption that the compiler
  honours them and that the mode does not change during a call). (C142 proves that evaluating each `float` operation, or `sqrt` only,
  in `double` and rounding the result gives the same, C143 which claims survive contraction.) The operations are proved correctly rounded against a
  separate specification over the reals (`Spec/Float.lean`); besides, they were compared with the
  machine's doubles on thousands of random operands including subnormals (a validation of the
  reading of the standard, not part of any proof).
* `Verif/Test/Repo.lean` evaluates the assertions of the repository's own unit tests (`tst/*/*.cpp`)
  on the model, in the kernel. They all come out as the authors assert. These are tests of the
  model's fidelity and are not counted as proofs.

Modelled, function by function (`Verif/Model`, each definition cites its lines): every function
template of `matrix/*.hpp` (fill, zeros, ones, eye, trans, swap_rows, swap_cols, concatenate,
concatenateV, concatenateH, getminor, sum, sub, mult, div, abs, strassen and the operators, det, inv,
lu, isSymetric, chol, pow, conv2, conv2_full, conv2_valid, isOutOfRange, histogram,
cumulative_histogram, mean, median, var, stddev, isIdentity, compare, print) and, of `bench/`, setRand
and the benchmarks. `Verif/Model/Format.lean` models what `std::cout << num` writes for the integer,
character and floating point types (stream in its initial state, locale `"C"`).

`Verif/Model/Narrow.lean` models the arithmetic functions again for element types narrower than `int`,
with promotion (`load`) and conversion back (`store`) explicit; `Verif/Proof/NarrowId.lean` proves that
with identity conversions these are the functions above. (Functions that only move or print elements are
modelled for every type.) For these types `inv` with n <= 3 is ill-formed (narrowing in braces).
`Verif/Model/Bool.lean` instantiates these functions for `bool`, which is promoted to `int` too but stored without wrapping.

`Verif/Model/Complex.lean` models `std::complex` elements: which functions compile for them, exact complex
arithmetic, and pairs of floating point numbers, where the product is the textbook formula unless that gives NaN in
both parts (the result is then not finite, otherwise left open).

`Verif/Model/FloatConv.lean` models conversions between floating point formats and operations carried out in another
format.

`Verif/Model/Contract.lean` models contraction to fused multiply-adds. The choice is a function of the expression, so that
the same expression is contracted alike wherever it occurs: if a compiler treats the two loops of `lu` differently, the
diagonal of `L` need not be 1, which is outside the model.

`Verif/Model/Alloc.lean` models `median`, `histogram` and `cumulative_histogram` again with dynamic memory. Assumed of the
library: a `std::vector` requests one block when its capacity has to grow, a `std::map` one block per entry and nothing
else, moving or returning a map and `std::sort` request nothing, `reserve` does not exceed `max_size()`.

`Verif/Model/Stream.lean` models `print` with any `print_num` and `print_endl` (the empty ones without
`PRINT_IOSTREAM_ENABLE` among them), and `std::cout` in any state with a device that may fail.

`Verif/Model/Env.lean` models floating point environments in which subnormal numbers are flushed to zero. Of `-ffast-math` only
this start-up effect is modelled there; its licence to assume finite values and to use reciprocals is not.

`Verif/Model/Reorder.lean` models the sums of `mult`, `conv2`, `conv2_full` and `mean` evaluated in any order, as builds with
reassociation or vectorised reductions do. Products are not regrouped and sums not factored; the sums of `det`, `inv`, `lu`, `chol`,
`var` and `strassen` keep their order.

`Verif/Model/Count.lean` models the functions that compute again with counters of the operations on elements. Comparisons,
conversions of integers, copies and operations on indices are not counted.

`Verif/Model/Type.lean` models brace initialisers of `Matrix` and its `<`.

`Verif/Model/Include.lean` models translation units made of includes: guards, macros and the names that each definition
looks up. A definition is represented by the names it uses; overloads are distinguished only where the caller can mean just
one, `std::size_t` counts as declared everywhere, and overloads of `std::abs` are not told apart. `Verif/Model/Lookup.lean`
models lookup by scopes and by argument types, and linkage.

Not modelled: rounding of floats in the exact-arithmetic theorems (each says so), quotients, roots and moduli of floating point `std::complex` numbers (arbitrary functions
in the model), compile-time object size limits, stack
exhaustion, speed, the build system, `internal` adjustment of numbers in streams, the sign and
payload of NaNs, handlers of trapped floating point exceptions.

## 3. Layout

`Verif/Model/*` model, one file per group of headers; every definition cites file:lines.
`Verif/Spec/*` small specifications independent of the model.
`Verif/Proof/*` helper lemmas. `Verif/Props/*` the property theorems (`Cnn_...`) and their
non-vacuity examples. `Verif/Test/*` the repository's unit tests on the model.
`Verif/Axioms.lean` (generated) the axiom check. `MANIFEST.json` maps properties to theorems;
`seeded/LOG.jsonl` records the seeded bugs: `theorems_failed` are the declarations at which the build
reported an error (a build stops at the modules that fail, so later modules are not tried), and
`property_theorems_depending_on_them` is computed from the dependencies of the unedited proofs. An
error shows that the proof no longer goes through, not by itself that the statement is false.
Lines with `kind` edit a specification or a statement instead of the program. `tools/` generates `properties.jsonl`, `MANIFEST.json`,
`Verif.lean` and `Verif/Axioms.lean`.

A property that turned out to be false of the code has status `partial`: its claim is a `def
Cnn_claim` (or is stated in the theorem), `Cnn_false` refutes it with a concrete witness, and the
`_partial` theorems give the part that holds or the exact behaviour.

## 4. Properties: plan

| ids | modelled | proof idea |
|---|---|---|
| C01–C03, C05–C06, C08–C10, C12 | data movement, for all `T` | loop invariant "cells before the cursor are done, the others untouched" |
| C07, C13 | same, out-of-range indices | direct evaluation of the first faulty access |
| C11, C62 | overload sets as shape patterns, partial ordering by pattern matching | case analysis |
| C04, C16, C18, C19, C29, C32, C44, C50 | exact arithmetic | corollaries of "function = Mathlib operation" |
| C14, C15, C20, C22–C24 | elementwise / dot product with faulting scalars | loop invariant + first failing element |
| C21, C25 | closed formulas | `ring`/`noncomm_ring` under a `RingSem` |
| C26, C27 | `detN` with its `while` | invariant det(A0) = factor * det(A) and zero pattern; singular phase keeps a zero on the diagonal |
| C28, C31, C47, C51, C56, C10, C42, C60 | the documented claim is false of the code | negation with witness + the true part as `_partial` |
| C30 | cofactor inverse | `getminor` = `submatrix succAbove`, Mathlib adjugate |
| C33–C35 | Doolittle loop | invariant: finished columns satisfy L*U = A; minors = products of pivots |
| C37–C39 | Cholesky | row invariant; positivity of the pivot from a test vector |
| C40–C42 | predicates | loop invariant for early return |
| C43–C45 | fuelled recursion | strong induction on the exponent |
| C46, C48, C49 | modular index arithmetic | cell formula, then case analysis on the border |
| C52–C54 | sorted association list | invariant lookup = count so far |
| C55–C58 | folds | sums over `Fin i × Fin j`; `std::sort` contract |
| C59 | character output | append lemma, parse by splitting |
| C60, C61 | bench loops with optional (uninitialised) cells | loop invariant / witness |
| C63 | every function, faults restricted to arithmetic ones | `RingSem` into the trivial ring, plus per-function lemmas |
| C64 | every function on floats | the safety lemmas of C63 with no stop allowed |
| C65 | float operations | rounding lemma: the computed magnitude is a nearest number, even on ties |
| C66, C67, C73, C77 | sums of rounded terms | `fsum_err`: relative error of a left-to-right sum, by induction |
| C68 | float operations | finite results come from finite operands, threaded through the loops |
| C69 | integer-valued floats | partial sums stay representable, so no rounding happens |
| C70 | `compare` with `int` converted to `float` | exact characterisation, then the 2^24 threshold; witness above |
| C71, C72 | sums of squares, unit vectors | sign / exactness invariants of the loops |
| C74, C75 | lu and chol on floats | cell recurrences of the finished factors, then the residual of each cell from the sum bound |
| C76 | general det on floats | false: 4x4 witness evaluated by the kernel; triangular case by tracking |
| C78 | integer elementwise operations | elementwise lemma + value of each checked operation |
| C79 | benchmark bodies over arbitrary draws | C61, C64, C20, strassen definedness |
| C80 | histogram, median on floats | the order of the format maps NaN-free floats into `ℚ`; histograms commute with it; rounding is monotone |
| C81 | mean, var, stddev, median on integers | folds modulo 2^w; running sums of squares are monotone; rounding to double is monotone |
| C82 | inv on integers | the formulas evaluated in ℤ through `RingSem.signed`, then `tdiv`; units of ℤ |
| C83 | lu on integers | loop invariant `IsTruncLu` (Doolittle recurrence with `tdiv`), uniqueness by induction on columns |
| C84 | chol on integers | loop invariant over cells (`TruncCholCell`), square roots below 2^52 exact through double, uniqueness in row-major order |
| C85 | var, stddev on floats | error of each squared difference, of their sum, and the decomposition of squares about the mean; square roots |
| C86 | inv on floats, n <= 3 | tracked numerators and determinant (C73), then the error of a quotient |
| C87 | Strassen on floats | running error bounds (`Tracks`) through the seven products |
| C88–C90 | elementwise functions, products, quotients of narrow integers (`Model/Narrow`: promotion and conversion back explicit) | bounds on `int` expressions (`Bnd`), congruences modulo 2^w |
| C91 | det, n <= 3, narrow integers | as C88; `Matrix.det_fin_two`, `det_fin_three` |
| C92 | conv2 family, narrow integers | as C46 with congruences |
| C93–C95 | statistics and compare, narrow integers | folds modulo 2^w; sorted lists; exactness of small integers in float |
| C96 | det, n >= 4, and inv, narrow integers | memory safety and bounds through the elimination; congruences for triangular matrices |
| C97–C98 | lu, chol, narrow integers | the recurrences as specifications (`Spec/NarrowFactor`), uniqueness, agreement with C83, C84 where everything fits |
| C99 | pow, narrow integers, n >= 4 | repeated squaring modulo 2^w |
| C100 | pow with an exponent narrower than int (`powNarrow`) | reduction to the int exponent; the smallest exponent separately (finding) |
| C101 | general det on floats | textbook elimination as specification (`Spec/FloatElim`); the code refines it; errors of each step pushed back through the exact row operations |
| C102 | the overload sets of the operators, element types taking part in the deduction (`Model/Operators`) | viability characterised per candidate; a type is never a matrix of itself, so no two are viable |
| C103 | arithmetic on floats that hold integers | simulation (`Proof/Sim`): the float computation follows the integer one step by step while that one is defined |
| C104 | arithmetic on two signed types | the same simulation, with division, comparisons and square roots |
| C105 | arithmetic on signed and unsigned, or wide and narrow unsigned types | the same simulation for ring operations (`Proof/SimHom`) |
| C106 | elementwise functions and products against trans, swaps, minors, concatenations | cell characterisations of each function, for an arbitrary element type |
| C107 | `lu` and `chol` on a matrix and on its leading block | the loops on the block are the image of the first part of the loops on the matrix, and the rest does not touch the block |
| C108 | the histograms of `Model/Narrow`, with keys compared after promotion | promoted comparison is a linear order on the values, so the counting theorems of C52-C54 apply |
| C109 | every function of `Model/Narrow` | the safety calculus of C63 with the promoted operations; for 8 bits the totality theorems of C88-C99 together |
| C110 | `pow` on floats | induction over repeated squaring; the exponents of the error factor satisfy e(2q) = 2e(q)+n, e(2q+1) = 2e(q)+2n, so e(p) = n(p-1) |
| C111 | `inv` on floats, n >= 4 | the loops as a cell formula in the computed determinants, then the quotient bound of C86 |
| C112 | `print` with `fmtInt` (`Model/Format`), read by the words and integers of `Spec/Read` | digits by induction; words of the rendered matrix by induction over rows |
| C113 | `print` with `fmtNInt` for 8-bit types | positions in the output by induction over rows; refutation by concrete matrices |
| C114 | `print` with `fmtFl` (conversion `%g`, precision 6), read by the decimal numbers of `Spec/Read` | the six digits are a nearest multiple of a power of ten; placing point and exponent does not change the value |
| C115 | the operators of `Model/Narrow` on `bool` (`Model/Bool`: promotion to 0 or 1, every nonzero value stored as true) | each operation on the four pairs of bools, then cell by cell |
| C116 | `mult` and `pow` on `bool` | the accumulation loop computes an existential; walks are composed along repeated squaring; reachability by shortening walks |
| C117 | `det` on `bool` | for n >= 4 the stored operations are those of the field with two elements, so the field theorem applies; for n <= 3 the formula |
| C118 | `inv` on `bool`, n >= 4 | cofactors through C117: for n >= 5 the minors are reduced modulo 2, for n = 4 they are not, which refutes the claim there |
| C119 | convolutions on `bool` | the cell formulas of C92 for an arbitrary promoted type |
| C120 | statistics, `compare` and `print` on `bool` | folds over the elements; the order theorems of C52-C54 and C57 for `false < true` |
| C121 | `lu`, `chol`, `isSymetric`, `strassen` on `bool` | loop invariants with the recurrences of `Spec/BoolFactor` |
| C122 | all functions on `bool` | the totality theorems of C115-C121 together |
| C123 | `mult`, `trans`, `sum`, `pow`, `isSymetric` | the two cells run the same operations with the factors exchanged; for floats multiplication commutes bit for bit |
| C124 | `mean`, `var` on floats | false (three times 12219326 has mean 12219325); monotonicity of rounding gives monotonicity, and the range where the multiples of the bounds are exact |
| C125 | elementwise functions, `mult`, `pow`, convolutions on floats | rounding is monotone (`Rounded.le_of_le`), then folds |
| C126 | `det`, `inv` on floats, n >= 4 | the backward error of C101, and the perturbation of each of the n! products of the determinant; then C111 |
| C127 | all functions on floats | two runs side by side (`BothDo`), whose variables are the same or opposite up to the sign of zeros; rounding is symmetric |
| C128 | `chol` on floats | induction over rows and elements: the residuals found so far bound the norm of the row by an energy argument (`energy`), so nothing overflows and the next pivot is positive; the converse from C75 |
| C129 | `det`, `inv` on floats, n >= 4 | an elimination step does not decrease the dominance nor increase the row sums, up to the rounding errors of a row; induction over the steps bounds all elements and pivots, so C126 applies |
| C130 | `lu` on floats | induction over columns, and within a column over the rows: what remains of the column after subtracting the computed products keeps its sum and dominance up to one rounding error per step; the residual from C74 |
| C131 | `det`, `getminor`, `inv`, `lu`, `chol` | each function is shown to compute a determinant, an inverse or a factorisation by the theorems above; uniqueness of the factorisations and Laplace expansion give the relations |
| C132 | `lu`, `inv`, `det`, `chol` | the largest component of a vector in the kernel contradicts dominance; the Schur complement of a dominant matrix dominates by no less, so induction over the size bounds the determinant; the quadratic form is bounded below by squares |
| C133 | `concatenate*` with the statistics | a bijection between the cells of the result and those of the arguments carries over sums and counts; the median is determined by counts |
| C134 | `mean`, `var`, `median`, histograms | sums over cells, over keys with counts, and second moments about any point; the median through counting |
| C135 | `conv2`, `conv2_full` and `trans` | the value of a cell as a function of its neighbourhood for every element type; in rings sums over the zero-padded matrix, exchanged and shifted |
| C136 | the operators each function applies to elements, and deduction for those of `<complex>` (`Model/Complex`) | the functions reached through calls, case by case; a needed operator compiles exactly if both operands deduce the same type |
| C137 | `chol` and `isSymetric` over the complex numbers | the loop invariant of `chol` in any field with roots; leading minors are products of squared pivots |
| C138 | `opAdd`, `opSub`, `opMul` on pairs of floating point numbers with the textbook product (`Model/Complex`) | the sums of the parts separate; error of a sum of rounded sums of two rounded products |
| C139 | brace initialisation with brace elision and the lexicographic `<` (`Model/Type`) | induction over the members: each takes what it needs from the front of the list; loop invariant: all elements so far are equal |
| C140 | every function on matrices that are `==`, floating point | the relation "same up to the sign of zero" is preserved by every operation except division by zero, which the code excludes or (`chol`, 1x1 `inv`) does not |
| C141 | the functions that compile for every complex type, on `complexScalar`, and `compareCplx` (`Model/Complex`) | exact complex arithmetic is an instance of `ExactRing`; conjugation and the embedding of the reals respect sums, differences and products |
| C142 | conversion between formats and operations carried out in another format (`Model/FloatConv`) | rounding twice is rounding once unless the first result is a midpoint of the second format; sums, products, quotients and roots of `p`-bit numbers that are not midpoints are not that close to one |
| C143 | elements as expressions, sums and differences of products rounded once where an arbitrary function of the expression says so (`Model/Contract`) | a fused multiply-add is correctly rounded, so one step of a sum of products has at most the error of the two steps; `lu` and `chol` only need accurate sums; functions without sums of products commute with evaluation |
| C144 | `median` and the histograms with requests for memory that are granted or refused, vectors and maps that own blocks (`Model/Alloc`) | loops over elements as statements for each member of a list; invariant of the sequence of map updates: the nodes are the blocks requested so far; destroying releases them |
| C145 | `print` with arbitrary `print_num` and `print_endl`; a stream with width, fill, error state and exception mask on a device that may refuse characters or flushes (`Model/Stream`) | the loops as the list of their calls; the outcome of writing a text, composed call by call |
| C146 | all functions at an element type with arbitrary operations | the same program at a type whose other operations are replaced by ones that never stop is the same program; safety of every function relative to the ways in which operations stop (`Proof/Safety`) |
| C147 | all functions that compute, with a counter for each operation of the element type (`Model/Count`) | counting changes no outcome (the counted functions return what the model returns); costs added up loop by loop; for `det` a bound for each step with the invariant that the pivot column is at least the step; binary digits of the exponent for `pow` |
| C148 | the functions at floating point formats and at the same numbers with operations that stop when a result leaves the range (`Spec/Scale`) | values of two calls related by an exponent; each function adds, subtracts or halves exponents as dimensional analysis says (`Proof/Graded`: one induction over the loops for any arithmetic with such exponents); rounding of normal numbers commutes with powers of two; a guarded call that returns is the call (`Proof/Sim`) |
| C149 | operations in each rounding mode (`Model/Mode`), the functions at these operations | each operation proved to be the greatest lower or least upper bound in the format (`Spec/Mode`); sums of products of inputs are monotone in every rounded intermediate result, so bounds pass through the loops (`Proof/Levels`, one induction for any such pair of relations); counterexamples for `det` and `strassen` evaluated in the kernel |
| C150 | the functions at any element type that satisfies the standard model of error analysis (`Spec/Standard`) | induction over the loops with error terms, once for all such types (`Proof/Standard`, `Proof/StandardLu`); that there are such types is shown by C151 |
| C151 | operations in each environment: rounding mode, FTZ, DAZ, tininess before or after rounding (`Model/Env`); the same with operations that stop at overflow, division by zero and invalid operands (`Spec/Env`) | the stopping operations form an arithmetic of the standard model, so C150 applies; a call that does not stop is the call (`Proof/Sim`); single operations against the exact result (`Proof/EnvOps`) |
| C152 | the functions at exact element types; forms of matrices defined by their elements (`Spec/Form`) | the values proved for C20-C43 in terms of Mathlib's matrices, then algebra of these forms (`Props/Form`) |
| C153 | the functions at signed, unsigned and floating point elements in every environment | one induction over each loop for every arithmetic in which zeros behave (`Proof/Tri`: a product with zero is a zero, adding a zero changes nothing but the sign of a zero); that integers and floating point numbers are such arithmetics is proved in `Proof/TriInst`; relative errors of the products of the diagonal by induction |
| C154 | `mult`, `conv2`, `conv2_full` and `mean` with the order of the additions as a parameter, a binary tree over the terms (`Model/Reorder`) | induction over the tree for the error, the exact value and the exactness on integers; the tree of the code gives the functions as modelled before; simulation for environments (`Proof/Reorder`) |
| C155 | translation units: includes, guards, macros, which names each definition needs where it stands and where it is called (`Model/Include`) | a summary of the compiler's state in terms of headers, kept by every include, by induction over nesting and over the list (`Proof/Include`); the facts about single headers are checked one by one |
| C156 | lookup of names by scopes and by the namespaces of argument types (`Model/Lookup`) | induction over scopes and over types |
| C157 | linkage of the definitions and what their names refer to in each file (`Model/Lookup`) | partial: the operators, `conv2_valid`, `inv` and `print` use functions declared `static`, which are different ones in each file; for the others and for the linker it holds |
| C158 | `var`, `stddev`, `det` from 4x4 on and `inv` at any element type of the standard model (`Spec/Standard`) | backward error of the elimination by induction over its steps (each step undone exactly in a perturbed matrix), perturbation of the determinant, errors of quotients |
| C159 | `compare` in the floating point environments; products of the results of `lu`, `chol` and `inv` at any element type of the standard model | rounding to a number of the format is monotone, so a difference within the tolerance stays within it; the error bounds of C150 and C158 composed with the one of the product |
| C160 | `pow` and `strassen` at any element type of the standard model | strong induction over the exponent, with closed bounds for products of approximate powers; perturbation of powers of the inverse; running errors of the seven products |
| C161 | the ring functions, `abs`, convolutions, `==` and `isSymetric` in the floating point environments (`Model/Env`) on whole numbers | simulation of the integer type: whole numbers are normal, so they are read and returned unchanged, and rounding in any mode keeps numbers of the format |
| C162 | floating point environments with operations that stop if their result is not the exact one (`Spec/Silent`) | the conditions are exactness of the operation, in units; simulation by the environment and by the real numbers, for which the functions are exact |
| C163 | the calls of C162 in two environments, and in two formats | exact results are numbers of the wider format, rounding keeps them in every mode; results of an environment that flushes are zero or normal; simulation of one environment by the other |
| C164 | floating point environments with operations that stop if they overflow, are invalid or divide by zero, on elements bounded in size (`Spec/Range`) | rounding is monotone, so a result below a number of the format stays below it: sums of k terms up to 2^t stay below k 2^t, which is a number of the format; loop invariants, induction on the exponent for powers |
| C165 | `inv` up to 3x3 on bounded elements, in environments with operations that stop on exceptions and in those that do not | no overflow as in C164; the computed determinant is near the exact one (C151), so it is not zero and the quotients stay in range; conversely a matrix that is rejected has computed determinant zero |
| C166 | the calls of C149 on elements bounded as in C164, in the four rounding modes (`Spec/Width`) | C149 gives the bounds, C164 that they are finite, C151 that both are near the exact result; triangle inequality |
| C167 | the calls of C164 and C165 in two environments, on elements that are not subnormal (`Spec/Apart`) | both environments read the same numbers, so both results are near the same exact result; triangle inequality, and what is lost when a subnormal result is read |
| C168 | products and sums in two orders, in every arithmetic of the standard model and in floating point environments on bounded elements | both sides are near the same exact matrix: error of an inner product with a vector that is known up to errors, C150, C160, C164; triangle inequality |
