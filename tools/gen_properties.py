#!/usr/bin/env python3
"""Writes ../properties.jsonl. Keep one entry per property; append only."""
import json, os
P = []
def p(title, statement, quantifier, why, *anchors):
    P.append(dict(id="C%02d" % (len(P)+1), title=title, statement=statement,
                  quantifier=quantifier, why_tests_cant=why, anchors=list(anchors)))
M = "matrix/matrix_"
# ---- constructors
p("fill/zeros/ones contents",
  "fill<T,i,j>(d) returns normally an i x j matrix all of whose elements equal d; zeros<T,i,j>() is the same with the T value 0; ones<k,i,j>() and ones<T,i,i>() are the same with the value 1, and the first (numeric) template argument of ones<k,i,j> has no influence on the result.",
  "every element type, every i and j (including 0), every fill value",
  "sizes and values are unbounded; tests build three or four fixed sizes",
  M+"fill.hpp:fill", M+"zeros.hpp:zeros", M+"ones.hpp:ones")
p("eye is the scaled identity",
  "eye<T,n>(d) has d in every diagonal position and T's 0 everywhere else; eye() is a two-sided identity for * over exact arithmetic.",
  "every n, every d, every matrix it is multiplied with",
  "needs every size and every right/left factor",
  M+"eye.hpp:eye", M+"mult.hpp:operator*")
# ---- movement
p("transpose",
  "trans(A)[j][i] == A[i][j] for every index pair, trans(trans(A)) == A, and trans never faults, for every element type (including floats with NaN: no arithmetic is done).",
  "every element type, every n x m shape, every content",
  "shape and content space is infinite",
  M+"trans.hpp:trans")
p("transpose of a product",
  "trans(A*B) == trans(B)*trans(A) in exact commutative arithmetic (in particular for wrapping unsigned integers).",
  "all shapes n x m, m x p and all contents",
  "algebraic law over all matrices",
  M+"trans.hpp:trans", M+"mult.hpp:mult")
p("swap_rows exchanges exactly two rows",
  "For in-range r1, r2, swap_rows(A,r1,r2) leaves A with rows r1 and r2 exchanged and every other row unchanged; doing it twice restores A; argument order does not matter.",
  "every shape, content, element type and every pair of in-range indices",
  "frame property over all other rows and all sizes",
  M+"swap.hpp:swap_rows")
p("swap_cols exchanges exactly two columns",
  "For in-range c1, c2, swap_cols(A,c1,c2) leaves A with columns c1 and c2 exchanged and every other column unchanged; doing it twice restores A; swapping columns of A is swapping rows of trans(A).",
  "every shape, content, element type and every pair of in-range indices",
  "frame property over all other columns and all sizes",
  M+"swap.hpp:swap_cols", M+"trans.hpp:trans")
p("swap index contract",
  "swap_rows/swap_cols with equal indices is a no-op even when the index is out of range; with distinct indices it is memory-safe exactly when both are in range or there is nothing to iterate over (no columns, respectively no rows); otherwise it is an out-of-bounds access.",
  "all index pairs, all shapes",
  "undefined behaviour cannot be asserted by a test, and the index space is unbounded",
  M+"swap.hpp:swap_rows", M+"swap.hpp:swap_cols")
p("concatenateV / concatenateH",
  "concatenateV(A,B) is A stacked on B, concatenateH(A,B) is A next to B: every element of both operands appears at its documented position and nothing else does.",
  "every n, every content, every element type",
  "all sizes and positions",
  M+"concatenate.hpp:concatenateV", M+"concatenate.hpp:concatenateH")
p("rectangular concatenate",
  "concatenate of an i1 x j and an i2 x j matrix stacks them; of an i x j1 and an i x j2 matrix puts them side by side.",
  "every shape for which the overload is selected, every content",
  "all sizes and positions",
  M+"concatenate.hpp:concatenate")
p("square concatenate returns (vertical, horizontal)",
  "concatenate(A,B) of two n x n matrices returns a pair whose first is A stacked on B and whose second is A next to B.",
  "every n, every pair of matrices",
  "a test on .first never looks at .second; all contents are needed to see that B is ignored there",
  M+"concatenate.hpp:concatenate")
p("which concatenate overload a call selects",
  "A call concatenate(A,B) with shapes r1 x c1 and r2 x c2 selects the square overload iff both are square of the same size, the vertical one iff c1 = c2 and r1 /= r2, the horizontal one iff r1 = r2 and c1 /= c2, is ambiguous (does not compile) iff the two shapes are the same non-square shape, and has no candidate otherwise.",
  "all four dimensions",
  "tests cannot exercise calls that do not compile, nor all shapes",
  M+"concatenate.hpp:concatenate")
p("getminor deletes one row and one column",
  "For i,j < n, getminor(A,i,j) is A with row i and column j removed, the remaining rows and columns in their original order.",
  "every n >= 1, every in-range i and j, every content and element type",
  "all sizes/positions",
  M+"inv.hpp:getminor")
p("getminor index contract",
  "getminor(A,i,j) for n >= 1 is memory-safe if i < n and j < n; if i >= n or j >= n it writes outside the result (for n >= 2), i.e. it is undefined behaviour.",
  "all n, i, j",
  "undefined behaviour is not observable by a test",
  M+"inv.hpp:getminor")
# ---- elementwise arithmetic
p("elementwise + and -",
  "sum(A,B), A+B, sub(A,B), A-B, and the matrix/scalar forms return the matrix of elementwise results of T's own + or -, for every element type (bit-exact for floats: element (i,j) is exactly one T-operation on the (i,j) operands); if some element operation has undefined behaviour then so has the call.",
  "every element type semantics, shape and content",
  "all contents and all scalar semantics",
  M+"sum.hpp:sum", M+"sub.hpp:sub", M+"sum.hpp:operator+", M+"sub.hpp:operator-")
p("integer + and - are defined exactly when they fit",
  "For T a w-bit signed integer, A+B (A-B) is defined iff every elementwise sum (difference) is representable, and then equals the integer result; no other fault is possible.",
  "every width >= 2, shape and content",
  "overflow depends on all contents; UB is not testable",
  M+"sum.hpp:sum", M+"sub.hpp:sub")
p("additive group laws",
  "Over exact arithmetic (rationals, reals, wrapping unsigned): A+B == B+A, (A+B)+C == A+(B+C), A+zeros == A, (A+B)-B == A, A-A == zeros; s+A == A+s.",
  "all matrices of one shape",
  "algebraic laws",
  M+"sum.hpp:sum", M+"sub.hpp:sub", M+"zeros.hpp:zeros")
p("postfix ++ and -- do not modify their operand",
  "A++ returns A + T(1) and A-- returns A - T(1), (new value, not the old one), and leave A unchanged; over exact arithmetic (A++)-- gives back A.",
  "every matrix and element type",
  "all contents",
  M+"sum.hpp:operator++", M+"sub.hpp:operator--")
p("matrix multiplication is the mathematical product",
  "mult(A,B) / A*B has element (i,j) = sum over k of A[i][k]*B[k][j] over any exact ring (rationals, reals, wrapping unsigned integers of any width).",
  "all n, m, p and contents, any ring",
  "unbounded shapes and contents",
  M+"mult.hpp:mult", M+"mult.hpp:operator*")
p("multiplication laws",
  "(A*B)*C == A*(B*C), A*(B+C) == A*B + A*C, (A+B)*C == A*C+B*C, s*A == A*s, (s*A)*B == s*(A*B) (commutative scalars) in exact arithmetic.",
  "all compatible shapes and contents",
  "algebraic laws",
  M+"mult.hpp:mult", M+"sum.hpp:sum")
p("signed integer multiplication: exact or undefined",
  "For signed w-bit T, whenever A*B returns, every element is the exact integer dot product; it returns iff every product and every left-to-right partial sum is representable; otherwise the call is a signed overflow, never any other fault.",
  "all widths, shapes, contents",
  "overflow of partial sums depends on all contents and their order",
  M+"mult.hpp:mult")
p("strassen agrees with mult",
  "strassen(A,B) == A*B for all 2x2 matrices over any exact ring, commutative or not; for signed integers, whenever both return they agree, but strassen can overflow where A*B does not.",
  "all 2x2 contents, all rings",
  "polynomial identity in 8 variables, overflow corner cases",
  M+"strassen.hpp:strassen", M+"mult.hpp:mult")
p("division by a scalar",
  "A/s (div) for s /= 0 divides every element by s; for s == 0 it executes a bare throw: std::terminate if no exception is being handled, otherwise a rethrow of the handled exception; it never returns.",
  "all shapes, contents, divisors, and handler contexts",
  "process termination cannot be asserted in-process; all contents",
  M+"div.hpp:div", M+"div.hpp:operator/")
p("scale/unscale",
  "Over a field, for s /= 0: (A*s)/s == A and (A/s)*s == A.",
  "all matrices and all non-zero scalars of any field",
  "algebraic law",
  M+"div.hpp:div", M+"mult.hpp:operator*")
p("abs",
  "abs(A) has element |A[i][j]| everywhere, every element of the result is initialised before it is returned; over an ordered ring it is non-negative, idempotent and satisfies the triangle inequality elementwise; for signed integers it is undefined iff some element is the minimum value.",
  "all shapes and contents",
  "initialisation and INT_MIN corner over all inputs",
  M+"abs.hpp:abs")
# ---- det
p("closed-form determinants",
  "det of a 1x1, 2x2 or 3x3 matrix is the mathematical determinant over any commutative ring (so also modulo 2^w for unsigned integers, and exactly for signed integers whenever no intermediate overflows).",
  "all contents, all commutative rings",
  "polynomial identity",
  M+"det.hpp:det")
p("det is the determinant for every n",
  "For every n (n = 0 and singular matrices included) det(A) over a field returns the mathematical determinant of A.",
  "all n and contents over any field",
  "unbounded elimination steps and pivot patterns",
  M+"det.hpp:det", M+"swap.hpp:swap_rows")
p("det terminates and never leaves the matrix",
  "det(A) terminates and performs no out-of-bounds access, whatever the element type does: for arbitrary results of ==, -, *, / (in particular for IEEE floats with NaN and infinities).",
  "all n, contents and all total scalar semantics",
  "non-termination and out-of-bounds depend on every pivot pattern; floats with NaN",
  M+"det.hpp:det")
p("det of integer matrices, n >= 4",
  "det of an n x n integer matrix with n >= 4 is its mathematical determinant. (False: the elimination uses truncating division.)",
  "all integer matrices of size n >= 4",
  "a counterexample has to be found; positive cases prove nothing",
  M+"det.hpp:det")
p("determinant laws through the API",
  "det(A*B) == det(A)*det(B), det(trans(A)) == det(A), det(eye) == 1, and swap_rows of two distinct rows negates det, over any field and every n.",
  "all n and contents",
  "algebraic laws",
  M+"det.hpp:det", M+"mult.hpp:mult", M+"trans.hpp:trans", M+"swap.hpp:swap_rows")
# ---- inv
p("inv of a non-singular matrix",
  "If det(A) /= 0 then inv(A) returns a matrix B with A*B == eye and B*A == eye, over any field and every n >= 1.",
  "all n >= 1 and all non-singular contents",
  "unbounded sizes and contents",
  M+"inv.hpp:inv", M+"inv.hpp:getminor", M+"det.hpp:det")
p("inv of a singular matrix throws",
  "inv of a singular matrix throws std::overflow_error. (True for n = 2, 3; false for n = 1, where it divides by zero, and for n >= 4, where it executes a bare throw and terminates the process.)",
  "all n and singular contents, all handler contexts",
  "termination of the process; all sizes",
  M+"inv.hpp:inv", M+"div.hpp:div")
p("inv laws",
  "inv(inv(A)) == A, inv(A*B) == inv(B)*inv(A), inv(trans(A)) == trans(inv(A)), inv(eye) == eye for non-singular A, B over a field.",
  "all n >= 1 and contents",
  "algebraic laws",
  M+"inv.hpp:inv")
# ---- lu
p("lu factors its argument",
  "Whenever lu(A) returns (L,U): L is lower triangular with unit diagonal, U is upper triangular with non-zero diagonal, and L*U == A, over any field.",
  "all n and contents",
  "unbounded sizes",
  M+"lu.hpp:lu")
p("when lu throws",
  "lu(A) returns iff all leading principal minors of orders 1..n are non-zero; otherwise it throws std::overflow_error, and it does nothing else.",
  "all n and contents over any field",
  "needs every leading minor of every matrix",
  M+"lu.hpp:lu")
p("lu is the unique factorisation",
  "If A = L*U with L unit lower triangular and U upper triangular with non-zero diagonal, then lu(A) returns exactly (L,U).",
  "all n, L, U",
  "completeness over all factorable matrices",
  M+"lu.hpp:lu")
# ---- cholesky
p("isSymetric",
  "isSymetric(A) is true iff A == trans(A).",
  "all n and contents with decidable equality",
  "all positions",
  M+"cholesky.hpp:isSymetric")
p("chol soundness",
  "Whenever chol(A) returns L over exact ordered arithmetic, L is lower triangular with non-negative diagonal, and L*trans(L) agrees with A on and below the diagonal; so L*trans(L) == A if A is symmetric.",
  "all n and contents",
  "unbounded sizes",
  M+"cholesky.hpp:chol")
p("chol succeeds exactly on positive definite matrices",
  "For symmetric real A: A is positive definite iff chol(A) returns an L with strictly positive diagonal; then L is the unique lower triangular matrix with positive diagonal and L*trans(L) == A.",
  "all n and symmetric contents over the reals",
  "positive definiteness quantifies over all vectors",
  M+"cholesky.hpp:chol")
p("chol ignores the strict upper triangle",
  "chol(A) depends only on the entries on and below the diagonal, for every element type.",
  "all pairs of matrices agreeing on the lower triangle",
  "relational property over pairs of inputs",
  M+"cholesky.hpp:chol")
# ---- utils
p("isIdentity",
  "isIdentity(A) (unsigned elements) is true iff A is the identity matrix.",
  "all n and contents",
  "all positions",
  M+"utils.hpp:isIdentity")
p("compare",
  "compare(A,B,eps) is true iff |A[i][j]-B[i][j]| <= eps for every i,j over ordered exact arithmetic; it is symmetric in A and B, reflexive for eps >= 0, monotone in eps, and satisfies the triangle law with added tolerances.",
  "all shapes, contents and tolerances",
  "iff over all inputs",
  M+"utils.hpp:compare")
p("compare and unordered differences",
  "compare returns false whenever some difference is not known to be <= eps. (False for IEEE floats: a NaN difference makes neither comparison true, and compare then reports equality.)",
  "all element types with a partial comparison",
  "NaN handling is a corner of the type's comparison",
  M+"utils.hpp:compare")
# ---- pow
p("pow is the matrix power",
  "pow(A,p) == A multiplied with itself p times for p >= 0 (any commutative ring), and == inv(A) to the |p| for p < 0 with A non-singular (any field), for every representable p except the minimum of P when negative.",
  "all n, contents and exponents",
  "unbounded exponents",
  M+"pow.hpp:pow")
p("pow laws",
  "pow(A,p+q) == pow(A,p)*pow(A,q), pow(pow(A,p),q) == pow(A,p*q), pow(A,-p) == inv(pow(A,p)), det(pow(A,p)) == det(A)^p over a field for non-singular A.",
  "all exponents, n >= 1 and contents",
  "algebraic laws over all exponents",
  M+"pow.hpp:pow")
p("pow terminates, with logarithmic depth",
  "pow(A,p) recurses at most log2|p|+2 levels; for p the minimum value of its signed type it has signed overflow in std::abs; for a negative p and singular A it fails exactly as inv(A) fails.",
  "all exponents and matrices",
  "recursion depth and overflow corner over all p",
  M+"pow.hpp:pow", M+"inv.hpp:inv")
# ---- conv
p("conv2 is the zero-padded 3x3 correlation",
  "For i,j <= 2^31, conv2(A,K)[r][c] == sum over (u,v) in 3x3 of K[u][v]*A[r+u-1][c+v-1], elements outside A counting as 0; no out-of-bounds access.",
  "all shapes up to 2^31, all contents, any exact ring",
  "unbounded shapes; every border position; 64->32 bit index conversion",
  M+"conv2.hpp:conv2")
p("conv2 is Octave's conv2(A,K,'same')",
  "conv2(A,K) is the central part of the 2-D convolution as in Octave. (Octave flips the kernel; this is false in general and true exactly for kernels invariant under 180 degree rotation, provided the matrix is big enough to see the difference.)",
  "all shapes, contents and kernels",
  "symmetric test kernels hide the missing flip",
  M+"conv2.hpp:conv2")
p("conv2_full",
  "For i+2,j+2 <= 2^31, conv2_full(A,K) is the full zero-padded correlation of size (i+2) x (j+2), conv2(A,K) is its central i x j part.",
  "all shapes and contents",
  "unbounded shapes and border positions",
  M+"conv2.hpp:conv2_full", M+"conv2.hpp:conv2")
p("conv2_valid",
  "For a square n x n matrix, n >= 2, conv2_valid(A,K) is conv2(A,K) with the first and last row and column removed, and each of its elements is a full 3x3 window sum with no padding involved.",
  "all n and contents",
  "unbounded sizes",
  M+"conv2.hpp:conv2_valid", M+"inv.hpp:getminor")
p("conv2 linearity and unit kernel",
  "conv2 is linear in A and in K, and the kernel with a single 1 in the centre is the identity.",
  "all shapes, contents, kernels over a commutative ring",
  "algebraic law",
  M+"conv2.hpp:conv2")
p("conv2 index conversion limits",
  "conv2 is correct for matrices of any size. (False: indices are converted to int. With more than 2^31 rows an in-range row is treated as padding, and with exactly 2^32 rows the row below the last one is read out of bounds.)",
  "row counts above 2^31",
  "such sizes cannot be built in a unit test",
  M+"conv2.hpp:conv2")
# ---- histogram
p("histogram counts",
  "histogram(A) maps every value occurring in A to its number of occurrences, contains no other key, its keys are strictly increasing in iteration order, and its counts add up to i*j.",
  "all shapes and contents over a linear order",
  "all multisets of values",
  M+"histogram.hpp:histogram")
p("cumulative histogram",
  "cumulative_histogram(A) has exactly the keys of histogram(A), maps each key to the number of elements not greater than it, is non-decreasing in the key, and maps the largest key to i*j.",
  "all shapes and contents over a linear order",
  "all multisets of values",
  M+"histogram.hpp:cumulative_histogram")
p("histogram is independent of element order",
  "If B is a rearrangement of the elements of A (possibly of another shape, e.g. trans(A)), then histogram(A) == histogram(B), and likewise the cumulative histogram.",
  "all pairs of rearranged matrices",
  "all permutations",
  M+"histogram.hpp:histogram")
# ---- stats
p("mean",
  "mean(A) over exact arithmetic is the sum of the elements divided by i*j; it lies between the minimum and maximum, mean(A+s) == mean(A)+s, mean(A*s) == mean(A)*s; for an empty matrix it divides by zero.",
  "all non-empty shapes and contents over an ordered field",
  "all contents",
  M+"mean.hpp:mean")
p("mean of an integer matrix",
  "For signed integer T, mean(A) is the sum divided by the number of elements, rounded towards zero. (True if the sum is non-negative and does not overflow; false for negative sums: T / size_t is an unsigned division.)",
  "all integer matrices",
  "the conversion to size_t is invisible on non-negative tests",
  M+"mean.hpp:mean")
p("median",
  "median(A): at least half of the elements are <= it and at least half are >= it; it is an element of A if the number of elements is odd and the mean of the two middle elements if it is even; it does not depend on element order; for an empty matrix it reads out of bounds.",
  "all shapes and contents over an ordered field, every correct std::sort",
  "all multisets, all sort implementations",
  M+"median.hpp:median")
p("variance and standard deviation",
  "var(A) is the population variance: the mean of squared deviations from mean(A), equals mean of squares minus squared mean, is >= 0, is 0 iff all elements are equal, is unchanged by A+s and multiplied by s*s by A*s; stddev(A) >= 0 and stddev(A)^2 == var(A).",
  "all non-empty shapes and contents over the reals",
  "all contents",
  M+"var.hpp:var", M+"stddev.hpp:stddev")
# ---- print
p("print output",
  "print(A) writes, row by row, every element followed by one space and ends every row with a newline; if the number formatter is injective and never emits whitespace, the output determines A for a given shape.",
  "all shapes, contents and formatters",
  "all contents; injectivity is relational",
  M+"print.hpp:print")
# ---- bench
p("benchmark access patterns",
  "The cache benchmarks only access elements inside their matrix. (True for row_major; col_major iff row == col; rand_major can read one past the end of a row because its distribution includes col.)",
  "all sizes and all random draws",
  "depends on random draws",
  "bench/cache/cache.hpp:row_major", "bench/cache/cache.hpp:col_major", "bench/cache/cache.hpp:rand_major")
p("setRand overwrites every element",
  "setRand(A) assigns a fresh draw to every element of A in row-major order, whatever A contained (including uninitialised storage).",
  "all shapes, all draw sequences",
  "all draws",
  "bench/inc/setRand.hpp:setRand")
# ---- overloads
p("which det/inv overload a call selects",
  "det and inv called on an n x n matrix select the closed-form overload for n = 1, 2, 3 and the general one for every other n; no call is ambiguous.",
  "all n",
  "all sizes; ambiguity is a compile-time event",
  M+"det.hpp:det", M+"inv.hpp:inv")
p("memory safety of the whole API",
  "No function of the library, called with a non-empty matrix and in-range indices, accesses memory out of bounds, reads an uninitialised element or fails to terminate, for every element type semantics (conv2*: dimensions up to 2^31; histogram, cumulative_histogram and median: elements strictly weakly ordered by <).",
  "every function, shape, content and scalar semantics",
  "absence of UB over all inputs",
  "matrix/matrix.hpp")
exec(open(os.path.join(os.path.dirname(__file__), "more_properties.py")).read()) if os.path.exists(os.path.join(os.path.dirname(__file__), "more_properties.py")) else None
with open(os.path.join(os.path.dirname(__file__), "..", "properties.jsonl"), "w") as f:
    for e in P: f.write(json.dumps(e) + "\n")
for e in P: print(e["id"], e["title"])
