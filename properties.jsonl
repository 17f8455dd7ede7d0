{"id": "C01", "title": "fill/zeros/ones contents", "statement": "fill<T,i,j>(d) returns normally an i x j matrix all of whose elements equal d; zeros<T,i,j>() is the same with the T value 0; ones<k,i,j>() and ones<T,i,i>() are the same with the value 1, and the first (numeric) template argument of ones<k,i,j> has no influence on the result.", "quantifier": "every element type, every i and j (including 0), every fill value", "why_tests_cant": "sizes and values are unbounded; tests build three or four fixed sizes", "anchors": ["matrix/matrix_fill.hpp:fill", "matrix/matrix_zeros.hpp:zeros", "matrix/matrix_ones.hpp:ones"]}
{"id": "C02", "title": "eye is the scaled identity", "statement": "eye<T,n>(d) has d in every diagonal position and T's 0 everywhere else; eye() is a two-sided identity for * over exact arithmetic.", "quantifier": "every n, every d, every matrix it is multiplied with", "why_tests_cant": "needs every size and every right/left factor", "anchors": ["matrix/matrix_eye.hpp:eye", "matrix/matrix_mult.hpp:operator*"]}
{"id": "C03", "title": "transpose", "statement": "trans(A)[j][i] == A[i][j] for every index pair, trans(trans(A)) == A, and trans never faults, for every element type (including floats with NaN: no arithmetic is done).", "quantifier": "every element type, every n x m shape, every content", "why_tests_cant": "shape and content space is infinite", "anchors": ["matrix/matrix_trans.hpp:trans"]}
{"id": "C04", "title": "transpose of a product", "statement": "trans(A*B) == trans(B)*trans(A) in exact commutative arithmetic (in particular for wrapping unsigned integers).", "quantifier": "all shapes n x m, m x p and all contents", "why_tests_cant": "algebraic law over all matrices", "anchors": ["matrix/matrix_trans.hpp:trans", "matrix/matrix_mult.hpp:mult"]}
{"id": "C05", "title": "swap_rows exchanges exactly two rows", "statement": "For in-range r1, r2, swap_rows(A,r1,r2) leaves A with rows r1 and r2 exchanged and every other row unchanged; doing it twice restores A; argument order does not matter.", "quantifier": "every shape, content, element type and every pair of in-range indices", "why_tests_cant": "frame property over all other rows and all sizes", "anchors": ["matrix/matrix_swap.hpp:swap_rows"]}
{"id": "C06", "title": "swap_cols exchanges exactly two columns", "statement": "For in-range c1, c2, swap_cols(A,c1,c2) leaves A with columns c1 and c2 exchanged and every other column unchanged; doing it twice restores A; swapping columns of A is swapping rows of trans(A).", "quantifier": "every shape, content, element type and every pair of in-range indices", "why_tests_cant": "frame property over all other columns and all sizes", "anchors": ["matrix/matrix_swap.hpp:swap_cols", "matrix/matrix_trans.hpp:trans"]}
{"id": "C07", "title": "swap index contract", "statement": "swap_rows/swap_cols with equal indices is a no-op even when the index is out of range; with distinct indices it is memory-safe exactly when both are in range or there is nothing to iterate over (no columns, respectively no rows); otherwise it is an out-of-bounds access.", "quantifier": "all index pairs, all shapes", "why_tests_cant": "undefined behaviour cannot be asserted by a test, and the index space is unbounded", "anchors": ["matrix/matrix_swap.hpp:swap_rows", "matrix/matrix_swap.hpp:swap_cols"]}
{"id": "C08", "title": "concatenateV / concatenateH", "statement": "concatenateV(A,B) is A stacked on B, concatenateH(A,B) is A next to B: every element of both operands appears at its documented position and nothing else does.", "quantifier": "every n, every content, every element type", "why_tests_cant": "all sizes and positions", "anchors": ["matrix/matrix_concatenate.hpp:concatenateV", "matrix/matrix_concatenate.hpp:concatenateH"]}
{"id": "C09", "title": "rectangular concatenate", "statement": "concatenate of an i1 x j and an i2 x j matrix stacks them; of an i x j1 and an i x j2 matrix puts them side by side.", "quantifier": "every shape for which the overload is selected, every content", "why_tests_cant": "all sizes and positions", "anchors": ["matrix/matrix_concatenate.hpp:concatenate"]}
{"id": "C10", "title": "square concatenate returns (vertical, horizontal)", "statement": "concatenate(A,B) of two n x n matrices returns a pair whose first is A stacked on B and whose second is A next to B.", "quantifier": "every n, every pair of matrices", "why_tests_cant": "a test on .first never looks at .second; all contents are needed to see that B is ignored there", "anchors": ["matrix/matrix_concatenate.hpp:concatenate"]}
{"id": "C11", "title": "which concatenate overload a call selects", "statement": "A call concatenate(A,B) with shapes r1 x c1 and r2 x c2 selects the square overload iff both are square of the same size, the vertical one iff c1 = c2 and r1 /= r2, the horizontal one iff r1 = r2 and c1 /= c2, is ambiguous (does not compile) iff the two shapes are the same non-square shape, and has no candidate otherwise.", "quantifier": "all four dimensions", "why_tests_cant": "tests cannot exercise calls that do not compile, nor all shapes", "anchors": ["matrix/matrix_concatenate.hpp:concatenate"]}
{"id": "C12", "title": "getminor deletes one row and one column", "statement": "For i,j < n, getminor(A,i,j) is A with row i and column j removed, the remaining rows and columns in their original order.", "quantifier": "every n >= 1, every in-range i and j, every content and element type", "why_tests_cant": "all sizes/positions", "anchors": ["matrix/matrix_inv.hpp:getminor"]}
{"id": "C13", "title": "getminor index contract", "statement": "getminor(A,i,j) for n >= 1 is memory-safe if i < n and j < n; if i >= n or j >= n it writes outside the result (for n >= 2), i.e. it is undefined behaviour.", "quantifier": "all n, i, j", "why_tests_cant": "undefined behaviour is not observable by a test", "anchors": ["matrix/matrix_inv.hpp:getminor"]}
{"id": "C14", "title": "elementwise + and -", "statement": "sum(A,B), A+B, sub(A,B), A-B, and the matrix/scalar forms return the matrix of elementwise results of T's own + or -, for every element type (bit-exact for floats: element (i,j) is exactly one T-operation on the (i,j) operands); if some element operation has undefined behaviour then so has the call.", "quantifier": "every element type semantics, shape and content", "why_tests_cant": "all contents and all scalar semantics", "anchors": ["matrix/matrix_sum.hpp:sum", "matrix/matrix_sub.hpp:sub", "matrix/matrix_sum.hpp:operator+", "matrix/matrix_sub.hpp:operator-"]}
{"id": "C15", "title": "integer + and - are defined exactly when they fit", "statement": "For T a w-bit signed integer, A+B (A-B) is defined iff every elementwise sum (difference) is representable, and then equals the integer result; no other fault is possible.", "quantifier": "every width >= 2, shape and content", "why_tests_cant": "overflow depends on all contents; UB is not testable", "anchors": ["matrix/matrix_sum.hpp:sum", "matrix/matrix_sub.hpp:sub"]}
{"id": "C16", "title": "additive group laws", "statement": "Over exact arithmetic (rationals, reals, wrapping unsigned): A+B == B+A, (A+B)+C == A+(B+C), A+zeros == A, (A+B)-B == A, A-A == zeros; s+A == A+s.", "quantifier": "all matrices of one shape", "why_tests_cant": "algebraic laws", "anchors": ["matrix/matrix_sum.hpp:sum", "matrix/matrix_sub.hpp:sub", "matrix/matrix_zeros.hpp:zeros"]}
{"id": "C17", "title": "postfix ++ and -- do not modify their operand", "statement": "A++ returns A + T(1) and A-- returns A - T(1), (new value, not the old one), and leave A unchanged; over exact arithmetic (A++)-- gives back A.", "quantifier": "every matrix and element type", "why_tests_cant": "all contents", "anchors": ["matrix/matrix_sum.hpp:operator++", "matrix/matrix_sub.hpp:operator--"]}
{"id": "C18", "title": "matrix multiplication is the mathematical product", "statement": "mult(A,B) / A*B has element (i,j) = sum over k of A[i][k]*B[k][j] over any exact ring (rationals, reals, wrapping unsigned integers of any width).", "quantifier": "all n, m, p and contents, any ring", "why_tests_cant": "unbounded shapes and contents", "anchors": ["matrix/matrix_mult.hpp:mult", "matrix/matrix_mult.hpp:operator*"]}
{"id": "C19", "title": "multiplication laws", "statement": "(A*B)*C == A*(B*C), A*(B+C) == A*B + A*C, (A+B)*C == A*C+B*C, s*A == A*s, (s*A)*B == s*(A*B) (commutative scalars) in exact arithmetic.", "quantifier": "all compatible shapes and contents", "why_tests_cant": "algebraic laws", "anchors": ["matrix/matrix_mult.hpp:mult", "matrix/matrix_sum.hpp:sum"]}
{"id": "C20", "title": "signed integer multiplication: exact or undefined", "statement": "For signed w-bit T, whenever A*B returns, every element is the exact integer dot product; it returns iff every product and every left-to-right partial sum is representable; otherwise the call is a signed overflow, never any other fault.", "quantifier": "all widths, shapes, contents", "why_tests_cant": "overflow of partial sums depends on all contents and their order", "anchors": ["matrix/matrix_mult.hpp:mult"]}
{"id": "C21", "title": "strassen agrees with mult", "statement": "strassen(A,B) == A*B for all 2x2 matrices over any exact ring, commutative or not; for signed integers, whenever both return they agree, but strassen can overflow where A*B does not.", "quantifier": "all 2x2 contents, all rings", "why_tests_cant": "polynomial identity in 8 variables, overflow corner cases", "anchors": ["matrix/matrix_strassen.hpp:strassen", "matrix/matrix_mult.hpp:mult"]}
{"id": "C22", "title": "division by a scalar", "statement": "A/s (div) for s /= 0 divides every element by s; for s == 0 it executes a bare throw: std::terminate if no exception is being handled, otherwise a rethrow of the handled exception; it never returns.", "quantifier": "all shapes, contents, divisors, and handler contexts", "why_tests_cant": "process termination cannot be asserted in-process; all contents", "anchors": ["matrix/matrix_div.hpp:div", "matrix/matrix_div.hpp:operator/"]}
{"id": "C23", "title": "scale/unscale", "statement": "Over a field, for s /= 0: (A*s)/s == A and (A/s)*s == A.", "quantifier": "all matrices and all non-zero scalars of any field", "why_tests_cant": "algebraic law", "anchors": ["matrix/matrix_div.hpp:div", "matrix/matrix_mult.hpp:operator*"]}
{"id": "C24", "title": "abs", "statement": "abs(A) has element |A[i][j]| everywhere, every element of the result is initialised before it is returned; over an ordered ring it is non-negative, idempotent and satisfies the triangle inequality elementwise; for signed integers it is undefined iff some element is the minimum value.", "quantifier": "all shapes and contents", "why_tests_cant": "initialisation and INT_MIN corner over all inputs", "anchors": ["matrix/matrix_abs.hpp:abs"]}
{"id": "C25", "title": "closed-form determinants", "statement": "det of a 1x1, 2x2 or 3x3 matrix is the mathematical determinant over any commutative ring (so also modulo 2^w for unsigned integers, and exactly for signed integers whenever no intermediate overflows).", "quantifier": "all contents, all commutative rings", "why_tests_cant": "polynomial identity", "anchors": ["matrix/matrix_det.hpp:det"]}
{"id": "C26", "title": "det is the determinant for every n", "statement": "For every n (n = 0 and singular matrices included) det(A) over a field returns the mathematical determinant of A.", "quantifier": "all n and contents over any field", "why_tests_cant": "unbounded elimination steps and pivot patterns", "anchors": ["matrix/matrix_det.hpp:det", "matrix/matrix_swap.hpp:swap_rows"]}
{"id": "C27", "title": "det terminates and never leaves the matrix", "statement": "det(A) terminates and performs no out-of-bounds access, whatever the element type does: for arbitrary results of ==, -, *, / (in particular for IEEE floats with NaN and infinities).", "quantifier": "all n, contents and all total scalar semantics", "why_tests_cant": "non-termination and out-of-bounds depend on every pivot pattern; floats with NaN", "anchors": ["matrix/matrix_det.hpp:det"]}
{"id": "C28", "title": "det of integer matrices, n >= 4", "statement": "det of an n x n integer matrix with n >= 4 is its mathematical determinant. (False: the elimination uses truncating division.)", "quantifier": "all integer matrices of size n >= 4", "why_tests_cant": "a counterexample has to be found; positive cases prove nothing", "anchors": ["matrix/matrix_det.hpp:det"]}
{"id": "C29", "title": "determinant laws through the API", "statement": "det(A*B) == det(A)*det(B), det(trans(A)) == det(A), det(eye) == 1, and swap_rows of two distinct rows negates det, over any field and every n.", "quantifier": "all n and contents", "why_tests_cant": "algebraic laws", "anchors": ["matrix/matrix_det.hpp:det", "matrix/matrix_mult.hpp:mult", "matrix/matrix_trans.hpp:trans", "matrix/matrix_swap.hpp:swap_rows"]}
{"id": "C30", "title": "inv of a non-singular matrix", "statement": "If det(A) /= 0 then inv(A) returns a matrix B with A*B == eye and B*A == eye, over any field and every n >= 1.", "quantifier": "all n >= 1 and all non-singular contents", "why_tests_cant": "unbounded sizes and contents", "anchors": ["matrix/matrix_inv.hpp:inv", "matrix/matrix_inv.hpp:getminor", "matrix/matrix_det.hpp:det"]}
{"id": "C31", "title": "inv of a singular matrix throws", "statement": "inv of a singular matrix throws std::overflow_error. (True for n = 2, 3; false for n = 1, where it divides by zero, and for n >= 4, where it executes a bare throw and terminates the process.)", "quantifier": "all n and singular contents, all handler contexts", "why_tests_cant": "termination of the process; all sizes", "anchors": ["matrix/matrix_inv.hpp:inv", "matrix/matrix_div.hpp:div"]}
{"id": "C32", "title": "inv laws", "statement": "inv(inv(A)) == A, inv(A*B) == inv(B)*inv(A), inv(trans(A)) == trans(inv(A)), inv(eye) == eye for non-singular A, B over a field.", "quantifier": "all n >= 1 and contents", "why_tests_cant": "algebraic laws", "anchors": ["matrix/matrix_inv.hpp:inv"]}
{"id": "C33", "title": "lu factors its argument", "statement": "Whenever lu(A) returns (L,U): L is lower triangular with unit diagonal, U is upper triangular with non-zero diagonal, and L*U == A, over any field.", "quantifier": "all n and contents", "why_tests_cant": "unbounded sizes", "anchors": ["matrix/matrix_lu.hpp:lu"]}
{"id": "C34", "title": "when lu throws", "statement": "lu(A) returns iff all leading principal minors of orders 1..n are non-zero; otherwise it throws std::overflow_error, and it does nothing else.", "quantifier": "all n and contents over any field", "why_tests_cant": "needs every leading minor of every matrix", "anchors": ["matrix/matrix_lu.hpp:lu"]}
{"id": "C35", "title": "lu is the unique factorisation", "statement": "If A = L*U with L unit lower triangular and U upper triangular with non-zero diagonal, then lu(A) returns exactly (L,U).", "quantifier": "all n, L, U", "why_tests_cant": "completeness over all factorable matrices", "anchors": ["matrix/matrix_lu.hpp:lu"]}
{"id": "C36", "title": "isSymetric", "statement": "isSymetric(A) is true iff A == trans(A).", "quantifier": "all n and contents with decidable equality", "why_tests_cant": "all positions", "anchors": ["matrix/matrix_cholesky.hpp:isSymetric"]}
{"id": "C37", "title": "chol soundness", "statement": "Whenever chol(A) returns L over exact ordered arithmetic, L is lower triangular with non-negative diagonal, and L*trans(L) agrees with A on and below the diagonal; so L*trans(L) == A if A is symmetric.", "quantifier": "all n and contents", "why_tests_cant": "unbounded sizes", "anchors": ["matrix/matrix_cholesky.hpp:chol"]}
{"id": "C38", "title": "chol succeeds exactly on positive definite matrices", "statement": "For symmetric real A: A is positive definite iff chol(A) returns an L with strictly positive diagonal; then L is the unique lower triangular matrix with positive diagonal and L*trans(L) == A.", "quantifier": "all n and symmetric contents over the reals", "why_tests_cant": "positive definiteness quantifies over all vectors", "anchors": ["matrix/matrix_cholesky.hpp:chol"]}
{"id": "C39", "title": "chol ignores the strict upper triangle", "statement": "chol(A) depends only on the entries on and below the diagonal, for every element type.", "quantifier": "all pairs of matrices agreeing on the lower triangle", "why_tests_cant": "relational property over pairs of inputs", "anchors": ["matrix/matrix_cholesky.hpp:chol"]}
{"id": "C40", "title": "isIdentity", "statement": "isIdentity(A) (unsigned elements) is true iff A is the identity matrix.", "quantifier": "all n and contents", "why_tests_cant": "all positions", "anchors": ["matrix/matrix_utils.hpp:isIdentity"]}
{"id": "C41", "title": "compare", "statement": "compare(A,B,eps) is true iff |A[i][j]-B[i][j]| <= eps for every i,j over ordered exact arithmetic; it is symmetric in A and B, reflexive for eps >= 0, monotone in eps, and satisfies the triangle law with added tolerances.", "quantifier": "all shapes, contents and tolerances", "why_tests_cant": "iff over all inputs", "anchors": ["matrix/matrix_utils.hpp:compare"]}
{"id": "C42", "title": "compare and unordered differences", "statement": "compare returns false whenever some difference is not known to be <= eps. (False for IEEE floats: a NaN difference makes neither comparison true, and compare then reports equality.)", "quantifier": "all element types with a partial comparison", "why_tests_cant": "NaN handling is a corner of the type's comparison", "anchors": ["matrix/matrix_utils.hpp:compare"]}
{"id": "C43", "title": "pow is the matrix power", "statement": "pow(A,p) == A multiplied with itself p times for p >= 0 (any commutative ring), and == inv(A) to the |p| for p < 0 with A non-singular (any field), for every representable p except the minimum of P when negative.", "quantifier": "all n, contents and exponents", "why_tests_cant": "unbounded exponents", "anchors": ["matrix/matrix_pow.hpp:pow"]}
{"id": "C44", "title": "pow laws", "statement": "pow(A,p+q) == pow(A,p)*pow(A,q), pow(pow(A,p),q) == pow(A,p*q), pow(A,-p) == inv(pow(A,p)), det(pow(A,p)) == det(A)^p over a field for non-singular A.", "quantifier": "all exponents, n >= 1 and contents", "why_tests_cant": "algebraic laws over all exponents", "anchors": ["matrix/matrix_pow.hpp:pow"]}
{"id": "C45", "title": "pow terminates, with logarithmic depth", "statement": "pow(A,p) recurses at most log2|p|+2 levels; for p the minimum value of its signed type it has signed overflow in std::abs; for a negative p and singular A it fails exactly as inv(A) fails.", "quantifier": "all exponents and matrices", "why_tests_cant": "recursion depth and overflow corner over all p", "anchors": ["matrix/matrix_pow.hpp:pow", "matrix/matrix_inv.hpp:inv"]}
{"id": "C46", "title": "conv2 is the zero-padded 3x3 correlation", "statement": "For i,j <= 2^31, conv2(A,K)[r][c] == sum over (u,v) in 3x3 of K[u][v]*A[r+u-1][c+v-1], elements outside A counting as 0; no out-of-bounds access.", "quantifier": "all shapes up to 2^31, all contents, any exact ring", "why_tests_cant": "unbounded shapes; every border position; 64->32 bit index conversion", "anchors": ["matrix/matrix_conv2.hpp:conv2"]}
{"id": "C47", "title": "conv2 is Octave's conv2(A,K,'same')", "statement": "conv2(A,K) is the central part of the 2-D convolution as in Octave. (Octave flips the kernel; this is false in general and true exactly for kernels invariant under 180 degree rotation, provided the matrix is big enough to see the difference.)", "quantifier": "all shapes, contents and kernels", "why_tests_cant": "symmetric test kernels hide the missing flip", "anchors": ["matrix/matrix_conv2.hpp:conv2"]}
{"id": "C48", "title": "conv2_full", "statement": "For i+2,j+2 <= 2^31, conv2_full(A,K) is the full zero-padded correlation of size (i+2) x (j+2), conv2(A,K) is its central i x j part.", "quantifier": "all shapes and contents", "why_tests_cant": "unbounded shapes and border positions", "anchors": ["matrix/matrix_conv2.hpp:conv2_full", "matrix/matrix_conv2.hpp:conv2"]}
{"id": "C49", "title": "conv2_valid", "statement": "For a square n x n matrix, n >= 2, conv2_valid(A,K) is conv2(A,K) with the first and last row and column removed, and each of its elements is a full 3x3 window sum with no padding involved.", "quantifier": "all n and contents", "why_tests_cant": "unbounded sizes", "anchors": ["matrix/matrix_conv2.hpp:conv2_valid", "matrix/matrix_inv.hpp:getminor"]}
{"id": "C50", "title": "conv2 linearity and unit kernel", "statement": "conv2 is linear in A and in K, and the kernel with a single 1 in the centre is the identity.", "quantifier": "all shapes, contents, kernels over a commutative ring", "why_tests_cant": "algebraic law", "anchors": ["matrix/matrix_conv2.hpp:conv2"]}
{"id": "C51", "title": "conv2 index conversion limits", "statement": "conv2 is correct for matrices of any size. (False: indices are converted to int. With more than 2^31 rows an in-range row is treated as padding, and with exactly 2^32 rows the row below the last one is read out of bounds.)", "quantifier": "row counts above 2^31", "why_tests_cant": "such sizes cannot be built in a unit test", "anchors": ["matrix/matrix_conv2.hpp:conv2"]}
{"id": "C52", "title": "histogram counts", "statement": "histogram(A) maps every value occurring in A to its number of occurrences, contains no other key, its keys are strictly increasing in iteration order, and its counts add up to i*j.", "quantifier": "all shapes and contents over a linear order", "why_tests_cant": "all multisets of values", "anchors": ["matrix/matrix_histogram.hpp:histogram"]}
{"id": "C53", "title": "cumulative histogram", "statement": "cumulative_histogram(A) has exactly the keys of histogram(A), maps each key to the number of elements not greater than it, is non-decreasing in the key, and maps the largest key to i*j.", "quantifier": "all shapes and contents over a linear order", "why_tests_cant": "all multisets of values", "anchors": ["matrix/matrix_histogram.hpp:cumulative_histogram"]}
{"id": "C54", "title": "histogram is independent of element order", "statement": "If B is a rearrangement of the elements of A (possibly of another shape, e.g. trans(A)), then histogram(A) == histogram(B), and likewise the cumulative histogram.", "quantifier": "all pairs of rearranged matrices", "why_tests_cant": "all permutations", "anchors": ["matrix/matrix_histogram.hpp:histogram"]}
{"id": "C55", "title": "mean", "statement": "mean(A) over exact arithmetic is the sum of the elements divided by i*j; it lies between the minimum and maximum, mean(A+s) == mean(A)+s, mean(A*s) == mean(A)*s; for an empty matrix it divides by zero.", "quantifier": "all non-empty shapes and contents over an ordered field", "why_tests_cant": "all contents", "anchors": ["matrix/matrix_mean.hpp:mean"]}
{"id": "C56", "title": "mean of an integer matrix", "statement": "For signed integer T, mean(A) is the sum divided by the number of elements, rounded towards zero. (True if the sum is non-negative and does not overflow; false for negative sums: T / size_t is an unsigned division.)", "quantifier": "all integer matrices", "why_tests_cant": "the conversion to size_t is invisible on non-negative tests", "anchors": ["matrix/matrix_mean.hpp:mean"]}
{"id": "C57", "title": "median", "statement": "median(A): at least half of the elements are <= it and at least half are >= it; it is an element of A if the number of elements is odd and the mean of the two middle elements if it is even; it does not depend on element order; for an empty matrix it reads out of bounds.", "quantifier": "all shapes and contents over an ordered field, every correct std::sort", "why_tests_cant": "all multisets, all sort implementations", "anchors": ["matrix/matrix_median.hpp:median"]}
{"id": "C58", "title": "variance and standard deviation", "statement": "var(A) is the population variance: the mean of squared deviations from mean(A), equals mean of squares minus squared mean, is >= 0, is 0 iff all elements are equal, is unchanged by A+s and multiplied by s*s by A*s; stddev(A) >= 0 and stddev(A)^2 == var(A).", "quantifier": "all non-empty shapes and contents over the reals", "why_tests_cant": "all contents", "anchors": ["matrix/matrix_var.hpp:var", "matrix/matrix_stddev.hpp:stddev"]}
{"id": "C59", "title": "print output", "statement": "print(A) writes, row by row, every element followed by one space and ends every row with a newline; if the number formatter is injective and never emits whitespace, the output determines A for a given shape.", "quantifier": "all shapes, contents and formatters", "why_tests_cant": "all contents; injectivity is relational", "anchors": ["matrix/matrix_print.hpp:print"]}
{"id": "C60", "title": "benchmark access patterns", "statement": "The cache benchmarks only access elements inside their matrix. (True for row_major; col_major iff row == col; rand_major can read one past the end of a row because its distribution includes col.)", "quantifier": "all sizes and all random draws", "why_tests_cant": "depends on random draws", "anchors": ["bench/cache/cache.hpp:row_major", "bench/cache/cache.hpp:col_major", "bench/cache/cache.hpp:rand_major"]}
{"id": "C61", "title": "setRand overwrites every element", "statement": "setRand(A) assigns a fresh draw to every element of A in row-major order, whatever A contained (including uninitialised storage).", "quantifier": "all shapes, all draw sequences", "why_tests_cant": "all draws", "anchors": ["bench/inc/setRand.hpp:setRand"]}
{"id": "C62", "title": "which det/inv overload a call selects", "statement": "det and inv called on an n x n matrix select the closed-form overload for n = 1, 2, 3 and the general one for every other n; no call is ambiguous.", "quantifier": "all n", "why_tests_cant": "all sizes; ambiguity is a compile-time event", "anchors": ["matrix/matrix_det.hpp:det", "matrix/matrix_inv.hpp:inv"]}
{"id": "C63", "title": "memory safety of the whole API", "statement": "No function of the library, called with a non-empty matrix and in-range indices, accesses memory out of bounds, reads an uninitialised element or fails to terminate, for every element type semantics (conv2*: dimensions up to 2^31; histogram, cumulative_histogram and median: elements strictly weakly ordered by <).", "quantifier": "every function, shape, content and scalar semantics", "why_tests_cant": "absence of UB over all inputs", "anchors": ["matrix/matrix.hpp"]}
{"id": "C64", "title": "no undefined behaviour on floating point elements", "statement": "For float and double elements every function returns for every contents, including NaN, infinities and singular or indefinite matrices; only division by a zero scalar, inv, lu and pow may throw or terminate instead. (pow: except for the most negative exponent; conv2*: dimensions below 2^32. histogram, cumulative_histogram and median are the subject of C80.)", "quantifier": "all shapes and contents of every IEEE binary format", "why_tests_cant": "absence of faults over all float contents", "anchors": ["matrix/matrix.hpp"]}
{"id": "C65", "title": "elementwise floating point operations are correctly rounded", "statement": "For finite float or double elements, every element of A+B, A-B, A+s, A-s, A*s and A/s is the exact result rounded to nearest, ties to even; abs is exact. A+B == B+A bit for bit, A-A is +0, an element of A-B is zero iff the operands are equal, and trans(A*B) equals trans(B)*trans(A) bit for bit.", "quantifier": "all shapes and finite contents of every IEEE binary format", "why_tests_cant": "rounding over all operands", "anchors": ["matrix/matrix_sum.hpp:sum", "matrix/matrix_sub.hpp:sub", "matrix/matrix_mult.hpp:mult", "matrix/matrix_div.hpp:div", "matrix/matrix_abs.hpp:abs"]}
{"id": "C66", "title": "error of the floating point product", "statement": "Every finite element of A*B (common dimension m) differs from the exact dot product by at most ((1+u)^m - 1) * sum|a||b| + m (1+u)^(m-1) eta, where u is the unit roundoff and eta half the smallest positive number; and it is finite whenever (1+u)^m sum|a||b| + m (1+u)^(m-1) eta is at most the largest finite number.", "quantifier": "all shapes and contents of every IEEE binary format", "why_tests_cant": "a bound over all contents and dimensions", "anchors": ["matrix/matrix_mult.hpp:mult"]}
{"id": "C67", "title": "error of the floating point mean", "statement": "A finite mean of N <= 2^p elements differs from the exact mean by at most ((1+u)^N - 1) * (sum|a|)/N + eta; it is finite whenever (1+u)^(N-1) sum|a| is at most the largest finite number.", "quantifier": "all non-empty shapes of at most 2^p elements and all contents of every IEEE binary format", "why_tests_cant": "a bound over all contents and sizes", "anchors": ["matrix/matrix_mean.hpp:mean"]}
{"id": "C68", "title": "non-finite elements are not masked", "statement": "If an element of A+B, A-B or A*B, mean, var, stddev or the closed-form determinant is finite, then every element it is computed from is finite; NaN operands give NaN. (The general determinant, n >= 4, can mask a NaN when a column is zero.)", "quantifier": "all shapes and contents of every IEEE binary format", "why_tests_cant": "NaN and infinity propagation over all positions", "anchors": ["matrix/matrix_mult.hpp:mult", "matrix/matrix_mean.hpp:mean", "matrix/matrix_var.hpp:var", "matrix/matrix_stddev.hpp:stddev", "matrix/matrix_det.hpp:det"]}
{"id": "C69", "title": "integer-valued floating point matrices multiply exactly", "statement": "If the elements of A and B are integers and in every dot product the absolute values of the terms add up to at most 2^p, A*B is the exact integer product.", "quantifier": "all shapes and integer contents within the bound, of every IEEE binary format", "why_tests_cant": "exactness over all contents", "anchors": ["matrix/matrix_mult.hpp:mult"]}
{"id": "C70", "title": "compare on integer matrices", "statement": "For signed integer elements whose differences do not overflow, compare(A,B,eps) is true iff |A[i][j]-B[i][j]| <= eps for every i,j. (True for differences up to 2^24; false above: the difference is converted to float and rounded.)", "quantifier": "all shapes, contents and finite tolerances", "why_tests_cant": "the conversion only shows on differences above 2^24", "anchors": ["matrix/matrix_utils.hpp:compare"]}
{"id": "C71", "title": "variance of finite floating point data is never negative", "statement": "For a non-empty matrix of at most 2^p finite elements, var is not NaN and not negative (it may overflow to +inf), and if it is finite stddev is its correctly rounded square root, finite and not negative.", "quantifier": "all non-empty shapes of at most 2^p elements and all finite contents of every IEEE binary format", "why_tests_cant": "a sign over all contents under rounding", "anchors": ["matrix/matrix_var.hpp:var", "matrix/matrix_stddev.hpp:stddev"]}
{"id": "C72", "title": "the identity is neutral in floating point", "statement": "For a matrix A of finite elements every element of A*eye and of eye*A is finite and has the same value as that of A (only -0 becomes +0).", "quantifier": "all shapes and finite contents of every IEEE binary format", "why_tests_cant": "exactness over all contents; false with infinities", "anchors": ["matrix/matrix_mult.hpp:mult", "matrix/matrix_eye.hpp:eye"]}
{"id": "C73", "title": "error of the closed-form determinants", "statement": "A finite floating point det of a 2x2 or 3x3 matrix differs from the exact determinant by at most ((1+u)^k - 1) times the sum of the absolute values of its products (k = 2 and 7) plus underflow terms.", "quantifier": "all contents of every IEEE binary format", "why_tests_cant": "a bound over all contents", "anchors": ["matrix/matrix_det.hpp:det"]}
{"id": "C74", "title": "backward error of the floating point lu", "statement": "lu of floating point elements returns two matrices or throws the divide-by-zero exception. If both factors are finite, L has ones on its diagonal and zeros above it, U has zeros below its diagonal, and every element of the exact product L*U differs from that of A by at most ((1+u)^n - 1) (|L||U|)[i][j] + (n + |U[j][j]|) (1+u)^n eta.", "quantifier": "all sizes and contents of every IEEE binary format", "why_tests_cant": "a bound over all contents and sizes", "anchors": ["matrix/matrix_lu.hpp:lu"]}
{"id": "C75", "title": "backward error of the floating point chol", "statement": "chol of floating point elements always returns. A negative diagonal element of A makes that of the factor NaN. If the factor L is finite it has zeros above its diagonal, no negative diagonal element, and for j <= i the element [i][j] of the exact product L*trans(L) differs from A[i][j] by at most ((1+u)^(n+2) - 1) (|L||L|^T)[i][j] + (n + |L[j][j]|) (1+u)^n eta.", "quantifier": "all sizes and contents of every IEEE binary format", "why_tests_cant": "a bound over all contents and sizes", "anchors": ["matrix/matrix_cholesky.hpp:chol"]}
{"id": "C76", "title": "accuracy of the general floating point det", "statement": "For n >= 4 a finite det of a finite matrix differs from the exact determinant by at most half of the sum of the absolute values of the n! products of the determinant (for n <= 3 the difference is a few rounding errors of that sum). (False: the first nonzero pivot is used, however small.)", "quantifier": "all n >= 4 and all finite contents of every IEEE binary format", "why_tests_cant": "needs an adversarial pivot", "anchors": ["matrix/matrix_det.hpp:det"]}
{"id": "C77", "title": "error of floating point convolution", "statement": "For matrices of at most 2^31 rows and columns conv2, conv2_full and conv2_valid of floating point elements return, and every finite element differs from the exact correlation sum (with zero padding for the first two) by at most ((1+u)^9 - 1) times the same sum of absolute values plus 9 (1+u)^8 eta.", "quantifier": "all shapes up to 2^31 by 2^31, all contents and kernels of every IEEE binary format", "why_tests_cant": "a bound over all contents", "anchors": ["matrix/matrix_conv2.hpp:conv2", "matrix/matrix_conv2.hpp:conv2_full"]}
{"id": "C78", "title": "integer elementwise operations", "statement": "On signed integer elements A+B, A-B, A+s, s+A, A-s, A*s, s*A, abs(A) and A/s (s nonzero, truncating toward zero) return exactly the integer results, or stop with signed overflow iff one of these does not fit (for A/s iff s = -1 and an element is the minimum). On unsigned elements + - * give the results modulo 2^w, A/s rounds down, and abs does not compile.", "quantifier": "all shapes, contents, scalars and widths", "why_tests_cant": "wrap-around and overflow corners over all inputs", "anchors": ["matrix/matrix_sum.hpp:sum", "matrix/matrix_sub.hpp:sub", "matrix/matrix_mult.hpp:mult", "matrix/matrix_div.hpp:div", "matrix/matrix_abs.hpp:abs"]}
{"id": "C79", "title": "the det, inv and multiply benchmarks", "statement": "The det benchmark completes whatever is drawn. The inv benchmark completes unless det of the matrix drawn compares equal to zero, and then terminates the program in its first iteration. The multiply benchmarks (always on int) complete iff every element of the product fits an int, the Strassen one iff every intermediate result does; otherwise they run into signed overflow, for instance as soon as the first draws for both matrices are at least 2^16.", "quantifier": "all sequences of draws, sizes (inv: at least 4) and iteration counts", "why_tests_cant": "the benchmarks draw random contents", "anchors": ["bench/det/det.hpp:det", "bench/inv/inv.hpp:inv", "bench/multiply/multiply.hpp:multiply", "bench/multiply/multiply.hpp:multiply_2_2_strassen"]}
{"id": "C80", "title": "histograms and median of floating point matrices", "statement": "Without NaN elements histogram of floating point elements returns keys strictly increasing under <, each the first (in row-major order) of the elements equal to it, mapped to the number of elements that compare equal (so -0 and +0 share an entry); cumulative_histogram maps each key to the number of elements not greater. median is the middle element, or half the rounded sum of the middle two: if these are finite it lies between them, within one rounding error of their mean, or is infinite because their sum overflows; at least half of the elements are not greater and half not less than a finite median. If one element is NaN and two others differ, all three functions have undefined behaviour (< is no strict weak ordering).", "quantifier": "all shapes (fewer than 2^64 elements) and contents of every IEEE binary format, every sorting function", "why_tests_cant": "an ordering and counting property over all contents", "anchors": ["matrix/matrix_histogram.hpp:histogram", "matrix/matrix_histogram.hpp:cumulative_histogram", "matrix/matrix_median.hpp:median"]}
{"id": "C81", "title": "mean, variance, deviation and median of integer matrices", "statement": "For unsigned elements of at most 64 bits mean(A) is the sum modulo 2^w divided by i*j rounding down, var(A) is the sum modulo 2^w of the squared differences from that mean divided by i*j rounding down, and the median of an even number of elements is half the sum modulo 2^w of the middle two. For signed elements whose mean is m, var(A) is the sum of (A[i][j]-m)^2 divided by i*j rounding down, or a signed overflow iff that sum is not representable. stddev returns whenever var does; for a variance below 2^52 it is the integer square root. (Above, the detour through double can round up: chol of the 1x1 matrix {2^64-1} is {2^32}.)", "quantifier": "all non-empty shapes and contents, widths up to 64", "why_tests_cant": "wrap-around and rounding corners over all contents", "anchors": ["matrix/matrix_mean.hpp:mean", "matrix/matrix_var.hpp:var", "matrix/matrix_stddev.hpp:stddev", "matrix/matrix_median.hpp:median", "matrix/matrix_cholesky.hpp:chol"]}
{"id": "C82", "title": "inverses of integer matrices", "statement": "For signed integer matrices of at most three rows whatever inv(A) returns is the adjugate divided by the determinant, each element truncated toward zero; so A*inv(A) is the identity iff the determinant is 1 or -1. Otherwise inv stops with signed overflow, or with the exception (division by zero for 1x1) and the determinant is 0. For four rows the same holds with the value returned by det(A) in place of the determinant, and since that can be wrong (C28) inv of a matrix of determinant 1 can return something that is not its inverse.", "quantifier": "all contents, all widths of at least 2 bits, n = 1..4 (more rows: whenever det is right for the minors)", "why_tests_cant": "an algebraic identity over all contents", "anchors": ["matrix/matrix_inv.hpp:inv"]}
{"id": "C83", "title": "LU factorisation of integer matrices", "statement": "Whatever lu(A) returns for signed integer elements, L is unit lower triangular, U is upper triangular without zeros on its diagonal, L*U equals A on and above the diagonal and differs from A below it by less than the pivot of the column; the multipliers are truncated quotients, which determines L and U. L*U == A iff A has an integer factorisation of this form, and then that one is returned (unless a value overflows). The exception means a zero pivot of this truncated factorisation: lu can throw for matrices with non-zero leading minors and return for singular ones.", "quantifier": "all n, contents and widths of at least 2 bits", "why_tests_cant": "an algebraic identity over all contents", "anchors": ["matrix/matrix_lu.hpp:lu"]}
{"id": "C84", "title": "Cholesky factorisation of integer matrices", "statement": "Whatever chol(A) returns for signed integer elements with diagonal below 2^52 (every int), L is lower triangular with non-negative diagonal, A - L*trans(L) is between 0 and 2*L[i][i] on the diagonal and smaller in size than L[j][j] below it; square roots are rounded down and quotients truncated, which determines L. If A = L*trans(L) for an integer lower triangular L with positive diagonal, that L is returned (unless a value overflows). Positive definite matrices for which chol has undefined behaviour exist: the square root of a negative number, or a division by zero.", "quantifier": "all n, contents and widths of at least 2 bits", "why_tests_cant": "an algebraic identity over all contents", "anchors": ["matrix/matrix_cholesky.hpp:chol"]}
{"id": "C85", "title": "error of the floating point variance and deviation", "statement": "A finite var of N <= 2^p floating point elements differs from the exact variance V by at most E = ((1+u)^(N+3) - 1) V + (1+u)^(N+3) d^2 + ((1+u)^N + 1) eta, where d is the error bound of the mean (C67); a finite stddev differs from sqrt(V) by at most u sqrt(V) + (1+u) sqrt(E) + eta, and if V > 0 by at most u sqrt(V) + (1+u) E/sqrt(V) + eta.", "quantifier": "all non-empty shapes of at most 2^p elements, all contents of every IEEE binary format", "why_tests_cant": "a bound over all contents", "anchors": ["matrix/matrix_var.hpp:var", "matrix/matrix_stddev.hpp:stddev"]}
{"id": "C86", "title": "accuracy of the closed-form floating point inverses", "statement": "inv of a 1x1 matrix with a finite nonzero element is its correctly rounded reciprocal. For 2x2 and 3x3 matrices whose exact determinant d is larger than the error bound E of det (C73) and whose det does not overflow, inv returns, and every finite element differs from that of the exact inverse x by at most u|x| + (1+u)(e + |x|E)/(|d| - E) + eta, where e bounds the error of the cofactor (0 for 2x2). Every singular 2x2 matrix whose det does not overflow is rejected with the exception. (A singular 3x3 matrix may not be, and a 2x2 matrix of determinant 1 may be.)", "quantifier": "all contents of every IEEE binary format", "why_tests_cant": "a bound over all contents", "anchors": ["matrix/matrix_inv.hpp:inv"]}
{"id": "C87", "title": "accuracy of the floating point Strassen product", "statement": "Every finite element of strassen(A,B) differs from that of the exact product by at most ((1+u)^6 - 1) 12 a b + 4 (1+u)^3 eta, where a and b bound the sizes of the elements of A and B. It does not have the elementwise accuracy of A*B (C66): an element that A*B returns exactly can be lost completely.", "quantifier": "all contents of every IEEE binary format", "why_tests_cant": "a bound over all contents", "anchors": ["matrix/matrix_strassen.hpp:strassen"]}
{"id": "C88", "title": "elementwise functions of narrow integer matrices", "statement": "For char, short and their unsigned variants (promoted to int in every expression) A+B, A-B, A+s, s+A, A-s, A++ and A-- always return, and every element is the exact integer result modulo 2^w. A*s returns, with the exact products modulo 2^w, iff every exact product is an int; that is always so for 8-bit and for signed 16-bit elements. For unsigned short it need not be: 65535*65535 is a signed overflow although the element type is unsigned.", "quantifier": "all shapes, contents, scalars and integer types of at most 16 bits", "why_tests_cant": "promotion and wrap-around corners over all contents", "anchors": ["matrix/matrix_sum.hpp:sum", "matrix/matrix_sub.hpp:sub", "matrix/matrix_mult.hpp:mult"]}
{"id": "C89", "title": "products of narrow integer matrices", "statement": "For 8-bit and signed 16-bit elements A*B always returns and every element is that of the exact integer product modulo 2^w, however long the rows are. In general A*B returns this, or a product of two elements added to a partial sum (kept modulo 2^w) is not an int, and that is a signed overflow. strassen does the same as A*B for 8-bit elements. For short it can have a signed overflow where A*B returns.", "quantifier": "all shapes and contents, all integer types of at most 16 bits", "why_tests_cant": "an overflow property over all shapes and contents", "anchors": ["matrix/matrix_mult.hpp:mult", "matrix/matrix_strassen.hpp:strassen"]}
{"id": "C90", "title": "quotients and absolute values of narrow integer matrices", "statement": "A/s with s nonzero always returns and every element is the exact quotient truncated toward zero, modulo 2^w (so the minimum divided by -1 is the minimum again); s = 0 executes a bare throw. abs always returns, for unsigned elements too, and every element is the exact absolute value modulo 2^w (so the minimum stays negative).", "quantifier": "all shapes, contents, scalars and integer types of at most 16 bits", "why_tests_cant": "the corner is one value of one divisor", "anchors": ["matrix/matrix_div.hpp:div", "matrix/matrix_abs.hpp:abs"]}
{"id": "C91", "title": "determinants of narrow integer matrices", "statement": "det of a 2x2 matrix of 8-bit or signed 16-bit elements, and of a 3x3 matrix of 8-bit elements, always returns the exact determinant modulo 2^w. For the other types of at most 16 bits it returns this or has a signed overflow. From 4x4 on the truncating divisions make the result differ from the determinant.", "quantifier": "all contents and integer types of at most 16 bits", "why_tests_cant": "bounds of intermediate results over all contents", "anchors": ["matrix/matrix_det.hpp:det"]}
{"id": "C92", "title": "convolution of narrow integer matrices", "statement": "For 8-bit and signed 16-bit elements conv2, conv2_full and conv2_valid always return, and every element is the exact weighted sum of its neighbourhood (zero outside the matrix) modulo 2^w: there is no saturation, and where the exact sum fits the type the element is exact even if partial sums do not fit. For unsigned short they return this or have a signed overflow.", "quantifier": "all shapes up to 2^31 by 2^31, all contents and kernels, all integer types of at most 16 bits", "why_tests_cant": "overflow of intermediate results over all contents", "anchors": ["matrix/matrix_conv2.hpp:conv2", "matrix/matrix_conv2.hpp:conv2_full", "matrix/matrix_conv2.hpp:conv2_valid"]}
{"id": "C93", "title": "mean, variance and deviation of narrow integer matrices", "statement": "mean of a non-empty matrix of a type of at most 16 bits always returns: the sum modulo 2^w, converted to the element type and divided by the number of elements as an unsigned 64-bit number. So it is the exact mean rounded down if the exact sum is not negative and fits the element type; otherwise it need not be near the elements (two bytes 200 have the mean 72). var of 8-bit elements always returns likewise with the squared differences from that mean; for 16-bit elements it can have a signed overflow, even if all elements are equal. stddev is the integer square root of var, and undefined iff var is negative, which happens for signed elements.", "quantifier": "all non-empty shapes and contents, all integer types of at most 16 bits", "why_tests_cant": "wrap-around over all contents", "anchors": ["matrix/matrix_mean.hpp:mean", "matrix/matrix_var.hpp:var", "matrix/matrix_stddev.hpp:stddev"]}
{"id": "C94", "title": "median of narrow integer matrices", "statement": "median of an odd number of elements of a type of at most 16 bits is the middle one; of an even number it is half the exact sum of the middle two, truncated toward zero, and lies between them. Unlike for int nothing overflows.", "quantifier": "all non-empty shapes of fewer than 2^64 elements, all contents and sorting functions", "why_tests_cant": "an ordering property over all contents", "anchors": ["matrix/matrix_median.hpp:median"]}
{"id": "C95", "title": "compare of narrow integer matrices", "statement": "For elements of a type of at most 16 bits, signed or unsigned, compare with a finite tolerance always returns, true iff no two corresponding elements differ by more than the tolerance; with tolerance 0 it is equality.", "quantifier": "all shapes and contents, all finite tolerances, all integer types of at most 16 bits", "why_tests_cant": "a property over all contents", "anchors": ["matrix/matrix_utils.hpp:compare"]}
{"id": "C96", "title": "larger determinants and inverses of narrow integer matrices", "statement": "det of 8-bit elements always returns, for every size; of signed 16-bit elements too, except for 3x3 matrices; for every type of at most 16 bits the only failure is a signed overflow. From 4x4 on det of a triangular matrix without a zero on its diagonal is the product of the diagonal modulo 2^w; with unsigned elements the sign of a row exchange is stored as 2^w-1 and then divides, so the unsigned char permutation matrix of one exchange has the determinant 0 instead of -1 modulo 256. inv of a matrix of at least 4 rows returns the signed determinants of the minors, transposed and divided with truncation by the stored determinant, modulo 2^w, or throws if that is 0; for 8-bit elements and for signed 16-bit elements with at least 5 rows it never has undefined behaviour.", "quantifier": "all sizes, contents and integer types of at most 16 bits", "why_tests_cant": "overflow and wrap-around over all contents and sizes", "anchors": ["matrix/matrix_det.hpp:det", "matrix/matrix_inv.hpp:inv"]}
{"id": "C97", "title": "LU factorisation of narrow integer matrices", "statement": "What lu returns is determined: sums are stored modulo 2^w, U holds the differences modulo 2^w, L below and on the diagonal the exact int difference divided by the stored pivot, truncated and stored modulo 2^w. For 8-bit and signed 16-bit elements it returns, or throws on a zero pivot; for unsigned short an int can overflow. L*U equals A modulo 2^w on and above the diagonal in the rows where the diagonal element of L is 1, which it is unless the difference stored as the pivot did not fit. If the factors over the integers and their partial sums fit the type, these are returned.", "quantifier": "all sizes, contents and integer types of at most 16 bits", "why_tests_cant": "wrap-around over all contents and sizes", "anchors": ["matrix/matrix_lu.hpp:lu"]}
{"id": "C98", "title": "Cholesky factorisation of narrow integer matrices", "statement": "What chol returns is determined: L is lower triangular, sums are stored modulo 2^w, the diagonal is the integer square root of the exact difference and the rest the truncated quotient modulo 2^w. If the factor over the integers and its partial sums fit the type it is returned. chol stops exactly where the number under the root is negative, the divisor is 0, or (unsigned short only) an int overflows. Because the sum wraps, chol can return for a matrix that is not positive definite.", "quantifier": "all sizes, contents and integer types of 2 to 16 bits", "why_tests_cant": "wrap-around over all contents and sizes", "anchors": ["matrix/matrix_cholesky.hpp:chol"]}
{"id": "C99", "title": "powers of narrow integer matrices", "statement": "For 8-bit and signed 16-bit elements and at least 4 rows, pow(A, p) with p >= 0 always returns the exact power modulo 2^w; for the other types of at most 16 bits it returns this or has a signed overflow. For negative p it is the power of what inv returns, and a failure of inv is the failure of pow; the smallest exponent overflows.", "quantifier": "all sizes, contents, integer types of at most 16 bits and exponents of at least 32 bits", "why_tests_cant": "wrap-around over all exponents", "anchors": ["matrix/matrix_pow.hpp:pow"]}
{"id": "C100", "title": "powers with exponents narrower than int", "statement": "pow(A, p) with an exponent p of a type narrower than int (signed char, unsigned char, short, unsigned short) does what pow with the int of the same value does.", "quantifier": "all matrices, element types, exponent types of at most 16 bits and exponents", "why_tests_cant": "the failing exponent is one value per type, and the matrix decides whether it is visible", "anchors": ["matrix/matrix_pow.hpp:pow"]}
{"id": "C101", "title": "backward stability of the floating point determinant", "statement": "From 4x4 on, if during Gaussian elimination (first nonzero pivot) all elements stay finite and at most G in magnitude and no pivot is below m, then a finite det(A) is, up to the rounding of one product of n factors, the exact determinant of a matrix that differs from A by at most n*(7*u*G + (2+1/m)*eta) in each element, where u is the unit roundoff and eta half the smallest positive number. In particular a result 0 means that a matrix that near is singular up to underflow.", "quantifier": "all sizes, contents and binary floating point formats", "why_tests_cant": "rounding errors over all contents; the exact determinants involved cannot be observed", "anchors": ["matrix/matrix_det.hpp:det"]}
{"id": "C102", "title": "which operator overload a call selects", "statement": "A + B and A - B with two matrices compile exactly when element types and both dimensions agree, A * B exactly when element types and inner dimensions agree. A + s, s + A, A - s, A * s, s * A and A / s compile exactly when the type of s is the element type: no conversion is made, so Matrix<float> + 1 is rejected. s - A is always rejected, and so is every other combination. No call is ever ambiguous, also when the elements are themselves matrices. The same holds of sum, sub, mult and div.", "quantifier": "all operand types, built from std::array and any others, and all dimensions", "why_tests_cant": "a test can only try some instantiations, and cannot contain the calls that do not compile", "anchors": ["matrix/matrix_sum.hpp:operator+", "matrix/matrix_sub.hpp:operator-", "matrix/matrix_mult.hpp:operator*", "matrix/matrix_div.hpp:operator/"]}
{"id": "C103", "title": "integers held in floating point matrices", "statement": "If the elements of a float or double matrix are integers, +, -, * (matrices and scalars), strassen, pow with an exponent that is not negative, det up to 3x3, abs, conv2, conv2_full, conv2_valid, == and isSymetric give exactly what they give on an integer type of at most 25 bits (float) or 54 bits (double), whenever that computation does not overflow: a computation that is defined in int has the same values in double. int does not fit into float.", "quantifier": "all sizes, contents, exponents, signed integer types and binary floating point formats whose precision reaches the integer type", "why_tests_cant": "rounding and overflow over all contents and sizes", "anchors": ["matrix/matrix_sum.hpp:sum", "matrix/matrix_sub.hpp:sub", "matrix/matrix_mult.hpp:mult", "matrix/matrix_pow.hpp:pow", "matrix/matrix_det.hpp:det", "matrix/matrix_conv2.hpp:conv2", "matrix/matrix_strassen.hpp:strassen", "matrix/matrix_abs.hpp:abs"]}
{"id": "C104", "title": "the same computation in a wider signed type", "statement": "A call on a matrix of signed integers that has no undefined behaviour does the same on a wider signed type: the same values, or the same exception or termination. This holds of every arithmetic function: +, -, *, / (matrices and scalars), ++, --, abs, strassen, pow, det, inv, lu, chol, conv2, conv2_full, conv2_valid, compare and isSymetric. It holds of mean when the sum is not negative, and fails for negative sums.", "quantifier": "all sizes, contents, exponents and pairs of signed integer types of at least 2 bits", "why_tests_cant": "overflow and truncation over all contents and sizes", "anchors": ["matrix/matrix_sum.hpp:sum", "matrix/matrix_sub.hpp:sub", "matrix/matrix_mult.hpp:mult", "matrix/matrix_div.hpp:div", "matrix/matrix_pow.hpp:pow", "matrix/matrix_det.hpp:det", "matrix/matrix_inv.hpp:inv", "matrix/matrix_lu.hpp:lu", "matrix/matrix_cholesky.hpp:chol", "matrix/matrix_conv2.hpp:conv2", "matrix/matrix_mean.hpp:mean"]}
{"id": "C105", "title": "converting integer matrices to unsigned types", "statement": "Converting a matrix of signed integers to the unsigned type of the same width, or one of unsigned integers to fewer bits, may be done before or after +, -, *, strassen, pow with an exponent that is not negative, det up to 3x3 and the convolutions, with the same result (for signed elements, if the signed computation does not overflow; for unsigned ones always). It may not be moved across a division.", "quantifier": "all sizes (convolutions of unsigned matrices: dimensions up to 2^31), contents, exponents and widths", "why_tests_cant": "wrap-around over all contents and sizes", "anchors": ["matrix/matrix_sum.hpp:sum", "matrix/matrix_sub.hpp:sub", "matrix/matrix_mult.hpp:mult", "matrix/matrix_pow.hpp:pow", "matrix/matrix_det.hpp:det", "matrix/matrix_conv2.hpp:conv2", "matrix/matrix_div.hpp:div"]}
{"id": "C106", "title": "moving elements before or after a computation", "statement": "A + B, A - B, A + s, A - s, A * s, A / s and abs(A) commute with trans, swap_rows, swap_cols, getminor and the two concatenations. The product of a stacked matrix is the stacked products, the product with a joined matrix the joined products; exchanging rows of the left or columns of the right factor exchanges them in the product; trans(A * B) is trans(B) * trans(A). All of this is equality of every element, not up to rounding, for every element type (for the last law: with commutative multiplication of elements), whenever the calls on the parts return.", "quantifier": "all element types, including floating point, and all sizes, contents and positions", "why_tests_cant": "bit for bit equality of rounded results over all contents and sizes", "anchors": ["matrix/matrix_sum.hpp:sum", "matrix/matrix_sub.hpp:sub", "matrix/matrix_mult.hpp:mult", "matrix/matrix_div.hpp:div", "matrix/matrix_trans.hpp:trans", "matrix/matrix_concatenate.hpp:concatenate", "matrix/matrix_swap.hpp:swap_rows", "matrix/matrix_inv.hpp:getminor"]}
{"id": "C107", "title": "factors of leading blocks", "statement": "If lu(A) returns (L, U), lu of the first k rows and columns of A returns the first k rows and columns of L and of U; chol(A) likewise. So the leading part of a factor does not depend on the rest of the matrix. Conversely, if lu of a leading block of a floating point matrix throws, so does lu of the whole, and whatever stops chol of a leading block stops chol of the whole in the same way. All of this bit for bit, for every element type.", "quantifier": "all element types, sizes, block sizes and contents", "why_tests_cant": "bit for bit equality of rounded results over all contents and sizes", "anchors": ["matrix/matrix_lu.hpp:lu", "matrix/matrix_cholesky.hpp:chol"]}
{"id": "C108", "title": "histograms of matrices of narrow integers", "statement": "For elements narrower than int, histogram(A) maps every value occurring in A to its number of occurrences and has no other entry, in increasing order of the values (so a byte above 127 comes last as unsigned char and first as signed char); cumulative_histogram(A) has the same keys and maps each to the number of elements not greater than it. The counts add up to the number of elements, neither map depends on the arrangement of the elements, and there are at most 2^w entries for w-bit elements however large the matrix is.", "quantifier": "all integer types of at most 16 bits, sizes with less than 2^64 elements, and contents", "why_tests_cant": "counting over all contents and sizes", "anchors": ["matrix/matrix_histogram.hpp:histogram", "matrix/matrix_histogram.hpp:cumulative_histogram"]}
{"id": "C109", "title": "memory safety and definedness for narrow integers", "statement": "For elements narrower than int, no function reads or writes outside a matrix or vector, or reads an uninitialised element: zeros, ones, eye, the operators, strassen, abs, det, inv from 4x4 on, lu, chol, isSymetric, pow, the convolutions (dimensions up to 2^31), mean, var, stddev, median of a non-empty matrix, the histograms and compare. For 8-bit elements there is no undefined behaviour of any kind in +, -, *, abs, strassen, det, the convolutions and pow with an exponent that is not negative, which always return; /, lu and the general inverse return or throw (given that an exception is being handled where the code rethrows).", "quantifier": "all integer types of at most 16 bits, sizes and contents; for median all sorting functions that keep the length", "why_tests_cant": "an out of bounds access need not be observable, and contents and sizes are unbounded", "anchors": ["matrix/matrix_mult.hpp:mult", "matrix/matrix_det.hpp:det", "matrix/matrix_inv.hpp:inv", "matrix/matrix_lu.hpp:lu", "matrix/matrix_cholesky.hpp:chol", "matrix/matrix_pow.hpp:pow", "matrix/matrix_conv2.hpp:conv2", "matrix/matrix_median.hpp:median", "matrix/matrix_utils.hpp:compare"]}
{"id": "C110", "title": "accuracy of floating point powers", "statement": "pow(A, p) with p >= 1 returns; if the result is finite, every element differs from that of the exact power of A by at most ((1+u)^(n(p-1)) - 1) times the element of the p-th power of the matrix of absolute values, plus (1+u)^(n(p-1)) ((1 + n^2 eta)^(p-1) - 1) g^p / n for underflow, where g >= 1 bounds the absolute row and column sums. The result is finite whenever (1+u)^(n(p-1)) (1 + n^2 eta)^(p-1) g^p is at most the largest finite number. pow(A, 0) is exactly the identity, pow(A, -1) has exactly the values of a finite inv(A), and for smaller exponents the bound holds relative to powers of the computed inverse.", "quantifier": "all sizes from 1x1, contents, exponents (the smallest of the type excepted) and binary floating point formats", "why_tests_cant": "rounding errors over all contents, sizes and exponents; the exact power cannot be observed", "anchors": ["matrix/matrix_pow.hpp:pow", "matrix/matrix_mult.hpp:mult"]}
{"id": "C111", "title": "accuracy of floating point inverses from 4x4 on", "statement": "From 4x4 on every element of inv(A) is the correctly rounded quotient of the computed determinant of a minor, with the sign of the cofactor applied exactly, and the computed determinant of A. So if those determinants have errors at most e and E, with E below the magnitude of the exact determinant, a finite element x of the inverse has an error of at most u|x| + (1+u)(e + |x|E)/(|det A| - E) + eta; for 4x4 matrices e is the error bound of 3x3 determinants. If the determinant is computed as zero the exception being handled is rethrown, or the program terminates; this can happen to an invertible matrix.", "quantifier": "all sizes from 4x4, contents and binary floating point formats", "why_tests_cant": "rounding errors over all contents and sizes; the exact inverse cannot be observed", "anchors": ["matrix/matrix_inv.hpp:inv", "matrix/matrix_det.hpp:det", "matrix/matrix_div.hpp:div"]}
{"id": "C112", "title": "printed integers can be read back", "statement": "print(A) writes every element of a matrix of short, int, long or their unsigned types in decimal, with a minus sign if negative and without leading zeros. Reading the words of the output (separated by spaces and line breaks) as integers gives exactly the elements, row by row. The output determines the number of rows, the number of elements and, given the shape, the matrix.", "quantifier": "all integer types of at least 16 bits except character types, all sizes and contents", "why_tests_cant": "the output for all contents and sizes", "anchors": ["matrix/matrix_print.hpp:print", "matrix/matrix_print.hpp:print_num"]}
{"id": "C113", "title": "8-bit integers are printed as characters", "statement": "print(A) of a matrix of int8_t or uint8_t does not write numbers: every element becomes the single character with that code, followed by a space, so the output has exactly rows * (2 * columns + 1) characters whatever the values are. Given the shape the output determines the matrix, but reading its words does not give the elements: an element 48 is printed as 0, an element 32 as nothing visible, an element 10 as a line break.", "quantifier": "all sizes and contents of matrices of 8-bit integers", "why_tests_cant": "the output for all contents and sizes", "anchors": ["matrix/matrix_print.hpp:print", "matrix/matrix_print.hpp:print_num"]}
{"id": "C114", "title": "accuracy of printed floating point numbers", "statement": "Reading the words of a printed matrix of finite floating point numbers as decimal numbers gives, row by row, for every element a number with at most six significant digits nearest to it (in a tie, with an even last digit), so with a relative error of at most 5e-6. An element that has at most six significant digits is printed exactly, and an integer below a million as its digits, without point or exponent. An exponent (with a sign and at least two digits) is printed exactly if the printed number is not zero and below 1e-4 or at least 1e6 in magnitude, and a fraction never ends with a zero. nan, inf and -inf are printed for the non-finite elements only. Different matrices can have the same output, even with integers as elements.", "quantifier": "all sizes, contents and binary floating point formats", "why_tests_cant": "decimal rounding of every representable number, over all contents and sizes", "anchors": ["matrix/matrix_print.hpp:print", "matrix/matrix_print.hpp:print_num"]}
{"id": "C115", "title": "operators on matrices of bool", "statement": "On Matrix<bool, i, j>, + is the elementwise or, - is the elementwise exclusive or, * with a bool is and, A++ makes every element true and A-- inverts every element (both return the old matrix), abs is the identity, and division by true returns A while division by false rethrows the exception being handled or terminates. Hence - does not undo +: (A - B) + B is A + B, and (A + B) - B is true exactly where A is true and B is not. zeros, ones and eye are all false, all true and the identity.", "quantifier": "all sizes and contents", "why_tests_cant": "all contents and sizes; the result depends on the conversion of every intermediate int to bool", "anchors": ["matrix/matrix_sum.hpp:sum", "matrix/matrix_sub.hpp:sub", "matrix/matrix_mult.hpp:mult", "matrix/matrix_div.hpp:div", "matrix/matrix_abs.hpp:abs", "matrix/matrix_sum.hpp:operator++", "matrix/matrix_sub.hpp:operator--"]}
{"id": "C116", "title": "products and powers of matrices of bool", "statement": "A * B of bool matrices is the Boolean product: true at (a, b) exactly if some k has A[a][k] and B[k][b]. It is associative, distributes over + and has eye() as neutral element. Taking A as the adjacency matrix of a graph, pow(A, p) with p >= 0 is true at (a, b) exactly if there is a walk of p steps from a to b, and pow(A + eye(), p) with p >= n - 1 exactly if b can be reached from a. The only matrices with a right inverse are the permutation matrices.", "quantifier": "all sizes, contents and exponents", "why_tests_cant": "graphs of all sizes and walks of all lengths", "anchors": ["matrix/matrix_mult.hpp:mult", "matrix/matrix_pow.hpp:pow", "matrix/matrix_sum.hpp:sum"]}
{"id": "C117", "title": "determinants of bool matrices", "statement": "det(A) of a bool matrix always returns. Let D be the determinant of the matrix of zeros and ones. For 1x1 to 3x3 matrices det(A) is true exactly if D is not zero; from 4x4 on it is true exactly if D is odd. So the two rules disagree: bordering a 3x3 matrix of determinant 2 by the identity turns true into false.", "quantifier": "all sizes and contents", "why_tests_cant": "all contents and sizes", "anchors": ["matrix/matrix_det.hpp:det"]}
{"id": "C118", "title": "inverses of bool matrices", "statement": "inv(A) of an invertible bool matrix (determinant of the zeros and ones odd), from 4x4 on, is its inverse modulo 2; if the determinant is even the exception being handled is rethrown, or the program terminates. inv(A) is an inverse for the library's own * only if A is a permutation matrix. pow(A, -p) is the p-th power of inv(A).", "quantifier": "all sizes from 4x4, contents and exponents", "why_tests_cant": "all contents and sizes", "anchors": ["matrix/matrix_inv.hpp:inv", "matrix/matrix_det.hpp:det", "matrix/matrix_pow.hpp:pow"]}
{"id": "C119", "title": "convolutions of bool matrices", "statement": "conv2, conv2_full and conv2_valid of bool matrices are dilations by the kernel: an element of the result is true exactly if some true element of the kernel lies over a true element of the matrix. They always return.", "quantifier": "all sizes up to 2^31 per dimension and all contents", "why_tests_cant": "all contents and sizes", "anchors": ["matrix/matrix_conv2.hpp:conv2", "matrix/matrix_conv2.hpp:conv2_full", "matrix/matrix_conv2.hpp:conv2_valid"]}
{"id": "C120", "title": "statistics, comparison and printing of bool matrices", "statement": "mean of a bool matrix with at least two elements is false whatever the elements are (of one element it is that element, of none it divides by zero); var and stddev are false for every matrix that is not empty. median is the strict majority: true exactly if more than half of the elements are true. histogram maps each value that occurs to its number of occurrences, false first; cumulative_histogram maps true to the number of elements. compare with a tolerance of at least 0 and less than 1 is equality, with 1 or more or NaN always true. print writes 1 for true and 0 for false.", "quantifier": "all sizes and contents; for median all sorting functions", "why_tests_cant": "all contents and sizes", "anchors": ["matrix/matrix_mean.hpp:mean", "matrix/matrix_var.hpp:var", "matrix/matrix_stddev.hpp:stddev", "matrix/matrix_median.hpp:median", "matrix/matrix_histogram.hpp:histogram", "matrix/matrix_utils.hpp:compare", "matrix/matrix_print.hpp:print"]}
{"id": "C121", "title": "factorisations of bool matrices", "statement": "If lu(A) of a bool matrix returns (L, U), L is lower and U upper triangular, both with a true diagonal, they are determined by the recurrence in which sums are or and differences are exclusive or, and L * U is true wherever A is true, but it can be true elsewhere too. Otherwise lu throws, at a false pivot. If chol(A) returns L for a symmetric A, L is lower triangular and L * trans(L) is true wherever A is true, but possibly elsewhere too. Otherwise chol divides by zero at a false pivot. isSymetric is equality with the transpose. strassen(A, B) is not A * B.", "quantifier": "all sizes and contents", "why_tests_cant": "all contents and sizes", "anchors": ["matrix/matrix_lu.hpp:lu", "matrix/matrix_cholesky.hpp:chol", "matrix/matrix_cholesky.hpp:isSymetric", "matrix/matrix_strassen.hpp:strassen"]}
{"id": "C122", "title": "no undefined behaviour for bool matrices", "statement": "For bool matrices there is no undefined behaviour of any kind in +, -, *, abs, strassen, det, the convolutions, isSymetric, compare and pow with an exponent that is not negative, and in mean, var, stddev, median and the histograms of a matrix that is not empty: they return for all contents. /, lu, inv and pow with a negative exponent (the smallest excepted) return or throw, given that an exception is being handled where the code rethrows.", "quantifier": "all sizes (dimensions up to 2^31 for the convolutions, fewer than 2^64 elements for the statistics) and contents", "why_tests_cant": "undefined behaviour need not be observable, and contents and sizes are unbounded", "anchors": ["matrix/matrix_mult.hpp:mult", "matrix/matrix_det.hpp:det", "matrix/matrix_inv.hpp:inv", "matrix/matrix_lu.hpp:lu", "matrix/matrix_pow.hpp:pow", "matrix/matrix_conv2.hpp:conv2", "matrix/matrix_median.hpp:median", "matrix/matrix_utils.hpp:compare"]}
{"id": "C123", "title": "products of a matrix with its transpose are symmetric", "statement": "Whenever they return, A * trans(A), trans(A) * A and A + trans(A) equal their own transpose exactly, for integers of every width, floating point and exact elements; so do the square and all 2^k-th powers of a symmetric matrix (elements that are not promoted). isSymetric(A * trans(A)) is true for int and unsigned elements; for floating point it is true exactly if there is no NaN off the diagonal, and if row i of A has no NaN, element (i, i) of A * trans(A) is not negative and not NaN. Other floating point powers of a symmetric matrix need not be symmetric.", "quantifier": "all sizes, contents and element types", "why_tests_cant": "rounding depends on the order of the operations, and contents and sizes are unbounded", "anchors": ["matrix/matrix_mult.hpp:mult", "matrix/matrix_trans.hpp:trans", "matrix/matrix_sum.hpp:sum", "matrix/matrix_pow.hpp:pow", "matrix/matrix_cholesky.hpp:isSymetric"]}
{"id": "C124", "title": "the mean of floating point data lies in the range of the data", "statement": "mean of a matrix of finite floating point numbers is not less than the smallest and not greater than the largest element; in particular the mean of a constant matrix is the constant and its variance is zero. And if no element of A exceeds that of B at the same place, mean(A) does not exceed mean(B).", "quantifier": "all formats, sizes and finite contents", "why_tests_cant": "rounding errors depend on contents and sizes", "anchors": ["matrix/matrix_mean.hpp:mean", "matrix/matrix_var.hpp:var"]}
{"id": "C125", "title": "floating point functions are monotone", "statement": "Rounding never reverses an order: if no element of A exceeds that of B at the same place, the same holds of A + C and B + C, of C - B and C - A, and of the products with a scalar or a matrix without negative elements, of powers of matrices without negative elements, and of conv2, conv2_full and conv2_valid with a kernel without negative elements.", "quantifier": "all formats, sizes and finite contents (for + and - all contents), at the elements of the results that are not NaN; for powers, finite results", "why_tests_cant": "contents and sizes are unbounded", "anchors": ["matrix/matrix_sum.hpp:sum", "matrix/matrix_sub.hpp:sub", "matrix/matrix_mult.hpp:mult", "matrix/matrix_pow.hpp:pow", "matrix/matrix_conv2.hpp:conv2"]}
{"id": "C126", "title": "forward error of the determinant and the inverse from 4x4 on", "statement": "If during the elimination no element exceeds G in magnitude and no pivot is below m, a finite det(A) of a floating point matrix from 4x4 on differs from the exact determinant by at most a bound that depends only on |A|, G, m, the size and the format. If the exact determinant is larger than the bound, a finite det(A) has its sign and is not zero; if in addition det(A) is finite, inv(A) returns. If the eliminations of the minors are bounded in the same way (3x3 minors need no bound), each finite element of it is that of the exact inverse up to the error of the quotient of the two determinants.", "quantifier": "all formats, sizes from 4x4 on, contents and bounds", "why_tests_cant": "rounding errors depend on contents and sizes", "anchors": ["matrix/matrix_det.hpp:det", "matrix/matrix_inv.hpp:inv"]}
{"id": "C127", "title": "changing the sign of floating point arguments changes the sign of results at most", "statement": "Multiplying a floating point matrix by -1 only flips the signs, and doing it twice restores it. Up to the sign of zeros, the results for -A and -B are then exactly those for A and B or their negatives, never a differently rounded value: (-A) + (-B) and (-A) - (-B) are negated; a product, strassen or a convolution is negated if one argument is and unchanged if both are; mean and inv are negated; var and stddev are unchanged; det is negated exactly for odd sizes, pow exactly for odd exponents, of either sign; lu keeps L and negates U. abs, isSymetric and compare give the same. In all cases one call throws or stops exactly if the other does.", "quantifier": "all formats, sizes and contents, infinities and NaN included", "why_tests_cant": "rounding and pivoting depend on contents, and contents and sizes are unbounded", "anchors": ["matrix/matrix_mult.hpp:mult", "matrix/matrix_sum.hpp:sum", "matrix/matrix_sub.hpp:sub", "matrix/matrix_strassen.hpp:strassen", "matrix/matrix_conv2.hpp:conv2", "matrix/matrix_mean.hpp:mean", "matrix/matrix_var.hpp:var", "matrix/matrix_det.hpp:det", "matrix/matrix_inv.hpp:inv", "matrix/matrix_lu.hpp:lu", "matrix/matrix_pow.hpp:pow", "matrix/matrix_abs.hpp:abs", "matrix/matrix_utils.hpp:compare"]}
{"id": "C128", "title": "chol accepts exactly the floating point matrices that are safely positive definite", "statement": "Let A be a symmetric floating point matrix of finite elements, with scales d_i whose squares are not below the diagonal elements, and g = (1+u)^(n+2) - 1 (n + 2 roundings). If x'Ax >= 6g(sum |x_i| d_i)^2 for all vectors x, and nothing is near the limits of the format, chol(A) returns a factor L of finite elements with positive diagonal, and L*trans(L) differs from A by at most 5g d_i d_j at (i, j). Conversely, if all elements of chol(A) are finite, x'Ax >= -5g(sum |x_i| d_i)^2 for all x; so a matrix that is indefinite by more than that gives an infinite or NaN element. In particular chol succeeds if the smallest eigenvalue is at least 6gn times the largest diagonal element, or if each diagonal element exceeds the sum of the magnitudes of the others in its row by that much.", "quantifier": "all formats, sizes and contents within the stated bounds", "why_tests_cant": "rounding errors depend on contents and sizes", "anchors": ["matrix/matrix_cholesky.hpp:chol", "matrix/matrix_cholesky.hpp:isSymetric"]}
{"id": "C129", "title": "det and inv of diagonally dominant floating point matrices", "statement": "Let A be a floating point matrix from 4x4 on in which every diagonal element exceeds the sum of the magnitudes of the others in its row by at least m, and every row sum of magnitudes is at most R; let m be large compared with n^2 rounding errors of numbers of size R, and R small enough that products do not overflow. Then det(A) never exchanges rows, meets no element larger than 2R and no pivot smaller than m/2 in magnitude, returns a finite number within the error bound of C126 of the exact determinant, and its sign is not opposite to that of the product of the diagonal. If moreover m >= 2, det(A) is at least 1 in magnitude with exactly that sign, and inv(A) returns, whatever the context.", "quantifier": "all formats, sizes from 4x4 on and contents within the stated bounds", "why_tests_cant": "rounding errors depend on contents and sizes", "anchors": ["matrix/matrix_det.hpp:det", "matrix/matrix_inv.hpp:inv"]}
{"id": "C130", "title": "lu of floating point matrices with dominant columns", "statement": "Let A be a floating point matrix in which every diagonal element exceeds the sum of the magnitudes of the others in its column by at least m, every column sum of magnitudes is at most C, e = 4((1+u)^n - 1)(n+1)C plus an underflow term, 4(n+1)e <= m, and 4(n+1)C is within the range of the format. Then lu(A) does not throw; both factors are finite; below the diagonal the magnitudes of each column of L add up to at most 1; no element of U exceeds 2C; each pivot is at least m/2 in magnitude with the sign of the diagonal element of A; and the exact product L*U differs from A by at most e in every element.", "quantifier": "all formats, sizes and contents within the stated bounds", "why_tests_cant": "rounding errors depend on contents and sizes", "anchors": ["matrix/matrix_lu.hpp:lu"]}
{"id": "C131", "title": "determinant, minors, inverse, lu and chol agree with each other", "statement": "In exact arithmetic the results of the linear algebra functions fit together. Expanding along any row or column with getminor and det gives det(A). The elements of inv(A) are the signed determinants of the minors over det(A). If inv(A) returns B, then A*X == Y exactly if B*Y == X, and X*A == Y exactly if Y*B == X. If lu(A) returns (L, U), inv(A) returns inv(U)*inv(L). For symmetric A, U is trans(L) with its rows scaled by the pivots; det(A) is the squared product of the diagonal of chol(A); if that diagonal has no zeros, lu(A) returns the factor of chol with its columns divided by the diagonal, and its transpose with the rows multiplied by it. For symmetric real A the following are equivalent: chol returns a positive diagonal, lu returns positive pivots, all leading principal minors are positive. For positive definite A, det(A) is positive and inv(A) returns a positive definite matrix.", "quantifier": "all sizes and contents; all exact fields, for chol exact ordered fields with square roots, for positive definiteness the reals", "why_tests_cant": "contents and sizes are unbounded", "anchors": ["matrix/matrix_det.hpp:det", "matrix/matrix_inv.hpp:inv", "matrix/matrix_inv.hpp:getminor", "matrix/matrix_lu.hpp:lu", "matrix/matrix_cholesky.hpp:chol", "matrix/matrix_mult.hpp:mult"]}
{"id": "C132", "title": "diagonally dominant matrices in exact arithmetic", "statement": "If every diagonal element exceeds the sum of the magnitudes of the others in its row, or in each case in its column, lu(A) and inv(A) return. The magnitude of det(A) lies between the product of the amounts by which the diagonal elements dominate and the product of the sums of magnitudes of the rows (columns). If the rows dominate by at least m, the magnitudes in each row of inv(A) add up to at most 1/m, and inv(A)*Y is at most 1/m times as large as Y. A symmetric real A with positive diagonal and dominant rows is positive definite, and chol(A) returns a factor with positive diagonal.", "quantifier": "all exact ordered fields, sizes and contents; for chol the reals", "why_tests_cant": "contents and sizes are unbounded", "anchors": ["matrix/matrix_lu.hpp:lu", "matrix/matrix_inv.hpp:inv", "matrix/matrix_det.hpp:det", "matrix/matrix_cholesky.hpp:chol"]}
{"id": "C133", "title": "statistics of joined matrices", "statement": "concatenate (of matrices of different shape), concatenateV and concatenateH return a matrix with the elements of both arguments, and for any matrix C with the elements of A and of B, however arranged: the histogram counts of A and B add up to those of C, for every set of values; mean(C) is the mean of mean(A) and mean(B) weighted with the sizes; var(C) is the weighted mean of the variances plus the product of the two shares times the squared difference of the means; median(C) lies between median(A) and median(B).", "quantifier": "all sizes and contents; mean, var and median over all exact ordered fields, for non-empty matrices; histogram over all linearly ordered element types; histogram and median up to 2^64 - 1 elements", "why_tests_cant": "contents and sizes are unbounded", "anchors": ["matrix/matrix_concatenate.hpp:concatenate", "matrix/matrix_mean.hpp:mean", "matrix/matrix_var.hpp:var", "matrix/matrix_median.hpp:median", "matrix/matrix_histogram.hpp:histogram"]}
{"id": "C134", "title": "how the statistics relate to each other", "statement": "In exact arithmetic mean(A) and var(A) do not depend on the arrangement of the elements; mean(A + B) is mean(A) + mean(B); mean and var can be read off the histogram as weighted sums over its keys; the median of an odd number of elements is the smallest key of the cumulative histogram with more than half of the elements. median(A + s) is median(A) + s and median(A * s) is median(A) * s, also for negative s. At most var(A)/t^2 of the elements are t or more away from the mean; mean and median differ by at most the standard deviation; if all elements lie between lo and hi, var(A) is at most (hi - mean)(mean - lo), and at most a quarter of (hi - lo)^2.", "quantifier": "all exact ordered fields, sizes and contents, for non-empty matrices, those concerning histogram and median up to 2^64 - 1 elements", "why_tests_cant": "contents and sizes are unbounded", "anchors": ["matrix/matrix_mean.hpp:mean", "matrix/matrix_var.hpp:var", "matrix/matrix_median.hpp:median", "matrix/matrix_histogram.hpp:histogram", "matrix/matrix_histogram.hpp:cumulative_histogram"]}
{"id": "C135", "title": "laws of convolution", "statement": "An element of conv2(A, kernel) depends only on the element of A at the same place and its eight neighbours, and when conv2_full(A, kernel) returns, conv2(A, kernel) returns its central part; both for every element type, bit for bit. In exact arithmetic: trans(conv2(A, K)) == conv2(trans(A), trans(K)), and the same for conv2_full; two filters applied with conv2_full can be applied in either order; the elements of conv2_full(A, K) add up to the product of the sums of the elements of A and K; multiplying conv2(A, K) by B element by element and adding up gives the same as with A and conv2(B, K turned by 180 degrees); and a kernel that is a column times a row can be applied as a row kernel followed by a column kernel.", "quantifier": "all sizes up to 2^31 rows and columns (2^31 - 2 for two filters after each other, 2^32 - 2 for the first two laws), all matrices and kernels; every element type for the first two laws, every commutative ring for the others", "why_tests_cant": "unit tests convolve a few small matrices; these laws relate different calls for all of them, borders included", "anchors": ["matrix/matrix_conv2.hpp:conv2", "matrix/matrix_conv2.hpp:conv2_full", "matrix/matrix_trans.hpp:trans"]}
{"id": "C136", "title": "which functions can be used with complex elements", "statement": "Matrices of std::complex<t> can be created, printed, transposed, joined, added, subtracted, multiplied (also by Strassen's algorithm), compared, convolved and given to chol, whatever t is. median and the histograms do not compile for them, as complex numbers are not ordered. mean, var and stddev compile only for t = std::size_t, because they divide by a std::size_t; division, lu, inv, pow and, except for 1x1 to 3x3 matrices, det compile only for t = int, because they mix elements with int literals. For built-in types none of these restrictions exists.", "quantifier": "all types t, all functions and sizes", "why_tests_cant": "an instantiation that does not compile cannot be part of a unit test; there are infinitely many types", "anchors": ["matrix/matrix_type.hpp:matrix", "matrix/matrix_div.hpp:div", "matrix/matrix_lu.hpp:lu", "matrix/matrix_inv.hpp:inv", "matrix/matrix_det.hpp:det", "matrix/matrix_mean.hpp:mean", "matrix/matrix_median.hpp:median", "matrix/matrix_histogram.hpp:histogram"]}
{"id": "C137", "title": "chol of complex matrices uses the transpose without conjugation", "statement": "In exact complex arithmetic chol(A) of a symmetric A returns exactly if the leading principal minors of orders 1 to n - 1 are not zero. The result L is lower triangular with principal square roots on the diagonal, and L*trans(L) agrees with A on and below the diagonal; for symmetric A it equals A. A lower triangular matrix with such a diagonal without zeros is what chol(L*trans(L)) returns. On real symmetric matrices with a positive factor it returns what the real instantiation does. It is not the usual factorisation of Hermitian matrices: if the product of L and its conjugate transpose is A, then A is real. isSymetric accepts a Hermitian matrix only if it is real.", "quantifier": "all sizes and complex contents", "why_tests_cant": "contents and sizes are unbounded", "anchors": ["matrix/matrix_cholesky.hpp:chol", "matrix/matrix_cholesky.hpp:isSymetric", "matrix/matrix_trans.hpp:trans"]}
{"id": "C138", "title": "sums and products of complex floating point matrices are accurate", "statement": "Sums and differences of matrices of std::complex<float> or std::complex<double> are rounded once in each part. For the product of an n x m and an m x p matrix, each part of an element that is finite differs from that of the exact product by at most (1+u)^(m+1) - 1 times the sum of the magnitudes of the terms it consists of, plus an underflow term. Products of matrices of Gaussian integers are exact as long as these magnitudes add up to at most 2^p. In A*s each part is that of the textbook formula, unless the formula gives NaN for both parts.", "quantifier": "all formats, sizes and contents; any result of the complex multiplication in the cases in which the textbook formula gives NaN in both parts, provided it is not finite", "why_tests_cant": "rounding errors depend on contents and sizes", "anchors": ["matrix/matrix_mult.hpp:mult", "matrix/matrix_sum.hpp:sum", "matrix/matrix_sub.hpp:sub"]}
{"id": "C139", "title": "initialising and ordering matrices", "statement": "Matrix<T, r, c> A = { x1, ..., xk } lists the elements row by row; elements not listed are zero, and more than r*c do not compile. With every row in braces another pair of braces is needed around the rows: { { {...}, {...} } } gives the rows, short and missing ones filled up with zeros, long or additional ones do not compile; { {...}, {...} } with two or more rows does not compile. A < B is decided by the first elements, row by row, that differ; exactly one of A < B, A == B and B < A holds, and < is transitive, so that matrices can be sorted or used as keys.", "quantifier": "all sizes of at least 1 and all lists of initialisers of the element type; the order for all linearly ordered element types", "why_tests_cant": "sizes, contents and lengths of the lists are unbounded, and initialisers that do not compile cannot be part of a unit test", "anchors": ["matrix/matrix_type.hpp:Matrix", "matrix/matrix_inv.hpp:inv", "matrix/matrix_strassen.hpp:strassen"]}
{"id": "C140", "title": "equal floating point matrices give equal results", "statement": "A == B holds exactly if the elements are the same, +0 and -0 not being told apart, and none is NaN; A == A exactly if A has no NaN. For equal arguments every function gives equal results, element by element (NaN where the other is NaN), or stops in the same way: sums, differences, products, quotients, abs, strassen, the convolutions, mean, var, stddev, det, inv except for 1x1 matrices, lu, pow (for 1x1 matrices with exponents that are not negative), isSymetric, compare and ==, and chol as long as it does not divide by a zero on the diagonal of the factor. The exceptions are real: there are equal matrices whose 1x1 inverses, Cholesky factors and printed forms differ.", "quantifier": "all formats, sizes and contents", "why_tests_cant": "contents and sizes are unbounded; unit tests do not distinguish the zeros", "anchors": ["matrix/matrix_sum.hpp:sum", "matrix/matrix_mult.hpp:mult", "matrix/matrix_conv2.hpp:conv2", "matrix/matrix_det.hpp:det", "matrix/matrix_inv.hpp:inv", "matrix/matrix_lu.hpp:lu", "matrix/matrix_pow.hpp:pow", "matrix/matrix_cholesky.hpp:chol", "matrix/matrix_utils.hpp:compare", "matrix/matrix_print.hpp:print"]}
{"id": "C141", "title": "matrix algebra with complex elements", "statement": "In exact complex arithmetic A + B, A - B, A*s, A*B and strassen are the operations of linear algebra, det is the determinant for 1x1 to 3x3 matrices, and conv2 multiplies by the kernel without conjugating it. trans does not conjugate: it gives the conjugate transpose exactly of real matrices. abs gives the moduli, and compare(A, B, eps) is true exactly if the modulus of every difference is at most eps. Conjugating the operands of a sum, difference, product, conv2 or small det conjugates the result, and real matrices stored in a complex type give the results of the real type.", "quantifier": "all sizes (up to 2^31 rows and columns for conv2) and complex contents", "why_tests_cant": "contents and sizes are unbounded", "anchors": ["matrix/matrix_sum.hpp:sum", "matrix/matrix_sub.hpp:sub", "matrix/matrix_mult.hpp:mult", "matrix/matrix_strassen.hpp:strassen", "matrix/matrix_trans.hpp:trans", "matrix/matrix_abs.hpp:abs", "matrix/matrix_utils.hpp:compare", "matrix/matrix_conv2.hpp:conv2", "matrix/matrix_det.hpp:det"]}
{"id": "C142", "title": "evaluating float operations in double changes nothing", "statement": "If every single operation on floats (+, -, *, /, sqrt, abs, comparisons) is evaluated in double and its result converted back, all functions give the same results as with operations in float, bit for bit; in particular stddev and chol do not depend on whether the unqualified sqrt is the function for float or for double. The same holds for any two formats of which one has twice the range and twice the precision plus 5 bits of the other. Converting a matrix to the wider format and back changes nothing, and sums, differences, products and quotients by a scalar, abs, == and isSymetric may be computed in the wider format as a whole. Matrix products may not: there the sums are not rounded in between, and the results can differ.", "quantifier": "all such pairs of formats, sizes and contents, including NaN, infinities, subnormals and overflow", "why_tests_cant": "there are 2^64 pairs of floats for each operation, and double rounding goes wrong only near midpoints", "anchors": ["matrix/matrix_stddev.hpp:stddev", "matrix/matrix_cholesky.hpp:chol", "matrix/matrix_sum.hpp:sum", "matrix/matrix_sub.hpp:sub", "matrix/matrix_mult.hpp:mult", "matrix/matrix_div.hpp:div", "matrix/matrix_abs.hpp:abs"]}
{"id": "C143", "title": "fused multiply-adds keep the error bounds", "statement": "A compiler may evaluate a*b + c with one rounding instead of two (FP_CONTRACT), and decide so for each operation separately. Whatever it decides, finite results of matrix products, conv2, conv2_full, conv2_valid and of 2x2 and 3x3 determinants satisfy the error bounds proved without contraction, finite factors of lu and chol their backward error bounds, products of integer matrices are exact under the same condition, and the variance of a finite matrix is not negative and not NaN. Sums, differences, products and quotients by a scalar, mean, determinants of order 4 and above and inverses of order 5 and above of matrices in memory have nothing to contract and give the same results. What is lost: a singular 2x2 matrix is no longer always rejected by inv; that of which all elements are 4097 is inverted, as its determinant is computed as 1.", "quantifier": "all formats, sizes (up to 2^31 for convolutions) and contents, all choices of the operations to contract that treat the same expression alike", "why_tests_cant": "whether operations are contracted depends on compiler, flags and target; a test sees one choice", "anchors": ["matrix/matrix_mult.hpp:mult", "matrix/matrix_conv2.hpp:conv2", "matrix/matrix_conv2.hpp:conv2_full", "matrix/matrix_conv2.hpp:conv2_valid", "matrix/matrix_det.hpp:det", "matrix/matrix_inv.hpp:inv", "matrix/matrix_lu.hpp:lu", "matrix/matrix_cholesky.hpp:chol", "matrix/matrix_var.hpp:var", "matrix/matrix_mean.hpp:mean"]}
{"id": "C144", "title": "memory is given back", "statement": "median asks for memory once, for all the elements at a time (not at all for a matrix without elements), and has released it when it returns or throws. histogram asks once for each different value and cumulative_histogram twice; on return only the nodes of the returned map are still in use, and destroying that map releases them. Whichever request for memory is refused, the function throws std::bad_alloc, everything it had obtained has been released, nothing is released twice and nothing else is released. If no request is refused, results are those of unlimited memory.", "quantifier": "all sizes, contents, states of the memory and sequences of granted and refused requests; elements ordered by <", "why_tests_cant": "a test cannot make every request for memory fail in turn for every matrix", "anchors": ["matrix/matrix_median.hpp:median", "matrix/matrix_histogram.hpp:histogram", "matrix/matrix_histogram.hpp:cumulative_histogram"]}
{"id": "C145", "title": "print with other output functions and on streams that fail", "statement": "Whatever print_num and print_endl do, print calls print_num with the elements of each row from left to right and print_endl after each row, nothing else, and an exception ends it; with the empty functions used without PRINT_IOSTREAM_ENABLE it does nothing. On std::cout a width set by the user (std::setw) is applied to the first element only, the rest is written as with width 0. If the device behind the stream fails, what has been written is a beginning of the text up to the failure; print then throws std::ios_base::failure if exceptions are enabled for badbit, and returns as usual if not. If the device takes everything, the whole text is written.", "quantifier": "all sizes, contents, output functions, stream states (good on entry) and devices", "why_tests_cant": "output functions and failing devices are arbitrary", "anchors": ["matrix/matrix_print.hpp:print", "matrix/matrix_print.hpp:print_num", "matrix/matrix_print.hpp:print_endl"]}
{"id": "C146", "title": "how calls end for arbitrary element types", "statement": "Whatever exceptions the operations of the element type throw (or however else they stop), a call of the library that does not return ends like one of the operations the function is made of: + and - like additions and subtractions, products like + and * of elements, det like -, * and / (+ only for 3x3, nothing at 1x1), chol like +, -, *, / and sqrt, and so on. The functions add endings of their own only in these places: division by a scalar equal to 0 rethrows (std::terminate if nothing is being handled), inv throws std::overflow_error for 2x2 and 3x3 and rethrows from 4x4 on, lu throws std::overflow_error, pow with a negative exponent ends like inv and overflows for the smallest exponent. Construction, transposition, swaps, concatenation, minors, comparison, histograms and print always return.", "quantifier": "all element types and operations, all sizes and contents (indices in range, sizes below 2^32 for convolutions; elements ordered by < for the median and histograms)", "why_tests_cant": "the element type is a template parameter with arbitrary operations", "anchors": ["matrix/matrix_sum.hpp:sum", "matrix/matrix_mult.hpp:mult", "matrix/matrix_div.hpp:div", "matrix/matrix_det.hpp:det", "matrix/matrix_inv.hpp:inv", "matrix/matrix_lu.hpp:lu", "matrix/matrix_cholesky.hpp:chol", "matrix/matrix_pow.hpp:pow", "matrix/matrix_median.hpp:median"]}
{"id": "C147", "title": "how many operations each function performs", "statement": "A call that returns has performed exactly these numbers of operations on elements (comparisons not counted), and one that stops not more: elementwise functions and division by a scalar one for each element; n*m*p multiplications and additions for a product; Strassen's scheme 7 multiplications and 18 additions and subtractions; mean one addition for each element, var two additions, two subtractions and one multiplication for each element; median one addition and one division for an even number of elements and none for an odd one; lu and chol cubic numbers; conv2 nine additions for each element of the result and a multiplication for each pair of kernel and matrix elements that meet. pow(A, p) computes a square for each binary digit of p after the first and a product for each 1 among them, at most 2 log2 p products; a negative exponent costs the inverse and as many products, two for -1. det costs a cubic number of operations at most from 4x4 on, whatever the pivots, and inv the determinant and n*n minors, at most n^5 multiplications and divisions; up to 3x3 the numbers are exact. compare makes at most one subtraction and one abs for each element, and exactly so many if it returns true. From 4x4 on a determinant that is returned took n multiplications and a division at least, an inverse n^3 multiplications and n^2 divisions at least.", "quantifier": "all element types, sizes (up to 2^31 for convolutions) and contents; all exponents", "why_tests_cant": "costs are formulas in the sizes and in the binary digits of the exponent, and a bound over all sequences of pivots", "anchors": ["matrix/matrix_sum.hpp:sum", "matrix/matrix_mult.hpp:mult", "matrix/matrix_strassen.hpp:strassen", "matrix/matrix_det.hpp:det", "matrix/matrix_inv.hpp:inv", "matrix/matrix_lu.hpp:lu", "matrix/matrix_cholesky.hpp:chol", "matrix/matrix_pow.hpp:pow", "matrix/matrix_conv2.hpp:conv2", "matrix/matrix_var.hpp:var", "matrix/matrix_median.hpp:median", "matrix/matrix_mean.hpp:mean"]}
{"id": "C148", "title": "powers of two pass through floating point results", "statement": "Multiplying rows and columns of a matrix of floating point numbers by powers of two changes the results by the powers of two that exact arithmetic has, and not otherwise: no digit of any significand differs and no sign. det gets the product of all factors, inv the reciprocals with rows and columns exchanged, lu and chol scaled factors with the same pivots, pow of D A D^-1 times 2^k is D A^p D^-1 times 2^(pk), a product A B is independent of powers moved from the columns of A to the rows of B, mean and stddev scale as the elements, var with the square, convolutions and strassen with both arguments; compare with a scaled tolerance and isSymetric answer the same. This holds if no multiplication or division in either call underflows and nothing overflows; without that condition it is false.", "quantifier": "all formats, sizes, contents and exponents, as long as every intermediate result is finite and every product and quotient normal or exact", "why_tests_cant": "sizes, contents and exponents are unbounded, and each operation rounds", "anchors": ["matrix/matrix_mult.hpp:mult", "matrix/matrix_strassen.hpp:strassen", "matrix/matrix_conv2.hpp:conv2", "matrix/matrix_det.hpp:det", "matrix/matrix_inv.hpp:inv", "matrix/matrix_lu.hpp:lu", "matrix/matrix_cholesky.hpp:chol", "matrix/matrix_pow.hpp:pow", "matrix/matrix_mean.hpp:mean", "matrix/matrix_var.hpp:var", "matrix/matrix_stddev.hpp:stddev", "matrix/matrix_utils.hpp:compare"]}
{"id": "C149", "title": "directed rounding encloses the exact result", "statement": "A program may select a rounding mode (std::fesetround) before calling the library. In every mode each operation returns the neighbouring number IEEE 754 demands. Computed while rounding downward, the sum and difference of matrices, sums, differences and products with a number, the quotient by a number other than zero, the matrix product, conv2, conv2_full, conv2_valid and the mean of up to 2^p elements are lower bounds of the exact result and never NaN; rounding upward gives upper bounds; every mode's result is between the two unless it is NaN. So if both agree and are finite, they are exact. This is not so for det and strassen, whose results while rounding downward can exceed the exact ones. A - A is zero in every mode, and its zeros are negative when rounding downward. In every mode var and stddev of finite elements are not negative and not NaN.", "quantifier": "all formats, finite contents, sizes (up to 2^31 for convolutions, up to 2^p elements for mean) and the four rounding modes, the mode constant during the call", "why_tests_cant": "sums of any length, each term rounded; tests run in the default mode and cannot show that a bound holds for all contents", "anchors": ["matrix/matrix_sum.hpp:sum", "matrix/matrix_sub.hpp:sub", "matrix/matrix_mult.hpp:mult", "matrix/matrix_div.hpp:div", "matrix/matrix_conv2.hpp:conv2", "matrix/matrix_conv2.hpp:conv2_full", "matrix/matrix_conv2.hpp:conv2_valid", "matrix/matrix_mean.hpp:mean", "matrix/matrix_det.hpp:det", "matrix/matrix_strassen.hpp:strassen", "matrix/matrix_var.hpp:var", "matrix/matrix_stddev.hpp:stddev"]}
{"id": "C150", "title": "error bounds in every arithmetic with bounded errors per operation", "statement": "If each operation of the element type that does not stop has a relative error of at most u, plus an absolute error for underflow (products and quotients e, sums and differences d), then, whatever else the arithmetic does: an element of a product of n x m by m x p matrices is within (1+u)^m - 1 times the sum of the absolute products, plus m (1+u)^(m-1) (e+d), of the exact one; the convolutions within (1+u)^9 - 1; 2x2 and 3x3 determinants within (1+u)^2 - 1 and (1+u)^7 - 1 times their absolute terms; the mean within (1+u)^(rc+2) - 1 times the mean of the absolute values; L U differs from A by at most (1+u)^n - 1 times |L| |U|, and L L^T from A by at most (1+u)^(n+2) - 1 times |L| |L^T| on and below the diagonal, each with the absolute errors as stated.", "quantifier": "all element types and error bounds u < 1, all sizes (up to 2^31 for convolutions) and contents for which the call returns", "why_tests_cant": "the bounds are over all sizes and contents and all arithmetics at once", "anchors": ["matrix/matrix_mult.hpp:mult", "matrix/matrix_conv2.hpp:conv2", "matrix/matrix_conv2.hpp:conv2_full", "matrix/matrix_conv2.hpp:conv2_valid", "matrix/matrix_det.hpp:det", "matrix/matrix_mean.hpp:mean", "matrix/matrix_lu.hpp:lu", "matrix/matrix_cholesky.hpp:chol"]}
{"id": "C151", "title": "flushing of subnormal numbers", "statement": "A program may run with subnormal results flushed to zero (FTZ) and subnormal operands read as zero (DAZ), as programs linked with -ffast-math on x86 do, in any rounding mode. Then operations read subnormal operands as zeros of their sign, results at or above the smallest normal number are those of the rounding mode; exactly the products and quotients below a bound, which depends on the way tiny results are detected and on the rounding direction, become zeros with the sign of the result; comparisons of elements compare the numbers read; and no sum, difference, product or quotient, and no element of a product of matrices, is subnormal. For calls in which no operation overflows, divides by zero or is invalid, elementwise functions, products, convolutions, 2x2 and 3x3 determinants, means, lu and chol have the usual relative error bounds (unit roundoff twice as large in directed modes) plus an absolute error proportional to the smallest normal number instead of the smallest subnormal one. In directed modes the condition cannot be read off the result: an overflow can give a finite number. With DAZ matrices compare equal if the numbers read are equal. Without FTZ an element of A - B is zero exactly if the numbers read are equal; with FTZ the difference of unequal matrices can be zero.", "quantifier": "all formats, rounding modes, switches, ways of detecting tiny results, sizes (up to 2^31 for convolutions) and contents", "why_tests_cant": "environments multiply the cases, and tests run in the default one", "anchors": ["matrix/matrix_sum.hpp:sum", "matrix/matrix_sub.hpp:sub", "matrix/matrix_mult.hpp:mult", "matrix/matrix_conv2.hpp:conv2", "matrix/matrix_det.hpp:det", "matrix/matrix_mean.hpp:mean", "matrix/matrix_lu.hpp:lu", "matrix/matrix_cholesky.hpp:chol", "matrix/matrix_type.hpp:Matrix"]}
{"id": "C152", "title": "matrices of special form", "statement": "With exact arithmetic: products and powers of upper triangular matrices are upper triangular, with products and powers of the diagonals; powers of strictly triangular matrices move the zeros up and end in the zero matrix at the size; powers of idempotent matrices are the matrix; products with permutation matrices permute rows or columns, their powers, determinants and inverses are those of the permutation; products and powers of stochastic matrices are stochastic; det of a triangular matrix is the product of the diagonal; inverses of triangular matrices are triangular with the reciprocals on the diagonal, those of diagonal matrices diagonal, those of orthogonal matrices the transpose (with determinant 1 or -1), those of involutions the matrix itself, those of symmetric matrices symmetric; lu of an upper triangular matrix without zeros on the diagonal is (I, A), of a unit lower triangular one (A, I).", "quantifier": "all exact fields (rings and ordered rings where no division is needed), sizes and matrices of these forms", "why_tests_cant": "structure has to be kept at every size and for all values of the remaining elements", "anchors": ["matrix/matrix_mult.hpp:mult", "matrix/matrix_pow.hpp:pow", "matrix/matrix_det.hpp:det", "matrix/matrix_inv.hpp:inv", "matrix/matrix_lu.hpp:lu", "matrix/matrix_trans.hpp:trans"]}
{"id": "C153", "title": "matrices of special form in machine arithmetic", "statement": "Zeros do not cost accuracy. Determinants of upper triangular matrices of signed integers (4x4 or larger, no zero on the diagonal) are the product of the diagonal, returned whenever its magnitude fits, and the only failure is signed overflow, which is certain if the product does not fit; for unsigned integers (also lower triangular) they are the product modulo 2^w; for floating point numbers, in every rounding mode, the product with one rounding per multiplication, so with relative error at most (1+u)^n - 1 in the normal range. Products with permutation matrices only move rows or columns, without overflow or rounding. Products with diagonal matrices take one multiplication per element, and signed ones overflow only if such a multiplication does. Floating point products of upper triangular matrices are upper triangular. lu of an upper triangular matrix without zeros on the diagonal is (I, A), and of a unit lower triangular one (A, I), also for integers, whose division truncates. chol of a diagonal matrix of positive numbers holds the rounded (for signed integers: truncated) square roots. The floating point results hold up to the sign of zeros, for finite elements, also if subnormal numbers are flushed (but not if only results are).", "quantifier": "all widths (at least 2 bits, signed) and formats, rounding modes, switches except flushing of results alone, sizes (at least 4 for det), contents of these forms", "why_tests_cant": "exactness depends on every zero that takes part in a loop, and unit tests compare with tolerance", "anchors": ["matrix/matrix_det.hpp:det", "matrix/matrix_mult.hpp:mult", "matrix/matrix_lu.hpp:lu", "matrix/matrix_cholesky.hpp:chol"]}
{"id": "C154", "title": "sums evaluated in another order", "statement": "A build may evaluate the sums in mult, conv2, conv2_full and mean in another order than written: with several accumulators (vectorised), pairwise, or any other binary tree that adds every term once (-fassociative-math, a part of -ffast-math). With exact arithmetic, and for products of unsigned integers, results are the same. In every arithmetic with relative errors up to u and absolute errors up to h per operation, calls that return are within the same kind of bounds: products of n x m by m x p within (1+u)^m - 1 times the sum of the absolute products plus 2 m (1+u)^(m-1) h; with (1+u)^(d+1) - 1 if every term passes through at most d additions, which for pairwise summation of 2^k terms is k and for s+1 accumulators of q+1 terms q+s; convolutions within (1+u)^9 - 1; means within (1+u)^(rc+2) - 1. Products in two orders differ by at most twice the bound. This includes rounding in any direction and flushing of subnormal numbers, if no operation overflows or is invalid. If the elements are integers and the sums of the absolute products do not exceed 2^p in a floating point format of precision p, every order gives the exact product. Otherwise the order can change results.", "quantifier": "all orders (a different one for each element), sizes (up to 2^31 for convolutions), formats, environments and contents for which the call returns", "why_tests_cant": "the order is chosen by the compiler and can differ for each build, size and element", "anchors": ["matrix/matrix_mult.hpp:mult", "matrix/matrix_conv2.hpp:conv2", "matrix/matrix_conv2.hpp:conv2_full", "matrix/matrix_mean.hpp:mean"]}
{"id": "C155", "title": "including the headers in any order", "statement": "A file that includes matrix.hpp first, and then any headers of the library any number of times, is accepted; every function is declared and can be called, and print writes to standard output. Nothing is ever defined twice, and including a header again changes nothing. In other orders: a file is accepted exactly if each header finds what it needs among those included before it (cholesky, concatenate, det, eye, fill, lu, swap and utils need the type; ones and zeros also fill; mult the type and zeros; pow eye and ones), so these twelve headers cannot be included alone and the other sixteen can. Then a function is declared exactly if a header brings the one that defines it, and can be called, except that var and stddev can be called only if matrix_mean.hpp was read before matrix_var.hpp, and pow only if matrix_mult.hpp was read before matrix_pow.hpp; print writes only if the user has defined PRINT_IOSTREAM_ENABLE or included matrix.hpp before matrix_print.hpp. The library relies on the standard headers it includes to declare std::vector, std::overflow_error, ::floor and ::sqrt as well, which the C++ standard does not require; including <vector>, <stdexcept> and <math.h> before makes it independent of that.", "quantifier": "all sequences of includes, of any length; all implementations whose standard headers declare the names the library uses; compilers that allow at least 5 nested includes", "why_tests_cant": "every test includes matrix.hpp alone; the orders and repetitions in a larger program are without bound", "anchors": ["matrix/matrix_type.hpp:Matrix", "matrix/matrix_var.hpp:var", "matrix/matrix_stddev.hpp:stddev", "matrix/matrix_pow.hpp:pow", "matrix/matrix_print.hpp:print", "matrix/matrix_mult.hpp:mult", "matrix/matrix_zeros.hpp:zeros", "matrix/matrix_median.hpp:median", "matrix/matrix_inv.hpp:inv"]}
{"id": "C156", "title": "finding the library's names", "statement": "Matrices belong to the namespace std, not mlib. So operators and functions of the library are found, for elements of arithmetic types, classes of std or the user's own, exactly where lookup by scopes leads to mlib: inside mlib, below a using-declaration, or with using namespace mlib. A function or operator of the same name declared in the user's own namespace hides those of the directive, but not those of a using-declaration in the same scope. Only for element types that belong to mlib are they found without.", "quantifier": "all element types, nested scopes and sets of the user's declarations", "why_tests_cant": "every test uses the directive in the global namespace", "anchors": ["matrix/matrix_type.hpp:Matrix", "matrix/matrix_mult.hpp:operator*", "matrix/matrix_sum.hpp:operator+"]}
{"id": "C157", "title": "programs of several files", "statement": "The library may be included in several files of a program: no function is defined twice for the linker, and the names in each template's definition refer to the same functions in every file, as the one-definition rule demands.", "quantifier": "all programs, each file with any headers", "why_tests_cant": "every test program is a single file, and violations of the one-definition rule need no diagnostic", "anchors": ["matrix/matrix_sum.hpp:operator+", "matrix/matrix_sub.hpp:operator-", "matrix/matrix_mult.hpp:operator*", "matrix/matrix_div.hpp:operator/", "matrix/matrix_conv2.hpp:conv2_valid", "matrix/matrix_inv.hpp:inv", "matrix/matrix_print.hpp:print"]}
{"id": "C158", "title": "accuracy of variances, large determinants and inverses in any arithmetic", "statement": "In every arithmetic with relative errors up to u and absolute errors up to h per operation (every format, rounding in any direction, subnormal numbers flushed or not), results that are returned are near the exact ones. Variances: within ((1+u)^(N+4) (1+d) - 1) times the variance, plus the square of the error of the mean, plus underflow, for N elements (d: absolute error of a sum). Standard deviations: within the relative error u and the root of that bound, or that bound divided by the deviation. Determinants from 4x4 on: if no element exceeds G during the elimination and no pivot is below m, they are, up to one rounding per factor and one more, the determinant of a matrix whose elements differ by at most n (u (1 + (2+u)^2) G + ((1+u)^2 + 1/m) h), from which a bound of the distance to the exact determinant follows. Inverses of 1x1 matrices: one rounding. Of larger ones, if the exact determinant exceeds the bound of its error E: each element within a rounding of (e + |x| E) / (|det| - E), for x the exact element and e the bound of the error of the minor. A call in a floating point environment during which no operation overflows, is invalid or divides by zero returns these results.", "quantifier": "all arithmetics of this kind, sizes, and contents for which the call returns (and the elimination is bounded, from 4x4 on)", "why_tests_cant": "errors depend on every rounding and on the environment in which the program runs", "anchors": ["matrix/matrix_var.hpp:var", "matrix/matrix_stddev.hpp:stddev", "matrix/matrix_det.hpp:det", "matrix/matrix_inv.hpp:inv"]}
{"id": "C159", "title": "checking results with compare in any floating point environment", "statement": "In every rounding mode, with subnormal numbers flushed or not: compare accepts finite matrices whose elements differ by at most the tolerance, and what it accepts without an overflow differs by at most the tolerance times 1+u plus the absolute error of an operation. The computed product of the factors of lu is near the matrix, that of the factor of chol and its transpose is near the symmetric matrix, and those of a matrix and an inverse with known errors, in either order, are near the identity; the computed product of such an inverse and right hand sides is near the solutions of the linear systems. So a program in which no operation overflows, is invalid or divides by zero and which compares such a product (of lu, chol, or a 2x2 inverse) with the matrix or the identity finds them equal within every tolerance not below the bound.", "quantifier": "all arithmetics of the standard model, sizes, and contents for which the calls return; for compare all formats, environments and matrices", "why_tests_cant": "tests check a few products against one tolerance in one environment", "anchors": ["matrix/matrix_utils.hpp:compare", "matrix/matrix_lu.hpp:lu", "matrix/matrix_cholesky.hpp:chol", "matrix/matrix_inv.hpp:inv", "matrix/matrix_mult.hpp:mult"]}
{"id": "C160", "title": "accuracy of powers and Strassen products in any arithmetic", "statement": "In every arithmetic with relative errors up to u and absolute errors up to h per operation (every format, rounding in any direction, subnormal numbers flushed or not), the elements of pow(A, p), p >= 1, that is returned are those of the exact power up to ((1+u)^(n(p-1)) - 1) times the element of the power of the absolute values, and an amount that vanishes without underflow; pow(A, 0) is the identity; pow(A, -1) is the computed inverse up to (1+u)^(2n) - 1 times its elements, and an amount that vanishes without underflow; for p <= -2 the bound for positive exponents holds relative to the powers of the computed inverse; for negative exponents a bound relative to the powers of the exact inverse follows from one of the errors of the computed inverse. Strassen products of matrices with elements of size at most a and b are exact up to ((1+u)^6 - 1) 12 a b and an amount that vanishes without underflow. A call in a floating point environment during which no operation overflows, is invalid or divides by zero returns these results.", "quantifier": "all arithmetics of this kind, sizes, exponents other than the smallest, and contents for which the call returns", "why_tests_cant": "errors grow with the exponent and depend on every rounding and on the environment in which the program runs", "anchors": ["matrix/matrix_pow.hpp:pow", "matrix/matrix_strassen.hpp:strassen", "matrix/matrix_mult.hpp:operator*"]}
{"id": "C161", "title": "integers in floating point matrices in any floating point environment", "statement": "Let a floating point matrix hold integers of w bits, w at most one more than the precision. In every rounding mode, with subnormal numbers flushed or not, sums, differences, products with numbers and matrices, Strassen products, powers with exponents not below 0, determinants up to 3x3, absolute values and convolutions hold exactly the integers that the same call on integers of w bits returns, if that call is defined; == and isSymetric give the same answers. So results do not depend on the environment, except for the signs of zeros. With one more bit the rounding mode can be seen.", "quantifier": "all formats, environments, widths up to p+1, sizes, and contents for which the call on integers is defined", "why_tests_cant": "rounding modes and flushing are properties of the calling thread that the tests never change", "anchors": ["matrix/matrix_sum.hpp:sum", "matrix/matrix_sub.hpp:sub", "matrix/matrix_mult.hpp:mult", "matrix/matrix_strassen.hpp:strassen", "matrix/matrix_pow.hpp:pow", "matrix/matrix_det.hpp:det", "matrix/matrix_abs.hpp:abs", "matrix/matrix_conv2.hpp:conv2", "matrix/matrix_utils.hpp:isSymetric"]}
{"id": "C162", "title": "calls that raise no floating point exception", "statement": "Let a call on finite floating point numbers raise none of the exceptions inexact, overflow, underflow, invalid and divide by zero, in any rounding mode, with subnormal numbers flushed or not (if they are read as zero, then results are flushed too). Then what it returns is exact: sums, differences, multiples, quotients by numbers that are not zero, products, Strassen products, determinants, powers, convolutions, means, variances and deviations are those of the real numbers; matrices from inv are inverses; factors from lu and chol multiply to the matrix (its lower triangle, for chol); compare decides whether the differences are within the tolerance. If inv throws or terminates the program the matrix is singular, and if lu throws a leading minor is zero. So testing the flags of <cfenv> after the call proves the result.", "quantifier": "all formats, environments, sizes and finite contents for which the call raises none of these exceptions", "why_tests_cant": "tests compare a few results with expected numbers and never look at the flags", "anchors": ["matrix/matrix_sum.hpp:sum", "matrix/matrix_sub.hpp:sub", "matrix/matrix_mult.hpp:mult", "matrix/matrix_div.hpp:div", "matrix/matrix_strassen.hpp:strassen", "matrix/matrix_det.hpp:det", "matrix/matrix_inv.hpp:inv", "matrix/matrix_lu.hpp:lu", "matrix/matrix_cholesky.hpp:chol", "matrix/matrix_pow.hpp:pow", "matrix/matrix_utils.hpp:compare", "matrix/matrix_conv2.hpp:conv2", "matrix/matrix_mean.hpp:mean", "matrix/matrix_var.hpp:var", "matrix/matrix_stddev.hpp:stddev"]}
{"id": "C163", "title": "calls without exceptions in other environments and formats", "statement": "Let a call on finite floating point numbers raise no exception (as above). Then the same call in another rounding mode raises none either and returns the same numbers (up to the signs of zeros) or throws the same; the same holds for flushing environments if the first one flushes results too and the elements are not subnormal, and for formats with at least the precision and the range, as double instead of float. So whether a determinant or an inverse is computed without an exception does not depend on the rounding mode. This holds for sums, differences, products, multiples, quotients, Strassen products, determinants, inverses, powers, factors from lu and chol, compare, convolutions, means, variances and deviations.", "quantifier": "all formats, pairs of environments, sizes and finite contents for which the call raises no exception in the first environment", "why_tests_cant": "rounding modes and flushing are properties of the calling thread that the tests never change", "anchors": ["matrix/matrix_sum.hpp:sum", "matrix/matrix_sub.hpp:sub", "matrix/matrix_mult.hpp:mult", "matrix/matrix_div.hpp:div", "matrix/matrix_strassen.hpp:strassen", "matrix/matrix_det.hpp:det", "matrix/matrix_inv.hpp:inv", "matrix/matrix_lu.hpp:lu", "matrix/matrix_cholesky.hpp:chol", "matrix/matrix_pow.hpp:pow", "matrix/matrix_utils.hpp:compare", "matrix/matrix_conv2.hpp:conv2", "matrix/matrix_mean.hpp:mean", "matrix/matrix_var.hpp:var", "matrix/matrix_stddev.hpp:stddev"]}
{"id": "C164", "title": "bounded elements do not overflow", "statement": "Let the elements be finite and bounded, and let M be the largest finite number of the format, p its precision. In every rounding mode, with subnormal numbers flushed or not, the following calls return, and no operation in them overflows, is invalid or divides by zero. Write room(k, t) if k <= 2^p, k 2^t <= M, and 2^t is not below the smallest subnormal number. Sums and differences, with matrices or numbers, of elements up to x and y with x + y <= k 2^t and room(k, t), multiples with x y <= k 2^t, and quotients by a number of size at least y with x <= k 2^t y: the elements of the result are at most k 2^t. compare of such elements decides: it accepts differences up to the tolerance e, and rejects those above (1+u) e plus the absolute error of an operation. Products with m columns, x y <= 2^t and room(m, t): at most m 2^t. Convolutions, room(9, t), sizes up to 2^31: at most 9 2^t. Determinants 2x2 with x x <= 2^t, room(2, t): at most 2 2^t; 3x3 with elements up to 2^t, room(6, 3t): at most 6 2^(3t). Strassen products of elements up to 2^u, 2^v, with room(2, u), room(2, v), room(12, u+v): at most 12 2^(u+v). Powers q >= 1 of at most 2^s rows, s <= p, elements up to 2^t, t >= 0: at most b = 2^(s(q-1)+tq), if b <= M. Means of N elements up to 2^t, room(N, t): at most 2^t, exactly, in spite of rounding. Variances, room(N, 2t+2): between 0 and 2^(2t+2); deviations are returned. So for these elements the error bounds of products, Strassen products, powers, determinants up to 3x3, conv2, means, variances and deviations hold without looking at flags. For example products of float matrices with elements up to 2^50 and up to 2^24 columns; two products of 2^127 overflow.", "quantifier": "all formats, environments, sizes and finite contents within the bounds", "why_tests_cant": "overflow depends on sizes and magnitudes that tests never reach, and on the direction of every rounding", "anchors": ["matrix/matrix_sum.hpp:sum", "matrix/matrix_sub.hpp:sub", "matrix/matrix_mult.hpp:mult", "matrix/matrix_div.hpp:div", "matrix/matrix_utils.hpp:compare", "matrix/matrix_strassen.hpp:strassen", "matrix/matrix_det.hpp:det", "matrix/matrix_pow.hpp:pow", "matrix/matrix_conv2.hpp:conv2", "matrix/matrix_mean.hpp:mean", "matrix/matrix_var.hpp:var", "matrix/matrix_stddev.hpp:stddev"]}
{"id": "C165", "title": "inverses of regular matrices up to 3x3 in any floating point environment", "statement": "Let the elements of a matrix up to 3x3 be finite and bounded as in C164, in any format, rounding mode, with subnormal numbers flushed or not. If its exact determinant exceeds the bound E of the error of the computed determinant by y > 0 (for 1x1, if the element has size at least y), and the elements of the adjugate divided by y stay in range, then inv returns, no operation overflows, is invalid or divides by zero, the elements are bounded, and they are near those of the exact inverse (the error bound of C158). A program that inverts such a 2x2 matrix and compares the product with the identity finds them equal within a tolerance that depends only on the matrix, if the bounds of the product stay in range. If the bounds of the products stay in range, multiplying right hand sides by the inverse of such a 2x2 or 3x3 matrix gives results near the solutions of the linear systems, and powers with exponents -q, q >= 2 (not below the smallest exponent), are returned with bounded elements. If inv of a 2x2 or 3x3 matrix throws or ends the program, the exact determinant is at most E. The bound is needed: inv throws for the float matrix ((4097, 4098), (4096, 4097)) of determinant 1.", "quantifier": "all formats, environments and finite contents within the bounds, sizes 1, 2, 3", "why_tests_cant": "whether a matrix is reported as singular depends on every rounding of its determinant", "anchors": ["matrix/matrix_inv.hpp:inv", "matrix/matrix_det.hpp:det", "matrix/matrix_div.hpp:div", "matrix/matrix_mult.hpp:mult", "matrix/matrix_pow.hpp:pow"]}
{"id": "C166", "title": "enclosures of bounded elements are narrow", "statement": "Rounding downward and upward gives bounds of the exact result (C149). For elements bounded as in C164 these bounds are finite, the results in all rounding modes are finite and between them, and their distance is at most twice the error bound of a computation with relative error e = 2^(1-p) and absolute error s per operation, s the smallest positive number: 2 (e |x| + s) for each element x of an exact sum, difference, multiple or quotient by a number, 2 (((1+e)^m - 1) S + m (1+e)^(m-1) s) for the elements of a product with m columns, S the sum of the absolute values of its terms, the same with m = 9 for conv2, conv2_full and conv2_valid, and 2 (((1+e)^(N+2) - 1) S + ((1+e)^(N+1) + 1) s) for the mean of N elements, S the mean of their absolute values. So an exact result that is an integer is determined if the bound is below 1: it is the only integer in the enclosure. Products of float matrices with elements up to 1 and m up to 2^22 columns are enclosed within m^2 / 2^20. A sum that overflows has no finite enclosure.", "quantifier": "all formats, sizes (up to 2^31 for convolutions), contents within the bounds, and the four rounding modes, subnormal numbers not flushed", "why_tests_cant": "the width of an enclosure depends on every rounding of two runs; tests run in one mode", "anchors": ["matrix/matrix_sum.hpp:sum", "matrix/matrix_sub.hpp:sub", "matrix/matrix_mult.hpp:mult", "matrix/matrix_div.hpp:div", "matrix/matrix_conv2.hpp:conv2", "matrix/matrix_conv2.hpp:conv2_full", "matrix/matrix_conv2.hpp:conv2_valid", "matrix/matrix_mean.hpp:mean"]}
{"id": "C167", "title": "results in two floating point environments are close", "statement": "The same calls, run in two floating point environments (any rounding modes, with subnormal numbers flushed or not), on bounded elements as in C164 none of which is subnormal, all return finite results, and these differ by at most the sum of the error bounds of the two environments (C151, C160, C158), plus the smallest normal number for each environment that reads subnormal numbers as zero: products, products by strassen, conv2, conv2_full, conv2_valid, determinants of 2x2 and 3x3 matrices, means, powers with exponents from 1, and inverses of 2x2 and 3x3 matrices whose determinants exceed the error bounds in both environments as in C165. So compare, in the default environment, accepts two products of the same matrices from any two environments if the tolerance is not below that bound. Products of float matrices with normal elements up to 1 and 1 to 2^22 columns differ in any two environments by at most m^2 / 2^20, m the number of columns. Subnormal elements are excluded with reason: where they are read as zero the product of 2^-149 and 2^100 is 0 instead of 2^-49.", "quantifier": "all formats, pairs of environments, sizes (up to 2^31 for convolutions) and contents within the bounds that are not subnormal", "why_tests_cant": "a test compares with results of its own environment; that a tolerance suffices for all contents in another environment cannot be tested", "anchors": ["matrix/matrix_mult.hpp:mult", "matrix/matrix_strassen.hpp:strassen", "matrix/matrix_conv2.hpp:conv2", "matrix/matrix_conv2.hpp:conv2_full", "matrix/matrix_conv2.hpp:conv2_valid", "matrix/matrix_det.hpp:det", "matrix/matrix_mean.hpp:mean", "matrix/matrix_pow.hpp:pow", "matrix/matrix_inv.hpp:inv", "matrix/matrix_utils.hpp:compare"]}
{"id": "C168", "title": "laws of matrix algebra up to rounding", "statement": "In every arithmetic with relative error u per operation and absolute errors d of sums and h of a product and a sum (C150), whatever its formats, modes and treatment of small numbers: if the calls return, (A B) C and A (B C) differ by at most 2 ((1+u)^(m+q) - 1) S plus a multiple of h given by the sizes m, q and the sizes of the elements, S the sum of the absolute values of the terms of the exact product; A (B + C) and A B + A C by at most 2 ((1+u)^(m+1) - 1) S plus multiples of h and d, and likewise (A + B) C and A C + B C; (s A) C and s (A C) by at most 2 ((1+u)^(m+1) - 1) S plus multiples of h and of the absolute error e of products; (A + B) + C and A + (B + C) by at most 2 ((1+u)^2 - 1) S + 2 (2+u) d; strassen and the operator * for 2x2 matrices by at most the sum of their error bounds. In every floating point environment the products of three matrices with bounded elements are returned, if the bounds of the partial products stay in range as in C164, and differ by at most the first bound; for example float matrices with elements up to 2^20 and inner sizes up to 2^10. In every floating point environment pow(A, q) * A and pow(A, q+1) are both returned, if the bounds of the powers stay in range, and differ by at most the sum of their error bounds. The laws do not hold exactly: for float numbers both (a b) c and (a + b) + c can differ from a (b c) and a + (b + c), a (b + c) from a b + a c, and (a s) c from (a c) s.", "quantifier": "all arithmetics with bounded errors, all sizes and contents for which the calls return; for bounded elements all floating point environments", "why_tests_cant": "sizes and contents are unbounded, and each operation rounds", "anchors": ["matrix/matrix_mult.hpp:mult", "matrix/matrix_sum.hpp:sum", "matrix/matrix_strassen.hpp:strassen", "matrix/matrix_pow.hpp:pow"]}
