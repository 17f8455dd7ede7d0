p("no undefined behaviour on floating point elements",
  "For float and double elements every function returns for every contents, including NaN, infinities and singular or indefinite matrices; only division by a zero scalar, inv, lu and pow may throw or terminate instead. (pow: except for the most negative exponent; conv2*: dimensions below 2^32. histogram, cumulative_histogram and median are the subject of C80.)",
  "all shapes and contents of every IEEE binary format",
  "absence of faults over all float contents",
  "matrix/matrix.hpp")
p("elementwise floating point operations are correctly rounded",
  "For finite float or double elements, every element of A+B, A-B, A+s, A-s, A*s and A/s is the exact result rounded to nearest, ties to even; abs is exact. A+B == B+A bit for bit, A-A is +0, an element of A-B is zero iff the operands are equal, and trans(A*B) equals trans(B)*trans(A) bit for bit.",
  "all shapes and finite contents of every IEEE binary format",
  "rounding over all operands",
  M+"sum.hpp:sum", M+"sub.hpp:sub", M+"mult.hpp:mult", M+"div.hpp:div", M+"abs.hpp:abs")
p("error of the floating point product",
  "Every finite element of A*B (common dimension m) differs from the exact dot product by at most ((1+u)^m - 1) * sum|a||b| + m (1+u)^(m-1) eta, where u is the unit roundoff and eta half the smallest positive number; and it is finite whenever (1+u)^m sum|a||b| + m (1+u)^(m-1) eta is at most the largest finite number.",
  "all shapes and contents of every IEEE binary format",
  "a bound over all contents and dimensions",
  M+"mult.hpp:mult")
p("error of the floating point mean",
  "A finite mean of N <= 2^p elements differs from the exact mean by at most ((1+u)^N - 1) * (sum|a|)/N + eta; it is finite whenever (1+u)^(N-1) sum|a| is at most the largest finite number.",
  "all non-empty shapes of at most 2^p elements and all contents of every IEEE binary format",
  "a bound over all contents and sizes",
  M+"mean.hpp:mean")
p("non-finite elements are not masked",
  "If an element of A+B, A-B or A*B, mean, var, stddev or the closed-form determinant is finite, then every element it is computed from is finite; NaN operands give NaN. (The general determinant, n >= 4, can mask a NaN when a column is zero.)",
  "all shapes and contents of every IEEE binary format",
  "NaN and infinity propagation over all positions",
  M+"mult.hpp:mult", M+"mean.hpp:mean", M+"var.hpp:var", M+"stddev.hpp:stddev", M+"det.hpp:det")
p("integer-valued floating point matrices multiply exactly",
  "If the elements of A and B are integers and in every dot product the absolute values of the terms add up to at most 2^p, A*B is the exact integer product.",
  "all shapes and integer contents within the bound, of every IEEE binary format",
  "exactness over all contents",
  M+"mult.hpp:mult")
p("compare on integer matrices",
  "For signed integer elements whose differences do not overflow, compare(A,B,eps) is true iff |A[i][j]-B[i][j]| <= eps for every i,j. (True for differences up to 2^24; false above: the difference is converted to float and rounded.)",
  "all shapes, contents and finite tolerances",
  "the conversion only shows on differences above 2^24",
  "matrix/matrix_utils.hpp:compare")
p("variance of finite floating point data is never negative",
  "For a non-empty matrix of at most 2^p finite elements, var is not NaN and not negative (it may overflow to +inf), and if it is finite stddev is its correctly rounded square root, finite and not negative.",
  "all non-empty shapes of at most 2^p elements and all finite contents of every IEEE binary format",
  "a sign over all contents under rounding",
  M+"var.hpp:var", M+"stddev.hpp:stddev")
p("the identity is neutral in floating point",
  "For a matrix A of finite elements every element of A*eye and of eye*A is finite and has the same value as that of A (only -0 becomes +0).",
  "all shapes and finite contents of every IEEE binary format",
  "exactness over all contents; false with infinities",
  M+"mult.hpp:mult", M+"eye.hpp:eye")
p("error of the closed-form determinants",
  "A finite floating point det of a 2x2 or 3x3 matrix differs from the exact determinant by at most ((1+u)^k - 1) times the sum of the absolute values of its products (k = 2 and 7) plus underflow terms.",
  "all contents of every IEEE binary format",
  "a bound over all contents",
  M+"det.hpp:det")
p("backward error of the floating point lu",
  "lu of floating point elements returns two matrices or throws the divide-by-zero exception. If both factors are finite, L has ones on its diagonal and zeros above it, U has zeros below its diagonal, and every element of the exact product L*U differs from that of A by at most ((1+u)^n - 1) (|L||U|)[i][j] + (n + |U[j][j]|) (1+u)^n eta.",
  "all sizes and contents of every IEEE binary format",
  "a bound over all contents and sizes",
  M+"lu.hpp:lu")
p("backward error of the floating point chol",
  "chol of floating point elements always returns. A negative diagonal element of A makes that of the factor NaN. If the factor L is finite it has zeros above its diagonal, no negative diagonal element, and for j <= i the element [i][j] of the exact product L*trans(L) differs from A[i][j] by at most ((1+u)^(n+2) - 1) (|L||L|^T)[i][j] + (n + |L[j][j]|) (1+u)^n eta.",
  "all sizes and contents of every IEEE binary format",
  "a bound over all contents and sizes",
  M+"cholesky.hpp:chol")
p("accuracy of the general floating point det",
  "For n >= 4 a finite det of a finite matrix differs from the exact determinant by at most half of the sum of the absolute values of the n! products of the determinant (for n <= 3 the difference is a few rounding errors of that sum). (False: the first nonzero pivot is used, however small.)",
  "all n >= 4 and all finite contents of every IEEE binary format",
  "needs an adversarial pivot",
  M+"det.hpp:det")
p("error of floating point convolution",
  "For matrices of at most 2^31 rows and columns conv2, conv2_full and conv2_valid of floating point elements return, and every finite element differs from the exact correlation sum (with zero padding for the first two) by at most ((1+u)^9 - 1) times the same sum of absolute values plus 9 (1+u)^8 eta.",
  "all shapes up to 2^31 by 2^31, all contents and kernels of every IEEE binary format",
  "a bound over all contents",
  M+"conv2.hpp:conv2", M+"conv2.hpp:conv2_full")
p("integer elementwise operations",
  "On signed integer elements A+B, A-B, A+s, s+A, A-s, A*s, s*A, abs(A) and A/s (s nonzero, truncating toward zero) return exactly the integer results, or stop with signed overflow iff one of these does not fit (for A/s iff s = -1 and an element is the minimum). On unsigned elements + - * give the results modulo 2^w, A/s rounds down, and abs does not compile.",
  "all shapes, contents, scalars and widths",
  "wrap-around and overflow corners over all inputs",
  M+"sum.hpp:sum", M+"sub.hpp:sub", M+"mult.hpp:mult", M+"div.hpp:div", M+"abs.hpp:abs")
p("the det, inv and multiply benchmarks",
  "The det benchmark completes whatever is drawn. The inv benchmark completes unless det of the matrix drawn compares equal to zero, and then terminates the program in its first iteration. The multiply benchmarks (always on int) complete iff every element of the product fits an int, the Strassen one iff every intermediate result does; otherwise they run into signed overflow, for instance as soon as the first draws for both matrices are at least 2^16.",
  "all sequences of draws, sizes (inv: at least 4) and iteration counts",
  "the benchmarks draw random contents",
  "bench/det/det.hpp:det", "bench/inv/inv.hpp:inv", "bench/multiply/multiply.hpp:multiply", "bench/multiply/multiply.hpp:multiply_2_2_strassen")
p("histograms and median of floating point matrices",
  "Without NaN elements histogram of floating point elements returns keys strictly increasing under <, each the first (in row-major order) of the elements equal to it, mapped to the number of elements that compare equal (so -0 and +0 share an entry); cumulative_histogram maps each key to the number of elements not greater. median is the middle element, or half the rounded sum of the middle two: if these are finite it lies between them, within one rounding error of their mean, or is infinite because their sum overflows; at least half of the elements are not greater and half not less than a finite median. If one element is NaN and two others differ, all three functions have undefined behaviour (< is no strict weak ordering).",
  "all shapes (fewer than 2^64 elements) and contents of every IEEE binary format, every sorting function",
  "an ordering and counting property over all contents",
  M+"histogram.hpp:histogram", M+"histogram.hpp:cumulative_histogram", M+"median.hpp:median")
p("mean, variance, deviation and median of integer matrices",
  "For unsigned elements of at most 64 bits mean(A) is the sum modulo 2^w divided by i*j rounding down, var(A) is the sum modulo 2^w of the squared differences from that mean divided by i*j rounding down, and the median of an even number of elements is half the sum modulo 2^w of the middle two. For signed elements whose mean is m, var(A) is the sum of (A[i][j]-m)^2 divided by i*j rounding down, or a signed overflow iff that sum is not representable. stddev returns whenever var does; for a variance below 2^52 it is the integer square root. (Above, the detour through double can round up: chol of the 1x1 matrix {2^64-1} is {2^32}.)",
  "all non-empty shapes and contents, widths up to 64",
  "wrap-around and rounding corners over all contents",
  M+"mean.hpp:mean", M+"var.hpp:var", M+"stddev.hpp:stddev", M+"median.hpp:median", M+"cholesky.hpp:chol")
p("inverses of integer matrices",
  "For signed integer matrices of at most three rows whatever inv(A) returns is the adjugate divided by the determinant, each element truncated toward zero; so A*inv(A) is the identity iff the determinant is 1 or -1. Otherwise inv stops with signed overflow, or with the exception (division by zero for 1x1) and the determinant is 0. For four rows the same holds with the value returned by det(A) in place of the determinant, and since that can be wrong (C28) inv of a matrix of determinant 1 can return something that is not its inverse.",
  "all contents, all widths of at least 2 bits, n = 1..4 (more rows: whenever det is right for the minors)",
  "an algebraic identity over all contents",
  M+"inv.hpp:inv")
p("LU factorisation of integer matrices",
  "Whatever lu(A) returns for signed integer elements, L is unit lower triangular, U is upper triangular without zeros on its diagonal, L*U equals A on and above the diagonal and differs from A below it by less than the pivot of the column; the multipliers are truncated quotients, which determines L and U. L*U == A iff A has an integer factorisation of this form, and then that one is returned (unless a value overflows). The exception means a zero pivot of this truncated factorisation: lu can throw for matrices with non-zero leading minors and return for singular ones.",
  "all n, contents and widths of at least 2 bits",
  "an algebraic identity over all contents",
  M+"lu.hpp:lu")
p("Cholesky factorisation of integer matrices",
  "Whatever chol(A) returns for signed integer elements with diagonal below 2^52 (every int), L is lower triangular with non-negative diagonal, A - L*trans(L) is between 0 and 2*L[i][i] on the diagonal and smaller in size than L[j][j] below it; square roots are rounded down and quotients truncated, which determines L. If A = L*trans(L) for an integer lower triangular L with positive diagonal, that L is returned (unless a value overflows). Positive definite matrices for which chol has undefined behaviour exist: the square root of a negative number, or a division by zero.",
  "all n, contents and widths of at least 2 bits",
  "an algebraic identity over all contents",
  M+"cholesky.hpp:chol")
p("error of the floating point variance and deviation",
  "A finite var of N <= 2^p floating point elements differs from the exact variance V by at most E = ((1+u)^(N+3) - 1) V + (1+u)^(N+3) d^2 + ((1+u)^N + 1) eta, where d is the error bound of the mean (C67); a finite stddev differs from sqrt(V) by at most u sqrt(V) + (1+u) sqrt(E) + eta, and if V > 0 by at most u sqrt(V) + (1+u) E/sqrt(V) + eta.",
  "all non-empty shapes of at most 2^p elements, all contents of every IEEE binary format",
  "a bound over all contents",
  M+"var.hpp:var", M+"stddev.hpp:stddev")
p("accuracy of the closed-form floating point inverses",
  "inv of a 1x1 matrix with a finite nonzero element is its correctly rounded reciprocal. For 2x2 and 3x3 matrices whose exact determinant d is larger than the error bound E of det (C73) and whose det does not overflow, inv returns, and every finite element differs from that of the exact inverse x by at most u|x| + (1+u)(e + |x|E)/(|d| - E) + eta, where e bounds the error of the cofactor (0 for 2x2). Every singular 2x2 matrix whose det does not overflow is rejected with the exception. (A singular 3x3 matrix may not be, and a 2x2 matrix of determinant 1 may be.)",
  "all contents of every IEEE binary format",
  "a bound over all contents",
  M+"inv.hpp:inv")
p("accuracy of the floating point Strassen product",
  "Every finite element of strassen(A,B) differs from that of the exact product by at most ((1+u)^6 - 1) 12 a b + 4 (1+u)^3 eta, where a and b bound the sizes of the elements of A and B. It does not have the elementwise accuracy of A*B (C66): an element that A*B returns exactly can be lost completely.",
  "all contents of every IEEE binary format",
  "a bound over all contents",
  M+"strassen.hpp:strassen")
p("elementwise functions of narrow integer matrices",
  "For char, short and their unsigned variants (promoted to int in every expression) A+B, A-B, A+s, s+A, A-s, A++ and A-- always return, and every element is the exact integer result modulo 2^w. A*s returns, with the exact products modulo 2^w, iff every exact product is an int; that is always so for 8-bit and for signed 16-bit elements. For unsigned short it need not be: 65535*65535 is a signed overflow although the element type is unsigned.",
  "all shapes, contents, scalars and integer types of at most 16 bits",
  "promotion and wrap-around corners over all contents",
  M+"sum.hpp:sum", M+"sub.hpp:sub", M+"mult.hpp:mult")
p("products of narrow integer matrices",
  "For 8-bit and signed 16-bit elements A*B always returns and every element is that of the exact integer product modulo 2^w, however long the rows are. In general A*B returns this, or a product of two elements added to a partial sum (kept modulo 2^w) is not an int, and that is a signed overflow. strassen does the same as A*B for 8-bit elements. For short it can have a signed overflow where A*B returns.",
  "all shapes and contents, all integer types of at most 16 bits",
  "an overflow property over all shapes and contents",
  M+"mult.hpp:mult", M+"strassen.hpp:strassen")
p("quotients and absolute values of narrow integer matrices",
  "A/s with s nonzero always returns and every element is the exact quotient truncated toward zero, modulo 2^w (so the minimum divided by -1 is the minimum again); s = 0 executes a bare throw. abs always returns, for unsigned elements too, and every element is the exact absolute value modulo 2^w (so the minimum stays negative).",
  "all shapes, contents, scalars and integer types of at most 16 bits",
  "the corner is one value of one divisor",
  M+"div.hpp:div", M+"abs.hpp:abs")
p("determinants of narrow integer matrices",
  "det of a 2x2 matrix of 8-bit or signed 16-bit elements, and of a 3x3 matrix of 8-bit elements, always returns the exact determinant modulo 2^w. For the other types of at most 16 bits it returns this or has a signed overflow. From 4x4 on the truncating divisions make the result differ from the determinant.",
  "all contents and integer types of at most 16 bits",
  "bounds of intermediate results over all contents",
  M+"det.hpp:det")
p("convolution of narrow integer matrices",
  "For 8-bit and signed 16-bit elements conv2, conv2_full and conv2_valid always return, and every element is the exact weighted sum of its neighbourhood (zero outside the matrix) modulo 2^w: there is no saturation, and where the exact sum fits the type the element is exact even if partial sums do not fit. For unsigned short they return this or have a signed overflow.",
  "all shapes up to 2^31 by 2^31, all contents and kernels, all integer types of at most 16 bits",
  "overflow of intermediate results over all contents",
  M+"conv2.hpp:conv2", M+"conv2.hpp:conv2_full", M+"conv2.hpp:conv2_valid")
p("mean, variance and deviation of narrow integer matrices",
  "mean of a non-empty matrix of a type of at most 16 bits always returns: the sum modulo 2^w, converted to the element type and divided by the number of elements as an unsigned 64-bit number. So it is the exact mean rounded down if the exact sum is not negative and fits the element type; otherwise it need not be near the elements (two bytes 200 have the mean 72). var of 8-bit elements always returns likewise with the squared differences from that mean; for 16-bit elements it can have a signed overflow, even if all elements are equal. stddev is the integer square root of var, and undefined iff var is negative, which happens for signed elements.",
  "all non-empty shapes and contents, all integer types of at most 16 bits",
  "wrap-around over all contents",
  M+"mean.hpp:mean", M+"var.hpp:var", M+"stddev.hpp:stddev")
p("median of narrow integer matrices",
  "median of an odd number of elements of a type of at most 16 bits is the middle one; of an even number it is half the exact sum of the middle two, truncated toward zero, and lies between them. Unlike for int nothing overflows.",
  "all non-empty shapes of fewer than 2^64 elements, all contents and sorting functions",
  "an ordering property over all contents",
  M+"median.hpp:median")
p("compare of narrow integer matrices",
  "For elements of a type of at most 16 bits, signed or unsigned, compare with a finite tolerance always returns, true iff no two corresponding elements differ by more than the tolerance; with tolerance 0 it is equality.",
  "all shapes and contents, all finite tolerances, all integer types of at most 16 bits",
  "a property over all contents",
  M+"utils.hpp:compare")
p("larger determinants and inverses of narrow integer matrices",
  "det of 8-bit elements always returns, for every size; of signed 16-bit elements too, except for 3x3 matrices; for every type of at most 16 bits the only failure is a signed overflow. From 4x4 on det of a triangular matrix without a zero on its diagonal is the product of the diagonal modulo 2^w; with unsigned elements the sign of a row exchange is stored as 2^w-1 and then divides, so the unsigned char permutation matrix of one exchange has the determinant 0 instead of -1 modulo 256. inv of a matrix of at least 4 rows returns the signed determinants of the minors, transposed and divided with truncation by the stored determinant, modulo 2^w, or throws if that is 0; for 8-bit elements and for signed 16-bit elements with at least 5 rows it never has undefined behaviour.",
  "all sizes, contents and integer types of at most 16 bits",
  "overflow and wrap-around over all contents and sizes",
  M+"det.hpp:det", M+"inv.hpp:inv")
p("LU factorisation of narrow integer matrices",
  "What lu returns is determined: sums are stored modulo 2^w, U holds the differences modulo 2^w, L below and on the diagonal the exact int difference divided by the stored pivot, truncated and stored modulo 2^w. For 8-bit and signed 16-bit elements it returns, or throws on a zero pivot; for unsigned short an int can overflow. L*U equals A modulo 2^w on and above the diagonal in the rows where the diagonal element of L is 1, which it is unless the difference stored as the pivot did not fit. If the factors over the integers and their partial sums fit the type, these are returned.",
  "all sizes, contents and integer types of at most 16 bits",
  "wrap-around over all contents and sizes",
  M+"lu.hpp:lu")
p("Cholesky factorisation of narrow integer matrices",
  "What chol returns is determined: L is lower triangular, sums are stored modulo 2^w, the diagonal is the integer square root of the exact difference and the rest the truncated quotient modulo 2^w. If the factor over the integers and its partial sums fit the type it is returned. chol stops exactly where the number under the root is negative, the divisor is 0, or (unsigned short only) an int overflows. Because the sum wraps, chol can return for a matrix that is not positive definite.",
  "all sizes, contents and integer types of 2 to 16 bits",
  "wrap-around over all contents and sizes",
  M+"cholesky.hpp:chol")
p("powers of narrow integer matrices",
  "For 8-bit and signed 16-bit elements and at least 4 rows, pow(A, p) with p >= 0 always returns the exact power modulo 2^w; for the other types of at most 16 bits it returns this or has a signed overflow. For negative p it is the power of what inv returns, and a failure of inv is the failure of pow; the smallest exponent overflows.",
  "all sizes, contents, integer types of at most 16 bits and exponents of at least 32 bits",
  "wrap-around over all exponents",
  M+"pow.hpp:pow")
p("powers with exponents narrower than int",
  "pow(A, p) with an exponent p of a type narrower than int (signed char, unsigned char, short, unsigned short) does what pow with the int of the same value does.",
  "all matrices, element types, exponent types of at most 16 bits and exponents",
  "the failing exponent is one value per type, and the matrix decides whether it is visible",
  M+"pow.hpp:pow")
p("backward stability of the floating point determinant",
  "From 4x4 on, if during Gaussian elimination (first nonzero pivot) all elements stay finite and at most G in magnitude and no pivot is below m, then a finite det(A) is, up to the rounding of one product of n factors, the exact determinant of a matrix that differs from A by at most n*(7*u*G + (2+1/m)*eta) in each element, where u is the unit roundoff and eta half the smallest positive number. In particular a result 0 means that a matrix that near is singular up to underflow.",
  "all sizes, contents and binary floating point formats",
  "rounding errors over all contents; the exact determinants involved cannot be observed",
  M+"det.hpp:det")
p("which operator overload a call selects",
  "A + B and A - B with two matrices compile exactly when element types and both dimensions agree, A * B exactly when element types and inner dimensions agree. A + s, s + A, A - s, A * s, s * A and A / s compile exactly when the type of s is the element type: no conversion is made, so Matrix<float> + 1 is rejected. s - A is always rejected, and so is every other combination. No call is ever ambiguous, also when the elements are themselves matrices. The same holds of sum, sub, mult and div.",
  "all operand types, built from std::array and any others, and all dimensions",
  "a test can only try some instantiations, and cannot contain the calls that do not compile",
  M+"sum.hpp:operator+", M+"sub.hpp:operator-", M+"mult.hpp:operator*", M+"div.hpp:operator/")
p("integers held in floating point matrices",
  "If the elements of a float or double matrix are integers, +, -, * (matrices and scalars), strassen, pow with an exponent that is not negative, det up to 3x3, abs, conv2, conv2_full, conv2_valid, == and isSymetric give exactly what they give on an integer type of at most 25 bits (float) or 54 bits (double), whenever that computation does not overflow: a computation that is defined in int has the same values in double. int does not fit into float.",
  "all sizes, contents, exponents, signed integer types and binary floating point formats whose precision reaches the integer type",
  "rounding and overflow over all contents and sizes",
  M+"sum.hpp:sum", M+"sub.hpp:sub", M+"mult.hpp:mult", M+"pow.hpp:pow", M+"det.hpp:det", M+"conv2.hpp:conv2", M+"strassen.hpp:strassen", M+"abs.hpp:abs")
p("the same computation in a wider signed type",
  "A call on a matrix of signed integers that has no undefined behaviour does the same on a wider signed type: the same values, or the same exception or termination. This holds of every arithmetic function: +, -, *, / (matrices and scalars), ++, --, abs, strassen, pow, det, inv, lu, chol, conv2, conv2_full, conv2_valid, compare and isSymetric. It holds of mean when the sum is not negative, and fails for negative sums.",
  "all sizes, contents, exponents and pairs of signed integer types of at least 2 bits",
  "overflow and truncation over all contents and sizes",
  M+"sum.hpp:sum", M+"sub.hpp:sub", M+"mult.hpp:mult", M+"div.hpp:div", M+"pow.hpp:pow", M+"det.hpp:det", M+"inv.hpp:inv", M+"lu.hpp:lu", M+"cholesky.hpp:chol", M+"conv2.hpp:conv2", M+"mean.hpp:mean")
p("converting integer matrices to unsigned types",
  "Converting a matrix of signed integers to the unsigned type of the same width, or one of unsigned integers to fewer bits, may be done before or after +, -, *, strassen, pow with an exponent that is not negative, det up to 3x3 and the convolutions, with the same result (for signed elements, if the signed computation does not overflow; for unsigned ones always). It may not be moved across a division.",
  "all sizes (convolutions of unsigned matrices: dimensions up to 2^31), contents, exponents and widths",
  "wrap-around over all contents and sizes",
  M+"sum.hpp:sum", M+"sub.hpp:sub", M+"mult.hpp:mult", M+"pow.hpp:pow", M+"det.hpp:det", M+"conv2.hpp:conv2", M+"div.hpp:div")
p("moving elements before or after a computation",
  "A + B, A - B, A + s, A - s, A * s, A / s and abs(A) commute with trans, swap_rows, swap_cols, getminor and the two concatenations. The product of a stacked matrix is the stacked products, the product with a joined matrix the joined products; exchanging rows of the left or columns of the right factor exchanges them in the product; trans(A * B) is trans(B) * trans(A). All of this is equality of every element, not up to rounding, for every element type (for the last law: with commutative multiplication of elements), whenever the calls on the parts return.",
  "all element types, including floating point, and all sizes, contents and positions",
  "bit for bit equality of rounded results over all contents and sizes",
  M+"sum.hpp:sum", M+"sub.hpp:sub", M+"mult.hpp:mult", M+"div.hpp:div", M+"trans.hpp:trans", M+"concatenate.hpp:concatenate", M+"swap.hpp:swap_rows", M+"inv.hpp:getminor")
p("factors of leading blocks",
  "If lu(A) returns (L, U), lu of the first k rows and columns of A returns the first k rows and columns of L and of U; chol(A) likewise. So the leading part of a factor does not depend on the rest of the matrix. Conversely, if lu of a leading block of a floating point matrix throws, so does lu of the whole, and whatever stops chol of a leading block stops chol of the whole in the same way. All of this bit for bit, for every element type.",
  "all element types, sizes, block sizes and contents",
  "bit for bit equality of rounded results over all contents and sizes",
  M+"lu.hpp:lu", M+"cholesky.hpp:chol")
p("histograms of matrices of narrow integers",
  "For elements narrower than int, histogram(A) maps every value occurring in A to its number of occurrences and has no other entry, in increasing order of the values (so a byte above 127 comes last as unsigned char and first as signed char); cumulative_histogram(A) has the same keys and maps each to the number of elements not greater than it. The counts add up to the number of elements, neither map depends on the arrangement of the elements, and there are at most 2^w entries for w-bit elements however large the matrix is.",
  "all integer types of at most 16 bits, sizes with less than 2^64 elements, and contents",
  "counting over all contents and sizes",
  M+"histogram.hpp:histogram", M+"histogram.hpp:cumulative_histogram")
p("memory safety and definedness for narrow integers",
  "For elements narrower than int, no function reads or writes outside a matrix or vector, or reads an uninitialised element: zeros, ones, eye, the operators, strassen, abs, det, inv from 4x4 on, lu, chol, isSymetric, pow, the convolutions (dimensions up to 2^31), mean, var, stddev, median of a non-empty matrix, the histograms and compare. For 8-bit elements there is no undefined behaviour of any kind in +, -, *, abs, strassen, det, the convolutions and pow with an exponent that is not negative, which always return; /, lu and the general inverse return or throw (given that an exception is being handled where the code rethrows).",
  "all integer types of at most 16 bits, sizes and contents; for median all sorting functions that keep the length",
  "an out of bounds access need not be observable, and contents and sizes are unbounded",
  M+"mult.hpp:mult", M+"det.hpp:det", M+"inv.hpp:inv", M+"lu.hpp:lu", M+"cholesky.hpp:chol", M+"pow.hpp:pow", M+"conv2.hpp:conv2", M+"median.hpp:median", M+"utils.hpp:compare")
p("accuracy of floating point powers",
  "pow(A, p) with p >= 1 returns; if the result is finite, every element differs from that of the exact power of A by at most ((1+u)^(n(p-1)) - 1) times the element of the p-th power of the matrix of absolute values, plus (1+u)^(n(p-1)) ((1 + n^2 eta)^(p-1) - 1) g^p / n for underflow, where g >= 1 bounds the absolute row and column sums. The result is finite whenever (1+u)^(n(p-1)) (1 + n^2 eta)^(p-1) g^p is at most the largest finite number. pow(A, 0) is exactly the identity, pow(A, -1) has exactly the values of a finite inv(A), and for smaller exponents the bound holds relative to powers of the computed inverse.",
  "all sizes from 1x1, contents, exponents (the smallest of the type excepted) and binary floating point formats",
  "rounding errors over all contents, sizes and exponents; the exact power cannot be observed",
  M+"pow.hpp:pow", M+"mult.hpp:mult")
p("accuracy of floating point inverses from 4x4 on",
  "From 4x4 on every element of inv(A) is the correctly rounded quotient of the computed determinant of a minor, with the sign of the cofactor applied exactly, and the computed determinant of A. So if those determinants have errors at most e and E, with E below the magnitude of the exact determinant, a finite element x of the inverse has an error of at most u|x| + (1+u)(e + |x|E)/(|det A| - E) + eta; for 4x4 matrices e is the error bound of 3x3 determinants. If the determinant is computed as zero the exception being handled is rethrown, or the program terminates; this can happen to an invertible matrix.",
  "all sizes from 4x4, contents and binary floating point formats",
  "rounding errors over all contents and sizes; the exact inverse cannot be observed",
  M+"inv.hpp:inv", M+"det.hpp:det", M+"div.hpp:div")
p("printed integers can be read back",
  "print(A) writes every element of a matrix of short, int, long or their unsigned types in decimal, with a minus sign if negative and without leading zeros. Reading the words of the output (separated by spaces and line breaks) as integers gives exactly the elements, row by row. The output determines the number of rows, the number of elements and, given the shape, the matrix.",
  "all integer types of at least 16 bits except character types, all sizes and contents",
  "the output for all contents and sizes",
  M+"print.hpp:print", M+"print.hpp:print_num")
p("8-bit integers are printed as characters",
  "print(A) of a matrix of int8_t or uint8_t does not write numbers: every element becomes the single character with that code, followed by a space, so the output has exactly rows * (2 * columns + 1) characters whatever the values are. Given the shape the output determines the matrix, but reading its words does not give the elements: an element 48 is printed as 0, an element 32 as nothing visible, an element 10 as a line break.",
  "all sizes and contents of matrices of 8-bit integers",
  "the output for all contents and sizes",
  M+"print.hpp:print", M+"print.hpp:print_num")
p("accuracy of printed floating point numbers",
  "Reading the words of a printed matrix of finite floating point numbers as decimal numbers gives, row by row, for every element a number with at most six significant digits nearest to it (in a tie, with an even last digit), so with a relative error of at most 5e-6. An element that has at most six significant digits is printed exactly, and an integer below a million as its digits, without point or exponent. An exponent (with a sign and at least two digits) is printed exactly if the printed number is not zero and below 1e-4 or at least 1e6 in magnitude, and a fraction never ends with a zero. nan, inf and -inf are printed for the non-finite elements only. Different matrices can have the same output, even with integers as elements.",
  "all sizes, contents and binary floating point formats",
  "decimal rounding of every representable number, over all contents and sizes",
  M+"print.hpp:print", M+"print.hpp:print_num")
p("operators on matrices of bool",
  "On Matrix<bool, i, j>, + is the elementwise or, - is the elementwise exclusive or, * with a bool is and, A++ makes every element true and A-- inverts every element (both return the old matrix), abs is the identity, and division by true returns A while division by false rethrows the exception being handled or terminates. Hence - does not undo +: (A - B) + B is A + B, and (A + B) - B is true exactly where A is true and B is not. zeros, ones and eye are all false, all true and the identity.",
  "all sizes and contents",
  "all contents and sizes; the result depends on the conversion of every intermediate int to bool",
  M+"sum.hpp:sum", M+"sub.hpp:sub", M+"mult.hpp:mult", M+"div.hpp:div", M+"abs.hpp:abs", M+"sum.hpp:operator++", M+"sub.hpp:operator--")
p("products and powers of matrices of bool",
  "A * B of bool matrices is the Boolean product: true at (a, b) exactly if some k has A[a][k] and B[k][b]. It is associative, distributes over + and has eye() as neutral element. Taking A as the adjacency matrix of a graph, pow(A, p) with p >= 0 is true at (a, b) exactly if there is a walk of p steps from a to b, and pow(A + eye(), p) with p >= n - 1 exactly if b can be reached from a. The only matrices with a right inverse are the permutation matrices.",
  "all sizes, contents and exponents",
  "graphs of all sizes and walks of all lengths",
  M+"mult.hpp:mult", M+"pow.hpp:pow", M+"sum.hpp:sum")
p("determinants of bool matrices",
  "det(A) of a bool matrix always returns. Let D be the determinant of the matrix of zeros and ones. For 1x1 to 3x3 matrices det(A) is true exactly if D is not zero; from 4x4 on it is true exactly if D is odd. So the two rules disagree: bordering a 3x3 matrix of determinant 2 by the identity turns true into false.",
  "all sizes and contents",
  "all contents and sizes",
  M+"det.hpp:det")
p("inverses of bool matrices",
  "inv(A) of an invertible bool matrix (determinant of the zeros and ones odd), from 4x4 on, is its inverse modulo 2; if the determinant is even the exception being handled is rethrown, or the program terminates. inv(A) is an inverse for the library's own * only if A is a permutation matrix. pow(A, -p) is the p-th power of inv(A).",
  "all sizes from 4x4, contents and exponents",
  "all contents and sizes",
  M+"inv.hpp:inv", M+"det.hpp:det", M+"pow.hpp:pow")
p("convolutions of bool matrices",
  "conv2, conv2_full and conv2_valid of bool matrices are dilations by the kernel: an element of the result is true exactly if some true element of the kernel lies over a true element of the matrix. They always return.",
  "all sizes up to 2^31 per dimension and all contents",
  "all contents and sizes",
  M+"conv2.hpp:conv2", M+"conv2.hpp:conv2_full", M+"conv2.hpp:conv2_valid")
p("statistics, comparison and printing of bool matrices",
  "mean of a bool matrix with at least two elements is false whatever the elements are (of one element it is that element, of none it divides by zero); var and stddev are false for every matrix that is not empty. median is the strict majority: true exactly if more than half of the elements are true. histogram maps each value that occurs to its number of occurrences, false first; cumulative_histogram maps true to the number of elements. compare with a tolerance of at least 0 and less than 1 is equality, with 1 or more or NaN always true. print writes 1 for true and 0 for false.",
  "all sizes and contents; for median all sorting functions",
  "all contents and sizes",
  M+"mean.hpp:mean", M+"var.hpp:var", M+"stddev.hpp:stddev", M+"median.hpp:median", M+"histogram.hpp:histogram", M+"utils.hpp:compare", M+"print.hpp:print")
p("factorisations of bool matrices",
  "If lu(A) of a bool matrix returns (L, U), L is lower and U upper triangular, both with a true diagonal, they are determined by the recurrence in which sums are or and differences are exclusive or, and L * U is true wherever A is true, but it can be true elsewhere too. Otherwise lu throws, at a false pivot. If chol(A) returns L for a symmetric A, L is lower triangular and L * trans(L) is true wherever A is true, but possibly elsewhere too. Otherwise chol divides by zero at a false pivot. isSymetric is equality with the transpose. strassen(A, B) is not A * B.",
  "all sizes and contents",
  "all contents and sizes",
  M+"lu.hpp:lu", M+"cholesky.hpp:chol", M+"cholesky.hpp:isSymetric", M+"strassen.hpp:strassen")
p("no undefined behaviour for bool matrices",
  "For bool matrices there is no undefined behaviour of any kind in +, -, *, abs, strassen, det, the convolutions, isSymetric, compare and pow with an exponent that is not negative, and in mean, var, stddev, median and the histograms of a matrix that is not empty: they return for all contents. /, lu, inv and pow with a negative exponent (the smallest excepted) return or throw, given that an exception is being handled where the code rethrows.",
  "all sizes (dimensions up to 2^31 for the convolutions, fewer than 2^64 elements for the statistics) and contents",
  "undefined behaviour need not be observable, and contents and sizes are unbounded",
  M+"mult.hpp:mult", M+"det.hpp:det", M+"inv.hpp:inv", M+"lu.hpp:lu", M+"pow.hpp:pow", M+"conv2.hpp:conv2", M+"median.hpp:median", M+"utils.hpp:compare")
p("products of a matrix with its transpose are symmetric",
  "Whenever they return, A * trans(A), trans(A) * A and A + trans(A) equal their own transpose exactly, for integers of every width, floating point and exact elements; so do the square and all 2^k-th powers of a symmetric matrix (elements that are not promoted). isSymetric(A * trans(A)) is true for int and unsigned elements; for floating point it is true exactly if there is no NaN off the diagonal, and if row i of A has no NaN, element (i, i) of A * trans(A) is not negative and not NaN. Other floating point powers of a symmetric matrix need not be symmetric.",
  "all sizes, contents and element types",
  "rounding depends on the order of the operations, and contents and sizes are unbounded",
  M+"mult.hpp:mult", M+"trans.hpp:trans", M+"sum.hpp:sum", M+"pow.hpp:pow", M+"cholesky.hpp:isSymetric")
p("the mean of floating point data lies in the range of the data",
  "mean of a matrix of finite floating point numbers is not less than the smallest and not greater than the largest element; in particular the mean of a constant matrix is the constant and its variance is zero. And if no element of A exceeds that of B at the same place, mean(A) does not exceed mean(B).",
  "all formats, sizes and finite contents",
  "rounding errors depend on contents and sizes",
  M+"mean.hpp:mean", M+"var.hpp:var")
p("floating point functions are monotone",
  "Rounding never reverses an order: if no element of A exceeds that of B at the same place, the same holds of A + C and B + C, of C - B and C - A, and of the products with a scalar or a matrix without negative elements, of powers of matrices without negative elements, and of conv2, conv2_full and conv2_valid with a kernel without negative elements.",
  "all formats, sizes and finite contents (for + and - all contents), at the elements of the results that are not NaN; for powers, finite results",
  "contents and sizes are unbounded",
  M+"sum.hpp:sum", M+"sub.hpp:sub", M+"mult.hpp:mult", M+"pow.hpp:pow", M+"conv2.hpp:conv2")
p("forward error of the determinant and the inverse from 4x4 on",
  "If during the elimination no element exceeds G in magnitude and no pivot is below m, a finite det(A) of a floating point matrix from 4x4 on differs from the exact determinant by at most a bound that depends only on |A|, G, m, the size and the format. If the exact determinant is larger than the bound, a finite det(A) has its sign and is not zero; if in addition det(A) is finite, inv(A) returns. If the eliminations of the minors are bounded in the same way (3x3 minors need no bound), each finite element of it is that of the exact inverse up to the error of the quotient of the two determinants.",
  "all formats, sizes from 4x4 on, contents and bounds",
  "rounding errors depend on contents and sizes",
  M+"det.hpp:det", M+"inv.hpp:inv")
p("changing the sign of floating point arguments changes the sign of results at most",
  "Multiplying a floating point matrix by -1 only flips the signs, and doing it twice restores it. Up to the sign of zeros, the results for -A and -B are then exactly those for A and B or their negatives, never a differently rounded value: (-A) + (-B) and (-A) - (-B) are negated; a product, strassen or a convolution is negated if one argument is and unchanged if both are; mean and inv are negated; var and stddev are unchanged; det is negated exactly for odd sizes, pow exactly for odd exponents, of either sign; lu keeps L and negates U. abs, isSymetric and compare give the same. In all cases one call throws or stops exactly if the other does.",
  "all formats, sizes and contents, infinities and NaN included",
  "rounding and pivoting depend on contents, and contents and sizes are unbounded",
  M+"mult.hpp:mult", M+"sum.hpp:sum", M+"sub.hpp:sub", M+"strassen.hpp:strassen", M+"conv2.hpp:conv2", M+"mean.hpp:mean", M+"var.hpp:var", M+"det.hpp:det", M+"inv.hpp:inv", M+"lu.hpp:lu", M+"pow.hpp:pow", M+"abs.hpp:abs", M+"utils.hpp:compare")
p("chol accepts exactly the floating point matrices that are safely positive definite",
  "Let A be a symmetric floating point matrix of finite elements, with scales d_i whose squares are not below the diagonal elements, and g = (1+u)^(n+2) - 1 (n + 2 roundings). If x'Ax >= 6g(sum |x_i| d_i)^2 for all vectors x, and nothing is near the limits of the format, chol(A) returns a factor L of finite elements with positive diagonal, and L*trans(L) differs from A by at most 5g d_i d_j at (i, j). Conversely, if all elements of chol(A) are finite, x'Ax >= -5g(sum |x_i| d_i)^2 for all x; so a matrix that is indefinite by more than that gives an infinite or NaN element. In particular chol succeeds if the smallest eigenvalue is at least 6gn times the largest diagonal element, or if each diagonal element exceeds the sum of the magnitudes of the others in its row by that much.",
  "all formats, sizes and contents within the stated bounds",
  "rounding errors depend on contents and sizes",
  M+"cholesky.hpp:chol", M+"cholesky.hpp:isSymetric")
p("det and inv of diagonally dominant floating point matrices",
  "Let A be a floating point matrix from 4x4 on in which every diagonal element exceeds the sum of the magnitudes of the others in its row by at least m, and every row sum of magnitudes is at most R; let m be large compared with n^2 rounding errors of numbers of size R, and R small enough that products do not overflow. Then det(A) never exchanges rows, meets no element larger than 2R and no pivot smaller than m/2 in magnitude, returns a finite number within the error bound of C126 of the exact determinant, and its sign is not opposite to that of the product of the diagonal. If moreover m >= 2, det(A) is at least 1 in magnitude with exactly that sign, and inv(A) returns, whatever the context.",
  "all formats, sizes from 4x4 on and contents within the stated bounds",
  "rounding errors depend on contents and sizes",
  M+"det.hpp:det", M+"inv.hpp:inv")
p("lu of floating point matrices with dominant columns",
  "Let A be a floating point matrix in which every diagonal element exceeds the sum of the magnitudes of the others in its column by at least m, every column sum of magnitudes is at most C, e = 4((1+u)^n - 1)(n+1)C plus an underflow term, 4(n+1)e <= m, and 4(n+1)C is within the range of the format. Then lu(A) does not throw; both factors are finite; below the diagonal the magnitudes of each column of L add up to at most 1; no element of U exceeds 2C; each pivot is at least m/2 in magnitude with the sign of the diagonal element of A; and the exact product L*U differs from A by at most e in every element.",
  "all formats, sizes and contents within the stated bounds",
  "rounding errors depend on contents and sizes",
  M+"lu.hpp:lu")
p("determinant, minors, inverse, lu and chol agree with each other",
  "In exact arithmetic the results of the linear algebra functions fit together. Expanding along any row or column with getminor and det gives det(A). The elements of inv(A) are the signed determinants of the minors over det(A). If inv(A) returns B, then A*X == Y exactly if B*Y == X, and X*A == Y exactly if Y*B == X. If lu(A) returns (L, U), inv(A) returns inv(U)*inv(L). For symmetric A, U is trans(L) with its rows scaled by the pivots; det(A) is the squared product of the diagonal of chol(A); if that diagonal has no zeros, lu(A) returns the factor of chol with its columns divided by the diagonal, and its transpose with the rows multiplied by it. For symmetric real A the following are equivalent: chol returns a positive diagonal, lu returns positive pivots, all leading principal minors are positive. For positive definite A, det(A) is positive and inv(A) returns a positive definite matrix.",
  "all sizes and contents; all exact fields, for chol exact ordered fields with square roots, for positive definiteness the reals",
  "contents and sizes are unbounded",
  M+"det.hpp:det", M+"inv.hpp:inv", M+"inv.hpp:getminor", M+"lu.hpp:lu", M+"cholesky.hpp:chol", M+"mult.hpp:mult")
p("diagonally dominant matrices in exact arithmetic",
  "If every diagonal element exceeds the sum of the magnitudes of the others in its row, or in each case in its column, lu(A) and inv(A) return. The magnitude of det(A) lies between the product of the amounts by which the diagonal elements dominate and the product of the sums of magnitudes of the rows (columns). If the rows dominate by at least m, the magnitudes in each row of inv(A) add up to at most 1/m, and inv(A)*Y is at most 1/m times as large as Y. A symmetric real A with positive diagonal and dominant rows is positive definite, and chol(A) returns a factor with positive diagonal.",
  "all exact ordered fields, sizes and contents; for chol the reals",
  "contents and sizes are unbounded",
  M+"lu.hpp:lu", M+"inv.hpp:inv", M+"det.hpp:det", M+"cholesky.hpp:chol")
p("statistics of joined matrices",
  "concatenate (of matrices of different shape), concatenateV and concatenateH return a matrix with the elements of both arguments, and for any matrix C with the elements of A and of B, however arranged: the histogram counts of A and B add up to those of C, for every set of values; mean(C) is the mean of mean(A) and mean(B) weighted with the sizes; var(C) is the weighted mean of the variances plus the product of the two shares times the squared difference of the means; median(C) lies between median(A) and median(B).",
  "all sizes and contents; mean, var and median over all exact ordered fields, for non-empty matrices; histogram over all linearly ordered element types; histogram and median up to 2^64 - 1 elements",
  "contents and sizes are unbounded",
  M+"concatenate.hpp:concatenate", M+"mean.hpp:mean", M+"var.hpp:var", M+"median.hpp:median", M+"histogram.hpp:histogram")
p("how the statistics relate to each other",
  "In exact arithmetic mean(A) and var(A) do not depend on the arrangement of the elements; mean(A + B) is mean(A) + mean(B); mean and var can be read off the histogram as weighted sums over its keys; the median of an odd number of elements is the smallest key of the cumulative histogram with more than half of the elements. median(A + s) is median(A) + s and median(A * s) is median(A) * s, also for negative s. At most var(A)/t^2 of the elements are t or more away from the mean; mean and median differ by at most the standard deviation; if all elements lie between lo and hi, var(A) is at most (hi - mean)(mean - lo), and at most a quarter of (hi - lo)^2.",
  "all exact ordered fields, sizes and contents, for non-empty matrices, those concerning histogram and median up to 2^64 - 1 elements",
  "contents and sizes are unbounded",
  M+"mean.hpp:mean", M+"var.hpp:var", M+"median.hpp:median", M+"histogram.hpp:histogram", M+"histogram.hpp:cumulative_histogram")

p("laws of convolution",
  "An element of conv2(A, kernel) depends only on the element of A at the same place and its eight neighbours, and when conv2_full(A, kernel) returns, conv2(A, kernel) returns its central part; both for every element type, bit for bit. In exact arithmetic: trans(conv2(A, K)) == conv2(trans(A), trans(K)), and the same for conv2_full; two filters applied with conv2_full can be applied in either order; the elements of conv2_full(A, K) add up to the product of the sums of the elements of A and K; multiplying conv2(A, K) by B element by element and adding up gives the same as with A and conv2(B, K turned by 180 degrees); and a kernel that is a column times a row can be applied as a row kernel followed by a column kernel.",
  "all sizes up to 2^31 rows and columns (2^31 - 2 for two filters after each other, 2^32 - 2 for the first two laws), all matrices and kernels; every element type for the first two laws, every commutative ring for the others",
  "unit tests convolve a few small matrices; these laws relate different calls for all of them, borders included",
  M + "conv2.hpp:conv2", M + "conv2.hpp:conv2_full", M + "trans.hpp:trans")
p("which functions can be used with complex elements",
  "Matrices of std::complex<t> can be created, printed, transposed, joined, added, subtracted, multiplied (also by Strassen's algorithm), compared, convolved and given to chol, whatever t is. median and the histograms do not compile for them, as complex numbers are not ordered. mean, var and stddev compile only for t = std::size_t, because they divide by a std::size_t; division, lu, inv, pow and, except for 1x1 to 3x3 matrices, det compile only for t = int, because they mix elements with int literals. For built-in types none of these restrictions exists.",
  "all types t, all functions and sizes",
  "an instantiation that does not compile cannot be part of a unit test; there are infinitely many types",
  M + "type.hpp:matrix", M + "div.hpp:div", M + "lu.hpp:lu", M + "inv.hpp:inv", M + "det.hpp:det", M + "mean.hpp:mean", M + "median.hpp:median", M + "histogram.hpp:histogram")
p("chol of complex matrices uses the transpose without conjugation",
  "In exact complex arithmetic chol(A) of a symmetric A returns exactly if the leading principal minors of orders 1 to n - 1 are not zero. The result L is lower triangular with principal square roots on the diagonal, and L*trans(L) agrees with A on and below the diagonal; for symmetric A it equals A. A lower triangular matrix with such a diagonal without zeros is what chol(L*trans(L)) returns. On real symmetric matrices with a positive factor it returns what the real instantiation does. It is not the usual factorisation of Hermitian matrices: if the product of L and its conjugate transpose is A, then A is real. isSymetric accepts a Hermitian matrix only if it is real.",
  "all sizes and complex contents",
  "contents and sizes are unbounded",
  M + "cholesky.hpp:chol", M + "cholesky.hpp:isSymetric", M + "trans.hpp:trans")
p("sums and products of complex floating point matrices are accurate",
  "Sums and differences of matrices of std::complex<float> or std::complex<double> are rounded once in each part. For the product of an n x m and an m x p matrix, each part of an element that is finite differs from that of the exact product by at most (1+u)^(m+1) - 1 times the sum of the magnitudes of the terms it consists of, plus an underflow term. Products of matrices of Gaussian integers are exact as long as these magnitudes add up to at most 2^p. In A*s each part is that of the textbook formula, unless the formula gives NaN for both parts.",
  "all formats, sizes and contents; any result of the complex multiplication in the cases in which the textbook formula gives NaN in both parts, provided it is not finite",
  "rounding errors depend on contents and sizes",
  M + "mult.hpp:mult", M + "sum.hpp:sum", M + "sub.hpp:sub")
p("initialising and ordering matrices",
  "Matrix<T, r, c> A = { x1, ..., xk } lists the elements row by row; elements not listed are zero, and more than r*c do not compile. With every row in braces another pair of braces is needed around the rows: { { {...}, {...} } } gives the rows, short and missing ones filled up with zeros, long or additional ones do not compile; { {...}, {...} } with two or more rows does not compile. A < B is decided by the first elements, row by row, that differ; exactly one of A < B, A == B and B < A holds, and < is transitive, so that matrices can be sorted or used as keys.",
  "all sizes of at least 1 and all lists of initialisers of the element type; the order for all linearly ordered element types",
  "sizes, contents and lengths of the lists are unbounded, and initialisers that do not compile cannot be part of a unit test",
  M + "type.hpp:Matrix", M + "inv.hpp:inv", M + "strassen.hpp:strassen")
p("equal floating point matrices give equal results",
  "A == B holds exactly if the elements are the same, +0 and -0 not being told apart, and none is NaN; A == A exactly if A has no NaN. For equal arguments every function gives equal results, element by element (NaN where the other is NaN), or stops in the same way: sums, differences, products, quotients, abs, strassen, the convolutions, mean, var, stddev, det, inv except for 1x1 matrices, lu, pow (for 1x1 matrices with exponents that are not negative), isSymetric, compare and ==, and chol as long as it does not divide by a zero on the diagonal of the factor. The exceptions are real: there are equal matrices whose 1x1 inverses, Cholesky factors and printed forms differ.",
  "all formats, sizes and contents",
  "contents and sizes are unbounded; unit tests do not distinguish the zeros",
  M + "sum.hpp:sum", M + "mult.hpp:mult", M + "conv2.hpp:conv2", M + "det.hpp:det", M + "inv.hpp:inv", M + "lu.hpp:lu", M + "pow.hpp:pow", M + "cholesky.hpp:chol", M + "utils.hpp:compare", M + "print.hpp:print")
p("matrix algebra with complex elements",
  "In exact complex arithmetic A + B, A - B, A*s, A*B and strassen are the operations of linear algebra, det is the determinant for 1x1 to 3x3 matrices, and conv2 multiplies by the kernel without conjugating it. trans does not conjugate: it gives the conjugate transpose exactly of real matrices. abs gives the moduli, and compare(A, B, eps) is true exactly if the modulus of every difference is at most eps. Conjugating the operands of a sum, difference, product, conv2 or small det conjugates the result, and real matrices stored in a complex type give the results of the real type.",
  "all sizes (up to 2^31 rows and columns for conv2) and complex contents",
  "contents and sizes are unbounded",
  M + "sum.hpp:sum", M + "sub.hpp:sub", M + "mult.hpp:mult", M + "strassen.hpp:strassen", M + "trans.hpp:trans", M + "abs.hpp:abs", M + "utils.hpp:compare", M + "conv2.hpp:conv2", M + "det.hpp:det")
p("evaluating float operations in double changes nothing",
  "If every single operation on floats (+, -, *, /, sqrt, abs, comparisons) is evaluated in double and its result converted back, all functions give the same results as with operations in float, bit for bit; in particular stddev and chol do not depend on whether the unqualified sqrt is the function for float or for double. The same holds for any two formats of which one has twice the range and twice the precision plus 5 bits of the other. Converting a matrix to the wider format and back changes nothing, and sums, differences, products and quotients by a scalar, abs, == and isSymetric may be computed in the wider format as a whole. Matrix products may not: there the sums are not rounded in between, and the results can differ.",
  "all such pairs of formats, sizes and contents, including NaN, infinities, subnormals and overflow",
  "there are 2^64 pairs of floats for each operation, and double rounding goes wrong only near midpoints",
  M + "stddev.hpp:stddev", M + "cholesky.hpp:chol", M + "sum.hpp:sum", M + "sub.hpp:sub", M + "mult.hpp:mult", M + "div.hpp:div", M + "abs.hpp:abs")
p("fused multiply-adds keep the error bounds",
  "A compiler may evaluate a*b + c with one rounding instead of two (FP_CONTRACT), and decide so for each operation separately. Whatever it decides, finite results of matrix products, conv2, conv2_full, conv2_valid and of 2x2 and 3x3 determinants satisfy the error bounds proved without contraction, finite factors of lu and chol their backward error bounds, products of integer matrices are exact under the same condition, and the variance of a finite matrix is not negative and not NaN. Sums, differences, products and quotients by a scalar, mean, determinants of order 4 and above and inverses of order 5 and above of matrices in memory have nothing to contract and give the same results. What is lost: a singular 2x2 matrix is no longer always rejected by inv; that of which all elements are 4097 is inverted, as its determinant is computed as 1.",
  "all formats, sizes (up to 2^31 for convolutions) and contents, all choices of the operations to contract that treat the same expression alike",
  "whether operations are contracted depends on compiler, flags and target; a test sees one choice",
  M + "mult.hpp:mult", M + "conv2.hpp:conv2", M + "conv2.hpp:conv2_full", M + "conv2.hpp:conv2_valid", M + "det.hpp:det", M + "inv.hpp:inv", M + "lu.hpp:lu", M + "cholesky.hpp:chol", M + "var.hpp:var", M + "mean.hpp:mean")
p("memory is given back",
  "median asks for memory once, for all the elements at a time (not at all for a matrix without elements), and has released it when it returns or throws. histogram asks once for each different value and cumulative_histogram twice; on return only the nodes of the returned map are still in use, and destroying that map releases them. Whichever request for memory is refused, the function throws std::bad_alloc, everything it had obtained has been released, nothing is released twice and nothing else is released. If no request is refused, results are those of unlimited memory.",
  "all sizes, contents, states of the memory and sequences of granted and refused requests; elements ordered by <",
  "a test cannot make every request for memory fail in turn for every matrix",
  M + "median.hpp:median", M + "histogram.hpp:histogram", M + "histogram.hpp:cumulative_histogram")
p("print with other output functions and on streams that fail",
  "Whatever print_num and print_endl do, print calls print_num with the elements of each row from left to right and print_endl after each row, nothing else, and an exception ends it; with the empty functions used without PRINT_IOSTREAM_ENABLE it does nothing. On std::cout a width set by the user (std::setw) is applied to the first element only, the rest is written as with width 0. If the device behind the stream fails, what has been written is a beginning of the text up to the failure; print then throws std::ios_base::failure if exceptions are enabled for badbit, and returns as usual if not. If the device takes everything, the whole text is written.",
  "all sizes, contents, output functions, stream states (good on entry) and devices",
  "output functions and failing devices are arbitrary",
  M + "print.hpp:print", M + "print.hpp:print_num", M + "print.hpp:print_endl")
p("how calls end for arbitrary element types",
  "Whatever exceptions the operations of the element type throw (or however else they stop), a call of the library that does not return ends like one of the operations the function is made of: + and - like additions and subtractions, products like + and * of elements, det like -, * and / (+ only for 3x3, nothing at 1x1), chol like +, -, *, / and sqrt, and so on. The functions add endings of their own only in these places: division by a scalar equal to 0 rethrows (std::terminate if nothing is being handled), inv throws std::overflow_error for 2x2 and 3x3 and rethrows from 4x4 on, lu throws std::overflow_error, pow with a negative exponent ends like inv and overflows for the smallest exponent. Construction, transposition, swaps, concatenation, minors, comparison, histograms and print always return.",
  "all element types and operations, all sizes and contents (indices in range, sizes below 2^32 for convolutions; elements ordered by < for the median and histograms)",
  "the element type is a template parameter with arbitrary operations",
  M + "sum.hpp:sum", M + "mult.hpp:mult", M + "div.hpp:div", M + "det.hpp:det", M + "inv.hpp:inv", M + "lu.hpp:lu", M + "cholesky.hpp:chol", M + "pow.hpp:pow", M + "median.hpp:median")
p("how many operations each function performs",
  "A call that returns has performed exactly these numbers of operations on elements (comparisons not counted), and one that stops not more: elementwise functions and division by a scalar one for each element; n*m*p multiplications and additions for a product; Strassen's scheme 7 multiplications and 18 additions and subtractions; mean one addition for each element, var two additions, two subtractions and one multiplication for each element; median one addition and one division for an even number of elements and none for an odd one; lu and chol cubic numbers; conv2 nine additions for each element of the result and a multiplication for each pair of kernel and matrix elements that meet. pow(A, p) computes a square for each binary digit of p after the first and a product for each 1 among them, at most 2 log2 p products; a negative exponent costs the inverse and as many products, two for -1. det costs a cubic number of operations at most from 4x4 on, whatever the pivots, and inv the determinant and n*n minors, at most n^5 multiplications and divisions; up to 3x3 the numbers are exact. compare makes at most one subtraction and one abs for each element, and exactly so many if it returns true. From 4x4 on a determinant that is returned took n multiplications and a division at least, an inverse n^3 multiplications and n^2 divisions at least.",
  "all element types, sizes (up to 2^31 for convolutions) and contents; all exponents",
  "costs are formulas in the sizes and in the binary digits of the exponent, and a bound over all sequences of pivots",
  M + "sum.hpp:sum", M + "mult.hpp:mult", M + "strassen.hpp:strassen", M + "det.hpp:det", M + "inv.hpp:inv", M + "lu.hpp:lu", M + "cholesky.hpp:chol", M + "pow.hpp:pow", M + "conv2.hpp:conv2", M + "var.hpp:var", M + "median.hpp:median", M + "mean.hpp:mean")
p("powers of two pass through floating point results",
  "Multiplying rows and columns of a matrix of floating point numbers by powers of two changes the results by the powers of two that exact arithmetic has, and not otherwise: no digit of any significand differs and no sign. det gets the product of all factors, inv the reciprocals with rows and columns exchanged, lu and chol scaled factors with the same pivots, pow of D A D^-1 times 2^k is D A^p D^-1 times 2^(pk), a product A B is independent of powers moved from the columns of A to the rows of B, mean and stddev scale as the elements, var with the square, convolutions and strassen with both arguments; compare with a scaled tolerance and isSymetric answer the same. This holds if no multiplication or division in either call underflows and nothing overflows; without that condition it is false.",
  "all formats, sizes, contents and exponents, as long as every intermediate result is finite and every product and quotient normal or exact",
  "sizes, contents and exponents are unbounded, and each operation rounds",
  M + "mult.hpp:mult", M + "strassen.hpp:strassen", M + "conv2.hpp:conv2", M + "det.hpp:det", M + "inv.hpp:inv", M + "lu.hpp:lu", M + "cholesky.hpp:chol", M + "pow.hpp:pow", M + "mean.hpp:mean", M + "var.hpp:var", M + "stddev.hpp:stddev", M + "utils.hpp:compare")
p("directed rounding encloses the exact result",
  "A program may select a rounding mode (std::fesetround) before calling the library. In every mode each operation returns the neighbouring number IEEE 754 demands. Computed while rounding downward, the sum and difference of matrices, sums, differences and products with a number, the quotient by a number other than zero, the matrix product, conv2, conv2_full, conv2_valid and the mean of up to 2^p elements are lower bounds of the exact result and never NaN; rounding upward gives upper bounds; every mode's result is between the two unless it is NaN. So if both agree and are finite, they are exact. This is not so for det and strassen, whose results while rounding downward can exceed the exact ones. A - A is zero in every mode, and its zeros are negative when rounding downward. In every mode var and stddev of finite elements are not negative and not NaN.",
  "all formats, finite contents, sizes (up to 2^31 for convolutions, up to 2^p elements for mean) and the four rounding modes, the mode constant during the call",
  "sums of any length, each term rounded; tests run in the default mode and cannot show that a bound holds for all contents",
  M + "sum.hpp:sum", M + "sub.hpp:sub", M + "mult.hpp:mult", M + "div.hpp:div", M + "conv2.hpp:conv2", M + "conv2.hpp:conv2_full", M + "conv2.hpp:conv2_valid", M + "mean.hpp:mean", M + "det.hpp:det", M + "strassen.hpp:strassen", M + "var.hpp:var", M + "stddev.hpp:stddev")
p("error bounds in every arithmetic with bounded errors per operation",
  "If each operation of the element type that does not stop has a relative error of at most u, plus an absolute error for underflow (products and quotients e, sums and differences d), then, whatever else the arithmetic does: an element of a product of n x m by m x p matrices is within (1+u)^m - 1 times the sum of the absolute products, plus m (1+u)^(m-1) (e+d), of the exact one; the convolutions within (1+u)^9 - 1; 2x2 and 3x3 determinants within (1+u)^2 - 1 and (1+u)^7 - 1 times their absolute terms; the mean within (1+u)^(rc+2) - 1 times the mean of the absolute values; L U differs from A by at most (1+u)^n - 1 times |L| |U|, and L L^T from A by at most (1+u)^(n+2) - 1 times |L| |L^T| on and below the diagonal, each with the absolute errors as stated.",
  "all element types and error bounds u < 1, all sizes (up to 2^31 for convolutions) and contents for which the call returns",
  "the bounds are over all sizes and contents and all arithmetics at once",
  M + "mult.hpp:mult", M + "conv2.hpp:conv2", M + "conv2.hpp:conv2_full", M + "conv2.hpp:conv2_valid", M + "det.hpp:det", M + "mean.hpp:mean", M + "lu.hpp:lu", M + "cholesky.hpp:chol")
p("flushing of subnormal numbers",
  "A program may run with subnormal results flushed to zero (FTZ) and subnormal operands read as zero (DAZ), as programs linked with -ffast-math on x86 do, in any rounding mode. Then operations read subnormal operands as zeros of their sign, results at or above the smallest normal number are those of the rounding mode; exactly the products and quotients below a bound, which depends on the way tiny results are detected and on the rounding direction, become zeros with the sign of the result; comparisons of elements compare the numbers read; and no sum, difference, product or quotient, and no element of a product of matrices, is subnormal. For calls in which no operation overflows, divides by zero or is invalid, elementwise functions, products, convolutions, 2x2 and 3x3 determinants, means, lu and chol have the usual relative error bounds (unit roundoff twice as large in directed modes) plus an absolute error proportional to the smallest normal number instead of the smallest subnormal one. In directed modes the condition cannot be read off the result: an overflow can give a finite number. With DAZ matrices compare equal if the numbers read are equal. Without FTZ an element of A - B is zero exactly if the numbers read are equal; with FTZ the difference of unequal matrices can be zero.",
  "all formats, rounding modes, switches, ways of detecting tiny results, sizes (up to 2^31 for convolutions) and contents",
  "environments multiply the cases, and tests run in the default one",
  M + "sum.hpp:sum", M + "sub.hpp:sub", M + "mult.hpp:mult", M + "conv2.hpp:conv2", M + "det.hpp:det", M + "mean.hpp:mean", M + "lu.hpp:lu", M + "cholesky.hpp:chol", M + "type.hpp:Matrix")

p("matrices of special form",
  "With exact arithmetic: products and powers of upper triangular matrices are upper triangular, with products and powers of the diagonals; powers of strictly triangular matrices move the zeros up and end in the zero matrix at the size; powers of idempotent matrices are the matrix; products with permutation matrices permute rows or columns, their powers, determinants and inverses are those of the permutation; products and powers of stochastic matrices are stochastic; det of a triangular matrix is the product of the diagonal; inverses of triangular matrices are triangular with the reciprocals on the diagonal, those of diagonal matrices diagonal, those of orthogonal matrices the transpose (with determinant 1 or -1), those of involutions the matrix itself, those of symmetric matrices symmetric; lu of an upper triangular matrix without zeros on the diagonal is (I, A), of a unit lower triangular one (A, I).",
  "all exact fields (rings and ordered rings where no division is needed), sizes and matrices of these forms",
  "structure has to be kept at every size and for all values of the remaining elements",
  M + "mult.hpp:mult", M + "pow.hpp:pow", M + "det.hpp:det", M + "inv.hpp:inv", M + "lu.hpp:lu", M + "trans.hpp:trans")
p("matrices of special form in machine arithmetic",
  "Zeros do not cost accuracy. Determinants of upper triangular matrices of signed integers (4x4 or larger, no zero on the diagonal) are the product of the diagonal, returned whenever its magnitude fits, and the only failure is signed overflow, which is certain if the product does not fit; for unsigned integers (also lower triangular) they are the product modulo 2^w; for floating point numbers, in every rounding mode, the product with one rounding per multiplication, so with relative error at most (1+u)^n - 1 in the normal range. Products with permutation matrices only move rows or columns, without overflow or rounding. Products with diagonal matrices take one multiplication per element, and signed ones overflow only if such a multiplication does. Floating point products of upper triangular matrices are upper triangular. lu of an upper triangular matrix without zeros on the diagonal is (I, A), and of a unit lower triangular one (A, I), also for integers, whose division truncates. chol of a diagonal matrix of positive numbers holds the rounded (for signed integers: truncated) square roots. The floating point results hold up to the sign of zeros, for finite elements, also if subnormal numbers are flushed (but not if only results are).",
  "all widths (at least 2 bits, signed) and formats, rounding modes, switches except flushing of results alone, sizes (at least 4 for det), contents of these forms",
  "exactness depends on every zero that takes part in a loop, and unit tests compare with tolerance",
  M + "det.hpp:det", M + "mult.hpp:mult", M + "lu.hpp:lu", M + "cholesky.hpp:chol")
p("sums evaluated in another order",
  "A build may evaluate the sums in mult, conv2, conv2_full and mean in another order than written: with several accumulators (vectorised), pairwise, or any other binary tree that adds every term once (-fassociative-math, a part of -ffast-math). With exact arithmetic, and for products of unsigned integers, results are the same. In every arithmetic with relative errors up to u and absolute errors up to h per operation, calls that return are within the same kind of bounds: products of n x m by m x p within (1+u)^m - 1 times the sum of the absolute products plus 2 m (1+u)^(m-1) h; with (1+u)^(d+1) - 1 if every term passes through at most d additions, which for pairwise summation of 2^k terms is k and for s+1 accumulators of q+1 terms q+s; convolutions within (1+u)^9 - 1; means within (1+u)^(rc+2) - 1. Products in two orders differ by at most twice the bound. This includes rounding in any direction and flushing of subnormal numbers, if no operation overflows or is invalid. If the elements are integers and the sums of the absolute products do not exceed 2^p in a floating point format of precision p, every order gives the exact product. Otherwise the order can change results.",
  "all orders (a different one for each element), sizes (up to 2^31 for convolutions), formats, environments and contents for which the call returns",
  "the order is chosen by the compiler and can differ for each build, size and element",
  M + "mult.hpp:mult", M + "conv2.hpp:conv2", M + "conv2.hpp:conv2_full", M + "mean.hpp:mean")
p("including the headers in any order",
  "A file that includes matrix.hpp first, and then any headers of the library any number of times, is accepted; every function is declared and can be called, and print writes to standard output. Nothing is ever defined twice, and including a header again changes nothing. In other orders: a file is accepted exactly if each header finds what it needs among those included before it (cholesky, concatenate, det, eye, fill, lu, swap and utils need the type; ones and zeros also fill; mult the type and zeros; pow eye and ones), so these twelve headers cannot be included alone and the other sixteen can. Then a function is declared exactly if a header brings the one that defines it, and can be called, except that var and stddev can be called only if matrix_mean.hpp was read before matrix_var.hpp, and pow only if matrix_mult.hpp was read before matrix_pow.hpp; print writes only if the user has defined PRINT_IOSTREAM_ENABLE or included matrix.hpp before matrix_print.hpp. The library relies on the standard headers it includes to declare std::vector, std::overflow_error, ::floor and ::sqrt as well, which the C++ standard does not require; including <vector>, <stdexcept> and <math.h> before makes it independent of that.",
  "all sequences of includes, of any length; all implementations whose standard headers declare the names the library uses; compilers that allow at least 5 nested includes",
  "every test includes matrix.hpp alone; the orders and repetitions in a larger program are without bound",
  M + "type.hpp:Matrix", M + "var.hpp:var", M + "stddev.hpp:stddev", M + "pow.hpp:pow", M + "print.hpp:print", M + "mult.hpp:mult", M + "zeros.hpp:zeros", M + "median.hpp:median", M + "inv.hpp:inv")
p("finding the library's names",
  "Matrices belong to the namespace std, not mlib. So operators and functions of the library are found, for elements of arithmetic types, classes of std or the user's own, exactly where lookup by scopes leads to mlib: inside mlib, below a using-declaration, or with using namespace mlib. A function or operator of the same name declared in the user's own namespace hides those of the directive, but not those of a using-declaration in the same scope. Only for element types that belong to mlib are they found without.",
  "all element types, nested scopes and sets of the user's declarations",
  "every test uses the directive in the global namespace",
  M + "type.hpp:Matrix", M + "mult.hpp:operator*", M + "sum.hpp:operator+")
p("programs of several files",
  "The library may be included in several files of a program: no function is defined twice for the linker, and the names in each template's definition refer to the same functions in every file, as the one-definition rule demands.",
  "all programs, each file with any headers",
  "every test program is a single file, and violations of the one-definition rule need no diagnostic",
  M + "sum.hpp:operator+", M + "sub.hpp:operator-", M + "mult.hpp:operator*", M + "div.hpp:operator/", M + "conv2.hpp:conv2_valid", M + "inv.hpp:inv", M + "print.hpp:print")
p("accuracy of variances, large determinants and inverses in any arithmetic",
  "In every arithmetic with relative errors up to u and absolute errors up to h per operation (every format, rounding in any direction, subnormal numbers flushed or not), results that are returned are near the exact ones. Variances: within ((1+u)^(N+4) (1+d) - 1) times the variance, plus the square of the error of the mean, plus underflow, for N elements (d: absolute error of a sum). Standard deviations: within the relative error u and the root of that bound, or that bound divided by the deviation. Determinants from 4x4 on: if no element exceeds G during the elimination and no pivot is below m, they are, up to one rounding per factor and one more, the determinant of a matrix whose elements differ by at most n (u (1 + (2+u)^2) G + ((1+u)^2 + 1/m) h), from which a bound of the distance to the exact determinant follows. Inverses of 1x1 matrices: one rounding. Of larger ones, if the exact determinant exceeds the bound of its error E: each element within a rounding of (e + |x| E) / (|det| - E), for x the exact element and e the bound of the error of the minor. A call in a floating point environment during which no operation overflows, is invalid or divides by zero returns these results.",
  "all arithmetics of this kind, sizes, and contents for which the call returns (and the elimination is bounded, from 4x4 on)",
  "errors depend on every rounding and on the environment in which the program runs",
  M + "var.hpp:var", M + "stddev.hpp:stddev", M + "det.hpp:det", M + "inv.hpp:inv")
p("checking results with compare in any floating point environment",
  "In every rounding mode, with subnormal numbers flushed or not: compare accepts finite matrices whose elements differ by at most the tolerance, and what it accepts without an overflow differs by at most the tolerance times 1+u plus the absolute error of an operation. The computed product of the factors of lu is near the matrix, that of the factor of chol and its transpose is near the symmetric matrix, and those of a matrix and an inverse with known errors, in either order, are near the identity; the computed product of such an inverse and right hand sides is near the solutions of the linear systems. So a program in which no operation overflows, is invalid or divides by zero and which compares such a product (of lu, chol, or a 2x2 inverse) with the matrix or the identity finds them equal within every tolerance not below the bound.",
  "all arithmetics of the standard model, sizes, and contents for which the calls return; for compare all formats, environments and matrices",
  "tests check a few products against one tolerance in one environment",
  M + "utils.hpp:compare", M + "lu.hpp:lu", M + "cholesky.hpp:chol", M + "inv.hpp:inv", M + "mult.hpp:mult")
p("accuracy of powers and Strassen products in any arithmetic",
  "In every arithmetic with relative errors up to u and absolute errors up to h per operation (every format, rounding in any direction, subnormal numbers flushed or not), the elements of pow(A, p), p >= 1, that is returned are those of the exact power up to ((1+u)^(n(p-1)) - 1) times the element of the power of the absolute values, and an amount that vanishes without underflow; pow(A, 0) is the identity; pow(A, -1) is the computed inverse up to (1+u)^(2n) - 1 times its elements, and an amount that vanishes without underflow; for p <= -2 the bound for positive exponents holds relative to the powers of the computed inverse; for negative exponents a bound relative to the powers of the exact inverse follows from one of the errors of the computed inverse. Strassen products of matrices with elements of size at most a and b are exact up to ((1+u)^6 - 1) 12 a b and an amount that vanishes without underflow. A call in a floating point environment during which no operation overflows, is invalid or divides by zero returns these results.",
  "all arithmetics of this kind, sizes, exponents other than the smallest, and contents for which the call returns",
  "errors grow with the exponent and depend on every rounding and on the environment in which the program runs",
  M + "pow.hpp:pow", M + "strassen.hpp:strassen", M + "mult.hpp:operator*")
p("integers in floating point matrices in any floating point environment",
  "Let a floating point matrix hold integers of w bits, w at most one more than the precision. In every rounding mode, with subnormal numbers flushed or not, sums, differences, products with numbers and matrices, Strassen products, powers with exponents not below 0, determinants up to 3x3, absolute values and convolutions hold exactly the integers that the same call on integers of w bits returns, if that call is defined; == and isSymetric give the same answers. So results do not depend on the environment, except for the signs of zeros. With one more bit the rounding mode can be seen.",
  "all formats, environments, widths up to p+1, sizes, and contents for which the call on integers is defined",
  "rounding modes and flushing are properties of the calling thread that the tests never change",
  M + "sum.hpp:sum", M + "sub.hpp:sub", M + "mult.hpp:mult", M + "strassen.hpp:strassen", M + "pow.hpp:pow", M + "det.hpp:det", M + "abs.hpp:abs", M + "conv2.hpp:conv2", M + "utils.hpp:isSymetric")
p("calls that raise no floating point exception",
  "Let a call on finite floating point numbers raise none of the exceptions inexact, overflow, underflow, invalid and divide by zero, in any rounding mode, with subnormal numbers flushed or not (if they are read as zero, then results are flushed too). Then what it returns is exact: sums, differences, multiples, quotients by numbers that are not zero, products, Strassen products, determinants, powers, convolutions, means, variances and deviations are those of the real numbers; matrices from inv are inverses; factors from lu and chol multiply to the matrix (its lower triangle, for chol); compare decides whether the differences are within the tolerance. If inv throws or terminates the program the matrix is singular, and if lu throws a leading minor is zero. So testing the flags of <cfenv> after the call proves the result.",
  "all formats, environments, sizes and finite contents for which the call raises none of these exceptions",
  "tests compare a few results with expected numbers and never look at the flags",
  M + "sum.hpp:sum", M + "sub.hpp:sub", M + "mult.hpp:mult", M + "div.hpp:div", M + "strassen.hpp:strassen", M + "det.hpp:det", M + "inv.hpp:inv", M + "lu.hpp:lu", M + "cholesky.hpp:chol", M + "pow.hpp:pow", M + "utils.hpp:compare", M + "conv2.hpp:conv2", M + "mean.hpp:mean", M + "var.hpp:var", M + "stddev.hpp:stddev")
p("calls without exceptions in other environments and formats",
  "Let a call on finite floating point numbers raise no exception (as above). Then the same call in another rounding mode raises none either and returns the same numbers (up to the signs of zeros) or throws the same; the same holds for flushing environments if the first one flushes results too and the elements are not subnormal, and for formats with at least the precision and the range, as double instead of float. So whether a determinant or an inverse is computed without an exception does not depend on the rounding mode. This holds for sums, differences, products, multiples, quotients, Strassen products, determinants, inverses, powers, factors from lu and chol, compare, convolutions, means, variances and deviations.",
  "all formats, pairs of environments, sizes and finite contents for which the call raises no exception in the first environment",
  "rounding modes and flushing are properties of the calling thread that the tests never change",
  M + "sum.hpp:sum", M + "sub.hpp:sub", M + "mult.hpp:mult", M + "div.hpp:div", M + "strassen.hpp:strassen", M + "det.hpp:det", M + "inv.hpp:inv", M + "lu.hpp:lu", M + "cholesky.hpp:chol", M + "pow.hpp:pow", M + "utils.hpp:compare", M + "conv2.hpp:conv2", M + "mean.hpp:mean", M + "var.hpp:var", M + "stddev.hpp:stddev")
p("bounded elements do not overflow",
  "Let the elements be finite and bounded, and let M be the largest finite number of the format, p its precision. In every rounding mode, with subnormal numbers flushed or not, the following calls return, and no operation in them overflows, is invalid or divides by zero. Write room(k, t) if k <= 2^p, k 2^t <= M, and 2^t is not below the smallest subnormal number. Sums and differences, with matrices or numbers, of elements up to x and y with x + y <= k 2^t and room(k, t), multiples with x y <= k 2^t, and quotients by a number of size at least y with x <= k 2^t y: the elements of the result are at most k 2^t. compare of such elements decides: it accepts differences up to the tolerance e, and rejects those above (1+u) e plus the absolute error of an operation. Products with m columns, x y <= 2^t and room(m, t): at most m 2^t. Convolutions, room(9, t), sizes up to 2^31: at most 9 2^t. Determinants 2x2 with x x <= 2^t, room(2, t): at most 2 2^t; 3x3 with elements up to 2^t, room(6, 3t): at most 6 2^(3t). Strassen products of elements up to 2^u, 2^v, with room(2, u), room(2, v), room(12, u+v): at most 12 2^(u+v). Powers q >= 1 of at most 2^s rows, s <= p, elements up to 2^t, t >= 0: at most b = 2^(s(q-1)+tq), if b <= M. Means of N elements up to 2^t, room(N, t): at most 2^t, exactly, in spite of rounding. Variances, room(N, 2t+2): between 0 and 2^(2t+2); deviations are returned. So for these elements the error bounds of products, Strassen products, powers, determinants up to 3x3, conv2, means, variances and deviations hold without looking at flags. For example products of float matrices with elements up to 2^50 and up to 2^24 columns; two products of 2^127 overflow.",
  "all formats, environments, sizes and finite contents within the bounds",
  "overflow depends on sizes and magnitudes that tests never reach, and on the direction of every rounding",
  M + "sum.hpp:sum", M + "sub.hpp:sub", M + "mult.hpp:mult", M + "div.hpp:div", M + "utils.hpp:compare", M + "strassen.hpp:strassen", M + "det.hpp:det", M + "pow.hpp:pow", M + "conv2.hpp:conv2", M + "mean.hpp:mean", M + "var.hpp:var", M + "stddev.hpp:stddev")
p("inverses of regular matrices up to 3x3 in any floating point environment",
  "Let the elements of a matrix up to 3x3 be finite and bounded as in C164, in any format, rounding mode, with subnormal numbers flushed or not. If its exact determinant exceeds the bound E of the error of the computed determinant by y > 0 (for 1x1, if the element has size at least y), and the elements of the adjugate divided by y stay in range, then inv returns, no operation overflows, is invalid or divides by zero, the elements are bounded, and they are near those of the exact inverse (the error bound of C158). A program that inverts such a 2x2 matrix and compares the product with the identity finds them equal within a tolerance that depends only on the matrix, if the bounds of the product stay in range. If the bounds of the products stay in range, multiplying right hand sides by the inverse of such a 2x2 or 3x3 matrix gives results near the solutions of the linear systems, and powers with exponents -q, q >= 2 (not below the smallest exponent), are returned with bounded elements. If inv of a 2x2 or 3x3 matrix throws or ends the program, the exact determinant is at most E. The bound is needed: inv throws for the float matrix ((4097, 4098), (4096, 4097)) of determinant 1.",
  "all formats, environments and finite contents within the bounds, sizes 1, 2, 3",
  "whether a matrix is reported as singular depends on every rounding of its determinant",
  M + "inv.hpp:inv", M + "det.hpp:det", M + "div.hpp:div", M + "mult.hpp:mult", M + "pow.hpp:pow")
p("enclosures of bounded elements are narrow",
  "Rounding downward and upward gives bounds of the exact result (C149). For elements bounded as in C164 these bounds are finite, the results in all rounding modes are finite and between them, and their distance is at most twice the error bound of a computation with relative error e = 2^(1-p) and absolute error s per operation, s the smallest positive number: 2 (e |x| + s) for each element x of an exact sum, difference, multiple or quotient by a number, 2 (((1+e)^m - 1) S + m (1+e)^(m-1) s) for the elements of a product with m columns, S the sum of the absolute values of its terms, the same with m = 9 for conv2, conv2_full and conv2_valid, and 2 (((1+e)^(N+2) - 1) S + ((1+e)^(N+1) + 1) s) for the mean of N elements, S the mean of their absolute values. So an exact result that is an integer is determined if the bound is below 1: it is the only integer in the enclosure. Products of float matrices with elements up to 1 and m up to 2^22 columns are enclosed within m^2 / 2^20. A sum that overflows has no finite enclosure.",
  "all formats, sizes (up to 2^31 for convolutions), contents within the bounds, and the four rounding modes, subnormal numbers not flushed",
  "the width of an enclosure depends on every rounding of two runs; tests run in one mode",
  M + "sum.hpp:sum", M + "sub.hpp:sub", M + "mult.hpp:mult", M + "div.hpp:div", M + "conv2.hpp:conv2", M + "conv2.hpp:conv2_full", M + "conv2.hpp:conv2_valid", M + "mean.hpp:mean")
p("results in two floating point environments are close",
  "The same calls, run in two floating point environments (any rounding modes, with subnormal numbers flushed or not), on bounded elements as in C164 none of which is subnormal, all return finite results, and these differ by at most the sum of the error bounds of the two environments (C151, C160, C158), plus the smallest normal number for each environment that reads subnormal numbers as zero: products, products by strassen, conv2, conv2_full, conv2_valid, determinants of 2x2 and 3x3 matrices, means, powers with exponents from 1, and inverses of 2x2 and 3x3 matrices whose determinants exceed the error bounds in both environments as in C165. So compare, in the default environment, accepts two products of the same matrices from any two environments if the tolerance is not below that bound. Products of float matrices with normal elements up to 1 and 1 to 2^22 columns differ in any two environments by at most m^2 / 2^20, m the number of columns. Subnormal elements are excluded with reason: where they are read as zero the product of 2^-149 and 2^100 is 0 instead of 2^-49.",
  "all formats, pairs of environments, sizes (up to 2^31 for convolutions) and contents within the bounds that are not subnormal",
  "a test compares with results of its own environment; that a tolerance suffices for all contents in another environment cannot be tested",
  M + "mult.hpp:mult", M + "strassen.hpp:strassen", M + "conv2.hpp:conv2", M + "conv2.hpp:conv2_full", M + "conv2.hpp:conv2_valid", M + "det.hpp:det", M + "mean.hpp:mean", M + "pow.hpp:pow", M + "inv.hpp:inv", M + "utils.hpp:compare")
p("laws of matrix algebra up to rounding",
  "In every arithmetic with relative error u per operation and absolute errors d of sums and h of a product and a sum (C150), whatever its formats, modes and treatment of small numbers: if the calls return, (A B) C and A (B C) differ by at most 2 ((1+u)^(m+q) - 1) S plus a multiple of h given by the sizes m, q and the sizes of the elements, S the sum of the absolute values of the terms of the exact product; A (B + C) and A B + A C by at most 2 ((1+u)^(m+1) - 1) S plus multiples of h and d, and likewise (A + B) C and A C + B C; (s A) C and s (A C) by at most 2 ((1+u)^(m+1) - 1) S plus multiples of h and of the absolute error e of products; (A + B) + C and A + (B + C) by at most 2 ((1+u)^2 - 1) S + 2 (2+u) d; strassen and the operator * for 2x2 matrices by at most the sum of their error bounds. In every floating point environment the products of three matrices with bounded elements are returned, if the bounds of the partial products stay in range as in C164, and differ by at most the first bound; for example float matrices with elements up to 2^20 and inner sizes up to 2^10. In every floating point environment pow(A, q) * A and pow(A, q+1) are both returned, if the bounds of the powers stay in range, and differ by at most the sum of their error bounds. The laws do not hold exactly: for float numbers both (a b) c and (a + b) + c can differ from a (b c) and a + (b + c), a (b + c) from a b + a c, and (a s) c from (a c) s.",
  "all arithmetics with bounded errors, all sizes and contents for which the calls return; for bounded elements all floating point environments",
  "sizes and contents are unbounded, and each operation rounds",
  M + "mult.hpp:mult", M + "sum.hpp:sum", M + "strassen.hpp:strassen", M + "pow.hpp:pow")
