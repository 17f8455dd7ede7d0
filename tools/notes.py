NOTES = {
    "C10": ("partial", "False of the code: matrix_concatenate.hpp:63 copies A into the right half of "
            "`second`, so `second` is A next to A. C10_false refutes the claim; "
            "C10_concatenate_square_partial gives the exact result and when it agrees with the claim."),
    "C28": ("partial", "False of the code: for n >= 4 the elimination divides with truncation. C28_false "
            "(signed) and C28_unsigned_false (unsigned, even a permutation matrix) refute the claim. "
            "Proved instead: the result is the determinant whenever every division performed is exact, "
            "the only fault for signed elements is overflow, and unsigned elements never fault."),
    "C31": ("partial", "False of the code: n = 1 divides by zero, n >= 4 executes a bare throw. C31_false and "
            "C31_false_large refute the claim; C31_inv_singular_partial gives the exact behaviour for every n."),
    "C47": ("partial", "False of the code: the kernel is not flipped. C47_false refutes the claim; "
            "C47_conv2_octave_turned_partial shows the result is Octave's for the kernel turned by 180 degrees, and "
            "C47_conv2_octave_iff_partial that the claim holds exactly for invariant kernels."),
    "C51": ("partial", "False of the code: indices are converted to int. C51_false (more than 2^31 rows) and "
            "C51_conv2_out_of_bounds (2^32 rows) refute the claim; C51_conv2_partial gives the exact result below 2^32."),
    "C56": ("partial", "False of the code: T / size_t is an unsigned division. C56_false ({-3,0,0} gives 1431655764) "
            "refutes the claim; C56_mean_signed gives the result in every case without overflow, C56_mean_overflow_iff "
            "when it overflows, C56_mean_nonneg_partial the claim for non-negative sums."),
    "C60": ("partial", "False of the code for rand_major and col_major: C60_false. The other theorems say exactly when "
            "each pass leaves its matrix and that all three read uninitialised elements."),
    "C42": ("partial", "False of the code for floats: a NaN difference or tolerance compares equal (C42_false, "
            "C42_false_tolerance). C42_compare_partial gives the exact behaviour for every format, "
            "C42_compare_finite_partial the claim for finite matrices up to the rounding of the subtraction."),
    "C70": ("partial", "False of the code above 2^24: C70_false. C70_compare_int gives the exact behaviour, "
            "C70_compare_int_partial the claim up to 2^24 and the error above, C70_compare_int_fault the only fault."),
    "C76": ("partial", "False of the code: C76_false, a 4x4 float matrix with determinant -1 whose det is 0, because "
            "the first nonzero pivot is used however small. C76_det_triangular_partial proves the accuracy for triangular matrices."),
    "C100": ("partial", "False of the code: for the smallest exponent of signed char or short, std::abs(p) is "
            "converted back to p and A is inverted twice. C100_pow_narrow_exponent_false refutes the claim, "
            "C100_pow_min gives the result (A^128 for -128), C100_pow_narrow_exponent_partial proves the claim for "
            "all other exponents."),
    "C118": ("partial", "False of the code for 4x4 matrices: the 3x3 minors are not reduced modulo 2 but converted to "
             "bool, so a minor of 2 counts as 1. C118_inv4_wrong refutes the claim; C118_inv4 gives the exact result for "
             "4x4, C118_inv_partial proves the claim from 5x5 on."),
    "C124": ("partial", "False of the code: C124_false, the float mean of three times 12219326 is 12219325, and their "
             "variance 1. C124_mean_mono proves monotonicity, C124_mean_between the range between the means of the constant "
             "matrices; C124_mean_range_partial, C124_mean_range_int_partial and C124_mean_two_partial prove the claim where "
             "the multiples of the bounds are representable, for small integer bounds and for two elements."),
    "C157": ("partial", "False of the code: the operators on matrices, conv2_valid, the general inv and print use functions "
             "declared static, which are different functions in each file (C157_operator_differs, for operator+). "
             "C157_same_partial gives exactly the definitions that meet the rule; C157_link shows that linking never fails."),
}
