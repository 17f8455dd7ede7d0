{
 "claims": [
  {
   "property": "C01",
   "status": "proved",
   "theorems": [
    "MatrixLibs.C01_fill",
    "MatrixLibs.C01_zeros",
    "MatrixLibs.C01_onesUInt",
    "MatrixLibs.C01_onesUInt_ignores",
    "MatrixLibs.C01_ones",
    "MatrixLibs.C01_ones_rect"
   ],
   "note": ""
  },
  {
   "property": "C02",
   "status": "proved",
   "theorems": [
    "MatrixLibs.C02_eye_mul",
    "MatrixLibs.C02_eye"
   ],
   "note": ""
  },
  {
   "property": "C03",
   "status": "proved",
   "theorems": [
    "MatrixLibs.C03_trans",
    "MatrixLibs.C03_trans_trans"
   ],
   "note": ""
  },
  {
   "property": "C04",
   "status": "proved",
   "theorems": [
    "MatrixLibs.C04_trans_mul"
   ],
   "note": ""
  },
  {
   "property": "C05",
   "status": "proved",
   "theorems": [
    "MatrixLibs.C05_swap_rows",
    "MatrixLibs.C05_swap_rows_twice",
    "MatrixLibs.C05_swap_rows_comm"
   ],
   "note": ""
  },
  {
   "property": "C06",
   "status": "proved",
   "theorems": [
    "MatrixLibs.C06_swap_cols",
    "MatrixLibs.C06_swap_cols_twice",
    "MatrixLibs.C06_swap_cols_trans"
   ],
   "note": ""
  },
  {
   "property": "C07",
   "status": "proved",
   "theorems": [
    "MatrixLibs.C07_swap_rows_same",
    "MatrixLibs.C07_swap_cols_same",
    "MatrixLibs.C07_swap_rows_safe_iff",
    "MatrixLibs.C07_swap_rows_oob",
    "MatrixLibs.C07_swap_cols_safe_iff",
    "MatrixLibs.C07_swap_cols_oob"
   ],
   "note": ""
  },
  {
   "property": "C08",
   "status": "proved",
   "theorems": [
    "MatrixLibs.C08_concatenateV",
    "MatrixLibs.C08_concatenateH"
   ],
   "note": ""
  },
  {
   "property": "C09",
   "status": "proved",
   "theorems": [
    "MatrixLibs.C09_concatenate_rows",
    "MatrixLibs.C09_concatenate_cols"
   ],
   "note": ""
  },
  {
   "property": "C10",
   "status": "partial",
   "theorems": [
    "MatrixLibs.C10_false",
    "MatrixLibs.C10_concatenate_square_partial"
   ],
   "note": "False of the code: matrix_concatenate.hpp:63 copies A into the right half of `second`, so `second` is A next to A. C10_false refutes the claim; C10_concatenate_square_partial gives the exact result and when it agrees with the claim."
  },
  {
   "property": "C11",
   "status": "proved",
   "theorems": [
    "MatrixLibs.C11_concatenate_overload"
   ],
   "note": ""
  },
  {
   "property": "C12",
   "status": "proved",
   "theorems": [
    "MatrixLibs.C12_getminor"
   ],
   "note": ""
  },
  {
   "property": "C13",
   "status": "proved",
   "theorems": [
    "MatrixLibs.C13_getminor_safe_iff",
    "MatrixLibs.C13_getminor_oob",
    "MatrixLibs.C13_getminor_one"
   ],
   "note": ""
  },
  {
   "property": "C14",
   "status": "proved",
   "theorems": [
    "MatrixLibs.C14_add",
    "MatrixLibs.C14_sum",
    "MatrixLibs.C14_add_scalar",
    "MatrixLibs.C14_scalar_add",
    "MatrixLibs.C14_sub",
    "MatrixLibs.C14_sub_scalar",
    "MatrixLibs.C14_add_stops",
    "MatrixLibs.C14_sub_stops"
   ],
   "note": ""
  },
  {
   "property": "C15",
   "status": "proved",
   "theorems": [
    "MatrixLibs.C15_add_defined_iff",
    "MatrixLibs.C15_add_value",
    "MatrixLibs.C15_add_fault",
    "MatrixLibs.C15_sub_defined_iff",
    "MatrixLibs.C15_sub_value",
    "MatrixLibs.C15_sub_fault"
   ],
   "note": ""
  },
  {
   "property": "C16",
   "status": "proved",
   "theorems": [
    "MatrixLibs.C16_add_comm",
    "MatrixLibs.C16_add_assoc",
    "MatrixLibs.C16_add_zeros",
    "MatrixLibs.C16_add_sub_cancel",
    "MatrixLibs.C16_sub_self",
    "MatrixLibs.C16_scalar_add_comm"
   ],
   "note": ""
  },
  {
   "property": "C17",
   "status": "proved",
   "theorems": [
    "MatrixLibs.C17_postInc_spec",
    "MatrixLibs.C17_postDec_spec",
    "MatrixLibs.C17_postInc_postDec"
   ],
   "note": ""
  },
  {
   "property": "C18",
   "status": "proved",
   "theorems": [
    "MatrixLibs.C18_mul",
    "MatrixLibs.C18_mul_unsigned",
    "MatrixLibs.C18_mul_scalar"
   ],
   "note": ""
  },
  {
   "property": "C19",
   "status": "proved",
   "theorems": [
    "MatrixLibs.C19_mul_assoc",
    "MatrixLibs.C19_mul_add",
    "MatrixLibs.C19_add_mul",
    "MatrixLibs.C19_scalar_mul_comm",
    "MatrixLibs.C19_scalar_mul_assoc"
   ],
   "note": ""
  },
  {
   "property": "C20",
   "status": "proved",
   "theorems": [
    "MatrixLibs.C20_mul_value",
    "MatrixLibs.C20_mul_defined_iff",
    "MatrixLibs.C20_mul_fault"
   ],
   "note": ""
  },
  {
   "property": "C21",
   "status": "proved",
   "theorems": [
    "MatrixLibs.C21_strassen",
    "MatrixLibs.C21_strassen_signed",
    "MatrixLibs.C21_strassen_signed_fault",
    "MatrixLibs.C21_strassen_overflows",
    "MatrixLibs.C21_strassen_defined_iff"
   ],
   "note": ""
  },
  {
   "property": "C22",
   "status": "proved",
   "theorems": [
    "MatrixLibs.C22_div",
    "MatrixLibs.C22_div_zero_terminates",
    "MatrixLibs.C22_div_zero_rethrows",
    "MatrixLibs.C22_div_field",
    "MatrixLibs.C22_div_zero_field"
   ],
   "note": ""
  },
  {
   "property": "C23",
   "status": "proved",
   "theorems": [
    "MatrixLibs.C23_mul_div",
    "MatrixLibs.C23_div_mul"
   ],
   "note": ""
  },
  {
   "property": "C24",
   "status": "proved",
   "theorems": [
    "MatrixLibs.C24_abs",
    "MatrixLibs.C24_abs_ordered",
    "MatrixLibs.C24_abs_idem",
    "MatrixLibs.C24_abs_triangle",
    "MatrixLibs.C24_abs_signed",
    "MatrixLibs.C24_abs_signed_fault"
   ],
   "note": ""
  },
  {
   "property": "C25",
   "status": "proved",
   "theorems": [
    "MatrixLibs.C25_det_small",
    "MatrixLibs.C25_det_small_unsigned",
    "MatrixLibs.C25_det_small_signed",
    "MatrixLibs.C25_det_small_signed_fault"
   ],
   "note": ""
  },
  {
   "property": "C26",
   "status": "proved",
   "theorems": [
    "MatrixLibs.C26_det",
    "MatrixLibs.C26_det_zero_iff"
   ],
   "note": ""
  },
  {
   "property": "C27",
   "status": "proved",
   "theorems": [
    "MatrixLibs.C27_det_returns",
    "MatrixLibs.C27_det_stops"
   ],
   "note": ""
  },
  {
   "property": "C28",
   "status": "partial",
   "theorems": [
    "MatrixLibs.C28_false",
    "MatrixLibs.C28_unsigned_false",
    "MatrixLibs.C28_det_exact_partial",
    "MatrixLibs.C28_det_fault_partial",
    "MatrixLibs.C28_det_unsigned_returns_partial"
   ],
   "note": "False of the code: for n >= 4 the elimination divides with truncation. C28_false (signed) and C28_unsigned_false (unsigned, even a permutation matrix) refute the claim. Proved instead: the result is the determinant whenever every division performed is exact, the only fault for signed elements is overflow, and unsigned elements never fault."
  },
  {
   "property": "C29",
   "status": "proved",
   "theorems": [
    "MatrixLibs.C29_det_mul",
    "MatrixLibs.C29_det_trans",
    "MatrixLibs.C29_det_eye",
    "MatrixLibs.C29_det_swap_rows",
    "MatrixLibs.C29_det_swap_cols"
   ],
   "note": ""
  },
  {
   "property": "C30",
   "status": "proved",
   "theorems": [
    "MatrixLibs.C30_inv",
    "MatrixLibs.C30_inv_sound"
   ],
   "note": ""
  },
  {
   "property": "C31",
   "status": "partial",
   "theorems": [
    "MatrixLibs.C31_false",
    "MatrixLibs.C31_false_large",
    "MatrixLibs.C31_inv_singular_partial"
   ],
   "note": "False of the code: n = 1 divides by zero, n >= 4 executes a bare throw. C31_false and C31_false_large refute the claim; C31_inv_singular_partial gives the exact behaviour for every n."
  },
  {
   "property": "C32",
   "status": "proved",
   "theorems": [
    "MatrixLibs.C32_inv_inv",
    "MatrixLibs.C32_inv_mul",
    "MatrixLibs.C32_inv_trans",
    "MatrixLibs.C32_inv_eye",
    "MatrixLibs.C32_det_inv"
   ],
   "note": ""
  },
  {
   "property": "C33",
   "status": "proved",
   "theorems": [
    "MatrixLibs.C33_lu",
    "MatrixLibs.C33_lu_product",
    "MatrixLibs.C33_lu_det"
   ],
   "note": ""
  },
  {
   "property": "C34",
   "status": "proved",
   "theorems": [
    "MatrixLibs.C34_lu_returns_iff",
    "MatrixLibs.C34_lu_throws_iff",
    "MatrixLibs.C34_lu_outcomes"
   ],
   "note": ""
  },
  {
   "property": "C35",
   "status": "proved",
   "theorems": [
    "MatrixLibs.C35_lu_unique"
   ],
   "note": ""
  },
  {
   "property": "C36",
   "status": "proved",
   "theorems": [
    "MatrixLibs.C36_isSymetric_pairs",
    "MatrixLibs.C36_isSymetric",
    "MatrixLibs.C36_isSymetric_trans"
   ],
   "note": ""
  },
  {
   "property": "C37",
   "status": "proved",
   "theorems": [
    "MatrixLibs.C37_chol",
    "MatrixLibs.C37_chol_symmetric",
    "MatrixLibs.C37_chol_stops"
   ],
   "note": ""
  },
  {
   "property": "C38",
   "status": "proved",
   "theorems": [
    "MatrixLibs.C38_chol_posDef_iff",
    "MatrixLibs.C38_chol_unique"
   ],
   "note": ""
  },
  {
   "property": "C39",
   "status": "proved",
   "theorems": [
    "MatrixLibs.C39_chol_lower"
   ],
   "note": ""
  },
  {
   "property": "C40",
   "status": "proved",
   "theorems": [
    "MatrixLibs.C40_array_eq",
    "MatrixLibs.C40_isIdentity"
   ],
   "note": ""
  },
  {
   "property": "C41",
   "status": "proved",
   "theorems": [
    "MatrixLibs.C41_compare",
    "MatrixLibs.C41_compare_symm",
    "MatrixLibs.C41_compare_refl",
    "MatrixLibs.C41_compare_zero",
    "MatrixLibs.C41_compare_mono",
    "MatrixLibs.C41_compare_triangle"
   ],
   "note": ""
  },
  {
   "property": "C42",
   "status": "partial",
   "theorems": [
    "MatrixLibs.C42_compare_partial",
    "MatrixLibs.C42_false",
    "MatrixLibs.C42_false_tolerance",
    "MatrixLibs.C42_compare_finite_partial"
   ],
   "note": "False of the code for floats: a NaN difference or tolerance compares equal (C42_false, C42_false_tolerance). C42_compare_partial gives the exact behaviour for every format, C42_compare_finite_partial the claim for finite matrices up to the rounding of the subtraction."
  },
  {
   "property": "C43",
   "status": "proved",
   "theorems": [
    "MatrixLibs.C43_pow",
    "MatrixLibs.C43_pow_negative",
    "MatrixLibs.C43_pow_signed"
   ],
   "note": ""
  },
  {
   "property": "C44",
   "status": "proved",
   "theorems": [
    "MatrixLibs.C44_pow_returns",
    "MatrixLibs.C44_pow_add",
    "MatrixLibs.C44_pow_mul",
    "MatrixLibs.C44_pow_neg",
    "MatrixLibs.C44_pow_minus_one",
    "MatrixLibs.C44_pow_det",
    "MatrixLibs.C44_pow_add_nonneg"
   ],
   "note": ""
  },
  {
   "property": "C45",
   "status": "proved",
   "theorems": [
    "MatrixLibs.C45_pow_depth",
    "MatrixLibs.C45_pow_terminates",
    "MatrixLibs.C45_pow_inv_fails",
    "MatrixLibs.C45_pow_min",
    "MatrixLibs.C45_pow_of_inv"
   ],
   "note": ""
  },
  {
   "property": "C46",
   "status": "proved",
   "theorems": [
    "MatrixLibs.C46_conv2",
    "MatrixLibs.C46_conv2_interior",
    "MatrixLibs.C46_conv2_signed"
   ],
   "note": ""
  },
  {
   "property": "C47",
   "status": "partial",
   "theorems": [
    "MatrixLibs.C47_conv2_octave_turned_partial",
    "MatrixLibs.C47_conv2_octave_iff_partial",
    "MatrixLibs.C47_false"
   ],
   "note": "False of the code: the kernel is not flipped. C47_false refutes the claim; C47_conv2_octave_turned_partial shows the result is Octave's for the kernel turned by 180 degrees, and C47_conv2_octave_iff_partial that the claim holds exactly for invariant kernels."
  },
  {
   "property": "C48",
   "status": "proved",
   "theorems": [
    "MatrixLibs.C48_conv2_full",
    "MatrixLibs.C48_conv2_central"
   ],
   "note": ""
  },
  {
   "property": "C49",
   "status": "proved",
   "theorems": [
    "MatrixLibs.C49_conv2_valid",
    "MatrixLibs.C49_conv2_valid_any",
    "MatrixLibs.C49_conv2_valid_window"
   ],
   "note": ""
  },
  {
   "property": "C50",
   "status": "proved",
   "theorems": [
    "MatrixLibs.C50_conv2_add",
    "MatrixLibs.C50_conv2_add_kernel",
    "MatrixLibs.C50_conv2_unit",
    "MatrixLibs.C50_conv2_smul"
   ],
   "note": ""
  },
  {
   "property": "C51",
   "status": "partial",
   "theorems": [
    "MatrixLibs.C51_conv2_partial",
    "MatrixLibs.C51_conv2_out_of_bounds",
    "MatrixLibs.C51_false"
   ],
   "note": "False of the code: indices are converted to int. C51_false (more than 2^31 rows) and C51_conv2_out_of_bounds (2^32 rows) refute the claim; C51_conv2_partial gives the exact result below 2^32."
  },
  {
   "property": "C52",
   "status": "proved",
   "theorems": [
    "MatrixLibs.C52_histogram",
    "MatrixLibs.C52_histogram_total",
    "MatrixLibs.C52_histogram_count"
   ],
   "note": ""
  },
  {
   "property": "C53",
   "status": "proved",
   "theorems": [
    "MatrixLibs.C53_cumulative",
    "MatrixLibs.C53_cumulative_monotone",
    "MatrixLibs.C53_cumulative_last"
   ],
   "note": ""
  },
  {
   "property": "C54",
   "status": "proved",
   "theorems": [
    "MatrixLibs.C54_rearranged",
    "MatrixLibs.C54_trans"
   ],
   "note": ""
  },
  {
   "property": "C55",
   "status": "proved",
   "theorems": [
    "MatrixLibs.C55_mean",
    "MatrixLibs.C55_mean_bounds",
    "MatrixLibs.C55_mean_between",
    "MatrixLibs.C55_mean_add",
    "MatrixLibs.C55_mean_mul",
    "MatrixLibs.C55_mean_empty"
   ],
   "note": ""
  },
  {
   "property": "C56",
   "status": "partial",
   "theorems": [
    "MatrixLibs.C56_mean_signed",
    "MatrixLibs.C56_mean_overflow_iff",
    "MatrixLibs.C56_mean_nonneg_partial",
    "MatrixLibs.C56_mean_negative_pow2_partial",
    "MatrixLibs.C56_false"
   ],
   "note": "False of the code: T / size_t is an unsigned division. C56_false ({-3,0,0} gives 1431655764) refutes the claim; C56_mean_signed gives the result in every case without overflow, C56_mean_overflow_iff when it overflows, C56_mean_nonneg_partial the claim for non-negative sums."
  },
  {
   "property": "C57",
   "status": "proved",
   "theorems": [
    "MatrixLibs.C57_median_odd",
    "MatrixLibs.C57_median_even",
    "MatrixLibs.C57_median_rearranged",
    "MatrixLibs.C57_median_empty",
    "MatrixLibs.C57_median_half_odd",
    "MatrixLibs.C57_median_even_exact",
    "MatrixLibs.C57_median_half",
    "MatrixLibs.C57_median_even_signed"
   ],
   "note": ""
  },
  {
   "property": "C58",
   "status": "proved",
   "theorems": [
    "MatrixLibs.C58_var",
    "MatrixLibs.C58_var_squares",
    "MatrixLibs.C58_var_nonneg",
    "MatrixLibs.C58_var_zero_iff",
    "MatrixLibs.C58_var_add",
    "MatrixLibs.C58_var_mul",
    "MatrixLibs.C58_var_empty",
    "MatrixLibs.C58_stddev",
    "MatrixLibs.C58_stddev_exact"
   ],
   "note": ""
  },
  {
   "property": "C59",
   "status": "proved",
   "theorems": [
    "MatrixLibs.C59_print",
    "MatrixLibs.C59_print_injective",
    "MatrixLibs.C59_print_shape"
   ],
   "note": ""
  },
  {
   "property": "C60",
   "status": "partial",
   "theorems": [
    "MatrixLibs.C60_row_major_partial",
    "MatrixLibs.C60_row_major_sum",
    "MatrixLibs.C60_col_major_square_partial",
    "MatrixLibs.C60_col_major_out_of_bounds",
    "MatrixLibs.C60_rand_major_partial",
    "MatrixLibs.C60_rand_major_out_of_bounds",
    "MatrixLibs.C60_row_major_uninitialised",
    "MatrixLibs.C60_col_major_uninitialised",
    "MatrixLibs.C60_rand_major_uninitialised",
    "MatrixLibs.C60_false"
   ],
   "note": "False of the code for rand_major and col_major: C60_false. The other theorems say exactly when each pass leaves its matrix and that all three read uninitialised elements."
  },
  {
   "property": "C61",
   "status": "proved",
   "theorems": [
    "MatrixLibs.C61_setRand",
    "MatrixLibs.C61_setRand_initialised",
    "MatrixLibs.C61_setRand_fresh"
   ],
   "note": ""
  },
  {
   "property": "C62",
   "status": "proved",
   "theorems": [
    "MatrixLibs.C62_det_dispatch",
    "MatrixLibs.C62_inv_dispatch",
    "MatrixLibs.C62_square_overload"
   ],
   "note": ""
  },
  {
   "property": "C63",
   "status": "proved",
   "theorems": [
    "MatrixLibs.C63_contents",
    "MatrixLibs.C63_trans",
    "MatrixLibs.C63_swap",
    "MatrixLibs.C63_concatenate",
    "MatrixLibs.C63_getminor",
    "MatrixLibs.C63_sum",
    "MatrixLibs.C63_sub",
    "MatrixLibs.C63_mult",
    "MatrixLibs.C63_div_abs",
    "MatrixLibs.C63_det_inv",
    "MatrixLibs.C63_decompositions",
    "MatrixLibs.C63_pow",
    "MatrixLibs.C63_conv2",
    "MatrixLibs.C63_histogram",
    "MatrixLibs.C63_statistics",
    "MatrixLibs.C63_median",
    "MatrixLibs.C63_utils",
    "MatrixLibs.C63_print"
   ],
   "note": ""
  },
  {
   "property": "C64",
   "status": "proved",
   "theorems": [
    "MatrixLibs.C64_inv_iff",
    "MatrixLibs.C64_arith",
    "MatrixLibs.C64_div",
    "MatrixLibs.C64_det",
    "MatrixLibs.C64_inv",
    "MatrixLibs.C64_lu",
    "MatrixLibs.C64_chol",
    "MatrixLibs.C64_pow",
    "MatrixLibs.C64_conv",
    "MatrixLibs.C64_stats",
    "MatrixLibs.C64_misc"
   ],
   "note": ""
  },
  {
   "property": "C65",
   "status": "proved",
   "theorems": [
    "MatrixLibs.C65_add",
    "MatrixLibs.C65_sub",
    "MatrixLibs.C65_add_scalar",
    "MatrixLibs.C65_sub_scalar",
    "MatrixLibs.C65_mul_scalar",
    "MatrixLibs.C65_div_scalar",
    "MatrixLibs.C65_abs",
    "MatrixLibs.C65_add_comm",
    "MatrixLibs.C65_sub_self",
    "MatrixLibs.C65_sub_zero_iff",
    "MatrixLibs.C65_trans_mul"
   ],
   "note": ""
  },
  {
   "property": "C66",
   "status": "proved",
   "theorems": [
    "MatrixLibs.C66_mul_error",
    "MatrixLibs.C66_mul_finite"
   ],
   "note": ""
  },
  {
   "property": "C67",
   "status": "proved",
   "theorems": [
    "MatrixLibs.C67_mean_error",
    "MatrixLibs.C67_mean_finite"
   ],
   "note": ""
  },
  {
   "property": "C68",
   "status": "proved",
   "theorems": [
    "MatrixLibs.C68_arith",
    "MatrixLibs.C68_mul",
    "MatrixLibs.C68_mul_nan",
    "MatrixLibs.C68_mean",
    "MatrixLibs.C68_var",
    "MatrixLibs.C68_mean_nan",
    "MatrixLibs.C68_arith_nan",
    "MatrixLibs.C68_var_nan",
    "MatrixLibs.C68_det_nan",
    "MatrixLibs.C68_det2",
    "MatrixLibs.C68_det3"
   ],
   "note": ""
  },
  {
   "property": "C69",
   "status": "proved",
   "theorems": [
    "MatrixLibs.C69_mul_int"
   ],
   "note": ""
  },
  {
   "property": "C70",
   "status": "partial",
   "theorems": [
    "MatrixLibs.C70_compare_int",
    "MatrixLibs.C70_compare_int_partial",
    "MatrixLibs.C70_false",
    "MatrixLibs.C70_compare_int_fault"
   ],
   "note": "False of the code above 2^24: C70_false. C70_compare_int gives the exact behaviour, C70_compare_int_partial the claim up to 2^24 and the error above, C70_compare_int_fault the only fault."
  },
  {
   "property": "C71",
   "status": "proved",
   "theorems": [
    "MatrixLibs.C71_var"
   ],
   "note": ""
  },
  {
   "property": "C72",
   "status": "proved",
   "theorems": [
    "MatrixLibs.C72_mul_eye"
   ],
   "note": ""
  },
  {
   "property": "C73",
   "status": "proved",
   "theorems": [
    "MatrixLibs.C73_det2",
    "MatrixLibs.C73_det3"
   ],
   "note": ""
  },
  {
   "property": "C74",
   "status": "proved",
   "theorems": [
    "MatrixLibs.C74_lu_backward",
    "MatrixLibs.C74_lu_stops"
   ],
   "note": ""
  },
  {
   "property": "C75",
   "status": "proved",
   "theorems": [
    "MatrixLibs.C75_chol_backward",
    "MatrixLibs.C75_chol_negative"
   ],
   "note": ""
  },
  {
   "property": "C76",
   "status": "partial",
   "theorems": [
    "MatrixLibs.C76_false",
    "MatrixLibs.C76_det_triangular_partial"
   ],
   "note": "False of the code: C76_false, a 4x4 float matrix with determinant -1 whose det is 0, because the first nonzero pivot is used however small. C76_det_triangular_partial proves the accuracy for triangular matrices."
  },
  {
   "property": "C77",
   "status": "proved",
   "theorems": [
    "MatrixLibs.C77_conv2_error",
    "MatrixLibs.C77_conv2_full_error",
    "MatrixLibs.C77_conv2_valid_error"
   ],
   "note": ""
  },
  {
   "property": "C78",
   "status": "proved",
   "theorems": [
    "MatrixLibs.C78_signed_scalar",
    "MatrixLibs.C78_signed",
    "MatrixLibs.C78_signed_div",
    "MatrixLibs.C78_signed_div_overflow",
    "MatrixLibs.C78_signed_div_zero",
    "MatrixLibs.C78_unsigned",
    "MatrixLibs.C78_unsigned_div",
    "MatrixLibs.C78_unsigned_abs"
   ],
   "note": ""
  },
  {
   "property": "C79",
   "status": "proved",
   "theorems": [
    "MatrixLibs.C79_det",
    "MatrixLibs.C79_inv",
    "MatrixLibs.C79_multiply",
    "MatrixLibs.C79_multiply_overflows",
    "MatrixLibs.C79_strassen"
   ],
   "note": ""
  },
  {
   "property": "C80",
   "status": "proved",
   "theorems": [
    "MatrixLibs.C80_histogram",
    "MatrixLibs.C80_cumulative",
    "MatrixLibs.C80_median_odd",
    "MatrixLibs.C80_median_even",
    "MatrixLibs.C80_median_even_finite",
    "MatrixLibs.C80_median_half",
    "MatrixLibs.C80_median_overflows",
    "MatrixLibs.C80_nan",
    "MatrixLibs.C80_histogram_returns_iff"
   ],
   "note": ""
  },
  {
   "property": "C81",
   "status": "proved",
   "theorems": [
    "MatrixLibs.C81_mean_unsigned",
    "MatrixLibs.C81_var_unsigned",
    "MatrixLibs.C81_var_unsigned_exact",
    "MatrixLibs.C81_stddev_unsigned",
    "MatrixLibs.C81_sqrt_inexact",
    "MatrixLibs.C81_median_even_unsigned",
    "MatrixLibs.C81_var_signed",
    "MatrixLibs.C81_stddev_signed"
   ],
   "note": ""
  },
  {
   "property": "C82",
   "status": "proved",
   "theorems": [
    "MatrixLibs.C82_inv",
    "MatrixLibs.C82_stops",
    "MatrixLibs.C82_exact_iff",
    "MatrixLibs.C82_inv_large",
    "MatrixLibs.C82_inv_four",
    "MatrixLibs.C82_four_rows_false"
   ],
   "note": ""
  },
  {
   "property": "C83",
   "status": "proved",
   "theorems": [
    "MatrixLibs.C83_lu",
    "MatrixLibs.C83_error",
    "MatrixLibs.C83_exact",
    "MatrixLibs.C83_exact_iff",
    "MatrixLibs.C83_stops",
    "MatrixLibs.C83_differs_from_field"
   ],
   "note": ""
  },
  {
   "property": "C84",
   "status": "proved",
   "theorems": [
    "MatrixLibs.C84_chol",
    "MatrixLibs.C84_error",
    "MatrixLibs.C84_exact",
    "MatrixLibs.C84_exact_iff",
    "MatrixLibs.C84_stops",
    "MatrixLibs.C84_int",
    "MatrixLibs.C84_posdef_undefined"
   ],
   "note": ""
  },
  {
   "property": "C85",
   "status": "proved",
   "theorems": [
    "MatrixLibs.C85_var_error",
    "MatrixLibs.C85_stddev_error"
   ],
   "note": ""
  },
  {
   "property": "C86",
   "status": "proved",
   "theorems": [
    "MatrixLibs.C86_inv1",
    "MatrixLibs.C86_inv2",
    "MatrixLibs.C86_inv2_singular",
    "MatrixLibs.C86_inv3"
   ],
   "note": ""
  },
  {
   "property": "C87",
   "status": "proved",
   "theorems": [
    "MatrixLibs.C87_strassen_error",
    "MatrixLibs.C87_not_componentwise"
   ],
   "note": ""
  },
  {
   "property": "C88",
   "status": "proved",
   "theorems": [
    "MatrixLibs.C88_add_sub",
    "MatrixLibs.C88_add_sub_scalar",
    "MatrixLibs.C88_inc_dec",
    "MatrixLibs.C88_mul_scalar",
    "MatrixLibs.C88_mul_scalar_returns",
    "MatrixLibs.C88_uint16_overflow"
   ],
   "note": ""
  },
  {
   "property": "C89",
   "status": "proved",
   "theorems": [
    "MatrixLibs.C89_mul",
    "MatrixLibs.C89_mul_value",
    "MatrixLibs.C89_mul_returns_iff",
    "MatrixLibs.C89_strassen",
    "MatrixLibs.C89_strassen_value",
    "MatrixLibs.C89_strassen_int16"
   ],
   "note": ""
  },
  {
   "property": "C90",
   "status": "proved",
   "theorems": [
    "MatrixLibs.C90_div",
    "MatrixLibs.C90_div_zero",
    "MatrixLibs.C90_abs"
   ],
   "note": ""
  },
  {
   "property": "C91",
   "status": "proved",
   "theorems": [
    "MatrixLibs.C91_det1",
    "MatrixLibs.C91_det2_value",
    "MatrixLibs.C91_det2",
    "MatrixLibs.C91_det3_value",
    "MatrixLibs.C91_det3",
    "MatrixLibs.C91_det3_int16",
    "MatrixLibs.C91_det2_uint16",
    "MatrixLibs.C91_det4_false"
   ],
   "note": ""
  },
  {
   "property": "C92",
   "status": "proved",
   "theorems": [
    "MatrixLibs.C92_conv2",
    "MatrixLibs.C92_conv2_full",
    "MatrixLibs.C92_conv2_valid",
    "MatrixLibs.C92_value",
    "MatrixLibs.C92_exact"
   ],
   "note": ""
  },
  {
   "property": "C93",
   "status": "proved",
   "theorems": [
    "MatrixLibs.C93_mean",
    "MatrixLibs.C93_mean_exact",
    "MatrixLibs.C93_mean_wraps",
    "MatrixLibs.C93_mean_negative",
    "MatrixLibs.C93_mean_empty",
    "MatrixLibs.C93_var",
    "MatrixLibs.C93_var_value",
    "MatrixLibs.C93_var_overflow",
    "MatrixLibs.C93_stddev",
    "MatrixLibs.C93_stddev_undefined"
   ],
   "note": ""
  },
  {
   "property": "C94",
   "status": "proved",
   "theorems": [
    "MatrixLibs.C94_median_even",
    "MatrixLibs.C94_median_odd"
   ],
   "note": ""
  },
  {
   "property": "C95",
   "status": "proved",
   "theorems": [
    "MatrixLibs.C95_compare",
    "MatrixLibs.C95_compare_zero"
   ],
   "note": ""
  },
  {
   "property": "C96",
   "status": "proved",
   "theorems": [
    "MatrixLibs.C96_det8",
    "MatrixLibs.C96_det16",
    "MatrixLibs.C96_det_stops",
    "MatrixLibs.C96_det_unsigned_false",
    "MatrixLibs.C96_det_triangular",
    "MatrixLibs.C96_inv",
    "MatrixLibs.C96_inv_defined"
   ],
   "note": ""
  },
  {
   "property": "C97",
   "status": "proved",
   "theorems": [
    "MatrixLibs.C97_lu",
    "MatrixLibs.C97_lu_defined",
    "MatrixLibs.C97_lu_stops",
    "MatrixLibs.C97_lu_product",
    "MatrixLibs.C97_lu_diag",
    "MatrixLibs.C97_lu_exact",
    "MatrixLibs.C97_lu_not_unit"
   ],
   "note": ""
  },
  {
   "property": "C98",
   "status": "proved",
   "theorems": [
    "MatrixLibs.C98_chol",
    "MatrixLibs.C98_chol_stops",
    "MatrixLibs.C98_chol_exact",
    "MatrixLibs.C98_chol_wraps"
   ],
   "note": ""
  },
  {
   "property": "C99",
   "status": "proved",
   "theorems": [
    "MatrixLibs.C99_pow",
    "MatrixLibs.C99_pow_value",
    "MatrixLibs.C99_pow_negative"
   ],
   "note": ""
  },
  {
   "property": "C100",
   "status": "partial",
   "theorems": [
    "MatrixLibs.C100_pow_narrow_exponent_partial",
    "MatrixLibs.C100_pow_nonneg",
    "MatrixLibs.C100_pow_min",
    "MatrixLibs.C100_pow_narrow_exponent_false"
   ],
   "note": "False of the code: for the smallest exponent of signed char or short, std::abs(p) is converted back to p and A is inverted twice. C100_pow_narrow_exponent_false refutes the claim, C100_pow_min gives the result (A^128 for -128), C100_pow_narrow_exponent_partial proves the claim for all other exponents."
  },
  {
   "property": "C101",
   "status": "proved",
   "theorems": [
    "MatrixLibs.C101_det_backward"
   ],
   "note": ""
  },
  {
   "property": "C102",
   "status": "proved",
   "theorems": [
    "MatrixLibs.C102_add",
    "MatrixLibs.C102_sub",
    "MatrixLibs.C102_mul",
    "MatrixLibs.C102_mult",
    "MatrixLibs.C102_div",
    "MatrixLibs.C102_no_conversion"
   ],
   "note": ""
  },
  {
   "property": "C103",
   "status": "proved",
   "theorems": [
    "MatrixLibs.C103_add",
    "MatrixLibs.C103_sub",
    "MatrixLibs.C103_scalar",
    "MatrixLibs.C103_mul",
    "MatrixLibs.C103_strassen",
    "MatrixLibs.C103_pow",
    "MatrixLibs.C103_det",
    "MatrixLibs.C103_abs",
    "MatrixLibs.C103_conv2",
    "MatrixLibs.C103_conv2_valid",
    "MatrixLibs.C103_predicates",
    "MatrixLibs.C103_convert",
    "MatrixLibs.C103_float_int_differs"
   ],
   "note": ""
  },
  {
   "property": "C104",
   "status": "proved",
   "theorems": [
    "MatrixLibs.C104_add_sub",
    "MatrixLibs.C104_scalar",
    "MatrixLibs.C104_mul",
    "MatrixLibs.C104_strassen",
    "MatrixLibs.C104_pow",
    "MatrixLibs.C104_inc_dec",
    "MatrixLibs.C104_abs",
    "MatrixLibs.C104_det",
    "MatrixLibs.C104_inv",
    "MatrixLibs.C104_lu",
    "MatrixLibs.C104_chol",
    "MatrixLibs.C104_conv2",
    "MatrixLibs.C104_conv2_valid",
    "MatrixLibs.C104_predicates",
    "MatrixLibs.C104_mean_nonneg",
    "MatrixLibs.C104_mean_differs"
   ],
   "note": ""
  },
  {
   "property": "C105",
   "status": "proved",
   "theorems": [
    "MatrixLibs.C105_signed_add_sub",
    "MatrixLibs.C105_signed_scalar",
    "MatrixLibs.C105_signed_mul",
    "MatrixLibs.C105_signed_strassen",
    "MatrixLibs.C105_signed_pow",
    "MatrixLibs.C105_signed_det",
    "MatrixLibs.C105_signed_conv2",
    "MatrixLibs.C105_truncate_add_sub",
    "MatrixLibs.C105_truncate_mul",
    "MatrixLibs.C105_truncate_strassen",
    "MatrixLibs.C105_truncate_pow",
    "MatrixLibs.C105_truncate_det",
    "MatrixLibs.C105_truncate_conv2",
    "MatrixLibs.C105_truncate_conv2_valid",
    "MatrixLibs.C105_division_differs"
   ],
   "note": ""
  },
  {
   "property": "C106",
   "status": "proved",
   "theorems": [
    "MatrixLibs.C106_trans",
    "MatrixLibs.C106_swap_rows",
    "MatrixLibs.C106_swap_cols",
    "MatrixLibs.C106_getminor",
    "MatrixLibs.C106_concatenate_rows",
    "MatrixLibs.C106_concatenate_cols",
    "MatrixLibs.C106_mul_stacked",
    "MatrixLibs.C106_mul_joined",
    "MatrixLibs.C106_mul_swap_rows",
    "MatrixLibs.C106_mul_swap_cols",
    "MatrixLibs.C106_mul_trans",
    "MatrixLibs.C106_mul_comm",
    "MatrixLibs.C106_moves",
    "MatrixLibs.C106_trans_narrow",
    "MatrixLibs.C106_swap_rows_narrow",
    "MatrixLibs.C106_swap_cols_narrow",
    "MatrixLibs.C106_getminor_narrow",
    "MatrixLibs.C106_concatenate_rows_narrow",
    "MatrixLibs.C106_concatenate_cols_narrow",
    "MatrixLibs.C106_mul_stacked_narrow",
    "MatrixLibs.C106_mul_joined_narrow",
    "MatrixLibs.C106_mul_swap_rows_narrow",
    "MatrixLibs.C106_mul_swap_cols_narrow",
    "MatrixLibs.C106_mul_trans_narrow"
   ],
   "note": ""
  },
  {
   "property": "C107",
   "status": "proved",
   "theorems": [
    "MatrixLibs.C107_lu",
    "MatrixLibs.C107_lu_independent",
    "MatrixLibs.C107_lu_throws",
    "MatrixLibs.C107_chol",
    "MatrixLibs.C107_chol_stops",
    "MatrixLibs.C107_lu_narrow",
    "MatrixLibs.C107_chol_narrow"
   ],
   "note": ""
  },
  {
   "property": "C108",
   "status": "proved",
   "theorems": [
    "MatrixLibs.C108_histogram",
    "MatrixLibs.C108_histogram_total",
    "MatrixLibs.C108_cumulative",
    "MatrixLibs.C108_rearranged",
    "MatrixLibs.C108_size"
   ],
   "note": ""
  },
  {
   "property": "C109",
   "status": "proved",
   "theorems": [
    "MatrixLibs.C109_contents",
    "MatrixLibs.C109_arith",
    "MatrixLibs.C109_linear",
    "MatrixLibs.C109_pow",
    "MatrixLibs.C109_conv",
    "MatrixLibs.C109_statistics",
    "MatrixLibs.C109_compare",
    "MatrixLibs.C109_defined8"
   ],
   "note": ""
  },
  {
   "property": "C110",
   "status": "proved",
   "theorems": [
    "MatrixLibs.C110_pow_error",
    "MatrixLibs.C110_pow_finite",
    "MatrixLibs.C110_pow_zero",
    "MatrixLibs.C110_pow_minus_one",
    "MatrixLibs.C110_pow_negative"
   ],
   "note": ""
  },
  {
   "property": "C111",
   "status": "proved",
   "theorems": [
    "MatrixLibs.C111_inv_value",
    "MatrixLibs.C111_inv_error",
    "MatrixLibs.C111_inv4_error",
    "MatrixLibs.C111_inv_rejects_invertible"
   ],
   "note": ""
  },
  {
   "property": "C112",
   "status": "proved",
   "theorems": [
    "MatrixLibs.C112_print_words",
    "MatrixLibs.C112_read_int",
    "MatrixLibs.C112_int_canonical",
    "MatrixLibs.C112_print_sint",
    "MatrixLibs.C112_print_unsigned",
    "MatrixLibs.C112_print_short",
    "MatrixLibs.C112_print_sint_injective"
   ],
   "note": ""
  },
  {
   "property": "C113",
   "status": "proved",
   "theorems": [
    "MatrixLibs.C113_print_bytes",
    "MatrixLibs.C113_print_bytes_injective",
    "MatrixLibs.C113_bytes_not_numbers"
   ],
   "note": ""
  },
  {
   "property": "C114",
   "status": "proved",
   "theorems": [
    "MatrixLibs.C114_read_float",
    "MatrixLibs.C114_ties_even",
    "MatrixLibs.C114_six_digits_exact",
    "MatrixLibs.C114_print_float",
    "MatrixLibs.C114_print_integer",
    "MatrixLibs.C114_notation",
    "MatrixLibs.C114_nonfinite",
    "MatrixLibs.C114_print_lossy"
   ],
   "note": ""
  },
  {
   "property": "C115",
   "status": "proved",
   "theorems": [
    "MatrixLibs.C115_add_sub",
    "MatrixLibs.C115_scalar",
    "MatrixLibs.C115_inc_dec",
    "MatrixLibs.C115_div",
    "MatrixLibs.C115_abs",
    "MatrixLibs.C115_no_inverse",
    "MatrixLibs.C115_contents"
   ],
   "note": ""
  },
  {
   "property": "C116",
   "status": "proved",
   "theorems": [
    "MatrixLibs.C116_mul",
    "MatrixLibs.C116_laws",
    "MatrixLibs.C116_pow",
    "MatrixLibs.C116_closure",
    "MatrixLibs.C116_units"
   ],
   "note": ""
  },
  {
   "property": "C117",
   "status": "proved",
   "theorems": [
    "MatrixLibs.C117_det_large",
    "MatrixLibs.C117_det_small",
    "MatrixLibs.C117_det_returns",
    "MatrixLibs.C117_rules_differ"
   ],
   "note": ""
  },
  {
   "property": "C118",
   "status": "partial",
   "theorems": [
    "MatrixLibs.C118_inv4",
    "MatrixLibs.C118_inv_adjugate",
    "MatrixLibs.C118_inv_partial",
    "MatrixLibs.C118_inv_even",
    "MatrixLibs.C118_inv4_wrong",
    "MatrixLibs.C118_product",
    "MatrixLibs.C118_pow_neg",
    "MatrixLibs.C118_pow_throws"
   ],
   "note": "False of the code for 4x4 matrices: the 3x3 minors are not reduced modulo 2 but converted to bool, so a minor of 2 counts as 1. C118_inv4_wrong refutes the claim; C118_inv4 gives the exact result for 4x4, C118_inv_partial proves the claim from 5x5 on."
  },
  {
   "property": "C119",
   "status": "proved",
   "theorems": [
    "MatrixLibs.C119_conv2",
    "MatrixLibs.C119_conv2_full",
    "MatrixLibs.C119_conv2_valid"
   ],
   "note": ""
  },
  {
   "property": "C120",
   "status": "proved",
   "theorems": [
    "MatrixLibs.C120_mean",
    "MatrixLibs.C120_var_stddev",
    "MatrixLibs.C120_median",
    "MatrixLibs.C120_histogram",
    "MatrixLibs.C120_cumulative",
    "MatrixLibs.C120_compare",
    "MatrixLibs.C120_print"
   ],
   "note": ""
  },
  {
   "property": "C121",
   "status": "proved",
   "theorems": [
    "MatrixLibs.C121_lu",
    "MatrixLibs.C121_lu_diag",
    "MatrixLibs.C121_lu_product",
    "MatrixLibs.C121_lu_wrong",
    "MatrixLibs.C121_lu_stops",
    "MatrixLibs.C121_chol",
    "MatrixLibs.C121_chol_product",
    "MatrixLibs.C121_chol_wrong",
    "MatrixLibs.C121_chol_stops",
    "MatrixLibs.C121_isSymetric",
    "MatrixLibs.C121_strassen_wrong"
   ],
   "note": ""
  },
  {
   "property": "C122",
   "status": "proved",
   "theorems": [
    "MatrixLibs.C122_returns",
    "MatrixLibs.C122_throws",
    "MatrixLibs.C122_statistics"
   ],
   "note": ""
  },
  {
   "property": "C123",
   "status": "proved",
   "theorems": [
    "MatrixLibs.C123_gram",
    "MatrixLibs.C123_gram_left",
    "MatrixLibs.C123_sum",
    "MatrixLibs.C123_square",
    "MatrixLibs.C123_pow",
    "MatrixLibs.C123_gram_narrow",
    "MatrixLibs.C123_sum_narrow",
    "MatrixLibs.C123_isSymetric_unsigned",
    "MatrixLibs.C123_isSymetric_signed",
    "MatrixLibs.C123_isSymetric_float",
    "MatrixLibs.C123_diagonal",
    "MatrixLibs.C123_cube"
   ],
   "note": ""
  },
  {
   "property": "C124",
   "status": "partial",
   "theorems": [
    "MatrixLibs.C124_mean_mono",
    "MatrixLibs.C124_mean_between",
    "MatrixLibs.C124_mean_const",
    "MatrixLibs.C124_var_const",
    "MatrixLibs.C124_false",
    "MatrixLibs.C124_mean_range_partial",
    "MatrixLibs.C124_mean_range_int_partial",
    "MatrixLibs.C124_mean_two_partial"
   ],
   "note": "False of the code: C124_false, the float mean of three times 12219326 is 12219325, and their variance 1. C124_mean_mono proves monotonicity, C124_mean_between the range between the means of the constant matrices; C124_mean_range_partial, C124_mean_range_int_partial and C124_mean_two_partial prove the claim where the multiples of the bounds are representable, for small integer bounds and for two elements."
  },
  {
   "property": "C125",
   "status": "proved",
   "theorems": [
    "MatrixLibs.C125_add",
    "MatrixLibs.C125_sub",
    "MatrixLibs.C125_mul_scalar",
    "MatrixLibs.C125_mul_left",
    "MatrixLibs.C125_mul_right",
    "MatrixLibs.C125_mul",
    "MatrixLibs.C125_pow",
    "MatrixLibs.C125_conv2",
    "MatrixLibs.C125_conv2_full",
    "MatrixLibs.C125_conv2_valid"
   ],
   "note": ""
  },
  {
   "property": "C126",
   "status": "proved",
   "theorems": [
    "MatrixLibs.C126_det_error",
    "MatrixLibs.C126_det_sign",
    "MatrixLibs.C126_inv_error",
    "MatrixLibs.C126_inv4_error",
    "MatrixLibs.C126_det_error_closed"
   ],
   "note": ""
  },
  {
   "property": "C127",
   "status": "proved",
   "theorems": [
    "MatrixLibs.C127_neg",
    "MatrixLibs.C127_add_sub",
    "MatrixLibs.C127_mul",
    "MatrixLibs.C127_strassen",
    "MatrixLibs.C127_conv2",
    "MatrixLibs.C127_conv2_full",
    "MatrixLibs.C127_conv2_valid",
    "MatrixLibs.C127_stats",
    "MatrixLibs.C127_det",
    "MatrixLibs.C127_inv",
    "MatrixLibs.C127_lu",
    "MatrixLibs.C127_pow",
    "MatrixLibs.C127_isSymetric",
    "MatrixLibs.C127_abs",
    "MatrixLibs.C127_compare"
   ],
   "note": ""
  },
  {
   "property": "C128",
   "status": "proved",
   "theorems": [
    "MatrixLibs.C128_chol_accepts",
    "MatrixLibs.C128_chol_finite",
    "MatrixLibs.C128_chol_rejects",
    "MatrixLibs.C128_chol_eigenvalue",
    "MatrixLibs.C128_chol_dominant"
   ],
   "note": ""
  },
  {
   "property": "C129",
   "status": "proved",
   "theorems": [
    "MatrixLibs.C129_elimination",
    "MatrixLibs.C129_det",
    "MatrixLibs.C129_inv"
   ],
   "note": ""
  },
  {
   "property": "C130",
   "status": "proved",
   "theorems": [
    "MatrixLibs.C130_lu",
    "MatrixLibs.C130_lu_sign"
   ],
   "note": ""
  },
  {
   "property": "C131",
   "status": "proved",
   "theorems": [
    "MatrixLibs.C131_det_row",
    "MatrixLibs.C131_det_col",
    "MatrixLibs.C131_inv_minors",
    "MatrixLibs.C131_solve",
    "MatrixLibs.C131_solve_left",
    "MatrixLibs.C131_lu_inv",
    "MatrixLibs.C131_chol_det",
    "MatrixLibs.C131_chol_lu",
    "MatrixLibs.C131_lu_symmetric",
    "MatrixLibs.C131_chol_iff_lu",
    "MatrixLibs.C131_chol_iff_minors",
    "MatrixLibs.C131_posDef"
   ],
   "note": ""
  },
  {
   "property": "C132",
   "status": "proved",
   "theorems": [
    "MatrixLibs.C132_lu",
    "MatrixLibs.C132_inv",
    "MatrixLibs.C132_det_rows",
    "MatrixLibs.C132_det_cols",
    "MatrixLibs.C132_solve",
    "MatrixLibs.C132_inv_rows",
    "MatrixLibs.C132_chol"
   ],
   "note": ""
  },
  {
   "property": "C133",
   "status": "proved",
   "theorems": [
    "MatrixLibs.C133_concatenate",
    "MatrixLibs.C133_concatenate_square",
    "MatrixLibs.C133_histogram",
    "MatrixLibs.C133_mean",
    "MatrixLibs.C133_var",
    "MatrixLibs.C133_median"
   ],
   "note": ""
  },
  {
   "property": "C134",
   "status": "proved",
   "theorems": [
    "MatrixLibs.C134_rearranged",
    "MatrixLibs.C134_mean_add",
    "MatrixLibs.C134_histogram",
    "MatrixLibs.C134_cumulative",
    "MatrixLibs.C134_chebyshev",
    "MatrixLibs.C134_mean_median",
    "MatrixLibs.C134_var_range",
    "MatrixLibs.C134_median_add",
    "MatrixLibs.C134_median_mul"
   ],
   "note": ""
  },
  {
   "property": "C135",
   "status": "proved",
   "theorems": [
    "MatrixLibs.C135_local",
    "MatrixLibs.C135_central",
    "MatrixLibs.C135_trans",
    "MatrixLibs.C135_trans_full",
    "MatrixLibs.C135_full_comm",
    "MatrixLibs.C135_full_sum",
    "MatrixLibs.C135_adjoint",
    "MatrixLibs.C135_separable"
   ],
   "note": ""
  },
  {
   "property": "C136",
   "status": "proved",
   "theorems": [
    "MatrixLibs.C136_complex_functions",
    "MatrixLibs.C136_real_functions"
   ],
   "note": ""
  },
  {
   "property": "C137",
   "status": "proved",
   "theorems": [
    "MatrixLibs.C137_chol_returns",
    "MatrixLibs.C137_chol",
    "MatrixLibs.C137_chol_symmetric",
    "MatrixLibs.C137_chol_unique",
    "MatrixLibs.C137_chol_real",
    "MatrixLibs.C137_not_hermitian",
    "MatrixLibs.C137_isSymetric"
   ],
   "note": ""
  },
  {
   "property": "C138",
   "status": "proved",
   "theorems": [
    "MatrixLibs.C138_complex_mul_error",
    "MatrixLibs.C138_complex_sum",
    "MatrixLibs.C138_complex_scalar",
    "MatrixLibs.C138_complex_int"
   ],
   "note": ""
  },
  {
   "property": "C139",
   "status": "proved",
   "theorems": [
    "MatrixLibs.C139_init",
    "MatrixLibs.C139_init_rows",
    "MatrixLibs.C139_init_rows_one_pair",
    "MatrixLibs.C139_braces",
    "MatrixLibs.C139_less",
    "MatrixLibs.C139_trichotomy",
    "MatrixLibs.C139_less_trans"
   ],
   "note": ""
  },
  {
   "property": "C140",
   "status": "proved",
   "theorems": [
    "MatrixLibs.C140_equal",
    "MatrixLibs.C140_equal_self",
    "MatrixLibs.C140_arith",
    "MatrixLibs.C140_mul",
    "MatrixLibs.C140_strassen",
    "MatrixLibs.C140_conv2",
    "MatrixLibs.C140_stats",
    "MatrixLibs.C140_det",
    "MatrixLibs.C140_inv",
    "MatrixLibs.C140_lu",
    "MatrixLibs.C140_pow",
    "MatrixLibs.C140_tests",
    "MatrixLibs.C140_chol",
    "MatrixLibs.C140_exceptions"
   ],
   "note": ""
  },
  {
   "property": "C141",
   "status": "proved",
   "theorems": [
    "MatrixLibs.C141_complex_arith",
    "MatrixLibs.C141_complex_det",
    "MatrixLibs.C141_complex_conv2",
    "MatrixLibs.C141_complex_trans",
    "MatrixLibs.C141_complex_abs",
    "MatrixLibs.C141_complex_compare",
    "MatrixLibs.C141_conj",
    "MatrixLibs.C141_conj_conv2_det",
    "MatrixLibs.C141_real",
    "MatrixLibs.C141_real_conv2_det"
   ],
   "note": ""
  },
  {
   "property": "C142",
   "status": "proved",
   "theorems": [
    "MatrixLibs.C142_via",
    "MatrixLibs.C142_sqrt",
    "MatrixLibs.C142_each_operation",
    "MatrixLibs.C142_conv",
    "MatrixLibs.C142_roundtrip",
    "MatrixLibs.C142_add_sub",
    "MatrixLibs.C142_mul_div_scalar",
    "MatrixLibs.C142_compare",
    "MatrixLibs.C142_product_differs"
   ],
   "note": ""
  },
  {
   "property": "C143",
   "status": "proved",
   "theorems": [
    "MatrixLibs.C143_fma",
    "MatrixLibs.C143_none",
    "MatrixLibs.C143_elementwise",
    "MatrixLibs.C143_mean",
    "MatrixLibs.C143_det_general",
    "MatrixLibs.C143_inv_general",
    "MatrixLibs.C143_inv2_singular_refuted",
    "MatrixLibs.C143_mul_error",
    "MatrixLibs.C143_mul_int",
    "MatrixLibs.C143_det2",
    "MatrixLibs.C143_det3",
    "MatrixLibs.C143_conv2_error",
    "MatrixLibs.C143_conv2_full_error",
    "MatrixLibs.C143_conv2_valid_error",
    "MatrixLibs.C143_var",
    "MatrixLibs.C143_lu_backward",
    "MatrixLibs.C143_chol_backward"
   ],
   "note": ""
  },
  {
   "property": "C144",
   "status": "proved",
   "theorems": [
    "MatrixLibs.C144_median",
    "MatrixLibs.C144_median_empty",
    "MatrixLibs.C144_histogram",
    "MatrixLibs.C144_histogram_refused",
    "MatrixLibs.C144_destroy",
    "MatrixLibs.C144_cumulative",
    "MatrixLibs.C144_cumulative_refused"
   ],
   "note": ""
  },
  {
   "property": "C145",
   "status": "proved",
   "theorems": [
    "MatrixLibs.C145_calls",
    "MatrixLibs.C145_silent",
    "MatrixLibs.C145_stream",
    "MatrixLibs.C145_written",
    "MatrixLibs.C145_plain",
    "MatrixLibs.C145_width"
   ],
   "note": ""
  },
  {
   "property": "C146",
   "status": "proved",
   "theorems": [
    "MatrixLibs.C146_sum",
    "MatrixLibs.C146_mult",
    "MatrixLibs.C146_abs",
    "MatrixLibs.C146_det",
    "MatrixLibs.C146_chol",
    "MatrixLibs.C146_conv2",
    "MatrixLibs.C146_statistics",
    "MatrixLibs.C146_median",
    "MatrixLibs.C146_returns",
    "MatrixLibs.C146_div",
    "MatrixLibs.C146_lu",
    "MatrixLibs.C146_inv_small",
    "MatrixLibs.C146_inv",
    "MatrixLibs.C146_pow"
   ],
   "note": ""
  },
  {
   "property": "C147",
   "status": "proved",
   "theorems": [
    "MatrixLibs.C147_same_elementwise",
    "MatrixLibs.C147_same",
    "MatrixLibs.C147_elementwise",
    "MatrixLibs.C147_product",
    "MatrixLibs.C147_statistics",
    "MatrixLibs.C147_det",
    "MatrixLibs.C147_inv",
    "MatrixLibs.C147_inv_order",
    "MatrixLibs.C147_decompositions",
    "MatrixLibs.C147_pow",
    "MatrixLibs.C147_pow_negative",
    "MatrixLibs.C147_conv2"
   ],
   "note": ""
  },
  {
   "property": "C148",
   "status": "proved",
   "theorems": [
    "MatrixLibs.C148_range",
    "MatrixLibs.C148_elementwise",
    "MatrixLibs.C148_mult",
    "MatrixLibs.C148_strassen",
    "MatrixLibs.C148_conv",
    "MatrixLibs.C148_statistics",
    "MatrixLibs.C148_predicates",
    "MatrixLibs.C148_det",
    "MatrixLibs.C148_inv",
    "MatrixLibs.C148_lu",
    "MatrixLibs.C148_chol",
    "MatrixLibs.C148_pow",
    "MatrixLibs.C148_underflow"
   ],
   "note": ""
  },
  {
   "property": "C149",
   "status": "proved",
   "theorems": [
    "MatrixLibs.C149_operations",
    "MatrixLibs.C149_nearest",
    "MatrixLibs.C149_representable",
    "MatrixLibs.C149_sum",
    "MatrixLibs.C149_sub",
    "MatrixLibs.C149_sub_self",
    "MatrixLibs.C149_sumScalar",
    "MatrixLibs.C149_subScalar",
    "MatrixLibs.C149_multScalar",
    "MatrixLibs.C149_div",
    "MatrixLibs.C149_mult",
    "MatrixLibs.C149_conv2",
    "MatrixLibs.C149_conv2_full",
    "MatrixLibs.C149_conv2_valid",
    "MatrixLibs.C149_mean",
    "MatrixLibs.C149_certified",
    "MatrixLibs.C149_not_det",
    "MatrixLibs.C149_not_strassen",
    "MatrixLibs.C149_stddev"
   ],
   "note": ""
  },
  {
   "property": "C150",
   "status": "proved",
   "theorems": [
    "MatrixLibs.C150_mult",
    "MatrixLibs.C150_conv2",
    "MatrixLibs.C150_conv2_full",
    "MatrixLibs.C150_conv2_valid",
    "MatrixLibs.C150_det2",
    "MatrixLibs.C150_det3",
    "MatrixLibs.C150_mean",
    "MatrixLibs.C150_lu",
    "MatrixLibs.C150_chol"
   ],
   "note": ""
  },
  {
   "property": "C151",
   "status": "proved",
   "theorems": [
    "MatrixLibs.C151_no_switch",
    "MatrixLibs.C151_operands",
    "MatrixLibs.C151_normal",
    "MatrixLibs.C151_flushed",
    "MatrixLibs.C151_exactly",
    "MatrixLibs.C151_less",
    "MatrixLibs.C151_before",
    "MatrixLibs.C151_near",
    "MatrixLibs.C151_elementwise",
    "MatrixLibs.C151_mult",
    "MatrixLibs.C151_conv2",
    "MatrixLibs.C151_conv2_full",
    "MatrixLibs.C151_conv2_valid",
    "MatrixLibs.C151_det2",
    "MatrixLibs.C151_det3",
    "MatrixLibs.C151_mean",
    "MatrixLibs.C151_lu",
    "MatrixLibs.C151_chol",
    "MatrixLibs.C151_equal",
    "MatrixLibs.C151_difference",
    "MatrixLibs.C151_difference_flushed",
    "MatrixLibs.C151_overflow",
    "MatrixLibs.C151_mult_flushed"
   ],
   "note": ""
  },
  {
   "property": "C152",
   "status": "proved",
   "theorems": [
    "MatrixLibs.C152_mult",
    "MatrixLibs.C152_pow",
    "MatrixLibs.C152_nilpotent",
    "MatrixLibs.C152_idempotent",
    "MatrixLibs.C152_permutation",
    "MatrixLibs.C152_permutation_pow",
    "MatrixLibs.C152_stochastic",
    "MatrixLibs.C152_det",
    "MatrixLibs.C152_inv",
    "MatrixLibs.C152_inv_lower",
    "MatrixLibs.C152_lu",
    "MatrixLibs.C152_diagonal",
    "MatrixLibs.C152_orthogonal",
    "MatrixLibs.C152_involution",
    "MatrixLibs.C152_symmetric",
    "MatrixLibs.C152_permutation_det"
   ],
   "note": ""
  },
  {
   "property": "C153",
   "status": "proved",
   "theorems": [
    "MatrixLibs.C153_det_signed",
    "MatrixLibs.C153_permutation_signed",
    "MatrixLibs.C153_diagonal_signed",
    "MatrixLibs.C153_lu_signed",
    "MatrixLibs.C153_chol_signed",
    "MatrixLibs.C153_det_unsigned",
    "MatrixLibs.C153_permutation_unsigned",
    "MatrixLibs.C153_lu_unsigned",
    "MatrixLibs.C153_det_float",
    "MatrixLibs.C153_permutation_float",
    "MatrixLibs.C153_diagonal_float",
    "MatrixLibs.C153_upper_float",
    "MatrixLibs.C153_lu_float",
    "MatrixLibs.C153_chol_float"
   ],
   "note": ""
  },
  {
   "property": "C154",
   "status": "proved",
   "theorems": [
    "MatrixLibs.C154_code",
    "MatrixLibs.C154_orders",
    "MatrixLibs.C154_exact",
    "MatrixLibs.C154_unsigned",
    "MatrixLibs.C154_mult",
    "MatrixLibs.C154_mult_depth",
    "MatrixLibs.C154_mult_pairs",
    "MatrixLibs.C154_mult_lanes",
    "MatrixLibs.C154_mult_two",
    "MatrixLibs.C154_conv2",
    "MatrixLibs.C154_conv2_full",
    "MatrixLibs.C154_mean",
    "MatrixLibs.C154_mult_env",
    "MatrixLibs.C154_conv2_env",
    "MatrixLibs.C154_conv2_full_env",
    "MatrixLibs.C154_mean_env",
    "MatrixLibs.C154_integers",
    "MatrixLibs.C154_matters"
   ],
   "note": ""
  },
  {
   "property": "C155",
   "status": "proved",
   "theorems": [
    "MatrixLibs.C155_ordered",
    "MatrixLibs.C155_guards",
    "MatrixLibs.C155_declared",
    "MatrixLibs.C155_callable",
    "MatrixLibs.C155_print",
    "MatrixLibs.C155_matrix_hpp",
    "MatrixLibs.C155_again",
    "MatrixLibs.C155_alone",
    "MatrixLibs.C155_var_first",
    "MatrixLibs.C155_print_first",
    "MatrixLibs.C155_required",
    "MatrixLibs.C155_required_enough"
   ],
   "note": ""
  },
  {
   "property": "C156",
   "status": "proved",
   "theorems": [
    "MatrixLibs.C156_assoc",
    "MatrixLibs.C156_finds",
    "MatrixLibs.C156_elements",
    "MatrixLibs.C156_unseen",
    "MatrixLibs.C156_hidden",
    "MatrixLibs.C156_directive",
    "MatrixLibs.C156_declaration"
   ],
   "note": ""
  },
  {
   "property": "C157",
   "status": "partial",
   "theorems": [
    "MatrixLibs.C157_link",
    "MatrixLibs.C157_same_partial",
    "MatrixLibs.C157_operator_differs"
   ],
   "note": "False of the code: the operators on matrices, conv2_valid, the general inv and print use functions declared static, which are different functions in each file (C157_operator_differs, for operator+). C157_same_partial gives exactly the definitions that meet the rule; C157_link shows that linking never fails."
  },
  {
   "property": "C158",
   "status": "proved",
   "theorems": [
    "MatrixLibs.C158_var",
    "MatrixLibs.C158_stddev",
    "MatrixLibs.C158_det_backward",
    "MatrixLibs.C158_det_forward",
    "MatrixLibs.C158_inv1",
    "MatrixLibs.C158_inv2",
    "MatrixLibs.C158_inv3",
    "MatrixLibs.C158_inv4",
    "MatrixLibs.C158_inv5",
    "MatrixLibs.C158_env"
   ],
   "note": ""
  },
  {
   "property": "C159",
   "status": "proved",
   "theorems": [
    "MatrixLibs.C159_lu",
    "MatrixLibs.C159_chol",
    "MatrixLibs.C159_inverse",
    "MatrixLibs.C159_inverse_left",
    "MatrixLibs.C159_solve",
    "MatrixLibs.C159_inverse2",
    "MatrixLibs.C159_compare",
    "MatrixLibs.C159_compare_sound",
    "MatrixLibs.C159_lu_check",
    "MatrixLibs.C159_chol_check",
    "MatrixLibs.C159_inverse2_check"
   ],
   "note": ""
  },
  {
   "property": "C160",
   "status": "proved",
   "theorems": [
    "MatrixLibs.C160_pow",
    "MatrixLibs.C160_pow_zero",
    "MatrixLibs.C160_pow_negative",
    "MatrixLibs.C160_pow_minus_one",
    "MatrixLibs.C160_strassen",
    "MatrixLibs.C160_env"
   ],
   "note": ""
  },
  {
   "property": "C161",
   "status": "proved",
   "theorems": [
    "MatrixLibs.C161_add_sub",
    "MatrixLibs.C161_scalar",
    "MatrixLibs.C161_mul",
    "MatrixLibs.C161_strassen",
    "MatrixLibs.C161_pow",
    "MatrixLibs.C161_det",
    "MatrixLibs.C161_abs",
    "MatrixLibs.C161_conv2",
    "MatrixLibs.C161_conv2_valid",
    "MatrixLibs.C161_predicates",
    "MatrixLibs.C161_convert",
    "MatrixLibs.C161_same",
    "MatrixLibs.C161_one_more_bit"
   ],
   "note": ""
  },
  {
   "property": "C162",
   "status": "proved",
   "theorems": [
    "MatrixLibs.C162_exact",
    "MatrixLibs.C162_elementwise",
    "MatrixLibs.C162_div",
    "MatrixLibs.C162_mult",
    "MatrixLibs.C162_strassen",
    "MatrixLibs.C162_det",
    "MatrixLibs.C162_inv",
    "MatrixLibs.C162_inv_throws",
    "MatrixLibs.C162_lu",
    "MatrixLibs.C162_lu_throws",
    "MatrixLibs.C162_chol",
    "MatrixLibs.C162_pow",
    "MatrixLibs.C162_pow_negative",
    "MatrixLibs.C162_compare",
    "MatrixLibs.C162_conv2",
    "MatrixLibs.C162_conv2_full",
    "MatrixLibs.C162_conv2_valid",
    "MatrixLibs.C162_mean",
    "MatrixLibs.C162_var"
   ],
   "note": ""
  },
  {
   "property": "C163",
   "status": "proved",
   "theorems": [
    "MatrixLibs.C163_ring",
    "MatrixLibs.C163_div",
    "MatrixLibs.C163_strassen",
    "MatrixLibs.C163_det",
    "MatrixLibs.C163_inv",
    "MatrixLibs.C163_pow",
    "MatrixLibs.C163_lu",
    "MatrixLibs.C163_chol",
    "MatrixLibs.C163_compare",
    "MatrixLibs.C163_conv2",
    "MatrixLibs.C163_stats",
    "MatrixLibs.C163_modes",
    "MatrixLibs.C163_flushing",
    "MatrixLibs.C163_double",
    "MatrixLibs.C163_det_modes",
    "MatrixLibs.C163_inv_modes"
   ],
   "note": ""
  },
  {
   "property": "C164",
   "status": "proved",
   "theorems": [
    "MatrixLibs.C164_largest",
    "MatrixLibs.C164_sum",
    "MatrixLibs.C164_multScalar",
    "MatrixLibs.C164_div",
    "MatrixLibs.C164_compare",
    "MatrixLibs.C164_mult",
    "MatrixLibs.C164_mult_accurate",
    "MatrixLibs.C164_accurate",
    "MatrixLibs.C164_det3_accurate",
    "MatrixLibs.C164_conv2",
    "MatrixLibs.C164_conv2_valid",
    "MatrixLibs.C164_det2",
    "MatrixLibs.C164_det3",
    "MatrixLibs.C164_strassen",
    "MatrixLibs.C164_pow",
    "MatrixLibs.C164_mean",
    "MatrixLibs.C164_var",
    "MatrixLibs.C164_conv2_accurate",
    "MatrixLibs.C164_strassen_accurate",
    "MatrixLibs.C164_pow_accurate",
    "MatrixLibs.C164_var_accurate",
    "MatrixLibs.C164_float",
    "MatrixLibs.C164_overflow"
   ],
   "note": ""
  },
  {
   "property": "C165",
   "status": "proved",
   "theorems": [
    "MatrixLibs.C165_inv1",
    "MatrixLibs.C165_inv2",
    "MatrixLibs.C165_inv3",
    "MatrixLibs.C165_check2",
    "MatrixLibs.C165_solve2",
    "MatrixLibs.C165_solve3",
    "MatrixLibs.C165_pow_negative",
    "MatrixLibs.C165_pow2",
    "MatrixLibs.C165_pow3",
    "MatrixLibs.C165_throws2",
    "MatrixLibs.C165_throws3",
    "MatrixLibs.C165_near_singular"
   ],
   "note": ""
  },
  {
   "property": "C166",
   "status": "proved",
   "theorems": [
    "MatrixLibs.C166_mult",
    "MatrixLibs.C166_sum",
    "MatrixLibs.C166_sumScalar",
    "MatrixLibs.C166_multScalar",
    "MatrixLibs.C166_div",
    "MatrixLibs.C166_conv2",
    "MatrixLibs.C166_conv2_valid",
    "MatrixLibs.C166_mean",
    "MatrixLibs.C166_integer",
    "MatrixLibs.C166_float",
    "MatrixLibs.C166_overflow"
   ],
   "note": ""
  },
  {
   "property": "C167",
   "status": "proved",
   "theorems": [
    "MatrixLibs.C167_lost",
    "MatrixLibs.C167_mult",
    "MatrixLibs.C167_conv2",
    "MatrixLibs.C167_conv2_full",
    "MatrixLibs.C167_conv2_valid",
    "MatrixLibs.C167_strassen",
    "MatrixLibs.C167_det2",
    "MatrixLibs.C167_det3",
    "MatrixLibs.C167_mean",
    "MatrixLibs.C167_pow",
    "MatrixLibs.C167_inv2",
    "MatrixLibs.C167_inv3",
    "MatrixLibs.C167_golden",
    "MatrixLibs.C167_float",
    "MatrixLibs.C167_subnormal"
   ],
   "note": ""
  },
  {
   "property": "C168",
   "status": "proved",
   "theorems": [
    "MatrixLibs.C168_assoc",
    "MatrixLibs.C168_distrib",
    "MatrixLibs.C168_distrib_left",
    "MatrixLibs.C168_scale",
    "MatrixLibs.C168_sum_assoc",
    "MatrixLibs.C168_strassen",
    "MatrixLibs.C168_env_assoc",
    "MatrixLibs.C168_pow_succ",
    "MatrixLibs.C168_float",
    "MatrixLibs.C168_pow_float",
    "MatrixLibs.C168_inexact",
    "MatrixLibs.C168_inexact_products"
   ],
   "note": ""
  }
 ]
}
