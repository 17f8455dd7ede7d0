import Lean.Elab.Command
import Lean.Util.CollectAxioms
import Verif.Props.Agree
import Verif.Props.Alloc
import Verif.Props.Apart
import Verif.Props.Arith
import Verif.Props.Bench
import Verif.Props.BenchRun
import Verif.Props.BoolArith
import Verif.Props.BoolConv
import Verif.Props.BoolDet
import Verif.Props.BoolFactor
import Verif.Props.BoolStats
import Verif.Props.Carry
import Verif.Props.Check
import Verif.Props.Chol
import Verif.Props.Complex
import Verif.Props.ComplexAlgebra
import Verif.Props.Contract
import Verif.Props.Conv
import Verif.Props.ConvLaws
import Verif.Props.Count
import Verif.Props.Det
import Verif.Props.Dominant
import Verif.Props.Env
import Verif.Props.Float
import Verif.Props.FloatCholPD
import Verif.Props.FloatConv
import Verif.Props.FloatDetForward
import Verif.Props.FloatDominant
import Verif.Props.FloatElim
import Verif.Props.FloatEqual
import Verif.Props.FloatFactor
import Verif.Props.FloatInv
import Verif.Props.FloatInvN
import Verif.Props.FloatLuDom
import Verif.Props.FloatMono
import Verif.Props.FloatOrder
import Verif.Props.FloatPow
import Verif.Props.FloatRange
import Verif.Props.FloatSign
import Verif.Props.FloatStrassen
import Verif.Props.FloatTwice
import Verif.Props.FloatVar
import Verif.Props.Form
import Verif.Props.FormMachine
import Verif.Props.Gram
import Verif.Props.Hist
import Verif.Props.Include
import Verif.Props.IntChol
import Verif.Props.IntElem
import Verif.Props.IntEnv
import Verif.Props.IntFloat
import Verif.Props.IntInv
import Verif.Props.IntLu
import Verif.Props.IntStats
import Verif.Props.Inv
import Verif.Props.Lookup
import Verif.Props.Lu
import Verif.Props.Mode
import Verif.Props.Movement
import Verif.Props.NarrowArith
import Verif.Props.NarrowConv
import Verif.Props.NarrowDet
import Verif.Props.NarrowFactor
import Verif.Props.NarrowHist
import Verif.Props.NarrowPow
import Verif.Props.NarrowSafety
import Verif.Props.NarrowStats
import Verif.Props.Nested
import Verif.Props.Operators
import Verif.Props.Pow
import Verif.Props.Preds
import Verif.Props.Print
import Verif.Props.PrintNum
import Verif.Props.Range
import Verif.Props.RangeInv
import Verif.Props.Reorder
import Verif.Props.RoundedLaws
import Verif.Props.Safety
import Verif.Props.Scale
import Verif.Props.Silent
import Verif.Props.Standard
import Verif.Props.StandardPow
import Verif.Props.StandardStats
import Verif.Props.Stats
import Verif.Props.StatsLaws
import Verif.Props.Stops
import Verif.Props.Stream
import Verif.Props.Structure
import Verif.Props.StructureNarrow
import Verif.Props.Type
import Verif.Props.Unsigned
import Verif.Props.Widen
import Verif.Props.Width

/-!
# Axioms of the property theorems

The build fails if a property theorem depends on anything but Lean's three standard axioms.
Generated by `tools/gen_manifest.py`.
-/

open Lean Elab Command in
/-- Check that a theorem depends on the standard axioms only. -/
elab "#standard_axioms " ids:ident* : command => do
  for id in ids do
    let n ← liftCoreM <| realizeGlobalConstNoOverload id
    for a in ← collectAxioms n do
      unless a == ``propext || a == ``Classical.choice || a == ``Quot.sound do
        throwErrorAt id "{n} depends on {a}"

#standard_axioms MatrixLibs.C01_fill
#standard_axioms MatrixLibs.C01_zeros
#standard_axioms MatrixLibs.C01_onesUInt
#standard_axioms MatrixLibs.C01_onesUInt_ignores
#standard_axioms MatrixLibs.C01_ones
#standard_axioms MatrixLibs.C01_ones_rect
#standard_axioms MatrixLibs.C02_eye_mul
#standard_axioms MatrixLibs.C02_eye
#standard_axioms MatrixLibs.C03_trans
#standard_axioms MatrixLibs.C03_trans_trans
#standard_axioms MatrixLibs.C04_trans_mul
#standard_axioms MatrixLibs.C05_swap_rows
#standard_axioms MatrixLibs.C05_swap_rows_twice
#standard_axioms MatrixLibs.C05_swap_rows_comm
#standard_axioms MatrixLibs.C06_swap_cols
#standard_axioms MatrixLibs.C06_swap_cols_twice
#standard_axioms MatrixLibs.C06_swap_cols_trans
#standard_axioms MatrixLibs.C07_swap_rows_same
#standard_axioms MatrixLibs.C07_swap_cols_same
#standard_axioms MatrixLibs.C07_swap_rows_safe_iff
#standard_axioms MatrixLibs.C07_swap_rows_oob
#standard_axioms MatrixLibs.C07_swap_cols_safe_iff
#standard_axioms MatrixLibs.C07_swap_cols_oob
#standard_axioms MatrixLibs.C08_concatenateV
#standard_axioms MatrixLibs.C08_concatenateH
#standard_axioms MatrixLibs.C09_concatenate_rows
#standard_axioms MatrixLibs.C09_concatenate_cols
#standard_axioms MatrixLibs.C10_false
#standard_axioms MatrixLibs.C10_concatenate_square_partial
#standard_axioms MatrixLibs.C11_concatenate_overload
#standard_axioms MatrixLibs.C12_getminor
#standard_axioms MatrixLibs.C13_getminor_safe_iff
#standard_axioms MatrixLibs.C13_getminor_oob
#standard_axioms MatrixLibs.C13_getminor_one
#standard_axioms MatrixLibs.C14_add
#standard_axioms MatrixLibs.C14_sum
#standard_axioms MatrixLibs.C14_add_scalar
#standard_axioms MatrixLibs.C14_scalar_add
#standard_axioms MatrixLibs.C14_sub
#standard_axioms MatrixLibs.C14_sub_scalar
#standard_axioms MatrixLibs.C14_add_stops
#standard_axioms MatrixLibs.C14_sub_stops
#standard_axioms MatrixLibs.C15_add_defined_iff
#standard_axioms MatrixLibs.C15_add_value
#standard_axioms MatrixLibs.C15_add_fault
#standard_axioms MatrixLibs.C15_sub_defined_iff
#standard_axioms MatrixLibs.C15_sub_value
#standard_axioms MatrixLibs.C15_sub_fault
#standard_axioms MatrixLibs.C16_add_comm
#standard_axioms MatrixLibs.C16_add_assoc
#standard_axioms MatrixLibs.C16_add_zeros
#standard_axioms MatrixLibs.C16_add_sub_cancel
#standard_axioms MatrixLibs.C16_sub_self
#standard_axioms MatrixLibs.C16_scalar_add_comm
#standard_axioms MatrixLibs.C17_postInc_spec
#standard_axioms MatrixLibs.C17_postDec_spec
#standard_axioms MatrixLibs.C17_postInc_postDec
#standard_axioms MatrixLibs.C18_mul
#standard_axioms MatrixLibs.C18_mul_unsigned
#standard_axioms MatrixLibs.C18_mul_scalar
#standard_axioms MatrixLibs.C19_mul_assoc
#standard_axioms MatrixLibs.C19_mul_add
#standard_axioms MatrixLibs.C19_add_mul
#standard_axioms MatrixLibs.C19_scalar_mul_comm
#standard_axioms MatrixLibs.C19_scalar_mul_assoc
#standard_axioms MatrixLibs.C20_mul_value
#standard_axioms MatrixLibs.C20_mul_defined_iff
#standard_axioms MatrixLibs.C20_mul_fault
#standard_axioms MatrixLibs.C21_strassen
#standard_axioms MatrixLibs.C21_strassen_signed
#standard_axioms MatrixLibs.C21_strassen_signed_fault
#standard_axioms MatrixLibs.C21_strassen_overflows
#standard_axioms MatrixLibs.C21_strassen_defined_iff
#standard_axioms MatrixLibs.C22_div
#standard_axioms MatrixLibs.C22_div_zero_terminates
#standard_axioms MatrixLibs.C22_div_zero_rethrows
#standard_axioms MatrixLibs.C22_div_field
#standard_axioms MatrixLibs.C22_div_zero_field
#standard_axioms MatrixLibs.C23_mul_div
#standard_axioms MatrixLibs.C23_div_mul
#standard_axioms MatrixLibs.C24_abs
#standard_axioms MatrixLibs.C24_abs_ordered
#standard_axioms MatrixLibs.C24_abs_idem
#standard_axioms MatrixLibs.C24_abs_triangle
#standard_axioms MatrixLibs.C24_abs_signed
#standard_axioms MatrixLibs.C24_abs_signed_fault
#standard_axioms MatrixLibs.C25_det_small
#standard_axioms MatrixLibs.C25_det_small_unsigned
#standard_axioms MatrixLibs.C25_det_small_signed
#standard_axioms MatrixLibs.C25_det_small_signed_fault
#standard_axioms MatrixLibs.C26_det
#standard_axioms MatrixLibs.C26_det_zero_iff
#standard_axioms MatrixLibs.C27_det_returns
#standard_axioms MatrixLibs.C27_det_stops
#standard_axioms MatrixLibs.C28_false
#standard_axioms MatrixLibs.C28_unsigned_false
#standard_axioms MatrixLibs.C28_det_exact_partial
#standard_axioms MatrixLibs.C28_det_fault_partial
#standard_axioms MatrixLibs.C28_det_unsigned_returns_partial
#standard_axioms MatrixLibs.C29_det_mul
#standard_axioms MatrixLibs.C29_det_trans
#standard_axioms MatrixLibs.C29_det_eye
#standard_axioms MatrixLibs.C29_det_swap_rows
#standard_axioms MatrixLibs.C29_det_swap_cols
#standard_axioms MatrixLibs.C30_inv
#standard_axioms MatrixLibs.C30_inv_sound
#standard_axioms MatrixLibs.C31_false
#standard_axioms MatrixLibs.C31_false_large
#standard_axioms MatrixLibs.C31_inv_singular_partial
#standard_axioms MatrixLibs.C32_inv_inv
#standard_axioms MatrixLibs.C32_inv_mul
#standard_axioms MatrixLibs.C32_inv_trans
#standard_axioms MatrixLibs.C32_inv_eye
#standard_axioms MatrixLibs.C32_det_inv
#standard_axioms MatrixLibs.C33_lu
#standard_axioms MatrixLibs.C33_lu_product
#standard_axioms MatrixLibs.C33_lu_det
#standard_axioms MatrixLibs.C34_lu_returns_iff
#standard_axioms MatrixLibs.C34_lu_throws_iff
#standard_axioms MatrixLibs.C34_lu_outcomes
#standard_axioms MatrixLibs.C35_lu_unique
#standard_axioms MatrixLibs.C36_isSymetric_pairs
#standard_axioms MatrixLibs.C36_isSymetric
#standard_axioms MatrixLibs.C36_isSymetric_trans
#standard_axioms MatrixLibs.C37_chol
#standard_axioms MatrixLibs.C37_chol_symmetric
#standard_axioms MatrixLibs.C37_chol_stops
#standard_axioms MatrixLibs.C38_chol_posDef_iff
#standard_axioms MatrixLibs.C38_chol_unique
#standard_axioms MatrixLibs.C39_chol_lower
#standard_axioms MatrixLibs.C40_array_eq
#standard_axioms MatrixLibs.C40_isIdentity
#standard_axioms MatrixLibs.C41_compare
#standard_axioms MatrixLibs.C41_compare_symm
#standard_axioms MatrixLibs.C41_compare_refl
#standard_axioms MatrixLibs.C41_compare_zero
#standard_axioms MatrixLibs.C41_compare_mono
#standard_axioms MatrixLibs.C41_compare_triangle
#standard_axioms MatrixLibs.C42_compare_partial
#standard_axioms MatrixLibs.C42_false
#standard_axioms MatrixLibs.C42_false_tolerance
#standard_axioms MatrixLibs.C42_compare_finite_partial
#standard_axioms MatrixLibs.C43_pow
#standard_axioms MatrixLibs.C43_pow_negative
#standard_axioms MatrixLibs.C43_pow_signed
#standard_axioms MatrixLibs.C44_pow_returns
#standard_axioms MatrixLibs.C44_pow_add
#standard_axioms MatrixLibs.C44_pow_mul
#standard_axioms MatrixLibs.C44_pow_neg
#standard_axioms MatrixLibs.C44_pow_minus_one
#standard_axioms MatrixLibs.C44_pow_det
#standard_axioms MatrixLibs.C44_pow_add_nonneg
#standard_axioms MatrixLibs.C45_pow_depth
#standard_axioms MatrixLibs.C45_pow_terminates
#standard_axioms MatrixLibs.C45_pow_inv_fails
#standard_axioms MatrixLibs.C45_pow_min
#standard_axioms MatrixLibs.C45_pow_of_inv
#standard_axioms MatrixLibs.C46_conv2
#standard_axioms MatrixLibs.C46_conv2_interior
#standard_axioms MatrixLibs.C46_conv2_signed
#standard_axioms MatrixLibs.C47_conv2_octave_turned_partial
#standard_axioms MatrixLibs.C47_conv2_octave_iff_partial
#standard_axioms MatrixLibs.C47_false
#standard_axioms MatrixLibs.C48_conv2_full
#standard_axioms MatrixLibs.C48_conv2_central
#standard_axioms MatrixLibs.C49_conv2_valid
#standard_axioms MatrixLibs.C49_conv2_valid_any
#standard_axioms MatrixLibs.C49_conv2_valid_window
#standard_axioms MatrixLibs.C50_conv2_add
#standard_axioms MatrixLibs.C50_conv2_add_kernel
#standard_axioms MatrixLibs.C50_conv2_unit
#standard_axioms MatrixLibs.C50_conv2_smul
#standard_axioms MatrixLibs.C51_conv2_partial
#standard_axioms MatrixLibs.C51_conv2_out_of_bounds
#standard_axioms MatrixLibs.C51_false
#standard_axioms MatrixLibs.C52_histogram
#standard_axioms MatrixLibs.C52_histogram_total
#standard_axioms MatrixLibs.C52_histogram_count
#standard_axioms MatrixLibs.C53_cumulative
#standard_axioms MatrixLibs.C53_cumulative_monotone
#standard_axioms MatrixLibs.C53_cumulative_last
#standard_axioms MatrixLibs.C54_rearranged
#standard_axioms MatrixLibs.C54_trans
#standard_axioms MatrixLibs.C55_mean
#standard_axioms MatrixLibs.C55_mean_bounds
#standard_axioms MatrixLibs.C55_mean_between
#standard_axioms MatrixLibs.C55_mean_add
#standard_axioms MatrixLibs.C55_mean_mul
#standard_axioms MatrixLibs.C55_mean_empty
#standard_axioms MatrixLibs.C56_mean_signed
#standard_axioms MatrixLibs.C56_mean_overflow_iff
#standard_axioms MatrixLibs.C56_mean_nonneg_partial
#standard_axioms MatrixLibs.C56_mean_negative_pow2_partial
#standard_axioms MatrixLibs.C56_false
#standard_axioms MatrixLibs.C57_median_odd
#standard_axioms MatrixLibs.C57_median_even
#standard_axioms MatrixLibs.C57_median_rearranged
#standard_axioms MatrixLibs.C57_median_empty
#standard_axioms MatrixLibs.C57_median_half_odd
#standard_axioms MatrixLibs.C57_median_even_exact
#standard_axioms MatrixLibs.C57_median_half
#standard_axioms MatrixLibs.C57_median_even_signed
#standard_axioms MatrixLibs.C58_var
#standard_axioms MatrixLibs.C58_var_squares
#standard_axioms MatrixLibs.C58_var_nonneg
#standard_axioms MatrixLibs.C58_var_zero_iff
#standard_axioms MatrixLibs.C58_var_add
#standard_axioms MatrixLibs.C58_var_mul
#standard_axioms MatrixLibs.C58_var_empty
#standard_axioms MatrixLibs.C58_stddev
#standard_axioms MatrixLibs.C58_stddev_exact
#standard_axioms MatrixLibs.C59_print
#standard_axioms MatrixLibs.C59_print_injective
#standard_axioms MatrixLibs.C59_print_shape
#standard_axioms MatrixLibs.C60_row_major_partial
#standard_axioms MatrixLibs.C60_row_major_sum
#standard_axioms MatrixLibs.C60_col_major_square_partial
#standard_axioms MatrixLibs.C60_col_major_out_of_bounds
#standard_axioms MatrixLibs.C60_rand_major_partial
#standard_axioms MatrixLibs.C60_rand_major_out_of_bounds
#standard_axioms MatrixLibs.C60_row_major_uninitialised
#standard_axioms MatrixLibs.C60_col_major_uninitialised
#standard_axioms MatrixLibs.C60_rand_major_uninitialised
#standard_axioms MatrixLibs.C60_false
#standard_axioms MatrixLibs.C61_setRand
#standard_axioms MatrixLibs.C61_setRand_initialised
#standard_axioms MatrixLibs.C61_setRand_fresh
#standard_axioms MatrixLibs.C62_det_dispatch
#standard_axioms MatrixLibs.C62_inv_dispatch
#standard_axioms MatrixLibs.C62_square_overload
#standard_axioms MatrixLibs.C63_contents
#standard_axioms MatrixLibs.C63_trans
#standard_axioms MatrixLibs.C63_swap
#standard_axioms MatrixLibs.C63_concatenate
#standard_axioms MatrixLibs.C63_getminor
#standard_axioms MatrixLibs.C63_sum
#standard_axioms MatrixLibs.C63_sub
#standard_axioms MatrixLibs.C63_mult
#standard_axioms MatrixLibs.C63_div_abs
#standard_axioms MatrixLibs.C63_det_inv
#standard_axioms MatrixLibs.C63_decompositions
#standard_axioms MatrixLibs.C63_pow
#standard_axioms MatrixLibs.C63_conv2
#standard_axioms MatrixLibs.C63_histogram
#standard_axioms MatrixLibs.C63_statistics
#standard_axioms MatrixLibs.C63_median
#standard_axioms MatrixLibs.C63_utils
#standard_axioms MatrixLibs.C63_print
#standard_axioms MatrixLibs.C64_inv_iff
#standard_axioms MatrixLibs.C64_arith
#standard_axioms MatrixLibs.C64_div
#standard_axioms MatrixLibs.C64_det
#standard_axioms MatrixLibs.C64_inv
#standard_axioms MatrixLibs.C64_lu
#standard_axioms MatrixLibs.C64_chol
#standard_axioms MatrixLibs.C64_pow
#standard_axioms MatrixLibs.C64_conv
#standard_axioms MatrixLibs.C64_stats
#standard_axioms MatrixLibs.C64_misc
#standard_axioms MatrixLibs.C65_add
#standard_axioms MatrixLibs.C65_sub
#standard_axioms MatrixLibs.C65_add_scalar
#standard_axioms MatrixLibs.C65_sub_scalar
#standard_axioms MatrixLibs.C65_mul_scalar
#standard_axioms MatrixLibs.C65_div_scalar
#standard_axioms MatrixLibs.C65_abs
#standard_axioms MatrixLibs.C65_add_comm
#standard_axioms MatrixLibs.C65_sub_self
#standard_axioms MatrixLibs.C65_sub_zero_iff
#standard_axioms MatrixLibs.C65_trans_mul
#standard_axioms MatrixLibs.C66_mul_error
#standard_axioms MatrixLibs.C66_mul_finite
#standard_axioms MatrixLibs.C67_mean_error
#standard_axioms MatrixLibs.C67_mean_finite
#standard_axioms MatrixLibs.C68_arith
#standard_axioms MatrixLibs.C68_mul
#standard_axioms MatrixLibs.C68_mul_nan
#standard_axioms MatrixLibs.C68_mean
#standard_axioms MatrixLibs.C68_var
#standard_axioms MatrixLibs.C68_mean_nan
#standard_axioms MatrixLibs.C68_arith_nan
#standard_axioms MatrixLibs.C68_var_nan
#standard_axioms MatrixLibs.C68_det_nan
#standard_axioms MatrixLibs.C68_det2
#standard_axioms MatrixLibs.C68_det3
#standard_axioms MatrixLibs.C69_mul_int
#standard_axioms MatrixLibs.C70_compare_int
#standard_axioms MatrixLibs.C70_compare_int_partial
#standard_axioms MatrixLibs.C70_false
#standard_axioms MatrixLibs.C70_compare_int_fault
#standard_axioms MatrixLibs.C71_var
#standard_axioms MatrixLibs.C72_mul_eye
#standard_axioms MatrixLibs.C73_det2
#standard_axioms MatrixLibs.C73_det3
#standard_axioms MatrixLibs.C74_lu_backward
#standard_axioms MatrixLibs.C74_lu_stops
#standard_axioms MatrixLibs.C75_chol_backward
#standard_axioms MatrixLibs.C75_chol_negative
#standard_axioms MatrixLibs.C76_false
#standard_axioms MatrixLibs.C76_det_triangular_partial
#standard_axioms MatrixLibs.C77_conv2_error
#standard_axioms MatrixLibs.C77_conv2_full_error
#standard_axioms MatrixLibs.C77_conv2_valid_error
#standard_axioms MatrixLibs.C78_signed_scalar
#standard_axioms MatrixLibs.C78_signed
#standard_axioms MatrixLibs.C78_signed_div
#standard_axioms MatrixLibs.C78_signed_div_overflow
#standard_axioms MatrixLibs.C78_signed_div_zero
#standard_axioms MatrixLibs.C78_unsigned
#standard_axioms MatrixLibs.C78_unsigned_div
#standard_axioms MatrixLibs.C78_unsigned_abs
#standard_axioms MatrixLibs.C79_det
#standard_axioms MatrixLibs.C79_inv
#standard_axioms MatrixLibs.C79_multiply
#standard_axioms MatrixLibs.C79_multiply_overflows
#standard_axioms MatrixLibs.C79_strassen
#standard_axioms MatrixLibs.C80_histogram
#standard_axioms MatrixLibs.C80_cumulative
#standard_axioms MatrixLibs.C80_median_odd
#standard_axioms MatrixLibs.C80_median_even
#standard_axioms MatrixLibs.C80_median_even_finite
#standard_axioms MatrixLibs.C80_median_half
#standard_axioms MatrixLibs.C80_median_overflows
#standard_axioms MatrixLibs.C80_nan
#standard_axioms MatrixLibs.C80_histogram_returns_iff
#standard_axioms MatrixLibs.C81_mean_unsigned
#standard_axioms MatrixLibs.C81_var_unsigned
#standard_axioms MatrixLibs.C81_var_unsigned_exact
#standard_axioms MatrixLibs.C81_stddev_unsigned
#standard_axioms MatrixLibs.C81_sqrt_inexact
#standard_axioms MatrixLibs.C81_median_even_unsigned
#standard_axioms MatrixLibs.C81_var_signed
#standard_axioms MatrixLibs.C81_stddev_signed
#standard_axioms MatrixLibs.C82_inv
#standard_axioms MatrixLibs.C82_stops
#standard_axioms MatrixLibs.C82_exact_iff
#standard_axioms MatrixLibs.C82_inv_large
#standard_axioms MatrixLibs.C82_inv_four
#standard_axioms MatrixLibs.C82_four_rows_false
#standard_axioms MatrixLibs.C83_lu
#standard_axioms MatrixLibs.C83_error
#standard_axioms MatrixLibs.C83_exact
#standard_axioms MatrixLibs.C83_exact_iff
#standard_axioms MatrixLibs.C83_stops
#standard_axioms MatrixLibs.C83_differs_from_field
#standard_axioms MatrixLibs.C84_chol
#standard_axioms MatrixLibs.C84_error
#standard_axioms MatrixLibs.C84_exact
#standard_axioms MatrixLibs.C84_exact_iff
#standard_axioms MatrixLibs.C84_stops
#standard_axioms MatrixLibs.C84_int
#standard_axioms MatrixLibs.C84_posdef_undefined
#standard_axioms MatrixLibs.C85_var_error
#standard_axioms MatrixLibs.C85_stddev_error
#standard_axioms MatrixLibs.C86_inv1
#standard_axioms MatrixLibs.C86_inv2
#standard_axioms MatrixLibs.C86_inv2_singular
#standard_axioms MatrixLibs.C86_inv3
#standard_axioms MatrixLibs.C87_strassen_error
#standard_axioms MatrixLibs.C87_not_componentwise
#standard_axioms MatrixLibs.C88_add_sub
#standard_axioms MatrixLibs.C88_add_sub_scalar
#standard_axioms MatrixLibs.C88_inc_dec
#standard_axioms MatrixLibs.C88_mul_scalar
#standard_axioms MatrixLibs.C88_mul_scalar_returns
#standard_axioms MatrixLibs.C88_uint16_overflow
#standard_axioms MatrixLibs.C89_mul
#standard_axioms MatrixLibs.C89_mul_value
#standard_axioms MatrixLibs.C89_mul_returns_iff
#standard_axioms MatrixLibs.C89_strassen
#standard_axioms MatrixLibs.C89_strassen_value
#standard_axioms MatrixLibs.C89_strassen_int16
#standard_axioms MatrixLibs.C90_div
#standard_axioms MatrixLibs.C90_div_zero
#standard_axioms MatrixLibs.C90_abs
#standard_axioms MatrixLibs.C91_det1
#standard_axioms MatrixLibs.C91_det2_value
#standard_axioms MatrixLibs.C91_det2
#standard_axioms MatrixLibs.C91_det3_value
#standard_axioms MatrixLibs.C91_det3
#standard_axioms MatrixLibs.C91_det3_int16
#standard_axioms MatrixLibs.C91_det2_uint16
#standard_axioms MatrixLibs.C91_det4_false
#standard_axioms MatrixLibs.C92_conv2
#standard_axioms MatrixLibs.C92_conv2_full
#standard_axioms MatrixLibs.C92_conv2_valid
#standard_axioms MatrixLibs.C92_value
#standard_axioms MatrixLibs.C92_exact
#standard_axioms MatrixLibs.C93_mean
#standard_axioms MatrixLibs.C93_mean_exact
#standard_axioms MatrixLibs.C93_mean_wraps
#standard_axioms MatrixLibs.C93_mean_negative
#standard_axioms MatrixLibs.C93_mean_empty
#standard_axioms MatrixLibs.C93_var
#standard_axioms MatrixLibs.C93_var_value
#standard_axioms MatrixLibs.C93_var_overflow
#standard_axioms MatrixLibs.C93_stddev
#standard_axioms MatrixLibs.C93_stddev_undefined
#standard_axioms MatrixLibs.C94_median_even
#standard_axioms MatrixLibs.C94_median_odd
#standard_axioms MatrixLibs.C95_compare
#standard_axioms MatrixLibs.C95_compare_zero
#standard_axioms MatrixLibs.C96_det8
#standard_axioms MatrixLibs.C96_det16
#standard_axioms MatrixLibs.C96_det_stops
#standard_axioms MatrixLibs.C96_det_unsigned_false
#standard_axioms MatrixLibs.C96_det_triangular
#standard_axioms MatrixLibs.C96_inv
#standard_axioms MatrixLibs.C96_inv_defined
#standard_axioms MatrixLibs.C97_lu
#standard_axioms MatrixLibs.C97_lu_defined
#standard_axioms MatrixLibs.C97_lu_stops
#standard_axioms MatrixLibs.C97_lu_product
#standard_axioms MatrixLibs.C97_lu_diag
#standard_axioms MatrixLibs.C97_lu_exact
#standard_axioms MatrixLibs.C97_lu_not_unit
#standard_axioms MatrixLibs.C98_chol
#standard_axioms MatrixLibs.C98_chol_stops
#standard_axioms MatrixLibs.C98_chol_exact
#standard_axioms MatrixLibs.C98_chol_wraps
#standard_axioms MatrixLibs.C99_pow
#standard_axioms MatrixLibs.C99_pow_value
#standard_axioms MatrixLibs.C99_pow_negative
#standard_axioms MatrixLibs.C100_pow_narrow_exponent_partial
#standard_axioms MatrixLibs.C100_pow_nonneg
#standard_axioms MatrixLibs.C100_pow_min
#standard_axioms MatrixLibs.C100_pow_narrow_exponent_false
#standard_axioms MatrixLibs.C101_det_backward
#standard_axioms MatrixLibs.C102_add
#standard_axioms MatrixLibs.C102_sub
#standard_axioms MatrixLibs.C102_mul
#standard_axioms MatrixLibs.C102_mult
#standard_axioms MatrixLibs.C102_div
#standard_axioms MatrixLibs.C102_no_conversion
#standard_axioms MatrixLibs.C103_add
#standard_axioms MatrixLibs.C103_sub
#standard_axioms MatrixLibs.C103_scalar
#standard_axioms MatrixLibs.C103_mul
#standard_axioms MatrixLibs.C103_strassen
#standard_axioms MatrixLibs.C103_pow
#standard_axioms MatrixLibs.C103_det
#standard_axioms MatrixLibs.C103_abs
#standard_axioms MatrixLibs.C103_conv2
#standard_axioms MatrixLibs.C103_conv2_valid
#standard_axioms MatrixLibs.C103_predicates
#standard_axioms MatrixLibs.C103_convert
#standard_axioms MatrixLibs.C103_float_int_differs
#standard_axioms MatrixLibs.C104_add_sub
#standard_axioms MatrixLibs.C104_scalar
#standard_axioms MatrixLibs.C104_mul
#standard_axioms MatrixLibs.C104_strassen
#standard_axioms MatrixLibs.C104_pow
#standard_axioms MatrixLibs.C104_inc_dec
#standard_axioms MatrixLibs.C104_abs
#standard_axioms MatrixLibs.C104_det
#standard_axioms MatrixLibs.C104_inv
#standard_axioms MatrixLibs.C104_lu
#standard_axioms MatrixLibs.C104_chol
#standard_axioms MatrixLibs.C104_conv2
#standard_axioms MatrixLibs.C104_conv2_valid
#standard_axioms MatrixLibs.C104_predicates
#standard_axioms MatrixLibs.C104_mean_nonneg
#standard_axioms MatrixLibs.C104_mean_differs
#standard_axioms MatrixLibs.C105_signed_add_sub
#standard_axioms MatrixLibs.C105_signed_scalar
#standard_axioms MatrixLibs.C105_signed_mul
#standard_axioms MatrixLibs.C105_signed_strassen
#standard_axioms MatrixLibs.C105_signed_pow
#standard_axioms MatrixLibs.C105_signed_det
#standard_axioms MatrixLibs.C105_signed_conv2
#standard_axioms MatrixLibs.C105_truncate_add_sub
#standard_axioms MatrixLibs.C105_truncate_mul
#standard_axioms MatrixLibs.C105_truncate_strassen
#standard_axioms MatrixLibs.C105_truncate_pow
#standard_axioms MatrixLibs.C105_truncate_det
#standard_axioms MatrixLibs.C105_truncate_conv2
#standard_axioms MatrixLibs.C105_truncate_conv2_valid
#standard_axioms MatrixLibs.C105_division_differs
#standard_axioms MatrixLibs.C106_trans
#standard_axioms MatrixLibs.C106_swap_rows
#standard_axioms MatrixLibs.C106_swap_cols
#standard_axioms MatrixLibs.C106_getminor
#standard_axioms MatrixLibs.C106_concatenate_rows
#standard_axioms MatrixLibs.C106_concatenate_cols
#standard_axioms MatrixLibs.C106_mul_stacked
#standard_axioms MatrixLibs.C106_mul_joined
#standard_axioms MatrixLibs.C106_mul_swap_rows
#standard_axioms MatrixLibs.C106_mul_swap_cols
#standard_axioms MatrixLibs.C106_mul_trans
#standard_axioms MatrixLibs.C106_mul_comm
#standard_axioms MatrixLibs.C106_moves
#standard_axioms MatrixLibs.C106_trans_narrow
#standard_axioms MatrixLibs.C106_swap_rows_narrow
#standard_axioms MatrixLibs.C106_swap_cols_narrow
#standard_axioms MatrixLibs.C106_getminor_narrow
#standard_axioms MatrixLibs.C106_concatenate_rows_narrow
#standard_axioms MatrixLibs.C106_concatenate_cols_narrow
#standard_axioms MatrixLibs.C106_mul_stacked_narrow
#standard_axioms MatrixLibs.C106_mul_joined_narrow
#standard_axioms MatrixLibs.C106_mul_swap_rows_narrow
#standard_axioms MatrixLibs.C106_mul_swap_cols_narrow
#standard_axioms MatrixLibs.C106_mul_trans_narrow
#standard_axioms MatrixLibs.C107_lu
#standard_axioms MatrixLibs.C107_lu_independent
#standard_axioms MatrixLibs.C107_lu_throws
#standard_axioms MatrixLibs.C107_chol
#standard_axioms MatrixLibs.C107_chol_stops
#standard_axioms MatrixLibs.C107_lu_narrow
#standard_axioms MatrixLibs.C107_chol_narrow
#standard_axioms MatrixLibs.C108_histogram
#standard_axioms MatrixLibs.C108_histogram_total
#standard_axioms MatrixLibs.C108_cumulative
#standard_axioms MatrixLibs.C108_rearranged
#standard_axioms MatrixLibs.C108_size
#standard_axioms MatrixLibs.C109_contents
#standard_axioms MatrixLibs.C109_arith
#standard_axioms MatrixLibs.C109_linear
#standard_axioms MatrixLibs.C109_pow
#standard_axioms MatrixLibs.C109_conv
#standard_axioms MatrixLibs.C109_statistics
#standard_axioms MatrixLibs.C109_compare
#standard_axioms MatrixLibs.C109_defined8
#standard_axioms MatrixLibs.C110_pow_error
#standard_axioms MatrixLibs.C110_pow_finite
#standard_axioms MatrixLibs.C110_pow_zero
#standard_axioms MatrixLibs.C110_pow_minus_one
#standard_axioms MatrixLibs.C110_pow_negative
#standard_axioms MatrixLibs.C111_inv_value
#standard_axioms MatrixLibs.C111_inv_error
#standard_axioms MatrixLibs.C111_inv4_error
#standard_axioms MatrixLibs.C111_inv_rejects_invertible
#standard_axioms MatrixLibs.C112_print_words
#standard_axioms MatrixLibs.C112_read_int
#standard_axioms MatrixLibs.C112_int_canonical
#standard_axioms MatrixLibs.C112_print_sint
#standard_axioms MatrixLibs.C112_print_unsigned
#standard_axioms MatrixLibs.C112_print_short
#standard_axioms MatrixLibs.C112_print_sint_injective
#standard_axioms MatrixLibs.C113_print_bytes
#standard_axioms MatrixLibs.C113_print_bytes_injective
#standard_axioms MatrixLibs.C113_bytes_not_numbers
#standard_axioms MatrixLibs.C114_read_float
#standard_axioms MatrixLibs.C114_ties_even
#standard_axioms MatrixLibs.C114_six_digits_exact
#standard_axioms MatrixLibs.C114_print_float
#standard_axioms MatrixLibs.C114_print_integer
#standard_axioms MatrixLibs.C114_notation
#standard_axioms MatrixLibs.C114_nonfinite
#standard_axioms MatrixLibs.C114_print_lossy
#standard_axioms MatrixLibs.C115_add_sub
#standard_axioms MatrixLibs.C115_scalar
#standard_axioms MatrixLibs.C115_inc_dec
#standard_axioms MatrixLibs.C115_div
#standard_axioms MatrixLibs.C115_abs
#standard_axioms MatrixLibs.C115_no_inverse
#standard_axioms MatrixLibs.C115_contents
#standard_axioms MatrixLibs.C116_mul
#standard_axioms MatrixLibs.C116_laws
#standard_axioms MatrixLibs.C116_pow
#standard_axioms MatrixLibs.C116_closure
#standard_axioms MatrixLibs.C116_units
#standard_axioms MatrixLibs.C117_det_large
#standard_axioms MatrixLibs.C117_det_small
#standard_axioms MatrixLibs.C117_det_returns
#standard_axioms MatrixLibs.C117_rules_differ
#standard_axioms MatrixLibs.C118_inv4
#standard_axioms MatrixLibs.C118_inv_adjugate
#standard_axioms MatrixLibs.C118_inv_partial
#standard_axioms MatrixLibs.C118_inv_even
#standard_axioms MatrixLibs.C118_inv4_wrong
#standard_axioms MatrixLibs.C118_product
#standard_axioms MatrixLibs.C118_pow_neg
#standard_axioms MatrixLibs.C118_pow_throws
#standard_axioms MatrixLibs.C119_conv2
#standard_axioms MatrixLibs.C119_conv2_full
#standard_axioms MatrixLibs.C119_conv2_valid
#standard_axioms MatrixLibs.C120_mean
#standard_axioms MatrixLibs.C120_var_stddev
#standard_axioms MatrixLibs.C120_median
#standard_axioms MatrixLibs.C120_histogram
#standard_axioms MatrixLibs.C120_cumulative
#standard_axioms MatrixLibs.C120_compare
#standard_axioms MatrixLibs.C120_print
#standard_axioms MatrixLibs.C121_lu
#standard_axioms MatrixLibs.C121_lu_diag
#standard_axioms MatrixLibs.C121_lu_product
#standard_axioms MatrixLibs.C121_lu_wrong
#standard_axioms MatrixLibs.C121_lu_stops
#standard_axioms MatrixLibs.C121_chol
#standard_axioms MatrixLibs.C121_chol_product
#standard_axioms MatrixLibs.C121_chol_wrong
#standard_axioms MatrixLibs.C121_chol_stops
#standard_axioms MatrixLibs.C121_isSymetric
#standard_axioms MatrixLibs.C121_strassen_wrong
#standard_axioms MatrixLibs.C122_returns
#standard_axioms MatrixLibs.C122_throws
#standard_axioms MatrixLibs.C122_statistics
#standard_axioms MatrixLibs.C123_gram
#standard_axioms MatrixLibs.C123_gram_left
#standard_axioms MatrixLibs.C123_sum
#standard_axioms MatrixLibs.C123_square
#standard_axioms MatrixLibs.C123_pow
#standard_axioms MatrixLibs.C123_gram_narrow
#standard_axioms MatrixLibs.C123_sum_narrow
#standard_axioms MatrixLibs.C123_isSymetric_unsigned
#standard_axioms MatrixLibs.C123_isSymetric_signed
#standard_axioms MatrixLibs.C123_isSymetric_float
#standard_axioms MatrixLibs.C123_diagonal
#standard_axioms MatrixLibs.C123_cube
#standard_axioms MatrixLibs.C124_mean_mono
#standard_axioms MatrixLibs.C124_mean_between
#standard_axioms MatrixLibs.C124_mean_const
#standard_axioms MatrixLibs.C124_var_const
#standard_axioms MatrixLibs.C124_false
#standard_axioms MatrixLibs.C124_mean_range_partial
#standard_axioms MatrixLibs.C124_mean_range_int_partial
#standard_axioms MatrixLibs.C124_mean_two_partial
#standard_axioms MatrixLibs.C125_add
#standard_axioms MatrixLibs.C125_sub
#standard_axioms MatrixLibs.C125_mul_scalar
#standard_axioms MatrixLibs.C125_mul_left
#standard_axioms MatrixLibs.C125_mul_right
#standard_axioms MatrixLibs.C125_mul
#standard_axioms MatrixLibs.C125_pow
#standard_axioms MatrixLibs.C125_conv2
#standard_axioms MatrixLibs.C125_conv2_full
#standard_axioms MatrixLibs.C125_conv2_valid
#standard_axioms MatrixLibs.C126_det_error
#standard_axioms MatrixLibs.C126_det_sign
#standard_axioms MatrixLibs.C126_inv_error
#standard_axioms MatrixLibs.C126_inv4_error
#standard_axioms MatrixLibs.C126_det_error_closed
#standard_axioms MatrixLibs.C127_neg
#standard_axioms MatrixLibs.C127_add_sub
#standard_axioms MatrixLibs.C127_mul
#standard_axioms MatrixLibs.C127_strassen
#standard_axioms MatrixLibs.C127_conv2
#standard_axioms MatrixLibs.C127_conv2_full
#standard_axioms MatrixLibs.C127_conv2_valid
#standard_axioms MatrixLibs.C127_stats
#standard_axioms MatrixLibs.C127_det
#standard_axioms MatrixLibs.C127_inv
#standard_axioms MatrixLibs.C127_lu
#standard_axioms MatrixLibs.C127_pow
#standard_axioms MatrixLibs.C127_isSymetric
#standard_axioms MatrixLibs.C127_abs
#standard_axioms MatrixLibs.C127_compare
#standard_axioms MatrixLibs.C128_chol_accepts
#standard_axioms MatrixLibs.C128_chol_finite
#standard_axioms MatrixLibs.C128_chol_rejects
#standard_axioms MatrixLibs.C128_chol_eigenvalue
#standard_axioms MatrixLibs.C128_chol_dominant
#standard_axioms MatrixLibs.C129_elimination
#standard_axioms MatrixLibs.C129_det
#standard_axioms MatrixLibs.C129_inv
#standard_axioms MatrixLibs.C130_lu
#standard_axioms MatrixLibs.C130_lu_sign
#standard_axioms MatrixLibs.C131_det_row
#standard_axioms MatrixLibs.C131_det_col
#standard_axioms MatrixLibs.C131_inv_minors
#standard_axioms MatrixLibs.C131_solve
#standard_axioms MatrixLibs.C131_solve_left
#standard_axioms MatrixLibs.C131_lu_inv
#standard_axioms MatrixLibs.C131_chol_det
#standard_axioms MatrixLibs.C131_chol_lu
#standard_axioms MatrixLibs.C131_lu_symmetric
#standard_axioms MatrixLibs.C131_chol_iff_lu
#standard_axioms MatrixLibs.C131_chol_iff_minors
#standard_axioms MatrixLibs.C131_posDef
#standard_axioms MatrixLibs.C132_lu
#standard_axioms MatrixLibs.C132_inv
#standard_axioms MatrixLibs.C132_det_rows
#standard_axioms MatrixLibs.C132_det_cols
#standard_axioms MatrixLibs.C132_solve
#standard_axioms MatrixLibs.C132_inv_rows
#standard_axioms MatrixLibs.C132_chol
#standard_axioms MatrixLibs.C133_concatenate
#standard_axioms MatrixLibs.C133_concatenate_square
#standard_axioms MatrixLibs.C133_histogram
#standard_axioms MatrixLibs.C133_mean
#standard_axioms MatrixLibs.C133_var
#standard_axioms MatrixLibs.C133_median
#standard_axioms MatrixLibs.C134_rearranged
#standard_axioms MatrixLibs.C134_mean_add
#standard_axioms MatrixLibs.C134_histogram
#standard_axioms MatrixLibs.C134_cumulative
#standard_axioms MatrixLibs.C134_chebyshev
#standard_axioms MatrixLibs.C134_mean_median
#standard_axioms MatrixLibs.C134_var_range
#standard_axioms MatrixLibs.C134_median_add
#standard_axioms MatrixLibs.C134_median_mul
#standard_axioms MatrixLibs.C135_local
#standard_axioms MatrixLibs.C135_central
#standard_axioms MatrixLibs.C135_trans
#standard_axioms MatrixLibs.C135_trans_full
#standard_axioms MatrixLibs.C135_full_comm
#standard_axioms MatrixLibs.C135_full_sum
#standard_axioms MatrixLibs.C135_adjoint
#standard_axioms MatrixLibs.C135_separable
#standard_axioms MatrixLibs.C136_complex_functions
#standard_axioms MatrixLibs.C136_real_functions
#standard_axioms MatrixLibs.C137_chol_returns
#standard_axioms MatrixLibs.C137_chol
#standard_axioms MatrixLibs.C137_chol_symmetric
#standard_axioms MatrixLibs.C137_chol_unique
#standard_axioms MatrixLibs.C137_chol_real
#standard_axioms MatrixLibs.C137_not_hermitian
#standard_axioms MatrixLibs.C137_isSymetric
#standard_axioms MatrixLibs.C138_complex_mul_error
#standard_axioms MatrixLibs.C138_complex_sum
#standard_axioms MatrixLibs.C138_complex_scalar
#standard_axioms MatrixLibs.C138_complex_int
#standard_axioms MatrixLibs.C139_init
#standard_axioms MatrixLibs.C139_init_rows
#standard_axioms MatrixLibs.C139_init_rows_one_pair
#standard_axioms MatrixLibs.C139_braces
#standard_axioms MatrixLibs.C139_less
#standard_axioms MatrixLibs.C139_trichotomy
#standard_axioms MatrixLibs.C139_less_trans
#standard_axioms MatrixLibs.C140_equal
#standard_axioms MatrixLibs.C140_equal_self
#standard_axioms MatrixLibs.C140_arith
#standard_axioms MatrixLibs.C140_mul
#standard_axioms MatrixLibs.C140_strassen
#standard_axioms MatrixLibs.C140_conv2
#standard_axioms MatrixLibs.C140_stats
#standard_axioms MatrixLibs.C140_det
#standard_axioms MatrixLibs.C140_inv
#standard_axioms MatrixLibs.C140_lu
#standard_axioms MatrixLibs.C140_pow
#standard_axioms MatrixLibs.C140_tests
#standard_axioms MatrixLibs.C140_chol
#standard_axioms MatrixLibs.C140_exceptions
#standard_axioms MatrixLibs.C141_complex_arith
#standard_axioms MatrixLibs.C141_complex_det
#standard_axioms MatrixLibs.C141_complex_conv2
#standard_axioms MatrixLibs.C141_complex_trans
#standard_axioms MatrixLibs.C141_complex_abs
#standard_axioms MatrixLibs.C141_complex_compare
#standard_axioms MatrixLibs.C141_conj
#standard_axioms MatrixLibs.C141_conj_conv2_det
#standard_axioms MatrixLibs.C141_real
#standard_axioms MatrixLibs.C141_real_conv2_det
#standard_axioms MatrixLibs.C142_via
#standard_axioms MatrixLibs.C142_sqrt
#standard_axioms MatrixLibs.C142_each_operation
#standard_axioms MatrixLibs.C142_conv
#standard_axioms MatrixLibs.C142_roundtrip
#standard_axioms MatrixLibs.C142_add_sub
#standard_axioms MatrixLibs.C142_mul_div_scalar
#standard_axioms MatrixLibs.C142_compare
#standard_axioms MatrixLibs.C142_product_differs
#standard_axioms MatrixLibs.C143_fma
#standard_axioms MatrixLibs.C143_none
#standard_axioms MatrixLibs.C143_elementwise
#standard_axioms MatrixLibs.C143_mean
#standard_axioms MatrixLibs.C143_det_general
#standard_axioms MatrixLibs.C143_inv_general
#standard_axioms MatrixLibs.C143_inv2_singular_refuted
#standard_axioms MatrixLibs.C143_mul_error
#standard_axioms MatrixLibs.C143_mul_int
#standard_axioms MatrixLibs.C143_det2
#standard_axioms MatrixLibs.C143_det3
#standard_axioms MatrixLibs.C143_conv2_error
#standard_axioms MatrixLibs.C143_conv2_full_error
#standard_axioms MatrixLibs.C143_conv2_valid_error
#standard_axioms MatrixLibs.C143_var
#standard_axioms MatrixLibs.C143_lu_backward
#standard_axioms MatrixLibs.C143_chol_backward
#standard_axioms MatrixLibs.C144_median
#standard_axioms MatrixLibs.C144_median_empty
#standard_axioms MatrixLibs.C144_histogram
#standard_axioms MatrixLibs.C144_histogram_refused
#standard_axioms MatrixLibs.C144_destroy
#standard_axioms MatrixLibs.C144_cumulative
#standard_axioms MatrixLibs.C144_cumulative_refused
#standard_axioms MatrixLibs.C145_calls
#standard_axioms MatrixLibs.C145_silent
#standard_axioms MatrixLibs.C145_stream
#standard_axioms MatrixLibs.C145_written
#standard_axioms MatrixLibs.C145_plain
#standard_axioms MatrixLibs.C145_width
#standard_axioms MatrixLibs.C146_sum
#standard_axioms MatrixLibs.C146_mult
#standard_axioms MatrixLibs.C146_abs
#standard_axioms MatrixLibs.C146_det
#standard_axioms MatrixLibs.C146_chol
#standard_axioms MatrixLibs.C146_conv2
#standard_axioms MatrixLibs.C146_statistics
#standard_axioms MatrixLibs.C146_median
#standard_axioms MatrixLibs.C146_returns
#standard_axioms MatrixLibs.C146_div
#standard_axioms MatrixLibs.C146_lu
#standard_axioms MatrixLibs.C146_inv_small
#standard_axioms MatrixLibs.C146_inv
#standard_axioms MatrixLibs.C146_pow
#standard_axioms MatrixLibs.C147_same_elementwise
#standard_axioms MatrixLibs.C147_same
#standard_axioms MatrixLibs.C147_elementwise
#standard_axioms MatrixLibs.C147_product
#standard_axioms MatrixLibs.C147_statistics
#standard_axioms MatrixLibs.C147_det
#standard_axioms MatrixLibs.C147_inv
#standard_axioms MatrixLibs.C147_inv_order
#standard_axioms MatrixLibs.C147_decompositions
#standard_axioms MatrixLibs.C147_pow
#standard_axioms MatrixLibs.C147_pow_negative
#standard_axioms MatrixLibs.C147_conv2
#standard_axioms MatrixLibs.C148_range
#standard_axioms MatrixLibs.C148_elementwise
#standard_axioms MatrixLibs.C148_mult
#standard_axioms MatrixLibs.C148_strassen
#standard_axioms MatrixLibs.C148_conv
#standard_axioms MatrixLibs.C148_statistics
#standard_axioms MatrixLibs.C148_predicates
#standard_axioms MatrixLibs.C148_det
#standard_axioms MatrixLibs.C148_inv
#standard_axioms MatrixLibs.C148_lu
#standard_axioms MatrixLibs.C148_chol
#standard_axioms MatrixLibs.C148_pow
#standard_axioms MatrixLibs.C148_underflow
#standard_axioms MatrixLibs.C149_operations
#standard_axioms MatrixLibs.C149_nearest
#standard_axioms MatrixLibs.C149_representable
#standard_axioms MatrixLibs.C149_sum
#standard_axioms MatrixLibs.C149_sub
#standard_axioms MatrixLibs.C149_sub_self
#standard_axioms MatrixLibs.C149_sumScalar
#standard_axioms MatrixLibs.C149_subScalar
#standard_axioms MatrixLibs.C149_multScalar
#standard_axioms MatrixLibs.C149_div
#standard_axioms MatrixLibs.C149_mult
#standard_axioms MatrixLibs.C149_conv2
#standard_axioms MatrixLibs.C149_conv2_full
#standard_axioms MatrixLibs.C149_conv2_valid
#standard_axioms MatrixLibs.C149_mean
#standard_axioms MatrixLibs.C149_certified
#standard_axioms MatrixLibs.C149_not_det
#standard_axioms MatrixLibs.C149_not_strassen
#standard_axioms MatrixLibs.C149_stddev
#standard_axioms MatrixLibs.C150_mult
#standard_axioms MatrixLibs.C150_conv2
#standard_axioms MatrixLibs.C150_conv2_full
#standard_axioms MatrixLibs.C150_conv2_valid
#standard_axioms MatrixLibs.C150_det2
#standard_axioms MatrixLibs.C150_det3
#standard_axioms MatrixLibs.C150_mean
#standard_axioms MatrixLibs.C150_lu
#standard_axioms MatrixLibs.C150_chol
#standard_axioms MatrixLibs.C151_no_switch
#standard_axioms MatrixLibs.C151_operands
#standard_axioms MatrixLibs.C151_normal
#standard_axioms MatrixLibs.C151_flushed
#standard_axioms MatrixLibs.C151_exactly
#standard_axioms MatrixLibs.C151_less
#standard_axioms MatrixLibs.C151_before
#standard_axioms MatrixLibs.C151_near
#standard_axioms MatrixLibs.C151_elementwise
#standard_axioms MatrixLibs.C151_mult
#standard_axioms MatrixLibs.C151_conv2
#standard_axioms MatrixLibs.C151_conv2_full
#standard_axioms MatrixLibs.C151_conv2_valid
#standard_axioms MatrixLibs.C151_det2
#standard_axioms MatrixLibs.C151_det3
#standard_axioms MatrixLibs.C151_mean
#standard_axioms MatrixLibs.C151_lu
#standard_axioms MatrixLibs.C151_chol
#standard_axioms MatrixLibs.C151_equal
#standard_axioms MatrixLibs.C151_difference
#standard_axioms MatrixLibs.C151_difference_flushed
#standard_axioms MatrixLibs.C151_overflow
#standard_axioms MatrixLibs.C151_mult_flushed
#standard_axioms MatrixLibs.C152_mult
#standard_axioms MatrixLibs.C152_pow
#standard_axioms MatrixLibs.C152_nilpotent
#standard_axioms MatrixLibs.C152_idempotent
#standard_axioms MatrixLibs.C152_permutation
#standard_axioms MatrixLibs.C152_permutation_pow
#standard_axioms MatrixLibs.C152_stochastic
#standard_axioms MatrixLibs.C152_det
#standard_axioms MatrixLibs.C152_inv
#standard_axioms MatrixLibs.C152_inv_lower
#standard_axioms MatrixLibs.C152_lu
#standard_axioms MatrixLibs.C152_diagonal
#standard_axioms MatrixLibs.C152_orthogonal
#standard_axioms MatrixLibs.C152_involution
#standard_axioms MatrixLibs.C152_symmetric
#standard_axioms MatrixLibs.C152_permutation_det
#standard_axioms MatrixLibs.C153_det_signed
#standard_axioms MatrixLibs.C153_permutation_signed
#standard_axioms MatrixLibs.C153_diagonal_signed
#standard_axioms MatrixLibs.C153_lu_signed
#standard_axioms MatrixLibs.C153_chol_signed
#standard_axioms MatrixLibs.C153_det_unsigned
#standard_axioms MatrixLibs.C153_permutation_unsigned
#standard_axioms MatrixLibs.C153_lu_unsigned
#standard_axioms MatrixLibs.C153_det_float
#standard_axioms MatrixLibs.C153_permutation_float
#standard_axioms MatrixLibs.C153_diagonal_float
#standard_axioms MatrixLibs.C153_upper_float
#standard_axioms MatrixLibs.C153_lu_float
#standard_axioms MatrixLibs.C153_chol_float
#standard_axioms MatrixLibs.C154_code
#standard_axioms MatrixLibs.C154_orders
#standard_axioms MatrixLibs.C154_exact
#standard_axioms MatrixLibs.C154_unsigned
#standard_axioms MatrixLibs.C154_mult
#standard_axioms MatrixLibs.C154_mult_depth
#standard_axioms MatrixLibs.C154_mult_pairs
#standard_axioms MatrixLibs.C154_mult_lanes
#standard_axioms MatrixLibs.C154_mult_two
#standard_axioms MatrixLibs.C154_conv2
#standard_axioms MatrixLibs.C154_conv2_full
#standard_axioms MatrixLibs.C154_mean
#standard_axioms MatrixLibs.C154_mult_env
#standard_axioms MatrixLibs.C154_conv2_env
#standard_axioms MatrixLibs.C154_conv2_full_env
#standard_axioms MatrixLibs.C154_mean_env
#standard_axioms MatrixLibs.C154_integers
#standard_axioms MatrixLibs.C154_matters
#standard_axioms MatrixLibs.C155_ordered
#standard_axioms MatrixLibs.C155_guards
#standard_axioms MatrixLibs.C155_declared
#standard_axioms MatrixLibs.C155_callable
#standard_axioms MatrixLibs.C155_print
#standard_axioms MatrixLibs.C155_matrix_hpp
#standard_axioms MatrixLibs.C155_again
#standard_axioms MatrixLibs.C155_alone
#standard_axioms MatrixLibs.C155_var_first
#standard_axioms MatrixLibs.C155_print_first
#standard_axioms MatrixLibs.C155_required
#standard_axioms MatrixLibs.C155_required_enough
#standard_axioms MatrixLibs.C156_assoc
#standard_axioms MatrixLibs.C156_finds
#standard_axioms MatrixLibs.C156_elements
#standard_axioms MatrixLibs.C156_unseen
#standard_axioms MatrixLibs.C156_hidden
#standard_axioms MatrixLibs.C156_directive
#standard_axioms MatrixLibs.C156_declaration
#standard_axioms MatrixLibs.C157_link
#standard_axioms MatrixLibs.C157_same_partial
#standard_axioms MatrixLibs.C157_operator_differs
#standard_axioms MatrixLibs.C158_var
#standard_axioms MatrixLibs.C158_stddev
#standard_axioms MatrixLibs.C158_det_backward
#standard_axioms MatrixLibs.C158_det_forward
#standard_axioms MatrixLibs.C158_inv1
#standard_axioms MatrixLibs.C158_inv2
#standard_axioms MatrixLibs.C158_inv3
#standard_axioms MatrixLibs.C158_inv4
#standard_axioms MatrixLibs.C158_inv5
#standard_axioms MatrixLibs.C158_env
#standard_axioms MatrixLibs.C159_lu
#standard_axioms MatrixLibs.C159_chol
#standard_axioms MatrixLibs.C159_inverse
#standard_axioms MatrixLibs.C159_inverse_left
#standard_axioms MatrixLibs.C159_solve
#standard_axioms MatrixLibs.C159_inverse2
#standard_axioms MatrixLibs.C159_compare
#standard_axioms MatrixLibs.C159_compare_sound
#standard_axioms MatrixLibs.C159_lu_check
#standard_axioms MatrixLibs.C159_chol_check
#standard_axioms MatrixLibs.C159_inverse2_check
#standard_axioms MatrixLibs.C160_pow
#standard_axioms MatrixLibs.C160_pow_zero
#standard_axioms MatrixLibs.C160_pow_negative
#standard_axioms MatrixLibs.C160_pow_minus_one
#standard_axioms MatrixLibs.C160_strassen
#standard_axioms MatrixLibs.C160_env
#standard_axioms MatrixLibs.C161_add_sub
#standard_axioms MatrixLibs.C161_scalar
#standard_axioms MatrixLibs.C161_mul
#standard_axioms MatrixLibs.C161_strassen
#standard_axioms MatrixLibs.C161_pow
#standard_axioms MatrixLibs.C161_det
#standard_axioms MatrixLibs.C161_abs
#standard_axioms MatrixLibs.C161_conv2
#standard_axioms MatrixLibs.C161_conv2_valid
#standard_axioms MatrixLibs.C161_predicates
#standard_axioms MatrixLibs.C161_convert
#standard_axioms MatrixLibs.C161_same
#standard_axioms MatrixLibs.C161_one_more_bit
#standard_axioms MatrixLibs.C162_exact
#standard_axioms MatrixLibs.C162_elementwise
#standard_axioms MatrixLibs.C162_div
#standard_axioms MatrixLibs.C162_mult
#standard_axioms MatrixLibs.C162_strassen
#standard_axioms MatrixLibs.C162_det
#standard_axioms MatrixLibs.C162_inv
#standard_axioms MatrixLibs.C162_inv_throws
#standard_axioms MatrixLibs.C162_lu
#standard_axioms MatrixLibs.C162_lu_throws
#standard_axioms MatrixLibs.C162_chol
#standard_axioms MatrixLibs.C162_pow
#standard_axioms MatrixLibs.C162_pow_negative
#standard_axioms MatrixLibs.C162_compare
#standard_axioms MatrixLibs.C162_conv2
#standard_axioms MatrixLibs.C162_conv2_full
#standard_axioms MatrixLibs.C162_conv2_valid
#standard_axioms MatrixLibs.C162_mean
#standard_axioms MatrixLibs.C162_var
#standard_axioms MatrixLibs.C163_ring
#standard_axioms MatrixLibs.C163_div
#standard_axioms MatrixLibs.C163_strassen
#standard_axioms MatrixLibs.C163_det
#standard_axioms MatrixLibs.C163_inv
#standard_axioms MatrixLibs.C163_pow
#standard_axioms MatrixLibs.C163_lu
#standard_axioms MatrixLibs.C163_chol
#standard_axioms MatrixLibs.C163_compare
#standard_axioms MatrixLibs.C163_conv2
#standard_axioms MatrixLibs.C163_stats
#standard_axioms MatrixLibs.C163_modes
#standard_axioms MatrixLibs.C163_flushing
#standard_axioms MatrixLibs.C163_double
#standard_axioms MatrixLibs.C163_det_modes
#standard_axioms MatrixLibs.C163_inv_modes
#standard_axioms MatrixLibs.C164_largest
#standard_axioms MatrixLibs.C164_sum
#standard_axioms MatrixLibs.C164_multScalar
#standard_axioms MatrixLibs.C164_div
#standard_axioms MatrixLibs.C164_compare
#standard_axioms MatrixLibs.C164_mult
#standard_axioms MatrixLibs.C164_mult_accurate
#standard_axioms MatrixLibs.C164_accurate
#standard_axioms MatrixLibs.C164_det3_accurate
#standard_axioms MatrixLibs.C164_conv2
#standard_axioms MatrixLibs.C164_conv2_valid
#standard_axioms MatrixLibs.C164_det2
#standard_axioms MatrixLibs.C164_det3
#standard_axioms MatrixLibs.C164_strassen
#standard_axioms MatrixLibs.C164_pow
#standard_axioms MatrixLibs.C164_mean
#standard_axioms MatrixLibs.C164_var
#standard_axioms MatrixLibs.C164_conv2_accurate
#standard_axioms MatrixLibs.C164_strassen_accurate
#standard_axioms MatrixLibs.C164_pow_accurate
#standard_axioms MatrixLibs.C164_var_accurate
#standard_axioms MatrixLibs.C164_float
#standard_axioms MatrixLibs.C164_overflow
#standard_axioms MatrixLibs.C165_inv1
#standard_axioms MatrixLibs.C165_inv2
#standard_axioms MatrixLibs.C165_inv3
#standard_axioms MatrixLibs.C165_check2
#standard_axioms MatrixLibs.C165_solve2
#standard_axioms MatrixLibs.C165_solve3
#standard_axioms MatrixLibs.C165_pow_negative
#standard_axioms MatrixLibs.C165_pow2
#standard_axioms MatrixLibs.C165_pow3
#standard_axioms MatrixLibs.C165_throws2
#standard_axioms MatrixLibs.C165_throws3
#standard_axioms MatrixLibs.C165_near_singular
#standard_axioms MatrixLibs.C166_mult
#standard_axioms MatrixLibs.C166_sum
#standard_axioms MatrixLibs.C166_sumScalar
#standard_axioms MatrixLibs.C166_multScalar
#standard_axioms MatrixLibs.C166_div
#standard_axioms MatrixLibs.C166_conv2
#standard_axioms MatrixLibs.C166_conv2_valid
#standard_axioms MatrixLibs.C166_mean
#standard_axioms MatrixLibs.C166_integer
#standard_axioms MatrixLibs.C166_float
#standard_axioms MatrixLibs.C166_overflow
#standard_axioms MatrixLibs.C167_lost
#standard_axioms MatrixLibs.C167_mult
#standard_axioms MatrixLibs.C167_conv2
#standard_axioms MatrixLibs.C167_conv2_full
#standard_axioms MatrixLibs.C167_conv2_valid
#standard_axioms MatrixLibs.C167_strassen
#standard_axioms MatrixLibs.C167_det2
#standard_axioms MatrixLibs.C167_det3
#standard_axioms MatrixLibs.C167_mean
#standard_axioms MatrixLibs.C167_pow
#standard_axioms MatrixLibs.C167_inv2
#standard_axioms MatrixLibs.C167_inv3
#standard_axioms MatrixLibs.C167_golden
#standard_axioms MatrixLibs.C167_float
#standard_axioms MatrixLibs.C167_subnormal
#standard_axioms MatrixLibs.C168_assoc
#standard_axioms MatrixLibs.C168_distrib
#standard_axioms MatrixLibs.C168_distrib_left
#standard_axioms MatrixLibs.C168_scale
#standard_axioms MatrixLibs.C168_sum_assoc
#standard_axioms MatrixLibs.C168_strassen
#standard_axioms MatrixLibs.C168_env_assoc
#standard_axioms MatrixLibs.C168_pow_succ
#standard_axioms MatrixLibs.C168_float
#standard_axioms MatrixLibs.C168_pow_float
#standard_axioms MatrixLibs.C168_inexact
#standard_axioms MatrixLibs.C168_inexact_products
