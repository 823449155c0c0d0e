{
 "claims": [
  {
   "property": "C01",
   "status": "proved",
   "theorems": [
    "Ra.Props.C01_at",
    "Ra.Props.C01_map",
    "Ra.Props.C01_traversal"
   ],
   "note": ""
  },
  {
   "property": "C02",
   "status": "proved",
   "theorems": [
    "Ra.Props.C02_shape",
    "Ra.Props.C02_unique"
   ],
   "note": ""
  },
  {
   "property": "C03",
   "status": "proved",
   "theorems": [
    "Ra.Props.C03_agree",
    "Ra.Props.C03_perm",
    "Ra.Props.C03_rejects",
    "Ra.Props.C03_tree"
   ],
   "note": ""
  },
  {
   "property": "C04",
   "status": "partial",
   "theorems": [
    "Ra.Props.C04_reject",
    "Ra.Props.C04_pass_partial",
    "Ra.Props.C04_check_partial",
    "Ra.Props.C04_negation",
    "Ra.Props.C04_exact"
   ],
   "note": "Rejection is proved for all types. Passing is false of the code for prefix matching inside of a rank conjunction (B22, C04_negation); C04_pass_partial and C04_check_partial cover all other types. C04_exact is for all types: the check is right exactly when each argument by itself has a shape."
  },
  {
   "property": "C05",
   "status": "proved",
   "theorems": [
    "Ra.Props.C05_ravel_visits",
    "Ra.Props.C05_history"
   ],
   "note": ""
  },
  {
   "property": "C06",
   "status": "proved",
   "theorems": [
    "Ra.Props.C06_fixed_visits",
    "Ra.Props.C06_fixed_eq_ravel"
   ],
   "note": ""
  },
  {
   "property": "C07",
   "status": "proved",
   "theorems": [
    "Ra.Props.C07_ravel_restores",
    "Ra.Props.C07_fixed_restores",
    "Ra.Props.C07_twice"
   ],
   "note": ""
  },
  {
   "property": "C08",
   "status": "proved",
   "theorems": [
    "Ra.Props.C08_early"
   ],
   "note": ""
  },
  {
   "property": "C09",
   "status": "partial",
   "theorems": [
    "Ra.Props.C09_fails",
    "Ra.Props.C09_negation",
    "Ra.Props.C09_outside",
    "Ra.Props.C09_partial"
   ],
   "note": "False of the code (B1): the counters of ply_ravel are not reset after an early stop. C09_fails, C09_negation and C09_outside prove it with concrete witnesses; C09_partial is the part that holds (clean or completed history)."
  },
  {
   "property": "C10",
   "status": "proved",
   "theorems": [
    "Ra.Props.C10_increments",
    "Ra.Props.C10_stl_visits"
   ],
   "note": ""
  },
  {
   "property": "C11",
   "status": "proved",
   "theorems": [
    "Ra.Props.C11_reject",
    "Ra.Props.C11_scalar",
    "Ra.Props.C11_scalar_reject"
   ],
   "note": ""
  },
  {
   "property": "C12",
   "status": "proved",
   "theorems": [
    "Ra.Props.C12_range",
    "Ra.Props.C12_elements"
   ],
   "note": ""
  },
  {
   "property": "C13",
   "status": "proved",
   "theorems": [
    "Ra.Props.C13_slice",
    "Ra.Props.C13_rank",
    "Ra.Props.C13_rank_axes",
    "Ra.Props.C13_dots",
    "Ra.Props.C13_elided",
    "Ra.Props.C13_insert",
    "Ra.Props.C13_too_many"
   ],
   "note": "The property excludes too many subscripts; C13_too_many shows that these can read the dims out of range (B19). C13_rank_axes gives the rank."
  },
  {
   "property": "C14",
   "status": "partial",
   "theorems": [
    "Ra.Props.C14_grid",
    "Ra.Props.C14_grid_right",
    "Ra.Props.C14_grid_inside",
    "Ra.Props.C14_partial",
    "Ra.Props.C14_negation",
    "Ra.Props.C14_origin"
   ],
   "note": "False of the code for iotas of rank 2 or more (B2): C14_negation and C14_origin give witnesses. C14_grid says exactly when such a slice passes the checks and where its elements are, C14_grid_right when these are the right ones and C14_grid_inside when they are inside. C14_partial covers every other subscript."
  },
  {
   "property": "C15",
   "status": "proved",
   "theorems": [
    "Ra.Props.C15_outer",
    "Ra.Props.C15_reject",
    "Ra.Props.C15_insert_fails"
   ],
   "note": ""
  },
  {
   "property": "C16",
   "status": "proved",
   "theorems": [
    "Ra.Props.C16_outer"
   ],
   "note": ""
  },
  {
   "property": "C17",
   "status": "proved",
   "theorems": [
    "Ra.Props.C17_conjunction",
    "Ra.Props.C17_reject"
   ],
   "note": ""
  },
  {
   "property": "C18",
   "status": "proved",
   "theorems": [
    "Ra.Props.C18_reframe",
    "Ra.Props.C18_at",
    "Ra.Props.C18_shape",
    "Ra.Props.C18_repeats_fail",
    "Ra.Props.C18_function"
   ],
   "note": "Repeated destination axes are excluded by the property; C18_repeats_fail shows why."
  },
  {
   "property": "C19",
   "status": "partial",
   "theorems": [
    "Ra.Props.C19_reverse",
    "Ra.Props.C19_unbounded",
    "Ra.Props.C19_axis_negation",
    "Ra.Props.C19_partial"
   ],
   "note": "False of the code for a run time axis out of range (B15, C19_axis_negation: the dims are read before the axis is checked). Everything else is proved."
  },
  {
   "property": "C20",
   "status": "partial",
   "theorems": [
    "Ra.Props.C20_elements",
    "Ra.Props.C20_shape_partial",
    "Ra.Props.C20_lengths",
    "Ra.Props.C20_lengths_right",
    "Ra.Props.C20_inverse",
    "Ra.Props.C20_reject",
    "Ra.Props.C20_negative_negation",
    "Ra.Props.C20_mixed_negation"
   ],
   "note": "False of the code for negative axes (B16, C20_negative_negation) and for the length of an axis that receives both bounded and unbounded axes (B6, C20_mixed_negation). Elements, inverse, and other shapes are proved. C20_lengths gives the lengths for any list of axes, and C20_lengths_right says exactly when they are right."
  },
  {
   "property": "C21",
   "status": "partial",
   "theorems": [
    "Ra.Props.C21_negative_negation",
    "Ra.Props.C21_placeholder",
    "Ra.Props.C21_placeholder_reject",
    "Ra.Props.C21_placeholder_negation",
    "Ra.Props.C21_tile",
    "Ra.Props.C21_suffix",
    "Ra.Props.C21_partial",
    "Ra.Props.C21_reject",
    "Ra.Props.C21_negation",
    "Ra.Props.C21_succeeds",
    "Ra.Props.C21_exact"
   ],
   "note": "False of the code when the last axis has length 1 and another step (B3, C21_negation), for a placeholder after a 0 (B4, C21_placeholder_negation), for negative lengths (B30, C21_negative_negation), for an empty source (B29, C72_empty_negation), and through c_order when the inner step is 0 (B5). Everything else is proved. C21_succeeds says exactly which sources are accepted and C21_exact exactly when the elements are the right ones."
  },
  {
   "property": "C22",
   "status": "partial",
   "theorems": [
    "Ra.Props.C22_partial",
    "Ra.Props.C22_complete",
    "Ra.Props.C22_negation",
    "Ra.Props.C22_succeeds",
    "Ra.Props.C22_exact"
   ],
   "note": "False of the code when the inner step is 0 (B5, C22_negation). C22_succeeds says exactly when the check passes and C22_exact exactly when the result is right."
  },
  {
   "property": "C23",
   "status": "partial",
   "theorems": [
    "Ra.Props.C23_unit",
    "Ra.Props.C23_strided_complete",
    "Ra.Props.C23_strided_partial",
    "Ra.Props.C23_strided_negation",
    "Ra.Props.C23_strided_exact"
   ],
   "note": "c_order(dims) is proved exact. c_order(dims, false) is false of the code when the inner step is 0 (B5, C23_strided_negation). C23_strided_exact says exactly when it's true."
  },
  {
   "property": "C24",
   "status": "proved",
   "theorems": [
    "Ra.Props.C24_stencil",
    "Ra.Props.C24_reject"
   ],
   "note": ""
  },
  {
   "property": "C25",
   "status": "partial",
   "theorems": [
    "Ra.Props.C25_collapse_scalar",
    "Ra.Props.C25_collapse_array",
    "Ra.Props.C25_explode",
    "Ra.Props.C25_roundtrip_partial",
    "Ra.Props.C25_explode_reject",
    "Ra.Props.C25_roundtrip_negation",
    "Ra.Props.C25_collapse_negation",
    "Ra.Props.C25_explode_exact"
   ],
   "note": "collapse is proved for scalar subtypes and for arrays of the same scalars; it is false of the code for arrays smaller than a scalar of the elements (B21, C25_collapse_negation). The round trip is proved for scalar subtypes and is false for array subtypes (C25_roundtrip_negation). C25_explode_exact says exactly when explode works."
  },
  {
   "property": "C26",
   "status": "partial",
   "theorems": [
    "Ra.Props.C26_iter",
    "Ra.Props.C26_iter_reject",
    "Ra.Props.C26_at_view",
    "Ra.Props.C26_at_view_reject",
    "Ra.Props.C26_at_view_negation",
    "Ra.Props.C26_at_view_many",
    "Ra.Props.C26_partial"
   ],
   "note": "False of the code for at_view with more indices than the rank (B17, C26_at_view_negation). Everything else is proved. C26_at_view_many says what happens with too many indices (B17)."
  },
  {
   "property": "C27",
   "status": "proved",
   "theorems": [
    "Ra.Props.C27_assign",
    "Ra.Props.C27_reject",
    "Ra.Props.C27_reject_tree",
    "Ra.Props.C27_view"
   ],
   "note": ""
  },
  {
   "property": "C28",
   "status": "proved",
   "theorems": [
    "Ra.Props.C28_update",
    "Ra.Props.C28_prefix",
    "Ra.Props.C28_insert",
    "Ra.Props.C28_assign",
    "Ra.Props.C28_last"
   ],
   "note": ""
  },
  {
   "property": "C29",
   "status": "proved",
   "theorems": [
    "Ra.Props.C29_gemm_new",
    "Ra.Props.C29_gemm_new_reject",
    "Ra.Props.C29_gemv_new",
    "Ra.Props.C29_gemv_new_expr",
    "Ra.Props.C29_gevm_new",
    "Ra.Props.C29_gemv_new_reject",
    "Ra.Props.C29_gemv_new_expr_reject",
    "Ra.Props.C29_gevm_new_reject",
    "Ra.Props.C29_gemm_slice",
    "Ra.Props.C29_gemm_iter",
    "Ra.Props.C29_gemv_b",
    "Ra.Props.C29_gemv_c",
    "Ra.Props.C29_gemv_iter",
    "Ra.Props.C29_gevm_c",
    "Ra.Props.C29_gevm_a",
    "Ra.Props.C29_gevm_iter",
    "Ra.Props.C29_gemm_slice_reject",
    "Ra.Props.C29_gemm_iter_reject",
    "Ra.Props.C29_gemv_b_reject",
    "Ra.Props.C29_gemv_c_reject",
    "Ra.Props.C29_gemv_iter_reject",
    "Ra.Props.C29_gevm_c_reject",
    "Ra.Props.C29_gevm_a_reject",
    "Ra.Props.C29_gevm_iter_reject"
   ],
   "note": ""
  },
  {
   "property": "C30",
   "status": "proved",
   "theorems": [
    "Ra.Props.C30_elements",
    "Ra.Props.C30_invariant",
    "Ra.Props.C30_assign"
   ],
   "note": ""
  },
  {
   "property": "C31",
   "status": "proved",
   "theorems": [
    "Ra.Props.C31_resize",
    "Ra.Props.C31_resize_runs",
    "Ra.Props.C31_resize_shape",
    "Ra.Props.C31_push_back",
    "Ra.Props.C31_pop_back",
    "Ra.Props.C31_pop_back_runs",
    "Ra.Props.C31_copy"
   ],
   "note": ""
  },
  {
   "property": "C32",
   "status": "partial",
   "theorems": [
    "Ra.Props.C32_failed_partial",
    "Ra.Props.C32_resize_breaks",
    "Ra.Props.C32_resize_shape_breaks",
    "Ra.Props.C32_history",
    "Ra.Props.C32_others"
   ],
   "note": "False of the code for resize (B8): C32_resize_breaks and C32_resize_shape_breaks. C32_failed_partial covers push_back, pop_back and construction in full, and what a failed resize leaves alone."
  },
  {
   "property": "C33",
   "status": "proved",
   "theorems": [
    "Ra.Props.C33_swap",
    "Ra.Props.C33_reject"
   ],
   "note": ""
  },
  {
   "property": "C34",
   "status": "proved",
   "theorems": [
    "Ra.Props.C34_assign",
    "Ra.Props.C34_assign_reject",
    "Ra.Props.C34_construct",
    "Ra.Props.C34_ragged"
   ],
   "note": "Views and arrays of run time size. For static sizes the lengths are types, so the check is the compiler's; each level is an assignment as in C27."
  },
  {
   "property": "C35",
   "status": "proved",
   "theorems": [
    "Ra.Props.C35_any",
    "Ra.Props.C35_every",
    "Ra.Props.C35_index_found",
    "Ra.Props.C35_index_none"
   ],
   "note": ""
  },
  {
   "property": "C36",
   "status": "proved",
   "theorems": [
    "Ra.Props.C36_lexical",
    "Ra.Props.C36_irrefl",
    "Ra.Props.C36_trans",
    "Ra.Props.C36_total"
   ],
   "note": ""
  },
  {
   "property": "C37",
   "status": "proved",
   "theorems": [
    "Ra.Props.C37_amax_nan",
    "Ra.Props.C37_amin_nan",
    "Ra.Props.C37_amin",
    "Ra.Props.C37_amax"
   ],
   "note": ""
  },
  {
   "property": "C38",
   "status": "proved",
   "theorems": [
    "Ra.Props.C38_refmin",
    "Ra.Props.C38_refmax",
    "Ra.Props.C38_empty"
   ],
   "note": ""
  },
  {
   "property": "C39",
   "status": "proved",
   "theorems": [
    "Ra.Props.C39_sum_fold",
    "Ra.Props.C39_prod_fold",
    "Ra.Props.C39_dot_fold",
    "Ra.Props.C39_sum",
    "Ra.Props.C39_prod",
    "Ra.Props.C39_dot",
    "Ra.Props.C39_cdot",
    "Ra.Props.C39_sqrm",
    "Ra.Props.C39_mismatch"
   ],
   "note": ""
  },
  {
   "property": "C40",
   "status": "proved",
   "theorems": [
    "Ra.Props.C40_pick",
    "Ra.Props.C40_pick_traversal",
    "Ra.Props.C40_where",
    "Ra.Props.C40_where_traversal",
    "Ra.Props.C40_bad"
   ],
   "note": ""
  },
  {
   "property": "C41",
   "status": "proved",
   "theorems": [
    "Ra.Props.C41_and",
    "Ra.Props.C41_or",
    "Ra.Props.C41_pure",
    "Ra.Props.C41_traversal"
   ],
   "note": ""
  },
  {
   "property": "C42",
   "status": "partial",
   "theorems": [
    "Ra.Props.C42_scalar",
    "Ra.Props.C42_iotas",
    "Ra.Props.C42_mismatch_partial",
    "Ra.Props.C42_negation",
    "Ra.Props.C42_mismatch_exact",
    "Ra.Props.C42_expression",
    "Ra.Props.C42_expression_fails"
   ],
   "note": "Mismatched lengths are not diagnosed when one or both of the lengths are static (B13, B14, C42_negation); C42_mismatch_exact says exactly what happens. Shape and elements are proved for all matching lengths, and for whole expressions of any depth (C42_expression)."
  },
  {
   "property": "C43",
   "status": "partial",
   "theorems": [
    "Ra.Props.C43_meaning",
    "Ra.Props.C43_tree",
    "Ra.Props.C43_arrays",
    "Ra.Props.C43_arrays_fails",
    "Ra.Props.C43_any_partial",
    "Ra.Props.C43_any_none",
    "Ra.Props.C43_any_count",
    "Ra.Props.C43_any_negation",
    "Ra.Props.C43_subscript",
    "Ra.Props.C43_value"
   ],
   "note": "False of the code for views of run time rank when all the subscripts are arrays (B34, C43_any_negation: a valid use is rejected). Proved for all other subscripts: C43_subscript and C43_meaning for scalars and iotas, C43_tree, C43_arrays and C43_any_partial for arrays. C43_any_none and C43_any_count say what happens in the remaining case when there's no ra::len, and when the number of subscripts is wrong."
  },
  {
   "property": "C44",
   "status": "proved",
   "theorems": [
    "Ra.Props.C44_binom",
    "Ra.Props.C44_machine",
    "Ra.Props.C44_limit"
   ],
   "note": ""
  },
  {
   "property": "C45",
   "status": "proved",
   "theorems": [
    "Ra.Props.C45_combs",
    "Ra.Props.C45_combs_none",
    "Ra.Props.C45_choose",
    "Ra.Props.C45_choose_sign",
    "Ra.Props.C45_choose_none"
   ],
   "note": ""
  },
  {
   "property": "C46",
   "status": "proved",
   "theorems": [
    "Ra.Props.C46_complement_list",
    "Ra.Props.C46_complement",
    "Ra.Props.C46_permsign",
    "Ra.Props.C46_sign_exists",
    "Ra.Props.C46_zero",
    "Ra.Props.C46_findcomb",
    "Ra.Props.C46_findcomb_none"
   ],
   "note": ""
  },
  {
   "property": "C47",
   "status": "proved",
   "theorems": [
    "Ra.Props.C47_wedge",
    "Ra.Props.C47_components_unique",
    "Ra.Props.C47_basis",
    "Ra.Props.C47_linear_left",
    "Ra.Props.C47_anticommutative",
    "Ra.Props.C47_linear_right",
    "Ra.Props.C47_associative",
    "Ra.Props.C47_cross2",
    "Ra.Props.C47_cross3",
    "Ra.Props.C47_scalars"
   ],
   "note": ""
  },
  {
   "property": "C48",
   "status": "proved",
   "theorems": [
    "Ra.Props.C48_hodgex",
    "Ra.Props.C48_hodge",
    "Ra.Props.C48_hodge1",
    "Ra.Props.C48_star",
    "Ra.Props.C48_twice"
   ],
   "note": ""
  },
  {
   "property": "C49",
   "status": "partial",
   "theorems": [
    "Ra.Props.C49_sums",
    "Ra.Props.C49_inv",
    "Ra.Props.C49_div",
    "Ra.Props.C49_fma",
    "Ra.Props.C49_pow_int",
    "Ra.Props.C49_real",
    "Ra.Props.C49_real_pos",
    "Ra.Props.C49_tan_exact",
    "Ra.Props.C49_tan_negation",
    "Ra.Props.C49_abs_exact",
    "Ra.Props.C49_abs_negation",
    "Ra.Props.C49_xi_real",
    "Ra.Props.C49_partial",
    "Ra.Props.C49_derivative_partial",
    "Ra.Props.C49_complex",
    "Ra.Props.C49_xi_complex",
    "Ra.Props.C49_complex_slit"
   ],
   "note": "False of the code for tan (B7): C49_tan_negation, and C49_tan_exact says exactly when tan is right. Also for abs (B46): C49_abs_negation, C49_abs_exact. Everything else is proved, over any normed field where there is algebra only and over both reals and complex numbers for the rest, one operation at a time and for any expression (C49_partial). There's no rounding."
  },
  {
   "property": "C50",
   "status": "proved",
   "theorems": [
    "Ra.Props.C50_static",
    "Ra.Props.C50_rank",
    "Ra.Props.C50_anyrank",
    "Ra.Props.C50_vector",
    "Ra.Props.C50_reject",
    "Ra.Props.C50_anyrank_reject",
    "Ra.Props.C50_bad_stream",
    "Ra.Props.C50_short_shape",
    "Ra.Props.C50_short_shape_anyrank",
    "Ra.Props.C50_short_elements"
   ],
   "note": "Static shape, static rank, dynamic rank and std::vector. The element type is a parameter that round trips; int_roundTrips shows it for integers, and is used for the lengths. Reading gives the shape and the elements in row-major order; that they go to those places is C10 and C56. C50_reject and C50_anyrank_reject are about negative lengths. C50_bad_stream, C50_short_shape, C50_short_shape_anyrank and C50_short_elements are about text that can't be read."
  },
  {
   "property": "C51",
   "status": "proved",
   "theorems": [
    "Ra.Props.C51_format",
    "Ra.Props.C51_values",
    "Ra.Props.C51_styles",
    "Ra.Props.C51_reject"
   ],
   "note": "Any style. The specification is render (structure), header and separator; for the predefined styles, the text is also given by itself in C51_styles."
  },
  {
   "property": "C52",
   "status": "partial",
   "theorems": [
    "Ra.Props.C52_exact",
    "Ra.Props.C52_partial",
    "Ra.Props.C52_negation",
    "Ra.Props.C52_meaning"
   ],
   "note": "False of the code (B9): C52_negation. C52_exact says exactly which strings make it read past the end; C52_partial is the rest. C52_meaning says what each specification does."
  },
  {
   "property": "C53",
   "status": "proved",
   "theorems": [
    "Ra.Props.C53_counters",
    "Ra.Props.C53_once",
    "Ra.Props.C53_summary",
    "Ra.Props.C53_reports",
    "Ra.Props.C53_compare",
    "Ra.Props.C53_compare_mismatch"
   ],
   "note": "Histories of calls on one TestRecorder. C53_compare and C53_compare_mismatch give the outcome of test_eq etc. on expressions. What info is printed is not modelled."
  },
  {
   "property": "C54",
   "status": "partial",
   "theorems": [
    "Ra.Props.C54_upper",
    "Ra.Props.C54_partial",
    "Ra.Props.C54_one_negation",
    "Ra.Props.C54_even_negation"
   ],
   "note": "False of the code (B10): C54_one_negation and C54_even_negation. C54_partial is the part that holds, C54_upper is what the code does for two or more samples. nth_element is a parameter with its specification."
  },
  {
   "property": "C55",
   "status": "proved",
   "theorems": [
    "Ra.Props.C55_view",
    "Ra.Props.C55_view_reject",
    "Ra.Props.C55_array",
    "Ra.Props.C55_array_reject",
    "Ra.Props.C55_pointer"
   ],
   "note": "Views of any layout (C55_view) and arrays. A failed constructor leaves the memory as it was."
  },
  {
   "property": "C56",
   "status": "proved",
   "theorems": [
    "Ra.Props.C56_shape",
    "Ra.Props.C56_big",
    "Ra.Props.C56_big_reject",
    "Ra.Props.C56_small",
    "Ra.Props.C56_value",
    "Ra.Props.C56_mismatch",
    "Ra.Props.C56_interrupted",
    "Ra.Props.C56_big_interrupted"
   ],
   "note": "concrete for run time sizes (C56_big), static sizes (C56_small) and rank 0 (C56_value). C56_mismatch, C56_interrupted and C56_big_interrupted are about constructions that fail: nothing is lost."
  },
  {
   "property": "C57",
   "status": "partial",
   "theorems": [
    "Ra.Props.C57_negation",
    "Ra.Props.C57_partial"
   ],
   "note": "Contrary to the manual, subscripts on a moving unbounded axis are rejected (B12, C57_negation); C57_partial is the part that holds."
  },
  {
   "property": "C58",
   "status": "proved",
   "theorems": [
    "Ra.Props.C58_dims",
    "Ra.Props.C58_onto",
    "Ra.Props.C58_negative"
   ],
   "note": ""
  },
  {
   "property": "C59",
   "status": "partial",
   "theorems": [
    "Ra.Props.C59_expr_partial",
    "Ra.Props.C59_pick_negation",
    "Ra.Props.C59_frame_negation",
    "Ra.Props.C59_reject",
    "Ra.Props.C59_at_traversal"
   ],
   "note": "C59_at_traversal is for any expression, C59_reject for views. For expressions C59_expr_partial is for those made with map. False of the code for pick, where only the selected argument checks the index (B41, C59_pick_negation), and for an index that's too short for a reframed argument (B42, C59_frame_negation)."
  },
  {
   "property": "C60",
   "status": "proved",
   "theorems": [
    "Ra.Props.C60_axis",
    "Ra.Props.C60_reject",
    "Ra.Props.C60_len",
    "Ra.Props.C60_array"
   ],
   "note": ""
  },
  {
   "property": "C61",
   "status": "proved",
   "theorems": [
    "Ra.Props.C61_static",
    "Ra.Props.C61_expr_size",
    "Ra.Props.C61_expr_unbounded",
    "Ra.Props.C61_size",
    "Ra.Props.C61_unbounded",
    "Ra.Props.C61_empty"
   ],
   "note": ""
  },
  {
   "property": "C62",
   "status": "partial",
   "theorems": [
    "Ra.Props.C62_moved_to",
    "Ra.Props.C62_moved_from_partial"
   ],
   "note": "False of the code (B24). C62_moved_from_partial says exactly when the array that was moved from is a container (static rank and empty). C62_moved_to is the part about the new array."
  },
  {
   "property": "C63",
   "status": "proved",
   "theorems": [
    "Ra.Props.C63_scalar",
    "Ra.Props.C63_reject"
   ],
   "note": ""
  },
  {
   "property": "C64",
   "status": "proved",
   "theorems": [
    "Ra.Props.C64_assign",
    "Ra.Props.C64_update"
   ],
   "note": ""
  },
  {
   "property": "C65",
   "status": "partial",
   "theorems": [
    "Ra.Props.C65_partial",
    "Ra.Props.C65_exception_negation",
    "Ra.Props.C65_nested_negation"
   ],
   "note": "False of the code (B1, B18): the thread_local counters of ply_ravel are part of the state. C65_exception_negation (a traversal after an exception visits one row only) and C65_nested_negation (a traversal inside of another of the same type leads the outer one outside of the array) prove it; C65_partial is the part that holds: counters as left by completed traversals, elements that don't use them."
  },
  {
   "property": "C66",
   "status": "proved",
   "theorems": [
    "Ra.Props.C66_threads",
    "Ra.Props.C66_assign",
    "Ra.Props.C66_update"
   ],
   "note": "C66_threads is for any programs of element reads and writes, at any point of any schedule; C66_assign and C66_update are for assignments in each thread. Accesses are atomic and interleaved (sound for programs without data races, which the hypothesis makes them)."
  },
  {
   "property": "C67",
   "status": "partial",
   "theorems": [
    "Ra.Props.C67_dims",
    "Ra.Props.C67_size",
    "Ra.Props.C67_partial",
    "Ra.Props.C67_negation",
    "Ra.Props.C67_index"
   ],
   "note": "C67_dims and C67_size are exact (which shapes overflow). False for some empty shapes (B25, C67_negation); C67_partial is for shapes without zeros. C67_index is for finding elements, complete for non empty views."
  },
  {
   "property": "C68",
   "status": "partial",
   "theorems": [
    "Ra.Props.C68_partial",
    "Ra.Props.C68_array",
    "Ra.Props.C68_node",
    "Ra.Props.C68_reverse_negation",
    "Ra.Props.C68_column_negation",
    "Ra.Props.C68_fixed_exact",
    "Ra.Props.C68_ravel_exact",
    "Ra.Props.C68_prefix",
    "Ra.Props.C68_nodes"
   ],
   "note": "False of the code (B26): C68_reverse_negation and C68_column_negation, for both ply_ravel and ply_fixed. C68_partial is for arguments with room for one step past the end of each axis, C68_array shows that whole arrays have it, C68_node that operations keep it. C68_fixed_exact and C68_ravel_exact say exactly when each traversal is defined."
  },
  {
   "property": "C69",
   "status": "partial",
   "theorems": [
    "Ra.Props.C69_partial",
    "Ra.Props.C69_too_many_arrays",
    "Ra.Props.C69_negation",
    "Ra.Props.C69_limit"
   ],
   "note": "False of the code when there are more subscripts than axes (B27, C69_negation). C69_partial is exact when there aren't; C69_too_many_arrays is for array subscripts only; C69_limit shows a valid use that fails the check."
  },
  {
   "property": "C70",
   "status": "proved",
   "theorems": [
    "Ra.Props.C70_index",
    "Ra.Props.C70_map",
    "Ra.Props.C70_for_each",
    "Ra.Props.C70_select"
   ],
   "note": ""
  },
  {
   "property": "C71",
   "status": "partial",
   "theorems": [
    "Ra.Props.C71_error",
    "Ra.Props.C71_rel_partial",
    "Ra.Props.C71_abs_partial",
    "Ra.Props.C71_nan",
    "Ra.Props.C71_empty"
   ],
   "note": "False of the code for empty arguments (B28, C71_empty). C71_abs_partial and C71_rel_partial are exact for the rest, for any rounding of the difference and any relative error that isn't negative. C71_error gives the error that's returned."
  },
  {
   "property": "C72",
   "status": "partial",
   "theorems": [
    "Ra.Props.C72_partial",
    "Ra.Props.C72_array_partial",
    "Ra.Props.C72_negation",
    "Ra.Props.C72_empty_negation"
   ],
   "note": "False of the code through defects of reshape and others (B2, B3, B5, B6, B19, B29): C72_negation is a sequence of operations on an array that passes all the checks and ends outside of it, C72_empty_negation is for empty arrays. C72_partial is for sequences of any length where each operation isn't one of those cases (Covered)."
  },
  {
   "property": "C73",
   "status": "partial",
   "theorems": [
    "Ra.Props.C73_partial",
    "Ra.Props.C73_array_partial",
    "Ra.Props.C73_assign_partial",
    "Ra.Props.C73_negation"
   ],
   "note": "False of the code through the same defects (C73_negation). C73_partial is for sequences of any length without them; C73_assign_partial is the consequence for assignment."
  },
  {
   "property": "C74",
   "status": "proved",
   "theorems": [
    "Ra.Props.C74_shape",
    "Ra.Props.C74_check",
    "Ra.Props.C74_assoc"
   ],
   "note": ""
  },
  {
   "property": "C75",
   "status": "proved",
   "theorems": [
    "Ra.Props.C75_values",
    "Ra.Props.C75_fails",
    "Ra.Props.C75_elementwise"
   ],
   "note": ""
  },
  {
   "property": "C76",
   "status": "partial",
   "theorems": [
    "Ra.Props.C76_view",
    "Ra.Props.C76_container",
    "Ra.Props.C76_back",
    "Ra.Props.C76_as",
    "Ra.Props.C76_borrow",
    "Ra.Props.C76_borrow_partial",
    "Ra.Props.C76_borrow_rank1",
    "Ra.Props.C76_borrow_negation",
    "Ra.Props.C76_back_negation"
   ],
   "note": "False of the code for borrowed arrays with steps that aren't row-major (C76_borrow_negation) and for back() of run time rank 0 (C76_back_negation). C76_view, C76_container, C76_back and C76_as are complete; C76_borrow_partial is for row-major steps."
  },
  {
   "property": "C77",
   "status": "partial",
   "theorems": [
    "Ra.Props.C77_values_partial",
    "Ra.Props.C77_assign_partial",
    "Ra.Props.C77_same_partial",
    "Ra.Props.C77_negation",
    "Ra.Props.C77_align_negation"
   ],
   "note": "False of the code: the optimization evaluates the operation at once (C77_negation) and through pointers that may not be aligned (C77_align_negation). Proved for aligned vectors and for destinations that don't overlap them except at the same index."
  },
  {
   "property": "C78",
   "status": "proved",
   "theorems": [
    "Ra.Props.C78_views"
   ],
   "note": ""
  },
  {
   "property": "C79",
   "status": "proved",
   "theorems": [
    "Ra.Props.C79_values",
    "Ra.Props.C79_runs",
    "Ra.Props.C79_defined",
    "Ra.Props.C79_fails",
    "Ra.Props.C79_elementwise",
    "Ra.Props.C79_unique"
   ],
   "note": "Operations where both arguments have a rank that's known to be 0 when compiling are done once, before the rest: see C87."
  },
  {
   "property": "C80",
   "status": "proved",
   "theorems": [
    "Ra.Props.C80_sharing",
    "Ra.Props.C80_no_leak",
    "Ra.Props.C80_set",
    "Ra.Props.C80_alias"
   ],
   "note": "C80_sharing relates any history to one where variables are references to objects that last forever, and says which memory is in use; C80_no_leak for when all the arrays are gone, C80_set for assignments that fail, C80_alias for what sharing means. Threads aren't covered: operations are done one after the other."
  },
  {
   "property": "C81",
   "status": "partial",
   "theorems": [
    "Ra.Props.C81_partial",
    "Ra.Props.C81_copy",
    "Ra.Props.C81_negation",
    "Ra.Props.C81_full_partial",
    "Ra.Props.C81_full_unique",
    "Ra.Props.C81_views_partial"
   ],
   "note": "False of the code when resize (B8) or the copy of an array (B35) fail: C81_negation, C81_copy. C81_partial covers programs where everything else fails. C81_views_partial is the same for programs with assignments between views (C79); there the operations that succeed have to be among those that the specification considers, and an operation on views that fails, fails before any element is written. C81_full_partial is for programs with any expressions (C92): an assignment may also fail on the way, and then the elements before have been assigned; it has the effect on values of the whole program (there's only one, C81_full_unique), provided that the expressions are among those that the specification considers."
  },
  {
   "property": "C82",
   "status": "partial",
   "theorems": [
    "Ra.Props.C82_products",
    "Ra.Props.C82_norms",
    "Ra.Props.C82_real",
    "Ra.Props.C82_arg_partial",
    "Ra.Props.C82_arg_negation",
    "Ra.Props.C82_rel_error",
    "Ra.Props.C82_classify",
    "Ra.Props.C82_odd",
    "Ra.Props.C82_parts_read",
    "Ra.Props.C82_parts_assign_real",
    "Ra.Props.C82_parts_assign_imag"
   ],
   "note": "False of the code for arg of negative real numbers, C82_arg_negation (B37). The others are proved in exact arithmetic."
  },
  {
   "property": "C83",
   "status": "proved",
   "theorems": [
    "Ra.Props.C83_cat"
   ],
   "note": ""
  },
  {
   "property": "C84",
   "status": "partial",
   "theorems": [
    "Ra.Props.C84_schedule",
    "Ra.Props.C84_calls",
    "Ra.Props.C84_partial",
    "Ra.Props.C84_mad_negation",
    "Ra.Props.C84_one_negation",
    "Ra.Props.C84_lapse",
    "Ra.Props.C84_lapse_negation",
    "Ra.Props.C84_options"
   ],
   "note": "C84_schedule says which calls are made, in what order, and which times are used. C84_partial: the median is right for odd numbers of runs other than one. False of the code: one run, the default, is undefined behaviour (C84_one_negation); the deviation is always zero (C84_mad_negation, B36); a longer run can give a shorter time (C84_lapse_negation, B38)."
  },
  {
   "property": "C85",
   "status": "proved",
   "theorems": [
    "Ra.Props.C85_range",
    "Ra.Props.C85_builtin",
    "Ra.Props.C85_shape",
    "Ra.Props.C85_ptr",
    "Ra.Props.C85_unbounded",
    "Ra.Props.C85_limits",
    "Ra.Props.C85_assign"
   ],
   "note": "C85_limits is for both traversals and any functions; the memory of a built-in array is as in the C++ standard (Spec.layout)."
  },
  {
   "property": "C86",
   "status": "proved",
   "theorems": [
    "Ra.Props.C86_exclusive",
    "Ra.Props.C86_chosen",
    "Ra.Props.C86_order",
    "Ra.Props.C86_where",
    "Ra.Props.C86_foreign",
    "Ra.Props.C86_type",
    "Ra.Props.C86_mixed",
    "Ra.Props.C86_value",
    "Ra.Props.C86_scalar"
   ],
   "note": "C86_chosen, C86_exclusive, C86_order, C86_where: exactly one overload. C86_type: the type of nested operators. C86_value, C86_scalar: early evaluation gives the same elements. C86_foreign: what has no overload."
  },
  {
   "property": "C87",
   "status": "proved",
   "theorems": [
    "Ra.Props.C87_values",
    "Ra.Props.C87_runs",
    "Ra.Props.C87_later",
    "Ra.Props.C87_now",
    "Ra.Props.C87_dangling"
   ],
   "note": "C87_values: the arrays have the values that the specification gives, for any program. C87_runs: what has an effect doesn't fail. C87_later: a kept expression does the same as its text. C87_now: the text has the elements that the expression has when it's made. C87_dangling: exactly when using it is undefined behavior. egResized and egSwapped are programs where it is."
  },
  {
   "property": "C88",
   "status": "partial",
   "theorems": [
    "Ra.Props.C88_types",
    "Ra.Props.C88_moves",
    "Ra.Props.C88_scalar",
    "Ra.Props.C88_iotas",
    "Ra.Props.C88_traversal",
    "Ra.Props.C88_traversal_negation",
    "Ra.Props.C88_wrapped",
    "Ra.Props.C88_wrapped_negation",
    "Ra.Props.C88_values"
   ],
   "note": "False of the code in two ways: the traversal of a signed iota whose last element is the largest of its type overflows (B39, C88_traversal_negation; C88_traversal says exactly when), and the optimized operations don't wrap as the elementwise ones (B40, C88_wrapped_negation; C88_wrapped says exactly when, for the sum). C88_scalar and C88_iotas are for elements that are values of the type of the iota. C88_moves: moving a Seq. C88_types: the type of the results."
  },
  {
   "property": "C89",
   "status": "proved",
   "theorems": [
    "Ra.Props.C89_agree_op",
    "Ra.Props.C89_map"
   ],
   "note": ""
  },
  {
   "property": "C90",
   "status": "proved",
   "theorems": [
    "Ra.Props.C90_gather",
    "Ra.Props.C90_scatter",
    "Ra.Props.C90_update"
   ],
   "note": "For the assignments neither the indices nor the right hand side depend on the elements of the view that's assigned to (C12 is about that). C90_gather is for any expression when the index is in range, and for views when it isn't; for other expressions see C59."
  },
  {
   "property": "C91",
   "status": "partial",
   "theorems": [
    "Ra.Props.C91_dual",
    "Ra.Props.C91_text_partial",
    "Ra.Props.C91_end",
    "Ra.Props.C91_as_C50",
    "Ra.Props.C91_arrays",
    "Ra.Props.C91_short_array",
    "Ra.Props.C91_text_negation"
   ],
   "note": "False of the code at the end of the text, and for a stream that isn't good: >> depends on a variable that isn't initialized (B43; C91_text_negation, C91_end, and C91_short_array for arrays). C91_text_partial is the exact outcome for any other text. C91_dual and C91_arrays have the round trip, for which int_roundTripsIn has an instance. C91_as_C50: arrays of other types are as in C50."
  },
  {
   "property": "C92",
   "status": "proved",
   "theorems": [
    "Ra.Props.C92_defined",
    "Ra.Props.C92_values",
    "Ra.Props.C92_runs",
    "Ra.Props.C92_either",
    "Ra.Props.C92_fails",
    "Ra.Props.C92_make",
    "Ra.Props.C92_make_fails",
    "Ra.Props.C92_unique",
    "Ra.Props.C92_elementwise"
   ],
   "note": "The selectors and operations are functions of values: they don't keep state, and have no side effects other than failing. Operations where all the arguments have a rank that's known to be 0 when compiling are done once, before the rest: see C87. C92_defined: if a program runs, then the program on values is defined, so that the premise of C92_values holds for any program whose expressions are among those that the specification considers (FExp.Good: views as in C78, cell ranks that aren't larger than the ranks). See C81 for programs that go on after a failure."
  },
  {
   "property": "C93",
   "status": "partial",
   "theorems": [
    "Ra.Props.C93_hodgex_partial",
    "Ra.Props.C93_array",
    "Ra.Props.C93_wedge",
    "Ra.Props.C93_star_unique",
    "Ra.Props.C93_view_partial",
    "Ra.Props.C93_view_negation",
    "Ra.Props.C93_cast_negation"
   ],
   "note": "Full for wedge, for hodgex on vectors that are apart, and for hodge in place on an array. False for views: in place when 2*O is D the elements are overwritten before they are read (C93_view_negation, B44), and the cast of the sign is undefined behaviour for a view of elements that aren't const or int (C93_cast_negation, B45)."
  },
  {
   "property": "C94",
   "status": "proved",
   "theorems": [
    "Ra.Props.C94_append",
    "Ra.Props.C94_cons",
    "Ra.Props.C94_iota",
    "Ra.Props.C94_makelist",
    "Ra.Props.C94_drop",
    "Ra.Props.C94_take",
    "Ra.Props.C94_ref",
    "Ra.Props.C94_ref_path",
    "Ra.Props.C94_get",
    "Ra.Props.C94_indexif",
    "Ra.Props.C94_index",
    "Ra.Props.C94_apply",
    "Ra.Props.C94_tuple",
    "Ra.Props.C94_map",
    "Ra.Props.C94_map_one",
    "Ra.Props.C94_reverse",
    "Ra.Props.C94_filter"
   ],
   "note": "All the operations of base.hh:77-147. A program that does not compile is `none`. The limits of the compiler and overflow of int in mp::iota are not modelled."
  },
  {
   "property": "C95",
   "status": "proved",
   "theorems": [
    "Ra.Props.C95_at_view",
    "Ra.Props.C95_cells",
    "Ra.Props.C95_all",
    "Ra.Props.C95_reverse",
    "Ra.Props.C95_outer",
    "Ra.Props.C95_repeats",
    "Ra.Props.C95_map_view",
    "Ra.Props.C95_sparse",
    "Ra.Props.C95_scalar",
    "Ra.Props.C95_gemm",
    "Ra.Props.C95_rows_verb",
    "Ra.Props.C95_rows_cells",
    "Ra.Props.C95_rows",
    "Ra.Props.C95_rows_transpose",
    "Ra.Props.C95_diagonals"
   ],
   "note": "Each equivalence that the manual gives, as equality of views, of elements, or of actions on memory. `a(i)` isn't allowed on an unbounded axis that isn't constant while `at_view` is, so those are excluded; and reverse and the slice with iota have different pointers when the axis is empty (C95_reverse)."
  },
  {
   "property": "C96",
   "status": "proved",
   "theorems": [
    "Ra.Props.C96_program",
    "Ra.Props.C96_views",
    "Ra.Props.C96_cells",
    "Ra.Props.C96_shape",
    "Ra.Props.C96_dims",
    "Ra.Props.C96_traversal",
    "Ra.Props.C96_range",
    "Ra.Props.C96_scalar",
    "Ra.Props.C96_list",
    "Ra.Props.C96_silent"
   ],
   "note": "The functions without checks are in Model/NoCheck.lean. The programs are those of C92. C96_traversal is for traversals of any expression, with any effect. C96_silent shows that without checks a program that doesn't meet them goes on."
  },
  {
   "property": "C97",
   "status": "proved",
   "theorems": [
    "Ra.Props.C97_compiles",
    "Ra.Props.C97_bindings",
    "Ra.Props.C97_vector"
   ],
   "note": "The names are addresses. Bindings of type lists are C94."
  },
  {
   "property": "C98",
   "status": "partial",
   "theorems": [
    "Ra.Props.C98_views",
    "Ra.Props.C98_safe_partial",
    "Ra.Props.C98_caught_partial",
    "Ra.Props.C98_negation",
    "Ra.Props.C98_ops",
    "Ra.Props.C98_inside_partial",
    "Ra.Props.C98_inside_caught_partial"
   ],
   "note": "Holds for programs whose views are allowed or fail in one of the ways that are checked (FExp.Known), with the values of the result (C98_safe_partial). C98_inside_partial is for more views, such as slices with unbounded axes and reshape or ravel_free of views that aren't whole (FExp.Safe), and says nothing about the values. For other views it's false: reverse of an axis out of range (B15), transpose with a negative axis (B16). Resizes and copies that fail and are caught are excluded from the versions that go on after failures (C32)."
  },
  {
   "property": "C99",
   "status": "proved",
   "theorems": [
    "Ra.Props.C99_nested",
    "Ra.Props.C99_sequence",
    "Ra.Props.C99_print",
    "Ra.Props.C99_apart"
   ],
   "note": "C99_nested, C99_sequence, C99_print. White space between the things printed is necessary (C99_apart). Extends C50."
  },
  {
   "property": "C100",
   "status": "partial",
   "theorems": [
    "Ra.Props.C100_slice_partial",
    "Ra.Props.C100_partial",
    "Ra.Props.C100_chain_partial",
    "Ra.Props.C100_slice31_partial",
    "Ra.Props.C100_array_partial",
    "Ra.Props.C100_negation"
   ],
   "note": "Proved for views without empty or unbounded axes, if the numbers that are computed can be represented (OpSmall): for slices, steps and ranges up to 2^31 are enough. Otherwise it's false: empty ranges and empty arrays (B47), overflow before or in a check (B48)."
  },
  {
   "property": "C101",
   "status": "partial",
   "theorems": [
    "Ra.Props.C101_partial",
    "Ra.Props.C101_empty_partial",
    "Ra.Props.C101_negation"
   ],
   "note": "Proved where the pointers stay in their arrays (C68) and either there are elements, and their number can be represented, or the lengths of the last axes together can be represented. Otherwise it's false: views without elements but with long axes (B49)."
  },
  {
   "property": "C102",
   "status": "partial",
   "theorems": [
    "Ra.Props.C102_partial",
    "Ra.Props.C102_negation",
    "Ra.Props.C102_big",
    "Ra.Props.C102_view",
    "Ra.Props.C102_write"
   ],
   "note": "Proved for Big and Small and for arrays of const elements. False for Unique and Shared (B50): data() of a const array gives a pointer to elements that aren't const, and so do subscripts, iterators and views made from it."
  },
  {
   "property": "C103",
   "status": "partial",
   "theorems": [
    "Ra.Props.C103_same_partial",
    "Ra.Props.C103_partial",
    "Ra.Props.C103_negation",
    "Ra.Props.C103_empty_negation"
   ],
   "note": "Proved for all programs where arrays that aren't given a shape have one axis at most. False otherwise (B51). That the number of elements can be represented isn't enough (C103_empty_negation, as in C67)."
  },
  {
   "property": "C104",
   "status": "proved",
   "theorems": [
    "Ra.Props.C104_races",
    "Ra.Props.C104_reads",
    "Ra.Props.C104_writes",
    "Ra.Props.C104_threads",
    "Ra.Props.C104_shared",
    "Ra.Props.C104_ends"
   ],
   "note": "C104_threads, C104_races, C104_shared and C104_ends; C104_reads and C104_writes say what a read and a write are for C104_races. Each access to an element is a step, as is each operation of a container, other than the assignment of its elements. The steps are interleaved; that C++ programs without data races behave so is part of the C++ memory model and isn't proved. The operations on views are of the kinds of C98."
  },
  {
   "property": "C105",
   "status": "partial",
   "theorems": [
    "Ra.Props.C105_create",
    "Ra.Props.C105_view",
    "Ra.Props.C105_resize",
    "Ra.Props.C105_reject",
    "Ra.Props.C105_mismatch_partial",
    "Ra.Props.C105_unchecked",
    "Ra.Props.C105_self_partial",
    "Ra.Props.C105_index",
    "Ra.Props.C105_index_reject",
    "Ra.Props.C105_index_mismatch_partial",
    "Ra.Props.C105_shape_negation",
    "Ra.Props.C105_index_negation",
    "Ra.Props.C105_alias_negation"
   ],
   "note": "C105_create, C105_view, C105_resize, C105_reject, C105_index and C105_index_reject are for all the expressions with a shape whose elements don't depend on the array that's resized. Missing: arguments that don't match aren't refused when the number of elements is in the type (C105_shape_negation, C105_index_negation), (C105_unchecked says what happens), and a shape that depends on the lengths of the array itself is read as they are replaced (C105_alias_negation; C105_self_partial says when that's harmless)."
  },
  {
   "property": "C106",
   "status": "proved",
   "theorems": [
    "Ra.Props.C106_dims",
    "Ra.Props.C106_misfit",
    "Ra.Props.C106_reject",
    "Ra.Props.C106_convert",
    "Ra.Props.C106_unchecked",
    "Ra.Props.C106_unbounded",
    "Ra.Props.C106_rank_negation",
    "Ra.Props.C106_unchecked_negation"
   ],
   "note": "C106_dims, C106_misfit, C106_reject, C106_unbounded and C106_convert. C106_rank_negation shows that the rank of the dims isn't checked as such: a matrix with one column is taken as a list. C106_unchecked and C106_unchecked_negation are for RA_CHECK=0."
  },
  {
   "property": "C107",
   "status": "proved",
   "theorems": [
    "Ra.Props.C107_gemm",
    "Ra.Props.C107_block",
    "Ra.Props.C107_dots",
    "Ra.Props.C107_block_mismatch",
    "Ra.Props.C107_raw",
    "Ra.Props.C107_verb",
    "Ra.Props.C107_verbs",
    "Ra.Props.C107_outer",
    "Ra.Props.C107_insert"
   ],
   "note": "C107_gemm, C107_block, C107_raw, C107_verb (gemm1), C107_verbs (gemm2), C107_dots (gemm3), C107_outer (gemm4) and C107_insert (gemm5, gemm6). C107_block_mismatch shows that gemm_block ignores rows of b where gemm fails the check."
  },
  {
   "property": "C108",
   "status": "proved",
   "theorems": [
    "Ra.Props.C108_step",
    "Ra.Props.C108_steps",
    "Ra.Props.C108_same",
    "Ra.Props.C108_short",
    "Ra.Props.C108_prods",
    "Ra.Props.C108_verb",
    "Ra.Props.C108_sums"
   ],
   "note": "C108_step for one step, C108_steps for any number of them, C108_same for any two of the programs. C108_sums, C108_prods and C108_verb are about any window and mask. C108_short shows that with fewer than two elements on an axis the slices fail a check and the loop doesn't."
  },
  {
   "property": "C109",
   "status": "proved",
   "theorems": [
    "Ra.Props.C109_residual",
    "Ra.Props.C109_ends",
    "Ra.Props.C109_exact",
    "Ra.Props.C109_eigen",
    "Ra.Props.C109_definite",
    "Ra.Props.C109_stiff",
    "Ra.Props.C109_mass",
    "Ra.Props.C109_laplace"
   ],
   "note": "C109_residual, C109_ends and C109_exact are for any matrix; C109_eigen is the bound on the iterations by the number of eigenvectors in the first residual; C109_stiff and C109_mass are the products in laplace2d.cc, C109_definite says that the first matrix is symmetric and positive, and C109_laplace is the program. The elements are those of an ordered field: with rounding none of this has to be so."
  },
  {
   "property": "C110",
   "status": "proved",
   "theorems": [
    "Ra.Props.C110_gemv",
    "Ra.Props.C110_gevm",
    "Ra.Props.C110_raw",
    "Ra.Props.C110_sideways",
    "Ra.Props.C110_match",
    "Ra.Props.C110_verb",
    "Ra.Props.C110_verbs",
    "Ra.Props.C110_rows",
    "Ra.Props.C110_scalar",
    "Ra.Props.C110_iter",
    "Ra.Props.C110_transpose",
    "Ra.Props.C110_accum",
    "Ra.Props.C110_sums",
    "Ra.Props.C110_order"
   ],
   "note": "The sums by rows are C110_raw, C110_sideways, C110_match, C110_verb and C110_accum, and the sums by columns C110_raw, C110_verbs, C110_rows, C110_scalar, C110_iter, C110_transpose and C110_sums. C110_accum and C110_sums are for monoids, and C110_order shows that without associativity they don't hold. C110_gemv and C110_gevm have no laws on + and *."
  },
  {
   "property": "C111",
   "status": "proved",
   "theorems": [
    "Ra.Props.C111_select",
    "Ra.Props.C111_assign",
    "Ra.Props.C111_update",
    "Ra.Props.C111_distinct",
    "Ra.Props.C111_gather",
    "Ra.Props.C111_count",
    "Ra.Props.C111_ways",
    "Ra.Props.C111_square"
   ],
   "note": "The places are stated with outerShape and outerIndex as in C15. C111_assign and C111_update are for any places, C111_distinct, C111_count and C111_gather follow from them for places that are in the array. C111_ways and C111_square are the variants of bench-from.cc."
  },
  {
   "property": "C112",
   "status": "proved",
   "theorems": [
    "Ra.Props.C112_diff",
    "Ra.Props.C112_field",
    "Ra.Props.C112_antisymmetric",
    "Ra.Props.C112_divergence",
    "Ra.Props.C112_step",
    "Ra.Props.C112_loop",
    "Ra.Props.C112_next",
    "Ra.Props.C112_prev",
    "Ra.Props.C112_empty"
   ],
   "note": "C112_next, C112_prev and C112_empty are the shifts. C112_step and C112_loop are the loop on time, C112_diff is diff, C112_field, C112_antisymmetric and C112_divergence are the lines after it. The operations of the numbers aren't assumed to have any laws, except in C112_antisymmetric; the theorems give the order in which they are applied."
  },
  {
   "property": "C113",
   "status": "proved",
   "theorems": [
    "Ra.Props.C113_step",
    "Ra.Props.C113_loop",
    "Ra.Props.C113_momentum",
    "Ra.Props.C113_centre"
   ],
   "note": "C113_step is the body of the loop and C113_loop is the loop; the operations of the numbers aren't assumed to have any laws there. C113_momentum and C113_centre are for any field. draw isn't modelled."
  },
  {
   "property": "C114",
   "status": "proved",
   "theorems": [
    "Ra.Props.C114_cells",
    "Ra.Props.C114_put",
    "Ra.Props.C114_distinct"
   ],
   "note": "For lists with more indices than the rank of a see C26 (C26_at_view_negation)."
  },
  {
   "property": "C115",
   "status": "proved",
   "theorems": [
    "Ra.Props.C115_elem",
    "Ra.Props.C115_pack",
    "Ra.Props.C115_unpack",
    "Ra.Props.C115_round",
    "Ra.Props.C115_gather",
    "Ra.Props.C115_ways"
   ],
   "note": "The parts of a tuple are all of the same type in the model. Arithmetic in C115_ways is that of any ring. C42 is about the optimization of size-iota(size)."
  },
  {
   "property": "C116",
   "status": "proved",
   "theorems": [
    "Ra.Props.C116_mult0",
    "Ra.Props.C116_mult1",
    "Ra.Props.C116_matrix",
    "Ra.Props.C116_cube",
    "Ra.Props.C116_tables",
    "Ra.Props.C116_definite",
    "Ra.Props.C116_elements",
    "Ra.Props.C116_bounds",
    "Ra.Props.C116_set",
    "Ra.Props.C116_solves0",
    "Ra.Props.C116_solves1"
   ],
   "note": "Arithmetic is that of any ordered field. The tables of integers are functions in the products (C116_set gives the conditions for them). The coordinates of the vertices, cos, and the error against the exact solution aren't modelled. mult1 and mult0 take w apart from v, the element matrix and the temporaries, as in the example."
  },
  {
   "property": "C117",
   "status": "proved",
   "theorems": [
    "Ra.Props.C117_map",
    "Ra.Props.C117_maps",
    "Ra.Props.C117_verb",
    "Ra.Props.C117_verbs",
    "Ra.Props.C117_loops",
    "Ra.Props.C117_raw",
    "Ra.Props.C117_sum",
    "Ra.Props.C117_total",
    "Ra.Props.C117_subscripts",
    "Ra.Props.C117_at",
    "Ra.Props.C117_atSum"
   ],
   "note": "The addition is without rounding or fma. The variable of the loops is a place in memory that isn't in the arrays. C117_total: with an associative + the total is the sum of the list of terms."
  },
  {
   "property": "C118",
   "status": "proved",
   "theorems": [
    "Ra.Props.C118_range",
    "Ra.Props.C118_container",
    "Ra.Props.C118_index",
    "Ra.Props.C118_ways",
    "Ra.Props.C118_ravel",
    "Ra.Props.C118_counted",
    "Ra.Props.C118_total",
    "Ra.Props.C118_zeros"
   ],
   "note": "The counter and the elements don't overflow or round."
  },
  {
   "property": "C119",
   "status": "proved",
   "theorems": [
    "Ra.Props.C119_points_same",
    "Ra.Props.C119_strips_same",
    "Ra.Props.C119_points",
    "Ra.Props.C119_strips",
    "Ra.Props.C119_circle",
    "Ra.Props.C119_circle_even",
    "Ra.Props.C119_disc"
   ],
   "note": "The radius is rational and the distance in the loop is exact. C119_circle_even has a side and a radius where the strips aren't the disc; the example has an odd side."
  },
  {
   "property": "C120",
   "status": "proved",
   "theorems": [
    "Ra.Props.C120_sample",
    "Ra.Props.C120_difference",
    "Ra.Props.C120_few",
    "Ra.Props.C120_quartic",
    "Ra.Props.C120_error",
    "Ra.Props.C120_cosine"
   ],
   "note": "The elements are those of a field, or real numbers: rounding isn't modelled. The functions made with several maps are given as one."
  },
  {
   "property": "C121",
   "status": "proved",
   "theorems": [
    "Ra.Props.C121_pick",
    "Ra.Props.C121_bad",
    "Ra.Props.C121_update",
    "Ra.Props.C121_where",
    "Ra.Props.C121_mask",
    "Ra.Props.C121_disc",
    "Ra.Props.C121_strips"
   ],
   "note": "The alternatives that are assigned to have the shape of the whole expression. The elements, the condition and the numbers of the disc have the same type, without rounding."
  },
  {
   "property": "C122",
   "status": "proved",
   "theorems": [
    "Ra.Props.C122_order",
    "Ra.Props.C122_loops",
    "Ra.Props.C122_each"
   ],
   "note": "The lengths agree. If they don't, the loop goes by the lengths of c, so it may do something when the whole assignment fails; see the example. The optimized way in the benchmark, with opt(), makes the values of the cell before it assigns them, see C77."
  },
  {
   "property": "C123",
   "status": "proved",
   "theorems": [
    "Ra.Props.C123_update",
    "Ra.Props.C123_cells",
    "Ra.Props.C123_same",
    "Ra.Props.C123_elements",
    "Ra.Props.C123_none",
    "Ra.Props.C123_not"
   ],
   "note": "The comment on examples/read-me.cc:102 says that the four ways are equivalent. This is true of three (C123_same) and false of the one on line 104 (C123_elements, C123_none, C123_not); see B57."
  },
  {
   "property": "C124",
   "status": "proved",
   "theorems": [
    "Ra.Props.C124_steps",
    "Ra.Props.C124_dots",
    "Ra.Props.C124_nothing",
    "Ra.Props.C124_trailing",
    "Ra.Props.C124_whole",
    "Ra.Props.C124_one",
    "Ra.Props.C124_ranges",
    "Ra.Props.C124_reverse",
    "Ra.Props.C124_fill"
   ],
   "note": "dots<> is dots<n> for the axes that are left, and subscripts that are left out are dots<>, by C13_dots and C13_elided. len in a subscript is the length of its axis, by C43. If a range has no elements then the pointer may be another, so C124_ranges and C124_reverse are about ranges with elements. With lists of positions, see C111."
  },
  {
   "property": "C125",
   "status": "proved",
   "theorems": [
    "Ra.Props.C125_arrays",
    "Ra.Props.C125_cells",
    "Ra.Props.C125_nested",
    "Ra.Props.C125_none",
    "Ra.Props.C125_reject",
    "Ra.Props.C125_axis"
   ],
   "note": "That an empty array of arrays has no sum is C125_none; see B58."
  },
  {
   "property": "C126",
   "status": "proved",
   "theorems": [
    "Ra.Props.C126_flat",
    "Ra.Props.C126_last",
    "Ra.Props.C126_nested",
    "Ra.Props.C126_view"
   ],
   "note": "Confirms the comments on examples/pitfall.cc:20-22."
  },
  {
   "property": "C127",
   "status": "proved",
   "theorems": [
    "Ra.Props.C127_same",
    "Ra.Props.C127_assign",
    "Ra.Props.C127_read",
    "Ra.Props.C127_early"
   ],
   "note": "Confirms the comments on examples/slicing.cc:27-32, which say that these are equivalent. The difference when the positions aren't all in the array is C127_early."
  },
  {
   "property": "C128",
   "status": "proved",
   "theorems": [
    "Ra.Props.C128_view",
    "Ra.Props.C128_same",
    "Ra.Props.C128_assign",
    "Ra.Props.C128_update",
    "Ra.Props.C128_order"
   ],
   "note": "The members are taken to be all of the same type, and an object to be its members and no more."
  },
  {
   "property": "C129",
   "status": "proved",
   "theorems": [
    "Ra.Props.C129_assign",
    "Ra.Props.C129_copy",
    "Ra.Props.C129_forward",
    "Ra.Props.C129_smear",
    "Ra.Props.C129_backward",
    "Ra.Props.C129_update",
    "Ra.Props.C129_scan",
    "Ra.Props.C129_sums"
   ],
   "note": "C27 is the case where no element of x depends on another element of b. C129_smear is what happens, and isn't what one would get with a temporary."
  },
  {
   "property": "C130",
   "status": "proved",
   "theorems": [
    "Ra.Props.C130_assign",
    "Ra.Props.C130_update",
    "Ra.Props.C130_both",
    "Ra.Props.C130_vector",
    "Ra.Props.C130_diagonal"
   ],
   "note": "Lists of axes that leave some axis of the result without any give an unbounded axis; those go in C28."
  },
  {
   "property": "C131",
   "status": "proved",
   "theorems": [
    "Ra.Props.C131_select",
    "Ra.Props.C131_assign",
    "Ra.Props.C131_copy",
    "Ra.Props.C131_operation",
    "Ra.Props.C131_whole"
   ],
   "note": "The operations are those of C78."
  }
 ]
}