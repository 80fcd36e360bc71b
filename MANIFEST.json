{
 "claims": [
  {
   "property": "C01",
   "status": "proved",
   "theorems": [
    "Cgl.C01_dot_is_sum_of_products",
    "Cgl.C01_dot_comm",
    "Cgl.C01_dot_add_left",
    "Cgl.C01_dot_add_right",
    "Cgl.C01_dot_smul_left",
    "Cgl.C01_dot_smul_right",
    "Cgl.C01_dot_sub_left",
    "Cgl.C01_dot_neg_left",
    "Cgl.C01_norm_squared_eq_dot",
    "Cgl.C01_dot_self_nonneg",
    "Cgl.C01_dot_self_eq_zero",
    "Cgl.C01_cauchy_schwarz"
   ],
   "note": ""
  },
  {
   "property": "C02",
   "status": "proved",
   "theorems": [
    "Cgl.C02_add_component",
    "Cgl.C02_sub_component",
    "Cgl.C02_neg_component",
    "Cgl.C02_mul_component",
    "Cgl.C02_scalar_mul_component",
    "Cgl.C02_div_component",
    "Cgl.C02_rem_component",
    "Cgl.C02_component_mul_component",
    "Cgl.C02_map_component",
    "Cgl.C02_from_fill_component",
    "Cgl.C02_add_assign",
    "Cgl.C02_sub_assign",
    "Cgl.C02_mul_assign",
    "Cgl.C02_div_assign",
    "Cgl.C02_rem_assign",
    "Cgl.C02_neg_mut",
    "Cgl.C02_component_mul_assign",
    "Cgl.C02_add_comm",
    "Cgl.C02_add_assoc",
    "Cgl.C02_add_zero",
    "Cgl.C02_add_neg",
    "Cgl.C02_sub_eq_add_neg",
    "Cgl.C02_mul_add",
    "Cgl.C02_mul_scalar_add",
    "Cgl.C02_mul_mul",
    "Cgl.C02_mul_one",
    "Cgl.C02_mul_zero",
    "Cgl.C02_scalar_mul_eq_mul_scalar",
    "Cgl.C02_component_mul_comm",
    "Cgl.C02_div_mul_cancel",
    "Cgl.C02_div_eq_mul_recip",
    "Cgl.C02_is_zero_iff",
    "Cgl.C02_is_zero_iff_eq_zero"
   ],
   "note": ""
  },
  {
   "property": "C03",
   "status": "proved",
   "theorems": [
    "Cgl.C03_vector_some_iff",
    "Cgl.C03_vector_none_iff",
    "Cgl.C03_point_some_iff",
    "Cgl.C03_point_none_iff",
    "Cgl.C03_matrix_some_iff",
    "Cgl.C03_matrix_none_iff",
    "Cgl.C03_complex",
    "Cgl.C03_quaternion"
   ],
   "note": ""
  },
  {
   "property": "C04",
   "status": "proved",
   "theorems": [
    "Cgl.C04_normalize_has_unit_norm",
    "Cgl.C04_normalize_same_direction",
    "Cgl.C04_normalize_unique",
    "Cgl.C04_normalize_idempotent",
    "Cgl.C04_try_normalize_none_iff",
    "Cgl.C04_try_normalize_some_iff",
    "Cgl.C04_try_normalize_unit",
    "Cgl.C04_normalize_mut",
    "Cgl.C04_try_normalize_mut_fail",
    "Cgl.C04_try_normalize_mut_ok",
    "Cgl.C04_scale_norm",
    "Cgl.C04_unscale_norm",
    "Cgl.C04_unscale_scale",
    "Cgl.C04_recompose",
    "Cgl.C04_point",
    "Cgl.C04_complex",
    "Cgl.C04_quaternion",
    "Cgl.C04_matrix",
    "Cgl.C04_distance",
    "Cgl.C04_magnitude"
   ],
   "note": ""
  },
  {
   "property": "C05",
   "status": "proved",
   "theorems": [
    "Cgl.C05_from_value",
    "Cgl.C05_from_value_with_norm",
    "Cgl.C05_try_from_value_with_norm_iff",
    "Cgl.C05_try_from_value_none_iff",
    "Cgl.C05_try_from_value_unit",
    "Cgl.C05_try_from_value_eq_try_normalize",
    "Cgl.C05_negative_threshold_differs",
    "Cgl.C05_neg_unit",
    "Cgl.C05_point",
    "Cgl.C05_complex",
    "Cgl.C05_quaternion",
    "Cgl.C05_neg"
   ],
   "note": ""
  },
  {
   "property": "C06",
   "status": "proved",
   "theorems": [
    "Cgl.C06_l1_norm_is_norm",
    "Cgl.C06_l2_norm_is_norm",
    "Cgl.C06_lp_norm_is_norm",
    "Cgl.C06_linf_norm_is_norm",
    "Cgl.C06_l1_norm_value",
    "Cgl.C06_l2_norm_value",
    "Cgl.C06_linf_norm_value",
    "Cgl.C06_lp_norm_value",
    "Cgl.C06_aliases",
    "Cgl.C06_l1_eq_lp_one",
    "Cgl.C06_l2_eq_lp_two",
    "Cgl.C06_linf_le_l2",
    "Cgl.C06_l2_le_l1",
    "Cgl.C06_metric_l1",
    "Cgl.C06_metric_l2",
    "Cgl.C06_metric_linf",
    "Cgl.C06_metric_lp",
    "Cgl.C06_metric_distance_eq",
    "Cgl.C06_metric_distance",
    "Cgl.C06_metric_distance_squared"
   ],
   "note": ""
  },
  {
   "property": "C07",
   "status": "proved",
   "theorems": [
    "Cgl.C07_cross_anticomm",
    "Cgl.C07_cross_self",
    "Cgl.C07_cross_add_left",
    "Cgl.C07_cross_add_right",
    "Cgl.C07_cross_smul_left",
    "Cgl.C07_cross_smul_right",
    "Cgl.C07_cross_orthogonal",
    "Cgl.C07_cross_norm_squared",
    "Cgl.C07_jacobi",
    "Cgl.C07_triple_cross",
    "Cgl.C07_triple_eq_det",
    "Cgl.C07_triple_cyclic",
    "Cgl.C07_right_handed",
    "Cgl.C07_cross_matrix"
   ],
   "note": ""
  },
  {
   "property": "C08",
   "status": "proved",
   "theorems": [
    "Cgl.C08_project_parallel",
    "Cgl.C08_project_orthogonal",
    "Cgl.C08_project_unique",
    "Cgl.C08_project_idempotent",
    "Cgl.C08_reflect_preserves_dot",
    "Cgl.C08_reflect_preserves_norm",
    "Cgl.C08_reflect_involutive",
    "Cgl.C08_reflect_fixes_hyperplane",
    "Cgl.C08_reflect_negates_normal",
    "Cgl.C08_reflect_direction"
   ],
   "note": ""
  },
  {
   "property": "C09",
   "status": "proved",
   "theorems": [
    "Cgl.C09_lerp_zero",
    "Cgl.C09_lerp_one",
    "Cgl.C09_lerp_affine",
    "Cgl.C09_lerp_swap",
    "Cgl.C09_lerp_self",
    "Cgl.C09_lerp_between",
    "Cgl.C09_lerp_strict_mono",
    "Cgl.C09_matrix_lerp",
    "Cgl.C09_matrix_lerp_between",
    "Cgl.C09_quaternion_lerp",
    "Cgl.C09_quaternion_lerp_between"
   ],
   "note": ""
  },
  {
   "property": "C10",
   "status": "proved",
   "theorems": [
    "Cgl.C10_min_component",
    "Cgl.C10_max_component",
    "Cgl.C10_min_comm",
    "Cgl.C10_max_comm",
    "Cgl.C10_min_assoc",
    "Cgl.C10_max_assoc",
    "Cgl.C10_min_self",
    "Cgl.C10_max_self",
    "Cgl.C10_absorb",
    "Cgl.C10_min_add_max"
   ],
   "note": ""
  },
  {
   "property": "C11",
   "status": "proved",
   "theorems": [
    "Cgl.C11_extend_components",
    "Cgl.C11_contract_components",
    "Cgl.C11_contract_extend",
    "Cgl.C11_extend_contract",
    "Cgl.C11_vector_round_trip",
    "Cgl.C11_vector_from_homogeneous_none_iff",
    "Cgl.C11_vector_from_homogeneous_some_iff",
    "Cgl.C11_point_round_trip",
    "Cgl.C11_point_from_homogeneous_none_iff",
    "Cgl.C11_point_from_homogeneous_value",
    "Cgl.C11_point_scale_invariant",
    "Cgl.C11_point_extend_contract"
   ],
   "note": ""
  },
  {
   "property": "C12",
   "status": "proved",
   "theorems": [
    "Cgl.C12_add_sub",
    "Cgl.C12_add_diff",
    "Cgl.C12_add_assoc",
    "Cgl.C12_sub_add",
    "Cgl.C12_add_zero",
    "Cgl.C12_diff_antisymm",
    "Cgl.C12_chasles",
    "Cgl.C12_torsor",
    "Cgl.C12_vector_round_trip",
    "Cgl.C12_origin",
    "Cgl.C12_assign_ops",
    "Cgl.C12_distance",
    "Cgl.C12_distance_is_metric",
    "Cgl.C12_distance_translation",
    "Cgl.C12_scalar_mul"
   ],
   "note": ""
  },
  {
   "property": "C13",
   "status": "proved",
   "theorems": [
    "Cgl.C13_mul_entry",
    "Cgl.C13_mul_vec_entry",
    "Cgl.C13_mul_assoc",
    "Cgl.C13_mul_add",
    "Cgl.C13_add_mul",
    "Cgl.C13_one_mul",
    "Cgl.C13_mul_one",
    "Cgl.C13_mul_zero",
    "Cgl.C13_zero_mul",
    "Cgl.C13_identity_unique",
    "Cgl.C13_scalar_left",
    "Cgl.C13_scalar_right",
    "Cgl.C13_scalar_comm",
    "Cgl.C13_mul_mul_vec",
    "Cgl.C13_identity_mul_vec",
    "Cgl.C13_mul_vec_add",
    "Cgl.C13_mul_vec_scalar",
    "Cgl.C13_add_mul_vec",
    "Cgl.C13_column_of_product",
    "Cgl.C13_ext_of_action",
    "Cgl.C13_mul_assign"
   ],
   "note": ""
  },
  {
   "property": "C14",
   "status": "proved",
   "theorems": [
    "Cgl.C14_transpose_entry",
    "Cgl.C14_transpose_involutive",
    "Cgl.C14_transpose_add",
    "Cgl.C14_transpose_scalar",
    "Cgl.C14_transpose_identity",
    "Cgl.C14_transpose_mul",
    "Cgl.C14_tr_mul",
    "Cgl.C14_tr_dot",
    "Cgl.C14_tr_dot_eq_trace",
    "Cgl.C14_dot_adjoint",
    "Cgl.C14_transpose_mut"
   ],
   "note": ""
  },
  {
   "property": "C15",
   "status": "proved",
   "theorems": [
    "Cgl.C15_swap_columns",
    "Cgl.C15_swap_columns_out_of_range",
    "Cgl.C15_swap_rows",
    "Cgl.C15_swap_rows_out_of_range",
    "Cgl.C15_swap",
    "Cgl.C15_swap_out_of_range",
    "Cgl.C15_swap_columns_twice",
    "Cgl.C15_swap_rows_twice",
    "Cgl.C15_swap_twice"
   ],
   "note": ""
  },
  {
   "property": "C16",
   "status": "proved",
   "theorems": [
    "Cgl.C16_index",
    "Cgl.C16_index_out_of_range",
    "Cgl.C16_index_col",
    "Cgl.C16_column",
    "Cgl.C16_column_out_of_range",
    "Cgl.C16_row",
    "Cgl.C16_row_out_of_range",
    "Cgl.C16_from_columns",
    "Cgl.C16_from_rows",
    "Cgl.C16_columns_round_trip",
    "Cgl.C16_rows_round_trip",
    "Cgl.C16_from_rows_eq_transpose",
    "Cgl.C16_flat",
    "Cgl.C16_flat_position",
    "Cgl.C16_from_flat_to_flat",
    "Cgl.C16_to_flat_from_flat",
    "Cgl.C16_new1x1",
    "Cgl.C16_new2x2",
    "Cgl.C16_new3x3",
    "Cgl.C16_new4x4",
    "Cgl.C16_new1x2",
    "Cgl.C16_new1x3",
    "Cgl.C16_new1x4",
    "Cgl.C16_new2x3",
    "Cgl.C16_new3x2",
    "Cgl.C16_new2x4",
    "Cgl.C16_new4x2",
    "Cgl.C16_new3x4",
    "Cgl.C16_new4x3",
    "Cgl.C16_to_scalar",
    "Cgl.C16_map",
    "Cgl.C16_map_id",
    "Cgl.C16_map_map",
    "Cgl.C16_from_fill",
    "Cgl.C16_shape",
    "Cgl.C16_is_square"
   ],
   "note": ""
  },
  {
   "property": "C17",
   "status": "proved",
   "theorems": [
    "Cgl.C17_det1",
    "Cgl.C17_det2",
    "Cgl.C17_det3",
    "Cgl.C17_det4",
    "Cgl.C17_mul1",
    "Cgl.C17_mul2",
    "Cgl.C17_mul3",
    "Cgl.C17_mul4",
    "Cgl.C17_transpose1",
    "Cgl.C17_transpose2",
    "Cgl.C17_transpose3",
    "Cgl.C17_transpose4",
    "Cgl.C17_identity1",
    "Cgl.C17_identity2",
    "Cgl.C17_identity3",
    "Cgl.C17_identity4",
    "Cgl.C17_swap_columns2",
    "Cgl.C17_swap_columns3",
    "Cgl.C17_swap_columns4",
    "Cgl.C17_swap_rows2",
    "Cgl.C17_swap_rows3",
    "Cgl.C17_swap_rows4",
    "Cgl.C17_scalar1",
    "Cgl.C17_scalar2",
    "Cgl.C17_scalar3",
    "Cgl.C17_scalar4",
    "Cgl.C17_diagonal4"
   ],
   "note": ""
  },
  {
   "property": "C18",
   "status": "proved",
   "theorems": [
    "Cgl.C18_try_inverse1",
    "Cgl.C18_try_inverse2",
    "Cgl.C18_try_inverse3",
    "Cgl.C18_try_inverse4",
    "Cgl.C18_unique_right",
    "Cgl.C18_unique_left",
    "Cgl.C18_isSome_iff",
    "Cgl.C18_inverse_inverse",
    "Cgl.C18_inverse_mul",
    "Cgl.C18_inverse_identity",
    "Cgl.C18_inverse_transpose",
    "Cgl.C18_solves",
    "Cgl.C18_inverse1",
    "Cgl.C18_inverse2",
    "Cgl.C18_inverse3",
    "Cgl.C18_inverse4"
   ],
   "note": ""
  },
  {
   "property": "C19",
   "status": "partial",
   "theorems": [
    "Cgl.C19_is_invertible1",
    "Cgl.C19_is_invertible2",
    "Cgl.C19_is_invertible3",
    "Cgl.C19_is_invertible4",
    "Cgl.C19_is_invertible_iff_det",
    "Cgl.C19_tolerance_rejects_invertible",
    "Cgl.C19_complex_is_invertible",
    "Cgl.C19_complex_is_invertible_fails",
    "Cgl.C19_complex_is_invertible_partial",
    "Cgl.C19_quaternion_is_invertible_partial",
    "Cgl.C19_quaternion_is_invertible_fails"
   ],
   "note": "C19_complex_is_invertible_fails: The converse fails at every positive tolerance (a small non-zero number has an inverse), and at tolerance zero zero itself passes the test. C19_quaternion_is_invertible_fails: At norm exactly the tolerance `is_invertible` says yes and `try_inverse` returns `None`; the zero quaternion does so at tolerance zero. C19_complex_is_invertible_partial: For complex numbers not shorter than a positive tolerance `is_invertible` and `try_inverse` agree. Missing: the shorter ones, where they do not (`C19_complex_is_invertible_fails`). C19_quaternion_is_invertible_partial: For quaternions they agree except at norm exactly the tolerance. Missing: that norm, where they do not (`C19_quaternion_is_invertible_fails`)."
  },
  {
   "property": "C20",
   "status": "partial",
   "theorems": [
    "Cgl.C20_trace_value",
    "Cgl.C20_trace_add",
    "Cgl.C20_trace_sub",
    "Cgl.C20_trace_scalar",
    "Cgl.C20_trace_transpose",
    "Cgl.C20_trace_mul_comm",
    "Cgl.C20_trace_identity",
    "Cgl.C20_from_diagonal",
    "Cgl.C20_from_diagonal_value",
    "Cgl.C20_from_diagonal_fill",
    "Cgl.C20_diagonal_small",
    "Cgl.C20_diagonal4_partial",
    "Cgl.C20_diagonal_large_panics",
    "Cgl.C20_diagonal_small_pads",
    "Cgl.C20_is_diagonal",
    "Cgl.C20_is_symmetric",
    "Cgl.C20_shape_tests_exact"
   ],
   "note": "C20_diagonal4_partial: `diagonal()` of a 4x4 matrix returns its diagonal; in particular it recovers `v` from `from_diagonal(v)`. For the other sizes see the next three theorems."
  },
  {
   "property": "C21",
   "status": "proved",
   "theorems": [
    "Cgl.C21_l1_transpose",
    "Cgl.C21_linf_transpose",
    "Cgl.C21_norm_value",
    "Cgl.C21_norm_squared_eq_dot",
    "Cgl.C21_norm_squared_eq_norm_sq",
    "Cgl.C21_linf_norm_value",
    "Cgl.C21_l1_norm_value",
    "Cgl.C21_norm_is_norm",
    "Cgl.C21_linf_is_norm",
    "Cgl.C21_l1_is_norm",
    "Cgl.C21_metric_frobenius",
    "Cgl.C21_metric_l1",
    "Cgl.C21_metric_linf",
    "Cgl.C21_metric_distance",
    "Cgl.C21_linf_mul",
    "Cgl.C21_linf_mul_vec",
    "Cgl.C21_l1_mul",
    "Cgl.C21_l1_mul_vec",
    "Cgl.C21_norm_mul",
    "Cgl.C21_norm_mul_vec",
    "Cgl.C21_entry_le",
    "Cgl.C21_apply_norm"
   ],
   "note": ""
  },
  {
   "property": "C22",
   "status": "proved",
   "theorems": [
    "Cgl.C22_add_entry",
    "Cgl.C22_sub_entry",
    "Cgl.C22_neg_entry",
    "Cgl.C22_mul_scalar_entry",
    "Cgl.C22_scalar_mul_entry",
    "Cgl.C22_div_scalar_entry",
    "Cgl.C22_rem_scalar_entry",
    "Cgl.C22_component_mul_entry",
    "Cgl.C22_zero_entry",
    "Cgl.C22_add_assign",
    "Cgl.C22_sub_assign",
    "Cgl.C22_mul_assign",
    "Cgl.C22_div_assign",
    "Cgl.C22_rem_assign",
    "Cgl.C22_component_mul_assign",
    "Cgl.C22_neg_mut",
    "Cgl.C22_add_comm",
    "Cgl.C22_add_assoc",
    "Cgl.C22_add_zero",
    "Cgl.C22_add_neg",
    "Cgl.C22_sub_eq",
    "Cgl.C22_mul_one",
    "Cgl.C22_mul_mul",
    "Cgl.C22_mul_add",
    "Cgl.C22_add_mul",
    "Cgl.C22_neg_eq",
    "Cgl.C22_component_mul_comm",
    "Cgl.C22_div_eq",
    "Cgl.C22_mul_div_cancel",
    "Cgl.C22_is_zero_iff",
    "Cgl.C22_is_zero_iff_eq",
    "Cgl.C22_is_identity_iff",
    "Cgl.C22_is_identity_iff_eq"
   ],
   "note": ""
  },
  {
   "property": "C23",
   "status": "proved",
   "theorems": [
    "Cgl.C23_translation_point",
    "Cgl.C23_translation_vector",
    "Cgl.C23_translation_compose",
    "Cgl.C23_translation_zero",
    "Cgl.C23_translation_inverse",
    "Cgl.C23_nonuniform_scale_point",
    "Cgl.C23_nonuniform_scale_vector",
    "Cgl.C23_scale_point",
    "Cgl.C23_scale_vector",
    "Cgl.C23_scale_compose",
    "Cgl.C23_uniform_scale_compose",
    "Cgl.C23_scale_one",
    "Cgl.C23_linear_scale",
    "Cgl.C23_linear_uniform_scale",
    "Cgl.C23_shear2_vector",
    "Cgl.C23_shear2_point",
    "Cgl.C23_shear3_vector",
    "Cgl.C23_shear3_point",
    "Cgl.C23_reflection2_vector",
    "Cgl.C23_reflection2_point",
    "Cgl.C23_reflection3_vector",
    "Cgl.C23_reflection3_point",
    "Cgl.C23_angle2",
    "Cgl.C23_angle_x",
    "Cgl.C23_angle_y",
    "Cgl.C23_angle_z",
    "Cgl.C23_axis_angle"
   ],
   "note": ""
  },
  {
   "property": "C24",
   "status": "proved",
   "theorems": [
    "Cgl.C24_shear2",
    "Cgl.C24_shear3",
    "Cgl.C24_det2",
    "Cgl.C24_det3",
    "Cgl.C24_compose2",
    "Cgl.C24_compose3",
    "Cgl.C24_zero2",
    "Cgl.C24_zero3",
    "Cgl.C24_inverse2",
    "Cgl.C24_inverse3",
    "Cgl.C24_fixes2",
    "Cgl.C24_fixes3",
    "Cgl.C24_affine_fixes2",
    "Cgl.C24_affine_fixes3",
    "Cgl.C24_affine_moves2",
    "Cgl.C24_affine_moves3",
    "Cgl.C24_axis2",
    "Cgl.C24_axis3",
    "Cgl.C24_affine_axis2",
    "Cgl.C24_affine_axis3"
   ],
   "note": ""
  },
  {
   "property": "C25",
   "status": "proved",
   "theorems": [
    "Cgl.C25_reflection2",
    "Cgl.C25_reflection3",
    "Cgl.C25_symmetric2",
    "Cgl.C25_symmetric3",
    "Cgl.C25_involution2",
    "Cgl.C25_involution3",
    "Cgl.C25_orthogonal2",
    "Cgl.C25_orthogonal3",
    "Cgl.C25_det2",
    "Cgl.C25_det3",
    "Cgl.C25_negates_normal2",
    "Cgl.C25_negates_normal3",
    "Cgl.C25_isometry2",
    "Cgl.C25_isometry3",
    "Cgl.C25_affine_involution2",
    "Cgl.C25_affine_involution3",
    "Cgl.C25_fixes2",
    "Cgl.C25_fixes3",
    "Cgl.C25_affine_fixes2",
    "Cgl.C25_affine_fixes3",
    "Cgl.C25_affine_moves2",
    "Cgl.C25_affine_moves3"
   ],
   "note": ""
  },
  {
   "property": "C26",
   "status": "proved",
   "theorems": [
    "Cgl.C26_angle2_rotation",
    "Cgl.C26_angle2_compose",
    "Cgl.C26_angle2_zero",
    "Cgl.C26_angle2_neg",
    "Cgl.C26_angle2_action",
    "Cgl.C26_rodrigues",
    "Cgl.C26_axis_angle_rotation",
    "Cgl.C26_axis_angle_compose",
    "Cgl.C26_axis_angle_fixes_axis",
    "Cgl.C26_axis_angle_trace",
    "Cgl.C26_axis_angle_zero",
    "Cgl.C26_axis_angle_neg",
    "Cgl.C26_axis_angle_opposite_axis",
    "Cgl.C26_angle_x",
    "Cgl.C26_angle_y",
    "Cgl.C26_angle_z",
    "Cgl.C26_angle_x_rotation",
    "Cgl.C26_angle_y_rotation",
    "Cgl.C26_angle_z_rotation",
    "Cgl.C26_angle_x_compose",
    "Cgl.C26_angle_y_compose",
    "Cgl.C26_angle_z_compose",
    "Cgl.C26_quarter_turns",
    "Cgl.C26_affine_angle2_rotation",
    "Cgl.C26_affine_axis_angle_rotation",
    "Cgl.C26_affine_axis_angle_compose",
    "Cgl.C26_affine_angle_xyz"
   ],
   "note": ""
  },
  {
   "property": "C27",
   "status": "proved",
   "theorems": [
    "Cgl.C27_entry",
    "Cgl.C27_mul",
    "Cgl.C27_identity",
    "Cgl.C27_transpose",
    "Cgl.C27_determinant",
    "Cgl.C27_injective",
    "Cgl.C27_determinant_methods",
    "Cgl.C27_compose"
   ],
   "note": ""
  },
  {
   "property": "C28",
   "status": "proved",
   "theorems": [
    "Cgl.C28_look_to_lh3",
    "Cgl.C28_look_to_rh3",
    "Cgl.C28_look_at3",
    "Cgl.C28_look_to_lh4_action",
    "Cgl.C28_look_to_rh4_action",
    "Cgl.C28_look_to4_vector",
    "Cgl.C28_eye_to_origin",
    "Cgl.C28_look_at_target",
    "Cgl.C28_look_to_lh4_isometry",
    "Cgl.C28_quaternion_look_to",
    "Cgl.C28_quaternion_look_at",
    "Cgl.C28_rotation_look_to",
    "Cgl.C28_rotation_look_at",
    "Cgl.C28_isometry_look_to",
    "Cgl.C28_isometry_look_at",
    "Cgl.C28_similarity_look_to",
    "Cgl.C28_similarity_look_at",
    "Cgl.C28_view_motion"
   ],
   "note": ""
  },
  {
   "property": "C29",
   "status": "partial",
   "theorems": [
    "Cgl.C29_look_to_lh3_inv",
    "Cgl.C29_look_to_rh3_inv",
    "Cgl.C29_look_at_lh3_inv",
    "Cgl.C29_look_at_rh3_inv",
    "Cgl.C29_look_to_lh4_inv_iff",
    "Cgl.C29_look_to_rh4_inv_iff",
    "Cgl.C29_look_at4_inv_iff",
    "Cgl.C29_look_to4_inv_origin_partial",
    "Cgl.C29_look_to4_inv_vectors_partial",
    "Cgl.C29_look_to4_inv_fails",
    "Cgl.C29_rotation_inv",
    "Cgl.C29_quaternion_inv",
    "Cgl.C29_quaternion_at_inv",
    "Cgl.C29_isometry_inv_iff",
    "Cgl.C29_isometry_at_inv_iff",
    "Cgl.C29_similarity_inv_iff",
    "Cgl.C29_similarity_at_inv_iff",
    "Cgl.C29_isometry_inv_origin_partial",
    "Cgl.C29_isometry_inv_vectors_partial",
    "Cgl.C29_isometry_inv_fails"
   ],
   "note": "C29_look_to4_inv_fails: the general claim fails: looking along +x from (1, 0, 0) with up = +y, the product is not the identity, left- and right-handed C29_isometry_inv_fails: the general claim fails: looking along +x from (1, 0, 0) with up = +y C29_look_to4_inv_origin_partial: Missing from the full claim: eyes other than the origin (where the claim is false, below). At the origin, the 4x4 inverses are inverses. C29_look_to4_inv_vectors_partial: Missing from the full claim: points. On free vectors the inverses undo the view transforms. C29_isometry_inv_origin_partial: Missing from the full claim: eyes other than the origin (where the claim is false, below). C29_isometry_inv_vectors_partial: Missing from the full claim: points. On free vectors the inverses undo the view transforms."
  },
  {
   "property": "C30",
   "status": "partial",
   "theorems": [
    "Cgl.C30_axis3_generic",
    "Cgl.C30_axis3_near",
    "Cgl.C30_axis3_sound",
    "Cgl.C30_axis3_none",
    "Cgl.C30_axis3_opposite",
    "Cgl.C30_axis3_none_iff_zero",
    "Cgl.C30_between3",
    "Cgl.C30_between3_zero",
    "Cgl.C30_between3_sound",
    "Cgl.C30_between3_parallel",
    "Cgl.C30_axis2_rotation",
    "Cgl.C30_axis2_iff",
    "Cgl.C30_axis2_partial",
    "Cgl.C30_axis2_symmetric",
    "Cgl.C30_axis2_fails",
    "Cgl.C30_between2",
    "Cgl.C30_between2_iff",
    "Cgl.C30_matrix3_axis",
    "Cgl.C30_quaternion_axis_matrix",
    "Cgl.C30_quaternion_axis",
    "Cgl.C30_quaternion",
    "Cgl.C30_rotation3_axis",
    "Cgl.C30_rotation3",
    "Cgl.C30_isometry3_axis",
    "Cgl.C30_isometry3",
    "Cgl.C30_rotation2_axis",
    "Cgl.C30_rotation2",
    "Cgl.C30_isometry2"
   ],
   "note": "C30_axis2_fails: `Matrix2x2::rotation_between(unit_y, unit_x)` does not take `unit_y` to `unit_x` C30_axis2_partial: Missing from the full claim: second directions clockwise from the first (where the claim is false)."
  },
  {
   "property": "C31",
   "status": "proved",
   "theorems": [
    "Cgl.C31_frames",
    "Cgl.C31_axes",
    "Cgl.C31_bounds",
    "Cgl.C31_matrix_action",
    "Cgl.C31_matrix_action_vector",
    "Cgl.C31_box_iff_cube",
    "Cgl.C31_corners",
    "Cgl.C31_affine",
    "Cgl.C31_getters",
    "Cgl.C31_unproject",
    "Cgl.C31_unproject_vector"
   ],
   "note": ""
  },
  {
   "property": "C32",
   "status": "partial",
   "theorems": [
    "Cgl.C32_frames",
    "Cgl.C32_axes",
    "Cgl.C32_no_image",
    "Cgl.C32_frustum_iff_cube",
    "Cgl.C32_corners",
    "Cgl.C32_depth_monotone",
    "Cgl.C32_getters",
    "Cgl.C32_from_vfov",
    "Cgl.C32_vfov_partial",
    "Cgl.C32_vfov_wide",
    "Cgl.C32_vfov_fails",
    "Cgl.C32_from_vfov_getters",
    "Cgl.C32_from_vfov_wide",
    "Cgl.C32_gaze",
    "Cgl.C32_bounds"
   ],
   "note": "C32_vfov_fails: so the claim that `vfov()` returns the field of view fails: a frustum twice as wide as deep C32_vfov_partial: Missing from the full claim: fields of view of a right angle or more. Below a right angle (`top * bottom < near^2`) `vfov()` recovers the field of view."
  },
  {
   "property": "C33",
   "status": "partial",
   "theorems": [
    "Cgl.C33_project_point_iff",
    "Cgl.C33_project_point_partial",
    "Cgl.C33_project_point_xz",
    "Cgl.C33_project_point_fails",
    "Cgl.C33_project_vector",
    "Cgl.C33_unproject_ndc",
    "Cgl.C33_unproject_project_partial",
    "Cgl.C33_unproject_project_fails",
    "Cgl.C33_unproject_vector"
   ],
   "note": "C33_unproject_project_fails: ... and not otherwise: for `top != bottom` it does not, at any point C33_project_point_partial: Missing from the full claim: frusta with `top != bottom` (where the claim is false, below). C33_unproject_project_partial: hence it undoes `project_point` for frusta with `top = bottom` ..."
  },
  {
   "property": "C34",
   "status": "proved",
   "theorems": [
    "Cgl.C34_add_comm",
    "Cgl.C34_add_assoc",
    "Cgl.C34_add_zero",
    "Cgl.C34_add_neg",
    "Cgl.C34_sub_eq",
    "Cgl.C34_mul_comm",
    "Cgl.C34_mul_assoc",
    "Cgl.C34_mul_one",
    "Cgl.C34_mul_add",
    "Cgl.C34_i_squared",
    "Cgl.C34_decompose",
    "Cgl.C34_conj_mul",
    "Cgl.C34_conj_add",
    "Cgl.C34_conj_conj",
    "Cgl.C34_mul_conj",
    "Cgl.C34_norm_squared_mul",
    "Cgl.C34_squared",
    "Cgl.C34_cubed",
    "Cgl.C34_assign",
    "Cgl.C34_div_assign",
    "Cgl.C34_div_mul_cancel",
    "Cgl.C34_mul_div_cancel",
    "Cgl.C34_try_inverse_none_iff",
    "Cgl.C34_try_inverse_some_iff",
    "Cgl.C34_inverse_panics_iff",
    "Cgl.C34_inverse_ok_iff",
    "Cgl.C34_div_eq_mul_inverse",
    "Cgl.C34_agrees",
    "Cgl.C34_norm_mul",
    "Cgl.C34_norm_triangle",
    "Cgl.C34_norm_zero_iff",
    "Cgl.C34_l1_norm",
    "Cgl.C34_predicates"
   ],
   "note": ""
  },
  {
   "property": "C35",
   "status": "partial",
   "theorems": [
    "Cgl.C35_add_scalar",
    "Cgl.C35_scalar_add",
    "Cgl.C35_sub_scalar",
    "Cgl.C35_mul_scalar",
    "Cgl.C35_scalar_mul",
    "Cgl.C35_scale",
    "Cgl.C35_assign_scalar",
    "Cgl.C35_scalar_sub_iff",
    "Cgl.C35_scalar_sub_actual",
    "Cgl.C35_scalar_sub_partial",
    "Cgl.C35_scalar_sub_fails",
    "Cgl.C35_div_scalar",
    "Cgl.C35_unscale",
    "Cgl.C35_scalar_div",
    "Cgl.C35_div_assign_scalar",
    "Cgl.C35_rem"
   ],
   "note": "C35_scalar_sub_fails: The property is false of the code: `1 - i` is computed as `1 + i`. C35_scalar_sub_partial: Missing from the full property: complex numbers with non-zero imaginary part."
  },
  {
   "property": "C36",
   "status": "proved",
   "theorems": [
    "Cgl.C36_polar_round_trip",
    "Cgl.C36_polar_unique",
    "Cgl.C36_from_angle",
    "Cgl.C36_exp",
    "Cgl.C36_exp_add",
    "Cgl.C36_exp_ne_zero",
    "Cgl.C36_exp_zero",
    "Cgl.C36_ln",
    "Cgl.C36_exp_ln",
    "Cgl.C36_ln_range",
    "Cgl.C36_ln_exp",
    "Cgl.C36_sqrt_squared",
    "Cgl.C36_sqrt_re_nonneg",
    "Cgl.C36_sqrt_principal",
    "Cgl.C36_sqrt_unique",
    "Cgl.C36_cbrt_cubed",
    "Cgl.C36_cbrt_principal",
    "Cgl.C36_real_cbrt",
    "Cgl.C36_exp2",
    "Cgl.C36_exp2_cpow",
    "Cgl.C36_log",
    "Cgl.C36_log2",
    "Cgl.C36_log10",
    "Cgl.C36_log_inverse",
    "Cgl.C36_exp2_log2",
    "Cgl.C36_powc",
    "Cgl.C36_powf",
    "Cgl.C36_powc_zero",
    "Cgl.C36_powf_add",
    "Cgl.C36_powf_one"
   ],
   "note": ""
  },
  {
   "property": "C37",
   "status": "partial",
   "theorems": [
    "Cgl.C37_powu",
    "Cgl.C37_powi_nonneg",
    "Cgl.C37_powi_negative",
    "Cgl.C37_powi_negative_partial",
    "Cgl.C37_powi_zero_negative",
    "Cgl.C37_powi_fails",
    "Cgl.C37_powi_real_partial"
   ],
   "note": "C37_powi_fails: It is false of the code: `2^(-3)` is computed as `1/2`. C37_powi_negative_partial: Missing from the full property: negative exponents that are not minus a power of two. C37_powi_real_partial: For the reals: what does hold, in one statement."
  },
  {
   "property": "C38",
   "status": "proved",
   "theorems": [
    "Cgl.C38_cosh",
    "Cgl.C38_sinh",
    "Cgl.C38_cos",
    "Cgl.C38_sin",
    "Cgl.C38_tanh",
    "Cgl.C38_tan",
    "Cgl.C38_identities",
    "Cgl.C38_euler",
    "Cgl.C38_cos_acos",
    "Cgl.C38_sinh_asinh",
    "Cgl.C38_cosh_acosh",
    "Cgl.C38_sin_asin",
    "Cgl.C38_tanh_atanh",
    "Cgl.C38_tan_atan",
    "Cgl.C38_asinh_range",
    "Cgl.C38_asin_range",
    "Cgl.C38_acos_range",
    "Cgl.C38_acosh_range",
    "Cgl.C38_atanh_range",
    "Cgl.C38_atan_range"
   ],
   "note": ""
  },
  {
   "property": "C39",
   "status": "proved",
   "theorems": [
    "Cgl.C39_add_comm",
    "Cgl.C39_add_assoc",
    "Cgl.C39_add_zero",
    "Cgl.C39_add_neg",
    "Cgl.C39_sub_eq",
    "Cgl.C39_mul_assoc",
    "Cgl.C39_mul_add",
    "Cgl.C39_add_mul",
    "Cgl.C39_mul_identity",
    "Cgl.C39_mul_zero",
    "Cgl.C39_hamilton",
    "Cgl.C39_unit_products",
    "Cgl.C39_decompose",
    "Cgl.C39_scalar",
    "Cgl.C39_conj_mul",
    "Cgl.C39_conj_add",
    "Cgl.C39_conj_conj",
    "Cgl.C39_mul_conj",
    "Cgl.C39_norm_squared_mul",
    "Cgl.C39_conjugate_mut",
    "Cgl.C39_squared",
    "Cgl.C39_dot",
    "Cgl.C39_assign",
    "Cgl.C39_is_pure",
    "Cgl.C39_is_real",
    "Cgl.C39_is_zero",
    "Cgl.C39_is_identity",
    "Cgl.C39_half",
    "Cgl.C39_inner_outer",
    "Cgl.C39_outer_cross",
    "Cgl.C39_div_assign",
    "Cgl.C39_div",
    "Cgl.C39_hamilton_injective",
    "Cgl.C39_hamilton_surjective",
    "Cgl.C39_hamilton_mul",
    "Cgl.C39_hamilton_add",
    "Cgl.C39_hamilton_sub",
    "Cgl.C39_hamilton_neg",
    "Cgl.C39_hamilton_smul",
    "Cgl.C39_hamilton_one",
    "Cgl.C39_hamilton_zero",
    "Cgl.C39_hamilton_conj",
    "Cgl.C39_hamilton_norm_squared",
    "Cgl.C39_norm_mul",
    "Cgl.C39_norm_conj",
    "Cgl.C39_norm_zero",
    "Cgl.C39_norm_scale",
    "Cgl.C39_norm_triangle",
    "Cgl.C39_distance",
    "Cgl.C39_rem",
    "Cgl.C39_l1_norm"
   ],
   "note": ""
  },
  {
   "property": "C40",
   "status": "proved",
   "theorems": [
    "Cgl.C40_try_inverse_some",
    "Cgl.C40_try_inverse_none",
    "Cgl.C40_inverse",
    "Cgl.C40_div_left",
    "Cgl.C40_div_right",
    "Cgl.C40_div_eq",
    "Cgl.C40_inverse_mul",
    "Cgl.C40_is_invertible",
    "Cgl.C40_is_invertible_fails",
    "Cgl.C40_try_inverse_none_norm",
    "Cgl.C40_try_inverse_exact",
    "Cgl.C40_inverse_norm"
   ],
   "note": "C40_is_invertible_fails: `is_invertible` does not decide `try_inverse`: at norm exactly `eps` they disagree."
  },
  {
   "property": "C41",
   "status": "proved",
   "theorems": [
    "Cgl.C41_conjugation",
    "Cgl.C41_conjugation_inverse",
    "Cgl.C41_mul",
    "Cgl.C41_scale",
    "Cgl.C41_neg",
    "Cgl.C41_conj",
    "Cgl.C41_identity",
    "Cgl.C41_affine",
    "Cgl.C41_mut",
    "Cgl.C41_rotation",
    "Cgl.C41_kernel",
    "Cgl.C41_injective"
   ],
   "note": ""
  },
  {
   "property": "C42",
   "status": "proved",
   "theorems": [
    "Cgl.C42_from_matrix",
    "Cgl.C42_round_trip",
    "Cgl.C42_round_trip_normalize",
    "Cgl.C42_surjective",
    "Cgl.C42_scalar_pos",
    "Cgl.C42_rotation"
   ],
   "note": ""
  },
  {
   "property": "C43",
   "status": "proved",
   "theorems": [
    "Cgl.C43_formula",
    "Cgl.C43_unit",
    "Cgl.C43_fixes_axis",
    "Cgl.C43_compose",
    "Cgl.C43_to_matrix",
    "Cgl.C43_from_matrix",
    "Cgl.C43_zero",
    "Cgl.C43_neg",
    "Cgl.C43_full_turn"
   ],
   "note": ""
  },
  {
   "property": "C44",
   "status": "partial",
   "theorems": [
    "Cgl.C44_exp",
    "Cgl.C44_exp_error",
    "Cgl.C44_exp_ln_partial",
    "Cgl.C44_exp_ln_exact_partial",
    "Cgl.C44_exp_ln_error",
    "Cgl.C44_exp_ln_negative_real",
    "Cgl.C44_exp_ln_fails",
    "Cgl.C44_ln",
    "Cgl.C44_ln_exp",
    "Cgl.C44_powf_norm",
    "Cgl.C44_powf_one",
    "Cgl.C44_powf_zero",
    "Cgl.C44_powf_add",
    "Cgl.C44_powf_nat",
    "Cgl.C44_sqrt",
    "Cgl.C44_sqrt_error",
    "Cgl.C44_sqrt_principal"
   ],
   "note": "C44_exp_ln_fails: It is false of the code, whatever the tolerance: `exp(ln(-1)) = 1`. C44_exp_ln_partial: `exp(ln q) = q`, for positive reals and for quaternions whose vector part is neither below `eps` nor below `eps |q|`. The remaining cases are covered by `C44_exp_ln_error` and `C44_exp_ln_fails`. C44_exp_ln_exact_partial: with a zero tolerance: every non-zero quaternion that is not a negative real"
  },
  {
   "property": "C45",
   "status": "partial",
   "theorems": [
    "Cgl.C45_lerp_ends",
    "Cgl.C45_lerp",
    "Cgl.C45_nlerp_ends",
    "Cgl.C45_nlerp_unit",
    "Cgl.C45_nlerp_unit_of_unit",
    "Cgl.C45_slerp_unit",
    "Cgl.C45_slerp_ends",
    "Cgl.C45_slerp_short_arc",
    "Cgl.C45_slerp_constant_speed_partial",
    "Cgl.C45_slerp_fallback",
    "Cgl.C45_slerp_exact",
    "Cgl.C45_slerp_speed",
    "Cgl.C45_slerp_constant_speed_fails",
    "Cgl.C45_slerp_neg"
   ],
   "note": "C45_slerp_constant_speed_fails: Constant speed is not exact there: a quarter of the way, no pair of different rotations in the fallback region is at a quarter of the angle. C45_slerp_constant_speed_partial: Constant angular speed: outside the `nlerp` fallback, the angle from the start is exactly `t` times the whole angle, and the angle to the end is `1 - t` times it. Missing: exactness inside the fallback region, where it is false (`C45_slerp_constant_speed_fails`) but nearly true (`C45_slerp_fallback`, `C45_slerp_speed`)."
  },
  {
   "property": "C46",
   "status": "partial",
   "theorems": [
    "Cgl.C46_scale",
    "Cgl.C46_axis",
    "Cgl.C46_round_trip_partial",
    "Cgl.C46_round_trip_nonneg_partial",
    "Cgl.C46_round_trip_fails"
   ],
   "note": "C46_round_trip_fails: It is false of every quaternion with a vector part. C46_round_trip_partial: What the code does compute: feeding *twice* the returned angle back gives the quaternion with the absolute value of the scalar part, so it gives back `q` when the scalar part is not negative. Missing against the property: the factor two, and the sign of the scalar part."
  },
  {
   "property": "C47",
   "status": "partial",
   "theorems": [
    "Cgl.C47_project_parallel",
    "Cgl.C47_decompose",
    "Cgl.C47_reject_orthogonal",
    "Cgl.C47_project_unique",
    "Cgl.C47_project_self",
    "Cgl.C47_arg_partial",
    "Cgl.C47_arg_range",
    "Cgl.C47_arg_fails",
    "Cgl.C47_arg_exact"
   ],
   "note": "C47_arg_fails: With a positive tolerance it fails on small quaternions: the argument of the real number `eps` is 90°, not 0. C47_arg_partial: `arg(q)` is the angle between `q` and the positive real axis, as long as the scalar part is larger than the tolerance or is exactly zero. Missing: the scalar parts in between, for which the code returns 90°."
  },
  {
   "property": "C48",
   "status": "partial",
   "theorems": [
    "Cgl.C48_every_quaternion",
    "Cgl.C48_plane_is_complex",
    "Cgl.C48_cos",
    "Cgl.C48_sin",
    "Cgl.C48_cosh",
    "Cgl.C48_sinh",
    "Cgl.C48_tan",
    "Cgl.C48_tanh",
    "Cgl.C48_identities",
    "Cgl.C48_real",
    "Cgl.C48_euler",
    "Cgl.C48_cos_acos_partial",
    "Cgl.C48_sin_asin_partial",
    "Cgl.C48_cosh_acosh_partial",
    "Cgl.C48_sinh_asinh_partial",
    "Cgl.C48_tanh_atanh_partial",
    "Cgl.C48_tan_atan_partial",
    "Cgl.C48_cos_acos_exact_partial",
    "Cgl.C48_sin_asin_exact",
    "Cgl.C48_cosh_acosh_exact_partial",
    "Cgl.C48_sinh_asinh_exact_partial",
    "Cgl.C48_tanh_atanh_exact_partial",
    "Cgl.C48_tan_atan_exact_partial",
    "Cgl.C48_atanh_fails_real",
    "Cgl.C48_atanh_fails",
    "Cgl.C48_cosh_acosh_interval_partial",
    "Cgl.C48_acosh_fails_real",
    "Cgl.C48_acosh_fails",
    "Cgl.C48_asinh_fails_j",
    "Cgl.C48_asinh_fails",
    "Cgl.C48_acos_fails",
    "Cgl.C48_atan_fails_j",
    "Cgl.C48_atan_fails"
   ],
   "note": "C48_acos_fails: The pure quaternion `j`: `cos (acos j)` has a component along `k`. C48_tan_atan_partial: `atan` panics (its division is unwrapped) when `u - q` is too short to invert, `u` the direction of `q`; otherwise it is a right inverse when the quotient is not a negative real. C48_cos_acos_exact_partial: Missing: pure quaternions. C48_cosh_acosh_exact_partial: Missing: the reals at and below `-1`. (The reals in `(-1, 1)` are in `C48_cosh_acosh_interval_partial`.) C48_sinh_asinh_exact_partial: Missing: pure quaternions longer than one. C48_tanh_atanh_exact_partial: Missing: the reals outside `(-1, 1)`. C48_tan_atan_exact_partial: Missing: pure quaternions of length above one. (Length exactly one is where `tan` has no preimage.) C48_cosh_acosh_interval_partial: The reals strictly between `-1` and `1`: the code answers in the plane of `i`."
  },
  {
   "property": "C49",
   "status": "proved",
   "theorems": [
    "Cgl.C49_product",
    "Cgl.C49_rotation",
    "Cgl.C49_affine",
    "Cgl.C49_degrees",
    "Cgl.C49_zero",
    "Cgl.C49_round_trip",
    "Cgl.C49_rotation3",
    "Cgl.C49_rotation3_round_trip",
    "Cgl.C49_quaternion",
    "Cgl.C49_ranges",
    "Cgl.C49_recover",
    "Cgl.C49_gimbal_lock",
    "Cgl.C49_gimbal_lock_inexact",
    "Cgl.C49_is_zero"
   ],
   "note": ""
  },
  {
   "property": "C50",
   "status": "proved",
   "theorems": [
    "Cgl.C50_radians_range",
    "Cgl.C50_radians_congruent",
    "Cgl.C50_radians_unique",
    "Cgl.C50_radians_idempotent",
    "Cgl.C50_radians_eq_iff",
    "Cgl.C50_radians_trig",
    "Cgl.C50_degrees_range",
    "Cgl.C50_degrees_congruent",
    "Cgl.C50_degrees_unique",
    "Cgl.C50_degrees_idempotent",
    "Cgl.C50_degrees_eq_iff",
    "Cgl.C50_degrees_trig"
   ],
   "note": ""
  },
  {
   "property": "C51",
   "status": "proved",
   "theorems": [
    "Cgl.C51_signed_radians_range",
    "Cgl.C51_signed_radians_congruent",
    "Cgl.C51_signed_radians_unique",
    "Cgl.C51_signed_degrees_range",
    "Cgl.C51_signed_degrees_congruent",
    "Cgl.C51_signed_degrees_unique",
    "Cgl.C51_opposite_radians",
    "Cgl.C51_opposite_degrees",
    "Cgl.C51_opposite_radians_trig",
    "Cgl.C51_opposite_opposite_radians",
    "Cgl.C51_opposite_opposite_degrees",
    "Cgl.C51_bisect_radians",
    "Cgl.C51_bisect_degrees",
    "Cgl.C51_bisect_radians_equidistant",
    "Cgl.C51_bisect_comm_radians",
    "Cgl.C51_bisect_degrees_equidistant",
    "Cgl.C51_opposite_degrees_trig"
   ],
   "note": ""
  },
  {
   "property": "C52",
   "status": "proved",
   "theorems": [
    "Cgl.C52_deg_rad_deg",
    "Cgl.C52_rad_deg_rad",
    "Cgl.C52_conversion_add",
    "Cgl.C52_conversion_scale",
    "Cgl.C52_conversion_lt",
    "Cgl.C52_full_turn",
    "Cgl.C52_half_turn",
    "Cgl.C52_sin",
    "Cgl.C52_cos",
    "Cgl.C52_tan",
    "Cgl.C52_sin_degrees",
    "Cgl.C52_cos_degrees",
    "Cgl.C52_tan_degrees",
    "Cgl.C52_asin",
    "Cgl.C52_acos",
    "Cgl.C52_atan",
    "Cgl.C52_atan2",
    "Cgl.C52_sin_asin",
    "Cgl.C52_cos_acos",
    "Cgl.C52_tan_atan",
    "Cgl.C52_atan2_direction",
    "Cgl.C52_sin_cos",
    "Cgl.C52_csc",
    "Cgl.C52_cot",
    "Cgl.C52_sec",
    "Cgl.C52_cot_degrees",
    "Cgl.C52_fractions_radians",
    "Cgl.C52_fractions_degrees",
    "Cgl.C52_assign_radians",
    "Cgl.C52_assign_degrees",
    "Cgl.C52_ratio",
    "Cgl.C52_reciprocals_degrees"
   ],
   "note": ""
  },
  {
   "property": "C53",
   "status": "proved",
   "theorems": [
    "Cgl.C53_apply_point",
    "Cgl.C53_apply_vector",
    "Cgl.C53_compose",
    "Cgl.C53_comm",
    "Cgl.C53_assoc",
    "Cgl.C53_identity",
    "Cgl.C53_inverse",
    "Cgl.C53_inverse_undoes",
    "Cgl.C53_inverse_mut",
    "Cgl.C53_inverse_inverse",
    "Cgl.C53_between_points",
    "Cgl.C53_between_vectors",
    "Cgl.C53_affine_matrix",
    "Cgl.C53_affine_mul",
    "Cgl.C53_affine_injective",
    "Cgl.C53_transform",
    "Cgl.C53_isometry",
    "Cgl.C53_new"
   ],
   "note": ""
  },
  {
   "property": "C54",
   "status": "proved",
   "theorems": [
    "Cgl.C54_apply",
    "Cgl.C54_compose",
    "Cgl.C54_assoc",
    "Cgl.C54_identity",
    "Cgl.C54_inverse_mut",
    "Cgl.C54_inverse_inverse",
    "Cgl.C54_inverse_mul_rev",
    "Cgl.C54_inverse_apply",
    "Cgl.C54_inverse",
    "Cgl.C54_dot",
    "Cgl.C54_affine_matrix",
    "Cgl.C54_affine_mul",
    "Cgl.C54_transform",
    "Cgl.C54_distance",
    "Cgl.C54_rotation2",
    "Cgl.C54_rotation3",
    "Cgl.C54_rotation3_group"
   ],
   "note": ""
  },
  {
   "property": "C55",
   "status": "proved",
   "theorems": [
    "Cgl.C55_angle2",
    "Cgl.C55_angle2_eq",
    "Cgl.C55_rebuild2",
    "Cgl.C55_angle3",
    "Cgl.C55_angle3_eq",
    "Cgl.C55_axis_none_iff",
    "Cgl.C55_axis",
    "Cgl.C55_half_turn_no_axis",
    "Cgl.C55_angle3_trace",
    "Cgl.C55_rebuild3",
    "Cgl.C55_axis_angle_some_iff"
   ],
   "note": ""
  },
  {
   "property": "C56",
   "status": "proved",
   "theorems": [
    "Cgl.C56_apply",
    "Cgl.C56_compose",
    "Cgl.C56_assoc",
    "Cgl.C56_identity",
    "Cgl.C56_inverse_mut",
    "Cgl.C56_inverse_parts",
    "Cgl.C56_inverse_apply",
    "Cgl.C56_inverse",
    "Cgl.C56_inverse_undoes",
    "Cgl.C56_dot",
    "Cgl.C56_difference",
    "Cgl.C56_affine_matrix",
    "Cgl.C56_affine_mul",
    "Cgl.C56_mixed",
    "Cgl.C56_embeddings",
    "Cgl.C56_transform",
    "Cgl.C56_distance",
    "Cgl.C56_isometry3",
    "Cgl.C56_isometry2",
    "Cgl.C56_isometry3_group",
    "Cgl.C56_isometry2_group"
   ],
   "note": ""
  },
  {
   "property": "C57",
   "status": "proved",
   "theorems": [
    "Cgl.C57_apply",
    "Cgl.C57_compose",
    "Cgl.C57_assoc",
    "Cgl.C57_identity",
    "Cgl.C57_mul_isometry",
    "Cgl.C57_embeddings",
    "Cgl.C57_parts",
    "Cgl.C57_affine_matrix",
    "Cgl.C57_affine_mul",
    "Cgl.C57_transform",
    "Cgl.C57_inverse_parts",
    "Cgl.C57_inverse",
    "Cgl.C57_inverse_undoes",
    "Cgl.C57_distance",
    "Cgl.C57_similarity3",
    "Cgl.C57_similarity3_group",
    "Cgl.C57_similarity2",
    "Cgl.C57_similarity2_group"
   ],
   "note": ""
  },
  {
   "property": "C58",
   "status": "proved",
   "theorems": [
    "Cgl.C58_apply",
    "Cgl.C58_inverse_entry",
    "Cgl.C58_inverse_apply_entry",
    "Cgl.C58_compose",
    "Cgl.C58_comm",
    "Cgl.C58_assoc",
    "Cgl.C58_identity",
    "Cgl.C58_uniform",
    "Cgl.C58_matrix",
    "Cgl.C58_affine_matrix",
    "Cgl.C58_affine_mul",
    "Cgl.C58_matrix_mul",
    "Cgl.C58_inverse",
    "Cgl.C58_inverse_agree",
    "Cgl.C58_singular",
    "Cgl.C58_transform",
    "Cgl.C58_distance",
    "Cgl.C58_new"
   ],
   "note": ""
  },
  {
   "property": "C59",
   "status": "partial",
   "theorems": [
    "Cgl.C59_reflection_apply",
    "Cgl.C59_reflection_fixes",
    "Cgl.C59_reflection_normal",
    "Cgl.C59_reflection_involution",
    "Cgl.C59_reflection_inverse",
    "Cgl.C59_reflection_dot",
    "Cgl.C59_reflection_transform2",
    "Cgl.C59_reflection_transform3",
    "Cgl.C59_shear_apply",
    "Cgl.C59_shear_fixes",
    "Cgl.C59_shear_inverse",
    "Cgl.C59_shear_inverse_inverse",
    "Cgl.C59_shear_inverse_apply",
    "Cgl.C59_shear_identity",
    "Cgl.C59_shear_transform2",
    "Cgl.C59_shear_transform3",
    "Cgl.C59_shear_vector_agrees_iff",
    "Cgl.C59_shear_vector_partial",
    "Cgl.C59_shear_vector_fails",
    "Cgl.C59_shear_mul",
    "Cgl.C59_shear_axes",
    "Cgl.C59_from_normal_bias",
    "Cgl.C59_from_shear"
   ],
   "note": "C59_shear_vector_fails: The defect: for a shear about the origin point (0, 1) along x, `apply_vector` moves even the zero vector, whereas the matrix of the same shear leaves it alone. C59_shear_vector_partial: In particular the shears built without an origin agree with their matrices on vectors."
  },
  {
   "property": "C60",
   "status": "proved",
   "theorems": [
    "Cgl.C60_mul_assoc",
    "Cgl.C60_identity",
    "Cgl.C60_apply_vector",
    "Cgl.C60_apply_vector_linear",
    "Cgl.C60_compose_vector",
    "Cgl.C60_apply_point_panics_iff",
    "Cgl.C60_apply_point",
    "Cgl.C60_compose_point",
    "Cgl.C60_compose_point_panics",
    "Cgl.C60_identity_action",
    "Cgl.C60_affine",
    "Cgl.C60_try_inverse2",
    "Cgl.C60_try_inverse3",
    "Cgl.C60_inverse",
    "Cgl.C60_undo_point",
    "Cgl.C60_undo_vector",
    "Cgl.C60_inverse_apply",
    "Cgl.C60_undo_vector_projective_fails",
    "Cgl.C60_projections"
   ],
   "note": "C60_undo_vector_projective_fails: a projective transform can be inverted on points but `inverse_apply_vector` need not undo `apply_vector`: affineness is needed"
  },
  {
   "property": "C61",
   "status": "partial",
   "theorems": [
    "Cgl.C61_vector",
    "Cgl.C61_point",
    "Cgl.C61_matrix",
    "Cgl.C61_complex",
    "Cgl.C61_quaternion",
    "Cgl.C61_radians",
    "Cgl.C61_degrees",
    "Cgl.C61_euler",
    "Cgl.C61_translation",
    "Cgl.C61_scale",
    "Cgl.C61_rotation",
    "Cgl.C61_transform",
    "Cgl.C61_perspective",
    "Cgl.C61_orthographic",
    "Cgl.C61_isometry_relative",
    "Cgl.C61_similarity",
    "Cgl.C61_reflection",
    "Cgl.C61_shear",
    "Cgl.C61_refl",
    "Cgl.C61_symm",
    "Cgl.C61_symm_each",
    "Cgl.C61_zero",
    "Cgl.C61_mono",
    "Cgl.C61_triangle",
    "Cgl.C61_relative",
    "Cgl.C61_isometry_fails",
    "Cgl.C61_isometry_not_componentwise",
    "Cgl.C61_isometry_partial"
   ],
   "note": "C61_isometry_fails: The full property fails: the translations are not looked at, so isometries any distance apart compare equal. C61_isometry_partial: What does hold: it accepts exactly when the rotation components are close."
  },
  {
   "property": "C62",
   "status": "proved",
   "theorems": [
    "Cgl.C62_cast",
    "Cgl.C62_int_sign",
    "Cgl.C62_int_sign_zero",
    "Cgl.C62_int_abs",
    "Cgl.C62_int_signum",
    "Cgl.C62_int_signum_abs",
    "Cgl.C62_int_copysign",
    "Cgl.C62_int_copysign_min",
    "Cgl.C62_int_copysign_doc_fails",
    "Cgl.C62_int_min_max",
    "Cgl.C62_int_clamp",
    "Cgl.C62_int_bounds",
    "Cgl.C62_clamp",
    "Cgl.C62_float_clamp",
    "Cgl.C62_float_clamp_nan_bound",
    "Cgl.C62_float_copysign",
    "Cgl.C62_float_sign",
    "Cgl.C62_float_signum",
    "Cgl.C62_float_infinity_mul",
    "Cgl.C62_float_max_min",
    "Cgl.C62_min_add_max"
   ],
   "note": ""
  },
  {
   "property": "C63",
   "status": "proved",
   "theorems": [
    "Cgl.C63_vector_index",
    "Cgl.C63_point_index",
    "Cgl.C63_quaternion_index",
    "Cgl.C63_complex_index",
    "Cgl.C63_matrix_write",
    "Cgl.C63_cast_round_trip",
    "Cgl.C63_vector_as_tuple",
    "Cgl.C63_matrix_as",
    "Cgl.C63_matrix_set_column",
    "Cgl.C63_vector_fields",
    "Cgl.C63_point_fields",
    "Cgl.C63_view_shapes",
    "Cgl.C63_matrix_fields",
    "Cgl.C63_quaternion_fields",
    "Cgl.C63_lengths",
    "Cgl.C63_slices",
    "Cgl.C63_vector_range",
    "Cgl.C63_range_point_quaternion",
    "Cgl.C63_pointers",
    "Cgl.C63_new",
    "Cgl.C63_from_fill",
    "Cgl.C63_map",
    "Cgl.C63_conversions",
    "Cgl.C63_truncate",
    "Cgl.C63_unit_vectors"
   ],
   "note": ""
  },
  {
   "property": "C64",
   "status": "proved",
   "theorems": [
    "Cgl.C64_vector",
    "Cgl.C64_point",
    "Cgl.C64_vector_complete",
    "Cgl.C64_point_complete",
    "Cgl.C64_round_trip"
   ],
   "note": ""
  },
  {
   "property": "C65",
   "status": "proved",
   "theorems": [
    "Cgl.C65_vector",
    "Cgl.C65_point",
    "Cgl.C65_empty",
    "Cgl.C65_matrix",
    "Cgl.C65_matrix_empty",
    "Cgl.C65_scalars",
    "Cgl.C65_transforms",
    "Cgl.C65_projections",
    "Cgl.C65_vector_injective"
   ],
   "note": ""
  },
  {
   "property": "C66",
   "status": "proved",
   "theorems": [
    "Cgl.C66_vector",
    "Cgl.C66_dot_comm",
    "Cgl.C66_dot_neg",
    "Cgl.C66_norm_nonneg",
    "Cgl.C66_norm_neg",
    "Cgl.C66_cross",
    "Cgl.C66_lerp",
    "Cgl.C66_point",
    "Cgl.C66_identity",
    "Cgl.C66_transpose",
    "Cgl.C66_matrix",
    "Cgl.C66_determinant2",
    "Cgl.C66_complex",
    "Cgl.C66_quaternion",
    "Cgl.C66_add_assoc_fails",
    "Cgl.C66_lerp_one_fails"
   ],
   "note": "C66_add_assoc_fails: `f64` addition is not associative: `(1 + -1) + 2^-60` is `2^-60`, but `1 + (-1 + 2^-60)` is zero. C66_lerp_one_fails: `lerp` with amount one does not return its second argument in `f64`: between 1 and `2^-60` it ends at 0. Likewise `p + (q - p)` is not `q`."
  },
  {
   "property": "C67",
   "status": "proved",
   "theorems": [
    "Cgl.C67_ieee_dot",
    "Cgl.C67_ieee_norm",
    "Cgl.C67_ieee_vector",
    "Cgl.C67_ieee_cross",
    "Cgl.C67_ieee_matrix",
    "Cgl.C67_ieee_determinant",
    "Cgl.C67_ieee_products",
    "Cgl.C67_ieee_dot_error",
    "Cgl.C67_ieee_product_error",
    "Cgl.C67_ieee_matrix_vector_error",
    "Cgl.C67_f64_transform",
    "Cgl.C67_dot",
    "Cgl.C67_matrix_product",
    "Cgl.C67_matrix_vector",
    "Cgl.C67_norm_squared",
    "Cgl.C67_norm",
    "Cgl.C67_normalize_component",
    "Cgl.C67_normalize",
    "Cgl.C67_lerp",
    "Cgl.C67_cross",
    "Cgl.C67_complex_product",
    "Cgl.C67_determinant2",
    "Cgl.C67_determinant3",
    "Cgl.C67_determinant4",
    "Cgl.C67_quaternion_product",
    "Cgl.C67_normalize_f64",
    "Cgl.C67_dot_f64"
   ],
   "note": ""
  },
  {
   "property": "C68",
   "status": "proved",
   "theorems": [
    "Cgl.C68_vector_hom",
    "Cgl.C68_cross_hom",
    "Cgl.C68_matrix_hom",
    "Cgl.C68_determinant_hom",
    "Cgl.C68_complex_hom",
    "Cgl.C68_quaternion_hom",
    "Cgl.C68_dot",
    "Cgl.C68_vector",
    "Cgl.C68_cross",
    "Cgl.C68_matrix",
    "Cgl.C68_determinant",
    "Cgl.C68_complex",
    "Cgl.C68_quaternion",
    "Cgl.C68_unsigned"
   ],
   "note": ""
  },
  {
   "property": "C69",
   "status": "proved",
   "theorems": [
    "Cgl.C69_vector",
    "Cgl.C69_dot",
    "Cgl.C69_norm",
    "Cgl.C69_cross",
    "Cgl.C69_normalize",
    "Cgl.C69_try_normalize",
    "Cgl.C69_matrix_product",
    "Cgl.C69_matrix_vector",
    "Cgl.C69_trace",
    "Cgl.C69_determinant2",
    "Cgl.C69_determinant3",
    "Cgl.C69_determinant4",
    "Cgl.C69_inverse_nan",
    "Cgl.C69_complex",
    "Cgl.C69_quaternion",
    "Cgl.C69_is_finite",
    "Cgl.C69_complex_kinds",
    "Cgl.C69_max_norms_hide_nan",
    "Cgl.C69_linf_norm_fails",
    "Cgl.C69_linf_norm_inf",
    "Cgl.C69_normalize_overflow_fails",
    "Cgl.C69_normalize_underflow_fails"
   ],
   "note": "C69_linf_norm_fails: So these norms do not show special values as the other norms do: the vector (NaN, 1) has L-infinity norm 1. C69_normalize_overflow_fails: Normalizing a finite non-zero `f64` vector can return the zero vector: the squared norm of `(2^600, 0, 0)` overflows. C69_normalize_underflow_fails: Normalizing a finite non-zero `f64` vector can return infinities and NaN: the squared norm of `(2^-600, 0, 0)` underflows to zero. `try_normalize` returns `None` for it."
  },
  {
   "property": "C70",
   "status": "partial",
   "theorems": [
    "Cgl.C70_vector",
    "Cgl.C70_matrix",
    "Cgl.C70_point",
    "Cgl.C70_quaternion",
    "Cgl.C70_complex",
    "Cgl.C70_radians",
    "Cgl.C70_degrees",
    "Cgl.C70_euler",
    "Cgl.C70_translation",
    "Cgl.C70_scale",
    "Cgl.C70_rotation",
    "Cgl.C70_transform",
    "Cgl.C70_perspective",
    "Cgl.C70_orthographic",
    "Cgl.C70_isometry_relative",
    "Cgl.C70_similarity",
    "Cgl.C70_reflection",
    "Cgl.C70_shear",
    "Cgl.C70_unit",
    "Cgl.C70_unit_vector",
    "Cgl.C70_abs_diff",
    "Cgl.C70_relative",
    "Cgl.C70_isometry_fails",
    "Cgl.C70_isometry_partial"
   ],
   "note": "C70_isometry_fails: The exception: `abs_diff_all_eq` of isometries accepts values although the report shows a difference above the tolerance, for any tolerance. C70_isometry_partial: What holds for it: it accepts exactly when the rotation part of the report is within tolerance."
  },
  {
   "property": "C71",
   "status": "proved",
   "theorems": [
    "Cgl.C71_dim_add",
    "Cgl.C71_dim_sub",
    "Cgl.C71_dim_mul",
    "Cgl.C71_dim_lt",
    "Cgl.C71_extend",
    "Cgl.C71_extend_contract",
    "Cgl.C71_product",
    "Cgl.C71_tr_mul",
    "Cgl.C71_product_assoc",
    "Cgl.C71_product_assoc_fails",
    "Cgl.C71_embed",
    "Cgl.C71_affine",
    "Cgl.C71_affine_product"
   ],
   "note": "C71_product_assoc_fails: Beyond four they do not: a `1 x 5` by `5 x 1` by `1 x 1` product type-checks in one order only."
  },
  {
   "property": "C72",
   "status": "proved",
   "theorems": [
    "Cgl.C72_div_infinity_fails",
    "Cgl.C72_div_zero_fails",
    "Cgl.C72_try_inverse",
    "Cgl.C72_powu_nan",
    "Cgl.C72_powi_nan_fails",
    "Cgl.C72_powi_negative",
    "Cgl.C72_powf_zero",
    "Cgl.C72_powf_fails",
    "Cgl.C72_powf_zero_negative",
    "Cgl.C72_asinh",
    "Cgl.C72_acosh",
    "Cgl.C72_atanh",
    "Cgl.C72_atanh_negative_zero_fails",
    "Cgl.C72_acos",
    "Cgl.C72_acos_negative_zero_fails",
    "Cgl.C72_sinh",
    "Cgl.C72_cosh",
    "Cgl.C72_cosh_even_fails",
    "Cgl.C72_tanh",
    "Cgl.C72_tanh_overflow",
    "Cgl.C72_turned",
    "Cgl.C72_imaginary_infinity",
    "Cgl.C72_exp",
    "Cgl.C72_exp_fails",
    "Cgl.C72_ln",
    "Cgl.C72_ln_fails",
    "Cgl.C72_sqrt",
    "Cgl.C72_sqrt_fails",
    "Cgl.C72_tanh_overflow_fails"
   ],
   "note": "C72_div_infinity_fails: A quotient by a number with an infinite or NaN part is NaN in both parts, whatever the dividend (annex G prescribes a zero for a finite dividend and an infinite divisor). C72_div_zero_fails: A quotient by zero, of whatever signs, is NaN in both parts, whatever the dividend (annex G prescribes an infinity for a dividend other than zero; the quotient of the scalars is infinite). C72_powi_nan_fails: `powi` with a positive exponent returns a number with a NaN part unchanged, with the other part as it is: not what `powu` and the product return. C72_powf_fails: Zero to the power zero is one with a complex or an integer exponent, but NaN with a real one. C72_atanh_negative_zero_fails: At one the sign of a zero imaginary part is dropped: `atanh` does not commute with conjugation there. C72_acos_negative_zero_fails: With an imaginary part `-0` the conjugate of the prescribed value is returned: the code asks whether the imaginary part is below zero, not for its sign. C72_cosh_even_fails: So `cosh` is not even there: the sign of the zero imaginary part is wrong for a negative real part. C72_exp_fails: The other rows do not hold: `exp` of positive infinity plus zero `i` has a NaN imaginary part (prescribed: zero), `exp` of negative infinity plus an infinity or NaN is NaN (prescribed: zero), and `exp` of positive infinity plus an infinity or NaN has a NaN real part (prescribed: infinity). C72_ln_fails: An infinite part with a NaN part has a NaN logarithm (prescribed: infinity plus NaN `i`). C72_sqrt_fails: The others do not hold: the square root of positive infinity with a zero imaginary part has a NaN imaginary part (prescribed: zero), and an infinite part with a NaN part gives NaN (prescribed: an infinite part). C72_tanh_overflow_fails: `tanh` of `1024` is NaN in double precision, with correctly rounded library functions."
  },
  {
   "property": "C73",
   "status": "proved",
   "theorems": [
    "Cgl.C73_coordinates",
    "Cgl.C73_compose",
    "Cgl.C73_compose_mixed",
    "Cgl.C73_expression",
    "Cgl.C73_identity",
    "Cgl.C73_affine",
    "Cgl.C73_matrix",
    "Cgl.C73_reflection",
    "Cgl.C73_shear",
    "Cgl.C73_inverse",
    "Cgl.C73_transform",
    "Cgl.C73_transform_compose",
    "Cgl.C73_transform_affine",
    "Cgl.C73_to_transform",
    "Cgl.C73_shear_mul",
    "Cgl.C73_orthographic",
    "Cgl.C73_perspective"
   ],
   "note": ""
  },
  {
   "property": "C74",
   "status": "partial",
   "theorems": [
    "Cgl.C74_additive_and_units",
    "Cgl.C74_multiplicative",
    "Cgl.C74_conjugation",
    "Cgl.C74_multiplicative_inverse",
    "Cgl.C74_modulus_squared",
    "Cgl.C74_l1_norm",
    "Cgl.C74_modulus",
    "Cgl.C74_exp",
    "Cgl.C74_ln",
    "Cgl.C74_exp_ln_identity_partial",
    "Cgl.C74_exp_ln_identity_fails",
    "Cgl.C74_arg",
    "Cgl.C74_arg_congruent",
    "Cgl.C74_square_root",
    "Cgl.C74_square_root_arg_range",
    "Cgl.C74_cubed_root",
    "Cgl.C74_trig_real",
    "Cgl.C74_tan_real",
    "Cgl.C74_tan_real_fails",
    "Cgl.C74_parity",
    "Cgl.C74_tangent_parity",
    "Cgl.C74_addition",
    "Cgl.C74_tangent_addition",
    "Cgl.C74_tangent_double",
    "Cgl.C74_inverse_functions",
    "Cgl.C74_inverse_tangents",
    "Cgl.C74_asinh_odd",
    "Cgl.C74_asinh_conj",
    "Cgl.C74_asin_conjugate_partial",
    "Cgl.C74_acos_conjugate_partial",
    "Cgl.C74_atanh_conj",
    "Cgl.C74_atan_conjugate_partial",
    "Cgl.C74_inverse_conjugate_fails"
   ],
   "note": "C74_exp_ln_identity_fails: ... so not for all. (In the exact reals `ln 0` is `0`; in floating point it is `-∞`, whose exponential is the zero that this theorem's model cannot produce.) C74_inverse_conjugate_fails: On the cuts the three laws fail: at `2`, `2` and `2i`. C74_exp_ln_identity_partial: spec_complex.rs 1325-1340: `exp (ln z) = z`, exactly for the non-zero numbers ... C74_asin_conjugate_partial: spec_complex.rs 2022-2037: `asin` commutes with conjugation exactly off its branch cuts, the real axis beyond `±1` (the test samples no real numbers) ... C74_acos_conjugate_partial: ... and `acos` likewise, spec_complex.rs 1999-2014."
  },
  {
   "property": "C75",
   "status": "partial",
   "theorems": [
    "Cgl.C75_additive_and_units",
    "Cgl.C75_multiplicative",
    "Cgl.C75_dot",
    "Cgl.C75_conjugation",
    "Cgl.C75_pure_unit_squared",
    "Cgl.C75_square_roots_of_minus_one",
    "Cgl.C75_multiplicative_inverse",
    "Cgl.C75_modulus_squared",
    "Cgl.C75_l1_norm",
    "Cgl.C75_modulus",
    "Cgl.C75_exp",
    "Cgl.C75_ln_scalar_part_partial",
    "Cgl.C75_ln_scalar_part_error",
    "Cgl.C75_ln_scalar_part_fails",
    "Cgl.C75_arg_range",
    "Cgl.C75_exp_ln_identity_partial",
    "Cgl.C75_arg_congruent",
    "Cgl.C75_square_root_partial",
    "Cgl.C75_square_root_fails",
    "Cgl.C75_square_root_product_norm_partial",
    "Cgl.C75_square_root_product_norm_exact",
    "Cgl.C75_square_root_product_norm_fails",
    "Cgl.C75_square_root_arg_range",
    "Cgl.C75_double_angle",
    "Cgl.C75_tangent_double_angle",
    "Cgl.C75_parity"
   ],
   "note": "C75_ln_scalar_part_fails: ... but for no positive threshold exactly for all. C75_square_root_fails: With a positive threshold the square of the square root is not always the argument: a quaternion shorter than the threshold has the square root zero. C75_square_root_product_norm_fails: ... and not for all when it is positive: a short factor has the square root zero. C75_ln_scalar_part_partial: spec_quaternion.rs 1203-1218: the scalar part of the logarithm is the logarithm of the norm, whenever the vector part is zero or longer than the threshold ... C75_exp_ln_identity_partial: spec_quaternion.rs 1246-1256: `exp (ln q) = q` holds for every quaternion with non-zero vector part or positive scalar when the threshold is `0`; C44_exp_ln_partial, C44_exp_ln_error and C44_exp_ln_fails give the exact condition, the error bound and the witness for a positive one. C75_square_root_partial: spec_quaternion.rs 1326-1374: squares of square roots. Exact for every quaternion when the threshold is `0`; for a positive one exact when the vector part is zero or longer than the threshold and the quaternion is zero or longer than it, and within `2 eps` always. C75_square_root_product_norm_partial: spec_quaternion.rs 1383-1393: the norm of the square root of a product is the product of the norms of the square roots, when the factors and the product are zero or longer than the threshold ..."
  },
  {
   "property": "C76",
   "status": "proved",
   "theorems": [
    "Cgl.C76_vector_space",
    "Cgl.C76_vector_dot",
    "Cgl.C76_vector_cross",
    "Cgl.C76_synonyms",
    "Cgl.C76_points",
    "Cgl.C76_vector_norm_squared",
    "Cgl.C76_vector_l1_norm",
    "Cgl.C76_vector_linf_norm",
    "Cgl.C76_point_norm_squared",
    "Cgl.C76_norm",
    "Cgl.C76_lp_norm",
    "Cgl.C76_matrix_space",
    "Cgl.C76_matrix_product",
    "Cgl.C76_matrix_transpose",
    "Cgl.C76_matrix_dot",
    "Cgl.C76_matrix_trace",
    "Cgl.C76_row_vectors",
    "Cgl.C76_matrix_vector",
    "Cgl.C76_swap_rows",
    "Cgl.C76_swap_columns",
    "Cgl.C76_swap",
    "Cgl.C76_matrix_norm_squared",
    "Cgl.C76_matrix_l1_norm",
    "Cgl.C76_matrix_linf_norm",
    "Cgl.C76_matrix_norm"
   ],
   "note": ""
  },
  {
   "property": "C77",
   "status": "proved",
   "theorems": [
    "Cgl.C77_isometry",
    "Cgl.C77_isometry_angles",
    "Cgl.C77_rotation",
    "Cgl.C77_rotation_angles",
    "Cgl.C77_rotation_angle",
    "Cgl.C77_similarity",
    "Cgl.C77_similarity_angles",
    "Cgl.C77_reflection_determinant",
    "Cgl.C77_reflection_involution",
    "Cgl.C77_shear_inverse",
    "Cgl.C77_shear_axis_inverse",
    "Cgl.C77_reflection_norm",
    "Cgl.C77_shear_trace_determinant",
    "Cgl.C77_shear_asymmetric",
    "Cgl.C77_shear_asymmetric_tolerance",
    "Cgl.C77_scale",
    "Cgl.C77_translation",
    "Cgl.C77_scale_inverse",
    "Cgl.C77_transform",
    "Cgl.C77_transform_vector_fails",
    "Cgl.C77_euler"
   ],
   "note": "C77_transform_vector_fails: for projective matrices the law about vectors fails"
  },
  {
   "property": "C78",
   "status": "proved",
   "theorems": [
    "Cgl.C78_planes",
    "Cgl.C78_near_far_planes",
    "Cgl.C78_depth_order",
    "Cgl.C78_depth_along_line",
    "Cgl.C78_depth_comment_fails",
    "Cgl.C78_lines_through_eye",
    "Cgl.C78_parameters",
    "Cgl.C78_unit",
    "Cgl.C78_unit_try",
    "Cgl.C78_angle_additive",
    "Cgl.C78_angle_inverses",
    "Cgl.C78_angle_congruent",
    "Cgl.C78_angle_pythagorean",
    "Cgl.C78_angle_normalize",
    "Cgl.C78_angle_normalize_signed_comment_fails"
   ],
   "note": "C78_depth_comment_fails: the order the comment of those tests states is the reverse of the true one C78_angle_normalize_signed_comment_fails: the interval the comment of the last test states, closed at minus half a turn and open at half a turn, is not the one: half a turn is left as it is"
  },
  {
   "property": "C79",
   "status": "proved",
   "theorems": [
    "Cgl.C79_quaternion_step",
    "Cgl.C79_quaternion_chain",
    "Cgl.C79_quaternion_norm",
    "Cgl.C79_complex_step",
    "Cgl.C79_complex_chain",
    "Cgl.C79_matrix_chain",
    "Cgl.C79_matrix_lengths",
    "Cgl.C79_normalized_history",
    "Cgl.C79_quaternion_million",
    "Cgl.C79_rotation_million",
    "Cgl.C79_history_f64"
   ],
   "note": ""
  },
  {
   "property": "C80",
   "status": "proved",
   "theorems": [
    "Cgl.C80_ieee_special",
    "Cgl.C80_ieee_degrees",
    "Cgl.C80_ieee_radians",
    "Cgl.C80_ieee_negative_zero",
    "Cgl.C80_remainder_exact",
    "Cgl.C80_degrees_normalize",
    "Cgl.C80_radians_normalize",
    "Cgl.C80_degrees_range",
    "Cgl.C80_radians_range",
    "Cgl.C80_degrees_congruent",
    "Cgl.C80_radians_congruent",
    "Cgl.C80_radians_trig",
    "Cgl.C80_degrees_signed",
    "Cgl.C80_radians_signed",
    "Cgl.C80_degrees_opposite",
    "Cgl.C80_radians_opposite",
    "Cgl.C80_degrees_bisect",
    "Cgl.C80_radians_bisect",
    "Cgl.C80_to_radians",
    "Cgl.C80_to_degrees",
    "Cgl.C80_conversion_monotone",
    "Cgl.C80_round_trip",
    "Cgl.C80_normalize_full_turn_fails",
    "Cgl.C80_normalize_full_turn_radians_fails"
   ],
   "note": "C80_normalize_full_turn_fails: In `f64` `normalize` can return a full turn, although it is documented to return an angle less than a full turn: the remainder of a tiny negative angle plus a full turn rounds to a full turn. Normalizing again gives zero, so the operation is not idempotent either. C80_normalize_full_turn_radians_fails: The same in radians."
  },
  {
   "property": "C81",
   "status": "proved",
   "theorems": [
    "Cgl.C81_vector",
    "Cgl.C81_dot",
    "Cgl.C81_cross",
    "Cgl.C81_matrix",
    "Cgl.C81_determinant",
    "Cgl.C81_complex",
    "Cgl.C81_quaternion",
    "Cgl.C81_dot_returns",
    "Cgl.C81_dot_safe",
    "Cgl.C81_dot_unsigned",
    "Cgl.C81_matrix_safe",
    "Cgl.C81_division",
    "Cgl.C81_exact_matrix",
    "Cgl.C81_exact_determinant",
    "Cgl.C81_exact_quaternion",
    "Cgl.C81_determinant_safe",
    "Cgl.C81_cross_safe",
    "Cgl.C81_quaternion_safe",
    "Cgl.C81_release",
    "Cgl.C81_debug_stricter"
   ],
   "note": ""
  },
  {
   "property": "C82",
   "status": "proved",
   "theorems": [
    "Cgl.C82_correctly_rounded",
    "Cgl.C82_angle2",
    "Cgl.C82_angle_x3",
    "Cgl.C82_angle_y3",
    "Cgl.C82_angle_z3",
    "Cgl.C82_affine_angle3",
    "Cgl.C82_affine_angle_x4",
    "Cgl.C82_affine_angle_y4",
    "Cgl.C82_affine_angle_z4",
    "Cgl.C82_complex",
    "Cgl.C82_axis_angle_entries",
    "Cgl.C82_axis_angle",
    "Cgl.C82_halves",
    "Cgl.C82_quaternion",
    "Cgl.C82_quaternion_chain",
    "Cgl.C82_axis",
    "Cgl.C82_to_matrix_entries",
    "Cgl.C82_to_matrix",
    "Cgl.C82_coordinate_chain",
    "Cgl.C82_library53",
    "Cgl.C82_quaternion_f64",
    "Cgl.C82_axis_angle_f64",
    "Cgl.C82_to_matrix_f64"
   ],
   "note": ""
  },
  {
   "property": "C83",
   "status": "proved",
   "theorems": [
    "Cgl.C83_inverse2",
    "Cgl.C83_inverse3",
    "Cgl.C83_inverse4",
    "Cgl.C83_inverse1",
    "Cgl.C83_singular2",
    "Cgl.C83_doubt_le",
    "Cgl.C83_bounded",
    "Cgl.C83_inverse4_f64",
    "Cgl.C83_rejects_invertible",
    "Cgl.C83_accepts_singular"
   ],
   "note": ""
  },
  {
   "property": "C84",
   "status": "proved",
   "theorems": [
    "Cgl.C84_vector_f64",
    "Cgl.C84_vector_f32",
    "Cgl.C84_vector3_f64",
    "Cgl.C84_quaternion_f64",
    "Cgl.C84_complex_f64",
    "Cgl.C84_try_normalize_f64",
    "Cgl.C84_overflow_f64",
    "Cgl.C84_underflow_f64"
   ],
   "note": ""
  },
  {
   "property": "C85",
   "status": "proved",
   "theorems": [
    "Cgl.C85_rotation_between_2d_fails",
    "Cgl.C85_rotation_between_3d_fails",
    "Cgl.C85_rotation_angle_fails",
    "Cgl.C85_euler_from_quaternion_fails",
    "Cgl.C85_quaternion_sqrt_fails",
    "Cgl.C85_quaternion_ln",
    "Cgl.C85_quaternion_rotation_between",
    "Cgl.C85_rotation2_rotation_between",
    "Cgl.C85_slerp",
    "Cgl.C85_from_matrix"
   ],
   "note": "C85_rotation_between_2d_fails: `Matrix2x2::rotation_between` of `(3, 4)` and itself is a matrix of NaNs. C85_rotation_between_3d_fails: `Matrix3x3::rotation_between` of `(3, 4, 0)` and `(3, 4, 2 ^ -26)` is a matrix of NaNs; `2 ^ -52` is `f64::EPSILON`, the threshold of the public function. C85_rotation_angle_fails: The angle of the half turn about the diagonal `(1, 1, 0)` is NaN. C85_euler_from_quaternion_fails: The second Euler angle of the quaternion `3 + i + 3j + k` is NaN. C85_quaternion_sqrt_fails: The square root of the quaternion `-1 + 2^-30 i` has a NaN scalar part and an infinite vector part."
  },
  {
   "property": "C86",
   "status": "proved",
   "theorems": [
    "Cgl.C86_quaternion_history",
    "Cgl.C86_quaternion_frames",
    "Cgl.C86_complex_history",
    "Cgl.C86_quaternion_million",
    "Cgl.C86_rotation_million"
   ],
   "note": ""
  },
  {
   "property": "C87",
   "status": "proved",
   "theorems": [
    "Cgl.C87_look_to3",
    "Cgl.C87_look_at3",
    "Cgl.C87_look_to4",
    "Cgl.C87_look_at4",
    "Cgl.C87_along_axis_nan",
    "Cgl.C87_view_to",
    "Cgl.C87_view_at",
    "Cgl.C87_views_unique"
   ],
   "note": ""
  },
  {
   "property": "C88",
   "status": "proved",
   "theorems": [
    "Cgl.C88_orthographic_sides",
    "Cgl.C88_orthographic_heights",
    "Cgl.C88_orthographic_planes",
    "Cgl.C88_perspective_planes",
    "Cgl.C88_perspective_sides",
    "Cgl.C88_perspective_heights",
    "Cgl.C88_orthographic_matrix",
    "Cgl.C88_perspective_matrix",
    "Cgl.C88_vfov_matrix",
    "Cgl.C88_orthographic_point",
    "Cgl.C88_orthographic_box",
    "Cgl.C88_perspective_point",
    "Cgl.C88_orthographic_lost_fails",
    "Cgl.C88_perspective_lost_fails",
    "Cgl.C88_first_quadrant_fails"
   ],
   "note": "C88_orthographic_lost_fails: In every floating-point format: if the distance `left` is zero or is lost in `right` by rounding, the orthographic projection reports NaN as its `right`, and `unproject_point` and `unproject_vector` return NaN in the first coordinate, for every argument. The same holds of `bottom` and `top`, and of `near` and `far`. C88_perspective_lost_fails: A perspective projection: if `left` is zero or lost in `right`, `right` is reported as NaN and the first coordinate of every unprojected point and vector is NaN; the same holds of `bottom` and `top`. If `near` is lost in `far`, then `near` and all four sides are reported as NaN, and all coordinates of unprojected points and vectors are. C88_first_quadrant_fails: So a first-quadrant box, with `left = 0` and `bottom = 0`, is never unprojected, and neither is a box that begins at the eye, with `near = 0`."
  },
  {
   "property": "C89",
   "status": "proved",
   "theorems": [
    "Cgl.C89_turns",
    "Cgl.C89_moves",
    "Cgl.C89_motion",
    "Cgl.C89_points",
    "Cgl.C89_vectors",
    "Cgl.C89_round_trip",
    "Cgl.C89_million"
   ],
   "note": ""
  },
  {
   "property": "C90",
   "status": "proved",
   "theorems": [
    "Cgl.C90_isometry_point",
    "Cgl.C90_isometry_vector",
    "Cgl.C90_rotation_point",
    "Cgl.C90_rotation_vector",
    "Cgl.C90_translation_point",
    "Cgl.C90_translation_vector",
    "Cgl.C90_scale_point",
    "Cgl.C90_scale_vector",
    "Cgl.C90_isometry_product",
    "Cgl.C90_rotation_product",
    "Cgl.C90_translation_product",
    "Cgl.C90_rotation_translation",
    "Cgl.C90_translation_rotation",
    "Cgl.C90_isometry_translation",
    "Cgl.C90_translation_isometry",
    "Cgl.C90_isometry_rotation",
    "Cgl.C90_rotation_isometry",
    "Cgl.C90_scale_product",
    "Cgl.C90_identity",
    "Cgl.C90_from_isometry",
    "Cgl.C90_infinite_point",
    "Cgl.C90_infinite_fails",
    "Cgl.C90_similarity_overflow",
    "Cgl.C90_similarity_overflow_fails"
   ],
   "note": "C90_infinite_fails: So on points that are not finite the two differ: the identity translation leaves `(∞, 0)` alone, its matrix turns both coordinates into NaN. C90_similarity_overflow_fails: In `f64`: scaling by `2^600` and the point `(2^600, 0)`."
  },
  {
   "property": "C91",
   "status": "proved",
   "theorems": [
    "Cgl.C91_from_matrix",
    "Cgl.C91_to_matrix",
    "Cgl.C91_to_matrix_near",
    "Cgl.C91_quaternion_round_trip",
    "Cgl.C91_matrix_round_trip",
    "Cgl.C91_from_rotation",
    "Cgl.C91_variants",
    "Cgl.C91_f64",
    "Cgl.C91_f32"
   ],
   "note": ""
  },
  {
   "property": "C92",
   "status": "proved",
   "theorems": [
    "Cgl.C92_nlerp",
    "Cgl.C92_nlerp_arc",
    "Cgl.C92_slerp",
    "Cgl.C92_slerp_f64",
    "Cgl.C92_slerp_unit",
    "Cgl.C92_arc",
    "Cgl.C92_slerp_uniform",
    "Cgl.C92_slerp_f32"
   ],
   "note": ""
  },
  {
   "property": "C93",
   "status": "proved",
   "theorems": [
    "Cgl.C93_plane",
    "Cgl.C93_plane_f64",
    "Cgl.C93_between",
    "Cgl.C93_between_acute",
    "Cgl.C93_between_opposite",
    "Cgl.C93_vectors",
    "Cgl.C93_f64",
    "Cgl.C93_f32",
    "Cgl.C93_parallel",
    "Cgl.C93_matrix_f64"
   ],
   "note": ""
  },
  {
   "property": "C94",
   "status": "proved",
   "theorems": [
    "Cgl.C94_axis_angle",
    "Cgl.C94_quaternion",
    "Cgl.C94_quaternion_matrix",
    "Cgl.C94_affine_axis_angle",
    "Cgl.C94_angle_x",
    "Cgl.C94_angle_y",
    "Cgl.C94_angle_z",
    "Cgl.C94_angle_plane",
    "Cgl.C94_euler",
    "Cgl.C94_transforms",
    "Cgl.C94_transforms_xyz",
    "Cgl.C94_from_euler",
    "Cgl.C94_f64",
    "Cgl.C94_f32"
   ],
   "note": ""
  },
  {
   "property": "C95",
   "status": "partial",
   "theorems": [
    "Cgl.C95_round_trip_partial",
    "Cgl.C95_from_quaternion_partial",
    "Cgl.C95_angles_partial",
    "Cgl.C95_rotation3",
    "Cgl.C95_gimbal_lock_fails",
    "Cgl.C95_gimbal_lock_fails_f64",
    "Cgl.C95_round_trip_f64_partial"
   ],
   "note": "C95_gimbal_lock_fails: With a library for which the cosine of the inverse sine of one is not exactly zero, rotations in gimbal lock are not recovered, although the matrix is exact: the error of some entry exceeds `9/10`. C95_round_trip_partial: **Away from gimbal lock.** The rotation is rebuilt with an error of at most `30 (ε + d) / c`, where `c` is the cosine of the second angle. C95_from_quaternion_partial: The same from a quaternion near a unit quaternion. C95_angles_partial: From Euler angles to the matrix, to the extracted angles and to their matrix, which is near the rotation of the first angles unless the cosine of the second is small. C95_round_trip_f64_partial: In `f64`, for matrices accurate to `2^-45`, with a library accurate to a few units: the rebuilt rotation is within `2^-40 / c`."
  },
  {
   "property": "C96",
   "status": "proved",
   "theorems": [
    "Cgl.C96_axis",
    "Cgl.C96_no_axis",
    "Cgl.C96_angle",
    "Cgl.C96_rebuild",
    "Cgl.C96_symmetric",
    "Cgl.C96_f64",
    "Cgl.C96_f32",
    "Cgl.C96_small_angle_fails"
   ],
   "note": "C96_small_angle_fails: **No bound holds for all angles.** With any accurate library, the rotation by the angle `2^-28` about the third axis, given correctly rounded, has an axis, but the rotation about that axis by the angle that is found is off by more than `2^-29`: half of the rotation or more is lost."
  },
  {
   "property": "C97",
   "status": "proved",
   "theorems": [
    "Cgl.C97_exp",
    "Cgl.C97_ln",
    "Cgl.C97_powf",
    "Cgl.C97_exp_ln",
    "Cgl.C97_ln_small",
    "Cgl.C97_f64",
    "Cgl.C97_small_angle_fails"
   ],
   "note": "C97_small_angle_fails: **No such bound holds for small angles.** Whatever the library, the logarithm of the quaternion `(1, 0, 0, 2^-28)`, which is accurate to `2^-53`, is zero up to `2^-45`: the angle `2^-27` of the rotation is lost, and the exponential of the logarithm is not the quaternion."
  },
  {
   "property": "C98",
   "status": "proved",
   "theorems": [
    "Cgl.C98_polar",
    "Cgl.C98_sqrt",
    "Cgl.C98_sqrt_squares",
    "Cgl.C98_cbrt",
    "Cgl.C98_ln",
    "Cgl.C98_exp",
    "Cgl.C98_powf",
    "Cgl.C98_cosh",
    "Cgl.C98_sinh",
    "Cgl.C98_cos",
    "Cgl.C98_sin",
    "Cgl.C98_mul",
    "Cgl.C98_div",
    "Cgl.C98_f64",
    "Cgl.C98_entire_f64",
    "Cgl.C98_arithmetic_f64"
   ],
   "note": ""
  },
  {
   "property": "C99",
   "status": "proved",
   "theorems": [
    "Cgl.C99_perspective",
    "Cgl.C99_orthographic"
   ],
   "note": ""
  },
  {
   "property": "C100",
   "status": "proved",
   "theorems": [
    "Cgl.C100_product",
    "Cgl.C100_powu",
    "Cgl.C100_powi",
    "Cgl.C100_powi_negative",
    "Cgl.C100_f64"
   ],
   "note": ""
  },
  {
   "property": "C101",
   "status": "proved",
   "theorems": [
    "Cgl.C101_asinh_fails",
    "Cgl.C101_asin_fails",
    "Cgl.C101_asinh",
    "Cgl.C101_asinh_small",
    "Cgl.C101_asin",
    "Cgl.C101_tanh",
    "Cgl.C101_tan",
    "Cgl.C101_tanh_overflow_fails"
   ],
   "note": "C101_asinh_fails: **Large negative numbers**: the inverse hyperbolic sine of `-2^k`, from `-2^27` on, is minus infinity, because the sum of the number and its root is zero. The exact value is finite: it is minus the inverse hyperbolic sine of `2^k`. C101_asin_fails: So it is with the inverse sine, on the imaginary axis: its imaginary part is infinite. C101_tanh_overflow_fails: **A large real part** makes the hyperbolic tangent not a number, although the exact value is one to a thousand digits: the code divides the infinite hyperbolic sine by the infinite hyperbolic cosine."
  },
  {
   "property": "C102",
   "status": "proved",
   "theorems": [
    "Cgl.C102_inverse",
    "Cgl.C102_inverse_none",
    "Cgl.C102_div_left",
    "Cgl.C102_div_right",
    "Cgl.C102_quotient_returns",
    "Cgl.C102_sqrt",
    "Cgl.C102_sqrt_real",
    "Cgl.C102_sqrt_squares"
   ],
   "note": ""
  },
  {
   "property": "C103",
   "status": "proved",
   "theorems": [
    "Cgl.C103_inverse2",
    "Cgl.C103_inverse3",
    "Cgl.C103_inverse4",
    "Cgl.C103_f64",
    "Cgl.C103_f32",
    "Cgl.C103_residual",
    "Cgl.C103_uniform64_fails",
    "Cgl.C103_uniform32_fails",
    "Cgl.C103_inverse1"
   ],
   "note": "C103_uniform64_fails: **C103.** Outside the range of sizes the claim is false, even of `2 ^ k` times the identity, whose inverse `2 ^ -k` times the identity can be represented exactly: its determinant underflows and the matrix is rejected, or it overflows, and the 'inverse' is the zero matrix. `f64` C103_uniform32_fails: **C103.** The same in `f32`, where numbers like `4e-12` and `4e9` are out of the range"
  },
  {
   "property": "C104",
   "status": "proved",
   "theorems": [
    "Cgl.C104_dot",
    "Cgl.C104_orthogonal",
    "Cgl.C104_norm",
    "Cgl.C104_cross",
    "Cgl.C104_mul",
    "Cgl.C104_mul_vec",
    "Cgl.C104_quarter_turns",
    "Cgl.C104_complex_mul",
    "Cgl.C104_complex_products",
    "Cgl.C104_quaternion_mul",
    "Cgl.C104_quaternion_products",
    "Cgl.C104_determinant",
    "Cgl.C104_singular",
    "Cgl.C104_unimodular",
    "Cgl.C104_bounds",
    "Cgl.C104_bound_fails"
   ],
   "note": "C104_bound_fails: **C104.** The bound is sharp: one unit more, and the dot product of `(2 ^ 53, 1)` and `(1, 1)` is not exact."
  },
  {
   "property": "C105",
   "status": "proved",
   "theorems": [
    "Cgl.C105_round_trip64",
    "Cgl.C105_solve64",
    "Cgl.C105_round_trip32",
    "Cgl.C105_point3",
    "Cgl.C105_point2",
    "Cgl.C105_vector3",
    "Cgl.C105_vector2"
   ],
   "note": ""
  },
  {
   "property": "C106",
   "status": "proved",
   "theorems": [
    "Cgl.C106_product64",
    "Cgl.C106_vector64",
    "Cgl.C106_order64",
    "Cgl.C106_point64",
    "Cgl.C106_product32",
    "Cgl.C106_vector32",
    "Cgl.C106_point32",
    "Cgl.C106_norm_rotation"
   ],
   "note": ""
  },
  {
   "property": "C107",
   "status": "proved",
   "theorems": [
    "Cgl.C107_reflection64",
    "Cgl.C107_reflection_vector64",
    "Cgl.C107_reflection32",
    "Cgl.C107_shear64",
    "Cgl.C107_shear_back64",
    "Cgl.C107_shear32",
    "Cgl.C107_shear_back32",
    "Cgl.C107_mirror_image"
   ],
   "note": ""
  },
  {
   "property": "C108",
   "status": "proved",
   "theorems": [
    "Cgl.C108_dot64",
    "Cgl.C108_dot32",
    "Cgl.C108_l1_norm64",
    "Cgl.C108_l1_norm32",
    "Cgl.C108_linf_norm",
    "Cgl.C108_cross64",
    "Cgl.C108_cross32",
    "Cgl.C108_triple64",
    "Cgl.C108_triple32",
    "Cgl.C108_lerp64",
    "Cgl.C108_lerp32",
    "Cgl.C108_project64",
    "Cgl.C108_project32",
    "Cgl.C108_distance64",
    "Cgl.C108_distance32",
    "Cgl.C108_reflect64",
    "Cgl.C108_reflect32"
   ],
   "note": ""
  },
  {
   "property": "C109",
   "status": "proved",
   "theorems": [
    "Cgl.C109_similarities64",
    "Cgl.C109_order64",
    "Cgl.C109_there_and_back64",
    "Cgl.C109_back_and_there64",
    "Cgl.C109_similarities32",
    "Cgl.C109_there_and_back32",
    "Cgl.C109_back_and_there32",
    "Cgl.C109_inverse64",
    "Cgl.C109_inverse_apply64",
    "Cgl.C109_vector64",
    "Cgl.C109_inverse32",
    "Cgl.C109_inverse_apply32",
    "Cgl.C109_vector32"
   ],
   "note": ""
  },
  {
   "property": "C110",
   "status": "proved",
   "theorems": [
    "Cgl.C110_dot64",
    "Cgl.C110_dot32",
    "Cgl.C110_tr_dot64",
    "Cgl.C110_tr_dot32",
    "Cgl.C110_trace64",
    "Cgl.C110_trace32",
    "Cgl.C110_l1_norm64",
    "Cgl.C110_l1_norm32",
    "Cgl.C110_linf_norm64",
    "Cgl.C110_linf_norm32",
    "Cgl.C110_norm64",
    "Cgl.C110_norm32",
    "Cgl.C110_distance64",
    "Cgl.C110_distance32",
    "Cgl.C110_lerp64",
    "Cgl.C110_lerp32",
    "Cgl.C110_mul64",
    "Cgl.C110_mul32",
    "Cgl.C110_tr_mul64",
    "Cgl.C110_tr_mul32",
    "Cgl.C110_mul_vector64",
    "Cgl.C110_mul_vector32"
   ],
   "note": ""
  },
  {
   "property": "C111",
   "status": "proved",
   "theorems": [
    "Cgl.C111_product64",
    "Cgl.C111_product32",
    "Cgl.C111_brackets64",
    "Cgl.C111_squared64",
    "Cgl.C111_conjugate",
    "Cgl.C111_dot64",
    "Cgl.C111_distance64"
   ],
   "note": ""
  },
  {
   "property": "C112",
   "status": "proved",
   "theorems": [
    "Cgl.C112_inner64",
    "Cgl.C112_inner32",
    "Cgl.C112_outer64",
    "Cgl.C112_outer32",
    "Cgl.C112_outer_self",
    "Cgl.C112_conjugate_real",
    "Cgl.C112_conjugate64",
    "Cgl.C112_lerp64",
    "Cgl.C112_lerp32",
    "Cgl.C112_project64",
    "Cgl.C112_project32"
   ],
   "note": ""
  },
  {
   "property": "C113",
   "status": "proved",
   "theorems": [
    "Cgl.C113_expression64",
    "Cgl.C113_expression32",
    "Cgl.C113_equal64"
   ],
   "note": ""
  },
  {
   "property": "C114",
   "status": "proved",
   "theorems": [
    "Cgl.C114_expression64",
    "Cgl.C114_expression32",
    "Cgl.C114_equal64"
   ],
   "note": ""
  }
 ]
}