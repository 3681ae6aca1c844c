{
 "claims": [
  {
   "property": "C01",
   "status": "proved",
   "theorems": [
    "Verif.FixedVector.C01_history_refines_list",
    "Verif.FixedVector.C01_step_any_type",
    "Verif.FixedVector.C01_overflow_is_rejected",
    "Verif.FixedVector.C01_copy_and_swap",
    "Verif.FixedVector.C01_resize"
   ],
   "note": ""
  },
  {
   "property": "C02",
   "status": "partial",
   "theorems": [
    "Verif.FixedVector.C02_insert_memmove_partial",
    "Verif.FixedVector.C02_insert_fails",
    "Verif.FixedVector.C02_insert_moved",
    "Verif.FixedVector.C02_insert_smears",
    "Verif.FixedVector.C02_insert_near_end_partial",
    "Verif.FixedVector.C02_insert_iff",
    "Verif.FixedVector.C02_insert_alias_fails",
    "Verif.FixedVector.C02_insert_alias_partial",
    "Verif.FixedVector.C02_insert_alias_iff",
    "Verif.FixedVector.C02_insert_many_iff",
    "Verif.FixedVector.C02_insert_fill",
    "Verif.FixedVector.C02_history_safe",
    "Verif.FixedVector.C02_history_iff",
    "Verif.FixedVector.C02_history_near_end",
    "Verif.FixedVector.C02_history_fails"
   ],
   "note": "The code violates the full statement: fails for every element type moved element by element (any type that is not trivially copyable), whatever a moved-from object looks like: inserting in front of two or more elements overwrites them. / fails also for trivially copyable types when the argument refers to an element of the vector at or after the insertion point's successor: `v.insert(v.begin(), v[1])` on `{1,2}` inserts `1`, not `2`. / fails over histories for element types moved one by one: three calls, each in range, and the vector shows something else. Proved in part: holds when elements are moved by `memmove` (trivially copyable types). / Element-wise moving is nevertheless right when at most one element is shifted (insertion at the end or before the last element), whatever the residue. / With an aliasing argument at or before the insertion point the result is right."
  },
  {
   "property": "C03",
   "status": "partial",
   "theorems": [
    "Verif.FixedVector.C03_erase",
    "Verif.FixedVector.C03_erase_range_contents",
    "Verif.FixedVector.C03_erase_empty_range_returns_begin_fails",
    "Verif.FixedVector.C03_erase_end_undefined"
   ],
   "note": "The code violates the full statement: fails for the returned iterator: erasing the empty range at position 2 of a three-element vector returns `begin()`, not position 2."
  },
  {
   "property": "C04",
   "status": "partial",
   "theorems": [
    "Verif.FixedVector.C04_eq_characterisation",
    "Verif.FixedVector.C04_eq_fails",
    "Verif.FixedVector.C04_eq_same_size_partial"
   ],
   "note": "The code violates the full statement: fails: `==` is not symmetric and calls vectors of different size equal. Proved in part: holds when the sizes agree."
  },
  {
   "property": "C05",
   "status": "partial",
   "theorems": [
    "Verif.ArrayRef.C05_array_ref_at",
    "Verif.ArrayRef.C05_const_string",
    "Verif.FixedVector.C05_fixed_vector_at",
    "Verif.FixedVector.C05_fixed_vector_front_back",
    "Verif.MathArray.C05_math_array",
    "Verif.MathArray.C05_math_array_empty",
    "Verif.MultiArray.C05_multi_array",
    "Verif.MultiArray.C05_multi_array_flat",
    "Verif.MultiArray.C05_multi_array_unchecked_fails"
   ],
   "note": "The code violates the full statement: The unchecked `operator[]` on an index array can leave the storage."
  },
  {
   "property": "C06",
   "status": "proved",
   "theorems": [
    "Verif.ArrayRef.C06_views_stay_inside",
    "Verif.ArrayRef.C06_element_access",
    "Verif.ArrayRef.C06_excess_removal_rejected"
   ],
   "note": ""
  },
  {
   "property": "C07",
   "status": "partial",
   "theorems": [
    "Verif.FilterIterator.C07_increment_partial",
    "Verif.FilterIterator.C07_traversal_never_ends_fails",
    "Verif.FilterIterator.C07_full_fails",
    "Verif.FilterIterator.C07_no_match_partial",
    "Verif.FilterIterator.C07_iff"
   ],
   "note": "The code violates the full statement: fails as soon as one element matches: the traversal never reaches the end, because `++` does not leave a matching element. / hence the full property is false for every range with a match Proved in part: (what `++` does) From any position of the range, `++` moves to the first position at or after the current one whose element matches, or to the end. / If nothing matches the traversal ends, but a non-empty range visits its first element although it does not match (the constructor does not search)."
  },
  {
   "property": "C08",
   "status": "partial",
   "theorems": [
    "Verif.Zip.C08_loop_visits_columns",
    "Verif.Zip.C08_simple_task_partial",
    "Verif.Zip.C08_check_rejects_iff",
    "Verif.Zip.C08_mismatch_accepted_fails",
    "Verif.Zip.C08_single_range_undefined_fails"
   ],
   "note": "The code violates the full statement: fails Ranges of different lengths are not always rejected: two ranges are never compared, so the longer one is silently cut short. / fails Zipping a single range reads past the array of sizes. Proved in part: `simple_task` on at least two ranges of equal length `n` runs the function once per column, in order. Missing: the single-range call, see `C08_single_range_undefined`."
  },
  {
   "property": "C09",
   "status": "proved",
   "theorems": [
    "Verif.Algorithm.C09_intersection",
    "Verif.Algorithm.C09_order_irrelevant"
   ],
   "note": ""
  },
  {
   "property": "C10",
   "status": "partial",
   "theorems": [
    "Verif.Algorithm.C10_no_adjacent_duplicates",
    "Verif.Algorithm.C10_fails",
    "Verif.Algorithm.C10_grouped_partial",
    "Verif.Algorithm.C10_iff",
    "Verif.Algorithm.C10_sorted_partial",
    "Verif.Algorithm.C10_idempotent"
   ],
   "note": "The code violates the full statement: fails: duplicates that are not neighbours survive. Proved in part: If equal elements are neighbours (in particular if the sequence is sorted), every value is kept exactly once, in order of first occurrence. / Sorted sequences are grouped, so the call is right on them."
  },
  {
   "property": "C11",
   "status": "partial",
   "theorems": [
    "Verif.Strings.C11_replace_all",
    "Verif.Strings.C11_spec_functional",
    "Verif.Strings.C11_absent",
    "Verif.Strings.C11_empty_pattern_fails"
   ],
   "note": "The code violates the full statement: fails for an empty pattern: the call never returns."
  },
  {
   "property": "C12",
   "status": "partial",
   "theorems": [
    "Verif.Strings.C12_basename",
    "Verif.Strings.C12_file_extension",
    "Verif.Strings.C12_remove_extension_fails",
    "Verif.Strings.C12_remove_extension_partial",
    "Verif.Strings.C12_remove_extension_iff"
   ],
   "note": "The code violates the full statement: fails: with a dot in a directory and none in the file name, the path is cut inside the directory. Proved in part: `remove_extension` and `split_extension` are right for every path whose base name has a dot, and for every path without any dot."
  },
  {
   "property": "C13",
   "status": "partial",
   "theorems": [
    "Verif.Strings.C13_split_characterisation",
    "Verif.Strings.C13_split_partial",
    "Verif.Strings.C13_split_iff",
    "Verif.Strings.C13_split_fails",
    "Verif.Strings.C13_non_ascii_delimiter_undefined"
   ],
   "note": "The code violates the full statement: fails: splitting at commas also splits at spaces. Proved in part: If the only white space in the string is among the delimiters, `split` returns exactly the maximal pieces between delimiters."
  },
  {
   "property": "C14",
   "status": "proved",
   "theorems": [
    "Verif.Strings.C14_num_digits",
    "Verif.Strings.C14_zero_padded",
    "Verif.Strings.C14_padded_order",
    "Verif.Strings.C14_overflow_breaks_order"
   ],
   "note": ""
  },
  {
   "property": "C15",
   "status": "proved",
   "theorems": [
    "Verif.TimeUtils.C15_decomposition",
    "Verif.TimeUtils.C15_unique",
    "Verif.TimeUtils.C15_negative"
   ],
   "note": ""
  },
  {
   "property": "C16",
   "status": "partial",
   "theorems": [
    "Verif.MathArray.C16_array_op_assign",
    "Verif.MathArray.C16_array_div_assign",
    "Verif.MathArray.C16_fill",
    "Verif.MathArray.C16_array_scalar_alias_partial",
    "Verif.MathArray.C16_array_scalar_partial",
    "Verif.MathArray.C16_array_scalar_alias_fails",
    "Verif.MathArray.C16_array_scalar_alias_iff",
    "Verif.MathArray.C16_array_add_alias_iff",
    "Verif.MathArray.C16_dimensioned_partial",
    "Verif.MathArray.C16_dimensioned_self_fails",
    "Verif.MathArray.C16_dimensioned_self_witness_fails",
    "Verif.MathArray.C16_swap"
   ],
   "note": "The code violates the full statement: fails: `(2,3) *= x[0]` gives `(4,12)`, not `(4,6)`. / fails for `dimensioned_array`: `x op= x` does nothing. / fails: a case where that differs from the elementwise sum. Proved in part: What `x op= x[k]` gives for `+=`, `-=`, `*=`: the elements after `k` are combined with the already updated `x[k]`. / It is right when the scalar is a separate object, or the last element. / `dimensioned_array`: right for every separate argument and every scalar, including one of its own elements."
  },
  {
   "property": "C17",
   "status": "partial",
   "theorems": [
    "Verif.MathArray.C17_division_partial",
    "Verif.MathArray.C17_integer_division_fails",
    "Verif.MathArray.C17_integer_witness_fails",
    "Verif.MathArray.C17_integer_division_iff",
    "Verif.MathArray.C17_dimensioned"
   ],
   "note": "The code violates the full statement: fails for integers: dividing by anything of absolute value at least two gives all zeros (the reciprocal truncates to zero). / a case where this differs from elementwise division: (4,6)/2 Proved in part: Over a field (exact arithmetic), dividing by a scalar divides each element, for both `a / s` and `a /= s`."
  },
  {
   "property": "C18",
   "status": "proved",
   "theorems": [
    "Verif.MathArray.C18_eq",
    "Verif.MathArray.C18_lt_lex",
    "Verif.MathArray.C18_total_order"
   ],
   "note": ""
  },
  {
   "property": "C19",
   "status": "proved",
   "theorems": [
    "Verif.MathArray.C19_elementwise",
    "Verif.MathArray.C19_dimensioned",
    "Verif.MathArray.C19_vector_space",
    "Verif.MathArray.C19_laws",
    "Verif.MathArray.C19_from_list"
   ],
   "note": ""
  },
  {
   "property": "C20",
   "status": "proved",
   "theorems": [
    "Verif.MultiArray.C20_bijection",
    "Verif.MultiArray.C20_row_major",
    "Verif.MultiArray.C20_store_load",
    "Verif.MultiArray.C20_initializer_list"
   ],
   "note": ""
  },
  {
   "property": "C21",
   "status": "partial",
   "theorems": [
    "Verif.MultiArray.C21_col_major_fails",
    "Verif.MultiArray.C21_col_major_characterisation",
    "Verif.MultiArray.C21_col_major_partial",
    "Verif.MultiArray.C21_col_major_iff"
   ],
   "note": "The code violates the full statement: fails: for a 2\u00d73 shape the column-major number of the last element lies outside the storage, and for a 3\u00d72 shape two elements collide. Proved in part: For shapes that read the same backwards (square matrices, cubes, ...) the ordering is a bijection onto the storage with the first index fastest."
  },
  {
   "property": "C22",
   "status": "proved",
   "theorems": [
    "Verif.Mat.C22_determinant",
    "Verif.Mat.C22_multiplicative",
    "Verif.Mat.C22_transpose",
    "Verif.Mat.C22_alternating",
    "Verif.Mat.C22_multilinear"
   ],
   "note": ""
  },
  {
   "property": "C23",
   "status": "proved",
   "theorems": [
    "Verif.Mat.C23_inverse",
    "Verif.Mat.C23_specialised",
    "Verif.Mat.C23_solve"
   ],
   "note": ""
  },
  {
   "property": "C24",
   "status": "partial",
   "theorems": [
    "Verif.Mat.C24_products",
    "Verif.Mat.C24_in_place",
    "Verif.Mat.C24_associative",
    "Verif.Mat.C24_distributive",
    "Verif.Mat.C24_identity",
    "Verif.Mat.C24_transpose",
    "Verif.Mat.C24_outer_product",
    "Verif.Mat.C24_aliased_ax_plus_y_fails"
   ],
   "note": "The code violates the full statement: `ax_plus_y(A,y,y)` does not compute `A y + y`: the updated entries of `y` are read again."
  },
  {
   "property": "C25",
   "status": "partial",
   "theorems": [
    "Verif.Mat.C25_matrix_vector_characterisation",
    "Verif.Mat.C25_matrix_vector_fails",
    "Verif.Mat.C25_matrix_vector_partial",
    "Verif.Mat.C25_matrix_vector_iff"
   ],
   "note": "The code violates the full statement: fails for `beta \u2260 1` on two columns: the result is not `alpha A x + beta y`. Proved in part: correct for `beta = 1` and for single-column matrices"
  },
  {
   "property": "C26",
   "status": "proved",
   "theorems": [
    "Verif.Mat.C26_reflection",
    "Verif.Mat.C26_projection",
    "Verif.Mat.C26_rotation"
   ],
   "note": ""
  },
  {
   "property": "C27",
   "status": "proved",
   "theorems": [
    "Verif.Mat.C27_infinity_norm_value",
    "Verif.Mat.C27_infinity_norm",
    "Verif.Mat.C27_one_norm_transpose",
    "Verif.Mat.C27_one_norm",
    "Verif.Mat.C27_two_norm"
   ],
   "note": ""
  },
  {
   "property": "C28",
   "status": "partial",
   "theorems": [
    "Verif.Mat.C28_total_partial",
    "Verif.Mat.C28_zero_fails",
    "Verif.Mat.C28_total_iff",
    "Verif.Mat.C28_inverse_partial",
    "Verif.Mat.C28_accuracy_partial"
   ],
   "note": "The code violates the full statement: fails for the zero matrix: the conversion of `log(0) = -inf` to `int` is undefined, so `exponential(0)` has no defined result. Proved in part: For every non-zero real matrix of every size the computation succeeds (the denominator that is inverted is never singular). / The result commutes with the matrix and `exponential(-A)` is its inverse. / In the infinity norm the result differs from the true matrix exponential by a relative error of at most `(1+2\u00b710\u207b\u00b9\u00b3)^n - 1` where `n \u2264 max 2 (4\u2016A\u2016)`; for matrices with `A\u00b9\u00b3 = 0` it is exact."
  },
  {
   "property": "C29",
   "status": "proved",
   "theorems": [
    "Verif.Mat.C29_trace",
    "Verif.Mat.C29_transpose_involution",
    "Verif.Mat.C29_doubledot",
    "Verif.Mat.C29_two_norm_square"
   ],
   "note": ""
  },
  {
   "property": "C30",
   "status": "partial",
   "theorems": [
    "Verif.Geometry.C30_space_vector",
    "Verif.Geometry.C30_cross_magnitude",
    "Verif.Geometry.C30_space_vector_algebra",
    "Verif.Vec.C30_dot",
    "Verif.Vec.C30_dot_range",
    "Verif.Vec.C30_cross",
    "Verif.Vec.C30_cross_axes",
    "Verif.Vec.C30_cross2",
    "Verif.Vec.C30_triple",
    "Verif.Vec.C30_normal2",
    "Verif.Vec.C30_normal3_fails"
   ],
   "note": "The code violates the full statement: fails in three dimensions: `normal(a,b)` throws whatever the arguments."
  },
  {
   "property": "C31",
   "status": "partial",
   "theorems": [
    "Verif.Geometry.C31_point_means",
    "Verif.Vec.C31_average",
    "Verif.Vec.C31_average_between",
    "Verif.Vec.C31_average_pack_between",
    "Verif.Vec.C31_average_perm",
    "Verif.Vec.C31_int_negative_fails",
    "Verif.Vec.C31_int_partial",
    "Verif.Vec.C31_min_element",
    "Verif.Vec.C31_max_element",
    "Verif.Vec.C31_extrema_empty",
    "Verif.Vec.C31_elementwise_partial",
    "Verif.Vec.C31_container_fails",
    "Verif.Vec.C31_sgn",
    "Verif.Vec.C31_powers",
    "Verif.Vec.C31_int_iff",
    "Verif.Vec.C31_int_pack_iff"
   ],
   "note": "The code violates the full statement: fails for `int`: the pack and container versions divide by an unsigned count, so a negative sum is converted to a huge positive number. / fails for resizable containers: elementwise `min` and `max` write past the end of an empty result for all non-empty arguments. Proved in part: For `int` values with a non-negative sum below `2^31` all versions truncate the exact quotient. / Elementwise `min` and `max` of fixed-size arrays, whatever the result held before."
  },
  {
   "property": "C32",
   "status": "proved",
   "theorems": [
    "Verif.Geometry.C32_distance",
    "Verif.Vec.C32_magnitude",
    "Verif.Vec.C32_unit",
    "Verif.Vec.C32_unit_zero",
    "Verif.Vec.C32_reflect",
    "Verif.Vec.C32_reflect_magnitude"
   ],
   "note": ""
  },
  {
   "property": "C33",
   "status": "proved",
   "theorems": [
    "Verif.Geometry.C33_shoelace",
    "Verif.Geometry.C33_translation",
    "Verif.Geometry.C33_renumbering",
    "Verif.Geometry.C33_reversal",
    "Verif.Geometry.C33_linear",
    "Verif.Geometry.C33_scaling",
    "Verif.Geometry.C33_triangle",
    "Verif.Geometry.C33_additive",
    "Verif.Geometry.C33_fan",
    "Verif.Geometry.C33_convex",
    "Verif.Geometry.C33_star",
    "Verif.Geometry.C33_triangle_measure",
    "Verif.Geometry.C33_winding",
    "Verif.Geometry.C33_region"
   ],
   "note": ""
  },
  {
   "property": "C34",
   "status": "proved",
   "theorems": [
    "Verif.Geometry.C34_versions",
    "Verif.Geometry.C34_affine",
    "Verif.Geometry.C34_translation_scaling",
    "Verif.Geometry.C34_renumbering",
    "Verif.Geometry.C34_triangle",
    "Verif.Geometry.C34_parallelogram",
    "Verif.Geometry.C34_additive",
    "Verif.Geometry.C34_convex",
    "Verif.Geometry.C34_triangle_mass",
    "Verif.Geometry.C34_winding",
    "Verif.Geometry.C34_region"
   ],
   "note": ""
  },
  {
   "property": "C35",
   "status": "partial",
   "theorems": [
    "Verif.Geometry.C35_normal",
    "Verif.Geometry.C35_three_vertices_fails",
    "Verif.Geometry.C35_translation",
    "Verif.Geometry.C35_renumbering",
    "Verif.Geometry.C35_reversal",
    "Verif.Geometry.C35_planar",
    "Verif.Geometry.C35_embedded",
    "Verif.Geometry.C35_triangle",
    "Verif.Geometry.C35_area",
    "Verif.Geometry.C35_area_eq_normal",
    "Verif.Geometry.C35_centroid"
   ],
   "note": "The code violates the full statement: fails for triangles: the run-time versions of normal, area and centroid stop on an assertion for every three vertices (and the variadic versions are not enabled for three)."
  },
  {
   "property": "C36",
   "status": "proved",
   "theorems": [
    "Verif.Geometry.C36_measure",
    "Verif.Geometry.C36_mass",
    "Verif.Geometry.C36_volume",
    "Verif.Geometry.C36_permutation",
    "Verif.Geometry.C36_linear",
    "Verif.Geometry.C36_coplanar",
    "Verif.Geometry.C36_centroid"
   ],
   "note": ""
  },
  {
   "property": "C37",
   "status": "partial",
   "theorems": [
    "Verif.Geometry.C37_centroid_polyhedron",
    "Verif.Geometry.C37_centroid_translation",
    "Verif.Geometry.C37_volume_translation",
    "Verif.Geometry.C37_parallelepiped",
    "Verif.Geometry.C37_centroid_symmetric",
    "Verif.Geometry.C37_parallelepiped_centroid",
    "Verif.Geometry.C37_enclosed_partial",
    "Verif.Geometry.C37_enclosed_iff",
    "Verif.Geometry.C37_enclosed_le",
    "Verif.Geometry.C37_enclosed_fails",
    "Verif.Geometry.C37_trilinear",
    "Verif.Geometry.C37_cell",
    "Verif.Geometry.C37_parallelepiped_measure"
   ],
   "note": "The code violates the full statement: fails in general: the absolute values are taken term by term, so for a hexahedron whose triple products differ in sign (here one with all corner Jacobians positive) the result is not the enclosed volume: `553/4` instead of `483/4`. Proved in part: The volume is the volume enclosed by the six faces (each face taken as the fan about its vertex mean) whenever the three triple products have the same sign, as they have for every parallelepiped and for hexahedra close to one."
  },
  {
   "property": "C38",
   "status": "proved",
   "theorems": [
    "Verif.Geometry.C38_midpoint",
    "Verif.Geometry.C38_midpoint_iff",
    "Verif.Geometry.C38_midpoint_order",
    "Verif.Geometry.C38_midpoint_cells",
    "Verif.Geometry.C38_volume_origin",
    "Verif.Geometry.C38_volume_face_order",
    "Verif.Geometry.C38_volume_start_vertex",
    "Verif.Geometry.C38_volume_inside_out",
    "Verif.Geometry.C38_gluing",
    "Verif.Geometry.C38_tetrahedron",
    "Verif.Geometry.C38_centroid_origin",
    "Verif.Geometry.C38_centroid_order",
    "Verif.Geometry.C38_tetrahedron_centroid",
    "Verif.Geometry.C38_winding",
    "Verif.Geometry.C38_winding_centroid",
    "Verif.Geometry.C38_region",
    "Verif.Geometry.C38_region_centroid",
    "Verif.Geometry.C38_star"
   ],
   "note": ""
  },
  {
   "property": "C39",
   "status": "partial",
   "theorems": [
    "Verif.ArrayView.C39_strides",
    "Verif.ArrayView.C39_contains",
    "Verif.ArrayView.C39_linearize",
    "Verif.ArrayView.C39_total_size",
    "Verif.ArrayView.C39_total_size_contiguous",
    "Verif.ArrayView.C39_array_ctor_fails",
    "Verif.ArrayView.C39_set_extent_fails",
    "Verif.ArrayView.C39_view_in_container",
    "Verif.ArrayView.C39_container_check",
    "Verif.ArrayView.C39_strided_container_fails",
    "Verif.ArrayView.C39_strided_container_partial",
    "Verif.ArrayView.C39_strided_container_iff"
   ],
   "note": "The code violates the full statement: fails for `contiguous_bounds` built from a C array: the strides are set to the extents, so a contained index is linearised past the end / fails after writing an extent of `contiguous_bounds` through its mutable `operator[]`: the strides are those of the old extents / fails for a strided view over a container: the check compares the number of elements viewed, not the span they cover, so a contained index reads past the container Proved in part: for strided views, as far as it holds: if the container covers `total_size()` and no stride is negative, every contained index stays inside. (Missing: the constructor does not check this.)"
  },
  {
   "property": "C40",
   "status": "partial",
   "theorems": [
    "Verif.ArrayView.C40_iteration",
    "Verif.ArrayView.C40_zero_extent_fails",
    "Verif.ArrayView.C40_iteration_any",
    "Verif.ArrayView.C40_dec_inc",
    "Verif.ArrayView.C40_inc_dec",
    "Verif.ArrayView.C40_difference",
    "Verif.ArrayView.C40_end_minus_begin",
    "Verif.ArrayView.C40_advance",
    "Verif.ArrayView.C40_advance_end_fails",
    "Verif.ArrayView.C40_advance_rank_one"
   ],
   "note": "The code violates the full statement: fails when an extent is zero: the range of `(0, 3)` holds no index, yet iterating it yields three indices, none of them contained / fails for advancing to the end when the rank exceeds one: `begin + size` is not `end` (and, for rank above one, `operator+=` does not even compile, see the model)"
  },
  {
   "property": "C41",
   "status": "proved",
   "theorems": [
    "Verif.ArrayView.C41_slice",
    "Verif.ArrayView.C41_slice_contiguous",
    "Verif.ArrayView.C41_slice_checked",
    "Verif.ArrayView.C41_slices",
    "Verif.ArrayView.C41_section_accepted",
    "Verif.ArrayView.C41_section",
    "Verif.ArrayView.C41_section_from",
    "Verif.ArrayView.C41_section_section",
    "Verif.ArrayView.C41_nested",
    "Verif.ArrayView.C41_nested_in_buffer"
   ],
   "note": ""
  },
  {
   "property": "C42",
   "status": "partial",
   "theorems": [
    "Verif.ArrayView.C42_eq",
    "Verif.ArrayView.C42_lt_fails",
    "Verif.ArrayView.C42_meaning",
    "Verif.ArrayView.C42_le_partial_order",
    "Verif.ArrayView.C42_rank_one_partial",
    "Verif.ArrayView.C42_order_iff"
   ],
   "note": "The code violates the full statement: fails: `<` is not a strict order (each of two indices is less than the other) and `<=` does not mean `<` or `==` Proved in part: for rank one, where it holds in full (missing: every larger rank, see `C42_lt_fails`)"
  },
  {
   "property": "C43",
   "status": "partial",
   "theorems": [
    "Verif.ArrayView.C43_eq_strided_iff",
    "Verif.ArrayView.C43_at_iff",
    "Verif.ArrayView.C43_empty_fails",
    "Verif.ArrayView.C43_empty_meaning",
    "Verif.ArrayView.C43_at_fails",
    "Verif.ArrayView.C43_at_partial",
    "Verif.ArrayView.C43_eq_shape_fails",
    "Verif.ArrayView.C43_eq_pointer_fails",
    "Verif.ArrayView.C43_eq_partial",
    "Verif.ArrayView.C43_eq_strided_partial",
    "Verif.ArrayView.C43_eq_empty_fails",
    "Verif.ArrayView.C43_lt",
    "Verif.ArrayView.C43_eq_contiguous_exact",
    "Verif.ArrayView.C43_eq_size"
   ],
   "note": "The code violates the full statement: fails: `empty()` is true for a view of six elements and false for a default-constructed view (it returns whether the data pointer is non-null) / fails: `at()` with an index that is not contained terminates the program; the `out_of_range` it means to throw cannot be caught because the function is `noexcept` / fails: two contiguous views of different shapes with the same elements in storage order compare equal / fails: two strided views of one buffer that start at the same place compare equal although their elements differ (only the pointers are compared) / fails for strided views of no elements: comparing two of them reads memory (here past the end of an empty buffer), because iterating a zero extent yields indices, see `C40_zero_extent_fails` Proved in part: for `at()`, as far as it holds: on a view inside its buffer, a contained index yields the element at its address, any other index never yields an element. (Missing: the error is not an exception the caller can catch.) / for equality, as far as it holds: contiguous views of the same shape that stay inside their buffers compare equal exactly when they hold the same element at every contained index. (Missing: views of different shapes, and strided views, see the two failures above.) / for equality of strided views, as far as it holds: strided views with the same positive extents (whatever their strides), inside their buffers and not starting at the same address, compare equal exactly when they hold the same element at every contained index. (Missing: a common start address, and different extents with the same number of elements.)"
  },
  {
   "property": "C44",
   "status": "proved",
   "theorems": [
    "Verif.Atomics.C44_linearizable",
    "Verif.Atomics.C44_all_applied",
    "Verif.Atomics.C44_counter",
    "Verif.Atomics.C44_pun"
   ],
   "note": ""
  },
  {
   "property": "C45",
   "status": "partial",
   "theorems": [
    "Verif.Atomics.C45_failures",
    "Verif.Atomics.C45_alone",
    "Verif.Atomics.C45_bounded",
    "Verif.Atomics.C45_weak_fails"
   ],
   "note": "The code violates the full statement: does not extend to the weak scheme: any number of attempts can fail though no update takes effect at all"
  },
  {
   "property": "C46",
   "status": "proved",
   "theorems": [
    "Verif.Atomics.C46_mutual_exclusion",
    "Verif.Atomics.C46_serial",
    "Verif.Atomics.C46_all_applied",
    "Verif.Atomics.C46_no_deadlock"
   ],
   "note": ""
  },
  {
   "property": "C47",
   "status": "partial",
   "theorems": [
    "Verif.Atomics.C47_returned_value_fails",
    "Verif.Atomics.C47_returned_value_iff",
    "Verif.Atomics.C47_undisturbed_partial",
    "Verif.Atomics.C47_increment"
   ],
   "note": "The code violates the full statement: is false: two threads add 1 and 10 to 0 under the native scheme; both calls return 11, though the first addition produced 1. (Loads return the current value.) Proved in part: as far as it holds: a native call returns the value its own update produced if no other update of the same variable takes effect between its fetch and its second read. (Missing: the other schedules, see `C47_returned_value_fails`.)"
  },
  {
   "property": "C48",
   "status": "partial",
   "theorems": [
    "Verif.Atomics.C48_mixed_schemes_partial",
    "Verif.Atomics.C48_lock_mixed_fails",
    "Verif.Atomics.C48_serial_threads_fails",
    "Verif.Atomics.C48_mixed_types_fails",
    "Verif.Atomics.C48_mixed_types_partial",
    "Verif.Atomics.C48_mixed_types_iff",
    "Verif.Atomics.C48_program_order",
    "Verif.Atomics.C48_single_thread"
   ],
   "note": "The code violates the full statement: is false when the lock scheme meets another one on the same variable: the lock call reads 0, the other thread's compare-exchange adds 1 and succeeds, the lock call writes 10: one addition is lost, and both calls have returned / is false for the serial scheme in two threads: one of two additions is lost / is false when the operand has another type: `x += 0.5` on an integer -1 gives 0 under the compare-exchange, lock and serial schemes and leaves -1 under the native one Proved in part: as far as it holds: threads may mix the compare-exchange, native and increment schemes freely on the same variables, under any memory order: memory is always the result of the updates executed one at a time, each thread's in program order, none lost and none applied twice. (Missing: the lock and serial schemes, see `C48_lock_mixed_fails`, and operands of another type, see `C48_mixed_types_fails`.) / with an operand whose value is integral, the two forms agree"
  },
  {
   "property": "C49",
   "status": "partial",
   "theorems": [
    "Verif.Atomics.C49_min",
    "Verif.Atomics.C49_max",
    "Verif.Atomics.C49_min_monotone",
    "Verif.Atomics.C49_max_monotone",
    "Verif.Atomics.C49_mixed_sign_fails",
    "Verif.Atomics.C49_mixed_min_iff",
    "Verif.Atomics.C49_mixed_max_iff",
    "Verif.Atomics.C49_min_nan",
    "Verif.Atomics.C49_nan_initial_fails"
   ],
   "note": "The code violates the full statement: fails for mixed types: the minimum of -1 and 1u is 1, the maximum of 5 and 3000000000u is a negative number / fails with NaN: a variable that was never set to a number takes no minimum"
  },
  {
   "property": "C50",
   "status": "partial",
   "theorems": [
    "Verif.InputEngine.C50_lua_lookup",
    "Verif.InputEngine.C50_priority",
    "Verif.InputEngine.C50_priority_function",
    "Verif.InputEngine.C50_instant",
    "Verif.InputEngine.C50_frame",
    "Verif.InputEngine.C50_registration_order",
    "Verif.InputEngine.C50_unmapped_fails",
    "Verif.InputEngine.C50_sources_lua",
    "Verif.InputEngine.C50_sources_hard"
   ],
   "note": "The code violates the full statement: is false for a target the Lua source has never heard of: it has a hard-coded default, but the Lua source throws instead of reporting that it has no value, and `resolve_inputs()` with it"
  },
  {
   "property": "C51",
   "status": "partial",
   "theorems": [
    "Verif.InputEngine.C51_true_iff",
    "Verif.InputEngine.C51_get_after_true",
    "Verif.InputEngine.C51_unknown_throws",
    "Verif.InputEngine.C51_stale_fails"
   ],
   "note": "The code violates the full statement: is false in one direction: `resolve_inputs()` returns false although every registered target has a value and counts as resolved, when an earlier resolve found the value and the present sources do not"
  },
  {
   "property": "C52",
   "status": "partial",
   "theorems": [
    "Verif.InputEngine.C52_repeatable_iff",
    "Verif.InputEngine.C52_repeatable_partial",
    "Verif.InputEngine.C52_new_default",
    "Verif.InputEngine.C52_kept_default",
    "Verif.InputEngine.C52_moved_default_fails",
    "Verif.InputEngine.C52_function_default_fails"
   ],
   "note": "The code violates the full statement: is false for types that moving empties: the first resolve gives the default 5, the second what moving left of it / is false for functions: after replacing a hard-coded function, the next resolve reports success and still returns the old one Proved in part: as far as it holds: resolving again without touching the sources changes no value and returns the same result, for value types whose moved-from state is the value itself (numbers and other trivial types) and for function types. (Missing: strings, vectors and other types that moving empties, see `C52_moved_default_fails`; the exact condition is `C52_repeatable_iff`.)"
  },
  {
   "property": "C53",
   "status": "partial",
   "theorems": [
    "Verif.InputEngine.C53_names_fails",
    "Verif.InputEngine.C53_names_partial",
    "Verif.InputEngine.C53_parameters_fails",
    "Verif.InputEngine.C53_parameters_partial",
    "Verif.InputEngine.C53_parameters_iff",
    "Verif.InputEngine.C53_names_iff"
   ],
   "note": "The code violates the full statement: is false: a colon in a name lets two different inputs share one registry entry / for registered parameters: false in general Proved in part: as far as it holds: namespaces without a colon, and no colon in names that have no namespace. (Missing: the other names, see `C53_names_fails`.) / and true when the keys contain no question mark"
  },
  {
   "property": "C54",
   "status": "partial",
   "theorems": [
    "Verif.InputEngine.C54_constructed",
    "Verif.InputEngine.C54_get",
    "Verif.InputEngine.C54_before_resolution",
    "Verif.InputEngine.C54_too_early",
    "Verif.InputEngine.C54_cache_partial",
    "Verif.InputEngine.C54_resolved_then_valid",
    "Verif.InputEngine.C54_stale_verdict_fails",
    "Verif.InputEngine.C54_verdict",
    "Verif.InputEngine.C54_get_then_valid"
   ],
   "note": "The code violates the full statement: is false when the registry changes: the value was 1 and accepted; the program then writes 0, which the validator rejects; `valid()` still says true Proved in part: as far as it holds: while the registry does not change, `valid()` reports the validator's verdict on the registry's value, after any sequence of calls on the init_value; it never throws, and false means that the value is rejected or not resolved. (Missing: a registry that changes after the verdict was cached, see `C54_stale_verdict_fails`.)"
  },
  {
   "property": "C55",
   "status": "partial",
   "theorems": [
    "Verif.LuaStack.C55_get",
    "Verif.LuaStack.C55_returns",
    "Verif.LuaStack.C55_field_fails",
    "Verif.LuaStack.C55_field_partial",
    "Verif.LuaStack.C55_throws_partial",
    "Verif.LuaStack.C55_throw_fails",
    "Verif.LuaStack.C55_field_throw_fails",
    "Verif.LuaStack.C55_run",
    "Verif.LuaStack.C55_session",
    "Verif.LuaStack.C55_leak_fails"
   ],
   "note": "The code violates the full statement: as stated for field access: violated. Access by key or index empties the whole stack (`lua_pop(s,-1)`), so whatever was on it is lost / as stated for throwing conversions: violated. Converting anything that is not a number to a number throws and leaves the value on the stack / a field of something that is not a table throws and leaves the value too / every caught failure leaves one more value on the stack, so once the slots Lua started with are used up the next global access overflows Proved in part: field access leaves the stack as it was if it was empty, and finds the entry / what a throwing operation leaves: everything that was on the stack is still there, below whatever the operation had pushed"
  },
  {
   "property": "C56",
   "status": "partial",
   "theorems": [
    "Verif.LuaStack.C56_call",
    "Verif.LuaStack.C56_order",
    "Verif.LuaStack.C56_call_order",
    "Verif.LuaStack.C56_mismatch",
    "Verif.LuaStack.C56_last_nil_fails",
    "Verif.LuaStack.C56_no_results_fails"
   ],
   "note": "The code violates the full statement: as stated: violated when the last of the values is nil: the call throws although it returned / as stated: violated for functions that return nothing: with nothing on the stack the call looks at the slot below it, which Lua keeps nil in the main program, and throws"
  },
  {
   "property": "C57",
   "status": "partial",
   "theorems": [
    "Verif.LuaStack.C57_exact",
    "Verif.LuaStack.C57_refused",
    "Verif.LuaStack.C57_meant",
    "Verif.LuaStack.C57_get",
    "Verif.LuaStack.C57_get_iff_partial",
    "Verif.LuaStack.C57_wrong_length",
    "Verif.LuaStack.C57_push_get",
    "Verif.LuaStack.C57_string_fails",
    "Verif.LuaStack.C57_fraction_fails",
    "Verif.LuaStack.C57_matrix_fails",
    "Verif.LuaStack.C57_matrix_row_fails",
    "Verif.LuaStack.C57_array_argument",
    "Verif.LuaStack.C57_array_argument_fails",
    "Verif.LuaStack.C57_index_fails"
   ],
   "note": "The code violates the full statement: as stated: violated for strings with a zero byte, which come back cut there / as stated: violated for numbers that are not integers, which convert to zero instead of being refused / as stated: violated for matrices: rows longer than the matrix are accepted and cut / a row that is not a table is undefined rather than refused / an array of 20 or more doubles given to a function in a fresh state (20 slots) overflows the stack: the caller asks for one slot and `lua_push` for `N - 1`, counted from the same place / with an index other than the top, a vector is read from the top of the stack all the same Proved in part: for types without integers, strings and matrices the conversion succeeds exactly on the values that stand for something"
  },
  {
   "property": "C58",
   "status": "partial",
   "theorems": [
    "Verif.Dbc.C58_active",
    "Verif.Dbc.C58_off_partial",
    "Verif.Dbc.C58_run",
    "Verif.Dbc.C58_one_of_fails",
    "Verif.Dbc.C58_twice_fails",
    "Verif.Dbc.C58_effect_fails"
   ],
   "note": "The code violates the full statement: with checks off `OneOf` is true whatever the value, so a program that uses its value as the condition takes another branch / with checks off the operand of `InOpenRange` is evaluated twice: for `++i` with `i = 0` the check `0 < ++i < 2` holds when checks are on and fails when they are off, and `i` ends up different / with checks off a condition with an effect is not evaluated at all Proved in part: with checks off, each of the comparison checks still has the value of its condition and nothing else happens. Partial: not `OneOf` (see `C58_one_of_fails`), and the operands must change nothing (see `C58_twice_fails`); `Require`, `Check` and `Ensure` vanish"
  },
  {
   "property": "C59",
   "status": "partial",
   "theorems": [
    "Verif.Elements.C59_basis_partial",
    "Verif.Elements.C59_quad12_fails",
    "Verif.Elements.C59_partials",
    "Verif.Elements.C59_position",
    "Verif.Elements.C59_tess16_fails",
    "Verif.Elements.C59_tess16_partial"
   ],
   "note": "The code violates the full statement: is false for Quad_12_2D: its `basis` leaves four entries as they were, so the sum is one only if those happened to add up to zero / is false for Tess16: the member table is never set, and e.g. if it holds zeros the position of every point is the mean of the vertices Proved in part: the sums of `basis`, as far as it holds: every element but the 12-node one, every point (also outside the element), whatever the output vector held. (Missing: Quad_12_2D, see `C59_quad12_fails`.) / for Tess16 with the member set as intended"
  },
  {
   "property": "C60",
   "status": "partial",
   "theorems": [
    "Verif.Elements.C60_kronecker_partial",
    "Verif.Elements.C60_quad12_fails",
    "Verif.Elements.C60_nodes",
    "Verif.Elements.C60_tess16_partial",
    "Verif.Elements.C60_tess16_fails",
    "Verif.Elements.C60_distinct"
   ],
   "note": "The code violates the full statement: is false for Quad_12_2D: at node 4, no entry of the basis that is written is one / is false for Tess16 with the member as it is: zeros map node 0 elsewhere Proved in part: as far as it holds for `basis`: one at the own node, zero at the others. (Missing: Quad_12_2D, see `C60_quad12_fails`.) / for Tess16 with the member set as intended"
  },
  {
   "property": "C61",
   "status": "partial",
   "theorems": [
    "Verif.Elements.C61_basis_partial",
    "Verif.Elements.C61_position",
    "Verif.Elements.C61_quad12_fails",
    "Verif.Elements.C61_tess16"
   ],
   "note": "The code violates the full statement: is false for `basis` of Quad_12_2D: at the centre, the derivative of the first basis function is not the partial Proved in part: as far as it holds for `basis`: the coded partials are the partial derivatives, at every point. (Missing: Quad_12_2D, see `C61_quad12_fails`.)"
  },
  {
   "property": "C62",
   "status": "partial",
   "theorems": [
    "Verif.Elements.C62_affine",
    "Verif.Elements.C62_jacobian",
    "Verif.Elements.C62_tess16_partial",
    "Verif.Elements.C62_tess16_fails"
   ],
   "note": "The code violates the full statement: is false for Tess16 as it is: with zeros in the member every point of the reference tesseract itself maps to its centre Proved in part: for Tess16 with the member set as intended"
  },
  {
   "property": "C63",
   "status": "partial",
   "theorems": [
    "Verif.Elements.C63_jacobian",
    "Verif.Elements.C63_determinant",
    "Verif.Elements.C63_two_by_two_fails",
    "Verif.Elements.C63_determinant_4d",
    "Verif.Elements.C63_inverse_2d",
    "Verif.Elements.C63_inverse_2d_singular",
    "Verif.Elements.C63_inverse_3d_fails",
    "Verif.Elements.C63_inverse_3d_partial",
    "Verif.Elements.C63_inverse_3d_iff",
    "Verif.Elements.C63_inverse_4d",
    "Verif.Elements.C63_inverse_4d_fails"
   ],
   "note": "The code violates the full statement: is false for a 2 by 2 matrix: the determinant formula reads a third row / is false in 3D, in three ways: for an invertible triangular matrix the result is not the inverse; for a symmetric invertible matrix it is not either; and for some invertible matrices the function divides by zero / is false in 4D: a matrix with determinant one whose computed inverse is not its inverse Proved in part: in 3D as far as it holds: symmetric matrices whose (1,0) entry is zero or whose (1,1) and (2,1) entries agree - in particular diagonal ones. (Missing: everything else, see `C63_inverse_3d_fails`.)"
  },
  {
   "property": "C64",
   "status": "proved",
   "theorems": [
    "Verif.Lagrange.C64_lagrange",
    "Verif.Lagrange.C64_reproduces",
    "Verif.Lagrange.C64_unity",
    "Verif.Lagrange.C64_nodes",
    "Verif.Lagrange.C64_repeated",
    "Verif.Lagrange.C64_derivative"
   ],
   "note": ""
  },
  {
   "property": "C65",
   "status": "proved",
   "theorems": [
    "Verif.Lagrange.C65_increasing",
    "Verif.Lagrange.C65_roots",
    "Verif.Lagrange.C65_distinct"
   ],
   "note": ""
  },
  {
   "property": "C66",
   "status": "partial",
   "theorems": [
    "Verif.Lagrange.C66_quad_succeeds",
    "Verif.Lagrange.C66_quad_nodes",
    "Verif.Lagrange.C66_quad_kronecker",
    "Verif.Lagrange.C66_quad_reproduces",
    "Verif.Lagrange.C66_quad_unity",
    "Verif.Lagrange.C66_quad_corners",
    "Verif.Lagrange.C66_quad_position_partial",
    "Verif.Lagrange.C66_quad_position_fails",
    "Verif.Lagrange.C66_hex_succeeds",
    "Verif.Lagrange.C66_hex_nodes",
    "Verif.Lagrange.C66_hex_kronecker",
    "Verif.Lagrange.C66_hex_reproduces",
    "Verif.Lagrange.C66_hex_unity",
    "Verif.Lagrange.C66_hex_corners",
    "Verif.Lagrange.C66_hex_position_partial",
    "Verif.Lagrange.C66_hex_position_fails",
    "Verif.Lagrange.C66_quad_derivative",
    "Verif.Lagrange.C66_hex_derivative",
    "Verif.Lagrange.C66_chebyshev"
   ],
   "note": "The code violates the full statement: fails for `QuadN::physical_position`: mapping a reference point through the element's own nodes should give the point back, but the second coordinate stays as it was, for every order and every point whose second coordinate is not what the vector held / fails for `HexN::physical_position`: the third coordinate stays as it was Proved in part: what `QuadN::physical_position` computes: only the first coordinate is mapped, and it is added to what the caller's vector held / what `HexN::physical_position` computes: only the first two coordinates are mapped, and they are added to what the caller's vector held"
  },
  {
   "property": "C67",
   "status": "proved",
   "theorems": [
    "Verif.Quadrature.C67_supported",
    "Verif.Quadrature.C67_gauss_exact",
    "Verif.Quadrature.C67_gauss_tabulated",
    "Verif.Quadrature.C67_lobatto_exact",
    "Verif.Quadrature.C67_lobatto_tabulated",
    "Verif.Quadrature.C67_gauss_points",
    "Verif.Quadrature.C67_lobatto_points",
    "Verif.Quadrature.C67_gauss2d_grid",
    "Verif.Quadrature.C67_gauss2d_exact",
    "Verif.Quadrature.C67_gauss3d_grid",
    "Verif.Quadrature.C67_gauss3d_exact",
    "Verif.Quadrature.C67_gauss4d_grid",
    "Verif.Quadrature.C67_lobatto_tensor",
    "Verif.Quadrature.C67_unsupported"
   ],
   "note": ""
  },
  {
   "property": "C68",
   "status": "proved",
   "theorems": [
    "Verif.TupleUtils.C68_tuple_for_each",
    "Verif.TupleUtils.C68_static_for",
    "Verif.TupleUtils.C68_static_for_log",
    "Verif.TupleUtils.C68_tuple_visit",
    "Verif.TupleUtils.C68_tuple_zip",
    "Verif.TupleUtils.C68_to_array",
    "Verif.TupleUtils.C68_template_helpers"
   ],
   "note": ""
  },
  {
   "property": "C69",
   "status": "partial",
   "theorems": [
    "Verif.TrivialString.C69_round_trip_partial",
    "Verif.TrivialString.C69_too_long_fails",
    "Verif.TrivialString.C69_embedded_nul_truncates",
    "Verif.TrivialString.C69_round_trip_iff",
    "Verif.TrivialString.C69_access_partial",
    "Verif.TrivialString.C69_access_at_capacity_fails"
   ],
   "note": "The code violates the full statement: fails A string that does not fit overruns the buffer; nothing rejects it. / fails ...but the index equal to the capacity passes the assertion and leaves the buffer. Proved in part: Every string without NUL that is shorter than the capacity is stored and read back unchanged, whatever the buffer held before. Missing: rejection of longer strings, see `C69_too_long_fails`. / Character access: exact below the capacity, rejected above it..."
  },
  {
   "property": "C70",
   "status": "partial",
   "theorems": [
    "Verif.InputEngine.C70_group",
    "Verif.InputEngine.C70_group_again_fails",
    "Verif.InputEngine.C70_type_iff",
    "Verif.InputEngine.C70_type_tag",
    "Verif.InputEngine.C70_type_fails",
    "Verif.InputEngine.C70_encoding",
    "Verif.InputEngine.C70_first_wins",
    "Verif.InputEngine.C70_reregister_fails",
    "Verif.InputEngine.C70_collision_fails",
    "Verif.InputEngine.C70_own_key_partial",
    "Verif.InputEngine.C70_default_iff"
   ],
   "note": "The code violates the full statement: a second title for a group is dropped, and `register_group` says nothing of it / so registering an `int` parameter is undefined / is false for a default registered again: the new one is dropped though the call returns true / is false for different parameters whose keys collide Proved in part: as far as it holds: parameters with keys free of question marks and registered once keep their defaults, whatever else is registered before and after. (Missing: `C70_reregister_fails`, `C70_collision_fails`.)"
  },
  {
   "property": "C71",
   "status": "partial",
   "theorems": [
    "Verif.InputEngine.C71_register_value",
    "Verif.InputEngine.C71_register_value_frame",
    "Verif.InputEngine.C71_register_table_partial",
    "Verif.InputEngine.C71_register_table_iff",
    "Verif.InputEngine.C71_lua_name_fails",
    "Verif.InputEngine.C71_replace_fails",
    "Verif.InputEngine.C71_stale_lua_name_fails"
   ],
   "note": "The code violates the full statement: is false for a table with another name in the Lua file: `register_table(\"t\", \"base_state\", \"lua_t\")` looks for `t`, not `lua_t` / is false for a second registration: it reports that it displaced the old definition, but the old table stays / is false for a key that once had a Lua name of its own: registering it again without one keeps the old Lua name Proved in part: as far as it holds: the first registration of a top-level table under its own name makes that table available. (Missing: a different Lua name, a second registration; see below.)"
  },
  {
   "property": "C72",
   "status": "partial",
   "theorems": [
    "Verif.Elements.C72_complete",
    "Verif.Elements.C72_degree",
    "Verif.Elements.C72_basis_partial",
    "Verif.Elements.C72_quad12_basis_fails",
    "Verif.Elements.C72_derivative",
    "Verif.Elements.C72_sharp"
   ],
   "note": "The code violates the full statement: fails for `Quad_12_2D::basis`: interpolating `1 - xi^2` with it gives `16/9` at the centre, not `1`, whatever the entries it leaves unset hold (the polynomial vanishes at their nodes) Proved in part: for `basis`: interpolation of such a polynomial is exact. Partial: not Quad_12_2D, whose `basis` leaves entries unset, see `C72_quad12_basis_fails`"
  },
  {
   "property": "C73",
   "status": "proved",
   "theorems": [
    "Verif.LuaStack.C73_default",
    "Verif.LuaStack.C73_several",
    "Verif.LuaStack.C73_missing"
   ],
   "note": ""
  },
  {
   "property": "C74",
   "status": "proved",
   "theorems": [
    "Verif.LuaStack.Refs.C74_value",
    "Verif.LuaStack.Refs.C74_released",
    "Verif.LuaStack.Refs.C74_others"
   ],
   "note": ""
  },
  {
   "property": "C75",
   "status": "partial",
   "theorems": [
    "Verif.Dbc.C75_options_fails",
    "Verif.Dbc.C75_documented",
    "Verif.Dbc.C75_insist_fails",
    "Verif.Dbc.C75_macros_partial"
   ],
   "note": "The code violates the full statement: no value of the two documented options has any effect: unless the user defines other variables or macros by hand, checks are off and every action is to do nothing / so with the default build even `Insist`, \"always on\", passes over a failed condition without a trace Proved in part: what does work: the macros can be defined on the command line (as the tests do), or the two action macros through CMake variables of their own names. Partial: not through the documented options"
  },
  {
   "property": "C76",
   "status": "partial",
   "theorems": [
    "Verif.TupleUtils.Math.C76_op_equal_partial",
    "Verif.TupleUtils.Math.C76_op_equal_iff",
    "Verif.TupleUtils.Math.C76_scalar_equal_iff",
    "Verif.TupleUtils.Math.C76_scalar_equal_partial",
    "Verif.TupleUtils.Math.C76_scalar_alias_fails",
    "Verif.TupleUtils.Math.C76_shared_fails",
    "Verif.TupleUtils.Math.C76_operators",
    "Verif.TupleUtils.Math.C76_fill",
    "Verif.TupleUtils.Math.C76_print_injective"
   ],
   "note": "The code violates the full statement: fails: `divides_equal(t, get<0>(t))` (or any `op=` whose scalar is an element of the tuple, which is taken by reference) uses the already overwritten element for the later ones: `(4, 8) / 4` gives `(1, 8)`, not `(1, 2)`. / fails for tuples of references: `plus_equal(std::tie(a,b), std::tie(b,a))` with `a = 1`, `b = 2` gives `a = 3`, `b = 5`. Proved in part: for the four assignment forms with a tuple on the right, as far as it holds: if the targets are distinct cells and no element of `rhs` is an *earlier* element of `lhs` (sharing the same position, as in `t += t`, is fine), the call is defined exactly when every element operation is, and then every element of `lhs` becomes the converted result of the operation on the original operands and nothing else changes. (Missing: operands that share cells at different positions, see `C76_shared_fails`.) / for `t op= scalar`, as far as it holds: the scalar is not an element of the tuple (or only its last one). (Missing: a scalar that is an earlier element of the tuple, see `C76_scalar_alias_fails`.)"
  },
  {
   "property": "C77",
   "status": "partial",
   "theorems": [
    "Verif.Catalyst.C77_scripts_partial",
    "Verif.Catalyst.C77_scripts_no_directory_fails",
    "Verif.Catalyst.C77_replace_first",
    "Verif.Catalyst.C77_replace_absent_fails"
   ],
   "note": "The code violates the full statement: fails for every input file named without a directory: the scripts are looked for in a directory with the name of the input file, never in the current directory. / fails when the text to replace does not occur: the call throws `out_of_range` instead of returning the string unchanged. Proved in part: For an input file named by a path with a directory part, the scripts are the listed names, in order, each in the directory of the input file (everything before the last slash)."
  },
  {
   "property": "C78",
   "status": "proved",
   "theorems": [
    "Verif.Catalyst.C78_compare_files",
    "Verif.Catalyst.C78_image_shape",
    "Verif.Catalyst.C78_image_compare",
    "Verif.Catalyst.C78_image_threshold"
   ],
   "note": ""
  },
  {
   "property": "C79",
   "status": "partial",
   "theorems": [
    "Verif.Catalyst.C79_get_duration",
    "Verif.Catalyst.C79_last_stop_partial",
    "Verif.Catalyst.C79_second_stop_fails",
    "Verif.Catalyst.C79_last_stop_iff",
    "Verif.Catalyst.C79_stop_result"
   ],
   "note": "The code violates the full statement: fails: a second `stop` is ignored (`insert` does not replace the first duration): start at 0, stop at 1, stop at 5 gives 1. Proved in part: as far as it holds: with exactly one stop since the last start, the duration is the time between them. (Missing: a timer stopped again, see `C79_second_stop_fails`.)"
  },
  {
   "property": "C80",
   "status": "partial",
   "theorems": [
    "Verif.Catalyst.C80_add_points",
    "Verif.Catalyst.C80_add_after_push_fails",
    "Verif.Catalyst.C80_insert_points",
    "Verif.Catalyst.C80_insert_points_short",
    "Verif.Catalyst.C80_set_points",
    "Verif.Catalyst.C80_mixed_fails",
    "Verif.Catalyst.C80_reset_fails",
    "Verif.Catalyst.C80_insert_cells"
   ],
   "note": "The code violates the full statement: fails: a point added after the grid was handed over shows up in the grid as a cell without a type, until the next hand-over. / fails: the ways of adding points do not go together. `insertNextPoint` does not advance the index `addPoint` writes to, so the inserted point is overwritten; `setPoints` does not set the index back, so after `addPoint` its cells refer to points that do not exist. / fails: `reset` does not empty the grid. On a grid not handed over it destroys the arrays still in use: every later call that adds points is undefined. On a grid handed over once the old points and cells remain, and as many new points are written over the old ones while their cells are added to the old cells."
  },
  {
   "property": "C81",
   "status": "proved",
   "theorems": [
    "Verif.Catalyst.C81_vector",
    "Verif.Catalyst.C81_forms",
    "Verif.Catalyst.C81_short"
   ],
   "note": ""
  },
  {
   "property": "C82",
   "status": "partial",
   "theorems": [
    "Verif.Catalyst.C82_cells",
    "Verif.Catalyst.C82_orientation",
    "Verif.Catalyst.C82_points",
    "Verif.Catalyst.C82_points_four_dims",
    "Verif.Catalyst.C82_create_mesh",
    "Verif.Catalyst.C82_create_points_partial",
    "Verif.Catalyst.C82_create_order_fails",
    "Verif.Catalyst.C82_create_points_iff",
    "Verif.Catalyst.C82_create_2d_fails",
    "Verif.Catalyst.C82_create_1d_fails"
   ],
   "note": "The code violates the full statement: fails for vertices visited in another order: `createMesh` numbers the points in the order visited, and the cells go on using the numbers of the mesh. / fails in two dimensions: `createMesh` writes outside of its coordinate array for every mesh with at least two vertices. / fails in one dimension: three coordinates are read from a point with one. Proved in part: as far as it holds: for a mesh whose vertices are visited in the order of their numbers, point number i of `createMesh` is vertex number i, so that the cells refer to the right points. (Missing: any other order, see `C82_create_order_fails`.)"
  },
  {
   "property": "C83",
   "status": "partial",
   "theorems": [
    "Verif.Python.C83_errors_cleared",
    "Verif.Python.C83_conversion_fails",
    "Verif.Python.C83_import_attribute",
    "Verif.Python.C83_import_leak_fails",
    "Verif.Python.C83_add_to_path",
    "Verif.Python.C83_call_returns",
    "Verif.Python.C83_call_leak_fails",
    "Verif.Python.C83_tuple_element",
    "Verif.Python.C83_borrowed_fails"
   ],
   "note": "The code violates the full statement: fails for the conversions: asked for the number in an object that is not a number they return -1 like for the number -1, and leave the error pending. / fails for a module that cannot be imported: the object made for its name is never released. / fails for a function that raises: the tuple of arguments is never released. / fails for what `python_get_tuple_element` and `python_add_to_path` return: unlike the results of the other functions it is not a reference of the caller, and releasing it with `python_free` releases a reference of somebody else."
  },
  {
   "property": "C84",
   "status": "partial",
   "theorems": [
    "Verif.Macros.C84_statements_partial",
    "Verif.Macros.C84_dangling_else_fails",
    "Verif.Macros.C84_warning_else_fails"
   ],
   "note": "The code violates the full statement: fails for `if (a) assert_true(c, msg); else s;`: the `else` is taken by the `if` inside the macro. The `else` part runs when it should not (both conditions true) and does not run when it should (`a` false), and nothing warns of it. / fails for `if (a) short_warning(msg); else s;`: it is not a C++ program. Proved in part: as far as it holds: a program in which no `assert_true`, no `short_warning` (and no `if` without `else`) stands directly before an `else` is read by the compiler and does what is written, each macro acting as one statement; in particular the `THROW_...` macros are statements anywhere. (Missing: see the two theorems below.)"
  },
  {
   "property": "C85",
   "status": "partial",
   "theorems": [
    "Verif.Arguments.C85_options",
    "Verif.Arguments.C85_order",
    "Verif.Arguments.C85_caption_partial",
    "Verif.Arguments.C85_caption_lost_fails",
    "Verif.Arguments.C85_caption_iff",
    "Verif.Arguments.C85_second_group_fails",
    "Verif.Arguments.C85_process",
    "Verif.Arguments.C85_values"
   ],
   "note": "The code violates the full statement: fails for captions: an argument registered under a key before its group (for instance by another source file initialised earlier) takes away the caption, for good: the group keeps the empty caption whatever is registered afterwards, although `register_group` answers `true`. / fails for a second caption: registering a group again under the same key is ignored, and the answer is `true` all the same. Proved in part: (captions) as far as it holds: a group registered before everything else under its key keeps its caption through all later registrations. (Missing: a group registered after an argument of the same key, and a second group, see below.)"
  },
  {
   "property": "C86",
   "status": "partial",
   "theorems": [
    "Verif.Rounding.C86_gamma",
    "Verif.Rounding.C86_dot",
    "Verif.Rounding.C86_dot_range",
    "Verif.Rounding.C86_average",
    "Verif.Rounding.C86_magnitude",
    "Verif.Rounding.C86_cross",
    "Verif.Rounding.C86_triple",
    "Verif.Rounding.C86_matrix_vector",
    "Verif.Rounding.C86_matrix_multiply",
    "Verif.Rounding.C86_trace",
    "Verif.Rounding.C86_determinant",
    "Verif.Rounding.C86_triangle",
    "Verif.Rounding.C86_polygon_partial",
    "Verif.Rounding.C86_tetrahedron_partial",
    "Verif.Rounding.C86_tetrahedron_fails",
    "Verif.Rounding.C86_polygon_fails"
   ],
   "note": "The code violates the full statement: fails for small tetrahedra far from the origin. Take coordinates with `p` significant binary digits and `2e + 4 \u2264 p < 3e`, so `p = 53` and `e = 18` for `double`. The tetrahedron with the corner `(2^e, 2^e, 2^e)` and unit edges along the axes has determinant `-1`, so volume `1/6`. The four corners are exactly representable and the computed determinant, and with it the volume, is `0`. / fails for small polygons far from the origin. Take coordinates with `p` significant binary digits and `p < 2e`, `e + 3 \u2264 p`: `e = 27` for `double`, `e = 13` (coordinates about 8192) for `float`. The unit square with the corner `(2^e, 2^e)` is exactly representable, and its computed area is `0`, not `1`. Proved in part: (polygons). The signed area of a polygon with any number of corners: the error is relative to products of *coordinates*, so it grows with the distance from the origin. What is missing is a bound relative to the size of the polygon, as for triangles: there is none (`C86_polygon_fails`). / (tetrahedra). The determinant behind the volume is expanded in the coordinates themselves: with coordinates up to `M` the absolute error is at most `24 ((1+u)^25 - 1) M\u00b3`, whatever the size of the tetrahedron. What is missing is a bound relative to the size of the tetrahedron: there is none (`C86_tetrahedron_fails`)."
  },
  {
   "property": "C87",
   "status": "partial",
   "theorems": [
    "Verif.Printing.C87_array",
    "Verif.Printing.C87_dimensioned_array",
    "Verif.Printing.C87_array_words",
    "Verif.Printing.C87_array_injective",
    "Verif.Printing.C87_nested",
    "Verif.Printing.C87_array_injective_fails",
    "Verif.Printing.C87_width_fails",
    "Verif.Printing.C87_matrix_columns",
    "Verif.Printing.C87_matrix_rows_fails",
    "Verif.Printing.C87_matrix_injective",
    "Verif.Printing.C87_matrix_rows_iff"
   ],
   "note": "The code violates the full statement: fails for elements whose text contains blanks: two different arrays of two strings print alike. / fails for the field width: `std::setw` before an array does not pad the printed array to that width, nor does it reach the elements. / fails for rows: a matrix is not printed row by row. The matrix with rows `1 2 3` and `4 5 6` prints as three lines `1 4`, `2 5`, `3 6`."
  },
  {
   "property": "C88",
   "status": "partial",
   "theorems": [
    "Verif.Printing.C88_dump",
    "Verif.Printing.C88_last_row_partial",
    "Verif.Printing.C88_last_row_fails"
   ],
   "note": "The code violates the full statement: fails for an empty stack: the last row reported is then whatever the slot below the stack holds, numbered 0. Proved in part: Reporting the last row prints the number of values on the stack and the value on top, and leaves the Lua state as it was, whenever the stack is not empty."
  },
  {
   "property": "C89",
   "status": "partial",
   "theorems": [
    "Verif.Catalyst.C89_process",
    "Verif.Catalyst.C89_free_function",
    "Verif.Catalyst.C89_free_function_fails",
    "Verif.Catalyst.C89_free_function_iff",
    "Verif.Catalyst.C89_copy_fails",
    "Verif.Catalyst.C89_finalize_fails"
   ],
   "note": "The code violates the full statement: fails for the free function: a step that is not the last and that no script wants is processed all the same. / fails for copies: an adaptor can be copied, and ending both the copy and the original is undefined. / fails for `finalizeAdaptor`: every call is undefined, as the function ends without giving its result."
  },
  {
   "property": "C90",
   "status": "partial",
   "theorems": [
    "Verif.Catalyst.C90_write",
    "Verif.Catalyst.C90_append",
    "Verif.Catalyst.C90_object",
    "Verif.Catalyst.C90_destructor_fails",
    "Verif.Catalyst.C90_unopened_fails"
   ],
   "note": "The code violates the full statement: fails for the end of a log object: text inserted and not written is lost, the destructor writes nothing. / fails for files that cannot be opened: nothing is written and nothing is said."
  },
  {
   "property": "C91",
   "status": "partial",
   "theorems": [
    "Verif.MultiArray.C91_assign",
    "Verif.MultiArray.C91_scalar_assign",
    "Verif.MultiArray.C91_scalar_alias",
    "Verif.MultiArray.C91_scalar_alias_fails",
    "Verif.MultiArray.C91_fill",
    "Verif.MultiArray.C91_binary",
    "Verif.MultiArray.C91_division_partial",
    "Verif.MultiArray.C91_integer_division_fails",
    "Verif.MultiArray.C91_integer_division_iff",
    "Verif.MultiArray.C91_scalar_alias_iff",
    "Verif.MultiArray.C91_swap",
    "Verif.MultiArray.C91_assign_range",
    "Verif.MultiArray.C91_assign_short_fails",
    "Verif.MultiArray.C91_eq",
    "Verif.MultiArray.C91_lt",
    "Verif.MultiArray.C91_total_order",
    "Verif.MultiArray.C91_front_back"
   ],
   "note": "The code violates the full statement: fails for a scalar that is an element of the array: `m += m(0,0)` adds different values to different elements. / fails for integers: dividing by 2 gives zeros. / fails for short ranges: `assign` is documented to replace the contents, but keeps the rest of them. Proved in part: Dividing by a scalar divides every element, in every field (missing: integers, see `C91_integer_division_fails`)."
  },
  {
   "property": "C92",
   "status": "partial",
   "theorems": [
    "Verif.Atomics.C92_forms",
    "Verif.Atomics.C92_pun_overload",
    "Verif.Atomics.C92_meaning",
    "Verif.Atomics.C92_cpp",
    "Verif.Atomics.C92_scheme_independent",
    "Verif.Atomics.C92_orders",
    "Verif.Atomics.C92_failure_order_fails",
    "Verif.Atomics.C92_increment_order_fails",
    "Verif.Atomics.C92_counter"
   ],
   "note": "The code violates the full statement: fails for some calls that compile: a releasing order for the failed exchange is undefined / fails: although an increment is an addition of one, under `cpp` it takes no memory order"
  },
  {
   "property": "C93",
   "status": "partial",
   "theorems": [
    "Verif.Macros.C93_location",
    "Verif.Macros.C93_report",
    "Verif.Macros.C93_what_fails",
    "Verif.Macros.C93_file",
    "Verif.Macros.C93_file_abort_fails",
    "Verif.Macros.C93_assert",
    "Verif.Macros.C93_warning",
    "Verif.Macros.C93_here_str_partial",
    "Verif.Macros.C93_here_str_fails",
    "Verif.Macros.C93_here_iff",
    "Verif.Macros.C93_here_order_fails"
   ],
   "note": "The code violates the full statement: fails for the exception object: it carries nothing of the message, so that whoever catches it cannot tell two errors of a class apart / fails for file errors with exceptions off: the program aborts and the file is named nowhere / fails for `HERE_STR` when a file name has colons: two places with one text / fails: `HERE` and `HERE_STR` at one place disagree Proved in part: where file names have no colon, the text of `HERE_STR` tells file, function, line and message"
  },
  {
   "property": "C94",
   "status": "proved",
   "theorems": [
    "Verif.Integration.C94_integral",
    "Verif.Integration.C94_quad4_area",
    "Verif.Integration.C94_quad4_centroid",
    "Verif.Integration.C94_hex8_volume",
    "Verif.Integration.C94_hex8_orientation",
    "Verif.Integration.C94_straight_quad",
    "Verif.Integration.C94_straight_hex",
    "Verif.Integration.C94_hex8_one_point"
   ],
   "note": ""
  },
  {
   "property": "C95",
   "status": "partial",
   "theorems": [
    "Verif.TypeTraits.C95_are_type_iff",
    "Verif.TypeTraits.C95_are_type_values",
    "Verif.TypeTraits.C95_are_type_arrays_fails",
    "Verif.TypeTraits.C95_are_integral_iff",
    "Verif.TypeTraits.C95_are_integral_reference_fails",
    "Verif.TypeTraits.C95_callable_iff",
    "Verif.TypeTraits.C95_callable_partial",
    "Verif.TypeTraits.C95_callable_fails",
    "Verif.TypeTraits.C95_container_iff",
    "Verif.TypeTraits.C95_container_fails",
    "Verif.TypeTraits.C95_iterator",
    "Verif.TypeTraits.C95_iterator_fails",
    "Verif.TypeTraits.C95_subscript_iff",
    "Verif.TypeTraits.C95_subscript_fails",
    "Verif.TypeTraits.C95_special_decay_partial",
    "Verif.TypeTraits.C95_special_decay_fails",
    "Verif.TypeTraits.C95_extents_fails"
   ],
   "note": "The code violates the full statement: Arrays of different length and pointers count as one type / A reference to an integer is not integral for `are_integral`, though it is of that type for `are_type_t`: a pack of forwarded variables must be decayed first / `is_callable` is also true for a class with a private operator () and for one inheriting two, neither of which can be called; it is false for function pointers, functions and references to callable objects / Containers of the standard are not containers for `is_container`: `std::list`, `std::map` and `std::deque` have no `data`, `std::array` has no allocator type; neither is a reference to a container / `is_iterator` takes a pointer to a function for an iterator, a reference to an iterator for none, and does not compile for `void *` and `void` / So an integer has a subscript operator, taking a pointer / A reference wrapper held in a variable (so deduced as an lvalue reference) or const stays a wrapper: the reference is not taken out, unlike `std::make_tuple` / `extract_extents` compiles for no type Proved in part: `is_callable` tells whether objects of a class can be called, provided what lookup finds is neither private nor ambiguous and the class is not final / `special_decay` of a temporary reference wrapper is the reference; of a type that is no wrapper, the decayed type"
  },
  {
   "property": "C96",
   "status": "partial",
   "theorems": [
    "Verif.ArrayView.C96_strided_partial",
    "Verif.ArrayView.C96_strided_fails",
    "Verif.ArrayView.C96_contiguous",
    "Verif.ArrayView.C96_static_const_iff",
    "Verif.ArrayView.C96_static_const_fails",
    "Verif.ArrayView.C96_write_strided",
    "Verif.ArrayView.C96_write_contiguous",
    "Verif.ArrayView.C96_copies_fails",
    "Verif.ArrayView.C96_lifetime_fails",
    "Verif.ArrayView.C96_lifetime_iff",
    "Verif.ArrayView.C96_before_begin",
    "Verif.ArrayView.C96_strided_empty_iff"
   ],
   "note": "The code violates the full statement: A strided view of no elements, some but not all extents zero, is not iterated zero times: elements that are not there are read / So a const loop over a static view of two by three elements visits two of them, and one over a static view of one by one by one elements reads past it / Iterators of two copies of a view cannot be compared, though the copies show the same elements / An iterator of a strided view is of no use once the view object is gone, even if the elements are still there, and shows other elements once another view is assigned to it Proved in part: A strided view with positive extents, of any rank and strides, is iterated in row-major order: from `begin` to `end` forwards, from `rbegin` to `rend` backwards"
  },
  {
   "property": "C97",
   "status": "partial",
   "theorems": [
    "Verif.ArrayView.C97_flatten_iff",
    "Verif.ArrayView.C97_flatten_contiguous",
    "Verif.ArrayView.C97_direct_init_fails",
    "Verif.ArrayView.C97_direct_init_iff",
    "Verif.ArrayView.C97_convert",
    "Verif.ArrayView.C97_make_view_iff",
    "Verif.ArrayView.C97_clear",
    "Verif.ArrayView.C97_swap"
   ],
   "note": "The code violates the full statement: `strided_array_view<T> w(v)` does not show the elements of `v`"
  },
  {
   "property": "C98",
   "status": "partial",
   "theorems": [
    "Verif.ArrayView.C98_plus_minus_iff",
    "Verif.ArrayView.C98_plus_minus_inverse",
    "Verif.ArrayView.C98_section",
    "Verif.ArrayView.C98_negate_iff",
    "Verif.ArrayView.C98_construct_iff",
    "Verif.ArrayView.C98_get_at_iff",
    "Verif.ArrayView.C98_times_int_iff",
    "Verif.ArrayView.C98_times_repeated",
    "Verif.ArrayView.C98_times_real_fails",
    "Verif.ArrayView.C98_times_real_iff",
    "Verif.ArrayView.C98_over_int_iff",
    "Verif.ArrayView.C98_over_real_fails"
   ],
   "note": "The code violates the full statement: Multiplying by a fraction is not multiplying by it: half of four is nothing / Dividing by a number between minus one and one divides by zero, though the quotient may well be an index"
  },
  {
   "property": "C99",
   "status": "proved",
   "theorems": [
    "Verif.Atomics.C99_publish",
    "Verif.Atomics.C99_data",
    "Verif.Atomics.C99_cpp",
    "Verif.Atomics.C99_lock_publish",
    "Verif.Atomics.C99_lock",
    "Verif.Atomics.C99_alone",
    "Verif.Atomics.C99_serial_races",
    "Verif.Atomics.C99_last_arrival",
    "Verif.Atomics.C99_pair_iff",
    "Verif.Atomics.C99_calls"
   ],
   "note": ""
  },
  {
   "property": "C100",
   "status": "partial",
   "theorems": [
    "Verif.Deck.C100_open_iff",
    "Verif.Deck.C100_open_error",
    "Verif.Deck.C100_program",
    "Verif.Deck.C100_refines",
    "Verif.Deck.C100_resolve",
    "Verif.Deck.C100_standard",
    "Verif.Deck.C100_size_fails",
    "Verif.Deck.C100_returns_fails",
    "Verif.Deck.C100_leak_fails"
   ],
   "note": "The code violates the full statement: is false for sizes: \"throws exception if key is not found\", says the documentation of `get_size`, but a key missing from the file has size 0. For every file and standard key. / is false for a file that returns 20 values or more: they fill the Lua stack, and the constructor pushes `hydro` beyond it, which is undefined. / is false for a file whose `mesh` is not a table: opening accepts it, and every lookup below it throws and leaves a value on the Lua stack. After 20 or more of them, registering a global table is undefined behaviour."
  },
  {
   "property": "C101",
   "status": "partial",
   "theorems": [
    "Verif.Deck.C101_calls",
    "Verif.Deck.C101_owning",
    "Verif.Deck.C101_reference_fails"
   ],
   "note": "The code violates the full statement: is false for wrappers made from a variable: the wrapper keeps a copy of the result alive and calls through a reference to the variable, so after the variable is gone the call is undefined, for every function and arguments."
  },
  {
   "property": "C102",
   "status": "partial",
   "theorems": [
    "Verif.Making.C102_means",
    "Verif.Making.C102_agree",
    "Verif.Making.C102_value",
    "Verif.Making.C102_single_brace_fails",
    "Verif.Making.C102_copy",
    "Verif.Making.C102_convert",
    "Verif.Making.C102_convert_fails",
    "Verif.Making.C102_values",
    "Verif.Making.C102_defined",
    "Verif.Making.C102_count",
    "Verif.Making.C102_unchecked_fails"
   ],
   "note": "The code violates the full statement: is false for `dimensioned_array__` made from one value in braces: `{v}` is a list of one element, and for every other size it fails the assertion; without assertions all elements but the first are indeterminate. Assigning `{v}` to it sets every element. / is false for the other conversions declared: making or assigning a `math::array` from one with another element type never compiles, and neither does assigning a `multi_array`, though assigning the same array in braces does. / is false without assertions: a list of numbers shorter than the array leaves the other elements indeterminate, and a longer one writes beyond the array, which is undefined."
  },
  {
   "property": "C103",
   "status": "partial",
   "theorems": [
    "Verif.Geometry.C103_versions",
    "Verif.Geometry.C103_similarity",
    "Verif.Geometry.C103_flat_area_iff",
    "Verif.Geometry.C103_flat_centroid_partial",
    "Verif.Geometry.C103_flat_fails",
    "Verif.Geometry.C103_convex",
    "Verif.Geometry.C103_hull",
    "Verif.Geometry.C103_containers"
   ],
   "note": "The code violates the full statement: fails for polygons that are not star shaped about their vertex mean: the plane area of the dart is 4, its area as a polygon in space is 6, and the two centroids differ. Proved in part: When the mean of the vertices sees every edge in the same orientation, the centroid of the flat polygon in space is the plane centroid, put in place."
  },
  {
   "property": "C104",
   "status": "partial",
   "theorems": [
    "Verif.ArrayView.C104_section_iff",
    "Verif.ArrayView.C104_section_fails",
    "Verif.ArrayView.C104_section_elements",
    "Verif.ArrayView.C104_row_iff",
    "Verif.ArrayView.C104_row_fails",
    "Verif.ArrayView.C104_slice_iff",
    "Verif.ArrayView.C104_strides_iff",
    "Verif.ArrayView.C104_strides_fails",
    "Verif.ArrayView.C104_extent",
    "Verif.ArrayView.C104_assign_const_iff",
    "Verif.ArrayView.C104_assign_const_fails",
    "Verif.ArrayView.C104_convert_iff",
    "Verif.ArrayView.C104_convert_elements_partial",
    "Verif.ArrayView.C104_convert_elements_fails",
    "Verif.ArrayView.C104_copy_fails",
    "Verif.ArrayView.C104_convert_strided_iff",
    "Verif.ArrayView.C104_through_dynamic_partial"
   ],
   "note": "The code violates the full statement: fails for static views: a section that a dynamic view of the same elements gives is not to be had from the static one / fails for static views of more than one dimension: they have no rows / fails for static views: reading their strides is undefined / fails for static views: assigning one to a static view of const elements is undefined / fails for strided views: a dynamic or static view made from one forgets the strides / fails for copies of strided views of rank one: `strided_array_view<T,1> w(v);` forgets the strides if `v` is named and not const; `w = v` and a const `v` keep them Proved in part: A view made from a dynamic or a static one shows its elements in the same row-major order, and no others / What a static view does not give, the dynamic view made from it does: every row and every section that fits"
  },
  {
   "property": "C105",
   "status": "partial",
   "theorems": [
    "Verif.ArrayView.C105_compiles_iff",
    "Verif.ArrayView.C105_whole",
    "Verif.ArrayView.C105_container_dims",
    "Verif.ArrayView.C105_carray_dims_iff",
    "Verif.ArrayView.C105_carray_dims_fails",
    "Verif.ArrayView.C105_static_carray"
   ],
   "note": "The code violates the full statement: fails for arrays of one dimension: a static view of five elements over an array of three is accepted and reads past the end, and so is a dynamic one"
  },
  {
   "property": "C106",
   "status": "partial",
   "theorems": [
    "Verif.InputEngine.C106_index_iff",
    "Verif.InputEngine.C106_index_absent_iff",
    "Verif.InputEngine.C106_in_order_iff",
    "Verif.InputEngine.C106_first_failure_iff",
    "Verif.InputEngine.C106_arguments_iff",
    "Verif.InputEngine.C106_arguments_fails",
    "Verif.InputEngine.C106_no_types_fails",
    "Verif.InputEngine.C106_resolve",
    "Verif.InputEngine.C106_clear",
    "Verif.InputEngine.C106_register_targets"
   ],
   "note": "The code violates the full statement: a temporary string given to functions that take it by value reaches only the first: the second gets what moving has left of it / for a program without input types nothing of this compiles"
  },
  {
   "property": "C107",
   "status": "partial",
   "theorems": [
    "Verif.InputEngine.C107_report_harmless",
    "Verif.InputEngine.C107_types",
    "Verif.InputEngine.C107_names",
    "Verif.InputEngine.C107_exact_iff",
    "Verif.InputEngine.C107_names_partial",
    "Verif.InputEngine.C107_names_fails"
   ],
   "note": "The code violates the full statement: failed names are never forgotten: a target that was missing, was then supplied, and is resolved by the second attempt is still reported as unresolved by it Proved in part: the first report, and the first after clearing the registry, names exactly the unresolved targets. (Missing: later reports, see `C107_names_fails`.)"
  },
  {
   "property": "C108",
   "status": "partial",
   "theorems": [
    "Verif.InputEngine.C108_owned_partial",
    "Verif.InputEngine.C108_whole_program_iff",
    "Verif.InputEngine.C108_again_fails",
    "Verif.InputEngine.C108_shared_fails",
    "Verif.InputEngine.C108_get",
    "Verif.InputEngine.C108_get_absent_iff",
    "Verif.InputEngine.C108_get_absent_fails"
   ],
   "note": "The code violates the full statement: registering the source an engine already has deletes it and keeps pointing to it / one source registered with two engines is deleted by both / so in a build without the checks the documented exception does not come Proved in part: if no source is registered twice, with one engine or with several, nothing undefined happens, each engine has the source last registered with it, and a source has been deleted exactly when it has been registered and no engine has it any more; for any number of engines and any order of registrations, replacements and destructions"
  },
  {
   "property": "C109",
   "status": "partial",
   "theorems": [
    "Verif.FixedVector.C109_complete",
    "Verif.FixedVector.C109_cost_iff",
    "Verif.FixedVector.C109_basic",
    "Verif.FixedVector.C109_prefix",
    "Verif.FixedVector.C109_strong_partial",
    "Verif.FixedVector.C109_push_back",
    "Verif.FixedVector.C109_push_back_fails",
    "Verif.FixedVector.C109_emplace_back",
    "Verif.FixedVector.C109_set_at",
    "Verif.FixedVector.C109_assign",
    "Verif.FixedVector.C109_assign_fill",
    "Verif.FixedVector.C109_assign_fails",
    "Verif.FixedVector.C109_erase_fails",
    "Verif.FixedVector.C109_insert_fails",
    "Verif.FixedVector.C109_copy_assign",
    "Verif.FixedVector.C109_copy_assign_complete",
    "Verif.FixedVector.C109_swap",
    "Verif.FixedVector.C109_swap_iff",
    "Verif.FixedVector.C109_swap_fails"
   ],
   "note": "The code violates the full statement: Violated: a `push_back` that throws leaves the vector one element longer, holding at its end a value that was removed from it earlier. / Violated: after an interrupted `assign`, and already when its very first assignment throws, the vector holds values that were no longer in it. / Violated: an interrupted `erase` has lost the removed element and holds another twice or moved-from. / Violated: an interrupted `insert` before the end has lost elements. / Violated: a `swap` that throws at once has exchanged the sizes, so that one vector has lost elements and the other shows values that were not in it. Proved in part: Strong guarantee, where it holds: operations that only add at the end (other than `push_back`) or only remove there leave the vector's size and elements as they were, whatever the throwing assignment leaves in its target."
  },
  {
   "property": "C110",
   "status": "partial",
   "theorems": [
    "Verif.Json.C110_reads_iff",
    "Verif.Json.C110_reads_partial",
    "Verif.Json.C110_text_after_zero_fails",
    "Verif.Json.C110_members",
    "Verif.Json.C110_strings_utf8",
    "Verif.Json.C110_terminates"
   ],
   "note": "The code violates the full statement: fails: the text `1`, a byte 0, `x` is accepted, and is no JSON text. Proved in part: (texts without a byte 0): accepted exactly if a JSON text."
  },
  {
   "property": "C111",
   "status": "partial",
   "theorems": [
    "Verif.Json.C111_stream_iff",
    "Verif.Json.C111_number_takes_a_byte_fails",
    "Verif.Json.C111_sequence_partial",
    "Verif.Json.C111_terminates"
   ],
   "note": "The code violates the full statement: fails for numbers: from `1[2]` the number is read, and with it the bracket. Proved in part: Values one after the other are read one after the other, however many there are, if every number is followed by white space."
  },
  {
   "property": "C112",
   "status": "partial",
   "theorems": [
    "Verif.Json.C112_scripts_iff",
    "Verif.Json.C112_outcomes",
    "Verif.Json.C112_rest_unread_fails",
    "Verif.Json.C112_whole_file_partial"
   ],
   "note": "The code violates the full statement: fails in that a damaged file is not noticed: text after the first value is not looked at. Proved in part: A file that holds one JSON text: the scripts are those of the value the text stands for."
  },
  {
   "property": "C113",
   "status": "proved",
   "theorems": [
    "Verif.Json.C113_read_back",
    "Verif.Json.C113_one_line",
    "Verif.Json.C113_integers",
    "Verif.Json.C113_stream_dump",
    "Verif.Json.C113_lines"
   ],
   "note": ""
  },
  {
   "property": "C114",
   "status": "partial",
   "theorems": [
    "Verif.Json.C114_strict_iff",
    "Verif.Json.C114_mended",
    "Verif.Json.C114_string",
    "Verif.Json.C114_parts",
    "Verif.Json.C114_members_lost_fails"
   ],
   "note": "The code violates the full statement: (what does not hold) With `replace` and with `ignore` two members of an object may be written with the same name, and one of them is lost when the text is read."
  },
  {
   "property": "C115",
   "status": "partial",
   "theorems": [
    "Verif.Json.C115_layout",
    "Verif.Json.C115_indent_char_partial",
    "Verif.Json.C115_indent_char_fails",
    "Verif.Json.C115_wide_fails",
    "Verif.Json.C115_zero_byte_fails",
    "Verif.Json.C115_outcomes"
   ],
   "note": "The code violates the full statement: (what does not hold) Farther right blanks are written in place of the character asked for: here, with 300 tabs per level, a value without any string is written with a blank. / (what does not hold) With more than 1025 columns per level, writing an array or object that is not empty reads outside the string of indentation: undefined behaviour. / (what does not hold) With 1025 columns per level a byte 0 is written in front of an element: no JSON. Proved in part: (what holds) If the deepest line has at most 512 columns of indentation, all of them are the character asked for."
  },
  {
   "property": "C116",
   "status": "partial",
   "theorems": [
    "Verif.Json.C116_exclusive",
    "Verif.Json.C116_trichotomy_partial",
    "Verif.Json.C116_self_iff",
    "Verif.Json.C116_nan_fails",
    "Verif.Json.C116_equal_partial",
    "Verif.Json.C116_less_partial",
    "Verif.Json.C116_transitive_partial",
    "Verif.Json.C116_wide_integers_fails",
    "Verif.Json.C116_rounded_integers_fails",
    "Verif.Json.C116_read_back_iff"
   ],
   "note": "The code violates the full statement: (what does not hold) With a NaN, `a <= b` and `b <= a` hold although the values are not equal and neither is less. / (what does not hold) Integers from 2^63 on: 18446744073709551615 equals -1, and 0 < 5 < 18446744073709551615 < 0 if the 0 is the signed one, as reading \"-0\" gives it: `<` is no order. / (what does not hold) With integers that are no floating-point numbers `==` is not transitive: two different integers that are rounded to the same number `x` both equal it. Proved in part: (what holds) Without NaNs exactly one of `a < b`, `a == b`, `b < a` holds (that no two hold is `C116_exclusive`), and `a <= b` is `a < b` or `a == b`. / (what holds) Values are equal exactly if they stand for the same: numbers by their value, however they are stored, everything else literally \u2013 provided the integers have at most 63 bits and a sign, and are floating-point numbers if there are any of these, and there is no NaN. / (what holds) On the same conditions `a < b` is the documented order of what the values stand for. / (what holds) On the same conditions `<` is a strict order in which equal values can be exchanged: what `std::map`, `std::sort` and the like ask for."
  },
  {
   "property": "C117",
   "status": "partial",
   "theorems": [
    "Verif.Json.C117_nearest",
    "Verif.Json.C117_exact",
    "Verif.Json.C117_read_back",
    "Verif.Json.C117_short_partial",
    "Verif.Json.C117_shortest_fails",
    "Verif.Json.C117_nearest_text_fails"
   ],
   "note": "The code violates the full statement: (what does not hold) The text is not always the shortest that is read as the number: 1e126 is nearer to this `double` than to every other one, and is written as 9.999999999999999e+125. / (what does not hold) The text is not always the nearest of those with as many digits: 6.726687998321543e-198 is nearer to this `double` than 6.726687998321542e-198, which is written. Proved in part: (what holds) The text has at most 17 significant digits and no zero at their end, and there is hardly a shorter or a better one: a number with fewer digits lies outside the interval between the middles of the gaps to the neighbours, or within it closer to an end than 2^-60 of the number, and except for those close to an end no number with as many digits is nearer by more than that."
  },
  {
   "property": "C118",
   "status": "proved",
   "theorems": [
    "Verif.Json.C118_read_iff",
    "Verif.Json.C118_read_back",
    "Verif.Json.C118_refused"
   ],
   "note": ""
  },
  {
   "property": "C119",
   "status": "partial",
   "theorems": [
    "Verif.Json.C119_at_iff",
    "Verif.Json.C119_rfc_partial",
    "Verif.Json.C119_long_fails",
    "Verif.Json.C119_strict_fails",
    "Verif.Json.C119_contains_iff",
    "Verif.Json.C119_const_fails"
   ],
   "note": "The code violates the full statement: (what does not hold) that no element of an array is out of reach: behind the element 2^31 - 1 `at` throws `std::out_of_range` for the pointer that leads to the element. / (what does not hold) that `at` finds values only where a pointer leads by RFC 6901: it takes the tokens ` 1`, `+1` and `-0` as the indices 1, 1 and 0. / (what does not hold) that `operator[]` of a constant value is defined for all pointers: behind the last element its behaviour is undefined, and a member that is not there violates an assertion. Proved in part: (what holds) Where a pointer leads by RFC 6901, `at` finds the value, as long as no array has more than 2^31 elements."
  },
  {
   "property": "C120",
   "status": "partial",
   "theorems": [
    "Verif.Json.C120_read_back",
    "Verif.Json.C120_frame",
    "Verif.Json.C120_append",
    "Verif.Json.C120_defined_partial",
    "Verif.Json.C120_defined_fails"
   ],
   "note": "The code violates the full statement: (what does not hold) that `v[ptr]` throws for the index -1: on an empty array the number of elements to be made wraps around to 0, and the behaviour is undefined. Proved in part: (what holds) `v[ptr]` is never undefined, unless a token of the pointer is the number -1."
  },
  {
   "property": "C121",
   "status": "partial",
   "theorems": [
    "Verif.Json.C121_round_trip_partial",
    "Verif.Json.C121_nan_fails",
    "Verif.Json.C121_long_fails",
    "Verif.Json.C121_empty_iff",
    "Verif.Json.C121_operations"
   ],
   "note": "The code violates the full statement: (what does not hold) that `s.patch(diff(s, t)) == t` also if there is a NaN in `t`: then the patch ends, but no value is equal to `t`. / (what does not hold) that `s.patch(diff(s, t)) == t` also for longer arrays: if `t` is `s` and one more element behind 2^31 or more, `std::out_of_range` is thrown. Proved in part: (what holds) `s.patch(diff(s, t))` ends and gives a value equal to `t`, for all values with arrays of at most 2^31 elements and without a NaN in `t`."
  },
  {
   "property": "C122",
   "status": "partial",
   "theorems": [
    "Verif.Json.C122_rfc_partial",
    "Verif.Json.C122_patch_partial",
    "Verif.Json.C122_replace_iff",
    "Verif.Json.C122_test_iff",
    "Verif.Json.C122_remove_iff",
    "Verif.Json.C122_add_partial",
    "Verif.Json.C122_malformed",
    "Verif.Json.C122_remove_fails",
    "Verif.Json.C122_parents_fails",
    "Verif.Json.C122_index_fails",
    "Verif.Json.C122_defined_fails",
    "Verif.Json.C122_move_fails"
   ],
   "note": "The code violates the full statement: (what does not hold) that removing what is not there is an error: below a number it is not, and nothing is done. / (what does not hold) that adding below what is not there is an error: only for the first token of a pointer it is; below it objects and arrays are made, and a null becomes an object or array. / (what does not hold) that the last token of the path of `add` and `remove` is an array index of RFC 6901: it may begin with zeros, which no other token may. / (what does not hold) that an operation that cannot be performed makes `patch` throw: adding below a number violates an assertion, and with the index -1 into an empty array the behaviour is undefined. / (what does not hold) that a value cannot be moved into itself: it is, after a new object has been made in its place. Proved in part: (what holds) An operation that can be performed by RFC 6902 is performed: `patch` gives the value the RFC asks for, as long as no array has more than 2^31 elements. / (what holds) A patch all of whose operations can be performed, one after the other, by RFC 6902 gives the value the RFC asks for, as long as no array gets more than 2^31 elements. / (what holds) An operation `add` whose path without its last token leads to an object or an array ends with a value exactly if the last token is no array index out of range, and the value is the document with the given value there and nothing else changed."
  },
  {
   "property": "C123",
   "status": "proved",
   "theorems": [
    "Verif.Json.C123_rfc_iff",
    "Verif.Json.C123_again",
    "Verif.Json.C123_no_null"
   ],
   "note": ""
  },
  {
   "property": "C124",
   "status": "partial",
   "theorems": [
    "Verif.Json.C124_members",
    "Verif.Json.C124_round_trip_iff",
    "Verif.Json.C124_blank_iff",
    "Verif.Json.C124_zero_fails",
    "Verif.Json.C124_refused",
    "Verif.Json.C124_defined"
   ],
   "note": "The code violates the full statement: (what does not hold) that everything but empty objects and arrays comes back from `flatten` and `unflatten`: of an object with a member `0` an array is made, and if there are other members an exception may be thrown."
  },
  {
   "property": "C125",
   "status": "partial",
   "theorems": [
    "Verif.Json.C125_reads_iff",
    "Verif.Json.C125_rest_iff",
    "Verif.Json.C125_standard",
    "Verif.Json.C125_trailing",
    "Verif.Json.C125_truncated",
    "Verif.Json.C125_terminates",
    "Verif.Json.C125_unsupported",
    "Verif.Json.C125_names",
    "Verif.Json.C125_negative_fails",
    "Verif.Json.C125_accepts_fails",
    "Verif.Json.C125_quiet_fails"
   ],
   "note": "The code violates the full statement: (what does not hold) A negative number below -2^63, which RFC 7049 allows, is neither read as what it is nor refused: the value is 2^64 more, a number that is not negative. / (what does not hold) Texts that are not items of RFC 7049 are read as values: a string whose pieces are in pieces themselves; a text string that is not UTF-8; an array, or a map, whose size is given as 2^64-1 and which ends at a mark after fewer elements. / (what does not hold) `allow_exceptions = false` does not keep exceptions away: they come from a size beyond `max_size()`, and from a string said to be longer than `max_size()`, to which characters are appended after the end of the input."
  },
  {
   "property": "C126",
   "status": "partial",
   "theorems": [
    "Verif.Json.C126_standard_partial",
    "Verif.Json.C126_standard_fails",
    "Verif.Json.C126_read_back",
    "Verif.Json.C126_equal_iff",
    "Verif.Json.C126_portable",
    "Verif.Json.C126_shortest"
   ],
   "note": "The code violates the full statement: (what does not hold) Strings are written as text strings even if they are not UTF-8: the result is then no item. Proved in part: (what holds) What `to_cbor` returns is an item of RFC 7049 with the value written \u2013 integers that are not negative are unsigned ones \u2013 provided the strings are UTF-8, and fewer than 2^64 bytes are written."
  },
  {
   "property": "C127",
   "status": "proved",
   "theorems": [
    "Verif.Json.C127_half",
    "Verif.Json.C127_half_sign",
    "Verif.Json.C127_single",
    "Verif.Json.C127_single_sign"
   ],
   "note": ""
  },
  {
   "property": "C128",
   "status": "partial",
   "theorems": [
    "Verif.Json.C128_reads_iff",
    "Verif.Json.C128_rest_iff",
    "Verif.Json.C128_trailing",
    "Verif.Json.C128_truncated",
    "Verif.Json.C128_terminates",
    "Verif.Json.C128_unsupported",
    "Verif.Json.C128_names",
    "Verif.Json.C128_quiet_fails"
   ],
   "note": "The code violates the full statement: (what does not hold) `allow_exceptions = false` does not keep exceptions away if `max_size()` is below 2^32: a size beyond it throws."
  },
  {
   "property": "C129",
   "status": "partial",
   "theorems": [
    "Verif.Json.C129_standard_partial",
    "Verif.Json.C129_standard_fails",
    "Verif.Json.C129_read_back",
    "Verif.Json.C129_equal_iff",
    "Verif.Json.C129_portable",
    "Verif.Json.C129_shortest"
   ],
   "note": "The code violates the full statement: (what does not hold) A string of 2^32 bytes or more, and an array or object of 2^32 elements or more, is written without its first bytes \u2013 the type and the length are missing \u2013 and nothing is reported: only the characters are written, or the elements. Proved in part: (what holds) What `to_msgpack` returns is an object of the MessagePack specification with the value written \u2013 integers that are not negative are unsigned ones \u2013 provided no string or name has 2^32 bytes or more, and no array or object 2^32 elements or more."
  },
  {
   "property": "C130",
   "status": "partial",
   "theorems": [
    "Verif.Json.C130_reads_iff",
    "Verif.Json.C130_rest_iff",
    "Verif.Json.C130_standard",
    "Verif.Json.C130_size_fails",
    "Verif.Json.C130_accepts_fails",
    "Verif.Json.C130_trailing",
    "Verif.Json.C130_truncated",
    "Verif.Json.C130_silent_fails",
    "Verif.Json.C130_unsupported",
    "Verif.Json.C130_length",
    "Verif.Json.C130_terminates"
   ],
   "note": "The code violates the full statement: (what does not hold) The size at the front of a document is not looked at: any four bytes do, although the BSON specification has the number of bytes there. / (what does not hold) Texts that are no documents of the BSON specification are read as values: a truth value that is neither 0 nor 1; a string that does not end with 0; a string that is not UTF-8; an array whose elements have other names than \"0\", \"1\", \u2026 / (what does not hold) Exceptions allowed, an input that ends where a string should end with its zero byte is no error: `from_bson` returns a value of type `discarded`. The elements before can be any."
  },
  {
   "property": "C131",
   "status": "partial",
   "theorems": [
    "Verif.Json.C131_refuses",
    "Verif.Json.C131_standard_partial",
    "Verif.Json.C131_utf8_fails",
    "Verif.Json.C131_read_back_partial",
    "Verif.Json.C131_read_back_fails",
    "Verif.Json.C131_equal_iff",
    "Verif.Json.C131_portable"
   ],
   "note": "The code violates the full statement: (what does not hold) Strings that are not UTF-8 are written all the same, and the bytes are no document of the BSON specification; nothing is reported. / (what does not hold) What `to_bson` returns cannot always be read with `from_bson`: the length of a string of 2^31 - 1 bytes or more (up to 2^32 - 2) is written as a negative number, without a word, and refused when it is read. Proved in part: (what holds) What `to_bson` returns is a document of the BSON specification with the members of the object, all integers signed, provided that strings and names are UTF-8 and that fewer than 2^31 bytes are written. (A document of more bytes does not exist: its size has no place in four bytes.) / (what holds) Writing an object and reading the bytes, on any two machines, yields the object, whatever bytes the strings hold, NaN and infinities included; only all integers are signed afterwards. The strings must have less than 2^31 - 1 bytes each; the document can have more. Without `strict` what follows is left in the input."
  },
  {
   "property": "C132",
   "status": "partial",
   "theorems": [
    "Verif.Json.C132_reads_iff",
    "Verif.Json.C132_rest_iff",
    "Verif.Json.C132_standard",
    "Verif.Json.C132_accepts_fails",
    "Verif.Json.C132_unsupported",
    "Verif.Json.C132_complete_fails",
    "Verif.Json.C132_linear_fails",
    "Verif.Json.C132_trailing",
    "Verif.Json.C132_truncated",
    "Verif.Json.C132_end_fails",
    "Verif.Json.C132_negative",
    "Verif.Json.C132_quiet_fails",
    "Verif.Json.C132_terminates"
   ],
   "note": "The code violates the full statement: (what does not hold) Texts that are no values of the UBJSON specification are read as values: a string with a length below 0; a string that is not UTF-8; arrays of \"type\" 0, and empty ones of a type that does not exist. / (what does not hold) The mapping is not \"complete in the sense that any UBJSON value can be converted to a JSON value\": numbers of high precision \u2013 type 'H', then a text with the digits \u2013 are an error. / (what does not hold) Reading is not \"linear in the size of the input\": nine bytes suffice for an array of any number of elements below 2^31. / (what does not hold) `parse_error.110` is not thrown for every input that ends prematurely: for one that ends where the size of a container should be, it is `parse_error.113`, said to be for strings. / (what does not hold) `allow_exceptions = false` does not keep exceptions away: a size beyond `max_size()` throws `out_of_range.408` all the same."
  },
  {
   "property": "C133",
   "status": "partial",
   "theorems": [
    "Verif.Json.C133_refuses",
    "Verif.Json.C133_type_fails",
    "Verif.Json.C133_standard_partial",
    "Verif.Json.C133_utf8_fails",
    "Verif.Json.C133_read_back",
    "Verif.Json.C133_equal_iff",
    "Verif.Json.C133_portable",
    "Verif.Json.C133_shortest"
   ],
   "note": "The code violates the full statement: (what does not hold) Not every value can be written: \"types\" without sizes (`use_type` without `use_size`) end in an assertion for every array and every object that is not empty; what is left are the values that are written as without types. / (what does not hold) Strings that are not UTF-8 are written all the same, and the bytes are no value of the UBJSON specification; nothing is reported. Proved in part: (what holds) What `to_ubjson` returns is a value of the UBJSON specification, the value written \u2013 the integers from 128 to 255 unsigned, all others signed \u2013 provided the strings are UTF-8."
  },
  {
   "property": "C134",
   "status": "partial",
   "theorems": [
    "Verif.Json.C134_visits",
    "Verif.Json.C134_between",
    "Verif.Json.C134_reverse",
    "Verif.Json.C134_items",
    "Verif.Json.C134_find",
    "Verif.Json.C134_find_none",
    "Verif.Json.C134_random",
    "Verif.Json.C134_minus",
    "Verif.Json.C134_index",
    "Verif.Json.C134_refuses",
    "Verif.Json.C134_arrow_fails",
    "Verif.Json.C134_arrow",
    "Verif.Json.C134_difference_fails",
    "Verif.Json.C134_ends",
    "Verif.Json.C134_assign",
    "Verif.Json.C134_value"
   ],
   "note": "The code violates the full statement: (what does not hold) `it->` is not always `*it`: at an iterator of null before the end it gives the null where `*it` throws. / (what does not hold) The difference of iterators of two different values is not refused, as comparing them is: that of two numbers is a number, that of two arrays undefined."
  },
  {
   "property": "C135",
   "status": "partial",
   "theorems": [
    "Verif.Json.C135_one",
    "Verif.Json.C135_range_partial",
    "Verif.Json.C135_scalar",
    "Verif.Json.C135_empty_range_fails",
    "Verif.Json.C135_refuses",
    "Verif.Json.C135_key",
    "Verif.Json.C135_index",
    "Verif.Json.C135_loop",
    "Verif.Json.C135_clear"
   ],
   "note": "The code violates the full statement: (what does not hold) Erasing an empty range is not always without effect, as the documentation says: of a number it throws. Proved in part: (what holds) `erase(first, last)` of an array or object removes the elements from `first` up to but not including `last`, no other; the iterator given back is at the element after. An empty range removes nothing."
  },
  {
   "property": "C136",
   "status": "partial",
   "theorems": [
    "Verif.Json.C136_insert",
    "Verif.Json.C136_insert_range_partial",
    "Verif.Json.C136_insert_range_fails",
    "Verif.Json.C136_refuses",
    "Verif.Json.C136_insert_members_partial",
    "Verif.Json.C136_insert_members_fails",
    "Verif.Json.C136_update",
    "Verif.Json.C136_update_refused",
    "Verif.Json.C136_update_null_fails",
    "Verif.Json.C136_update_self",
    "Verif.Json.C136_update_part_iff",
    "Verif.Json.C136_push_back_partial",
    "Verif.Json.C136_push_back_fails",
    "Verif.Json.C136_emplace",
    "Verif.Json.C136_emplace_refused"
   ],
   "note": "The code violates the full statement: (what does not hold) `insert` of all elements of an object, or of a number, into an array inserts nothing, and does not say so. / (what does not hold) `insert` of an object's own members is not refused, as it is for an array, but undefined. / (what does not hold) A null is an empty object after an update that is refused; and the update of a null with itself is not refused, as that with another null is. / (what does not hold) A null added to itself gives an array of an empty array, not of null. Proved in part: (what holds) `insert` of the elements between two places of another array puts in just these. / (what holds) `insert` of members of another object adds those whose names are new and keeps the values there are. / (what holds) `push_back` and `emplace_back` add the value at the end of an array, and make null an array of it; the value added is the one there was before the call, also if it is the array itself. Anything else is refused."
  },
  {
   "property": "C137",
   "status": "partial",
   "theorems": [
    "Verif.Json.C137_array_partial",
    "Verif.Json.C137_array_fails",
    "Verif.Json.C137_object_partial",
    "Verif.Json.C137_object_fails",
    "Verif.Json.C137_push_back",
    "Verif.Json.C137_push_back_list",
    "Verif.Json.C137_range"
   ],
   "note": "The code violates the full statement: (what does not hold) A list of values in braces is not always an array of these: a list of arrays that each begin with a string and have one more value becomes an object, and the empty list too. / (what does not hold) Of two members of one name the second is lost and nothing is said. Proved in part: (what holds) A list of values in braces becomes an array of these values if not all of them are arrays of a string and one more value; if `array` is asked for, it does so in any case. / (what holds) A list of arrays of a string and one more value becomes an object, unless an array is asked for: the member of each name has the value that comes first with it, and there are no others. Any other list is refused if an object is asked for (301)."
  },
  {
   "property": "C138",
   "status": "partial",
   "theorems": [
    "Verif.Json.C138_round_trip_partial",
    "Verif.Json.C138_round_trip_iff",
    "Verif.Json.C138_round_trip_fails",
    "Verif.Json.C138_safe",
    "Verif.Json.C138_multimap_fails",
    "Verif.Json.C138_multimap",
    "Verif.Json.C138_text",
    "Verif.Json.C138_text_fails"
   ],
   "note": "The code violates the full statement: (what does not hold) A pair of pairs of a string and a number cannot be read back; nor can a pair of two vectors of strings, if both have two elements, though it can if one has three. / (what does not hold) A multimap with a key twice comes back with the first value only. / (what does not hold) A number that is not finite is not given back from a text: it is written as null. Proved in part: (what holds) A value of any type, made a JSON value, is given back by `get<T>()`, unless it has a pair or tuple (or an entry of a map whose keys are no strings) with all components sequences of two with a string in front, or a multimap with a key twice. Types are nested to any depth."
  },
  {
   "property": "C139",
   "status": "partial",
   "theorems": [
    "Verif.Json.C139_integers",
    "Verif.Json.C139_integers_fails",
    "Verif.Json.C139_floats_iff",
    "Verif.Json.C139_floats_fails",
    "Verif.Json.C139_bool_fails",
    "Verif.Json.C139_sequences_iff",
    "Verif.Json.C139_arrays",
    "Verif.Json.C139_tuples_iff",
    "Verif.Json.C139_rest_fails",
    "Verif.Json.C139_maps_iff",
    "Verif.Json.C139_table_fails",
    "Verif.Json.C139_table",
    "Verif.Json.C139_value",
    "Verif.Json.C139_ends",
    "Verif.Json.C139_get_to",
    "Verif.Json.C139_get_to_partial",
    "Verif.Json.C139_get_to_fails",
    "Verif.Json.C139_scalars_iff"
   ],
   "note": "The code violates the full statement: (what does not hold) A number the type cannot hold is not reported: 300 is read as 44, -1 as the greatest unsigned number, `2 ^ 63` as a negative one. / (what does not hold) Reading a number from a document as an integer can be undefined: `1e30` as an `int`. / (what does not hold) Whether `true` is a number depends on the type asked for: it is 1 as `int`, `float` or `unsigned char`, and refused as `int64_t`, `uint64_t` and `double`. / (what does not hold) Elements an array, pair or tuple has no place for are dropped without an error; a tuple of nothing can be read from anything. / (what does not hold) The other maps are read from arrays of pairs: of two pairs with the same key the second is dropped without an error, and so is what a pair has after its second element. / (what does not hold) These five are left neither old nor new: a forward_list with the elements behind the one that cannot be read, a valarray of the new length with zeros from there on, an array with old elements from there on, a map with the entries before. Proved in part: (what holds) If `get_to` fails, the variable has its old value: unless it is a forward_list, a valarray, an array or a map with other keys than strings."
  },
  {
   "property": "C140",
   "status": "partial",
   "theorems": [
    "Verif.Json.C140_pointer_partial",
    "Verif.Json.C140_pointer_fails",
    "Verif.Json.C140_read_iff",
    "Verif.Json.C140_read_fails",
    "Verif.Json.C140_write",
    "Verif.Json.C140_unsigned",
    "Verif.Json.C140_write_fails"
   ],
   "note": "The code violates the full statement: (what does not hold) So more than one of the pointers can be had of one value. / (what does not hold) A greater one is read as a negative number: `2 ^ 64 - 1` as -1. / (what does not hold) A negative number written so to an unsigned one \u2013 any number read from a text without a sign is one \u2013 is a great positive number for everything else, and in the text. Proved in part: (what holds) `get_ptr` gives a pointer exactly if the value is of the type asked for, except that `number_integer_t` is also given for unsigned numbers."
  },
  {
   "property": "C141",
   "status": "proved",
   "theorems": [
    "Verif.Inflate.C141_accepts_iff",
    "Verif.Inflate.C141_decodes",
    "Verif.Inflate.C141_unique",
    "Verif.Inflate.C141_complete"
   ],
   "note": ""
  },
  {
   "property": "C142",
   "status": "partial",
   "theorems": [
    "Verif.Inflate.C142_buffer_iff",
    "Verif.Inflate.C142_malloc_iff",
    "Verif.Inflate.C142_proper",
    "Verif.Inflate.C142_stored",
    "Verif.Inflate.C142_unique",
    "Verif.Inflate.C142_strict_iff",
    "Verif.Inflate.C142_odd_fails",
    "Verif.Inflate.C142_cut_fails",
    "Verif.Inflate.C142_checksum_fails"
   ],
   "note": "The code violates the full statement: (what does not hold) Symbols that must not occur are no error: here `a` is followed by the symbol 286, and the stream is decoded to `a`. / (what does not hold) A stream that is cut off is no error: bits behind the end are taken to be zeros. Here there is only the beginning of a block, and not all of the code for its end, and no bytes are decoded without complaint. / (what does not hold) The check sum at the end of a stream is not looked at: here is the stream of no bytes with the right one and with a wrong one."
  },
  {
   "property": "C143",
   "status": "partial",
   "theorems": [
    "Verif.Inflate.C143_buffer",
    "Verif.Inflate.C143_malloc",
    "Verif.Inflate.C143_ends_partial",
    "Verif.Inflate.C143_malloc_ends_partial",
    "Verif.Inflate.C143_void_fails",
    "Verif.Inflate.C143_hang_fails",
    "Verif.Inflate.C143_flood_fails",
    "Verif.Inflate.C143_empty_fails"
   ],
   "note": "The code violates the full statement: (what does not hold) A stream can make the decoder read bytes that it has not written: the distances 30 and 31, which the fixed code has, are taken for 0. Here `a` is followed by a copy of three bytes from there. / (what does not hold) A stream of 15 bytes on which decoding does not end, though nothing more is written: the code 0 is the symbol 286, that is a copy of no bytes, and behind the end of the stream there are zeros. / (what does not hold) A stream of 13 bytes, cut off, that makes the decoder write byte after byte until the size of the buffer is no longer an `int`: undefined behaviour, if there is memory for that much. / (what does not hold) A buffer that grows must not be empty at first: twice nothing is nothing, and making room does not end. Here one byte is stored. Proved in part: (what holds) Decoding ends - after at most as many rounds as there are bits in the stream, and bytes in the buffer - unless the stream has a symbol 286 or 287. / (what holds) The same for a buffer that grows, which never has more than 2^31 bytes."
  },
  {
   "property": "C144",
   "status": "partial",
   "theorems": [
    "Verif.Png.C144_decodes",
    "Verif.Png.C144_scans_iff",
    "Verif.Png.C144_accepts_iff",
    "Verif.Png.C144_unique",
    "Verif.Png.C144_assert_fails",
    "Verif.Png.C144_unscaled_fails"
   ],
   "note": "The code violates the full statement: (what does not hold) A header may say that there are colours of 4 bits, which the format does not allow; then an assertion fails. / (what does not hold) Nor are grey and alpha of 4 bits allowed, but they are accepted, and the greatest grey does not become 255: a white pixel is nearly black."
  },
  {
   "property": "C145",
   "status": "partial",
   "theorems": [
    "Verif.Png.C145_once",
    "Verif.Png.C145_decodes",
    "Verif.Png.C145_accepts_iff",
    "Verif.Png.C145_null_fails"
   ],
   "note": "The code violates the full statement: (what does not hold) That there is no memory for a picture is not noticed if it is interlaced: if the first pass is in the data, bytes are written at a null pointer. Of pictures of 2^31 bytes or more this comes however much memory there is."
  },
  {
   "property": "C146",
   "status": "partial",
   "theorems": [
    "Verif.Png.C146_decodes",
    "Verif.Png.C146_crc_fails",
    "Verif.Png.C146_index_fails",
    "Verif.Png.C146_length_fails",
    "Verif.Png.C146_depth_fails"
   ],
   "note": "The code violates the full statement: (what does not hold) The checks of the chunks are not looked at: a file with one of them changed is read as well. / (what does not hold) A pixel whose index is not less than the number of entries of the palette is not refused: the bytes given back for it are whatever was in the memory. / (what does not hold) The length of a chunk is not trusted to be less than 2^31, but if it is not, the chunk is not refused either: reading goes on behind the first 128 bytes of the file (or the next multiple of 128), wherever that is in the chunk. / (what does not hold) Depths that PNG does not have are read: grey with alpha of 4 bits each is accepted, and grey is not spread over 0 to 255 then. With red, green and blue of 4 bits an assertion fails."
  },
  {
   "property": "C147",
   "status": "partial",
   "theorems": [
    "Verif.Png.C147_outcomes",
    "Verif.Png.C147_ends_partial",
    "Verif.Png.C147_void_fails",
    "Verif.Png.C147_null_fails",
    "Verif.Png.C147_hang_fails",
    "Verif.Png.C147_flood_fails"
   ],
   "note": "The code violates the full statement: (what does not hold) Reading a file can read memory that was never written: here one grey pixel, where the compressed data has a copy from distance 0. / (what does not hold) When there is no memory for an interlaced picture, nothing says so: its pixels are written to a null pointer. The same picture that is not interlaced is an error. Here it has 80 times 80 pixels of 1 bit, and there is memory for 5000 bytes at once. / (what does not hold) Reading a file of a hundred bytes need not end: however many rounds there are, it is not finished. / (what does not hold) Another one of less than a hundred bytes makes the size of a buffer greater than any `int`, which is undefined behaviour, if there is memory for that much. Proved in part: (what holds) Reading a file ends, unless its compressed data has one of the symbols 286 and 287, which must not occur."
  },
  {
   "property": "C148",
   "status": "partial",
   "theorems": [
    "Verif.Png.C148_compare_iff",
    "Verif.Png.C148_same",
    "Verif.Png.C148_threshold",
    "Verif.Png.C148_order",
    "Verif.Png.C148_any_partial",
    "Verif.Png.C148_index_fails"
   ],
   "note": "The code violates the full statement: (what does not hold) A file whose pixels have indices beyond its palette is read without an error, and comparing it with itself compares bytes that were never set. Proved in part: (what holds) Whatever two files are compared, the answer is yes or no, unless reading one of them fails an assertion, has undefined behaviour or does not end, or one of them has a palette: then bytes may be compared that were never set."
  },
  {
   "property": "C149",
   "status": "proved",
   "theorems": [
    "Verif.Json.C149_events",
    "Verif.Json.C149_errors",
    "Verif.Json.C149_accept_iff",
    "Verif.Json.C149_quiet"
   ],
   "note": ""
  },
  {
   "property": "C150",
   "status": "partial",
   "theorems": [
    "Verif.Json.C150_visits",
    "Verif.Json.C150_refuses",
    "Verif.Json.C150_all",
    "Verif.Json.C150_sifts_partial",
    "Verif.Json.C150_member_fails",
    "Verif.Json.C150_element_fails",
    "Verif.Json.C150_again_fails",
    "Verif.Json.C150_skipped_fails"
   ],
   "note": "The code violates the full statement: (what does not hold) A number, string or other simple value, or an array, that is rejected as the member of an object is not skipped: the key stays, with a discarded value. Of `{\"a\":1}`, without numbers, `{\"a\":<discarded>}` is left. / (what does not hold) An object that is rejected at its end as the element of an array is not skipped: a discarded value stays. Of `[{}]`, without ends of objects, `[<discarded>]` is left. / (what does not hold) An object that is rejected as the value of a key that has occurred before takes the value read before away with it. Of `{\"a\":1,\"a\":{}}`, without objects at depth 1, `{}` is left and not `{\"a\":1}`. / (what does not hold) What is within an array or object rejected at its start is not skipped for the callback: it is asked about the arrays and objects inside, about the keys, and about simple values directly within an inner array or object it accepts. In `[[1]]` a callback that rejects depth 0 is still told of the inner array and of the number. Proved in part: (what holds) What a callback without a state rejects is skipped, as if it had never been read \u2013 elements of arrays that are rejected at once, arrays also at their ends; members by their keys, and members that are objects \u2013 provided nothing is rejected otherwise, and no key occurs twice in an object; rejected as a whole, null is returned."
  },
  {
   "property": "C151",
   "status": "partial",
   "theorems": [
    "Verif.Catalyst.C151_shared_partial",
    "Verif.Catalyst.C151_field",
    "Verif.Catalyst.C151_kept_partial",
    "Verif.Catalyst.C151_delete_fails",
    "Verif.Catalyst.C151_again_fails",
    "Verif.Catalyst.C151_drop",
    "Verif.Catalyst.C151_leak_fails"
   ],
   "note": "The code violates the full statement: (what does not hold) Memory given to the `addVectorData` that does not copy is released by the grid, with `delete[]`: when the caller releases it after the grid behaviour is undefined, and it is so when the grid is destroyed if the memory does not come from `new[]`, as that of a `std::vector` or an array on the stack. / (what does not hold) When the `addVectorData` that does not copy is called again with the same name and the same memory, as for every step of a simulation, the array replaced releases the memory, and to look at the new one is undefined. / (what does not hold) Copied data are never given back: after any number of steps that add an array under one name, and the end of the grid, the arrays of all steps are still there. Proved in part: (what holds) Data added without copying are seen in the grid as they are in the memory of the caller at the time of the look, whatever is written there and added to the grid, before or after, under other names \u2013 as long as no other array is made of the same memory in this way. / (what holds) As long as nothing is added by the `addVectorData` that does not copy, the memory of the caller is the caller's: the grid can be destroyed, and releases none of it."
  },
  {
   "property": "C152",
   "status": "partial",
   "theorems": [
    "Verif.Catalyst.C152_parts",
    "Verif.Catalyst.C152_serial_fails",
    "Verif.Catalyst.C152_write_fails",
    "Verif.Catalyst.C152_again",
    "Verif.Catalyst.C152_one_file",
    "Verif.Catalyst.C152_pieces",
    "Verif.Catalyst.C152_single_fails"
   ],
   "note": "The code violates the full statement: (what does not hold) that the grids of all processes are kept when the output is serial: after `setOutputSerial` all processes write to `f.vtu`, which then has the grid of one of them. / (what does not hold) that `write(f, 1)` writes the grids of all processes: unless `writeParts` came before, all of them write to `f_0.vtu`, also if the object was made with the number of the process, and `f.pvtu` lists this one file. / (what does not hold) that a single process writes the same files with either function: `writeParts(1, 0, 0, f)` writes `f.pvtu` and `f_0.vtu`, and `writeUnstructuredGrid` `f.vtu`."
  },
  {
   "property": "C153",
   "status": "partial",
   "theorems": [
    "Verif.Json.C153_at_iff",
    "Verif.Json.C153_read",
    "Verif.Json.C153_set_iff",
    "Verif.Json.C153_set",
    "Verif.Json.C153_grow",
    "Verif.Json.C153_read_fails",
    "Verif.Json.C153_const_fails",
    "Verif.Json.C153_length_fails"
   ],
   "note": "The code violates the full statement: (what does not hold) that reading does not change a value: `operator[]` of a value that is not constant makes a null of what is not there, a member or elements up to the one asked for, and an object or an array of null. / (what does not hold) that `operator[]` of a constant value is defined for what is not there: at the first step without an element, a member that is not there violates an assertion, and an element behind the end is undefined behaviour; only a value of the wrong type is refused, with `type_error.305`. / (what does not hold) that an assignment that is refused changes nothing, for all indices: with one of 2^59 - 1 or more `length_error` is thrown, and null is then an empty array; and that an assignment is defined or refused: with the index 2^64 - 1 it is undefined behaviour."
  },
  {
   "property": "C154",
   "status": "partial",
   "theorems": [
    "Verif.Json.C154_same",
    "Verif.Json.C154_torn",
    "Verif.Json.C154_first",
    "Verif.Json.C154_kept_fails"
   ],
   "note": "The code violates the full statement: (what does not hold) It is not so that a variable is as it was when reading into it has failed: after `[1,` it holds the array of 1."
  },
  {
   "property": "C155",
   "status": "partial",
   "theorems": [
    "Verif.Json.C155_complete",
    "Verif.Json.C155_where",
    "Verif.Json.C155_unchanged_fails"
   ],
   "note": "The code violates the full statement: (what does not hold) The stream is not as before if `o << j` throws: the beginning of the text is in it, and what is written next follows that beginning."
  },
  {
   "property": "C156",
   "status": "partial",
   "theorems": [
    "Verif.Json.C156_thrown",
    "Verif.Json.C156_range",
    "Verif.Json.C156_line",
    "Verif.Json.C156_column_partial",
    "Verif.Json.C156_column",
    "Verif.Json.C156_column_fails",
    "Verif.Json.C156_local",
    "Verif.Json.C156_viable",
    "Verif.Json.C156_before_end",
    "Verif.Json.C156_cut"
   ],
   "note": "The code violates the full statement: (what does not hold) In `[1 2`, end of line, `]` the error is at the fourth byte, in the first line; the column told is 0 and not 4: putting back an end of a line does not restore the column. Proved in part: (what holds) If no end of a line follows directly on the byte told, the column told is the number of bytes behind the last end of a line in the text up to and with that byte; at the end of the text it is one more."
  },
  {
   "property": "C157",
   "status": "partial",
   "theorems": [
    "Verif.Png.C157_read",
    "Verif.Png.C157_deep",
    "Verif.Png.C157_compare_iff",
    "Verif.Png.C157_scale_fails",
    "Verif.Png.C157_cut_fails",
    "Verif.Png.C157_text_fails",
    "Verif.Png.C157_any",
    "Verif.Png.C157_number_fails"
   ],
   "note": "The code violates the full statement: (what does not hold) The greatest value is not taken into account. A white pixel written as the value 1 of at most 1 and one written as the value 9 of at most 9 are not similar, and the white pixel 1 of at most 1 is similar to the dark grey 1 of at most 9. / (what does not hold) A file of which the end is missing is read without an error. Whatever file it is, comparing it with itself compares bytes that were never set. / (what does not hold) Files that are no pictures compare as similar, whatever is in them: any two texts of at least four characters that begin with `P5`, or with `P6`, followed by neither white space nor a digit nor `#`. / (what does not hold) A number of 2 to the 31 or more in the header overflows."
  },
  {
   "property": "C158",
   "status": "partial",
   "theorems": [
    "Verif.Png.C158_read",
    "Verif.Png.C158_cut_fails",
    "Verif.Png.C158_version_fails",
    "Verif.Png.C158_place_fails",
    "Verif.Png.C158_alpha",
    "Verif.Png.C158_palette",
    "Verif.Png.C158_colour_fails",
    "Verif.Png.C158_any",
    "Verif.Png.C158_old_fails",
    "Verif.Png.C158_height_fails",
    "Verif.Png.C158_masks_fails",
    "Verif.Png.C158_fields",
    "Verif.Png.C158_sixteen",
    "Verif.Png.C158_long",
    "Verif.Png.C158_channels",
    "Verif.Png.C158_palette_long",
    "Verif.Png.C158_refused",
    "Verif.Png.C158_bits"
   ],
   "note": "The code violates the full statement: (what does not hold) A file that has been cut off is not refused: if there is nothing behind the header the picture is black. / (what does not hold) A file of 16 bits per pixel or more whose header has 124 bytes, which is what version 5 of the format has, fails an assertion, wherever its pixels begin: the place is compared with the number of bytes taken from the buffer, and after 138 bytes the buffer of 128 bytes has been filled again. / (what does not hold) The place of the pixels that the header gives is of no use for pictures of 24 bits per pixel: any other place than right behind the header fails an assertion. / (what does not hold) A file may name a colour that its palette does not have, and is read all the same: the samples of the pixel have never been written, and to compare the picture is undefined. / (what does not hold) A file of the first version of the format, with a header of 12 bytes and a palette of two colours: 24 bytes are taken for the header when the size of the palette is found, no colour is read, and no sample is written. / (what does not hold) A file whose height is -2^31: the absolute value of it is undefined. / (what does not hold) A file of 32 bits per pixel with masks of ten bits for each colour: a shift by a negative number."
  },
  {
   "property": "C159",
   "status": "partial",
   "theorems": [
    "Verif.Png.C159_formats_iff",
    "Verif.Png.C159_same",
    "Verif.Png.C159_alpha_fails",
    "Verif.Png.C159_order",
    "Verif.Png.C159_order_fails",
    "Verif.Png.C159_self"
   ],
   "note": "The code violates the full statement: (what does not hold) Two files of one picture may compare as different, though not one colour is different: if one of them has an alpha channel and the other has none, they do, even if all of it is opaque. / (what does not hold) If one of the files is not read or refused but undefined, the order matters: behind a first file that is refused the second one is not read."
  },
  {
   "property": "C160",
   "status": "partial",
   "theorems": [
    "Verif.Png.C160_read",
    "Verif.Png.C160_runs",
    "Verif.Png.C160_packets",
    "Verif.Png.C160_palette",
    "Verif.Png.C160_any_partial",
    "Verif.Png.C160_empty_fails",
    "Verif.Png.C160_cut_fails",
    "Verif.Png.C160_first_fails",
    "Verif.Png.C160_columns_fails"
   ],
   "note": "The code violates the full statement: (what does not hold) Reading has no defined result exactly if the file says that it has a palette, that the palette has no entries, and all else in the header is as it should be: the first entry of a palette without entries is read. / (what does not hold) A file that has been cut off is not refused: if there is nothing behind the header of a file whose pixels are stored as they are, with 8, 24 or 32 bits each, there is a picture of the right size no sample of which has been set. / (what does not hold) A palette that does not begin with entry 0 is not read as the format has it: of the file that gives the colours from entry 1 on and whose pixel is that entry, with red 30, the picture has red 1. The number of the first entry is taken for a number of bytes to be left out. / (what does not hold) That a file gives its columns from the right to the left, bit 4 of byte 17, is not looked at: the first column of the picture is the pixel that comes first in the file, for every width. Proved in part: (what holds) Whatever is in a file, reading it as a TGA picture ends: with an error, or with a picture of the width and height that the file says and one to four channels, unless the file says that it has a palette and that the palette has no entries."
  },
  {
   "property": "C161",
   "status": "partial",
   "theorems": [
    "Verif.Png.C161_raw",
    "Verif.Png.C161_packed",
    "Verif.Png.C161_matte_fails",
    "Verif.Png.C161_rows_fails",
    "Verif.Png.C161_deep_fails",
    "Verif.Png.C161_any_partial",
    "Verif.Png.C161_cut_fails",
    "Verif.Png.C161_matte"
   ],
   "note": "The code violates the full statement: (what does not hold) A file with an alpha channel may have no defined result: if alpha of the first pixel is not 0 but at most 100 and so is red, a negative number that does not fit is converted to a byte, whatever the size of the picture. The colours are taken to have been laid over white. / (what does not hold) The number of bytes to be left out in front of packed channels overflows an `int` for a high picture, though the picture is not too large: there is no defined result. / (what does not hold) Packed samples of 16 bits are not read as such, though samples of 16 bits that are not packed are: a file whose channel has two bytes for each pixel, packed, is refused. / (what does not hold) A file that ends where its samples should begin, whatever its size says, is not refused: it is read as a picture that is black in all the channels it claims. Proved in part: (what holds) Whatever the bytes of a file are, if it claims fewer than four channels and the numbers of bytes of its rows can be counted, loading it as PSD ends with an error or with a picture of the size that the file says, of four samples for each pixel, and nothing outside of that memory is written."
  },
  {
   "property": "C162",
   "status": "partial",
   "theorems": [
    "Verif.Png.C162_bits_fails",
    "Verif.Png.C162_memory_fails",
    "Verif.Png.C162_kind_fails",
    "Verif.Png.C162_cut_fails",
    "Verif.Png.C162_raw",
    "Verif.Png.C162_runs",
    "Verif.Png.C162_packets",
    "Verif.Png.C162_any_partial"
   ],
   "note": "The code violates the full statement: (what does not hold) A PIC file whose packet is not of 8 bits is not refused: its number of channels is used without having been set, so there is no defined result. / (what does not hold) If there is no memory for a PIC file, what should be there is written nevertheless. / (what does not hold) A PIC file without alpha whose first packet has a kind of runs that is not known is not refused: it is converted though it has been freed, and read where there is no memory. With alpha it is refused. / (what does not hold) A PIC file of red, green and blue that ends within its first pixel is not refused, whatever its size says: it is read where there is no memory. Proved in part: (what holds) Whatever the bytes behind its packets are, a PIC file that has alpha and for which there is memory is refused or gives a picture of the size that it says: reading ends, and nothing outside of that memory is written."
  }
 ]
}