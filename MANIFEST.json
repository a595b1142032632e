{
 "claims": [
  {
   "property": "C01",
   "status": "proved",
   "theorems": [
    "RTree.C01_insert_adds_one"
   ],
   "note": ""
  },
  {
   "property": "C02",
   "status": "proved",
   "theorems": [
    "RTree.C02_no_panic_calls",
    "RTree.C02_no_panic",
    "RTree.C02_no_panic_i32_boxes",
    "RTree.C02_no_panic_i32_points"
   ],
   "note": ""
  },
  {
   "property": "C03",
   "status": "proved",
   "theorems": [
    "RTree.C03_get_first"
   ],
   "note": ""
  },
  {
   "property": "C04",
   "status": "proved",
   "theorems": [
    "RTree.C04_remove_one",
    "RTree.C04_remove_some_iff"
   ],
   "note": ""
  },
  {
   "property": "C05",
   "status": "partial",
   "theorems": [
    "RTree.C05_remove_first_refuted",
    "RTree.C05_remove_last_leaf_partial",
    "RTree.C05_remove_first_leaf_partial"
   ],
   "note": "The documented claim is false of the code; refuted by a concrete history. Proved instead: within the leaf it is taken from the removed entry is the first match; if the tree is a single leaf it is the first match overall."
  },
  {
   "property": "C06",
   "status": "proved",
   "theorems": [
    "RTree.C06_insert_unique"
   ],
   "note": ""
  },
  {
   "property": "C07",
   "status": "proved",
   "theorems": [
    "RTree.C07_unique_histories_are_maps"
   ],
   "note": ""
  },
  {
   "property": "C08",
   "status": "proved",
   "theorems": [
    "RTree.C08_len",
    "RTree.C08_is_empty"
   ],
   "note": ""
  },
  {
   "property": "C09",
   "status": "proved",
   "theorems": [
    "RTree.C09_iter_exact"
   ],
   "note": ""
  },
  {
   "property": "C10",
   "status": "proved",
   "theorems": [
    "RTree.C10_filter_iter_exact"
   ],
   "note": ""
  },
  {
   "property": "C11",
   "status": "proved",
   "theorems": [
    "RTree.C11_filter_iter_sound",
    "RTree.C11_filter_iter_honest"
   ],
   "note": ""
  },
  {
   "property": "C12",
   "status": "proved",
   "theorems": [
    "RTree.C12_iter_asc_by",
    "RTree.C12_iter_asc_by_returned",
    "RTree.C12_std_heap"
   ],
   "note": ""
  },
  {
   "property": "C13",
   "status": "proved",
   "theorems": [
    "RTree.C13_min_by",
    "RTree.C13_min_by_returned",
    "RTree.C13_std_heap"
   ],
   "note": ""
  },
  {
   "property": "C14",
   "status": "partial",
   "theorems": [
    "RTree.C14_unique_partial",
    "RTree.C14_refuted"
   ],
   "note": "The documented tie-break is false of the code, for every heap; refuted by a concrete tree of five points. Proved: the result has least rank (C13), and if only one entry has least rank it is the result."
  },
  {
   "property": "C15",
   "status": "proved",
   "theorems": [
    "RTree.C15_filter_iter_asc_by",
    "RTree.C15_filter_min_by",
    "RTree.C15_std_heap"
   ],
   "note": ""
  },
  {
   "property": "C16",
   "status": "proved",
   "theorems": [
    "RTree.C16_join_exact",
    "RTree.C16_join_sound"
   ],
   "note": ""
  },
  {
   "property": "C17",
   "status": "proved",
   "theorems": [
    "RTree.C17_left_join_exact",
    "RTree.C17_left_join_sound"
   ],
   "note": ""
  },
  {
   "property": "C18",
   "status": "proved",
   "theorems": [
    "RTree.C18_join_left_join"
   ],
   "note": ""
  },
  {
   "property": "C19",
   "status": "proved",
   "theorems": [
    "RTree.C19_noisy_float_bounds_exact",
    "RTree.C19_bounds_cover",
    "RTree.C19_bounds_exact",
    "RTree.C19_box_bounds_exact",
    "RTree.C19_float_bounds_exact"
   ],
   "note": ""
  },
  {
   "property": "C20",
   "status": "proved",
   "theorems": [
    "RTree.C20_uniform_height",
    "RTree.C20_no_ub"
   ],
   "note": ""
  },
  {
   "property": "C21",
   "status": "proved",
   "theorems": [
    "RTree.C21_max_children",
    "RTree.C21_min_children"
   ],
   "note": ""
  },
  {
   "property": "C22",
   "status": "partial",
   "theorems": [
    "RTree.C22_min_children_tight_refuted",
    "RTree.C22_min_children_tight_partial"
   ],
   "note": "False of the code in the tight case 2*min = max + 1; refuted. Proved: at least min_children - 1 children remain."
  },
  {
   "property": "C23",
   "status": "partial",
   "theorems": [
    "RTree.C23_min_one_insert_refuted",
    "RTree.C23_min_one_partial"
   ],
   "note": "False of the code: with min_children = 1 an insertion into an emptied inner root panics; refuted. Proved: the only possible panic is that one."
  },
  {
   "property": "C24",
   "status": "proved",
   "theorems": [
    "RTree.C24_log_height_floor",
    "RTree.C24_log_height"
   ],
   "note": ""
  },
  {
   "property": "C25",
   "status": "proved",
   "theorems": [
    "RTree.C25_clone"
   ],
   "note": ""
  },
  {
   "property": "C26",
   "status": "proved",
   "theorems": [
    "RTree.C26_program_in_memory",
    "RTree.C26_drop_everything",
    "RTree.C26_drop_one"
   ],
   "note": "Whole tree modelled in raw memory (untagged blocks, ptr::read copies, alloc/dealloc with layouts). For every program over any number of trees: same replies as on values, no undefined behaviour, keys/values conserved as multisets, live blocks = nodes of live trees; all freed at the end. Assumes non-zero-sized entries (C46); a program ends with its first panic here (programs that go on after panics: C54, C73); programs use new/insert/insert_unique/remove/get/get_mut-replace/len/is_empty/clone/drop (mutable iteration: C84); bounds are accounted for in C54."
  },
  {
   "property": "C27",
   "status": "proved",
   "theorems": [
    "RTree.C27_get_mut"
   ],
   "note": ""
  },
  {
   "property": "C28",
   "status": "proved",
   "theorems": [
    "RTree.C28_no_alias",
    "RTree.C28_iter_mut",
    "RTree.C28_filter_iter_mut_updates"
   ],
   "note": ""
  },
  {
   "property": "C29",
   "status": "proved",
   "theorems": [
    "RTree.C29_iter_asc_by_mut",
    "RTree.C29_filter_iter_asc_by_mut",
    "RTree.C29_same_entries",
    "RTree.C29_same_min",
    "RTree.C29_std_heap"
   ],
   "note": ""
  },
  {
   "property": "C30",
   "status": "proved",
   "theorems": [
    "RTree.C30_same_queries",
    "RTree.C30_same_is_empty",
    "RTree.C30_same_ranks",
    "RTree.C30_same_joins",
    "RTree.C30_net_content",
    "RTree.C30_histories",
    "RTree.C30_insert_orders"
   ],
   "note": ""
  },
  {
   "property": "C31",
   "status": "proved",
   "theorems": [
    "RTree.C31_remove_all"
   ],
   "note": ""
  },
  {
   "property": "C32",
   "status": "proved",
   "theorems": [
    "RTree.C32_union_least",
    "RTree.C32_union_laws",
    "RTree.C32_absorb",
    "RTree.C32_union_all"
   ],
   "note": ""
  },
  {
   "property": "C33",
   "status": "proved",
   "theorems": [
    "RTree.C33_intersects_iff",
    "RTree.C33_intersects_comm",
    "RTree.C33_intersects_point",
    "RTree.C33_intersects_mono"
   ],
   "note": ""
  },
  {
   "property": "C34",
   "status": "partial",
   "theorems": [
    "RTree.C34_contains_point_refuted",
    "RTree.C34_contains_point_partial",
    "RTree.C34_point_intersects_refuted"
   ],
   "note": "False of the code (comparisons reversed); refuted. Proved: the exact condition the code tests."
  },
  {
   "property": "C35",
   "status": "partial",
   "theorems": [
    "RTree.C35_contains_box_refuted",
    "RTree.C35_contains_box_partial"
   ],
   "note": "False of the code (it is the intersection test); refuted. Proved: contained boxes are reported; the exact condition tested."
  },
  {
   "property": "C36",
   "status": "proved",
   "theorems": [
    "RTree.C36_intersect_boxes",
    "RTree.C36_intersect_points",
    "RTree.C36_intersect_boxes_geometric",
    "RTree.C36_intersect_spaces",
    "RTree.C36_bounded_intersect_spaces"
   ],
   "note": ""
  },
  {
   "property": "C37",
   "status": "partial",
   "theorems": [
    "RTree.C37_contain_queries_refuted",
    "RTree.C37_contain_boxes_partial",
    "RTree.C37_contain_points_partial",
    "RTree.C37_contain_spaces_partial",
    "RTree.C37_bounded_contain_spaces_partial"
   ],
   "note": "False of the code as a consequence of C34 and C35; refuted. Proved: exactly what is yielded."
  },
  {
   "property": "C38",
   "status": "proved",
   "theorems": [
    "RTree.C38_point_rank",
    "RTree.C38_box_rank",
    "RTree.C38_honours_points",
    "RTree.C38_honours_boxes",
    "RTree.C38_nearest_points",
    "RTree.C38_nearest_boxes",
    "RTree.C38_defined_i32_points",
    "RTree.C38_defined_i32_boxes"
   ],
   "note": ""
  },
  {
   "property": "C39",
   "status": "partial",
   "theorems": [
    "RTree.C39_empty_partial",
    "RTree.C39_refuted"
   ],
   "note": "False of the code: with i32 coordinates the distance to the inverted bounds of the empty tree overflows, for every query point with a coordinate above MIN + 46340. Proved: None is returned whenever that distance does not overflow."
  },
  {
   "property": "C40",
   "status": "partial",
   "theorems": [
    "RTree.C40_distance_join_defined_n64",
    "RTree.C40_n32_join_refuted",
    "RTree.C40_sq_dist_symm",
    "RTree.C40_sq_dist_refuted",
    "RTree.C40_sq_dist_exact_partial",
    "RTree.C40_sq_dist_error_partial",
    "RTree.C40_sq_dist_zero",
    "RTree.C40_sq_dist_defined",
    "RTree.C40_distance_join",
    "RTree.C40_distance_key",
    "RTree.C40_distance_join_defined"
   ],
   "note": "Exactness is false of the code: squares and sums are rounded to f64 (refuted). Proved: symmetry; zero iff the boxes share a point; exact as long as the result is below 2^53, otherwise a relative error bound; joins yield exactly the pairs whose key test succeeds (integers and N64). For N32 a distance join may lose pairs (C40_n32_join_refuted): keys are compared in f32, bounds in f64."
  },
  {
   "property": "C41",
   "status": "partial",
   "theorems": [
    "RTree.C41_line_query_defined_float",
    "RTree.C41_long_segment_refuted",
    "RTree.C41_line_n64_partial",
    "RTree.C41_line_n32_partial",
    "RTree.C41_line_refuted",
    "RTree.C41_line_sound_partial",
    "RTree.C41_line_complete_partial",
    "RTree.C41_line_axis_partial",
    "RTree.C41_line_small_partial",
    "RTree.C41_line_exact_partial",
    "RTree.C41_line_defined",
    "RTree.C41_line_query",
    "RTree.C41_line_query_defined",
    "RTree.C41_line_query_small_partial"
   ],
   "note": "Exactness is false of the code: 1.0/delta is rounded, so a segment ending in the corner of a box is missed (C41_line_refuted), and with N64 the extent of a very long segment overflows, so that boxes in its middle are missed and boxes behind its end are reported (C41_long_segment_refuted). Proved: integers: right up to 2^-50 of the extent of the segment, exact for axis-parallel and degenerate segments, and for coordinates up to 2^23 (C41_line_small_partial, C41_line_query_small_partial) reported segments do meet the box and segments in the box for more than an instant are reported; N64 (coordinates up to 2^500) and N32 (up to 2^126): right up to 2^-50 and 2^-21 of the extent, and axis-parallel segments that meet the box are never missed; queries yield exactly the entries that pass the test."
  },
  {
   "property": "C42",
   "status": "partial",
   "theorems": [
    "RTree.C42_ray_query_defined_float",
    "RTree.C42_ray_n64_partial",
    "RTree.C42_ray_n32_partial",
    "RTree.C42_ray_refuted",
    "RTree.C42_ray_exact_partial",
    "RTree.C42_ray_interior_partial",
    "RTree.C42_ray_rounded_partial",
    "RTree.C42_ray_small_partial",
    "RTree.C42_ray_along",
    "RTree.C42_ray_defined",
    "RTree.C42_ray_query_partial",
    "RTree.C42_ray_query_defined"
   ],
   "note": "False of the code: no clamp at parameter 0 (boxes behind the origin are reported), strict comparison (boxes touched in one point are not), and NaN in the first dimension; refuted. Proved: the exact condition tested (without rounding); with rounding, for integers, N64 and N32, that the answer is right for the whole line up to moving each side of the box by 2^-51 (2^-22 for N32) of its distance from the origin; for integers up to 2^24, that lines of reported rays do meet the closed box and rays whose line is in it for a proper interval are reported; that a ray along a side perpendicular to the first dimension is never reported; and that queries yield exactly the entries that pass the (rounded) test."
  },
  {
   "property": "C43",
   "status": "partial",
   "theorems": [
    "RTree.C43_sphere_float_partial",
    "RTree.C43_float_refuted",
    "RTree.C43_sphere_refuted",
    "RTree.C43_sphere_point_partial",
    "RTree.C43_sphere_bounds",
    "RTree.C43_sphere_query",
    "RTree.C43_sphere_defined"
   ],
   "note": "Exactness is false of the code for large radii: squares are rounded to f64 (refuted). Proved: exact for squared radius below 2^53; bounds and queries for all integer spheres of non-negative radius. For floats the query may miss points outside of the calculated bounds (C43_float_refuted, C43_sphere_float_partial)."
  },
  {
   "property": "C44",
   "status": "partial",
   "theorems": [
    "RTree.C44_line_bounded_float_partial",
    "RTree.C44_bounded_refuted",
    "RTree.C44_line_bounds",
    "RTree.C44_line_bounds_intersect",
    "RTree.C44_line_bounded_query",
    "RTree.C44_line_bounded_defined"
   ],
   "note": "False for N64 coordinates (C44_bounded_refuted): a segment may be said to intersect a box next to its bounds, which the bounded filter prunes. Proved: exact for integer coordinates; for floats only boxes outside of the bounds of the segment may be missed."
  },
  {
   "property": "C45",
   "status": "proved",
   "theorems": [
    "RTree.Raw.C45_vector_refines_list",
    "RTree.Raw.C45_life_by_iteration",
    "RTree.Raw.C45_life_by_drop",
    "RTree.Raw.C45_clone",
    "RTree.Raw.C45_size_hint"
   ],
   "note": ""
  },
  {
   "property": "C46",
   "status": "partial",
   "theorems": [
    "RTree.Raw.C46_zero_sized_refuted",
    "RTree.Raw.C46_size_hint_refuted",
    "RTree.Raw.C46_sized_partial",
    "RTree.C46_remove_loses_refuted",
    "RTree.C46_sized_trees_partial"
   ],
   "note": "False of the code: a by-value iterator over zero-sized elements starts at its end (none is yielded or dropped) and its size_hint divides by zero; refuted. Proved: elements of at least one byte are all yielded, in order."
  },
  {
   "property": "C47",
   "status": "proved",
   "theorems": [
    "RTree.RcMut.C47_protocol",
    "RTree.C47_left_join"
   ],
   "note": ""
  },
  {
   "property": "C48",
   "status": "partial",
   "theorems": [
    "RTree.C48_inverted_found_refuted",
    "RTree.C48_inverted_leaf_partial"
   ],
   "note": "False of the code for inverted boxes; refuted. Proved: it holds while the tree is a single leaf; for non-inverted bounds see C03, C04."
  },
  {
   "property": "C49",
   "status": "proved",
   "theorems": [
    "RTree.C49_least_enlargement_boxes",
    "RTree.C49_select_least_enlargement",
    "RTree.C49_insert_descends"
   ],
   "note": ""
  },
  {
   "property": "C50",
   "status": "proved",
   "theorems": [
    "RTree.C50_split_partitions",
    "RTree.C50_split_min",
    "RTree.C50_split_returns"
   ],
   "note": ""
  },
  {
   "property": "C51",
   "status": "partial",
   "theorems": [
    "RTree.C51_is_empty_refuted",
    "RTree.C51_is_empty_partial"
   ],
   "note": "False of the code for min_children = 0; refuted. Proved: correct for min_children >= 1; for every configuration is_empty never says that a tree with entries is empty."
  },
  {
   "property": "C52",
   "status": "partial",
   "theorems": [
    "RTree.C52_empty_tests_refuted",
    "RTree.C52_nonempty_partial"
   ],
   "note": "False of the code for i32: the tests overflow on the inverted bounds of an empty tree; refuted. Proved: they do not on a non-empty tree in a window."
  },
  {
   "property": "C53",
   "status": "partial",
   "theorems": [
    "RTree.Raw.C53_zero_bytes_refuted",
    "RTree.Raw.C53_new_partial"
   ],
   "note": "False of the code: max_children = 0 or zero-sized entries lead to a zero-byte request, which alloc::alloc forbids; refuted. Proved: otherwise one allocation of exactly the right size, or a panic because the layout is too large."
  },
  {
   "property": "C54",
   "status": "partial",
   "theorems": [
    "RTree.Unwind.C54_panic_safety_partial",
    "RTree.Unwind.C54_no_panic_no_leak_partial",
    "RTree.Unwind.C54_one_child_double_free_refuted"
   ],
   "note": "False of the code for max_children = 1: the push of the second child of a new root panics after the old root was copied, and dropping both copies is a double free; refuted. Proved for max_children >= 2 and sized pairs, all programs and all user code."
  },
  {
   "property": "C55",
   "status": "proved",
   "theorems": [
    "RTree.Unwind.C55_calls_that_return"
   ],
   "note": "Contents are read back from raw memory. User code is arbitrary, panics are caught and the trees used further."
  },
  {
   "property": "C56",
   "status": "partial",
   "theorems": [
    "RTree.Unwind.C56_calls_that_panic_partial",
    "RTree.Unwind.C56_panicking_insert_loses_a_pair_refuted"
   ],
   "note": "False of the code: a panic during a split or a reinsertion loses pairs; refuted. Proved: other trees are never affected, lookups, len, is_empty, clone change nothing, and insert/insert_unique/remove can lose pairs but invent or duplicate none."
  },
  {
   "property": "C57",
   "status": "proved",
   "theorems": [
    "RTree.Calls.C57_filter_iter",
    "RTree.Calls.C57_sublist",
    "RTree.Calls.C57_no_alias",
    "RTree.Calls.C57_consistent_filter"
   ],
   "note": "User code is an arbitrary sequence of answers and panics; panics are caught and the iterator is used further. Unordered iteration (filter_iter, filter_iter_mut)."
  },
  {
   "property": "C58",
   "status": "proved",
   "theorems": [
    "RTree.Calls.C58_join",
    "RTree.Calls.C58_sublist",
    "RTree.Calls.C58_consistent_filter"
   ],
   "note": "As C57, for join (left_join: C65)."
  },
  {
   "property": "C59",
   "status": "proved",
   "theorems": [
    "RTree.Raw.C59_iterators",
    "RTree.Raw.C59_no_alias",
    "RTree.Raw.C59_joins"
   ],
   "note": "Iterator and join stacks in raw memory (leaked Vec of untagged unions), any interleaving of any number of iterators; refinement to the value-level iterators of C57/C58. left_join is covered by C47."
  },
  {
   "property": "C60",
   "status": "partial",
   "theorems": [
    "RTree.Raw.C60_spare_capacity_refuted",
    "RTree.Raw.C60_exact_capacity_partial"
   ],
   "note": "False of the code: Vec::leak keeps excess capacity, so Box::from_raw on the leaked slice deallocates with a wrong layout if with_capacity over-allocates (refuted). Proved: all of C59 whenever the vectors made have exactly the room asked for."
  },
  {
   "property": "C61",
   "status": "proved",
   "theorems": [
    "RTree.C61_points_defined",
    "RTree.C61_boxes_defined",
    "RTree.C61_nearest_points",
    "RTree.C61_nearest_boxes",
    "RTree.C61_point_rank",
    "RTree.C61_box_rank",
    "RTree.C61_min_by_near",
    "RTree.C61_not_exact"
   ],
   "note": "C61_not_exact shows that the error bound of C61_min_by_near cannot be replaced by zero."
  },
  {
   "property": "C62",
   "status": "partial",
   "theorems": [
    "RTree.C62_insert_refuted",
    "RTree.C62_high_dimension_refuted",
    "RTree.C62_no_panic_n64_partial",
    "RTree.C62_no_panic_n32_partial",
    "RTree.C62_no_panic_n64_points_partial"
   ],
   "note": "False: 0 * inf for finite N64 points (C62_insert_refuted), inf - inf for i32 boxes in 34 dimensions (C62_high_dimension_refuted). Proved for coordinates up to 2^m with (m+1)*D <= 1023 (N32: m <= 126); i32 up to 33 dimensions is C02_no_panic_i32_boxes."
  },
  {
   "property": "C63",
   "status": "proved",
   "theorems": [
    "RTree.C63_volume_nonneg",
    "RTree.C63_volume_mono",
    "RTree.C63_increase_nonneg",
    "RTree.C63_volume_exact",
    "RTree.C63_volume_error",
    "RTree.C63_volume_zero"
   ],
   "note": ""
  },
  {
   "property": "C64",
   "status": "proved",
   "theorems": [
    "RTree.C64_len_reverse",
    "RTree.C64_len_defined",
    "RTree.C64_sq_len_exact",
    "RTree.C64_sq_len_error",
    "RTree.C64_len_exact",
    "RTree.C64_len_error",
    "RTree.C64_len_zero"
   ],
   "note": ""
  },
  {
   "property": "C65",
   "status": "proved",
   "theorems": [
    "RTree.Calls.C65_left_join",
    "RTree.Calls.C65_sublists",
    "RTree.Calls.C65_no_panic_no_loss",
    "RTree.Calls.C65_consistent_filter"
   ],
   "note": "As C57 and C58, for left_join, with any interleaving of the left join and its right-hand iterators; without panics every left entry comes; with a well-behaved filter it is left_join of C17."
  },
  {
   "property": "C66",
   "status": "proved",
   "theorems": [
    "RTree.Calls.C66_filter_iter_asc_by",
    "RTree.Calls.C66_iter_asc_by",
    "RTree.Calls.C66_entries",
    "RTree.Calls.C66_filter_entries",
    "RTree.Calls.C66_no_alias",
    "RTree.Calls.C66_filter_no_alias",
    "RTree.Calls.C66_no_panic_no_loss",
    "RTree.Calls.C66_filter_ascending",
    "RTree.Calls.C66_ascending",
    "RTree.Calls.C66_consistent"
   ],
   "note": "Rankings and PartialOrd of the metric answer through an oracle, on the array of std's BinaryHeap. Without panics no entry is lost however inconsistent the answers; with panics of the ranking only, order is kept; with a well-behaved ranking it is filter_iter_asc_by of C15."
  },
  {
   "property": "C67",
   "status": "partial",
   "theorems": [
    "RTree.C67_seeds_partial",
    "RTree.C67_one_dimension_partial",
    "RTree.C67_worst_pair_refuted"
   ],
   "note": "False in two dimensions (C67_worst_pair_refuted): worst_combination adds the overflowing value to every pair. Proved: the seeds maximize the volume of the common bounds with the overflowing value; in one dimension the claim itself."
  },
  {
   "property": "C68",
   "status": "proved",
   "theorems": [
    "RTree.C68_bvh_check_means",
    "RTree.C68_bvh_check",
    "RTree.C68_min_children_check_means",
    "RTree.C68_min_children_check",
    "RTree.C68_eq_check_means",
    "RTree.C68_clone_check",
    "RTree.C68_checked_histories",
    "RTree.C68_checked_histories_i32_boxes",
    "RTree.C68_bvh_check_floats"
   ],
   "note": "The checks are modelled as functions that may panic; they never do on reachable trees, and passing is characterised exactly. With tight configurations the min_children check can fail (C22)."
  },
  {
   "property": "C69",
   "status": "partial",
   "theorems": [
    "RTree.C69_empty_identity_partial",
    "RTree.C69_empty_identity_refuted",
    "RTree.C69_union_all_singleton_refuted"
   ],
   "note": "Refuted for boxes at infinity (C69_empty_identity_refuted); C69_empty_identity_partial characterises the boxes for which it holds."
  },
  {
   "property": "C70",
   "status": "proved",
   "theorems": [
    "RTree.Calls.C70_filter_iter_account",
    "RTree.Calls.C70_join_account",
    "RTree.Calls.C70_number_of_tests",
    "RTree.Calls.C70_number_of_join_tests",
    "RTree.Calls.C70_tests_at_most_once",
    "RTree.Calls.C70_tests_pruned"
   ],
   "note": "Exact account of the questions asked, for arbitrary (also panicking, inconsistent) filters; number of tests; pruning bound."
  },
  {
   "property": "C71",
   "status": "proved",
   "theorems": [
    "RTree.C71_iter_asc_by",
    "RTree.C71_min_by",
    "RTree.C71_k_least",
    "RTree.C71_filter_iter_asc_by",
    "RTree.C71_filter_iter_asc_by_mut",
    "RTree.C71_filter_min_by",
    "RTree.C71_filter_exhausted",
    "RTree.C71_prefix"
   ],
   "note": "Best-first search: laziness as independence from the answers elsewhere; correctness of the first k."
  },
  {
   "property": "C72",
   "status": "proved",
   "theorems": [
    "RTree.Raw.C72_box_layout",
    "RTree.Raw.C72_box_fields",
    "RTree.Raw.C72_left_joins"
   ],
   "note": "Layouts for all sizes and alignments; sessions of many left joins in one memory. Not modelled: the guard of init_into, which acts only if a closure that copies slice iterators panics."
  },
  {
   "property": "C73",
   "status": "partial",
   "theorems": [
    "RTree.C73_panicking_destructors_partial",
    "RTree.C73_every_panic_leaks",
    "RTree.C73_remaining_entries_dropped_refuted"
   ],
   "note": "FALSE as stated: after a panic of one destructor the remaining entries are never dropped and their nodes never freed (C73_remaining_entries_dropped_refuted; C73_every_panic_leaks shows that every such panic loses memory). Proved: safety, at-most-once, the order of destructors, and exact accounts of what is dropped, lost, and not freed."
  },
  {
   "property": "C74",
   "status": "proved",
   "theorems": [
    "RTree.C74_add_sub",
    "RTree.C74_inverse",
    "RTree.C74_add_assign",
    "RTree.C74_sq_mag",
    "RTree.C74_componentwise",
    "RTree.C74_index",
    "RTree.C74_into_map",
    "RTree.C74_operators_lexicographic"
   ],
   "note": "For i32 components where arithmetic is involved (add_assign, lattice laws, indexing, into_map for any scalars)."
  },
  {
   "property": "C75",
   "status": "proved",
   "theorems": [
    "RTree.C75_union",
    "RTree.C75_intersects",
    "RTree.C75_contains"
   ],
   "note": "The two `contains` of AABB are wrong for any vectors (C34, C35)."
  },
  {
   "property": "C76",
   "status": "proved",
   "theorems": [
    "RTree.C76_text",
    "RTree.C76_user_code_fails",
    "RTree.C76_same_text",
    "RTree.C76_same_text_safe",
    "RTree.C76_boxes"
   ],
   "note": "The form {:#?} is not modelled."
  },
  {
   "property": "C77",
   "status": "proved",
   "theorems": [
    "RTree.C77_nodes_floor",
    "RTree.C77_nodes_linear",
    "RTree.C77_needs_sound",
    "RTree.Raw.C77_bytes",
    "RTree.Raw.C77_bytes_linear"
   ],
   "note": "C77_needs_sound: with min_children = 0 an empty tree can have several nodes. Memory of the allocator itself and the stack are not counted."
  },
  {
   "property": "C78",
   "status": "proved",
   "theorems": [
    "RTree.C78_safe",
    "RTree.C78_only_safe",
    "RTree.C78_safe_iff"
   ],
   "note": "Keys of the panicking histories have equal bounds and different identities."
  },
  {
   "property": "C79",
   "status": "partial",
   "theorems": [
    "RTree.C79_height_lt_len_partial",
    "RTree.C79_logarithmic_refuted",
    "RTree.C79_no_log_bound_refuted"
   ],
   "note": "False: with min_children = max_children = 2 points inserted in order make a tree of height n - 2. Proved: height < number of entries for every safe configuration; logarithmic for sound ones is C24."
  },
  {
   "property": "C80",
   "status": "partial",
   "theorems": [
    "RTree.C80_zero_dimensions_refuted",
    "RTree.C80_few_entries_partial"
   ],
   "note": "False: in dimension zero the insertion of entry number max_children + 1 panics, for every configuration and scalar type. Proved: up to max_children entries work; dimensions 1 to 33 with i32 are C02_no_panic_i32_boxes."
  },
  {
   "property": "C81",
   "status": "proved",
   "theorems": [
    "RTree.C81_no_data_race",
    "RTree.C81_as_if_alone",
    "RTree.C81_threads_finish",
    "RTree.C81_all_finish",
    "RTree.C81_after_the_threads",
    "RTree.C81_steps_are_the_code"
   ],
   "note": "Interleavings of accesses to whole blocks; the Steps functions are proved equal to the RawTree functions of C26, the iterators of C83 and the mutable iterators of C84. Unwinding of panicking threads is not part of it."
  },
  {
   "property": "C82",
   "status": "proved",
   "theorems": [
    "RTree.C82_insert",
    "RTree.C82_insert_log",
    "RTree.C82_get",
    "RTree.C82_get_mut",
    "RTree.C82_insert_unique",
    "RTree.C82_remove",
    "RTree.C82_remove_log",
    "RTree.C82_get_linear",
    "RTree.C82_get_linear_reached"
   ],
   "note": "Upper bounds with explicit constants for insert, insert_unique, get, get_mut and remove; the counting functions are proved to compute what the functions of the other properties compute. Iterators: C70, C71."
  },
  {
   "property": "C83",
   "status": "proved",
   "theorems": [
    "RTree.C83_iter",
    "RTree.C83_filter_iter",
    "RTree.C83_sorted",
    "RTree.C83_join",
    "RTree.C83_left_join"
   ],
   "note": "The nodes and entries are read from raw memory; the queue and the stack of the iterators are values here (stacks in raw memory: C59, C72)."
  },
  {
   "property": "C84",
   "status": "proved",
   "theorems": [
    "RTree.C84_program",
    "RTree.C84_no_alias",
    "RTree.C84_sorted_no_alias",
    "RTree.C84_write",
    "RTree.C84_read"
   ],
   "note": "The stack of the unordered iterator is the recursion and the queue of the sorted one a value (stacks in raw memory: C59, C72).  Aliasing is stated on locations (block and index); the borrow-stack rules of Rust's aliasing model are not modelled."
  },
  {
   "property": "C85",
   "status": "proved",
   "theorems": [
    "RTree.C85_threads",
    "RTree.C85_sorted",
    "RTree.C85_no_race",
    "RTree.C85_sorted_no_race",
    "RTree.C85_account",
    "RTree.C85_replace",
    "RTree.C85_read"
   ],
   "note": "`C85_threads` and `C85_sorted` relate every schedule in raw memory to threads that run alone on private values; `C85_no_race`, `C85_sorted_no_race`: references of different threads are at different places; `C85_account`, `C85_replace`, `C85_read`: what a thread alone does. The threads start when the iteration has stopped; uses of references during the iteration by its own thread are included (any client)."
  },
  {
   "property": "C86",
   "status": "proved",
   "theorems": [
    "RTree.Calls.C86_filter_iter",
    "RTree.Calls.C86_iter_asc_by",
    "RTree.Calls.C86_filter_iter_asc_by",
    "RTree.Calls.C86_join",
    "RTree.Calls.C86_left_join",
    "RTree.Calls.C86_left_join_right"
   ],
   "note": "On the models in which user code may panic or answer differently each time; for the left join the trees are reachable ones, for the others any iterator state."
  },
  {
   "property": "C87",
   "status": "proved",
   "theorems": [
    "RTree.Unwind.C87_honest_program"
   ],
   "note": "Ties the model with panics (C54-C56, C73) to the value model all other theorems are about."
  },
  {
   "property": "C88",
   "status": "proved",
   "theorems": [
    "RTree.Unwind.C88_other_trees",
    "RTree.Unwind.C88_recovery"
   ],
   "note": "Also covers trees whose bounds do not cover their contents any more after a panic."
  },
  {
   "property": "C89",
   "status": "proved",
   "theorems": [
    "RTree.C89_no_panic_unsigned",
    "RTree.C89_no_panic_signed",
    "RTree.C89_nearest_points_signed",
    "RTree.C89_nearest_boxes_signed"
   ],
   "note": "The theorems quantify over the type (six of them), the dimension, the history and the priority queue (anything that keeps the contract of a heap; std's heap is an instance). D <= 31 because beyond that the exact range of the volume in f64 (2^1024) is left for 32-bit sides."
  },
  {
   "property": "C90",
   "status": "partial",
   "theorems": [
    "RTree.C90_unsigned_refuted",
    "RTree.C90_unsigned_partial"
   ],
   "note": "False in general: ranking.rs dist_sq subtracts the query coordinate from the key's coordinate, so a query point beyond all keys in one coordinate panics (C90_unsigned_refuted, for every such tree and query point). Proved: for query points not greater than any key in any coordinate the queries are right (C90_unsigned_partial)."
  },
  {
   "property": "C91",
   "status": "proved",
   "theorems": [
    "RTree.C91_no_panic",
    "RTree.C91_nearest_points",
    "RTree.C91_nearest_boxes"
   ],
   "note": "The hypothesis on squared distances is needed: an example beside the theorem shows a wrong answer when one wraps around. NaN checks of noisy_float, which are debug assertions, are not modelled differently in release builds: with integers of at most 32 bits and D <= 31 no NaN arises."
  },
  {
   "property": "C92",
   "status": "proved",
   "theorems": [
    "RTree.C92_same_distances",
    "RTree.C92_same_boxes",
    "RTree.C92_same_segments",
    "RTree.C92_same_spheres",
    "RTree.C92_segment_query",
    "RTree.C92_ray_query",
    "RTree.C92_sphere_query",
    "RTree.C92_distance_join"
   ],
   "note": "(1) C92_same_*; (2) C92_segment_query, C92_ray_query, C92_sphere_query, C92_distance_join, each for both profiles at once."
  },
  {
   "property": "C93",
   "status": "partial",
   "theorems": [
    "RTree.C93_segment_query_partial",
    "RTree.C93_ray_query_partial",
    "RTree.C93_sphere_query_partial",
    "RTree.C93_distance_refuted",
    "RTree.C93_sphere_refuted",
    "RTree.C93_segment_refuted",
    "RTree.C93_ray_refuted",
    "RTree.C93_release_refuted"
   ],
   "note": "False: bounds.rs sq_dist_to, sphere.rs, intersects.rs and line.rs subtract in the coordinate type. C93_distance_refuted: in debug builds sq_dist_to of non-inverted boxes panics for every pair except equal degenerate ones; C93_sphere_refuted, C93_segment_refuted, C93_ray_refuted: characterised panics; C93_release_refuted: wrong answers in release builds for u8, u16 and u32. Proved: segment queries with upward segments that start below all boxes, ray queries whose origin is below all boxes and sphere queries whose center is below all points are right in both profiles (C93_segment_query_partial, C93_ray_query_partial, C93_sphere_query_partial). Missing: all other positions, where the property fails."
  },
  {
   "property": "C94",
   "status": "proved",
   "theorems": [
    "RTree.C94_history",
    "RTree.C94_updates",
    "RTree.C94_queries",
    "RTree.C94_sorted",
    "RTree.C94_std_heap",
    "RTree.C94_joins",
    "RTree.C94_values",
    "RTree.C94_axes_points",
    "RTree.C94_axes_boxes"
   ],
   "note": "C94_history, C94_updates, C94_queries for arbitrary translations; C94_values: values are never looked at; C94_axes_points, C94_axes_boxes: the axes of the plane are interchangeable. C94_sorted (with any heap that only looks at scores; C94_std_heap: that of the standard library is one) and C94_joins."
  },
  {
   "property": "C95",
   "status": "proved",
   "theorems": [
    "RTree.C95_history_points",
    "RTree.C95_history_boxes",
    "RTree.C95_calls_points",
    "RTree.C95_calls_boxes",
    "RTree.C95_nearest_points",
    "RTree.C95_nearest_boxes"
   ],
   "note": "C95_nearest_points, C95_nearest_boxes; C95_history_points, C95_history_boxes, C95_calls_points, C95_calls_boxes. The geometry of queries is C92_same_distances, C92_same_boxes, C92_same_segments, C92_same_spheres."
  },
  {
   "property": "C96",
   "status": "proved",
   "theorems": [
    "RTree.Raw.C96_calls",
    "RTree.Raw.C96_insert_log"
   ],
   "note": "C96_calls: every call after every program. C96_insert_log: at most log2 n buffers per insertion with sound configurations."
  }
 ]
}