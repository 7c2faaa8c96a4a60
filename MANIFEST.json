{
 "claims": [
  {
   "property": "C01",
   "status": "proved",
   "theorems": [
    "Srep.C01_coord_stable",
    "Srep.C01_coord_is_decimal",
    "Srep.C01_reconstruct",
    "Srep.C01_add_origin",
    "Srep.C01_stored"
   ],
   "note": "Any correctly rounded arithmetic; rounding twice is stable, reconstructing or adding the origin keeps the stored point."
  },
  {
   "property": "C02",
   "status": "proved",
   "theorems": [
    "Srep.C02_error_exact",
    "Srep.C02_error_float",
    "Srep.C02_error_float_abs",
    "Srep.C02_monotone"
   ],
   "note": "Half a unit of the 8th decimal exactly; plus the relative float error in rounded arithmetic; monotone."
  },
  {
   "property": "C03",
   "status": "proved",
   "theorems": [
    "Srep.C03_eq_iff",
    "Srep.C03_eq_iff_exact",
    "Srep.C03_refl",
    "Srep.C03_symm",
    "Srep.C03_invalid",
    "Srep.C03_class",
    "Srep.C03_ne"
   ],
   "note": "Equality is the tolerance box test; reflexive on valid points, symmetric, false for invalid, class sensitive."
  },
  {
   "property": "C04",
   "status": "proved",
   "theorems": [
    "Srep.C04_not_transitive",
    "Srep.C04_hash_contract_forces_constant",
    "Srep.C04_hash_contract_fails",
    "Srep.C04_apart"
   ],
   "note": "The property asserts the failures: == is not transitive and the hash contract cannot hold (binary64 witnesses); the positive part for separated points is C04_apart."
  },
  {
   "property": "C05",
   "status": "proved",
   "theorems": [
    "Srep.C05_validity_frozen",
    "Srep.C05_revoked_still_valid"
   ],
   "note": "Over arbitrary operation sequences on the object model."
  },
  {
   "property": "C06",
   "status": "proved",
   "theorems": [
    "Srep.C06_comm",
    "Srep.C06_sub_self",
    "Srep.C06_exact",
    "Srep.C06_object"
   ],
   "note": "Commutativity, p-p and the coordinates of the result in any rounded arithmetic, the vector laws in exact arithmetic."
  },
  {
   "property": "C07",
   "status": "proved",
   "theorems": [
    "Srep.C07_float",
    "Srep.C07_euclid",
    "Srep.C07_zero_iff",
    "Srep.C07_triangle",
    "Srep.C07_translate"
   ],
   "note": "Symmetry/zero/non-negativity in rounded arithmetic, Euclidean laws in exact arithmetic."
  },
  {
   "property": "C08",
   "status": "proved",
   "theorems": [
    "Srep.C08_no_type_error",
    "Srep.C08_bad_text",
    "Srep.C08_nonnumber_invalid",
    "Srep.C08_extra_entries",
    "Srep.C08_sum_invalid",
    "Srep.C08_distance_invalid",
    "Srep.C08_short_tuple"
   ],
   "note": "All branches of the constructor on the modelled argument kinds (numbers, numeric text, other text, None, other objects)."
  },
  {
   "property": "C09",
   "status": "proved",
   "theorems": [
    "Srep.C09_cross_antisymm",
    "Srep.C09_cross_self",
    "Srep.C09_dot_symm",
    "Srep.C09_dot_self_nonneg",
    "Srep.C09_reverse",
    "Srep.C09_exact"
   ],
   "note": "Sign laws bit for bit in any correctly rounded arithmetic; determinant/inner product/Lagrange in exact arithmetic."
  },
  {
   "property": "C10",
   "status": "proved",
   "theorems": [
    "Srep.C10_laws",
    "Srep.C10_null",
    "Srep.C10_iff_multiple",
    "Srep.C10_trans"
   ],
   "note": "Laws in any correctly rounded arithmetic; the geometric meaning in exact arithmetic."
  },
  {
   "property": "C11",
   "status": "proved",
   "theorems": [
    "Srep.C11_no_zero_division",
    "Srep.C11_total",
    "Srep.C11_symm",
    "Srep.C11_reverse"
   ],
   "note": "Any correctly rounded arithmetic: the denominator is bit for bit the tested cross product."
  },
  {
   "property": "C12",
   "status": "proved",
   "theorems": [
    "Srep.C12_correct",
    "Srep.C12_grid"
   ],
   "note": "Exact arithmetic."
  },
  {
   "property": "C13",
   "status": "proved",
   "theorems": [
    "Srep.C13_exclusive",
    "Srep.C13_sides_exact",
    "Srep.C13_reverse",
    "Srep.C13_not_exclusive"
   ],
   "note": "Exact arithmetic for the meaning; the overlap of 'right' and 'on the line' by a binary64 witness."
  },
  {
   "property": "C14",
   "status": "proved",
   "theorems": [
    "Srep.C14_box",
    "Srep.C14_accepts",
    "Srep.C14_reverse",
    "Srep.C14_accepts_float",
    "Srep.C14_asymmetric",
    "Srep.C14_large_coordinates_reject_endpoint"
   ],
   "note": "Exact arithmetic on stored points; closed box also in rounded arithmetic as long as the tolerance is not absorbed; binary64 witnesses for the asymmetry and for an endpoint rejected beyond 2^28."
  },
  {
   "property": "C15",
   "status": "proved",
   "theorems": [
    "Srep.C15_endpoints",
    "Srep.C15_complete",
    "Srep.C15_sound"
   ],
   "note": "Soundness and completeness in exact arithmetic."
  },
  {
   "property": "C16",
   "status": "proved",
   "theorems": [
    "Srep.C16_symm",
    "Srep.C16_common",
    "Srep.C16_self"
   ],
   "note": "Symmetry/direction in any correctly rounded arithmetic under the hypothesis that no two different endpoints are == with the same hash (implied by separation); meaning in exact arithmetic."
  },
  {
   "property": "C17",
   "status": "proved",
   "theorems": [
    "Srep.C17_symm_touch",
    "Srep.C17_chain",
    "Srep.C17_iff"
   ],
   "note": "As C16."
  },
  {
   "property": "C18",
   "status": "proved",
   "theorems": [
    "Srep.C18_collinear",
    "Srep.C18_not_collinear",
    "Srep.C18_common_part"
   ],
   "note": "Exact arithmetic, exact direction. C18_collinear: complete case analysis for collinear non-null segments with separated stored endpoints; C18_not_collinear; C18_common_part for common_part. The spec OverlapSpec speaks about the closed segments as point sets. Needs same class when both endpoints coincide (see C19)."
  },
  {
   "property": "C19",
   "status": "proved",
   "theorems": [
    "Srep.C19_class_mismatch",
    "Srep.C19_null_segment",
    "Srep.C19_witnesses"
   ],
   "note": "General theorems in every correctly rounded arithmetic (class mismatch, null segment) plus binary64 witnesses incl. endpoints equal only within tolerance."
  },
  {
   "property": "C20",
   "status": "proved",
   "theorems": [
    "Srep.C20_total",
    "Srep.C20_common_point",
    "Srep.C20_sound",
    "Srep.C20_none",
    "Srep.C20_symm"
   ],
   "note": "C20_common_point and C20_none (completeness), C20_sound (what a returned Point is), C20_total (no exception), C20_symm (any correctly rounded arithmetic). Completeness and soundness in exact arithmetic on 8-decimal endpoints."
  },
  {
   "property": "C21",
   "status": "proved",
   "theorems": [
    "Srep.C21_reverse",
    "Srep.C21_symm",
    "Srep.C21_iff",
    "Srep.C21_eq_loose",
    "Srep.C21_eq_not_loose"
   ],
   "note": "Any correctly rounded arithmetic; symmetry under the hash hypothesis of C16."
  },
  {
   "property": "C22",
   "status": "proved",
   "theorems": [
    "Srep.C22_reverse",
    "Srep.C22_line_reversed",
    "Srep.C22_reverse_in_place"
   ],
   "note": "Value level (C22_reverse...) and object level: C22_reverse_in_place shows that reverse swaps the two Point addresses of that one segment and touches no Point and no other segment."
  },
  {
   "property": "C23",
   "status": "proved",
   "theorems": [
    "Srep.C23_move_frame",
    "Srep.C23_move_aliased",
    "Srep.C23_move_exact",
    "Srep.C23_move_back",
    "Srep.C23_mirror_twice",
    "Srep.C23_mirror_frame"
   ],
   "note": "Heap model: frame, aliasing, exact translation, and round trips of move and mirror in exact arithmetic."
  },
  {
   "property": "C24",
   "status": "proved",
   "theorems": [
    "Srep.C24_move_back_float",
    "Srep.C24_off_grid_fails"
   ],
   "note": "For every rounding runtime (binary64 included), coordinates and offsets up to 10^7; C24_off_grid_fails is the concrete failure for an offset off the grid."
  },
  {
   "property": "C25",
   "status": "proved",
   "theorems": [
    "Srep.C25_float",
    "Srep.C25_exact"
   ],
   "note": "Both arithmetics."
  },
  {
   "property": "C26",
   "status": "proved",
   "theorems": [
    "Srep.C26_ends",
    "Srep.C26_exact"
   ],
   "note": "Exact arithmetic; the error branch in any arithmetic."
  },
  {
   "property": "C27",
   "status": "proved",
   "theorems": [
    "Srep.C27_structure",
    "Srep.C27_degenerate",
    "Srep.C27_position",
    "Srep.C27_objects"
   ],
   "note": "Structure in any arithmetic, positions in exact arithmetic; integer number of segments. C27_objects: end Points are shared with the divided segment, inner Points are fresh and shared between neighbours."
  },
  {
   "property": "C28",
   "status": "proved",
   "theorems": [
    "Srep.C28_result",
    "Srep.C28_off_line"
   ],
   "note": "Exact arithmetic."
  },
  {
   "property": "C29",
   "status": "proved",
   "theorems": [
    "Srep.C29_error",
    "Srep.C29_exact"
   ],
   "note": "Error branch in any rounded arithmetic, meaning in exact arithmetic."
  },
  {
   "property": "C30",
   "status": "proved",
   "theorems": [
    "Srep.C30_range_float",
    "Srep.C30_attains_360",
    "Srep.C30_range",
    "Srep.C30_equal_direction",
    "Srep.C30_opposite_iff",
    "Srep.C30_opposite_laws"
   ],
   "note": "atan2/degrees are parameters constrained by Rt.IsExactDir, which the real functions are proved to satisfy; that 360 itself can be returned in floats is shown with a constrained parameter."
  },
  {
   "property": "C31",
   "status": "proved",
   "theorems": [
    "Srep.C31_error",
    "Srep.C31_exact",
    "Srep.C31_domain_error",
    "Srep.C31_from_start"
   ],
   "note": "Exact arithmetic for the domain; the ValueError in binary64 by kernel evaluation of the modelled sqrt and division."
  },
  {
   "property": "C32",
   "status": "proved",
   "theorems": [
    "Srep.C32_midpoint"
   ],
   "note": "Exact arithmetic."
  },
  {
   "property": "C33",
   "status": "proved",
   "theorems": [
    "Srep.C33_unitvector",
    "Srep.C33_near_null"
   ],
   "note": "Exact arithmetic; near-null witness in binary64."
  },
  {
   "property": "C34",
   "status": "proved",
   "theorems": [
    "Srep.C34_nodes",
    "Srep.C34_polyline",
    "Srep.C34_degenerate",
    "Srep.C34_float_member_outside",
    "Srep.C34_convexHull",
    "Srep.C34_half_planes"
   ],
   "note": "Exact arithmetic for all inputs (C34_nodes; C34_polyline for the returned closed polyline; C34_degenerate). C34_convexHull and C34_half_planes tie the node list to Mathlib's convexHull and extremePoints. The failure in binary64 is C34_float_member_outside. purge() at the end of convex_hull changes no values (C45) and is not repeated here."
  },
  {
   "property": "C35",
   "status": "proved",
   "theorems": [
    "Srep.C35_same_members"
   ],
   "note": "Any arithmetic."
  },
  {
   "property": "C36",
   "status": "proved",
   "theorems": [
    "Srep.C36_cw",
    "Srep.C36_objects",
    "Srep.C36_degenerate"
   ],
   "note": "Object level (addresses), any correctly rounded arithmetic. Nodes are numeric pairs, so every Point made from them is valid; invalid nodes (non-numbers) are not modelled."
  },
  {
   "property": "C37",
   "status": "proved",
   "theorems": [
    "Srep.C37_close_open",
    "Srep.C37_close_closed",
    "Srep.C37_close_twice",
    "Srep.C37_close_torn",
    "Srep.C37_close_objects",
    "Srep.C37_closed_copy"
   ],
   "note": "Any correctly rounded arithmetic; additionally C37_close_torn: on a discontinuous polyline every close() appends another segment and never closes."
  },
  {
   "property": "C38",
   "status": "proved",
   "theorems": [
    "Srep.C38_open_path_closed",
    "Srep.C38_not_a_cycle",
    "Srep.C38_head_to_tail",
    "Srep.C38_head_to_tail_exact"
   ],
   "note": "The general open path for all points A, B, C; binary64 witness for \"not a cycle\"; characterisation for head-to-tail polylines."
  },
  {
   "property": "C39",
   "status": "proved",
   "theorems": [
    "Srep.C39_general",
    "Srep.C39_box",
    "Srep.C39_contains",
    "Srep.C39_sentinel"
   ],
   "note": "Any ordered field (no arithmetic is involved, only comparisons)."
  },
  {
   "property": "C40",
   "status": "proved",
   "theorems": [
    "Srep.C40_move_box"
   ],
   "note": "Exact arithmetic; purged polyline with separated points (as produced by purge), coordinates within 1e11 before and after."
  },
  {
   "property": "C41",
   "status": "proved",
   "theorems": [
    "Srep.C41_iff",
    "Srep.C41_refl_symm",
    "Srep.C41_exact",
    "Srep.C41_order_matters"
   ],
   "note": "Any correctly rounded arithmetic."
  },
  {
   "property": "C42",
   "status": "proved",
   "theorems": [
    "Srep.C42_type_error",
    "Srep.C42_ignores",
    "Srep.C42_perm",
    "Srep.C42_iff",
    "Srep.C42_not_symm",
    "Srep.C42_not_symm_class"
   ],
   "note": "Any correctly rounded arithmetic; asymmetry by two witnesses (repeated segments; Wall against plain segment)."
  },
  {
   "property": "C43",
   "status": "proved",
   "theorems": [
    "Srep.C43_iff_hash",
    "Srep.C43_laws",
    "Srep.C43_endpoints_only"
   ],
   "note": "Meaning, reflexivity and transitivity on separated points; also under the weaker hash hypothesis."
  },
  {
   "property": "C44",
   "status": "proved",
   "theorems": [
    "Srep.C44_find",
    "Srep.C44_neighbour",
    "Srep.C44_two_neighbours"
   ],
   "note": "Any correctly rounded arithmetic."
  },
  {
   "property": "C45",
   "status": "proved",
   "theorems": [
    "Srep.C45_purge",
    "Srep.C45_again",
    "Srep.C45_null_segment"
   ],
   "note": "Any correctly rounded arithmetic; points at least the tolerance apart; C45_null_segment shows that the restriction to non-null segments is needed."
  },
  {
   "property": "C46",
   "status": "proved",
   "theorems": [
    "Srep.C46_move_once",
    "Srep.C46_move_exact",
    "Srep.C46_move_back",
    "Srep.C46_move_unpurged"
   ],
   "note": "Single writes in any correctly rounded arithmetic; exact translation and return trip in exact arithmetic on 8-decimal numbers; also for polylines that are not purged yet."
  },
  {
   "property": "C47",
   "status": "proved",
   "theorems": [
    "Srep.C47_append_end",
    "Srep.C47_append_beginning",
    "Srep.C47_torn"
   ],
   "note": "General theorem for both append functions (exactly one of the two coincident Points moves) and a concrete run in which a closed polygon is torn open."
  },
  {
   "property": "C48",
   "status": "proved",
   "theorems": [
    "Srep.C48_terminates",
    "Srep.C48_only_reverses",
    "Srep.C48_sublist",
    "Srep.C48_distinct_first",
    "Srep.C48_failed_but_reversed"
   ],
   "note": "Termination is proved by showing that more rounds than 2n+1 never change the outcome; the statement about False is C48_only_reverses together with the witness C48_failed_but_reversed."
  },
  {
   "property": "C49",
   "status": "proved",
   "theorems": [
    "Srep.C49_empty",
    "Srep.C49_never_true",
    "Srep.C49_second_cycle_dropped",
    "Srep.C49_long_cycle_raises"
   ],
   "note": "Never True from 250 segments on; raises on every cycle of that size; the lost second cycle is a concrete run; empty list raises IndexError."
  },
  {
   "property": "C50",
   "status": "proved",
   "theorems": [
    "Srep.C50_spec",
    "Srep.C50_sublist",
    "Srep.C50_unchanged",
    "Srep.C50_closed",
    "Srep.C50_not_idempotent"
   ],
   "note": "Any correctly rounded arithmetic; non-idempotence by a witness."
  },
  {
   "property": "C51",
   "status": "proved",
   "theorems": [
    "Srep.C51_reverse_cps",
    "Srep.C51_convex",
    "Srep.C51_ccw",
    "Srep.C51_cw_convex",
    "Srep.C51_flip"
   ],
   "note": "isconvex, iscw, isccw and cps modelled; all statements for any correctly rounded arithmetic; flipping uses that hashes separate the endpoints (HashOK)."
  },
  {
   "property": "C52",
   "status": "proved",
   "theorems": [
    "Srep.C52_wrong",
    "Srep.C52_spec"
   ],
   "note": "The expected property (iscw decides the orientation) is false; two concrete valid polygons of positive signed area refute it; C52_spec says what is computed instead."
  },
  {
   "property": "C53",
   "status": "proved",
   "theorems": [
    "Srep.C53_vertex",
    "Srep.C53_external"
   ],
   "note": "Random targets are an arbitrary stream."
  },
  {
   "property": "C54",
   "status": "proved",
   "theorems": [
    "Srep.C54_boundary",
    "Srep.C54_attained"
   ],
   "note": "Two independent streams for the two evaluations; C54_attained shows the only way to True is possible."
  },
  {
   "property": "C55",
   "status": "proved",
   "theorems": [
    "Srep.C55_outside",
    "Srep.C55_outside_exact"
   ],
   "note": "C55_outside for any correctly rounded arithmetic with the exact margin as hypothesis; C55_outside_exact spells the margin out."
  },
  {
   "property": "C56",
   "status": "proved",
   "theorems": [
    "Srep.C56_random_answer"
   ],
   "note": "Negative result with a concrete square and two admissible target sequences (binary64)."
  },
  {
   "property": "C57",
   "status": "proved",
   "theorems": [
    "Srep.C57_area",
    "Srep.C57_invariant",
    "Srep.C57_nonneg",
    "Srep.C57_flat_raises"
   ],
   "note": "Exact arithmetic for the value; reversal invariance and non-negativity for any correctly rounded arithmetic; C57_flat_raises is a binary64 counterexample to the intended behaviour for flat triangles."
  },
  {
   "property": "C58",
   "status": "proved",
   "theorems": [
    "Srep.C58_laws",
    "Srep.C58_iff",
    "Srep.C58_near_vertices"
   ],
   "note": "Vertex sets compared as sorted lists, as in the code; separation hypothesis is needed (C58_near_vertices)."
  },
  {
   "property": "C59",
   "status": "proved",
   "theorems": [
    "Srep.C59_none",
    "Srep.C59_unknown",
    "Srep.C59_delaunay",
    "Srep.C59_cached_random"
   ],
   "note": "ear_clipping and triangle_mesh are parameters; the Delaunay branch always raises AttributeError (attribute delaunay is never set) after emptying the stored triangles."
  },
  {
   "property": "C60",
   "status": "proved",
   "theorems": [
    "Srep.C60_swap",
    "Srep.C60_exact",
    "Srep.C60_ccw",
    "Srep.C60_key",
    "Srep.C60_index"
   ],
   "note": "Swap in any correctly rounded arithmetic; rotation and value in exact arithmetic; the bound after makeCounterClockwise holds up to the tolerance EPS."
  },
  {
   "property": "C61",
   "status": "proved",
   "theorems": [
    "Srep.C61_sound",
    "Srep.C61_consistent",
    "Srep.C61_no_error",
    "Srep.C61_area",
    "Srep.C61_signed_area"
   ],
   "note": "Soundness and consistency of the table in every arithmetic. The total signed area is not kept (C61_signed_area, witness); the total area is (C61_area)."
  },
  {
   "property": "C62",
   "status": "proved",
   "theorems": [
    "Srep.C62_mutates",
    "Srep.C62_no_connection",
    "Srep.C62_gap"
   ],
   "note": "add with any number of other polylines, none of which is self; documented connecting segment does not exist."
  },
  {
   "property": "C63",
   "status": "proved",
   "theorems": [
    "Srep.C63_crossing",
    "Srep.C63_valid",
    "Srep.C63_move"
   ],
   "note": "crossing_lines and isvalid for any correctly rounded arithmetic; translation in exact arithmetic, for purged polylines with separated points."
  },
  {
   "property": "C64",
   "status": "proved",
   "theorems": [
    "Srep.C64_square"
   ],
   "note": "Exact arithmetic, a/2 at least 1e-5, all coordinates within 1e11 (sentinel of bounding_box)."
  },
  {
   "property": "C65",
   "status": "proved",
   "theorems": [
    "Srep.C65_numbers",
    "Srep.C65_same",
    "Srep.C65_count",
    "Srep.C65_adjacency"
   ],
   "note": "For every rounding of the arithmetic; 'same number iff same location' needs endpoints apart by the equality tolerance. The dict of points_numbered is the position in the list of the set point_set."
  },
  {
   "property": "C66",
   "status": "proved",
   "theorems": [
    "Srep.C66_handshake",
    "Srep.C66_symmetric",
    "Srep.C66_odd_even",
    "Srep.C66_shared"
   ],
   "note": "Rounding arithmetic, separated endpoints. Segments with equal ends do not count, as neighbour skips them."
  },
  {
   "property": "C67",
   "status": "proved",
   "theorems": [
    "Srep.C67_check",
    "Srep.C67_odd_branches",
    "Srep.C67_group",
    "Srep.C67_degree_ten"
   ],
   "note": "C67_check characterises the degree checks for all degree lists, C67_group ties them to isvalid on memory, C67_degree_ten is the witness of the hole."
  },
  {
   "property": "C68",
   "status": "proved",
   "theorems": [
    "Srep.C68_empty"
   ],
   "note": "The code tests the length of an empty list literal; the intersection of sets is a parameter."
  },
  {
   "property": "C69",
   "status": "proved",
   "theorems": [
    "Srep.C69_reason",
    "Srep.C69_removed",
    "Srep.C69_skipped"
   ],
   "note": "Polygons are abstract with their area, the areas of their triangles and an equality; the removal while iterating is modelled. The triangulation itself and the preceding loose_equal removal are not part of this model."
  },
  {
   "property": "C70",
   "status": "proved",
   "theorems": [
    "Srep.C70_examined",
    "Srep.C70_segments",
    "Srep.C70_walk",
    "Srep.C70_accepts",
    "Srep.C70_torn"
   ],
   "note": "On memory with shared segment objects; iteration orders of sets are arbitrary permutations. C70_torn is the witness of a torn loop."
  },
  {
   "property": "C71",
   "status": "proved",
   "theorems": [
    "Srep.C71_checker",
    "Srep.C71_symmetric",
    "Srep.C71_self",
    "Srep.C71_too_many"
   ],
   "note": "dicts and patterns as lists of (key, list of rooms) with set comparison; the rooms may be listed in any order; letters as the 26 indices"
  },
  {
   "property": "C72",
   "status": "proved",
   "theorems": [
    "Srep.C72_outline",
    "Srep.C72_symmetric",
    "Srep.C72_corners",
    "Srep.C72_valid_on_axis",
    "Srep.C72_valid_cylinder",
    "Srep.C72_valid_exact",
    "Srep.C72_crooked",
    "Srep.C72_valid_sound"
   ],
   "note": "outline and purge on the heap model; every rounding arithmetic for structure, axis symmetry, and validity on the axis and of cylinders; exact arithmetic for validity anywhere; the binary64 failure is C72_crooked. The classification of the reference points in the constructor is not part of mantelNew (see C94)"
  },
  {
   "property": "C73",
   "status": "proved",
   "theorems": [
    "Srep.C73_never_valid",
    "Srep.C73_outline",
    "Srep.C73_left_behind"
   ],
   "note": "validity for every arithmetic without hypotheses; the graph left behind by a move for every rounding arithmetic on the heap model"
  },
  {
   "property": "C74",
   "status": "proved",
   "theorems": [
    "Srep.C74_reference_points",
    "Srep.C74_off_grid",
    "Srep.C74_off_grid_binary64"
   ],
   "note": "exact arithmetic but with the rounding of stored coordinates; C74_off_grid is the failure for off-grid pos_h, C74_off_grid_binary64 shows it in binary64"
  },
  {
   "property": "C75",
   "status": "proved",
   "theorems": [
    "Srep.C75_degenerate",
    "Srep.C75_no_zero_division",
    "Srep.C75_line",
    "Srep.C75_tangent"
   ],
   "note": "exact statement C75_line; error clauses for all rounding arithmetics; binary64 tangent witness"
  },
  {
   "property": "C76",
   "status": "proved",
   "theorems": [
    "Srep.C76_restores_cycle",
    "Srep.C76_direction"
   ],
   "note": "Any correctly rounded arithmetic, points at least the tolerance apart."
  },
  {
   "property": "C77",
   "status": "proved",
   "theorems": [
    "Srep.C77_flip"
   ],
   "note": "Exact arithmetic; of atan2 only the law IsExactAngle is used, proved for the real arcus function."
  },
  {
   "property": "C78",
   "status": "proved",
   "theorems": [
    "Srep.C78_terminates",
    "Srep.C78_delaunay"
   ],
   "note": "Exact arithmetic with IsExactAngle. Local condition at each inner edge; the global empty-circle property follows in C121."
  },
  {
   "property": "C79",
   "status": "proved",
   "theorems": [
    "Srep.C79_assert",
    "Srep.C79_value",
    "Srep.C79_self",
    "Srep.C79_collinear",
    "Srep.C79_not_symmetric"
   ],
   "note": "Assertion and reflexivity in every arithmetic; values in exact arithmetic; witness in binary64 for the missing symmetry."
  },
  {
   "property": "C80",
   "status": "proved",
   "theorems": [
    "Srep.C80_cases",
    "Srep.C80_symm",
    "Srep.C80_on_line",
    "Srep.C80_sound",
    "Srep.C80_t_junction",
    "Srep.C80_box"
   ],
   "note": "Case split, symmetry and the minimality of the box hold for every correctly rounded arithmetic; the geometric meaning for exact arithmetic."
  },
  {
   "property": "C81",
   "status": "proved",
   "theorems": [
    "Srep.C81_single_loop",
    "Srep.C81_mixed_walls"
   ],
   "note": "Memory model with deep copies and arbitrary set orders; head-to-tail loops of fewer than 250 segments (the limit of order). C81_mixed_walls is a concrete execution."
  },
  {
   "property": "C82",
   "status": "proved",
   "theorems": [
    "Srep.C82_overlaps"
   ],
   "note": "The intersection of two sets is a parameter of which only symmetry of emptiness is used."
  },
  {
   "property": "C83",
   "status": "proved",
   "theorems": [
    "Srep.C83_target_independent",
    "Srep.C83_same_answer",
    "Srep.C83_one_good",
    "Srep.C83_ends",
    "Srep.C83_may_not_end"
   ],
   "note": "Exact arithmetic; general position is a hypothesis on the targets, the vertices are assumed different and separated. That the loop may go on for ever is proved for every polygon with two disagreeing targets, with a square in binary64 as the concrete case."
  },
  {
   "property": "C84",
   "status": "proved",
   "theorems": [
    "Srep.C84_inside",
    "Srep.C84_outside",
    "Srep.C84_clockwise",
    "Srep.C84_on_side",
    "Srep.C84_right_and_left"
   ],
   "note": "At most one side passes the line of sight in each direction, and a point inside sees exactly one of them ahead. Same hypotheses on the targets as C83."
  },
  {
   "property": "C85",
   "status": "proved",
   "theorems": [
    "Srep.C85_zero_box",
    "Srep.C85_targets",
    "Srep.C85_negative",
    "Srep.C85_centre_external"
   ],
   "note": "The last part is a failure of the documented meaning (binary64 witness, all random choices)."
  },
  {
   "property": "C86",
   "status": "proved",
   "theorems": [
    "Srep.C86_mirror_once",
    "Srep.C86_mirror_exact",
    "Srep.C86_mirror_twice"
   ],
   "note": "Heap model; the first part holds in every correctly rounded arithmetic. The polyline is either not purged or purged and sharing its endpoints, the two states the class can be in."
  },
  {
   "property": "C87",
   "status": "proved",
   "theorems": [
    "Srep.C87_rotate",
    "Srep.C87_error",
    "Srep.C87_quarter",
    "Srep.C87_about_xy",
    "Srep.C87_centre"
   ],
   "note": "Heap model, exact arithmetic, cosine and sine arbitrary numbers with c*c + s*s = 1 where needed (true of the real functions)."
  },
  {
   "property": "C88",
   "status": "proved",
   "theorems": [
    "Srep.C88_average",
    "Srep.C88_empty",
    "Srep.C88_vertices_only"
   ],
   "note": "Exact arithmetic. The binary64 value is shown for one triangle."
  },
  {
   "property": "C89",
   "status": "proved",
   "theorems": [
    "Srep.C89_add",
    "Srep.C89_boundary",
    "Srep.C89_visible",
    "Srep.C89_planar",
    "Srep.C89_none",
    "Srep.C89_first",
    "Srep.C89_first_planar"
   ],
   "note": "The combinatorial part holds in any arithmetic. That the seen edges are consecutive is a hypothesis (true for a convex boundary). The random order of Python sets is the order of the list, which is arbitrary."
  },
  {
   "property": "C90",
   "status": "proved",
   "theorems": [
    "Srep.C90_triangulation",
    "Srep.C90_distinct",
    "Srep.C90_given_up",
    "Srep.C90_too_many",
    "Srep.C90_convex_done",
    "Srep.C90_no_error",
    "Srep.C90_area",
    "Srep.C90_torn"
   ],
   "note": "triangle_ok is an arbitrary function of the state that returns (its ray casting may not end, C56); C90_convex_done assumes of it only that it accepts triangles of three consecutive corners of the convex polygons left over, which C134/C135 prove of the function in the code. The corner chosen is an arbitrary member of point_set. The deep copy the function works on is the heap it starts from."
  },
  {
   "property": "C91",
   "status": "proved",
   "theorems": [
    "Srep.C91_walls",
    "Srep.C91_right",
    "Srep.C91_foreign",
    "Srep.C91_raises",
    "Srep.C91_two_pairs",
    "Srep.C91_hub"
   ],
   "note": "C91_walls gives the walls of every room for any parts per cycle and any containment relation; C91_right and C91_foreign are the two sides of it; C91_raises is the exact condition for IndexError, C91_two_pairs and C91_hub are consequences. The cycles, their parts and the containment are inputs (C92 is about the containment)."
  },
  {
   "property": "C92",
   "status": "proved",
   "theorems": [
    "Srep.C92_contains",
    "Srep.C92_strictly",
    "Srep.C92_dict",
    "Srep.C92_transitive",
    "Srep.C92_not_mutual",
    "Srep.C92_shared_vertex",
    "Srep.C92_empty",
    "Srep.C92_no_parts",
    "Srep.C92_notch",
    "Srep.C92_touching_sides"
   ],
   "note": "exact arithmetic: the hull polygon of C34 is strictly convex and its inside is the inside of the hull (given by its supporting lines), the ray test is C84; the failures C92_notch and C92_touching_sides are witnesses in binary64"
  },
  {
   "property": "C93",
   "status": "proved",
   "theorems": [
    "Srep.C93_drawing",
    "Srep.C93_inside",
    "Srep.C93_outside",
    "Srep.C93_twice",
    "Srep.C93_turned"
   ],
   "note": "exact arithmetic; C93_drawing for all closed polygons without doubled sides, C93_inside and C93_outside for strictly convex ones, C93_twice and C93_turned for doubled sides"
  },
  {
   "property": "C94",
   "status": "proved",
   "theorems": [
    "Srep.C94_offsets",
    "Srep.C94_points",
    "Srep.C94_sorted",
    "Srep.C94_bottom_points",
    "Srep.C94_bottom_sorted",
    "Srep.C94_targets_above",
    "Srep.C94_below_ground"
   ],
   "note": "exact arithmetic with coordinates rounded to 8 decimals; C94_offsets, C94_points and C94_bottom_points give the points, C94_sorted and C94_bottom_sorted their classification by the random test (C93), C94_targets_above when the targets are above; C94_below_ground is a witness in binary64"
  },
  {
   "property": "C95",
   "status": "proved",
   "theorems": [
    "Srep.C95_kept",
    "Srep.C95_closed",
    "Srep.C95_one_round"
   ],
   "note": "C95_kept under the condition that points that are == are equal, C95_closed without any condition, C95_one_round for the tail"
  },
  {
   "property": "C96",
   "status": "proved",
   "theorems": [
    "Srep.C96_recorded",
    "Srep.C96_no_points",
    "Srep.C96_skirt",
    "Srep.C96_plain"
   ],
   "note": "C96_recorded is the rule for any answers of the random tests; C96_no_points and C96_skirt hold for every run that ends; C96_plain is a witness in binary64. Not modelled: triangulate, whose result is not used (an exception in it would end raum_intex), and the deep copy"
  },
  {
   "property": "C97",
   "status": "proved",
   "theorems": [
    "Srep.C97_room",
    "Srep.C97_vessel"
   ],
   "note": "exact arithmetic with coordinates rounded to 8 decimals; C97_room for any convex room, C97_vessel from the dimensions of the parts (with C74, C93, C94, C95). The cycle that makes the room is an input (C91)"
  },
  {
   "property": "C98",
   "status": "proved",
   "theorems": [
    "Srep.C98_both",
    "Srep.C98_level",
    "Srep.C98_left_only",
    "Srep.C98_right_only",
    "Srep.C98_none",
    "Srep.C98_above_below",
    "Srep.C98_itself",
    "Srep.C98_head",
    "Srep.C98_end",
    "Srep.C98_invalid",
    "Srep.C98_jacket_inner_first",
    "Srep.C98_jacket_outer_first",
    "Srep.C98_head_shell_end",
    "Srep.C98_graph",
    "Srep.C98_no_graph",
    "Srep.C98_subdivision",
    "Srep.C98_answers"
   ],
   "note": "exact arithmetic with coordinates rounded to 8 decimals. C98_both, C98_level, C98_left_only, C98_right_only, C98_none, C98_above_below, C98_end give the whole state afterwards, C98_jacket_inner_first and C98_jacket_outer_first run cut_by_raumende; C98_answers needs representable points of the cut (always so for cylinders), C98_subdivision is the general fact. Graph.renew is modelled without the new classification of reference points"
  },
  {
   "property": "C99",
   "status": "proved",
   "theorems": [
    "Srep.C99_foreign",
    "Srep.C99_input",
    "Srep.C99_triangles",
    "Srep.C99_distinct",
    "Srep.C99_area",
    "Srep.C99_convex",
    "Srep.C99_no_triangles",
    "Srep.C99_stale",
    "Srep.C99_square",
    "Srep.C99_zero",
    "Srep.C99_notch"
   ],
   "note": "`triangle_mesh`, `detailled_area` and `area` are modelled with the library `triangle` as an arbitrary function; the theorems assume of its answer only what is stated (triangles between the vertices that fit together, no new vertices). Exact arithmetic for the positive part, binary64 for the wrong area of the square."
  },
  {
   "property": "C100",
   "status": "proved",
   "theorems": [
    "Srep.C100_overlap",
    "Srep.C100_symm",
    "Srep.C100_enclosed",
    "Srep.C100_touch",
    "Srep.C100_disjunct",
    "Srep.C100_polygons",
    "Srep.C100_untriangulated",
    "Srep.C100_cases",
    "Srep.C100_both",
    "Srep.C100_classes",
    "Srep.C100_walls"
   ],
   "note": "exact arithmetic with coordinates rounded to 8 decimals for the five general theorems (C100_overlap, C100_symm, C100_enclosed, C100_touch, C100_disjunct) and C100_polygons; C100_both and C100_classes are binary64 runs. `tell_relpos`, which only names the results, is not modelled."
  },
  {
   "property": "C101",
   "status": "proved",
   "theorems": [
    "Srep.C101_arc",
    "Srep.C101_radius",
    "Srep.C101_cw",
    "Srep.C101_asserts",
    "Srep.C101_cw_circle"
   ],
   "note": "real numbers with the real sine and cosine and coordinates rounded to 8 decimals (C101_arc, C101_radius, C101_cw); C101_asserts holds for every runtime; C101_cw_circle is a binary64 run with the binary64 values of sine and cosine at multiples of 90 degrees."
  },
  {
   "property": "C102",
   "status": "proved",
   "theorems": [
    "Srep.C102_outline",
    "Srep.C102_other",
    "Srep.C102_zero",
    "Srep.C102_negative",
    "Srep.C102_crown",
    "Srep.C102_highest",
    "Srep.C102_height"
   ],
   "note": "Modelled: `make_segments` of `TorispherischesBoden` on objects (radii, angle, three arcs, new Walls on the Points of the arcs, cylinders and base with Points of their own, turning, moving) and `purge`; the drawing of the standard is a separate spec (Spec/Head). Exact real arithmetic and trigonometry; the graph of the head is C74. The lower bounds on d and h1 keep the vertices further apart than the tolerance of Point.__eq__."
  },
  {
   "property": "C103",
   "status": "proved",
   "theorems": [
    "Srep.C103_valid",
    "Srep.C103_convex",
    "Srep.C103_internal",
    "Srep.C103_size"
   ],
   "note": "Model: `headValid` (isvalid of the polyline of the same segment objects), `headSize`, on top of `headNew` of C102. C103_valid: by C63_valid it is enough that no two sides cross; neighbours share an end point object, the other sides are in different vertical or horizontal strips (vertices move to the left by at least 4e-5 from vertex 1 to 15, base line 4e-5 lower), against 3e-8 of deviation per coordinate. C103_convex: normals of the sides turn by at least the angle `turn` (sine at least 1/10) from side to side and by less than 180 degrees altogether, so cross products of any two sides exceed the deviation; gives `ConvexCcw` and with C51 isconvex True and iscw False. C103_internal applies C84 to it; the example beside it gives an inside point and a target in general position for every upright head. Real arithmetic (`Rt.real`)."
  },
  {
   "property": "C104",
   "status": "proved",
   "theorems": [
    "Srep.C104_plate",
    "Srep.C104_wall",
    "Srep.C104_valid",
    "Srep.C104_internal",
    "Srep.C104_points",
    "Srep.C104_divides",
    "Srep.C104_rooms",
    "Srep.C104_vessel",
    "Srep.C104_two_rooms",
    "Srep.C104_index"
   ],
   "note": "Model: `plateNew`, `plateIntex`, `plateValid`, `plateInternal`, `platePart`, `endPart` (Model/Flat). C104_plate, C104_wall and C104_valid are about the new objects, C104_index the exceptions, C104_internal and C104_points about the points, C104_divides, C104_rooms and C104_vessel about raum_intex (with C93, C94, C95, C96); C104_two_rooms is a concrete run with a flat head between two rooms. Exact arithmetic with coordinates rounded to 8 decimals; the cycles that make the rooms are inputs (C91)."
  },
  {
   "property": "C105",
   "status": "proved",
   "theorems": [
    "Srep.C105_missing",
    "Srep.C105_iff",
    "Srep.C105_unknown",
    "Srep.C105_mantel",
    "Srep.C105_diameters",
    "Srep.C105_skirt",
    "Srep.C105_plate",
    "Srep.C105_head",
    "Srep.C105_tube_sheet"
   ],
   "note": "Model: `fromDict` and its instances (Model/FromDict); `hasattr` is an arbitrary function, which may raise. The order of a TypeError and an IndexError for several wrong values is simplified. C105_skirt uses C72 and C73. KegelKrempe.from_dict has the same form (C105_missing, C105_iff, C105_unknown hold for every constructor)."
  },
  {
   "property": "C106",
   "status": "proved",
   "theorems": [
    "Srep.C106_rejected",
    "Srep.C106_built",
    "Srep.C106_arguments",
    "Srep.C106_short",
    "Srep.C106_cylinder",
    "Srep.C106_outside",
    "Srep.C106_area",
    "Srep.C106_convex",
    "Srep.C106_overlap",
    "Srep.C106_high_cone_rejected"
   ],
   "note": "Model/Krempe.lean (make_segments and __init__ for r = 0, on memory objects, with deepcopy, mirror_vertical, purge and order). C106_built and C106_rejected give both directions of the acceptance test; C106_short, C106_cylinder say when it cannot fail; C106_high_cone_rejected is a binary64 witness of the unexpected AssertionError. C106_area, C106_convex, C106_overlap are about the outlines C106_built gives. Not modelled: r > 0, and whether the classification of the reference points made by graph.renew() raises."
  },
  {
   "property": "C107",
   "status": "proved",
   "theorems": [
    "Srep.C107_offsets",
    "Srep.C107_points",
    "Srep.C107_sorted",
    "Srep.C107_graph"
   ],
   "note": "Model/KrempeIntex.lean. C107_offsets gives the distances (exact arithmetic), C107_points the side of each of the four points of a wall, C107_sorted the result of the classification for every listing of the segments (SameDrawing) and every sequence of ray targets that satisfies GoodTarget and Spread, C107_graph the reference points recorded in the graph. exKnuckle_sound shows that the knuckle of the test-suite meets the hypotheses; a binary64 example runs one classification."
  },
  {
   "property": "C108",
   "status": "proved",
   "theorems": [
    "Srep.C108_process",
    "Srep.C108_area",
    "Srep.C108_corners",
    "Srep.C108_result",
    "Srep.C108_loose_end",
    "Srep.C108_small"
   ],
   "note": "Model/Collinear.lean (remove_collinear_points on memory objects with deepcopy and order). Spec/Collinear.lean defines thin, polyCorners and shoelace without reference to the code. C108_process is the step-by-step effect for every rounding, C108_area and C108_corners evaluate it in exact arithmetic, C108_result puts both together for polygons listed in order with at most four decimals, C108_small is a binary64 witness of the AssertionError. Not covered: segment lists that are not a directed ring (mixed directions, open chains), where a vertex may be looked at twice."
  },
  {
   "property": "C109",
   "status": "proved",
   "theorems": [
    "Srep.C109_angles",
    "Srep.C109_sum",
    "Srep.C109_quality",
    "Srep.C109_thin_raises"
   ],
   "note": "Model/TriAngles.lean. The angles are compared with Mathlib's EuclideanGeometry.angle in the complex plane (angleDeg, degrees); C109_angles, C109_sum, C109_quality are for Rt.real; C109_thin_raises is a binary64 witness of the ValueError of acos. The warning printed for a wrong sum is not modelled."
  },
  {
   "property": "C110",
   "status": "proved",
   "theorems": [
    "Srep.C110_mixed_loop",
    "Srep.C110_outline",
    "Srep.C110_vessel",
    "Srep.C110_open_chain"
   ],
   "note": "findLoops (both stages, all set orders) on sides of a ring; the walk is followed round by round with the invariants Fwd and Bwd of Lemmas/RingWalk.lean (a walk may turn segments and may stop at a branch that is none), the combinations stage with counts of corners (Lemmas/RingCombs.lean). The outline version and the vessel are Props/LoopsVessel.lean; the example is a vessel of diameter 2000 with memory of its own. The open chain is computed with exRt for two explicit set orders."
  },
  {
   "property": "C111",
   "status": "proved",
   "theorems": [
    "Srep.C111_listed",
    "Srep.C111_diagonal_listed",
    "Srep.C111_group_cycles",
    "Srep.C111_group_cycles_long",
    "Srep.C111_group_cycles_open",
    "Srep.C111_group_cycles_loose",
    "Srep.C111_room_names",
    "Srep.C111_no_loop",
    "Srep.C111_cached",
    "Srep.C111_one_loop",
    "Srep.C111_all_parts",
    "Srep.C111_one_room",
    "Srep.C111_vessel"
   ],
   "note": "Model: Model/Rooms.lean (from find_loops over keep_base_polygons of at most one polygon, BehalterGraph.cycles, segments_in_cycles and PolygonGroup.cycles to raum_erstellen); no part is a raumende. The choice among two or more polygons is a parameter, which does not matter here; the triangulation library is arbitrary. The wall segments of the parts are arbitrary segments that draw a closed outline."
  },
  {
   "property": "C112",
   "status": "proved",
   "theorems": [
    "Srep.C112_candidates",
    "Srep.C112_choice",
    "Srep.C112_loose_last",
    "Srep.C112_loose_missed",
    "Srep.C112_no_loose",
    "Srep.C112_kept",
    "Srep.C112_left_out",
    "Srep.C112_rooms_and_outline",
    "Srep.C112_rooms_beside",
    "Srep.C112_nested",
    "Srep.C112_three_nested"
   ],
   "note": "Model: Model/KeepBase.lean. The polygons are abstract; equality, loose equality, areas, triangles, clash of triangles and the tests of points are functions without exceptions and with one answer each (overlap of triangles and the tests of points are random in the code, see C100), and order() does not raise. Membership in sets of polygons is an arbitrary answer that does not find absent elements."
  },
  {
   "property": "C113",
   "status": "proved",
   "theorems": [
    "Srep.C113_from_repr",
    "Srep.C113_names",
    "Srep.C113_names_dropped",
    "Srep.C113_from_points",
    "Srep.C113_edgelist",
    "Srep.C113_discontinuity",
    "Srep.C113_next",
    "Srep.C113_next_open"
   ],
   "note": "Model/Lookup.lean; the group look-ups are generic in the polygons and their ==, the others are on segment values and on the heap. points in segments_from_points is a list of Points."
  },
  {
   "property": "C114",
   "status": "proved",
   "theorems": [
    "Srep.C114_path",
    "Srep.C114_result",
    "Srep.C114_errors",
    "Srep.C114_collinear",
    "Srep.C114_not_shortest"
   ],
   "note": "Model/Pointset.lean; the iteration order of the set is a parameter. The path is modelled with rounding, the optimality on a line is in exact arithmetic."
  },
  {
   "property": "C115",
   "status": "proved",
   "theorems": [
    "Srep.C115_path",
    "Srep.C115_same_region",
    "Srep.C115_across",
    "Srep.C115_outer_region"
   ],
   "note": "Full statement in exact arithmetic, for closed polygons of any shape listed in any order and direction. The random targets of is_internal_point are assumed to be in general position (GoodTarget, Spread), as in C83 and C93. Paths are defined in Spec/Region without reference to the model; no genericity of the ray is needed in the proof, which counts half-open crossings. The example is a U with a point in its notch and one in its arm."
  },
  {
   "property": "C116",
   "status": "proved",
   "theorems": [
    "Srep.C116_errors",
    "Srep.C116_cut"
   ],
   "note": "Full statement in exact arithmetic (coordinates are still rounded to 8 decimals). Points are modelled by value; that the ends of the constraints are shared objects is not part of the claim."
  },
  {
   "property": "C117",
   "status": "proved",
   "theorems": [
    "Srep.C117_rotation",
    "Srep.C117_matrix",
    "Srep.C117_simplify",
    "Srep.C117_simplify_closed",
    "Srep.C117_ordered_copy_keeps",
    "Srep.C117_ordered_copy_true"
   ],
   "note": "Full statement. cos^2 + sin^2 = 1 is a hypothesis on the math library, met by the real functions. Sure points without a segment (segment=None) are not modelled. The deep copy duplicates all of memory, as in C37."
  },
  {
   "property": "C118",
   "status": "proved",
   "theorems": [
    "Srep.C118_count",
    "Srep.C118_overlaps",
    "Srep.C118_disjunct",
    "Srep.C118_degree"
   ],
   "note": "The intersection of two sets of parts is any function with the members of the intersection, in any order without repetition. Names are values of any type with equality."
  },
  {
   "property": "C119",
   "status": "proved",
   "theorems": [
    "Srep.C119_meets",
    "Srep.C119_index"
   ],
   "note": "C119_meets is in exact arithmetic with rounded crossing points; C119_index in any arithmetic. The method is not called by the triangulation itself."
  },
  {
   "property": "C120",
   "status": "proved",
   "theorems": [
    "Srep.C120_triangulate",
    "Srep.C120_all_points",
    "Srep.C120_corners",
    "Srep.C120_few",
    "Srep.C120_edges",
    "Srep.C120_keys",
    "Srep.C120_pop_order",
    "Srep.C120_flat"
   ],
   "note": "C120_triangulate (any order of the sets), C120_all_points (ascending pop), C120_edges and C120_keys (the keys of the table, by double counting; Lemmas/TiledCount), C120_corners (any pop order), C120_pop_order and C120_flat (witnesses of what fails). The invariant is Mesh.Tiled (Lemmas/Tiled, TiledAdd, TiledRun); Mesh.Triangulates in Spec/Tiling is the independent specification, using Mathlib's convexHull. Exact arithmetic and exact atan2. That CPython pops small integers in ascending order is not modelled but an explicit hypothesis. The points are taken as they are after update_points; a second call on the same object is C128."
  },
  {
   "property": "C121",
   "status": "proved",
   "theorems": [
    "Srep.C121_empty_circle",
    "Srep.C121_characterised",
    "Srep.C121_order_free",
    "Srep.C121_square"
   ],
   "note": "C121_empty_circle, C121_characterised, C121_order_free; C121_square is the witness for points on a circle. From C120's invariant: the triangle beyond an edge exists (Lemmas/TiledNext), the power of a point decreases from a triangle to its neighbour on the side of the point (Lemmas/TiledEmpty), two triangles with empty circles and a common inner point are equal (empty_unique). Spec/Circle is the independent specification. Exact arithmetic; the angle law IsFineAngle is proved for the reals (Rt.real_isFineAngle). The tolerance 1e-8 of the flip test is the reason for \"nearly\"."
  },
  {
   "property": "C122",
   "status": "proved",
   "theorems": [
    "Srep.C122_loops",
    "Srep.C122_one_room",
    "Srep.C122_answers",
    "Srep.C122_intex",
    "Srep.C122_parts"
   ],
   "note": "The outline of a stack is built in Spec/Tower, independently of the code. C122_loops and C122_one_room: loops and rooms. C122_answers: which room is recorded for which part, for rooms with any closed outline, by the parity of the sides to the right of the reference points. C122_intex: the recorded rooms of a stack, also with a waist; C122_parts: the constructors do not raise. The triangulation inside Behalter enters as a hypothesis (it ends without an exception), as in C111. Sixty shells is the limit for which the guard of 250 segments in find_loops cannot strike; the guard itself is in C110. Example: two cones with a waist, a head and a plate."
  },
  {
   "property": "C123",
   "status": "proved",
   "theorems": [
    "Srep.C123_cover",
    "Srep.C123_few",
    "Srep.C123_exists",
    "Srep.C123_decided"
   ],
   "note": "AwayFrom, GoodTarget and Spread are geometric; the random numbers of the code enter by Target (the admissible values, C85). C123_cover: where unsuitable ordinates lie; C123_few: how many there can be among ordinates with given distances; C123_exists: an admissible suitable target for several points at once; C123_decided: with it the test ends in the first round. Nothing is assumed on the distribution of the random numbers; a bound on the share of unsuitable ordinates follows from C123_cover, it is not stated as a probability. Example: a polygon in the shape of a U and three points."
  },
  {
   "property": "C124",
   "status": "proved",
   "theorems": [
    "Srep.C124_count",
    "Srep.C124_target_independent",
    "Srep.C124_one_good",
    "Srep.C124_convex",
    "Srep.C124_misread",
    "Srep.C124_no_interior",
    "Srep.C124_far_square"
   ],
   "note": "Any correctly rounded arithmetic (IsRounding, RootOk: squares and roots correctly rounded in one direction); binary64 satisfies both. The margin a*a*b <= 2^15 |turn| is sufficient, not sharp. C124_far_square and C124_no_interior state the failure; C124_misread is the reason."
  },
  {
   "property": "C125",
   "status": "proved",
   "theorems": [
    "Srep.C125_error",
    "Srep.C125_exact",
    "Srep.C125_right",
    "Srep.C125_left",
    "Srep.C125_parallel",
    "Srep.C125_exact_tests",
    "Srep.C125_convex",
    "Srep.C125_hull",
    "Srep.C125_hull_exact",
    "Srep.C125_hull_polyline"
   ],
   "note": "Any correctly rounded arithmetic. The margin is sufficient, not sharp; without one the claims are false (C34_float_member_outside). C125_exact, C125_exact_tests and C125_hull_exact assume that the rounding keeps whole multiples of powers of two below 53 bits (HasDyadics, proved for binary64)."
  },
  {
   "property": "C126",
   "status": "proved",
   "theorems": [
    "Srep.C126_left",
    "Srep.C126_complete",
    "Srep.C126_missed",
    "Srep.C126_twice"
   ],
   "note": "findLoops on the memory model. Simple loop = IsCycleOf (different corners, each segment between consecutive corners, in either direction). Lemmas/Complete*.lean follow loopsTry/loopsCombs/loopsComb with the invariant CInv: a segment removed from the graph never leaves two other remaining segments at its points, so no loop that is still to be found loses a segment. Validity of the closed chains is a hypothesis, as in C110 (it is a question of geometry only; plValid_clear discharges it for polygons whose sides are clear of each other). C126_missed and C126_twice are computed with exRt for explicit set orders; an example shows that the hypotheses of C126_complete hold for the same square of Walls."
  },
  {
   "property": "C127",
   "status": "proved",
   "theorems": [
    "Srep.C127_plate",
    "Srep.C127_valid",
    "Srep.C127_shell",
    "Srep.C127_loops",
    "Srep.C127_one_room"
   ],
   "note": "Theorems assume only IsRounding (no IsExact). C127_valid: sides that share an end or lie in strips 1e-6 apart (KeepClear). C127_shell: what mantelNew makes, from C72_outline; the remaining condition of isvalid is the one that fails in C72_crooked. C127_loops and C127_one_room: outline of the stack built in Spec/Bands from the coordinates of the corners, independently of the code; the Walls are those of C127_shell and graphrepr_segments of a head; at a flat end the Wall is given by its two corners, and C127_plate shows that plateNew makes this Wall if pos_h is the float nearest to a/10^8 and d the float nearest to 2k/10^8 (a, k integers); other diameters are not covered for flat ends. As in C122 the group is any memory whose segments have these values. The triangulation is the external library (see C111). Example: two cones in binary64 with pos_v 0.1 and 0.1 + 0.2."
  },
  {
   "property": "C128",
   "status": "proved",
   "theorems": [
    "Srep.C128_first",
    "Srep.C128_more",
    "Srep.C128_three",
    "Srep.C128_value",
    "Srep.C128_raises",
    "Srep.C128_second"
   ],
   "note": "Model: `triangulateOn` (Model/Again), the call on an object in any state; C128_first: on a new object it is `delaunay` of C120. C128_more (triangles accumulate), C128_three, C128_value (one `addPoint`), C128_raises (whole call; the order of the edge set is a hypothesis because an earlier flip could overwrite the entry of the edge) and C128_second (concrete, with the first call from C120_flat). The keys of the table are any list with exactly the keys of a finite table (KeysOf). What addEdge does with an edge whose two ends are the same number (same list object appended to twice) is modelled for this. A printed message and a sleep before the ValueError are not modelled."
  },
  {
   "property": "C129",
   "status": "proved",
   "theorems": [
    "Srep.C129_drawing",
    "Srep.C129_answers",
    "Srep.C129_intex",
    "Srep.C129_parts",
    "Srep.C129_points"
   ],
   "note": "Any correctly rounded arithmetic (IsRounding, RootOk). Composition of the float versions of C74-C76, C84, C104, C122 and C124: C129_answers (the parity of crossings is that of the drawing, also for segments in any order), Lemmas/IntexFl and HeadFl (reference points of shells and heads with rounding errors), C129_intex. The targets have the margin of C124 (SafeTarget). |d1 - d0| <= 20 h and d <= 50 height are sufficient, not sharp; some condition is needed because the offset of a point is fixed or 1/50000 (C75, C104). IntexFloatEx: a vessel with decimal dimensions in binary64 that meets all hypotheses, with the table recorded."
  },
  {
   "property": "C130",
   "status": "proved",
   "theorems": [
    "Srep.C130_arc",
    "Srep.C130_inward",
    "Srep.C130_steep",
    "Srep.C130_rejected",
    "Srep.C130_built",
    "Srep.C130_other",
    "Srep.C130_uncut",
    "Srep.C130_uncut_raises"
   ],
   "note": "Model/KrempeArc.lean models the branch r > 0 of make_segments line by line: the walls are shifted inwards, their intersection is the centre, `arc` with three segments, the two cuts, the checks, the mirrored side, the new corners of the neighbours. C130_arc: the four points of the arc against a circle that touches both walls (Spec/Fillet.lean, no reference to the model). C130_inward: the shell above leans inwards; the code takes unsigned angles, so the arc ends too low and off the wall. C130_steep: AssertionError for every radius. C130_built and C130_rejected: the whole constructor when both cuts are made. C130_uncut: no cut is made, rejected if a rounded end of the arc is off its wall; C130_uncut_raises is a witness. C130_other: r = 0 and r < 0. Not covered: floating-point rounding of sin and cos, cuts within 2e-5 of the arc, and one cut only."
  },
  {
   "property": "C131",
   "status": "proved",
   "theorems": [
    "Srep.C131_simple",
    "Srep.C131_simple_strict",
    "Srep.C131_convex",
    "Srep.C131_strict",
    "Srep.C131_once",
    "Srep.C131_two_rounds",
    "Srep.C131_zigzag"
   ],
   "note": "Convexity is defined by the corners and sides only (Spec/Convex, ConvexCcw of Spec/Ray). C131_convex: both directions; the direction from the turns uses that seen from any side the distance of the corners does not rise any more once it has fallen (Lemmas/Turning), if the polygon goes round once; with at most four corners the turns are all there is to check. C131_strict and C131_once: for polygons without straight corners, going round once and turning left is the same as ConvexCcw, the hypothesis of C84, C93 and others. C131_two_rounds: computed with exRt. C131_simple, C131_simple_strict (real numbers): isvalid with different corners and no turning back gives that sides meet only in common corners (a corner on another side would need another one further along the same line); that such a polygon, turning nowhere to the right, goes round once is proved with the chains between its foremost and hindmost corners as piecewise linear functions (Lemmas/Monotone, by the intermediate value theorem). NoTurnBack is needed: C131_zigzag (computed with exRt). Polygons that turn back are covered by (a) and (b)."
  },
  {
   "property": "C132",
   "status": "proved",
   "theorems": [
    "Srep.C132_points",
    "Srep.C132_added",
    "Srep.C132_never",
    "Srep.C132_hull",
    "Srep.C132_convex",
    "Srep.C132_arrow"
   ],
   "note": "Model/DelaunayOf.lean. C132_points: any rounding arithmetic. C132_added: closed form of the loop, for calls of is_internal_point that end (C83, C84, C93); C132_never: no segments. C132_hull puts C132_points and C120 together; C132_convex uses that a side of the hull of the corners of a strictly convex polygon is a side of the polygon. C132_arrow: outside means that a ray to the right meets no side. Random points are arbitrary points; deep copies are taken to have the same coordinates."
  },
  {
   "property": "C133",
   "status": "proved",
   "theorems": [
    "Srep.C133_ccw",
    "Srep.C133_cw",
    "Srep.C133_answers",
    "Srep.C133_point",
    "Srep.C133_mesh"
   ],
   "note": "Tier B over the reals. C133_ccw and C133_cw give the shape from the answers of isconvex and iscw (through C131_simple_strict), C133_answers the converse, C133_point composes them with C84 (the point must be off the border and the targets in general position; GoodTarget and Spread in Spec/Ray.lean). isvalid need not be assumed: isconvex raises AssertionError for an invalid polygon. C133_mesh composes them with C132 (delaunay_drawn in Props/DelaunayOf.lean)."
  },
  {
   "property": "C134",
   "status": "proved",
   "theorems": [
    "Srep.C134_accept",
    "Srep.C134_accepted",
    "Srep.C134_clipped",
    "Srep.C134_crossing",
    "Srep.C134_outside",
    "Srep.C134_foreign",
    "Srep.C134_convex"
   ],
   "note": "Model/EarOk.lean is triangle_ok of ear_clipping test by test; the ray casting is plInternal (C56, C93) with the random targets as a parameter. The acceptance theorems need exact arithmetic; C134_accepted and C134_clipped (what a round cuts off has passed the test) hold for every arithmetic."
  },
  {
   "property": "C135",
   "status": "proved",
   "theorems": [
    "Srep.C135_convex",
    "Srep.C135_area"
   ],
   "note": "Composition of C90_convex_done (the loop) with C134_convex (the test). EarDraws states what general position means for the targets; sq3_earDraws shows that a single target meets it for a square. Three nearly collinear corners are excluded: chosen_point_ok refuses them."
  },
  {
   "property": "C136",
   "status": "proved",
   "theorems": [
    "Srep.C136_empty",
    "Srep.C136_open",
    "Srep.C136_end",
    "Srep.C136_begin",
    "Srep.C136_close",
    "Srep.C136_build",
    "Srep.C136_built"
   ],
   "note": "Model/Ends.lean on the object model of Model/Heap.lean (addresses of Points and segments). Tier A. The assertion p.isvalid at the start of both append methods is not modelled: only valid Points exist in the heap model."
  },
  {
   "property": "C137",
   "status": "proved",
   "theorems": [
    "Srep.C137_classes",
    "Srep.C137_members",
    "Srep.C137_count",
    "Srep.C137_torn",
    "Srep.C137_mantel",
    "Srep.C137_rooms"
   ],
   "note": "Model/RaumPoly.lean on the rooms of Model/Raum.lean; a part is given by its segments as values. The Mantel of C137_mantel is the one constructed by Model/Vessel.lean (C72). Tier A."
  },
  {
   "property": "C138",
   "status": "proved",
   "theorems": [
    "Srep.C138_raises",
    "Srep.C138_shell",
    "Srep.C138_axis",
    "Srep.C138_plate",
    "Srep.C138_head"
   ],
   "note": "Model/Size.lean: one case per class. That a KegelKrempe never gets an attribute d was read off the source (no assignment in the class, in Hauptteil or in PolygonLine). Tier B for C138_shell, C138_head (the graph of the head; its outline is C103) and C138_plate, Tier A for C138_axis and C138_raises."
  },
  {
   "property": "C139",
   "status": "proved",
   "theorems": [
    "Srep.C139_convex",
    "Srep.C139_mesh",
    "Srep.C139_point"
   ],
   "note": "Exact arithmetic, composition of C34, C84, C132 and C133: C139_convex (shape, corners, half-planes), C139_mesh (Delaunay2d with nr_added_points 0, so that its random numbers do not matter; K any ordered field with an exact angle), C139_point (over the reals; hypotheses on the random targets as for C84, and by C123 such targets exist). In binary64 the hull need not enclose its points (C34_float_member_outside)."
  },
  {
   "property": "C140",
   "status": "proved",
   "theorems": [
    "Srep.C140_forgets",
    "Srep.C140_appends",
    "Srep.C140_points",
    "Srep.C140_missing",
    "Srep.C140_unknown",
    "Srep.C140_raises",
    "Srep.C140_sound",
    "Srep.C140_plate"
   ],
   "note": "Model/Renew.lean: the loops of add_intex_points with one evaluation of intex_points per segment and per key, exceptions returned together with the graph left behind. intex_points and graphrepr_segments are arbitrary values (for the parts see C104 and Model/Intex.lean); the dict is a function of the segment. Any arithmetic. Not modelled: a part without graph segments in Graph.__init__ (PolygonLine then takes two empty LineSegments), and the name of the graph."
  }
 ]
}