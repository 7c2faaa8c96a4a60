{
 "C01": {
  "status": "proved",
  "note": "Any correctly rounded arithmetic; rounding twice is stable, reconstructing or adding the origin keeps the stored point."
 },
 "C02": {
  "status": "proved",
  "note": "Half a unit of the 8th decimal exactly; plus the relative float error in rounded arithmetic; monotone."
 },
 "C03": {
  "status": "proved",
  "note": "Equality is the tolerance box test; reflexive on valid points, symmetric, false for invalid, class sensitive."
 },
 "C04": {
  "status": "proved",
  "note": "The property asserts the failures: == is not transitive and the hash contract cannot hold (binary64 witnesses); the positive part for separated points is C04_apart."
 },
 "C05": {
  "status": "proved",
  "note": "Over arbitrary operation sequences on the object model."
 },
 "C06": {
  "status": "proved",
  "note": "Commutativity, p-p and the coordinates of the result in any rounded arithmetic, the vector laws in exact arithmetic."
 },
 "C07": {
  "status": "proved",
  "note": "Symmetry/zero/non-negativity in rounded arithmetic, Euclidean laws in exact arithmetic."
 },
 "C08": {
  "status": "proved",
  "note": "All branches of the constructor on the modelled argument kinds (numbers, numeric text, other text, None, other objects)."
 },
 "C09": {
  "status": "proved",
  "note": "Sign laws bit for bit in any correctly rounded arithmetic; determinant/inner product/Lagrange in exact arithmetic."
 },
 "C10": {
  "status": "proved",
  "note": "Laws in any correctly rounded arithmetic; the geometric meaning in exact arithmetic."
 },
 "C11": {
  "status": "proved",
  "note": "Any correctly rounded arithmetic: the denominator is bit for bit the tested cross product."
 },
 "C12": {
  "status": "proved",
  "note": "Exact arithmetic."
 },
 "C13": {
  "status": "proved",
  "note": "Exact arithmetic for the meaning; the overlap of 'right' and 'on the line' by a binary64 witness."
 },
 "C14": {
  "status": "proved",
  "note": "Exact arithmetic on stored points; closed box also in rounded arithmetic as long as the tolerance is not absorbed; binary64 witnesses for the asymmetry and for an endpoint rejected beyond 2^28."
 },
 "C15": {
  "status": "proved",
  "note": "Soundness and completeness in exact arithmetic."
 },
 "C16": {
  "status": "proved",
  "note": "Symmetry/direction in any correctly rounded arithmetic under the hypothesis that no two different endpoints are == with the same hash (implied by separation); meaning in exact arithmetic."
 },
 "C17": {
  "status": "proved",
  "note": "As C16."
 },
 "C18": {
  "status": "proved",
  "note": "Exact arithmetic, exact direction. C18_collinear: complete case analysis for collinear non-null segments with separated stored endpoints; C18_not_collinear; C18_common_part for common_part. The spec OverlapSpec speaks about the closed segments as point sets. Needs same class when both endpoints coincide (see C19)."
 },
 "C19": {
  "status": "proved",
  "note": "General theorems in every correctly rounded arithmetic (class mismatch, null segment) plus binary64 witnesses incl. endpoints equal only within tolerance."
 },
 "C20": {
  "status": "proved",
  "note": "C20_common_point and C20_none (completeness), C20_sound (what a returned Point is), C20_total (no exception), C20_symm (any correctly rounded arithmetic). Completeness and soundness in exact arithmetic on 8-decimal endpoints."
 },
 "C21": {
  "status": "proved",
  "note": "Any correctly rounded arithmetic; symmetry under the hash hypothesis of C16."
 },
 "C22": {
  "status": "proved",
  "note": "Value level (C22_reverse...) and object level: C22_reverse_in_place shows that reverse swaps the two Point addresses of that one segment and touches no Point and no other segment."
 },
 "C23": {
  "status": "proved",
  "note": "Heap model: frame, aliasing, exact translation, and round trips of move and mirror in exact arithmetic."
 },
 "C24": {
  "status": "proved",
  "note": "For every rounding runtime (binary64 included), coordinates and offsets up to 10^7; C24_off_grid_fails is the concrete failure for an offset off the grid."
 },
 "C25": {
  "status": "proved",
  "note": "Both arithmetics."
 },
 "C26": {
  "status": "proved",
  "note": "Exact arithmetic; the error branch in any arithmetic."
 },
 "C27": {
  "status": "proved",
  "note": "Structure in any arithmetic, positions in exact arithmetic; integer number of segments. C27_objects: end Points are shared with the divided segment, inner Points are fresh and shared between neighbours."
 },
 "C28": {
  "status": "proved",
  "note": "Exact arithmetic."
 },
 "C29": {
  "status": "proved",
  "note": "Error branch in any rounded arithmetic, meaning in exact arithmetic."
 },
 "C30": {
  "status": "proved",
  "note": "atan2/degrees are parameters constrained by Rt.IsExactDir, which the real functions are proved to satisfy; that 360 itself can be returned in floats is shown with a constrained parameter."
 },
 "C31": {
  "status": "proved",
  "note": "Exact arithmetic for the domain; the ValueError in binary64 by kernel evaluation of the modelled sqrt and division."
 },
 "C32": {
  "status": "proved",
  "note": "Exact arithmetic."
 },
 "C33": {
  "status": "proved",
  "note": "Exact arithmetic; near-null witness in binary64."
 },
 "C34": {
  "status": "proved",
  "note": "Exact arithmetic for all inputs (C34_nodes; C34_polyline for the returned closed polyline; C34_degenerate). C34_convexHull and C34_half_planes tie the node list to Mathlib's convexHull and extremePoints. The failure in binary64 is C34_float_member_outside. purge() at the end of convex_hull changes no values (C45) and is not repeated here."
 },
 "C35": {
  "status": "proved",
  "note": "Any arithmetic."
 },
 "C36": {
  "status": "proved",
  "note": "Object level (addresses), any correctly rounded arithmetic. Nodes are numeric pairs, so every Point made from them is valid; invalid nodes (non-numbers) are not modelled."
 },
 "C37": {
  "status": "proved",
  "note": "Any correctly rounded arithmetic; additionally C37_close_torn: on a discontinuous polyline every close() appends another segment and never closes."
 },
 "C38": {
  "status": "proved",
  "note": "The general open path for all points A, B, C; binary64 witness for \"not a cycle\"; characterisation for head-to-tail polylines."
 },
 "C39": {
  "status": "proved",
  "note": "Any ordered field (no arithmetic is involved, only comparisons)."
 },
 "C40": {
  "status": "proved",
  "note": "Exact arithmetic; purged polyline with separated points (as produced by purge), coordinates within 1e11 before and after."
 },
 "C41": {
  "status": "proved",
  "note": "Any correctly rounded arithmetic."
 },
 "C42": {
  "status": "proved",
  "note": "Any correctly rounded arithmetic; asymmetry by two witnesses (repeated segments; Wall against plain segment)."
 },
 "C43": {
  "status": "proved",
  "note": "Meaning, reflexivity and transitivity on separated points; also under the weaker hash hypothesis."
 },
 "C44": {
  "status": "proved",
  "note": "Any correctly rounded arithmetic."
 },
 "C45": {
  "status": "proved",
  "note": "Any correctly rounded arithmetic; points at least the tolerance apart; C45_null_segment shows that the restriction to non-null segments is needed."
 },
 "C46": {
  "status": "proved",
  "note": "Single writes in any correctly rounded arithmetic; exact translation and return trip in exact arithmetic on 8-decimal numbers; also for polylines that are not purged yet."
 },
 "C47": {
  "status": "proved",
  "note": "General theorem for both append functions (exactly one of the two coincident Points moves) and a concrete run in which a closed polygon is torn open."
 },
 "C48": {
  "status": "proved",
  "note": "Termination is proved by showing that more rounds than 2n+1 never change the outcome; the statement about False is C48_only_reverses together with the witness C48_failed_but_reversed."
 },
 "C49": {
  "status": "proved",
  "note": "Never True from 250 segments on; raises on every cycle of that size; the lost second cycle is a concrete run; empty list raises IndexError."
 },
 "C50": {
  "status": "proved",
  "note": "Any correctly rounded arithmetic; non-idempotence by a witness."
 },
 "C51": {
  "status": "proved",
  "note": "isconvex, iscw, isccw and cps modelled; all statements for any correctly rounded arithmetic; flipping uses that hashes separate the endpoints (HashOK)."
 },
 "C52": {
  "status": "proved",
  "note": "The expected property (iscw decides the orientation) is false; two concrete valid polygons of positive signed area refute it; C52_spec says what is computed instead."
 },
 "C53": {
  "status": "proved",
  "note": "Random targets are an arbitrary stream."
 },
 "C54": {
  "status": "proved",
  "note": "Two independent streams for the two evaluations; C54_attained shows the only way to True is possible."
 },
 "C55": {
  "status": "proved",
  "note": "C55_outside for any correctly rounded arithmetic with the exact margin as hypothesis; C55_outside_exact spells the margin out."
 },
 "C56": {
  "status": "proved",
  "note": "Negative result with a concrete square and two admissible target sequences (binary64)."
 },
 "C57": {
  "status": "proved",
  "note": "Exact arithmetic for the value; reversal invariance and non-negativity for any correctly rounded arithmetic; C57_flat_raises is a binary64 counterexample to the intended behaviour for flat triangles."
 },
 "C58": {
  "status": "proved",
  "note": "Vertex sets compared as sorted lists, as in the code; separation hypothesis is needed (C58_near_vertices)."
 },
 "C59": {
  "status": "proved",
  "note": "ear_clipping and triangle_mesh are parameters; the Delaunay branch always raises AttributeError (attribute delaunay is never set) after emptying the stored triangles."
 },
 "C60": {
  "status": "proved",
  "note": "Swap in any correctly rounded arithmetic; rotation and value in exact arithmetic; the bound after makeCounterClockwise holds up to the tolerance EPS."
 },
 "C61": {
  "status": "proved",
  "note": "Soundness and consistency of the table in every arithmetic. The total signed area is not kept (C61_signed_area, witness); the total area is (C61_area)."
 },
 "C62": {
  "status": "proved",
  "note": "add with any number of other polylines, none of which is self; documented connecting segment does not exist."
 },
 "C63": {
  "status": "proved",
  "note": "crossing_lines and isvalid for any correctly rounded arithmetic; translation in exact arithmetic, for purged polylines with separated points."
 },
 "C64": {
  "status": "proved",
  "note": "Exact arithmetic, a/2 at least 1e-5, all coordinates within 1e11 (sentinel of bounding_box)."
 },
 "C65": {
  "status": "proved",
  "note": "For every rounding of the arithmetic; 'same number iff same location' needs endpoints apart by the equality tolerance. The dict of points_numbered is the position in the list of the set point_set."
 },
 "C66": {
  "status": "proved",
  "note": "Rounding arithmetic, separated endpoints. Segments with equal ends do not count, as neighbour skips them."
 },
 "C67": {
  "status": "proved",
  "note": "C67_check characterises the degree checks for all degree lists, C67_group ties them to isvalid on memory, C67_degree_ten is the witness of the hole."
 },
 "C68": {
  "status": "proved",
  "note": "The code tests the length of an empty list literal; the intersection of sets is a parameter."
 },
 "C69": {
  "status": "proved",
  "note": "Polygons are abstract with their area, the areas of their triangles and an equality; the removal while iterating is modelled. The triangulation itself and the preceding loose_equal removal are not part of this model."
 },
 "C70": {
  "status": "proved",
  "note": "On memory with shared segment objects; iteration orders of sets are arbitrary permutations. C70_torn is the witness of a torn loop."
 },
 "C71": {
  "status": "proved",
  "note": "dicts and patterns as lists of (key, list of rooms) with set comparison; the rooms may be listed in any order; letters as the 26 indices"
 },
 "C72": {
  "status": "proved",
  "note": "outline and purge on the heap model; every rounding arithmetic for structure, axis symmetry, and validity on the axis and of cylinders; exact arithmetic for validity anywhere; the binary64 failure is C72_crooked. The classification of the reference points in the constructor is not part of mantelNew (see C94)"
 },
 "C73": {
  "status": "proved",
  "note": "validity for every arithmetic without hypotheses; the graph left behind by a move for every rounding arithmetic on the heap model"
 },
 "C74": {
  "status": "proved",
  "note": "exact arithmetic but with the rounding of stored coordinates; C74_off_grid is the failure for off-grid pos_h, C74_off_grid_binary64 shows it in binary64"
 },
 "C75": {
  "status": "proved",
  "note": "exact statement C75_line; error clauses for all rounding arithmetics; binary64 tangent witness"
 },
 "C76": {
  "status": "proved",
  "note": "Any correctly rounded arithmetic, points at least the tolerance apart."
 },
 "C77": {
  "status": "proved",
  "note": "Exact arithmetic; of atan2 only the law IsExactAngle is used, proved for the real arcus function."
 },
 "C78": {
  "status": "proved",
  "note": "Exact arithmetic with IsExactAngle. Local condition at each inner edge; the global empty-circle property follows in C121."
 },
 "C79": {
  "status": "proved",
  "note": "Assertion and reflexivity in every arithmetic; values in exact arithmetic; witness in binary64 for the missing symmetry."
 },
 "C80": {
  "status": "proved",
  "note": "Case split, symmetry and the minimality of the box hold for every correctly rounded arithmetic; the geometric meaning for exact arithmetic."
 },
 "C81": {
  "status": "proved",
  "note": "Memory model with deep copies and arbitrary set orders; head-to-tail loops of fewer than 250 segments (the limit of order). C81_mixed_walls is a concrete execution."
 },
 "C82": {
  "status": "proved",
  "note": "The intersection of two sets is a parameter of which only symmetry of emptiness is used."
 },
 "C83": {
  "status": "proved",
  "note": "Exact arithmetic; general position is a hypothesis on the targets, the vertices are assumed different and separated. That the loop may go on for ever is proved for every polygon with two disagreeing targets, with a square in binary64 as the concrete case."
 },
 "C84": {
  "status": "proved",
  "note": "At most one side passes the line of sight in each direction, and a point inside sees exactly one of them ahead. Same hypotheses on the targets as C83."
 },
 "C85": {
  "status": "proved",
  "note": "The last part is a failure of the documented meaning (binary64 witness, all random choices)."
 },
 "C86": {
  "status": "proved",
  "note": "Heap model; the first part holds in every correctly rounded arithmetic. The polyline is either not purged or purged and sharing its endpoints, the two states the class can be in."
 },
 "C87": {
  "status": "proved",
  "note": "Heap model, exact arithmetic, cosine and sine arbitrary numbers with c*c + s*s = 1 where needed (true of the real functions)."
 },
 "C88": {
  "status": "proved",
  "note": "Exact arithmetic. The binary64 value is shown for one triangle."
 },
 "C89": {
  "status": "proved",
  "note": "The combinatorial part holds in any arithmetic. That the seen edges are consecutive is a hypothesis (true for a convex boundary). The random order of Python sets is the order of the list, which is arbitrary."
 },
 "C90": {
  "status": "proved",
  "note": "triangle_ok is an arbitrary function of the state that returns (its ray casting may not end, C56); C90_convex_done assumes of it only that it accepts triangles of three consecutive corners of the convex polygons left over, which C134/C135 prove of the function in the code. The corner chosen is an arbitrary member of point_set. The deep copy the function works on is the heap it starts from."
 },
 "C91": {
  "status": "proved",
  "note": "C91_walls gives the walls of every room for any parts per cycle and any containment relation; C91_right and C91_foreign are the two sides of it; C91_raises is the exact condition for IndexError, C91_two_pairs and C91_hub are consequences. The cycles, their parts and the containment are inputs (C92 is about the containment)."
 },
 "C92": {
  "status": "proved",
  "note": "exact arithmetic: the hull polygon of C34 is strictly convex and its inside is the inside of the hull (given by its supporting lines), the ray test is C84; the failures C92_notch and C92_touching_sides are witnesses in binary64"
 },
 "C93": {
  "status": "proved",
  "note": "exact arithmetic; C93_drawing for all closed polygons without doubled sides, C93_inside and C93_outside for strictly convex ones, C93_twice and C93_turned for doubled sides"
 },
 "C94": {
  "status": "proved",
  "note": "exact arithmetic with coordinates rounded to 8 decimals; C94_offsets, C94_points and C94_bottom_points give the points, C94_sorted and C94_bottom_sorted their classification by the random test (C93), C94_targets_above when the targets are above; C94_below_ground is a witness in binary64"
 },
 "C95": {
  "status": "proved",
  "note": "C95_kept under the condition that points that are == are equal, C95_closed without any condition, C95_one_round for the tail"
 },
 "C96": {
  "status": "proved",
  "note": "C96_recorded is the rule for any answers of the random tests; C96_no_points and C96_skirt hold for every run that ends; C96_plain is a witness in binary64. Not modelled: triangulate, whose result is not used (an exception in it would end raum_intex), and the deep copy"
 },
 "C97": {
  "status": "proved",
  "note": "exact arithmetic with coordinates rounded to 8 decimals; C97_room for any convex room, C97_vessel from the dimensions of the parts (with C74, C93, C94, C95). The cycle that makes the room is an input (C91)"
 },
 "C98": {
  "status": "proved",
  "note": "exact arithmetic with coordinates rounded to 8 decimals. C98_both, C98_level, C98_left_only, C98_right_only, C98_none, C98_above_below, C98_end give the whole state afterwards, C98_jacket_inner_first and C98_jacket_outer_first run cut_by_raumende; C98_answers needs representable points of the cut (always so for cylinders), C98_subdivision is the general fact. Graph.renew is modelled without the new classification of reference points"
 },
 "C99": {
  "status": "proved",
  "note": "`triangle_mesh`, `detailled_area` and `area` are modelled with the library `triangle` as an arbitrary function; the theorems assume of its answer only what is stated (triangles between the vertices that fit together, no new vertices). Exact arithmetic for the positive part, binary64 for the wrong area of the square."
 },
 "C100": {
  "status": "proved",
  "note": "exact arithmetic with coordinates rounded to 8 decimals for the five general theorems (C100_overlap, C100_symm, C100_enclosed, C100_touch, C100_disjunct) and C100_polygons; C100_both and C100_classes are binary64 runs. `tell_relpos`, which only names the results, is not modelled."
 },
 "C101": {
  "status": "proved",
  "note": "real numbers with the real sine and cosine and coordinates rounded to 8 decimals (C101_arc, C101_radius, C101_cw); C101_asserts holds for every runtime; C101_cw_circle is a binary64 run with the binary64 values of sine and cosine at multiples of 90 degrees."
 },
 "C102": {
  "status": "proved",
  "note": "Modelled: `make_segments` of `TorispherischesBoden` on objects (radii, angle, three arcs, new Walls on the Points of the arcs, cylinders and base with Points of their own, turning, moving) and `purge`; the drawing of the standard is a separate spec (Spec/Head). Exact real arithmetic and trigonometry; the graph of the head is C74. The lower bounds on d and h1 keep the vertices further apart than the tolerance of Point.__eq__."
 },
 "C103": {
  "status": "proved",
  "note": "Model: `headValid` (isvalid of the polyline of the same segment objects), `headSize`, on top of `headNew` of C102. C103_valid: by C63_valid it is enough that no two sides cross; neighbours share an end point object, the other sides are in different vertical or horizontal strips (vertices move to the left by at least 4e-5 from vertex 1 to 15, base line 4e-5 lower), against 3e-8 of deviation per coordinate. C103_convex: normals of the sides turn by at least the angle `turn` (sine at least 1/10) from side to side and by less than 180 degrees altogether, so cross products of any two sides exceed the deviation; gives `ConvexCcw` and with C51 isconvex True and iscw False. C103_internal applies C84 to it; the example beside it gives an inside point and a target in general position for every upright head. Real arithmetic (`Rt.real`)."
 },
 "C104": {
  "status": "proved",
  "note": "Model: `plateNew`, `plateIntex`, `plateValid`, `plateInternal`, `platePart`, `endPart` (Model/Flat). C104_plate, C104_wall and C104_valid are about the new objects, C104_index the exceptions, C104_internal and C104_points about the points, C104_divides, C104_rooms and C104_vessel about raum_intex (with C93, C94, C95, C96); C104_two_rooms is a concrete run with a flat head between two rooms. Exact arithmetic with coordinates rounded to 8 decimals; the cycles that make the rooms are inputs (C91)."
 },
 "C105": {
  "status": "proved",
  "note": "Model: `fromDict` and its instances (Model/FromDict); `hasattr` is an arbitrary function, which may raise. The order of a TypeError and an IndexError for several wrong values is simplified. C105_skirt uses C72 and C73. KegelKrempe.from_dict has the same form (C105_missing, C105_iff, C105_unknown hold for every constructor)."
 },
 "C106": {
  "status": "proved",
  "note": "Model/Krempe.lean (make_segments and __init__ for r = 0, on memory objects, with deepcopy, mirror_vertical, purge and order). C106_built and C106_rejected give both directions of the acceptance test; C106_short, C106_cylinder say when it cannot fail; C106_high_cone_rejected is a binary64 witness of the unexpected AssertionError. C106_area, C106_convex, C106_overlap are about the outlines C106_built gives. Not modelled: r > 0, and whether the classification of the reference points made by graph.renew() raises."
 },
 "C107": {
  "status": "proved",
  "note": "Model/KrempeIntex.lean. C107_offsets gives the distances (exact arithmetic), C107_points the side of each of the four points of a wall, C107_sorted the result of the classification for every listing of the segments (SameDrawing) and every sequence of ray targets that satisfies GoodTarget and Spread, C107_graph the reference points recorded in the graph. exKnuckle_sound shows that the knuckle of the test-suite meets the hypotheses; a binary64 example runs one classification."
 },
 "C108": {
  "status": "proved",
  "note": "Model/Collinear.lean (remove_collinear_points on memory objects with deepcopy and order). Spec/Collinear.lean defines thin, polyCorners and shoelace without reference to the code. C108_process is the step-by-step effect for every rounding, C108_area and C108_corners evaluate it in exact arithmetic, C108_result puts both together for polygons listed in order with at most four decimals, C108_small is a binary64 witness of the AssertionError. Not covered: segment lists that are not a directed ring (mixed directions, open chains), where a vertex may be looked at twice."
 },
 "C109": {
  "status": "proved",
  "note": "Model/TriAngles.lean. The angles are compared with Mathlib's EuclideanGeometry.angle in the complex plane (angleDeg, degrees); C109_angles, C109_sum, C109_quality are for Rt.real; C109_thin_raises is a binary64 witness of the ValueError of acos. The warning printed for a wrong sum is not modelled."
 },
 "C110": {
  "status": "proved",
  "note": "findLoops (both stages, all set orders) on sides of a ring; the walk is followed round by round with the invariants Fwd and Bwd of Lemmas/RingWalk.lean (a walk may turn segments and may stop at a branch that is none), the combinations stage with counts of corners (Lemmas/RingCombs.lean). The outline version and the vessel are Props/LoopsVessel.lean; the example is a vessel of diameter 2000 with memory of its own. The open chain is computed with exRt for two explicit set orders."
 },
 "C111": {
  "status": "proved",
  "note": "Model: Model/Rooms.lean (from find_loops over keep_base_polygons of at most one polygon, BehalterGraph.cycles, segments_in_cycles and PolygonGroup.cycles to raum_erstellen); no part is a raumende. The choice among two or more polygons is a parameter, which does not matter here; the triangulation library is arbitrary. The wall segments of the parts are arbitrary segments that draw a closed outline."
 },
 "C112": {
  "status": "proved",
  "note": "Model: Model/KeepBase.lean. The polygons are abstract; equality, loose equality, areas, triangles, clash of triangles and the tests of points are functions without exceptions and with one answer each (overlap of triangles and the tests of points are random in the code, see C100), and order() does not raise. Membership in sets of polygons is an arbitrary answer that does not find absent elements."
 },
 "C113": {
  "status": "proved",
  "note": "Model/Lookup.lean; the group look-ups are generic in the polygons and their ==, the others are on segment values and on the heap. points in segments_from_points is a list of Points."
 },
 "C114": {
  "status": "proved",
  "note": "Model/Pointset.lean; the iteration order of the set is a parameter. The path is modelled with rounding, the optimality on a line is in exact arithmetic."
 },
 "C115": {
  "status": "proved",
  "note": "Full statement in exact arithmetic, for closed polygons of any shape listed in any order and direction. The random targets of is_internal_point are assumed to be in general position (GoodTarget, Spread), as in C83 and C93. Paths are defined in Spec/Region without reference to the model; no genericity of the ray is needed in the proof, which counts half-open crossings. The example is a U with a point in its notch and one in its arm."
 },
 "C116": {
  "status": "proved",
  "note": "Full statement in exact arithmetic (coordinates are still rounded to 8 decimals). Points are modelled by value; that the ends of the constraints are shared objects is not part of the claim."
 },
 "C117": {
  "status": "proved",
  "note": "Full statement. cos^2 + sin^2 = 1 is a hypothesis on the math library, met by the real functions. Sure points without a segment (segment=None) are not modelled. The deep copy duplicates all of memory, as in C37."
 },
 "C118": {
  "status": "proved",
  "note": "The intersection of two sets of parts is any function with the members of the intersection, in any order without repetition. Names are values of any type with equality."
 },
 "C119": {
  "status": "proved",
  "note": "C119_meets is in exact arithmetic with rounded crossing points; C119_index in any arithmetic. The method is not called by the triangulation itself."
 },
 "C120": {
  "status": "proved",
  "note": "C120_triangulate (any order of the sets), C120_all_points (ascending pop), C120_edges and C120_keys (the keys of the table, by double counting; Lemmas/TiledCount), C120_corners (any pop order), C120_pop_order and C120_flat (witnesses of what fails). The invariant is Mesh.Tiled (Lemmas/Tiled, TiledAdd, TiledRun); Mesh.Triangulates in Spec/Tiling is the independent specification, using Mathlib's convexHull. Exact arithmetic and exact atan2. That CPython pops small integers in ascending order is not modelled but an explicit hypothesis. The points are taken as they are after update_points; a second call on the same object is C128."
 },
 "C121": {
  "status": "proved",
  "note": "C121_empty_circle, C121_characterised, C121_order_free; C121_square is the witness for points on a circle. From C120's invariant: the triangle beyond an edge exists (Lemmas/TiledNext), the power of a point decreases from a triangle to its neighbour on the side of the point (Lemmas/TiledEmpty), two triangles with empty circles and a common inner point are equal (empty_unique). Spec/Circle is the independent specification. Exact arithmetic; the angle law IsFineAngle is proved for the reals (Rt.real_isFineAngle). The tolerance 1e-8 of the flip test is the reason for \"nearly\"."
 },
 "C122": {
  "status": "proved",
  "note": "The outline of a stack is built in Spec/Tower, independently of the code. C122_loops and C122_one_room: loops and rooms. C122_answers: which room is recorded for which part, for rooms with any closed outline, by the parity of the sides to the right of the reference points. C122_intex: the recorded rooms of a stack, also with a waist; C122_parts: the constructors do not raise. The triangulation inside Behalter enters as a hypothesis (it ends without an exception), as in C111. Sixty shells is the limit for which the guard of 250 segments in find_loops cannot strike; the guard itself is in C110. Example: two cones with a waist, a head and a plate."
 },
 "C123": {
  "status": "proved",
  "note": "AwayFrom, GoodTarget and Spread are geometric; the random numbers of the code enter by Target (the admissible values, C85). C123_cover: where unsuitable ordinates lie; C123_few: how many there can be among ordinates with given distances; C123_exists: an admissible suitable target for several points at once; C123_decided: with it the test ends in the first round. Nothing is assumed on the distribution of the random numbers; a bound on the share of unsuitable ordinates follows from C123_cover, it is not stated as a probability. Example: a polygon in the shape of a U and three points."
 },
 "C124": {
  "status": "proved",
  "note": "Any correctly rounded arithmetic (IsRounding, RootOk: squares and roots correctly rounded in one direction); binary64 satisfies both. The margin a*a*b <= 2^15 |turn| is sufficient, not sharp. C124_far_square and C124_no_interior state the failure; C124_misread is the reason."
 },
 "C125": {
  "status": "proved",
  "note": "Any correctly rounded arithmetic. The margin is sufficient, not sharp; without one the claims are false (C34_float_member_outside). C125_exact, C125_exact_tests and C125_hull_exact assume that the rounding keeps whole multiples of powers of two below 53 bits (HasDyadics, proved for binary64)."
 },
 "C126": {
  "status": "proved",
  "note": "findLoops on the memory model. Simple loop = IsCycleOf (different corners, each segment between consecutive corners, in either direction). Lemmas/Complete*.lean follow loopsTry/loopsCombs/loopsComb with the invariant CInv: a segment removed from the graph never leaves two other remaining segments at its points, so no loop that is still to be found loses a segment. Validity of the closed chains is a hypothesis, as in C110 (it is a question of geometry only; plValid_clear discharges it for polygons whose sides are clear of each other). C126_missed and C126_twice are computed with exRt for explicit set orders; an example shows that the hypotheses of C126_complete hold for the same square of Walls."
 },
 "C127": {
  "status": "proved",
  "note": "Theorems assume only IsRounding (no IsExact). C127_valid: sides that share an end or lie in strips 1e-6 apart (KeepClear). C127_shell: what mantelNew makes, from C72_outline; the remaining condition of isvalid is the one that fails in C72_crooked. C127_loops and C127_one_room: outline of the stack built in Spec/Bands from the coordinates of the corners, independently of the code; the Walls are those of C127_shell and graphrepr_segments of a head; at a flat end the Wall is given by its two corners, and C127_plate shows that plateNew makes this Wall if pos_h is the float nearest to a/10^8 and d the float nearest to 2k/10^8 (a, k integers); other diameters are not covered for flat ends. As in C122 the group is any memory whose segments have these values. The triangulation is the external library (see C111). Example: two cones in binary64 with pos_v 0.1 and 0.1 + 0.2."
 },
 "C128": {
  "status": "proved",
  "note": "Model: `triangulateOn` (Model/Again), the call on an object in any state; C128_first: on a new object it is `delaunay` of C120. C128_more (triangles accumulate), C128_three, C128_value (one `addPoint`), C128_raises (whole call; the order of the edge set is a hypothesis because an earlier flip could overwrite the entry of the edge) and C128_second (concrete, with the first call from C120_flat). The keys of the table are any list with exactly the keys of a finite table (KeysOf). What addEdge does with an edge whose two ends are the same number (same list object appended to twice) is modelled for this. A printed message and a sleep before the ValueError are not modelled."
 },
 "C129": {
  "status": "proved",
  "note": "Any correctly rounded arithmetic (IsRounding, RootOk). Composition of the float versions of C74-C76, C84, C104, C122 and C124: C129_answers (the parity of crossings is that of the drawing, also for segments in any order), Lemmas/IntexFl and HeadFl (reference points of shells and heads with rounding errors), C129_intex. The targets have the margin of C124 (SafeTarget). |d1 - d0| <= 20 h and d <= 50 height are sufficient, not sharp; some condition is needed because the offset of a point is fixed or 1/50000 (C75, C104). IntexFloatEx: a vessel with decimal dimensions in binary64 that meets all hypotheses, with the table recorded."
 },
 "C130": {
  "status": "proved",
  "note": "Model/KrempeArc.lean models the branch r > 0 of make_segments line by line: the walls are shifted inwards, their intersection is the centre, `arc` with three segments, the two cuts, the checks, the mirrored side, the new corners of the neighbours. C130_arc: the four points of the arc against a circle that touches both walls (Spec/Fillet.lean, no reference to the model). C130_inward: the shell above leans inwards; the code takes unsigned angles, so the arc ends too low and off the wall. C130_steep: AssertionError for every radius. C130_built and C130_rejected: the whole constructor when both cuts are made. C130_uncut: no cut is made, rejected if a rounded end of the arc is off its wall; C130_uncut_raises is a witness. C130_other: r = 0 and r < 0. Not covered: floating-point rounding of sin and cos, cuts within 2e-5 of the arc, and one cut only."
 },
 "C131": {
  "status": "proved",
  "note": "Convexity is defined by the corners and sides only (Spec/Convex, ConvexCcw of Spec/Ray). C131_convex: both directions; the direction from the turns uses that seen from any side the distance of the corners does not rise any more once it has fallen (Lemmas/Turning), if the polygon goes round once; with at most four corners the turns are all there is to check. C131_strict and C131_once: for polygons without straight corners, going round once and turning left is the same as ConvexCcw, the hypothesis of C84, C93 and others. C131_two_rounds: computed with exRt. C131_simple, C131_simple_strict (real numbers): isvalid with different corners and no turning back gives that sides meet only in common corners (a corner on another side would need another one further along the same line); that such a polygon, turning nowhere to the right, goes round once is proved with the chains between its foremost and hindmost corners as piecewise linear functions (Lemmas/Monotone, by the intermediate value theorem). NoTurnBack is needed: C131_zigzag (computed with exRt). Polygons that turn back are covered by (a) and (b)."
 },
 "C132": {
  "status": "proved",
  "note": "Model/DelaunayOf.lean. C132_points: any rounding arithmetic. C132_added: closed form of the loop, for calls of is_internal_point that end (C83, C84, C93); C132_never: no segments. C132_hull puts C132_points and C120 together; C132_convex uses that a side of the hull of the corners of a strictly convex polygon is a side of the polygon. C132_arrow: outside means that a ray to the right meets no side. Random points are arbitrary points; deep copies are taken to have the same coordinates."
 },
 "C133": {
  "status": "proved",
  "note": "Tier B over the reals. C133_ccw and C133_cw give the shape from the answers of isconvex and iscw (through C131_simple_strict), C133_answers the converse, C133_point composes them with C84 (the point must be off the border and the targets in general position; GoodTarget and Spread in Spec/Ray.lean). isvalid need not be assumed: isconvex raises AssertionError for an invalid polygon. C133_mesh composes them with C132 (delaunay_drawn in Props/DelaunayOf.lean)."
 },
 "C134": {
  "status": "proved",
  "note": "Model/EarOk.lean is triangle_ok of ear_clipping test by test; the ray casting is plInternal (C56, C93) with the random targets as a parameter. The acceptance theorems need exact arithmetic; C134_accepted and C134_clipped (what a round cuts off has passed the test) hold for every arithmetic."
 },
 "C135": {
  "status": "proved",
  "note": "Composition of C90_convex_done (the loop) with C134_convex (the test). EarDraws states what general position means for the targets; sq3_earDraws shows that a single target meets it for a square. Three nearly collinear corners are excluded: chosen_point_ok refuses them."
 },
 "C136": {
  "status": "proved",
  "note": "Model/Ends.lean on the object model of Model/Heap.lean (addresses of Points and segments). Tier A. The assertion p.isvalid at the start of both append methods is not modelled: only valid Points exist in the heap model."
 },
 "C137": {
  "status": "proved",
  "note": "Model/RaumPoly.lean on the rooms of Model/Raum.lean; a part is given by its segments as values. The Mantel of C137_mantel is the one constructed by Model/Vessel.lean (C72). Tier A."
 },
 "C138": {
  "status": "proved",
  "note": "Model/Size.lean: one case per class. That a KegelKrempe never gets an attribute d was read off the source (no assignment in the class, in Hauptteil or in PolygonLine). Tier B for C138_shell, C138_head (the graph of the head; its outline is C103) and C138_plate, Tier A for C138_axis and C138_raises."
 },
 "C139": {
  "status": "proved",
  "note": "Exact arithmetic, composition of C34, C84, C132 and C133: C139_convex (shape, corners, half-planes), C139_mesh (Delaunay2d with nr_added_points 0, so that its random numbers do not matter; K any ordered field with an exact angle), C139_point (over the reals; hypotheses on the random targets as for C84, and by C123 such targets exist). In binary64 the hull need not enclose its points (C34_float_member_outside)."
 },
 "C140": {
  "status": "proved",
  "note": "Model/Renew.lean: the loops of add_intex_points with one evaluation of intex_points per segment and per key, exceptions returned together with the graph left behind. intex_points and graphrepr_segments are arbitrary values (for the parts see C104 and Model/Intex.lean); the dict is a function of the segment. Any arithmetic. Not modelled: a part without graph segments in Graph.__init__ (PolygonLine then takes two empty LineSegments), and the name of the graph."
 }
}