{"id": "C01", "title": "Coordinates are quantised once and for all", "statement": "A Point built from numbers stores each coordinate rounded to 8 decimals, and building a Point from the coordinates of an existing Point (copying, adding or subtracting the origin) reproduces exactly the same coordinates, bit for bit.", "quantifier": "all finite numbers and every correctly rounded float arithmetic", "why_tests_cant": "bitwise stability under re-rounding must hold for every float; tests only try a handful of decimals", "anchors": ["geometry/SR_point.py:Point._set_coords", "geometry/SR_point.py:PRECISION"]}
{"id": "C02", "title": "Quantisation error bound", "statement": "A stored coordinate differs from the number passed in by at most half a unit of the 8th decimal (plus one float rounding), no 8-decimal number is closer, and the rounding preserves order: a coordinate lying between two others still lies (weakly) between them after construction.", "quantifier": "all numbers", "why_tests_cant": "the input space is infinite; a test only samples it", "anchors": ["geometry/SR_point.py:Point._set_coords"]}
{"id": "C03", "title": "Meaning of Point equality", "statement": "Two Points compare equal exactly when both are valid, of the same class and differ by less than 1e-5 in each coordinate; the relation is reflexive on valid Points and symmetric, `!=` is its exact complement, an invalid Point equals nothing (not even itself), and a Point never equals an IntexPoint.", "quantifier": "all pairs of Points, valid or not", "why_tests_cant": "reflexivity/symmetry are universally quantified; invalid and subclass combinations multiply the cases", "anchors": ["geometry/SR_point.py:Point.__eq__", "geometry/SR_point.py:Point.__ne__", "geometry/SR_point.py:IntexPoint"]}
{"id": "C04", "title": "Equality of Points is not transitive, and the hash does not respect it", "statement": "Users put Points in sets and use them as dict keys, relying on transitivity of == and on equal Points having equal hashes.  Neither holds: there are valid p == q == r with p != r, and the contract 'p == q implies hash(p) == hash(q)' could only hold if the hash were the same for ALL Points of the grid.  On any family of Points whose distinct members are at least 1e-5 apart in some coordinate both hold.", "quantifier": "all Points; all hash functions of the coordinates", "why_tests_cant": "a failing contract needs a quantification over all hash functions; tests see one hash", "anchors": ["geometry/SR_point.py:Point.__eq__", "geometry/SR_point.py:Point.__hash__"]}
{"id": "C05", "title": "Validity of a Point is frozen at the first query", "statement": "Whatever sequence of coordinate overwrites, revocations and validity queries a Point goes through, every validity query answers what the FIRST query answered; in particular a Point queried while valid keeps reporting valid after its coordinates were revoked.", "quantifier": "all finite operation sequences", "why_tests_cant": "histories are unbounded sequences", "anchors": ["geometry/SR_point.py:Point.isvalid", "geometry/SR_point.py:Point._empty", "geometry/SR_point.py:Point._set_coords"]}
{"id": "C06", "title": "Point addition and subtraction", "statement": "For valid Points p+q and q+p have identical coordinates and p-q is the point reflection of q-p (every correctly rounded arithmetic); in exact arithmetic (p+q)-q has exactly p's coordinates, p-p is the origin. The new Point objects hold the component-wise sum and difference, rounded.", "quantifier": "all valid Points", "why_tests_cant": "the input space is infinite; a test only samples it", "anchors": ["geometry/SR_point.py:Point.__add__", "geometry/SR_point.py:Point.__sub__"]}
{"id": "C07", "title": "distance() is a metric", "statement": "distance is symmetric and never negative (every correctly rounded arithmetic), zero exactly between Points of identical coordinates, satisfies the triangle inequality and is unchanged when both Points are translated by 8-decimal offsets (exact arithmetic).", "quantifier": "all pairs/triples of valid Points", "why_tests_cant": "triangle inequality quantifies over all triples", "anchors": ["geometry/SR_point.py:distance", "geometry/SR_point.py:Point.distance"]}
{"id": "C08", "title": "Error behaviour of Points", "statement": "Construction from a non-iterable or from non-numbers never raises TypeError but yields a Point that is invalid when its first two entries are not numbers; text that does not parse raises ValueError; adding or subtracting on an invalid left operand returns an explanatory string instead of a Point; distance() refuses invalid Points with AssertionError; tuples with more than two numbers are silently accepted as valid.", "quantifier": "all argument tuples of Python scalars", "why_tests_cant": "argument shapes form an unbounded family", "anchors": ["geometry/SR_point.py:Point.__init__", "geometry/SR_point.py:Point.isvalid", "geometry/SR_point.py:Point.__add__", "geometry/SR_point.py:distance"]}
{"id": "C09", "title": "Cross and dot product laws", "statement": "For segments a,b: a.crossproduct(b) = -b.crossproduct(a), a.crossproduct(a) = 0, a.dotproduct(b) = b.dotproduct(a), reversing one operand flips the sign of both, for every correctly rounded arithmetic.  In exact arithmetic they agree with the determinant / inner product of the direction vectors and |a x b|^2 + (a.b)^2 = |a|^2 |b|^2.", "quantifier": "all pairs of segments", "why_tests_cant": "sign-exact laws over all floats", "anchors": ["geometry/SR_line.py:LineSegment.crossproduct", "geometry/SR_line.py:LineSegment.dotproduct"]}
{"id": "C10", "title": "is_parallel", "statement": "is_parallel is reflexive, symmetric and insensitive to the direction of either segment, is_intersecting is its negation (any float arithmetic); in exact arithmetic it holds iff one direction vector is a multiple of the other, a zero-length segment is parallel to everything, and parallelism passes through any segment of non-zero length.", "quantifier": "all segments", "why_tests_cant": "the input space is infinite; a test only samples it", "anchors": ["geometry/SR_line.py:LineSegment.is_parallel", "geometry/SR_line.py:LineSegment.is_intersecting"]}
{"id": "C11", "title": "intersection_point never divides by zero", "statement": "intersection_point returns None exactly for parallel segments, otherwise a Point; it never raises ZeroDivisionError, and exchanging the two segments gives the identical Point - for every correctly rounded float arithmetic, although the parallelity test and the denominator are computed by different expressions.", "quantifier": "all pairs of valid segments, all correctly rounded arithmetics", "why_tests_cant": "the denominator is a different float expression than the one tested; only a proof covers all roundings", "anchors": ["geometry/SR_line.py:LineSegment.intersection_point", "geometry/SR_line.py:LineSegment.is_parallel"]}
{"id": "C12", "title": "intersection_point is the intersection", "statement": "In exact arithmetic the two lines have exactly one common point and the returned Point is that point rounded to 8 decimals (so within 0.5e-8 per coordinate); if the common point has 8 decimals it is returned exactly.", "quantifier": "all pairs of non-parallel segments", "why_tests_cant": "the input space is infinite; a test only samples it", "anchors": ["geometry/SR_line.py:LineSegment.intersection_point"]}
{"id": "C13", "title": "Sides of a segment", "statement": "No point is both to the left and to the right; a point is to the left iff it is neither to the right nor on the line; points on the left for a segment are to the right of the reversed one and are on the line for both or neither (when not within 1e-8 tolerance); however 'to the right' and 'on the line' are NOT exclusive: points within tolerance right of the line satisfy both, points within tolerance left of it satisfy only 'on the line'.", "quantifier": "all segments and points", "why_tests_cant": "an asymmetric tolerance shows only on a thin strip of inputs", "anchors": ["geometry/SR_line.py:LineSegment.is_point_to_right", "geometry/SR_line.py:LineSegment.is_point_to_left", "geometry/SR_line.py:LineSegment.is_point_on_line"]}
{"id": "C14", "title": "is_internal_point is the closed bounding box, up to one grid step", "statement": "For 8-decimal Points (exact arithmetic) is_internal_point holds exactly when minx <= x <= maxx+1e-8 and miny-1e-8 <= y <= maxy+1e-8: every point of the closed box passes, both endpoints always pass, the direction of the segment is irrelevant, and the acceptance is asymmetric (one step left of the box is rejected, one step right/below/above accepted). In binary64 the tolerance is lost to rounding for coordinates beyond 2^28, where a segment rejects its own endpoint.", "quantifier": "all segments and points", "why_tests_cant": "boundary asymmetry is a measure-zero set of inputs", "anchors": ["geometry/SR_line.py:LineSegment.is_internal_point"]}
{"id": "C15", "title": "is_point_on_line", "statement": "Endpoints (and anything == to them) are on the line; in exact arithmetic every point of the infinite line is accepted, and an accepted point is either == to an endpoint or its distance to the line times the segment length is below 1e-8.", "quantifier": "all segments and points", "why_tests_cant": "the input space is infinite; a test only samples it", "anchors": ["geometry/SR_line.py:LineSegment.is_point_on_line", "geometry/SR_line.py:LineSegment.crossproduct_commonstart"]}
{"id": "C16", "title": "touch", "statement": "touch is symmetric, invariant under reversing either segment, and for segments with endpoints on the 8-decimal grid (exact arithmetic, distinct points not == to each other) holds iff they have an endpoint in common.  Contrary to its documentation ('only one of their endpoints') it also holds when both endpoints coincide, in particular between a segment and itself.", "quantifier": "all pairs of segments", "why_tests_cant": "the input space is infinite; a test only samples it", "anchors": ["geometry/SR_line.py:LineSegment.touch"]}
{"id": "C17", "title": "continuous", "statement": "continuous is symmetric; it implies touch; if the end of the first is the start of the second (exact same location) it holds; it also holds when the start of the first is the end of the second, so it does not determine the order of traversal.", "quantifier": "all pairs of segments", "why_tests_cant": "the input space is infinite; a test only samples it", "anchors": ["geometry/SR_line.py:LineSegment.continuous"]}
{"id": "C18", "title": "overlap / common part of collinear segments", "statement": "For two collinear segments of non-zero length whose endpoints are pairwise identical or at least 1e-5 apart (exact arithmetic; of the same class if they have the same pair of endpoints) overlap never raises and returns: (False, None) exactly if the closed segments are disjoint; (True, Point) exactly if they share a single point, which is the returned one; (True, segment) otherwise, and the returned segment is the set-theoretic intersection of the two segments. Non-parallel or parallel non-collinear segments give (False, None), in the latter case they are indeed disjoint. common_part of collinear segments is the same part.", "quantifier": "all pairs of well separated parallel segments", "why_tests_cant": "the case analysis has dozens of relative positions times all directions", "anchors": ["geometry/SR_line.py:LineSegment.overlap"]}
{"id": "C19", "title": "overlap can crash", "statement": "The preconditions of the overlap property are necessary: two segments of different classes with the same pair of endpoints always raise the internal 'should be one' exception, and a zero-length segment on an endpoint of another segment always raises IndexError (for every correctly rounded arithmetic); the same happens for endpoints equal within tolerance but not identical.", "quantifier": "all such pairs of segments, plus concrete binary64 witnesses", "why_tests_cant": "needs a witness outside the tested inputs and the proof that it satisfies all asserted preconditions", "anchors": ["geometry/SR_line.py:LineSegment.overlap"]}
{"id": "C20", "title": "common_part of crossing segments", "statement": "For non-parallel segments (exact arithmetic): if the two closed segments have a common point, common_part returns that point rounded to 8 decimals; if it returns a Point, this Point is the rounded intersection of the two lines and lies within 1.5e-8 of both bounding boxes, or the segments touch; common_part never raises for non-parallel segments.", "quantifier": "all pairs of non-parallel segments", "why_tests_cant": "the input space is infinite; a test only samples it", "anchors": ["geometry/SR_line.py:LineSegment.common_part", "geometry/SR_line.py:LineSegment.intersection_on_segment"]}
{"id": "C21", "title": "loose_equal", "statement": "loose_equal ignores direction: s.loose_equal(reversed copy of same class) always holds; it is symmetric; on separated points it holds iff the two segments have the same class and the same pair of endpoints in either order; == implies loose_equal on separated points, but not in general (equality within tolerance does not give loose equality).", "quantifier": "all pairs of segments", "why_tests_cant": "the input space is infinite; a test only samples it", "anchors": ["geometry/SR_line.py:LineSegment.loose_equal", "geometry/SR_line.py:LineSegment.__eq__"]}
{"id": "C22", "title": "Reversing", "statement": "reverse() twice restores the segment; it keeps the same Point objects, negates the direction vector, keeps the length bit for bit; line_reversed never modifies the segment but always yields a plain LineSegment, so for Wall/NonWall objects line_reversed is never equal (==) to any Wall.", "quantifier": "all segments of all classes", "why_tests_cant": "the input space is infinite; a test only samples it", "anchors": ["geometry/SR_line.py:LineSegment.reverse", "geometry/SR_line.py:LineSegment.line_reversed"]}
{"id": "C23", "title": "Moving and mirroring a segment in place", "statement": "move(x0,y0) translates both endpoint objects: if the endpoints are two distinct objects each is moved once and nothing else in memory changes; move followed by the opposite move restores 8-decimal segments exactly; mirror_vertical twice about the same 8-decimal axis restores exactly; but if both endpoints are the same object the point is moved twice.", "quantifier": "all heaps, segments and 8-decimal offsets (exact arithmetic)", "why_tests_cant": "aliasing and round-trip over all floats", "anchors": ["geometry/SR_line.py:LineSegment.move", "geometry/SR_line.py:LineSegment.mirror_vertical"]}
{"id": "C24", "title": "Move round trip in floating point", "statement": "With binary64 arithmetic and coordinates and offsets on the 8-decimal grid of magnitude up to ten million, move(x,y) followed by move(-x,-y) restores every coordinate bit for bit; with offsets off the grid (e.g. half a unit of the 8th decimal) it does not.", "quantifier": "all grid coordinates/offsets in range", "why_tests_cant": "float round trips cannot be enumerated", "anchors": ["geometry/SR_line.py:LineSegment.move", "geometry/SR_point.py:Point._set_coords"]}
{"id": "C25", "title": "Length of a segment", "statement": "norm is non-negative, the same for both directions, 0 for coinciding endpoints (any float arithmetic); exact arithmetic: zero only for coinciding endpoints, equals distance(i,j), at most the sum via any third point.", "quantifier": "all segments", "why_tests_cant": "the input space is infinite; a test only samples it", "anchors": ["geometry/SR_line.py:LineSegment.norm", "geometry/SR_line.py:LineSegment.isnull"]}
{"id": "C26", "title": "point_on_line_at_ratio", "statement": "Ratios outside [0,1] raise AssertionError; 0 and 1 return the endpoint objects themselves; otherwise (exact) the result is within 0.5e-8 per coordinate of the exact affine combination and inside the closed bounding box.", "quantifier": "all segments and ratios", "why_tests_cant": "the input space is infinite; a test only samples it", "anchors": ["geometry/SR_line.py:point_on_line_at_ratio"]}
{"id": "C27", "title": "divide_line", "statement": "divide_line(l, n) for integer n >= 1 yields exactly n segments, the first starting at the very object l.i and the last ending at l.j, consecutive ones sharing the same Point object, the k-th division point within 0.5e-8 per coordinate of the exact k/n point (exact arithmetic); n <= 1 (0 raises nothing, negative neither) yields the single segment i-j.", "quantifier": "all segments and all n", "why_tests_cant": "arbitrary n", "anchors": ["geometry/SR_line.py:divide_line"]}
{"id": "C28", "title": "add_point_on_line", "statement": "It returns False iff the point fails is_internal_point, otherwise two chained segments i->p, p->j; it does NOT check that p is on the line: points far from the line are accepted whenever inside the bounding box.", "quantifier": "all segments and points", "why_tests_cant": "the input space is infinite; a test only samples it", "anchors": ["geometry/SR_line.py:add_point_on_line"]}
{"id": "C29", "title": "line_point_distance", "statement": "Non-negative; ZeroDivisionError exactly when the norm is zero; exact arithmetic: equals the Euclidean distance to the infinite line (|cross| / length; a lower bound for the distance to every point of the line, attained at one), same for the reversed segment.", "quantifier": "all segments and points", "why_tests_cant": "the input space is infinite; a test only samples it", "anchors": ["geometry/SR_line.py:LineSegment.line_point_distance"]}
{"id": "C30", "title": "direction and opposite_direction", "statement": "For an atan2/degrees pair satisfying the usual range law direction is in [0,360]; in the exact model equal directions mean positively proportional vectors and opposite_direction is symmetric and holds for a segment and its reverse.", "quantifier": "all segments", "why_tests_cant": "the input space is infinite; a test only samples it", "anchors": ["geometry/SR_line.py:LineSegment.direction", "geometry/SR_line.py:LineSegment.opposite_direction"]}
{"id": "C31", "title": "angle_between_lines can leave the domain of acos", "statement": "ZeroDivisionError exactly if a length (product) is zero; symmetric; exact arithmetic: the argument of acos is always in [-1,1].  In binary64 it is not: for the segment (0,0)-(2,3) and itself the argument exceeds 1 and math.acos raises ValueError.", "quantifier": "all pairs of segments", "why_tests_cant": "domain overflow by one ulp occurs on sparse inputs", "anchors": ["geometry/SR_line.py:LineSegment.angle_between_lines", "geometry/SR_line.py:LineSegment.angle_from_start_point"]}
{"id": "C32", "title": "midpoint is not the midpoint", "statement": "The attribute midpoint is the point at one third from i (exact arithmetic); it coincides with the true midpoint only for zero-length segments and the midpoint of the reversed segment is a different point otherwise.", "quantifier": "all segments", "why_tests_cant": "the input space is infinite; a test only samples it", "anchors": ["geometry/SR_line.py:LineSegment.midpoint"]}
{"id": "C33", "title": "unitvector", "statement": "(0,0) for null segments; otherwise (exact) a vector of length one in the direction of the segment, and unitvector * norm gives the direction vector; for near-null segments (endpoints == but distinct) it is (0,0) although the norm is positive.", "quantifier": "all segments", "why_tests_cant": "the input space is infinite; a test only samples it", "anchors": ["geometry/SR_line.py:LineSegment.unitvector"]}
{"id": "C34", "title": "convex_hull is the convex hull", "statement": "For any finite set of coordinate pairs with at least two distinct members, in exact arithmetic, the node list built is the convex hull: its nodes are members of the set, every member of the set lies on or to the left of every edge of the closed result, the turn at every vertex is strictly left when not all members are collinear (just two vertices otherwise), each vertex occurs once, and the first vertex is the lexicographically smallest member; the convex hull (in Mathlib's sense) of the nodes is that of the set, the nodes are exactly its extreme points, and (not all collinear) a point is in it iff it is on or to the left of every edge; for 8-decimal members at least 1e-5 apart the returned polyline is the closed chain through these nodes.  Fewer than two distinct points: the sorted list itself is returned, not a polygon.  In binary64 the enclosure fails: there are three doubles one of which lies strictly outside the returned hull.", "quantifier": "all finite point sets", "why_tests_cant": "hull correctness quantifies over all point sets of all sizes", "anchors": ["geometry/SR_polygon.py:convex_hull"]}
{"id": "C35", "title": "convex_hull is independent of order and multiplicity of the input", "statement": "Two input sequences with the same set of coordinate pairs give the same hull.", "quantifier": "all pairs of input sequences with the same members", "why_tests_cant": "the input space is infinite; a test only samples it", "anchors": ["geometry/SR_polygon.py:convex_hull"]}
{"id": "C36", "title": "polygon_from_nodes", "statement": "n valid nodes give n-1 segments (an empty node list or a single node gives the 2-segment invalid default polygon), consecutive segments share the very same Point object, no other segments share a Point object, and the resulting line is continuous; with cw=True the first node stays first and the remaining order is reversed; applying the cw reordering twice restores the node list.", "quantifier": "all node lists", "why_tests_cant": "arbitrary length and object identity", "anchors": ["geometry/SR_polygon.py:polygon_from_nodes"]}
{"id": "C37", "title": "close / isclosed / closed_copy", "statement": "close() on a continuous open polyline appends exactly one segment from last to first point and the result is closed; close() on a closed polyline changes nothing; so closing twice equals closing once; closed_copy never changes the original.", "quantifier": "all polylines", "why_tests_cant": "the input space is infinite; a test only samples it", "anchors": ["geometry/SR_polygon.py:PolygonLine.close", "geometry/SR_polygon.py:PolygonLine.closed_copy", "geometry/SR_polygon.py:PolygonLine.isclosed"]}
{"id": "C38", "title": "isclosed accepts open paths", "statement": "isclosed being True does not imply that the segments form a cycle i1->j1=i2->j2...->i1: continuity accepts consecutive segments connected end-begin or begin-end, so the open path [B->C, A->B] with A far from C ... and any polyline whose consecutive segments touch backwards can report closed.  If every consecutive pair is joined head-to-tail then isclosed holds iff the first and last point are equal.", "quantifier": "existence / all head-to-tail polylines", "why_tests_cant": "documentation-level expectation over all polylines", "anchors": ["geometry/SR_polygon.py:PolygonLine.isclosed", "geometry/SR_polygon.py:PolygonLine.iscontinuous", "geometry/SR_line.py:LineSegment.continuous"]}
{"id": "C39", "title": "bounding_box of a polyline", "statement": "For coordinates within 1e11 of zero the result is exactly the minimum and maximum over all endpoint coordinates, every point of the polyline is inside, and every bound is attained; for a polygon entirely beyond 1e11 the sentinel 10e10 leaks into the result.", "quantifier": "all polylines", "why_tests_cant": "the input space is infinite; a test only samples it", "anchors": ["geometry/SR_polygon.py:PolygonLine.bounding_box"]}
{"id": "C40", "title": "bounding box commutes with translation", "statement": "Exact arithmetic, 8-decimal offsets: the bounding box of the moved vertices is the moved bounding box.", "quantifier": "all polylines and offsets", "why_tests_cant": "the input space is infinite; a test only samples it", "anchors": ["geometry/SR_polygon.py:PolygonLine.bounding_box", "geometry/SR_polygon.py:PolygonLine.move"]}
{"id": "C41", "title": "PolygonLine equality", "statement": "== on polylines is reflexive for valid polylines and symmetric, requires the same class and the same number of segments in the same order with the same direction.", "quantifier": "all pairs of polylines", "why_tests_cant": "the input space is infinite; a test only samples it", "anchors": ["geometry/SR_polygon.py:PolygonLine.__eq__"]}
{"id": "C42", "title": "PolygonLine.loose_equal", "statement": "With direction_matters=True it raises TypeError whenever the polylines have equally many segments; otherwise it is reflexive and ignores order and direction (any permutation and any reversal of individual segments gives a loosely equal polyline), but it is not symmetric: repeated segments on one side break it.", "quantifier": "all pairs of polylines", "why_tests_cant": "raises on every same-length input: a universally quantified failure", "anchors": ["geometry/SR_polygon.py:PolygonLine.loose_equal"]}
{"id": "C43", "title": "loose_subset", "statement": "loose_subset is reflexive and transitive, and on separated points means that every endpoint of other is an endpoint of self.", "quantifier": "all polylines", "why_tests_cant": "the input space is infinite; a test only samples it", "anchors": ["geometry/SR_polygon.py:PolygonLine.loose_subset"]}
{"id": "C44", "title": "neighbour / find_segment_by_point", "statement": "find_segment_by_point returns exactly the segments having the point as start / end / either end, in polyline order; an unknown whichend raises iff the point occurs in the polyline; neighbour returns exactly the other endpoints of the segments at the point; on a simple closed polygon with separated vertices every vertex has exactly two neighbours.", "quantifier": "all polylines and points", "why_tests_cant": "the input space is infinite; a test only samples it", "anchors": ["geometry/SR_polygon.py:PolygonLine.find_segment_by_point", "geometry/SR_polygon.py:PolygonLine.neighbour"]}
{"id": "C45", "title": "purge merges coincident vertices", "statement": "After purge() of a polyline without null segments and with separated points any two endpoints at the same location are the same Point object; no coordinates change; purging again changes nothing.", "quantifier": "all heaps and polylines", "why_tests_cant": "object identity after arbitrary aliasing", "anchors": ["geometry/SR_polygon.py:PolygonLine.purge"]}
{"id": "C46", "title": "move on a purged polyline is a translation", "statement": "For a purged polyline with separated points, move(x,y) (8-decimal offsets, exact arithmetic) changes every endpoint by exactly (x,y), and leaves objects not belonging to the polyline unchanged; moving back restores all coordinates.", "quantifier": "all heaps, polylines, offsets", "why_tests_cant": "the input space is infinite; a test only samples it", "anchors": ["geometry/SR_polygon.py:PolygonLine.move"]}
{"id": "C47", "title": "The purged flag goes stale", "statement": "append_point_at_end / append_point_at_beginning keep the purged flag although the appended Point may coincide with an existing one; a subsequent move() then moves only one of the two coincident Points and tears the polygon apart.", "quantifier": "existence of a history (append then move)", "why_tests_cant": "needs a specific interleaving of operations", "anchors": ["geometry/SR_polygon.py:PolygonLine.append_point_at_end", "geometry/SR_polygon.py:PolygonLine.append_point_at_beginning", "geometry/SR_polygon.py:PolygonLine.move"]}
{"id": "C48", "title": "order() terminates and only permutes/reverses", "statement": "order() always terminates after at most 2n+1 rounds; when it returns True the resulting list consists of (a sublist of) the polyline's own segment objects, no two equal, up to reversal; the start point of the first one is closest to the origin among all start points.  If it returns False the segment list is unchanged but segments may have been reversed in place.", "quantifier": "all polylines", "why_tests_cant": "the input space is infinite; a test only samples it", "anchors": ["geometry/SR_polygon.py:PolygonLine.order"]}
{"id": "C49", "title": "order() limits and losses", "statement": "order() raises on every successful cycle with 250 or more segments, returns True on two disjoint cycles while silently dropping one of them, raises IndexError on an empty segment list.", "quantifier": "all cycles of length >= 250; existence", "why_tests_cant": "needs inputs of a size tests do not have", "anchors": ["geometry/SR_polygon.py:PolygonLine.order"]}
{"id": "C50", "title": "remove_outlier_segments", "statement": "It keeps exactly the segments none of whose endpoints occurs only once among all endpoints; a closed polygon is unchanged; it never adds segments and keeps order; but it is a single pass: a dangling chain of two segments is only shortened, so simplify is not idempotent.", "quantifier": "all segment lists", "why_tests_cant": "the input space is infinite; a test only samples it", "anchors": ["geometry/SR_polygon.py:remove_outlier_segments", "geometry/SR_polygon.py:simplify"]}
{"id": "C51", "title": "Winding of convex polygons", "statement": "isconvex of a valid polygon says that the cross products of consecutive segments all are >= 0 or all are <= 0; then iscw is False iff some cross product is positive; isccw is always the negation of iscw and fails with it; traversing a polygon backwards negates the cross product at every vertex, and iscw flips (or fails alike) whenever some turn is not straight.", "quantifier": "all polygons", "why_tests_cant": "the input space is infinite; a test only samples it", "anchors": ["geometry/SR_polygon.py:PolygonLine.iscw", "geometry/SR_polygon.py:PolygonLine.isccw", "geometry/SR_polygon.py:PolygonLine.isconvex", "geometry/SR_polygon.py:PolygonLine.cps"]}
{"id": "C52", "title": "iscw is wrong or raises on non-convex polygons", "statement": "For non-convex polygons iscw counts turn signs instead of the signed area: there is a simple ccw polygon for which it says clockwise, and one for which it raises.", "quantifier": "existence", "why_tests_cant": "star-shaped inputs are absent from tests", "anchors": ["geometry/SR_polygon.py:PolygonLine.iscw"]}
{"id": "C53", "title": "Vertices are never internal", "statement": "PolygonLine.is_internal_point answers False for every vertex whatever the random rays are (no random draw is consumed), and is_external_point then answers True.", "quantifier": "all polygons, all random sequences", "why_tests_cant": "quantifies over all random sequences", "anchors": ["geometry/SR_polygon.py:PolygonLine.is_internal_point", "geometry/SR_polygon.py:PolygonLine.is_external_point"]}
{"id": "C54", "title": "is_on_boundary is False unless two random evaluations disagree", "statement": "Whenever the two internal tests agree (in particular for every vertex) is_on_boundary answers False; it can answer True only if two successive random evaluations of the same question disagree.", "quantifier": "all polygons, points, random sequences", "why_tests_cant": "quantifies over all random sequences", "anchors": ["geometry/SR_polygon.py:PolygonLine.is_on_boundary"]}
{"id": "C55", "title": "Outside the bounding box means external", "statement": "If a point lies to the right of (or above) the whole bounding box by more than the tolerance and the random targets do as well, is_internal_point terminates in the first round with False, whatever the targets are otherwise.", "quantifier": "all polygons, points and random sequences", "why_tests_cant": "the input space is infinite; a test only samples it", "anchors": ["geometry/SR_polygon.py:PolygonLine.is_internal_point"]}
{"id": "C56", "title": "is_internal_point depends on the random target for polygons in negative quadrants", "statement": "There is a valid square with negative upper bounds and a point for which two admissible random sequences yield different answers.", "quantifier": "existence of two random sequences", "why_tests_cant": "randomness", "anchors": ["geometry/SR_polygon.py:PolygonLine.is_internal_point"]}
{"id": "C57", "title": "Triangle area", "statement": "Heron's formula as computed equals half the absolute cross product of two sides for every closed triangle (exact arithmetic); it is invariant under reversal and order of segments. In binary64 it raises ValueError for some flat triangles with integer corners although it is meant to return 0.", "quantifier": "all triangles", "why_tests_cant": "the input space is infinite; a test only samples it", "anchors": ["geometry/SR_polygon.py:Triangle.area"]}
{"id": "C58", "title": "Triangle congruence", "statement": "congruent is symmetric, reflexive, returns None (falsy) when not congruent, and on separated points holds iff the vertex sets are the same. Without separation, triangles with pairwise equal corners can fail to be congruent.", "quantifier": "all pairs of triangles", "why_tests_cant": "the input space is infinite; a test only samples it", "anchors": ["geometry/SR_polygon.py:Triangle.congruent"]}
{"id": "C59", "title": "Triangulation dispatch errors", "statement": "triangulate(None) raises; an unknown algorithm name raises iff (re)triangulation is needed (no stored triangles, or force); if it is needed, 'delaunay' always raises AttributeError after having deleted the stored triangles.", "quantifier": "all polygons, algorithm names, stored triangles", "why_tests_cant": "the input space is infinite; a test only samples it", "anchors": ["geometry/SR_polygon.py:PolygonLine.triangulate", "geometry/SR_polygon.py:PolygonLine.triangulate_delaunay"]}
{"id": "C60", "title": "Delaunay2d primitives", "statement": "getArea changes sign when two indices are swapped and is invariant under cyclic rotation of indices (exact, grid); makeCounterClockwise yields an area >= -EPS; makeKey is symmetric and sorted. getArea, isEdgeVisible and makeCounterClockwise raise exactly if one of the indices is outside -n, ..., n - 1 (n points), and then an IndexError.", "quantifier": "all index triples", "why_tests_cant": "the input space is infinite; a test only samples it", "anchors": ["geometry/SR_polygon.py:Delaunay2d.getArea", "geometry/SR_polygon.py:Delaunay2d.makeCounterClockwise", "geometry/SR_polygon.py:Delaunay2d.makeKey"]}
{"id": "C61", "title": "Edge flips keep the mesh consistent", "statement": "flipOneEdge on a mesh whose table edge2Triangles is consistent (an edge lists a triangle iff the triangle has that edge, at most two triangles per edge) never raises, keeps the points and the number of triangles, changes at most two triangles, introduces no new vertex, and leaves the table consistent, provided the two triangles at the edge have different third vertices that are not already joined by an edge. In exact arithmetic on a planar mesh it keeps the total area. It does not keep the total signed area: the orientation of the two new triangles depends on the order in which the table lists the triangles.", "quantifier": "all consistent meshes and edges", "why_tests_cant": "the input space is infinite; a test only samples it", "anchors": ["geometry/SR_polygon.py:Delaunay2d.flipOneEdge"]}
{"id": "C62", "title": "add() mutates its first operand", "statement": "add(self, *others) extends self's own segment list with the segments of the others, also when it subsequently fails; if ends do not meet it raises AssertionError instead of inserting the documented connecting segment.", "quantifier": "all polylines", "why_tests_cant": "side effects on operands", "anchors": ["geometry/SR_polygon.py:add"]}
{"id": "C63", "title": "PolygonLine.isvalid and crossing", "statement": "crossing_lines is symmetric (lists (a,b) iff it lists (b,a)), empty iff no two distinct positions cross; moving a valid polygon by 8-decimal offsets preserves being continuous/closed (exact arithmetic).", "quantifier": "all polylines", "why_tests_cant": "the input space is infinite; a test only samples it", "anchors": ["geometry/SR_polygon.py:PolygonLine.crossing_lines", "geometry/SR_polygon.py:PolygonLine.isvalid"]}
{"id": "C64", "title": "square()", "statement": "square(a,x0,y0) is a closed polygon of five segments whose bounding box is [x0-a/2,x0+a/2]x[y0,y0+a] for 8-decimal a/2,x0,y0 (exact arithmetic), for both cw settings.", "quantifier": "all a>0, x0, y0", "why_tests_cant": "the input space is infinite; a test only samples it", "anchors": ["geometry/SR_polygon.py:square"]}
{"id": "C65", "title": "Numbering of graph nodes", "statement": "points_numbered gives every endpoint of a segment of the group a number below the number n of nodes, and every number below n is given to some endpoint. If the endpoints are separated, two endpoints get the same number iff they are at the same location, and n is the number of different locations. as_adjacency_list(as_numbered=True) never raises KeyError, has exactly the keys 0..n-1 in order, and lists for each as many neighbours as the Point has.", "quantifier": "all groups", "why_tests_cant": "the input space is infinite; a test only samples it", "anchors": ["geometry/SR_polygon_group.py:PolygonGroup.points_numbered", "geometry/SR_polygon_group.py:PolygonGroup.as_adjacency_list"]}
{"id": "C66", "title": "Adjacency and handshake", "statement": "If the endpoints are separated, the sum of the numbers of neighbours over all nodes of a group is twice the number of its segments that have two different ends, so the number of nodes with an odd number of neighbours is even; and q is listed among the neighbours of p as often as p among those of q. In the representative graph of a group of separated endpoints, ends at the same place are the same Point object.", "quantifier": "all groups", "why_tests_cant": "the input space is infinite; a test only samples it", "anchors": ["geometry/SR_polygon_group.py:PolygonGroup.as_adjacency_list"]}
{"id": "C67", "title": "Nodes of degree ten or more escape the validity check", "statement": "The degree checks of PolygonGroup.isvalid pass iff every degree is 2, 3 or at least ten, at least three nodes have degree 2, and the number of nodes of degree 3 is even; isvalid is that and the validity of every polygon. With separated endpoints and no loose end, an odd number of nodes of degree 3 means that a node of odd degree at least 5 exists. A bouquet of five triangles (a node of degree ten) is valid, one of four triangles (degree eight) is not.", "quantifier": "all groups", "why_tests_cant": "needs a large configuration", "anchors": ["geometry/SR_polygon_group.py:PolygonGroup.isvalid"]}
{"id": "C68", "title": "disjunct_cycles is always empty", "statement": "disjunct_cycles has the keys of cycles, each with an empty list, for every group.", "quantifier": "all groups", "why_tests_cant": "the input space is infinite; a test only samples it", "anchors": ["geometry/SR_polygon_group.py:BehalterGraph.disjunct_cycles"]}
{"id": "C69", "title": "keep_base_polygons decides by area sums only", "statement": "The reduction of keep_base_polygons returns polygons in their order, and removes a polygon only if its area is within EPS of the sum of the areas of the triangles of two or more of the polygons. If exactly one polygon has such an area it is removed, whatever the positions of the polygons. If two polygons have such an area the second may be skipped and stay, because the list is changed while it is iterated over.", "quantifier": "existence / all groups", "why_tests_cant": "the input space is infinite; a test only samples it", "anchors": ["geometry/SR_polygon_group.py:BehalterGraph.keep_base_polygons"]}
{"id": "C70", "title": "find_loops soundness", "statement": "Every loop that find_loops returns consists of segments that are, up to direction, segments of the group; loops are sorted by their number of segments; each loop was closed (walk_segments) or valid and closed (combinations) when it was found. A combination is examined exactly if it is not empty and each of its endpoints occurs in it exactly twice. A loop found later may reverse segment objects of an earlier one, so a returned loop need not be continuous.", "quantifier": "all groups, all iteration orders of sets", "why_tests_cant": "the input space is infinite; a test only samples it", "anchors": ["geometry/SR_polygon_group.py:BehalterGraph.find_loops", "geometry/SR_polygon.py:walk_segments"]}
{"id": "C71", "title": "raum_dict_checker accepts exactly unique relabellings", "statement": "For a dict of at most 26 rooms, raum_dict_checker(dict, pattern) returns True iff exactly one renaming of rooms to letters turns the dict into the pattern, and raises Exception otherwise - also when two or more renamings match. So a dict in which two rooms occur in exactly the same entries is never accepted, not even with itself relabelled as pattern, and a dict is accepted as its own pattern iff it has no non-trivial symmetry. With more than 26 rooms it always ends in a KeyError. The result does not depend on the iteration order of the sets.", "quantifier": "all room dictionaries and patterns, all iteration orders of the set of rooms", "why_tests_cant": "the input space is infinite; a test only samples it", "anchors": ["SR_Vessel/SR_hauptteile.py:raum_dict_checker"]}
{"id": "C72", "title": "Mantel geometry", "statement": "A new Mantel whose corners are pairwise at least 1e-5 apart consists of two Walls and two NonWalls forming a closed chain through its four corners with shared endpoints, its graph being the two Walls, and no older object is touched. On the axis (pos_h = 0) the stored corners are mirror images of each other in every rounding arithmetic. isvalid is True in every rounding arithmetic for shells and cones on the axis and for cylinders anywhere, and in exact arithmetic for all shells on the coordinate grid; but in binary64 it is False for sound cones off the axis (d=(0.1, 0.4), h=1, pos_h=0.1), because the mid-axis comparison is exact. Conversely, whatever isvalid accepts has exactly two graph walls, running in opposite directions between the same two heights with the middles between them on one vertical line, and a valid outline.", "quantifier": "all dimensions and positions, all rounding arithmetics", "why_tests_cant": "the input space is infinite; a test only samples it", "anchors": ["SR_Vessel/SR_hauptteile.py:Mantel"]}
{"id": "C73", "title": "StandZarge is never valid and its graph is left behind", "statement": "StandZarge.isvalid is False for all dimensions and in every arithmetic, because its graph has three Walls where the inherited check expects two; its outline is nevertheless the outline of the Mantel of the same dimensions with a Wall at the bottom. The graph keeps the Wall objects of the first outline, none of which is in the second one, while the flag that the polyline is purged stays set: moving the StandZarge moves its outline exactly by the given offset and leaves its graph where it was.", "quantifier": "all dimensions, all arithmetics", "why_tests_cant": "the input space is infinite; a test only samples it", "anchors": ["SR_Vessel/SR_hauptteile.py:StandZarge"]}
{"id": "C74", "title": "Reference points of a torispherical head", "statement": "In exact arithmetic, for a head placed on the coordinate grid, of every diameter from 1e-6 on and of both orientations: the graph is two walls meeting in the apex; each gets two internal points strictly between base line and that wall and one external point strictly beyond it (with the stored, rounded coordinates). If pos_h is off the grid and rounded downwards (e.g. 1/3), both walls are taken for the left one and the right wall gets the reference points of the left one.", "quantifier": "all diameters, positions, orientations", "why_tests_cant": "the input space is infinite; a test only samples it", "anchors": ["SR_Vessel/SR_hauptteile.py:TorispherischesBoden.intex_points"]}
{"id": "C75", "title": "sphere_line_intersection", "statement": "In exact arithmetic and for a proper line, (None, None) is returned iff sphere and line have no common point; if they have exactly one (tangent) NameError is raised; otherwise the two returned points are different and are exactly the common points, the first one further along the line. A degenerate line always raises NameError, and ZeroDivisionError never occurs, in every rounding arithmetic. Tangency is reached in binary64.", "quantifier": "all spheres and lines, all rounding arithmetics for the error clauses", "why_tests_cant": "tangency is a measure-zero set", "anchors": ["geometry/additional_stuff.py:sphere_line_intersection"]}
{"id": "C76", "title": "order() restores every shuffled cycle", "statement": "If the segments of a polyline are, in any order and any direction, the sides of one closed walk through at least three different separated points, and there are fewer than 250 of them, order() returns True and the new segment list is a permutation of the same segment objects in which every segment ends where the next one starts and the last one ends where the first one starts; no coordinate changes.", "quantifier": "all cycles with 3 to 249 sides, all orders, all directions, all coordinates", "why_tests_cant": "the number of shuffles and reversals grows factorially; tests try a few", "anchors": ["geometry/SR_polygon.py:PolygonLine.order"]}
{"id": "C77", "title": "An edge is flipped only when a vertex is inside a circumcircle", "statement": "In exact arithmetic, on a mesh where the triangles on the two sides of every inner edge lie strictly on opposite sides of it, flipOneEdge changes the mesh only if the third vertex of the second triangle lies strictly inside the circumcircle of the first; then the two triangles are replaced by the two other triangles of a convex quadrilateral, and the mesh stays planar with the same points, the same number of triangles, the same total area and a sound table.", "quantifier": "all planar meshes with a sound table, all edges", "why_tests_cant": "the input space is infinite; a test only samples it", "anchors": ["geometry/SR_polygon.py:Delaunay2d.flipOneEdge"]}
{"id": "C78", "title": "flipEdges terminates in a Delaunay mesh", "statement": "In exact arithmetic, on every planar mesh with a sound table, the while loop of flipEdges terminates for every order in which the edge sets are iterated; if it was started on all edges and does not raise, then at every edge with two triangles the two opposite angles sum up to at most pi (1 + EPS), and points, number of triangles, total area and planarity are kept.", "quantifier": "all planar meshes, all iteration orders of the Python sets", "why_tests_cant": "termination is a statement about infinitely many executions; set iteration order varies between runs", "anchors": ["geometry/SR_polygon.py:Delaunay2d.flipEdges"]}
{"id": "C79", "title": "Cross product from a common start and collinearity", "statement": "crossproduct_commonstart raises AssertionError iff the start points of the two segments are not equal, else (exact) it returns twice the signed area of the triangle of the three points and changes sign when the segments are exchanged. A segment is collinear with itself and its reversal; (exact) s.is_collinear(o) is True iff each end of o equals an end of s or spans with s a triangle of doubled area below 1e-8. is_collinear is not symmetric.", "quantifier": "all pairs of segments", "why_tests_cant": "the input space is infinite; a test only samples it", "anchors": ["geometry/SR_line.py:LineSegment.crossproduct_commonstart", "geometry/SR_line.py:LineSegment.is_collinear"]}
{"id": "C80", "title": "intersection_on_endpoint and bounding box of a segment", "statement": "intersection_on_endpoint is False for parallel segments, True for touching non-parallel ones, and else True iff the computed point of intersection equals one of the four ends; it is symmetric. (exact) It is True whenever an end of one segment lies on the line of the other, even outside of that segment. bounding_box of a segment is the smallest axis-parallel box around its two ends.", "quantifier": "all pairs of segments", "why_tests_cant": "the input space is infinite; a test only samples it", "anchors": ["geometry/SR_line.py:LineSegment.intersection_on_endpoint", "geometry/SR_line.py:LineSegment.bounding_box"]}
{"id": "C81", "title": "find_loops raises on a single loop", "statement": "On a group whose segments form one loop head to tail through different, separated points (3 to 249 segments), find_loops raises IndexError, for all iteration orders of sets: it finds the loop, removes all segments from the graph and walks the empty graph. The same loop of Walls with two of them in the other direction is returned, with segments left in the graph.", "quantifier": "all single loops, all iteration orders of sets", "why_tests_cant": "the input space is infinite; a test only samples it", "anchors": ["geometry/SR_polygon_group.py:BehalterGraph.find_loops", "geometry/SR_polygon.py:walk_segments"]}
{"id": "C82", "title": "overlaps_in_cycles", "statement": "overlaps_in_cycles has exactly the keys (a, b) with a < b of pairs of cycles with a common part, each once, with the common parts as value.", "quantifier": "all groups", "why_tests_cant": "the input space is infinite; a test only samples it", "anchors": ["geometry/SR_polygon_group.py:BehalterGraph.overlaps_in_cycles"]}
{"id": "C83", "title": "is_internal_point does not depend on the random targets", "statement": "For a closed polygon with different vertices and a point on none of its sides, is_internal_point gives the same answer in the first round for all random targets in general position (to the right of the point and of all vertices, line of sight through no vertex, no near misses): the parity of the number of sides met on the way to any such target. is_external_point is the opposite and is_on_boundary is False. It is enough that one of the three targets of every round is in general position: a round with different parities is repeated, so no other answer can be returned; the loop ends with the first round of three such targets at the latest, but nothing bounds the number of rounds.", "quantifier": "all closed polygons, also non-convex and self-intersecting; all points on no side; all targets in general position; exact arithmetic with the 8 decimal rounding of Points", "why_tests_cant": "the targets are random and the input space is infinite; a test only samples both", "anchors": ["geometry/SR_polygon.py:PolygonLine.is_internal_point", "geometry/SR_line.py:LineSegment.intersection_on_segment"]}
{"id": "C84", "title": "is_internal_point is correct for convex polygons", "statement": "For a strictly convex polygon, in either direction, and random targets in general position, is_internal_point returns True for every point strictly inside and False for every point strictly outside, in the first round. A point on a side (not a vertex) of a counter-clockwise one counts as internal if the targets are on the outer side of this side and as external if they are on its inner side: so all points of a vertical right side are internal and all points of a vertical left side external.", "quantifier": "all strictly convex polygons, all points, all targets in general position; exact arithmetic", "why_tests_cant": "the targets are random and the input space is infinite; a test only samples both", "anchors": ["geometry/SR_polygon.py:PolygonLine.is_internal_point"]}
{"id": "C85", "title": "random targets of is_internal_point", "statement": "For a bounding box with positive upper bounds (x, y) the targets are the rounded points of [x, 500x] x [y, 30y]; with x < 0 they lie to the left of the right end of the polygon; with x = y = 0 every target is the origin. For the square with corners (-1, -1) and (0, 0) the centre is therefore reported external, for all random choices.", "quantifier": "all polygons; all random choices", "why_tests_cant": "the targets are random and the input space is infinite; a test only samples both", "anchors": ["geometry/SR_polygon.py:PolygonLine.is_internal_point"]}
{"id": "C86", "title": "PolygonLine.mirror_vertical", "statement": "mirror_vertical(x0) on a polyline with different vertices moves every vertex exactly once, also when consecutive segments share their Point objects or when they are separate equal ones, and changes no other Point; in exact arithmetic with 8-decimal numbers every endpoint (x, y) becomes (2*x0 - x, y) and mirroring twice restores all segments.", "quantifier": "all polylines whose vertices differ by more than the equality tolerance, any sharing of Point objects, all axes", "why_tests_cant": "the input space is infinite; a test only samples it", "anchors": ["geometry/SR_polygon.py:PolygonLine.mirror_vertical", "geometry/SR_polygon.py:PolygonLine.purge"]}
{"id": "C87", "title": "PolygonLine.rotate_about_origin and rotate_about_xy", "statement": "rotate_about_origin(phi) moves every endpoint exactly once, to the position rotated counter-clockwise by phi degrees about the origin, rounded to 8 decimals (error at most 5e-9 per coordinate), a quarter turn is exact; rotate_about_xy(x0, y0, phi) does the same about (x0, y0) for vertices at least 2e-5 apart and leaves an endpoint at the centre in place. No other Point is changed.", "quantifier": "all polylines with separated vertices, any sharing of Point objects, all angles and centres; exact arithmetic with the 8 decimal rounding of Points", "why_tests_cant": "the input space is infinite; a test only samples it", "anchors": ["geometry/SR_polygon.py:PolygonLine.rotate_about_origin", "geometry/SR_polygon.py:PolygonLine.rotate_about_xy"]}
{"id": "C88", "title": "PolygonLine.midpoint is the average of the vertices", "statement": "midpoint is the average of the different vertices, rounded to 8 decimals, every vertex counted once; it does not depend on the order or the direction of the segments; for a polyline without segments it raises ZeroDivisionError.", "quantifier": "all non-empty polylines with separated vertices; exact arithmetic", "why_tests_cant": "the input space is infinite; a test only samples it", "anchors": ["geometry/SR_polygon.py:PolygonLine.midpoint"]}
{"id": "C89", "title": "Delaunay2d.addPoint keeps the mesh and its tables consistent", "statement": "addPoint (before the flips), for a point used by no triangle on a mesh with a consistent edge2Triangles table and a boundary of edges with one triangle each, raises nothing, appends exactly one triangle for each boundary edge the point sees, made of that edge and the point, and keeps the table consistent with at most two triangles per edge; the new boundary consists of the unseen edges and the edges to the new point having one triangle, and is a boundary again if the seen edges are consecutive. In exact arithmetic, a point not within EPS of the line of a boundary edge sees exactly the edges it is to the right of; the mesh stays planar, to the left of its boundary, all new triangles are counter-clockwise and the total area grows by the triangles added. The first triangle of triangulate satisfies all these assumptions; no triangle is made iff all triples of consecutive points have an area below EPS.", "quantifier": "all meshes, all points, every iteration order of the boundary set", "why_tests_cant": "the input space is infinite; a test only samples it", "anchors": ["geometry/SR_polygon.py:Delaunay2d.addPoint", "geometry/SR_polygon.py:Delaunay2d.isEdgeVisible", "geometry/SR_polygon.py:Delaunay2d.triangulate"]}
{"id": "C90", "title": "ear_clipping yields a triangulation with the area of the polygon", "statement": "ear_clipping of a polygon with n >= 3 corners, different corners at least 1e-5 apart, sides in any order and direction: whatever corner is chosen in each round and whatever triangle_ok answers, if it returns True, exactly n-2 triangles have been stored, the segments of each are the sides of a triangle whose three corners are corners of the polygon in their cyclic order, and the signed areas of the triangles add up to the signed area of the polygon; no two of them are equal, so that the set they are stored in has them all; if it returns False, what is missing is the signed area of the polygon left over. More than 5002 corners never give True. In exact arithmetic nothing is raised, the areas computed from the stored triangles add up to at least the area of the polygon, to exactly this area for convex counter-clockwise ones, and a convex counter-clockwise polygon of at most 5002 corners without nearly collinear corners is finished if triangle_ok accepts. The stored triangles share the cutting segments, which later triangles turn round: already for a quadrangle the first stored triangle is not closed in the end, so that its own is_triangle is False.", "quantifier": "all polygons, all choices of corners, all answers of triangle_ok", "why_tests_cant": "the input space and the sequences of random choices are infinite; a test only samples them", "anchors": ["geometry/SR_polygon.py:PolygonLine.ear_clipping", "geometry/SR_polygon.py:Triangle.__init__", "geometry/SR_polygon.py:PolygonLine.is_triangle"]}
{"id": "C91", "title": "Walls of the rooms of a vessel", "statement": "raum_erstellen makes one room per cycle; the outer wall of a room is the list of the parts of its cycle, and a room whose cycle contains no other cycle has no inner wall. If the cycle contains others, the inner walls are exactly the parts that belong to one cycle only, where this cycle is contained in the room or touches (shares a part with) another cycle anywhere in the vessel. So the inner walls are right if all touching cycles are contained in the room, and otherwise walls of unrelated rooms, or of the room itself, are listed as inner walls. IndexError is raised exactly if some cycle contains another and, in the sorted list of touching pairs, a pair has a cycle in common with an earlier pair at an index beyond the number of wall lists made so far; e.g. if the first cycle touches three others. With at most two touching pairs no error is raised.", "quantifier": "all dicts of the parts of the cycles, all containment relations", "why_tests_cant": "needs all configurations of cycles; the failures need three touching pairs or a nested room beside a touching one", "anchors": ["SR_Vessel/SR_hauptteile.py:Behalter.raum_erstellen"]}
{"id": "C92", "title": "Contained cycles", "statement": "contained_cycles lists under every cycle e, in the order of the keys, exactly the other cycles all of whose corners are strictly inside the convex hull of the corners of e, or on a side of this hull (not a vertex) that has the random targets on its outer side. It decides by the hull and not by the cycle itself: a cycle in a notch of e is listed although all of its corners are outside e. A cycle with a corner at a vertex of the hull is never listed; one that touches a vertical side from inside is listed if it is the right side and not if it is the left side. Strict containment is transitive and never mutual. A cycle without parts is contained in all others, and makes the property raise AttributeError if another cycle has a corner.", "quantifier": "all dicts of cycles whose corners are on the coordinate grid, 1e-5 apart and not on one line; all random targets in general position; the vertex case for all random targets", "why_tests_cant": "needs all positions of all corners relative to the hull and all random targets", "anchors": ["geometry/SR_polygon_group.py:Graph.contained_cycles"]}
{"id": "C93", "title": "A polygon drawn in any order", "statement": "For a closed polygon no side of which is drawn twice, is_internal_point gives the parity of the number of sides met by a segment from the point to any target in general position, whatever the order of the segments in the list, the direction of each and their class; for strictly convex polygons this is True for all points strictly inside and False for all points strictly outside. A further copy of a side in the same direction does not change any answer. A further copy in the opposite direction is counted as a second side: a point strictly inside a convex polygon is then reported as external if the random targets are seen through this side.", "quantifier": "all closed polygons with vertices 1e-5 apart, all reorderings and reversals of their sides, all points off the sides, all random targets in general position", "why_tests_cant": "needs all orders and directions of all lists of segments and all random targets", "anchors": ["geometry/SR_polygon.py:PolygonLine.is_internal_point"]}
{"id": "C94", "title": "Reference points of a shell", "statement": "Mantel.intex_points makes four reference points per wall, two on either side. The distance from the right wall is min(h/10, d/1e5, 0.002), from the left wall d/1e5 without a limit (the abscissa relative to the axis is negative there and wins the min before abs is taken), so the points are not symmetric. For a shell on the coordinate grid with a lower diameter of at least 0.01 and not flatter than 1:10 the four points of a side wall are on the sides they are meant for, and are sorted correctly: two internal, two external. The four points of the bottom wall of a skirt lie on the wall itself: all are sorted as external if the random targets are above the bottom, and all as internal if they are below. The targets are above whenever the top of the skirt is not below 0; below that (a skirt from -10 to -5) the result is external, internal or an Exception, depending on chance.", "quantifier": "all shells with the dimensions given, cylinders and cones, on and off the axis; all random targets in general position; the last failure is a witness in binary64", "why_tests_cant": "needs all dimensions and all random targets", "anchors": ["SR_Vessel/SR_hauptteile.py:Mantel.intex_points", "SR_Vessel/SR_hauptteile.py:StandZarge"]}
{"id": "C95", "title": "Outliers of a drawing", "statement": "remove_outlier_segments keeps, in their order, exactly the segments both endpoints of which are an end of another segment as well (a null segment counts as its own neighbour). A closed polygon, drawn in any order and with any direction of its sides, is returned unchanged, for any comparison of points. Only one round is made: of a tail of two segments at a closed polygon the first remains and is then an outlier itself; a second call would remove it.", "quantifier": "all lists of segments whose different endpoints are not ==; the case of closed polygons without this condition", "why_tests_cant": "needs all drawings", "anchors": ["geometry/SR_polygon.py:remove_outlier_segments", "geometry/SR_polygon.py:simplify"]}
{"id": "C96", "title": "Which rooms are inside and outside of a part", "statement": "If all random tests end, raum_intex puts a room into innenraum (aussenraum) of a part iff the part is a wall of a room of that name, has internal (external) reference points at all, and all of those of at least one of its graph segments are in the room's polygon without outliers; into indifferent iff some indifferent point is not in it. So one wall of a part is enough, whatever the points of the others say. A segment without points of a kind is enough, too: the room is recorded wherever it is. Therefore every room that has a skirt as a wall is an innenraum of the skirt (its bottom wall has no internal points, C94), also the room that surrounds it.", "quantifier": "all lists of rooms and parts, all reference points, all random targets for which the tests end", "why_tests_cant": "needs all configurations of rooms and all answers of the random tests", "anchors": ["SR_Vessel/SR_hauptteile.py:Behalter.raum_intex"]}
{"id": "C97", "title": "A vessel with one room", "statement": "For a room whose walls draw, in any order and direction, a strictly convex polygon, and whose parts have their reference points on the proper sides of it, raum_intex records the room as innenraum of each of its parts and nothing else. This applies to every cylindrical shell closed by two torispherical heads: the constructors make the graphs and reference points without an error, whatever the random targets in general position, and the room made of these three parts is the innenraum of all three, never aussenraum or indifferent.", "quantifier": "all cylinders on the coordinate grid with a diameter of at least 0.01 and a height of at least 1e-6, all orders of the walls, all random targets in general position", "why_tests_cant": "needs all dimensions and all random targets", "anchors": ["SR_Vessel/SR_hauptteile.py:Behalter.raum_intex", "SR_Vessel/SR_hauptteile.py:Mantel", "SR_Vessel/SR_hauptteile.py:TorispherischesBoden", "geometry/SR_polygon_group.py:Graph.add_intex_points"]}
{"id": "C98", "title": "Cutting shells with the end of a room", "statement": "Hauptteil.split with a RaumEnde that passes both walls of a shell replaces each wall by its two halves at the exact point of intersection (rounded to 8 decimals), appended behind the other sides, returns True, and the RaumEnde becomes two Walls outside of the shell and a NonWall inside; split(v=...) cuts the shell in the same way with a line of its own. A line beside, above, below or ending inside of the shell changes nothing and gives False, heads are never cut, and a RaumEnde does not cut itself. The point test of the cut shell answers as before: True strictly inside and False strictly outside; in general it does not depend on how the sides of a polygon are subdivided. But a cut shell is never valid again, and a line that passes one wall only raises IndexError after that wall has been cut. So a RaumEnde can cut one shell only: with a shell in a jacket, cut_by_raumende raises IndexError if the inner shell comes first, and leaves the inner shell uncut if the outer one comes first.", "quantifier": "all cylindrical and conical shells on the coordinate grid with radii of at least 1e-5, all levels at least 1e-5 from the ends of the walls, all lines that end at least 2e-5 beyond or 2e-8 before the wall, all random targets in general position", "why_tests_cant": "needs all dimensions, levels, lengths of the line and random targets", "anchors": ["SR_Vessel/SR_hauptteile.py:Hauptteil.split", "SR_Vessel/SR_hauptteile.py:Behalter.cut_by_raumende", "SR_Vessel/SR_hauptteile.py:RaumEnde", "geometry/SR_polygon.py:intersecting_lines", "geometry/SR_line.py:LineSegment.intersection_on_endpoint"]}
{"id": "C99", "title": "The area of polygons", "statement": "triangle_mesh gives the library every segment as the numbers of its ends in point_set. For a closed polygon whose sides are listed in any order and direction, if the library answers with counter-clockwise triangles between the vertices, of which those whose stored midpoint is inside fit together to the polygon without containing other vertices, then exactly these triangles are stored, the others are dropped (no two of the stored ones are equal if every two differ in a corner, so the set has them all), and area is the area by the shoelace formula rounded to 8 decimals; for a strictly convex polygon it is enough that the triangles fit together and their stored midpoints are inside. A triangle with another vertex of the polygon strictly inside is never accepted. If the library gives no triangles the area is 0. area is calculated once: the value stays whatever becomes of the segments. And as the midpoints are tested with is_internal_point, the area of the square with corners (-3, -3) and (0, 0) is 0 for both ways of cutting it into two triangles and all random choices.", "quantifier": "all closed polygons on the coordinate grid with vertices at least 1e-5 apart and no side drawn twice, all answers of the library of that kind, all random targets in general position", "why_tests_cant": "needs all polygons, all triangulations the library may return and all random choices", "anchors": ["geometry/SR_polygon.py:PolygonLine.area", "geometry/SR_polygon.py:PolygonLine.detailled_area", "geometry/SR_polygon.py:PolygonLine.triangle_mesh"]}
{"id": "C100", "title": "The relation of two triangles", "statement": "For two triangles, drawn in any order and direction of sides, that may share corners or sides but are otherwise in general position: Triangle.overlap returns True exactly if some point is strictly inside of both and they do not have the same corners, and is symmetric; enclosed returns True exactly if the whole closed other triangle is strictly inside, otherwise None; touch returns True exactly if they share one side; Triangle.disjunct returns True exactly if no point is strictly inside of both and they share no side. For two polygons with stored triangulations PolygonLine.disjunct returns True exactly if no point is strictly inside of a triangle of each. But polygons that have not been triangulated are always disjunct, a polygon and itself too; two triangles on the same side of a common side both touch and overlap; two neighbours whose sides are all Walls (or NonWalls) share a side but do not touch; and if the common side is a Wall in one and a LineSegment in the other triangle, overlap and touch raise an Exception.", "quantifier": "all pairs of counter-clockwise triangles on the coordinate grid with corners at least 1e-5 apart whose sides cross or miss clearly, all pairs of polygons with such triangles, all random targets in general position", "why_tests_cant": "needs all relative positions of two triangles and all random targets; the combinations of shared corners, crossings and containment cannot be sampled completely", "anchors": ["geometry/SR_polygon.py:Triangle.overlap", "geometry/SR_polygon.py:Triangle.enclosed", "geometry/SR_polygon.py:Triangle.touch", "geometry/SR_polygon.py:Triangle.disjunct", "geometry/SR_polygon.py:PolygonLine.disjunct"]}
{"id": "C101", "title": "Circular arcs", "statement": "arc(P, r, alpha_start, alpha_end, n) makes n segments that join n + 1 points in their order, the k-th within 1.3e-8 of the point of the circle at alpha_start + k * (alpha_end - alpha_start) / n degrees, so all are at the distance r from P up to 2e-8; consecutive segments share their Point objects, the polyline is continuous and is closed exactly for a whole circle, and no other object is changed. Arguments out of range, and only these, fail an assertion. But with cw=True the result is not the reversed arc: it begins with the chord from the start to the end and the piece at the start is missing, and for a whole circle the first segment ends at the start of the circle before it was moved to its centre.", "quantifier": "all centres on the coordinate grid, radii, angles and numbers of pieces for which a piece, and the gap of an open arc, has a chord of at least 4e-5; all states of memory", "why_tests_cant": "needs all radii, angles and numbers of pieces; object identity", "anchors": ["geometry/SR_polygon.py:arc", "geometry/SR_polygon.py:polygon_from_nodes", "geometry/SR_polygon.py:PolygonLine.rotate_about_origin", "geometry/SR_polygon.py:PolygonLine.move"]}
{"id": "C102", "title": "Klöpper and Korbbogen heads are drawn by the standard", "statement": "In exact arithmetic, constructing a Klopperboden or Korbbogenboden with d >= 0.01 and h1 >= 0.00004 gives a polyline of 17 segments: 16 Walls (right cylinder, 3 steps of the right knuckle, 8 steps of the dish, 3 steps of the left knuckle, left cylinder) and one NonWall, the base. Its 17 vertices are different new Point objects shared by consecutive segments, each within 3e-8 of the vertex drawn with the radii of the standard (d and 0.1 d; 0.8 d and 0.154 d), for orient == -1 turned by 180 degrees, then moved to (pos_h, pos_v). The polyline is purged, continuous and closed, and no other object in memory changes. The crown is the highest vertex, 0.193...0.194 d respectively 0.254...0.255 d above h1. d == 0 raises ZeroDivisionError, d < 0 AssertionError, and any other class of head the bare Exception.", "quantifier": "all sizes d >= 0.01 and h1 >= 0.00004, all positions, both orientations, all states of memory; for the errors all d <= 0 and all h1", "why_tests_cant": "the six pieces are made, turned and moved separately and meet only up to rounding; that purge joins them to one ring for every size and position cannot be sampled", "anchors": ["SR_Vessel/SR_hauptteile.py:TorispherischesBoden.make_segments", "SR_Vessel/SR_hauptteile.py:TorispherischesBoden.__init__", "geometry/SR_polygon.py:arc", "geometry/SR_polygon.py:PolygonLine.purge"]}
{"id": "C103", "title": "Torispherical heads are valid convex polygons", "statement": "Every Klöpperboden and Korbbogenboden with d >= 0.01 and h1 >= 4e-5, constructed with orient 1 or -1 at any position, has isvalid True: its 17 sides are continuous and no two of them cross. Its sides form a strictly convex polygon that is passed counter-clockwise whatever the orientation is, so isconvex is True and iscw is False. For test targets in general position, is_internal_point of the polyline of the head is True for every point strictly inside and False for every point strictly outside. characteristic_size is half the diameter.", "quantifier": "for all diameters d >= 0.01, cylindrical heights h1 >= 4e-5, positions and both orientations, and for all points and all targets in general position (real arithmetic and trigonometry, coordinates stored to 8 decimals)", "why_tests_cant": "The test suite builds a few heads of fixed size; validity of every head needs the separation of all pairs of sides and the turning of all pairs of sides, against the rounding of the stored coordinates, for a continuum of sizes and positions.", "anchors": ["SR_Vessel/SR_hauptteile.py:TorispherischesBoden.isvalid", "SR_Vessel/SR_hauptteile.py:TorispherischesBoden.make_segments", "SR_Vessel/SR_hauptteile.py:TorispherischesBoden.characteristic_size", "geometry/SR_polygon.py:PolygonLine.isvalid", "geometry/SR_polygon.py:PolygonLine.isconvex", "geometry/SR_polygon.py:PolygonLine.iscw", "geometry/SR_polygon.py:PolygonLine.is_internal_point"]}
{"id": "C104", "title": "Flat heads and ends of rooms", "statement": "In exact arithmetic a Flachboden (or RaumEnde) with d >= 2e-5 is one new Wall from (pos_h - d/2, pos_v) to (pos_h + d/2, pos_v), each coordinate within 1e-8 (exact for dimensions on the grid of 8 decimals); its graph is the same Wall, its polyline is purged and no older object changes. It is always valid, also for d == 0; with its segment taken away isvalid and is_internal_point raise IndexError. A point is internal to a Flachboden iff it is within 1e-8 of the level of the wall and at least 1e-5 away from both ends. Its two reference points are 0.01 d above and below its centre, neither internal to it. In raum_intex of rooms whose walls each draw a strictly convex polygon, a room is recorded as inner room of the parts whose internal and external reference points are on their proper sides, as indifferent for every flat head that is a side of it (one of the two points is always outside), and for no RaumEnde. In particular a shell, cylindrical or conical, with a flat head or the end of a room at either end makes its room an inner room of the shell, indifferent for the flat heads, and nothing else.", "quantifier": "for all dimensions and positions with d >= 2e-5, all states of memory, all points, all lists of rooms with convex outlines in any order of the walls, all targets in general position; for the shell all sound dimensions with diameters at most 50 times the height", "why_tests_cant": "the tests print the dicts of single vessels; that one of the two reference points is outside of every room that has the flat head as a wall is a statement about all convex rooms", "anchors": ["SR_Vessel/SR_hauptteile.py:Flachboden.__init__", "SR_Vessel/SR_hauptteile.py:Flachboden.intex_points", "SR_Vessel/SR_hauptteile.py:Flachboden.is_internal_point", "SR_Vessel/SR_hauptteile.py:Flachboden.isvalid", "SR_Vessel/SR_hauptteile.py:RaumEnde.__init__", "SR_Vessel/SR_hauptteile.py:RaumEnde.intex_points", "SR_Vessel/SR_hauptteile.py:Behalter.raum_intex"]}
{"id": "C105", "title": "Parts from dicts", "statement": "from_dict of Mantel, Klopperboden, Korbbogenboden, Flachboden and RaumEnde returns a part iff the dict has all the needed keys, the constructor succeeds with their values, and every key of the dict is the name of an attribute of the new part; the part is that of the constructor. A missing key raises the bare Exception before anything is made. A key that is not the name of an attribute raises an AssertionError, but further items whose keys name any attribute (such as 'segments' or 'graph') and further numbers in 'd' are silently ignored. StandZarge.from_dict does not make a StandZarge but a Mantel: its graph has two walls instead of three. Rohrboden.from_dict never returns a part: it raises a TypeError if all keys are there. A tuple d of less than two diameters raises an IndexError, a plain number a TypeError.", "quantifier": "for all dicts with string keys, all results of hasattr, all states of memory; for the graph of the StandZarge all dimensions with separated corners", "why_tests_cant": "the tests call from_dict with one complete dict per class; the test named for StandZarge calls Mantel.from_dict, and the one for Rohrboden is commented out", "anchors": ["SR_Vessel/SR_hauptteile.py:Mantel.from_dict", "SR_Vessel/SR_hauptteile.py:Klopperboden.from_dict", "SR_Vessel/SR_hauptteile.py:Korbbogenboden.from_dict", "SR_Vessel/SR_hauptteile.py:Flachboden.from_dict", "SR_Vessel/SR_hauptteile.py:Rohrboden.from_dict", "SR_Vessel/SR_hauptteile.py:RaumEnde.from_dict", "SR_Vessel/SR_hauptteile.py:StandZarge"]}
{"id": "C106", "title": "The sharp-edged knuckle between cone and shell", "statement": "KegelKrempe with r = 0, for a cone under a shell on the same axis with the same diameter at the junction and cuts at least 1e-5 clear of the ends of both walls: with exact arithmetic it is built iff, for both parts, (height of the part) * (rounding error of the stored x coordinate of the cut) is below 1e-8; otherwise the constructor raises an AssertionError, so that ordinary dimensions are rejected by chance (binary64: cone of height 7 from diameter 2 to 4, cut 2 below the junction), while parts lower than 2 and cylinders are never rejected. If built, its segments are the counterclockwise closed hexagon through the two cuts and the junction on both sides, its graph the four walls of it; the cone and the shell above become the shells cut back to the cuts, the part below (Mantel or StandZarge) ends at the junction; nothing else in memory changes; the three outlines enclose the area of the uncut parts up to 2e-8; the hexagon is convex if the upper part does not widen. If the cone itself is given as the part below (as in the test of from_dict), it gets its full outline back and overlaps the knuckle. Cuts outside of the parts, cones that do not widen upwards and distances that are not positive raise an AssertionError.", "quantifier": "for all dimensions, positions and cut distances on the 8-decimal grid (as stated), all states of memory; arguments: all inputs and every rounding", "why_tests_cant": "the tests build three knuckles with short cones and check only the number of rooms and the sides of the parts; the acceptance test fails for dimensions between those tried", "anchors": ["SR_Vessel/SR_hauptteile.py:KegelKrempe.__init__", "SR_Vessel/SR_hauptteile.py:KegelKrempe.assert_checking", "SR_Vessel/SR_hauptteile.py:KegelKrempe.make_segments", "geometry/SR_line.py:LineSegment.is_point_on_line"]}
{"id": "C107", "title": "Reference points of the sharp-edged knuckle", "statement": "KegelKrempe.intex_points (r = 0) places four points for each of the four walls in the graph, two on each side of the wall near its ends. The distance from a right wall is min(height/10, diameter/1000, 20) of the half the wall belongs to, the distance from a left wall is diameter/1000 whatever the height, so that the points are not mirror images. For a knuckle on the grid whose two halves are sound (diameters at least 0.01, heights at least 1e-6, no wall flatter than 1:10) and whose upper half does not widen, the four points of a wall are sorted into two internal and two external ones without an exception, with the same result for all ray targets in general position outside of the outline and for every listing order and direction of the segments (that is before and after order()), the internal ones lie strictly inside the hexagon and the external ones strictly outside; adding them to a graph records exactly these.", "quantifier": "for all such knuckles, all sequences of ray targets in general position (GoodTarget, Spread), all listing orders and directions of the segments; offsets: all inputs, exact arithmetic", "why_tests_cant": "the tests build three knuckles and only count rooms; they do not look at the points or at the random choice of the ray's end", "anchors": ["SR_Vessel/SR_hauptteile.py:KegelKrempe.intex_points", "SR_Vessel/SR_hauptteile.py:KegelKrempe.__init__", "geometry/SR_polygon_group.py:Graph.add_intex_points"]}
{"id": "C108", "title": "Removal of collinear points", "statement": "remove_collinear_points of a closed polygon of directed segments (listed in any order) works on a copy, the polygon and everything else in memory stays as it is. Each vertex is looked at once and left out if the cross product with its neighbours at that time is below 1e-8; the result is a closed polygon of new objects through the remaining vertices in the same order and direction, if at least three remain; segments between former neighbours keep their class, the new ones are plain LineSegments. Twice the area changes by at most 1e-8 for each vertex left out. If the coordinates have at most four decimals and the vertices are not all on one line, exactly the corners remain (vertices not on the line through their neighbours; there are at least three), and the area is the same; tips of spikes are removed as well, although they are not between their neighbours. Small polygons vanish: for a square of side 5e-5 an AssertionError is raised. A polyline that begins with a loose end raises an IndexError.", "quantifier": "for all closed polygons with 3 to 249 vertices at least 1e-5 apart, all listing orders; process: every rounding; area and corners: exact arithmetic", "why_tests_cant": "the only test removes the collinear points of one polygon in its 22 rotations and compares areas; whether all and only the right points are removed depends on the order in which they are visited", "anchors": ["geometry/SR_polygon.py:remove_collinear_points", "geometry/SR_polygon.py:PolygonLine.neighbour", "geometry/SR_polygon.py:PolygonLine.find_segment_by_point", "geometry/SR_polygon.py:PolygonLine.order"]}
{"id": "C109", "title": "Angles and quality of a triangle", "statement": "For three segments that join three distinct corners, in whatever directions, Triangle.angles are the three angles of the triangle, the first at the common corner of the first two segments, then that of the first and third, then that of the second and third: the reversals made for one pair do not spoil the next. They are between 0 and 180, add up to 180, and no exception is raised (exact arithmetic). Triangle.quality is between 0 and 240 and zero exactly if the three sides have the same length. In binary64 angles raises a ValueError for some thin triangles that pass is_triangle (witness with corners (0,0), (6,26), (12,52.00000001)).", "quantifier": "for all triangles with corners that are not equal for the code, all directions of the segments; exact real arithmetic with the real arccos", "why_tests_cant": "the only test takes one right-angled isosceles triangle with its segments in circular order", "anchors": ["geometry/SR_polygon.py:Triangle.angles", "geometry/SR_polygon.py:Triangle.quality", "geometry/SR_line.py:LineSegment.angle_between_lines"]}
{"id": "C110", "title": "find_loops on a single loop that does not run one way", "statement": "If the segments of a group draw, in any order, one closed outline with different, separated corners (3 to 124 sides), and of its Walls and NonWalls some run with and some against the outline, find_loops returns exactly one polygon, a closed chain that draws the outline, whatever the iteration orders of sets - provided that every closed chain drawing the outline is valid. (For segments that all run the same way it raises IndexError, C81.) In exact arithmetic the condition is met if any two sides have a corner in common or lie in different strips; so for every cylindrical shell with a torispherical head at each end find_loops of the group of their graphs returns exactly one closed polygon, which draws the six Walls. On an open chain the result depends on the iteration order of sets: for three Walls in an open chain one order gives no loop, another one a polygon that passes one Wall to and fro.", "quantifier": "for all groups of such segments, all iteration orders of every set, all memories (shared or separate Points), all dimensions of shell and heads on the grid", "why_tests_cant": "the result of the walk depends on the iteration order of sets of segments, and the tests run with one order and a few fixed vessels", "anchors": ["geometry/SR_polygon_group.py:BehalterGraph.find_loops", "geometry/SR_polygon.py:walk_segments", "geometry/SR_polygon.py:PolygonLine.order"]}
{"id": "C111", "title": "Rooms of a vessel with one loop", "statement": "A part is listed under a cycle (segments_in_cycles) iff all ends of its segments are corners of the cycle or one of its segments is, with direction and class, a side of it; so a Wall across a room between two of its corners is listed as well. If find_loops gives exactly one polygon, which draws all graphs of the vessel, and the wall segments of the parts draw a closed outline with different, separated corners and fewer than 250 sides, the vessel has exactly one room: all parts, in their order, are its outer wall, and it has no inner wall; the only exception is one of the triangulation of the loop, which is passed on. This holds for every cylindrical shell with a torispherical head at each end, whatever the order of the parts and of sets. PolygonGroup.cycles gives the outline of the walls as a closed chain; with 250 or more sides it raises; walls that cannot be put in order are given as they are, without outliers, and if no two ends of the walls are equal the result has no valid segment. The rooms are named R1, R2, ..., no two alike. If there is no loop at all, the cycles are a TypeError (len(None)); cycles once calculated are returned unchanged.", "quantifier": "for all vessels with such a loop, all iteration orders of sets, all answers of the triangulation library, all memories", "why_tests_cant": "the rooms come from a chain of set-based steps and random tests; the tests use a few fixed vessels with one iteration order", "anchors": ["geometry/SR_polygon_group.py:BehalterGraph.cycles", "geometry/SR_polygon_group.py:BehalterGraph.segments_in_cycles", "geometry/SR_polygon_group.py:PolygonGroup.cycles", "geometry/SR_polygon_group.py:BehalterGraph.keep_base_polygons", "SR_Vessel/SR_hauptteile.py:Behalter.raum_erstellen"]}
{"id": "C112", "title": "Choice of the rooms among several loops", "statement": "keep_base_polygons of two or more polygons first drops loosely equal polygons and polygons whose area is a sum of areas (C69). From the rest it returns a selection of polygons no two triangles of which overlap or are congruent, with as many polygons as possible and among these with the largest sum of areas; perhaps followed by one more polygon. This holds whatever the hashes of the polygons (hashes of temporary generator objects) and the iteration orders of sets are; the pre-filter of overlapping pairs, which depends on hashes, has no effect on the result. Rooms that do not clash are all kept; of rooms beside each other and their outline exactly the rooms are kept. Of two rooms that clash the larger one comes first and the other one follows if all points of the larger one are internal or all are external points of it; otherwise (partial overlap) it is lost without notice. If two or more polygons are left out, as for three nested rooms, an Exception is raised; if the triangles of every polygon clash, an IndexError. Of loosely equal polygons the last one is kept if sets find their members, but all are kept if no hash is met twice.", "quantifier": "for all lists of different polygons, all answers to membership questions that do not find absent elements, all iteration orders", "why_tests_cant": "hashes of generator objects depend on memory addresses, so each run of a test sees one of many behaviours", "anchors": ["geometry/SR_polygon_group.py:BehalterGraph.keep_base_polygons", "geometry/SR_polygon.py:PolygonLine.__hash__", "geometry/SR_polygon.py:PolygonLine.disjunct"]}
{"id": "C113", "title": "Look-ups in groups and polylines", "statement": "PolygonGroup.polygon_from_repr(rep) returns a polygon iff exactly one position of the group holds a polygon equal to rep, and then this one; otherwise it raises an Exception. name_from_repr of a list of polygons of a group of different polygons is the list of their names, in order, and of a single polygon its name; polygons that are unknown or equal to two of the group are left out without notice; other types are an Exception. segments_from_points gives, in order, the polygons with at least one segment both ends of which are among the points. as_edgelist is a TypeError as soon as two segments of the group differ in an end, because Points have no order. PolygonLine.discontinuity lists the segments that are not continuous with their predecessor, and is empty iff the polyline is continuous. next_segment of a side of a closed chain is the side that follows it, after the last one the first; on an open polyline it is an AssertionError, and with isclosed=False a NotImplementedError.", "quantifier": "for all groups, polylines, arguments; for points: locations apart by at least the tolerance", "why_tests_cant": "there are infinitely many groups and arguments; that an edge list fails on every group with two different segments cannot be seen from examples", "anchors": ["geometry/SR_polygon_group.py:PolygonGroup.polygon_from_repr", "geometry/SR_polygon_group.py:PolygonGroup.name_from_repr", "geometry/SR_polygon_group.py:PolygonGroup.segments_from_points", "geometry/SR_polygon_group.py:PolygonGroup.as_edgelist", "geometry/SR_polygon.py:PolygonLine.discontinuity", "geometry/SR_polygon.py:PolygonLine.next_segment"]}
{"id": "C114", "title": "Joining a set of points", "statement": "segments_from_pointset of different points tries each point as a start, and joins all points in the order of their distance from the start (not from the point reached last). It returns the shortest one of these paths, whatever the iteration order of the set is. For points on a line this is a shortest way to join the points; in general it is not, although the docstring says so: for the corners of a rectangle with sides 2 and 3 the result always contains a diagonal and is longer than 7.6, while 7 is possible. No points, or no path shorter than 10e10, are an UnboundLocalError; a point given twice is an IndexError.", "quantifier": "for all lists of points that are apart by at least the tolerance and all iteration orders of the set; for points on a line: exact arithmetic", "why_tests_cant": "the order of the set depends on hashes, and the optimality for points on a line is a statement on all paths", "anchors": ["geometry/SR_polygon.py:segments_from_pointset"]}
{"id": "C115", "title": "The regions told apart by is_internal_point", "statement": "For any closed polygon, convex or not, no side of which is drawn twice, and for any path with straight pieces that passes no vertex, is_internal_point gives the same answer at both ends of the path iff the path meets the sides an even number of times. So all points that can be joined without meeting a side get the same answer; two points with exactly one side between them get opposite answers; and every point from which a path that meets no side leads beyond a straight line that has the whole polygon on its other side is external, e.g. in the notch of a polygon in the shape of a U.", "quantifier": "all closed polygons with the sides listed in any order and direction, all points off the sides, all paths, all random targets in general position; exact arithmetic", "why_tests_cant": "needs all polygons, all paths and all random targets; a statement on whole regions of the plane", "anchors": ["geometry/SR_polygon.py:PolygonLine.is_internal_point", "geometry/SR_polygon.py:PolygonLine.is_external_point"]}
{"id": "C116", "title": "Refinement of boundaries", "statement": "Delaunay2d.refine_boundaries is a ValueError without constraints and a ZeroDivisionError if a constraint has length zero; otherwise it succeeds. It cuts every constraint into n >= 2 pieces, also the shortest one, and appends both ends of every piece to the points, in order, so that every inner point is appended twice. The pieces of a constraint are of equal length, shorter than the shortest constraint but at least half as long; the stored points deviate from this by at most 1e-8, so that the distance of the two ends of each piece is between m/2 - 2e-8 and m + 2e-8, where m is the shortest length.", "quantifier": "for all lists of constraints and points; exact arithmetic with coordinates rounded to 8 decimals", "why_tests_cant": "the bounds hold for all ratios of lengths, of which there are infinitely many", "anchors": ["geometry/SR_polygon.py:Delaunay2d.refine_boundaries", "geometry/SR_line.py:divide_line"]}
{"id": "C117", "title": "rotationsmatrix, simplify and ordered_copy", "statement": "rotationsmatrix(phi) has orthonormal rows and determinant 1, and turns the other way round than rotate_about_origin(phi): applied to the endpoints of the rotated polygon it gives back the original ones, up to 1e-8. simplify keeps exactly the segments both endpoints of which are the end of another segment as well, and of the internal and external points of the polygon's segments exactly those of a segment that is kept; indifferent points all remain, also those of removed segments. A closed polygon, drawn in any order and direction, all sure points of which belong to its sides, is not changed. ordered_copy leaves all objects as they are, the original is neither ordered nor reversed; for the shuffled sides of a closed walk (fewer than 250) it returns True, not an ordered polygon as its name says.", "quantifier": "for all angles with cos^2 + sin^2 = 1 and all polygons; simplify and ordered_copy: endpoints identical or at least 1e-5 apart, any rounding; rotations: exact arithmetic", "why_tests_cant": "needs all angles, all polygons and all orders of their sides", "anchors": ["geometry/SR_polygon.py:rotationsmatrix", "geometry/SR_polygon.py:PolygonLine.rotate_about_origin", "geometry/SR_polygon.py:simplify", "geometry/SR_polygon.py:PolygonLine.ordered_copy"]}
{"id": "C118", "title": "What a vessel reports about common parts of its rooms", "statement": "all_overlapping_segments lists a part once for every pair of rooms that have it: a part of m rooms is listed m(m-1)/2 times. overlaps_in_cycles and overlaps_in_cycles_named of a vessel have exactly the pairs of rooms with a common part as keys, in increasing order; the values are the Hauptteile of the common parts resp. the set of their names (so parts of equal names appear once). disjunct_cycles of a vessel never raises and reports, for every room, that there is no disjunct one, whatever the rooms are. node_degree is an AssertionError exactly for a node that is no key of the adjacency list, else the number of its neighbours.", "quantifier": "for all numbers of rooms and all assignments of parts to rooms", "why_tests_cant": "needs arbitrarily many rooms and parts; the tests have vessels with at most four rooms", "anchors": ["geometry/SR_polygon_group.py:BehalterGraph.all_overlapping_segments", "geometry/SR_polygon_group.py:PolygonGroup.overlaps_in_cycles", "geometry/SR_polygon_group.py:PolygonGroup.overlaps_in_cycles_named", "geometry/SR_polygon_group.py:PolygonGroup.disjunct_cycles", "geometry/SR_polygon_group.py:PolygonGroup.node_degree"]}
{"id": "C119", "title": "intersectsConstraint", "statement": "Delaunay2d.intersectsConstraint(edge) raises iff one of the two indices is not valid for the list of points (negative ones count from the end), and then an IndexError. Otherwise it is true iff some constraint that has no end in common with the edge meets it, provided that ends are equal or at least 1e-5 apart and no such constraint is in special position to the edge (the edge starting on its line, or missing it by less than 2e-8). A constraint with a common end is never counted, even if it covers the edge or a part of it.", "quantifier": "for all points, constraints and edges; exact arithmetic with the crossing point rounded to 8 decimals", "why_tests_cant": "the positions of an edge and the constraints are a continuum", "anchors": ["geometry/SR_polygon.py:Delaunay2d.intersectsConstraint", "geometry/SR_line.py:LineSegment.intersection_on_segment"]}
{"id": "C120", "title": "Delaunay2d.triangulate as a whole", "statement": "For at least three points in general position (no two equal; any three span a triangle of double area more than 1e-8) triangulate of a new Delaunay2d ends without an exception, in whatever order Python traverses its sets. The result is a triangulation of the convex hull of the points: the triangles together are exactly the hull, their interiors are disjoint, no triangle is flat, the boundary edges are exactly the sides of the hull; the edge table lists exactly the triangles at each edge, one or two; at every edge with two triangles the opposite angles sum up to at most pi (1 + 1e-8). If _pts.pop() gives ascending numbers (CPython), every point is a corner of a triangle, there are 2n - 2 - h triangles and getEdges returns 3n - 3 - h edges for n points and h hull sides; the edges with one triangle are exactly the sides of the hull. In another order exactly those later points become corners that are not in the convex hull of the points taken before; a point can be left out. Without general position the result can have a flat triangle: e.g. for the points (1,0), (-1,0), (-1,4), (5,0). Without points it raises a ZeroDivisionError; one or two points, or points on one line, give no triangle.", "quantifier": "for all lists of points in general position and all orders of iteration; exact arithmetic and exact angles, coordinates rounded to 8 decimals", "why_tests_cant": "needs all point sets and all hash orders; the claims about the union of the triangles and disjoint interiors are about infinitely many points of the plane", "anchors": ["geometry/SR_polygon.py:Delaunay2d.triangulate", "geometry/SR_polygon.py:Delaunay2d.addPoint", "geometry/SR_polygon.py:Delaunay2d.flipEdges", "geometry/SR_polygon.py:Delaunay2d.update_points", "geometry/SR_polygon.py:Delaunay2d.getEdges"]}
{"id": "C121", "title": "triangulate gives the Delaunay triangulation, whatever the orders", "statement": "For at least three points in general position (as in C120) no four of which are nearly on a circle (for any two of them seen from two others, the sine of the sum of the two angles is more than 10^-7.5 in absolute value), if _pts.pop() gives ascending numbers: three of the points are the corners of a triangle of the result of triangulate if and only if the circle through them has all other points strictly outside. Hence the triangles do not depend on the order in which the points are given nor on the orders in which Python traverses its sets. For points on a circle the order matters: the corners of a square are split along one diagonal or the other.", "quantifier": "for all lists of points in general position, no four nearly on a circle, and all orders of iteration; exact arithmetic and exact angles, coordinates rounded to 8 decimals", "why_tests_cant": "needs all point sets and all hash orders; a test sees one order of iteration per run", "anchors": ["geometry/SR_polygon.py:Delaunay2d.triangulate", "geometry/SR_polygon.py:Delaunay2d.flipOneEdge", "geometry/SR_polygon.py:Delaunay2d.flipEdges"]}
{"id": "C122", "title": "Vessels made of a stack of shells", "statement": "Let a vessel consist of one to 60 shells (Mantel), cylindrical or conical, one above the other with equal diameters where they meet, dimensions on the coordinate grid, each at least 1e-5 high, at least 0.01 wide and not flatter than 1:10, closed at each end by a torispherical head (Klopperboden), a flat head (Flachboden) or the end of a room (RaumEnde), the parts given in any order. Then find_loops returns exactly one closed polygon, which draws all Walls, whatever the order of the sets; Behalter has exactly one room if the triangulation of the loop ends without an exception, with all parts as its outer wall and no inner wall; and raum_intex records that room, also if it has a waist, as inner room of every shell and every torispherical head, as indifferent for every flat head (if the vessel is not lower than 1/50 of the diameter of that end), and as nothing else. The last part holds for any number of shells.", "quantifier": "for all stacks of shells, all kinds of ends, all orders of the parts and of the sets, all random targets in general position; exact arithmetic, coordinates rounded to 8 decimals", "why_tests_cant": "the number of shells, their dimensions, the hash orders and the random targets are unbounded; a test runs a few vessels", "anchors": ["SR_Vessel/SR_hauptteile.py:Mantel", "SR_Vessel/SR_hauptteile.py:Klopperboden", "SR_Vessel/SR_hauptteile.py:Flachboden", "SR_Vessel/SR_hauptteile.py:RaumEnde", "SR_Vessel/SR_hauptteile.py:Behalter", "geometry/SR_polygon_group.py:BehalterGraph.find_loops", "geometry/SR_polygon.py:PolygonLine.is_internal_point"]}
{"id": "C123", "title": "Almost all random targets of is_internal_point are in general position", "statement": "Let the points p be at least 3e-8 away from the sides of a polygon and, like its corners among each other, at least a >= 1e-5 apart from its corners. At a fixed abscissa u to the right of the corners, for ordinates v that are not steep seen from p (|v - p.y| <= (u - p.x)/2), a target (u, v) can only fail to be in general position (as C75, C93, C97, C115, C122 ask for) if v is nearer than 5e-8 (u - p.x)/a to the ordinate of the line from p through a corner. So among ordinates with larger distances at most one per point and corner is unsuitable. If the upper bounds X, Y of the bounding box are positive and not too small against the size M of the drawing (8M <= 500X, and (number of points)*(number of corners)*M/1e6 <= aY), there is a target that the code can draw, in the range [X, 500X] x [Y, 30Y], that is in general position seen from all points at once; with it is_internal_point ends in its first round for every point, with the parity of the number of sides met.", "quantifier": "for all polygons, points, abscissas, ordinates; exact arithmetic, coordinates rounded to 8 decimals", "why_tests_cant": "a test sees a few random draws; the bound is on all targets of all polygons and shows that the assumption on the targets in the other properties can be met", "anchors": ["geometry/SR_polygon.py:PolygonLine.is_internal_point", "geometry/SR_polygon.py:PolygonLine.bounding_box"]}
{"id": "C124", "title": "is_internal_point with rounding errors: right near the origin, blind far from it", "statement": "Let a polygon and a point be in the square |x|, |y| <= a, a target in |x|, |y| <= b, with 1e-6 <= a <= b <= 1e6; let the target be in general position (as in C83), all points 2e-5 apart, and no side nearly parallel to the line of sight or too short compared with its distance from the origin: a*a*b <= 2^15 |sight x side|. Then in floating point the number of crossings counted is the number of sides met, so is_internal_point returns the same parity for all such targets, and for a strictly convex polygon True for points inside and False for points outside; it is enough that one of the three targets of each round is such a target. The last condition is needed: an axis-parallel side whose line the code reads in a wrong place (the quotient in intersection_point is off by 3e-8 or more) is crossed by no line of sight, and in binary64 all four sides of the unit square with corners (30000.2, 30000.2) and (30001.2, 30001.2) are of this kind: is_internal_point is False for every point, its centre included, whatever the random targets are.", "quantifier": "for all polygons, points, targets and every correctly rounded arithmetic with at least 53 bits; the square: binary64, all points and all targets", "why_tests_cant": "tests use a few shapes near the origin; the bound covers all rounding errors at once, and the failure needs a shape that is small compared with its distance from the origin", "anchors": ["geometry/SR_polygon.py:PolygonLine.is_internal_point", "geometry/SR_line.py:LineSegment.intersection_point", "geometry/SR_line.py:LineSegment.intersection_on_segment"]}
{"id": "C125", "title": "Orientation tests and convex_hull with rounding errors", "statement": "In floating point the error of crossproduct, crossproduct_commonstart and of the turn computed in convex_hull is at most (|ab| + |cd|)/2^50 for the vector product ab - cd. So is_point_to_right is right for every point off the line by more than that (and False for the ends of the segment), is_point_to_left for every point off the line by 2e-8 more and not equal to an end, segments whose directions differ by more than that are not parallel and have an intersection point, isconvex / iscw / isccw of a valid polyline are right if all its corners turn by more than that, and convex_hull finds the convex hull (C34) if every three different points turn by more than that. If all coordinates are whole multiples, of less than 25 bits, of one power of two, then there is no error at all: is_point_to_right, is_parallel and convex_hull are exact, also for collinear points. (Without such a condition convex_hull can leave a point outside, C34.)", "quantifier": "for all segments, points, polylines and point sets and every correctly rounded arithmetic with at least 53 bits", "why_tests_cant": "a rounding error matters only for inputs that hardly any test contains; the bound holds for all of them", "anchors": ["geometry/SR_line.py:LineSegment.crossproduct", "geometry/SR_line.py:LineSegment.is_point_to_right", "geometry/SR_line.py:LineSegment.is_point_to_left", "geometry/SR_line.py:LineSegment.is_parallel", "geometry/SR_polygon.py:PolygonLine.isconvex", "geometry/SR_polygon.py:PolygonLine.iscw", "geometry/SR_polygon.py:convex_hull"]}
{"id": "C126", "title": "find_loops finds exactly the loops of a group in which the walk finds none", "statement": "Let a group have fewer than 250 segments between separated points, none of length zero and no two with the same ends. Once the walks of find_loops have stopped, its second stage (combinations) ends without exception, all polygons found by the walks are still drawn by returned polygons, every other returned polygon is a simple loop of three or more of the segments left by the walks, and every such loop is drawn by one of the returned polygons, provided that closed chains that draw it are valid. So if already the first walk finds no loop, the loops drawn by the returned polygons are exactly the simple loops of the group (if valid). Otherwise loops can be missed, depending on the iteration order of the set of segments: for a square with a diagonal (plain segments) one order gives all three loops, another one a single triangle, because the walk looks for branches only among the segments that start at the point it has reached; if the segments are Walls, the second order ends with an IndexError. And a loop can be returned twice: for a triangle on one side of a square and another triangle at a corner of the square the first triangle is.", "quantifier": "for all groups of such segments, all iteration orders of every set, all memories (shared or separate Points) and every correctly rounded arithmetic; the square: two explicit orders", "why_tests_cant": "the combinations stage removes segments from the graph while it runs; that no loop is lost by this, in any graph, cannot be tested by examples, and the missing loops depend on the order of a set, which changes from run to run", "anchors": ["geometry/SR_polygon_group.py:BehalterGraph.find_loops", "geometry/SR_polygon.py:walk_segments", "geometry/SR_polygon.py:PolygonLine.order"]}
{"id": "C127", "title": "Rounding errors do not break the outline, the loop and the room of a vessel", "statement": "In every correctly rounded arithmetic (binary64 included) a closed polyline with coordinates of at most a million whose sides pairwise share an end or are at least 1e-6 apart in x or in y has isvalid True. So let shells (cylinders or cones) have positions of at most 1e5, heights from 1e-4 and diameters from 0.01 to 1e5, with any number of decimals: the outline of each is a valid polyline through its four computed corners, its graph are the two Walls, and isvalid depends only on whether the computed middles of the two ends are the same float. If up to 59 such shells stand on each other, pos_v of each being the float pos_v + h of the one below, closed at each end by a torispherical head or by a flat head or end of a room (pos_h and d the floats nearest to decimals with at most 8 places, d/2 too), which is one Wall between the computed corners, find_loops of their graphs returns exactly one polygon, a closed chain that draws all Walls, and Behalter.raume, if the triangulation ends without exception, exactly one room with all parts as outer wall; for every iteration order of the sets.", "quantifier": "for all correctly rounded arithmetics, all such dimensions, all numbers of shells up to 59, all orders of the parts and iteration orders of sets, all memories", "why_tests_cant": "the corners are sums and halves rounded twice (binary64, then 8 decimals); that no combination of dimensions makes neighbouring corners differ or lets the crossing test, which divides by differences of rounded products, find a crossing cannot be sampled", "anchors": ["SR_Vessel/SR_hauptteile.py:Mantel.make_segments", "SR_Vessel/SR_hauptteile.py:Mantel.isvalid", "geometry/SR_polygon.py:PolygonLine.isvalid", "geometry/SR_line.py:LineSegment.intersection_on_segment", "geometry/SR_polygon_group.py:PolygonGroup.find_loops", "SR_Vessel/SR_hauptteile.py:Behalter.raume"]}
{"id": "C128", "title": "triangulate of a Delaunay2d object works only once", "statement": "Delaunay2d.triangulate renews the points but not triangles, edge2Triangles and boundaryEdges. A call on an object that has been triangulated already never gives the same result: if it ends, there are more triangles than before (unless the points are all on one line, when only the points change). With three points the only triangle is stored twice, table and boundary stay as they were. If a point that is an end of a boundary edge is added once more, a triangle with this point as two of its corners is appended and the edge is listed with at least three triangles, on which flipOneEdge raises ValueError; so, if the first number popped is such a point and its edge is the first one looked at, the second call always raises an exception. For the nodes (1,0), (-1,0), (-1,4), (5,0) the first call ends and the second one raises, for an iteration order that is possible.", "quantifier": "for all states of the object, all lists of points, all iteration orders of the sets, every correctly rounded arithmetic", "why_tests_cant": "the state left by the first call depends on the points and on the iteration order of sets; a test of one second call shows neither that the triangles always accumulate nor that every boundary point breaks the table", "anchors": ["geometry/SR_polygon.py:Delaunay2d.triangulate", "geometry/SR_polygon.py:Delaunay2d.addPoint", "geometry/SR_polygon.py:Delaunay2d.flipOneEdge", "geometry/SR_polygon.py:Delaunay2d.update_points"]}
{"id": "C129", "title": "raum_intex of a whole vessel with rounding errors", "statement": "Shells of any diameters of 0.01 to 1e5, any heights of 1e-4 to 1e5 and any levels up to 1e5, each standing on the one below (pos_v is the sum that Python computes) and none more than 20 times as inclined as high (|d1 - d0| <= 20 h), closed at each end by a torispherical head, a flat head or the end of the room; with a torispherical head the axis must not be rounded down by Point (0.0 is fine; C74 shows what happens otherwise), with a flat head the diameter is at most 50 times the height of the shells. Let no line of sight of the random targets be within rounding errors of a corner, a wall direction or an end (C124). Then in floating point, whatever the decimals: no constructor raises, every reference point computed for the two walls of a shell that lies between the walls is recorded as internal and every other one as external, and raum_intex of the room with all these parts as walls, in any order, records it as inner room of every shell and every torispherical head, as indifferent for the flat heads, and as nothing else.", "quantifier": "for all vessels of this kind, any number of shells, all orders of the walls, all such targets and every correctly rounded arithmetic with at least 53 bits", "why_tests_cant": "the reference points are 1/50000 of the height or diameter away from the wall, so rounding of the dimensions could put one on the wrong side or on the wall; which decimals would do so cannot be found by trying a few", "anchors": ["SR_Vessel/SR_hauptteile.py:Behalter.raum_intex", "SR_Vessel/SR_hauptteile.py:Mantel.intex_points", "SR_Vessel/SR_hauptteile.py:TorispherischesBoden.intex_points", "SR_Vessel/SR_hauptteile.py:Flachboden.intex_points", "geometry/SR_polygon.py:PolygonLine.is_internal_point"]}
{"id": "C130", "title": "Knuckle with a radius between a cone and a shell", "statement": "KegelKrempe with r > 0, in exact arithmetic, on a cone and a shell that stands on it (same axis, same level, same diameter, dimensions with 8 decimals). If the shell does not lean inwards and leans outwards less than the cone, the arc has three segments whose four points lie, up to a stated rounding error, on the circle of radius r that touches both right walls, from the touching point on the cone to that on the shell. If both cuts are clear of the arc and each passes the check of the rounded cut point (height of the part times rounding error below 1e-8), the constructor returns a knuckle whose outline is the closed loop lower cut, arc, upper cut, mirrored arc, with the walls as graph; cone and shell are cut back to the cuts, nothing else changes. It raises AssertionError if one of the two checks fails. It also raises AssertionError, for every radius and every cut, if the shell leans at least as much as the cone (inwards or outwards). If the shell leans inwards by t (less than the cone), the arc ends 2 r t / sqrt(1 + t^2) below the point where the circle touches the shell, and off its wall. The part below the cone gets the upper end of the arc as its upper corners. If h_oben and h_unten are smaller than the arc, its ends are taken, as the comment in the code says, but the same check then applies to the rounded ends: it raises AssertionError for example for a cone of height 8 with diameters 4 and 16 under a cylinder of height 8, r = 2 and h_oben = h_unten = 0.5. r = 0 is the knuckle of C106; a negative r raises Exception.", "quantifier": "for all cones, shells, radii and cut distances of this kind, any axis and level, any part below; real arithmetic with the points rounded to 8 decimals", "why_tests_cant": "the radius, both inclinations and both distances are free real numbers; a test tries a few of them, and a test that only looks for exceptions does not see an arc that ends next to the wall", "anchors": ["SR_Vessel/SR_hauptteile.py:KegelKrempe.__init__", "SR_Vessel/SR_hauptteile.py:KegelKrempe.make_segments", "geometry/SR_polygon.py:arc", "geometry/SR_line.py:LineSegment.angle_between_lines"]}
{"id": "C131", "title": "What isconvex says about the shape", "statement": "Exact arithmetic, a valid closed polygon. If no corner is to the right of a side, or none to the left of a side, isconvex is True. Conversely, if isconvex is True and the polygon (a) has at most four sides, or (b) goes round once (in some direction its sides, from a suitable corner on, first go forwards and then backwards), or (c) has only different corners, 1e-5 apart in x or y, and turns back at none of them (sides that follow one another share only their common corner; straight corners are allowed), then no corner is to the right of a side, or none to the left. If in case (b) or (c) it turns left at every corner, every other corner is strictly to the left of each side and no corner occurs twice; and every polygon of this kind turns left at every corner and goes round once. With a corner that occurs twice isconvex can be wrong: a big triangle and a small one inside of it, passed one after the other from their common corner, are a valid closed polygon with isconvex True and iscw False, with corners on both sides of a side. And with different corners it can be wrong if the polygon turns back: the triangle (0,0), (3,0), (0,3) with its lower side passed as (0,0), (2,0), (1,0), (3,0) is valid and closed with isconvex True and iscw False, and (0,3) is to the left of the first side and to the right of the second.", "quantifier": "for all polygons with any number of corners; the failures: two explicit polygons in binary64", "why_tests_cant": "whether local turns imply global convexity is a statement about all polygons; the failure needs a valid polygon that touches itself in a corner", "anchors": ["geometry/SR_polygon.py:PolygonLine.isconvex", "geometry/SR_polygon.py:PolygonLine.cps", "geometry/SR_polygon.py:PolygonLine.iscw", "geometry/SR_polygon.py:PolygonLine.isvalid"]}
{"id": "C132", "title": "A Delaunay2d of a polygon triangulates the convex hull of its corners", "statement": "After Delaunay2d(polygon) and after update_points, self.points holds exactly the ends of the polygon's segments, each once, in some order (provided no two different ends are == with the same hash); with nr_added_points set to n > 0 also the first n of the random points that is_internal_point accepts, and the loop goes on as long as fewer have been accepted (forever for a polygon without segments). In exact arithmetic, for corners in general position, triangulate then gives a triangulation of the convex hull of the corners, whatever the sides are. For a strictly convex polygon the triangles together are exactly the polygon. For other polygons they cover more, although the object keeps the sides as constraints: for (0,0), (4,0), (1,1), (0,4) they cover (3/2, 3/2), which is outside.", "quantifier": "for all polygons, all orders of list(set(...)) and of the sets inside triangulate, all random points; general position and exact arithmetic for the triangulation", "why_tests_cant": "needs all polygons and all hash orders; that the union of the triangles is the polygon is about infinitely many points", "anchors": ["geometry/SR_polygon.py:Delaunay2d.__init__", "geometry/SR_polygon.py:Delaunay2d.update_points", "geometry/SR_polygon.py:Delaunay2d.add_internal_points", "geometry/SR_polygon.py:Delaunay2d.triangulate"]}
{"id": "C133", "title": "A polygon that calls itself convex answers is_internal_point rightly and its Delaunay2d covers it", "statement": "In exact arithmetic, for a closed polygon (each side begins where the previous one ends) whose corners are different and at least 1e-5 apart in some coordinate, and no two consecutive sides of which are parallel (no zero in cps): if isconvex is True and iscw is False, every other corner is strictly to the left of each side; if isconvex and iscw are True, the same holds for the polygon passed in the opposite direction. Then is_internal_point is True for every point strictly on the inner side of all sides (left for iscw False, right for iscw True) and False for every point strictly on the outer side of some side, whenever the random targets are in general position. Conversely a valid strictly convex polygon passed counter-clockwise gives isconvex True, iscw False, isccw True and has no zero in cps. If moreover no three corners are nearly in line (twice the area above 1e-8) and the corners are stored unchanged, the triangles of Delaunay2d(polygon) after triangulate cover exactly the points that are on the outer side of no side, whatever orders the sets have.", "quantifier": "for all such polygons of any number of sides, all points, all targets in general position, all orders of the sets", "why_tests_cant": "the hypotheses are only what the object itself reports, and the conclusion is about infinitely many points and shapes of any size; tests fix a few polygons", "anchors": ["geometry/SR_polygon.py:PolygonLine.isconvex", "geometry/SR_polygon.py:PolygonLine.iscw", "geometry/SR_polygon.py:PolygonLine.isccw", "geometry/SR_polygon.py:PolygonLine.cps", "geometry/SR_polygon.py:PolygonLine.is_internal_point", "geometry/SR_polygon.py:Delaunay2d.update_points", "geometry/SR_polygon.py:Delaunay2d.triangulate"]}
{"id": "C134", "title": "Which triangles ear_clipping accepts", "statement": "The function triangle_ok inside ear_clipping, for a polygon drawn by its segments in any order and direction and a triangle between corners of it: in exact arithmetic, with separated corners and random targets in general position, it answers True if the stored midpoint of the (counter-clockwise) triangle is inside the polygon, all other corners of the polygon are strictly outside of the triangle and no side of the polygon crosses another one or a side of the triangle (no near misses); it answers False if the midpoint is outside, and if another corner is strictly inside. For a strictly convex polygon every such triangle with its stored midpoint inside is accepted. A triangle with a side that crosses a side of the polygon properly is never accepted, whatever the targets are. Whatever is accepted passes the function of the same name in triangle_mesh too, and no two segments of polygon and triangle are found to cross.", "quantifier": "for all polygons, all triangles, all targets (in general position where the answer depends on them)", "why_tests_cant": "the answer depends on random targets and on all pairs of segments; tests fix a few polygons and see one draw of targets", "anchors": ["geometry/SR_polygon.py:PolygonLine.ear_clipping"]}
{"id": "C135", "title": "ear_clipping triangulates every strictly convex polygon", "statement": "In exact arithmetic: ear_clipping of a polygon with 3 to 5002 different corners, separated by 1e-5, every three of which in this order turn left by at least EPS and by more than 3e-8 times the extent of the polygon, its sides stored in any order and direction: with the triangle_ok of the code, whatever corner is chosen in each round and whatever targets in general position are drawn, it returns True, has stored two triangles less than there are corners, and the areas of the stored triangles add up exactly to the area of the polygon by the shoelace formula. General position: no target is in line with two of the points concerned, and no two lines just miss each other.", "quantifier": "for all such polygons, all choices of corners, all targets in general position", "why_tests_cant": "the corners are partly chosen at random, each triangle is tested with random targets, and the polygons left over depend on the choices; tests see one run on a few shapes", "anchors": ["geometry/SR_polygon.py:PolygonLine.ear_clipping"]}
{"id": "C136", "title": "Ends of a polyline and building it by appending Points", "statement": "first_segment, last_segment, first_point, last_point, isopen, close and both append methods raise IndexError for a PolygonLine without segments. Otherwise isopen never raises and is False exactly if all consecutive segments are continuous and first_point == last_point. append_point_at_end(p) with a valid Point adds one plain LineSegment from the former last_point to p; last_point is then p itself, first_point, all other objects, the purged flag and continuity are as before; append_point_at_beginning(p) likewise at the other end. Appending Points p1, ..., pn one after the other adds the path last_point, p1, ..., pn. close() on an open polyline does the same as append_point_at_end(first_point). A polyline made of one segment, n appended Points and close() has isopen False and n + 1 or n + 2 segments.", "quantifier": "for all polylines, all Points, any number of appended Points, every arithmetic that rounds", "why_tests_cant": "needs polylines of every length and the identity of the objects, with sharing of Points between segments; tests build a few fixed polylines", "anchors": ["geometry/SR_polygon.py:PolygonLine.first_point", "geometry/SR_polygon.py:PolygonLine.last_point", "geometry/SR_polygon.py:PolygonLine.first_segment", "geometry/SR_polygon.py:PolygonLine.last_segment", "geometry/SR_polygon.py:PolygonLine.isopen", "geometry/SR_polygon.py:PolygonLine.append_point_at_end", "geometry/SR_polygon.py:PolygonLine.append_point_at_beginning", "geometry/SR_polygon.py:PolygonLine.close"]}
{"id": "C137", "title": "Raum.as_polygon", "statement": "wall_segments and nonwall_segments of a part have no segment in common, and together they are all its segments exactly if none of these is a plain LineSegment. The segments of Raum.as_polygon are exactly the Walls of the parts in innere_wandung and aussere_wandung, the inner ones first, each as often as its part is listed; NonWalls and plain LineSegments never occur. If the Walls of one of these parts are not continuous by themselves, as_polygon is not continuous, not valid and not closed, and close() adds a segment without closing it. So whenever an uncut Mantel with separated corners is among the walls of a room, isvalid and isclosed of as_polygon are False. This applies to every room made by raum_erstellen whose cycle has such a Mantel among its parts; a room whose cycle contains no other cycle has in as_polygon exactly the Walls of the parts of its cycle.", "quantifier": "for all rooms, all parts, all shells with corners at least 1e-5 apart, every arithmetic that rounds", "why_tests_cant": "needs all combinations of parts and walls; tests look at a few vessels and plot the polygon instead of checking it", "anchors": ["SR_Vessel/SR_hauptteile.py:Raum.as_polygon", "SR_Vessel/SR_hauptteile.py:Raum.innere_wandung", "SR_Vessel/SR_hauptteile.py:Raum.aussere_wandung", "SR_Vessel/SR_hauptteile.py:Raum.ganze_wandung", "SR_Vessel/SR_hauptteile.py:Hauptteil.wall_segments", "SR_Vessel/SR_hauptteile.py:Hauptteil.nonwall_segments", "SR_Vessel/SR_hauptteile.py:Behalter.raum_erstellen"]}
{"id": "C138", "title": "characteristic_size is a radius of the part, if there is one", "statement": "characteristic_size of a KegelKrempe raises AttributeError and of a RaumEnde NotImplementedError, always; for all other parts it returns a number. Despite its documentation this is half of the diameter: for a Mantel, in exact arithmetic with dimensions on the coordinate grid, the smallest distance of a point of its Walls from the axis, reached at one of their ends; for a Klopperboden or Korbbogenboden the largest distance of a point of the Walls of its graph from the axis, reached at both outer ends; for a Flachboden half of the length of its Wall, which is centred on pos_h. For a Mantel on the axis the value rounded to 8 decimals is, in every rounding arithmetic, the smaller x coordinate of the ends of the right Wall.", "quantifier": "for all parts, all dimensions, every point of the walls", "why_tests_cant": "the property is used by no test; the minimum is over infinitely many points and all dimensions", "anchors": ["SR_Vessel/SR_hauptteile.py:Hauptteil.characteristic_size", "SR_Vessel/SR_hauptteile.py:Mantel.characteristic_size", "SR_Vessel/SR_hauptteile.py:TorispherischesBoden.characteristic_size", "SR_Vessel/SR_hauptteile.py:Flachboden.characteristic_size", "SR_Vessel/SR_hauptteile.py:KegelKrempe.characteristic_size"]}
{"id": "C139", "title": "What can be done with the polygon returned by convex_hull", "statement": "For coordinate pairs with at most 8 decimals, at least 1e-5 apart and not all on one line, in exact arithmetic, convex_hull returns a closed polygon of at least three sides that is strictly convex and passed counter-clockwise, whose corners are exactly the extreme points of the convex hull of the pairs and which has a pair in it iff the convex hull (in Mathlib's sense) has. Delaunay2d of this polygon with no points drawn (nr_added_points 0, as its constructor sets it) triangulates it, in every iteration order of its sets: if no three corners are within 1e-8 of being collinear (as a determinant), the triangles of the mesh cover exactly the convex hull of the pairs given. is_internal_point of the polygon is True for every point in the (topological) interior of the convex hull and False for every point outside of it, provided the random target points are in general position.", "quantifier": "for all finite sets of such pairs, all points asked for, all iteration orders of sets, all random targets in general position", "why_tests_cant": "infinitely many point sets and query points; the composition of hull, mesh and point test depends on orientation and strict convexity for every input", "anchors": ["geometry/SR_polygon.py:convex_hull", "geometry/SR_polygon.py:PolygonLine.is_internal_point", "geometry/SR_polygon.py:Delaunay2d.update_points", "geometry/SR_polygon.py:Delaunay2d.triangulate"]}
{"id": "C140", "title": "Graph.renew gives the graph of the part as it is now", "statement": "What Graph.renew leaves, and whether it raises, does not depend on the graph it is called on: segments and points are those of a graph made anew from the part, and the segments are the present graphrepr_segments even if the part's intex_points raises. Every point of the renewed graph belongs to one of these segments and was, under its kind, in some evaluation of intex_points; if intex_points is the same at every evaluation and describes every segment, the graph has exactly its points, in the order of the segments, each once. add_intex_points without renew only appends: a second call adds the points again. If a segment of the graph is not a key of intex_points, renew raises KeyError and leaves the new segments with the points of the segments before this one only. If intex_points has points under another key than internal, external and indifferent for a segment, an Exception is raised whatever comes after it; an exception of intex_points at its first evaluation is passed on and leaves the new segments without points. The renewed graph of a Flachboden, cut or not, has its Walls as segments and for each of them the same two indifferent points, both at pos_h, in every rounding arithmetic; that of a RaumEnde has no points.", "quantifier": "for all graphs, parts, values of intex_points at each evaluation (also random ones), exceptions included", "why_tests_cant": "quantifies over all earlier states of the graph and over all outcomes of every evaluation of a property that draws random numbers", "anchors": ["geometry/SR_polygon_group.py:Graph.renew", "geometry/SR_polygon_group.py:Graph.add_intex_points", "geometry/SR_polygon_group.py:Graph.__init__", "SR_Vessel/SR_hauptteile.py:Flachboden.intex_points", "SR_Vessel/SR_hauptteile.py:RaumEnde.intex_points", "geometry/SR_polygon.py:PolygonLine.add_internal_point", "geometry/SR_polygon.py:PolygonLine.add_external_point", "geometry/SR_polygon.py:PolygonLine.add_indifferent_point"]}
