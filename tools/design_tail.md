## Expectations that are false of the code

For these the property states what the code does, and the failure is a theorem with a concrete witness (or general).

* C04: `==` of Points is not transitive and disagrees with the hash.  C13: "right of" and "on the line" overlap.
* C16, C17: `touch`/`continuous` accept more than documented.  C19: `overlap` raises on zero-length or mixed-class input.
* C28: `add_point_on_line` does not check that the point is on the line.  C31: `acos` is called outside of its domain.
* C32: `midpoint` of a segment is the point at one third.  C34: in binary64 the hull may be wrong.
* C38: `isclosed` accepts open paths.  C39: the sentinel of `bounding_box` leaks beyond 1e11.
* C42: `loose_equal` of polylines is not symmetric.  C47: the `purged` flag goes stale and `move` tears polygons.
* C49: `order` drops a second cycle, raises from 250 segments on.  C50: `simplify` is not idempotent.
* C52: `iscw` is wrong on non-convex polygons.  C54: `is_on_boundary` is False unless random evaluations disagree.
* C56, C83, C85: `is_internal_point` depends on random targets; it may not end; for polygons touching or left of
  the axes its answer is wrong.
* C57: `Triangle.area` raises on some flat triangles.  C59: the `delaunay` branch always raises AttributeError.
* C61: a flip may reverse the orientation of a triangle when the quadrilateral is not convex.
* C62: `add` mutates its first operand also when it fails.
* C67: nodes of degree ten or more escape the degree check.  C68: `disjunct_cycles` is always empty.
* C69: `keep_base_polygons` decides by area only.  C70: `find_loops` may return torn loops.  C81: it raises on a single loop.
* C71: symmetric vessels are never accepted; more than 26 rooms raise KeyError.
* C72: cones off the axis are invalid in binary64.  C73: a StandZarge is never valid.
* C74: off-grid positions give both walls of a head the reference points of the left one.
* C75: a tangent raises NameError.  C89: triangles of area down to -EPS are accepted.
* C90: triangles stored by `ear_clipping` share segments and are torn by later ones.
* C91: walls of unrelated rooms become inner walls, and three touching pairs can raise IndexError in the constructor of a vessel.
* C92: `contained_cycles` lists cycles that lie in a notch, and treats cycles touching the left and the right side differently (C84).
* C93: a side that is drawn a second time in the opposite direction is counted twice, and inside points become external.
* C94: reference points are not symmetric, those of the bottom of a skirt lie on the wall itself, and below ground they are sorted by chance.
* C95: outliers are removed once only, so a longer tail leaves an outlier.
* C96: one segment without reference points makes a room an inner room; every room at a skirt is an inner room of it.
* C98: the end of a room can cut one shell only; with a jacket the constructor of a vessel raises IndexError or leaves the inner shell uncut, depending on the order. Cut shells are never valid.
* C99: the area of the square with corners (-3, -3) and (0, 0) is 0, as no triangle passes the test of its midpoint; `area` is cached and does not follow changes of the polygon.
* C100: `disjunct` of polygons that have not been triangulated is always True, and `touch` and `overlap` can both be True; triangles whose common side has different classes raise an Exception.
* C101: `arc(cw=True)` starts with the chord to the end of the arc and misses a piece; for a whole circle its first segment ends at a point that was not moved to the centre.
* C105: `StandZarge.from_dict` makes a Mantel; `Rohrboden` cannot be made at all; the check that a dict has no items too many accepts every key that names an attribute, such as `segments`.
* C106: `KegelKrempe` with r = 0 checks the rounded cut points with an absolute tolerance on an unscaled cross product: for parts of height 2 or more it can raise an AssertionError for dimensions that are fine. A cone passed as the part below overlaps its own knuckle.
* C107: the reference points of a knuckle are not mirror images: the limits `height/10` and 20 apply to the right walls only, because the minimum is taken of signed distances.
* C108: `remove_collinear_points` does not check that a point is between its neighbours (the comment in the code says so), and its tolerance is absolute: the corners of a square with side 5e-5 all count as collinear, and the call ends with an AssertionError.
* C109: `Triangle.angles` raises a ValueError for some thin valid triangles, because rounding takes the argument of acos beyond 1.
* C110: `find_loops` does not always return closed rings: on an open chain of three Walls, with a suitable iteration order of sets, `order` called on the copies turns a Wall inside the set of segments not yet visited, so that it is not recognised as visited, and the walk returns a polygon that consists of this Wall to and fro.
* C111: a Wall across a room that joins two of its corners is listed among the parts of the room, although it is no side of it; a vessel without any loop ends with a TypeError (`len(None)`), and one whose walls have 250 or more segments with an Exception.
* C112: a room that overlaps another one in part is lost without notice; three nested rooms end with an Exception; whether loosely equal polygons are removed depends on the addresses of temporary generator objects.
* C113: `as_edgelist` cannot be evaluated for any group with two segments that differ in an end (Points have no `<`); `name_from_repr` drops unknown polygons without notice.
* C114: `segments_from_pointset` does not give the shortest possible length, although its docstring says so: distances are measured from the first point, not from the last one.
* C117: `ordered_copy` returns True or False instead of a copy; `rotationsmatrix` turns clockwise, `rotate_about_origin` counter-clockwise; `simplify` leaves the indifferent points of removed segments.
* C120: `Delaunay2d.triangulate` keeps flat triangles if three nodes are (nearly) on a line, also if this is a side of the polygon; it uses every point only because CPython pops small integers in ascending order.
* C121: the flip test of `Delaunay2d` has a tolerance of 1e-8 in the sum of angles, so points nearly on a circle can be split along either diagonal, depending on the order of the nodes.
* C124: `is_internal_point` has no interior at all for a unit square near (30000, 30000): `intersection_point` multiplies coordinates by the squares of distances, and the lost digits move the lines of all sides by more than the tolerance of 2e-8.
* C126: `find_loops` can miss loops, or raise IndexError, for one and the same group, depending on the iteration order of the set of its segments: the walk looks for branches only among the segments that start at the point it has reached. A loop can also be returned twice, because the combination of two separate loops is ordered to one of them.
* C128: `Delaunay2d.triangulate` cannot be called twice: triangles, edge table and boundary of the first call are kept, the first triangle is stored again with the number 0 in the table, and points on the hull get a triangle with two equal corners and an edge with three triangles (ValueError).
* C130: `KegelKrempe` with a radius takes unsigned angles between the walls and the axis: under a shell that leans inwards the arc ends below its touching point and off the wall, and under a shell that leans at least as much as the cone the constructor raises an AssertionError for every radius. If `h_oben` and `h_unten` are smaller than the arc, the rounded ends of the arc must lie on the walls within the absolute tolerance, and the constructor raises an AssertionError for plain dimensions (C130_uncut_raises). The part below the cone gets the upper end of the arc as its upper corners and so overlaps the knuckle.
* C131: `isconvex` looks at the turns only, and `isvalid` lets a polygon touch itself in a corner: a polygon that goes round twice (a triangle and a smaller one inside of it with a common corner) has `isconvex` True (C131_two_rounds). With different corners and no turning back at a corner it is right (C131_simple). A turn back has cross product 0 and parallel sides never meet for `isvalid`: a zigzag on a side of a triangle goes unnoticed (C131_zigzag).
* C132: `Delaunay2d` keeps the sides of the polygon as `constraints` but `triangulate` does not use them (`intersectsConstraint` is not called): the convex hull of the corners is triangulated, also for a polygon that is not convex (C132_arrow).
