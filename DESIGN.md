# Verification design

Source: `/repo` (jkbgbr/Srep3_old), read as text.  Nothing of it is executed.  The parts below "Coverage of the source"
and "Properties" are generated by `tools/design.py`.

## Trusted base

* Lean's kernel (4.33.0) and Mathlib as compiled.
* Axioms: every theorem depends on at most `propext`, `Classical.choice`, `Quot.sound` (checked with `#print axioms`).
  No axioms of our own, no `sorry`, no `native_decide`, no `bv_decide`.  Concrete witnesses are evaluated in the kernel
  (`decide +kernel`).
* The hand translation Python -> Lean.  Every model definition cites file and lines of the code it stands for.
* The specifications in `Verif/Spec` and the hypotheses of the theorems.  Next to the theorems there are `example`s that
  show the hypotheses can be met.

## How Python is modelled

* **Numbers** (`Model/Num.lean`).  A field `K` with order and floor; every float operation is the exact operation
  followed by `R.fl`, where `R : Rt K` is the runtime.  Theorems come in two tiers: *tier A* for every runtime with
  `R.IsRounding` (what IEEE binary64 guarantees barring overflow, underflow and NaN; the executable binary64 `Rt.b64`
  on Q is proved to be one), and *tier B* for `R.IsExact` (real arithmetic; `Rt.real` on R is proved to be one).  The
  rounding of stored coordinates to 8 decimals is kept in both tiers.  Not modelled: NaN, infinities, overflow,
  subnormals, signed zeros, accuracy of `libm`.
* **`round(x, 8)`** is `fl (rhe8 x)`: correct decimal rounding, half to even, then nearest float.
* **Transcendental functions** are opaque fields of the runtime.  What a theorem needs is an explicit hypothesis:
  `Rt.IsExactDir` (atan2 and degrees order directions), `Rt.IsExactAngle` (acos of cosines adds up), angle hypotheses
  stated in the theorem (cos, sin).  The real functions are proved to satisfy these laws.
* **hash** of a tuple of floats is an arbitrary function `R.hash`.  Python `set`s keep the first of elements with equal
  hash and `==`.  The iteration order of sets is irrelevant, or a parameter (`SetOrder`, lists standing for sets), and the
  theorems hold for all orders.
* **Exceptions** are values: `Except PyErr a`.
* **Object identity** is a heap of Point and LineSegment objects addressed by numbers (`Model/Heap.lean`) for all that
  mutates or shares objects (`move`, `mirror_vertical`, `rotate_about_origin`, `reverse`, `purge`, `order`, `add`,
  `find_loops`, `Mantel`); pure predicates work on values.
* **Randomness** is an oracle stream argument; loops without a static bound take fuel and return `none` when it runs
  out.  Theorems quantify over all oracles and all fuel, or prove that some fuel suffices.
* Geometry-level points are always valid, so `assert p.isvalid` never fires there; validity itself is treated by the
  object-level model in `Model/PointObj.lean`.
* Plotting, printing, `__repr__`, the external mesh generator `triangle`/`numpy` are not modelled.

## Layout

* `Verif/Model/*`: the model, by source file: `Num` (numbers), `Point`, `PointObj` (SR_point), `Line` (SR_line), `Polygon`
  and `Heap` (SR_polygon on values and in memory), `Delaunay` (triangulation), `Group` (SR_polygon_group), `Vessel`
  (SR_hauptteile, additional_stuff).
* `Verif/Spec/*`: independent specifications (`Geom`: lines, betweenness, determinants, closed chains; `Ray`: convex
  polygons, inside and outside, counting of sides; `Mesh`: consistency, planarity and area of meshes) and the concrete
  runtimes used in examples (`Example`).
* `Verif/Lemmas/*`: auxiliary lemmas.  `Verif/Props/*`: the property theorems, named `Cnn_...`.
* `seeded/LOG.jsonl`: wrong programs (edits of model definitions) the theorems were tested against.

## Coverage of the source

A function counts as modelled if definitions in `Verif/Model` cite at least half of the lines of code in its body, and as
cited in part if they cite fewer (the names in brackets are the model files). Where a definition covers only a part or simplifies,
its comment says so. The list is computed from the citations.

* **geometry/SR_point.py**
  * modelled: `distance` (Point, PointObj), `Point.__init__` (Point, PointObj), `Point.__sub__` (Point, PointObj), `Point.__add__` (Point, PointObj), `Point.__eq__` (Num, Point, PointObj), `Point.__ne__` (PointObj), `Point.__hash__` (Point), `Point.x` (Point, PointObj), `Point.y` (Point, PointObj), `Point.xy` (Point, PointObj), `Point._set_coords` (Num, Point, PointObj), `Point._empty` (PointObj), `Point.isvalid` (PointObj)
  * a part cited: -
  * not modelled: `Point.__repr__`, `Point.__str__`, `Point._isempty`, `Point.distance`, `Point.bounding_box`, `Point.plot`, `IntexPoint.__init__`, `run`

* **geometry/SR_line.py**
  * modelled: `LineSegment.__init__` (Heap, Line), `LineSegment.__eq__` (Line), `LineSegment.loose_equal` (Line), `LineSegment.__hash__` (Group), `LineSegment._set_endpoints` (Heap), `LineSegment.isvalid` (Flat), `LineSegment.i` (Line), `LineSegment.j` (Line), `LineSegment.ij` (Line), `LineSegment.delta_x` (Line), `LineSegment.delta_y` (Line), `LineSegment.norm` (Line), `LineSegment.unitvector` (Line), `LineSegment.crossproduct` (Line), `LineSegment.dotproduct` (Line), `LineSegment.isnull` (Line), `LineSegment.direction` (Line), `LineSegment.is_internal_point` (Line), `LineSegment.is_point_on_line` (Line), `LineSegment.is_point_to_right` (Line), `LineSegment.is_point_to_left` (Line), `LineSegment.opposite_direction` (Line), `LineSegment.is_parallel` (Line), `LineSegment.is_intersecting` (Line), `LineSegment.line_point_distance` (Line), `LineSegment.continuous` (Line), `LineSegment.touch` (Line), `LineSegment.overlap` (Line), `LineSegment.intersection_point` (Line), `LineSegment.common_part` (Line), `LineSegment.common_part_type` (TriRel), `LineSegment.is_collinear` (Line), `LineSegment.intersection_on_endpoint` (Line), `LineSegment.intersection_on_segment` (Line), `LineSegment.mirror_vertical` (Heap), `LineSegment.move` (Heap, KrempeArc, Split), `LineSegment.reverse` (Heap, Line), `LineSegment.line_reversed` (Line), `LineSegment.angle_between_lines` (KrempeArc, Line), `LineSegment.angle_from_start_point` (Line), `LineSegment.crossproduct_commonstart` (Collinear, Line), `LineSegment.bounding_box` (Line), `LineSegment.midpoint` (Line), `point_on_line_at_ratio` (Line), `divide_line` (Heap, Line), `add_point_on_line` (Line)
  * a part cited: -
  * not modelled: `LineSegment.__str__`, `LineSegment.__repr__`, `LineSegment.__ne__`, `LineSegment.as_vector`, `LineSegment.plot`, `run`

* **geometry/SR_polygon.py**
  * modelled: `PolygonLine.__init__` (Heap, Polygon, Renew), `PolygonLine.__eq__` (Polygon), `PolygonLine.loose_subset` (Polygon), `PolygonLine.loose_equal` (Polygon), `PolygonLine.__hash__` (KeepBase), `PolygonLine.triangles` (TriRel), `PolygonLine.neighbour` (Collinear, Ear, Polygon), `PolygonLine.find_segment_by_point` (Collinear, Polygon), `PolygonLine.midpoint` (Polygon), `PolygonLine.disjunct` (KeepBase, TriRel), `PolygonLine.purge` (Heap), `PolygonLine.ordered_copy` (Tools), `PolygonLine.order` (Heap), `PolygonLine.append_point_at_end` (Ends, Heap), `PolygonLine.append_point_at_beginning` (Heap, Tools), `PolygonLine.add_internal_point` (Renew, Tools), `PolygonLine.add_indifferent_point` (Renew, Tools), `PolygonLine.add_external_point` (Renew, Tools), `PolygonLine.internal` (Tools), `PolygonLine.indifferent` (Tools), `PolygonLine.external` (Tools), `PolygonLine.all_points` (Intex), `PolygonLine.point_set` (Heap, Polygon), `PolygonLine.crossing_lines` (Polygon), `PolygonLine.isvalid` (Polygon), `PolygonLine.discontinuity` (Lookup), `PolygonLine.iscontinuous` (Polygon), `PolygonLine.next_segment` (Lookup), `PolygonLine.isclosed` (Polygon), `PolygonLine.first_point` (Ends), `PolygonLine.last_point` (Ends), `PolygonLine.first_segment` (Ends), `PolygonLine.last_segment` (Ends), `PolygonLine.isopen` (Ends), `PolygonLine.closed_copy` (Heap), `PolygonLine.close` (Heap, Polygon), `PolygonLine.cps` (Polygon), `PolygonLine.isconvex` (Polygon), `PolygonLine.iscw` (Polygon), `PolygonLine.isccw` (Polygon), `PolygonLine.is_internal_point` (Polygon), `PolygonLine.is_external_point` (Polygon), `PolygonLine.is_on_boundary` (Polygon), `PolygonLine.bounding_box` (Polygon), `PolygonLine.rotate_about_origin` (Heap), `PolygonLine.mirror_vertical` (Heap), `PolygonLine.move` (Heap), `PolygonLine.rotate_about_xy` (Heap), `PolygonLine.is_triangle` (Ear), `PolygonLine.area` (Area), `PolygonLine.detailled_area` (Area), `PolygonLine.triangulate` (Delaunay), `PolygonLine.triangulate_delaunay` (Delaunay), `PolygonLine.ear_clipping` (Ear, EarOk), `PolygonLine.triangle_mesh` (Area), `Triangle.__init__` (Ear), `Triangle.area` (Ear, Polygon), `Triangle.quality` (TriAngles), `Triangle.angles` (TriAngles), `Triangle.congruent` (Polygon, TriRel), `Triangle.enclosed` (TriRel), `Triangle.overlap` (TriRel), `Triangle.touch` (TriRel), `Triangle.disjunct` (TriRel), `Triangle.tell_relpos` (TriRel), `Delaunay2d.__init__` (Delaunay, DelaunayOf), `Delaunay2d.refine_boundaries` (Tools), `Delaunay2d.add_internal_points` (DelaunayOf), `Delaunay2d.update_points` (DelaunayOf), `Delaunay2d.triangulate` (Again, Delaunay, Triangulate), `Delaunay2d.getArea` (Delaunay), `Delaunay2d.isEdgeVisible` (Delaunay), `Delaunay2d.intersectsConstraint` (Overlap), `Delaunay2d.makeCounterClockwise` (Delaunay), `Delaunay2d.flipOneEdge` (Delaunay), `Delaunay2d.flipEdges` (Again, Delaunay, Triangulate), `Delaunay2d.addPoint` (Again, Delaunay, Triangulate), `Delaunay2d.makeKey` (Delaunay), `Delaunay2d.dotproduct` (Delaunay), `segments_from_pointset` (Pointset), `remove_collinear_points` (Collinear), `rotationsmatrix` (Tools), `simplify` (Tools), `remove_outlier_segments` (Intex, Polygon, Rooms), `polygon_from_nodes` (Heap, Polygon), `square` (Heap), `arc` (Arc, KrempeArc), `intersecting_lines` (Split), `convex_hull` (Polygon), `add` (Heap), `walk_segments` (Group)
  * a part cited: `PolygonLine.collinear_points` (Ear)
  * not modelled: `PolygonLine.__nonzero__`, `PolygonLine.__repr__`, `PolygonLine.__ne__`, `PolygonLine._delete_triangles`, `PolygonLine.segments`, `PolygonLine.fix`, `PolygonLine.plot_triangulation`, `PolygonLine.plot`, `Triangle.detailled_area`, `Delaunay2d.all_segments`, `Delaunay2d.all_points`, `Delaunay2d.getTriangles`, `Delaunay2d.getEdges`, `Delaunay2d.show`, `run`

* **geometry/SR_polygon_group.py**
  * modelled: `PolygonGroup.polygon_from_repr` (Lookup), `PolygonGroup.name_from_repr` (Lookup), `PolygonGroup.cycles` (Rooms), `PolygonGroup.disjunct_cycles` (Overlap), `PolygonGroup.overlaps_in_cycles_named` (Overlap), `PolygonGroup.overlaps_in_cycles` (Overlap), `PolygonGroup.all_overlapping_segments` (Overlap), `PolygonGroup.segments_from_points` (Lookup), `PolygonGroup.isvalid` (Group), `PolygonGroup.representative_graph` (Group), `PolygonGroup.points_numbered` (Group), `PolygonGroup.as_edgelist` (Lookup), `PolygonGroup.as_adjacency_list` (Group), `PolygonGroup.node_degree` (Overlap), `BehalterGraph.cycles` (Rooms), `BehalterGraph.disjunct_cycles` (Group), `BehalterGraph.contained_cycles` (Contained), `BehalterGraph.overlaps_in_cycles` (Group), `BehalterGraph.all_overlapping_segments` (Overlap), `BehalterGraph.segments_in_cycles` (Rooms), `BehalterGraph.find_loops` (Group), `BehalterGraph.keep_base_polygons` (Group, KeepBase, Rooms), `Graph.__init__` (Flat, Renew, Vessel), `Graph.renew` (Renew), `Graph.add_intex_points` (Flat, Intex, KrempeIntex, Renew)
  * a part cited: -
  * not modelled: `PolygonGroup.__init__`, `PolygonGroup.graph`, `PolygonGroup.__repr__`, `PolygonGroup.polygons`, `PolygonGroup.contained_cycles`, `PolygonGroup.segments_in_cycles`, `PolygonGroup.plot`, `PolygonGroup.all_segments`, `PolygonGroup.find_loops`, `BehalterGraph.__init__`

* **geometry/additional_stuff.py**
  * modelled: `sphere_line_intersection` (Vessel)
  * a part cited: -
  * not modelled: -

* **SR_Vessel/SR_hauptteile.py**
  * modelled: `raum_dict_checker` (Vessel), `Wall.__init__` (Line), `NonWall.__init__` (Line), `Raum.__init__` (Raum, Rooms), `Raum.innere_wandung` (RaumPoly), `Raum.aussere_wandung` (RaumPoly), `Raum.ganze_wandung` (Intex, RaumPoly), `Raum.graph_as_polygon` (Intex), `Raum.as_polygon` (RaumPoly), `Behalter.__init__` (Rooms), `Behalter.cut_by_raumende` (Split), `Behalter.raum_erstellen` (Raum, Rooms), `Behalter.raum_intex` (Intex), `Hauptteil.__init__` (Flat, HeadSegs, Split, Vessel), `Hauptteil.characteristic_size` (Size), `Hauptteil.graphrepr_segments` (Split), `Hauptteil.wall_segments` (Split, Vessel), `Hauptteil.nonwall_segments` (RaumPoly), `Hauptteil.polygonline` (HeadSegs), `Hauptteil.split` (Split), `Mantel.__init__` (FromDict, Intex, Vessel), `Mantel.from_dict` (FromDict), `Mantel.intex_points` (Intex), `Mantel.characteristic_size` (Size), `Mantel.isvalid` (Split, Vessel), `Mantel.make_segments` (FromDict, Split, Vessel), `TorispherischesBoden.__init__` (FromDict, HeadSegs, Intex, Renew), `TorispherischesBoden.intex_points` (Intex, Vessel), `TorispherischesBoden.characteristic_size` (HeadSegs, Size), `TorispherischesBoden.h_graph` (Vessel), `TorispherischesBoden.graphrepr_segments` (Split, Vessel), `TorispherischesBoden.isvalid` (HeadSegs), `TorispherischesBoden.make_segments` (HeadSegs), `Klopperboden.from_dict` (FromDict), `Korbbogenboden.from_dict` (FromDict), `Flachboden.__init__` (Flat, FromDict), `Flachboden.from_dict` (FromDict), `Flachboden.intex_points` (Flat, Renew), `Flachboden.isvalid` (Flat), `Flachboden.characteristic_size` (Flat, Size), `Flachboden.is_internal_point` (Flat), `Rohrboden.__init__` (FromDict), `Rohrboden.from_dict` (FromDict), `KegelKrempe.__init__` (Krempe, KrempeArc, KrempeIntex), `KegelKrempe.ht_oben` (Krempe), `KegelKrempe.ht_unten` (Krempe), `KegelKrempe.assert_checking` (Krempe), `KegelKrempe.pos_h` (FromDict), `KegelKrempe.make_segments` (Krempe, KrempeArc), `KegelKrempe.intex_points` (Intex, KrempeIntex), `KegelKrempe.characteristic_size` (Size), `StandZarge.__init__` (FromDict, Vessel), `StandZarge.make_segments` (FromDict, Vessel), `RaumEnde.__init__` (Flat, FromDict, Split), `RaumEnde.from_dict` (FromDict), `RaumEnde.intex_points` (Flat, Renew), `RaumEnde.isvalid` (Flat)
  * a part cited: `KegelKrempe.from_dict` (FromDict)
  * not modelled: `linenum`, `Raum.set_name`, `Raum.name`, `Behalter.graph`, `Behalter.graphical_testing`, `Behalter.plot`, `Hauptteil.from_dict`, `Hauptteil.intex_points`, `Hauptteil.graph`, `Hauptteil.isvalid`, `Klopperboden.__init__`, `Korbbogenboden.__init__`, `Rohrboden.intex_points`, `KegelKrempe.pos_v`, `KegelKrempe.isvalid`, `run`

## Expectations that are false of the code

For these the property states what the code does, and the failure is a theorem with a concrete witness (or general).

* C04: `==` of Points is not transitive and disagrees with the hash.  C13: "right of" and "on the line" overlap.
* C16, C17: `touch`/`continuous` accept more than documented.  C19: `overlap` raises on zero-length or mixed-class input.
* C28: `add_point_on_line` does not check that the point is on the line.  C31: `acos` is called outside of its domain.
* C32: `midpoint` of a segment is the point at one third.  C34: in binary64 the hull may be wrong.
* C38: `isclosed` accepts open paths.  C39: the sentinel of `bounding_box` leaks beyond 1e11.
* C42: `loose_equal` of polylines is not symmetric.  C47: the `purged` flag goes stale and `move` tears polygons.
* C49: `order` drops a second cycle, raises from 250 segments on.  C50: `simplify` is not idempotent.
* C52: `iscw` is wrong on non-convex polygons.  C54: `is_on_boundary` is False unless random evaluations disagree.
* C56, C83, C85: `is_internal_point` depends on random targets; it may not end; for polygons touching or left of
  the axes its answer is wrong.
* C57: `Triangle.area` raises on some flat triangles.  C59: the `delaunay` branch always raises AttributeError.
* C61: a flip may reverse the orientation of a triangle when the quadrilateral is not convex.
* C62: `add` mutates its first operand also when it fails.
* C67: nodes of degree ten or more escape the degree check.  C68: `disjunct_cycles` is always empty.
* C69: `keep_base_polygons` decides by area only.  C70: `find_loops` may return torn loops.  C81: it raises on a single loop.
* C71: symmetric vessels are never accepted; more than 26 rooms raise KeyError.
* C72: cones off the axis are invalid in binary64.  C73: a StandZarge is never valid.
* C74: off-grid positions give both walls of a head the reference points of the left one.
* C75: a tangent raises NameError.  C89: triangles of area down to -EPS are accepted.
* C90: triangles stored by `ear_clipping` share segments and are torn by later ones.
* C91: walls of unrelated rooms become inner walls, and three touching pairs can raise IndexError in the constructor of a vessel.
* C92: `contained_cycles` lists cycles that lie in a notch, and treats cycles touching the left and the right side differently (C84).
* C93: a side that is drawn a second time in the opposite direction is counted twice, and inside points become external.
* C94: reference points are not symmetric, those of the bottom of a skirt lie on the wall itself, and below ground they are sorted by chance.
* C95: outliers are removed once only, so a longer tail leaves an outlier.
* C96: one segment without reference points makes a room an inner room; every room at a skirt is an inner room of it.
* C98: the end of a room can cut one shell only; with a jacket the constructor of a vessel raises IndexError or leaves the inner shell uncut, depending on the order. Cut shells are never valid.
* C99: the area of the square with corners (-3, -3) and (0, 0) is 0, as no triangle passes the test of its midpoint; `area` is cached and does not follow changes of the polygon.
* C100: `disjunct` of polygons that have not been triangulated is always True, and `touch` and `overlap` can both be True; triangles whose common side has different classes raise an Exception.
* C101: `arc(cw=True)` starts with the chord to the end of the arc and misses a piece; for a whole circle its first segment ends at a point that was not moved to the centre.
* C105: `StandZarge.from_dict` makes a Mantel; `Rohrboden` cannot be made at all; the check that a dict has no items too many accepts every key that names an attribute, such as `segments`.
* C106: `KegelKrempe` with r = 0 checks the rounded cut points with an absolute tolerance on an unscaled cross product: for parts of height 2 or more it can raise an AssertionError for dimensions that are fine. A cone passed as the part below overlaps its own knuckle.
* C107: the reference points of a knuckle are not mirror images: the limits `height/10` and 20 apply to the right walls only, because the minimum is taken of signed distances.
* C108: `remove_collinear_points` does not check that a point is between its neighbours (the comment in the code says so), and its tolerance is absolute: the corners of a square with side 5e-5 all count as collinear, and the call ends with an AssertionError.
* C109: `Triangle.angles` raises a ValueError for some thin valid triangles, because rounding takes the argument of acos beyond 1.
* C110: `find_loops` does not always return closed rings: on an open chain of three Walls, with a suitable iteration order of sets, `order` called on the copies turns a Wall inside the set of segments not yet visited, so that it is not recognised as visited, and the walk returns a polygon that consists of this Wall to and fro.
* C111: a Wall across a room that joins two of its corners is listed among the parts of the room, although it is no side of it; a vessel without any loop ends with a TypeError (`len(None)`), and one whose walls have 250 or more segments with an Exception.
* C112: a room that overlaps another one in part is lost without notice; three nested rooms end with an Exception; whether loosely equal polygons are removed depends on the addresses of temporary generator objects.
* C113: `as_edgelist` cannot be evaluated for any group with two segments that differ in an end (Points have no `<`); `name_from_repr` drops unknown polygons without notice.
* C114: `segments_from_pointset` does not give the shortest possible length, although its docstring says so: distances are measured from the first point, not from the last one.
* C117: `ordered_copy` returns True or False instead of a copy; `rotationsmatrix` turns clockwise, `rotate_about_origin` counter-clockwise; `simplify` leaves the indifferent points of removed segments.
* C120: `Delaunay2d.triangulate` keeps flat triangles if three nodes are (nearly) on a line, also if this is a side of the polygon; it uses every point only because CPython pops small integers in ascending order.
* C121: the flip test of `Delaunay2d` has a tolerance of 1e-8 in the sum of angles, so points nearly on a circle can be split along either diagonal, depending on the order of the nodes.
* C124: `is_internal_point` has no interior at all for a unit square near (30000, 30000): `intersection_point` multiplies coordinates by the squares of distances, and the lost digits move the lines of all sides by more than the tolerance of 2e-8.
* C126: `find_loops` can miss loops, or raise IndexError, for one and the same group, depending on the iteration order of the set of its segments: the walk looks for branches only among the segments that start at the point it has reached. A loop can also be returned twice, because the combination of two separate loops is ordered to one of them.
* C128: `Delaunay2d.triangulate` cannot be called twice: triangles, edge table and boundary of the first call are kept, the first triangle is stored again with the number 0 in the table, and points on the hull get a triangle with two equal corners and an edge with three triangles (ValueError).
* C130: `KegelKrempe` with a radius takes unsigned angles between the walls and the axis: under a shell that leans inwards the arc ends below its touching point and off the wall, and under a shell that leans at least as much as the cone the constructor raises an AssertionError for every radius. If `h_oben` and `h_unten` are smaller than the arc, the rounded ends of the arc must lie on the walls within the absolute tolerance, and the constructor raises an AssertionError for plain dimensions (C130_uncut_raises). The part below the cone gets the upper end of the arc as its upper corners and so overlaps the knuckle.
* C131: `isconvex` looks at the turns only, and `isvalid` lets a polygon touch itself in a corner: a polygon that goes round twice (a triangle and a smaller one inside of it with a common corner) has `isconvex` True (C131_two_rounds). With different corners and no turning back at a corner it is right (C131_simple). A turn back has cross product 0 and parallel sides never meet for `isvalid`: a zigzag on a side of a triangle goes unnoticed (C131_zigzag).
* C132: `Delaunay2d` keeps the sides of the polygon as `constraints` but `triangulate` does not use them (`intersectsConstraint` is not called): the convex hull of the corners is triangulated, also for a polygon that is not convex (C132_arrow).

## Properties

### C01 Coordinates are quantised once and for all (proved)

A Point built from numbers stores each coordinate rounded to 8 decimals, and building a Point from the coordinates of an existing Point (copying, adding or subtracting the origin) reproduces exactly the same coordinates, bit for bit.

* code: `geometry/SR_point.py:Point._set_coords`, `geometry/SR_point.py:PRECISION`
* how: Any correctly rounded arithmetic; rounding twice is stable, reconstructing or adding the origin keeps the stored point.
* theorems (Props/Point.lean): `C01_coord_stable`, `C01_coord_is_decimal`, `C01_reconstruct`, `C01_add_origin`, `C01_stored`

### C02 Quantisation error bound (proved)

A stored coordinate differs from the number passed in by at most half a unit of the 8th decimal (plus one float rounding), no 8-decimal number is closer, and the rounding preserves order: a coordinate lying between two others still lies (weakly) between them after construction.

* code: `geometry/SR_point.py:Point._set_coords`
* how: Half a unit of the 8th decimal exactly; plus the relative float error in rounded arithmetic; monotone.
* theorems (Props/Point.lean): `C02_error_exact`, `C02_error_float`, `C02_error_float_abs`, `C02_monotone`

### C03 Meaning of Point equality (proved)

Two Points compare equal exactly when both are valid, of the same class and differ by less than 1e-5 in each coordinate; the relation is reflexive on valid Points and symmetric, `!=` is its exact complement, an invalid Point equals nothing (not even itself), and a Point never equals an IntexPoint.

* code: `geometry/SR_point.py:Point.__eq__`, `geometry/SR_point.py:Point.__ne__`, `geometry/SR_point.py:IntexPoint`
* how: Equality is the tolerance box test; reflexive on valid points, symmetric, false for invalid, class sensitive.
* theorems (Props/Point.lean): `C03_eq_iff`, `C03_eq_iff_exact`, `C03_refl`, `C03_symm`, `C03_invalid`, `C03_class`, `C03_ne`

### C04 Equality of Points is not transitive, and the hash does not respect it (proved)

Users put Points in sets and use them as dict keys, relying on transitivity of == and on equal Points having equal hashes.  Neither holds: there are valid p == q == r with p != r, and the contract 'p == q implies hash(p) == hash(q)' could only hold if the hash were the same for ALL Points of the grid.  On any family of Points whose distinct members are at least 1e-5 apart in some coordinate both hold.

* code: `geometry/SR_point.py:Point.__eq__`, `geometry/SR_point.py:Point.__hash__`
* how: The property asserts the failures: == is not transitive and the hash contract cannot hold (binary64 witnesses); the positive part for separated points is C04_apart.
* theorems (Props/Point.lean): `C04_not_transitive`, `C04_hash_contract_forces_constant`, `C04_hash_contract_fails`, `C04_apart`

### C05 Validity of a Point is frozen at the first query (proved)

Whatever sequence of coordinate overwrites, revocations and validity queries a Point goes through, every validity query answers what the FIRST query answered; in particular a Point queried while valid keeps reporting valid after its coordinates were revoked.

* code: `geometry/SR_point.py:Point.isvalid`, `geometry/SR_point.py:Point._empty`, `geometry/SR_point.py:Point._set_coords`
* how: Over arbitrary operation sequences on the object model.
* theorems (Props/Point.lean): `C05_validity_frozen`, `C05_revoked_still_valid`

### C06 Point addition and subtraction (proved)

For valid Points p+q and q+p have identical coordinates and p-q is the point reflection of q-p (every correctly rounded arithmetic); in exact arithmetic (p+q)-q has exactly p's coordinates, p-p is the origin. The new Point objects hold the component-wise sum and difference, rounded.

* code: `geometry/SR_point.py:Point.__add__`, `geometry/SR_point.py:Point.__sub__`
* how: Commutativity, p-p and the coordinates of the result in any rounded arithmetic, the vector laws in exact arithmetic.
* theorems (Props/Point.lean): `C06_comm`, `C06_sub_self`, `C06_exact`, `C06_object`

### C07 distance() is a metric (proved)

distance is symmetric and never negative (every correctly rounded arithmetic), zero exactly between Points of identical coordinates, satisfies the triangle inequality and is unchanged when both Points are translated by 8-decimal offsets (exact arithmetic).

* code: `geometry/SR_point.py:distance`, `geometry/SR_point.py:Point.distance`
* how: Symmetry/zero/non-negativity in rounded arithmetic, Euclidean laws in exact arithmetic.
* theorems (Props/Point.lean): `C07_float`, `C07_euclid`, `C07_zero_iff`, `C07_triangle`, `C07_translate`

### C08 Error behaviour of Points (proved)

Construction from a non-iterable or from non-numbers never raises TypeError but yields a Point that is invalid when its first two entries are not numbers; text that does not parse raises ValueError; adding or subtracting on an invalid left operand returns an explanatory string instead of a Point; distance() refuses invalid Points with AssertionError; tuples with more than two numbers are silently accepted as valid.

* code: `geometry/SR_point.py:Point.__init__`, `geometry/SR_point.py:Point.isvalid`, `geometry/SR_point.py:Point.__add__`, `geometry/SR_point.py:distance`
* how: All branches of the constructor on the modelled argument kinds (numbers, numeric text, other text, None, other objects).
* theorems (Props/Point.lean): `C08_no_type_error`, `C08_bad_text`, `C08_nonnumber_invalid`, `C08_extra_entries`, `C08_sum_invalid`, `C08_distance_invalid`, `C08_short_tuple`

### C09 Cross and dot product laws (proved)

For segments a,b: a.crossproduct(b) = -b.crossproduct(a), a.crossproduct(a) = 0, a.dotproduct(b) = b.dotproduct(a), reversing one operand flips the sign of both, for every correctly rounded arithmetic.  In exact arithmetic they agree with the determinant / inner product of the direction vectors and |a x b|^2 + (a.b)^2 = |a|^2 |b|^2.

* code: `geometry/SR_line.py:LineSegment.crossproduct`, `geometry/SR_line.py:LineSegment.dotproduct`
* how: Sign laws bit for bit in any correctly rounded arithmetic; determinant/inner product/Lagrange in exact arithmetic.
* theorems (Props/LineA.lean): `C09_cross_antisymm`, `C09_cross_self`, `C09_dot_symm`, `C09_dot_self_nonneg`, `C09_reverse`, `C09_exact`

### C10 is_parallel (proved)

is_parallel is reflexive, symmetric and insensitive to the direction of either segment, is_intersecting is its negation (any float arithmetic); in exact arithmetic it holds iff one direction vector is a multiple of the other, a zero-length segment is parallel to everything, and parallelism passes through any segment of non-zero length.

* code: `geometry/SR_line.py:LineSegment.is_parallel`, `geometry/SR_line.py:LineSegment.is_intersecting`
* how: Laws in any correctly rounded arithmetic; the geometric meaning in exact arithmetic.
* theorems (Props/LineA.lean): `C10_laws`, `C10_null`, `C10_iff_multiple`, `C10_trans`

### C11 intersection_point never divides by zero (proved)

intersection_point returns None exactly for parallel segments, otherwise a Point; it never raises ZeroDivisionError, and exchanging the two segments gives the identical Point - for every correctly rounded float arithmetic, although the parallelity test and the denominator are computed by different expressions.

* code: `geometry/SR_line.py:LineSegment.intersection_point`, `geometry/SR_line.py:LineSegment.is_parallel`
* how: Any correctly rounded arithmetic: the denominator is bit for bit the tested cross product.
* theorems (Props/LineA.lean, Props/Winding.lean): `C11_no_zero_division`, `C11_total`, `C11_symm`, `C11_reverse`

### C12 intersection_point is the intersection (proved)

In exact arithmetic the two lines have exactly one common point and the returned Point is that point rounded to 8 decimals (so within 0.5e-8 per coordinate); if the common point has 8 decimals it is returned exactly.

* code: `geometry/SR_line.py:LineSegment.intersection_point`
* how: Exact arithmetic.
* theorems (Props/LineA.lean): `C12_correct`, `C12_grid`

### C13 Sides of a segment (proved)

No point is both to the left and to the right; a point is to the left iff it is neither to the right nor on the line; points on the left for a segment are to the right of the reversed one and are on the line for both or neither (when not within 1e-8 tolerance); however 'to the right' and 'on the line' are NOT exclusive: points within tolerance right of the line satisfy both, points within tolerance left of it satisfy only 'on the line'.

* code: `geometry/SR_line.py:LineSegment.is_point_to_right`, `geometry/SR_line.py:LineSegment.is_point_to_left`, `geometry/SR_line.py:LineSegment.is_point_on_line`
* how: Exact arithmetic for the meaning; the overlap of 'right' and 'on the line' by a binary64 witness.
* theorems (Props/LineA.lean): `C13_exclusive`, `C13_sides_exact`, `C13_reverse`, `C13_not_exclusive`

### C14 is_internal_point is the closed bounding box, up to one grid step (proved)

For 8-decimal Points (exact arithmetic) is_internal_point holds exactly when minx <= x <= maxx+1e-8 and miny-1e-8 <= y <= maxy+1e-8: every point of the closed box passes, both endpoints always pass, the direction of the segment is irrelevant, and the acceptance is asymmetric (one step left of the box is rejected, one step right/below/above accepted). In binary64 the tolerance is lost to rounding for coordinates beyond 2^28, where a segment rejects its own endpoint.

* code: `geometry/SR_line.py:LineSegment.is_internal_point`
* how: Exact arithmetic on stored points; closed box also in rounded arithmetic as long as the tolerance is not absorbed; binary64 witnesses for the asymmetry and for an endpoint rejected beyond 2^28.
* theorems (Props/LineA.lean): `C14_box`, `C14_accepts`, `C14_reverse`, `C14_accepts_float`, `C14_asymmetric`, `C14_large_coordinates_reject_endpoint`

### C15 is_point_on_line (proved)

Endpoints (and anything == to them) are on the line; in exact arithmetic every point of the infinite line is accepted, and an accepted point is either == to an endpoint or its distance to the line times the segment length is below 1e-8.

* code: `geometry/SR_line.py:LineSegment.is_point_on_line`, `geometry/SR_line.py:LineSegment.crossproduct_commonstart`
* how: Soundness and completeness in exact arithmetic.
* theorems (Props/LineA.lean): `C15_endpoints`, `C15_complete`, `C15_sound`

### C16 touch (proved)

touch is symmetric, invariant under reversing either segment, and for segments with endpoints on the 8-decimal grid (exact arithmetic, distinct points not == to each other) holds iff they have an endpoint in common.  Contrary to its documentation ('only one of their endpoints') it also holds when both endpoints coincide, in particular between a segment and itself.

* code: `geometry/SR_line.py:LineSegment.touch`
* how: Symmetry/direction in any correctly rounded arithmetic under the hypothesis that no two different endpoints are == with the same hash (implied by separation); meaning in exact arithmetic.
* theorems (Props/LineA.lean): `C16_symm`, `C16_common`, `C16_self`

### C17 continuous (proved)

continuous is symmetric; it implies touch; if the end of the first is the start of the second (exact same location) it holds; it also holds when the start of the first is the end of the second, so it does not determine the order of traversal.

* code: `geometry/SR_line.py:LineSegment.continuous`
* how: As C16.
* theorems (Props/LineA.lean): `C17_symm_touch`, `C17_chain`, `C17_iff`

### C18 overlap / common part of collinear segments (proved)

For two collinear segments of non-zero length whose endpoints are pairwise identical or at least 1e-5 apart (exact arithmetic; of the same class if they have the same pair of endpoints) overlap never raises and returns: (False, None) exactly if the closed segments are disjoint; (True, Point) exactly if they share a single point, which is the returned one; (True, segment) otherwise, and the returned segment is the set-theoretic intersection of the two segments. Non-parallel or parallel non-collinear segments give (False, None), in the latter case they are indeed disjoint. common_part of collinear segments is the same part.

* code: `geometry/SR_line.py:LineSegment.overlap`
* how: Exact arithmetic, exact direction. C18_collinear: complete case analysis for collinear non-null segments with separated stored endpoints; C18_not_collinear; C18_common_part for common_part. The spec OverlapSpec speaks about the closed segments as point sets. Needs same class when both endpoints coincide (see C19).
* theorems (Props/LineB.lean, Props/LineD.lean): `C18_collinear`, `C18_not_collinear`, `C18_common_part`

### C19 overlap can crash (proved)

The preconditions of the overlap property are necessary: two segments of different classes with the same pair of endpoints always raise the internal 'should be one' exception, and a zero-length segment on an endpoint of another segment always raises IndexError (for every correctly rounded arithmetic); the same happens for endpoints equal within tolerance but not identical.

* code: `geometry/SR_line.py:LineSegment.overlap`
* how: General theorems in every correctly rounded arithmetic (class mismatch, null segment) plus binary64 witnesses incl. endpoints equal only within tolerance.
* theorems (Props/LineD.lean): `C19_class_mismatch`, `C19_null_segment`, `C19_witnesses`

### C20 common_part of crossing segments (proved)

For non-parallel segments (exact arithmetic): if the two closed segments have a common point, common_part returns that point rounded to 8 decimals; if it returns a Point, this Point is the rounded intersection of the two lines and lies within 1.5e-8 of both bounding boxes, or the segments touch; common_part never raises for non-parallel segments.

* code: `geometry/SR_line.py:LineSegment.common_part`, `geometry/SR_line.py:LineSegment.intersection_on_segment`
* how: C20_common_point and C20_none (completeness), C20_sound (what a returned Point is), C20_total (no exception), C20_symm (any correctly rounded arithmetic). Completeness and soundness in exact arithmetic on 8-decimal endpoints.
* theorems (Props/LineD.lean): `C20_total`, `C20_common_point`, `C20_sound`, `C20_none`, `C20_symm`

### C21 loose_equal (proved)

loose_equal ignores direction: s.loose_equal(reversed copy of same class) always holds; it is symmetric; on separated points it holds iff the two segments have the same class and the same pair of endpoints in either order; == implies loose_equal on separated points, but not in general (equality within tolerance does not give loose equality).

* code: `geometry/SR_line.py:LineSegment.loose_equal`, `geometry/SR_line.py:LineSegment.__eq__`
* how: Any correctly rounded arithmetic; symmetry under the hash hypothesis of C16.
* theorems (Props/LineC.lean): `C21_reverse`, `C21_symm`, `C21_iff`, `C21_eq_loose`, `C21_eq_not_loose`

### C22 Reversing (proved)

reverse() twice restores the segment; it keeps the same Point objects, negates the direction vector, keeps the length bit for bit; line_reversed never modifies the segment but always yields a plain LineSegment, so for Wall/NonWall objects line_reversed is never equal (==) to any Wall.

* code: `geometry/SR_line.py:LineSegment.reverse`, `geometry/SR_line.py:LineSegment.line_reversed`
* how: Value level (C22_reverse...) and object level: C22_reverse_in_place shows that reverse swaps the two Point addresses of that one segment and touches no Point and no other segment.
* theorems (Props/LineC.lean, Props/MoveB.lean): `C22_reverse`, `C22_line_reversed`, `C22_reverse_in_place`

### C23 Moving and mirroring a segment in place (proved)

move(x0,y0) translates both endpoint objects: if the endpoints are two distinct objects each is moved once and nothing else in memory changes; move followed by the opposite move restores 8-decimal segments exactly; mirror_vertical twice about the same 8-decimal axis restores exactly; but if both endpoints are the same object the point is moved twice.

* code: `geometry/SR_line.py:LineSegment.move`, `geometry/SR_line.py:LineSegment.mirror_vertical`
* how: Heap model: frame, aliasing, exact translation, and round trips of move and mirror in exact arithmetic.
* theorems (Props/Move.lean): `C23_move_frame`, `C23_move_aliased`, `C23_move_exact`, `C23_move_back`, `C23_mirror_twice`, `C23_mirror_frame`

### C24 Move round trip in floating point (proved)

With binary64 arithmetic and coordinates and offsets on the 8-decimal grid of magnitude up to ten million, move(x,y) followed by move(-x,-y) restores every coordinate bit for bit; with offsets off the grid (e.g. half a unit of the 8th decimal) it does not.

* code: `geometry/SR_line.py:LineSegment.move`, `geometry/SR_point.py:Point._set_coords`
* how: For every rounding runtime (binary64 included), coordinates and offsets up to 10^7; C24_off_grid_fails is the concrete failure for an offset off the grid.
* theorems (Props/Move.lean): `C24_move_back_float`, `C24_off_grid_fails`

### C25 Length of a segment (proved)

norm is non-negative, the same for both directions, 0 for coinciding endpoints (any float arithmetic); exact arithmetic: zero only for coinciding endpoints, equals distance(i,j), at most the sum via any third point.

* code: `geometry/SR_line.py:LineSegment.norm`, `geometry/SR_line.py:LineSegment.isnull`
* how: Both arithmetics.
* theorems (Props/LineC.lean): `C25_float`, `C25_exact`

### C26 point_on_line_at_ratio (proved)

Ratios outside [0,1] raise AssertionError; 0 and 1 return the endpoint objects themselves; otherwise (exact) the result is within 0.5e-8 per coordinate of the exact affine combination and inside the closed bounding box.

* code: `geometry/SR_line.py:point_on_line_at_ratio`
* how: Exact arithmetic; the error branch in any arithmetic.
* theorems (Props/LineC.lean): `C26_ends`, `C26_exact`

### C27 divide_line (proved)

divide_line(l, n) for integer n >= 1 yields exactly n segments, the first starting at the very object l.i and the last ending at l.j, consecutive ones sharing the same Point object, the k-th division point within 0.5e-8 per coordinate of the exact k/n point (exact arithmetic); n <= 1 (0 raises nothing, negative neither) yields the single segment i-j.

* code: `geometry/SR_line.py:divide_line`
* how: Structure in any arithmetic, positions in exact arithmetic; integer number of segments. C27_objects: end Points are shared with the divided segment, inner Points are fresh and shared between neighbours.
* theorems (Props/LineC.lean, Props/MoveB.lean): `C27_structure`, `C27_degenerate`, `C27_position`, `C27_objects`

### C28 add_point_on_line (proved)

It returns False iff the point fails is_internal_point, otherwise two chained segments i->p, p->j; it does NOT check that p is on the line: points far from the line are accepted whenever inside the bounding box.

* code: `geometry/SR_line.py:add_point_on_line`
* how: Exact arithmetic.
* theorems (Props/LineC.lean): `C28_result`, `C28_off_line`

### C29 line_point_distance (proved)

Non-negative; ZeroDivisionError exactly when the norm is zero; exact arithmetic: equals the Euclidean distance to the infinite line (|cross| / length; a lower bound for the distance to every point of the line, attained at one), same for the reversed segment.

* code: `geometry/SR_line.py:LineSegment.line_point_distance`
* how: Error branch in any rounded arithmetic, meaning in exact arithmetic.
* theorems (Props/LineC.lean): `C29_error`, `C29_exact`

### C30 direction and opposite_direction (proved)

For an atan2/degrees pair satisfying the usual range law direction is in [0,360]; in the exact model equal directions mean positively proportional vectors and opposite_direction is symmetric and holds for a segment and its reverse.

* code: `geometry/SR_line.py:LineSegment.direction`, `geometry/SR_line.py:LineSegment.opposite_direction`
* how: atan2/degrees are parameters constrained by Rt.IsExactDir, which the real functions are proved to satisfy; that 360 itself can be returned in floats is shown with a constrained parameter.
* theorems (Props/LineC.lean): `C30_range_float`, `C30_attains_360`, `C30_range`, `C30_equal_direction`, `C30_opposite_iff`, `C30_opposite_laws`

### C31 angle_between_lines can leave the domain of acos (proved)

ZeroDivisionError exactly if a length (product) is zero; symmetric; exact arithmetic: the argument of acos is always in [-1,1].  In binary64 it is not: for the segment (0,0)-(2,3) and itself the argument exceeds 1 and math.acos raises ValueError.

* code: `geometry/SR_line.py:LineSegment.angle_between_lines`, `geometry/SR_line.py:LineSegment.angle_from_start_point`
* how: Exact arithmetic for the domain; the ValueError in binary64 by kernel evaluation of the modelled sqrt and division.
* theorems (Props/LineC.lean): `C31_error`, `C31_exact`, `C31_domain_error`, `C31_from_start`

### C32 midpoint is not the midpoint (proved)

The attribute midpoint is the point at one third from i (exact arithmetic); it coincides with the true midpoint only for zero-length segments and the midpoint of the reversed segment is a different point otherwise.

* code: `geometry/SR_line.py:LineSegment.midpoint`
* how: Exact arithmetic.
* theorems (Props/LineC.lean): `C32_midpoint`

### C33 unitvector (proved)

(0,0) for null segments; otherwise (exact) a vector of length one in the direction of the segment, and unitvector * norm gives the direction vector; for near-null segments (endpoints == but distinct) it is (0,0) although the norm is positive.

* code: `geometry/SR_line.py:LineSegment.unitvector`
* how: Exact arithmetic; near-null witness in binary64.
* theorems (Props/LineC.lean): `C33_unitvector`, `C33_near_null`

### C34 convex_hull is the convex hull (proved)

For any finite set of coordinate pairs with at least two distinct members, in exact arithmetic, the node list built is the convex hull: its nodes are members of the set, every member of the set lies on or to the left of every edge of the closed result, the turn at every vertex is strictly left when not all members are collinear (just two vertices otherwise), each vertex occurs once, and the first vertex is the lexicographically smallest member; the convex hull (in Mathlib's sense) of the nodes is that of the set, the nodes are exactly its extreme points, and (not all collinear) a point is in it iff it is on or to the left of every edge; for 8-decimal members at least 1e-5 apart the returned polyline is the closed chain through these nodes.  Fewer than two distinct points: the sorted list itself is returned, not a polygon.  In binary64 the enclosure fails: there are three doubles one of which lies strictly outside the returned hull.

* code: `geometry/SR_polygon.py:convex_hull`
* how: Exact arithmetic for all inputs (C34_nodes; C34_polyline for the returned closed polyline; C34_degenerate). C34_convexHull and C34_half_planes tie the node list to Mathlib's convexHull and extremePoints. The failure in binary64 is C34_float_member_outside. purge() at the end of convex_hull changes no values (C45) and is not repeated here.
* theorems (Props/Hull.lean, Props/HullConvex.lean): `C34_nodes`, `C34_polyline`, `C34_degenerate`, `C34_float_member_outside`, `C34_convexHull`, `C34_half_planes`

### C35 convex_hull is independent of order and multiplicity of the input (proved)

Two input sequences with the same set of coordinate pairs give the same hull.

* code: `geometry/SR_polygon.py:convex_hull`
* how: Any arithmetic.
* theorems (Props/Hull.lean): `C35_same_members`

### C36 polygon_from_nodes (proved)

n valid nodes give n-1 segments (an empty node list or a single node gives the 2-segment invalid default polygon), consecutive segments share the very same Point object, no other segments share a Point object, and the resulting line is continuous; with cw=True the first node stays first and the remaining order is reversed; applying the cw reordering twice restores the node list.

* code: `geometry/SR_polygon.py:polygon_from_nodes`
* how: Object level (addresses), any correctly rounded arithmetic. Nodes are numeric pairs, so every Point made from them is valid; invalid nodes (non-numbers) are not modelled.
* theorems (Props/Build.lean): `C36_cw`, `C36_objects`, `C36_degenerate`

### C37 close / isclosed / closed_copy (proved)

close() on a continuous open polyline appends exactly one segment from last to first point and the result is closed; close() on a closed polyline changes nothing; so closing twice equals closing once; closed_copy never changes the original.

* code: `geometry/SR_polygon.py:PolygonLine.close`, `geometry/SR_polygon.py:PolygonLine.closed_copy`, `geometry/SR_polygon.py:PolygonLine.isclosed`
* how: Any correctly rounded arithmetic; additionally C37_close_torn: on a discontinuous polyline every close() appends another segment and never closes.
* theorems (Props/Build.lean): `C37_close_open`, `C37_close_closed`, `C37_close_twice`, `C37_close_torn`, `C37_close_objects`, `C37_closed_copy`

### C38 isclosed accepts open paths (proved)

isclosed being True does not imply that the segments form a cycle i1->j1=i2->j2...->i1: continuity accepts consecutive segments connected end-begin or begin-end, so the open path [B->C, A->B] with A far from C ... and any polyline whose consecutive segments touch backwards can report closed.  If every consecutive pair is joined head-to-tail then isclosed holds iff the first and last point are equal.

* code: `geometry/SR_polygon.py:PolygonLine.isclosed`, `geometry/SR_polygon.py:PolygonLine.iscontinuous`, `geometry/SR_line.py:LineSegment.continuous`
* how: The general open path for all points A, B, C; binary64 witness for "not a cycle"; characterisation for head-to-tail polylines.
* theorems (Props/Build.lean): `C38_open_path_closed`, `C38_not_a_cycle`, `C38_head_to_tail`, `C38_head_to_tail_exact`

### C39 bounding_box of a polyline (proved)

For coordinates within 1e11 of zero the result is exactly the minimum and maximum over all endpoint coordinates, every point of the polyline is inside, and every bound is attained; for a polygon entirely beyond 1e11 the sentinel 10e10 leaks into the result.

* code: `geometry/SR_polygon.py:PolygonLine.bounding_box`
* how: Any ordered field (no arithmetic is involved, only comparisons).
* theorems (Props/Poly.lean): `C39_general`, `C39_box`, `C39_contains`, `C39_sentinel`

### C40 bounding box commutes with translation (proved)

Exact arithmetic, 8-decimal offsets: the bounding box of the moved vertices is the moved bounding box.

* code: `geometry/SR_polygon.py:PolygonLine.bounding_box`, `geometry/SR_polygon.py:PolygonLine.move`
* how: Exact arithmetic; purged polyline with separated points (as produced by purge), coordinates within 1e11 before and after.
* theorems (Props/Poly.lean): `C40_move_box`

### C41 PolygonLine equality (proved)

== on polylines is reflexive for valid polylines and symmetric, requires the same class and the same number of segments in the same order with the same direction.

* code: `geometry/SR_polygon.py:PolygonLine.__eq__`
* how: Any correctly rounded arithmetic.
* theorems (Props/Poly.lean): `C41_iff`, `C41_refl_symm`, `C41_exact`, `C41_order_matters`

### C42 PolygonLine.loose_equal (proved)

With direction_matters=True it raises TypeError whenever the polylines have equally many segments; otherwise it is reflexive and ignores order and direction (any permutation and any reversal of individual segments gives a loosely equal polyline), but it is not symmetric: repeated segments on one side break it.

* code: `geometry/SR_polygon.py:PolygonLine.loose_equal`
* how: Any correctly rounded arithmetic; asymmetry by two witnesses (repeated segments; Wall against plain segment).
* theorems (Props/Poly.lean): `C42_type_error`, `C42_ignores`, `C42_perm`, `C42_iff`, `C42_not_symm`, `C42_not_symm_class`

### C43 loose_subset (proved)

loose_subset is reflexive and transitive, and on separated points means that every endpoint of other is an endpoint of self.

* code: `geometry/SR_polygon.py:PolygonLine.loose_subset`
* how: Meaning, reflexivity and transitivity on separated points; also under the weaker hash hypothesis.
* theorems (Props/Poly.lean): `C43_iff_hash`, `C43_laws`, `C43_endpoints_only`

### C44 neighbour / find_segment_by_point (proved)

find_segment_by_point returns exactly the segments having the point as start / end / either end, in polyline order; an unknown whichend raises iff the point occurs in the polyline; neighbour returns exactly the other endpoints of the segments at the point; on a simple closed polygon with separated vertices every vertex has exactly two neighbours.

* code: `geometry/SR_polygon.py:PolygonLine.find_segment_by_point`, `geometry/SR_polygon.py:PolygonLine.neighbour`
* how: Any correctly rounded arithmetic.
* theorems (Props/Poly.lean): `C44_find`, `C44_neighbour`, `C44_two_neighbours`

### C45 purge merges coincident vertices (proved)

After purge() of a polyline without null segments and with separated points any two endpoints at the same location are the same Point object; no coordinates change; purging again changes nothing.

* code: `geometry/SR_polygon.py:PolygonLine.purge`
* how: Any correctly rounded arithmetic; points at least the tolerance apart; C45_null_segment shows that the restriction to non-null segments is needed.
* theorems (Props/Purge.lean): `C45_purge`, `C45_again`, `C45_null_segment`

### C46 move on a purged polyline is a translation (proved)

For a purged polyline with separated points, move(x,y) (8-decimal offsets, exact arithmetic) changes every endpoint by exactly (x,y), and leaves objects not belonging to the polyline unchanged; moving back restores all coordinates.

* code: `geometry/SR_polygon.py:PolygonLine.move`
* how: Single writes in any correctly rounded arithmetic; exact translation and return trip in exact arithmetic on 8-decimal numbers; also for polylines that are not purged yet.
* theorems (Props/Purge.lean): `C46_move_once`, `C46_move_exact`, `C46_move_back`, `C46_move_unpurged`

### C47 The purged flag goes stale (proved)

append_point_at_end / append_point_at_beginning keep the purged flag although the appended Point may coincide with an existing one; a subsequent move() then moves only one of the two coincident Points and tears the polygon apart.

* code: `geometry/SR_polygon.py:PolygonLine.append_point_at_end`, `geometry/SR_polygon.py:PolygonLine.append_point_at_beginning`, `geometry/SR_polygon.py:PolygonLine.move`
* how: General theorem for both append functions (exactly one of the two coincident Points moves) and a concrete run in which a closed polygon is torn open.
* theorems (Props/Purge.lean): `C47_append_end`, `C47_append_beginning`, `C47_torn`

### C48 order() terminates and only permutes/reverses (proved)

order() always terminates after at most 2n+1 rounds; when it returns True the resulting list consists of (a sublist of) the polyline's own segment objects, no two equal, up to reversal; the start point of the first one is closest to the origin among all start points.  If it returns False the segment list is unchanged but segments may have been reversed in place.

* code: `geometry/SR_polygon.py:PolygonLine.order`
* how: Termination is proved by showing that more rounds than 2n+1 never change the outcome; the statement about False is C48_only_reverses together with the witness C48_failed_but_reversed.
* theorems (Props/Order.lean): `C48_terminates`, `C48_only_reverses`, `C48_sublist`, `C48_distinct_first`, `C48_failed_but_reversed`

### C49 order() limits and losses (proved)

order() raises on every successful cycle with 250 or more segments, returns True on two disjoint cycles while silently dropping one of them, raises IndexError on an empty segment list.

* code: `geometry/SR_polygon.py:PolygonLine.order`
* how: Never True from 250 segments on; raises on every cycle of that size; the lost second cycle is a concrete run; empty list raises IndexError.
* theorems (Props/Order.lean, Props/OrderCycle.lean): `C49_empty`, `C49_never_true`, `C49_second_cycle_dropped`, `C49_long_cycle_raises`

### C50 remove_outlier_segments (proved)

It keeps exactly the segments none of whose endpoints occurs only once among all endpoints; a closed polygon is unchanged; it never adds segments and keeps order; but it is a single pass: a dangling chain of two segments is only shortened, so simplify is not idempotent.

* code: `geometry/SR_polygon.py:remove_outlier_segments`, `geometry/SR_polygon.py:simplify`
* how: Any correctly rounded arithmetic; non-idempotence by a witness.
* theorems (Props/Poly.lean): `C50_spec`, `C50_sublist`, `C50_unchanged`, `C50_closed`, `C50_not_idempotent`

### C51 Winding of convex polygons (proved)

isconvex of a valid polygon says that the cross products of consecutive segments all are >= 0 or all are <= 0; then iscw is False iff some cross product is positive; isccw is always the negation of iscw and fails with it; traversing a polygon backwards negates the cross product at every vertex, and iscw flips (or fails alike) whenever some turn is not straight.

* code: `geometry/SR_polygon.py:PolygonLine.iscw`, `geometry/SR_polygon.py:PolygonLine.isccw`, `geometry/SR_polygon.py:PolygonLine.isconvex`, `geometry/SR_polygon.py:PolygonLine.cps`
* how: isconvex, iscw, isccw and cps modelled; all statements for any correctly rounded arithmetic; flipping uses that hashes separate the endpoints (HashOK).
* theorems (Props/Winding.lean): `C51_reverse_cps`, `C51_convex`, `C51_ccw`, `C51_cw_convex`, `C51_flip`

### C52 iscw is wrong or raises on non-convex polygons (proved)

For non-convex polygons iscw counts turn signs instead of the signed area: there is a simple ccw polygon for which it says clockwise, and one for which it raises.

* code: `geometry/SR_polygon.py:PolygonLine.iscw`
* how: The expected property (iscw decides the orientation) is false; two concrete valid polygons of positive signed area refute it; C52_spec says what is computed instead.
* theorems (Props/Winding.lean): `C52_wrong`, `C52_spec`

### C53 Vertices are never internal (proved)

PolygonLine.is_internal_point answers False for every vertex whatever the random rays are (no random draw is consumed), and is_external_point then answers True.

* code: `geometry/SR_polygon.py:PolygonLine.is_internal_point`, `geometry/SR_polygon.py:PolygonLine.is_external_point`
* how: Random targets are an arbitrary stream.
* theorems (Props/Internal.lean): `C53_vertex`, `C53_external`

### C54 is_on_boundary is False unless two random evaluations disagree (proved)

Whenever the two internal tests agree (in particular for every vertex) is_on_boundary answers False; it can answer True only if two successive random evaluations of the same question disagree.

* code: `geometry/SR_polygon.py:PolygonLine.is_on_boundary`
* how: Two independent streams for the two evaluations; C54_attained shows the only way to True is possible.
* theorems (Props/Internal.lean): `C54_boundary`, `C54_attained`

### C55 Outside the bounding box means external (proved)

If a point lies to the right of (or above) the whole bounding box by more than the tolerance and the random targets do as well, is_internal_point terminates in the first round with False, whatever the targets are otherwise.

* code: `geometry/SR_polygon.py:PolygonLine.is_internal_point`
* how: C55_outside for any correctly rounded arithmetic with the exact margin as hypothesis; C55_outside_exact spells the margin out.
* theorems (Props/Internal.lean): `C55_outside`, `C55_outside_exact`

### C56 is_internal_point depends on the random target for polygons in negative quadrants (proved)

There is a valid square with negative upper bounds and a point for which two admissible random sequences yield different answers.

* code: `geometry/SR_polygon.py:PolygonLine.is_internal_point`
* how: Negative result with a concrete square and two admissible target sequences (binary64).
* theorems (Props/Internal.lean): `C56_random_answer`

### C57 Triangle area (proved)

Heron's formula as computed equals half the absolute cross product of two sides for every closed triangle (exact arithmetic); it is invariant under reversal and order of segments. In binary64 it raises ValueError for some flat triangles with integer corners although it is meant to return 0.

* code: `geometry/SR_polygon.py:Triangle.area`
* how: Exact arithmetic for the value; reversal invariance and non-negativity for any correctly rounded arithmetic; C57_flat_raises is a binary64 counterexample to the intended behaviour for flat triangles.
* theorems (Props/Triangle.lean): `C57_area`, `C57_invariant`, `C57_nonneg`, `C57_flat_raises`

### C58 Triangle congruence (proved)

congruent is symmetric, reflexive, returns None (falsy) when not congruent, and on separated points holds iff the vertex sets are the same. Without separation, triangles with pairwise equal corners can fail to be congruent.

* code: `geometry/SR_polygon.py:Triangle.congruent`
* how: Vertex sets compared as sorted lists, as in the code; separation hypothesis is needed (C58_near_vertices).
* theorems (Props/Triangle.lean): `C58_laws`, `C58_iff`, `C58_near_vertices`

### C59 Triangulation dispatch errors (proved)

triangulate(None) raises; an unknown algorithm name raises iff (re)triangulation is needed (no stored triangles, or force); if it is needed, 'delaunay' always raises AttributeError after having deleted the stored triangles.

* code: `geometry/SR_polygon.py:PolygonLine.triangulate`, `geometry/SR_polygon.py:PolygonLine.triangulate_delaunay`
* how: ear_clipping and triangle_mesh are parameters; the Delaunay branch always raises AttributeError (attribute delaunay is never set) after emptying the stored triangles.
* theorems (Props/Delaunay.lean): `C59_none`, `C59_unknown`, `C59_delaunay`, `C59_cached_random`

### C60 Delaunay2d primitives (proved)

getArea changes sign when two indices are swapped and is invariant under cyclic rotation of indices (exact, grid); makeCounterClockwise yields an area >= -EPS; makeKey is symmetric and sorted. getArea, isEdgeVisible and makeCounterClockwise raise exactly if one of the indices is outside -n, ..., n - 1 (n points), and then an IndexError.

* code: `geometry/SR_polygon.py:Delaunay2d.getArea`, `geometry/SR_polygon.py:Delaunay2d.makeCounterClockwise`, `geometry/SR_polygon.py:Delaunay2d.makeKey`
* how: Swap in any correctly rounded arithmetic; rotation and value in exact arithmetic; the bound after makeCounterClockwise holds up to the tolerance EPS.
* theorems (Props/Delaunay.lean, Props/DelaunayIndex.lean): `C60_swap`, `C60_exact`, `C60_ccw`, `C60_key`, `C60_index`

### C61 Edge flips keep the mesh consistent (proved)

flipOneEdge on a mesh whose table edge2Triangles is consistent (an edge lists a triangle iff the triangle has that edge, at most two triangles per edge) never raises, keeps the points and the number of triangles, changes at most two triangles, introduces no new vertex, and leaves the table consistent, provided the two triangles at the edge have different third vertices that are not already joined by an edge. In exact arithmetic on a planar mesh it keeps the total area. It does not keep the total signed area: the orientation of the two new triangles depends on the order in which the table lists the triangles.

* code: `geometry/SR_polygon.py:Delaunay2d.flipOneEdge`
* how: Soundness and consistency of the table in every arithmetic. The total signed area is not kept (C61_signed_area, witness); the total area is (C61_area).
* theorems (Props/Delaunay.lean, Props/DelaunayFlip.lean): `C61_sound`, `C61_consistent`, `C61_no_error`, `C61_area`, `C61_signed_area`

### C62 add() mutates its first operand (proved)

add(self, *others) extends self's own segment list with the segments of the others, also when it subsequently fails; if ends do not meet it raises AssertionError instead of inserting the documented connecting segment.

* code: `geometry/SR_polygon.py:add`
* how: add with any number of other polylines, none of which is self; documented connecting segment does not exist.
* theorems (Props/Square.lean): `C62_mutates`, `C62_no_connection`, `C62_gap`

### C63 PolygonLine.isvalid and crossing (proved)

crossing_lines is symmetric (lists (a,b) iff it lists (b,a)), empty iff no two distinct positions cross; moving a valid polygon by 8-decimal offsets preserves being continuous/closed (exact arithmetic).

* code: `geometry/SR_polygon.py:PolygonLine.crossing_lines`, `geometry/SR_polygon.py:PolygonLine.isvalid`
* how: crossing_lines and isvalid for any correctly rounded arithmetic; translation in exact arithmetic, for purged polylines with separated points.
* theorems (Props/Winding.lean): `C63_crossing`, `C63_valid`, `C63_move`

### C64 square() (proved)

square(a,x0,y0) is a closed polygon of five segments whose bounding box is [x0-a/2,x0+a/2]x[y0,y0+a] for 8-decimal a/2,x0,y0 (exact arithmetic), for both cw settings.

* code: `geometry/SR_polygon.py:square`
* how: Exact arithmetic, a/2 at least 1e-5, all coordinates within 1e11 (sentinel of bounding_box).
* theorems (Props/Square.lean): `C64_square`

### C65 Numbering of graph nodes (proved)

points_numbered gives every endpoint of a segment of the group a number below the number n of nodes, and every number below n is given to some endpoint. If the endpoints are separated, two endpoints get the same number iff they are at the same location, and n is the number of different locations. as_adjacency_list(as_numbered=True) never raises KeyError, has exactly the keys 0..n-1 in order, and lists for each as many neighbours as the Point has.

* code: `geometry/SR_polygon_group.py:PolygonGroup.points_numbered`, `geometry/SR_polygon_group.py:PolygonGroup.as_adjacency_list`
* how: For every rounding of the arithmetic; 'same number iff same location' needs endpoints apart by the equality tolerance. The dict of points_numbered is the position in the list of the set point_set.
* theorems (Props/Group.lean): `C65_numbers`, `C65_same`, `C65_count`, `C65_adjacency`

### C66 Adjacency and handshake (proved)

If the endpoints are separated, the sum of the numbers of neighbours over all nodes of a group is twice the number of its segments that have two different ends, so the number of nodes with an odd number of neighbours is even; and q is listed among the neighbours of p as often as p among those of q. In the representative graph of a group of separated endpoints, ends at the same place are the same Point object.

* code: `geometry/SR_polygon_group.py:PolygonGroup.as_adjacency_list`
* how: Rounding arithmetic, separated endpoints. Segments with equal ends do not count, as neighbour skips them.
* theorems (Props/Group.lean, Props/GroupB.lean): `C66_handshake`, `C66_symmetric`, `C66_odd_even`, `C66_shared`

### C67 Nodes of degree ten or more escape the validity check (proved)

The degree checks of PolygonGroup.isvalid pass iff every degree is 2, 3 or at least ten, at least three nodes have degree 2, and the number of nodes of degree 3 is even; isvalid is that and the validity of every polygon. With separated endpoints and no loose end, an odd number of nodes of degree 3 means that a node of odd degree at least 5 exists. A bouquet of five triangles (a node of degree ten) is valid, one of four triangles (degree eight) is not.

* code: `geometry/SR_polygon_group.py:PolygonGroup.isvalid`
* how: C67_check characterises the degree checks for all degree lists, C67_group ties them to isvalid on memory, C67_degree_ten is the witness of the hole.
* theorems (Props/Group.lean): `C67_check`, `C67_odd_branches`, `C67_group`, `C67_degree_ten`

### C68 disjunct_cycles is always empty (proved)

disjunct_cycles has the keys of cycles, each with an empty list, for every group.

* code: `geometry/SR_polygon_group.py:BehalterGraph.disjunct_cycles`
* how: The code tests the length of an empty list literal; the intersection of sets is a parameter.
* theorems (Props/Group.lean): `C68_empty`

### C69 keep_base_polygons decides by area sums only (proved)

The reduction of keep_base_polygons returns polygons in their order, and removes a polygon only if its area is within EPS of the sum of the areas of the triangles of two or more of the polygons. If exactly one polygon has such an area it is removed, whatever the positions of the polygons. If two polygons have such an area the second may be skipped and stay, because the list is changed while it is iterated over.

* code: `geometry/SR_polygon_group.py:BehalterGraph.keep_base_polygons`
* how: Polygons are abstract with their area, the areas of their triangles and an equality; the removal while iterating is modelled. The triangulation itself and the preceding loose_equal removal are not part of this model.
* theorems (Props/Group.lean): `C69_reason`, `C69_removed`, `C69_skipped`

### C70 find_loops soundness (proved)

Every loop that find_loops returns consists of segments that are, up to direction, segments of the group; loops are sorted by their number of segments; each loop was closed (walk_segments) or valid and closed (combinations) when it was found. A combination is examined exactly if it is not empty and each of its endpoints occurs in it exactly twice. A loop found later may reverse segment objects of an earlier one, so a returned loop need not be continuous.

* code: `geometry/SR_polygon_group.py:BehalterGraph.find_loops`, `geometry/SR_polygon.py:walk_segments`
* how: On memory with shared segment objects; iteration orders of sets are arbitrary permutations. C70_torn is the witness of a torn loop.
* theorems (Props/GroupB.lean, Props/Loops.lean): `C70_examined`, `C70_segments`, `C70_walk`, `C70_accepts`, `C70_torn`

### C71 raum_dict_checker accepts exactly unique relabellings (proved)

For a dict of at most 26 rooms, raum_dict_checker(dict, pattern) returns True iff exactly one renaming of rooms to letters turns the dict into the pattern, and raises Exception otherwise - also when two or more renamings match. So a dict in which two rooms occur in exactly the same entries is never accepted, not even with itself relabelled as pattern, and a dict is accepted as its own pattern iff it has no non-trivial symmetry. With more than 26 rooms it always ends in a KeyError. The result does not depend on the iteration order of the sets.

* code: `SR_Vessel/SR_hauptteile.py:raum_dict_checker`
* how: dicts and patterns as lists of (key, list of rooms) with set comparison; the rooms may be listed in any order; letters as the 26 indices
* theorems (Props/Rooms.lean): `C71_checker`, `C71_symmetric`, `C71_self`, `C71_too_many`

### C72 Mantel geometry (proved)

A new Mantel whose corners are pairwise at least 1e-5 apart consists of two Walls and two NonWalls forming a closed chain through its four corners with shared endpoints, its graph being the two Walls, and no older object is touched. On the axis (pos_h = 0) the stored corners are mirror images of each other in every rounding arithmetic. isvalid is True in every rounding arithmetic for shells and cones on the axis and for cylinders anywhere, and in exact arithmetic for all shells on the coordinate grid; but in binary64 it is False for sound cones off the axis (d=(0.1, 0.4), h=1, pos_h=0.1), because the mid-axis comparison is exact. Conversely, whatever isvalid accepts has exactly two graph walls, running in opposite directions between the same two heights with the middles between them on one vertical line, and a valid outline.

* code: `SR_Vessel/SR_hauptteile.py:Mantel`
* how: outline and purge on the heap model; every rounding arithmetic for structure, axis symmetry, and validity on the axis and of cylinders; exact arithmetic for validity anywhere; the binary64 failure is C72_crooked. The classification of the reference points in the constructor is not part of mantelNew (see C94)
* theorems (Props/Mantel.lean, Props/MantelB.lean): `C72_outline`, `C72_symmetric`, `C72_corners`, `C72_valid_on_axis`, `C72_valid_cylinder`, `C72_valid_exact`, `C72_crooked`, `C72_valid_sound`

### C73 StandZarge is never valid and its graph is left behind (proved)

StandZarge.isvalid is False for all dimensions and in every arithmetic, because its graph has three Walls where the inherited check expects two; its outline is nevertheless the outline of the Mantel of the same dimensions with a Wall at the bottom. The graph keeps the Wall objects of the first outline, none of which is in the second one, while the flag that the polyline is purged stays set: moving the StandZarge moves its outline exactly by the given offset and leaves its graph where it was.

* code: `SR_Vessel/SR_hauptteile.py:StandZarge`
* how: validity for every arithmetic without hypotheses; the graph left behind by a move for every rounding arithmetic on the heap model
* theorems (Props/Mantel.lean, Props/MantelB.lean): `C73_never_valid`, `C73_outline`, `C73_left_behind`

### C74 Reference points of a torispherical head (proved)

In exact arithmetic, for a head placed on the coordinate grid, of every diameter from 1e-6 on and of both orientations: the graph is two walls meeting in the apex; each gets two internal points strictly between base line and that wall and one external point strictly beyond it (with the stored, rounded coordinates). If pos_h is off the grid and rounded downwards (e.g. 1/3), both walls are taken for the left one and the right wall gets the reference points of the left one.

* code: `SR_Vessel/SR_hauptteile.py:TorispherischesBoden.intex_points`
* how: exact arithmetic but with the rounding of stored coordinates; C74_off_grid is the failure for off-grid pos_h, C74_off_grid_binary64 shows it in binary64
* theorems (Props/Head.lean): `C74_reference_points`, `C74_off_grid`, `C74_off_grid_binary64`

### C75 sphere_line_intersection (proved)

In exact arithmetic and for a proper line, (None, None) is returned iff sphere and line have no common point; if they have exactly one (tangent) NameError is raised; otherwise the two returned points are different and are exactly the common points, the first one further along the line. A degenerate line always raises NameError, and ZeroDivisionError never occurs, in every rounding arithmetic. Tangency is reached in binary64.

* code: `geometry/additional_stuff.py:sphere_line_intersection`
* how: exact statement C75_line; error clauses for all rounding arithmetics; binary64 tangent witness
* theorems (Props/Sphere.lean): `C75_degenerate`, `C75_no_zero_division`, `C75_line`, `C75_tangent`

### C76 order() restores every shuffled cycle (proved)

If the segments of a polyline are, in any order and any direction, the sides of one closed walk through at least three different separated points, and there are fewer than 250 of them, order() returns True and the new segment list is a permutation of the same segment objects in which every segment ends where the next one starts and the last one ends where the first one starts; no coordinate changes.

* code: `geometry/SR_polygon.py:PolygonLine.order`
* how: Any correctly rounded arithmetic, points at least the tolerance apart.
* theorems (Props/OrderCycle.lean): `C76_restores_cycle`, `C76_direction`

### C77 An edge is flipped only when a vertex is inside a circumcircle (proved)

In exact arithmetic, on a mesh where the triangles on the two sides of every inner edge lie strictly on opposite sides of it, flipOneEdge changes the mesh only if the third vertex of the second triangle lies strictly inside the circumcircle of the first; then the two triangles are replaced by the two other triangles of a convex quadrilateral, and the mesh stays planar with the same points, the same number of triangles, the same total area and a sound table.

* code: `geometry/SR_polygon.py:Delaunay2d.flipOneEdge`
* how: Exact arithmetic; of atan2 only the law IsExactAngle is used, proved for the real arcus function.
* theorems (Props/DelaunayFlip.lean): `C77_flip`

### C78 flipEdges terminates in a Delaunay mesh (proved)

In exact arithmetic, on every planar mesh with a sound table, the while loop of flipEdges terminates for every order in which the edge sets are iterated; if it was started on all edges and does not raise, then at every edge with two triangles the two opposite angles sum up to at most pi (1 + EPS), and points, number of triangles, total area and planarity are kept.

* code: `geometry/SR_polygon.py:Delaunay2d.flipEdges`
* how: Exact arithmetic with IsExactAngle. Local condition at each inner edge; the global empty-circle property follows in C121.
* theorems (Props/DelaunayFlip.lean): `C78_terminates`, `C78_delaunay`

### C79 Cross product from a common start and collinearity (proved)

crossproduct_commonstart raises AssertionError iff the start points of the two segments are not equal, else (exact) it returns twice the signed area of the triangle of the three points and changes sign when the segments are exchanged. A segment is collinear with itself and its reversal; (exact) s.is_collinear(o) is True iff each end of o equals an end of s or spans with s a triangle of doubled area below 1e-8. is_collinear is not symmetric.

* code: `geometry/SR_line.py:LineSegment.crossproduct_commonstart`, `geometry/SR_line.py:LineSegment.is_collinear`
* how: Assertion and reflexivity in every arithmetic; values in exact arithmetic; witness in binary64 for the missing symmetry.
* theorems (Props/LineE.lean): `C79_assert`, `C79_value`, `C79_self`, `C79_collinear`, `C79_not_symmetric`

### C80 intersection_on_endpoint and bounding box of a segment (proved)

intersection_on_endpoint is False for parallel segments, True for touching non-parallel ones, and else True iff the computed point of intersection equals one of the four ends; it is symmetric. (exact) It is True whenever an end of one segment lies on the line of the other, even outside of that segment. bounding_box of a segment is the smallest axis-parallel box around its two ends.

* code: `geometry/SR_line.py:LineSegment.intersection_on_endpoint`, `geometry/SR_line.py:LineSegment.bounding_box`
* how: Case split, symmetry and the minimality of the box hold for every correctly rounded arithmetic; the geometric meaning for exact arithmetic.
* theorems (Props/LineE.lean): `C80_cases`, `C80_symm`, `C80_on_line`, `C80_sound`, `C80_t_junction`, `C80_box`

### C81 find_loops raises on a single loop (proved)

On a group whose segments form one loop head to tail through different, separated points (3 to 249 segments), find_loops raises IndexError, for all iteration orders of sets: it finds the loop, removes all segments from the graph and walks the empty graph. The same loop of Walls with two of them in the other direction is returned, with segments left in the graph.

* code: `geometry/SR_polygon_group.py:BehalterGraph.find_loops`, `geometry/SR_polygon.py:walk_segments`
* how: Memory model with deep copies and arbitrary set orders; head-to-tail loops of fewer than 250 segments (the limit of order). C81_mixed_walls is a concrete execution.
* theorems (Props/LoopsSingle.lean): `C81_single_loop`, `C81_mixed_walls`

### C82 overlaps_in_cycles (proved)

overlaps_in_cycles has exactly the keys (a, b) with a < b of pairs of cycles with a common part, each once, with the common parts as value.

* code: `geometry/SR_polygon_group.py:BehalterGraph.overlaps_in_cycles`
* how: The intersection of two sets is a parameter of which only symmetry of emptiness is used.
* theorems (Props/Group.lean): `C82_overlaps`

### C83 is_internal_point does not depend on the random targets (proved)

For a closed polygon with different vertices and a point on none of its sides, is_internal_point gives the same answer in the first round for all random targets in general position (to the right of the point and of all vertices, line of sight through no vertex, no near misses): the parity of the number of sides met on the way to any such target. is_external_point is the opposite and is_on_boundary is False. It is enough that one of the three targets of every round is in general position: a round with different parities is repeated, so no other answer can be returned; the loop ends with the first round of three such targets at the latest, but nothing bounds the number of rounds.

* code: `geometry/SR_polygon.py:PolygonLine.is_internal_point`, `geometry/SR_line.py:LineSegment.intersection_on_segment`
* how: Exact arithmetic; general position is a hypothesis on the targets, the vertices are assumed different and separated. That the loop may go on for ever is proved for every polygon with two disagreeing targets, with a square in binary64 as the concrete case.
* theorems (Props/Ray.lean): `C83_target_independent`, `C83_same_answer`, `C83_one_good`, `C83_ends`, `C83_may_not_end`

### C84 is_internal_point is correct for convex polygons (proved)

For a strictly convex polygon, in either direction, and random targets in general position, is_internal_point returns True for every point strictly inside and False for every point strictly outside, in the first round. A point on a side (not a vertex) of a counter-clockwise one counts as internal if the targets are on the outer side of this side and as external if they are on its inner side: so all points of a vertical right side are internal and all points of a vertical left side external.

* code: `geometry/SR_polygon.py:PolygonLine.is_internal_point`
* how: At most one side passes the line of sight in each direction, and a point inside sees exactly one of them ahead. Same hypotheses on the targets as C83.
* theorems (Props/Ray.lean, Props/RaySide.lean): `C84_inside`, `C84_outside`, `C84_clockwise`, `C84_on_side`, `C84_right_and_left`

### C85 random targets of is_internal_point (proved)

For a bounding box with positive upper bounds (x, y) the targets are the rounded points of [x, 500x] x [y, 30y]; with x < 0 they lie to the left of the right end of the polygon; with x = y = 0 every target is the origin. For the square with corners (-1, -1) and (0, 0) the centre is therefore reported external, for all random choices.

* code: `geometry/SR_polygon.py:PolygonLine.is_internal_point`
* how: The last part is a failure of the documented meaning (binary64 witness, all random choices).
* theorems (Props/Ray.lean): `C85_zero_box`, `C85_targets`, `C85_negative`, `C85_centre_external`

### C86 PolygonLine.mirror_vertical (proved)

mirror_vertical(x0) on a polyline with different vertices moves every vertex exactly once, also when consecutive segments share their Point objects or when they are separate equal ones, and changes no other Point; in exact arithmetic with 8-decimal numbers every endpoint (x, y) becomes (2*x0 - x, y) and mirroring twice restores all segments.

* code: `geometry/SR_polygon.py:PolygonLine.mirror_vertical`, `geometry/SR_polygon.py:PolygonLine.purge`
* how: Heap model; the first part holds in every correctly rounded arithmetic. The polyline is either not purged or purged and sharing its endpoints, the two states the class can be in.
* theorems (Props/Rigid.lean): `C86_mirror_once`, `C86_mirror_exact`, `C86_mirror_twice`

### C87 PolygonLine.rotate_about_origin and rotate_about_xy (proved)

rotate_about_origin(phi) moves every endpoint exactly once, to the position rotated counter-clockwise by phi degrees about the origin, rounded to 8 decimals (error at most 5e-9 per coordinate), a quarter turn is exact; rotate_about_xy(x0, y0, phi) does the same about (x0, y0) for vertices at least 2e-5 apart and leaves an endpoint at the centre in place. No other Point is changed.

* code: `geometry/SR_polygon.py:PolygonLine.rotate_about_origin`, `geometry/SR_polygon.py:PolygonLine.rotate_about_xy`
* how: Heap model, exact arithmetic, cosine and sine arbitrary numbers with c*c + s*s = 1 where needed (true of the real functions).
* theorems (Props/Rigid.lean): `C87_rotate`, `C87_error`, `C87_quarter`, `C87_about_xy`, `C87_centre`

### C88 PolygonLine.midpoint is the average of the vertices (proved)

midpoint is the average of the different vertices, rounded to 8 decimals, every vertex counted once; it does not depend on the order or the direction of the segments; for a polyline without segments it raises ZeroDivisionError.

* code: `geometry/SR_polygon.py:PolygonLine.midpoint`
* how: Exact arithmetic. The binary64 value is shown for one triangle.
* theorems (Props/Midpoint.lean): `C88_average`, `C88_empty`, `C88_vertices_only`

### C89 Delaunay2d.addPoint keeps the mesh and its tables consistent (proved)

addPoint (before the flips), for a point used by no triangle on a mesh with a consistent edge2Triangles table and a boundary of edges with one triangle each, raises nothing, appends exactly one triangle for each boundary edge the point sees, made of that edge and the point, and keeps the table consistent with at most two triangles per edge; the new boundary consists of the unseen edges and the edges to the new point having one triangle, and is a boundary again if the seen edges are consecutive. In exact arithmetic, a point not within EPS of the line of a boundary edge sees exactly the edges it is to the right of; the mesh stays planar, to the left of its boundary, all new triangles are counter-clockwise and the total area grows by the triangles added. The first triangle of triangulate satisfies all these assumptions; no triangle is made iff all triples of consecutive points have an area below EPS.

* code: `geometry/SR_polygon.py:Delaunay2d.addPoint`, `geometry/SR_polygon.py:Delaunay2d.isEdgeVisible`, `geometry/SR_polygon.py:Delaunay2d.triangulate`
* how: The combinatorial part holds in any arithmetic. That the seen edges are consecutive is a hypothesis (true for a convex boundary). The random order of Python sets is the order of the list, which is arbitrary.
* theorems (Props/DelaunayAdd.lean): `C89_add`, `C89_boundary`, `C89_visible`, `C89_planar`, `C89_none`, `C89_first`, `C89_first_planar`

### C90 ear_clipping yields a triangulation with the area of the polygon (proved)

ear_clipping of a polygon with n >= 3 corners, different corners at least 1e-5 apart, sides in any order and direction: whatever corner is chosen in each round and whatever triangle_ok answers, if it returns True, exactly n-2 triangles have been stored, the segments of each are the sides of a triangle whose three corners are corners of the polygon in their cyclic order, and the signed areas of the triangles add up to the signed area of the polygon; no two of them are equal, so that the set they are stored in has them all; if it returns False, what is missing is the signed area of the polygon left over. More than 5002 corners never give True. In exact arithmetic nothing is raised, the areas computed from the stored triangles add up to at least the area of the polygon, to exactly this area for convex counter-clockwise ones, and a convex counter-clockwise polygon of at most 5002 corners without nearly collinear corners is finished if triangle_ok accepts. The stored triangles share the cutting segments, which later triangles turn round: already for a quadrangle the first stored triangle is not closed in the end, so that its own is_triangle is False.

* code: `geometry/SR_polygon.py:PolygonLine.ear_clipping`, `geometry/SR_polygon.py:Triangle.__init__`, `geometry/SR_polygon.py:PolygonLine.is_triangle`
* how: triangle_ok is an arbitrary function of the state that returns (its ray casting may not end, C56); C90_convex_done assumes of it only that it accepts triangles of three consecutive corners of the convex polygons left over, which C134/C135 prove of the function in the code. The corner chosen is an arbitrary member of point_set. The deep copy the function works on is the heap it starts from.
* theorems (Props/Ear.lean): `C90_triangulation`, `C90_distinct`, `C90_given_up`, `C90_too_many`, `C90_convex_done`, `C90_no_error`, `C90_area`, `C90_torn`

### C91 Walls of the rooms of a vessel (proved)

raum_erstellen makes one room per cycle; the outer wall of a room is the list of the parts of its cycle, and a room whose cycle contains no other cycle has no inner wall. If the cycle contains others, the inner walls are exactly the parts that belong to one cycle only, where this cycle is contained in the room or touches (shares a part with) another cycle anywhere in the vessel. So the inner walls are right if all touching cycles are contained in the room, and otherwise walls of unrelated rooms, or of the room itself, are listed as inner walls. IndexError is raised exactly if some cycle contains another and, in the sorted list of touching pairs, a pair has a cycle in common with an earlier pair at an index beyond the number of wall lists made so far; e.g. if the first cycle touches three others. With at most two touching pairs no error is raised.

* code: `SR_Vessel/SR_hauptteile.py:Behalter.raum_erstellen`
* how: C91_walls gives the walls of every room for any parts per cycle and any containment relation; C91_right and C91_foreign are the two sides of it; C91_raises is the exact condition for IndexError, C91_two_pairs and C91_hub are consequences. The cycles, their parts and the containment are inputs (C92 is about the containment).
* theorems (Props/Raum.lean): `C91_walls`, `C91_right`, `C91_foreign`, `C91_raises`, `C91_two_pairs`, `C91_hub`

### C92 Contained cycles (proved)

contained_cycles lists under every cycle e, in the order of the keys, exactly the other cycles all of whose corners are strictly inside the convex hull of the corners of e, or on a side of this hull (not a vertex) that has the random targets on its outer side. It decides by the hull and not by the cycle itself: a cycle in a notch of e is listed although all of its corners are outside e. A cycle with a corner at a vertex of the hull is never listed; one that touches a vertical side from inside is listed if it is the right side and not if it is the left side. Strict containment is transitive and never mutual. A cycle without parts is contained in all others, and makes the property raise AttributeError if another cycle has a corner.

* code: `geometry/SR_polygon_group.py:Graph.contained_cycles`
* how: exact arithmetic: the hull polygon of C34 is strictly convex and its inside is the inside of the hull (given by its supporting lines), the ray test is C84; the failures C92_notch and C92_touching_sides are witnesses in binary64
* theorems (Props/Contained.lean): `C92_contains`, `C92_strictly`, `C92_dict`, `C92_transitive`, `C92_not_mutual`, `C92_shared_vertex`, `C92_empty`, `C92_no_parts`, `C92_notch`, `C92_touching_sides`

### C93 A polygon drawn in any order (proved)

For a closed polygon no side of which is drawn twice, is_internal_point gives the parity of the number of sides met by a segment from the point to any target in general position, whatever the order of the segments in the list, the direction of each and their class; for strictly convex polygons this is True for all points strictly inside and False for all points strictly outside. A further copy of a side in the same direction does not change any answer. A further copy in the opposite direction is counted as a second side: a point strictly inside a convex polygon is then reported as external if the random targets are seen through this side.

* code: `geometry/SR_polygon.py:PolygonLine.is_internal_point`
* how: exact arithmetic; C93_drawing for all closed polygons without doubled sides, C93_inside and C93_outside for strictly convex ones, C93_twice and C93_turned for doubled sides
* theorems (Props/RayDraw.lean): `C93_drawing`, `C93_inside`, `C93_outside`, `C93_twice`, `C93_turned`

### C94 Reference points of a shell (proved)

Mantel.intex_points makes four reference points per wall, two on either side. The distance from the right wall is min(h/10, d/1e5, 0.002), from the left wall d/1e5 without a limit (the abscissa relative to the axis is negative there and wins the min before abs is taken), so the points are not symmetric. For a shell on the coordinate grid with a lower diameter of at least 0.01 and not flatter than 1:10 the four points of a side wall are on the sides they are meant for, and are sorted correctly: two internal, two external. The four points of the bottom wall of a skirt lie on the wall itself: all are sorted as external if the random targets are above the bottom, and all as internal if they are below. The targets are above whenever the top of the skirt is not below 0; below that (a skirt from -10 to -5) the result is external, internal or an Exception, depending on chance.

* code: `SR_Vessel/SR_hauptteile.py:Mantel.intex_points`, `SR_Vessel/SR_hauptteile.py:StandZarge`
* how: exact arithmetic with coordinates rounded to 8 decimals; C94_offsets, C94_points and C94_bottom_points give the points, C94_sorted and C94_bottom_sorted their classification by the random test (C93), C94_targets_above when the targets are above; C94_below_ground is a witness in binary64
* theorems (Props/Intex.lean): `C94_offsets`, `C94_points`, `C94_sorted`, `C94_bottom_points`, `C94_bottom_sorted`, `C94_targets_above`, `C94_below_ground`

### C95 Outliers of a drawing (proved)

remove_outlier_segments keeps, in their order, exactly the segments both endpoints of which are an end of another segment as well (a null segment counts as its own neighbour). A closed polygon, drawn in any order and with any direction of its sides, is returned unchanged, for any comparison of points. Only one round is made: of a tail of two segments at a closed polygon the first remains and is then an outlier itself; a second call would remove it.

* code: `geometry/SR_polygon.py:remove_outlier_segments`, `geometry/SR_polygon.py:simplify`
* how: C95_kept under the condition that points that are == are equal, C95_closed without any condition, C95_one_round for the tail
* theorems (Props/RaumIntex.lean): `C95_kept`, `C95_closed`, `C95_one_round`

### C96 Which rooms are inside and outside of a part (proved)

If all random tests end, raum_intex puts a room into innenraum (aussenraum) of a part iff the part is a wall of a room of that name, has internal (external) reference points at all, and all of those of at least one of its graph segments are in the room's polygon without outliers; into indifferent iff some indifferent point is not in it. So one wall of a part is enough, whatever the points of the others say. A segment without points of a kind is enough, too: the room is recorded wherever it is. Therefore every room that has a skirt as a wall is an innenraum of the skirt (its bottom wall has no internal points, C94), also the room that surrounds it.

* code: `SR_Vessel/SR_hauptteile.py:Behalter.raum_intex`
* how: C96_recorded is the rule for any answers of the random tests; C96_no_points and C96_skirt hold for every run that ends; C96_plain is a witness in binary64. Not modelled: triangulate, whose result is not used (an exception in it would end raum_intex), and the deep copy
* theorems (Props/RaumIntex.lean, Props/RaumVessel.lean): `C96_recorded`, `C96_no_points`, `C96_skirt`, `C96_plain`

### C97 A vessel with one room (proved)

For a room whose walls draw, in any order and direction, a strictly convex polygon, and whose parts have their reference points on the proper sides of it, raum_intex records the room as innenraum of each of its parts and nothing else. This applies to every cylindrical shell closed by two torispherical heads: the constructors make the graphs and reference points without an error, whatever the random targets in general position, and the room made of these three parts is the innenraum of all three, never aussenraum or indifferent.

* code: `SR_Vessel/SR_hauptteile.py:Behalter.raum_intex`, `SR_Vessel/SR_hauptteile.py:Mantel`, `SR_Vessel/SR_hauptteile.py:TorispherischesBoden`, `geometry/SR_polygon_group.py:Graph.add_intex_points`
* how: exact arithmetic with coordinates rounded to 8 decimals; C97_room for any convex room, C97_vessel from the dimensions of the parts (with C74, C93, C94, C95). The cycle that makes the room is an input (C91)
* theorems (Props/RaumVessel.lean): `C97_room`, `C97_vessel`

### C98 Cutting shells with the end of a room (proved)

Hauptteil.split with a RaumEnde that passes both walls of a shell replaces each wall by its two halves at the exact point of intersection (rounded to 8 decimals), appended behind the other sides, returns True, and the RaumEnde becomes two Walls outside of the shell and a NonWall inside; split(v=...) cuts the shell in the same way with a line of its own. A line beside, above, below or ending inside of the shell changes nothing and gives False, heads are never cut, and a RaumEnde does not cut itself. The point test of the cut shell answers as before: True strictly inside and False strictly outside; in general it does not depend on how the sides of a polygon are subdivided. But a cut shell is never valid again, and a line that passes one wall only raises IndexError after that wall has been cut. So a RaumEnde can cut one shell only: with a shell in a jacket, cut_by_raumende raises IndexError if the inner shell comes first, and leaves the inner shell uncut if the outer one comes first.

* code: `SR_Vessel/SR_hauptteile.py:Hauptteil.split`, `SR_Vessel/SR_hauptteile.py:Behalter.cut_by_raumende`, `SR_Vessel/SR_hauptteile.py:RaumEnde`, `geometry/SR_polygon.py:intersecting_lines`, `geometry/SR_line.py:LineSegment.intersection_on_endpoint`
* how: exact arithmetic with coordinates rounded to 8 decimals. C98_both, C98_level, C98_left_only, C98_right_only, C98_none, C98_above_below, C98_end give the whole state afterwards, C98_jacket_inner_first and C98_jacket_outer_first run cut_by_raumende; C98_answers needs representable points of the cut (always so for cylinders), C98_subdivision is the general fact. Graph.renew is modelled without the new classification of reference points
* theorems (Props/Split.lean): `C98_both`, `C98_level`, `C98_left_only`, `C98_right_only`, `C98_none`, `C98_above_below`, `C98_itself`, `C98_head`, `C98_end`, `C98_invalid`, `C98_jacket_inner_first`, `C98_jacket_outer_first`, `C98_head_shell_end`, `C98_graph`, `C98_no_graph`, `C98_subdivision`, `C98_answers`

### C99 The area of polygons (proved)

triangle_mesh gives the library every segment as the numbers of its ends in point_set. For a closed polygon whose sides are listed in any order and direction, if the library answers with counter-clockwise triangles between the vertices, of which those whose stored midpoint is inside fit together to the polygon without containing other vertices, then exactly these triangles are stored, the others are dropped (no two of the stored ones are equal if every two differ in a corner, so the set has them all), and area is the area by the shoelace formula rounded to 8 decimals; for a strictly convex polygon it is enough that the triangles fit together and their stored midpoints are inside. A triangle with another vertex of the polygon strictly inside is never accepted. If the library gives no triangles the area is 0. area is calculated once: the value stays whatever becomes of the segments. And as the midpoints are tested with is_internal_point, the area of the square with corners (-3, -3) and (0, 0) is 0 for both ways of cutting it into two triangles and all random choices.

* code: `geometry/SR_polygon.py:PolygonLine.area`, `geometry/SR_polygon.py:PolygonLine.detailled_area`, `geometry/SR_polygon.py:PolygonLine.triangle_mesh`
* how: `triangle_mesh`, `detailled_area` and `area` are modelled with the library `triangle` as an arbitrary function; the theorems assume of its answer only what is stated (triangles between the vertices that fit together, no new vertices). Exact arithmetic for the positive part, binary64 for the wrong area of the square.
* theorems (Props/Area.lean): `C99_foreign`, `C99_input`, `C99_triangles`, `C99_distinct`, `C99_area`, `C99_convex`, `C99_no_triangles`, `C99_stale`, `C99_square`, `C99_zero`, `C99_notch`

### C100 The relation of two triangles (proved)

For two triangles, drawn in any order and direction of sides, that may share corners or sides but are otherwise in general position: Triangle.overlap returns True exactly if some point is strictly inside of both and they do not have the same corners, and is symmetric; enclosed returns True exactly if the whole closed other triangle is strictly inside, otherwise None; touch returns True exactly if they share one side; Triangle.disjunct returns True exactly if no point is strictly inside of both and they share no side. For two polygons with stored triangulations PolygonLine.disjunct returns True exactly if no point is strictly inside of a triangle of each. But polygons that have not been triangulated are always disjunct, a polygon and itself too; two triangles on the same side of a common side both touch and overlap; two neighbours whose sides are all Walls (or NonWalls) share a side but do not touch; and if the common side is a Wall in one and a LineSegment in the other triangle, overlap and touch raise an Exception.

* code: `geometry/SR_polygon.py:Triangle.overlap`, `geometry/SR_polygon.py:Triangle.enclosed`, `geometry/SR_polygon.py:Triangle.touch`, `geometry/SR_polygon.py:Triangle.disjunct`, `geometry/SR_polygon.py:PolygonLine.disjunct`
* how: exact arithmetic with coordinates rounded to 8 decimals for the five general theorems (C100_overlap, C100_symm, C100_enclosed, C100_touch, C100_disjunct) and C100_polygons; C100_both and C100_classes are binary64 runs. `tell_relpos`, which only names the results, is not modelled.
* theorems (Props/TriRel.lean): `C100_overlap`, `C100_symm`, `C100_enclosed`, `C100_touch`, `C100_disjunct`, `C100_polygons`, `C100_untriangulated`, `C100_cases`, `C100_both`, `C100_classes`, `C100_walls`

### C101 Circular arcs (proved)

arc(P, r, alpha_start, alpha_end, n) makes n segments that join n + 1 points in their order, the k-th within 1.3e-8 of the point of the circle at alpha_start + k * (alpha_end - alpha_start) / n degrees, so all are at the distance r from P up to 2e-8; consecutive segments share their Point objects, the polyline is continuous and is closed exactly for a whole circle, and no other object is changed. Arguments out of range, and only these, fail an assertion. But with cw=True the result is not the reversed arc: it begins with the chord from the start to the end and the piece at the start is missing, and for a whole circle the first segment ends at the start of the circle before it was moved to its centre.

* code: `geometry/SR_polygon.py:arc`, `geometry/SR_polygon.py:polygon_from_nodes`, `geometry/SR_polygon.py:PolygonLine.rotate_about_origin`, `geometry/SR_polygon.py:PolygonLine.move`
* how: real numbers with the real sine and cosine and coordinates rounded to 8 decimals (C101_arc, C101_radius, C101_cw); C101_asserts holds for every runtime; C101_cw_circle is a binary64 run with the binary64 values of sine and cosine at multiples of 90 degrees.
* theorems (Props/Arc.lean): `C101_arc`, `C101_radius`, `C101_cw`, `C101_asserts`, `C101_cw_circle`

### C102 Klöpper and Korbbogen heads are drawn by the standard (proved)

In exact arithmetic, constructing a Klopperboden or Korbbogenboden with d >= 0.01 and h1 >= 0.00004 gives a polyline of 17 segments: 16 Walls (right cylinder, 3 steps of the right knuckle, 8 steps of the dish, 3 steps of the left knuckle, left cylinder) and one NonWall, the base. Its 17 vertices are different new Point objects shared by consecutive segments, each within 3e-8 of the vertex drawn with the radii of the standard (d and 0.1 d; 0.8 d and 0.154 d), for orient == -1 turned by 180 degrees, then moved to (pos_h, pos_v). The polyline is purged, continuous and closed, and no other object in memory changes. The crown is the highest vertex, 0.193...0.194 d respectively 0.254...0.255 d above h1. d == 0 raises ZeroDivisionError, d < 0 AssertionError, and any other class of head the bare Exception.

* code: `SR_Vessel/SR_hauptteile.py:TorispherischesBoden.make_segments`, `SR_Vessel/SR_hauptteile.py:TorispherischesBoden.__init__`, `geometry/SR_polygon.py:arc`, `geometry/SR_polygon.py:PolygonLine.purge`
* how: Modelled: `make_segments` of `TorispherischesBoden` on objects (radii, angle, three arcs, new Walls on the Points of the arcs, cylinders and base with Points of their own, turning, moving) and `purge`; the drawing of the standard is a separate spec (Spec/Head). Exact real arithmetic and trigonometry; the graph of the head is C74. The lower bounds on d and h1 keep the vertices further apart than the tolerance of Point.__eq__.
* theorems (Props/HeadOutline.lean): `C102_outline`, `C102_other`, `C102_zero`, `C102_negative`, `C102_crown`, `C102_highest`, `C102_height`

### C103 Torispherical heads are valid convex polygons (proved)

Every Klöpperboden and Korbbogenboden with d >= 0.01 and h1 >= 4e-5, constructed with orient 1 or -1 at any position, has isvalid True: its 17 sides are continuous and no two of them cross. Its sides form a strictly convex polygon that is passed counter-clockwise whatever the orientation is, so isconvex is True and iscw is False. For test targets in general position, is_internal_point of the polyline of the head is True for every point strictly inside and False for every point strictly outside. characteristic_size is half the diameter.

* code: `SR_Vessel/SR_hauptteile.py:TorispherischesBoden.isvalid`, `SR_Vessel/SR_hauptteile.py:TorispherischesBoden.make_segments`, `SR_Vessel/SR_hauptteile.py:TorispherischesBoden.characteristic_size`, `geometry/SR_polygon.py:PolygonLine.isvalid`, `geometry/SR_polygon.py:PolygonLine.isconvex`, `geometry/SR_polygon.py:PolygonLine.iscw`, `geometry/SR_polygon.py:PolygonLine.is_internal_point`
* how: Model: `headValid` (isvalid of the polyline of the same segment objects), `headSize`, on top of `headNew` of C102. C103_valid: by C63_valid it is enough that no two sides cross; neighbours share an end point object, the other sides are in different vertical or horizontal strips (vertices move to the left by at least 4e-5 from vertex 1 to 15, base line 4e-5 lower), against 3e-8 of deviation per coordinate. C103_convex: normals of the sides turn by at least the angle `turn` (sine at least 1/10) from side to side and by less than 180 degrees altogether, so cross products of any two sides exceed the deviation; gives `ConvexCcw` and with C51 isconvex True and iscw False. C103_internal applies C84 to it; the example beside it gives an inside point and a target in general position for every upright head. Real arithmetic (`Rt.real`).
* theorems (Props/HeadValid.lean): `C103_valid`, `C103_convex`, `C103_internal`, `C103_size`

### C104 Flat heads and ends of rooms (proved)

In exact arithmetic a Flachboden (or RaumEnde) with d >= 2e-5 is one new Wall from (pos_h - d/2, pos_v) to (pos_h + d/2, pos_v), each coordinate within 1e-8 (exact for dimensions on the grid of 8 decimals); its graph is the same Wall, its polyline is purged and no older object changes. It is always valid, also for d == 0; with its segment taken away isvalid and is_internal_point raise IndexError. A point is internal to a Flachboden iff it is within 1e-8 of the level of the wall and at least 1e-5 away from both ends. Its two reference points are 0.01 d above and below its centre, neither internal to it. In raum_intex of rooms whose walls each draw a strictly convex polygon, a room is recorded as inner room of the parts whose internal and external reference points are on their proper sides, as indifferent for every flat head that is a side of it (one of the two points is always outside), and for no RaumEnde. In particular a shell, cylindrical or conical, with a flat head or the end of a room at either end makes its room an inner room of the shell, indifferent for the flat heads, and nothing else.

* code: `SR_Vessel/SR_hauptteile.py:Flachboden.__init__`, `SR_Vessel/SR_hauptteile.py:Flachboden.intex_points`, `SR_Vessel/SR_hauptteile.py:Flachboden.is_internal_point`, `SR_Vessel/SR_hauptteile.py:Flachboden.isvalid`, `SR_Vessel/SR_hauptteile.py:RaumEnde.__init__`, `SR_Vessel/SR_hauptteile.py:RaumEnde.intex_points`, `SR_Vessel/SR_hauptteile.py:Behalter.raum_intex`
* how: Model: `plateNew`, `plateIntex`, `plateValid`, `plateInternal`, `platePart`, `endPart` (Model/Flat). C104_plate, C104_wall and C104_valid are about the new objects, C104_index the exceptions, C104_internal and C104_points about the points, C104_divides, C104_rooms and C104_vessel about raum_intex (with C93, C94, C95, C96); C104_two_rooms is a concrete run with a flat head between two rooms. Exact arithmetic with coordinates rounded to 8 decimals; the cycles that make the rooms are inputs (C91).
* theorems (Props/Flat.lean, Props/FlatIndex.lean): `C104_plate`, `C104_wall`, `C104_valid`, `C104_internal`, `C104_points`, `C104_divides`, `C104_rooms`, `C104_vessel`, `C104_two_rooms`, `C104_index`

### C105 Parts from dicts (proved)

from_dict of Mantel, Klopperboden, Korbbogenboden, Flachboden and RaumEnde returns a part iff the dict has all the needed keys, the constructor succeeds with their values, and every key of the dict is the name of an attribute of the new part; the part is that of the constructor. A missing key raises the bare Exception before anything is made. A key that is not the name of an attribute raises an AssertionError, but further items whose keys name any attribute (such as 'segments' or 'graph') and further numbers in 'd' are silently ignored. StandZarge.from_dict does not make a StandZarge but a Mantel: its graph has two walls instead of three. Rohrboden.from_dict never returns a part: it raises a TypeError if all keys are there. A tuple d of less than two diameters raises an IndexError, a plain number a TypeError.

* code: `SR_Vessel/SR_hauptteile.py:Mantel.from_dict`, `SR_Vessel/SR_hauptteile.py:Klopperboden.from_dict`, `SR_Vessel/SR_hauptteile.py:Korbbogenboden.from_dict`, `SR_Vessel/SR_hauptteile.py:Flachboden.from_dict`, `SR_Vessel/SR_hauptteile.py:Rohrboden.from_dict`, `SR_Vessel/SR_hauptteile.py:RaumEnde.from_dict`, `SR_Vessel/SR_hauptteile.py:StandZarge`
* how: Model: `fromDict` and its instances (Model/FromDict); `hasattr` is an arbitrary function, which may raise. The order of a TypeError and an IndexError for several wrong values is simplified. C105_skirt uses C72 and C73. KegelKrempe.from_dict has the same form (C105_missing, C105_iff, C105_unknown hold for every constructor).
* theorems (Props/FromDict.lean): `C105_missing`, `C105_iff`, `C105_unknown`, `C105_mantel`, `C105_diameters`, `C105_skirt`, `C105_plate`, `C105_head`, `C105_tube_sheet`

### C106 The sharp-edged knuckle between cone and shell (proved)

KegelKrempe with r = 0, for a cone under a shell on the same axis with the same diameter at the junction and cuts at least 1e-5 clear of the ends of both walls: with exact arithmetic it is built iff, for both parts, (height of the part) * (rounding error of the stored x coordinate of the cut) is below 1e-8; otherwise the constructor raises an AssertionError, so that ordinary dimensions are rejected by chance (binary64: cone of height 7 from diameter 2 to 4, cut 2 below the junction), while parts lower than 2 and cylinders are never rejected. If built, its segments are the counterclockwise closed hexagon through the two cuts and the junction on both sides, its graph the four walls of it; the cone and the shell above become the shells cut back to the cuts, the part below (Mantel or StandZarge) ends at the junction; nothing else in memory changes; the three outlines enclose the area of the uncut parts up to 2e-8; the hexagon is convex if the upper part does not widen. If the cone itself is given as the part below (as in the test of from_dict), it gets its full outline back and overlaps the knuckle. Cuts outside of the parts, cones that do not widen upwards and distances that are not positive raise an AssertionError.

* code: `SR_Vessel/SR_hauptteile.py:KegelKrempe.__init__`, `SR_Vessel/SR_hauptteile.py:KegelKrempe.assert_checking`, `SR_Vessel/SR_hauptteile.py:KegelKrempe.make_segments`, `geometry/SR_line.py:LineSegment.is_point_on_line`
* how: Model/Krempe.lean (make_segments and __init__ for r = 0, on memory objects, with deepcopy, mirror_vertical, purge and order). C106_built and C106_rejected give both directions of the acceptance test; C106_short, C106_cylinder say when it cannot fail; C106_high_cone_rejected is a binary64 witness of the unexpected AssertionError. C106_area, C106_convex, C106_overlap are about the outlines C106_built gives. Not modelled: r > 0, and whether the classification of the reference points made by graph.renew() raises.
* theorems (Props/Krempe.lean): `C106_rejected`, `C106_built`, `C106_arguments`, `C106_short`, `C106_cylinder`, `C106_outside`, `C106_area`, `C106_convex`, `C106_overlap`, `C106_high_cone_rejected`

### C107 Reference points of the sharp-edged knuckle (proved)

KegelKrempe.intex_points (r = 0) places four points for each of the four walls in the graph, two on each side of the wall near its ends. The distance from a right wall is min(height/10, diameter/1000, 20) of the half the wall belongs to, the distance from a left wall is diameter/1000 whatever the height, so that the points are not mirror images. For a knuckle on the grid whose two halves are sound (diameters at least 0.01, heights at least 1e-6, no wall flatter than 1:10) and whose upper half does not widen, the four points of a wall are sorted into two internal and two external ones without an exception, with the same result for all ray targets in general position outside of the outline and for every listing order and direction of the segments (that is before and after order()), the internal ones lie strictly inside the hexagon and the external ones strictly outside; adding them to a graph records exactly these.

* code: `SR_Vessel/SR_hauptteile.py:KegelKrempe.intex_points`, `SR_Vessel/SR_hauptteile.py:KegelKrempe.__init__`, `geometry/SR_polygon_group.py:Graph.add_intex_points`
* how: Model/KrempeIntex.lean. C107_offsets gives the distances (exact arithmetic), C107_points the side of each of the four points of a wall, C107_sorted the result of the classification for every listing of the segments (SameDrawing) and every sequence of ray targets that satisfies GoodTarget and Spread, C107_graph the reference points recorded in the graph. exKnuckle_sound shows that the knuckle of the test-suite meets the hypotheses; a binary64 example runs one classification.
* theorems (Props/KrempeIntex.lean): `C107_offsets`, `C107_points`, `C107_sorted`, `C107_graph`

### C108 Removal of collinear points (proved)

remove_collinear_points of a closed polygon of directed segments (listed in any order) works on a copy, the polygon and everything else in memory stays as it is. Each vertex is looked at once and left out if the cross product with its neighbours at that time is below 1e-8; the result is a closed polygon of new objects through the remaining vertices in the same order and direction, if at least three remain; segments between former neighbours keep their class, the new ones are plain LineSegments. Twice the area changes by at most 1e-8 for each vertex left out. If the coordinates have at most four decimals and the vertices are not all on one line, exactly the corners remain (vertices not on the line through their neighbours; there are at least three), and the area is the same; tips of spikes are removed as well, although they are not between their neighbours. Small polygons vanish: for a square of side 5e-5 an AssertionError is raised. A polyline that begins with a loose end raises an IndexError.

* code: `geometry/SR_polygon.py:remove_collinear_points`, `geometry/SR_polygon.py:PolygonLine.neighbour`, `geometry/SR_polygon.py:PolygonLine.find_segment_by_point`, `geometry/SR_polygon.py:PolygonLine.order`
* how: Model/Collinear.lean (remove_collinear_points on memory objects with deepcopy and order). Spec/Collinear.lean defines thin, polyCorners and shoelace without reference to the code. C108_process is the step-by-step effect for every rounding, C108_area and C108_corners evaluate it in exact arithmetic, C108_result puts both together for polygons listed in order with at most four decimals, C108_small is a binary64 witness of the AssertionError. Not covered: segment lists that are not a directed ring (mixed directions, open chains), where a vertex may be looked at twice.
* theorems (Props/Collinear.lean): `C108_process`, `C108_area`, `C108_corners`, `C108_result`, `C108_loose_end`, `C108_small`

### C109 Angles and quality of a triangle (proved)

For three segments that join three distinct corners, in whatever directions, Triangle.angles are the three angles of the triangle, the first at the common corner of the first two segments, then that of the first and third, then that of the second and third: the reversals made for one pair do not spoil the next. They are between 0 and 180, add up to 180, and no exception is raised (exact arithmetic). Triangle.quality is between 0 and 240 and zero exactly if the three sides have the same length. In binary64 angles raises a ValueError for some thin triangles that pass is_triangle (witness with corners (0,0), (6,26), (12,52.00000001)).

* code: `geometry/SR_polygon.py:Triangle.angles`, `geometry/SR_polygon.py:Triangle.quality`, `geometry/SR_line.py:LineSegment.angle_between_lines`
* how: Model/TriAngles.lean. The angles are compared with Mathlib's EuclideanGeometry.angle in the complex plane (angleDeg, degrees); C109_angles, C109_sum, C109_quality are for Rt.real; C109_thin_raises is a binary64 witness of the ValueError of acos. The warning printed for a wrong sum is not modelled.
* theorems (Props/TriAngles.lean): `C109_angles`, `C109_sum`, `C109_quality`, `C109_thin_raises`

### C110 find_loops on a single loop that does not run one way (proved)

If the segments of a group draw, in any order, one closed outline with different, separated corners (3 to 124 sides), and of its Walls and NonWalls some run with and some against the outline, find_loops returns exactly one polygon, a closed chain that draws the outline, whatever the iteration orders of sets - provided that every closed chain drawing the outline is valid. (For segments that all run the same way it raises IndexError, C81.) In exact arithmetic the condition is met if any two sides have a corner in common or lie in different strips; so for every cylindrical shell with a torispherical head at each end find_loops of the group of their graphs returns exactly one closed polygon, which draws the six Walls. On an open chain the result depends on the iteration order of sets: for three Walls in an open chain one order gives no loop, another one a polygon that passes one Wall to and fro.

* code: `geometry/SR_polygon_group.py:BehalterGraph.find_loops`, `geometry/SR_polygon.py:walk_segments`, `geometry/SR_polygon.py:PolygonLine.order`
* how: findLoops (both stages, all set orders) on sides of a ring; the walk is followed round by round with the invariants Fwd and Bwd of Lemmas/RingWalk.lean (a walk may turn segments and may stop at a branch that is none), the combinations stage with counts of corners (Lemmas/RingCombs.lean). The outline version and the vessel are Props/LoopsVessel.lean; the example is a vessel of diameter 2000 with memory of its own. The open chain is computed with exRt for two explicit set orders.
* theorems (Props/LoopsMixed.lean, Props/LoopsVessel.lean): `C110_mixed_loop`, `C110_outline`, `C110_vessel`, `C110_open_chain`

### C111 Rooms of a vessel with one loop (proved)

A part is listed under a cycle (segments_in_cycles) iff all ends of its segments are corners of the cycle or one of its segments is, with direction and class, a side of it; so a Wall across a room between two of its corners is listed as well. If find_loops gives exactly one polygon, which draws all graphs of the vessel, and the wall segments of the parts draw a closed outline with different, separated corners and fewer than 250 sides, the vessel has exactly one room: all parts, in their order, are its outer wall, and it has no inner wall; the only exception is one of the triangulation of the loop, which is passed on. This holds for every cylindrical shell with a torispherical head at each end, whatever the order of the parts and of sets. PolygonGroup.cycles gives the outline of the walls as a closed chain; with 250 or more sides it raises; walls that cannot be put in order are given as they are, without outliers, and if no two ends of the walls are equal the result has no valid segment. The rooms are named R1, R2, ..., no two alike. If there is no loop at all, the cycles are a TypeError (len(None)); cycles once calculated are returned unchanged.

* code: `geometry/SR_polygon_group.py:BehalterGraph.cycles`, `geometry/SR_polygon_group.py:BehalterGraph.segments_in_cycles`, `geometry/SR_polygon_group.py:PolygonGroup.cycles`, `geometry/SR_polygon_group.py:BehalterGraph.keep_base_polygons`, `SR_Vessel/SR_hauptteile.py:Behalter.raum_erstellen`
* how: Model: Model/Rooms.lean (from find_loops over keep_base_polygons of at most one polygon, BehalterGraph.cycles, segments_in_cycles and PolygonGroup.cycles to raum_erstellen); no part is a raumende. The choice among two or more polygons is a parameter, which does not matter here; the triangulation library is arbitrary. The wall segments of the parts are arbitrary segments that draw a closed outline.
* theorems (Props/RoomsVessel.lean): `C111_listed`, `C111_diagonal_listed`, `C111_group_cycles`, `C111_group_cycles_long`, `C111_group_cycles_open`, `C111_group_cycles_loose`, `C111_room_names`, `C111_no_loop`, `C111_cached`, `C111_one_loop`, `C111_all_parts`, `C111_one_room`, `C111_vessel`

### C112 Choice of the rooms among several loops (proved)

keep_base_polygons of two or more polygons first drops loosely equal polygons and polygons whose area is a sum of areas (C69). From the rest it returns a selection of polygons no two triangles of which overlap or are congruent, with as many polygons as possible and among these with the largest sum of areas; perhaps followed by one more polygon. This holds whatever the hashes of the polygons (hashes of temporary generator objects) and the iteration orders of sets are; the pre-filter of overlapping pairs, which depends on hashes, has no effect on the result. Rooms that do not clash are all kept; of rooms beside each other and their outline exactly the rooms are kept. Of two rooms that clash the larger one comes first and the other one follows if all points of the larger one are internal or all are external points of it; otherwise (partial overlap) it is lost without notice. If two or more polygons are left out, as for three nested rooms, an Exception is raised; if the triangles of every polygon clash, an IndexError. Of loosely equal polygons the last one is kept if sets find their members, but all are kept if no hash is met twice.

* code: `geometry/SR_polygon_group.py:BehalterGraph.keep_base_polygons`, `geometry/SR_polygon.py:PolygonLine.__hash__`, `geometry/SR_polygon.py:PolygonLine.disjunct`
* how: Model: Model/KeepBase.lean. The polygons are abstract; equality, loose equality, areas, triangles, clash of triangles and the tests of points are functions without exceptions and with one answer each (overlap of triangles and the tests of points are random in the code, see C100), and order() does not raise. Membership in sets of polygons is an arbitrary answer that does not find absent elements.
* theorems (Props/KeepBase.lean): `C112_candidates`, `C112_choice`, `C112_loose_last`, `C112_loose_missed`, `C112_no_loose`, `C112_kept`, `C112_left_out`, `C112_rooms_and_outline`, `C112_rooms_beside`, `C112_nested`, `C112_three_nested`

### C113 Look-ups in groups and polylines (proved)

PolygonGroup.polygon_from_repr(rep) returns a polygon iff exactly one position of the group holds a polygon equal to rep, and then this one; otherwise it raises an Exception. name_from_repr of a list of polygons of a group of different polygons is the list of their names, in order, and of a single polygon its name; polygons that are unknown or equal to two of the group are left out without notice; other types are an Exception. segments_from_points gives, in order, the polygons with at least one segment both ends of which are among the points. as_edgelist is a TypeError as soon as two segments of the group differ in an end, because Points have no order. PolygonLine.discontinuity lists the segments that are not continuous with their predecessor, and is empty iff the polyline is continuous. next_segment of a side of a closed chain is the side that follows it, after the last one the first; on an open polyline it is an AssertionError, and with isclosed=False a NotImplementedError.

* code: `geometry/SR_polygon_group.py:PolygonGroup.polygon_from_repr`, `geometry/SR_polygon_group.py:PolygonGroup.name_from_repr`, `geometry/SR_polygon_group.py:PolygonGroup.segments_from_points`, `geometry/SR_polygon_group.py:PolygonGroup.as_edgelist`, `geometry/SR_polygon.py:PolygonLine.discontinuity`, `geometry/SR_polygon.py:PolygonLine.next_segment`
* how: Model/Lookup.lean; the group look-ups are generic in the polygons and their ==, the others are on segment values and on the heap. points in segments_from_points is a list of Points.
* theorems (Props/Lookup.lean): `C113_from_repr`, `C113_names`, `C113_names_dropped`, `C113_from_points`, `C113_edgelist`, `C113_discontinuity`, `C113_next`, `C113_next_open`

### C114 Joining a set of points (proved)

segments_from_pointset of different points tries each point as a start, and joins all points in the order of their distance from the start (not from the point reached last). It returns the shortest one of these paths, whatever the iteration order of the set is. For points on a line this is a shortest way to join the points; in general it is not, although the docstring says so: for the corners of a rectangle with sides 2 and 3 the result always contains a diagonal and is longer than 7.6, while 7 is possible. No points, or no path shorter than 10e10, are an UnboundLocalError; a point given twice is an IndexError.

* code: `geometry/SR_polygon.py:segments_from_pointset`
* how: Model/Pointset.lean; the iteration order of the set is a parameter. The path is modelled with rounding, the optimality on a line is in exact arithmetic.
* theorems (Props/Pointset.lean): `C114_path`, `C114_result`, `C114_errors`, `C114_collinear`, `C114_not_shortest`

### C115 The regions told apart by is_internal_point (proved)

For any closed polygon, convex or not, no side of which is drawn twice, and for any path with straight pieces that passes no vertex, is_internal_point gives the same answer at both ends of the path iff the path meets the sides an even number of times. So all points that can be joined without meeting a side get the same answer; two points with exactly one side between them get opposite answers; and every point from which a path that meets no side leads beyond a straight line that has the whole polygon on its other side is external, e.g. in the notch of a polygon in the shape of a U.

* code: `geometry/SR_polygon.py:PolygonLine.is_internal_point`, `geometry/SR_polygon.py:PolygonLine.is_external_point`
* how: Full statement in exact arithmetic, for closed polygons of any shape listed in any order and direction. The random targets of is_internal_point are assumed to be in general position (GoodTarget, Spread), as in C83 and C93. Paths are defined in Spec/Region without reference to the model; no genericity of the ray is needed in the proof, which counts half-open crossings. The example is a U with a point in its notch and one in its arm.
* theorems (Props/Region.lean): `C115_path`, `C115_same_region`, `C115_across`, `C115_outer_region`

### C116 Refinement of boundaries (proved)

Delaunay2d.refine_boundaries is a ValueError without constraints and a ZeroDivisionError if a constraint has length zero; otherwise it succeeds. It cuts every constraint into n >= 2 pieces, also the shortest one, and appends both ends of every piece to the points, in order, so that every inner point is appended twice. The pieces of a constraint are of equal length, shorter than the shortest constraint but at least half as long; the stored points deviate from this by at most 1e-8, so that the distance of the two ends of each piece is between m/2 - 2e-8 and m + 2e-8, where m is the shortest length.

* code: `geometry/SR_polygon.py:Delaunay2d.refine_boundaries`, `geometry/SR_line.py:divide_line`
* how: Full statement in exact arithmetic (coordinates are still rounded to 8 decimals). Points are modelled by value; that the ends of the constraints are shared objects is not part of the claim.
* theorems (Props/Tools.lean): `C116_errors`, `C116_cut`

### C117 rotationsmatrix, simplify and ordered_copy (proved)

rotationsmatrix(phi) has orthonormal rows and determinant 1, and turns the other way round than rotate_about_origin(phi): applied to the endpoints of the rotated polygon it gives back the original ones, up to 1e-8. simplify keeps exactly the segments both endpoints of which are the end of another segment as well, and of the internal and external points of the polygon's segments exactly those of a segment that is kept; indifferent points all remain, also those of removed segments. A closed polygon, drawn in any order and direction, all sure points of which belong to its sides, is not changed. ordered_copy leaves all objects as they are, the original is neither ordered nor reversed; for the shuffled sides of a closed walk (fewer than 250) it returns True, not an ordered polygon as its name says.

* code: `geometry/SR_polygon.py:rotationsmatrix`, `geometry/SR_polygon.py:PolygonLine.rotate_about_origin`, `geometry/SR_polygon.py:simplify`, `geometry/SR_polygon.py:PolygonLine.ordered_copy`
* how: Full statement. cos^2 + sin^2 = 1 is a hypothesis on the math library, met by the real functions. Sure points without a segment (segment=None) are not modelled. The deep copy duplicates all of memory, as in C37.
* theorems (Props/Tools.lean): `C117_rotation`, `C117_matrix`, `C117_simplify`, `C117_simplify_closed`, `C117_ordered_copy_keeps`, `C117_ordered_copy_true`

### C118 What a vessel reports about common parts of its rooms (proved)

all_overlapping_segments lists a part once for every pair of rooms that have it: a part of m rooms is listed m(m-1)/2 times. overlaps_in_cycles and overlaps_in_cycles_named of a vessel have exactly the pairs of rooms with a common part as keys, in increasing order; the values are the Hauptteile of the common parts resp. the set of their names (so parts of equal names appear once). disjunct_cycles of a vessel never raises and reports, for every room, that there is no disjunct one, whatever the rooms are. node_degree is an AssertionError exactly for a node that is no key of the adjacency list, else the number of its neighbours.

* code: `geometry/SR_polygon_group.py:BehalterGraph.all_overlapping_segments`, `geometry/SR_polygon_group.py:PolygonGroup.overlaps_in_cycles`, `geometry/SR_polygon_group.py:PolygonGroup.overlaps_in_cycles_named`, `geometry/SR_polygon_group.py:PolygonGroup.disjunct_cycles`, `geometry/SR_polygon_group.py:PolygonGroup.node_degree`
* how: The intersection of two sets of parts is any function with the members of the intersection, in any order without repetition. Names are values of any type with equality.
* theorems (Props/Overlap.lean): `C118_count`, `C118_overlaps`, `C118_disjunct`, `C118_degree`

### C119 intersectsConstraint (proved)

Delaunay2d.intersectsConstraint(edge) raises iff one of the two indices is not valid for the list of points (negative ones count from the end), and then an IndexError. Otherwise it is true iff some constraint that has no end in common with the edge meets it, provided that ends are equal or at least 1e-5 apart and no such constraint is in special position to the edge (the edge starting on its line, or missing it by less than 2e-8). A constraint with a common end is never counted, even if it covers the edge or a part of it.

* code: `geometry/SR_polygon.py:Delaunay2d.intersectsConstraint`, `geometry/SR_line.py:LineSegment.intersection_on_segment`
* how: C119_meets is in exact arithmetic with rounded crossing points; C119_index in any arithmetic. The method is not called by the triangulation itself.
* theorems (Props/Overlap.lean): `C119_meets`, `C119_index`

### C120 Delaunay2d.triangulate as a whole (proved)

For at least three points in general position (no two equal; any three span a triangle of double area more than 1e-8) triangulate of a new Delaunay2d ends without an exception, in whatever order Python traverses its sets. The result is a triangulation of the convex hull of the points: the triangles together are exactly the hull, their interiors are disjoint, no triangle is flat, the boundary edges are exactly the sides of the hull; the edge table lists exactly the triangles at each edge, one or two; at every edge with two triangles the opposite angles sum up to at most pi (1 + 1e-8). If _pts.pop() gives ascending numbers (CPython), every point is a corner of a triangle, there are 2n - 2 - h triangles and getEdges returns 3n - 3 - h edges for n points and h hull sides; the edges with one triangle are exactly the sides of the hull. In another order exactly those later points become corners that are not in the convex hull of the points taken before; a point can be left out. Without general position the result can have a flat triangle: e.g. for the points (1,0), (-1,0), (-1,4), (5,0). Without points it raises a ZeroDivisionError; one or two points, or points on one line, give no triangle.

* code: `geometry/SR_polygon.py:Delaunay2d.triangulate`, `geometry/SR_polygon.py:Delaunay2d.addPoint`, `geometry/SR_polygon.py:Delaunay2d.flipEdges`, `geometry/SR_polygon.py:Delaunay2d.update_points`, `geometry/SR_polygon.py:Delaunay2d.getEdges`
* how: C120_triangulate (any order of the sets), C120_all_points (ascending pop), C120_edges and C120_keys (the keys of the table, by double counting; Lemmas/TiledCount), C120_corners (any pop order), C120_pop_order and C120_flat (witnesses of what fails). The invariant is Mesh.Tiled (Lemmas/Tiled, TiledAdd, TiledRun); Mesh.Triangulates in Spec/Tiling is the independent specification, using Mathlib's convexHull. Exact arithmetic and exact atan2. That CPython pops small integers in ascending order is not modelled but an explicit hypothesis. The points are taken as they are after update_points; a second call on the same object is C128.
* theorems (Props/Triangulate.lean, Props/TriangulateEdges.lean, Props/TriangulateEx.lean, Props/TriangulateFlat.lean): `C120_triangulate`, `C120_all_points`, `C120_corners`, `C120_few`, `C120_edges`, `C120_keys`, `C120_pop_order`, `C120_flat`

### C121 triangulate gives the Delaunay triangulation, whatever the orders (proved)

For at least three points in general position (as in C120) no four of which are nearly on a circle (for any two of them seen from two others, the sine of the sum of the two angles is more than 10^-7.5 in absolute value), if _pts.pop() gives ascending numbers: three of the points are the corners of a triangle of the result of triangulate if and only if the circle through them has all other points strictly outside. Hence the triangles do not depend on the order in which the points are given nor on the orders in which Python traverses its sets. For points on a circle the order matters: the corners of a square are split along one diagonal or the other.

* code: `geometry/SR_polygon.py:Delaunay2d.triangulate`, `geometry/SR_polygon.py:Delaunay2d.flipOneEdge`, `geometry/SR_polygon.py:Delaunay2d.flipEdges`
* how: C121_empty_circle, C121_characterised, C121_order_free; C121_square is the witness for points on a circle. From C120's invariant: the triangle beyond an edge exists (Lemmas/TiledNext), the power of a point decreases from a triangle to its neighbour on the side of the point (Lemmas/TiledEmpty), two triangles with empty circles and a common inner point are equal (empty_unique). Spec/Circle is the independent specification. Exact arithmetic; the angle law IsFineAngle is proved for the reals (Rt.real_isFineAngle). The tolerance 1e-8 of the flip test is the reason for "nearly".
* theorems (Props/DelaunayCircle.lean, Props/DelaunayCircleEx.lean): `C121_empty_circle`, `C121_characterised`, `C121_order_free`, `C121_square`

### C122 Vessels made of a stack of shells (proved)

Let a vessel consist of one to 60 shells (Mantel), cylindrical or conical, one above the other with equal diameters where they meet, dimensions on the coordinate grid, each at least 1e-5 high, at least 0.01 wide and not flatter than 1:10, closed at each end by a torispherical head (Klopperboden), a flat head (Flachboden) or the end of a room (RaumEnde), the parts given in any order. Then find_loops returns exactly one closed polygon, which draws all Walls, whatever the order of the sets; Behalter has exactly one room if the triangulation of the loop ends without an exception, with all parts as its outer wall and no inner wall; and raum_intex records that room, also if it has a waist, as inner room of every shell and every torispherical head, as indifferent for every flat head (if the vessel is not lower than 1/50 of the diameter of that end), and as nothing else. The last part holds for any number of shells.

* code: `SR_Vessel/SR_hauptteile.py:Mantel`, `SR_Vessel/SR_hauptteile.py:Klopperboden`, `SR_Vessel/SR_hauptteile.py:Flachboden`, `SR_Vessel/SR_hauptteile.py:RaumEnde`, `SR_Vessel/SR_hauptteile.py:Behalter`, `geometry/SR_polygon_group.py:BehalterGraph.find_loops`, `geometry/SR_polygon.py:PolygonLine.is_internal_point`
* how: The outline of a stack is built in Spec/Tower, independently of the code. C122_loops and C122_one_room: loops and rooms. C122_answers: which room is recorded for which part, for rooms with any closed outline, by the parity of the sides to the right of the reference points. C122_intex: the recorded rooms of a stack, also with a waist; C122_parts: the constructors do not raise. The triangulation inside Behalter enters as a hypothesis (it ends without an exception), as in C111. Sixty shells is the limit for which the guard of 250 segments in find_loops cannot strike; the guard itself is in C110. Example: two cones with a waist, a head and a plate.
* theorems (Props/Tower.lean, Props/TowerIntex.lean): `C122_loops`, `C122_one_room`, `C122_answers`, `C122_intex`, `C122_parts`

### C123 Almost all random targets of is_internal_point are in general position (proved)

Let the points p be at least 3e-8 away from the sides of a polygon and, like its corners among each other, at least a >= 1e-5 apart from its corners. At a fixed abscissa u to the right of the corners, for ordinates v that are not steep seen from p (|v - p.y| <= (u - p.x)/2), a target (u, v) can only fail to be in general position (as C75, C93, C97, C115, C122 ask for) if v is nearer than 5e-8 (u - p.x)/a to the ordinate of the line from p through a corner. So among ordinates with larger distances at most one per point and corner is unsuitable. If the upper bounds X, Y of the bounding box are positive and not too small against the size M of the drawing (8M <= 500X, and (number of points)*(number of corners)*M/1e6 <= aY), there is a target that the code can draw, in the range [X, 500X] x [Y, 30Y], that is in general position seen from all points at once; with it is_internal_point ends in its first round for every point, with the parity of the number of sides met.

* code: `geometry/SR_polygon.py:PolygonLine.is_internal_point`, `geometry/SR_polygon.py:PolygonLine.bounding_box`
* how: AwayFrom, GoodTarget and Spread are geometric; the random numbers of the code enter by Target (the admissible values, C85). C123_cover: where unsuitable ordinates lie; C123_few: how many there can be among ordinates with given distances; C123_exists: an admissible suitable target for several points at once; C123_decided: with it the test ends in the first round. Nothing is assumed on the distribution of the random numbers; a bound on the share of unsuitable ordinates follows from C123_cover, it is not stated as a probability. Example: a polygon in the shape of a U and three points.
* theorems (Props/Targets.lean): `C123_cover`, `C123_few`, `C123_exists`, `C123_decided`

### C124 is_internal_point with rounding errors: right near the origin, blind far from it (proved)

Let a polygon and a point be in the square |x|, |y| <= a, a target in |x|, |y| <= b, with 1e-6 <= a <= b <= 1e6; let the target be in general position (as in C83), all points 2e-5 apart, and no side nearly parallel to the line of sight or too short compared with its distance from the origin: a*a*b <= 2^15 |sight x side|. Then in floating point the number of crossings counted is the number of sides met, so is_internal_point returns the same parity for all such targets, and for a strictly convex polygon True for points inside and False for points outside; it is enough that one of the three targets of each round is such a target. The last condition is needed: an axis-parallel side whose line the code reads in a wrong place (the quotient in intersection_point is off by 3e-8 or more) is crossed by no line of sight, and in binary64 all four sides of the unit square with corners (30000.2, 30000.2) and (30001.2, 30001.2) are of this kind: is_internal_point is False for every point, its centre included, whatever the random targets are.

* code: `geometry/SR_polygon.py:PolygonLine.is_internal_point`, `geometry/SR_line.py:LineSegment.intersection_point`, `geometry/SR_line.py:LineSegment.intersection_on_segment`
* how: Any correctly rounded arithmetic (IsRounding, RootOk: squares and roots correctly rounded in one direction); binary64 satisfies both. The margin a*a*b <= 2^15 |turn| is sufficient, not sharp. C124_far_square and C124_no_interior state the failure; C124_misread is the reason.
* theorems (Props/RayFloat.lean): `C124_count`, `C124_target_independent`, `C124_one_good`, `C124_convex`, `C124_misread`, `C124_no_interior`, `C124_far_square`

### C125 Orientation tests and convex_hull with rounding errors (proved)

In floating point the error of crossproduct, crossproduct_commonstart and of the turn computed in convex_hull is at most (|ab| + |cd|)/2^50 for the vector product ab - cd. So is_point_to_right is right for every point off the line by more than that (and False for the ends of the segment), is_point_to_left for every point off the line by 2e-8 more and not equal to an end, segments whose directions differ by more than that are not parallel and have an intersection point, isconvex / iscw / isccw of a valid polyline are right if all its corners turn by more than that, and convex_hull finds the convex hull (C34) if every three different points turn by more than that. If all coordinates are whole multiples, of less than 25 bits, of one power of two, then there is no error at all: is_point_to_right, is_parallel and convex_hull are exact, also for collinear points. (Without such a condition convex_hull can leave a point outside, C34.)

* code: `geometry/SR_line.py:LineSegment.crossproduct`, `geometry/SR_line.py:LineSegment.is_point_to_right`, `geometry/SR_line.py:LineSegment.is_point_to_left`, `geometry/SR_line.py:LineSegment.is_parallel`, `geometry/SR_polygon.py:PolygonLine.isconvex`, `geometry/SR_polygon.py:PolygonLine.iscw`, `geometry/SR_polygon.py:convex_hull`
* how: Any correctly rounded arithmetic. The margin is sufficient, not sharp; without one the claims are false (C34_float_member_outside). C125_exact, C125_exact_tests and C125_hull_exact assume that the rounding keeps whole multiples of powers of two below 53 bits (HasDyadics, proved for binary64).
* theorems (Props/Orient.lean): `C125_error`, `C125_exact`, `C125_right`, `C125_left`, `C125_parallel`, `C125_exact_tests`, `C125_convex`, `C125_hull`, `C125_hull_exact`, `C125_hull_polyline`

### C126 find_loops finds exactly the loops of a group in which the walk finds none (proved)

Let a group have fewer than 250 segments between separated points, none of length zero and no two with the same ends. Once the walks of find_loops have stopped, its second stage (combinations) ends without exception, all polygons found by the walks are still drawn by returned polygons, every other returned polygon is a simple loop of three or more of the segments left by the walks, and every such loop is drawn by one of the returned polygons, provided that closed chains that draw it are valid. So if already the first walk finds no loop, the loops drawn by the returned polygons are exactly the simple loops of the group (if valid). Otherwise loops can be missed, depending on the iteration order of the set of segments: for a square with a diagonal (plain segments) one order gives all three loops, another one a single triangle, because the walk looks for branches only among the segments that start at the point it has reached; if the segments are Walls, the second order ends with an IndexError. And a loop can be returned twice: for a triangle on one side of a square and another triangle at a corner of the square the first triangle is.

* code: `geometry/SR_polygon_group.py:BehalterGraph.find_loops`, `geometry/SR_polygon.py:walk_segments`, `geometry/SR_polygon.py:PolygonLine.order`
* how: findLoops on the memory model. Simple loop = IsCycleOf (different corners, each segment between consecutive corners, in either direction). Lemmas/Complete*.lean follow loopsTry/loopsCombs/loopsComb with the invariant CInv: a segment removed from the graph never leaves two other remaining segments at its points, so no loop that is still to be found loses a segment. Validity of the closed chains is a hypothesis, as in C110 (it is a question of geometry only; plValid_clear discharges it for polygons whose sides are clear of each other). C126_missed and C126_twice are computed with exRt for explicit set orders; an example shows that the hypotheses of C126_complete hold for the same square of Walls.
* theorems (Props/LoopsAll.lean): `C126_left`, `C126_complete`, `C126_missed`, `C126_twice`

### C127 Rounding errors do not break the outline, the loop and the room of a vessel (proved)

In every correctly rounded arithmetic (binary64 included) a closed polyline with coordinates of at most a million whose sides pairwise share an end or are at least 1e-6 apart in x or in y has isvalid True. So let shells (cylinders or cones) have positions of at most 1e5, heights from 1e-4 and diameters from 0.01 to 1e5, with any number of decimals: the outline of each is a valid polyline through its four computed corners, its graph are the two Walls, and isvalid depends only on whether the computed middles of the two ends are the same float. If up to 59 such shells stand on each other, pos_v of each being the float pos_v + h of the one below, closed at each end by a torispherical head or by a flat head or end of a room (pos_h and d the floats nearest to decimals with at most 8 places, d/2 too), which is one Wall between the computed corners, find_loops of their graphs returns exactly one polygon, a closed chain that draws all Walls, and Behalter.raume, if the triangulation ends without exception, exactly one room with all parts as outer wall; for every iteration order of the sets.

* code: `SR_Vessel/SR_hauptteile.py:Mantel.make_segments`, `SR_Vessel/SR_hauptteile.py:Mantel.isvalid`, `geometry/SR_polygon.py:PolygonLine.isvalid`, `geometry/SR_line.py:LineSegment.intersection_on_segment`, `geometry/SR_polygon_group.py:PolygonGroup.find_loops`, `SR_Vessel/SR_hauptteile.py:Behalter.raume`
* how: Theorems assume only IsRounding (no IsExact). C127_valid: sides that share an end or lie in strips 1e-6 apart (KeepClear). C127_shell: what mantelNew makes, from C72_outline; the remaining condition of isvalid is the one that fails in C72_crooked. C127_loops and C127_one_room: outline of the stack built in Spec/Bands from the coordinates of the corners, independently of the code; the Walls are those of C127_shell and graphrepr_segments of a head; at a flat end the Wall is given by its two corners, and C127_plate shows that plateNew makes this Wall if pos_h is the float nearest to a/10^8 and d the float nearest to 2k/10^8 (a, k integers); other diameters are not covered for flat ends. As in C122 the group is any memory whose segments have these values. The triangulation is the external library (see C111). Example: two cones in binary64 with pos_v 0.1 and 0.1 + 0.2.
* theorems (Props/PlateFloat.lean, Props/TowerFloat.lean): `C127_plate`, `C127_valid`, `C127_shell`, `C127_loops`, `C127_one_room`

### C128 triangulate of a Delaunay2d object works only once (proved)

Delaunay2d.triangulate renews the points but not triangles, edge2Triangles and boundaryEdges. A call on an object that has been triangulated already never gives the same result: if it ends, there are more triangles than before (unless the points are all on one line, when only the points change). With three points the only triangle is stored twice, table and boundary stay as they were. If a point that is an end of a boundary edge is added once more, a triangle with this point as two of its corners is appended and the edge is listed with at least three triangles, on which flipOneEdge raises ValueError; so, if the first number popped is such a point and its edge is the first one looked at, the second call always raises an exception. For the nodes (1,0), (-1,0), (-1,4), (5,0) the first call ends and the second one raises, for an iteration order that is possible.

* code: `geometry/SR_polygon.py:Delaunay2d.triangulate`, `geometry/SR_polygon.py:Delaunay2d.addPoint`, `geometry/SR_polygon.py:Delaunay2d.flipOneEdge`, `geometry/SR_polygon.py:Delaunay2d.update_points`
* how: Model: `triangulateOn` (Model/Again), the call on an object in any state; C128_first: on a new object it is `delaunay` of C120. C128_more (triangles accumulate), C128_three, C128_value (one `addPoint`), C128_raises (whole call; the order of the edge set is a hypothesis because an earlier flip could overwrite the entry of the edge) and C128_second (concrete, with the first call from C120_flat). The keys of the table are any list with exactly the keys of a finite table (KeysOf). What addEdge does with an edge whose two ends are the same number (same list object appended to twice) is modelled for this. A printed message and a sleep before the ValueError are not modelled.
* theorems (Props/Again.lean): `C128_first`, `C128_more`, `C128_three`, `C128_value`, `C128_raises`, `C128_second`

### C129 raum_intex of a whole vessel with rounding errors (proved)

Shells of any diameters of 0.01 to 1e5, any heights of 1e-4 to 1e5 and any levels up to 1e5, each standing on the one below (pos_v is the sum that Python computes) and none more than 20 times as inclined as high (|d1 - d0| <= 20 h), closed at each end by a torispherical head, a flat head or the end of the room; with a torispherical head the axis must not be rounded down by Point (0.0 is fine; C74 shows what happens otherwise), with a flat head the diameter is at most 50 times the height of the shells. Let no line of sight of the random targets be within rounding errors of a corner, a wall direction or an end (C124). Then in floating point, whatever the decimals: no constructor raises, every reference point computed for the two walls of a shell that lies between the walls is recorded as internal and every other one as external, and raum_intex of the room with all these parts as walls, in any order, records it as inner room of every shell and every torispherical head, as indifferent for the flat heads, and as nothing else.

* code: `SR_Vessel/SR_hauptteile.py:Behalter.raum_intex`, `SR_Vessel/SR_hauptteile.py:Mantel.intex_points`, `SR_Vessel/SR_hauptteile.py:TorispherischesBoden.intex_points`, `SR_Vessel/SR_hauptteile.py:Flachboden.intex_points`, `geometry/SR_polygon.py:PolygonLine.is_internal_point`
* how: Any correctly rounded arithmetic (IsRounding, RootOk). Composition of the float versions of C74-C76, C84, C104, C122 and C124: C129_answers (the parity of crossings is that of the drawing, also for segments in any order), Lemmas/IntexFl and HeadFl (reference points of shells and heads with rounding errors), C129_intex. The targets have the margin of C124 (SafeTarget). |d1 - d0| <= 20 h and d <= 50 height are sufficient, not sharp; some condition is needed because the offset of a point is fixed or 1/50000 (C75, C104). IntexFloatEx: a vessel with decimal dimensions in binary64 that meets all hypotheses, with the table recorded.
* theorems (Props/AnswersFloat.lean, Props/IntexFloat.lean): `C129_drawing`, `C129_answers`, `C129_intex`, `C129_parts`, `C129_points`

### C130 Knuckle with a radius between a cone and a shell (proved)

KegelKrempe with r > 0, in exact arithmetic, on a cone and a shell that stands on it (same axis, same level, same diameter, dimensions with 8 decimals). If the shell does not lean inwards and leans outwards less than the cone, the arc has three segments whose four points lie, up to a stated rounding error, on the circle of radius r that touches both right walls, from the touching point on the cone to that on the shell. If both cuts are clear of the arc and each passes the check of the rounded cut point (height of the part times rounding error below 1e-8), the constructor returns a knuckle whose outline is the closed loop lower cut, arc, upper cut, mirrored arc, with the walls as graph; cone and shell are cut back to the cuts, nothing else changes. It raises AssertionError if one of the two checks fails. It also raises AssertionError, for every radius and every cut, if the shell leans at least as much as the cone (inwards or outwards). If the shell leans inwards by t (less than the cone), the arc ends 2 r t / sqrt(1 + t^2) below the point where the circle touches the shell, and off its wall. The part below the cone gets the upper end of the arc as its upper corners. If h_oben and h_unten are smaller than the arc, its ends are taken, as the comment in the code says, but the same check then applies to the rounded ends: it raises AssertionError for example for a cone of height 8 with diameters 4 and 16 under a cylinder of height 8, r = 2 and h_oben = h_unten = 0.5. r = 0 is the knuckle of C106; a negative r raises Exception.

* code: `SR_Vessel/SR_hauptteile.py:KegelKrempe.__init__`, `SR_Vessel/SR_hauptteile.py:KegelKrempe.make_segments`, `geometry/SR_polygon.py:arc`, `geometry/SR_line.py:LineSegment.angle_between_lines`
* how: Model/KrempeArc.lean models the branch r > 0 of make_segments line by line: the walls are shifted inwards, their intersection is the centre, `arc` with three segments, the two cuts, the checks, the mirrored side, the new corners of the neighbours. C130_arc: the four points of the arc against a circle that touches both walls (Spec/Fillet.lean, no reference to the model). C130_inward: the shell above leans inwards; the code takes unsigned angles, so the arc ends too low and off the wall. C130_steep: AssertionError for every radius. C130_built and C130_rejected: the whole constructor when both cuts are made. C130_uncut: no cut is made, rejected if a rounded end of the arc is off its wall; C130_uncut_raises is a witness. C130_other: r = 0 and r < 0. Not covered: floating-point rounding of sin and cos, cuts within 2e-5 of the arc, and one cut only.
* theorems (Props/KrempeArc.lean, Props/KrempeRound.lean, Props/KrempeUncut.lean): `C130_arc`, `C130_inward`, `C130_steep`, `C130_rejected`, `C130_built`, `C130_other`, `C130_uncut`, `C130_uncut_raises`

### C131 What isconvex says about the shape (proved)

Exact arithmetic, a valid closed polygon. If no corner is to the right of a side, or none to the left of a side, isconvex is True. Conversely, if isconvex is True and the polygon (a) has at most four sides, or (b) goes round once (in some direction its sides, from a suitable corner on, first go forwards and then backwards), or (c) has only different corners, 1e-5 apart in x or y, and turns back at none of them (sides that follow one another share only their common corner; straight corners are allowed), then no corner is to the right of a side, or none to the left. If in case (b) or (c) it turns left at every corner, every other corner is strictly to the left of each side and no corner occurs twice; and every polygon of this kind turns left at every corner and goes round once. With a corner that occurs twice isconvex can be wrong: a big triangle and a small one inside of it, passed one after the other from their common corner, are a valid closed polygon with isconvex True and iscw False, with corners on both sides of a side. And with different corners it can be wrong if the polygon turns back: the triangle (0,0), (3,0), (0,3) with its lower side passed as (0,0), (2,0), (1,0), (3,0) is valid and closed with isconvex True and iscw False, and (0,3) is to the left of the first side and to the right of the second.

* code: `geometry/SR_polygon.py:PolygonLine.isconvex`, `geometry/SR_polygon.py:PolygonLine.cps`, `geometry/SR_polygon.py:PolygonLine.iscw`, `geometry/SR_polygon.py:PolygonLine.isvalid`
* how: Convexity is defined by the corners and sides only (Spec/Convex, ConvexCcw of Spec/Ray). C131_convex: both directions; the direction from the turns uses that seen from any side the distance of the corners does not rise any more once it has fallen (Lemmas/Turning), if the polygon goes round once; with at most four corners the turns are all there is to check. C131_strict and C131_once: for polygons without straight corners, going round once and turning left is the same as ConvexCcw, the hypothesis of C84, C93 and others. C131_two_rounds: computed with exRt. C131_simple, C131_simple_strict (real numbers): isvalid with different corners and no turning back gives that sides meet only in common corners (a corner on another side would need another one further along the same line); that such a polygon, turning nowhere to the right, goes round once is proved with the chains between its foremost and hindmost corners as piecewise linear functions (Lemmas/Monotone, by the intermediate value theorem). NoTurnBack is needed: C131_zigzag (computed with exRt). Polygons that turn back are covered by (a) and (b).
* theorems (Props/ConvexSimple.lean, Props/IsConvex.lean): `C131_simple`, `C131_simple_strict`, `C131_convex`, `C131_strict`, `C131_once`, `C131_two_rounds`, `C131_zigzag`

### C132 A Delaunay2d of a polygon triangulates the convex hull of its corners (proved)

After Delaunay2d(polygon) and after update_points, self.points holds exactly the ends of the polygon's segments, each once, in some order (provided no two different ends are == with the same hash); with nr_added_points set to n > 0 also the first n of the random points that is_internal_point accepts, and the loop goes on as long as fewer have been accepted (forever for a polygon without segments). In exact arithmetic, for corners in general position, triangulate then gives a triangulation of the convex hull of the corners, whatever the sides are. For a strictly convex polygon the triangles together are exactly the polygon. For other polygons they cover more, although the object keeps the sides as constraints: for (0,0), (4,0), (1,1), (0,4) they cover (3/2, 3/2), which is outside.

* code: `geometry/SR_polygon.py:Delaunay2d.__init__`, `geometry/SR_polygon.py:Delaunay2d.update_points`, `geometry/SR_polygon.py:Delaunay2d.add_internal_points`, `geometry/SR_polygon.py:Delaunay2d.triangulate`
* how: Model/DelaunayOf.lean. C132_points: any rounding arithmetic. C132_added: closed form of the loop, for calls of is_internal_point that end (C83, C84, C93); C132_never: no segments. C132_hull puts C132_points and C120 together; C132_convex uses that a side of the hull of the corners of a strictly convex polygon is a side of the polygon. C132_arrow: outside means that a ray to the right meets no side. Random points are arbitrary points; deep copies are taken to have the same coordinates.
* theorems (Props/DelaunayOf.lean): `C132_points`, `C132_added`, `C132_never`, `C132_hull`, `C132_convex`, `C132_arrow`

### C133 A polygon that calls itself convex answers is_internal_point rightly and its Delaunay2d covers it (proved)

In exact arithmetic, for a closed polygon (each side begins where the previous one ends) whose corners are different and at least 1e-5 apart in some coordinate, and no two consecutive sides of which are parallel (no zero in cps): if isconvex is True and iscw is False, every other corner is strictly to the left of each side; if isconvex and iscw are True, the same holds for the polygon passed in the opposite direction. Then is_internal_point is True for every point strictly on the inner side of all sides (left for iscw False, right for iscw True) and False for every point strictly on the outer side of some side, whenever the random targets are in general position. Conversely a valid strictly convex polygon passed counter-clockwise gives isconvex True, iscw False, isccw True and has no zero in cps. If moreover no three corners are nearly in line (twice the area above 1e-8) and the corners are stored unchanged, the triangles of Delaunay2d(polygon) after triangulate cover exactly the points that are on the outer side of no side, whatever orders the sets have.

* code: `geometry/SR_polygon.py:PolygonLine.isconvex`, `geometry/SR_polygon.py:PolygonLine.iscw`, `geometry/SR_polygon.py:PolygonLine.isccw`, `geometry/SR_polygon.py:PolygonLine.cps`, `geometry/SR_polygon.py:PolygonLine.is_internal_point`, `geometry/SR_polygon.py:Delaunay2d.update_points`, `geometry/SR_polygon.py:Delaunay2d.triangulate`
* how: Tier B over the reals. C133_ccw and C133_cw give the shape from the answers of isconvex and iscw (through C131_simple_strict), C133_answers the converse, C133_point composes them with C84 (the point must be off the border and the targets in general position; GoodTarget and Spread in Spec/Ray.lean). isvalid need not be assumed: isconvex raises AssertionError for an invalid polygon. C133_mesh composes them with C132 (delaunay_drawn in Props/DelaunayOf.lean).
* theorems (Props/ConvexAnswers.lean, Props/ConvexMesh.lean): `C133_ccw`, `C133_cw`, `C133_answers`, `C133_point`, `C133_mesh`

### C134 Which triangles ear_clipping accepts (proved)

The function triangle_ok inside ear_clipping, for a polygon drawn by its segments in any order and direction and a triangle between corners of it: in exact arithmetic, with separated corners and random targets in general position, it answers True if the stored midpoint of the (counter-clockwise) triangle is inside the polygon, all other corners of the polygon are strictly outside of the triangle and no side of the polygon crosses another one or a side of the triangle (no near misses); it answers False if the midpoint is outside, and if another corner is strictly inside. For a strictly convex polygon every such triangle with its stored midpoint inside is accepted. A triangle with a side that crosses a side of the polygon properly is never accepted, whatever the targets are. Whatever is accepted passes the function of the same name in triangle_mesh too, and no two segments of polygon and triangle are found to cross.

* code: `geometry/SR_polygon.py:PolygonLine.ear_clipping`
* how: Model/EarOk.lean is triangle_ok of ear_clipping test by test; the ray casting is plInternal (C56, C93) with the random targets as a parameter. The acceptance theorems need exact arithmetic; C134_accepted and C134_clipped (what a round cuts off has passed the test) hold for every arithmetic.
* theorems (Props/EarOk.lean): `C134_accept`, `C134_accepted`, `C134_clipped`, `C134_crossing`, `C134_outside`, `C134_foreign`, `C134_convex`

### C135 ear_clipping triangulates every strictly convex polygon (proved)

In exact arithmetic: ear_clipping of a polygon with 3 to 5002 different corners, separated by 1e-5, every three of which in this order turn left by at least EPS and by more than 3e-8 times the extent of the polygon, its sides stored in any order and direction: with the triangle_ok of the code, whatever corner is chosen in each round and whatever targets in general position are drawn, it returns True, has stored two triangles less than there are corners, and the areas of the stored triangles add up exactly to the area of the polygon by the shoelace formula. General position: no target is in line with two of the points concerned, and no two lines just miss each other.

* code: `geometry/SR_polygon.py:PolygonLine.ear_clipping`
* how: Composition of C90_convex_done (the loop) with C134_convex (the test). EarDraws states what general position means for the targets; sq3_earDraws shows that a single target meets it for a square. Three nearly collinear corners are excluded: chosen_point_ok refuses them.
* theorems (Props/EarConvex.lean): `C135_convex`, `C135_area`

### C136 Ends of a polyline and building it by appending Points (proved)

first_segment, last_segment, first_point, last_point, isopen, close and both append methods raise IndexError for a PolygonLine without segments. Otherwise isopen never raises and is False exactly if all consecutive segments are continuous and first_point == last_point. append_point_at_end(p) with a valid Point adds one plain LineSegment from the former last_point to p; last_point is then p itself, first_point, all other objects, the purged flag and continuity are as before; append_point_at_beginning(p) likewise at the other end. Appending Points p1, ..., pn one after the other adds the path last_point, p1, ..., pn. close() on an open polyline does the same as append_point_at_end(first_point). A polyline made of one segment, n appended Points and close() has isopen False and n + 1 or n + 2 segments.

* code: `geometry/SR_polygon.py:PolygonLine.first_point`, `geometry/SR_polygon.py:PolygonLine.last_point`, `geometry/SR_polygon.py:PolygonLine.first_segment`, `geometry/SR_polygon.py:PolygonLine.last_segment`, `geometry/SR_polygon.py:PolygonLine.isopen`, `geometry/SR_polygon.py:PolygonLine.append_point_at_end`, `geometry/SR_polygon.py:PolygonLine.append_point_at_beginning`, `geometry/SR_polygon.py:PolygonLine.close`
* how: Model/Ends.lean on the object model of Model/Heap.lean (addresses of Points and segments). Tier A. The assertion p.isvalid at the start of both append methods is not modelled: only valid Points exist in the heap model.
* theorems (Props/Ends.lean): `C136_empty`, `C136_open`, `C136_end`, `C136_begin`, `C136_close`, `C136_build`, `C136_built`

### C137 Raum.as_polygon (proved)

wall_segments and nonwall_segments of a part have no segment in common, and together they are all its segments exactly if none of these is a plain LineSegment. The segments of Raum.as_polygon are exactly the Walls of the parts in innere_wandung and aussere_wandung, the inner ones first, each as often as its part is listed; NonWalls and plain LineSegments never occur. If the Walls of one of these parts are not continuous by themselves, as_polygon is not continuous, not valid and not closed, and close() adds a segment without closing it. So whenever an uncut Mantel with separated corners is among the walls of a room, isvalid and isclosed of as_polygon are False. This applies to every room made by raum_erstellen whose cycle has such a Mantel among its parts; a room whose cycle contains no other cycle has in as_polygon exactly the Walls of the parts of its cycle.

* code: `SR_Vessel/SR_hauptteile.py:Raum.as_polygon`, `SR_Vessel/SR_hauptteile.py:Raum.innere_wandung`, `SR_Vessel/SR_hauptteile.py:Raum.aussere_wandung`, `SR_Vessel/SR_hauptteile.py:Raum.ganze_wandung`, `SR_Vessel/SR_hauptteile.py:Hauptteil.wall_segments`, `SR_Vessel/SR_hauptteile.py:Hauptteil.nonwall_segments`, `SR_Vessel/SR_hauptteile.py:Behalter.raum_erstellen`
* how: Model/RaumPoly.lean on the rooms of Model/Raum.lean; a part is given by its segments as values. The Mantel of C137_mantel is the one constructed by Model/Vessel.lean (C72). Tier A.
* theorems (Props/RaumPoly.lean): `C137_classes`, `C137_members`, `C137_count`, `C137_torn`, `C137_mantel`, `C137_rooms`

### C138 characteristic_size is a radius of the part, if there is one (proved)

characteristic_size of a KegelKrempe raises AttributeError and of a RaumEnde NotImplementedError, always; for all other parts it returns a number. Despite its documentation this is half of the diameter: for a Mantel, in exact arithmetic with dimensions on the coordinate grid, the smallest distance of a point of its Walls from the axis, reached at one of their ends; for a Klopperboden or Korbbogenboden the largest distance of a point of the Walls of its graph from the axis, reached at both outer ends; for a Flachboden half of the length of its Wall, which is centred on pos_h. For a Mantel on the axis the value rounded to 8 decimals is, in every rounding arithmetic, the smaller x coordinate of the ends of the right Wall.

* code: `SR_Vessel/SR_hauptteile.py:Hauptteil.characteristic_size`, `SR_Vessel/SR_hauptteile.py:Mantel.characteristic_size`, `SR_Vessel/SR_hauptteile.py:TorispherischesBoden.characteristic_size`, `SR_Vessel/SR_hauptteile.py:Flachboden.characteristic_size`, `SR_Vessel/SR_hauptteile.py:KegelKrempe.characteristic_size`
* how: Model/Size.lean: one case per class. That a KegelKrempe never gets an attribute d was read off the source (no assignment in the class, in Hauptteil or in PolygonLine). Tier B for C138_shell, C138_head (the graph of the head; its outline is C103) and C138_plate, Tier A for C138_axis and C138_raises.
* theorems (Props/Size.lean): `C138_raises`, `C138_shell`, `C138_axis`, `C138_plate`, `C138_head`

### C139 What can be done with the polygon returned by convex_hull (proved)

For coordinate pairs with at most 8 decimals, at least 1e-5 apart and not all on one line, in exact arithmetic, convex_hull returns a closed polygon of at least three sides that is strictly convex and passed counter-clockwise, whose corners are exactly the extreme points of the convex hull of the pairs and which has a pair in it iff the convex hull (in Mathlib's sense) has. Delaunay2d of this polygon with no points drawn (nr_added_points 0, as its constructor sets it) triangulates it, in every iteration order of its sets: if no three corners are within 1e-8 of being collinear (as a determinant), the triangles of the mesh cover exactly the convex hull of the pairs given. is_internal_point of the polygon is True for every point in the (topological) interior of the convex hull and False for every point outside of it, provided the random target points are in general position.

* code: `geometry/SR_polygon.py:convex_hull`, `geometry/SR_polygon.py:PolygonLine.is_internal_point`, `geometry/SR_polygon.py:Delaunay2d.update_points`, `geometry/SR_polygon.py:Delaunay2d.triangulate`
* how: Exact arithmetic, composition of C34, C84, C132 and C133: C139_convex (shape, corners, half-planes), C139_mesh (Delaunay2d with nr_added_points 0, so that its random numbers do not matter; K any ordered field with an exact angle), C139_point (over the reals; hypotheses on the random targets as for C84, and by C123 such targets exist). In binary64 the hull need not enclose its points (C34_float_member_outside).
* theorems (Props/HullPoly.lean): `C139_convex`, `C139_mesh`, `C139_point`

### C140 Graph.renew gives the graph of the part as it is now (proved)

What Graph.renew leaves, and whether it raises, does not depend on the graph it is called on: segments and points are those of a graph made anew from the part, and the segments are the present graphrepr_segments even if the part's intex_points raises. Every point of the renewed graph belongs to one of these segments and was, under its kind, in some evaluation of intex_points; if intex_points is the same at every evaluation and describes every segment, the graph has exactly its points, in the order of the segments, each once. add_intex_points without renew only appends: a second call adds the points again. If a segment of the graph is not a key of intex_points, renew raises KeyError and leaves the new segments with the points of the segments before this one only. If intex_points has points under another key than internal, external and indifferent for a segment, an Exception is raised whatever comes after it; an exception of intex_points at its first evaluation is passed on and leaves the new segments without points. The renewed graph of a Flachboden, cut or not, has its Walls as segments and for each of them the same two indifferent points, both at pos_h, in every rounding arithmetic; that of a RaumEnde has no points.

* code: `geometry/SR_polygon_group.py:Graph.renew`, `geometry/SR_polygon_group.py:Graph.add_intex_points`, `geometry/SR_polygon_group.py:Graph.__init__`, `SR_Vessel/SR_hauptteile.py:Flachboden.intex_points`, `SR_Vessel/SR_hauptteile.py:RaumEnde.intex_points`, `geometry/SR_polygon.py:PolygonLine.add_internal_point`, `geometry/SR_polygon.py:PolygonLine.add_external_point`, `geometry/SR_polygon.py:PolygonLine.add_indifferent_point`
* how: Model/Renew.lean: the loops of add_intex_points with one evaluation of intex_points per segment and per key, exceptions returned together with the graph left behind. intex_points and graphrepr_segments are arbitrary values (for the parts see C104 and Model/Intex.lean); the dict is a function of the segment. Any arithmetic. Not modelled: a part without graph segments in Graph.__init__ (PolygonLine then takes two empty LineSegments), and the name of the graph.
* theorems (Props/Renew.lean): `C140_forgets`, `C140_appends`, `C140_points`, `C140_missing`, `C140_unknown`, `C140_raises`, `C140_sound`, `C140_plate`
