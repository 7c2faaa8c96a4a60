* **geometry/SR_point.py**
  * modelled: `distance` (Point, PointObj), `Point.__init__` (Point, PointObj), `Point.__sub__` (Point, PointObj), `Point.__add__` (Point, PointObj), `Point.__eq__` (Num, Point, PointObj), `Point.__ne__` (PointObj), `Point.__hash__` (Point), `Point.x` (Point, PointObj), `Point.y` (Point, PointObj), `Point.xy` (Point, PointObj), `Point._set_coords` (Num, Point, PointObj), `Point._empty` (PointObj), `Point.isvalid` (PointObj)
  * a part cited: -
  * not modelled: `Point.__repr__`, `Point.__str__`, `Point._isempty`, `Point.distance`, `Point.bounding_box`, `Point.plot`, `IntexPoint.__init__`, `run`

* **geometry/SR_line.py**
  * modelled: `LineSegment.__init__` (Heap, Line), `LineSegment.__eq__` (Line), `LineSegment.loose_equal` (Line), `LineSegment.__hash__` (Group), `LineSegment._set_endpoints` (Heap), `LineSegment.isvalid` (Flat), `LineSegment.i` (Line), `LineSegment.j` (Line), `LineSegment.ij` (Line), `LineSegment.delta_x` (Line), `LineSegment.delta_y` (Line), `LineSegment.norm` (Line), `LineSegment.unitvector` (Line), `LineSegment.crossproduct` (Line), `LineSegment.dotproduct` (Line), `LineSegment.isnull` (Line), `LineSegment.direction` (Line), `LineSegment.is_internal_point` (Line), `LineSegment.is_point_on_line` (Line), `LineSegment.is_point_to_right` (Line), `LineSegment.is_point_to_left` (Line), `LineSegment.opposite_direction` (Line), `LineSegment.is_parallel` (Line), `LineSegment.is_intersecting` (Line), `LineSegment.line_point_distance` (Line), `LineSegment.continuous` (Line), `LineSegment.touch` (Line), `LineSegment.overlap` (Line), `LineSegment.intersection_point` (Line), `LineSegment.common_part` (Line), `LineSegment.common_part_type` (TriRel), `LineSegment.is_collinear` (Line), `LineSegment.intersection_on_endpoint` (Line), `LineSegment.intersection_on_segment` (Line), `LineSegment.mirror_vertical` (Heap), `LineSegment.move` (Heap, KrempeArc, Split), `LineSegment.reverse` (Heap, Line), `LineSegment.line_reversed` (Line), `LineSegment.angle_between_lines` (KrempeArc, Line), `LineSegment.angle_from_start_point` (Line), `LineSegment.crossproduct_commonstart` (Collinear, Line), `LineSegment.bounding_box` (Line), `LineSegment.midpoint` (Line), `point_on_line_at_ratio` (Line), `divide_line` (Heap, Line), `add_point_on_line` (Line)
  * a part cited: -
  * not modelled: `LineSegment.__str__`, `LineSegment.__repr__`, `LineSegment.__ne__`, `LineSegment.as_vector`, `LineSegment.plot`, `run`

* **geometry/SR_polygon.py**
  * modelled: `PolygonLine.__init__` (Heap, Polygon, Renew), `PolygonLine.__eq__` (Polygon), `PolygonLine.loose_subset` (Polygon), `PolygonLine.loose_equal` (Polygon), `PolygonLine.__hash__` (KeepBase), `PolygonLine.triangles` (TriRel), `PolygonLine.neighbour` (Collinear, Ear, Polygon), `PolygonLine.find_segment_by_point` (Collinear, Polygon), `PolygonLine.midpoint` (Polygon), `PolygonLine.disjunct` (KeepBase, TriRel), `PolygonLine.purge` (Heap), `PolygonLine.ordered_copy` (Tools), `PolygonLine.order` (Heap), `PolygonLine.append_point_at_end` (Ends, Heap), `PolygonLine.append_point_at_beginning` (Heap, Tools), `PolygonLine.add_internal_point` (Renew, Tools), `PolygonLine.add_indifferent_point` (Renew, Tools), `PolygonLine.add_external_point` (Renew, Tools), `PolygonLine.internal` (Tools), `PolygonLine.indifferent` (Tools), `PolygonLine.external` (Tools), `PolygonLine.all_points` (Intex), `PolygonLine.point_set` (Heap, Polygon), `PolygonLine.crossing_lines` (Polygon), `PolygonLine.isvalid` (Polygon), `PolygonLine.discontinuity` (Lookup), `PolygonLine.iscontinuous` (Polygon), `PolygonLine.next_segment` (Lookup), `PolygonLine.isclosed` (Polygon), `PolygonLine.first_point` (Ends), `PolygonLine.last_point` (Ends), `PolygonLine.first_segment` (Ends), `PolygonLine.last_segment` (Ends), `PolygonLine.isopen` (Ends), `PolygonLine.closed_copy` (Heap), `PolygonLine.close` (Heap, Polygon), `PolygonLine.cps` (Polygon), `PolygonLine.isconvex` (Polygon), `PolygonLine.iscw` (Polygon), `PolygonLine.isccw` (Polygon), `PolygonLine.is_internal_point` (Polygon), `PolygonLine.is_external_point` (Polygon), `PolygonLine.is_on_boundary` (Polygon), `PolygonLine.bounding_box` (Polygon), `PolygonLine.rotate_about_origin` (Heap), `PolygonLine.mirror_vertical` (Heap), `PolygonLine.move` (Heap), `PolygonLine.rotate_about_xy` (Heap), `PolygonLine.is_triangle` (Ear), `PolygonLine.area` (Area), `PolygonLine.detailled_area` (Area), `PolygonLine.triangulate` (Delaunay), `PolygonLine.triangulate_delaunay` (Delaunay), `PolygonLine.ear_clipping` (Ear, EarOk), `PolygonLine.triangle_mesh` (Area), `Triangle.__init__` (Ear), `Triangle.area` (Ear, Polygon), `Triangle.quality` (TriAngles), `Triangle.angles` (TriAngles), `Triangle.congruent` (Polygon, TriRel), `Triangle.enclosed` (TriRel), `Triangle.overlap` (TriRel), `Triangle.touch` (TriRel), `Triangle.disjunct` (TriRel), `Triangle.tell_relpos` (TriRel), `Delaunay2d.__init__` (Delaunay, DelaunayOf), `Delaunay2d.refine_boundaries` (Tools), `Delaunay2d.add_internal_points` (DelaunayOf), `Delaunay2d.update_points` (DelaunayOf), `Delaunay2d.triangulate` (Again, Delaunay, Triangulate), `Delaunay2d.getArea` (Delaunay), `Delaunay2d.isEdgeVisible` (Delaunay), `Delaunay2d.intersectsConstraint` (Overlap), `Delaunay2d.makeCounterClockwise` (Delaunay), `Delaunay2d.flipOneEdge` (Delaunay), `Delaunay2d.flipEdges` (Again, Delaunay, Triangulate), `Delaunay2d.addPoint` (Again, Delaunay, Triangulate), `Delaunay2d.makeKey` (Delaunay), `Delaunay2d.dotproduct` (Delaunay), `segments_from_pointset` (Pointset), `remove_collinear_points` (Collinear), `rotationsmatrix` (Tools), `simplify` (Tools), `remove_outlier_segments` (Intex, Polygon, Rooms), `polygon_from_nodes` (Heap, Polygon), `square` (Heap), `arc` (Arc, KrempeArc), `intersecting_lines` (Split), `convex_hull` (Polygon), `add` (Heap), `walk_segments` (Group)
  * a part cited: `PolygonLine.collinear_points` (Ear)
  * not modelled: `PolygonLine.__nonzero__`, `PolygonLine.__repr__`, `PolygonLine.__ne__`, `PolygonLine._delete_triangles`, `PolygonLine.segments`, `PolygonLine.fix`, `PolygonLine.plot_triangulation`, `PolygonLine.plot`, `Triangle.detailled_area`, `Delaunay2d.all_segments`, `Delaunay2d.all_points`, `Delaunay2d.getTriangles`, `Delaunay2d.getEdges`, `Delaunay2d.show`, `run`

* **geometry/SR_polygon_group.py**
  * modelled: `PolygonGroup.polygon_from_repr` (Lookup), `PolygonGroup.name_from_repr` (Lookup), `PolygonGroup.cycles` (Rooms), `PolygonGroup.disjunct_cycles` (Overlap), `PolygonGroup.overlaps_in_cycles_named` (Overlap), `PolygonGroup.overlaps_in_cycles` (Overlap), `PolygonGroup.all_overlapping_segments` (Overlap), `PolygonGroup.segments_from_points` (Lookup), `PolygonGroup.isvalid` (Group), `PolygonGroup.representative_graph` (Group), `PolygonGroup.points_numbered` (Group), `PolygonGroup.as_edgelist` (Lookup), `PolygonGroup.as_adjacency_list` (Group), `PolygonGroup.node_degree` (Overlap), `BehalterGraph.cycles` (Rooms), `BehalterGraph.disjunct_cycles` (Group), `BehalterGraph.contained_cycles` (Contained), `BehalterGraph.overlaps_in_cycles` (Group), `BehalterGraph.all_overlapping_segments` (Overlap), `BehalterGraph.segments_in_cycles` (Rooms), `BehalterGraph.find_loops` (Group), `BehalterGraph.keep_base_polygons` (Group, KeepBase, Rooms), `Graph.__init__` (Flat, Renew, Vessel), `Graph.renew` (Renew), `Graph.add_intex_points` (Flat, Intex, KrempeIntex, Renew)
  * a part cited: -
  * not modelled: `PolygonGroup.__init__`, `PolygonGroup.graph`, `PolygonGroup.__repr__`, `PolygonGroup.polygons`, `PolygonGroup.contained_cycles`, `PolygonGroup.segments_in_cycles`, `PolygonGroup.plot`, `PolygonGroup.all_segments`, `PolygonGroup.find_loops`, `BehalterGraph.__init__`

* **geometry/additional_stuff.py**
  * modelled: `sphere_line_intersection` (Vessel)
  * a part cited: -
  * not modelled: -

* **SR_Vessel/SR_hauptteile.py**
  * modelled: `raum_dict_checker` (Vessel), `Wall.__init__` (Line), `NonWall.__init__` (Line), `Raum.__init__` (Raum, Rooms), `Raum.innere_wandung` (RaumPoly), `Raum.aussere_wandung` (RaumPoly), `Raum.ganze_wandung` (Intex, RaumPoly), `Raum.graph_as_polygon` (Intex), `Raum.as_polygon` (RaumPoly), `Behalter.__init__` (Rooms), `Behalter.cut_by_raumende` (Split), `Behalter.raum_erstellen` (Raum, Rooms), `Behalter.raum_intex` (Intex), `Hauptteil.__init__` (Flat, HeadSegs, Split, Vessel), `Hauptteil.characteristic_size` (Size), `Hauptteil.graphrepr_segments` (Split), `Hauptteil.wall_segments` (Split, Vessel), `Hauptteil.nonwall_segments` (RaumPoly), `Hauptteil.polygonline` (HeadSegs), `Hauptteil.split` (Split), `Mantel.__init__` (FromDict, Intex, Vessel), `Mantel.from_dict` (FromDict), `Mantel.intex_points` (Intex), `Mantel.characteristic_size` (Size), `Mantel.isvalid` (Split, Vessel), `Mantel.make_segments` (FromDict, Split, Vessel), `TorispherischesBoden.__init__` (FromDict, HeadSegs, Intex, Renew), `TorispherischesBoden.intex_points` (Intex, Vessel), `TorispherischesBoden.characteristic_size` (HeadSegs, Size), `TorispherischesBoden.h_graph` (Vessel), `TorispherischesBoden.graphrepr_segments` (Split, Vessel), `TorispherischesBoden.isvalid` (HeadSegs), `TorispherischesBoden.make_segments` (HeadSegs), `Klopperboden.from_dict` (FromDict), `Korbbogenboden.from_dict` (FromDict), `Flachboden.__init__` (Flat, FromDict), `Flachboden.from_dict` (FromDict), `Flachboden.intex_points` (Flat, Renew), `Flachboden.isvalid` (Flat), `Flachboden.characteristic_size` (Flat, Size), `Flachboden.is_internal_point` (Flat), `Rohrboden.__init__` (FromDict), `Rohrboden.from_dict` (FromDict), `KegelKrempe.__init__` (Krempe, KrempeArc, KrempeIntex), `KegelKrempe.ht_oben` (Krempe), `KegelKrempe.ht_unten` (Krempe), `KegelKrempe.assert_checking` (Krempe), `KegelKrempe.pos_h` (FromDict), `KegelKrempe.make_segments` (Krempe, KrempeArc), `KegelKrempe.intex_points` (Intex, KrempeIntex), `KegelKrempe.characteristic_size` (Size), `StandZarge.__init__` (FromDict, Vessel), `StandZarge.make_segments` (FromDict, Vessel), `RaumEnde.__init__` (Flat, FromDict, Split), `RaumEnde.from_dict` (FromDict), `RaumEnde.intex_points` (Flat, Renew), `RaumEnde.isvalid` (Flat)
  * a part cited: `KegelKrempe.from_dict` (FromDict)
  * not modelled: `linenum`, `Raum.set_name`, `Raum.name`, `Behalter.graph`, `Behalter.graphical_testing`, `Behalter.plot`, `Hauptteil.from_dict`, `Hauptteil.intex_points`, `Hauptteil.graph`, `Hauptteil.isvalid`, `Klopperboden.__init__`, `Korbbogenboden.__init__`, `Rohrboden.intex_points`, `KegelKrempe.pos_v`, `KegelKrempe.isvalid`, `run`
