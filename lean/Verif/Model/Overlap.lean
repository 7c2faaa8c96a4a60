import Verif.Model.Group
import Verif.Model.Lookup
import Verif.Model.Delaunay

/-!
# What the vessel reports about its rooms, and constraints of a triangulation
(geometry/SR_polygon_group.py, geometry/SR_polygon.py)

The parts of the graph are elements of a type `α`, `ht` gives the Hauptteil of a part; `inter` is the intersection of two
sets of parts as a list.
-/

namespace Srep

section
variable {α β ν : Type}

/-- `BehalterGraph.all_overlapping_segments`, geometry/SR_polygon_group.py:505-511; `PolygonGroup.all_overlapping_segments`
(131-137) returns the same -/
def allOverlapping (inter : List α → List α → List α) (cycles : List (ℕ × List α)) : List α :=
  (overlapsInCycles inter cycles).flatMap Prod.snd

/-- `PolygonGroup.overlaps_in_cycles`, geometry/SR_polygon_group.py:118-125 -/
def groupOverlaps (inter : List α → List α → List α) (ht : α → β) (cycles : List (ℕ × List α)) : List ((ℕ × ℕ) × List β) :=
  (overlapsInCycles inter cycles).map fun e => (e.1, e.2.map ht)

/-- `PolygonGroup.overlaps_in_cycles_named`, geometry/SR_polygon_group.py:107-116; a Hauptteil is a PolygonLine, so
`name_from_repr` is its name; the set of names is a list without repetition -/
def groupOverlapsNamed [DecidableEq ν] (inter : List α → List α → List α) (ht : α → β) (name : β → ν)
    (cycles : List (ℕ × List α)) : List ((ℕ × ℕ) × List ν) :=
  (overlapsInCycles inter cycles).map fun e => (e.1, ((e.2.map ht).map name).dedup)

/-- `PolygonGroup.disjunct_cycles`, geometry/SR_polygon_group.py:98-105: the values of the dict of the graph are lists of
sets, which have no `hauptteil` (AttributeError) -/
def groupDisjunct (inter : List α → List α → List α) (cycles : List (ℕ × List α)) : Except PyErr (List (ℕ × List β)) :=
  (disjunctCycles inter cycles).mapM fun e => if e.2 = [] then .ok (e.1, []) else .error .attribute

/-- `node_degree`, geometry/SR_polygon_group.py:303-306 -/
def nodeDegree (al : List (ℕ × List ℕ)) (node : ℕ) : Except PyErr ℕ :=
  match al.lookup node with
  | some l => .ok l.length
  | none => .error .assertion

end

namespace Rt
variable {K : Type} [Field K] [LinearOrder K] [IsStrictOrderedRing K] [FloorRing K] (R : Rt K)

/-- `intersectsConstraint`, geometry/SR_polygon.py:1329-1337; `cs` are the constraints (the segments of the polygon), `ps`
the points -/
def intersectsConstraint (ps : List (Pt K)) (cs : List (Seg K)) (e : ℤ × ℤ) : Except PyErr Bool :=
  match pyGet ps e.1, pyGet ps e.2 with
  | some a, some b => .ok (cs.any fun c => R.intersectionOnSegment c ⟨a, b, .line⟩)
  | _, _ => .error .index

end Rt
end Srep
