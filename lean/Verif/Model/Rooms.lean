import Verif.Model.Area
import Verif.Model.Raum
import Verif.Model.Intex

/-!
# From the loops of a vessel to its rooms (geometry/SR_polygon_group.py, SR_Vessel/SR_hauptteile.py)

The vessel is the list `G` of the graphs of its parts (polylines in memory); a part is named by its position in this list.
`walls i` are the wall segments of the part number `i`.  No part is a raumende, so that `cut_by_raumende` does nothing.
-/

namespace Srep

/-- what an evaluation gives: a value, an exception, or (`timeout`) a loop that has not ended within the given rounds -/
inductive Outcome (α : Type)
  | ok (a : α)
  | raised (e : PyErr)
  | timeout

section
variable {K : Type} [Field K] [LinearOrder K] [IsStrictOrderedRing K] [FloorRing K]

/-- what `keep_base_polygons` does with two or more polygons, geometry/SR_polygon_group.py:632-752: new memory and the
polygons kept (Model/KeepBase.lean has the choice itself) -/
abbrev KeepMore (K : Type) := Heap K → List PLine → Outcome (Heap K × List PLine)

/-- what the triangulation depends on: the library, the random targets for each polygon, and the rounds of random tests -/
structure TriEnv (K : Type) where
  lib : TriLib K
  ω : ℕ → ℕ → ℕ → ℕ → Pt K
  fuel : ℕ

namespace Rt
variable (R : Rt K)

/-- `for p in polygons: p.triangulate(algorithm=TRIANGULATION_ALGORITHM)`, geometry/SR_polygon_group.py:624-626, for
polygons that have not been triangulated: the algorithm is `triangle_mesh`, which leaves the segment objects of the polygon
alone.  `k` is the number of polygons done.  `none`: no exception. -/
def triangulateAll (T : TriEnv K) (h : Heap K) : ℕ → List PLine → Option (Option PyErr)
  | _, [] => none
  | k, P :: Ps =>
    match R.triangleMesh T.lib h (h.vals P.segs) (T.ω k) T.fuel with
    | .error e => some e
    | .ok _ => triangulateAll T h (k + 1) Ps

/-- `keep_base_polygons`, geometry/SR_polygon_group.py:612-752: None for an empty list, the list itself if it has one
polygon -/
def keepBasePolygons (T : TriEnv K) (more : KeepMore K) (h : Heap K) (c : List PLine) :
    Outcome (Heap K × Option (List PLine)) :=
  match R.triangulateAll T h 0 c with
  | some (some e) => .raised e
  | some none => .timeout
  | none =>
    match c with
    | [] => .ok (h, none)
    | [P] => .ok (h, some [P])
    | c =>
      match more h c with
      | .ok r => .ok (r.1, some r.2)
      | .raised e => .raised e
      | .timeout => .timeout

/-- `BehalterGraph.cycles`, geometry/SR_polygon_group.py:365-376, for the stored value `cache` (empty: none stored).
`len(None)` is a TypeError. -/
def graphCycles (π : SetOrder) (fuel : ℕ) (T : TriEnv K) (more : KeepMore K) (cache : List (ℕ × PLine)) (h : Heap K)
    (G : List PLine) : Outcome (Heap K × List (ℕ × PLine)) :=
  if cache ≠ [] then .ok (h, cache)
  else match R.findLoops π fuel h G with
    | .raised e => .raised e
    | .timeout => .timeout
    | .ok h' _ c =>
      match R.keepBasePolygons T more h' c with
      | .raised e => .raised e
      | .timeout => .timeout
      | .ok (_, none) => .raised .type
      | .ok (h'', some l) => .ok (h'', (List.range l.length).zip l)

/-- the condition on the part `x` for the cycle `v` in `segments_in_cycles`, geometry/SR_polygon_group.py:538-539 -/
def listedIn (h : Heap K) (v x : PLine) : Bool :=
  R.plLooseSubset (h.vals v.segs) (h.vals x.segs) || v.segs.any fun y => R.inSegs h y x.segs

/-- `BehalterGraph.segments_in_cycles`, geometry/SR_polygon_group.py:513-541: the numbers of the parts of each cycle -/
def segmentsInCycles (h : Heap K) (cycles : List (ℕ × PLine)) (G : List PLine) : List (ℕ × List ℕ) :=
  cycles.map fun c => (c.1, (List.range G.length).filter fun i => (G[i]?).any (R.listedIn h c.2))

/-- `remove_outlier_segments`, geometry/SR_polygon.py:1682-1686, on segment objects -/
def removeOutliersH (h : Heap K) (l : List ℕ) : List ℕ :=
  let occ := occurrences (h.vals l)
  let sp := occ.filter fun x => decide (occ.countP (fun y => R.peq y x) = 1)
  l.filter fun s => !([(h.val s).i, (h.val s).j].any fun y => sp.any fun x => R.peq x y)

/-- `PolygonGroup.cycles`, geometry/SR_polygon_group.py:78-97, for the dict `sic`; if the segments cannot be put in order
the polyline is kept as it is.  `PolygonLine([])` has two invalid segments, on which `order` returns False; it is written here as the
polyline without segments. -/
def groupCycles (walls : ℕ → List ℕ) : Heap K → List (ℕ × List ℕ) → Outcome (Heap K × List (ℕ × PLine))
  | h, [] => .ok (h, [])
  | h, c :: cs =>
    let segs := R.removeOutliersH h (c.2.flatMap walls)
    let go := fun (h' : Heap K) (l : List ℕ) =>
      match groupCycles walls h' cs with
      | .ok r => .ok (r.1, (c.1, ⟨l, false⟩) :: r.2)
      | .raised e => .raised e
      | .timeout => .timeout
    match if segs = [] then .failed h else R.order h ⟨segs, false⟩ with
    | .done h' l => go h' l
    | .failed h' => go h' segs
    | .raised _ e => .raised e
    | .timeout => .timeout

/-- `Behalter.__init__` up to the rooms, SR_Vessel/SR_hauptteile.py:209-215, 233-328: the rooms made by `raum_erstellen`.
`inter` is the intersection of two sets of parts; the values of cached properties are calculated once;
`contained_cycles`, which is evaluated for every room, once as well (`ω`, `cfuel` are its random targets and rounds). -/
def behalterRooms (π : SetOrder) (fuel : ℕ) (T : TriEnv K) (more : KeepMore K) (inter : List ℕ → List ℕ → List ℕ)
    (ω : ℕ → ℕ → ℕ → ℕ → Pt K) (cfuel : ℕ) (h : Heap K) (G : List PLine) (walls : ℕ → List ℕ) :
    Outcome (Heap K × List (Raum ℕ)) :=
  match R.graphCycles π fuel T more [] h G with
  | .raised e => .raised e
  | .timeout => .timeout
  | .ok (h1, cycles) =>
    let sic := R.segmentsInCycles h1 cycles G
    match R.groupCycles walls h1 sic with
    | .raised e => .raised e
    | .timeout => .timeout
    | .ok (h2, _) =>
      match R.containedCycles (sic.map fun c => (c.1, c.2.map fun i => h2.vals ((G[i]?).elim [] PLine.segs))) ω cfuel with
      | .error (some e) => .raised e
      | .error none => .timeout
      | .ok con =>
        match raumErstellen inter (fun x y => decide (x = y) || R.plEq .polygonLine (h2.vals ((G[x]?).elim [] PLine.segs))
            .polygonLine (h2.vals ((G[y]?).elim [] PLine.segs))) sic (fun c => (con.lookup c).getD []) with
        | .error e => .raised e
        | .ok rooms => .ok (h2, rooms)

/-- the name of the room number `k` (from 0), SR_Vessel/SR_hauptteile.py:168 -/
def _root_.Srep.raumName (k : ℕ) : String := "R" ++ toString (k + 1)

end Rt
end
end Srep
