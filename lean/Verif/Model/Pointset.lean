import Verif.Model.Polygon

/-!
# `segments_from_pointset` (geometry/SR_polygon.py:1583-1606)
-/

namespace Srep

section
variable {K : Type} [Field K] [LinearOrder K] [IsStrictOrderedRing K] [FloorRing K]

/-- the LineSegments between consecutive Points, geometry/SR_polygon.py:1596-1600; `isvalid` of a LineSegment on valid Points
is always True -/
def joinPts (ps : List (Pt K)) : List (Seg K) := (ps.zip ps.tail).map fun x => ⟨x.1, x.2, .line⟩

namespace Rt
variable (R : Rt K)

/-- the rounds of `for i in range(len(_rest)-1)`, geometry/SR_polygon.py:1591-1594, with the Points `ps` found so far.  The
distances are measured from the first Point `p`.  `_rest.remove(ps[-1])` finds its argument and has no effect, as `_rest` is
assigned anew afterwards. -/
def nearestNext (points : List (Pt K)) (p : Pt K) : ℕ → List (Pt K) → Except PyErr (List (Pt K))
  | 0, ps => .ok ps
  | n + 1, ps =>
    let rest := points.filter fun x => !ps.any fun q => R.peq q x
    match rest.insertionSort fun x y => R.distance x p ≤ R.distance y p with
    | [] => .error .index
    | x :: _ => nearestNext points p n (ps ++ [x])

/-- the Points in the order in which they are joined, beginning with `p`, geometry/SR_polygon.py:1588-1594 -/
def pointPath (points : List (Pt K)) (p : Pt K) : Except PyErr (List (Pt K)) := R.nearestNext points p (points.length - 1) [p]

/-- `sum([x.norm for x in ls])`, geometry/SR_polygon.py:1601 -/
def pathLen (l : List (Seg K)) : K := R.psum (l.map R.norm)

/-- `segments_from_pointset`, geometry/SR_polygon.py:1583-1606; `starts` is `set(points)` in the order of iteration.  If no
path is shorter than 10e10, `_ret` is not assigned: UnboundLocalError. -/
def segmentsFromPointset (starts points : List (Pt K)) : Except PyErr (List (Seg K)) := do
  let best ← starts.foldlM (fun (b : K × Option (List (Seg K))) p => do
    let ps ← R.pointPath points p
    if R.pathLen (joinPts ps) < b.1 then pure (R.pathLen (joinPts ps), some (joinPts ps)) else pure b) ((10 : K) ^ 11, none)
  match best.2 with
  | none => .error .name
  | some l => .ok l

end Rt
end
end Srep
