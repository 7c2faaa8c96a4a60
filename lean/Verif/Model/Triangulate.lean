import Verif.Model.Delaunay
import Mathlib.Data.List.Sort

/-!
# `Delaunay2d.triangulate` as a whole

`Model/Delaunay.lean` has the steps; here they are put together.  Python's sets are traversed in an unspecified order, so the
orders are an argument of the model.
-/

namespace Srep

/-- The orders in which the sets are traversed while the point `ip` is added: `boundaryEdges` (`for edge in
self.boundaryEdges`, geometry/SR_polygon.py:1483), the edges of the `k`-th round of `flipEdges` (`for edge in edgeSet`,
line 1463), and the numbers that `_pts.pop()` gives (line 1292). -/
structure Orders where
  bnd : ℤ → List (ℤ × ℤ) → List (ℤ × ℤ)
  edges : ℤ → ℕ → List (ℤ × ℤ) → List (ℤ × ℤ)
  pops : ℕ → List ℤ

/-- `range(3, n)`, geometry/SR_polygon.py:1290 -/
def fromThree (n : ℕ) : List ℤ := (List.range' 3 (n - 3)).map fun i : ℕ => (i : ℤ)

/-- the orders are orders: nothing is lost, invented or repeated -/
structure Orders.Valid (O : Orders) : Prop where
  bnd : ∀ i l, (O.bnd i l).Perm l
  edges : ∀ i k l, (O.edges i k l).Perm l
  pops : ∀ n, (O.pops n).Perm (fromThree n)

/-- the edges of the triangles, as keys -/
def Mesh.keys {K : Type} (M : Mesh K) : List (ℤ × ℤ) :=
  (M.tris.flatMap fun T => [makeKey T.a T.b, makeKey T.b T.c, makeKey T.a T.c]).dedup

section
variable {K : Type} [Field K] [LinearOrder K] [IsStrictOrderedRing K] [FloorRing K]
namespace Rt
variable (R : Rt K)

/-- the mean of the points, geometry/SR_polygon.py:1241-1244: `cg += pt` is `Point.__add__`, the quotients go through
`_set_coords` -/
def centroid (ps : List (Pt K)) : Except PyErr (Pt K) :=
  if ps = [] then .error .zeroDiv
  else
    let s := ps.foldl R.ptAdd ⟨0, 0⟩
    .ok (R.mkPt (R.div s.x (ps.length : K)) (R.div s.y (ps.length : K)))

/-- `self.points.sort(key=distanceSquare)`, geometry/SR_polygon.py:1246-1250; the sort is stable -/
def sortedFrom (c : Pt K) (ps : List (Pt K)) : List (Pt K) :=
  ps.insertionSort fun p q => R.sq (R.distance c p) ≤ R.sq (R.distance c q)

/-- `flipEdges` with the orders of its rounds, geometry/SR_polygon.py:1443-1466; `k` counts the rounds, `none`: not
finished after `fuel` rounds -/
def flipEdgesBy (O : Orders) (ip : ℤ) (M : Mesh K) (es : List (ℤ × ℤ)) (k : ℕ) : ℕ → Option (Except PyErr (Mesh K))
  | 0 => none
  | fuel + 1 =>
    match R.flipRound M (O.edges ip k es) with
    | .error x => some (.error x)
    | .ok (M1, []) => some (.ok M1)
    | .ok (M1, es1) => flipEdgesBy O ip M1 es1 (k + 1) fuel

/-- `addPoint`, geometry/SR_polygon.py:1468-1527: new triangles at the visible edges, then flips of all edges in the table
(the keys of the table are the edges of the triangles: `C120_keys`) -/
def addPointBy (O : Orders) (M : Mesh K) (ip : ℤ) (fuel : ℕ) : Option (Except PyErr (Mesh K)) :=
  match R.addPoint { M with bnd := O.bnd ip M.bnd } ip with
  | .error x => some (.error x)
  | .ok M1 => R.flipEdgesBy O ip M1 M1.keys 0 fuel

/-- the last loop of `triangulate`, geometry/SR_polygon.py:1290-1292 -/
def addAll (O : Orders) (fuel : ℕ) : List ℤ → Mesh K → Option (Except PyErr (Mesh K))
  | [], M => some (.ok M)
  | i :: l, M =>
    match R.addPointBy O M i fuel with
    | none => none
    | some (.error x) => some (.error x)
    | some (.ok M1) => addAll O fuel l M1

/-- `triangulate` of a new `Delaunay2d` object, geometry/SR_polygon.py:1234-1292; `ps` is what `update_points` leaves in
`self.points`: the nodes of the polygon in any order (`nr_added_points` is 0, so no random points are added). -/
def delaunay (O : Orders) (ps : List (Pt K)) (fuel : ℕ) : Option (Except PyErr (Mesh K)) :=
  match R.centroid ps with
  | .error x => some (.error x)
  | .ok c =>
    match R.firstMesh (R.sortedFrom c ps) with
    | none => some (.ok ⟨R.dropFlat (R.sortedFrom c ps), [], E2T.empty, []⟩)
    | some (.error x) => some (.error x)
    | some (.ok M) => R.addAll O fuel (O.pops M.points.length) M

end Rt
end
end Srep
