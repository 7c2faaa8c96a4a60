import Verif.Model.Group
import Verif.Model.TriRel

/-!
# The choice of the rooms among several loops (`keep_base_polygons`, geometry/SR_polygon_group.py:612-752)

The polygons are elements of a type `α`, their triangles elements of a type `τ`; what is asked of them is in `PolyOps`.
Simplified: none of these questions raises an exception, and each has one answer (the tests of points are random); `order` does
not raise and a polygon ordered or copied is the same polygon.

The hash of a PolygonLine is the hash of a generator object made for it (geometry/SR_polygon.py:94-95), that is of its address:
it may be another one every time, or the same for different polygons.  So whether an element of a set is found is an argument
of the functions below.
-/

namespace Srep

section
variable {K : Type} [Field K] [LinearOrder K] [IsStrictOrderedRing K] [FloorRing K]

/-- what `keep_base_polygons` asks of polygons: `==`, `loose_equal`, `area`, `triangles`, `area` of a triangle, `congruent` or
`overlap` of two triangles, and whether all points of the second polygon are internal (external) points of the first -/
structure PolyOps (α τ K : Type) where
  eqv : α → α → Bool
  loose : α → α → Bool
  area : α → K
  tris : α → List τ
  triArea : τ → K
  clash : τ → τ → Bool
  inner : α → α → Bool
  outer : α → α → Bool

variable {α τ : Type}

namespace PolyOps
variable (o : PolyOps α τ K)

/-- the loops that fill `_removed_polygons`, geometry/SR_polygon_group.py:639-642, over the pairs of polygons; `mem n x S` is
the answer to the `n`-th question `x in S` -/
def looseRemoved (mem : ℕ → α → List α → Bool) : ℕ → List (α × α) → List α → List α
  | _, [], S => S
  | n, q :: qs, S => looseRemoved mem (n + 1) qs (if o.loose q.1 q.2 && !mem n q.2 S then S ++ [q.1] else S)

/-- the pairs `pe`, `pz` of the two loops, geometry/SR_polygon_group.py:639-640 -/
def loosePairs (l : List α) : List (α × α) := l.flatMap fun x => (l.filter fun y => !o.eqv x y).map fun y => (x, y)

/-- the polygons not in `_removed_polygons`, geometry/SR_polygon_group.py:638-643 -/
def removeLoose (mem : ℕ → α → List α → Bool) (l : List α) : List α :=
  let S := o.looseRemoved mem 0 (o.loosePairs l) []
  (l.zipIdx.filter fun x => !mem ((o.loosePairs l).length + x.2) x.1 S).map Prod.fst

/-- is there a pair of triangles that clash -/
def anyClash (ts : List τ) : Bool := (twoOf ts).any fun x => o.clash x.1 x.2

/-- `_overlapping_polygonpairs`, geometry/SR_polygon_group.py:660-661 (`disjunct`: geometry/SR_polygon.py:140-148) -/
def overlapPairs (l : List α) : List (α × α) := (twoOf l).filter fun x => o.anyClash (o.tris x.1 ++ o.tris x.2)

/-- the combinations put into `_ret`, geometry/SR_polygon_group.py:663-685; `sub y x` is the answer to
`set(y).issubset(set(x))`.  A combination is found once only. -/
def candidates (sub : α × α → List α → Bool) (l : List α) : List (List α) :=
  (List.range l.length).flatMap fun k =>
    ((combos (k + 1) l).filter fun c => !(o.overlapPairs l).any fun y => sub y c).filter fun c => !o.anyClash (c.flatMap o.tris)

/-- the polygons left out, geometry/SR_polygon_group.py:710 -/
def leftOut (ps c : List α) : List α := ps.filter fun x => !(c.any fun y => o.eqv x y) && !(c.any fun y => o.loose x y)

/-- `itertools.permutations(l, 2)` -/
def _root_.Srep.perms2 (l : List α) : List (α × α) :=
  l.zipIdx.flatMap fun a => (l.zipIdx.filter fun b => decide (b.2 ≠ a.2)).map fun b => (a.1, b.1)

/-- the loop that fills `_to_add`, geometry/SR_polygon_group.py:728-748, for the polygon `x` left out -/
def toAdd (c : List α) (x : α) (qs : List (α × α)) : List α :=
  qs.foldl (fun add q => if o.eqv x q.1 && (o.inner q.1 q.2 || o.outer q.1 q.2) && !(add.any fun y => o.eqv q.1 y) &&
    !(c.any fun y => o.eqv q.1 y) then add ++ [q.1] else add) []

end PolyOps

namespace Rt
variable (R : Rt K)

/-- the comparison of the keys `(len(x), sum([p.area for p in x]))`, geometry/SR_polygon_group.py:689 -/
def keyLt (o : PolyOps α τ K) (c d : List α) : Bool :=
  decide (c.length < d.length) ||
    (decide (c.length = d.length) && decide (R.psum (c.map o.area) < R.psum (d.map o.area)))

/-- the first one after the sort with `reverse=True`, geometry/SR_polygon_group.py:687-693: of those with the largest key the
first in the order of iteration of the set (the sort is stable); `none` is IndexError -/
def bestComb (o : PolyOps α τ K) : List (List α) → Option (List α)
  | [] => none
  | c :: cs => some (cs.foldl (fun b d => if R.keyLt o b d then d else b) c)

/-- `keep_base_polygons` of two or more polygons, geometry/SR_polygon_group.py:632-752; `σ` is the order of iteration of the
set `_ret` -/
def keepMore (o : PolyOps α τ K) (mem : ℕ → α → List α → Bool) (sub : α × α → List α → Bool)
    (σ : List (List α) → List (List α)) (l : List α) : Except PyErr (List α) :=
  let ps := R.keepByArea o.eqv o.area (fun p => (o.tris p).map o.triArea) (o.removeLoose mem l)
  match R.bestComb o (σ (o.candidates sub ps)) with
  | none => .error .index
  | some c =>
    if ps.length = c.length then .ok c
    else match o.leftOut ps c with
      | [x] => .ok (c ++ o.toAdd c x (perms2 ps))
      | _ => .error .generic

end Rt
end
end Srep
