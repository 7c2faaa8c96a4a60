import Verif.Model.Heap
import Verif.Model.Intex

/-! Small functions around polygons: refinement of boundaries, rotation matrix, simplify, ordered copy. -/

namespace Srep
variable {K : Type} [Field K] [LinearOrder K] [IsStrictOrderedRing K] [FloorRing K]

/-- Python's `min` of a list; `none` is its ValueError -/
def minOf : List K → Option K
  | [] => none
  | a :: l => some (l.foldl min a)

/-- A polygon with its sure points, geometry/SR_polygon.py:274-298.  Every IntexPoint is a location with the segment it
belongs to; a point without a segment (`segment=None`) is not modelled. -/
structure MarkedPoly (K : Type) where
  segs : List (Seg K)
  internal : List (Pt K × Seg K)
  external : List (Pt K × Seg K)
  indifferent : List (Pt K × Seg K)

namespace Rt
variable (R : Rt K)

/-- the number of pieces of a constraint, `int(c.norm / _minlen) + 1`, geometry/SR_polygon.py:1200; the quotient is not
negative, so `int` is the floor -/
def refineDivs (m : K) (c : Seg K) : ℤ := ⌊R.div (R.norm c) m⌋ + 1

/-- `Delaunay2d.refine_boundaries`, geometry/SR_polygon.py:1196-1203: the list `self.points` after the call, by values -/
def refineBoundaries (cs : List (Seg K)) (pts : List (Pt K)) : Except PyErr (List (Pt K)) :=
  match minOf (cs.map R.norm) with
  | none => .error .value
  | some m =>
    if m = 0 then .error .zeroDiv
    else .ok (pts ++ cs.flatMap fun c => (R.divideLine c (R.refineDivs m c)).flatMap fun s => [s.i, s.j])

/-- `rotationsmatrix`, geometry/SR_polygon.py:1667-1670: the rows of the matrix -/
def rotationsmatrix (phi : K) : (K × K) × (K × K) :=
  let a := R.trig.radians phi
  ((R.trig.cos a, R.mul 1 (R.trig.sin a)), (R.mul (-1) (R.trig.sin a), R.trig.cos a))

/-- `simplify`, geometry/SR_polygon.py:1673-1679: the polygon after the call, by values -/
def simplify (P : MarkedPoly K) : MarkedPoly K :=
  let segs := R.removeOutliers P.segs
  { segs := segs
    internal := P.internal.filter fun x => segs.any fun s => R.seq s x.2
    external := P.external.filter fun x => segs.any fun s => R.seq s x.2
    indifferent := P.indifferent }

/-- what a call of `order` returns or raises; `none`: not finished -/
def OrderRes.answer : OrderRes K → Option (Except PyErr Bool)
  | .failed _ => some (.ok false)
  | .raised _ e => some (.error e)
  | .done _ _ => some (.ok true)
  | .timeout => none

/-- the memory after a call of `order` -/
def OrderRes.memory (h0 : Heap K) : OrderRes K → Heap K
  | .failed h => h
  | .raised h _ => h
  | .done h _ => h
  | .timeout => h0

/-- `ordered_copy`, geometry/SR_polygon.py:186-189: the memory afterwards and the result, which is what `order` of the
copy returns -/
def orderedCopy (h : Heap K) (P : PLine) : Heap K × Option (Except PyErr Bool) :=
  let r := R.order h.deepcopy ⟨P.segs.map (· + h.nseg), P.purged⟩
  (r.memory h.deepcopy, r.answer)

end Rt
end Srep
