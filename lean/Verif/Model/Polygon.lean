import Verif.Model.Line

/-!
# Polylines, value level (geometry/SR_polygon.py)

A polyline is its list of (valid) segments.  Object identity, `purge`, the in-place transformations and
`order` are in `Model/Heap.lean`.
-/

namespace Srep

/-- class of a polyline object -/
inductive PolyCls | polygonLine | triangle | other (n : ℕ)
  deriving DecidableEq, Repr

/-- the `whichend` argument of `find_segment_by_point` -/
inductive WhichEnd | start | finish | both | unknown
  deriving DecidableEq, Repr

section
variable {K : Type} [Field K] [LinearOrder K] [IsStrictOrderedRing K] [FloorRing K]

/-- comparison of the sort keys `(z.x, z.y)`, geometry/SR_polygon.py:302 -/
def ptLe (p q : Pt K) : Prop := p.x < q.x ∨ (p.x = q.x ∧ p.y ≤ q.y)

instance : DecidableRel (ptLe (K := K)) := fun p q => by unfold ptLe; infer_instance

/-- endpoints of all segments in polyline order: `chain(*[s.ij for s in segments])` -/
def endPts (l : List (Seg K)) : List (Pt K) := l.flatMap fun s => [s.i, s.j]

/-- `all_points`, geometry/SR_polygon.py:299-302 (`sorted` is stable) -/
def allPoints (l : List (Seg K)) : List (Pt K) := (endPts l).insertionSort ptLe

namespace Rt
variable (R : Rt K)

/-- `point_set`, geometry/SR_polygon.py:305-309 -/
def pointSet (l : List (Seg K)) : List (Pt K) := (R.pset (allPoints l)).insertionSort ptLe

/-- `PolygonLine.__eq__`, geometry/SR_polygon.py:42-48 -/
def plEq (c : PolyCls) (l : List (Seg K)) (d : PolyCls) (m : List (Seg K)) : Bool :=
  decide (d = c) && decide (l.length = m.length) && (l.zip m).all fun p => R.seq p.1 p.2

/-- `loose_subset`, geometry/SR_polygon.py:50-62 -/
def plLooseSubset (l m : List (Seg K)) : Bool :=
  (R.pset (endPts m)).all fun p => R.pmem p (R.pset (endPts l))

/-- `loose_equal`, geometry/SR_polygon.py:64-89.  With `direction_matters` the last line is `all(<bool>)`,
a TypeError. -/
def plLooseEqual (l m : List (Seg K)) (directionMatters : Bool) : Except PyErr Bool :=
  if l.length ≠ m.length then .ok false
  else if directionMatters then .error .type
  else .ok (l.all fun x => m.any fun y => R.looseEqual y x || R.looseEqual y.lineReversed x)

/-- `p in s.ij` (a tuple: identity or `==`) -/
def onEnds (p : Pt K) (s : Seg K) : Bool := R.peq s.i p || R.peq s.j p

/-- `find_segment_by_point`, geometry/SR_polygon.py:112-131 -/
def findSegment (l : List (Seg K)) (p : Pt K) (w : WhichEnd) : Except PyErr (List (Seg K)) :=
  let sq := l.filter (R.onEnds p)
  if sq = [] then .ok []
  else match w with
    | .start => .ok (sq.filter fun x => R.peq p x.i)
    | .finish => .ok (sq.filter fun x => R.peq p x.j)
    | .both => .ok (sq.filter (R.onEnds p))
    | .unknown => .error .generic

/-- `neighbour`, geometry/SR_polygon.py:108-110 -/
def neighbour (l : List (Seg K)) (p : Pt K) : List (Pt K) :=
  let sg := (l.filter (R.onEnds p)).filter (R.onEnds p)
  ((sg.filter fun x => !R.peq x.i p).map Seg.i) ++ ((sg.filter fun x => !R.peq x.j p).map Seg.j)

/-- Python `sum` of floats -/
def psum (l : List K) : K := l.foldl R.add 0

/-- `midpoint` of a polyline, geometry/SR_polygon.py:133-138 -/
def plMidpoint (l : List (Seg K)) : Except PyErr (Pt K) :=
  let ps := R.pointSet l
  if ps = [] then .error .zeroDiv
  else .ok (R.mkPt (R.div (R.psum (ps.map Pt.x)) ps.length) (R.div (R.psum (ps.map Pt.y)) ps.length))

/-- `crossing_lines`, geometry/SR_polygon.py:310-314: ordered pairs of different positions in the list -/
def crossingLines (l : List (Seg K)) : List (Seg K × Seg K) :=
  (l.zipIdx.flatMap fun a => (l.zipIdx.filter fun b => decide (b.2 ≠ a.2)).map fun b => (a.1, b.1)).filter
    fun p => R.intersectionOnSegment p.1 p.2

/-- `iscontinuous`, geometry/SR_polygon.py:345-350 -/
def isContinuous (l : List (Seg K)) : Bool := (l.zip l.tail).all fun p => R.continuous p.1 p.2

/-- `isvalid` of a polyline of valid segments, geometry/SR_polygon.py:316-335 -/
def plValid (l : List (Seg K)) : Bool :=
  R.isContinuous l && decide (1 ≤ l.length) && decide (R.crossingLines l = [])

/-- `isclosed`, geometry/SR_polygon.py:378-387 (IndexError on an empty segment list) -/
def isClosed (l : List (Seg K)) : Except PyErr Bool :=
  if R.isContinuous l then
    match l.head?, l.getLast? with
    | some a, some b => .ok (R.peq a.i b.j)
    | _, _ => .error .index
  else .ok false

/-- `close`, geometry/SR_polygon.py:428-434 (value level) -/
def close (l : List (Seg K)) : Except PyErr (List (Seg K)) :=
  match R.isClosed l with
  | .error e => .error e
  | .ok true => .ok l
  | .ok false =>
    match l.head?, l.getLast? with
    | some a, some b => .ok (l ++ [⟨b.j, a.i, .line⟩])
    | _, _ => .error .index

/-- `cps`, geometry/SR_polygon.py:436-445 (of a non-empty polyline) -/
def cps (l : List (Seg K)) : List K := l.zipWith R.cross (l.tail ++ l.take 1)

/-- `isconvex`, geometry/SR_polygon.py:447-456 -/
def isConvex (l : List (Seg K)) : Except PyErr Bool :=
  if !R.plValid l then .error .assertion
  else .ok ((R.cps l).all (fun x => decide (0 ≤ x)) || (R.cps l).all fun x => decide (x ≤ 0))

/-- `iscw`, geometry/SR_polygon.py:458-477 -/
def isCw (l : List (Seg K)) : Except PyErr Bool :=
  match R.isConvex l with
  | .error e => .error e
  | .ok true => .ok (!decide (0 < R.psum (R.cps l)))
  | .ok false =>
    let ps := ((R.cps l).filter fun x => decide (0 ≤ x)).length
    let ns := ((R.cps l).filter fun x => decide (x ≤ 0)).length
    if ns < ps then .ok false else if ps < ns then .ok true else .error .generic

/-- `isccw`, geometry/SR_polygon.py:479-482 -/
def isCcw (l : List (Seg K)) : Except PyErr Bool := (R.isCw l).map not

/-- `bounding_box`, geometry/SR_polygon.py:546-558, with its start values ±10e10 -/
def _root_.Srep.boundingBox (l : List (Seg K)) : (K × K) × (K × K) :=
  l.foldl (fun b s => ((min b.1.1 (min s.i.x s.j.x), max b.1.2 (max s.i.x s.j.x)),
    (min b.2.1 (min s.i.y s.j.y), max b.2.2 (max s.i.y s.j.y))))
    ((10 ^ 11, -10 ^ 11), (10 ^ 11, -10 ^ 11))

/-- `s in d` for a set of LineSegments: same hash (of the endpoint tuples; simplified: equal Point hashes)
and `==` -/
def smem (s : Seg K) (d : List (Seg K)) : Bool :=
  d.any fun o => decide (R.phash o.i = R.phash s.i) && decide (R.phash o.j = R.phash s.j) && R.seq o s

/-- `set(segments)` -/
def sset (l : List (Seg K)) : List (Seg K) :=
  l.foldl (fun d s => if R.smem s d then d else d ++ [s]) []

/-- number of crossings counted for one target, geometry/SR_polygon.py:504-521 -/
def crossCount (l : List (Seg K)) (p t : Pt K) : ℕ :=
  ((R.sset l).filter fun s => R.intersectionOnSegment ⟨p, t, .line⟩ s).length

/-- the `while` loop of `is_internal_point`, geometry/SR_polygon.py:499-531, for a stream `ω` of random
targets; `none`: not finished after `fuel` rounds of three targets each -/
def internalLoop (l : List (Seg K)) (p : Pt K) (ω : ℕ → Pt K) : ℕ → ℕ → Option Bool
  | 0, _ => none
  | fuel + 1, k =>
    let c := fun i => R.crossCount l p (ω (3 * k + i)) % 2
    if c 1 = c 0 ∧ c 2 = c 0 then some (decide (c 0 = 1)) else internalLoop l p ω fuel (k + 1)

/-- `is_internal_point`, geometry/SR_polygon.py:484-531 (`p` valid) -/
def plInternal (l : List (Seg K)) (p : Pt K) (ω : ℕ → Pt K) (fuel : ℕ) : Option Bool :=
  if (R.pointSet l).any (fun q => R.peq q p) then some false else R.internalLoop l p ω fuel 0

/-- `is_external_point`, geometry/SR_polygon.py:533-534 -/
def plExternal (l : List (Seg K)) (p : Pt K) (ω : ℕ → Pt K) (fuel : ℕ) : Option Bool :=
  (R.plInternal l p ω fuel).map not

/-- `is_on_boundary`, geometry/SR_polygon.py:536-544: two independent evaluations of the internal test -/
def plOnBoundary (l : List (Seg K)) (p : Pt K) (ω ω' : ℕ → Pt K) (fuel : ℕ) : Option Bool :=
  match R.plInternal l p ω fuel with
  | none => none
  | some true => some false
  | some false =>
    match R.plExternal l p ω' fuel with
    | none => none
    | some true => some false
    | some false =>
      if (R.pointSet l).any (fun q => R.peq q p) then some true
      else if l.any (fun s => R.isInternal s p && R.isOnLine s p) then some true
      else some false

/-- admissible values of `Point((random.uniform(x, 500 * x), random.uniform(y, 30 * y)))` for the upper
bounds x, y of the bounding box, geometry/SR_polygon.py:496-506 -/
def Target (l : List (Seg K)) (t : Pt K) : Prop :=
  ∃ u v : K, let x := (boundingBox l).1.2; let y := (boundingBox l).2.2
    min x (R.mul 500 x) ≤ u ∧ u ≤ max x (R.mul 500 x) ∧ min y (R.mul 30 y) ≤ v ∧ v ≤ max y (R.mul 30 y) ∧
    t = R.mkPt u v

/-- `remove_outlier_segments`, geometry/SR_polygon.py:1682-1686 -/
def removeOutlier (l : List (Seg K)) : List (Seg K) :=
  let ap := allPoints l
  let sp := ap.filter fun x => decide ((ap.filter fun y => R.peq y x).length = 1)
  l.filter fun s => !([s.i, s.j].any fun y => sp.any fun z => R.peq z y)

/-- the node order used by `polygon_from_nodes(cw=True)`, geometry/SR_polygon.py:1695-1696 -/
def _root_.Srep.cwNodes {α : Type} : List α → Except PyErr (List α)
  | [] => .error .index
  | a :: l => .ok (a :: (a :: l).reverse.dropLast)

/-- `polygon_from_nodes`, geometry/SR_polygon.py:1689-1712, for numeric node coordinates (value level).
The empty result stands for `PolygonLine([])`, i.e. the default polygon of two invalid segments. -/
def polygonFromNodes (nodes : List (K × K)) (cw : Bool) : Except PyErr (List (Seg K)) :=
  match (if cw then cwNodes nodes else .ok nodes) with
  | .error e => .error e
  | .ok ns => .ok (chain (ns.map fun n => R.mkPt n.1 n.2))

/-- `PolygonLine.__init__`, geometry/SR_polygon.py:24-34: `none` is the default object, made of two
`LineSegment()` with invalid points, which replaces an empty argument -/
def _root_.Srep.polyInit (l : List (Seg K)) : Option (List (Seg K)) := if l = [] then none else some l

/-- `cross` inside `convex_hull`, geometry/SR_polygon.py:1791-1792 -/
def hullCross (o a b : K × K) : K :=
  R.sub (R.mul (R.sub a.1 o.1) (R.sub b.2 o.2)) (R.mul (R.sub a.2 o.2) (R.sub b.1 o.1))

/-- the `while ... pop()` of `convex_hull` on the reversed stack, geometry/SR_polygon.py:1797-1798 -/
def hullPop (p : K × K) : List (K × K) → List (K × K)
  | a :: o :: l => if R.hullCross o a p ≤ 0 then hullPop p (o :: l) else a :: o :: l
  | l => l

/-- one half of the hull (top of the stack first), geometry/SR_polygon.py:1795-1799 -/
def hullHalf (ps : List (K × K)) : List (K × K) :=
  ps.foldl (fun st p => p :: R.hullPop p st) []

/-- tuples compare lexicographically -/
def _root_.Srep.pairLe (p q : K × K) : Prop := p.1 < q.1 ∨ (p.1 = q.1 ∧ p.2 ≤ q.2)

instance : DecidableRel (pairLe (K := K)) := fun p q => by unfold pairLe; infer_instance

/-- `sorted(set(point_set))`, geometry/SR_polygon.py:1781 -/
def _root_.Srep.hullSorted (ps : List (K × K)) : List (K × K) := ps.dedup.insertionSort pairLe

/-- node list handed to `polygon_from_nodes`: `lower[:-1] + upper[:-1]`, geometry/SR_polygon.py:1795-1811 -/
def hullNodes (ps : List (K × K)) : List (K × K) :=
  ((R.hullHalf (hullSorted ps)).reverse.dropLast) ++ ((R.hullHalf (hullSorted ps).reverse).reverse.dropLast)

/-- result of `convex_hull`, geometry/SR_polygon.py:1769-1814: the sorted list itself if it has at most one
member, else a closed polyline (value level; `purge` does not change values) -/
def convexHull (ps : List (K × K)) : (List (K × K)) ⊕ Except PyErr (List (Seg K)) :=
  if (hullSorted ps).length ≤ 1 then .inl (hullSorted ps)
  else .inr (match R.polygonFromNodes (R.hullNodes ps) false with
    | .error e => .error e
    | .ok l => R.close l)

/-- `Triangle.area`, geometry/SR_polygon.py:1028-1040 -/
def heron (a b c : Seg K) : Except PyErr K :=
  let s := R.div (R.psum [R.norm a, R.norm b, R.norm c]) 2
  let d := R.mul (R.mul (R.mul s (R.sub s (R.norm a))) (R.sub s (R.norm b))) (R.sub s (R.norm c))
  if 0 ≤ d then .ok (R.sqrt d) else if |d| < R.eps then .ok 0 else .error .value

/-- `congruent`, geometry/SR_polygon.py:1066-1072; `none` is the implicitly returned None -/
def congruent (l m : List (Seg K)) : Option Bool :=
  let a := R.pointSet l
  let b := R.pointSet m
  if a.length = b.length ∧ (a.zip b).all (fun p => R.peq p.1 p.2) then some true else none

end Rt
end
end Srep
