import Verif.Model.Point
import Mathlib.Data.List.Sort

/-!
# Line segments, value level (geometry/SR_line.py)

All points are valid here, so the `assert ...isvalid` lines hold and are left out.
Mutation and object identity are in `Model/Heap.lean`.
-/

namespace Srep

/-- class of a segment object: LineSegment, or its subclasses Wall and NonWall
(SR_Vessel/SR_hauptteile.py:150-161) -/
inductive SegCls | line | wall | nonWall
  deriving DecidableEq, Repr

/-- A valid LineSegment: endpoints i, j (geometry/SR_line.py:24-28,82-95) and its class. -/
structure Seg (K : Type) where
  i : Pt K
  j : Pt K
  cls : SegCls := .line
  deriving DecidableEq, Repr

/-- What `overlap`/`common_part` return besides None. `segN` is `LineSegment(*points)`. -/
inductive Part (K : Type)
  | pt (p : Pt K)
  | seg (s : Seg K)
  | segN (ps : List (Pt K))
  deriving DecidableEq, Repr

section
variable {K : Type} [Field K] [LinearOrder K] [IsStrictOrderedRing K] [FloorRing K]

namespace Rt
variable (R : Rt K)

/-! ### Python sets of Points -/

/-- `p in s` for a set `s` of Points: same hash and `==`. -/
def pmem (p : Pt K) (s : List (Pt K)) : Bool :=
  s.any fun q => decide (R.phash q = R.phash p) && R.peq q p

/-- `set(l)`: the first of equal elements is kept (elements in insertion order). -/
def pset (l : List (Pt K)) : List (Pt K) :=
  l.foldl (fun s p => if R.pmem p s then s else s ++ [p]) []

/-- `a == b` for sets. -/
def psetEq (a b : List (Pt K)) : Bool := decide (a.length = b.length) && a.all fun p => R.pmem p b

/-- `a.intersection(b)` for sets: CPython iterates over the smaller one (over `b` if equally big). -/
def psetInter (a b : List (Pt K)) : List (Pt K) :=
  if b.length > a.length then a.filter (fun p => R.pmem p b) else b.filter (fun p => R.pmem p a)

/-! ### Segments -/

/-- `delta_x`, geometry/SR_line.py:97-100 -/
def dx (s : Seg K) : K := R.sub s.j.x s.i.x
/-- `delta_y`, geometry/SR_line.py:102-105 -/
def dy (s : Seg K) : K := R.sub s.j.y s.i.y
/-- `norm`, geometry/SR_line.py:107-110 -/
def norm (s : Seg K) : K := R.sqrt (R.add (R.sq (R.dx s)) (R.sq (R.dy s)))

/-- `LineSegment.__eq__`, geometry/SR_line.py:39-47 -/
def seq (s o : Seg K) : Bool := decide (o.cls = s.cls) && R.peq s.i o.i && R.peq s.j o.j

/-- `loose_equal`, geometry/SR_line.py:49-56 -/
def looseEqual (s o : Seg K) : Bool :=
  decide (o.cls = s.cls) && R.psetEq (R.pset [s.i, s.j]) (R.pset [o.i, o.j]) &&
    decide (R.norm s = R.norm o)

/-- `isnull`, geometry/SR_line.py:144-149 -/
def isnull (s : Seg K) : Bool := R.peq s.i s.j

/-- `unitvector`, geometry/SR_line.py:117-123 -/
def unitvector (s : Seg K) : Except PyErr (K × K) :=
  if R.isnull s then .ok (0, 0)
  else if R.norm s = 0 then .error .zeroDiv
  else .ok (R.div (R.dx s) (R.norm s), R.div (R.dy s) (R.norm s))

/-- `crossproduct`, geometry/SR_line.py:125-133 -/
def cross (s o : Seg K) : K := R.sub (R.mul (R.dx s) (R.dy o)) (R.mul (R.dy s) (R.dx o))

/-- `dotproduct`, geometry/SR_line.py:135-142 -/
def dot (s o : Seg K) : K := R.add (R.mul (R.dx s) (R.dx o)) (R.mul (R.dy s) (R.dy o))

/-- value computed by `crossproduct_commonstart` after its asserts, geometry/SR_line.py:542 -/
def crossStartVal (s o : Seg K) : K :=
  R.sub (R.mul (R.sub s.j.x s.i.x) (R.sub o.j.y s.i.y)) (R.mul (R.sub s.j.y s.i.y) (R.sub o.j.x s.i.x))

/-- `crossproduct_commonstart`, geometry/SR_line.py:530-542 -/
def crossStart (s o : Seg K) : Except PyErr K :=
  if R.peq s.i o.i then .ok (R.crossStartVal s o) else .error .assertion

/-- `x % m` for floats, `m > 0` -/
def fmod (x m : K) : K := R.fl (x - m * ⌊x / m⌋)

/-- `direction`, geometry/SR_line.py:151-161 -/
def direction (s : Seg K) : K :=
  let r := R.trig.degrees (R.trig.atan2 (R.dy s) (R.dx s))
  if r < 0 then R.add 360 r else r

/-- `opposite_direction`, geometry/SR_line.py:225-235 -/
def oppositeDirection (s o : Seg K) : Bool :=
  decide (R.fmod (R.add (R.direction s) 180) 360 = R.direction o)

/-- `is_internal_point`, geometry/SR_line.py:163-177 (first comparison strict, the others not) -/
def isInternal (s : Seg K) (p : Pt K) : Bool :=
  decide (R.sub (min s.i.x s.j.x) R.eps < p.x) && decide (p.x ≤ R.add (max s.i.x s.j.x) R.eps) &&
  decide (R.sub (min s.i.y s.j.y) R.eps ≤ p.y) && decide (p.y ≤ R.add (max s.i.y s.j.y) R.eps)

/-- `is_point_on_line`, geometry/SR_line.py:179-194 (the assert of `crossproduct_commonstart` compares
`self.i` with itself) -/
def isOnLine (s : Seg K) (p : Pt K) : Bool :=
  R.peq p s.i || R.peq p s.j || decide (|R.crossStartVal s ⟨s.i, p, .line⟩| < R.eps)

/-- `is_point_to_right`, geometry/SR_line.py:196-210 -/
def isRight (s : Seg K) (p : Pt K) : Bool := decide (R.cross s ⟨s.i, p, .line⟩ < 0)

/-- `is_point_to_left`, geometry/SR_line.py:212-223 -/
def isLeft (s : Seg K) (p : Pt K) : Bool := if R.isOnLine s p then false else !R.isRight s p

/-- `is_parallel`, geometry/SR_line.py:237-247 -/
def isParallel (s o : Seg K) : Bool := decide (R.cross s o = 0)

/-- `is_intersecting`, geometry/SR_line.py:249-256 -/
def isIntersecting (s o : Seg K) : Bool := !R.isParallel s o

/-- `line_point_distance`, geometry/SR_line.py:258-267 -/
def linePointDistance (s : Seg K) (p : Pt K) : Except PyErr K :=
  if R.norm s = 0 then .error .zeroDiv
  else .ok (R.div
    |R.sub (R.add (R.sub (R.mul (R.sub s.j.y s.i.y) p.x) (R.mul (R.sub s.j.x s.i.x) p.y))
      (R.mul s.j.x s.i.y)) (R.mul s.j.y s.i.x)| (R.norm s))

/-- `touch`, geometry/SR_line.py:282-298 -/
def touch (s o : Seg K) : Bool :=
  decide ((R.psetInter (R.pset [s.i, s.j]) (R.pset [o.i, o.j])).length = 1) ||
    [s.i, s.j].any fun a => [o.i, o.j].any fun b => decide (R.distance a b < R.eps)

/-- `continuous`, geometry/SR_line.py:269-280 -/
def continuous (s o : Seg K) : Bool := R.touch s o && (R.peq s.j o.i || R.peq s.i o.j)

/-- `is_collinear`, geometry/SR_line.py:446-448 -/
def isCollinear (s o : Seg K) : Bool := R.isOnLine s o.i && R.isOnLine s o.j

/-- `sorted(ps, key=lambda x: distance(Point((0, 0)), x))` -/
def sortByOrigin (ps : List (Pt K)) : List (Pt K) :=
  ps.insertionSort fun a b => R.distance (R.mkPt 0 0) a ≤ R.distance (R.mkPt 0 0) b

/-- `overlap`, geometry/SR_line.py:300-367 -/
def overlap (s o : Seg K) : Except PyErr (Bool × Option (Part K)) :=
  if !R.isParallel s o then .ok (false, none)
  else if !R.isCollinear s o then .ok (false, none)
  else if !(R.isInternal s o.i || R.isInternal s o.j) && !(R.isInternal o s.i || R.isInternal o s.j)
      && !R.touch s o then .ok (false, none)
  else if R.looseEqual s o then .ok (true, some (.seg s))
  else if R.touch s o then
    match R.psetInter (R.pset [s.i, s.j]) (R.pset [o.i, o.j]) with
    | [cp] =>
      match [s.i, s.j, o.i, o.j].filter (fun x => !R.peq x cp) with
      | q0 :: q1 :: _ =>
        let l1 : Seg K := ⟨cp, q0, .line⟩
        let l2 : Seg K := ⟨cp, q1, .line⟩
        if R.direction l1 = R.direction l2 then
          .ok (true, some (.seg (if R.norm l1 ≤ R.norm l2 then l1 else l2)))
        else .ok (true, some (.pt cp))
      | _ => .error .index
    | _ => .error .generic
  else if R.isInternal s o.i && R.isInternal s o.j then .ok (true, some (.seg o))
  else if R.isInternal o s.i && R.isInternal o s.j then .ok (true, some (.seg s))
  else .ok (true, some (.segN (R.sortByOrigin
    ([o.i, o.j].filter (R.isInternal s) ++ [s.i, s.j].filter (R.isInternal o)))))

/-- the denominator of `intersection_point`, geometry/SR_line.py:392 -/
def ipDen (s o : Seg K) : K :=
  R.sub (R.mul (R.sub s.i.x s.j.x) (R.sub o.i.y o.j.y)) (R.mul (R.sub s.i.y s.j.y) (R.sub o.i.x o.j.x))
/-- geometry/SR_line.py:393 -/
def ipNumX (s o : Seg K) : K :=
  R.sub (R.mul (R.sub (R.mul s.i.x s.j.y) (R.mul s.i.y s.j.x)) (R.sub o.i.x o.j.x))
    (R.mul (R.sub s.i.x s.j.x) (R.sub (R.mul o.i.x o.j.y) (R.mul o.i.y o.j.x)))
/-- geometry/SR_line.py:394 -/
def ipNumY (s o : Seg K) : K :=
  R.sub (R.mul (R.sub (R.mul s.i.x s.j.y) (R.mul s.i.y s.j.x)) (R.sub o.i.y o.j.y))
    (R.mul (R.sub s.i.y s.j.y) (R.sub (R.mul o.i.x o.j.y) (R.mul o.i.y o.j.x)))

/-- `intersection_point` with its possible ZeroDivisionError, geometry/SR_line.py:369-395 -/
def intersectionPointE (s o : Seg K) : Except PyErr (Option (Pt K)) :=
  if R.isParallel s o then .ok none
  else if R.ipDen s o = 0 then .error .zeroDiv
  else .ok (some (R.mkPt (R.div (R.ipNumX s o) (R.ipDen s o)) (R.div (R.ipNumY s o) (R.ipDen s o))))

/-- `intersection_point` without the exception, which is proved impossible
(`C11_no_zero_division`); used by the callers below. -/
def intersectionPoint (s o : Seg K) : Option (Pt K) :=
  if R.isParallel s o then none
  else some (R.mkPt (R.div (R.ipNumX s o) (R.ipDen s o)) (R.div (R.ipNumY s o) (R.ipDen s o)))

/-- `intersection_on_segment`, geometry/SR_line.py:474-490 -/
def intersectionOnSegment (s o : Seg K) : Bool :=
  if R.touch s o then false
  else match R.intersectionPoint s o with
    | none => false
    | some p => R.isInternal s p && R.isInternal o p

/-- `intersection_on_endpoint`, geometry/SR_line.py:450-472 -/
def intersectionOnEndpoint (s o : Seg K) : Bool :=
  match R.intersectionPoint s o with
  | none => false
  | some p => if R.touch s o then true
    else R.peq p s.i || R.peq p s.j || R.peq p o.i || R.peq p o.j

/-- `common_part`, geometry/SR_line.py:397-436 -/
def commonPart (s o : Seg K) : Except PyErr (Option (Part K)) :=
  if R.isParallel s o then
    if R.isCollinear s o then
      if R.looseEqual s o then .ok (some (.seg s))
      else match R.overlap s o with
        | .ok r => .ok r.2
        | .error e => .error e
    else .ok none
  else if R.intersectionOnSegment s o || R.touch s o then .ok ((R.intersectionPoint s o).map .pt)
  else .ok none

/-- `line_reversed`, geometry/SR_line.py:506-509 (always a plain LineSegment) -/
def _root_.Srep.Seg.lineReversed (s : Seg K) : Seg K := ⟨s.j, s.i, .line⟩

/-- the segment after `reverse()`, geometry/SR_line.py:502-504 (the class is kept) -/
def _root_.Srep.Seg.reversed (s : Seg K) : Seg K := ⟨s.j, s.i, s.cls⟩

/-- `angle_between_lines`, geometry/SR_line.py:515-521; `math.acos` raises ValueError outside [-1,1] -/
def angleBetween (s o : Seg K) : Except PyErr K :=
  if R.mul (R.norm s) (R.norm o) = 0 then .error .zeroDiv
  else
    let c := R.div (R.dot s o) (R.mul (R.norm s) (R.norm o))
    if c < -1 ∨ 1 < c then .error .value else .ok (R.trig.degrees (R.trig.acos c))

/-- `angle_from_start_point`, geometry/SR_line.py:523-528 -/
def angleFromStart (s : Seg K) (p : Pt K) : Except PyErr K :=
  if R.peq p s.i then .error .assertion else R.angleBetween s ⟨s.i, p, .line⟩

/-- `bounding_box`, geometry/SR_line.py:544-546 -/
def segBox (s : Seg K) : (K × K) × (K × K) :=
  ((min s.i.x s.j.x, max s.i.x s.j.x), (min s.i.y s.j.y, max s.i.y s.j.y))

/-- `midpoint`, geometry/SR_line.py:548-550 -/
def midpoint (s : Seg K) : K × K :=
  (R.div (R.add (R.mul 2 s.i.x) s.j.x) 3, R.div (R.add (R.mul 2 s.i.y) s.j.y) 3)

/-- `point_on_line_at_ratio`, geometry/SR_line.py:571-590 -/
def pointAtRatio (s : Seg K) (r : K) : Except PyErr (Pt K) :=
  if ¬ (0 ≤ r ∧ r ≤ 1) then .error .assertion
  else if r = 0 then .ok s.i
  else if r = 1 then .ok s.j
  else .ok (R.mkPt (R.add (R.mul (R.sub 1 r) s.i.x) (R.mul r s.j.x))
    (R.add (R.mul (R.sub 1 r) s.i.y) (R.mul r s.j.y)))

/-- the k-th division point of `divide_line`, geometry/SR_line.py:598-600 -/
def divPoint (s : Seg K) (n : ℤ) (k : ℕ) : Pt K :=
  R.mkPt
    (R.add (R.mul (R.div (R.sub n k) n) s.i.x) (R.mul (R.div k n) s.j.x))
    (R.add (R.mul (R.div (R.sub n k) n) s.i.y) (R.mul (R.div k n) s.j.y))

/-- node list of `divide_line`, geometry/SR_line.py:595-601 (`range(1, n)`) -/
def divNodes (s : Seg K) (n : ℤ) : List (Pt K) :=
  s.i :: ((List.range (n - 1).toNat).map fun k => R.divPoint s n (k + 1)) ++ [s.j]

/-- `zip(ps, ps[1:])` turned into plain LineSegments, geometry/SR_line.py:603-606 -/
def chain : List (Pt K) → List (Seg K)
  | a :: b :: l => ⟨a, b, .line⟩ :: chain (b :: l)
  | _ => []

/-- `divide_line` for an integral number of segments, geometry/SR_line.py:593-606 -/
def divideLine (s : Seg K) (n : ℤ) : List (Seg K) := chain (R.divNodes s n)

/-- `add_point_on_line`, geometry/SR_line.py:609-614; `none` is the returned `False` -/
def addPointOnLine (s : Seg K) (p : Pt K) : Option (Seg K × Seg K) :=
  if R.isInternal s p then some (⟨s.i, p, .line⟩, ⟨p, s.j, .line⟩) else none

end Rt
end
end Srep
