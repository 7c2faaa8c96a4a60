import Verif.Model.Polygon

/-!
# Objects in memory: mutation and sharing (geometry/SR_line.py, geometry/SR_polygon.py)

Point and LineSegment objects live at addresses; a segment holds the addresses of its two endpoints.
Only valid points are modelled.
-/

namespace Srep

/-- a LineSegment object: addresses of its endpoints and its class, geometry/SR_line.py:24-28 -/
structure SegObj where
  i : ℕ
  j : ℕ
  cls : SegCls := .line
  deriving DecidableEq, Repr

/-- Memory: Point objects, LineSegment objects, and the next free addresses. -/
structure Heap (K : Type) where
  pt : ℕ → Pt K
  seg : ℕ → SegObj
  npt : ℕ
  nseg : ℕ

/-- A PolygonLine object: addresses of its segments and the `purged` flag, geometry/SR_polygon.py:24-34 -/
structure PLine where
  segs : List ℕ
  purged : Bool
  deriving DecidableEq, Repr

section
variable {K : Type} [Field K] [LinearOrder K] [IsStrictOrderedRing K] [FloorRing K]

namespace Heap

/-- the value of the segment at address `s` -/
def val (h : Heap K) (s : ℕ) : Seg K := ⟨h.pt (h.seg s).i, h.pt (h.seg s).j, (h.seg s).cls⟩

/-- the values of the segments of a polyline -/
def vals (h : Heap K) (l : List ℕ) : List (Seg K) := l.map h.val

/-- overwrite the Point at address `p` -/
def setPt (h : Heap K) (p : ℕ) (q : Pt K) : Heap K := { h with pt := Function.update h.pt p q }

/-- `_set_endpoints`, geometry/SR_line.py:65-68 -/
def setEndpoints (h : Heap K) (s i j : ℕ) : Heap K :=
  { h with seg := Function.update h.seg s { h.seg s with i := i, j := j } }

/-- `reverse`, geometry/SR_line.py:502-504 -/
def reverse (h : Heap K) (s : ℕ) : Heap K := h.setEndpoints s (h.seg s).j (h.seg s).i

/-- `LineSegment(i, j)`: a new plain segment object on existing Point objects -/
def newSeg (h : Heap K) (i j : ℕ) : Heap K × ℕ :=
  ({ h with seg := Function.update h.seg h.nseg ⟨i, j, .line⟩, nseg := h.nseg + 1 }, h.nseg)

/-- a new Point object with stored coordinates `q` -/
def newPt (h : Heap K) (q : Pt K) : Heap K × ℕ :=
  ({ h with pt := Function.update h.pt h.npt q, npt := h.npt + 1 }, h.npt)

/-- new plain segments joining consecutive Point objects: `zip(ps, ps[1:])`, geometry/SR_line.py:603-606 and
geometry/SR_polygon.py:1705-1710 -/
def newChain (h : Heap K) : List ℕ → Heap K × List ℕ
  | a :: b :: l =>
    let r := newChain (h.newSeg a b).1 (b :: l)
    (r.1, (h.newSeg a b).2 :: r.2)
  | _ => (h, [])

/-- new Point objects with the given stored coordinates -/
def newPts (h : Heap K) : List (Pt K) → Heap K × List ℕ
  | [] => (h, [])
  | q :: l =>
    let r := newPts (h.newPt q).1 l
    (r.1, (h.newPt q).2 :: r.2)

/-- addresses of the endpoints of all segments, in polyline order -/
def ends (h : Heap K) (l : List ℕ) : List ℕ := l.flatMap fun s => [(h.seg s).i, (h.seg s).j]

/-- comparison of Point objects by `(x, y)` -/
def refLe (h : Heap K) (a b : ℕ) : Prop := ptLe (h.pt a) (h.pt b)

instance (h : Heap K) : DecidableRel h.refLe := fun a b => by unfold refLe; infer_instance

/-- `all_points` as objects, geometry/SR_polygon.py:299-302 -/
def allRefs (h : Heap K) (l : List ℕ) : List ℕ := (h.ends l).insertionSort h.refLe

/-- `copy.deepcopy` of a polyline: every object of memory is duplicated at fresh addresses with the same
sharing (a superset of the reachable objects, which is not observable) -/
def deepcopy (h : Heap K) : Heap K where
  pt := fun p => if p < h.npt then h.pt p else h.pt (p - h.npt)
  seg := fun s => if s < h.nseg then h.seg s
    else ⟨(h.seg (s - h.nseg)).i + h.npt, (h.seg (s - h.nseg)).j + h.npt, (h.seg (s - h.nseg)).cls⟩
  npt := h.npt + h.npt
  nseg := h.nseg + h.nseg

end Heap

namespace Rt
variable (R : Rt K)

/-- `_p._set_coords(coords=(_p.x + x0, _p.y + y0))`, geometry/SR_line.py:500 -/
def movePt (h : Heap K) (p : ℕ) (x0 y0 : K) : Heap K :=
  h.setPt p (R.mkPt (R.add (h.pt p).x x0) (R.add (h.pt p).y y0))

/-- `_p._set_coords(coords=(_p.x - 2 * (_p.x - x0), _p.y))`, geometry/SR_line.py:495 -/
def mirrorPt (h : Heap K) (p : ℕ) (x0 : K) : Heap K :=
  h.setPt p (R.mkPt (R.sub (h.pt p).x (R.mul 2 (R.sub (h.pt p).x x0))) (h.pt p).y)

/-- `LineSegment.move`, geometry/SR_line.py:497-500: the endpoints one after the other -/
def segMove (h : Heap K) (s : ℕ) (x0 y0 : K) : Heap K :=
  R.movePt (R.movePt h (h.seg s).i x0 y0) (h.seg s).j x0 y0

/-- `LineSegment.mirror_vertical`, geometry/SR_line.py:492-495 -/
def segMirror (h : Heap K) (s : ℕ) (x0 : K) : Heap K :=
  R.mirrorPt (R.mirrorPt h (h.seg s).i x0) (h.seg s).j x0

/-- `divide_line` on objects, geometry/SR_line.py:593-606 -/
def divideLineH (h : Heap K) (s : ℕ) (n : ℤ) : Heap K × List ℕ :=
  let r := h.newPts ((List.range (n - 1).toNat).map fun k => R.divPoint (h.val s) n (k + 1))
  r.1.newChain ((h.seg s).i :: r.2 ++ [(h.seg s).j])

/-- `set(points)` of Point objects: the first of equal ones is kept -/
def rset (h : Heap K) (l : List ℕ) : List ℕ :=
  l.foldl (fun s p => if R.pmem (h.pt p) (s.map h.pt) then s else s ++ [p]) []

/-- `point_set` as objects, geometry/SR_polygon.py:305-309 -/
def pointRefs (h : Heap K) (l : List ℕ) : List ℕ := (R.rset h (h.allRefs l)).insertionSort h.refLe

/-- the loop over the affected segments in `purge`, geometry/SR_polygon.py:177-183 (`x` becomes the found
object after the first of them) -/
def relink (f : ℕ) : Heap K → ℕ → List ℕ → Heap K
  | h, _, [] => h
  | h, x, s :: l =>
    let h' := if R.peq (h.pt (h.seg s).i) (h.pt x) then h.setEndpoints s f (h.seg s).j
      else h.setEndpoints s (h.seg s).i f
    relink f h' f l

/-- one round of the loop of `purge`, geometry/SR_polygon.py:170-183; the state is memory and `seen` -/
def purgeStep (segs : List ℕ) (st : Heap K × List ℕ) (x : ℕ) : Heap K × List ℕ :=
  match st.2.find? fun y => R.peq (st.1.pt x) (st.1.pt y) with
  | none => (st.1, st.2 ++ [x])
  | some f => (R.relink f st.1 x (segs.filter fun s => R.onEnds (st.1.pt x) (st.1.val s)), st.2)

/-- `purge` (with PURGE = True, geometry/__init__.py:26), geometry/SR_polygon.py:150-184 -/
def purge (h : Heap K) (P : PLine) : Heap K × PLine :=
  if P.purged then (h, P)
  else if (R.pointRefs h P.segs).length = (h.allRefs P.segs).length then (h, { P with purged := true })
  else (((h.allRefs P.segs).foldl (R.purgeStep P.segs) (h, [])).1, { P with purged := true })

/-- `PolygonLine.move`, geometry/SR_polygon.py:579-585 -/
def plMove (h : Heap K) (P : PLine) (x0 y0 : K) : Heap K × PLine :=
  let r := R.purge h P
  ((R.pointRefs r.1 P.segs).foldl (fun h p => R.movePt h p x0 y0) r.1, r.2)

/-- `PolygonLine.mirror_vertical`, geometry/SR_polygon.py:573-577 -/
def plMirror (h : Heap K) (P : PLine) (x0 : K) : Heap K × PLine :=
  let r := R.purge h P
  ((R.pointRefs r.1 P.segs).foldl (fun h p => R.mirrorPt h p x0) r.1, r.2)

/-- rotation of one Point by the angle with cosine `c` and sine `s`, geometry/SR_polygon.py:566-569 -/
def rotPt (h : Heap K) (p : ℕ) (c s : K) : Heap K :=
  let a := h.pt p
  h.setPt p (R.mkPt (R.round8 (R.sub (R.mul a.x c) (R.mul a.y s)))
    (R.round8 (R.add (R.mul a.x s) (R.mul a.y c))))

/-- `rotate_about_origin`, geometry/SR_polygon.py:560-569 -/
def plRotate (h : Heap K) (P : PLine) (phi : K) : Heap K × PLine :=
  let c := R.trig.cos (R.trig.radians phi)
  let s := R.trig.sin (R.trig.radians phi)
  let r := R.purge h P
  ((R.pointRefs r.1 P.segs).foldl (fun h p => R.rotPt h p c s) r.1, r.2)

/-- `rotate_about_xy`, geometry/SR_polygon.py:587-591 -/
def plRotateXY (h : Heap K) (P : PLine) (x0 y0 phi : K) : Heap K × PLine :=
  let a := R.plMove h P (-x0) (-y0)
  let b := R.plRotate a.1 a.2 phi
  R.plMove b.1 b.2 x0 y0

/-- `append_point_at_end`, geometry/SR_polygon.py:257-264 (the flag `purged` is kept) -/
def appendEnd (h : Heap K) (P : PLine) (p : ℕ) : Except PyErr (Heap K × PLine) :=
  match P.segs.getLast? with
  | none => .error .index
  | some s =>
    let r := h.newSeg (h.seg s).j p
    .ok (r.1, { P with segs := P.segs ++ [r.2] })

/-- `append_point_at_beginning`, geometry/SR_polygon.py:266-274 -/
def appendBegin (h : Heap K) (P : PLine) (p : ℕ) : Except PyErr (Heap K × PLine) :=
  match P.segs.head? with
  | none => .error .index
  | some s =>
    let r := h.newSeg p (h.seg s).i
    .ok (r.1, { P with segs := r.2 :: P.segs })

/-- `close` on objects, geometry/SR_polygon.py:428-434 -/
def closeH (h : Heap K) (P : PLine) : Except PyErr (Heap K × PLine) :=
  match R.isClosed (h.vals P.segs) with
  | .error e => .error e
  | .ok true => .ok (h, P)
  | .ok false =>
    match P.segs.head?, P.segs.getLast? with
    | some a, some b =>
      let r := h.newSeg (h.seg b).j (h.seg a).i
      .ok (r.1, { P with segs := P.segs ++ [r.2] })
    | _, _ => .error .index

/-- `closed_copy`, geometry/SR_polygon.py:419-426 -/
def closedCopy (h : Heap K) (P : PLine) : Except PyErr (Heap K × PLine) :=
  match R.isClosed (h.vals P.segs) with
  | .error e => .error e
  | .ok true => .ok (h.deepcopy, { P with segs := P.segs.map (· + h.nseg) })
  | .ok false => R.closeH h.deepcopy { P with segs := P.segs.map (· + h.nseg) }

/-- `polygon_from_nodes` on objects, geometry/SR_polygon.py:1689-1712, for at least two numeric nodes -/
def fromNodesH (h : Heap K) (nodes : List (K × K)) (cw : Bool) : Except PyErr (Heap K × PLine) :=
  match (if cw then cwNodes nodes else .ok nodes) with
  | .error e => .error e
  | .ok ns =>
    let r := h.newPts (ns.map fun n => R.mkPt n.1 n.2)
    let c := r.1.newChain r.2
    .ok (c.1, ⟨c.2, false⟩)

/-- outcome of `order()`: returned False, raised, True with the new segment list; `timeout` stands for a loop
that has not stopped within the given number of rounds -/
inductive OrderRes (K : Type)
  | failed (h : Heap K)
  | raised (h : Heap K) (e : PyErr)
  | done (h : Heap K) (ret : List ℕ)
  | timeout

/-- `x in ret` for segment objects in a list -/
def inSegs (h : Heap K) (x : ℕ) (ret : List ℕ) : Bool :=
  ret.any fun y => decide (y = x) || R.seq (h.val y) (h.val x)

/-- the search for the next segment, geometry/SR_polygon.py:218-230: the segment and whether it has to be
reversed; `akt` is the current segment and `e` the address of its end Point -/
def orderNext (segs : List ℕ) (h : Heap K) (akt e : ℕ) : Option (ℕ × Bool) :=
  match segs.find? fun x => R.peq (h.pt (h.seg x).i) (h.pt e) && !R.seq (h.val x) (h.val akt) with
  | some nxt => some (nxt, false)
  | none =>
    match segs.find? fun x => R.peq (h.pt (h.seg x).j) (h.pt e) && !R.seq (h.val x) (h.val akt) with
    | some nxt => some (nxt, true)
    | none => none

/-- `if _nxt not in _ret: ...`, geometry/SR_polygon.py:233-236 -/
def orderAdd (h : Heap K) (ret : List ℕ) (nxt : ℕ) (flip : Bool) : Heap K × List ℕ :=
  if R.inSegs h nxt ret then (h, ret)
  else (if flip then h.reverse nxt else h, ret ++ [nxt])

/-- the `while` loop of `order`, geometry/SR_polygon.py:213-243, with `count` completed rounds; `fuel` is the
number of rounds after which the evaluation is given up -/
def orderLoop (segs : List ℕ) : ℕ → Heap K → ℕ → ℕ → List ℕ → ℕ → OrderRes K
  | 0, _, _, _, _, _ => .timeout
  | fuel + 1, h, akt, e, ret, count =>
    match R.orderNext segs h akt e with
    | none => .failed h
    | some (nxt, flip) =>
      let r := R.orderAdd h ret nxt flip
      if 500 < count + 1 then .raised r.1 .generic
      else if 2 * segs.length < count + 1 then .done r.1 r.2
      else orderLoop segs fuel r.1 nxt (r.1.seg nxt).j r.2 (count + 1)

/-- comparison of the sort keys `(distance(origin, x.i), x.i.x, x.i.y, x.norm)`, geometry/SR_polygon.py:248 -/
def orderKeyLe (s o : Seg K) : Prop :=
  let d := fun s : Seg K => R.distance (R.mkPt 0 0) s.i
  d s < d o ∨ (d s = d o ∧ (s.i.x < o.i.x ∨ (s.i.x = o.i.x ∧ (s.i.y < o.i.y ∨
    (s.i.y = o.i.y ∧ R.norm s ≤ R.norm o)))))

instance : DecidableRel R.orderKeyLe := fun s o => by unfold orderKeyLe; infer_instance

/-- `while _ret[0] != _first: _ret.rotate()`, geometry/SR_polygon.py:249-251: the last element goes to the front
until the head equals `f`; `none` if this needs more than the given number of rotations -/
def rotateTo (h : Heap K) (f : ℕ) : ℕ → List ℕ → Option (List ℕ)
  | _, [] => none
  | n, a :: t =>
    if R.seq (h.val a) (h.val f) then some (a :: t)
    else match n with
      | 0 => none
      | n + 1 => rotateTo h f n ((a :: t).getLast (by simp) :: (a :: t).dropLast)

/-- the part of `order` after the loop, geometry/SR_polygon.py:245-255 -/
def orderFinish (fuel : ℕ) : OrderRes K → OrderRes K
  | .done h ret =>
    match ret.insertionSort fun x y => R.orderKeyLe (h.val x) (h.val y) with
    | [] => .raised h .index
    | f :: _ =>
      match R.rotateTo h f fuel ret with
      | some l => .done h l
      | none => .timeout
  | r => r

/-- `order`, geometry/SR_polygon.py:191-255; `fuel` bounds the rounds of either loop -/
def orderF (fuel : ℕ) (h : Heap K) (P : PLine) : OrderRes K :=
  match P.segs with
  | [] => .raised h .index
  | a :: t => R.orderFinish fuel (R.orderLoop (a :: t) fuel h a (h.seg a).j [] 0)

/-- `order`, geometry/SR_polygon.py:191-255, evaluated for `2 n + 1` rounds, which always suffices -/
def order (h : Heap K) (P : PLine) : OrderRes K := R.orderF (2 * P.segs.length + 1) h P

/-- `square`, geometry/SR_polygon.py:1715-1724 -/
def squareH (h : Heap K) (a x0 y0 : K) (cw : Bool) : Except PyErr (Heap K × PLine) :=
  let b := R.div a 2
  let c := R.div (-a) 2
  match R.fromNodesH h [(0, 0), (b, 0), (b, a), (c, a), (c, 0)] cw with
  | .error e => .error e
  | .ok r =>
    match R.closeH r.1 r.2 with
    | .error e => .error e
    | .ok q => .ok (R.plMove q.1 q.2 x0 y0)

/-- `add(self, *other)`, geometry/SR_polygon.py:1817-1839, where no other is the object self: `_sum =
self.segments` is self's own list, so it is extended in place.  Result: memory, self afterwards, and the returned
polyline or the exception. -/
def addH (h : Heap K) (P : PLine) (Qs : List PLine) : Heap K × PLine × Except PyErr PLine :=
  if !(R.plValid (h.vals P.segs) && Qs.all fun Q => R.plValid (h.vals Q.segs)) then (h, P, .error .assertion)
  else if R.isClosed (h.vals P.segs) = .ok true ∧ (Qs.all fun Q => decide (R.isClosed (h.vals Q.segs) = .ok true)) then
    (h, P, .error .assertion)
  else
    let P' : PLine := { P with segs := P.segs ++ Qs.flatMap PLine.segs }
    let r := R.purge h ⟨P'.segs, false⟩
    if R.plValid (r.1.vals r.2.segs) then (r.1, P', .ok r.2) else (r.1, P', .error .assertion)

end Rt
end
end Srep
