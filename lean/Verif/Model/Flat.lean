import Verif.Model.HeadSegs
import Verif.Model.Intex

/-!
# Flat heads and ends of rooms (SR_Vessel/SR_hauptteile.py)

`Flachboden` and `RaumEnde`: parts of one horizontal Wall.  All points are valid here, so the `assert ...isvalid` lines hold
and are left out.
-/

namespace Srep

/-- the arguments `pos_v`, `d`, `pos_h` of `Flachboden` and `RaumEnde`, SR_Vessel/SR_hauptteile.py:896, 1309 -/
structure PlateDim (K : Type) where
  posV : K
  d : K
  posH : K

section
variable {K : Type} [Field K] [LinearOrder K] [IsStrictOrderedRing K] [FloorRing K]

namespace Rt
variable (R : Rt K)

/-- `Flachboden.__init__` and `RaumEnde.__init__`, SR_Vessel/SR_hauptteile.py:896-905, 1309-1318: one Wall, moved;
`Hauptteil.__init__` with `purge` (463-467), `Graph` of the wall segments (geometry/SR_polygon_group.py:755-759).  The
reference points added last do not change memory; they are `platePart` and `endPart`. -/
def plateNew (h : Heap K) (m : PlateDim K) : Heap K × Part2 :=
  let a := h.newLine (R.mkPt (R.div (-m.d) 2) 0) (R.mkPt (R.div m.d 2) 0) .wall
  let b := R.segMove a.1 a.2 m.posH m.posV
  let q := R.purge b ⟨[a.2], false⟩
  (q.1, ⟨q.2, q.1.walls q.2.segs⟩)

/-- the 'indifferent' points of `Flachboden.intex_points` for a wall segment, SR_Vessel/SR_hauptteile.py:930-935 -/
def plateIntex (m : PlateDim K) : List (Pt K) :=
  [R.mkPt m.posH (R.add (R.mul (R.fl (1 / 100)) m.d) m.posV),
    R.mkPt m.posH (R.add (R.mul (R.fl (-(1 / 100))) m.d) m.posV)]

/-- `Flachboden.isvalid`, SR_Vessel/SR_hauptteile.py:939-942: `LineSegment.isvalid` (geometry/SR_line.py:70-80) of the first
segment, which is True for two valid Points -/
def plateValid (P : PLine) : Except PyErr Bool :=
  match P.segs with
  | [] => .error .index
  | _ :: _ => .ok true

/-- `Flachboden.characteristic_size`, SR_Vessel/SR_hauptteile.py:945-946 -/
def plateSize (m : PlateDim K) : K := R.div m.d 2

/-- `Flachboden.is_internal_point`, SR_Vessel/SR_hauptteile.py:948-961; `point_set` is the set of the end points -/
def plateInternal (l : List (Seg K)) (p : Pt K) : Except PyErr Bool :=
  if (R.pointSet l).any (fun q => R.peq q p) then .ok false else
  match l with
  | [] => .error .index
  | s :: _ => .ok (R.isInternal s p)

/-- the part with its graph, SR_Vessel/SR_hauptteile.py:904-905, and its reference points, 921-936, added by
geometry/SR_polygon_group.py:770-789 -/
def platePart {ν : Type} (name : ν) (segs : List (Seg K)) (m : PlateDim K) : GPart ν K :=
  ⟨name, segs, [], [], segs.flatMap fun s => (R.plateIntex m).map fun p => (p, s)⟩

/-- `RaumEnde`: no reference points, SR_Vessel/SR_hauptteile.py:1317-1318, 1335-1346 -/
def _root_.Srep.endPart {ν : Type} (name : ν) (segs : List (Seg K)) : GPart ν K := ⟨name, segs, [], [], []⟩

/-- `RaumEnde.isvalid`, SR_Vessel/SR_hauptteile.py:1349-1352 -/
def _root_.Srep.endValid (_ : PLine) : Bool := true

end Rt
end
end Srep
