import Verif.Model.Heap

/-! # The ends of a polyline (geometry/SR_polygon.py) -/

namespace Srep

section
variable {K : Type} [Field K] [LinearOrder K] [IsStrictOrderedRing K] [FloorRing K]

/-- `first_segment`, geometry/SR_polygon.py:401-404 (the segment object; IndexError without segments) -/
def PLine.firstSegment (P : PLine) : Except PyErr ℕ :=
  match P.segs.head? with
  | none => .error .index
  | some s => .ok s

/-- `last_segment`, geometry/SR_polygon.py:406-411 -/
def PLine.lastSegment (P : PLine) : Except PyErr ℕ :=
  match P.segs.getLast? with
  | none => .error .index
  | some s => .ok s

/-- `first_point`, geometry/SR_polygon.py:389-392 (the Point object) -/
def Heap.firstPoint (h : Heap K) (P : PLine) : Except PyErr ℕ :=
  match P.firstSegment with
  | .error e => .error e
  | .ok s => .ok (h.seg s).i

/-- `last_point`, geometry/SR_polygon.py:394-399 -/
def Heap.lastPoint (h : Heap K) (P : PLine) : Except PyErr ℕ :=
  match P.lastSegment with
  | .error e => .error e
  | .ok s => .ok (h.seg s).j

/-- `isopen`, geometry/SR_polygon.py:413-418 -/
def Rt.isOpen (R : Rt K) (l : List (Seg K)) : Except PyErr Bool :=
  match R.isClosed l with
  | .error e => .error e
  | .ok b => .ok !b

/-- `for p in ps: polygon.append_point_at_end(p)`, geometry/SR_polygon.py:257-264 (valid Points only) -/
def Rt.appendAll (R : Rt K) (h : Heap K) (P : PLine) : List ℕ → Except PyErr (Heap K × PLine)
  | [] => .ok (h, P)
  | p :: ps =>
    match appendEnd h P p with
    | .error e => .error e
    | .ok r => R.appendAll r.1 r.2 ps

end
end Srep
