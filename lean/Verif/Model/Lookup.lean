import Verif.Model.Group

/-!
# Look-ups in groups of polygons and in polylines (geometry/SR_polygon_group.py, geometry/SR_polygon.py)
-/

namespace Srep

section
variable {K : Type} [Field K] [LinearOrder K] [IsStrictOrderedRing K] [FloorRing K] {α ν κ : Type}

/-- `polygon_from_repr`, geometry/SR_polygon_group.py:35-42; `eqv` is `==` -/
def polygonFromRepr (eqv : α → α → Bool) (ps : List α) (rep : α) : Except PyErr α :=
  match ps.filter fun x => eqv x rep with
  | [x] => .ok x
  | _ => .error .generic

/-- the argument of `name_from_repr`: a dict of collections, a list or set, a PolygonLine, anything else -/
inductive NameArg (κ α : Type)
  | dict (d : List (κ × List α))
  | many (l : List α)
  | one (p : α)
  | other

/-- the value of `name_from_repr` -/
inductive NameRes (κ ν : Type)
  | dict (d : List (κ × List ν))
  | many (l : List ν)
  | one (n : ν)
  deriving DecidableEq

/-- `fill_vect` of `name_from_repr`, geometry/SR_polygon_group.py:47-61 -/
def fillVect (eqv : α → α → Bool) (name : α → ν) (ps v : List α) : List ν :=
  v.flatMap fun p =>
    match ps.filter fun x => eqv p x with
    | [x] => [name x]
    | _ => []

/-- `name_from_repr`, geometry/SR_polygon_group.py:44-77 -/
def nameFromRepr (eqv : α → α → Bool) (name : α → ν) (ps : List α) : NameArg κ α → Except PyErr (NameRes κ ν)
  | .dict d => .ok (.dict (d.map fun e => (e.1, fillVect eqv name ps e.2)))
  | .many l => .ok (.many (fillVect eqv name ps l))
  | .one p => .ok (.one (name p))
  | .other => .error .generic

namespace Rt
variable (R : Rt K)

/-- `p in points` for a list of Points -/
def inPoints (p : Pt K) (points : List (Pt K)) : Bool := points.any fun q => R.peq q p

/-- `segments_from_points`, geometry/SR_polygon_group.py:138-145: the numbers of the polygons returned -/
def segmentsFromPoints (h : Heap K) (G : List PLine) (points : List (Pt K)) : List ℕ :=
  let s := (G.flatMap PLine.segs).filter fun x => R.inPoints (h.val x).i points && R.inPoints (h.val x).j points
  (List.range G.length).filter fun k => (G[k]?).any fun x => s.any fun y => R.inSegs h y x.segs

/-- equality of the tuples `(s.i, s.j)` of two segments -/
def endsEq (s o : Seg K) : Bool := R.peq s.i o.i && R.peq s.j o.j

/-- `as_edgelist`, geometry/SR_polygon_group.py:266-272: the numbering purges the segments; `sorted` compares each tuple with the one before
it, and as Points have no `<`, the first two neighbours that are not equal are a TypeError -/
def asEdgelist (h : Heap K) (G : List PLine) : Heap K × Except PyErr (List (Pt K × Pt K)) :=
  let h' := (R.reprGraph h G).1
  let l := h'.vals (G.flatMap PLine.segs)
  (h', if (l.zip l.tail).all fun x => R.endsEq x.1 x.2 then .ok (l.map fun s => (s.i, s.j)) else .error .type)

/-- `discontinuity`, geometry/SR_polygon.py:337-343 -/
def discontinuity (l : List (Seg K)) : List (Seg K) :=
  ((l.zip l.tail).filter fun x => !R.continuous x.1 x.2).map Prod.snd

/-- `next_segment`, geometry/SR_polygon.py:360-377 -/
def nextSegment (l : List (Seg K)) (s : Seg K) (closed : Bool) : Except PyErr (Seg K) :=
  if closed then
    match R.isClosed l with
    | .error e => .error e
    | .ok false => .error .assertion
    | .ok true =>
      match l.filter fun x => R.peq x.i s.j with
      | x :: _ => .ok x
      | [] => .error .generic
  else .error .notImplemented

end Rt
end
end Srep
