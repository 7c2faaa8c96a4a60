import Verif.Model.Heap

/-! # Removal of collinear points (geometry/SR_polygon.py) -/

namespace Srep
namespace Rt
variable {K : Type} [Field K] [LinearOrder K] [IsStrictOrderedRing K] [FloorRing K] (R : Rt K)

/-- `find_segment_by_point(point=p, whichend='both')` on objects, geometry/SR_polygon.py:112-131 -/
def segsAt (h : Heap K) (l : List ℕ) (p : Pt K) : List ℕ := l.filter fun s => R.onEnds p (h.val s)

/-- `neighbour` on objects, geometry/SR_polygon.py:108-110 -/
def neighbourRefs (h : Heap K) (l : List ℕ) (p : Pt K) : List ℕ :=
  (((R.segsAt h l p).filter fun s => !R.peq (h.val s).i p).map fun s => (h.seg s).i) ++
    ((R.segsAt h l p).filter fun s => !R.peq (h.val s).j p).map fun s => (h.seg s).j

/-- the loop of `remove_collinear_points`, geometry/SR_polygon.py:1629-1636, over the points that remain; the state is
memory and the segments of the copy.  `LineSegment()` of no neighbour fails the assert in `crossproduct_commonstart`
(geometry/SR_line.py:539), one neighbour raises an IndexError (geometry/SR_line.py:87); of more than two the first two are
the endpoints.  The return value of `order` is ignored.  `none`: `order` does not end. -/
def removeLoop (h : Heap K) (l : List ℕ) : List (Pt K) → Except (Option PyErr) (Heap K × List ℕ)
  | [] => .ok (h, l)
  | p :: ps =>
    match R.neighbourRefs h l p with
    | [] => .error (some .assertion)
    | [_] => .error (some .index)
    | a :: b :: _ =>
      if R.isOnLine ⟨h.pt a, h.pt b, .line⟩ p then
        let r := h.newSeg a b
        match R.order r.1 ⟨(l.filter fun s => !R.inSegs h s (R.segsAt h l p)) ++ [r.2], false⟩ with
        | .failed g => removeLoop g ((l.filter fun s => !R.inSegs h s (R.segsAt h l p)) ++ [r.2]) ps
        | .raised _ e => .error (some e)
        | .done g m => removeLoop g m ps
        | .timeout => .error none
      else removeLoop h l ps

/-- `remove_collinear_points`, geometry/SR_polygon.py:1623-1637 -/
def removeCollinear (h : Heap K) (P : PLine) : Except (Option PyErr) (Heap K × PLine) :=
  match R.removeLoop h.deepcopy (P.segs.map (· + h.nseg)) (P.segs.map fun s => (h.val s).i) with
  | .error e => .error e
  | .ok r => .ok (r.1, { P with segs := r.2 })

end Rt
end Srep
