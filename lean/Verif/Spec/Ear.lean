import Verif.Spec.Geom
import Verif.Model.Heap

/-! Cutting corners off a polygon, and its area; independent of the code. -/

namespace Srep
variable {K : Type} [Field K] [LinearOrder K] [IsStrictOrderedRing K] [FloorRing K]

/-- sum of the determinants of the consecutive points -/
def pathSum : List (Pt K) → K
  | p :: q :: l => p.x * q.y - q.x * p.y + pathSum (q :: l)
  | _ => 0

/-- twice the signed area of the polygon with the corners `w` (shoelace formula), positive if counter-clockwise -/
def twiceArea (w : List (Pt K)) : K := pathSum (w ++ w.take 1)

/-- the segments join consecutive points of the list, in whatever direction -/
def Sides (h : Heap K) : List (Pt K) → List ℕ → Prop
  | p :: q :: l, s :: τ =>
    (((h.val s).i = p ∧ (h.val s).j = q) ∨ ((h.val s).i = q ∧ (h.val s).j = p)) ∧ Sides h (q :: l) τ
  | [_], [] => True
  | _, _ => False

/-- the segment objects `segs` are, in any order and direction, the sides of the polygon with the different corners
`w` -/
def PolygonOf (h : Heap K) (w : List (Pt K)) (segs : List ℕ) : Prop :=
  w.Nodup ∧ segs.Nodup ∧ ∃ τ, segs.Perm τ ∧ Sides h (w ++ w.take 1) τ

/-- the segment objects `t` are, in any order and direction, the sides of the triangle `c` -/
def TriangleOf (h : Heap K) (t : List ℕ) (c : Pt K × Pt K × Pt K) : Prop :=
  ∃ τ, t.Perm τ ∧ Sides h [c.1, c.2.1, c.2.2, c.1] τ

/-- `ts` are triangles cut off one after the other from the polygon `w` at single corners, `v` is what remains -/
inductive Cuts : List (Pt K) → List (Pt K × Pt K × Pt K) → List (Pt K) → Prop
  | nil (w) : Cuts w [] w
  | cut {w v : List (Pt K)} {a b c : Pt K} {u : List (Pt K)} {ts : List (Pt K × Pt K × Pt K)} :
    w ~r a :: b :: u ++ [c] → Cuts (b :: u ++ [c]) ts v → Cuts w ((c, a, b) :: ts) v

end Srep
