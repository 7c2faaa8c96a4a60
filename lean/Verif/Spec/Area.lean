import Verif.Spec.Geom
import Verif.Spec.Ray

/-! Areas of polygons and triangulations; independent of the code. -/

namespace Srep
variable {K : Type} [Field K] [LinearOrder K] [IsStrictOrderedRing K]

/-- twice the signed area inside of closed polygons with the given directed sides (shoelace formula) -/
def sideSum (m : List (Seg K)) : K := (m.map fun s => s.i.x * s.j.y - s.j.x * s.i.y).sum

/-- the directed sides of a triangle -/
def triEdges (t : Pt K × Pt K × Pt K) : List (Pt K × Pt K) := [(t.1, t.2.1), (t.2.1, t.2.2), (t.2.2, t.1)]

/-- a triangle as a list of segments -/
def triSegs (t : Pt K × Pt K × Pt K) : List (Seg K) := [⟨t.1, t.2.1, .line⟩, ⟨t.2.1, t.2.2, .line⟩, ⟨t.2.2, t.1, .line⟩]

/-- `p` is a corner of the triangle -/
def IsCorner (t : Pt K × Pt K × Pt K) (p : Pt K) : Prop := p = t.1 ∨ p = t.2.1 ∨ p = t.2.2

/-- counter-clockwise triangles that fit together to the polygon with the directed sides `m`: every side of the polygon is
a side of one triangle, passed in the same direction, and all other sides of triangles come in pairs of opposite
direction -/
structure Tiling (m : List (Seg K)) (ts : List (Pt K × Pt K × Pt K)) : Prop where
  left : ∀ t ∈ ts, 0 < det3 t.1 t.2.1 t.2.2
  edges : ∃ E : List (Pt K × Pt K),
    (ts.flatMap triEdges).Perm ((m.map fun s => (s.i, s.j)) ++ (E ++ E.map Prod.swap))

end Srep
