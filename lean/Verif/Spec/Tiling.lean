import Verif.Spec.Mesh
import Mathlib.Analysis.Convex.Hull

/-! Plain notions about triangulations of a point set; independent of the code. -/

namespace Srep
variable {K : Type} [Field K] [LinearOrder K]

/-- No point occurs twice and no three points are nearer to a line than twice the area `1e-8`. -/
def GeneralPos (ps : List (Pt K)) : Prop :=
  ps.Nodup ∧ ∀ p ∈ ps, ∀ q ∈ ps, ∀ r ∈ ps, p ≠ q → q ≠ r → p ≠ r → 1 / 10 ^ 8 < |det3 p q r|

/-- strictly inside the triangle with these corners, whatever its orientation -/
def InTri (a b c X : Pt K) : Prop :=
  (0 < det3 a b X ∧ 0 < det3 b c X ∧ 0 < det3 c a X) ∨ (det3 a b X < 0 ∧ det3 b c X < 0 ∧ det3 c a X < 0)

/-- strictly inside the triangle of the mesh -/
def Mesh.Inside (M : Mesh K) (T : Tri) (X : Pt K) : Prop := InTri (M.pos T.a) (M.pos T.b) (M.pos T.c) X

/-- the pair of coordinates -/
def Pt.pair (p : Pt K) : K × K := (p.x, p.y)

/-- the triangle as a part of the plane -/
def Mesh.region (M : Mesh K) (T : Tri) : Set (K × K) :=
  _root_.convexHull K {(M.pos T.a).pair, (M.pos T.b).pair, (M.pos T.c).pair}

/-- `M` is a triangulation of the convex hull of the points `ps` -/
structure Mesh.Triangulates (M : Mesh K) (ps : List (Pt K)) : Prop where
  /-- the points are those given -/
  points : M.points.Perm ps
  /-- the corners of a triangle are three different points, not on a line -/
  corners : ∀ T ∈ M.tris, T.Proper ∧ (∀ v, T.Has v → 0 ≤ v ∧ v < M.points.length) ∧ M.area T ≠ 0
  /-- together the triangles are the convex hull -/
  cover : (⋃ T ∈ M.tris, M.region T) = _root_.convexHull K {q | ∃ p ∈ ps, q = p.pair}
  /-- the interiors are disjoint -/
  disjoint : ∀ (n m : ℕ) (T S : Tri), M.tris[n]? = some T → M.tris[m]? = some S → n ≠ m → ∀ X, ¬ (M.Inside T X ∧ M.Inside S X)
  /-- the boundary edges are the sides of the convex hull -/
  sides : ∀ i j : ℤ, 0 ≤ i → i < M.points.length → 0 ≤ j → j < M.points.length → i ≠ j →
    ((i, j) ∈ M.bnd ↔ ∀ v : ℤ, 0 ≤ v → v < M.points.length → v ≠ i → v ≠ j → 0 < det3 (M.pos i) (M.pos j) (M.pos v))

end Srep
