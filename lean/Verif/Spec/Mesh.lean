import Verif.Model.Delaunay
import Verif.Spec.Geom

/-! Plain notions about triangle meshes the properties are stated with; independent of the code. -/

namespace Srep
variable {K : Type}

/-- `v` is a vertex of the triangle -/
def Tri.Has (t : Tri) (v : ℤ) : Prop := v = t.a ∨ v = t.b ∨ v = t.c

/-- three different vertices -/
def Tri.Proper (t : Tri) : Prop := t.a ≠ t.b ∧ t.b ≠ t.c ∧ t.a ≠ t.c

/-- `e` is an edge of the triangle, smaller number first -/
def Tri.HasEdge (t : Tri) (e : ℤ × ℤ) : Prop := e.1 < e.2 ∧ t.Has e.1 ∧ t.Has e.2

/-- triangle number `n` of the mesh has the edge `e` -/
def Mesh.At (M : Mesh K) (n : ℕ) (e : ℤ × ℤ) : Prop := ∃ T, M.tris[n]? = some T ∧ T.HasEdge e

/-- Everything the table says is true: the triangles have three different vertices, a key is a pair of
numbers in ascending order, and it lists triangles having that edge, each once. -/
structure Mesh.Sound (M : Mesh K) : Prop where
  proper : ∀ T ∈ M.tris, T.Proper
  key : ∀ e l, M.e2t e = some l → e.1 < e.2
  nodup : ∀ e l, M.e2t e = some l → l.Nodup
  sound : ∀ e l, M.e2t e = some l → ∀ n ∈ l, M.At n e

/-- The table is sound and lists every edge of every triangle. -/
structure Mesh.Consistent (M : Mesh K) : Prop extends M.Sound where
  complete : ∀ n e, M.At n e → ∃ l, M.e2t e = some l ∧ n ∈ l

/-- no edge has more than two triangles -/
def Mesh.AtMostTwo (M : Mesh K) : Prop := ∀ e l, M.e2t e = some l → l.length ≤ 2

/-- all vertices are numbers of points -/
def Mesh.InRange (M : Mesh K) : Prop := ∀ T ∈ M.tris, ∀ v, T.Has v → 0 ≤ v ∧ v < M.points.length

/-- exactly one triangle of the mesh has both vertices -/
def Mesh.Single (M : Mesh K) (e : ℤ × ℤ) : Prop :=
  ∃ (n : ℕ) (T : Tri), M.tris[n]? = some T ∧ T.Has e.1 ∧ T.Has e.2 ∧
    ∀ (m : ℕ) (S : Tri), M.tris[m]? = some S → S.Has e.1 → S.Has e.2 → m = n

/-- The stored boundary is a set of directed edges having one triangle each; at most one of them starts and at
most one ends at a vertex, and none is stored in both directions. -/
structure Mesh.Bounded (M : Mesh K) : Prop where
  nodup : M.bnd.Nodup
  ne : ∀ e ∈ M.bnd, e.1 ≠ e.2
  single : ∀ e ∈ M.bnd, M.Single e
  starts : ∀ e ∈ M.bnd, ∀ f ∈ M.bnd, e.1 = f.1 → e = f
  ends : ∀ e ∈ M.bnd, ∀ f ∈ M.bnd, e.2 = f.2 → e = f
  once : ∀ e ∈ M.bnd, (e.2, e.1) ∉ M.bnd

section
variable [Field K]

/-- location of a vertex -/
def Mesh.pos (M : Mesh K) (v : ℤ) : Pt K := (pyGet M.points v).getD ⟨0, 0⟩

/-- twice the signed area of a triangle of the mesh -/
def Mesh.area (M : Mesh K) (T : Tri) : K := det3 (M.pos T.a) (M.pos T.b) (M.pos T.c)

variable [LinearOrder K]

/-- The two triangles at a common edge lie strictly on opposite sides of it. -/
def Mesh.Planar (M : Mesh K) : Prop :=
  ∀ x n m T S u v, M.e2t x = some [n, m] → M.tris[n]? = some T → M.tris[m]? = some S →
    T.Has u → u ≠ x.1 → u ≠ x.2 → S.Has v → v ≠ x.1 → v ≠ x.2 →
    det3 (M.pos x.1) (M.pos x.2) (M.pos u) * det3 (M.pos x.1) (M.pos x.2) (M.pos v) < 0

/-- the triangle at a boundary edge lies strictly to the left of it -/
def Mesh.LeftOfBoundary (M : Mesh K) : Prop :=
  ∀ e ∈ M.bnd, ∀ T ∈ M.tris, ∀ u, T.Has e.1 → T.Has e.2 → T.Has u → u ≠ e.1 → u ≠ e.2 →
    0 < det3 (M.pos e.1) (M.pos e.2) (M.pos u)

/-- twice the total area of the triangles -/
def Mesh.total (M : Mesh K) : K := (M.tris.map fun T => |M.area T|).sum

end

end Srep
