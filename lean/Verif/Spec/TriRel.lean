import Verif.Spec.Area

/-! Two triangles in the plane; independent of the code. -/

namespace Srep
variable {K : Type} [Field K] [LinearOrder K] [IsStrictOrderedRing K] [FloorRing K]

/-- the two segments have an end in common -/
def Joined (s o : Seg K) : Prop := s.i = o.i ∨ s.i = o.j ∨ s.j = o.i ∨ s.j = o.j

/-- a multiple of 1e-8 in both coordinates -/
def OnGrid (p : Pt K) : Prop := (∃ n : ℤ, p.x = n / 10 ^ 8) ∧ ∃ n : ℤ, p.y = n / 10 ^ 8

/-- Two counter-clockwise triangles that may share corners or sides, but otherwise have no corner on or near the line of a
side of the other one, and whose sides cross clearly (and not near corners) or miss clearly. -/
structure TriPlaced (t u : Pt K × Pt K × Pt K) : Prop where
  left : 0 < det3 t.1 t.2.1 t.2.2
  left' : 0 < det3 u.1 u.2.1 u.2.2
  grid : ∀ p, IsCorner t p ∨ IsCorner u p → OnGrid p
  apart : Apart (1 / 10 ^ 5) {p | IsCorner t p ∨ IsCorner u p}
  off : ∀ s ∈ triSegs t, ∀ p, IsCorner u p → (p = s.i ∨ p = s.j) ∨ 1 / 10 ^ 8 ≤ |det3 s.i s.j p|
  off' : ∀ s ∈ triSegs u, ∀ p, IsCorner t p → (p = s.i ∨ p = s.j) ∨ 1 / 10 ^ 8 ≤ |det3 s.i s.j p|
  clear : ∀ s ∈ triSegs t, ∀ o ∈ triSegs u, ¬ Joined s o → Clear s.i s.j o
  far : ∀ s ∈ triSegs t, ∀ o ∈ triSegs u, ¬ Joined s o → ∀ X, OnSeg s X → OnSeg o X → ∀ p, IsCorner t p ∨ IsCorner u p →
    2 / 10 ^ 5 ≤ |X.x - p.x| ∨ 2 / 10 ^ 5 ≤ |X.y - p.y|

/-- the same three corners -/
def SameCorners (t u : Pt K × Pt K × Pt K) : Prop := ∀ p, IsCorner t p ↔ IsCorner u p

/-- a point strictly inside of both triangles -/
def CommonInside (t u : Pt K × Pt K × Pt K) : Prop := ∃ X, InsideCcw (triSegs t) X ∧ InsideCcw (triSegs u) X

/-- the closed triangle -/
def InClosed (t : Pt K × Pt K × Pt K) (p : Pt K) : Prop := ∀ s ∈ triSegs t, 0 ≤ det3 s.i s.j p

/-- the triangles share exactly one side -/
def ShareSide (t u : Pt K × Pt K × Pt K) : Prop :=
  (∃ s ∈ triSegs t, ∃ o ∈ triSegs u, SameEdge s o) ∧ ¬ SameCorners t u

/-- plain LineSegments drawing the three sides of the triangle, in any order and direction -/
def Draws (l : List (Seg K)) (t : Pt K × Pt K × Pt K) : Prop := SameDrawing l (triSegs t) ∧ ∀ s ∈ l, s.cls = .line

/-- the targets of the point tests of the points `ps` against the triangle `t` are in general position -/
def Aims (t : Pt K × Pt K × Pt K) (ps : List (Pt K)) (ω : ℕ → ℕ → Pt K) : Prop :=
  ∀ n p, ps[n]? = some p → ¬ IsCorner t p → ∀ k < 3, GoodTarget (triSegs t) p (ω n k) ∧ Spread (triSegs t) p (ω n k)

end Srep
