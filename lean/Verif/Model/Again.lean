import Verif.Model.Triangulate
import Mathlib.Data.Set.Finite.Basic

/-!
# `Delaunay2d.triangulate` on an object in any state

`Model/Triangulate.lean` has the call on a new object.  `update_points` renews `self.points` only, so a second call starts with the
triangles, the table and the boundary of the first one.
-/

namespace Srep

/-- the dict has finitely many keys -/
def E2T.Fin (d : E2T) : Prop := {x | (d x).isSome}.Finite

/-- `ks` gives the keys of the tables, `self.edge2Triangles.keys()`, geometry/SR_polygon.py:1449 -/
def KeysOf {K : Type} (ks : Mesh K → List (ℤ × ℤ)) : Prop := ∀ M : Mesh K, M.e2t.Fin → ∀ x, x ∈ ks M ↔ (M.e2t x).isSome

section
variable {K : Type} [Field K] [LinearOrder K] [IsStrictOrderedRing K] [FloorRing K]
namespace Rt
variable (R : Rt K)

/-- `addPoint` on an object in any state, geometry/SR_polygon.py:1468-1527; `ks M` are the keys of the table `M.e2t` -/
def addPointOn (O : Orders) (ks : Mesh K → List (ℤ × ℤ)) (M : Mesh K) (ip : ℤ) (fuel : ℕ) : Option (Except PyErr (Mesh K)) :=
  match R.addPoint { M with bnd := O.bnd ip M.bnd } ip with
  | .error x => some (.error x)
  | .ok M1 => R.flipEdgesBy O ip M1 (ks M1) 0 fuel

/-- the last loop of `triangulate`, geometry/SR_polygon.py:1290-1292 -/
def addAllOn (O : Orders) (ks : Mesh K → List (ℤ × ℤ)) (fuel : ℕ) : List ℤ → Mesh K → Option (Except PyErr (Mesh K))
  | [], M => some (.ok M)
  | i :: l, M =>
    match R.addPointOn O ks M i fuel with
    | none => none
    | some (.error x) => some (.error x)
    | some (.ok M1) => addAllOn O ks fuel l M1

/-- `triangulate`, geometry/SR_polygon.py:1234-1292, on an object with the fields `M0`; `ps` is what `update_points` leaves in
`self.points`.  The first triangle is appended, its edges are added to the set of boundary edges and its three entries of the table are
overwritten by `[0]`, whatever the number of the triangle. -/
def triangulateOn (O : Orders) (ks : Mesh K → List (ℤ × ℤ)) (M0 : Mesh K) (ps : List (Pt K)) (fuel : ℕ) :
    Option (Except PyErr (Mesh K)) :=
  match R.centroid ps with
  | .error x => some (.error x)
  | .ok c =>
    let l := R.dropFlat (R.sortedFrom c ps)
    if 3 ≤ l.length then
      match R.makeCcw l ⟨0, 1, 2⟩ with
      | .error x => some (.error x)
      | .ok t => R.addAllOn O ks fuel (O.pops l.length) ⟨l, M0.tris ++ [t],
          ((M0.e2t.set (makeKey t.a t.b) [0]).set (makeKey t.b t.c) [0]).set (makeKey t.c t.a) [0],
          M0.bnd ∪ [(t.a, t.b), (t.b, t.c), (t.c, t.a)]⟩
    else some (.ok { M0 with points := l })

end Rt
end
end Srep
