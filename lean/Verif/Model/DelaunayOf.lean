import Verif.Model.Polygon
import Verif.Model.Triangulate

/-!
# The points of a `Delaunay2d` object

The constructor and `update_points` take them from the polygon.
-/

namespace Srep
variable {K : Type} [Field K] [LinearOrder K] [IsStrictOrderedRing K] [FloorRing K]
namespace Rt
variable (R : Rt K)

/-- `add_internal_points`, geometry/SR_polygon.py:1205-1213; `cand k` is the Point made in round `k` (from random numbers in the
bounding box; any point here), `ω k` the random
targets drawn by `is_internal_point` in this round.  The arguments after these: the rounds that may still be made, the number of
the round, the number of points still missing (`nr_added_points` is taken as a natural number), the points.  `none`: not finished. -/
def addInternal (l : List (Seg K)) (cand : ℕ → Pt K) (ω : ℕ → ℕ → Pt K) (ifuel : ℕ) : ℕ → ℕ → ℕ → List (Pt K) → Option (List (Pt K))
  | _, _, 0, ps => some ps
  | 0, _, _ + 1, _ => none
  | f + 1, k, n + 1, ps =>
    match R.plInternal l (cand k) (ω k) ifuel with
    | none => none
    | some true => addInternal l cand ω ifuel f (k + 1) n (ps ++ [cand k])
    | some false => addInternal l cand ω ifuel f (k + 1) (n + 1) ps

/-- `self.points` after `update_points`, geometry/SR_polygon.py:1223-1228, and after the constructor, geometry/SR_polygon.py:1187-1194,
which sets `nr_added_points` to 0 (:1184); the elements of the set `set(self.points)`, which `list` gives in any order.  Deep copies of Points have the
same coordinates. -/
def updatePoints (l : List (Seg K)) (nr : ℕ) (cand : ℕ → Pt K) (ω : ℕ → ℕ → Pt K) (ifuel fuel : ℕ) : Option (List (Pt K)) :=
  (R.addInternal l cand ω ifuel fuel 0 nr (R.pointSet l)).map R.pset

end Rt
end Srep
