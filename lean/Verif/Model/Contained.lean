import Verif.Model.Polygon

/-!
# Cycles inside of other cycles (`contained_cycles`, geometry/SR_polygon_group.py:402-436)

A cycle is the list of its parts, a part is the list of its segments.  The result of a computation is `.ok`,
`.error (some x)` if the exception `x` is raised, and `.error none` if a random loop of `is_internal_point` has not
ended after `fuel` rounds.
-/

namespace Srep

section
variable {K : Type} [Field K] [LinearOrder K] [IsStrictOrderedRing K] [FloorRing K]

namespace Rt
variable (R : Rt K)

/-- `sum([x.point_set for x in _cycles[e]], [])`, geometry/SR_polygon_group.py:418, 422 -/
def cyclePoints (c : List (List (Seg K))) : List (Pt K) := c.flatMap R.pointSet

/-- `[p for p in _ch if _convhull.is_internal_point(p)]`, geometry/SR_polygon_group.py:424; `ω n` are the random
targets met at the n-th point -/
def internalPts (l : List (Seg K)) (fuel : ℕ) : (ℕ → ℕ → Pt K) → List (Pt K) → Option (List (Pt K))
  | _, [] => some []
  | ω, p :: ps =>
    match R.plInternal l p (ω 0) fuel with
    | none => none
    | some b => (internalPts l fuel (fun n => ω (n + 1)) ps).map fun r => if b then p :: r else r

/-- the body of the inner loop, geometry/SR_polygon_group.py:416-427: is `z` counted as contained in `e`?
`convex_hull` of fewer than two different tuples is a list, which has no method `is_internal_point`. -/
def containsCycle (e z : List (List (Seg K))) (ω : ℕ → ℕ → Pt K) (fuel : ℕ) : Except (Option PyErr) Bool :=
  match R.convexHull ((R.cyclePoints e).map fun w => (w.x, w.y)) with
  | .inl _ => if R.cyclePoints z = [] then .ok true else .error (some .attribute)
  | .inr (.error x) => .error (some x)
  | .inr (.ok l) =>
    match R.internalPts l fuel ω (R.cyclePoints z) with
    | none => .error none
    | some i => .ok (R.psetEq (R.pset i) (R.pset (R.cyclePoints z)))

/-- `contained_cycles`, geometry/SR_polygon_group.py:402-436, for the dict `segments_in_cycles`; `ω e z` are the random
targets met at the keys `e`, `z` -/
def containedCycles (cs : List (ℕ × List (List (Seg K)))) (ω : ℕ → ℕ → ℕ → ℕ → Pt K) (fuel : ℕ) :
    Except (Option PyErr) (List (ℕ × List ℕ)) :=
  cs.mapM fun e =>
    ((cs.filter fun z => decide (z.1 ≠ e.1)).mapM fun z =>
      (R.containsCycle e.2 z.2 (ω e.1 z.1) fuel).map fun b => (z.1, b)).map fun r =>
        (e.1, (r.filter Prod.snd).map Prod.fst)

end Rt
end
end Srep
