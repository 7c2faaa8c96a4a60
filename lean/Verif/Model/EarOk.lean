import Verif.Model.Area
import Verif.Model.TriRel

/-!
# `triangle_ok` of `ear_clipping` (geometry/SR_polygon.py)

Like the function of the same name in `triangle_mesh` (Model/Area.lean), with one more test: no two of the segments of
polygon and triangle may cross.
-/

namespace Srep
section
variable {K : Type} [Field K] [LinearOrder K] [IsStrictOrderedRing K] [FloorRing K]

namespace Rt
variable (R : Rt K)

/-- `triangle_ok` of `ear_clipping`, geometry/SR_polygon.py:769-790; `l` and `T` are the segments of polygon and triangle,
`.error none`: a test of a point has not ended.  `ω 0` are the random targets of the test of the midpoint, `ω (n + 1)` those of
the n-th vertex tested. -/
def earOk (l T : List (Seg K)) (ω : ℕ → ℕ → Pt K) (fuel : ℕ) : Except (Option PyErr) Bool :=
  match R.plMidpoint T with
  | .error e => .error (some e)
  | .ok M =>
    match R.plInternal l M (ω 0) fuel with
    | none => .error none
    | some false => .ok false
    | some true =>
      match R.internalPts T fuel (fun n => ω (n + 1))
          ((R.pointSet l).filter fun x => !(R.pointSet T).any fun y => R.peq y x) with
      | none => .error none
      | some (_ :: _) => .ok false
      | some [] =>
        if (twoOf (l ++ T)).any fun x => R.intersectionOnSegment x.1 x.2 then .ok false
        else
          match R.triArea T with
          | .error e => .error (some e)
          | .ok A => .ok (!decide (A ≤ 0))

/-- `triangle_ok` as `ear_clipping` calls it in a round, geometry/SR_polygon.py:825-828: on the polygon left over and the
triangle built last, with the targets of this round.  Simplified: an answer that is not True counts as False, whatever
the reason. -/
def earTok (ω : ℕ → ℕ → ℕ → Pt K) (fuel : ℕ) (n : ℕ) (h : Heap K) (C T : PLine) : Bool :=
  match R.earOk (h.vals C.segs) (h.vals T.segs) (ω n) fuel with
  | .ok true => true
  | _ => false

end Rt
end
end Srep
