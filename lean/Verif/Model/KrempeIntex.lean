import Verif.Model.Intex
import Verif.Model.Krempe

/-! # Reference points of the knuckle between cone and shell (SR_Vessel/SR_hauptteile.py) -/

namespace Srep
namespace Rt
variable {K : Type} [Field K] [LinearOrder K] [IsStrictOrderedRing K] [FloorRing K] {ν : Type} (R : Rt K)

/-- `intex_points[s]` of a `KegelKrempe`, SR_Vessel/SR_hauptteile.py:1250-1282, for the segment `s` of its graph; `l` are the
segments of the part.  The routine of `Mantel` with other constants. -/
def krempeIntex (l : List (Seg K)) (posH : K) (s : Seg K) (ω : ℕ → ℕ → ℕ → Pt K) (fuel : ℕ) :
    Except (Option PyErr) (List (Pt K) × List (Pt K)) :=
  match R.intexFour posH 500 20 s with
  | .error e => .error (some e)
  | .ok r => R.intexSort l fuel ω r

/-- a `KegelKrempe` with the segments `l` and the graph `segs`, SR_Vessel/SR_hauptteile.py:1024-1028 and
geometry/SR_polygon_group.py:770-789; `ω e i` are the targets met in the evaluation `e` of `intex_points` for the segment
number `i` -/
def krempePart (name : ν) (l segs : List (Seg K)) (posH : K) (ω : ℕ → ℕ → ℕ → ℕ → ℕ → Pt K) (fuel : ℕ) :
    Except (Option PyErr) (GPart ν K) :=
  graphPart name segs fun e => evalAll (fun i s => R.krempeIntex l posH s (ω e i) fuel) 0 segs

end Rt
end Srep
