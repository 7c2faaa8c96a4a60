import Verif.Spec.Area
import Mathlib.Data.List.Cycle

/-! Vertices on the straight line through their neighbours; independent of the code. -/

namespace Srep
variable {K : Type} [Field K] [LinearOrder K] [IsStrictOrderedRing K]

/-- `vs` are the vertices of a closed polygon in their order; whether the vertex `p` and its two neighbours satisfy `T` -/
def flatAt (T : Pt K → Pt K → Pt K → Bool) (vs : List (Pt K)) (p : Pt K) : Bool :=
  if h : p ∈ vs then T (vs.prev p h) p (vs.next p h) else false

/-- the vertices `ps` are looked at one after the other, each is left out if it and its neighbours at that time satisfy `T` -/
def thin (T : Pt K → Pt K → Pt K → Bool) (ps vs : List (Pt K)) : List (Pt K) :=
  ps.foldl (fun vs p => if flatAt T vs p then vs.erase p else vs) vs

/-- the three points are on a line -/
def onLine (a p b : Pt K) : Bool := decide (det3 a p b = 0)

/-- the corners of a closed polygon: the vertices that are not on the line through their neighbours -/
def polyCorners (vs : List (Pt K)) : List (Pt K) := vs.filter fun p => !flatAt onLine vs p

/-- twice the signed area of the closed polygon with the vertices `vs` -/
def shoelace (vs : List (Pt K)) : K := ((vs.zip (vs.rotate 1)).map fun e => e.1.x * e.2.y - e.2.x * e.1.y).sum

end Srep
