import Verif.Spec.Arc
import Mathlib.Analysis.SpecialFunctions.Trigonometric.Arctan

/-! A circle rounding off the corner of two lines; independent of the code.  A line is given by a point `p` of it and the
amount `t` it goes to the right per unit of height. -/

namespace Srep

/-- the circle about `m` with radius `r` touches the line through `p` with lean `t` in `q`: `q` is on the line and on the
circle, and the radius there is perpendicular to the line -/
def TouchesAt (m : Pt ℝ) (r : ℝ) (p : Pt ℝ) (t : ℝ) (q : Pt ℝ) : Prop :=
  q.x - p.x = t * (q.y - p.y) ∧ (q.x - m.x) ^ 2 + (q.y - m.y) ^ 2 = r ^ 2 ∧ (q.x - m.x) * t + (q.y - m.y) = 0

/-- length of a piece of a line with lean `t` per unit of height -/
noncomputable def leanLen (t : ℝ) : ℝ := Real.sqrt (1 + t ^ 2)

/-- angle of such a line to the vertical, in degrees -/
noncomputable def leanDeg (t : ℝ) : ℝ := Real.arctan t * (180 / Real.pi)

/-- centre of the circle with radius `r` to the left of two lines with leans `tu` and `tv` through `p`, at distance `r` from
both -/
noncomputable def filletCentre (p : Pt ℝ) (tu tv r : ℝ) : Pt ℝ :=
  let y := r * (leanLen tu - leanLen tv) / (tu - tv)
  ⟨p.x + tu * y - r * leanLen tu, p.y + y⟩

/-- the point at distance `d` (downwards, if negative) from `p` on the line with lean `t` -/
noncomputable def onWall (p : Pt ℝ) (t d : ℝ) : Pt ℝ := ⟨p.x + t * (d / leanLen t), p.y + d / leanLen t⟩

/-- distance of the touching points from the corner -/
noncomputable def tangentLen (tu tv r : ℝ) : ℝ := r * (leanLen tu * leanLen tv - 1 - tu * tv) / (tu - tv)

end Srep
