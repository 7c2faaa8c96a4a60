import Verif.Spec.Geom
import Mathlib.Analysis.SpecialFunctions.Trigonometric.Basic

/-! Circles in the plane; independent of the code. -/

namespace Srep

/-- the point of the circle about (cx, cy) with radius r at the angle of `t` degrees, counted counter-clockwise from the x axis -/
noncomputable def onCircle (cx cy r t : ℝ) : Pt ℝ :=
  ⟨cx + r * Real.cos (t * (Real.pi / 180)), cy + r * Real.sin (t * (Real.pi / 180))⟩

/-- `p` is at most `e` away from `q` in each coordinate -/
def Near (e : ℝ) (p q : Pt ℝ) : Prop := |p.x - q.x| ≤ e ∧ |p.y - q.y| ≤ e

end Srep
