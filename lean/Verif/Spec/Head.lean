import Verif.Spec.Arc
import Mathlib.Analysis.SpecialFunctions.Trigonometric.Inverse

/-! The outline of a torispherical head as it is drawn in the standards (DIN 28011, DIN 28013); independent of the code. -/

namespace Srep

/-- the shape of a head of diameter 1: radii of the dish and of the knuckle -/
structure HeadShape where
  r1 : ℝ
  r2 : ℝ
  pos : 0 < r2
  half : r2 < 1 / 2
  dish : 1 / 2 < r1

/-- sine of half the opening angle of the dish -/
noncomputable def HeadShape.sinA (s : HeadShape) : ℝ := (1 / 2 - s.r2) / (s.r1 - s.r2)

/-- half the opening angle of the dish, in degrees -/
noncomputable def HeadShape.al (s : HeadShape) : ℝ := Real.arcsin s.sinA * (180 / Real.pi)

/-- the distance of the centre of the dish below the centres of the knuckles -/
noncomputable def HeadShape.depth (s : HeadShape) : ℝ := (s.r1 - s.r2) * Real.cos (Real.arcsin s.sinA)

/-- The vertices of the outline of a head of diameter `d` and cylindrical height `h1` above its base line through the origin,
counter-clockwise: the foot of the right cylinder, the right knuckle in 3 steps, the dish in 8 steps, the left knuckle in 3
steps, the foot of the left cylinder. -/
noncomputable def HeadShape.vertex (s : HeadShape) (d h1 : ℝ) (k : ℕ) : Pt ℝ :=
  if k = 0 then ⟨d / 2, 0⟩
  else if k < 4 then onCircle (d / 2 - s.r2 * d) h1 (s.r2 * d) ((k - 1 : ℕ) * ((90 - s.al) / 3))
  else if k < 12 then onCircle 0 (h1 - s.depth * d) (s.r1 * d) (90 - s.al + (k - 4 : ℕ) * (s.al / 4))
  else if k < 16 then onCircle (-(d / 2 - s.r2 * d)) h1 (s.r2 * d) (90 + s.al + (k - 12 : ℕ) * ((90 - s.al) / 3))
  else ⟨-(d / 2), 0⟩

/-- Klöpperboden, DIN 28011: dish of radius d, knuckle of radius 0.1 d -/
noncomputable def klopperShape : HeadShape := ⟨1, 1 / 10, by norm_num, by norm_num, by norm_num⟩

/-- Korbbogenboden, DIN 28013: dish of radius 0.8 d, knuckle of radius 0.154 d -/
noncomputable def korbbogenShape : HeadShape := ⟨8 / 10, 154 / 1000, by norm_num, by norm_num, by norm_num⟩

/-- a point of the drawing of a head put in its place: turned by 180 degrees if the head is `down`, then moved to (x0, y0) -/
def headPlace (down : Prop) [Decidable down] (x0 y0 : ℝ) (p : Pt ℝ) : Pt ℝ :=
  if down then ⟨x0 - p.x, y0 - p.y⟩ else ⟨x0 + p.x, y0 + p.y⟩

end Srep
