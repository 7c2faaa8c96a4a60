import Verif.Spec.Geom
import Verif.Lemmas.Real
import Mathlib.Tactic.LinearCombination

/-! The quadrilateral around a flipped edge, and the angle sum test, in exact arithmetic. -/

namespace Srep

section
variable {K : Type} [Field K] [LinearOrder K] [IsStrictOrderedRing K]

/-- scalar product of o→p and o→q -/
def dot3 (o p q : Pt K) : K := (p.x - o.x) * (q.x - o.x) + (p.y - o.y) * (q.y - o.y)

/-- squared distance from the origin -/
def sqn (p : Pt K) : K := p.x * p.x + p.y * p.y

theorem det3_rot (a b c : Pt K) : det3 b c a = det3 a b c := by unfold det3; ring
theorem det3_swap (a b c : Pt K) : det3 a c b = -det3 a b c := by unfold det3; ring
theorem det3_swap' (a b c : Pt K) : det3 b a c = -det3 a b c := by unfold det3; ring

/-- the weighted sum whose sign is that of the sine of the sum of the two angles -/
def cotSum (p q a b : Pt K) : K := det3 a p q * dot3 b p q + dot3 a p q * det3 b q p

theorem quad_area (p q a b : Pt K) : det3 a p b + det3 a b q = det3 a p q + det3 b q p := by
  unfold det3; ring

theorem cot_flip (p q a b : Pt K) :
    cotSum a b q p = -cotSum p q a b := by
  unfold cotSum det3 dot3; ring

theorem quad_first (p q a b : Pt K) :
    det3 a p b * dist2 p q = det3 a p q * dist2 b p + det3 b q p * dist2 a p - cotSum p q a b := by
  unfold cotSum det3 dot3 dist2; ring

theorem quad_second (p q a b : Pt K) :
    det3 a b q * dist2 p q = det3 a p q * dist2 b q + det3 b q p * dist2 a q - cotSum p q a b := by
  unfold cotSum det3 dot3 dist2; ring

theorem dist2_nonneg (a b : Pt K) : 0 ≤ dist2 a b := by
  unfold dist2; nlinarith [mul_self_nonneg (a.x - b.x), mul_self_nonneg (a.y - b.y)]

/-- If a and b are strictly on opposite sides of pq and the angle sum test is positive, both new triangles
have positive area: the quadrilateral is convex. -/
theorem quad_convex {p q a b : Pt K} (h1 : 0 < det3 a p q) (h2 : 0 < det3 b q p) (h : cotSum p q a b < 0) :
    0 < det3 a p b ∧ 0 < det3 a b q := by
  have d := dist2_nonneg p q
  have e1 := mul_nonneg h1.le (dist2_nonneg b p)
  have e2 := mul_nonneg h2.le (dist2_nonneg a p)
  have e3 := mul_nonneg h1.le (dist2_nonneg b q)
  have e4 := mul_nonneg h2.le (dist2_nonneg a q)
  have f1 : 0 < det3 a p b * dist2 p q := by rw [quad_first]; linarith
  have f2 : 0 < det3 a b q * dist2 p q := by rw [quad_second]; linarith
  exact ⟨pos_of_mul_pos_left f1 d, pos_of_mul_pos_left f2 d⟩

/-- Change of the potential Σ area · (sum of squared distances from the origin of the vertices) by a flip -/
theorem quad_potential (p q a b : Pt K) :
    det3 a p q * (sqn a + sqn p + sqn q) + det3 b q p * (sqn b + sqn p + sqn q)
      - (det3 a p b * (sqn a + sqn p + sqn b) + det3 a b q * (sqn a + sqn b + sqn q)) = -cotSum p q a b := by
  unfold cotSum det3 dot3 sqn; ring

end

/-- Law of `math.atan2` used by the flip test: `math.pi` is not negative, and if the absolute values of two
angles (of vectors not on the x-axis) sum up to more than π, the sine of the sum is negative. -/
structure Rt.IsExactAngle {K : Type} [Field K] [LinearOrder K] (R : Rt K) : Prop where
  pi_nonneg : 0 ≤ R.trig.atan2 0 (-1)
  sum : ∀ c1 d1 c2 d2, c1 ≠ 0 → c2 ≠ 0 → R.trig.atan2 0 (-1) < |R.trig.atan2 c1 d1| + |R.trig.atan2 c2 d2| →
    |c1| * d2 + d1 * |c2| < 0

theorem Rt.real_isExactAngle (h : ℝ → ℝ → Int) : (Rt.real h).IsExactAngle := by
  have hpi : (Rt.real h).trig.atan2 0 (-1) = Real.pi := by
    have e : (⟨-1, 0⟩ : ℂ) = -1 := by apply Complex.ext <;> simp
    simp only [Rt.real]
    rw [e, Complex.arg_neg_one]
  refine ⟨by rw [hpi]; exact Real.pi_pos.le, ?_⟩
  intro c1 d1 c2 d2 h1 h2 hs
  rw [hpi] at hs
  simp only [Rt.real] at hs
  have main : ∀ c d : ℝ, c ≠ 0 → 0 < ‖(⟨d, c⟩ : ℂ)‖ ∧ Real.sin |Complex.arg ⟨d, c⟩| * ‖(⟨d, c⟩ : ℂ)‖ = |c| ∧
      Real.cos |Complex.arg ⟨d, c⟩| * ‖(⟨d, c⟩ : ℂ)‖ = d ∧ |Complex.arg ⟨d, c⟩| < Real.pi := by
    intro c d hc
    have hz : (⟨d, c⟩ : ℂ) ≠ 0 := by
      intro hh; rw [Complex.ext_iff] at hh; simp at hh; tauto
    have hn : 0 < ‖(⟨d, c⟩ : ℂ)‖ := norm_pos_iff.2 hz
    refine ⟨hn, ?_, ?_, ?_⟩
    · have : Real.sin |Complex.arg ⟨d, c⟩| = |Real.sin (Complex.arg ⟨d, c⟩)| := by
        rcases le_total 0 (Complex.arg ⟨d, c⟩) with hh | hh
        · rw [abs_of_nonneg hh, abs_of_nonneg (Real.sin_nonneg_of_nonneg_of_le_pi hh (Complex.arg_le_pi _))]
        · rw [abs_of_nonpos hh, Real.sin_neg, abs_of_nonpos]
          exact Real.sin_nonpos_of_nonpos_of_neg_pi_le hh (Complex.neg_pi_lt_arg _).le
      rw [this, Complex.sin_arg, abs_div, abs_norm, div_mul_cancel₀ _ hn.ne']
    · rw [Real.cos_abs, Complex.cos_arg hz, div_mul_cancel₀ _ hn.ne']
    · refine lt_of_le_of_ne (Complex.abs_arg_le_pi _) ?_
      intro hh
      have h3 : Complex.arg ⟨d, c⟩ = Real.pi := by
        rcases (abs_eq Real.pi_pos.le).1 hh with h4 | h4
        · exact h4
        · have := Complex.neg_pi_lt_arg ⟨d, c⟩; linarith
      have := (Complex.arg_eq_pi_iff.1 h3).2
      exact hc this
  obtain ⟨n1, s1, k1, l1⟩ := main c1 d1 h1
  obtain ⟨n2, s2, k2, l2⟩ := main c2 d2 h2
  set α := |Complex.arg ⟨d1, c1⟩|
  set β := |Complex.arg ⟨d2, c2⟩|
  have hsin : Real.sin (α + β) < 0 := by
    have : 0 < Real.sin (α + β - Real.pi) := Real.sin_pos_of_pos_of_lt_pi (by linarith) (by linarith)
    rw [Real.sin_sub_pi] at this
    linarith
  rw [Real.sin_add] at hsin
  have : |c1| * d2 + d1 * |c2| = (Real.sin α * Real.cos β + Real.cos α * Real.sin β)
      * (‖(⟨d1, c1⟩ : ℂ)‖ * ‖(⟨d2, c2⟩ : ℂ)‖) := by
    linear_combination (-d2) * s1 - (Real.sin α * ‖(⟨d1, c1⟩ : ℂ)‖) * k2
      - (Real.sin β * ‖(⟨d2, c2⟩ : ℂ)‖) * k1 - d1 * s2
  rw [this]
  exact mul_neg_of_neg_of_pos hsin (mul_pos n1 n2)

end Srep
