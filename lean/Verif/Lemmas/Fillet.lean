import Verif.Spec.Fillet
import Verif.Lemmas.Exact

/-! Facts about the circle rounding off a corner -/

namespace Srep

theorem leanLen_pos (t : ℝ) : 0 < leanLen t := Real.sqrt_pos.2 (by positivity)

theorem leanLen_sq (t : ℝ) : leanLen t * leanLen t = 1 + t ^ 2 := Real.mul_self_sqrt (by positivity)

theorem leanLen_one (t : ℝ) : 1 ≤ leanLen t := by
  have h1 := leanLen_sq t
  have h2 := leanLen_pos t
  nlinarith [sq_nonneg t]

theorem leanLen_abs (t : ℝ) : leanLen |t| = leanLen t := by unfold leanLen; rw [sq_abs]

theorem cos_lean (t : ℝ) : Real.cos (leanDeg t * (Real.pi / 180)) = 1 / leanLen t := by
  have : leanDeg t * (Real.pi / 180) = Real.arctan t := by
    unfold leanDeg
    have := Real.pi_pos.ne'
    field_simp
  rw [this, Real.cos_arctan]
  rfl

theorem sin_lean (t : ℝ) : Real.sin (leanDeg t * (Real.pi / 180)) = t / leanLen t := by
  have : leanDeg t * (Real.pi / 180) = Real.arctan t := by
    unfold leanDeg
    have := Real.pi_pos.ne'
    field_simp
  rw [this, Real.sin_arctan]
  rfl

theorem leanDeg_lt {s t : ℝ} : leanDeg s < leanDeg t ↔ s < t := by
  unfold leanDeg
  rw [mul_lt_mul_iff_left₀ (by have := Real.pi_pos; positivity)]
  exact Real.arctan_strictMono.lt_iff_lt

theorem leanDeg_nonneg {t : ℝ} (h : 0 ≤ t) : 0 ≤ leanDeg t := by
  have := Real.arctan_nonneg.2 h
  have := Real.pi_pos
  unfold leanDeg
  positivity

theorem leanDeg_pos {t : ℝ} (h : 0 < t) : 0 < leanDeg t := by
  have := Real.arctan_pos.2 h
  have := Real.pi_pos
  unfold leanDeg
  positivity

theorem leanDeg_lt_90 (t : ℝ) : leanDeg t < 90 := by
  have h := Real.arctan_lt_pi_div_two t
  have hp := Real.pi_pos
  unfold leanDeg
  rw [mul_div_assoc', div_lt_iff₀ hp]
  linarith

/-- the point of the circle at the angle of `360 - leanDeg t` degrees -/
theorem onCircle_lean (x y r t : ℝ) : onCircle x y r (360 - leanDeg t) = ⟨x + r / leanLen t, y - r * t / leanLen t⟩ := by
  unfold onCircle
  have : (360 - leanDeg t) * (Real.pi / 180) = 2 * Real.pi - leanDeg t * (Real.pi / 180) := by ring
  rw [this, Real.cos_two_pi_sub, Real.sin_two_pi_sub, cos_lean, sin_lean]
  congr 1 <;> ring

/-- the circle touches the lower line below the corner -/
theorem fillet_lower (p : Pt ℝ) {tu tv r : ℝ} (h : tv < tu) :
    TouchesAt (filletCentre p tu tv r) r p tu (onWall p tu (-tangentLen tu tv r)) ∧
    onWall p tu (-tangentLen tu tv r) = ⟨(filletCentre p tu tv r).x + r / leanLen tu, (filletCentre p tu tv r).y - r * tu / leanLen tu⟩ := by
  have hd : tu - tv ≠ 0 := by linarith
  have su := leanLen_sq tu
  have sv := leanLen_sq tv
  have pu := (leanLen_pos tu).ne'
  have e : onWall p tu (-tangentLen tu tv r) = ⟨(filletCentre p tu tv r).x + r / leanLen tu, (filletCentre p tu tv r).y - r * tu / leanLen tu⟩ := by
    unfold onWall filletCentre tangentLen
    dsimp only
    congr 1
    · field_simp
      linear_combination (-r * tv) * su
    · field_simp
      linear_combination (-r) * su
  refine ⟨?_, e⟩
  refine ⟨?_, ?_, ?_⟩
  · unfold onWall; dsimp only; ring
  · rw [e]
    dsimp only
    field_simp
    linear_combination (-r ^ 2) * su
  · rw [e]
    dsimp only
    ring

/-- and the upper line above it -/
theorem fillet_upper (p : Pt ℝ) {tu tv r : ℝ} (h : tv < tu) :
    TouchesAt (filletCentre p tu tv r) r p tv (onWall p tv (tangentLen tu tv r)) ∧
    onWall p tv (tangentLen tu tv r) = ⟨(filletCentre p tu tv r).x + r / leanLen tv, (filletCentre p tu tv r).y - r * tv / leanLen tv⟩ := by
  have hd : tu - tv ≠ 0 := by linarith
  have su := leanLen_sq tu
  have sv := leanLen_sq tv
  have pv := (leanLen_pos tv).ne'
  have e : onWall p tv (tangentLen tu tv r) = ⟨(filletCentre p tu tv r).x + r / leanLen tv, (filletCentre p tu tv r).y - r * tv / leanLen tv⟩ := by
    unfold onWall filletCentre tangentLen
    dsimp only
    congr 1
    · field_simp
      linear_combination (r * tu) * sv
    · field_simp
      linear_combination r * sv
  refine ⟨?_, e⟩
  refine ⟨?_, ?_, ?_⟩
  · unfold onWall; dsimp only; ring
  · rw [e]
    dsimp only
    field_simp
    linear_combination (-r ^ 2) * sv
  · rw [e]
    dsimp only
    ring

theorem tangentLen_pos {tu tv r : ℝ} (h : tv < tu) (hr : 0 < r) : 0 < tangentLen tu tv r := by
  have su := leanLen_sq tu
  have sv := leanLen_sq tv
  have pu := leanLen_pos tu
  have pv := leanLen_pos tv
  have key : 1 + tu * tv < leanLen tu * leanLen tv := by
    by_contra hc
    push Not at hc
    have h0 : 0 < leanLen tu * leanLen tv := mul_pos pu pv
    have h1 : (leanLen tu * leanLen tv) ^ 2 ≤ (1 + tu * tv) ^ 2 := by gcongr
    have h2 : (leanLen tu * leanLen tv) ^ 2 = (1 + tu ^ 2) * (1 + tv ^ 2) := by rw [← su, ← sv]; ring
    nlinarith [sq_nonneg (tu - tv), sub_pos.2 h]
  unfold tangentLen
  apply div_pos (mul_pos hr (by linarith)) (by linarith)

end Srep
