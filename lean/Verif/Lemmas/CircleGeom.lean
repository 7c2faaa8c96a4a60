import Verif.Lemmas.FlipGeom
import Verif.Spec.Circle
import Mathlib.Analysis.Real.Pi.Bounds

/-! The circle through three points, in exact arithmetic. -/

namespace Srep

section
variable {K : Type} [Field K] [LinearOrder K] [IsStrictOrderedRing K]

theorem circDet_eq (p q a b : Pt K) : circDet a p q b = -cotSum p q a b := by
  unfold circDet cotSum det3 dot3 dist2; ring

theorem cot_centre {z p q a : Pt K} (h1 : dist2 z a = dist2 z p) (h2 : dist2 z p = dist2 z q) (b : Pt K) :
    cotSum p q a b = det3 a p q * (dist2 z b - dist2 z a) := by
  have h3 : dist2 z a = dist2 z q := h1.trans h2
  have e : cotSum p q a b = det3 a p q * (dist2 z b - dist2 z a) + det3 a b q * (dist2 z a - dist2 z p)
      + det3 a p b * (dist2 z a - dist2 z q) := by
    unfold cotSum det3 dot3 dist2; ring
  rw [e, ← h1, ← h3]; ring

theorem exists_centre {a b c : Pt K} (h : det3 a b c ≠ 0) : ∃ z, dist2 z a = dist2 z b ∧ dist2 z b = dist2 z c := by
  obtain ⟨k, hk⟩ : ∃ k, 2 * det3 a b c * k = 1 := ⟨(2 * det3 a b c)⁻¹, mul_inv_cancel₀ (mul_ne_zero two_ne_zero h)⟩
  refine ⟨⟨a.x + k * ((c.y - a.y) * dist2 a b - (b.y - a.y) * dist2 a c),
    a.y + k * ((b.x - a.x) * dist2 a c - (c.x - a.x) * dist2 a b)⟩, ?_, ?_⟩
  · unfold det3 at hk
    unfold dist2
    linear_combination ((a.x - b.x) ^ 2 + (a.y - b.y) ^ 2) * hk
  · unfold det3 at hk
    unfold dist2
    linear_combination (((a.x - c.x) ^ 2 + (a.y - c.y) ^ 2) - ((a.x - b.x) ^ 2 + (a.y - b.y) ^ 2)) * hk

/-- the power of a point in the circle through three points -/
def power (a b c p : Pt K) : K := cotSum b c a p / det3 a b c

theorem power_rot (a b c p : Pt K) : power b c a p = power a b c p := by
  unfold power
  rw [det3_rot]
  congr 1
  unfold cotSum det3 dot3; ring

theorem power_swap (a b c p : Pt K) : power b a c p = power a b c p := by
  unfold power
  have e1 : det3 b a c = -det3 a b c := by unfold det3; ring
  have e2 : cotSum a c b p = -cotSum b c a p := by unfold cotSum det3 dot3; ring
  rw [e1, e2, neg_div_neg_eq]

theorem power_centre {z a b c : Pt K} (hd : det3 a b c ≠ 0) (h1 : dist2 z a = dist2 z b) (h2 : dist2 z b = dist2 z c)
    (p : Pt K) : power a b c p = dist2 z p - dist2 z a := by
  unfold power
  rw [cot_centre h1 h2, mul_div_cancel_left₀ _ hd]

/-- how the power changes from a triangle to its neighbour -/
theorem power_step {i j u v p : Pt K} (hu : det3 i j u ≠ 0) (hv : det3 i j v ≠ 0) :
    power i j u p - power i j v p = power i j u v * det3 i j p / det3 i j v := by
  unfold power
  field_simp
  unfold cotSum det3 dot3
  ring

theorem lagrange (o p q : Pt K) : det3 o p q ^ 2 + dot3 o p q ^ 2 = dist2 o p * dist2 o q := by
  unfold det3 dot3 dist2; ring

/-- the angle test, the sign of the triangles left out -/
theorem cot_signed {p q a b : Pt K} (h0 : 0 < det3 a p q * det3 b q p) :
    |det3 a p q| * dot3 b p q + dot3 a p q * |det3 b q p| = |det3 a p q| * power p q a b := by
  have e : power p q a b = cotSum p q a b / det3 a p q := power_rot a p q b
  rw [e]
  rcases pos_and_pos_or_neg_and_neg_of_mul_pos h0 with ⟨h1, h2⟩ | ⟨h1, h2⟩
  · rw [abs_of_pos h1, abs_of_pos h2, mul_div_cancel₀ _ h1.ne']
    rfl
  · have : -det3 a p q * (cotSum p q a b / det3 a p q) = -cotSum p q a b := by
      rw [neg_mul, mul_div_cancel₀ _ h1.ne]
    rw [abs_of_neg h1, abs_of_neg h2, this]
    unfold cotSum; ring

end

/-- Law of `math.atan2` used for the converse of the flip test: if the absolute values of two angles sum up to at most
π (1 + 1e-8), the sine of the sum is not negative, or less than 10 ^ -7.5 in absolute value. -/
def Rt.IsFineAngle {K : Type} [Field K] [LinearOrder K] (R : Rt K) : Prop :=
  ∀ c1 d1 c2 d2, c1 ≠ 0 → c2 ≠ 0 →
    |R.trig.atan2 c1 d1| + |R.trig.atan2 c2 d2| ≤ R.trig.atan2 0 (-1) * (1 + 1 / 10 ^ 8) →
    0 ≤ |c1| * d2 + d1 * |c2| ∨ 10 ^ 15 * (|c1| * d2 + d1 * |c2|) ^ 2 < (c1 ^ 2 + d1 ^ 2) * (c2 ^ 2 + d2 ^ 2)

theorem Rt.real_isFineAngle (h : ℝ → ℝ → Int) : (Rt.real h).IsFineAngle := by
  have hpi : (Rt.real h).trig.atan2 0 (-1) = Real.pi := by
    have e : (⟨-1, 0⟩ : ℂ) = -1 := by apply Complex.ext <;> simp
    simp only [Rt.real]
    rw [e, Complex.arg_neg_one]
  intro c1 d1 c2 d2 h1 h2 hs
  rw [hpi] at hs
  simp only [Rt.real] at hs
  have main : ∀ c d : ℝ, c ≠ 0 → 0 < ‖(⟨d, c⟩ : ℂ)‖ ∧ Real.sin |Complex.arg ⟨d, c⟩| * ‖(⟨d, c⟩ : ℂ)‖ = |c| ∧
      Real.cos |Complex.arg ⟨d, c⟩| * ‖(⟨d, c⟩ : ℂ)‖ = d ∧ ‖(⟨d, c⟩ : ℂ)‖ ^ 2 = c ^ 2 + d ^ 2 := by
    intro c d hc
    have hz : (⟨d, c⟩ : ℂ) ≠ 0 := by
      intro hh; rw [Complex.ext_iff] at hh; simp at hh; tauto
    have hn : 0 < ‖(⟨d, c⟩ : ℂ)‖ := norm_pos_iff.2 hz
    refine ⟨hn, ?_, ?_, ?_⟩
    · have : Real.sin |Complex.arg ⟨d, c⟩| = |Real.sin (Complex.arg ⟨d, c⟩)| := by
        rcases le_total 0 (Complex.arg ⟨d, c⟩) with hh | hh
        · rw [abs_of_nonneg hh, abs_of_nonneg (Real.sin_nonneg_of_nonneg_of_le_pi hh (Complex.arg_le_pi _))]
        · rw [abs_of_nonpos hh, Real.sin_neg, abs_of_nonpos]
          exact Real.sin_nonpos_of_nonpos_of_neg_pi_le hh (Complex.neg_pi_lt_arg _).le
      rw [this, Complex.sin_arg, abs_div, abs_norm, div_mul_cancel₀ _ hn.ne']
    · rw [Real.cos_abs, Complex.cos_arg hz, div_mul_cancel₀ _ hn.ne']
    · rw [← Complex.normSq_eq_norm_sq, Complex.normSq_mk]; ring
  obtain ⟨n1, s1, k1, q1⟩ := main c1 d1 h1
  obtain ⟨n2, s2, k2, q2⟩ := main c2 d2 h2
  set α := |Complex.arg ⟨d1, c1⟩| with hα
  set β := |Complex.arg ⟨d2, c2⟩| with hβ
  have hprod : |c1| * d2 + d1 * |c2| = Real.sin (α + β) * (‖(⟨d1, c1⟩ : ℂ)‖ * ‖(⟨d2, c2⟩ : ℂ)‖) := by
    rw [Real.sin_add]
    linear_combination (-d2) * s1 - (Real.sin α * ‖(⟨d1, c1⟩ : ℂ)‖) * k2
      - (Real.sin β * ‖(⟨d2, c2⟩ : ℂ)‖) * k1 - d1 * s2
  have npos := mul_pos n1 n2
  have hab : 0 ≤ α + β := add_nonneg (abs_nonneg _) (abs_nonneg _)
  by_cases hle : α + β ≤ Real.pi
  · left
    rw [hprod]
    exact mul_nonneg (Real.sin_nonneg_of_nonneg_of_le_pi hab hle) npos.le
  · right
    push Not at hle
    have p1 := Real.pi_lt_d2
    have hsin : Real.sin (α + β) = -Real.sin (α + β - Real.pi) := by rw [Real.sin_sub_pi]; ring
    have hx0 : 0 ≤ α + β - Real.pi := by linarith
    have hx1 : α + β - Real.pi ≤ 3.15 / 10 ^ 8 := by linarith
    have hs1 : Real.sin (α + β - Real.pi) ≤ 3.15 / 10 ^ 8 := (Real.sin_le hx0).trans hx1
    have hs0 : 0 ≤ Real.sin (α + β - Real.pi) :=
      Real.sin_nonneg_of_nonneg_of_le_pi hx0 (by have := Real.pi_gt_three; linarith)
    have hsq : Real.sin (α + β) ^ 2 ≤ (3.15 / 10 ^ 8) ^ 2 := by
      rw [hsin, neg_sq]; exact pow_le_pow_left₀ hs0 hs1 2
    rw [hprod, ← q1, ← q2, mul_pow]
    have n2' : 0 < (‖(⟨d1, c1⟩ : ℂ)‖ * ‖(⟨d2, c2⟩ : ℂ)‖) ^ 2 := pow_pos npos 2
    rw [mul_pow] at n2' ⊢
    have := mul_le_mul_of_nonneg_right hsq n2'.le
    norm_num at this ⊢
    linarith

end Srep
