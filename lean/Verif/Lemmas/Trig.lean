import Verif.Lemmas.SegExact
import Verif.Lemmas.Real

/-! What is assumed about `math.atan2` and `math.degrees` in exact arithmetic, and that the real
functions satisfy it. -/

set_option linter.unusedSectionVars false

namespace Srep
variable {K : Type} [Field K] [LinearOrder K] [IsStrictOrderedRing K] [FloorRing K]

/-- Laws of `degrees(atan2(y, x))`: the range is (-180, 180], non-zero vectors have the same angle iff
they are positive multiples of each other, and negating a vector turns it by 180 degrees. -/
structure Rt.IsExactDir (R : Rt K) : Prop where
  lo : ∀ y x, -180 < R.trig.degrees (R.trig.atan2 y x)
  hi : ∀ y x, R.trig.degrees (R.trig.atan2 y x) ≤ 180
  ray : ∀ x y x' y', (x ≠ 0 ∨ y ≠ 0) → (x' ≠ 0 ∨ y' ≠ 0) →
    (R.trig.degrees (R.trig.atan2 y x) = R.trig.degrees (R.trig.atan2 y' x') ↔
      ∃ t, 0 < t ∧ x' = t * x ∧ y' = t * y)
  opp : ∀ x y, (x ≠ 0 ∨ y ≠ 0) →
    (0 < R.trig.degrees (R.trig.atan2 y x) ∧ R.trig.degrees (R.trig.atan2 (-y) (-x))
        = R.trig.degrees (R.trig.atan2 y x) - 180) ∨
    (R.trig.degrees (R.trig.atan2 y x) ≤ 0 ∧ R.trig.degrees (R.trig.atan2 (-y) (-x))
        = R.trig.degrees (R.trig.atan2 y x) + 180)

theorem Rt.real_isExactDir (h : ℝ → ℝ → Int) : (Rt.real h).IsExactDir := by
  have hpi := Real.pi_pos
  have hd : ∀ a b : ℝ, a * (180 / Real.pi) = b * (180 / Real.pi) ↔ a = b := by
    intro a b
    constructor
    · intro h
      have : (180 / Real.pi) ≠ 0 := by positivity
      exact mul_right_cancel₀ this h
    · rintro rfl; rfl
  refine ⟨?_, ?_, ?_, ?_⟩
  · intro y x
    have := Complex.neg_pi_lt_arg ⟨x, y⟩
    simp only [Rt.real]
    have e : (-180 : ℝ) = (-Real.pi) * (180 / Real.pi) := by field_simp
    rw [e]
    exact mul_lt_mul_of_pos_right this (by positivity)
  · intro y x
    have := Complex.arg_le_pi ⟨x, y⟩
    simp only [Rt.real]
    calc _ ≤ Real.pi * (180 / Real.pi) := mul_le_mul_of_nonneg_right this (by positivity)
      _ = 180 := by field_simp
  · intro x y x' y' h1 h2
    have z1 : (⟨x, y⟩ : ℂ) ≠ 0 := by
      intro h; rw [Complex.ext_iff] at h; simp at h; tauto
    have z2 : (⟨x', y'⟩ : ℂ) ≠ 0 := by
      intro h; rw [Complex.ext_iff] at h; simp at h; tauto
    simp only [Rt.real]
    rw [hd]
    constructor
    · intro h
      rw [Complex.arg_eq_arg_iff z1 z2] at h
      have hp : 0 < ‖(⟨x', y'⟩ : ℂ)‖ / ‖(⟨x, y⟩ : ℂ)‖ :=
        div_pos (norm_pos_iff.2 z2) (norm_pos_iff.2 z1)
      refine ⟨_, hp, ?_, ?_⟩
      · have := congrArg Complex.re h
        rw [← Complex.ofReal_div, Complex.re_ofReal_mul] at this
        exact this.symm
      · have := congrArg Complex.im h
        rw [← Complex.ofReal_div, Complex.im_ofReal_mul] at this
        exact this.symm
    · rintro ⟨t, ht, rfl, rfl⟩
      have : (⟨t * x, t * y⟩ : ℂ) = (t : ℂ) * ⟨x, y⟩ := by
        apply Complex.ext <;> simp
      rw [this, Complex.arg_real_mul _ ht]
  · intro x y h1
    have neg : (⟨-x, -y⟩ : ℂ) = -⟨x, y⟩ := by apply Complex.ext <;> simp
    simp only [Rt.real]
    rw [neg]
    have pos : 0 < (⟨x, y⟩ : ℂ).arg * (180 / Real.pi) ↔ 0 < (⟨x, y⟩ : ℂ).arg := by
      rw [mul_pos_iff_of_pos_right (by positivity)]
    by_cases h : 0 < (⟨x, y⟩ : ℂ).arg * (180 / Real.pi)
    · left
      refine ⟨h, ?_⟩
      rw [pos] at h
      have : (-(⟨x, y⟩ : ℂ)).arg = (⟨x, y⟩ : ℂ).arg - Real.pi := by
        rw [Complex.arg_neg_eq_arg_sub_pi_iff]
        have h2 : (0 : ℝ) ≤ (⟨x, y⟩ : ℂ).im := Complex.arg_nonneg_iff.1 h.le
        rcases lt_or_eq_of_le h2 with h3 | h3
        · exact Or.inl h3
        · right
          refine ⟨h3.symm, ?_⟩
          by_contra hc
          push Not at hc
          have := Complex.arg_eq_zero_iff.2 ⟨hc, h3.symm⟩
          linarith
      rw [this, sub_mul]
      congr 1
      field_simp
    · right
      refine ⟨not_lt.1 h, ?_⟩
      rw [pos] at h
      have : (-(⟨x, y⟩ : ℂ)).arg = (⟨x, y⟩ : ℂ).arg + Real.pi := by
        rw [Complex.arg_neg_eq_arg_add_pi_iff]
        push Not at h
        rcases lt_or_eq_of_le h with h3 | h3
        · exact Or.inl (Complex.arg_neg_iff.1 h3)
        · right
          have := Complex.arg_eq_zero_iff.1 h3
          refine ⟨this.2, lt_of_le_of_ne this.1 ?_⟩
          have h4 : y = 0 := this.2
          rcases h1 with h1 | h1
          · exact fun hh => h1 hh.symm
          · exact absurd h4 h1
      rw [this, add_mul]
      congr 1
      field_simp

end Srep
