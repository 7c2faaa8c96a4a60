import Verif.Lemmas.Exact

/-! Error bounds of a few rounded operations followed by decimal rounding. -/

set_option linter.unusedSectionVars false

namespace Srep
variable {K : Type} [Field K] [LinearOrder K] [IsStrictOrderedRing K] [FloorRing K]

theorem rhe8_of_near {y : K} {n : ℤ} (h : |y - n / 10 ^ 8| < 1 / (2 * 10 ^ 8)) : rhe8 y = n / 10 ^ 8 := by
  unfold rhe8
  have hp : (0 : K) < 10 ^ 8 := by positivity
  have : rhe (y * 10 ^ 8) = n := by
    rw [rhe_eq_iff]
    left
    have e : y * 10 ^ 8 - n = (y - n / 10 ^ 8) * 10 ^ 8 := by field_simp
    rw [e, abs_mul, abs_of_pos hp]
    calc _ < 1 / (2 * 10 ^ 8) * (10 : K) ^ 8 := by gcongr
      _ = 1 / 2 := by norm_num
  rw [this]

namespace Rt.IsRounding
variable {R : Rt K} (hR : R.IsRounding)
include hR

theorem fl_err {y z e : K} (h : |y - z| ≤ e) : |R.fl y - z| ≤ e + (|z| + e) / 2 ^ 53 := by
  have h1 := hR.rel y
  have h2 : |y| ≤ |z| + e := by
    have : |y| ≤ |z| + |y - z| := by
      have := abs_add_le z (y - z)
      rwa [add_sub_cancel] at this
    linarith
  have h3 : |y| / 2 ^ 53 ≤ (|z| + e) / 2 ^ 53 := by gcongr
  calc |R.fl y - z| = |(R.fl y - y) + (y - z)| := by congr 1; ring
    _ ≤ |R.fl y - y| + |y - z| := abs_add_le _ _
    _ ≤ _ := by linarith

/-- a number close to a grid number is stored as this grid number -/
theorem coord_of_near {y : K} {n : ℤ} (h : |R.fl y - n / 10 ^ 8| < 1 / (2 * 10 ^ 8)) :
    R.coord y = R.fl (n / 10 ^ 8) := by
  unfold Rt.coord Rt.round8
  rw [rhe8_of_near h]

/-- A stored coordinate of magnitude at most `M / 10^8` is the float nearest to `n / 10^8` with `|n| ≤ M`. -/
theorem stored_eq {x : K} (hx : R.coord x = x) {M : ℤ} (hM : |x| ≤ M / 10 ^ 8) :
    ∃ n : ℤ, |(n : K)| ≤ M ∧ x = R.fl (n / 10 ^ 8) := by
  have hf : R.fl x = x := by rw [← hx]; exact hR.coord_fl _
  have hp : (0 : K) < 10 ^ 8 := by positivity
  refine ⟨rhe (x * 10 ^ 8), ?_, ?_⟩
  · rw [abs_le] at hM ⊢
    have h1 : rhe (x * 10 ^ 8) ≤ M := by
      have : x * 10 ^ 8 ≤ M := by
        have := hM.2; rwa [le_div_iff₀ hp] at this
      have := rhe_mono this
      rwa [rhe_intCast] at this
    have h2 : -M ≤ rhe (x * 10 ^ 8) := by
      have : ((-M : ℤ) : K) ≤ x * 10 ^ 8 := by
        push_cast
        have := hM.1
        rw [← neg_div, div_le_iff₀ hp] at this; exact this
      have := rhe_mono this
      rwa [rhe_intCast] at this
    constructor
    · have : ((-M : ℤ) : K) ≤ (rhe (x * 10 ^ 8) : K) := by exact_mod_cast h2
      push_cast at this; exact this
    · exact_mod_cast h1
  · conv_lhs => rw [← hx]
    unfold Rt.coord Rt.round8 rhe8
    rw [hf]

theorem fl_grid_err (n : ℤ) {M : K} (h : |(n : K)| ≤ M) :
    |R.fl ((n : K) / 10 ^ 8) - n / 10 ^ 8| ≤ M / 10 ^ 8 / 2 ^ 53 := by
  have h1 := hR.rel ((n : K) / 10 ^ 8)
  rw [abs_div, abs_of_pos (by positivity : (0 : K) < 10 ^ 8)] at h1
  refine h1.trans ?_
  gcongr

end Rt.IsRounding
end Srep
