import Verif.Model.Num
import Mathlib.Analysis.SpecialFunctions.Complex.Arg
import Mathlib.Analysis.SpecialFunctions.Trigonometric.Inverse
import Mathlib.Analysis.SpecialFunctions.Sqrt

/-! The real numbers with exact arithmetic: the intended instance of `Rt.IsExact`. -/

namespace Srep

/-- Exact real arithmetic. -/
noncomputable def Rt.real (h : ℝ → ℝ → Int) : Rt ℝ where
  fl := id
  sq x := x * x
  sqrt := Real.sqrt
  trig :=
    { atan2 := fun y x => Complex.arg ⟨x, y⟩
      acos := Real.arccos
      cos := Real.cos
      sin := Real.sin
      degrees := fun x => x * (180 / Real.pi)
      radians := fun x => x * (Real.pi / 180) }
  hash := h

theorem Rt.real_isExact (h : ℝ → ℝ → Int) : (Rt.real h).IsExact where
  fl _ := rfl
  sq _ := rfl
  sqrt_nonneg := Real.sqrt_nonneg
  sqrt_sq _ hx := Real.mul_self_sqrt hx
  sqrt_zero := Real.sqrt_zero

end Srep
