import Verif.Lemmas.Num
import Verif.Lemmas.Real

/-! Runtimes used in concrete examples. -/

namespace Srep

/-- `math` functions and hash used in concrete examples (their values play no role). -/
def exTrig : Trig ℚ := ⟨fun _ _ => 0, id, id, id, id, id⟩
/-- binary64 used in concrete examples -/
def exRt : Rt ℚ := Rt.b64 exTrig (fun x y => ⌊x * 10 ^ 8⌋ + 7 * ⌊y * 10 ^ 8⌋)
theorem exRt_isRounding : exRt.IsRounding := Rt.b64_isRounding _ _

/-- exact real arithmetic with an arbitrary hash, used in concrete examples -/
noncomputable def exReal : Rt ℝ := Rt.real (fun _ _ => 0)
theorem exReal_isExact : exReal.IsExact := Rt.real_isExact _

end Srep
