import Verif.Props.Flat

/-!
# Flat heads without a segment (C104)
-/

set_option linter.unusedSectionVars false

namespace Srep
variable {K : Type} [Field K] [LinearOrder K] [IsStrictOrderedRing K] [FloorRing K] {R : Rt K}

/-- C104: `isvalid` of a flat head raises IndexError exactly if it has no segment, and is True otherwise; `is_internal_point` raises
IndexError exactly if it has no segment, in every arithmetic. -/
theorem C104_index (P : PLine) (l : List (Seg K)) (p : Pt K) :
    (Rt.plateValid P = if P.segs = [] then .error .index else .ok true) ∧
    (R.plateInternal l p = .error .index ↔ l = []) ∧ (∀ e, R.plateInternal l p = .error e → e = .index) := by
  refine ⟨?_, ?_, ?_⟩
  · unfold Rt.plateValid
    cases P.segs <;> rfl
  · unfold Rt.plateInternal
    cases l with
    | nil => exact ⟨fun _ => rfl, fun _ => rfl⟩
    | cons s l => split_ifs <;> simp
  · intro e
    unfold Rt.plateInternal
    cases l with
    | nil => split_ifs <;> simp +contextual [eq_comm]
    | cons s l => split_ifs <;> simp

/-- a flat head whose segment was taken away -/
example : Rt.plateValid ⟨[], true⟩ = .error .index ∧ exRt.plateInternal [] ⟨1, 4⟩ = .error .index :=
  ⟨(C104_index (R := exRt) ⟨[], true⟩ [] ⟨1, 4⟩).1, (C104_index (R := exRt) ⟨[], true⟩ [] ⟨1, 4⟩).2.1.2 rfl⟩

end Srep
