import Verif.Props.Overlap
import Verif.Props.Delaunay

/-!
# Indices of points in `Delaunay2d` (C60)
-/

namespace Srep

section
variable {K : Type} [Field K] [LinearOrder K] [IsStrictOrderedRing K] [FloorRing K]

/-- C60: `getArea`, `isEdgeVisible` and `makeCounterClockwise` raise an exception exactly if one of the three indices is
outside `-n, …, n - 1` (`n` points), and it is an IndexError. -/
theorem C60_index (R : Rt K) (ps : List (Pt K)) (i j k : ℤ) :
    (R.getArea ps i j k = .error .index ↔ ¬ ∀ x ∈ [i, j, k], -(ps.length : ℤ) ≤ x ∧ x < ps.length) ∧
    (∀ e, R.getArea ps i j k = .error e → e = .index) ∧
    (∀ e, R.isEdgeVisible ps i (j, k) = .error e ↔ R.getArea ps i j k = .error e) ∧
    ∀ e, R.makeCcw ps ⟨i, j, k⟩ = .error e ↔ R.getArea ps i j k = .error e := by
  refine ⟨?_, ?_, ?_, ?_⟩
  · have h1 := pyGet_none ps i
    have h2 := pyGet_none ps j
    have h3 := pyGet_none ps k
    unfold Rt.getArea
    cases hi : pyGet ps i with
    | none =>
      have := h1.1 hi
      simp only [true_iff]
      exact fun h => this (h i (by simp))
    | some p =>
      cases hj : pyGet ps j with
      | none =>
        have := h2.1 hj
        simp only [true_iff]
        exact fun h => this (h j (by simp))
      | some q =>
        cases hk : pyGet ps k with
        | none =>
          have := h3.1 hk
          simp only [true_iff]
          exact fun h => this (h k (by simp))
        | some r =>
          simp only [reduceCtorEq, false_iff, not_not, List.mem_cons, List.not_mem_nil, or_false]
          rintro x (rfl | rfl | rfl)
          · by_contra h
            rw [h1.2 h] at hi; cases hi
          · by_contra h
            rw [h2.2 h] at hj; cases hj
          · by_contra h
            rw [h3.2 h] at hk; cases hk
  · intro e h
    unfold Rt.getArea at h
    split at h
    · cases h
    · cases h; rfl
  · intro e
    unfold Rt.isEdgeVisible
    cases R.getArea ps i j k <;> simp [Except.map]
  · intro e
    unfold Rt.makeCcw
    cases R.getArea ps i j k <;> simp

/-- non-trivial case: three points, the index -3 is in range, the index 3 is not -/
example : exRt.getArea [⟨0, 0⟩, ⟨4, 0⟩, ⟨0, 3⟩] (-3) 1 2 ≠ .error .index ∧
    exRt.getArea [⟨0, 0⟩, ⟨4, 0⟩, ⟨0, 3⟩] 3 1 2 = .error .index := by
  refine ⟨fun h => (C60_index exRt _ _ _ _).1.1 h (by simp), (C60_index exRt _ _ _ _).1.2 fun h => ?_⟩
  have := (h 3 (by simp)).2
  simp at this

end
end Srep
