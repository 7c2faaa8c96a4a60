import Mathlib.Data.List.Basic
import Mathlib.Algebra.BigOperators.Group.Finset.Basic

/-! Independent vocabulary for the rooms of a vessel (C91, C92). -/

namespace Srep

/-- two pairs of cycles have a cycle in common -/
def Shares (k v : ℕ × ℕ) : Prop := ∃ x, (x = k.1 ∨ x = k.2) ∧ (x = v.1 ∨ x = v.2)

instance (k v : ℕ × ℕ) : Decidable (Shares k v) :=
  decidable_of_iff (k.1 = v.1 ∨ k.1 = v.2 ∨ k.2 = v.1 ∨ k.2 = v.2) (by
    unfold Shares
    constructor
    · rintro (h | h | h | h)
      · exact ⟨_, Or.inl rfl, Or.inl h⟩
      · exact ⟨_, Or.inl rfl, Or.inr h⟩
      · exact ⟨_, Or.inr rfl, Or.inl h⟩
      · exact ⟨_, Or.inr rfl, Or.inr h⟩
    · rintro ⟨x, rfl | rfl, h | h⟩ <;> simp [h])

/-- the number of elements of `l` that have no cycle in common with `k` -/
def strangers (k : ℕ × ℕ) (l : List (ℕ × ℕ)) : ℕ := (l.filter fun v => ¬ Shares k v).length

/-- the number of unordered pairs of elements of `l` that have no cycle in common -/
def strangerPairs (l : List (ℕ × ℕ)) : ℕ :=
  ∑ j ∈ Finset.range l.length, strangers (l.getD j (0, 0)) (l.take j)

/-- `a` and `b` are two different cycles of `n` with a common part -/
def Touching {α : Type} (n : ℕ) (p : ℕ → List α) (a b : ℕ) : Prop := a < n ∧ b < n ∧ a ≠ b ∧ ∃ x, x ∈ p a ∧ x ∈ p b

end Srep
