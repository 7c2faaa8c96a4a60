import Verif.Model.Group

/-! Members of `combos`. -/

namespace Srep

theorem mem_combos {α : Type} : ∀ (n : ℕ) (l m : List α), m ∈ combos n l ↔ m.Sublist l ∧ m.length = n
  | 0, l, m => by
    unfold combos
    rw [List.mem_singleton, List.length_eq_zero_iff]
    exact ⟨fun h => ⟨by rw [h]; exact List.nil_sublist _, h⟩, fun h => h.2⟩
  | n + 1, [], m => by
    unfold combos
    constructor
    · intro h; simp at h
    · rintro ⟨h1, h2⟩
      rw [List.sublist_nil] at h1
      subst h1
      simp at h2
  | n + 1, a :: l, m => by
    unfold combos
    rw [List.mem_append, List.mem_map, mem_combos (n + 1) l m]
    constructor
    · rintro (⟨m', h, rfl⟩ | ⟨h1, h2⟩)
      · rw [mem_combos n l m'] at h
        exact ⟨h.1.cons_cons a, by simp [h.2]⟩
      · exact ⟨h1.cons a, h2⟩
    · rintro ⟨h1, h2⟩
      cases h1 with
      | cons _ h1 => exact Or.inr ⟨h1, h2⟩
      | cons_cons _ h1 =>
        rename_i m'
        exact Or.inl ⟨m', (mem_combos n l m').2 ⟨h1, by simpa using h2⟩, rfl⟩

end Srep
