import Verif.Spec.Mesh
import Mathlib.Tactic.Tauto

/-! Helper lemmas about the mesh of `Delaunay2d`. -/

namespace Srep
variable {K : Type}

theorem makeKey_comm (i j : ℤ) : makeKey i j = makeKey j i := by
  unfold makeKey
  split_ifs with h1 h2 h2
  · have : i = j := by omega
    rw [this]
  · rfl
  · rfl
  · omega

theorem makeKey_mem (i j v : ℤ) : (v = (makeKey i j).1 ∨ v = (makeKey i j).2) ↔ v = i ∨ v = j := by
  unfold makeKey; split_ifs <;> simp; tauto

theorem makeKey_le (i j : ℤ) : (makeKey i j).1 ≤ (makeKey i j).2 := by
  unfold makeKey; split_ifs <;> simp <;> omega

theorem makeKey_lt {i j : ℤ} (h : i ≠ j) : (makeKey i j).1 < (makeKey i j).2 := by
  unfold makeKey; split_ifs <;> simp <;> omega

theorem makeKey_sorted {e : ℤ × ℤ} (h : e.1 ≤ e.2) : makeKey e.1 e.2 = e := by
  unfold makeKey; rw [if_pos h]

/-- a sorted pair is the key of any two different numbers it contains -/
theorem eq_makeKey {e : ℤ × ℤ} {u v : ℤ} (h : e.1 < e.2) (hu : e.1 = u ∧ e.2 = v ∨ e.1 = v ∧ e.2 = u) :
    e = makeKey u v := by
  unfold makeKey
  rcases hu with ⟨rfl, rfl⟩ | ⟨rfl, rfl⟩
  · rw [if_pos h.le]
  · rw [if_neg (by omega)]

theorem makeKey_ne {i j k l : ℤ} (h : (i ≠ k ∧ i ≠ l) ∨ (j ≠ k ∧ j ≠ l)) : makeKey i j ≠ makeKey k l := by
  intro he
  have h1 := makeKey_mem i j i
  have h2 := makeKey_mem i j j
  rw [he, makeKey_mem] at h1 h2
  have := h1.2 (Or.inl rfl)
  have := h2.2 (Or.inr rfl)
  tauto

theorem makeKey_ne_of_lt {e : ℤ × ℤ} {i j : ℤ} (h : (i ≠ e.1 ∧ i ≠ e.2) ∨ (j ≠ e.1 ∧ j ≠ e.2)) :
    makeKey i j ≠ e := by
  intro he
  have h1 := makeKey_mem i j i
  have h2 := makeKey_mem i j j
  rw [he] at h1 h2
  have := h1.2 (Or.inl rfl)
  have := h2.2 (Or.inr rfl)
  tauto

theorem Tri.HasEdge.mk' {t : Tri} {u v : ℤ} (h : u ≠ v) (hu : t.Has u) (hv : t.Has v) :
    t.HasEdge (makeKey u v) := by
  refine ⟨makeKey_lt h, ?_, ?_⟩
  · rcases (makeKey_mem u v _).1 (Or.inl rfl) with h | h <;> rw [h] <;> assumption
  · rcases (makeKey_mem u v _).1 (Or.inr rfl) with h | h <;> rw [h] <;> assumption

theorem Tri.has_of_key {t : Tri} {u v : ℤ} (h : t.HasEdge (makeKey u v)) : t.Has u ∧ t.Has v := by
  obtain ⟨-, h1, h2⟩ := h
  have hu := (makeKey_mem u v u).2 (Or.inl rfl)
  have hv := (makeKey_mem u v v).2 (Or.inr rfl)
  constructor
  · rcases hu with h | h <;> rw [h] <;> assumption
  · rcases hv with h | h <;> rw [h] <;> assumption

/-- the opposite vertex of an edge of a proper triangle -/
theorem Tri.opp_spec {t : Tri} (hp : t.Proper) {e : ℤ × ℤ} (h : t.HasEdge e) :
    t.opp e ≠ e.1 ∧ t.opp e ≠ e.2 ∧ ∀ v, t.Has v ↔ v = t.opp e ∨ v = e.1 ∨ v = e.2 := by
  obtain ⟨a, b, c⟩ := t
  obtain ⟨e1, e2⟩ := e
  obtain ⟨h0, h1, h2⟩ := h
  obtain ⟨h3, h4, h5⟩ := hp
  simp only [Tri.Has, Tri.opp, List.foldl_cons, List.foldl_nil] at *
  rcases h1 with rfl | rfl | rfl <;> rcases h2 with rfl | rfl | rfl <;>
    first
    | omega
    | (simp_all [eq_comm, Ne.symm] ; try tauto)

theorem Tri.opp_has {t : Tri} (hp : t.Proper) {e : ℤ × ℤ} (h : t.HasEdge e) : t.Has (t.opp e) :=
  ((opp_spec hp h).2.2 _).2 (Or.inl rfl)

section
variable [Field K] [LinearOrder K] [IsStrictOrderedRing K] [FloorRing K] {R : Rt K}

/-- Data of one executed flip. -/
structure Flip (R : Rt K) (M : Mesh K) (e : ℤ × ℤ) (t1 t2 : ℕ) (T1 T2 : Tri) (p q a b : Pt K)
    (v1 v2 : List ℕ) : Prop where
  entry : M.e2t e = some [t1, t2]
  h1 : M.tris[t1]? = some T1
  h2 : M.tris[t2]? = some T2
  hp : pyGet M.points e.1 = some p
  hq : pyGet M.points e.2 = some q
  ha : pyGet M.points (T1.opp e) = some a
  hb : pyGet M.points (T2.opp e) = some b
  test : R.flipTest p q a b = true
  hv1 : ((M.e2t.del e).set (makeKey (T1.opp e) (T2.opp e)) [t1, t2]) (makeKey (T1.opp e) e.2) = some v1
  hv2 : (((M.e2t.del e).set (makeKey (T1.opp e) (T2.opp e)) [t1, t2]).set (makeKey (T1.opp e) e.2)
    (relabel t1 t2 v1)) (makeKey (T2.opp e) e.1) = some v2

/-- the mesh after a flip -/
def flipped (M : Mesh K) (e : ℤ × ℤ) (t1 t2 : ℕ) (o1 o2 : ℤ) (v1 v2 : List ℕ) : Mesh K :=
  ⟨M.points, (M.tris.set t1 ⟨o1, e.1, o2⟩).set t2 ⟨o1, o2, e.2⟩,
    (((M.e2t.del e).set (makeKey o1 o2) [t1, t2]).set (makeKey o1 e.2) (relabel t1 t2 v1)).set
      (makeKey o2 e.1) (relabel t2 t1 v2), M.bnd⟩

theorem flip_cases {M M' : Mesh K} {e : ℤ × ℤ} {r : List (ℤ × ℤ)} (h : R.flipOneEdge M e = .ok (M', r)) :
    (M' = M ∧ r = []) ∨ ∃ t1 t2 T1 T2 p q a b v1 v2, Flip R M e t1 t2 T1 T2 p q a b v1 v2 ∧
      M' = flipped M e t1 t2 (T1.opp e) (T2.opp e) v1 v2 ∧
      r = [makeKey (T1.opp e) e.2, makeKey (T2.opp e) e.1, makeKey (T1.opp e) e.1, makeKey (T2.opp e) e.2] := by
  unfold Rt.flipOneEdge at h
  split at h
  · left; simp at h; exact ⟨h.1.symm, h.2⟩
  · left; simp at h; exact ⟨h.1.symm, h.2⟩
  · rename_i t1 t2 he
    split at h
    · rename_i T1 T2 h1 h2
      split at h
      · rename_i p q a b hp hq ha hb
        split_ifs at h with ht
        · right
          unfold flipWrite at h
          dsimp only at h
          split at h
          · cases h
          · rename_i v1 hv1
            split at h
            · cases h
            · rename_i v2 hv2
              simp only [Except.ok.injEq, Prod.mk.injEq] at h
              refine ⟨t1, t2, T1, T2, p, q, a, b, v1, v2, ⟨?_, h1, h2, hp, hq, ha, hb, ht, hv1, hv2⟩, h.1.symm,
                h.2.symm⟩
              cases hx : M.e2t e with
              | none => rw [hx] at he; simp at he
              | some l => rw [hx] at he; simp at he; rw [he]
        · left; simp at h; exact ⟨h.1.symm, h.2⟩
      · cases h
    · cases h
  · cases h

end
end Srep
