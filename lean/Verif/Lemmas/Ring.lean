import Verif.Lemmas.Cluster
import Verif.Props.Purge
import Verif.Spec.Arc

/-! Purging a ring of segments whose ends meet only up to rounding. -/

set_option linter.unusedSectionVars false

namespace Srep
open Rt

/-- two segments share a Point object -/
theorem ends_dup {K : Type} {h : Heap K} {c n a b : ℕ} (hab : a < b) (hb : b < n) (e : (h.seg (c + a)).j = (h.seg (c + b)).i) :
    ¬ (h.ends (List.range' c n)).Nodup := by
  intro hd
  unfold Heap.ends at hd
  rw [List.nodup_flatMap] at hd
  have hp := List.pairwise_iff_getElem.1 hd.2 a b (by simp; omega) (by simpa using hb) hab
  simp only [List.getElem_range', one_mul, Function.onFun] at hp
  have := hp (a := (h.seg (c + a)).j) (by simp)
  rw [e] at this
  simp at this

/-- `purge` joins the segments of a ring whose ends are near to the vertices `O 0`, ..., `O (n - 1)`: afterwards there is one
Point for each vertex. -/
theorem purge_ring {R : Rt ℝ} (hE : R.IsExact) {h : Heap ℝ} {c n : ℕ} (hn : 2 ≤ n) (O : ℕ → Pt ℝ)
    (hO : ∀ j k, j < n → k < n → j ≠ k → 4 / 10 ^ 5 ≤ |(O j).x - (O k).x| ∨ 4 / 10 ^ 5 ≤ |(O j).y - (O k).y|)
    (hi : ∀ k < n, Near (3 / 10 ^ 8) (h.pt (h.seg (c + k)).i) (O k))
    (hj : ∀ k < n, Near (3 / 10 ^ 8) (h.pt (h.seg (c + k)).j) (O ((k + 1) % n)))
    (hdup : ¬ (h.ends (List.range' c n)).Nodup) :
    (R.purge h ⟨List.range' c n, false⟩).2 = ⟨List.range' c n, true⟩ ∧ (R.purge h ⟨List.range' c n, false⟩).1.pt = h.pt ∧
    (R.purge h ⟨List.range' c n, false⟩).1.npt = h.npt ∧ (R.purge h ⟨List.range' c n, false⟩).1.nseg = h.nseg ∧
    (∀ t, t ∉ List.range' c n → (R.purge h ⟨List.range' c n, false⟩).1.seg t = h.seg t) ∧
    ∃ A : ℕ → ℕ, (∀ k < n, (R.purge h ⟨List.range' c n, false⟩).1.seg (c + k) = ⟨A k, A ((k + 1) % n), (h.seg (c + k)).cls⟩) ∧
      (∀ k < n, Near (3 / 10 ^ 8) (h.pt (A k)) (O k)) ∧ (∀ j k, j < n → k < n → A j = A k → j = k) ∧
      ∀ k < n, EndOf h (List.range' c n) (A k) := by
  classical
  have hsmall : ∀ x y u w : ℝ, |x - u| ≤ 3 / 10 ^ 8 → |y - w| ≤ 3 / 10 ^ 8 → |x - y| < 1 / 10 ^ 5 → |u - w| < 4 / 10 ^ 5 := by
    intro x y u w h1 h2 h3
    rw [abs_le] at h1 h2
    rw [abs_lt] at h3 ⊢
    norm_num at *
    constructor <;> linarith
  have hclose : ∀ p q : Pt ℝ, ∀ j k, j < n → k < n → Near (3 / 10 ^ 8) p (O j) → Near (3 / 10 ^ 8) q (O k) →
      |p.x - q.x| < 1 / 10 ^ 5 → |p.y - q.y| < 1 / 10 ^ 5 → j = k := by
    intro p q j k hj' hk h1 h2 hx hy
    by_contra hne
    rcases hO j k hj' hk hne with h | h
    · exact absurd (hsmall _ _ _ _ h1.1 h2.1 hx) (not_lt.2 h)
    · exact absurd (hsmall _ _ _ _ h1.2 h2.2 hy) (not_lt.2 h)
  set T : ℕ → ℕ := fun p => if hx : ∃ k < n, Near (3 / 10 ^ 8) (h.pt p) (O k) then Classical.choose hx else n with hT
  have T1 : ∀ p k, k < n → Near (3 / 10 ^ 8) (h.pt p) (O k) → T p = k := by
    intro p k hk hp
    have hx : ∃ k < n, Near (3 / 10 ^ 8) (h.pt p) (O k) := ⟨k, hk, hp⟩
    simp only [hT, dif_pos hx]
    have := Classical.choose_spec hx
    exact hclose _ _ _ _ this.1 hk this.2 hp (by simp) (by simp)
  have hmod : ∀ k, (k + 1) % n < n := fun k => Nat.mod_lt _ (by omega)
  have hends : ∀ p ∈ h.ends (List.range' c n), ∃ k < n, Near (3 / 10 ^ 8) (h.pt p) (O k) := by
    intro p hp
    rw [Heap.mem_ends] at hp
    obtain ⟨s, hs, hp⟩ := hp
    rw [List.mem_range'_1] at hs
    obtain ⟨k, rfl⟩ := Nat.exists_eq_add_of_le hs.1
    rcases hp with rfl | rfl
    · exact ⟨k, by omega, hi k (by omega)⟩
    · exact ⟨_, hmod k, hj k (by omega)⟩
  have key := purge_near hE.isRounding (h := h) (P := ⟨List.range' c n, false⟩) rfl T ?_ ?_ hdup
  · obtain ⟨k1, k2, k3, k4, k5, k6, k7, k8⟩ := key
    refine ⟨k1, k2, k3, k4, k6, fun k => ((R.purge h ⟨List.range' c n, false⟩).1.seg (c + k)).i, ?_, ?_, ?_, ?_⟩
    · intro k hk
      have m1 : c + k ∈ List.range' c n := by rw [List.mem_range'_1]; omega
      have m2 : c + (k + 1) % n ∈ List.range' c n := by
        have := hmod k
        rw [List.mem_range'_1]; omega
      have e : ((R.purge h ⟨List.range' c n, false⟩).1.seg (c + k)).j =
          ((R.purge h ⟨List.range' c n, false⟩).1.seg (c + (k + 1) % n)).i := by
        apply k8 _ (Heap.mem_ends.2 ⟨_, m1, Or.inr rfl⟩) _ (Heap.mem_ends.2 ⟨_, m2, Or.inl rfl⟩)
        rw [(k5 _).2.2, (k5 _).2.1, T1 _ _ (hmod k) (hj k hk), T1 _ _ (hmod k) (hi _ (hmod k))]
      dsimp only
      rw [← e, ← (k5 (c + k)).1]
    · intro k hk
      have m1 : c + k ∈ List.range' c n := by rw [List.mem_range'_1]; omega
      obtain ⟨l, hl, hn'⟩ := hends _ (k7 _ (Heap.mem_ends.2 ⟨_, m1, Or.inl rfl⟩))
      have := T1 _ _ hl hn'
      rw [(k5 _).2.1, T1 _ _ hk (hi k hk)] at this
      subst this
      exact hn'
    · intro j k hj' hk e
      have e' := congrArg T e
      dsimp only at e'
      rw [(k5 _).2.1, (k5 _).2.1, T1 _ _ hj' (hi j hj'), T1 _ _ hk (hi k hk)] at e'
      exact e'
    · intro k hk
      have m1 : c + k ∈ List.range' c n := by rw [List.mem_range'_1]; omega
      exact Heap.mem_ends.1 (k7 _ (Heap.mem_ends.2 ⟨_, m1, Or.inl rfl⟩))
  · intro p hp q hq
    obtain ⟨j, hj', hpj⟩ := hends p hp
    obtain ⟨k, hk, hqk⟩ := hends q hq
    rw [T1 _ _ hj' hpj, T1 _ _ hk hqk, hE.peq_iff]
    constructor
    · rintro ⟨h1, h2⟩
      exact hclose _ _ _ _ hj' hk hpj hqk h1 h2
    · rintro rfl
      have b : ∀ x y u : ℝ, |x - u| ≤ 3 / 10 ^ 8 → |y - u| ≤ 3 / 10 ^ 8 → |x - y| < 1 / 10 ^ 5 := by
        intro x y u h1 h2
        rw [abs_le] at h1 h2
        rw [abs_lt]
        norm_num at h1 h2 ⊢
        constructor <;> linarith
      exact ⟨b _ _ _ hpj.1 hqk.1, b _ _ _ hpj.2 hqk.2⟩
  · intro s hs
    rw [List.mem_range'_1] at hs
    obtain ⟨k, rfl⟩ := Nat.exists_eq_add_of_le hs.1
    rw [T1 _ _ (by omega) (hi k (by omega)), T1 _ _ (hmod k) (hj k (by omega))]
    intro e
    rcases Nat.lt_or_ge (k + 1) n with h | h
    · rw [Nat.mod_eq_of_lt h] at e; omega
    · have : k + 1 = n := by omega
      rw [this, Nat.mod_self] at e; omega

end Srep
