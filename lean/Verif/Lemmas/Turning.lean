import Verif.Props.Winding

/-! Closed polygons that turn to one side only and go round once. -/

set_option linter.unusedSectionVars false

namespace Srep
open Rt
variable {K : Type} [Field K] [LinearOrder K] [IsStrictOrderedRing K] [FloorRing K]

/-- a sequence that does not rise any more once it has fallen is nowhere below its two ends -/
theorem hump_le {f : ℕ → K} {i N : ℕ} {c : K} (h0 : c ≤ f i) (hN : c ≤ f N)
    (h : ∀ k k', i ≤ k → k ≤ k' → k' < N → f (k + 1) < f k → f (k' + 1) ≤ f k') (j : ℕ) (hi : i ≤ j) (hj : j ≤ N) : c ≤ f j := by
  by_cases hx : ∃ k, i ≤ k ∧ k < j ∧ f (k + 1) < f k
  · obtain ⟨k, h1, h2, h3⟩ := hx
    have : ∀ m, j ≤ m → m ≤ N → f m ≤ f j := by
      intro m hm
      induction m, hm using Nat.le_induction with
      | base => intro _; exact le_rfl
      | succ m hm ih =>
        intro hle
        exact (h k m h1 (by omega) (by omega) h3).trans (ih (by omega))
    exact hN.trans (this N hj le_rfl)
  · push Not at hx
    have : ∀ m, i ≤ m → m ≤ j → c ≤ f m := by
      intro m hm
      induction m, hm using Nat.le_induction with
      | base => intro _; exact h0
      | succ m hm ih =>
        intro hle
        exact (ih (by omega)).trans (hx m hm (by omega))
    exact this j hi le_rfl

/-- vector product of the sides that start at the corners `i` and `j` -/
def sideCross (v : ℕ → Pt K) (i j : ℕ) : K :=
  ((v (i + 1)).x - (v i).x) * ((v (j + 1)).y - (v j).y) - ((v (i + 1)).y - (v i).y) * ((v (j + 1)).x - (v j).x)

/-- how far the side that starts at corner `k` goes in the direction `(a, b)` -/
def sideAlong (v : ℕ → Pt K) (a b : K) (k : ℕ) : K := a * ((v (k + 1)).x - (v k).x) + b * ((v (k + 1)).y - (v k).y)

theorem sideCross_step (v : ℕ → Pt K) (i j : ℕ) :
    det3 (v i) (v (i + 1)) (v (j + 1)) = det3 (v i) (v (i + 1)) (v j) + sideCross v i j := by
  unfold det3 sideCross; ring

theorem sideCross_three (v : ℕ → Pt K) (a b : K) (i j k : ℕ) :
    sideAlong v a b j * sideCross v i k = sideAlong v a b i * sideCross v j k + sideAlong v a b k * sideCross v i j := by
  unfold sideAlong sideCross; ring

theorem sideCross_swap (v : ℕ → Pt K) (i j : ℕ) : sideCross v i j = - sideCross v j i := by
  unfold sideCross; ring

theorem sideCross_self (v : ℕ → Pt K) (i : ℕ) : sideCross v i i = 0 := by
  unfold sideCross; ring

/-- sides that all go forwards, or all backwards, and turn left from one to the next, turn left altogether -/
theorem sideCross_block {v : ℕ → Pt K} (ht : ∀ k, 0 ≤ sideCross v k (k + 1)) {a b : K} {p q : ℕ}
    (hs : (∀ k, p ≤ k → k < q → 0 < sideAlong v a b k) ∨ ∀ k, p ≤ k → k < q → sideAlong v a b k < 0)
    {i j : ℕ} (hi : p ≤ i) (hij : i ≤ j) (hj : j < q) : 0 ≤ sideCross v i j := by
  induction j, hij using Nat.le_induction with
  | base => rw [sideCross_self]
  | succ j hij ih =>
    have ih := ih (by omega)
    have e := sideCross_three v a b i j (j + 1)
    rcases hs with hs | hs
    · have h1 := hs i hi (by omega)
      have h2 := hs j (by omega) (by omega)
      have h3 := hs (j + 1) (by omega) hj
      have : 0 ≤ sideAlong v a b j * sideCross v i (j + 1) := by
        rw [e]; exact add_nonneg (mul_nonneg h1.le (ht j)) (mul_nonneg h3.le ih)
      exact nonneg_of_mul_nonneg_right this h2
    · have h1 := hs i hi (by omega)
      have h2 := hs j (by omega) (by omega)
      have h3 := hs (j + 1) (by omega) hj
      have : sideAlong v a b j * sideCross v i (j + 1) ≤ 0 := by
        rw [e]; exact add_nonpos (mul_nonpos_of_nonpos_of_nonneg h1.le (ht j)) (mul_nonpos_of_nonpos_of_nonneg h3.le ih)
      by_contra hc
      push Not at hc
      have := mul_pos_of_neg_of_neg h2 hc
      linarith

/-- A closed polygon that turns left at every corner and goes forwards and then backwards in some direction: seen from a side
that goes forwards, it does not rise any more once it has fallen. -/
theorem fall_forward {v : ℕ → Pt K} {n c m : ℕ} (hper : ∀ k, v (k + n) = v k) (ht : ∀ k, 0 ≤ sideCross v k (k + 1)) {a b : K}
    (hm : m ≤ n) (hup : ∀ k, c ≤ k → k < c + m → 0 < sideAlong v a b k)
    (hdn : ∀ k, c + m ≤ k → k < c + n → sideAlong v a b k < 0)
    {i : ℕ} (hi : c ≤ i) (hi' : i < c + m) (k k' : ℕ) (h1 : i ≤ k) (h2 : k ≤ k') (h3 : k' < i + n)
    (h4 : det3 (v i) (v (i + 1)) (v (k + 1)) < det3 (v i) (v (i + 1)) (v k)) :
    det3 (v i) (v (i + 1)) (v (k' + 1)) ≤ det3 (v i) (v (i + 1)) (v k') := by
  rw [sideCross_step] at h4 ⊢
  have h4 : sideCross v i k < 0 := by linarith
  suffices sideCross v i k' ≤ 0 by linarith
  have hk : c + m ≤ k := by
    by_contra hc
    have := sideCross_block ht (Or.inl hup) hi h1 (by omega : k < c + m)
    linarith
  rcases Nat.lt_or_ge k' (c + n) with hk' | hk'
  · have e := sideCross_three v a b i k k'
    have b1 := sideCross_block ht (Or.inr hdn) hk h2 hk'
    have f1 := hup i hi hi'
    have f2 := hdn k hk (by omega)
    have f3 := hdn k' (by omega) hk'
    have : 0 < sideAlong v a b k * sideCross v i k' := by
      rw [e]; exact add_pos_of_nonneg_of_pos (mul_nonneg f1.le b1) (mul_pos_of_neg_of_neg f3 h4)
    by_contra hc
    push Not at hc
    have := mul_neg_of_neg_of_pos f2 hc
    linarith
  · obtain ⟨q, rfl⟩ : ∃ q, k' = q + n := ⟨k' - n, by omega⟩
    have e : sideCross v i (q + n) = sideCross v i q := by
      unfold sideCross
      rw [show q + n + 1 = (q + 1) + n by omega, hper, hper]
    rw [e, sideCross_swap]
    have := sideCross_block ht (Or.inl hup) (by omega : c ≤ q) (by omega : q ≤ i) hi'
    linarith

/-- … and seen from any side. -/
theorem fall_all {v : ℕ → Pt K} {n c m : ℕ} (hper : ∀ k, v (k + n) = v k) (ht : ∀ k, 0 ≤ sideCross v k (k + 1)) {a b : K}
    (hm : m ≤ n) (hup : ∀ k, c ≤ k → k < c + m → 0 < sideAlong v a b k)
    (hdn : ∀ k, c + m ≤ k → k < c + n → sideAlong v a b k < 0)
    {i : ℕ} (hi : c ≤ i) (hi' : i < c + n) (k k' : ℕ) (h1 : i ≤ k) (h2 : k ≤ k') (h3 : k' < i + n)
    (h4 : det3 (v i) (v (i + 1)) (v (k + 1)) < det3 (v i) (v (i + 1)) (v k)) :
    det3 (v i) (v (i + 1)) (v (k' + 1)) ≤ det3 (v i) (v (i + 1)) (v k') := by
  rcases Nat.lt_or_ge i (c + m) with h | h
  · exact fall_forward hper ht hm hup hdn hi h k k' h1 h2 h3 h4
  · have hneg : ∀ k, sideAlong v (-a) (-b) k = - sideAlong v a b k := by intro k; unfold sideAlong; ring
    refine fall_forward (c := c + m) (m := n - m) (a := -a) (b := -b) hper ht (by omega) ?_ ?_ h (by omega) k k' h1 h2 h3 h4
    · intro k h1 h2
      rw [hneg]
      have := hdn k h1 (by omega)
      linarith
    · intro k h1 h2
      rw [hneg]
      obtain ⟨q, rfl⟩ : ∃ q, k = q + n := ⟨k - n, by omega⟩
      have e : sideAlong v a b (q + n) = sideAlong v a b q := by
        unfold sideAlong
        rw [show q + n + 1 = (q + 1) + n by omega, hper, hper]
      rw [e]
      have := hup q (by omega) (by omega)
      linarith

/-- no corner is to the right of a side -/
theorem left_of_all {v : ℕ → Pt K} {n c m : ℕ} (hper : ∀ k, v (k + n) = v k) (ht : ∀ k, 0 ≤ sideCross v k (k + 1)) {a b : K}
    (hm : m ≤ n) (hup : ∀ k, c ≤ k → k < c + m → 0 < sideAlong v a b k)
    (hdn : ∀ k, c + m ≤ k → k < c + n → sideAlong v a b k < 0)
    {i j : ℕ} (hi : c ≤ i) (hi' : i < c + n) (hj : i ≤ j) (hj' : j ≤ i + n) : 0 ≤ det3 (v i) (v (i + 1)) (v j) := by
  refine hump_le (f := fun j => det3 (v i) (v (i + 1)) (v j)) (i := i) (N := i + n) (le_of_eq ?_) (le_of_eq ?_)
    (fall_all hper ht hm hup hdn hi hi') j hj hj'
  · unfold det3; ring
  · simp only [hper]; unfold det3; ring

/-- if no corner is straight, all other corners are strictly to the left of a side -/
theorem strictly_left {v : ℕ → Pt K} {n c m : ℕ} (hper : ∀ k, v (k + n) = v k) (ht : ∀ k, 0 < sideCross v k (k + 1)) {a b : K}
    (hm : m ≤ n) (hup : ∀ k, c ≤ k → k < c + m → 0 < sideAlong v a b k)
    (hdn : ∀ k, c + m ≤ k → k < c + n → sideAlong v a b k < 0)
    {i j : ℕ} (hi : c ≤ i) (hi' : i < c + n) (hj : i + 1 < j) (hj' : j < i + n) : 0 < det3 (v i) (v (i + 1)) (v j) := by
  have h1 : 0 < det3 (v i) (v (i + 1)) (v (i + 2)) := by
    have := ht i
    have e : det3 (v i) (v (i + 1)) (v (i + 2)) = sideCross v i (i + 1) := by
      rw [show i + 2 = (i + 1) + 1 by omega, sideCross_step]; unfold det3; ring
    rwa [e]
  have h2 : 0 < det3 (v i) (v (i + 1)) (v (i + n - 1)) := by
    have := ht (i + n - 1)
    have e0 : i + n - 1 + 1 = i + n := by omega
    have e : det3 (v i) (v (i + 1)) (v (i + n - 1)) = sideCross v (i + n - 1) (i + n - 1 + 1) := by
      unfold det3 sideCross
      rw [e0, show i + n + 1 = (i + 1) + n by omega, hper, hper]; ring
    rwa [e]
  have h3 := hump_le (f := fun j => det3 (v i) (v (i + 1)) (v j)) (i := i + 2) (N := i + n - 1) (min_le_left _ _)
    (min_le_right _ _) (fun k k' a1 a2 a3 => fall_all hper (fun k => (ht k).le) hm hup hdn hi hi' k k' (by omega) a2 (by omega))
    j (by omega) (by omega)
  exact (lt_min h1 h2).trans_le h3

end Srep
