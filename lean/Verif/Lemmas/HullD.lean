import Verif.Lemmas.HullC
import Mathlib.Analysis.Convex.Extreme
import Mathlib.Analysis.Convex.Combination
import Mathlib.Tactic.LinearCombination

/-! The hull polygon as a convex hull in the sense of Mathlib: fan triangulation from the first vertex. -/

set_option linter.unusedSectionVars false

namespace Srep
open Rt
variable {K : Type} [Field K] [LinearOrder K] [IsStrictOrderedRing K]

/-- a point in the triangle `a b c` (counter-clockwise) is a convex combination of its corners -/
theorem mem_hull_of_tri {A : Set (K × K)} {a b c p : K × K} (ha : a ∈ A) (hb : b ∈ A) (hc : c ∈ A)
    (hD : 0 < det3 (pairPt a) (pairPt b) (pairPt c)) (h1 : 0 ≤ det3 (pairPt a) (pairPt b) (pairPt p))
    (h2 : 0 ≤ det3 (pairPt b) (pairPt c) (pairPt p)) (h3 : det3 (pairPt a) (pairPt c) (pairPt p) ≤ 0) :
    p ∈ _root_.convexHull K A := by
  have hconv := convex_convexHull K A
  have hne := hD.ne'
  have key := hconv.sum_mem (t := (Finset.univ : Finset (Fin 3)))
    (w := ![det3 (pairPt b) (pairPt c) (pairPt p) / det3 (pairPt a) (pairPt b) (pairPt c),
      -det3 (pairPt a) (pairPt c) (pairPt p) / det3 (pairPt a) (pairPt b) (pairPt c),
      det3 (pairPt a) (pairPt b) (pairPt p) / det3 (pairPt a) (pairPt b) (pairPt c)])
    (z := ![a, b, c]) (by
      intro i _
      fin_cases i
      · exact div_nonneg h2 hD.le
      · exact div_nonneg (by linarith) hD.le
      · exact div_nonneg h1 hD.le) (by
      simp only [Fin.sum_univ_three, Matrix.cons_val]
      rw [← add_div, ← add_div, div_eq_one_iff_eq hne]
      simp only [det3]; ring) (by
      intro i _
      fin_cases i
      · exact subset_convexHull K A ha
      · exact subset_convexHull K A hb
      · exact subset_convexHull K A hc)
  convert key using 1
  simp only [Fin.sum_univ_three, Matrix.cons_val]
  obtain ⟨ax, ay⟩ := a
  obtain ⟨bx, b'⟩ := b
  obtain ⟨cx, cy⟩ := c
  obtain ⟨px, py⟩ := p
  simp only [Prod.smul_mk, Prod.mk_add_mk, smul_eq_mul, Prod.mk.injEq]
  constructor
  · field_simp
    simp only [det3, pairPt]; ring
  · field_simp
    simp only [det3, pairPt]; ring

/-- a sign change between `1` and `m` -/
theorem sign_change (f : ℕ → K) (m : ℕ) (h1 : 0 ≤ f 1) (hm : f (m + 2) ≤ 0) :
    ∃ k, 1 ≤ k ∧ k ≤ m + 1 ∧ 0 ≤ f k ∧ f (k + 1) ≤ 0 := by
  induction m with
  | zero => exact ⟨1, le_rfl, le_rfl, h1, hm⟩
  | succ m ih =>
    rcases le_total (f (m + 2)) 0 with h | h
    · obtain ⟨k, a, b, c, d⟩ := ih h
      exact ⟨k, a, by omega, c, d⟩
    · exact ⟨m + 2, by omega, by omega, h, hm⟩

/-- the left side of a line is convex -/
theorem convex_left (a b : Pt K) : Convex K {p : K × K | 0 ≤ det3 a b (pairPt p)} := by
  rintro ⟨px, py⟩ hp ⟨qx, qy⟩ hq s t hs ht hst
  simp only [Set.mem_ofPred_eq, Prod.smul_mk, Prod.mk_add_mk, smul_eq_mul] at *
  have : det3 a b (pairPt (s * px + t * qx, s * py + t * qy)) =
      s * det3 a b (pairPt (px, py)) + t * det3 a b (pairPt (qx, qy)) := by
    obtain rfl : s = 1 - t := by linarith
    simp only [det3, pairPt]; ring
  rw [this]
  positivity

/-- the convex hull of the vertices is the intersection of the left sides -/
theorem HullCycle.mem_convexHull {S : Set (Pt K)} {n : ℕ} {w : ℕ → Pt K} (H : HullCycle S n w)
    (hinj : ∀ i < n, ∀ j < n, w i = w j → i = j) {v : List (K × K)} (hv : v.length = n)
    (hw : ∀ k (hk : k < v.length), w k = pairPt v[k]) (p : K × K) :
    p ∈ _root_.convexHull K {q | q ∈ v} ↔ ∀ k, 0 ≤ det3 (w k) (w (k + 1)) (pairPt p) := by
  constructor
  · intro hp k
    refine convexHull_min (t := {p : K × K | 0 ≤ det3 (w k) (w (k + 1)) (pairPt p)}) ?_ (convex_left _ _) hp
    intro q hq
    obtain ⟨j, hj, rfl⟩ := List.getElem_of_mem hq
    simp only [Set.mem_ofPred_eq]
    rw [← hw j hj]
    exact H.left k _ (H.mem j)
  · intro h
    -- at least three vertices
    have hn3 : 3 ≤ n := by
      by_contra hc
      have hp := H.pos
      have t := H.turn 0
      have e1 : n = 1 ∨ n = 2 := by omega
      rcases e1 with rfl | rfl
      · exact H.ne 0 (H.period 0).symm
      · have := H.period 0
        rw [this] at t
        simp [det3] at t
    obtain ⟨m, rfl⟩ : ∃ m, n = m + 3 := ⟨n - 3, by omega⟩
    have hlast := h (m + 2)
    rw [show m + 2 + 1 = 0 + (m + 3) by omega, H.period] at hlast
    obtain ⟨k, k1, k2, f1, f2⟩ := sign_change (fun k => det3 (w 0) (w k) (pairPt p)) m (h 0) (by
      have : det3 (w 0) (w (m + 2)) (pairPt p) = - det3 (w (m + 2)) (w 0) (pairPt p) := by simp only [det3]; ring
      rw [this]; linarith)
    have hD : 0 < det3 (w k) (w (k + 1)) (w 0) := by
      rcases H.strict k 0 with e | e | e
      · exact absurd (hinj 0 (by omega) k (by omega) e) (by omega)
      · exact absurd (hinj 0 (by omega) (k + 1) (by omega) e) (by omega)
      · exact e
    have hk := h k
    rw [hw 0 (by omega), hw k (by omega)] at f1
    rw [hw 0 (by omega), hw (k + 1) (by omega)] at f2
    rw [hw k (by omega), hw (k + 1) (by omega)] at hk
    rw [hw 0 (by omega), hw k (by omega), hw (k + 1) (by omega)] at hD
    refine mem_hull_of_tri (A := {q | q ∈ v}) (List.getElem_mem _) (List.getElem_mem _) (List.getElem_mem _) ?_ f1 hk f2
    have : ∀ a b c : Pt K, det3 c a b = det3 a b c := by intro a b c; simp only [det3]; ring
    rw [this]; exact hD

/-- every vertex is an extreme point -/
theorem HullCycle.extreme_vertex {S : Set (Pt K)} {n : ℕ} {w : ℕ → Pt K} (H : HullCycle S n w) {A : Set (K × K)}
    (hA : ∀ p ∈ A, ∀ k, 0 ≤ det3 (w k) (w (k + 1)) (pairPt p)) (k : ℕ) (v : K × K) (hv : v ∈ A)
    (e : w k = pairPt v) : v ∈ A.extremePoints K := by
  refine ⟨hv, ?_⟩
  rintro x hx y hy ⟨s, t, hs, ht, hst, rfl⟩
  obtain ⟨j, e1, e2⟩ := H.pred k
  have a1 := hA x hx k
  have a2 := hA y hy k
  have b1 := hA x hx j
  have b2 := hA y hy j
  have T := H.turn j
  rw [e1] at b1 b2
  rw [e1, e2] at T
  generalize w j = P at *
  generalize w (k + 1) = Q at *
  rw [e] at *
  obtain ⟨x1, x2⟩ := x
  obtain ⟨y1, y2⟩ := y
  simp only [Prod.smul_mk, Prod.mk_add_mk, smul_eq_mul] at *
  obtain rfl : s = 1 - t := by linarith
  set X : K × K := ((1 - t) * x1 + t * y1, (1 - t) * x2 + t * y2) with hX
  have z1 : (1 - t) * det3 (pairPt X) Q (pairPt (x1, x2)) + t * det3 (pairPt X) Q (pairPt (y1, y2)) = 0 := by
    simp only [det3, pairPt, hX]; ring
  have z2 : (1 - t) * det3 P (pairPt X) (pairPt (x1, x2)) + t * det3 P (pairPt X) (pairPt (y1, y2)) = 0 := by
    simp only [det3, pairPt, hX]; ring
  have c1 : det3 (pairPt X) Q (pairPt (x1, x2)) = 0 := by
    have := mul_nonneg ht.le a2
    have h0 : (1 - t) * det3 (pairPt X) Q (pairPt (x1, x2)) ≤ 0 := by linarith
    by_contra hc
    have := mul_pos hs (lt_of_le_of_ne a1 (Ne.symm hc))
    linarith
  have c2 : det3 P (pairPt X) (pairPt (x1, x2)) = 0 := by
    have := mul_nonneg ht.le b2
    have h0 : (1 - t) * det3 P (pairPt X) (pairPt (x1, x2)) ≤ 0 := by linarith
    by_contra hc
    have := mul_pos hs (lt_of_le_of_ne b1 (Ne.symm hc))
    linarith
  clear_value X
  have hT := T.ne'
  have ex : (x1 - X.1) * det3 P (pairPt X) Q = 0 := by
    simp only [det3, pairPt] at c1 c2 ⊢
    linear_combination (Q.x - X.1) * c2 - (X.1 - P.x) * c1
  have ey : (x2 - X.2) * det3 P (pairPt X) Q = 0 := by
    simp only [det3, pairPt] at c1 c2 ⊢
    linear_combination (Q.y - X.2) * c2 - (X.2 - P.y) * c1
  have ex' := (mul_eq_zero.1 ex).resolve_right hT
  have ey' := (mul_eq_zero.1 ey).resolve_right hT
  exact Prod.ext (by simpa using sub_eq_zero.1 ex') (by simpa using sub_eq_zero.1 ey')

end Srep
