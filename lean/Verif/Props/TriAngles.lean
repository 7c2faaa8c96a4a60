import Verif.Model.TriAngles
import Verif.Model.Ear
import Verif.Props.Triangle
import Verif.Props.LineC
import Mathlib.Geometry.Euclidean.Triangle
import Mathlib.Analysis.Complex.Basic

/-! # C109: angles and quality of triangles -/

set_option linter.unusedSectionVars false

namespace Srep

section
variable {K : Type} [Field K] [LinearOrder K] [IsStrictOrderedRing K] [FloorRing K] {R : Rt K}

/-- no two of the three corners are equal for the code -/
def Distinct3 (R : Rt K) (p q r : Pt K) : Prop := R.peq p q = false ∧ R.peq q r = false ∧ R.peq p r = false

/-- after the reversals both segments start at the common corner -/
theorem toStart_common (hR : R.IsRounding) {p q r : Pt K} (hd : Distinct3 R p q r) {a b : Seg K} (ha : Joins a p q) (hb : Joins b q r) :
    ((R.toStart a b).1.i = q ∧ (R.toStart a b).1.j = p) ∧ (R.toStart a b).2.i = q ∧ (R.toStart a b).2.j = r := by
  obtain ⟨d1, d2, d3⟩ := hd
  have d1' : R.peq q p = false := by rw [hR.peq_comm]; exact d1
  have d2' : R.peq r q = false := by rw [hR.peq_comm]; exact d2
  have d3' : R.peq r p = false := by rw [hR.peq_comm]; exact d3
  obtain ⟨ai, aj, ac⟩ := a
  obtain ⟨bi, bj, bc⟩ := b
  unfold Joins at ha hb
  dsimp only at ha hb
  rcases ha with ⟨rfl, rfl⟩ | ⟨rfl, rfl⟩ <;> rcases hb with ⟨rfl, rfl⟩ | ⟨rfl, rfl⟩ <;>
    simp [Rt.toStart, Seg.reversed, hR.peq_refl, d1, d2, d3, d1', d2', d3']

end

open EuclideanGeometry

/-- a point of the plane -/
def Pt.toC (p : Pt ℝ) : ℂ := ⟨p.x, p.y⟩

/-- the angle at `v` of the triangle `x v y` in degrees -/
noncomputable def angleDeg (x v y : Pt ℝ) : ℝ := ∠ x.toC v.toC y.toC * (180 / Real.pi)

theorem toC_inj {p q : Pt ℝ} (h : p.toC = q.toC) : p = q := by
  obtain ⟨a, b⟩ := p
  obtain ⟨c, d⟩ := q
  simp only [Pt.toC, Complex.mk.injEq] at h
  rw [h.1, h.2]

theorem real_norm (hs : ℝ → ℝ → Int) (s : Seg ℝ) : (Rt.real hs).norm s = ‖s.j.toC - s.i.toC‖ := by
  have h1 := (Rt.real_isExact hs).norm_sq s
  have h0 : 0 ≤ (Rt.real hs).norm s := (Rt.real_isExact hs).norm_nonneg s
  rw [Complex.norm_def, Complex.normSq_apply]
  simp only [Pt.toC, Complex.sub_re, Complex.sub_im]
  rw [← h1, Real.sqrt_mul_self h0]

/-- `angle_between_lines` of two segments with a common start -/
theorem real_angle (hs : ℝ → ℝ → Int) {s o : Seg ℝ} {x v y : Pt ℝ} (h1 : s.i = v ∧ s.j = x) (h2 : o.i = v ∧ o.j = y) (hx : x ≠ v) (hy : y ≠ v) :
    (Rt.real hs).angleBetween s o = .ok (angleDeg x v y) := by
  obtain ⟨c, e1, -, -, e4⟩ := C31_exact (Rt.real_isExact hs) s o (by rw [h1.1, h1.2]; exact hx.symm) (by rw [h2.1, h2.2]; exact hy.symm)
  rw [e1]
  congr 1
  unfold angleDeg EuclideanGeometry.angle InnerProductGeometry.angle
  show Real.arccos c * (180 / Real.pi) = _
  congr 2
  have hn1 : ‖x.toC - v.toC‖ ≠ 0 := by
    rw [norm_ne_zero_iff, sub_ne_zero]
    exact fun h => hx (toC_inj h)
  have hn2 : ‖y.toC - v.toC‖ ≠ 0 := by
    rw [norm_ne_zero_iff, sub_ne_zero]
    exact fun h => hy (toC_inj h)
  rw [real_norm, real_norm, h1.1, h1.2, h2.1, h2.2] at e4
  rw [vsub_eq_sub, vsub_eq_sub, eq_div_iff (mul_ne_zero hn1 hn2), e4]
  simp [Pt.toC, Complex.inner, Complex.mul_re]
  ring

theorem Distinct3.ne {hs : ℝ → ℝ → Int} {p q r : Pt ℝ} (hd : Distinct3 (Rt.real hs) p q r) : p ≠ q ∧ q ≠ r ∧ p ≠ r := by
  have hR := (Rt.real_isExact hs).isRounding
  obtain ⟨h1, h2, h3⟩ := hd
  refine ⟨?_, ?_, ?_⟩
  · rintro rfl; rw [hR.peq_refl] at h1; cases h1
  · rintro rfl; rw [hR.peq_refl] at h2; cases h2
  · rintro rfl; rw [hR.peq_refl] at h3; cases h3

/-- C109 (angles): for segments joining the corners in whatever directions, `angles` are the angles of the triangle, each at the
common corner of two segments, and there is no exception. -/
theorem C109_angles (hs : ℝ → ℝ → Int) {p q r : Pt ℝ} (hd : Distinct3 (Rt.real hs) p q r) {a b c : Seg ℝ} (ha : Joins a p q) (hb : Joins b q r)
    (hc : Joins c r p) : (Rt.real hs).triAngles a b c = .ok [angleDeg p q r, angleDeg q p r, angleDeg q r p] := by
  have hR := (Rt.real_isExact hs).isRounding
  obtain ⟨n1, n2, n3⟩ := hd.ne
  obtain ⟨d1, d2, d3⟩ := hd
  obtain ⟨a1, b1⟩ := toStart_common hR ⟨d1, d2, d3⟩ ha hb
  obtain ⟨a2, c2⟩ := toStart_common hR (p := q) (q := p) (r := r) ⟨by rw [hR.peq_comm]; exact d1, d3, d2⟩
    (a := ((Rt.real hs).toStart a b).1) (b := c) (Or.inl a1) (by rcases hc with h | h; exacts [Or.inr h, Or.inl h])
  obtain ⟨b3, c3⟩ := toStart_common hR (p := q) (q := r) (r := p) ⟨d2, by rw [hR.peq_comm]; exact d3, by rw [hR.peq_comm]; exact d1⟩
    (a := ((Rt.real hs).toStart a b).2) (b := ((Rt.real hs).toStart ((Rt.real hs).toStart a b).1 c).2) (Or.inl b1) (Or.inr c2)
  unfold Rt.triAngles
  dsimp only
  rw [real_angle hs a1 b1 n1 n2.symm]
  dsimp only
  rw [real_angle hs a2 c2 n1.symm n3.symm]
  dsimp only
  rw [real_angle hs b3 c3 n2 n3]

/-- the angles are between 0 and 180 and add up to 180 -/
theorem angleDeg_sum {p q r : Pt ℝ} (h : p ≠ q) :
    angleDeg p q r + angleDeg q p r + angleDeg q r p = 180 ∧ 0 ≤ angleDeg p q r ∧ angleDeg p q r ≤ 180 := by
  have hpi := Real.pi_pos
  have h1 := angle_add_angle_add_angle_eq_pi (p₁ := p.toC) (p₂ := q.toC) r.toC (fun e => h (toC_inj e).symm)
  rw [EuclideanGeometry.angle_comm r.toC] at h1
  unfold angleDeg
  refine ⟨?_, by have := EuclideanGeometry.angle_nonneg p.toC q.toC r.toC; positivity, ?_⟩
  · rw [← add_mul, ← add_mul, add_right_comm, h1]
    field_simp
  · have := EuclideanGeometry.angle_le_pi p.toC q.toC r.toC
    rw [mul_div_assoc', div_le_iff₀ hpi]
    linarith

/-- C109 (sum): the angles of a triangle are between 0 and 180 and add up to 180. -/
theorem C109_sum (hs : ℝ → ℝ → Int) {p q r : Pt ℝ} (hd : Distinct3 (Rt.real hs) p q r) {a b c : Seg ℝ} (ha : Joins a p q) (hb : Joins b q r)
    (hc : Joins c r p) : ∃ x y z, (Rt.real hs).triAngles a b c = .ok [x, y, z] ∧ x + y + z = 180 ∧ (0 ≤ x ∧ x ≤ 180) ∧ (0 ≤ y ∧ y ≤ 180) ∧
      0 ≤ z ∧ z ≤ 180 := by
  obtain ⟨n1, n2, n3⟩ := hd.ne
  exact ⟨_, _, _, C109_angles hs hd ha hb hc, (angleDeg_sum n1).1, (angleDeg_sum n1).2, (angleDeg_sum n1.symm).2, (angleDeg_sum n2).2⟩

theorem angle_sixty {x y z : ℂ} (h1 : dist x y = dist y z) (h2 : dist x y = dist x z) (h : x ≠ y) : ∠ x y z = Real.pi / 3 := by
  have e1 : ∠ x y z = ∠ x z y := angle_eq_angle_of_dist_eq h2
  have e2 : ∠ y x z = ∠ y z x := angle_eq_angle_of_dist_eq (by rw [dist_comm y x]; exact h1)
  have h3 := angle_add_angle_add_angle_eq_pi (p₁ := x) (p₂ := y) z h.symm
  rw [EuclideanGeometry.angle_comm y z x, EuclideanGeometry.angle_comm z x y, e2, EuclideanGeometry.angle_comm y z x, ← e1] at h3
  linarith

/-- C109 (quality): it is between 0 and 240, and 0 exactly for triangles with three sides of the same length. -/
theorem C109_quality (hs : ℝ → ℝ → Int) {p q r : Pt ℝ} (hd : Distinct3 (Rt.real hs) p q r) {a b c : Seg ℝ} (ha : Joins a p q) (hb : Joins b q r)
    (hc : Joins c r p) : ∃ m, (Rt.real hs).triQuality a b c = .ok m ∧ 0 ≤ m ∧ m ≤ 240 ∧
      (m = 0 ↔ (Rt.real hs).norm a = (Rt.real hs).norm b ∧ (Rt.real hs).norm b = (Rt.real hs).norm c) := by
  obtain ⟨n1, n2, n3⟩ := hd.ne
  obtain ⟨s1, x0, x1⟩ := angleDeg_sum (r := r) n1
  obtain ⟨-, y0, y1⟩ := angleDeg_sum (r := r) n1.symm
  obtain ⟨-, z0, z1⟩ := angleDeg_sum (r := p) n2
  refine ⟨|angleDeg p q r - 60| + |angleDeg q p r - 60| + |angleDeg q r p - 60|, ?_, by positivity, ?_, ?_⟩
  · unfold Rt.triQuality
    rw [C109_angles hs hd ha hb hc]
    simp only [Except.map, List.map_cons, List.map_nil, Rt.psum, List.foldl_cons, List.foldl_nil, (Rt.real_isExact hs).add',
      (Rt.real_isExact hs).sub', zero_add]
  · have k : ∀ t : ℝ, |t - 60| = max (t - 60) (60 - t) := fun t => by rw [abs_eq_max_neg]; ring_nf
    rw [k, k, k]
    rcases max_cases (angleDeg p q r - 60) (60 - angleDeg p q r) with h | h <;>
    rcases max_cases (angleDeg q p r - 60) (60 - angleDeg q p r) with h' | h' <;>
    rcases max_cases (angleDeg q r p - 60) (60 - angleDeg q r p) with h'' | h'' <;> linarith
  · have hpi := Real.pi_pos
    have hnorm : ∀ {s : Seg ℝ} {u v : Pt ℝ}, Joins s u v → (Rt.real hs).norm s = dist u.toC v.toC := by
      intro s u v h
      rw [real_norm]
      rcases h with ⟨h, h'⟩ | ⟨h, h'⟩ <;> rw [h, h', dist_eq_norm]
      rw [norm_sub_rev]
    rw [hnorm ha, hnorm hb, hnorm hc]
    have sixty : ∀ u v w : Pt ℝ, angleDeg u v w = 60 ↔ ∠ u.toC v.toC w.toC = Real.pi / 3 := by
      intro u v w
      unfold angleDeg
      rw [mul_div_assoc', div_eq_iff hpi.ne']
      constructor <;> intro h <;> linarith
    constructor
    · intro h
      have k1 : |angleDeg p q r - 60| = 0 := by have := abs_nonneg (angleDeg p q r - 60); have := abs_nonneg (angleDeg q p r - 60); have := abs_nonneg (angleDeg q r p - 60); linarith
      have k2 : |angleDeg q p r - 60| = 0 := by have := abs_nonneg (angleDeg p q r - 60); have := abs_nonneg (angleDeg q p r - 60); have := abs_nonneg (angleDeg q r p - 60); linarith
      have k3 : |angleDeg q r p - 60| = 0 := by have := abs_nonneg (angleDeg p q r - 60); have := abs_nonneg (angleDeg q p r - 60); have := abs_nonneg (angleDeg q r p - 60); linarith
      rw [abs_eq_zero, sub_eq_zero, sixty] at k1 k2 k3
      have d1 : dist p.toC q.toC = dist p.toC r.toC := by
        refine dist_eq_of_angle_eq_angle_of_angle_ne_pi ?_ ?_
        · rw [k1, EuclideanGeometry.angle_comm, k3]
        · rw [k2]; intro h; linarith
      have d2 : dist q.toC p.toC = dist q.toC r.toC := by
        refine dist_eq_of_angle_eq_angle_of_angle_ne_pi ?_ ?_
        · rw [k2, k3]
        · rw [k1]; intro h; linarith
      rw [dist_comm r.toC p.toC]
      rw [dist_comm] at d2
      exact ⟨d2, d2.symm.trans d1⟩
    · rintro ⟨h1, h2⟩
      have e1 := angle_sixty (x := p.toC) (y := q.toC) (z := r.toC) h1 (by rw [h1, h2, dist_comm]) (fun e => n1 (toC_inj e))
      have e2 := angle_sixty (x := q.toC) (y := p.toC) (z := r.toC) (by rw [dist_comm, h1, h2, dist_comm]) (by rw [dist_comm, h1]) (fun e => n1 (toC_inj e).symm)
      have e3 := angle_sixty (x := q.toC) (y := r.toC) (z := p.toC) h2 (by rw [h1.symm, dist_comm]) (fun e => n2 (toC_inj e))
      rw [(sixty p q r).2 e1, (sixty q p r).2 e2, (sixty q r p).2 e3]
      norm_num

/-- C109: in binary64 `angles` can raise a ValueError for a thin triangle that is a valid Triangle. -/
theorem C109_thin_raises : ∃ a b c : Seg ℚ, a.j = b.i ∧ b.j = c.i ∧ c.j = a.i ∧ det3 a.i b.i c.i ≠ 0 ∧
    (exRt.isTriangle [a, b, c]).toOption = some true ∧ exRt.triAngles a b c = .error .value := by
  refine ⟨⟨⟨0, 0⟩, ⟨6, 26⟩, .line⟩, ⟨⟨6, 26⟩, ⟨12, exRt.fl (5200000001 / 10 ^ 8)⟩, .line⟩, ⟨⟨12, exRt.fl (5200000001 / 10 ^ 8)⟩, ⟨0, 0⟩, .line⟩, rfl, rfl, rfl,
    by decide +kernel, by decide +kernel, by decide +kernel⟩

/-- the triangle of the test-suite (test_SRpolygon.py:406-417) meets the hypotheses -/
example (hs : ℝ → ℝ → Int) : Distinct3 (Rt.real hs) ⟨1 / 2, 1 / 2⟩ ⟨0, 1⟩ ⟨-(1 / 2), 1 / 2⟩ := by
  have hE := Rt.real_isExact hs
  refine ⟨?_, ?_, ?_⟩ <;> rw [← Bool.not_eq_true, hE.peq_iff] <;> norm_num

end Srep
