import Verif.Lemmas.KrempeArc
import Verif.Lemmas.RoundFinish
import Verif.Lemmas.HeadArc

/-! The points of the rounded knuckle -/

set_option linter.unusedSectionVars false

namespace Srep
open Rt

/-- the arc goes up and outwards -/
theorem arc_between {tu tv r : ℝ} (h0 : 0 ≤ tv) (hl : tv < tu) (hr : 0 < r) (x y : ℝ) {n : ℕ} (hn : n ≤ 3) :
    (onCircle x y r (360 - leanDeg tu)).y ≤ (onCircle x y r (360 - leanDeg tu + n * ((leanDeg tu - leanDeg tv) / 3))).y ∧
    (onCircle x y r (360 - leanDeg tu + n * ((leanDeg tu - leanDeg tv) / 3))).y ≤ (onCircle x y r (360 - leanDeg tv)).y ∧
    (onCircle x y r (360 - leanDeg tu)).x ≤ (onCircle x y r (360 - leanDeg tu + n * ((leanDeg tu - leanDeg tv) / 3))).x := by
  have a1 := leanDeg_lt_90 tu
  have a4 := leanDeg_nonneg h0
  have a5 := leanDeg_lt.2 hl
  have hn' : (n : ℝ) ≤ 3 := by exact_mod_cast hn
  have hn0 : (0 : ℝ) ≤ n := Nat.cast_nonneg n
  have hpi := Real.pi_pos
  set A := leanDeg tu
  set B := leanDeg tv
  have key : ∀ t : ℝ, onCircle x y r (360 - t) = ⟨x + r * Real.cos (t * (Real.pi / 180)), y - r * Real.sin (t * (Real.pi / 180))⟩ := by
    intro t
    unfold onCircle
    have : (360 - t) * (Real.pi / 180) = 2 * Real.pi - t * (Real.pi / 180) := by ring
    rw [this, Real.cos_two_pi_sub, Real.sin_two_pi_sub]
    congr 1
    ring
  set C := A - n * ((A - B) / 3) with hC
  have hCA : C ≤ A := by
    have : 0 ≤ (n : ℝ) * ((A - B) / 3) := mul_nonneg hn0 (by linarith)
    linarith
  have hCB : B ≤ C := by
    have : (n : ℝ) * ((A - B) / 3) ≤ 3 * ((A - B) / 3) := mul_le_mul_of_nonneg_right hn' (by linarith)
    linarith
  have e : 360 - A + n * ((A - B) / 3) = 360 - C := by rw [hC]; ring
  rw [e, key, key, key]
  dsimp only
  have hk : 0 < Real.pi / 180 := by positivity
  have b1 : C * (Real.pi / 180) ≤ A * (Real.pi / 180) := mul_le_mul_of_nonneg_right hCA hk.le
  have b2 : B * (Real.pi / 180) ≤ C * (Real.pi / 180) := mul_le_mul_of_nonneg_right hCB hk.le
  have b3 : 0 ≤ B * (Real.pi / 180) := mul_nonneg a4 hk.le
  have b4 : A * (Real.pi / 180) ≤ Real.pi / 2 := by nlinarith
  have s1 := Real.sin_le_sin_of_le_of_le_pi_div_two (x := C * (Real.pi / 180)) (y := A * (Real.pi / 180)) (by linarith) b4 b1
  have s2 := Real.sin_le_sin_of_le_of_le_pi_div_two (x := B * (Real.pi / 180)) (y := C * (Real.pi / 180)) (by linarith) (by linarith) b2
  have s3 := Real.cos_le_cos_of_nonneg_of_le_pi (x := C * (Real.pi / 180)) (y := A * (Real.pi / 180)) (by linarith) (by linarith) b1
  have t1 := mul_le_mul_of_nonneg_left s1 hr.le
  have t2 := mul_le_mul_of_nonneg_left s2 hr.le
  have t3 := mul_le_mul_of_nonneg_left s3 hr.le
  refine ⟨by linarith, by linarith, by linarith⟩

theorem apart_of_dist2 {p q : Pt ℝ} (h : (4 / 10 ^ 5) ^ 2 ≤ dist2 p q) : 2 / 10 ^ 5 ≤ |p.x - q.x| ∨ 2 / 10 ^ 5 ≤ |p.y - q.y| := by
  by_contra hc
  push Not at hc
  obtain ⟨h1, h2⟩ := hc
  have b1 := mul_self_le_mul_self (abs_nonneg _) h1.le
  have b2 := mul_self_le_mul_self (abs_nonneg _) h2.le
  rw [abs_mul_abs_self] at b1 b2
  unfold dist2 at h
  norm_num at h b1 b2
  linarith

/-- the points of an arc are apart and on the grid -/
theorem arc_spread {cx cy r a b : ℝ} {n : ℕ} (gx : Grid cx) (gy : Grid cy) (ho : ArcOk r a b n) (hf : b - a ≠ 360) :
    GridSpread n (arcPt cx cy r a b n) := by
  refine ⟨?_, fun k _ => arcPt_grid gx gy r a b n k⟩
  have key : ∀ i j, i < j → j ≤ n → 1 / 10 ^ 5 ≤ |(arcPt cx cy r a b n i).x - (arcPt cx cy r a b n j).x| ∨
      1 / 10 ^ 5 ≤ |(arcPt cx cy r a b n i).y - (arcPt cx cy r a b n j).y| := by
    intro i j hij hj
    have h1 := ho.sep hij hj fun e => absurd e hf
    rw [dist2_circle] at h1
    have e : (i : ℝ) * ((b - a) / n) - j * ((b - a) / n) = (a + i * ((b - a) / n)) - (a + j * ((b - a) / n)) := by ring
    rw [e, ← dist2_circle cx cy] at h1
    obtain ⟨n1, n2⟩ := arcPt_near cx cy r a b n i
    obtain ⟨m1, m2⟩ := arcPt_near cx cy r a b n j
    generalize arcPt cx cy r a b n i = p at *
    generalize arcPt cx cy r a b n j = q at *
    have aux : ∀ x y u w : ℝ, |x - u| ≤ 13 / 10 ^ 9 → |y - w| ≤ 13 / 10 ^ 9 → 2 / 10 ^ 5 ≤ |u - w| → 1 / 10 ^ 5 ≤ |x - y| := by
      intro x y u w h1 h2 h3
      have c1 := abs_sub_le u x w
      have c2 := abs_sub_le x y w
      rw [abs_sub_comm u x] at c1
      norm_num at *
      linarith
    exact (apart_of_dist2 h1).imp (aux _ _ _ _ n1 m1) (aux _ _ _ _ n2 m2)
  intro i j hi hj hne
  rcases Nat.lt_or_gt_of_ne hne with h | h
  · exact key i j h hj
  · rw [abs_sub_comm, abs_sub_comm (arcPt cx cy r a b n i).y]
    exact key j i h hi

variable (hs : ℝ → ℝ → Int)

/-- the arc of the knuckle as objects in memory -/
theorem krempeArc_joined {k o : MantelDim ℝ} (C : OnCone k o) {r : ℝ} (hr : 0 < r) (hl : |leanOf o| < leanOf k)
    (uk : Untied (r * leanLen (leanOf k))) (uo : Untied (r * leanLen (leanOf o)))
    (hg : (12 / 10 ^ 5) ^ 2 ≤ dist2 (onCircle 0 0 r (360 - leanDeg (leanOf k))) (onCircle 0 0 r (360 - leanDeg |leanOf o|))) :
    ∃ v : ℕ → Pt ℝ, GridSpread 3 v ∧
      (∀ n ≤ 3, Near (arcOff (leanOf k) (leanOf o)) (v n)
        (onCircle (filletCentre (cornerOf o) (leanOf k) (leanOf o) r).x (filletCentre (cornerOf o) (leanOf k) (leanOf o) r).y r
          (360 - leanDeg (leanOf k) + n * ((leanDeg (leanOf k) - leanDeg |leanOf o|) / 3)))) ∧
      v = arcPt (arcCentre k o r).x (arcCentre k o r).y r (360 - leanDeg (leanOf k)) (360 - leanDeg |leanOf o|) 3 ∧
      ∀ h, ∃ h' P, (Rt.real hs).krempeArc h o.posH o.posV r (wallR k) (wallR o) = .ok (h', P) ∧ h.Ext h' ∧ Chained h' P.segs 3 v ∧
        SharesPoints h' P.segs := by
  obtain ⟨cx, cy, g1, g2, hnear, hc, hdef⟩ := krempeArc_eq hs C hl uk uo
  have hst : (Rt.real hs).Stored ⟨cx, cy⟩ := ((Rt.real_isExact hs).stored_iff _).2 ⟨g1, g2⟩
  have ok := arcOk_of hl hr hg
  have hf : 360 - leanDeg |leanOf o| - (360 - leanDeg (leanOf k)) ≠ 360 := by
    have := leanDeg_lt_90 (leanOf k)
    have := leanDeg_nonneg (abs_nonneg (leanOf o))
    intro e
    linarith
  refine ⟨arcPt cx cy r (360 - leanDeg (leanOf k)) (360 - leanDeg |leanOf o|) 3, arc_spread g1 g2 ok hf, ?_, by rw [hc], ?_⟩
  · intro n hn
    have hv := arcPt_near cx cy r (360 - leanDeg (leanOf k)) (360 - leanDeg |leanOf o|) 3 n
    have e : 360 - leanDeg (leanOf k) + n * ((360 - leanDeg |leanOf o| - (360 - leanDeg (leanOf k))) / ((3 : ℕ) : ℝ)) =
        360 - leanDeg (leanOf k) + n * ((leanDeg (leanOf k) - leanDeg |leanOf o|) / 3) := by
      push_cast; ring
    rw [e] at hv
    refine (hv.trans (near_circle hnear r _)).mono (le_of_eq ?_)
    unfold arcOff
    ring
  · intro h
    rw [hdef]
    obtain ⟨h', P, q1, q2, q3, q4, q5, q6⟩ := arc_piece hs h cx cy r _ _ 3 ok hst
    refine ⟨h', P, q1, ⟨by omega, by omega, q5, q6⟩, ⟨by rw [q2.segs]; simp, ?_, ?_⟩, q2.shares⟩
    · intro s hs'
      refine ⟨?_, ?_, ?_⟩
      · rw [q2.segs, List.mem_range'_1] at hs'
        omega
      · rw [q3]; exact (q2.pts _ ⟨s, hs', Or.inl rfl⟩).2
      · rw [q3]; exact (q2.pts _ ⟨s, hs', Or.inr rfl⟩).2
    · intro k hk
      have hk' : k < 3 := by rw [q2.segs] at hk; simpa using hk
      have := q2.val k hk'
      simp only [q2.segs, List.getElem_range', one_mul]
      rw [this]
      exact ⟨rfl, rfl⟩

end Srep
