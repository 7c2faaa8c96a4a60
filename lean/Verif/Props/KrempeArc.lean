import Verif.Lemmas.KrempeArc

/-! C130: the rounded knuckle between a cone and the shell above it -/

set_option linter.unusedSectionVars false

namespace Srep
open Rt
variable (hs : ℝ → ℝ → Int)

/-- the points of the circle where the arc is meant to begin and to end -/
theorem dist2_ends (x y r s t : ℝ) :
    dist2 (onCircle 0 0 r s) (onCircle 0 0 r t) = dist2 (onCircle x y r s) (onCircle x y r t) := by
  rw [dist2_circle, dist2_circle]

/-- C130 (tangent): exact arithmetic; the shell above goes straight up or leans outwards, but less than the cone.  The right
side of the rounded knuckle is an arc of three segments through four points of the circle with radius `r` that touches the
wall of the cone below the corner and the wall of the shell above it; the first and the last point are the two touching points.
The points are off by at most 2.3e-8 plus a rounding error of the centre that grows as the walls get parallel. -/
theorem C130_arc (h : Heap ℝ) {k o : MantelDim ℝ} (C : OnCone k o) {r : ℝ} (hr : 0 < r) (h0 : 0 ≤ leanOf o) (hl : leanOf o < leanOf k)
    (uk : Untied (r * leanLen (leanOf k))) (uo : Untied (r * leanLen (leanOf o)))
    (hg : (12 / 10 ^ 5) ^ 2 ≤ dist2 (onWall (cornerOf o) (leanOf k) (-tangentLen (leanOf k) (leanOf o) r))
      (onWall (cornerOf o) (leanOf o) (tangentLen (leanOf k) (leanOf o) r))) :
    ∃ h' P m, ∃ v : ℕ → Pt ℝ, (Rt.real hs).krempeArc h o.posH o.posV r (wallR k) (wallR o) = .ok (h', P) ∧
      P.segs.length = 3 ∧ (∀ k (hk : k < P.segs.length), h'.val P.segs[k] = ⟨v k, v (k + 1), .line⟩) ∧ SharesPoints h' P.segs ∧
      0 < tangentLen (leanOf k) (leanOf o) r ∧
      TouchesAt m r (cornerOf o) (leanOf k) (onWall (cornerOf o) (leanOf k) (-tangentLen (leanOf k) (leanOf o) r)) ∧
      TouchesAt m r (cornerOf o) (leanOf o) (onWall (cornerOf o) (leanOf o) (tangentLen (leanOf k) (leanOf o) r)) ∧
      Near (arcOff (leanOf k) (leanOf o)) (v 0) (onWall (cornerOf o) (leanOf k) (-tangentLen (leanOf k) (leanOf o) r)) ∧
      Near (arcOff (leanOf k) (leanOf o)) (v 3) (onWall (cornerOf o) (leanOf o) (tangentLen (leanOf k) (leanOf o) r)) ∧
      (∀ n ≤ 3, Near (arcOff (leanOf k) (leanOf o)) (v n)
        (onCircle m.x m.y r (360 - leanDeg (leanOf k) + n * ((leanDeg (leanOf k) - leanDeg (leanOf o)) / 3)))) := by
  obtain ⟨tl, el⟩ := fillet_lower (cornerOf o) (r := r) hl
  obtain ⟨tu, eu⟩ := fillet_upper (cornerOf o) (r := r) hl
  have ha : |leanOf o| = leanOf o := abs_of_nonneg h0
  obtain ⟨h', P, v, q1, -, q3, q4, q5, q6, -⟩ := krempeArc_spec hs h C hr (by rw [ha]; exact hl) uk uo (by
    rw [ha, dist2_ends (filletCentre (cornerOf o) (leanOf k) (leanOf o) r).x (filletCentre (cornerOf o) (leanOf k) (leanOf o) r).y,
      onCircle_lean, onCircle_lean, ← el, ← eu]
    exact hg)
  rw [ha] at q5
  refine ⟨h', P, _, v, q1, q3, q4, q6, tangentLen_pos hl hr, tl, tu, ?_, ?_, q5⟩
  · have := q5 0 (by norm_num)
    rw [Nat.cast_zero, zero_mul, add_zero, onCircle_lean, ← el] at this
    exact this
  · have := q5 3 le_rfl
    have e : 360 - leanDeg (leanOf k) + ((3 : ℕ) : ℝ) * ((leanDeg (leanOf k) - leanDeg (leanOf o)) / 3) = 360 - leanDeg (leanOf o) := by
      push_cast; ring
    rw [e, onCircle_lean, ← eu] at this
    exact this

/-- C130 (inwards): if the shell above leans inwards, less than the cone leans outwards, the arc ends
`2 * r * |t| / sqrt(1 + t^2)` below the touching point, where `t` is the lean of the shell: the end is not on its wall, but
`2 * r * t^2 / sqrt(1 + t^2)` inside of it (measured horizontally). -/
theorem C130_inward (h : Heap ℝ) {k o : MantelDim ℝ} (C : OnCone k o) {r : ℝ} (hr : 0 < r) (h0 : leanOf o < 0) (hl : -leanOf o < leanOf k)
    (uk : Untied (r * leanLen (leanOf k))) (uo : Untied (r * leanLen (leanOf o)))
    (hg : (12 / 10 ^ 5) ^ 2 ≤ dist2 (onCircle 0 0 r (360 - leanDeg (leanOf k))) (onCircle 0 0 r (360 - leanDeg (-leanOf o)))) :
    ∃ h' P m, ∃ v : ℕ → Pt ℝ, ∃ e q : Pt ℝ, (Rt.real hs).krempeArc h o.posH o.posV r (wallR k) (wallR o) = .ok (h', P) ∧
      P.segs.length = 3 ∧ (∀ k (hk : k < P.segs.length), h'.val P.segs[k] = ⟨v k, v (k + 1), .line⟩) ∧
      TouchesAt m r (cornerOf o) (leanOf k) (onWall (cornerOf o) (leanOf k) (-tangentLen (leanOf k) (leanOf o) r)) ∧
      TouchesAt m r (cornerOf o) (leanOf o) q ∧
      Near (arcOff (leanOf k) (leanOf o)) (v 0) (onWall (cornerOf o) (leanOf k) (-tangentLen (leanOf k) (leanOf o) r)) ∧
      Near (arcOff (leanOf k) (leanOf o)) (v 3) e ∧
      e = ⟨q.x, q.y - 2 * r * (-leanOf o) / leanLen (leanOf o)⟩ ∧
      (cornerOf o).x + leanOf o * (e.y - (cornerOf o).y) - e.x = 2 * r * leanOf o ^ 2 / leanLen (leanOf o) := by
  have hlo : leanOf o < leanOf k := by linarith
  obtain ⟨tl, el⟩ := fillet_lower (cornerOf o) (r := r) hlo
  obtain ⟨tu, eu⟩ := fillet_upper (cornerOf o) (r := r) hlo
  have ha : |leanOf o| = -leanOf o := abs_of_neg h0
  obtain ⟨h', P, v, q1, -, q3, q4, q5, q6, -⟩ := krempeArc_spec hs h C hr (by rw [ha]; exact hl) uk uo (by rw [ha]; exact hg)
  rw [ha] at q5
  refine ⟨h', P, _, v, ⟨_, _⟩, _, q1, q3, q4, tl, tu, ?_, ?_, rfl, ?_⟩
  · have := q5 0 (by norm_num)
    rw [Nat.cast_zero, zero_mul, add_zero, onCircle_lean, ← el] at this
    exact this
  · have := q5 3 le_rfl
    have e : 360 - leanDeg (leanOf k) + ((3 : ℕ) : ℝ) * ((leanDeg (leanOf k) - leanDeg (-leanOf o)) / 3) = 360 - leanDeg (-leanOf o) := by
      push_cast; ring
    rw [e, onCircle_lean, ← ha, leanLen_abs, ha] at this
    rw [eu]
    dsimp only
    have e2 : (filletCentre (cornerOf o) (leanOf k) (leanOf o) r).y - r * leanOf o / leanLen (leanOf o) - 2 * r * (-leanOf o) / leanLen (leanOf o) =
        (filletCentre (cornerOf o) (leanOf k) (leanOf o) r).y - r * (-leanOf o) / leanLen (leanOf o) := by ring
    rw [e2]
    exact this
  · have := tu.1
    dsimp only
    linear_combination -this

/-- without any condition on the rounding -/
theorem parallel_angle {m : MantelDim ℝ} (hm : 0 < m.h) (r c v : ℝ) :
    ∃ l, (Rt.real hs).krempeParallel (krempeAxis c v) (wallR m) r = .ok (leanDeg |leanOf m|, l) := by
  unfold Rt.krempeParallel
  rw [angle_wall hs hm]
  have hc : (Rt.real hs).trig.cos ((Rt.real hs).trig.radians (leanDeg |leanOf m|)) = 1 / leanLen (leanOf m) := by
    show Real.cos (leanDeg |leanOf m| * (Real.pi / 180)) = _
    rw [cos_lean, leanLen_abs]
  have hp := leanLen_pos (leanOf m)
  dsimp only
  rw [hc, if_neg (by positivity)]
  exact ⟨_, rfl⟩

/-- the right side fails if the arc does -/
theorem krempeRight_error {R : Rt ℝ} {h : Heap ℝ} {r hO hU : ℝ} {k o : ShellObj ℝ} {s0 t0 : ℕ} {ks os : List ℕ} {e : PyErr}
    (hk : k.line.segs = s0 :: ks) (ho : o.line.segs = t0 :: os)
    (ha : R.krempeArc h o.dim.posH o.dim.posV r (h.val s0) (h.val t0) = .error e) : R.krempeRight h r hO hU k o = .error e := by
  unfold Rt.krempeRight
  rw [hk, ho]
  dsimp only
  rw [ha]

/-- C130 (steep): if the wall of the shell above leans as much as the cone or more, inwards or outwards, a rounded
knuckle cannot be made: AssertionError, whatever the radius and the cuts. -/
theorem C130_steep {h : Heap ℝ} {r hO hU : ℝ} {k o : ShellObj ℝ} (u : Under ℝ) (P : Parts h k o) (hr : 0 < r)
    (gH : Grid o.dim.posH) (gV : Grid o.dim.posV) (hk : 0 < k.dim.h) (ho : 0 < o.dim.h) (hl : |leanOf k.dim| ≤ |leanOf o.dim|) :
    (Rt.real hs).krempeInit h r hO hU k o u = .error .assertion := by
  have hE := Rt.real_isExact hs
  obtain ⟨s0, s1, s2, s3, ek, a0, -⟩ := shell_segs P.kegel
  obtain ⟨t0, t1, t2, t3, eo, b0, -⟩ := shell_segs P.oben
  have hax : (⟨(Rt.real hs).mkPt o.dim.posH o.dim.posV, (Rt.real hs).mkPt o.dim.posH ((Rt.real hs).add o.dim.posV 1), .line⟩ : Seg ℝ) =
      krempeAxis o.dim.posH o.dim.posV := by
    have g1 : Grid (1 : ℝ) := by simpa using grid_intCast (K := ℝ) 1
    rw [hE.add', hE.mkPt_grid gH gV, hE.mkPt_grid gH (gV.add g1)]
    rfl
  have hab : ¬ (360 - leanDeg |leanOf k.dim| < 360 - leanDeg |leanOf o.dim|) := by
    intro hc
    have := (leanDeg_lt (s := |leanOf o.dim|) (t := |leanOf k.dim|)).1 (by linarith)
    linarith
  have harc : ∀ x y, (Rt.real hs).arcH h x y r (360 - leanDeg |leanOf k.dim|) (360 - leanDeg |leanOf o.dim|) 3 false = .error .assertion := by
    intro x y
    unfold Rt.arcH
    rw [if_pos hab]
    split_ifs <;> rfl
  have hA : (Rt.real hs).krempeArc h o.dim.posH o.dim.posV r (h.val s0) (h.val t0) = .error .assertion := by
    obtain ⟨l1, e1⟩ := parallel_angle hs (m := o.dim) ho r o.dim.posH o.dim.posV
    obtain ⟨l2, e2⟩ := parallel_angle hs (m := k.dim) hk r o.dim.posH o.dim.posV
    unfold Rt.krempeArc
    dsimp only
    rw [a0, b0, hax, e1, e2]
    dsimp only
    rw [hE.sub', hE.sub']
    cases (Rt.real hs).intersectionPoint l2 l1 with
    | none => dsimp only; rw [harc]
    | some m => exact harc _ _
  have hR : (Rt.real hs).roundSegs h r hO hU k o u = .error .assertion := by
    unfold Rt.roundSegs
    rw [krempeRight_error ek eo hA]
  unfold Rt.krempeInit
  rw [if_pos hr, hR]
  split_ifs <;> rfl

section examples

theorem exShell {v d0 d1 h : ℝ} (a b c d : ℤ) (ha : v = a / 10 ^ 8) (hb : d0 / 2 = b / 10 ^ 8) (hc : d1 / 2 = c / 10 ^ 8)
    (hd : h = d / 10 ^ 8) (h0 : 0 < h) : GridShell ⟨v, 0, d0, d1, h⟩ :=
  ⟨grid_zero, ⟨a, ha⟩, ⟨d, hd⟩, ⟨b, hb⟩, ⟨c, hc⟩, h0⟩

theorem leanLen_34 : leanLen (3 / 4) = 5 / 4 := by
  unfold leanLen
  rw [Real.sqrt_eq_iff_mul_self_eq (by norm_num) (by norm_num)]
  norm_num

theorem leanLen_0 : leanLen 0 = 1 := by simp [leanLen]

theorem leanLen_512 : leanLen (5 / 12) = 13 / 12 := by
  unfold leanLen
  rw [Real.sqrt_eq_iff_mul_self_eq (by norm_num) (by norm_num)]
  norm_num

/-- a cone of height 4 with radii 1 and 4, a cylinder above it, `r = 1` -/
example : ∃ k o : MantelDim ℝ, OnCone k o ∧ 0 ≤ leanOf o ∧ leanOf o < leanOf k ∧ Untied (1 * leanLen (leanOf k)) ∧
    Untied (1 * leanLen (leanOf o)) ∧ (12 / 10 ^ 5) ^ 2 ≤ dist2 (onWall (cornerOf o) (leanOf k) (-tangentLen (leanOf k) (leanOf o) 1))
      (onWall (cornerOf o) (leanOf o) (tangentLen (leanOf k) (leanOf o) 1)) := by
  refine ⟨⟨0, 0, 2, 8, 4⟩, ⟨4, 0, 8, 8, 4⟩, ⟨exShell 0 (10 ^ 8) (4 * 10 ^ 8) (4 * 10 ^ 8) (by norm_num) (by norm_num) (by norm_num) (by norm_num) (by norm_num),
    exShell (4 * 10 ^ 8) (4 * 10 ^ 8) (4 * 10 ^ 8) (4 * 10 ^ 8) (by norm_num) (by norm_num) (by norm_num) (by norm_num) (by norm_num), rfl, by norm_num, rfl⟩, ?_⟩
  have e1 : leanOf ⟨0, 0, 2, 8, 4⟩ = 3 / 4 := by norm_num [leanOf]
  have e2 : leanOf ⟨4, 0, 8, 8, 4⟩ = 0 := by norm_num [leanOf]
  rw [e1, e2, leanLen_34, leanLen_0]
  refine ⟨le_rfl, by norm_num, Grid.untied ⟨125 * 10 ^ 6, by norm_num⟩, Grid.untied ⟨10 ^ 8, by norm_num⟩, ?_⟩
  norm_num [tangentLen, onWall, leanLen_34, leanLen_0, cornerOf, dist2]

/-- the same cone, a shell above it that narrows from radius 4 to 3 over a height of 2.4, `r = 1.2` -/
example : ∃ k o : MantelDim ℝ, OnCone k o ∧ leanOf o < 0 ∧ -leanOf o < leanOf k ∧ Untied (6 / 5 * leanLen (leanOf k)) ∧
    Untied (6 / 5 * leanLen (leanOf o)) ∧
    (12 / 10 ^ 5) ^ 2 ≤ dist2 (onCircle 0 0 (6 / 5) (360 - leanDeg (leanOf k))) (onCircle 0 0 (6 / 5) (360 - leanDeg (-leanOf o))) := by
  refine ⟨⟨0, 0, 2, 8, 4⟩, ⟨4, 0, 8, 6, 12 / 5⟩, ⟨exShell 0 (10 ^ 8) (4 * 10 ^ 8) (4 * 10 ^ 8) (by norm_num) (by norm_num) (by norm_num) (by norm_num) (by norm_num),
    exShell (4 * 10 ^ 8) (4 * 10 ^ 8) (3 * 10 ^ 8) (24 * 10 ^ 7) (by norm_num) (by norm_num) (by norm_num) (by norm_num) (by norm_num), rfl, by norm_num, rfl⟩, ?_⟩
  have e1 : leanOf ⟨0, 0, 2, 8, 4⟩ = 3 / 4 := by norm_num [leanOf]
  have e2 : leanOf ⟨4, 0, 8, 6, 12 / 5⟩ = -(5 / 12) := by norm_num [leanOf]
  have e3 : leanLen (-(5 / 12)) = 13 / 12 := by rw [← leanLen_abs, abs_neg, abs_of_pos (by norm_num), leanLen_512]
  rw [e1, e2, leanLen_34, e3, neg_neg, onCircle_lean, onCircle_lean, leanLen_34, leanLen_512]
  refine ⟨by norm_num, by norm_num, Grid.untied ⟨15 * 10 ^ 7, by norm_num⟩, Grid.untied ⟨13 * 10 ^ 7, by norm_num⟩, ?_⟩
  norm_num [dist2]

end examples

end Srep
