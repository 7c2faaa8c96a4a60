import Verif.Props.KrempeRound

/-! C130 (continued): the knuckle without cuts, when `h_oben` and `h_unten` are smaller than the arc -/

set_option linter.unusedSectionVars false

namespace Srep
open Rt

/-- a point beside the right wall is rejected -/
theorem off_wall {K : Type} [Field K] [LinearOrder K] [IsStrictOrderedRing K] [FloorRing K] {R : Rt K} (hE : R.IsExact) {m : MantelDim K}
    (hh : 0 < m.h) {p : Pt K} (h1 : m.posV + 1 / 10 ^ 5 ≤ p.y) (h2 : p.y ≤ m.posV + m.h - 1 / 10 ^ 5)
    (hd : 1 / 10 ^ 8 ≤ m.h * |p.x - (m.posH + radAt m p.y)|) : R.krempeOn (wallR m) p = false := by
  unfold Rt.krempeOn
  rw [Bool.and_eq_false_iff]
  left
  have hdet : |det3 (wallR m).i (wallR m).j p| = m.h * |p.x - (m.posH + radAt m p.y)| := by
    have hd : det3 (wallR m).i (wallR m).j p = -(m.h * (p.x - (m.posH + radAt m p.y))) := by
      show (m.posH + m.d1 / 2 - (m.posH + m.d0 / 2)) * (p.y - m.posV) - (m.posV + m.h - m.posV) * (p.x - (m.posH + m.d0 / 2)) = _
      have : m.h * radAt m p.y = m.h * (m.d0 / 2) + (p.y - m.posV) * (m.d1 / 2 - m.d0 / 2) := by
        unfold radAt
        field_simp
      linear_combination -this
    rw [hd, abs_neg, abs_mul, abs_of_pos hh]
  rw [Bool.eq_false_iff, ne_eq, hE.isOnLine_iff, hE.peq_iff, hE.peq_iff, hdet]
  rintro (⟨-, h⟩ | ⟨-, h⟩ | h)
  · change |p.y - m.posV| < _ at h
    have := le_abs_self (p.y - m.posV)
    linarith
  · change |p.y - (m.posV + m.h)| < _ at h
    have := neg_abs_le (p.y - (m.posV + m.h))
    linarith
  · linarith

variable (hs : ℝ → ℝ → Int)

/-- C130 (without cuts): `h_oben` and `h_unten` reach less far than the arc, so that its ends become the ends of the knuckle.
The constructor then raises an AssertionError as soon as one of the rounded end points is off its wall by 1e-8 or more,
multiplied with the height of the part. -/
theorem C130_uncut {h : Heap ℝ} {r hO hU : ℝ} {k o : ShellObj ℝ} (u : Under ℝ) (P : Parts h k o) (C : OnCone k.dim o.dim) (hr : 0 < r)
    (h0 : 0 ≤ leanOf o.dim) (hl : leanOf o.dim < leanOf k.dim)
    (uk : Untied (r * leanLen (leanOf k.dim))) (uo : Untied (r * leanLen (leanOf o.dim)))
    (hg : (12 / 10 ^ 5) ^ 2 ≤ dist2 (onWall (cornerOf o.dim) (leanOf k.dim) (-tangentLen (leanOf k.dim) (leanOf o.dim) r))
      (onWall (cornerOf o.dim) (leanOf o.dim) (tangentLen (leanOf k.dim) (leanOf o.dim) r)))
    {a b D : ℝ} (ea : a = tangentLen (leanOf k.dim) (leanOf o.dim) r / leanLen (leanOf k.dim))
    (eb : b = tangentLen (leanOf k.dim) (leanOf o.dim) r / leanLen (leanOf o.dim)) (eD : D = arcOff (leanOf k.dim) (leanOf o.dim))
    (a1 : 1 / 10 ^ 5 + D ≤ a) (a2 : hU + D ≤ a) (a3 : a + D + 1 / 10 ^ 5 ≤ k.dim.h)
    (b1 : 1 / 10 ^ 5 + D ≤ b) (b2 : hO + D ≤ b) (b3 : b + D + 1 / 10 ^ 5 ≤ o.dim.h) :
    ∃ v, IsFillet k.dim o.dim r v ∧
      v = arcPt (arcCentre k.dim o.dim r).x (arcCentre k.dim o.dim r).y r (360 - leanDeg (leanOf k.dim)) (360 - leanDeg (leanOf o.dim)) 3 ∧
      (1 / 10 ^ 8 ≤ k.dim.h * |(v 0).x - (k.dim.posH + radAt k.dim (v 0).y)| ∨
        1 / 10 ^ 8 ≤ o.dim.h * |(v 3).x - (o.dim.posH + radAt o.dim (v 3).y)| →
        (Rt.real hs).krempeInit h r hO hU k o u = .error .assertion) := by
  have hE := Rt.real_isExact hs
  obtain ⟨s0, s1, s2, s3, hk, a0, -⟩ := shell_segs P.kegel
  obtain ⟨t0, t1, t2, t3, ho, b0, -⟩ := shell_segs P.oben
  have ha : |leanOf o.dim| = leanOf o.dim := abs_of_nonneg h0
  obtain ⟨tl, el⟩ := fillet_lower (cornerOf o.dim) (r := r) hl
  obtain ⟨tu, eu⟩ := fillet_upper (cornerOf o.dim) (r := r) hl
  obtain ⟨v, sp, nr, ev, arc⟩ := krempeArc_joined hs C hr (by rw [ha]; exact hl) uk uo (by
    rw [ha, dist2_ends (filletCentre (cornerOf o.dim) (leanOf k.dim) (leanOf o.dim) r).x (filletCentre (cornerOf o.dim) (leanOf k.dim) (leanOf o.dim) r).y,
      onCircle_lean, onCircle_lean, ← el, ← eu]
    exact hg)
  obtain ⟨g, Q, e1, xa, ja, sa⟩ := arc h
  rw [ha] at nr ev
  have n0 : Near (arcOff (leanOf k.dim) (leanOf o.dim)) (v 0) (onWall (cornerOf o.dim) (leanOf k.dim) (-tangentLen (leanOf k.dim) (leanOf o.dim) r)) := by
    have := nr 0 (by norm_num)
    rw [Nat.cast_zero, zero_mul, add_zero, onCircle_lean, ← el] at this
    exact this
  have n3 : Near (arcOff (leanOf k.dim) (leanOf o.dim)) (v 3) (onWall (cornerOf o.dim) (leanOf o.dim) (tangentLen (leanOf k.dim) (leanOf o.dim) r)) := by
    have := nr 3 le_rfl
    have e : 360 - leanDeg (leanOf k.dim) + ((3 : ℕ) : ℝ) * ((leanDeg (leanOf k.dim) - leanDeg (leanOf o.dim)) / 3) = 360 - leanDeg (leanOf o.dim) := by
      push_cast; ring
    rw [e, onCircle_lean, ← eu] at this
    exact this
  refine ⟨v, ⟨n0, n3, _, tl, tu, nr⟩, ev, fun hoff => ?_⟩
  have y0 := n0.2
  have y3 := n3.2
  have f1 : (onWall (cornerOf o.dim) (leanOf k.dim) (-tangentLen (leanOf k.dim) (leanOf o.dim) r)).y = o.dim.posV - a := by
    rw [ea]
    unfold onWall cornerOf
    dsimp only
    rw [neg_div]
    ring
  have f2 : (onWall (cornerOf o.dim) (leanOf o.dim) (tangentLen (leanOf k.dim) (leanOf o.dim) r)).y = o.dim.posV + b := by rw [eb]; rfl
  rw [f1, ← eD, abs_le] at y0
  rw [f2, ← eD, abs_le] at y3
  obtain ⟨y1, y2⟩ := y0
  obtain ⟨y4, y5⟩ := y3
  have c0 : (Rt.real hs).krempeCut (h.vals k.line.segs) (h.val s0) o.dim.posV (v 0).y hU false = none := by
    unfold Rt.krempeCut
    rw [hE.sub', if_neg]
    have := le_abs_self (o.dim.posV - (v 0).y)
    rw [not_lt]
    linarith
  have c1 : (Rt.real hs).krempeCut (h.vals o.line.segs) (h.val t0) o.dim.posV (v 3).y hO true = none := by
    unfold Rt.krempeCut
    rw [hE.sub', if_neg]
    have := neg_abs_le (o.dim.posV - (v 3).y)
    rw [not_lt]
    linarith
  obtain ⟨c, P', L, q, r1, r2, r3, r4, r5, r6⟩ := krempeRight_spec (R := Rt.real hs) hk ho P.hasK P.hasO (by rw [a0, b0]; exact e1) xa
    (by norm_num : 0 < 3) ja sa c0 c1 (by simp) (by simp)
  have hL : L = 3 := by
    have := congrArg List.length r6
    simp at this
    omega
  subst hL
  have hq : ∀ i ≤ 3, q i = v i := by
    simp [List.range_succ] at r6
    obtain ⟨w0, w1, w2, w3⟩ := r6
    intro i hi
    rcases (by omega : i = 0 ∨ i = 1 ∨ i = 2 ∨ i = 3) with rfl | rfl | rfl | rfl
    exacts [w0, w1, w2, w3]
  obtain ⟨f, -⟩ := roundSegs_spec hE.isRounding h r hO hU k o u hk ho (P.hasK s0 (by rw [hk]; simp)) (P.hasO t0 (by rw [ho]; simp)) r1 r3
    (by norm_num) (r4.congr hq) r5 (by rw [hE.tol']; exact sp.apart) (by
      intro i hi e
      have := sp.apart i (i + 1) (by omega) (by omega) (by omega)
      rw [e, sub_self, sub_self, abs_zero] at this
      norm_num at this)
  have mt := C.meet
  have m1 : (Rt.real hs).krempeOn (h.val s0) (v 3) = false := by
    rw [a0]
    exact not_on hE C.gk.hpos (Or.inr (by linarith))
  have m2 : (Rt.real hs).krempeOn (h.val t0) (v 0) = false := by
    rw [b0]
    exact not_on hE C.go.hpos (Or.inl (by linarith))
  have := f (by
    rw [m1, m2, Bool.or_false, Bool.false_or, Bool.and_eq_false_iff]
    rcases hoff with hf | hf
    · left
      rw [a0]
      exact off_wall hE C.gk.hpos (by linarith) (by linarith) hf
    · right
      rw [b0]
      exact off_wall hE C.go.hpos (by linarith) (by linarith) hf)
  unfold Rt.krempeInit
  rw [if_pos hr, this]
  split_ifs <;> rfl

/-- the cone of height 8 with radii 2 and 8 -/
abbrev wideCone : MantelDim ℝ := ⟨0, 0, 4, 16, 8⟩
/-- the cylinder above it -/
abbrev wideCyl : MantelDim ℝ := ⟨8, 0, 16, 16, 8⟩

/-- C130 (witness): the comment in the code says that the ends of the arc are used if `h_oben` and `h_unten` are smaller.  A cone
of height 8 with diameters 4 and 16, a cylinder of height 8 above it, `r = 2`, `h_oben = h_unten = 0.5`: AssertionError, as the
lower end of the arc, (7.6, 7.46666667), is 2.5e-9 beside the wall. -/
theorem C130_uncut_raises (h : Heap ℝ) (k o : ShellObj ℝ) (u : Under ℝ) (P : Parts h k o) (ek : k.dim = wideCone) (eo : o.dim = wideCyl) :
    (Rt.real hs).krempeInit h 2 (1 / 2) (1 / 2) k o u = .error .assertion := by
  have e1 : leanOf wideCone = 3 / 4 := by norm_num [leanOf]
  have e2 : leanOf wideCyl = 0 := by norm_num [leanOf]
  have hd : arcOff (3 / 4) 0 ≤ 1 / 10 ^ 6 := by norm_num [arcOff]
  have hT : tangentLen (3 / 4) 0 2 = 2 / 3 := by norm_num [tangentLen, leanLen_34, leanLen_0]
  have C : OnCone k.dim o.dim := by
    rw [ek, eo]
    refine ⟨⟨grid_zero, grid_zero, ⟨8 * 10 ^ 8, by norm_num⟩, ⟨2 * 10 ^ 8, by norm_num⟩, ⟨8 * 10 ^ 8, by norm_num⟩, by norm_num⟩,
      ⟨grid_zero, ⟨8 * 10 ^ 8, by norm_num⟩, ⟨8 * 10 ^ 8, by norm_num⟩, ⟨8 * 10 ^ 8, by norm_num⟩, ⟨8 * 10 ^ 8, by norm_num⟩, by norm_num⟩,
      rfl, by norm_num, rfl⟩
  norm_num at hd
  obtain ⟨v, -, ev, f⟩ := C130_uncut (hO := 1 / 2) (hU := 1 / 2) hs u P C (r := 2) two_pos (by rw [eo, e2]) (by rw [ek, eo, e1, e2]; norm_num)
    (by rw [ek, e1, leanLen_34]; exact Grid.untied ⟨25 * 10 ^ 7, by norm_num⟩)
    (by rw [eo, e2, leanLen_0]; exact Grid.untied ⟨2 * 10 ^ 8, by norm_num⟩)
    (by rw [ek, eo, e1, e2, hT]; norm_num [onWall, leanLen_34, leanLen_0, cornerOf, dist2]) rfl rfl rfl
    (by rw [ek, eo, e1, e2, hT, leanLen_34]; norm_num; linarith) (by rw [ek, eo, e1, e2, hT, leanLen_34]; norm_num; linarith)
    (by rw [ek, eo, e1, e2, hT, leanLen_34]; norm_num; linarith) (by rw [ek, eo, e1, e2, hT, leanLen_0]; norm_num; linarith)
    (by rw [ek, eo, e1, e2, hT, leanLen_0]; norm_num; linarith) (by rw [ek, eo, e1, e2, hT, leanLen_0]; norm_num; linarith)
  refine f (Or.inl ?_)
  have r8 : ∀ z : ℤ, ∀ x : ℝ, x = (z : ℝ) / 10 ^ 8 → rhe8 x = x := fun z x e => by rw [e, rhe8_grid]
  have cen : arcCentre wideCone wideCyl 2 = ⟨6, 866666667 / 10 ^ 8⟩ := by
    unfold arcCentre
    rw [e1, e2, leanLen_34, leanLen_0, r8 (25 * 10 ^ 7) (2 * (5 / 4)) (by norm_num), r8 (2 * 10 ^ 8) (2 * 1) (by norm_num)]
    congr 1
    · rw [r8 (6 * 10 ^ 8) _ (by norm_num [cornerOf])]
      norm_num [cornerOf]
    · rw [rhe8_of_near (n := 866666667)]
      · norm_num
      · norm_num [cornerOf, abs_of_pos, abs_of_neg]
  have v0 : v 0 = ⟨76 / 10, 746666667 / 10 ^ 8⟩ := by
    rw [ev, ek, eo, cen, e1]
    have ca : Real.cos ((360 - leanDeg (3 / 4)) * (Real.pi / 180)) = 4 / 5 := by
      have e : (360 - leanDeg (3 / 4)) * (Real.pi / 180) = 2 * Real.pi - leanDeg (3 / 4) * (Real.pi / 180) := by ring
      rw [e, Real.cos_two_pi_sub, cos_lean, leanLen_34]
      norm_num
    have sa : Real.sin ((360 - leanDeg (3 / 4)) * (Real.pi / 180)) = -(3 / 5) := by
      have e : (360 - leanDeg (3 / 4)) * (Real.pi / 180) = 2 * Real.pi - leanDeg (3 / 4) * (Real.pi / 180) := by ring
      rw [e, Real.sin_two_pi_sub, sin_lean, leanLen_34]
      norm_num
    unfold arcPt placed onCircle
    rw [ca, sa]
    simp only [Nat.cast_zero, zero_mul, Real.cos_zero, Real.sin_zero, mul_one, mul_zero, add_zero, zero_add]
    unfold shift turn round8Pt
    dsimp only
    rw [r8 (2 * 10 ^ 8) 2 (by norm_num), r8 0 0 (by norm_num), r8 (16 * 10 ^ 7) _ (by norm_num), r8 (-(12 * 10 ^ 7)) _ (by norm_num)]
    norm_num
  rw [v0, ek]
  norm_num [radAt, abs_of_pos]

end Srep
