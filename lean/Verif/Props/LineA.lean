import Verif.Props.Point
import Verif.Lemmas.SegExact

/-! Properties C09-C17: products, parallelism, intersection, sides, boxes, touching. -/

set_option linter.unusedSectionVars false

namespace Srep
variable {K : Type} [Field K] [LinearOrder K] [IsStrictOrderedRing K] [FloorRing K]

/-- segment used in concrete examples -/
def exSeg (a b c d : ℚ) : Seg ℚ := ⟨⟨a, b⟩, ⟨c, d⟩, .line⟩

/-! ### C09 -/

theorem sub_swap {R : Rt K} (hR : R.IsRounding) (x y : K) : R.sub x y = -R.sub y x := hR.sub_neg x y

theorem mul_comm' (R : Rt K) (x y : K) : R.mul x y = R.mul y x := by unfold Rt.mul; rw [mul_comm]

theorem mul_neg' {R : Rt K} (hR : R.IsRounding) (x y : K) : R.mul x (-y) = -R.mul x y := by
  unfold Rt.mul; rw [mul_neg, hR.neg]

theorem neg_mul' {R : Rt K} (hR : R.IsRounding) (x y : K) : R.mul (-x) y = -R.mul x y := by
  unfold Rt.mul; rw [neg_mul, hR.neg]

theorem dx_reversed {R : Rt K} (hR : R.IsRounding) (s : Seg K) : R.dx s.reversed = -R.dx s :=
  hR.sub_neg _ _
theorem dy_reversed {R : Rt K} (hR : R.IsRounding) (s : Seg K) : R.dy s.reversed = -R.dy s :=
  hR.sub_neg _ _

/-- C09: the cross product is antisymmetric, bit for bit, in every correctly rounded arithmetic. -/
theorem C09_cross_antisymm {R : Rt K} (hR : R.IsRounding) (s o : Seg K) :
    R.cross s o = -R.cross o s := by
  unfold Rt.cross
  rw [mul_comm' R (R.dx s), mul_comm' R (R.dy s)]
  exact hR.sub_neg _ _

/-- C09: the cross product of a segment with itself is exactly zero. -/
theorem C09_cross_self {R : Rt K} (hR : R.IsRounding) (s : Seg K) : R.cross s s = 0 := by
  unfold Rt.cross
  rw [mul_comm' R (R.dx s)]
  simp [Rt.sub, hR.zero]

/-- C09: the dot product is symmetric. -/
theorem C09_dot_symm (R : Rt K) (s o : Seg K) : R.dot s o = R.dot o s := by
  unfold Rt.dot
  rw [mul_comm' R (R.dx s), mul_comm' R (R.dy s)]

/-- C09: the dot product of a segment with itself is never negative. -/
theorem C09_dot_self_nonneg {R : Rt K} (hR : R.IsRounding) (s : Seg K) : 0 ≤ R.dot s s := by
  unfold Rt.dot Rt.add Rt.mul
  apply hR.nonneg
  have a := hR.nonneg (mul_self_nonneg (R.dx s))
  have b := hR.nonneg (mul_self_nonneg (R.dy s))
  linarith

/-- C09: reversing one operand flips the sign of both products exactly. -/
theorem C09_reverse {R : Rt K} (hR : R.IsRounding) (s o : Seg K) :
    R.cross s.reversed o = -R.cross s o ∧ R.cross s o.reversed = -R.cross s o ∧
    R.dot s.reversed o = -R.dot s o ∧ R.dot s o.reversed = -R.dot s o := by
  unfold Rt.cross Rt.dot
  simp only [dx_reversed hR, dy_reversed hR, mul_neg' hR, neg_mul' hR]
  have e : ∀ a b : K, R.sub (-a) (-b) = -R.sub a b := by
    intro a b; unfold Rt.sub; rw [← hR.neg]; congr 1; ring
  have f : ∀ a b : K, R.add (-a) (-b) = -R.add a b := by
    intro a b; unfold Rt.add; rw [← hR.neg]; congr 1; ring
  simp only [e, f, and_self]

/-- C09, exact arithmetic: determinant and inner product of the direction vectors, and Lagrange's
identity with the lengths. -/
theorem C09_exact {R : Rt K} (hE : R.IsExact) (s o : Seg K) :
    R.cross s o = (s.j.x - s.i.x) * (o.j.y - o.i.y) - (s.j.y - s.i.y) * (o.j.x - o.i.x) ∧
    R.dot s o = (s.j.x - s.i.x) * (o.j.x - o.i.x) + (s.j.y - s.i.y) * (o.j.y - o.i.y) ∧
    R.cross s o ^ 2 + R.dot s o ^ 2 = R.norm s ^ 2 * R.norm o ^ 2 := by
  refine ⟨hE.cross' s o, hE.dot' s o, ?_⟩
  rw [hE.cross', hE.dot', pow_two (R.norm s), pow_two (R.norm o), hE.norm_sq, hE.norm_sq]
  ring

example : exRt.cross (exSeg 0 0 3 1) (exSeg 1 1 2 5) = 11 := by decide +kernel

/-! ### C10 -/

/-- C10: reflexive, symmetric, insensitive to direction, `is_intersecting` its negation; every
correctly rounded arithmetic. -/
theorem C10_laws {R : Rt K} (hR : R.IsRounding) (s o : Seg K) :
    R.isParallel s s = true ∧ R.isParallel s o = R.isParallel o s ∧
    R.isParallel s.reversed o = R.isParallel s o ∧
    R.isParallel s o.reversed = R.isParallel s o ∧
    R.isIntersecting s o = !R.isParallel s o := by
  unfold Rt.isIntersecting Rt.isParallel
  have h := C09_reverse hR s o
  rw [C09_cross_self hR, C09_cross_antisymm hR o s, h.1, h.2.1]
  simp

/-- C10: a segment whose endpoints coincide is parallel to everything. -/
theorem C10_null {R : Rt K} (hR : R.IsRounding) (s o : Seg K) (h : s.i = s.j) :
    R.isParallel s o = true := by
  unfold Rt.isParallel Rt.cross Rt.dx Rt.dy
  rw [h]
  simp [Rt.sub, Rt.mul, hR.zero]

/-- C10, exact arithmetic: parallel iff one direction vector is a multiple of the other. -/
theorem C10_iff_multiple {R : Rt K} (hE : R.IsExact) (s o : Seg K) :
    R.isParallel s o = true ↔
      (∃ t, o.j.x - o.i.x = t * (s.j.x - s.i.x) ∧ o.j.y - o.i.y = t * (s.j.y - s.i.y)) ∨
      (∃ t, s.j.x - s.i.x = t * (o.j.x - o.i.x) ∧ s.j.y - s.i.y = t * (o.j.y - o.i.y)) := by
  rw [hE.isParallel_iff]
  constructor
  · intro h
    by_cases hx : s.j.x - s.i.x = 0
    · by_cases hy : s.j.y - s.i.y = 0
      · right; exact ⟨0, by simp [hx], by simp [hy]⟩
      · left
        refine ⟨(o.j.y - o.i.y) / (s.j.y - s.i.y), ?_, by field_simp⟩
        rw [hx] at h ⊢
        have : (s.j.y - s.i.y) * (o.j.x - o.i.x) = 0 := by linarith
        rw [(mul_eq_zero.1 this).resolve_left hy, mul_zero]
    · left
      refine ⟨(o.j.x - o.i.x) / (s.j.x - s.i.x), by field_simp, ?_⟩
      field_simp; linarith
  · rintro (⟨t, h1, h2⟩ | ⟨t, h1, h2⟩)
    · rw [h1, h2]; ring
    · rw [h1, h2]; ring

/-- C10, exact arithmetic: transitive through a segment of non-zero length. -/
theorem C10_trans {R : Rt K} (hE : R.IsExact) (a b c : Seg K) (hb : b.i ≠ b.j)
    (h1 : R.isParallel a b = true) (h2 : R.isParallel b c = true) : R.isParallel a c = true := by
  rw [hE.isParallel_iff] at *
  by_cases hx : b.j.x - b.i.x = 0
  · have hy : b.j.y - b.i.y ≠ 0 := fun hy => hb (Pt.ext' (by linarith) (by linarith))
    rw [hx] at h1 h2
    have e1 : a.j.x - a.i.x = 0 := by
      have : (a.j.x - a.i.x) * (b.j.y - b.i.y) = 0 := by linarith
      exact (mul_eq_zero.1 this).resolve_right hy
    have e2 : c.j.x - c.i.x = 0 := by
      have : (b.j.y - b.i.y) * (c.j.x - c.i.x) = 0 := by linarith
      exact (mul_eq_zero.1 this).resolve_left hy
    rw [e1, e2]; ring
  · have e1 : a.j.y - a.i.y = (a.j.x - a.i.x) * (b.j.y - b.i.y) / (b.j.x - b.i.x) := by
      field_simp; linarith
    have e2 : c.j.y - c.i.y = (b.j.y - b.i.y) * (c.j.x - c.i.x) / (b.j.x - b.i.x) := by
      field_simp; linarith
    rw [e1, e2]; field_simp; ring

/-- the hypothesis on `b` is needed: parallelism is not transitive through a zero-length segment -/
example : exRt.isParallel (exSeg 0 0 1 0) (exSeg 0 0 0 0) = true ∧
    exRt.isParallel (exSeg 0 0 0 0) (exSeg 0 0 0 1) = true ∧
    exRt.isParallel (exSeg 0 0 1 0) (exSeg 0 0 0 1) = false := by decide +kernel

/-! ### C11 -/

/-- The denominator of `intersection_point` is the cross product that was tested, bit for bit. -/
theorem ipDen_eq_cross {R : Rt K} (hR : R.IsRounding) (s o : Seg K) : R.ipDen s o = R.cross s o := by
  unfold Rt.ipDen Rt.cross Rt.dx Rt.dy
  rw [hR.sub_neg s.i.x, hR.sub_neg o.i.y, hR.sub_neg s.i.y, hR.sub_neg o.i.x]
  simp only [mul_neg' hR, neg_mul' hR, neg_neg]

/-- C11: never a ZeroDivisionError; None exactly for parallel segments; otherwise a stored Point.
Every correctly rounded arithmetic. -/
theorem C11_no_zero_division {R : Rt K} (hR : R.IsRounding) (s o : Seg K) :
    (R.isParallel s o = true ∧ R.intersectionPointE s o = .ok none) ∨
    (R.isParallel s o = false ∧ ∃ p, R.intersectionPointE s o = .ok (some p) ∧ R.Stored p) := by
  by_cases h : R.cross s o = 0
  · left
    have : R.isParallel s o = true := by simp [Rt.isParallel, h]
    exact ⟨this, by simp [Rt.intersectionPointE, this]⟩
  · right
    have hp : R.isParallel s o = false := by simp [Rt.isParallel, h]
    refine ⟨hp, ?_⟩
    have hd : R.ipDen s o ≠ 0 := by rw [ipDen_eq_cross hR]; exact h
    refine ⟨_, by simp only [Rt.intersectionPointE, hp, hd, if_false]; rfl, hR.coord_idem _, hR.coord_idem _⟩

/-- C11: the total version used by the callers is the function with exceptions. -/
theorem C11_total {R : Rt K} (hR : R.IsRounding) (s o : Seg K) :
    R.intersectionPointE s o = .ok (R.intersectionPoint s o) := by
  unfold Rt.intersectionPointE Rt.intersectionPoint
  by_cases h : R.cross s o = 0
  · simp [Rt.isParallel, h]
  · have hp : R.isParallel s o = false := by simp [Rt.isParallel, h]
    have hd : R.ipDen s o ≠ 0 := by rw [ipDen_eq_cross hR]; exact h
    simp [hp, hd]

/-- C11: exchanging the two segments gives the identical result, bit for bit. -/
theorem C11_symm {R : Rt K} (hR : R.IsRounding) (s o : Seg K) :
    R.intersectionPointE s o = R.intersectionPointE o s := by
  rw [C11_total hR, C11_total hR]
  unfold Rt.intersectionPoint
  rw [(C10_laws hR s o).2.1]
  have hd : R.ipDen s o = -R.ipDen o s := by
    rw [ipDen_eq_cross hR, ipDen_eq_cross hR, C09_cross_antisymm hR]
  have hx : R.ipNumX s o = -R.ipNumX o s := by
    unfold Rt.ipNumX
    rw [mul_comm' R (R.sub (R.mul s.i.x s.j.y) (R.mul s.i.y s.j.x)),
      mul_comm' R (R.sub s.i.x s.j.x)]
    exact hR.sub_neg _ _
  have hy : R.ipNumY s o = -R.ipNumY o s := by
    unfold Rt.ipNumY
    rw [mul_comm' R (R.sub (R.mul s.i.x s.j.y) (R.mul s.i.y s.j.x)),
      mul_comm' R (R.sub s.i.y s.j.y)]
    exact hR.sub_neg _ _
  simp only [hd, hx, hy, Rt.div, neg_div_neg_eq]

example : exRt.intersectionPointE (exSeg 0 0 3 1) (exSeg 0 1 1 0) = .ok (some (exRt.mkPt (3/4) (1/4))) := by
  decide +kernel

/-! ### C12 -/

/-- C12, exact arithmetic: for non-parallel segments the two infinite lines have exactly one common
point, and the returned Point is that point rounded to 8 decimals. -/
theorem C12_correct {R : Rt K} (hE : R.IsExact) (s o : Seg K) (h : R.isParallel s o = false) :
    ∃ q : Pt K, (∀ r, OnLine s.i s.j r ∧ OnLine o.i o.j r ↔ r = q) ∧
      R.intersectionPointE s o = .ok (some ⟨rhe8 q.x, rhe8 q.y⟩) ∧
      |rhe8 q.x - q.x| ≤ 1 / 2 * (1 / 10 ^ 8) ∧ |rhe8 q.y - q.y| ≤ 1 / 2 * (1 / 10 ^ 8) := by
  have hd : (s.j.x - s.i.x) * (o.j.y - o.i.y) - (s.j.y - s.i.y) * (o.j.x - o.i.x) ≠ 0 := by
    intro h0
    rw [(hE.isParallel_iff s o).2 h0] at h; exact absurd h (by simp)
  have hs : s.i ≠ s.j := by rintro e; rw [e] at hd; simp at hd
  have ho : o.i ≠ o.j := by rintro e; rw [e] at hd; simp at hd
  set D := (s.j.x - s.i.x) * (o.j.y - o.i.y) - (s.j.y - s.i.y) * (o.j.x - o.i.x) with hD
  have hden : R.ipDen s o = D := hE.ipDen' s o
  refine ⟨⟨R.ipNumX s o / D, R.ipNumY s o / D⟩, ?_, ?_, ?_, ?_⟩
  · intro r
    rw [← det3_eq_zero_iff hs, ← det3_eq_zero_iff ho]
    have hX : R.ipNumX s o = (s.i.x * s.j.y - s.i.y * s.j.x) * (o.i.x - o.j.x)
        - (s.i.x - s.j.x) * (o.i.x * o.j.y - o.i.y * o.j.x) := by
      unfold Rt.ipNumX; simp only [hE.sub', hE.mul']
    have hY : R.ipNumY s o = (s.i.x * s.j.y - s.i.y * s.j.x) * (o.i.y - o.j.y)
        - (s.i.y - s.j.y) * (o.i.x * o.j.y - o.i.y * o.j.x) := by
      unfold Rt.ipNumY; simp only [hE.sub', hE.mul']
    rw [hX, hY]
    unfold det3
    constructor
    · rintro ⟨h1, h2⟩
      apply Pt.ext'
      · simp only
        rw [eq_div_iff hd, hD]
        linear_combination (o.j.x - o.i.x) * h1 - (s.j.x - s.i.x) * h2
      · simp only
        rw [eq_div_iff hd, hD]
        linear_combination (o.j.y - o.i.y) * h1 - (s.j.y - s.i.y) * h2
    · rintro rfl
      constructor
      · simp only; field_simp; rw [hD]; ring
      · simp only; field_simp; rw [hD]; ring
  · unfold Rt.intersectionPointE
    rw [h, hden]
    simp only [Bool.false_eq_true, if_false, hd, hE.div', hE.mkPt']
  all_goals
    refine (abs_rhe8_sub_le _).trans (le_of_eq (by norm_num))

/-- C12: a common point with 8 decimals is returned exactly. -/
theorem C12_grid {R : Rt K} (hE : R.IsExact) (s o : Seg K) (h : R.isParallel s o = false) (q : Pt K)
    (h1 : OnLine s.i s.j q) (h2 : OnLine o.i o.j q) (hq : R.Stored q) :
    R.intersectionPointE s o = .ok (some q) := by
  obtain ⟨r, hr, he, -, -⟩ := C12_correct hE s o h
  have := (hr q).1 ⟨h1, h2⟩
  subst this
  obtain ⟨gx, gy⟩ := (hE.stored_iff q).1 hq
  rw [he, gx.rhe8, gy.rhe8]

example : exReal.isParallel ⟨⟨0, 0⟩, ⟨3, 1⟩, .line⟩ ⟨⟨0, 1⟩, ⟨1, 0⟩, .line⟩ = false := by
  rw [Bool.eq_false_iff, ne_eq, exReal_isExact.isParallel_iff]; norm_num

/-! ### C13 -/

/-- C13: no point is on both sides, and "left" means neither right nor on the line (any arithmetic). -/
theorem C13_exclusive (R : Rt K) (s : Seg K) (p : Pt K) :
    ¬ (R.isLeft s p = true ∧ R.isRight s p = true) ∧
    (R.isLeft s p = true ↔ R.isRight s p = false ∧ R.isOnLine s p = false) := by
  unfold Rt.isLeft
  cases R.isOnLine s p <;> cases R.isRight s p <;> simp

/-- C13, exact arithmetic: the sides are the sign of the determinant; "left" additionally requires to be
off the tolerance strip and not equal to an endpoint. -/
theorem C13_sides_exact {R : Rt K} (hE : R.IsExact) (s : Seg K) (p : Pt K) :
    (R.isRight s p = true ↔ det3 s.i s.j p < 0) ∧
    (R.isLeft s p = true ↔
      1 / 10 ^ 8 ≤ det3 s.i s.j p ∧ R.peq p s.i = false ∧ R.peq p s.j = false) := by
  refine ⟨hE.isRight_iff s p, ?_⟩
  rw [(C13_exclusive R s p).2, ← Bool.not_eq_true, ← Bool.not_eq_true, hE.isRight_iff, hE.isOnLine_iff]
  have h0 : (0 : K) < 1 / 10 ^ 8 := by positivity
  constructor
  · rintro ⟨h1, h2⟩
    push Not at h2 h1
    obtain ⟨h3, h4, h5⟩ := h2
    rw [abs_of_nonneg h1] at h5
    exact ⟨h5, by simpa using h3, by simpa using h4⟩
  · rintro ⟨h1, h3, h4⟩
    refine ⟨by linarith, ?_⟩
    rw [h3, h4, abs_of_pos (by linarith)]
    simp only [Bool.false_eq_true, false_or, not_lt]; exact h1

/-- C13, exact arithmetic: reversing the segment exchanges the sides (off the tolerance strip) and keeps
`is_point_on_line`. -/
theorem C13_reverse {R : Rt K} (hE : R.IsExact) (s : Seg K) (p : Pt K) :
    R.isOnLine s.reversed p = R.isOnLine s p ∧
    (R.isLeft s p = true → R.isRight s.reversed p = true) ∧
    (R.isOnLine s p = false → R.isLeft s.reversed p = R.isRight s p) := by
  have hd : det3 s.reversed.i s.reversed.j p = -det3 s.i s.j p := by
    unfold det3 Seg.reversed; ring
  have h0 : (0 : K) < 1 / 10 ^ 8 := by positivity
  have h1 : R.isOnLine s.reversed p = R.isOnLine s p := by
    rw [Bool.eq_iff_iff, hE.isOnLine_iff, hE.isOnLine_iff, hd, abs_neg]
    show R.peq p s.j = true ∨ R.peq p s.i = true ∨ _ ↔ _
    tauto
  refine ⟨h1, ?_, ?_⟩
  · intro h
    rw [(C13_sides_exact hE _ _).1, hd]
    have := ((C13_sides_exact hE _ _).2.1 h).1
    linarith
  · intro h
    have hr := (C13_exclusive R s.reversed p).2
    rw [h1, h] at hr
    have hn : ¬ |det3 s.i s.j p| < 1 / 10 ^ 8 := fun hc => by
      rw [(hE.isOnLine_iff s p).2 (Or.inr (Or.inr hc))] at h; simp at h
    rw [Bool.eq_iff_iff, hr, ← Bool.not_eq_true, hE.isRight_iff, hE.isRight_iff, hd]
    constructor
    · rintro ⟨h2, -⟩
      rcases lt_trichotomy (det3 s.i s.j p) 0 with h3 | h3 | h3
      · exact h3
      · rw [h3] at hn; simp at hn
      · linarith
    · intro h2; exact ⟨by linarith, rfl⟩

/-- C13: "to the right" and "on the line" are not exclusive, in binary64: a point 1e-8 below the segment
is both, its mirror image above is only "on the line". -/
theorem C13_not_exclusive :
    ∃ (s : Seg ℚ) (p q : Pt ℚ), exRt.Stored s.i ∧ exRt.Stored s.j ∧ exRt.Stored p ∧ exRt.Stored q ∧
      q = ⟨p.x, -p.y⟩ ∧ s.i.y = 0 ∧ s.j.y = 0 ∧
      exRt.isRight s p = true ∧ exRt.isOnLine s p = true ∧
      exRt.isOnLine s q = true ∧ exRt.isLeft s q = false :=
  ⟨exSeg 0 0 (1/2) 0, exRt.mkPt (1/4) (-1/10^8), exRt.mkPt (1/4) (1/10^8), by decide +kernel⟩

/-! ### C14 -/

/-- C14, exact arithmetic on stored Points: exact extent of the acceptance box. -/
theorem C14_box {R : Rt K} (hE : R.IsExact) (s : Seg K) (p : Pt K) (hi : R.Stored s.i)
    (hj : R.Stored s.j) (hp : R.Stored p) :
    R.isInternal s p = true ↔
      min s.i.x s.j.x ≤ p.x ∧ p.x ≤ max s.i.x s.j.x + 1 / 10 ^ 8 ∧
      min s.i.y s.j.y - 1 / 10 ^ 8 ≤ p.y ∧ p.y ≤ max s.i.y s.j.y + 1 / 10 ^ 8 := by
  rw [hE.isInternal_iff]
  have hm : Grid (min s.i.x s.j.x) := by
    rcases min_choice s.i.x s.j.x with h | h <;> rw [h]
    · exact ((hE.stored_iff _).1 hi).1
    · exact ((hE.stored_iff _).1 hj).1
  have hx := ((hE.stored_iff _).1 hp).1
  have h0 : (0 : K) < 1 / 10 ^ 8 := by positivity
  constructor
  · rintro ⟨h1, h2⟩
    exact ⟨hm.le_of_lt_add hx (by linarith), h2⟩
  · rintro ⟨h1, h2⟩
    exact ⟨by linarith, h2⟩

/-- C14, exact arithmetic: the closed bounding box is accepted; both endpoints; every point of the closed
segment; the direction of the segment is irrelevant. -/
theorem C14_accepts {R : Rt K} (hE : R.IsExact) (s : Seg K) :
    (∀ p : Pt K, min s.i.x s.j.x ≤ p.x → p.x ≤ max s.i.x s.j.x → min s.i.y s.j.y ≤ p.y →
      p.y ≤ max s.i.y s.j.y → R.isInternal s p = true) ∧
    R.isInternal s s.i = true ∧ R.isInternal s s.j = true ∧
    (∀ p, OnSeg s p → R.isInternal s p = true) := by
  have h0 : (0 : K) < 1 / 10 ^ 8 := by positivity
  have key : ∀ p : Pt K, min s.i.x s.j.x ≤ p.x → p.x ≤ max s.i.x s.j.x → min s.i.y s.j.y ≤ p.y →
      p.y ≤ max s.i.y s.j.y → R.isInternal s p = true := by
    intro p h1 h2 h3 h4
    rw [hE.isInternal_iff]
    exact ⟨by linarith, by linarith, by linarith, by linarith⟩
  refine ⟨key, key _ (min_le_left _ _) (le_max_left _ _) (min_le_left _ _) (le_max_left _ _),
    key _ (min_le_right _ _) (le_max_right _ _) (min_le_right _ _) (le_max_right _ _), ?_⟩
  have lo : ∀ a b t : K, 0 ≤ t → t ≤ 1 → min a b ≤ a + t * (b - a) := by
    intro a b t h1 h2
    rcases le_total a b with h | h
    · rw [min_eq_left h]; nlinarith
    · rw [min_eq_right h]; nlinarith
  have hi : ∀ a b t : K, 0 ≤ t → t ≤ 1 → a + t * (b - a) ≤ max a b := by
    intro a b t h1 h2
    rcases le_total a b with h | h
    · rw [max_eq_right h]; nlinarith
    · rw [max_eq_left h]; nlinarith
  rintro p ⟨t, h1, h2, rfl⟩
  exact key _ (lo _ _ _ h1 h2) (hi _ _ _ h1 h2) (lo _ _ _ h1 h2) (hi _ _ _ h1 h2)

/-- C14: direction of the segment is irrelevant (any arithmetic). -/
theorem C14_reverse (R : Rt K) (s : Seg K) (p : Pt K) :
    R.isInternal s.reversed p = R.isInternal s p := by
  unfold Rt.isInternal Seg.reversed
  simp only [min_comm, max_comm]

/-- C14, correctly rounded arithmetic: the closed box is accepted whenever subtracting the tolerance
from the left edge is not lost to rounding. -/
theorem C14_accepts_float {R : Rt K} (hR : R.IsRounding) (s : Seg K) (p : Pt K)
    (hi : R.Stored s.i) (hj : R.Stored s.j)
    (hx : R.sub (min s.i.x s.j.x) R.eps < min s.i.x s.j.x)
    (h1 : min s.i.x s.j.x ≤ p.x) (h2 : p.x ≤ max s.i.x s.j.x) (h3 : min s.i.y s.j.y ≤ p.y)
    (h4 : p.y ≤ max s.i.y s.j.y) : R.isInternal s p = true := by
  have he := hR.eps_pos
  have st : ∀ q : Pt K, R.Stored q → R.fl q.x = q.x ∧ R.fl q.y = q.y := by
    intro q hq
    exact ⟨by rw [← hq.1]; exact hR.coord_fl _, by rw [← hq.2]; exact hR.coord_fl _⟩
  have mx : R.fl (max s.i.x s.j.x) = max s.i.x s.j.x := by
    rcases max_choice s.i.x s.j.x with h | h <;> rw [h]
    · exact (st _ hi).1
    · exact (st _ hj).1
  have my : R.fl (max s.i.y s.j.y) = max s.i.y s.j.y := by
    rcases max_choice s.i.y s.j.y with h | h <;> rw [h]
    · exact (st _ hi).2
    · exact (st _ hj).2
  have ny : R.fl (min s.i.y s.j.y) = min s.i.y s.j.y := by
    rcases min_choice s.i.y s.j.y with h | h <;> rw [h]
    · exact (st _ hi).2
    · exact (st _ hj).2
  have up : ∀ a : K, R.fl a = a → a ≤ R.add a R.eps := fun a ha => by
    conv_lhs => rw [← ha]
    exact hR.mono (by linarith)
  have dn : R.sub (min s.i.y s.j.y) R.eps ≤ min s.i.y s.j.y := by
    conv_rhs => rw [← ny]
    exact hR.mono (by linarith)
  simp only [Rt.isInternal, Bool.and_eq_true, decide_eq_true_eq]
  exact ⟨⟨⟨lt_of_lt_of_le hx h1, h2.trans (up _ mx)⟩, dn.trans h3⟩, h4.trans (up _ my)⟩

/-- C14: the acceptance is asymmetric in binary64: one 8-decimal step left of the box is rejected, one
step to the right, above or below is accepted. -/
theorem C14_asymmetric :
    ∃ s : Seg ℚ, exRt.Stored s.i ∧ exRt.Stored s.j ∧
      exRt.isInternal s (exRt.mkPt (-1/10^8) 0) = false ∧
      exRt.isInternal s (exRt.mkPt (1 + 1/10^8) 0) = true ∧
      exRt.isInternal s (exRt.mkPt 0 (-1/10^8)) = true ∧
      exRt.isInternal s (exRt.mkPt 0 (1 + 1/10^8)) = true :=
  ⟨exSeg 0 0 1 1, by decide +kernel⟩

/-- C14: in binary64 the tolerance is lost for coordinates beyond 2^28: there a segment rejects its own
left endpoint. -/
theorem C14_large_coordinates_reject_endpoint :
    ∃ s : Seg ℚ, exRt.Stored s.i ∧ exRt.Stored s.j ∧ exRt.isInternal s s.i = false :=
  ⟨exSeg 268435456 0 268435466 5, by decide +kernel⟩

/-! ### C15 -/

/-- C15: endpoints and every Point equal to an endpoint are on the line (any correctly rounded
arithmetic). -/
theorem C15_endpoints {R : Rt K} (hR : R.IsRounding) (s : Seg K) :
    R.isOnLine s s.i = true ∧ R.isOnLine s s.j = true ∧
    ∀ p, (R.peq p s.i = true ∨ R.peq p s.j = true) → R.isOnLine s p = true := by
  unfold Rt.isOnLine
  refine ⟨by simp [hR.peq_refl], by simp [hR.peq_refl], ?_⟩
  rintro p (h | h) <;> simp [h]

/-- C15, exact arithmetic: every point of the infinite line is accepted. -/
theorem C15_complete {R : Rt K} (hE : R.IsExact) (s : Seg K) (p : Pt K) (h : OnLine s.i s.j p) :
    R.isOnLine s p = true := by
  obtain ⟨t, rfl⟩ := h
  rw [hE.isOnLine_iff]
  right; right
  have : det3 s.i s.j (lerp s.i s.j t) = 0 := by unfold det3 lerp; ring
  rw [this, abs_zero]; positivity

/-- C15, exact arithmetic: an accepted point is equal to an endpoint, or its distance `d` to the line
satisfies d * length < 1e-8, where d is the distance to a point of the line and no point of the line is
closer. -/
theorem C15_sound {R : Rt K} (hE : R.IsExact) (s : Seg K) (p : Pt K) (hs : s.i ≠ s.j)
    (h : R.isOnLine s p = true) :
    R.peq p s.i = true ∨ R.peq p s.j = true ∨
      ∃ q, OnLine s.i s.j q ∧ (∀ r, OnLine s.i s.j r → R.distance p q ≤ R.distance p r) ∧
        R.distance p q * R.norm s < 1 / 10 ^ 8 := by
  rw [hE.isOnLine_iff] at h
  rcases h with h | h | h
  · exact Or.inl h
  · exact Or.inr (Or.inl h)
  · obtain ⟨q, h1, h2, h3⟩ := hE.foot hs p
    exact Or.inr (Or.inr ⟨q, h1, h2, h3 ▸ h⟩)

example : exReal.isOnLine ⟨⟨0, 0⟩, ⟨3, 1⟩, .line⟩ ⟨6, 2⟩ = true :=
  C15_complete exReal_isExact _ _ ⟨2, by simp [lerp]; norm_num⟩

/-! ### C16 -/

/-- C16: symmetric and insensitive to direction, in every correctly rounded arithmetic, provided no two
different endpoints compare equal and share a hash value. -/
theorem C16_symm {R : Rt K} (hR : R.IsRounding) (s o : Seg K) (h : R.HashOK [s.i, s.j, o.i, o.j]) :
    R.touch s o = R.touch o s ∧ R.touch s.reversed o = R.touch s o ∧
    R.touch s o.reversed = R.touch s o := by
  have h1 : R.HashOK (Rt.ends s o) := h
  have h2 : R.HashOK (Rt.ends o s) := h.mono (by simp [Rt.ends])
  have h3 : R.HashOK (Rt.ends s.reversed o) := h.mono (by simp [Rt.ends, Seg.reversed])
  have h4 : R.HashOK (Rt.ends s o.reversed) := h.mono (by simp [Rt.ends, Seg.reversed])
  refine ⟨?_, ?_, ?_⟩
  · rw [Bool.eq_iff_iff, Rt.touch_iff_distance hR h1, Rt.touch_iff_distance hR h2]
    constructor <;> rintro ⟨a, ha, b, hb, hd⟩ <;> exact ⟨b, hb, a, ha, by rw [hR.distance_comm]; exact hd⟩
  · rw [Bool.eq_iff_iff, Rt.touch_iff_distance hR h1, Rt.touch_iff_distance hR h3]
    simp only [Seg.reversed, List.mem_cons, List.not_mem_nil, or_false]
    constructor <;> rintro ⟨a, ha, b, hb, hd⟩ <;> exact ⟨a, by tauto, b, hb, hd⟩
  · rw [Bool.eq_iff_iff, Rt.touch_iff_distance hR h1, Rt.touch_iff_distance hR h4]
    simp only [Seg.reversed, List.mem_cons, List.not_mem_nil, or_false]
    constructor <;> rintro ⟨a, ha, b, hb, hd⟩ <;> exact ⟨a, ha, b, by tauto, hd⟩

/-- C16, exact arithmetic, stored Points: touching means having an endpoint in common. -/
theorem C16_common {R : Rt K} (hE : R.IsExact) (s o : Seg K) (h : R.HashOK [s.i, s.j, o.i, o.j])
    (h1 : R.Stored s.i) (h2 : R.Stored s.j) (h3 : R.Stored o.i) (h4 : R.Stored o.j) :
    R.touch s o = true ↔ s.i = o.i ∨ s.i = o.j ∨ s.j = o.i ∨ s.j = o.j := by
  rw [Rt.touch_iff_common hE ⟨h1, h2⟩ ⟨h3, h4⟩ h]
  simp only [List.mem_cons, List.not_mem_nil, or_false]
  constructor
  · rintro ⟨a, rfl | rfl, h | h⟩ <;> tauto
  · rintro (h | h | h | h)
    · exact ⟨s.i, Or.inl rfl, Or.inl h⟩
    · exact ⟨s.i, Or.inl rfl, Or.inr h⟩
    · exact ⟨s.j, Or.inr rfl, Or.inl h⟩
    · exact ⟨s.j, Or.inr rfl, Or.inr h⟩

/-- C16: contrary to its documentation `touch` also holds when both endpoints coincide, in particular
between a segment and itself or its reverse. -/
theorem C16_self {R : Rt K} (hR : R.IsRounding) (s : Seg K) :
    R.touch s s = true ∧ R.touch s s.reversed = true := by
  constructor
  · simp [Rt.touch, hR.distance_self, hR.eps_pos]
  · simp [Rt.touch, Seg.reversed, hR.distance_self, hR.eps_pos]

/-- separated Points satisfy the hash hypothesis -/
theorem sep_of_apart {R : Rt K} (hR : R.IsRounding) {l : List (Pt K)}
    (h : Apart R.tol {p | p ∈ l}) : R.Sep l :=
  fun _ hp _ hq he => (C04_apart hR h hp hq).1.1 he

example : exRt.HashOK [⟨0, 0⟩, ⟨1, 0⟩, ⟨1, 0⟩, ⟨2, 5⟩] := by unfold Rt.HashOK; decide +kernel

/-! ### C17 -/

/-- C17: symmetric (under the hash hypothesis) and implies `touch`. -/
theorem C17_symm_touch {R : Rt K} (hR : R.IsRounding) (s o : Seg K)
    (h : R.HashOK [s.i, s.j, o.i, o.j]) :
    R.continuous s o = R.continuous o s ∧ (R.continuous s o = true → R.touch s o = true) := by
  unfold Rt.continuous
  rw [(C16_symm hR s o h).1, hR.peq_comm s.j, hR.peq_comm s.i, Bool.or_comm]
  refine ⟨rfl, ?_⟩
  intro h; rw [Bool.and_eq_true] at h; exact h.1

/-- C17: holds when the end of one is the start of the other, in either order; so it does not determine
the order of traversal. -/
theorem C17_chain {R : Rt K} (hR : R.IsRounding) (s o : Seg K) (h : s.j = o.i ∨ s.i = o.j) :
    R.continuous s o = true := by
  unfold Rt.continuous
  have ht : R.touch s o = true := by
    unfold Rt.touch
    rcases h with h | h <;> simp [h, hR.distance_self, hR.eps_pos]
  rw [ht]
  rcases h with h | h <;> simp [h, hR.peq_refl]

/-- C17, exact arithmetic, stored and separated Points: continuity is exactly being chained. -/
theorem C17_iff {R : Rt K} (hE : R.IsExact) (s o : Seg K)
    (h : Apart (1 / 10 ^ 5) {s.i, s.j, o.i, o.j}) :
    R.continuous s o = true ↔ s.j = o.i ∨ s.i = o.j := by
  constructor
  · intro hc
    unfold Rt.continuous at hc
    rw [Bool.and_eq_true, Bool.or_eq_true] at hc
    rw [← hE.tol'] at h
    rcases hc.2 with h1 | h1
    · exact Or.inl ((C04_apart hE.isRounding h (by simp) (by simp)).1.1 h1)
    · exact Or.inr ((C04_apart hE.isRounding h (by simp) (by simp)).1.1 h1)
  · exact C17_chain hE.isRounding s o

end Srep
