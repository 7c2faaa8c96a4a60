import Verif.Lemmas.TowerFloat
import Verif.Lemmas.BandSlab
import Verif.Model.Intex

/-! Reference points of shells with rounding errors. -/

set_option linter.unusedSectionVars false

namespace Srep
open Rt
variable {K : Type} [Field K] [LinearOrder K] [IsStrictOrderedRing K] [FloorRing K] {R : Rt K}

theorem fl_near (hR : R.IsRounding) {x B : K} (h : |x| ≤ B) : |R.fl x - x| ≤ B / 2 ^ 53 :=
  (hR.rel x).trans (div_le_div_of_nonneg_right h (by positivity))

/-- a coordinate at a ratio of the segment -/
theorem ratio_near (hR : R.IsRounding) {r a b : K} (h0 : 0 ≤ r) (h1 : r ≤ 1) (ha : |a| ≤ 10 ^ 6) (hb : |b| ≤ 10 ^ 6) :
    |R.coord (R.add (R.mul (R.sub 1 (R.fl r)) a) (R.mul (R.fl r) b)) - (a + r * (b - a))| ≤ 70 / 10 ^ 10 := by
  have e1 : R.sub 1 (R.fl r) = R.fl (1 - R.fl r) := rfl
  have e2 : ∀ x y, R.mul x y = R.fl (x * y) := fun _ _ => rfl
  have e3 : ∀ x y, R.add x y = R.fl (x + y) := fun _ _ => rfl
  rw [e1, e2, e2, e3]
  set ρ := R.fl r with hρ
  set σ := R.fl (1 - ρ) with hσ
  have n0 : (0 : K) < 1 / 2 ^ 53 := by positivity
  have n1 : (1 : K) / 2 ^ 53 ≤ 12 / 10 ^ 17 := by norm_num
  obtain ⟨u, hu⟩ : ∃ u : K, u = 1 / 2 ^ 53 := ⟨_, rfl⟩
  rw [← hu] at n0 n1
  have hd : ∀ B : K, B / 2 ^ 53 = B * u := fun B => by rw [hu]; ring
  have r1 := fl_near hR (x := r) (B := 1) (by rw [abs_le]; constructor <;> linarith)
  rw [hd, ← hρ, one_mul] at r1
  have r1' := abs_le.1 r1
  have u1 : u ≤ 1 / 2 := n1.trans (by norm_num)
  have s1 := fl_near hR (x := 1 - ρ) (B := 2) (by rw [abs_le]; constructor <;> linarith [r1'.1, r1'.2])
  rw [hd, ← hσ] at s1
  have s1' := abs_le.1 s1
  have s2 : |σ - (1 - r)| ≤ 3 * u := by rw [abs_le]; constructor <;> linarith [s1'.1, s1'.2, r1'.1, r1'.2]
  have s3 : |σ| ≤ 2 + 1 / 2 := by
    have := abs_le.1 s2
    rw [abs_le]; constructor <;> linarith [this.1, this.2]
  have s4 : |ρ| ≤ 2 := by rw [abs_le]; constructor <;> linarith [r1'.1, r1'.2]
  have m1 : |σ * a| ≤ (2 + 1 / 2) * 10 ^ 6 := by rw [abs_mul]; exact mul_le_mul s3 ha (abs_nonneg _) (by norm_num)
  have m2 : |ρ * b| ≤ 2 * 10 ^ 6 := by rw [abs_mul]; exact mul_le_mul s4 hb (abs_nonneg _) (by norm_num)
  have m3 : |(σ - (1 - r)) * a| ≤ 3 * u * 10 ^ 6 := by rw [abs_mul]; exact mul_le_mul s2 ha (abs_nonneg _) (by linarith)
  have m4 : |(ρ - r) * b| ≤ u * 10 ^ 6 := by rw [abs_mul]; exact mul_le_mul r1 hb (abs_nonneg _) n0.le
  have p1 := abs_le.1 (fl_near hR m1)
  have p2 := abs_le.1 (fl_near hR m2)
  rw [hd] at p1 p2
  have m3' := abs_le.1 m3
  have m4' := abs_le.1 m4
  have t1 : |a + r * (b - a)| ≤ 10 ^ 6 := by
    have ha' := abs_le.1 ha
    have hb' := abs_le.1 hb
    have k1 := mul_le_mul_of_nonneg_left hb'.2 h0
    have k2 := mul_le_mul_of_nonneg_left hb'.1 h0
    have k3 := mul_le_mul_of_nonneg_left ha'.2 (sub_nonneg.2 h1)
    have k4 := mul_le_mul_of_nonneg_left ha'.1 (sub_nonneg.2 h1)
    rw [abs_le]; constructor <;> linarith
  have t1' := abs_le.1 t1
  have dev : |R.fl (σ * a) + R.fl (ρ * b) - (a + r * (b - a))| ≤ 17 / 2 * 10 ^ 6 * u := by
    rw [abs_le]; constructor <;> linarith [p1.1, p1.2, p2.1, p2.2, m3'.1, m3'.2, m4'.1, m4'.2]
  have dev2 : 17 / 2 * 10 ^ 6 * u ≤ 13 / 10 ^ 10 := by
    have : 17 / 2 * 10 ^ 6 * u ≤ 17 / 2 * 10 ^ 6 * (12 / 10 ^ 17 : K) := mul_le_mul_of_nonneg_left n1 (by positivity)
    exact this.trans (by norm_num)
  have dev3 := abs_le.1 (dev.trans dev2)
  have n2 : (13 : K) / 10 ^ 10 ≤ 1 := by norm_num
  have c1 := abs_le.1 (coord_near hR (z := R.fl (σ * a) + R.fl (ρ * b)) (by rw [abs_le]; constructor <;> linarith [dev3.1, dev3.2, t1'.1, t1'.2]))
  have n3 : (57 : K) / 10 ^ 10 + 13 / 10 ^ 10 = 70 / 10 ^ 10 := by norm_num
  rw [abs_le]; constructor <;> linarith [c1.1, c1.2, dev3.1, dev3.2]

/-- the two points at one ratio, with all rounding errors -/
theorem intexPair_fl (hR : R.IsRounding) {posH c cap : K} {s : Seg K} (hs : SmallSeg s) {r : K} (h0 : 1 / 100 ≤ r) (h1 : r ≤ 99 / 100)
    (he : R.intexOffset posH c cap s ≤ 10 ^ 6) :
    ∃ x1 x2 y : K, R.intexPair posH c cap s r = .ok [⟨x1, y⟩, ⟨x2, y⟩] ∧
      |x1 - (s.i.x + r * (s.j.x - s.i.x) + R.intexOffset posH c cap s)| ≤ 130 / 10 ^ 10 ∧
      |x2 - (s.i.x + r * (s.j.x - s.i.x) - R.intexOffset posH c cap s)| ≤ 130 / 10 ^ 10 ∧
      |y - (s.i.y + r * (s.j.y - s.i.y))| ≤ 70 / 10 ^ 10 := by
  have r0 : 0 ≤ r := le_trans (by norm_num) h0
  have r1 : r ≤ 1 := h1.trans (by norm_num)
  have he0 : 0 ≤ R.intexOffset posH c cap s := abs_nonneg _
  obtain ⟨⟨ix, iy⟩, ⟨jx, jy⟩⟩ := hs
  have hx := ratio_near hR r0 r1 ix jx
  have hy := ratio_near hR r0 r1 iy jy
  have q := abs_le.1 (fl_near hR (x := r) (B := 1) (by rw [abs_le]; constructor <;> linarith))
  have n : (1 : K) / 2 ^ 53 ≤ 1 / 1000 := by norm_num
  have q1 : 0 < R.fl r := by
    have : (1 : K) / 1000 < 1 / 100 := by norm_num
    linarith [q.1]
  have q2 : R.fl r < 1 := by
    have : (1 : K) / 1000 + 99 / 100 < 1 := by norm_num
    linarith [q.2]
  have hp : R.intexPair posH c cap s r =
      .ok [R.mkPt (R.add (R.coord (R.add (R.mul (R.sub 1 (R.fl r)) s.i.x) (R.mul (R.fl r) s.j.x))) (R.intexOffset posH c cap s))
          (R.coord (R.add (R.mul (R.sub 1 (R.fl r)) s.i.y) (R.mul (R.fl r) s.j.y))),
        R.mkPt (R.sub (R.coord (R.add (R.mul (R.sub 1 (R.fl r)) s.i.x) (R.mul (R.fl r) s.j.x))) (R.intexOffset posH c cap s))
          (R.coord (R.add (R.mul (R.sub 1 (R.fl r)) s.i.y) (R.mul (R.fl r) s.j.y)))] := by
    unfold Rt.intexPair Rt.pointAtRatio
    rw [if_neg (not_not.2 ⟨q1.le, q2.le⟩), if_neg q1.ne', if_neg q2.ne]
    rfl
  rw [hp]
  generalize R.intexOffset posH c cap s = e at he he0
  generalize R.coord (R.add (R.mul (R.sub 1 (R.fl r)) s.i.x) (R.mul (R.fl r) s.j.x)) = X at hx
  generalize hY : R.coord (R.add (R.mul (R.sub 1 (R.fl r)) s.i.y) (R.mul (R.fl r) s.j.y)) = Y at hy
  have hYY : R.coord Y = Y := by rw [← hY, hR.coord_idem]
  have hx' := abs_le.1 hx
  have bnd : |s.i.x + r * (s.j.x - s.i.x)| ≤ 10 ^ 6 := by
    have ha' := abs_le.1 ix
    have hb' := abs_le.1 jx
    have k1 := mul_le_mul_of_nonneg_left hb'.2 r0
    have k2 := mul_le_mul_of_nonneg_left hb'.1 r0
    have k3 := mul_le_mul_of_nonneg_left ha'.2 (sub_nonneg.2 r1)
    have k4 := mul_le_mul_of_nonneg_left ha'.1 (sub_nonneg.2 r1)
    rw [abs_le]; constructor <;> linarith
  have bnd' := abs_le.1 bnd
  have n2 : (70 : K) / 10 ^ 10 ≤ 1 := by norm_num
  have n3 : (70 : K) / 10 ^ 10 + 57 / 10 ^ 10 ≤ 130 / 10 ^ 10 := by norm_num
  have c1 := abs_le.1 (coord_near hR (z := X + e) (by rw [abs_le]; constructor <;> linarith [hx'.1, hx'.2, bnd'.1, bnd'.2]))
  have c2 := abs_le.1 (coord_near hR (z := X - e) (by rw [abs_le]; constructor <;> linarith [hx'.1, hx'.2, bnd'.1, bnd'.2]))
  refine ⟨R.coord (R.fl (X + e)), R.coord (R.fl (X - e)), Y, ?_, ?_, ?_, hy⟩
  · show Except.ok [(⟨R.coord (R.fl (X + e)), R.coord Y⟩ : Pt K), ⟨R.coord (R.fl (X - e)), R.coord Y⟩] = _
    rw [hYY]
  · rw [abs_le]; constructor <;> linarith [c1.1, c1.2, hx'.1, hx'.2]
  · rw [abs_le]; constructor <;> linarith [c2.1, c2.2, hx'.1, hx'.2]

/-! ### the offsets -/

theorem third_near (hR : R.IsRounding) {t d : K} (h0 : 1 / 100 ≤ d) (h1 : d ≤ 10 ^ 5) (ht : |t - d / 2| ≤ 1 / 10 ^ 8) :
    99 / 10 ^ 9 ≤ R.div (R.fl t) 50000 ∧ R.div (R.fl t) 50000 ≤ d / 50000 := by
  have ht' := abs_le.1 ht
  have n1 : (1 : K) / 10 ^ 8 = 1 / 100000000 := by norm_num
  rw [n1] at ht'
  have rel : ∀ x : K, 0 ≤ x → x * (1 - 1 / 10 ^ 6) ≤ R.fl x ∧ R.fl x ≤ x * (1 + 1 / 10 ^ 6) := by
    intro x hx
    have h := abs_le.1 (hR.rel x)
    rw [abs_of_nonneg hx] at h
    have : x / 2 ^ 53 ≤ x / 10 ^ 6 := div_le_div_of_nonneg_left hx (by norm_num) (by norm_num)
    constructor <;> linarith [h.1, h.2]
  obtain ⟨a1, a2⟩ := rel t (by linarith [ht'.1])
  have n2 : (1 : K) / 10 ^ 6 = 1 / 1000000 := by norm_num
  have a0 : 0 ≤ R.fl t := le_trans (by rw [n2]; apply mul_nonneg <;> [linarith [ht'.1]; norm_num]) a1
  obtain ⟨b1, b2⟩ := rel (R.fl t / 50000) (by positivity)
  have e : R.div (R.fl t) 50000 = R.fl (R.fl t / 50000) := rfl
  rw [e]
  rw [n2] at a1 a2 b1 b2
  have n3 : (99 : K) / 10 ^ 9 = 99 / 1000000000 := by norm_num
  rw [n3]
  constructor <;> linarith [ht'.1, ht'.2]

/-- the computed right and left corners -/
theorem corner_near (hR : R.IsRounding) {c d : K} (hc : |c| ≤ 10 ^ 5) (h0 : 1 / 100 ≤ d) (h1 : d ≤ 10 ^ 5) :
    |R.coord (R.add c (R.div d 2)) - (c + d / 2)| ≤ 58 / 10 ^ 10 ∧ |R.coord (R.sub c (R.div d 2)) - (c - d / 2)| ≤ 58 / 10 ^ 10 := by
  obtain ⟨a1, a2⟩ := half_near hR h0 h1
  have hc' := abs_le.1 hc
  have d0 : 0 ≤ d / 2 := by
    have : (0 : K) ≤ 1 / 100 := by norm_num
    linarith
  have h2 := abs_le.1 (fl_near hR (x := d / 2) (B := 10 ^ 5) (by rw [abs_of_nonneg d0]; linarith))
  have n : (10 : K) ^ 5 / 2 ^ 53 ≤ 1 / 10 ^ 10 := by norm_num
  have n' : (57 : K) / 10 ^ 10 + 1 / 10 ^ 10 = 58 / 10 ^ 10 := by norm_num
  have eh : R.div d 2 = R.fl (d / 2) := rfl
  have b1 := abs_le.1 (coord_near hR (z := c - R.div d 2) (by rw [abs_le]; constructor <;> linarith [hc'.1, hc'.2]))
  have b2 := abs_le.1 (coord_near hR (z := c + R.div d 2) (by rw [abs_le]; constructor <;> linarith [hc'.1, hc'.2]))
  have e1 : R.sub c (R.div d 2) = R.fl (c - R.div d 2) := rfl
  have e2 : R.add c (R.div d 2) = R.fl (c + R.div d 2) := rfl
  rw [e1, e2]
  rw [eh] at b1 b2 ⊢
  constructor <;> rw [abs_le] <;> constructor <;> linarith [b1.1, b1.2, b2.1, b2.2, h2.1, h2.2]

theorem level_near (hR : R.IsRounding) {m : MantelDim K} (hm : FairDim m) :
    |R.coord m.posV - m.posV| ≤ 57 / 10 ^ 10 ∧ |R.coord (R.add m.posV m.h) - (m.posV + m.h)| ≤ 57 / 10 ^ 10 := by
  have hc' := abs_le.1 hm.posV
  have h0 := hm.h0
  have h1 := hm.h1
  have e4 : (1 : K) / 10 ^ 4 = 1 / 10000 := by norm_num
  rw [e4] at h0
  have b2 := coord_near hR (z := m.posV + m.h) (by rw [abs_le]; constructor <;> linarith [hc'.1, hc'.2])
  have b3 := coord_near' hR (z := m.posV) (by rw [abs_le]; constructor <;> linarith [hc'.1, hc'.2])
  exact ⟨b3, b2⟩

theorem offsets_fl (hR : R.IsRounding) {m : MantelDim K} (hm : FairDim m) :
    (99 / 10 ^ 9 ≤ R.intexOffset m.posH 50000 (2 / 1000) (R.rightWallFl m) ∧
      R.intexOffset m.posH 50000 (2 / 1000) (R.rightWallFl m) ≤ m.d0 / 50000) ∧
    99 / 10 ^ 9 ≤ R.intexOffset m.posH 50000 (2 / 1000) (R.leftWallFl m) ∧
      R.intexOffset m.posH 50000 (2 / 1000) (R.leftWallFl m) ≤ m.d0 / 50000 := by
  obtain ⟨k1, k2⟩ := corner_near hR hm.posH hm.d0 hm.d0'
  obtain ⟨v0, -, -⟩ := hm.level hR
  have rw0 : (R.rightWallFl m).i = ⟨R.coord (R.add m.posH (R.div m.d0 2)), R.coord m.posV⟩ := rfl
  have rw1 : (R.rightWallFl m).j = ⟨R.coord (R.add m.posH (R.div m.d1 2)), R.coord (R.add m.posV m.h)⟩ := rfl
  have lw0 : (R.leftWallFl m).i = ⟨R.coord (R.sub m.posH (R.div m.d1 2)), R.coord (R.add m.posV m.h)⟩ := rfl
  have lw1 : (R.leftWallFl m).j = ⟨R.coord (R.sub m.posH (R.div m.d0 2)), R.coord m.posV⟩ := rfl
  unfold Rt.intexOffset lowUp
  rw [rw0, rw1, lw0, lw1]
  dsimp only
  generalize R.coord (R.add m.posH (R.div m.d0 2)) = r0 at *
  generalize R.coord (R.sub m.posH (R.div m.d0 2)) = l0 at *
  generalize R.coord (R.add m.posV m.h) = y1 at *
  generalize R.coord m.posV = y0 at *
  have hlt : y0 < y1 := by
    have : (0 : K) < 1 / 50000 := by norm_num
    linarith
  rw [if_neg (not_lt.2 hlt.le), if_pos hlt]
  dsimp only
  have n1 : (58 : K) / 10 ^ 10 ≤ 1 / 10 ^ 8 := by norm_num
  have t1 := third_near hR (t := r0 - m.posH) hm.d0 hm.d0' (by
    refine le_trans (le_of_eq ?_) (k1.trans n1)
    congr 1; ring)
  have t2 := third_near hR (t := m.posH - l0) hm.d0 hm.d0' (by
    refine le_trans (le_of_eq ?_) (k2.trans n1)
    rw [← abs_neg]
    congr 1; ring)
  have e1 : R.sub r0 m.posH = R.fl (r0 - m.posH) := rfl
  have e2 : R.div (R.sub l0 m.posH) 50000 = -R.div (R.fl (m.posH - l0)) 50000 := by
    have : R.sub l0 m.posH = -R.fl (m.posH - l0) := by
      unfold Rt.sub; rw [← hR.neg]; congr 1; ring
    rw [this]
    unfold Rt.div
    rw [neg_div, hR.neg]
  rw [e1, e2]
  have low : ∀ x B : K, 0 ≤ B → B * 2 ≤ x → B ≤ R.fl x := by
    intro x B hB h
    have hx : 0 ≤ x := by linarith
    have h' := abs_le.1 (hR.rel x)
    rw [abs_of_nonneg hx] at h'
    have : x / 2 ^ 53 ≤ x / 2 := div_le_div_of_nonneg_left hx (by norm_num) (by norm_num)
    linarith [h'.1]
  have A : 99 / 10 ^ 9 ≤ R.div (R.sub y1 y0) 10 := by
    have s1 : (1 : K) / 100000 ≤ R.sub y1 y0 := low (y1 - y0) _ (by norm_num) (by
      have : (1 : K) / 100000 * 2 = 1 / 50000 := by norm_num
      linarith)
    refine low (R.sub y1 y0 / 10) _ (by norm_num) ?_
    have : (99 : K) / 10 ^ 9 * 2 ≤ 1 / 100000 / 10 := by norm_num
    refine this.trans (div_le_div_of_nonneg_right s1 (by norm_num))
  have C : 99 / 10 ^ 9 ≤ R.fl (2 / 1000) := low _ _ (by norm_num) (by norm_num)
  generalize R.div (R.sub y1 y0) 10 = a at A
  generalize R.fl (2 / 1000) = b at C
  generalize R.div (R.fl (r0 - m.posH)) 50000 = x at t1
  generalize R.div (R.fl (m.posH - l0)) 50000 = x' at t2
  have p0 : (0 : K) < 99 / 10 ^ 9 := by norm_num
  refine ⟨?_, ?_⟩
  · have h1 : 99 / 10 ^ 9 ≤ min a (min x b) := le_min A (le_min t1.1 C)
    rw [abs_of_nonneg (p0.le.trans h1)]
    exact ⟨h1, ((min_le_right _ _).trans (min_le_left _ _)).trans t1.2⟩
  · have h1 : min a (min (-x') b) = -x' := by
      rw [min_eq_left (by linarith [t2.1] : -x' ≤ b), min_eq_right (by linarith [t2.1])]
    rw [h1, abs_neg, abs_of_nonneg (p0.le.trans t2.1)]
    exact t2

/-! ### where the points are -/

/-- a point near a wall, with its errors `δ` of the height and `ξ` of the distance; `S` is the width of the shell there, times the
height -/
theorem wall_num {H D e δ ξ Δ S : K} (hH : 0 < H) (hΔ : |Δ| ≤ 11 * H) (hδ : |δ| ≤ 70 / 10 ^ 10) (hξ : |ξ| ≤ 130 / 10 ^ 10)
    (e0 : 99 / 10 ^ 9 ≤ e) (e1 : e ≤ D / 50000) (hD : 1 / 100 ≤ D) (hS : H * D / 200 ≤ S) :
    (0 < Δ * δ - H * (-e + ξ) ∧ Δ * δ - H * (-e + ξ) < S) ∧ Δ * δ - H * (e + ξ) < 0 := by
  have k1 : |Δ * δ| ≤ 11 * H * (70 / 10 ^ 10) := by
    rw [abs_mul]; exact mul_le_mul hΔ hδ (abs_nonneg _) (by linarith)
  have k1' := abs_le.1 k1
  have hξ' := abs_le.1 hξ
  have n1 : (70 : K) / 10 ^ 10 = 70 / 10000000000 := by norm_num
  have n2 : (130 : K) / 10 ^ 10 = 130 / 10000000000 := by norm_num
  have n3 : (99 : K) / 10 ^ 9 = 99 / 1000000000 := by norm_num
  rw [n1] at k1'
  rw [n2] at hξ'
  rw [n3] at e0
  have a1 := mul_le_mul_of_nonneg_left hξ'.1 hH.le
  have a2 := mul_le_mul_of_nonneg_left hξ'.2 hH.le
  have a3 := mul_le_mul_of_nonneg_left e0 hH.le
  have a4 := mul_le_mul_of_nonneg_left e1 hH.le
  have a5 := mul_le_mul_of_nonneg_left hD hH.le
  have x1 : H * (-e + ξ) = -(H * e) + H * ξ := by ring
  have x2 : H * (e + ξ) = H * e + H * ξ := by ring
  have x3 : H * (D / 50000) = H * D / 50000 := by ring
  rw [x1, x2]
  rw [x3] at a4
  refine ⟨⟨?_, ?_⟩, ?_⟩ <;> linarith [k1'.1, k1'.2]

/-- inside the band, near a wall -/
structure InBand (m : Band K) (p : Pt K) : Prop where
  low : m.y0 < p.y
  high : p.y < m.y1
  rise : 0 < det3 (riseBand m).i (riseBand m).j p
  fall : 0 < det3 (fallBand m).i (fallBand m).j p

/-- at the height of the band, beyond a wall -/
structure OffBand (m : Band K) (p : Pt K) : Prop where
  low : m.y0 < p.y
  high : p.y < m.y1
  sum : 0 < det3 (riseBand m).i (riseBand m).j p + det3 (fallBand m).i (fallBand m).j p
  off : det3 (riseBand m).i (riseBand m).j p < 0 ∨ det3 (fallBand m).i (fallBand m).j p < 0

/-- a band with room for the reference points; `D` is the lower diameter -/
structure RoomyBand (D : K) (m : Band K) : Prop where
  h : m.y0 + 1 / 50000 ≤ m.y1
  wide : 1 / 100 ≤ D
  w0 : 99 / 100 * D ≤ m.r0 - m.l0
  w1 : 0 ≤ m.r1 - m.l1
  r : |m.r1 - m.r0| ≤ 11 * (m.y1 - m.y0)
  l : |m.l0 - m.l1| ≤ 11 * (m.y1 - m.y0)

theorem det_sum (m : Band K) (p : Pt K) : det3 (riseBand m).i (riseBand m).j p + det3 (fallBand m).i (fallBand m).j p =
    (m.r0 - m.l0) * (m.y1 - p.y) + (m.r1 - m.l1) * (p.y - m.y0) := by
  simp only [det3, riseBand, fallBand]; ring

theorem RoomyBand.height {D : K} {m : Band K} (hm : RoomyBand D m) {τ δ : K} (h0 : 1 / 100 ≤ τ) (h1 : τ ≤ 99 / 100) (hδ : |δ| ≤ 70 / 10 ^ 10)
    {p : Pt K} (hp : p.y = m.y0 + τ * (m.y1 - m.y0) + δ) : m.y0 < p.y ∧ p.y < m.y1 ∧
      (m.y1 - m.y0) * D / 200 ≤ det3 (riseBand m).i (riseBand m).j p + det3 (fallBand m).i (fallBand m).j p := by
  have hh := hm.h
  have hD := hm.wide
  have hδ' := abs_le.1 hδ
  have n1 : (70 : K) / 10 ^ 10 = 70 / 10000000000 := by norm_num
  rw [n1] at hδ'
  have hH : 0 ≤ m.y1 - m.y0 := by
    have : (0 : K) < 1 / 50000 := by norm_num
    linarith
  have a1 := mul_le_mul_of_nonneg_right h0 hH
  have a2 := mul_le_mul_of_nonneg_right h1 hH
  have b1 : m.y0 < p.y := by rw [hp]; linarith [hδ'.1]
  have b2 : 9 / 1000 * (m.y1 - m.y0) ≤ m.y1 - p.y := by rw [hp]; linarith [hδ'.2]
  refine ⟨b1, by linarith, ?_⟩
  rw [det_sum]
  have c1 : 99 / 100 * D * (9 / 1000 * (m.y1 - m.y0)) ≤ (m.r0 - m.l0) * (m.y1 - p.y) := by
    apply mul_le_mul hm.w0 b2
    · exact mul_nonneg (by norm_num) hH
    · exact le_trans (mul_nonneg (by norm_num) (le_trans (by norm_num) hD)) hm.w0
  have c2 := mul_nonneg hm.w1 (sub_nonneg.2 b1.le)
  have c3 : 0 ≤ (m.y1 - m.y0) * D := mul_nonneg hH (le_trans (by norm_num) hD)
  have c4 : 99 / 100 * D * (9 / 1000 * (m.y1 - m.y0)) = 891 / 100000 * ((m.y1 - m.y0) * D) := by ring
  linarith

/-- the points at the right wall -/
theorem RoomyBand.right {D : K} {m : Band K} (hm : RoomyBand D m) {τ e : K} (h0 : 1 / 100 ≤ τ) (h1 : τ ≤ 99 / 100)
    (e0 : 99 / 10 ^ 9 ≤ e) (e1 : e ≤ D / 50000) {x1 x2 y : K} (hx1 : |x1 - (m.r0 + τ * (m.r1 - m.r0) + e)| ≤ 130 / 10 ^ 10)
    (hx2 : |x2 - (m.r0 + τ * (m.r1 - m.r0) - e)| ≤ 130 / 10 ^ 10) (hy : |y - (m.y0 + τ * (m.y1 - m.y0))| ≤ 70 / 10 ^ 10) :
    OffBand m ⟨x1, y⟩ ∧ InBand m ⟨x2, y⟩ := by
  have hH : 0 < m.y1 - m.y0 := by
    have := hm.h
    have : (0 : K) < 1 / 50000 := by norm_num
    linarith
  obtain ⟨a1, a2, a3⟩ := hm.height h0 h1 hy (p := ⟨x1, y⟩) (by dsimp only; ring)
  obtain ⟨-, -, b3⟩ := hm.height h0 h1 hy (p := ⟨x2, y⟩) (by dsimp only; ring)
  have w1 := (wall_num hH hm.r hy hx1 e0 e1 hm.wide a3).2
  have w2 := (wall_num hH hm.r hy hx2 e0 e1 hm.wide b3).1
  have d1 : det3 (riseBand m).i (riseBand m).j ⟨x1, y⟩ = (m.r1 - m.r0) * (y - (m.y0 + τ * (m.y1 - m.y0))) -
      (m.y1 - m.y0) * (e + (x1 - (m.r0 + τ * (m.r1 - m.r0) + e))) := by
    simp only [det3, riseBand]; ring
  have d2 : det3 (riseBand m).i (riseBand m).j ⟨x2, y⟩ = (m.r1 - m.r0) * (y - (m.y0 + τ * (m.y1 - m.y0))) -
      (m.y1 - m.y0) * (-e + (x2 - (m.r0 + τ * (m.r1 - m.r0) - e))) := by
    simp only [det3, riseBand]; ring
  have pS : 0 < (m.y1 - m.y0) * D / 200 := by
    have : 0 < D := lt_of_lt_of_le (by norm_num) hm.wide
    positivity
  rw [← d1] at w1
  rw [← d2] at w2
  exact ⟨⟨a1, a2, lt_of_lt_of_le pS a3, Or.inl w1⟩, a1, a2, w2.1, by linarith [w2.2]⟩

/-- … and at the left wall, which leads down -/
theorem RoomyBand.left {D : K} {m : Band K} (hm : RoomyBand D m) {τ e : K} (h0 : 1 / 100 ≤ τ) (h1 : τ ≤ 99 / 100)
    (e0 : 99 / 10 ^ 9 ≤ e) (e1 : e ≤ D / 50000) {x1 x2 y : K} (hx1 : |x1 - (m.l1 + τ * (m.l0 - m.l1) + e)| ≤ 130 / 10 ^ 10)
    (hx2 : |x2 - (m.l1 + τ * (m.l0 - m.l1) - e)| ≤ 130 / 10 ^ 10) (hy : |y - (m.y1 + τ * (m.y0 - m.y1))| ≤ 70 / 10 ^ 10) :
    InBand m ⟨x1, y⟩ ∧ OffBand m ⟨x2, y⟩ := by
  have hH : 0 < m.y1 - m.y0 := by
    have := hm.h
    have : (0 : K) < 1 / 50000 := by norm_num
    linarith
  obtain ⟨a1, a2, a3⟩ := hm.height (τ := 1 - τ) (by linarith) (by linarith) hy (p := ⟨x1, y⟩) (by dsimp only; ring)
  obtain ⟨-, -, b3⟩ := hm.height (τ := 1 - τ) (by linarith) (by linarith) hy (p := ⟨x2, y⟩) (by dsimp only; ring)
  rw [← abs_neg] at hx1 hx2
  have w1 := (wall_num hH hm.l hy hx1 e0 e1 hm.wide a3).1
  have w2 := (wall_num hH hm.l hy hx2 e0 e1 hm.wide b3).2
  have d1 : det3 (fallBand m).i (fallBand m).j ⟨x1, y⟩ = (m.l0 - m.l1) * (y - (m.y1 + τ * (m.y0 - m.y1))) -
      (m.y1 - m.y0) * (-e + -(x1 - (m.l1 + τ * (m.l0 - m.l1) + e))) := by
    simp only [det3, fallBand]; ring
  have d2 : det3 (fallBand m).i (fallBand m).j ⟨x2, y⟩ = (m.l0 - m.l1) * (y - (m.y1 + τ * (m.y0 - m.y1))) -
      (m.y1 - m.y0) * (e + -(x2 - (m.l1 + τ * (m.l0 - m.l1) - e))) := by
    simp only [det3, fallBand]; ring
  have pS : 0 < (m.y1 - m.y0) * D / 200 := by
    have : 0 < D := lt_of_lt_of_le (by norm_num) hm.wide
    positivity
  rw [← d1] at w1
  rw [← d2] at w2
  exact ⟨⟨a1, a2, by linarith [w1.2], w1.1⟩, a1, a2, lt_of_lt_of_le pS b3, Or.inr w2⟩

/-- a fair shell that is not too flat has room for its reference points -/
theorem FairDim.roomy (hR : R.IsRounding) {m : MantelDim K} (hm : FairDim m) (hs : |m.d1 - m.d0| ≤ 20 * m.h) : RoomyBand m.d0 (R.bandOf m) := by
  obtain ⟨a1, a2⟩ := corner_near hR hm.posH hm.d0 hm.d0'
  obtain ⟨b1, b2⟩ := corner_near hR hm.posH hm.d1 hm.d1'
  obtain ⟨v1, v2⟩ := level_near hR hm
  have n1 : (58 : K) / 10 ^ 10 = 58 / 10000000000 := by norm_num
  have n2 : (57 : K) / 10 ^ 10 = 57 / 10000000000 := by norm_num
  rw [n1] at a1 a2 b1 b2
  rw [n2] at v1 v2
  rw [abs_le] at a1 a2 b1 b2 v1 v2 hs
  have h0 := hm.h0
  have e4 : (1 : K) / 10 ^ 4 = 1 / 10000 := by norm_num
  rw [e4] at h0
  have d0 := hm.d0
  have d1 := hm.d1
  refine ⟨(hm.level hR).1, hm.d0, ?_, ?_, ?_, ?_⟩ <;> simp only [Rt.bandOf]
  · linarith [a1.1, a1.2, a2.1, a2.2]
  · linarith [b1.1, b1.2, b2.1, b2.2]
  · rw [abs_le]; constructor <;> linarith [a1.1, a1.2, b1.1, b1.2, v1.1, v1.2, v2.1, v2.2, hs.1, hs.2]
  · rw [abs_le]; constructor <;> linarith [a2.1, a2.2, b2.1, b2.2, v1.1, v1.2, v2.1, v2.2, hs.1, hs.2]

/-- all eight reference points of a shell -/
theorem FairDim.points (hR : R.IsRounding) {m : MantelDim K} (hm : FairDim m) (hs : |m.d1 - m.d0| ≤ 20 * m.h) :
    (∃ p q r t, R.intexFour m.posH 50000 (2 / 1000) (R.rightWallFl m) = .ok [p, q, r, t] ∧ OffBand (R.bandOf m) p ∧ InBand (R.bandOf m) q ∧
      OffBand (R.bandOf m) r ∧ InBand (R.bandOf m) t) ∧
    ∃ p q r t, R.intexFour m.posH 50000 (2 / 1000) (R.leftWallFl m) = .ok [p, q, r, t] ∧ InBand (R.bandOf m) p ∧ OffBand (R.bandOf m) q ∧
      InBand (R.bandOf m) r ∧ OffBand (R.bandOf m) t := by
  obtain ⟨s1, s2⟩ := hm.small hR
  obtain ⟨⟨e0, e1⟩, f0, f1⟩ := offsets_fl hR hm
  have hr := hm.roomy hR hs
  have cap : m.d0 / 50000 ≤ 10 ^ 6 := by
    have := hm.d0'
    have : m.d0 / 50000 ≤ 10 ^ 5 / 50000 := div_le_div_of_nonneg_right this (by norm_num)
    exact this.trans (by norm_num)
  have l1 : (1 : K) / 100 ≤ 99 / 100 := by norm_num
  constructor
  · obtain ⟨x1, x2, y, e, h1, h2, h3⟩ := intexPair_fl hR s1 (le_refl _) l1 (e1.trans cap)
    obtain ⟨x1', x2', y', e', h1', h2', h3'⟩ := intexPair_fl hR s1 l1 (le_refl _) (e1.trans cap)
    refine ⟨⟨x1, y⟩, ⟨x2, y⟩, ⟨x1', y'⟩, ⟨x2', y'⟩, ?_, ?_⟩
    · unfold Rt.intexFour; rw [e, e']; rfl
    · obtain ⟨a, b⟩ := hr.right (le_refl _) l1 e0 e1 h1 h2 h3
      obtain ⟨c, d⟩ := hr.right l1 (le_refl _) e0 e1 h1' h2' h3'
      exact ⟨a, b, c, d⟩
  · obtain ⟨x1, x2, y, e, h1, h2, h3⟩ := intexPair_fl hR s2 (le_refl _) l1 (f1.trans cap)
    obtain ⟨x1', x2', y', e', h1', h2', h3'⟩ := intexPair_fl hR s2 l1 (le_refl _) (f1.trans cap)
    refine ⟨⟨x1, y⟩, ⟨x2, y⟩, ⟨x1', y'⟩, ⟨x2', y'⟩, ?_, ?_⟩
    · unfold Rt.intexFour; rw [e, e']; rfl
    · obtain ⟨a, b⟩ := hr.left (le_refl _) l1 f0 f1 h1 h2 h3
      obtain ⟨c, d⟩ := hr.left l1 (le_refl _) f0 f1 h1' h2' h3'
      exact ⟨a, b, c, d⟩

end Srep
