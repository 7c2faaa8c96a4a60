import Verif.Lemmas.IntexFl

/-! Reference points of torispherical heads with rounding errors. -/

set_option linter.unusedSectionVars false

namespace Srep
open Rt
variable {K : Type} [Field K] [LinearOrder K] [IsStrictOrderedRing K] [FloorRing K] {R : Rt K}

theorem sign_mul (hR : R.IsRounding) {v : K} (hv : v = 1 ∨ v = -1) (a : K) : R.mul v (R.fl a) = v * R.fl a := by
  unfold Rt.mul
  rcases hv with rfl | rfl
  · rw [one_mul, hR.idem]
  · rw [neg_one_mul, hR.neg, hR.idem]

/-- the sum of a coordinate and a multiple of a size -/
theorem shifted_near (hR : R.IsRounding) {v a d c : K} (hv : v = 1 ∨ v = -1) (a0 : 0 ≤ a) (a1 : a ≤ 1) (d0 : 0 ≤ d) (d1 : d ≤ 10 ^ 5)
    (hc : |c| ≤ 4 * 10 ^ 5) : |R.coord (R.add c (R.mul (R.mul v (R.fl a)) d)) - (c + v * a * d)| ≤ 58 / 10 ^ 10 := by
  rw [sign_mul hR hv]
  have v1 : |v| = 1 := by rcases hv with rfl | rfl <;> simp
  have f := fl_near hR (x := a) (B := 1) (by rw [abs_of_nonneg a0]; exact a1)
  have n0 : (1 : K) / 2 ^ 53 ≤ 12 / 10 ^ 17 := by norm_num
  have p1 : |v * R.fl a * d - v * a * d| ≤ 1 / 2 ^ 53 * 10 ^ 5 := by
    have e : v * R.fl a * d - v * a * d = v * ((R.fl a - a) * d) := by ring
    rw [e, abs_mul, v1, one_mul, abs_mul]
    exact mul_le_mul f (by rwa [abs_of_nonneg d0]) (abs_nonneg _) (by positivity)
  have p1' := abs_le.1 p1
  have p2 : |v * a * d| ≤ 10 ^ 5 := by
    rw [abs_mul, abs_mul, v1, one_mul, abs_of_nonneg a0, abs_of_nonneg d0]
    calc a * d ≤ 1 * 10 ^ 5 := mul_le_mul a1 d1 d0 zero_le_one
      _ = 10 ^ 5 := one_mul _
  have p2' := abs_le.1 p2
  have n1 : (1 : K) / 2 ^ 53 * 10 ^ 5 ≤ 12 / 10 ^ 12 := by norm_num
  have n2 : (2 * 10 ^ 5 : K) / 2 ^ 53 ≤ 24 / 10 ^ 12 := by norm_num
  have n3 : (12 : K) / 10 ^ 12 ≤ 1 := by norm_num
  have p3 := abs_le.1 (fl_near hR (x := v * R.fl a * d) (B := 2 * 10 ^ 5) (by rw [abs_le]; constructor <;> linarith [p1'.1, p1'.2, p2'.1, p2'.2]))
  have n4 : (24 : K) / 10 ^ 12 ≤ 1 := by norm_num
  have n5 : (24 : K) / 10 ^ 12 + 12 / 10 ^ 12 ≤ 1 / 10 ^ 10 := by norm_num
  have n6 : (57 : K) / 10 ^ 10 + 1 / 10 ^ 10 = 58 / 10 ^ 10 := by norm_num
  have hc' := abs_le.1 hc
  have e1 : R.mul (v * R.fl a) d = R.fl (v * R.fl a * d) := rfl
  have e2 : ∀ z, R.add c z = R.fl (c + z) := fun _ => rfl
  rw [e1, e2]
  have p4 := abs_le.1 (coord_near hR (z := c + R.fl (v * R.fl a * d)) (by
    rw [abs_le]; constructor <;> linarith [p1'.1, p1'.2, p2'.1, p2'.2, p3.1, p3.2, hc'.1, hc'.2]))
  rw [abs_le]; constructor <;> linarith [p1'.1, p1'.2, p3.1, p3.2, p4.1, p4.2]

/-- the signed areas at a pointed lid, up to relative errors; in units of the size of the lid -/
theorem lid_num {ε η1 η2 η3 η4 b z : K} (e0 : 0 ≤ ε) (e1 : ε ≤ 1 / 10 ^ 5) (h1 : |η1| ≤ ε) (h2 : |η2| ≤ ε) (h3 : |η3| ≤ ε) (h4 : |η4| ≤ ε)
    (b0 : 0 ≤ b) (b1 : b ≤ 1) (hz : |z| ≤ 1 / 2) :
    |(1 / 2 + η3) * (1 + η1 - (b + η2)) - (1 + η1) * (z + η4) - ((1 - b) / 2 - z)| ≤ 1 / 10 ^ 4 := by
  have e : (1 / 2 + η3) * (1 + η1 - (b + η2)) - (1 + η1) * (z + η4) - ((1 - b) / 2 - z) =
      η3 * (1 - b) + (1 / 2 + η3) * (η1 - η2) - η1 * z - (1 + η1) * η4 := by ring
  have s1 : |η3 * (1 - b)| ≤ ε * 1 := by
    rw [abs_mul]; exact mul_le_mul h3 (by rw [abs_of_nonneg (by linarith)]; linarith) (abs_nonneg _) e0
  have l3 := abs_le.1 h3
  have l1 := abs_le.1 h1
  have l2 := abs_le.1 h2
  have n1 : (1 : K) / 10 ^ 5 ≤ 1 / 2 := by norm_num
  have s2 : |(1 / 2 + η3) * (η1 - η2)| ≤ 1 * (2 * ε) := by
    rw [abs_mul]
    refine mul_le_mul ?_ ?_ (abs_nonneg _) zero_le_one
    · rw [abs_le]; constructor <;> linarith [l3.1, l3.2]
    · rw [abs_le]; constructor <;> linarith [l1.1, l1.2, l2.1, l2.2]
  have s3 : |η1 * z| ≤ ε * (1 / 2) := by
    rw [abs_mul]; exact mul_le_mul h1 hz (abs_nonneg _) e0
  have s4 : |(1 + η1) * η4| ≤ 2 * ε := by
    rw [abs_mul]
    refine mul_le_mul ?_ h4 (abs_nonneg _) (by norm_num)
    rw [abs_le]; constructor <;> linarith [l1.1, l1.2]
  rw [e]
  have n2 : 6 * (1 / 10 ^ 5) ≤ (1 : K) / 10 ^ 4 := by norm_num
  rw [abs_le] at s1 s2 s3 s4 ⊢
  constructor <;> linarith [s1.1, s1.2, s2.1, s2.2, s3.1, s3.2, s4.1, s4.2]

/-- the same in the units of the drawing -/
theorem lid_num' {D H A h q x b z : K} (hD : 0 < D) (hH : 0 < H) (hA : |A - D / 2| ≤ D / 10 ^ 5) (hh : |h - H| ≤ H / 10 ^ 5)
    (hq : |q - b * H| ≤ H / 10 ^ 5) (hx : |x - z * D| ≤ D / 10 ^ 5) (b0 : 0 ≤ b) (b1 : b ≤ 1) (hz : |z| ≤ 1 / 2) :
    |A * (h - q) - h * x - D * H * ((1 - b) / 2 - z)| ≤ D * H / 10 ^ 4 := by
  have key : ∀ {u U : K}, 0 < U → |u| ≤ U / 10 ^ 5 → |u / U| ≤ 1 / 10 ^ 5 := by
    intro u U hU hu
    rw [abs_div, abs_of_pos hU, div_le_iff₀ hU]
    refine hu.trans (le_of_eq ?_)
    ring
  have := lid_num (ε := 1 / 10 ^ 5) (by norm_num) (le_refl _) (key hH hh) (key hH hq) (key hD hA) (key hD hx) b0 b1 hz
  have P : 0 < D * H := mul_pos hD hH
  have e : A * (h - q) - h * x - D * H * ((1 - b) / 2 - z) =
      D * H * ((1 / 2 + (A - D / 2) / D) * (1 + (h - H) / H - (b + (q - b * H) / H)) - (1 + (h - H) / H) * (z + (x - z * D) / D) -
        ((1 - b) / 2 - z)) := by
    field_simp
    ring
  rw [e, abs_mul, abs_of_pos P]
  calc D * H * _ ≤ D * H * (1 / 10 ^ 4) := mul_le_mul_of_nonneg_left this P.le
    _ = D * H / 10 ^ 4 := by ring

/-- `A`, `B`: the half widths of the lid, `h`: its height; `x`, `q`: the place of a point on it -/
structure InLid (A B h x q : K) : Prop where
  low : 0 < q
  high : q < h
  rise : 0 < A * (h - q) - h * x
  fall : 0 < B * (h - q) + h * x

structure OffLid (A B h x q : K) : Prop where
  low : 0 < q
  high : q < h
  sum : 0 < A * (h - q) - h * x + (B * (h - q) + h * x)
  off : A * (h - q) - h * x < 0 ∨ B * (h - q) + h * x < 0

theorem hGraph_low (hR : R.IsRounding) (d : K) : 99 / 1000 ≤ R.hGraph d := by
  unfold Rt.hGraph
  refine le_trans ?_ (le_max_left _ _)
  have := abs_le.1 (fl_near hR (x := (1 / 10 : K)) (B := 1) (by rw [abs_of_pos (by norm_num)]; norm_num))
  have n : (1 : K) / 2 ^ 53 ≤ 1 / 1000 := by norm_num
  linarith [this.1]

theorem hGraph_fl (hR : R.IsRounding) (d : K) : R.fl (R.hGraph d) = R.hGraph d := by
  unfold Rt.hGraph Rt.div
  rcases max_choice (R.fl (1 / 10)) (R.fl (d / 1000)) with h | h <;> rw [h, hR.idem]

theorem lid_main {D H A B h x q v a b : K} (hD : 0 < D) (hH : 0 < H) (hA : |A - D / 2| ≤ D / 10 ^ 5) (hB : |B - D / 2| ≤ D / 10 ^ 5)
    (hh : |h - H| ≤ H / 10 ^ 5) (hx : |x - v * a * D| ≤ D / 10 ^ 5) (hq : |q - b * H| ≤ H / 10 ^ 5) (hs : v = 1 ∨ v = -1) (a0 : 0 ≤ a)
    (a1 : a ≤ 1 / 2) (b0 : 1 / 100 ≤ b) (b1 : b ≤ 9 / 10) : 0 < q ∧ q < h ∧
    |A * (h - q) - h * x - D * H * ((1 - b) / 2 - v * a)| ≤ D * H / 10000 ∧
      |B * (h - q) + h * x - D * H * ((1 - b) / 2 + v * a)| ≤ D * H / 10000 := by
  have n5 : ∀ u : K, u / 10 ^ 5 = u / 100000 := fun u => by norm_num
  have n4 : D * H / 10 ^ 4 = D * H / 10000 := by norm_num
  have b0' : 0 ≤ b := le_trans (by norm_num) b0
  have b1' : b ≤ 1 := b1.trans (by norm_num)
  have hz : |v * a| ≤ 1 / 2 := by
    rcases hs with rfl | rfl
    · rw [one_mul, abs_of_nonneg a0]; exact a1
    · rw [neg_one_mul, abs_neg, abs_of_nonneg a0]; exact a1
  have q' := abs_le.1 hq
  have hh' := abs_le.1 hh
  rw [n5] at q' hh'
  have k1 := mul_le_mul_of_nonneg_right b0 hH.le
  have k2 := mul_le_mul_of_nonneg_right b1 hH.le
  refine ⟨by linarith [q'.1], by linarith [q'.2, hh'.1], ?_, ?_⟩
  · rw [← n4]; exact lid_num' hD hH hA hh hq hx b0' b1' hz
  · have := lid_num' (x := -x) (z := -(v * a)) hD hH hB hh hq (by
      have e : -x - -(v * a) * D = -(x - v * a * D) := by ring
      rw [e, abs_neg]; exact hx) b0' b1' (by rwa [abs_neg])
    have e : B * (h - q) - h * -x - D * H * ((1 - b) / 2 - -(v * a)) = B * (h - q) + h * x - D * H * ((1 - b) / 2 + v * a) := by ring
    rwa [e, n4] at this

theorem lid_in {D H A B h x q v a b : K} (hD : 0 < D) (hH : 0 < H) (hA : |A - D / 2| ≤ D / 10 ^ 5) (hB : |B - D / 2| ≤ D / 10 ^ 5)
    (hh : |h - H| ≤ H / 10 ^ 5) (hx : |x - v * a * D| ≤ D / 10 ^ 5) (hq : |q - b * H| ≤ H / 10 ^ 5) (hs : v = 1 ∨ v = -1) (a0 : 0 ≤ a)
    (a1 : a ≤ 1 / 2) (b0 : 1 / 100 ≤ b) (b1 : b ≤ 9 / 10) (hab : a + 1 / 100 ≤ (1 - b) / 2) : InLid A B h x q := by
  obtain ⟨l1, l2, m1, m2⟩ := lid_main hD hH hA hB hh hx hq hs a0 a1 b0 b1
  have DH : 0 < D * H := mul_pos hD hH
  have k1 : D * H * (1 / 100) ≤ D * H * ((1 - b) / 2 - v * a) := mul_le_mul_of_nonneg_left (by rcases hs with rfl | rfl <;> linarith) DH.le
  have k2 : D * H * (1 / 100) ≤ D * H * ((1 - b) / 2 + v * a) := mul_le_mul_of_nonneg_left (by rcases hs with rfl | rfl <;> linarith) DH.le
  rw [abs_le] at m1 m2
  exact ⟨l1, l2, by linarith [m1.1], by linarith [m2.1]⟩

theorem lid_off {D H A B h x q v a b : K} (hD : 0 < D) (hH : 0 < H) (hA : |A - D / 2| ≤ D / 10 ^ 5) (hB : |B - D / 2| ≤ D / 10 ^ 5)
    (hh : |h - H| ≤ H / 10 ^ 5) (hx : |x - v * a * D| ≤ D / 10 ^ 5) (hq : |q - b * H| ≤ H / 10 ^ 5) (hs : v = 1 ∨ v = -1) (a0 : 0 ≤ a)
    (a1 : a ≤ 1 / 2) (b0 : 1 / 100 ≤ b) (b1 : b ≤ 9 / 10) (hab : (1 - b) / 2 + 1 / 100 ≤ a) : OffLid A B h x q := by
  obtain ⟨l1, l2, m1, m2⟩ := lid_main hD hH hA hB hh hx hq hs a0 a1 b0 b1
  have DH : 0 < D * H := mul_pos hD hH
  have k0 : D * H * (1 / 10) ≤ D * H * (1 - b) := mul_le_mul_of_nonneg_left (by linarith) DH.le
  have k3 : D * H * ((1 - b) / 2 - v * a) + D * H * ((1 - b) / 2 + v * a) = D * H * (1 - b) := by ring
  have k1 : D * H * (1 / 100) ≤ D * H * (a - (1 - b) / 2) := mul_le_mul_of_nonneg_left (by linarith) DH.le
  rw [abs_le] at m1 m2
  refine ⟨l1, l2, by linarith [m1.1, m2.1], ?_⟩
  rcases hs with rfl | rfl
  · left; linarith [m1.2]
  · right; linarith [m2.2]

/-- the places of the reference points of a head -/
theorem head_places (hR : R.IsRounding) {v0 c d k o : K} (hc : |c| ≤ 10 ^ 5) (hv : |v0| ≤ 4 * 10 ^ 5) (d0 : 1 / 100 ≤ d) (d1 : d ≤ 10 ^ 5)
    (ho : o = 1 ∨ o = -1) {v : K} (hs : v = 1 ∨ v = -1) {A B h : K} (eA : A = R.coord (R.add c (R.div d 2)) - R.coord c)
    (eB : B = R.coord c - R.coord (R.sub c (R.div d 2))) (eh : h = o * (R.coord (R.add v0 (R.mul o (R.hGraph d))) - R.coord v0))
    {p q r : Pt K} (hp : p = R.headPoint ⟨v0, c, d, k, o⟩ v (45 / 100) (5 / 100)) (hq : q = R.headPoint ⟨v0, c, d, k, o⟩ v (5 / 100) (85 / 100))
    (hr : r = R.headPoint ⟨v0, c, d, k, o⟩ v (25 / 100) (55 / 100)) :
    InLid A B h (p.x - R.coord c) (o * (p.y - R.coord v0)) ∧ InLid A B h (q.x - R.coord c) (o * (q.y - R.coord v0)) ∧
      OffLid A B h (r.x - R.coord c) (o * (r.y - R.coord v0)) := by
  have hc4 : |c| ≤ 4 * 10 ^ 5 := hc.trans (by norm_num)
  obtain ⟨g0, g1⟩ := hGraph_bounds hR d1
  have g2 := hGraph_low hR d
  have gf := hGraph_fl hR d
  have dp : 0 < d := lt_of_lt_of_le (by norm_num) d0
  have gp : 0 < R.hGraph d := lt_of_lt_of_le (by norm_num) g2
  obtain ⟨k1, k2⟩ := corner_near hR hc d0 d1
  have kc := coord_near' hR (z := c) (hc4.trans (by norm_num))
  have kv := coord_near' hR (z := v0) (hv.trans (by norm_num))
  have n58 : (58 : K) / 10 ^ 10 = 58 / 10000000000 := by norm_num
  have n57 : (57 : K) / 10 ^ 10 = 57 / 10000000000 := by norm_num
  have n5 : ∀ u : K, u / 10 ^ 5 = u / 100000 := fun u => by norm_num
  rw [n58] at k1 k2
  rw [n57] at kc kv
  rw [abs_le] at k1 k2 kc kv
  have hA : |A - d / 2| ≤ d / 10 ^ 5 := by
    rw [n5, abs_le, eA]
    constructor <;> linarith [k1.1, k1.2, kc.1, kc.2]
  have hB : |B - d / 2| ≤ d / 10 ^ 5 := by
    rw [n5, abs_le, eB]
    constructor <;> linarith [k2.1, k2.2, kc.1, kc.2]
  have ho2 : ∀ z : K, |o * z| = |z| := by intro z; rcases ho with rfl | rfl <;> simp
  have hoo : o * o = 1 := by rcases ho with rfl | rfl <;> norm_num
  have hX : ∀ a b : K, 0 ≤ a → a ≤ 1 → |(R.headPoint ⟨v0, c, d, k, o⟩ v a b).x - R.coord c - v * a * d| ≤ d / 10 ^ 5 := by
    intro a b a0 a1
    have := shifted_near hR hs a0 a1 dp.le d1 hc4
    rw [n58, abs_le] at this
    have e : (R.headPoint ⟨v0, c, d, k, o⟩ v a b).x = R.coord (R.add c (R.mul (R.mul v (R.fl a)) d)) := rfl
    rw [e, n5, abs_le]
    generalize R.coord (R.add c (R.mul (R.mul v (R.fl a)) d)) = w at *
    constructor <;> linarith [this.1, this.2, kc.1, kc.2]
  have hQ : ∀ a b : K, 0 ≤ b → b ≤ 1 → |o * ((R.headPoint ⟨v0, c, d, k, o⟩ v a b).y - R.coord v0) - b * R.hGraph d| ≤ R.hGraph d / 10 ^ 5 := by
    intro a b b0 b1
    have := shifted_near hR ho b0 b1 g0 g1 hv
    rw [n58, abs_le] at this
    have e : (R.headPoint ⟨v0, c, d, k, o⟩ v a b).y = R.coord (R.add v0 (R.mul (R.mul o (R.fl b)) (R.hGraph d))) := rfl
    rw [e]
    generalize R.coord (R.add v0 (R.mul (R.mul o (R.fl b)) (R.hGraph d))) = w at *
    have e : o * (w - R.coord v0) - b * R.hGraph d = o * (w - R.coord v0 - o * b * R.hGraph d) := by
      linear_combination b * R.hGraph d * hoo
    rw [e, ho2, n5, abs_le]
    constructor <;> linarith [this.1, this.2, kv.1, kv.2]
  have hh : |h - R.hGraph d| ≤ R.hGraph d / 10 ^ 5 := by
    have m1 : R.mul o (R.hGraph d) = o * R.hGraph d := by
      have := sign_mul hR ho (R.hGraph d)
      rwa [gf] at this
    have sz : |v0 + o * R.hGraph d| ≤ 3 * 10 ^ 6 := by
      have := abs_le.1 hv
      have s := abs_le.1 (le_of_eq (ho2 (R.hGraph d)))
      rw [abs_of_nonneg g0] at s
      rw [abs_le]; constructor <;> linarith [this.1, this.2, s.1, s.2]
    have := coord_near hR sz
    rw [n57, abs_le] at this
    have e : R.add v0 (o * R.hGraph d) = R.fl (v0 + o * R.hGraph d) := rfl
    rw [eh, m1, e]
    generalize R.coord (R.fl (v0 + o * R.hGraph d)) = w at *
    have e : o * (w - R.coord v0) - R.hGraph d = o * (w - R.coord v0 - o * R.hGraph d) := by
      linear_combination R.hGraph d * hoo
    rw [e, ho2, n5, abs_le]
    constructor <;> linarith [this.1, this.2, kv.1, kv.2]
  subst hp hq hr
  refine ⟨lid_in dp gp hA hB hh (hX _ _ ?_ ?_) (hQ _ _ ?_ ?_) hs ?_ ?_ ?_ ?_ ?_, lid_in dp gp hA hB hh (hX _ _ ?_ ?_) (hQ _ _ ?_ ?_) hs ?_ ?_ ?_ ?_ ?_,
    lid_off dp gp hA hB hh (hX _ _ ?_ ?_) (hQ _ _ ?_ ?_) hs ?_ ?_ ?_ ?_ ?_⟩ <;> norm_num

end Srep
