import Verif.Lemmas.Err
import Verif.Spec.Margin

/-! Rounding errors of `intersection_point` and of the box test of `is_internal_point`. -/

set_option linter.unusedSectionVars false

namespace Srep
open Rt
variable {K : Type} [Field K] [LinearOrder K] [IsStrictOrderedRing K] [FloorRing K]

theorem eps_near {R : Rt K} (hR : R.IsRounding) : |R.eps - 1 / 10 ^ 8| ≤ 1 / 10 ^ 8 / 2 ^ 53 := by
  have h := hR.rel (1 / 10 ^ 8)
  rw [abs_of_pos (by positivity : (0 : K) < 1 / 10 ^ 8)] at h
  exact h

theorem tol_le {R : Rt K} (hR : R.IsRounding) : R.tol ≤ 11 / 10 ^ 6 := by
  have h0 := abs_le.1 (eps_near hR)
  have h1 := hR.rel (R.eps * 1000)
  rw [abs_of_pos (a := R.eps * 1000) (mul_pos hR.eps_pos (by norm_num))] at h1
  have h2 := (abs_le.1 h1).2
  have e : R.tol = R.fl (R.eps * 1000) := rfl
  have e1 : R.eps ≤ 1 / 10 ^ 8 + 1 / 10 ^ 8 / 2 ^ 53 := by linarith [h0.2]
  rw [e]
  have : R.eps * 1000 / 2 ^ 53 ≤ R.eps * 1 := by
    rw [mul_div_assoc]
    exact mul_le_mul_of_nonneg_left (by norm_num) hR.eps_pos.le
  have e2 : (1 / 10 ^ 8 + 1 / 10 ^ 8 / 2 ^ 53 : K) * 1001 ≤ 11 / 10 ^ 6 := by norm_num
  nlinarith

theorem sub_eps_near {R : Rt K} (hR : R.IsRounding) {m : K} (hm : |m| ≤ 10 ^ 6) :
    |R.sub m R.eps - (m - 1 / 10 ^ 8)| ≤ 2 / 10 ^ 10 := by
  have h0 := abs_le.1 (eps_near hR)
  have h1 := abs_le.1 (hR.rel (m - R.eps))
  have h2 : |m - R.eps| ≤ 10 ^ 6 + 1 := by
    rw [abs_le] at hm ⊢
    have : (1 / 10 ^ 8 / 2 ^ 53 : K) ≤ 1 / 10 ^ 8 := by norm_num
    have : (1 / 10 ^ 8 : K) ≤ 1 / 4 := by norm_num
    constructor <;> linarith
  have h3 : |m - R.eps| / 2 ^ 53 ≤ (10 ^ 6 + 1) / 2 ^ 53 := div_le_div_of_nonneg_right h2 (by positivity)
  have h4 : ((10 ^ 6 + 1) / 2 ^ 53 : K) + 1 / 10 ^ 8 / 2 ^ 53 ≤ 2 / 10 ^ 10 := by norm_num
  have e : R.sub m R.eps = R.fl (m - R.eps) := rfl
  rw [e, abs_le]
  constructor <;> linarith

theorem add_eps_near {R : Rt K} (hR : R.IsRounding) {m : K} (hm : |m| ≤ 10 ^ 6) :
    |R.add m R.eps - (m + 1 / 10 ^ 8)| ≤ 2 / 10 ^ 10 := by
  have h := sub_eps_near hR (m := -m) (by rwa [abs_neg])
  have e : R.add m R.eps = -R.sub (-m) R.eps := by
    unfold Rt.add Rt.sub; rw [← hR.neg]; congr 1; ring
  rw [e, ← abs_neg]
  convert h using 2; ring

/-- rounding to 8 decimals in rounded arithmetic, for numbers that are not too big -/
theorem coord_near {R : Rt K} (hR : R.IsRounding) {z : K} (hz : |z| ≤ 3 * 10 ^ 6) :
    |R.coord (R.fl z) - z| ≤ 57 / 10 ^ 10 := by
  unfold Rt.coord Rt.round8
  rw [hR.idem]
  have h1 := abs_le.1 (hR.rel z)
  have h2 : |z| / 2 ^ 53 ≤ 3 * 10 ^ 6 / 2 ^ 53 := div_le_div_of_nonneg_right hz (by positivity)
  have h3 := abs_le.1 (abs_rhe8_sub_le (R.fl z))
  have h4 := abs_le.1 (hR.rel (rhe8 (R.fl z)))
  have n1 : (3 * 10 ^ 6 / 2 ^ 53 : K) ≤ 1 / 4 := by norm_num
  have n2 : (1 / (2 * 10 ^ 8) : K) ≤ 1 / 4 := by norm_num
  have h5 : |rhe8 (R.fl z)| ≤ 3 * 10 ^ 6 + 1 := by
    rw [abs_le] at hz ⊢; constructor <;> linarith
  have h6 : |rhe8 (R.fl z)| / 2 ^ 53 ≤ (3 * 10 ^ 6 + 1) / 2 ^ 53 := div_le_div_of_nonneg_right h5 (by positivity)
  have n3 : (3 * 10 ^ 6 / 2 ^ 53 : K) + 1 / (2 * 10 ^ 8) + (3 * 10 ^ 6 + 1) / 2 ^ 53 ≤ 57 / 10 ^ 10 := by norm_num
  rw [abs_le]
  constructor <;> linarith

/-- the error of a quotient -/
theorem quot_near {N D X N' D' a b : K} (ha : 1 / 10 ^ 6 ≤ a) (hb : a ≤ b) (hX : X * D = N)
    (hN : |N' - N| ≤ 8 * (a * a * b) / 2 ^ 50) (hD : |D' - D| ≤ 8 * (a * b) / 2 ^ 50)
    (hs : a * a * b ≤ 2 ^ 15 * |D|) : D' ≠ 0 ∧ |N' / D' - X| * a ≤ (a + |X|) / 2 ^ 31 := by
  have a0 : 0 < a := lt_of_lt_of_le (by positivity) ha
  have b0 : 0 < b := a0.trans_le hb
  have hab : 0 < a * b := mul_pos a0 b0
  -- the error of the denominator is small
  have h1 : a * b ≤ 2 ^ 15 * 10 ^ 6 * |D| := by
    have : a * b * 1 ≤ a * b * (a * 10 ^ 6) := by
      apply mul_le_mul_of_nonneg_left _ hab.le
      have : (1 / 10 ^ 6 : K) * 10 ^ 6 = 1 := by norm_num
      nlinarith
    nlinarith
  have hDpos : 0 < |D| := by
    by_contra h
    have : |D| ≤ 0 := not_lt.1 h
    nlinarith
  have h2 : |D' - D| ≤ |D| / 2 := by
    refine hD.trans ?_
    have : 8 * (a * b) / 2 ^ 50 ≤ 8 * (2 ^ 15 * 10 ^ 6 * |D|) / 2 ^ 50 :=
      div_le_div_of_nonneg_right (by linarith) (by positivity)
    refine this.trans ?_
    have : 8 * (2 ^ 15 * 10 ^ 6 * |D|) / 2 ^ 50 = (8 * (2 ^ 15 * 10 ^ 6) / 2 ^ 50) * |D| := by ring
    rw [this]
    have n : (8 * (2 ^ 15 * 10 ^ 6) / 2 ^ 50 : K) ≤ 1 / 2 := by norm_num
    nlinarith
  have h3 : |D| / 2 ≤ |D'| := by
    have := abs_sub_abs_le_abs_sub D D'
    rw [abs_sub_comm] at this
    linarith
  have hD'pos : 0 < |D'| := by linarith
  have hD' : D' ≠ 0 := abs_pos.1 hD'pos
  refine ⟨hD', ?_⟩
  have e : N' / D' - X = (N' - X * D') / D' := by field_simp
  rw [e, abs_div]
  have h4 : |N' - X * D'| ≤ 8 * (a * b) / 2 ^ 50 * (a + |X|) := by
    have e : N' - X * D' = (N' - N) - X * (D' - D) := by rw [← hX]; ring
    rw [e]
    refine (abs_sub _ _).trans ?_
    rw [abs_mul]
    have := mul_le_mul_of_nonneg_left hD (abs_nonneg X)
    calc _ ≤ 8 * (a * a * b) / 2 ^ 50 + |X| * (8 * (a * b) / 2 ^ 50) := by linarith
      _ = _ := by ring
  rw [div_mul_eq_mul_div, div_le_iff₀ hD'pos]
  have h5 : 0 ≤ a + |X| := by have := abs_nonneg X; linarith
  calc |N' - X * D'| * a ≤ 8 * (a * b) / 2 ^ 50 * (a + |X|) * a := mul_le_mul_of_nonneg_right h4 a0.le
    _ = (a + |X|) * (8 / 2 ^ 50) * (a * a * b) := by ring
    _ ≤ (a + |X|) * (8 / 2 ^ 50) * (2 ^ 15 * (2 * |D'|)) := by
        apply mul_le_mul_of_nonneg_left _ (by positivity)
        linarith
    _ = _ := by ring

/-- the stored coordinate of the computed common point -/
theorem coord_quot {R : Rt K} (hR : R.IsRounding) {N D X N' D' a b : K} (ha : 1 / 10 ^ 6 ≤ a) (hb : a ≤ b) (hb' : b ≤ 10 ^ 6)
    (hX : X * D = N) (hN : |N' - N| ≤ 8 * (a * a * b) / 2 ^ 50) (hD : |D' - D| ≤ 8 * (a * b) / 2 ^ 50)
    (hs : a * a * b ≤ 2 ^ 15 * |D|) :
    (|X| ≤ 2 * a → |R.coord (R.div N' D') - X| ≤ 71 / 10 ^ 10) ∧
    (2 * a < X → 3 / 2 * a < R.coord (R.div N' D')) ∧ (X < -(2 * a) → R.coord (R.div N' D') < -(3 / 2 * a)) := by
  obtain ⟨-, h⟩ := quot_near ha hb hX hN hD hs
  have a0 : 0 < a := lt_of_lt_of_le (by positivity) ha
  have e : R.div N' D' = R.fl (N' / D') := rfl
  rw [e]
  set z := N' / D'
  have big : ∀ z' : K, 9 / 5 * a ≤ z' → 3 / 2 * a < R.coord (R.fl z') := by
    intro z' hz
    have h1 := hR.coord_mono (hR.mono hz)
    have h2 := abs_le.1 (coord_near hR (z := 9 / 5 * a) (by rw [abs_of_pos (by positivity)]; linarith))
    have : (57 / 10 ^ 10 : K) < 3 / 10 * (1 / 10 ^ 6) := by norm_num
    linarith
  refine ⟨?_, ?_, ?_⟩
  · intro hx
    have h1 : |z - X| ≤ 3 / 2 ^ 31 := by
      by_contra hc
      have : 3 / 2 ^ 31 * a < |z - X| * a := mul_lt_mul_of_pos_right (not_le.1 hc) a0
      have : (a + |X|) / 2 ^ 31 ≤ 3 / 2 ^ 31 * a := by
        rw [div_mul_eq_mul_div]
        exact div_le_div_of_nonneg_right (by linarith) (by positivity)
      linarith
    have n1 : (3 / 2 ^ 31 : K) ≤ 1 / 4 := by norm_num
    have h2 := abs_le.1 h1
    have h3 : |z| ≤ 3 * 10 ^ 6 := by
      rw [abs_le] at hx ⊢
      have : a ≤ 10 ^ 6 := hb.trans hb'
      constructor <;> linarith
    have h4 := abs_le.1 (coord_near hR h3)
    have n2 : (3 / 2 ^ 31 : K) + 57 / 10 ^ 10 ≤ 71 / 10 ^ 10 := by norm_num
    rw [abs_le]
    constructor <;> linarith
  · intro hx
    apply big
    by_contra hc
    have hc := not_le.1 hc
    have h1 : X - z ≤ |z - X| := by rw [abs_sub_comm]; exact le_abs_self _
    have h2 : (X - z) * a ≤ (a + X) / 2 ^ 31 := by
      have := mul_le_mul_of_nonneg_right h1 a0.le
      rw [abs_of_pos (by linarith : 0 < X)] at h
      linarith
    have n : (1 / 2 ^ 31 : K) ≤ 1 / 1000 * (1 / 10 ^ 6) := by norm_num
    have h3 : (a + X) / 2 ^ 31 ≤ (a + X) * (1 / 1000 * a) := by
      rw [div_eq_mul_one_div]
      exact mul_le_mul_of_nonneg_left (by linarith) (by linarith)
    have h4 : X - z ≤ (a + X) * (1 / 1000) := by
      by_contra hc'
      have := mul_lt_mul_of_pos_right (not_le.1 hc') a0
      linarith
    linarith
  · intro hx
    have : 3 / 2 * a < R.coord (R.fl (-z)) := by
      apply big
      by_contra hc
      have hc := not_le.1 hc
      have h1 : z - X ≤ |z - X| := le_abs_self _
      have h2 : (z - X) * a ≤ (a + -X) / 2 ^ 31 := by
        have := mul_le_mul_of_nonneg_right h1 a0.le
        rw [abs_of_neg (by linarith : X < 0)] at h
        linarith
      have n : (1 / 2 ^ 31 : K) ≤ 1 / 1000 * (1 / 10 ^ 6) := by norm_num
      have h3 : (a + -X) / 2 ^ 31 ≤ (a + -X) * (1 / 1000 * a) := by
        rw [div_eq_mul_one_div]
        exact mul_le_mul_of_nonneg_left (by linarith) (by linarith)
      have h4 : z - X ≤ (a + -X) * (1 / 1000) := by
        by_contra hc'
        have := mul_lt_mul_of_pos_right (not_le.1 hc') a0
        linarith
      linarith
    rw [hR.neg, hR.coord_neg] at this
    linarith

end Srep
