import Verif.Lemmas.Err

/-! What is needed of squares and square roots, and that binary64 has it. -/

set_option linter.unusedSectionVars false

namespace Srep
variable {K : Type} [Field K] [LinearOrder K] [IsStrictOrderedRing K] [FloorRing K]

/-- a square and a square root are not much too small (binary64 errs by less than 2⁻⁵²; a rough bound is enough) -/
structure Rt.RootOk (R : Rt K) : Prop where
  sq_ge : ∀ x, x * x / 2 ≤ R.sq x
  sqrt_ge : ∀ x, 0 ≤ x → x / 8 ≤ R.sqrt x * R.sqrt x

theorem sqrt64_ge {q : ℚ} (h : 0 ≤ q) : q / 8 ≤ sqrt64 q * sqrt64 q := by
  unfold sqrt64
  rcases h.eq_or_lt with rfl | h
  · simp
  rw [if_neg (not_le.2 h)]
  dsimp only
  set k : ℤ := 56 - Int.log 2 q / 2
  set n : ℚ := q * 4 ^ k
  set s : ℕ := Nat.sqrt ⌊n⌋.toNat
  set v : ℚ := if ((s : ℚ) * s = n) then s else s + 1 / 2 with hv
  have n0 : 0 < n := mul_pos h (zpow_pos (by norm_num) k)
  have hfl : n < (s + 1 : ℚ) * (s + 1) := by
    have h1 : ⌊n⌋.toNat < (s + 1) * (s + 1) := Nat.lt_succ_sqrt _
    have h2 : n < ⌊n⌋ + 1 := Int.lt_floor_add_one n
    have h3 : ((⌊n⌋.toNat : ℕ) : ℤ) = ⌊n⌋ := Int.toNat_of_nonneg (Int.floor_nonneg.2 n0.le)
    have h4 : (((⌊n⌋.toNat : ℕ) : ℤ) : ℚ) = (⌊n⌋ : ℚ) := by rw [h3]
    have h5 : ((⌊n⌋.toNat : ℕ) : ℚ) + 1 ≤ ((s + 1) * (s + 1) : ℕ) := by exact_mod_cast h1
    push_cast at h4 h5
    linarith
  have hv2 : n / 4 ≤ v * v := by
    rw [hv]
    split_ifs with hc
    · rw [hc]; linarith
    · have s0 : (0 : ℚ) ≤ s := Nat.cast_nonneg _
      nlinarith
  have v0 : 0 ≤ v := by
    rw [hv]; split_ifs <;> positivity
  have e4 : ((4 : ℚ) ^ k) = 2 ^ k * 2 ^ k := by
    rw [← mul_zpow]; norm_num
  have p0 : (0 : ℚ) < 2 ^ k := zpow_pos (by norm_num) k
  have hw : q / 4 ≤ v / 2 ^ k * (v / 2 ^ k) := by
    have : q = n / (2 ^ k * 2 ^ k) := by
      rw [← e4, eq_div_iff (zpow_pos (by norm_num) k).ne']
    rw [this, div_mul_div_comm, div_div, mul_comm _ (4 : ℚ), ← div_div]
    exact div_le_div_of_nonneg_right hv2 (by positivity)
  set w : ℚ := v / 2 ^ k
  have w0 : 0 ≤ w := by positivity
  have hr := (abs_le.1 (fl64_rel w)).1
  rw [abs_of_nonneg w0] at hr
  have : 3 / 4 * w ≤ fl64 w := by
    have : w / 2 ^ 53 ≤ w / 4 := div_le_div_of_nonneg_left w0 (by norm_num) (by norm_num)
    linarith
  have := mul_le_mul this this (by positivity) (fl64_nonneg w0)
  nlinarith

theorem Rt.b64_rootOk (t : Trig ℚ) (h : ℚ → ℚ → Int) : (Rt.b64 t h).RootOk where
  sq_ge x := by
    change x * x / 2 ≤ fl64 (x * x)
    have hr := (abs_le.1 (fl64_rel (x * x))).1
    rw [abs_of_nonneg (mul_self_nonneg x)] at hr
    have : x * x / 2 ^ 53 ≤ x * x / 2 := div_le_div_of_nonneg_left (mul_self_nonneg x) (by norm_num) (by norm_num)
    linarith
  sqrt_ge x h := sqrt64_ge h

theorem Rt.IsExact.rootOk {R : Rt K} (hE : R.IsExact) : R.RootOk where
  sq_ge x := by rw [hE.sq]; nlinarith [mul_self_nonneg x]
  sqrt_ge x h := by rw [hE.sqrt_sq x h]; linarith

/-- a distance below EPS means both coordinates differ by less than 1e-6 -/
theorem distance_small {R : Rt K} (hR : R.IsRounding) (hQ : R.RootOk) {p q : Pt K} (h : R.distance p q < R.eps) :
    |p.x - q.x| < 1 / 10 ^ 6 ∧ |p.y - q.y| < 1 / 10 ^ 6 := by
  have key : ∀ x y : K, R.sqrt (R.add (R.sq (R.fl x)) (R.sq (R.fl y))) < R.eps → |x| < 1 / 10 ^ 6 := by
    intro x y h
    by_contra hc
    have hc := not_lt.1 hc
    have e0 : R.eps ≤ 2 / 10 ^ 8 := by
      have h := hR.rel (1 / 10 ^ 8)
      rw [abs_of_pos (by positivity : (0 : K) < 1 / 10 ^ 8)] at h
      have h := (abs_le.1 h).2
      have e : R.eps = R.fl (1 / 10 ^ 8) := rfl
      rw [e]
      have : (1 / 10 ^ 8 / 2 ^ 53 : K) ≤ 1 / 10 ^ 8 := by norm_num
      linarith
    have f0 : |x| / 2 ≤ |R.fl x| := by
      have h1 := hR.rel x
      have h2 := abs_sub_abs_le_abs_sub x (R.fl x)
      rw [abs_sub_comm] at h2
      have : |x| / 2 ^ 53 ≤ |x| / 2 := div_le_div_of_nonneg_left (abs_nonneg x) (by norm_num) (by norm_num)
      linarith
    have f1 : (1 / 10 ^ 6 / 2) * (1 / 10 ^ 6 / 2) ≤ R.fl x * R.fl x := by
      rw [← abs_mul_abs_self (R.fl x)]
      exact mul_le_mul (by linarith) (by linarith) (by positivity) (abs_nonneg _)
    have f2 := hQ.sq_ge (R.fl x)
    have f3 := hR.sq_nonneg (R.fl y)
    have f4 : (R.sq (R.fl x) + R.sq (R.fl y)) / 2 ≤ R.add (R.sq (R.fl x)) (R.sq (R.fl y)) := by
      have h1 := (abs_le.1 (hR.rel (R.sq (R.fl x) + R.sq (R.fl y)))).1
      have h0 : 0 ≤ R.sq (R.fl x) + R.sq (R.fl y) := add_nonneg (hR.sq_nonneg _) f3
      rw [abs_of_nonneg h0] at h1
      have := div_le_div_of_nonneg_left h0 (by norm_num : (0 : K) < 2) (by norm_num : (2 : K) ≤ 2 ^ 53)
      have e : R.add (R.sq (R.fl x)) (R.sq (R.fl y)) = R.fl (R.sq (R.fl x) + R.sq (R.fl y)) := rfl
      rw [e]
      linarith
    have f5 := hQ.sqrt_ge (R.add (R.sq (R.fl x)) (R.sq (R.fl y))) (by
      have := hR.sq_nonneg (R.fl x); linarith)
    have g0 := hR.sqrt_nonneg (R.add (R.sq (R.fl x)) (R.sq (R.fl y)))
    have g1 := mul_le_mul h.le h.le g0 hR.eps_pos.le
    have g2 := mul_le_mul e0 e0 hR.eps_pos.le (by positivity)
    have n : (1 / 10 ^ 6 / 2 * (1 / 10 ^ 6 / 2) / 2 / 2 / 8 : K) > 2 / 10 ^ 8 * (2 / 10 ^ 8) := by norm_num
    linarith
  constructor
  · exact key _ _ h
  · refine key (p.y - q.y) (p.x - q.x) ?_
    have : R.add (R.sq (R.fl (p.y - q.y))) (R.sq (R.fl (p.x - q.x))) =
        R.add (R.sq (R.sub p.x q.x)) (R.sq (R.sub p.y q.y)) := by rw [hR.add_comm']; rfl
    rw [this]
    exact h

end Srep
