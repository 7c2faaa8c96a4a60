import Verif.Spec.Head
import Verif.Props.Arc

/-! The geometry of the outline of a torispherical head. -/

namespace Srep
open Real

namespace HeadShape
variable (s : HeadShape)

theorem w_pos : 0 < s.r1 - s.r2 := by have := s.dish; have := s.half; linarith

theorem sinA_pos : 0 < s.sinA := by
  have := s.half
  exact div_pos (by linarith) s.w_pos

theorem sinA_lt : s.sinA < 1 := by
  have := s.dish
  unfold sinA
  rw [div_lt_one s.w_pos]
  linarith

/-- half the opening angle in radians -/
noncomputable def A : ℝ := arcsin s.sinA

theorem sin_A : sin s.A = s.sinA := sin_arcsin (by have := s.sinA_pos; linarith) s.sinA_lt.le

theorem A_pos : 0 < s.A := arcsin_pos.2 s.sinA_pos

theorem A_lt : s.A < π / 2 := by
  rw [A, arcsin_lt_pi_div_two]
  exact s.sinA_lt

theorem cos_A_pos : 0 < cos s.A := cos_pos_of_mem_Ioo ⟨by have := s.A_pos; have := pi_pos; linarith, s.A_lt⟩

theorem al_rad : s.al * (π / 180) = s.A := by
  unfold al A
  have := pi_pos.ne'
  field_simp

theorem al_pos : 0 < s.al := mul_pos s.A_pos (by have := pi_pos; positivity)

theorem al_lt : s.al < 90 := by
  have h := s.A_lt
  have hp := pi_pos
  rw [← al_rad] at h
  by_contra hc
  push Not at hc
  have : 90 * (π / 180) ≤ s.al * (π / 180) := mul_le_mul_of_nonneg_right hc (by positivity)
  linarith

theorem w_sin : (s.r1 - s.r2) * sin s.A = 1 / 2 - s.r2 := by
  rw [sin_A, sinA]
  have := s.w_pos.ne'
  field_simp

theorem rad_90 : (90 : ℝ) * (π / 180) = π / 2 := by ring

theorem rad_180 : (180 : ℝ) * (π / 180) = π := by ring

/-- the end of the right knuckle is the start of the dish -/
theorem joint_right (d h1 : ℝ) : onCircle (d / 2 - s.r2 * d) h1 (s.r2 * d) (90 - s.al) =
    onCircle 0 (h1 - s.depth * d) (s.r1 * d) (90 - s.al) := by
  unfold onCircle depth
  rw [sub_mul, rad_90, al_rad, cos_pi_div_two_sub, sin_pi_div_two_sub, ← A]
  have := s.w_sin
  congr 1
  · linear_combination (-d) * this
  · ring

/-- the end of the dish is the start of the left knuckle -/
theorem joint_left (d h1 : ℝ) : onCircle (-(d / 2 - s.r2 * d)) h1 (s.r2 * d) (90 + s.al) =
    onCircle 0 (h1 - s.depth * d) (s.r1 * d) (90 + s.al) := by
  unfold onCircle depth
  rw [add_mul, rad_90, al_rad, ← A, add_comm (π / 2), cos_add_pi_div_two, sin_add_pi_div_two]
  have := s.w_sin
  congr 1
  · linear_combination d * this
  · ring

theorem foot_right (d h1 : ℝ) : onCircle (d / 2 - s.r2 * d) h1 (s.r2 * d) 0 = ⟨d / 2, h1⟩ := by
  unfold onCircle
  simp

theorem foot_left (d h1 : ℝ) : onCircle (-(d / 2 - s.r2 * d)) h1 (s.r2 * d) 180 = ⟨-(d / 2), h1⟩ := by
  unfold onCircle
  rw [rad_180]
  simp
  ring

theorem vertex_right (d h1 : ℝ) {k : ℕ} (hk : k ≤ 3) :
    s.vertex d h1 (1 + k) = onCircle (d / 2 - s.r2 * d) h1 (s.r2 * d) (k * ((90 - s.al) / 3)) := by
  unfold vertex
  rw [if_neg (by omega)]
  by_cases h : 1 + k < 4
  · rw [if_pos h]; simp
  · have : k = 3 := by omega
    subst this
    rw [if_neg h, if_pos (by omega)]
    have e1 : ((3 : ℕ) : ℝ) * ((90 - s.al) / 3) = 90 - s.al := by push_cast; ring
    rw [e1, joint_right]
    simp

theorem vertex_dish (d h1 : ℝ) {k : ℕ} (hk : k ≤ 8) :
    s.vertex d h1 (4 + k) = onCircle 0 (h1 - s.depth * d) (s.r1 * d) (90 - s.al + k * (s.al / 4)) := by
  unfold vertex
  rw [if_neg (by omega), if_neg (by omega)]
  by_cases h : 4 + k < 12
  · rw [if_pos h]; simp
  · have : k = 8 := by omega
    subst this
    rw [if_neg h, if_pos (by omega)]
    have e1 : 90 - s.al + ((8 : ℕ) : ℝ) * (s.al / 4) = 90 + s.al := by push_cast; ring
    rw [e1, ← joint_left]
    simp

theorem vertex_left (d h1 : ℝ) {k : ℕ} (hk : k ≤ 3) :
    s.vertex d h1 (12 + k) = onCircle (-(d / 2 - s.r2 * d)) h1 (s.r2 * d) (90 + s.al + k * ((90 - s.al) / 3)) := by
  unfold vertex
  rw [if_neg (by omega), if_neg (by omega), if_neg (by omega), if_pos (by omega)]
  simp

theorem vertex_zero (d h1 : ℝ) : s.vertex d h1 0 = ⟨d / 2, 0⟩ := rfl

theorem vertex_one (d h1 : ℝ) : s.vertex d h1 1 = ⟨d / 2, h1⟩ := by
  have := s.vertex_right d h1 (k := 0) (by simp)
  rw [show (1 : ℕ) + 0 = 1 from rfl] at this
  rw [this, ← s.foot_right d h1]
  simp

theorem vertex_fifteen (d h1 : ℝ) : s.vertex d h1 15 = ⟨-(d / 2), h1⟩ := by
  have := s.vertex_left d h1 (k := 3) (by simp)
  rw [show (12 : ℕ) + 3 = 15 from rfl] at this
  rw [this, ← s.foot_left d h1]
  congr 1
  push_cast
  ring

theorem vertex_sixteen (d h1 : ℝ) : s.vertex d h1 16 = ⟨-(d / 2), 0⟩ := rfl

/-- the opening angle of a knuckle in radians -/
noncomputable def D : ℝ := π / 2 - s.A

theorem D_pos : 0 < s.D := by have := s.A_lt; unfold D; linarith

theorem D_lt : s.D < π / 2 := by have := s.A_pos; unfold D; linarith

theorem sin_D : sin s.D = cos s.A := by unfold D; rw [sin_pi_div_two_sub]

/-- the sine of a fraction of an angle -/
theorem sin_div {x : ℝ} (h0 : 0 ≤ x) (h1 : x ≤ π) (n : ℕ) (hn : 0 < n) : sin x / n ≤ sin (x / n) := by
  have hc := strictConcaveOn_sin_Icc.concaveOn
  have hn' : (0 : ℝ) < n := by exact_mod_cast hn
  have hn1 : (1 : ℝ) ≤ n := by exact_mod_cast hn
  have hle : 1 / (n : ℝ) ≤ 1 := by rw [div_le_one hn']; exact hn1
  have hn0 : 0 ≤ 1 / (n : ℝ) := by positivity
  have := hc.right (show (0 : ℝ) ∈ Set.Icc 0 π from ⟨le_refl _, pi_pos.le⟩) (show x ∈ Set.Icc 0 π from ⟨h0, h1⟩)
    (show 0 ≤ 1 - 1 / (n : ℝ) by linarith) hn0 (by ring)
  simp only [smul_eq_mul, sin_zero, mul_zero, zero_add] at this
  rw [show x / n = 1 / n * x by ring, show sin x / n = 1 / n * sin x by ring]
  exact this

/-- how far the vertices of a head of diameter 1 are apart horizontally -/
noncomputable def step : ℝ := min (s.r1 * (cos s.A * s.sinA / 4)) (s.r2 * (cos s.A ^ 2 / 18))

theorem step_pos : 0 < s.step := by
  have h1 := s.cos_A_pos
  have h2 := s.sinA_pos
  have h3 := s.pos
  have h4 := s.dish
  exact lt_min (mul_pos (by linarith) (by positivity)) (by positivity)

/-- the vertices from the right to the left -/
theorem vertex_step {d h1 : ℝ} (hd : 0 < d) {k : ℕ} (h0 : 1 ≤ k) (hk : k < 15) :
    (s.vertex d h1 (k + 1)).x + s.step * d ≤ (s.vertex d h1 k).x := by
  have hp := pi_pos
  have hA := s.A_pos
  have hA' := s.A_lt
  have hD := s.D_pos
  have hD' := s.D_lt
  have e90 : 90 * (π / 180) = π / 2 := rad_90
  have hal := s.al_rad
  have h2 := s.pos
  have h1' := s.dish
  -- the knuckle
  have kn : ∀ j : ℕ, j < 3 → s.step ≤ s.r2 * (cos (j * (s.D / 3)) - cos ((j + 1 : ℕ) * (s.D / 3))) := by
    intro j hj
    refine (min_le_right _ _).trans (mul_le_mul_of_nonneg_left ?_ h2.le)
    rw [cos_sub_cos]
    have hj0 : (0 : ℝ) ≤ j := Nat.cast_nonneg j
    have hj2 : (j : ℝ) ≤ 2 := by exact_mod_cast Nat.lt_succ_iff.1 hj
    have x1 : (j * (s.D / 3) + (j + 1 : ℕ) * (s.D / 3)) / 2 = s.D / 6 + j * (s.D / 3) := by push_cast; ring
    have x2 : (j * (s.D / 3) - (j + 1 : ℕ) * (s.D / 3)) / 2 = -(s.D / 6) := by push_cast; ring
    rw [x1, x2, sin_neg]
    have b1 := sin_div hD.le (by linarith) 6 (by norm_num)
    rw [sin_D] at b1
    push_cast at b1
    have b2 : sin (s.D / 6) ≤ sin (s.D / 6 + j * (s.D / 3)) := by
      apply sin_le_sin_of_le_of_le_pi_div_two <;> nlinarith
    have := s.cos_A_pos
    nlinarith
  -- the dish
  have di : ∀ j : ℕ, j < 8 → s.step ≤ s.r1 * (sin (s.A - j * (s.A / 4)) - sin (s.A - (j + 1 : ℕ) * (s.A / 4))) := by
    intro j hj
    refine (min_le_left _ _).trans (mul_le_mul_of_nonneg_left ?_ (by linarith))
    rw [sin_sub_sin]
    have hj0 : (0 : ℝ) ≤ j := Nat.cast_nonneg j
    have hj2 : (j : ℝ) ≤ 7 := by exact_mod_cast Nat.lt_succ_iff.1 hj
    have x1 : (s.A - j * (s.A / 4) + (s.A - (j + 1 : ℕ) * (s.A / 4))) / 2 = s.A * (7 / 8 - j / 4) := by push_cast; ring
    have x2 : (s.A - j * (s.A / 4) - (s.A - (j + 1 : ℕ) * (s.A / 4))) / 2 = s.A / 8 := by push_cast; ring
    rw [x1, x2]
    have b1 := sin_div hA.le (by linarith) 8 (by norm_num)
    rw [sin_A] at b1
    push_cast at b1
    have b2 : cos s.A ≤ cos (s.A * (7 / 8 - j / 4)) := by
      rw [← cos_abs (s.A * (7 / 8 - j / 4))]
      apply cos_le_cos_of_nonneg_of_le_pi (abs_nonneg _) (by linarith)
      rw [abs_le]
      constructor <;> nlinarith
    have := s.cos_A_pos
    have := s.sinA_pos
    nlinarith
  by_cases hk4 : k < 4
  · obtain ⟨j, rfl⟩ := Nat.exists_eq_add_of_le h0
    rw [show 1 + j + 1 = 1 + (j + 1) by ring, s.vertex_right d h1 (by omega), s.vertex_right d h1 (by omega)]
    have := kn j (by omega)
    have e : ∀ i : ℕ, (i : ℝ) * ((90 - s.al) / 3) * (π / 180) = i * (s.D / 3) := by
      intro i
      unfold D
      linear_combination (i / 3 : ℝ) * e90 - (i / 3 : ℝ) * hal
    simp only [onCircle, e]
    nlinarith
  · by_cases hk12 : k < 12
    · obtain ⟨j, rfl⟩ := Nat.exists_eq_add_of_le (not_lt.1 hk4)
      rw [show 4 + j + 1 = 4 + (j + 1) by ring, s.vertex_dish d h1 (by omega), s.vertex_dish d h1 (by omega)]
      have := di j (by omega)
      have e : ∀ i : ℕ, (90 - s.al + (i : ℝ) * (s.al / 4)) * (π / 180) = π / 2 - (s.A - i * (s.A / 4)) := by
        intro i
        linear_combination e90 - (1 - i / 4 : ℝ) * hal
      simp only [onCircle, e, cos_pi_div_two_sub]
      nlinarith
    · obtain ⟨j, rfl⟩ := Nat.exists_eq_add_of_le (not_lt.1 hk12)
      rw [show 12 + j + 1 = 12 + (j + 1) by ring, s.vertex_left d h1 (by omega), s.vertex_left d h1 (by omega)]
      have := kn (2 - j) (by omega)
      have e : ∀ i : ℕ, i ≤ 3 → (90 + s.al + (i : ℝ) * ((90 - s.al) / 3)) * (π / 180) = π - (3 - i : ℕ) * (s.D / 3) := by
        intro i hi
        rw [Nat.cast_sub hi]
        unfold D
        push_cast
        linear_combination (1 + i / 3 : ℝ) * e90 + (1 - i / 3 : ℝ) * hal
      simp only [onCircle]
      rw [e j (by omega), e (j + 1) (by omega), cos_pi_sub, cos_pi_sub]
      rw [show 2 - j = 3 - (j + 1) by omega, show 3 - (j + 1) + 1 = 3 - j by omega] at this
      nlinarith

theorem vertex_mono {d h1 : ℝ} (hd : 0 < d) {j k : ℕ} (h0 : 1 ≤ j) (hjk : j < k) (hk : k ≤ 15) :
    (s.vertex d h1 k).x + s.step * d ≤ (s.vertex d h1 j).x := by
  have hsd := mul_pos s.step_pos hd
  induction k, hjk using Nat.le_induction with
  | base => exact s.vertex_step hd h0 (by omega)
  | succ k hjk ih =>
    have h3 := ih (by omega)
    have h2 := s.vertex_step (h1 := h1) hd (k := k) (by omega) (by omega)
    linarith

/-- the vertices of the curved part are not below the cylinders -/
theorem vertex_y {d h1 : ℝ} (hd : 0 < d) {k : ℕ} (h0 : 1 ≤ k) (hk : k ≤ 15) : h1 ≤ (s.vertex d h1 k).y := by
  have hp := pi_pos
  have hA := s.A_pos
  have hA' := s.A_lt
  have hal := s.al_rad
  have e90 : 90 * (π / 180) = π / 2 := rad_90
  have h2 := s.pos
  have h1' := s.dish
  have hal0 := s.al_pos
  have hal1 := s.al_lt
  have up : ∀ x : ℝ, 0 ≤ x → x ≤ 180 → 0 ≤ sin (x * (π / 180)) := by
    intro x hx hx'
    apply sin_nonneg_of_nonneg_of_le_pi (by positivity)
    nlinarith
  by_cases hk4 : k ≤ 4
  · obtain ⟨j, rfl⟩ := Nat.exists_eq_add_of_le h0
    rw [s.vertex_right d h1 (by omega)]
    have hj : (j : ℝ) ≤ 3 := by
      have : j ≤ 3 := by omega
      exact_mod_cast this
    have := up (j * ((90 - s.al) / 3)) (mul_nonneg (Nat.cast_nonneg j) (by linarith)) (by nlinarith)
    simp only [onCircle]
    have : 0 ≤ s.r2 * d * sin (j * ((90 - s.al) / 3) * (π / 180)) := by positivity
    linarith
  · by_cases hk12 : k ≤ 12
    · obtain ⟨j, rfl⟩ := Nat.exists_eq_add_of_le (le_of_lt (not_le.1 hk4))
      rw [s.vertex_dish d h1 (by omega)]
      have hj : (j : ℝ) ≤ 8 := by
        have : j ≤ 8 := by omega
        exact_mod_cast this
      have hj0 : (0 : ℝ) ≤ j := Nat.cast_nonneg j
      have e : (90 - s.al + (j : ℝ) * (s.al / 4)) * (π / 180) = π / 2 - (s.A - j * (s.A / 4)) := by
        linear_combination e90 - (1 - j / 4 : ℝ) * hal
      simp only [onCircle, e, sin_pi_div_two_sub]
      have b2 : cos s.A ≤ cos (s.A - j * (s.A / 4)) := by
        rw [← cos_abs (s.A - j * (s.A / 4))]
        apply cos_le_cos_of_nonneg_of_le_pi (abs_nonneg _) (by linarith)
        rw [abs_le]
        constructor <;> nlinarith
      have : s.depth = (s.r1 - s.r2) * cos s.A := rfl
      rw [this]
      have := s.cos_A_pos
      have c1 : s.r1 * d * cos s.A ≤ s.r1 * d * cos (s.A - j * (s.A / 4)) := mul_le_mul_of_nonneg_left b2 (by nlinarith)
      have c2 : 0 < s.r2 * d * cos s.A := by positivity
      nlinarith
    · obtain ⟨j, rfl⟩ := Nat.exists_eq_add_of_le (le_of_lt (not_le.1 hk12))
      rw [s.vertex_left d h1 (by omega)]
      have hj : (j : ℝ) ≤ 3 := by
        have : j ≤ 3 := by omega
        exact_mod_cast this
      have hj0 : (0 : ℝ) ≤ j := Nat.cast_nonneg j
      have := up (90 + s.al + j * ((90 - s.al) / 3)) (by nlinarith) (by nlinarith)
      simp only [onCircle]
      have : 0 ≤ s.r2 * d * sin ((90 + s.al + j * ((90 - s.al) / 3)) * (π / 180)) := by positivity
      linarith

/-- all vertices are apart -/
theorem vertex_apart {d h1 e : ℝ} (hd : 0 < d) (h1e : e ≤ h1) (hde : e ≤ d) (hs : e ≤ s.step * d) {j k : ℕ} (hj : j ≤ 16) (hk : k ≤ 16) (hjk : j ≠ k) :
    e ≤ |(s.vertex d h1 j).x - (s.vertex d h1 k).x| ∨ e ≤ |(s.vertex d h1 j).y - (s.vertex d h1 k).y| := by
  have key : ∀ j k, j < k → k ≤ 16 →
      e ≤ |(s.vertex d h1 j).x - (s.vertex d h1 k).x| ∨ e ≤ |(s.vertex d h1 j).y - (s.vertex d h1 k).y| := by
    intro j k hjk hk
    rcases Nat.eq_zero_or_pos j with rfl | h0
    · by_cases h16 : k = 16
      · subst h16
        left
        rw [vertex_zero, vertex_sixteen]
        simp only [sub_neg_eq_add, add_halves]
        exact hde.trans (le_abs_self _)
      · right
        have := s.vertex_y (h1 := h1) hd (k := k) hjk (by omega)
        rw [vertex_zero, abs_sub_comm]
        refine le_trans ?_ (le_abs_self _)
        simp only [sub_zero]
        linarith
    · by_cases h16 : k = 16
      · subst h16
        right
        have := s.vertex_y (h1 := h1) hd (k := j) h0 (by omega)
        rw [vertex_sixteen]
        refine le_trans ?_ (le_abs_self _)
        simp only [sub_zero]
        linarith
      · left
        have := s.vertex_mono (h1 := h1) hd h0 hjk (by omega)
        refine le_trans ?_ (le_abs_self _)
        linarith
  rcases Nat.lt_or_gt_of_ne hjk with h | h
  · exact key j k h hk
  · rw [abs_sub_comm, abs_sub_comm (s.vertex d h1 j).y]
    exact key k j h hj

end HeadShape
end Srep
