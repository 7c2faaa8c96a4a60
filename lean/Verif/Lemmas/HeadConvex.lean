import Verif.Props.HeadOutline
import Verif.Spec.Ray

/-! Torispherical heads are convex: every side turns to the left of the sides before it. -/

set_option linter.unusedSectionVars false

namespace Srep
open Real

namespace HeadShape
variable (s : HeadShape)

/-- the angle of the normal of side `k`, for the sides 0 to 15 -/
noncomputable def phi (k : ℕ) : ℝ :=
  if k = 0 then 0
  else if k < 4 then ((k - 1 : ℕ) + 1 / 2) * (s.D / 3)
  else if k < 12 then s.D + ((k - 4 : ℕ) + 1 / 2) * (s.A / 4)
  else if k < 15 then s.D + 2 * s.A + ((k - 12 : ℕ) + 1 / 2) * (s.D / 3)
  else π

/-- the length of side `k`, for the sides 0 to 15 -/
noncomputable def rho (d h1 : ℝ) (k : ℕ) : ℝ :=
  if k = 0 then h1
  else if k < 4 then 2 * (s.r2 * d) * sin (s.D / 6)
  else if k < 12 then 2 * (s.r1 * d) * sin (s.A / 8)
  else if k < 15 then 2 * (s.r2 * d) * sin (s.D / 6)
  else h1

/-- a chord -/
theorem chord (px py r a b : ℝ) :
    (onCircle px py r b).x - (onCircle px py r a).x = -(2 * r * sin ((b - a) / 2 * (π / 180))) * sin ((a + b) / 2 * (π / 180)) ∧
    (onCircle px py r b).y - (onCircle px py r a).y = 2 * r * sin ((b - a) / 2 * (π / 180)) * cos ((a + b) / 2 * (π / 180)) := by
  have h1 := cos_sub_cos (b * (π / 180)) (a * (π / 180))
  have h2 := sin_sub_sin (b * (π / 180)) (a * (π / 180))
  have e1 : (b * (π / 180) - a * (π / 180)) / 2 = (b - a) / 2 * (π / 180) := by ring
  have e2 : (b * (π / 180) + a * (π / 180)) / 2 = (a + b) / 2 * (π / 180) := by ring
  rw [e1, e2] at h1 h2
  simp only [onCircle]
  constructor
  · linear_combination r * h1
  · linear_combination r * h2

theorem side (d h1 : ℝ) {k : ℕ} (hk : k ≤ 15) :
    (s.vertex d h1 (k + 1)).x - (s.vertex d h1 k).x = -(s.rho d h1 k) * sin (s.phi k) ∧
    (s.vertex d h1 (k + 1)).y - (s.vertex d h1 k).y = s.rho d h1 k * cos (s.phi k) := by
  have hal := s.al_rad
  have e90 : 90 * (π / 180) = π / 2 := rad_90
  by_cases h0 : k = 0
  · subst h0
    rw [show (0 : ℕ) + 1 = 1 from rfl, s.vertex_zero, s.vertex_one]
    simp [phi, rho]
  by_cases h4 : k < 4
  · obtain ⟨j, rfl⟩ := Nat.exists_eq_add_of_le (Nat.pos_of_ne_zero h0)
    rw [show Nat.succ 0 + j = 1 + j from by omega] at *
    rw [show 1 + j + 1 = 1 + (j + 1) by ring, s.vertex_right d h1 (by omega), s.vertex_right d h1 (by omega)]
    have hc := chord (d / 2 - s.r2 * d) h1 (s.r2 * d) (j * ((90 - s.al) / 3)) ((j + 1 : ℕ) * ((90 - s.al) / 3))
    have e1 : (((j + 1 : ℕ) : ℝ) * ((90 - s.al) / 3) - j * ((90 - s.al) / 3)) / 2 * (π / 180) = s.D / 6 := by
      push_cast; unfold D
      linear_combination (1 / 6 : ℝ) * e90 - (1 / 6 : ℝ) * hal
    have e2 : ((j : ℝ) * ((90 - s.al) / 3) + ((j + 1 : ℕ) : ℝ) * ((90 - s.al) / 3)) / 2 * (π / 180) = s.phi (1 + j) := by
      unfold phi
      rw [if_neg h0, if_pos h4, show 1 + j - 1 = j by omega]
      push_cast; unfold D
      linear_combination ((j + 1 / 2) / 3 : ℝ) * e90 - ((j + 1 / 2) / 3 : ℝ) * hal
    rw [e1, e2] at hc
    have e3 : s.rho d h1 (1 + j) = 2 * (s.r2 * d) * sin (s.D / 6) := by unfold rho; rw [if_neg h0, if_pos h4]
    rw [e3]
    exact hc
  by_cases h12 : k < 12
  · obtain ⟨j, rfl⟩ := Nat.exists_eq_add_of_le (not_lt.1 h4)
    rw [show 4 + j + 1 = 4 + (j + 1) by ring, s.vertex_dish d h1 (by omega), s.vertex_dish d h1 (by omega)]
    have hc := chord 0 (h1 - s.depth * d) (s.r1 * d) (90 - s.al + j * (s.al / 4)) (90 - s.al + (j + 1 : ℕ) * (s.al / 4))
    have e1 : (90 - s.al + ((j + 1 : ℕ) : ℝ) * (s.al / 4) - (90 - s.al + j * (s.al / 4))) / 2 * (π / 180) = s.A / 8 := by
      push_cast
      linear_combination (1 / 8 : ℝ) * hal
    have e2 : (90 - s.al + (j : ℝ) * (s.al / 4) + (90 - s.al + ((j + 1 : ℕ) : ℝ) * (s.al / 4))) / 2 * (π / 180) = s.phi (4 + j) := by
      unfold phi
      rw [if_neg h0, if_neg h4, if_pos h12, show 4 + j - 4 = j by omega]
      push_cast; unfold D
      linear_combination e90 - (1 - (j + 1 / 2) / 4 : ℝ) * hal
    rw [e1, e2] at hc
    have e3 : s.rho d h1 (4 + j) = 2 * (s.r1 * d) * sin (s.A / 8) := by unfold rho; rw [if_neg h0, if_neg h4, if_pos h12]
    rw [e3]
    exact hc
  by_cases h15 : k < 15
  · obtain ⟨j, rfl⟩ := Nat.exists_eq_add_of_le (not_lt.1 h12)
    rw [show 12 + j + 1 = 12 + (j + 1) by ring, s.vertex_left d h1 (by omega), s.vertex_left d h1 (by omega)]
    have hc := chord (-(d / 2 - s.r2 * d)) h1 (s.r2 * d) (90 + s.al + j * ((90 - s.al) / 3)) (90 + s.al + (j + 1 : ℕ) * ((90 - s.al) / 3))
    have e1 : (90 + s.al + ((j + 1 : ℕ) : ℝ) * ((90 - s.al) / 3) - (90 + s.al + j * ((90 - s.al) / 3))) / 2 * (π / 180) = s.D / 6 := by
      push_cast; unfold D
      linear_combination (1 / 6 : ℝ) * e90 - (1 / 6 : ℝ) * hal
    have e2 : (90 + s.al + (j : ℝ) * ((90 - s.al) / 3) + (90 + s.al + ((j + 1 : ℕ) : ℝ) * ((90 - s.al) / 3))) / 2 * (π / 180) =
        s.phi (12 + j) := by
      unfold phi
      rw [if_neg h0, if_neg h4, if_neg h12, if_pos h15, show 12 + j - 12 = j by omega]
      push_cast; unfold D
      linear_combination (1 + (j + 1 / 2) / 3 : ℝ) * e90 + (1 - (j + 1 / 2) / 3 : ℝ) * hal
    rw [e1, e2] at hc
    have e3 : s.rho d h1 (12 + j) = 2 * (s.r2 * d) * sin (s.D / 6) := by
      unfold rho; rw [if_neg h0, if_neg h4, if_neg h12, if_pos h15]
    rw [e3]
    exact hc
  · have : k = 15 := by omega
    subst this
    rw [show (15 : ℕ) + 1 = 16 from rfl, s.vertex_fifteen, s.vertex_sixteen]
    simp [phi, rho]

/-- the least turn from a side to the next -/
noncomputable def turn : ℝ := min (s.D / 6) (s.A / 4)

theorem turn_pos : 0 < s.turn := lt_min (by have := s.D_pos; linarith) (by have := s.A_pos; linarith)

theorem phi_step {k : ℕ} (hk : k < 15) : s.phi k + s.turn ≤ s.phi (k + 1) := by
  have hA := s.A_pos
  have hD := s.D_pos
  have t1 : s.turn ≤ s.D / 6 := min_le_left _ _
  have t2 : s.turn ≤ s.A / 4 := min_le_right _ _
  have hpi : π = 2 * s.D + 2 * s.A := by unfold D; ring
  unfold phi
  interval_cases k <;> norm_num <;> linarith

theorem phi_mono {j k : ℕ} (hjk : j < k) (hk : k ≤ 15) : s.phi j + s.turn ≤ s.phi k := by
  have ht := s.turn_pos
  induction k, hjk using Nat.le_induction with
  | base => exact s.phi_step (by omega)
  | succ k hjk ih =>
    have h3 := ih (by omega)
    have h2 := s.phi_step (k := k) (by omega)
    linarith

theorem phi_zero : s.phi 0 = 0 := by simp [phi]

theorem phi_last : s.phi 15 = π := by simp [phi]

/-- the sine of a turn from one side to a later one -/
theorem sin_turn {j k : ℕ} (hjk : j < k) (hk : k ≤ 15) (hne : ¬ (j = 0 ∧ k = 15)) : sin s.turn ≤ sin (s.phi k - s.phi j) := by
  have ht := s.turn_pos
  have h1 := s.phi_mono hjk hk
  have h2 : s.phi k - s.phi j ≤ π - s.turn := by
    by_cases h : j = 0
    · have := s.phi_mono (show k < 15 by omega) le_rfl
      rw [h, s.phi_zero]
      rw [s.phi_last] at this
      linarith
    · have h3 := s.phi_mono (show 0 < j by omega) (by omega)
      rw [s.phi_zero] at h3
      have h4 : s.phi k ≤ π := by
        by_cases h15 : k = 15
        · rw [h15, s.phi_last]
        · have := s.phi_mono (show k < 15 by omega) le_rfl
          rw [s.phi_last] at this
          linarith
      linarith
  have h0 : s.turn ≤ π / 2 := by
    have := s.A_lt
    have : s.turn ≤ s.A / 4 := min_le_right _ _
    have := s.A_pos
    linarith
  by_cases hc : s.phi k - s.phi j ≤ π / 2
  · exact sin_le_sin_of_le_of_le_pi_div_two (by linarith) hc (by linarith)
  · rw [← sin_pi_sub (s.phi k - s.phi j)]
    exact sin_le_sin_of_le_of_le_pi_div_two (by linarith [pi_pos]) (by linarith) (by linarith)

theorem turn_ge {c : ℝ} (h1 : c ≤ (1 - s.sinA ^ 2) / 6) (h2 : c ≤ s.sinA / 4) : c ≤ sin s.turn := by
  have hA := s.A_pos
  have hA' := s.A_lt
  have hD := s.D_pos
  have hD' := s.D_lt
  unfold turn
  rcases min_choice (s.D / 6) (s.A / 4) with e | e <;> rw [e]
  · have b1 := sin_div hD.le (by linarith) 6 (by norm_num)
    rw [sin_D] at b1
    push_cast at b1
    refine le_trans (h1.trans ?_) b1
    have h3 := s.cos_sq
    have h4 := s.cos_lt
    have h5 := s.cos_A_pos
    have : 1 - s.sinA ^ 2 ≤ Real.cos s.A := by rw [← h3]; nlinarith
    linarith
  · have b1 := sin_div hA.le (by linarith) 4 (by norm_num)
    rw [sin_A] at b1
    push_cast at b1
    exact h2.trans b1

theorem turn_klopper : 1 / 10 ≤ sin klopperShape.turn := by
  apply turn_ge <;> rw [sinA_klopper] <;> norm_num

theorem turn_korbbogen : 1 / 10 ≤ sin korbbogenShape.turn := by
  apply turn_ge <;> rw [sinA_korbbogen] <;> norm_num

theorem Big.rho_ge {s : HeadShape} {d h1 : ℝ} (hb : s.Big d h1) (k : ℕ) : 4 / 10 ^ 5 ≤ s.rho d h1 k := by
  unfold rho
  split_ifs
  exacts [hb.h1, hb.sin_knuckle.1, hb.sin_dish.1, hb.sin_knuckle.1, hb.h1]

end HeadShape

/-- the cross product of two directions that are nearly known -/
theorem cross_near {ux uy vx vy wx wy zx zy ρ σ c e : ℝ} (hux : |ux| ≤ ρ) (huy : |uy| ≤ ρ) (hvx : |vx| ≤ σ) (hvy : |vy| ≤ σ)
    (h1 : |wx - ux| ≤ e) (h2 : |wy - uy| ≤ e) (h3 : |zx - vx| ≤ e) (h4 : |zy - vy| ≤ e) (hc : c ≤ ux * vy - uy * vx) :
    c - 2 * e * (ρ + σ + e) ≤ wx * zy - wy * zx := by
  have m : ∀ {a b A B : ℝ}, |a| ≤ A → |b| ≤ B → |a * b| ≤ A * B := by
    intro a b A B ha hb
    rw [abs_mul]
    exact mul_le_mul ha hb (abs_nonneg _) ((abs_nonneg _).trans ha)
  have e1 := abs_le.1 (m hux h4)
  have e2 := abs_le.1 (m h1 hvy)
  have e3 := abs_le.1 (m h1 h4)
  have e4 := abs_le.1 (m huy h3)
  have e5 := abs_le.1 (m h2 hvx)
  have e6 := abs_le.1 (m h2 h3)
  have key : wx * zy - wy * zx = (ux * vy - uy * vx) + (ux * (zy - vy) + (wx - ux) * vy + (wx - ux) * (zy - vy)) -
      (uy * (zx - vx) + (wy - uy) * vx + (wy - uy) * (zx - vx)) := by ring
  rw [key]
  nlinarith [e1.1, e2.1, e3.1, e4.2, e5.2, e6.2]

/-- points near to the vertices of a placed head -/
def NearHead (s : HeadShape) (d h1 : ℝ) (c : Prop) [Decidable c] (x0 y0 : ℝ) (W : ℕ → Pt ℝ) : Prop :=
  ∀ i < 17, Near (3 / 10 ^ 8) (W i) (headPlace c x0 y0 (s.vertex d h1 i))

namespace NearHead
variable {s : HeadShape} {d h1 : ℝ} {c : Prop} [Decidable c] {x0 y0 : ℝ} {W : ℕ → Pt ℝ}

theorem diff (hW : NearHead s d h1 c x0 y0 W) {i j : ℕ} (hi : i < 17) (hj : j < 17) :
    |((W j).x - (W i).x) - (if c then -1 else 1) * ((s.vertex d h1 j).x - (s.vertex d h1 i).x)| ≤ 6 / 10 ^ 8 ∧
    |((W j).y - (W i).y) - (if c then -1 else 1) * ((s.vertex d h1 j).y - (s.vertex d h1 i).y)| ≤ 6 / 10 ^ 8 := by
  have a := hW i hi
  have b := hW j hj
  unfold Near headPlace at a b
  by_cases hc : c
  · rw [if_pos hc] at *
    dsimp only at a b
    obtain ⟨a1, a2⟩ := a
    obtain ⟨b1, b2⟩ := b
    rw [abs_le] at a1 a2 b1 b2
    norm_num at a1 a2 b1 b2 ⊢
    constructor <;> rw [abs_le] <;> constructor <;> linarith
  · rw [if_neg hc] at *
    dsimp only at a b
    obtain ⟨a1, a2⟩ := a
    obtain ⟨b1, b2⟩ := b
    rw [abs_le] at a1 a2 b1 b2
    norm_num at a1 a2 b1 b2 ⊢
    constructor <;> rw [abs_le] <;> constructor <;> linarith

/-- the cross product of two differences of vertices, and of the points near to them -/
theorem cross (hW : NearHead s d h1 c x0 y0 W) {i j k l : ℕ} (hi : i < 17) (hj : j < 17) (hk : k < 17) (hl : l < 17) {ρ σ m : ℝ}
    (h1' : |(s.vertex d h1 j).x - (s.vertex d h1 i).x| ≤ ρ) (h2 : |(s.vertex d h1 j).y - (s.vertex d h1 i).y| ≤ ρ)
    (h3 : |(s.vertex d h1 l).x - (s.vertex d h1 k).x| ≤ σ) (h4 : |(s.vertex d h1 l).y - (s.vertex d h1 k).y| ≤ σ)
    (hm : m ≤ ((s.vertex d h1 j).x - (s.vertex d h1 i).x) * ((s.vertex d h1 l).y - (s.vertex d h1 k).y) -
      ((s.vertex d h1 j).y - (s.vertex d h1 i).y) * ((s.vertex d h1 l).x - (s.vertex d h1 k).x)) :
    m - 2 * (6 / 10 ^ 8) * (ρ + σ + 6 / 10 ^ 8) ≤ ((W j).x - (W i).x) * ((W l).y - (W k).y) - ((W j).y - (W i).y) * ((W l).x - (W k).x) := by
  have a := hW.diff hi hj
  have b := hW.diff hk hl
  have n : ∀ {x r : ℝ}, |x| ≤ r → |(if c then -1 else 1) * x| ≤ r := by
    intro x r h
    split_ifs
    · rwa [neg_one_mul, abs_neg]
    · rwa [one_mul]
  refine cross_near (n h1') (n h2) (n h3) (n h4) a.1 a.2 b.1 b.2 ?_
  split_ifs <;> linarith

theorem sides (hW : NearHead s d h1 c x0 y0 W) (hb : s.Big d h1) (ht : 1 / 10 ≤ sin s.turn) {j k : ℕ} (hjk : j < k) (hk : k ≤ 15)
    (hne : ¬ (j = 0 ∧ k = 15)) :
    0 < ((W (j + 1)).x - (W j).x) * ((W (k + 1)).y - (W k).y) - ((W (j + 1)).y - (W j).y) * ((W (k + 1)).x - (W k).x) := by
  have hj1 := s.side d h1 (show j ≤ 15 by omega)
  have hk1 := s.side d h1 hk
  have hρ := hb.rho_ge j
  have hσ := hb.rho_ge k
  have hs := ht.trans (s.sin_turn hjk hk hne)
  set ρ := s.rho d h1 j
  set σ := s.rho d h1 k
  have ρ0 : 0 < ρ := lt_of_lt_of_le (by norm_num) hρ
  have σ0 : 0 < σ := lt_of_lt_of_le (by norm_num) hσ
  have one : ∀ {r t : ℝ}, 0 < r → |t| ≤ 1 → |r * t| ≤ r := by
    intro r t hr ht
    rw [abs_mul, abs_of_pos hr]
    exact mul_le_of_le_one_right hr.le ht
  have one' : ∀ {r t : ℝ}, 0 < r → |t| ≤ 1 → |(-r) * t| ≤ r := by
    intro r t hr ht
    rw [neg_mul, abs_neg]
    exact one hr ht
  have key := hW.cross (i := j) (j := j + 1) (k := k) (l := k + 1) (ρ := ρ) (σ := σ) (m := ρ * σ / 10)
    (by omega) (by omega) (by omega) (by omega)
    (by rw [hj1.1]; exact one' ρ0 (abs_sin_le_one _)) (by rw [hj1.2]; exact one ρ0 (abs_cos_le_one _))
    (by rw [hk1.1]; exact one' σ0 (abs_sin_le_one _)) (by rw [hk1.2]; exact one σ0 (abs_cos_le_one _)) (by
      rw [hj1.1, hj1.2, hk1.1, hk1.2]
      have e : -ρ * sin (s.phi j) * (σ * cos (s.phi k)) - ρ * cos (s.phi j) * (-σ * sin (s.phi k)) = ρ * σ * sin (s.phi k - s.phi j) := by
        rw [sin_sub]; ring
      rw [e]
      have := mul_le_mul_of_nonneg_left hs (mul_pos ρ0 σ0).le
      linarith)
  refine lt_of_lt_of_le ?_ key
  norm_num at hρ hσ ⊢
  nlinarith [mul_le_mul_of_nonneg_right hρ σ0.le, mul_le_mul_of_nonneg_left hσ ρ0.le]

/-- a later vertex -/
theorem left_later (hW : NearHead s d h1 c x0 y0 W) (hb : s.Big d h1) (ht : 1 / 10 ≤ sin s.turn) {a b : ℕ} (hab : a + 2 ≤ b) (hb16 : b ≤ 16)
    (hne : ¬ (a = 0 ∧ b = 16)) : 0 < det3 (W a) (W (a + 1)) (W b) := by
  induction b, hab using Nat.le_induction with
  | base =>
    have := hW.sides hb ht (show a < a + 1 by omega) (by omega) (by omega)
    rw [show a + 2 = a + 1 + 1 from rfl]
    unfold det3
    linarith
  | succ b hab ih =>
    have h1 := ih (by omega) (by omega)
    have h2 := hW.sides hb ht (show a < b by omega) (by omega) (by omega)
    unfold det3 at *
    linarith

/-- an earlier vertex -/
theorem left_earlier (hW : NearHead s d h1 c x0 y0 W) (hb : s.Big d h1) (ht : 1 / 10 ≤ sin s.turn) (n : ℕ) : ∀ {a b : ℕ}, b + 1 + n = a → a ≤ 15 →
    ¬ (b = 0 ∧ a = 15) → 0 < det3 (W a) (W (a + 1)) (W b) := by
  induction n with
  | zero =>
    intro a b e ha hne
    have := hW.sides hb ht (show b < a by omega) (by omega) (by omega)
    rw [show b + 1 = a by omega] at this
    unfold det3
    linarith
  | succ n ih =>
    intro a b e ha hne
    have h1 := ih (a := a) (b := b + 1) (by omega) ha (by omega)
    have h2 := hW.sides hb ht (show b < a by omega) (by omega) (by omega)
    unfold det3 at *
    linarith

theorem left_base (hW : NearHead s d h1 c x0 y0 W) (hb : s.Big d h1) {b : ℕ} (h0 : 1 ≤ b) (h15 : b ≤ 15) : 0 < det3 (W 16) (W 0) (W b) := by
  have hd := hb.pos
  have hd' := hb.lt
  have hy := s.vertex_y (h1 := h1) hd h0 h15
  have hh := hb.h1
  have hst := mul_pos s.step_pos hd
  have x1 : (s.vertex d h1 b).x ≤ d / 2 := by
    rcases Nat.eq_or_lt_of_le h0 with h | h
    · rw [← h, s.vertex_one]
    · have := s.vertex_mono (h1 := h1) hd le_rfl h h15
      rw [s.vertex_one] at this
      dsimp only at this
      linarith
  have x2 : -(d / 2) ≤ (s.vertex d h1 b).x := by
    rcases Nat.eq_or_lt_of_le h15 with h | h
    · rw [h, s.vertex_fifteen]
    · have := s.vertex_mono (h1 := h1) hd h0 h le_rfl
      rw [s.vertex_fifteen] at this
      dsimp only at this
      linarith
  have hh0 : 0 < h1 := lt_of_lt_of_le (by norm_num) hh
  have y0 : 0 < (s.vertex d h1 b).y := by linarith
  have key := hW.cross (i := 16) (j := 0) (k := 16) (l := b) (ρ := d) (σ := d + (s.vertex d h1 b).y) (m := d * (s.vertex d h1 b).y)
    (by omega) (by omega) (by omega) (by omega)
    (by rw [s.vertex_zero, s.vertex_sixteen]; dsimp only; rw [abs_le]; constructor <;> linarith)
    (by rw [s.vertex_zero, s.vertex_sixteen]; simp [hd.le])
    (by rw [s.vertex_sixteen]; dsimp only; rw [abs_le]; constructor <;> linarith)
    (by rw [s.vertex_sixteen]; dsimp only; rw [abs_le]; constructor <;> linarith)
    (by rw [s.vertex_zero, s.vertex_sixteen]; dsimp only; nlinarith)
  unfold det3
  refine lt_of_lt_of_le ?_ key
  have hY : 4 / 10 ^ 5 ≤ (s.vertex d h1 b).y := hh.trans hy
  norm_num at hY hd' ⊢
  nlinarith [mul_le_mul_of_nonneg_right hd' y0.le, mul_le_mul_of_nonneg_left hY hd.le]

theorem left_foot (hW : NearHead s d h1 c x0 y0 W) (hb : s.Big d h1) : 0 < det3 (W 0) (W 1) (W 16) ∧ 0 < det3 (W 15) (W 16) (W 0) := by
  have hd := hb.pos
  have hd' := hb.lt
  have hh := hb.h1
  have hh0 : 0 < h1 := lt_of_lt_of_le (by norm_num) hh
  constructor
  · have key := hW.cross (i := 0) (j := 1) (k := 0) (l := 16) (ρ := h1) (σ := d) (m := d * h1)
      (by omega) (by omega) (by omega) (by omega)
      (by rw [s.vertex_zero, s.vertex_one]; simp [hh0.le])
      (by rw [s.vertex_zero, s.vertex_one]; dsimp only; rw [abs_le]; constructor <;> linarith)
      (by rw [s.vertex_zero, s.vertex_sixteen]; dsimp only; rw [abs_le]; constructor <;> linarith)
      (by rw [s.vertex_zero, s.vertex_sixteen]; simp [hd.le])
      (by rw [s.vertex_zero, s.vertex_one, s.vertex_sixteen]; dsimp only; nlinarith)
    unfold det3
    refine lt_of_lt_of_le ?_ key
    norm_num at hh hd' ⊢
    nlinarith [mul_le_mul_of_nonneg_right hd' hh0.le, mul_le_mul_of_nonneg_left hh hd.le]
  · have key := hW.cross (i := 15) (j := 16) (k := 15) (l := 0) (ρ := h1) (σ := d + h1) (m := d * h1)
      (by omega) (by omega) (by omega) (by omega)
      (by rw [s.vertex_fifteen, s.vertex_sixteen]; simp [hh0.le])
      (by rw [s.vertex_fifteen, s.vertex_sixteen]; dsimp only; rw [abs_le]; constructor <;> linarith)
      (by rw [s.vertex_zero, s.vertex_fifteen]; dsimp only; rw [abs_le]; constructor <;> linarith)
      (by rw [s.vertex_zero, s.vertex_fifteen]; dsimp only; rw [abs_le]; constructor <;> linarith)
      (by rw [s.vertex_zero, s.vertex_fifteen, s.vertex_sixteen]; dsimp only; nlinarith)
    unfold det3
    refine lt_of_lt_of_le ?_ key
    norm_num at hh hd' ⊢
    nlinarith [mul_le_mul_of_nonneg_right hd' hh0.le, mul_le_mul_of_nonneg_left hh hd.le]

/-- every vertex is to the left of every side it is not an end of -/
theorem left (hW : NearHead s d h1 c x0 y0 W) (hb : s.Big d h1) (ht : 1 / 10 ≤ sin s.turn) {a b : ℕ} (ha : a < 17) (hb17 : b < 17)
    (h1' : b ≠ a) (h2 : b ≠ (a + 1) % 17) : 0 < det3 (W a) (W ((a + 1) % 17)) (W b) := by
  by_cases h16 : a = 16
  · subst h16
    rw [show (16 + 1) % 17 = 0 from rfl] at *
    exact hW.left_base hb (by omega) (by omega)
  rw [show (a + 1) % 17 = a + 1 from Nat.mod_eq_of_lt (by omega)] at *
  by_cases hab : a < b
  · by_cases hs : a = 0 ∧ b = 16
    · obtain ⟨rfl, rfl⟩ := hs
      exact (hW.left_foot hb).1
    · exact hW.left_later hb ht (by omega) (by omega) hs
  · by_cases hs : b = 0 ∧ a = 15
    · obtain ⟨rfl, rfl⟩ := hs
      exact (hW.left_foot hb).2
    · exact hW.left_earlier hb ht (a - b - 1) (by omega) (by omega) hs

end NearHead

end Srep
