import Verif.Model.Line
import Verif.Lemmas.Num
import Mathlib.Tactic.LinearCombination
import Mathlib.Tactic.FieldSimp

/-! Rounding errors of sums and products in every correctly rounded arithmetic. -/

set_option linter.unusedSectionVars false

namespace Srep
variable {K : Type} [Field K] [LinearOrder K] [IsStrictOrderedRing K] [FloorRing K]

/-- (1 + 2⁻⁵³)ᵏ − 1, the relative error after `k` roundings -/
def rnd (K : Type) [Field K] (k : ℕ) : K := (1 + 1 / 2 ^ 53) ^ k - 1

/-- `x` is what `k` nested roundings can make of `y`, measured on the scale `S` of the terms `y` is made of -/
def ErrNear (k : ℕ) (x y S : K) : Prop := |x - y| ≤ rnd K k * S ∧ |y| ≤ S

theorem rnd_nonneg (k : ℕ) : (0 : K) ≤ rnd K k := by
  unfold rnd
  have : (1 : K) ≤ (1 + 1 / 2 ^ 53) ^ k := one_le_pow₀ (by
    have : (0 : K) ≤ 1 / 2 ^ 53 := by positivity
    linarith)
  linarith

theorem rnd_mono {k m : ℕ} (h : k ≤ m) : rnd K k ≤ rnd K m := by
  unfold rnd
  have : (1 + 1 / 2 ^ 53 : K) ^ k ≤ (1 + 1 / 2 ^ 53) ^ m := pow_le_pow_right₀ (by
    have : (0 : K) ≤ 1 / 2 ^ 53 := by positivity
    linarith) h
  linarith

theorem rnd_add (k m : ℕ) : rnd K (k + m) = rnd K k + rnd K m + rnd K k * rnd K m := by
  unfold rnd; rw [pow_add]; ring

theorem rnd_one : rnd K 1 = 1 / 2 ^ 53 := by unfold rnd; ring

theorem rnd_five : rnd K 5 ≤ 1 / 2 ^ 50 := by unfold rnd; norm_num

theorem ErrNear.refl (y : K) : ErrNear 0 y y |y| := by
  unfold ErrNear rnd; simp

theorem ErrNear.of_le {y S : K} (h : |y| ≤ S) : ErrNear 0 y y S := by
  unfold ErrNear rnd; simpa using h

theorem ErrNear.scale_nonneg {k : ℕ} {x y S : K} (h : ErrNear k x y S) : 0 ≤ S := (abs_nonneg y).trans h.2

theorem ErrNear.mono {k m : ℕ} {x y S : K} (h : ErrNear k x y S) (hk : k ≤ m) : ErrNear m x y S :=
  ⟨h.1.trans (mul_le_mul_of_nonneg_right (rnd_mono hk) h.scale_nonneg), h.2⟩

theorem ErrNear.abs_le {k : ℕ} {x y S : K} (h : ErrNear k x y S) : |x| ≤ (1 + rnd K k) * S := by
  have : |x| ≤ |x - y| + |y| := by
    calc |x| = |(x - y) + y| := by ring_nf
      _ ≤ _ := abs_add_le _ _
  linarith [h.1, h.2]

theorem ErrNear.fl {R : Rt K} (hR : R.IsRounding) {k : ℕ} {x y S : K} (h : ErrNear k x y S) : ErrNear (k + 1) (R.fl x) y S := by
  refine ⟨?_, h.2⟩
  have h1 := hR.rel x
  have h2 := h.abs_le
  have h3 : |R.fl x - y| ≤ |R.fl x - x| + |x - y| := by
    calc |R.fl x - y| = |(R.fl x - x) + (x - y)| := by ring_nf
      _ ≤ _ := abs_add_le _ _
  rw [rnd_add, rnd_one]
  have h4 : |x| / 2 ^ 53 ≤ (1 + rnd K k) * S * (1 / 2 ^ 53) := by
    rw [div_eq_mul_one_div]
    exact mul_le_mul_of_nonneg_right h2 (by positivity)
  have h5 := h.1
  calc |R.fl x - y| ≤ (1 + rnd K k) * S * (1 / 2 ^ 53) + rnd K k * S := by linarith
    _ = _ := by ring

theorem ErrNear.mul {k m : ℕ} {x y S x' y' S' : K} (h : ErrNear k x y S) (h' : ErrNear m x' y' S') :
    ErrNear (k + m) (x * x') (y * y') (S * S') := by
  have s0 := h.scale_nonneg
  have s1 := h'.scale_nonneg
  refine ⟨?_, ?_⟩
  · have e : x * x' - y * y' = (x - y) * (x' - y') + (x - y) * y' + y * (x' - y') := by ring
    rw [e, rnd_add]
    have a1 : |(x - y) * (x' - y')| ≤ rnd K k * S * (rnd K m * S') := by
      rw [abs_mul]; exact mul_le_mul h.1 h'.1 (abs_nonneg _) (mul_nonneg (rnd_nonneg _) s0)
    have a2 : |(x - y) * y'| ≤ rnd K k * S * S' := by
      rw [abs_mul]; exact mul_le_mul h.1 h'.2 (abs_nonneg _) (mul_nonneg (rnd_nonneg _) s0)
    have a3 : |y * (x' - y')| ≤ S * (rnd K m * S') := by
      rw [abs_mul]; exact mul_le_mul h.2 h'.1 (abs_nonneg _) s0
    have b1 := abs_add_le ((x - y) * (x' - y') + (x - y) * y') (y * (x' - y'))
    have b2 := abs_add_le ((x - y) * (x' - y')) ((x - y) * y')
    calc _ ≤ rnd K k * S * (rnd K m * S') + rnd K k * S * S' + S * (rnd K m * S') := by linarith
      _ = _ := by ring
  · rw [abs_mul]; exact mul_le_mul h.2 h'.2 (abs_nonneg _) s0

theorem ErrNear.sub {k : ℕ} {x y S x' y' S' : K} (h : ErrNear k x y S) (h' : ErrNear k x' y' S') :
    ErrNear k (x - x') (y - y') (S + S') := by
  refine ⟨?_, ?_⟩
  · have e : x - x' - (y - y') = (x - y) - (x' - y') := by ring
    rw [e]
    have := abs_sub (x - y) (x' - y')
    have := h.1
    have := h'.1
    calc _ ≤ rnd K k * S + rnd K k * S' := by linarith
      _ = _ := by ring
  · have := abs_sub y y'
    linarith [h.2, h'.2]

theorem ErrNear.le_five {k : ℕ} {x y S T : K} (h : ErrNear k x y S) (hk : k ≤ 5) (hS : S ≤ T) : |x - y| ≤ T / 2 ^ 50 := by
  have h1 := h.1
  have h2 : rnd K k * S ≤ 1 / 2 ^ 50 * T :=
    mul_le_mul ((rnd_mono hk).trans rnd_five) hS h.scale_nonneg (by positivity)
  calc |x - y| ≤ 1 / 2 ^ 50 * T := h1.trans h2
    _ = _ := by ring

/-- a rounded difference of products of rounded differences -/
theorem near_det {R : Rt K} (hR : R.IsRounding) (a b c d : K) :
    ErrNear 4 (R.fl (R.fl (R.fl a * R.fl b) - R.fl (R.fl c * R.fl d))) (a * b - c * d) (|a * b| + |c * d|) := by
  have h : ∀ a b : K, ErrNear 3 (R.fl (R.fl a * R.fl b)) (a * b) |a * b| := by
    intro a b
    have := (((ErrNear.refl a).fl hR).mul ((ErrNear.refl b).fl hR)).fl hR
    rwa [← abs_mul] at this
  exact ((h a b).sub (h c d)).fl hR

end Srep
