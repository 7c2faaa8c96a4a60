import Verif.Lemmas.Err
import Verif.Spec.Margin

/-! Calculations without rounding errors: short whole multiples of a power of two. -/

set_option linter.unusedSectionVars false

namespace Srep
variable {K : Type} [Field K] [LinearOrder K] [IsStrictOrderedRing K] [FloorRing K]

/-- whole multiples of less than 53 bits of a power of two are representable -/
def Rt.HasDyadics (R : Rt K) : Prop := ∀ n j : ℤ, |n| < 2 ^ 53 → R.fl ((n : K) * 2 ^ j) = n * 2 ^ j

theorem fl64_dyadic (n j : ℤ) (h : |n| < 2 ^ 53) : fl64 ((n : K) * 2 ^ j) = n * 2 ^ j := by
  unfold fl64
  have p0 : (0 : K) < 2 ^ j := zpow_pos (by norm_num) j
  split_ifs with h0
  · exact h0.symm
  set e := Int.log 2 |(n : K) * 2 ^ j|
  have h1 : (2 : K) ^ e ≤ |(n : K) * 2 ^ j| := by
    have := Int.zpow_log_le_self (b := 2) (r := |(n : K) * 2 ^ j|) (by norm_num) (abs_pos.2 h0)
    exact_mod_cast this
  have h2 : |(n : K) * 2 ^ j| < 2 ^ (53 + j) := by
    rw [abs_mul, abs_of_pos p0, zpow_add₀ (by norm_num)]
    apply mul_lt_mul_of_pos_right _ p0
    have h' : ((|n| : ℤ) : K) < ((2 ^ 53 : ℤ) : K) := Int.cast_lt.2 h
    rw [Int.cast_abs] at h'
    refine h'.trans_eq ?_
    norm_num
  have h3 : e < 53 + j := (zpow_lt_zpow_iff_right₀ (by norm_num : (1 : K) < 2)).1 (h1.trans_lt h2)
  obtain ⟨k, hk⟩ := Int.eq_ofNat_of_zero_le (show 0 ≤ j - (e - 52) by omega)
  have h4 : (n : K) * 2 ^ j / 2 ^ (e - 52) = ((n * 2 ^ k : ℤ) : K) := by
    rw [mul_div_assoc, ← zpow_sub₀ (by norm_num : (2 : K) ≠ 0), hk]
    push_cast
    rw [zpow_natCast]
  rw [h4, rhe_intCast, ← h4, div_mul_cancel₀]
  exact (zpow_pos (by norm_num) _).ne'

theorem Rt.b64_hasDyadics (t : Trig ℚ) (h : ℚ → ℚ → Int) : (Rt.b64 t h).HasDyadics := fun n j hn => fl64_dyadic n j hn

theorem Rt.IsExact.hasDyadics {R : Rt K} (hE : R.IsExact) : R.HasDyadics := fun _ _ _ => hE.fl _

/-- a vector product of differences of short multiples is computed exactly -/
theorem det_dyadic {R : Rt K} (hD : R.HasDyadics) (j : ℤ) (a b c d a' b' c' d' : ℤ) (ha : |a| < 2 ^ 25) (hb : |b| < 2 ^ 25)
    (hc : |c| < 2 ^ 25) (hd : |d| < 2 ^ 25) (ha' : |a'| < 2 ^ 25) (hb' : |b'| < 2 ^ 25) (hc' : |c'| < 2 ^ 25)
    (hd' : |d'| < 2 ^ 25) :
    R.sub (R.mul (R.sub ((a : K) * 2 ^ j) (a' * 2 ^ j)) (R.sub ((b : K) * 2 ^ j) (b' * 2 ^ j)))
      (R.mul (R.sub ((c : K) * 2 ^ j) (c' * 2 ^ j)) (R.sub ((d : K) * 2 ^ j) (d' * 2 ^ j))) =
    ((a : K) * 2 ^ j - a' * 2 ^ j) * ((b : K) * 2 ^ j - b' * 2 ^ j) -
      ((c : K) * 2 ^ j - c' * 2 ^ j) * ((d : K) * 2 ^ j - d' * 2 ^ j) := by
  have hs : ∀ a b : ℤ, |a| < 2 ^ 25 → |b| < 2 ^ 25 → |a - b| < 2 ^ 26 := by
    intro a b h1 h2
    rw [abs_lt] at h1 h2 ⊢
    constructor <;> linarith
  have h1 : ∀ a b : ℤ, |a| < 2 ^ 25 → |b| < 2 ^ 25 →
      R.sub ((a : K) * 2 ^ j) (b * 2 ^ j) = ((a - b : ℤ) : K) * 2 ^ j := by
    intro a b h1 h2
    unfold Rt.sub
    rw [← hD (a - b) j ((hs a b h1 h2).trans (by norm_num))]
    congr 1
    push_cast; ring
  have hm : ∀ a b : ℤ, |a| < 2 ^ 26 → |b| < 2 ^ 26 → |a * b| < 2 ^ 52 := by
    intro a b h1 h2
    rw [abs_mul]
    calc |a| * |b| < 2 ^ 26 * 2 ^ 26 := mul_lt_mul'' h1 h2 (abs_nonneg _) (abs_nonneg _)
      _ = 2 ^ 52 := by norm_num
  have h2 : ∀ a b : ℤ, |a| < 2 ^ 26 → |b| < 2 ^ 26 →
      R.mul ((a : K) * 2 ^ j) (b * 2 ^ j) = ((a * b : ℤ) : K) * 2 ^ (j + j) := by
    intro a b h1 h2
    unfold Rt.mul
    rw [← hD (a * b) (j + j) ((hm a b h1 h2).trans (by norm_num))]
    congr 1
    rw [zpow_add₀ (by norm_num)]
    push_cast; ring
  rw [h1 a a' ha ha', h1 b b' hb hb', h1 c c' hc hc', h1 d d' hd hd', h2 _ _ (hs _ _ ha ha') (hs _ _ hb hb'),
    h2 _ _ (hs _ _ hc hc') (hs _ _ hd hd')]
  have h3 : |(a - a') * (b - b') - (c - c') * (d - d')| < 2 ^ 53 := by
    have g1 := abs_lt.1 (hm _ _ (hs _ _ ha ha') (hs _ _ hb hb'))
    have g2 := abs_lt.1 (hm _ _ (hs _ _ hc hc') (hs _ _ hd hd'))
    rw [abs_lt]
    constructor <;> linarith
  unfold Rt.sub
  have h4 := hD _ (j + j) h3
  rw [Int.cast_sub, sub_mul] at h4
  rw [h4, zpow_add₀ (by norm_num)]
  push_cast; ring

end Srep
