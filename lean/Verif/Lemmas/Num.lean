import Verif.Model.Num
import Mathlib.Tactic.IntervalCases
import Mathlib.Algebra.Order.Group.Unbundled.Int

/-! Lemmas about rounding: `rhe`, `rhe8`, `fl64`, abstract roundings. -/

set_option linter.unusedSectionVars false

namespace Srep
section
variable {K : Type} [Field K] [LinearOrder K] [IsStrictOrderedRing K] [FloorRing K]

theorem rhe_eq_iff (x : K) (n : ℤ) :
    rhe x = n ↔ |x - n| < 1 / 2 ∨ (|x - n| = 1 / 2 ∧ n % 2 = 0) := by
  have h1 := Int.floor_le x
  have h2 := Int.lt_floor_add_one x
  have key : ∀ m : ℤ, |x - m| ≤ 1 / 2 → m = ⌊x⌋ ∨ m = ⌊x⌋ + 1 := by
    intro m hm
    rw [abs_le] at hm
    have a : (m : K) < ⌊x⌋ + 2 := by linarith
    have b : (⌊x⌋ : K) - 1 < m := by linarith
    have a' : m < ⌊x⌋ + 2 := by exact_mod_cast a
    have b' : ⌊x⌋ - 1 < m := by exact_mod_cast b
    omega
  constructor
  · intro h
    unfold rhe at h
    split_ifs at h with c1 c2 c3
    · left; subst h; rw [abs_lt]; constructor <;> linarith
    · left; subst h; push_cast; rw [abs_lt]; constructor <;> linarith
    · right
      have e : x - ⌊x⌋ = 1 / 2 := le_antisymm (not_lt.1 c2) (not_lt.1 c1)
      subst h; exact ⟨by rw [e, abs_of_pos]; norm_num, c3⟩
    · right
      have e : x - ⌊x⌋ = 1 / 2 := le_antisymm (not_lt.1 c2) (not_lt.1 c1)
      subst h; refine ⟨?_, by omega⟩
      push_cast
      have : x - (⌊x⌋ + 1) = -(1 / 2) := by linarith
      rw [this, abs_neg, abs_of_pos]; norm_num
  · intro h
    have hle : |x - n| ≤ 1 / 2 := by
      rcases h with h | h
      · exact h.le
      · exact h.1.le
    unfold rhe
    rcases key n hle with rfl | rfl
    · have e : |x - (⌊x⌋ : K)| = x - ⌊x⌋ := abs_of_nonneg (by linarith)
      rw [e] at h
      split_ifs with c1 c2 c3
      · rfl
      · rcases h with h | h <;> linarith [h]
      · rfl
      · rcases h with h | h
        · exact absurd h c1
        · exact absurd h.2 c3
    · have e : |x - ((⌊x⌋ + 1 : ℤ) : K)| = ⌊x⌋ + 1 - x := by
        push_cast; rw [abs_of_nonpos (by linarith)]; ring
      rw [e] at h
      split_ifs with c1 c2 c3
      · rcases h with h | h <;> linarith [h]
      · rfl
      · rcases h with h | h
        · linarith
        · omega
      · rfl

theorem abs_sub_rhe_le (x : K) : |x - rhe x| ≤ 1 / 2 := by
  rcases (rhe_eq_iff x (rhe x)).1 rfl with h | h
  · exact h.le
  · exact h.1.le

theorem rhe_tie_even (x : K) (h : |x - rhe x| = 1 / 2) : rhe x % 2 = 0 := by
  rcases (rhe_eq_iff x (rhe x)).1 rfl with h' | h'
  · linarith
  · exact h'.2

@[simp] theorem rhe_intCast (n : ℤ) : rhe (n : K) = n := by
  rw [rhe_eq_iff]; left; simp

theorem rhe_neg (x : K) : rhe (-x) = -rhe x := by
  rw [rhe_eq_iff]
  have e : |(-x) - ((-rhe x : ℤ) : K)| = |x - rhe x| := by
    push_cast; rw [← abs_neg]; congr 1; ring
  rw [e]
  rcases (rhe_eq_iff x (rhe x)).1 rfl with h | h
  · exact Or.inl h
  · exact Or.inr ⟨h.1, by omega⟩

/-- no integer is closer than `rhe x` -/
theorem rhe_nearest (x : K) (n : ℤ) : |x - rhe x| ≤ |x - n| := by
  by_contra h
  push Not at h
  have h1 := abs_sub_rhe_le x
  have : rhe x = n := (rhe_eq_iff x n).2 (Or.inl (lt_of_lt_of_le h h1))
  rw [this] at h
  exact lt_irrefl _ h

theorem rhe_mono {x y : K} (h : x ≤ y) : rhe x ≤ rhe y := by
  by_contra hc
  push Not at hc
  have hx := rhe_nearest x (rhe y)
  have hy := rhe_nearest y (rhe x)
  have hc' : (rhe y : K) < rhe x := by exact_mod_cast hc
  have ax : (rhe x : K) + rhe y ≤ 2 * x := by
    by_contra hh
    push Not at hh
    have : |x - rhe y| < |x - rhe x| := by
      rw [abs_lt]
      have := le_abs_self (x - rhe x)
      have h2 := neg_abs_le (x - rhe x)
      rcases abs_cases (x - (rhe x : K)) with ⟨e, _⟩ | ⟨e, _⟩ <;> constructor <;> linarith
    linarith
  have ay : 2 * y ≤ (rhe x : K) + rhe y := by
    by_contra hh
    push Not at hh
    have : |y - rhe x| < |y - rhe y| := by
      rw [abs_lt]
      rcases abs_cases (y - (rhe y : K)) with ⟨e, _⟩ | ⟨e, _⟩ <;> constructor <;> linarith
    linarith
  have : x = y := le_antisymm h (by linarith)
  subst this
  exact lt_irrefl _ hc

/-! ### rhe8 -/

theorem rhe8_grid (n : ℤ) : rhe8 ((n : K) / 10 ^ 8) = (n : K) / 10 ^ 8 := by
  unfold rhe8
  have : (n : K) / 10 ^ 8 * 10 ^ 8 = n := by field_simp
  rw [this, rhe_intCast]

theorem rhe8_neg (x : K) : rhe8 (-x) = -rhe8 x := by
  unfold rhe8; rw [neg_mul, rhe_neg]; push_cast; ring

theorem rhe8_mono {x y : K} (h : x ≤ y) : rhe8 x ≤ rhe8 y := by
  unfold rhe8
  have : rhe (x * 10 ^ 8) ≤ rhe (y * 10 ^ 8) := rhe_mono (by
    exact mul_le_mul_of_nonneg_right h (by positivity))
  have : (rhe (x * 10 ^ 8) : K) ≤ rhe (y * 10 ^ 8) := by exact_mod_cast this
  gcongr

theorem abs_rhe8_sub_eq (x : K) : |rhe8 x - x| = |x * 10 ^ 8 - rhe (x * 10 ^ 8)| / 10 ^ 8 := by
  have hp : (0 : K) < 10 ^ 8 := by positivity
  have e : rhe8 x - x = -(x * 10 ^ 8 - rhe (x * 10 ^ 8)) / 10 ^ 8 := by
    unfold rhe8; field_simp; ring
  rw [e, abs_div, abs_neg, abs_of_pos hp]

theorem abs_rhe8_sub_le (x : K) : |rhe8 x - x| ≤ 1 / (2 * 10 ^ 8) := by
  rw [abs_rhe8_sub_eq]
  have := abs_sub_rhe_le (x * 10 ^ 8)
  have hp : (0 : K) < 10 ^ 8 := by positivity
  rw [div_le_iff₀ hp]
  calc _ ≤ (1 : K) / 2 := this
    _ = _ := by field_simp

theorem rhe8_nearest (x : K) (n : ℤ) : |rhe8 x - x| ≤ |(n : K) / 10 ^ 8 - x| := by
  rw [abs_rhe8_sub_eq]
  have hp : (0 : K) < 10 ^ 8 := by positivity
  have := rhe_nearest (x * 10 ^ 8) n
  rw [div_le_iff₀ hp]
  calc _ ≤ _ := this
    _ = |(n : K) / 10 ^ 8 - x| * |(10 : K) ^ 8| := by
        rw [← abs_mul, ← abs_neg]; congr 1; field_simp; ring
    _ = _ := by rw [abs_of_pos hp]

/-! ### abstract roundings -/
namespace Rt.IsRounding
variable {R : Rt K} (hR : R.IsRounding)
include hR

theorem idem (x : K) : R.fl (R.fl x) = R.fl x := by
  have := hR.nearest (R.fl x) x
  rw [sub_self, abs_zero] at this
  have := abs_eq_zero.1 (le_antisymm this (abs_nonneg _))
  linarith

theorem mono {x y : K} (h : x ≤ y) : R.fl x ≤ R.fl y := by
  by_contra hc
  push Not at hc
  have hx := hR.nearest x y
  have hy := hR.nearest y x
  have ax : R.fl x + R.fl y ≤ 2 * x := by
    by_contra hh
    push Not at hh
    have : |R.fl y - x| < |R.fl x - x| := by
      rw [abs_lt]
      rcases abs_cases (R.fl x - x) with ⟨e, _⟩ | ⟨e, _⟩ <;> constructor <;> linarith
    linarith
  have ay : 2 * y ≤ R.fl x + R.fl y := by
    by_contra hh
    push Not at hh
    have : |R.fl x - y| < |R.fl y - y| := by
      rw [abs_lt]
      rcases abs_cases (R.fl y - y) with ⟨e, _⟩ | ⟨e, _⟩ <;> constructor <;> linarith
    linarith
  have : x = y := le_antisymm h (by linarith)
  subst this
  exact lt_irrefl _ hc

theorem zero : R.fl 0 = 0 := by
  have := hR.rel 0
  simpa using this

theorem nonneg {x : K} (h : 0 ≤ x) : 0 ≤ R.fl x := by
  have := hR.mono h; rwa [hR.zero] at this

theorem pos {x : K} (h : 0 < x) : 0 < R.fl x := by
  have := hR.rel x
  rw [abs_of_pos h] at this
  have h2 := (abs_le.1 this).1
  have : x / 2 ^ 53 < x := by
    rw [div_lt_iff₀ (by positivity)]
    nlinarith [show (1 : K) < 2 ^ 53 by norm_num]
  linarith

theorem eq_zero {x : K} : R.fl x = 0 ↔ x = 0 := by
  constructor
  · intro h
    rcases lt_trichotomy x 0 with h' | h' | h'
    · have := hR.pos (neg_pos.2 h')
      rw [hR.neg] at this; linarith
    · exact h'
    · have := hR.pos h'; linarith
  · rintro rfl; exact hR.zero

theorem sub_neg (x y : K) : R.sub x y = -R.sub y x := by
  unfold Rt.sub; rw [← hR.neg]; congr 1; ring

theorem add_comm' (x y : K) : R.add x y = R.add y x := by
  unfold Rt.add; rw [add_comm]

theorem eps_pos : 0 < R.eps := hR.pos (by positivity)

theorem tol_pos : 0 < R.tol := hR.pos (mul_pos hR.eps_pos (by norm_num))

/-- Re-rounding a stored coordinate changes nothing (bit for bit), for every float `x`. -/
theorem round8_idem {x : K} (hx : R.fl x = x) : R.round8 (R.round8 x) = R.round8 x := by
  unfold Rt.round8
  set y := R.fl (rhe8 x) with hy
  have hp : (0 : K) < 10 ^ 8 := by positivity
  have h1 : |y - rhe8 x| ≤ |rhe8 x - x| := by
    have := hR.nearest (rhe8 x) x
    rwa [hx, abs_sub_comm x] at this
  have e1 := abs_rhe8_sub_eq x
  have e2 : |y - rhe8 x| * 10 ^ 8 = |y * 10 ^ 8 - rhe (x * 10 ^ 8)| := by
    rw [← abs_of_pos hp, ← abs_mul, abs_of_pos hp]; congr 1; unfold rhe8; field_simp
  have h2 : |y * 10 ^ 8 - rhe (x * 10 ^ 8)| ≤ |x * 10 ^ 8 - rhe (x * 10 ^ 8)| := by
    rw [← e2]
    calc _ ≤ |rhe8 x - x| * 10 ^ 8 := by gcongr
      _ = _ := by rw [e1]; field_simp
  have : rhe (y * 10 ^ 8) = rhe (x * 10 ^ 8) := by
    rw [rhe_eq_iff]
    have h3 := abs_sub_rhe_le (x * 10 ^ 8)
    rcases lt_or_eq_of_le (h2.trans h3) with h4 | h4
    · exact Or.inl h4
    · exact Or.inr ⟨h4, rhe_tie_even _ (le_antisymm h3 (h4 ▸ h2))⟩
  have : rhe8 y = rhe8 x := by unfold rhe8; rw [this]
  rw [this]

theorem round8_fl (x : K) : R.fl (R.round8 x) = R.round8 x := hR.idem _

theorem coord_idem (x : K) : R.coord (R.coord x) = R.coord x := by
  unfold Rt.coord
  rw [hR.round8_fl, hR.round8_idem (hR.idem x)]

theorem coord_fl (x : K) : R.fl (R.coord x) = R.coord x := hR.idem _

theorem round8_mono {x y : K} (h : x ≤ y) : R.round8 x ≤ R.round8 y := hR.mono (rhe8_mono h)

theorem coord_mono {x y : K} (h : x ≤ y) : R.coord x ≤ R.coord y := hR.round8_mono (hR.mono h)

theorem round8_neg (x : K) : R.round8 (-x) = -R.round8 x := by
  unfold Rt.round8; rw [rhe8_neg, hR.neg]

theorem coord_neg (x : K) : R.coord (-x) = -R.coord x := by
  unfold Rt.coord; rw [hR.neg, hR.round8_neg]
end Rt.IsRounding

/-! ### binary64 -/

theorem fl64_zero : fl64 (0 : K) = 0 := by simp [fl64]

theorem fl64_neg (x : K) : fl64 (-x) = -fl64 x := by
  unfold fl64
  by_cases h : x = 0
  · simp [h]
  · have h' : -x ≠ 0 := neg_ne_zero.2 h
    simp only [h, h', if_false, abs_neg, neg_div, rhe_neg]
    push_cast; ring

/-- unit in the last place used by `fl64 x` -/
private theorem ulp_facts (x : K) (h : x ≠ 0) :
    let u := (2 : K) ^ (Int.log 2 |x| - 52)
    0 < u ∧ 2 ^ 52 * u ≤ |x| ∧ |x| < 2 ^ 53 * u := by
  intro u
  have hx : 0 < |x| := abs_pos.2 h
  have e : ∀ k : ℕ, (2 : K) ^ k * u = (2 : K) ^ (Int.log 2 |x| - 52 + k) := by
    intro k
    rw [zpow_add₀ (by norm_num), mul_comm, zpow_natCast]
  refine ⟨zpow_pos (by norm_num) _, ?_, ?_⟩
  · rw [e]
    have := Int.zpow_log_le_self (b := 2) (by norm_num) hx
    simpa using this
  · rw [e]
    have := Int.lt_zpow_succ_log_self (b := 2) (by norm_num) |x|
    have e3 : Int.log 2 |x| - 52 + ((53 : ℕ) : ℤ) = Int.log 2 |x| + 1 := by push_cast; ring
    rw [e3]; simpa using this

theorem fl64_rel (x : K) : |fl64 x - x| ≤ |x| / 2 ^ 53 := by
  by_cases h : x = 0
  · simp [h, fl64_zero]
  obtain ⟨hu, h1, h2⟩ := ulp_facts x h
  set u := (2 : K) ^ (Int.log 2 |x| - 52) with hud
  have e : fl64 x = rhe (x / u) * u := by simp [fl64, h, hud]
  have hr := abs_sub_rhe_le (x / u)
  have e2 : fl64 x - x = -((x / u - rhe (x / u)) * u) := by rw [e]; field_simp; ring
  rw [e2, abs_neg, abs_mul, abs_of_pos hu, le_div_iff₀ (by positivity)]
  calc |x / u - rhe (x / u)| * u * 2 ^ 53 ≤ 1 / 2 * u * 2 ^ 53 := by gcongr
    _ = 2 ^ 52 * u := by ring
    _ ≤ |x| := h1

/-- every value of `fl64` is an integer of at most 2^53 times a power of two; hence a multiple of any
smaller unit -/
private theorem fl64_mult (y : K) (k : ℤ) (h : (2 : K) ^ k * 2 ^ 52 ≤ |fl64 y|) :
    ∃ m : ℤ, fl64 y = m * (2 : K) ^ k := by
  by_cases hy : y = 0
  · subst hy; rw [fl64_zero]; exact ⟨0, by simp⟩
  obtain ⟨hu, h1, h2⟩ := ulp_facts y hy
  set l := Int.log 2 |y| - 52 with hl
  set u := (2 : K) ^ l with hud
  have e : fl64 y = rhe (y / u) * u := by simp [fl64, hy, hud, hl]
  by_cases hkl : k ≤ l
  · refine ⟨rhe (y / u) * 2 ^ (l - k).toNat, ?_⟩
    rw [e, hud]; push_cast
    rw [mul_assoc, ← zpow_natCast, ← zpow_add₀ (by norm_num)]
    congr 2; omega
  · -- then |fl64 y| ≤ 2^53 u ≤ 2^52 * 2^k, so equality holds and it is a multiple
    push Not at hkl
    have hle : |fl64 y| ≤ 2 ^ 53 * u := by
      have hb : |(rhe (y / u) : K)| ≤ 2 ^ 53 := by
        have a1 : y / u ≤ ((2 ^ 53 : ℤ) : K) := by
          rw [div_le_iff₀ hu]; push_cast; linarith [le_abs_self y]
        have a2 : ((-(2 ^ 53) : ℤ) : K) ≤ y / u := by
          rw [le_div_iff₀ hu]; push_cast; linarith [neg_abs_le y]
        have b1 := rhe_mono a1
        have b2 := rhe_mono a2
        rw [rhe_intCast] at b1 b2
        rw [abs_le]
        constructor
        · have : ((-(2 ^ 53) : ℤ) : K) ≤ rhe (y / u) := by exact_mod_cast b2
          push_cast at this; linarith
        · have : (rhe (y / u) : K) ≤ ((2 ^ 53 : ℤ) : K) := by exact_mod_cast b1
          push_cast at this; linarith
      rw [e, abs_mul, abs_of_pos hu]; gcongr
    have hk2 : 2 * u ≤ (2 : K) ^ k := by
      have : (2 : K) ^ (l + 1) ≤ 2 ^ k := zpow_le_zpow_right₀ (by norm_num) (by omega)
      rw [zpow_add₀ (by norm_num), zpow_one] at this
      rw [hud]; linarith
    have heq : |fl64 y| = 2 ^ 52 * (2 : K) ^ k := by
      apply le_antisymm
      · calc _ ≤ _ := hle
          _ = 2 ^ 52 * (2 * u) := by ring
          _ ≤ _ := by gcongr
      · linarith
    rcases abs_choice (fl64 y) with hc | hc
    · exact ⟨2 ^ 52, by rw [← hc, heq]; push_cast; ring⟩
    · exact ⟨-(2 ^ 52), by
        have : fl64 y = -|fl64 y| := by rw [hc]; ring
        rw [this, heq]; push_cast; ring⟩

theorem fl64_nearest (x y : K) : |fl64 x - x| ≤ |fl64 y - x| := by
  by_cases h : x = 0
  · subst h; rw [fl64_zero]; simp
  obtain ⟨hu, h1, h2⟩ := ulp_facts x h
  set k := Int.log 2 |x| - 52 with hk
  set u := (2 : K) ^ k with hud
  have e : fl64 x = rhe (x / u) * u := by simp [fl64, h, hud, hk]
  have near : ∀ m : ℤ, |fl64 x - x| ≤ |(m : K) * u - x| := by
    intro m
    have hr := rhe_nearest (x / u) m
    have e2 : fl64 x - x = -((x / u - rhe (x / u)) * u) := by rw [e]; field_simp; ring
    have e3 : (m : K) * u - x = -((x / u - m) * u) := by field_simp; ring
    rw [e2, e3, abs_neg, abs_neg, abs_mul, abs_mul]
    gcongr
  by_cases hc : u * 2 ^ 52 ≤ |fl64 y|
  · obtain ⟨m, hm⟩ := fl64_mult y k hc
    rw [hm]; exact near m
  · push Not at hc
    -- 2^52 u (with the sign of x) lies between fl64 y and x
    rcases le_total 0 x with hx | hx
    · rw [abs_of_nonneg hx] at h1
      have a := near (2 ^ 52)
      push_cast at a
      refine a.trans ?_
      have b := (abs_lt.1 hc).2
      rw [abs_of_nonpos (by linarith), abs_of_nonpos (by linarith)]; linarith
    · rw [abs_of_nonpos hx] at h1
      have a := near (-(2 ^ 52))
      push_cast at a
      refine a.trans ?_
      have b := (abs_lt.1 hc).1
      rw [abs_of_nonneg (by linarith), abs_of_nonneg (by linarith)]; linarith
end

theorem fl64_nonneg {x : ℚ} (h : 0 ≤ x) : 0 ≤ fl64 x := by
  have := fl64_nearest x (0 : ℚ)
  rw [fl64_zero, zero_sub, abs_neg, abs_of_nonneg h] at this
  linarith [(abs_le.1 this).1]

theorem sqrt64_nonneg (x : ℚ) : 0 ≤ sqrt64 x := by
  unfold sqrt64
  split_ifs with h
  · exact le_refl _
  · apply fl64_nonneg
    apply div_nonneg
    · split_ifs <;> positivity
    · exact zpow_nonneg (by norm_num) _

/-- The executable binary64 arithmetic is a correctly rounded arithmetic. -/
theorem Rt.b64_isRounding (t : Trig ℚ) (h : ℚ → ℚ → Int) : (Rt.b64 t h).IsRounding where
  nearest := fl64_nearest
  neg := fl64_neg
  rel := fl64_rel
  sq_neg x := by simp [Rt.b64]
  sq_nonneg x := fl64_nonneg (mul_self_nonneg x)
  sq_zero := by simp [Rt.b64, fl64_zero]
  sqrt_nonneg := sqrt64_nonneg
  sqrt_zero := by simp [Rt.b64, sqrt64]

section
variable {K : Type} [Field K] [LinearOrder K] [IsStrictOrderedRing K] [FloorRing K]
/-- Exact arithmetic is a special case of correctly rounded arithmetic. -/
theorem Rt.IsExact.isRounding {R : Rt K} (h : R.IsExact) : R.IsRounding where
  nearest x y := by simp [h.fl]
  neg x := by simp [h.fl]
  rel x := by simp only [h.fl, sub_self, abs_zero]; positivity
  sq_neg x := by simp [h.sq]
  sq_nonneg x := by rw [h.sq]; exact mul_self_nonneg x
  sq_zero := by simp [h.sq]
  sqrt_nonneg := h.sqrt_nonneg
  sqrt_zero := h.sqrt_zero
end
end Srep
