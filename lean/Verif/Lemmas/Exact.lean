import Verif.Model.Point
import Verif.Lemmas.Num

/-! Exact arithmetic: simplification of the runtime operations and the 8-decimal grid. -/

set_option linter.unusedSectionVars false

namespace Srep
variable {K : Type} [Field K] [LinearOrder K] [IsStrictOrderedRing K] [FloorRing K]

/-- `x` has at most 8 decimals. -/
def Grid (x : K) : Prop := ∃ n : ℤ, x = (n : K) / 10 ^ 8

theorem Grid.rhe8 {x : K} (h : Grid x) : rhe8 x = x := by
  obtain ⟨n, rfl⟩ := h; exact rhe8_grid n

theorem grid_rhe8 (x : K) : Grid (rhe8 x) := ⟨_, rfl⟩

theorem Grid.add {x y : K} (hx : Grid x) (hy : Grid y) : Grid (x + y) := by
  obtain ⟨n, rfl⟩ := hx; obtain ⟨m, rfl⟩ := hy
  exact ⟨n + m, by push_cast; ring⟩

theorem Grid.neg {x : K} (hx : Grid x) : Grid (-x) := by
  obtain ⟨n, rfl⟩ := hx
  exact ⟨-n, by push_cast; ring⟩

theorem Grid.sub {x y : K} (hx : Grid x) (hy : Grid y) : Grid (x - y) := by
  rw [sub_eq_add_neg]; exact hx.add hy.neg

theorem Grid.intMul {x : K} (k : ℤ) (hx : Grid x) : Grid (k * x) := by
  obtain ⟨n, rfl⟩ := hx
  exact ⟨k * n, by push_cast; ring⟩

theorem grid_zero : Grid (0 : K) := ⟨0, by simp⟩

theorem grid_intCast (n : ℤ) : Grid (n : K) := ⟨n * 10 ^ 8, by push_cast; field_simp; norm_num⟩

/-- two distinct grid numbers are at least one grid step apart -/
theorem Grid.le_of_lt_add {x y : K} (hx : Grid x) (hy : Grid y) (h : x < y + 1 / 10 ^ 8) : x ≤ y := by
  obtain ⟨n, rfl⟩ := hx; obtain ⟨m, rfl⟩ := hy
  have hp : (0 : K) < 10 ^ 8 := by positivity
  have : (n : K) < m + 1 := by
    have := (mul_lt_mul_iff_left₀ hp).2 h
    field_simp at this; exact this
  have : n < m + 1 := by exact_mod_cast this
  have : (n : K) ≤ m := by exact_mod_cast (by omega : n ≤ m)
  gcongr

theorem Grid.eq_of_abs_lt {x y : K} (hx : Grid x) (hy : Grid y) (h : |x - y| < 1 / 10 ^ 8) : x = y := by
  rw [abs_lt] at h
  exact le_antisymm (hx.le_of_lt_add hy (by linarith)) (hy.le_of_lt_add hx (by linarith))

namespace Rt.IsExact
variable {R : Rt K} (hE : R.IsExact)
include hE

theorem add' (x y : K) : R.add x y = x + y := hE.fl _
theorem sub' (x y : K) : R.sub x y = x - y := hE.fl _
theorem mul' (x y : K) : R.mul x y = x * y := hE.fl _
theorem div' (x y : K) : R.div x y = x / y := hE.fl _
theorem round8' (x : K) : R.round8 x = rhe8 x := hE.fl _
theorem coord' (x : K) : R.coord x = rhe8 x := by unfold Rt.coord; rw [hE.round8', hE.fl]
theorem eps' : R.eps = 1 / 10 ^ 8 := hE.div' _ _
theorem tol' : R.tol = 1 / 10 ^ 5 := by
  unfold Rt.tol; rw [hE.mul', hE.eps']; norm_num

theorem stored_iff (p : Pt K) : R.Stored p ↔ Grid p.x ∧ Grid p.y := by
  unfold Rt.Stored
  rw [hE.coord', hE.coord']
  constructor
  · rintro ⟨h1, h2⟩; exact ⟨h1 ▸ grid_rhe8 _, h2 ▸ grid_rhe8 _⟩
  · rintro ⟨h1, h2⟩; exact ⟨h1.rhe8, h2.rhe8⟩

theorem mkPt' (x y : K) : R.mkPt x y = ⟨rhe8 x, rhe8 y⟩ := by
  unfold Rt.mkPt; rw [hE.coord', hE.coord']

theorem mkPt_grid {x y : K} (hx : Grid x) (hy : Grid y) : R.mkPt x y = ⟨x, y⟩ := by
  rw [hE.mkPt', hx.rhe8, hy.rhe8]

theorem peq_iff (p q : Pt K) :
    R.peq p q = true ↔ |p.x - q.x| < 1 / 10 ^ 5 ∧ |p.y - q.y| < 1 / 10 ^ 5 := by
  unfold Rt.peq
  rw [hE.sub', hE.sub', hE.tol']
  simp

theorem sqrt_lt_iff {a c : K} (ha : 0 ≤ a) (hc : 0 < c) : R.sqrt a < c ↔ a < c * c := by
  have h1 := hE.sqrt_nonneg a
  have h2 := hE.sqrt_sq a ha
  constructor
  · intro h; rw [← h2]; nlinarith
  · intro h; by_contra hh; push Not at hh; nlinarith

theorem sqrt_le_iff {a c : K} (ha : 0 ≤ a) (hc : 0 ≤ c) : R.sqrt a ≤ c ↔ a ≤ c * c := by
  have h1 := hE.sqrt_nonneg a
  have h2 := hE.sqrt_sq a ha
  constructor
  · intro h; rw [← h2]; nlinarith
  · intro h; by_contra hh; push Not at hh; nlinarith

theorem sqrt_eq_zero {a : K} (ha : 0 ≤ a) : R.sqrt a = 0 ↔ a = 0 := by
  constructor
  · intro h; rw [← hE.sqrt_sq a ha, h, mul_zero]
  · rintro rfl; exact hE.sqrt_zero

theorem sqrt_inj {a b : K} (ha : 0 ≤ a) (hb : 0 ≤ b) (h : R.sqrt a = R.sqrt b) : a = b := by
  rw [← hE.sqrt_sq a ha, h, hE.sqrt_sq b hb]

theorem sqrt_mono {a b : K} (ha : 0 ≤ a) (h : a ≤ b) : R.sqrt a ≤ R.sqrt b := by
  rw [hE.sqrt_le_iff ha (hE.sqrt_nonneg b), hE.sqrt_sq b (ha.trans h)]; exact h

theorem distance' (p q : Pt K) :
    R.distance p q = R.sqrt ((p.x - q.x) * (p.x - q.x) + (p.y - q.y) * (p.y - q.y)) := by
  unfold Rt.distance
  rw [hE.add', hE.sq, hE.sq, hE.sub', hE.sub']

theorem distance_sq (p q : Pt K) :
    R.distance p q * R.distance p q
      = (p.x - q.x) * (p.x - q.x) + (p.y - q.y) * (p.y - q.y) := by
  rw [hE.distance', hE.sqrt_sq]
  nlinarith [mul_self_nonneg (p.x - q.x), mul_self_nonneg (p.y - q.y)]

end Rt.IsExact

end Srep
