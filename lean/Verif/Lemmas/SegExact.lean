import Verif.Spec.Geom
import Verif.Lemmas.Line
import Mathlib.Tactic.LinearCombination

/-! Segment functions in exact arithmetic. -/

set_option linter.unusedSectionVars false

namespace Srep
variable {K : Type} [Field K] [LinearOrder K] [IsStrictOrderedRing K] [FloorRing K]

theorem Pt.ext' {p q : Pt K} (hx : p.x = q.x) (hy : p.y = q.y) : p = q := by
  cases p; cases q; simp_all

theorem lerp_zero (a b : Pt K) : lerp a b 0 = a := by simp [lerp]
theorem lerp_one (a b : Pt K) : lerp a b 1 = b := by simp [lerp]

theorem lerp_inj {a b : Pt K} (h : a ≠ b) {t u : K} (e : lerp a b t = lerp a b u) : t = u := by
  simp only [lerp, Pt.mk.injEq] at e
  by_cases hx : b.x - a.x = 0
  · have hy : b.y - a.y ≠ 0 := by
      intro hy; exact h (Pt.ext' (by linarith) (by linarith))
    have : t * (b.y - a.y) = u * (b.y - a.y) := by linarith [e.2]
    exact mul_right_cancel₀ hy this
  · have : t * (b.x - a.x) = u * (b.x - a.x) := by linarith [e.1]
    exact mul_right_cancel₀ hx this

theorem det3_eq_zero_iff {a b : Pt K} (h : a ≠ b) (c : Pt K) : det3 a b c = 0 ↔ OnLine a b c := by
  constructor
  · intro hd
    unfold det3 at hd
    by_cases hx : b.x - a.x = 0
    · have hy : b.y - a.y ≠ 0 := by
        intro hy; exact h (Pt.ext' (by linarith) (by linarith))
      refine ⟨(c.y - a.y) / (b.y - a.y), Pt.ext' ?_ ?_⟩
      · have hh : (b.y - a.y) * (c.x - a.x) = 0 := by rw [hx] at hd; linarith
        have := (mul_eq_zero.1 hh).resolve_left hy
        simp only [lerp, hx, mul_zero, add_zero]; linarith
      · simp only [lerp]; field_simp; ring
    · refine ⟨(c.x - a.x) / (b.x - a.x), Pt.ext' ?_ ?_⟩
      · simp only [lerp]; field_simp; ring
      · simp only [lerp]; field_simp; linarith
  · rintro ⟨t, rfl⟩
    unfold det3 lerp; ring

namespace Rt.IsExact
variable {R : Rt K} (hE : R.IsExact)
include hE

theorem dx' (s : Seg K) : R.dx s = s.j.x - s.i.x := hE.sub' _ _
theorem dy' (s : Seg K) : R.dy s = s.j.y - s.i.y := hE.sub' _ _

theorem cross' (s o : Seg K) :
    R.cross s o = (s.j.x - s.i.x) * (o.j.y - o.i.y) - (s.j.y - s.i.y) * (o.j.x - o.i.x) := by
  unfold Rt.cross; rw [hE.sub', hE.mul', hE.mul', hE.dx', hE.dy', hE.dx', hE.dy']

theorem dot' (s o : Seg K) :
    R.dot s o = (s.j.x - s.i.x) * (o.j.x - o.i.x) + (s.j.y - s.i.y) * (o.j.y - o.i.y) := by
  unfold Rt.dot; rw [hE.add', hE.mul', hE.mul', hE.dx', hE.dy', hE.dx', hE.dy']

theorem norm' (s : Seg K) : R.norm s = R.distance s.i s.j := by
  unfold Rt.norm
  rw [hE.distance', hE.add', hE.sq, hE.sq, hE.dx', hE.dy']
  congr 1; ring

theorem norm_sq (s : Seg K) : R.norm s * R.norm s
    = (s.j.x - s.i.x) * (s.j.x - s.i.x) + (s.j.y - s.i.y) * (s.j.y - s.i.y) := by
  rw [hE.norm', hE.distance_sq]; ring

theorem norm_nonneg (s : Seg K) : 0 ≤ R.norm s := hE.sqrt_nonneg _

theorem norm_eq_zero (s : Seg K) : R.norm s = 0 ↔ s.i = s.j := by
  constructor
  · intro h
    have := hE.norm_sq s
    rw [h] at this
    have a := mul_self_nonneg (s.j.x - s.i.x)
    have b := mul_self_nonneg (s.j.y - s.i.y)
    have hx : s.j.x - s.i.x = 0 := mul_self_eq_zero.1 (by linarith)
    have hy : s.j.y - s.i.y = 0 := mul_self_eq_zero.1 (by linarith)
    exact Pt.ext' (by linarith) (by linarith)
  · intro h
    rw [hE.norm', h, hE.isRounding.distance_self]

theorem norm_pos {s : Seg K} (h : s.i ≠ s.j) : 0 < R.norm s :=
  lt_of_le_of_ne (hE.norm_nonneg s) (fun e => h ((hE.norm_eq_zero s).1 e.symm))

theorem crossStartVal' (s o : Seg K) : R.crossStartVal s o = det3 s.i s.j o.j := by
  unfold Rt.crossStartVal det3
  simp only [hE.sub', hE.mul']

theorem isOnLine_iff (s : Seg K) (p : Pt K) :
    R.isOnLine s p = true ↔
      R.peq p s.i = true ∨ R.peq p s.j = true ∨ |det3 s.i s.j p| < 1 / 10 ^ 8 := by
  unfold Rt.isOnLine
  rw [hE.crossStartVal', hE.eps']
  simp [or_assoc]

theorem isRight_iff (s : Seg K) (p : Pt K) : R.isRight s p = true ↔ det3 s.i s.j p < 0 := by
  unfold Rt.isRight
  rw [hE.cross']
  simp [det3]

theorem isInternal_iff (s : Seg K) (p : Pt K) :
    R.isInternal s p = true ↔
      min s.i.x s.j.x - 1 / 10 ^ 8 < p.x ∧ p.x ≤ max s.i.x s.j.x + 1 / 10 ^ 8 ∧
      min s.i.y s.j.y - 1 / 10 ^ 8 ≤ p.y ∧ p.y ≤ max s.i.y s.j.y + 1 / 10 ^ 8 := by
  unfold Rt.isInternal
  rw [hE.eps']
  simp only [hE.sub', hE.add', Bool.and_eq_true, decide_eq_true_eq, and_assoc]

theorem isParallel_iff (s o : Seg K) :
    R.isParallel s o = true ↔
      (s.j.x - s.i.x) * (o.j.y - o.i.y) - (s.j.y - s.i.y) * (o.j.x - o.i.x) = 0 := by
  unfold Rt.isParallel; rw [hE.cross']; simp

theorem ipDen' (s o : Seg K) : R.ipDen s o
    = (s.j.x - s.i.x) * (o.j.y - o.i.y) - (s.j.y - s.i.y) * (o.j.x - o.i.x) := by
  unfold Rt.ipDen; simp only [hE.sub', hE.mul']; ring

/-- foot of the perpendicular: the closest point of the line, at distance |det| / length -/
theorem foot {s : Seg K} (hs : s.i ≠ s.j) (p : Pt K) :
    ∃ q, OnLine s.i s.j q ∧ (∀ r, OnLine s.i s.j r → R.distance p q ≤ R.distance p r) ∧
      R.distance p q * R.norm s = |det3 s.i s.j p| := by
  have hn := hE.norm_pos hs
  have hn2 := hE.norm_sq s
  set N := R.norm s
  have hN : N * N ≠ 0 := (mul_pos hn hn).ne'
  set t := ((p.x - s.i.x) * (s.j.x - s.i.x) + (p.y - s.i.y) * (s.j.y - s.i.y)) / (N * N) with ht
  have htN : t * (N * N) = (p.x - s.i.x) * (s.j.x - s.i.x) + (p.y - s.i.y) * (s.j.y - s.i.y) := by
    rw [ht]; field_simp
  have key : ∀ u, (p.x - (lerp s.i s.j u).x) * (p.x - (lerp s.i s.j u).x)
      + (p.y - (lerp s.i s.j u).y) * (p.y - (lerp s.i s.j u).y)
      = (p.x - (lerp s.i s.j t).x) * (p.x - (lerp s.i s.j t).x)
      + (p.y - (lerp s.i s.j t).y) * (p.y - (lerp s.i s.j t).y) + (u - t) * (u - t) * (N * N) := by
    intro u
    simp only [lerp]
    have e : (u - t) * (u - t) * (N * N) = u * u * (N * N) - 2 * u * (t * (N * N)) + t * (t * (N * N)) := by
      ring
    have e2 : t * t * (N * N) = t * (t * (N * N)) := by ring
    rw [e, htN, hn2]
    rw [htN, hn2] at e2
    linear_combination (-1 : K) * e2
  refine ⟨lerp s.i s.j t, ⟨t, rfl⟩, ?_, ?_⟩
  · rintro r ⟨u, rfl⟩
    rw [hE.distance', hE.distance']
    apply hE.sqrt_mono
    · nlinarith [mul_self_nonneg (p.x - (lerp s.i s.j t).x), mul_self_nonneg (p.y - (lerp s.i s.j t).y)]
    · have := key u
      have h1 := mul_nonneg (mul_self_nonneg (u - t)) (mul_self_nonneg N)
      linarith
  · have hd := hE.distance_sq p (lerp s.i s.j t)
    have hk := key 0
    rw [lerp_zero] at hk
    have e : (R.distance p (lerp s.i s.j t) * N) * (R.distance p (lerp s.i s.j t) * N)
        = det3 s.i s.j p * det3 s.i s.j p := by
      have : (R.distance p (lerp s.i s.j t) * N) * (R.distance p (lerp s.i s.j t) * N)
        = (R.distance p (lerp s.i s.j t) * R.distance p (lerp s.i s.j t)) * (N * N) := by ring
      rw [this, hd]
      have hk' : (p.x - (lerp s.i s.j t).x) * (p.x - (lerp s.i s.j t).x)
          + (p.y - (lerp s.i s.j t).y) * (p.y - (lerp s.i s.j t).y)
          = (p.x - s.i.x) * (p.x - s.i.x) + (p.y - s.i.y) * (p.y - s.i.y) - t * t * (N * N) := by
        linear_combination (-1 : K) * hk
      rw [hk', sub_mul]
      have : t * t * (N * N) * (N * N) = (t * (N * N)) * (t * (N * N)) := by ring
      rw [this, htN, hn2]
      unfold det3
      ring
    have h1 : 0 ≤ R.distance p (lerp s.i s.j t) := by rw [hE.distance']; exact hE.sqrt_nonneg _
    have := abs_eq_abs.2 (mul_self_eq_mul_self_iff.1 e)
    rw [← this, abs_of_nonneg (mul_nonneg h1 hn.le)]

end Rt.IsExact
end Srep
