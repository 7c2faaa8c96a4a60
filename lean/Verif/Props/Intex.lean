import Verif.Model.Intex
import Verif.Props.MantelB
import Verif.Props.RayDraw

/-! The reference points of shells (C94). -/

set_option linter.unusedSectionVars false

namespace Srep
open Rt Ray
variable {K : Type} [Field K] [LinearOrder K] [IsStrictOrderedRing K] [FloorRing K] {R : Rt K}

/-- the shell with exact corners -/
def shell (m : MantelDim K) (bottom : SegCls) : List (Seg K) :=
  outline ⟨m.posH + m.d0 / 2, m.posV⟩ ⟨m.posH + m.d1 / 2, m.posV + m.h⟩ ⟨m.posH - m.d1 / 2, m.posV + m.h⟩
    ⟨m.posH - m.d0 / 2, m.posV⟩ bottom

/-- the right and the left wall -/
def rightWall (m : MantelDim K) : Seg K := ⟨⟨m.posH + m.d0 / 2, m.posV⟩, ⟨m.posH + m.d1 / 2, m.posV + m.h⟩, .wall⟩
def leftWall (m : MantelDim K) : Seg K := ⟨⟨m.posH - m.d1 / 2, m.posV + m.h⟩, ⟨m.posH - m.d0 / 2, m.posV⟩, .wall⟩
def bottomWall (m : MantelDim K) : Seg K := ⟨⟨m.posH - m.d0 / 2, m.posV⟩, ⟨m.posH + m.d0 / 2, m.posV⟩, .wall⟩

/-- dimensions on the coordinate grid, lower diameter at least 0.01, height at least 1e-6, not flatter than 1:10 -/
structure Sound (m : MantelDim K) : Prop where
  posH : Grid m.posH
  posV : Grid m.posV
  h : Grid m.h
  d0 : Grid (m.d0 / 2)
  d1 : Grid (m.d1 / 2)
  wide : 1 / 100 ≤ m.d0
  top : 0 < m.d1
  high : 1 / 10 ^ 6 ≤ m.h
  steep : |m.d1 - m.d0| ≤ 20 * m.h

theorem shell_convex {m : MantelDim K} (h0 : 0 < m.d0) (h1 : 0 < m.d1) (hh : 0 < m.h) (b : SegCls) : ConvexCcw (shell m b) where
  chain := by
    intro k hk
    have : k < 4 := hk
    interval_cases k <;> simp [shell, outline]
  nodup := by
    simp only [shell, outline, List.map_cons, List.map_nil, List.nodup_cons, List.mem_cons, List.not_mem_nil, or_false, not_or,
      Pt.mk.injEq, not_and, not_false_eq_true, List.nodup_nil, and_true]
    refine ⟨⟨fun _ h => ?_, fun _ h => ?_, fun h => ?_⟩, ⟨fun h => ?_, fun _ h => ?_⟩, fun _ h => ?_⟩ <;> linarith
  left := by
    intro s hs o ho
    simp only [shell, outline, List.mem_cons, List.not_mem_nil, or_false] at hs ho
    have p0 := mul_pos h0 hh
    have p1 := mul_pos h1 hh
    rcases hs with rfl | rfl | rfl | rfl <;> rcases ho with rfl | rfl | rfl | rfl <;>
      first
      | exact Or.inl rfl
      | exact Or.inr (Or.inl rfl)
      | (right; right; unfold det3; dsimp only; ring_nf; nlinarith)

/-- a point at the height `τ h` (up to rounding) is inside if it is nearer to the axis than the walls, with a margin -/
theorem shell_inside {m : MantelDim K} (hs : Sound m) (b : SegCls) {τ ξ δ : K} (h1 : 1 / 100 ≤ τ) (h2 : τ ≤ 99 / 100)
    (hδ : |δ| ≤ 1 / (2 * 10 ^ 8)) (hξ : |ξ| + 6 / 10 ^ 8 ≤ (1 - τ) * (m.d0 / 2) + τ * (m.d1 / 2)) :
    InsideCcw (shell m b) ⟨m.posH + ξ, m.posV + τ * m.h + δ⟩ := by
  have hh : 0 < m.h := lt_of_lt_of_le (by positivity) hs.high
  have hd0 : 0 < m.d0 := lt_of_lt_of_le (by positivity) hs.wide
  obtain ⟨δ1, δ2⟩ := abs_le.1 hδ
  obtain ⟨s1, s2⟩ := abs_le.1 hs.steep
  have hb : |(m.d1 - m.d0) / 2 * δ| ≤ 5 / 10 ^ 8 * m.h := by
    rw [abs_mul, abs_div, abs_of_pos (by norm_num : (0 : K) < 2)]
    calc |m.d1 - m.d0| / 2 * |δ| ≤ (20 * m.h) / 2 * (1 / (2 * 10 ^ 8)) := by gcongr; exact hs.steep
      _ = 5 / 10 ^ 8 * m.h := by ring
  obtain ⟨b1, b2⟩ := abs_le.1 hb
  have hξ1 := le_abs_self ξ
  have hξ2 := neg_abs_le ξ
  have hhi := hs.high
  have e8 : (1 : K) / (2 * 10 ^ 8) = 1 / 2 * (1 / 10 ^ 8) := by norm_num
  intro s hs'
  simp only [shell, outline, List.mem_cons, List.not_mem_nil, or_false] at hs'
  have hm : ∀ z : K, 6 / 10 ^ 8 ≤ z → 6 / 10 ^ 8 * m.h ≤ m.h * z := by
    intro z hz
    rw [mul_comm]
    gcongr
  have hp8 : (0 : K) < 1 / 10 ^ 8 * m.h := by positivity
  rcases hs' with rfl | rfl | rfl | rfl
  · have e : det3 (⟨m.posH + m.d0 / 2, m.posV⟩ : Pt K) ⟨m.posH + m.d1 / 2, m.posV + m.h⟩
        ⟨m.posH + ξ, m.posV + τ * m.h + δ⟩ = (m.d1 - m.d0) / 2 * δ +
          m.h * ((1 - τ) * (m.d0 / 2) + τ * (m.d1 / 2) - ξ) := by
      unfold det3; ring
    rw [e]
    have := hm _ (by linarith : 6 / 10 ^ 8 ≤ (1 - τ) * (m.d0 / 2) + τ * (m.d1 / 2) - ξ)
    linarith
  · have e : det3 (⟨m.posH + m.d1 / 2, m.posV + m.h⟩ : Pt K) ⟨m.posH - m.d1 / 2, m.posV + m.h⟩
        ⟨m.posH + ξ, m.posV + τ * m.h + δ⟩ = m.d1 * ((1 - τ) * m.h - δ) := by
      unfold det3; ring
    rw [e]
    apply mul_pos hs.top
    have : 1 / 100 * (1 / 10 ^ 6) ≤ (1 - τ) * m.h := by
      apply mul_le_mul (by linarith) hhi (by positivity) (by linarith)
    norm_num at this ⊢
    linarith
  · have e : det3 (⟨m.posH - m.d1 / 2, m.posV + m.h⟩ : Pt K) ⟨m.posH - m.d0 / 2, m.posV⟩
        ⟨m.posH + ξ, m.posV + τ * m.h + δ⟩ = (m.d1 - m.d0) / 2 * δ +
          m.h * ((1 - τ) * (m.d0 / 2) + τ * (m.d1 / 2) + ξ) := by
      unfold det3; ring
    rw [e]
    have := hm _ (by linarith : 6 / 10 ^ 8 ≤ (1 - τ) * (m.d0 / 2) + τ * (m.d1 / 2) + ξ)
    linarith
  · have e : det3 (⟨m.posH - m.d0 / 2, m.posV⟩ : Pt K) ⟨m.posH + m.d0 / 2, m.posV⟩
        ⟨m.posH + ξ, m.posV + τ * m.h + δ⟩ = m.d0 * (τ * m.h + δ) := by
      unfold det3; ring
    rw [e]
    apply mul_pos hd0
    have : 1 / 100 * (1 / 10 ^ 6) ≤ τ * m.h := by
      apply mul_le_mul h1 hhi (by positivity) (by linarith)
    norm_num at this ⊢
    linarith

/-- beyond one of the two walls, at the height of the shell -/
def BeyondWall (m : MantelDim K) (p : Pt K) : Prop :=
  OutsideCcw [rightWall m, leftWall m] p ∧ m.posV < p.y ∧ p.y < m.posV + m.h

theorem BeyondWall.outside {m : MantelDim K} {p : Pt K} (h : BeyondWall m p) (b : SegCls) : OutsideCcw (shell m b) p := by
  obtain ⟨⟨s, hs, h2⟩, -⟩ := h
  refine ⟨s, ?_, h2⟩
  simp only [List.mem_cons, List.not_mem_nil, or_false] at hs
  rcases hs with rfl | rfl <;> simp [shell, outline, rightWall, leftWall]

/-- … and outside if it is farther away from the axis -/
theorem shell_outside {m : MantelDim K} (hs : Sound m) {τ ξ δ : K} (ht0 : 1 / 100 ≤ τ) (ht1 : τ ≤ 99 / 100)
    (hδ : |δ| ≤ 1 / (2 * 10 ^ 8)) (hξ : (1 - τ) * (m.d0 / 2) + τ * (m.d1 / 2) + 6 / 10 ^ 8 ≤ |ξ|) :
    BeyondWall m ⟨m.posH + ξ, m.posV + τ * m.h + δ⟩ := by
  have hh : 0 < m.h := lt_of_lt_of_le (by positivity) hs.high
  have hb : |(m.d1 - m.d0) / 2 * δ| ≤ 5 / 10 ^ 8 * m.h := by
    rw [abs_mul, abs_div, abs_of_pos (by norm_num : (0 : K) < 2)]
    calc |m.d1 - m.d0| / 2 * |δ| ≤ (20 * m.h) / 2 * (1 / (2 * 10 ^ 8)) := by gcongr; exact hs.steep
      _ = 5 / 10 ^ 8 * m.h := by ring
  obtain ⟨b1, b2⟩ := abs_le.1 hb
  have hp8 : (0 : K) < 1 / 10 ^ 8 * m.h := by positivity
  have hm : ∀ z : K, z ≤ -(6 / 10 ^ 8) → m.h * z ≤ -(6 / 10 ^ 8) * m.h := by
    intro z hz
    rw [mul_comm]
    gcongr
  have hy : (1 : K) / (2 * 10 ^ 8) < 1 / 100 * (1 / 10 ^ 6) := by norm_num
  have hy1 : (1 : K) / 100 * (1 / 10 ^ 6) ≤ τ * m.h := mul_le_mul ht0 hs.high (by positivity) (le_trans (by norm_num) ht0)
  have hy2 : (1 : K) / 100 * (1 / 10 ^ 6) ≤ (1 - τ) * m.h :=
    mul_le_mul (by linarith) hs.high (by positivity) (by linarith [(by norm_num : (99 : K) / 100 < 1)])
  have hδ' := abs_le.1 hδ
  refine ⟨?_, by dsimp only; linarith [hδ'.1], by dsimp only; linarith [hδ'.2]⟩
  rcases le_abs'.1 hξ with h | h
  · refine ⟨⟨⟨m.posH - m.d1 / 2, m.posV + m.h⟩, ⟨m.posH - m.d0 / 2, m.posV⟩, .wall⟩, by simp [rightWall, leftWall], ?_⟩
    have e : det3 (⟨m.posH - m.d1 / 2, m.posV + m.h⟩ : Pt K) ⟨m.posH - m.d0 / 2, m.posV⟩
        ⟨m.posH + ξ, m.posV + τ * m.h + δ⟩ = (m.d1 - m.d0) / 2 * δ +
          m.h * ((1 - τ) * (m.d0 / 2) + τ * (m.d1 / 2) + ξ) := by
      unfold det3; ring
    rw [e]
    have := hm ((1 - τ) * (m.d0 / 2) + τ * (m.d1 / 2) + ξ) (by linarith)
    linarith
  · refine ⟨⟨⟨m.posH + m.d0 / 2, m.posV⟩, ⟨m.posH + m.d1 / 2, m.posV + m.h⟩, .wall⟩, by simp [rightWall, leftWall], ?_⟩
    have e : det3 (⟨m.posH + m.d0 / 2, m.posV⟩ : Pt K) ⟨m.posH + m.d1 / 2, m.posV + m.h⟩
        ⟨m.posH + ξ, m.posV + τ * m.h + δ⟩ = (m.d1 - m.d0) / 2 * δ +
          m.h * ((1 - τ) * (m.d0 / 2) + τ * (m.d1 / 2) - ξ) := by
      unfold det3; ring
    rw [e]
    have := hm ((1 - τ) * (m.d0 / 2) + τ * (m.d1 / 2) - ξ) (by linarith)
    linarith

/-! ### the points -/

/-- C94: the distances of the reference points from the walls.  Only that of the right wall is limited by the tenth part of the
height and by 0.002. -/
theorem C94_offsets (hE : R.IsExact) {m : MantelDim K} (hd : 0 ≤ m.d0) (hh : 0 < m.h) :
    R.intexOffset m.posH 50000 (2 / 1000) (rightWall m) = min (m.h / 10) (min (m.d0 / 10 ^ 5) (2 / 1000)) ∧
    R.intexOffset m.posH 50000 (2 / 1000) (leftWall m) = m.d0 / 10 ^ 5 ∧
    R.intexOffset m.posH 50000 (2 / 1000) (bottomWall m) = m.d0 / 10 ^ 5 := by
  have n1 : ¬ m.posV + m.h < m.posV := by linarith
  have n2 : m.posV < m.posV + m.h := by linarith
  unfold Rt.intexOffset lowUp rightWall leftWall bottomWall
  dsimp only
  rw [if_neg n1, if_pos n2, if_neg (lt_irrefl _)]
  simp only [hE.div', hE.sub', hE.fl]
  refine ⟨?_, ?_, ?_⟩
  · rw [show m.posV + m.h - m.posV = m.h by ring, show (m.posH + m.d0 / 2 - m.posH) / 50000 = m.d0 / 10 ^ 5 by ring]
    apply abs_of_nonneg
    refine le_min (by positivity) (le_min (by positivity) (by positivity))
  · rw [show m.posV + m.h - m.posV = m.h by ring, show (m.posH - m.d0 / 2 - m.posH) / 50000 = -(m.d0 / 10 ^ 5) by ring]
    have h0 : 0 ≤ m.d0 / 10 ^ 5 := by positivity
    have h1 : (0 : K) ≤ 2 / 1000 := by positivity
    have h2 : 0 ≤ m.h / 10 := by positivity
    have e1 : min (-(m.d0 / 10 ^ 5)) (2 / 1000) = -(m.d0 / 10 ^ 5) := min_eq_left (by linarith)
    rw [e1, min_eq_right (by linarith), abs_neg, abs_of_nonneg h0]
  · rw [sub_self, zero_div, show (m.posH - m.d0 / 2 - m.posH) / 50000 = -(m.d0 / 10 ^ 5) by ring]
    have h0 : 0 ≤ m.d0 / 10 ^ 5 := by positivity
    have h1 : (0 : K) ≤ 2 / 1000 := by positivity
    have e1 : min (-(m.d0 / 10 ^ 5)) (2 / 1000) = -(m.d0 / 10 ^ 5) := min_eq_left (by linarith)
    rw [e1, min_eq_right (by linarith), abs_neg, abs_of_nonneg h0]

/-- the two points at one ratio, up to rounding -/
theorem intexPair_near (hE : R.IsExact) (posH c cap : K) (s : Seg K) (r : K) (h0 : 0 < r) (h1 : r < 1) :
    ∃ a b dy : K, R.intexPair posH c cap s r =
        .ok [⟨s.i.x + r * (s.j.x - s.i.x) + R.intexOffset posH c cap s + a, s.i.y + r * (s.j.y - s.i.y) + dy⟩,
          ⟨s.i.x + r * (s.j.x - s.i.x) - R.intexOffset posH c cap s + b, s.i.y + r * (s.j.y - s.i.y) + dy⟩] ∧
      |a| ≤ 1 / 10 ^ 8 ∧ |b| ≤ 1 / 10 ^ 8 ∧ |dy| ≤ 1 / (2 * 10 ^ 8) ∧
      dy = rhe8 (s.i.y + r * (s.j.y - s.i.y)) - (s.i.y + r * (s.j.y - s.i.y)) := by
  generalize hoff : R.intexOffset posH c cap s = e
  have ex : (1 - r) * s.i.x + r * s.j.x = s.i.x + r * (s.j.x - s.i.x) := by ring
  have ey : (1 - r) * s.i.y + r * s.j.y = s.i.y + r * (s.j.y - s.i.y) := by ring
  have hy2 : rhe8 (rhe8 (s.i.y + r * (s.j.y - s.i.y))) = rhe8 (s.i.y + r * (s.j.y - s.i.y)) := (grid_rhe8 _).rhe8
  have hp : R.intexPair posH c cap s r = .ok [⟨rhe8 (rhe8 (s.i.x + r * (s.j.x - s.i.x)) + e), rhe8 (s.i.y + r * (s.j.y - s.i.y))⟩,
      ⟨rhe8 (rhe8 (s.i.x + r * (s.j.x - s.i.x)) - e), rhe8 (s.i.y + r * (s.j.y - s.i.y))⟩] := by
    unfold Rt.intexPair Rt.pointAtRatio
    rw [hoff, hE.fl, if_neg (not_not.2 ⟨h0.le, h1.le⟩), if_neg h0.ne', if_neg h1.ne]
    simp only [Except.map, hE.mkPt', hE.add', hE.sub', hE.mul', ex, ey, hy2]
  refine ⟨rhe8 (rhe8 (s.i.x + r * (s.j.x - s.i.x)) + e) - (s.i.x + r * (s.j.x - s.i.x) + e),
    rhe8 (rhe8 (s.i.x + r * (s.j.x - s.i.x)) - e) - (s.i.x + r * (s.j.x - s.i.x) - e),
    rhe8 (s.i.y + r * (s.j.y - s.i.y)) - (s.i.y + r * (s.j.y - s.i.y)), ?_, ?_, ?_, ?_, rfl⟩
  · rw [hp]
    simp only [add_sub_cancel]
  · have a1 := abs_le.1 (abs_rhe8_sub_le (s.i.x + r * (s.j.x - s.i.x)))
    have a2 := abs_le.1 (abs_rhe8_sub_le (rhe8 (s.i.x + r * (s.j.x - s.i.x)) + e))
    norm_num at a1 a2 ⊢
    rw [abs_le]
    constructor <;> linarith
  · have a1 := abs_le.1 (abs_rhe8_sub_le (s.i.x + r * (s.j.x - s.i.x)))
    have a2 := abs_le.1 (abs_rhe8_sub_le (rhe8 (s.i.x + r * (s.j.x - s.i.x)) - e))
    norm_num at a1 a2 ⊢
    rw [abs_le]
    constructor <;> linarith
  · exact abs_rhe8_sub_le _

theorem near_out {w e a : K} (hw : 0 ≤ w) (he : 1 / 10 ^ 7 ≤ e) (ha : |a| ≤ 1 / 10 ^ 8) : w + 6 / 10 ^ 8 ≤ |w + e + a| := by
  obtain ⟨a1, a2⟩ := abs_le.1 ha
  refine le_trans ?_ (le_abs_self _)
  norm_num at *
  linarith

theorem near_in {w e a d : K} (hd : 1 / 100 ≤ d) (hw : d / 200 ≤ w) (he : 1 / 10 ^ 7 ≤ e) (he' : e ≤ d / 10 ^ 5) (ha : |a| ≤ 1 / 10 ^ 8) :
    |w - e + a| + 6 / 10 ^ 8 ≤ w := by
  obtain ⟨a1, a2⟩ := abs_le.1 ha
  have : |w - e + a| ≤ w - 6 / 10 ^ 8 := by
    norm_num at *
    rw [abs_le]
    constructor <;> linarith
  linarith

theorem sound_offsets (hE : R.IsExact) {m : MantelDim K} (hs : Sound m) :
    (1 / 10 ^ 7 ≤ R.intexOffset m.posH 50000 (2 / 1000) (rightWall m) ∧
      R.intexOffset m.posH 50000 (2 / 1000) (rightWall m) ≤ m.d0 / 10 ^ 5) ∧
    1 / 10 ^ 7 ≤ R.intexOffset m.posH 50000 (2 / 1000) (leftWall m) ∧
      R.intexOffset m.posH 50000 (2 / 1000) (leftWall m) ≤ m.d0 / 10 ^ 5 := by
  have hh : 0 < m.h := lt_of_lt_of_le (by positivity) hs.high
  have hd0 : 0 < m.d0 := lt_of_lt_of_le (by positivity) hs.wide
  obtain ⟨e1, e2, -⟩ := C94_offsets hE hd0.le hh
  have hw := hs.wide
  have hi := hs.high
  rw [e1, e2]
  have h1 : (1 : K) / 10 ^ 7 ≤ m.d0 / 10 ^ 5 := by norm_num at *; linarith
  refine ⟨⟨le_min ?_ (le_min h1 (by norm_num)), (min_le_right _ _).trans (min_le_left _ _)⟩, h1, le_refl _⟩
  norm_num at *; linarith

/-- the half width of the shell at the height `τ h` -/
def halfWidth (m : MantelDim K) (τ : K) : K := (1 - τ) * (m.d0 / 2) + τ * (m.d1 / 2)

theorem halfWidth_ge {m : MantelDim K} (hs : Sound m) {τ : K} (h1 : 0 ≤ τ) (h2 : τ ≤ 99 / 100) : m.d0 / 200 ≤ halfWidth m τ := by
  have hd0 : 0 < m.d0 := lt_of_lt_of_le (by positivity) hs.wide
  unfold halfWidth
  nlinarith [mul_nonneg h1 hs.top.le, mul_nonneg (sub_nonneg.2 h2) hd0.le]

theorem intexFour_ok {posH c cap : K} {s : Seg K} {p q r t : Pt K} (h1 : R.intexPair posH c cap s (1 / 100) = .ok [p, q])
    (h2 : R.intexPair posH c cap s (99 / 100) = .ok [r, t]) : R.intexFour posH c cap s = .ok [p, q, r, t] := by
  unfold Rt.intexFour
  rw [h1, h2]
  rfl

/-- C94: every wall of a sound shell gets four reference points, two strictly inside of the shell and
two strictly beyond the wall (or the opposite one), thus strictly outside. -/
theorem C94_points (hE : R.IsExact) {m : MantelDim K} (hs : Sound m) (b : SegCls) :
    (∃ p q r t, R.intexFour m.posH 50000 (2 / 1000) (rightWall m) = .ok [p, q, r, t] ∧ BeyondWall m p ∧
      InsideCcw (shell m b) q ∧ BeyondWall m r ∧ InsideCcw (shell m b) t) ∧
    ∃ p q r t, R.intexFour m.posH 50000 (2 / 1000) (leftWall m) = .ok [p, q, r, t] ∧ InsideCcw (shell m b) p ∧
      BeyondWall m q ∧ InsideCcw (shell m b) r ∧ BeyondWall m t := by
  obtain ⟨⟨r1, r2⟩, l1, l2⟩ := sound_offsets hE hs
  have key : ∀ τ : K, 1 / 100 ≤ τ → τ ≤ 99 / 100 → ∀ e a dy : K, 1 / 10 ^ 7 ≤ e → e ≤ m.d0 / 10 ^ 5 → |a| ≤ 1 / 10 ^ 8 →
      |dy| ≤ 1 / (2 * 10 ^ 8) →
      BeyondWall m ⟨m.posH + (halfWidth m τ + e + a), m.posV + τ * m.h + dy⟩ ∧
      InsideCcw (shell m b) ⟨m.posH + (halfWidth m τ - e + a), m.posV + τ * m.h + dy⟩ ∧
      InsideCcw (shell m b) ⟨m.posH + -(halfWidth m τ - e + a), m.posV + τ * m.h + dy⟩ ∧
      BeyondWall m ⟨m.posH + -(halfWidth m τ + e + a), m.posV + τ * m.h + dy⟩ := by
    intro τ t1 t2 e a dy he he' ha hdy
    have hw := halfWidth_ge hs (by linarith [(by norm_num : (0 : K) ≤ 1 / 100)] : 0 ≤ τ) t2
    have hw0 : 0 ≤ halfWidth m τ := by
      have := hs.wide
      have h2 : (0 : K) < 1 / 100 := by norm_num
      linarith
    have o := near_out hw0 he ha
    have i := near_in hs.wide hw he he' ha
    refine ⟨shell_outside hs t1 t2 hdy o, shell_inside hs b t1 t2 hdy i, shell_inside hs b t1 t2 hdy ?_, shell_outside hs t1 t2 hdy ?_⟩
    · rw [abs_neg]; exact i
    · rw [abs_neg]; exact o
  constructor
  · obtain ⟨a, c, dy, h1, ha, hc, hdy, -⟩ := intexPair_near hE m.posH 50000 (2 / 1000) (rightWall m) (1 / 100) (by norm_num) (by norm_num)
    obtain ⟨a', c', dy', h2, ha', hc', hdy', -⟩ := intexPair_near hE m.posH 50000 (2 / 1000) (rightWall m) (99 / 100) (by norm_num) (by norm_num)
    refine ⟨_, _, _, _, intexFour_ok h1 h2, ?_, ?_, ?_, ?_⟩
    · convert (key (1 / 100) (by norm_num) (by norm_num) _ a dy r1 r2 ha hdy).1 using 2 <;> simp only [halfWidth, rightWall] <;> ring
    · convert (key (1 / 100) (by norm_num) (by norm_num) _ c dy r1 r2 hc hdy).2.1 using 2 <;> simp only [halfWidth, rightWall] <;> ring
    · convert (key (99 / 100) (by norm_num) (by norm_num) _ a' dy' r1 r2 ha' hdy').1 using 2 <;> simp only [halfWidth, rightWall] <;> ring
    · convert (key (99 / 100) (by norm_num) (by norm_num) _ c' dy' r1 r2 hc' hdy').2.1 using 2 <;> simp only [halfWidth, rightWall] <;> ring
  · obtain ⟨a, c, dy, h1, ha, hc, hdy, -⟩ := intexPair_near hE m.posH 50000 (2 / 1000) (leftWall m) (1 / 100) (by norm_num) (by norm_num)
    obtain ⟨a', c', dy', h2, ha', hc', hdy', -⟩ := intexPair_near hE m.posH 50000 (2 / 1000) (leftWall m) (99 / 100) (by norm_num) (by norm_num)
    rw [← abs_neg] at ha hc ha' hc'
    refine ⟨_, _, _, _, intexFour_ok h1 h2, ?_, ?_, ?_, ?_⟩
    · convert (key (99 / 100) (by norm_num) (by norm_num) _ (-a) dy l1 l2 ha hdy).2.2.1 using 2 <;> simp only [halfWidth, leftWall] <;> ring
    · convert (key (99 / 100) (by norm_num) (by norm_num) _ (-c) dy l1 l2 hc hdy).2.2.2 using 2 <;> simp only [halfWidth, leftWall] <;> ring
    · convert (key (1 / 100) (by norm_num) (by norm_num) _ (-a') dy' l1 l2 ha' hdy').2.2.1 using 2 <;> simp only [halfWidth, leftWall] <;> ring
    · convert (key (1 / 100) (by norm_num) (by norm_num) _ (-c') dy' l1 l2 hc' hdy').2.2.2 using 2 <;> simp only [halfWidth, leftWall] <;> ring

/-! ### their classification -/

theorem intexClass_inside (hE : R.IsExact) {l : List (Seg K)} (hc : ConvexCcw l) (hne : l ≠ []) {p : Pt K} (hp : InsideCcw l p)
    {ω : ℕ → ℕ → Pt K} (hω : ∀ c < 4, ∀ k < 3, GoodTarget l p (ω c k) ∧ Spread l p (ω c k)) (fuel : ℕ) :
    R.intexClass l p ω (fuel + 1) = .ok true := by
  have h := fun c hc' => C84_inside hE l hc hne p hp (ω c) (hω c hc') fuel
  unfold Rt.intexClass
  rw [(h 0 (by norm_num)).1]
  simp only [if_true]
  rw [(h 1 (by norm_num)).2]

theorem intexClass_outside (hE : R.IsExact) {l : List (Seg K)} (hc : ConvexCcw l) {p : Pt K} (hp : OutsideCcw l p)
    {ω : ℕ → ℕ → Pt K} (hω : ∀ c < 4, ∀ k < 3, GoodTarget l p (ω c k) ∧ Spread l p (ω c k)) (fuel : ℕ) :
    R.intexClass l p ω (fuel + 1) = .ok false := by
  have h := fun c hc' => C84_outside hE l hc p hp (ω c) (hω c hc') fuel
  unfold Rt.intexClass
  rw [(h 0 (by norm_num)).1]
  simp only [Bool.false_eq_true, if_false]
  rw [(h 2 (by norm_num)).1]
  simp only
  rw [(h 3 (by norm_num)).2]

/-- C94: with targets in general position in all calls, the points are sorted into the lists where they belong, without an
exception: for the right and the left wall, two internal and two external ones. -/
theorem C94_sorted (hE : R.IsExact) {m : MantelDim K} (hs : Sound m) (b : SegCls) (s : Seg K)
    (hsw : s = rightWall m ∨ s = leftWall m) (ω : ℕ → ℕ → ℕ → Pt K)
    (hω : ∀ r, R.intexFour m.posH 50000 (2 / 1000) s = .ok r → ∀ n p, r[n]? = some p → ∀ c < 4, ∀ k < 3,
      GoodTarget (shell m b) p (ω n c k) ∧ Spread (shell m b) p (ω n c k)) (fuel : ℕ) :
    ∃ p q r t, R.mantelIntex (shell m b) m.posH s ω (fuel + 1) = .ok ([p, q], [r, t]) ∧ InsideCcw (shell m b) p ∧
      InsideCcw (shell m b) q ∧ BeyondWall m r ∧ BeyondWall m t := by
  have hh : 0 < m.h := lt_of_lt_of_le (by positivity) hs.high
  have hd0 : 0 < m.d0 := lt_of_lt_of_le (by positivity) hs.wide
  have hc := shell_convex hd0 hs.top hh b
  have hne : shell m b ≠ [] := by simp [shell, outline]
  obtain ⟨⟨p, q, r, t, e, h1, h2, h3, h4⟩, p', q', r', t', e', h1', h2', h3', h4'⟩ := C94_points hE hs b
  rcases hsw with rfl | rfl
  · have g := hω _ e
    have c0 := intexClass_outside hE hc (h1.outside b) (g 0 p rfl) fuel
    have c1 := intexClass_inside hE hc hne h2 (g 1 q rfl) fuel
    have c2 := intexClass_outside hE hc (h3.outside b) (g 2 r rfl) fuel
    have c3 := intexClass_inside hE hc hne h4 (g 3 t rfl) fuel
    refine ⟨q, t, p, r, ?_, h2, h4, h1, h3⟩
    unfold Rt.mantelIntex
    rw [e]
    simp only [Rt.intexSort, c0, c1, c2, c3, Except.map, if_true, Bool.false_eq_true, if_false, Nat.reduceAdd]
  · have g := hω _ e'
    have c0 := intexClass_inside hE hc hne h1' (g 0 p' rfl) fuel
    have c1 := intexClass_outside hE hc (h2'.outside b) (g 1 q' rfl) fuel
    have c2 := intexClass_inside hE hc hne h3' (g 2 r' rfl) fuel
    have c3 := intexClass_outside hE hc (h4'.outside b) (g 3 t' rfl) fuel
    refine ⟨p', r', q', t', ?_, h1', h3', h2', h4'⟩
    unfold Rt.mantelIntex
    rw [e']
    simp only [Rt.intexSort, c0, c1, c2, c3, Except.map, if_true, Bool.false_eq_true, if_false, Nat.reduceAdd]

/-! ### the bottom wall of a skirt -/

theorem bottom_inner {m : MantelDim K} (hw : 1 / 100 ≤ m.d0) {τ e a : K} (h1 : 1 / 100 ≤ τ) (h2 : τ ≤ 99 / 100)
    (he : |e| ≤ m.d0 / 10 ^ 5) (ha : |a| ≤ 1 / 10 ^ 8) :
    Inner (bottomWall m).i (bottomWall m).j ⟨m.posH - m.d0 / 2 + τ * m.d0 + e + a, m.posV⟩ := by
  have hd0 : 0 < m.d0 := lt_of_lt_of_le (by positivity) hw
  have hb : |(e + a) / m.d0| ≤ 1 / 10 ^ 4 := by
    rw [abs_div, abs_of_pos hd0, div_le_iff₀ hd0]
    have := abs_add_le e a
    norm_num at *
    linarith
  obtain ⟨b1, b2⟩ := abs_le.1 hb
  refine ⟨τ + (e + a) / m.d0, ?_, ?_, ?_⟩
  · norm_num at *; linarith
  · norm_num at *; linarith
  · unfold lerp bottomWall
    dsimp only
    congr 1
    · have : (τ + (e + a) / m.d0) * (m.posH + m.d0 / 2 - (m.posH - m.d0 / 2)) = τ * m.d0 + (e + a) := by
        rw [show m.posH + m.d0 / 2 - (m.posH - m.d0 / 2) = m.d0 by ring, add_mul, div_mul_cancel₀ _ hd0.ne']
      rw [this]; ring
    · ring

/-- C94: the reference points of the bottom wall of a skirt are on that wall itself. -/
theorem C94_bottom_points (hE : R.IsExact) {m : MantelDim K} (hs : Sound m) :
    ∃ p q r t, R.intexFour m.posH 50000 (2 / 1000) (bottomWall m) = .ok [p, q, r, t] ∧
      ∀ x ∈ [p, q, r, t], Inner (bottomWall m).i (bottomWall m).j x := by
  have hh : 0 < m.h := lt_of_lt_of_le (by positivity) hs.high
  have hd0 : 0 < m.d0 := lt_of_lt_of_le (by positivity) hs.wide
  obtain ⟨-, -, e3⟩ := C94_offsets hE hd0.le hh
  have he : |m.d0 / 10 ^ 5| ≤ m.d0 / 10 ^ 5 := by rw [abs_of_pos (by positivity)]
  have he' : |-(m.d0 / 10 ^ 5)| ≤ m.d0 / 10 ^ 5 := by rw [abs_neg]; exact he
  obtain ⟨a, c, dy, h1, ha, hc, -, hdy⟩ := intexPair_near hE m.posH 50000 (2 / 1000) (bottomWall m) (1 / 100) (by norm_num) (by norm_num)
  obtain ⟨a', c', dy', h2, ha', hc', -, hdy'⟩ := intexPair_near hE m.posH 50000 (2 / 1000) (bottomWall m) (99 / 100) (by norm_num) (by norm_num)
  rw [e3] at h1 h2
  have z : ∀ r : K, (bottomWall m).i.y + r * ((bottomWall m).j.y - (bottomWall m).i.y) = m.posV := by
    intro r; simp only [bottomWall]; ring
  rw [z, hs.posV.rhe8, sub_self] at hdy hdy'
  refine ⟨_, _, _, _, intexFour_ok h1 h2, ?_⟩
  intro x hx
  simp only [List.mem_cons, List.not_mem_nil, or_false] at hx
  rcases hx with rfl | rfl | rfl | rfl
  · convert bottom_inner hs.wide (τ := 1 / 100) (by norm_num) (by norm_num) he ha using 2
    · simp only [bottomWall]; ring
    · rw [z, hdy, add_zero]
  · convert bottom_inner hs.wide (τ := 1 / 100) (by norm_num) (by norm_num) he' hc using 2
    · simp only [bottomWall]; ring
    · rw [z, hdy, add_zero]
  · convert bottom_inner hs.wide (τ := 99 / 100) (by norm_num) (by norm_num) he ha' using 2
    · simp only [bottomWall]; ring
    · rw [z, hdy', add_zero]
  · convert bottom_inner hs.wide (τ := 99 / 100) (by norm_num) (by norm_num) he' hc' using 2
    · simp only [bottomWall]; ring
    · rw [z, hdy', add_zero]

/-- C94: all of them are called external if the targets of all calls are above the bottom (as they are if the top of the
skirt is not below 0, see `C94_targets_above`), and all internal if the targets are below. -/
theorem C94_bottom_sorted (hE : R.IsExact) {m : MantelDim K} (hs : Sound m) (ω : ℕ → ℕ → ℕ → Pt K)
    (hω : ∀ r, R.intexFour m.posH 50000 (2 / 1000) (bottomWall m) = .ok r → ∀ n p, r[n]? = some p → ∀ c < 4, ∀ k < 3,
      GoodTarget (shell m .wall) p (ω n c k) ∧ Spread (shell m .wall) p (ω n c k)) (fuel : ℕ) :
    ∃ p q r t, R.intexFour m.posH 50000 (2 / 1000) (bottomWall m) = .ok [p, q, r, t] ∧
      ((∀ n c k, m.posV < (ω n c k).y) →
        R.mantelIntex (shell m .wall) m.posH (bottomWall m) ω (fuel + 1) = .ok ([], [p, q, r, t])) ∧
      ((∀ n c k, (ω n c k).y < m.posV) →
        R.mantelIntex (shell m .wall) m.posH (bottomWall m) ω (fuel + 1) = .ok ([p, q, r, t], [])) := by
  have hh : 0 < m.h := lt_of_lt_of_le (by positivity) hs.high
  have hd0 : 0 < m.d0 := lt_of_lt_of_le (by positivity) hs.wide
  have hc := shell_convex hd0 hs.top hh .wall
  obtain ⟨p, q, r, t, e, hin⟩ := C94_bottom_points hE hs
  have g := hω _ e
  have hmem : bottomWall m ∈ shell m .wall := by simp [shell, outline, bottomWall]
  have hdet : ∀ x : Pt K, det3 (bottomWall m).i (bottomWall m).j x = m.d0 * (x.y - m.posV) := by
    intro x; unfold det3 bottomWall; ring
  have cls : ∀ n x, [p, q, r, t][n]? = some x →
      ((∀ n c k, m.posV < (ω n c k).y) → R.intexClass (shell m .wall) x (ω n) (fuel + 1) = .ok false) ∧
      ((∀ n c k, (ω n c k).y < m.posV) → R.intexClass (shell m .wall) x (ω n) (fuel + 1) = .ok true) := by
    intro n x hx
    have hi := hin x (List.mem_of_getElem? hx)
    have h84 := fun c hc' => C84_on_side hE (shell m .wall) hc (by simp [shell, outline]) (bottomWall m) hmem x hi (ω n c) (g n x hx c hc') fuel
    constructor
    · intro ha
      have hk : ∀ c, ∀ k < 3, 0 < det3 (bottomWall m).i (bottomWall m).j (ω n c k) := by
        intro c k _
        rw [hdet]
        exact mul_pos hd0 (sub_pos.2 (ha n c k))
      unfold Rt.intexClass Rt.plExternal
      rw [(h84 0 (by norm_num)).2 (hk 0), (h84 2 (by norm_num)).2 (hk 2), (h84 3 (by norm_num)).2 (hk 3)]
      rfl
    · intro ha
      have hk : ∀ c, ∀ k < 3, det3 (bottomWall m).i (bottomWall m).j (ω n c k) < 0 := by
        intro c k _
        rw [hdet]
        exact mul_neg_of_pos_of_neg hd0 (sub_neg.2 (ha n c k))
      unfold Rt.intexClass Rt.plExternal
      rw [(h84 0 (by norm_num)).1 (hk 0), (h84 1 (by norm_num)).1 (hk 1)]
      rfl
  refine ⟨p, q, r, t, e, ?_, ?_⟩
  · intro ha
    have c0 := (cls 0 p rfl).1 ha
    have c1 := (cls 1 q rfl).1 ha
    have c2 := (cls 2 r rfl).1 ha
    have c3 := (cls 3 t rfl).1 ha
    unfold Rt.mantelIntex
    rw [e]
    simp only [Rt.intexSort, c0, c1, c2, c3, Except.map, Bool.false_eq_true, if_false, Nat.reduceAdd]
  · intro ha
    have c0 := (cls 0 p rfl).2 ha
    have c1 := (cls 1 q rfl).2 ha
    have c2 := (cls 2 r rfl).2 ha
    have c3 := (cls 3 t rfl).2 ha
    unfold Rt.mantelIntex
    rw [e]
    simp only [Rt.intexSort, c0, c1, c2, c3, Except.map, if_true, Nat.reduceAdd]

/-- C94: all admissible targets are above the bottom if the top of the shell is not below the height 0. -/
theorem C94_targets_above (hE : R.IsExact) {m : MantelDim K} (hs : Sound m) (b : SegCls) (h0 : 0 ≤ m.posV + m.h) (t : Pt K)
    (ht : R.Target (shell m b) t) : m.posV < t.y := by
  have hh : 0 < m.h := lt_of_lt_of_le (by positivity) hs.high
  have hbb : (boundingBox (shell m b)).2.2 = m.posV + m.h := by
    unfold boundingBox shell outline
    simp only [List.foldl_cons, List.foldl_nil, max_self]
    have e1 : max m.posV (m.posV + m.h) = m.posV + m.h := max_eq_right (by linarith)
    have e2 : max (m.posV + m.h) m.posV = m.posV + m.h := max_eq_left (by linarith)
    rw [e1, e2]
    have : max (-10 ^ 11 : K) (m.posV + m.h) = m.posV + m.h := max_eq_right (by
      have : (0 : K) ≤ 10 ^ 11 := by positivity
      linarith)
    rw [this, max_self, max_self]
    exact e2
  obtain ⟨u, v, h⟩ := ht
  dsimp only at h
  rw [hbb] at h
  obtain ⟨-, -, h1, -, rfl⟩ := h
  rw [hE.mul'] at h1
  have h2 : m.posV + m.h ≤ v := by
    rw [min_eq_left (by linarith)] at h1
    exact h1
  rw [hE.mkPt']
  have := rhe8_mono h2
  rw [(hs.posV.add hs.h).rhe8] at this
  dsimp only
  linarith

/-! ### concrete cases -/

/-- a cylinder of diameter 2 and height 5 -/
def exDim : MantelDim ℝ := ⟨0, 0, 2, 2, 5⟩

theorem exDim_sound : Sound exDim where
  posH := ⟨0, by norm_num [exDim]⟩
  posV := ⟨0, by norm_num [exDim]⟩
  h := ⟨5 * 10 ^ 8, by norm_num [exDim]⟩
  d0 := ⟨10 ^ 8, by norm_num [exDim]⟩
  d1 := ⟨10 ^ 8, by norm_num [exDim]⟩
  wide := by norm_num [exDim]
  top := by norm_num [exDim]
  high := by norm_num [exDim]
  steep := by norm_num [exDim]

/-- the target (100, 50) is in general position for the lower inner reference point of the right wall -/
example : GoodTarget (shell exDim .nonWall) ⟨1 - 2 / 10 ^ 5, 5 / 100⟩ ⟨100, 50⟩ := by
  refine ⟨by norm_num, ?_, ?_, ?_⟩
  · intro s hs
    simp only [shell, outline, exDim, List.mem_cons, List.not_mem_nil, or_false] at hs
    rcases hs with rfl | rfl | rfl | rfl <;> norm_num
  · intro s hs
    simp only [shell, outline, exDim, List.mem_cons, List.not_mem_nil, or_false] at hs
    rcases hs with rfl | rfl | rfl | rfl <;> norm_num [det3]
  · intro s hs X h1 h2
    obtain ⟨u, rfl⟩ := h1
    obtain ⟨w, e⟩ := h2
    have ex := congrArg Pt.x e
    have ey := congrArg Pt.y e
    simp only [shell, outline, exDim, List.mem_cons, List.not_mem_nil, or_false] at hs
    unfold lerp at ex ey
    rcases hs with rfl | rfl | rfl | rfl <;> norm_num at ex ey
    · left
      have hu : u = 2 / 9900002 := by linarith
      have hw : w = (1 / 20 + u * (999 / 20)) / 5 := by linarith
      refine ⟨⟨u, by norm_num [hu], by norm_num [hu], rfl⟩, ⟨w, by norm_num [hw, hu], by norm_num [hw, hu], e⟩⟩
    · right; right; right; left
      have hu : u = 99 / 999 := by linarith
      unfold lerp
      norm_num [hu]
    · right; left; left
      have hu : u = -(199998 / 9900002) := by linarith
      unfold lerp
      norm_num [hu]
    · right; left; right; right; left
      have hu : u = -(1 / 999) := by linarith
      unfold lerp
      norm_num [hu]

/-- a wide cylinder: diameter 1000, height 5; the points of the right wall are 0.002 away from it, those of the left wall
0.01 -/
example : exReal.intexOffset (0 : ℝ) 50000 (2 / 1000) (rightWall ⟨0, 0, 1000, 1000, 5⟩) = 2 / 1000 ∧
    exReal.intexOffset (0 : ℝ) 50000 (2 / 1000) (leftWall ⟨0, 0, 1000, 1000, 5⟩) = 1 / 100 := by
  obtain ⟨h1, h2, -⟩ := C94_offsets exReal_isExact (m := ⟨0, 0, 1000, 1000, 5⟩) (by norm_num) (by norm_num)
  exact ⟨h1.trans (by norm_num), h2.trans (by norm_num)⟩

/-- binary64: the cylinder of diameter 2 and height 5, right wall -/
example : ((exRt.mantelIntex (shell ⟨0, 0, 2, 2, 5⟩ .nonWall) 0 (rightWall (⟨0, 0, 2, 2, 5⟩ : MantelDim ℚ))
      (fun n c k => ⟨100 + n, 50 + 3 * c + k⟩) 1).toOption.map
      fun r => (r.1.map fun p => decide (|p.x| < 1), r.2.map fun p => decide (1 < |p.x|))) =
    some ([true, true], [true, true]) := by decide +kernel

/-- binary64: … left wall -/
example : ((exRt.mantelIntex (shell ⟨0, 0, 2, 2, 5⟩ .nonWall) 0 (leftWall (⟨0, 0, 2, 2, 5⟩ : MantelDim ℚ))
      (fun n c k => ⟨100 + n, 50 + 3 * c + k⟩) 1).toOption.map
      fun r => (r.1.map fun p => decide (|p.x| < 1), r.2.map fun p => decide (1 < |p.x|))) =
    some ([true, true], [true, true]) := by decide +kernel

/-- the numbers of internal and external points of the bottom wall of a skirt from -10 to -5, or the exception, for targets
at the height `y 0` in the first and `y 1` in the second test of each point -/
def skirtBottom (y : ℕ → ℚ) : ℕ × ℕ × Option (Option PyErr) :=
  match exRt.mantelIntex (shell ⟨-10, 0, 2, 2, 5⟩ .wall) 0 (bottomWall ⟨-10, 0, 2, 2, 5⟩) (fun _ c _ => ⟨100, y c⟩) 1 with
  | .ok r => (r.1.length, r.2.length, none)
  | .error e => (0, 0, some e)

/-- C94, binary64: below the height 0 the outcome for the bottom wall of a skirt is a matter of chance.  A skirt from -10
to -5: admissible targets at the heights -7 (above the bottom) and -100 (below it); the points are called external with
targets of the first kind, internal with the second, and an exception is raised with both. -/
theorem C94_below_ground :
    exRt.Target (shell ⟨-10, 0, 2, 2, 5⟩ .wall) ⟨100, -7⟩ ∧ exRt.Target (shell ⟨-10, 0, 2, 2, 5⟩ .wall) ⟨100, -100⟩ ∧
    skirtBottom (fun _ => -7) = (0, 4, none) ∧ skirtBottom (fun _ => -100) = (4, 0, none) ∧
    skirtBottom (fun c => if c = 0 then -7 else -100) = (0, 0, some (some PyErr.generic)) := by
  refine ⟨⟨100, -7, ?_⟩, ⟨100, -100, ?_⟩, ?_, ?_, ?_⟩ <;> decide +kernel

end Srep
