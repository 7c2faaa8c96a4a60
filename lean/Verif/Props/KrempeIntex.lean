import Verif.Model.KrempeIntex
import Verif.Props.Intex
import Verif.Props.Krempe
import Verif.Props.RaumVessel

/-! C107: the reference points of the sharp-edged knuckle -/

set_option linter.unusedSectionVars false

namespace Srep
open Rt Ray
variable {K : Type} [Field K] [LinearOrder K] [IsStrictOrderedRing K] [FloorRing K] {R : Rt K}

/-- the two halves of the knuckle as shells -/
def lowerHalf (c v r r0 hU : K) : MantelDim K := ⟨v - hU, c, 2 * r0, 2 * r, hU⟩
def upperHalf (c v r r1 hO : K) : MantelDim K := ⟨v, c, 2 * r, 2 * r1, hO⟩

/-- C107 (distances): min(h/10, d/1000, 20) from the right wall, d/1000 from the left wall, whatever the height -/
theorem C107_offsets (hE : R.IsExact) {m : MantelDim K} (hd : 0 ≤ m.d0) (hh : 0 < m.h) (s : Seg K) :
    (SameEdge s (rightWall m) → R.intexOffset m.posH 500 20 s = min (m.h / 10) (min (m.d0 / 1000) 20)) ∧
    (SameEdge s (leftWall m) → R.intexOffset m.posH 500 20 s = m.d0 / 1000) := by
  have n1 : ¬ m.posV + m.h < m.posV := by linarith
  have n2 : m.posV < m.posV + m.h := by linarith
  have h0 : 0 ≤ m.d0 / 1000 := by positivity
  have h2 : 0 ≤ m.h / 10 := by positivity
  have eR : |min ((m.posV + m.h - m.posV) / 10) (min ((m.posH + m.d0 / 2 - m.posH) / 500) 20)| = min (m.h / 10) (min (m.d0 / 1000) 20) := by
    rw [show m.posV + m.h - m.posV = m.h by ring, show (m.posH + m.d0 / 2 - m.posH) / 500 = m.d0 / 1000 by ring]
    exact abs_of_nonneg (le_min h2 (le_min h0 (by norm_num)))
  have eL : |min ((m.posV + m.h - m.posV) / 10) (min ((m.posH - m.d0 / 2 - m.posH) / 500) 20)| = m.d0 / 1000 := by
    rw [show m.posV + m.h - m.posV = m.h by ring, show (m.posH - m.d0 / 2 - m.posH) / 500 = -(m.d0 / 1000) by ring]
    have e1 : min (-(m.d0 / 1000)) 20 = -(m.d0 / 1000) := min_eq_left (by linarith)
    rw [e1, min_eq_right (by linarith), abs_neg, abs_of_nonneg h0]
  obtain ⟨i, j, cl⟩ := s
  constructor
  · rintro (⟨rfl, rfl⟩ | ⟨rfl, rfl⟩)
    · rw [← eR]
      unfold Rt.intexOffset lowUp rightWall
      dsimp only
      rw [if_neg n1]
      simp only [hE.div', hE.sub', hE.fl]
    · rw [← eR]
      unfold Rt.intexOffset lowUp rightWall
      dsimp only
      rw [if_pos n2]
      simp only [hE.div', hE.sub', hE.fl]
  · rintro (⟨rfl, rfl⟩ | ⟨rfl, rfl⟩)
    · rw [← eL]
      unfold Rt.intexOffset lowUp leftWall
      dsimp only
      rw [if_pos n2]
      simp only [hE.div', hE.sub', hE.fl]
    · rw [← eL]
      unfold Rt.intexOffset lowUp leftWall
      dsimp only
      rw [if_neg n1]
      simp only [hE.div', hE.sub', hE.fl]

theorem near_in' {w e a d : K} (hd : 1 / 100 ≤ d) (hw : d / 200 ≤ w) (he : 1 / 10 ^ 7 ≤ e) (he' : e ≤ d / 1000) (ha : |a| ≤ 1 / 10 ^ 8) :
    |w - e + a| + 6 / 10 ^ 8 ≤ w := by
  obtain ⟨a1, a2⟩ := abs_le.1 ha
  have : |w - e + a| ≤ w - 6 / 10 ^ 8 := by
    norm_num at *
    rw [abs_le]
    constructor <;> linarith
  linarith

/-- the four points of a wall of a half: those on the side of the axis are inside of the half, the others beyond the walls -/
theorem half_points (hE : R.IsExact) {m : MantelDim K} (hs : Sound m) (b : SegCls) (s : Seg K) :
    (SameEdge s (rightWall m) → ∃ p q r t, R.intexFour m.posH 500 20 s = .ok [p, q, r, t] ∧ BeyondWall m p ∧
      InsideCcw (shell m b) q ∧ BeyondWall m r ∧ InsideCcw (shell m b) t) ∧
    (SameEdge s (leftWall m) → ∃ p q r t, R.intexFour m.posH 500 20 s = .ok [p, q, r, t] ∧ InsideCcw (shell m b) p ∧
      BeyondWall m q ∧ InsideCcw (shell m b) r ∧ BeyondWall m t) := by
  have hh : 0 < m.h := lt_of_lt_of_le (by positivity) hs.high
  have hd0 : 0 < m.d0 := lt_of_lt_of_le (by positivity) hs.wide
  obtain ⟨oR, oL⟩ := C107_offsets hE hd0.le hh s
  have hw := hs.wide
  have hi := hs.high
  have h1 : (1 : K) / 10 ^ 7 ≤ m.d0 / 1000 := by norm_num at hw ⊢; linarith
  have bR : 1 / 10 ^ 7 ≤ min (m.h / 10) (min (m.d0 / 1000) 20) ∧ min (m.h / 10) (min (m.d0 / 1000) 20) ≤ m.d0 / 1000 :=
    ⟨le_min (by norm_num at hi ⊢; linarith) (le_min h1 (by norm_num)), (min_le_right _ _).trans (min_le_left _ _)⟩
  have key : ∀ τ : K, 1 / 100 ≤ τ → τ ≤ 99 / 100 → ∀ e a dy : K, 1 / 10 ^ 7 ≤ e → e ≤ m.d0 / 1000 → |a| ≤ 1 / 10 ^ 8 →
      |dy| ≤ 1 / (2 * 10 ^ 8) →
      BeyondWall m ⟨m.posH + (halfWidth m τ + e + a), m.posV + τ * m.h + dy⟩ ∧
      InsideCcw (shell m b) ⟨m.posH + (halfWidth m τ - e + a), m.posV + τ * m.h + dy⟩ ∧
      InsideCcw (shell m b) ⟨m.posH + -(halfWidth m τ - e + a), m.posV + τ * m.h + dy⟩ ∧
      BeyondWall m ⟨m.posH + -(halfWidth m τ + e + a), m.posV + τ * m.h + dy⟩ := by
    intro τ t1 t2 e a dy he he' ha hdy
    have hw := halfWidth_ge hs (by linarith [(by norm_num : (0 : K) ≤ 1 / 100)] : 0 ≤ τ) t2
    have hw0 : 0 ≤ halfWidth m τ := by
      have := hs.wide
      have h2 : (0 : K) < 1 / 100 := by norm_num
      linarith
    have o := near_out hw0 he ha
    have i := near_in' hs.wide hw he he' ha
    refine ⟨shell_outside hs t1 t2 hdy o, shell_inside hs b t1 t2 hdy i, shell_inside hs b t1 t2 hdy ?_, shell_outside hs t1 t2 hdy ?_⟩
    · rw [abs_neg]; exact i
    · rw [abs_neg]; exact o
  obtain ⟨a, c, dy, e1, ha, hc, hdy, -⟩ := intexPair_near hE m.posH 500 20 s (1 / 100) (by norm_num) (by norm_num)
  obtain ⟨a', c', dy', e2, ha', hc', hdy', -⟩ := intexPair_near hE m.posH 500 20 s (99 / 100) (by norm_num) (by norm_num)
  have l1 : (1 : K) / 100 ≤ 1 / 100 := le_refl _
  have l2 : (1 : K) / 100 ≤ 99 / 100 := by norm_num
  have l3 : (99 : K) / 100 ≤ 99 / 100 := le_refl _
  have k1 := key (1 / 100) l1 l2
  have k2 := key (99 / 100) l2 l3
  obtain ⟨i, j, cl⟩ := s
  constructor
  · intro hS
    rw [oR hS] at e1 e2
    obtain ⟨b1, b2⟩ := bR
    refine ⟨_, _, _, _, intexFour_ok e1 e2, ?_⟩
    rcases hS with ⟨rfl, rfl⟩ | ⟨rfl, rfl⟩
    · refine ⟨?_, ?_, ?_, ?_⟩
      · convert (k1 _ a dy b1 b2 ha hdy).1 using 2 <;> simp only [halfWidth, rightWall] <;> ring
      · convert (k1 _ c dy b1 b2 hc hdy).2.1 using 2 <;> simp only [halfWidth, rightWall] <;> ring
      · convert (k2 _ a' dy' b1 b2 ha' hdy').1 using 2 <;> simp only [halfWidth, rightWall] <;> ring
      · convert (k2 _ c' dy' b1 b2 hc' hdy').2.1 using 2 <;> simp only [halfWidth, rightWall] <;> ring
    · refine ⟨?_, ?_, ?_, ?_⟩
      · convert (k2 _ a dy b1 b2 ha hdy).1 using 2 <;> simp only [halfWidth, rightWall] <;> ring
      · convert (k2 _ c dy b1 b2 hc hdy).2.1 using 2 <;> simp only [halfWidth, rightWall] <;> ring
      · convert (k1 _ a' dy' b1 b2 ha' hdy').1 using 2 <;> simp only [halfWidth, rightWall] <;> ring
      · convert (k1 _ c' dy' b1 b2 hc' hdy').2.1 using 2 <;> simp only [halfWidth, rightWall] <;> ring
  · intro hS
    rw [oL hS] at e1 e2
    rw [← abs_neg] at ha hc ha' hc'
    have h2 : m.d0 / 1000 ≤ m.d0 / 1000 := le_refl _
    refine ⟨_, _, _, _, intexFour_ok e1 e2, ?_⟩
    rcases hS with ⟨rfl, rfl⟩ | ⟨rfl, rfl⟩
    · refine ⟨?_, ?_, ?_, ?_⟩
      · convert (k2 _ (-a) dy h1 h2 ha hdy).2.2.1 using 2 <;> simp only [halfWidth, leftWall] <;> ring
      · convert (k2 _ (-c) dy h1 h2 hc hdy).2.2.2 using 2 <;> simp only [halfWidth, leftWall] <;> ring
      · convert (k1 _ (-a') dy' h1 h2 ha' hdy').2.2.1 using 2 <;> simp only [halfWidth, leftWall] <;> ring
      · convert (k1 _ (-c') dy' h1 h2 hc' hdy').2.2.2 using 2 <;> simp only [halfWidth, leftWall] <;> ring
    · refine ⟨?_, ?_, ?_, ?_⟩
      · convert (k1 _ (-a) dy h1 h2 ha hdy).2.2.1 using 2 <;> simp only [halfWidth, leftWall] <;> ring
      · convert (k1 _ (-c) dy h1 h2 hc hdy).2.2.2 using 2 <;> simp only [halfWidth, leftWall] <;> ring
      · convert (k2 _ (-a') dy' h1 h2 ha' hdy').2.2.1 using 2 <;> simp only [halfWidth, leftWall] <;> ring
      · convert (k2 _ (-c') dy' h1 h2 hc' hdy').2.2.2 using 2 <;> simp only [halfWidth, leftWall] <;> ring

/-- inside of a half: inside of the knuckle -/
theorem half_inside {c v r r0 r1 hO hU : K} (h0 : 0 < r0) (h1 : 0 < r1) (h01 : r0 < r) (h12 : r1 ≤ r) (ho : 0 < hO) (hu : 0 < hU)
    {p : Pt K} (b : SegCls) (h : InsideCcw (shell (lowerHalf c v r r0 hU) b) p ∨ InsideCcw (shell (upperHalf c v r r1 hO) b) p) :
    InsideCcw (knuckle c v r r0 r1 hO hU) p := by
  have hr : 0 < r := h0.trans h01
  obtain ⟨x, y⟩ := p
  rcases h with h | h
  · have s1 := h (rightWall (lowerHalf c v r r0 hU)) (by simp [shell, outline, rightWall])
    have s2 := h ⟨⟨c + 2 * r / 2, v - hU + hU⟩, ⟨c - 2 * r / 2, v - hU + hU⟩, .nonWall⟩ (by simp [shell, outline, lowerHalf])
    have s3 := h (leftWall (lowerHalf c v r r0 hU)) (by simp [shell, outline, leftWall])
    have s4 := h ⟨⟨c - 2 * r0 / 2, v - hU⟩, ⟨c + 2 * r0 / 2, v - hU⟩, b⟩ (by simp [shell, outline, lowerHalf])
    simp only [det3, rightWall, leftWall, lowerHalf] at s1 s2 s3 s4
    have y1 : 0 < v - y := by
      have : 0 < 2 * r * (v - y) := by ring_nf at s2 ⊢; linarith
      exact pos_of_mul_pos_right this (by positivity)
    have y2 : 0 < y - (v - hU) := by
      have : 0 < 2 * r0 * (y - (v - hU)) := by ring_nf at s4 ⊢; linarith
      exact pos_of_mul_pos_right this (by positivity)
    have w1 : 0 < hU * (r - (x - c)) - (r - r0) * (v - y) := by ring_nf at s1 ⊢; linarith
    have w2 : 0 < hU * (r + (x - c)) - (r - r0) * (v - y) := by ring_nf at s3 ⊢; linarith
    have q1 := mul_pos (sub_pos.2 h01) y1
    have q2 := mul_nonneg (sub_nonneg.2 h12) y1.le
    have u1 : 0 < r - (x - c) := pos_of_mul_pos_right (by linarith : 0 < hU * (r - (x - c))) hu.le
    have u2 : 0 < r + (x - c) := pos_of_mul_pos_right (by linarith : 0 < hU * (r + (x - c))) hu.le
    have v1 := mul_pos ho u1
    have v2 := mul_pos ho u2
    have v3 := mul_pos h1 (by linarith : 0 < v + hO - y)
    have v4 := mul_pos h0 y2
    intro s hs
    simp only [knuckle, List.mem_cons, List.not_mem_nil, or_false] at hs
    rcases hs with rfl | rfl | rfl | rfl | rfl | rfl <;> simp only [det3] <;> linarith
  · have s1 := h (rightWall (upperHalf c v r r1 hO)) (by simp [shell, outline, rightWall])
    have s2 := h ⟨⟨c + 2 * r1 / 2, v + hO⟩, ⟨c - 2 * r1 / 2, v + hO⟩, .nonWall⟩ (by simp [shell, outline, upperHalf])
    have s3 := h (leftWall (upperHalf c v r r1 hO)) (by simp [shell, outline, leftWall])
    have s4 := h ⟨⟨c - 2 * r / 2, v⟩, ⟨c + 2 * r / 2, v⟩, b⟩ (by simp [shell, outline, upperHalf])
    simp only [det3, rightWall, leftWall, upperHalf] at s1 s2 s3 s4
    have y1 : 0 < v + hO - y := by
      have : 0 < 2 * r1 * (v + hO - y) := by ring_nf at s2 ⊢; linarith
      exact pos_of_mul_pos_right this (by positivity)
    have y2 : 0 < y - v := by
      have : 0 < 2 * r * (y - v) := by ring_nf at s4 ⊢; linarith
      exact pos_of_mul_pos_right this (by positivity)
    have w1 : 0 < hO * (r - (x - c)) - (r - r1) * (y - v) := by ring_nf at s1 ⊢; linarith
    have w2 : 0 < hO * (r + (x - c)) - (r - r1) * (y - v) := by ring_nf at s3 ⊢; linarith
    have q1 := mul_pos (sub_pos.2 h01) y2
    have q2 := mul_nonneg (sub_nonneg.2 h12) y2.le
    have u1 : 0 < r - (x - c) := pos_of_mul_pos_right (by linarith : 0 < hO * (r - (x - c))) ho.le
    have u2 : 0 < r + (x - c) := pos_of_mul_pos_right (by linarith : 0 < hO * (r + (x - c))) ho.le
    have v1 := mul_pos hu u1
    have v2 := mul_pos hu u2
    have v3 := mul_pos h1 y1
    have v4 := mul_pos h0 (by linarith : 0 < y - (v - hU))
    intro s hs
    simp only [knuckle, List.mem_cons, List.not_mem_nil, or_false] at hs
    rcases hs with rfl | rfl | rfl | rfl | rfl | rfl <;> simp only [det3] <;> linarith

/-- beyond a wall of a half: outside of the knuckle -/
theorem half_outside {c v r r0 r1 hO hU : K} {p : Pt K} (h : BeyondWall (lowerHalf c v r r0 hU) p ∨ BeyondWall (upperHalf c v r r1 hO) p) :
    OutsideCcw (knuckle c v r r0 r1 hO hU) p := by
  rcases h with ⟨⟨s, hs, h⟩, -⟩ | ⟨⟨s, hs, h⟩, -⟩ <;> simp only [List.mem_cons, List.not_mem_nil, or_false] at hs <;> rcases hs with rfl | rfl
  · refine ⟨⟨⟨c + r0, v - hU⟩, ⟨c + r, v⟩, .wall⟩, by simp [knuckle], ?_⟩
    simp only [det3, rightWall, lowerHalf] at h ⊢
    linarith
  · refine ⟨⟨⟨c - r, v⟩, ⟨c - r0, v - hU⟩, .wall⟩, by simp [knuckle], ?_⟩
    simp only [det3, leftWall, lowerHalf] at h ⊢
    linarith
  · refine ⟨⟨⟨c + r, v⟩, ⟨c + r1, v + hO⟩, .wall⟩, by simp [knuckle], ?_⟩
    simp only [det3, rightWall, upperHalf] at h ⊢
    linarith
  · refine ⟨⟨⟨c - r1, v + hO⟩, ⟨c - r, v⟩, .wall⟩, by simp [knuckle], ?_⟩
    simp only [det3, leftWall, upperHalf] at h ⊢
    linarith

/-- a knuckle on the coordinate grid: both halves are sound shells, the cone widens to the junction, the part above does not
widen -/
structure SoundKnuckle (c v r r0 r1 hO hU : K) : Prop where
  lower : Sound (lowerHalf c v r r0 hU)
  upper : Sound (upperHalf c v r r1 hO)
  cone : r0 < r
  above : r1 ≤ r

/-- `s` is a wall of the knuckle, in either direction -/
def KnuckleWall (c v r r0 r1 hO hU : K) (s : Seg K) : Prop :=
  ∃ w ∈ knuckle c v r r0 r1 hO hU, w.cls = .wall ∧ SameEdge s w

theorem KnuckleWall.half {c v r r0 r1 hO hU : K} {s : Seg K} (h : KnuckleWall c v r r0 r1 hO hU s) :
    ∃ m, (m = lowerHalf c v r r0 hU ∨ m = upperHalf c v r r1 hO) ∧ m.posH = c ∧ (SameEdge s (rightWall m) ∨ SameEdge s (leftWall m)) := by
  obtain ⟨w, hw, hc, he⟩ := h
  have e1 : rightWall (lowerHalf c v r r0 hU) = ⟨⟨c + r0, v - hU⟩, ⟨c + r, v⟩, .wall⟩ := by
    simp only [rightWall, lowerHalf]
    rw [show 2 * r0 / 2 = r0 by ring, show 2 * r / 2 = r by ring, sub_add_cancel]
  have e2 : leftWall (lowerHalf c v r r0 hU) = ⟨⟨c - r, v⟩, ⟨c - r0, v - hU⟩, .wall⟩ := by
    simp only [leftWall, lowerHalf]
    rw [show 2 * r0 / 2 = r0 by ring, show 2 * r / 2 = r by ring, sub_add_cancel]
  have e3 : rightWall (upperHalf c v r r1 hO) = ⟨⟨c + r, v⟩, ⟨c + r1, v + hO⟩, .wall⟩ := by
    simp only [rightWall, upperHalf]
    rw [show 2 * r1 / 2 = r1 by ring, show 2 * r / 2 = r by ring]
  have e4 : leftWall (upperHalf c v r r1 hO) = ⟨⟨c - r1, v + hO⟩, ⟨c - r, v⟩, .wall⟩ := by
    simp only [leftWall, upperHalf]
    rw [show 2 * r1 / 2 = r1 by ring, show 2 * r / 2 = r by ring]
  simp only [knuckle, List.mem_cons, List.not_mem_nil, or_false] at hw
  rcases hw with rfl | rfl | rfl | rfl | rfl | rfl
  · exact ⟨_, Or.inl rfl, rfl, Or.inl (by rw [e1]; exact he)⟩
  · exact ⟨_, Or.inr rfl, rfl, Or.inl (by rw [e3]; exact he)⟩
  · cases hc
  · exact ⟨_, Or.inr rfl, rfl, Or.inr (by rw [e4]; exact he)⟩
  · exact ⟨_, Or.inl rfl, rfl, Or.inr (by rw [e2]; exact he)⟩
  · cases hc

theorem SoundKnuckle.pos {c v r r0 r1 hO hU : K} (hs : SoundKnuckle c v r r0 r1 hO hU) : 0 < r0 ∧ 0 < r1 ∧ 0 < hO ∧ 0 < hU := by
  have h1 := hs.lower.wide
  have h2 := hs.upper.top
  have h3 := hs.lower.high
  have h4 := hs.upper.high
  simp only [lowerHalf, upperHalf] at h1 h2 h3 h4
  have e2 : (0 : K) < 1 / 100 := by norm_num
  have e6 : (0 : K) < 1 / 10 ^ 6 := by norm_num
  refine ⟨by linarith, by linarith, by linarith, by linarith⟩

/-- C107 (points): every wall gets four points, two strictly inside of the knuckle and two strictly outside. -/
theorem C107_points (hE : R.IsExact) {c v r r0 r1 hO hU : K} (hs : SoundKnuckle c v r r0 r1 hO hU) (s : Seg K)
    (hw : KnuckleWall c v r r0 r1 hO hU s) :
    ∃ p q x y, (R.intexFour c 500 20 s = .ok [p, q, x, y] ∨ R.intexFour c 500 20 s = .ok [q, p, y, x]) ∧
      InsideCcw (knuckle c v r r0 r1 hO hU) p ∧ OutsideCcw (knuckle c v r r0 r1 hO hU) q ∧
      InsideCcw (knuckle c v r r0 r1 hO hU) x ∧ OutsideCcw (knuckle c v r r0 r1 hO hU) y := by
  obtain ⟨p0, p1, pO, pU⟩ := hs.pos
  obtain ⟨m, hm, rfl, he⟩ := hw.half
  have hsm : Sound m := by
    rcases hm with h | h <;> rw [h]
    exacts [hs.lower, hs.upper]
  have hin : ∀ x, InsideCcw (shell m .wall) x → InsideCcw (knuckle m.posH v r r0 r1 hO hU) x := by
    intro x hx
    refine half_inside p0 p1 hs.cone hs.above pO pU .wall ?_
    rcases hm with h | h
    · left; rw [← h]; exact hx
    · right; rw [← h]; exact hx
  have hout : ∀ x, BeyondWall m x → OutsideCcw (knuckle m.posH v r r0 r1 hO hU) x := by
    intro x hx
    refine half_outside ?_
    rcases hm with h | h
    · left; rw [← h]; exact hx
    · right; rw [← h]; exact hx
  obtain ⟨a, b⟩ := half_points hE hsm .wall s
  rcases he with he | he
  · obtain ⟨p, q, x, y, e, h1, h2, h3, h4⟩ := a he
    exact ⟨q, p, y, x, Or.inr e, hin _ h2, hout _ h1, hin _ h4, hout _ h3⟩
  · obtain ⟨p, q, x, y, e, h1, h2, h3, h4⟩ := b he
    exact ⟨p, q, x, y, Or.inl e, hin _ h1, hout _ h2, hin _ h3, hout _ h4⟩

theorem intexClass_draw_inside (hE : R.IsExact) {l m : List (Seg K)} (hd : SameDrawing l m) (hc : ConvexCcw m) (h3 : 3 ≤ m.length)
    {p : Pt K} (hp : InsideCcw m p) {ω : ℕ → ℕ → Pt K} (hω : ∀ c < 4, ∀ k < 3, GoodTarget m p (ω c k) ∧ Spread m p (ω c k)) (fuel : ℕ) :
    R.intexClass l p ω (fuel + 1) = .ok true := by
  have h := fun c hc' => C93_inside hE l m hd hc h3 p hp (ω c) (hω c hc') fuel
  unfold Rt.intexClass Rt.plExternal
  rw [h 0 (by norm_num), h 1 (by norm_num)]
  rfl

theorem intexClass_draw_outside (hE : R.IsExact) {l m : List (Seg K)} (hd : SameDrawing l m) (hc : ConvexCcw m) (h3 : 3 ≤ m.length)
    {p : Pt K} (hp : OutsideCcw m p) {ω : ℕ → ℕ → Pt K} (hω : ∀ c < 4, ∀ k < 3, GoodTarget m p (ω c k) ∧ Spread m p (ω c k)) (fuel : ℕ) :
    R.intexClass l p ω (fuel + 1) = .ok false := by
  have h := fun c hc' => C93_outside hE l m hd hc h3 p hp (ω c) (hω c hc') fuel
  unfold Rt.intexClass Rt.plExternal
  rw [h 0 (by norm_num), h 2 (by norm_num), h 3 (by norm_num)]
  rfl

/-- C107 (sorted): two internal and two external points per wall, each strictly on its proper side, and no exception.  The
points are the same whatever the targets (in general position) are, and however the sides of the part are listed: the graph
is made first before `order`, and renewed after it. -/
theorem C107_sorted (hE : R.IsExact) {c v r r0 r1 hO hU : K} (hs : SoundKnuckle c v r r0 r1 hO hU) (s : Seg K)
    (hw : KnuckleWall c v r r0 r1 hO hU s) :
    ∃ p q x y, InsideCcw (knuckle c v r r0 r1 hO hU) p ∧ InsideCcw (knuckle c v r r0 r1 hO hU) q ∧
      OutsideCcw (knuckle c v r r0 r1 hO hU) x ∧ OutsideCcw (knuckle c v r r0 r1 hO hU) y ∧
      ∀ (l : List (Seg K)), SameDrawing l (knuckle c v r r0 r1 hO hU) → ∀ (ω : ℕ → ℕ → ℕ → Pt K),
        (∀ z ∈ [p, q, x, y], ∀ n a k, GoodTarget (knuckle c v r r0 r1 hO hU) z (ω n a k) ∧ Spread (knuckle c v r r0 r1 hO hU) z (ω n a k)) →
        ∀ fuel, R.krempeIntex l c s ω (fuel + 1) = .ok ([p, q], [x, y]) := by
  obtain ⟨p0, p1, pO, pU⟩ := hs.pos
  have hc := C106_convex (c := c) (v := v) p0 p1 hs.cone hs.above pO pU
  have h3 : 3 ≤ (knuckle c v r r0 r1 hO hU).length := by simp [knuckle]
  obtain ⟨p, q, x, y, e, h1, h2, h4, h5⟩ := C107_points hE hs s hw
  refine ⟨p, x, q, y, h1, h4, h2, h5, fun l hl ω g fuel => ?_⟩
  have ip := fun n => intexClass_draw_inside hE hl hc h3 h1 (ω := ω n) (fun a _ k _ => g p (by simp) n a k) fuel
  have oq := fun n => intexClass_draw_outside hE hl hc h3 h2 (ω := ω n) (fun a _ k _ => g q (by simp) n a k) fuel
  have ix := fun n => intexClass_draw_inside hE hl hc h3 h4 (ω := ω n) (fun a _ k _ => g x (by simp) n a k) fuel
  have oy := fun n => intexClass_draw_outside hE hl hc h3 h5 (ω := ω n) (fun a _ k _ => g y (by simp) n a k) fuel
  rcases e with e | e
  · unfold Rt.krempeIntex
    rw [e]
    simp only [Rt.intexSort, ip, oq, ix, oy, Except.map, if_true, Bool.false_eq_true, if_false, Nat.reduceAdd]
  · unfold Rt.krempeIntex
    rw [e]
    simp only [Rt.intexSort, ip, oq, ix, oy, Except.map, if_true, Bool.false_eq_true, if_false, Nat.reduceAdd]

theorem evalAll_ok {ε α β : Type} {f : ℕ → α → Except ε β} {g : α → β} : ∀ (l : List α) (n : ℕ), (∀ i, ∀ a ∈ l, f i a = .ok (g a)) →
    evalAll f n l = .ok (l.map g)
  | [], _, _ => rfl
  | a :: l, n, h => by
    unfold evalAll
    rw [h n a (by simp), evalAll_ok l (n + 1) fun i b hb => h i b (by simp [hb])]
    rfl

theorem addIntex_ok {ε : Type} {ev : ℕ → Except ε (List (List (Pt K) × List (Pt K)))} {g : Seg K → List (Pt K) × List (Pt K)}
    {segs : List (Seg K)} (h : ∀ e, ev e = .ok (segs.map g)) : ∀ (l pre : List (Seg K)), segs = pre ++ l →
    addIntex ev pre.length l = .ok (l.flatMap (fun s => (g s).1.map fun p => (p, s)), l.flatMap fun s => (g s).2.map fun p => (p, s))
  | [], _, _ => rfl
  | s :: l, pre, e => by
    unfold addIntex
    rw [h, h, h, h]
    have ih := addIntex_ok h l (pre ++ [s]) (by rw [e]; simp)
    rw [List.length_append, List.length_singleton] at ih
    have hg : (segs.map g).getD pre.length ([], []) = g s := by
      rw [e]
      simp [List.getD]
    dsimp only
    rw [ih, hg]
    rfl

/-- C107 (the graph): the reference points of the graph are, wall by wall, two internal and two external ones. -/
theorem C107_graph {ν : Type} (hE : R.IsExact) {c v r r0 r1 hO hU : K} (hs : SoundKnuckle c v r r0 r1 hO hU) (name : ν)
    (segs : List (Seg K)) (hw : ∀ s ∈ segs, KnuckleWall c v r r0 r1 hO hU s) :
    ∃ f : Seg K → (Pt K × Pt K) × (Pt K × Pt K),
      (∀ s ∈ segs, InsideCcw (knuckle c v r r0 r1 hO hU) (f s).1.1 ∧ InsideCcw (knuckle c v r r0 r1 hO hU) (f s).1.2 ∧
        OutsideCcw (knuckle c v r r0 r1 hO hU) (f s).2.1 ∧ OutsideCcw (knuckle c v r r0 r1 hO hU) (f s).2.2) ∧
      ∀ (l : List (Seg K)), SameDrawing l (knuckle c v r r0 r1 hO hU) → ∀ (ω : ℕ → ℕ → ℕ → ℕ → ℕ → Pt K),
        (∀ s ∈ segs, ∀ z ∈ [(f s).1.1, (f s).1.2, (f s).2.1, (f s).2.2], ∀ e i n a k,
          GoodTarget (knuckle c v r r0 r1 hO hU) z (ω e i n a k) ∧ Spread (knuckle c v r r0 r1 hO hU) z (ω e i n a k)) →
        ∀ fuel, R.krempePart name l segs c ω (fuel + 1) =
          .ok ⟨name, segs, segs.flatMap (fun s => [((f s).1.1, s), ((f s).1.2, s)]),
            segs.flatMap (fun s => [((f s).2.1, s), ((f s).2.2, s)]), []⟩ := by
  classical
  haveI : Nonempty (Pt K) := ⟨⟨0, 0⟩⟩
  choose! p q x y h1 h2 h3 h4 h5 using fun s (hs' : s ∈ segs) => C107_sorted hE hs s (hw s hs')
  refine ⟨fun s => ((p s, q s), (x s, y s)), fun s hs' => ⟨h1 s hs', h2 s hs', h3 s hs', h4 s hs'⟩, fun l hl ω hω fuel => ?_⟩
  unfold Rt.krempePart graphPart
  have hev : ∀ e, evalAll (fun i s => R.krempeIntex l c s (ω e i) (fuel + 1)) 0 segs = .ok (segs.map fun s => ([p s, q s], [x s, y s])) := by
    intro e
    exact evalAll_ok (g := fun s => ([p s, q s], [x s, y s])) segs 0 fun i s hs' => h5 s hs' l hl (ω e i) (fun z hz n a k => hω s hs' z hz e i n a k) fuel
  have := addIntex_ok hev segs [] rfl
  rw [List.length_nil] at this
  rw [this]
  rfl

/-! ### concrete cases -/

/-- the knuckle of the vessel of the test-suite (test_SRhauptteile.py:846-852) -/
theorem exKnuckle_sound : SoundKnuckle (0 : ℝ) 2 2 (17 / 10) 2 (2 / 5) (3 / 10) where
  lower := ⟨⟨0, by norm_num [lowerHalf]⟩, ⟨17 * 10 ^ 7, by norm_num [lowerHalf]⟩, ⟨3 * 10 ^ 7, by norm_num [lowerHalf]⟩,
    ⟨17 * 10 ^ 7, by norm_num [lowerHalf]⟩, ⟨2 * 10 ^ 8, by norm_num [lowerHalf]⟩, by norm_num [lowerHalf], by norm_num [lowerHalf],
    by norm_num [lowerHalf], by norm_num [lowerHalf, abs_le]⟩
  upper := ⟨⟨0, by norm_num [upperHalf]⟩, ⟨2 * 10 ^ 8, by norm_num [upperHalf]⟩, ⟨4 * 10 ^ 7, by norm_num [upperHalf]⟩,
    ⟨2 * 10 ^ 8, by norm_num [upperHalf]⟩, ⟨2 * 10 ^ 8, by norm_num [upperHalf]⟩, by norm_num [upperHalf], by norm_num [upperHalf],
    by norm_num [upperHalf], by norm_num [upperHalf, abs_le]⟩
  cone := by norm_num
  above := by norm_num

/-- in binary64, targets (100, 50 + 3a + k): the first point of the lower left wall, in the direction in which `make_segments`
returns it, is inside -/
example : ((exRt.intexFour 0 500 20 ⟨⟨-(exRt.fl (17 / 10)), exRt.fl (17 / 10)⟩, ⟨-2, 2⟩, .wall⟩).toOption.bind fun z => z[0]?.bind fun p =>
      (exRt.intexClass (knuckle (0 : ℚ) 2 2 (exRt.fl (17 / 10)) 2 (exRt.fl (2 / 5)) (exRt.fl (3 / 10))) p
        (fun a k => ⟨100, 50 + 3 * a + k⟩) 1).toOption) = some true := by
  decide +kernel

/-- a flat wide knuckle: diameter 100, 1 high above the junction; the points are 0.1 away from the right wall and from the left;
with a height of 0.1, 0.01 from the right and still 0.1 from the left -/
example : exReal.intexOffset (0 : ℝ) 500 20 (rightWall ⟨0, 0, 100, 100, 1 / 10⟩) = 1 / 100 ∧
    exReal.intexOffset (0 : ℝ) 500 20 (leftWall ⟨0, 0, 100, 100, 1 / 10⟩) = 1 / 10 := by
  have h1 := (C107_offsets exReal_isExact (m := ⟨0, 0, 100, 100, 1 / 10⟩) (by norm_num) (by norm_num) (rightWall ⟨0, 0, 100, 100, 1 / 10⟩)).1 (Or.inl ⟨rfl, rfl⟩)
  have h2 := (C107_offsets exReal_isExact (m := ⟨0, 0, 100, 100, 1 / 10⟩) (by norm_num) (by norm_num) (leftWall ⟨0, 0, 100, 100, 1 / 10⟩)).2 (Or.inl ⟨rfl, rfl⟩)
  exact ⟨h1.trans (by norm_num), h2.trans (by norm_num)⟩

end Srep
