import Verif.Model.Size
import Verif.Props.Mantel
import Verif.Props.Flat

/-! Properties of `characteristic_size`. -/

set_option linter.unusedSectionVars false

namespace Srep
open Rt
variable {K : Type} [Field K] [LinearOrder K] [IsStrictOrderedRing K] [FloorRing K] {R : Rt K}

/-- C138: `characteristic_size` raises an exception exactly for knuckles of cones (AttributeError) and ends of rooms
(NotImplementedError). -/
theorem C138_raises (R : Rt K) (x : AnyPart K) :
    (R.partSize x = .error .attribute ↔ x = .krempe) ∧ (R.partSize x = .error .notImplemented ↔ ∃ m, x = .raumende m) ∧
    ((∃ c, R.partSize x = .ok c) ↔ x ≠ .krempe ∧ ∀ m, x ≠ .raumende m) := by
  cases x <;> simp [partSize]

/-- C138, exact arithmetic: the size of a shell or cone is its smallest radius: no point of its two Walls is nearer to the axis, and one
of their ends has just this distance. -/
theorem C138_shell (hE : R.IsExact) (h : Heap K) (m : MantelDim K) (hc : CornersApart R m) (hp : Grid m.posH) (hv : Grid m.posV)
    (hh : Grid m.h) (g0 : Grid (m.d0 / 2)) (g1 : Grid (m.d1 / 2)) (h0 : 0 ≤ m.d0) (h1 : 0 ≤ m.d1) :
    ∃ c, R.partSize (.shell m) = .ok c ∧ 2 * c = min m.d0 m.d1 ∧
      (∀ s ∈ (R.mantelNew h m .nonWall).1.vals (R.mantelNew h m .nonWall).2.graph, ∀ t, 0 ≤ t → t ≤ 1 →
        c ≤ |(lerp s.i s.j t).x - m.posH|) ∧
      ∃ s ∈ (R.mantelNew h m .nonWall).1.vals (R.mantelNew h m .nonWall).2.graph, |s.i.x - m.posH| = c ∨ |s.j.x - m.posH| = c := by
  obtain ⟨e0, e1, e2, e3, -, -⟩ := C72_corners hE m hp hv hh g0 g1
  have hs : R.mantelSize m = min m.d0 m.d1 / 2 := hE.div' _ _
  have hg := (C72_outline hE.isRounding h m hc).2.1
  refine ⟨_, rfl, by rw [hs]; ring, ?_, ?_⟩
  · rw [hg, hs, e0, e1, e2, e3]
    have key : ∀ t : K, 0 ≤ t → t ≤ 1 → ∀ a b : K, min m.d0 m.d1 ≤ a → min m.d0 m.d1 ≤ b →
        min m.d0 m.d1 / 2 ≤ a / 2 + t * (b / 2 - a / 2) := by
      intro t t0 t1 a b ha hb
      nlinarith [mul_nonneg t0 (sub_nonneg.2 hb), mul_nonneg (sub_nonneg.2 t1) (sub_nonneg.2 ha)]
    intro s hs' t t0 t1
    simp only [List.mem_cons, List.not_mem_nil, or_false] at hs'
    rcases hs' with rfl | rfl
    · refine le_trans (key t t0 t1 m.d0 m.d1 (min_le_left _ _) (min_le_right _ _)) (le_trans (le_of_eq ?_) (le_abs_self _))
      unfold lerp; ring
    · refine le_trans (key t t0 t1 m.d1 m.d0 (min_le_right _ _) (min_le_left _ _)) (le_trans (le_of_eq ?_) (neg_le_abs _))
      unfold lerp; ring
  · rw [hg, hs, e0, e1]
    refine ⟨_, List.mem_cons_self, ?_⟩
    rcases min_choice m.d0 m.d1 with e | e
    · left
      rw [e, add_sub_cancel_left, abs_of_nonneg (by positivity)]
    · right
      rw [e, add_sub_cancel_left, abs_of_nonneg (by positivity)]

/-- C138, every arithmetic: for a shell on the axis the size, rounded to 8 decimals, is the smaller x coordinate of its right wall. -/
theorem C138_axis (hR : R.IsRounding) (m : MantelDim K) (h0 : m.posH = 0) :
    R.coord (R.mantelSize m) = min (R.mantelCorner m 0).x (R.mantelCorner m 1).x := by
  have e : ∀ d : K, R.coord (R.add m.posH (R.div d 2)) = R.coord (R.div d 2) := by
    intro d
    rw [h0]
    unfold Rt.add Rt.div
    rw [zero_add, hR.idem]
  have mo : ∀ {a b : K}, a ≤ b → R.coord (R.div a 2) ≤ R.coord (R.div b 2) := by
    intro a b hab
    refine hR.coord_mono (hR.mono ?_)
    linarith
  show _ = min (R.coord (R.add m.posH (R.div m.d0 2))) (R.coord (R.add m.posH (R.div m.d1 2)))
  rw [e, e]
  unfold mantelSize
  rcases le_total m.d0 m.d1 with hd | hd
  · rw [min_eq_left hd, min_eq_left (mo hd)]
  · rw [min_eq_right hd, min_eq_right (mo hd)]

/-- C138, exact arithmetic: the size of a flat head is half of the length of its Wall. -/
theorem C138_plate (hE : R.IsExact) (h : Heap K) (m : PlateDim K) (hd : 2 / 10 ^ 5 ≤ m.d) (g1 : Grid (m.d / 2)) (g2 : Grid m.posH)
    (g3 : Grid m.posV) :
    ∃ c s, R.partSize (.plate m) = .ok c ∧ (R.plateNew h m).1.vals (R.plateNew h m).2.graph = [s] ∧ s.i.y = s.j.y ∧
      s.j.x - s.i.x = 2 * c ∧ s.i.x + c = m.posH := by
  refine ⟨m.d / 2, _, congrArg Except.ok (C104_valid hE h m).2, C104_wall hE h m hd g1 g2 g3, rfl, ?_, ?_⟩ <;>
    simp only [level] <;> ring

/-- C138, exact arithmetic: the size of a torispherical head is the largest distance of a point of the Walls of its graph from the axis;
the first of these Walls begins and the second ends just there. -/
theorem C138_head (hE : R.IsExact) (m : HeadDim K) (hd : 0 ≤ m.d) (g1 : Grid (m.d / 2)) (g2 : Grid m.posH) :
    ∃ c, R.partSize (.head m) = .ok c ∧
      (∀ s ∈ R.headGraph m, ∀ t, 0 ≤ t → t ≤ 1 → |(lerp s.i s.j t).x - m.posH| ≤ c) ∧
      ∃ a b, R.headGraph m = [a, b] ∧ m.posH - a.i.x = c ∧ b.j.x - m.posH = c := by
  have e0 : R.coord m.posH = m.posH := by rw [hE.coord', g2.rhe8]
  have e1 : R.coord (R.add (R.div m.d 2) m.posH) = m.d / 2 + m.posH := by
    rw [hE.div', hE.add']; rw [hE.coord', (g1.add g2).rhe8]
  have e2 : R.coord (R.add (R.div (-m.d) 2) m.posH) = -m.d / 2 + m.posH := by
    rw [hE.div', hE.add', neg_div, hE.coord', (g1.neg.add g2).rhe8]
  refine ⟨m.d / 2, congrArg Except.ok (hE.div' _ _), ?_, _, _, rfl, ?_, ?_⟩
  · intro s hs t t0 t1
    simp only [headGraph, List.mem_cons, List.not_mem_nil, or_false] at hs
    have h2 := mul_nonneg t0 hd
    have h3 := mul_nonneg (sub_nonneg.2 t1) hd
    rcases hs with rfl | rfl <;> simp only [lerp, mkPt, e0, e1, e2] <;> rw [abs_le] <;> constructor <;> nlinarith
  · simp only [mkPt, e2]; ring
  · simp only [mkPt, e1]; ring

/-! ### example -/

/-- a head of diameter 2 and 1 off the axis -/
example : exReal.partSize (.head ⟨0, 1, 2, 1, 1⟩) = .ok 1 ∧ Grid ((2 : ℝ) / 2) ∧ Grid (1 : ℝ) :=
  ⟨congrArg Except.ok ((exReal_isExact.div' _ _).trans (by norm_num)), ⟨100000000, by norm_num⟩, ⟨100000000, by norm_num⟩⟩

/-- a cone on the axis with the diameters 2 and 3 -/
example : exReal.partSize (.shell ⟨0, 0, 2, 3, 5⟩) = .ok 1 ∧ Grid (0 : ℝ) ∧ Grid (5 : ℝ) ∧ Grid ((2 : ℝ) / 2) ∧ Grid ((3 : ℝ) / 2) ∧
    CornersApart exReal ⟨0, 0, 2, 3, 5⟩ := by
  have g0 : Grid (0 : ℝ) := ⟨0, by norm_num⟩
  have g5 : Grid (5 : ℝ) := ⟨500000000, by norm_num⟩
  have g1 : Grid ((2 : ℝ) / 2) := ⟨100000000, by norm_num⟩
  have g2 : Grid ((3 : ℝ) / 2) := ⟨150000000, by norm_num⟩
  refine ⟨?_, g0, g5, g1, g2, ?_⟩
  · show Except.ok (exReal.div (min 2 3) 2) = _
    rw [exReal_isExact.div']
    norm_num
  · obtain ⟨e0, e1, e2, e3, -, -⟩ := C72_corners exReal_isExact ⟨0, 0, 2, 3, 5⟩ g0 g0 g5 g1 g2
    intro a ha b hb hab
    rw [exReal_isExact.tol']
    interval_cases a <;> interval_cases b <;> first | exact absurd rfl hab | (simp only [e0, e1, e2, e3]; norm_num [abs_of_nonneg, abs_of_neg])

end Srep
