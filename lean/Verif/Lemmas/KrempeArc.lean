import Verif.Lemmas.Fillet
import Verif.Lemmas.Real
import Verif.Model.KrempeArc
import Verif.Props.Arc
import Verif.Props.Krempe
import Verif.Props.LineC

/-! The circular arc of the rounded knuckle over the real numbers -/

set_option linter.unusedSectionVars false

namespace Srep
open Rt

/-- how much the right wall goes outwards per unit of height -/
noncomputable def leanOf (m : MantelDim ℝ) : ℝ := (m.d1 / 2 - m.d0 / 2) / m.h

/-- a shell of positive height with dimensions on the coordinate grid -/
structure GridShell (m : MantelDim ℝ) : Prop where
  gH : Grid m.posH
  gV : Grid m.posV
  gh : Grid m.h
  g0 : Grid (m.d0 / 2)
  g1 : Grid (m.d1 / 2)
  hpos : 0 < m.h

/-- `x` is not half-way between two numbers with 8 decimals -/
def Untied (x : ℝ) : Prop := |rhe8 x - x| < 1 / (2 * 10 ^ 8)

theorem Untied.sub {x y : ℝ} (h : Untied y) (hx : Grid x) : rhe8 (x - y) = x - rhe8 y := by
  obtain ⟨n, hn⟩ := hx.sub (grid_rhe8 y)
  rw [hn]
  apply rhe8_of_near
  rw [← hn]
  have : x - y - (x - rhe8 y) = rhe8 y - y := by ring
  rw [this]
  exact h

theorem Grid.untied {x : ℝ} (h : Grid x) : Untied x := by
  unfold Untied
  rw [h.rhe8, sub_self, abs_zero]
  positivity

/-- the axis of the knuckle -/
def krempeAxis (c v : ℝ) : Seg ℝ := ⟨⟨c, v⟩, ⟨c, v + 1⟩, .line⟩

variable (hs : ℝ → ℝ → Int)

/-- angle of the wall to the axis -/
theorem angle_wall {m : MantelDim ℝ} (hm : 0 < m.h) (c v : ℝ) :
    (Rt.real hs).angleBetween (krempeAxis c v) (wallR m) = .ok (leanDeg |leanOf m|) := by
  have hE := Rt.real_isExact hs
  obtain ⟨x, e1, e2, e3, e4⟩ := C31_exact hE (krempeAxis c v) (wallR m)
    (by intro e; have := congrArg Pt.y e; simp [krempeAxis] at this)
    (by intro e; have := congrArg Pt.y e; simp [botR, topR] at this; linarith)
  rw [e1]
  congr 1
  show Real.arccos x * (180 / Real.pi) = Real.arctan |leanOf m| * (180 / Real.pi)
  congr 1
  rw [Real.arctan_eq_arccos (abs_nonneg _)]
  congr 1
  have n1 : (Rt.real hs).norm (krempeAxis c v) = 1 := by
    have h1 := hE.norm_sq (krempeAxis c v)
    have h0 := hE.norm_nonneg (krempeAxis c v)
    simp only [krempeAxis, sub_self, mul_zero, zero_add, add_sub_cancel_left, mul_one] at h1
    change (Rt.real hs).norm (krempeAxis c v) * (Rt.real hs).norm (krempeAxis c v) = 1 at h1
    nlinarith
  have n2 : (Rt.real hs).norm (wallR m) = m.h * leanLen (leanOf m) := by
    have h1 := hE.norm_sq (wallR m)
    have h0 := hE.norm_nonneg (wallR m)
    have h2 : 0 ≤ m.h * leanLen (leanOf m) := (mul_pos hm (leanLen_pos _)).le
    apply (mul_self_inj h0 h2).1
    rw [h1]
    have h3 := leanLen_sq (leanOf m)
    have h4 : m.h * leanOf m = m.d1 / 2 - m.d0 / 2 := by unfold leanOf; field_simp
    simp only [botR, topR]
    have h5 : m.posH + m.d1 / 2 - (m.posH + m.d0 / 2) = m.h * leanOf m := by rw [h4]; ring
    rw [h5, add_sub_cancel_left]
    linear_combination (-m.h ^ 2) * h3
  rw [n1, n2, one_mul] at e4
  simp only [krempeAxis, botR, topR, sub_self, zero_mul, zero_add, add_sub_cancel_left, one_mul] at e4
  have h6 := leanLen_pos (leanOf m)
  have : x = (leanLen (leanOf m))⁻¹ := by
    apply eq_inv_of_mul_eq_one_left
    have : m.h * (x * leanLen (leanOf m)) = m.h * 1 := by linear_combination e4
    exact mul_left_cancel₀ hm.ne' this
  rw [this, ← leanLen_abs]
  rfl

/-- the wall moved inwards -/
theorem parallel_wall {m : MantelDim ℝ} (G : GridShell m) {r : ℝ} (hu : Untied (r * leanLen (leanOf m))) (c v : ℝ) :
    (Rt.real hs).krempeParallel (krempeAxis c v) (wallR m) r = .ok (leanDeg |leanOf m|,
      ⟨⟨m.posH + m.d0 / 2 - rhe8 (r * leanLen (leanOf m)), m.posV⟩,
        ⟨m.posH + m.d1 / 2 - rhe8 (r * leanLen (leanOf m)), m.posV + m.h⟩, .wall⟩) := by
  have hE := Rt.real_isExact hs
  unfold Rt.krempeParallel
  rw [angle_wall hs G.hpos]
  have hc : (Rt.real hs).trig.cos ((Rt.real hs).trig.radians (leanDeg |leanOf m|)) = 1 / leanLen (leanOf m) := by
    show Real.cos (leanDeg |leanOf m| * (Real.pi / 180)) = _
    rw [cos_lean, leanLen_abs]
  have hp := leanLen_pos (leanOf m)
  dsimp only
  rw [hc, if_neg (by positivity), hE.div']
  have e : -r / (1 / leanLen (leanOf m)) = -(r * leanLen (leanOf m)) := by field_simp
  rw [e]
  unfold Rt.segShifted
  simp only [hE.add', hE.mkPt', ← sub_eq_add_neg, add_zero, botR, topR]
  rw [hu.sub (G.gH.add G.g0), hu.sub (G.gH.add G.g1), G.gV.rhe8, (G.gV.add G.gh).rhe8]

/-- the shell `o` stands on the cone `k`, on the same axis and with the same radius -/
structure OnCone (k o : MantelDim ℝ) : Prop where
  gk : GridShell k
  go : GridShell o
  axis : k.posH = o.posH
  meet : k.posV + k.h = o.posV
  same : k.d1 = o.d0

/-- the corner where the two walls meet -/
noncomputable def cornerOf (o : MantelDim ℝ) : Pt ℝ := ⟨o.posH + o.d0 / 2, o.posV⟩

/-- the computed centre -/
theorem centre_of {k o : MantelDim ℝ} (C : OnCone k o) (hl : leanOf o < leanOf k) (qu qv : ℝ) :
    (Rt.real hs).intersectionPoint
      ⟨⟨k.posH + k.d0 / 2 - qu, k.posV⟩, ⟨k.posH + k.d1 / 2 - qu, k.posV + k.h⟩, .wall⟩
      ⟨⟨o.posH + o.d0 / 2 - qv, o.posV⟩, ⟨o.posH + o.d1 / 2 - qv, o.posV + o.h⟩, .wall⟩ =
    some ⟨rhe8 ((cornerOf o).x + leanOf o * ((qu - qv) / (leanOf k - leanOf o)) - qv),
      rhe8 ((cornerOf o).y + (qu - qv) / (leanOf k - leanOf o))⟩ := by
  have hE := Rt.real_isExact hs
  have hk := C.gk.hpos
  have ho := C.go.hpos
  have hd : leanOf k - leanOf o ≠ 0 := by linarith
  have lk : k.d0 / 2 = o.d0 / 2 - leanOf k * k.h := by
    rw [← C.same]; unfold leanOf; field_simp; ring
  have lo : o.d1 / 2 = o.d0 / 2 + leanOf o * o.h := by
    unfold leanOf; field_simp; ring
  have kv : k.posV = o.posV - k.h := by rw [← C.meet]; ring
  have den : (Rt.real hs).ipDen
      ⟨⟨k.posH + k.d0 / 2 - qu, k.posV⟩, ⟨k.posH + k.d1 / 2 - qu, k.posV + k.h⟩, .wall⟩
      ⟨⟨o.posH + o.d0 / 2 - qv, o.posV⟩, ⟨o.posH + o.d1 / 2 - qv, o.posV + o.h⟩, .wall⟩ = k.h * o.h * (leanOf k - leanOf o) := by
    rw [hE.ipDen']
    dsimp only
    rw [lk, lo, C.same]
    ring
  have den0 : k.h * o.h * (leanOf k - leanOf o) ≠ 0 := mul_ne_zero (mul_ne_zero hk.ne' ho.ne') hd
  have par : (Rt.real hs).isParallel
      ⟨⟨k.posH + k.d0 / 2 - qu, k.posV⟩, ⟨k.posH + k.d1 / 2 - qu, k.posV + k.h⟩, .wall⟩
      ⟨⟨o.posH + o.d0 / 2 - qv, o.posV⟩, ⟨o.posH + o.d1 / 2 - qv, o.posV + o.h⟩, .wall⟩ = false := by
    rw [Bool.eq_false_iff, ne_eq, hE.isParallel_iff, ← hE.ipDen', den]
    exact den0
  unfold Rt.intersectionPoint
  rw [par, if_neg (by simp), den, hE.div', hE.div', hE.mkPt']
  unfold Rt.ipNumX Rt.ipNumY
  simp only [hE.sub', hE.mul']
  rw [lk, lo, C.same, C.axis, kv]
  unfold cornerOf
  dsimp only
  congr 3
  · rw [div_eq_iff den0]
    field_simp
    ring
  · rw [div_eq_iff den0]
    field_simp
    ring

/-- by how much the points of the arc may be off -/
noncomputable def arcOff (tu tv : ℝ) : ℝ := 23 / 10 ^ 9 + (1 + |tv|) / (10 ^ 8 * (tu - tv))

/-- the asserts and the separation of the points of the arc -/
theorem arcOk_of {tu tv r : ℝ} (hl : |tv| < tu) (hr : 0 < r)
    (hg : (12 / 10 ^ 5) ^ 2 ≤ dist2 (onCircle 0 0 r (360 - leanDeg tu)) (onCircle 0 0 r (360 - leanDeg |tv|))) :
    ArcOk r (360 - leanDeg tu) (360 - leanDeg |tv|) 3 := by
  have h0 : 0 < tu := lt_of_le_of_lt (abs_nonneg _) hl
  have a1 := leanDeg_lt_90 tu
  have a2 := leanDeg_lt_90 |tv|
  have a3 := leanDeg_pos h0
  have a4 := leanDeg_nonneg (abs_nonneg tv)
  have a5 := leanDeg_lt.2 hl
  refine ⟨by linarith, by linarith, by linarith, by linarith, by linarith, hr, by norm_num, ?_, Or.inr ?_⟩
  · rw [dist2_circle] at hg ⊢
    have e1 : (360 - leanDeg tu - (360 - leanDeg |tv|)) / 2 * (Real.pi / 180) =
        3 * ((0 - (360 - leanDeg |tv| - (360 - leanDeg tu)) / ((3 : ℕ) : ℝ)) / 2 * (Real.pi / 180)) := by
      push_cast; ring
    rw [e1, Real.sin_three_mul] at hg
    generalize (0 - (360 - leanDeg |tv| - (360 - leanDeg tu)) / ((3 : ℕ) : ℝ)) / 2 * (Real.pi / 180) = x at hg ⊢
    have b1 := Real.sin_sq_le_one x
    generalize Real.sin x = y at hg b1 ⊢
    have e2 : (2 * r * (3 * y - 4 * y ^ 3)) ^ 2 = (2 * r * y) ^ 2 * (3 - 4 * y ^ 2) ^ 2 := by ring
    rw [e2] at hg
    have b2 : (3 - 4 * y ^ 2) ^ 2 ≤ 3 ^ 2 := by
      have := sq_nonneg y
      nlinarith
    have b3 : (2 * r * y) ^ 2 * (3 - 4 * y ^ 2) ^ 2 ≤ (2 * r * y) ^ 2 * 3 ^ 2 := by gcongr
    norm_num at hg b3 ⊢
    linarith
  · refine le_trans ?_ hg
    norm_num

/-- the computed centre of the arc -/
noncomputable def arcCentre (k o : MantelDim ℝ) (r : ℝ) : Pt ℝ :=
  ⟨rhe8 ((cornerOf o).x + leanOf o * ((rhe8 (r * leanLen (leanOf k)) - rhe8 (r * leanLen (leanOf o))) / (leanOf k - leanOf o)) -
      rhe8 (r * leanLen (leanOf o))),
    rhe8 ((cornerOf o).y + (rhe8 (r * leanLen (leanOf k)) - rhe8 (r * leanLen (leanOf o))) / (leanOf k - leanOf o))⟩

/-- the computed centre is near the centre of the circle touching both lines -/
theorem centre_near {k o : MantelDim ℝ} (hl : leanOf o < leanOf k) (r : ℝ) :
    Near (1 / 10 ^ 8 + (1 + |leanOf o|) / (10 ^ 8 * (leanOf k - leanOf o)))
      ⟨rhe8 ((cornerOf o).x + leanOf o * ((rhe8 (r * leanLen (leanOf k)) - rhe8 (r * leanLen (leanOf o))) / (leanOf k - leanOf o)) -
          rhe8 (r * leanLen (leanOf o))),
        rhe8 ((cornerOf o).y + (rhe8 (r * leanLen (leanOf k)) - rhe8 (r * leanLen (leanOf o))) / (leanOf k - leanOf o))⟩
      (filletCentre (cornerOf o) (leanOf k) (leanOf o) r) := by
  have hd : 0 < leanOf k - leanOf o := by linarith
  have hd' := hd.ne'
  generalize leanOf k = tu at *
  generalize leanOf o = tv at *
  have b1 := abs_rhe8_sub_le (r * leanLen tu)
  have b2 := abs_rhe8_sub_le (r * leanLen tv)
  generalize rhe8 (r * leanLen tu) = qu at *
  generalize rhe8 (r * leanLen tv) = qv at *
  have e8 : (1 : ℝ) / (2 * 10 ^ 8) = 1 / 10 ^ 8 / 2 := by norm_num
  rw [e8] at b1 b2
  -- the height
  have hη : |(qu - qv) / (tu - tv) - r * (leanLen tu - leanLen tv) / (tu - tv)| ≤ 1 / (10 ^ 8 * (tu - tv)) := by
    rw [← sub_div, abs_div, abs_of_pos hd, ← div_div]
    gcongr
    have : qu - qv - r * (leanLen tu - leanLen tv) = (qu - r * leanLen tu) - (qv - r * leanLen tv) := by ring
    rw [this]
    have := abs_sub (qu - r * leanLen tu) (qv - r * leanLen tv)
    linarith
  have split : (1 + |tv|) / (10 ^ 8 * (tu - tv)) = 1 / (10 ^ 8 * (tu - tv)) + |tv| * (1 / (10 ^ 8 * (tu - tv))) := by ring
  have p1 : 0 ≤ 1 / (10 ^ 8 * (tu - tv)) := by positivity
  have p2 : 0 ≤ |tv| * (1 / (10 ^ 8 * (tu - tv))) := by positivity
  rw [split]
  generalize 1 / (10 ^ 8 * (tu - tv)) = w at *
  have fx : (filletCentre (cornerOf o) tu tv r).x = (cornerOf o).x + tv * (r * (leanLen tu - leanLen tv) / (tu - tv)) - r * leanLen tv := by
    unfold filletCentre
    dsimp only
    field_simp
    ring
  have fy : (filletCentre (cornerOf o) tu tv r).y = (cornerOf o).y + r * (leanLen tu - leanLen tv) / (tu - tv) := rfl
  constructor
  · rw [fx]
    dsimp only
    have b3 := abs_rhe8_sub_le ((cornerOf o).x + tv * ((qu - qv) / (tu - tv)) - qv)
    rw [e8] at b3
    generalize rhe8 ((cornerOf o).x + tv * ((qu - qv) / (tu - tv)) - qv) = z at *
    generalize (qu - qv) / (tu - tv) = η at *
    generalize r * (leanLen tu - leanLen tv) / (tu - tv) = η' at *
    have b4 : |tv * (η - η')| ≤ |tv| * w := by rw [abs_mul]; gcongr
    rw [abs_le] at *
    constructor <;> linarith
  · rw [fy]
    dsimp only
    have b3 := abs_rhe8_sub_le ((cornerOf o).y + (qu - qv) / (tu - tv))
    rw [e8] at b3
    generalize rhe8 ((cornerOf o).y + (qu - qv) / (tu - tv)) = z at *
    generalize (qu - qv) / (tu - tv) = η at *
    generalize r * (leanLen tu - leanLen tv) / (tu - tv) = η' at *
    rw [abs_le] at *
    constructor <;> linarith

/-- the arc of the knuckle is an arc about a stored centre near the centre of the circle touching both walls -/
theorem krempeArc_eq {k o : MantelDim ℝ} (C : OnCone k o) {r : ℝ} (hl : |leanOf o| < leanOf k)
    (uk : Untied (r * leanLen (leanOf k))) (uo : Untied (r * leanLen (leanOf o))) :
    ∃ cx cy, Grid cx ∧ Grid cy ∧ Near (1 / 10 ^ 8 + (1 + |leanOf o|) / (10 ^ 8 * (leanOf k - leanOf o))) ⟨cx, cy⟩
      (filletCentre (cornerOf o) (leanOf k) (leanOf o) r) ∧ arcCentre k o r = ⟨cx, cy⟩ ∧
      ∀ h, (Rt.real hs).krempeArc h o.posH o.posV r (wallR k) (wallR o) =
        (Rt.real hs).arcH h cx cy r (360 - leanDeg (leanOf k)) (360 - leanDeg |leanOf o|) 3 false := by
  have hE := Rt.real_isExact hs
  have hlo : leanOf o < leanOf k := (le_abs_self _).trans_lt hl
  have h0 : 0 < leanOf k := lt_of_le_of_lt (abs_nonneg _) hl
  have hax : (⟨(Rt.real hs).mkPt o.posH o.posV, (Rt.real hs).mkPt o.posH ((Rt.real hs).add o.posV 1), .line⟩ : Seg ℝ) =
      krempeAxis o.posH o.posV := by
    have g1 : Grid (1 : ℝ) := by simpa using grid_intCast (K := ℝ) 1
    rw [hE.add', hE.mkPt_grid C.go.gH C.go.gV, hE.mkPt_grid C.go.gH (C.go.gV.add g1)]
    rfl
  refine ⟨_, _, grid_rhe8 _, grid_rhe8 _, centre_near (k := k) (o := o) hlo r, rfl, fun h => ?_⟩
  unfold Rt.krempeArc
  dsimp only
  rw [hax, parallel_wall hs C.go uo, parallel_wall hs C.gk uk]
  dsimp only
  rw [centre_of hs C hlo]
  dsimp only
  rw [hE.sub', hE.sub', abs_of_pos h0]

/-- the arc of the knuckle -/
theorem krempeArc_spec (h : Heap ℝ) {k o : MantelDim ℝ} (C : OnCone k o) {r : ℝ} (hr : 0 < r) (hl : |leanOf o| < leanOf k)
    (uk : Untied (r * leanLen (leanOf k))) (uo : Untied (r * leanLen (leanOf o)))
    (hg : (12 / 10 ^ 5) ^ 2 ≤ dist2 (onCircle 0 0 r (360 - leanDeg (leanOf k))) (onCircle 0 0 r (360 - leanDeg |leanOf o|))) :
    ∃ h' P, ∃ v : ℕ → Pt ℝ, (Rt.real hs).krempeArc h o.posH o.posV r (wallR k) (wallR o) = .ok (h', P) ∧ P.purged = true ∧
      P.segs.length = 3 ∧ (∀ k (hk : k < P.segs.length), h'.val P.segs[k] = ⟨v k, v (k + 1), .line⟩) ∧
      (∀ n ≤ 3, Near (arcOff (leanOf k) (leanOf o)) (v n)
        (onCircle (filletCentre (cornerOf o) (leanOf k) (leanOf o) r).x (filletCentre (cornerOf o) (leanOf k) (leanOf o) r).y r
          (360 - leanDeg (leanOf k) + n * ((leanDeg (leanOf k) - leanDeg |leanOf o|) / 3)))) ∧
      SharesPoints h' P.segs ∧ P.segs.Nodup ∧
      (∀ s ∈ P.segs, h.nseg ≤ s) ∧ (∀ p < h.npt, h'.pt p = h.pt p) ∧ ∀ s < h.nseg, h'.seg s = h.seg s := by
  obtain ⟨cx, cy, g1, g2, hnear, -, hdef⟩ := krempeArc_eq hs C hl uk uo
  have hst : (Rt.real hs).Stored ⟨cx, cy⟩ := ((Rt.real_isExact hs).stored_iff _).2 ⟨g1, g2⟩
  rw [hdef]
  obtain ⟨h', P, v, q1, q2, q3, q4, q5, q6, q7, -, -, -, q8, q9, q10⟩ := C101_arc hs h cx cy r _ _ 3 (arcOk_of hl hr hg) hst
  refine ⟨h', P, v, q1, q2, q3, q4, ?_, q6, q7, q8, q9, q10⟩
  intro n hn
  have hv := q5 n hn
  have e : 360 - leanDeg (leanOf k) + n * ((360 - leanDeg |leanOf o| - (360 - leanDeg (leanOf k))) / ((3 : ℕ) : ℝ)) =
      360 - leanDeg (leanOf k) + n * ((leanDeg (leanOf k) - leanDeg |leanOf o|) / 3) := by
    push_cast; ring
  rw [e] at hv
  obtain ⟨c1, c2⟩ := hnear
  obtain ⟨d1, d2⟩ := hv
  unfold arcOff
  unfold onCircle at d1 d2 ⊢
  dsimp only at c1 c2 d1 d2
  generalize (1 + |leanOf o|) / (10 ^ 8 * (leanOf k - leanOf o)) = w at *
  have e9 : (23 : ℝ) / 10 ^ 9 = 1 / 10 ^ 8 + 13 / 10 ^ 9 := by norm_num
  rw [e9]
  unfold Near
  dsimp only
  rw [abs_le] at *
  rw [abs_le]
  refine ⟨⟨?_, ?_⟩, ?_, ?_⟩ <;> linarith [c1.1, c1.2, d1.1, d1.2]

end Srep
