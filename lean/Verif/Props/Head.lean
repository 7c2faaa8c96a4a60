import Verif.Model.Vessel
import Verif.Spec.Geom
import Verif.Spec.Example
import Verif.Lemmas.Exact
import Mathlib.Tactic.LinearCombination

/-! Reference points of torispherical heads (C74). -/

namespace Srep
variable {K : Type} [Field K] [LinearOrder K] [IsStrictOrderedRing K] [FloorRing K]

/-- `p` lies strictly between the base line of a head and its contour: on the concave side of the wall from `a` (on
the base line) to the apex `b`, on the apex' side of the base line, and on the same side of the apex as the wall.  `o` is
the orientation, `v` the side (-1 left, 1 right). -/
def Below (o v : K) (a b p : Pt K) : Prop := 0 < o * (p.y - a.y) ∧ 0 < v * o * det3 a b p ∧ 0 < v * (p.x - b.x)

/-- `p` lies strictly outside of the contour, between the base line and the height of the apex -/
def Above (o v : K) (a b p : Pt K) : Prop := v * o * det3 a b p < 0 ∧ 0 < o * (p.y - a.y) ∧ o * (p.y - b.y) < 0

variable {R : Rt K}

/-- the determinant of a reference point with its wall, up to rounding errors -/
theorem head_gap {d H H' e1 e2 w u t : K} (hd : 1 / 10 ^ 6 ≤ d) (hH : 1 / 10 ≤ H) (h' : |H' - H| ≤ 1 / (2 * 10 ^ 8))
    (h1 : |e1| ≤ 1 / (2 * 10 ^ 8)) (h2 : |e2| ≤ 1 / (2 * 10 ^ 8)) (hu : 0 ≤ u) (hu' : u ≤ 1 / 2)
    (ht : t = w - (1 - 2 * u)) (hgap : t = -(1 / 20) ∨ t = 1 / 20) :
    0 < t * (d / 2 * (w * H + e2) - H' * ((1 / 2 - u) * d + e1)) := by
  have hd0 : 0 < d := lt_of_lt_of_le (by positivity) hd
  have hH0 : 0 < H := lt_of_lt_of_le (by positivity) hH
  have key : d / 2 * (w * H + e2) - H' * ((1 / 2 - u) * d + e1) =
      d * H / 2 * t + (d / 2 * e2 - (H' - H) * ((1 / 2 - u) * d) - H * e1 - (H' - H) * e1) := by
    rw [ht]; ring
  have b1 : |d / 2 * e2| ≤ d / 2 * (1 / (2 * 10 ^ 8)) := by
    rw [abs_mul, abs_of_pos (by linarith : 0 < d / 2)]
    exact mul_le_mul_of_nonneg_left h2 (by linarith)
  have b2 : |(H' - H) * ((1 / 2 - u) * d)| ≤ 1 / (2 * 10 ^ 8) * (1 / 2 * d) := by
    rw [abs_mul, abs_of_nonneg (mul_nonneg (by linarith) hd0.le : 0 ≤ (1 / 2 - u) * d)]
    apply mul_le_mul h' _ (mul_nonneg (by linarith) hd0.le) (by positivity)
    exact mul_le_mul_of_nonneg_right (by linarith) hd0.le
  have b3 : |H * e1| ≤ H * (1 / (2 * 10 ^ 8)) := by
    rw [abs_mul, abs_of_pos hH0]
    exact mul_le_mul_of_nonneg_left h1 hH0.le
  have b4 : |(H' - H) * e1| ≤ 1 / (2 * 10 ^ 8) * (1 / (2 * 10 ^ 8)) := by
    rw [abs_mul]
    exact mul_le_mul h' h1 (abs_nonneg _) (by positivity)
  have hbig : d / 2 * (1 / (2 * 10 ^ 8)) + 1 / (2 * 10 ^ 8) * (1 / 2 * d) + H * (1 / (2 * 10 ^ 8)) +
      1 / (2 * 10 ^ 8) * (1 / (2 * 10 ^ 8)) < d * H / 40 := by
    have p1 : d / 10 ≤ d * H := by nlinarith
    have p2 : H / 10 ^ 6 ≤ d * H := by nlinarith
    have : (1 : K) / (2 * 10 ^ 8) = 5 / 10 ^ 9 := by norm_num
    rw [this]
    nlinarith
  rw [key]
  have c1 := abs_le.1 b1
  have c2 := abs_le.1 b2
  have c3 := abs_le.1 b3
  have c4 := abs_le.1 b4
  rcases hgap with h | h <;> rw [h] <;> nlinarith

/-- the reference points of one side lie on the right side of the wall of that side -/
theorem head_side (hE : R.IsExact) (m : HeadDim K) (hp : Grid m.posH) (hv : Grid m.posV) (hd : Grid (m.d / 2))
    (hd6 : 1 / 10 ^ 6 ≤ m.d) (ho : m.orient = 1 ∨ m.orient = -1) (v : K) (hvv : v = 1 ∨ v = -1) (u w : K)
    (hu : 1 / 20 ≤ u) (hu' : u ≤ 1 / 2) (hw : 1 / 20 ≤ w) :
    (w = 1 - 2 * u - 1 / 20 → Below m.orient v ⟨m.posH + v * (m.d / 2), m.posV⟩
      (R.mkPt m.posH (R.add m.posV (R.mul m.orient (R.hGraph m.d)))) (R.headPoint m v u w)) ∧
    (w = 1 - 2 * u + 1 / 20 → Above m.orient v ⟨m.posH + v * (m.d / 2), m.posV⟩
      (R.mkPt m.posH (R.add m.posV (R.mul m.orient (R.hGraph m.d)))) (R.headPoint m v u w)) := by
  have hH : (1 : K) / 10 ≤ R.hGraph m.d := by
    unfold Rt.hGraph; rw [hE.fl]; exact le_max_left _ _
  unfold Rt.headPoint
  generalize R.hGraph m.d = H at hH ⊢
  have ho2 : m.orient * m.orient = 1 := by rcases ho with h | h <;> rw [h] <;> norm_num
  have hv2 : v * v = 1 := by rcases hvv with h | h <;> rw [h] <;> norm_num
  have hoa : |m.orient| = 1 := by rcases ho with h | h <;> rw [h] <;> simp
  have hva : |v| = 1 := by rcases hvv with h | h <;> rw [h] <;> simp
  have hu0 : 0 ≤ u := le_trans (by norm_num) hu
  have hH0 : 0 < H := lt_of_lt_of_le (by positivity) hH
  -- the stored apex and the stored reference point
  obtain ⟨H', hb, hH'⟩ : ∃ H', R.mkPt m.posH (R.add m.posV (R.mul m.orient H)) =
      ⟨m.posH, m.posV + m.orient * H'⟩ ∧ |H' - H| ≤ 1 / (2 * 10 ^ 8) := by
    refine ⟨m.orient * (rhe8 (m.posV + m.orient * H) - m.posV), ?_, ?_⟩
    · rw [hE.mkPt', hp.rhe8, hE.add', hE.mul', ← mul_assoc, ho2, one_mul]
      congr 1; ring
    · have := abs_rhe8_sub_le (m.posV + m.orient * H)
      have e : m.orient * (rhe8 (m.posV + m.orient * H) - m.posV) - H =
          m.orient * (rhe8 (m.posV + m.orient * H) - (m.posV + m.orient * H)) := by
        linear_combination H * ho2
      rw [e, abs_mul, hoa, one_mul]
      exact this
  obtain ⟨e1, e2, hq, h1, h2⟩ : ∃ e1 e2, R.mkPt (R.add m.posH (R.mul (R.mul v (R.fl u)) m.d))
      (R.add m.posV (R.mul (R.mul m.orient (R.fl w)) H)) =
      ⟨m.posH + v * (u * m.d - e1), m.posV + m.orient * (w * H + e2)⟩ ∧ |e1| ≤ 1 / (2 * 10 ^ 8) ∧
      |e2| ≤ 1 / (2 * 10 ^ 8) := by
    refine ⟨-(v * (rhe8 (m.posH + v * u * m.d) - (m.posH + v * u * m.d))),
      m.orient * (rhe8 (m.posV + m.orient * w * H) - (m.posV + m.orient * w * H)), ?_, ?_, ?_⟩
    · rw [hE.mkPt']
      simp only [hE.fl, hE.mul', hE.add']
      congr 1
      · linear_combination (m.posH + v * u * m.d - rhe8 (m.posH + v * u * m.d)) * hv2
      · linear_combination (m.posV + m.orient * w * H - rhe8 (m.posV + m.orient * w * H)) * ho2
    · rw [abs_neg, abs_mul, hva, one_mul]; exact abs_rhe8_sub_le _
    · rw [abs_mul, hoa, one_mul]; exact abs_rhe8_sub_le _
  rw [hb, hq]
  have hdet : v * m.orient * det3 (⟨m.posH + v * (m.d / 2), m.posV⟩ : Pt K) ⟨m.posH, m.posV + m.orient * H'⟩
      ⟨m.posH + v * (u * m.d - e1), m.posV + m.orient * (w * H + e2)⟩ =
      -(m.d / 2 * (w * H + e2) - H' * ((1 / 2 - u) * m.d + e1)) := by
    unfold det3
    simp only
    linear_combination (-(m.d / 2 * (w * H + e2) - H' * ((1 / 2 - u) * m.d + e1))) *
      (v * v * ho2 + hv2)
  constructor
  · intro hw'
    refine ⟨?_, ?_, ?_⟩
    · have : m.orient * (m.posV + m.orient * (w * H + e2) - m.posV) = w * H + e2 := by
        linear_combination (w * H + e2) * ho2
      simp only
      rw [this]
      have : (1 : K) / (2 * 10 ^ 8) < 1 / 20 * (1 / 10) := by norm_num
      have := mul_le_mul hw hH (by norm_num) (by linarith)
      have := (abs_le.1 h2).1
      linarith
    · rw [hdet]
      have e : w - (1 - 2 * u) = -(1 / 20) := by rw [hw']; ring
      have := head_gap (w := w) hd6 hH hH' h1 h2 hu0 hu' rfl (Or.inl e)
      rw [e] at this
      linarith
    · have e : v * (m.posH + v * (u * m.d - e1) - m.posH) = u * m.d - e1 := by
        linear_combination (u * m.d - e1) * hv2
      simp only
      rw [e]
      have h3 := mul_le_mul hu hd6 (by positivity) hu0
      have h4 := (abs_le.1 h1).2
      have h5 : (1 : K) / (2 * 10 ^ 8) < 1 / 20 * (1 / 10 ^ 6) := by norm_num
      linarith
  · intro hw'
    have h5 : (1 : K) / (2 * 10 ^ 8) < 1 / 20 * (1 / 10) * (1 / 2) := by norm_num
    refine ⟨?_, ?_, ?_⟩
    · rw [hdet]
      have e : w - (1 - 2 * u) = 1 / 20 := by rw [hw']; ring
      have := head_gap (w := w) hd6 hH hH' h1 h2 hu0 hu' rfl (Or.inr e)
      rw [e] at this
      linarith
    · have : m.orient * (m.posV + m.orient * (w * H + e2) - m.posV) = w * H + e2 := by
        linear_combination (w * H + e2) * ho2
      simp only
      rw [this]
      have := mul_le_mul hw hH (by norm_num) (by linarith)
      have := (abs_le.1 h2).1
      linarith
    · have : m.orient * (m.posV + m.orient * (w * H + e2) - (m.posV + m.orient * H')) = w * H + e2 - H' := by
        linear_combination (w * H + e2 - H') * ho2
      simp only
      rw [this]
      have h6 : 1 / 20 ≤ 1 - w := by linarith
      have := mul_le_mul h6 hH (by norm_num) (by linarith)
      have := (abs_le.1 h2).2
      have := (abs_le.1 hH').1
      linarith

/-- the two walls of the graph of a head whose stored position and half diameter are on the coordinate grid -/
theorem head_walls (hE : R.IsExact) (m : HeadDim K) (hp : Grid m.posH) (hv : Grid m.posV) (hd : Grid (m.d / 2)) :
    ∃ b : Pt K, b = R.mkPt m.posH (R.add m.posV (R.mul m.orient (R.hGraph m.d))) ∧ b.x = m.posH ∧
      R.headGraph m = [⟨⟨m.posH + -1 * (m.d / 2), m.posV⟩, b, .wall⟩, ⟨b, ⟨m.posH + 1 * (m.d / 2), m.posV⟩, .wall⟩] := by
  refine ⟨_, rfl, ?_, ?_⟩
  · rw [hE.mkPt', hp.rhe8]
  · have e1 : R.mkPt (R.add (R.div (-m.d) 2) m.posH) m.posV = ⟨m.posH + -1 * (m.d / 2), m.posV⟩ := by
      rw [hE.add', hE.div', show -m.d / 2 + m.posH = m.posH - m.d / 2 by ring, hE.mkPt', (hp.sub hd).rhe8, hv.rhe8]
      congr 1; ring
    have e2 : R.mkPt (R.add (R.div m.d 2) m.posH) m.posV = ⟨m.posH + 1 * (m.d / 2), m.posV⟩ := by
      rw [hE.add', hE.div', add_comm, hE.mkPt', (hp.add hd).rhe8, hv.rhe8]
      congr 1; ring
    unfold Rt.headGraph
    simp only [e1, e2]

/-- C74: in exact arithmetic, for a head placed on the coordinate grid, of any diameter from 1e-6 upwards and of either
orientation: its graph consists of two walls meeting in the apex, every wall gets two internal points and one external
point, the internal ones strictly between the base line and that wall, the external one strictly beyond that wall. -/
theorem C74_reference_points (hE : R.IsExact) (m : HeadDim K) (hp : Grid m.posH) (hv : Grid m.posV)
    (hd : Grid (m.d / 2)) (hd6 : 1 / 10 ^ 6 ≤ m.d) (ho : m.orient = 1 ∨ m.orient = -1) :
    ∃ a b c : Pt K, R.headGraph m = [⟨a, b, .wall⟩, ⟨b, c, .wall⟩] ∧ a = ⟨m.posH - m.d / 2, m.posV⟩ ∧
      c = ⟨m.posH + m.d / 2, m.posV⟩ ∧ b.x = m.posH ∧ 0 < m.orient * (b.y - m.posV) ∧
      (∃ p q r, R.headIntex m ⟨a, b, .wall⟩ = .ok ([p, q], [r]) ∧ Below m.orient (-1) a b p ∧ Below m.orient (-1) a b q ∧
        Above m.orient (-1) a b r) ∧
      (∃ p q r, R.headIntex m ⟨b, c, .wall⟩ = .ok ([p, q], [r]) ∧ Below m.orient 1 c b p ∧ Below m.orient 1 c b q ∧
        Above m.orient 1 c b r) := by
  obtain ⟨b, hb, hbx, hg⟩ := head_walls hE m hp hv hd
  have hd0 : 0 < m.d := lt_of_lt_of_le (by positivity) hd6
  have hby : 0 < m.orient * (b.y - m.posV) := by
    have hH : (1 : K) / 10 ≤ R.hGraph m.d := by
      unfold Rt.hGraph; rw [hE.fl]; exact le_max_left _ _
    have h5 : (1 : K) / (2 * 10 ^ 8) < 1 / 10 := by norm_num
    rw [hb, hE.mkPt']
    simp only [hE.add', hE.mul']
    have h := abs_le.1 (abs_rhe8_sub_le (m.posV + m.orient * R.hGraph m.d))
    rcases ho with e | e <;> rw [e] at h ⊢ <;> linarith [h.1, h.2]
  refine ⟨_, b, _, hg, by congr 1; ring, by congr 1; ring, hbx, hby, ?_, ?_⟩
  · refine ⟨R.headPoint m (-1) (45 / 100) (5 / 100), R.headPoint m (-1) (5 / 100) (85 / 100),
      R.headPoint m (-1) (25 / 100) (55 / 100), ?_, ?_, ?_, ?_⟩
    · unfold Rt.headIntex
      rw [if_pos]
      exact lt_of_le_of_lt (min_le_left _ _) (by simp only; linarith)
    · rw [hb]
      exact (head_side hE m hp hv hd hd6 ho (-1) (Or.inr rfl) _ _ (by norm_num) (by norm_num) (by norm_num)).1
        (by norm_num)
    · rw [hb]
      exact (head_side hE m hp hv hd hd6 ho (-1) (Or.inr rfl) _ _ (by norm_num) (by norm_num) (by norm_num)).1
        (by norm_num)
    · rw [hb]
      exact (head_side hE m hp hv hd hd6 ho (-1) (Or.inr rfl) _ _ (by norm_num) (by norm_num) (by norm_num)).2
        (by norm_num)
  · refine ⟨R.headPoint m 1 (45 / 100) (5 / 100), R.headPoint m 1 (5 / 100) (85 / 100),
      R.headPoint m 1 (25 / 100) (55 / 100), ?_, ?_, ?_, ?_⟩
    · unfold Rt.headIntex
      rw [if_neg, if_pos]
      · exact lt_of_lt_of_le (by simp only; linarith) (le_max_right _ _)
      · rw [not_lt, le_min_iff]
        exact ⟨hbx.ge, by simp only; linarith⟩
    · rw [hb]
      exact (head_side hE m hp hv hd hd6 ho 1 (Or.inl rfl) _ _ (by norm_num) (by norm_num) (by norm_num)).1
        (by norm_num)
    · rw [hb]
      exact (head_side hE m hp hv hd hd6 ho 1 (Or.inl rfl) _ _ (by norm_num) (by norm_num) (by norm_num)).1
        (by norm_num)
    · rw [hb]
      exact (head_side hE m hp hv hd hd6 ho 1 (Or.inl rfl) _ _ (by norm_num) (by norm_num) (by norm_num)).2
        (by norm_num)

/-- C74: a position off the coordinate grid that is rounded downwards breaks this: the stored apex then lies left of
`pos_h`, so both walls are taken for the left one and get the reference points of the left wall; for the right wall
they all lie on the other side of the axis. -/
theorem C74_off_grid (hE : R.IsExact) (m : HeadDim K) (hd0 : 0 < m.d) (hr : rhe8 m.posH < m.posH) :
    ∃ s t : Seg K, R.headGraph m = [s, t] ∧ R.headIntex m s = R.headIntex m t ∧
      ∃ I E : List (Pt K), R.headIntex m t = .ok (I, E) ∧ I.length = 2 ∧ E.length = 1 ∧ ∀ p ∈ I ++ E, p.x ≤ t.i.x ∧ p.x ≤ t.j.x := by
  have hm : rhe8 (m.posH + -1 * (45 / 100) * m.d) ≤ rhe8 m.posH := rhe8_mono (by linarith)
  have hm2 : rhe8 (m.posH + -1 * (5 / 100) * m.d) ≤ rhe8 m.posH := rhe8_mono (by linarith)
  have hm3 : rhe8 (m.posH + -1 * (25 / 100) * m.d) ≤ rhe8 m.posH := rhe8_mono (by linarith)
  have hm4 : rhe8 m.posH ≤ rhe8 (m.d / 2 + m.posH) := rhe8_mono (by linarith)
  have c1 : ∀ s ∈ R.headGraph m, R.headIntex m s =
      .ok ([R.headPoint m (-1) (45 / 100) (5 / 100), R.headPoint m (-1) (5 / 100) (85 / 100)],
        [R.headPoint m (-1) (25 / 100) (55 / 100)]) := by
    intro s hs
    unfold Rt.headIntex
    rw [if_pos]
    unfold Rt.headGraph at hs
    simp only [List.mem_cons, List.not_mem_nil, or_false] at hs
    rcases hs with h | h <;> subst h <;> simp only [hE.mkPt']
    · exact lt_of_le_of_lt (min_le_right _ _) hr
    · exact lt_of_le_of_lt (min_le_left _ _) hr
  refine ⟨_, _, rfl, ?_, _, _, c1 _ (by unfold Rt.headGraph; simp), rfl, rfl, ?_⟩
  · rw [c1 _ (by unfold Rt.headGraph; simp), c1 _ (by unfold Rt.headGraph; simp)]
  · intro p hp
    simp only [List.cons_append, List.nil_append, List.mem_cons, List.not_mem_nil, or_false] at hp
    rcases hp with h | h | h <;> subst h <;> unfold Rt.headPoint <;>
      simp only [hE.mkPt', hE.fl, hE.add', hE.mul', hE.div'] <;> constructor <;> linarith

example : exReal.IsExact ∧ Grid (0 : ℝ) ∧ Grid ((2 : ℝ) / 2) ∧ (1 : ℝ) / 10 ^ 6 ≤ 2 :=
  ⟨exReal_isExact, ⟨0, by norm_num⟩, ⟨10 ^ 8, by norm_num⟩, by norm_num⟩

example : rhe8 (1 / 3 : ℚ) < 1 / 3 := by decide +kernel

/-- C74, binary64: a head with `pos_h = 1/3` has three reference points left of the axis for its right wall -/
theorem C74_off_grid_binary64 : ((exRt.headGraph ⟨0, exRt.fl (1 / 3), 2, 0, 1⟩).map fun s =>
    match exRt.headIntex ⟨0, exRt.fl (1 / 3), 2, 0, 1⟩ s with
    | .ok (I, E) => (I ++ E).map fun p => decide (p.x < s.j.x ∧ p.x < s.i.x)
    | .error _ => []) = [[false, false, false], [true, true, true]] := by decide +kernel

end Srep
