import Verif.Model.Split
import Verif.Props.Mantel
import Verif.Props.Intex
import Verif.Props.RaumVessel
import Verif.Spec.Split

/-! C98: cutting shells with the end of a room -/

namespace Srep
variable {K : Type} [Field K] [LinearOrder K] [IsStrictOrderedRing K] [FloorRing K] {R : Rt K}

/-- the horizontal cutting line -/
abbrev level (a b v : K) (c : SegCls) : Seg K := ⟨⟨a, v⟩, ⟨b, v⟩, c⟩

theorem ip_level (hE : R.IsExact) {a b v u : K} {c : SegCls} {w : Seg K} (hab : a < b) (hw : w.i.y ≠ w.j.y)
    (hv : v = w.i.y + u * (w.j.y - w.i.y)) (hg : Grid v) :
    R.intersectionPoint (level a b v c) w = some ⟨rhe8 (w.i.x + u * (w.j.x - w.i.x)), v⟩ := by
  have hD : w.j.y - w.i.y ≠ 0 := sub_ne_zero.2 hw.symm
  have hB : b - a ≠ 0 := sub_ne_zero.2 hab.ne'
  have hpar : R.isParallel (level a b v c) w = false := by
    rw [Bool.eq_false_iff, ne_eq, hE.isParallel_iff]
    simp only [sub_self, zero_mul, sub_zero]
    exact mul_ne_zero hB hD
  have hden : R.ipDen (level a b v c) w = (b - a) * (w.j.y - w.i.y) := by
    rw [hE.ipDen']; ring
  have hx : R.ipNumX (level a b v c) w = (b - a) * (w.j.y - w.i.y) * (w.i.x + u * (w.j.x - w.i.x)) := by
    unfold Rt.ipNumX
    simp only [hE.sub', hE.mul']
    rw [hv]; ring
  have hy : R.ipNumY (level a b v c) w = (b - a) * (w.j.y - w.i.y) * v := by
    unfold Rt.ipNumY
    simp only [hE.sub', hE.mul']
    ring
  unfold Rt.intersectionPoint
  rw [if_neg (by rw [hpar]; simp), hden, hx, hy, hE.div', hE.div', mul_div_cancel_left₀ _ (mul_ne_zero hB hD),
    mul_div_cancel_left₀ _ (mul_ne_zero hB hD), hE.mkPt', hg.rhe8]

theorem rhe8_close (x : K) : x - 1 / 10 ^ 8 < rhe8 x ∧ rhe8 x < x + 1 / 10 ^ 8 := by
  have h := abs_le.1 (abs_rhe8_sub_le x)
  have : (1 : K) / (2 * 10 ^ 8) < 1 / 10 ^ 8 := by norm_num
  constructor <;> linarith [h.1, h.2]

/-- the cutting line crosses a wall properly -/
theorem hit (hE : R.IsExact) {a b v u : K} {c : SegCls} {w : Seg K}
    (hv : v = w.i.y + u * (w.j.y - w.i.y)) (hg : Grid v) (h0 : 0 < u) (h1 : u < 1)
    (hi : 1 / 10 ^ 5 ≤ |v - w.i.y|) (hj : 1 / 10 ^ 5 ≤ |v - w.j.y|)
    (ha : a + 2 / 10 ^ 5 ≤ w.i.x + u * (w.j.x - w.i.x)) (hb : w.i.x + u * (w.j.x - w.i.x) ≤ b - 2 / 10 ^ 5) :
    R.intersectionOnSegment (level a b v c) w = true ∧ R.intersectionOnEndpoint (level a b v c) w = false := by
  have hab : a < b := by
    have : (0 : K) < 2 / 10 ^ 5 := by positivity
    linarith
  have hw : w.i.y ≠ w.j.y := by
    intro e
    rw [← e] at hv
    rw [hv] at hi
    simp at hi
    norm_num at hi
  have hip := ip_level (c := c) hE hab hw hv hg
  set x := w.i.x + u * (w.j.x - w.i.x) with hx
  obtain ⟨r1, r2⟩ := rhe8_close x
  have e5 : (0 : K) < 1 / 10 ^ 5 := by positivity
  have e8 : (0 : K) < 1 / 10 ^ 8 := by positivity
  have e85 : (1 : K) / 10 ^ 8 < 1 / 10 ^ 5 := by norm_num
  have htouch : R.touch (level a b v c) w = false := by
    apply touch_false (S := {q | q = ⟨a, v⟩ ∨ q = ⟨b, v⟩ ∨ q = w.i ∨ q = w.j}) hE
    · have hji : 1 / 10 ^ 5 ≤ |w.i.y - w.j.y| := by
        have e : w.j.y - w.i.y = (v - w.i.y) + (w.j.y - v) := by ring
        rcases lt_or_gt_of_ne hw with h | h
        · have h2 : 0 < v - w.i.y := by rw [hv]; nlinarith
          rw [abs_of_pos h2] at hi
          have h3 : 0 < (1 - u) * (w.j.y - w.i.y) := mul_pos (by linarith) (by linarith)
          rw [abs_of_neg (by linarith)]
          nlinarith
        · have h2 : v - w.i.y < 0 := by rw [hv]; nlinarith
          rw [abs_of_neg h2] at hi
          have h3 : 0 < (1 - u) * (w.i.y - w.j.y) := mul_pos (by linarith) (by linarith)
          rw [abs_of_pos (by linarith)]
          nlinarith
      have hba : 1 / 10 ^ 5 ≤ |b - a| := by rw [abs_of_pos (by linarith)]; linarith [show (2:K) / 10 ^ 5 = 1 / 10 ^ 5 + 1 / 10 ^ 5 by norm_num]
      rintro p (rfl | rfl | rfl | rfl) q (rfl | rfl | rfl | rfl) hne
      · exact absurd rfl hne
      · left; rw [abs_sub_comm]; exact hba
      · right; exact hi
      · right; exact hj
      · left; exact hba
      · exact absurd rfl hne
      · right; exact hi
      · right; exact hj
      · right; rw [abs_sub_comm]; exact hi
      · right; rw [abs_sub_comm]; exact hi
      · exact absurd rfl hne
      · right; exact hji
      · right; rw [abs_sub_comm]; exact hj
      · right; rw [abs_sub_comm]; exact hj
      · right; rw [abs_sub_comm]; exact hji
      · exact absurd rfl hne
    · exact Or.inl rfl
    · exact Or.inr (Or.inl rfl)
    · exact Or.inr (Or.inr (Or.inl rfl))
    · exact Or.inr (Or.inr (Or.inr rfl))
    all_goals
      intro e
      have := congrArg Pt.y e
      simp only at this
      first
      | (rw [this] at hi; simp at hi; linarith [show (0:K) < 1 / 100000 by positivity])
      | (rw [this] at hj; simp at hj; linarith [show (0:K) < 1 / 100000 by positivity])
  constructor
  · unfold Rt.intersectionOnSegment
    rw [htouch, hip]
    simp only [Bool.false_eq_true, if_false, Bool.and_eq_true]
    rw [hE.isInternal_iff, hE.isInternal_iff]
    have e25 : (2 : K) / 10 ^ 5 = 1 / 10 ^ 5 + 1 / 10 ^ 5 := by norm_num
    have bet : ∀ p q : K, min p q ≤ p + u * (q - p) ∧ p + u * (q - p) ≤ max p q := by
      intro p q
      rcases le_total p q with h | h
      · rw [min_eq_left h, max_eq_right h]; constructor <;> nlinarith
      · rw [min_eq_right h, max_eq_left h]; constructor <;> nlinarith
    refine ⟨⟨?_, ?_, ?_, ?_⟩, ?_, ?_, ?_, ?_⟩
    · simp only [min_eq_left hab.le]; linarith
    · simp only [max_eq_right hab.le]; linarith
    · simp only [min_self]; linarith
    · simp only [max_self]; linarith
    · have := (bet w.i.x w.j.x).1; dsimp only; linarith
    · have := (bet w.i.x w.j.x).2; dsimp only; linarith
    · have := (bet w.i.y w.j.y).1; rw [hv]; linarith
    · have := (bet w.i.y w.j.y).2; rw [hv]; linarith
  · unfold Rt.intersectionOnEndpoint
    rw [hip, htouch]
    simp only [Bool.false_eq_true, if_false, Bool.or_eq_false_iff]
    have e25 : (2 : K) / 10 ^ 5 = 1 / 10 ^ 5 + 1 / 10 ^ 5 := by norm_num
    refine ⟨⟨⟨?_, ?_⟩, ?_⟩, ?_⟩ <;> rw [Bool.eq_false_iff, ne_eq, hE.peq_iff, not_and_or, not_lt, not_lt] <;> dsimp only
    · left; rw [abs_of_pos (by linarith)]; linarith
    · left; rw [abs_of_neg (by linarith)]; linarith
    · right; exact hi
    · right; exact hj

/-- the cutting line ends before the wall -/
theorem miss_x (hE : R.IsExact) {a b v u : K} {c : SegCls} {w : Seg K} (hab : a < b) (hw : w.i.y ≠ w.j.y)
    (hv : v = w.i.y + u * (w.j.y - w.i.y)) (hg : Grid v)
    (h : w.i.x + u * (w.j.x - w.i.x) ≤ a - 2 / 10 ^ 8 ∨ b + 2 / 10 ^ 8 ≤ w.i.x + u * (w.j.x - w.i.x)) :
    R.intersectionOnSegment (level a b v c) w = false := by
  unfold Rt.intersectionOnSegment
  rw [ip_level hE hab hw hv hg]
  obtain ⟨r1, r2⟩ := rhe8_close (w.i.x + u * (w.j.x - w.i.x))
  have e2 : (2 : K) / 10 ^ 8 = 1 / 10 ^ 8 + 1 / 10 ^ 8 := by norm_num
  have : R.isInternal (level a b v c) ⟨rhe8 (w.i.x + u * (w.j.x - w.i.x)), v⟩ = false := by
    rw [Bool.eq_false_iff, ne_eq, hE.isInternal_iff]
    simp only [min_eq_left hab.le, max_eq_right hab.le]
    rintro ⟨g1, g2, -, -⟩
    rcases h with h | h <;> linarith
  split
  · rfl
  · simp only [this, Bool.false_and]

/-- the cutting line passes above or below the wall -/
theorem miss_y (hE : R.IsExact) {a b v : K} {c : SegCls} {w : Seg K} (hab : a < b) (hw : w.i.y ≠ w.j.y) (hg : Grid v)
    (h : v < min w.i.y w.j.y - 1 / 10 ^ 8 ∨ max w.i.y w.j.y + 1 / 10 ^ 8 < v) :
    R.intersectionOnSegment (level a b v c) w = false := by
  have hD : w.j.y - w.i.y ≠ 0 := sub_ne_zero.2 hw.symm
  have hv : v = w.i.y + (v - w.i.y) / (w.j.y - w.i.y) * (w.j.y - w.i.y) := by field_simp; ring
  unfold Rt.intersectionOnSegment
  rw [ip_level hE hab hw hv hg]
  have : ∀ x, R.isInternal w ⟨x, v⟩ = false := by
    intro x
    rw [Bool.eq_false_iff, ne_eq, hE.isInternal_iff]
    rintro ⟨-, -, g1, g2⟩
    simp only at g1 g2
    rcases h with h | h <;> linarith
  split
  · rfl
  · simp only [this, Bool.and_false]

/-- a shell of representable dimensions and a level that passes its walls clear of their ends -/
structure Level (m : MantelDim K) (v : K) : Prop where
  gH : Grid m.posH
  gV : Grid m.posV
  gh : Grid m.h
  g0 : Grid (m.d0 / 2)
  g1 : Grid (m.d1 / 2)
  gv : Grid v
  r0 : 1 / 10 ^ 5 ≤ m.d0 / 2
  r1 : 1 / 10 ^ 5 ≤ m.d1 / 2
  lo : m.posV + 1 / 10 ^ 5 ≤ v
  hi : v ≤ m.posV + m.h - 1 / 10 ^ 5

/-- the radius of the shell at height `v` -/
def radAt (m : MantelDim K) (v : K) : K := m.d0 / 2 + (v - m.posV) / m.h * (m.d1 / 2 - m.d0 / 2)

/-- where the walls are cut: the exact points of the walls, rounded like every point -/
def cutRight (m : MantelDim K) (v : K) : Pt K := ⟨rhe8 (m.posH + radAt m v), v⟩
def cutLeft (m : MantelDim K) (v : K) : Pt K := ⟨rhe8 (m.posH - radAt m v), v⟩

/-- corners of the shell -/
def botR (m : MantelDim K) : Pt K := ⟨m.posH + m.d0 / 2, m.posV⟩
def topR (m : MantelDim K) : Pt K := ⟨m.posH + m.d1 / 2, m.posV + m.h⟩
def topL (m : MantelDim K) : Pt K := ⟨m.posH - m.d1 / 2, m.posV + m.h⟩
def botL (m : MantelDim K) : Pt K := ⟨m.posH - m.d0 / 2, m.posV⟩

/-- the sides of the shell -/
abbrev wallR (m : MantelDim K) : Seg K := ⟨botR m, topR m, .wall⟩
abbrev wallL (m : MantelDim K) : Seg K := ⟨topL m, botL m, .wall⟩
abbrev lidT (m : MantelDim K) : Seg K := ⟨topR m, topL m, .nonWall⟩
abbrev lidB (m : MantelDim K) : Seg K := ⟨botL m, botR m, .nonWall⟩

theorem shellVals_eq (hE : R.IsExact) {m : MantelDim K} {v : K} (hl : Level m v) :
    R.shellVals m = ⟨[wallR m, lidT m, wallL m, lidB m], [wallR m, wallL m]⟩ := by
  obtain ⟨e0, e1, e2, e3, -⟩ := C72_corners hE m hl.gH hl.gV hl.gh hl.g0 hl.g1
  unfold Rt.shellVals
  rw [e0, e1, e2, e3]
  rfl

section
variable {m : MantelDim K} {v : K}

theorem Level.hpos (hl : Level m v) : 0 < m.h := by
  have e5 : (0 : K) < 1 / 10 ^ 5 := by positivity
  linarith [hl.lo, hl.hi]

theorem Level.u (hl : Level m v) : 0 < (v - m.posV) / m.h ∧ (v - m.posV) / m.h < 1 := by
  have e5 : (0 : K) < 1 / 10 ^ 5 := by positivity
  have := hl.hpos
  constructor
  · apply div_pos _ this; linarith [hl.lo]
  · rw [div_lt_one this]; linarith [hl.hi]

theorem Level.rad (hl : Level m v) : 1 / 10 ^ 5 ≤ radAt m v := by
  obtain ⟨h0, h1⟩ := hl.u
  have := hl.r0
  have := hl.r1
  unfold radAt
  set u := (v - m.posV) / m.h
  nlinarith [mul_nonneg h0.le (sub_nonneg.2 hl.r1), mul_nonneg (sub_nonneg.2 h1.le) (sub_nonneg.2 hl.r0)]

theorem Level.onR (hl : Level m v) : v = (wallR m).i.y + (v - m.posV) / m.h * ((wallR m).j.y - (wallR m).i.y) := by
  have := hl.hpos.ne'
  simp only [wallR, botR, topR]
  field_simp
  ring

theorem Level.onL (hl : Level m v) :
    v = (wallL m).i.y + (1 - (v - m.posV) / m.h) * ((wallL m).j.y - (wallL m).i.y) := by
  have := hl.hpos.ne'
  simp only [wallL, botL, topL]
  field_simp
  ring

theorem xR (m : MantelDim K) (v : K) :
    (wallR m).i.x + (v - m.posV) / m.h * ((wallR m).j.x - (wallR m).i.x) = m.posH + radAt m v := by
  simp only [wallR, botR, topR, radAt]; ring

theorem xL (m : MantelDim K) (v : K) :
    (wallL m).i.x + (1 - (v - m.posV) / m.h) * ((wallL m).j.x - (wallL m).i.x) = m.posH - radAt m v := by
  simp only [wallL, botL, topL, radAt]; ring

theorem Level.ends (hl : Level m v) : 1 / 10 ^ 5 ≤ |v - m.posV| ∧ 1 / 10 ^ 5 ≤ |v - (m.posV + m.h)| := by
  have e5 : (0 : K) < 1 / 10 ^ 5 := by positivity
  constructor
  · rw [abs_of_pos] <;> linarith [hl.lo]
  · rw [abs_of_neg] <;> linarith [hl.hi]

theorem hitR (hE : R.IsExact) (hl : Level m v) {a b : K} {c : SegCls} (ha : a + 2 / 10 ^ 5 ≤ m.posH + radAt m v)
    (hb : m.posH + radAt m v ≤ b - 2 / 10 ^ 5) :
    R.intersectionOnSegment (level a b v c) (wallR m) = true ∧
      R.intersectionOnEndpoint (level a b v c) (wallR m) = false ∧
      R.intersectionPoint (level a b v c) (wallR m) = some (cutRight m v) := by
  obtain ⟨h0, h1⟩ := hl.u
  have hab : a < b := by
    have : (0 : K) < 2 / 10 ^ 5 := by positivity
    linarith
  rw [← xR] at ha hb
  obtain ⟨g1, g2⟩ := hit (c := c) hE hl.onR hl.gv h0 h1 hl.ends.1 hl.ends.2 ha hb
  refine ⟨g1, g2, ?_⟩
  rw [ip_level hE hab _ hl.onR hl.gv, xR]
  · rfl
  · simp only [botR, topR]; intro e; linarith [hl.hpos]

theorem hitL (hE : R.IsExact) (hl : Level m v) {a b : K} {c : SegCls} (ha : a + 2 / 10 ^ 5 ≤ m.posH - radAt m v)
    (hb : m.posH - radAt m v ≤ b - 2 / 10 ^ 5) :
    R.intersectionOnSegment (level a b v c) (wallL m) = true ∧
      R.intersectionOnEndpoint (level a b v c) (wallL m) = false ∧
      R.intersectionPoint (level a b v c) (wallL m) = some (cutLeft m v) := by
  obtain ⟨h0, h1⟩ := hl.u
  have hab : a < b := by
    have : (0 : K) < 2 / 10 ^ 5 := by positivity
    linarith
  rw [← xL] at ha hb
  obtain ⟨g1, g2⟩ := hit (c := c) hE hl.onL hl.gv (by linarith) (by linarith) hl.ends.2 hl.ends.1 ha hb
  refine ⟨g1, g2, ?_⟩
  rw [ip_level hE hab _ hl.onL hl.gv, xL]
  · rfl
  · simp only [botL, topL]; intro e; linarith [hl.hpos]

theorem missR (hE : R.IsExact) (hl : Level m v) {a b : K} {c : SegCls} (hab : a < b)
    (h : m.posH + radAt m v ≤ a - 2 / 10 ^ 8 ∨ b + 2 / 10 ^ 8 ≤ m.posH + radAt m v) :
    R.intersectionOnSegment (level a b v c) (wallR m) = false := by
  rw [← xR] at h
  refine miss_x hE hab ?_ hl.onR hl.gv h
  simp only [botR, topR]; intro e; linarith [hl.hpos]

theorem missL (hE : R.IsExact) (hl : Level m v) {a b : K} {c : SegCls} (hab : a < b)
    (h : m.posH - radAt m v ≤ a - 2 / 10 ^ 8 ∨ b + 2 / 10 ^ 8 ≤ m.posH - radAt m v) :
    R.intersectionOnSegment (level a b v c) (wallL m) = false := by
  rw [← xL] at h
  refine miss_x hE hab ?_ hl.onL hl.gv h
  simp only [botL, topL]; intro e; linarith [hl.hpos]

/-- the two walls do not cross each other -/
theorem apart_walls (hE : R.IsExact) (hl : Level m v) : R.intersectionOnSegment (wallR m) (wallL m) = false := by
  have e85 : (1 : K) / 10 ^ 8 < 1 / 10 ^ 5 := by norm_num
  refine (ios_strips hE.isRounding _ _ m.posH ?_ ?_).1
  · rw [hE.sub', hE.eps']
    simp only [botR, topR]
    have : m.posH + 1 / 10 ^ 8 ≤ min (m.posH + m.d0 / 2) (m.posH + m.d1 / 2) := by
      apply le_min <;> linarith [hl.r0, hl.r1]
    linarith
  · rw [hE.add', hE.eps']
    simp only [botL, topL]
    have : max (m.posH - m.d1 / 2) (m.posH - m.d0 / 2) ≤ m.posH - 1 / 10 ^ 8 := by
      apply max_le <;> linarith [hl.r0, hl.r1]
    linarith

theorem splitCuts_shell (hE : R.IsExact) (hl : Level m v) (cl : Seg K) :
    R.splitCuts cl [wallR m, wallL m] =
      ([(cl, wallR m), (cl, wallL m)].filter fun x => R.intersectionOnSegment x.1 x.2 && !R.intersectionOnEndpoint x.1 x.2) := by
  unfold Rt.splitCuts Rt.intersectingLines
  have : pairs2 [cl, wallR m, wallL m] = [(cl, wallR m), (cl, wallL m), (wallR m, wallL m)] := rfl
  rw [this]
  have h3 := apart_walls hE hl
  simp only [List.filter_cons, h3, List.filter_nil]
  rcases h1 : R.intersectionOnSegment cl (wallR m) <;> rcases h2 : R.intersectionOnSegment cl (wallL m) <;>
    rcases h4 : R.intersectionOnEndpoint cl (wallR m) <;> rcases h5 : R.intersectionOnEndpoint cl (wallL m) <;>
    simp [h1, h2, h4, h5]

theorem seq_self (hE : R.IsExact) (s : Seg K) : R.seq s s = true := by
  unfold Rt.seq; rw [peq_self hE.isRounding, peq_self hE.isRounding]; simp

theorem seq_far (hE : R.IsExact) {s o : Seg K} (h : 1 / 10 ^ 5 ≤ |s.i.y - o.i.y|) : R.seq s o = false := by
  unfold Rt.seq
  have : R.peq s.i o.i = false := by
    rw [Bool.eq_false_iff, ne_eq, hE.peq_iff]
    rintro ⟨-, h2⟩
    linarith
  rw [this]; simp

theorem seq_cls {s o : Seg K} (h : o.cls ≠ s.cls) : R.seq s o = false := by
  unfold Rt.seq; simp [h]

theorem Level.apart (hl : Level m v) : 1 / 10 ^ 5 ≤ |m.posV - (m.posV + m.h)| := by
  have e5 : (0 : K) < 1 / 10 ^ 5 := by positivity
  rw [abs_of_neg] <;> linarith [hl.lo, hl.hi]

theorem Level.seqs (hE : R.IsExact) (hl : Level m v) (a b : K) (c : SegCls) :
    R.seq (wallR m) (wallR m) = true ∧ R.seq (wallL m) (wallL m) = true ∧ R.seq (wallR m) (wallL m) = false ∧
    R.seq (wallL m) (wallR m) = false ∧ R.seq (level a b v c) (wallR m) = false ∧
    R.seq (level a b v c) (wallL m) = false ∧ R.seq (level a b v c) (level a b v c) = true ∧
    R.seq (lidT m) (wallL m) = false := by
  have h := hl.apart
  refine ⟨seq_self hE _, seq_self hE _, seq_far hE h, ?_, seq_far hE hl.ends.1, seq_far hE hl.ends.2, seq_self hE _,
    seq_cls (by simp)⟩
  apply seq_far hE
  rw [abs_sub_comm]
  exact h

theorem Level.grid (hE : R.IsExact) (hl : Level m v) :
    R.mkPt (botR m).x (botR m).y = botR m ∧ R.mkPt (topR m).x (topR m).y = topR m ∧
    R.mkPt (botL m).x (botL m).y = botL m ∧ R.mkPt (topL m).x (topL m).y = topL m ∧
    R.mkPt (cutRight m v).x (cutRight m v).y = cutRight m v ∧ R.mkPt (cutLeft m v).x (cutLeft m v).y = cutLeft m v := by
  refine ⟨hE.mkPt_grid (hl.gH.add hl.g0) hl.gV, hE.mkPt_grid (hl.gH.add hl.g1) (hl.gV.add hl.gh),
    hE.mkPt_grid (hl.gH.sub hl.g0) hl.gV, hE.mkPt_grid (hl.gH.sub hl.g1) (hl.gV.add hl.gh),
    hE.mkPt_grid (grid_rhe8 _) hl.gv, hE.mkPt_grid (grid_rhe8 _) hl.gv⟩

/-- the segments of the shell after both walls are cut -/
def cutShell (m : MantelDim K) (v : K) : SPart K :=
  ⟨[lidT m, lidB m, ⟨botR m, cutRight m v, .wall⟩, ⟨cutRight m v, topR m, .wall⟩, ⟨topL m, cutLeft m v, .wall⟩,
      ⟨cutLeft m v, botL m, .wall⟩],
    [⟨botR m, cutRight m v, .wall⟩, ⟨cutRight m v, topR m, .wall⟩, ⟨topL m, cutLeft m v, .wall⟩,
      ⟨cutLeft m v, botL m, .wall⟩]⟩

/-- the end of the room after that: the two outer parts are walls, the inner part is not -/
def cutEnd (m : MantelDim K) (a b v : K) : SPart K :=
  ⟨[⟨⟨a, v⟩, cutLeft m v, .wall⟩, ⟨cutLeft m v, cutRight m v, .nonWall⟩, ⟨cutRight m v, ⟨b, v⟩, .wall⟩],
    [⟨⟨a, v⟩, cutLeft m v, .wall⟩, ⟨cutRight m v, ⟨b, v⟩, .wall⟩]⟩

/-- C98: a line that passes both walls of a shell cuts it: the walls are replaced by their halves at the exact points of
intersection (rounded to 8 decimals), appended after the other sides, and the cutting part becomes two walls outside of
the shell with a gap inside. -/
theorem C98_both (hE : R.IsExact) (hl : Level m v) (ht : SPart K) (a b : K) (rest : List (Seg K))
    (hc : ht.graph = level a b v .wall :: rest)
    (ha : a + 2 / 10 ^ 5 ≤ m.posH - radAt m v) (hb : m.posH + radAt m v ≤ b - 2 / 10 ^ 5) :
    R.split false (R.shellVals m) ht false = (cutShell m v, cutEnd m a b v, .ok true) := by
  have hr := hl.rad
  have e5 : (0 : K) < 1 / 10 ^ 5 := by positivity
  obtain ⟨r1, r2, r3⟩ := hitR (c := .wall) hE hl (a := a) (b := b) (by linarith) hb
  obtain ⟨l1, l2, l3⟩ := hitL (c := .wall) hE hl (a := a) (b := b) ha (by linarith)
  obtain ⟨s1, s2, s3, s4, s5, s6, s7, s8⟩ := hl.seqs hE a b .wall
  obtain ⟨g1, g2, g3, g4, g5, g6⟩ := hl.grid hE
  have hcuts : R.splitCuts (level a b v .wall) [wallR m, wallL m] =
      [(level a b v .wall, wallR m), (level a b v .wall, wallL m)] := by
    rw [splitCuts_shell hE hl]
    simp [List.filter_cons, r1, r2, l1, l2]
  rw [shellVals_eq hE hl]
  unfold Rt.split
  simp only [Bool.false_eq_true, if_false, hc, hcuts, List.isEmpty_cons]
  simp only [Rt.splitSegs, Rt.splitOne, Rt.splitEnd, Rt.inPair, List.foldl_cons, List.foldl_nil, List.filter_cons,
    List.filter_nil, s1, s2, s3, s4, s5, s6, s7, s8, r3, l3, Bool.or_true, Bool.true_or, Bool.or_false, Bool.or_self,
    Bool.false_eq_true, if_true, if_false, List.eraseP_cons, cond_true, cond_false, g1, g2, g3, g4, g5, g6, List.cons_append,
    List.nil_append, List.insertIdx_succ_cons, List.insertIdx_zero]
  rfl

/-- C98: `split(v=...)` cuts both walls of every shell that the level passes; the cutting line is long enough. -/
theorem C98_level (hE : R.IsExact) (hl : Level m v) (hbig : |m.posH| + m.d0 / 2 + m.d1 / 2 ≤ 10 ^ 11)
    (hw : 2 / 10 ^ 5 ≤ m.d0 / 2 ∨ 2 / 10 ^ 5 ≤ m.d1 / 2) :
    R.splitLevel false (R.shellVals m) v = (cutShell m v, true) := by
  have e5 : (0 : K) < 1 / 10 ^ 5 := by positivity
  set M := max (m.d0 / 2) (m.d1 / 2) with hM
  have hM0 : m.d0 / 2 ≤ M := le_max_left _ _
  have hM1 : m.d1 / 2 ≤ M := le_max_right _ _
  have hMg : Grid M := by
    rcases max_choice (m.d0 / 2) (m.d1 / 2) with h | h
    · rw [hM, h]; exact hl.g0
    · rw [hM, h]; exact hl.g1
  have hMs : M ≤ m.d0 / 2 + m.d1 / 2 := max_le (by linarith [hl.r1]) (by linarith [hl.r0])
  have hM2 : 2 / 10 ^ 5 ≤ M := by rcases hw with h | h <;> linarith
  have hrad : radAt m v ≤ M := by
    obtain ⟨h0, h1⟩ := hl.u
    unfold radAt
    nlinarith [mul_nonneg h0.le (sub_nonneg.2 hM1), mul_nonneg (sub_nonneg.2 h1.le) (sub_nonneg.2 hM0)]
  have hpos := abs_le.1 (show |m.posH| ≤ |m.posH| from le_refl _)
  have bb : (boundingBox [wallR m, wallL m]).1 = (m.posH - M, m.posH + M) := by
    unfold boundingBox
    simp only [List.foldl_cons, List.foldl_nil, botR, topR, botL, topL]
    rw [max_add_add_left, ← hM, min_add_add_left, min_sub_sub_left, max_sub_sub_left, max_comm (m.d1 / 2), ← hM]
    set N := min (m.d0 / 2) (m.d1 / 2) with hN
    have hN1 : 1 / 10 ^ 5 ≤ N := le_min hl.r0 hl.r1
    have hNM : N ≤ M := min_le_max
    have hN2 : min (m.d1 / 2) (m.d0 / 2) = N := min_comm _ _
    have b1 : m.posH + M ≤ 10 ^ 11 := by linarith [hpos.2]
    have b2 : -10 ^ 11 ≤ m.posH - M := by linarith [hpos.1]
    congr 1
    · have : min (10 ^ 11) (m.posH + N) = m.posH + N := min_eq_right (by linarith)
      rw [this, min_eq_right (by linarith)]
    · have : max (-10 ^ 11) (m.posH + M) = m.posH + M := max_eq_right (by linarith)
      rw [this, hN2, max_eq_left (by linarith)]
  have hcl : R.splitLine [wallR m, wallL m] v = level (m.posH - 2 * M) (m.posH + 2 * M) v .line := by
    unfold Rt.splitLine
    rw [bb]
    simp only
    rw [min_eq_left (by linarith), max_eq_right (by linarith), hE.sub', hE.sub', hE.add', hE.mul', hE.fl,
      abs_of_nonneg (by linarith)]
    have g2 : Grid (2 * M) := by rw [two_mul]; exact hMg.add hMg
    have x1 : m.posH - M - 1 / 2 * (m.posH + M - (m.posH - M)) = m.posH - 2 * M := by ring
    have x2 : m.posH + M + 1 / 2 * (m.posH + M - (m.posH - M)) = m.posH + 2 * M := by ring
    rw [x1, x2, hE.mkPt_grid (hl.gH.sub g2) hl.gv, hE.mkPt_grid (hl.gH.add g2) hl.gv]
  have hr := hl.rad
  obtain ⟨r1, r2, r3⟩ := hitR (c := .line) hE hl (a := m.posH - 2 * M) (b := m.posH + 2 * M) (by linarith) (by linarith)
  obtain ⟨l1, l2, l3⟩ := hitL (c := .line) hE hl (a := m.posH - 2 * M) (b := m.posH + 2 * M) (by linarith) (by linarith)
  obtain ⟨s1, s2, s3, s4, s5, s6, s7, s8⟩ := hl.seqs hE (m.posH - 2 * M) (m.posH + 2 * M) .line
  obtain ⟨g1, g2, g3, g4, g5, g6⟩ := hl.grid hE
  have hcuts : R.splitCuts (level (m.posH - 2 * M) (m.posH + 2 * M) v .line) [wallR m, wallL m] =
      [(level (m.posH - 2 * M) (m.posH + 2 * M) v .line, wallR m),
        (level (m.posH - 2 * M) (m.posH + 2 * M) v .line, wallL m)] := by
    rw [splitCuts_shell hE hl]
    simp [List.filter_cons, r1, r2, l1, l2]
  rw [shellVals_eq hE hl]
  unfold Rt.splitLevel
  simp only [Bool.false_eq_true, if_false, hcl, hcuts, List.isEmpty_cons]
  simp only [Rt.splitSegs, Rt.splitOne, Rt.inPair, List.foldl_cons, List.foldl_nil, List.filter_cons,
    List.filter_nil, s1, s2, s3, s4, s5, s6, s7, s8, r3, l3, Bool.or_true, Bool.true_or, Bool.or_false, Bool.or_self,
    Bool.false_eq_true, if_true, if_false, List.eraseP_cons, cond_true, cond_false, g1, g2, g3, g4, g5, g6, List.cons_append,
    List.nil_append]
  rfl

/-- C98: a line that passes only the left wall cuts that wall and then fails: the shell is left with a wall cut, the
cutting part is as before. -/
theorem C98_left_only (hE : R.IsExact) (hl : Level m v) (ht : SPart K) (a b : K) (rest : List (Seg K))
    (hc : ht.graph = level a b v .wall :: rest)
    (ha : a + 2 / 10 ^ 5 ≤ m.posH - radAt m v) (hb : m.posH - radAt m v ≤ b - 2 / 10 ^ 5)
    (hb' : b + 2 / 10 ^ 8 ≤ m.posH + radAt m v) :
    R.split false (R.shellVals m) ht false =
      (⟨[wallR m, lidT m, lidB m, ⟨topL m, cutLeft m v, .wall⟩, ⟨cutLeft m v, botL m, .wall⟩],
        [wallR m, ⟨topL m, cutLeft m v, .wall⟩, ⟨cutLeft m v, botL m, .wall⟩]⟩, ht, .error .index) := by
  have e5 : (0 : K) < 2 / 10 ^ 5 := by positivity
  have r1 := missR (c := .wall) hE hl (a := a) (b := b) (by linarith) (Or.inr hb')
  obtain ⟨l1, l2, l3⟩ := hitL (c := .wall) hE hl (a := a) (b := b) ha hb
  obtain ⟨s1, s2, s3, s4, s5, s6, s7, s8⟩ := hl.seqs hE a b .wall
  obtain ⟨g1, g2, g3, g4, g5, g6⟩ := hl.grid hE
  have hcuts : R.splitCuts (level a b v .wall) [wallR m, wallL m] = [(level a b v .wall, wallL m)] := by
    rw [splitCuts_shell hE hl]
    simp [List.filter_cons, r1, l1, l2]
  rw [shellVals_eq hE hl]
  unfold Rt.split
  simp only [Bool.false_eq_true, if_false, hc, hcuts, List.isEmpty_cons]
  simp only [Rt.splitSegs, Rt.splitOne, Rt.splitEnd, Rt.inPair, List.foldl_cons, List.foldl_nil, List.filter_cons,
    List.filter_nil, s1, s2, s3, s4, s5, s6, s7, s8, l3, Bool.or_true, Bool.true_or, Bool.or_false, Bool.or_self,
    Bool.false_eq_true, if_true, if_false, List.eraseP_cons, cond_true, cond_false, g1, g2, g3, g4, g5, g6, List.cons_append,
    List.nil_append, List.insertIdx_succ_cons, List.insertIdx_zero]
  rfl

/-- C98: the same for the right wall -/
theorem C98_right_only (hE : R.IsExact) (hl : Level m v) (ht : SPart K) (a b : K) (rest : List (Seg K))
    (hc : ht.graph = level a b v .wall :: rest)
    (ha : a + 2 / 10 ^ 5 ≤ m.posH + radAt m v) (hb : m.posH + radAt m v ≤ b - 2 / 10 ^ 5)
    (ha' : m.posH - radAt m v ≤ a - 2 / 10 ^ 8) :
    R.split false (R.shellVals m) ht false =
      (⟨[lidT m, wallL m, lidB m, ⟨botR m, cutRight m v, .wall⟩, ⟨cutRight m v, topR m, .wall⟩],
        [wallL m, ⟨botR m, cutRight m v, .wall⟩, ⟨cutRight m v, topR m, .wall⟩]⟩, ht, .error .index) := by
  have e5 : (0 : K) < 2 / 10 ^ 5 := by positivity
  have l1 := missL (c := .wall) hE hl (a := a) (b := b) (by linarith) (Or.inl ha')
  obtain ⟨r1, r2, r3⟩ := hitR (c := .wall) hE hl (a := a) (b := b) ha hb
  obtain ⟨s1, s2, s3, s4, s5, s6, s7, s8⟩ := hl.seqs hE a b .wall
  obtain ⟨g1, g2, g3, g4, g5, g6⟩ := hl.grid hE
  have hcuts : R.splitCuts (level a b v .wall) [wallR m, wallL m] = [(level a b v .wall, wallR m)] := by
    rw [splitCuts_shell hE hl]
    simp [List.filter_cons, r1, r2, l1]
  rw [shellVals_eq hE hl]
  unfold Rt.split
  simp only [Bool.false_eq_true, if_false, hc, hcuts, List.isEmpty_cons]
  simp only [Rt.splitSegs, Rt.splitOne, Rt.splitEnd, Rt.inPair, List.foldl_cons, List.foldl_nil, List.filter_cons,
    List.filter_nil, s1, s2, s3, s4, s5, s6, s7, s8, r3, Bool.or_true, Bool.true_or, Bool.or_false, Bool.or_self,
    Bool.false_eq_true, if_true, if_false, List.eraseP_cons, cond_true, cond_false, g1, g2, g3, g4, g5, g6, List.cons_append,
    List.nil_append, List.insertIdx_succ_cons, List.insertIdx_zero]
  rfl

/-- C98: a line that ends inside of the shell, or beside it, changes nothing -/
theorem C98_none (hE : R.IsExact) (hl : Level m v) (ht : SPart K) (a b : K) (rest : List (Seg K)) (keep : Bool)
    (hc : ht.graph = level a b v .wall :: rest) (hab : a < b)
    (h1 : m.posH - radAt m v ≤ a - 2 / 10 ^ 8 ∨ b + 2 / 10 ^ 8 ≤ m.posH - radAt m v)
    (h2 : m.posH + radAt m v ≤ a - 2 / 10 ^ 8 ∨ b + 2 / 10 ^ 8 ≤ m.posH + radAt m v) :
    R.split false (R.shellVals m) ht keep = (R.shellVals m, ht, .ok false) := by
  have r1 := missR (c := .wall) hE hl hab h2
  have l1 := missL (c := .wall) hE hl hab h1
  have hcuts : R.splitCuts (level a b v .wall) [wallR m, wallL m] = [] := by
    rw [splitCuts_shell hE hl]
    simp [List.filter_cons, r1, l1]
  rw [shellVals_eq hE hl]
  unfold Rt.split
  simp only [Bool.false_eq_true, if_false, hc, hcuts, List.isEmpty_nil, if_true]

/-- C98: a line above or below the shell changes nothing -/
theorem C98_above_below (hE : R.IsExact) {v' : K} (hl : Level m v') (ht : SPart K) (a b : K) (rest : List (Seg K))
    (keep : Bool) (hc : ht.graph = level a b v .wall :: rest) (hab : a < b) (hg : Grid v)
    (h : v < m.posV - 1 / 10 ^ 8 ∨ m.posV + m.h + 1 / 10 ^ 8 < v) :
    R.split false (R.shellVals m) ht keep = (R.shellVals m, ht, .ok false) := by
  have hh := hl.hpos
  have r1 : R.intersectionOnSegment (level a b v .wall) (wallR m) = false := by
    refine miss_y hE hab ?_ hg ?_ <;> simp only [botR, topR]
    · intro e; linarith
    · rw [min_eq_left (by linarith), max_eq_right (by linarith)]; exact h
  have l1 : R.intersectionOnSegment (level a b v .wall) (wallL m) = false := by
    refine miss_y hE hab ?_ hg ?_ <;> simp only [botL, topL]
    · intro e; linarith
    · rw [min_eq_right (by linarith), max_eq_left (by linarith)]; exact h
  have hcuts : R.splitCuts (level a b v .wall) [wallR m, wallL m] = [] := by
    rw [splitCuts_shell hE hl]
    simp [List.filter_cons, r1, l1]
  rw [shellVals_eq hE hl]
  unfold Rt.split
  simp only [Bool.false_eq_true, if_false, hc, hcuts, List.isEmpty_nil, if_true]

end

/-- C98: parts whose walls are all horizontal do not cut each other; in particular an end of a room does not cut
itself, whatever has become of it. -/
theorem C98_itself (hR : R.IsRounding) (a b : SPart K) (keep : Bool) (hb : b.graph ≠ [])
    (ha : ∀ s ∈ a.graph, s.i.y = s.j.y) (hb' : ∀ s ∈ b.graph, s.i.y = s.j.y) :
    R.split false a b keep = (a, b, .ok false) := by
  unfold Rt.split
  simp only [Bool.false_eq_true, if_false]
  match hg : b.graph with
  | [] => exact absurd hg hb
  | cl :: rest =>
    have hcl : cl.i.y = cl.j.y := hb' cl (by rw [hg]; exact List.mem_cons_self)
    have hall : ∀ s ∈ cl :: a.graph, s.i.y = s.j.y := by
      intro s hs
      rcases List.mem_cons.1 hs with rfl | hs
      · exact hcl
      · exact ha s hs
    have hpairs : ∀ (l : List (Seg K)), (∀ s ∈ l, s.i.y = s.j.y) → ∀ x ∈ pairs2 l, R.intersectionOnSegment x.1 x.2 = false := by
      intro l
      induction l with
      | nil => intro _ x hx; simp [pairs2] at hx
      | cons y l ih =>
        intro h x hx
        rcases List.mem_append.1 hx with hx | hx
        · obtain ⟨z, hz, rfl⟩ := List.mem_map.1 hx
          exact ios_parallel _ _ (horizontal_parallel hR _ _ (h y List.mem_cons_self) (h z (List.mem_cons_of_mem _ hz)))
        · exact ih (fun s hs => h s (List.mem_cons_of_mem _ hs)) x hx
    have : R.splitCuts cl a.graph = [] := by
      unfold Rt.splitCuts Rt.intersectingLines
      rw [List.filter_eq_nil_iff]
      intro x hx
      have := hpairs _ hall x (List.mem_filter.1 hx).1
      simp [this]
    simp [this]

/-- a torispherical head is never cut -/
theorem C98_head (a b : SPart K) (keep : Bool) : R.split true a b keep = (a, b, .ok false) := rfl

/-- C98: the end of a room is one horizontal wall -/
theorem C98_end (hE : R.IsExact) (d posH posV : K) (hd : Grid (d / 2)) (hh : Grid posH) (hv : Grid posV) :
    R.raumEnde d posH posV = ⟨[level (posH - d / 2) (posH + d / 2) posV .wall],
      [level (posH - d / 2) (posH + d / 2) posV .wall]⟩ := by
  unfold Rt.raumEnde
  have hn : Grid (-d / 2) := by rw [neg_div]; exact hd.neg
  simp only [hE.div', hE.add', hE.mkPt_grid hn grid_zero, hE.mkPt_grid hd grid_zero, zero_add]
  have e : -d / 2 + posH = posH - d / 2 := by ring
  rw [e, add_comm (d / 2), hE.mkPt_grid (hh.sub hd) hv, hE.mkPt_grid (hh.add hd) hv]

/-- C98: a shell that has been cut is never valid again, since its graph has four walls -/
theorem C98_invalid (h : Heap K) (M : Part2) (m : MantelDim K) (v : K) (hM : h.vals M.graph = (cutShell m v).graph) :
    R.mantelValid h M = false := by
  unfold Rt.mantelValid
  rw [hM]
  rfl

section
variable {m o : MantelDim K} {v : K}

/-- C98: a vessel in a jacket, the inner shell first: the end of the room cuts the inner shell, its left rest then cuts
only one wall of the outer shell, and the construction of the vessel fails with an IndexError. -/
theorem C98_jacket_inner_first (hE : R.IsExact) (hm : Level m v) (ho : Level o v) (e : SPart K) (a b : K)
    (he : e.graph = [level a b v .wall]) (hax : m.posH = o.posH)
    (hr : radAt m v + 4 / 10 ^ 5 ≤ radAt o v)
    (ha : a + 2 / 10 ^ 5 ≤ o.posH - radAt o v) (hb : o.posH + radAt o v ≤ b - 2 / 10 ^ 5) :
    ∃ S, R.cutByRaumende (fun _ => false) [2] [R.shellVals m, R.shellVals o, e] = (S, .error .index) ∧
      S[0]? = some (cutShell m v) ∧ S[2]? = some (cutEnd m a b v) ∧
      S[1]? = some ⟨[wallR o, lidT o, lidB o, ⟨topL o, cutLeft o v, .wall⟩, ⟨cutLeft o v, botL o, .wall⟩],
        [wallR o, ⟨topL o, cutLeft o v, .wall⟩, ⟨cutLeft o v, botL o, .wall⟩]⟩ := by
  have e5 : (0 : K) < 1 / 10 ^ 5 := by positivity
  have e85 : (1 : K) / 10 ^ 8 < 1 / 10 ^ 5 := by norm_num
  have e2 : (2 : K) / 10 ^ 8 = 1 / 10 ^ 8 + 1 / 10 ^ 8 := by norm_num
  have e25 : (2 : K) / 10 ^ 5 = 1 / 10 ^ 5 + 1 / 10 ^ 5 := by norm_num
  have e45 : (4 : K) / 10 ^ 5 = 2 / 10 ^ 5 + 1 / 10 ^ 5 + 1 / 10 ^ 5 := by norm_num
  have hrm := hm.rad
  have step1 := C98_both hE hm e a b [] he (by rw [hax]; linarith) (by rw [hax]; linarith)
  obtain ⟨q1, q2⟩ := rhe8_close (m.posH - radAt m v)
  have step2 := C98_left_only hE ho (cutEnd m a b v) a (cutLeft m v).x [⟨cutRight m v, ⟨b, v⟩, .wall⟩] rfl ha
    (by simp only [cutLeft]; linarith) (by simp only [cutLeft]; linarith)
  refine ⟨[cutShell m v, ⟨[wallR o, lidT o, lidB o, ⟨topL o, cutLeft o v, .wall⟩, ⟨cutLeft o v, botL o, .wall⟩],
        [wallR o, ⟨topL o, cutLeft o v, .wall⟩, ⟨cutLeft o v, botL o, .wall⟩]⟩, cutEnd m a b v], ?_, rfl, rfl, rfl⟩
  unfold Rt.cutByRaumende
  have hidx : ((List.range [R.shellVals m, R.shellVals o, e].length).flatMap fun i => [2].map fun j => (i, j)) =
      [(0, 2), (1, 2), (2, 2)] := rfl
  rw [hidx]
  simp only [Rt.cutLoop, Rt.cutStep, List.getElem?_cons_zero, List.getElem?_cons_succ, step1, List.set_cons_zero,
    List.set_cons_succ, step2]

/-- C98: the outer shell first: it is cut, and the inner shell is not cut at all; there is no exception. -/
theorem C98_jacket_outer_first (hE : R.IsExact) (hm : Level m v) (ho : Level o v) (e : SPart K) (a b : K)
    (he : e.graph = [level a b v .wall]) (hax : m.posH = o.posH)
    (hr : radAt m v + 4 / 10 ^ 5 ≤ radAt o v)
    (ha : a + 2 / 10 ^ 5 ≤ o.posH - radAt o v) (hb : o.posH + radAt o v ≤ b - 2 / 10 ^ 5) :
    R.cutByRaumende (fun _ => false) [2] [R.shellVals o, R.shellVals m, e] =
      ([cutShell o v, R.shellVals m, cutEnd o a b v], .ok ()) := by
  have e5 : (0 : K) < 1 / 10 ^ 5 := by positivity
  have e85 : (1 : K) / 10 ^ 8 < 1 / 10 ^ 5 := by norm_num
  have e2 : (2 : K) / 10 ^ 8 = 1 / 10 ^ 8 + 1 / 10 ^ 8 := by norm_num
  have e25 : (2 : K) / 10 ^ 5 = 1 / 10 ^ 5 + 1 / 10 ^ 5 := by norm_num
  have e45 : (4 : K) / 10 ^ 5 = 2 / 10 ^ 5 + 1 / 10 ^ 5 + 1 / 10 ^ 5 := by norm_num
  have hrm := hm.rad
  have step1 := C98_both hE ho e a b [] he ha hb
  obtain ⟨q1, q2⟩ := rhe8_close (o.posH - radAt o v)
  have step2 := C98_none hE hm (cutEnd o a b v) a (cutLeft o v).x [⟨cutRight o v, ⟨b, v⟩, .wall⟩] false rfl
    (by simp only [cutLeft]; linarith) (Or.inr (by simp only [cutLeft]; rw [hax]; linarith))
    (Or.inr (by simp only [cutLeft]; rw [hax]; linarith))
  have step3 := C98_itself hE.isRounding (cutEnd o a b v) (cutEnd o a b v) false (by simp [cutEnd])
    (by simp [cutEnd, cutLeft, cutRight]) (by simp [cutEnd, cutLeft, cutRight])
  unfold Rt.cutByRaumende
  have hidx : ((List.range [R.shellVals o, R.shellVals m, e].length).flatMap fun i => [2].map fun j => (i, j)) =
      [(0, 2), (1, 2), (2, 2)] := rfl
  rw [hidx]
  simp only [Rt.cutLoop, Rt.cutStep, List.getElem?_cons_zero, List.getElem?_cons_succ, step1, List.set_cons_zero,
    List.set_cons_succ, step2, step3]

/-- C98: a vessel with a head (any part that is never cut), a shell and an end of a room: only the shell is cut. -/
theorem C98_head_shell_end (hE : R.IsExact) (hm : Level m v) (x e : SPart K) (a b : K)
    (he : e.graph = [level a b v .wall])
    (ha : a + 2 / 10 ^ 5 ≤ m.posH - radAt m v) (hb : m.posH + radAt m v ≤ b - 2 / 10 ^ 5) :
    R.cutByRaumende (fun i => decide (i = 0)) [2] [x, R.shellVals m, e] = ([x, cutShell m v, cutEnd m a b v], .ok ()) := by
  have step1 := C98_both hE hm e a b [] he ha hb
  have step3 := C98_itself hE.isRounding (cutEnd m a b v) (cutEnd m a b v) false (by simp [cutEnd])
    (by simp [cutEnd, cutLeft, cutRight]) (by simp [cutEnd, cutLeft, cutRight])
  unfold Rt.cutByRaumende
  have hidx : ((List.range [x, R.shellVals m, e].length).flatMap fun i => [2].map fun j => (i, j)) =
      [(0, 2), (1, 2), (2, 2)] := rfl
  rw [hidx]
  simp only [Rt.cutLoop, Rt.cutStep, List.getElem?_cons_zero, List.getElem?_cons_succ, List.set_cons_zero,
    List.set_cons_succ, decide_true, C98_head, show decide (1 = 0) = false from rfl, show decide (2 = 0) = false from rfl,
    step1, step3]

end

/-- C98: the graph of a part that has been cut consists of exactly its Walls; plain LineSegments and NonWalls do not
belong to it. -/
theorem C98_graph (a b : SPart K) (keep tori : Bool) (hok : (R.split tori a b keep).2.2.toOption = some true) (s : Seg K) :
    s ∈ (R.split tori a b keep).1.graph ↔ s ∈ (R.split tori a b keep).1.segs ∧ s.cls = .wall := by
  revert hok
  unfold Rt.split
  cases tori with
  | true => intro h; simp [Except.toOption] at h
  | false =>
    simp only [Bool.false_eq_true, if_false]
    cases b.graph with
    | nil => intro h; simp [Except.toOption] at h
    | cons cl rest =>
      dsimp only
      split
      · intro h; simp [Except.toOption] at h
      · split
        · intro _; simp [wallsOf]
        · split
          · intro h; simp [Except.toOption] at h
          · intro _; simp [wallsOf]

/-- C98: a part whose graph is empty cannot be used for cutting: an IndexError, and nothing changes. -/
theorem C98_no_graph (a b : SPart K) (keep : Bool) (hb : b.graph = []) : R.split false a b keep = (a, b, .error .index) := by
  unfold Rt.split
  rw [hb]
  rfl

/-! ### the point test after a cut -/

section
omit [FloorRing K]

theorem onSeg_halves {s : Seg K} {c X : Pt K} (hc : Inner s.i s.j c) :
    OnSeg s X ↔ OnSeg ⟨s.i, c, s.cls⟩ X ∨ OnSeg ⟨c, s.j, s.cls⟩ X := by
  obtain ⟨w, h0, h1, rfl⟩ := hc
  unfold OnSeg Between
  dsimp only
  constructor
  · rintro ⟨u, hu0, hu1, rfl⟩
    rcases le_total u w with h | h
    · left
      refine ⟨u / w, div_nonneg hu0 h0.le, (div_le_one h0).2 h, ?_⟩
      simp only [lerp]
      congr 1 <;> field_simp <;> ring
    · right
      have hw : 0 < 1 - w := by linarith
      refine ⟨(u - w) / (1 - w), div_nonneg (by linarith) hw.le, (div_le_one hw).2 (by linarith), ?_⟩
      simp only [lerp]
      congr 1 <;> field_simp <;> ring
  · rintro (⟨u, hu0, hu1, rfl⟩ | ⟨u, hu0, hu1, rfl⟩)
    · refine ⟨u * w, by positivity, by nlinarith, ?_⟩
      simp only [lerp]
      congr 1 <;> ring
    · refine ⟨w + u * (1 - w), ?_, ?_, ?_⟩
      · nlinarith
      · nlinarith
      · simp only [lerp]
        congr 1 <;> ring

theorem meet_halves {s : Seg K} {c p t : Pt K} (hc : Inner s.i s.j c) :
    Meet p t s ↔ Meet p t ⟨s.i, c, s.cls⟩ ∨ Meet p t ⟨c, s.j, s.cls⟩ := by
  unfold Meet
  constructor
  · rintro ⟨X, h1, h2⟩
    rcases (onSeg_halves hc).1 h2 with h | h
    · exact Or.inl ⟨X, h1, h⟩
    · exact Or.inr ⟨X, h1, h⟩
  · rintro (⟨X, h1, h2⟩ | ⟨X, h1, h2⟩)
    · exact ⟨X, h1, (onSeg_halves hc).2 (Or.inl h2)⟩
    · exact ⟨X, h1, (onSeg_halves hc).2 (Or.inr h2)⟩

theorem det3_between {p t X : Pt K} (h : Between p t X) : det3 p t X = 0 := by
  obtain ⟨u, -, -, rfl⟩ := h
  simp only [det3, lerp]; ring

theorem det3_lerp (p t a b : Pt K) (u : K) : det3 p t (lerp a b u) = (1 - u) * det3 p t a + u * det3 p t b := by
  simp only [det3, lerp]; ring

theorem not_both_halves {s : Seg K} {c p t : Pt K} (hc : Inner s.i s.j c) (hn : det3 p t c ≠ 0) :
    ¬ (Meet p t ⟨s.i, c, s.cls⟩ ∧ Meet p t ⟨c, s.j, s.cls⟩) := by
  rintro ⟨⟨X, hX, u, hu0, hu1, rfl⟩, ⟨Y, hY, z, hz0, hz1, rfl⟩⟩
  obtain ⟨w, h0, h1, rfl⟩ := hc
  have e1 := det3_between hX
  have e2 := det3_between hY
  dsimp only at e1 e2
  rw [det3_lerp] at e1 e2 hn
  rw [det3_lerp] at e1 e2
  set A := det3 p t s.i
  set B := det3 p t s.j
  -- with C = det3 at the cut: (1-u) A + u C = 0 and (1-z) C + z B = 0, C = (1-w) A + w B
  have hC : (1 - w) * A + w * B ≠ 0 := hn
  set C := (1 - w) * A + w * B with hCd
  -- multiply out: the sign of A and of B is opposite to that of C
  have s1 : 0 ≤ -(A * C) := by
    rcases eq_or_lt_of_le hu1 with h | h
    · rw [h] at e1; exact absurd (by linarith) hC
    · have h3 : (1 - u) * -(A * C) = u * (C * C) := by linear_combination (-C) * e1
      by_contra hh
      push Not at hh
      nlinarith [mul_nonneg hu0 (mul_self_nonneg C)]
  have s2 : 0 ≤ -(B * C) := by
    rcases eq_or_lt_of_le hz0 with h | h
    · rw [← h] at e2; exact absurd (by linarith) hC
    · have h3 : z * -(B * C) = (1 - z) * (C * C) := by linear_combination (-C) * e2
      by_contra hh
      push Not at hh
      nlinarith [mul_nonneg (sub_nonneg.2 hz1) (mul_self_nonneg C)]
  have h4 : C * C = (1 - w) * (A * C) + w * (B * C) := by rw [hCd]; ring
  have h5 : 0 < C * C := mul_self_pos.2 hC
  nlinarith

theorem clear_halves {s : Seg K} {c p t : Pt K} (hc : Inner s.i s.j c) (h1 : Clear p t ⟨s.i, c, s.cls⟩)
    (h2 : Clear p t ⟨c, s.j, s.cls⟩) : Clear p t s := by
  intro X hX hXs
  obtain ⟨w, h0, h1w, rfl⟩ := hc
  obtain ⟨u, rfl⟩ := hXs
  have hw : 0 < 1 - w := by linarith
  have hon := fun X => onSeg_halves (s := s) (c := lerp s.i s.j w) (X := X) ⟨w, h0, h1w, rfl⟩
  have k1 := h1 (lerp s.i s.j u) hX ⟨u / w, by simp only [lerp]; congr 1 <;> field_simp <;> ring⟩
  have k2 := h2 (lerp s.i s.j u) hX ⟨(u - w) / (1 - w), by simp only [lerp]; congr 1 <;> field_simp <;> ring⟩
  rcases k1 with k1 | k1 | k1
  · exact Or.inl ⟨k1.1, (hon _).2 (Or.inl k1.2)⟩
  · exact Or.inr (Or.inl k1)
  rcases k2 with k2 | k2 | k2
  · exact Or.inl ⟨k2.1, (hon _).2 (Or.inr k2.2)⟩
  · exact Or.inr (Or.inl k2)
  right; right
  have d : (0 : K) < 2 / 10 ^ 8 := by positivity
  -- one coordinate: `x = p + u (q - p)`, `c = p + w (q - p)`
  have low1 : ∀ p q : K, u ≤ 0 → p + u * (q - p) < min p (p + w * (q - p)) - 2 / 10 ^ 8 →
      p + u * (q - p) < min p q - 2 / 10 ^ 8 := by
    intro p q hu h
    have hp := min_le_left p (p + w * (q - p))
    have : p ≤ q := by by_contra hh; push Not at hh; nlinarith
    rw [min_eq_left this]; linarith
  have up1 : ∀ p q : K, u ≤ 0 → max p (p + w * (q - p)) + 2 / 10 ^ 8 < p + u * (q - p) →
      max p q + 2 / 10 ^ 8 < p + u * (q - p) := by
    intro p q hu h
    have hp := le_max_left p (p + w * (q - p))
    have : q ≤ p := by by_contra hh; push Not at hh; nlinarith
    rw [max_eq_left this]; linarith
  have low2 : ∀ p q : K, 1 ≤ u → p + u * (q - p) < min (p + w * (q - p)) q - 2 / 10 ^ 8 →
      p + u * (q - p) < min p q - 2 / 10 ^ 8 := by
    intro p q hu h
    have hp := min_le_right (p + w * (q - p)) q
    have : q ≤ p := by by_contra hh; push Not at hh; nlinarith
    rw [min_eq_right this]; linarith
  have up2 : ∀ p q : K, 1 ≤ u → max (p + w * (q - p)) q + 2 / 10 ^ 8 < p + u * (q - p) →
      max p q + 2 / 10 ^ 8 < p + u * (q - p) := by
    intro p q hu h
    have hp := le_max_right (p + w * (q - p)) q
    have : p ≤ q := by by_contra hh; push Not at hh; nlinarith
    rw [max_eq_right this]; linarith
  have in1 : ∀ p q : K, 0 ≤ u → u ≤ w → min p (p + w * (q - p)) ≤ p + u * (q - p) ∧
      p + u * (q - p) ≤ max p (p + w * (q - p)) := by
    intro p q hu huw
    rcases le_total p q with h | h
    · exact ⟨(min_le_left _ _).trans (by nlinarith), le_trans (by nlinarith) (le_max_right _ _)⟩
    · exact ⟨(min_le_right _ _).trans (by nlinarith), le_trans (by nlinarith) (le_max_left _ _)⟩
  have in2 : ∀ p q : K, w ≤ u → u ≤ 1 → min (p + w * (q - p)) q ≤ p + u * (q - p) ∧
      p + u * (q - p) ≤ max (p + w * (q - p)) q := by
    intro p q huw hu
    rcases le_total p q with h | h
    · exact ⟨(min_le_left _ _).trans (by nlinarith), le_trans (by nlinarith) (le_max_right _ _)⟩
    · exact ⟨(min_le_right _ _).trans (by nlinarith), le_trans (by nlinarith) (le_max_left _ _)⟩
  unfold FarFromBox at k1 k2 ⊢
  simp only [lerp] at k1 k2 ⊢
  rcases le_total u 0 with hu | hu
  · rcases k1 with k | k | k | k
    · exact Or.inl (low1 _ _ hu k)
    · exact Or.inr (Or.inl (up1 _ _ hu k))
    · exact Or.inr (Or.inr (Or.inl (low1 _ _ hu k)))
    · exact Or.inr (Or.inr (Or.inr (up1 _ _ hu k)))
  rcases le_total 1 u with hu1 | hu1
  · rcases k2 with k | k | k | k
    · exact Or.inl (low2 _ _ hu1 k)
    · exact Or.inr (Or.inl (up2 _ _ hu1 k))
    · exact Or.inr (Or.inr (Or.inl (low2 _ _ hu1 k)))
    · exact Or.inr (Or.inr (Or.inr (up2 _ _ hu1 k)))
  exfalso
  rcases le_total u w with hw' | hw'
  · have ix := in1 s.i.x s.j.x hu hw'
    have iy := in1 s.i.y s.j.y hu hw'
    rcases k1 with k | k | k | k <;> linarith [ix.1, ix.2, iy.1, iy.2]
  · have ix := in2 s.i.x s.j.x hw' hu1
    have iy := in2 s.i.y s.j.y hw' hu1
    rcases k2 with k | k | k | k <;> linarith [ix.1, ix.2, iy.1, iy.2]

/-- the vertices of the coarse polygon are vertices of the finer one -/
theorem refine_vertex {l m : List (Seg K)} (h : Refine l m) : ∀ s ∈ l, (∃ o ∈ m, o.i = s.i) ∧ ∃ o ∈ m, o.j = s.j := by
  induction h with
  | nil => simp
  | keep s _ ih =>
    intro o ho
    rcases List.mem_cons.1 ho with rfl | ho
    · exact ⟨⟨o, List.mem_cons_self, rfl⟩, o, List.mem_cons_self, rfl⟩
    · obtain ⟨⟨a, ha, e⟩, b, hb, e'⟩ := ih o ho
      exact ⟨⟨a, List.mem_cons_of_mem _ ha, e⟩, b, List.mem_cons_of_mem _ hb, e'⟩
  | cut s c _ _ ih =>
    intro o ho
    rcases List.mem_cons.1 ho with rfl | ho
    · exact ⟨⟨_, List.mem_cons_self, rfl⟩, _, List.mem_cons_of_mem _ List.mem_cons_self, rfl⟩
    · obtain ⟨⟨a, ha, e⟩, b, hb, e'⟩ := ih o ho
      exact ⟨⟨a, List.mem_cons_of_mem _ (List.mem_cons_of_mem _ ha), e⟩, b,
        List.mem_cons_of_mem _ (List.mem_cons_of_mem _ hb), e'⟩

theorem refine_clear {l m : List (Seg K)} (h : Refine l m) {p t : Pt K} (hc : ∀ s ∈ m, Clear p t s) :
    ∀ s ∈ l, Clear p t s := by
  induction h with
  | nil => simp
  | keep s _ ih =>
    intro o ho
    rcases List.mem_cons.1 ho with rfl | ho
    · exact hc o List.mem_cons_self
    · exact ih (fun s hs => hc s (List.mem_cons_of_mem _ hs)) o ho
  | cut s c hi _ ih =>
    intro o ho
    rcases List.mem_cons.1 ho with rfl | ho
    · exact clear_halves hi (hc _ List.mem_cons_self) (hc _ (List.mem_cons_of_mem _ List.mem_cons_self))
    · exact ih (fun s hs => hc s (List.mem_cons_of_mem _ (List.mem_cons_of_mem _ hs))) o ho

theorem GoodTarget.coarse {l m : List (Seg K)} (h : Refine l m) {p t : Pt K} (g : GoodTarget m p t) : GoodTarget l p t where
  right := g.right
  beyond := by
    intro s hs
    obtain ⟨⟨a, ha, e⟩, b, hb, e'⟩ := refine_vertex h s hs
    rw [← e, ← e']
    exact ⟨(g.beyond a ha).1, (g.beyond b hb).2⟩
  noVertex := by
    intro s hs
    obtain ⟨⟨a, ha, e⟩, b, hb, e'⟩ := refine_vertex h s hs
    rw [← e, ← e']
    exact ⟨(g.noVertex a ha).1, (g.noVertex b hb).2⟩
  clear := refine_clear h g.clear

theorem Spread.coarse {l m : List (Seg K)} (h : Refine l m) {p t : Pt K} (g : Spread m p t) : Spread l p t := by
  have key : ∀ q, (q = p ∨ q = t ∨ ∃ s ∈ l, q = s.i ∨ q = s.j) → (q = p ∨ q = t ∨ ∃ s ∈ m, q = s.i ∨ q = s.j) := by
    rintro q (e | e | ⟨s, hs, e | e⟩)
    · exact Or.inl e
    · exact Or.inr (Or.inl e)
    · obtain ⟨⟨a, ha, e'⟩, -⟩ := refine_vertex h s hs
      exact Or.inr (Or.inr ⟨a, ha, Or.inl (e.trans e'.symm)⟩)
    · obtain ⟨-, b, hb, e'⟩ := refine_vertex h s hs
      exact Or.inr (Or.inr ⟨b, hb, Or.inr (e.trans e'.symm)⟩)
  intro a ha b hb
  exact g a (key a ha) b (key b hb)

open Classical in
theorem meetCount_coarse {l m : List (Seg K)} (h : Refine l m) {p t : Pt K}
    (hn : ∀ s ∈ m, det3 p t s.i ≠ 0 ∧ det3 p t s.j ≠ 0) : meetCount m p t = meetCount l p t := by
  induction h with
  | nil => rfl
  | keep s _ ih =>
    have := ih fun o ho => hn o (List.mem_cons_of_mem _ ho)
    unfold meetCount at this ⊢
    simp only [List.filter_cons]
    split <;> simp [this]
  | cut s c hi _ ih =>
    have h1 := ih fun o ho => hn o (List.mem_cons_of_mem _ (List.mem_cons_of_mem _ ho))
    have h2 := (hn _ List.mem_cons_self).2
    have h3 := not_both_halves hi h2
    have h4 := meet_halves (p := p) (t := t) hi
    unfold meetCount at h1 ⊢
    simp only [List.filter_cons, decide_eq_true_eq]
    by_cases a1 : Meet p t ⟨s.i, c, s.cls⟩ <;> by_cases a2 : Meet p t ⟨c, s.j, s.cls⟩
    · exact absurd ⟨a1, a2⟩ h3
    · simp [a1, a2, h1, h4.2 (Or.inl a1)]
    · simp [a1, a2, h1, h4.2 (Or.inr a2)]
    · have : ¬ Meet p t s := fun h => (h4.1 h).elim a1 a2
      simp [a1, a2, h1, this]

end

/-- C98: the point test does not depend on how the sides of a polygon are subdivided: a polyline that draws the
subdivided polygon answers as the polygon itself. -/
theorem C98_subdivision (hE : R.IsExact) (l m n : List (Seg K)) (hr : Refine l m) (hd : SameDrawing n m)
    (hc : ClosedChain l) (hl : NoDouble l) (hm : NoDouble m) (p : Pt K) (hoff : ∀ s ∈ l, ¬ OnSeg s p) (ω : ℕ → Pt K)
    (hω : ∀ k < 3, GoodTarget m p (ω k) ∧ Spread m p (ω k)) (fuel : ℕ) :
    R.plInternal n p ω (fuel + 1) = R.plInternal l p ω (fuel + 1) ∧
      R.plInternal l p ω (fuel + 1) = some (decide (meetCount l p (ω 0) % 2 = 1)) := by
  have hl' := C93_drawing hE l l (SameDrawing.refl l) hc hl p hoff ω
    (fun k hk => ⟨(hω k hk).1.coarse hr, (hω k hk).2.coarse hr⟩) (ω 0) ((hω 0 (by omega)).1.coarse hr) fuel
  refine ⟨?_, hl'⟩
  rw [hl']
  apply plInternal_first
  · exact not_vertex hE ((hω 0 (by omega)).2.draw hd) ((hω 0 (by omega)).1.draw hd)
  · intro k hk
    obtain ⟨g, sp⟩ := hω k hk
    have g0 := (hω 0 (by omega)).1
    rw [crossCount_noTwice hE (sp.draw hd) (noDouble_draw hd hm).noTwice (g.draw hd), meetCount_draw hd,
      meetCount_coarse hr g.noVertex, meetCount_eq_rayCount (g.coarse hr) hoff, meetCount_eq_rayCount (g0.coarse hr) hoff]
    exact Ray.rayCount_parity hc g.right g0.right ⟨(g.coarse hr).noVertex, hoff⟩ ⟨(g0.coarse hr).noVertex, hoff⟩

section
variable {m : MantelDim K} {v : K}

/-- the cut shell as a closed chain -/
def cutChain (m : MantelDim K) (v : K) : List (Seg K) :=
  [⟨botR m, cutRight m v, .wall⟩, ⟨cutRight m v, topR m, .wall⟩, lidT m, ⟨topL m, cutLeft m v, .wall⟩,
    ⟨cutLeft m v, botL m, .wall⟩, lidB m]

theorem cutShell_drawing (m : MantelDim K) (v : K) : SameDrawing (cutShell m v).segs (cutChain m v) := by
  refine ⟨cutChain m v, ?_, List.forall₂_same.2 fun s _ => SameEdge.refl s⟩
  unfold cutChain cutShell
  rw [List.perm_iff_count]
  intro x
  simp only [List.count_cons, List.count_nil]
  omega

theorem Level.refine (hl : Level m v) (hg : Grid (radAt m v)) : Refine (shell m .nonWall) (cutChain m v) := by
  obtain ⟨h0, h1⟩ := hl.u
  have hh := hl.hpos.ne'
  refine .cut (wallR m) (cutRight m v) ⟨_, h0, h1, ?_⟩ (.keep (lidT m) (.cut (wallL m) (cutLeft m v)
    ⟨1 - (v - m.posV) / m.h, by linarith, by linarith, ?_⟩ (.keep (lidB m) .nil)))
  · unfold cutRight lerp
    rw [(hl.gH.add hg).rhe8]
    simp only [botR, topR, radAt]
    congr 1
    · ring
    · field_simp; ring
  · unfold cutLeft lerp
    rw [(hl.gH.sub hg).rhe8]
    simp only [botL, topL, radAt]
    congr 1
    · ring
    · field_simp; ring

theorem Level.noDouble (hl : Level m v) (hg : Grid (radAt m v)) : NoDouble (cutChain m v) := by
  have e5 : (0 : K) < 1 / 10 ^ 5 := by positivity
  have hr := hl.rad
  have h0 := hl.r0
  have h1 := hl.r1
  have h2 := hl.lo
  have h3 := hl.hi
  unfold NoDouble cutChain cutRight cutLeft
  rw [(hl.gH.add hg).rhe8, (hl.gH.sub hg).rhe8]
  simp only [List.pairwise_cons, List.mem_cons, List.not_mem_nil, or_false, forall_eq_or_imp, forall_eq, SameEdge,
    lidT, lidB, botR, topR, botL, topL, Pt.mk.injEq]
  refine ⟨⟨?_, ?_, ?_, ?_, ?_⟩, ⟨?_, ?_, ?_, ?_⟩, ⟨?_, ?_, ?_⟩, ⟨?_, ?_⟩, ?_, by simp, List.Pairwise.nil⟩ <;>
    (rintro (⟨⟨a, b⟩, c, d⟩ | ⟨⟨a, b⟩, c, d⟩) <;> linarith)

/-- C98: the point test of a shell that has been cut answers as that of the shell itself: True strictly inside and False
strictly outside (if the points of the cut are representable, as they are for cylinders). -/
theorem C98_answers (hE : R.IsExact) (hl : Level m v) (hg : Grid (radAt m v)) (p : Pt K) (ω : ℕ → Pt K)
    (hω : ∀ k < 3, GoodTarget (cutChain m v) p (ω k) ∧ Spread (cutChain m v) p (ω k)) (fuel : ℕ) :
    (InsideCcw (shell m .nonWall) p → R.plInternal (cutShell m v).segs p ω (fuel + 1) = some true) ∧
    (OutsideCcw (shell m .nonWall) p → R.plInternal (cutShell m v).segs p ω (fuel + 1) = some false) := by
  have e5 : (0 : K) < 1 / 10 ^ 5 := by positivity
  have hconv := shell_convex (m := m) (by linarith [hl.r0]) (by linarith [hl.r1]) hl.hpos .nonWall
  have hr := hl.refine hg
  have hω' : ∀ k < 3, GoodTarget (shell m .nonWall) p (ω k) ∧ Spread (shell m .nonWall) p (ω k) :=
    fun k hk => ⟨(hω k hk).1.coarse hr, (hω k hk).2.coarse hr⟩
  have key : ∀ hoff : ∀ s ∈ shell m .nonWall, ¬ OnSeg s p, R.plInternal (cutShell m v).segs p ω (fuel + 1) =
      R.plInternal (shell m .nonWall) p ω (fuel + 1) := fun hoff =>
    (C98_subdivision hE _ _ _ hr (cutShell_drawing m v) hconv.chain (hconv.noDouble (by simp [shell, outline]))
      (hl.noDouble hg) p hoff ω hω fuel).1
  constructor
  · intro hp
    rw [key (not_onSeg_of_inside hp)]
    exact (C84_inside hE _ hconv (by simp [shell, outline]) p hp ω hω' fuel).1
  · intro hp
    rw [key (not_onSeg_of_outside hconv hp)]
    exact (C84_outside hE _ hconv p hp ω hω' fuel).1

end

/-! ### examples -/

/-- a cylinder of radius 1 and one of radius 2 around it, from height 0 to 2, and the end of a room at height 1 -/
noncomputable def exInner : MantelDim ℝ := ⟨0, 0, 2, 2, 2⟩
noncomputable def exOuter : MantelDim ℝ := ⟨0, 0, 4, 4, 2⟩

theorem exInner_level : Level exInner 1 := by
  constructor <;> (try simp only [exInner]) <;> try (norm_num; done)
  · exact ⟨0, by norm_num⟩
  · exact ⟨0, by norm_num⟩
  · exact ⟨200000000, by norm_num⟩
  · exact ⟨100000000, by norm_num⟩
  · exact ⟨100000000, by norm_num⟩
  · exact ⟨100000000, by norm_num⟩

theorem exOuter_level : Level exOuter 1 := by
  constructor <;> (try simp only [exOuter]) <;> try (norm_num; done)
  · exact ⟨0, by norm_num⟩
  · exact ⟨0, by norm_num⟩
  · exact ⟨200000000, by norm_num⟩
  · exact ⟨200000000, by norm_num⟩
  · exact ⟨200000000, by norm_num⟩
  · exact ⟨100000000, by norm_num⟩

example : ∃ S, exReal.cutByRaumende (fun _ => false) [2]
    [exReal.shellVals exInner, exReal.shellVals exOuter, exReal.raumEnde 6 0 1] = (S, .error .index) := by
  obtain ⟨S, h, -⟩ := C98_jacket_inner_first exReal_isExact exInner_level exOuter_level (exReal.raumEnde 6 0 1) (-3) 3
    (by
      rw [C98_end exReal_isExact 6 0 1 ⟨300000000, by norm_num⟩ ⟨0, by norm_num⟩ ⟨100000000, by norm_num⟩]
      norm_num)
    rfl (by norm_num [radAt, exInner, exOuter]) (by norm_num [radAt, exOuter]) (by norm_num [radAt, exOuter])
  exact ⟨S, h⟩

/-- the hypotheses of `C98_answers` for a point inside of the inner shell -/
example : GoodTarget (cutChain exInner 1) ⟨0, 1 / 2⟩ ⟨100, 50⟩ := by
  have hcut : cutChain exInner 1 = [⟨⟨1, 0⟩, ⟨1, 1⟩, .wall⟩, ⟨⟨1, 1⟩, ⟨1, 2⟩, .wall⟩, ⟨⟨1, 2⟩, ⟨-1, 2⟩, .nonWall⟩,
      ⟨⟨-1, 2⟩, ⟨-1, 1⟩, .wall⟩, ⟨⟨-1, 1⟩, ⟨-1, 0⟩, .wall⟩, ⟨⟨-1, 0⟩, ⟨1, 0⟩, .nonWall⟩] := by
    have g1 : Grid (1 : ℝ) := ⟨100000000, by norm_num⟩
    have g2 : Grid (-1 : ℝ) := ⟨-100000000, by norm_num⟩
    simp only [cutChain, cutRight, cutLeft, radAt, exInner, botR, topR, botL, topL, lidT, lidB]
    norm_num
    rw [g1.rhe8, g2.rhe8]
    simp
  rw [hcut]
  refine ⟨by norm_num, ?_, ?_, ?_⟩
  · simp only [List.mem_cons, List.not_mem_nil, or_false, forall_eq_or_imp, forall_eq]
    norm_num
  · simp only [List.mem_cons, List.not_mem_nil, or_false, forall_eq_or_imp, forall_eq, det3]
    norm_num
  · simp only [List.mem_cons, List.not_mem_nil, or_false, forall_eq_or_imp, forall_eq]
    refine ⟨?_, ?_, ?_, ?_, ?_, ?_⟩
    · refine clear_at (1 / 100) (by norm_num) (by norm_num) (Or.inl ⟨by norm_num, by norm_num, 199 / 200, by norm_num,
        by norm_num, by norm_num [lerp]⟩)
    · refine clear_at (1 / 100) (by norm_num) (by norm_num) (Or.inr (Or.inr (by norm_num [FarFromBox, lerp])))
    · refine clear_at (3 / 99) (by norm_num) (by norm_num) (Or.inr (Or.inr (by norm_num [FarFromBox, lerp])))
    · refine clear_at (-1 / 100) (by norm_num) (by norm_num) (Or.inr (Or.inl (by norm_num [FarFromBox, lerp])))
    · refine clear_at (-1 / 100) (by norm_num) (by norm_num) (Or.inr (Or.inl (by norm_num [FarFromBox, lerp])))
    · refine clear_at (-1 / 99) (by norm_num) (by norm_num) (Or.inr (Or.inl (by norm_num [FarFromBox, lerp])))

/-- binary64: a shell from 0 to 2 with radius 1, cut at height 1 by an end of a room that reaches from -3/2 to 3/2 -/
example : exRt.split false (exRt.shellVals ⟨0, 0, 2, 2, 2⟩) (exRt.raumEnde 3 0 1) false =
    (cutShell ⟨0, 0, 2, 2, 2⟩ 1, cutEnd ⟨0, 0, 2, 2, 2⟩ (-3 / 2) (3 / 2) 1, .ok true) := by decide +kernel

end Srep
