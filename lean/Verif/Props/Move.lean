import Verif.Model.Heap
import Verif.Lemmas.Round
import Verif.Lemmas.SegExact
import Verif.Spec.Example

/-! Properties C23, C24: moving and mirroring one segment in memory. -/

set_option linter.unusedSectionVars false

namespace Srep
variable {K : Type} [Field K] [LinearOrder K] [IsStrictOrderedRing K] [FloorRing K]

/-- translation of a point, exact -/
def shift (p : Pt K) (a b : K) : Pt K := ⟨p.x + a, p.y + b⟩

/-! ### C23 -/

/-- C23: a segment whose endpoints are two different Point objects: `move` writes each of them once and
changes nothing else (any arithmetic). -/
theorem C23_move_frame (R : Rt K) (h : Heap K) (s : ℕ) (a b : K) (hne : (h.seg s).i ≠ (h.seg s).j) :
    (R.segMove h s a b).seg = h.seg ∧ (R.segMove h s a b).npt = h.npt ∧
    (R.segMove h s a b).pt (h.seg s).i = R.ptAdd (h.pt (h.seg s).i) ⟨a, b⟩ ∧
    (R.segMove h s a b).pt (h.seg s).j = R.ptAdd (h.pt (h.seg s).j) ⟨a, b⟩ ∧
    ∀ p, p ≠ (h.seg s).i → p ≠ (h.seg s).j → (R.segMove h s a b).pt p = h.pt p := by
  refine ⟨rfl, rfl, ?_, ?_, ?_⟩
  · simp [Rt.segMove, Rt.movePt, Heap.setPt, Function.update_apply, hne, Rt.ptAdd]
  · simp [Rt.segMove, Rt.movePt, Heap.setPt, Function.update_apply, Ne.symm hne, Rt.ptAdd]
  · intro p h1 h2
    simp [Rt.segMove, Rt.movePt, Heap.setPt, Function.update_apply, h1, h2]

/-- C23: if both endpoints are the same Point object it is moved twice. -/
theorem C23_move_aliased (R : Rt K) (h : Heap K) (s : ℕ) (a b : K) (he : (h.seg s).i = (h.seg s).j) :
    (R.segMove h s a b).pt (h.seg s).i = R.ptAdd (R.ptAdd (h.pt (h.seg s).i) ⟨a, b⟩) ⟨a, b⟩ := by
  simp [Rt.segMove, Rt.movePt, Heap.setPt, Function.update_apply, he, Rt.ptAdd]

/-- C23, exact arithmetic and 8-decimal numbers: `move` is the translation by (a, b). -/
theorem C23_move_exact {R : Rt K} (hE : R.IsExact) (h : Heap K) (s : ℕ) (a b : K)
    (hne : (h.seg s).i ≠ (h.seg s).j) (hi : R.Stored (h.val s).i) (hj : R.Stored (h.val s).j)
    (ho : R.Stored ⟨a, b⟩) :
    ((R.segMove h s a b).val s).i = shift (h.val s).i a b ∧
    ((R.segMove h s a b).val s).j = shift (h.val s).j a b := by
  obtain ⟨-, -, h1, h2, -⟩ := C23_move_frame R h s a b hne
  rw [hE.stored_iff] at hi hj ho
  have key : ∀ p : Pt K, Grid p.x ∧ Grid p.y → R.ptAdd p ⟨a, b⟩ = shift p a b := by
    intro p hp
    unfold Rt.ptAdd shift
    rw [hE.add', hE.add', hE.mkPt_grid (hp.1.add ho.1) (hp.2.add ho.2)]
  exact ⟨h1.trans (key _ hi), h2.trans (key _ hj)⟩

/-- C23, exact arithmetic: moving there and back restores memory. -/
theorem C23_move_back {R : Rt K} (hE : R.IsExact) (h : Heap K) (s : ℕ) (a b : K)
    (hi : R.Stored (h.val s).i) (hj : R.Stored (h.val s).j)
    (ho : R.Stored ⟨a, b⟩) : R.segMove (R.segMove h s a b) s (-a) (-b) = h := by
  rw [hE.stored_iff] at hi hj ho
  obtain ⟨pt, seg, np, ns⟩ := h
  unfold Rt.segMove Rt.movePt Heap.setPt
  simp only [Heap.val] at hi hj ⊢
  congr 1
  funext p
  have e1 : ∀ q : Pt K, Grid q.x ∧ Grid q.y →
      R.mkPt (R.add q.x a) (R.add q.y b) = ⟨q.x + a, q.y + b⟩ ∧
      (Grid (q.x + a) ∧ Grid (q.y + b)) := by
    intro q hq
    refine ⟨?_, hq.1.add ho.1, hq.2.add ho.2⟩
    rw [hE.add', hE.add', hE.mkPt_grid (hq.1.add ho.1) (hq.2.add ho.2)]
  have e2 : ∀ q : Pt K, Grid q.x ∧ Grid q.y →
      R.mkPt (R.add q.x (-a)) (R.add q.y (-b)) = ⟨q.x - a, q.y - b⟩ ∧
      (Grid (q.x - a) ∧ Grid (q.y - b)) := by
    intro q hq
    refine ⟨?_, hq.1.sub ho.1, hq.2.sub ho.2⟩
    rw [hE.add', hE.add', ← sub_eq_add_neg, ← sub_eq_add_neg, hE.mkPt_grid (hq.1.sub ho.1) (hq.2.sub ho.2)]
  by_cases hij : (seg s).i = (seg s).j
  · have a1 := e1 _ hj
    have a2 := e1 ⟨_, _⟩ a1.2
    have a3 := e2 ⟨_, _⟩ a2.2
    have a4 := e2 ⟨_, _⟩ a3.2
    simp only at a1 a2 a3 a4
    by_cases hp : p = (seg s).j
    · subst hp
      simp only [hij, Function.update_self, a1.1, a2.1, a3.1, a4.1]
      apply Pt.ext' <;> simp
    · simp [hij, Function.update_apply, hp]
  · have a1 := e1 _ hi
    have a2 := e2 ⟨_, _⟩ a1.2
    have b1 := e1 _ hj
    have b2 := e2 ⟨_, _⟩ b1.2
    simp only at a1 a2 b1 b2
    by_cases hp : p = (seg s).i
    · subst hp
      simp only [Function.update_apply, if_true, if_neg hij, if_neg (Ne.symm hij), a1.1, a2.1]
      apply Pt.ext' <;> simp
    · by_cases hq : p = (seg s).j
      · subst hq
        simp only [Function.update_apply, if_true, if_neg hij, if_neg (Ne.symm hij), b1.1, b2.1]
        apply Pt.ext' <;> simp
      · simp [Function.update_apply, hp, hq]

/-- C23, exact arithmetic: mirroring twice about the same 8-decimal axis restores memory. -/
theorem C23_mirror_twice {R : Rt K} (hE : R.IsExact) (h : Heap K) (s : ℕ) (a : K)
    (hi : R.Stored (h.val s).i) (hj : R.Stored (h.val s).j) (ha : R.coord a = a) :
    R.segMirror (R.segMirror h s a) s a = h := by
  rw [hE.stored_iff] at hi hj
  have ha : Grid a := by rw [← ha, hE.coord']; exact grid_rhe8 _
  obtain ⟨pt, seg, np, ns⟩ := h
  unfold Rt.segMirror Rt.mirrorPt Heap.setPt
  simp only [Heap.val] at hi hj ⊢
  congr 1
  funext p
  have e1 : ∀ q : Pt K, Grid q.x ∧ Grid q.y →
      R.mkPt (R.sub q.x (R.mul 2 (R.sub q.x a))) q.y = ⟨2 * a - q.x, q.y⟩ ∧
      (Grid (2 * a - q.x) ∧ Grid q.y) := by
    intro q hq
    have e : q.x - 2 * (q.x - a) = 2 * a - q.x := by ring
    have g : Grid (2 * a - q.x) := by
      have := ha.intMul 2
      push_cast at this
      exact this.sub hq.1
    refine ⟨?_, g, hq.2⟩
    rw [hE.sub', hE.mul', hE.sub', e, hE.mkPt_grid g hq.2]
  by_cases hij : (seg s).i = (seg s).j
  · have a1 := e1 _ hj
    have a2 := e1 ⟨_, _⟩ a1.2
    have a3 := e1 ⟨_, _⟩ a2.2
    have a4 := e1 ⟨_, _⟩ a3.2
    simp only at a1 a2 a3 a4
    by_cases hp : p = (seg s).j
    · subst hp
      simp only [hij, Function.update_self, a1.1, a2.1, a3.1, a4.1]
      apply Pt.ext' <;> simp
    · simp [hij, Function.update_apply, hp]
  · have a1 := e1 _ hi
    have a2 := e1 ⟨_, _⟩ a1.2
    have b1 := e1 _ hj
    have b2 := e1 ⟨_, _⟩ b1.2
    simp only at a1 a2 b1 b2
    by_cases hp : p = (seg s).i
    · subst hp
      simp only [Function.update_apply, if_true, if_neg hij, if_neg (Ne.symm hij), a1.1, a2.1]
      apply Pt.ext' <;> simp
    · by_cases hq : p = (seg s).j
      · subst hq
        simp only [Function.update_apply, if_true, if_neg hij, if_neg (Ne.symm hij), b1.1, b2.1]
        apply Pt.ext' <;> simp
      · simp [Function.update_apply, hp, hq]

/-- C23: mirroring changes y of no Point and writes only the endpoints. -/
theorem C23_mirror_frame (R : Rt K) (h : Heap K) (s : ℕ) (a : K)
    (hi : R.Stored (h.val s).i) (hj : R.Stored (h.val s).j) :
    (R.segMirror h s a).seg = h.seg ∧
    (∀ p, ((R.segMirror h s a).pt p).y = (h.pt p).y) ∧
    ∀ p, p ≠ (h.seg s).i → p ≠ (h.seg s).j → (R.segMirror h s a).pt p = h.pt p := by
  refine ⟨rfl, ?_, ?_⟩
  · have hi : R.coord (h.pt (h.seg s).i).y = (h.pt (h.seg s).i).y := hi.2
    have hj : R.coord (h.pt (h.seg s).j).y = (h.pt (h.seg s).j).y := hj.2
    intro p
    simp only [Rt.segMirror, Rt.mirrorPt, Heap.setPt, Function.update_apply, Rt.mkPt]
    split_ifs <;> simp_all
  · intro p h1 h2
    simp [Rt.segMirror, Rt.mirrorPt, Heap.setPt, Function.update_apply, h1, h2]

/-! ### C24 -/

/-- C24: one coordinate. -/
theorem add_back {R : Rt K} (hR : R.IsRounding) {x a : K} (hx : R.coord x = x) (ha : R.coord a = a)
    (bx : |x| ≤ 10 ^ 7) (ba : |a| ≤ 10 ^ 7) :
    R.coord (R.add (R.coord (R.add x a)) (-a)) = x := by
  obtain ⟨n, hn, rfl⟩ := hR.stored_eq (M := 10 ^ 15) hx (by push_cast; refine bx.trans (by norm_num))
  obtain ⟨m, hm, rfl⟩ := hR.stored_eq (M := 10 ^ 15) ha (by push_cast; refine ba.trans (by norm_num))
  push_cast at hn hm
  have en := hR.fl_grid_err n hn
  have em := hR.fl_grid_err m hm
  have hnm : |((n + m : ℤ) : K)| ≤ 2 * 10 ^ 15 := by
    push_cast; exact (abs_add_le _ _).trans (by linarith)
  have enm := hR.fl_grid_err (n + m) hnm
  set X := R.fl ((n : K) / 10 ^ 8)
  set A := R.fl ((m : K) / 10 ^ 8)
  set Y := R.fl (((n + m : ℤ) : K) / 10 ^ 8) with hY
  have zb : |((n + m : ℤ) : K) / 10 ^ 8| ≤ 2 * 10 ^ 7 := by
    rw [abs_div, abs_of_pos (by positivity : (0 : K) < 10 ^ 8), div_le_iff₀ (by positivity)]
    refine hnm.trans (by norm_num)
  have nb : |(n : K) / 10 ^ 8| ≤ 10 ^ 7 := by
    rw [abs_div, abs_of_pos (by positivity : (0 : K) < 10 ^ 8), div_le_iff₀ (by positivity)]
    refine hn.trans (by norm_num)
  have s1 : R.coord (R.add X A) = Y := by
    apply hR.coord_of_near
    have e0 : |X + A - ((n + m : ℤ) : K) / 10 ^ 8| ≤ 2 * (10 ^ 15 / 10 ^ 8 / 2 ^ 53) := by
      have : X + A - ((n + m : ℤ) : K) / 10 ^ 8 = (X - n / 10 ^ 8) + (A - m / 10 ^ 8) := by push_cast; ring
      rw [this]; exact (abs_add_le _ _).trans (by linarith)
    have e1 := hR.fl_err e0
    unfold Rt.add
    rw [hR.idem]
    refine lt_of_le_of_lt (e1.trans (c := 2 * (10 ^ 15 / 10 ^ 8 / 2 ^ 53) +
      (2 * 10 ^ 7 + 2 * (10 ^ 15 / 10 ^ 8 / 2 ^ 53)) / 2 ^ 53) (by gcongr)) (by norm_num)
  rw [s1]
  have s2 : R.coord (R.add Y (-A)) = X := by
    apply hR.coord_of_near
    have e0 : |Y + (-A) - (n : K) / 10 ^ 8| ≤ 3 * (10 ^ 15 / 10 ^ 8 / 2 ^ 53) := by
      have : Y + (-A) - (n : K) / 10 ^ 8 = (Y - ((n + m : ℤ) : K) / 10 ^ 8) - (A - m / 10 ^ 8) := by
        push_cast; ring
      rw [this]; exact (abs_sub _ _).trans (by linarith)
    have e1 := hR.fl_err e0
    unfold Rt.add
    rw [hR.idem]
    refine lt_of_le_of_lt (e1.trans (c := 3 * (10 ^ 15 / 10 ^ 8 / 2 ^ 53) +
      (10 ^ 7 + 3 * (10 ^ 15 / 10 ^ 8 / 2 ^ 53)) / 2 ^ 53) (by gcongr)) (by norm_num)
  exact s2

/-- C24: binary64 (any correctly rounded arithmetic): 8-decimal Points and offsets up to ten million; moving
a segment with two different endpoint objects there and back restores memory bit for bit. -/
theorem C24_move_back_float {R : Rt K} (hR : R.IsRounding) (h : Heap K) (s : ℕ) (a b : K)
    (hne : (h.seg s).i ≠ (h.seg s).j) (ho : R.Stored ⟨a, b⟩) (bo : |a| ≤ 10 ^ 7 ∧ |b| ≤ 10 ^ 7)
    (hs : ∀ p ∈ [(h.seg s).i, (h.seg s).j],
      R.Stored (h.pt p) ∧ |(h.pt p).x| ≤ 10 ^ 7 ∧ |(h.pt p).y| ≤ 10 ^ 7) :
    R.segMove (R.segMove h s a b) s (-a) (-b) = h := by
  have hi := hs (h.seg s).i (by simp)
  have hj := hs (h.seg s).j (by simp)
  obtain ⟨pt, seg, np, ns⟩ := h
  unfold Rt.segMove Rt.movePt Heap.setPt
  simp only at hi hj hne ⊢
  congr 1
  funext p
  have key : ∀ q : Pt K, (R.Stored q ∧ |q.x| ≤ 10 ^ 7 ∧ |q.y| ≤ 10 ^ 7) →
      R.mkPt (R.add (R.mkPt (R.add q.x a) (R.add q.y b)).x (-a))
        (R.add (R.mkPt (R.add q.x a) (R.add q.y b)).y (-b)) = q := by
    rintro q ⟨hq, b1, b2⟩
    apply Pt.ext'
    · exact add_back hR hq.1 ho.1 b1 bo.1
    · exact add_back hR hq.2 ho.2 b2 bo.2
  by_cases hp : p = (seg s).i
  · subst hp
    simp only [Function.update_apply, if_true, if_neg hne, if_neg (Ne.symm hne), key _ hi]
  · by_cases hq : p = (seg s).j
    · subst hq
      simp only [Function.update_apply, if_true, if_neg hne, if_neg (Ne.symm hne), key _ hj]
    · simp [Function.update_apply, hp, hq]

/-- C24: an offset of half a unit of the 8th decimal is lost or doubled: moving there and back does not
restore the coordinate (binary64). -/
theorem C24_off_grid_fails :
    ∃ x a : ℚ, exRt.coord x = x ∧ exRt.fl a = a ∧ |x| ≤ 1 ∧ |a| ≤ 1 ∧
      exRt.coord (exRt.add (exRt.coord (exRt.add x a)) (-a)) ≠ x :=
  ⟨exRt.coord (1 / 10 ^ 8), exRt.fl (5 / 10 ^ 9), by decide +kernel⟩

/-- memory with Points (0,0), (3,1) and one segment between them -/
def exHeap : Heap ℚ := ⟨fun n => if n = 0 then ⟨0, 0⟩ else ⟨3, 1⟩, fun _ => ⟨0, 1, .line⟩, 2, 1⟩

/-- the hypotheses of C23 and C24 are met by this memory and the offset (10.5, -2) -/
example : (exHeap.seg 0).i ≠ (exHeap.seg 0).j ∧ exRt.Stored ⟨21 / 2, -2⟩ ∧
    exRt.Stored (exHeap.val 0).i ∧ exRt.Stored (exHeap.val 0).j ∧
    exRt.segMove (exRt.segMove exHeap 0 (21 / 2) (-2)) 0 (-(21 / 2)) (-(-2)) = exHeap := by
  have st : exRt.Stored (exHeap.pt 0) ∧ exRt.Stored (exHeap.pt 1) ∧ exRt.Stored ⟨21 / 2, -2⟩ := by
    decide +kernel
  refine ⟨by decide, st.2.2, st.1, st.2.1, ?_⟩
  apply C24_move_back_float exRt_isRounding exHeap 0 _ _ (by decide) st.2.2 (by norm_num [abs_le])
  intro p hp
  have : p = 0 ∨ p = 1 := by simpa [exHeap] using hp
  rcases this with rfl | rfl
  · refine ⟨st.1, ?_⟩; simp [exHeap]
  · refine ⟨st.2.1, ?_⟩; norm_num [exHeap]

end Srep
