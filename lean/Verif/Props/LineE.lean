import Verif.Props.LineA
import Verif.Spec.Example

/-!
# Cross product from a common start and collinearity (C79), intersection_on_endpoint and bounding box (C80)
-/

set_option linter.unusedSectionVars false

namespace Srep
variable {K : Type} [Field K] [LinearOrder K] [IsStrictOrderedRing K] [FloorRing K] {R : Rt K}

/-- C79: `crossproduct_commonstart` raises AssertionError iff the start points are not equal. -/
theorem C79_assert (s o : Seg K) :
    (R.crossStart s o = .error .assertion ↔ R.peq s.i o.i = false) ∧
    ((∃ v, R.crossStart s o = .ok v) ↔ R.peq s.i o.i = true) := by
  unfold Rt.crossStart
  cases R.peq s.i o.i <;> simp

/-- C79: exact arithmetic, same start: the value is twice the signed area of the triangle of the three points,
so it is positive iff they run counter-clockwise, zero iff they are on a line, and exchanging the segments
changes its sign. -/
theorem C79_value (hE : R.IsExact) (s o : Seg K) (h : s.i = o.i) :
    R.crossStart s o = .ok (det3 s.i s.j o.j) ∧ R.crossStart o s = .ok (-det3 s.i s.j o.j) := by
  have h1 : R.peq o.i o.i = true := hE.isRounding.peq_refl _
  unfold Rt.crossStart
  rw [h, h1, if_pos rfl, if_pos rfl, hE.crossStartVal', hE.crossStartVal', h]
  refine ⟨rfl, congrArg _ ?_⟩
  unfold det3; ring

/-- C79: a segment is collinear with itself and with its reversal (any correctly rounded arithmetic). -/
theorem C79_self (hR : R.IsRounding) (s : Seg K) :
    R.isCollinear s s = true ∧ R.isCollinear s s.reversed = true := by
  simp [Rt.isCollinear, Rt.isOnLine, Seg.reversed, hR.peq_refl]

/-- C79: exact arithmetic.  `s.is_collinear(o)` is True iff both ends of `o` are equal to an end of `s` or span
with `s` a triangle of less than half of 1e-8. -/
theorem C79_collinear (hE : R.IsExact) (s o : Seg K) :
    R.isCollinear s o = true ↔
      ∀ p, p = o.i ∨ p = o.j → R.peq p s.i = true ∨ R.peq p s.j = true ∨ |det3 s.i s.j p| < 1 / 10 ^ 8 := by
  unfold Rt.isCollinear
  rw [Bool.and_eq_true, hE.isOnLine_iff, hE.isOnLine_iff]
  constructor
  · rintro ⟨h1, h2⟩ p (rfl | rfl)
    · exact h1
    · exact h2
  · intro h
    exact ⟨h _ (Or.inl rfl), h _ (Or.inr rfl)⟩

/-- C79: `is_collinear` is not symmetric. -/
theorem C79_not_symmetric : ∃ s o : Seg ℚ, exRt.Stored s.i ∧ exRt.Stored s.j ∧ exRt.Stored o.i ∧ exRt.Stored o.j ∧
    exRt.isCollinear s o = true ∧ exRt.isCollinear o s = false :=
  ⟨⟨exRt.mkPt 0 0, exRt.mkPt (1 / 1000) 0, .line⟩,
    ⟨exRt.mkPt 5 (1 / 200000), exRt.mkPt 6 (-1 / 200000), .line⟩, by decide +kernel⟩

example : exReal.isCollinear ⟨⟨0, 0⟩, ⟨2, 2⟩, .line⟩ ⟨⟨5, 5⟩, ⟨-1, -1⟩, .line⟩ = true := by
  rw [C79_collinear exReal_isExact]
  rintro p (rfl | rfl) <;> norm_num [det3]

example : ∃ s o : Seg ℝ, s.i = o.i ∧ exReal.crossStart s o = .ok 4 :=
  ⟨⟨⟨0, 0⟩, ⟨2, 0⟩, .line⟩, ⟨⟨0, 0⟩, ⟨7, 2⟩, .line⟩, rfl,
    by rw [(C79_value exReal_isExact ⟨⟨0, 0⟩, ⟨2, 0⟩, .line⟩ ⟨⟨0, 0⟩, ⟨7, 2⟩, .line⟩ rfl).1]; norm_num [det3]⟩

/-! ### C80 -/

/-- C80: False for parallel segments; True for non-parallel touching ones, whatever the computed point is. -/
theorem C80_cases (s o : Seg K) :
    (R.isParallel s o = true → R.intersectionOnEndpoint s o = false) ∧
    (R.isParallel s o = false → R.touch s o = true → R.intersectionOnEndpoint s o = true) ∧
    ∀ p, R.intersectionPoint s o = some p → R.touch s o = false →
      (R.intersectionOnEndpoint s o = true ↔ ∃ a ∈ [s.i, s.j, o.i, o.j], R.peq p a = true) := by
  unfold Rt.intersectionOnEndpoint
  refine ⟨fun h => by simp [Rt.intersectionPoint, h], fun h ht => by simp [Rt.intersectionPoint, h, ht], ?_⟩
  intro p hp ht
  simp [hp, ht, or_assoc]

/-- C80: the result does not depend on which segment is asked (any correctly rounded arithmetic). -/
theorem C80_symm (hR : R.IsRounding) (s o : Seg K) (h : R.HashOK [s.i, s.j, o.i, o.j]) :
    R.intersectionOnEndpoint s o = R.intersectionOnEndpoint o s := by
  have h1 := C11_symm hR s o
  rw [C11_total hR, C11_total hR] at h1
  have h2 : R.intersectionPoint s o = R.intersectionPoint o s := by simpa using h1
  unfold Rt.intersectionOnEndpoint
  rw [h2, (C16_symm hR s o h).1]
  cases R.intersectionPoint o s with
  | none => rfl
  | some p =>
    show (if R.touch o s then true else R.peq p s.i || R.peq p s.j || R.peq p o.i || R.peq p o.j)
      = (if R.touch o s then true else R.peq p o.i || R.peq p o.j || R.peq p s.i || R.peq p s.j)
    generalize R.peq p s.i = a, R.peq p s.j = b, R.peq p o.i = c, R.peq p o.j = d
    cases a <;> cases b <;> cases c <;> cases d <;> rfl

/-- C80: exact arithmetic.  If the lines are not parallel and an end of one segment lies on the line of the
other, the answer is True, also if that point is outside of the other segment. -/
theorem C80_on_line (hE : R.IsExact) (s o : Seg K) (h : R.isParallel s o = false) (a : Pt K) (sa : R.Stored a)
    (ha : (a = s.i ∨ a = s.j) ∧ OnLine o.i o.j a ∨ (a = o.i ∨ a = o.j) ∧ OnLine s.i s.j a) :
    R.intersectionOnEndpoint s o = true := by
  have self : ∀ w : Seg K, (a = w.i ∨ a = w.j) → OnLine w.i w.j a := by
    rintro w (rfl | rfl)
    · exact ⟨0, by simp [lerp]⟩
    · exact ⟨1, by simp [lerp]⟩
  have hp : R.intersectionPoint s o = some a := by
    have : R.intersectionPointE s o = .ok (some a) := by
      rcases ha with ⟨h1, h2⟩ | ⟨h1, h2⟩
      · exact C12_grid hE s o h a (self s h1) h2 sa
      · exact C12_grid hE s o h a h2 (self o h1) sa
    rw [C11_total hE.isRounding] at this
    simpa using this
  unfold Rt.intersectionOnEndpoint
  rw [hp]
  have hr := hE.isRounding.peq_refl a
  by_cases ht : R.touch s o = true
  · simp [ht]
  · rcases ha with ⟨rfl | rfl, -⟩ | ⟨rfl | rfl, -⟩ <;> simp [hr]

/-- C80: exact arithmetic.  A True answer for segments without a common end means that the common point of the
two lines, rounded to 8 decimals, is equal to one of the four ends. -/
theorem C80_sound (hE : R.IsExact) (s o : Seg K) (h : R.intersectionOnEndpoint s o = true)
    (ht : R.touch s o = false) :
    ∃ q : Pt K, (∀ r, OnLine s.i s.j r ∧ OnLine o.i o.j r ↔ r = q) ∧
      ∃ a ∈ [s.i, s.j, o.i, o.j], R.peq ⟨rhe8 q.x, rhe8 q.y⟩ a = true := by
  have hp : R.isParallel s o = false := by
    rw [← Bool.not_eq_true]
    intro hp
    rw [(C80_cases s o).1 hp] at h
    exact absurd h (by simp)
  obtain ⟨q, h1, h2, -, -⟩ := C12_correct hE s o hp
  rw [C11_total hE.isRounding] at h2
  have h2' : R.intersectionPoint s o = some ⟨rhe8 q.x, rhe8 q.y⟩ := by simpa using h2
  exact ⟨q, h1, ((C80_cases s o).2.2 _ h2' ht).1 h⟩

/-- C80: an end of one segment in the middle of the other counts both as intersection on the segment and on an
endpoint. -/
theorem C80_t_junction : ∃ s o : Seg ℚ, exRt.Stored s.i ∧ exRt.Stored s.j ∧ exRt.Stored o.i ∧ exRt.Stored o.j ∧
    exRt.intersectionOnSegment s o = true ∧ exRt.intersectionOnEndpoint s o = true :=
  ⟨⟨⟨0, 0⟩, ⟨4, 0⟩, .line⟩, ⟨⟨2, 0⟩, ⟨2, 3⟩, .line⟩, by decide +kernel⟩

/-- C80: the bounding box of a segment is attained and contains exactly the coordinates between its ends; the
direction plays no role. -/
theorem C80_box (s : Seg K) :
    (∀ v, (Rt.segBox s).1.1 ≤ v ∧ v ≤ (Rt.segBox s).1.2 ↔ (s.i.x ≤ v ∧ v ≤ s.j.x) ∨ (s.j.x ≤ v ∧ v ≤ s.i.x)) ∧
    (∀ v, (Rt.segBox s).2.1 ≤ v ∧ v ≤ (Rt.segBox s).2.2 ↔ (s.i.y ≤ v ∧ v ≤ s.j.y) ∨ (s.j.y ≤ v ∧ v ≤ s.i.y)) ∧
    Rt.segBox s.reversed = Rt.segBox s := by
  have key : ∀ a b v : K, min a b ≤ v ∧ v ≤ max a b ↔ (a ≤ v ∧ v ≤ b) ∨ (b ≤ v ∧ v ≤ a) := by
    intro a b v
    rcases le_total a b with h | h
    · rw [min_eq_left h, max_eq_right h]
      constructor
      · exact Or.inl
      · rintro (h1 | h1)
        · exact h1
        · exact ⟨h.trans h1.1, h1.2.trans h⟩
    · rw [min_eq_right h, max_eq_left h]
      constructor
      · exact Or.inr
      · rintro (h1 | h1)
        · exact ⟨h.trans h1.1, h1.2.trans h⟩
        · exact h1
  refine ⟨fun v => key _ _ v, fun v => key _ _ v, ?_⟩
  simp [Rt.segBox, Seg.reversed, min_comm, max_comm]

example : exReal.intersectionOnEndpoint ⟨⟨0, 0⟩, ⟨4, 0⟩, .line⟩ ⟨⟨9, 0⟩, ⟨9, 3⟩, .line⟩ = true := by
  refine C80_on_line exReal_isExact _ _ ?_ ⟨9, 0⟩ ?_ (Or.inr ⟨Or.inl rfl, ⟨9 / 4, by simp [lerp]⟩⟩)
  · rw [Bool.eq_false_iff, ne_eq, exReal_isExact.isParallel_iff]; norm_num
  · rw [exReal_isExact.stored_iff]
    exact ⟨⟨900000000, by norm_num⟩, ⟨0, by norm_num⟩⟩

end Srep
