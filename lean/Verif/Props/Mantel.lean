import Verif.Model.Vessel
import Verif.Props.Purge
import Verif.Props.Winding
import Verif.Props.Rigid

/-! Shells: `Mantel` and `StandZarge` (C72, C73). -/

set_option linter.unusedSectionVars false

namespace Srep
variable {K : Type} [Field K] [LinearOrder K] [IsStrictOrderedRing K] [FloorRing K]

/-- the outline of a shell: two Walls and the two closing segments -/
def outline (p1 p2 p3 p4 : Pt K) (bottom : SegCls) : List (Seg K) :=
  [⟨p1, p2, .wall⟩, ⟨p2, p3, .nonWall⟩, ⟨p3, p4, .wall⟩, ⟨p4, p1, bottom⟩]

variable {R : Rt K}

theorem mantelSegs_spec (R : Rt K) (h : Heap K) (m : MantelDim K) (b : SegCls) :
    (R.mantelSegs h m b).2 = [h.nseg, h.nseg + 1, h.nseg + 2, h.nseg + 3] ∧
    (R.mantelSegs h m b).1.vals (R.mantelSegs h m b).2 =
      outline (R.mantelCorner m 0) (R.mantelCorner m 1) (R.mantelCorner m 2) (R.mantelCorner m 3) b ∧
    (∀ p < h.npt, (R.mantelSegs h m b).1.pt p = h.pt p) ∧
    (∀ s < h.nseg, (R.mantelSegs h m b).1.seg s = h.seg s) ∧
    ((R.mantelSegs h m b).1.seg h.nseg = ⟨h.npt, h.npt + 1, .wall⟩ ∧
      (R.mantelSegs h m b).1.seg (h.nseg + 1) = ⟨h.npt + 1, h.npt + 2, .nonWall⟩ ∧
      (R.mantelSegs h m b).1.seg (h.nseg + 2) = ⟨h.npt + 2, h.npt + 3, .wall⟩ ∧
      (R.mantelSegs h m b).1.seg (h.nseg + 3) = ⟨h.npt + 3, h.npt, b⟩) := by
  have hseg : (R.mantelSegs h m b).1.seg h.nseg = ⟨h.npt, h.npt + 1, .wall⟩ ∧
      (R.mantelSegs h m b).1.seg (h.nseg + 1) = ⟨h.npt + 1, h.npt + 2, .nonWall⟩ ∧
      (R.mantelSegs h m b).1.seg (h.nseg + 2) = ⟨h.npt + 2, h.npt + 3, .wall⟩ ∧
      (R.mantelSegs h m b).1.seg (h.nseg + 3) = ⟨h.npt + 3, h.npt, b⟩ := by
    unfold Rt.mantelSegs
    simp [Heap.newSegC, Heap.newPts, Heap.newPt, Function.update_apply, Nat.add_assoc]
  have hpt : (R.mantelSegs h m b).1.pt h.npt = R.mantelCorner m 0 ∧
      (R.mantelSegs h m b).1.pt (h.npt + 1) = R.mantelCorner m 1 ∧
      (R.mantelSegs h m b).1.pt (h.npt + 2) = R.mantelCorner m 2 ∧
      (R.mantelSegs h m b).1.pt (h.npt + 3) = R.mantelCorner m 3 := by
    unfold Rt.mantelSegs
    simp [Heap.newSegC, Heap.newPts, Heap.newPt, Function.update_apply, Nat.add_assoc]
  have h2 : (R.mantelSegs h m b).2 = [h.nseg, h.nseg + 1, h.nseg + 2, h.nseg + 3] := rfl
  refine ⟨h2, ?_, ?_, ?_, hseg⟩
  · rw [h2]
    unfold Heap.vals outline Heap.val
    simp only [List.map_cons, List.map_nil, hseg.1, hseg.2.1, hseg.2.2.1, hseg.2.2.2, hpt.1, hpt.2.1, hpt.2.2.1,
      hpt.2.2.2]
  · intro p hp
    unfold Rt.mantelSegs
    simp only [Heap.newSegC, Heap.newPts, Heap.newPt, Function.update_apply]
    split_ifs <;> first | omega | rfl
  · intro s hs
    unfold Rt.mantelSegs
    simp only [Heap.newSegC, Heap.newPts, Heap.newPt, Function.update_apply]
    split_ifs <;> first | omega | rfl

theorem relink_cls (R : Rt K) (f : ℕ) : ∀ (l : List ℕ) (h : Heap K) (x s : ℕ),
    ((R.relink f h x l).seg s).cls = (h.seg s).cls := by
  intro l
  induction l with
  | nil => intro h x s; rfl
  | cons a l ih =>
    intro h x s
    unfold Rt.relink
    dsimp only
    rw [ih]
    split_ifs <;>
    · unfold Heap.setEndpoints
      dsimp only
      rw [Function.update_apply]
      split_ifs with e
      · subst e; rfl
      · rfl

/-- `purge` never changes the class of a segment, nor the list of segments -/
theorem purge_cls (R : Rt K) (h : Heap K) (P : PLine) (s : ℕ) :
    ((R.purge h P).1.seg s).cls = (h.seg s).cls ∧ (R.purge h P).2.segs = P.segs := by
  unfold Rt.purge
  split_ifs
  · exact ⟨rfl, rfl⟩
  · exact ⟨rfl, rfl⟩
  · refine ⟨?_, rfl⟩
    have : ∀ (l : List ℕ) (st : Heap K × List ℕ), ((l.foldl (R.purgeStep P.segs) st).1.seg s).cls =
        (st.1.seg s).cls := by
      intro l
      induction l with
      | nil => intro st; rfl
      | cons a l ih =>
        intro st
        rw [List.foldl_cons, ih]
        unfold Rt.purgeStep
        split
        · rfl
        · exact relink_cls R _ _ _ _ _
    exact this _ _

/-- the corners of a shell are different points, at least the tolerance of `Point.__eq__` apart -/
def CornersApart (R : Rt K) (m : MantelDim K) : Prop :=
  ∀ a < 4, ∀ b < 4, a ≠ b → R.mantelCorner m a ≠ R.mantelCorner m b ∧
    (R.tol ≤ |(R.mantelCorner m a).x - (R.mantelCorner m b).x| ∨
      R.tol ≤ |(R.mantelCorner m a).y - (R.mantelCorner m b).y|)

/-! ### C72 -/

/-- C72: a new shell with corners apart consists of two Walls and two NonWalls that form a closed chain through its
four corners and share their endpoints; its graph are the two Walls; objects that existed before are not touched. -/
theorem C72_outline (hR : R.IsRounding) (h : Heap K) (m : MantelDim K) (hc : CornersApart R m) :
    (R.mantelNew h m .nonWall).1.vals (R.mantelNew h m .nonWall).2.line.segs =
      outline (R.mantelCorner m 0) (R.mantelCorner m 1) (R.mantelCorner m 2) (R.mantelCorner m 3) .nonWall ∧
    (R.mantelNew h m .nonWall).1.vals (R.mantelNew h m .nonWall).2.graph =
      [⟨R.mantelCorner m 0, R.mantelCorner m 1, .wall⟩, ⟨R.mantelCorner m 2, R.mantelCorner m 3, .wall⟩] ∧
    (R.mantelNew h m .nonWall).2.line.purged = true ∧
    SharesPoints (R.mantelNew h m .nonWall).1 (R.mantelNew h m .nonWall).2.line.segs ∧
    (∀ p < h.npt, (R.mantelNew h m .nonWall).1.pt p = h.pt p) ∧
    ∀ s < h.nseg, (R.mantelNew h m .nonWall).1.seg s = h.seg s := by
  obtain ⟨h1, h2, h3, h4, s0, s1, s2, s3⟩ := mantelSegs_spec R h m .nonWall
  have hnew : R.mantelNew h m .nonWall = ((R.purge (R.mantelSegs h m .nonWall).1
      ⟨(R.mantelSegs h m .nonWall).2, false⟩).1, ⟨(R.purge (R.mantelSegs h m .nonWall).1
      ⟨(R.mantelSegs h m .nonWall).2, false⟩).2, (R.purge (R.mantelSegs h m .nonWall).1
      ⟨(R.mantelSegs h m .nonWall).2, false⟩).1.walls (R.purge (R.mantelSegs h m .nonWall).1
      ⟨(R.mantelSegs h m .nonWall).2, false⟩).2.segs⟩) := rfl
  rw [hnew]
  generalize R.mantelSegs h m .nonWall = r at h1 h2 h3 h4 s0 s1 s2 s3
  obtain ⟨g, segs⟩ := r
  dsimp only at h1 h2 h3 h4 s0 s1 s2 s3 ⊢
  clear hnew
  have hq : ∀ a b, a < 4 → b < 4 → a ≠ b → R.mantelCorner m a ≠ R.mantelCorner m b :=
    fun a b ha hb hab => (hc a ha b hb hab).1
  have hsep : ∀ p, (∃ a < 4, p = R.mantelCorner m a) → ∀ q, (∃ a < 4, q = R.mantelCorner m a) → p ≠ q →
      R.tol ≤ |p.x - q.x| ∨ R.tol ≤ |p.y - q.y| := by
    rintro p ⟨a, ha, rfl⟩ q ⟨b, hb, rfl⟩ hpq
    exact (hc a ha b hb fun e => hpq (by rw [e])).2
  have n01 := hq 0 1 (by norm_num) (by norm_num) (by norm_num)
  have n12 := hq 1 2 (by norm_num) (by norm_num) (by norm_num)
  have n23 := hq 2 3 (by norm_num) (by norm_num) (by norm_num)
  have n30 := hq 3 0 (by norm_num) (by norm_num) (by norm_num)
  have i0 : ∃ a < 4, R.mantelCorner m 0 = R.mantelCorner m a := ⟨0, by norm_num, rfl⟩
  have i1 : ∃ a < 4, R.mantelCorner m 1 = R.mantelCorner m a := ⟨1, by norm_num, rfl⟩
  have i2 : ∃ a < 4, R.mantelCorner m 2 = R.mantelCorner m a := ⟨2, by norm_num, rfl⟩
  have i3 : ∃ a < 4, R.mantelCorner m 3 = R.mantelCorner m a := ⟨3, by norm_num, rfl⟩
  generalize R.mantelCorner m 0 = p0 at *
  generalize R.mantelCorner m 1 = p1 at *
  generalize R.mantelCorner m 2 = p2 at *
  generalize R.mantelCorner m 3 = p3 at *
  clear hc hq
  have hv : ∀ s ∈ segs, g.val s ∈ outline p0 p1 p2 p3 .nonWall := by
    intro s hs
    rw [← h2]; exact List.mem_map_of_mem hs
  have hcor : ∀ p ∈ locs g segs, ∃ a < 4, p = R.mantelCorner m a := by
    rintro p ⟨s, hs, hp⟩
    have := hv s hs
    simp only [outline, List.mem_cons, List.not_mem_nil, or_false] at this
    rcases this with e | e | e | e <;> rw [e] at hp <;> rcases hp with rfl | rfl <;> assumption
  have hap : Apart R.tol (locs g segs) := fun p hp q hq hpq => hsep p (hcor p hp) q (hcor q hq) hpq
  have hnull : ∀ s ∈ segs, (g.val s).i ≠ (g.val s).j := by
    intro s hs
    have := hv s hs
    simp only [outline, List.mem_cons, List.not_mem_nil, or_false] at this
    rcases this with e | e | e | e <;> rw [e] <;> assumption
  obtain ⟨c1, c2, c3, -, -, c6, c7, -⟩ := C45_purge hR g ⟨segs, false⟩ rfl hap hnull
  have hcls : ∀ s, ((R.purge g ⟨segs, false⟩).1.seg s).cls = (g.seg s).cls := fun s => (purge_cls R _ _ s).1
  rw [c2]
  generalize (R.purge g ⟨segs, false⟩).1 = g' at *
  dsimp only at c1 c3 c6 c7 ⊢
  have hval : g'.val = g.val := funext c6
  refine ⟨?_, ?_, rfl, c1, ?_, ?_⟩
  · rw [← h2]; unfold Heap.vals; rw [hval]
  · have hg : g'.walls segs = [h.nseg, h.nseg + 2] := by
      rw [h1]
      unfold Heap.walls
      simp only [hcls]
      simp [s0, s1, s2, s3]
    rw [hg]
    have h2' := h2
    rw [h1] at h2'
    unfold Heap.vals outline at h2'
    simp only [List.map_cons, List.map_nil, List.cons.injEq] at h2'
    unfold Heap.vals
    rw [hval]
    simp only [List.map_cons, List.map_nil, h2'.1, h2'.2.2.1]
  · intro p hp
    rw [← h3 p hp, c3]
  · intro s hs
    rw [← h4 s hs]
    apply c7
    rw [h1]
    simp
    omega

/-- C72: the corners lie symmetrically to the axis of the vessel (`pos_h = 0`) in every arithmetic. -/
theorem C72_symmetric (hR : R.IsRounding) (m : MantelDim K) (h0 : m.posH = 0) :
    (R.mantelCorner m 3).x = -(R.mantelCorner m 0).x ∧ (R.mantelCorner m 2).x = -(R.mantelCorner m 1).x ∧
    (R.mantelCorner m 3).y = (R.mantelCorner m 0).y ∧ (R.mantelCorner m 2).y = (R.mantelCorner m 1).y := by
  have h : ∀ d : K, R.coord (R.sub m.posH d) = -R.coord (R.add m.posH d) := by
    intro d
    rw [h0, ← hR.coord_neg]
    unfold Rt.sub Rt.add
    rw [← hR.neg]
    congr 2
    ring
  exact ⟨h _, h _, rfl, rfl⟩

/-- C72: in exact arithmetic and with the dimensions on the coordinate grid, the corners are the exact ones and the
reflection about the axis exchanges left and right. -/
theorem C72_corners (hE : R.IsExact) (m : MantelDim K) (hp : Grid m.posH) (hv : Grid m.posV) (hh : Grid m.h)
    (h0 : Grid (m.d0 / 2)) (h1 : Grid (m.d1 / 2)) :
    R.mantelCorner m 0 = ⟨m.posH + m.d0 / 2, m.posV⟩ ∧ R.mantelCorner m 1 = ⟨m.posH + m.d1 / 2, m.posV + m.h⟩ ∧
    R.mantelCorner m 2 = ⟨m.posH - m.d1 / 2, m.posV + m.h⟩ ∧ R.mantelCorner m 3 = ⟨m.posH - m.d0 / 2, m.posV⟩ ∧
    R.mantelCorner m 3 = reflect m.posH (R.mantelCorner m 0) ∧
    R.mantelCorner m 2 = reflect m.posH (R.mantelCorner m 1) := by
  have e0 : R.mantelCorner m 0 = ⟨m.posH + m.d0 / 2, m.posV⟩ := by
    show R.mkPt (R.add m.posH (R.div m.d0 2)) m.posV = _
    rw [hE.add', hE.div', hE.mkPt_grid (hp.add h0) hv]
  have e1 : R.mantelCorner m 1 = ⟨m.posH + m.d1 / 2, m.posV + m.h⟩ := by
    show R.mkPt (R.add m.posH (R.div m.d1 2)) (R.add m.posV m.h) = _
    rw [hE.add', hE.add', hE.div', hE.mkPt_grid (hp.add h1) (hv.add hh)]
  have e2 : R.mantelCorner m 2 = ⟨m.posH - m.d1 / 2, m.posV + m.h⟩ := by
    show R.mkPt (R.sub m.posH (R.div m.d1 2)) (R.add m.posV m.h) = _
    rw [hE.sub', hE.add', hE.div', hE.mkPt_grid (hp.sub h1) (hv.add hh)]
  have e3 : R.mantelCorner m 3 = ⟨m.posH - m.d0 / 2, m.posV⟩ := by
    show R.mkPt (R.sub m.posH (R.div m.d0 2)) m.posV = _
    rw [hE.sub', hE.div', hE.mkPt_grid (hp.sub h0) hv]
  refine ⟨e0, e1, e2, e3, ?_, ?_⟩
  · rw [e3, e0]; unfold reflect; dsimp only; congr 1; ring
  · rw [e2, e1]; unfold reflect; dsimp only; congr 1; ring

theorem ios_shared (hR : R.IsRounding) (s o : Seg K) (h : s.i = o.i ∨ s.i = o.j ∨ s.j = o.i ∨ s.j = o.j) :
    R.intersectionOnSegment s o = false := by
  have : R.touch s o = true := by
    unfold Rt.touch
    rw [Bool.or_eq_true]
    right
    rcases h with h | h | h | h <;> simp [h, hR.distance_self, hR.eps_pos]
  unfold Rt.intersectionOnSegment
  rw [if_pos this]

theorem peq_self (hR : R.IsRounding) (p : Pt K) : R.peq p p = true := by
  unfold Rt.peq Rt.sub
  simp [hR.zero, hR.tol_pos]

theorem continuous_shared (hR : R.IsRounding) (s o : Seg K) (h : s.j = o.i) : R.continuous s o = true := by
  have ht : R.touch s o = true := by
    unfold Rt.touch
    rw [Bool.or_eq_true]
    right
    simp [h, hR.distance_self, hR.eps_pos]
  unfold Rt.continuous
  rw [ht, h, peq_self hR]; rfl

/-- a symmetric relation between the different positions of a list of four -/
theorem four_pairs {α : Type} (P : α → α → Prop) (hs : ∀ a b, P a b → P b a) (a b c d : α) (h1 : P a b) (h2 : P a c)
    (h3 : P a d) (h4 : P b c) (h5 : P b d) (h6 : P c d) :
    ∀ i j (hi : i < [a, b, c, d].length) (hj : j < [a, b, c, d].length), i ≠ j →
      P [a, b, c, d][i] [a, b, c, d][j] := by
  intro i j hi hj hij
  have hi' : i < 4 := hi
  have hj' : j < 4 := hj
  interval_cases i <;> interval_cases j <;>
    first
    | exact absurd rfl hij
    | assumption
    | (apply hs; assumption)

/-- an outline is a valid polyline if its opposite sides do not cross each other -/
theorem outline_valid (hR : R.IsRounding) (p1 p2 p3 p4 : Pt K) (b : SegCls)
    (hw : R.intersectionOnSegment ⟨p1, p2, .wall⟩ ⟨p3, p4, .wall⟩ = false)
    (hw' : R.intersectionOnSegment ⟨p3, p4, .wall⟩ ⟨p1, p2, .wall⟩ = false)
    (hn : R.intersectionOnSegment ⟨p2, p3, .nonWall⟩ ⟨p4, p1, b⟩ = false)
    (hn' : R.intersectionOnSegment ⟨p4, p1, b⟩ ⟨p2, p3, .nonWall⟩ = false) :
    R.plValid (outline p1 p2 p3 p4 b) = true := by
  rw [(C63_valid R _).2]
  refine ⟨?_, by simp [outline], ?_⟩
  · unfold Rt.isContinuous outline
    simp [continuous_shared hR]
  · intro i j hi hj hij
    exact (four_pairs (fun s o => R.intersectionOnSegment s o = false ∧ R.intersectionOnSegment o s = false)
      (fun _ _ h => h.symm) _ _ _ _ ⟨ios_shared hR _ _ (Or.inr (Or.inr (Or.inl rfl))),
        ios_shared hR _ _ (Or.inr (Or.inl rfl))⟩ ⟨hw, hw'⟩ ⟨ios_shared hR _ _ (Or.inr (Or.inl rfl)),
        ios_shared hR _ _ (Or.inr (Or.inr (Or.inl rfl)))⟩ ⟨ios_shared hR _ _ (Or.inr (Or.inr (Or.inl rfl))),
        ios_shared hR _ _ (Or.inr (Or.inl rfl))⟩ ⟨hn, hn'⟩ ⟨ios_shared hR _ _ (Or.inr (Or.inr (Or.inl rfl))),
        ios_shared hR _ _ (Or.inr (Or.inl rfl))⟩ i j hi hj hij).1

theorem ios_parallel (s o : Seg K) (h : R.isParallel s o = true) : R.intersectionOnSegment s o = false := by
  unfold Rt.intersectionOnSegment Rt.intersectionPoint
  rw [if_pos h]
  split <;> rfl

/-- segments in different vertical strips do not cross -/
theorem ios_strips (hR : R.IsRounding) (s o : Seg K) (c : K)
    (h1 : c ≤ R.sub (min s.i.x s.j.x) R.eps) (h2 : R.add (max o.i.x o.j.x) R.eps ≤ c) :
    R.intersectionOnSegment s o = false ∧ R.intersectionOnSegment o s = false := by
  have key : ∀ p : Pt K, ¬ (R.isInternal s p = true ∧ R.isInternal o p = true) := by
    rintro p ⟨hs, ho⟩
    unfold Rt.isInternal at hs ho
    simp only [Bool.and_eq_true, decide_eq_true_eq] at hs ho
    have := hs.1.1.1
    have := ho.1.1.2
    linarith
  constructor
  · unfold Rt.intersectionOnSegment
    split_ifs
    · rfl
    · split
      · rfl
      · rename_i p _
        rw [Bool.and_eq_false_iff]
        by_contra hc
        simp only [not_or, Bool.not_eq_false] at hc
        exact key p hc
  · unfold Rt.intersectionOnSegment
    split_ifs
    · rfl
    · split
      · rfl
      · rename_i p _
        rw [Bool.and_eq_false_iff]
        by_contra hc
        simp only [not_or, Bool.not_eq_false] at hc
        exact key p hc.symm

theorem horizontal_parallel (hR : R.IsRounding) (s o : Seg K) (hs : s.i.y = s.j.y) (ho : o.i.y = o.j.y) :
    R.isParallel s o = true := by
  unfold Rt.isParallel Rt.cross Rt.dx Rt.dy Rt.sub Rt.mul
  simp [hs, ho, hR.zero]

theorem vertical_parallel (hR : R.IsRounding) (s o : Seg K) (hs : s.i.x = s.j.x) (ho : o.i.x = o.j.x) :
    R.isParallel s o = true := by
  unfold Rt.isParallel Rt.cross Rt.dx Rt.dy Rt.sub Rt.mul
  simp [hs, ho, hR.zero]

theorem mantelValid_of (hR : R.IsRounding) (h : Heap K) (m : MantelDim K) (hc : CornersApart R m)
    (hax : R.div (R.add (R.mantelCorner m 0).x (R.mantelCorner m 3).x) 2 =
      R.div (R.add (R.mantelCorner m 1).x (R.mantelCorner m 2).x) 2)
    (hw : R.intersectionOnSegment ⟨R.mantelCorner m 0, R.mantelCorner m 1, .wall⟩
      ⟨R.mantelCorner m 2, R.mantelCorner m 3, .wall⟩ = false ∧
      R.intersectionOnSegment ⟨R.mantelCorner m 2, R.mantelCorner m 3, .wall⟩
        ⟨R.mantelCorner m 0, R.mantelCorner m 1, .wall⟩ = false) :
    R.mantelValid (R.mantelNew h m .nonWall).1 (R.mantelNew h m .nonWall).2 = true := by
  obtain ⟨h1, h2, -⟩ := C72_outline hR h m hc
  unfold Rt.mantelValid
  rw [h2, h1]
  dsimp only
  rw [outline_valid hR _ _ _ _ _ hw.1 hw.2 (ios_parallel _ _ (horizontal_parallel hR _ _ rfl rfl))
    (ios_parallel _ _ (horizontal_parallel hR _ _ rfl rfl)), hax]
  have y0 : (R.mantelCorner m 0).y = (R.mantelCorner m 3).y := rfl
  have y1 : (R.mantelCorner m 1).y = (R.mantelCorner m 2).y := rfl
  simp [y0, y1]

/-- C72: in every arithmetic a shell (cylinder or cone) on the axis of the vessel is valid, whatever the sign of its
height, as long as its stored radii are at least 1e-8. -/
theorem C72_valid_on_axis (hR : R.IsRounding) (h : Heap K) (m : MantelDim K) (hc : CornersApart R m)
    (h0 : m.posH = 0) (hd0 : R.eps ≤ (R.mantelCorner m 0).x) (hd1 : R.eps ≤ (R.mantelCorner m 1).x) :
    R.mantelValid (R.mantelNew h m .nonWall).1 (R.mantelNew h m .nonWall).2 = true := by
  obtain ⟨s3, s2, -, -⟩ := C72_symmetric hR m h0
  apply mantelValid_of hR h m hc
  · rw [s3, s2]
    unfold Rt.add
    simp
  · apply ios_strips hR _ _ 0
    · show 0 ≤ R.sub _ _
      exact hR.nonneg (sub_nonneg.2 (le_min hd0 hd1))
    · dsimp only
      rw [s3, s2]
      have : max (-(R.mantelCorner m 1).x) (-(R.mantelCorner m 0).x) + R.eps ≤ 0 := by
        rcases max_cases (-(R.mantelCorner m 1).x) (-(R.mantelCorner m 0).x) with ⟨e, -⟩ | ⟨e, -⟩ <;> rw [e] <;> linarith
      have h' := hR.mono this
      rwa [hR.zero] at h'

/-- C72: in every arithmetic a cylinder (equal diameters) is valid wherever its axis is. -/
theorem C72_valid_cylinder (hR : R.IsRounding) (h : Heap K) (m : MantelDim K) (hc : CornersApart R m)
    (hd : m.d0 = m.d1) :
    R.mantelValid (R.mantelNew h m .nonWall).1 (R.mantelNew h m .nonWall).2 = true := by
  have e1 : (R.mantelCorner m 0).x = (R.mantelCorner m 1).x := by
    show R.coord _ = R.coord _; rw [hd]
  have e2 : (R.mantelCorner m 3).x = (R.mantelCorner m 2).x := by
    show R.coord _ = R.coord _; rw [hd]
  apply mantelValid_of hR h m hc
  · rw [e1, e2]
  · exact ⟨ios_parallel _ _ (vertical_parallel hR _ _ e1 e2.symm), ios_parallel _ _ (vertical_parallel hR _ _ e2.symm e1)⟩

/-- C72: in exact arithmetic, with dimensions on the coordinate grid, diameters and height (of either sign) of at
least 1e-5, every shell is valid, wherever its axis is. -/
theorem C72_valid_exact (hE : R.IsExact) (h : Heap K) (m : MantelDim K) (hp : Grid m.posH) (hv : Grid m.posV)
    (hh : Grid m.h) (h0 : Grid (m.d0 / 2)) (h1 : Grid (m.d1 / 2)) (hd0 : R.tol ≤ m.d0) (hd1 : R.tol ≤ m.d1)
    (hh' : R.tol ≤ |m.h|) :
    CornersApart R m ∧ R.mantelValid (R.mantelNew h m .nonWall).1 (R.mantelNew h m .nonWall).2 = true := by
  have hR := hE.isRounding
  obtain ⟨e0, e1, e2, e3, -, -⟩ := C72_corners hE m hp hv hh h0 h1
  have ht : (0 : K) < R.tol := hR.tol_pos
  have key : ∀ p q : Pt K, R.tol ≤ |p.x - q.x| ∨ R.tol ≤ |p.y - q.y| → p ≠ q ∧
      (R.tol ≤ |p.x - q.x| ∨ R.tol ≤ |p.y - q.y|) := by
    intro p q hpq
    refine ⟨fun e => ?_, hpq⟩
    subst e
    simp only [sub_self, abs_zero] at hpq
    rcases hpq with h | h <;> linarith
  have hx : ∀ a d : K, R.tol ≤ d → R.tol ≤ |a + d / 2 - (a - d / 2)| := by
    intro a d hd
    rw [show a + d / 2 - (a - d / 2) = d by ring]
    exact hd.trans (le_abs_self d)
  have hc : CornersApart R m := by
    intro a ha b hb hab
    apply key
    interval_cases a <;> interval_cases b <;>
      first
      | exact absurd rfl hab
      | (simp only [e0, e1, e2, e3]
         first
         | (right
            first
            | (rw [show m.posV - (m.posV + m.h) = -m.h by ring, abs_neg]; exact hh')
            | (rw [show m.posV + m.h - m.posV = m.h by ring]; exact hh')
            | (exfalso; revert hab; simp; done))
         | (left; exact hx _ _ hd0)
         | (left; exact hx _ _ hd1)
         | (left; rw [abs_sub_comm]; exact hx _ _ hd0)
         | (left; rw [abs_sub_comm]; exact hx _ _ hd1))
  refine ⟨hc, mantelValid_of hR h m hc ?_ ?_⟩
  · rw [e0, e1, e2, e3]
    simp only [hE.add', hE.div']
    ring
  · have heps : R.eps ≤ R.tol / 2 := by
      rw [hE.eps', hE.tol']; norm_num
    apply ios_strips hR _ _ m.posH
    · rw [e0, e1, hE.sub']
      have : m.posH + R.eps ≤ min (m.posH + m.d0 / 2) (m.posH + m.d1 / 2) := le_min (by linarith) (by linarith)
      dsimp only
      linarith
    · rw [e2, e3, hE.add']
      have : max (m.posH - m.d1 / 2) (m.posH - m.d0 / 2) ≤ m.posH - R.eps := max_le (by linarith) (by linarith)
      dsimp only
      linarith

/-- empty memory -/
def noObjects : Heap ℚ := ⟨fun _ => ⟨0, 0⟩, fun _ => ⟨0, 0, .line⟩, 0, 0⟩

/-- C72: off the axis, binary64 rejects sound cones: lower diameter 0.1, upper diameter 0.4, height 1, axis at 0.1. -/
theorem C72_crooked : exRt.mantelValid
    (exRt.mantelNew noObjects ⟨0, exRt.fl (1 / 10), exRt.fl (1 / 10), exRt.fl (4 / 10), 1⟩ .nonWall).1
    (exRt.mantelNew noObjects ⟨0, exRt.fl (1 / 10), exRt.fl (1 / 10), exRt.fl (4 / 10), 1⟩ .nonWall).2 = false := by
  decide +kernel

/-- a cone from diameter 2 to diameter 3 of height 5 in binary64: the hypotheses of the theorems above hold -/
example : CornersApart exRt ⟨0, 0, 2, 3, 5⟩ ∧ exRt.eps ≤ (exRt.mantelCorner ⟨0, 0, 2, 3, 5⟩ 0).x ∧
    exRt.eps ≤ (exRt.mantelCorner ⟨0, 0, 2, 3, 5⟩ 1).x ∧
    exRt.mantelValid (exRt.mantelNew noObjects ⟨0, 0, 2, 3, 5⟩ .nonWall).1
      (exRt.mantelNew noObjects ⟨0, 0, 2, 3, 5⟩ .nonWall).2 = true := by
  unfold CornersApart
  decide +kernel

/-! ### C73 -/

/-- C73: a `StandZarge` that has been created is never valid, whatever its dimensions and in every arithmetic: its
graph has three Walls. -/
theorem C73_never_valid (R : Rt K) (h : Heap K) (m : MantelDim K) :
    (R.standZargeNew h m).2.graph.length = 3 ∧
    R.mantelValid (R.standZargeNew h m).1 (R.standZargeNew h m).2 = false := by
  obtain ⟨h1, -, -, -, s0, s1, s2, s3⟩ := mantelSegs_spec R h m .wall
  have hg : (R.standZargeNew h m).2.graph = [h.nseg, h.nseg + 2, h.nseg + 3] := by
    show Heap.walls _ _ = _
    rw [(purge_cls R _ _ 0).2]
    dsimp only
    rw [h1]
    unfold Heap.walls
    simp only [(purge_cls R _ _ _).1]
    simp [s0, s1, s2, s3]
  refine ⟨by rw [hg]; rfl, ?_⟩
  unfold Rt.mantelValid
  rw [hg]
  rfl

/-- C73: the outline itself is sound: it is the outline of the Mantel of the same dimensions with a Wall at the
bottom. -/
theorem C73_outline (R : Rt K) (h : Heap K) (m : MantelDim K) :
    (R.standZargeNew h m).1.vals (R.standZargeNew h m).2.line.segs =
      outline (R.mantelCorner m 0) (R.mantelCorner m 1) (R.mantelCorner m 2) (R.mantelCorner m 3) .wall :=
  (mantelSegs_spec R (R.mantelNew h m .wall).1 m .wall).2.1

/-- the skirt of diameter 2 and height 5: all corners apart, the outline a valid polyline, the object not valid -/
example : exRt.plValid ((exRt.standZargeNew noObjects ⟨0, 0, 2, 2, 5⟩).1.vals
      (exRt.standZargeNew noObjects ⟨0, 0, 2, 2, 5⟩).2.line.segs) = true ∧
    exRt.mantelValid (exRt.standZargeNew noObjects ⟨0, 0, 2, 2, 5⟩).1
      (exRt.standZargeNew noObjects ⟨0, 0, 2, 2, 5⟩).2 = false := by
  decide +kernel

end Srep
