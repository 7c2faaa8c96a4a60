import Verif.Props.Mantel

/-! More about shells: what a valid shell is (C72), and that the graph of a skirt does not follow it (C73). -/

set_option linter.unusedSectionVars false

namespace Srep
variable {K : Type} [Field K] [LinearOrder K] [IsStrictOrderedRing K] [FloorRing K] {R : Rt K}

/-- C72: a part that `isvalid` accepts has exactly two walls in its graph; the first one starts at the height where
the second one ends and ends where the second one starts, the middles between them are on one vertical line, and its
outline is a valid polyline. -/
theorem C72_valid_sound (hE : R.IsExact) (h : Heap K) (M : Part2) (hv : R.mantelValid h M = true) :
    ∃ s t, h.vals M.graph = [s, t] ∧ s.i.y = t.j.y ∧ s.j.y = t.i.y ∧ s.i.x + t.j.x = s.j.x + t.i.x ∧
      R.plValid (h.vals M.line.segs) = true := by
  unfold Rt.mantelValid at hv
  match hg : h.vals M.graph, hv with
  | [s, t], hv =>
    simp only [Bool.and_eq_true, decide_eq_true_eq] at hv
    obtain ⟨⟨⟨h1, h2⟩, h3⟩, h4⟩ := hv
    refine ⟨s, t, rfl, h1, h2, ?_, h4⟩
    rw [hE.div', hE.div', hE.add', hE.add'] at h3
    linarith
  | [], hv => simp at hv
  | [_], hv => simp at hv
  | _ :: _ :: _ :: _, hv => simp at hv

theorem mantelSegs_counts (R : Rt K) (h : Heap K) (m : MantelDim K) (b : SegCls) :
    (R.mantelSegs h m b).1.npt = h.npt + 4 ∧ (R.mantelSegs h m b).1.nseg = h.nseg + 4 := by
  unfold Rt.mantelSegs
  simp [Heap.newSegC, Heap.newPts, Heap.newPt]

theorem mantelSegs_ends (R : Rt K) (h : Heap K) (m : MantelDim K) (b : SegCls) (p : ℕ)
    (hp : EndOf (R.mantelSegs h m b).1 (R.mantelSegs h m b).2 p) :
    ∃ a < 4, p = h.npt + a ∧ (R.mantelSegs h m b).1.pt p = R.mantelCorner m a := by
  obtain ⟨h1, h2, -, -, s0, s1, s2, s3⟩ := mantelSegs_spec R h m b
  obtain ⟨s, hs, hp⟩ := hp
  unfold Heap.vals outline at h2
  rw [h1] at hs h2
  simp only [List.map_cons, List.map_nil, List.cons.injEq, Heap.val, Seg.mk.injEq, and_true] at h2
  rw [s0, s1, s2, s3] at h2
  simp only at h2
  simp only [List.mem_cons, List.not_mem_nil, or_false] at hs
  rcases hs with rfl | rfl | rfl | rfl
  · rw [s0] at hp
    rcases hp with rfl | rfl
    · exact ⟨0, by norm_num, rfl, h2.1.1⟩
    · exact ⟨1, by norm_num, rfl, h2.1.2.1⟩
  · rw [s1] at hp
    rcases hp with rfl | rfl
    · exact ⟨1, by norm_num, rfl, h2.1.2.1⟩
    · exact ⟨2, by norm_num, rfl, h2.2.1.2.1⟩
  · rw [s2] at hp
    rcases hp with rfl | rfl
    · exact ⟨2, by norm_num, rfl, h2.2.1.2.1⟩
    · exact ⟨3, by norm_num, rfl, h2.2.2.1.2.1⟩
  · rw [s3] at hp
    rcases hp with rfl | rfl
    · exact ⟨3, by norm_num, rfl, h2.2.2.1.2.1⟩
    · exact ⟨0, by norm_num, rfl, h2.1.1⟩

theorem mantelSegs_apart (h : Heap K) (m : MantelDim K) (b : SegCls) (hc : CornersApart R m) :
    Apart R.tol (locs (R.mantelSegs h m b).1 (R.mantelSegs h m b).2) ∧
    SharesPoints (R.mantelSegs h m b).1 (R.mantelSegs h m b).2 ∧
    ∀ s ∈ (R.mantelSegs h m b).2, ((R.mantelSegs h m b).1.val s).i ≠ ((R.mantelSegs h m b).1.val s).j := by
  have hends := mantelSegs_ends R h m b
  have hloc : ∀ p ∈ locs (R.mantelSegs h m b).1 (R.mantelSegs h m b).2, ∃ a < 4, p = R.mantelCorner m a := by
    rintro p ⟨s, hs, hp⟩
    rcases hp with rfl | rfl
    · obtain ⟨a, ha, -, e⟩ := hends _ ⟨s, hs, Or.inl rfl⟩
      exact ⟨a, ha, e⟩
    · obtain ⟨a, ha, -, e⟩ := hends _ ⟨s, hs, Or.inr rfl⟩
      exact ⟨a, ha, e⟩
  refine ⟨?_, ?_, ?_⟩
  · intro p hp q hq hne
    obtain ⟨a, ha, rfl⟩ := hloc p hp
    obtain ⟨c, hc', rfl⟩ := hloc q hq
    exact (hc a ha c hc' fun e => hne (by rw [e])).2
  · intro p q hp hq e
    obtain ⟨a, ha, e1, e2⟩ := hends p hp
    obtain ⟨c, hc', e3, e4⟩ := hends q hq
    by_cases hac : a = c
    · rw [e1, e3, hac]
    · rw [e2, e4] at e
      exact absurd e (hc a ha c hc' hac).1
  · intro s hs
    obtain ⟨h1, h2, -, -⟩ := mantelSegs_spec R h m b
    have : (R.mantelSegs h m b).1.val s ∈ (R.mantelSegs h m b).1.vals (R.mantelSegs h m b).2 := List.mem_map_of_mem hs
    rw [h2] at this
    simp only [outline, List.mem_cons, List.not_mem_nil, or_false] at this
    rcases this with e | e | e | e <;> rw [e]
    · exact (hc 0 (by norm_num) 1 (by norm_num) (by norm_num)).1
    · exact (hc 1 (by norm_num) 2 (by norm_num) (by norm_num)).1
    · exact (hc 2 (by norm_num) 3 (by norm_num) (by norm_num)).1
    · exact (hc 3 (by norm_num) 0 (by norm_num) (by norm_num)).1

theorem standZarge_graph (R : Rt K) (h : Heap K) (m : MantelDim K) :
    (R.standZargeNew h m).2.graph = (R.purge (R.mantelSegs h m .wall).1
      ⟨(R.mantelSegs h m .wall).2, false⟩).1.walls (R.purge (R.mantelSegs h m .wall).1
      ⟨(R.mantelSegs h m .wall).2, false⟩).2.segs := by
  simp only [Rt.standZargeNew, Rt.mantelNew]

theorem standZarge_line (R : Rt K) (h : Heap K) (m : MantelDim K) :
    (R.standZargeNew h m).2.line = ⟨(R.mantelSegs (R.purge (R.mantelSegs h m .wall).1
      ⟨(R.mantelSegs h m .wall).2, false⟩).1 m .wall).2, (R.purge (R.mantelSegs h m .wall).1
      ⟨(R.mantelSegs h m .wall).2, false⟩).2.purged⟩ := by
  simp only [Rt.standZargeNew, Rt.mantelNew]

theorem standZarge_heap (R : Rt K) (h : Heap K) (m : MantelDim K) :
    (R.standZargeNew h m).1 = (R.mantelSegs (R.purge (R.mantelSegs h m .wall).1
      ⟨(R.mantelSegs h m .wall).2, false⟩).1 m .wall).1 := by
  simp only [Rt.standZargeNew, Rt.mantelNew]

/-- C73: the skirt keeps the flag `purged` of the segments it no longer has, its graph consists of those old segments,
and so moving the skirt moves its outline and leaves its graph behind. -/
theorem C73_left_behind (hR : R.IsRounding) (h : Heap K) (m : MantelDim K) (hc : CornersApart R m) (a b : K) :
    (R.standZargeNew h m).2.line.purged = true ∧
    (∀ s ∈ (R.standZargeNew h m).2.graph, s ∉ (R.standZargeNew h m).2.line.segs) ∧
    (R.plMove (R.standZargeNew h m).1 (R.standZargeNew h m).2.line a b).1.vals (R.standZargeNew h m).2.graph =
      (R.standZargeNew h m).1.vals (R.standZargeNew h m).2.graph ∧
    (R.plMove (R.standZargeNew h m).1 (R.standZargeNew h m).2.line a b).1.vals (R.standZargeNew h m).2.line.segs =
      outline (R.ptAdd (R.mantelCorner m 0) ⟨a, b⟩) (R.ptAdd (R.mantelCorner m 1) ⟨a, b⟩)
        (R.ptAdd (R.mantelCorner m 2) ⟨a, b⟩) (R.ptAdd (R.mantelCorner m 3) ⟨a, b⟩) .wall := by
  obtain ⟨p1, p2, p3⟩ := mantelSegs_apart h m .wall hc
  obtain ⟨n1, n2⟩ := mantelSegs_counts R h m .wall
  have e1 := mantelSegs_ends R h m .wall
  have hs1 := (mantelSegs_spec R h m .wall).1
  obtain ⟨-, c2, c3, c4, c5, -, -, c8⟩ := C45_purge hR _ ⟨(R.mantelSegs h m .wall).2, false⟩ rfl p1 p3
  rw [standZarge_graph, standZarge_line, standZarge_heap, c2]
  generalize (R.purge (R.mantelSegs h m .wall).1 ⟨(R.mantelSegs h m .wall).2, false⟩).1 = g at c3 c4 c5 c8 ⊢
  dsimp only at c3 c4 c5 c8 ⊢
  obtain ⟨q1, q2, q3⟩ := mantelSegs_apart g m .wall hc
  have f1 := mantelSegs_ends R g m .wall
  obtain ⟨hs2, hv2, hpt, hseg, t0, t1, t2, t3⟩ := mantelSegs_spec R g m .wall
  obtain ⟨-, mv1, mv2, mv3⟩ := C46_move_once hR (R.mantelSegs g m .wall).1 ⟨(R.mantelSegs g m .wall).2, true⟩ rfl q1 q2 a b
  have hlt : ∀ s ∈ g.walls (R.mantelSegs h m .wall).2, s ∈ (R.mantelSegs h m .wall).2 ∧ s < g.nseg := by
    intro s hs
    have hs := (List.mem_filter.1 hs).1
    refine ⟨hs, ?_⟩
    rw [hs1] at hs
    simp only [List.mem_cons, List.not_mem_nil, or_false] at hs
    omega
  refine ⟨rfl, ?_, ?_, ?_⟩
  · intro s hs hs'
    have := (hlt s hs).2
    rw [hs2] at hs'
    simp only [List.mem_cons, List.not_mem_nil, or_false] at hs'
    omega
  · unfold Heap.vals
    apply List.map_congr_left
    intro s hs
    obtain ⟨hs, hsl⟩ := hlt s hs
    have hold : ∀ p, EndOf g (R.mantelSegs h m .wall).2 p →
        ¬ EndOf (R.mantelSegs g m .wall).1 (R.mantelSegs g m .wall).2 p := by
      intro p hp hp'
      obtain ⟨k, hk, e, -⟩ := e1 p (c8 p hp)
      obtain ⟨k', hk', e', -⟩ := f1 p hp'
      omega
    unfold Heap.val
    rw [mv1, hseg s hsl, mv3 _ (hold _ ⟨s, hs, Or.inl rfl⟩), mv3 _ (hold _ ⟨s, hs, Or.inr rfl⟩)]
  · generalize (R.plMove (R.mantelSegs g m .wall).1 ⟨(R.mantelSegs g m .wall).2, true⟩ a b).1 = w at mv1 mv2 ⊢
    unfold Heap.vals outline at hv2 ⊢
    dsimp only at mv2 ⊢
    rw [hs2] at hv2 ⊢
    have hin : ∀ k < 4, g.nseg + k ∈ (R.mantelSegs g m .wall).2 := by
      intro k hk
      rw [hs2]
      simp only [List.mem_cons, List.not_mem_nil, or_false]
      omega
    simp only [List.map_cons, List.map_nil, List.cons.injEq, Heap.val, Seg.mk.injEq, and_true] at hv2 ⊢
    simp only [mv1]
    have m0 := mv2 g.npt ⟨g.nseg, hin 0 (by norm_num), Or.inl (by rw [t0])⟩
    have m1 := mv2 (g.npt + 1) ⟨g.nseg, hin 0 (by norm_num), Or.inr (by rw [t0])⟩
    have m2 := mv2 (g.npt + 2) ⟨g.nseg + 1, hin 1 (by norm_num), Or.inr (by rw [t1])⟩
    have m3 := mv2 (g.npt + 3) ⟨g.nseg + 2, hin 2 (by norm_num), Or.inr (by rw [t2])⟩
    rw [t0, t1, t2, t3] at hv2 ⊢
    simp only at hv2 ⊢
    rw [m0, m1, m2, m3, hv2.1.1, hv2.1.2.1, hv2.2.1.2.1, hv2.2.2.1.2.1]
    exact ⟨⟨rfl, rfl, trivial⟩, ⟨rfl, rfl, trivial⟩, ⟨rfl, rfl, trivial⟩, rfl, rfl, trivial⟩

/-- the skirt of diameter 2 and height 5, moved by (1, 0): the outline starts at x = 2, the graph at x = 1 -/
example : CornersApart exRt ⟨0, 0, 2, 2, 5⟩ ∧
    (((exRt.plMove (exRt.standZargeNew noObjects ⟨0, 0, 2, 2, 5⟩).1 (exRt.standZargeNew noObjects ⟨0, 0, 2, 2, 5⟩).2.line
      1 0).1.vals (exRt.standZargeNew noObjects ⟨0, 0, 2, 2, 5⟩).2.line.segs).map fun s => s.i.x) = [2, 2, 0, 0] ∧
    (((exRt.plMove (exRt.standZargeNew noObjects ⟨0, 0, 2, 2, 5⟩).1 (exRt.standZargeNew noObjects ⟨0, 0, 2, 2, 5⟩).2.line
      1 0).1.vals (exRt.standZargeNew noObjects ⟨0, 0, 2, 2, 5⟩).2.graph).map fun s => s.i.x) = [1, -1, -1] := by
  unfold CornersApart
  decide +kernel

end Srep
