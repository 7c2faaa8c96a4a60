import Verif.Lemmas.CompleteC

/-!
# `find_loops` finds every simple loop that the walks have left (C126)
-/

set_option linter.unusedSectionVars false

namespace Srep
variable {K : Type} [Field K] [LinearOrder K] [IsStrictOrderedRing K] [FloorRing K] {R : Rt K}

theorem loopsWalk_sub (π : SetOrder) (wf : ℕ) : ∀ (fuel k : ℕ) (h : Heap K) (g : List ℕ) (c : List PLine) (h' : Heap K)
    (g' : List ℕ) (c' : List PLine), R.loopsWalk π wf fuel k h g c = .ok h' g' c' → g'.Sublist g
  | 0, _, _, _, _, _, _, _, e => by simp [Rt.loopsWalk] at e
  | fuel + 1, k, h, g, c, h', g', c', e => by
    unfold Rt.loopsWalk at e
    cases hr : R.walkSegments π wf k h g with
    | timeout => rw [hr] at e; cases e
    | raised x => rw [hr] at e; cases e
    | no h1 => rw [hr] at e; cases e; exact List.Sublist.refl _
    | found h1 P =>
      rw [hr] at e
      dsimp only at e
      split_ifs at e
      · cases e; exact List.Sublist.refl _
      · exact (loopsWalk_sub π wf fuel _ _ _ _ _ _ _ e).trans List.filter_sublist

theorem setOf_all (hR : R.IsRounding) {h : Heap K} {g0 : List ℕ} (o : NetOk R h g0) : (R.setOf h g0).map Prod.fst = g0 := by
  have key : ∀ (l : List ℕ) (T : Rt.SegSet), (∀ y ∈ T, y.1 ∈ g0 ∧ y.1 ∉ l) → l.Nodup → (∀ s ∈ l, s ∈ g0) →
      (l.foldl (R.setAdd h) T).map Prod.fst = T.map Prod.fst ++ l := by
    intro l
    induction l with
    | nil => intro T _ _ _; simp
    | cons a l ih =>
      intro T hT hnd hl
      have hadd : R.setAdd h T a = T ++ [(a, R.segHash h a)] := by
        unfold Rt.setAdd
        rw [if_neg]
        rw [List.any_eq_true]
        rintro ⟨y, hy, e⟩
        unfold Rt.setHit at e
        rw [Bool.and_eq_true, Bool.or_eq_true, decide_eq_true_eq, decide_eq_true_eq] at e
        obtain ⟨h1, h2⟩ := hT y hy
        apply h2
        rcases e.2 with e | e
        · rw [e]; exact List.mem_cons_self
        · rw [o.seq hR h1 (hl a List.mem_cons_self) e]; exact List.mem_cons_self
      rw [List.foldl_cons, hadd, ih]
      · simp
      · intro y hy
        rw [List.mem_append, List.mem_singleton] at hy
        rw [List.nodup_cons] at hnd
        rcases hy with hy | rfl
        · exact ⟨(hT y hy).1, fun h => (hT y hy).2 (List.mem_cons_of_mem _ h)⟩
        · exact ⟨hl a List.mem_cons_self, hnd.1⟩
      · exact (List.nodup_cons.1 hnd).2
      · exact fun s hs => hl s (List.mem_cons_of_mem _ hs)
  have := key g0 [] (by simp) o.nodup fun s hs => hs
  rw [List.map_nil, List.nil_append] at this
  exact this

/-- C126: a group of fewer than 250 segment objects between separated points, none of length zero and no two between the
same two points.  Whatever the first stage of `find_loops` (the walks) leaves, the second stage ends without exception,
keeps the polygons found by the walks, and every simple loop of segments left by the walks - in any order and direction,
valid when drawn as a closed chain - is drawn by one of the polygons returned.  Every other polygon returned is a simple
loop of segments left by the walks. -/
theorem C126_left (hR : R.IsRounding) (π : SetOrder) (hπ : π.Ok) (fuel : ℕ) (h : Heap K) (G : List PLine) (hw : h.WF)
    (hG : ∀ s ∈ G.flatMap PLine.segs, s < h.nseg) (hnd : (G.flatMap PLine.segs).Nodup)
    (hap : Apart R.tol (locs h (G.flatMap PLine.segs))) (hnull : ∀ s ∈ G.flatMap PLine.segs, (h.val s).i ≠ (h.val s).j)
    (hdb : ∀ s ∈ G.flatMap PLine.segs, ∀ t ∈ G.flatMap PLine.segs, SameEdge (h.val s) (h.val t) → s = t)
    (hlen : (G.flatMap PLine.segs).length < 250) (h1 : Heap K) (g1 : List ℕ) (c1 : List PLine)
    (hwalk : R.loopsWalk π fuel fuel 1 h (π 0 (G.flatMap PLine.segs)) [] = .ok h1 g1 c1) :
    ∃ h' g' c, R.findLoops π fuel h G = .ok h' g' c ∧ (∀ P ∈ c1, ∃ Q ∈ c, SameDrawing (h'.vals Q.segs) (h1.vals P.segs)) ∧
      (∀ P ∈ c, P ∈ c1 ∨ (∃ (n : ℕ) (p : ZMod n → Pt K) (σ : ZMod n → ℕ), IsCycleOf h P.segs n p σ) ∧ ∀ s ∈ P.segs, s ∈ g1) ∧
      ∀ (S : List ℕ) (n : ℕ) (p : ZMod n → Pt K) (σ : ZMod n → ℕ), IsCycleOf h S n p σ → (∀ s ∈ S, s ∈ g1) →
        (∀ l, ClosedChain l → SameDrawing l (h.vals S) → R.plValid l = true) →
        ∃ P ∈ c, SameDrawing (h'.vals P.segs) (h.vals S) := by
  have o : NetOk R h (G.flatMap PLine.segs) := ⟨hnd, hap, hnull, hdb⟩
  have hset := setOf_all hR o
  have hperm := hπ 0 (G.flatMap PLine.segs)
  have hsub := loopsWalk_sub π fuel fuel 1 h _ [] h1 g1 c1 hwalk
  have ok := loopsWalk_ok hR hπ (h0 := h) (S := G.flatMap PLine.segs) fuel fuel 1 h (π 0 (G.flatMap PLine.segs)) []
    ⟨Tame.refl hw, fun s hs => ⟨hG s (hperm.mem_iff.1 hs), s, hperm.mem_iff.1 hs, Or.inl rfl⟩, by simp⟩
  rw [hwalk] at ok
  obtain ⟨tame, -, okc⟩ := ok
  have hg1 : ∀ s ∈ g1, s ∈ G.flatMap PLine.segs := fun s hs => hperm.mem_iff.1 (hsub.subset hs)
  have edge : ∀ s ∈ G.flatMap PLine.segs, SameEdge (h1.val s) (h.val s) := fun s hs => (tame.val s (hG s hs)).edge
  have o1 : NetOk R h1 g1 := (o.edges edge).sub (hsub.nodup (hperm.nodup_iff.2 hnd)) hg1
  have hE0 : locs h1 g1 ⊆ locs h (G.flatMap PLine.segs) := by
    intro q hq
    obtain ⟨s, hs, a⟩ := mem_locs.1 hq
    exact mem_locs.2 ⟨s, hg1 s hs, (at_of_edge (edge s (hg1 s hs)) q).1 a⟩
  have hl1 : g1.length < 250 := by
    have := hsub.length_le
    rw [hperm.length_eq] at this
    omega
  obtain ⟨h', g', c, e, rv, keep, ring, found⟩ := loopsComb_complete (c0 := c1) hR hap hE0 o1 hl1 (g1.length + 1) 1 h1 g1 c1
    ⟨Rev.refl _, List.Sublist.refl _, fun v hv hn => absurd hv hn, (by
      intro P hP s hs
      obtain ⟨-, t, ht, u⟩ := okc P hP s hs
      exact ends_rev ⟨mem_locs.2 ⟨t, ht, at_i h t⟩, mem_locs.2 ⟨t, ht, at_j h t⟩⟩ u.edge),
      fun S hS => Or.inr hS.2.1, fun P hP => Or.inl hP⟩ (by omega) (by omega) (by
        rintro S ⟨⟨n, p, σ, cy⟩, -⟩ hS
        have := cy.three
        rw [cy.length] at hS
        omega)
  refine ⟨h', g', c.insertionSort fun P Q => P.segs.length ≤ Q.segs.length, ?_, ?_, ?_, ?_⟩
  · unfold Rt.findLoops
    rw [hset, hwalk]
    dsimp only
    rw [e]
  · intro P hP
    exact ⟨P, (List.mem_insertionSort _).2 (keep P hP), drawing_perm (List.Perm.refl _) fun s _ => (rv.val s).edge⟩
  · intro P hP
    rcases ring P ((List.mem_insertionSort _).1 hP) with h2 | ⟨⟨n, p, σ, cy⟩, hS⟩
    · exact Or.inl h2
    · exact Or.inr ⟨⟨n, p, σ, cy.edges (List.Perm.refl _) fun s hs => (edge s (hg1 s (hS s hs))).symm⟩, hS⟩
  · intro S n p σ cy hS hval
    have d : SameDrawing (h1.vals S) (h.vals S) := drawing_perm (List.Perm.refl _) fun s hs => edge s (hg1 s (hS s hs))
    obtain ⟨P, hP, dP⟩ := found S ⟨⟨n, p, σ, cy.edges (List.Perm.refl _) fun s hs => edge s (hg1 s (hS s hs))⟩, hS, by
      have := (cy.nodup.subperm hS).length_le
      omega, fun l hl hd => hval l hl (hd.trans d)⟩
    exact ⟨P, (List.mem_insertionSort _).2 hP, dP.trans d⟩

/-- C126: if `walk_segments` finds nothing on the segments of such a group, `find_loops` returns every simple loop of its
segments: for every choice of segments that form a closed walk through different points, valid when drawn as a closed
chain, one of the polygons returned draws exactly these segments.  Every polygon returned is such a loop. -/
theorem C126_complete (hR : R.IsRounding) (π : SetOrder) (hπ : π.Ok) (fuel : ℕ) (h : Heap K) (G : List PLine) (hw : h.WF)
    (hG : ∀ s ∈ G.flatMap PLine.segs, s < h.nseg) (hnd : (G.flatMap PLine.segs).Nodup)
    (hap : Apart R.tol (locs h (G.flatMap PLine.segs))) (hnull : ∀ s ∈ G.flatMap PLine.segs, (h.val s).i ≠ (h.val s).j)
    (hdb : ∀ s ∈ G.flatMap PLine.segs, ∀ t ∈ G.flatMap PLine.segs, SameEdge (h.val s) (h.val t) → s = t)
    (hlen : (G.flatMap PLine.segs).length < 250) (h1 : Heap K)
    (hwalk : R.walkSegments π (fuel + 1) 1 h (π 0 (G.flatMap PLine.segs)) = .no h1) :
    ∃ h' g' c, R.findLoops π (fuel + 1) h G = .ok h' g' c ∧
      (∀ P ∈ c, (∃ (n : ℕ) (p : ZMod n → Pt K) (σ : ZMod n → ℕ), IsCycleOf h P.segs n p σ) ∧
        ∀ s ∈ P.segs, s ∈ G.flatMap PLine.segs) ∧
      ∀ (S : List ℕ) (n : ℕ) (p : ZMod n → Pt K) (σ : ZMod n → ℕ), IsCycleOf h S n p σ →
        (∀ s ∈ S, s ∈ G.flatMap PLine.segs) → (∀ l, ClosedChain l → SameDrawing l (h.vals S) → R.plValid l = true) →
        ∃ P ∈ c, SameDrawing (h'.vals P.segs) (h.vals S) := by
  obtain ⟨h', g', c, e, -, r, f⟩ := C126_left hR π hπ (fuel + 1) h G hw hG hnd hap hnull hdb hlen h1 (π 0 (G.flatMap PLine.segs)) []
    (by unfold Rt.loopsWalk; rw [hwalk])
  refine ⟨h', g', c, e, fun P hP => ?_, fun S n p σ cy hS => f S n p σ cy fun s hs => (hπ 0 _).mem_iff.2 (hS s hs)⟩
  rcases r P hP with h2 | ⟨cy, hS⟩
  · simp at h2
  · exact ⟨cy, fun s hs => (hπ 0 _).mem_iff.1 (hS s hs)⟩

/-- a square with a diagonal: the sides once round (addresses 1 to 4) and the diagonal (address 0) -/
def exCrossedH (cls : SegCls) : Heap ℚ :=
  { pt := fun k => [(⟨1, 1⟩ : Pt ℚ), ⟨3, 1⟩, ⟨3, 3⟩, ⟨1, 3⟩].getD k ⟨0, 0⟩
    seg := fun k => [⟨0, 2, cls⟩, ⟨0, 1, cls⟩, ⟨1, 2, cls⟩, ⟨2, 3, cls⟩, ⟨3, 0, cls⟩].getD k ⟨0, 0, cls⟩
    npt := 4
    nseg := 5 }

/-- the hypotheses of `C126_complete` hold for the square with a diagonal, whose lower triangle is one of the loops -/
example : ((exRt.walkSegments (fun _ l => l) 9 1 (exCrossedH .wall) [1, 2, 3, 4, 0]) matches .no _) ∧ (exCrossedH .wall).WF ∧
    (∀ s ∈ [1, 2, 3, 4, 0], ((exCrossedH .wall).val s).i ≠ ((exCrossedH .wall).val s).j) ∧
    (∀ s ∈ [1, 2, 3, 4, 0], ∀ t ∈ [1, 2, 3, 4, 0], SameEdge ((exCrossedH .wall).val s) ((exCrossedH .wall).val t) → s = t) ∧
    IsCycleOf (exCrossedH .wall) [0, 1, 2] 3 (fun k => (exCrossedH .wall).pt k.val) (fun k => if k = 2 then 0 else k.val + 1) := by
  refine ⟨by decide +kernel, ?_, by decide, by unfold SameEdge; decide, by norm_num, ?_, ?_, by decide, ?_, ?_⟩
  · intro s hs
    have : s < 5 := hs
    interval_cases s <;> decide
  · intro a b; revert a b; decide
  · intro a b; revert a b; decide
  · intro s
    constructor
    · intro hs
      simp only [List.mem_cons, List.not_mem_nil, or_false] at hs
      rcases hs with rfl | rfl | rfl
      · exact ⟨2, rfl⟩
      · exact ⟨0, rfl⟩
      · exact ⟨1, rfl⟩
    · rintro ⟨k, rfl⟩; revert k; decide
  · decide

/-- C126: otherwise loops can be missed, depending on the iteration order of the set.  A square of plain segments with a
diagonal has three simple loops.  With one order all three are returned; with another one the walk takes a triangle for a
loop without branches - it only looks for branches among the segments that start where it stands - and removes its sides,
and `find_loops` returns this triangle only.  If the segments are Walls, `find_loops` raises an IndexError. -/
theorem C126_missed : ∃ π π' : SetOrder, π.Ok ∧ π'.Ok ∧
    (exRt.findLoops π 9 (exCrossedH .line) [⟨[0, 1, 2, 3, 4], false⟩]).drawn =
      some [[((1, 1), (3, 1)), ((3, 1), (3, 3)), ((1, 1), (3, 3))], [((1, 1), (3, 3)), ((3, 3), (1, 3)), ((1, 3), (1, 1))],
        [((1, 1), (3, 1)), ((3, 1), (3, 3)), ((3, 3), (1, 3)), ((1, 3), (1, 1))]] ∧
    (exRt.findLoops π' 9 (exCrossedH .line) [⟨[0, 1, 2, 3, 4], false⟩]).drawn =
      some [[((1, 1), (3, 3)), ((3, 3), (3, 1)), ((3, 1), (1, 1))]] ∧
    (exRt.findLoops π' 9 (exCrossedH .wall) [⟨[0, 1, 2, 3, 4], false⟩] matches .raised .index) := by
  refine ⟨fun k l => if k = 0 then l.rotate 1 else l, fun _ l => l, ?_, fun _ _ => List.Perm.refl _, ?_, ?_, ?_⟩
  · intro k l
    dsimp only
    split_ifs
    · exact l.rotate_perm _
    · exact List.Perm.refl _
  · decide +kernel
  · decide +kernel
  · decide +kernel

/-- a triangle (addresses 1 to 3) on a side of a square (0, 1, 4, 5), and a triangle (6 to 8) at a corner of the square -/
def exTwiceH : Heap ℚ :=
  { pt := fun k => [(⟨3, 1⟩ : Pt ℚ), ⟨3, 3⟩, ⟨5, 2⟩, ⟨1, 1⟩, ⟨1, 3⟩, ⟨0, 0⟩, ⟨1, 0⟩].getD k ⟨0, 0⟩
    seg := fun k => [⟨0, 3, .wall⟩, ⟨0, 1, .wall⟩, ⟨1, 2, .wall⟩, ⟨2, 0, .wall⟩, ⟨3, 4, .wall⟩, ⟨4, 1, .wall⟩, ⟨3, 5, .wall⟩,
      ⟨5, 6, .wall⟩, ⟨6, 3, .wall⟩].getD k ⟨0, 0, .wall⟩
    npt := 7
    nseg := 9 }

/-- C126: a loop can be returned twice.  Here the walk finds no loop, there are four simple loops, and `find_loops` returns
five polygons, two of them for the first triangle: a combination of two separate triangles is ordered to one of them, and
as the common side has been turned meanwhile, its segments come in another order. -/
theorem C126_twice : ((exRt.walkSegments (fun _ l => l) 20 1 exTwiceH [0, 1, 2, 3, 4, 5, 6, 7, 8]) matches .no _) ∧
    (exRt.findLoops (fun _ l => l) 20 exTwiceH [⟨[0, 1, 2, 3, 4, 5, 6, 7, 8], false⟩]).drawn =
    some [[((3, 3), (3, 1)), ((5, 2), (3, 3)), ((3, 1), (5, 2))], [((0, 0), (1, 0)), ((1, 0), (1, 1)), ((1, 1), (0, 0))],
      [((3, 1), (5, 2)), ((5, 2), (3, 3)), ((3, 3), (3, 1))],
      [((1, 1), (1, 3)), ((1, 3), (3, 3)), ((3, 3), (3, 1)), ((3, 1), (1, 1))],
      [((1, 1), (1, 3)), ((1, 3), (3, 3)), ((5, 2), (3, 3)), ((3, 1), (5, 2)), ((3, 1), (1, 1))]] := by
  constructor <;> decide +kernel

end Srep
