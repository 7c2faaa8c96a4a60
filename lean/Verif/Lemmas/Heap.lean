import Verif.Model.Heap
import Verif.Lemmas.Line

/-! Lemmas about memory: fresh objects. -/

set_option linter.unusedSectionVars false

namespace Srep
variable {K : Type} [Field K] [LinearOrder K] [IsStrictOrderedRing K] [FloorRing K]

namespace Heap

theorem newPts_spec (l : List (Pt K)) : ∀ h : Heap K,
    (h.newPts l).2 = List.range' h.npt l.length ∧ (h.newPts l).1.npt = h.npt + l.length ∧
    (h.newPts l).1.seg = h.seg ∧ (h.newPts l).1.nseg = h.nseg ∧
    (∀ p < h.npt, (h.newPts l).1.pt p = h.pt p) ∧
    ∀ k (hk : k < l.length), (h.newPts l).1.pt (h.npt + k) = l[k] := by
  induction l with
  | nil => intro h; simp [newPts]
  | cons q l ih =>
    intro h
    obtain ⟨h1, h2, h3, h4, h5, h6⟩ := ih (h.newPt q).1
    refine ⟨?_, ?_, ?_, ?_, ?_, ?_⟩
    · show (h.newPt q).2 :: ((h.newPt q).1.newPts l).2 = _
      rw [h1]; simp [newPt, List.range'_succ]
    · show ((h.newPt q).1.newPts l).1.npt = _
      rw [h2]; simp [newPt]; omega
    · exact h3
    · exact h4
    · intro p hp
      show ((h.newPt q).1.newPts l).1.pt p = _
      rw [h5 p (by simp [newPt]; omega)]
      simp [newPt, Function.update_apply, hp.ne]
    · intro k hk
      show ((h.newPt q).1.newPts l).1.pt (h.npt + k) = _
      cases k with
      | zero =>
        rw [h5 _ (by simp [newPt])]
        simp [newPt]
      | succ k =>
        have := h6 k (by simpa using hk)
        have e : (h.newPt q).1.npt + k = h.npt + (k + 1) := by simp [newPt]; omega
        rw [e] at this
        rw [this]; simp

theorem newChain_spec : ∀ (l : List ℕ) (h : Heap K),
    (h.newChain l).2 = List.range' h.nseg (l.length - 1) ∧
    (h.newChain l).1.nseg = h.nseg + (l.length - 1) ∧
    (h.newChain l).1.pt = h.pt ∧ (h.newChain l).1.npt = h.npt ∧
    (∀ s < h.nseg, (h.newChain l).1.seg s = h.seg s) ∧
    ∀ k (hk : k + 1 < l.length), (h.newChain l).1.seg (h.nseg + k) = ⟨l[k], l[k + 1], .line⟩
  | [], h => by simp [newChain]
  | [a], h => by simp [newChain]
  | a :: b :: l, h => by
    obtain ⟨h1, h2, h3, h4, h5, h6⟩ := newChain_spec (b :: l) (h.newSeg a b).1
    refine ⟨?_, ?_, ?_, ?_, ?_, ?_⟩
    · show (h.newSeg a b).2 :: ((h.newSeg a b).1.newChain (b :: l)).2 = _
      rw [h1]; simp [newSeg, List.range'_succ]
    · show ((h.newSeg a b).1.newChain (b :: l)).1.nseg = _
      rw [h2]; simp [newSeg]; omega
    · exact h3
    · exact h4
    · intro s hs
      show ((h.newSeg a b).1.newChain (b :: l)).1.seg s = _
      rw [h5 s (by simp [newSeg]; omega)]
      simp [newSeg, Function.update_apply, hs.ne]
    · intro k hk
      show ((h.newSeg a b).1.newChain (b :: l)).1.seg (h.nseg + k) = _
      cases k with
      | zero =>
        rw [h5 _ (by simp [newSeg])]
        simp [newSeg]
      | succ k =>
        have := h6 k (by simpa using hk)
        have e : (h.newSeg a b).1.nseg + k = h.nseg + (k + 1) := by simp [newSeg]; omega
        rw [e] at this
        rw [this]; simp

end Heap

theorem chain_length' (l : List (Pt K)) : (Rt.chain l).length = l.length - 1 := by
  induction l with
  | nil => rfl
  | cons a l ih =>
    cases l with
    | nil => rfl
    | cons b l => simp only [Rt.chain, List.length_cons, ih]; simp

theorem chain_getElem (l : List (Pt K)) : ∀ k (hk : k + 1 < l.length),
    (Rt.chain l)[k]'(by rw [chain_length']; omega) = ⟨l[k], l[k + 1], .line⟩ := by
  induction l with
  | nil => intro k hk; simp at hk
  | cons a l ih =>
    intro k hk
    cases l with
    | nil => simp at hk
    | cons b l =>
      cases k with
      | zero => rfl
      | succ k =>
        have := ih k (by simpa using hk)
        simpa [Rt.chain] using this

/-- values of a new chain of segments -/
theorem Heap.newChain_vals (h : Heap K) (l : List ℕ) :
    (h.newChain l).1.vals (h.newChain l).2 = Rt.chain (l.map h.pt) := by
  obtain ⟨h1, h2, h3, h4, h5, h6⟩ := Heap.newChain_spec l h
  apply List.ext_getElem
  · simp [Heap.vals, h1, chain_length']
  · intro k hk1 hk2
    have hk : k + 1 < l.length := by
      rw [chain_length'] at hk2; simp at hk2; omega
    rw [chain_getElem _ k (by simpa using hk)]
    simp only [Heap.vals, List.getElem_map, h1, List.getElem_range', one_mul, Heap.val, h6 k hk, h3]

end Srep
