import Verif.Props.Move
import Verif.Props.LineC
import Verif.Lemmas.Heap

/-! Object-level parts of C22 (reverse) and C27 (divide_line). -/

set_option linter.unusedSectionVars false

namespace Srep
variable {K : Type} [Field K] [LinearOrder K] [IsStrictOrderedRing K] [FloorRing K]

/-- C22: `reverse()` swaps the endpoint objects of this segment only; doing it twice restores memory. -/
theorem C22_reverse_in_place (h : Heap K) (s : ℕ) :
    (h.reverse s).val s = (h.val s).reversed ∧ (h.reverse s).pt = h.pt ∧
    (∀ o, o ≠ s → (h.reverse s).val o = h.val o) ∧ (h.reverse s).reverse s = h := by
  refine ⟨?_, rfl, ?_, ?_⟩
  · simp [Heap.reverse, Heap.setEndpoints, Heap.val, Seg.reversed]
  · intro o ho
    simp [Heap.reverse, Heap.setEndpoints, Heap.val, Function.update_apply, ho]
  · obtain ⟨pt, seg, a, b⟩ := h
    simp [Heap.reverse, Heap.setEndpoints]

/-- C27, object level: `divide_line` creates n segments; the first starts at the very Point object the line
starts at, the last ends at the one it ends at, consecutive segments share one new Point object, these new
objects are pairwise different, old objects are unchanged, and the values are those of the value-level
function. -/
theorem C27_objects (R : Rt K) (h : Heap K) (s : ℕ) (n : ℕ) (hn : 1 ≤ n)
    (hi : (h.seg s).i < h.npt) (hj : (h.seg s).j < h.npt) :
    let r := R.divideLineH h s n
    ∃ hl : r.2.length = n,
      (r.1.seg r.2[0]).i = (h.seg s).i ∧ (r.1.seg r.2[n - 1]).j = (h.seg s).j ∧
      (∀ k (hk : k + 1 < n), (r.1.seg r.2[k]).j = h.npt + k ∧ (r.1.seg r.2[k + 1]).i = h.npt + k) ∧
      (∀ k (hk : k < n), h.nseg ≤ r.2[k]) ∧
      (∀ p < h.npt, r.1.pt p = h.pt p) ∧ (∀ o < h.nseg, r.1.seg o = h.seg o) ∧
      r.1.vals r.2 = R.divideLine (h.val s) n := by
  intro r
  set nodes := (List.range ((n : ℤ) - 1).toNat).map fun k => R.divPoint (h.val s) n (k + 1) with hnodes
  have hnl : nodes.length = n - 1 := by simp [hnodes]
  obtain ⟨a1, a2, a3, a4, a5, a6⟩ := Heap.newPts_spec nodes h
  set g := (h.newPts nodes).1 with hg
  set refs := (h.seg s).i :: (h.newPts nodes).2 ++ [(h.seg s).j] with hrefs
  have hr : r = g.newChain refs := rfl
  have hrl : refs.length = n + 1 := by simp [hrefs, a1, hnl]; omega
  obtain ⟨b1, b2, b3, b4, b5, b6⟩ := Heap.newChain_spec refs g
  rw [← hr] at b1 b2 b3 b4 b5 b6
  have hl : r.2.length = n := by rw [b1]; simp [hrl]
  have hget : ∀ k (hk : k < n), r.2[k] = h.nseg + k := by
    intro k hk; simp [b1, a4]
  have hseg : ∀ k (hk : k < n), r.1.seg r.2[k] = ⟨refs[k], refs[k + 1], .line⟩ := by
    intro k hk
    rw [hget k hk, ← a4]; exact b6 k (by omega)
  have hmid : ∀ k (hk : k + 1 < n), refs[k + 1] = h.npt + k := by
    intro k hk
    simp only [hrefs, List.cons_append, List.getElem_cons_succ]
    rw [List.getElem_append_left (by rw [a1]; simp [hnl]; omega)]
    simp [a1]
  refine ⟨hl, ?_, ?_, ?_, ?_, ?_, ?_, ?_⟩
  · rw [hseg 0 (by omega)]; simp [hrefs]
  · rw [hseg (n - 1) (by omega)]
    simp only [hrefs]
    have : n - 1 + 1 = ((h.seg s).i :: (h.newPts nodes).2).length := by simp [a1, hnl]
    simp only [this]
    simp
  · intro k hk
    rw [hseg k (by omega), hseg (k + 1) (by omega)]
    exact ⟨hmid k hk, hmid k hk⟩
  · intro k hk; rw [hget k hk]; omega
  · intro p hp; rw [b3]; exact a5 p hp
  · intro o ho; rw [b5 o (by omega), a3]
  · rw [hr, Heap.newChain_vals]
    unfold Rt.divideLine Rt.divNodes
    congr 1
    simp only [hrefs, List.map_append, List.map_cons, List.map_nil]
    rw [a5 _ hi, a5 _ hj]
    have : (h.newPts nodes).2.map g.pt = nodes := by
      apply List.ext_getElem
      · simp [a1]
      · intro k k1 k2
        simp only [List.getElem_map, a1, List.getElem_range', one_mul]
        exact a6 k k2
    rw [this]
    rfl

/-- instance: the segment (0,0)-(3,1) of `exHeap` divided by three -/
example : (exHeap.seg 0).i < exHeap.npt ∧ (exHeap.seg 0).j < exHeap.npt ∧
    (exRt.divideLineH exHeap 0 3).2 = [1, 2, 3] := by decide +kernel

end Srep
