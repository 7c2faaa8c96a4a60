import Verif.Model.Krempe
import Verif.Props.Mantel
import Verif.Props.Build
import Verif.Lemmas.HeadHeap

/-! Memory that only grows. -/

set_option linter.unusedSectionVars false

namespace Srep
open Rt
variable {K : Type}

/-- `g` has all objects of `h`, unchanged -/
structure Heap.Ext (h g : Heap K) : Prop where
  npt : h.npt ≤ g.npt
  nseg : h.nseg ≤ g.nseg
  pt : ∀ p < h.npt, g.pt p = h.pt p
  seg : ∀ s < h.nseg, g.seg s = h.seg s

/-- the segment `s` and its Points are in memory -/
structure Heap.Has (h : Heap K) (s : ℕ) : Prop where
  seg : s < h.nseg
  i : (h.seg s).i < h.npt
  j : (h.seg s).j < h.npt

theorem Heap.Ext.refl (h : Heap K) : h.Ext h := ⟨le_rfl, le_rfl, fun _ _ => rfl, fun _ _ => rfl⟩

theorem Heap.Ext.trans {h g f : Heap K} (a : h.Ext g) (b : g.Ext f) : h.Ext f :=
  ⟨a.npt.trans b.npt, a.nseg.trans b.nseg, fun p hp => (b.pt p (hp.trans_le a.npt)).trans (a.pt p hp),
    fun s hs => (b.seg s (hs.trans_le a.nseg)).trans (a.seg s hs)⟩

theorem Heap.Ext.has {h g : Heap K} (a : h.Ext g) {s : ℕ} (hs : h.Has s) : g.Has s :=
  ⟨hs.seg.trans_le a.nseg, by rw [a.seg s hs.seg]; exact hs.i.trans_le a.npt, by rw [a.seg s hs.seg]; exact hs.j.trans_le a.npt⟩

theorem Heap.Ext.val {h g : Heap K} (a : h.Ext g) {s : ℕ} (hs : h.Has s) : g.val s = h.val s := by
  unfold Heap.val
  rw [a.seg s hs.seg, a.pt _ hs.i, a.pt _ hs.j]

theorem Heap.Ext.vals {h g : Heap K} (a : h.Ext g) {l : List ℕ} (hs : ∀ s ∈ l, h.Has s) : g.vals l = h.vals l := by
  unfold Heap.vals
  exact List.map_congr_left fun s hl => a.val (hs s hl)

theorem Heap.ext_newSegC (h : Heap K) (i j : ℕ) (c : SegCls) : h.Ext (h.newSegC i j c).1 :=
  ⟨le_rfl, Nat.le_succ _, fun _ _ => rfl, fun s hs => by simp [Heap.newSegC, hs.ne]⟩

theorem Heap.newSegC_val (h : Heap K) (i j : ℕ) (c : SegCls) : (h.newSegC i j c).1.val (h.newSegC i j c).2 = ⟨h.pt i, h.pt j, c⟩ := by
  simp [Heap.newSegC, Heap.val]

theorem Heap.newSegC_has (h : Heap K) {i j : ℕ} (hi : i < h.npt) (hj : j < h.npt) (c : SegCls) :
    (h.newSegC i j c).1.Has (h.newSegC i j c).2 := by
  refine ⟨Nat.lt_succ_self _, ?_, ?_⟩ <;> simpa [Heap.newSegC]

theorem Heap.ext_newPts (h : Heap K) (l : List (Pt K)) : h.Ext (h.newPts l).1 := by
  induction l generalizing h with
  | nil => exact Heap.Ext.refl h
  | cons q l ih =>
    refine Heap.Ext.trans (g := (h.newPt q).1) ⟨Nat.le_succ _, le_rfl, fun p hp => ?_, fun _ _ => rfl⟩ (ih _)
    simp [Heap.newPt, hp.ne]

theorem Heap.ext_deepcopy (h : Heap K) : h.Ext h.deepcopy :=
  ⟨Nat.le_add_left _ _, Nat.le_add_left _ _, fun p hp => by simp [Heap.deepcopy, hp], fun s hs => by simp [Heap.deepcopy, hs]⟩

theorem Heap.newOutline_spec (h : Heap K) (p1 p2 p3 p4 : Pt K) (b : SegCls) :
    h.Ext (h.newOutline p1 p2 p3 p4 b).1 ∧
    (h.newOutline p1 p2 p3 p4 b).1.vals (h.newOutline p1 p2 p3 p4 b).2 = outline p1 p2 p3 p4 b ∧
    (∀ s ∈ (h.newOutline p1 p2 p3 p4 b).2, (h.newOutline p1 p2 p3 p4 b).1.Has s) ∧
    (h.newOutline p1 p2 p3 p4 b).2 = [h.nseg, h.nseg + 1, h.nseg + 2, h.nseg + 3] := by
  have hseg : (h.newOutline p1 p2 p3 p4 b).1.seg h.nseg = ⟨h.npt, h.npt + 1, .wall⟩ ∧
      (h.newOutline p1 p2 p3 p4 b).1.seg (h.nseg + 1) = ⟨h.npt + 1, h.npt + 2, .nonWall⟩ ∧
      (h.newOutline p1 p2 p3 p4 b).1.seg (h.nseg + 2) = ⟨h.npt + 2, h.npt + 3, .wall⟩ ∧
      (h.newOutline p1 p2 p3 p4 b).1.seg (h.nseg + 3) = ⟨h.npt + 3, h.npt, b⟩ := by
    unfold Heap.newOutline
    simp [Heap.newSegC, Heap.newPts, Heap.newPt, Function.update_apply, Nat.add_assoc]
  have hpt : (h.newOutline p1 p2 p3 p4 b).1.pt h.npt = p1 ∧
      (h.newOutline p1 p2 p3 p4 b).1.pt (h.npt + 1) = p2 ∧
      (h.newOutline p1 p2 p3 p4 b).1.pt (h.npt + 2) = p3 ∧
      (h.newOutline p1 p2 p3 p4 b).1.pt (h.npt + 3) = p4 := by
    unfold Heap.newOutline
    simp [Heap.newSegC, Heap.newPts, Heap.newPt, Function.update_apply, Nat.add_assoc]
  have h2 : (h.newOutline p1 p2 p3 p4 b).2 = [h.nseg, h.nseg + 1, h.nseg + 2, h.nseg + 3] := rfl
  have hn : (h.newOutline p1 p2 p3 p4 b).1.npt = h.npt + 4 := rfl
  have hm : (h.newOutline p1 p2 p3 p4 b).1.nseg = h.nseg + 4 := rfl
  refine ⟨?_, ?_, ?_, h2⟩
  · unfold Heap.newOutline
    exact ((((h.ext_newPts _).trans (Heap.ext_newSegC _ _ _ _)).trans (Heap.ext_newSegC _ _ _ _)).trans
      (Heap.ext_newSegC _ _ _ _)).trans (Heap.ext_newSegC _ _ _ _)
  · rw [h2]
    unfold Heap.vals outline Heap.val
    simp only [List.map_cons, List.map_nil, hseg.1, hseg.2.1, hseg.2.2.1, hseg.2.2.2, hpt.1, hpt.2.1, hpt.2.2.1,
      hpt.2.2.2]
  · intro s hs
    rw [h2] at hs
    simp only [List.mem_cons, List.not_mem_nil, or_false] at hs
    rcases hs with rfl | rfl | rfl | rfl
    · exact ⟨by omega, by rw [hseg.1, hn]; simp, by rw [hseg.1, hn]; simp⟩
    · exact ⟨by omega, by rw [hseg.2.1, hn]; simp, by rw [hseg.2.1, hn]; simp⟩
    · exact ⟨by omega, by rw [hseg.2.2.1, hn]; simp, by rw [hseg.2.2.1, hn]; simp⟩
    · exact ⟨by omega, by rw [hseg.2.2.2, hn]; simp, by rw [hseg.2.2.2, hn]; simp⟩

theorem walls_of_vals {h : Heap K} {l : List ℕ} : h.vals (h.walls l) = (h.vals l).filter fun s => decide (s.cls = .wall) := by
  unfold Heap.walls Heap.vals
  rw [List.filter_map]
  rfl

end Srep
