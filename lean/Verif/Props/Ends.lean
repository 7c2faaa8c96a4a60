import Verif.Model.Ends
import Verif.Props.Build

/-! Properties of `first_point`, `last_point`, `isopen` and of building a polyline by appending points. -/

set_option linter.unusedSectionVars false

namespace Srep
open Rt
variable {K : Type} [Field K] [LinearOrder K] [IsStrictOrderedRing K] [FloorRing K]

/-- C136: without segments the accessors, `isopen`, `close` and both ways of appending raise an IndexError. -/
theorem C136_empty (R : Rt K) (h : Heap K) (b : Bool) (p : ℕ) :
    PLine.firstSegment ⟨[], b⟩ = .error .index ∧ PLine.lastSegment ⟨[], b⟩ = .error .index ∧
    h.firstPoint ⟨[], b⟩ = .error .index ∧ h.lastPoint ⟨[], b⟩ = .error .index ∧ R.isOpen [] = .error .index ∧
    R.closeH h ⟨[], b⟩ = .error .index ∧ appendEnd h ⟨[], b⟩ p = .error .index ∧ appendBegin h ⟨[], b⟩ p = .error .index := by
  refine ⟨rfl, rfl, rfl, rfl, ?_, ?_, rfl, rfl⟩
  · simp [isOpen, isClosed, isContinuous]
  · simp [closeH, isClosed, isContinuous, Heap.vals]

/-- C136: with segments `isopen` never raises; it is `False` exactly if every two consecutive segments are continuous and the first
point is == the last point. -/
theorem C136_open (R : Rt K) (h : Heap K) (P : PLine) (hne : P.segs ≠ []) :
    ∃ f l o, h.firstPoint P = .ok f ∧ h.lastPoint P = .ok l ∧ R.isOpen (h.vals P.segs) = .ok o ∧
      (o = false ↔ R.isContinuous (h.vals P.segs) = true ∧ R.peq (h.pt f) (h.pt l) = true) := by
  obtain ⟨a, ha⟩ : ∃ a, P.segs.head? = some a := ⟨_, List.head?_eq_some_head hne⟩
  obtain ⟨b, hb⟩ : ∃ b, P.segs.getLast? = some b := ⟨_, List.getLast?_eq_some_getLast hne⟩
  have ha' : (h.vals P.segs).head? = some (h.val a) := by simp [Heap.vals, ha]
  have hb' : (h.vals P.segs).getLast? = some (h.val b) := by simp [Heap.vals, hb]
  refine ⟨(h.seg a).i, (h.seg b).j, !(R.isContinuous (h.vals P.segs) && R.peq (h.pt (h.seg a).i) (h.pt (h.seg b).j)), ?_, ?_, ?_, ?_⟩
  · simp [Heap.firstPoint, PLine.firstSegment, ha]
  · simp [Heap.lastPoint, PLine.lastSegment, hb]
  · unfold isOpen isClosed
    rw [ha', hb']
    cases R.isContinuous (h.vals P.segs) <;> simp [Heap.val]
  · simp

/-- C136: appending at the end: the new last point is the Point given (the same object), the first point stays, one plain segment
from the former last point is added, nothing else changes, and a continuous polyline stays continuous. -/
theorem C136_end {R : Rt K} (hR : R.IsRounding) (h : Heap K) (P : PLine) (hw : ∀ s ∈ P.segs, s < h.nseg) {l : ℕ}
    (hl : h.lastPoint P = .ok l) (p : ℕ) :
    ∃ h' P', appendEnd h P p = .ok (h', P') ∧ h'.lastPoint P' = .ok p ∧ h'.firstPoint P' = h.firstPoint P ∧
      h'.vals P'.segs = h.vals P.segs ++ [⟨h.pt l, h.pt p, .line⟩] ∧ P'.purged = P.purged ∧ h'.pt = h.pt ∧ h'.npt = h.npt ∧
      (∀ s < h.nseg, h'.seg s = h.seg s) ∧ (∀ s ∈ P'.segs, s < h'.nseg) ∧
      R.isContinuous (h'.vals P'.segs) = R.isContinuous (h.vals P.segs) := by
  obtain ⟨b, hb⟩ : ∃ b, P.segs.getLast? = some b := by
    cases e : P.segs.getLast? with
    | none => simp [Heap.lastPoint, PLine.lastSegment, e] at hl
    | some b => exact ⟨b, rfl⟩
  have hl' : (h.seg b).j = l := by simpa [Heap.lastPoint, PLine.lastSegment, hb] using hl
  have hold : ∀ s < h.nseg, (h.newSeg l p).1.seg s = h.seg s := by
    intro s hs; simp [Heap.newSeg, Function.update_apply, hs.ne]
  have hv : (h.newSeg l p).1.vals (P.segs ++ [h.nseg]) = h.vals P.segs ++ [⟨h.pt l, h.pt p, .line⟩] := by
    unfold Heap.vals
    rw [List.map_append]
    congr 1
    · refine List.map_congr_left fun s hs => ?_
      unfold Heap.val
      rw [hold s (hw s hs)]
      rfl
    · simp [Heap.val, Heap.newSeg]
  obtain ⟨a, ha⟩ : ∃ a, P.segs.head? = some a := by
    cases e : P.segs with
    | nil => rw [e] at hb; cases hb
    | cons a t => exact ⟨a, rfl⟩
  have ham : a ∈ P.segs := List.mem_of_head? ha
  refine ⟨(h.newSeg l p).1, { P with segs := P.segs ++ [h.nseg] }, ?_, ?_, ?_, hv, rfl, rfl, rfl, hold, ?_, ?_⟩
  · simp [appendEnd, hb, hl', Heap.newSeg]
  · simp [Heap.lastPoint, PLine.lastSegment, Heap.newSeg]
  · simp [Heap.firstPoint, PLine.firstSegment, ha, hold a (hw a ham)]
  · intro s hs
    rcases List.mem_append.1 hs with hs | hs
    · exact Nat.lt_succ_of_lt (hw s hs)
    · rw [List.mem_singleton.1 hs]; exact Nat.lt_succ_self _
  · rw [hv, isContinuous_append]
    have e : (h.vals P.segs).getLast? = some (h.val b) := by simp [Heap.vals, hb]
    rw [e, Option.all_some, C17_chain hR _ _ (Or.inl (by simp [Heap.val, hl'])), Bool.and_true]

/-- C136: appending at the beginning, likewise -/
theorem C136_begin {R : Rt K} (hR : R.IsRounding) (h : Heap K) (P : PLine) (hw : ∀ s ∈ P.segs, s < h.nseg) {f : ℕ}
    (hf : h.firstPoint P = .ok f) (p : ℕ) :
    ∃ h' P', appendBegin h P p = .ok (h', P') ∧ h'.firstPoint P' = .ok p ∧ h'.lastPoint P' = h.lastPoint P ∧
      h'.vals P'.segs = ⟨h.pt p, h.pt f, .line⟩ :: h.vals P.segs ∧ P'.purged = P.purged ∧ h'.pt = h.pt ∧ h'.npt = h.npt ∧
      (∀ s < h.nseg, h'.seg s = h.seg s) ∧ (∀ s ∈ P'.segs, s < h'.nseg) ∧
      R.isContinuous (h'.vals P'.segs) = R.isContinuous (h.vals P.segs) := by
  obtain ⟨a, t, hat⟩ : ∃ a t, P.segs = a :: t := by
    cases e : P.segs with
    | nil => simp [Heap.firstPoint, PLine.firstSegment, e] at hf
    | cons a t => exact ⟨a, t, rfl⟩
  have hf' : (h.seg a).i = f := by simpa [Heap.firstPoint, PLine.firstSegment, hat] using hf
  have hold : ∀ s < h.nseg, (h.newSeg p f).1.seg s = h.seg s := by
    intro s hs; simp [Heap.newSeg, Function.update_apply, hs.ne]
  have hv : (h.newSeg p f).1.vals (h.nseg :: P.segs) = ⟨h.pt p, h.pt f, .line⟩ :: h.vals P.segs := by
    unfold Heap.vals
    rw [List.map_cons]
    congr 1
    · simp [Heap.val, Heap.newSeg]
    · refine List.map_congr_left fun s hs => ?_
      unfold Heap.val
      rw [hold s (hw s hs)]
      rfl
  obtain ⟨b, hb⟩ : ∃ b, P.segs.getLast? = some b := ⟨_, List.getLast?_eq_some_getLast (by simp [hat])⟩
  have hbm : b ∈ P.segs := List.mem_of_getLast? hb
  refine ⟨(h.newSeg p f).1, { P with segs := h.nseg :: P.segs }, ?_, ?_, ?_, hv, rfl, rfl, rfl, hold, ?_, ?_⟩
  · simp [appendBegin, hat, hf', Heap.newSeg]
  · simp [Heap.firstPoint, PLine.firstSegment, Heap.newSeg]
  · simp [Heap.lastPoint, PLine.lastSegment, List.getLast?_cons, hb, hold b (hw b hbm)]
  · intro s hs
    rcases List.mem_cons.1 hs with rfl | hs
    · exact Nat.lt_succ_self _
    · exact Nat.lt_succ_of_lt (hw s hs)
  · rw [hv, hat]
    have : R.continuous ⟨h.pt p, h.pt f, .line⟩ (h.val a) = true := C17_chain hR _ _ (Or.inl (by simp [Heap.val, hf']))
    simp [isContinuous, Heap.vals, this]

/-- C136: closing an open polyline is appending its own first point at the end. -/
theorem C136_close (R : Rt K) (h : Heap K) (P : PLine) {f : ℕ} (hf : h.firstPoint P = .ok f)
    (ho : R.isOpen (h.vals P.segs) = .ok true) : R.closeH h P = appendEnd h P f := by
  have hc : R.isClosed (h.vals P.segs) = .ok false := by
    unfold isOpen at ho
    cases e : R.isClosed (h.vals P.segs) with
    | error x => rw [e] at ho; cases ho
    | ok b => rw [e] at ho; cases b <;> simp_all
  obtain ⟨a, t, hat⟩ : ∃ a t, P.segs = a :: t := by
    cases e : P.segs with
    | nil => simp [Heap.firstPoint, PLine.firstSegment, e] at hf
    | cons a t => exact ⟨a, t, rfl⟩
  have hf' : (h.seg a).i = f := by simpa [Heap.firstPoint, PLine.firstSegment, hat] using hf
  obtain ⟨b, hb⟩ : ∃ b, P.segs.getLast? = some b := ⟨_, List.getLast?_eq_some_getLast (by simp [hat])⟩
  unfold closeH appendEnd
  rw [hc]
  simp only [hb]
  rw [show P.segs.head? = some a by rw [hat]; rfl]
  simp [hf']

/-- C136: appending any number of Points one after the other: the segments added join the former last point and the Points in this
order, the last Point is the new last point, and a continuous polyline stays continuous. -/
theorem C136_build {R : Rt K} (hR : R.IsRounding) (ps : List ℕ) (h : Heap K) (P : PLine) (hw : ∀ s ∈ P.segs, s < h.nseg) {l : ℕ}
    (hl : h.lastPoint P = .ok l) :
    ∃ h' P', R.appendAll h P ps = .ok (h', P') ∧ h'.firstPoint P' = h.firstPoint P ∧
      h'.lastPoint P' = .ok ((l :: ps).getLast (by simp)) ∧ h'.pt = h.pt ∧ P'.purged = P.purged ∧
      (∀ s ∈ P'.segs, s < h'.nseg) ∧
      h'.vals P'.segs = h.vals P.segs ++ List.zipWith (fun a b => ⟨h.pt a, h.pt b, .line⟩) (l :: ps) ps ∧
      R.isContinuous (h'.vals P'.segs) = R.isContinuous (h.vals P.segs) := by
  induction ps generalizing h P l with
  | nil => exact ⟨h, P, rfl, rfl, by simpa using hl, rfl, rfl, hw, by simp, rfl⟩
  | cons p ps ih =>
    obtain ⟨h1, P1, e1, l1, f1, v1, u1, q1, -, -, w1, c1⟩ := C136_end hR h P hw hl p
    obtain ⟨h2, P2, e2, f2, l2, q2, u2, w2, v2, c2⟩ := ih h1 P1 w1 l1
    refine ⟨h2, P2, ?_, f2.trans f1, ?_, q2.trans q1, u2.trans u1, w2, ?_, c2.trans c1⟩
    · simp only [appendAll, e1]; exact e2
    · rw [l2]; simp
    · rw [v2, v1, q1]; simp

/-- C136: a polyline that starts with one segment, gets further Points appended and is then closed reports to be closed. -/
theorem C136_built {R : Rt K} (hR : R.IsRounding) (ps : List ℕ) (h : Heap K) (s : ℕ) (hs : s < h.nseg) (b : Bool) :
    ∃ h' P' h'' P'', R.appendAll h ⟨[s], b⟩ ps = .ok (h', P') ∧ R.closeH h' P' = .ok (h'', P'') ∧
      R.isOpen (h''.vals P''.segs) = .ok false ∧ (P''.segs.length = ps.length + 1 ∨ P''.segs.length = ps.length + 2) := by
  obtain ⟨h', P', e, f, l, -, -, hw, v, c⟩ := C136_build hR ps h ⟨[s], b⟩ (by simpa using hs) (l := (h.seg s).j) rfl
  have hc : R.isContinuous (h'.vals P'.segs) = true := by rw [c]; simp [isContinuous, Heap.vals]
  have hlen : P'.segs.length = ps.length + 1 := by
    have := congrArg List.length v
    simp [Heap.vals] at this
    omega
  have hne : P'.segs ≠ [] := by intro e; rw [e] at hlen; simp at hlen
  obtain ⟨a, z, o, ha, hz, ho, hio⟩ := C136_open R h' P' hne
  cases o with
  | false =>
    have hcl : R.isClosed (h'.vals P'.segs) = .ok true := by
      unfold isOpen at ho
      cases e : R.isClosed (h'.vals P'.segs) with
      | error x => rw [e] at ho; cases ho
      | ok b => rw [e] at ho; cases b <;> simp_all
    refine ⟨h', P', h', P', e, ?_, ho, Or.inl hlen⟩
    unfold closeH
    rw [hcl]
  | true =>
    obtain ⟨h2, P2, e2, l2, f2, v2, -, q2, -, -, -, c2⟩ := C136_end hR h' P' hw hz a
    refine ⟨h', P', h2, P2, e, (C136_close R h' P' ha ho).trans e2, ?_, Or.inr ?_⟩
    · have hne2 : P2.segs ≠ [] := by
        intro e
        rw [e] at v2
        simp [Heap.vals] at v2
      obtain ⟨a', z', o', ha', hz', ho', hio'⟩ := C136_open R h2 P2 hne2
      rw [ho']
      rw [f2, ha] at ha'
      rw [l2] at hz'
      cases ha'; cases hz'
      rw [hio'.2 ⟨c2.trans hc, hR.peq_refl _⟩]
    · have := congrArg List.length v2
      simp [Heap.vals] at this
      omega

/-! ### example: one segment, two further Points -/

/-- four Point objects on the corners of a rectangle, one segment from the first to the second -/
def endsHeap : Heap ℚ :=
  ⟨fun k => if k = 0 then ⟨0, 0⟩ else if k = 1 then ⟨4, 0⟩ else if k = 2 then ⟨4, 3⟩ else ⟨0, 3⟩, fun _ => ⟨0, 1, .line⟩, 4, 1⟩

example : (0 < endsHeap.nseg) ∧ endsHeap.lastPoint ⟨[0], false⟩ = .ok 1 ∧ endsHeap.firstPoint ⟨[0], false⟩ = .ok 0 ∧
    ∃ h' P', exRt.appendAll endsHeap ⟨[0], false⟩ [2, 3] = .ok (h', P') ∧ h'.lastPoint P' = .ok 3 ∧
      h'.vals P'.segs = [⟨⟨0, 0⟩, ⟨4, 0⟩, .line⟩, ⟨⟨4, 0⟩, ⟨4, 3⟩, .line⟩, ⟨⟨4, 3⟩, ⟨0, 3⟩, .line⟩] ∧
      exRt.isOpen (h'.vals P'.segs) = .ok true := by
  refine ⟨by decide, rfl, rfl, _, _, rfl, rfl, ?_, ?_⟩
  · simp [Heap.vals, Heap.val, endsHeap, Heap.newSeg, Function.update_apply]
  · decide +kernel

end Srep
