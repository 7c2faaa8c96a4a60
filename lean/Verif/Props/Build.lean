import Verif.Props.Hull
import Verif.Props.Purge

/-! Properties of `polygon_from_nodes`, `close`, `isclosed`, `closed_copy`. -/

set_option linter.unusedSectionVars false

namespace Srep
open Rt
variable {K : Type} [Field K] [LinearOrder K] [IsStrictOrderedRing K] [FloorRing K]

theorem cwNodes_cons {α : Type} (a : α) (l : List α) : cwNodes (a :: l) = .ok (a :: l.reverse) := by
  simp [cwNodes]

/-- C36 (cw): the first node stays first, the others are reversed; reordering twice restores the list; an empty
list is an IndexError. -/
theorem C36_cw {α : Type} (a : α) (l : List α) :
    cwNodes (a :: l) = .ok (a :: l.reverse) ∧ (cwNodes (a :: l) >>= cwNodes) = .ok (a :: l) ∧
    cwNodes ([] : List α) = .error .index := by
  refine ⟨cwNodes_cons a l, ?_, rfl⟩
  rw [cwNodes_cons]
  show cwNodes (a :: l.reverse) = _
  rw [cwNodes_cons, List.reverse_reverse]

/-- C36 (objects): the nodes `ns` (after the optional reordering) give one segment less than nodes; segment `k`
runs from the Point of node `k` to the Point of node `k + 1`; the Point objects are new; two segments share a
Point object iff they are consecutive, the end of the first being the start of the second; the polyline is
continuous; no existing object is changed. -/
theorem C36_objects {R : Rt K} (hR : R.IsRounding) (h : Heap K) (nodes ns : List (K × K)) (cw : Bool)
    (hns : (if cw then cwNodes nodes else .ok nodes) = .ok ns) :
    ∃ h' P, R.fromNodesH h nodes cw = .ok (h', P) ∧ P.segs.length = ns.length - 1 ∧ P.purged = false ∧
      (∀ k (hk : k < P.segs.length) (hk' : k + 1 < ns.length),
        h'.val P.segs[k] = ⟨R.mkPt ns[k].1 ns[k].2, R.mkPt ns[k + 1].1 ns[k + 1].2, .line⟩) ∧
      R.isContinuous (h'.vals P.segs) = true ∧
      (∀ k (hk : k < P.segs.length), h.nseg ≤ P.segs[k] ∧ h.npt ≤ (h'.seg P.segs[k]).i ∧
        h.npt ≤ (h'.seg P.segs[k]).j) ∧
      (∀ a b (ha : a < P.segs.length) (hb : b < P.segs.length),
        (P.segs[a] = P.segs[b] ↔ a = b) ∧
        ((h'.seg P.segs[a]).i = (h'.seg P.segs[b]).i ↔ a = b) ∧
        ((h'.seg P.segs[a]).j = (h'.seg P.segs[b]).j ↔ a = b) ∧
        ((h'.seg P.segs[a]).j = (h'.seg P.segs[b]).i ↔ b = a + 1)) ∧
      (∀ p < h.npt, h'.pt p = h.pt p) ∧ ∀ s < h.nseg, h'.seg s = h.seg s := by
  obtain ⟨p1, p2, p3, p4, p5, p6⟩ := Heap.newPts_spec (ns.map fun n => R.mkPt n.1 n.2) h
  obtain ⟨c1, c2, c3, c4, c5, c6⟩ := Heap.newChain_spec (h.newPts (ns.map fun n => R.mkPt n.1 n.2)).2
    (h.newPts (ns.map fun n => R.mkPt n.1 n.2)).1
  have hv := Heap.newChain_vals (h.newPts (ns.map fun n => R.mkPt n.1 n.2)).1
    (h.newPts (ns.map fun n => R.mkPt n.1 n.2)).2
  set h1 := (h.newPts (ns.map fun n => R.mkPt n.1 n.2)).1 with hh1
  set rs := (h.newPts (ns.map fun n => R.mkPt n.1 n.2)).2 with hrs
  have hrl : rs.length = ns.length := by rw [p1]; simp
  have hrk : ∀ k (hk : k < rs.length), rs[k] = h.npt + k := by
    intro k hk
    simp only [p1, List.getElem_range', one_mul]
  have hsl : (h1.newChain rs).2.length = ns.length - 1 := by rw [c1]; simp [hrl]
  have hsk : ∀ k (hk : k < (h1.newChain rs).2.length), (h1.newChain rs).2[k] = h.nseg + k := by
    intro k hk
    simp only [c1, List.getElem_range', one_mul, p4]
  have hseg : ∀ k (hk : k < (h1.newChain rs).2.length),
      (h1.newChain rs).1.seg (h1.newChain rs).2[k] = ⟨h.npt + k, h.npt + k + 1, .line⟩ := by
    intro k hk
    rw [hsk k hk, ← p4, c6 k (by omega), hrk k (by omega), hrk (k + 1) (by omega)]
    rfl
  refine ⟨(h1.newChain rs).1, ⟨(h1.newChain rs).2, false⟩, ?_, hsl, rfl, ?_, ?_, ?_, ?_, ?_, ?_⟩
  · unfold fromNodesH
    rw [hns]
  · intro k hk hk'
    simp only [Heap.val]
    rw [hseg k hk, c3]
    have q1 := p6 k (by rw [List.length_map]; omega)
    have q2 := p6 (k + 1) (by rw [List.length_map]; omega)
    rw [add_assoc, q1, q2]
    simp
  · show R.isContinuous ((h1.newChain rs).1.vals (h1.newChain rs).2) = true
    rw [hv]
    exact chain_isContinuous hR _
  · intro k hk
    rw [hseg k hk, hsk k hk]
    exact ⟨by omega, by simp, by simp; omega⟩
  · intro a b ha hb
    rw [hseg a ha, hseg b hb, hsk a ha, hsk b hb]
    refine ⟨by omega, ?_, ?_, ?_⟩ <;> simp only <;> omega
  · intro p hp
    rw [c3, p5 p hp]
  · intro s hs
    rw [c5 s (by rw [p4]; exact hs), p3]

/-- C36 (fewer than two nodes): the default object of two invalid segments is returned. -/
theorem C36_degenerate (R : Rt K) (nodes : List (K × K)) (l : List (Seg K)) (cw : Bool)
    (hl : R.polygonFromNodes nodes cw = .ok l) :
    polyInit l = none ↔ nodes.length ≤ 1 := by
  unfold polyInit
  have key : ∀ ns : List (K × K), chain (ns.map fun n => R.mkPt n.1 n.2) = [] ↔ ns.length ≤ 1 := by
    intro ns
    rw [← List.length_eq_zero_iff, chain_length', List.length_map]; omega
  unfold polygonFromNodes at hl
  cases cw with
  | false =>
    simp only [Bool.false_eq_true, if_false, Except.ok.injEq] at hl
    rw [← hl, ← key nodes]
    simp
  | true =>
    cases nodes with
    | nil => simp [cwNodes] at hl
    | cons a t =>
      simp only [if_true, cwNodes_cons, Except.ok.injEq] at hl
      rw [← hl, show (a :: t).length = (a :: t.reverse).length by simp, ← key (a :: t.reverse)]
      simp

/-- non-vacuity: three nodes, reordered -/
example : (if true then cwNodes [((0 : ℚ), (0 : ℚ)), (1, 0), (1, 1)] else .ok [(0, 0), (1, 0), (1, 1)]) =
    .ok [(0, 0), (1, 1), (1, 0)] := rfl
example : ∃ l, exRt.polygonFromNodes [(0, 0)] true = .ok l ∧ polyInit l = none := ⟨[], by decide +kernel, rfl⟩

theorem isContinuous_append {R : Rt K} (l : List (Seg K)) (s : Seg K) :
    R.isContinuous (l ++ [s]) = (R.isContinuous l && l.getLast?.all fun t => R.continuous t s) := by
  induction l with
  | nil => rfl
  | cons a l ih =>
    cases l with
    | nil => simp [isContinuous]
    | cons b l =>
      unfold isContinuous at ih ⊢
      simp only [List.cons_append, List.tail_cons, List.zip_cons_cons, List.all_cons] at ih ⊢
      rw [ih, Bool.and_assoc]
      simp [List.getLast?_cons_cons]

/-- C37: `close()` on a continuous open polyline appends exactly one segment, from the last to the first point,
and the result is closed. -/
theorem C37_close_open {R : Rt K} (hR : R.IsRounding) (a : Seg K) (l : List (Seg K))
    (hc : R.isContinuous (a :: l) = true) (ho : R.isClosed (a :: l) = .ok false) :
    ∃ b, (a :: l).getLast? = some b ∧ R.close (a :: l) = .ok ((a :: l) ++ [⟨b.j, a.i, .line⟩]) ∧
      R.isClosed ((a :: l) ++ [⟨b.j, a.i, .line⟩]) = .ok true := by
  obtain ⟨b, hb⟩ : ∃ b, (a :: l).getLast? = some b := ⟨_, List.getLast?_eq_some_getLast (by simp)⟩
  refine ⟨b, hb, ?_, ?_⟩
  · unfold close
    rw [ho]
    simp only [List.head?_cons, hb]
  · unfold isClosed
    rw [isContinuous_append, hc, hb]
    have : R.continuous b ⟨b.j, a.i, .line⟩ = true := C17_chain hR _ _ (Or.inl rfl)
    rw [List.getLast?_append]
    simp only [Option.all_some, this, Bool.and_self, if_true, List.getLast?_singleton,
      Option.some_or, List.cons_append, List.head?_cons]
    simp only [hR.peq_refl]

/-- C37: `close()` on a closed polyline changes nothing. -/
theorem C37_close_closed (R : Rt K) (l : List (Seg K)) (h : R.isClosed l = .ok true) : R.close l = .ok l := by
  unfold close; rw [h]

/-- C37: closing a continuous polyline twice is closing it once. -/
theorem C37_close_twice {R : Rt K} (hR : R.IsRounding) (l l' : List (Seg K)) (hc : R.isContinuous l = true)
    (h : R.close l = .ok l') : R.close l' = .ok l' ∧ R.isClosed l' = .ok true := by
  cases l with
  | nil => simp [close, isClosed, isContinuous] at h
  | cons a l =>
    have hcl : R.isClosed (a :: l) = .ok true ∨ R.isClosed (a :: l) = .ok false := by
      unfold isClosed
      rw [if_pos hc]
      obtain ⟨b, hb⟩ : ∃ b, (a :: l).getLast? = some b := ⟨_, List.getLast?_eq_some_getLast (by simp)⟩
      simp only [List.head?_cons, hb]
      cases R.peq a.i b.j <;> simp
    rcases hcl with h1 | h1
    · rw [C37_close_closed R _ h1] at h
      simp only [Except.ok.injEq] at h
      subst h
      exact ⟨C37_close_closed R _ h1, h1⟩
    · obtain ⟨b, hb, h2, h3⟩ := C37_close_open hR a l hc h1
      rw [h2] at h
      simp only [Except.ok.injEq] at h
      subst h
      exact ⟨C37_close_closed R _ h3, h3⟩

/-- C37: on a polyline that is not continuous `close()` appends a segment every time and never closes it. -/
theorem C37_close_torn (R : Rt K) (l : List (Seg K)) (hc : R.isContinuous l = false) :
    ∃ s, R.close l = .ok (l ++ [s]) ∧ R.isContinuous (l ++ [s]) = false ∧ R.isClosed (l ++ [s]) = .ok false := by
  cases l with
  | nil => simp [isContinuous] at hc
  | cons a l =>
    obtain ⟨b, hb⟩ : ∃ b, (a :: l).getLast? = some b := ⟨_, List.getLast?_eq_some_getLast (by simp)⟩
    have h1 : R.isContinuous ((a :: l) ++ [⟨b.j, a.i, .line⟩]) = false := by
      rw [isContinuous_append, hc, Bool.false_and]
    refine ⟨⟨b.j, a.i, .line⟩, ?_, h1, ?_⟩
    · unfold close isClosed
      rw [if_neg (by rw [hc]; simp)]
      simp only [List.head?_cons, hb]
    · unfold isClosed
      rw [if_neg (by rw [h1]; simp)]

/-- C37 (objects): the appended segment is a new object on the Point objects of the two open ends; nothing else
changes. -/
theorem C37_close_objects (R : Rt K) (h : Heap K) (P : PLine) (a b : ℕ) (ha : P.segs.head? = some a)
    (hb : P.segs.getLast? = some b) (ho : R.isClosed (h.vals P.segs) = .ok false) :
    ∃ h', R.closeH h P = .ok (h', { P with segs := P.segs ++ [h.nseg] }) ∧
      h'.seg h.nseg = ⟨(h.seg b).j, (h.seg a).i, .line⟩ ∧ h'.pt = h.pt ∧ h'.npt = h.npt ∧
      ∀ s < h.nseg, h'.seg s = h.seg s := by
  refine ⟨(h.newSeg (h.seg b).j (h.seg a).i).1, ?_, ?_, rfl, rfl, ?_⟩
  · unfold closeH
    rw [ho]
    simp only [ha, hb, Heap.newSeg]
  · simp [Heap.newSeg]
  · intro s hs
    simp [Heap.newSeg, hs.ne]

theorem deepcopy_val (h : Heap K) (s : ℕ) (hs : s < h.nseg) (hp : (h.seg s).i < h.npt ∧ (h.seg s).j < h.npt) :
    h.deepcopy.val s = h.val s ∧ h.deepcopy.val (s + h.nseg) = h.val s := by
  constructor
  · simp [Heap.deepcopy, Heap.val, hs, hp.1, hp.2]
  · simp [Heap.deepcopy, Heap.val]

/-- C37: `closed_copy` of a polyline whose objects are in memory returns a polyline made of new segment objects
on new Point objects which has the segments of the closed original; all existing objects, in particular those of
the original, are as before. -/
theorem C37_closed_copy (R : Rt K) (h h' : Heap K) (P P' : PLine)
    (hw : ∀ s ∈ P.segs, s < h.nseg ∧ (h.seg s).i < h.npt ∧ (h.seg s).j < h.npt)
    (hr : R.closedCopy h P = .ok (h', P')) :
    R.close (h.vals P.segs) = .ok (h'.vals P'.segs) ∧
    (∀ s ∈ P'.segs, h.nseg ≤ s ∧ h.npt ≤ (h'.seg s).i ∧ h.npt ≤ (h'.seg s).j) ∧
    (∀ p < h.npt, h'.pt p = h.pt p) ∧ ∀ s < h.nseg, h'.seg s = h.seg s := by
  have hvals : h.deepcopy.vals (P.segs.map (· + h.nseg)) = h.vals P.segs := by
    unfold Heap.vals
    rw [List.map_map]
    apply List.map_congr_left
    intro s hs
    exact (deepcopy_val h s (hw s hs).1 (hw s hs).2).2
  have hnew : ∀ s ∈ P.segs.map (· + h.nseg), h.nseg ≤ s ∧ h.npt ≤ (h.deepcopy.seg s).i ∧
      h.npt ≤ (h.deepcopy.seg s).j := by
    intro s hs
    rw [List.mem_map] at hs
    obtain ⟨t, ht, rfl⟩ := hs
    simp [Heap.deepcopy]
  unfold closedCopy at hr
  cases hc : R.isClosed (h.vals P.segs) with
  | error e => rw [hc] at hr; simp at hr
  | ok c =>
    rw [hc] at hr
    cases c with
    | true =>
      simp only [Except.ok.injEq, Prod.mk.injEq] at hr
      obtain ⟨rfl, rfl⟩ := hr
      refine ⟨?_, hnew, ?_, ?_⟩
      · rw [C37_close_closed R _ hc, hvals]
      · intro p hp; simp [Heap.deepcopy, hp]
      · intro s hs; simp [Heap.deepcopy, hs]
    | false =>
      simp only at hr
      cases hh : P.segs with
      | nil =>
        rw [hh] at hc
        simp [isClosed, isContinuous, Heap.vals] at hc
      | cons a l =>
        obtain ⟨b, hb⟩ : ∃ b, (a :: l).getLast? = some b := ⟨_, List.getLast?_eq_some_getLast (by simp)⟩
        have ha' : (P.segs.map (· + h.nseg)).head? = some (a + h.nseg) := by rw [hh]; rfl
        have hb' : (P.segs.map (· + h.nseg)).getLast? = some (b + h.nseg) := by
          rw [hh, List.getLast?_map, hb]; rfl
        obtain ⟨h2, e, hs, hp, -, hold⟩ := C37_close_objects R h.deepcopy
          { P with segs := P.segs.map (· + h.nseg) } _ _ ha' hb' (by rw [hvals]; exact hc)
        rw [e] at hr
        simp only [Except.ok.injEq, Prod.mk.injEq] at hr
        obtain ⟨rfl, rfl⟩ := hr
        have hlt : ∀ s ∈ P.segs.map (· + h.nseg), s < h.deepcopy.nseg := by
          intro s hs
          rw [List.mem_map] at hs
          obtain ⟨t, ht, rfl⟩ := hs
          have := (hw t ht).1
          simp only [Heap.deepcopy]; omega
        refine ⟨?_, ?_, ?_, ?_⟩
        · have hlv : (h.vals P.segs).head? = some (h.val a) := by rw [hh]; rfl
          have hbv : (h.vals P.segs).getLast? = some (h.val b) := by
            unfold Heap.vals; rw [hh, List.getLast?_map, hb]; rfl
          unfold close
          rw [← hh, hc]
          simp only [hlv, hbv, Except.ok.injEq]
          unfold Heap.vals at hvals ⊢
          rw [List.map_append]
          congr 1
          · rw [← hvals]
            apply List.map_congr_left
            intro s hs'
            unfold Heap.val
            rw [hold s (hlt s hs'), hp]
          · simp only [List.map_cons, List.map_nil]
            unfold Heap.val
            rw [hs, hp]
            simp [Heap.deepcopy]
        · intro s hs'
          simp only [List.mem_append, List.mem_singleton] at hs'
          rcases hs' with hs' | rfl
          · rw [hold s (hlt s hs')]
            exact hnew s hs'
          · rw [hs]
            refine ⟨by simp [Heap.deepcopy], ?_, ?_⟩ <;> simp [Heap.deepcopy]
        · intro p hp'
          rw [hp]; simp [Heap.deepcopy, hp']
        · intro s hs'
          rw [hold s (by simp only [Heap.deepcopy]; omega)]
          simp [Heap.deepcopy, hs']

/-- non-vacuity: an open path of two segments is closed by a third -/
example : exRt.isContinuous [exSeg 0 0 1 0, exSeg 1 0 1 1] = true ∧
    exRt.isClosed [exSeg 0 0 1 0, exSeg 1 0 1 1] = .ok false := by decide +kernel
example : exRt.isContinuous [exSeg 0 0 1 0, exSeg 3 0 4 1] = false := by decide +kernel
example : ∀ s ∈ [0, 1, 2], s < exTriangle.nseg ∧ (exTriangle.seg s).i < exTriangle.npt ∧
    (exTriangle.seg s).j < exTriangle.npt := by decide

/-- C38: for all points A, B, C the open path [B→C, A→B] reports closed. -/
theorem C38_open_path_closed {R : Rt K} (hR : R.IsRounding) (A B C : Pt K) :
    R.isClosed [⟨B, C, .line⟩, ⟨A, B, .line⟩] = .ok true := by
  unfold isClosed isContinuous
  simp [C17_chain hR ⟨B, C, .line⟩ ⟨A, B, .line⟩ (Or.inr rfl), hR.peq_refl]

/-- C38: so `isclosed` does not imply that the segments can be read as a cycle. -/
theorem C38_not_a_cycle : ∃ l : List (Seg ℚ), exRt.isClosed l = .ok true ∧
    ¬ ∀ k (hk : k < l.length), l[k].j = (l[(k + 1) % l.length]'(Nat.mod_lt _ (by omega))).i :=
  ⟨[exSeg 1 0 2 5, exSeg 0 0 1 0], C38_open_path_closed exRt_isRounding ⟨0, 0⟩ ⟨1, 0⟩ ⟨2, 5⟩, fun h =>
    absurd (h 0 (by simp)) (by decide +kernel)⟩

/-- C38: if consecutive segments are joined head to tail then `isclosed` says whether the first point equals the
last one. -/
theorem C38_head_to_tail {R : Rt K} (hR : R.IsRounding) (l : List (Seg K)) (hne : l ≠ [])
    (h : ∀ k (hk : k + 1 < l.length), l[k].j = l[k + 1].i) :
    R.isClosed l = .ok (R.peq (l.head hne).i (l.getLast hne).j) := by
  have hc : R.isContinuous l = true := by
    unfold isContinuous
    rw [List.all_eq_true]
    intro p hp
    obtain ⟨k, hk, e⟩ := List.getElem_of_mem hp
    rw [List.length_zip, List.length_tail] at hk
    rw [List.getElem_zip, List.getElem_tail] at e
    rw [← e]
    exact C17_chain hR _ _ (Or.inl (h k (by omega)))
  unfold isClosed
  rw [if_pos hc, List.head?_eq_some_head hne, List.getLast?_eq_some_getLast hne]

/-- C38: with separated points (exact arithmetic) it is closed iff the last end is the first start. -/
theorem C38_head_to_tail_exact {R : Rt K} (hE : R.IsExact) (l : List (Seg K)) (hne : l ≠ [])
    (h : ∀ k (hk : k + 1 < l.length), l[k].j = l[k + 1].i)
    (hap : Apart (1 / 10 ^ 5) {(l.head hne).i, (l.getLast hne).j}) :
    R.isClosed l = .ok true ↔ (l.head hne).i = (l.getLast hne).j := by
  rw [C38_head_to_tail hE.isRounding l hne h, Except.ok.injEq, hE.peq_iff]
  constructor
  · intro hc
    by_contra he
    rcases hap _ (by simp) _ (by simp) he with h | h
    · exact absurd hc.1 (not_lt.2 h)
    · exact absurd hc.2 (not_lt.2 h)
  · intro e; rw [e]; simp

example : ∀ k (hk : k + 1 < [exSeg 0 0 1 0, exSeg 1 0 1 1, exSeg 1 1 0 0].length),
    [exSeg 0 0 1 0, exSeg 1 0 1 1, exSeg 1 1 0 0][k].j = [exSeg 0 0 1 0, exSeg 1 0 1 1, exSeg 1 1 0 0][k + 1].i := by
  intro k hk
  have : k = 0 ∨ k = 1 := by simp at hk; omega
  rcases this with rfl | rfl <;> rfl

end Srep
