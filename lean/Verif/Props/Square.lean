import Verif.Props.Build
import Verif.Props.Hull
import Verif.Props.Winding

/-! Properties of `add` and `square`. -/

set_option linter.unusedSectionVars false

namespace Srep
open Rt
variable {K : Type} [Field K] [LinearOrder K] [IsStrictOrderedRing K] [FloorRing K]

/-! ### C62 -/

/-- the checks before the addition pass: all operands are valid, and self or some other is open -/
def AddChecks (R : Rt K) (h : Heap K) (P : PLine) (Qs : List PLine) : Prop :=
  R.plValid (h.vals P.segs) = true ∧ (∀ Q ∈ Qs, R.plValid (h.vals Q.segs) = true) ∧
  ¬ (R.isClosed (h.vals P.segs) = .ok true ∧ ∀ Q ∈ Qs, R.isClosed (h.vals Q.segs) = .ok true)

/-- C62: if the checks fail nothing changes and an AssertionError is raised; else self is extended in place by the
segment objects of the others, whether or not the call succeeds; the result, if any, has just these segment objects
and is valid. -/
theorem C62_mutates (R : Rt K) (h : Heap K) (P : PLine) (Qs : List PLine) :
    (¬ AddChecks R h P Qs → R.addH h P Qs = (h, P, .error .assertion)) ∧
    (AddChecks R h P Qs →
      (R.addH h P Qs).2.1 = ⟨P.segs ++ Qs.flatMap PLine.segs, P.purged⟩ ∧
      ((R.addH h P Qs).2.2 = .error .assertion ∨
        ∃ S, (R.addH h P Qs).2.2 = .ok S ∧ S.segs = P.segs ++ Qs.flatMap PLine.segs ∧ S.purged = true ∧
          R.plValid ((R.addH h P Qs).1.vals S.segs) = true)) := by
  have hpu : ∀ l : List ℕ, (R.purge h ⟨l, false⟩).2 = ⟨l, true⟩ := by
    intro l
    unfold Rt.purge
    simp only [Bool.false_eq_true, if_false]
    split_ifs <;> rfl
  unfold AddChecks addH
  constructor
  · intro hn
    split_ifs with h1 h2
    · rfl
    · rfl
    · exfalso
      apply hn
      simp only [Bool.not_eq_true', Bool.not_eq_false, Bool.and_eq_true, List.all_eq_true] at h1
      refine ⟨h1.1, h1.2, ?_⟩
      rintro ⟨a, b⟩
      exact h2 ⟨a, by simpa [List.all_eq_true] using b⟩
  · rintro ⟨a, b, c⟩
    rw [if_neg (by simp only [a, Bool.true_and, Bool.not_eq_true', Bool.not_eq_false, List.all_eq_true]; exact b),
      if_neg (by
        rintro ⟨d, e⟩
        exact c ⟨d, by simpa [List.all_eq_true] using e⟩)]
    dsimp only
    split_ifs with h3
    · refine ⟨rfl, Or.inr ⟨_, rfl, ?_, ?_, h3⟩⟩
      · rw [hpu]
      · rw [hpu]
    · exact ⟨rfl, Or.inl rfl⟩

/-- C62: for separated points and no null segments the call succeeds exactly when the concatenation of the segment
lists is valid as it stands; no connecting segment is inserted. -/
theorem C62_no_connection {R : Rt K} (hR : R.IsRounding) (h : Heap K) (P : PLine) (Qs : List PLine)
    (hc : AddChecks R h P Qs) (hap : Apart R.tol (locs h (P.segs ++ Qs.flatMap PLine.segs)))
    (hnull : ∀ s ∈ P.segs ++ Qs.flatMap PLine.segs, (h.val s).i ≠ (h.val s).j) :
    ((∃ S, (R.addH h P Qs).2.2 = .ok S) ↔ R.plValid (h.vals (P.segs ++ Qs.flatMap PLine.segs)) = true) ∧
    (∀ S, (R.addH h P Qs).2.2 = .ok S →
      (R.addH h P Qs).1.vals S.segs = h.vals (P.segs ++ Qs.flatMap PLine.segs) ∧
      SharesPoints (R.addH h P Qs).1 S.segs) := by
  obtain ⟨c1, c2, c3, c4, c5, c6, c7, c8⟩ :=
    C45_purge hR h ⟨P.segs ++ Qs.flatMap PLine.segs, false⟩ rfl hap hnull
  have hv : (R.purge h ⟨P.segs ++ Qs.flatMap PLine.segs, false⟩).1.vals (P.segs ++ Qs.flatMap PLine.segs) =
      h.vals (P.segs ++ Qs.flatMap PLine.segs) := List.map_congr_left fun s _ => c6 s
  obtain ⟨a, b, c⟩ := hc
  unfold addH
  rw [if_neg (by simp only [a, Bool.true_and, Bool.not_eq_true', Bool.not_eq_false, List.all_eq_true]; exact b),
    if_neg (by
      rintro ⟨d, e⟩
      exact c ⟨d, by simpa [List.all_eq_true] using e⟩)]
  simp only [c2, hv]
  split_ifs with h3
  · refine ⟨⟨fun _ => h3, fun _ => ⟨_, rfl⟩⟩, ?_⟩
    intro S hS
    simp only [Except.ok.injEq] at hS
    subst hS
    exact ⟨hv, c1⟩
  · refine ⟨⟨?_, ?_⟩, ?_⟩
    · rintro ⟨S, hS⟩; simp at hS
    · intro hx; exact absurd hx (by simpa using h3)
    · intro S hS; simp at hS

/-- C62: if the last segment of self and the first segment of the first other do not meet, the call raises
AssertionError, and self has been extended nevertheless. -/
theorem C62_gap {R : Rt K} (hR : R.IsRounding) (h : Heap K) (P Q : PLine) (Qs : List PLine)
    (hc : AddChecks R h P (Q :: Qs)) (hap : Apart R.tol (locs h (P.segs ++ (Q :: Qs).flatMap PLine.segs)))
    (hnull : ∀ s ∈ P.segs ++ (Q :: Qs).flatMap PLine.segs, (h.val s).i ≠ (h.val s).j)
    (a b : ℕ) (ha : P.segs.getLast? = some a) (hb : Q.segs.head? = some b)
    (hg : (h.val a).j ≠ (h.val b).i ∧ (h.val a).i ≠ (h.val b).j) :
    (R.addH h P (Q :: Qs)).2.2 = .error .assertion ∧
    (R.addH h P (Q :: Qs)).2.1.segs = P.segs ++ Q.segs ++ Qs.flatMap PLine.segs := by
  have hsep := sep_of_locs hR hap
  obtain ⟨m1, m2⟩ := (C62_mutates R h P (Q :: Qs)).2 hc
  refine ⟨?_, by rw [m1]; simp⟩
  rcases m2 with m2 | ⟨S, hS, -⟩
  · exact m2
  exfalso
  have hv := (C62_no_connection hR h P (Q :: Qs) hc hap hnull).1.1 ⟨S, hS⟩
  have hcont := ((C63_valid R _).2.1 hv).1
  rw [isContinuous_iff] at hcont
  obtain ⟨xs, hxs⟩ : ∃ xs, P.segs = xs ++ [a] := by
    rw [List.getLast?_eq_some_iff] at ha; exact ha
  obtain ⟨ys, hys⟩ : ∃ ys, Q.segs = b :: ys := by
    rw [List.head?_eq_some_iff] at hb; exact hb
  have hl : P.segs ++ (Q :: Qs).flatMap PLine.segs = xs ++ (a :: b :: (ys ++ Qs.flatMap PLine.segs)) := by
    rw [List.flatMap_cons, hxs, hys]; simp
  have := hcont xs.length (by unfold Heap.vals; rw [List.length_map, hl]; simp)
  unfold Heap.vals at this
  simp only [List.getElem_map, hl] at this
  rw [List.getElem_append_right (by omega), List.getElem_append_right (by omega)] at this
  simp only [Nat.sub_self, List.getElem_cons_zero, Nat.add_sub_cancel_left, List.getElem_cons_succ] at this
  unfold Rt.continuous at this
  rw [Bool.and_eq_true, Bool.or_eq_true] at this
  have ma : a ∈ P.segs ++ (Q :: Qs).flatMap PLine.segs := by rw [hl]; simp
  have mb : b ∈ P.segs ++ (Q :: Qs).flatMap PLine.segs := by rw [hl]; simp
  have me : ∀ s ∈ P.segs ++ (Q :: Qs).flatMap PLine.segs,
      (h.val s).i ∈ endPts (h.vals (P.segs ++ (Q :: Qs).flatMap PLine.segs)) ∧
      (h.val s).j ∈ endPts (h.vals (P.segs ++ (Q :: Qs).flatMap PLine.segs)) := by
    intro s hs
    rw [mem_endPts', mem_endPts']
    exact ⟨⟨h.val s, List.mem_map_of_mem hs, Or.inl rfl⟩, ⟨h.val s, List.mem_map_of_mem hs, Or.inr rfl⟩⟩
  rcases this.2 with h' | h'
  · exact hg.1 ((Sep.peq_iff hR hsep (me a ma).2 (me b mb).1).1 h')
  · exact hg.2 ((Sep.peq_iff hR hsep (me a ma).1 (me b mb).2).1 h')

/-- three segments from (0,0) to (1,0), from (1,0) to (1,1), and from (5,5) to (6,5), on six different Point objects -/
def exAdd : Heap ℚ :=
  ⟨fun p => exRt.mkPt ([0, 1, 1, 1, 5, 6].getD p 0) ([0, 0, 0, 1, 5, 5].getD p 0),
    fun s => ⟨2 * s, 2 * s + 1, .line⟩, 6, 3⟩

/-- non-vacuity: a successful addition and one with a gap -/
example : AddChecks exRt exAdd ⟨[0], false⟩ [⟨[1], false⟩] ∧ AddChecks exRt exAdd ⟨[0], false⟩ [⟨[2], false⟩] ∧
    (exRt.addH exAdd ⟨[0], false⟩ [⟨[1], false⟩]).2 = (⟨[0, 1], false⟩, .ok ⟨[0, 1], true⟩) ∧
    (exRt.addH exAdd ⟨[0], false⟩ [⟨[2], false⟩]).2 = (⟨[0, 2], false⟩, .error .assertion) := by
  unfold AddChecks
  decide +kernel

/-! ### C64 -/

theorem fromNodesH_vals (R : Rt K) (h : Heap K) (nodes ns : List (K × K)) (cw : Bool)
    (hns : (if cw then cwNodes nodes else .ok nodes) = .ok ns) :
    ∃ h', R.fromNodesH h nodes cw = .ok (h', ⟨List.range' h.nseg (ns.length - 1), false⟩) ∧
      h'.nseg = h.nseg + (ns.length - 1) ∧ h'.npt = h.npt + ns.length ∧
      h'.vals (List.range' h.nseg (ns.length - 1)) = chain (ns.map fun n => R.mkPt n.1 n.2) ∧
      (∀ p < h.npt, h'.pt p = h.pt p) ∧ (∀ s < h.nseg, h'.seg s = h.seg s) ∧
      ∀ s ∈ List.range' h.nseg (ns.length - 1), h.npt ≤ (h'.seg s).i ∧ h.npt ≤ (h'.seg s).j := by
  obtain ⟨p1, p2, p3, p4, p5, p6⟩ := Heap.newPts_spec (ns.map fun n => R.mkPt n.1 n.2) h
  obtain ⟨c1, c2, c3, c4, c5, c6⟩ := Heap.newChain_spec (h.newPts (ns.map fun n => R.mkPt n.1 n.2)).2
    (h.newPts (ns.map fun n => R.mkPt n.1 n.2)).1
  have hv := Heap.newChain_vals (h.newPts (ns.map fun n => R.mkPt n.1 n.2)).1
    (h.newPts (ns.map fun n => R.mkPt n.1 n.2)).2
  set h1 := (h.newPts (ns.map fun n => R.mkPt n.1 n.2)).1 with hh1
  set rs := (h.newPts (ns.map fun n => R.mkPt n.1 n.2)).2 with hrs
  have hrl : rs.length = ns.length := by rw [p1]; simp
  have hsegs : (h1.newChain rs).2 = List.range' h.nseg (ns.length - 1) := by rw [c1, hrl, p4]
  refine ⟨(h1.newChain rs).1, ?_, ?_, ?_, ?_, ?_, ?_, ?_⟩
  · unfold fromNodesH
    rw [hns]
    simp only
    rw [← hsegs]
  · rw [c2, hrl, p4]
  · rw [c4, p2, List.length_map]
  · rw [← hsegs, hv]
    congr 1
    apply List.ext_getElem
    · simp [hrl]
    · intro k h1' h2'
      rw [List.length_map] at h1'
      rw [List.getElem_map]
      have : rs[k] = h.npt + k := by simp only [p1, List.getElem_range', one_mul]
      rw [this]
      exact p6 k (by simpa using h2')
  · intro p hp; rw [c3, p5 p hp]
  · intro s hs; rw [c5 s (by rw [p4]; exact hs), p3]
  · intro s hs
    rw [List.mem_range'_1] at hs
    obtain ⟨k, rfl⟩ : ∃ k, s = h.nseg + k := ⟨s - h.nseg, by omega⟩
    rw [← p4, c6 k (by omega)]
    have e1 : rs[k]'(by omega) = h.npt + k := by simp only [p1, List.getElem_range', one_mul]
    have e2 : rs[k + 1]'(by omega) = h.npt + (k + 1) := by simp only [p1, List.getElem_range', one_mul]
    rw [e1, e2]
    exact ⟨by simp, by simp⟩

theorem closeH_vals (R : Rt K) (h : Heap K) (P : PLine) (hn : ∀ s ∈ P.segs, s < h.nseg) (l : List (Seg K))
    (hc : R.close (h.vals P.segs) = .ok l) :
    ∃ h' P', R.closeH h P = .ok (h', P') ∧ P'.purged = P.purged ∧ h'.vals P'.segs = l ∧ h'.pt = h.pt ∧
      (∀ s < h.nseg, h'.seg s = h.seg s) ∧
      ∀ p, EndOf h' P'.segs p → EndOf h P.segs p := by
  unfold close at hc
  unfold closeH
  cases hcl : R.isClosed (h.vals P.segs) with
  | error e => rw [hcl] at hc; simp at hc
  | ok b =>
    rw [hcl] at hc
    cases b with
    | true =>
      simp only [Except.ok.injEq] at hc
      exact ⟨h, P, rfl, rfl, hc, rfl, fun _ _ => rfl, fun _ hp => hp⟩
    | false =>
      simp only at hc ⊢
      unfold Heap.vals at hc
      rw [List.head?_map, List.getLast?_map] at hc
      cases ha : P.segs.head? with
      | none => rw [ha] at hc; simp at hc
      | some a =>
        cases hb : P.segs.getLast? with
        | none => rw [ha, hb] at hc; simp at hc
        | some b =>
          rw [ha, hb] at hc
          simp only [Option.map_some, Except.ok.injEq] at hc
          have hold : ∀ s < h.nseg, (h.newSeg (h.seg b).j (h.seg a).i).1.seg s = h.seg s := by
            intro s hs
            simp [Heap.newSeg, hs.ne]
          have hma : a ∈ P.segs := by
            rw [List.head?_eq_some_iff] at ha
            obtain ⟨ys, e⟩ := ha
            rw [e]; simp
          have hmb : b ∈ P.segs := by
            rw [List.getLast?_eq_some_iff] at hb
            obtain ⟨ys, e⟩ := hb
            rw [e]; simp
          refine ⟨_, _, rfl, rfl, ?_, rfl, hold, ?_⟩
          · rw [← hc]
            show (h.newSeg (h.seg b).j (h.seg a).i).1.vals (P.segs ++ [h.nseg]) = _
            unfold Heap.vals
            rw [List.map_append]
            congr 1
            · apply List.map_congr_left
              intro s hs
              unfold Heap.val
              rw [hold s (hn s hs)]
              rfl
            · simp [Heap.val, Heap.newSeg]
          · rintro p ⟨s, hs, hp⟩
            change s ∈ P.segs ++ [h.nseg] at hs
            rcases List.mem_append.1 hs with hs | hs
            · rw [hold s (hn s hs)] at hp
              exact ⟨s, hs, hp⟩
            · rw [List.mem_singleton] at hs
              rw [hs] at hp
              simp only [Heap.newSeg, Function.update_self] at hp
              rcases hp with hp | hp
              · exact ⟨b, hmb, Or.inr hp⟩
              · exact ⟨a, hma, Or.inl hp⟩

/-- building a polyline from nodes, closing and moving it -/
theorem closed_moved {R : Rt K} (hE : R.IsExact) (h : Heap K) (nodes ns : List (K × K)) (cw : Bool)
    (hns : (if cw then cwNodes nodes else .ok nodes) = .ok ns) (hl : 2 ≤ ns.length)
    (hg : ∀ n ∈ ns, Grid n.1 ∧ Grid n.2) (x0 y0 : K) (hx : Grid x0) (hy : Grid y0)
    (hap : Apart (1 / 10 ^ 5) {p | p ∈ ns.map pairPt})
    (hne : ∀ k (hk : k < ns.length), ns[k] ≠ ns[(k + 1) % ns.length]'(Nat.mod_lt _ (by omega))) :
    ∃ r q, R.fromNodesH h nodes cw = .ok r ∧ R.closeH r.1 r.2 = .ok q ∧
      (R.plMove q.1 q.2 x0 y0).2.segs = q.2.segs ∧
      (R.plMove q.1 q.2 x0 y0).1.vals q.2.segs =
        (chain (ns.map pairPt ++ [pairPt ns[0]])).map (fun s => shiftSeg s x0 y0) ∧
      R.isClosed ((R.plMove q.1 q.2 x0 y0).1.vals q.2.segs) = .ok true ∧
      (∀ p < h.npt, (R.plMove q.1 q.2 x0 y0).1.pt p = h.pt p) := by
  have hR := hE.isRounding
  obtain ⟨h1, f1, f2, f2', f3, f4, f5, f6⟩ := fromNodesH_vals R h nodes ns cw hns
  have hv : (ns.map fun n => R.mkPt n.1 n.2) = ns.map pairPt := by
    apply List.map_congr_left
    intro n hn
    exact hE.mkPt_grid (hg n hn).1 (hg n hn).2
  rw [hv] at f3
  have inj : ∀ m n : K × K, pairPt m = pairPt n → m = n := by
    rintro ⟨a, b⟩ ⟨c, d⟩ e
    simp only [pairPt, Pt.mk.injEq] at e
    rw [e.1, e.2]
  have hvl : (ns.map pairPt).length = ns.length := List.length_map _
  have hpeq : R.peq ((ns.map pairPt)[0]'(by omega)) ((ns.map pairPt)[(ns.map pairPt).length - 1]'(by omega)) = false := by
    rw [← Bool.not_eq_true, hE.peq_iff]
    rintro ⟨a, b⟩
    have hne' := hne (ns.length - 1) (by omega)
    have e : (ns.length - 1 + 1) % ns.length = 0 := by
      rw [show ns.length - 1 + 1 = ns.length by omega, Nat.mod_self]
    simp only [e] at hne'
    have := hap _ (List.getElem_mem (l := ns.map pairPt) (n := 0) (by omega)) _
      (List.getElem_mem (l := ns.map pairPt) (n := (ns.map pairPt).length - 1) (by omega)) (by
        simp only [List.getElem_map, hvl]
        intro hc
        exact hne' (inj _ _ hc).symm)
    rcases this with h | h
    · exact absurd a (not_lt.2 h)
    · exact absurd b (not_lt.2 h)
  obtain ⟨l, hl1, hl2, hl3, hl4, hl5⟩ := close_chain hR (ns.map pairPt) (by omega) hpeq
  rw [← f3] at hl1
  obtain ⟨h2, P2, g1, g2, g3, g4, g5, g6⟩ := closeH_vals R h1 ⟨List.range' h.nseg (ns.length - 1), false⟩ (by
    intro s hs
    change s ∈ List.range' h.nseg (ns.length - 1) at hs
    rw [List.mem_range'_1] at hs
    rw [f2]; exact hs.2) l hl1
  -- the endpoints after closing
  have hmem : ∀ s ∈ P2.segs, ∃ k, ∃ (hk : k < ns.length),
      h2.val s = ⟨pairPt ns[k], pairPt (ns[(k + 1) % ns.length]'(Nat.mod_lt _ (by omega))), .line⟩ := by
    intro s hs
    have : h2.val s ∈ l := by rw [← g3]; exact List.mem_map_of_mem hs
    obtain ⟨k, hk, e⟩ := List.getElem_of_mem this
    have hk' : k < ns.length := by omega
    refine ⟨k, hk', ?_⟩
    rw [← e, hl4 k hk (by omega)]
    simp only [List.getElem_map, List.length_map]
  have hloc : ∀ p ∈ locs h2 P2.segs, p ∈ ns.map pairPt := by
    rintro p ⟨s, hs, hp⟩
    obtain ⟨k, hk, e⟩ := hmem s hs
    rw [e] at hp
    rcases hp with rfl | rfl
    · exact List.mem_map_of_mem (List.getElem_mem _)
    · exact List.mem_map_of_mem (List.getElem_mem _)
  have hap2 : Apart R.tol (locs h2 P2.segs) := by
    rw [hE.tol']
    intro p hp q hq
    exact hap p (hloc p hp) q (hloc q hq)
  have hnull : ∀ s ∈ P2.segs, (h2.val s).i ≠ (h2.val s).j := by
    intro s hs
    obtain ⟨k, hk, e⟩ := hmem s hs
    rw [e]
    intro hc
    exact hne k hk (inj _ _ hc)
  have hst : ∀ p ∈ locs h2 P2.segs, R.Stored p := by
    intro p hp
    obtain ⟨n, hn, rfl⟩ := List.mem_map.1 (hloc p hp)
    exact (hE.stored_iff _).2 (hg n hn)
  obtain ⟨m1, m2⟩ := C46_move_unpurged hE h2 P2 g2 hap2 hnull x0 y0 hst ((hE.stored_iff _).2 ⟨hx, hy⟩)
  have hvals : (R.plMove h2 P2 x0 y0).1.vals P2.segs = l.map fun s => shiftSeg s x0 y0 := by
    rw [← g3]
    unfold Heap.vals
    rw [List.map_map]
    exact List.map_congr_left m1
  refine ⟨_, _, f1, g1, ?_, ?_, ?_, ?_⟩
  · have := (C45_purge hR h2 P2 g2 hap2 hnull).2.1
    show (R.purge h2 P2).2.segs = _
    rw [this]
  · show (R.plMove h2 P2 x0 y0).1.vals P2.segs = _
    rw [hvals, hl2]
    simp only [List.getElem_map]
  · show R.isClosed ((R.plMove h2 P2 x0 y0).1.vals P2.segs) = _
    rw [hvals, (continuous_shift hE l x0 y0 ?_).2, hl5]
    rw [← g3]
    intro p hp q hq
    apply hap
    · obtain ⟨s, hs, h⟩ := hp
      obtain ⟨t, ht, rfl⟩ := List.mem_map.1 hs
      exact hloc p ⟨t, ht, h⟩
    · obtain ⟨s, hs, h⟩ := hq
      obtain ⟨t, ht, rfl⟩ := List.mem_map.1 hs
      exact hloc q ⟨t, ht, h⟩
  · intro p hp
    show (R.plMove h2 P2 x0 y0).1.pt p = _
    rw [m2, g4, f4 p hp]
    intro hc
    obtain ⟨s, hs, hps⟩ := g6 p hc
    obtain ⟨u1, u2⟩ := f6 s hs
    rcases hps with rfl | rfl <;> omega

/-- the corners of the square with side `a` and the middle of its bottom side in (x0, y0), in the two directions -/
def squareCorners (a x0 y0 : K) (cw : Bool) : List (Pt K) :=
  if cw then [⟨x0, y0⟩, ⟨x0 - a / 2, y0⟩, ⟨x0 - a / 2, y0 + a⟩, ⟨x0 + a / 2, y0 + a⟩, ⟨x0 + a / 2, y0⟩]
  else [⟨x0, y0⟩, ⟨x0 + a / 2, y0⟩, ⟨x0 + a / 2, y0 + a⟩, ⟨x0 - a / 2, y0 + a⟩, ⟨x0 - a / 2, y0⟩]

/-- C64, exact arithmetic: `square(a, x0, y0)` is the closed polygon of five segments through the middle of the bottom
side and the four corners; its bounding box is as documented; existing Points are not changed. -/
theorem C64_square {R : Rt K} (hE : R.IsExact) (h : Heap K) (a x0 y0 : K) (cw : Bool) (ha : 1 / 10 ^ 5 ≤ a / 2)
    (hga : Grid (a / 2)) (hx : Grid x0) (hy : Grid y0) (hbx : |x0| + a ≤ 10 ^ 11) (hby : |y0| + a ≤ 10 ^ 11) :
    ∃ h' P, R.squareH h a x0 y0 cw = .ok (h', P) ∧ P.segs.length = 5 ∧
      h'.vals P.segs = chain (squareCorners a x0 y0 cw ++ [⟨x0, y0⟩]) ∧
      R.isClosed (h'.vals P.segs) = .ok true ∧
      boundingBox (h'.vals P.segs) = ((x0 - a / 2, x0 + a / 2), (y0, y0 + a)) ∧
      ∀ p < h.npt, h'.pt p = h.pt p := by
  have hp0 : (0 : K) < 1 / 10 ^ 5 := by positivity
  have ha0 : 0 < a := by linarith
  have hga' : Grid a := by
    have := hga.add hga
    rwa [add_halves] at this
  have hgn : Grid (-a / 2) := by rw [neg_div]; exact hga.neg
  have key : ∀ ns : List (K × K),
      (if cw then cwNodes [((0 : K), (0 : K)), (a / 2, 0), (a / 2, a), (-a / 2, a), (-a / 2, 0)]
        else .ok [((0 : K), (0 : K)), (a / 2, 0), (a / 2, a), (-a / 2, a), (-a / 2, 0)]) = .ok ns →
      (ns = if cw then [((0 : K), (0 : K)), (-a / 2, 0), (-a / 2, a), (a / 2, a), (a / 2, 0)]
        else [((0 : K), (0 : K)), (a / 2, 0), (a / 2, a), (-a / 2, a), (-a / 2, 0)]) := by
    intro ns hns
    cases cw
    · simpa using hns.symm
    · simp only [if_true, cwNodes_cons, Except.ok.injEq] at hns
      rw [← hns]; rfl
  obtain ⟨ns, hns⟩ : ∃ ns, (if cw then cwNodes [((0 : K), (0 : K)), (a / 2, 0), (a / 2, a), (-a / 2, a), (-a / 2, 0)]
        else .ok [((0 : K), (0 : K)), (a / 2, 0), (a / 2, a), (-a / 2, a), (-a / 2, 0)]) = .ok ns := by
    cases cw
    · exact ⟨_, rfl⟩
    · exact ⟨_, rfl⟩
  have hns' := key ns hns
  have hlen : ns.length = 5 := by rw [hns']; cases cw <;> rfl
  have hmem : ∀ n ∈ ns, (n.1 = 0 ∨ n.1 = a / 2 ∨ n.1 = -a / 2) ∧ (n.2 = 0 ∨ n.2 = a) := by
    rw [hns']
    cases cw
    · intro n hn
      simp only [Bool.false_eq_true, if_false, List.mem_cons, List.not_mem_nil, or_false] at hn
      rcases hn with rfl | rfl | rfl | rfl | rfl <;> simp
    · intro n hn
      simp only [if_true, List.mem_cons, List.not_mem_nil, or_false] at hn
      rcases hn with rfl | rfl | rfl | rfl | rfl <;> simp
  have hap : Apart (1 / 10 ^ 5) {p | p ∈ ns.map pairPt} := by
    intro p hp q hq hne
    obtain ⟨m, hm, rfl⟩ := List.mem_map.1 hp
    obtain ⟨n, hn, rfl⟩ := List.mem_map.1 hq
    obtain ⟨m1, m2⟩ := hmem m hm
    obtain ⟨n1, n2⟩ := hmem n hn
    have hdx : ∀ u v : K, (u = 0 ∨ u = a / 2 ∨ u = -a / 2) → (v = 0 ∨ v = a / 2 ∨ v = -a / 2) → u ≠ v →
        1 / 10 ^ 5 ≤ |u - v| := by
      have e0 : |a / 2| = a / 2 := abs_of_pos (by linarith)
      rintro u v (rfl | rfl | rfl) (rfl | rfl | rfl) huv
      · exact absurd rfl huv
      · rw [zero_sub, abs_neg, e0]; exact ha
      · rw [zero_sub, abs_neg, neg_div, abs_neg, e0]; exact ha
      · rw [sub_zero, e0]; exact ha
      · exact absurd rfl huv
      · rw [show a / 2 - -a / 2 = a by ring, abs_of_pos ha0]; linarith
      · rw [sub_zero, neg_div, abs_neg, e0]; exact ha
      · rw [show -a / 2 - a / 2 = -a by ring, abs_neg, abs_of_pos ha0]; linarith
      · exact absurd rfl huv
    have hdy : ∀ u v : K, (u = 0 ∨ u = a) → (v = 0 ∨ v = a) → u ≠ v → 1 / 10 ^ 5 ≤ |u - v| := by
      rintro u v (rfl | rfl) (rfl | rfl) huv
      · exact absurd rfl huv
      · rw [zero_sub, abs_neg, abs_of_pos ha0]; linarith
      · rw [sub_zero, abs_of_pos ha0]; linarith
      · exact absurd rfl huv
    by_cases h1 : m.1 = n.1
    · right
      apply hdy _ _ m2 n2
      intro h2
      exact hne (by simp only [pairPt, h1, h2])
    · left
      exact hdx _ _ m1 n1 h1
  have hneq : ∀ k (hk : k < ns.length), ns[k] ≠ ns[(k + 1) % ns.length]'(Nat.mod_lt _ (by omega)) := by
    have h2 : a / 2 ≠ 0 := by positivity
    have h3 : -a / 2 ≠ 0 := by rw [neg_div]; exact neg_ne_zero.2 h2
    have h4 : a / 2 ≠ -a / 2 := by intro e; rw [neg_div] at e; linarith
    intro k hk
    rw [hlen] at hk
    cases cw <;> subst hns' <;>
      rcases (by omega : k = 0 ∨ k = 1 ∨ k = 2 ∨ k = 3 ∨ k = 4) with rfl | rfl | rfl | rfl | rfl <;>
      simp [h2, h3, h4, h4.symm, ha0.ne, ha0.ne', Ne.symm h2, Ne.symm h3]
  obtain ⟨r, q, e1, e2, e3, e4, e5, e6⟩ := closed_moved hE h _ ns cw hns (by omega)
    (fun n hn => ⟨by
        rcases (hmem n hn).1 with h | h | h <;> rw [h]
        · exact grid_zero
        · exact hga
        · exact hgn, by
        rcases (hmem n hn).2 with h | h <;> rw [h]
        · exact grid_zero
        · exact hga'⟩) x0 y0 hx hy hap hneq
  have hvals : (R.plMove q.1 q.2 x0 y0).1.vals q.2.segs = chain (squareCorners a x0 y0 cw ++ [⟨x0, y0⟩]) := by
    rw [e4]
    cases cw <;> subst hns' <;>
      simp [squareCorners, chain, shiftSeg, shift, pairPt, neg_div, add_comm, sub_eq_add_neg]
  refine ⟨(R.plMove q.1 q.2 x0 y0).1, (R.plMove q.1 q.2 x0 y0).2, ?_, ?_, ?_, ?_, ?_, e6⟩
  · unfold squareH
    simp only [hE.div']
    rw [e1]
    simp only [e2]
  · rw [e3]
    have := congrArg List.length hvals
    unfold Heap.vals at this
    rw [List.length_map] at this
    rw [this]
    cases cw <;> rfl
  · rw [e3, hvals]
  · rw [e3]; exact e5
  · rw [e3, hvals]
    have hb : ∀ p ∈ Ends (chain (squareCorners a x0 y0 cw ++ [⟨x0, y0⟩])), p ∈ squareCorners a x0 y0 cw := by
      rintro p ⟨s, hs, hp⟩
      cases cw <;> simp only [squareCorners, chain, List.cons_append, List.nil_append, List.mem_cons, List.not_mem_nil,
        or_false, if_true, Bool.false_eq_true, if_false] at hs ⊢ <;>
        rcases hs with rfl | rfl | rfl | rfl | rfl <;> rcases hp with rfl | rfl <;> simp
    have hin : ∀ p ∈ squareCorners a x0 y0 cw, p ∈ Ends (chain (squareCorners a x0 y0 cw ++ [⟨x0, y0⟩])) := by
      intro p hp
      cases cw <;> simp only [squareCorners, chain, List.cons_append, List.nil_append, List.mem_cons, List.not_mem_nil,
        or_false, if_true, Bool.false_eq_true, if_false] at hp ⊢ <;>
        rcases hp with rfl | rfl | rfl | rfl | rfl <;> simp [Ends]
    have hc : ∀ p ∈ squareCorners a x0 y0 cw, (p.x = x0 ∨ p.x = x0 - a / 2 ∨ p.x = x0 + a / 2) ∧
        (p.y = y0 ∨ p.y = y0 + a) := by
      intro p hp
      cases cw <;> simp only [squareCorners, List.mem_cons, List.not_mem_nil,
        or_false, if_true, Bool.false_eq_true, if_false] at hp <;>
        rcases hp with rfl | rfl | rfl | rfl | rfl <;> simp
    have m1 : (⟨x0 - a / 2, y0⟩ : Pt K) ∈ squareCorners a x0 y0 cw := by cases cw <;> simp [squareCorners]
    have m2 : (⟨x0 + a / 2, y0 + a⟩ : Pt K) ∈ squareCorners a x0 y0 cw := by cases cw <;> simp [squareCorners]
    obtain ⟨x1, x2⟩ := abs_le.1 (le_refl |x0|)
    obtain ⟨y1, y2⟩ := abs_le.1 (le_refl |y0|)
    obtain ⟨s1, s2⟩ := C39_box (chain (squareCorners a x0 y0 cw ++ [⟨x0, y0⟩]))
      (by cases cw <;> simp [squareCorners, chain]) (by
        intro p hp
        obtain ⟨c1, c2⟩ := hc p (hb p hp)
        rw [abs_le, abs_le]
        refine ⟨⟨?_, ?_⟩, ⟨?_, ?_⟩⟩
        · rcases c1 with h | h | h <;> rw [h] <;> linarith
        · rcases c1 with h | h | h <;> rw [h] <;> linarith
        · rcases c2 with h | h <;> rw [h] <;> linarith
        · rcases c2 with h | h <;> rw [h] <;> linarith)
    have t1 : Spans Pt.x (chain (squareCorners a x0 y0 cw ++ [⟨x0, y0⟩])) (x0 - a / 2, x0 + a / 2) := by
      refine ⟨?_, ⟨_, hin _ m1, rfl⟩, ⟨_, hin _ m2, rfl⟩⟩
      intro p hp
      rcases (hc p (hb p hp)).1 with h | h | h <;> rw [h] <;> constructor <;> simp only <;> linarith
    have t2 : Spans Pt.y (chain (squareCorners a x0 y0 cw ++ [⟨x0, y0⟩])) (y0, y0 + a) := by
      refine ⟨?_, ⟨_, hin _ m1, rfl⟩, ⟨_, hin _ m2, rfl⟩⟩
      intro p hp
      rcases (hc p (hb p hp)).2 with h | h <;> rw [h] <;> constructor <;> simp only <;> linarith
    exact Prod.ext (spans_unique s1 t1) (spans_unique s2 t2)

/-- the same values in binary64, for a concrete square -/
example : (exRt.squareH exAdd 2 5 7 true).map (fun r => (r.1.vals r.2.segs, r.2.purged)) =
    .ok (chain (squareCorners 2 5 7 true ++ [⟨5, 7⟩]), true) := by decide +kernel

end Srep
