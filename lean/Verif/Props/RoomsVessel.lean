import Verif.Model.Rooms
import Verif.Props.LoopsVessel
import Verif.Props.Poly
import Verif.Props.Area
import Std.Data.String.ToNat

/-!
# The rooms of a vessel with one loop (C111)
-/

set_option linter.unusedSectionVars false

namespace Srep
open Rt
variable {K : Type} [Field K] [LinearOrder K] [IsStrictOrderedRing K] [FloorRing K] {R : Rt K}

/-! ### drawings and cycles -/

theorem Ends_sameDrawing {l m : List (Seg K)} (h : SameDrawing l m) : Ends l = Ends m := by
  have sub : ∀ {l m : List (Seg K)}, SameDrawing l m → Ends l ⊆ Ends m := by
    intro l m h p hp
    obtain ⟨l', hp', hf⟩ := h
    obtain ⟨s, hs, e⟩ := hp
    obtain ⟨k, hk, rfl⟩ := List.mem_iff_getElem.1 (hp'.mem_iff.2 hs)
    have hk' : k < m.length := by rw [← hf.length_eq]; exact hk
    refine ⟨m[k], List.getElem_mem _, ?_⟩
    have h2 : SameEdge l'[k] m[k] := hf.get hk hk'
    rcases h2 with ⟨e1, e2⟩ | ⟨e1, e2⟩
    · rw [← e1, ← e2]; exact e
    · rw [← e1, ← e2]; exact e.symm
  exact Set.Subset.antisymm (sub h) (sub h.symm)

theorem Ends_closedChain {H : List (Seg K)} (hH : ClosedChain H) : Ends H = {p | p ∈ H.map Seg.i} := by
  ext p
  constructor
  · rintro ⟨s, hs, rfl | rfl⟩
    · exact List.mem_map.2 ⟨s, hs, rfl⟩
    · obtain ⟨k, hk, rfl⟩ := List.mem_iff_getElem.1 hs
      rw [hH k hk]
      exact List.mem_map.2 ⟨_, List.getElem_mem _, rfl⟩
  · intro hp
    obtain ⟨s, hs, rfl⟩ := List.mem_map.1 hp
    exact ⟨s, hs, Or.inl rfl⟩

theorem isCycleOf_drawing {h : Heap K} {l : List ℕ} {H : List (Seg K)} (hH : ClosedChain H) (hnd : (H.map Seg.i).Nodup)
    (h3 : 3 ≤ H.length) (hd : SameDrawing (h.vals l) H) :
    ∃ (p : ZMod H.length → Pt K) (σ : ZMod H.length → ℕ), IsCycleOf h l H.length p σ := by
  classical
  set n := H.length with hnH
  have hn0 : NeZero n := ⟨by omega⟩
  have hfac : Fact (1 < n) := ⟨by omega⟩
  set p : ZMod n → Pt K := fun k => (H[k.val]'k.val_lt).i with hp
  have hpj : ∀ k : ZMod n, (H[k.val]'k.val_lt).j = p (k + 1) := by
    intro k
    rw [hH k.val k.val_lt, hp]
    have : (k.val + 1) % H.length = (k + 1).val := by rw [ZMod.val_add, ZMod.val_one]
    simp only [this]
  have pinj : Function.Injective p := by
    intro a b e
    have h1 : (H.map Seg.i)[a.val]'(by rw [List.length_map]; exact a.val_lt) =
        (H.map Seg.i)[b.val]'(by rw [List.length_map]; exact b.val_lt) := by
      rw [List.getElem_map, List.getElem_map]; exact e
    exact ZMod.val_injective n ((hnd.getElem_inj_iff).1 h1)
  obtain ⟨l', hl', hf2⟩ := hd
  have hcomp : Relation.Comp List.Perm (List.Forall₂ fun (v : Seg K) (a : ℕ) => v = h.val a) l' l := by
    refine ⟨_, hl', ?_⟩
    unfold Heap.vals
    rw [List.forall₂_map_left_iff]
    exact List.forall₂_same.2 fun _ _ => rfl
  rw [← List.forall₂_comp_perm_eq_perm_comp_forall₂] at hcomp
  obtain ⟨L, hL, hLp⟩ := hcomp
  have hlenL : L.length = n := by rw [← hL.length_eq, hf2.length_eq]
  set σ : ZMod n → ℕ := fun k => L[k.val]'(by rw [hlenL]; exact k.val_lt) with hσ
  have hσe : ∀ k : ZMod n, SameEdge (h.val (σ k)) (H[k.val]'k.val_lt) := by
    intro k
    have h1 : k.val < l'.length := by rw [hf2.length_eq]; exact k.val_lt
    have h2 := hL.get h1 (by rw [hlenL]; exact k.val_lt)
    have h4 := hf2.get h1 k.val_lt
    have h2 : l'[k.val] = h.val (σ k) := h2
    have h4 : SameEdge l'[k.val] (H[k.val]'k.val_lt) := h4
    rwa [h2] at h4
  have ends : ∀ k, ((h.val (σ k)).i = p k ∧ (h.val (σ k)).j = p (k + 1)) ∨
      ((h.val (σ k)).i = p (k + 1) ∧ (h.val (σ k)).j = p k) := by
    intro k
    rcases hσe k with e | e
    · exact Or.inl ⟨e.1, by rw [e.2, hpj]⟩
    · exact Or.inr ⟨by rw [e.1, hpj], e.2⟩
  have two : (1 : ZMod n) + 1 ≠ 0 := by
    intro e
    have : ((2 : ℕ) : ZMod n) = 0 := by push_cast; rw [← e]; norm_num
    rw [ZMod.natCast_eq_zero_iff] at this
    have := Nat.le_of_dvd (by omega) this
    omega
  have edge_inj : ∀ a b : ZMod n, SameEdge (h.val (σ a)) (h.val (σ b)) → a = b := by
    intro a b e
    have key : (p a = p b ∧ p (a + 1) = p (b + 1)) ∨ (p a = p (b + 1) ∧ p (a + 1) = p b) := by
      rcases ends a with ea | ea <;> rcases ends b with eb | eb <;> rcases e with e | e <;>
        simp only [ea.1, ea.2, eb.1, eb.2] at e <;> tauto
    rcases key with k | k
    · exact pinj k.1
    · exfalso
      have e1 := pinj k.1
      have e2 := pinj k.2
      apply two
      have : b + (1 + 1) = b + 0 := by rw [← add_assoc, ← e1, e2, add_zero]
      exact add_left_cancel this
  have sinj : Function.Injective σ := fun a b e => edge_inj a b (by rw [e]; exact SameEdge.refl _)
  have hLnd : L.Nodup := by
    rw [List.nodup_iff_injective_getElem]
    intro a b e
    have ha' : a.val < n := by rw [← hlenL]; exact a.isLt
    have hb' : b.val < n := by rw [← hlenL]; exact b.isLt
    have : σ (a.val : ZMod n) = σ (b.val : ZMod n) := by
      simp only [hσ, ZMod.val_natCast, Nat.mod_eq_of_lt ha', Nat.mod_eq_of_lt hb']
      exact e
    have := sinj this
    rw [ZMod.natCast_eq_natCast_iff', Nat.mod_eq_of_lt ha', Nat.mod_eq_of_lt hb'] at this
    exact Fin.ext this
  have hmemσ : ∀ s, s ∈ l ↔ ∃ k, s = σ k := by
    intro s
    rw [← hLp.mem_iff]
    constructor
    · intro hs
      obtain ⟨k, hk, rfl⟩ := List.mem_iff_getElem.1 hs
      rw [hlenL] at hk
      refine ⟨(k : ZMod n), ?_⟩
      simp only [hσ, ZMod.val_natCast, Nat.mod_eq_of_lt hk]
    · rintro ⟨k, rfl⟩
      exact List.getElem_mem _
  exact ⟨p, σ, h3, pinj, sinj, hLp.nodup_iff.1 hLnd, hmemσ, ends⟩

theorem locs_eq_Ends (h : Heap K) (l : List ℕ) : locs h l = Ends (h.vals l) := by
  ext p
  unfold locs Ends Heap.vals
  simp only [Set.mem_ofPred_eq, List.mem_map]
  constructor
  · rintro ⟨s, hs, e⟩
    exact ⟨_, ⟨s, hs, rfl⟩, e⟩
  · rintro ⟨_, ⟨s, hs, rfl⟩, e⟩
    exact ⟨s, hs, e⟩

theorem removeOutliersH_vals (h : Heap K) (l : List ℕ) : h.vals (R.removeOutliersH h l) = R.removeOutliers (h.vals l) := by
  unfold Rt.removeOutliersH Rt.removeOutliers Heap.vals
  dsimp only
  rw [List.filter_map]
  rfl

theorem removeOutliersH_closed {h : Heap K} {l : List ℕ} {H : List (Seg K)} (hd : SameDrawing (h.vals l) H)
    (hH : ClosedChain H) : R.removeOutliersH h l = l := by
  have e := removeOutliersH_vals (R := R) h l
  rw [C95_closed _ H hd hH] at e
  have hsub : (R.removeOutliersH h l).Sublist l := List.filter_sublist
  exact hsub.eq_of_length (by have := congrArg List.length e; simpa [Heap.vals] using this)

/-- two segments of different memories with the same ends, up to the direction -/
theorem UpToReversal.ends {s t : Seg K} (h : UpToReversal s t) (p : Pt K) : (p = s.i ∨ p = s.j) ↔ (p = t.i ∨ p = t.j) := by
  rcases h with rfl | rfl
  · rfl
  · exact or_comm

theorem Ends_tame {h h' : Heap K} (t : Tame h h') {l : List ℕ} (hl : ∀ s ∈ l, s < h.nseg) :
    Ends (h'.vals l) = Ends (h.vals l) := by
  rw [← locs_eq_Ends, ← locs_eq_Ends]
  ext p
  unfold locs
  simp only [Set.mem_ofPred_eq]
  constructor
  · rintro ⟨s, hs, e⟩
    exact ⟨s, hs, ((t.val s (hl s hs)).ends p).2 e⟩
  · rintro ⟨s, hs, e⟩
    exact ⟨s, hs, ((t.val s (hl s hs)).ends p).1 e⟩

/-! ### the parts of a cycle -/

/-- C111: on separated points a part is listed under a cycle iff all ends of its segments are corners of the cycle, or one
of its segments is, with its direction and class, a side of the cycle. -/
theorem C111_listed (hR : R.IsRounding) (h : Heap K) (v x : PLine) (hap : Apart R.tol (Ends (h.vals v.segs ++ h.vals x.segs))) :
    R.listedIn h v x = true ↔ Ends (h.vals x.segs) ⊆ Ends (h.vals v.segs) ∨ ∃ s ∈ h.vals x.segs, s ∈ h.vals v.segs := by
  have hS := sep_of_Ends hR hap
  have e1 : endPts (h.vals v.segs ++ h.vals x.segs) = endPts (h.vals v.segs) ++ endPts (h.vals x.segs) := by
    unfold endPts; rw [List.flatMap_append]
  unfold Rt.listedIn
  rw [Bool.or_eq_true, C43_iff_hash hR _ _ (by rw [← e1]; exact hS.hashOK)]
  refine or_congr Iff.rfl ?_
  rw [List.any_eq_true]
  have hin : ∀ s ∈ v.segs ++ x.segs, (h.val s).i ∈ endPts (h.vals v.segs ++ h.vals x.segs) ∧
      (h.val s).j ∈ endPts (h.vals v.segs ++ h.vals x.segs) := by
    intro s hs
    have : h.val s ∈ h.vals v.segs ++ h.vals x.segs := by
      unfold Heap.vals; rw [← List.map_append]; exact List.mem_map_of_mem hs
    rw [mem_endPts', mem_endPts']
    exact ⟨⟨_, this, Or.inl rfl⟩, ⟨_, this, Or.inr rfl⟩⟩
  constructor
  · rintro ⟨y, hy, hx⟩
    unfold Rt.inSegs at hx
    rw [List.any_eq_true] at hx
    obtain ⟨z, hz, e⟩ := hx
    refine ⟨h.val z, List.mem_map_of_mem hz, ?_⟩
    have : h.val z = h.val y := by
      rw [Bool.or_eq_true, decide_eq_true_eq] at e
      rcases e with rfl | e
      · rfl
      · unfold Rt.seq at e
        simp only [Bool.and_eq_true] at e
        have iy := hin y (List.mem_append_left _ hy)
        have iz := hin z (List.mem_append_right _ hz)
        obtain ⟨⟨c1, c2⟩, c3⟩ := e
        have c1 := of_decide_eq_true c1
        have c2 := (hS.peq_iff hR (by first | exact iz.1 | exact iy.1) (by first | exact iy.1 | exact iz.1)).1 c2
        have c3 := (hS.peq_iff hR (by first | exact iz.2 | exact iy.2) (by first | exact iy.2 | exact iz.2)).1 c3
        cases hy' : h.val y
        cases hz' : h.val z
        rw [hy', hz'] at c1 c2 c3
        simp_all
    rw [this]
    exact List.mem_map_of_mem hy
  · rintro ⟨s, hs, hv⟩
    obtain ⟨z, hz, rfl⟩ := List.mem_map.1 hs
    obtain ⟨y, hy, e⟩ := List.mem_map.1 hv
    refine ⟨y, hy, ?_⟩
    unfold Rt.inSegs
    rw [List.any_eq_true]
    refine ⟨z, hz, ?_⟩
    rw [← e, hR.seq_refl]
    simp

/-- a square of side 1 with a diagonal, all of Walls -/
def exDiagH : Heap K :=
  { pt := fun k => if k = 0 then ⟨0, 0⟩ else if k = 1 then ⟨1, 0⟩ else if k = 2 then ⟨1, 1⟩ else ⟨0, 1⟩
    seg := fun k => if k = 4 then ⟨0, 2, .wall⟩ else ⟨k, (k + 1) % 4, .wall⟩
    npt := 4
    nseg := 5 }

/-- C111: a Wall from one corner of a square to the opposite one is listed, although it is no side of the square. -/
theorem C111_diagonal_listed (hE : R.IsExact) :
    (exDiagH (K := K)).vals [0, 1, 2, 3] = [⟨⟨0, 0⟩, ⟨1, 0⟩, .wall⟩, ⟨⟨1, 0⟩, ⟨1, 1⟩, .wall⟩, ⟨⟨1, 1⟩, ⟨0, 1⟩, .wall⟩,
      ⟨⟨0, 1⟩, ⟨0, 0⟩, .wall⟩] ∧ (exDiagH (K := K)).vals [4] = [⟨⟨0, 0⟩, ⟨1, 1⟩, .wall⟩] ∧
    R.listedIn exDiagH ⟨[0, 1, 2, 3], false⟩ ⟨[4], false⟩ = true := by
  have e1 : (exDiagH (K := K)).vals [0, 1, 2, 3] = [⟨⟨0, 0⟩, ⟨1, 0⟩, .wall⟩, ⟨⟨1, 0⟩, ⟨1, 1⟩, .wall⟩, ⟨⟨1, 1⟩, ⟨0, 1⟩, .wall⟩,
      ⟨⟨0, 1⟩, ⟨0, 0⟩, .wall⟩] := by simp [Heap.vals, Heap.val, exDiagH]
  have e2 : (exDiagH (K := K)).vals [4] = [⟨⟨0, 0⟩, ⟨1, 1⟩, .wall⟩] := by simp [Heap.vals, Heap.val, exDiagH]
  have htol : R.tol = 1 / 10 ^ 5 := by
    unfold Rt.tol
    rw [hE.mul', hE.eps']; norm_num
  refine ⟨e1, e2, ?_⟩
  rw [C111_listed hE.isRounding]
  · left
    dsimp only
    rw [e1, e2]
    rintro p ⟨s, hs, e⟩
    rw [List.mem_singleton] at hs
    subst hs
    rcases e with rfl | rfl
    · exact ⟨⟨⟨0, 0⟩, ⟨1, 0⟩, .wall⟩, by simp, Or.inl rfl⟩
    · exact ⟨⟨⟨1, 1⟩, ⟨0, 1⟩, .wall⟩, by simp, Or.inl rfl⟩
  · dsimp only
    rw [e1, e2, htol]
    have corner : ∀ p ∈ Ends ([⟨⟨0, 0⟩, ⟨1, 0⟩, .wall⟩, ⟨⟨1, 0⟩, ⟨1, 1⟩, .wall⟩, ⟨⟨1, 1⟩, ⟨0, 1⟩, .wall⟩,
        ⟨⟨0, 1⟩, ⟨0, 0⟩, .wall⟩] ++ [⟨⟨0, 0⟩, ⟨1, 1⟩, .wall⟩] : List (Seg K)),
        p = ⟨0, 0⟩ ∨ p = ⟨1, 0⟩ ∨ p = ⟨1, 1⟩ ∨ p = ⟨0, 1⟩ := by
      rintro p ⟨s, hs, e⟩
      simp only [List.cons_append, List.nil_append, List.mem_cons, List.not_mem_nil, or_false] at hs
      rcases hs with rfl | rfl | rfl | rfl | rfl <;> rcases e with rfl | rfl <;> simp
    intro p hp q hq hne
    rcases corner p hp with rfl | rfl | rfl | rfl <;> rcases corner q hq with rfl | rfl | rfl | rfl <;>
      first
      | exact absurd rfl hne
      | (left; norm_num; done)
      | (right; norm_num; done)

/-! ### the cycles of the vessel itself -/

theorem sameDrawing_tame {h h' : Heap K} (t : Tame h h') {l : List ℕ} (hl : ∀ s ∈ l, s < h.nseg) :
    SameDrawing (h'.vals l) (h.vals l) := by
  refine ⟨h'.vals l, List.Perm.refl _, ?_⟩
  unfold Heap.vals
  rw [List.forall₂_map_left_iff, List.forall₂_map_right_iff, List.forall₂_same]
  intro s hs
  rcases t.val s (hl s hs) with e | e
  · rw [e]; exact SameEdge.refl _
  · rw [e]; exact Or.inr ⟨rfl, rfl⟩

/-- C111: if the wall segments of the parts of a cycle draw a closed outline with different, separated corners and fewer than
250 sides, `PolygonGroup.cycles` gives this outline as a closed chain. -/
theorem C111_group_cycles (hR : R.IsRounding) (walls : ℕ → List ℕ) (h : Heap K) (k : ℕ) (parts : List ℕ) (H : List (Seg K))
    (hH : ClosedChain H) (hnd : (H.map Seg.i).Nodup) (h3 : 3 ≤ H.length) (hap : Apart R.tol {p | p ∈ H.map Seg.i})
    (hd : SameDrawing (h.vals (parts.flatMap walls)) H) (hn : H.length < 250) :
    ∃ h' l, R.groupCycles walls h [(k, parts)] = .ok (h', [(k, ⟨l, false⟩)]) ∧ ClosedChain (h'.vals l) ∧
      l.Perm (parts.flatMap walls) ∧ h'.pt = h.pt := by
  obtain ⟨p, σ, c⟩ := isCycleOf_drawing hH hnd h3 hd
  have hl : (parts.flatMap walls).length = H.length := by
    obtain ⟨l', hp, hf⟩ := hd
    rw [← hf.length_eq, hp.length_eq]; simp [Heap.vals]
  have hap' : Apart R.tol (locs h (parts.flatMap walls)) := by
    rw [locs_eq_Ends, Ends_sameDrawing hd, Ends_closedChain hH]; exact hap
  obtain ⟨h', l, e, hp, hc, hpt⟩ := C76_restores_cycle hR h ⟨parts.flatMap walls, false⟩ _ p σ c hap' (by rw [hl]; exact hn)
  refine ⟨h', l, ?_, hc, hp, hpt⟩
  unfold Rt.groupCycles
  dsimp only
  have hne : parts.flatMap walls ≠ [] := by
    intro e0
    rw [e0, List.length_nil] at hl
    omega
  rw [removeOutliersH_closed hd hH, if_neg hne, e]
  rfl

/-- C111: with 250 or more sides `PolygonGroup.cycles` raises. -/
theorem C111_group_cycles_long (hR : R.IsRounding) (walls : ℕ → List ℕ) (h : Heap K) (k : ℕ) (parts : List ℕ) (H : List (Seg K))
    (cs : List (ℕ × List ℕ)) (hH : ClosedChain H) (hnd : (H.map Seg.i).Nodup) (hap : Apart R.tol {p | p ∈ H.map Seg.i})
    (hd : SameDrawing (h.vals (parts.flatMap walls)) H) (hn : 250 ≤ H.length) :
    R.groupCycles walls h ((k, parts) :: cs) = .raised .generic := by
  obtain ⟨p, σ, c⟩ := isCycleOf_drawing hH hnd (by omega) hd
  have hl : (parts.flatMap walls).length = H.length := by
    obtain ⟨l', hp, hf⟩ := hd
    rw [← hf.length_eq, hp.length_eq]; simp [Heap.vals]
  have hap' : Apart R.tol (locs h (parts.flatMap walls)) := by
    rw [locs_eq_Ends, Ends_sameDrawing hd, Ends_closedChain hH]; exact hap
  obtain ⟨h', e⟩ := C49_long_cycle_raises hR h ⟨parts.flatMap walls, false⟩ _ p σ c hap' (by rw [hl]; exact hn)
  unfold Rt.groupCycles
  dsimp only
  have hne : parts.flatMap walls ≠ [] := by
    intro e0
    rw [e0, List.length_nil] at hl
    omega
  rw [removeOutliersH_closed hd hH, if_neg hne, e]

/-- C111: if the walls of a cycle cannot be put in order, `PolygonGroup.cycles` gives them as they are, without outliers, and goes on. -/
theorem C111_group_cycles_open (walls : ℕ → List ℕ) (h h' : Heap K) (k : ℕ) (parts : List ℕ) (cs : List (ℕ × List ℕ))
    (hf : R.order h ⟨R.removeOutliersH h (parts.flatMap walls), false⟩ = .failed h') (h2 : Heap K) (r : List (ℕ × PLine))
    (hr : R.groupCycles walls h' cs = .ok (h2, r)) :
    R.groupCycles walls h ((k, parts) :: cs) = .ok (h2, (k, ⟨R.removeOutliersH h (parts.flatMap walls), false⟩) :: r) := by
  have hne : R.removeOutliersH h (parts.flatMap walls) ≠ [] := by
    intro e
    rw [e] at hf
    cases hf
  unfold Rt.groupCycles
  dsimp only
  rw [if_neg hne, hf]
  dsimp only
  rw [hr]

/-- C111: if no two ends of the walls of a cycle are equal, `PolygonGroup.cycles` gives a polyline without valid segments. -/
theorem C111_group_cycles_loose (hR : R.IsRounding) (walls : ℕ → List ℕ) (h : Heap K) (k : ℕ) (parts : List ℕ)
    (hap : Apart R.tol (Ends (h.vals (parts.flatMap walls)))) (hnd : (occurrences (h.vals (parts.flatMap walls))).Nodup) :
    R.groupCycles walls h [(k, parts)] = .ok (h, [(k, ⟨[], false⟩)]) := by
  have hS := sep_of_Ends hR hap
  have e : R.removeOutliersH h (parts.flatMap walls) = [] := by
    unfold Rt.removeOutliersH
    dsimp only
    rw [List.filter_eq_nil_iff]
    intro s hs hc
    have hv : h.val s ∈ h.vals (parts.flatMap walls) := List.mem_map_of_mem hs
    have hi : (h.val s).i ∈ occurrences (h.vals (parts.flatMap walls)) := List.mem_flatMap.2 ⟨_, hv, by simp⟩
    have hcount : (occurrences (h.vals (parts.flatMap walls))).countP (fun y => R.peq y (h.val s).i) = 1 := by
      classical
      rw [← List.count_eq_one_of_mem hnd hi, List.count]
      refine List.countP_congr fun y hy => ?_
      rw [beq_iff_eq]
      exact ⟨hS y hy _ hi, fun e => e ▸ hR.peq_refl _⟩
    rw [Bool.not_eq_true', List.any_eq_false] at hc
    refine hc (h.val s).i (by simp) ?_
    rw [List.any_eq_true]
    exact ⟨(h.val s).i, List.mem_filter.2 ⟨hi, decide_eq_true hcount⟩, hR.peq_refl _⟩
  unfold Rt.groupCycles
  dsimp only
  rw [e, if_pos rfl]
  rfl

/-- the memory of three segments one after the other, and of two walls facing each other (3, 4) -/
def exLooseH : Heap ℚ :=
  { pt := fun n => if n = 0 then ⟨0, 0⟩ else if n = 1 then ⟨1, 0⟩ else if n = 2 then ⟨1, 1⟩ else ⟨0, 1⟩
    seg := fun n => if n = 0 then ⟨0, 1, .wall⟩ else if n = 1 then ⟨1, 2, .wall⟩ else if n = 2 then ⟨2, 3, .wall⟩
      else if n = 3 then ⟨1, 2, .wall⟩ else ⟨0, 3, .wall⟩
    npt := 4
    nseg := 5 }

/-- of the three segments the middle one is left; it cannot be put in order -/
example : exRt.removeOutliersH exLooseH [0, 1, 2] = [1] ∧
    (match exRt.order exLooseH ⟨[1], false⟩ with | .failed _ => true | _ => false) = true := by decide +kernel

/-- the ends of the two walls are apart -/
example : exRt.Sep (occurrences (exLooseH.vals [3, 4])) ∧ (occurrences (exLooseH.vals [3, 4])).Nodup := by
  unfold Rt.Sep; decide +kernel

/-- C111: the rooms are named R1, R2, …: different rooms have different names. -/
theorem C111_room_names : raumName 0 = "R1" ∧ raumName 9 = "R10" ∧ ∀ i j, raumName i = raumName j → i = j := by
  refine ⟨by decide, by decide, fun i j e => ?_⟩
  unfold raumName at e
  have := Nat.repr_injective ((String.append_right_inj "R").1 e)
  omega

/-! ### the cycles of the graph -/

/-- C111: no loop at all is a TypeError (`len(None)`). -/
theorem C111_no_loop (π : SetOrder) (fuel : ℕ) (T : TriEnv K) (more : KeepMore K) (h h' : Heap K) (G : List PLine) (g : List ℕ)
    (e : R.findLoops π fuel h G = .ok h' g []) : R.graphCycles π fuel T more [] h G = .raised .type := by
  unfold Rt.graphCycles
  rw [if_neg (by simp), e]
  rfl

/-- C111: cycles that have been calculated are returned as they are, whatever has become of the graph. -/
theorem C111_cached (π : SetOrder) (fuel : ℕ) (T : TriEnv K) (more : KeepMore K) (cache : List (ℕ × PLine)) (hc : cache ≠ [])
    (h : Heap K) (G : List PLine) : R.graphCycles π fuel T more cache h G = .ok (h, cache) := by
  unfold Rt.graphCycles
  rw [if_pos hc]

/-- C111: one loop is kept if its triangulation ends without an exception; otherwise the exception is passed on. -/
theorem C111_one_loop (π : SetOrder) (fuel : ℕ) (T : TriEnv K) (more : KeepMore K) (h h' : Heap K) (G : List PLine) (g : List ℕ)
    (P : PLine) (e : R.findLoops π fuel h G = .ok h' g [P]) :
    ((∃ r, R.triangleMesh T.lib h' (h'.vals P.segs) (T.ω 0) T.fuel = .ok r) →
      R.graphCycles π fuel T more [] h G = .ok (h', [(0, P)])) ∧
    (∀ x, R.triangleMesh T.lib h' (h'.vals P.segs) (T.ω 0) T.fuel = .error (some x) →
      R.graphCycles π fuel T more [] h G = .raised x) := by
  unfold Rt.graphCycles
  rw [if_neg (by simp), e]
  dsimp only
  unfold Rt.keepBasePolygons
  constructor
  · rintro ⟨r, hr⟩
    have : R.triangulateAll T h' 0 [P] = none := by
      unfold Rt.triangulateAll; rw [hr]; rfl
    rw [this]; rfl
  · intro x hx
    have : R.triangulateAll T h' 0 [P] = some (some x) := by
      unfold Rt.triangulateAll; rw [hx]
    rw [this]

/-- C111: all parts belong to the only cycle, if it draws the whole group. -/
theorem C111_all_parts (hR : R.IsRounding) (h h' : Heap K) (t : Tame h h') (G : List PLine) (hG : ∀ P ∈ G, ∀ s ∈ P.segs, s < h.nseg)
    (P : PLine) (hd : SameDrawing (h'.vals P.segs) (h.vals (G.flatMap PLine.segs)))
    (hap : Apart R.tol (Ends (h.vals (G.flatMap PLine.segs)))) :
    R.segmentsInCycles h' [(0, P)] G = [(0, List.range G.length)] := by
  have hsub : ∀ x ∈ G, Ends (h'.vals x.segs) ⊆ Ends (h'.vals P.segs) := by
    intro x hx
    rw [Ends_tame t (hG x hx), Ends_sameDrawing hd]
    rintro p ⟨s, hs, e⟩
    obtain ⟨a, ha, rfl⟩ := List.mem_map.1 hs
    exact ⟨h.val a, List.mem_map_of_mem (List.mem_flatMap.2 ⟨x, hx, ha⟩), e⟩
  have hlist : ∀ x ∈ G, R.listedIn h' P x = true := by
    intro x hx
    rw [C111_listed hR h' P x]
    · exact Or.inl (hsub x hx)
    · have : Ends (h'.vals P.segs ++ h'.vals x.segs) ⊆ Ends (h.vals (G.flatMap PLine.segs)) := by
        rw [← Ends_sameDrawing hd]
        rintro p ⟨s, hs, e⟩
        rcases List.mem_append.1 hs with hs | hs
        · exact ⟨s, hs, e⟩
        · exact hsub x hx ⟨s, hs, e⟩
      exact fun p hp q hq hne => hap p (this hp) q (this hq) hne
  unfold Rt.segmentsInCycles
  simp only [List.map_cons, List.map_nil]
  congr 2
  rw [List.filter_eq_self]
  intro i hi
  rw [List.mem_range] at hi
  rw [List.getElem?_eq_getElem hi]
  exact hlist _ (List.getElem_mem _)

/-! ### the rooms -/

/-- C111: a vessel whose only loop draws all of its graphs, and whose walls draw a closed outline of fewer than 250 sides, has
exactly one room: its outer wall are all parts, in their order, and it has no inner walls.  An exception of the triangulation of
the loop is the only one. -/
theorem C111_one_room (hR : R.IsRounding) (π : SetOrder) (hπ : π.Ok) (fuel : ℕ) (T : TriEnv K) (more : KeepMore K)
    (inter : List ℕ → List ℕ → List ℕ) (ω : ℕ → ℕ → ℕ → ℕ → Pt K) (cfuel : ℕ) (h : Heap K) (hw : h.WF) (G : List PLine)
    (hG : ∀ P ∈ G, ∀ s ∈ P.segs, s < h.nseg) (h' : Heap K) (g : List ℕ) (P : PLine)
    (e : R.findLoops π fuel h G = .ok h' g [P]) (hd : SameDrawing (h'.vals P.segs) (h.vals (G.flatMap PLine.segs)))
    (hap : Apart R.tol (Ends (h.vals (G.flatMap PLine.segs))))
    (walls : ℕ → List ℕ) (hW : ∀ i < G.length, ∀ s ∈ walls i, s < h.nseg) (H : List (Seg K)) (hH : ClosedChain H)
    (hnd : (H.map Seg.i).Nodup) (h3 : 3 ≤ H.length) (hn : H.length < 250) (hapH : Apart R.tol {p | p ∈ H.map Seg.i})
    (hdH : SameDrawing (h.vals ((List.range G.length).flatMap walls)) H) :
    ((∃ r, R.triangleMesh T.lib h' (h'.vals P.segs) (T.ω 0) T.fuel = .ok r) →
      ∃ h2, R.behalterRooms π fuel T more inter ω cfuel h G walls = .ok (h2, [⟨0, [List.range G.length], []⟩])) ∧
    (∀ x, R.triangleMesh T.lib h' (h'.vals P.segs) (T.ω 0) T.fuel = .error (some x) →
      R.behalterRooms π fuel T more inter ω cfuel h G walls = .raised x) := by
  have t := (findLoops_ok hR π hπ fuel h G hw hG h' g [P] e).2.2
  obtain ⟨k1, k2⟩ := C111_one_loop (R := R) π fuel T more h h' G g P e
  constructor
  · intro hr
    have hd' : SameDrawing (h'.vals ((List.range G.length).flatMap walls)) H := by
      refine (sameDrawing_tame t ?_).trans hdH
      intro s hs
      obtain ⟨i, hi, hs⟩ := List.mem_flatMap.1 hs
      exact hW i (List.mem_range.1 hi) s hs
    obtain ⟨h2, l, e2, -, -, -⟩ := C111_group_cycles hR walls h' 0 (List.range G.length) H hH hnd h3 hapH hd' hn
    refine ⟨h2, ?_⟩
    unfold Rt.behalterRooms
    rw [k1 hr]
    dsimp only
    rw [C111_all_parts hR h h' t G hG P hd hap, e2]
    rfl
  · intro x hx
    unfold Rt.behalterRooms
    rw [k2 x hx]

/-- the graphs of a cylindrical shell and its two heads draw a hexagon -/
theorem vessel_hexagon (hE : R.IsExact) {m : MantelDim K} (hs : Sound m) (hcyl : m.d1 = m.d0) (k1 k2 : K) {l : List (Seg K)}
    (hv : l.Perm ([rightWall m, leftWall m] ++
      R.headGraph ⟨m.posV + m.h, m.posH, m.d0, k1, 1⟩ ++ R.headGraph ⟨m.posV, m.posH, m.d0, k2, -1⟩)) :
    ∃ t u : K, 0 < t ∧ 0 < u ∧ SameDrawing l (hexagon m.posH m.posV (m.d0 / 2) m.h t u) := by
  have hd6 : 1 / 10 ^ 6 ≤ m.d0 := le_trans (by norm_num) hs.wide
  obtain ⟨a2, b2, c2, hg2, ea2, ec2, hbx2, hby2, -⟩ :=
    C74_reference_points hE ⟨m.posV + m.h, m.posH, m.d0, k1, 1⟩ hs.posH (hs.posV.add hs.h) hs.d0 hd6 (Or.inl rfl)
  obtain ⟨a3, b3, c3, hg3, ea3, ec3, hbx3, hby3, -⟩ :=
    C74_reference_points hE ⟨m.posV, m.posH, m.d0, k2, -1⟩ hs.posH hs.posV hs.d0 hd6 (Or.inr rfl)
  dsimp only at *
  set t := 1 * (b2.y - (m.posV + m.h)) with ht
  set u := -1 * (b3.y - m.posV) with hu
  have eb2 : b2 = ⟨m.posH, m.posV + m.h + t⟩ := by
    rcases b2 with ⟨bx, bY⟩
    simp only at hbx2 ht ⊢
    rw [hbx2, ht]; congr 1; ring
  have eb3 : b3 = ⟨m.posH, m.posV - u⟩ := by
    rcases b3 with ⟨bx, bY⟩
    simp only at hbx3 hu ⊢
    rw [hbx3, hu]; congr 1; ring
  rw [hg2, hg3, ea2, ea3, ec2, ec3, eb2, eb3] at hv
  refine ⟨t, u, hby2, hby3, [rightWall m, ⟨⟨m.posH, m.posV + m.h + t⟩, ⟨m.posH + m.d0 / 2, m.posV + m.h⟩, .wall⟩,
      ⟨⟨m.posH - m.d0 / 2, m.posV + m.h⟩, ⟨m.posH, m.posV + m.h + t⟩, .wall⟩, leftWall m,
      ⟨⟨m.posH - m.d0 / 2, m.posV⟩, ⟨m.posH, m.posV - u⟩, .wall⟩,
      ⟨⟨m.posH, m.posV - u⟩, ⟨m.posH + m.d0 / 2, m.posV⟩, .wall⟩], ?_, ?_⟩
  · refine List.Perm.trans ?_ hv.symm
    classical
    rw [List.perm_iff_count]
    intro s
    simp only [List.cons_append, List.nil_append, List.count_cons, List.count_nil]
    omega
  · unfold hexagon
    refine .cons (Or.inl ⟨rfl, ?_⟩) (.cons (Or.inr ⟨rfl, rfl⟩) (.cons (Or.inr ⟨rfl, rfl⟩) (.cons (Or.inl ⟨?_, rfl⟩)
      (.cons (Or.inl ⟨rfl, rfl⟩) (.cons (Or.inl ⟨rfl, rfl⟩) .nil)))))
    · unfold rightWall; rw [hcyl]
    · unfold leftWall; rw [hcyl]

/-- C111: a vessel of a cylindrical shell and a head at each of its ends, in any order, whose walls draw a closed outline of
fewer than 250 sides: if the triangulation of its loop ends without an exception, there is exactly one room, with all parts as
its outer wall and no inner wall. -/
theorem C111_vessel (hE : R.IsExact) {m : MantelDim K} (hs : Sound m) (hcyl : m.d1 = m.d0) (hh : 1 / 10 ^ 5 ≤ m.h) (k1 k2 : K)
    (π : SetOrder) (hπ : π.Ok) (fuel : ℕ) (hf : 12 ≤ fuel) (h : Heap K) (hw : h.WF) (G : List PLine)
    (hG : ∀ P ∈ G, ∀ s ∈ P.segs, s < h.nseg)
    (hv : (h.vals (G.flatMap PLine.segs)).Perm ([rightWall m, leftWall m] ++
      R.headGraph ⟨m.posV + m.h, m.posH, m.d0, k1, 1⟩ ++ R.headGraph ⟨m.posV, m.posH, m.d0, k2, -1⟩))
    (walls : ℕ → List ℕ) (hW : ∀ i < G.length, ∀ s ∈ walls i, s < h.nseg) (H : List (Seg K)) (hH : ClosedChain H)
    (hnd : (H.map Seg.i).Nodup) (h3 : 3 ≤ H.length) (hn : H.length < 250) (hapH : Apart R.tol {p | p ∈ H.map Seg.i})
    (hdH : SameDrawing (h.vals ((List.range G.length).flatMap walls)) H)
    (T : TriEnv K) (more : KeepMore K) (inter : List ℕ → List ℕ → List ℕ) (ω : ℕ → ℕ → ℕ → ℕ → Pt K) (cfuel : ℕ) :
    ∃ (h' : Heap K) (P : PLine), ClosedChain (h'.vals P.segs) ∧ SameDrawing (h'.vals P.segs) (h.vals (G.flatMap PLine.segs)) ∧
      ((∃ r, R.triangleMesh T.lib h' (h'.vals P.segs) (T.ω 0) T.fuel = .ok r) →
        ∃ h2, R.behalterRooms π fuel T more inter ω cfuel h G walls = .ok (h2, [⟨0, [List.range G.length], []⟩])) ∧
      (∀ x, R.triangleMesh T.lib h' (h'.vals P.segs) (T.ω 0) T.fuel = .error (some x) →
        R.behalterRooms π fuel T more inter ω cfuel h G walls = .raised x) := by
  obtain ⟨h', g, P, e, hc, hd⟩ := C110_vessel hE hs hcyl hh k1 k2 π hπ fuel hf h hw G hG hv
  obtain ⟨t, u, ht, hu, hx⟩ := vessel_hexagon hE hs hcyl k1 k2 hv
  have hd0 : 0 < m.d0 := lt_of_lt_of_le (by positivity) hs.wide
  have hw2 : 1 / 10 ^ 5 ≤ m.d0 / 2 := by
    have := hs.wide
    have e5 : (1 : K) / 10 ^ 5 = 1 / 100000 := by norm_num
    rw [e5]; linarith
  have htol : R.tol = 1 / 10 ^ 5 := by
    unfold Rt.tol
    rw [hE.mul', hE.eps']; norm_num
  have hconv := hexagon_convex (x := m.posH) (y := m.posV) (w := m.d0 / 2) (h := m.h) (by positivity)
    (lt_of_lt_of_le (by positivity) hh) ht hu
  have hap : Apart R.tol (Ends (h.vals (G.flatMap PLine.segs))) := by
    rw [Ends_sameDrawing hx, Ends_closedChain hconv.chain, htol]
    exact hexagon_apart (by positivity) hw2 hh ht hu
  exact ⟨h', P, hc, hd, C111_one_room hE.isRounding π hπ fuel T more inter ω cfuel h hw G hG h' g P e hd hap walls hW H hH hnd h3 hn
    hapH hdH⟩

/-- a shell of diameter 2000 and height 3000 with two heads whose Walls are those of their graphs: whatever the order of the
sets, it has the one room (here with a library that finds no triangles) -/
example (π : SetOrder) (hπ : π.Ok) (T : TriEnv ℝ) (more : KeepMore ℝ) (inter : List ℕ → List ℕ → List ℕ)
    (ω : ℕ → ℕ → ℕ → ℕ → Pt ℝ) (cfuel : ℕ) (hT : ∀ vs ns, T.lib vs ns = none) :
        ∃ h2, exReal.behalterRooms π 12 T more inter ω cfuel
          (sixWalls ([rightWall ⟨0, 0, 2000, 2000, 3000⟩, leftWall ⟨0, 0, 2000, 2000, 3000⟩] ++
            exReal.headGraph ⟨0 + 3000, 0, 2000, 0, 1⟩ ++ exReal.headGraph ⟨0, 0, 2000, 0, -1⟩))
          [⟨[0, 1], false⟩, ⟨[2, 3], false⟩, ⟨[4, 5], false⟩] (fun i => [2 * i, 2 * i + 1]) =
            .ok (h2, [⟨0, [[0, 1, 2]], []⟩]) := by
  have hs : Sound (⟨0, 0, 2000, 2000, 3000⟩ : MantelDim ℝ) := by
    refine ⟨?_, ?_, ?_, ?_, ?_, ?_, ?_, ?_, ?_⟩ <;> norm_num
    · exact_mod_cast grid_intCast (K := ℝ) 0
    · exact_mod_cast grid_intCast (K := ℝ) 0
    · exact_mod_cast grid_intCast (K := ℝ) 3000
    · exact_mod_cast grid_intCast (K := ℝ) 1000
    · exact_mod_cast grid_intCast (K := ℝ) 1000
  obtain ⟨t, u, ht, hu, hx⟩ := vessel_hexagon exReal_isExact hs rfl 0 0 (List.Perm.refl _)
  dsimp only at hx
  have hconv := hexagon_convex (x := (0 : ℝ)) (y := 0) (w := 2000 / 2) (h := 3000) (by norm_num) (by norm_num) ht hu
  have htol : exReal.tol = 1 / 10 ^ 5 := by
    unfold Rt.tol
    rw [exReal_isExact.mul', exReal_isExact.eps']; norm_num
  obtain ⟨h', P, -, hd, hok, -⟩ := C111_vessel exReal_isExact hs rfl (by norm_num) 0 0 π hπ 12 le_rfl
    (sixWalls ([rightWall ⟨0, 0, 2000, 2000, 3000⟩, leftWall ⟨0, 0, 2000, 2000, 3000⟩] ++
        exReal.headGraph ⟨0 + 3000, 0, 2000, 0, 1⟩ ++ exReal.headGraph ⟨0, 0, 2000, 0, -1⟩))
    (by intro s hs; unfold sixWalls at *; dsimp only at *; omega)
    [⟨[0, 1], false⟩, ⟨[2, 3], false⟩, ⟨[4, 5], false⟩]
    (by
      intro P hP s hs
      simp only [List.mem_cons, List.not_mem_nil, or_false] at hP
      rcases hP with rfl | rfl | rfl <;> simp at hs <;> rcases hs with rfl | rfl <;> decide)
    (List.Perm.refl _) (fun i => [2 * i, 2 * i + 1])
    (by
      intro i hi s hs
      simp only [List.mem_cons, List.not_mem_nil, or_false] at hs
      simp only [List.length_cons, List.length_nil] at hi
      unfold sixWalls
      dsimp only
      omega)
    _ hconv.chain hconv.nodup (by simp [hexagon]) (by simp [hexagon])
    (by rw [htol]; exact hexagon_apart (by norm_num) (by norm_num) (by norm_num) ht hu)
    (by
      have e : (List.range 3).flatMap (fun i => [2 * i, 2 * i + 1]) = [0, 1, 2, 3, 4, 5] := by decide
      show SameDrawing (Heap.vals _ ((List.range 3).flatMap fun i => [2 * i, 2 * i + 1])) _
      rw [e]
      exact hx) T more inter ω cfuel
  refine hok ⟨[], ?_⟩
  obtain ⟨ns, e, -⟩ := C99_input exReal_isExact.isRounding (h'.vals P.segs) (by
    rw [Ends_sameDrawing (hd.trans hx), Ends_closedChain hconv.chain, htol]
    exact hexagon_apart (by norm_num) (by norm_num) (by norm_num) ht hu)
  unfold Rt.triangleMesh
  rw [e]
  dsimp only
  rw [hT]

end Srep
