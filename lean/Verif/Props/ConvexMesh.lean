import Verif.Props.ConvexAnswers
import Verif.Props.DelaunayOf

/-! What a polygon's own answers say about its `Delaunay2d`. -/

set_option linter.unusedSectionVars false

namespace Srep
open Rt

/-- C133: the triangles of a `Delaunay2d` of a polygon that calls itself convex cover exactly the polygon: the points on the inner
side of every side or on it; which side is the inner one is what `iscw` says. -/
theorem C133_mesh {R : Rt ℝ} (hE : R.IsExact) (hA : R.IsExactAngle) {O : Orders} (hO : O.Valid) {l : List (Seg ℝ)}
    (h3 : 3 ≤ l.length) (hc : ClosedChain l) (hap : Apart (1 / 10 ^ 5) {q | ∃ s ∈ l, q = s.i})
    (hst : ∀ s ∈ l, R.Stored s.i) (hg : GeneralPos (l.map Seg.i)) (h0 : ∀ x ∈ R.cps l, x ≠ 0) (hi : R.isConvex l = .ok true)
    (cand : ℕ → Pt ℝ) (ω : ℕ → ℕ → Pt ℝ) (ifuel fuel : ℕ) :
    ∃ cw, R.isCw l = .ok cw ∧ ∃ s, R.updatePoints l 0 cand ω ifuel fuel = some s ∧ ∀ t : List (Pt ℝ), t.Perm s →
      ∃ M f0, (∀ f, f0 ≤ f → R.delaunay O t f = some (.ok M)) ∧ M.Triangulates t ∧
        (⋃ T ∈ M.tris, M.region T) = {q : ℝ × ℝ | ∀ s ∈ l, if cw = true then det3 s.i s.j ⟨q.1, q.2⟩ ≤ 0
          else 0 ≤ det3 s.i s.j ⟨q.1, q.2⟩} := by
  have hends : ∀ q, q ∈ Ends l ↔ ∃ s ∈ l, q = s.i := by
    intro q
    constructor
    · rintro ⟨s, hs, rfl | rfl⟩
      · exact ⟨s, hs, rfl⟩
      · exact chain_ends hc hs
    · rintro ⟨s, hs, rfl⟩
      exact ⟨s, hs, Or.inl rfl⟩
  have hR := hE.isRounding
  have hh : R.HashOK (endPts l) := (sep_of_ends hR (by
    rw [hE.tol']; exact hap.mono fun p hp => (hends p).1 hp)).hashOK
  have hst' : ∀ p ∈ Ends l, R.Stored p := by
    intro p hp
    obtain ⟨s, hs, rfl⟩ := (hends p).1 hp
    exact hst s hs
  obtain ⟨b, hb, -⟩ := C51_cw_convex hR l hi
  refine ⟨b, hb, ?_⟩
  cases b
  · have hcv := C133_ccw hE hc hg.1 hap h0 hi hb
    simpa using C132_convex hE hA hO hcv hh hst' hg h3 cand ω ifuel fuel
  · have hcv := C133_cw hE hc hg.1 hap h0 hi hb
    have hlm : ∀ q, q ∈ Ends l ↔ q ∈ Ends (oppositeWay l) := by
      intro q
      constructor
      · rintro ⟨s, hs, h⟩
        exact ⟨⟨s.j, s.i, s.cls⟩, mem_oppositeWay.2 hs, h.symm⟩
      · rintro ⟨s, hs, h⟩
        exact ⟨_, mem_oppositeWay.1 hs, h.symm⟩
    have hperm : ((oppositeWay l).map Seg.i).Perm (l.map Seg.i) := by
      refine (List.perm_ext_iff_of_nodup hcv.nodup hg.1).2 fun q => ?_
      have e1 : ∀ m : List (Seg ℝ), ClosedChain m → (q ∈ m.map Seg.i ↔ q ∈ Ends m) := by
        intro m hm
        rw [List.mem_map]
        constructor
        · rintro ⟨s, hs, rfl⟩; exact ⟨s, hs, Or.inl rfl⟩
        · rintro ⟨s, hs, rfl | rfl⟩
          · exact ⟨s, hs, rfl⟩
          · obtain ⟨o, ho, e⟩ := chain_ends hm hs
            exact ⟨o, ho, e.symm⟩
      rw [e1 _ hcv.chain, e1 _ hc, hlm]
    obtain ⟨s, h1, h2⟩ := delaunay_drawn hE hA hO hcv hlm hh (fun p hp => hst' p ((hlm p).2 hp)) (hg.perm hperm)
      (by simpa [oppositeWay] using h3) cand ω ifuel fuel
    refine ⟨s, h1, fun t ht => ?_⟩
    obtain ⟨M, f0, a1, a2, a3⟩ := h2 t ht
    refine ⟨M, f0, a1, a2, ?_⟩
    rw [a3]
    ext q
    simp only [Set.mem_ofPred_eq, if_true]
    have sw : ∀ s : Seg ℝ, det3 s.j s.i ⟨q.1, q.2⟩ = - det3 s.i s.j ⟨q.1, q.2⟩ := by intro s; unfold det3; ring
    constructor
    · intro h s hs
      have := h ⟨s.j, s.i, s.cls⟩ (mem_oppositeWay.2 hs)
      have e := sw s
      simp only at this
      linarith
    · intro h s hs
      have := h _ (mem_oppositeWay.1 hs)
      have e := sw s
      simp only at this
      linarith

/-! ### example: the square passed clockwise -/

example : 3 ≤ sq12cw.length ∧ ClosedChain sq12cw ∧ Apart (1 / 10 ^ 5) {q | ∃ s ∈ sq12cw, q = s.i} ∧
    (∀ s ∈ sq12cw, exReal.Stored s.i) ∧ GeneralPos (sq12cw.map Seg.i) ∧ (∀ x ∈ exReal.cps sq12cw, x ≠ 0) ∧
    exReal.isConvex sq12cw = .ok true := by
  obtain ⟨hc, hv, -, hap, hneg⟩ := sq12cw_simple
  have e : sq12cw.map Seg.i = ([(1, 1), (1, 2), (2, 2), (2, 1)] : List (ℤ × ℤ)).map ipt := by
    simp [sq12cw, ipt]
  refine ⟨by simp [sq12cw], hc, hap, ?_, ?_, fun x hx => ne_of_lt (hneg x hx), ?_⟩
  · intro s hs
    refine ipt_stored (l := [(1, 1), (1, 2), (2, 2), (2, 1)]) s.i ?_
    rw [← e]
    exact List.mem_map_of_mem hs
  · rw [e]
    exact ipt_general (l := [(1, 1), (1, 2), (2, 2), (2, 1)]) (by decide) (by decide)
  · obtain ⟨c, e, h⟩ := (C51_convex exReal sq12cw).2 hv
    rw [e, h.2 (Or.inr fun x hx => le_of_lt (hneg x hx))]

end Srep
