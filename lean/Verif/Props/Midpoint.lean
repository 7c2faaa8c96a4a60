import Verif.Props.Triangle

/-! The midpoint of a polyline (C88). -/

set_option linter.unusedSectionVars false

namespace Srep
open Rt
variable {K : Type} [Field K] [LinearOrder K] [IsStrictOrderedRing K] [FloorRing K]

theorem psum_exact {R : Rt K} (hE : R.IsExact) (l : List K) : R.psum l = l.sum := by
  have key : ∀ (l : List K) (a : K), l.foldl R.add a = a + l.sum := by
    intro l
    induction l with
    | nil => intro a; simp
    | cons b l ih => intro a; rw [List.foldl_cons, ih, hE.add', List.sum_cons, add_assoc]
  unfold psum
  rw [key, zero_add]

/-- C88: if the different vertices are at least 1e-5 apart, `midpoint` is the average of the different vertices (`vs`
lists them in any order), each coordinate rounded to 8 decimals: every vertex counts once, however many segments meet
there. -/
theorem C88_average {R : Rt K} (hE : R.IsExact) (l : List (Seg K)) (hne : l ≠ []) (h : Apart (1 / 10 ^ 5) (Ends l))
    (vs : List (Pt K)) (hnd : vs.Nodup) (hvs : ∀ p, p ∈ vs ↔ p ∈ Ends l) :
    R.plMidpoint l = .ok ⟨rhe8 ((vs.map Pt.x).sum / vs.length), rhe8 ((vs.map Pt.y).sum / vs.length)⟩ := by
  have hR := hE.isRounding
  have hs := (sep_of_Ends hR (l := l) (by rw [hE.tol']; exact h)).hashOK
  have hp : (R.pointSet l).Perm vs := by
    rw [List.perm_ext_iff_of_nodup (nodup_pointSet hR hs) hnd]
    intro p
    rw [mem_pointSet hR hs, hvs]
  unfold plMidpoint
  have hne' : R.pointSet l ≠ [] := by
    obtain ⟨s, t, rfl⟩ := List.exists_cons_of_ne_nil hne
    intro e
    have := (mem_pointSet hR hs s.i).2 ⟨s, by simp, Or.inl rfl⟩
    rw [e] at this
    simp at this
  dsimp only
  rw [if_neg hne', hE.mkPt', psum_exact hE, psum_exact hE, hE.div', hE.div', (hp.map Pt.x).sum_eq, (hp.map Pt.y).sum_eq,
    hp.length_eq]

/-- C88: the midpoint of an empty polyline raises ZeroDivisionError. -/
theorem C88_empty (R : Rt K) : R.plMidpoint [] = .error .zeroDiv := rfl

/-- C88: the midpoint depends on the vertices only, not on the order or direction of the segments, nor on how many
segments join the same vertices. -/
theorem C88_vertices_only {R : Rt K} (hE : R.IsExact) (l m : List (Seg K)) (hl : l ≠ []) (hm : m ≠ [])
    (h : Apart (1 / 10 ^ 5) (Ends l)) (e : Ends l = Ends m) : R.plMidpoint l = R.plMidpoint m := by
  have hR := hE.isRounding
  have hs := (sep_of_Ends hR (l := l) (by rw [hE.tol']; exact h)).hashOK
  rw [C88_average hE l hl h (R.pointSet l) (nodup_pointSet hR hs) fun p => mem_pointSet hR hs p,
    C88_average hE m hm (by rw [← e]; exact h) (R.pointSet l) (nodup_pointSet hR hs)
      fun p => by rw [mem_pointSet hR hs p, e]]

/-- a triangle in binary64: (1, 1), (5, 1), (3, 4) -/
example : exRt.plMidpoint [exSeg 1 1 5 1, exSeg 5 1 3 4, exSeg 3 4 1 1] = .ok ⟨3, 2⟩ := by decide +kernel

end Srep
