import Verif.Lemmas.TiledCount
import Verif.Props.TriangulateEx

/-! C120: the number of edges of the finished triangulation. -/

set_option linter.unusedSectionVars false

namespace Srep
open Cyc
variable {K : Type} [Field K] [LinearOrder K] [IsStrictOrderedRing K] [FloorRing K] {R : Rt K}

/-- C120, exact arithmetic: let `es` be what `getEdges` returns (geometry/SR_polygon.py:1300-1304), the keys of the table, each
once.  The edges with one triangle are exactly the sides of the hull; twice the number of edges is three times the number of
triangles plus the number of sides of the hull; and if `_pts.pop()` gives ascending numbers, there are `3 n - 3 - h` edges. -/
theorem C120_edges (hE : R.IsExact) (hA : R.IsExactAngle) {O : Orders} (hO : O.Valid) {ps : List (Pt K)}
    (hst : ∀ p ∈ ps, R.Stored p) (hg : GeneralPos ps) (h3 : 3 ≤ ps.length) {M : Mesh K} {f : ℕ}
    (h : R.delaunay O ps f = some (.ok M)) {es : List (ℤ × ℤ)} (hn : es.Nodup) (he : ∀ x, x ∈ es ↔ (M.e2t x).isSome) :
    (∀ x l, M.e2t x = some l → ((∃ n, l = [n]) ↔ x ∈ M.bnd ∨ (x.2, x.1) ∈ M.bnd)) ∧
    2 * es.length = 3 * M.tris.length + M.bnd.length ∧
    (O.pops ps.length = fromThree ps.length → es.length + M.bnd.length + 3 = 3 * ps.length) := by
  obtain ⟨M', f0, c, h1, -, -, hT, -, -, -, h4⟩ := delaunay_run hE hA hO hst hg h3
  obtain rfl : M = M' := by
    have a := delaunay_mono (le_max_left f f0) h
    rw [h1 _ (le_max_right f f0)] at a
    simpa using a.symm
  have hc := hT.count hn he
  refine ⟨fun x l hl => ?_, hc, fun hasc => ?_⟩
  · rw [← List.length_eq_one_iff]
    exact hT.one_iff hl
  · have := (h4 hasc).2
    omega

/-- there is such a list -/
theorem C120_keys (hE : R.IsExact) (hA : R.IsExactAngle) {O : Orders} (hO : O.Valid) {ps : List (Pt K)}
    (hst : ∀ p ∈ ps, R.Stored p) (hg : GeneralPos ps) (h3 : 3 ≤ ps.length) {M : Mesh K} {f : ℕ}
    (h : R.delaunay O ps f = some (.ok M)) :
    ∃ es : List (ℤ × ℤ), es.Nodup ∧ (∀ x, x ∈ es ↔ (M.e2t x).isSome) ∧ ∀ x ∈ es, 0 ≤ x.1 ∧ x.1 < x.2 ∧ x.2 < ps.length := by
  obtain ⟨M', f0, c, h1, -, h2, hT, -, -, -, -⟩ := delaunay_run hE hA hO hst hg h3
  obtain rfl : M = M' := by
    have a := delaunay_mono (le_max_left f f0) h
    rw [h1 _ (le_max_right f f0)] at a
    simpa using a.symm
  refine ⟨M.keys, List.nodup_dedup _, hT.mem_keys, fun x hx => ?_⟩
  obtain ⟨l, hl⟩ := Option.isSome_iff_exists.1 ((hT.mem_keys x).1 hx)
  obtain ⟨n, hn⟩ := List.exists_mem_of_ne_nil l (hT.full _ _ hl)
  obtain ⟨T, hTn, hlt, a, b⟩ := hT.cons.sound _ _ hl n hn
  have mT := List.mem_of_getElem? hTn
  have ha := hT.verts T mT _ a
  have hb := hT.verts T mT _ b
  have hlen := (sortedFrom_spec hE c ps).1.length_eq
  rw [← h2] at hlen
  rw [hlen] at hb
  exact ⟨ha.1, hlt, hb.2⟩

/-- non-vacuity: the five points -/
example : ∃ (M : Mesh ℝ) (f : ℕ) (es : List (ℤ × ℤ)), exReal.delaunay plainOrders (fivePts.map ipt) f = some (.ok M) ∧ es.Nodup ∧
    (∀ x, x ∈ es ↔ (M.e2t x).isSome) ∧ es.length + M.bnd.length = 12 := by
  obtain ⟨M, f0, h1, -⟩ := C120_triangulate exReal_isExact (Rt.real_isExactAngle _) plainOrders_valid ipt_stored
    fivePts_general (by simp [fivePts])
  obtain ⟨es, hn, he, -⟩ := C120_keys exReal_isExact (Rt.real_isExactAngle _) plainOrders_valid ipt_stored
    fivePts_general (by simp [fivePts]) (h1 f0 le_rfl)
  have := (C120_edges exReal_isExact (Rt.real_isExactAngle _) plainOrders_valid ipt_stored
    fivePts_general (by simp [fivePts]) (h1 f0 le_rfl) hn he).2.2 rfl
  refine ⟨M, f0, es, h1 f0 le_rfl, hn, he, ?_⟩
  simp only [fivePts, List.length_map, List.length_cons, List.length_nil] at this
  omega

end Srep
