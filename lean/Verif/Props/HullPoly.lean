import Verif.Props.HullConvex
import Verif.Props.DelaunayOf
import Verif.Props.Ray
import Verif.Props.Group
import Verif.Props.TriangulateEx
import Mathlib.Topology.Algebra.Order.Field

/-! The polygon returned by `convex_hull`: its shape, its point test and its `Delaunay2d`. -/

set_option linter.unusedSectionVars false

namespace Srep
open Rt
variable {K : Type} [Field K] [LinearOrder K] [IsStrictOrderedRing K] [FloorRing K]

/-- C139, exact arithmetic: for points with at most 8 decimals, at least 1e-5 apart and not all on one line, `convex_hull` returns a
polygon of at least three sides which is strictly convex and passed counter-clockwise; its corners are exactly the extreme points. -/
theorem C139_convex {R : Rt K} (hE : R.IsExact) (ps : List (K × K)) (hg : ∀ p ∈ ps, Grid p.1 ∧ Grid p.2)
    (hap : Apart (1 / 10 ^ 5) {q | ∃ p ∈ ps, q = pairPt p})
    (hpl : ∃ x ∈ ps, ∃ y ∈ ps, ∃ z ∈ ps, det3 (pairPt x) (pairPt y) (pairPt z) ≠ 0) :
    ∃ l, R.convexHull ps = .inr (.ok l) ∧ ConvexCcw l ∧ 3 ≤ l.length ∧
      (∀ p, p ∈ Ends l ↔ p.pair ∈ (_root_.convexHull K {q | q ∈ ps}).extremePoints K) ∧
      ∀ p : K × K, p ∈ _root_.convexHull K {q | q ∈ ps} ↔ ∀ s ∈ l, 0 ≤ det3 s.i s.j (pairPt p) := by
  have h2 : ∃ p ∈ ps, ∃ q ∈ ps, p ≠ q := by
    obtain ⟨x, hx, y, hy, z, hz, hd⟩ := hpl
    refine ⟨x, hx, y, hy, ?_⟩
    rintro rfl
    apply hd
    unfold det3; ring
  have hpl' : Plane {q | ∃ p ∈ ps, q = pairPt p} := by
    obtain ⟨x, hx, y, hy, z, hz, hd⟩ := hpl
    exact ⟨_, ⟨x, hx, rfl⟩, _, ⟨y, hy, rfl⟩, _, ⟨z, hz, rfl⟩, hd⟩
  obtain ⟨l, e, hlen, hl, -⟩ := C34_polyline hE ps h2 hg hap
  obtain ⟨w, H, hinj, hw⟩ := hullCycle_nodes hE ps hpl'
  have hthree := H.three
  have hseg : ∀ k (hk : k < l.length), l[k].i = w k ∧ l[k].j = w (k + 1) := by
    intro k hk
    rw [hl k hk (hlen ▸ hk)]
    refine ⟨(hw k (hlen ▸ hk)).symm, ?_⟩
    rw [← H.mod_eq (k + 1)]
    exact (hw _ (Nat.mod_lt _ (by omega))).symm
  have hmem : ∀ s ∈ l, ∃ k, k < l.length ∧ s.i = w k ∧ s.j = w (k + 1) := by
    intro s hs
    obtain ⟨k, hk, rfl⟩ := List.getElem_of_mem hs
    exact ⟨k, hk, hseg k hk⟩
  have hch : ClosedChain l := by
    intro k hk
    have hk' : (k + 1) % l.length < l.length := Nat.mod_lt _ (by omega)
    rw [(hseg k hk).2, (hseg _ hk').1, hlen, H.mod_eq]
  refine ⟨l, e, ⟨hch, ?_, ?_⟩, by omega, ?_, ?_⟩
  · rw [List.nodup_iff_injective_get]
    intro a b hab
    have ha : a.1 < l.length := by simpa using a.2
    have hb : b.1 < l.length := by simpa using b.2
    simp only [List.get_eq_getElem, List.getElem_map] at hab
    rw [(hseg _ ha).1, (hseg _ hb).1] at hab
    exact Fin.ext (hinj _ (hlen ▸ ha) _ (hlen ▸ hb) hab)
  · intro s hs o ho
    obtain ⟨k, -, h1, h3⟩ := hmem s hs
    obtain ⟨m, -, h4, -⟩ := hmem o ho
    rw [h1, h3, h4]
    exact H.strict k m
  · intro p
    rw [← (C34_convexHull hE ps h2).2]
    show _ ↔ p.pair ∈ R.hullNodes ps
    constructor
    · intro hp
      have : ∃ s ∈ l, p = s.i := by
        obtain ⟨s, hs, rfl | rfl⟩ := hp
        · exact ⟨s, hs, rfl⟩
        · obtain ⟨k, hk, rfl⟩ := List.getElem_of_mem hs
          exact ⟨_, List.getElem_mem _, hch k hk⟩
      obtain ⟨s, hs, rfl⟩ := this
      obtain ⟨k, hk, rfl⟩ := List.getElem_of_mem hs
      rw [hl k hk (hlen ▸ hk)]
      exact List.getElem_mem _
    · intro hp
      obtain ⟨k, hk, e⟩ := List.getElem_of_mem hp
      have hk' : k < l.length := hlen ▸ hk
      refine ⟨l[k], List.getElem_mem _, Or.inl ?_⟩
      rw [hl k hk' hk, e]
      rfl
  · intro p
    rw [C34_half_planes hE ps hpl]
    constructor
    · intro h s hs
      obtain ⟨k, hk, rfl⟩ := List.getElem_of_mem hs
      rw [hl k hk (hlen ▸ hk)]
      exact h k (hlen ▸ hk)
    · intro h k hk
      have hk' : k < l.length := hlen ▸ hk
      have := h _ (List.getElem_mem hk')
      rw [hl k hk' hk] at this
      exact this

/-- C139: the triangles of the `Delaunay2d` of the hull cover exactly the convex hull of the points given. -/
theorem C139_mesh {R : Rt K} (hE : R.IsExact) (hA : R.IsExactAngle) {O : Orders} (hO : O.Valid) (ps : List (K × K))
    (hg : ∀ p ∈ ps, Grid p.1 ∧ Grid p.2) (hap : Apart (1 / 10 ^ 5) {q | ∃ p ∈ ps, q = pairPt p})
    (hpl : ∃ x ∈ ps, ∃ y ∈ ps, ∃ z ∈ ps, det3 (pairPt x) (pairPt y) (pairPt z) ≠ 0)
    (hgp : ∀ p ∈ (_root_.convexHull K {q | q ∈ ps}).extremePoints K, ∀ q ∈ (_root_.convexHull K {q | q ∈ ps}).extremePoints K,
      ∀ r ∈ (_root_.convexHull K {q | q ∈ ps}).extremePoints K, p ≠ q → q ≠ r → p ≠ r →
        1 / 10 ^ 8 < |det3 (pairPt p) (pairPt q) (pairPt r)|) (cand : ℕ → Pt K) (ω : ℕ → ℕ → Pt K) (ifuel fuel : ℕ) :
    ∃ l, R.convexHull ps = .inr (.ok l) ∧ ∃ s, R.updatePoints l 0 cand ω ifuel fuel = some s ∧ ∀ t : List (Pt K), t.Perm s →
      ∃ M f0, (∀ f, f0 ≤ f → R.delaunay O t f = some (.ok M)) ∧ M.Triangulates t ∧
        (⋃ T ∈ M.tris, M.region T) = _root_.convexHull K {q | q ∈ ps} := by
  obtain ⟨l, e, hc, h3, hx, hh⟩ := C139_convex hE ps hg hap hpl
  have hin : ∀ p ∈ Ends l, p.pair ∈ ps := by
    intro p hp
    have := extremePoints_convexHull_subset (𝕜 := K) (A := {q : K × K | q ∈ ps}) ((hx p).1 hp)
    exact this
  have hst : ∀ p ∈ ps, R.Stored (pairPt p) := by
    intro p hp
    have := hE.mkPt_grid (hg p hp).1 (hg p hp).2
    unfold Rt.mkPt at this
    rw [Pt.mk.injEq] at this
    exact this
  have hapl : Apart R.tol (Ends l) := by
    rw [hE.tol']
    exact hap.mono fun p hp => ⟨p.pair, hin p hp, rfl⟩
  have hi : ∀ p ∈ l.map Seg.i, p.pair ∈ (_root_.convexHull K {q | q ∈ ps}).extremePoints K := by
    intro p hp
    obtain ⟨s, hs, rfl⟩ := List.mem_map.1 hp
    exact (hx _).1 ⟨s, hs, Or.inl rfl⟩
  have hne : ∀ {p q : Pt K}, p ≠ q → p.pair ≠ q.pair := fun h e => h (Pt.ext' (congrArg Prod.fst e) (congrArg Prod.snd e))
  refine ⟨l, e, ?_⟩
  obtain ⟨s, h1, h2⟩ := C132_convex hE hA hO hc (sep_of_ends hE.isRounding hapl).hashOK
    (fun p hp => hst _ (hin p hp)) ⟨hc.nodup, fun p hp q hq r hr a b c =>
      hgp _ (hi p hp) _ (hi q hq) _ (hi r hr) (hne a) (hne b) (hne c)⟩ h3 cand ω ifuel fuel
  refine ⟨s, h1, fun t ht => ?_⟩
  obtain ⟨M, f0, a1, a2, a3⟩ := h2 t ht
  refine ⟨M, f0, a1, a2, ?_⟩
  rw [a3]
  ext q
  exact (hh q).symm

/-- C139: `is_internal_point` of the hull is True for the points in the interior of the convex hull and False for those outside of it, for
targets in general position. -/
theorem C139_point {R : Rt ℝ} (hE : R.IsExact) (ps : List (ℝ × ℝ)) (hg : ∀ p ∈ ps, Grid p.1 ∧ Grid p.2)
    (hap : Apart (1 / 10 ^ 5) {q | ∃ p ∈ ps, q = pairPt p})
    (hpl : ∃ x ∈ ps, ∃ y ∈ ps, ∃ z ∈ ps, det3 (pairPt x) (pairPt y) (pairPt z) ≠ 0) :
    ∃ l, R.convexHull ps = .inr (.ok l) ∧ ∀ (p : ℝ × ℝ) (ω : ℕ → Pt ℝ),
      (∀ k < 3, GoodTarget l (pairPt p) (ω k) ∧ Spread l (pairPt p) (ω k)) → ∀ fuel : ℕ,
        (p ∈ interior (_root_.convexHull ℝ {q | q ∈ ps}) → R.plInternal l (pairPt p) ω (fuel + 1) = some true) ∧
        (p ∉ _root_.convexHull ℝ {q | q ∈ ps} → R.plInternal l (pairPt p) ω (fuel + 1) = some false) := by
  obtain ⟨l, e, hc, h3, -, hh⟩ := C139_convex hE ps hg hap hpl
  refine ⟨l, e, fun p ω hω fuel => ⟨fun hp => ?_, fun hp => ?_⟩⟩
  · refine (C84_inside hE l hc (by intro e; rw [e] at h3; simp at h3) _ ?_ ω hω fuel).1
    intro s hs
    have h0 := (hh p).1 (interior_subset hp) s hs
    refine lt_of_le_of_ne h0 fun hz => ?_
    have hne : 0 < (s.j.x - s.i.x) ^ 2 + (s.j.y - s.i.y) ^ 2 := by
      by_contra hn
      have hx : s.j.x - s.i.x = 0 := by nlinarith [sq_nonneg (s.j.x - s.i.x), sq_nonneg (s.j.y - s.i.y)]
      have hy : s.j.y - s.i.y = 0 := by nlinarith [sq_nonneg (s.j.x - s.i.x), sq_nonneg (s.j.y - s.i.y)]
      have hij : s.i = s.j := Pt.ext' (by linarith) (by linarith)
      obtain ⟨k, hk, rfl⟩ := List.getElem_of_mem hs
      have hk' : (k + 1) % l.length < l.length := Nat.mod_lt _ (by omega)
      rw [hc.chain k hk] at hij
      have hnd := List.nodup_iff_injective_get.1 hc.nodup
      have hkk := @hnd ⟨k, by simpa using hk⟩ ⟨(k + 1) % l.length, by simpa using hk'⟩ (by simpa using hij)
      have hkk' : k = (k + 1) % l.length := congrArg Fin.val hkk
      rcases Nat.lt_or_ge (k + 1) l.length with h | h
      · rw [Nat.mod_eq_of_lt h] at hkk'; omega
      · rw [show k + 1 = l.length by omega, Nat.mod_self] at hkk'; omega
    have hcont : Continuous fun d : ℝ => ((p.1 + d * (s.j.y - s.i.y), p.2 - d * (s.j.x - s.i.x)) : ℝ × ℝ) := by fun_prop
    have hev : ∀ᶠ d in nhds (0 : ℝ), ((p.1 + d * (s.j.y - s.i.y), p.2 - d * (s.j.x - s.i.x)) : ℝ × ℝ) ∈
        _root_.convexHull ℝ {q | q ∈ ps} := by
      refine hcont.tendsto 0 |>.eventually ?_
      simpa using mem_interior_iff_mem_nhds.1 hp
    obtain ⟨d, hd, hd0⟩ := ((hev.filter_mono nhdsWithin_le_nhds).and (self_mem_nhdsWithin (s := Set.Ioi (0 : ℝ)))).exists
    have := (hh _).1 hd s hs
    have hd0' : 0 < d := hd0
    unfold det3 pairPt at this hz
    simp only at this hz
    nlinarith [mul_pos hd0' hne]
  · refine (C84_outside hE l hc _ ?_ ω hω fuel).1
    by_contra hn
    apply hp
    rw [hh]
    intro s hs
    by_contra hlt
    exact hn ⟨s, hs, not_le.1 hlt⟩

/-- non-vacuity: a square and a point inside of it meet the hypotheses of `C139_convex`, `C139_mesh` and `C139_point` -/
example : ∃ ps : List (ℝ × ℝ), ps.length = 5 ∧ (∀ p ∈ ps, Grid p.1 ∧ Grid p.2) ∧
    Apart (1 / 10 ^ 5) {q | ∃ p ∈ ps, q = pairPt p} ∧
    (∃ x ∈ ps, ∃ y ∈ ps, ∃ z ∈ ps, det3 (pairPt x) (pairPt y) (pairPt z) ≠ 0) ∧
    ∀ p ∈ (_root_.convexHull ℝ {q | q ∈ ps}).extremePoints ℝ, ∀ q ∈ (_root_.convexHull ℝ {q | q ∈ ps}).extremePoints ℝ,
      ∀ r ∈ (_root_.convexHull ℝ {q | q ∈ ps}).extremePoints ℝ, p ≠ q → q ≠ r → p ≠ r →
        1 / 10 ^ 8 < |det3 (pairPt p) (pairPt q) (pairPt r)| := by
  have hG := ipt_general (l := [(0, 0), (4, 0), (4, 4), (0, 4), (1, 2)]) (by decide) (by decide)
  have hin : ∀ p ∈ ([(0, 0), (4, 0), (4, 4), (0, 4), (1, 2)] : List (ℤ × ℤ)).map fun z => ((z.1 : ℝ), (z.2 : ℝ)),
      pairPt p ∈ ([(0, 0), (4, 0), (4, 4), (0, 4), (1, 2)] : List (ℤ × ℤ)).map ipt := by
    intro p hp
    obtain ⟨z, hz, rfl⟩ := List.mem_map.1 hp
    exact List.mem_map.2 ⟨z, hz, rfl⟩
  refine ⟨([(0, 0), (4, 0), (4, 4), (0, 4), (1, 2)] : List (ℤ × ℤ)).map fun z => ((z.1 : ℝ), (z.2 : ℝ)), by simp, ?_, ?_, ?_, ?_⟩
  · intro p hp
    obtain ⟨z, -, rfl⟩ := List.mem_map.1 hp
    exact ⟨grid_intCast (K := ℝ) z.1, grid_intCast (K := ℝ) z.2⟩
  · rintro p ⟨a, ha, rfl⟩ q ⟨b, hb, rfl⟩
    simp only [List.map_cons, List.map_nil, List.mem_cons, List.not_mem_nil, or_false] at ha hb
    rcases ha with rfl | rfl | rfl | rfl | rfl <;> rcases hb with rfl | rfl | rfl | rfl | rfl <;>
      norm_num [pairPt]
  · exact ⟨(0, 0), by simp, (4, 0), by simp, (4, 4), by simp, by norm_num [det3, pairPt]⟩
  · have hs := fun p hp => extremePoints_convexHull_subset (𝕜 := ℝ)
      (A := {q : ℝ × ℝ | q ∈ ([(0, 0), (4, 0), (4, 4), (0, 4), (1, 2)] : List (ℤ × ℤ)).map fun z => ((z.1 : ℝ), (z.2 : ℝ))}) (a := p) hp
    have hne : ∀ {p q : ℝ × ℝ}, p ≠ q → pairPt p ≠ pairPt q := fun h e =>
      h (Prod.ext (congrArg Pt.x e) (congrArg Pt.y e))
    intro p hp q hq r hr a b c
    exact hG.2 _ (hin p (hs p hp)) _ (hin q (hs q hq)) _ (hin r (hs r hr)) (hne a) (hne b) (hne c)

end Srep
