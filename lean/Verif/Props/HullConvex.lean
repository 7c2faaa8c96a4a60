import Verif.Lemmas.HullD
import Verif.Props.Hull
import Verif.Spec.Example

/-! C34 once more: the nodes of `convex_hull` span the convex hull in the sense of Mathlib and are its extreme points. -/

set_option linter.unusedSectionVars false

namespace Srep
open Rt
variable {K : Type} [Field K] [LinearOrder K] [IsStrictOrderedRing K] [FloorRing K]

/-- collinear members: the two nodes are the smallest and the greatest member -/
theorem hullNodes_collinear {R : Rt K} (hE : R.IsExact) (ps : List (K × K)) (h : ∃ p ∈ ps, ∃ q ∈ ps, p ≠ q)
    (hcol : ∀ x ∈ ps, ∀ y ∈ ps, ∀ z ∈ ps, det3 (pairPt x) (pairPt y) (pairPt z) = 0) :
    ∃ lo ∈ ps, ∃ hi ∈ ps, R.hullNodes ps = [lo, hi] ∧ ∀ p ∈ ps, LexLe lo p ∧ LexLe p hi := by
  obtain ⟨hH, hmin, -, h2⟩ := C34_nodes hE ps h
  have h2 := h2 hcol
  obtain ⟨lo, hi, hv⟩ := List.length_eq_two.1 h2
  refine ⟨lo, hH.mem _ (by rw [hv]; simp), hi, hH.mem _ (by rw [hv]; simp), hv, fun p hp => ⟨hmin lo (by rw [hv]; simp) p hp, ?_⟩⟩
  have hs2 := two_le_hullSorted h
  obtain ⟨lo', hi', H, -⟩ := twoHalves (hullCross_exact hE) ps hs2
  have hL2 := H.L2
  have hU2 := H.U2
  obtain ⟨hlen, -, up⟩ := dropLast_append_get _ _ H.L2 H.U2 (H.Ll.trans H.U0.symm) (H.Ul.trans H.L0.symm)
  have hlen' : (R.hullNodes ps).length = ((R.hullHalf (hullSorted ps)).reverse.length - 1) +
      ((R.hullHalf (hullSorted ps).reverse).reverse.length - 1) := hlen
  rw [h2] at hlen'
  have hLe : (R.hullHalf (hullSorted ps)).reverse.length = 2 := by omega
  have e := (up 0 (by omega)).trans (H.U0.trans H.Ll.symm)
  have e' : (R.hullNodes ps)[1]'(by omega) = (R.hullHalf (hullSorted ps)).reverse[(R.hullHalf (hullSorted ps)).reverse.length - 1] := by
    rw [← e]
    unfold hullNodes
    congr 1
    rw [hlen, ← hlen', hLe]
  have hs := hullSorted_pairwise ps
  have hp' := (hullSorted_mem ps p).2 hp
  obtain ⟨a, t, hat⟩ : ∃ a t, hullSorted ps = a :: t := by
    cases hc : hullSorted ps with
    | nil => rw [hc] at hs2; simp at hs2
    | cons a t => exact ⟨a, t, rfl⟩
  have low := hullHalf_inv (hullCross_exact hE) a t (by rw [← hat]; exact hs)
  rw [← hat] at low
  obtain ⟨-, -, -, l4⟩ := low
  have hlast : (hullSorted ps).getLast? = some hi := by
    rw [← l4, ← List.getLast?_reverse, List.getLast?_eq_getElem?, List.getElem?_eq_getElem (by omega), ← e']
    simp [hv]
  obtain ⟨k, hk, rfl⟩ := List.getElem_of_mem hp'
  rw [← last_get hlast (by omega)]
  rcases Nat.lt_or_ge k ((hullSorted ps).length - 1) with hlt | hge
  · rcases List.pairwise_iff_getElem.1 hs k ((hullSorted ps).length - 1) hk (by omega) hlt with h | h
    · exact Or.inl h
    · exact Or.inr ⟨h.1, h.2.le⟩
  · have : k = (hullSorted ps).length - 1 := by omega
    subst this
    exact Or.inr ⟨rfl, le_rfl⟩

/-- a point on the line through `a` and `b`, lexicographically between them, is on the segment -/
theorem mem_segment_of_lex {a b p : K × K} (hne : a ≠ b) (hd : det3 (pairPt a) (pairPt b) (pairPt p) = 0)
    (h1 : LexLe a p) (h2 : LexLe p b) : p ∈ segment K a b := by
  obtain ⟨ax, ay⟩ := a
  obtain ⟨bx, b'⟩ := b
  obtain ⟨px, py⟩ := p
  simp only [det3, pairPt, LexLe] at *
  by_cases hx : ax = bx
  · subst hx
    have hpx : px = ax := by
      rcases h1 with h | h <;> rcases h2 with h' | h'
      · exact absurd (h.trans h') (lt_irrefl _)
      · exact h'.1
      · exact h.1.symm
      · exact h'.1
    subst hpx
    have hy1 : ay ≤ py := by simpa using h1
    have hy2 : py ≤ b' := by simpa using h2
    have hlt : ay < b' := lt_of_le_of_ne (hy1.trans hy2) fun e => hne (by rw [e])
    have hpos : 0 < b' - ay := sub_pos.2 hlt
    refine ⟨(b' - py) / (b' - ay), (py - ay) / (b' - ay), div_nonneg (by linarith) hpos.le, div_nonneg (by linarith) hpos.le, ?_, ?_⟩
    · rw [← add_div, div_eq_one_iff_eq hpos.ne']; ring
    · simp only [Prod.smul_mk, Prod.mk_add_mk, smul_eq_mul, Prod.mk.injEq]
      have := hpos.ne'
      constructor
      · field_simp; ring
      · field_simp; ring
  · have hx1 : ax ≤ px := by rcases h1 with h | h; exacts [h.le, h.1.le]
    have hx2 : px ≤ bx := by rcases h2 with h | h; exacts [h.le, h.1.le]
    have hpos : 0 < bx - ax := sub_pos.2 (lt_of_le_of_ne (hx1.trans hx2) hx)
    have hn := hpos.ne'
    refine ⟨(bx - px) / (bx - ax), (px - ax) / (bx - ax), div_nonneg (by linarith) hpos.le, div_nonneg (by linarith) hpos.le, ?_, ?_⟩
    · rw [← add_div, div_eq_one_iff_eq hn]; ring
    · simp only [Prod.smul_mk, Prod.mk_add_mk, smul_eq_mul, Prod.mk.injEq]
      constructor
      · field_simp; ring
      · field_simp; linear_combination -hd

/-- C34 (the hull as a set, exact arithmetic): the nodes span the same convex hull as the given members, and they are
exactly the extreme points of it — so no smaller set of points has this hull, and no other set of its extreme points. -/
theorem C34_convexHull {R : Rt K} (hE : R.IsExact) (ps : List (K × K)) (h : ∃ p ∈ ps, ∃ q ∈ ps, p ≠ q) :
    _root_.convexHull K {q | q ∈ R.hullNodes ps} = _root_.convexHull K {q | q ∈ ps} ∧
    {q | q ∈ R.hullNodes ps} = (_root_.convexHull K {q | q ∈ ps}).extremePoints K := by
  obtain ⟨hH, -⟩ := C34_nodes hE ps h
  by_cases hpl : Plane {q | ∃ p ∈ ps, q = pairPt p}
  · obtain ⟨w, H, hinj, hw⟩ := hullCycle_nodes hE ps hpl
    have hm := H.mem_convexHull hinj rfl hw
    have hsub : {q | q ∈ ps} ⊆ _root_.convexHull K {q | q ∈ R.hullNodes ps} := by
      intro p hp
      rw [hm]
      intro k
      exact H.left k _ ⟨p, hp, rfl⟩
    have heq : _root_.convexHull K {q | q ∈ R.hullNodes ps} = _root_.convexHull K {q | q ∈ ps} :=
      Set.Subset.antisymm (convexHull_mono fun q hq => hH.mem q hq) (convexHull_min hsub (convex_convexHull K _))
    refine ⟨heq, Set.Subset.antisymm ?_ ?_⟩
    · intro q hq
      rw [← heq]
      obtain ⟨k, hk, rfl⟩ := List.getElem_of_mem hq
      exact H.extreme_vertex (fun p hp => (hm p).1 hp) k _ (subset_convexHull K _ hq) (hw k hk)
    · rw [← heq]
      exact extremePoints_convexHull_subset
  · have hcol : ∀ x ∈ ps, ∀ y ∈ ps, ∀ z ∈ ps, det3 (pairPt x) (pairPt y) (pairPt z) = 0 := by
      intro x hx y hy z hz
      by_contra hc
      exact hpl ⟨_, ⟨x, hx, rfl⟩, _, ⟨y, hy, rfl⟩, _, ⟨z, hz, rfl⟩, hc⟩
    obtain ⟨lo, hlo, hi, hhi, hv, hle⟩ := hullNodes_collinear hE ps h hcol
    have hnd := hH.nodup
    rw [hv] at hnd hH ⊢
    have hne : lo ≠ hi := by simpa using hnd
    have hset : {q | q ∈ [lo, hi]} = ({lo, hi} : Set (K × K)) := by ext q; simp
    have hsub : {q | q ∈ ps} ⊆ _root_.convexHull K {q | q ∈ [lo, hi]} := by
      intro p hp
      rw [hset, convexHull_pair]
      exact mem_segment_of_lex hne (hcol _ hlo _ hhi _ hp) (hle p hp).1 (hle p hp).2
    have heq : _root_.convexHull K {q | q ∈ [lo, hi]} = _root_.convexHull K {q | q ∈ ps} :=
      Set.Subset.antisymm (convexHull_mono fun q hq => hH.mem q hq) (convexHull_min hsub (convex_convexHull K _))
    refine ⟨heq, Set.Subset.antisymm ?_ ?_⟩
    · rw [← heq, hset, convexHull_pair]
      have gen : ∀ a b : K × K, a ≠ b → a ∈ (segment K a b).extremePoints K := by
        intro a b hab
        refine ⟨left_mem_segment K a b, ?_⟩
        rw [segment_eq_image']
        rintro _ ⟨s, ⟨hs, -⟩, rfl⟩ _ ⟨t, ⟨ht, -⟩, rfl⟩ ⟨u, v, hu, hv, huv, e⟩
        have e2 : (u * s + v * t) • (b - a) = 0 := by
          have e3 : u • (a + s • (b - a)) + v • (a + t • (b - a)) = (u + v) • a + (u * s + v * t) • (b - a) := by
            module
          have e' : (u + v) • a + (u * s + v * t) • (b - a) = a := by rw [← e3]; exact e
          rw [huv, one_smul] at e'
          exact add_eq_left.1 e'
        have hz : u * s + v * t = 0 := (smul_eq_zero.1 e2).resolve_right (sub_ne_zero.2 hab.symm)
        have h1 := mul_nonneg hu.le hs
        have h2 := mul_nonneg hv.le ht
        have hs0 : s = 0 := (mul_eq_zero.1 (by linarith : u * s = 0)).resolve_left hu.ne'
        simp [hs0]
      rintro q (rfl | rfl)
      · exact gen _ _ hne
      · rw [segment_symm]; exact gen _ _ hne.symm
    · rw [← heq]
      exact extremePoints_convexHull_subset

/-- C34 (the hull as an intersection of half planes): when not all members are on one line, a point of the plane is in
the convex hull of the members iff it is on or to the left of every directed edge of the closed node list. -/
theorem C34_half_planes {R : Rt K} (hE : R.IsExact) (ps : List (K × K))
    (hpl : ∃ x ∈ ps, ∃ y ∈ ps, ∃ z ∈ ps, det3 (pairPt x) (pairPt y) (pairPt z) ≠ 0) (p : K × K) :
    p ∈ _root_.convexHull K {q | q ∈ ps} ↔ ∀ k (hk : k < (R.hullNodes ps).length),
      0 ≤ det3 (pairPt (R.hullNodes ps)[k])
        (pairPt ((R.hullNodes ps)[(k + 1) % (R.hullNodes ps).length]'(Nat.mod_lt _ (by omega)))) (pairPt p) := by
  obtain ⟨x, hx, y, hy, z, hz, hd⟩ := hpl
  have h2 : ∃ p ∈ ps, ∃ q ∈ ps, p ≠ q := by
    refine ⟨x, hx, y, hy, ?_⟩
    rintro rfl
    apply hd
    unfold det3
    ring
  obtain ⟨w, H, hinj, hw⟩ := hullCycle_nodes hE ps ⟨_, ⟨x, hx, rfl⟩, _, ⟨y, hy, rfl⟩, _, ⟨z, hz, rfl⟩, hd⟩
  rw [← (C34_convexHull hE ps h2).1, H.mem_convexHull hinj rfl hw]
  constructor
  · intro h k hk
    have := h k
    rwa [hw k hk, ← H.mod_eq (k + 1), hw _ (Nat.mod_lt _ H.pos)] at this
  · intro h k
    have := h (k % (R.hullNodes ps).length) (Nat.mod_lt _ H.pos)
    rw [← hw _ (Nat.mod_lt _ H.pos), ← hw _ (Nat.mod_lt _ H.pos), H.mod_eq, H.mod_eq (k % _ + 1),
      ← H.mod_eq (k % _ + 1), Nat.mod_add_mod, H.mod_eq] at this
    exact this

/-- non-vacuity: a square with a point inside and one on a side; all hypotheses hold in exact arithmetic -/
example : (∃ p ∈ [((0 : ℝ), (0 : ℝ)), (2, 0), (1, 1)], ∃ q ∈ [((0 : ℝ), (0 : ℝ)), (2, 0), (1, 1)], p ≠ q) ∧
    (∃ x ∈ [((0 : ℝ), (0 : ℝ)), (2, 0), (1, 1)], ∃ y ∈ [((0 : ℝ), (0 : ℝ)), (2, 0), (1, 1)],
      ∃ z ∈ [((0 : ℝ), (0 : ℝ)), (2, 0), (1, 1)], det3 (pairPt x) (pairPt y) (pairPt z) ≠ 0) ∧ exReal.IsExact :=
  ⟨⟨(0, 0), by simp, (2, 0), by simp, by simp⟩, ⟨(0, 0), by simp, (2, 0), by simp, (1, 1), by simp, by
    norm_num [det3, pairPt]⟩, exReal_isExact⟩

end Srep
