import Verif.Lemmas.TiledCover
import Mathlib.Order.Interval.Set.Infinite

/-! The triangle beyond an edge of a tiled mesh. -/

set_option linter.unusedSectionVars false

namespace Srep
open Cyc
variable {K : Type} [Field K] [LinearOrder K] [IsStrictOrderedRing K] [FloorRing K] {R : Rt K}
variable {M : Mesh K} {A : ℤ → Prop}

/-- a point between `p` and `q` on none of finitely many lines not through both -/
theorem between_generic (L : List (Aff K)) (p q : Pt K) :
    ∃ t : K, 0 < t ∧ t < 1 ∧ ∀ g ∈ L, (g.at p ≠ 0 ∨ g.at q ≠ 0) → (1 - t) * g.at p + t * g.at q ≠ 0 := by
  have hfin : ({t : K | ∃ g ∈ L, (g.at p ≠ 0 ∨ g.at q ≠ 0) ∧ (1 - t) * g.at p + t * g.at q = 0}).Finite := by
    have : {t : K | ∃ g ∈ L, (g.at p ≠ 0 ∨ g.at q ≠ 0) ∧ (1 - t) * g.at p + t * g.at q = 0} =
        ⋃ g ∈ {g | g ∈ L}, {t : K | (g.at p ≠ 0 ∨ g.at q ≠ 0) ∧ (1 - t) * g.at p + t * g.at q = 0} := by
      ext t
      simp only [Set.mem_iUnion, Set.mem_ofPred_eq, exists_prop]
    rw [this]
    refine Set.Finite.biUnion (List.finite_toSet L) ?_
    intro g _
    refine Set.Subsingleton.finite ?_
    rintro s ⟨h1, hs⟩ t ⟨-, ht⟩
    by_contra hne
    have e : (s - t) * (g.at q - g.at p) = 0 := by linear_combination hs - ht
    have e2 : g.at q = g.at p := by
      rcases mul_eq_zero.1 e with h | h
      · exact absurd (sub_eq_zero.1 h) hne
      · exact sub_eq_zero.1 h
    rw [e2] at hs h1
    have : g.at p = 0 := by linear_combination hs
    rcases h1 with h1 | h1 <;> exact h1 this
  obtain ⟨t, ht, hn⟩ := (Set.Ioo_infinite (zero_lt_one : (0 : K) < 1)).exists_notMem_finite hfin
  refine ⟨t, ht.1, ht.2, ?_⟩
  intro g hg h1 h0
  exact hn ⟨g, hg, h1, h0⟩

theorem line_mem {i j : ℤ} (hi : 0 ≤ i ∧ i < M.points.length) (hj : 0 ≤ j ∧ j < M.points.length) (hij : i ≠ j) :
    Aff.line (M.pos i) (M.pos j) ∈ M.lines := by
  unfold Mesh.lines
  simp only [List.mem_flatMap, List.mem_map, List.mem_filter, List.mem_range, decide_eq_true_eq]
  exact ⟨i.toNat, by omega, j.toNat, ⟨by omega, by omega⟩, by
    rw [Int.toNat_of_nonneg hi.1, Int.toNat_of_nonneg hj.1]⟩

/-- Beyond the edge `i j` of a triangle, if there is a point of the mesh on that side, there is another triangle with
this edge. -/
theorem Mesh.Tiled.beyond (h : M.Tiled R A) {n : ℕ} {T : Tri} (hT : M.tris[n]? = some T) {i j u w : ℤ}
    (hv : ∀ v, T.Has v ↔ v = i ∨ v = j ∨ v = u) (hij : i ≠ j) (hju : j ≠ u) (hiu : i ≠ u) (hw : A w)
    (hs : det3 (M.pos i) (M.pos j) (M.pos u) * det3 (M.pos i) (M.pos j) (M.pos w) < 0) :
    ∃ m S, M.tris[m]? = some S ∧ m ≠ n ∧ S.Has i ∧ S.Has j := by
  have mT := List.mem_of_getElem? hT
  have Ai := h.verts T mT i ((hv i).2 (Or.inl rfl))
  have Aj := h.verts T mT j ((hv j).2 (Or.inr (Or.inl rfl)))
  have Au := h.verts T mT u ((hv u).2 (Or.inr (Or.inr rfl)))
  have ri := h.inA i Ai
  have rj := h.inA j Aj
  have ru := h.inA u Au
  have hdu : det3 (M.pos i) (M.pos j) (M.pos u) ≠ 0 := by rintro hh; rw [hh, zero_mul] at hs; exact lt_irrefl _ hs
  obtain ⟨t, t0, t1, ht⟩ := between_generic M.lines (M.pos i) (M.pos j)
  set X : Pt K := ⟨(1 - t) * (M.pos i).x + t * (M.pos j).x, (1 - t) * (M.pos i).y + t * (M.pos j).y⟩ with hX
  have affX : ∀ g : Aff K, g.at X = (1 - t) * g.at (M.pos i) + t * g.at (M.pos j) := by
    intro g; simp only [hX, Aff.at]; ring
  have hXij : det3 (M.pos i) (M.pos j) X = 0 := by simp only [hX]; unfold det3; ring
  -- strictly inside the boundary
  have hXin : ∀ e ∈ M.bnd, 0 < det3 (M.pos e.1) (M.pos e.2) X := by
    intro e he
    have hm := h.hull.mem e he
    have e0 := affX (Aff.line (M.pos e.1) (M.pos e.2))
    rw [Aff.line_at, Aff.line_at, Aff.line_at] at e0
    have ni := h.hull.nonneg he Ai
    have nj := h.hull.nonneg he Aj
    rw [e0]
    have a1 := mul_nonneg (sub_nonneg.2 t1.le) ni
    have a2 := mul_nonneg t0.le nj
    refine lt_of_le_of_ne (add_nonneg a1 a2) ?_
    intro h0
    have b1 : (1 - t) * det3 (M.pos e.1) (M.pos e.2) (M.pos i) = 0 := by linarith
    have b2 : t * det3 (M.pos e.1) (M.pos e.2) (M.pos j) = 0 := by linarith
    have c1 : det3 (M.pos e.1) (M.pos e.2) (M.pos i) = 0 := by
      rcases mul_eq_zero.1 b1 with hh | hh
      · linarith
      · exact hh
    have c2 : det3 (M.pos e.1) (M.pos e.2) (M.pos j) = 0 := by
      rcases mul_eq_zero.1 b2 with hh | hh
      · linarith
      · exact hh
    have d1 : i = e.1 ∨ i = e.2 := by
      by_contra hc
      push Not at hc
      have := h.hull.conv e he i Ai hc.1 hc.2
      linarith
    have d2 : j = e.1 ∨ j = e.2 := by
      by_contra hc
      push Not at hc
      have := h.hull.conv e he j Aj hc.1 hc.2
      linarith
    have nu := h.hull.nonneg he Au
    have nw := h.hull.nonneg he hw
    rcases d1 with d1 | d1 <;> rcases d2 with d2 | d2
    · exact hij (d1.trans d2.symm)
    · rw [← d1, ← d2] at nu nw
      have := mul_nonneg nu nw
      linarith
    · rw [← d1, ← d2, det3_swap' (M.pos i)] at nu nw
      nlinarith
    · exact hij (d1.trans d2.symm)
  -- lines through both ends of the edge
  have both : ∀ k l : ℤ, 0 ≤ k ∧ k < M.points.length → 0 ≤ l ∧ l < M.points.length → k ≠ l →
      (det3 (M.pos k) (M.pos l) X ≠ 0 ∨ (k = i ∧ l = j) ∨ (k = j ∧ l = i)) := by
    intro k l hk hl hkl
    by_cases hc : (Aff.line (M.pos k) (M.pos l)).at (M.pos i) ≠ 0 ∨ (Aff.line (M.pos k) (M.pos l)).at (M.pos j) ≠ 0
    · left
      have := ht _ (line_mem hk hl hkl) hc
      rw [← affX, Aff.line_at] at this
      exact this
    · right
      push Not at hc
      rw [Aff.line_at, Aff.line_at] at hc
      have d1 : k = i ∨ l = i := by
        by_contra hh
        push Not at hh
        exact h.general.det_ne hk hl ri hkl hh.2 hh.1 hc.1
      have d2 : k = j ∨ l = j := by
        by_contra hh
        push Not at hh
        exact h.general.det_ne hk hl rj hkl hh.2 hh.1 hc.2
      rcases d1 with d1 | d1 <;> rcases d2 with d2 | d2 <;> first | (exfalso; omega) | tauto
  -- a point on either side, on the side of `X` of all other lines
  have near : ∀ z : ℤ, ∃ Z : Pt K, ∃ δ : K, 0 < δ ∧ Z = go X ((M.pos z).x - X.x) ((M.pos z).y - X.y) δ ∧
      (∀ e ∈ M.bnd, 0 < det3 (M.pos e.1) (M.pos e.2) Z) ∧
      det3 (M.pos i) (M.pos j) Z = δ * det3 (M.pos i) (M.pos j) (M.pos z) ∧
      ∀ k l : ℤ, 0 ≤ k ∧ k < M.points.length → 0 ≤ l ∧ l < M.points.length → k ≠ l →
        ¬ (k = i ∧ l = j) → ¬ (k = j ∧ l = i) →
        ((0 < det3 (M.pos k) (M.pos l) X ∧ 0 < det3 (M.pos k) (M.pos l) Z) ∨
          (det3 (M.pos k) (M.pos l) X < 0 ∧ det3 (M.pos k) (M.pos l) Z < 0)) := by
    intro z
    obtain ⟨δ, d0, hd⟩ := small_step
      ((M.bnd.map fun e => Aff.line (M.pos e.1) (M.pos e.2)) ++
        (M.lines.filter fun g => decide (0 < g.at X)) ++
        ((M.lines.filter fun g => decide (g.at X < 0)).map Aff.neg)) X (by
        intro f hf
        rw [List.mem_append, List.mem_append] at hf
        rcases hf with (hf | hf) | hf
        · obtain ⟨e, he, rfl⟩ := List.mem_map.1 hf
          rw [Aff.line_at]; exact hXin e he
        · rw [List.mem_filter, decide_eq_true_eq] at hf
          exact hf.2
        · obtain ⟨g, hg, rfl⟩ := List.mem_map.1 hf
          rw [List.mem_filter, decide_eq_true_eq] at hg
          rw [Aff.neg_at]; linarith [hg.2]) ((M.pos z).x - X.x) ((M.pos z).y - X.y)
    have hd' := hd δ d0.le le_rfl
    refine ⟨_, δ, d0, rfl, ?_, ?_, ?_⟩
    · intro e he
      have := hd' (Aff.line (M.pos e.1) (M.pos e.2)) (by
        rw [List.mem_append, List.mem_append]
        exact Or.inl (Or.inl (List.mem_map.2 ⟨e, he, rfl⟩)))
      rw [Aff.line_at] at this
      exact this
    · have : det3 (M.pos i) (M.pos j) (go X ((M.pos z).x - X.x) ((M.pos z).y - X.y) δ)
          = (1 - δ) * det3 (M.pos i) (M.pos j) X + δ * det3 (M.pos i) (M.pos j) (M.pos z) := by
        simp only [go]; unfold det3; ring
      rw [this, hXij]; ring
    · intro k l hk hl hkl n1 n2
      have hne : det3 (M.pos k) (M.pos l) X ≠ 0 := by
        rcases both k l hk hl hkl with hh | hh | hh
        · exact hh
        · exact absurd hh n1
        · exact absurd hh n2
      have hm := line_mem hk hl hkl
      rcases lt_or_gt_of_ne hne with hh | hh
      · right
        refine ⟨hh, ?_⟩
        have := hd' (Aff.line (M.pos k) (M.pos l)).neg (by
          rw [List.mem_append]
          refine Or.inr (List.mem_map.2 ⟨_, ?_, rfl⟩)
          rw [List.mem_filter, decide_eq_true_eq, Aff.line_at]
          exact ⟨hm, hh⟩)
        rw [Aff.neg_at, Aff.line_at] at this
        linarith
      · left
        refine ⟨hh, ?_⟩
        have := hd' (Aff.line (M.pos k) (M.pos l)) (by
          rw [List.mem_append, List.mem_append]
          refine Or.inl (Or.inr ?_)
          rw [List.mem_filter, decide_eq_true_eq, Aff.line_at]
          exact ⟨hm, hh⟩)
        rw [Aff.line_at] at this
        exact this
  obtain ⟨Z, δ, d0, hZ, zin, zij, zs⟩ := near w
  obtain ⟨Y, ε, e0, hY, yin, yij, ys⟩ := near u
  have hdw : det3 (M.pos i) (M.pos j) (M.pos w) ≠ 0 := by rintro hh; rw [hh, mul_zero] at hs; exact lt_irrefl _ hs
  have away : ∀ {P : Pt K}, det3 (M.pos i) (M.pos j) P ≠ 0 →
      (∀ k l : ℤ, 0 ≤ k ∧ k < M.points.length → 0 ≤ l ∧ l < M.points.length → k ≠ l →
        ¬ (k = i ∧ l = j) → ¬ (k = j ∧ l = i) →
        ((0 < det3 (M.pos k) (M.pos l) X ∧ 0 < det3 (M.pos k) (M.pos l) P) ∨
          (det3 (M.pos k) (M.pos l) X < 0 ∧ det3 (M.pos k) (M.pos l) P < 0))) → M.Away P := by
    intro P hP hs k l k0 k1 l0 l1 hkl
    by_cases n1 : k = i ∧ l = j
    · rw [n1.1, n1.2]; exact hP
    by_cases n2 : k = j ∧ l = i
    · rw [n2.1, n2.2, det3_swap' (M.pos i)]; exact neg_ne_zero.2 hP
    rcases hs k l ⟨k0, k1⟩ ⟨l0, l1⟩ hkl n1 n2 with hh | hh
    · exact hh.2.ne'
    · exact hh.2.ne
  have zaway : M.Away Z := away (by rw [zij]; exact mul_ne_zero d0.ne' hdw) zs
  have yaway : M.Away Y := away (by rw [yij]; exact mul_ne_zero e0.ne' hdu) ys
  -- the triangle at `Z`
  have hsum : 0 < (M.tris.map (ind M.pos Z)).sum := by rw [h.cover Z zaway zin]; exact one_pos
  obtain ⟨S, mS, inS⟩ := exists_of_sum_pos hsum
  obtain ⟨m, hm, hS⟩ := List.mem_iff_getElem.1 mS
  have hS' : M.tris[m]? = some S := by rw [List.getElem?_eq_getElem hm, hS]
  -- `Y` is in `T`
  have inT : M.Inside T Y := by
    unfold Mesh.Inside
    rw [inTri_perm M.pos (h.cons.proper T mT) hv]
    have s1 := ys j u rj ru hju (by omega) (by omega)
    have s2 := ys u i ru ri hiu.symm (by omega) (by omega)
    have x1 : det3 (M.pos j) (M.pos u) X = (1 - t) * det3 (M.pos i) (M.pos j) (M.pos u) := by
      simp only [hX]; unfold det3; ring
    have x2 : det3 (M.pos u) (M.pos i) X = t * det3 (M.pos i) (M.pos j) (M.pos u) := by
      simp only [hX]; unfold det3; ring
    have t1' : 0 < 1 - t := by linarith
    unfold InTri
    rw [yij]
    rw [x1] at s1
    rw [x2] at s2
    rcases lt_or_gt_of_ne hdu with hh | hh
    · right
      have y1 := mul_neg_of_pos_of_neg t1' hh
      have y2 := mul_neg_of_pos_of_neg t0 hh
      refine ⟨mul_neg_of_pos_of_neg e0 hh, ?_, ?_⟩
      · rcases s1 with s1 | s1
        · linarith [s1.1]
        · exact s1.2
      · rcases s2 with s2 | s2
        · linarith [s2.1]
        · exact s2.2
    · left
      have y1 := mul_pos t1' hh
      have y2 := mul_pos t0 hh
      refine ⟨mul_pos e0 hh, ?_, ?_⟩
      · rcases s1 with s1 | s1
        · exact s1.2
        · linarith [s1.1]
      · rcases s2 with s2 | s2
        · exact s2.2
        · linarith [s2.1]
  have hboth : S.Has i ∧ S.Has j := by
    by_contra hc
    have pr := h.cons.proper S mS
    have ra := h.inA _ (h.verts S mS S.a (Or.inl rfl))
    have rb := h.inA _ (h.verts S mS S.b (Or.inr (Or.inl rfl)))
    have rc := h.inA _ (h.verts S mS S.c (Or.inr (Or.inr rfl)))
    have same : ∀ k l : ℤ, S.Has k → S.Has l → 0 ≤ k ∧ k < M.points.length → 0 ≤ l ∧ l < M.points.length → k ≠ l →
        ((0 < det3 (M.pos k) (M.pos l) Z → 0 < det3 (M.pos k) (M.pos l) Y) ∧
          (det3 (M.pos k) (M.pos l) Z < 0 → det3 (M.pos k) (M.pos l) Y < 0)) := by
      intro k l Hk Hl hk hl hkl
      have n1 : ¬ (k = i ∧ l = j) := by rintro ⟨rfl, rfl⟩; exact hc ⟨Hk, Hl⟩
      have n2 : ¬ (k = j ∧ l = i) := by rintro ⟨rfl, rfl⟩; exact hc ⟨Hl, Hk⟩
      have a := zs k l hk hl hkl n1 n2
      have b := ys k l hk hl hkl n1 n2
      constructor
      · intro hh
        rcases a with a | a
        · rcases b with b | b
          · exact b.2
          · linarith [a.1, b.1]
        · linarith [a.2]
      · intro hh
        rcases a with a | a
        · linarith [a.2]
        · rcases b with b | b
          · linarith [a.1, b.1]
          · exact b.2
    have q1 := same S.a S.b (Or.inl rfl) (Or.inr (Or.inl rfl)) ra rb pr.1
    have q2 := same S.b S.c (Or.inr (Or.inl rfl)) (Or.inr (Or.inr rfl)) rb rc pr.2.1
    have q3 := same S.c S.a (Or.inr (Or.inr rfl)) (Or.inl rfl) rc ra pr.2.2.symm
    have inS' : M.Inside S Y := by
      rcases inS with ⟨a, b, c⟩ | ⟨a, b, c⟩
      · exact Or.inl ⟨q1.1 a, q2.1 b, q3.1 c⟩
      · exact Or.inr ⟨q1.2 a, q2.2 b, q3.2 c⟩
    by_cases hmn : m = n
    · subst hmn
      rw [hT] at hS'
      obtain rfl := Option.some.inj hS'
      exact hc ⟨(hv i).2 (Or.inl rfl), (hv j).2 (Or.inr (Or.inl rfl))⟩
    · exact h.excl yaway hS' hT hmn ⟨inS', inT⟩
  refine ⟨m, S, hS', ?_, hboth⟩
  rintro rfl
  rw [hT] at hS'
  obtain rfl := Option.some.inj hS'
  -- `Z` is on the wrong side
  rw [inTri_perm M.pos (h.cons.proper T mT) hv] at inS
  unfold InTri at inS
  have id : det3 (M.pos i) (M.pos j) Z + det3 (M.pos j) (M.pos u) Z + det3 (M.pos u) (M.pos i) Z
      = det3 (M.pos i) (M.pos j) (M.pos u) := by unfold det3; ring
  rw [zij] at inS
  rcases inS with ⟨a, b, c⟩ | ⟨a, b, c⟩
  · have hw' := pos_of_mul_pos_right a d0.le
    have : det3 (M.pos i) (M.pos j) (M.pos u) < 0 := by nlinarith
    rw [zij] at id
    linarith
  · have hw' : det3 (M.pos i) (M.pos j) (M.pos w) < 0 := by nlinarith
    have : 0 < det3 (M.pos i) (M.pos j) (M.pos u) := by nlinarith
    rw [zij] at id
    linarith

end Srep
