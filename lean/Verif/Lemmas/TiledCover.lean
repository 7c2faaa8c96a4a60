import Verif.Lemmas.Tiled
import Verif.Lemmas.HullD

/-! What a triangulation of points in general position covers. -/

set_option linter.unusedSectionVars false

namespace Srep
open Cyc
variable {K : Type} [Field K] [LinearOrder K] [IsStrictOrderedRing K] [FloorRing K] {R : Rt K}
variable {M : Mesh K} {A : ℤ → Prop}

/-- near `X` on the way to `Y` no line is met, and the sides of `X` are kept -/
theorem approach (L : List (Aff K)) (X Y : Pt K) (hY : ∀ g ∈ L, g.at Y ≠ 0) :
    ∃ δ : K, 0 < δ ∧ δ ≤ 1 ∧ ∀ t, 0 < t → t ≤ δ → ∀ g ∈ L, g.at (go X (Y.x - X.x) (Y.y - X.y) t) ≠ 0 ∧
      (0 < g.at X → 0 < g.at (go X (Y.x - X.x) (Y.y - X.y) t)) ∧
      (g.at X < 0 → g.at (go X (Y.x - X.x) (Y.y - X.y) t) < 0) := by
  induction L with
  | nil => exact ⟨1, one_pos, le_rfl, by simp⟩
  | cons g L ih =>
    obtain ⟨δ, d0, d1, hd⟩ := ih fun g hg => hY g (List.mem_cons_of_mem _ hg)
    have gY := hY g List.mem_cons_self
    have key : ∀ t, g.at (go X (Y.x - X.x) (Y.y - X.y) t) = (1 - t) * g.at X + t * g.at Y := by
      intro t; unfold Aff.at go; ring
    by_cases h0 : g.at X = 0
    · refine ⟨δ, d0, d1, ?_⟩
      intro t t0 t1 f hf
      rcases List.mem_cons.1 hf with rfl | hf
      · rw [key, h0, mul_zero, zero_add]
        exact ⟨mul_ne_zero t0.ne' gY, fun h => absurd h (lt_irrefl _), fun h => absurd h (lt_irrefl _)⟩
      · exact hd t t0 t1 f hf
    · have p1 : 0 < |g.at X| := abs_pos.2 h0
      have p2 : 0 < |g.at Y| := abs_pos.2 gY
      have p3 : 0 < 2 * (|g.at X| + |g.at Y|) := by positivity
      refine ⟨min δ (|g.at X| / (2 * (|g.at X| + |g.at Y|))), lt_min d0 (by positivity), (min_le_left _ _).trans d1, ?_⟩
      intro t t0 t1 f hf
      rcases List.mem_cons.1 hf with rfl | hf
      · have ht : t * (2 * (|f.at X| + |f.at Y|)) ≤ |f.at X| := (le_div_iff₀ p3).1 (t1.trans (min_le_right _ _))
        have y1 := le_abs_self (f.at Y)
        have y2 := neg_abs_le (f.at Y)
        have m1 := mul_le_mul_of_nonneg_left y1 t0.le
        have m2 := mul_le_mul_of_nonneg_left y2 t0.le
        rw [key]
        rcases lt_or_gt_of_ne h0 with hn | hp
        · rw [abs_of_neg hn] at ht p1
          have : (1 - t) * f.at X + t * f.at Y < 0 := by linarith
          exact ⟨this.ne, fun h => absurd h (not_lt.2 hn.le), fun _ => this⟩
        · rw [abs_of_pos hp] at ht p1
          have : 0 < (1 - t) * f.at X + t * f.at Y := by linarith
          exact ⟨this.ne', fun _ => this, fun h => absurd h (not_lt.2 hp.le)⟩
      · exact hd t t0 (t1.trans (min_le_left _ _)) f hf

/-- a point well inside, on no line -/
theorem Mesh.Tiled.inside (h : M.Tiled R A) : ∃ Y, Cyc.Inner M.pos M.bnd Y ∧ M.Away Y := by
  obtain ⟨C, hC⟩ := h.hull.centre
  obtain ⟨Y, h1, h2⟩ := generic M.lines (lines_ne h.general.1) (M.bnd.map fun e => Aff.line (M.pos e.1) (M.pos e.2)) C (by
    intro f hf
    obtain ⟨e, he, rfl⟩ := List.mem_map.1 hf
    rw [Aff.line_at]; exact hC e he)
  refine ⟨Y, ?_, away_iff.2 h2⟩
  intro e he
  have := h1 _ (List.mem_map.2 ⟨e, he, rfl⟩)
  rwa [Aff.line_at] at this

/-- in the triangle, the border included -/
def TriClosed (a b c X : Pt K) : Prop :=
  (0 ≤ det3 a b X ∧ 0 ≤ det3 b c X ∧ 0 ≤ det3 c a X) ∨ (det3 a b X ≤ 0 ∧ det3 b c X ≤ 0 ∧ det3 c a X ≤ 0)

theorem mem_region {M : Mesh K} {T : Tri} {q : K × K} (hD : det3 (M.pos T.a) (M.pos T.b) (M.pos T.c) ≠ 0)
    (hc : TriClosed (M.pos T.a) (M.pos T.b) (M.pos T.c) (pairPt q)) : q ∈ M.region T := by
  have id2 : det3 (M.pos T.a) (M.pos T.b) (pairPt q) + det3 (M.pos T.b) (M.pos T.c) (pairPt q)
      + det3 (M.pos T.c) (M.pos T.a) (pairPt q) = det3 (M.pos T.a) (M.pos T.b) (M.pos T.c) := by unfold det3; ring
  have sw : ∀ a b c : Pt K, det3 b a c = -det3 a b c := fun a b c => by unfold det3; ring
  have sw' : ∀ a b c : Pt K, det3 a c b = -det3 a b c := fun a b c => by unfold det3; ring
  have pair_pt : ∀ p : Pt K, pairPt p.pair = p := fun _ => rfl
  unfold Mesh.region
  rcases hc with ⟨c1, c2, c3⟩ | ⟨c1, c2, c3⟩
  · refine mem_hull_of_tri (a := (M.pos T.a).pair) (b := (M.pos T.b).pair) (c := (M.pos T.c).pair) (by simp) (by simp)
      (by simp) ?_ ?_ ?_ ?_ <;> simp only [pair_pt]
    · exact lt_of_le_of_ne (by linarith) hD.symm
    · exact c1
    · exact c2
    · rw [sw]; linarith
  · refine mem_hull_of_tri (a := (M.pos T.a).pair) (b := (M.pos T.c).pair) (c := (M.pos T.b).pair) (by simp) (by simp)
      (by simp) ?_ ?_ ?_ ?_ <;> simp only [pair_pt]
    · rw [sw']
      have : det3 (M.pos T.a) (M.pos T.b) (M.pos T.c) < 0 := lt_of_le_of_ne (by linarith) hD
      linarith
    · rw [sw]; linarith
    · rw [sw]; linarith
    · exact c1

/-- every point to the left of all boundary edges is in a triangle -/
theorem Mesh.Tiled.closed (h : M.Tiled R A) {X : Pt K} (hX : ∀ e ∈ M.bnd, 0 ≤ det3 (M.pos e.1) (M.pos e.2) X) :
    ∃ T ∈ M.tris, TriClosed (M.pos T.a) (M.pos T.b) (M.pos T.c) X := by
  obtain ⟨Y, hi, hY⟩ := h.inside
  obtain ⟨δ, d0, d1, hd⟩ := approach M.lines X Y (away_iff.1 hY)
  have hd' := hd δ d0 le_rfl
  set Z := go X (Y.x - X.x) (Y.y - X.y) δ with hZ
  have aff : ∀ u v : Pt K, det3 u v Z = (1 - δ) * det3 u v X + δ * det3 u v Y := by
    intro u v; simp only [hZ, go]; unfold det3; ring
  have hZa : M.Away Z := away_iff.2 fun g hg => (hd' g hg).1
  have hZi : Cyc.Inner M.pos M.bnd Z := by
    intro e he
    rw [aff]
    have a1 := mul_nonneg (sub_nonneg.2 d1) (hX e he)
    have a2 := mul_pos d0 (hi e he)
    linarith
  have hs : 0 < (M.tris.map (ind M.pos Z)).sum := by rw [h.cover Z hZa hZi]; exact one_pos
  obtain ⟨T, hT, hin⟩ := exists_of_sum_pos hs
  refine ⟨T, hT, ?_⟩
  have hp := h.cons.proper T hT
  have ra := h.inA _ (h.verts T hT T.a (Or.inl rfl))
  have rb := h.inA _ (h.verts T hT T.b (Or.inr (Or.inl rfl)))
  have rc := h.inA _ (h.verts T hT T.c (Or.inr (Or.inr rfl)))
  have side : ∀ i j : ℤ, 0 ≤ i ∧ i < M.points.length → 0 ≤ j ∧ j < M.points.length → i ≠ j →
      (0 < det3 (M.pos i) (M.pos j) Z → 0 ≤ det3 (M.pos i) (M.pos j) X) ∧
      (det3 (M.pos i) (M.pos j) Z < 0 → det3 (M.pos i) (M.pos j) X ≤ 0) := by
    intro i j hi hj hij
    have hm : Aff.line (M.pos i) (M.pos j) ∈ M.lines := by
      unfold Mesh.lines
      simp only [List.mem_flatMap, List.mem_map, List.mem_filter, List.mem_range, decide_eq_true_eq]
      exact ⟨i.toNat, by omega, j.toNat, ⟨by omega, by omega⟩, by
        rw [Int.toNat_of_nonneg hi.1, Int.toNat_of_nonneg hj.1]⟩
    obtain ⟨-, g2, g3⟩ := hd' _ hm
    rw [Aff.line_at, Aff.line_at] at g2 g3
    constructor
    · intro hh; by_contra hc; have := g3 (not_le.1 hc); linarith
    · intro hh; by_contra hc; have := g2 (not_le.1 hc); linarith
  rcases hin with ⟨h1, h2, h3⟩ | ⟨h1, h2, h3⟩
  · exact Or.inl ⟨(side _ _ ra rb hp.1).1 h1, (side _ _ rb rc hp.2.1).1 h2, (side _ _ rc ra hp.2.2.symm).1 h3⟩
  · exact Or.inr ⟨(side _ _ ra rb hp.1).2 h1, (side _ _ rb rc hp.2.1).2 h2, (side _ _ rc ra hp.2.2.symm).2 h3⟩

/-- the interiors of two triangles have no point in common -/
theorem Mesh.Tiled.disjoint (h : M.Tiled R A) {n m : ℕ} {T S : Tri} (hT : M.tris[n]? = some T)
    (hS : M.tris[m]? = some S) (hnm : n ≠ m) (X : Pt K) : ¬ (M.Inside T X ∧ M.Inside S X) := by
  rintro ⟨h1, h2⟩
  have ex : ∀ {T : Tri}, M.Inside T X → ∃ F : List (Aff K), (∀ f ∈ F, 0 < f.at X) ∧
      ∀ Y, (∀ f ∈ F, 0 < f.at Y) → M.Inside T Y := by
    intro T hh
    rcases hh with ⟨a1, a2, a3⟩ | ⟨a1, a2, a3⟩
    · refine ⟨[Aff.line (M.pos T.a) (M.pos T.b), Aff.line (M.pos T.b) (M.pos T.c), Aff.line (M.pos T.c) (M.pos T.a)], ?_, ?_⟩
      · simp only [List.mem_cons, List.not_mem_nil, or_false, forall_eq_or_imp, forall_eq, Aff.line_at]
        exact ⟨a1, a2, a3⟩
      · intro Y hY
        simp only [List.mem_cons, List.not_mem_nil, or_false, forall_eq_or_imp, forall_eq, Aff.line_at] at hY
        exact Or.inl hY
    · refine ⟨[(Aff.line (M.pos T.a) (M.pos T.b)).neg, (Aff.line (M.pos T.b) (M.pos T.c)).neg,
        (Aff.line (M.pos T.c) (M.pos T.a)).neg], ?_, ?_⟩
      · simp only [List.mem_cons, List.not_mem_nil, or_false, forall_eq_or_imp, forall_eq, Aff.line_at, Aff.neg_at, neg_pos]
        exact ⟨a1, a2, a3⟩
      · intro Y hY
        simp only [List.mem_cons, List.not_mem_nil, or_false, forall_eq_or_imp, forall_eq, Aff.line_at, Aff.neg_at,
          neg_pos] at hY
        exact Or.inr hY
  obtain ⟨F, f1, f2⟩ := ex h1
  obtain ⟨G, g1, g2⟩ := ex h2
  obtain ⟨Y, y1, y2⟩ := generic M.lines (lines_ne h.general.1) (F ++ G) X (by
    intro f hf
    rcases List.mem_append.1 hf with hf | hf
    · exact f1 f hf
    · exact g1 f hf)
  exact h.excl (away_iff.2 y2) hT hS hnm
    ⟨f2 Y fun f hf => y1 f (List.mem_append_left _ hf), g2 Y fun f hf => y1 f (List.mem_append_right _ hf)⟩

/-- the boundary is the hull: `(i, j)` is in it if and only if all other points are strictly to the left -/
theorem Mesh.Tiled.sides (h : M.Tiled R A) {i j : ℤ} (hi : A i) (hj : A j) (hij : i ≠ j) :
    (i, j) ∈ M.bnd ↔ ∀ v, A v → v ≠ i → v ≠ j → 0 < det3 (M.pos i) (M.pos j) (M.pos v) := by
  constructor
  · intro he v hv v1 v2
    exact h.hull.conv _ he v hv v1 v2
  · intro hl
    have hnn : ∀ v, A v → 0 ≤ det3 (M.pos i) (M.pos j) (M.pos v) := by
      intro v hv
      by_cases h1 : v = i
      · rw [h1, det_self1]
      by_cases h2 : v = j
      · rw [h2, det_self2]
      exact (hl v hv h1 h2).le
    -- a third point
    obtain ⟨w, hw, wi, wj⟩ : ∃ w, A w ∧ w ≠ i ∧ w ≠ j := by
      obtain ⟨x, y, z, hx, hy, hz, hxy, hyz, hxz⟩ := h.hull.three
      by_cases x1 : x = i ∨ x = j
      · by_cases y1 : y = i ∨ y = j
        · refine ⟨z, hz, ?_, ?_⟩
          · rintro rfl
            rcases x1 with x1 | x1 <;> rcases y1 with y1 | y1 <;> omega
          · rintro rfl
            rcases x1 with x1 | x1 <;> rcases y1 with y1 | y1 <;> omega
        · exact ⟨y, hy, fun hh => y1 (Or.inl hh), fun hh => y1 (Or.inr hh)⟩
      · exact ⟨x, hx, fun hh => x1 (Or.inl hh), fun hh => x1 (Or.inr hh)⟩
    have hwp := hl w hw wi wj
    -- the middle of the edge is not inside
    set C : Pt K := ⟨((M.pos i).x + (M.pos j).x) / 2, ((M.pos i).y + (M.pos j).y) / 2⟩ with hC
    obtain ⟨e, he, hle⟩ : ∃ e ∈ M.bnd, det3 (M.pos e.1) (M.pos e.2) C ≤ 0 := by
      by_contra hc
      push Not at hc
      -- a step away from the third point
      obtain ⟨δ, d0, hs⟩ := small_step (M.bnd.map fun e => Aff.line (M.pos e.1) (M.pos e.2)) C (by
        intro f hf
        obtain ⟨e, he, rfl⟩ := List.mem_map.1 hf
        rw [Aff.line_at]; exact hc e he) (C.x - (M.pos w).x) (C.y - (M.pos w).y)
      have hs' := hs δ d0.le le_rfl
      set Z := go C (C.x - (M.pos w).x) (C.y - (M.pos w).y) δ with hZ
      have hZi : ∀ e ∈ M.bnd, 0 ≤ det3 (M.pos e.1) (M.pos e.2) Z := by
        intro e he
        have := hs' _ (List.mem_map.2 ⟨e, he, rfl⟩)
        rw [Aff.line_at] at this
        exact this.le
      obtain ⟨T, hT, hin⟩ := h.closed hZi
      have hneg : det3 (M.pos i) (M.pos j) Z < 0 := by
        have : det3 (M.pos i) (M.pos j) Z = -δ * det3 (M.pos i) (M.pos j) (M.pos w) := by
          simp only [hZ, go, hC]; unfold det3; ring
        rw [this]
        have := mul_pos d0 hwp
        linarith
      have na := hnn _ (h.verts T hT T.a (Or.inl rfl))
      have nb := hnn _ (h.verts T hT T.b (Or.inr (Or.inl rfl)))
      have nc := hnn _ (h.verts T hT T.c (Or.inr (Or.inr rfl)))
      have hp := h.cons.proper T hT
      have hD : det3 (M.pos T.a) (M.pos T.b) (M.pos T.c) ≠ 0 :=
        h.general.det_ne (h.inA _ (h.verts T hT T.a (Or.inl rfl))) (h.inA _ (h.verts T hT T.b (Or.inr (Or.inl rfl))))
          (h.inA _ (h.verts T hT T.c (Or.inr (Or.inr rfl)))) hp.1 hp.2.1 hp.2.2
      have id : det3 (M.pos T.a) (M.pos T.b) (M.pos T.c) * det3 (M.pos i) (M.pos j) Z
          = det3 (M.pos T.b) (M.pos T.c) Z * det3 (M.pos i) (M.pos j) (M.pos T.a)
          + det3 (M.pos T.c) (M.pos T.a) Z * det3 (M.pos i) (M.pos j) (M.pos T.b)
          + det3 (M.pos T.a) (M.pos T.b) Z * det3 (M.pos i) (M.pos j) (M.pos T.c) := by unfold det3; ring
      have id2 : det3 (M.pos T.a) (M.pos T.b) Z + det3 (M.pos T.b) (M.pos T.c) Z + det3 (M.pos T.c) (M.pos T.a) Z
          = det3 (M.pos T.a) (M.pos T.b) (M.pos T.c) := by unfold det3; ring
      rcases hin with ⟨c1, c2, c3⟩ | ⟨c1, c2, c3⟩
      · have hD' : 0 < det3 (M.pos T.a) (M.pos T.b) (M.pos T.c) := lt_of_le_of_ne (by linarith) hD.symm
        have := mul_neg_of_pos_of_neg hD' hneg
        have := mul_nonneg c2 na
        have := mul_nonneg c3 nb
        have := mul_nonneg c1 nc
        linarith
      · have hD' : det3 (M.pos T.a) (M.pos T.b) (M.pos T.c) < 0 := lt_of_le_of_ne (by linarith) hD
        have := mul_pos_of_neg_of_neg hD' hneg
        have := mul_nonpos_of_nonpos_of_nonneg c2 na
        have := mul_nonpos_of_nonpos_of_nonneg c3 nb
        have := mul_nonpos_of_nonpos_of_nonneg c1 nc
        linarith
    have hmid : det3 (M.pos e.1) (M.pos e.2) C
        = (det3 (M.pos e.1) (M.pos e.2) (M.pos i) + det3 (M.pos e.1) (M.pos e.2) (M.pos j)) / 2 := by
      simp only [hC]; unfold det3; ring
    have n1 := h.hull.nonneg he hi
    have n2 := h.hull.nonneg he hj
    have i1 : i = e.1 ∨ i = e.2 := by
      by_contra hc
      push Not at hc
      have := h.hull.conv e he i hi hc.1 hc.2
      linarith
    have j1 : j = e.1 ∨ j = e.2 := by
      by_contra hc
      push Not at hc
      have := h.hull.conv e he j hj hc.1 hc.2
      linarith
    rcases i1 with rfl | rfl <;> rcases j1 with rfl | rfl
    · exact absurd rfl hij
    · exact he
    · exfalso
      have := h.hull.conv e he w hw wj wi
      have e1 : det3 (M.pos e.2) (M.pos e.1) (M.pos w) = -det3 (M.pos e.1) (M.pos e.2) (M.pos w) := by unfold det3; ring
      rw [e1] at hwp
      linarith
    · exact absurd rfl hij

end Srep
