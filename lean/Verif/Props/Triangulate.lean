import Verif.Lemmas.TiledRun
import Verif.Lemmas.TiledCover

/-! C120: `Delaunay2d.triangulate` from the points to the finished triangulation, in exact arithmetic. -/

set_option linter.unusedSectionVars false

namespace Srep
open Cyc
variable {K : Type} [Field K] [LinearOrder K] [IsStrictOrderedRing K] [FloorRing K] {R : Rt K}

theorem GeneralPos.perm {ps qs : List (Pt K)} (h : GeneralPos ps) (hp : qs.Perm ps) : GeneralPos qs :=
  ⟨hp.nodup_iff.2 h.1, fun p hp' q hq r hr => h.2 p (hp.mem_iff.1 hp') q (hp.mem_iff.1 hq) r (hp.mem_iff.1 hr)⟩

theorem fromThree_mem {n : ℕ} {i : ℤ} : i ∈ fromThree n ↔ 3 ≤ i ∧ i < n := by
  unfold fromThree
  rw [List.mem_map]
  constructor
  · rintro ⟨k, hk, rfl⟩
    rw [List.mem_range'_1] at hk
    omega
  · rintro ⟨h1, h2⟩
    exact ⟨i.toNat, by rw [List.mem_range'_1]; omega, by omega⟩

theorem fromThree_pairwise (n : ℕ) : (fromThree n).Pairwise (· < ·) := by
  unfold fromThree
  rw [List.pairwise_map]
  exact (List.pairwise_lt_range').imp fun h => by exact_mod_cast h

/-- the union of the triangles of a tiled mesh with all points -/
theorem Mesh.Tiled.triangulates {M : Mesh K} {A : ℤ → Prop} {ps : List (Pt K)} (h : M.Tiled R A)
    (hA : ∀ v : ℤ, 0 ≤ v → v < M.points.length → A v) (hp : M.points.Perm ps) : M.Triangulates ps := by
  have hcor : ∀ T ∈ M.tris, T.Proper ∧ (∀ v, T.Has v → 0 ≤ v ∧ v < M.points.length) ∧ M.area T ≠ 0 := by
    intro T hT
    have hpr := h.cons.proper T hT
    refine ⟨hpr, fun v hv => h.inA v (h.verts T hT v hv), ?_⟩
    exact h.general.det_ne (h.inA _ (h.verts T hT T.a (Or.inl rfl))) (h.inA _ (h.verts T hT T.b (Or.inr (Or.inl rfl))))
      (h.inA _ (h.verts T hT T.c (Or.inr (Or.inr rfl)))) hpr.1 hpr.2.1 hpr.2.2
  refine ⟨hp, hcor, ?_, fun n m T S hT hS hnm X => h.disjoint hT hS hnm X, ?_⟩
  · apply Set.Subset.antisymm
    · intro q hq
      simp only [Set.mem_iUnion] at hq
      obtain ⟨T, hT, hq⟩ := hq
      refine convexHull_mono ?_ hq
      have hm : ∀ v, T.Has v → ∃ p ∈ ps, (M.pos v).pair = p.pair := by
        intro v hv
        have := (hcor T hT).2.1 v hv
        exact ⟨M.pos v, hp.mem_iff.1 (pos_mem this.1 this.2), rfl⟩
      rintro q (rfl | rfl | rfl)
      · exact hm _ (Or.inl rfl)
      · exact hm _ (Or.inr (Or.inl rfl))
      · exact hm _ (Or.inr (Or.inr rfl))
    · intro q hq
      have hin : ∀ e ∈ M.bnd, 0 ≤ det3 (M.pos e.1) (M.pos e.2) (pairPt q) := by
        intro e he
        refine convexHull_min (t := {p : K × K | 0 ≤ det3 (M.pos e.1) (M.pos e.2) (pairPt p)}) ?_ (convex_left _ _) hq
        rintro _ ⟨p, hpm, rfl⟩
        change 0 ≤ det3 (M.pos e.1) (M.pos e.2) p
        obtain ⟨n, hn, rfl⟩ := List.mem_iff_getElem.1 (hp.mem_iff.2 hpm)
        have : M.points[n] = M.pos (n : ℤ) := by
          unfold Mesh.pos pyGet
          rw [if_pos (by omega), Int.toNat_natCast, List.getElem?_eq_getElem hn]
          rfl
        rw [this]
        exact h.hull.nonneg he (hA n (by omega) (by exact_mod_cast hn))
      obtain ⟨T, hT, hc⟩ := h.closed hin
      simp only [Set.mem_iUnion]
      refine ⟨T, hT, ?_⟩
      have hD := (hcor T hT).2.2
      unfold Mesh.area at hD
      exact mem_region hD hc
  · intro i j i0 i1 j0 j1 hij
    rw [h.sides (hA i i0 i1) (hA j j0 j1) hij]
    constructor
    · intro hh v v0 v1 w1 w2
      exact hh v (hA v v0 v1) w1 w2
    · intro hh v hv w1 w2
      have := h.inA v hv
      exact hh v this.1 this.2 w1 w2

theorem sortedFrom_spec (hE : R.IsExact) (c : Pt K) (ps : List (Pt K)) :
    (R.sortedFrom c ps).Perm ps ∧ (R.sortedFrom c ps).Pairwise fun p q => dist2 c p ≤ dist2 c q := by
  unfold Rt.sortedFrom
  refine ⟨List.perm_insertionSort _ _, ?_⟩
  have hkey : ∀ p, R.sq (R.distance c p) = dist2 c p := by
    intro p
    rw [hE.sq, hE.distance', hE.sqrt_sq _ (add_nonneg (mul_self_nonneg _) (mul_self_nonneg _))]
    unfold dist2
    ring
  have := List.pairwise_insertionSort (fun p q => R.sq (R.distance c p) ≤ R.sq (R.distance c q)) ps
  simpa only [hkey] using this

/-- The run of `triangulate` on points in general position. -/
theorem delaunay_run (hE : R.IsExact) (hA : R.IsExactAngle) {O : Orders} (hO : O.Valid) {ps : List (Pt K)}
    (hst : ∀ p ∈ ps, R.Stored p) (hg : GeneralPos ps) (h3 : 3 ≤ ps.length) :
    ∃ M f0 c, (∀ f, f0 ≤ f → R.delaunay O ps f = some (.ok M)) ∧ R.centroid ps = .ok c ∧ M.points = R.sortedFrom c ps ∧
      M.Tiled R (fun v : ℤ => 0 ≤ v ∧ v < M.points.length) ∧ (∀ x, M.Legal R x) ∧
      (∀ i : ℤ, 0 ≤ i → i < 3 → ∃ T ∈ M.tris, T.Has i) ∧
      (∀ l1 i l2, O.pops ps.length = l1 ++ i :: l2 → ((∃ T ∈ M.tris, T.Has i) ↔
        (M.pos i).pair ∉ _root_.convexHull K {q | ∃ v : ℤ, ((0 ≤ v ∧ v < 3) ∨ v ∈ l1) ∧ q = (M.pos v).pair})) ∧
      (O.pops ps.length = fromThree ps.length →
        (∀ i : ℤ, 0 ≤ i → i < ps.length → ∃ T ∈ M.tris, T.Has i) ∧ M.tris.length + M.bnd.length + 2 = 2 * ps.length) := by
  obtain ⟨c, hc⟩ : ∃ c, R.centroid ps = .ok c := by
    unfold Rt.centroid
    rw [if_neg (by rintro rfl; simp at h3)]
    exact ⟨_, rfl⟩
  obtain ⟨hperm, hsort⟩ := sortedFrom_spec hE c ps
  have hlen := hperm.length_eq
  obtain ⟨M0, a1, a2, a3, a4, a5, a6, a7⟩ := Mesh.Tiled.first (R := R) hE
    (fun p hp => hst p (hperm.mem_iff.1 hp)) (hg.perm hperm) (by rw [hlen]; exact h3)
  have hl0 : M0.points.length = ps.length := by rw [a2, hlen]
  have hpo := hO.pops M0.points.length
  have hin : ∀ i ∈ O.pops M0.points.length, 0 ≤ i ∧ i < M0.points.length ∧ ¬ (0 ≤ i ∧ i < 3) := by
    intro i hi
    have := fromThree_mem.1 (hpo.mem_iff.1 hi)
    omega
  have hnd : (O.pops M0.points.length).Nodup :=
    hpo.nodup_iff.2 ((fromThree_pairwise _).imp fun h => ne_of_lt h)
  obtain ⟨M, f0, b1, b2, b3, b4, -, b5, b7, b6⟩ := a3.addAll hE hA hO _ hnd hin a7
  refine ⟨M, f0, c, ?_, hc, b3.trans a2, ?_, b5, fun i i0 i1 => b4 i (a6 i ⟨i0, i1⟩), ?_, ?_⟩
  · intro f hf
    unfold Rt.delaunay
    rw [hc]
    dsimp only
    rw [a1]
    exact b1 f hf
  · have : (fun v : ℤ => (0 ≤ v ∧ v < 3) ∨ v ∈ O.pops M0.points.length) = fun v : ℤ => 0 ≤ v ∧ v < M.points.length := by
      funext v
      rw [hpo.mem_iff, fromThree_mem, b3, hl0]
      apply propext
      omega
    rw [← this]; exact b2
  · intro l1 i l2 hl
    have hpos : M.pos = M0.pos := by unfold Mesh.pos; rw [b3]
    rw [hpos]
    exact b7 l1 i l2 (by rw [hl0]; exact hl)
  · intro hasc
    rw [hl0, hasc] at b6
    obtain ⟨c1, c2⟩ := b6 (by
      intro l1 i l2 hl E HE
      have hpw := fromThree_pairwise ps.length
      rw [hl, List.pairwise_append] at hpw
      have hi := fromThree_mem.1 (show i ∈ fromThree ps.length by rw [hl]; simp)
      have hlt : ∀ v, (0 ≤ v ∧ v < 3) ∨ v ∈ l1 → 0 ≤ v ∧ v < i := by
        rintro v (hv | hv)
        · omega
        · have h1 := hpw.2.2 v hv i (by simp)
          have h2 := fromThree_mem.1 (show v ∈ fromThree ps.length by rw [hl]; simp [hv])
          omega
      have hgM := a3.general
      have hiM : 0 ≤ i ∧ i < M0.points.length := by omega
      have hrng : ∀ v, (0 ≤ v ∧ v < 3) ∨ v ∈ l1 → 0 ≤ v ∧ v < M0.points.length := by
        intro v hv; have := hlt v hv; omega
      obtain ⟨e, he, hle⟩ := HE.outside c (M0.pos i) (by
        intro v hv
        have hv' := hlt v hv
        have hvr := hrng v hv
        have e1 : M0.pos v = (R.sortedFrom c ps)[v.toNat]'(by rw [← a2]; omega) := by
          unfold Mesh.pos pyGet
          rw [if_pos hvr.1, List.getElem?_eq_getElem (by omega), Option.getD_some]
          simp only [a2]
        have e2 : M0.pos i = (R.sortedFrom c ps)[i.toNat]'(by rw [← a2]; omega) := by
          unfold Mesh.pos pyGet
          rw [if_pos hiM.1, List.getElem?_eq_getElem (by omega), Option.getD_some]
          simp only [a2]
        rw [e1, e2]
        have := List.pairwise_iff_getElem.1 hsort v.toNat i.toNat (by rw [← a2]; omega) (by rw [← a2]; omega) (by omega)
        unfold dist2 at this
        nlinarith [this]) (by
        intro v hv
        have hv' := hlt v hv
        have hvr := hrng v hv
        exact pos_ne hgM.1 hvr.1 hvr.2 hiM.1 hiM.2 (by omega))
      refine ⟨e, he, lt_of_le_of_ne hle ?_⟩
      have m1 := HE.mem e he
      have h1 := hlt _ m1.1
      have h2 := hlt _ m1.2
      exact hgM.det_ne (hrng _ m1.1) (hrng _ m1.2) hiM (HE.ne e he) (by omega) (by omega))
    refine ⟨?_, ?_⟩
    · intro i i0 i1
      by_cases hi : i < 3
      · exact b4 i (a6 i ⟨i0, hi⟩)
      · exact c1 i (fromThree_mem.2 ⟨by omega, i1⟩)
    · rw [c2, a4, a5]
      unfold fromThree
      rw [List.length_map, List.length_range']
      omega

/-- C120, exact arithmetic: for at least three points in general position and all orders in which Python may traverse its
sets, `triangulate` ends without an error.  The triangles then form a triangulation of the convex hull of the points, its
boundary edges being the sides of the hull; the table lists exactly the triangles at each edge, one or two; and at every
edge with two triangles the opposite angles sum up to at most π (1 + EPS). -/
theorem C120_triangulate (hE : R.IsExact) (hA : R.IsExactAngle) {O : Orders} (hO : O.Valid) {ps : List (Pt K)}
    (hst : ∀ p ∈ ps, R.Stored p) (hg : GeneralPos ps) (h3 : 3 ≤ ps.length) :
    ∃ M f0, (∀ f, f0 ≤ f → R.delaunay O ps f = some (.ok M)) ∧ M.Triangulates ps ∧ M.Consistent ∧ M.AtMostTwo ∧
      ∀ x, M.AngleOk R x := by
  obtain ⟨M, f0, c, h1, -, h2, h, hL, -, -, -⟩ := delaunay_run hE hA hO hst hg h3
  refine ⟨M, f0, h1, h.triangulates (fun v v0 v1 => ⟨v0, v1⟩) (by rw [h2]; exact (sortedFrom_spec hE c ps).1), h.cons, h.two,
    fun x => (hL x).angleOk hE h.good h.inRange⟩

/-! ### more rounds change nothing -/

theorem flipEdgesBy_mono {O : Orders} {ip : ℤ} {f g : ℕ} (hfg : f ≤ g) : ∀ {M : Mesh K} {es : List (ℤ × ℤ)} {k : ℕ}
    {r : Except PyErr (Mesh K)}, R.flipEdgesBy O ip M es k f = some r → R.flipEdgesBy O ip M es k g = some r := by
  induction f generalizing g with
  | zero => intro M es k r h; simp [Rt.flipEdgesBy] at h
  | succ f ih =>
    intro M es k r h
    obtain ⟨g, rfl⟩ : ∃ g', g = g' + 1 := ⟨g - 1, by omega⟩
    unfold Rt.flipEdgesBy at h ⊢
    cases h1 : R.flipRound M (O.edges ip k es) with
    | error x => rw [h1] at h; exact h
    | ok p =>
      obtain ⟨M1, r1⟩ := p
      rw [h1] at h
      cases r1 with
      | nil => exact h
      | cons y r1 => exact ih (by omega) h

theorem addAll_mono {O : Orders} {f g : ℕ} (hfg : f ≤ g) (l : List ℤ) : ∀ {M : Mesh K} {r : Except PyErr (Mesh K)},
    R.addAll O f l M = some r → R.addAll O g l M = some r := by
  induction l with
  | nil => intro M r h; exact h
  | cons i l ih =>
    intro M r h
    have hadd : ∀ {r1}, R.addPointBy O M i f = some r1 → R.addPointBy O M i g = some r1 := by
      intro r1 h1
      unfold Rt.addPointBy at h1 ⊢
      cases h2 : R.addPoint { M with bnd := O.bnd i M.bnd } i with
      | error x => rw [h2] at h1; exact h1
      | ok M1 => rw [h2] at h1; exact flipEdgesBy_mono hfg h1
    unfold Rt.addAll at h ⊢
    cases h1 : R.addPointBy O M i f with
    | none => rw [h1] at h; cases h
    | some r1 =>
      rw [h1] at h
      rw [hadd h1]
      cases r1 with
      | error x => exact h
      | ok M1 => exact ih h

theorem delaunay_mono {O : Orders} {ps : List (Pt K)} {f g : ℕ} (hfg : f ≤ g) {r : Except PyErr (Mesh K)}
    (h : R.delaunay O ps f = some r) : R.delaunay O ps g = some r := by
  unfold Rt.delaunay at h ⊢
  cases h1 : R.centroid ps with
  | error x => rw [h1] at h; exact h
  | ok c =>
    rw [h1] at h
    dsimp only at h ⊢
    cases h2 : R.firstMesh (R.sortedFrom c ps) with
    | none => rw [h2] at h; exact h
    | some r2 =>
      rw [h2] at h
      cases r2 with
      | error x => exact h
      | ok M => exact addAll_mono hfg _ h

/-- C120, exact arithmetic: if `_pts.pop()` gives the numbers in ascending order (as CPython does), every point is a corner of
a triangle, and with `h` sides of the hull there are `2 n - 2 - h` triangles. -/
theorem C120_all_points (hE : R.IsExact) (hA : R.IsExactAngle) {O : Orders} (hO : O.Valid) {ps : List (Pt K)}
    (hst : ∀ p ∈ ps, R.Stored p) (hg : GeneralPos ps) (h3 : 3 ≤ ps.length)
    (hasc : O.pops ps.length = fromThree ps.length) {M : Mesh K} {f : ℕ} (h : R.delaunay O ps f = some (.ok M)) :
    (∀ p ∈ ps, ∃ T ∈ M.tris, p = M.pos T.a ∨ p = M.pos T.b ∨ p = M.pos T.c) ∧
      M.tris.length + M.bnd.length + 2 = 2 * ps.length := by
  obtain ⟨M', f0, c, h1, -, h2, hT, -, -, -, h4⟩ := delaunay_run hE hA hO hst hg h3
  obtain rfl : M = M' := by
    have a := delaunay_mono (le_max_left f f0) h
    rw [h1 _ (le_max_right f f0)] at a
    simpa using a.symm
  obtain ⟨c1, c2⟩ := h4 hasc
  refine ⟨?_, c2⟩
  intro p hp
  have hperm := (sortedFrom_spec hE c ps).1
  rw [← h2] at hperm
  obtain ⟨n, hn, rfl⟩ := List.mem_iff_getElem.1 (hperm.mem_iff.2 hp)
  have hpos : M.points[n] = M.pos (n : ℤ) := by
    unfold Mesh.pos pyGet
    rw [if_pos (by omega), Int.toNat_natCast, List.getElem?_eq_getElem hn]
    rfl
  obtain ⟨T, hT, hh⟩ := c1 n (by omega) (by rw [← hperm.length_eq]; exact_mod_cast hn)
  refine ⟨T, hT, ?_⟩
  rw [hpos]
  rcases hh with hh | hh | hh <;> rw [hh] <;> simp

/-- C120, exact arithmetic, any order of `_pts.pop()`: the first three points are corners; a later one is a corner of a triangle
if and only if it is not in the convex hull of the first three and those popped before it. -/
theorem C120_corners (hE : R.IsExact) (hA : R.IsExactAngle) {O : Orders} (hO : O.Valid) {ps : List (Pt K)}
    (hst : ∀ p ∈ ps, R.Stored p) (hg : GeneralPos ps) (h3 : 3 ≤ ps.length) {M : Mesh K} {f : ℕ}
    (h : R.delaunay O ps f = some (.ok M)) :
    (∀ i : ℤ, 0 ≤ i → i < 3 → ∃ T ∈ M.tris, T.Has i) ∧
    ∀ l1 i l2, O.pops ps.length = l1 ++ i :: l2 → ((∃ T ∈ M.tris, T.Has i) ↔
      (M.pos i).pair ∉ _root_.convexHull K {q | ∃ v : ℤ, ((0 ≤ v ∧ v < 3) ∨ v ∈ l1) ∧ q = (M.pos v).pair}) := by
  obtain ⟨M', f0, c, h1, -, -, -, -, h4, h5, -⟩ := delaunay_run hE hA hO hst hg h3
  obtain rfl : M = M' := by
    have a := delaunay_mono (le_max_left f f0) h
    rw [h1 _ (le_max_right f f0)] at a
    simpa using a.symm
  exact ⟨h4, h5⟩

/-- C120: without points `triangulate` divides by zero; one or two points, or (in exact arithmetic) points on one line, give no
triangle, and at most two points are left. -/
theorem C120_few (O : Orders) (f : ℕ) : R.delaunay O [] f = some (.error .zeroDiv) ∧
    (∀ ps : List (Pt K), ps ≠ [] → ps.length < 3 → ∃ M, R.delaunay O ps f = some (.ok M) ∧ M.tris = [] ∧ M.bnd = [] ∧
      M.points.Perm ps) ∧
    ∀ ps : List (Pt K), R.IsExact → ps ≠ [] → (∀ p ∈ ps, R.Stored p) →
      (∀ p ∈ ps, ∀ q ∈ ps, ∀ r ∈ ps, det3 p q r = 0) → ∃ M, R.delaunay O ps f = some (.ok M) ∧ M.tris = [] ∧ M.bnd = [] ∧
        M.points.length < 3 ∧ ∀ p ∈ M.points, p ∈ ps := by
  refine ⟨rfl, fun ps hne h3 => ?_, fun ps hE hne hst hcol => ?_⟩
  · have hc : ∃ c, R.centroid ps = .ok c := by
      unfold Rt.centroid
      rw [if_neg hne]
      exact ⟨_, rfl⟩
    obtain ⟨c, hc⟩ := hc
    have hp : (R.sortedFrom c ps).Perm ps := List.perm_insertionSort _ _
    have hd : R.dropFlat (R.sortedFrom c ps) = R.sortedFrom c ps := by
      match R.sortedFrom c ps, hp.length_eq with
      | [], _ => rfl
      | [_], _ => rfl
      | [_, _], _ => rfl
      | _ :: _ :: _ :: l, h => simp only [List.length_cons] at h; omega
    have hf : R.firstMesh (R.sortedFrom c ps) = none := by
      unfold Rt.firstMesh
      rw [hd, if_neg (by rw [hp.length_eq]; omega)]
    unfold Rt.delaunay
    rw [hc]
    dsimp only
    rw [hf]
    exact ⟨_, rfl, rfl, rfl, by dsimp only; rw [hd]; exact hp⟩
  · have hc : ∃ c, R.centroid ps = .ok c := by
      unfold Rt.centroid
      rw [if_neg hne]
      exact ⟨_, rfl⟩
    obtain ⟨c, hc⟩ := hc
    have hp : (R.sortedFrom c ps).Perm ps := List.perm_insertionSort _ _
    have hf : R.firstMesh (R.sortedFrom c ps) = none := by
      rw [C89_none]
      intro p q r hi
      have hm : ∀ x ∈ [p, q, r], x ∈ ps := fun x hx => hp.mem_iff.1 (hi.subset hx)
      have h1 := hm p (by simp)
      have h2 := hm q (by simp)
      have h3 := hm r (by simp)
      rw [areaOf_exact hE (hst _ h1) (hst _ h2) (hst _ h3), hcol _ h1 _ h2 _ h3, abs_zero]
      exact hE.isRounding.eps_pos
    unfold Rt.delaunay
    rw [hc]
    dsimp only
    rw [hf]
    refine ⟨_, rfl, rfl, rfl, ?_, fun p h => hp.mem_iff.1 ((dropFlat_suffix R _).subset h)⟩
    by_contra h3
    unfold Rt.firstMesh at hf
    rw [if_pos (by dsimp only at h3; omega)] at hf
    cases hf

/-- three points on a line -/
example : ∀ p ∈ ([⟨0, 0⟩, ⟨1, 1⟩, ⟨3, 3⟩] : List (Pt ℚ)), ∀ q ∈ ([⟨0, 0⟩, ⟨1, 1⟩, ⟨3, 3⟩] : List (Pt ℚ)),
    ∀ r ∈ ([⟨0, 0⟩, ⟨1, 1⟩, ⟨3, 3⟩] : List (Pt ℚ)), det3 p q r = 0 := by decide +kernel

end Srep
