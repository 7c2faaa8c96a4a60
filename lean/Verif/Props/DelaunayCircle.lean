import Verif.Lemmas.TiledEmpty
import Verif.Props.TriangulateEx

/-! C121: the result of `Delaunay2d.triangulate` is the Delaunay triangulation, in exact arithmetic. -/

set_option linter.unusedSectionVars false

namespace Srep
open Cyc
variable {K : Type} [Field K] [LinearOrder K] [IsStrictOrderedRing K] [FloorRing K] {R : Rt K}

/-- `a b c` are the corners of the triangle `T` of the mesh, in some order -/
def Mesh.HasCorners (M : Mesh K) (T : Tri) (a b c : Pt K) : Prop :=
  ∀ p, (p = M.pos T.a ∨ p = M.pos T.b ∨ p = M.pos T.c) ↔ (p = a ∨ p = b ∨ p = c)

theorem NoFourOnCircle.perm {ps qs : List (Pt K)} (h : NoFourOnCircle ps) (hp : qs.Perm ps) : NoFourOnCircle qs :=
  fun p h1 q h2 a h3 b h4 => h p (hp.mem_iff.1 h1) q (hp.mem_iff.1 h2) a (hp.mem_iff.1 h3) b (hp.mem_iff.1 h4)

theorem mem_points_pos {M : Mesh K} {p : Pt K} (h : p ∈ M.points) : ∃ w : ℤ, 0 ≤ w ∧ w < M.points.length ∧ p = M.pos w := by
  obtain ⟨n, hn, rfl⟩ := List.mem_iff_getElem.1 h
  refine ⟨n, by omega, by exact_mod_cast hn, ?_⟩
  unfold Mesh.pos pyGet
  rw [if_pos (by omega), Int.toNat_natCast, List.getElem?_eq_getElem hn]
  rfl

/-- the tiled mesh of all points, each a corner -/
theorem Mesh.Tiled.emptyCircle {M : Mesh K} {ps : List (Pt K)} (h : M.Tiled R (fun v : ℤ => 0 ≤ v ∧ v < M.points.length))
    (hF : R.IsFineAngle) (hL : ∀ x, M.AngleOk R x) (hC : NoFourOnCircle M.points) (hp : M.points.Perm ps)
    (hall : ∀ i : ℤ, 0 ≤ i → i < M.points.length → ∃ T ∈ M.tris, T.Has i) {T : Tri} (hT : T ∈ M.tris) :
    EmptyCircle (M.pos T.a) (M.pos T.b) (M.pos T.c) ps := by
  have pr := h.cons.proper T hT
  have ra := h.inRange T hT T.a (Or.inl rfl)
  have rb := h.inRange T hT T.b (Or.inr (Or.inl rfl))
  have rc := h.inRange T hT T.c (Or.inr (Or.inr rfl))
  have hd : det3 (M.pos T.a) (M.pos T.b) (M.pos T.c) ≠ 0 := h.general.det_ne ra rb rc pr.1 pr.2.1 pr.2.2
  obtain ⟨z, z1, z2⟩ := exists_centre hd
  refine ⟨z, z1, z2, ?_⟩
  intro p hpm n1 n2 n3
  obtain ⟨w, w0, w1, rfl⟩ := mem_points_pos (hp.mem_iff.2 hpm)
  have := (h.power_nonneg hF hL hC ⟨w0, w1⟩ (hall w w0 w1) hT).2 (by
    rintro (hh | hh | hh)
    · exact n1 (by rw [hh])
    · exact n2 (by rw [hh])
    · exact n3 (by rw [hh]))
  unfold Mesh.triPower at this
  rw [power_centre hd z1 z2] at this
  linarith

/-- three points with an empty circle are the corners of any triangle with an empty circle that contains their centre of
gravity -/
theorem empty_unique {ps : List (Pt K)} {a b c x y z : Pt K} (ha : a ∈ ps) (hb : b ∈ ps) (hc : c ∈ ps)
    (hx : x ∈ ps) (hy : y ∈ ps) (hz : z ∈ ps) (hD : det3 x y z ≠ 0) (h1 : EmptyCircle a b c ps) (h2 : EmptyCircle x y z ps)
    (hin : TriClosed x y z ⟨(a.x + b.x + c.x) / 3, (a.y + b.y + c.y) / 3⟩) :
    (a = x ∨ a = y ∨ a = z) ∧ (b = x ∨ b = y ∨ b = z) ∧ (c = x ∨ c = y ∨ c = z) := by
  obtain ⟨u, u1, u2, hu⟩ := h1
  obtain ⟨v, v1, v2, hv⟩ := h2
  have pu : ∀ p ∈ ps, 0 ≤ dist2 u p - dist2 u a := by
    intro p hp
    by_cases e1 : p = a
    · rw [e1, sub_self]
    by_cases e2 : p = b
    · rw [e2, u1, sub_self]
    by_cases e3 : p = c
    · rw [e3, u1, u2, sub_self]
    have := hu p hp e1 e2 e3
    linarith
  have pv : ∀ p ∈ ps, 0 ≤ dist2 v p - dist2 v x ∧ (dist2 v p - dist2 v x = 0 → p = x ∨ p = y ∨ p = z) := by
    intro p hp
    by_cases e1 : p = x
    · rw [e1, sub_self]; exact ⟨le_rfl, fun _ => Or.inl rfl⟩
    by_cases e2 : p = y
    · rw [e2, v1, sub_self]; exact ⟨le_rfl, fun _ => Or.inr (Or.inl rfl)⟩
    by_cases e3 : p = z
    · rw [e3, v1, v2, sub_self]; exact ⟨le_rfl, fun _ => Or.inr (Or.inr rfl)⟩
    have := hv p hp e1 e2 e3
    exact ⟨by linarith, fun hh => by linarith⟩
  set X : Pt K := ⟨(a.x + b.x + c.x) / 3, (a.y + b.y + c.y) / 3⟩ with hX
  -- the difference of the powers, an affine function
  set g : Pt K → K := fun p => (dist2 v p - dist2 v x) - (dist2 u p - dist2 u a) with hg
  have gmean : 3 * g X = g a + g b + g c := by simp only [hg, hX]; unfold dist2; ring
  have gbary : det3 x y z * g X = det3 y z X * g x + det3 z x X * g y + det3 x y X * g z := by
    simp only [hg]; unfold dist2 det3; ring
  have ga : g a = dist2 v a - dist2 v x := by simp only [hg]; ring
  have gb : g b = dist2 v b - dist2 v x := by simp only [hg]; rw [u1]; ring
  have gc : g c = dist2 v c - dist2 v x := by simp only [hg]; rw [u1, u2]; ring
  have gx : g x = -(dist2 u x - dist2 u a) := by simp only [hg]; ring
  have gy : g y = -(dist2 u y - dist2 u a) := by simp only [hg]; rw [v1]; ring
  have gz : g z = -(dist2 u z - dist2 u a) := by simp only [hg]; rw [v1, v2]; ring
  have nx := pu x hx
  have ny := pu y hy
  have nz := pu z hz
  have na := (pv a ha).1
  have nb := (pv b hb).1
  have nc := (pv c hc).1
  have hle : g X ≤ 0 := by
    have id2 : det3 x y X + det3 y z X + det3 z x X = det3 x y z := by unfold det3; ring
    rcases hin with ⟨c1, c2, c3⟩ | ⟨c1, c2, c3⟩
    · have hD' : 0 < det3 x y z := lt_of_le_of_ne (by linarith) hD.symm
      by_contra hc
      have q0 := mul_pos hD' (not_le.1 hc)
      have q1 := mul_nonneg c2 nx
      have q2 := mul_nonneg c3 ny
      have q3 := mul_nonneg c1 nz
      rw [gbary, gx, gy, gz] at q0
      linarith
    · have hD' : det3 x y z < 0 := lt_of_le_of_ne (by linarith) hD
      by_contra hc
      have q0 := mul_neg_of_neg_of_pos hD' (not_le.1 hc)
      have q1 := mul_nonpos_of_nonpos_of_nonneg c2 nx
      have q2 := mul_nonpos_of_nonpos_of_nonneg c3 ny
      have q3 := mul_nonpos_of_nonpos_of_nonneg c1 nz
      rw [gbary, gx, gy, gz] at q0
      linarith
  rw [ga, gb, gc] at gmean
  exact ⟨(pv a ha).2 (by linarith), (pv b hb).2 (by linarith), (pv c hc).2 (by linarith)⟩

/-- the finished run, all points being corners -/
theorem delaunay_ascending (hE : R.IsExact) (hA : R.IsExactAngle) {O : Orders} (hO : O.Valid) {ps : List (Pt K)}
    (hst : ∀ p ∈ ps, R.Stored p) (hg : GeneralPos ps) (h3 : 3 ≤ ps.length)
    (hasc : O.pops ps.length = fromThree ps.length) {M : Mesh K} {f : ℕ} (h : R.delaunay O ps f = some (.ok M)) :
    M.Tiled R (fun v : ℤ => 0 ≤ v ∧ v < M.points.length) ∧ M.points.Perm ps ∧ (∀ x, M.AngleOk R x) ∧
      ∀ i : ℤ, 0 ≤ i → i < M.points.length → ∃ T ∈ M.tris, T.Has i := by
  obtain ⟨M', f0, c, h1, -, h2, hT, hL, -, -, h4⟩ := delaunay_run hE hA hO hst hg h3
  obtain rfl : M = M' := by
    have a := delaunay_mono (le_max_left f f0) h
    rw [h1 _ (le_max_right f f0)] at a
    simpa using a.symm
  have hperm := (sortedFrom_spec hE c ps).1
  rw [← h2] at hperm
  refine ⟨hT, hperm, fun x => (hL x).angleOk hE hT.good hT.inRange, fun i i0 i1 => (h4 hasc).1 i i0 ?_⟩
  rw [← hperm.length_eq]; exact i1

/-- C121, exact arithmetic: if moreover no four points are nearly on a circle, the circle through the corners of any
triangle of the result has all other points strictly outside. -/
theorem C121_empty_circle (hE : R.IsExact) (hA : R.IsExactAngle) (hF : R.IsFineAngle) {O : Orders} (hO : O.Valid)
    {ps : List (Pt K)} (hst : ∀ p ∈ ps, R.Stored p) (hg : GeneralPos ps) (hC : NoFourOnCircle ps) (h3 : 3 ≤ ps.length)
    (hasc : O.pops ps.length = fromThree ps.length) {M : Mesh K} {f : ℕ} (h : R.delaunay O ps f = some (.ok M)) :
    ∀ T ∈ M.tris, EmptyCircle (M.pos T.a) (M.pos T.b) (M.pos T.c) ps := by
  obtain ⟨hT, hperm, hL, hall⟩ := delaunay_ascending hE hA hO hst hg h3 hasc h
  intro T mT
  exact hT.emptyCircle hF hL (hC.perm hperm) hperm hall mT

/-- C121: three of the points are the corners of a triangle of the result if and only if the circle through them has all
other points strictly outside. -/
theorem C121_characterised (hE : R.IsExact) (hA : R.IsExactAngle) (hF : R.IsFineAngle) {O : Orders} (hO : O.Valid)
    {ps : List (Pt K)} (hst : ∀ p ∈ ps, R.Stored p) (hg : GeneralPos ps) (hC : NoFourOnCircle ps) (h3 : 3 ≤ ps.length)
    (hasc : O.pops ps.length = fromThree ps.length) {M : Mesh K} {f : ℕ} (h : R.delaunay O ps f = some (.ok M))
    {a b c : Pt K} (ha : a ∈ ps) (hb : b ∈ ps) (hc : c ∈ ps) (hab : a ≠ b) (hbc : b ≠ c) (hac : a ≠ c) :
    (∃ T ∈ M.tris, M.HasCorners T a b c) ↔ EmptyCircle a b c ps := by
  obtain ⟨hT, hperm, hL, hall⟩ := delaunay_ascending hE hA hO hst hg h3 hasc h
  have hempty : ∀ T ∈ M.tris, EmptyCircle (M.pos T.a) (M.pos T.b) (M.pos T.c) ps := fun T mT =>
    hT.emptyCircle hF hL (hC.perm hperm) hperm hall mT
  constructor
  · rintro ⟨T, mT, hcor⟩
    obtain ⟨z, z1, z2, hz⟩ := hempty T mT
    have ea : ∀ p, (p = a ∨ p = b ∨ p = c) → dist2 z p = dist2 z (M.pos T.a) := by
      intro p hp
      rcases (hcor p).2 hp with rfl | rfl | rfl
      · rfl
      · exact z1.symm
      · rw [z1, z2]
    refine ⟨z, ?_, ?_, ?_⟩
    · rw [ea a (by simp), ea b (by simp)]
    · rw [ea b (by simp), ea c (by simp)]
    · intro p hp n1 n2 n3
      rw [ea a (by simp)]
      have hn : ¬ (p = a ∨ p = b ∨ p = c) := by tauto
      rw [← hcor p] at hn
      exact hz p hp (by tauto) (by tauto) (by tauto)
  · intro he
    have hX : ∀ e ∈ M.bnd, 0 ≤ det3 (M.pos e.1) (M.pos e.2) (⟨(a.x + b.x + c.x) / 3, (a.y + b.y + c.y) / 3⟩ : Pt K) := by
      intro e hm
      have nn : ∀ p ∈ ps, 0 ≤ det3 (M.pos e.1) (M.pos e.2) p := by
        intro p hp
        obtain ⟨w, w0, w1, rfl⟩ := mem_points_pos (hperm.mem_iff.2 hp)
        exact hT.hull.nonneg hm ⟨w0, w1⟩
      have id : det3 (M.pos e.1) (M.pos e.2) (⟨(a.x + b.x + c.x) / 3, (a.y + b.y + c.y) / 3⟩ : Pt K)
          = (det3 (M.pos e.1) (M.pos e.2) a + det3 (M.pos e.1) (M.pos e.2) b + det3 (M.pos e.1) (M.pos e.2) c) / 3 := by
        unfold det3; ring
      rw [id]
      exact div_nonneg (add_nonneg (add_nonneg (nn a ha) (nn b hb)) (nn c hc)) (by norm_num)
    obtain ⟨T, mT, hin⟩ := hT.closed hX
    have pr := hT.cons.proper T mT
    have ra := hT.inRange T mT T.a (Or.inl rfl)
    have rb := hT.inRange T mT T.b (Or.inr (Or.inl rfl))
    have rc := hT.inRange T mT T.c (Or.inr (Or.inr rfl))
    have hd : det3 (M.pos T.a) (M.pos T.b) (M.pos T.c) ≠ 0 := hT.general.det_ne ra rb rc pr.1 pr.2.1 pr.2.2
    have n1 := pos_ne hT.general.1 ra.1 ra.2 rb.1 rb.2 pr.1
    have n2 := pos_ne hT.general.1 rb.1 rb.2 rc.1 rc.2 pr.2.1
    have n3 := pos_ne hT.general.1 ra.1 ra.2 rc.1 rc.2 pr.2.2
    obtain ⟨q1, q2, q3⟩ := empty_unique ha hb hc (hperm.mem_iff.1 (pos_mem ra.1 ra.2)) (hperm.mem_iff.1 (pos_mem rb.1 rb.2))
      (hperm.mem_iff.1 (pos_mem rc.1 rc.2)) hd he (hempty T mT) hin
    refine ⟨T, mT, ?_⟩
    unfold Mesh.HasCorners
    generalize M.pos T.a = x at *
    generalize M.pos T.b = y at *
    generalize M.pos T.c = z at *
    intro p
    rcases q1 with rfl | rfl | rfl <;> rcases q2 with rfl | rfl | rfl <;> rcases q3 with rfl | rfl | rfl <;>
      first | exact absurd rfl hab | exact absurd rfl hbc | exact absurd rfl hac | tauto

/-- C121: the result does not depend on the order of the points nor on the orders in which the sets are traversed, as long
as `_pts.pop()` gives ascending numbers: the same triples of points are corners of a triangle. -/
theorem C121_order_free (hE : R.IsExact) (hA : R.IsExactAngle) (hF : R.IsFineAngle) {O O' : Orders} (hO : O.Valid)
    (hO' : O'.Valid) {ps ps' : List (Pt K)} (hst : ∀ p ∈ ps, R.Stored p) (hg : GeneralPos ps) (hC : NoFourOnCircle ps)
    (h3 : 3 ≤ ps.length) (hp : ps'.Perm ps) (hasc : O.pops ps.length = fromThree ps.length)
    (hasc' : O'.pops ps.length = fromThree ps.length) {M M' : Mesh K} {f f' : ℕ}
    (h : R.delaunay O ps f = some (.ok M)) (h' : R.delaunay O' ps' f' = some (.ok M')) {a b c : Pt K}
    (ha : a ∈ ps) (hb : b ∈ ps) (hc : c ∈ ps) (hab : a ≠ b) (hbc : b ≠ c) (hac : a ≠ c) :
    (∃ T ∈ M.tris, M.HasCorners T a b c) ↔ ∃ T ∈ M'.tris, M'.HasCorners T a b c := by
  rw [C121_characterised hE hA hF hO hst hg hC h3 hasc h ha hb hc hab hbc hac,
    C121_characterised hE hA hF hO' (fun p hm => hst p (hp.mem_iff.1 hm)) (hg.perm hp) (hC.perm hp)
      (by rw [hp.length_eq]; exact h3) (by rw [hp.length_eq]; exact hasc') h' (hp.mem_iff.2 ha) (hp.mem_iff.2 hb)
      (hp.mem_iff.2 hc) hab hbc hac]
  unfold EmptyCircle
  simp only [hp.mem_iff]

end Srep
