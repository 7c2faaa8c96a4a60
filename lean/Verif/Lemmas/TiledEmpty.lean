import Verif.Lemmas.TiledNext
import Verif.Lemmas.CircleGeom
import Verif.Props.DelaunayFlip

/-! Legal edges everywhere and no four points nearly on a circle: the circle of each triangle is empty. -/

set_option linter.unusedSectionVars false

namespace Srep
open Cyc
variable {K : Type} [Field K] [LinearOrder K] [IsStrictOrderedRing K] [FloorRing K] {R : Rt K}
variable {M : Mesh K} {A : ℤ → Prop}

/-- the power of a point in the circle through the corners of a triangle -/
def Mesh.triPower (M : Mesh K) (T : Tri) (p : Pt K) : K := Srep.power (M.pos T.a) (M.pos T.b) (M.pos T.c) p

theorem power_perm {T : Tri} (hp : T.Proper) {x y z : ℤ} (h : ∀ v, T.Has v ↔ v = x ∨ v = y ∨ v = z) (p : Pt K) :
    M.triPower T p = power (M.pos x) (M.pos y) (M.pos z) p := by
  have sw : ∀ a b c : Pt K, power a c b p = power a b c p := fun a b c => by
    rw [← power_rot, power_swap, power_rot, power_rot]
  unfold Mesh.triPower
  rcases tri_cases hp h with rfl | rfl | rfl | rfl | rfl | rfl <;> dsimp only
  · exact sw _ _ _
  · exact power_swap _ _ _ _
  · exact power_rot _ _ _ _
  · rw [← power_rot]
  · rw [← power_rot]; exact power_swap _ _ _ _

/-- To the triangle beyond an edge, the power of a point on that side decreases. -/
theorem Mesh.Tiled.decrease (h : M.Tiled R A) (hF : R.IsFineAngle) (hL : ∀ x, M.AngleOk R x)
    (hC : NoFourOnCircle M.points) {n : ℕ} {T : Tri} (hT : M.tris[n]? = some T) {i j u w : ℤ}
    (hv : ∀ v, T.Has v ↔ v = i ∨ v = j ∨ v = u) (hij : i ≠ j) (hju : j ≠ u) (hiu : i ≠ u) (hw : A w)
    (hs : det3 (M.pos i) (M.pos j) (M.pos u) * det3 (M.pos i) (M.pos j) (M.pos w) < 0) :
    ∃ S ∈ M.tris, M.triPower S (M.pos w) < M.triPower T (M.pos w) := by
  suffices H : ∀ i j : ℤ, (∀ v, T.Has v ↔ v = i ∨ v = j ∨ v = u) → i < j → j ≠ u → i ≠ u →
      det3 (M.pos i) (M.pos j) (M.pos u) * det3 (M.pos i) (M.pos j) (M.pos w) < 0 →
      ∃ S ∈ M.tris, M.triPower S (M.pos w) < M.triPower T (M.pos w) by
    rcases lt_or_gt_of_ne hij with hlt | hlt
    · exact H i j hv hlt hju hiu hs
    · refine H j i (fun v => by rw [hv v]; tauto) hlt hiu hju ?_
      rw [det3_swap' (M.pos i), det3_swap' (M.pos i), neg_mul_neg]
      exact hs
  clear hs hij hju hiu hv i j
  intro i j hv hlt hju hiu hs
  have hij : i ≠ j := hlt.ne
  have mT := List.mem_of_getElem? hT
  obtain ⟨m, S, hS, hmn, Si, Sj⟩ := h.beyond hT hv hij hju hiu hw hs
  have mS := List.mem_of_getElem? hS
  have Ti : T.Has i := (hv i).2 (Or.inl rfl)
  have Tj : T.Has j := (hv j).2 (Or.inr (Or.inl rfl))
  have Tu : T.Has u := (hv u).2 (Or.inr (Or.inr rfl))
  obtain ⟨l, hl, nl⟩ := h.cons.complete n (i, j) ⟨T, hT, hlt, Ti, Tj⟩
  obtain ⟨l', hl', ml⟩ := h.cons.complete m (i, j) ⟨S, hS, hlt, Si, Sj⟩
  rw [hl] at hl'
  obtain rfl := Option.some.inj hl'
  have hl2 := h.two _ _ hl
  obtain ⟨o1, o2, o3⟩ := Tri.opp_spec (h.cons.proper S mS) (e := (i, j)) ⟨hlt, Si, Sj⟩
  set v := S.opp (i, j) with hvdef
  have Sv : S.Has v := (o3 v).2 (Or.inl rfl)
  have ri := h.inRange T mT i Ti
  have rj := h.inRange T mT j Tj
  have ru := h.inRange T mT u Tu
  have rv := h.inRange S mS v Sv
  have hl' : l = [n, m] ∨ l = [m, n] := by
    match l, hl2, nl, ml with
    | [], _, nl, _ => simp at nl
    | [a], _, nl, ml => simp at nl ml; omega
    | [a, b], _, nl, ml =>
      simp only [List.mem_cons, List.not_mem_nil, or_false] at nl ml
      rcases nl with rfl | rfl <;> rcases ml with rfl | rfl
      · exact absurd rfl hmn
      · exact Or.inl rfl
      · exact Or.inr rfl
      · exact absurd rfl hmn
    | _ :: _ :: _ :: _, h2, _, _ => simp at h2
  -- opposite sides and the angles
  obtain ⟨hpl, hfine⟩ : det3 (M.pos i) (M.pos j) (M.pos u) * det3 (M.pos i) (M.pos j) (M.pos v) < 0 ∧
      (0 ≤ |det3 (M.pos u) (M.pos i) (M.pos j)| * dot3 (M.pos v) (M.pos i) (M.pos j)
          + dot3 (M.pos u) (M.pos i) (M.pos j) * |det3 (M.pos v) (M.pos j) (M.pos i)| ∨
        10 ^ 15 * (|det3 (M.pos u) (M.pos i) (M.pos j)| * dot3 (M.pos v) (M.pos i) (M.pos j)
          + dot3 (M.pos u) (M.pos i) (M.pos j) * |det3 (M.pos v) (M.pos j) (M.pos i)|) ^ 2 <
        (det3 (M.pos u) (M.pos i) (M.pos j) ^ 2 + dot3 (M.pos u) (M.pos i) (M.pos j) ^ 2) *
        (det3 (M.pos v) (M.pos i) (M.pos j) ^ 2 + dot3 (M.pos v) (M.pos i) (M.pos j) ^ 2)) := by
    have nu : det3 (M.pos u) (M.pos i) (M.pos j) ≠ 0 := h.general.det_ne ru ri rj hiu.symm hij hju.symm
    have nv : det3 (M.pos v) (M.pos i) (M.pos j) ≠ 0 := h.general.det_ne rv ri rj o1 hij o2
    have su := det3_swap (M.pos u) (M.pos i) (M.pos j)
    have sv := det3_swap (M.pos v) (M.pos i) (M.pos j)
    rcases hl' with rfl | rfl
    · refine ⟨h.planar (i, j) n m T S u v hl hT hS Tu hiu.symm hju.symm Sv o1 o2, ?_⟩
      have := hF _ _ _ _ nu (by rw [sv]; exact neg_ne_zero.2 nv)
        (hL (i, j) n m T S u v hl hT hS Tu hiu.symm hju.symm Sv o1 o2)
      simp only at this
      rw [sv, neg_sq] at this
      rw [sv]
      exact this
    · refine ⟨by rw [mul_comm]; exact h.planar (i, j) m n S T v u hl hS hT Sv o1 o2 Tu hiu.symm hju.symm, ?_⟩
      have := hF _ _ _ _ nv (by rw [su]; exact neg_ne_zero.2 nu)
        (hL (i, j) m n S T v u hl hS hT Sv o1 o2 Tu hiu.symm hju.symm)
      simp only at this
      rw [su, neg_sq, abs_neg] at this
      rw [sv, abs_neg]
      have e : |det3 (M.pos v) (M.pos i) (M.pos j)| * dot3 (M.pos u) (M.pos i) (M.pos j)
          + dot3 (M.pos v) (M.pos i) (M.pos j) * |det3 (M.pos u) (M.pos i) (M.pos j)|
          = |det3 (M.pos u) (M.pos i) (M.pos j)| * dot3 (M.pos v) (M.pos i) (M.pos j)
          + dot3 (M.pos u) (M.pos i) (M.pos j) * |det3 (M.pos v) (M.pos i) (M.pos j)| := by ring
      rw [e, mul_comm (det3 (M.pos v) (M.pos i) (M.pos j) ^ 2 + _)] at this
      exact this
  have huv : u ≠ v := by
    intro hh
    rw [← hh] at hpl
    nlinarith [mul_self_nonneg (det3 (M.pos i) (M.pos j) (M.pos u))]
  have hsgn : 0 < det3 (M.pos u) (M.pos i) (M.pos j) * det3 (M.pos v) (M.pos j) (M.pos i) := by
    have : det3 (M.pos u) (M.pos i) (M.pos j) * det3 (M.pos v) (M.pos j) (M.pos i)
        = -(det3 (M.pos i) (M.pos j) (M.pos u) * det3 (M.pos i) (M.pos j) (M.pos v)) := by unfold det3; ring
    rw [this]; linarith
  have hno := hC (M.pos i) (pos_mem ri.1 ri.2) (M.pos j) (pos_mem rj.1 rj.2) (M.pos u) (pos_mem ru.1 ru.2) (M.pos v)
    (pos_mem rv.1 rv.2) (pos_ne h.general.1 ri.1 ri.2 rj.1 rj.2 hij) (pos_ne h.general.1 ri.1 ri.2 ru.1 ru.2 hiu)
    (pos_ne h.general.1 ri.1 ri.2 rv.1 rv.2 (Ne.symm o1)) (pos_ne h.general.1 rj.1 rj.2 ru.1 ru.2 hju)
    (pos_ne h.general.1 rj.1 rj.2 rv.1 rv.2 (Ne.symm o2)) (pos_ne h.general.1 ru.1 ru.2 rv.1 rv.2 huv)
  rw [lagrange, lagrange, cot_signed hsgn] at hfine
  have hcd : circDet (M.pos u) (M.pos i) (M.pos j) (M.pos v) ^ 2
      = (|det3 (M.pos u) (M.pos i) (M.pos j)| * power (M.pos i) (M.pos j) (M.pos u) (M.pos v)) ^ 2 := by
    rw [circDet_eq, neg_sq, mul_pow, sq_abs, power_rot (M.pos u)]
    unfold power
    rw [← mul_pow, mul_div_cancel₀ _ (left_ne_zero_of_mul hsgn.ne')]
  rw [hcd] at hno
  set s := |det3 (M.pos u) (M.pos i) (M.pos j)| * power (M.pos i) (M.pos j) (M.pos u) (M.pos v) with hsdef
  have hs0 : 0 < s := by
    rcases hfine with hh | hh
    · refine lt_of_le_of_ne hh ?_
      intro h0
      rw [← h0] at hno
      have : 0 ≤ dist2 (M.pos u) (M.pos i) * dist2 (M.pos u) (M.pos j) * (dist2 (M.pos v) (M.pos i) * dist2 (M.pos v) (M.pos j)) :=
        mul_nonneg (mul_nonneg (dist2_nonneg _ _) (dist2_nonneg _ _)) (mul_nonneg (dist2_nonneg _ _) (dist2_nonneg _ _))
      norm_num at hno
      linarith
    · exact absurd (hh.trans hno) (lt_irrefl _)
  have hpw : 0 < power (M.pos i) (M.pos j) (M.pos u) (M.pos v) := pos_of_mul_pos_right hs0 (abs_nonneg _)
  refine ⟨S, mS, ?_⟩
  rw [power_perm (h.cons.proper S mS) (x := i) (y := j) (z := v) (fun z => by rw [o3 z]; tauto),
    power_perm (h.cons.proper T mT) hv]
  have nu : det3 (M.pos i) (M.pos j) (M.pos u) ≠ 0 := h.general.det_ne ri rj ru hij hju hiu
  have nv : det3 (M.pos i) (M.pos j) (M.pos v) ≠ 0 := h.general.det_ne ri rj rv hij (Ne.symm o2) (Ne.symm o1)
  have st := power_step (p := M.pos w) nu nv
  have : 0 < power (M.pos i) (M.pos j) (M.pos u) (M.pos v) * det3 (M.pos i) (M.pos j) (M.pos w)
      / det3 (M.pos i) (M.pos j) (M.pos v) := by
    rw [mul_div_assoc]
    refine mul_pos hpw ?_
    rcases lt_or_gt_of_ne nu with hh | hh
    · exact div_pos (by nlinarith) (by nlinarith)
    · exact div_pos_of_neg_of_neg (by nlinarith) (by nlinarith)
  linarith

/-- a small step keeps a point strictly inside a triangle -/
theorem InTri.step {a b c X : Pt K} (h : InTri a b c X) (p q : K) :
    ∃ δ : K, 0 < δ ∧ ∀ t, 0 ≤ t → t ≤ δ → InTri a b c (go X p q t) := by
  rcases h with ⟨a1, a2, a3⟩ | ⟨a1, a2, a3⟩
  · obtain ⟨δ, d0, hd⟩ := small_step [Aff.line a b, Aff.line b c, Aff.line c a] X (by
      simp only [List.mem_cons, List.not_mem_nil, or_false, forall_eq_or_imp, forall_eq, Aff.line_at]
      exact ⟨a1, a2, a3⟩) p q
    refine ⟨δ, d0, fun t t0 t1 => Or.inl ?_⟩
    have := hd t t0 t1
    simpa only [List.mem_cons, List.not_mem_nil, or_false, forall_eq_or_imp, forall_eq, Aff.line_at] using this
  · obtain ⟨δ, d0, hd⟩ := small_step [(Aff.line a b).neg, (Aff.line b c).neg, (Aff.line c a).neg] X (by
      simp only [List.mem_cons, List.not_mem_nil, or_false, forall_eq_or_imp, forall_eq, Aff.line_at, Aff.neg_at, neg_pos]
      exact ⟨a1, a2, a3⟩) p q
    refine ⟨δ, d0, fun t t0 t1 => Or.inr ?_⟩
    have := hd t t0 t1
    simpa only [List.mem_cons, List.not_mem_nil, or_false, forall_eq_or_imp, forall_eq, Aff.line_at, Aff.neg_at,
      neg_pos] using this

/-- a corner of one triangle is not strictly inside another -/
theorem Mesh.Tiled.corner_outside (h : M.Tiled R A) {n m : ℕ} {T S : Tri} (hT : M.tris[n]? = some T)
    (hS : M.tris[m]? = some S) (hnm : n ≠ m) {w : ℤ} (hw : S.Has w) : ¬ M.Inside T (M.pos w) := by
  intro hin
  have mS := List.mem_of_getElem? hS
  have pr := h.cons.proper S mS
  obtain ⟨x, y, hv, hwx, hxy, hwy⟩ : ∃ x y, (∀ v, S.Has v ↔ v = w ∨ v = x ∨ v = y) ∧ w ≠ x ∧ x ≠ y ∧ w ≠ y := by
    obtain ⟨p1, p2, p3⟩ := pr
    rcases hw with rfl | rfl | rfl
    · exact ⟨S.b, S.c, fun v => Iff.rfl, p1, p2, p3⟩
    · exact ⟨S.a, S.c, fun v => by unfold Tri.Has; tauto, p1.symm, p3, p2⟩
    · exact ⟨S.a, S.b, fun v => by unfold Tri.Has; tauto, p3.symm, p1, p2.symm⟩
  have hd : det3 (M.pos w) (M.pos x) (M.pos y) ≠ 0 :=
    h.general.det_ne (h.inRange S mS w hw) (h.inRange S mS x ((hv x).2 (by tauto)))
      (h.inRange S mS y ((hv y).2 (by tauto))) hwx hxy hwy
  obtain ⟨δ, d0, hd'⟩ := hin.step
    (((M.pos w).x + (M.pos x).x + (M.pos y).x) / 3 - (M.pos w).x) (((M.pos w).y + (M.pos x).y + (M.pos y).y) / 3 - (M.pos w).y)
  set t := min δ 1 with ht
  have t0 : 0 < t := lt_min d0 one_pos
  have t1 : t ≤ 1 := min_le_right _ _
  refine h.disjoint hT hS hnm _ ⟨hd' t t0.le (min_le_left _ _), ?_⟩
  unfold Mesh.Inside
  rw [inTri_perm M.pos pr hv]
  set Z := go (M.pos w) (((M.pos w).x + (M.pos x).x + (M.pos y).x) / 3 - (M.pos w).x)
    (((M.pos w).y + (M.pos x).y + (M.pos y).y) / 3 - (M.pos w).y) t with hZ
  have e1 : det3 (M.pos w) (M.pos x) Z = t / 3 * det3 (M.pos w) (M.pos x) (M.pos y) := by
    simp only [hZ, go]; unfold det3; ring
  have e2 : det3 (M.pos x) (M.pos y) Z = (1 - 2 * t / 3) * det3 (M.pos w) (M.pos x) (M.pos y) := by
    simp only [hZ, go]; unfold det3; ring
  have e3 : det3 (M.pos y) (M.pos w) Z = t / 3 * det3 (M.pos w) (M.pos x) (M.pos y) := by
    simp only [hZ, go]; unfold det3; ring
  have c1 : 0 < t / 3 := by positivity
  have c2 : 0 < 1 - 2 * t / 3 := by linarith
  unfold InTri
  rw [e1, e2, e3]
  rcases lt_or_gt_of_ne hd with hh | hh
  · exact Or.inr ⟨mul_neg_of_pos_of_neg c1 hh, mul_neg_of_pos_of_neg c2 hh, mul_neg_of_pos_of_neg c1 hh⟩
  · exact Or.inl ⟨mul_pos c1 hh, mul_pos c2 hh, mul_pos c1 hh⟩

/-- The power of a point of the mesh in the circle of a triangle is not negative, and positive if it is no corner. -/
theorem Mesh.Tiled.power_nonneg (h : M.Tiled R A) (hF : R.IsFineAngle) (hL : ∀ x, M.AngleOk R x)
    (hC : NoFourOnCircle M.points) {w : ℤ} (hw : A w) (hcor : ∃ S ∈ M.tris, S.Has w) {T : Tri} (hT : T ∈ M.tris) :
    0 ≤ M.triPower T (M.pos w) ∧ (¬ T.Has w → 0 < M.triPower T (M.pos w)) := by
  have hself : ∀ S ∈ M.tris, S.Has w → M.triPower S (M.pos w) = 0 := by
    intro S _ hh
    have z1 : ∀ a b : Pt K, power a b (M.pos w) (M.pos w) = 0 := by
      intro a b
      have : cotSum b (M.pos w) a (M.pos w) = 0 := by unfold cotSum det3 dot3; ring
      unfold power; rw [this, zero_div]
    unfold Mesh.triPower
    rcases hh with hh | hh | hh <;> rw [← hh]
    · rw [← power_rot]; exact z1 _ _
    · rw [← power_rot, ← power_rot]; exact z1 _ _
    · exact z1 _ _
  have rw' := h.inA w hw
  have hnn : 0 ≤ M.triPower T (M.pos w) := by
    obtain ⟨S, mS, hmin⟩ := Set.exists_min_image {S | S ∈ M.tris} (fun S => M.triPower S (M.pos w))
      (List.finite_toSet M.tris) ⟨T, hT⟩
    refine le_trans ?_ (hmin T hT)
    have mS' : S ∈ M.tris := mS
    by_cases hSw : S.Has w
    · exact (hself S mS' hSw).symm.le
    exfalso
    obtain ⟨m, hm, hSm⟩ := List.mem_iff_getElem.1 mS'
    have hS : M.tris[m]? = some S := by rw [List.getElem?_eq_getElem hm, hSm]
    have pr := h.cons.proper S mS'
    have side : ∀ i j u : ℤ, (∀ v, S.Has v ↔ v = i ∨ v = j ∨ v = u) → i ≠ j → j ≠ u → i ≠ u →
        0 < det3 (M.pos i) (M.pos j) (M.pos u) * det3 (M.pos i) (M.pos j) (M.pos w) := by
      intro i j u hv hij hju hiu
      have Si : S.Has i := (hv i).2 (Or.inl rfl)
      have Sj : S.Has j := (hv j).2 (Or.inr (Or.inl rfl))
      have Su : S.Has u := (hv u).2 (Or.inr (Or.inr rfl))
      by_contra hc
      have hlt : det3 (M.pos i) (M.pos j) (M.pos u) * det3 (M.pos i) (M.pos j) (M.pos w) < 0 := by
        refine lt_of_le_of_ne (not_lt.1 hc) (mul_ne_zero ?_ ?_)
        · exact h.general.det_ne (h.inRange S mS' i Si) (h.inRange S mS' j Sj) (h.inRange S mS' u Su) hij hju hiu
        · exact h.general.det_ne (h.inRange S mS' i Si) (h.inRange S mS' j Sj) rw' hij
            (fun hh => hSw (hh ▸ Sj)) (fun hh => hSw (hh ▸ Si))
      obtain ⟨S', mS'', hlt'⟩ := h.decrease hF hL hC hS hv hij hju hiu hw hlt
      exact absurd (hmin S' mS'') (not_le.2 hlt')
    have s1 := side S.a S.b S.c (fun v => Iff.rfl) pr.1 pr.2.1 pr.2.2
    have s2 := side S.b S.c S.a (fun v => by unfold Tri.Has; tauto) pr.2.1 pr.2.2.symm pr.1.symm
    have s3 := side S.c S.a S.b (fun v => by unfold Tri.Has; tauto) pr.2.2.symm pr.1 pr.2.1.symm
    rw [det3_rot] at s2
    rw [det3_rot, det3_rot] at s3
    obtain ⟨S', mS'', hw'⟩ := hcor
    obtain ⟨m', hm', hSm'⟩ := List.mem_iff_getElem.1 mS''
    have hS' : M.tris[m']? = some S' := by rw [List.getElem?_eq_getElem hm', hSm']
    have hne : m ≠ m' := by
      rintro rfl
      rw [hS] at hS'
      obtain rfl := Option.some.inj hS'
      exact hSw hw'
    refine h.corner_outside hS hS' hne hw' ?_
    unfold Mesh.Inside InTri
    rcases pos_and_pos_or_neg_and_neg_of_mul_pos s1 with ⟨g, g1⟩ | ⟨g, g1⟩
    · exact Or.inl ⟨g1, pos_of_mul_pos_right s2 g.le, pos_of_mul_pos_right s3 g.le⟩
    · exact Or.inr ⟨g1, by nlinarith, by nlinarith⟩
  refine ⟨hnn, ?_⟩
  intro hTw
  refine lt_of_le_of_ne hnn ?_
  intro h0
  have pr := h.cons.proper T hT
  have ra := h.inRange T hT T.a (Or.inl rfl)
  have rb := h.inRange T hT T.b (Or.inr (Or.inl rfl))
  have rc := h.inRange T hT T.c (Or.inr (Or.inr rfl))
  have hd : det3 (M.pos T.a) (M.pos T.b) (M.pos T.c) ≠ 0 := h.general.det_ne ra rb rc pr.1 pr.2.1 pr.2.2
  have hno := hC (M.pos T.b) (pos_mem rb.1 rb.2) (M.pos T.c) (pos_mem rc.1 rc.2) (M.pos T.a) (pos_mem ra.1 ra.2) (M.pos w)
    (pos_mem rw'.1 rw'.2) (pos_ne h.general.1 rb.1 rb.2 rc.1 rc.2 pr.2.1) (pos_ne h.general.1 rb.1 rb.2 ra.1 ra.2 pr.1.symm)
    (pos_ne h.general.1 rb.1 rb.2 rw'.1 rw'.2 (fun hh => hTw (Or.inr (Or.inl hh.symm))))
    (pos_ne h.general.1 rc.1 rc.2 ra.1 ra.2 pr.2.2.symm)
    (pos_ne h.general.1 rc.1 rc.2 rw'.1 rw'.2 (fun hh => hTw (Or.inr (Or.inr hh.symm))))
    (pos_ne h.general.1 ra.1 ra.2 rw'.1 rw'.2 (fun hh => hTw (Or.inl hh.symm)))
  have hz : cotSum (M.pos T.b) (M.pos T.c) (M.pos T.a) (M.pos w) = 0 := by
    have h0' := h0.symm
    unfold Mesh.triPower power at h0'
    rcases div_eq_zero_iff.1 h0' with hh | hh
    · exact hh
    · exact absurd hh hd
  rw [circDet_eq, hz] at hno
  have : 0 ≤ dist2 (M.pos T.a) (M.pos T.b) * dist2 (M.pos T.a) (M.pos T.c) * (dist2 (M.pos w) (M.pos T.b) * dist2 (M.pos w) (M.pos T.c)) :=
    mul_nonneg (mul_nonneg (dist2_nonneg _ _) (dist2_nonneg _ _)) (mul_nonneg (dist2_nonneg _ _) (dist2_nonneg _ _))
  norm_num at hno
  linarith

end Srep
