import Verif.Lemmas.MeshFlip
import Verif.Lemmas.FlipGeom

/-! Geometry of an executed flip. -/

set_option linter.unusedSectionVars false

namespace Srep
variable {K : Type} [Field K] [LinearOrder K] [IsStrictOrderedRing K] [FloorRing K]

/-- Delaunay's test in exact arithmetic, for triangles on opposite sides of the edge -/
def Illegal (p q a b : Pt K) : Prop :=
  |det3 a p q| * dot3 b p q + dot3 a p q * |det3 b q p| < 0

theorem Illegal.cases {p q a b : Pt K} (h0 : 0 < det3 a p q * det3 b q p) (h : Illegal p q a b) :
    (0 < det3 a p q ∧ 0 < det3 b q p ∧ cotSum p q a b < 0) ∨
    (0 < det3 a q p ∧ 0 < det3 b p q ∧ cotSum q p a b < 0) := by
  unfold Illegal at h
  rcases pos_and_pos_or_neg_and_neg_of_mul_pos h0 with ⟨h1, h2⟩ | ⟨h1, h2⟩
  · left
    rw [abs_of_pos h1, abs_of_pos h2] at h
    exact ⟨h1, h2, h⟩
  · right
    rw [abs_of_neg h1, abs_of_neg h2] at h
    refine ⟨by rw [det3_swap]; linarith, by rw [det3_swap]; linarith, ?_⟩
    have : cotSum q p a b = -det3 a p q * dot3 b p q + dot3 a p q * -det3 b q p := by
      unfold cotSum det3 dot3; ring
    linarith

theorem quad_signs {p q a b : Pt K} (h0 : 0 < det3 a p q * det3 b q p) (h : Illegal p q a b) :
    0 < det3 a p q * det3 a p b ∧ 0 < det3 a p q * det3 a b q := by
  rcases h.cases h0 with ⟨h1, h2, h3⟩ | ⟨h1, h2, h3⟩
  · obtain ⟨g1, g2⟩ := quad_convex h1 h2 h3
    exact ⟨mul_pos h1 g1, mul_pos h1 g2⟩
  · obtain ⟨g1, g2⟩ := quad_convex h1 h2 h3
    rw [det3_swap] at h1
    rw [det3_swap] at g2 g1
    exact ⟨mul_pos_of_neg_of_neg (by linarith) (by linarith), mul_pos_of_neg_of_neg (by linarith) (by linarith)⟩

theorem quad_abs_area {p q a b : Pt K} (h0 : 0 < det3 a p q * det3 b q p) (h : Illegal p q a b) :
    |det3 a p b| + |det3 a b q| = |det3 a p q| + |det3 b q p| := by
  have := quad_area p q a b
  rcases h.cases h0 with ⟨h1, h2, h3⟩ | ⟨h1, h2, h3⟩
  · obtain ⟨g1, g2⟩ := quad_convex h1 h2 h3
    rw [abs_of_pos h1, abs_of_pos h2, abs_of_pos g1, abs_of_pos g2]; exact this
  · obtain ⟨g1, g2⟩ := quad_convex h1 h2 h3
    rw [det3_swap] at h1 g1 g2 h2
    rw [abs_of_neg (a := det3 a p q) (by linarith), abs_of_neg (a := det3 b q p) (by linarith),
      abs_of_neg (a := det3 a p b) (by linarith), abs_of_neg (a := det3 a b q) (by linarith)]
    linarith

theorem quad_abs_potential {p q a b : Pt K} (h0 : 0 < det3 a p q * det3 b q p) (h : Illegal p q a b) :
    |det3 a p b| * (sqn a + sqn p + sqn b) + |det3 a b q| * (sqn a + sqn b + sqn q) <
      |det3 a p q| * (sqn a + sqn p + sqn q) + |det3 b q p| * (sqn b + sqn p + sqn q) := by
  have e := quad_potential p q a b
  have e' := quad_potential q p a b
  rcases h.cases h0 with ⟨h1, h2, h3⟩ | ⟨h1, h2, h3⟩
  · obtain ⟨g1, g2⟩ := quad_convex h1 h2 h3
    rw [abs_of_pos h1, abs_of_pos h2, abs_of_pos g1, abs_of_pos g2]; linarith
  · obtain ⟨g1, g2⟩ := quad_convex h1 h2 h3
    rw [det3_swap a p q, det3_swap b q p, det3_swap a b q, det3_swap a p b] at e'
    rw [det3_swap] at h1 g1 g2 h2
    rw [abs_of_neg (a := det3 a p q) (by linarith), abs_of_neg (a := det3 b q p) (by linarith),
      abs_of_neg (a := det3 a p b) (by linarith), abs_of_neg (a := det3 a b q) (by linarith)]
    linarith

/-- the new edge is not flipped back -/
theorem quad_back {p q a b : Pt K} (h0 : 0 < det3 a p q * det3 b q p) (h : Illegal p q a b) :
    ¬ Illegal a b p q ∧ ¬ Illegal b a p q ∧ ¬ Illegal a b q p ∧ ¬ Illegal b a q p := by
  have key : 0 < |det3 p a b| * dot3 q a b + dot3 p a b * |det3 q b a| := by
    have e : |det3 p a b| * dot3 q a b + dot3 p a b * |det3 q b a|
        = |det3 a p b| * dot3 q a b + dot3 p a b * |det3 a b q| := by
      rw [det3_swap' a p b, abs_neg]
      have : det3 q b a = -det3 a b q := by unfold det3; ring
      rw [this, abs_neg]
    rw [e]
    rcases h.cases h0 with ⟨h1, h2, h3⟩ | ⟨h1, h2, h3⟩
    · obtain ⟨g1, g2⟩ := quad_convex h1 h2 h3
      rw [abs_of_pos g1, abs_of_pos g2]
      have := cot_flip p q a b
      have : det3 a p b * dot3 q a b + dot3 p a b * det3 a b q = -cotSum p q a b := by
        unfold cotSum det3 dot3; ring
      linarith
    · obtain ⟨g1, g2⟩ := quad_convex h1 h2 h3
      rw [det3_swap] at g1 g2
      rw [abs_of_neg (a := det3 a p b) (by linarith), abs_of_neg (a := det3 a b q) (by linarith)]
      have : -det3 a p b * dot3 q a b + dot3 p a b * -det3 a b q = -cotSum q p a b := by
        unfold cotSum det3 dot3; ring
      linarith
  have sw : ∀ u v w : Pt K, |det3 u v w| = |det3 u w v| := by
    intro u v w; rw [det3_swap, abs_neg]
  have ds : ∀ u v w : Pt K, dot3 u v w = dot3 u w v := by
    intro u v w; unfold dot3; ring
  unfold Illegal
  refine ⟨not_lt.2 ?_, not_lt.2 ?_, not_lt.2 ?_, not_lt.2 ?_⟩
  · exact key.le
  · rw [sw p b a, sw q a b, ds q b a, ds p b a]; exact key.le
  · rw [sw q a b, sw p b a]; linarith
  · rw [ds q b a, ds p b a]; linarith

/-- equal or strictly on the same side -/
def SameSide (y z : K) : Prop := y = z ∨ 0 < y * z

theorem SameSide.mul_neg {y y' z z' : K} (h1 : SameSide y' y) (h2 : SameSide z' z) (h : y * z < 0) :
    y' * z' < 0 := by
  rcases h1 with rfl | h1 <;> rcases h2 with rfl | h2
  · exact h
  · have : 0 < (z' * z) * (-(y' * z)) := mul_pos h2 (by linarith)
    have h3 : (z' * z) * (-(y' * z)) = -(y' * z') * (z * z) := by ring
    rw [h3] at this
    have := pos_of_mul_pos_left this (mul_self_nonneg z)
    linarith
  · have : 0 < (y' * y) * (-(y * z')) := mul_pos h1 (by linarith)
    have h3 : (y' * y) * (-(y * z')) = -(y' * z') * (y * y) := by ring
    rw [h3] at this
    have := pos_of_mul_pos_left this (mul_self_nonneg y)
    linarith
  · have : 0 < (y' * y) * (z' * z) * (-(y * z)) := mul_pos (mul_pos h1 h2) (by linarith)
    have h3 : (y' * y) * (z' * z) * (-(y * z)) = -(y' * z') * ((y * z) * (y * z)) := by ring
    rw [h3] at this
    have := pos_of_mul_pos_left this (mul_self_nonneg (y * z))
    linarith

variable {M : Mesh K} {e : ℤ × ℤ} {t1 t2 : ℕ} {T1 T2 : Tri} {o1 o2 : ℤ} {v1 v2 : List ℕ}

theorem Mesh.Planar.oppNe (hP : M.Planar) (hM : M.Sound) (e : ℤ × ℤ) :
    ∀ n m T S, M.e2t e = some [n, m] → M.tris[n]? = some T → M.tris[m]? = some S → T.opp e ≠ S.opp e := by
  intro n m T S h1 h2 h3 heq
  obtain ⟨T', g1, e1⟩ := hM.sound _ _ h1 n (by simp)
  obtain ⟨S', g2, e2⟩ := hM.sound _ _ h1 m (by simp)
  rw [h2] at g1; obtain rfl := Option.some.inj g1
  rw [h3] at g2; obtain rfl := Option.some.inj g2
  have pT := hM.proper _ (List.mem_of_getElem? h2)
  have pS := hM.proper _ (List.mem_of_getElem? h3)
  obtain ⟨a1, a2, -⟩ := Tri.opp_spec pT e1
  obtain ⟨b1, b2, -⟩ := Tri.opp_spec pS e2
  have := hP e n m T S _ _ h1 h2 h3 (Tri.opp_has pT e1) a1 a2 (Tri.opp_has pS e2) b1 b2
  rw [← heq] at this
  exact absurd this (not_lt.2 (mul_self_nonneg _))

theorem FlipFacts.edge1 (F : FlipFacts M e t1 t2 T1 T2 o1 o2 v1 v2) {x : ℤ × ℤ} (h : T1.HasEdge x)
    (he : x ≠ e) (hk : x ≠ makeKey o1 e.2) : x = makeKey o1 e.1 := by
  obtain ⟨hlt, ha, hb⟩ := h
  rw [F.has1] at ha hb
  apply eq_makeKey hlt
  have : ¬ (x.1 = o1 ∧ x.2 = e.2) := fun hh => hk (eq_makeKey hlt (Or.inl hh))
  have : ¬ (x.1 = e.2 ∧ x.2 = o1) := fun hh => hk (eq_makeKey hlt (Or.inr hh))
  have : ¬ (x.1 = e.1 ∧ x.2 = e.2) := fun hh => he (Prod.ext hh.1 hh.2)
  have : ¬ (x.1 = e.2 ∧ x.2 = e.1) := by have := F.lt; rintro ⟨hh, hh'⟩; omega
  have : ¬ (x.1 = x.2) := by omega
  rcases ha with ha | ha | ha <;> rcases hb with hb | hb | hb <;> simp_all

theorem FlipFacts.edge2 (F : FlipFacts M e t1 t2 T1 T2 o1 o2 v1 v2) {x : ℤ × ℤ} (h : T2.HasEdge x)
    (he : x ≠ e) (hk : x ≠ makeKey o2 e.1) : x = makeKey o2 e.2 := by
  obtain ⟨hlt, ha, hb⟩ := h
  rw [F.has2] at ha hb
  apply eq_makeKey hlt
  have : ¬ (x.1 = o2 ∧ x.2 = e.1) := fun hh => hk (eq_makeKey hlt (Or.inl hh))
  have : ¬ (x.1 = e.1 ∧ x.2 = o2) := fun hh => hk (eq_makeKey hlt (Or.inr hh))
  have : ¬ (x.1 = e.1 ∧ x.2 = e.2) := fun hh => he (Prod.ext hh.1 hh.2)
  have : ¬ (x.1 = e.2 ∧ x.2 = e.1) := by have := F.lt; rintro ⟨hh, hh'⟩; omega
  have : ¬ (x.1 = x.2) := by omega
  rcases ha with ha | ha | ha <;> rcases hb with hb | hb | hb <;> simp_all

theorem key_sides (P : ℤ → Pt K) (u v : ℤ) (y z : Pt K) :
    det3 (P (makeKey u v).1) (P (makeKey u v).2) y * det3 (P (makeKey u v).1) (P (makeKey u v).2) z =
      det3 (P u) (P v) y * det3 (P u) (P v) z := by
  unfold makeKey
  split_ifs
  · rfl
  · simp only
    rw [det3_swap' (P u) (P v) y, det3_swap' (P u) (P v) z]
    ring

/-- Every entry of the new table, except that of the new edge, comes from an entry of the old one, and the
third vertices are on the same side of the edge as before. -/
theorem FlipFacts.entries (hM : M.Sound) (F : FlipFacts M e t1 t2 T1 T2 o1 o2 v1 v2)
    (s0 : 0 < det3 (M.pos o1) (M.pos e.1) (M.pos e.2) * det3 (M.pos o2) (M.pos e.2) (M.pos e.1))
    (s1 : 0 < det3 (M.pos o1) (M.pos e.1) (M.pos e.2) * det3 (M.pos o1) (M.pos e.1) (M.pos o2))
    (s2 : 0 < det3 (M.pos o1) (M.pos e.1) (M.pos e.2) * det3 (M.pos o1) (M.pos o2) (M.pos e.2))
    {x : ℤ × ℤ} (hx : x ≠ makeKey o1 o2) {l' : List ℕ}
    (h : (flipped M e t1 t2 o1 o2 v1 v2).e2t x = some l') :
    ∃ (f : ℕ → ℕ) (l : List ℕ), M.e2t x = some l ∧ l' = l.map f ∧ ∀ n ∈ l, ∀ T' u',
      (flipped M e t1 t2 o1 o2 v1 v2).tris[f n]? = some T' → T'.Has u' → u' ≠ x.1 → u' ≠ x.2 →
      ∃ T u, M.tris[n]? = some T ∧ T.Has u ∧ u ≠ x.1 ∧ u ≠ x.2 ∧
        SameSide (det3 (M.pos x.1) (M.pos x.2) (M.pos u')) (det3 (M.pos x.1) (M.pos x.2) (M.pos u)) := by
  have := F.oo; have := F.o11; have := F.o12; have := F.o21; have := F.o22; have := F.lt
  have pp : ∀ {c y z : K}, 0 < c * y → 0 < c * z → 0 < y * z := by
    intro c y z h1 h2
    have h3 : (c * y) * (c * z) = (y * z) * (c * c) := by ring
    have := mul_pos h1 h2
    rw [h3] at this
    exact pos_of_mul_pos_left this (mul_self_nonneg c)
  have key_not : ∀ u v w : ℤ, w ≠ u → w ≠ v → w ≠ (makeKey u v).1 ∧ w ≠ (makeKey u v).2 := by
    intro u v w h1 h2
    have := makeKey_mem u v w
    tauto
  have key_in : ∀ u v w : ℤ, w ≠ (makeKey u v).1 → w ≠ (makeKey u v).2 → w ≠ u ∧ w ≠ v := by
    intro u v w h1 h2
    have := makeKey_mem u v w
    tauto
  rw [F.e2t] at h
  split_ifs at h with h1 h2 h3
  · obtain rfl := Option.some.inj h
    subst h1
    refine ⟨fun t => if t = t2 then t1 else t, v2, F.hv2, rfl, ?_⟩
    intro n hn T' u' hT' hu' hu1 hu2
    have n1 : n ≠ t1 := fun hh => F.n12 (hh ▸ hn)
    dsimp only at hT'
    split_ifs at hT' with n2
    · subst n2
      rw [F.tris, if_neg F.ne, if_pos rfl] at hT'
      obtain rfl := Option.some.inj hT'
      obtain ⟨w1, w2⟩ := key_in _ _ _ hu1 hu2
      have : u' = o1 := by simp only [Tri.Has] at hu'; tauto
      subst this
      obtain ⟨z1, z2⟩ := key_not o2 e.1 e.2 (by tauto) (by omega)
      refine ⟨T2, e.2, F.h2, (F.has2 _).2 (by tauto), z1, z2, Or.inr ?_⟩
      rw [key_sides M.pos]
      have q1 : det3 (M.pos o2) (M.pos e.1) (M.pos u') = -det3 (M.pos u') (M.pos e.1) (M.pos o2) := by
        unfold det3; ring
      rw [q1, det3_swap (M.pos o2) (M.pos e.2) (M.pos e.1), neg_mul_neg]
      exact pp s1 s0
    · rw [F.tris, if_neg n2, if_neg n1] at hT'
      exact ⟨T', u', hT', hu', hu1, hu2, Or.inl rfl⟩
  · obtain rfl := Option.some.inj h
    subst h2
    refine ⟨fun t => if t = t1 then t2 else t, v1, F.hv1, rfl, ?_⟩
    intro n hn T' u' hT' hu' hu1 hu2
    have n2 : n ≠ t2 := fun hh => F.n21 (hh ▸ hn)
    dsimp only at hT'
    split_ifs at hT' with n1
    · subst n1
      rw [F.tris, if_pos rfl] at hT'
      obtain rfl := Option.some.inj hT'
      obtain ⟨w1, w2⟩ := key_in _ _ _ hu1 hu2
      have : u' = o2 := by simp only [Tri.Has] at hu'; tauto
      subst this
      obtain ⟨z1, z2⟩ := key_not o1 e.2 e.1 (by tauto) (by omega)
      refine ⟨T1, e.1, F.h1, (F.has1 _).2 (by tauto), z1, z2, Or.inr ?_⟩
      rw [key_sides M.pos]
      rw [det3_swap (M.pos o1) (M.pos u') (M.pos e.2), det3_swap (M.pos o1) (M.pos e.1) (M.pos e.2), neg_mul_neg,
        mul_comm]
      exact s2
    · rw [F.tris, if_neg n2, if_neg n1] at hT'
      exact ⟨T', u', hT', hu', hu1, hu2, Or.inl rfl⟩
  · refine ⟨id, l', h, by simp, ?_⟩
    intro n hn T' u' hT' hu' hu1 hu2
    obtain ⟨T, hT, hE⟩ := hM.sound _ _ h _ hn
    rw [id, F.tris] at hT'
    split_ifs at hT' with n2 n1
    · subst n2
      rw [F.h2] at hT; obtain rfl := Option.some.inj hT
      obtain rfl := F.edge2 hE h3 h1
      obtain rfl := Option.some.inj hT'
      obtain ⟨w1, w2⟩ := key_in _ _ _ hu1 hu2
      have : u' = o1 := by simp only [Tri.Has] at hu'; tauto
      subst this
      obtain ⟨z1, z2⟩ := key_not o2 e.2 e.1 (by tauto) (by omega)
      refine ⟨T2, e.1, F.h2, (F.has2 _).2 (by tauto), z1, z2, Or.inr ?_⟩
      rw [key_sides M.pos, det3_rot (M.pos u') (M.pos o2) (M.pos e.2)]
      exact pp s2 s0
    · subst n1
      rw [F.h1] at hT; obtain rfl := Option.some.inj hT
      obtain rfl := F.edge1 hE h3 h2
      obtain rfl := Option.some.inj hT'
      obtain ⟨w1, w2⟩ := key_in _ _ _ hu1 hu2
      have : u' = o2 := by simp only [Tri.Has] at hu'; tauto
      subst this
      obtain ⟨z1, z2⟩ := key_not o1 e.1 e.2 (by tauto) (by omega)
      refine ⟨T1, e.2, F.h1, (F.has1 _).2 (by tauto), z1, z2, Or.inr ?_⟩
      rw [key_sides M.pos, mul_comm]
      exact s1
    · exact ⟨T', u', hT', hu', hu1, hu2, Or.inl rfl⟩

theorem FlipFacts.planar (hM : M.Sound) (hP : M.Planar) (F : FlipFacts M e t1 t2 T1 T2 o1 o2 v1 v2)
    (s0 : 0 < det3 (M.pos o1) (M.pos e.1) (M.pos e.2) * det3 (M.pos o2) (M.pos e.2) (M.pos e.1))
    (s1 : 0 < det3 (M.pos o1) (M.pos e.1) (M.pos e.2) * det3 (M.pos o1) (M.pos e.1) (M.pos o2))
    (s2 : 0 < det3 (M.pos o1) (M.pos e.1) (M.pos e.2) * det3 (M.pos o1) (M.pos o2) (M.pos e.2)) :
    (flipped M e t1 t2 o1 o2 v1 v2).Planar := by
  intro x n m T S u v hx hT hS hu u1 u2 hv v1' v2'
  have hpos : (flipped M e t1 t2 o1 o2 v1 v2).pos = M.pos := rfl
  rw [hpos]
  by_cases hk : x = makeKey o1 o2
  · subst hk
    rw [F.e2t, if_neg F.k12k2, if_neg F.k12k1, if_pos rfl] at hx
    simp only [Option.some.injEq, List.cons.injEq, and_true] at hx
    obtain ⟨rfl, rfl⟩ := hx
    rw [F.tris, if_neg F.ne, if_pos rfl] at hT
    rw [F.tris, if_pos rfl] at hS
    obtain rfl := Option.some.inj hT
    obtain rfl := Option.some.inj hS
    have a1 := makeKey_mem o1 o2 u
    have a2 := makeKey_mem o1 o2 v
    have : u = e.1 := by simp only [Tri.Has] at hu; tauto
    subst this
    have : v = e.2 := by simp only [Tri.Has] at hv; tauto
    subst this
    rw [key_sides M.pos, det3_swap (M.pos o1) (M.pos e.1) (M.pos o2)]
    have h3 : (det3 (M.pos o1) (M.pos e.1) (M.pos e.2) * det3 (M.pos o1) (M.pos e.1) (M.pos o2))
        * (det3 (M.pos o1) (M.pos e.1) (M.pos e.2) * det3 (M.pos o1) (M.pos o2) (M.pos e.2))
        = (det3 (M.pos o1) (M.pos e.1) (M.pos o2) * det3 (M.pos o1) (M.pos o2) (M.pos e.2))
          * (det3 (M.pos o1) (M.pos e.1) (M.pos e.2) * det3 (M.pos o1) (M.pos e.1) (M.pos e.2)) := by ring
    have := mul_pos s1 s2
    rw [h3] at this
    have := pos_of_mul_pos_left this (mul_self_nonneg _)
    linarith
  · obtain ⟨f, l, hl, hl', hf⟩ := F.entries hM s0 s1 s2 hk hx
    match l, hl' with
    | [a, b], hl' =>
      simp only [List.map_cons, List.map_nil, List.cons.injEq, and_true] at hl'
      obtain ⟨rfl, rfl⟩ := hl'
      obtain ⟨T0, u0, g1, g2, g3, g4, g5⟩ := hf a (by simp) T u hT hu u1 u2
      obtain ⟨S0, w0, k1, k2, k3, k4, k5⟩ := hf b (by simp) S v hS hv v1' v2'
      exact g5.mul_neg k5 (hP x a b T0 S0 u0 w0 hl g1 k1 g2 g3 g4 k2 k3 k4)
    | [], hl' => simp at hl'
    | [_], hl' => simp at hl'
    | _ :: _ :: _ :: _, hl' => simp at hl'

end Srep
