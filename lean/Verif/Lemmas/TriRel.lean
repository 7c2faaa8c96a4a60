import Verif.Spec.TriRel
import Verif.Lemmas.Exact
import Mathlib.Tactic.Linarith
import Mathlib.Tactic.FieldSimp
import Mathlib.Tactic.LinearCombination

/-! The plane geometry of two triangles. -/

set_option linter.unusedSectionVars false

namespace Srep
variable {K : Type} [Field K] [LinearOrder K] [IsStrictOrderedRing K] [FloorRing K]

theorem det3_lerp_tri (a b X v : Pt K) (τ : K) : det3 a b (lerp X v τ) = (1 - τ) * det3 a b X + τ * det3 a b v := by
  unfold det3 lerp; ring

theorem inside_iff {t : Pt K × Pt K × Pt K} {X : Pt K} :
    InsideCcw (triSegs t) X ↔ 0 < det3 t.1 t.2.1 X ∧ 0 < det3 t.2.1 t.2.2 X ∧ 0 < det3 t.2.2 t.1 X := by
  unfold InsideCcw triSegs
  simp only [List.mem_cons, List.not_mem_nil, or_false, forall_eq_or_imp, forall_eq]

theorem closed_iff {t : Pt K × Pt K × Pt K} {X : Pt K} :
    InClosed t X ↔ 0 ≤ det3 t.1 t.2.1 X ∧ 0 ≤ det3 t.2.1 t.2.2 X ∧ 0 ≤ det3 t.2.2 t.1 X := by
  unfold InClosed triSegs
  simp only [List.mem_cons, List.not_mem_nil, or_false, forall_eq_or_imp, forall_eq]

theorem InsideCcw.closed {t : Pt K × Pt K × Pt K} {X : Pt K} (h : InsideCcw (triSegs t) X) : InClosed t X :=
  fun s hs => (h s hs).le

theorem closed_of_corner {t : Pt K × Pt K × Pt K} (hl : 0 < det3 t.1 t.2.1 t.2.2) {p : Pt K} (h : IsCorner t p) :
    InClosed t p := by
  obtain ⟨a, b, c⟩ := t
  rw [closed_iff]
  unfold det3 at *
  dsimp only at *
  rcases h with rfl | rfl | rfl <;> refine ⟨?_, ?_, ?_⟩ <;> nlinarith

theorem corner_not_inside {t : Pt K × Pt K × Pt K} {p : Pt K} (h : IsCorner t p) : ¬ InsideCcw (triSegs t) p := by
  obtain ⟨a, b, c⟩ := t
  rw [inside_iff]
  unfold det3
  rcases h with rfl | rfl | rfl <;> dsimp only <;> rintro ⟨h1, h2, h3⟩ <;> nlinarith

theorem seg_corner {t : Pt K × Pt K × Pt K} {s : Seg K} (h : s ∈ triSegs t) : IsCorner t s.i ∧ IsCorner t s.j := by
  unfold triSegs at h
  simp only [List.mem_cons, List.not_mem_nil, or_false] at h
  rcases h with rfl | rfl | rfl <;> simp [IsCorner]

theorem seg_cls {t : Pt K × Pt K × Pt K} {s : Seg K} (h : s ∈ triSegs t) : s.cls = .line := by
  unfold triSegs at h
  simp only [List.mem_cons, List.not_mem_nil, or_false] at h
  rcases h with rfl | rfl | rfl <;> rfl

theorem corner_seg {t : Pt K × Pt K × Pt K} {p : Pt K} (h : IsCorner t p) : ∃ s ∈ triSegs t, p = s.i := by
  unfold triSegs
  rcases h with rfl | rfl | rfl <;> simp

/-- a point strictly inside seen from the closed triangle -/
theorem inside_lerp {t : Pt K × Pt K × Pt K} {X v : Pt K} (hX : InsideCcw (triSegs t) X) (hv : InClosed t v) {τ : K}
    (h0 : 0 ≤ τ) (h1 : τ < 1) : InsideCcw (triSegs t) (lerp X v τ) := by
  intro s hs
  rw [det3_lerp_tri]
  have := mul_pos (sub_pos.2 h1) (hX s hs)
  have := mul_nonneg h0 (hv s hs)
  linarith

theorem inside_lerp' {t : Pt K × Pt K × Pt K} {X v : Pt K} (hX : InClosed t X) (hv : InsideCcw (triSegs t) v) {τ : K}
    (h0 : 0 < τ) (h1 : τ ≤ 1) : InsideCcw (triSegs t) (lerp X v τ) := by
  intro s hs
  rw [det3_lerp_tri]
  have := mul_nonneg (sub_nonneg.2 h1) (hX s hs)
  have := mul_pos h0 (hv s hs)
  linarith

theorem closed_lerp {t : Pt K × Pt K × Pt K} {X v : Pt K} (hX : InClosed t X) (hv : InClosed t v) {τ : K}
    (h0 : 0 ≤ τ) (h1 : τ ≤ 1) : InClosed t (lerp X v τ) := by
  intro s hs
  rw [det3_lerp_tri]
  have := mul_nonneg (sub_nonneg.2 h1) (hX s hs)
  have := mul_nonneg h0 (hv s hs)
  linarith

/-- the centre is strictly inside -/
theorem centre_inside {t : Pt K × Pt K × Pt K} (hl : 0 < det3 t.1 t.2.1 t.2.2) : ∃ c, InsideCcw (triSegs t) c := by
  obtain ⟨a, b, c⟩ := t
  refine ⟨⟨(a.x + b.x + c.x) / 3, (a.y + b.y + c.y) / 3⟩, ?_⟩
  rw [inside_iff]
  unfold det3 at *
  dsimp only at *
  refine ⟨?_, ?_, ?_⟩ <;> nlinarith

/-- affine functions positive just after 0 -/
theorem small_one (a b : K) (h : 0 < a ∨ (a = 0 ∧ 0 < b)) : ∃ ε : K, 0 < ε ∧ ε ≤ 1 ∧ ∀ τ, 0 < τ → τ ≤ ε → 0 < (1 - τ) * a + τ * b := by
  rcases h with h | ⟨rfl, h⟩
  · by_cases hb : 0 < b
    · refine ⟨1, one_pos, le_rfl, fun τ h0 h1 => ?_⟩
      have := mul_nonneg (sub_nonneg.2 h1) h.le
      have := mul_pos h0 hb
      linarith
    · push Not at hb
      have hd : 0 < a - b := by linarith
      refine ⟨a / (a - b) / 2, by positivity, ?_, fun τ h0 h1 => ?_⟩
      · rw [div_div, div_le_one (by positivity)]; linarith
      · rw [div_div, le_div_iff₀ (by positivity)] at h1
        have : 0 < a - τ * (a - b) := by linarith
        linarith
  · exact ⟨1, one_pos, le_rfl, fun τ h0 _ => by rw [mul_zero, zero_add]; exact mul_pos h0 h⟩

theorem small_inside {t : Pt K × Pt K × Pt K} {X v : Pt K}
    (h : ∀ s ∈ triSegs t, 0 < det3 s.i s.j X ∨ (det3 s.i s.j X = 0 ∧ 0 < det3 s.i s.j v)) :
    ∃ τ : K, 0 < τ ∧ τ ≤ 1 ∧ InsideCcw (triSegs t) (lerp X v τ) := by
  have key : ∀ L : List (Seg K), (∀ s ∈ L, 0 < det3 s.i s.j X ∨ (det3 s.i s.j X = 0 ∧ 0 < det3 s.i s.j v)) →
      ∃ ε : K, 0 < ε ∧ ε ≤ 1 ∧ ∀ τ, 0 < τ → τ ≤ ε → ∀ s ∈ L, 0 < det3 s.i s.j (lerp X v τ) := by
    intro L
    induction L with
    | nil => exact fun _ => ⟨1, one_pos, le_rfl, by simp⟩
    | cons s L ih =>
      intro h
      obtain ⟨e1, p1, q1, r1⟩ := small_one _ _ (h s List.mem_cons_self)
      obtain ⟨e2, p2, q2, r2⟩ := ih fun o ho => h o (List.mem_cons_of_mem _ ho)
      refine ⟨min e1 e2, lt_min p1 p2, (min_le_left _ _).trans q1, fun τ h0 h1 o ho => ?_⟩
      rcases List.mem_cons.1 ho with rfl | ho
      · rw [det3_lerp_tri]; exact r1 τ h0 (h1.trans (min_le_left _ _))
      · exact r2 τ h0 (h1.trans (min_le_right _ _)) o ho
  obtain ⟨ε, h0, h1, h2⟩ := key _ h
  exact ⟨ε, h0, h1, h2 ε h0 le_rfl⟩

/-- a point of the closed triangle `u` strictly inside of `t` -/
theorem common_of_closed {t u : Pt K × Pt K × Pt K} (hu : 0 < det3 u.1 u.2.1 u.2.2) {P : Pt K} (h1 : InsideCcw (triSegs t) P)
    (h2 : InClosed u P) : CommonInside t u := by
  obtain ⟨c, hc⟩ := centre_inside hu
  obtain ⟨τ, p, q, h⟩ := small_inside (v := c) fun s hs => Or.inl (h1 s hs)
  exact ⟨_, h, inside_lerp' h2 hc p q⟩

theorem exit_one (a b : K) (ha : 0 ≤ a) : ∃ T : K, 0 ≤ T ∧ T ≤ 1 ∧ (∀ τ, 0 ≤ τ → τ ≤ T → 0 ≤ (1 - τ) * a + τ * b) ∧ (b < 0 → T < 1) ∧
    (T < 1 → (1 - T) * a + T * b = 0) := by
  by_cases hb : b < 0
  · have hd : 0 < a - b := by linarith
    refine ⟨a / (a - b), by positivity, ?_, fun τ h0 h1 => ?_, fun _ => ?_, fun _ => ?_⟩
    · rw [div_le_one hd]; linarith
    · rw [le_div_iff₀ hd] at h1; linarith
    · rw [div_lt_one hd]; linarith
    · field_simp; ring
  · push Not at hb
    refine ⟨1, zero_le_one, le_rfl, fun τ h0 h1 => ?_, fun h => absurd h (not_lt.2 hb), fun h => absurd h (lt_irrefl _)⟩
    have := mul_nonneg (sub_nonneg.2 h1) ha
    have := mul_nonneg h0 hb
    linarith

/-- leaving a triangle: the last point is on a side -/
theorem exit_tri {t : Pt K × Pt K × Pt K} {X v : Pt K} (hX : InClosed t X) (hv : ¬ InClosed t v) :
    ∃ τ : K, 0 ≤ τ ∧ τ < 1 ∧ InClosed t (lerp X v τ) ∧ ∃ s ∈ triSegs t, det3 s.i s.j (lerp X v τ) = 0 := by
  have key : ∀ L : List (Seg K), (∀ s ∈ L, 0 ≤ det3 s.i s.j X) →
      ∃ T : K, 0 ≤ T ∧ T ≤ 1 ∧ (∀ τ, 0 ≤ τ → τ ≤ T → ∀ s ∈ L, 0 ≤ det3 s.i s.j (lerp X v τ)) ∧
        ((∃ s ∈ L, det3 s.i s.j v < 0) → T < 1) ∧ (T < 1 → ∃ s ∈ L, det3 s.i s.j (lerp X v T) = 0) := by
    intro L
    induction L with
    | nil => exact fun _ => ⟨1, zero_le_one, le_rfl, by simp, by simp, fun h => absurd h (lt_irrefl _)⟩
    | cons s L ih =>
      intro h
      obtain ⟨e1, p1, q1, r1, s1, t1⟩ := exit_one (det3 s.i s.j X) (det3 s.i s.j v) (h s List.mem_cons_self)
      obtain ⟨e2, p2, q2, r2, s2, t2⟩ := ih fun o ho => h o (List.mem_cons_of_mem _ ho)
      refine ⟨min e1 e2, le_min p1 p2, (min_le_left _ _).trans q1, ?_, ?_, ?_⟩
      · intro τ h0 h1 o ho
        rcases List.mem_cons.1 ho with rfl | ho
        · rw [det3_lerp_tri]; exact r1 τ h0 (h1.trans (min_le_left _ _))
        · exact r2 τ h0 (h1.trans (min_le_right _ _)) o ho
      · rintro ⟨o, ho, hn⟩
        rcases List.mem_cons.1 ho with rfl | ho
        · exact (min_le_left _ _).trans_lt (s1 hn)
        · exact (min_le_right _ _).trans_lt (s2 ⟨o, ho, hn⟩)
      · intro hT
        rcases le_total e1 e2 with hm | hm
        · rw [min_eq_left hm] at hT ⊢
          exact ⟨s, List.mem_cons_self, by rw [det3_lerp_tri]; exact t1 hT⟩
        · rw [min_eq_right hm] at hT ⊢
          obtain ⟨o, ho, hz⟩ := t2 hT
          exact ⟨o, List.mem_cons_of_mem _ ho, hz⟩
  obtain ⟨T, h0, _, h2, h3, h4⟩ := key _ hX
  have hT : T < 1 := by
    apply h3
    by_contra hc
    push Not at hc
    exact hv hc
  exact ⟨T, h0, hT, h2 T h0 le_rfl, h4 hT⟩

/-- a point of the closed triangle on the line of a side is on the side -/
theorem onSeg_of_closed {t : Pt K × Pt K × Pt K} (hl : 0 < det3 t.1 t.2.1 t.2.2) {s : Seg K} (hs : s ∈ triSegs t) {Y : Pt K}
    (hY : InClosed t Y) (h0 : det3 s.i s.j Y = 0) : OnSeg s Y := by
  have key : ∀ a b c : Pt K, 0 < det3 a b c → 0 ≤ det3 b c Y → 0 ≤ det3 c a Y → det3 a b Y = 0 → Between a b Y := by
    intro a b c hD h1 h2 h3
    refine ⟨det3 c a Y / det3 a b c, by positivity, ?_, ?_⟩
    · rw [div_le_one hD]
      have : det3 a b c = det3 a b Y + det3 b c Y + det3 c a Y := by unfold det3; ring
      linarith
    · have hx : det3 a b c * (Y.x - a.x) = det3 c a Y * (b.x - a.x) + det3 a b Y * (c.x - a.x) := by unfold det3; ring
      have hy : det3 a b c * (Y.y - a.y) = det3 c a Y * (b.y - a.y) + det3 a b Y * (c.y - a.y) := by unfold det3; ring
      rw [h3] at hx hy
      have hne := hD.ne'
      have ex : Y.x = a.x + det3 c a Y / det3 a b c * (b.x - a.x) := by field_simp; linarith
      have ey : Y.y = a.y + det3 c a Y / det3 a b c * (b.y - a.y) := by field_simp; linarith
      cases Y
      simp only [lerp, Pt.mk.injEq]
      exact ⟨ex, ey⟩
  obtain ⟨a, b, c⟩ := t
  rw [closed_iff] at hY
  obtain ⟨y1, y2, y3⟩ := hY
  dsimp only at *
  have r1 : det3 b c a = det3 a b c := by unfold det3; ring
  have r2 : det3 c a b = det3 a b c := by unfold det3; ring
  unfold triSegs at hs
  simp only [List.mem_cons, List.not_mem_nil, or_false] at hs
  rcases hs with rfl | rfl | rfl
  · exact key a b c hl y2 y3 h0
  · exact key b c a (r1 ▸ hl) y3 y1 h0
  · exact key c a b (r2 ▸ hl) y1 y2 h0

theorem det3_onSeg {s : Seg K} {X : Pt K} (h : OnSeg s X) : det3 s.i s.j X = 0 := by
  obtain ⟨u, -, -, rfl⟩ := h
  unfold det3 lerp; ring

theorem closed_of_onSeg {t : Pt K × Pt K × Pt K} (hl : 0 < det3 t.1 t.2.1 t.2.2) {s : Seg K} (hs : s ∈ triSegs t) {Y : Pt K}
    (hY : OnSeg s Y) : InClosed t Y := by
  obtain ⟨u, h0, h1, rfl⟩ := hY
  exact closed_lerp (closed_of_corner hl (seg_corner hs).1) (closed_of_corner hl (seg_corner hs).2) h0 h1

theorem corners_distinct {t : Pt K × Pt K × Pt K} (hl : 0 < det3 t.1 t.2.1 t.2.2) :
    t.1 ≠ t.2.1 ∧ t.2.1 ≠ t.2.2 ∧ t.2.2 ≠ t.1 := by
  refine ⟨?_, ?_, ?_⟩ <;> intro h <;> rw [h] at hl <;> unfold det3 at hl <;> nlinarith

theorem sameCorners_of_subset {t u : Pt K × Pt K × Pt K} (hl : 0 < det3 t.1 t.2.1 t.2.2)
    (h : ∀ p, IsCorner t p → IsCorner u p) : SameCorners t u := by
  obtain ⟨n1, n2, n3⟩ := corners_distinct hl
  obtain ⟨a, b, c⟩ := t
  obtain ⟨d, e, f⟩ := u
  have h1 := h a (Or.inl rfl)
  have h2 := h b (Or.inr (Or.inl rfl))
  have h3 := h c (Or.inr (Or.inr rfl))
  intro p
  unfold IsCorner at *
  dsimp only at *
  rcases h1 with rfl | rfl | rfl <;> rcases h2 with rfl | rfl | rfl <;> rcases h3 with rfl | rfl | rfl <;>
    first | exact absurd rfl n1 | exact absurd rfl n2 | exact absurd rfl n3 | tauto

namespace TriPlaced
variable {t u : Pt K × Pt K × Pt K}

theorem symm (h : TriPlaced t u) : TriPlaced u t where
  left := h.left'
  left' := h.left
  grid p hp := h.grid p hp.symm
  apart p hp q hq := h.apart p (Or.symm hp) q (Or.symm hq)
  off := h.off'
  off' := h.off
  clear s hs o ho hj := by
    have hj' : ¬ Joined o s := by unfold Joined at *; intro hh; apply hj; rcases hh with hh | hh | hh | hh <;> simp [hh]
    intro X h1 h2
    rcases h.clear o ho s hs hj' X h2 h1 with hh | hh | hh
    · exact Or.inl hh.symm
    · exact Or.inr (Or.inr hh)
    · exact Or.inr (Or.inl hh)
  far s hs o ho hj X h1 h2 p hp := by
    have hj' : ¬ Joined o s := by unfold Joined at *; intro hh; apply hj; rcases hh with hh | hh | hh | hh <;> simp [hh]
    exact h.far o ho s hs hj' X h2 h1 p hp.symm

/-- a corner of the other triangle is a corner, strictly inside or strictly outside -/
theorem corner_cases (h : TriPlaced t u) {p : Pt K} (hp : IsCorner u p) :
    IsCorner t p ∨ InsideCcw (triSegs t) p ∨ OutsideCcw (triSegs t) p := by
  by_cases hc : IsCorner t p
  · exact Or.inl hc
  right
  by_cases ho : OutsideCcw (triSegs t) p
  · exact Or.inr ho
  left
  intro s hs
  rcases h.off s hs p hp with hh | hh
  · rcases hh with rfl | rfl
    · exact absurd (seg_corner hs).1 hc
    · exact absurd (seg_corner hs).2 hc
  · have h1 : 0 ≤ det3 s.i s.j p := by
      by_contra hn
      exact ho ⟨s, hs, not_le.1 hn⟩
    rw [abs_of_nonneg h1] at hh
    have : (0 : K) < 1 / 10 ^ 8 := by positivity
    linarith

/-- corners on the line of a side are its ends -/
theorem end_of_zero (h : TriPlaced t u) {s : Seg K} (hs : s ∈ triSegs t) {p : Pt K} (hp : IsCorner u p) (h0 : det3 s.i s.j p = 0) :
    p = s.i ∨ p = s.j := by
  rcases h.off s hs p hp with hh | hh
  · exact hh
  · rw [h0, abs_zero] at hh
    have : (0 : K) < 1 / 10 ^ 8 := by positivity
    linarith

/-- what `overlap` looks at -/
def Crossed (t u : Pt K × Pt K × Pt K) : Prop :=
  (∃ p, IsCorner u p ∧ InsideCcw (triSegs t) p) ∨ (∃ p, IsCorner t p ∧ InsideCcw (triSegs u) p) ∨
    ∃ s ∈ triSegs t, ∃ o ∈ triSegs u, ¬ Joined s o ∧ ∃ X, OnSeg s X ∧ OnSeg o X

theorem crossed_of_common (h : TriPlaced t u) (hc : CommonInside t u) (hn : ¬ SameCorners t u) : Crossed t u := by
  obtain ⟨X, h1, h2⟩ := hc
  have hl := h.left
  by_contra hcr
  unfold Crossed at hcr
  push Not at hcr
  obtain ⟨c1, c2, c3⟩ := hcr
  -- a corner of t outside of u
  obtain ⟨v, hv, hvo⟩ : ∃ v, IsCorner t v ∧ ¬ InClosed u v := by
    by_contra hcon
    push Not at hcon
    apply hn
    apply sameCorners_of_subset hl
    intro p hp
    rcases h.symm.corner_cases hp with hh | hh | ⟨s, hs, hh⟩
    · exact hh
    · exact absurd hh (c2 p hp)
    · exact absurd (hcon p hp s hs) (not_le.2 hh)
  obtain ⟨τ, t0, t1, hY, e, he, hz⟩ := exit_tri h2.closed hvo
  have hYt := inside_lerp h1 (closed_of_corner hl hv) t0 t1
  generalize hYd : lerp X v τ = Y at *
  have hYe := onSeg_of_closed h.left' he hY hz
  -- an end of e outside of t
  have hend : ∀ w, IsCorner u w → ¬ IsCorner t w → ¬ InClosed t w := by
    intro w hw hwn hcl
    rcases h.corner_cases hw with hh | hh | ⟨s, hs, hh⟩
    · exact hwn hh
    · exact c1 w hw hh
    · exact absurd (hcl s hs) (not_le.2 hh)
  -- follow e to an end w outside of t
  have follow : ∀ w w', IsCorner u w → IsCorner u w' → (∀ Z, Between Y w Z → OnSeg e Z) → (w = e.i ∧ w' = e.j ∨ w = e.j ∧ w' = e.i) →
      (∀ κ : K, lerp Y w κ = w' → 1 ≤ κ ∨ κ ≤ 0) → IsCorner t w := by
    intro w w' hw hw' hsub hww hκ
    by_contra hwt
    obtain ⟨κ, k0, k1, hZ, f, hf, hfz⟩ := exit_tri hYt.closed (hend w hw hwt)
    have hZe := hsub _ ⟨κ, k0, k1.le, rfl⟩
    have hZf := onSeg_of_closed hl hf hZ hfz
    -- Z is not an end of e
    have hZw : lerp Y w κ ≠ w := fun hh => hend w hw hwt (hh ▸ hZ)
    have hκ0 : κ ≠ 0 := by
      rintro rfl
      have : lerp Y w 0 = Y := by cases Y; simp [lerp]
      rw [this] at hfz
      exact absurd (hYt f hf) (by rw [hfz]; exact lt_irrefl _)
    have hZw' : lerp Y w κ ≠ w' := by
      intro hh
      rcases hκ κ hh with hk | hk
      · exact absurd k1 (not_lt.2 hk)
      · exact hκ0 (le_antisymm hk k0)
    have hZi : lerp Y w κ ≠ e.i ∧ lerp Y w κ ≠ e.j := by
      rcases hww with ⟨rfl, rfl⟩ | ⟨rfl, rfl⟩
      · exact ⟨hZw, hZw'⟩
      · exact ⟨hZw', hZw⟩
    apply c3 f hf e he ?_ _ hZf hZe
    -- f and e are not joined
    intro hj
    obtain ⟨fi, fj⟩ := seg_corner hf
    obtain ⟨ei, ej⟩ := seg_corner he
    -- the common end and Z are different points on both lines, so the lines are the same
    obtain ⟨q, hqf, hqe⟩ : ∃ q, (q = f.i ∨ q = f.j) ∧ (q = e.i ∨ q = e.j) := by
      rcases hj with hh | hh | hh | hh
      · exact ⟨f.i, Or.inl rfl, Or.inl hh⟩
      · exact ⟨f.i, Or.inl rfl, Or.inr hh⟩
      · exact ⟨f.j, Or.inr rfl, Or.inl hh⟩
      · exact ⟨f.j, Or.inr rfl, Or.inr hh⟩
    have hqZ : lerp Y w κ ≠ q := by rcases hqe with rfl | rfl; exacts [hZi.1, hZi.2]
    have qe : det3 e.i e.j q = 0 := by rcases hqe with rfl | rfl <;> unfold det3 <;> ring
    have qf : det3 f.i f.j q = 0 := by rcases hqf with rfl | rfl <;> unfold det3 <;> ring
    have Ze := det3_onSeg hZe
    -- ends of e on the line of f
    have hline : det3 f.i f.j e.i = 0 ∧ det3 f.i f.j e.j = 0 := by
      generalize lerp Y w κ = Z at *
      -- Z - q is a nonzero multiple of e.j - e.i
      obtain ⟨r, -, -, hr⟩ := hZe
      obtain ⟨r', hr'⟩ : ∃ r', q = lerp e.i e.j r' := by
        rcases hqe with rfl | rfl
        · exact ⟨0, by cases hh : e.i; simp [lerp]⟩
        · exact ⟨1, by cases hh : e.j; simp [lerp]⟩
      have hrr : r - r' ≠ 0 := by
        intro hh
        apply hqZ
        rw [hr, hr', sub_eq_zero.1 hh]
      rw [hr, det3_lerp_tri] at hfz
      rw [hr', det3_lerp_tri] at qf
      have e3 : (r - r') * (det3 f.i f.j e.j - det3 f.i f.j e.i) = 0 := by linear_combination hfz - qf
      have e4 := (mul_eq_zero.1 e3).resolve_left hrr
      have e5 : det3 f.i f.j e.j = det3 f.i f.j e.i := by linear_combination e4
      rw [e5] at hfz
      have e6 : det3 f.i f.j e.i = 0 := by linear_combination hfz
      exact ⟨e6, e5.trans e6⟩
    have hYf : det3 f.i f.j Y = 0 := by
      obtain ⟨r, -, -, hr⟩ := hYe
      rw [hr, det3_lerp_tri, hline.1, hline.2]; ring
    exact absurd (hYt f hf) (by rw [hYf]; exact lt_irrefl _)
  obtain ⟨r, r0, r1, hr⟩ := hYe
  obtain ⟨ei, ej⟩ := seg_corner he
  have hri : ∀ hh : IsCorner t e.i, r ≠ 0 := by
    rintro hh rfl
    have : Y = e.i := by rw [hr]; cases e.i; simp [lerp]
    exact corner_not_inside hh (this ▸ hYt)
  have hrj : ∀ hh : IsCorner t e.j, r ≠ 1 := by
    rintro hh rfl
    have : Y = e.j := by rw [hr]; cases e.j; simp [lerp]
    exact corner_not_inside hh (this ▸ hYt)
  have hne : e.i ≠ e.j := by
    obtain ⟨n1, n2, n3⟩ := corners_distinct h.left'
    unfold triSegs at he
    simp only [List.mem_cons, List.not_mem_nil, or_false] at he
    rcases he with rfl | rfl | rfl
    exacts [n1, n2, n3]
  have hYi : Y ≠ e.i := by
    intro hh
    exact c1 _ ei (hh ▸ hYt)
  have hYj : Y ≠ e.j := by
    intro hh
    exact c1 _ ej (hh ▸ hYt)
  have r0' : r ≠ 0 := by rintro rfl; apply hYi; rw [hr]; cases e.i; simp [lerp]
  have r1' : r ≠ 1 := by rintro rfl; apply hYj; rw [hr]; cases e.j; simp [lerp]
  have cj : IsCorner t e.j := by
    apply follow e.j e.i ej ei ?_ (Or.inr ⟨rfl, rfl⟩)
    · intro κ hk
      right
      have k1 := congrArg Pt.x hk
      have k2 := congrArg Pt.y hk
      rw [hr] at k1 k2
      simp only [lerp] at k1 k2
      have k3 : (r + κ * (1 - r)) * (e.j.x - e.i.x) = 0 := by linear_combination k1
      have k4 : (r + κ * (1 - r)) * (e.j.y - e.i.y) = 0 := by linear_combination k2
      have k5 : r + κ * (1 - r) = 0 := by
        by_contra hcon
        apply hne
        have a1 := (mul_eq_zero.1 k3).resolve_left hcon
        have a2 := (mul_eq_zero.1 k4).resolve_left hcon
        cases h1 : e.i
        cases h2 : e.j
        rw [h1, h2] at a1 a2
        simp only [Pt.mk.injEq]
        exact ⟨(sub_eq_zero.1 a1).symm, (sub_eq_zero.1 a2).symm⟩
      by_contra hcon
      push Not at hcon
      have : 0 ≤ κ * (1 - r) := mul_nonneg hcon.le (by linarith)
      exact r0' (le_antisymm (by linarith) r0)
    · rintro Z ⟨κ, k0, k1, rfl⟩
      refine ⟨r + κ * (1 - r), ?_, ?_, ?_⟩
      · have : 0 ≤ κ * (1 - r) := mul_nonneg k0 (by linarith)
        linarith
      · have : 0 ≤ (1 - κ) * (1 - r) := mul_nonneg (by linarith) (by linarith)
        linarith
      · rw [hr]; simp only [lerp, Pt.mk.injEq]; constructor <;> ring
  have ci : IsCorner t e.i := by
    apply follow e.i e.j ei ej ?_ (Or.inl ⟨rfl, rfl⟩)
    · intro κ hk
      right
      have k1 := congrArg Pt.x hk
      have k2 := congrArg Pt.y hk
      rw [hr] at k1 k2
      simp only [lerp] at k1 k2
      have k3 : (1 - r + κ * r) * (e.j.x - e.i.x) = 0 := by linear_combination -k1
      have k4 : (1 - r + κ * r) * (e.j.y - e.i.y) = 0 := by linear_combination -k2
      have k5 : 1 - r + κ * r = 0 := by
        by_contra hcon
        apply hne
        have a1 := (mul_eq_zero.1 k3).resolve_left hcon
        have a2 := (mul_eq_zero.1 k4).resolve_left hcon
        cases h1 : e.i
        cases h2 : e.j
        rw [h1, h2] at a1 a2
        simp only [Pt.mk.injEq]
        exact ⟨(sub_eq_zero.1 a1).symm, (sub_eq_zero.1 a2).symm⟩
      by_contra hcon
      push Not at hcon
      have : 0 ≤ κ * r := mul_nonneg hcon.le r0
      exact r1' (le_antisymm r1 (by linarith))
    · rintro Z ⟨κ, k0, k1, rfl⟩
      refine ⟨r - κ * r, ?_, ?_, ?_⟩
      · have : 0 ≤ (1 - κ) * r := mul_nonneg (by linarith) r0
        linarith
      · have : 0 ≤ κ * r := mul_nonneg k0 r0
        linarith
      · rw [hr]; simp only [lerp, Pt.mk.injEq]; constructor <;> ring
  -- e is a side of t, but Y is strictly inside
  have : ∃ s ∈ triSegs t, SameEdge s e := by
    unfold triSegs
    rcases ci with hh | hh | hh <;> rcases cj with hh' | hh' | hh' <;>
      first
      | exact absurd (hh.trans hh'.symm) hne
      | simp [SameEdge, hh, hh']
  obtain ⟨s, hs, hse⟩ := this
  have hYs : det3 s.i s.j Y = 0 := by
    rw [hr]
    rcases hse with ⟨q1, q2⟩ | ⟨q1, q2⟩ <;> rw [q1, q2] <;> unfold det3 lerp <;> ring
  exact absurd (hYt s hs) (by rw [hYs]; exact lt_irrefl _)

theorem common_of_crossed (h : TriPlaced t u) (hc : Crossed t u) : CommonInside t u ∧ ¬ SameCorners t u := by
  rcases hc with ⟨p, hp, hi⟩ | ⟨p, hp, hi⟩ | ⟨s, hs, o, ho, hj, X, h1, h2⟩
  · exact ⟨common_of_closed h.left' hi (closed_of_corner h.left' hp), fun hh => corner_not_inside ((hh p).2 hp) hi⟩
  · obtain ⟨Y, y1, y2⟩ := common_of_closed h.left hi (closed_of_corner h.left hp)
    exact ⟨⟨Y, y2, y1⟩, fun hh => corner_not_inside ((hh p).1 hp) hi⟩
  · constructor
    · have z1 := det3_onSeg h1
      obtain ⟨oi, oj⟩ := seg_corner ho
      -- ends of o are off the line of s
      have ni : det3 s.i s.j o.i ≠ 0 := fun hh => by
        rcases h.end_of_zero hs oi hh with e | e <;> exact hj (by simp [Joined, e])
      have nj : det3 s.i s.j o.j ≠ 0 := fun hh => by
        rcases h.end_of_zero hs oj hh with e | e <;> exact hj (by simp [Joined, e])
      obtain ⟨w, hw, hwp⟩ : ∃ w, (w = o.i ∨ w = o.j) ∧ 0 < det3 s.i s.j w := by
        obtain ⟨r, r0, r1, hr⟩ := h2
        rw [hr, det3_lerp_tri] at z1
        by_contra hcon
        push Not at hcon
        have a1 := lt_of_le_of_ne (hcon _ (Or.inl rfl)) ni
        have a2 := lt_of_le_of_ne (hcon _ (Or.inr rfl)) nj
        rcases eq_or_lt_of_le r0 with rfl | r0
        · simp at z1; exact ni z1
        · have := mul_neg_of_pos_of_neg r0 a2
          have := mul_nonneg_of_nonpos_of_nonpos (sub_nonpos.2 r1) a1.le
          have : (1 - r) * det3 s.i s.j o.i = -((r - 1) * det3 s.i s.j o.i) := by ring
          linarith
      have hwu : InClosed u w := by
        rcases hw with rfl | rfl
        exacts [closed_of_corner h.left' oi, closed_of_corner h.left' oj]
      have hXu := closed_of_onSeg h.left' ho h2
      have hXt := closed_of_onSeg h.left hs h1
      -- X is strictly left of the other sides of t
      have hpos : ∀ f ∈ triSegs t, f ≠ s → 0 < det3 f.i f.j X := by
        intro f hf hfs
        refine lt_of_le_of_ne (hXt f hf) fun hz => ?_
        -- X would be a corner of t
        obtain ⟨si, sj⟩ := seg_corner hs
        have hXc : X = s.i ∨ X = s.j := by
          have hl := h.left
          obtain ⟨a, b, c⟩ := t
          obtain ⟨r, r0, r1, hr⟩ := h1
          rw [hr, det3_lerp_tri] at hz
          have r1' : det3 b c a = det3 a b c := by unfold det3; ring
          have r2' : det3 c a b = det3 a b c := by unfold det3; ring
          have r3 : ∀ p q : Pt K, det3 p q p = 0 := fun p q => by unfold det3; ring
          have r4 : ∀ p q : Pt K, det3 p q q = 0 := fun p q => by unfold det3; ring
          have e0 : r = 0 → lerp s.i s.j r = s.i := by rintro rfl; cases s.i; simp [lerp]
          have e1 : r = 1 → lerp s.i s.j r = s.j := by rintro rfl; cases s.j; simp [lerp]
          rw [hr]
          unfold triSegs at hs hf
          simp only [List.mem_cons, List.not_mem_nil, or_false] at hs hf
          dsimp only at hl
          have hne := hl.ne'
          rcases hs with rfl | rfl | rfl <;> rcases hf with rfl | rfl | rfl <;> first | exact absurd rfl hfs | skip
          all_goals
            dsimp only at hz e0 e1 ⊢
            simp only [r1', r2', r3, r4, mul_zero, add_zero, zero_add] at hz
            rcases mul_eq_zero.1 hz.symm with hh | hh
            · first
              | exact Or.inl (e0 hh)
              | exact Or.inr (e1 (by linarith))
            · exact absurd hh hne
        have hXo := det3_onSeg h2
        rcases hXc with e | e <;> rw [e] at hXo
        · rcases h.symm.end_of_zero ho si hXo with e' | e' <;> exact hj (by simp [Joined, e'])
        · rcases h.symm.end_of_zero ho sj hXo with e' | e' <;> exact hj (by simp [Joined, e'])
      obtain ⟨τ, p, q, hin⟩ := small_inside (t := t) (X := X) (v := w) (by
        intro f hf
        by_cases hfs : f = s
        · subst hfs; exact Or.inr ⟨z1, hwp⟩
        · exact Or.inl (hpos f hf hfs))
      exact common_of_closed h.left' hin (closed_lerp hXu hwu p.le q)
    · intro hh
      -- with the same corners any two sides are joined
      obtain ⟨si, sj⟩ := seg_corner hs
      have a1 := (hh _).1 si
      have a2 := (hh _).1 sj
      obtain ⟨n1, n2, n3⟩ := corners_distinct h.left
      have sne : s.i ≠ s.j := by
        unfold triSegs at hs
        simp only [List.mem_cons, List.not_mem_nil, or_false] at hs
        rcases hs with rfl | rfl | rfl
        exacts [n1, n2, n3]
      apply hj
      unfold triSegs at ho
      simp only [List.mem_cons, List.not_mem_nil, or_false] at ho
      unfold Joined
      rcases ho with rfl | rfl | rfl <;> rcases a1 with e | e | e <;> rcases a2 with e' | e' | e' <;>
        first
        | exact absurd (e.trans e'.symm) sne
        | simp [e, e']

/-- the criterion of `overlap` -/
theorem crossed_iff (h : TriPlaced t u) : Crossed t u ↔ CommonInside t u ∧ ¬ SameCorners t u :=
  ⟨h.common_of_crossed, fun hh => h.crossed_of_common hh.1 hh.2⟩

end TriPlaced
end Srep
