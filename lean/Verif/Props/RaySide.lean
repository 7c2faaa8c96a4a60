import Verif.Props.Ray

/-! `is_internal_point` for points on a side of a convex polygon (C84). -/

set_option linter.unusedSectionVars false

namespace Srep
open Rt Ray
variable {K : Type} [Field K] [LinearOrder K] [IsStrictOrderedRing K] [FloorRing K] {R : Rt K}

/-- a point inside of a side is strictly to the left of all other sides -/
theorem left_of_others {l : List (Seg K)} (c : ConvexCcw l) (h3 : 3 ≤ l.length) {s : Seg K} (hs : s ∈ l) {p : Pt K}
    (hp : Inner s.i s.j p) {o : Seg K} (ho : o ∈ l) (hne : o ≠ s) : 0 < det3 o.i o.j p := by
  obtain ⟨u, u0, u1, rfl⟩ := hp
  rw [det3_lerp]
  obtain ⟨n1, n2⟩ := c.nonneg ho hs
  have hi : s.i ≠ o.i := fun e => hne (eq_of_i c.nodup ho hs e.symm)
  have hmod : ∀ a : Seg K, a ∈ l → ∃ b ∈ l, a.j = b.i := by
    intro a ha
    obtain ⟨k, hk, rfl⟩ := List.getElem_of_mem ha
    exact ⟨_, List.getElem_mem _, c.chain k hk⟩
  -- two of the vertices differ from the ends of `s`
  have hthird : ∃ v ∈ l, v.i ≠ s.i ∧ v.i ≠ s.j := by
    by_contra hcon
    push Not at hcon
    have hsub : ∀ v ∈ l.map Seg.i, v ∈ [s.i, s.j] := by
      intro v hv
      obtain ⟨a, ha, rfl⟩ := List.mem_map.1 hv
      by_cases h : a.i = s.i
      · simp [h]
      · simp [hcon a ha h]
    have := (c.nodup.subperm hsub).length_le
    simp at this
    omega
  obtain ⟨v, hv, v1, v2⟩ := hthird
  have hpos : 0 < det3 o.i o.j s.i ∨ 0 < det3 o.i o.j s.j := by
    by_contra hcon
    push Not at hcon
    obtain ⟨a1, a2⟩ := hcon
    have b1 : s.i = o.j := by
      rcases c.left o ho s hs with h | h | h
      · exact absurd h hi
      · exact h
      · exact absurd a1 (not_le.2 h)
    obtain ⟨t, ht, et⟩ := hmod s hs
    have b2 : s.j = o.i ∨ s.j = o.j := by
      rcases c.left o ho t ht with h | h | h
      · exact Or.inl (et.trans h)
      · exact Or.inr (et.trans h)
      · rw [← et] at h; exact absurd a2 (not_le.2 h)
    have hv1 : 0 < det3 s.i s.j v.i := by
      rcases c.left s hs v hv with h | h | h
      · exact absurd h v1
      · exact absurd h v2
      · exact h
    rcases b2 with b2 | b2
    · have hv2 := (c.nonneg ho hv).1
      rw [← b1, ← b2] at hv2
      have : det3 s.j s.i v.i = - det3 s.i s.j v.i := by unfold det3; ring
      rw [this] at hv2
      linarith
    · rw [b2, ← b1] at hv1
      unfold det3 at hv1
      simp at hv1
  rcases hpos with h | h
  · have := mul_pos (sub_pos.2 u1) h
    have := mul_nonneg u0.le n2
    linarith
  · have := mul_nonneg (sub_pos.2 u1).le n1
    have := mul_pos u0 h
    linarith

open Classical in
/-- the sides met on the way from a point inside of the side `s`: only `s` if the target is to the right of `s`, `s` and
one more if it is to the left -/
theorem meetCount_on_side {l : List (Seg K)} (c : ConvexCcw l) (h3 : 3 ≤ l.length) {s : Seg K} (hs : s ∈ l) {p t : Pt K}
    (hp : Inner s.i s.j p) (g : GoodTarget l p t) :
    (det3 s.i s.j t < 0 → meetCount l p t = 1) ∧ (0 < det3 s.i s.j t → meetCount l p t = 2) := by
  have hleft := fun {o} (ho : o ∈ l) (hne : o ≠ s) => left_of_others c h3 hs hp ho hne
  have hl' : ∀ o ∈ l, o ≠ s → 0 < det3 p o.i o.j := by
    intro o ho hne
    have := hleft ho hne
    rw [det3_rot, det3_rot] at this
    exact this
  have hoff : ∀ o ∈ l, o ≠ s → ¬ OnSeg o p := by
    rintro o ho hne ⟨x, -, -, e⟩
    have := hleft ho hne
    rw [e, det3_lerp, det3_self, det3_self'] at this
    simp at this
  have hmeet : ∀ o ∈ l, o ≠ s → (Meet p t o ↔ Up p t o) := by
    intro o ho hne
    rw [← rayCross_iff_meet g.right (g.beyond o ho).1 (g.beyond o ho).2 (g.noVertex o ho).1 (g.noVertex o ho).2
      (hoff o ho hne), rayCross_iff_pass]
    constructor
    · rintro (h | h)
      · exact h.1
      · exact absurd (hl' o ho hne) (not_lt_of_gt h.2)
    · exact fun h => Or.inl ⟨h, hl' o ho hne⟩
  have hms : Meet p t s := by
    obtain ⟨u, u0, u1, e⟩ := hp
    refine ⟨p, ⟨0, le_refl _, zero_le_one, ?_⟩, u, u0.le, u1.le, e⟩
    unfold lerp; cases p; simp
  obtain ⟨u, u0, u1, e⟩ := hp
  have hz : (1 - u) * det3 p t s.i + u * det3 p t s.j = 0 := by
    rw [← det3_lerp, ← e, det3_self]
  have hst : det3 p t s.j = -((1 - u) * det3 s.i s.j t) := by rw [e]; unfold det3 lerp; ring
  have hst' : det3 p t s.i = u * det3 s.i s.j t := by rw [e]; unfold det3 lerp; ring
  have hcount : meetCount l p t = (l.map fun o => ind (Meet p t o)).sum := by
    unfold meetCount
    apply sum_ind_eq_length
    intro o _
    rw [decide_eq_true_eq]
  constructor
  · intro hr
    have hup : Up p t s := by
      unfold Up
      rw [hst, hst']
      exact ⟨mul_neg_of_pos_of_neg u0 hr, by have := mul_neg_of_pos_of_neg (sub_pos.2 u1) hr; linarith⟩
    rw [hcount]
    apply sum_ind_eq_one c.nodup' hs hms
    intro o ho hm
    by_contra hne
    exact hne (up_unique c ho hs ((hmeet o ho hne).1 hm) hup)
  · intro hr
    have hdn : Down p t s := by
      unfold Down
      rw [hst, hst']
      exact ⟨mul_pos u0 hr, by have := mul_pos (sub_pos.2 u1) hr; linarith⟩
    have hnu : ¬ Up p t s := fun h => absurd h.1 (not_lt_of_gt hdn.1)
    rcases pass_cases c g.noVertex with h | ⟨a, ha, b, hb, ua, db, hau, hbu⟩
    · exact absurd hdn (h s hs).2
    have has : a ≠ s := by rintro rfl; exact hnu ua
    have e1 : ∀ o ∈ l, ind (Meet p t o) = ind (o = s) + ind (o = a) := by
      intro o ho
      by_cases h1 : o = s
      · subst h1
        rw [ind_true hms, ind_true rfl, ind_false fun h => has h.symm]
      · by_cases h2 : o = a
        · subst h2
          rw [ind_true ((hmeet o ho h1).2 ua), ind_false h1, ind_true rfl]
        · rw [ind_false h1, ind_false h2, ind_false]
          intro hm
          exact h2 (hau o ho ((hmeet o ho h1).1 hm))
    rw [hcount, List.map_congr_left e1, sum_map_add', sum_ind_eq_one (P := fun o => o = s) c.nodup' hs rfl fun _ _ h => h,
      sum_ind_eq_one (P := fun o => o = a) c.nodup' ha rfl fun _ _ h => h]

/-- C84: a point on a side of a strictly convex counter-clockwise polygon, but not a vertex, is called internal if the
random targets are on the outer side of the side, and external if they are on its inner side. -/
theorem C84_on_side (hE : R.IsExact) (l : List (Seg K)) (hc : ConvexCcw l) (h3 : 3 ≤ l.length) (s : Seg K) (hs : s ∈ l)
    (p : Pt K) (hp : Inner s.i s.j p) (ω : ℕ → Pt K) (hω : ∀ k < 3, GoodTarget l p (ω k) ∧ Spread l p (ω k)) (fuel : ℕ) :
    ((∀ k < 3, det3 s.i s.j (ω k) < 0) → R.plInternal l p ω (fuel + 1) = some true) ∧
    ((∀ k < 3, 0 < det3 s.i s.j (ω k)) → R.plInternal l p ω (fuel + 1) = some false) := by
  have h0 := hω 0 (by omega)
  have hv := not_vertex hE h0.2 h0.1
  constructor
  · intro h
    apply plInternal_first (c := 1) hv
    intro k hk
    obtain ⟨g, sp⟩ := hω k hk
    rw [crossCount_eq hE sp hc.nodup g, (meetCount_on_side hc h3 hs hp g).1 (h k hk)]
  · intro h
    apply plInternal_first (c := 2) hv
    intro k hk
    obtain ⟨g, sp⟩ := hω k hk
    rw [crossCount_eq hE sp hc.nodup g, (meetCount_on_side hc h3 hs hp g).2 (h k hk)]

/-- C84: so all points inside of a vertical side on the right count as internal, and all inside of one on the left as
external. -/
theorem C84_right_and_left (hE : R.IsExact) (l : List (Seg K)) (hc : ConvexCcw l) (h3 : 3 ≤ l.length) (s : Seg K) (hs : s ∈ l)
    (hx : s.i.x = s.j.x) (p : Pt K) (hp : Inner s.i s.j p) (ω : ℕ → Pt K)
    (hω : ∀ k < 3, GoodTarget l p (ω k) ∧ Spread l p (ω k)) (fuel : ℕ) :
    (s.i.y < s.j.y → R.plInternal l p ω (fuel + 1) = some true) ∧
    (s.j.y < s.i.y → R.plInternal l p ω (fuel + 1) = some false) := by
  obtain ⟨h1, h2⟩ := C84_on_side hE l hc h3 s hs p hp ω hω fuel
  have hd : ∀ k, det3 s.i s.j (ω k) = -((s.j.y - s.i.y) * ((ω k).x - s.i.x)) := by
    intro k; unfold det3; rw [hx]; ring
  constructor
  · intro h
    apply h1
    intro k hk
    have := mul_pos (sub_pos.2 h) (sub_pos.2 ((hω k hk).1.beyond s hs).1)
    rw [hd]
    linarith
  · intro h
    apply h2
    intro k hk
    have := mul_pos (sub_pos.2 h) (sub_pos.2 ((hω k hk).1.beyond s hs).1)
    rw [hd]
    linarith

/-- the square with corners (0, 0) and (2, 2) in binary64: the middles of the right and upper side are internal, those
of the left and lower side external -/
example : [(⟨2, 1⟩ : Pt ℚ), ⟨1, 2⟩, ⟨0, 1⟩, ⟨1, 0⟩].map (fun p => exRt.plInternal
    [exSeg 0 0 2 0, exSeg 2 0 2 2, exSeg 2 2 0 2, exSeg 0 2 0 0] p (fun k => ⟨100, 7 + k⟩) 1) =
    [some true, some true, some false, some false] := by decide +kernel

end Srep
