import Verif.Lemmas.Ray

/-! Crossings of a ray with a closed polygon, when the ray may pass through vertices. -/

set_option linter.unusedSectionVars false

namespace Srep.Ray
variable {K : Type} [Field K] [LinearOrder K] [IsStrictOrderedRing K]

/-- the side `s` crosses the ray from `p` through `t`; a vertex on the line counts as being to the left of it -/
def CrossH (p t : Pt K) (s : Seg K) : Prop :=
  (det3 p t s.i < 0 ∧ 0 ≤ det3 p t s.j ∧ 0 < det3 p s.i s.j) ∨
  (0 ≤ det3 p t s.i ∧ det3 p t s.j < 0 ∧ det3 p s.i s.j < 0)

/-- number of sides that cross the ray -/
noncomputable def countH (p t : Pt K) (l : List (Seg K)) : ℕ := (l.map fun s => ind (CrossH p t s)).sum

theorem onSeg_of_straddle (p t : Pt K) (s : Seg K) (h : (det3 p t s.i < 0 ∧ 0 ≤ det3 p t s.j) ∨ (0 ≤ det3 p t s.i ∧ det3 p t s.j < 0))
    (h0 : det3 p s.i s.j = 0) : OnSeg s p := by
  set α := det3 p t s.i with ha
  set β := det3 p t s.j with hb
  have hne : α - β ≠ 0 := by rcases h with ⟨h1, h2⟩ | ⟨h1, h2⟩ <;> intro e <;> linarith
  have hab : 0 ≤ α / (α - β) ∧ α / (α - β) ≤ 1 := by
    rcases h with ⟨x, y⟩ | ⟨x, y⟩
    · have : α - β < 0 := by linarith
      exact ⟨div_nonneg_of_nonpos x.le this.le, by rw [div_le_one_of_neg this]; linarith⟩
    · have : 0 < α - β := by linarith
      exact ⟨div_nonneg x this.le, by rw [div_le_one this]; linarith⟩
  refine ⟨α / (α - β), hab.1, hab.2, ?_⟩
  have e1 : α * (s.j.x - p.x) - β * (s.i.x - p.x) = 0 := by
    have : α * (s.j.x - p.x) - β * (s.i.x - p.x) = -(t.x - p.x) * det3 p s.i s.j := by
      rw [ha, hb]; unfold det3; ring
    rw [this, h0, mul_zero]
  have e2 : α * (s.j.y - p.y) - β * (s.i.y - p.y) = 0 := by
    have : α * (s.j.y - p.y) - β * (s.i.y - p.y) = -(t.y - p.y) * det3 p s.i s.j := by
      rw [ha, hb]; unfold det3; ring
    rw [this, h0, mul_zero]
  cases hP : p with
  | mk px py =>
    rw [hP] at e1 e2
    unfold lerp
    dsimp only at e1 e2 ⊢
    congr 1
    · field_simp
      linear_combination -e1
    · field_simp
      linear_combination -e2

theorem wedgeH (p t t' : Pt K) (s : Seg K) (hd : 0 < det3 p t t') (hp : ¬ OnSeg s p) :
    (ind (CrossH p t s) + ind (CrossH p t' s)) % 2 =
      (ind (0 ≤ det3 p t s.i ∧ det3 p t' s.i < 0) + ind (0 ≤ det3 p t s.j ∧ det3 p t' s.j < 0)) % 2 := by
  have hpl : det3 p t s.i * det3 p t' s.j - det3 p t s.j * det3 p t' s.i = det3 p t t' * det3 p s.i s.j := by
    unfold det3; ring
  have z1 : (det3 p t s.i < 0 ∧ 0 ≤ det3 p t s.j) ∨ (0 ≤ det3 p t s.i ∧ det3 p t s.j < 0) → det3 p s.i s.j ≠ 0 :=
    fun h h0 => hp (onSeg_of_straddle p t s h h0)
  have z2 : (det3 p t' s.i < 0 ∧ 0 ≤ det3 p t' s.j) ∨ (0 ≤ det3 p t' s.i ∧ det3 p t' s.j < 0) → det3 p s.i s.j ≠ 0 :=
    fun h h0 => hp (onSeg_of_straddle p t' s h h0)
  have hgp : 0 < det3 p s.i s.j → 0 < det3 p t s.i * det3 p t' s.j - det3 p t s.j * det3 p t' s.i := by
    intro h; rw [hpl]; exact mul_pos hd h
  have hgn : det3 p s.i s.j < 0 → det3 p t s.i * det3 p t' s.j - det3 p t s.j * det3 p t' s.i < 0 := by
    intro h; rw [hpl]; exact mul_neg_of_pos_of_neg hd h
  unfold CrossH
  generalize det3 p t s.i = α at *
  generalize det3 p t s.j = β at *
  generalize det3 p t' s.i = α' at *
  generalize det3 p t' s.j = β' at *
  generalize det3 p s.i s.j = γ at *
  clear hpl
  have hc : (γ < 0 ∧ ¬ 0 < γ) ∨ (¬ γ < 0 ∧ 0 < γ) ∨ (¬ γ < 0 ∧ ¬ 0 < γ) := by
    rcases lt_trichotomy γ 0 with c | c | c
    · exact Or.inl ⟨c, not_lt_of_gt c⟩
    · exact Or.inr (Or.inr (by rw [c]; simp))
    · exact Or.inr (Or.inl ⟨not_lt_of_gt c, c⟩)
  have two : ∀ x : K, (x < 0 ∧ ¬ 0 ≤ x) ∨ (0 ≤ x ∧ ¬ x < 0) := fun x => by
    rcases lt_or_ge x 0 with h | h
    · exact Or.inl ⟨h, not_le.2 h⟩
    · exact Or.inr ⟨h, not_lt.2 h⟩
  rcases two α with ⟨a, na⟩ | ⟨a, na⟩ <;> rcases two β with ⟨b, nb⟩ | ⟨b, nb⟩ <;>
    rcases two α' with ⟨a', na'⟩ | ⟨a', na'⟩ <;> rcases two β' with ⟨b', nb'⟩ | ⟨b', nb'⟩ <;>
    rcases hc with ⟨c, d⟩ | ⟨c, d⟩ | ⟨c, d⟩ <;>
    simp only [a, b, a', b', c, d, na, nb, na', nb',
      true_and, false_and, and_false, and_true, false_or, or_false, or_self, ind_true, ind_false,
      not_false_eq_true, trivial] <;>
    exfalso
  all_goals first
    | exact z1 (Or.inl ⟨a, b⟩) (le_antisymm (not_lt.1 d) (not_lt.1 c))
    | exact z1 (Or.inr ⟨a, b⟩) (le_antisymm (not_lt.1 d) (not_lt.1 c))
    | exact z2 (Or.inl ⟨a', b'⟩) (le_antisymm (not_lt.1 d) (not_lt.1 c))
    | exact z2 (Or.inr ⟨a', b'⟩) (le_antisymm (not_lt.1 d) (not_lt.1 c))
    | (have := hgp d; nlinarith)
    | (have := hgn c; nlinarith)

theorem countH_parity_pos {p t t' : Pt K} {l : List (Seg K)} (hc : ClosedChain l) (hd : 0 < det3 p t t')
    (hoff : ∀ s ∈ l, ¬ OnSeg s p) : countH p t l % 2 = countH p t' l % 2 := by
  have h1 := sum_mod_congr (fun s => ind (CrossH p t s) + ind (CrossH p t' s))
    (fun s : Seg K => ind (0 ≤ det3 p t s.i ∧ det3 p t' s.i < 0) + ind (0 ≤ det3 p t s.j ∧ det3 p t' s.j < 0)) l
    (fun s hs => wedgeH p t t' s hd (hoff s hs))
  rw [sum_map_add', sum_map_add', sum_ends hc (fun v => ind (0 ≤ det3 p t v ∧ det3 p t' v < 0))] at h1
  unfold countH
  omega

theorem countH_parity_ne {p t t' : Pt K} {l : List (Seg K)} (hc : ClosedChain l) (hd : det3 p t t' ≠ 0)
    (hoff : ∀ s ∈ l, ¬ OnSeg s p) : countH p t l % 2 = countH p t' l % 2 := by
  rcases lt_or_gt_of_ne hd with h | h
  · refine (countH_parity_pos hc ?_ hoff).symm
    have : det3 p t' t = - det3 p t t' := by unfold det3; ring
    rw [this]; linarith
  · exact countH_parity_pos hc h hoff

/-- the parity does not depend on the direction of the ray -/
theorem countH_parity {p t t' : Pt K} {l : List (Seg K)} (hc : ClosedChain l) (ht : t ≠ p) (ht' : t' ≠ p)
    (hoff : ∀ s ∈ l, ¬ OnSeg s p) : countH p t l % 2 = countH p t' l % 2 := by
  by_cases hd : det3 p t t' = 0
  · -- a third direction
    have key : ∀ r : Pt K, r ≠ p → det3 p r ⟨p.x - (r.y - p.y), p.y + (r.x - p.x)⟩ ≠ 0 := by
      intro r hr h0
      apply hr
      unfold det3 at h0
      dsimp only at h0
      have e : (r.x - p.x) * (r.x - p.x) + (r.y - p.y) * (r.y - p.y) = 0 := by linear_combination h0
      have hx : r.x - p.x = 0 := by
        have := mul_self_nonneg (r.y - p.y)
        exact mul_self_eq_zero.1 (le_antisymm (by linarith) (mul_self_nonneg _))
      have hy : r.y - p.y = 0 := by
        have := mul_self_nonneg (r.x - p.x)
        exact mul_self_eq_zero.1 (le_antisymm (by linarith) (mul_self_nonneg _))
      cases r; cases p
      dsimp only at hx hy
      rw [sub_eq_zero.1 hx, sub_eq_zero.1 hy]
    set u : Pt K := ⟨p.x - (t.y - p.y), p.y + (t.x - p.x)⟩ with hu
    have h1 : det3 p t u ≠ 0 := key t ht
    have h2 : det3 p t' u ≠ 0 := by
      intro h0
      have e1 : (t'.x - p.x) * det3 p t u = 0 := by
        have : (t'.x - p.x) * det3 p t u = (t.x - p.x) * det3 p t' u - (u.x - p.x) * det3 p t' t := by
          unfold det3; ring
        have h3 : det3 p t' t = 0 := by
          have : det3 p t' t = - det3 p t t' := by unfold det3; ring
          rw [this, hd, neg_zero]
        rw [this, h0, h3]; ring
      have e2 : (t'.y - p.y) * det3 p t u = 0 := by
        have : (t'.y - p.y) * det3 p t u = (t.y - p.y) * det3 p t' u - (u.y - p.y) * det3 p t' t := by
          unfold det3; ring
        have h3 : det3 p t' t = 0 := by
          have : det3 p t' t = - det3 p t t' := by unfold det3; ring
          rw [this, hd, neg_zero]
        rw [this, h0, h3]; ring
      have hx : t'.x - p.x = 0 := by rcases mul_eq_zero.1 e1 with h | h; exacts [h, absurd h h1]
      have hy : t'.y - p.y = 0 := by rcases mul_eq_zero.1 e2 with h | h; exacts [h, absurd h h1]
      apply ht'
      cases t'; cases p
      dsimp only at hx hy
      rw [sub_eq_zero.1 hx, sub_eq_zero.1 hy]
    exact (countH_parity_ne hc h1 hoff).trans (countH_parity_ne hc h2 hoff).symm
  · exact countH_parity_ne hc hd hoff

/-- a ray through no vertex -/
theorem countH_eq_rayCount {p t : Pt K} {l : List (Seg K)} (h : ∀ s ∈ l, det3 p t s.i ≠ 0 ∧ det3 p t s.j ≠ 0) :
    countH p t l = rayCount p t l := by
  unfold countH rayCount
  congr 1
  apply List.map_congr_left
  intro s hs
  obtain ⟨h1, h2⟩ := h s hs
  congr 1
  unfold CrossH RayCross
  rw [eq_iff_iff]
  have e1 : 0 ≤ det3 p t s.i ↔ 0 < det3 p t s.i := ⟨fun h => lt_of_le_of_ne h (Ne.symm h1), le_of_lt⟩
  have e2 : 0 ≤ det3 p t s.j ↔ 0 < det3 p t s.j := ⟨fun h => lt_of_le_of_ne h (Ne.symm h2), le_of_lt⟩
  rw [e1, e2]

/-- the point as far behind `q` as `p` is before it -/
def beyondPt (p q : Pt K) : Pt K := ⟨2 * q.x - p.x, 2 * q.y - p.y⟩

theorem det3_beyond (p q v : Pt K) : det3 q (beyondPt p q) v = det3 p q v := by
  unfold det3 beyondPt; dsimp only; ring

theorem pt_ext {a b : Pt K} (hx : a.x = b.x) (hy : a.y = b.y) : a = b := by
  cases a; cases b; dsimp only at hx hy; rw [hx, hy]

/-- a side that meets the segment from `p` to `q` crosses exactly one of the rays in this direction from `p` and `q` -/
theorem cross_split {p q : Pt K} (hpq : p ≠ q) (s : Seg K) (hp : ¬ OnSeg s p) (hq : ¬ OnSeg s q) (hi : ¬ Between p q s.i)
    (hj : ¬ Between p q s.j) :
    ind (CrossH p q s) = ind (Meet p q s) + ind (CrossH q (beyondPt p q) s) := by
  have hrel : det3 p s.i s.j - det3 q s.i s.j = det3 p q s.j - det3 p q s.i := by unfold det3; ring
  have hqrel : det3 q s.i s.j = 0 → (det3 p q s.i < 0 ∧ 0 ≤ det3 p q s.j) ∨ (0 ≤ det3 p q s.i ∧ det3 p q s.j < 0) → False := by
    intro h0 h
    rw [← det3_beyond p q s.i, ← det3_beyond p q s.j] at h
    exact hq (onSeg_of_straddle q _ s h h0)
  have hprel : det3 p s.i s.j = 0 → (det3 p q s.i < 0 ∧ 0 ≤ det3 p q s.j) ∨ (0 ≤ det3 p q s.i ∧ det3 p q s.j < 0) → False := by
    intro h0 h
    exact hp (onSeg_of_straddle p _ s h h0)
  -- the common point of the lines
  have hmeet : det3 p q s.i - det3 p q s.j ≠ 0 → (Meet p q s ↔
      (0 ≤ det3 p q s.i / (det3 p q s.i - det3 p q s.j) ∧ det3 p q s.i / (det3 p q s.i - det3 p q s.j) ≤ 1) ∧
      (0 ≤ det3 p s.i s.j / (det3 p q s.j - det3 p q s.i) ∧ det3 p s.i s.j / (det3 p q s.j - det3 p q s.i) ≤ 1)) := by
    intro hne
    have hne' : det3 p q s.j - det3 p q s.i ≠ 0 := fun e => hne (by linear_combination -e)
    constructor
    · rintro ⟨X, ⟨y, hy0, hy1, rfl⟩, ⟨x, hx0, hx1, e⟩⟩
      have ex : p.x + y * (q.x - p.x) = s.i.x + x * (s.j.x - s.i.x) := congrArg Pt.x e
      have ey : p.y + y * (q.y - p.y) = s.i.y + x * (s.j.y - s.i.y) := congrArg Pt.y e
      have e1 : det3 p q s.i / (det3 p q s.i - det3 p q s.j) = x := by
        rw [div_eq_iff hne]
        unfold det3
        linear_combination (q.y - p.y) * ex - (q.x - p.x) * ey
      have e2 : det3 p s.i s.j / (det3 p q s.j - det3 p q s.i) = y := by
        rw [div_eq_iff hne']
        unfold det3
        linear_combination (s.i.y - s.j.y) * ex + (s.j.x - s.i.x) * ey
      rw [e1, e2]
      exact ⟨⟨hx0, hx1⟩, hy0, hy1⟩
    · rintro ⟨⟨h1, h2⟩, h3, h4⟩
      refine ⟨lerp s.i s.j (det3 p q s.i / (det3 p q s.i - det3 p q s.j)), ⟨_, h3, h4, ?_⟩, ⟨_, h1, h2, rfl⟩⟩
      set α := det3 p q s.i with ea
      set β := det3 p q s.j with eb
      set γ := det3 p s.i s.j with eg
      have : (α - β) * (β - α) ≠ 0 := mul_ne_zero hne hne'
      apply pt_ext
      · unfold lerp
        dsimp only
        field_simp
        rw [ea, eb, eg]
        unfold det3
        ring
      · unfold lerp
        dsimp only
        field_simp
        rw [ea, eb, eg]
        unfold det3
        ring
  -- vertices on the line are not met
  have hno : ∀ v : Pt K, det3 p q v = 0 → ∃ y, v = lerp p q y := by
    intro v h0
    by_cases hx : q.x - p.x = 0
    · have hy : q.y - p.y ≠ 0 := by
        intro hy
        exact hpq (pt_ext (sub_eq_zero.1 hx).symm (sub_eq_zero.1 hy).symm)
      refine ⟨(v.y - p.y) / (q.y - p.y), pt_ext ?_ ?_⟩
      · unfold lerp; dsimp only
        rw [hx, mul_zero, add_zero]
        unfold det3 at h0
        rw [hx, zero_mul, zero_sub, neg_eq_zero] at h0
        rcases mul_eq_zero.1 h0 with h | h
        · exact absurd h hy
        · exact sub_eq_zero.1 h
      · unfold lerp; dsimp only
        rw [div_mul_cancel₀ _ hy]; ring
    · refine ⟨(v.x - p.x) / (q.x - p.x), pt_ext ?_ ?_⟩
      · unfold lerp; dsimp only
        rw [div_mul_cancel₀ _ hx]; ring
      · unfold lerp; dsimp only
        unfold det3 at h0
        field_simp
        linear_combination h0
  unfold CrossH
  rw [det3_beyond, det3_beyond]
  rcases lt_or_ge (det3 p q s.i) 0 with a | a <;> rcases lt_or_ge (det3 p q s.j) 0 with b | b
  · -- both to the right
    rw [ind_false (by rintro (⟨_, h, _⟩ | ⟨h, _, _⟩) <;> linarith), ind_false (P := Meet p q s), ind_false (by rintro (⟨_, h, _⟩ | ⟨h, _, _⟩) <;> linarith)]
    rintro ⟨X, ⟨y, -, -, rfl⟩, ⟨x, hx0, hx1, e⟩⟩
    have : (1 - x) * det3 p q s.i + x * det3 p q s.j = 0 := by
      rw [← det3_lerp, ← e]; unfold det3 lerp; ring
    rcases lt_or_ge 0 x with h | h
    · nlinarith [mul_neg_of_pos_of_neg h b, mul_nonneg (sub_nonneg.2 hx1) (neg_nonneg.2 a.le)]
    · have : x = 0 := le_antisymm h hx0
      subst this
      linarith
  · have hne : det3 p q s.i - det3 p q s.j ≠ 0 := by intro e; linarith
    have hm := hmeet hne
    have h1 : 0 ≤ det3 p q s.i / (det3 p q s.i - det3 p q s.j) ∧ det3 p q s.i / (det3 p q s.i - det3 p q s.j) ≤ 1 := by
      have : det3 p q s.i - det3 p q s.j < 0 := by linarith
      exact ⟨div_nonneg_of_nonpos a.le this.le, by rw [div_le_one_of_neg this]; linarith⟩
    have hd : 0 < det3 p q s.j - det3 p q s.i := by linarith
    have hm' : Meet p q s ↔ 0 ≤ det3 p s.i s.j ∧ det3 q s.i s.j ≤ 0 := by
      rw [hm, and_iff_right h1, div_le_one hd, div_nonneg_iff]
      constructor
      · rintro ⟨h | h, h'⟩
        · exact ⟨h.1, by linarith⟩
        · linarith [h.2]
      · rintro ⟨h, h'⟩
        exact ⟨Or.inl ⟨h, hd.le⟩, by linarith⟩
    have p0 : det3 p s.i s.j ≠ 0 := fun h => hprel h (Or.inl ⟨a, b⟩)
    have q0 : det3 q s.i s.j ≠ 0 := fun h => hqrel h (Or.inl ⟨a, b⟩)
    rcases lt_or_gt_of_ne p0 with hp' | hp' <;> rcases lt_or_gt_of_ne q0 with hq' | hq'
    · rw [ind_false (by rintro (⟨_, _, h⟩ | ⟨h, _, _⟩) <;> linarith), ind_false (by rw [hm']; rintro ⟨h, _⟩; linarith),
        ind_false (by rintro (⟨_, _, h⟩ | ⟨h, _, _⟩) <;> linarith)]
    · exfalso; linarith
    · rw [ind_true (Or.inl ⟨a, b, hp'⟩), ind_true (hm'.2 ⟨hp'.le, hq'.le⟩), ind_false (by rintro (⟨_, _, h⟩ | ⟨h, _, _⟩) <;> linarith)]
    · rw [ind_true (Or.inl ⟨a, b, hp'⟩), ind_false (by rw [hm']; rintro ⟨_, h⟩; linarith), ind_true (Or.inl ⟨a, b, hq'⟩)]
  · have hne : det3 p q s.i - det3 p q s.j ≠ 0 := by intro e; linarith
    have hm := hmeet hne
    have h1 : 0 ≤ det3 p q s.i / (det3 p q s.i - det3 p q s.j) ∧ det3 p q s.i / (det3 p q s.i - det3 p q s.j) ≤ 1 := by
      have : 0 < det3 p q s.i - det3 p q s.j := by linarith
      exact ⟨div_nonneg a this.le, by rw [div_le_one this]; linarith⟩
    have hd : det3 p q s.j - det3 p q s.i < 0 := by linarith
    have hm' : Meet p q s ↔ det3 p s.i s.j ≤ 0 ∧ 0 ≤ det3 q s.i s.j := by
      rw [hm, and_iff_right h1, div_le_one_of_neg hd, div_nonneg_iff]
      constructor
      · rintro ⟨h | h, h'⟩
        · linarith [h.2]
        · exact ⟨h.1, by linarith⟩
      · rintro ⟨h, h'⟩
        exact ⟨Or.inr ⟨h, hd.le⟩, by linarith⟩
    have p0 : det3 p s.i s.j ≠ 0 := fun h => hprel h (Or.inr ⟨a, b⟩)
    have q0 : det3 q s.i s.j ≠ 0 := fun h => hqrel h (Or.inr ⟨a, b⟩)
    rcases lt_or_gt_of_ne p0 with hp' | hp' <;> rcases lt_or_gt_of_ne q0 with hq' | hq'
    · rw [ind_true (Or.inr ⟨a, b, hp'⟩), ind_false (by rw [hm']; rintro ⟨_, h⟩; linarith), ind_true (Or.inr ⟨a, b, hq'⟩)]
    · rw [ind_true (Or.inr ⟨a, b, hp'⟩), ind_true (hm'.2 ⟨hp'.le, hq'.le⟩), ind_false (by rintro (⟨h, _, _⟩ | ⟨_, _, h⟩) <;> linarith)]
    · exfalso; linarith
    · rw [ind_false (by rintro (⟨h, _, _⟩ | ⟨_, _, h⟩) <;> linarith), ind_false (by rw [hm']; rintro ⟨h, _⟩; linarith),
        ind_false (by rintro (⟨h, _, _⟩ | ⟨_, _, h⟩) <;> linarith)]
  · -- none to the right
    rw [ind_false (by rintro (⟨h, _, _⟩ | ⟨_, h, _⟩) <;> linarith), ind_false (P := Meet p q s), ind_false (by rintro (⟨h, _, _⟩ | ⟨_, h, _⟩) <;> linarith)]
    rintro ⟨X, hX, ⟨x, hx0, hx1, e⟩⟩
    have hX' := hX
    obtain ⟨y, hy0, hy1, rfl⟩ := hX'
    have h0 : (1 - x) * det3 p q s.i + x * det3 p q s.j = 0 := by
      rw [← det3_lerp, ← e]; unfold det3 lerp; ring
    have m1 : 0 ≤ (1 - x) * det3 p q s.i := mul_nonneg (sub_nonneg.2 hx1) a
    have m2 : 0 ≤ x * det3 p q s.j := mul_nonneg hx0 b
    have m1' : (1 - x) * det3 p q s.i = 0 := by linarith
    have m2' : x * det3 p q s.j = 0 := by linarith
    have xi : x ≠ 0 := by
      rintro rfl
      apply hi
      rw [e] at hX
      have : lerp s.i s.j 0 = s.i := by unfold lerp; cases s.i; simp
      rwa [this] at hX
    have xj : x ≠ 1 := by
      rintro rfl
      apply hj
      rw [e] at hX
      have : lerp s.i s.j 1 = s.j := by unfold lerp; cases s.j; simp
      rwa [this] at hX
    have zi : det3 p q s.i = 0 := by
      rcases mul_eq_zero.1 m1' with h | h
      · exact absurd (by linear_combination -h) xj
      · exact h
    have zj : det3 p q s.j = 0 := by
      rcases mul_eq_zero.1 m2' with h | h
      · exact absurd h xi
      · exact h
    obtain ⟨u, hu⟩ := hno _ zi
    obtain ⟨w, hw⟩ := hno _ zj
    -- positions on the line: y between u and w, u and w outside of [0, 1]
    have hyx : y = u + x * (w - u) := by
      have ex : p.x + y * (q.x - p.x) = s.i.x + x * (s.j.x - s.i.x) := congrArg Pt.x e
      have ey : p.y + y * (q.y - p.y) = s.i.y + x * (s.j.y - s.i.y) := congrArg Pt.y e
      have ux : s.i.x = p.x + u * (q.x - p.x) := congrArg Pt.x hu
      have uy : s.i.y = p.y + u * (q.y - p.y) := congrArg Pt.y hu
      have wx : s.j.x = p.x + w * (q.x - p.x) := congrArg Pt.x hw
      have wy : s.j.y = p.y + w * (q.y - p.y) := congrArg Pt.y hw
      rw [ux, wx] at ex
      rw [uy, wy] at ey
      have f1 : (y - (u + x * (w - u))) * (q.x - p.x) = 0 := by linear_combination ex
      have f2 : (y - (u + x * (w - u))) * (q.y - p.y) = 0 := by linear_combination ey
      by_contra hne
      have hne' : y - (u + x * (w - u)) ≠ 0 := sub_ne_zero.2 hne
      have g1 := (mul_eq_zero.1 f1).resolve_left hne'
      have g2 := (mul_eq_zero.1 f2).resolve_left hne'
      exact hpq (pt_ext (sub_eq_zero.1 g1).symm (sub_eq_zero.1 g2).symm)
    have hu' : u < 0 ∨ 1 < u := by
      by_contra hc
      push Not at hc
      exact hi ⟨u, hc.1, hc.2, hu⟩
    have hw' : w < 0 ∨ 1 < w := by
      by_contra hc
      push Not at hc
      exact hj ⟨w, hc.1, hc.2, hw⟩
    have x0 : 0 < x := lt_of_le_of_ne hx0 (Ne.symm xi)
    have x1 : x < 1 := lt_of_le_of_ne hx1 xj
    have onp : ∀ z, z = u + ((z - u) / (w - u)) * (w - u) ∨ w - u = 0 := by
      intro z
      by_cases h : w - u = 0
      · exact Or.inr h
      · left; rw [div_mul_cancel₀ _ h]; ring
    rcases hu' with hu' | hu' <;> rcases hw' with hw' | hw'
    · nlinarith
    · -- p is on the side
      apply hp
      have hd : 0 < w - u := by linarith
      refine ⟨-u / (w - u), div_nonneg (by linarith) hd.le, by rw [div_le_one hd]; linarith, ?_⟩
      rw [hu, hw]
      apply pt_ext
      · unfold lerp; dsimp only; field_simp; ring
      · unfold lerp; dsimp only; field_simp; ring
    · apply hp
      have hd : 0 < u - w := by linarith
      refine ⟨u / (u - w), div_nonneg (by linarith) hd.le, by rw [div_le_one hd]; linarith, ?_⟩
      rw [hu, hw]
      apply pt_ext
      · unfold lerp; dsimp only; field_simp; ring
      · unfold lerp; dsimp only; field_simp; ring
    · nlinarith

end Srep.Ray
