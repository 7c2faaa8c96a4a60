import Verif.Spec.Ray
import Mathlib.Data.List.Rotate
import Mathlib.Algebra.BigOperators.Group.List.Basic
import Mathlib.Algebra.Order.BigOperators.Group.List
import Mathlib.Tactic.LinearCombination
import Mathlib.Tactic.Linarith
import Mathlib.Tactic.FieldSimp

/-! Crossings of a ray with a closed polygon. -/

set_option linter.unusedSectionVars false

namespace Srep.Ray
variable {K : Type} [Field K] [LinearOrder K] [IsStrictOrderedRing K]

/-- the side `s` crosses the ray from `p` through `t`, in terms of determinants -/
def RayCross (p t : Pt K) (s : Seg K) : Prop :=
  (det3 p t s.i < 0 ∧ 0 < det3 p t s.j ∧ 0 < det3 p s.i s.j) ∨
  (0 < det3 p t s.i ∧ det3 p t s.j < 0 ∧ det3 p s.i s.j < 0)

instance (p t : Pt K) (s : Seg K) : Decidable (RayCross p t s) := by unfold RayCross; infer_instance

theorem det3_lerp (a b c d : Pt K) (x : K) : det3 a b (lerp c d x) = (1 - x) * det3 a b c + x * det3 a b d := by
  unfold det3 lerp; ring

theorem det3_rot (a b c : Pt K) : det3 a b c = det3 b c a := by unfold det3; ring

theorem det3_self (a b : Pt K) : det3 a b a = 0 := by unfold det3; ring

theorem det3_self' (a b : Pt K) : det3 a b b = 0 := by unfold det3; ring

theorem meet_of_rayCross {p t : Pt K} {s : Seg K} (hpt : p.x < t.x) (hi : s.i.x < t.x) (hj : s.j.x < t.x)
    (h : RayCross p t s) : Meet p t s := by
  -- the crossing point
  have key : ∀ (α β γ : K), α = det3 p t s.i → β = det3 p t s.j → γ = det3 p s.i s.j → α - β ≠ 0 →
      0 ≤ α / (α - β) → α / (α - β) ≤ 1 → 0 ≤ γ / (β - α) → Meet p t s := by
    intro α β γ ea eb eg hne h0 h1 hg
    have hne' : β - α ≠ 0 := fun e => hne (by linear_combination -e)
    have hxe : (lerp s.i s.j (α / (α - β))).x = (lerp p t (γ / (β - α))).x := by
      unfold lerp
      dsimp only
      have : (α - β) * (β - α) ≠ 0 := mul_ne_zero hne hne'
      field_simp
      rw [ea, eb, eg]
      unfold det3
      ring
    have hye : (lerp s.i s.j (α / (α - β))).y = (lerp p t (γ / (β - α))).y := by
      unfold lerp
      dsimp only
      field_simp
      rw [ea, eb, eg]
      unfold det3
      ring
    refine ⟨lerp s.i s.j (α / (α - β)), ⟨γ / (β - α), hg, ?_, ?_⟩, ⟨_, h0, h1, rfl⟩⟩
    · by_contra hc
      push Not at hc
      have hX : (lerp s.i s.j (α / (α - β))).x < t.x := by
        unfold lerp
        dsimp only
        generalize α / (α - β) = y at h0 h1
        rcases le_total s.i.x s.j.x with h | h
        · nlinarith
        · nlinarith
      rw [hxe] at hX
      unfold lerp at hX
      dsimp only at hX
      nlinarith
    · cases hA : lerp s.i s.j (α / (α - β)) with
      | mk ax ay =>
        cases hB : lerp p t (γ / (β - α)) with
        | mk bx bY =>
          rw [hA, hB] at hxe hye
          dsimp only at hxe hye
          rw [hxe, hye]
  rcases h with ⟨h1, h2, h3⟩ | ⟨h1, h2, h3⟩
  · have hd : det3 p t s.i - det3 p t s.j < 0 := by linarith
    refine key _ _ _ rfl rfl rfl hd.ne ?_ ?_ ?_
    · exact div_nonneg_of_nonpos h1.le hd.le
    · rw [div_le_one_of_neg hd]; linarith
    · exact div_nonneg h3.le (by linarith)
  · have hd : 0 < det3 p t s.i - det3 p t s.j := by linarith
    refine key _ _ _ rfl rfl rfl hd.ne' ?_ ?_ ?_
    · exact div_nonneg h1.le hd.le
    · rw [div_le_one hd]; linarith
    · exact div_nonneg_of_nonpos h3.le (by linarith)

theorem rayCross_of_meet {p t : Pt K} {s : Seg K} (hi : det3 p t s.i ≠ 0) (hj : det3 p t s.j ≠ 0) (hp : ¬ OnSeg s p)
    (h : Meet p t s) : RayCross p t s := by
  obtain ⟨X, ⟨y, hy0, hy1, rfl⟩, ⟨x, hx0, hx1, e⟩⟩ := h
  have e1 : (1 - x) * det3 p t s.i + x * det3 p t s.j = 0 := by
    rw [← det3_lerp, ← e]; unfold det3 lerp; ring
  have hx0' : x ≠ 0 := by rintro rfl; apply hi; linear_combination e1
  have hx1' : x ≠ 1 := by rintro rfl; apply hj; linear_combination e1
  have hy0' : y ≠ 0 := by
    rintro rfl
    apply hp
    refine ⟨x, hx0, hx1, ?_⟩
    rw [← e]; unfold lerp; simp
  have x0 : 0 < x := lt_of_le_of_ne hx0 (Ne.symm hx0')
  have x1 : x < 1 := lt_of_le_of_ne hx1 hx1'
  have y0 : 0 < y := lt_of_le_of_ne hy0 (Ne.symm hy0')
  -- γ = y (β - α)
  have ex : p.x + y * (t.x - p.x) = s.i.x + x * (s.j.x - s.i.x) := congrArg Pt.x e
  have ey : p.y + y * (t.y - p.y) = s.i.y + x * (s.j.y - s.i.y) := congrArg Pt.y e
  have hg : det3 p s.i s.j = y * (det3 p t s.j - det3 p t s.i) := by
    unfold det3
    linear_combination (s.i.y - s.j.y) * ex + (s.j.x - s.i.x) * ey
  rcases lt_or_gt_of_ne hi with h1 | h1
  · have h2 : 0 < det3 p t s.j := by
      by_contra hc
      push Not at hc
      nlinarith [mul_pos_of_neg_of_neg h1 (show x - 1 < 0 by linarith)]
    left
    exact ⟨h1, h2, by rw [hg]; exact mul_pos y0 (by linarith)⟩
  · have h2 : det3 p t s.j < 0 := by
      by_contra hc
      push Not at hc
      nlinarith [mul_pos h1 (show 0 < 1 - x by linarith)]
    right
    exact ⟨h1, h2, by rw [hg]; exact mul_neg_of_pos_of_neg y0 (by linarith)⟩

theorem rayCross_iff_meet {p t : Pt K} {s : Seg K} (hpt : p.x < t.x) (hix : s.i.x < t.x) (hjx : s.j.x < t.x)
    (hi : det3 p t s.i ≠ 0) (hj : det3 p t s.j ≠ 0) (hp : ¬ OnSeg s p) : RayCross p t s ↔ Meet p t s :=
  ⟨meet_of_rayCross hpt hix hjx, rayCross_of_meet hi hj hp⟩

/-! ### parity -/

theorem closedChain_perm {l : List (Seg K)} (hc : ClosedChain l) : (l.map Seg.j).Perm (l.map Seg.i) := by
  have : l.map Seg.j = (l.map Seg.i).rotate 1 := by
    apply List.ext_getElem
    · simp
    · intro k h1 h2
      rw [List.length_map] at h1
      rw [List.getElem_map, List.getElem_rotate, List.getElem_map]
      rw [hc k h1]
      simp
  rw [this]
  exact List.rotate_perm _ _

theorem sum_ends {M : Type} [AddCommMonoid M] {l : List (Seg K)} (hc : ClosedChain l) (f : Pt K → M) :
    (l.map fun s => f s.j).sum = (l.map fun s => f s.i).sum := by
  have := (closedChain_perm hc).map f
  rw [List.map_map, List.map_map] at this
  exact this.sum_eq

open Classical in
/-- 1 or 0 -/
noncomputable def ind (P : Prop) : ℕ := if P then 1 else 0

theorem ind_true {P : Prop} (h : P) : ind P = 1 := if_pos h

theorem ind_false {P : Prop} (h : ¬ P) : ind P = 0 := if_neg h

theorem wedge_parity (p t t' : Pt K) (s : Seg K) (hd : 0 < det3 p t t') (h1 : det3 p t s.i ≠ 0) (h2 : det3 p t s.j ≠ 0)
    (h3 : det3 p t' s.i ≠ 0) (h4 : det3 p t' s.j ≠ 0) (hp : ¬ OnSeg s p) :
    (ind (RayCross p t s) + ind (RayCross p t' s)) % 2 =
      (ind (0 < det3 p t s.i ∧ det3 p t' s.i < 0) + ind (0 < det3 p t s.j ∧ det3 p t' s.j < 0)) % 2 := by
  have hpl : det3 p t s.i * det3 p t' s.j - det3 p t s.j * det3 p t' s.i = det3 p t t' * det3 p s.i s.j := by
    unfold det3; ring
  have hg : det3 p t s.i * det3 p t s.j < 0 → det3 p s.i s.j ≠ 0 := by
    intro hneg h0
    apply hp
    -- p is on the segment
    set α := det3 p t s.i with ha
    set β := det3 p t s.j with hb
    have hne : α - β ≠ 0 := by
      intro e
      have : α = β := by linear_combination e
      rw [this] at hneg
      nlinarith [mul_self_nonneg β]
    have hab : 0 ≤ α / (α - β) ∧ α / (α - β) ≤ 1 := by
      rcases mul_neg_iff.1 hneg with ⟨x, y⟩ | ⟨x, y⟩
      · have : 0 < α - β := by linarith
        exact ⟨div_nonneg x.le this.le, by rw [div_le_one this]; linarith⟩
      · have : α - β < 0 := by linarith
        exact ⟨div_nonneg_of_nonpos x.le this.le, by rw [div_le_one_of_neg this]; linarith⟩
    refine ⟨α / (α - β), hab.1, hab.2, ?_⟩
    have e1 : α * (s.j.x - p.x) - β * (s.i.x - p.x) = 0 := by
      have : α * (s.j.x - p.x) - β * (s.i.x - p.x) = -(t.x - p.x) * det3 p s.i s.j := by
        rw [ha, hb]; unfold det3; ring
      rw [this, h0, mul_zero]
    have e2 : α * (s.j.y - p.y) - β * (s.i.y - p.y) = 0 := by
      have : α * (s.j.y - p.y) - β * (s.i.y - p.y) = -(t.y - p.y) * det3 p s.i s.j := by
        rw [ha, hb]; unfold det3; ring
      rw [this, h0, mul_zero]
    cases hP : p with
    | mk px py =>
      rw [hP] at e1 e2
      unfold lerp
      dsimp only at e1 e2 ⊢
      congr 1
      · field_simp
        linear_combination -e1
      · field_simp
        linear_combination -e2
  have hgp : 0 < det3 p t s.i * det3 p t' s.j - det3 p t s.j * det3 p t' s.i → 0 < det3 p s.i s.j := by
    intro h; rw [hpl] at h; exact (pos_iff_pos_of_mul_pos h).1 hd
  have hgn : det3 p t s.i * det3 p t' s.j - det3 p t s.j * det3 p t' s.i < 0 → det3 p s.i s.j < 0 := by
    intro h
    rw [hpl] at h
    by_contra hc
    push Not at hc
    exact absurd (mul_nonneg hd.le hc) (not_le.2 h)
  unfold RayCross
  generalize det3 p t s.i = α at *
  generalize det3 p t s.j = β at *
  generalize det3 p t' s.i = α' at *
  generalize det3 p t' s.j = β' at *
  generalize det3 p s.i s.j = γ at *
  clear hpl
  have hc : (γ < 0 ∧ ¬ 0 < γ) ∨ (¬ γ < 0 ∧ 0 < γ) ∨ (¬ γ < 0 ∧ ¬ 0 < γ) := by
    rcases lt_trichotomy γ 0 with c | c | c
    · exact Or.inl ⟨c, not_lt_of_gt c⟩
    · exact Or.inr (Or.inr (by rw [c]; simp))
    · exact Or.inr (Or.inl ⟨not_lt_of_gt c, c⟩)
  rcases lt_or_gt_of_ne h1 with a | a <;> rcases lt_or_gt_of_ne h2 with b | b <;>
    rcases lt_or_gt_of_ne h3 with a' | a' <;> rcases lt_or_gt_of_ne h4 with b' | b' <;>
    rcases hc with ⟨c, d⟩ | ⟨c, d⟩ | ⟨c, d⟩ <;>
    simp only [a, b, a', b', c, d, not_lt_of_gt a, not_lt_of_gt b, not_lt_of_gt a', not_lt_of_gt b',
      true_and, false_and, and_false, and_true, false_or, or_false, or_self, ind_true, ind_false,
      not_false_eq_true, trivial] <;>
    exfalso
  all_goals first
    | (exact d (hgp (by nlinarith)))
    | (exact c (hgn (by nlinarith)))
    | (exact hg (by nlinarith) (le_antisymm (not_lt.1 d) (not_lt.1 c)))

/-- number of sides that cross the ray -/
noncomputable def rayCount (p t : Pt K) (l : List (Seg K)) : ℕ := (l.map fun s => ind (RayCross p t s)).sum

/-- neither the line through `p` and `t` passes through a vertex, nor is `p` on a side -/
structure Generic (p t : Pt K) (l : List (Seg K)) : Prop where
  ends : ∀ s ∈ l, det3 p t s.i ≠ 0 ∧ det3 p t s.j ≠ 0
  off : ∀ s ∈ l, ¬ OnSeg s p

theorem sum_mod_congr {α : Type} (f g : α → ℕ) : ∀ (l : List α), (∀ x ∈ l, f x % 2 = g x % 2) →
    (l.map f).sum % 2 = (l.map g).sum % 2
  | [], _ => rfl
  | a :: l, h => by
    have h1 := h a List.mem_cons_self
    have h2 := sum_mod_congr f g l fun x hx => h x (List.mem_cons_of_mem _ hx)
    rw [List.map_cons, List.map_cons, List.sum_cons, List.sum_cons]
    omega

theorem sum_map_add' {α : Type} (f g : α → ℕ) (l : List α) :
    (l.map fun x => f x + g x).sum = (l.map f).sum + (l.map g).sum := List.sum_map_add

theorem rayCount_parity_pos {p t t' : Pt K} {l : List (Seg K)} (hc : ClosedChain l) (hd : 0 < det3 p t t')
    (g : Generic p t l) (g' : Generic p t' l) : rayCount p t l % 2 = rayCount p t' l % 2 := by
  have h1 := sum_mod_congr (fun s => ind (RayCross p t s) + ind (RayCross p t' s))
    (fun s : Seg K => ind (0 < det3 p t s.i ∧ det3 p t' s.i < 0) + ind (0 < det3 p t s.j ∧ det3 p t' s.j < 0)) l
    (fun s hs => wedge_parity p t t' s hd (g.ends s hs).1 (g.ends s hs).2 (g'.ends s hs).1 (g'.ends s hs).2 (g.off s hs))
  rw [sum_map_add', sum_map_add', sum_ends hc (fun v => ind (0 < det3 p t v ∧ det3 p t' v < 0))] at h1
  unfold rayCount
  omega

/-- the parity of the number of crossings does not depend on the target -/
theorem rayCount_parity {p t t' : Pt K} {l : List (Seg K)} (hc : ClosedChain l) (ht : p.x < t.x) (ht' : p.x < t'.x)
    (g : Generic p t l) (g' : Generic p t' l) : rayCount p t l % 2 = rayCount p t' l % 2 := by
  rcases lt_trichotomy (det3 p t t') 0 with h | h | h
  · have : 0 < det3 p t' t := by
      have : det3 p t' t = - det3 p t t' := by unfold det3; ring
      rw [this]; linarith
    exact (rayCount_parity_pos hc this g' g).symm
  · -- the same direction
    have hv : ∀ v : Pt K, (t.x - p.x) * det3 p t' v = (t'.x - p.x) * det3 p t v := by
      intro v
      have : (t.x - p.x) * det3 p t' v - (t'.x - p.x) * det3 p t v = det3 p t t' * -(v.x - p.x) := by
        unfold det3; ring
      rw [h, zero_mul] at this
      linear_combination this
    have hx : 0 < t.x - p.x := by linarith
    have hx' : 0 < t'.x - p.x := by linarith
    have hpos : ∀ v : Pt K, 0 < det3 p t' v ↔ 0 < det3 p t v := by
      intro v
      rw [← mul_pos_iff_of_pos_left hx, hv, mul_pos_iff_of_pos_left hx']
    have hneg : ∀ v : Pt K, det3 p t' v < 0 ↔ det3 p t v < 0 := by
      intro v
      constructor
      · intro h
        have := mul_neg_of_pos_of_neg hx h
        rw [hv] at this
        by_contra hc
        push Not at hc
        exact absurd (mul_nonneg hx'.le hc) (not_le.2 this)
      · intro h
        have := mul_neg_of_pos_of_neg hx' h
        rw [← hv] at this
        by_contra hc
        push Not at hc
        exact absurd (mul_nonneg hx.le hc) (not_le.2 this)
    have : rayCount p t' l = rayCount p t l := by
      unfold rayCount RayCross
      simp only [hpos, hneg]
    rw [this]
  · exact rayCount_parity_pos hc h g g'

/-! ### convex polygons -/

/-- the side passes from the right to the left of the line -/
def Up (p t : Pt K) (s : Seg K) : Prop := det3 p t s.i < 0 ∧ 0 < det3 p t s.j

/-- the side passes from the left to the right of the line -/
def Down (p t : Pt K) (s : Seg K) : Prop := 0 < det3 p t s.i ∧ det3 p t s.j < 0

theorem up_eq_down {p t : Pt K} {l : List (Seg K)} (hc : ClosedChain l)
    (g : ∀ s ∈ l, det3 p t s.i ≠ 0 ∧ det3 p t s.j ≠ 0) :
    (l.map fun s => ind (Up p t s)).sum = (l.map fun s => ind (Down p t s)).sum := by
  have h1 : (l.map fun s => ind (Up p t s) + ind (0 < det3 p t s.i)).sum =
      (l.map fun s => ind (Down p t s) + ind (0 < det3 p t s.j)).sum := by
    congr 1
    apply List.map_congr_left
    intro s hs
    unfold Up Down
    rcases lt_or_gt_of_ne (g s hs).1 with a | a <;> rcases lt_or_gt_of_ne (g s hs).2 with b | b <;>
      simp only [a, b, not_lt_of_gt a, not_lt_of_gt b, true_and, false_and, and_false, ind_true, ind_false,
        not_false_eq_true, trivial]
  rw [sum_map_add', sum_map_add', sum_ends hc (fun v => ind (0 < det3 p t v))] at h1
  omega

theorem _root_.Srep.ConvexCcw.left_j {l : List (Seg K)} (c : ConvexCcw l) {s o : Seg K} (hs : s ∈ l) (ho : o ∈ l) :
    o.j = s.i ∨ o.j = s.j ∨ 0 < det3 s.i s.j o.j := by
  have : o.j ∈ l.map Seg.i := (closedChain_perm c.chain).mem_iff.1 (List.mem_map_of_mem ho)
  obtain ⟨o', ho', e⟩ := List.mem_map.1 this
  rw [← e]
  exact c.left s hs o' ho'

theorem _root_.Srep.ConvexCcw.nonneg {l : List (Seg K)} (c : ConvexCcw l) {s o : Seg K} (hs : s ∈ l) (ho : o ∈ l) :
    0 ≤ det3 s.i s.j o.i ∧ 0 ≤ det3 s.i s.j o.j := by
  constructor
  · rcases c.left s hs o ho with h | h | h
    · rw [h, det3_self]
    · rw [h, det3_self']
    · exact h.le
  · rcases c.left_j hs ho with h | h | h
    · rw [h, det3_self]
    · rw [h, det3_self']
    · exact h.le

/-- the value of an affine function at the crossing point, times a positive factor -/
theorem cross_affine (a b p t : Pt K) (s : Seg K) :
    det3 p t s.j * det3 a b s.i - det3 p t s.i * det3 a b s.j =
      (det3 p t s.j - det3 p t s.i) * det3 a b p +
        det3 p s.i s.j * ((b.x - a.x) * (t.y - p.y) - (b.y - a.y) * (t.x - p.x)) := by
  unfold det3; ring

theorem eq_of_i {l : List (Seg K)} (hnd : (l.map Seg.i).Nodup) {s o : Seg K} (hs : s ∈ l) (ho : o ∈ l) (e : s.i = o.i) :
    s = o := List.inj_on_of_nodup_map hnd hs ho e

theorem up_unique {p t : Pt K} {l : List (Seg K)} (c : ConvexCcw l) {s o : Seg K} (hs : s ∈ l) (ho : o ∈ l)
    (us : Up p t s) (uo : Up p t o) : s = o := by
  obtain ⟨s1, s2⟩ := us
  obtain ⟨o1, o2⟩ := uo
  have hso := c.nonneg hs ho
  have hos := c.nonneg ho hs
  have e1 := cross_affine s.i s.j p t o
  have e2 := cross_affine o.i o.j p t s
  have d1 : (s.j.x - s.i.x) * (t.y - p.y) - (s.j.y - s.i.y) * (t.x - p.x) = -(det3 p t s.j - det3 p t s.i) := by
    unfold det3; ring
  have d2 : (o.j.x - o.i.x) * (t.y - p.y) - (o.j.y - o.i.y) * (t.x - p.x) = -(det3 p t o.j - det3 p t o.i) := by
    unfold det3; ring
  have g1 : det3 s.i s.j p = det3 p s.i s.j := by unfold det3; ring
  have g2 : det3 o.i o.j p = det3 p o.i o.j := by unfold det3; ring
  rw [d1, g1] at e1
  rw [d2, g2] at e2
  have n1 : 0 ≤ det3 p t o.j * det3 s.i s.j o.i := mul_nonneg o2.le hso.1
  have n2 : 0 ≤ -det3 p t o.i * det3 s.i s.j o.j := mul_nonneg (by linarith) hso.2
  have n3 : 0 ≤ det3 p t s.j * det3 o.i o.j s.i := mul_nonneg s2.le hos.1
  have n4 : 0 ≤ -det3 p t s.i * det3 o.i o.j s.j := mul_nonneg (by linarith) hos.2
  have z1 : det3 p t o.j * det3 s.i s.j o.i = 0 := by linarith
  have z : det3 s.i s.j o.i = 0 := (mul_eq_zero.1 z1).resolve_left o2.ne'
  rcases c.left s hs o ho with h | h | h
  · exact (eq_of_i c.nodup ho hs h).symm
  · rw [h] at o1; exact absurd o1 (not_lt_of_gt s2)
  · rw [z] at h; exact absurd h (lt_irrefl _)

theorem down_unique {p t : Pt K} {l : List (Seg K)} (c : ConvexCcw l) {s o : Seg K} (hs : s ∈ l) (ho : o ∈ l)
    (us : Down p t s) (uo : Down p t o) : s = o := by
  obtain ⟨s1, s2⟩ := us
  obtain ⟨o1, o2⟩ := uo
  have hso := c.nonneg hs ho
  have hos := c.nonneg ho hs
  have e1 := cross_affine s.i s.j p t o
  have e2 := cross_affine o.i o.j p t s
  have d1 : (s.j.x - s.i.x) * (t.y - p.y) - (s.j.y - s.i.y) * (t.x - p.x) = -(det3 p t s.j - det3 p t s.i) := by
    unfold det3; ring
  have d2 : (o.j.x - o.i.x) * (t.y - p.y) - (o.j.y - o.i.y) * (t.x - p.x) = -(det3 p t o.j - det3 p t o.i) := by
    unfold det3; ring
  have g1 : det3 s.i s.j p = det3 p s.i s.j := by unfold det3; ring
  have g2 : det3 o.i o.j p = det3 p o.i o.j := by unfold det3; ring
  rw [d1, g1] at e1
  rw [d2, g2] at e2
  have n1 : 0 ≤ -det3 p t o.j * det3 s.i s.j o.i := mul_nonneg (by linarith) hso.1
  have n2 : 0 ≤ det3 p t o.i * det3 s.i s.j o.j := mul_nonneg o1.le hso.2
  have n3 : 0 ≤ -det3 p t s.j * det3 o.i o.j s.i := mul_nonneg (by linarith) hos.1
  have n4 : 0 ≤ det3 p t s.i * det3 o.i o.j s.j := mul_nonneg s1.le hos.2
  have z1 : det3 p t o.j * det3 s.i s.j o.i = 0 := by linarith
  have z : det3 s.i s.j o.i = 0 := (mul_eq_zero.1 z1).resolve_left o2.ne
  rcases c.left s hs o ho with h | h | h
  · exact (eq_of_i c.nodup ho hs h).symm
  · rw [h] at o1; exact absurd o1 (not_lt_of_gt s2)
  · rw [z] at h; exact absurd h (lt_irrefl _)

theorem sum_ind_eq_zero {α : Type} {P : α → Prop} {l : List α} : (l.map fun x => ind (P x)).sum = 0 ↔ ∀ x ∈ l, ¬ P x := by
  induction l with
  | nil => simp
  | cons a l ih =>
    rw [List.map_cons, List.sum_cons, Nat.add_eq_zero_iff, ih]
    constructor
    · rintro ⟨h1, h2⟩ x hx
      rcases List.mem_cons.1 hx with rfl | hx
      · intro hp; rw [ind_true hp] at h1; cases h1
      · exact h2 x hx
    · intro h
      exact ⟨ind_false (h a List.mem_cons_self), fun x hx => h x (List.mem_cons_of_mem _ hx)⟩

theorem sum_ind_eq_one {α : Type} {P : α → Prop} {l : List α} (hnd : l.Nodup) {a : α} (ha : a ∈ l) (hP : P a)
    (hu : ∀ x ∈ l, P x → x = a) : (l.map fun x => ind (P x)).sum = 1 := by
  induction l with
  | nil => simp at ha
  | cons b l ih =>
    rw [List.nodup_cons] at hnd
    rw [List.map_cons, List.sum_cons]
    by_cases hb : P b
    · have hba := hu b List.mem_cons_self hb
      subst hba
      have : (l.map fun x => ind (P x)).sum = 0 := by
        rw [sum_ind_eq_zero]
        intro x hx hPx
        have := hu x (List.mem_cons_of_mem _ hx) hPx
        subst this
        exact hnd.1 hx
      rw [this, ind_true hb]
    · have : a ∈ l := by
        rcases List.mem_cons.1 ha with rfl | h
        · exact absurd hP hb
        · exact h
      rw [ind_false hb, ih hnd.2 this fun x hx => hu x (List.mem_cons_of_mem _ hx)]

theorem _root_.Srep.ConvexCcw.nodup' {l : List (Seg K)} (c : ConvexCcw l) : l.Nodup := List.Nodup.of_map _ c.nodup

/-- the number of passing sides of either kind is 0 or 1 -/
theorem pass_cases {p t : Pt K} {l : List (Seg K)} (c : ConvexCcw l)
    (g : ∀ s ∈ l, det3 p t s.i ≠ 0 ∧ det3 p t s.j ≠ 0) :
    (∀ s ∈ l, ¬ Up p t s ∧ ¬ Down p t s) ∨
    ∃ a ∈ l, ∃ b ∈ l, Up p t a ∧ Down p t b ∧ (∀ s ∈ l, Up p t s → s = a) ∧ ∀ s ∈ l, Down p t s → s = b := by
  have h := up_eq_down c.chain g
  by_cases hu : ∃ a ∈ l, Up p t a
  · obtain ⟨a, ha, hua⟩ := hu
    right
    have : ¬ ∀ s ∈ l, ¬ Down p t s := by
      intro hd
      rw [sum_ind_eq_zero.2 hd, sum_ind_eq_zero] at h
      exact h a ha hua
    push Not at this
    obtain ⟨b, hb, hdb⟩ := this
    exact ⟨a, ha, b, hb, hua, hdb, fun s hs us => up_unique c hs ha us hua, fun s hs ds => down_unique c hs hb ds hdb⟩
  · left
    push Not at hu
    rw [sum_ind_eq_zero.2 hu] at h
    exact fun s hs => ⟨hu s hs, (sum_ind_eq_zero.1 h.symm) s hs⟩

theorem rayCross_iff_pass {p t : Pt K} {s : Seg K} : RayCross p t s ↔
    (Up p t s ∧ 0 < det3 p s.i s.j) ∨ (Down p t s ∧ det3 p s.i s.j < 0) := by
  unfold RayCross Up Down
  constructor
  · rintro (⟨a, b, c⟩ | ⟨a, b, c⟩)
    · exact Or.inl ⟨⟨a, b⟩, c⟩
    · exact Or.inr ⟨⟨a, b⟩, c⟩
  · rintro (⟨⟨a, b⟩, c⟩ | ⟨⟨a, b⟩, c⟩)
    · exact Or.inl ⟨a, b, c⟩
    · exact Or.inr ⟨a, b, c⟩

theorem all_one_side {p t : Pt K} {l : List (Seg K)} (hc : ClosedChain l)
    (g : ∀ s ∈ l, det3 p t s.i ≠ 0 ∧ det3 p t s.j ≠ 0) (hn : ∀ s ∈ l, ¬ Up p t s ∧ ¬ Down p t s) :
    (∀ s ∈ l, 0 < det3 p t s.i ∧ 0 < det3 p t s.j) ∨ ∀ s ∈ l, det3 p t s.i < 0 ∧ det3 p t s.j < 0 := by
  have one : ∀ s ∈ l, (0 < det3 p t s.i ↔ 0 < det3 p t s.j) := by
    intro s hs
    obtain ⟨h1, h2⟩ := hn s hs
    unfold Up at h1
    unfold Down at h2
    rcases lt_or_gt_of_ne (g s hs).1 with a | a <;> rcases lt_or_gt_of_ne (g s hs).2 with b | b
    · simp [not_lt_of_gt a, not_lt_of_gt b]
    · exact absurd ⟨a, b⟩ h1
    · exact absurd ⟨a, b⟩ h2
    · simp [a, b]
  have hk : ∀ (k : ℕ) (hk : k < l.length), ((0 : K) < det3 p t l[k].i ↔ (0 : K) < det3 p t (l[0]'(by omega)).i) := by
    intro k
    induction k with
    | zero => intro _; rfl
    | succ k ih =>
      intro hk
      have h1 := hc k (by omega)
      simp only [Nat.mod_eq_of_lt hk] at h1
      rw [← h1, ← one _ (List.getElem_mem (by omega)), ih (by omega)]
  by_cases h0 : ∃ s ∈ l, 0 < det3 p t s.i
  · left
    obtain ⟨s, hs, h⟩ := h0
    obtain ⟨k, hk', rfl⟩ := List.mem_iff_getElem.1 hs
    intro o ho
    obtain ⟨m, hm, rfl⟩ := List.mem_iff_getElem.1 ho
    have := (hk m hm).2 ((hk k hk').1 h)
    exact ⟨this, (one _ ho).1 this⟩
  · right
    push Not at h0
    intro s hs
    have h1 := lt_of_le_of_ne (h0 s hs) (g s hs).1
    refine ⟨h1, ?_⟩
    rcases lt_or_gt_of_ne (g s hs).2 with b | b
    · exact b
    · exact absurd ((one s hs).2 b) (not_lt_of_gt h1)

theorem sum_neg_of_neg {l : List K} (hne : l ≠ []) (h : ∀ x ∈ l, x < 0) : l.sum < 0 := by
  induction l with
  | nil => exact absurd rfl hne
  | cons a l ih =>
    rw [List.sum_cons]
    have ha := h a List.mem_cons_self
    by_cases hl : l = []
    · subst hl; simpa using ha
    · have := ih hl fun x hx => h x (List.mem_cons_of_mem _ hx)
      linarith

theorem sum_map_sub' {α : Type} (f g : α → K) (l : List α) :
    (l.map fun x => f x - g x).sum = (l.map f).sum - (l.map g).sum := by
  induction l with
  | nil => simp
  | cons a l ih => simp only [List.map_cons, List.sum_cons, ih]; ring

/-- inside of a polygon that turns around `p` not all vertices are on one side of the line -/
theorem not_one_side {p t : Pt K} {l : List (Seg K)} (hc : ClosedChain l) (hne : l ≠ []) (htp : p.x < t.x)
    (hin : ∀ s ∈ l, 0 < det3 p s.i s.j)
    (h : (∀ s ∈ l, 0 < det3 p t s.i ∧ 0 < det3 p t s.j) ∨ ∀ s ∈ l, det3 p t s.i < 0 ∧ det3 p t s.j < 0) : False := by
  set D2 := (t.x - p.x) * (t.x - p.x) + (t.y - p.y) * (t.y - p.y) with hD2
  have hD : 0 < D2 := by
    have : 0 < t.x - p.x := by linarith
    have := mul_pos this this
    nlinarith [mul_self_nonneg (t.y - p.y)]
  set dot : Pt K → K := fun v => (t.x - p.x) * (v.x - p.x) + (t.y - p.y) * (v.y - p.y) with hdot
  have hid : ∀ s : Seg K, dot s.i * det3 p t s.j - dot s.j * det3 p t s.i = D2 * det3 p s.i s.j := by
    intro s; rw [hdot, hD2]; unfold det3; dsimp only; ring
  have hsum := sum_ends hc (fun v => dot v / det3 p t v)
  have hneg : (l.map fun s => dot s.j / det3 p t s.j - dot s.i / det3 p t s.i).sum < 0 := by
    apply sum_neg_of_neg
    · simpa using hne
    · intro x hx
      obtain ⟨s, hs, rfl⟩ := List.mem_map.1 hx
      have h1 : 0 < det3 p t s.j * det3 p t s.i := by
        rcases h with h | h
        · exact mul_pos (h s hs).2 (h s hs).1
        · exact mul_pos_of_neg_of_neg (h s hs).2 (h s hs).1
      have ha : det3 p t s.i ≠ 0 := by rintro e; rw [e, mul_zero] at h1; exact lt_irrefl _ h1
      have hb : det3 p t s.j ≠ 0 := by rintro e; rw [e, zero_mul] at h1; exact lt_irrefl _ h1
      rw [div_sub_div _ _ hb ha]
      apply div_neg_of_neg_of_pos _ h1
      have := hid s
      have := mul_pos hD (hin s hs)
      linarith
  rw [sum_map_sub'] at hneg
  rw [hsum] at hneg
  linarith

/-- the ray from a point inside crosses exactly one side -/
theorem rayCount_inside {p t : Pt K} {l : List (Seg K)} (c : ConvexCcw l) (hne : l ≠ []) (htp : p.x < t.x)
    (g : ∀ s ∈ l, det3 p t s.i ≠ 0 ∧ det3 p t s.j ≠ 0) (hin : InsideCcw l p) : rayCount p t l = 1 := by
  have hg : ∀ s ∈ l, 0 < det3 p s.i s.j := by
    intro s hs
    have := hin s hs
    rw [det3_rot, det3_rot] at this
    exact this
  rcases pass_cases c g with h | ⟨a, ha, b, hb, ua, db, hau, hbu⟩
  · exact absurd (all_one_side c.chain g h) fun h => not_one_side c.chain hne htp hg h
  · unfold rayCount
    apply sum_ind_eq_one c.nodup' ha
    · exact rayCross_iff_pass.2 (Or.inl ⟨ua, hg a ha⟩)
    · intro s hs hx
      rcases rayCross_iff_pass.1 hx with ⟨h1, -⟩ | ⟨-, h2⟩
      · exact hau s hs h1
      · exact absurd (hg s hs) (not_lt_of_gt h2)

/-- the ray from a point outside crosses an even number of sides -/
theorem rayCount_outside {p t : Pt K} {l : List (Seg K)} (c : ConvexCcw l)
    (g : ∀ s ∈ l, det3 p t s.i ≠ 0 ∧ det3 p t s.j ≠ 0) (hout : OutsideCcw l p) : rayCount p t l % 2 = 0 := by
  rcases pass_cases c g with h | ⟨a, ha, b, hb, ua, db, hau, hbu⟩
  · have : rayCount p t l = 0 := by
      unfold rayCount
      rw [sum_ind_eq_zero]
      intro s hs hx
      rcases rayCross_iff_pass.1 hx with ⟨h1, -⟩ | ⟨h1, -⟩
      · exact (h s hs).1 h1
      · exact (h s hs).2 h1
    rw [this]
  · obtain ⟨e, he, hp⟩ := hout
    have e1 := cross_affine e.i e.j p t a
    have e2 := cross_affine e.i e.j p t b
    obtain ⟨a1, a2⟩ := ua
    obtain ⟨b1, b2⟩ := db
    have na := c.nonneg he ha
    have nb := c.nonneg he hb
    set ℓ := (e.j.x - e.i.x) * (t.y - p.y) - (e.j.y - e.i.y) * (t.x - p.x) with hℓ
    have p1 : 0 ≤ det3 p t a.j * det3 e.i e.j a.i := mul_nonneg a2.le na.1
    have p2 : 0 ≤ -det3 p t a.i * det3 e.i e.j a.j := mul_nonneg (by linarith) na.2
    have p3 : 0 ≤ -det3 p t b.j * det3 e.i e.j b.i := mul_nonneg (by linarith) nb.1
    have p4 : 0 ≤ det3 p t b.i * det3 e.i e.j b.j := mul_nonneg b1.le nb.2
    have q1 : 0 < (det3 p t a.j - det3 p t a.i) * -det3 e.i e.j p := mul_pos (by linarith) (by linarith)
    have q2 : 0 < (det3 p t b.i - det3 p t b.j) * -det3 e.i e.j p := mul_pos (by linarith) (by linarith)
    have s1 : 0 < det3 p a.i a.j * ℓ := by linarith
    have s2 : det3 p b.i b.j * ℓ < 0 := by linarith
    have hsum : rayCount p t l = (l.map fun s => ind (Up p t s ∧ 0 < det3 p s.i s.j)).sum +
        (l.map fun s => ind (Down p t s ∧ det3 p s.i s.j < 0)).sum := by
      rw [← sum_map_add']
      unfold rayCount
      congr 1
      apply List.map_congr_left
      intro s _
      by_cases h1 : Up p t s ∧ 0 < det3 p s.i s.j
      · have h2 : ¬ (Down p t s ∧ det3 p s.i s.j < 0) := fun h => not_lt_of_gt h1.2 h.2
        rw [ind_true h1, ind_false h2, ind_true (rayCross_iff_pass.2 (Or.inl h1))]
      · by_cases h2 : Down p t s ∧ det3 p s.i s.j < 0
        · rw [ind_false h1, ind_true h2, ind_true (rayCross_iff_pass.2 (Or.inr h2))]
        · rw [ind_false h1, ind_false h2, ind_false fun h => (rayCross_iff_pass.1 h).elim h1 h2]
    rcases lt_trichotomy ℓ 0 with hl | hl | hl
    · have ga : det3 p a.i a.j < 0 := by
        by_contra hc; push Not at hc
        exact absurd (mul_nonpos_of_nonneg_of_nonpos hc hl.le) (not_le.2 s1)
      have gb : 0 < det3 p b.i b.j := by
        by_contra hc; push Not at hc
        exact absurd (mul_nonneg_of_nonpos_of_nonpos hc hl.le) (not_le.2 s2)
      rw [hsum, sum_ind_eq_zero.2, sum_ind_eq_zero.2]
      · rintro s hs ⟨h1, h2⟩
        rw [hbu s hs h1] at h2
        exact not_lt_of_gt gb h2
      · rintro s hs ⟨h1, h2⟩
        rw [hau s hs h1] at h2
        exact not_lt_of_gt ga h2
    · rw [hl, mul_zero] at s1; exact absurd s1 (lt_irrefl _)
    · have ga : 0 < det3 p a.i a.j := by
        by_contra hc; push Not at hc
        exact absurd (mul_nonpos_of_nonpos_of_nonneg hc hl.le) (not_le.2 s1)
      have gb : det3 p b.i b.j < 0 := by
        by_contra hc; push Not at hc
        exact absurd (mul_nonneg hc hl.le) (not_le.2 s2)
      rw [hsum, sum_ind_eq_one c.nodup' ha ⟨⟨a1, a2⟩, ga⟩ fun s hs h => hau s hs h.1,
        sum_ind_eq_one c.nodup' hb ⟨⟨b1, b2⟩, gb⟩ fun s hs h => hbu s hs h.1]

end Srep.Ray
