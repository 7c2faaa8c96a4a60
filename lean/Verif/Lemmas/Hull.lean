import Verif.Model.Polygon
import Verif.Lemmas.Exact
import Mathlib.Tactic.Linarith
import Mathlib.Tactic.Ring
import Mathlib.Tactic.Positivity
import Mathlib.Tactic.LinearCombination

/-! The monotone chain construction of `convex_hull`, in exact arithmetic. -/

set_option linter.unusedSectionVars false

namespace Srep
variable {K : Type} [Field K] [LinearOrder K] [IsStrictOrderedRing K]

/-- determinant of o→a and o→b -/
def pdet (o a b : K × K) : K := (a.1 - o.1) * (b.2 - o.2) - (a.2 - o.2) * (b.1 - o.1)

/-- lexicographically smaller -/
def pairLt (p q : K × K) : Prop := p.1 < q.1 ∨ (p.1 = q.1 ∧ p.2 < q.2)

theorem pairLt.trans {p q r : K × K} (h1 : pairLt p q) (h2 : pairLt q r) : pairLt p r := by
  unfold pairLt at *
  rcases h1 with h1 | ⟨h1, h1'⟩ <;> rcases h2 with h2 | ⟨h2, h2'⟩
  · left; linarith
  · left; linarith
  · left; linarith
  · right; exact ⟨by linarith, by linarith⟩

theorem pairLt.irrefl (p : K × K) : ¬ pairLt p p := by
  unfold pairLt; rintro (h | ⟨-, h⟩) <;> exact lt_irrefl _ h

theorem pairLt.ne {p q : K × K} (h : pairLt p q) : p ≠ q := by
  rintro rfl; exact pairLt.irrefl _ h

theorem pairLt_trichotomy (p q : K × K) : pairLt p q ∨ p = q ∨ pairLt q p := by
  unfold pairLt
  rcases lt_trichotomy p.1 q.1 with h | h | h
  · exact Or.inl (Or.inl h)
  · rcases lt_trichotomy p.2 q.2 with h' | h' | h'
    · exact Or.inl (Or.inr ⟨h, h'⟩)
    · exact Or.inr (Or.inl (Prod.ext h h'))
    · exact Or.inr (Or.inr (Or.inr ⟨h.symm, h'⟩))
  · exact Or.inr (Or.inr (Or.inl h))

/-- vectors in the right half plane (upper half of its border included) -/
def Pos (x y : K) : Prop := 0 < x ∨ (x = 0 ∧ 0 < y)

theorem pairLt_pos {p q : K × K} : pairLt p q ↔ Pos (q.1 - p.1) (q.2 - p.2) := by
  unfold pairLt Pos
  constructor
  · rintro (h | ⟨h, h'⟩)
    · left; linarith
    · right; exact ⟨by linarith, by linarith⟩
  · rintro (h | ⟨h, h'⟩)
    · left; linarith
    · right; exact ⟨by linarith, by linarith⟩

theorem turn_trans_weak {ux uy vx vy wx wy : K} (hu : Pos ux uy) (hv : Pos vx vy) (hw : Pos wx wy)
    (h1 : 0 ≤ ux * vy - uy * vx) (h2 : 0 ≤ vx * wy - vy * wx) : 0 ≤ ux * wy - uy * wx := by
  have hux : 0 ≤ ux := by rcases hu with h | ⟨h, -⟩ <;> linarith
  have hwx : 0 ≤ wx := by rcases hw with h | ⟨h, -⟩ <;> linarith
  rcases hv with hv | ⟨hv, hv'⟩
  · have e : (ux * wy - uy * wx) * vx = (ux * vy - uy * vx) * wx + (vx * wy - vy * wx) * ux := by ring
    have : 0 ≤ (ux * wy - uy * wx) * vx := by
      rw [e]; exact add_nonneg (mul_nonneg h1 hwx) (mul_nonneg h2 hux)
    exact nonneg_of_mul_nonneg_left this hv
  · rw [hv] at h2
    have : wx = 0 := by
      have : vy * wx ≤ 0 := by linarith
      exact le_antisymm (nonpos_of_mul_nonpos_right this hv') hwx
    rw [this]
    rcases hw with h | ⟨-, h⟩
    · linarith
    · have := mul_nonneg hux h.le; linarith

theorem turn_trans {ux uy vx vy wx wy : K} (hu : Pos ux uy) (hv : Pos vx vy) (hw : Pos wx wy)
    (h1 : 0 < ux * vy - uy * vx) (h2 : 0 < vx * wy - vy * wx) : 0 < ux * wy - uy * wx := by
  have hux : 0 ≤ ux := by rcases hu with h | ⟨h, -⟩ <;> linarith
  have hwx : 0 ≤ wx := by rcases hw with h | ⟨h, -⟩ <;> linarith
  rcases hv with hv | ⟨hv, hv'⟩
  · have e : (ux * wy - uy * wx) * vx = (ux * vy - uy * vx) * wx + (vx * wy - vy * wx) * ux := by ring
    have hux' : 0 < ux := by
      rcases hu with h | ⟨h, h'⟩
      · exact h
      · rw [h] at h1
        have := mul_pos h' hv
        linarith
    have : 0 < (ux * wy - uy * wx) * vx := by
      rw [e]
      exact add_pos_of_nonneg_of_pos (mul_nonneg h1.le hwx) (mul_pos h2 hux')
    exact pos_of_mul_pos_left this hv.le
  · rw [hv] at h2
    have := mul_nonneg hv'.le hwx
    linarith

/-- a stack of `convex_hull` (top first) for the processed points `S`: increasing from bottom to top, the bottom
is the smallest point, every edge has all processed points on its left or on it, all turns are left -/
def HullInv (S : List (K × K)) : List (K × K) → Prop
  | [] => True
  | [a] => ∀ q ∈ S, ¬ pairLt q a
  | b :: a :: l => pairLt a b ∧ (∀ q ∈ S, 0 ≤ pdet a b q) ∧ (∀ z ∈ l.head?, 0 < pdet z a b) ∧
    HullInv S (a :: l)

theorem HullInv.tail {S : List (K × K)} {a : K × K} {l : List (K × K)} (h : HullInv S (a :: l)) :
    HullInv S l := by
  cases l with
  | nil => trivial
  | cons b l => exact h.2.2.2

/-- adding a point to the right of the top that turns left at the top keeps the invariant below -/
theorem HullInv.extend {S : List (K × K)} {p : K × K} : ∀ (l : List (K × K)) (o : K × K),
    HullInv S (o :: l) → pairLt o p → (∀ z ∈ l.head?, 0 < pdet z o p) → HullInv (p :: S) (o :: l)
  | [], o, h, hp, _ => by
    intro q hq
    rcases List.mem_cons.1 hq with rfl | hq
    · exact fun hc => pairLt.irrefl _ (hc.trans hp)
    · exact h q hq
  | z :: l, o, h, hp, ht => by
    obtain ⟨h1, h2, h3, h4⟩ := h
    have htz : 0 < pdet z o p := ht z (by simp)
    refine ⟨h1, ?_, h3, ?_⟩
    · intro q hq
      rcases List.mem_cons.1 hq with rfl | hq
      · exact htz.le
      · exact h2 q hq
    · apply HullInv.extend l z h4 (h1.trans hp)
      intro y hy
      have hyzo := h3 y hy
      cases l with
      | nil => simp at hy
      | cons y' l =>
        simp only [List.head?_cons, Option.mem_def, Option.some.injEq] at hy
        subst hy
        obtain ⟨g1, -, -, -⟩ := h4
        have t := turn_trans (pairLt_pos.1 g1) (pairLt_pos.1 h1) (pairLt_pos.1 hp)
          (by unfold pdet at hyzo; linear_combination hyzo)
          (by unfold pdet at htz; linear_combination htz)
        unfold pdet at hyzo ⊢
        linear_combination hyzo + t

variable [FloorRing K]

theorem hullCross_exact {R : Rt K} (hE : R.IsExact) (o a b : K × K) : R.hullCross o a b = pdet o a b := by
  unfold Rt.hullCross pdet
  simp only [hE.sub', hE.mul']

/-- the popping loop: what remains is a nonempty lower part of the stack, with the last popped point on or
to the right of the new edge -/
theorem hullPop_inv {R : Rt K} (hE : ∀ o a b, R.hullCross o a b = pdet o a b) {S : List (K × K)} {p : K × K}
    (hS : ∀ q ∈ S, pairLt q p) : ∀ (l : List (K × K)) (o : K × K), HullInv S (o :: l) →
    (∀ q ∈ o :: l, q ∈ S) → (∀ q ∈ S, ¬ pairLt q o → 0 ≤ pdet o p q) →
    ∃ o' l', R.hullPop p (o :: l) = o' :: l' ∧ (o' :: l') <:+ (o :: l) ∧ HullInv S (o' :: l') ∧
      (∀ z ∈ l'.head?, 0 < pdet z o' p) ∧ ∀ q ∈ S, ¬ pairLt q o' → 0 ≤ pdet o' p q
  | [], o, h, _, ht => ⟨o, [], rfl, List.suffix_refl _, h, by simp, ht⟩
  | z :: l, o, h, hm, ht => by
    unfold Rt.hullPop
    rw [hE]
    split_ifs with hc
    · have hz : ∀ q ∈ S, ¬ pairLt q z → 0 ≤ pdet z p q := by
        intro q hq hqz
        by_cases hqe : q = z
        · subst hqe; unfold pdet; linarith
        · have hzq : pairLt z q := by
            rcases pairLt_trichotomy q z with h' | h' | h'
            · exact absurd h' hqz
            · exact absurd h' hqe
            · exact h'
          have e1 := h.2.1 q hq
          have := turn_trans_weak (pairLt_pos.1 (hS z (hm z (by simp)))) (pairLt_pos.1 h.1)
            (pairLt_pos.1 hzq) (by unfold pdet at hc; linarith) (by unfold pdet at e1; linarith)
          unfold pdet; exact this
      obtain ⟨o', l', g1, g2, g3⟩ := hullPop_inv hE hS l z h.2.2.2 (fun q hq => hm q (by simp [hq])) hz
      exact ⟨o', l', g1, g2.trans (List.suffix_cons _ _), g3⟩
    · refine ⟨o, z :: l, rfl, List.suffix_refl _, h, ?_, ht⟩
      intro y hy
      simp only [List.head?_cons, Option.mem_def, Option.some.injEq] at hy
      subst hy
      exact lt_of_not_ge hc

/-- one step: the next point (to the right of all processed ones) is pushed after popping -/
theorem hullStep_inv {R : Rt K} (hE : ∀ o a b, R.hullCross o a b = pdet o a b) {S : List (K × K)} {p : K × K}
    (hS : ∀ q ∈ S, pairLt q p) (l : List (K × K)) (o : K × K) (h : HullInv S (o :: l))
    (hm : ∀ q ∈ o :: l, q ∈ S) (hmax : ∀ q ∈ S, ¬ pairLt o q) :
    HullInv (p :: S) (p :: R.hullPop p (o :: l)) ∧ (∀ q ∈ R.hullPop p (o :: l), q ∈ S) ∧
      (R.hullPop p (o :: l)).getLast? = (o :: l).getLast? := by
  have ht : ∀ q ∈ S, ¬ pairLt q o → 0 ≤ pdet o p q := by
    intro q hq hqo
    have : q = o := by
      rcases pairLt_trichotomy q o with h' | h' | h'
      · exact absurd h' hqo
      · exact h'
      · exact absurd h' (hmax q hq)
    subst this
    unfold pdet; linarith
  obtain ⟨o', l', h1, h2, h3, h4, h5⟩ := hullPop_inv hE hS l o h hm ht
  rw [h1]
  have hmem : ∀ q ∈ o' :: l', q ∈ S := fun q hq => hm q (h2.subset hq)
  have ho' : o' ∈ S := hmem o' (by simp)
  refine ⟨⟨hS o' ho', ?_, h4, ?_⟩, hmem, ?_⟩
  · intro q hq
    rcases List.mem_cons.1 hq with rfl | hq
    · unfold pdet; linarith
    · by_cases hqo : pairLt q o'
      · cases l' with
        | nil => exact absurd hqo (h3 q hq)
        | cons z l' =>
          have hz := h4 z (by simp)
          have e1 := h3.2.1 q hq
          have := turn_trans_weak (pairLt_pos.1 hqo) (pairLt_pos.1 h3.1) (pairLt_pos.1 (hS o' ho'))
            (by unfold pdet at e1; linarith) (by unfold pdet at hz; linarith)
          unfold pdet; linarith
      · exact h5 q hq hqo
  · exact HullInv.extend l' o' h3 (hS o' ho') h4
  · obtain ⟨t, ht⟩ := h2
    rw [← ht, List.getLast?_append_of_ne_nil]
    simp

/-- half a hull of an increasing sequence of points -/
theorem hullHalf_fold {R : Rt K} (hE : ∀ o a b, R.hullCross o a b = pdet o a b) : ∀ (ps S : List (K × K)) (o : K × K) (l : List (K × K)),
    ps.Pairwise pairLt → (∀ q ∈ S, ∀ p ∈ ps, pairLt q p) → HullInv S (o :: l) → (∀ q ∈ o :: l, q ∈ S) →
    (∀ q ∈ S, ¬ pairLt o q) →
    ∃ o' l', ps.foldl (fun st p => p :: R.hullPop p st) (o :: l) = o' :: l' ∧
      HullInv (ps.reverse ++ S) (o' :: l') ∧ (∀ q ∈ o' :: l', q ∈ ps.reverse ++ S) ∧
      (∀ q ∈ ps.reverse ++ S, ¬ pairLt o' q) ∧ (o' :: l').getLast? = (o :: l).getLast? ∧
      o' ∈ ps.reverse ++ S
  | [], S, o, l, _, _, h, hm, hmax => by
    exact ⟨o, l, rfl, by simpa using h, by simpa using hm, by simpa using hmax, rfl, by simpa using hm o (by simp)⟩
  | p :: ps, S, o, l, hs, hS, h, hm, hmax => by
    obtain ⟨hp, hs'⟩ := List.pairwise_cons.1 hs
    have hSp : ∀ q ∈ S, pairLt q p := fun q hq => hS q hq p (by simp)
    obtain ⟨g1, g2, g3⟩ := hullStep_inv hE hSp l o h hm hmax
    have hmax' : ∀ q ∈ p :: S, ¬ pairLt p q := by
      intro q hq hc
      rcases List.mem_cons.1 hq with rfl | hq
      · exact pairLt.irrefl _ hc
      · exact pairLt.irrefl _ ((hSp q hq).trans hc)
    have hS' : ∀ q ∈ p :: S, ∀ r ∈ ps, pairLt q r := by
      intro q hq r hr
      rcases List.mem_cons.1 hq with rfl | hq
      · exact hp r hr
      · exact hS q hq r (by simp [hr])
    have hmem : ∀ q ∈ p :: R.hullPop p (o :: l), q ∈ p :: S := by
      intro q hq
      rcases List.mem_cons.1 hq with rfl | hq
      · simp
      · exact List.mem_cons_of_mem _ (g2 q hq)
    obtain ⟨o', l', k1, k2, k3, k4, k5, k6⟩ := hullHalf_fold hE ps (p :: S) p _ hs' hS' g1 hmem hmax'
    have hne : R.hullPop p (o :: l) ≠ [] := by
      intro e
      rw [e, List.getLast?_eq_some_getLast (l := o :: l) (by simp)] at g3
      simp at g3
    refine ⟨o', l', k1, by simpa using k2, by simpa using k3, by simpa using k4, ?_, by simpa using k6⟩
    rw [k5, ← g3]
    cases hc : R.hullPop p (o :: l) with
    | nil => exact absurd hc hne
    | cons a t => rw [List.getLast?_cons_cons]

/-- half a hull of an increasing sequence -/
theorem hullHalf_inv {R : Rt K} (hE : ∀ o a b, R.hullCross o a b = pdet o a b) (a : K × K) (ps : List (K × K))
    (hs : (a :: ps).Pairwise pairLt) :
    HullInv (a :: ps) (R.hullHalf (a :: ps)) ∧ (∀ q ∈ R.hullHalf (a :: ps), q ∈ a :: ps) ∧
    (R.hullHalf (a :: ps)).getLast? = some a ∧ (R.hullHalf (a :: ps)).head? = (a :: ps).getLast? := by
  have hs' := List.pairwise_cons.1 hs
  obtain ⟨o', l', k1, k2, k3, k4, k5, k6⟩ := hullHalf_fold hE ps [a] a [] hs'.2
    (by intro q hq p hp; rw [List.mem_singleton] at hq; rw [hq]; exact hs'.1 p hp)
    (by intro q hq; rw [List.mem_singleton] at hq; rw [hq]; exact pairLt.irrefl _)
    (by simp) (by intro q hq; rw [List.mem_singleton] at hq; rw [hq]; exact pairLt.irrefl _)
  have e : R.hullHalf (a :: ps) = o' :: l' := by
    unfold Rt.hullHalf
    rw [List.foldl_cons]
    exact k1
  have hmem : ∀ q, q ∈ ps.reverse ++ [a] ↔ q ∈ a :: ps := by
    intro q; simp [or_comm]
  have mono : ∀ (l : List (K × K)), HullInv (ps.reverse ++ [a]) l → HullInv (a :: ps) l := by
    intro l
    induction l with
    | nil => intro _; trivial
    | cons b l ih =>
      intro h
      cases l with
      | nil => intro q hq; exact h q ((hmem q).2 hq)
      | cons c l =>
        exact ⟨h.1, fun q hq => h.2.1 q ((hmem q).2 hq), h.2.2.1, ih h.2.2.2⟩
  rw [e]
  refine ⟨mono _ k2, fun q hq => (hmem q).1 (k3 q hq), by rw [k5]; rfl, ?_⟩
  have hlast : ∃ m, (a :: ps).getLast? = some m := ⟨_, List.getLast?_eq_some_getLast (by simp)⟩
  obtain ⟨m, hm⟩ := hlast
  rw [hm, List.head?_cons]
  congr 1
  have hmm := List.mem_of_getLast? hm
  have ho : o' ∈ a :: ps := (hmem _).1 k6
  rcases pairLt_trichotomy o' m with h' | h' | h'
  · exact absurd h' (k4 m ((hmem m).2 hmm))
  · exact h'
  · exfalso
    -- m is the last element of an increasing sequence
    have hl : ∀ q ∈ a :: ps, q = m ∨ pairLt q m := by
      obtain ⟨init, hin⟩ : ∃ init, a :: ps = init ++ [m] := by
        rw [List.getLast?_eq_some_iff] at hm; exact hm
      rw [hin] at hs ⊢
      intro q hq
      rcases List.mem_append.1 hq with h1 | h1
      · right; exact (List.pairwise_append.1 hs).2.2 q h1 m (by simp)
      · left; simpa using h1
    rcases hl o' ho with e' | e'
    · rw [e'] at h'; exact pairLt.irrefl _ h'
    · exact pairLt.irrefl _ (h'.trans e')

end Srep
