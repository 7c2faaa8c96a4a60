import Verif.Spec.Hull
import Verif.Props.Hull
import Verif.Props.Ray

/-! The hull polygon is strictly convex, and its inside is the inside of the convex hull. -/

set_option linter.unusedSectionVars false

namespace Srep
open Rt
variable {K : Type} [Field K] [LinearOrder K] [IsStrictOrderedRing K]

/-- the vertices of a convex polygon around `S`, periodically numbered -/
structure HullCycle (S : Set (Pt K)) (n : ℕ) (w : ℕ → Pt K) : Prop where
  pos : 0 < n
  period : ∀ k, w (k + n) = w k
  mem : ∀ k, w k ∈ S
  left : ∀ k, ∀ q ∈ S, 0 ≤ det3 (w k) (w (k + 1)) q
  turn : ∀ k, 0 < det3 (w k) (w (k + 1)) (w (k + 2))

namespace HullCycle
variable {S : Set (Pt K)} {n : ℕ} {w : ℕ → Pt K}

theorem ne (H : HullCycle S n w) (k : ℕ) : w k ≠ w (k + 1) := by
  intro e
  have := H.turn k
  rw [← e] at this
  unfold det3 at this
  simp at this

theorem supports (H : HullCycle S n w) (k : ℕ) : Supports S (w k) (w (k + 1)) :=
  ⟨H.mem k, H.mem _, H.ne k, H.left k⟩

theorem period_mul (H : HullCycle S n w) (k m : ℕ) : w (k + m * n) = w k := by
  induction m with
  | zero => simp
  | succ m ih => rw [Nat.succ_mul, ← Nat.add_assoc, H.period, ih]

theorem mod_eq (H : HullCycle S n w) (k : ℕ) : w (k % n) = w k := by
  conv_rhs => rw [← Nat.mod_add_div' k n]
  rw [H.period_mul]

/-- every vertex has a predecessor -/
theorem pred (H : HullCycle S n w) (k : ℕ) : ∃ j, w (j + 1) = w k ∧ w (j + 2) = w (k + 1) := by
  have := H.pos
  refine ⟨k + n - 1, ?_, ?_⟩
  · rw [show k + n - 1 + 1 = k + n by omega, H.period]
  · rw [show k + n - 1 + 2 = k + 1 + n by omega, H.period]

theorem exists_min (H : HullCycle S n w) (f : Pt K → K) : ∃ k, ∀ j, f (w k) ≤ f (w j) := by
  obtain ⟨k, -, hk⟩ := Finset.exists_min_image (Finset.range n) (fun k => f (w k)) ⟨0, Finset.mem_range.2 H.pos⟩
  refine ⟨k, fun j => ?_⟩
  have := hk (j % n) (Finset.mem_range.2 (Nat.mod_lt _ H.pos))
  rwa [H.mod_eq] at this

theorem cone (a b c p : Pt K) (u v : K) :
    det3 a b c * ((u * p.x + v * p.y) - (u * b.x + v * b.y)) =
      det3 a b p * ((u * c.x + v * c.y) - (u * b.x + v * b.y)) +
      det3 b c p * ((u * a.x + v * a.y) - (u * b.x + v * b.y)) := by
  unfold det3; ring

/-- a linear function is at least as big at a point inside as at its smallest vertex -/
theorem min_le (H : HullCycle S n w) (u v : K) (p : Pt K) (hp : ∀ k, 0 ≤ det3 (w k) (w (k + 1)) p) :
    ∃ k, (∀ j, u * (w (k + 1)).x + v * (w (k + 1)).y ≤ u * (w j).x + v * (w j).y) ∧
      u * (w (k + 1)).x + v * (w (k + 1)).y ≤ u * p.x + v * p.y := by
  obtain ⟨k', hk⟩ := H.exists_min fun q => u * q.x + v * q.y
  obtain ⟨k, e1, e2⟩ := H.pred k'
  rw [← e1] at hk
  refine ⟨k, hk, ?_⟩
  have hc := cone (w k) (w (k + 1)) (w (k + 2)) p u v
  have h1 := mul_nonneg (hp k) (sub_nonneg.2 (hk (k + 2)))
  have h2 := mul_nonneg (hp (k + 1)) (sub_nonneg.2 (hk k))
  have h3 : 0 ≤ det3 (w k) (w (k + 1)) (w (k + 2)) *
      ((u * p.x + v * p.y) - (u * (w (k + 1)).x + v * (w (k + 1)).y)) := by rw [hc]; exact add_nonneg h1 h2
  have := nonneg_of_mul_nonneg_right h3 (H.turn k)
  linarith

theorem det3_lin (a b q : Pt K) : det3 a b q =
    (-(b.y - a.y)) * q.x + (b.x - a.x) * q.y + ((b.y - a.y) * a.x - (b.x - a.x) * a.y) := by
  unfold det3; ring

theorem nonneg_of_weak (H : HullCycle S n w) {p : Pt K} (hp : ∀ k, 0 ≤ det3 (w k) (w (k + 1)) p) {a b : Pt K}
    (hs : Supports S a b) : 0 ≤ det3 a b p := by
  obtain ⟨k, -, hk⟩ := H.min_le (-(b.y - a.y)) (b.x - a.x) p hp
  have := hs.2.2.2 _ (H.mem (k + 1))
  rw [det3_lin] at this ⊢
  linarith

theorem pos_of_strict (H : HullCycle S n w) {p : Pt K} (hp : ∀ k, 0 < det3 (w k) (w (k + 1)) p) {a b : Pt K}
    (hs : Supports S a b) : 0 < det3 a b p := by
  rcases (H.nonneg_of_weak (fun k => (hp k).le) hs).lt_or_eq with h | h
  · exact h
  exfalso
  obtain ⟨k, hmin, hk⟩ := H.min_le (-(b.y - a.y)) (b.x - a.x) p fun k => (hp k).le
  have g0 := hs.2.2.2 _ (H.mem k)
  have g1 := hs.2.2.2 _ (H.mem (k + 1))
  have g2 := hs.2.2.2 _ (H.mem (k + 2))
  have hc := cone (w k) (w (k + 1)) (w (k + 2)) p (-(b.y - a.y)) (b.x - a.x)
  have hz : det3 a b (w (k + 1)) = 0 := by
    rw [det3_lin] at h g1 ⊢
    linarith
  have hc' : det3 (w k) (w (k + 1)) (w (k + 2)) * (det3 a b p - det3 a b (w (k + 1))) =
      det3 (w k) (w (k + 1)) p * (det3 a b (w (k + 2)) - det3 a b (w (k + 1))) +
      det3 (w (k + 1)) (w (k + 2)) p * (det3 a b (w k) - det3 a b (w (k + 1))) := by unfold det3; ring
  rw [hz, ← h, sub_zero, sub_zero, sub_zero, mul_zero] at hc'
  have h1 := mul_nonneg (hp k).le g2
  have h2 := mul_nonneg (hp (k + 1)).le g0
  have e2 : det3 a b (w (k + 2)) = 0 := by
    rcases mul_eq_zero.1 (show det3 (w k) (w (k + 1)) p * det3 a b (w (k + 2)) = 0 by linarith) with e | e
    · exact absurd e (hp k).ne'
    · exact e
  have e0 : det3 a b (w k) = 0 := by
    rcases mul_eq_zero.1 (show det3 (w (k + 1)) (w (k + 2)) p * det3 a b (w k) = 0 by linarith) with e | e
    · exact absurd e (hp (k + 1)).ne'
    · exact e
  -- three vertices on one line
  have ht := H.turn k
  have hab := hs.2.2.1
  have i1 : (b.x - a.x) * det3 (w k) (w (k + 1)) (w (k + 2)) = 0 := by
    have : (b.x - a.x) * det3 (w k) (w (k + 1)) (w (k + 2)) =
      ((w (k+1)).x - (w k).x) * (det3 a b (w (k+2)) - det3 a b (w k)) -
      ((w (k+2)).x - (w k).x) * (det3 a b (w (k+1)) - det3 a b (w k)) := by unfold det3; ring
    rw [this, e2, e0, hz]; ring
  have i2 : (b.y - a.y) * det3 (w k) (w (k + 1)) (w (k + 2)) = 0 := by
    have : (b.y - a.y) * det3 (w k) (w (k + 1)) (w (k + 2)) =
      ((w (k+1)).y - (w k).y) * (det3 a b (w (k+2)) - det3 a b (w k)) -
      ((w (k+2)).y - (w k).y) * (det3 a b (w (k+1)) - det3 a b (w k)) := by unfold det3; ring
    rw [this, e2, e0, hz]; ring
  apply hab
  rcases mul_eq_zero.1 i1 with x1 | x1
  · rcases mul_eq_zero.1 i2 with x2 | x2
    · cases a; cases b
      simp only [Pt.mk.injEq] at *
      constructor <;> linarith
    · exact absurd x2 ht.ne'
  · exact absurd x1 ht.ne'

theorem inHull_iff (H : HullCycle S n w) (p : Pt K) : InHull S p ↔ ∀ k, 0 < det3 (w k) (w (k + 1)) p :=
  ⟨fun h k => h _ _ (H.supports k), fun h a b hs => H.pos_of_strict h hs⟩

theorem offHull_iff (H : HullCycle S n w) (p : Pt K) : OffHull S p ↔ ∃ k, det3 (w k) (w (k + 1)) p < 0 := by
  constructor
  · rintro ⟨a, b, hs, hn⟩
    by_contra hc
    push Not at hc
    exact absurd (H.nonneg_of_weak hc hs) (not_le.2 hn)
  · rintro ⟨k, hk⟩
    exact ⟨_, _, H.supports k, hk⟩

theorem vertex_of_extreme (H : HullCycle S n w) {p : Pt K} (he : Extreme S p) : ∃ k, w k = p := by
  obtain ⟨hp, u, v, h⟩ := he
  obtain ⟨k, -, hk⟩ := H.min_le u v p fun k => H.left k p hp
  by_contra hc
  push Not at hc
  have := h _ (H.mem (k + 1)) (hc (k + 1))
  linarith

/-- all other vertices are strictly to the left of a side -/
theorem strict (H : HullCycle S n w) (k m : ℕ) :
    w m = w k ∨ w m = w (k + 1) ∨ 0 < det3 (w k) (w (k + 1)) (w m) := by
  by_contra hcon
  push Not at hcon
  obtain ⟨n1, n2, n3⟩ := hcon
  have hz : det3 (w k) (w (k + 1)) (w m) = 0 := le_antisymm n3 (H.left k _ (H.mem m))
  obtain ⟨j, e1, e2⟩ := H.pred m
  obtain ⟨i, f1, f2⟩ := H.pred k
  have hc := H.left k _ (H.mem (m + 1))
  have ha := H.left k _ (H.mem j)
  have hD := H.turn j
  rw [e1, e2] at hD
  have t1 := H.turn k
  have t0 := H.turn i
  have l1 := H.left m _ (H.mem (k + 1))
  have l2 := H.left (k + 1) _ (H.mem m)
  have l3 := H.left j _ (H.mem k)
  have l4 := H.left i _ (H.mem m)
  rw [e1] at l3
  rw [f1] at l4
  rw [f1, f2] at t0
  have hne := H.ne k
  generalize w k = P at *
  generalize w (k + 1) = P' at *
  generalize w m = b at *
  generalize w (m + 1) = c at *
  generalize w j = a at *
  generalize w (k + 1 + 1) = e at *
  generalize w i = g at *
  -- b = P + t (P' - P)
  obtain ⟨t, ht⟩ : ∃ t, b = lerp P P' t := by
    unfold det3 at hz
    by_cases hx : P'.x - P.x = 0
    · have hy : P'.y - P.y ≠ 0 := by
        intro hy
        apply hne
        cases P; cases P'
        simp only [Pt.mk.injEq] at *
        constructor <;> linarith
      refine ⟨(b.y - P.y) / (P'.y - P.y), ?_⟩
      rw [hx, zero_mul, zero_sub, neg_eq_zero, mul_eq_zero] at hz
      cases b
      simp only [lerp, Pt.mk.injEq] at *
      constructor
      · rcases hz with h | h
        · exact absurd h hy
        · rw [hx]; linarith
      · field_simp; ring
    · refine ⟨(b.x - P.x) / (P'.x - P.x), ?_⟩
      cases b
      simp only [lerp, Pt.mk.injEq] at *
      constructor
      · field_simp; ring
      · field_simp; linarith
  have x1 : det3 b c P' = -((1 - t) * det3 P P' c) := by rw [ht]; unfold det3 lerp; ring
  have x2 : det3 P' e b = (1 - t) * det3 P P' e := by rw [ht]; unfold det3 lerp; ring
  have x3 : det3 a b P = -(t * det3 P P' a) := by rw [ht]; unfold det3 lerp; ring
  have x4 : det3 g P b = t * det3 g P P' := by rw [ht]; unfold det3 lerp; ring
  rcases hc.lt_or_eq with hc | hc
  · apply n2
    have y1 : t ≤ 1 := by
      rw [x2] at l2
      have := nonneg_of_mul_nonneg_left l2 t1
      linarith
    have y2 : 1 ≤ t := by
      rw [x1] at l1
      by_contra hlt
      have := mul_pos (sub_pos.2 (not_le.1 hlt)) hc
      linarith
    rw [ht, le_antisymm y1 y2]
    unfold lerp
    cases P'
    simp
  · have ha' : 0 < det3 P P' a := by
      rcases ha.lt_or_eq with h | h
      · exact h
      · exfalso
        have i1 : (P'.x - P.x) * det3 a b c = 0 := by
          have : (P'.x - P.x) * det3 a b c = (b.x - a.x) * (det3 P P' c - det3 P P' a) -
            (c.x - a.x) * (det3 P P' b - det3 P P' a) := by unfold det3; ring
          rw [this, hz, ← h, ← hc]; ring
        have i2 : (P'.y - P.y) * det3 a b c = 0 := by
          have : (P'.y - P.y) * det3 a b c = (b.y - a.y) * (det3 P P' c - det3 P P' a) -
            (c.y - a.y) * (det3 P P' b - det3 P P' a) := by unfold det3; ring
          rw [this, hz, ← h, ← hc]; ring
        rcases mul_eq_zero.1 i1 with z1 | z1
        · rcases mul_eq_zero.1 i2 with z2 | z2
          · apply hne
            cases P; cases P'
            simp only [Pt.mk.injEq] at *
            constructor <;> linarith
          · exact hD.ne' z2
        · exact hD.ne' z1
    apply n1
    have y1 : 0 ≤ t := by
      rw [x4] at l4
      exact nonneg_of_mul_nonneg_left l4 t0
    have y2 : t ≤ 0 := by
      rw [x3] at l3
      by_contra hlt
      have := mul_pos (not_le.1 hlt) ha'
      linarith
    rw [ht, le_antisymm y2 y1]
    unfold lerp
    cases P
    simp

end HullCycle

end Srep

namespace Srep
open Rt
variable {K : Type} [Field K] [LinearOrder K] [IsStrictOrderedRing K]

/-- the vertices are extreme -/
theorem HullCycle.extreme {S : Set (Pt K)} {n : ℕ} {w : ℕ → Pt K} (H : HullCycle S n w) (k : ℕ) : Extreme S (w k) := by
  obtain ⟨j, e1, e2⟩ := H.pred k
  have t := H.turn j
  have l0 := H.left j
  have l1 := H.left k
  rw [e1] at t l0
  rw [e2] at t
  refine ⟨H.mem k, (-((w k).y - (w j).y)) + (-((w (k + 1)).y - (w k).y)),
    ((w k).x - (w j).x) + ((w (k + 1)).x - (w k).x), fun q hq hne => ?_⟩
  have e : ((-((w k).y - (w j).y)) + (-((w (k + 1)).y - (w k).y))) * (q.x - (w k).x) +
      (((w k).x - (w j).x) + ((w (k + 1)).x - (w k).x)) * (q.y - (w k).y) =
      det3 (w j) (w k) q + det3 (w k) (w (k + 1)) q := by unfold det3; ring
  rw [e]
  have g0 := l0 q hq
  have g1 := l1 q hq
  rcases g0.lt_or_eq with h | h
  · linarith
  rcases g1.lt_or_eq with h' | h'
  · linarith
  exfalso
  apply hne
  generalize w j = a at *
  generalize w k = b at *
  generalize w (k + 1) = c at *
  have i1 : det3 a b c * (q.x - b.x) = det3 a b q * (c.x - b.x) + det3 b c q * (a.x - b.x) := by unfold det3; ring
  have i2 : det3 a b c * (q.y - b.y) = det3 a b q * (c.y - b.y) + det3 b c q * (a.y - b.y) := by unfold det3; ring
  rw [← h, ← h', zero_mul, zero_mul, add_zero] at i1 i2
  have j1 := (mul_eq_zero.1 i1).resolve_left t.ne'
  have j2 := (mul_eq_zero.1 i2).resolve_left t.ne'
  cases q; cases b
  simp only [Pt.mk.injEq] at *
  constructor <;> linarith

theorem HullCycle.extreme_iff {S : Set (Pt K)} {n : ℕ} {w : ℕ → Pt K} (H : HullCycle S n w) (p : Pt K) :
    Extreme S p ↔ ∃ k, w k = p :=
  ⟨H.vertex_of_extreme, by rintro ⟨k, rfl⟩; exact H.extreme k⟩

theorem HullCycle.three {S : Set (Pt K)} {n : ℕ} {w : ℕ → Pt K} (H : HullCycle S n w) : 3 ≤ n := by
  by_contra hc
  have h0 := H.pos
  have ht := H.turn 0
  rw [Nat.zero_add, Nat.zero_add] at ht
  have : n = 1 ∨ n = 2 := by omega
  rcases this with rfl | rfl
  · have := H.period 0
    have h1 := H.ne 0
    rw [Nat.zero_add] at this h1
    exact h1 this.symm
  · have := H.period 0
    rw [Nat.zero_add] at this
    rw [this] at ht
    unfold det3 at ht
    simp at ht

theorem HullCycle.side {S : Set (Pt K)} {n : ℕ} {w : ℕ → Pt K} (H : HullCycle S n w) {a b : Pt K}
    (h : HullSide S a b) : ∃ k, w k = a ∧ w (k + 1) = b := by
  obtain ⟨⟨ha, hb, hne, hl⟩, xa, xb⟩ := h
  obtain ⟨i, rfl⟩ := H.vertex_of_extreme xa
  obtain ⟨j, rfl⟩ := H.vertex_of_extreme xb
  refine ⟨i, rfl, ?_⟩
  have h1 := hl _ (H.mem (i + 1))
  have h2 : det3 (w i) (w j) (w (i + 1)) = - det3 (w i) (w (i + 1)) (w j) := by unfold det3; ring
  rcases H.strict i j with h | h | h
  · exact absurd h.symm hne
  · exact h.symm
  · linarith

theorem HullCycle.side_of {S : Set (Pt K)} {n : ℕ} {w : ℕ → Pt K} (H : HullCycle S n w) (k : ℕ) :
    HullSide S (w k) (w (k + 1)) := ⟨H.supports k, H.extreme k, H.extreme _⟩

theorem not_extreme_of_inner {S : Set (Pt K)} {a b p : Pt K} (ha : a ∈ S) (hb : b ∈ S) (hne : a ≠ b) (hp : Inner a b p) :
    ¬ Extreme S p := by
  rintro ⟨-, u, v, h⟩
  obtain ⟨t, t0, t1, rfl⟩ := hp
  have e : ∀ c : Pt K, u * (c.x - (lerp a b t).x) + v * (c.y - (lerp a b t).y) =
      (u * c.x + v * c.y) - ((1 - t) * (u * a.x + v * a.y) + t * (u * b.x + v * b.y)) := by
    intro c; unfold lerp; ring
  have na : a ≠ lerp a b t := by
    intro e
    apply hne
    have ex := congrArg Pt.x e
    have ey := congrArg Pt.y e
    unfold lerp at ex ey
    dsimp only at ex ey
    have x1 : t * (b.x - a.x) = 0 := by linarith
    have y1 : t * (b.y - a.y) = 0 := by linarith
    have x2 := (mul_eq_zero.1 x1).resolve_left t0.ne'
    have y2 := (mul_eq_zero.1 y1).resolve_left t0.ne'
    cases a; cases b
    simp only [Pt.mk.injEq] at *
    constructor <;> linarith
  have nb : b ≠ lerp a b t := by
    intro e
    apply hne
    have ex := congrArg Pt.x e
    have ey := congrArg Pt.y e
    unfold lerp at ex ey
    dsimp only at ex ey
    have x1 : (1 - t) * (b.x - a.x) = 0 := by linarith
    have y1 : (1 - t) * (b.y - a.y) = 0 := by linarith
    have x2 := (mul_eq_zero.1 x1).resolve_left (sub_pos.2 t1).ne'
    have y2 := (mul_eq_zero.1 y1).resolve_left (sub_pos.2 t1).ne'
    cases a; cases b
    simp only [Pt.mk.injEq] at *
    constructor <;> linarith
  have h1 := h a ha na
  have h2 := h b hb nb
  rw [e] at h1 h2
  have g1 := mul_pos (sub_pos.2 t1) h1
  have g2 := mul_pos t0 h2
  nlinarith

variable [FloorRing K]

/-- the polygon `l` has the sides of the hull cycle `w` -/
def SidesOf (l : List (Seg K)) (n : ℕ) (w : ℕ → Pt K) : Prop :=
  l.length = n ∧ ∀ k (hk : k < l.length), l[k] = ⟨w k, w (k + 1), .line⟩

theorem HullCycle.convexCcw {S : Set (Pt K)} {n : ℕ} {w : ℕ → Pt K} (H : HullCycle S n w) {l : List (Seg K)}
    (hl : SidesOf l n w) (hinj : ∀ i < n, ∀ j < n, w i = w j → i = j) : ConvexCcw l := by
  obtain ⟨hn, hl⟩ := hl
  refine ⟨?_, ?_, ?_⟩
  · intro k hk
    rw [hl k hk, hl _ (Nat.mod_lt _ (by omega))]
    dsimp only
    rw [hn, H.mod_eq]
  · rw [List.nodup_iff_injective_getElem]
    rintro ⟨i, hi⟩ ⟨j, hj⟩ e
    simp only [List.length_map] at hi hj
    simp only [List.getElem_map] at e
    rw [hl i hi, hl j hj] at e
    exact Fin.ext (hinj i (by omega) j (by omega) e)
  · intro s hs o ho
    obtain ⟨k, hk, rfl⟩ := List.getElem_of_mem hs
    obtain ⟨m, hm, rfl⟩ := List.getElem_of_mem ho
    rw [hl k hk, hl m hm]
    exact H.strict k m

theorem HullCycle.ends_iff {S : Set (Pt K)} {n : ℕ} {w : ℕ → Pt K} (H : HullCycle S n w) {l : List (Seg K)}
    (hl : SidesOf l n w) (p : Pt K) : (∃ s ∈ l, p = s.i ∨ p = s.j) ↔ Extreme S p := by
  obtain ⟨hn, hl⟩ := hl
  rw [H.extreme_iff]
  constructor
  · rintro ⟨s, hs, h⟩
    obtain ⟨k, hk, rfl⟩ := List.getElem_of_mem hs
    rw [hl k hk] at h
    rcases h with rfl | rfl
    · exact ⟨_, rfl⟩
    · exact ⟨_, rfl⟩
  · rintro ⟨k, rfl⟩
    have hk : k % n < l.length := by rw [hn]; exact Nat.mod_lt _ H.pos
    refine ⟨l[k % n], List.getElem_mem hk, Or.inl ?_⟩
    rw [hl _ hk]
    exact (H.mod_eq k).symm

theorem HullCycle.inside_iff {S : Set (Pt K)} {n : ℕ} {w : ℕ → Pt K} (H : HullCycle S n w) {l : List (Seg K)}
    (hl : SidesOf l n w) (p : Pt K) : InsideCcw l p ↔ InHull S p := by
  obtain ⟨hn, hl⟩ := hl
  rw [H.inHull_iff]
  constructor
  · intro h k
    have hk : k % n < l.length := by rw [hn]; exact Nat.mod_lt _ H.pos
    have := h _ (List.getElem_mem hk)
    rw [hl _ hk] at this
    dsimp only at this
    rwa [H.mod_eq, ← H.mod_eq (k % n + 1), Nat.mod_add_mod, H.mod_eq] at this
  · intro h s hs
    obtain ⟨k, hk, rfl⟩ := List.getElem_of_mem hs
    rw [hl k hk]
    exact h k

theorem HullCycle.outside_iff {S : Set (Pt K)} {n : ℕ} {w : ℕ → Pt K} (H : HullCycle S n w) {l : List (Seg K)}
    (hl : SidesOf l n w) (p : Pt K) : OutsideCcw l p ↔ OffHull S p := by
  obtain ⟨hn, hl⟩ := hl
  rw [H.offHull_iff]
  constructor
  · rintro ⟨s, hs, h⟩
    obtain ⟨k, hk, rfl⟩ := List.getElem_of_mem hs
    rw [hl k hk] at h
    exact ⟨k, h⟩
  · rintro ⟨k, h⟩
    have hk : k % n < l.length := by rw [hn]; exact Nat.mod_lt _ H.pos
    refine ⟨l[k % n], List.getElem_mem hk, ?_⟩
    rw [hl _ hk]
    dsimp only
    rwa [H.mod_eq, ← H.mod_eq (k % n + 1), Nat.mod_add_mod, H.mod_eq]

/-- what `convex_hull` returns, as a hull cycle -/
theorem hullCycle_nodes {R : Rt K} (hE : R.IsExact) (ps : List (K × K)) (hpl : Plane {q | ∃ p ∈ ps, q = pairPt p}) :
    ∃ w : ℕ → Pt K, HullCycle {q | ∃ p ∈ ps, q = pairPt p} (R.hullNodes ps).length w ∧
      (∀ i < (R.hullNodes ps).length, ∀ j < (R.hullNodes ps).length, w i = w j → i = j) ∧
      ∀ k (hk : k < (R.hullNodes ps).length), w k = pairPt (R.hullNodes ps)[k] := by
  obtain ⟨_, ⟨a, ha, rfl⟩, _, ⟨b, hb, rfl⟩, _, ⟨c, hc, rfl⟩, hdet⟩ := hpl
  have h2 : ∃ p ∈ ps, ∃ q ∈ ps, p ≠ q := by
    refine ⟨a, ha, b, hb, ?_⟩
    rintro rfl
    apply hdet
    unfold det3
    ring
  obtain ⟨hH, -, ht, -⟩ := C34_nodes hE ps h2
  have ht := ht ⟨a, ha, b, hb, c, hc, hdet⟩
  have hn : 0 < (R.hullNodes ps).length := by have := hH.two; omega
  have hmod : ∀ k, k % (R.hullNodes ps).length < (R.hullNodes ps).length := fun k => Nat.mod_lt _ hn
  have hstep : ∀ k j, pairPt ((R.hullNodes ps)[(k + j) % (R.hullNodes ps).length]'(hmod _)) =
      pairPt ((R.hullNodes ps)[(k % (R.hullNodes ps).length + j) % (R.hullNodes ps).length]'(hmod _)) := by
    intro k j
    congr 2
    rw [Nat.mod_add_mod]
  refine ⟨fun k => pairPt ((R.hullNodes ps)[k % (R.hullNodes ps).length]'(hmod k)), ⟨hn, ?_, ?_, ?_, ?_⟩, ?_, ?_⟩
  · intro k
    congr 2
    exact Nat.add_mod_right _ _
  · intro k
    exact ⟨_, hH.mem _ (List.getElem_mem _), rfl⟩
  · rintro k q ⟨p, hp, rfl⟩
    have := hH.left _ (hmod k) p hp
    rw [hstep k 1]
    exact this
  · intro k
    have := ht _ (hmod k)
    rw [hstep k 1, hstep k 2]
    exact this
  · intro i hi j hj e
    dsimp only at e
    have e' : (R.hullNodes ps)[i % (R.hullNodes ps).length]'(hmod i) = (R.hullNodes ps)[j % (R.hullNodes ps).length]'(hmod j) := by
      unfold pairPt at e
      exact Prod.ext (congrArg Pt.x e) (congrArg Pt.y e)
    have := (hH.nodup.getElem_inj_iff).1 e'
    rwa [Nat.mod_eq_of_lt hi, Nat.mod_eq_of_lt hj] at this
  · intro k hk
    dsimp only
    congr 2
    exact Nat.mod_eq_of_lt hk

theorem convexHull_sides {R : Rt K} (hE : R.IsExact) (ps : List (K × K)) (hpl : Plane {q | ∃ p ∈ ps, q = pairPt p})
    (hg : ∀ p ∈ ps, Grid p.1 ∧ Grid p.2) (hap : Apart (1 / 10 ^ 5) {q | ∃ p ∈ ps, q = pairPt p}) :
    ∃ l n w, R.convexHull ps = .inr (.ok l) ∧ HullCycle {q | ∃ p ∈ ps, q = pairPt p} n w ∧ SidesOf l n w ∧
      ConvexCcw l := by
  obtain ⟨w, H, hinj, hw⟩ := hullCycle_nodes hE ps hpl
  obtain ⟨_, ⟨a, ha, rfl⟩, _, ⟨b, hb, rfl⟩, _, ⟨c, hc, rfl⟩, hdet⟩ := hpl
  have h2 : ∃ p ∈ ps, ∃ q ∈ ps, p ≠ q := by
    refine ⟨a, ha, b, hb, ?_⟩
    rintro rfl
    apply hdet
    unfold det3
    ring
  obtain ⟨l, h1, hlen, hl, -⟩ := C34_polyline hE ps h2 hg hap
  have hs : SidesOf l (R.hullNodes ps).length w := by
    refine ⟨hlen, fun k hk => ?_⟩
    rw [hl k hk (by omega), hw k (by omega), ← H.mod_eq (k + 1), hw _ (Nat.mod_lt _ H.pos)]
  exact ⟨l, _, w, h1, H, hs, H.convexCcw hs hinj⟩

end Srep
