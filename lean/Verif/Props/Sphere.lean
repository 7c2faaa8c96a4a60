import Verif.Model.Vessel
import Verif.Spec.Example
import Verif.Lemmas.Exact
import Mathlib.Tactic.LinearCombination

/-! Intersection of a line and a sphere (C75). -/

namespace Srep
variable {K : Type} [Field K] [LinearOrder K] [IsStrictOrderedRing K] [FloorRing K]

/-- the point `a + t (b - a)` in space -/
def along (a b : V3 K) (t : K) : V3 K := ⟨a.x + t * (b.x - a.x), a.y + t * (b.y - a.y), a.z + t * (b.z - a.z)⟩

/-- `p` lies on the sphere around `c` of radius `r` -/
def OnSphere (c : V3 K) (r : K) (p : V3 K) : Prop :=
  (p.x - c.x) ^ 2 + (p.y - c.y) ^ 2 + (p.z - c.z) ^ 2 = r ^ 2

variable {R : Rt K}

/-- the coefficient `a` is zero only for equal points, and never negative, in any arithmetic -/
theorem slA_zero (hR : R.IsRounding) (l1 l2 : V3 K) : R.slA l1 l2 = 0 ↔ l1 = l2 := by
  have nn : ∀ x : K, 0 ≤ R.mul x x := fun x => hR.nonneg (mul_self_nonneg x)
  have z : ∀ x y : K, R.sub x y = 0 ↔ x = y := fun x y => by
    unfold Rt.sub; rw [hR.eq_zero, sub_eq_zero]
  have m : ∀ x : K, R.mul x x = 0 ↔ x = 0 := fun x => by
    unfold Rt.mul; rw [hR.eq_zero, mul_self_eq_zero]
  unfold Rt.slA Rt.sumSq
  have h1 : ∀ a b : K, 0 ≤ a → 0 ≤ b → (R.add a b = 0 ↔ a = 0 ∧ b = 0) := by
    intro a b ha hb
    unfold Rt.add; rw [hR.eq_zero]
    exact add_eq_zero_iff_of_nonneg ha hb
  have nn2 : ∀ x y : K, 0 ≤ R.add (R.mul x x) (R.mul y y) := fun x y => hR.nonneg (add_nonneg (nn _) (nn _))
  rw [h1 _ _ (nn2 _ _) (nn _), h1 _ _ (nn _) (nn _), m, m, m, z, z, z]
  cases l1; cases l2
  simp only [V3.mk.injEq]
  constructor
  · rintro ⟨⟨h, h'⟩, h''⟩; exact ⟨h.symm, h'.symm, h''.symm⟩
  · rintro ⟨h, h', h''⟩; exact ⟨⟨h.symm, h'.symm⟩, h''.symm⟩

/-- C75: a "line" given by twice the same point always ends in the NameError, in any arithmetic. -/
theorem C75_degenerate (hR : R.IsRounding) (l sp : V3 K) (r : K) : R.sphereLine l l sp r = .error .name := by
  have z : ∀ x : K, R.sub x x = 0 := fun x => by unfold Rt.sub; rw [hR.eq_zero, sub_self]
  have ml : ∀ x : K, R.mul 0 x = 0 := fun x => by unfold Rt.mul; rw [zero_mul, hR.zero]
  have mr : ∀ x : K, R.mul x 0 = 0 := fun x => by unfold Rt.mul; rw [mul_zero, hR.zero]
  have a0 : R.add 0 0 = 0 := by unfold Rt.add; rw [add_zero, hR.zero]
  have hi : R.slDisc l l sp r = 0 := by
    unfold Rt.slDisc Rt.slA Rt.slB Rt.sumSq
    simp only [z, ml, mr, a0]
  unfold Rt.sphereLine
  simp [hi]

/-- C75: whatever the arithmetic, no division by zero happens. -/
theorem C75_no_zero_division (hR : R.IsRounding) (l1 l2 sp : V3 K) (r : K) :
    R.sphereLine l1 l2 sp r ≠ .error .zeroDiv := by
  by_cases he : l1 = l2
  · subst he
    rw [C75_degenerate hR]; simp
  · unfold Rt.sphereLine
    dsimp only
    split_ifs with h1 h2 h3
    · simp
    · simp
    · exfalso
      unfold Rt.mul at h3
      rw [hR.eq_zero] at h3
      rcases mul_eq_zero.1 h3 with h | h
      · exact absurd h (by norm_num)
      · exact he ((slA_zero hR l1 l2).1 h)
    · simp

theorem along_inj {a b : V3 K} (h : a ≠ b) {s t : K} (e : along a b s = along a b t) : s = t := by
  by_contra hst
  apply h
  unfold along at e
  simp only [V3.mk.injEq, add_right_inj] at e
  have k : ∀ x y : K, s * (x - y) = t * (x - y) → y = x := by
    intro x y hxy
    have : (s - t) * (x - y) = 0 := by linear_combination hxy
    rcases mul_eq_zero.1 this with h' | h'
    · exact absurd (sub_eq_zero.1 h') hst
    · exact (sub_eq_zero.1 h').symm
  obtain ⟨e1, e2, e3⟩ := e
  cases a; cases b
  simp only [V3.mk.injEq]
  exact ⟨k _ _ e1, k _ _ e2, k _ _ e3⟩

/-- In exact arithmetic the code's discriminant decides the number of common points: with `q t` the quadratic whose
zeros are the common points, `4 a q t = (2 a t + b)² - i`. -/
theorem sl_square (hE : R.IsExact) (l1 l2 sp : V3 K) (r t : K) :
    OnSphere sp r (along l1 l2 t) ↔ R.slA l1 l2 = 0 ∧ R.slC l1 sp r = 0 ∨
      R.slA l1 l2 ≠ 0 ∧ (2 * R.slA l1 l2 * t + R.slB l1 l2 sp) ^ 2 = R.slDisc l1 l2 sp r := by
  have hq : OnSphere sp r (along l1 l2 t) ↔
      R.slA l1 l2 * t ^ 2 + R.slB l1 l2 sp * t + R.slC l1 sp r = 0 := by
    unfold OnSphere along Rt.slA Rt.slB Rt.slC Rt.sumSq
    simp only [hE.add', hE.sub', hE.mul']
    rw [← sub_eq_zero]
    constructor <;> intro h <;> linear_combination h
  by_cases ha : R.slA l1 l2 = 0
  · have hl := (slA_zero hE.isRounding l1 l2).1 ha
    have hb : R.slB l1 l2 sp = 0 := by
      subst hl; unfold Rt.slB; simp only [hE.add', hE.sub', hE.mul']; ring
    rw [hq, ha, hb]
    simp
  · rw [hq]
    have hd : R.slDisc l1 l2 sp r = R.slB l1 l2 sp ^ 2 - 4 * R.slA l1 l2 * R.slC l1 sp r := by
      unfold Rt.slDisc
      simp only [hE.sub', hE.mul']
      ring
    rw [hd]
    constructor
    · intro h
      right
      exact ⟨ha, by linear_combination 4 * R.slA l1 l2 * h⟩
    · rintro (⟨h, -⟩ | ⟨-, h⟩)
      · exact absurd h ha
      · have : 4 * R.slA l1 l2 * (R.slA l1 l2 * t ^ 2 + R.slB l1 l2 sp * t + R.slC l1 sp r) = 0 := by
          linear_combination h
        rcases mul_eq_zero.1 this with h' | h'
        · exact absurd h' (mul_ne_zero (by norm_num) ha)
        · exact h'

/-- C75: in exact arithmetic, for a proper line: `(None, None)` is returned iff line and sphere have no common point,
the NameError is raised iff they have exactly one (a tangent), and otherwise the two returned points are different
and are exactly the common points, the first one being further along from `l1` to `l2`. -/
theorem C75_line (hE : R.IsExact) (l1 l2 sp : V3 K) (r : K) (hl : l1 ≠ l2) :
    (R.sphereLine l1 l2 sp r = .ok (none, none) ↔ ∀ t, ¬ OnSphere sp r (along l1 l2 t)) ∧
    (R.sphereLine l1 l2 sp r = .error .name ↔ ∃! t, OnSphere sp r (along l1 l2 t)) ∧
    (∀ res, R.sphereLine l1 l2 sp r = .ok res → res ≠ (none, none) → ∃ s t, s < t ∧
      res = (some (along l1 l2 t), some (along l1 l2 s)) ∧
      ∀ u, OnSphere sp r (along l1 l2 u) ↔ u = s ∨ u = t) := by
  have ha : R.slA l1 l2 ≠ 0 := fun h => hl ((slA_zero hE.isRounding l1 l2).1 h)
  have hpos : 0 < R.slA l1 l2 := by
    have : R.slA l1 l2 = (l2.x - l1.x) ^ 2 + (l2.y - l1.y) ^ 2 + (l2.z - l1.z) ^ 2 := by
      unfold Rt.slA Rt.sumSq; simp only [hE.add', hE.sub', hE.mul']; ring
    exact lt_of_le_of_ne (by rw [this]; positivity) (Ne.symm ha)
  have hq : ∀ t, OnSphere sp r (along l1 l2 t) ↔
      (2 * R.slA l1 l2 * t + R.slB l1 l2 sp) ^ 2 = R.slDisc l1 l2 sp r := by
    intro t; rw [sl_square hE]; simp [ha]
  have hpt : ∀ t, R.slPoint l1 l2 t = along l1 l2 t := by
    intro t; unfold Rt.slPoint along; simp only [hE.add', hE.sub', hE.mul']
  generalize hB : R.slB l1 l2 sp = b at hq
  generalize hA : R.slA l1 l2 = a at hq ha hpos
  generalize hI : R.slDisc l1 l2 sp r = i at hq
  have hval : R.sphereLine l1 l2 sp r = if i < 0 then .ok (none, none) else if i = 0 then .error .name
      else .ok (some (along l1 l2 ((-b + R.sqrt i) / (2 * a))), some (along l1 l2 ((-b - R.sqrt i) / (2 * a)))) := by
    unfold Rt.sphereLine
    dsimp only
    rw [hA, hB, hI]
    simp only [hE.mul', hE.div', hE.add', hE.sub', hpt]
    rw [if_neg (show ¬ (2 * a = 0) from mul_ne_zero two_ne_zero ha)]
  rw [hval]
  rcases lt_trichotomy i 0 with hi | hi | hi
  · have hno : ∀ t, ¬ OnSphere sp r (along l1 l2 t) := by
      intro t; rw [hq]; intro h
      have := sq_nonneg (2 * a * t + b)
      linarith
    rw [if_pos hi]
    refine ⟨⟨fun _ => hno, fun _ => rfl⟩, ⟨fun h => by simp at h, fun ⟨t, ht, _⟩ => absurd ht (hno t)⟩, ?_⟩
    intro res h hne
    simp only [Except.ok.injEq] at h
    exact absurd h.symm hne
  · have hone : ∀ t, OnSphere sp r (along l1 l2 t) ↔ t = -b / (2 * a) := by
      intro t; rw [hq, hi, sq_eq_zero_iff, eq_div_iff (mul_ne_zero two_ne_zero ha)]
      constructor <;> intro h <;> linear_combination h
    rw [if_neg (by rw [hi]; exact lt_irrefl _), if_pos hi]
    refine ⟨⟨fun h => by simp at h, fun h => absurd ((hone _).2 rfl) (h _)⟩, ⟨fun _ => ⟨_, (hone _).2 rfl, fun t ht =>
      (hone t).1 ht⟩, fun _ => rfl⟩, fun res h => by simp at h⟩
  · have hs := hE.sqrt_sq i hi.le
    have hsp : 0 < R.sqrt i := by
      refine lt_of_le_of_ne (hE.sqrt_nonneg i) fun h => ?_
      rw [← h] at hs; linarith
    have h2a : (0 : K) < 2 * a := by linarith
    have htwo : ∀ u, OnSphere sp r (along l1 l2 u) ↔ u = (-b - R.sqrt i) / (2 * a) ∨ u = (-b + R.sqrt i) / (2 * a) := by
      intro u
      rw [hq, eq_div_iff h2a.ne', eq_div_iff h2a.ne']
      constructor
      · intro h
        have : (2 * a * u + b + R.sqrt i) * (2 * a * u + b - R.sqrt i) = 0 := by linear_combination h - hs
        rcases mul_eq_zero.1 this with h' | h'
        · left; linear_combination h'
        · right; linear_combination h'
      · rintro (h | h)
        · have : 2 * a * u + b = -R.sqrt i := by linear_combination h
          rw [this]; linear_combination hs
        · have : 2 * a * u + b = R.sqrt i := by linear_combination h
          rw [this]; linear_combination hs
    have hlt : (-b - R.sqrt i) / (2 * a) < (-b + R.sqrt i) / (2 * a) := by
      apply div_lt_div_of_pos_right _ h2a; linarith
    rw [if_neg (not_lt.2 hi.le), if_neg hi.ne']
    refine ⟨⟨fun h => by simp at h, fun h => absurd ((htwo _).2 (Or.inl rfl)) (h _)⟩, ⟨fun h => by simp at h, ?_⟩, ?_⟩
    · rintro ⟨t, -, h⟩
      have h1 := h _ ((htwo _).2 (Or.inl rfl))
      have h2 := h _ ((htwo _).2 (Or.inr rfl))
      rw [← h2] at h1
      exact absurd h1 hlt.ne
    · intro res h _
      simp only [Except.ok.injEq] at h
      exact ⟨_, _, hlt, h.symm, htwo⟩

/-- the two points of a result, if there are two -/
def bothPoints : Except PyErr (Option (V3 ℚ) × Option (V3 ℚ)) → List (V3 ℚ)
  | .ok (some p, some q) => [p, q]
  | _ => []

/-- the sphere of radius 5 around (0, 0, 0) and the line through (-8, 3, 0) and (8, 3, 0) in binary64 -/
example : bothPoints (exRt.sphereLine ⟨-8, 3, 0⟩ ⟨8, 3, 0⟩ ⟨0, 0, 0⟩ 5) = [⟨4, 3, 0⟩, ⟨-4, 3, 0⟩] := by decide +kernel

/-- the line at height 6 misses it -/
example : exRt.sphereLine ⟨-6, 6, 0⟩ ⟨6, 6, 0⟩ ⟨0, 0, 0⟩ 5 = .ok (none, none) := by
  have h : exRt.slDisc ⟨-6, 6, 0⟩ ⟨6, 6, 0⟩ ⟨0, 0, 0⟩ 5 < 0 := by decide +kernel
  unfold Rt.sphereLine
  simp [h]

/-- C75: the tangent case is not out of reach for floats: the line at height 5 raises the NameError. -/
theorem C75_tangent : exRt.sphereLine ⟨-6, 5, 0⟩ ⟨6, 5, 0⟩ ⟨0, 0, 0⟩ 5 = .error .name := by
  have h : exRt.slDisc ⟨-6, 5, 0⟩ ⟨6, 5, 0⟩ ⟨0, 0, 0⟩ 5 = 0 := by decide +kernel
  unfold Rt.sphereLine
  simp [h]

end Srep
