import Verif.Props.IsConvex
import Verif.Lemmas.Monotone

/-! `isconvex` is right for polygons whose corners are different. -/

set_option linter.unusedSectionVars false

namespace Srep
open Rt

/-! ### sides of a valid polygon do not meet -/

theorem ios_of_meet {K : Type} [Field K] [LinearOrder K] [IsStrictOrderedRing K] [FloorRing K] {R : Rt K} (hE : R.IsExact)
    {s o : Seg K} (ht : R.touch s o = false)
    (hp : (s.j.x - s.i.x) * (o.j.y - o.i.y) - (s.j.y - s.i.y) * (o.j.x - o.i.x) ≠ 0) {X : Pt K} (h1 : Between s.i s.j X)
    (h2 : Between o.i o.j X) : R.intersectionOnSegment s o = true := by
  have hp : R.isParallel s o = false := by
    rw [Bool.eq_false_iff]; intro h; exact hp ((hE.isParallel_iff _ _).1 h)
  obtain ⟨q, hq, he, rx, ry⟩ := C12_correct hE s o hp
  have hip : R.intersectionPoint s o = some ⟨rhe8 q.x, rhe8 q.y⟩ := by
    unfold Rt.intersectionPointE at he
    unfold Rt.intersectionPoint
    rw [if_neg (by rw [hp]; simp)] at he ⊢
    split_ifs at he
    simpa using he
  have : X = q := by
    rw [← hq]
    obtain ⟨u, -, -, e1⟩ := h1
    obtain ⟨w, -, -, e2⟩ := h2
    exact ⟨⟨u, e1⟩, ⟨w, e2⟩⟩
  subst this
  unfold Rt.intersectionOnSegment
  rw [if_neg (by rw [ht]; simp), hip]
  dsimp only
  rw [Bool.and_eq_true, hE.isInternal_iff, hE.isInternal_iff]
  dsimp only
  rw [abs_le] at rx ry
  obtain ⟨a1, a2, a3, a4⟩ := between_box h1
  obtain ⟨b1, b2, b3, b4⟩ := between_box h2
  have e : (0 : K) < 1 / 10 ^ 8 := by positivity
  refine ⟨⟨?_, ?_, ?_, ?_⟩, ?_, ?_, ?_, ?_⟩ <;> linarith

theorem on_line {p q w : Pt ℝ} (hw : w.x ≠ 0 ∨ w.y ≠ 0) (hx : w.x * (q.y - p.y) - w.y * (q.x - p.x) = 0) :
    ∃ κ, q.x = p.x + κ * w.x ∧ q.y = p.y + κ * w.y := by
  by_cases h : w.x = 0
  · have hy : w.y ≠ 0 := by rcases hw with h' | h'; exacts [absurd h h', h']
    rw [h, zero_mul, zero_sub, neg_eq_zero] at hx
    refine ⟨(q.y - p.y) / w.y, ?_, by field_simp; ring⟩
    rcases mul_eq_zero.1 hx with h' | h'
    · exact absurd h' hy
    · rw [h]; linarith
  · refine ⟨(q.x - p.x) / w.x, by field_simp; ring, ?_⟩
    field_simp
    linarith

/-- of two segments on one line that meet, an end of one is on the other -/
theorem end_on_other {a b c d p : Pt ℝ} (hab : a ≠ b) (hx : (b.x - a.x) * (d.y - c.y) - (b.y - a.y) * (d.x - c.x) = 0)
    (h1 : Between a b p) (h2 : Between c d p) : Between a b c ∨ Between a b d ∨ Between c d a := by
  obtain ⟨κ, k1, k2⟩ := on_line (p := c) (q := d) (w := ⟨b.x - a.x, b.y - a.y⟩) (by
    by_contra hcon
    push Not at hcon
    exact hab (Pt.ext' (by linarith [hcon.1]) (by linarith [hcon.2]))) hx
  have k1 : d.x - c.x = κ * (b.x - a.x) := by simp only at k1; linarith
  have k2 : d.y - c.y = κ * (b.y - a.y) := by simp only at k2; linarith
  obtain ⟨t, t0, t1, e1⟩ := h1
  obtain ⟨u, u0, u1, e2⟩ := h2
  rw [e1] at e2
  unfold lerp at e2
  rw [Pt.mk.injEq] at e2
  obtain ⟨e2, e3⟩ := e2
  rw [k1] at e2
  rw [k2] at e3
  set γ := t - u * κ with hγ
  have c1 : c.x = a.x + γ * (b.x - a.x) := by rw [hγ]; linarith
  have c2 : c.y = a.y + γ * (b.y - a.y) := by rw [hγ]; linarith
  set δ := γ + κ with hδ
  have d1 : d.x = a.x + δ * (b.x - a.x) := by rw [hδ]; linarith
  have d2 : d.y = a.y + δ * (b.y - a.y) := by rw [hδ]; linarith
  by_cases hc : 0 ≤ γ ∧ γ ≤ 1
  · exact Or.inl ⟨γ, hc.1, hc.2, Pt.ext' c1 c2⟩
  by_cases hd : 0 ≤ δ ∧ δ ≤ 1
  · exact Or.inr (Or.inl ⟨δ, hd.1, hd.2, Pt.ext' d1 d2⟩)
  right; right
  have ht : t = γ + u * (δ - γ) := by rw [hδ, hγ]; ring
  have key : (γ < 0 ∧ 1 < δ) ∨ (δ < 0 ∧ 1 < γ) := by
    rw [not_and_or, not_le, not_le] at hc hd
    rcases hc with hc | hc <;> rcases hd with hd | hd
    · exfalso
      rcases le_total γ δ with h | h
      · linarith [mul_nonneg (sub_nonneg.2 u1) (sub_nonneg.2 h)]
      · linarith [mul_nonneg u0 (sub_nonneg.2 h)]
    · exact Or.inl ⟨hc, hd⟩
    · exact Or.inr ⟨hd, hc⟩
    · exfalso
      rcases le_total γ δ with h | h
      · linarith [mul_nonneg u0 (sub_nonneg.2 h)]
      · linarith [mul_nonneg (sub_nonneg.2 u1) (sub_nonneg.2 h)]
  have hne : δ - γ ≠ 0 := by rcases key with ⟨h1, h2⟩ | ⟨h1, h2⟩ <;> intro h <;> linarith
  refine ⟨-γ / (δ - γ), ?_, ?_, ?_⟩
  · rcases key with ⟨h1, h2⟩ | ⟨h1, h2⟩
    · exact div_nonneg (by linarith) (by linarith)
    · exact div_nonneg_of_nonpos (by linarith) (by linarith)
  · rcases key with ⟨h1, h2⟩ | ⟨h1, h2⟩
    · rw [div_le_one (by linarith)]; linarith
    · rw [div_le_one_of_neg (by linarith)]; linarith
  · apply Pt.ext'
    · unfold lerp
      simp only
      rw [c1, d1]; field_simp; ring
    · unfold lerp
      simp only
      rw [c2, d2]; field_simp; ring

/-- a segment and one that goes back on it have another point than the common end in common -/
theorem overlap {a b c : Pt ℝ} (hab : a ≠ b) {κ : ℝ} (hκ : κ < 0) (h1 : c.x - b.x = κ * (b.x - a.x)) (h2 : c.y - b.y = κ * (b.y - a.y)) :
    ∃ p, p ≠ b ∧ Between a b p ∧ Between b c p := by
  rcases le_or_gt (-1) κ with h | h
  · refine ⟨c, ?_, ⟨1 + κ, by linarith, by linarith, ?_⟩, ⟨1, zero_le_one, le_rfl, ?_⟩⟩
    · intro e
      rw [e, sub_self] at h1 h2
      have e1 : b.x - a.x = 0 := by
        rcases mul_eq_zero.1 h1.symm with h | h
        · exact absurd h hκ.ne
        · exact h
      have e2 : b.y - a.y = 0 := by
        rcases mul_eq_zero.1 h2.symm with h | h
        · exact absurd h hκ.ne
        · exact h
      exact hab (Pt.ext' (by linarith) (by linarith))
    · apply Pt.ext' <;> unfold lerp <;> simp only <;> linarith
    · apply Pt.ext' <;> unfold lerp <;> simp
  · refine ⟨a, hab, ⟨0, le_rfl, zero_le_one, ?_⟩, ⟨-1 / κ, ?_, ?_, ?_⟩⟩
    · apply Pt.ext' <;> unfold lerp <;> simp
    · exact div_nonneg_of_nonpos (by linarith) hκ.le
    · rw [div_le_one_of_neg hκ]; linarith
    · apply Pt.ext' <;> unfold lerp <;> simp only
      · rw [h1, ← mul_assoc, div_mul_cancel₀ _ hκ.ne]; ring
      · rw [h2, ← mul_assoc, div_mul_cancel₀ _ hκ.ne]; ring

theorem Between.inside {a b c p : Pt ℝ} (h1 : Between a b c) (h2 : Between c b p) : Between a b p := by
  obtain ⟨t, t0, t1, rfl⟩ := h1
  obtain ⟨u, u0, u1, rfl⟩ := h2
  refine ⟨t + u * (1 - t), by nlinarith, by nlinarith, ?_⟩
  apply Pt.ext' <;> unfold lerp <;> simp only <;> ring

theorem between_along {p q r w : Pt ℝ} {α γ : ℝ} (h0 : 0 ≤ α) (h1 : α ≤ γ) (hγ : 0 < γ) (q1 : q.x = p.x + α * w.x)
    (q2 : q.y = p.y + α * w.y) (r1 : r.x = p.x + γ * w.x) (r2 : r.y = p.y + γ * w.y) : Between p r q := by
  refine ⟨α / γ, by positivity, by rw [div_le_one hγ]; exact h1, ?_⟩
  apply Pt.ext' <;> unfold lerp <;> simp only
  · rw [q1, r1]; field_simp; ring
  · rw [q2, r2]; field_simp; ring

theorem between_left (p q : Pt ℝ) : Between p q p := ⟨0, le_rfl, zero_le_one, by apply Pt.ext' <;> unfold lerp <;> simp⟩

theorem between_right (p q : Pt ℝ) : Between p q q := ⟨1, zero_le_one, le_rfl, by apply Pt.ext' <;> unfold lerp <;> simp⟩

/-- A closed polygon with different corners, whose sides that follow one another only have their common corner in common, and
whose other sides do not meet unless they are parallel: no corner is on another side. -/
theorem no_bad_corner {v : ℕ → Pt ℝ} {n : ℕ} (hn : 1 < n) (hmod : ∀ {i j}, i ≡ j [MOD n] → v i = v j)
    (hinj : ∀ {i j}, v i = v j → i ≡ j [MOD n])
    (hA : ∀ k p, Between (v k) (v (k + 1)) p → Between (v (k + 1)) (v (k + 2)) p → p = v (k + 1))
    (N : ∀ i j p, ¬ i ≡ j [MOD n] → ¬ i + 1 ≡ j [MOD n] → ¬ j + 1 ≡ i [MOD n] → sideCross v i j ≠ 0 →
      Between (v i) (v (i + 1)) p → Between (v j) (v (j + 1)) p → False)
    {k0 j0 : ℕ} (hk0 : ¬ k0 ≡ j0 [MOD n]) (hk0' : ¬ k0 ≡ j0 + 1 [MOD n]) (hb0 : Between (v j0) (v (j0 + 1)) (v k0)) : False := by
  have hnull : ∀ k, v k ≠ v (k + 1) := by
    intro k e
    have := (Nat.modEq_iff_dvd' (by omega : k ≤ k + 1)).1 (hinj e)
    rw [Nat.add_sub_cancel_left] at this
    exact absurd (Nat.le_of_dvd one_pos this) (by omega)
  set w : Pt ℝ := ⟨(v (j0 + 1)).x - (v j0).x, (v (j0 + 1)).y - (v j0).y⟩ with hw
  have hw0 : w.x ≠ 0 ∨ w.y ≠ 0 := by
    by_contra hcon
    push Not at hcon
    rw [hw] at hcon
    exact hnull j0 (Pt.ext' (by linarith [hcon.1]) (by linarith [hcon.2]))
  have hww : 0 < w.x * w.x + w.y * w.y := by
    rcases hw0 with h | h
    · have := mul_self_pos.2 h
      linarith [mul_self_nonneg w.y]
    · have := mul_self_pos.2 h
      linarith [mul_self_nonneg w.x]
  classical
  obtain ⟨k, hmem, hmax⟩ := Finset.exists_max_image
    ((Finset.range n).filter fun k => ∃ j, ¬ k ≡ j [MOD n] ∧ ¬ k ≡ j + 1 [MOD n] ∧ Between (v j) (v (j + 1)) (v k) ∧
      w.x * ((v (j + 1)).y - (v j).y) - w.y * ((v (j + 1)).x - (v j).x) = 0) (fun k => w.x * (v k).x + w.y * (v k).y)
    ⟨k0 % n, by
      rw [Finset.mem_filter, Finset.mem_range]
      have e : k0 % n ≡ k0 [MOD n] := Nat.mod_modEq k0 n
      refine ⟨Nat.mod_lt _ (by omega), j0, fun h => hk0 (e.symm.trans h), fun h => hk0' (e.symm.trans h), ?_, ?_⟩
      · rw [hmod e]; exact hb0
      · rw [hw]; ring⟩
  rw [Finset.mem_filter] at hmem
  obtain ⟨-, j, hkj, hkj', hb, hj⟩ := hmem
  -- another one further ahead
  have key : ∀ k' j', ¬ k' ≡ j' [MOD n] → ¬ k' ≡ j' + 1 [MOD n] → Between (v j') (v (j' + 1)) (v k') →
      w.x * ((v (j' + 1)).y - (v j').y) - w.y * ((v (j' + 1)).x - (v j').x) = 0 → ∀ κ, 0 < κ → (v k').x = (v k).x + κ * w.x →
      (v k').y = (v k).y + κ * w.y → False := by
    intro k' j' h1 h2 h3 h4 κ hκ e1 e2
    have e : k' % n ≡ k' [MOD n] := Nat.mod_modEq k' n
    have := hmax (k' % n) (by
      rw [Finset.mem_filter, Finset.mem_range]
      refine ⟨Nat.mod_lt _ (by omega), j', fun h => h1 (e.symm.trans h), fun h => h2 (e.symm.trans h), ?_, h4⟩
      rw [hmod e]; exact h3)
    rw [hmod e, e1, e2] at this
    nlinarith [mul_pos hκ hww]
  set k1 := k + (n - 1) with hk1
  have ek : k1 + 1 ≡ k [MOD n] := by
    rw [hk1, show k + (n - 1) + 1 = k + n by omega]; exact Nat.add_modEq_right
  have vk : v (k1 + 1) = v k := hmod ek
  have vk2 : v (k1 + 2) = v (k + 1) := hmod (ek.add_right 1)
  -- the neighbours of the corner are not ends of the side
  have n1 : ¬ k + 1 ≡ j [MOD n] := by
    intro e
    have := hA k (v k) (between_left _ _) (by rw [hmod e, show v (k + 2) = v (j + 1) from hmod (e.add_right 1)]; exact hb)
    exact hnull k this
  have n2 : ¬ k1 ≡ j + 1 [MOD n] := by
    intro e
    have e2 : v (j + 2) = v k := by rw [← vk]; exact (hmod (e.add_right 1)).symm
    have := hA j (v k) hb (by rw [e2]; exact between_right _ _)
    exact hkj' (hinj this)
  have n3 : ¬ k + 1 ≡ j + 1 [MOD n] := fun e => hkj (e.add_right_cancel' 1)
  have n4 : ¬ k1 ≡ j [MOD n] := fun e => hkj' (ek.symm.trans (e.add_right 1))
  have hkk1 : ¬ k ≡ k1 [MOD n] := by
    intro e
    have := hmod e
    exact hnull k1 (by rw [vk, this])
  -- both its sides are parallel to the side
  have par : ∀ s, sideCross v j s = 0 → w.x * ((v (s + 1)).y - (v s).y) - w.y * ((v (s + 1)).x - (v s).x) = 0 := by
    intro s hs
    obtain ⟨κ, e1, e2⟩ := on_line hw0 hj
    have hκ : κ ≠ 0 := by
      rintro rfl
      exact hnull j (Pt.ext' (by linarith) (by linarith))
    unfold sideCross at hs
    rw [e1, e2] at hs
    have : κ * (w.x * ((v (s + 1)).y - (v s).y) - w.y * ((v (s + 1)).x - (v s).x)) = 0 := by linarith
    rcases mul_eq_zero.1 this with h | h
    · exact absurd h hκ
    · exact h
  have p1 := par k (by
    by_contra hx
    exact N j k (v k) (fun e => hkj e.symm) (fun e => hkj' e.symm) n1 hx hb (between_left _ _))
  have p2 := par k1 (by
    by_contra hx
    exact N j k1 (v k) (fun e => n4 e.symm) (fun e => n2 e.symm) (fun e => hkj (ek.symm.trans e)) hx hb
      (by rw [vk]; exact between_right _ _))
  obtain ⟨α, a1, a2⟩ := on_line hw0 p1
  obtain ⟨β, b1, b2⟩ := on_line (p := v k) (q := v k1) hw0 (by rw [vk] at p2; linarith)
  -- the neighbour ahead
  have hα : α ≠ 0 := by
    rintro rfl
    exact hnull k (Pt.ext' (by linarith) (by linarith))
  have hβ : β ≠ 0 := by
    rintro rfl
    exact hkk1 (hinj (Pt.ext' (by linarith) (by linarith)))
  have hsign : ¬ 0 < α * β := by
    intro h
    obtain ⟨p, hp, q1, q2⟩ := overlap (a := v k1) (b := v k) (c := v (k + 1)) (fun e => hkk1 (hinj e.symm)) (κ := -(α / β)) (by
      have : 0 < α / β := by
        rw [show α / β = α * β / (β * β) by field_simp]
        exact div_pos h (mul_self_pos.2 hβ)
      linarith) (by rw [a1, b1]; field_simp; ring) (by rw [a2, b2]; field_simp; ring)
    have := hA k1 p (by rw [vk]; exact q1) (by rw [vk, vk2]; exact q2)
    rw [vk] at this
    exact hp this
  obtain ⟨k', s', α', hα', e1, e2, hs', hB, m1, m2, m3⟩ : ∃ k' s' : ℕ, ∃ α' : ℝ, 0 < α' ∧ (v k').x = (v k).x + α' * w.x ∧
      (v k').y = (v k).y + α' * w.y ∧ w.x * ((v (s' + 1)).y - (v s').y) - w.y * ((v (s' + 1)).x - (v s').x) = 0 ∧
      (∀ p, Between (v k) (v k') p → Between (v s') (v (s' + 1)) p) ∧ ¬ k' ≡ j [MOD n] ∧ ¬ k' ≡ j + 1 [MOD n] ∧
      ∀ a, a ≡ s' [MOD n] ∨ a ≡ s' + 1 [MOD n] → a ≡ k [MOD n] ∨ a ≡ k' [MOD n] := by
    rcases lt_or_gt_of_ne hα with h | h
    · have hβ' : 0 < β := by
        by_contra hcon
        have : β < 0 := lt_of_le_of_ne (not_lt.1 hcon) hβ
        exact hsign (mul_pos_of_neg_of_neg h this)
      refine ⟨k1, k1, β, hβ', b1, b2, p2, fun p hp => ?_, n4, n2, fun a ha => ?_⟩
      · rw [vk]; exact hp.swap
      · rcases ha with ha | ha
        · exact Or.inr ha
        · exact Or.inl (ha.trans ek)
    · exact ⟨k + 1, k, α, h, a1, a2, p1, fun p hp => hp, n1, n3, fun a ha => ha⟩
  -- the end of the side ahead
  obtain ⟨γ, c1, c2⟩ := on_line hw0 hj
  have hγ : γ ≠ 0 := by
    rintro rfl
    exact hnull j (Pt.ext' (by linarith) (by linarith))
  obtain ⟨t, t0, t1, ht⟩ := hb
  have ht0 : t ≠ 0 := by
    rintro rfl
    refine hkj (hinj ?_)
    rw [ht]; apply Pt.ext' <;> unfold lerp <;> simp
  have ht1 : t ≠ 1 := by
    rintro rfl
    refine hkj' (hinj ?_)
    rw [ht]; apply Pt.ext' <;> unfold lerp <;> simp
  have t0' : 0 < t := lt_of_le_of_ne t0 ht0.symm
  have t1' : t < 1 := lt_of_le_of_ne t1 ht1
  have hvk1 : (v k).x = (v j).x + t * (γ * w.x) := by rw [ht]; unfold lerp; simp only; rw [c1]; ring
  have hvk2 : (v k).y = (v j).y + t * (γ * w.y) := by rw [ht]; unfold lerp; simp only; rw [c2]; ring
  have hbk : Between (v j) (v (j + 1)) (v k) := ⟨t, t0, t1, ht⟩
  obtain ⟨a, γ', hγ', f1, f2, ha, hB'⟩ : ∃ a : ℕ, ∃ γ' : ℝ, 0 < γ' ∧ (v a).x = (v k).x + γ' * w.x ∧ (v a).y = (v k).y + γ' * w.y ∧
      (a = j ∨ a = j + 1) ∧ ∀ p, Between (v k) (v a) p → Between (v j) (v (j + 1)) p := by
    rcases lt_or_gt_of_ne hγ with h | h
    · refine ⟨j, -(t * γ), by nlinarith, by rw [hvk1]; ring, by rw [hvk2]; ring, Or.inl rfl, fun p hp => ?_⟩
      exact (hbk.swap.inside hp).swap
    · refine ⟨j + 1, (1 - t) * γ, by nlinarith, by rw [hvk1, c1]; ring, by rw [hvk2, c2]; ring, Or.inr rfl, fun p hp => hbk.inside hp⟩
  rcases le_or_gt α' γ' with h | h
  · exact key k' j m1 m2 (hB' _ (between_along hα'.le h hγ' e1 e2 f1 f2)) hj α' hα' e1 e2
  · have hak : ¬ a ≡ k [MOD n] := by
      rcases ha with rfl | rfl
      · exact fun e => hkj e.symm
      · exact fun e => hkj' e.symm
    have hak' : ¬ a ≡ k' [MOD n] := by
      rcases ha with rfl | rfl
      · exact fun e => m1 e.symm
      · exact fun e => m2 e.symm
    have hno : ¬ (a ≡ s' [MOD n] ∨ a ≡ s' + 1 [MOD n]) := fun hc => by
      rcases m3 a hc with h | h
      · exact hak h
      · exact hak' h
    exact key a s' (fun e => hno (Or.inl e)) (fun e => hno (Or.inr e)) (hB _ (between_along hγ'.le h.le hα' f1 f2 e1 e2)) hs' γ' hγ' f1 f2

/-- A valid closed polygon with different corners does not touch itself, if sides that follow one another do not. -/
theorem simple_of_valid {R : Rt ℝ} (hE : R.IsExact) {l : List (Seg ℝ)} (hc : ClosedChain l) (hv : R.plValid l = true)
    (hnd : (l.map Seg.i).Nodup) (hap : Apart (1 / 10 ^ 5) {q | ∃ s ∈ l, q = s.i}) (h : 1 < l.length)
    (hA : ∀ k p, Between (cornerAt l (by omega) k) (cornerAt l (by omega) (k + 1)) p →
      Between (cornerAt l (by omega) (k + 1)) (cornerAt l (by omega) (k + 2)) p → p = cornerAt l (by omega) (k + 1)) :
    SimpleRing (cornerAt l (by omega)) l.length ∧ ∀ k, cornerAt l (by omega) k ≠ cornerAt l (by omega) (k + 1) := by
  have h1 := h
  replace h : 0 < l.length := by omega
  change ∀ k p, Between (cornerAt l h k) (cornerAt l h (k + 1)) p →
      Between (cornerAt l h (k + 1)) (cornerAt l h (k + 2)) p → p = cornerAt l h (k + 1) at hA
  change SimpleRing (cornerAt l h) l.length ∧ ∀ k, cornerAt l h k ≠ cornerAt l h (k + 1)
  set v := cornerAt l h with hvdef
  set n := l.length with hn
  have hmod : ∀ {i j}, i ≡ j [MOD n] → v i = v j := by
    intro i j e
    rw [hvdef]; unfold cornerAt
    have : i % l.length = j % l.length := e
    simp only [this]
  have hinj : ∀ {i j}, v i = v j → i ≡ j [MOD n] := by
    intro i j e
    have := (List.nodup_iff_injective_getElem.1 hnd)
    have hi : i % n < (l.map Seg.i).length := by rw [List.length_map]; exact Nat.mod_lt _ h
    have hj : j % n < (l.map Seg.i).length := by rw [List.length_map]; exact Nat.mod_lt _ h
    have := @this ⟨i % n, hi⟩ ⟨j % n, hj⟩ (by simp only [List.getElem_map]; exact e)
    exact (by simpa using this : i % n = j % n)
  have hmem : ∀ k, v k ∈ {q | ∃ s ∈ l, q = s.i} := fun k => ⟨_, List.getElem_mem (Nat.mod_lt k h), rfl⟩
  have hnull : ∀ k, v k ≠ v (k + 1) := by
    intro k e
    have := (Nat.modEq_iff_dvd' (by omega : k ≤ k + 1)).1 (hinj e)
    rw [Nat.add_sub_cancel_left] at this
    exact absurd (Nat.le_of_dvd one_pos this) (by omega)
  have hval := ((C63_valid R l).2.1 hv).2.2
  -- sides that are not neighbours and not parallel
  have N : ∀ i j p, ¬ i ≡ j [MOD n] → ¬ i + 1 ≡ j [MOD n] → ¬ j + 1 ≡ i [MOD n] → sideCross v i j ≠ 0 →
      Between (v i) (v (i + 1)) p → Between (v j) (v (j + 1)) p → False := by
    intro i j p h1 h2 h3 hx b1 b2
    have si := cornerAt_side hc h i
    have sj := cornerAt_side hc h j
    rw [← hvdef] at si sj
    have hf := hval (i % n) (j % n) (Nat.mod_lt _ h) (Nat.mod_lt _ h) (fun e => h1 e)
    have ht : R.touch (l[i % n]'(Nat.mod_lt _ h)) (l[j % n]'(Nat.mod_lt _ h)) = false := by
      refine touch_false hE hap ?_ ?_ ?_ ?_ ?_ ?_ ?_ ?_
      · rw [si.1]; exact hmem _
      · rw [si.2]; exact hmem _
      · rw [sj.1]; exact hmem _
      · rw [sj.2]; exact hmem _
      · rw [si.1, sj.1]; exact fun e => h1 (hinj e)
      · rw [si.1, sj.2]; exact fun e => h3 (hinj e).symm
      · rw [si.2, sj.1]; exact fun e => h2 (hinj e)
      · rw [si.2, sj.2]; exact fun e => h1 ((hinj e).add_right_cancel' 1)
    have := ios_of_meet hE ht (by rw [si.1, si.2, sj.1, sj.2]; exact hx) (by rw [si.1, si.2]; exact b1) (by rw [sj.1, sj.2]; exact b2)
    rw [hf] at this
    exact absurd this (by simp)
  have A : ∀ i j p, i + 1 ≡ j [MOD n] → Between (v i) (v (i + 1)) p → Between (v j) (v (j + 1)) p → p = v (i + 1) := by
    intro i j p hij b1 b2
    refine hA i p b1 ?_
    rwa [hmod hij, show v (i + 2) = v (j + 1) from hmod (hij.add_right 1)]
  have E := @no_bad_corner v n h1 hmod hinj hA N
  refine ⟨?_, hnull⟩
  intro i j p b1 b2 hij
  by_cases h1 : i + 1 ≡ j [MOD n]
  · exact Or.inl ⟨h1, A i j p h1 b1 b2⟩
  by_cases h2 : j + 1 ≡ i [MOD n]
  · exact Or.inr ⟨h2, A j i p h2 b2 b1⟩
  exfalso
  by_cases hx : sideCross v i j = 0
  · rcases end_on_other (hnull i) hx b1 b2 with h3 | h3 | h3
    · exact E (fun e => hij e.symm) (fun e => h1 e.symm) h3
    · exact E h2 (fun e => hij (e.add_right_cancel' 1).symm) h3
    · exact E hij (fun e => h2 e.symm) h3
  · exact N i j p hij h1 h2 hx b1 b2

/-! ### it goes round once -/

theorem onceRound_of_blocks {l : List (Seg ℝ)} (hc : ClosedChain l) (h : 0 < l.length) {a b : ℝ} {c m : ℕ}
    (hup : ∀ k < m, 0 < sideAlong (cornerAt l h) a b (c + k))
    (hdn : ∀ k, m ≤ k → k < l.length → sideAlong (cornerAt l h) a b (c + k) < 0) : OnceRound l := by
  have hside : ∀ k (hk : k < (l.rotate c).length), a * (((l.rotate c)[k]).j.x - ((l.rotate c)[k]).i.x) +
      b * (((l.rotate c)[k]).j.y - ((l.rotate c)[k]).i.y) = sideAlong (cornerAt l h) a b (c + k) := by
    intro k hk
    rw [List.getElem_rotate, (cornerAt_side hc h (k + c)).1, (cornerAt_side hc h (k + c)).2, add_comm k c]
    rfl
  refine ⟨a, b, (l.rotate c).take m, (l.rotate c).drop m, ⟨c, (List.take_append_drop _ _).symm⟩, ?_, ?_⟩
  · intro s hs
    obtain ⟨k, hk, rfl⟩ := List.getElem_of_mem hs
    rw [List.length_take, List.length_rotate] at hk
    rw [List.getElem_take, hside]
    exact hup k (by omega)
  · intro s hs
    obtain ⟨k, hk, rfl⟩ := List.getElem_of_mem hs
    rw [List.length_drop, List.length_rotate] at hk
    rw [List.getElem_drop, hside]
    exact hdn _ (by omega) (by omega)

/-- `(x, y) ↦ (x + b·y, y)` -/
def shear (b : ℝ) (p : Pt ℝ) : Pt ℝ := ⟨p.x + b * p.y, p.y⟩

theorem shear_inj {b : ℝ} {p q : Pt ℝ} (e : shear b p = shear b q) : p = q := by
  unfold shear at e
  rw [Pt.mk.injEq] at e
  obtain ⟨e1, e2⟩ := e
  rw [e2] at e1
  exact Pt.ext' (by linarith) e2

theorem shear_between {b : ℝ} {p q r : Pt ℝ} (h : Between (shear b p) (shear b q) r) : ∃ r', r = shear b r' ∧ Between p q r' := by
  obtain ⟨t, t0, t1, e⟩ := h
  refine ⟨lerp p q t, ?_, t, t0, t1, rfl⟩
  rw [e]
  unfold shear lerp
  apply Pt.ext'
  · simp only; ring
  · simp only

/-- A closed polygon that turns nowhere to the right and does not touch itself goes round once. -/
theorem once_of_simple {l : List (Seg ℝ)} (hc : ClosedChain l) (h : 0 < l.length)
    (hturn : ∀ k, 0 ≤ sideCross (cornerAt l h) k (k + 1)) (hnull : ∀ k, cornerAt l h k ≠ cornerAt l h (k + 1))
    (hA : ∀ k p, Between (cornerAt l h k) (cornerAt l h (k + 1)) p → Between (cornerAt l h (k + 1)) (cornerAt l h (k + 2)) p →
      p = cornerAt l h (k + 1)) (hS : SimpleRing (cornerAt l h) l.length) : OnceRound l := by
  have hper := cornerAt_per l h
  have hside := cornerAt_side hc h
  set v := cornerAt l h with hv
  set n := l.length with hn
  have hvm : ∀ k, v (k % n) = v k := by
    intro k; rw [hv]; unfold cornerAt; simp only [← hn, Nat.mod_mod]
  have hvm' : ∀ {i j}, i ≡ j [MOD n] → v i = v j := by
    intro i j e
    have e' : i % n = j % n := e
    rw [← hvm i, e', hvm]
  -- where it turns round it really turns
  have hpos : ∀ k b, sideAlong v 1 b k * sideAlong v 1 b (k + 1) < 0 → 0 < sideCross v k (k + 1) := by
    intro k b hneg
    refine lt_of_le_of_ne (hturn k) fun h0 => ?_
    obtain ⟨κ, e1, e2⟩ := on_line (p := v (k + 1)) (q := v (k + 1 + 1)) (w := ⟨(v (k + 1)).x - (v k).x, (v (k + 1)).y - (v k).y⟩) (by
      by_contra hcon
      push Not at hcon
      exact hnull k (Pt.ext' (by linarith [hcon.1]) (by linarith [hcon.2]))) (by unfold sideCross at h0; simp only; linarith)
    simp only at e1 e2
    have hs : sideAlong v 1 b (k + 1) = κ * sideAlong v 1 b k := by
      unfold sideAlong; rw [e1, e2]; ring
    rw [hs] at hneg
    have hκ : κ < 0 := by
      by_contra hcon
      have := mul_nonneg (not_lt.1 hcon) (mul_self_nonneg (sideAlong v 1 b k))
      linarith
    obtain ⟨p, hp, q1, q2⟩ := overlap (hnull k) hκ (c := v (k + 1 + 1)) (by rw [e1]; ring) (by rw [e2]; ring)
    exact hp (hA k p q1 q2)
  obtain ⟨b, hb⟩ := exists_direction l (by
    intro s hs e
    obtain ⟨k, hk, rfl⟩ := List.getElem_of_mem hs
    have c1 := hside k
    simp only [Nat.mod_eq_of_lt hk] at c1
    rw [c1.1, c1.2] at e
    exact hnull k e)
  have hs : ∀ k, sideAlong v 1 b k ≠ 0 := by
    intro k
    have := hb _ (List.getElem_mem (Nat.mod_lt k h))
    rw [(hside k).1, (hside k).2] at this
    exact this
  have hX : ∀ k, (shear b (v (k + 1))).x - (shear b (v k)).x = sideAlong v 1 b k := by
    intro k; unfold shear sideAlong; ring
  have hsm : ∀ {i j}, i ≡ j [MOD n] → sideAlong v 1 b i = sideAlong v 1 b j := by
    intro i j e
    unfold sideAlong
    rw [hvm' e, hvm' (e.add_right 1)]
  -- the hindmost corner is reached backwards and left forwards
  obtain ⟨c, -, hmin⟩ := Finset.exists_min_image (Finset.range n) (fun k => (shear b (v k)).x) ⟨0, Finset.mem_range.2 h⟩
  have hmin : ∀ k, (shear b (v c)).x ≤ (shear b (v k)).x := by
    intro k
    have := hmin (k % n) (Finset.mem_range.2 (Nat.mod_lt _ h))
    rwa [hvm] at this
  have hc1 : sideAlong v 1 b (c + (n - 1)) < 0 := by
    refine lt_of_le_of_ne ?_ (hs _)
    rw [← hX, show c + (n - 1) + 1 = c + n by omega, hper]
    linarith [hmin (c + (n - 1))]
  have hc2 : 0 < sideAlong v 1 b c := by
    refine lt_of_le_of_ne ?_ (hs _).symm
    rw [← hX]
    linarith [hmin (c + 1)]
  -- the foremost of these corners
  classical
  obtain ⟨m, hmem, hmax⟩ := Finset.exists_max_image
    ((Finset.range n).filter fun k => sideAlong v 1 b (k + (n - 1)) < 0 ∧ 0 < sideAlong v 1 b k) (fun k => (shear b (v k)).x)
    ⟨c % n, by
      rw [Finset.mem_filter, Finset.mem_range]
      have e : c % n ≡ c [MOD n] := Nat.mod_modEq c n
      exact ⟨Nat.mod_lt _ h, by rw [hsm (e.add_right _)]; exact hc1, by rw [hsm e]; exact hc2⟩⟩
  rw [Finset.mem_filter] at hmem
  obtain ⟨-, hm1, hm2⟩ := hmem
  obtain ⟨q, -, hq1, hq2⟩ := one_round (v := fun k => shear b (v (m + k))) (n := n)
    (fun k => by show shear b (v (m + (k + n))) = _; rw [← add_assoc, hper])
    h
    (fun k e => hs (m + k) (by rw [← hX]; rw [sub_eq_zero]; exact e.symm))
    (fun k hk => by
      have e1 : det3 (shear b (v (m + k))) (shear b (v (m + (k + 1)))) (shear b (v (m + (k + 2)))) =
          sideCross v (m + k) (m + k + 1) := by
        unfold det3 shear sideCross
        simp only [← add_assoc]
        ring
      rw [e1]
      refine hpos _ b ?_
      rw [← hX, ← hX]
      have g1 : shear b (v (m + (k + 1))) = shear b (v (m + k + 1)) := rfl
      have g2 : shear b (v (m + (k + 2))) = shear b (v (m + k + 1 + 1)) := rfl
      simp only [g1, g2] at hk
      rcases hk with hk | hk
      · exact mul_neg_of_pos_of_neg (by linarith [hk.1]) (by linarith [hk.2])
      · exact mul_neg_of_neg_of_pos (by linarith [hk.1]) (by linarith [hk.2]))
    (by
      intro i j p b1 b2 hij
      obtain ⟨p1, rfl, c1⟩ := shear_between b1
      obtain ⟨p2, e, c2⟩ := shear_between b2
      have e := shear_inj e
      subst e
      rcases hS (m + i) (m + j) p1 c1 c2 (fun e => hij (e.add_left_cancel' m)) with ⟨e1, e2⟩ | ⟨e1, e2⟩
      · left
        refine ⟨Nat.ModEq.add_left_cancel' m e1, ?_⟩
        rw [e2]; rfl
      · right
        refine ⟨Nat.ModEq.add_left_cancel' m e1, ?_⟩
        rw [e2]; rfl)
    (by
      have := hX m
      show (shear b (v m)).x < (shear b (v (m + 1))).x
      linarith)
    (by
      have := hX (m + (n - 1))
      rw [show m + (n - 1) + 1 = m + n by omega] at this
      show (shear b (v (m + n))).x < (shear b (v (m + (n - 1)))).x
      linarith)
    (by
      intro k h1 h2
      have e1 : sideAlong v 1 b (m + k) < 0 := by
        rw [← hX]
        have : (shear b (v (m + k + 1))).x < (shear b (v (m + k))).x := h1
        linarith
      have e2 : 0 < sideAlong v 1 b (m + k + 1) := by
        rw [← hX]
        have : (shear b (v (m + k + 1))).x < (shear b (v (m + k + 1 + 1))).x := h2
        linarith
      have e : (m + k + 1) % n ≡ m + k + 1 [MOD n] := Nat.mod_modEq _ n
      have := hmax ((m + k + 1) % n) (by
        rw [Finset.mem_filter, Finset.mem_range]
        refine ⟨Nat.mod_lt _ h, ?_, by rw [hsm e]; exact e2⟩
        rw [hsm (e.add_right _), show m + k + 1 + (n - 1) = m + k + n by omega, hsm (Nat.add_modEq_right)]
        exact e1)
      rw [hvm] at this
      exact this)
  refine onceRound_of_blocks hc h (a := 1) (b := b) (c := m) (m := q) ?_ ?_
  · intro k hk
    rw [← hX]
    have : (shear b (v (m + k))).x < (shear b (v (m + k + 1))).x := hq1 k hk
    linarith
  · intro k hk hkn
    rw [← hX]
    have : (shear b (v (m + k + 1))).x < (shear b (v (m + k))).x := hq2 k hk hkn
    linarith

theorem noTurnBack_corner {l : List (Seg ℝ)} (hc : ClosedChain l) (hb : NoTurnBack l) (h : 0 < l.length) (k : ℕ) (p : Pt ℝ)
    (h1 : Between (cornerAt l h k) (cornerAt l h (k + 1)) p) (h2 : Between (cornerAt l h (k + 1)) (cornerAt l h (k + 2)) p) :
    p = cornerAt l h (k + 1) := by
  have c1 := cornerAt_side hc h k
  have c2 := cornerAt_side hc h (k + 1)
  have := hb (k % l.length) (Nat.mod_lt _ h) p (by rw [c1.1, c1.2]; exact h1) (by
    simp only [Nat.mod_add_mod]
    rw [c2.1, c2.2]; exact h2)
  rwa [c1.2] at this

theorem noTurnBack_of_turns {R : Rt ℝ} (hE : R.IsExact) {l : List (Seg ℝ)} (hc : ClosedChain l) (hst : ∀ x ∈ R.cps l, x ≠ 0) :
    NoTurnBack l := by
  intro k hk p b1 b2
  have h : 0 < l.length := by omega
  have hx := hst _ (List.getElem_mem (l := R.cps l) (n := k % l.length) (by rw [cps_length]; exact Nat.mod_lt _ h))
  rw [cps_corner hE hc h k] at hx
  have c1 := cornerAt_side hc h k
  simp only [Nat.mod_eq_of_lt hk] at c1
  have c2 := cornerAt_side hc h (k + 1)
  rw [c1.1, c1.2] at b1
  rw [c2.1, c2.2] at b2
  rw [c1.2]
  set v := cornerAt l h
  obtain ⟨t, -, -, e3⟩ := b1
  obtain ⟨u, -, -, e4⟩ := b2
  have : u * sideCross v k (k + 1) = 0 := by
    have d1 : det3 (v k) (v (k + 1)) p = 0 := by rw [e3]; unfold det3 lerp; ring
    have d2 : det3 (v k) (v (k + 1)) p = u * sideCross v k (k + 1) := by rw [e4]; unfold det3 lerp sideCross; ring
    rw [← d2, d1]
  have hu : u = 0 := by
    rcases mul_eq_zero.1 this with h | h
    · exact h
    · exact absurd h hx
  rw [e4, hu]
  unfold lerp
  apply Pt.ext' <;> simp

theorem flipX_flipX (l : List (Seg ℝ)) : (l.map flipX).map flipX = l := by
  rw [List.map_map]
  conv_rhs => rw [← List.map_id l]
  apply List.map_congr_left
  intro s _
  simp [flipX]

theorem once_of_valid {R : Rt ℝ} (hE : R.IsExact) {l : List (Seg ℝ)} (hc : ClosedChain l) (hv : R.plValid l = true)
    (hnd : (l.map Seg.i).Nodup) (hap : Apart (1 / 10 ^ 5) {q | ∃ s ∈ l, q = s.i}) (hb : NoTurnBack l) (h1 : 1 < l.length)
    (ht : (∀ x ∈ R.cps l, 0 ≤ x) ∨ ∀ x ∈ R.cps l, x ≤ 0) : OnceRound l := by
  have h : 0 < l.length := by omega
  have hmem : ∀ k, sideCross (cornerAt l h) k (k + 1) ∈ R.cps l := by
    intro k; rw [← cps_corner hE hc h k]; exact List.getElem_mem _
  have hA := noTurnBack_corner hc hb h
  obtain ⟨hS, hnull⟩ := simple_of_valid hE hc hv hnd hap h1 hA
  rcases ht with ht | ht
  · exact once_of_simple hc h (fun k => ht _ (hmem k)) hnull hA hS
  · have h' : 0 < (l.map flipX).length := by rwa [List.length_map]
    have hcor : ∀ k, cornerAt (l.map flipX) h' k = ⟨-(cornerAt l h k).x, (cornerAt l h k).y⟩ := by
      intro k; unfold cornerAt; simp only [List.getElem_map, List.length_map, flipX]
    have hback : ∀ {p q r : Pt ℝ}, Between (⟨-p.x, p.y⟩ : Pt ℝ) ⟨-q.x, q.y⟩ r → Between p q ⟨-r.x, r.y⟩ := by
      rintro p q r ⟨t, t0, t1, e⟩
      refine ⟨t, t0, t1, ?_⟩
      rw [e]
      unfold lerp
      apply Pt.ext'
      · simp only; ring
      · rfl
    have ho := once_of_simple (flipX_chain hc) h' (by
      intro k
      have := ht _ (hmem k)
      have e : sideCross (cornerAt (l.map flipX) h') k (k + 1) = - sideCross (cornerAt l h) k (k + 1) := by
        unfold sideCross
        simp only [hcor]
        ring
      rw [e]; linarith) (by
      intro k e
      rw [hcor, hcor, Pt.mk.injEq, neg_inj] at e
      exact hnull k (Pt.ext' e.1 e.2)) (by
      intro k p b1 b2
      rw [hcor, hcor] at b1 b2
      rw [hcor, ← hA k _ (hback b1) (hback b2)]
      simp) (by
      intro i j p b1 b2 hij
      rw [List.length_map] at hij ⊢
      rw [hcor, hcor] at b1 b2 ⊢
      rcases hS i j _ (hback b1) (hback b2) hij with ⟨e1, e2⟩ | ⟨e1, e2⟩
      · left
        refine ⟨e1, ?_⟩
        rw [← e2]
        simp
      · right
        refine ⟨e1, ?_⟩
        rw [← e2]
        simp)
    have := flipX_once ho
    rwa [flipX_flipX] at this

/-- C131: if all corners are different (by 1e-5 at least in x or y) and the polygon turns back at none of them, `isconvex` of a
valid closed polygon is right: it is True exactly if no corner is to the right of a side, or none to the left; real arithmetic. -/
theorem C131_simple {R : Rt ℝ} (hE : R.IsExact) {l : List (Seg ℝ)} (hc : ClosedChain l) (hv : R.plValid l = true)
    (hnd : (l.map Seg.i).Nodup) (hap : Apart (1 / 10 ^ 5) {q | ∃ s ∈ l, q = s.i}) (hb : NoTurnBack l) :
    R.isConvex l = .ok true ↔ NoneRight l ∨ NoneLeft l := by
  refine ⟨fun hi => ?_, (C131_convex hE hc hv).1⟩
  rcases Nat.lt_or_ge 1 l.length with h | h
  · refine (C131_convex hE hc hv).2 (Or.inl (once_of_valid hE hc hv hnd hap hb h ?_)) hi
    obtain ⟨c, e, hcv⟩ := (C51_convex R l).2 hv
    rw [e] at hi
    exact hcv.1 (by simpa using hi)
  · exact (C131_convex hE hc hv).2 (Or.inr (by omega)) hi

/-- C131: if moreover it turns left at every corner, every other corner is strictly to the left of each side. -/
theorem C131_simple_strict {R : Rt ℝ} (hE : R.IsExact) {l : List (Seg ℝ)} (hc : ClosedChain l) (hv : R.plValid l = true)
    (hnd : (l.map Seg.i).Nodup) (hap : Apart (1 / 10 ^ 5) {q | ∃ s ∈ l, q = s.i}) (ht : ∀ x ∈ R.cps l, 0 < x) : ConvexCcw l := by
  rcases (by omega : l.length = 0 ∨ l.length = 1 ∨ 1 < l.length) with h | h | h
  · rw [List.length_eq_zero_iff] at h
    subst h
    exact ⟨hc, by simp, by simp⟩
  · have h0 : 0 < l.length := by omega
    have := ht _ (List.getElem_mem (l := R.cps l) (n := 0 % l.length) (by rw [cps_length]; exact Nat.mod_lt _ h0))
    rw [cps_corner hE hc h0 0] at this
    have hp := cornerAt_per l h0 0
    rw [h, Nat.zero_add] at hp
    unfold sideCross at this
    rw [Nat.zero_add, hp] at this
    simp at this
  · exact C131_strict hE hc (once_of_valid hE hc hv hnd hap (noTurnBack_of_turns hE hc fun x hx => ne_of_gt (ht x hx)) h
      (Or.inl fun x hx => (ht x hx).le)) ht

/-- the hypotheses of C131_simple and C131_simple_strict hold for the square with corners (1, 1) and (2, 2) -/
theorem sq12_simple : ClosedChain sq12 ∧ exReal.plValid sq12 = true ∧ (sq12.map Seg.i).Nodup ∧ Apart (1 / 10 ^ 5) {q | ∃ s ∈ sq12, q = s.i} ∧
    (∀ x ∈ exReal.cps sq12, 0 < x) ∧ NoTurnBack sq12 := by
  have hcps := (C131_once exReal_isExact sq12_convex (by decide)).2
  refine ⟨sq12_convex.chain, plValid_clear exReal_isExact (H := sq12) ?_ (SameDrawing.refl _) sq12_convex.chain (by simp [sq12]),
    sq12_convex.nodup, ?_, hcps, noTurnBack_of_turns exReal_isExact sq12_convex.chain fun x hx => ne_of_gt (hcps x hx)⟩
  · simp only [sq12, List.pairwise_cons, List.mem_cons, List.not_mem_nil, or_false]
    refine ⟨?_, ?_, ?_, ?_, ?_⟩
    all_goals first | exact List.Pairwise.nil | skip
    all_goals
      intro o ho
      unfold KeepClear StripsApart
      first
      | rcases ho with rfl | rfl | rfl <;> norm_num
      | rcases ho with rfl | rfl <;> norm_num
      | (subst ho; norm_num)
      | exact ho.elim
  · rintro p ⟨s, hs, rfl⟩ q ⟨o, ho, rfl⟩ hne
    simp only [sq12, List.mem_cons, List.not_mem_nil, or_false] at hs ho
    rcases hs with rfl | rfl | rfl | rfl <;> rcases ho with rfl | rfl | rfl | rfl
    all_goals first | exact absurd rfl hne | (norm_num)

end Srep
