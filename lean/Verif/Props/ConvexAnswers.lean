import Verif.Props.ConvexSimple

/-! What a polygon's own answers (`isvalid`, `isconvex`, `iscw`) say about its shape and about `is_internal_point`. -/

set_option linter.unusedSectionVars false

namespace Srep
open Rt

theorem valid_of_isConvex {R : Rt ℝ} {l : List (Seg ℝ)} (h : R.isConvex l = .ok true) : R.plValid l = true := by
  by_contra hv
  rw [(C51_convex R l).1 (by simpa using hv)] at h
  cases h

/-- the corners of the polygon passed in the opposite direction -/
theorem chain_ends {l : List (Seg ℝ)} (hc : ClosedChain l) {s : Seg ℝ} (hs : s ∈ l) : ∃ o ∈ l, s.j = o.i := by
  obtain ⟨k, hk, rfl⟩ := List.getElem_of_mem hs
  exact ⟨_, List.getElem_mem _, hc k hk⟩

theorem oppositeWay_chain {l : List (Seg ℝ)} (hc : ClosedChain l) : ClosedChain (oppositeWay l) := by
  intro k hk
  have hn : (oppositeWay l).length = l.length := by simp [oppositeWay]
  rw [hn] at hk
  simp only [oppositeWay, List.getElem_map, List.getElem_reverse, List.length_map, List.length_reverse]
  have h := hc (l.length - 1 - (k + 1) % l.length) (by omega)
  rw [h]
  congr 2
  rcases Nat.lt_or_ge (k + 1) l.length with h' | h'
  · rw [Nat.mod_eq_of_lt h', Nat.mod_eq_of_lt (by omega)]; omega
  · have : k + 1 = l.length := by omega
    rw [this, Nat.mod_self, Nat.sub_zero, Nat.sub_add_cancel (by omega), Nat.mod_self]; omega

theorem oppositeWay_nodup {l : List (Seg ℝ)} (hc : ClosedChain l) (hnd : (l.map Seg.i).Nodup) :
    ((oppositeWay l).map Seg.i).Nodup := by
  have e : (oppositeWay l).map Seg.i = (l.map Seg.j).reverse := by
    unfold oppositeWay
    simp [List.map_reverse, Function.comp_def]
  rw [e, List.nodup_reverse, List.nodup_iff_injective_get]
  intro a b hab
  rw [List.nodup_iff_injective_get] at hnd
  have ha : a.1 < l.length := by simpa using a.2
  have hb : b.1 < l.length := by simpa using b.2
  simp only [List.get_eq_getElem, List.getElem_map] at hab
  rw [hc _ ha, hc _ hb] at hab
  have := @hnd ⟨(a.1 + 1) % l.length, by simpa using Nat.mod_lt _ (by omega)⟩ ⟨(b.1 + 1) % l.length, by simpa using Nat.mod_lt _ (by omega)⟩
    (by simpa using hab)
  have h := Fin.mk.inj this
  apply Fin.ext
  rcases Nat.lt_or_ge (a.1 + 1) l.length with h1 | h1 <;> rcases Nat.lt_or_ge (b.1 + 1) l.length with h2 | h2
  · rw [Nat.mod_eq_of_lt h1, Nat.mod_eq_of_lt h2] at h; omega
  · rw [Nat.mod_eq_of_lt h1, (by omega : b.1 + 1 = l.length), Nat.mod_self] at h; omega
  · rw [Nat.mod_eq_of_lt h2, (by omega : a.1 + 1 = l.length), Nat.mod_self] at h; omega
  · omega

/-- C133: a closed polygon with different corners that calls itself convex and not clockwise, without a straight corner, is
strictly convex and is passed counter-clockwise. -/
theorem C133_ccw {R : Rt ℝ} (hE : R.IsExact) {l : List (Seg ℝ)} (hc : ClosedChain l) (hnd : (l.map Seg.i).Nodup)
    (hap : Apart (1 / 10 ^ 5) {q | ∃ s ∈ l, q = s.i}) (h0 : ∀ x ∈ R.cps l, x ≠ 0) (hi : R.isConvex l = .ok true)
    (hw : R.isCw l = .ok false) : ConvexCcw l := by
  have hv := valid_of_isConvex hi
  refine C131_simple_strict hE hc hv hnd hap ?_
  obtain ⟨b, hb, hcw⟩ := C51_cw_convex hE.isRounding l hi
  rw [hw] at hb
  obtain ⟨y, hy, hy0⟩ := hcw.1 (Except.ok.inj hb).symm
  obtain ⟨c, e, hcv⟩ := (C51_convex R l).2 hv
  rw [e] at hi
  rcases hcv.1 (by simpa using hi) with h | h
  · exact fun x hx => lt_of_le_of_ne (h x hx) (h0 x hx).symm
  · exact absurd (h y hy) (not_le.2 hy0)

/-- C133: if it calls itself clockwise, the polygon passed in the opposite direction is. -/
theorem C133_cw {R : Rt ℝ} (hE : R.IsExact) {l : List (Seg ℝ)} (hc : ClosedChain l) (hnd : (l.map Seg.i).Nodup)
    (hap : Apart (1 / 10 ^ 5) {q | ∃ s ∈ l, q = s.i}) (h0 : ∀ x ∈ R.cps l, x ≠ 0) (hi : R.isConvex l = .ok true)
    (hw : R.isCw l = .ok true) : ConvexCcw (oppositeWay l) := by
  have hv := valid_of_isConvex hi
  obtain ⟨b, hb, hcw⟩ := C51_cw_convex hE.isRounding l hi
  rw [hw] at hb
  have hb := Except.ok.inj hb
  have hneg : ∀ x ∈ R.cps l, x < 0 := by
    intro x hx
    refine lt_of_le_of_ne ?_ (h0 x hx)
    by_contra hx0
    have := hcw.2 ⟨x, hx, not_le.1 hx0⟩
    rw [← hb] at this
    exact absurd this (by decide)
  have hF : ConvexCcw (l.map flipX) := by
    rcases (by omega : l.length = 0 ∨ l.length = 1 ∨ 1 < l.length) with h | h | h
    · rw [List.length_eq_zero_iff] at h
      subst h
      exact ⟨hc, by simp, by simp⟩
    · have h0 : 0 < l.length := by omega
      have := hneg _ (List.getElem_mem (l := R.cps l) (n := 0 % l.length) (by rw [cps_length]; exact Nat.mod_lt _ h0))
      rw [cps_corner hE hc h0 0] at this
      have hp := cornerAt_per l h0 0
      rw [h, Nat.zero_add] at hp
      unfold sideCross at this
      rw [Nat.zero_add, hp] at this
      simp at this
    · refine C131_strict hE (flipX_chain hc) (flipX_once (once_of_valid hE hc hv hnd hap
        (noTurnBack_of_turns hE hc h0) h (Or.inr fun x hx => le_of_lt (hneg x hx)))) ?_
      rw [flipX_cps hE]
      intro x hx
      obtain ⟨y, hy, rfl⟩ := List.mem_map.1 hx
      have := hneg y hy
      linarith
  refine ⟨oppositeWay_chain hc, oppositeWay_nodup hc hnd, ?_⟩
  intro s hs o ho
  have hs' := mem_oppositeWay.1 hs
  obtain ⟨o', ho', e⟩ := chain_ends hc (mem_oppositeWay.1 ho)
  have e : o.i = o'.i := e
  rw [e]
  have inj : ∀ p q : Pt ℝ, (⟨-p.x, p.y⟩ : Pt ℝ) = ⟨-q.x, q.y⟩ → p = q := by
    intro p q h
    rw [Pt.mk.injEq] at h
    exact Pt.ext' (by linarith [h.1]) h.2
  rcases hF.left _ (List.mem_map_of_mem hs') _ (List.mem_map_of_mem ho') with h | h | h
  · exact Or.inr (Or.inl (inj _ _ h))
  · exact Or.inl (inj _ _ h)
  · refine Or.inr (Or.inr ?_)
    simp only [flipX, det3] at h
    unfold det3
    linarith

/-- C133: conversely a valid strictly convex polygon passed counter-clockwise calls itself convex and not clockwise, and has
no straight corner. -/
theorem C133_answers {R : Rt ℝ} (hE : R.IsExact) {l : List (Seg ℝ)} (hv : R.plValid l = true) (hcv : ConvexCcw l)
    (h3 : 3 ≤ l.length) : R.isConvex l = .ok true ∧ R.isCw l = .ok false ∧ R.isCcw l = .ok true ∧ ∀ x ∈ R.cps l, x ≠ 0 := by
  have hp := (C131_once hE hcv h3).2
  have hi : R.isConvex l = .ok true := by
    obtain ⟨c, e, h⟩ := (C51_convex R l).2 hv
    rw [e, h.2 (Or.inl fun x hx => le_of_lt (hp x hx))]
  obtain ⟨b, hb, hcw⟩ := C51_cw_convex hE.isRounding l hi
  have hlen : 0 < (R.cps l).length := by rw [cps_length]; omega
  have : b = false := hcw.2 ⟨_, List.getElem_mem hlen, hp _ (List.getElem_mem hlen)⟩
  subst this
  refine ⟨hi, hb, ?_, fun x hx => ne_of_gt (hp x hx)⟩
  unfold isCcw
  rw [hb]
  rfl

/-- C133: `is_internal_point` of a polygon that calls itself convex is right: it is True for the points strictly on the inner
side of every side, and False for those strictly on the outer side of some side; which side is the inner one is what `iscw`
says. -/
theorem C133_point {R : Rt ℝ} (hE : R.IsExact) {l : List (Seg ℝ)} (hne : l ≠ []) (hc : ClosedChain l)
    (hnd : (l.map Seg.i).Nodup) (hap : Apart (1 / 10 ^ 5) {q | ∃ s ∈ l, q = s.i}) (h0 : ∀ x ∈ R.cps l, x ≠ 0)
    (hi : R.isConvex l = .ok true) (p : Pt ℝ) (ω : ℕ → Pt ℝ) (hω : ∀ k < 3, GoodTarget l p (ω k) ∧ Spread l p (ω k))
    (fuel : ℕ) :
    (R.isCw l = .ok false ∧ ((∀ s ∈ l, 0 < det3 s.i s.j p) → R.plInternal l p ω (fuel + 1) = some true) ∧
      ((∃ s ∈ l, det3 s.i s.j p < 0) → R.plInternal l p ω (fuel + 1) = some false)) ∨
    (R.isCw l = .ok true ∧ ((∀ s ∈ l, det3 s.i s.j p < 0) → R.plInternal l p ω (fuel + 1) = some true) ∧
      ((∃ s ∈ l, 0 < det3 s.i s.j p) → R.plInternal l p ω (fuel + 1) = some false)) := by
  obtain ⟨b, hb, -⟩ := C51_cw_convex hE.isRounding l hi
  have sw : ∀ s : Seg ℝ, det3 s.j s.i p = - det3 s.i s.j p := by intro s; unfold det3; ring
  cases b
  · have hcv := C133_ccw hE hc hnd hap h0 hi hb
    exact Or.inl ⟨hb, fun h => (C84_inside hE l hcv hne p h ω hω fuel).1, fun h => (C84_outside hE l hcv p h ω hω fuel).1⟩
  · have hcv := C133_cw hE hc hnd hap h0 hi hb
    have h := C84_clockwise hE l hcv hne p ω hω fuel
    refine Or.inr ⟨hb, fun hp => h.1 ?_, fun hp => h.2 ?_⟩
    · intro s hs
      have := hp _ (mem_oppositeWay.1 hs)
      have e := sw s
      simp only at this
      linarith
    · obtain ⟨s, hs, hp⟩ := hp
      refine ⟨⟨s.j, s.i, s.cls⟩, mem_oppositeWay.2 hs, ?_⟩
      have e := sw s
      show det3 s.j s.i p < 0
      linarith

/-- non-vacuity: the square with corners (1, 1) and (2, 2), its centre and the target (11, 5) meet the hypotheses -/
example : exReal.isConvex sq12 = .ok true ∧ exReal.isCw sq12 = .ok false ∧
    exReal.plInternal sq12 ⟨3 / 2, 3 / 2⟩ (fun _ => ⟨11, 5⟩) 1 = some true := by
  obtain ⟨hc, hv, hnd, hap, -, -⟩ := sq12_simple
  obtain ⟨hi, hw, -, h0⟩ := C133_answers exReal_isExact hv sq12_convex (by decide)
  obtain ⟨-, hin, -, -, hg, hs⟩ := sq12_good
  refine ⟨hi, hw, ?_⟩
  rcases C133_point exReal_isExact (by simp [sq12]) hc hnd hap h0 hi ⟨3 / 2, 3 / 2⟩ (fun _ => ⟨11, 5⟩) (fun _ _ => ⟨hg, hs⟩) 0
    with ⟨-, h, -⟩ | ⟨h, -⟩
  · exact h hin
  · rw [hw] at h; cases h

/-- the same square passed clockwise -/
def sq12cw : List (Seg ℝ) :=
  [⟨⟨1, 1⟩, ⟨1, 2⟩, .line⟩, ⟨⟨1, 2⟩, ⟨2, 2⟩, .line⟩, ⟨⟨2, 2⟩, ⟨2, 1⟩, .line⟩, ⟨⟨2, 1⟩, ⟨1, 1⟩, .line⟩]

theorem sq12cw_simple : ClosedChain sq12cw ∧ exReal.plValid sq12cw = true ∧ (sq12cw.map Seg.i).Nodup ∧
    Apart (1 / 10 ^ 5) {q | ∃ s ∈ sq12cw, q = s.i} ∧ ∀ x ∈ exReal.cps sq12cw, x < 0 := by
  have hc : ClosedChain sq12cw := by
    intro k hk
    have : k < 4 := hk
    interval_cases k <;> rfl
  refine ⟨hc, plValid_clear exReal_isExact (H := sq12cw) ?_ (SameDrawing.refl _) hc (by simp [sq12cw]), by simp [sq12cw], ?_, ?_⟩
  · simp only [sq12cw, List.pairwise_cons, List.mem_cons, List.not_mem_nil, or_false]
    refine ⟨?_, ?_, ?_, ?_, ?_⟩
    all_goals first | exact List.Pairwise.nil | skip
    all_goals
      intro o ho
      unfold KeepClear StripsApart
      first
      | rcases ho with rfl | rfl | rfl <;> norm_num
      | rcases ho with rfl | rfl <;> norm_num
      | (subst ho; norm_num)
      | exact ho.elim
  · rintro p ⟨s, hs, rfl⟩ q ⟨o, ho, rfl⟩ hne
    simp only [sq12cw, List.mem_cons, List.not_mem_nil, or_false] at hs ho
    rcases hs with rfl | rfl | rfl | rfl <;> rcases ho with rfl | rfl | rfl | rfl
    all_goals first | exact absurd rfl hne | (norm_num)
  · intro x hx
    simp only [cps, sq12cw, List.tail_cons, List.take_succ_cons, List.take_zero, List.cons_append, List.nil_append,
      List.zipWith_cons_cons, List.zipWith_nil_left, List.mem_cons, List.not_mem_nil, or_false, exReal_isExact.cross'] at hx
    rcases hx with rfl | rfl | rfl | rfl <;> norm_num

/-- non-vacuity of the clockwise case -/
example : exReal.isConvex sq12cw = .ok true ∧ exReal.isCw sq12cw = .ok true ∧ ConvexCcw (oppositeWay sq12cw) := by
  obtain ⟨hc, hv, hnd, hap, hneg⟩ := sq12cw_simple
  have hi : exReal.isConvex sq12cw = .ok true := by
    obtain ⟨c, e, h⟩ := (C51_convex exReal sq12cw).2 hv
    rw [e, h.2 (Or.inr fun x hx => le_of_lt (hneg x hx))]
  obtain ⟨b, hb, hcw⟩ := C51_cw_convex exReal_isExact.isRounding sq12cw hi
  have hbt : b = true := by
    cases b
    · obtain ⟨x, hx, h⟩ := hcw.1 rfl
      exact absurd h (not_lt.2 (le_of_lt (hneg x hx)))
    · rfl
  subst hbt
  exact ⟨hi, hb, C133_cw exReal_isExact hc hnd hap (fun x hx => ne_of_lt (hneg x hx)) hi hb⟩

end Srep
