import Verif.Props.LineB

/-! Properties C19 (overlap can raise) and C20 (common part of crossing segments). -/

set_option linter.unusedSectionVars false

namespace Srep
variable {K : Type} [Field K] [LinearOrder K] [IsStrictOrderedRing K] [FloorRing K]

/-! ### C19 -/

/-- C19: two segments of different classes with the same pair of (separated) endpoints: `overlap`, hence
`common_part` too, raises the internal 'should be one' exception, in every correctly rounded arithmetic. -/
theorem C19_class_mismatch {R : Rt K} (hR : R.IsRounding) (s o : Seg K)
    (hs : Apart R.tol {s.i, s.j}) (hne : s.i ≠ s.j) (hc : s.cls ≠ o.cls)
    (he : (o.i = s.i ∧ o.j = s.j) ∨ (o.i = s.j ∧ o.j = s.i)) :
    R.overlap s o = .error .generic ∧ R.commonPart s o = .error .generic := by
  have hsep : R.Sep [s.i, s.j] := by
    apply sep_of_apart hR
    intro p hp q hq
    exact hs p (by simpa using hp) q (by simpa using hq)
  obtain ⟨oi, oj, co⟩ := o
  simp only at he hc
  have hpar : R.isParallel s ⟨oi, oj, co⟩ = true := by
    unfold Rt.isParallel
    rw [decide_eq_true_eq]
    have h0 := C09_cross_self hR s
    have h1 := (C09_reverse hR s s).2.1
    rw [h0] at h1
    rcases he with ⟨rfl, rfl⟩ | ⟨rfl, rfl⟩
    · exact h0
    · rw [neg_zero] at h1; exact h1
  have hcol : R.isCollinear s ⟨oi, oj, co⟩ = true := by
    unfold Rt.isCollinear
    rcases he with ⟨rfl, rfl⟩ | ⟨rfl, rfl⟩ <;>
      simp [(C15_endpoints hR s).1, (C15_endpoints hR s).2.1]
  have ht : R.touch s ⟨oi, oj, co⟩ = true := by
    rcases he with ⟨rfl, rfl⟩ | ⟨rfl, rfl⟩ <;> simp [Rt.touch, hR.distance_self, hR.eps_pos]
  have hl : R.looseEqual s ⟨oi, oj, co⟩ = false := by
    unfold Rt.looseEqual
    have : ¬ co = s.cls := fun h => hc h.symm
    simp [this]
  have hmem : ∀ q, q ∈ R.psetInter (R.pset [s.i, s.j]) (R.pset [oi, oj]) ↔ q = s.i ∨ q = s.j := by
    intro q
    rw [Rt.mem_psetInter hR hsep.hashOK (by simp) (by rcases he with ⟨rfl, rfl⟩ | ⟨rfl, rfl⟩ <;> simp)]
    rcases he with ⟨rfl, rfl⟩ | ⟨rfl, rfl⟩
    · simp
    · simp only [List.mem_cons, List.not_mem_nil, or_false]
      constructor
      · exact fun h => h.1
      · exact fun h => ⟨h, h.symm⟩
  have hov : R.overlap s ⟨oi, oj, co⟩ = .error .generic := by
    unfold Rt.overlap
    simp only [hpar, hcol, ht, hl, Bool.not_true, Bool.and_false, Bool.false_eq_true, if_false, if_true]
    generalize R.psetInter (R.pset [s.i, s.j]) (R.pset [oi, oj]) = l at hmem
    match l, hmem with
    | [], h => exact absurd ((h s.i).2 (Or.inl rfl)) (by simp)
    | [c], h =>
      have h1 := (h s.i).2 (Or.inl rfl)
      have h2 := (h s.j).2 (Or.inr rfl)
      simp only [List.mem_singleton] at h1 h2
      exact absurd (h1.trans h2.symm) hne
    | _ :: _ :: _, _ => rfl
  refine ⟨hov, ?_⟩
  unfold Rt.commonPart
  simp [hpar, hcol, hl, hov]

/-- C19: a zero-length segment placed on an endpoint of another segment makes `overlap` raise IndexError. -/
theorem C19_null_segment {R : Rt K} (hR : R.IsRounding) (s o : Seg K)
    (hs : Apart R.tol {s.i, s.j}) (hne : s.i ≠ s.j) (ho : o.i = o.j) (he : o.i = s.i ∨ o.i = s.j) :
    R.overlap s o = .error .index ∧ R.commonPart s o = .error .index := by
  have hsep : R.Sep [s.i, s.j] := by
    apply sep_of_apart hR
    intro p hp q hq
    exact hs p (by simpa using hp) q (by simpa using hq)
  obtain ⟨oi, oj, co⟩ := o
  simp only at he ho
  subst ho
  have hpar : R.isParallel s ⟨oi, oi, co⟩ = true := by
    rw [(C10_laws hR _ _).2.1]; exact C10_null hR _ _ rfl
  have hcol : R.isCollinear s ⟨oi, oi, co⟩ = true := by
    unfold Rt.isCollinear
    rcases he with rfl | rfl <;>
      simp [(C15_endpoints hR s).1, (C15_endpoints hR s).2.1]
  have ht : R.touch s ⟨oi, oi, co⟩ = true := by
    rcases he with rfl | rfl <;> simp [Rt.touch, hR.distance_self, hR.eps_pos]
  have hl : R.looseEqual s ⟨oi, oi, co⟩ = false := by
    have : ¬ R.psetEq (R.pset [s.i, s.j]) (R.pset [oi, oi]) = true := by
      rw [Rt.psetEq_iff hR hsep.hashOK (by simp) (by rcases he with rfl | rfl <;> simp)]
      intro h
      have h1 := (h s.i).1 (by simp)
      have h2 := (h s.j).1 (by simp)
      simp only [List.mem_cons, List.not_mem_nil, or_false, or_self] at h1 h2
      exact hne (h1.trans h2.symm)
    unfold Rt.looseEqual
    simp [this]
  have hmem : R.psetInter (R.pset [s.i, s.j]) (R.pset [oi, oi]) = [oi] := by
    have hsub : ∀ q ∈ [oi, oi], q ∈ [s.i, s.j] := by rcases he with rfl | rfl <;> simp
    refine eq_singleton_of_nodup (Rt.nodup_psetInter hR hsep.hashOK (by simp) hsub) ?_
    intro q
    rw [Rt.mem_psetInter hR hsep.hashOK (by simp) hsub]
    constructor
    · intro h; simpa using h.2
    · rintro rfl; exact ⟨hsub _ (by simp), by simp⟩
  have n1 : R.peq s.j s.i = false := by
    rw [Bool.eq_false_iff]; exact fun h => hne (hsep _ (by simp) _ (by simp) h).symm
  have n2 : R.peq s.i s.j = false := by
    rw [Bool.eq_false_iff]; exact fun h => hne (hsep _ (by simp) _ (by simp) h)
  have hov : R.overlap s ⟨oi, oi, co⟩ = .error .index := by
    unfold Rt.overlap
    simp only [hpar, hcol, ht, hl, Bool.not_true, Bool.and_false, Bool.false_eq_true, if_false, if_true, hmem]
    rcases he with rfl | rfl
    · simp [hR.peq_refl, n1]
    · simp [hR.peq_refl, n2]
  refine ⟨hov, ?_⟩
  unfold Rt.commonPart
  simp [hpar, hcol, hl, hov]

/-- C19: concrete binary64 witnesses for both, and for endpoints that are equal within the tolerance but
not identical. -/
theorem C19_witnesses :
    exRt.overlap (exSeg 0 0 1 0) ⟨⟨1, 0⟩, ⟨1, 0⟩, .line⟩ = .error .index ∧
    exRt.overlap (exSeg 0 0 1 0) ⟨⟨0, 0⟩, ⟨1, 0⟩, .wall⟩ = .error .generic ∧
    exRt.overlap (exSeg 0 0 1 0) ⟨⟨1, 0⟩, exRt.mkPt (1 + 1/10^6) 0, .line⟩ = .error .index := by
  decide +kernel

/-- the hypotheses of the two C19 theorems hold for the unit segment -/
example : Apart exRt.tol {(exSeg 0 0 1 0).i, (exSeg 0 0 1 0).j} ∧ (exSeg 0 0 1 0).i ≠ (exSeg 0 0 1 0).j := by
  have e1 : (exSeg 0 0 1 0).i = ⟨0, 0⟩ := by decide +kernel
  have e2 : (exSeg 0 0 1 0).j = ⟨1, 0⟩ := by decide +kernel
  have ht : exRt.tol ≤ 1 := by decide +kernel
  rw [e1, e2]
  refine ⟨?_, by simp⟩
  intro p hp q hq hne
  simp only [Set.mem_insert_iff, Set.mem_singleton_iff] at hp hq
  rcases hp with rfl | rfl <;> rcases hq with rfl | rfl <;>
    first | exact absurd rfl hne | (left; simpa using ht)

/-! ### C20 -/

/-- C20: `common_part` of non-parallel segments never raises and returns a Point or None. -/
theorem C20_total (R : Rt K) (s o : Seg K) (h : R.isParallel s o = false) :
    R.commonPart s o = .ok none ∨ ∃ p, R.intersectionPoint s o = some p ∧ R.commonPart s o = .ok (some (.pt p)) := by
  unfold Rt.commonPart
  simp only [h, Bool.false_eq_true, if_false]
  split_ifs
  · right; simp [Rt.intersectionPoint, h]
  · exact Or.inl rfl

/-- C20: two non-parallel closed segments with a common point: it is returned, rounded to 8 decimals. -/
theorem C20_common_point {R : Rt K} (hE : R.IsExact) (s o : Seg K) (h : R.isParallel s o = false)
    (st : R.Stored s.i ∧ R.Stored s.j ∧ R.Stored o.i ∧ R.Stored o.j) (q : Pt K)
    (h1 : OnSeg s q) (h2 : OnSeg o q) :
    R.commonPart s o = .ok (some (.pt ⟨rhe8 q.x, rhe8 q.y⟩)) := by
  obtain ⟨r, hr, he, -, -⟩ := C12_correct hE s o h
  have hq : q = r := (hr q).1 ⟨by obtain ⟨t, -, -, e⟩ := h1; exact ⟨t, e⟩, by
    obtain ⟨t, -, -, e⟩ := h2; exact ⟨t, e⟩⟩
  subst hq
  rw [C11_total hE.isRounding] at he
  have hip : R.intersectionPoint s o = some ⟨rhe8 q.x, rhe8 q.y⟩ := by simpa using he
  have inside : ∀ w : Seg K, R.Stored w.i → R.Stored w.j → OnSeg w q →
      R.isInternal w ⟨rhe8 q.x, rhe8 q.y⟩ = true := by
    rintro w wi wj ⟨t, t0, t1, rfl⟩
    obtain ⟨gix, giy⟩ := (hE.stored_iff _).1 wi
    obtain ⟨gjx, gjy⟩ := (hE.stored_iff _).1 wj
    have mn : ∀ a b : K, min a b ≤ a + t * (b - a) ∧ a + t * (b - a) ≤ max a b := by
      intro a b
      rcases le_total a b with hab | hab
      · rw [min_eq_left hab, max_eq_right hab]; constructor <;> nlinarith
      · rw [min_eq_right hab, max_eq_left hab]; constructor <;> nlinarith
    have gm : ∀ a b : K, Grid a → Grid b → rhe8 (min a b) = min a b ∧ rhe8 (max a b) = max a b := by
      intro a b ha hb
      rcases le_total a b with hab | hab
      · rw [min_eq_left hab, max_eq_right hab]; exact ⟨ha.rhe8, hb.rhe8⟩
      · rw [min_eq_right hab, max_eq_left hab]; exact ⟨hb.rhe8, ha.rhe8⟩
    apply (C14_accepts hE w).1
    · rw [← (gm _ _ gix gjx).1]; exact rhe8_mono (mn _ _).1
    · rw [← (gm _ _ gix gjx).2]; exact rhe8_mono (mn _ _).2
    · rw [← (gm _ _ giy gjy).1]; exact rhe8_mono (mn _ _).1
    · rw [← (gm _ _ giy gjy).2]; exact rhe8_mono (mn _ _).2
  have i1 := inside s st.1 st.2.1 h1
  have i2 := inside o st.2.2.1 st.2.2.2 h2
  unfold Rt.commonPart Rt.intersectionOnSegment
  simp only [h, Bool.false_eq_true, if_false, hip, i1, i2, Bool.and_self]
  cases R.touch s o <;> simp

/-- C20: a returned Point is the rounded intersection of the two infinite lines; it lies in both bounding
boxes widened by 1e-8, unless the segments touch. -/
theorem C20_sound {R : Rt K} (hE : R.IsExact) (s o : Seg K) (h : R.isParallel s o = false) (x : Part K)
    (hx : R.commonPart s o = .ok (some x)) :
    ∃ q p : Pt K, (∀ r, OnLine s.i s.j r ∧ OnLine o.i o.j r ↔ r = q) ∧ x = .pt p ∧
      p = ⟨rhe8 q.x, rhe8 q.y⟩ ∧
      (R.touch s o = true ∨ ∀ w ∈ [s, o],
        min w.i.x w.j.x - 1 / 10 ^ 8 < p.x ∧ p.x ≤ max w.i.x w.j.x + 1 / 10 ^ 8 ∧
        min w.i.y w.j.y - 1 / 10 ^ 8 ≤ p.y ∧ p.y ≤ max w.i.y w.j.y + 1 / 10 ^ 8) := by
  obtain ⟨q, hr, he, -, -⟩ := C12_correct hE s o h
  rw [C11_total hE.isRounding] at he
  have hip : R.intersectionPoint s o = some ⟨rhe8 q.x, rhe8 q.y⟩ := by simpa using he
  refine ⟨q, ⟨rhe8 q.x, rhe8 q.y⟩, hr, ?_, rfl, ?_⟩
  · rcases C20_total R s o h with h0 | ⟨p, hp, h0⟩
    · rw [h0] at hx; simp at hx
    · rw [h0] at hx
      rw [hip] at hp
      simp only [Except.ok.injEq, Option.some.injEq] at hx hp
      rw [← hx, hp]
  · by_cases ht : R.touch s o = true
    · exact Or.inl ht
    right
    have ht' : R.touch s o = false := by simpa using ht
    have : R.isInternal s ⟨rhe8 q.x, rhe8 q.y⟩ = true ∧ R.isInternal o ⟨rhe8 q.x, rhe8 q.y⟩ = true := by
      by_contra hc
      have : R.intersectionOnSegment s o = false := by
        unfold Rt.intersectionOnSegment
        simp only [ht', hip, Bool.false_eq_true, if_false]
        rw [Bool.eq_false_iff]
        intro hb
        exact hc (by simpa using hb)
      unfold Rt.commonPart at hx
      simp [h, this, ht'] at hx
    intro w hw
    simp only [List.mem_cons, List.not_mem_nil, or_false] at hw
    rcases hw with rfl | rfl
    · exact (hE.isInternal_iff _ _).1 this.1
    · exact (hE.isInternal_iff _ _).1 this.2

/-- C20: None for non-parallel segments means that the closed segments are disjoint. -/
theorem C20_none {R : Rt K} (hE : R.IsExact) (s o : Seg K) (h : R.isParallel s o = false)
    (st : R.Stored s.i ∧ R.Stored s.j ∧ R.Stored o.i ∧ R.Stored o.j)
    (hn : R.commonPart s o = .ok none) : ∀ q, ¬ (OnSeg s q ∧ OnSeg o q) := by
  rintro q ⟨h1, h2⟩
  rw [C20_common_point hE s o h st q h1 h2] at hn
  simp at hn

/-- C20: for non-parallel segments the result does not depend on which segment is asked (any correctly
rounded arithmetic). -/
theorem C20_symm {R : Rt K} (hR : R.IsRounding) (s o : Seg K) (h : R.isParallel s o = false)
    (hh : R.HashOK [s.i, s.j, o.i, o.j]) : R.commonPart s o = R.commonPart o s := by
  have hp : R.isParallel o s = false := by rw [(C10_laws hR o s).2.1, h]
  have ht := (C16_symm hR s o hh).1
  have hi : R.intersectionPoint s o = R.intersectionPoint o s := by
    have := C11_symm hR s o
    rw [C11_total hR, C11_total hR] at this
    simpa using this
  have hs : R.intersectionOnSegment s o = R.intersectionOnSegment o s := by
    unfold Rt.intersectionOnSegment
    rw [ht, hi]
    split_ifs
    · rfl
    · cases R.intersectionPoint o s with
      | none => rfl
      | some p => exact Bool.and_comm _ _
  unfold Rt.commonPart
  simp only [h, hp, Bool.false_eq_true, if_false, hs, ht, hi]

/-- C18/C20: on collinear segments `common_part` returns the second component of `overlap`. -/
theorem C18_common_part {R : Rt K} (hE : R.IsExact) (hD : R.IsExactDir) (s o : Seg K)
    (hs : s.i ≠ s.j) (ho : o.i ≠ o.j)
    (st : R.Stored s.i ∧ R.Stored s.j ∧ R.Stored o.i ∧ R.Stored o.j)
    (hap : Apart (1 / 10 ^ 5) {s.i, s.j, o.i, o.j})
    (hc1 : OnLine s.i s.j o.i) (hc2 : OnLine s.i s.j o.j)
    (hcls : s.cls = o.cls ∨ ¬ ((s.i = o.i ∧ s.j = o.j) ∨ (s.i = o.j ∧ s.j = o.i))) :
    ∃ b x, R.commonPart s o = .ok x ∧ OverlapSpec s o (b, x) := by
  obtain ⟨⟨b, x⟩, h1, h2⟩ := C18_collinear hE hD s o hs ho st hap hc1 hc2 hcls
  have hpar : R.isParallel s o = true := by
    obtain ⟨a, ha⟩ := hc1
    obtain ⟨b, hb⟩ := hc2
    rw [hE.isParallel_iff, ha, hb]; simp only [lerp]; ring
  have hcol : R.isCollinear s o = true := by
    unfold Rt.isCollinear
    rw [C15_complete hE s _ hc1, C15_complete hE s _ hc2]; rfl
  by_cases hl : R.looseEqual s o = true
  · have ht : R.touch s o = true := by
      have hapT : Apart R.tol {s.i, s.j, o.i, o.j} := by rw [hE.tol']; exact hap
      have hR := hE.isRounding
      rcases ((C21_iff hR s o hapT).1 hl).2 with ⟨e1, e2⟩ | ⟨e1, e2⟩ <;>
        simp [Rt.touch, ← e1, ← e2, hR.distance_self, hR.eps_pos]
    unfold Rt.overlap at h1
    simp only [hpar, hcol, ht, hl, Bool.not_true, Bool.and_false, Bool.false_eq_true, if_false, if_true,
      Except.ok.injEq, Prod.mk.injEq] at h1
    refine ⟨b, x, ?_, h2⟩
    unfold Rt.commonPart
    simp [hpar, hcol, hl, h1.2]
  · refine ⟨b, x, ?_, h2⟩
    unfold Rt.commonPart
    simp [hpar, hcol, hl, h1]

/-- the two diagonals of the unit square meet the hypotheses of C20 -/
example : exReal.commonPart ⟨⟨0, 0⟩, ⟨1, 1⟩, .line⟩ ⟨⟨0, 1⟩, ⟨1, 0⟩, .line⟩
    = .ok (some (.pt ⟨rhe8 (1 / 2), rhe8 (1 / 2)⟩)) := by
  have g0 : Grid (0 : ℝ) := grid_zero
  have g1 : Grid (1 : ℝ) := by exact_mod_cast grid_intCast 1
  refine C20_common_point exReal_isExact _ _ ?_ ?_ ⟨1 / 2, 1 / 2⟩ ⟨1 / 2, ?_, ?_, ?_⟩ ⟨1 / 2, ?_, ?_, ?_⟩
  · rw [← Bool.not_eq_true, exReal_isExact.isParallel_iff]; norm_num
  · simp only [exReal_isExact.stored_iff]; exact ⟨⟨g0, g0⟩, ⟨g1, g1⟩, ⟨g0, g1⟩, ⟨g1, g0⟩⟩
  all_goals simp [lerp] <;> norm_num

end Srep
