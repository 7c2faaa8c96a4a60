import Verif.Lemmas.Ear

/-! One round of ear clipping. -/

set_option linter.unusedSectionVars false

namespace Srep
open Rt
variable {K : Type} [Field K] [LinearOrder K] [IsStrictOrderedRing K] [FloorRing K]

theorem isOnLine_of_det {R : Rt K} (hE : R.IsExact) {s : Seg K} {p : Pt K} (hd : det3 s.i s.j p = 0) :
    R.isOnLine s p = true := by
  unfold Rt.isOnLine
  have : R.crossStartVal s ⟨s.i, p, .line⟩ = 0 := by
    unfold det3 at hd
    simp only [Rt.crossStartVal, hE.sub', hE.mul']
    linear_combination hd
  rw [this]
  simp [hE.isRounding.eps_pos]

/-- what one round does to a ring with the corners `w` -/
def RoundOK (R : Rt K) (h : Heap K) (C : PLine) (w : List (Pt K)) (a : Pt K) (tok : Heap K → PLine → PLine → Bool) :
    EarStep K → Prop
  | .raised h' _ => Later h h' ∧ ¬ R.IsExact
  | .rejected h' => Later h h' ∧ (R.IsExact → (∀ h' T b u c, w ~r a :: b :: u ++ [c] → PolygonOf h' w C.segs →
      TriangleOf h' T.segs (c, a, b) → tok h' C T = true) →
      ∃ b u c, w ~r a :: b :: u ++ [c] ∧ |det3 c a b| < R.eps)
  | .clipped h' C' t => Later h h' ∧ (∀ s ∈ t, s < h'.nseg) ∧ (∀ s ∈ C'.segs, s < h'.nseg) ∧
    ∃ b u c, w ~r a :: b :: u ++ [c] ∧ TriangleOf h' t (c, a, b) ∧
      (u ≠ [] → PolygonOf h' (b :: u ++ [c]) C'.segs) ∧
      (u = [] → (R.pointSet (h'.vals C'.segs)).length < 3)

theorem inSegs_false {R : Rt K} {h : Heap K} {s : ℕ} {l : List ℕ}
    (hl : ∀ y ∈ l, y ≠ s ∧ R.seq (h.val y) (h.val s) = false) : R.inSegs h s l = false := by
  unfold Rt.inSegs
  rw [List.any_eq_false]
  intro y hy
  simp [hl y hy]

theorem inSegs_true {R : Rt K} {h : Heap K} {s : ℕ} {l : List ℕ} (hs : s ∈ l) : R.inSegs h s l = true := by
  unfold Rt.inSegs
  rw [List.any_eq_true]
  exact ⟨s, hs, by simp⟩

theorem earRound_spec {R : Rt K} (hR : R.IsRounding) {h : Heap K} {C : PLine} {w : List (Pt K)}
    (hp : PolygonOf h w C.segs) (h3 : 3 ≤ w.length) (hap : Apart R.tol {p | p ∈ w})
    (hl : ∀ s ∈ C.segs, s < h.nseg) {a : Pt K} (ha : a ∈ w) (tok : Heap K → PLine → PLine → Bool) :
    RoundOK R h C w a tok (R.earRound h C a tok) := by
  have hsep : R.Sep w := sep_of_apart hR hap
  have hany : (C.segs.any fun s => decide ((R.nbRefs h C.segs (h.val s).i).length < 2)) = false := by
    rw [List.any_eq_false]
    intro s hs
    obtain ⟨p, hpw, q, hqw, -, hj⟩ := (hp.mem_ends h3).1 s hs
    have : (h.val s).i ∈ w := by rcases hj.ends.1 with e | e <;> rw [e] <;> assumption
    simp [hp.two_neighbours hR h3 hsep this]
  obtain ⟨b, u, c, hr⟩ := rotate_to h3 ha
  have hp' := hp.rotated hr
  have hsep' : R.Sep (a :: b :: u ++ [c]) := hsep.mono fun q hq => hr.mem_iff.2 hq
  obtain ⟨s1, s2, τ, k1, k2, k3, k4⟩ := hp'.corner
  obtain ⟨x, y, enb, hxy⟩ := nbRefs_corner hR hp'.1 hsep' k1 k2 k3 k4
  have hfil := corner_filter hR hp'.1 hsep' k1 k2 k3 k4
  have hnd : (a :: (b :: u ++ [c])).Nodup := by simpa using hp'.1
  have hnd' := List.nodup_cons.1 hnd
  have hab : a ≠ b := fun e => hnd'.1 (by rw [e]; simp)
  have hac : a ≠ c := fun e => hnd'.1 (by rw [e]; simp)
  have hbc : b ≠ c := by
    rintro rfl
    have := hnd'.2
    simp at this
  have hsnd : (s1 :: s2 :: τ).Nodup := k1.nodup_iff.1 hp.2.1
  have h12 : s1 ≠ s2 := by
    rintro rfl
    simp at hsnd
  have hl1 : s1 < h.nseg := hl _ (k1.symm.subset (by simp))
  have hl2 : s2 < h.nseg := hl _ (k1.symm.subset (by simp))
  have hlτ : ∀ s ∈ τ, s < h.nseg := fun s hs => hl _ (k1.symm.subset (by simp [hs]))
  have hn := later_newSeg h x y
  have hLn : (h.newSeg x y).1.nseg = h.nseg + 1 := rfl
  have hL2 : (h.newSeg x y).2 = h.nseg := rfl
  have hLv : Joins ((h.newSeg x y).1.val h.nseg) b c := by
    rw [newSeg_val]
    rcases hxy with ⟨e1, e2⟩ | ⟨e1, e2⟩
    · exact Or.inl ⟨e1, e2⟩
    · exact Or.inr ⟨e1, e2⟩
  unfold Rt.earRound
  rw [hany, enb]
  simp only [Bool.false_eq_true, if_false]
  rw [hL2]
  split_ifs with hon
  · refine ⟨hn, fun hE _ => ⟨b, u, c, hr, ?_⟩⟩
    have pab : R.peq a b = false := by
      rw [Bool.eq_false_iff]
      exact fun e => hab (hsep' a (by simp) b (by simp) e)
    have pac : R.peq a c = false := by
      rw [Bool.eq_false_iff]
      exact fun e => hac (hsep' a (by simp) c (by simp) e)
    rw [newSeg_val] at hon
    unfold Rt.isOnLine at hon
    rcases hxy with ⟨e1, e2⟩ | ⟨e1, e2⟩
    · simp only [e1, e2, pab, pac, Bool.false_or, decide_eq_true_eq, Rt.crossStartVal, hE.sub', hE.mul'] at hon
      convert hon using 2
      unfold det3
      ring
    · simp only [e1, e2, pab, pac, Bool.false_or, decide_eq_true_eq, Rt.crossStartVal, hE.sub', hE.mul'] at hon
      rw [← abs_neg] at hon
      convert hon using 2
      unfold det3
      ring
  have hdet : R.IsExact → det3 c a b ≠ 0 := by
    intro hE hd
    apply hon
    apply isOnLine_of_det hE
    rw [newSeg_val]
    rcases hxy with ⟨e1, e2⟩ | ⟨e1, e2⟩
    · simp only [e1, e2]
      unfold det3 at *
      linear_combination hd
    · simp only [e1, e2]
      unfold det3 at *
      linear_combination -hd
  have hapT : Apart R.tol {t | t = c ∨ t = a ∨ t = b} := by
    intro p hp q hq
    have : ∀ t, (t = c ∨ t = a ∨ t = b) → t ∈ w := by
      rintro t (rfl | rfl | rfl) <;> exact hr.mem_iff.2 (by simp)
    exact hap p (this p hp) q (this q hq)
  have htri : ∃ h' l, l.Perm [s2, s1, h.nseg] ∧ Later (h.newSeg x y).1 h' ∧ h'.nseg = h.nseg + 1 ∧
      (R.triangleNew (h.newSeg x y).1 ((C.segs.filter fun s => R.onEnds a (h.val s)) ++ [h.nseg])).1 = h' ∧
      (∀ T, (R.triangleNew (h.newSeg x y).1
        ((C.segs.filter fun s => R.onEnds a (h.val s)) ++ [h.nseg])).2 = .ok T → T.segs = l) ∧
      (R.IsExact → ∃ T, (R.triangleNew (h.newSeg x y).1
        ((C.segs.filter fun s => R.onEnds a (h.val s)) ++ [h.nseg])).2 = .ok T) := by
    have j1 := hn.2 _ hl1 _ _ k2
    have j2 := hn.2 _ hl2 _ _ k3
    rcases hfil with e | e
    · rw [e]
      have hapT' : Apart R.tol {t | t = b ∨ t = a ∨ t = c} := by
        intro p hp q hq
        exact hapT p (by simp at hp ⊢; tauto) q (by simp at hq ⊢; tauto)
      obtain ⟨h', l, m1, m2, m3, m4, m5, m6, m7⟩ := triangleNew_spec hR (h := (h.newSeg x y).1) hapT'
        h12 hl2.ne hl1.ne' hab.symm hac hbc.symm j1.symm j2.symm hLv.symm
      refine ⟨h', l, m1.trans (List.Perm.swap _ _ _), m2, m3, m5, m6, ?_⟩
      intro hE
      apply m7
      refine isTriangle_of hE hapT' hab.symm hac hbc.symm m1 (m2.2 _ (by rw [hLn]; omega) _ _ j1.symm)
        (m2.2 _ (by rw [hLn]; omega) _ _ j2.symm) (m2.2 _ (by rw [hLn]; omega) _ _ hLv.symm) m4 ?_
      intro hd
      apply hdet hE
      unfold det3 at *
      linear_combination -hd
    · rw [e]
      obtain ⟨h', l, m1, m2, m3, m4, m5, m6, m7⟩ := triangleNew_spec hR (h := (h.newSeg x y).1) hapT
        h12.symm hl1.ne hl2.ne' hac.symm hab hbc j2 j1 hLv
      refine ⟨h', l, m1, m2, m3, m5, m6, ?_⟩
      intro hE
      apply m7
      exact isTriangle_of hE hapT hac.symm hab hbc m1 (m2.2 _ (by rw [hLn]; omega) _ _ j2)
        (m2.2 _ (by rw [hLn]; omega) _ _ j1) (m2.2 _ (by rw [hLn]; omega) _ _ hLv) m4 (hdet hE)
  obtain ⟨h', l, m1, m2, m3, m4, m5, m6⟩ := htri
  generalize R.triangleNew (h.newSeg x y).1 ((C.segs.filter fun s => R.onEnds a (h.val s)) ++ [h.nseg]) = t at *
  have hlat : Later h h' := hn.trans m2
  cases ht : t.2 with
  | error e =>
    simp only
    refine ⟨m4 ▸ hlat, ?_⟩
    intro hE
    obtain ⟨T, hT⟩ := m6 hE
    rw [hT] at ht
    cases ht
  | ok T =>
    simp only
    have hT := m5 T ht
    rw [m4]
    have j1 : Joins (h'.val s1) a b := hlat.2 _ hl1 _ _ k2
    have j2 : Joins (h'.val s2) c a := hlat.2 _ hl2 _ _ k3
    have jL : Joins (h'.val h.nseg) b c := m2.2 _ (by rw [hLn]; omega) _ _ hLv
    have hTO : TriangleOf h' T.segs (c, a, b) := by
      refine ⟨[s2, s1, h.nseg], ?_, j2, j1, jL, trivial⟩
      rw [hT]
      exact m1
    split_ifs with hok
    swap
    · exact ⟨hlat, fun _ htok => absurd (htok _ _ _ _ _ hr (hlat.polygonOf hp hl) hTO) hok⟩
    have jτ : Sides h' (b :: u ++ [c]) τ := hlat.sides k4 hlτ
    have hmem : ∀ s ∈ (C.segs.filter fun s => !R.inSegs h' s T.segs) ++ [h.nseg],
        (s ∈ τ ∧ s ∈ C.segs) ∨ s = h.nseg := by
      intro s hs
      rw [List.mem_append, List.mem_filter, List.mem_singleton] at hs
      rcases hs with ⟨hs, hi⟩ | hs
      · left
        refine ⟨?_, hs⟩
        have := k1.subset hs
        simp only [List.mem_cons] at this
        rcases this with rfl | rfl | h'
        · rw [inSegs_true (by rw [hT]; exact m1.symm.subset (by simp))] at hi; simp at hi
        · rw [inSegs_true (by rw [hT]; exact m1.symm.subset (by simp))] at hi; simp at hi
        · exact h'
      · exact Or.inr hs
    have hends : ∀ s ∈ (C.segs.filter fun s => !R.inSegs h' s T.segs) ++ [h.nseg],
        ∃ p ∈ b :: u ++ [c], ∃ q ∈ b :: u ++ [c], p ≠ q ∧ Joins (h'.val s) p q := by
      intro s hs
      rcases hmem s hs with ⟨hs, -⟩ | rfl
      · exact Sides.mem jτ hnd'.2 s hs
      · exact ⟨b, by simp, c, by simp, hbc, jL⟩
    have hsep2 : R.Sep (b :: u ++ [c]) := hsep'.mono fun q hq => List.mem_cons_of_mem a hq
    obtain ⟨n1, n2, n3, n4⟩ := later_purge hR
      (P := ⟨(C.segs.filter fun s => !R.inSegs h' s T.segs) ++ [h.nseg], C.purged⟩) hsep2 hends
    generalize hP : (⟨(C.segs.filter fun s => !R.inSegs h' s T.segs) ++ [h.nseg], C.purged⟩ : PLine) = P at *
    have hPs : P.segs = (C.segs.filter fun s => !R.inSegs h' s T.segs) ++ [h.nseg] := by rw [← hP]
    generalize R.purge h' P = Q at *
    have hlt : ∀ s ∈ T.segs, s < h'.nseg := by
      intro s hs
      rw [hT] at hs
      have := m1.subset hs
      simp only [List.mem_cons, List.not_mem_nil, or_false] at this
      rcases this with rfl | rfl | rfl <;> omega
    have hlC : ∀ s ∈ P.segs, s < h'.nseg := by
      intro s hs
      rw [hPs] at hs
      rcases hmem s hs with ⟨hs, -⟩ | rfl
      · have := hlτ s hs; omega
      · omega
    refine ⟨hlat.trans n1, fun s hs => by rw [n3]; exact hlt s hs, ?_, b, u, c, hr, ?_, ?_, ?_⟩
    · intro s hs
      rw [n2] at hs
      rw [n3]
      exact hlC s hs
    · exact n1.triangleOf hTO hlt
    · intro hu
      refine n1.polygonOf ⟨hnd'.2, ?_, τ ++ [h.nseg], ?_, ?_⟩ (by rw [n2]; exact hlC)
      · rw [n2, hPs]
        refine List.Nodup.append (hp.2.1.filter _) (by simp) ?_
        intro s hs hs'
        rw [List.mem_singleton] at hs'
        have := hl s (List.mem_of_mem_filter hs)
        omega
      · rw [n2, hPs]
        refine List.Perm.append_right _ ?_
        refine (k1.filter _).trans ?_
        have e1 : R.inSegs h' s1 T.segs = true := inSegs_true (by rw [hT]; exact m1.symm.subset (by simp))
        have e2 : R.inSegs h' s2 T.segs = true := inSegs_true (by rw [hT]; exact m1.symm.subset (by simp))
        have e3 : τ.filter (fun s => !R.inSegs h' s T.segs) = τ := by
          rw [List.filter_eq_self]
          intro s hs
          rw [Bool.not_eq_true', hT]
          apply inSegs_false
          intro v hv
          have hv := m1.subset hv
          simp only [List.mem_cons, List.not_mem_nil, or_false] at hv
          obtain ⟨p, hpm, q, hqm, hpq, hj⟩ := Sides.mem jτ hnd'.2 s hs
          have hpa : a ≠ p := fun e => hnd'.1 (e ▸ hpm)
          have hqa : a ≠ q := fun e => hnd'.1 (e ▸ hqm)
          have hpe : ∀ t ∈ a :: b :: u ++ [c], ∀ t' ∈ a :: b :: u ++ [c], R.peq t t' = true → t = t' :=
            fun t ht t' ht' => hsep' t ht t' ht'
          have hpm' : p ∈ a :: b :: u ++ [c] := List.mem_cons_of_mem a hpm
          have hqm' : q ∈ a :: b :: u ++ [c] := List.mem_cons_of_mem a hqm
          have hsne : ∀ v, R.seq (h'.val v) (h'.val s) = true → ∀ r t, r ∈ a :: b :: u ++ [c] →
              t ∈ a :: b :: u ++ [c] → Joins (h'.val v) r t → Joins (h'.val s) r t := by
            intro v hv r t hr ht hjv
            unfold Rt.seq at hv
            simp only [Bool.and_eq_true] at hv
            have i1 : (h'.val v).i = (h'.val s).i := by
              refine hpe _ ?_ _ ?_ hv.1.2
              · rcases hjv.ends.1 with e | e <;> rw [e] <;> assumption
              · rcases hj.ends.1 with e | e <;> rw [e] <;> assumption
            have i2 : (h'.val v).j = (h'.val s).j := by
              refine hpe _ ?_ _ ?_ hv.2
              · rcases hjv.ends.2 with e | e <;> rw [e] <;> assumption
              · rcases hj.ends.2 with e | e <;> rw [e] <;> assumption
            unfold Joins at *
            rw [← i1, ← i2]; exact hjv
          have hna : ∀ t, ¬ Joins (h'.val s) a t := by
            intro t hjt
            rcases hj with ⟨e1, e2⟩ | ⟨e1, e2⟩ <;> rcases hjt with ⟨e3, e4⟩ | ⟨e3, e4⟩
            · exact hpa (e3.symm.trans e1)
            · exact hqa (e4.symm.trans e2)
            · exact hqa (e3.symm.trans e1)
            · exact hpa (e4.symm.trans e2)
          rcases hv with rfl | rfl | rfl
          · refine ⟨?_, ?_⟩
            · rintro rfl
              simp [hs] at hsnd
            · rw [Bool.eq_false_iff]
              intro hq
              exact hna c (hsne _ hq c a (by simp) (by simp) j2).symm
          · refine ⟨?_, ?_⟩
            · rintro rfl
              simp [hs] at hsnd
            · rw [Bool.eq_false_iff]
              intro hq
              exact hna b (hsne _ hq a b (by simp) (by simp) j1)
          · refine ⟨?_, ?_⟩
            · have := hlτ s hs
              omega
            · rw [Bool.eq_false_iff]
              intro hq
              exact Sides.not_ends hu jτ hnd'.2 s hs (hsne _ hq b c (by simp) (by simp) jL)
        simp only [List.filter_cons, e1, e2, e3, Bool.not_true, Bool.false_eq_true, if_false]
        exact List.Perm.refl _
      · have := Sides.snoc jL.symm (u := b :: u) jτ
        simpa using this
    · intro hu
      subst hu
      have hend : ∀ p ∈ endPts (Q.1.vals Q.2.segs), p ∈ [b, c] := by
        intro p hpe
        obtain ⟨s, hs, he⟩ := mem_endPts.1 hpe
        obtain ⟨v, hv, rfl⟩ := List.mem_map.1 hs
        rw [n2, hPs] at hv
        obtain ⟨p', hp', q', hq', -, hj⟩ := hends v hv
        rw [n4] at he
        rcases hj.ends with ⟨h1 | h1, h2 | h2⟩ <;> rcases he with rfl | rfl <;> simp_all
      have hok' : R.HashOK (endPts (Q.1.vals Q.2.segs)) :=
        (hsep2.mono fun p hpe => by simpa using hend p hpe).hashOK
      have := List.Subperm.length_le (List.subperm_of_subset (nodup_pointSet hR hok') (l₂ := [b, c]) fun p hpm =>
        hend p (mem_endPts'.2 ((mem_pointSet hR hok' p).1 hpm)))
      simp at this
      omega

end Srep
