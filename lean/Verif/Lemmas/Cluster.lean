import Verif.Lemmas.PurgeB

/-! `purge` of a polyline whose vertices meet only up to the tolerance: `T` names the vertex a Point object belongs to. -/

set_option linter.unusedSectionVars false

namespace Srep
variable {K : Type} [Field K] [LinearOrder K] [IsStrictOrderedRing K] [FloorRing K]
variable {α : Type} [DecidableEq α]

theorem relink_near (R : Rt K) (T : ℕ → α) (f : ℕ) (v : α) : ∀ (l : List ℕ) (h : Heap K) (x : ℕ), T f = v →
    (∀ s ∈ l, ∀ y, y = x ∨ y = f → (R.peq (h.pt (h.seg s).i) (h.pt y) = true ↔ T (h.seg s).i = v)) → R.peq (h.pt f) (h.pt f) = true →
    R.peq (h.pt f) (h.pt x) = true →
    let r := R.relink f h x l
    r.pt = h.pt ∧ r.npt = h.npt ∧ r.nseg = h.nseg ∧
    ∀ s, (r.seg s).cls = (h.seg s).cls ∧
      (r.seg s).i = (if s ∈ l ∧ T (h.seg s).i = v then f else (h.seg s).i) ∧
      (r.seg s).j = (if s ∈ l ∧ T (h.seg s).i ≠ v then f else (h.seg s).j) := by
  intro l
  induction l with
  | nil => intro h x _ _ _ _; simp [Rt.relink]
  | cons a l ih =>
    intro h x hf hp hv hvx
    set h' : Heap K := if R.peq (h.pt (h.seg a).i) (h.pt x) then h.setEndpoints a f (h.seg a).j
      else h.setEndpoints a (h.seg a).i f with hh'
    have hpt : h'.pt = h.pt := by rw [hh']; split_ifs <;> rfl
    have hnp : h'.npt = h.npt := by rw [hh']; split_ifs <;> rfl
    have hns : h'.nseg = h.nseg := by rw [hh']; split_ifs <;> rfl
    have hseg : ∀ s, (h'.seg s).cls = (h.seg s).cls ∧
        (h'.seg s).i = (if s = a ∧ T (h.seg s).i = v then f else (h.seg s).i) ∧
        (h'.seg s).j = (if s = a ∧ T (h.seg s).i ≠ v then f else (h.seg s).j) := by
      intro s
      have hpa := hp a (by simp) x (Or.inl rfl)
      rw [hh']
      by_cases hsa : s = a
      · subst hsa
        by_cases hc : T (h.seg s).i = v
        · rw [if_pos (hpa.2 hc)]
          simp [Heap.setEndpoints, hc]
        · rw [if_neg (fun e => hc (hpa.1 e))]
          simp [Heap.setEndpoints, hc]
      · simp only [hsa, false_and, if_false]
        split_ifs <;> simp [Heap.setEndpoints, Function.update_apply, hsa]
    obtain ⟨r1, r2, r3, r4⟩ := ih h' f hf
      (by
        intro s hs y hy
        have hy : y = f := by rcases hy with h | h <;> exact h
        subst hy
        rw [hpt, (hseg s).2.1]
        split_ifs with hc
        · exact ⟨fun _ => hf, fun _ => hv⟩
        · exact hp s (List.mem_cons_of_mem _ hs) _ (Or.inr rfl)) (by rw [hpt]; exact hv) (by rw [hpt]; exact hv)
    refine ⟨r1.trans hpt, r2.trans hnp, r3.trans hns, ?_⟩
    intro s
    obtain ⟨c1, c2, c3⟩ := r4 s
    obtain ⟨d1, d2, d3⟩ := hseg s
    show ((R.relink f h' f l).seg s).cls = _ ∧ ((R.relink f h' f l).seg s).i = _ ∧
      ((R.relink f h' f l).seg s).j = _
    refine ⟨c1.trans d1, ?_, ?_⟩
    · rw [c2, d2]
      by_cases hsa : s = a <;> by_cases hc : T (h.seg s).i = v <;> by_cases hsl : s ∈ l <;>
        simp [hsa, hc, hsl, hf] <;> (try (subst hsa; simp_all))
    · rw [c3, d2, d3]
      by_cases hsa : s = a <;> by_cases hc : T (h.seg s).i = v <;> by_cases hsl : s ∈ l <;>
        simp [hsa, hc, hsl, hf] <;> (try (subst hsa; simp_all))

/-- what `purge` maintains: `pre` is the processed part of `all_points` -/
structure PurgeNear (R : Rt K) (T : ℕ → α) (h0 : Heap K) (segs pre : List ℕ) (st : Heap K × List ℕ) : Prop where
  pt : st.1.pt = h0.pt
  npt : st.1.npt = h0.npt
  nseg : st.1.nseg = h0.nseg
  val : ∀ s, (st.1.seg s).cls = (h0.seg s).cls ∧ T (st.1.seg s).i = T (h0.seg s).i ∧ T (st.1.seg s).j = T (h0.seg s).j
  frame : ∀ s, s ∉ segs → st.1.seg s = h0.seg s
  ends : ∀ p ∈ st.1.ends segs, p ∈ h0.ends segs
  seen_sub : ∀ f ∈ st.2, f ∈ pre
  seen_cover : ∀ x ∈ pre, ∃ f ∈ st.2, T f = T x
  seen_inj : ∀ f ∈ st.2, ∀ g ∈ st.2, T f = T g → f = g
  many : ∀ v, 2 ≤ (pre.map T).count v → ∀ p ∈ st.1.ends segs, T p = v → p ∈ st.2
  few : ∀ v, (pre.map T).count v ≤ 1 → ∀ s ∈ segs,
    (T (st.1.seg s).i = v → (st.1.seg s).i = (h0.seg s).i) ∧
    (T (st.1.seg s).j = v → (st.1.seg s).j = (h0.seg s).j)

theorem purge_near_step {R : Rt K} (hR : R.IsRounding) {h0 : Heap K} {segs : List ℕ}
    (T : ℕ → α)
    (peqE : ∀ p ∈ h0.ends segs, ∀ q ∈ h0.ends segs, (R.peq (h0.pt p) (h0.pt q) = true ↔ T p = T q))
    (hnull : ∀ s ∈ segs, T (h0.seg s).i ≠ T (h0.seg s).j)
    {pre : List ℕ} {st : Heap K × List ℕ} (inv : PurgeNear R T h0 segs pre st)
    (hpre : ∀ y ∈ pre, y ∈ h0.ends segs) {x : ℕ} (hx : x ∈ h0.ends segs) :
    PurgeNear R T h0 segs (pre ++ [x]) (R.purgeStep segs st x) := by
  have seenE : ∀ f ∈ st.2, f ∈ h0.ends segs := fun f hf => hpre f (inv.seen_sub f hf)
  unfold Rt.purgeStep
  cases hfind : st.2.find? fun y => R.peq (st.1.pt x) (st.1.pt y) with
  | none =>
    have hnone : ∀ y ∈ st.2, T x ≠ T y := by
      intro y hy e
      have := List.find?_eq_none.1 hfind y hy
      rw [inv.pt] at this
      exact this ((peqE x hx y (seenE y hy)).2 e)
    have hcnt : (pre.map T).count (T x) = 0 := by
      rw [List.count_eq_zero]
      intro hm
      obtain ⟨y, hy, e⟩ := List.mem_map.1 hm
      obtain ⟨f, hf, e'⟩ := inv.seen_cover y hy
      exact hnone f hf (by rw [e', e])
    refine ⟨inv.pt, inv.npt, inv.nseg, inv.val, inv.frame, inv.ends, ?_, ?_, ?_, ?_, ?_⟩
    · intro f hf
      rcases List.mem_append.1 hf with h1 | h1
      · exact List.mem_append_left _ (inv.seen_sub f h1)
      · exact List.mem_append_right _ h1
    · intro y hy
      rcases List.mem_append.1 hy with h1 | h1
      · obtain ⟨f, hf, e⟩ := inv.seen_cover y h1
        exact ⟨f, List.mem_append_left _ hf, e⟩
      · rw [List.mem_singleton] at h1; subst h1
        exact ⟨y, by simp, rfl⟩
    · intro f hf g hg e
      rcases List.mem_append.1 hf with h1 | h1 <;> rcases List.mem_append.1 hg with h2 | h2
      · exact inv.seen_inj f h1 g h2 e
      · rw [List.mem_singleton] at h2; subst h2; exact absurd e.symm (hnone f h1)
      · rw [List.mem_singleton] at h1; subst h1; exact absurd e (hnone g h2)
      · rw [List.mem_singleton] at h1 h2; rw [h1, h2]
    · intro v hv p hp e
      rw [List.map_append, List.count_append] at hv
      by_cases hvx : v = T x
      · subst hvx
        simp [hcnt] at hv
      · have : List.count v (List.map T [x]) = 0 := by
          rw [List.count_eq_zero]; simp [hvx]
        rw [this] at hv
        exact List.mem_append_left _ (inv.many v hv p hp e)
    · intro v hv s hs
      rw [List.map_append, List.count_append] at hv
      exact inv.few v (by omega) s hs
  | some f =>
    have hfm : f ∈ st.2 := List.mem_of_find?_eq_some hfind
    have hfe : T x = T f := by
      have := List.find?_some hfind
      simp only [inv.pt] at this
      exact (peqE x hx f (seenE f hfm)).1 this
    have hcnt : 1 ≤ (pre.map T).count (T x) := by
      rw [List.one_le_count_iff]
      rw [hfe]; exact List.mem_map_of_mem (inv.seen_sub f hfm)
    set l := segs.filter fun s => R.onEnds (st.1.pt x) (st.1.val s) with hl
    have stE : ∀ s ∈ segs, (st.1.seg s).i ∈ h0.ends segs ∧ (st.1.seg s).j ∈ h0.ends segs := by
      intro s hs
      exact ⟨inv.ends _ (Heap.mem_ends.2 ⟨s, hs, Or.inl rfl⟩), inv.ends _ (Heap.mem_ends.2 ⟨s, hs, Or.inr rfl⟩)⟩
    have lmem : ∀ s, s ∈ l ↔ s ∈ segs ∧ (T (st.1.seg s).i = T x ∨ T (st.1.seg s).j = T x) := by
      intro s
      rw [hl, List.mem_filter]
      constructor
      · rintro ⟨h1, h2⟩
        refine ⟨h1, ?_⟩
        simp only [Rt.onEnds, Heap.val, inv.pt, Bool.or_eq_true] at h2
        rcases h2 with h2 | h2
        · exact Or.inl ((peqE _ (stE s h1).1 x hx).1 h2)
        · exact Or.inr ((peqE _ (stE s h1).2 x hx).1 h2)
      · rintro ⟨h1, h2⟩
        refine ⟨h1, ?_⟩
        simp only [Rt.onEnds, Heap.val, inv.pt, Bool.or_eq_true]
        rcases h2 with h2 | h2
        · exact Or.inl ((peqE _ (stE s h1).1 x hx).2 h2)
        · exact Or.inr ((peqE _ (stE s h1).2 x hx).2 h2)
    obtain ⟨r1, r2, r3, r4⟩ := relink_near R T f (T x) l st.1 x hfe.symm
      (by
        intro s hs y hy
        have h1 := ((lmem s).1 hs).1
        rw [inv.pt]
        rcases hy with rfl | rfl
        · exact peqE _ (stE s h1).1 _ hx
        · rw [peqE _ (stE s h1).1 _ (seenE _ hfm), hfe]) (hR.peq_refl _)
      (by rw [inv.pt]; exact (peqE f (seenE f hfm) x hx).2 hfe.symm)
    set r := R.relink f st.1 x l with hr
    have stnn : ∀ s ∈ segs, T (st.1.seg s).i ≠ T (st.1.seg s).j := by
      intro s hs
      obtain ⟨-, e1, e2⟩ := inv.val s
      rw [e1, e2]
      exact hnull s hs
    have rpt : r.pt = h0.pt := r1.trans inv.pt
    -- endpoints after relinking
    have epi : ∀ s, T (r.seg s).i = T (st.1.seg s).i := by
      intro s
      rw [(r4 s).2.1]
      split_ifs with hc
      · rw [hc.2, hfe]
      · rfl
    have epj : ∀ s, T (r.seg s).j = T (st.1.seg s).j := by
      intro s
      rw [(r4 s).2.2]
      split_ifs with hc
      · rcases ((lmem s).1 hc.1).2 with h1 | h1
        · exact absurd h1 hc.2
        · rw [h1, hfe]
      · rfl
    refine ⟨rpt, r2.trans inv.npt, r3.trans inv.nseg, ?_, ?_, ?_, ?_, ?_, inv.seen_inj, ?_, ?_⟩
    · intro s
      obtain ⟨e0, e1, e2⟩ := inv.val s
      exact ⟨(r4 s).1.trans e0, (epi s).trans e1, (epj s).trans e2⟩
    · intro s hs
      rw [← inv.frame s hs]
      have hsl : s ∉ l := fun h => hs ((lmem s).1 h).1
      obtain ⟨c1, c2, c3⟩ := r4 s
      rw [if_neg (by tauto)] at c2 c3
      cases hh : r.seg s; cases hg : st.1.seg s
      rw [hh, hg] at c1 c2 c3
      simp only at c1 c2 c3
      simp [c1, c2, c3]
    · intro p hp
      obtain ⟨s, hs, hps⟩ := Heap.mem_ends.1 hp
      rcases hps with rfl | rfl
      · rw [(r4 s).2.1]
        split_ifs
        · exact seenE f hfm
        · exact (stE s hs).1
      · rw [(r4 s).2.2]
        split_ifs
        · exact seenE f hfm
        · exact (stE s hs).2
    · intro g hg; exact List.mem_append_left _ (inv.seen_sub g hg)
    · intro y hy
      rcases List.mem_append.1 hy with h1 | h1
      · exact inv.seen_cover y h1
      · rw [List.mem_singleton] at h1; subst h1
        exact ⟨f, hfm, hfe.symm⟩
    · intro v hv p hp e
      rw [List.map_append, List.count_append] at hv
      obtain ⟨s, hs, hps⟩ := Heap.mem_ends.1 hp
      by_cases hvx : v = T x
      · subst hvx
        rcases hps with rfl | rfl
        · rw [epi] at e
          rw [(r4 s).2.1, if_pos ⟨(lmem s).2 ⟨hs, Or.inl e⟩, e⟩]
          exact hfm
        · rw [epj] at e
          have hne : T (st.1.seg s).i ≠ T x := fun h => stnn s hs (h.trans e.symm)
          rw [(r4 s).2.2, if_pos ⟨(lmem s).2 ⟨hs, Or.inr e⟩, hne⟩]
          exact hfm
      · have : List.count v (List.map T [x]) = 0 := by
          rw [List.count_eq_zero]; simp [hvx]
        rw [this] at hv
        rcases hps with rfl | rfl
        · rw [epi] at e
          rw [(r4 s).2.1, if_neg (by rintro ⟨-, h⟩; exact hvx (e.symm.trans h))]
          exact inv.many v hv _ (Heap.mem_ends.2 ⟨s, hs, Or.inl rfl⟩) e
        · rw [epj] at e
          have : ¬ (s ∈ l ∧ T (st.1.seg s).i ≠ T x) := by
            rintro ⟨h1, h2⟩
            rcases ((lmem s).1 h1).2 with h3 | h3
            · exact h2 h3
            · exact hvx (e.symm.trans h3)
          rw [(r4 s).2.2, if_neg this]
          exact inv.many v hv _ (Heap.mem_ends.2 ⟨s, hs, Or.inr rfl⟩) e
    · intro v hv s hs
      rw [List.map_append, List.count_append] at hv
      have hvx : v ≠ T x := by
        rintro rfl
        simp at hv
        have : (pre.map T).count (T x) = 0 := by omega
        omega
      have hf := inv.few v (by omega) s hs
      constructor
      · intro e
        rw [epi] at e
        rw [(r4 s).2.1, if_neg (by rintro ⟨-, h⟩; exact hvx (e.symm.trans h))]
        exact hf.1 e
      · intro e
        rw [epj] at e
        have : ¬ (s ∈ l ∧ T (st.1.seg s).i ≠ T x) := by
          rintro ⟨h1, h2⟩
          rcases ((lmem s).1 h1).2 with h3 | h3
          · exact h2 h3
          · exact hvx (e.symm.trans h3)
        rw [(r4 s).2.2, if_neg this]
        exact hf.2 e

theorem purge_near_fold {R : Rt K} (hR : R.IsRounding) {h0 : Heap K} {segs : List ℕ}
    (T : ℕ → α)
    (peqE : ∀ p ∈ h0.ends segs, ∀ q ∈ h0.ends segs, (R.peq (h0.pt p) (h0.pt q) = true ↔ T p = T q))
    (hnull : ∀ s ∈ segs, T (h0.seg s).i ≠ T (h0.seg s).j) :
    ∀ (l pre : List ℕ) (st : Heap K × List ℕ), PurgeNear R T h0 segs pre st →
      (∀ y ∈ pre, y ∈ h0.ends segs) → (∀ y ∈ l, y ∈ h0.ends segs) →
      PurgeNear R T h0 segs (pre ++ l) (l.foldl (R.purgeStep segs) st) := by
  intro l
  induction l with
  | nil => intro pre st inv _ _; simpa using inv
  | cons x l ih =>
    intro pre st inv hpre hl
    have := purge_near_step hR T peqE hnull inv hpre (hl x (by simp))
    have := ih (pre ++ [x]) _ this (by
      intro y hy
      rcases List.mem_append.1 hy with h1 | h1
      · exact hpre y h1
      · rw [List.mem_singleton] at h1; subst h1; exact hl y (by simp)) (fun y hy => hl y (by simp [hy]))
    simpa using this

theorem purge_near_all {R : Rt K} (hR : R.IsRounding) {h0 : Heap K} {segs : List ℕ}
    (T : ℕ → α)
    (peqE : ∀ p ∈ h0.ends segs, ∀ q ∈ h0.ends segs, (R.peq (h0.pt p) (h0.pt q) = true ↔ T p = T q))
    (hnull : ∀ s ∈ segs, T (h0.seg s).i ≠ T (h0.seg s).j) :
    PurgeNear R T h0 segs (h0.allRefs segs) ((h0.allRefs segs).foldl (R.purgeStep segs) (h0, [])) := by
  have base : PurgeNear R T h0 segs [] (h0, []) := by
    refine ⟨rfl, rfl, rfl, fun _ => ⟨rfl, rfl, rfl⟩, fun _ _ => rfl, fun _ h => h, by simp, by simp, by simp, by simp, ?_⟩
    intro v _ s _; exact ⟨fun _ => rfl, fun _ => rfl⟩
  have := purge_near_fold hR T peqE hnull (h0.allRefs segs) [] (h0, []) base (by simp)
    (fun y hy => Heap.mem_allRefs.1 hy)
  simpa using this

/-- the set of Points does not keep an object twice -/
theorem rset_nodup {R : Rt K} (hR : R.IsRounding) (h : Heap K) (l : List ℕ) : (R.rset h l).Nodup := by
  have key : ∀ (l s : List ℕ), s.Nodup →
      (l.foldl (fun s p => if R.pmem (h.pt p) (s.map h.pt) then s else s ++ [p]) s).Nodup := by
    intro l
    induction l with
    | nil => intro s hs; exact hs
    | cons a l ih =>
      intro s hs
      rw [List.foldl_cons]
      apply ih
      split_ifs with hc
      · exact hs
      · rw [List.nodup_append]
        refine ⟨hs, by simp, ?_⟩
        intro x hx y hy e
        rw [List.mem_singleton] at hy
        subst hy
        subst e
        apply hc
        unfold Rt.pmem
        rw [List.any_eq_true]
        exact ⟨h.pt x, List.mem_map_of_mem hx, by simp [hR.peq_refl]⟩
  exact key l [] List.nodup_nil

/-- `purge` of a polyline whose vertices meet up to the tolerance, where at least one Point object is shared already -/
theorem purge_near {R : Rt K} (hR : R.IsRounding) {h : Heap K} {P : PLine} (hp : P.purged = false) (T : ℕ → α)
    (peqE : ∀ p ∈ h.ends P.segs, ∀ q ∈ h.ends P.segs, (R.peq (h.pt p) (h.pt q) = true ↔ T p = T q))
    (hnull : ∀ s ∈ P.segs, T (h.seg s).i ≠ T (h.seg s).j) (hdup : ¬ (h.ends P.segs).Nodup) :
    (R.purge h P).2 = ⟨P.segs, true⟩ ∧ (R.purge h P).1.pt = h.pt ∧ (R.purge h P).1.npt = h.npt ∧
    (R.purge h P).1.nseg = h.nseg ∧
    (∀ s, ((R.purge h P).1.seg s).cls = (h.seg s).cls ∧ T ((R.purge h P).1.seg s).i = T (h.seg s).i ∧
      T ((R.purge h P).1.seg s).j = T (h.seg s).j) ∧
    (∀ s, s ∉ P.segs → (R.purge h P).1.seg s = h.seg s) ∧
    (∀ p ∈ (R.purge h P).1.ends P.segs, p ∈ h.ends P.segs) ∧
    ∀ a ∈ (R.purge h P).1.ends P.segs, ∀ b ∈ (R.purge h P).1.ends P.segs, T a = T b → a = b := by
  unfold Rt.purge
  rw [hp]
  simp only [Bool.false_eq_true, if_false]
  split_ifs with hl
  · exfalso
    apply hdup
    have e : (R.rset h (h.allRefs P.segs)).length = (h.allRefs P.segs).length := by
      rw [← hl]; exact ((List.perm_insertionSort _ _).length_eq).symm
    have hsub : (R.rset h (h.allRefs P.segs)).Subperm (h.allRefs P.segs) :=
      List.subperm_of_subset (rset_nodup hR h _) fun p hp => Heap.rset_subset R h _ hp
    have hperm := hsub.perm_of_length_le e.ge
    exact (hperm.trans (List.perm_insertionSort _ _)).nodup_iff.1 (rset_nodup hR h _)
  · have inv := purge_near_all hR T peqE hnull
    refine ⟨rfl, inv.pt, inv.npt, inv.nseg, inv.val, inv.frame, inv.ends, ?_⟩
    intro a ha b hb e
    by_cases hc : 2 ≤ ((h.allRefs P.segs).map T).count (T a)
    · exact inv.seen_inj a (inv.many _ hc a ha rfl) b (inv.many _ hc b hb e.symm) e
    · by_contra hne
      apply hc
      have hsub : [a, b].Subperm (h.allRefs P.segs) := by
        apply List.subperm_of_subset
        · simp [hne]
        · intro c hc
          simp only [List.mem_cons, List.not_mem_nil, or_false] at hc
          rcases hc with rfl | rfl
          · exact Heap.mem_allRefs.2 (inv.ends _ ha)
          · exact Heap.mem_allRefs.2 (inv.ends _ hb)
      obtain ⟨l', hperm, hsl⟩ := hsub
      have h1 := (hsl.map T).count_le (T a)
      rw [(hperm.map T).count_eq] at h1
      simpa [← e] using h1

end Srep
