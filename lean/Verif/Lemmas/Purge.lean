import Verif.Lemmas.Heap

/-! Lemmas about `purge` and the in-place transformations of polylines. -/

set_option linter.unusedSectionVars false

namespace Srep
variable {K : Type} [Field K] [LinearOrder K] [IsStrictOrderedRing K] [FloorRing K]

theorem Heap.map_ends (h : Heap K) (l : List ℕ) : (h.ends l).map h.pt = endPts (h.vals l) := by
  induction l with
  | nil => rfl
  | cons s l ih =>
    simp only [Heap.ends, Heap.vals, endPts, List.flatMap_cons, List.map_append, List.map_cons,
      List.map_nil] at ih ⊢
    rw [ih]; rfl

theorem Heap.mem_ends {h : Heap K} {l : List ℕ} {p : ℕ} :
    p ∈ h.ends l ↔ ∃ s ∈ l, p = (h.seg s).i ∨ p = (h.seg s).j := by
  simp [Heap.ends, List.mem_flatMap]

theorem Heap.mem_allRefs {h : Heap K} {l : List ℕ} {p : ℕ} : p ∈ h.allRefs l ↔ p ∈ h.ends l :=
  (List.perm_insertionSort _ _).mem_iff

theorem mem_endPts {l : List (Seg K)} {p : Pt K} : p ∈ endPts l ↔ ∃ s ∈ l, p = s.i ∨ p = s.j := by
  simp [endPts, List.mem_flatMap]

/-- endpoints at the same location are the same object -/
def Heap.Shared (h : Heap K) (l : List ℕ) : Prop :=
  ∀ a ∈ h.ends l, ∀ b ∈ h.ends l, h.pt a = h.pt b → a = b

theorem Heap.map_rset_aux (R : Rt K) (h : Heap K) : ∀ (l s : List ℕ),
    (l.foldl (fun s p => if R.pmem (h.pt p) (s.map h.pt) then s else s ++ [p]) s).map h.pt
      = (l.map h.pt).foldl (fun s p => if R.pmem p s then s else s ++ [p]) (s.map h.pt) := by
  intro l
  induction l with
  | nil => intro s; rfl
  | cons a l ih =>
    intro s
    simp only [List.foldl_cons, List.map_cons]
    rw [ih]
    split_ifs <;> simp

theorem Heap.map_rset (R : Rt K) (h : Heap K) (l : List ℕ) :
    (R.rset h l).map h.pt = R.pset (l.map h.pt) := Heap.map_rset_aux R h l []

theorem Heap.rset_subset_aux (R : Rt K) (h : Heap K) : ∀ (l s : List ℕ) (p : ℕ),
    p ∈ l.foldl (fun s p => if R.pmem (h.pt p) (s.map h.pt) then s else s ++ [p]) s → p ∈ s ∨ p ∈ l := by
  intro l
  induction l with
  | nil => intro s p hp; exact Or.inl hp
  | cons a l ih =>
    intro s p hp
    rw [List.foldl_cons] at hp
    rcases ih _ p hp with h1 | h1
    · split_ifs at h1
      · exact Or.inl h1
      · rcases List.mem_append.1 h1 with h2 | h2
        · exact Or.inl h2
        · rw [List.mem_singleton] at h2; subst h2; exact Or.inr (by simp)
    · exact Or.inr (List.mem_cons_of_mem _ h1)

theorem Heap.rset_subset (R : Rt K) (h : Heap K) (l : List ℕ) {p : ℕ} (hp : p ∈ R.rset h l) : p ∈ l := by
  rcases Heap.rset_subset_aux R h l [] p hp with h1 | h1
  · simp at h1
  · exact h1

theorem Heap.mem_pointRefs_iff (R : Rt K) {h : Heap K} {l : List ℕ} {p : ℕ} :
    p ∈ R.pointRefs h l ↔ p ∈ R.rset h (h.allRefs l) := (List.perm_insertionSort _ _).mem_iff

/-- On shared endpoints `point_set` lists every endpoint object exactly once. -/
theorem Heap.Shared.pointRefs {R : Rt K} (hR : R.IsRounding) {h : Heap K} {l : List ℕ}
    (hh : R.HashOK (endPts (h.vals l))) (hs : h.Shared l) :
    (R.pointRefs h l).Nodup ∧ ∀ p, p ∈ R.pointRefs h l ↔ p ∈ h.ends l := by
  have hh' : R.HashOK ((h.allRefs l).map h.pt) := by
    refine hh.mono ?_
    intro q hq
    obtain ⟨p, hp, rfl⟩ := List.mem_map.1 hq
    rw [← Heap.map_ends]
    exact List.mem_map_of_mem (Heap.mem_allRefs.1 hp)
  have hn : ((R.rset h (h.allRefs l)).map h.pt).Nodup := by
    rw [Heap.map_rset]; exact Rt.nodup_pset hR hh'
  refine ⟨(List.perm_insertionSort _ _).nodup_iff.2 (List.Nodup.of_map _ hn), ?_⟩
  intro p
  rw [Heap.mem_pointRefs_iff]
  constructor
  · intro hp; exact Heap.mem_allRefs.1 (Heap.rset_subset R h _ hp)
  · intro hp
    have : h.pt p ∈ (R.rset h (h.allRefs l)).map h.pt := by
      rw [Heap.map_rset, Rt.mem_pset hR hh']
      exact List.mem_map_of_mem (Heap.mem_allRefs.2 hp)
    obtain ⟨q, hq, he⟩ := List.mem_map.1 this
    have := hs q (Heap.mem_allRefs.1 (Heap.rset_subset R h _ hq)) p hp he
    rwa [this] at hq

/-- writing every Point of a duplicate-free list once -/
theorem foldl_setPt (F : Pt K → Pt K) : ∀ (l : List ℕ) (h : Heap K), l.Nodup →
    let r := l.foldl (fun h p => h.setPt p (F (h.pt p))) h
    r.seg = h.seg ∧ r.npt = h.npt ∧ r.nseg = h.nseg ∧
    ∀ p, r.pt p = if p ∈ l then F (h.pt p) else h.pt p := by
  intro l
  induction l with
  | nil => intro h _; simp
  | cons a l ih =>
    intro h hn
    obtain ⟨h1, h2, h3, h4⟩ := ih (h.setPt a (F (h.pt a))) (List.nodup_cons.1 hn).2
    have ha : a ∉ l := (List.nodup_cons.1 hn).1
    refine ⟨h1, h2, h3, ?_⟩
    intro p
    simp only [List.foldl_cons]
    rw [h4]
    by_cases hp : p ∈ l
    · have : p ≠ a := fun e => ha (e ▸ hp)
      simp [hp, Heap.setPt, Function.update_apply, this]
    · by_cases he : p = a
      · subst he; simp [hp, Heap.setPt]
      · simp [hp, he, Heap.setPt, Function.update_apply]

/-! ### purge -/

theorem relink_spec (R : Rt K) (f : ℕ) (v : Pt K) : ∀ (l : List ℕ) (h : Heap K) (x : ℕ),
    h.pt x = v → h.pt f = v →
    (∀ s ∈ l, (R.peq (h.pt (h.seg s).i) v = true ↔ h.pt (h.seg s).i = v)) → R.peq v v = true →
    let r := R.relink f h x l
    r.pt = h.pt ∧ r.npt = h.npt ∧ r.nseg = h.nseg ∧
    ∀ s, (r.seg s).cls = (h.seg s).cls ∧
      (r.seg s).i = (if s ∈ l ∧ h.pt (h.seg s).i = v then f else (h.seg s).i) ∧
      (r.seg s).j = (if s ∈ l ∧ h.pt (h.seg s).i ≠ v then f else (h.seg s).j) := by
  intro l
  induction l with
  | nil => intro h x _ _ _ _; simp [Rt.relink]
  | cons a l ih =>
    intro h x hx hf hp hv
    set h' : Heap K := if R.peq (h.pt (h.seg a).i) (h.pt x) then h.setEndpoints a f (h.seg a).j
      else h.setEndpoints a (h.seg a).i f with hh'
    have hpt : h'.pt = h.pt := by rw [hh']; split_ifs <;> rfl
    have hnp : h'.npt = h.npt := by rw [hh']; split_ifs <;> rfl
    have hns : h'.nseg = h.nseg := by rw [hh']; split_ifs <;> rfl
    have hseg : ∀ s, (h'.seg s).cls = (h.seg s).cls ∧
        (h'.seg s).i = (if s = a ∧ h.pt (h.seg s).i = v then f else (h.seg s).i) ∧
        (h'.seg s).j = (if s = a ∧ h.pt (h.seg s).i ≠ v then f else (h.seg s).j) := by
      intro s
      have hpa := hp a (by simp)
      rw [hh', hx]
      by_cases hsa : s = a
      · subst hsa
        by_cases hc : h.pt (h.seg s).i = v
        · rw [if_pos (hpa.2 hc)]
          simp [Heap.setEndpoints, hc]
        · rw [if_neg (fun e => hc (hpa.1 e))]
          simp [Heap.setEndpoints, hc]
      · simp only [hsa, false_and, if_false]
        split_ifs <;> simp [Heap.setEndpoints, Function.update_apply, hsa]
    obtain ⟨r1, r2, r3, r4⟩ := ih h' f (by rw [hpt, hf]) (by rw [hpt, hf])
      (by
        intro s hs
        rw [hpt, (hseg s).2.1]
        split_ifs with hc
        · rw [hf]; exact ⟨fun _ => rfl, fun _ => hv⟩
        · exact hp s (List.mem_cons_of_mem _ hs)) hv
    refine ⟨r1.trans hpt, r2.trans hnp, r3.trans hns, ?_⟩
    intro s
    obtain ⟨c1, c2, c3⟩ := r4 s
    obtain ⟨d1, d2, d3⟩ := hseg s
    show ((R.relink f h' f l).seg s).cls = _ ∧ ((R.relink f h' f l).seg s).i = _ ∧
      ((R.relink f h' f l).seg s).j = _
    refine ⟨c1.trans d1, ?_, ?_⟩
    · rw [c2, hpt, d2]
      by_cases hsa : s = a <;> by_cases hc : h.pt (h.seg s).i = v <;> by_cases hsl : s ∈ l <;>
        simp [hsa, hc, hsl, hf] <;> (try (subst hsa; simp_all))
    · rw [c3, hpt, d2, d3]
      by_cases hsa : s = a <;> by_cases hc : h.pt (h.seg s).i = v <;> by_cases hsl : s ∈ l <;>
        simp [hsa, hc, hsl, hf] <;> (try (subst hsa; simp_all))

/-- what `purge` maintains: `pre` is the processed part of `all_points` -/
structure PurgeInv (R : Rt K) (h0 : Heap K) (segs pre : List ℕ) (st : Heap K × List ℕ) : Prop where
  pt : st.1.pt = h0.pt
  npt : st.1.npt = h0.npt
  nseg : st.1.nseg = h0.nseg
  val : ∀ s, st.1.val s = h0.val s
  frame : ∀ s, s ∉ segs → st.1.seg s = h0.seg s
  ends : ∀ p ∈ st.1.ends segs, p ∈ h0.ends segs
  seen_sub : ∀ f ∈ st.2, f ∈ pre
  seen_cover : ∀ x ∈ pre, ∃ f ∈ st.2, h0.pt f = h0.pt x
  seen_inj : ∀ f ∈ st.2, ∀ g ∈ st.2, h0.pt f = h0.pt g → f = g
  many : ∀ v, 2 ≤ (pre.map h0.pt).count v → ∀ p ∈ st.1.ends segs, h0.pt p = v → p ∈ st.2
  few : ∀ v, (pre.map h0.pt).count v ≤ 1 → ∀ s ∈ segs,
    (h0.pt (st.1.seg s).i = v → (st.1.seg s).i = (h0.seg s).i) ∧
    (h0.pt (st.1.seg s).j = v → (st.1.seg s).j = (h0.seg s).j)

theorem purge_inv_step {R : Rt K} (hR : R.IsRounding) {h0 : Heap K} {segs : List ℕ}
    (hsep : R.Sep (endPts (h0.vals segs))) (hnull : ∀ s ∈ segs, (h0.val s).i ≠ (h0.val s).j)
    {pre : List ℕ} {st : Heap K × List ℕ} (inv : PurgeInv R h0 segs pre st)
    (hpre : ∀ y ∈ pre, y ∈ h0.ends segs) {x : ℕ} (hx : x ∈ h0.ends segs) :
    PurgeInv R h0 segs (pre ++ [x]) (R.purgeStep segs st x) := by
  have memE : ∀ p ∈ h0.ends segs, h0.pt p ∈ endPts (h0.vals segs) := by
    intro p hp; rw [← Heap.map_ends]; exact List.mem_map_of_mem hp
  have peqE : ∀ p ∈ h0.ends segs, ∀ q ∈ h0.ends segs, (R.peq (h0.pt p) (h0.pt q) = true ↔ h0.pt p = h0.pt q) :=
    fun p hp q hq => hsep.peq_iff hR (memE p hp) (memE q hq)
  have seenE : ∀ f ∈ st.2, f ∈ h0.ends segs := fun f hf => hpre f (inv.seen_sub f hf)
  unfold Rt.purgeStep
  cases hfind : st.2.find? fun y => R.peq (st.1.pt x) (st.1.pt y) with
  | none =>
    have hnone : ∀ y ∈ st.2, h0.pt x ≠ h0.pt y := by
      intro y hy e
      have := List.find?_eq_none.1 hfind y hy
      rw [inv.pt] at this
      exact this ((peqE x hx y (seenE y hy)).2 e)
    have hcnt : (pre.map h0.pt).count (h0.pt x) = 0 := by
      rw [List.count_eq_zero]
      intro hm
      obtain ⟨y, hy, e⟩ := List.mem_map.1 hm
      obtain ⟨f, hf, e'⟩ := inv.seen_cover y hy
      exact hnone f hf (by rw [e', e])
    refine ⟨inv.pt, inv.npt, inv.nseg, inv.val, inv.frame, inv.ends, ?_, ?_, ?_, ?_, ?_⟩
    · intro f hf
      rcases List.mem_append.1 hf with h1 | h1
      · exact List.mem_append_left _ (inv.seen_sub f h1)
      · exact List.mem_append_right _ h1
    · intro y hy
      rcases List.mem_append.1 hy with h1 | h1
      · obtain ⟨f, hf, e⟩ := inv.seen_cover y h1
        exact ⟨f, List.mem_append_left _ hf, e⟩
      · rw [List.mem_singleton] at h1; subst h1
        exact ⟨y, by simp, rfl⟩
    · intro f hf g hg e
      rcases List.mem_append.1 hf with h1 | h1 <;> rcases List.mem_append.1 hg with h2 | h2
      · exact inv.seen_inj f h1 g h2 e
      · rw [List.mem_singleton] at h2; subst h2; exact absurd e.symm (hnone f h1)
      · rw [List.mem_singleton] at h1; subst h1; exact absurd e (hnone g h2)
      · rw [List.mem_singleton] at h1 h2; rw [h1, h2]
    · intro v hv p hp e
      rw [List.map_append, List.count_append] at hv
      by_cases hvx : v = h0.pt x
      · subst hvx
        simp [hcnt] at hv
      · have : List.count v (List.map h0.pt [x]) = 0 := by
          rw [List.count_eq_zero]; simp [hvx]
        rw [this] at hv
        exact List.mem_append_left _ (inv.many v hv p hp e)
    · intro v hv s hs
      rw [List.map_append, List.count_append] at hv
      exact inv.few v (by omega) s hs
  | some f =>
    have hfm : f ∈ st.2 := List.mem_of_find?_eq_some hfind
    have hfe : h0.pt x = h0.pt f := by
      have := List.find?_some hfind
      simp only [inv.pt] at this
      exact (peqE x hx f (seenE f hfm)).1 this
    have hcnt : 1 ≤ (pre.map h0.pt).count (h0.pt x) := by
      rw [List.one_le_count_iff]
      rw [hfe]; exact List.mem_map_of_mem (inv.seen_sub f hfm)
    set l := segs.filter fun s => R.onEnds (st.1.pt x) (st.1.val s) with hl
    have stE : ∀ s ∈ segs, (st.1.seg s).i ∈ h0.ends segs ∧ (st.1.seg s).j ∈ h0.ends segs := by
      intro s hs
      exact ⟨inv.ends _ (Heap.mem_ends.2 ⟨s, hs, Or.inl rfl⟩), inv.ends _ (Heap.mem_ends.2 ⟨s, hs, Or.inr rfl⟩)⟩
    have lmem : ∀ s, s ∈ l ↔ s ∈ segs ∧ (h0.pt (st.1.seg s).i = h0.pt x ∨ h0.pt (st.1.seg s).j = h0.pt x) := by
      intro s
      rw [hl, List.mem_filter]
      constructor
      · rintro ⟨h1, h2⟩
        refine ⟨h1, ?_⟩
        simp only [Rt.onEnds, Heap.val, inv.pt, Bool.or_eq_true] at h2
        rcases h2 with h2 | h2
        · exact Or.inl ((peqE _ (stE s h1).1 x hx).1 h2)
        · exact Or.inr ((peqE _ (stE s h1).2 x hx).1 h2)
      · rintro ⟨h1, h2⟩
        refine ⟨h1, ?_⟩
        simp only [Rt.onEnds, Heap.val, inv.pt, Bool.or_eq_true]
        rcases h2 with h2 | h2
        · exact Or.inl ((peqE _ (stE s h1).1 x hx).2 h2)
        · exact Or.inr ((peqE _ (stE s h1).2 x hx).2 h2)
    obtain ⟨r1, r2, r3, r4⟩ := relink_spec R f (h0.pt x) l st.1 x (by rw [inv.pt]) (by rw [inv.pt, hfe])
      (by
        intro s hs
        have h1 := ((lmem s).1 hs).1
        rw [inv.pt]
        exact peqE _ (stE s h1).1 x hx) (hR.peq_refl _)
    rw [inv.pt] at r4
    set r := R.relink f st.1 x l with hr
    have stnn : ∀ s ∈ segs, h0.pt (st.1.seg s).i ≠ h0.pt (st.1.seg s).j := by
      intro s hs
      have hv := inv.val s
      have := hnull s hs
      rw [← hv] at this
      simp only [Heap.val, inv.pt] at this
      exact this
    have rpt : r.pt = h0.pt := r1.trans inv.pt
    -- endpoints after relinking
    have epi : ∀ s, h0.pt (r.seg s).i = h0.pt (st.1.seg s).i := by
      intro s
      rw [(r4 s).2.1]
      split_ifs with hc
      · rw [hc.2, hfe]
      · rfl
    have epj : ∀ s, h0.pt (r.seg s).j = h0.pt (st.1.seg s).j := by
      intro s
      rw [(r4 s).2.2]
      split_ifs with hc
      · rcases ((lmem s).1 hc.1).2 with h1 | h1
        · exact absurd h1 hc.2
        · rw [h1, hfe]
      · rfl
    refine ⟨rpt, r2.trans inv.npt, r3.trans inv.nseg, ?_, ?_, ?_, ?_, ?_, inv.seen_inj, ?_, ?_⟩
    · intro s
      rw [← inv.val s]
      show (⟨r.pt (r.seg s).i, r.pt (r.seg s).j, (r.seg s).cls⟩ : Seg K) = _
      rw [rpt, epi, epj, (r4 s).1]
      simp only [Heap.val, inv.pt]
    · intro s hs
      rw [← inv.frame s hs]
      have hsl : s ∉ l := fun h => hs ((lmem s).1 h).1
      obtain ⟨c1, c2, c3⟩ := r4 s
      rw [if_neg (by tauto)] at c2 c3
      cases hh : r.seg s; cases hg : st.1.seg s
      rw [hh, hg] at c1 c2 c3
      simp only at c1 c2 c3
      simp [c1, c2, c3]
    · intro p hp
      obtain ⟨s, hs, hps⟩ := Heap.mem_ends.1 hp
      rcases hps with rfl | rfl
      · rw [(r4 s).2.1]
        split_ifs
        · exact seenE f hfm
        · exact (stE s hs).1
      · rw [(r4 s).2.2]
        split_ifs
        · exact seenE f hfm
        · exact (stE s hs).2
    · intro g hg; exact List.mem_append_left _ (inv.seen_sub g hg)
    · intro y hy
      rcases List.mem_append.1 hy with h1 | h1
      · exact inv.seen_cover y h1
      · rw [List.mem_singleton] at h1; subst h1
        exact ⟨f, hfm, hfe.symm⟩
    · intro v hv p hp e
      rw [List.map_append, List.count_append] at hv
      obtain ⟨s, hs, hps⟩ := Heap.mem_ends.1 hp
      by_cases hvx : v = h0.pt x
      · subst hvx
        rcases hps with rfl | rfl
        · rw [epi] at e
          rw [(r4 s).2.1, if_pos ⟨(lmem s).2 ⟨hs, Or.inl e⟩, e⟩]
          exact hfm
        · rw [epj] at e
          have hne : h0.pt (st.1.seg s).i ≠ h0.pt x := fun h => stnn s hs (h.trans e.symm)
          rw [(r4 s).2.2, if_pos ⟨(lmem s).2 ⟨hs, Or.inr e⟩, hne⟩]
          exact hfm
      · have : List.count v (List.map h0.pt [x]) = 0 := by
          rw [List.count_eq_zero]; simp [hvx]
        rw [this] at hv
        rcases hps with rfl | rfl
        · rw [epi] at e
          rw [(r4 s).2.1, if_neg (by rintro ⟨-, h⟩; exact hvx (e.symm.trans h))]
          exact inv.many v hv _ (Heap.mem_ends.2 ⟨s, hs, Or.inl rfl⟩) e
        · rw [epj] at e
          have : ¬ (s ∈ l ∧ h0.pt (st.1.seg s).i ≠ h0.pt x) := by
            rintro ⟨h1, h2⟩
            rcases ((lmem s).1 h1).2 with h3 | h3
            · exact h2 h3
            · exact hvx (e.symm.trans h3)
          rw [(r4 s).2.2, if_neg this]
          exact inv.many v hv _ (Heap.mem_ends.2 ⟨s, hs, Or.inr rfl⟩) e
    · intro v hv s hs
      rw [List.map_append, List.count_append] at hv
      have hvx : v ≠ h0.pt x := by
        rintro rfl
        simp at hv
        have : (pre.map h0.pt).count (h0.pt x) = 0 := by omega
        omega
      have hf := inv.few v (by omega) s hs
      constructor
      · intro e
        rw [epi] at e
        rw [(r4 s).2.1, if_neg (by rintro ⟨-, h⟩; exact hvx (e.symm.trans h))]
        exact hf.1 e
      · intro e
        rw [epj] at e
        have : ¬ (s ∈ l ∧ h0.pt (st.1.seg s).i ≠ h0.pt x) := by
          rintro ⟨h1, h2⟩
          rcases ((lmem s).1 h1).2 with h3 | h3
          · exact h2 h3
          · exact hvx (e.symm.trans h3)
        rw [(r4 s).2.2, if_neg this]
        exact hf.2 e

theorem purge_inv {R : Rt K} (hR : R.IsRounding) {h0 : Heap K} {segs : List ℕ}
    (hsep : R.Sep (endPts (h0.vals segs))) (hnull : ∀ s ∈ segs, (h0.val s).i ≠ (h0.val s).j) :
    ∀ (l pre : List ℕ) (st : Heap K × List ℕ), PurgeInv R h0 segs pre st →
      (∀ y ∈ pre, y ∈ h0.ends segs) → (∀ y ∈ l, y ∈ h0.ends segs) →
      PurgeInv R h0 segs (pre ++ l) (l.foldl (R.purgeStep segs) st) := by
  intro l
  induction l with
  | nil => intro pre st inv _ _; simpa using inv
  | cons x l ih =>
    intro pre st inv hpre hl
    have := purge_inv_step hR hsep hnull inv hpre (hl x (by simp))
    have := ih (pre ++ [x]) _ this (by
      intro y hy
      rcases List.mem_append.1 hy with h1 | h1
      · exact hpre y h1
      · rw [List.mem_singleton] at h1; subst h1; exact hl y (by simp)) (fun y hy => hl y (by simp [hy]))
    simpa using this

theorem purge_inv_all {R : Rt K} (hR : R.IsRounding) {h0 : Heap K} {segs : List ℕ}
    (hsep : R.Sep (endPts (h0.vals segs))) (hnull : ∀ s ∈ segs, (h0.val s).i ≠ (h0.val s).j) :
    PurgeInv R h0 segs (h0.allRefs segs) ((h0.allRefs segs).foldl (R.purgeStep segs) (h0, [])) := by
  have base : PurgeInv R h0 segs [] (h0, []) := by
    refine ⟨rfl, rfl, rfl, fun _ => rfl, fun _ _ => rfl, fun _ h => h, by simp, by simp, by simp, by simp, ?_⟩
    intro v _ s _; exact ⟨fun _ => rfl, fun _ => rfl⟩
  have := purge_inv hR hsep hnull (h0.allRefs segs) [] (h0, []) base (by simp)
    (fun y hy => Heap.mem_allRefs.1 hy)
  simpa using this

end Srep
