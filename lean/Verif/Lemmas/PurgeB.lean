import Verif.Lemmas.Purge
import Verif.Props.LineA

/-! More lemmas about `purge` and `point_set`: their effect as a whole. -/

set_option linter.unusedSectionVars false

namespace Srep
variable {K : Type} [Field K] [LinearOrder K] [IsStrictOrderedRing K] [FloorRing K]

theorem Heap.hashOK_allRefs {R : Rt K} {h : Heap K} {l : List ℕ}
    (hh : R.HashOK (endPts (h.vals l))) : R.HashOK ((h.allRefs l).map h.pt) := by
  refine hh.mono ?_
  intro q hq
  obtain ⟨p, hp, rfl⟩ := List.mem_map.1 hq
  rw [← Heap.map_ends]
  exact List.mem_map_of_mem (Heap.mem_allRefs.1 hp)

/-- `point_set`: one object for every location -/
theorem Heap.pointRefs_spec {R : Rt K} (hR : R.IsRounding) {h : Heap K} {l : List ℕ}
    (hh : R.HashOK (endPts (h.vals l))) :
    ((R.pointRefs h l).map h.pt).Nodup ∧ (∀ p ∈ R.pointRefs h l, p ∈ h.ends l) ∧
    ∀ p ∈ h.ends l, ∃ q ∈ R.pointRefs h l, h.pt q = h.pt p := by
  have hh' := Heap.hashOK_allRefs hh
  have hn : ((R.rset h (h.allRefs l)).map h.pt).Nodup := by
    rw [Heap.map_rset]; exact Rt.nodup_pset hR hh'
  refine ⟨?_, ?_, ?_⟩
  · exact ((List.perm_insertionSort _ _).map _).nodup_iff.2 hn
  · intro p hp
    exact Heap.mem_allRefs.1 (Heap.rset_subset R h _ ((Heap.mem_pointRefs_iff R).1 hp))
  · intro p hp
    have : h.pt p ∈ (R.rset h (h.allRefs l)).map h.pt := by
      rw [Heap.map_rset, Rt.mem_pset hR hh']
      exact List.mem_map_of_mem (Heap.mem_allRefs.2 hp)
    obtain ⟨q, hq, he⟩ := List.mem_map.1 this
    exact ⟨q, (Heap.mem_pointRefs_iff R).2 hq, he⟩

theorem nodup_of_pset_length {R : Rt K} (hR : R.IsRounding) {l : List (Pt K)} (h : R.HashOK l)
    (he : (R.pset l).length = l.length) : l.Nodup := by
  classical
  have h1 := Rt.nodup_pset hR h
  have h2 : (R.pset l).toFinset = l.toFinset := by
    ext q; simp [Rt.mem_pset hR h]
  have h3 := List.toFinset_card_of_nodup h1
  rw [h2, he] at h3
  exact Multiset.coe_nodup.1 (Multiset.toFinset_card_eq_card_iff_nodup.1 (by simpa using h3))

/-- the effect of `purge` -/
theorem purge_spec {R : Rt K} (hR : R.IsRounding) {h : Heap K} {P : PLine} (hp : P.purged = false)
    (hsep : R.Sep (endPts (h.vals P.segs))) (hnull : ∀ s ∈ P.segs, (h.val s).i ≠ (h.val s).j) :
    (R.purge h P).2 = ⟨P.segs, true⟩ ∧ (R.purge h P).1.pt = h.pt ∧ (R.purge h P).1.npt = h.npt ∧
    (R.purge h P).1.nseg = h.nseg ∧ (∀ s, (R.purge h P).1.val s = h.val s) ∧
    (∀ s, s ∉ P.segs → (R.purge h P).1.seg s = h.seg s) ∧
    (∀ p ∈ (R.purge h P).1.ends P.segs, p ∈ h.ends P.segs) ∧ (R.purge h P).1.Shared P.segs := by
  unfold Rt.purge
  rw [hp]
  simp only [Bool.false_eq_true, if_false]
  split_ifs with hl
  · refine ⟨rfl, rfl, rfl, rfl, fun _ => rfl, fun _ _ => rfl, fun _ h => h, ?_⟩
    have hh' := Heap.hashOK_allRefs hsep.hashOK
    have hlen : (R.pset ((h.allRefs P.segs).map h.pt)).length = ((h.allRefs P.segs).map h.pt).length := by
      rw [← Heap.map_rset, List.length_map, List.length_map, ← hl]
      exact ((List.perm_insertionSort _ _).length_eq).symm
    have hn := nodup_of_pset_length hR hh' hlen
    intro a ha b hb e
    exact List.inj_on_of_nodup_map hn (Heap.mem_allRefs.2 ha) (Heap.mem_allRefs.2 hb) e
  · have inv := purge_inv_all hR hsep hnull
    refine ⟨rfl, inv.pt, inv.npt, inv.nseg, inv.val, inv.frame, inv.ends, ?_⟩
    intro a ha b hb e
    rw [inv.pt] at e
    by_cases hc : 2 ≤ ((h.allRefs P.segs).map h.pt).count (h.pt a)
    · exact inv.seen_inj a (inv.many _ hc a ha rfl) b (inv.many _ hc b hb e.symm) e
    · have orig : ∀ c ∈ ((h.allRefs P.segs).foldl (R.purgeStep P.segs) (h, [])).1.ends P.segs,
          h.pt c = h.pt a → c ∈ h.allRefs P.segs := fun c hc _ =>
        Heap.mem_allRefs.2 (inv.ends c hc)
      by_contra hne
      apply hc
      have hsub : [a, b].Subperm (h.allRefs P.segs) := by
        apply List.subperm_of_subset
        · simp [hne]
        · intro c hc
          simp only [List.mem_cons, List.not_mem_nil, or_false] at hc
          rcases hc with rfl | rfl
          · exact orig _ ha rfl
          · exact orig _ hb e.symm
      obtain ⟨l', hperm, hsl⟩ := hsub
      have h1 := (hsl.map h.pt).count_le (h.pt a)
      rw [(hperm.map h.pt).count_eq] at h1
      simpa [← e] using h1

/-- `purge` of a polyline that shares its endpoints changes nothing but the flag. -/
theorem purge_shared {R : Rt K} {h : Heap K} {P : PLine}
    (hsep : R.Sep (endPts (h.vals P.segs))) (hs : h.Shared P.segs) :
    R.purge h P = (h, ⟨P.segs, true⟩) := by
  have memE : ∀ p ∈ h.ends P.segs, h.pt p ∈ endPts (h.vals P.segs) := by
    intro p hp; rw [← Heap.map_ends]; exact List.mem_map_of_mem hp
  have peqE : ∀ p ∈ h.ends P.segs, ∀ q ∈ h.ends P.segs, R.peq (h.pt p) (h.pt q) = true → p = q :=
    fun p hp q hq e => hs p hp q hq (hsep _ (memE p hp) _ (memE q hq) e)
  have relink_id : ∀ (l : List ℕ) (f x : ℕ), f ∈ h.ends P.segs → x ∈ h.ends P.segs → f = x →
      (∀ s ∈ l, s ∈ P.segs ∧ R.onEnds (h.pt x) (h.val s) = true) → R.relink f h x l = h := by
    intro l
    induction l with
    | nil => intros; rfl
    | cons s l ih =>
      intro f x hf hx hfx hl
      obtain ⟨h1, h2⟩ := hl s (by simp)
      have hi : (h.seg s).i ∈ h.ends P.segs := Heap.mem_ends.2 ⟨s, h1, Or.inl rfl⟩
      have hj : (h.seg s).j ∈ h.ends P.segs := Heap.mem_ends.2 ⟨s, h1, Or.inr rfl⟩
      have e : (if R.peq (h.pt (h.seg s).i) (h.pt x) then h.setEndpoints s f (h.seg s).j
          else h.setEndpoints s (h.seg s).i f) = h := by
        split_ifs with hc
        · have := peqE _ hi x hx hc
          rw [hfx, ← this]
          simp [Heap.setEndpoints]
        · have h3 : R.peq (h.pt (h.seg s).j) (h.pt x) = true := by
            simp only [Rt.onEnds, Heap.val, Bool.or_eq_true] at h2
            rcases h2 with h2 | h2
            · exact absurd h2 hc
            · exact h2
          have := peqE _ hj x hx h3
          rw [hfx, ← this]
          simp [Heap.setEndpoints]
      show R.relink f _ f l = h
      rw [e]
      apply ih f f hf hf rfl
      intro t ht
      rw [hfx]
      exact hl t (by simp [ht])
  have fold_id : ∀ (l seen : List ℕ), (∀ p ∈ l, p ∈ h.ends P.segs) → (∀ p ∈ seen, p ∈ h.ends P.segs) →
      (l.foldl (R.purgeStep P.segs) (h, seen)).1 = h := by
    intro l
    induction l with
    | nil => intros; rfl
    | cons x l ih =>
      intro seen hl hseen
      rw [List.foldl_cons]
      have hx := hl x (by simp)
      unfold Rt.purgeStep
      cases hf : seen.find? fun y => R.peq (h.pt x) (h.pt y) with
      | none =>
        simp only
        apply ih _ (fun p hp => hl p (by simp [hp]))
        intro p hp
        rcases List.mem_append.1 hp with h1 | h1
        · exact hseen p h1
        · rw [List.mem_singleton] at h1; rw [h1]; exact hx
      | some f =>
        simp only
        have hfm := hseen f (List.mem_of_find?_eq_some hf)
        have hfx : f = x := (peqE x hx f hfm (by simpa using List.find?_some hf)).symm
        rw [relink_id _ f x hfm hx hfx (by
          intro s hs'
          rw [List.mem_filter] at hs'
          exact hs')]
        exact ih _ (fun p hp => hl p (by simp [hp])) hseen
  unfold Rt.purge
  split_ifs with h1 h2
  · cases P; simp only at h1; rw [h1]
  · rfl
  · rw [fold_id _ _ (fun p hp => Heap.mem_allRefs.1 hp) (by simp)]

end Srep
