import Verif.Model.Line
import Verif.Lemmas.Exact

/-! Lemmas about Python sets of points and about segments. -/

set_option linter.unusedSectionVars false

namespace Srep
variable {K : Type} [Field K] [LinearOrder K] [IsStrictOrderedRing K] [FloorRing K]

namespace Rt
variable {R : Rt K}

/-- Among the points of `l` no two *different* points that compare equal share a hash value. -/
def HashOK (R : Rt K) (l : List (Pt K)) : Prop :=
  ∀ p ∈ l, ∀ q ∈ l, R.phash p = R.phash q → R.peq p q = true → p = q

/-- Among the points of `l` equality within tolerance is identity of coordinates. -/
def Sep (R : Rt K) (l : List (Pt K)) : Prop :=
  ∀ p ∈ l, ∀ q ∈ l, R.peq p q = true → p = q

theorem Sep.hashOK {l : List (Pt K)} (h : R.Sep l) : R.HashOK l :=
  fun p hp q hq _ he => h p hp q hq he

theorem Sep.mono {l m : List (Pt K)} (h : R.Sep l) (hm : ∀ p ∈ m, p ∈ l) : R.Sep m :=
  fun p hp q hq he => h p (hm p hp) q (hm q hq) he

theorem HashOK.mono {l m : List (Pt K)} (h : R.HashOK l) (hm : ∀ p ∈ m, p ∈ l) : R.HashOK m :=
  fun p hp q hq he => h p (hm p hp) q (hm q hq) he

theorem IsRounding.peq_refl (hR : R.IsRounding) (p : Pt K) : R.peq p p = true := by
  simp [Rt.peq, Rt.sub, hR.zero, hR.tol_pos]

theorem IsRounding.peq_comm (hR : R.IsRounding) (p q : Pt K) : R.peq p q = R.peq q p := by
  unfold Rt.peq
  rw [hR.sub_neg p.x, hR.sub_neg p.y, abs_neg, abs_neg]

theorem Sep.peq_iff (hR : R.IsRounding) {l : List (Pt K)} (h : R.Sep l) {p q : Pt K} (hp : p ∈ l)
    (hq : q ∈ l) : R.peq p q = true ↔ p = q :=
  ⟨h p hp q hq, by rintro rfl; exact hR.peq_refl p⟩

theorem pmem_iff (hR : R.IsRounding) {l s : List (Pt K)} (h : R.HashOK l) (hs : ∀ q ∈ s, q ∈ l)
    {p : Pt K} (hp : p ∈ l) : R.pmem p s = true ↔ p ∈ s := by
  unfold Rt.pmem
  rw [List.any_eq_true]
  constructor
  · rintro ⟨q, hq, h2⟩
    simp only [Bool.and_eq_true, decide_eq_true_eq] at h2
    have := h q (hs q hq) p hp h2.1 h2.2
    exact this ▸ hq
  · intro hm
    exact ⟨p, hm, by simp [hR.peq_refl]⟩

/-- the fold behind `pset` on a start set -/
theorem pset_fold (hR : R.IsRounding) {l : List (Pt K)} (h : R.HashOK l) :
    ∀ (m s : List (Pt K)), (∀ q ∈ m, q ∈ l) → (∀ q ∈ s, q ∈ l) → s.Nodup →
      let r := m.foldl (fun s p => if R.pmem p s then s else s ++ [p]) s
      r.Nodup ∧ (∀ q, q ∈ r ↔ q ∈ s ∨ q ∈ m) := by
  intro m
  induction m with
  | nil => intro s _ _ hn; simp [hn]
  | cons a m ih =>
    intro s hm hs hn
    simp only [List.foldl_cons]
    have ha : a ∈ l := hm a List.mem_cons_self
    have hm' : ∀ q ∈ m, q ∈ l := fun q hq => hm q (List.mem_cons_of_mem _ hq)
    by_cases hmem : R.pmem a s = true
    · have has := (pmem_iff hR h hs ha).1 hmem
      simp only [hmem, if_true]
      obtain ⟨h1, h2⟩ := ih s hm' hs hn
      refine ⟨h1, fun q => ?_⟩
      rw [h2]
      constructor
      · rintro (h | h)
        · exact Or.inl h
        · exact Or.inr (List.mem_cons_of_mem _ h)
      · rintro (h | h)
        · exact Or.inl h
        · rcases List.mem_cons.1 h with rfl | h
          · exact Or.inl has
          · exact Or.inr h
    · have has : a ∉ s := fun hc => hmem ((pmem_iff hR h hs ha).2 hc)
      rw [if_neg hmem]
      have hs' : ∀ q ∈ s ++ [a], q ∈ l := by
        intro q hq
        rcases List.mem_append.1 hq with hq | hq
        · exact hs q hq
        · rw [List.mem_singleton.1 hq]; exact ha
      have hn' : (s ++ [a]).Nodup := by
        rw [List.nodup_append]
        refine ⟨hn, by simp, ?_⟩
        intro x hx y hy hxy
        rw [List.mem_singleton.1 hy] at hxy
        exact has (hxy ▸ hx)
      obtain ⟨h1, h2⟩ := ih (s ++ [a]) hm' hs' hn'
      refine ⟨h1, fun q => ?_⟩
      rw [h2]
      simp only [List.mem_append, List.mem_cons]
      tauto

theorem mem_pset (hR : R.IsRounding) {l : List (Pt K)} (h : R.HashOK l) (q : Pt K) :
    q ∈ R.pset l ↔ q ∈ l := by
  have := (pset_fold hR h l [] (fun _ h => h) (by simp) (by simp)).2 q
  unfold Rt.pset
  simpa using this

theorem nodup_pset (hR : R.IsRounding) {l : List (Pt K)} (h : R.HashOK l) : (R.pset l).Nodup :=
  (pset_fold hR h l [] (fun _ h => h) (by simp) (by simp)).1

theorem psetEq_iff (hR : R.IsRounding) {l a b : List (Pt K)} (h : R.HashOK l) (ha : ∀ q ∈ a, q ∈ l)
    (hb : ∀ q ∈ b, q ∈ l) :
    R.psetEq (R.pset a) (R.pset b) = true ↔ ∀ q, q ∈ a ↔ q ∈ b := by
  have hA := h.mono ha
  have hB := h.mono hb
  have nA := nodup_pset hR hA
  have nB := nodup_pset hR hB
  unfold Rt.psetEq
  simp only [Bool.and_eq_true, decide_eq_true_eq, List.all_eq_true]
  have sB : ∀ q ∈ R.pset b, q ∈ l := fun q hq => hb q ((mem_pset hR hB q).1 hq)
  have sA : ∀ q ∈ R.pset a, q ∈ l := fun q hq => ha q ((mem_pset hR hA q).1 hq)
  constructor
  · rintro ⟨hl, hs⟩
    have sub : R.pset a ⊆ R.pset b := fun q hq => (pmem_iff hR h sB (sA q hq)).1 (hs q hq)
    have perm := (nA.subperm sub).perm_of_length_le hl.ge
    intro q
    rw [← mem_pset hR hA, ← mem_pset hR hB]
    exact perm.mem_iff
  · intro hq
    have perm : (R.pset a).Perm (R.pset b) := by
      rw [List.perm_ext_iff_of_nodup nA nB]
      intro q
      rw [mem_pset hR hA, mem_pset hR hB]; exact hq q
    refine ⟨perm.length_eq, fun p hp => ?_⟩
    exact (pmem_iff hR h sB (sA p hp)).2 (perm.mem_iff.1 hp)

theorem mem_psetInter (hR : R.IsRounding) {l a b : List (Pt K)} (h : R.HashOK l) (ha : ∀ q ∈ a, q ∈ l)
    (hb : ∀ q ∈ b, q ∈ l) (q : Pt K) :
    q ∈ R.psetInter (R.pset a) (R.pset b) ↔ q ∈ a ∧ q ∈ b := by
  have hA := h.mono ha
  have hB := h.mono hb
  have sB : ∀ q ∈ R.pset b, q ∈ l := fun q hq => hb q ((mem_pset hR hB q).1 hq)
  have sA : ∀ q ∈ R.pset a, q ∈ l := fun q hq => ha q ((mem_pset hR hA q).1 hq)
  unfold Rt.psetInter
  split_ifs
  · rw [List.mem_filter]
    constructor
    · rintro ⟨h1, h2⟩
      have h2' := (pmem_iff hR h sB (sA q h1)).1 h2
      exact ⟨(mem_pset hR hA q).1 h1, (mem_pset hR hB q).1 h2'⟩
    · rintro ⟨h1, h2⟩
      have h1' := (mem_pset hR hA q).2 h1
      exact ⟨h1', (pmem_iff hR h sB (sA q h1')).2 ((mem_pset hR hB q).2 h2)⟩
  · rw [List.mem_filter]
    constructor
    · rintro ⟨h1, h2⟩
      have h2' := (pmem_iff hR h sA (sB q h1)).1 h2
      exact ⟨(mem_pset hR hA q).1 h2', (mem_pset hR hB q).1 h1⟩
    · rintro ⟨h1, h2⟩
      have h1' := (mem_pset hR hB q).2 h2
      exact ⟨h1', (pmem_iff hR h sA (sB q h1')).2 ((mem_pset hR hA q).2 h1)⟩

theorem nodup_psetInter (hR : R.IsRounding) {l a b : List (Pt K)} (h : R.HashOK l)
    (ha : ∀ q ∈ a, q ∈ l) (hb : ∀ q ∈ b, q ∈ l) :
    (R.psetInter (R.pset a) (R.pset b)).Nodup := by
  unfold Rt.psetInter
  split_ifs
  · exact (nodup_pset hR (h.mono ha)).filter _
  · exact (nodup_pset hR (h.mono hb)).filter _

/-- endpoints of two segments -/
def ends (s o : Seg K) : List (Pt K) := [s.i, s.j, o.i, o.j]

theorem IsRounding.distance_self (hR : R.IsRounding) (p : Pt K) : R.distance p p = 0 := by
  simp [Rt.distance, Rt.sub, Rt.add, hR.zero, hR.sq_zero, hR.sqrt_zero]

theorem IsRounding.distance_comm (hR : R.IsRounding) (p q : Pt K) : R.distance p q = R.distance q p := by
  unfold Rt.distance
  rw [hR.sub_neg p.x, hR.sub_neg p.y, hR.sq_neg, hR.sq_neg]

/-- `touch` is decided by the distances between endpoints. -/
theorem touch_iff_distance (hR : R.IsRounding) {s o : Seg K} (h : R.HashOK (ends s o)) :
    R.touch s o = true ↔
      ∃ a ∈ [s.i, s.j], ∃ b ∈ [o.i, o.j], R.distance a b < R.eps := by
  unfold Rt.touch
  rw [Bool.or_eq_true, List.any_eq_true]
  simp only [List.any_eq_true, decide_eq_true_eq]
  constructor
  · rintro (h1 | h1)
    · obtain ⟨q, hq⟩ := List.length_eq_one_iff.1 h1
      have hq' : q ∈ R.psetInter (R.pset [s.i, s.j]) (R.pset [o.i, o.j]) := by rw [hq]; simp
      have := (mem_psetInter hR h (by simp [ends]) (by simp [ends]) q).1 hq'
      exact ⟨q, this.1, q, this.2, by rw [hR.distance_self]; exact hR.eps_pos⟩
    · exact h1
  · intro h1; exact Or.inr h1

theorem IsExact.eq_of_distance_lt (hE : R.IsExact) {p q : Pt K} (hp : R.Stored p) (hq : R.Stored q)
    (h : R.distance p q < R.eps) : p = q := by
  rw [hE.eps', hE.distance', hE.sqrt_lt_iff (by
    nlinarith [mul_self_nonneg (p.x - q.x), mul_self_nonneg (p.y - q.y)]) (by positivity)] at h
  obtain ⟨h1, h2⟩ := (hE.stored_iff p).1 hp
  obtain ⟨h3, h4⟩ := (hE.stored_iff q).1 hq
  have hx : |p.x - q.x| < 1 / 10 ^ 8 := by
    apply abs_lt_of_sq_lt_sq _ (by positivity)
    nlinarith [mul_self_nonneg (p.y - q.y)]
  have hy : |p.y - q.y| < 1 / 10 ^ 8 := by
    apply abs_lt_of_sq_lt_sq _ (by positivity)
    nlinarith [mul_self_nonneg (p.x - q.x)]
  have ex := h1.eq_of_abs_lt h3 hx
  have ey := h2.eq_of_abs_lt h4 hy
  cases p; cases q; simp_all

/-- stored endpoints -/
def StoredSeg (R : Rt K) (s : Seg K) : Prop := R.Stored s.i ∧ R.Stored s.j

/-- `touch` in exact arithmetic on the grid: a common endpoint. -/
theorem touch_iff_common (hE : R.IsExact) {s o : Seg K} (hs : R.StoredSeg s) (ho : R.StoredSeg o)
    (h : R.HashOK (ends s o)) :
    R.touch s o = true ↔ ∃ a, a ∈ [s.i, s.j] ∧ a ∈ [o.i, o.j] := by
  have hR := hE.isRounding
  rw [touch_iff_distance hR h]
  constructor
  · rintro ⟨a, ha, b, hb, hd⟩
    have sa : R.Stored a := by
      rcases List.mem_cons.1 ha with rfl | ha
      · exact hs.1
      · rw [List.mem_singleton.1 ha]; exact hs.2
    have sb : R.Stored b := by
      rcases List.mem_cons.1 hb with rfl | hb
      · exact ho.1
      · rw [List.mem_singleton.1 hb]; exact ho.2
    have := hE.eq_of_distance_lt sa sb hd
    exact ⟨a, ha, this ▸ hb⟩
  · rintro ⟨a, ha, hb⟩
    exact ⟨a, ha, a, hb, by rw [hR.distance_self]; exact hR.eps_pos⟩

end Rt
end Srep
