import Verif.Props.Internal
import Verif.Props.LineC

/-! Properties of triangles. -/

set_option linter.unusedSectionVars false

namespace Srep
open Rt
variable {K : Type} [Field K] [LinearOrder K] [IsStrictOrderedRing K] [FloorRing K]

/-! ### C57 -/

/-- the segment joins the two points, in either direction -/
def Joins (s : Seg K) (p q : Pt K) : Prop := (s.i = p ∧ s.j = q) ∨ (s.i = q ∧ s.j = p)

theorem Joins.norm_sq {R : Rt K} (hE : R.IsExact) {s : Seg K} {p q : Pt K} (h : Joins s p q) :
    R.norm s * R.norm s = (p.x - q.x) * (p.x - q.x) + (p.y - q.y) * (p.y - q.y) := by
  rw [hE.norm_sq]
  rcases h with ⟨h1, h2⟩ | ⟨h1, h2⟩ <;> rw [h1, h2] <;> ring

/-- C57, exact arithmetic: for three segments joining p, q, r pairwise, in whatever directions, the computed area is
half the absolute cross product of two sides. -/
theorem C57_area {R : Rt K} (hE : R.IsExact) (p q r : Pt K) (a b c : Seg K) (ha : Joins a p q) (hb : Joins b q r)
    (hc : Joins c r p) : R.heron a b c = .ok (|det3 p q r| / 2) := by
  have e1 := ha.norm_sq hE
  have e2 := hb.norm_sq hE
  have e3 := hc.norm_sq hE
  unfold heron psum
  simp only [List.foldl_cons, List.foldl_nil, hE.add', hE.sub', hE.mul', hE.div']
  generalize R.norm a = u at *
  generalize R.norm b = v at *
  generalize R.norm c = w at *
  have key : (0 + u + v + w) / 2 * ((0 + u + v + w) / 2 - u) * ((0 + u + v + w) / 2 - v) * ((0 + u + v + w) / 2 - w) =
      (|det3 p q r| / 2) * (|det3 p q r| / 2) := by
    have h1 : (0 + u + v + w) / 2 * ((0 + u + v + w) / 2 - u) * ((0 + u + v + w) / 2 - v) * ((0 + u + v + w) / 2 - w) =
        (2 * (u * u) * (v * v) + 2 * (v * v) * (w * w) + 2 * (w * w) * (u * u) - (u * u) * (u * u)
          - (v * v) * (v * v) - (w * w) * (w * w)) / 16 := by ring
    have h2 : (|det3 p q r| / 2) * (|det3 p q r| / 2) = det3 p q r * det3 p q r / 4 := by
      rw [div_mul_div_comm, abs_mul_abs_self]; norm_num
    rw [h1, h2, e1, e2, e3]
    unfold det3
    ring
  rw [key, if_pos (mul_self_nonneg _)]
  congr 1
  have h0 : (0 : K) ≤ |det3 p q r| / 2 := div_nonneg (abs_nonneg _) (by norm_num)
  exact (mul_self_inj_of_nonneg (hE.sqrt_nonneg _) h0).1 (hE.sqrt_sq _ (mul_self_nonneg _))

/-- C57: reversing segments does not change the computed area (any correctly rounded arithmetic); permuting
them does not either (exact arithmetic). -/
theorem C57_invariant {R : Rt K} (hR : R.IsRounding) (a b c : Seg K) :
    R.heron a.reversed b c = R.heron a b c ∧ R.heron a b.reversed c = R.heron a b c ∧
    R.heron a b c.reversed = R.heron a b c ∧
    (R.IsExact → R.heron b a c = R.heron a b c ∧ R.heron a c b = R.heron a b c) := by
  refine ⟨?_, ?_, ?_, ?_⟩
  · unfold heron; rw [norm_reversed hR]
  · unfold heron; rw [norm_reversed hR]
  · unfold heron; rw [norm_reversed hR]
  · intro hE
    unfold heron psum
    simp only [List.foldl_cons, List.foldl_nil, hE.add', hE.sub', hE.mul', hE.div']
    constructor
    · rw [show 0 + R.norm b + R.norm a + R.norm c = 0 + R.norm a + R.norm b + R.norm c by ring,
        mul_right_comm _ (_ - R.norm b)]
    · rw [show 0 + R.norm a + R.norm c + R.norm b = 0 + R.norm a + R.norm b + R.norm c by ring,
        mul_right_comm _ (_ - R.norm c)]

/-- C57: a computed area is never negative. -/
theorem C57_nonneg {R : Rt K} (hR : R.IsRounding) (a b c : Seg K) (x : K) (h : R.heron a b c = .ok x) : 0 ≤ x := by
  unfold heron at h
  simp only at h
  split_ifs at h
  · simp only [Except.ok.injEq] at h; rw [← h]; exact hR.sqrt_nonneg _
  · simp only [Except.ok.injEq] at h; rw [← h]

/-- C57 (fails in binary64): for a flat triangle with integer corners rounding makes the discriminant negative by more
than the tolerance and the computation raises ValueError instead of returning 0. -/
theorem C57_flat_raises :
    ∃ (p q r : Pt ℚ) (a b c : Seg ℚ), exRt.Stored p ∧ exRt.Stored q ∧ exRt.Stored r ∧ Joins a p q ∧ Joins b q r ∧
      Joins c r p ∧ det3 p q r = 0 ∧ exRt.heron a b c = .error .value := by
  refine ⟨exRt.mkPt 0 0, exRt.mkPt 84 2200, exRt.mkPt 126 3300, exSeg 0 0 84 2200, exSeg 84 2200 126 3300,
    exSeg 126 3300 0 0, ?_, ?_, ?_, Or.inl ?_, Or.inl ?_, Or.inl ?_, ?_, ?_⟩
  all_goals decide +kernel

/-- non-vacuity and a value: the 3-4-5 triangle -/
example : Joins (exSeg 0 0 3 0) (exRt.mkPt 0 0) (exRt.mkPt 3 0) ∧ Joins (exSeg 0 4 3 0) (exRt.mkPt 3 0) (exRt.mkPt 0 4) ∧
    Joins (exSeg 0 4 0 0) (exRt.mkPt 0 4) (exRt.mkPt 0 0) ∧
    exRt.heron (exSeg 0 0 3 0) (exSeg 0 4 3 0) (exSeg 0 4 0 0) = .ok 6 := by
  refine ⟨Or.inl ?_, Or.inr ?_, Or.inl ?_, ?_⟩
  all_goals decide +kernel

/-! ### C58 -/

/-- C58: `congruent` answers True or None, never False; it is reflexive and symmetric. -/
theorem C58_laws {R : Rt K} (hR : R.IsRounding) (l m : List (Seg K)) :
    R.congruent l m ≠ some false ∧ R.congruent l l = some true ∧ R.congruent l m = R.congruent m l := by
  refine ⟨?_, ?_, ?_⟩
  · unfold congruent
    simp only
    split_ifs <;> simp
  · unfold congruent
    rw [if_pos]
    refine ⟨rfl, ?_⟩
    rw [List.all_eq_true]
    rintro ⟨a, b⟩ h
    obtain ⟨k, hk, e⟩ := List.getElem_of_mem h
    rw [List.getElem_zip, Prod.mk.injEq] at e
    rw [← e.1, ← e.2]
    exact hR.peq_refl _
  · have key : ∀ a b : List (Pt K), a.length = b.length ∧ (a.zip b).all (fun p => R.peq p.1 p.2) = true →
        b.length = a.length ∧ (b.zip a).all (fun p => R.peq p.1 p.2) = true := by
      rintro a b ⟨h1, h2⟩
      refine ⟨h1.symm, ?_⟩
      rw [List.all_eq_true] at h2 ⊢
      rintro ⟨x, y⟩ h
      have := h2 (y, x) (by
        rw [← List.zip_swap]
        exact List.mem_map.2 ⟨(x, y), h, rfl⟩)
      simp only at this ⊢
      rw [hR.peq_comm]
      exact this
    unfold congruent
    simp only
    by_cases h : (R.pointSet l).length = (R.pointSet m).length ∧
        ((R.pointSet l).zip (R.pointSet m)).all (fun p => R.peq p.1 p.2) = true
    · rw [if_pos h, if_pos (key _ _ h)]
    · rw [if_neg h, if_neg (fun h' => h (key _ _ h'))]

theorem ptLe_total (p q : Pt K) : ptLe p q ∨ ptLe q p := by
  unfold ptLe
  rcases lt_trichotomy p.x q.x with h | h | h
  · exact Or.inl (Or.inl h)
  · rcases le_total p.y q.y with h' | h'
    · exact Or.inl (Or.inr ⟨h, h'⟩)
    · exact Or.inr (Or.inr ⟨h.symm, h'⟩)
  · exact Or.inr (Or.inl h)

theorem ptLe_antisymm (p q : Pt K) (h1 : ptLe p q) (h2 : ptLe q p) : p = q := by
  unfold ptLe at *
  rcases h1 with h1 | ⟨h1, h1'⟩ <;> rcases h2 with h2 | ⟨h2, h2'⟩
  · exact absurd h1 (asymm h2)
  · exact absurd h1 (by rw [h2]; exact lt_irrefl _)
  · exact absurd h2 (by rw [h1]; exact lt_irrefl _)
  · exact Pt.ext' h1 (le_antisymm h1' h2')

theorem ptLe_trans (p q r : Pt K) (h1 : ptLe p q) (h2 : ptLe q r) : ptLe p r := by
  unfold ptLe at *
  rcases h1 with h1 | ⟨h1, h1'⟩ <;> rcases h2 with h2 | ⟨h2, h2'⟩
  · exact Or.inl (h1.trans h2)
  · exact Or.inl (by rw [← h2]; exact h1)
  · exact Or.inl (by rw [h1]; exact h2)
  · exact Or.inr ⟨h1.trans h2, h1'.trans h2'⟩

instance : Std.Total (ptLe (K := K)) := ⟨ptLe_total⟩
instance : IsTrans (Pt K) (ptLe (K := K)) := ⟨ptLe_trans⟩
instance : Std.Antisymm (ptLe (K := K)) := ⟨ptLe_antisymm⟩

theorem mem_pointSet {R : Rt K} (hR : R.IsRounding) {l : List (Seg K)} (h : R.HashOK (endPts l)) (p : Pt K) :
    p ∈ R.pointSet l ↔ p ∈ Ends l := by
  unfold pointSet allPoints
  rw [List.mem_insertionSort, mem_pset hR (h.mono fun q hq => (List.mem_insertionSort _).1 hq),
    List.mem_insertionSort, mem_endPts']

theorem nodup_pointSet {R : Rt K} (hR : R.IsRounding) {l : List (Seg K)} (h : R.HashOK (endPts l)) :
    (R.pointSet l).Nodup := by
  unfold pointSet
  rw [(List.perm_insertionSort _ _).nodup_iff]
  exact nodup_pset hR (h.mono fun q hq => (List.mem_insertionSort _).1 hq)

/-- C58: if different vertices of the two are at least 1e-5 apart, `congruent` is True exactly when the two vertex
sets are equal. -/
theorem C58_iff {R : Rt K} (hR : R.IsRounding) (l m : List (Seg K)) (h : Apart R.tol (Ends l ∪ Ends m)) :
    R.congruent l m = some true ↔ Ends l = Ends m := by
  have hl := sep_of_Ends hR (l := l) (fun p hp q hq => h p (Or.inl hp) q (Or.inl hq))
  have hm := sep_of_Ends hR (l := m) (fun p hp q hq => h p (Or.inr hp) q (Or.inr hq))
  have hu : R.Sep (endPts (l ++ m)) := by
    apply sep_of_Ends hR
    have : Ends (l ++ m) = Ends l ∪ Ends m := by
      ext p
      simp [← mem_endPts', endPts]
    rw [this]; exact h
  have key : R.congruent l m = some true ↔ R.pointSet l = R.pointSet m := by
    unfold congruent
    simp only
    constructor
    · intro hc
      split_ifs at hc with hc'
      obtain ⟨h1, h2⟩ := hc'
      apply List.ext_getElem h1
      intro k hk hk'
      rw [List.all_eq_true] at h2
      have := h2 ((R.pointSet l)[k], (R.pointSet m)[k])
        (List.mem_iff_getElem.2 ⟨k, by simp; omega, by simp⟩)
      simp only at this
      have m1 := (mem_pointSet hR hl.hashOK _).1 (List.getElem_mem hk)
      have m2 := (mem_pointSet hR hm.hashOK _).1 (List.getElem_mem hk')
      rw [← mem_endPts'] at m1 m2
      exact (Sep.peq_iff hR hu (by unfold endPts at *; rw [List.flatMap_append]; exact List.mem_append_left _ m1)
        (by unfold endPts at *; rw [List.flatMap_append]; exact List.mem_append_right _ m2)).1 this
    · intro e
      rw [e, if_pos]
      refine ⟨rfl, ?_⟩
      rw [List.all_eq_true]
      rintro ⟨a, b⟩ h
      obtain ⟨k, hk, e⟩ := List.getElem_of_mem h
      rw [List.getElem_zip, Prod.mk.injEq] at e
      rw [← e.1, ← e.2]
      exact hR.peq_refl _
  rw [key]
  constructor
  · intro e
    ext p
    rw [← mem_pointSet hR hl.hashOK, ← mem_pointSet hR hm.hashOK, e]
  · intro e
    have hp : (R.pointSet l).Perm (R.pointSet m) := by
      rw [List.perm_ext_iff_of_nodup (nodup_pointSet hR hl.hashOK) (nodup_pointSet hR hm.hashOK)]
      intro p
      rw [mem_pointSet hR hl.hashOK, mem_pointSet hR hm.hashOK, e]
    exact List.Perm.eq_of_pairwise' (List.pairwise_insertionSort _ _) (List.pairwise_insertionSort _ _) hp

/-- C58: without separation `congruent` can miss: two triangles whose corners are pairwise equal Points are not
congruent, because near-equal x coordinates are sorted differently. -/
theorem C58_near_vertices :
    ∃ l m : List (Seg ℚ), l.length = 3 ∧ m.length = 3 ∧ (∀ k (_ : k < 3) (h' : k < l.length) (h'' : k < m.length),
      exRt.seq l[k] m[k] = true) ∧ exRt.congruent l m = none := by
  refine ⟨[exSeg 0 0 0 1, exSeg 0 1 1 0, exSeg 1 0 0 0],
    [exSeg (1/10^6) 0 0 1, exSeg 0 1 1 0, exSeg 1 0 (1/10^6) 0], rfl, rfl, ?_, ?_⟩
  · intro k h h' h''
    have : ∀ k : Fin 3, exRt.seq ([exSeg 0 0 0 1, exSeg 0 1 1 0, exSeg 1 0 0 0][k])
      ([exSeg (1/10^6) 0 0 1, exSeg 0 1 1 0, exSeg 1 0 (1/10^6) 0][k]) = true := by decide +kernel
    exact this ⟨k, h⟩
  · decide +kernel

/-- non-vacuity -/
example : exRt.congruent [exSeg 0 0 3 0, exSeg 3 0 0 4, exSeg 0 4 0 0] [exSeg 0 4 3 0, exSeg 0 0 0 4, exSeg 3 0 0 0] =
    some true := by decide +kernel

end Srep
