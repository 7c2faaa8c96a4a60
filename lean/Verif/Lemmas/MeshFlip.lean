import Verif.Lemmas.Mesh
import Mathlib.Data.List.Nodup

/-! One executed flip: what the tables contain before and after. -/

set_option linter.unusedSectionVars false

namespace Srep
variable {K : Type} [Field K] [LinearOrder K] [IsStrictOrderedRing K] [FloorRing K] {R : Rt K}

theorem mem_relabel {x y n : ℕ} {v : List ℕ} (hx : x ≠ y) :
    n ∈ relabel x y v ↔ (n ∈ v ∧ n ≠ x) ∨ (n = y ∧ x ∈ v) := by
  unfold relabel
  simp only [List.mem_map]
  constructor
  · rintro ⟨m, hm, rfl⟩
    split_ifs with h
    · subst h; exact Or.inr ⟨rfl, hm⟩
    · exact Or.inl ⟨hm, h⟩
  · rintro (⟨h1, h2⟩ | ⟨rfl, h⟩)
    · exact ⟨n, h1, if_neg h2⟩
    · exact ⟨x, h, if_pos rfl⟩

theorem nodup_relabel {x y : ℕ} {v : List ℕ} (h : v.Nodup) (hy : y ∉ v) : (relabel x y v).Nodup := by
  unfold relabel
  refine List.Nodup.map_on ?_ h
  intro a ha b hb hab
  split_ifs at hab with h1 h2 h2
  · rw [h1, h2]
  · exact absurd (hab ▸ hb) hy
  · exact absurd (hab ▸ ha) hy
  · exact hab

theorem length_relabel {x y : ℕ} {v : List ℕ} : (relabel x y v).length = v.length := by
  unfold relabel; simp

/-- Facts about an executed flip on a sound mesh with different opposite vertices. -/
structure FlipFacts (M : Mesh K) (e : ℤ × ℤ) (t1 t2 : ℕ) (T1 T2 : Tri) (o1 o2 : ℤ) (v1 v2 : List ℕ) : Prop where
  lt : e.1 < e.2
  entry : M.e2t e = some [t1, t2]
  ne : t1 ≠ t2
  oo : o1 ≠ o2
  o11 : o1 ≠ e.1
  o12 : o1 ≠ e.2
  o21 : o2 ≠ e.1
  o22 : o2 ≠ e.2
  h1 : M.tris[t1]? = some T1
  h2 : M.tris[t2]? = some T2
  has1 : ∀ v, T1.Has v ↔ v = o1 ∨ v = e.1 ∨ v = e.2
  has2 : ∀ v, T2.Has v ↔ v = o2 ∨ v = e.1 ∨ v = e.2
  k12e : makeKey o1 o2 ≠ e
  k1e : makeKey o1 e.2 ≠ e
  k2e : makeKey o2 e.1 ≠ e
  k12k1 : makeKey o1 o2 ≠ makeKey o1 e.2
  k12k2 : makeKey o1 o2 ≠ makeKey o2 e.1
  k1k2 : makeKey o1 e.2 ≠ makeKey o2 e.1
  hv1 : M.e2t (makeKey o1 e.2) = some v1
  hv2 : M.e2t (makeKey o2 e.1) = some v2
  n21 : t2 ∉ v1
  n12 : t1 ∉ v2

theorem Flip.facts {M : Mesh K} {e : ℤ × ℤ} {t1 t2 : ℕ} {T1 T2 : Tri} {p q a b : Pt K} {v1 v2 : List ℕ}
    (hM : M.Sound) (F : Flip R M e t1 t2 T1 T2 p q a b v1 v2) (oo : T1.opp e ≠ T2.opp e) :
    FlipFacts M e t1 t2 T1 T2 (T1.opp e) (T2.opp e) v1 v2 := by
  have lt := hM.key _ _ F.entry
  have nd := hM.nodup _ _ F.entry
  have ne : t1 ≠ t2 := by simpa using nd
  obtain ⟨T1', g1, e1⟩ := hM.sound _ _ F.entry t1 (by simp)
  obtain ⟨T2', g2, e2⟩ := hM.sound _ _ F.entry t2 (by simp)
  have : T1' = T1 := by rw [F.h1] at g1; exact (Option.some.inj g1).symm
  subst this
  have : T2' = T2 := by rw [F.h2] at g2; exact (Option.some.inj g2).symm
  subst this
  obtain ⟨a1, a2, a3⟩ := Tri.opp_spec (hM.proper _ (List.mem_of_getElem? F.h1)) e1
  obtain ⟨b1, b2, b3⟩ := Tri.opp_spec (hM.proper _ (List.mem_of_getElem? F.h2)) e2
  have hv1 := F.hv1
  have hv2 := F.hv2
  set o1 := T1'.opp e
  set o2 := T2'.opp e
  have k12e : makeKey o1 o2 ≠ e := makeKey_ne_of_lt (by tauto)
  have k1e : makeKey o1 e.2 ≠ e := makeKey_ne_of_lt (by tauto)
  have k2e : makeKey o2 e.1 ≠ e := makeKey_ne_of_lt (by tauto)
  have k12k1 : makeKey o1 o2 ≠ makeKey o1 e.2 := makeKey_ne (Or.inr ⟨oo.symm, b2⟩)
  have k12k2 : makeKey o1 o2 ≠ makeKey o2 e.1 := makeKey_ne (Or.inl ⟨oo, a1⟩)
  have k1k2 : makeKey o1 e.2 ≠ makeKey o2 e.1 := makeKey_ne (Or.inl ⟨oo, a1⟩)
  simp only [E2T.set, E2T.del, if_neg k12k1.symm, if_neg k1e] at hv1
  simp only [E2T.set, E2T.del, if_neg k12k2.symm, if_neg k2e, if_neg k1k2.symm] at hv2
  refine ⟨lt, F.entry, ne, oo, a1, a2, b1, b2, F.h1, F.h2, a3, b3, k12e, k1e, k2e, k12k1, k12k2, k1k2, hv1, hv2,
    ?_, ?_⟩
  · intro h
    obtain ⟨T, hT, hE⟩ := hM.sound _ _ hv1 _ h
    rw [F.h2] at hT
    obtain rfl := Option.some.inj hT
    have := (b3 _).1 (Tri.has_of_key hE).1
    tauto
  · intro h
    obtain ⟨T, hT, hE⟩ := hM.sound _ _ hv2 _ h
    rw [F.h1] at hT
    obtain rfl := Option.some.inj hT
    have := (a3 _).1 (Tri.has_of_key hE).1
    tauto

variable {M : Mesh K} {e : ℤ × ℤ} {t1 t2 : ℕ} {T1 T2 : Tri} {o1 o2 : ℤ} {v1 v2 : List ℕ}

theorem FlipFacts.tris (F : FlipFacts M e t1 t2 T1 T2 o1 o2 v1 v2) (n : ℕ) :
    (flipped M e t1 t2 o1 o2 v1 v2).tris[n]? =
      if n = t2 then some ⟨o1, o2, e.2⟩ else if n = t1 then some ⟨o1, e.1, o2⟩ else M.tris[n]? := by
  have l1 : t1 < M.tris.length := by
    by_contra h; have := F.h1; rw [List.getElem?_eq_none (by omega)] at this; cases this
  have l2 : t2 < M.tris.length := by
    by_contra h; have := F.h2; rw [List.getElem?_eq_none (by omega)] at this; cases this
  unfold flipped
  simp only [List.getElem?_set, List.length_set]
  by_cases h2 : t2 = n
  · subst h2; simp [l2]
  · by_cases h1 : t1 = n
    · subst h1; simp [F.ne, F.ne.symm, l1]
    · rw [if_neg h2, if_neg h1, if_neg (fun h => h2 h.symm), if_neg (fun h => h1 h.symm)]

theorem FlipFacts.e2t (F : FlipFacts M e t1 t2 T1 T2 o1 o2 v1 v2) (x : ℤ × ℤ) :
    (flipped M e t1 t2 o1 o2 v1 v2).e2t x =
      if x = makeKey o2 e.1 then some (relabel t2 t1 v2) else if x = makeKey o1 e.2 then some (relabel t1 t2 v1)
      else if x = makeKey o1 o2 then some [t1, t2] else if x = e then none else M.e2t x := rfl

theorem FlipFacts.sound (hM : M.Sound) (F : FlipFacts M e t1 t2 T1 T2 o1 o2 v1 v2) :
    (flipped M e t1 t2 o1 o2 v1 v2).Sound := by
  have hAt : ∀ n x, M.At n x → n ≠ t1 → n ≠ t2 → (flipped M e t1 t2 o1 o2 v1 v2).At n x := by
    rintro n x ⟨T, hT, hx⟩ h1 h2
    exact ⟨T, by rw [F.tris, if_neg h2, if_neg h1]; exact hT, hx⟩
  have hAt1 : ∀ u v, u ≠ v → (u = o1 ∨ u = e.1 ∨ u = o2) → (v = o1 ∨ v = e.1 ∨ v = o2) →
      (flipped M e t1 t2 o1 o2 v1 v2).At t1 (makeKey u v) := by
    intro u v huv hu hv
    exact ⟨⟨o1, e.1, o2⟩, by rw [F.tris, if_neg F.ne, if_pos rfl], Tri.HasEdge.mk' huv hu hv⟩
  have hAt2 : ∀ u v, u ≠ v → (u = o1 ∨ u = o2 ∨ u = e.2) → (v = o1 ∨ v = o2 ∨ v = e.2) →
      (flipped M e t1 t2 o1 o2 v1 v2).At t2 (makeKey u v) := by
    intro u v huv hu hv
    exact ⟨⟨o1, o2, e.2⟩, by rw [F.tris, if_pos rfl], Tri.HasEdge.mk' huv hu hv⟩
  have := F.oo; have := F.o11; have := F.o12; have := F.o21; have := F.o22; have := F.lt
  constructor
  · intro T hT
    obtain ⟨n, hn⟩ := List.mem_iff_getElem?.1 hT
    rw [F.tris] at hn
    split_ifs at hn
    · obtain rfl := Option.some.inj hn
      exact ⟨F.oo, F.o22, F.o12⟩
    · obtain rfl := Option.some.inj hn
      exact ⟨F.o11, F.o21.symm, F.oo⟩
    · exact hM.proper _ (List.mem_of_getElem? hn)
  · intro x l h
    rw [F.e2t] at h
    split_ifs at h with h1 h2 h3 h4
    · subst h1; exact makeKey_lt F.o21
    · subst h2; exact makeKey_lt F.o12
    · subst h3; exact makeKey_lt F.oo
    · exact hM.key _ _ h
  · intro x l h
    rw [F.e2t] at h
    split_ifs at h with h1 h2 h3 h4
    · obtain rfl := Option.some.inj h
      exact nodup_relabel (hM.nodup _ _ F.hv2) F.n12
    · obtain rfl := Option.some.inj h
      exact nodup_relabel (hM.nodup _ _ F.hv1) F.n21
    · obtain rfl := Option.some.inj h
      simp [F.ne]
    · exact hM.nodup _ _ h
  · intro x l h n hn
    rw [F.e2t] at h
    split_ifs at h with h1 h2 h3 h4
    · obtain rfl := Option.some.inj h
      subst h1
      rw [mem_relabel F.ne.symm] at hn
      rcases hn with ⟨hn, h⟩ | ⟨rfl, h⟩
      · exact hAt _ _ (hM.sound _ _ F.hv2 _ hn) (fun hh => F.n12 (hh ▸ hn)) h
      · exact hAt1 _ _ F.o21 (by tauto) (by tauto)
    · obtain rfl := Option.some.inj h
      subst h2
      rw [mem_relabel F.ne] at hn
      rcases hn with ⟨hn, h⟩ | ⟨rfl, h⟩
      · exact hAt _ _ (hM.sound _ _ F.hv1 _ hn) h (fun hh => F.n21 (hh ▸ hn))
      · exact hAt2 _ _ F.o12 (by tauto) (by tauto)
    · obtain rfl := Option.some.inj h
      subst h3
      simp at hn
      rcases hn with rfl | rfl
      · exact hAt1 _ _ F.oo (by tauto) (by tauto)
      · exact hAt2 _ _ F.oo (by tauto) (by tauto)
    · have hs := hM.sound _ _ h _ hn
      by_cases n1 : n = t1
      · subst n1
        obtain ⟨T, hT, hlt, ha, hb⟩ := hs
        rw [F.h1] at hT; obtain rfl := Option.some.inj hT
        rw [F.has1] at ha hb
        have hx : x = makeKey o1 e.1 := by
          apply eq_makeKey hlt
          have q1 : x ≠ makeKey o1 e.2 := h2
          have : ¬ (x.1 = o1 ∧ x.2 = e.2) := fun hh => q1 (eq_makeKey hlt (Or.inl hh))
          have : ¬ (x.1 = e.2 ∧ x.2 = o1) := fun hh => q1 (eq_makeKey hlt (Or.inr hh))
          have : ¬ (x.1 = e.1 ∧ x.2 = e.2) := fun hh => h4 (Prod.ext hh.1 hh.2)
          have : ¬ (x.1 = e.2 ∧ x.2 = e.1) := by rintro ⟨hh, hh'⟩; omega
          have : ¬ (x.1 = x.2) := by omega
          rcases ha with ha | ha | ha <;> rcases hb with hb | hb | hb <;> simp_all
        rw [hx]
        exact hAt1 _ _ F.o11 (by tauto) (by tauto)
      · by_cases n2 : n = t2
        · subst n2
          obtain ⟨T, hT, hlt, ha, hb⟩ := hs
          rw [F.h2] at hT; obtain rfl := Option.some.inj hT
          rw [F.has2] at ha hb
          have hx : x = makeKey o2 e.2 := by
            apply eq_makeKey hlt
            have q1 : x ≠ makeKey o2 e.1 := h1
            have : ¬ (x.1 = o2 ∧ x.2 = e.1) := fun hh => q1 (eq_makeKey hlt (Or.inl hh))
            have : ¬ (x.1 = e.1 ∧ x.2 = o2) := fun hh => q1 (eq_makeKey hlt (Or.inr hh))
            have : ¬ (x.1 = e.1 ∧ x.2 = e.2) := fun hh => h4 (Prod.ext hh.1 hh.2)
            have : ¬ (x.1 = e.2 ∧ x.2 = e.1) := by rintro ⟨hh, hh'⟩; omega
            have : ¬ (x.1 = x.2) := by omega
            rcases ha with ha | ha | ha <;> rcases hb with hb | hb | hb <;> simp_all
          rw [hx]
          exact hAt2 _ _ F.o22 (by tauto) (by tauto)
        · exact hAt _ _ hs n1 n2

theorem FlipFacts.complete (hM : M.Consistent) (F : FlipFacts M e t1 t2 T1 T2 o1 o2 v1 v2)
    (hnew : M.e2t (makeKey o1 o2) = none) (n : ℕ) (x : ℤ × ℤ)
    (h : (flipped M e t1 t2 o1 o2 v1 v2).At n x) :
    ∃ l, (flipped M e t1 t2 o1 o2 v1 v2).e2t x = some l ∧ n ∈ l := by
  have c1 : ∀ u v, u ≠ v → T1.Has u → T1.Has v → ∃ l, M.e2t (makeKey u v) = some l ∧ t1 ∈ l :=
    fun u v huv hu hv => hM.complete _ _ ⟨T1, F.h1, Tri.HasEdge.mk' huv hu hv⟩
  have c2 : ∀ u v, u ≠ v → T2.Has u → T2.Has v → ∃ l, M.e2t (makeKey u v) = some l ∧ t2 ∈ l :=
    fun u v huv hu hv => hM.complete _ _ ⟨T2, F.h2, Tri.HasEdge.mk' huv hu hv⟩
  have i1 : t1 ∈ v1 := by
    obtain ⟨l, hl, hn⟩ := c1 o1 e.2 F.o12 ((F.has1 _).2 (by tauto)) ((F.has1 _).2 (by tauto))
    rw [F.hv1] at hl; obtain rfl := Option.some.inj hl; exact hn
  have i2 : t2 ∈ v2 := by
    obtain ⟨l, hl, hn⟩ := c2 o2 e.1 F.o21 ((F.has2 _).2 (by tauto)) ((F.has2 _).2 (by tauto))
    rw [F.hv2] at hl; obtain rfl := Option.some.inj hl; exact hn
  have := F.oo; have := F.o11; have := F.o12; have := F.o21; have := F.o22; have := F.lt
  rw [F.e2t]
  obtain ⟨T, hT, hlt, ha, hb⟩ := h
  rw [F.tris] at hT
  split_ifs at hT with n2 n1
  · obtain rfl := Option.some.inj hT
    subst n2
    simp only [Tri.Has] at ha hb
    have hx : x = makeKey o1 o2 ∨ x = makeKey o1 e.2 ∨ x = makeKey o2 e.2 := by
      have : ¬ (x.1 = x.2) := by omega
      rcases ha with ha | ha | ha <;> rcases hb with hb | hb | hb
      · simp_all
      · exact Or.inl (eq_makeKey hlt (Or.inl ⟨ha, hb⟩))
      · exact Or.inr (Or.inl (eq_makeKey hlt (Or.inl ⟨ha, hb⟩)))
      · exact Or.inl (eq_makeKey hlt (Or.inr ⟨ha, hb⟩))
      · simp_all
      · exact Or.inr (Or.inr (eq_makeKey hlt (Or.inl ⟨ha, hb⟩)))
      · exact Or.inr (Or.inl (eq_makeKey hlt (Or.inr ⟨ha, hb⟩)))
      · exact Or.inr (Or.inr (eq_makeKey hlt (Or.inr ⟨ha, hb⟩)))
      · simp_all
    rcases hx with rfl | rfl | rfl
    · rw [if_neg F.k12k2, if_neg F.k12k1, if_pos rfl]
      exact ⟨_, rfl, by simp⟩
    · rw [if_neg F.k1k2, if_pos rfl]
      exact ⟨_, rfl, (mem_relabel F.ne).2 (Or.inr ⟨rfl, i1⟩)⟩
    · obtain ⟨l, hl, hn⟩ := c2 o2 e.2 F.o22 ((F.has2 _).2 (by tauto)) ((F.has2 _).2 (by tauto))
      rw [if_neg (makeKey_ne (Or.inr ⟨F.o22.symm, F.lt.ne'⟩)), if_neg (makeKey_ne (Or.inl ⟨F.oo.symm, F.o22⟩)),
        if_neg (makeKey_ne (Or.inr ⟨F.o12.symm, F.o22.symm⟩)), if_neg (makeKey_ne_of_lt (Or.inl ⟨F.o21, F.o22⟩))]
      exact ⟨l, hl, hn⟩
  · obtain rfl := Option.some.inj hT
    subst n1
    simp only [Tri.Has] at ha hb
    have hx : x = makeKey o1 o2 ∨ x = makeKey o2 e.1 ∨ x = makeKey o1 e.1 := by
      have : ¬ (x.1 = x.2) := by omega
      rcases ha with ha | ha | ha <;> rcases hb with hb | hb | hb
      · simp_all
      · exact Or.inr (Or.inr (eq_makeKey hlt (Or.inl ⟨ha, hb⟩)))
      · exact Or.inl (eq_makeKey hlt (Or.inl ⟨ha, hb⟩))
      · exact Or.inr (Or.inr (eq_makeKey hlt (Or.inr ⟨ha, hb⟩)))
      · simp_all
      · exact Or.inr (Or.inl (eq_makeKey hlt (Or.inr ⟨ha, hb⟩)))
      · exact Or.inl (eq_makeKey hlt (Or.inr ⟨ha, hb⟩))
      · exact Or.inr (Or.inl (eq_makeKey hlt (Or.inl ⟨ha, hb⟩)))
      · simp_all
    rcases hx with rfl | rfl | rfl
    · rw [if_neg F.k12k2, if_neg F.k12k1, if_pos rfl]
      exact ⟨_, rfl, by simp⟩
    · rw [if_pos rfl]
      exact ⟨_, rfl, (mem_relabel F.ne.symm).2 (Or.inr ⟨rfl, i2⟩)⟩
    · obtain ⟨l, hl, hn⟩ := c1 o1 e.1 F.o11 ((F.has1 _).2 (by tauto)) ((F.has1 _).2 (by tauto))
      rw [if_neg (makeKey_ne (Or.inl ⟨F.oo, F.o11⟩)), if_neg (makeKey_ne (Or.inr ⟨F.o11.symm, F.lt.ne⟩)),
        if_neg (makeKey_ne (Or.inr ⟨F.o11.symm, F.o21.symm⟩)), if_neg (makeKey_ne_of_lt (Or.inl ⟨F.o11, F.o12⟩))]
      exact ⟨l, hl, hn⟩
  · obtain ⟨l, hl, hn⟩ := hM.complete n x ⟨T, hT, hlt, ha, hb⟩
    split_ifs with h1 h2 h3 h4
    · subst h1
      rw [F.hv2] at hl; obtain rfl := Option.some.inj hl
      exact ⟨_, rfl, (mem_relabel F.ne.symm).2 (Or.inl ⟨hn, n2⟩)⟩
    · subst h2
      rw [F.hv1] at hl; obtain rfl := Option.some.inj hl
      exact ⟨_, rfl, (mem_relabel F.ne).2 (Or.inl ⟨hn, n1⟩)⟩
    · subst h3; rw [hnew] at hl; cases hl
    · subst h4
      rw [F.entry] at hl; obtain rfl := Option.some.inj hl
      simp at hn; tauto
    · exact ⟨l, hl, hn⟩

theorem FlipFacts.atMostTwo (hM : M.AtMostTwo) (F : FlipFacts M e t1 t2 T1 T2 o1 o2 v1 v2) :
    (flipped M e t1 t2 o1 o2 v1 v2).AtMostTwo := by
  intro x l h
  rw [F.e2t] at h
  split_ifs at h
  · obtain rfl := Option.some.inj h; rw [length_relabel]; exact hM _ _ F.hv2
  · obtain rfl := Option.some.inj h; rw [length_relabel]; exact hM _ _ F.hv1
  · obtain rfl := Option.some.inj h; simp
  · exact hM _ _ h

theorem FlipFacts.has_old (F : FlipFacts M e t1 t2 T1 T2 o1 o2 v1 v2) {T : Tri} {v : ℤ}
    (hT : T ∈ (flipped M e t1 t2 o1 o2 v1 v2).tris) (hv : T.Has v) : ∃ T' ∈ M.tris, T'.Has v := by
  obtain ⟨n, hn⟩ := List.mem_iff_getElem?.1 hT
  rw [F.tris] at hn
  have m1 := List.mem_of_getElem? F.h1
  have m2 := List.mem_of_getElem? F.h2
  split_ifs at hn
  · obtain rfl := Option.some.inj hn
    rcases hv with rfl | rfl | rfl
    · exact ⟨T1, m1, (F.has1 _).2 (by tauto)⟩
    · exact ⟨T2, m2, (F.has2 _).2 (by tauto)⟩
    · exact ⟨T2, m2, (F.has2 _).2 (by tauto)⟩
  · obtain rfl := Option.some.inj hn
    rcases hv with rfl | rfl | rfl
    · exact ⟨T1, m1, (F.has1 _).2 (by tauto)⟩
    · exact ⟨T1, m1, (F.has1 _).2 (by tauto)⟩
    · exact ⟨T2, m2, (F.has2 _).2 (by tauto)⟩
  · exact ⟨T, List.mem_of_getElem? hn, hv⟩

theorem FlipFacts.inRange (hM : M.InRange) (F : FlipFacts M e t1 t2 T1 T2 o1 o2 v1 v2) :
    (flipped M e t1 t2 o1 o2 v1 v2).InRange := by
  intro T hT v hv
  obtain ⟨T', h1, h2⟩ := F.has_old hT hv
  exact hM _ h1 _ h2

end Srep
