import Verif.Lemmas.HeadConvex
import Verif.Props.Ray
import Verif.Props.Winding
import Verif.Props.Mantel

/-! Torispherical heads are valid (C103). -/

set_option linter.unusedSectionVars false

namespace Srep
open Rt

/-- two segments in different strips, at least 1e-6 apart -/
def StripsApart {K : Type} [Field K] [LinearOrder K] (s o : Seg K) : Prop :=
  (∀ a, a = s.i ∨ a = s.j → ∀ b, b = o.i ∨ b = o.j → b.x + 1 / 10 ^ 6 ≤ a.x) ∨
  (∀ a, a = s.i ∨ a = s.j → ∀ b, b = o.i ∨ b = o.j → a.x + 1 / 10 ^ 6 ≤ b.x) ∨
  (∀ a, a = s.i ∨ a = s.j → ∀ b, b = o.i ∨ b = o.j → b.y + 1 / 10 ^ 6 ≤ a.y) ∨
  (∀ a, a = s.i ∨ a = s.j → ∀ b, b = o.i ∨ b = o.j → a.y + 1 / 10 ^ 6 ≤ b.y)

/-- segments in different strips do not cross -/
theorem ios_apart {K : Type} [Field K] [LinearOrder K] [IsStrictOrderedRing K] [FloorRing K] {R : Rt K} (hE : R.IsExact) {s o : Seg K} (h : StripsApart s o) : R.intersectionOnSegment s o = false := by
  have key : ∀ p : Pt K, ¬ (R.isInternal s p = true ∧ R.isInternal o p = true) := by
    rintro p ⟨hs, ho⟩
    unfold Rt.isInternal at hs ho
    simp only [Bool.and_eq_true, decide_eq_true_eq, hE.sub', hE.add', hE.eps'] at hs ho
    obtain ⟨⟨⟨s1, s2⟩, s3⟩, s4⟩ := hs
    obtain ⟨⟨⟨o1, o2⟩, o3⟩, o4⟩ := ho
    rcases h with h | h | h | h
    · have : max o.i.x o.j.x + 1 / 10 ^ 6 ≤ min s.i.x s.j.x := by
        rcases max_choice o.i.x o.j.x with e | e <;> rcases min_choice s.i.x s.j.x with e' | e' <;> rw [e, e'] <;>
          apply h <;> simp
      have e8 : (1 : K) / 10 ^ 8 = 1 / 100000000 := by norm_num
      have e6 : (1 : K) / 10 ^ 6 = 1 / 1000000 := by norm_num
      rw [e8] at s1 s2 s3 s4 o1 o2 o3 o4
      rw [e6] at this
      linarith
    · have : max s.i.x s.j.x + 1 / 10 ^ 6 ≤ min o.i.x o.j.x := by
        rcases max_choice s.i.x s.j.x with e | e <;> rcases min_choice o.i.x o.j.x with e' | e' <;> rw [e, e'] <;>
          apply h <;> simp
      have e8 : (1 : K) / 10 ^ 8 = 1 / 100000000 := by norm_num
      have e6 : (1 : K) / 10 ^ 6 = 1 / 1000000 := by norm_num
      rw [e8] at s1 s2 s3 s4 o1 o2 o3 o4
      rw [e6] at this
      linarith
    · have : max o.i.y o.j.y + 1 / 10 ^ 6 ≤ min s.i.y s.j.y := by
        rcases max_choice o.i.y o.j.y with e | e <;> rcases min_choice s.i.y s.j.y with e' | e' <;> rw [e, e'] <;>
          apply h <;> simp
      have e8 : (1 : K) / 10 ^ 8 = 1 / 100000000 := by norm_num
      have e6 : (1 : K) / 10 ^ 6 = 1 / 1000000 := by norm_num
      rw [e8] at s1 s2 s3 s4 o1 o2 o3 o4
      rw [e6] at this
      linarith
    · have : max s.i.y s.j.y + 1 / 10 ^ 6 ≤ min o.i.y o.j.y := by
        rcases max_choice s.i.y s.j.y with e | e <;> rcases min_choice o.i.y o.j.y with e' | e' <;> rw [e, e'] <;>
          apply h <;> simp
      have e8 : (1 : K) / 10 ^ 8 = 1 / 100000000 := by norm_num
      have e6 : (1 : K) / 10 ^ 6 = 1 / 1000000 := by norm_num
      rw [e8] at s1 s2 s3 s4 o1 o2 o3 o4
      rw [e6] at this
      linarith
  unfold Rt.intersectionOnSegment
  split_ifs
  · rfl
  · split
    · rfl
    · rename_i p _
      rw [Bool.and_eq_false_iff]
      by_contra hc
      simp only [not_or, Bool.not_eq_false] at hc
      exact key p hc

theorem StripsApart.symm {K : Type} [Field K] [LinearOrder K] {s o : Seg K} (h : StripsApart s o) : StripsApart o s := by
  rcases h with h | h | h | h
  · exact Or.inr (Or.inl fun a ha b hb => h b hb a ha)
  · exact Or.inl fun a ha b hb => h b hb a ha
  · exact Or.inr (Or.inr (Or.inr fun a ha b hb => h b hb a ha))
  · exact Or.inr (Or.inr (Or.inl fun a ha b hb => h b hb a ha))

/-- vertices further left, also at the cylinders -/
theorem HeadShape.Big.mono {s : HeadShape} {d h1 : ℝ} (hb : s.Big d h1) {j k : ℕ} (hjk : j < k) (hk : k ≤ 16) (h0 : ¬ (j = 0 ∧ k ≤ 1))
    (h15 : ¬ (15 ≤ j ∧ k = 16)) : (s.vertex d h1 k).x + 4 / 10 ^ 5 ≤ (s.vertex d h1 j).x := by
  have hd := hb.pos
  have hst := hb.step
  have e0 : (s.vertex d h1 0).x = (s.vertex d h1 1).x := by rw [s.vertex_zero, s.vertex_one]
  have e16 : (s.vertex d h1 16).x = (s.vertex d h1 15).x := by rw [s.vertex_fifteen, s.vertex_sixteen]
  have key : ∀ j k, 1 ≤ j → j < k → k ≤ 15 → (s.vertex d h1 k).x + 4 / 10 ^ 5 ≤ (s.vertex d h1 j).x := by
    intro j k h1' h2 h3
    have := s.vertex_mono (h1 := h1) hd h1' h2 h3
    linarith
  by_cases hj : j = 0
  · subst hj
    rw [e0]
    by_cases hk' : k = 16
    · subst hk'
      rw [e16]
      exact key _ _ (by omega) (by omega) (by omega)
    · exact key _ _ (by omega) (by omega) (by omega)
  · by_cases hk' : k = 16
    · subst hk'
      rw [e16]
      exact key _ _ (by omega) (by omega) (by omega)
    · exact key _ _ (by omega) (by omega) (by omega)

/-- the sides of the ring of points near to the vertices of a placed head that are not neighbours are in different strips -/
theorem head_strips {s : HeadShape} {d h1 : ℝ} (hb : s.Big d h1) {c : Prop} [Decidable c] {x0 y0 : ℝ} {W : ℕ → Pt ℝ}
    (hW : ∀ i < 17, Near (3 / 10 ^ 8) (W i) (headPlace c x0 y0 (s.vertex d h1 i))) {a b : ℕ} (hab : a + 2 ≤ b) (hb16 : b ≤ 16)
    (hne : ¬ (a = 0 ∧ b = 16)) (κ κ' : SegCls) :
    StripsApart ⟨W a, W ((a + 1) % 17), κ⟩ ⟨W b, W ((b + 1) % 17), κ'⟩ := by
  have ha : (a + 1) % 17 = a + 1 := Nat.mod_eq_of_lt (by omega)
  rw [ha]
  have near : ∀ i < 17, (c → |(W i).x - (x0 - (s.vertex d h1 i).x)| ≤ 3 / 10 ^ 8 ∧ |(W i).y - (y0 - (s.vertex d h1 i).y)| ≤ 3 / 10 ^ 8) ∧
      (¬ c → |(W i).x - (x0 + (s.vertex d h1 i).x)| ≤ 3 / 10 ^ 8 ∧ |(W i).y - (y0 + (s.vertex d h1 i).y)| ≤ 3 / 10 ^ 8) := by
    intro i hi
    have := hW i hi
    unfold Near headPlace at this
    constructor
    · intro hc; rw [if_pos hc] at this; exact this
    · intro hc; rw [if_neg hc] at this; exact this
  have far1 : ∀ u v u' v' z : ℝ, |u' - (z - u)| ≤ 3 / 10 ^ 8 → |v' - (z - v)| ≤ 3 / 10 ^ 8 → u + 4 / 10 ^ 5 ≤ v → v' + 1 / 10 ^ 6 ≤ u' := by
    intro u v u' v' z h1 h2 h3
    rw [abs_le] at h1 h2
    norm_num at h1 h2 h3 ⊢
    linarith
  have far2 : ∀ u v u' v' z : ℝ, |u' - (z + u)| ≤ 3 / 10 ^ 8 → |v' - (z + v)| ≤ 3 / 10 ^ 8 → u + 4 / 10 ^ 5 ≤ v → u' + 1 / 10 ^ 6 ≤ v' := by
    intro u v u' v' z h1 h2 h3
    rw [abs_le] at h1 h2
    norm_num at h1 h2 h3 ⊢
    linarith
  by_cases h16 : b = 16
  · subst h16
    have e : (16 + 1) % 17 = 0 := rfl
    rw [e]
    have low : ∀ i, 1 ≤ i → i ≤ 15 → ∀ j, j = 16 ∨ j = 0 → (s.vertex d h1 j).y + 4 / 10 ^ 5 ≤ (s.vertex d h1 i).y := by
      intro i h1' h2 j hj
      have := s.vertex_y (h1 := h1) hb.pos h1' h2
      have := hb.h1
      rcases hj with rfl | rfl
      · rw [s.vertex_sixteen]; dsimp only; linarith
      · rw [s.vertex_zero]; dsimp only; linarith
    by_cases hc : c
    · right; right; right
      intro p hp q hq
      obtain ⟨i, i1, i2, rfl⟩ : ∃ i, 1 ≤ i ∧ i ≤ 15 ∧ p = W i := by
        rcases hp with rfl | rfl
        exacts [⟨a, by omega, by omega, rfl⟩, ⟨a + 1, by omega, by omega, rfl⟩]
      obtain ⟨j, j1, rfl⟩ : ∃ j, (j = 16 ∨ j = 0) ∧ q = W j := by
        rcases hq with rfl | rfl
        exacts [⟨16, by simp, rfl⟩, ⟨0, by simp, rfl⟩]
      exact far1 _ _ _ _ _ (((near j (by omega)).1 hc).2) (((near i (by omega)).1 hc).2) (low i i1 i2 j j1)
    · right; right; left
      intro p hp q hq
      obtain ⟨i, i1, i2, rfl⟩ : ∃ i, 1 ≤ i ∧ i ≤ 15 ∧ p = W i := by
        rcases hp with rfl | rfl
        exacts [⟨a, by omega, by omega, rfl⟩, ⟨a + 1, by omega, by omega, rfl⟩]
      obtain ⟨j, j1, rfl⟩ : ∃ j, (j = 16 ∨ j = 0) ∧ q = W j := by
        rcases hq with rfl | rfl
        exacts [⟨16, by simp, rfl⟩, ⟨0, by simp, rfl⟩]
      exact far2 _ _ _ _ _ (((near j (by omega)).2 hc).2) (((near i (by omega)).2 hc).2) (low i i1 i2 j j1)
  · have e : (b + 1) % 17 = b + 1 := Nat.mod_eq_of_lt (by omega)
    rw [e]
    by_cases hc : c
    · right; left
      intro p hp q hq
      obtain ⟨i, i1, rfl⟩ : ∃ i, (i = a ∨ i = a + 1) ∧ p = W i := by
        rcases hp with rfl | rfl
        exacts [⟨a, by simp, rfl⟩, ⟨a + 1, by simp, rfl⟩]
      obtain ⟨j, j1, rfl⟩ : ∃ j, (j = b ∨ j = b + 1) ∧ q = W j := by
        rcases hq with rfl | rfl
        exacts [⟨b, by simp, rfl⟩, ⟨b + 1, by simp, rfl⟩]
      exact far1 _ _ _ _ _ (((near j (by omega)).1 hc).1) (((near i (by omega)).1 hc).1)
        (hb.mono (by omega) (by omega) (by omega) (by omega))
    · left
      intro p hp q hq
      obtain ⟨i, i1, rfl⟩ : ∃ i, (i = a ∨ i = a + 1) ∧ p = W i := by
        rcases hp with rfl | rfl
        exacts [⟨a, by simp, rfl⟩, ⟨a + 1, by simp, rfl⟩]
      obtain ⟨j, j1, rfl⟩ : ∃ j, (j = b ∨ j = b + 1) ∧ q = W j := by
        rcases hq with rfl | rfl
        exacts [⟨b, by simp, rfl⟩, ⟨b + 1, by simp, rfl⟩]
      exact far2 _ _ _ _ _ (((near j (by omega)).2 hc).1) (((near i (by omega)).2 hc).1)
        (hb.mono (by omega) (by omega) (by omega) (by omega))

/-- a strictly convex counter-clockwise polygon that is valid is convex and counter-clockwise for the code -/
theorem convex_isCw {K : Type} [Field K] [LinearOrder K] [IsStrictOrderedRing K] [FloorRing K] {R : Rt K} (hE : R.IsExact)
    {l : List (Seg K)} (hc : ConvexCcw l) (h3 : 3 ≤ l.length) (hv : R.plValid l = true) :
    R.isConvex l = .ok true ∧ R.isCw l = .ok false ∧ R.isCcw l = .ok true := by
  have hpos : ∀ x ∈ R.cps l, 0 < x := by
    intro x hx
    obtain ⟨k, hk, rfl⟩ := List.getElem_of_mem hx
    rw [cps_length] at hk
    rw [cps_get _ _ _ hk, hE.cross']
    have h1 : (k + 1) % l.length < l.length := Nat.mod_lt _ (by omega)
    have h2 : ((k + 1) % l.length + 1) % l.length < l.length := Nat.mod_lt _ (by omega)
    have e1 := hc.chain k hk
    have e2 := hc.chain _ h1
    have hinj : ∀ a b (ha : a < l.length) (hb : b < l.length), l[a].i = l[b].i → a = b := by
      intro a b ha hb e
      have := (List.nodup_iff_injective_getElem.1 hc.nodup) (a₁ := ⟨a, by simpa using ha⟩) (a₂ := ⟨b, by simpa using hb⟩) (by simpa using e)
      simpa using this
    have hne : ((k + 1) % l.length + 1) % l.length ≠ k ∧ ((k + 1) % l.length + 1) % l.length ≠ (k + 1) % l.length := by
      rcases Nat.lt_or_ge (k + 1) l.length with h | h
      · rw [Nat.mod_eq_of_lt h]
        rcases Nat.lt_or_ge (k + 1 + 1) l.length with h' | h'
        · rw [Nat.mod_eq_of_lt h']; omega
        · rw [show k + 1 + 1 = l.length by omega, Nat.mod_self]; omega
      · rw [show k + 1 = l.length by omega, Nat.mod_self, Nat.mod_eq_of_lt (by omega)]; omega
    have := hc.left l[k] (List.getElem_mem _) (l[((k + 1) % l.length + 1) % l.length]) (List.getElem_mem _)
    rcases this with h | h | h
    · exact absurd (hinj _ _ h2 hk h) hne.1
    · rw [e1] at h
      exact absurd (hinj _ _ h2 h1 h) hne.2
    · rw [← e2] at h
      unfold det3 at h
      rw [← e1]
      linarith
  obtain ⟨b, hb, hbb⟩ := (C51_convex R l).2 hv
  have hbt : b = true := hbb.2 (Or.inl fun x hx => (hpos x hx).le)
  rw [hbt] at hb
  obtain ⟨b', hb', hbb'⟩ := C51_cw_convex hE.isRounding l hb
  have h0 : (R.cps l)[0]'(by rw [cps_length]; omega) ∈ R.cps l := List.getElem_mem _
  have hbf : b' = false := hbb'.2 ⟨_, h0, hpos _ h0⟩
  rw [hbf] at hb'
  exact ⟨hb, hb', by rw [((C51_ccw R l).1 false).1 hb']; rfl⟩

section real
variable (hs : ℝ → ℝ → Int)

theorem HeadKind.step {k : HeadKind} {s : HeadShape} (hk : k.shape = some s) : 4 / 1000 ≤ s.step ∧ 1 / 10 ≤ Real.sin s.turn := by
  cases k with
  | klopper =>
    have : s = klopperShape := by simpa [HeadKind.shape] using hk.symm
    rw [this]; exact ⟨HeadShape.step_klopper, HeadShape.turn_klopper⟩
  | korbbogen =>
    have : s = korbbogenShape := by simpa [HeadKind.shape] using hk.symm
    rw [this]; exact ⟨HeadShape.step_korbbogen, HeadShape.turn_korbbogen⟩
  | other => simp [HeadKind.shape] at hk

/-- the sides of a new head as values -/
theorem head_vals {k : HeadKind} {s : HeadShape} (hk : k.shape = some s) (m : HeadDim ℝ) (hd : 1 / 100 ≤ m.d)
    (h1 : 4 / 10 ^ 5 ≤ m.h1) (h : Heap ℝ) :
    ∃ h' P, ∃ W : ℕ → Pt ℝ, (Rt.real hs).headNew h k m = .ok (h', P) ∧ (h'.vals P.segs).length = 17 ∧
      (∀ i (hi : i < (h'.vals P.segs).length), (h'.vals P.segs)[i] = ⟨W i, W ((i + 1) % 17), if i < 16 then .wall else .nonWall⟩) ∧
      NearHead s m.d m.h1 (m.orient = -1) m.posH m.posV W := by
  obtain ⟨h', P, A, a1, -, a3, -, a5, a6, -⟩ := C102_outline hs hk m hd h1 h
  refine ⟨h', P, fun i => h'.pt (A i), a1, by simp [Heap.vals, a3], ?_, a6⟩
  intro i hi
  have hi' : i < P.segs.length := by simpa [Heap.vals] using hi
  simp only [Heap.vals, List.getElem_map, Heap.val]
  rw [(a5 i hi').2]

/-- C103: a head of a diameter of at least 0.01 with a cylindrical part of at least 4e-5 is valid: continuous and no two of
its sides cross, upwards and downwards, anywhere in the plane. -/
theorem C103_valid {k : HeadKind} {s : HeadShape} (hk : k.shape = some s) (m : HeadDim ℝ) (hd : 1 / 100 ≤ m.d)
    (h1 : 4 / 10 ^ 5 ≤ m.h1) (h : Heap ℝ) :
    ∃ h' P, (Rt.real hs).headNew h k m = .ok (h', P) ∧ (Rt.real hs).headValid h' P = true := by
  have hE := Rt.real_isExact hs
  obtain ⟨h', P, W, a1, a2, a3, a4⟩ := head_vals hs hk m hd h1 h
  refine ⟨h', P, a1, ?_⟩
  have hb := HeadShape.big_of_step (HeadKind.step hk).1 hd h1
  have hring := ring_closed hE.isRounding (by omega) a2 W _ a3
  unfold Rt.headValid polygonlineOf
  rw [(C63_valid _ _).2]
  refine ⟨hring.1, ?_, ?_⟩
  · intro e
    rw [e] at a2
    simp at a2
  have key : ∀ a b (ha : a < (h'.vals P.segs).length) (hb : b < (h'.vals P.segs).length), a < b →
      (Rt.real hs).intersectionOnSegment (h'.vals P.segs)[a] (h'.vals P.segs)[b] = false ∧
      (Rt.real hs).intersectionOnSegment (h'.vals P.segs)[b] (h'.vals P.segs)[a] = false := by
    intro a b ha hb' hab
    rw [a3 a ha, a3 b hb']
    by_cases h2 : b = a + 1
    · have e : (a + 1) % 17 = b := by rw [← h2]; exact Nat.mod_eq_of_lt (by omega)
      rw [e]
      exact ⟨ios_shared hE.isRounding _ _ (Or.inr (Or.inr (Or.inl rfl))), ios_shared hE.isRounding _ _ (Or.inr (Or.inl rfl))⟩
    · by_cases h3 : a = 0 ∧ b = 16
      · obtain ⟨rfl, rfl⟩ := h3
        exact ⟨ios_shared hE.isRounding _ _ (Or.inr (Or.inl rfl)), ios_shared hE.isRounding _ _ (Or.inr (Or.inr (Or.inl rfl)))⟩
      · have := head_strips hb a4 (show a + 2 ≤ b by omega) (by omega) h3 (if a < 16 then .wall else .nonWall) (if b < 16 then .wall else .nonWall)
        exact ⟨ios_apart hE this, ios_apart hE this.symm⟩
  intro a b ha hb' hab
  rcases Nat.lt_or_gt_of_ne hab with hlt | hlt
  · exact (key a b ha hb' hlt).1
  · exact (key b a hb' ha hlt).2

/-- C103: … its sides form a strictly convex polygon, counter-clockwise, and the code reports it as convex and not clockwise. -/
theorem C103_convex {k : HeadKind} {s : HeadShape} (hk : k.shape = some s) (m : HeadDim ℝ) (hd : 1 / 100 ≤ m.d)
    (h1 : 4 / 10 ^ 5 ≤ m.h1) (h : Heap ℝ) :
    ∃ h' P, (Rt.real hs).headNew h k m = .ok (h', P) ∧ ConvexCcw (h'.vals P.segs) ∧
      (Rt.real hs).isConvex (h'.vals P.segs) = .ok true ∧ (Rt.real hs).isCw (h'.vals P.segs) = .ok false := by
  have hE := Rt.real_isExact hs
  obtain ⟨h', P, W, a1, a2, a3, a4⟩ := head_vals hs hk m hd h1 h
  obtain ⟨h'', P', b1, b2⟩ := C103_valid hs hk m hd h1 h
  rw [a1] at b1
  obtain ⟨rfl, rfl⟩ : h' = h'' ∧ P = P' := by simpa using b1
  have hb := HeadShape.big_of_step (HeadKind.step hk).1 hd h1
  have hleft := fun {a b : ℕ} => a4.left (a := a) (b := b) hb (HeadKind.step hk).2
  have hc : ConvexCcw (h'.vals P.segs) := by
    refine ⟨?_, ?_, ?_⟩
    · intro i hi
      rw [a3 i hi, a3 _ (Nat.mod_lt _ (by omega))]
      dsimp only
      rw [a2]
    · rw [List.nodup_iff_injective_getElem]
      rintro ⟨i, hi⟩ ⟨j, hj⟩ e
      simp only [List.length_map] at hi hj
      simp only [List.getElem_map] at e
      rw [a3 i hi, a3 j hj] at e
      dsimp only at e
      by_contra hne
      have hij : i ≠ j := fun h => hne (Fin.ext h)
      by_cases h2 : j = (i + 1) % 17
      · -- the side from j: i is not its end
        have h3 : i ≠ (j + 1) % 17 := by omega
        have := hleft (a := j) (b := i) (by omega) (by omega) hij h3
        rw [e] at this
        unfold det3 at this
        simp at this
      · have := hleft (a := i) (b := j) (by omega) (by omega) (Ne.symm hij) h2
        rw [← e] at this
        unfold det3 at this
        simp at this
    · intro s hs o ho
      obtain ⟨i, hi, rfl⟩ := List.getElem_of_mem hs
      obtain ⟨j, hj, rfl⟩ := List.getElem_of_mem ho
      rw [a3 i hi, a3 j hj]
      dsimp only
      by_cases e1 : j = i
      · left; rw [e1]
      by_cases e2 : j = (i + 1) % 17
      · right; left; rw [e2]
      · right; right
        exact hleft (by omega) (by omega) e1 e2
  have hcw := convex_isCw hE hc (by omega) b2
  exact ⟨h', P, a1, hc, hcw.1, hcw.2.1⟩

/-- C103: … `is_internal_point` of its polyline is True strictly inside and False strictly outside, for targets in general
position. -/
theorem C103_internal {k : HeadKind} {s : HeadShape} (hk : k.shape = some s) (m : HeadDim ℝ) (hd : 1 / 100 ≤ m.d)
    (h1 : 4 / 10 ^ 5 ≤ m.h1) (h : Heap ℝ) :
    ∃ h' P, (Rt.real hs).headNew h k m = .ok (h', P) ∧ ∀ p (ω : ℕ → Pt ℝ) (fuel : ℕ),
      (∀ j < 3, GoodTarget (h'.vals P.segs) p (ω j) ∧ Spread (h'.vals P.segs) p (ω j)) →
      (InsideCcw (h'.vals P.segs) p → (Rt.real hs).plInternal (h'.vals P.segs) p ω (fuel + 1) = some true) ∧
      (OutsideCcw (h'.vals P.segs) p → (Rt.real hs).plInternal (h'.vals P.segs) p ω (fuel + 1) = some false) := by
  have hE := Rt.real_isExact hs
  obtain ⟨h', P, a1, a2, a3, a4⟩ := C103_convex hs hk m hd h1 h
  have hne : h'.vals P.segs ≠ [] := by
    obtain ⟨h'', P', W, b1, b2, -⟩ := head_vals hs hk m hd h1 h
    rw [a1] at b1
    obtain ⟨rfl, rfl⟩ : h' = h'' ∧ P = P' := by simpa using b1
    intro e
    rw [e] at b2
    simp at b2
  refine ⟨h', P, a1, fun p ω fuel hω => ⟨fun hp => ?_, fun hp => ?_⟩⟩
  · exact (C84_inside hE _ a2 hne p hp ω hω fuel).1
  · exact (C84_outside hE _ a2 p hp ω hω fuel).1

theorem level_cross {a b : Pt ℝ} {Y v L U : ℝ} (h : Y = (lerp a b v).y) (hab : a.y < Y ∧ Y < b.y ∨ b.y < Y ∧ Y < a.y)
    (h1 : L ≤ a.x) (h2 : L ≤ b.x) (h3 : a.x ≤ U) (h4 : b.x ≤ U) :
    0 ≤ v ∧ v ≤ 1 ∧ L ≤ (lerp a b v).x ∧ (lerp a b v).x ≤ U := by
  unfold lerp at *
  dsimp only at *
  have v0 : 0 ≤ v := by
    by_contra hcn
    push Not at hcn
    rcases hab with ⟨h5, h6⟩ | ⟨h5, h6⟩ <;> nlinarith
  have v1 : v ≤ 1 := by
    by_contra hcn
    push Not at hcn
    rcases hab with ⟨h5, h6⟩ | ⟨h5, h6⟩ <;> nlinarith
  have v2 := sub_nonneg.2 v1
  refine ⟨v0, v1, ?_, ?_⟩
  · nlinarith [mul_le_mul_of_nonneg_left h1 v2, mul_le_mul_of_nonneg_left h2 v0]
  · nlinarith [mul_le_mul_of_nonneg_left h3 v2, mul_le_mul_of_nonneg_left h4 v0]

theorem level_between {X T Y u : ℝ} (h : X < T) (h1 : X ≤ (lerp (⟨X, Y⟩ : Pt ℝ) ⟨T, Y⟩ u).x) (h2 : (lerp (⟨X, Y⟩ : Pt ℝ) ⟨T, Y⟩ u).x ≤ T) :
    0 ≤ u ∧ u ≤ 1 := by
  unfold lerp at *
  dsimp only at *
  constructor <;> by_contra hcn <;> push Not at hcn <;> nlinarith

/-- The hypotheses of `C103_internal` can be met: the middle of the cylindrical part of every upright head is strictly inside,
and a point far to the right at the same height is a target in general position. -/
example {k : HeadKind} {s : HeadShape} (hk : k.shape = some s) (m : HeadDim ℝ) (hd : 1 / 100 ≤ m.d) (h1 : 4 / 10 ^ 5 ≤ m.h1)
    (ho : m.orient = 1) (h : Heap ℝ) :
    ∃ h' P, (Rt.real hs).headNew h k m = .ok (h', P) ∧ ∃ p t, InsideCcw (h'.vals P.segs) p ∧
      GoodTarget (h'.vals P.segs) p t ∧ Spread (h'.vals P.segs) p t := by
  obtain ⟨h', P, W, a1, a2, a3, a4⟩ := head_vals hs hk m hd h1 h
  have hb := HeadShape.big_of_step (HeadKind.step hk).1 hd h1
  have hleft := fun {a b : ℕ} => a4.left (a := a) (b := b) hb (HeadKind.step hk).2
  have hdp := hb.pos
  have hc : ¬ m.orient = -1 := by rw [ho]; norm_num
  have near : ∀ i < 17, |(W i).x - (m.posH + (s.vertex m.d m.h1 i).x)| ≤ 3 / 10 ^ 8 ∧ |(W i).y - (m.posV + (s.vertex m.d m.h1 i).y)| ≤ 3 / 10 ^ 8 := by
    intro i hi
    have := a4 i hi
    unfold Near headPlace at this
    rwa [if_neg hc] at this
  have n0 := near 0 (by omega)
  have n1 := near 1 (by omega)
  have n15 := near 15 (by omega)
  have n16 := near 16 (by omega)
  rw [s.vertex_zero] at n0
  rw [s.vertex_one] at n1
  rw [s.vertex_fifteen] at n15
  rw [s.vertex_sixteen] at n16
  simp only [abs_le] at n0 n1 n15 n16
  have yup : ∀ i, 1 ≤ i → i ≤ 15 → m.posV + m.h1 - 3 / 10 ^ 8 ≤ (W i).y := by
    intro i h1' h2
    have := s.vertex_y (h1 := m.h1) hdp h1' h2
    have := (abs_le.1 (near i (by omega)).2).1
    linarith
  have xr : ∀ i < 17, (W i).x ≤ m.posH + m.d / 2 + 3 / 10 ^ 8 := by
    intro i hi
    have h2 := (abs_le.1 (near i hi).1).2
    have : (s.vertex m.d m.h1 i).x ≤ m.d / 2 := by
      by_cases h0 : i ≤ 1
      · rcases Nat.le_one_iff_eq_zero_or_eq_one.1 h0 with rfl | rfl
        · rw [s.vertex_zero]
        · rw [s.vertex_one]
      · have := hb.mono (j := 0) (k := i) (by omega) (by omega) (by omega) (by omega)
        rw [s.vertex_zero] at this
        norm_num at this
        linarith
    linarith
  set Y : ℝ := ((W 0).y + (W 1).y + (W 15).y + (W 16).y) / 4 with hY
  set X : ℝ := ((W 0).x + (W 1).x + (W 15).x + (W 16).x) / 4 with hX
  norm_num at n0 n1 n15 n16 xr yup h1 hd
  have Y1 : m.posV + m.h1 / 2 - 1 / 10000000 ≤ Y := by rw [hY]; linarith [n0.2.1, n1.2.1, n15.2.1, n16.2.1]
  have Y2 : Y ≤ m.posV + m.h1 / 2 + 1 / 10000000 := by rw [hY]; linarith [n0.2.2, n1.2.2, n15.2.2, n16.2.2]
  have X1 : m.posH - 1 / 10000000 ≤ X := by rw [hX]; linarith [n0.1.1, n1.1.1, n15.1.1, n16.1.1]
  have X2 : X ≤ m.posH + 1 / 10000000 := by rw [hX]; linarith [n0.1.2, n1.1.2, n15.1.2, n16.1.2]
  have yW : ∀ i < 17, (i = 0 ∨ i = 16) ∧ (W i).y ≤ Y - 1 / 100000 ∨ (1 ≤ i ∧ i ≤ 15) ∧ Y + 1 / 100000 ≤ (W i).y := by
    intro i hi
    by_cases h0 : i = 0
    · left; subst h0; exact ⟨by simp, by linarith [n0.2.2]⟩
    by_cases h16 : i = 16
    · left; subst h16; exact ⟨by simp, by linarith [n16.2.2]⟩
    · right
      have := yup i (by omega) (by omega)
      exact ⟨by omega, by linarith⟩
  refine ⟨h', P, a1, ⟨X, Y⟩, ⟨m.posH + m.d, Y⟩, ?_, ⟨?_, ?_, ?_, ?_⟩, ?_⟩
  · intro o ho'
    obtain ⟨i, hi, rfl⟩ := List.getElem_of_mem ho'
    rw [a3 i hi]
    dsimp only
    have hn : ∀ b < 17, 0 ≤ det3 (W i) (W ((i + 1) % 17)) (W b) := by
      intro b hb'
      by_cases e1 : b = i
      · rw [e1]; unfold det3; simp
      by_cases e2 : b = (i + 1) % 17
      · rw [e2]; unfold det3; apply le_of_eq; ring
      · exact (hleft (by omega) hb' e1 e2).le
    have e : det3 (W i) (W ((i + 1) % 17)) ⟨X, Y⟩ = (det3 (W i) (W ((i + 1) % 17)) (W 0) + det3 (W i) (W ((i + 1) % 17)) (W 1) +
        det3 (W i) (W ((i + 1) % 17)) (W 15) + det3 (W i) (W ((i + 1) % 17)) (W 16)) / 4 := by
      unfold det3
      rw [hX, hY]
      ring
    rw [e]
    have g0 := hn 0 (by omega)
    have g1 := hn 1 (by omega)
    have g15 := hn 15 (by omega)
    have g16 := hn 16 (by omega)
    by_cases e0 : i = 0 ∨ i = 16
    · have := hleft (a := i) (b := 15) (by omega) (by omega) (by omega) (by omega)
      linarith
    · by_cases e1 : i = 15
      · have := hleft (a := i) (b := 1) (by omega) (by omega) (by omega) (by omega)
        linarith
      · have := hleft (a := i) (b := 0) (by omega) (by omega) (by omega) (by omega)
        linarith
  · dsimp only; linarith
  · intro o ho'
    obtain ⟨i, hi, rfl⟩ := List.getElem_of_mem ho'
    rw [a3 i hi]
    dsimp only
    have := xr i (by omega)
    have := xr ((i + 1) % 17) (by omega)
    constructor <;> linarith
  · intro o ho'
    obtain ⟨i, hi, rfl⟩ := List.getElem_of_mem ho'
    rw [a3 i hi]
    have key : ∀ b < 17, det3 (⟨X, Y⟩ : Pt ℝ) ⟨m.posH + m.d, Y⟩ (W b) ≠ 0 := by
      intro b hb'
      have hx : 0 < m.posH + m.d - X := by linarith
      unfold det3
      dsimp only
      rw [sub_self, zero_mul, sub_zero]
      refine mul_ne_zero hx.ne' ?_
      rcases yW b hb' with ⟨-, h⟩ | ⟨-, h⟩
      · intro e; linarith
      · intro e; linarith
    exact ⟨key _ (by omega), key _ (by omega)⟩
  · intro o ho'
    obtain ⟨i, hi, rfl⟩ := List.getElem_of_mem ho'
    rw [a3 i hi]
    rintro Z ⟨u, rfl⟩ ⟨v, hv⟩
    have hZ : (lerp (⟨X, Y⟩ : Pt ℝ) ⟨m.posH + m.d, Y⟩ u).y = Y := by unfold lerp; simp
    have hvx := congrArg Pt.x hv
    have hvy := congrArg Pt.y hv
    rw [hZ] at hvy
    dsimp only at hv hvx hvy ⊢
    have ya := yW i (by omega)
    have yb := yW ((i + 1) % 17) (by omega)
    by_cases i16 : i = 16
    · right; right; right; right; right
      subst i16
      rw [show (16 + 1) % 17 = 0 from rfl] at hv hvx hvy yb ⊢
      rw [hZ]
      have h1 : (W 16).y ≤ Y - 1 / 100000 := by rcases ya with ⟨_, h⟩ | ⟨h, _⟩ <;> first | exact h | omega
      have h2 : (W 0).y ≤ Y - 1 / 100000 := by rcases yb with ⟨_, h⟩ | ⟨h, _⟩ <;> first | exact h | omega
      have := max_le h1 h2
      rw [show (2 : ℝ) / 10 ^ 8 = 1 / 50000000 by norm_num]
      linarith
    have hi1 : (i + 1) % 17 = i + 1 := Nat.mod_eq_of_lt (by omega)
    rw [hi1] at hv hvx hvy yb ⊢
    by_cases i0 : i = 0
    · subst i0
      left
      have h1 : (W 0).y ≤ Y - 1 / 100000 := by rcases ya with ⟨_, h⟩ | ⟨h, _⟩ <;> first | exact h | omega
      have h2 : Y + 1 / 100000 ≤ (W (0 + 1)).y := by rcases yb with ⟨h, _⟩ | ⟨_, h⟩ <;> first | exact h | omega
      obtain ⟨v0, v1, l, r⟩ := level_cross (L := X) (U := m.posH + m.d) hvy (Or.inl ⟨by linarith, by linarith⟩) (by linarith [n0.1.1]) (by linarith [n1.1.1])
        (by linarith [n0.1.2]) (by linarith [n1.1.2])
      rw [← hvx] at l r
      obtain ⟨u0, u1⟩ := level_between (by linarith) l r
      exact ⟨⟨u, u0, u1, rfl⟩, ⟨v, v0, v1, hv⟩⟩
    by_cases i15 : i = 15
    · subst i15
      right; left; left
      have h1 : (W (15 + 1)).y ≤ Y - 1 / 100000 := by rcases yb with ⟨_, h⟩ | ⟨h, _⟩ <;> first | exact h | omega
      have h2 : Y + 1 / 100000 ≤ (W 15).y := by rcases ya with ⟨h, _⟩ | ⟨_, h⟩ <;> first | exact h | omega
      obtain ⟨v0, v1, l, r⟩ := level_cross (L := X - 2 * m.d) (U := X - 1 / 1000) hvy (Or.inr ⟨by linarith, by linarith⟩) (by linarith [n15.1.1])
        (by linarith [n16.1.1]) (by linarith [n15.1.2]) (by linarith [n16.1.2])
      rw [hvx, min_eq_left (by linarith)]
      norm_num at r ⊢
      linarith
    · right; right; right; right; left
      rw [hZ]
      have h1 : Y + 1 / 100000 ≤ (W i).y := by rcases ya with ⟨h, _⟩ | ⟨_, h⟩ <;> first | exact h | omega
      have h2 : Y + 1 / 100000 ≤ (W (i + 1)).y := by rcases yb with ⟨h, _⟩ | ⟨_, h⟩ <;> first | exact h | omega
      have := le_min h1 h2
      rw [show (2 : ℝ) / 10 ^ 8 = 1 / 50000000 by norm_num]
      linarith
  · have hset : ∀ q, (q = (⟨X, Y⟩ : Pt ℝ) ∨ q = ⟨m.posH + m.d, Y⟩ ∨ ∃ o ∈ h'.vals P.segs, q = o.i ∨ q = o.j) →
        q = ⟨X, Y⟩ ∨ q = ⟨m.posH + m.d, Y⟩ ∨ ∃ i < 17, q = W i := by
      rintro q (h | h | ⟨o, ho', h⟩)
      · exact Or.inl h
      · exact Or.inr (Or.inl h)
      · obtain ⟨i, hi, rfl⟩ := List.getElem_of_mem ho'
        rw [a3 i hi] at h
        rcases h with h | h
        · exact Or.inr (Or.inr ⟨i, by omega, h⟩)
        · exact Or.inr (Or.inr ⟨(i + 1) % 17, by omega, h⟩)
    have hyd : ∀ i < 17, 1 / 100000 ≤ |(W i).y - Y| := by
      intro i hi
      rw [le_abs]
      rcases yW i hi with ⟨-, h⟩ | ⟨-, h⟩
      · right; linarith
      · left; linarith
    have hxd : 1 / 100000 ≤ |X - (m.posH + m.d)| := by
      rw [le_abs]
      right; linarith
    have e5 : (1 : ℝ) / 10 ^ 5 = 1 / 100000 := by norm_num
    intro q hq r hr hqr
    rw [e5]
    rcases hset q hq with rfl | rfl | ⟨i, hi, rfl⟩ <;> rcases hset r hr with rfl | rfl | ⟨j, hj, rfl⟩
    · exact absurd rfl hqr
    · left; exact hxd
    · right; rw [abs_sub_comm]; exact hyd j hj
    · left; rw [abs_sub_comm]; exact hxd
    · exact absurd rfl hqr
    · right; rw [abs_sub_comm]; exact hyd j hj
    · right; exact hyd i hi
    · right; exact hyd i hi
    · have hij : i ≠ j := fun e => hqr (by rw [e])
      have ni := near i hi
      have nj := near j hj
      rw [abs_le, abs_le] at ni nj
      rcases hb.apart (show i ≤ 16 by omega) (show j ≤ 16 by omega) hij with h | h
      · left
        rw [le_abs] at h ⊢
        norm_num at h ni nj ⊢
        rcases h with h | h
        · left; linarith
        · right; linarith
      · right
        rw [le_abs] at h ⊢
        norm_num at h ni nj ⊢
        rcases h with h | h
        · left; linarith
        · right; linarith

/-- C103: `characteristic_size` is the radius. -/
theorem C103_size (m : HeadDim ℝ) : (Rt.real hs).headSize m * 2 = m.d := by
  unfold Rt.headSize
  rw [(Rt.real_isExact hs).div']
  ring

end real

end Srep
