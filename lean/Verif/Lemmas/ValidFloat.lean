import Verif.Lemmas.Bands
import Verif.Lemmas.RayErr
import Verif.Props.LoopsVessel

/-! Outlines whose sides keep clear of each other are valid in every correctly rounded arithmetic. -/

set_option linter.unusedSectionVars false

namespace Srep
variable {K : Type} [Field K] [LinearOrder K] [IsStrictOrderedRing K] [FloorRing K] {R : Rt K}

/-- coordinates of at most a million -/
def SmallPt (p : Pt K) : Prop := |p.x| ≤ 10 ^ 6 ∧ |p.y| ≤ 10 ^ 6
def SmallSeg (s : Seg K) : Prop := SmallPt s.i ∧ SmallPt s.j

theorem SmallSeg.left {s s' : Seg K} (h : SmallSeg s) (e : SameEdge s' s) : SmallSeg s' := by
  unfold SmallSeg at *
  rcases e with ⟨e1, e2⟩ | ⟨e1, e2⟩ <;> rw [e1, e2]
  · exact h
  · exact ⟨h.2, h.1⟩

/-- beyond the tolerance of `is_internal_point` -/
theorem beyond_eps (hR : R.IsRounding) {a b : K} (ha : |a| ≤ 10 ^ 6) (hb : |b| ≤ 10 ^ 6) (h : b + 1 / 10 ^ 6 ≤ a) :
    R.add b R.eps < R.sub a R.eps := by
  have h1 := abs_le.1 (add_eps_near hR hb)
  have h2 := abs_le.1 (sub_eps_near hR ha)
  have e6 : (1 : K) / 10 ^ 6 = 1 / 1000000 := by norm_num
  have e8 : (1 : K) / 10 ^ 8 = 1 / 100000000 := by norm_num
  have e10 : (2 : K) / 10 ^ 10 = 2 / 10000000000 := by norm_num
  rw [e6] at h
  rw [e8, e10] at h1 h2
  linarith [h1.2, h2.1]

theorem abs_max_le' {a b c : K} (ha : |a| ≤ c) (hb : |b| ≤ c) : |max a b| ≤ c := by
  rcases max_choice a b with e | e <;> rw [e] <;> assumption

theorem abs_min_le' {a b c : K} (ha : |a| ≤ c) (hb : |b| ≤ c) : |min a b| ≤ c := by
  rcases min_choice a b with e | e <;> rw [e] <;> assumption

/-- segments in different strips do not cross, whatever the rounding -/
theorem ios_apart_fl (hR : R.IsRounding) {s o : Seg K} (hs : SmallSeg s) (ho : SmallSeg o) (h : StripsApart s o) :
    R.intersectionOnSegment s o = false := by
  have key : ∀ p : Pt K, ¬ (R.isInternal s p = true ∧ R.isInternal o p = true) := by
    rintro p ⟨h1, h2⟩
    unfold Rt.isInternal at h1 h2
    simp only [Bool.and_eq_true, decide_eq_true_eq] at h1 h2
    obtain ⟨⟨⟨s1, s2⟩, s3⟩, s4⟩ := h1
    obtain ⟨⟨⟨o1, o2⟩, o3⟩, o4⟩ := h2
    rcases h with h | h | h | h
    · have : max o.i.x o.j.x + 1 / 10 ^ 6 ≤ min s.i.x s.j.x := by
        rcases max_choice o.i.x o.j.x with e | e <;> rcases min_choice s.i.x s.j.x with e' | e' <;> rw [e, e'] <;>
          apply h <;> simp
      have := beyond_eps hR (abs_min_le' hs.1.1 hs.2.1) (abs_max_le' ho.1.1 ho.2.1) this
      linarith
    · have : max s.i.x s.j.x + 1 / 10 ^ 6 ≤ min o.i.x o.j.x := by
        rcases max_choice s.i.x s.j.x with e | e <;> rcases min_choice o.i.x o.j.x with e' | e' <;> rw [e, e'] <;>
          apply h <;> simp
      have := beyond_eps hR (abs_min_le' ho.1.1 ho.2.1) (abs_max_le' hs.1.1 hs.2.1) this
      linarith
    · have : max o.i.y o.j.y + 1 / 10 ^ 6 ≤ min s.i.y s.j.y := by
        rcases max_choice o.i.y o.j.y with e | e <;> rcases min_choice s.i.y s.j.y with e' | e' <;> rw [e, e'] <;>
          apply h <;> simp
      have := beyond_eps hR (abs_min_le' hs.1.2 hs.2.2) (abs_max_le' ho.1.2 ho.2.2) this
      linarith
    · have : max s.i.y s.j.y + 1 / 10 ^ 6 ≤ min o.i.y o.j.y := by
        rcases max_choice s.i.y s.j.y with e | e <;> rcases min_choice o.i.y o.j.y with e' | e' <;> rw [e, e'] <;>
          apply h <;> simp
      have := beyond_eps hR (abs_min_le' ho.1.2 ho.2.2) (abs_max_le' hs.1.2 hs.2.2) this
      linarith
  unfold Rt.intersectionOnSegment
  split_ifs
  · rfl
  · cases e : R.intersectionPoint s o with
    | none => rfl
    | some p =>
      rw [← Bool.not_eq_true]
      intro hc
      simp only [Bool.and_eq_true] at hc
      exact key p hc

/-- a closed chain that draws sides which keep clear of each other is valid -/
theorem plValid_clear_fl (hR : R.IsRounding) {H l : List (Seg K)} (hsm : ∀ s ∈ H, SmallSeg s) (hH : H.Pairwise KeepClear)
    (hd : SameDrawing l H) (hc : ClosedChain l) (hne : l ≠ []) : R.plValid l = true := by
  have hcl : l.Pairwise KeepClear ∧ ∀ s ∈ l, SmallSeg s := by
    obtain ⟨l', hp, hf⟩ := hd
    have : l'.Pairwise KeepClear ∧ ∀ s ∈ l', SmallSeg s := by
      clear hp
      induction hf with
      | nil => exact ⟨.nil, fun s hs => by cases hs⟩
      | @cons a b l1 l2 hab h12 ih =>
        rw [List.pairwise_cons] at hH ⊢
        obtain ⟨i1, i2⟩ := ih (fun s hs => hsm s (List.mem_cons_of_mem _ hs)) hH.2
        refine ⟨⟨?_, i1⟩, ?_⟩
        · intro s hs
          obtain ⟨k, hk, rfl⟩ := List.mem_iff_getElem.1 hs
          have hk' : k < l2.length := by rw [← h12.length_eq]; exact hk
          have h1 := hH.1 l2[k] (List.getElem_mem _)
          exact ((h1.left hab).symm.left (h12.get hk hk')).symm
        · intro s hs
          rcases List.mem_cons.1 hs with rfl | hs
          · exact (hsm b (List.mem_cons_self ..)).left hab
          · exact i2 s hs
    exact ⟨(List.Perm.pairwise_iff (fun h => KeepClear.symm h) hp).1 this.1, fun s hs => this.2 s (hp.mem_iff.2 hs)⟩
  obtain ⟨hcl, hsl⟩ := hcl
  have hclosed := isClosed_of_chain hR hne hc
  rw [(C63_valid R l).2]
  refine ⟨?_, hne, ?_⟩
  · unfold Rt.isClosed at hclosed
    split_ifs at hclosed with h
    · exact h
    · cases hclosed
  · have key : ∀ s ∈ l, ∀ o ∈ l, KeepClear s o → R.intersectionOnSegment s o = false := by
      rintro s hs o ho (h | h)
      · exact ios_shared hR _ _ h
      · exact ios_apart_fl hR (hsl s hs) (hsl o ho) h
    intro a b ha hb hab
    rcases Nat.lt_or_gt_of_ne hab with h | h
    · exact key _ (List.getElem_mem _) _ (List.getElem_mem _) (List.pairwise_iff_getElem.1 hcl a b ha hb h)
    · exact key _ (List.getElem_mem _) _ (List.getElem_mem _) (List.pairwise_iff_getElem.1 hcl b a hb ha h).symm

end Srep
