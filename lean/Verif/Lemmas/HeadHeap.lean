import Verif.Model.HeadSegs
import Verif.Lemmas.Cluster
import Verif.Props.Arc

/-! Where the objects of an outline lie in memory. -/

set_option linter.unusedSectionVars false

namespace Srep
open Rt
variable {K : Type} [Field K] [LinearOrder K] [IsStrictOrderedRing K] [FloorRing K]

theorem relink_bound (R : Rt K) (S : ℕ → Prop) (f : ℕ) (hf : S f) : ∀ (l : List ℕ) (h : Heap K) (x : ℕ) (segs : List ℕ),
    (∀ p, EndOf h segs p → S p) →
    (R.relink f h x l).npt = h.npt ∧ (R.relink f h x l).nseg = h.nseg ∧ ∀ p, EndOf (R.relink f h x l) segs p → S p := by
  intro l
  induction l with
  | nil => intro h x segs hh; exact ⟨rfl, rfl, hh⟩
  | cons a l ih =>
    intro h x segs hh
    obtain ⟨i1, i2, i3⟩ := ih (if R.peq (h.pt (h.seg a).i) (h.pt x) then h.setEndpoints a f (h.seg a).j
      else h.setEndpoints a (h.seg a).i f) f segs (by
        rintro p ⟨s, hs, hp⟩
        have hi := hh _ ⟨s, hs, Or.inl rfl⟩
        have hj := hh _ ⟨s, hs, Or.inr rfl⟩
        by_cases hsa : s = a
        · subst hsa
          split_ifs at hp <;> simp only [Heap.setEndpoints, Function.update_self] at hp <;> rcases hp with rfl | rfl <;> assumption
        · split_ifs at hp <;> simp only [Heap.setEndpoints, Function.update_apply, if_neg hsa] at hp <;>
            rcases hp with rfl | rfl <;> assumption)
    refine ⟨?_, ?_, i3⟩
    · refine i1.trans ?_
      split_ifs <;> rfl
    · refine i2.trans ?_
      split_ifs <;> rfl

theorem purge_bound (R : Rt K) (S : ℕ → Prop) (h : Heap K) (P : PLine) (hS : ∀ p, EndOf h P.segs p → S p) :
    (R.purge h P).1.npt = h.npt ∧ (R.purge h P).1.nseg = h.nseg ∧ ∀ p, EndOf (R.purge h P).1 P.segs p → S p := by
  have key : ∀ (l : List ℕ) (st : Heap K × List ℕ), (∀ p ∈ l, S p) → (∀ p ∈ st.2, S p) → (∀ p, EndOf st.1 P.segs p → S p) →
      (l.foldl (R.purgeStep P.segs) st).1.npt = st.1.npt ∧ (l.foldl (R.purgeStep P.segs) st).1.nseg = st.1.nseg ∧
      ∀ p, EndOf (l.foldl (R.purgeStep P.segs) st).1 P.segs p → S p := by
    intro l
    induction l with
    | nil => intro st _ _ h3; exact ⟨rfl, rfl, h3⟩
    | cons x l ih =>
      intro st h1 h2 h3
      rw [List.foldl_cons]
      have step : (R.purgeStep P.segs st x).1.npt = st.1.npt ∧ (R.purgeStep P.segs st x).1.nseg = st.1.nseg ∧
          (∀ p ∈ (R.purgeStep P.segs st x).2, S p) ∧ ∀ p, EndOf (R.purgeStep P.segs st x).1 P.segs p → S p := by
        unfold Rt.purgeStep
        cases hf : st.2.find? fun y => R.peq (st.1.pt x) (st.1.pt y) with
        | none =>
          refine ⟨rfl, rfl, ?_, h3⟩
          intro p hp
          rcases List.mem_append.1 hp with hp | hp
          · exact h2 p hp
          · rw [List.mem_singleton] at hp; rw [hp]; exact h1 x (by simp)
        | some f =>
          obtain ⟨r1, r2, r3⟩ := relink_bound R S f (h2 f (List.mem_of_find?_eq_some hf))
            (P.segs.filter fun s => R.onEnds (st.1.pt x) (st.1.val s)) st.1 x P.segs h3
          exact ⟨r1, r2, h2, r3⟩
      obtain ⟨s1, s2, s3, s4⟩ := step
      obtain ⟨i1, i2, i3⟩ := ih _ (fun p hp => h1 p (by simp [hp])) s3 s4
      exact ⟨i1.trans s1, i2.trans s2, i3⟩
  unfold Rt.purge
  split_ifs
  · exact ⟨rfl, rfl, hS⟩
  · exact ⟨rfl, rfl, hS⟩
  · exact key _ _ (fun p hp => hS p (Heap.mem_ends.1 (Heap.mem_allRefs.1 hp))) (by simp) hS

theorem foldl_write (F : Pt K → Pt K) : ∀ (l : List ℕ) (h : Heap K),
    (l.foldl (fun h p => h.setPt p (F (h.pt p))) h).seg = h.seg ∧ (l.foldl (fun h p => h.setPt p (F (h.pt p))) h).npt = h.npt ∧
    (l.foldl (fun h p => h.setPt p (F (h.pt p))) h).nseg = h.nseg := by
  intro l
  induction l with
  | nil => intro h; exact ⟨rfl, rfl, rfl⟩
  | cons a l ih =>
    intro h
    obtain ⟨h1, h2, h3⟩ := ih (h.setPt a (F (h.pt a)))
    exact ⟨h1, h2, h3⟩

theorem write_bound (R : Rt K) (F : Pt K → Pt K) (S : ℕ → Prop) (h : Heap K) (P : PLine) (hS : ∀ p, EndOf h P.segs p → S p) :
    let g := (R.pointRefs (R.purge h P).1 P.segs).foldl (fun h p => h.setPt p (F (h.pt p))) (R.purge h P).1
    g.npt = h.npt ∧ g.nseg = h.nseg ∧ ∀ p, EndOf g P.segs p → S p := by
  intro g
  obtain ⟨a1, a2, a3⟩ := purge_bound R S h P hS
  obtain ⟨b1, b2, b3⟩ := foldl_write F (R.pointRefs (R.purge h P).1 P.segs) (R.purge h P).1
  refine ⟨b2.trans a1, b3.trans a2, ?_⟩
  intro p hp
  apply a3
  unfold EndOf at hp ⊢
  rw [← b1]
  exact hp

theorem plRotate_bound (R : Rt K) (S : ℕ → Prop) (h : Heap K) (P : PLine) (phi : K) (hS : ∀ p, EndOf h P.segs p → S p) :
    (R.plRotate h P phi).1.npt = h.npt ∧ (R.plRotate h P phi).1.nseg = h.nseg ∧
    ∀ p, EndOf (R.plRotate h P phi).1 P.segs p → S p :=
  write_bound R (turned R (R.trig.cos (R.trig.radians phi)) (R.trig.sin (R.trig.radians phi))) S h P hS

theorem plMove_bound (R : Rt K) (S : ℕ → Prop) (h : Heap K) (P : PLine) (x0 y0 : K) (hS : ∀ p, EndOf h P.segs p → S p) :
    (R.plMove h P x0 y0).1.npt = h.npt ∧ (R.plMove h P x0 y0).1.nseg = h.nseg ∧
    ∀ p, EndOf (R.plMove h P x0 y0).1 P.segs p → S p :=
  write_bound R (fun q => R.ptAdd q ⟨x0, y0⟩) S h P hS

theorem purge_segs (R : Rt K) (h : Heap K) (P : PLine) : (R.purge h P).2.segs = P.segs := by
  unfold Rt.purge
  split_ifs <;> rfl

/-- new points joined, turned and moved -/
theorem joined_bound (R : Rt K) (h : Heap K) (ps : List (Pt K)) (n : ℕ) (hn : ps.length = n + 1) (phi px py : K) (c : Heap K × List ℕ)
    (hc : (h.newPts ps).1.newChain (h.newPts ps).2 = c) (q : Heap K × PLine)
    (hq : R.plMove (R.plRotate c.1 ⟨c.2, false⟩ phi).1 (R.plRotate c.1 ⟨c.2, false⟩ phi).2 px py = q) :
    q.1.npt = h.npt + (n + 1) ∧ q.1.nseg = h.nseg + n ∧ q.2.segs = List.range' h.nseg n ∧
    ∀ p, EndOf q.1 q.2.segs p → h.npt ≤ p ∧ p < h.npt + (n + 1) := by
  obtain ⟨p1, p2, p3, p4, p5, p6⟩ := Heap.newPts_spec ps h
  generalize h.newPts ps = g at p1 p2 p3 p4 p5 p6 hc
  obtain ⟨c1, c2, c3, c4, c5, c6⟩ := Heap.newChain_spec g.2 g.1
  have hlen : g.2.length = n + 1 := by rw [p1, hn]; simp
  rw [hlen] at c1 c2
  rw [hn] at p2
  rw [hc] at c1 c2 c3 c4 c5 c6
  have hend : ∀ p, EndOf c.1 c.2 p → h.npt ≤ p ∧ p < h.npt + (n + 1) := by
    rintro p ⟨s, hs, hp⟩
    rw [c1, List.mem_range'_1] at hs
    obtain ⟨k, rfl⟩ := Nat.exists_eq_add_of_le hs.1
    have hk : k + 1 < g.2.length := by omega
    rw [c6 k hk] at hp
    have hr : ∀ j (hj : j < g.2.length), g.2[j] = h.npt + j := by
      intro j hj
      simp [p1]
    simp only [hr] at hp
    omega
  obtain ⟨r1, r2, r3⟩ := plRotate_bound R (fun p => h.npt ≤ p ∧ p < h.npt + (n + 1)) c.1 ⟨c.2, false⟩ phi hend
  have rs : (R.plRotate c.1 ⟨c.2, false⟩ phi).2.segs = c.2 := purge_segs R c.1 ⟨c.2, false⟩
  generalize R.plRotate c.1 ⟨c.2, false⟩ phi = t at r1 r2 r3 rs hq
  obtain ⟨m1, m2, m3⟩ := plMove_bound R (fun p => h.npt ≤ p ∧ p < h.npt + (n + 1)) t.1 t.2 px py (by rw [rs]; exact r3)
  have ms : (R.plMove t.1 t.2 px py).2.segs = c.2 := (purge_segs R _ _).trans rs
  rw [hq] at m1 m2 m3 ms
  rw [ms]
  rw [rs] at m3
  refine ⟨?_, ?_, ?_, m3⟩
  · rw [m1, r1, c4, p2]
  · rw [m2, r2, c2, p4]; omega
  · rw [c1, p4]; simp

/-- the objects of an arc are new -/
theorem arc_bound {R : Rt K} {h h' : Heap K} {px py r a b : K} {n : ℕ} {P : PLine}
    (e : R.arcH h px py r a b n false = .ok (h', P)) :
    h'.npt = h.npt + (n + 1) ∧ h'.nseg = h.nseg + n ∧ P.segs = List.range' h.nseg n ∧
    ∀ p, EndOf h' P.segs p → h.npt ≤ p ∧ p < h.npt + (n + 1) := by
  have hl2 : ((R.arcNodes r a b n).map fun n => R.mkPt n.1 n.2).length = n + 1 := by simp [Rt.arcNodes]
  have key := joined_bound R h _ n hl2 a px py _ rfl (h', P)
  apply key
  unfold Rt.arcH at e
  split_ifs at e
  exact Except.ok.inj e

end Srep
