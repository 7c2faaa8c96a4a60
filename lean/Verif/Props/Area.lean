import Verif.Model.Area
import Verif.Spec.Area
import Verif.Props.Ear
import Verif.Props.Midpoint
import Verif.Props.RayDraw
import Verif.Props.Contained
import Verif.Props.Square
import Verif.Lemmas.RatEx

/-! The area of polygons (C99). -/

set_option linter.unusedSectionVars false

namespace Srep
open Rt
variable {K : Type} [Field K] [LinearOrder K] [IsStrictOrderedRing K] [FloorRing K] {R : Rt K}

/-- the average of the corners of a triangle, rounded to 8 decimals -/
def storedCentre (t : Pt K × Pt K × Pt K) : Pt K :=
  ⟨rhe8 ((t.1.x + t.2.1.x + t.2.2.x) / 3), rhe8 ((t.1.y + t.2.1.y + t.2.2.y) / 3)⟩

theorem ends_triSegs (t : Pt K × Pt K × Pt K) (p : Pt K) : p ∈ Ends (triSegs t) ↔ IsCorner t p := by
  simp only [Ends, triSegs, IsCorner, Set.mem_ofPred_eq, List.mem_cons, List.not_mem_nil, or_false, exists_eq_or_imp,
    exists_eq_left]
  tauto

theorem ends_draw {l m : List (Seg K)} (h : SameDrawing l m) (p : Pt K) : p ∈ Ends l ↔ p ∈ Ends m := by
  obtain ⟨l', hp, hf⟩ := h
  have e : p ∈ Ends l ↔ p ∈ Ends l' := by
    unfold Ends
    constructor
    · rintro ⟨s, hs, h⟩; exact ⟨s, hp.symm.subset hs, h⟩
    · rintro ⟨s, hs, h⟩; exact ⟨s, hp.subset hs, h⟩
  rw [e]
  clear e hp
  induction hf with
  | nil => rfl
  | @cons a b l1 l2 h _ ih =>
    have key : ∀ (a : Seg K) (l1 : List (Seg K)), p ∈ Ends (a :: l1) ↔ (p = a.i ∨ p = a.j) ∨ p ∈ Ends l1 := by
      intro a l1
      simp only [Ends, Set.mem_ofPred_eq, List.mem_cons, exists_eq_or_imp]
    refine (key _ _).trans ((or_congr ?_ ih).trans (key _ _).symm)
    rcases h with ⟨h1, h2⟩ | ⟨h1, h2⟩
    · rw [h1, h2]
    · rw [h1, h2, or_comm (a := p = b.j)]

theorem det3_ne {a b c : Pt K} (h : det3 a b c ≠ 0) : a ≠ b ∧ b ≠ c ∧ c ≠ a := by
  refine ⟨?_, ?_, ?_⟩ <;> rintro rfl <;> apply h <;> unfold det3 <;> ring

/-! ### the triangle made of an answer -/

theorem meshTri_spec (hE : R.IsExact) (h : Heap K) (vs : List (Pt K)) (n : ℕ × ℕ × ℕ) (t : Pt K × Pt K × Pt K)
    (h1 : vs[n.1]? = some t.1) (h2 : vs[n.2.1]? = some t.2.1) (h3 : vs[n.2.2]? = some t.2.2)
    (hg : ∀ p, IsCorner t p → Grid p.x ∧ Grid p.y) (hap : Apart (1 / 10 ^ 5) {p | IsCorner t p})
    (hd : det3 t.1 t.2.1 t.2.2 ≠ 0) :
    ∃ T, R.meshTri h vs n = .ok T ∧ SameDrawing T (triSegs t) ∧
      R.triArea T = .ok (|det3 t.1 t.2.1 t.2.2| / 2) := by
  obtain ⟨a, b, c⟩ := t
  simp only at h1 h2 h3 hd
  have hR := hE.isRounding
  obtain ⟨hab, hbc, hca⟩ := det3_ne hd
  unfold Rt.meshTri
  rw [h1, h2, h3]
  simp only
  have hmk : ∀ p, IsCorner (a, b, c) p → R.mkPt p.x p.y = p := by
    intro p hp
    obtain ⟨g1, g2⟩ := hg p hp
    exact hE.mkPt_grid g1 g2
  obtain ⟨k1, e1, n1, -, v1, -, -, -⟩ := fromNodesH_vals R h [(a.x, a.y), (b.x, b.y), (c.x, c.y)]
    [(a.x, a.y), (b.x, b.y), (c.x, c.y)] false rfl
  rw [e1]
  simp only [List.length_cons, List.length_nil, Nat.zero_add, Nat.add_one_sub_one] at n1 v1 ⊢
  have hr : List.range' h.nseg 2 = [h.nseg, h.nseg + 1] := rfl
  rw [hr] at v1 ⊢
  simp only [List.map_cons, List.map_nil, hmk a (Or.inl rfl), hmk b (Or.inr (Or.inl rfl)), hmk c (Or.inr (Or.inr rfl)),
    Rt.chain, Heap.vals] at v1
  obtain ⟨v2, v3⟩ := List.cons.inj v1
  obtain ⟨v3, -⟩ := List.cons.inj v3
  have hap' : Apart R.tol {p | p = a ∨ p = b ∨ p = c} := by rw [hE.tol']; exact hap
  have hcl : R.isClosed (k1.vals [h.nseg, h.nseg + 1]) = .ok false := by
    rw [Heap.vals, List.map_cons, List.map_cons, List.map_nil, v2, v3]
    unfold Rt.isClosed
    have hcont : R.isContinuous [(⟨a, b, .line⟩ : Seg K), ⟨b, c, .line⟩] = true := by
      have := chain_isContinuous hR [a, b, c]
      simpa [Rt.chain] using this
    rw [hcont]
    simp only [if_true, List.head?_cons, List.getLast?_cons_cons, List.getLast?_singleton]
    congr 1
    rw [Bool.eq_false_iff]
    intro e
    exact hca ((C04_apart hR hap' (Or.inl rfl) (Or.inr (Or.inr rfl))).1.1 e).symm
  unfold Rt.closeH
  rw [hcl]
  simp only [List.head?_cons, List.getLast?_cons_cons, List.getLast?_singleton, List.cons_append, List.nil_append]
  set k2 := (k1.newSeg (k1.seg (h.nseg + 1)).j (k1.seg h.nseg).i).1 with hk2
  have hx : Joins (k2.val h.nseg) a b := by
    apply (later_newSeg k1 (k1.seg (h.nseg + 1)).j (k1.seg h.nseg).i).2 h.nseg (by omega)
    exact Or.inl (by rw [v2]; exact ⟨rfl, rfl⟩)
  have hy : Joins (k2.val (h.nseg + 1)) b c := by
    apply (later_newSeg k1 (k1.seg (h.nseg + 1)).j (k1.seg h.nseg).i).2 (h.nseg + 1) (by omega)
    exact Or.inl (by rw [v3]; exact ⟨rfl, rfl⟩)
  have hz0 : (k1.newSeg (k1.seg (h.nseg + 1)).j (k1.seg h.nseg).i).2 = h.nseg + 2 := n1
  have hz : Joins (k2.val (h.nseg + 2)) c a := by
    have := newSeg_val k1 (k1.seg (h.nseg + 1)).j (k1.seg h.nseg).i
    rw [← n1, hk2, this]
    refine Or.inl ⟨?_, ?_⟩
    · have := congrArg Seg.j v3; exact this
    · have := congrArg Seg.i v2; exact this
  rw [hz0]
  have hn2 : k2.nseg = h.nseg + 3 := by rw [hk2]; simp [Heap.newSeg, n1]
  obtain ⟨k3, l, p1, p2, -, p4, p5, p6, p7⟩ := triangleNew_spec hR hap' (x := h.nseg) (y := h.nseg + 1) (z := h.nseg + 2)
    (by omega) (by omega) (by omega) hab hbc hca hx hy hz
  have jx := p2.2 h.nseg (by omega) _ _ hx
  have jy := p2.2 (h.nseg + 1) (by omega) _ _ hy
  have jz := p2.2 (h.nseg + 2) (by omega) _ _ hz
  obtain ⟨T, hT⟩ := p7 (isTriangle_of hE hap' hab hbc hca p1 jx jy jz p4 hd)
  have hTl := p6 T hT
  refine ⟨k3.vals l, ?_, ?_, ?_⟩
  · rcases hres : R.triangleNew k2 [h.nseg, h.nseg + 1, h.nseg + 2] with ⟨h', r⟩
    rw [hres] at p5 hT
    simp only at p5 hT
    rw [hT, p5, ← hTl]
  · refine ⟨[k3.val h.nseg, k3.val (h.nseg + 1), k3.val (h.nseg + 2)], (p1.map k3.val).symm, ?_⟩
    have hje : ∀ {s : Seg K} {p q : Pt K}, Joins s p q → SameEdge s ⟨p, q, .line⟩ := by
      intro s p q h; exact h
    exact .cons (hje jx) (.cons (hje jy) (.cons (hje jz) .nil))
  · exact triArea_perm hE p1 jx jy jz

/-! ### which triangles are accepted -/

theorem midpoint_draw (hE : R.IsExact) {T : List (Seg K)} {t : Pt K × Pt K × Pt K} (hT : SameDrawing T (triSegs t))
    (hap : Apart (1 / 10 ^ 5) {p | IsCorner t p}) (hd : det3 t.1 t.2.1 t.2.2 ≠ 0) :
    R.plMidpoint T = .ok (storedCentre t) := by
  obtain ⟨hab, hbc, hca⟩ := det3_ne hd
  have hends : ∀ p, p ∈ Ends T ↔ IsCorner t p := fun p => by rw [ends_draw hT, ends_triSegs]
  have hne : T ≠ [] := by
    rintro rfl
    have := (hends t.1).2 (Or.inl rfl)
    obtain ⟨s, hs, -⟩ := this
    cases hs
  rw [C88_average hE T hne (apart_mono hap fun p hp => (hends p).1 hp) [t.1, t.2.1, t.2.2]
    (by simp [hab, hbc, hca.symm]) (fun p => by rw [hends]; simp [IsCorner])]
  simp [storedCentre, add_assoc]

theorem triSegs_convex {t : Pt K × Pt K × Pt K} (hpos : 0 < det3 t.1 t.2.1 t.2.2) : ConvexCcw (triSegs t) := by
  obtain ⟨a, b, c⟩ := t
  simp only at hpos
  have e1 : det3 b c a = det3 a b c := by unfold det3; ring
  have e2 : det3 c a b = det3 a b c := by unfold det3; ring
  refine ⟨?_, ?_, ?_⟩
  · intro k hk
    simp only [triSegs, List.length_cons, List.length_nil] at hk
    interval_cases k <;> simp [triSegs]
  · obtain ⟨hab, hbc, hca⟩ := det3_ne hpos.ne'
    simp [triSegs, hab, hbc, hca.symm]
  · intro s hs o ho
    simp only [triSegs, List.mem_cons, List.not_mem_nil, or_false] at hs ho
    rcases hs with rfl | rfl | rfl <;> rcases ho with rfl | rfl | rfl <;> simp [e1, e2, hpos]

theorem meshOk_keep (hE : R.IsExact) {l m T : List (Seg K)} {t : Pt K × Pt K × Pt K} (hd : SameDrawing l m)
    (hc : ClosedChain m) (hnd : NoDouble m) (hap : Apart (1 / 10 ^ 5) (Ends m)) (hcor : ∀ p, IsCorner t p → p ∈ Ends m)
    (hT : SameDrawing T (triSegs t)) (hpos : 0 < det3 t.1 t.2.1 t.2.2)
    (hA : R.triArea T = .ok (|det3 t.1 t.2.1 t.2.2| / 2)) (ω : ℕ → ℕ → Pt K)
    (hoff : ∀ s ∈ m, ¬ OnSeg s (storedCentre t))
    (hω : ∀ k < 3, GoodTarget m (storedCentre t) (ω 0 k) ∧ Spread m (storedCentre t) (ω 0 k))
    (hin : meetCount m (storedCentre t) (ω 0 0) % 2 = 1)
    (hout : ∀ p ∈ Ends m, ¬ IsCorner t p → OutsideCcw (triSegs t) p)
    (hω' : ∀ p ∈ Ends m, ¬ IsCorner t p → ∀ n, ∀ k < 3, GoodTarget (triSegs t) p (ω (n + 1) k) ∧
      Spread (triSegs t) p (ω (n + 1) k)) (fuel : ℕ) :
    R.meshOk l T ω (fuel + 1) = .ok true := by
  have hR := hE.isRounding
  unfold Rt.meshOk
  rw [midpoint_draw hE hT (apart_mono hap hcor) hpos.ne']
  simp only
  rw [C93_drawing hE l m hd hc hnd _ hoff (ω 0) hω (ω 0 0) (hω 0 (by omega)).1 fuel, decide_eq_true hin]
  simp only
  have hapl : Apart R.tol (Ends l) := by
    rw [hE.tol']; exact apart_mono hap fun p hp => (ends_draw hd p).1 hp
  have hcv := triSegs_convex hpos
  have hip := internalPts_filter R T (fuel + 1) (fun _ => false)
    ((R.pointSet l).filter fun x => !(R.pointSet T).any fun y => R.peq y x) (fun n => ω (n + 1)) (by
      intro p hp n
      rw [List.mem_filter] at hp
      obtain ⟨hp1, hp2⟩ := hp
      have hpm : p ∈ Ends m := (ends_draw hd p).1 ((mem_pointSet hR (sep_of_ends hR hapl).hashOK p).1 hp1)
      have hnc : ¬ IsCorner t p := by
        intro hcp
        have hpT : p ∈ Ends T := by rw [ends_draw hT, ends_triSegs]; exact hcp
        rw [pointSet_repr hR T p hpT] at hp2
        cases hp2
      exact C93_outside hE T (triSegs t) hT hcv (by simp [triSegs]) p (hout p hpm hnc) _ (hω' p hpm hnc n) fuel)
  rw [hip, List.filter_false]
  simp only
  rw [hA]
  simp only
  rw [abs_of_pos hpos, decide_eq_false (by linarith)]
  rfl

theorem meshOk_drop (hE : R.IsExact) {l m T : List (Seg K)} {t : Pt K × Pt K × Pt K} (hd : SameDrawing l m)
    (hc : ClosedChain m) (hnd : NoDouble m) (hap : Apart (1 / 10 ^ 5) (Ends m)) (hcor : ∀ p, IsCorner t p → p ∈ Ends m)
    (hT : SameDrawing T (triSegs t)) (hpos : 0 < det3 t.1 t.2.1 t.2.2) (ω : ℕ → ℕ → Pt K)
    (hoff : ∀ s ∈ m, ¬ OnSeg s (storedCentre t))
    (hω : ∀ k < 3, GoodTarget m (storedCentre t) (ω 0 k) ∧ Spread m (storedCentre t) (ω 0 k))
    (hin : ¬ meetCount m (storedCentre t) (ω 0 0) % 2 = 1) (fuel : ℕ) :
    R.meshOk l T ω (fuel + 1) = .ok false := by
  unfold Rt.meshOk
  rw [midpoint_draw hE hT (apart_mono hap hcor) hpos.ne']
  simp only
  rw [C93_drawing hE l m hd hc hnd _ hoff (ω 0) hω (ω 0 0) (hω 0 (by omega)).1 fuel, decide_eq_false hin]

/-- C99: a triangle of the answer with another vertex `p` of the polygon strictly inside is never accepted, wherever its
middle is (the remaining vertices may be strictly inside or outside). -/
theorem C99_foreign (hE : R.IsExact) (l m T : List (Seg K)) (t : Pt K × Pt K × Pt K) (hd : SameDrawing l m)
    (hc : ClosedChain m) (hnd : NoDouble m) (hap : Apart (1 / 10 ^ 5) (Ends m)) (hcor : ∀ p, IsCorner t p → p ∈ Ends m)
    (hT : SameDrawing T (triSegs t)) (hpos : 0 < det3 t.1 t.2.1 t.2.2) (ω : ℕ → ℕ → Pt K)
    (hoff : ∀ s ∈ m, ¬ OnSeg s (storedCentre t))
    (hω : ∀ k < 3, GoodTarget m (storedCentre t) (ω 0 k) ∧ Spread m (storedCentre t) (ω 0 k))
    (hside : ∀ p ∈ Ends m, ¬ IsCorner t p → InsideCcw (triSegs t) p ∨ OutsideCcw (triSegs t) p)
    (hω' : ∀ p ∈ Ends m, ¬ IsCorner t p → ∀ n, ∀ k < 3, GoodTarget (triSegs t) p (ω (n + 1) k) ∧
      Spread (triSegs t) p (ω (n + 1) k)) (p : Pt K) (hp : p ∈ Ends m) (hin : InsideCcw (triSegs t) p) (fuel : ℕ) :
    R.meshOk l T ω (fuel + 1) = .ok false := by
  classical
  have hR := hE.isRounding
  by_cases hm : meetCount m (storedCentre t) (ω 0 0) % 2 = 1
  swap
  · exact meshOk_drop hE hd hc hnd hap hcor hT hpos ω hoff hω hm fuel
  unfold Rt.meshOk
  rw [midpoint_draw hE hT (apart_mono hap hcor) hpos.ne']
  simp only
  rw [C93_drawing hE l m hd hc hnd _ hoff (ω 0) hω (ω 0 0) (hω 0 (by omega)).1 fuel, decide_eq_true hm]
  simp only
  have hapl : Apart R.tol (Ends l) := by
    rw [hE.tol']; exact apart_mono hap fun p hp => (ends_draw hd p).1 hp
  have hcv := triSegs_convex hpos
  have hip := internalPts_filter R T (fuel + 1) (fun q => decide (InsideCcw (triSegs t) q))
    ((R.pointSet l).filter fun x => !(R.pointSet T).any fun y => R.peq y x) (fun n => ω (n + 1)) (by
      intro q hq n
      rw [List.mem_filter] at hq
      obtain ⟨hq1, hq2⟩ := hq
      have hqm : q ∈ Ends m := (ends_draw hd q).1 ((mem_pointSet hR (sep_of_ends hR hapl).hashOK q).1 hq1)
      have hnc : ¬ IsCorner t q := by
        intro hcq
        have hqT : q ∈ Ends T := by rw [ends_draw hT, ends_triSegs]; exact hcq
        rw [pointSet_repr hR T q hqT] at hq2
        cases hq2
      rcases hside q hqm hnc with hi | ho
      · rw [decide_eq_true hi]
        exact C93_inside hE T (triSegs t) hT hcv (by simp [triSegs]) q hi _ (hω' q hqm hnc n) fuel
      · rw [decide_eq_false (fun hi => by
          obtain ⟨s, hs, h1⟩ := ho
          exact absurd (hi s hs) (not_lt.2 h1.le))]
        exact C93_outside hE T (triSegs t) hT hcv (by simp [triSegs]) q ho _ (hω' q hqm hnc n) fuel)
  have hnc : ¬ IsCorner t p := by
    intro h
    have h1 := hin ⟨t.1, t.2.1, .line⟩ (by simp [triSegs])
    have h2 := hin ⟨t.2.1, t.2.2, .line⟩ (by simp [triSegs])
    rcases h with rfl | rfl | rfl
    · have : det3 t.1 t.2.1 t.1 = 0 := by unfold det3; ring
      simp only at h1; rw [this] at h1; exact lt_irrefl _ h1
    · have : det3 t.1 t.2.1 t.2.1 = 0 := by unfold det3; ring
      simp only at h1; rw [this] at h1; exact lt_irrefl _ h1
    · have : det3 t.2.1 t.2.2 t.2.2 = 0 := by unfold det3; ring
      simp only at h2; rw [this] at h2; exact lt_irrefl _ h2
  have hmem : p ∈ ((R.pointSet l).filter fun x => !(R.pointSet T).any fun y => R.peq y x).filter
      fun q => decide (InsideCcw (triSegs t) q) := by
    rw [List.mem_filter, List.mem_filter]
    refine ⟨⟨(mem_pointSet hR (sep_of_ends hR hapl).hashOK p).2 ((ends_draw hd p).2 hp), ?_⟩, decide_eq_true hin⟩
    rw [Bool.not_eq_true', List.any_eq_false]
    intro y hy hpe
    have hyT : IsCorner t y := by
      rw [← ends_triSegs, ← ends_draw hT]
      exact (mem_pointSet hR (sep_of_ends hR (l := T) (by
        rw [hE.tol']; exact apart_mono hap fun q hq => hcor q (by rwa [← ends_triSegs, ← ends_draw hT]))).hashOK y).1 hy
    have hap' : Apart R.tol (Ends m) := by rw [hE.tol']; exact hap
    have := (C04_apart hR hap' (hcor y hyT) hp).1.1 hpe
    exact hnc (this ▸ hyT)
  rw [hip]
  cases hl : ((R.pointSet l).filter fun x => !(R.pointSet T).any fun y => R.peq y x).filter
      fun q => decide (InsideCcw (triSegs t) q) with
  | nil => rw [hl] at hmem; cases hmem
  | cons a b => rfl

/-! ### areas of polygons -/

/-- an answer `ts` of the library for the polygon with the directed sides `m`, of which those with `keep` fill the polygon:
all triangles are counter-clockwise with corners at vertices of the polygon; the stored average of the corners is inside
(an odd number of sides is met on the way to any target in general position) exactly if the triangle is to be kept, and
then no other vertex is in the triangle -/
structure MeshAnswer (m : List (Seg K)) (ts : List (Pt K × Pt K × Pt K)) (keep : Pt K × Pt K × Pt K → Bool) : Prop where
  corners : ∀ t ∈ ts, ∀ p, IsCorner t p → p ∈ Ends m
  left : ∀ t ∈ ts, 0 < det3 t.1 t.2.1 t.2.2
  off : ∀ t ∈ ts, ∀ s ∈ m, ¬ OnSeg s (storedCentre t)
  inside : ∀ t ∈ ts, ∀ T, GoodTarget m (storedCentre t) T →
    (keep t = true ↔ meetCount m (storedCentre t) T % 2 = 1)
  vertices : ∀ t ∈ ts, keep t = true → ∀ p ∈ Ends m, ¬ IsCorner t p → OutsideCcw (triSegs t) p

/-- the random targets met are in general position -/
structure MeshDraws (m : List (Seg K)) (ts : List (Pt K × Pt K × Pt K)) (keep : Pt K × Pt K × Pt K → Bool)
    (ω : ℕ → ℕ → ℕ → Pt K) : Prop where
  centre : ∀ n t, ts[n]? = some t → ∀ k < 3,
    GoodTarget m (storedCentre t) (ω n 0 k) ∧ Spread m (storedCentre t) (ω n 0 k)
  vertices : ∀ n t, ts[n]? = some t → keep t = true → ∀ p ∈ Ends m, ¬ IsCorner t p → ∀ i, ∀ k < 3,
    GoodTarget (triSegs t) p (ω n (i + 1) k) ∧ Spread (triSegs t) p (ω n (i + 1) k)

/-- the numbers `n` stand for the corners of `t` -/
def Numbered (vs : List (Pt K)) (n : ℕ × ℕ × ℕ) (t : Pt K × Pt K × Pt K) : Prop :=
  vs[n.1]? = some t.1 ∧ vs[n.2.1]? = some t.2.1 ∧ vs[n.2.2]? = some t.2.2

theorem numbered_mem {vs : List (Pt K)} {ns : List (ℕ × ℕ × ℕ)} {ts : List (Pt K × Pt K × Pt K)}
    (hn : List.Forall₂ (Numbered vs) ns ts) {t : Pt K × Pt K × Pt K} (ht : t ∈ ts) : ∃ n ∈ ns, Numbered vs n t := by
  induction hn with
  | nil => cases ht
  | @cons n t' ns ts h _ ih =>
    rcases List.mem_cons.1 ht with rfl | h'
    · exact ⟨n, List.mem_cons_self, h⟩
    · obtain ⟨n', h1, h2⟩ := ih h'
      exact ⟨n', List.mem_cons_of_mem _ h1, h2⟩

theorem exists_numbers (vs : List (Pt K)) : ∀ ts : List (Pt K × Pt K × Pt K), (∀ t ∈ ts, ∀ p, IsCorner t p → p ∈ vs) →
    ∃ ns, List.Forall₂ (Numbered vs) ns ts
  | [], _ => ⟨[], .nil⟩
  | t :: ts, h => by
    obtain ⟨ns, hn⟩ := exists_numbers vs ts fun u hu => h u (List.mem_cons_of_mem _ hu)
    obtain ⟨a, ha⟩ := List.getElem?_of_mem (h t List.mem_cons_self _ (Or.inl rfl))
    obtain ⟨b, hb⟩ := List.getElem?_of_mem (h t List.mem_cons_self _ (Or.inr (Or.inl rfl)))
    obtain ⟨c, hc⟩ := List.getElem?_of_mem (h t List.mem_cons_self _ (Or.inr (Or.inr rfl)))
    exact ⟨(a, b, c) :: ns, .cons ⟨ha, hb, hc⟩ hn⟩

theorem meshLoop_spec (hE : R.IsExact) {l m : List (Seg K)} (hd : SameDrawing l m) (hc : ClosedChain m)
    (hnd : NoDouble m) (hap : Apart (1 / 10 ^ 5) (Ends m)) (hg : ∀ p ∈ Ends m, Grid p.x ∧ Grid p.y) (h : Heap K)
    (vs : List (Pt K)) (keep : Pt K × Pt K × Pt K → Bool) (fuel : ℕ) {ns : List (ℕ × ℕ × ℕ)}
    {ts : List (Pt K × Pt K × Pt K)} (hn : List.Forall₂ (Numbered vs) ns ts) :
    ∀ ω : ℕ → ℕ → ℕ → Pt K, MeshAnswer m ts keep → MeshDraws m ts keep ω →
    ∃ r, R.meshLoop h l vs (fuel + 1) ω ns = .ok r ∧
      List.Forall₂ (fun T t => SameDrawing T (triSegs t)) r (ts.filter keep) ∧
      R.meshAreas r = .ok ((ts.filter keep).map fun t => det3 t.1 t.2.1 t.2.2 / 2) := by
  induction hn with
  | nil => intro ω _ _; exact ⟨[], rfl, .nil, rfl⟩
  | @cons n t ns ts hnt _ ih =>
    intro ω ha hω
    have ht : t ∈ t :: ts := List.mem_cons_self
    have hcor := ha.corners t ht
    have hpos := ha.left t ht
    have ha' : MeshAnswer m ts keep := ⟨fun u hu => ha.corners u (List.mem_cons_of_mem _ hu),
      fun u hu => ha.left u (List.mem_cons_of_mem _ hu), fun u hu => ha.off u (List.mem_cons_of_mem _ hu),
      fun u hu => ha.inside u (List.mem_cons_of_mem _ hu), fun u hu => ha.vertices u (List.mem_cons_of_mem _ hu)⟩
    have hω' : MeshDraws m ts keep (fun n => ω (n + 1)) := ⟨fun n u hu => hω.centre (n + 1) u (by simpa using hu),
      fun n u hu => hω.vertices (n + 1) u (by simpa using hu)⟩
    obtain ⟨r, r1, r2, r3⟩ := ih _ ha' hω'
    obtain ⟨T, t1, t2, t3⟩ := meshTri_spec hE h vs n t hnt.1 hnt.2.1 hnt.2.2 (fun p hp => hg p (hcor p hp))
      (apart_mono hap hcor) hpos.ne'
    have hin := ha.inside t ht (ω 0 0 0) (hω.centre 0 t rfl 0 (by omega)).1
    cases hk : keep t with
    | true =>
      refine ⟨T :: r, ?_, ?_, ?_⟩
      · simp only [Rt.meshLoop]
        rw [t1]
        simp only
        rw [meshOk_keep hE hd hc hnd hap hcor t2 hpos t3 (ω 0) (ha.off t ht) (hω.centre 0 t rfl) (hin.1 hk)
          (ha.vertices t ht hk) (hω.vertices 0 t rfl hk) fuel]
        simp only
        rw [r1]
        rfl
      · rw [List.filter_cons_of_pos hk]; exact .cons t2 r2
      · rw [List.filter_cons_of_pos hk]
        simp only [Rt.meshAreas, List.map_cons]
        rw [t3, r3, abs_of_pos hpos]
        rfl
    | false =>
      refine ⟨r, ?_, ?_, ?_⟩
      · simp only [Rt.meshLoop]
        rw [t1]
        simp only
        rw [meshOk_drop hE hd hc hnd hap hcor t2 hpos (ω 0) (ha.off t ht) (hω.centre 0 t rfl)
          (fun e => by rw [hin.2 e] at hk; cases hk) fuel]
        simp only
        rw [r1]
        rfl
      · rw [List.filter_cons_of_neg (by simp [hk])]; exact r2
      · rw [List.filter_cons_of_neg (by simp [hk])]; exact r3

theorem Tiling.area {m : List (Seg K)} {ts : List (Pt K × Pt K × Pt K)} (h : Tiling m ts) :
    (ts.map fun t => det3 t.1 t.2.1 t.2.2 / 2).sum = sideSum m / 2 := by
  obtain ⟨E, hE⟩ := h.edges
  have e1 := (hE.map fun e : Pt K × Pt K => e.1.x * e.2.y - e.2.x * e.1.y).sum_eq
  rw [List.map_append, List.map_append, List.sum_append, List.sum_append, List.map_map, List.map_map] at e1
  have e2 : (E.map ((fun e : Pt K × Pt K => e.1.x * e.2.y - e.2.x * e.1.y) ∘ Prod.swap)).sum =
      - (E.map fun e : Pt K × Pt K => e.1.x * e.2.y - e.2.x * e.1.y).sum := by
    induction E with
    | nil => simp
    | cons a E _ =>
      clear * -
      induction a :: E with
      | nil => simp
      | cons a E ih =>
        simp only [List.map_cons, List.sum_cons, ih, Function.comp, Prod.fst_swap, Prod.snd_swap]
        ring
  have e3 : ((ts.flatMap triEdges).map fun e : Pt K × Pt K => e.1.x * e.2.y - e.2.x * e.1.y).sum =
      (ts.map fun t => det3 t.1 t.2.1 t.2.2).sum := by
    clear e1 hE h
    induction ts with
    | nil => rfl
    | cons t ts ih =>
      simp only [List.flatMap_cons, List.map_append, List.sum_append, List.map_cons, List.sum_cons, ih]
      simp only [triEdges, List.map_cons, List.map_nil, List.sum_cons, List.sum_nil, det3]
      ring
  rw [e3, e2] at e1
  have e4 : (ts.map fun t => det3 t.1 t.2.1 t.2.2 / 2).sum = (ts.map fun t => det3 t.1 t.2.1 t.2.2).sum / 2 := by
    clear * -
    induction ts with
    | nil => simp
    | cons t ts ih => simp only [List.map_cons, List.sum_cons, ih]; ring
  rw [e4, e1]
  unfold sideSum
  simp only [Function.comp_def]
  ring

theorem vertexNo_ok (hR : R.IsRounding) {l : List (Seg K)} (hap : Apart R.tol (Ends l)) {p : Pt K} (hp : p ∈ Ends l) :
    ∃ k, R.vertexNo (R.pointSet l) p = .ok k ∧ (R.pointSet l)[k]? = some p := by
  unfold Rt.vertexNo
  have hmem := (mem_pointSet hR (sep_of_ends hR hap).hashOK p).2 hp
  cases hf : (R.pointSet l).findIdx? fun v => decide (R.phash v = R.phash p) && R.peq v p with
  | none =>
    rw [List.findIdx?_eq_none_iff] at hf
    have := hf p hmem
    simp [hR.peq_refl] at this
  | some k =>
    refine ⟨k, rfl, ?_⟩
    rw [List.findIdx?_eq_some_iff_getElem] at hf
    obtain ⟨hk, h1, -⟩ := hf
    rw [List.getElem?_eq_getElem hk]
    congr 1
    rw [Bool.and_eq_true] at h1
    exact (C04_apart hR hap ((mem_pointSet hR (sep_of_ends hR hap).hashOK _).1 (List.getElem_mem hk)) hp).1.1 h1.2

/-- C99: what the library is given: every segment as the numbers of its ends in the list of vertices. -/
theorem C99_input (hR : R.IsRounding) (l : List (Seg K)) (hap : Apart R.tol (Ends l)) :
    ∃ ns, R.meshSegments l = .ok ns ∧ List.Forall₂ (fun (s : Seg K) (n : ℕ × ℕ) =>
      (R.pointSet l)[n.1]? = some s.i ∧ (R.pointSet l)[n.2]? = some s.j) l ns := by
  unfold Rt.meshSegments
  have key : ∀ l' : List (Seg K), (∀ s ∈ l', s ∈ l) → ∃ ns, (l'.mapM fun s => do
      let a ← R.vertexNo (R.pointSet l) s.i
      let b ← R.vertexNo (R.pointSet l) s.j
      pure (a, b)) = Except.ok ns ∧ List.Forall₂ (fun (s : Seg K) (n : ℕ × ℕ) =>
      (R.pointSet l)[n.1]? = some s.i ∧ (R.pointSet l)[n.2]? = some s.j) l' ns := by
    intro l'
    induction l' with
    | nil => intro _; exact ⟨[], rfl, .nil⟩
    | cons s l' ih =>
      intro hs
      obtain ⟨ns, n1, n2⟩ := ih fun o ho => hs o (List.mem_cons_of_mem _ ho)
      obtain ⟨a, a1, a2⟩ := vertexNo_ok hR hap (p := s.i) ⟨s, hs s List.mem_cons_self, Or.inl rfl⟩
      obtain ⟨b, b1, b2⟩ := vertexNo_ok hR hap (p := s.j) ⟨s, hs s List.mem_cons_self, Or.inr rfl⟩
      refine ⟨(a, b) :: ns, ?_, .cons ⟨a2, b2⟩ n2⟩
      rw [List.mapM_cons, n1]
      simp only [a1, b1]
      rfl
  exact key l fun s hs => hs

theorem meshVertices_known (hR : R.IsRounding) (vs : List (Pt K)) : ∀ v' : List (K × K),
    (∀ v ∈ v', R.mkPt v.1 v.2 ∈ vs) → R.meshVertices vs v' = vs
  | [], _ => rfl
  | v :: v', h => by
    unfold Rt.meshVertices
    rw [if_pos, meshVertices_known hR vs v' fun w hw => h w (List.mem_cons_of_mem _ hw)]
    rw [List.any_eq_true]
    exact ⟨_, h v List.mem_cons_self, hR.peq_refl _⟩

/-- C99: let `m` be a closed polygon with vertices that are stored points at least 1e-5 apart, no side drawn twice, and
let `l` be its sides in any order and direction.  If the library answers, without new vertices, with triangles of which
those inside fit together to the polygon, then `triangle_mesh` stores exactly these, as long as the random targets are in
general position. -/
theorem C99_triangles (hE : R.IsExact) (lib : TriLib K) (h : Heap K) (l m : List (Seg K)) (hd : SameDrawing l m)
    (hc : ClosedChain m) (hnd : NoDouble m) (hap : Apart (1 / 10 ^ 5) (Ends m))
    (hg : ∀ p ∈ Ends m, Grid p.x ∧ Grid p.y) (v' : List (K × K)) (ns : List (ℕ × ℕ × ℕ))
    (ts : List (Pt K × Pt K × Pt K)) (keep : Pt K × Pt K × Pt K → Bool)
    (hlib : ∀ segs, R.meshSegments l = .ok segs → lib (R.pointSet l) segs = some (v', ns))
    (hv : ∀ v ∈ v', (⟨rhe8 v.1, rhe8 v.2⟩ : Pt K) ∈ Ends m) (hn : List.Forall₂ (Numbered (R.pointSet l)) ns ts)
    (ha : MeshAnswer m ts keep) (ω : ℕ → ℕ → ℕ → Pt K) (hω : MeshDraws m ts keep ω) (fuel : ℕ) :
    ∃ r, R.triangleMesh lib h l ω (fuel + 1) = .ok r ∧
      List.Forall₂ (fun T t => SameDrawing T (triSegs t)) r (ts.filter keep) ∧
      R.meshAreas r = .ok ((ts.filter keep).map fun t => det3 t.1 t.2.1 t.2.2 / 2) := by
  have hR := hE.isRounding
  have hapl : Apart R.tol (Ends l) := by
    rw [hE.tol']; exact apart_mono hap fun p hp => (ends_draw hd p).1 hp
  obtain ⟨segs, s1, -⟩ := C99_input hR l hapl
  unfold Rt.triangleMesh
  rw [s1]
  simp only
  rw [hlib segs s1]
  simp only
  rw [meshVertices_known hR _ v' (by
    intro v hv'
    rw [hE.mkPt']
    exact (mem_pointSet hR (sep_of_ends hR hapl).hashOK _).2 ((ends_draw hd _).2 (hv v hv')))]
  exact meshLoop_spec hE hd hc hnd hap hg h _ keep fuel hn ω ha hω

theorem triSegs_ends (t : Pt K × Pt K × Pt K) : (∀ s ∈ triSegs t, IsCorner t s.i ∧ IsCorner t s.j) ∧
    ∀ p, IsCorner t p → ∃ s ∈ triSegs t, p = s.i := by
  unfold triSegs IsCorner
  constructor
  · intro s hs
    simp only [List.mem_cons, List.not_mem_nil, or_false] at hs
    rcases hs with rfl | rfl | rfl <;> simp
  · rintro p (rfl | rfl | rfl) <;> simp

/-- C99: if every two of the triangles kept differ in a corner, no two of the stored triangles are equal (`==`), so the set they are stored in
has all of them, whatever their hashes are. -/
theorem C99_distinct (hR : R.IsRounding) {S : Set (Pt K)} (hap : Apart R.tol S) {r : List (List (Seg K))} {ts : List (Pt K × Pt K × Pt K)}
    (hr : List.Forall₂ (fun T t => SameDrawing T (triSegs t)) r ts) (hS : ∀ t ∈ ts, ∀ p, IsCorner t p → p ∈ S)
    (hd : ts.Pairwise fun t t' => ∃ p, IsCorner t p ∧ ¬ IsCorner t' p) :
    r.Pairwise fun T T' => R.plEq .triangle T .triangle T' = false := by
  have draw : ∀ {T : List (Seg K)} {t : Pt K × Pt K × Pt K}, SameDrawing T (triSegs t) →
      (∀ s ∈ T, IsCorner t s.i ∧ IsCorner t s.j) ∧ ∀ p, IsCorner t p → ∃ s ∈ T, p = s.i ∨ p = s.j := by
    intro T t hT
    have e := fun p => ends_draw hT p
    obtain ⟨t1, t2⟩ := triSegs_ends t
    constructor
    · have : ∀ p ∈ Ends T, IsCorner t p := by
        intro p hp
        obtain ⟨s, hs, h | h⟩ := (e p).1 hp
        · exact h ▸ (t1 s hs).1
        · exact h ▸ (t1 s hs).2
      intro s hs
      exact ⟨this _ ⟨s, hs, Or.inl rfl⟩, this _ ⟨s, hs, Or.inr rfl⟩⟩
    · intro p hp
      obtain ⟨s, hs, h⟩ := t2 p hp
      exact (e p).2 ⟨s, hs, Or.inl h⟩
  induction hr with
  | nil => exact .nil
  | @cons T t r ts hT hr ih =>
    rw [List.pairwise_cons] at hd
    refine List.pairwise_cons.2 ⟨?_, ih (fun t ht => hS t (List.mem_cons_of_mem _ ht)) hd.2⟩
    intro T' hT'
    obtain ⟨t', ht', hTt⟩ : ∃ t' ∈ ts, SameDrawing T' (triSegs t') := by
      clear ih hd hS
      induction hr with
      | nil => cases hT'
      | @cons x y _ _ hxy _ ih' =>
        rcases List.mem_cons.1 hT' with rfl | hm
        · exact ⟨y, List.mem_cons_self .., hxy⟩
        · obtain ⟨c', h1, h2⟩ := ih' hm
          exact ⟨c', List.mem_cons_of_mem _ h1, h2⟩
    rw [← Bool.not_eq_true]
    intro he
    obtain ⟨p, hp, hn⟩ := hd.1 t' ht'
    obtain ⟨s, hs, hsp⟩ := (draw hT).2 p hp
    obtain ⟨o, ho, hso⟩ := plEq_mem he s hs
    obtain ⟨o1, o2⟩ := (draw hTt).1 o ho
    unfold Rt.seq at hso
    simp only [Bool.and_eq_true, decide_eq_true_eq] at hso
    have key : ∀ q, R.peq p q = true → IsCorner t' q → False := by
      intro q hq hc
      have := (C04_apart hR hap (hS t (List.mem_cons_self ..) p hp) (hS t' (List.mem_cons_of_mem _ ht') q hc)).1.1 hq
      exact hn (this ▸ hc)
    rcases hsp with e | e
    · exact key _ (e ▸ hso.1.2) o1
    · exact key _ (e ▸ hso.2) o2

/-- C99: … and `area` is the area by the shoelace formula, rounded to 8 decimals. -/
theorem C99_area (hE : R.IsExact) (lib : TriLib K) (h : Heap K) (l m : List (Seg K)) (hd : SameDrawing l m)
    (hc : ClosedChain m) (hnd : NoDouble m) (hap : Apart (1 / 10 ^ 5) (Ends m))
    (hg : ∀ p ∈ Ends m, Grid p.x ∧ Grid p.y) (v' : List (K × K)) (ns : List (ℕ × ℕ × ℕ))
    (ts : List (Pt K × Pt K × Pt K)) (keep : Pt K × Pt K × Pt K → Bool)
    (hlib : ∀ segs, R.meshSegments l = .ok segs → lib (R.pointSet l) segs = some (v', ns))
    (hv : ∀ v ∈ v', (⟨rhe8 v.1, rhe8 v.2⟩ : Pt K) ∈ Ends m) (hn : List.Forall₂ (Numbered (R.pointSet l)) ns ts)
    (ha : MeshAnswer m ts keep) (ht : Tiling m (ts.filter keep)) (ω ω' : ℕ → ℕ → ℕ → Pt K) (hω : MeshDraws m ts keep ω)
    (hω' : MeshDraws m ts keep ω') (fuel : ℕ) :
    R.polyArea lib h l ω ω' (fuel + 1) = .ok (rhe8 (sideSum m / 2)) := by
  have key : ∀ ω, MeshDraws m ts keep ω → R.detailledArea lib h l ω (fuel + 1) = .ok (rhe8 (sideSum m / 2)) := by
    intro ω hω
    obtain ⟨r, r1, -, r3⟩ := C99_triangles hE lib h l m hd hc hnd hap hg v' ns ts keep hlib hv hn ha ω hω fuel
    unfold Rt.detailledArea
    rw [r1]
    simp only
    rw [r3]
    simp only
    rw [psum_exact hE, ht.area, hE.round8']
  unfold Rt.polyArea
  rw [key ω hω]
  exact key ω' hω'

/-! ### convex polygons -/

/-- no vertex of a strictly convex polygon is in a triangle of other vertices -/
theorem vertex_outside {m : List (Seg K)} (hc : ConvexCcw m) {t : Pt K × Pt K × Pt K}
    (hcor : ∀ p, IsCorner t p → p ∈ Ends m) (hpos : 0 < det3 t.1 t.2.1 t.2.2) (p : Pt K) (hp : p ∈ Ends m)
    (hnc : ¬ IsCorner t p) : OutsideCcw (triSegs t) p := by
  obtain ⟨a, b, c⟩ := t
  simp only at hpos
  have hstart : ∀ q, q ∈ Ends m → ∃ o ∈ m, o.i = q := by
    rintro q ⟨s, hs, h | h⟩
    · exact ⟨s, hs, h.symm⟩
    · obtain ⟨k, hk, rfl⟩ := List.getElem_of_mem hs
      exact ⟨_, List.getElem_mem _, by rw [h, hc.chain k hk]⟩
  obtain ⟨s, hs, rfl⟩ := hstart p hp
  by_contra hcon
  have hno : ∀ o ∈ triSegs (a, b, c), 0 ≤ det3 o.i o.j s.i := by
    intro o ho
    by_contra h
    exact hcon ⟨o, ho, not_le.1 h⟩
  have w3 := hno ⟨a, b, .line⟩ (by simp [triSegs])
  have w1 := hno ⟨b, c, .line⟩ (by simp [triSegs])
  have w2 := hno ⟨c, a, .line⟩ (by simp [triSegs])
  simp only at w1 w2 w3
  have hsum : det3 a b s.i + det3 b c s.i + det3 c a s.i = det3 a b c := by unfold det3; ring
  have haff : det3 b c s.i * det3 s.i s.j a + det3 c a s.i * det3 s.i s.j b + det3 a b s.i * det3 s.i s.j c = 0 := by
    unfold det3; ring
  have hx : det3 b c s.i * a.x + det3 c a s.i * b.x + det3 a b s.i * c.x = det3 a b c * s.i.x := by unfold det3; ring
  have hy : det3 b c s.i * a.y + det3 c a s.i * b.y + det3 a b s.i * c.y = det3 a b c * s.i.y := by unfold det3; ring
  have hv : ∀ q, IsCorner (a, b, c) q → q = s.j ∨ 0 < det3 s.i s.j q := by
    intro q hq
    obtain ⟨o, ho, rfl⟩ := hstart q (hcor q hq)
    rcases hc.left s hs o ho with h | h | h
    · exact absurd (h ▸ hq) hnc
    · exact Or.inl h
    · exact Or.inr h
  have hnn : ∀ q, IsCorner (a, b, c) q → 0 ≤ det3 s.i s.j q := by
    intro q hq
    rcases hv q hq with rfl | h
    · apply le_of_eq; unfold det3; ring
    · exact h.le
  have ha := hnn a (Or.inl rfl)
  have hb := hnn b (Or.inr (Or.inl rfl))
  have hc' := hnn c (Or.inr (Or.inr rfl))
  have z1 : det3 b c s.i * det3 s.i s.j a = 0 := by nlinarith [mul_nonneg w1 ha, mul_nonneg w2 hb, mul_nonneg w3 hc']
  have z2 : det3 c a s.i * det3 s.i s.j b = 0 := by nlinarith [mul_nonneg w1 ha, mul_nonneg w2 hb, mul_nonneg w3 hc']
  have z3 : det3 a b s.i * det3 s.i s.j c = 0 := by nlinarith [mul_nonneg w1 ha, mul_nonneg w2 hb, mul_nonneg w3 hc']
  obtain ⟨hab, hbc, hca⟩ := det3_ne hpos.ne'
  have fin : ∀ q : Pt K, IsCorner (a, b, c) q → det3 a b c * q.x = det3 a b c * s.i.x →
      det3 a b c * q.y = det3 a b c * s.i.y → False := by
    intro q hq h1 h2
    have e1 := mul_left_cancel₀ hpos.ne' h1
    have e2 := mul_left_cancel₀ hpos.ne' h2
    apply hnc
    have : s.i = q := by cases q; cases hsi : s.i; simp_all
    rw [this]; exact hq
  rcases hv a (Or.inl rfl) with ea | pa
  · have pb := (hv b (Or.inr (Or.inl rfl))).resolve_left (by rw [← ea]; exact hab.symm)
    have pc := (hv c (Or.inr (Or.inr rfl))).resolve_left (by rw [← ea]; exact hca)
    have q2 := (mul_eq_zero.1 z2).resolve_right pb.ne'
    have q3 := (mul_eq_zero.1 z3).resolve_right pc.ne'
    have q1 : det3 b c s.i = det3 a b c := by linarith
    rw [q1, q2, q3] at hx hy
    exact fin a (Or.inl rfl) (by linarith) (by linarith)
  · have q1 := (mul_eq_zero.1 z1).resolve_right pa.ne'
    rcases hv b (Or.inr (Or.inl rfl)) with eb | pb
    · have pc := (hv c (Or.inr (Or.inr rfl))).resolve_left (by rw [← eb]; exact hbc.symm)
      have q3 := (mul_eq_zero.1 z3).resolve_right pc.ne'
      have q2 : det3 c a s.i = det3 a b c := by linarith
      rw [q1, q2, q3] at hx hy
      exact fin b (Or.inr (Or.inl rfl)) (by linarith) (by linarith)
    · have q2 := (mul_eq_zero.1 z2).resolve_right pb.ne'
      have q3 : det3 a b s.i = det3 a b c := by linarith
      rw [q1, q2, q3] at hx hy
      exact fin c (Or.inr (Or.inr rfl)) (by linarith) (by linarith)

/-- C99: the area of a strictly convex polygon, its sides given in any order and direction, for any answer of counter-clockwise
triangles between its vertices that fit together to the polygon. -/
theorem C99_convex (hE : R.IsExact) (lib : TriLib K) (h : Heap K) (l m : List (Seg K)) (hd : SameDrawing l m)
    (hc : ConvexCcw m) (hm : 3 ≤ m.length) (hap : Apart (1 / 10 ^ 5) (Ends m))
    (hg : ∀ p ∈ Ends m, Grid p.x ∧ Grid p.y) (v' : List (K × K)) (ns : List (ℕ × ℕ × ℕ))
    (ts : List (Pt K × Pt K × Pt K))
    (hlib : ∀ segs, R.meshSegments l = .ok segs → lib (R.pointSet l) segs = some (v', ns))
    (hv : ∀ v ∈ v', (⟨rhe8 v.1, rhe8 v.2⟩ : Pt K) ∈ Ends m) (hn : List.Forall₂ (Numbered (R.pointSet l)) ns ts)
    (ht : Tiling m ts) (hin : ∀ t ∈ ts, InsideCcw m (storedCentre t)) (ω ω' : ℕ → ℕ → ℕ → Pt K)
    (hω : MeshDraws m ts (fun _ => true) ω) (hω' : MeshDraws m ts (fun _ => true) ω') (fuel : ℕ) :
    R.polyArea lib h l ω ω' (fuel + 1) = .ok (rhe8 (sideSum m / 2)) := by
  have hR := hE.isRounding
  have hapl : Apart R.tol (Ends l) := by
    rw [hE.tol']; exact apart_mono hap fun p hp => (ends_draw hd p).1 hp
  have hcor : ∀ t ∈ ts, ∀ p, IsCorner t p → p ∈ Ends m := by
    intro t htm p hp
    obtain ⟨n, -, hnt⟩ := numbered_mem hn htm
    have hmem : p ∈ R.pointSet l := by
      rcases hp with rfl | rfl | rfl
      · exact List.mem_of_getElem? hnt.1
      · exact List.mem_of_getElem? hnt.2.1
      · exact List.mem_of_getElem? hnt.2.2
    exact (ends_draw hd p).1 ((mem_pointSet hR (sep_of_ends hR hapl).hashOK p).1 hmem)
  refine C99_area hE lib h l m hd hc.chain (hc.noDouble hm) hap hg v' ns ts (fun _ => true) hlib hv hn
    ⟨hcor, ht.left, fun t h => not_onSeg_of_inside (hin t h), ?_, fun t h _ p hp hnc => vertex_outside hc (hcor t h)
      (ht.left t h) p hp hnc⟩ (by rw [List.filter_eq_self.2 (fun _ _ => rfl)]; exact ht) ω ω' hω hω' fuel
  intro t h T g
  have hne : m ≠ [] := by rintro rfl; simp at hm
  rw [meetCount_eq_rayCount g (not_onSeg_of_inside (hin t h)), Ray.rayCount_inside hc hne g.right g.noVertex (hin t h)]
  simp

/-- C99: a polygon the library gives no triangles for has the area 0. -/
theorem C99_no_triangles (hE : R.IsExact) (lib : TriLib K) (h : Heap K) (l : List (Seg K))
    (hap : Apart R.tol (Ends l)) (hlib : ∀ segs, lib (R.pointSet l) segs = none) (ω ω' : ℕ → ℕ → ℕ → Pt K) (fuel : ℕ) :
    R.polyArea lib h l ω ω' fuel = .ok 0 := by
  obtain ⟨segs, s1, -⟩ := C99_input hE.isRounding l hap
  have key : ∀ ω, R.detailledArea lib h l ω fuel = .ok 0 := by
    intro ω
    unfold Rt.detailledArea Rt.triangleMesh
    rw [s1]
    simp only [hlib, Rt.meshAreas]
    rw [psum_exact hE, hE.round8', List.sum_nil, (grid_zero : Grid (0 : K)).rhe8]
  unfold Rt.polyArea
  rw [key ω]
  exact key ω'

/-- C99: `area` is not calculated again: whatever becomes of the segments after the first access, the value and its memory stay. -/
theorem C99_stale (R : Rt K) (lib : TriLib K) (h : Heap K) (l : List (Seg K)) (ω ω' : ℕ → ℕ → ℕ → Pt K) (fuel : ℕ) (a : K)
    (ha : R.polyArea lib h l ω ω' fuel = .ok a) (h' : Heap K) (l' : List (Seg K)) (υ υ' : ℕ → ℕ → ℕ → Pt K) (fuel' : ℕ) :
    (R.areaGet lib none h l ω ω' fuel).1 = .ok a ∧
    R.areaGet lib (R.areaGet lib none h l ω ω' fuel).2 h' l' υ υ' fuel' = (.ok a, (R.areaGet lib none h l ω ω' fuel).2) := by
  unfold Rt.areaGet
  rw [ha]
  exact ⟨rfl, rfl⟩

/-! ### a concrete case -/

theorem clear_of {p t : Pt K} {s : Seg K} (u w : K)
    (hd : (t.x - p.x) * (s.j.y - s.i.y) - (t.y - p.y) * (s.j.x - s.i.x) ≠ 0) (h : lerp p t u = lerp s.i s.j w)
    (hc : ((0 ≤ u ∧ u ≤ 1) ∧ 0 ≤ w ∧ w ≤ 1) ∨ FarFromBox p t (lerp p t u) ∨ FarFromBox s.i s.j (lerp p t u)) :
    Clear p t s := by
  rintro X ⟨u', rfl⟩ ⟨w', e⟩
  have e1 := congrArg Pt.x e
  have e2 := congrArg Pt.y e
  have f1 := congrArg Pt.x h
  have f2 := congrArg Pt.y h
  simp only [lerp] at e1 e2 f1 f2
  have hu : u' = u := by
    have : (u' - u) * ((t.x - p.x) * (s.j.y - s.i.y) - (t.y - p.y) * (s.j.x - s.i.x)) = 0 := by
      linear_combination (s.j.y - s.i.y) * (e1 - f1) - (s.j.x - s.i.x) * (e2 - f2)
    exact sub_eq_zero.1 ((mul_eq_zero.1 this).resolve_right hd)
  subst hu
  rcases hc with ⟨⟨h1, h2⟩, h3, h4⟩ | hc
  · exact Or.inl ⟨⟨u', h1, h2, rfl⟩, ⟨w, h3, h4, h⟩⟩
  · exact Or.inr hc

/-- the square with the corners (0, 0) and (3, 3) -/
def sq3 : List (Seg ℝ) :=
  [⟨⟨0, 0⟩, ⟨3, 0⟩, .line⟩, ⟨⟨3, 0⟩, ⟨3, 3⟩, .line⟩, ⟨⟨3, 3⟩, ⟨0, 3⟩, .line⟩, ⟨⟨0, 3⟩, ⟨0, 0⟩, .line⟩]

/-- … and its two halves -/
def sq3tris : List (Pt ℝ × Pt ℝ × Pt ℝ) := [(⟨0, 0⟩, ⟨3, 0⟩, ⟨3, 3⟩), (⟨0, 0⟩, ⟨3, 3⟩, ⟨0, 3⟩)]

theorem sq3_ends (p : Pt ℝ) : p ∈ Ends sq3 ↔ p = ⟨0, 0⟩ ∨ p = ⟨3, 0⟩ ∨ p = ⟨3, 3⟩ ∨ p = ⟨0, 3⟩ := by
  simp only [Ends, sq3, Set.mem_ofPred_eq, List.mem_cons, List.not_mem_nil, or_false, exists_eq_or_imp, exists_eq_left]
  tauto

theorem sq3_convex : ConvexCcw sq3 where
  chain := by
    intro k hk
    have : k < 4 := hk
    interval_cases k <;> rfl
  nodup := by simp [sq3]
  left := by
    intro s hs o ho
    simp only [sq3, List.mem_cons, List.not_mem_nil, or_false] at hs ho
    rcases hs with rfl | rfl | rfl | rfl <;> rcases ho with rfl | rfl | rfl | rfl <;> norm_num [det3]

theorem sq3_apart : Apart (1 / 10 ^ 5) (Ends sq3) := by
  intro a ha b hb hne
  rw [sq3_ends] at ha hb
  rcases ha with rfl | rfl | rfl | rfl <;> rcases hb with rfl | rfl | rfl | rfl <;>
    first
      | exact absurd rfl hne
      | (left; norm_num; done)
      | (right; norm_num; done)

theorem sq3_tiling : Tiling sq3 sq3tris where
  left := by
    intro t ht
    simp only [sq3tris, List.mem_cons, List.not_mem_nil, or_false] at ht
    rcases ht with rfl | rfl <;> norm_num [det3]
  edges := by
    refine ⟨[(⟨3, 3⟩, ⟨0, 0⟩)], ?_⟩
    simp only [sq3tris, sq3, triEdges, List.flatMap_cons, List.flatMap_nil, List.map_cons, List.map_nil, List.cons_append,
      List.nil_append, Prod.swap]
    rw [List.perm_iff_count]
    intro a
    simp only [List.count_cons, List.count_nil]
    omega

theorem sq3_centres : storedCentre (⟨0, 0⟩, ⟨3, 0⟩, (⟨3, 3⟩ : Pt ℝ)) = ⟨2, 1⟩ ∧
    storedCentre (⟨0, 0⟩, ⟨3, 3⟩, (⟨0, 3⟩ : Pt ℝ)) = ⟨1, 2⟩ := by
  have h1 : rhe8 (1 : ℝ) = 1 := by have := (grid_int 1).rhe8; simpa using this
  have h2 : rhe8 (2 : ℝ) = 2 := by have := (grid_int 2).rhe8; simpa using this
  unfold storedCentre
  norm_num [h1, h2]

/-- the two halves are stored as two triangles -/
example : (sq3tris.map triSegs).Pairwise fun T T' => exReal.plEq .triangle T .triangle T' = false := by
  refine C99_distinct exReal_isExact.isRounding (S := Ends sq3) (by rw [exReal_isExact.tol']; exact sq3_apart) (ts := sq3tris) ?_ ?_ ?_
  · exact .cons (SameDrawing.refl _) (.cons (SameDrawing.refl _) .nil)
  · intro t ht p hp
    rw [sq3_ends]
    simp only [sq3tris, List.mem_cons, List.not_mem_nil, or_false] at ht
    rcases ht with rfl | rfl <;> rcases hp with rfl | rfl | rfl <;> simp
  · refine List.pairwise_cons.2 ⟨?_, List.pairwise_singleton _ _⟩
    intro t ht
    rw [List.mem_singleton.1 ht]
    exact ⟨⟨3, 0⟩, by simp [IsCorner], by simp [IsCorner]⟩

/-- the targets: (10, 2) for the first triangle and (10, 1) for the second -/
def sq3ω : ℕ → ℕ → ℕ → Pt ℝ := fun n _ _ => if n = 0 then ⟨10, 2⟩ else ⟨10, 1⟩

theorem sq3_draws : MeshDraws sq3 sq3tris (fun _ => true) sq3ω := by
  have hsp : ∀ (l : List (Seg ℝ)) (p t : Pt ℝ), (∀ q ∈ Ends l, q = ⟨0, 0⟩ ∨ q = ⟨3, 0⟩ ∨ q = ⟨3, 3⟩ ∨ q = ⟨0, 3⟩) →
      (p = ⟨2, 1⟩ ∨ p = ⟨1, 2⟩ ∨ p = ⟨0, 3⟩ ∨ p = ⟨3, 0⟩) → (t = ⟨10, 2⟩ ∨ t = ⟨10, 1⟩) → Spread l p t := by
    intro l p t hl hp ht a ha b hb hne
    have key : ∀ q : Pt ℝ, (q = p ∨ q = t ∨ ∃ s ∈ l, q = s.i ∨ q = s.j) → ∃ m n : ℤ, q = ⟨m, n⟩ := by
      rintro q (rfl | rfl | h)
      · rcases hp with rfl | rfl | rfl | rfl
        · exact ⟨2, 1, by norm_num⟩
        · exact ⟨1, 2, by norm_num⟩
        · exact ⟨0, 3, by norm_num⟩
        · exact ⟨3, 0, by norm_num⟩
      · rcases ht with rfl | rfl
        · exact ⟨10, 2, by norm_num⟩
        · exact ⟨10, 1, by norm_num⟩
      · rcases hl q h with rfl | rfl | rfl | rfl
        · exact ⟨0, 0, by norm_num⟩
        · exact ⟨3, 0, by norm_num⟩
        · exact ⟨3, 3, by norm_num⟩
        · exact ⟨0, 3, by norm_num⟩
    obtain ⟨m, n, rfl⟩ := key a ha
    obtain ⟨m', n', rfl⟩ := key b hb
    have hint : ∀ x y : ℤ, x ≠ y → (1 : ℝ) / 10 ^ 5 ≤ |(x : ℝ) - y| := by
      intro x y hxy
      have : (1 : ℤ) ≤ |x - y| := Int.one_le_abs (sub_ne_zero.2 hxy)
      have h2 : (1 : ℝ) ≤ |(x : ℝ) - y| := by exact_mod_cast this
      refine le_trans ?_ h2
      norm_num
    by_cases hm : m = m'
    · right; exact hint n n' fun h => hne (by rw [hm, h])
    · left; exact hint m m' hm
  have hfirst : ∀ n t, sq3tris[n]? = some t → (n = 0 ∧ t = (⟨0, 0⟩, ⟨3, 0⟩, ⟨3, 3⟩)) ∨ (n = 1 ∧ t = (⟨0, 0⟩, ⟨3, 3⟩, ⟨0, 3⟩)) := by
    intro n t h
    rcases n with _ | _ | n <;> simp [sq3tris] at h
    · exact Or.inl ⟨rfl, h.symm⟩
    · exact Or.inr ⟨rfl, h.symm⟩
  constructor
  · intro n t h k hk
    rcases hfirst n t h with ⟨rfl, rfl⟩ | ⟨rfl, rfl⟩
    · rw [sq3_centres.1]
      refine ⟨⟨by norm_num [sq3ω], ?_, ?_, ?_⟩, hsp _ _ _ (fun q hq => (sq3_ends q).1 hq) (by simp) (by simp [sq3ω])⟩
      all_goals
        intro s hs
        simp only [sq3, List.mem_cons, List.not_mem_nil, or_false] at hs
      · rcases hs with rfl | rfl | rfl | rfl <;> norm_num [sq3ω]
      · rcases hs with rfl | rfl | rfl | rfl <;> norm_num [sq3ω, det3]
      · rcases hs with rfl | rfl | rfl | rfl
        · exact clear_of (-1) (-2) (by norm_num [sq3ω]) (by norm_num [sq3ω, lerp])
            (Or.inr (Or.inl (Or.inl (by norm_num [sq3ω, lerp]))))
        · exact clear_of (1/8) (3/8) (by norm_num [sq3ω]) (by norm_num [sq3ω, lerp]) (Or.inl (by norm_num))
        · exact clear_of 2 (-5) (by norm_num [sq3ω]) (by norm_num [sq3ω, lerp])
            (Or.inr (Or.inl (Or.inr (Or.inl (by norm_num [sq3ω, lerp])))))
        · exact clear_of (-1/4) (3/4) (by norm_num [sq3ω]) (by norm_num [sq3ω, lerp])
            (Or.inr (Or.inl (Or.inl (by norm_num [sq3ω, lerp]))))
    · rw [sq3_centres.2]
      refine ⟨⟨by norm_num [sq3ω], ?_, ?_, ?_⟩, hsp _ _ _ (fun q hq => (sq3_ends q).1 hq) (by simp) (by simp [sq3ω])⟩
      all_goals
        intro s hs
        simp only [sq3, List.mem_cons, List.not_mem_nil, or_false] at hs
      · rcases hs with rfl | rfl | rfl | rfl <;> norm_num [sq3ω]
      · rcases hs with rfl | rfl | rfl | rfl <;> norm_num [sq3ω, det3]
      · rcases hs with rfl | rfl | rfl | rfl
        · exact clear_of 2 (19/3) (by norm_num [sq3ω]) (by norm_num [sq3ω, lerp])
            (Or.inr (Or.inl (Or.inr (Or.inl (by norm_num [sq3ω, lerp])))))
        · exact clear_of (2/9) (16/27) (by norm_num [sq3ω]) (by norm_num [sq3ω, lerp]) (Or.inl (by norm_num))
        · exact clear_of (-1) (11/3) (by norm_num [sq3ω]) (by norm_num [sq3ω, lerp])
            (Or.inr (Or.inl (Or.inl (by norm_num [sq3ω, lerp]))))
        · exact clear_of (-1/9) (8/27) (by norm_num [sq3ω]) (by norm_num [sq3ω, lerp])
            (Or.inr (Or.inl (Or.inl (by norm_num [sq3ω, lerp]))))
  · intro n t h _ p hp hnc i k hk
    rw [sq3_ends] at hp
    rcases hfirst n t h with ⟨rfl, rfl⟩ | ⟨rfl, rfl⟩
    · have hp' : p = ⟨0, 3⟩ := by
        simp only [IsCorner, not_or] at hnc
        tauto
      subst hp'
      refine ⟨⟨by norm_num [sq3ω], ?_, ?_, ?_⟩, hsp _ _ _ (fun q hq => by
        rw [ends_triSegs] at hq; rcases hq with h | h | h <;> simp [h]) (by simp) (by simp [sq3ω])⟩
      all_goals
        intro s hs
        simp only [triSegs, List.mem_cons, List.not_mem_nil, or_false] at hs
      · rcases hs with rfl | rfl | rfl <;> norm_num [sq3ω]
      · rcases hs with rfl | rfl | rfl <;> norm_num [sq3ω, det3]
      · rcases hs with rfl | rfl | rfl
        · exact clear_of 3 10 (by norm_num [sq3ω]) (by norm_num [sq3ω, lerp])
            (Or.inr (Or.inl (Or.inr (Or.inl (by norm_num [sq3ω, lerp])))))
        · exact clear_of (3/10) (9/10) (by norm_num [sq3ω]) (by norm_num [sq3ω, lerp]) (Or.inl (by norm_num))
        · exact clear_of (3/11) (1/11) (by norm_num [sq3ω]) (by norm_num [sq3ω, lerp]) (Or.inl (by norm_num))
    · have hp' : p = ⟨3, 0⟩ := by
        simp only [IsCorner, not_or] at hnc
        tauto
      subst hp'
      refine ⟨⟨by norm_num [sq3ω], ?_, ?_, ?_⟩, hsp _ _ _ (fun q hq => by
        rw [ends_triSegs] at hq; rcases hq with h | h | h <;> simp [h]) (by simp) (by simp [sq3ω])⟩
      all_goals
        intro s hs
        simp only [triSegs, List.mem_cons, List.not_mem_nil, or_false] at hs
      · rcases hs with rfl | rfl | rfl <;> norm_num [sq3ω]
      · rcases hs with rfl | rfl | rfl <;> norm_num [sq3ω, det3]
      · rcases hs with rfl | rfl | rfl
        · exact clear_of (-1/2) (-1/6) (by norm_num [sq3ω]) (by norm_num [sq3ω, lerp])
            (Or.inr (Or.inl (Or.inl (by norm_num [sq3ω, lerp]))))
        · exact clear_of 3 (-7) (by norm_num [sq3ω]) (by norm_num [sq3ω, lerp])
            (Or.inr (Or.inl (Or.inr (Or.inl (by norm_num [sq3ω, lerp])))))
        · exact clear_of (-3/7) (8/7) (by norm_num [sq3ω]) (by norm_num [sq3ω, lerp])
            (Or.inr (Or.inl (Or.inl (by norm_num [sq3ω, lerp]))))

/-- the square has the area 9 if the library answers with its two halves; and it keeps the area 9 when it is made four times
as large afterwards -/
theorem C99_square (h : Heap ℝ) : ∃ lib : TriLib ℝ, exReal.polyArea lib h sq3 sq3ω sq3ω 1 = .ok 9 ∧
    (exReal.areaGet lib (exReal.areaGet lib none h sq3 sq3ω sq3ω 1).2 h
      (sq3.map fun s => ⟨⟨2 * s.i.x, 2 * s.i.y⟩, ⟨2 * s.j.x, 2 * s.j.y⟩, s.cls⟩) sq3ω sq3ω 1).1 = .ok 9 := by
  have hR := exReal_isExact.isRounding
  have hap : Apart exReal.tol (Ends sq3) := by rw [exReal_isExact.tol']; exact sq3_apart
  obtain ⟨ns, hn⟩ := exists_numbers (exReal.pointSet sq3) sq3tris (by
    intro t ht p hp
    rw [mem_pointSet hR (sep_of_ends hR hap).hashOK, sq3_ends]
    simp only [sq3tris, List.mem_cons, List.not_mem_nil, or_false] at ht
    rcases ht with rfl | rfl <;> rcases hp with rfl | rfl | rfl <;> simp)
  refine ⟨fun _ _ => some ([], ns), ?_⟩
  have hA := C99_convex exReal_isExact (fun _ _ => some ([], ns)) h sq3 sq3 (SameDrawing.refl _) sq3_convex (by simp [sq3])
    sq3_apart (by
      intro p hp
      rw [sq3_ends] at hp
      have g0 := grid_int 0
      have g3 := grid_int 3
      push_cast at g0 g3
      rcases hp with rfl | rfl | rfl | rfl <;> exact ⟨by assumption, by assumption⟩) [] ns sq3tris (fun _ _ => rfl)
    (fun v hv => by cases hv) hn sq3_tiling (by
      intro t ht s hs
      simp only [sq3tris, List.mem_cons, List.not_mem_nil, or_false] at ht
      simp only [sq3, List.mem_cons, List.not_mem_nil, or_false] at hs
      rcases ht with rfl | rfl
      · rw [sq3_centres.1]
        rcases hs with rfl | rfl | rfl | rfl <;> norm_num [det3]
      · rw [sq3_centres.2]
        rcases hs with rfl | rfl | rfl | rfl <;> norm_num [det3]) sq3ω sq3ω sq3_draws sq3_draws 0
  have h9 : rhe8 (sideSum sq3 / 2) = (9 : ℝ) := by
    have := (grid_int 9).rhe8
    have e : sideSum sq3 / 2 = ((9 : ℤ) : ℝ) := by norm_num [sideSum, sq3]
    rw [e, this]
    norm_num
  rw [h9] at hA
  exact ⟨hA, congrArg Prod.fst (C99_stale exReal _ h sq3 sq3ω sq3ω 1 9 hA h _ sq3ω sq3ω 1).2⟩

/-! ### binary64 -/

/-- empty memory -/
def emptyHeap : Heap ℚ := ⟨fun _ => ⟨0, 0⟩, fun _ => ⟨0, 0, .line⟩, 0, 0⟩

/-- the square with the corners (-3, -3) and (0, 0) -/
def sqNeg : List (Seg ℚ) := [exSeg (-3) (-3) 0 (-3), exSeg 0 (-3) 0 0, exSeg 0 0 (-3) 0, exSeg (-3) 0 (-3) (-3)]

theorem ok_of_toOption {ε α : Type} {x : Except ε α} {a : α} (h : x.toOption = some a) : x = .ok a := by
  cases x with
  | error e => cases h
  | ok b => cases h; rfl

theorem meshOk_midpoint {R : Rt K} {l T : List (Seg K)} {M : Pt K} (hM : R.plMidpoint T = .ok M) {ω : ℕ → ℕ → Pt K} {fuel : ℕ}
    (h : R.plInternal l M (ω 0) fuel = some false) : R.meshOk l T ω fuel = .ok false := by
  unfold Rt.meshOk
  rw [hM]
  simp only
  rw [h]

/-- C99 (the area is wrong): the valid square with the corners (-3, -3) and (0, 0) has the area 0, for both ways of cutting
it into two triangles and for all admissible random choices (binary64). -/
theorem C99_zero (lib : TriLib ℚ) (hlib : ∀ segs, lib (exRt.pointSet sqNeg) segs = some ([], [(0, 2, 3), (0, 3, 1)]) ∨
      lib (exRt.pointSet sqNeg) segs = some ([], [(0, 2, 1), (2, 3, 1)]))
    (ω ω' : ℕ → ℕ → ℕ → Pt ℚ) (hω : ∀ n i k, exRt.Target sqNeg (ω n i k)) (hω' : ∀ n i k, exRt.Target sqNeg (ω' n i k))
    (fuel : ℕ) : exRt.plValid sqNeg = true ∧ sideSum sqNeg / 2 = 9 ∧ exRt.pointSet sqNeg = [⟨-3, -3⟩, ⟨-3, 0⟩, ⟨0, -3⟩, ⟨0, 0⟩] ∧
    exRt.polyArea lib emptyHeap sqNeg ω ω' (fuel + 1) = .ok 0 := by
  refine ⟨by decide +kernel, by decide +kernel, by decide +kernel, ?_⟩
  have key : ∀ υ : ℕ → ℕ → ℕ → Pt ℚ, (∀ n i k, exRt.Target sqNeg (υ n i k)) →
      exRt.detailledArea lib emptyHeap sqNeg υ (fuel + 1) = .ok 0 := by
    intro υ hυ
    have h0 : ∀ n i k, υ n i k = ⟨0, 0⟩ := fun n i k =>
      (C85_zero_box exRt_isRounding sqNeg (by decide +kernel) (by decide +kernel) _).1 (hυ n i k)
    have hno : ∀ (T : List (Seg ℚ)) (M : Pt ℚ) (n : ℕ), exRt.plMidpoint T = .ok M →
        (exRt.pointSet sqNeg).any (fun q => exRt.peq q M) = false → exRt.crossCount sqNeg M ⟨0, 0⟩ % 2 = 0 →
        exRt.meshOk sqNeg T (υ n) (fuel + 1) = .ok false := by
      intro T M n h1 h2 h3
      apply meshOk_midpoint h1
      apply plInternal_first (c := 0) h2
      intro k _
      rw [h0, h3]
    have hrun : ∀ (t u : ℕ × ℕ × ℕ) (T U : List (Seg ℚ)) (M N : Pt ℚ),
        exRt.meshTri emptyHeap (exRt.pointSet sqNeg) t = .ok T → exRt.meshTri emptyHeap (exRt.pointSet sqNeg) u = .ok U →
        exRt.plMidpoint T = .ok M → exRt.plMidpoint U = .ok N → (exRt.pointSet sqNeg).any (fun q => exRt.peq q M) = false →
        (exRt.pointSet sqNeg).any (fun q => exRt.peq q N) = false → exRt.crossCount sqNeg M ⟨0, 0⟩ % 2 = 0 →
        exRt.crossCount sqNeg N ⟨0, 0⟩ % 2 = 0 →
        exRt.meshLoop emptyHeap sqNeg (exRt.pointSet sqNeg) (fuel + 1) υ [t, u] = .ok [] := by
      intro t u T U M N a1 a2 a3 a4 a5 a6 a7 a8
      simp only [Rt.meshLoop]
      rw [a1, a2]
      simp only
      rw [hno T M 0 a3 a5 a7, hno U N 1 a4 a6 a8]
      rfl
    unfold Rt.detailledArea Rt.triangleMesh
    have hseg : exRt.meshSegments sqNeg = .ok [(0, 2), (2, 3), (3, 1), (1, 0)] := by decide +kernel
    rw [hseg]
    have hz : exRt.round8 (exRt.psum []) = 0 := by decide +kernel
    rcases hlib [(0, 2), (2, 3), (3, 1), (1, 0)] with h | h
    · simp only [h, Rt.meshVertices]
      rw [hrun (0, 2, 3) (0, 3, 1) [exSeg 0 0 (-3) (-3), exSeg (-3) (-3) 0 (-3), exSeg 0 (-3) 0 0]
        [exSeg 0 0 (-3) 0, exSeg (-3) 0 (-3) (-3), exSeg (-3) (-3) 0 0] ⟨-1, -2⟩ ⟨-2, -1⟩
        (ok_of_toOption (by decide +kernel)) (ok_of_toOption (by decide +kernel)) (by decide +kernel) (by decide +kernel) (by decide +kernel) (by decide +kernel)
        (by decide +kernel) (by decide +kernel)]
      simp only [Rt.meshAreas, hz]
    · simp only [h, Rt.meshVertices]
      rw [hrun (0, 2, 1) (2, 3, 1) [exSeg (-3) 0 (-3) (-3), exSeg (-3) (-3) 0 (-3), exSeg 0 (-3) (-3) 0]
        [exSeg 0 0 (-3) 0, exSeg (-3) 0 0 (-3), exSeg 0 (-3) 0 0] ⟨-2, -2⟩ ⟨-1, -1⟩
        (ok_of_toOption (by decide +kernel)) (ok_of_toOption (by decide +kernel)) (by decide +kernel) (by decide +kernel) (by decide +kernel) (by decide +kernel)
        (by decide +kernel) (by decide +kernel)]
      simp only [Rt.meshAreas, hz]
  unfold Rt.polyArea
  rw [key ω hω]
  exact key ω' hω'

/-- a square, and a dart whose third triangle is outside and dropped -/
example : (exRt.polyArea (fun _ _ => some ([], [(0, 2, 3), (0, 3, 1)])) emptyHeap
      [exSeg 0 0 3 0, exSeg 3 0 3 3, exSeg 3 3 0 3, exSeg 0 3 0 0] (fun n _ k => ⟨10 + k, if n = 0 then 2 else 1⟩)
      (fun n _ k => ⟨10 + k, if n = 0 then 2 else 1⟩) 1).toOption = some 9 ∧
    (exRt.polyArea (fun _ _ => some ([], [(0, 3, 2), (0, 2, 1), (3, 1, 2)])) emptyHeap
      [exSeg 0 0 3 0, exSeg 3 0 1 1, exSeg 1 1 0 3, exSeg 0 3 0 0] (fun n _ k => ⟨10 + k, if n = 0 then 2 else 1⟩)
      (fun n _ k => ⟨10 + k, if n = 0 then 2 else 1⟩) 1).toOption = some 3 := by
  decide +kernel

/-! ### a polygon with a notch -/

section
open RatEx

/-- a triangle with a notch in its long side … -/
def notched : List (Seg ℚ) := [⟨⟨0, 0⟩, ⟨6, 0⟩, .line⟩, ⟨⟨6, 0⟩, ⟨5 / 2, 3⟩, .line⟩, ⟨⟨5 / 2, 3⟩, ⟨0, 6⟩, .line⟩,
  ⟨⟨0, 6⟩, ⟨0, 0⟩, .line⟩]
/-- … and the triangle without it -/
def unnotched : Pt ℚ × Pt ℚ × Pt ℚ := (⟨0, 0⟩, ⟨6, 0⟩, ⟨0, 6⟩)

theorem notched_ends {p : Pt ℝ} (h : p ∈ Ends (notched.map seg)) : p = pt ⟨0, 0⟩ ∨ p = pt ⟨6, 0⟩ ∨ p = pt ⟨0, 6⟩ ∨
    p = pt ⟨5 / 2, 3⟩ := by
  obtain ⟨s, hs, hp⟩ := h
  simp only [notched, List.map_cons, List.map_nil, List.mem_cons, List.not_mem_nil, or_false] at hs
  rcases hs with rfl | rfl | rfl | rfl <;> rcases hp with rfl | rfl <;> simp [seg]

/-- C99: an answer of the library that bridges the notch is not accepted, although the middle of the triangle is in the
polygon. -/
theorem C99_notch (fuel : ℕ) : exReal.meshOk (notched.map seg) (triSegs (tri unnotched)) (fun _ _ => pt ⟨10, 7 / 2⟩)
    (fuel + 1) = .ok false := by
  have hcen : storedCentre (tri unnotched) = pt ⟨2, 2⟩ := by
    have g2 : Grid (2 : ℝ) := by have := grid_int 2; push_cast at this; exact this
    have e1 : (((0 : ℚ) : ℝ) + ((6 : ℚ) : ℝ) + ((0 : ℚ) : ℝ)) / 3 = 2 := by norm_num
    have e2 : (((0 : ℚ) : ℝ) + ((0 : ℚ) : ℝ) + ((6 : ℚ) : ℝ)) / 3 = 2 := by norm_num
    simp only [storedCentre, tri, pt, unnotched, e1, e2, g2.rhe8]
    norm_num
  have hg : goodB notched ⟨2, 2⟩ ⟨10, 7 / 2⟩ = true := by decide +kernel
  have hs : spreadB notched ⟨2, 2⟩ ⟨10, 7 / 2⟩ = true := by decide +kernel
  have hg' : goodB (triSegs unnotched) ⟨5 / 2, 3⟩ ⟨10, 7 / 2⟩ = true := by decide +kernel
  have hs' : spreadB (triSegs unnotched) ⟨5 / 2, 3⟩ ⟨10, 7 / 2⟩ = true := by decide +kernel
  have hin : InsideCcw (triSegs (tri unnotched)) (pt ⟨5 / 2, 3⟩) := by
    intro s hs
    simp only [triSegs, tri, unnotched, List.mem_cons, List.not_mem_nil, or_false] at hs
    rcases hs with rfl | rfl | rfl <;> norm_num [det3, pt]
  have hother : ∀ p ∈ Ends (notched.map seg), ¬ IsCorner (tri unnotched) p → p = pt ⟨5 / 2, 3⟩ := by
    intro p hp hn
    rcases notched_ends hp with rfl | rfl | rfl | rfl
    · exact absurd (Or.inl rfl) hn
    · exact absurd (Or.inr (Or.inl rfl)) hn
    · exact absurd (Or.inr (Or.inr rfl)) hn
    · rfl
  refine C99_foreign exReal_isExact _ (notched.map seg) _ (tri unnotched) (SameDrawing.refl _) ?_ ?_ ?_ ?_ (SameDrawing.refl _) ?_
    _ ?_ ?_ ?_ ?_ (pt ⟨5 / 2, 3⟩) ⟨_, List.mem_cons_of_mem _ List.mem_cons_self, Or.inr rfl⟩ hin fuel
  · intro k hk
    simp only [notched, List.map_cons, List.map_nil, List.length_cons, List.length_nil] at hk
    interval_cases k <;> simp [notched, seg]
  · simp only [NoDouble, notched, List.map_cons, List.map_nil, List.pairwise_cons, List.mem_cons, List.not_mem_nil, or_false,
      SameEdge, seg]
    norm_num [pt]
  · have := apart_pt (e := 1 / 10 ^ 5) (L := [⟨0, 0⟩, ⟨6, 0⟩, ⟨0, 6⟩, ⟨5 / 2, 3⟩]) (by decide +kernel)
      (S := Ends (notched.map seg)) (by
        intro p hp
        rcases notched_ends hp with rfl | rfl | rfl | rfl
        · exact ⟨_, List.mem_cons_self, rfl⟩
        · exact ⟨_, List.mem_cons_of_mem _ List.mem_cons_self, rfl⟩
        · exact ⟨_, List.mem_cons_of_mem _ (List.mem_cons_of_mem _ List.mem_cons_self), rfl⟩
        · exact ⟨_, List.mem_cons_of_mem _ (List.mem_cons_of_mem _ (List.mem_cons_of_mem _ List.mem_cons_self)), rfl⟩)
    push_cast at this
    exact this
  · rintro p (rfl | rfl | rfl)
    · exact ⟨_, List.mem_cons_self, Or.inl rfl⟩
    · exact ⟨_, List.mem_cons_self, Or.inr rfl⟩
    · exact ⟨_, List.mem_cons_of_mem _ (List.mem_cons_of_mem _ List.mem_cons_self), Or.inr rfl⟩
  · norm_num [det3, tri, pt, unnotched]
  · rw [hcen]
    apply not_onSeg_of_inside
    intro s hs
    simp only [notched, List.map_cons, List.map_nil, List.mem_cons, List.not_mem_nil, or_false] at hs
    rcases hs with rfl | rfl | rfl | rfl <;> norm_num [det3, pt, seg]
  · intro k _
    rw [hcen]
    exact ⟨good_pt hg, spread_pt hs⟩
  · intro p hp hn
    rw [hother p hp hn]
    exact Or.inl hin
  · intro p hp hn n k _
    rw [hother p hp hn]
    exact ⟨good_pt hg', spread_pt hs'⟩

end

end Srep
