import Verif.Props.Internal
import Verif.Lemmas.Ray

/-! Correctness of the random point location test `is_internal_point` for targets in general position. -/

set_option linter.unusedSectionVars false

namespace Srep
open Rt Ray
variable {K : Type} [Field K] [LinearOrder K] [IsStrictOrderedRing K] [FloorRing K]

/-! ### one target, one side -/

theorem far_lt {R : Rt K} (hE : R.IsExact) {p q : Pt K} (h : R.distance p q < R.eps) :
    |p.x - q.x| < 1 / 10 ^ 8 ∧ |p.y - q.y| < 1 / 10 ^ 8 := by
  rw [hE.eps', hE.distance', hE.sqrt_lt_iff (by
    nlinarith [mul_self_nonneg (p.x - q.x), mul_self_nonneg (p.y - q.y)]) (by positivity)] at h
  constructor
  · apply abs_lt_of_sq_lt_sq _ (by positivity)
    nlinarith [mul_self_nonneg (p.y - q.y)]
  · apply abs_lt_of_sq_lt_sq _ (by positivity)
    nlinarith [mul_self_nonneg (p.x - q.x)]

theorem peq_eq {R : Rt K} (hE : R.IsExact) {S : Set (Pt K)} (ha : Apart (1 / 10 ^ 5) S) {a b : Pt K} (h1 : a ∈ S) (h2 : b ∈ S)
    (h : R.peq a b = true) : a = b := by
  by_contra hne
  obtain ⟨hx, hy⟩ := (hE.peq_iff a b).1 h
  rcases ha a h1 b h2 hne with h | h
  · exact absurd hx (not_lt.2 h)
  · exact absurd hy (not_lt.2 h)

theorem mem_pset_sub (R : Rt K) (l : List (Pt K)) (q : Pt K) (h : q ∈ R.pset l) : q ∈ l := by
  have key : ∀ (l d : List (Pt K)), q ∈ l.foldl (fun s p => if R.pmem p s then s else s ++ [p]) d → q ∈ d ∨ q ∈ l := by
    intro l
    induction l with
    | nil => intro d h; exact Or.inl h
    | cons a l ih =>
      intro d h
      rw [List.foldl_cons] at h
      rcases ih _ h with h | h
      · split_ifs at h
        · exact Or.inl h
        · rcases List.mem_append.1 h with h | h
          · exact Or.inl h
          · right; simp at h; simp [h]
      · right; simp [h]
  rcases key l [] h with h | h
  · simp at h
  · exact h

theorem mem_pointSet_sub (R : Rt K) (l : List (Seg K)) (q : Pt K) (h : q ∈ R.pointSet l) : q ∈ endPts l := by
  unfold pointSet allPoints at h
  rw [List.mem_insertionSort] at h
  exact (List.mem_insertionSort _).1 (mem_pset_sub R _ _ h)

theorem touch_false {R : Rt K} (hE : R.IsExact) {s o : Seg K} {S : Set (Pt K)} (ha : Apart (1 / 10 ^ 5) S)
    (h1 : s.i ∈ S) (h2 : s.j ∈ S) (h3 : o.i ∈ S) (h4 : o.j ∈ S) (n1 : s.i ≠ o.i) (n2 : s.i ≠ o.j) (n3 : s.j ≠ o.i)
    (n4 : s.j ≠ o.j) : R.touch s o = false := by
  have hsub : ∀ (l : List (Pt K)) (q : Pt K), q ∈ R.pset l → q ∈ l := fun l q h => mem_pset_sub R l q h
  have hS : ∀ a ∈ [s.i, s.j], a ∈ S := by simp [h1, h2]
  have hO : ∀ a ∈ [o.i, o.j], a ∈ S := by simp [h3, h4]
  have hne : ∀ a ∈ [s.i, s.j], ∀ b ∈ [o.i, o.j], a ≠ b := by simp [n1, n2, n3, n4]
  rw [Bool.eq_false_iff]
  intro h
  unfold Rt.touch at h
  rw [Bool.or_eq_true, List.any_eq_true] at h
  simp only [List.any_eq_true, decide_eq_true_eq] at h
  rcases h with h | ⟨a, h5, b, h6, h⟩
  · obtain ⟨q, hq⟩ := List.length_eq_one_iff.1 h
    have hq' : q ∈ R.psetInter (R.pset [s.i, s.j]) (R.pset [o.i, o.j]) := by rw [hq]; simp
    unfold Rt.psetInter at hq'
    split_ifs at hq'
    · obtain ⟨m1, m2⟩ := List.mem_filter.1 hq'
      obtain ⟨r, m3, m4⟩ := List.any_eq_true.1 m2
      rw [Bool.and_eq_true] at m4
      exact hne q (hsub _ _ m1) r (hsub _ _ m3) (peq_eq hE ha (hO _ (hsub _ _ m3)) (hS _ (hsub _ _ m1)) m4.2).symm
    · obtain ⟨m1, m2⟩ := List.mem_filter.1 hq'
      obtain ⟨r, m3, m4⟩ := List.any_eq_true.1 m2
      rw [Bool.and_eq_true] at m4
      exact hne r (hsub _ _ m3) q (hsub _ _ m1) (peq_eq hE ha (hS _ (hsub _ _ m3)) (hO _ (hsub _ _ m1)) m4.2)
  · obtain ⟨hx, hy⟩ := far_lt hE h
    have e : (1 : K) / 10 ^ 8 ≤ 1 / 10 ^ 5 := by norm_num
    rcases ha a (hS a h5) b (hO b h6) (hne a h5 b h6) with h | h
    · exact absurd (hx.trans_le e) (not_lt.2 h)
    · exact absurd (hy.trans_le e) (not_lt.2 h)

theorem between_box {a b X : Pt K} (h : Between a b X) :
    min a.x b.x ≤ X.x ∧ X.x ≤ max a.x b.x ∧ min a.y b.y ≤ X.y ∧ X.y ≤ max a.y b.y := by
  obtain ⟨u, h0, h1, rfl⟩ := h
  have key : ∀ m n : K, min m n ≤ m + u * (n - m) ∧ m + u * (n - m) ≤ max m n := by
    intro m n
    rcases le_total m n with h | h
    · rw [min_eq_left h, max_eq_right h]
      constructor <;> nlinarith
    · rw [min_eq_right h, max_eq_left h]
      constructor <;> nlinarith
  exact ⟨(key _ _).1, (key _ _).2, (key _ _).1, (key _ _).2⟩

/-- the rounded crossing point is accepted iff the segments cross -/
theorem ios_iff_meet {R : Rt K} (hE : R.IsExact) {p t : Pt K} {s : Seg K} (ht : R.touch ⟨p, t, .line⟩ s = false)
    (hi : det3 p t s.i ≠ 0) (hc : Clear p t s) :
    R.intersectionOnSegment ⟨p, t, .line⟩ s = true ↔ Meet p t s := by
  unfold Rt.intersectionOnSegment
  rw [if_neg (by rw [ht]; simp)]
  cases hp : R.isParallel ⟨p, t, .line⟩ s with
  | true =>
    unfold Rt.intersectionPoint
    rw [if_pos hp]
    constructor
    · intro h; simp at h
    · rintro ⟨X, ⟨u, -, -, e1⟩, ⟨w, -, -, e2⟩⟩
      have h0 := (hE.isParallel_iff _ _).1 hp
      dsimp only at h0
      have d1 : det3 p t X = 0 := by rw [e1]; unfold det3 lerp; ring
      have d2 : det3 p t X = det3 p t s.i := by
        rw [e2]
        have : det3 p t (lerp s.i s.j w) = det3 p t s.i + w * ((t.x - p.x) * (s.j.y - s.i.y) - (t.y - p.y) * (s.j.x - s.i.x)) := by
          unfold det3 lerp; ring
        rw [this, h0]; ring
      exact absurd (d2.symm.trans d1) hi
  | false =>
    obtain ⟨q, hq, he, rx, ry⟩ := C12_correct hE ⟨p, t, .line⟩ s hp
    have hip : R.intersectionPoint ⟨p, t, .line⟩ s = some ⟨rhe8 q.x, rhe8 q.y⟩ := by
      unfold Rt.intersectionPointE at he
      unfold Rt.intersectionPoint
      rw [if_neg (by rw [hp]; simp)] at he ⊢
      split_ifs at he
      simpa using he
    rw [hip]
    obtain ⟨o1, o2⟩ := (hq q).2 rfl
    dsimp only at o1 o2 ⊢
    rw [Bool.and_eq_true, hE.isInternal_iff, hE.isInternal_iff]
    dsimp only
    rw [abs_le] at rx ry
    constructor
    · rintro ⟨⟨a1, a2, a3, a4⟩, ⟨b1, b2, b3, b4⟩⟩
      rcases hc q o1 o2 with h | h | h
      · exact ⟨q, h⟩
      · exfalso
        rcases h with h | h | h | h <;> linarith
      · exfalso
        rcases h with h | h | h | h <;> linarith
    · rintro ⟨X, h1, h2⟩
      have : X = q := by
        rw [← hq]
        obtain ⟨u, -, -, e1⟩ := h1
        obtain ⟨w, -, -, e2⟩ := h2
        exact ⟨⟨u, e1⟩, ⟨w, e2⟩⟩
      subst this
      obtain ⟨a1, a2, a3, a4⟩ := between_box h1
      obtain ⟨b1, b2, b3, b4⟩ := between_box h2
      have e : (0 : K) < 1 / 10 ^ 8 := by positivity
      refine ⟨⟨?_, ?_, ?_, ?_⟩, ?_, ?_, ?_, ?_⟩ <;> linarith

/-! ### the whole polygon -/

theorem sset_self {R : Rt K} (l : List (Seg K)) (h : l.Pairwise fun a b => R.seq a b = false) : R.sset l = l := by
  have key : ∀ (l d : List (Seg K)), (d ++ l).Pairwise (fun a b => R.seq a b = false) →
      l.foldl (fun d s => if R.smem s d then d else d ++ [s]) d = d ++ l := by
    intro l
    induction l with
    | nil => intro d _; simp
    | cons a l ih =>
      intro d h
      rw [List.foldl_cons]
      have hm : R.smem a d = false := by
        unfold Rt.smem
        rw [List.any_eq_false]
        intro o ho hc
        rw [Bool.and_eq_true] at hc
        have := (List.pairwise_append.1 h).2.2 o ho a List.mem_cons_self
        rw [this] at hc
        exact absurd hc.2 (by simp)
      rw [if_neg (by rw [hm]; simp), ih]
      · simp
      · simpa using h
  have := key l [] (by simpa using h)
  rw [List.nil_append] at this
  exact this

theorem sum_ind_eq_length {α : Type} (P : α → Prop) (f : α → Bool) (l : List α) (h : ∀ x ∈ l, (f x = true ↔ P x)) :
    (l.filter f).length = (l.map fun x => ind (P x)).sum := by
  induction l with
  | nil => simp
  | cons a l ih =>
    have h1 := ih fun x hx => h x (List.mem_cons_of_mem _ hx)
    rw [List.map_cons, List.sum_cons, ← h1]
    by_cases ha : f a = true
    · rw [List.filter_cons_of_pos ha, ind_true ((h a List.mem_cons_self).1 ha), List.length_cons, Nat.add_comm]
    · rw [List.filter_cons_of_neg ha, ind_false fun hp => ha ((h a List.mem_cons_self).2 hp), Nat.zero_add]

theorem seq_false {R : Rt K} (hE : R.IsExact) {l : List (Seg K)} {p t : Pt K} (hs : Spread l p t)
    (hnd : (l.map Seg.i).Nodup) : l.Pairwise fun a b => R.seq a b = false := by
  have h := List.pairwise_map.1 hnd
  refine h.imp_of_mem ?_
  intro a b ha hb hne
  rw [Bool.eq_false_iff]
  intro h
  unfold Rt.seq at h
  rw [Bool.and_eq_true, Bool.and_eq_true] at h
  exact hne (peq_eq hE hs (Or.inr (Or.inr ⟨a, ha, Or.inl rfl⟩)) (Or.inr (Or.inr ⟨b, hb, Or.inl rfl⟩)) h.1.2)

open Classical in
theorem crossCount_eq {R : Rt K} (hE : R.IsExact) {l : List (Seg K)} {p t : Pt K} (hs : Spread l p t)
    (hnd : (l.map Seg.i).Nodup) (hg : GoodTarget l p t) : R.crossCount l p t = meetCount l p t := by
  unfold Rt.crossCount meetCount
  rw [sset_self l (seq_false hE hs hnd)]
  congr 1
  apply List.filter_congr
  intro s hsl
  obtain ⟨d1, d2⟩ := hg.noVertex s hsl
  have hpi : p ≠ s.i := by rintro e; rw [← e, det3_self] at d1; exact d1 rfl
  have hpj : p ≠ s.j := by rintro e; rw [← e, det3_self] at d2; exact d2 rfl
  have hti : t ≠ s.i := by rintro e; rw [← e, det3_self'] at d1; exact d1 rfl
  have htj : t ≠ s.j := by rintro e; rw [← e, det3_self'] at d2; exact d2 rfl
  have ht := touch_false (R := R) (s := ⟨p, t, .line⟩) (o := s) hE hs (Or.inl rfl) (Or.inr (Or.inl rfl))
    (Or.inr (Or.inr ⟨s, hsl, Or.inl rfl⟩)) (Or.inr (Or.inr ⟨s, hsl, Or.inr rfl⟩)) hpi hpj hti htj
  rw [Bool.eq_iff_iff, ios_iff_meet hE ht d1 (hg.clear s hsl), decide_eq_true_eq]

open Classical in
theorem meetCount_eq_rayCount {l : List (Seg K)} {p t : Pt K} (hg : GoodTarget l p t) (hoff : ∀ s ∈ l, ¬ OnSeg s p) :
    meetCount l p t = rayCount p t l := by
  unfold meetCount rayCount
  apply sum_ind_eq_length
  intro s hs
  rw [decide_eq_true_eq, rayCross_iff_meet hg.right (hg.beyond s hs).1 (hg.beyond s hs).2 (hg.noVertex s hs).1
    (hg.noVertex s hs).2 (hoff s hs)]

/-- the answer of the first round, when the three counts agree modulo 2 -/
theorem plInternal_first {R : Rt K} {l : List (Seg K)} {p : Pt K} {ω : ℕ → Pt K} {fuel c : ℕ}
    (hp : (R.pointSet l).any (fun q => R.peq q p) = false) (h : ∀ k < 3, R.crossCount l p (ω k) % 2 = c % 2) :
    R.plInternal l p ω (fuel + 1) = some (decide (c % 2 = 1)) := by
  unfold plInternal
  rw [if_neg (by rw [hp]; simp)]
  unfold internalLoop
  have h0 := h 0 (by omega)
  have h1 := h 1 (by omega)
  have h2 := h 2 (by omega)
  dsimp only
  rw [if_pos ⟨by simp only [Nat.mul_zero, Nat.zero_add]; rw [h1, h0], by simp only [Nat.mul_zero, Nat.zero_add]; rw [h2, h0]⟩]
  simp only [Nat.mul_zero, Nat.zero_add, h0]

theorem not_vertex {R : Rt K} (hE : R.IsExact) {l : List (Seg K)} {p t : Pt K} (hs : Spread l p t) (hg : GoodTarget l p t) :
    (R.pointSet l).any (fun q => R.peq q p) = false := by
  rw [List.any_eq_false]
  intro q hq hc
  obtain ⟨s, hsl, hqs⟩ := mem_endPts'.1 ((mem_pointSet_sub R l q hq))
  have := peq_eq hE hs (Or.inr (Or.inr ⟨s, hsl, hqs⟩)) (Or.inl rfl) hc
  obtain ⟨d1, d2⟩ := hg.noVertex s hsl
  subst this
  rcases hqs with e | e
  · rw [← e, det3_self] at d1; exact d1 rfl
  · rw [← e, det3_self] at d2; exact d2 rfl

/-- C83: for a closed polygon and a point on none of its sides, `is_internal_point` gives the same answer in the first
round for all random targets in general position.  The answer is the parity of the number of sides met on the way to any
such target `t`. -/
theorem C83_target_independent {R : Rt K} (hE : R.IsExact) (l : List (Seg K)) (hc : ClosedChain l)
    (hnd : (l.map Seg.i).Nodup) (p : Pt K) (hoff : ∀ s ∈ l, ¬ OnSeg s p) (ω : ℕ → Pt K)
    (hω : ∀ k < 3, GoodTarget l p (ω k) ∧ Spread l p (ω k)) (t : Pt K) (ht : GoodTarget l p t) (fuel : ℕ) :
    R.plInternal l p ω (fuel + 1) = some (decide (meetCount l p t % 2 = 1)) := by
  apply plInternal_first
  · exact not_vertex hE (hω 0 (by omega)).2 (hω 0 (by omega)).1
  · intro k hk
    obtain ⟨g, sp⟩ := hω k hk
    rw [crossCount_eq hE sp hnd g, meetCount_eq_rayCount g hoff, meetCount_eq_rayCount ht hoff]
    exact rayCount_parity hc g.right ht.right ⟨g.noVertex, hoff⟩ ⟨ht.noVertex, hoff⟩

/-- C83: two evaluations with different random targets agree. -/
theorem C83_same_answer {R : Rt K} (hE : R.IsExact) (l : List (Seg K)) (hc : ClosedChain l)
    (hnd : (l.map Seg.i).Nodup) (p : Pt K) (hoff : ∀ s ∈ l, ¬ OnSeg s p) (ω ω' : ℕ → Pt K)
    (hω : ∀ k < 3, GoodTarget l p (ω k) ∧ Spread l p (ω k))
    (hω' : ∀ k < 3, GoodTarget l p (ω' k) ∧ Spread l p (ω' k)) (fuel : ℕ) :
    ∃ b, R.plInternal l p ω (fuel + 1) = some b ∧ R.plInternal l p ω' (fuel + 1) = some b ∧
      R.plExternal l p ω (fuel + 1) = some (!b) ∧ R.plOnBoundary l p ω ω' (fuel + 1) = some false := by
  have h1 := C83_target_independent hE l hc hnd p hoff ω hω (ω 0) (hω 0 (by omega)).1 fuel
  have h2 := C83_target_independent hE l hc hnd p hoff ω' hω' (ω 0) (hω 0 (by omega)).1 fuel
  refine ⟨_, h1, h2, ?_, ?_⟩
  · unfold plExternal; rw [h1]; rfl
  · unfold plOnBoundary plExternal
    rw [h1, h2]
    cases decide (meetCount l p (ω 0) % 2 = 1) <;> rfl

/-- what the loop returns: the parity of a round whose three counts agree -/
theorem internalLoop_some {R : Rt K} {l : List (Seg K)} {p : Pt K} {ω : ℕ → Pt K} {b : Bool} : ∀ {fuel k : ℕ},
    R.internalLoop l p ω fuel k = some b →
    ∃ m, k ≤ m ∧ m < k + fuel ∧ ∀ i < 3, decide (R.crossCount l p (ω (3 * m + i)) % 2 = 1) = b := by
  intro fuel
  induction fuel with
  | zero => intro k h; unfold internalLoop at h; cases h
  | succ fuel ih =>
    intro k h
    unfold internalLoop at h
    dsimp only at h
    split_ifs at h with hc
    · refine ⟨k, le_refl _, by omega, ?_⟩
      intro i hi
      rw [← Option.some.inj h, decide_eq_decide]
      have : i = 0 ∨ i = 1 ∨ i = 2 := by omega
      rcases this with rfl | rfl | rfl
      · rfl
      · rw [hc.1]
      · rw [hc.2]
    · obtain ⟨m, h1, h2, h3⟩ := ih h
      exact ⟨m, by omega, by omega, h3⟩

/-- the loop has ended after a round whose three counts agree -/
theorem internalLoop_isSome {R : Rt K} {l : List (Seg K)} {p : Pt K} {ω : ℕ → Pt K} : ∀ {fuel k m : ℕ}, k ≤ m →
    m < k + fuel → (∀ i < 3, R.crossCount l p (ω (3 * m + i)) % 2 = R.crossCount l p (ω (3 * m)) % 2) →
    ∃ b, R.internalLoop l p ω fuel k = some b := by
  intro fuel
  induction fuel with
  | zero => intro k m h1 h2 _; omega
  | succ fuel ih =>
    intro k m h1 h2 h3
    unfold internalLoop
    dsimp only
    split_ifs with hc
    · exact ⟨_, rfl⟩
    · by_cases e : k = m
      · subst e
        exact absurd ⟨h3 1 (by omega), h3 2 (by omega)⟩ hc
      · exact ih (by omega) (by omega) h3

/-- C83: it is enough that in every round one of the three targets is in general position.  Whatever the others are,
`is_internal_point` can only return the parity of the number of sides met on the way to a target in general position:
a round whose counts disagree is repeated. -/
theorem C83_one_good {R : Rt K} (hE : R.IsExact) (l : List (Seg K)) (hc : ClosedChain l)
    (hnd : (l.map Seg.i).Nodup) (p : Pt K) (hoff : ∀ s ∈ l, ¬ OnSeg s p) (ω : ℕ → Pt K)
    (hω : ∀ m, ∃ i < 3, GoodTarget l p (ω (3 * m + i)) ∧ Spread l p (ω (3 * m + i))) (t : Pt K)
    (ht : GoodTarget l p t) (fuel : ℕ) (b : Bool) (h : R.plInternal l p ω fuel = some b) :
    b = decide (meetCount l p t % 2 = 1) := by
  obtain ⟨i0, -, g0, s0⟩ := hω 0
  unfold plInternal at h
  rw [if_neg (by rw [not_vertex hE s0 g0]; simp)] at h
  obtain ⟨m, -, -, hm⟩ := internalLoop_some h
  obtain ⟨i, hi, g, sp⟩ := hω m
  rw [← hm i hi, decide_eq_decide, crossCount_eq hE sp hnd g, meetCount_eq_rayCount g hoff, meetCount_eq_rayCount ht hoff,
    rayCount_parity hc g.right ht.right ⟨g.noVertex, hoff⟩ ⟨ht.noVertex, hoff⟩]

/-- C83: the loop ends with the first round of three targets in general position, at the latest. -/
theorem C83_ends {R : Rt K} (hE : R.IsExact) (l : List (Seg K)) (hc : ClosedChain l)
    (hnd : (l.map Seg.i).Nodup) (p : Pt K) (hoff : ∀ s ∈ l, ¬ OnSeg s p) (ω : ℕ → Pt K) (m : ℕ)
    (hω : ∀ i < 3, GoodTarget l p (ω (3 * m + i)) ∧ Spread l p (ω (3 * m + i))) (fuel : ℕ) (hf : m < fuel) :
    ∃ b, R.plInternal l p ω fuel = some b := by
  unfold plInternal
  obtain ⟨g0, s0⟩ := hω 0 (by omega)
  rw [if_neg (by rw [not_vertex hE s0 g0]; simp)]
  refine internalLoop_isSome (Nat.zero_le m) (by omega) ?_
  intro i hi
  obtain ⟨g, sp⟩ := hω i hi
  rw [Nat.add_zero] at g0 s0
  rw [crossCount_eq hE sp hnd g, meetCount_eq_rayCount g hoff, crossCount_eq hE s0 hnd g0, meetCount_eq_rayCount g0 hoff]
  exact rayCount_parity hc g.right g0.right ⟨g.noVertex, hoff⟩ ⟨g0.noVertex, hoff⟩

/-- C83 (any arithmetic): the loop never ends if two targets of every round disagree; nothing bounds the number of
rounds. -/
theorem C83_may_not_end {R : Rt K} (l : List (Seg K)) (p t u : Pt K)
    (hp : (R.pointSet l).any (fun q => R.peq q p) = false)
    (h : R.crossCount l p t % 2 ≠ R.crossCount l p u % 2) (fuel : ℕ) :
    R.plInternal l p (fun n => if n % 3 = 0 then t else u) fuel = none := by
  unfold plInternal
  rw [if_neg (by rw [hp]; simp)]
  cases hx : R.internalLoop l p (fun n => if n % 3 = 0 then t else u) fuel 0 with
  | none => rfl
  | some b =>
    obtain ⟨m, -, -, hm⟩ := internalLoop_some hx
    have h0 := hm 0 (by omega)
    have h1 := hm 1 (by omega)
    simp only [Nat.add_zero, Nat.mul_mod_right, if_true] at h0
    rw [if_neg (by omega)] at h1
    rw [← h1, decide_eq_decide] at h0
    exact absurd (by omega) h

/-- C83_may_not_end in binary64: from the centre of the square with corners (1, 1) and (3, 3), the targets (6, 6), exactly
behind a corner, and (9, 5) disagree -/
example : ∀ fuel, exRt.plInternal [exSeg 1 1 3 1, exSeg 3 1 3 3, exSeg 3 3 1 3, exSeg 1 3 1 1] ⟨2, 2⟩
    (fun n => if n % 3 = 0 then ⟨6, 6⟩ else ⟨9, 5⟩) fuel = none :=
  C83_may_not_end _ _ _ _ (by decide +kernel) (by decide +kernel)

/-! ### convex polygons -/

theorem not_onSeg_of_inside {l : List (Seg K)} {p : Pt K} (h : InsideCcw l p) : ∀ s ∈ l, ¬ OnSeg s p := by
  rintro s hs ⟨u, -, -, e⟩
  have := h s hs
  rw [e] at this
  have e : det3 s.i s.j (lerp s.i s.j u) = 0 := by unfold det3 lerp; ring
  rw [e] at this
  exact lt_irrefl _ this

theorem not_onSeg_of_outside {l : List (Seg K)} (c : ConvexCcw l) {p : Pt K} (h : OutsideCcw l p) : ∀ s ∈ l, ¬ OnSeg s p := by
  rintro s hs ⟨u, u0, u1, e⟩
  obtain ⟨o, ho, hn⟩ := h
  rw [e, det3_lerp] at hn
  obtain ⟨n1, n2⟩ := c.nonneg ho hs
  have := mul_nonneg (by linarith : 0 ≤ 1 - u) n1
  have := mul_nonneg u0 n2
  linarith

/-- C84: for a strictly convex counter-clockwise polygon and targets in general position, `is_internal_point` returns
True for every point strictly inside. -/
theorem C84_inside {R : Rt K} (hE : R.IsExact) (l : List (Seg K)) (hc : ConvexCcw l) (hne : l ≠ []) (p : Pt K)
    (hp : InsideCcw l p) (ω : ℕ → Pt K) (hω : ∀ k < 3, GoodTarget l p (ω k) ∧ Spread l p (ω k)) (fuel : ℕ) :
    R.plInternal l p ω (fuel + 1) = some true ∧ R.plExternal l p ω (fuel + 1) = some false := by
  have hoff := not_onSeg_of_inside hp
  have g := (hω 0 (by omega)).1
  have h := C83_target_independent hE l hc.chain hc.nodup p hoff ω hω (ω 0) g fuel
  rw [meetCount_eq_rayCount g hoff, rayCount_inside hc hne g.right g.noVertex hp] at h
  exact ⟨h, by unfold plExternal; rw [h]; rfl⟩

/-- C84: … and False for every point strictly outside. -/
theorem C84_outside {R : Rt K} (hE : R.IsExact) (l : List (Seg K)) (hc : ConvexCcw l) (p : Pt K)
    (hp : OutsideCcw l p) (ω : ℕ → Pt K) (hω : ∀ k < 3, GoodTarget l p (ω k) ∧ Spread l p (ω k)) (fuel : ℕ) :
    R.plInternal l p ω (fuel + 1) = some false ∧ R.plExternal l p ω (fuel + 1) = some true := by
  have hoff := not_onSeg_of_outside hc hp
  have g := (hω 0 (by omega)).1
  have h := C83_target_independent hE l hc.chain hc.nodup p hoff ω hω (ω 0) g fuel
  rw [meetCount_eq_rayCount g hoff, rayCount_outside hc g.noVertex hp] at h
  exact ⟨h, by unfold plExternal; rw [h]; rfl⟩

/-! clockwise polygons -/

theorem between_symm {a b X : Pt K} : Between a b X ↔ Between b a X := by
  have key : ∀ {a b : Pt K}, Between a b X → Between b a X := by
    rintro a b ⟨u, h0, h1, rfl⟩
    refine ⟨1 - u, by linarith, by linarith, ?_⟩
    unfold lerp
    congr 1 <;> ring
  exact ⟨key, key⟩

theorem onLine_symm {a b X : Pt K} : OnLine a b X ↔ OnLine b a X := by
  have key : ∀ {a b : Pt K}, OnLine a b X → OnLine b a X := by
    rintro a b ⟨u, rfl⟩
    refine ⟨1 - u, ?_⟩
    unfold lerp
    congr 1 <;> ring
  exact ⟨key, key⟩

theorem mem_oppositeWay {l : List (Seg K)} {s : Seg K} : s ∈ oppositeWay l ↔ ⟨s.j, s.i, s.cls⟩ ∈ l := by
  unfold oppositeWay
  rw [List.mem_map]
  constructor
  · rintro ⟨o, ho, rfl⟩; exact List.mem_reverse.1 ho
  · intro h; exact ⟨_, List.mem_reverse.2 h, rfl⟩

theorem meet_flip (p t : Pt K) (s : Seg K) : Meet p t ⟨s.j, s.i, s.cls⟩ ↔ Meet p t s := by
  unfold Meet OnSeg
  simp only [between_symm (a := s.j) (b := s.i)]

theorem GoodTarget.flip {l : List (Seg K)} {p t : Pt K} (h : GoodTarget l p t) : GoodTarget (oppositeWay l) p t where
  right := h.right
  beyond := fun s hs => (h.beyond _ (mem_oppositeWay.1 hs)).symm
  noVertex := fun s hs => (h.noVertex _ (mem_oppositeWay.1 hs)).symm
  clear := by
    intro s hs X h1 h2
    rcases h.clear _ (mem_oppositeWay.1 hs) X h1 (onLine_symm.1 h2) with ⟨h, h'⟩ | h | h
    · exact Or.inl ⟨h, between_symm.1 h'⟩
    · exact Or.inr (Or.inl h)
    · refine Or.inr (Or.inr ?_)
      unfold FarFromBox at h ⊢
      rw [min_comm s.i.x, max_comm s.i.x, min_comm s.i.y, max_comm s.i.y]
      exact h

theorem meetCount_flip (l : List (Seg K)) (p t : Pt K) : meetCount (oppositeWay l) p t = meetCount l p t := by
  unfold meetCount oppositeWay
  rw [List.filter_map, List.length_map, ← List.length_reverse, ← List.filter_reverse, List.reverse_reverse]
  congr 2
  funext s
  exact decide_eq_decide.2 (meet_flip p t s)

theorem nodup_of_oppositeWay {l : List (Seg K)} (hc : ClosedChain (oppositeWay l)) (h : ((oppositeWay l).map Seg.i).Nodup) :
    (l.map Seg.i).Nodup := by
  have h1 := (closedChain_perm hc).nodup_iff.2 h
  have e : (oppositeWay l).map Seg.j = (l.map Seg.i).reverse := by
    unfold oppositeWay
    rw [List.map_map, ← List.map_reverse]
    rfl
  rw [e] at h1
  exact List.nodup_reverse.1 h1

/-- C84, clockwise: the same for a strictly convex polygon that becomes counter-clockwise when it is passed in the
opposite direction. -/
theorem C84_clockwise {R : Rt K} (hE : R.IsExact) (l : List (Seg K)) (hc : ConvexCcw (oppositeWay l)) (hne : l ≠ []) (p : Pt K)
    (ω : ℕ → Pt K) (hω : ∀ k < 3, GoodTarget l p (ω k) ∧ Spread l p (ω k)) (fuel : ℕ) :
    (InsideCcw (oppositeWay l) p → R.plInternal l p ω (fuel + 1) = some true) ∧
    (OutsideCcw (oppositeWay l) p → R.plInternal l p ω (fuel + 1) = some false) := by
  have hnd := nodup_of_oppositeWay hc.chain hc.nodup
  have h0 := hω 0 (by omega)
  have hv := not_vertex hE h0.2 h0.1
  have hne' : oppositeWay l ≠ [] := by
    intro e
    unfold oppositeWay at e
    simp at e
    exact hne e
  constructor
  · intro hp
    apply plInternal_first (c := 1) hv
    intro k hk
    obtain ⟨g, sp⟩ := hω k hk
    rw [crossCount_eq hE sp hnd g, ← meetCount_flip, meetCount_eq_rayCount g.flip (not_onSeg_of_inside hp),
      rayCount_inside hc hne' g.right g.flip.noVertex hp]
  · intro hp
    apply plInternal_first (c := 0) hv
    intro k hk
    obtain ⟨g, sp⟩ := hω k hk
    rw [crossCount_eq hE sp hnd g, ← meetCount_flip, meetCount_eq_rayCount g.flip (not_onSeg_of_outside hc hp),
      rayCount_outside hc g.flip.noVertex hp]

/-! ### a concrete case -/

/-- the square with corners (1, 1) and (2, 2) -/
def sq12 : List (Seg ℝ) :=
  [⟨⟨1, 1⟩, ⟨2, 1⟩, .line⟩, ⟨⟨2, 1⟩, ⟨2, 2⟩, .line⟩, ⟨⟨2, 2⟩, ⟨1, 2⟩, .line⟩, ⟨⟨1, 2⟩, ⟨1, 1⟩, .line⟩]

theorem sq12_convex : ConvexCcw sq12 where
  chain := by
    intro k hk
    have : k < 4 := hk
    interval_cases k <;> rfl
  nodup := by simp [sq12]
  left := by
    intro s hs o ho
    simp only [sq12, List.mem_cons, List.not_mem_nil, or_false] at hs ho
    rcases hs with rfl | rfl | rfl | rfl <;> rcases ho with rfl | rfl | rfl | rfl <;> norm_num [det3]

/-- non-vacuity: the target (11, 5) is admissible and in general position for the centre of the square -/
theorem sq12_good : ConvexCcw sq12 ∧ InsideCcw sq12 ⟨3/2, 3/2⟩ ∧ OutsideCcw sq12 ⟨1/2, 3/2⟩ ∧ exReal.Target sq12 ⟨11, 5⟩ ∧
    GoodTarget sq12 ⟨3/2, 3/2⟩ ⟨11, 5⟩ ∧ Spread sq12 ⟨3/2, 3/2⟩ ⟨11, 5⟩ := by
  refine ⟨sq12_convex, ?_, ?_, ?_, ⟨by norm_num, ?_, ?_, ?_⟩, ?_⟩
  · intro s hs
    simp only [sq12, List.mem_cons, List.not_mem_nil, or_false] at hs
    rcases hs with rfl | rfl | rfl | rfl <;> norm_num [det3]
  · exact ⟨⟨⟨1, 2⟩, ⟨1, 1⟩, .line⟩, by simp [sq12], by norm_num [det3]⟩
  · have hb : (boundingBox sq12).1.2 = 2 ∧ (boundingBox sq12).2.2 = 2 := by
      unfold boundingBox sq12
      norm_num
    have hg : ∀ n : ℤ, rhe8 (n : ℝ) = n := by
      intro n
      have := rhe8_grid (K := ℝ) (n * 10 ^ 8)
      push_cast at this
      rw [mul_div_assoc, show (100000000 : ℝ) / 10 ^ 8 = 1 by norm_num, mul_one] at this
      exact this
    refine ⟨11, 5, ?_⟩
    dsimp only
    rw [hb.1, hb.2, exReal_isExact.mul', exReal_isExact.mul']
    refine ⟨?_, ?_, ?_, ?_, ?_⟩
    · norm_num
    · norm_num
    · norm_num
    · norm_num
    · rw [exReal_isExact.mkPt']
      have h1 := hg 11
      have h2 := hg 5
      push_cast at h1 h2
      rw [h1, h2]
  · intro s hs
    simp only [sq12, List.mem_cons, List.not_mem_nil, or_false] at hs
    rcases hs with rfl | rfl | rfl | rfl <;> norm_num
  · intro s hs
    simp only [sq12, List.mem_cons, List.not_mem_nil, or_false] at hs
    rcases hs with rfl | rfl | rfl | rfl <;> norm_num [det3]
  · intro s hs X h1 h2
    obtain ⟨u, rfl⟩ := h1
    obtain ⟨w, e⟩ := h2
    have ex := congrArg Pt.x e
    have ey := congrArg Pt.y e
    simp only [sq12, List.mem_cons, List.not_mem_nil, or_false] at hs
    unfold lerp at ex ey
    rcases hs with rfl | rfl | rfl | rfl <;> dsimp only at ex ey
    · right; left; left
      unfold lerp
      have : u = -1/7 := by linarith
      norm_num [this]
    · left
      have hu : u = 1/19 := by linarith
      have hw : w = 13/19 := by rw [hu] at ey; linarith
      refine ⟨⟨u, by norm_num [hu], by norm_num [hu], rfl⟩, ⟨w, by norm_num [hw], by norm_num [hw], e⟩⟩
    · right; right; right; left
      have hu : u = 1/7 := by linarith
      unfold lerp
      norm_num [hu]
    · right; left; left
      have hu : u = -1/19 := by linarith
      unfold lerp
      norm_num [hu]
  · intro a ha b hb hne
    have key : ∀ q : Pt ℝ, (q = ⟨3/2, 3/2⟩ ∨ q = ⟨11, 5⟩ ∨ ∃ s ∈ sq12, q = s.i ∨ q = s.j) →
        q = ⟨3/2, 3/2⟩ ∨ q = ⟨11, 5⟩ ∨ q = ⟨1, 1⟩ ∨ q = ⟨2, 1⟩ ∨ q = ⟨2, 2⟩ ∨ q = ⟨1, 2⟩ := by
      rintro q (h | h | ⟨s, hs, h⟩)
      · simp [h]
      · simp [h]
      · simp only [sq12, List.mem_cons, List.not_mem_nil, or_false] at hs
        rcases hs with rfl | rfl | rfl | rfl <;> rcases h with rfl | rfl <;> simp
    rcases key a ha with rfl | rfl | rfl | rfl | rfl | rfl <;> rcases key b hb with rfl | rfl | rfl | rfl | rfl | rfl <;>
      first
        | exact absurd rfl hne
        | (left; norm_num [abs_of_pos, abs_of_neg]; done)
        | (right; norm_num [abs_of_pos, abs_of_neg]; done)
        | (left; rw [le_abs]; first | (left; norm_num; done) | (right; norm_num; done))
        | (right; rw [le_abs]; first | (left; norm_num; done) | (right; norm_num; done))

/-! ### C85: degenerate targets -/

/-- C85 (the random choice disappears): when both upper bounds of the bounding box are 0, every random target is the
origin, so all three control lines are the same. -/
theorem C85_zero_box {R : Rt K} (hR : R.IsRounding) (l : List (Seg K)) (hx : (boundingBox l).1.2 = 0)
    (hy : (boundingBox l).2.2 = 0) (t : Pt K) : R.Target l t ↔ t = ⟨0, 0⟩ := by
  have h0 : R.mul 500 0 = 0 := by unfold Rt.mul; rw [mul_zero, hR.zero]
  have h1 : R.mul 30 0 = 0 := by unfold Rt.mul; rw [mul_zero, hR.zero]
  have hm : R.mkPt 0 0 = (⟨0, 0⟩ : Pt K) := by
    have := hR.coord_neg 0
    rw [neg_zero] at this
    have e : R.coord 0 = 0 := by linarith
    unfold Rt.mkPt
    rw [e]
  unfold Target
  dsimp only
  rw [hx, hy, h0, h1]
  simp only [min_self, max_self]
  constructor
  · rintro ⟨u, v, u1, u2, v1, v2, rfl⟩
    rw [le_antisymm u2 u1, le_antisymm v2 v1, hm]
  · rintro rfl
    exact ⟨0, 0, le_refl _, le_refl _, le_refl _, le_refl _, hm.symm⟩

/-- C85: in general the targets are exactly the rounded points of the box between the upper bounds and their multiples. -/
theorem C85_targets {R : Rt K} (hE : R.IsExact) (l : List (Seg K)) (hx : 0 < (boundingBox l).1.2)
    (hy : 0 < (boundingBox l).2.2) (t : Pt K) :
    R.Target l t ↔ ∃ u v : K, (boundingBox l).1.2 ≤ u ∧ u ≤ 500 * (boundingBox l).1.2 ∧ (boundingBox l).2.2 ≤ v ∧
      v ≤ 30 * (boundingBox l).2.2 ∧ t = ⟨rhe8 u, rhe8 v⟩ := by
  unfold Target
  dsimp only
  rw [hE.mul', hE.mul', min_eq_left (by linarith), max_eq_right (by linarith), min_eq_left (by linarith),
    max_eq_right (by linarith)]
  simp only [hE.mkPt']

/-- C85: with a negative upper bound in x the targets lie to the left of the right end of the polygon. -/
theorem C85_negative {R : Rt K} (hE : R.IsExact) (l : List (Seg K)) (hx : (boundingBox l).1.2 < 0) (t : Pt K)
    (h : R.Target l t) : t.x ≤ rhe8 (boundingBox l).1.2 := by
  obtain ⟨u, v, h1, h2, -, -, rfl⟩ := h
  rw [hE.mul', max_eq_left (by linarith)] at h2
  rw [hE.mkPt']
  exact rhe8_mono h2

/-- C85 (the documented meaning fails): for the valid closed square with corners (-1, -1) and (0, 0) the centre is
reported external, for all admissible random targets (binary64). -/
theorem C85_centre_external : ∃ (l : List (Seg ℚ)) (p : Pt ℚ), exRt.plValid l = true ∧ exRt.isClosed l = .ok true ∧
    ConvexCcw l ∧ InsideCcw l p ∧
    ∀ (ω : ℕ → Pt ℚ) (fuel : ℕ), (∀ k, exRt.Target l (ω k)) → exRt.plInternal l p ω (fuel + 1) = some false := by
  refine ⟨[exSeg (-1) (-1) 0 (-1), exSeg 0 (-1) 0 0, exSeg 0 0 (-1) 0, exSeg (-1) 0 (-1) (-1)], exRt.mkPt (-1/2) (-1/2),
    by decide +kernel, by decide +kernel, ⟨by unfold ClosedChain; decide +kernel, by decide +kernel, by decide +kernel⟩, by unfold InsideCcw; decide +kernel, ?_⟩
  intro ω fuel h
  have h0 : ∀ k, ω k = ⟨0, 0⟩ := fun k =>
    (C85_zero_box exRt_isRounding _ (by decide +kernel) (by decide +kernel) _).1 (h k)
  apply plInternal_first (c := 0)
  · decide +kernel
  · intro k _
    rw [h0]
    decide +kernel

end Srep
