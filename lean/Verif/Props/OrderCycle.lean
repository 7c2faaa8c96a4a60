import Verif.Spec.Geom
import Verif.Props.Order
import Mathlib.Data.ZMod.Basic

/-! Property C76 (and the cycle part of C49): `order()` restores every shuffled and partly reversed cycle. -/

set_option linter.unusedSectionVars false

namespace Srep
variable {K : Type} [Field K] [LinearOrder K] [IsStrictOrderedRing K] [FloorRing K]

/-- The segments `segs` are the sides of a closed walk through the `n` different points `p 0, …, p (n-1)`
(indices modulo `n`): side `σ k` joins `p k` and `p (k+1)`, in either direction, and `segs` lists the sides in
any order. -/
structure IsCycleOf (h : Heap K) (segs : List ℕ) (n : ℕ) (p : ZMod n → Pt K) (σ : ZMod n → ℕ) : Prop where
  three : 3 ≤ n
  pinj : Function.Injective p
  sinj : Function.Injective σ
  nodup : segs.Nodup
  mem : ∀ s, s ∈ segs ↔ ∃ k, s = σ k
  ends : ∀ k, ((h.val (σ k)).i = p k ∧ (h.val (σ k)).j = p (k + 1)) ∨
    ((h.val (σ k)).i = p (k + 1) ∧ (h.val (σ k)).j = p k)

section
variable {R : Rt K} {h0 h : Heap K} {segs : List ℕ} {n : ℕ} {p : ZMod n → Pt K} {σ : ZMod n → ℕ}

theorem IsCycleOf.length (c : IsCycleOf h0 segs n p σ) : segs.length = n := by
  classical
  haveI : NeZero n := ⟨by have := c.three; omega⟩
  have h1 : segs.toFinset = Finset.univ.image σ := by
    ext s; simp [c.mem, eq_comm]
  have h2 := List.toFinset_card_of_nodup c.nodup
  rw [h1, Finset.card_image_of_injective _ c.sinj, Finset.card_univ, ZMod.card] at h2
  exact h2.symm

theorem IsCycleOf.two_ne (c : IsCycleOf h0 segs n p σ) : (2 : ZMod n) ≠ 0 := by
  intro h
  have : ((2 : ℕ) : ZMod n) = 0 := by exact_mod_cast h
  rw [ZMod.natCast_eq_zero_iff] at this
  have := Nat.le_of_dvd (by omega) this
  have := c.three
  omega

theorem IsCycleOf.one_ne (c : IsCycleOf h0 segs n p σ) : (1 : ZMod n) ≠ 0 := by
  intro h
  apply c.two_ne
  have : (2 : ZMod n) = 1 + 1 := by norm_num
  rw [this, h]; simp

/-- the same walk started at another side and, if need be, in the other direction -/
theorem IsCycleOf.normalise (c : IsCycleOf h0 segs n p σ) {a : ℕ} (ha : a ∈ segs) :
    ∃ (p' : ZMod n → Pt K) (σ' : ZMod n → ℕ), IsCycleOf h0 segs n p' σ' ∧ a = σ' 0 ∧
      (h0.val a).i = p' 0 ∧ (h0.val a).j = p' 1 ∧ Set.range p' = Set.range p := by
  obtain ⟨m, rfl⟩ := (c.mem a).1 ha
  rcases c.ends m with ⟨h1, h2⟩ | ⟨h1, h2⟩
  · refine ⟨fun k => p (m + k), fun k => σ (m + k), ?_, by simp, by simpa using h1, by simpa using h2, ?_⟩
    · refine ⟨c.three, ?_, ?_, c.nodup, ?_, ?_⟩
      · intro k l e; exact add_left_cancel (c.pinj e)
      · intro k l e; exact add_left_cancel (c.sinj e)
      · intro s
        rw [c.mem]
        constructor
        · rintro ⟨k, rfl⟩; exact ⟨k - m, by simp⟩
        · rintro ⟨k, rfl⟩; exact ⟨_, rfl⟩
      · intro k
        have := c.ends (m + k)
        rw [add_assoc] at this
        exact this
    · ext q; constructor
      · rintro ⟨k, rfl⟩; exact ⟨_, rfl⟩
      · rintro ⟨k, rfl⟩; exact ⟨k - m, by simp⟩
  · refine ⟨fun k => p (m + 1 - k), fun k => σ (m - k), ?_, by simp, by simpa using h1, ?_, ?_⟩
    · refine ⟨c.three, ?_, ?_, c.nodup, ?_, ?_⟩
      · intro k l e; exact sub_right_injective (c.pinj e)
      · intro k l e; exact sub_right_injective (c.sinj e)
      · intro s
        rw [c.mem]
        constructor
        · rintro ⟨k, rfl⟩; exact ⟨m - k, by simp⟩
        · rintro ⟨k, rfl⟩; exact ⟨_, rfl⟩
      · intro k
        have := c.ends (m - k)
        have e1 : m - k + 1 = m + 1 - k := by ring
        have e2 : m + 1 - (k + 1) = m - k := by ring
        simp only [e2]
        rw [e1] at this
        exact this.symm
    · simpa using h2
    · ext q; constructor
      · rintro ⟨k, rfl⟩; exact ⟨_, rfl⟩
      · rintro ⟨k, rfl⟩; exact ⟨m + 1 - k, by simp⟩

/-- memory and list after `t` rounds on a cycle -/
structure Walk (h0 : Heap K) (segs : List ℕ) (n : ℕ) (p : ZMod n → Pt K) (σ : ZMod n → ℕ) (h : Heap K)
    (ret : List ℕ) (t : ℕ) : Prop where
  inv : OrderInv h0 segs h ret
  oriented : ∀ m : ℕ, m ≤ t → (h.val (σ m)).i = p m ∧ (h.val (σ m)).j = p (m + 1)
  ret : ret = (List.range (min t n)).map fun m : ℕ => σ ((m + 1 : ℕ) : ZMod n)

theorem Walk.ends {ret : List ℕ} {t : ℕ} (c : IsCycleOf h0 segs n p σ) (w : Walk h0 segs n p σ h ret t)
    (k : ZMod n) : ((h.val (σ k)).i = p k ∧ (h.val (σ k)).j = p (k + 1)) ∨
    ((h.val (σ k)).i = p (k + 1) ∧ (h.val (σ k)).j = p k) := by
  rcases w.inv.val (σ k) with e | e <;> rw [e]
  · exact c.ends k
  · exact (c.ends k).symm.imp (fun ⟨a, b⟩ => ⟨b, a⟩) (fun ⟨a, b⟩ => ⟨b, a⟩)

theorem Walk.val_inj {ret : List ℕ} {t : ℕ} (c : IsCycleOf h0 segs n p σ)
    (w : Walk h0 segs n p σ h ret t) {k l : ZMod n} (e : h.val (σ k) = h.val (σ l)) : k = l := by
  have hk := w.ends c k
  have hl := w.ends c l
  rw [e] at hk
  have two : ∀ a b : ZMod n, a + 1 = b → a = b + 1 → False := by
    intro a b h1 h2
    apply c.two_ne
    have h3 : a + 1 + 1 = a := by rw [h1, ← h2]
    have h4 : a + 2 = a + 0 := by
      have : a + 2 = a + 1 + 1 := by ring
      rw [this, h3, add_zero]
    exact add_left_cancel h4
  rcases hk with ⟨a1, a2⟩ | ⟨a1, a2⟩ <;> rcases hl with ⟨b1, b2⟩ | ⟨b1, b2⟩
  · exact c.pinj (a1.symm.trans b1)
  · exact (two _ _ (c.pinj (a2.symm.trans b2)) (c.pinj (a1.symm.trans b1))).elim
  · exact (two _ _ (c.pinj (a1.symm.trans b1)) (c.pinj (a2.symm.trans b2))).elim
  · exact c.pinj (a2.symm.trans b2)

theorem find?_unique {α : Type} {l : List α} {f : α → Bool} {x : α} (hx : x ∈ l) (hf : f x = true)
    (hu : ∀ y ∈ l, f y = true → y = x) : l.find? f = some x := by
  cases h : l.find? f with
  | none => exact absurd hf (List.find?_eq_none.1 h x hx)
  | some y => rw [hu y (List.mem_of_find?_eq_some h) (List.find?_some h)]

/-- one round on a cycle: the next side is found, turned if need be, and appended if new -/
theorem Walk.step (hR : R.IsRounding) (c : IsCycleOf h0 segs n p σ) (hsep : R.Sep (endPts (h0.vals segs)))
    {ret : List ℕ} {t e : ℕ} (w : Walk h0 segs n p σ h ret t) (he : h.pt e = p (t + 1)) :
    ∃ flip, R.orderNext segs h (σ t) e = some (σ ((t + 1 : ℕ) : ZMod n), flip) ∧
      Walk h0 segs n p σ (R.orderAdd h ret (σ ((t + 1 : ℕ) : ZMod n)) flip).1
        (R.orderAdd h ret (σ ((t + 1 : ℕ) : ZMod n)) flip).2 (t + 1) := by
  have hmem : ∀ k, σ k ∈ segs := fun k => (c.mem _).2 ⟨k, rfl⟩
  have hvE : ∀ k, (h.val (σ k)).i ∈ endPts (h0.vals segs) ∧ (h.val (σ k)).j ∈ endPts (h0.vals segs) :=
    fun k => w.inv.mem_ends (hmem k)
  have heE : h.pt e ∈ endPts (h0.vals segs) := by
    rw [he, ← (w.oriented t le_rfl).2]; exact (hvE t).2
  have hi : ∀ k, R.peq (h.pt (h.seg (σ k)).i) (h.pt e) = true ↔ (h.val (σ k)).i = p (t + 1) := by
    intro k; rw [← he]; exact hsep.peq_iff hR (hvE k).1 heE
  have hj : ∀ k, R.peq (h.pt (h.seg (σ k)).j) (h.pt e) = true ↔ (h.val (σ k)).j = p (t + 1) := by
    intro k; rw [← he]; exact hsep.peq_iff hR (hvE k).2 heE
  have hseq : ∀ k l, R.seq (h.val (σ k)) (h.val (σ l)) = true ↔ k = l := by
    intro k l
    rw [w.inv.seq_iff hR hsep (hmem k) (hmem l)]
    exact ⟨w.val_inj c, fun e => by rw [e]⟩
  have hcast : ((t + 1 : ℕ) : ZMod n) = (t : ZMod n) + 1 := by push_cast; ring
  have hne : (t : ZMod n) + 1 ≠ t := by
    intro h; apply c.one_ne
    have : (t : ZMod n) + 1 = t + 0 := by rw [h]; simp
    exact add_left_cancel this
  have hx2 : ∀ k, ((h.val (σ k)).i = p (t + 1) ∨ (h.val (σ k)).j = p (t + 1)) → k = t ∨ k = (t : ZMod n) + 1 := by
    intro k hk
    rcases w.ends c k with ⟨a1, a2⟩ | ⟨a1, a2⟩ <;> rcases hk with hk | hk
    · right; exact c.pinj (a1.symm.trans hk)
    · left; exact add_right_cancel (c.pinj (a2.symm.trans hk))
    · left; exact add_right_cancel (c.pinj (a1.symm.trans hk))
    · right; exact c.pinj (a2.symm.trans hk)
  have hfresh : t < n → R.inSegs h (σ ((t + 1 : ℕ) : ZMod n)) ret = false := by
    intro htn
    rw [Bool.eq_false_iff]
    intro hc
    unfold Rt.inSegs at hc
    rw [List.any_eq_true] at hc
    obtain ⟨y, hy, hyx⟩ := hc
    rw [w.ret, List.mem_map] at hy
    obtain ⟨m, hm, rfl⟩ := hy
    rw [List.mem_range] at hm
    have hmt : m < t := by omega
    have : ((m + 1 : ℕ) : ZMod n) = ((t + 1 : ℕ) : ZMod n) := by
      rw [Bool.or_eq_true] at hyx
      rcases hyx with h1 | h1
      · exact c.sinj (of_decide_eq_true h1)
      · exact (hseq _ _).1 h1
    have h2 : ((m : ℕ) : ZMod n) = ((t : ℕ) : ZMod n) := by
      push_cast at this; exact add_right_cancel this
    rw [ZMod.natCast_eq_natCast_iff'] at h2
    rw [Nat.mod_eq_of_lt (by omega), Nat.mod_eq_of_lt htn] at h2
    omega
  have hseen : n ≤ t → R.inSegs h (σ ((t + 1 : ℕ) : ZMod n)) ret = true := by
    intro htn
    unfold Rt.inSegs
    rw [List.any_eq_true]
    refine ⟨σ ((t + 1 : ℕ) : ZMod n), ?_, by simp⟩
    rw [w.ret, List.mem_map]
    have hn := c.three
    refine ⟨t % n, ?_, ?_⟩
    · rw [List.mem_range, min_eq_right htn]; exact Nat.mod_lt _ (by omega)
    · congr 1
      push_cast
      rw [ZMod.natCast_mod]
  have hret : ∀ b : Bool, (R.orderAdd h ret (σ ((t + 1 : ℕ) : ZMod n)) b).2 =
      (List.range (min (t + 1) n)).map fun m : ℕ => σ ((m + 1 : ℕ) : ZMod n) := by
    intro b
    unfold Rt.orderAdd
    rcases Nat.lt_or_ge t n with htn | htn
    · rw [hfresh htn]
      simp only [Bool.false_eq_true, if_false]
      rw [w.ret, min_eq_left (by omega : t ≤ n), min_eq_left (by omega : t + 1 ≤ n), List.range_succ,
        List.map_append]
      rfl
    · rw [hseen htn]
      simp only [if_true]
      rw [w.ret, min_eq_right htn, min_eq_right (by omega : n ≤ t + 1)]
  by_cases hor : (h.val (σ ((t : ZMod n) + 1))).i = p (t + 1)
  · -- already in the right direction
    refine ⟨false, ?_, ?_⟩
    · unfold Rt.orderNext
      rw [find?_unique (x := σ ((t + 1 : ℕ) : ZMod n)) (hmem _)]
      · rw [hcast, Bool.and_eq_true]
        refine ⟨(hi _).2 hor, ?_⟩
        rw [Bool.not_eq_true', Bool.eq_false_iff]
        intro hc; exact hne ((hseq _ _).1 hc)
      · intro y hy hf
        obtain ⟨k, rfl⟩ := (c.mem y).1 hy
        rw [Bool.and_eq_true, hi] at hf
        rw [hcast]
        rcases hx2 k (Or.inl hf.1) with rfl | rfl
        · have := hf.2
          rw [hR.seq_refl] at this
          simp at this
        · rfl
    · have hheap : (R.orderAdd h ret (σ ((t + 1 : ℕ) : ZMod n)) false).1 = h := by
        unfold Rt.orderAdd
        simp only [Bool.false_eq_true, if_false]
        split_ifs <;> rfl
      refine ⟨w.inv.add (hmem _) false, ?_, hret false⟩
      intro m hm
      rw [hheap]
      rcases Nat.lt_or_ge m (t + 1) with h1 | h1
      · exact w.oriented m (by omega)
      · have : m = t + 1 := by omega
        subst this
        rcases w.ends c ((t : ZMod n) + 1) with h2 | h2
        · rw [hcast]; exact h2
        · exfalso
          apply c.one_ne
          have h3 := c.pinj (h2.1.symm.trans hor)
          have : (t : ZMod n) + 1 + 1 = t + 1 + 0 := by rw [h3]; simp
          exact add_left_cancel this
  · -- to be turned
    have hends : (h.val (σ ((t : ZMod n) + 1))).i = p (t + 1 + 1) ∧
        (h.val (σ ((t : ZMod n) + 1))).j = p (t + 1) := by
      rcases w.ends c ((t : ZMod n) + 1) with h2 | h2
      · exact absurd h2.1 hor
      · exact h2
    have htn : t < n := by
      by_contra hge
      -- otherwise the side has been visited already and is in the right direction
      have hn := c.three
      have hlt : (t + 1) % n ≤ t := by
        have := Nat.mod_lt (t + 1) (show 0 < n by omega)
        omega
      have := (w.oriented ((t + 1) % n) hlt).1
      rw [ZMod.natCast_mod, hcast] at this
      exact hor this
    refine ⟨true, ?_, ?_⟩
    · unfold Rt.orderNext
      have hnone : (segs.find? fun x => R.peq (h.pt (h.seg x).i) (h.pt e) &&
          !R.seq (h.val x) (h.val (σ t))) = none := by
        rw [List.find?_eq_none]
        intro y hy hf
        obtain ⟨k, rfl⟩ := (c.mem y).1 hy
        rw [Bool.and_eq_true, hi] at hf
        rcases hx2 k (Or.inl hf.1) with rfl | rfl
        · have := hf.2
          rw [hR.seq_refl] at this
          simp at this
        · exact hor hf.1
      rw [hnone]
      simp only
      rw [find?_unique (x := σ ((t + 1 : ℕ) : ZMod n)) (hmem _)]
      · rw [hcast, Bool.and_eq_true]
        refine ⟨(hj _).2 hends.2, ?_⟩
        rw [Bool.not_eq_true', Bool.eq_false_iff]
        intro hc; exact hne ((hseq _ _).1 hc)
      · intro y hy hf
        obtain ⟨k, rfl⟩ := (c.mem y).1 hy
        rw [Bool.and_eq_true, hj] at hf
        rw [hcast]
        rcases hx2 k (Or.inr hf.1) with rfl | rfl
        · have := hf.2
          rw [hR.seq_refl] at this
          simp at this
        · rfl
    · have hheap : (R.orderAdd h ret (σ ((t + 1 : ℕ) : ZMod n)) true).1 =
          h.reverse (σ ((t + 1 : ℕ) : ZMod n)) := by
        unfold Rt.orderAdd; rw [hfresh htn]; rfl
      refine ⟨w.inv.add (hmem _) true, ?_, hret true⟩
      intro m hm
      rw [hheap, Heap.reverse_val]
      by_cases hmt : (m : ZMod n) = ((t + 1 : ℕ) : ZMod n)
      · rw [hmt, if_pos rfl, hcast]
        exact ⟨hends.2, hends.1⟩
      · rw [if_neg (fun e => hmt (c.sinj e))]
        apply w.oriented
        rcases Nat.lt_or_ge m (t + 1) with h1 | h1
        · omega
        · exact absurd (by rw [show m = t + 1 by omega]) hmt

theorem walk_loop (hR : R.IsRounding) (c : IsCycleOf h0 segs n p σ) (hsep : R.Sep (endPts (h0.vals segs)))
    (hn : n < 250) : ∀ (fuel : ℕ) (h : Heap K) (ret : List ℕ) (t e : ℕ), fuel + t = 2 * n + 1 →
    t ≤ 2 * n → Walk h0 segs n p σ h ret t → h.pt e = p (t + 1) →
    ∃ h' ret', R.orderLoop segs fuel h (σ t) e ret t = .done h' ret' ∧
      Walk h0 segs n p σ h' ret' (2 * n + 1) := by
  intro fuel
  induction fuel with
  | zero => intro h ret t e h1 h2; omega
  | succ fuel ih =>
    intro h ret t e h1 h2 w he
    obtain ⟨flip, hnx, hw⟩ := w.step hR c hsep he
    unfold Rt.orderLoop
    rw [hnx]
    simp only
    rw [if_neg (by omega), c.length]
    split_ifs with hs
    · have ht : t + 1 = 2 * n + 1 := by omega
      refine ⟨_, _, rfl, ?_⟩
      rw [← ht]; exact hw
    · have hend := (hw.oriented (t + 1) le_rfl).2
      exact ih _ _ (t + 1) _ (by omega) (by omega) hw hend

theorem walk_raises (hR : R.IsRounding) (c : IsCycleOf h0 segs n p σ) (hsep : R.Sep (endPts (h0.vals segs)))
    (hn : 250 ≤ n) : ∀ (fuel : ℕ) (h : Heap K) (ret : List ℕ) (t e : ℕ), fuel + t = 2 * n + 1 →
    t ≤ 500 → Walk h0 segs n p σ h ret t → h.pt e = p (t + 1) →
    ∃ h', R.orderLoop segs fuel h (σ t) e ret t = .raised h' .generic := by
  intro fuel
  induction fuel with
  | zero => intro h ret t e h1 h2; omega
  | succ fuel ih =>
    intro h ret t e h1 h2 w he
    obtain ⟨flip, hnx, hw⟩ := w.step hR c hsep he
    unfold Rt.orderLoop
    rw [hnx]
    simp only
    split_ifs with hs hs2
    · exact ⟨_, rfl⟩
    · rw [c.length] at hs2; omega
    · exact ih _ _ (t + 1) _ (by omega) (by omega) hw (hw.oriented (t + 1) le_rfl).2

end

theorem walk_start {h : Heap K} {segs : List ℕ} {n : ℕ} {p : ZMod n → Pt K} {σ : ZMod n → ℕ} {a : ℕ}
    (ha : a = σ 0) (hi : (h.val a).i = p 0) (hj : (h.val a).j = p 1) :
    Walk h segs n p σ h [] 0 := by
  refine ⟨⟨rfl, rfl, rfl, fun _ _ => rfl, fun _ => Or.inl rfl, by simp, by simp⟩, ?_, by simp⟩
  intro m hm
  have : m = 0 := by omega
  subst this
  rw [ha] at hi hj
  simpa using ⟨hi, hj⟩

/-- C76: on fewer than 250 segments forming one closed walk through different, separated points, listed in any
order and direction, `order` returns True and the new list is a rearrangement of the same segment objects
in which every segment ends where the next one starts, the last one included. -/
theorem C76_restores_cycle {R : Rt K} (hR : R.IsRounding) (h : Heap K) (P : PLine) (n : ℕ)
    (p : ZMod n → Pt K) (σ : ZMod n → ℕ) (c : IsCycleOf h P.segs n p σ)
    (hap : Apart R.tol (locs h P.segs)) (hn : P.segs.length < 250) :
    ∃ h' l, R.order h P = .done h' l ∧ l.Perm P.segs ∧ ClosedChain (h'.vals l) ∧ h'.pt = h.pt := by
  have hsep := sep_of_locs hR hap
  cases hP : P.segs with
  | nil =>
    have h1 := c.length
    have h2 := c.three
    rw [hP] at h1
    simp at h1
    omega
  | cons a t =>
    obtain ⟨p', σ', c', ha, hi, hj, -⟩ := c.normalise (a := a) (by rw [hP]; simp)
    have hlen := c'.length
    have h3 := c'.three
    have w0 : Walk h P.segs n p' σ' h [] 0 := walk_start ha hi hj
    obtain ⟨h', ret, hd, w⟩ := walk_loop hR c' hsep (by omega) (2 * n + 1) h [] 0 (h.seg a).j (by omega)
      (by omega) w0
      (by rw [Nat.cast_zero, zero_add]; exact hj)
    have hret : ret = (List.range n).map fun m : ℕ => σ' ((m + 1 : ℕ) : ZMod n) := by
      rw [w.ret, min_eq_right (by omega)]
    have hor : ∀ m : ℕ, (h'.val (σ' m)).i = p' m ∧ (h'.val (σ' m)).j = p' (m + 1) := by
      intro m
      have := w.oriented (m % n) (by have := Nat.mod_lt m (show 0 < n by omega); omega)
      rw [ZMod.natCast_mod] at this
      exact this
    have hchain : ClosedChain (h'.vals ret) := by
      have hl : (h'.vals ret).length = n := by rw [hret]; simp [Heap.vals]
      intro k hk
      simp only [hl]
      have hk' : k < n := by omega
      have e1 : (h'.vals ret)[k] = h'.val (σ' ((k + 1 : ℕ) : ZMod n)) := by
        simp [Heap.vals, hret]
      have e2 : (h'.vals ret)[(k + 1) % n]'(by rw [hl]; exact Nat.mod_lt _ (by omega)) =
          h'.val (σ' (((k + 1) % n + 1 : ℕ) : ZMod n)) := by
        simp [Heap.vals, hret]
      rw [e1, e2, (hor _).1, (hor _).2]
      congr 1
      push_cast
      rw [ZMod.natCast_mod]
      push_cast
      ring
    have hcases := order_cases hR h P a t hP _ le_rfl
    rw [hlen, ha] at hcases
    dsimp only at hcases
    have hd' : R.orderLoop P.segs (2 * n + 1) h (σ' 0) (h.seg (σ' 0)).j [] 0 = .done h' ret := by
      rw [← ha]
      simpa [ha] using hd
    have hordef : R.order h P = R.orderF (2 * n + 1) h P := by unfold Rt.order; rw [hlen]
    rw [hd'] at hcases
    rcases hcases with ⟨k1, k2, k3⟩ | ⟨h'', k1, k2⟩ | ⟨h'', ret', l, f, k1, k2, k3, k4, k5, k6⟩
    · exact absurd rfl (k1 h' ret)
    · injection k1 with e1 e2
      have : ret.length = 0 := by rw [e2]; rfl
      rw [hret] at this
      simp at this
      omega
    · injection k1 with e1 e2
      subst e1; subst e2
      refine ⟨h', l, by rw [hordef]; exact k6, ?_, ?_, w.inv.pt⟩
      · refine k2.perm.symm.trans ?_
        have hsp : ret.Subperm P.segs := List.subperm_of_subset w.inv.nodup (fun s hs => w.inv.sub s hs)
        rw [← hP]
        exact hsp.perm_of_length_le (by rw [hlen, hret]; simp)
      · obtain ⟨m, rfl⟩ := k2
        have hl : (h'.vals ret).length = n := by rw [hret]; simp [Heap.vals]
        have hv : h'.vals (ret.rotate m) = (h'.vals ret).rotate m := by
          unfold Heap.vals; rw [List.map_rotate]
        rw [hv]
        intro k hk
        have hk' : k < (h'.vals ret).length := by simpa using hk
        rw [List.getElem_rotate, List.getElem_rotate]
        have := hchain ((k + m) % (h'.vals ret).length) (Nat.mod_lt _ (by omega))
        rw [this]
        congr 2
        rw [List.length_rotate]
        rw [Nat.mod_add_mod, Nat.mod_add_mod]
        congr 1
        omega

/-- C76: the direction and the order of the walk are those of the first listed segment: if that is the side from `p 0`
to `p 1`, every side `σ k` runs from `p k` to `p (k+1)` afterwards and the new list is `σ 0`, `σ 1`, ... up to the choice
of the first element. -/
theorem C76_direction {R : Rt K} (hR : R.IsRounding) (h : Heap K) (P : PLine) (n : ℕ)
    (p : ZMod n → Pt K) (σ : ZMod n → ℕ) (c : IsCycleOf h P.segs n p σ)
    (hap : Apart R.tol (locs h P.segs)) (hn : P.segs.length < 250) {t : List ℕ} (hP : P.segs = σ 0 :: t)
    (h0 : (h.val (σ 0)).i = p 0 ∧ (h.val (σ 0)).j = p 1) :
    ∃ h' l, R.order h P = .done h' l ∧ l ~r (List.range n).map (fun m : ℕ => σ (m : ZMod n)) ∧
      (∀ m : ℕ, h'.val (σ m) = ⟨p m, p (m + 1), (h.val (σ m)).cls⟩) ∧ h'.pt = h.pt ∧
      ∀ s, s ∉ P.segs → h'.seg s = h.seg s := by
  have hsep := sep_of_locs hR hap
  have hlen := c.length
  have h3 := c.three
  have w0 : Walk h P.segs n p σ h [] 0 := walk_start rfl h0.1 h0.2
  obtain ⟨h', ret, hd, w⟩ := walk_loop hR c hsep (by omega) (2 * n + 1) h [] 0 (h.seg (σ 0)).j (by omega)
    (by omega) w0 (by rw [Nat.cast_zero, zero_add]; exact h0.2)
  have hret : ret = (List.range n).map fun m : ℕ => σ ((m + 1 : ℕ) : ZMod n) := by
    rw [w.ret, min_eq_right (by omega)]
  have hor : ∀ m : ℕ, (h'.val (σ m)).i = p m ∧ (h'.val (σ m)).j = p (m + 1) := by
    intro m
    have := w.oriented (m % n) (by have := Nat.mod_lt m (show 0 < n by omega); omega)
    rw [ZMod.natCast_mod] at this
    exact this
  have hcases := order_cases hR h P (σ 0) t hP _ le_rfl
  rw [hlen] at hcases
  dsimp only at hcases
  have hd' : R.orderLoop P.segs (2 * n + 1) h (σ 0) (h.seg (σ 0)).j [] 0 = .done h' ret := by
    simpa using hd
  have hordef : R.order h P = R.orderF (2 * n + 1) h P := by unfold Rt.order; rw [hlen]
  rw [hd'] at hcases
  rcases hcases with ⟨k1, k2, k3⟩ | ⟨h'', k1, k2⟩ | ⟨h'', ret', l, f, k1, k2, k3, k4, k5, k6⟩
  · exact absurd rfl (k1 h' ret)
  · injection k1 with e1 e2
    have : ret.length = 0 := by rw [e2]; rfl
    rw [hret] at this
    simp at this
    omega
  · injection k1 with e1 e2
    subst e1; subst e2
    refine ⟨h', l, by rw [hordef]; exact k6, ?_, ?_, w.inv.pt,
      fun s hs => w.inv.same s fun hc => hs (w.inv.sub s hc)⟩
    · refine k2.symm.trans ?_
      refine List.IsRotated.symm ⟨1, ?_⟩
      rw [hret]
      obtain ⟨n, rfl⟩ : ∃ m, n = m + 1 := ⟨n - 1, by omega⟩
      rw [List.range_succ_eq_map, List.map_cons, List.rotate_cons_succ, List.rotate_zero, List.map_map, ← List.range_succ_eq_map,
        List.range_succ, List.map_append]
      congr 1
      simp
    · intro m
      have h1 : (h'.val (σ m)).cls = (h.val (σ m)).cls := by
        rcases w.inv.turned (σ m) with e | e <;> simp [Heap.val, e, SegObj.flip]
      rw [← (hor m).1, ← (hor m).2, ← h1]

/-- C49: on 250 or more segments forming one closed walk `order` raises. -/
theorem C49_long_cycle_raises {R : Rt K} (hR : R.IsRounding) (h : Heap K) (P : PLine) (n : ℕ)
    (p : ZMod n → Pt K) (σ : ZMod n → ℕ) (c : IsCycleOf h P.segs n p σ)
    (hap : Apart R.tol (locs h P.segs)) (hn : 250 ≤ P.segs.length) :
    ∃ h', R.order h P = .raised h' .generic := by
  have hsep := sep_of_locs hR hap
  cases hP : P.segs with
  | nil => rw [hP] at hn; simp at hn
  | cons a t =>
    obtain ⟨p', σ', c', ha, hi, hj, -⟩ := c.normalise (a := a) (by rw [hP]; simp)
    have hlen := c'.length
    have w0 : Walk h P.segs n p' σ' h [] 0 := walk_start ha hi hj
    obtain ⟨h', hd⟩ := walk_raises hR c' hsep (by omega) (2 * n + 1) h [] 0 (h.seg a).j (by omega)
      (by omega) w0
      (by rw [Nat.cast_zero, zero_add]; exact hj)
    have hcases := order_cases hR h P a t hP _ le_rfl
    rw [hlen, ha] at hcases
    dsimp only at hcases
    have hd' : R.orderLoop P.segs (2 * n + 1) h (σ' 0) (h.seg (σ' 0)).j [] 0 = .raised h' .generic := by
      rw [← ha]
      simpa [ha] using hd
    have hordef : R.order h P = R.orderF (2 * n + 1) h P := by unfold Rt.order; rw [hlen]
    rw [hd'] at hcases
    rcases hcases with ⟨k1, k2, k3⟩ | ⟨h'', k1, k2⟩ | ⟨h'', ret', l, f, k1, k2, k3, k4, k5, k6⟩
    · exact ⟨h', by rw [hordef]; exact k2⟩
    · cases k1
    · cases k1

/-- the shuffled square of C48 is such a walk -/
example : IsCycleOf exShuffled [0, 1, 2, 3] 4
    (fun k => if k = 0 then ⟨2, 2⟩ else if k = 1 then ⟨1, 2⟩ else if k = 2 then ⟨1, 1⟩ else ⟨2, 1⟩)
    (fun k => if k = 0 then 0 else if k = 1 then 2 else if k = 2 then 1 else 3) where
  three := by norm_num
  pinj := by unfold Function.Injective; decide +kernel
  sinj := by unfold Function.Injective; decide +kernel
  nodup := by decide
  mem := by
    intro s
    constructor
    · intro hs
      simp only [List.mem_cons, List.not_mem_nil, or_false] at hs
      rcases hs with rfl | rfl | rfl | rfl
      · exact ⟨0, by decide⟩
      · exact ⟨2, by decide⟩
      · exact ⟨1, by decide⟩
      · exact ⟨3, by decide⟩
    · rintro ⟨k, rfl⟩; revert k; decide +kernel
  ends := by decide +kernel

end Srep
