import Verif.Lemmas.Complete

/-!
The combinations stage of `find_loops` finds every simple loop of the segments it is given: counting and the loops that
are taken out of the graph.
-/

set_option linter.unusedSectionVars false

namespace Srep
variable {K : Type} [Field K] [LinearOrder K] [IsStrictOrderedRing K] [FloorRing K] {R : Rt K}

/-- the segments that end at `q` are counted -/
theorem three_at (hR : R.IsRounding) {h : Heap K} {g : List ℕ} {q : Pt K} {u v w : ℕ} (hu : u ∈ g) (hv : v ∈ g) (hw : w ∈ g)
    (huv : u ≠ v) (huw : u ≠ w) (hvw : v ≠ w) (au : At h u q) (av : At h v q) (aw : At h w q) :
    3 ≤ ((endPts (h.vals g)).filter fun y => R.peq y q).length := by
  classical
  have key : ∀ l : List ℕ, (l.filter fun s => decide (At h s q)).length ≤
      ((endPts (h.vals l)).filter fun y => R.peq y q).length := by
    intro l
    induction l with
    | nil => simp
    | cons s l ih =>
      have e : endPts (h.vals (s :: l)) = [(h.val s).i, (h.val s).j] ++ endPts (h.vals l) := rfl
      rw [e, List.filter_append, List.length_append, List.filter_cons]
      split_ifs with hs
      · have hs := of_decide_eq_true hs
        have : 1 ≤ ([(h.val s).i, (h.val s).j].filter fun y => R.peq y q).length := by
          apply List.length_pos_of_mem (a := q)
          rw [List.mem_filter]
          refine ⟨?_, hR.peq_refl q⟩
          rcases hs with e | e <;> simp [e]
        rw [List.length_cons]
        omega
      · omega
  have hsub : [u, v, w].Subperm (g.filter fun s => decide (At h s q)) := by
    apply List.Nodup.subperm
    · simp [huv, huw, hvw]
    · intro x hx
      simp only [List.mem_cons, List.not_mem_nil, or_false] at hx
      rw [List.mem_filter, decide_eq_true_eq]
      rcases hx with rfl | rfl | rfl
      · exact ⟨hu, au⟩
      · exact ⟨hv, av⟩
      · exact ⟨hw, aw⟩
  exact hsub.length_le.trans (key g)

theorem count_at [DecidableEq (Pt K)] {h : Heap K} (q : Pt K) [DecidablePred fun s => At h s q] : ∀ l : List ℕ,
    (∀ s ∈ l, (h.val s).i ≠ (h.val s).j) → (endPts (h.vals l)).count q = (l.filter fun s => decide (At h s q)).length
  | [], _ => rfl
  | s :: l, hn => by
    have ih := count_at q l fun t ht => hn t (List.mem_cons_of_mem _ ht)
    have e : endPts (h.vals (s :: l)) = (h.val s).i :: (h.val s).j :: endPts (h.vals l) := rfl
    have hs := hn s List.mem_cons_self
    rw [e, List.count_cons, List.count_cons, ih, List.filter_cons]
    by_cases h1 : (h.val s).i = q
    · have h2 : (h.val s).j ≠ q := fun e => hs (h1.trans e.symm)
      have h3 : At h s q := Or.inl h1
      simp [h1, h2, h3]
    · by_cases h2 : (h.val s).j = q
      · have h3 : At h s q := Or.inr h2
        simp [h1, h2, h3]
      · have h3 : ¬ At h s q := by rintro (e | e) <;> contradiction
        simp [h1, h2, h3]

section
variable {h : Heap K} {S : List ℕ} {n : ℕ} {p : ZMod n → Pt K} {σ : ZMod n → ℕ}

/-- which sides of a loop meet a corner -/
theorem IsCycleOf.at_iff (c : IsCycleOf h S n p σ) (k a : ZMod n) : At h (σ k) (p a) ↔ k = a ∨ k = a - 1 := by
  unfold At
  rw [eq_sub_iff_add_eq]
  rcases c.ends k with ⟨e1, e2⟩ | ⟨e1, e2⟩ <;> rw [e1, e2, c.pinj.eq_iff, c.pinj.eq_iff]
  exact or_comm

theorem IsCycleOf.at_pt (c : IsCycleOf h S n p σ) {s : ℕ} (hs : s ∈ S) {q : Pt K} (hq : At h s q) : ∃ a, q = p a := by
  obtain ⟨k, rfl⟩ := (c.mem s).1 hs
  rcases c.ends k with ⟨e1, e2⟩ | ⟨e1, e2⟩ <;> rcases hq with e | e
  · exact ⟨k, e.symm.trans e1⟩
  · exact ⟨k + 1, e.symm.trans e2⟩
  · exact ⟨k + 1, e.symm.trans e1⟩
  · exact ⟨k, e.symm.trans e2⟩

theorem IsCycleOf.ne_pred (c : IsCycleOf h S n p σ) (a : ZMod n) : a ≠ a - 1 := by
  intro e
  exact c.one_ne (sub_eq_self.1 e.symm)

/-- another side meets the same corner -/
theorem IsCycleOf.other (c : IsCycleOf h S n p σ) {s : ℕ} (hs : s ∈ S) {q : Pt K} (hq : At h s q) :
    ∃ w ∈ S, w ≠ s ∧ At h w q := by
  obtain ⟨a, rfl⟩ := c.at_pt hs hq
  obtain ⟨k, rfl⟩ := (c.mem s).1 hs
  rcases (c.at_iff k a).1 hq with e | e
  · refine ⟨σ (a - 1), (c.mem _).2 ⟨_, rfl⟩, ?_, (c.at_iff _ _).2 (Or.inr rfl)⟩
    intro e'
    exact c.ne_pred a (e.symm.trans (c.sinj e').symm)
  · refine ⟨σ a, (c.mem _).2 ⟨_, rfl⟩, ?_, (c.at_iff _ _).2 (Or.inl rfl)⟩
    intro e'
    exact c.ne_pred a ((c.sinj e').trans e)

theorem IsCycleOf.null (c : IsCycleOf h S n p σ) {s : ℕ} (hs : s ∈ S) : (h.val s).i ≠ (h.val s).j := by
  obtain ⟨k, rfl⟩ := (c.mem s).1 hs
  have hne : p k ≠ p (k + 1) := fun e => c.one_ne (by simpa using c.pinj e)
  rcases c.ends k with ⟨e1, e2⟩ | ⟨e1, e2⟩ <;> rw [e1, e2]
  · exact hne
  · exact hne.symm

/-- each corner of a loop is the end of two sides -/
theorem IsCycleOf.allTwo (c : IsCycleOf h S n p σ) (hR : R.IsRounding) (hap : Apart R.tol (locs h S)) :
    R.allTwo (endPts (h.vals S)) = true := by
  classical
  haveI : NeZero n := ⟨by have := c.three; omega⟩
  have hends : ∀ q, q ∈ Ends (h.vals S) ↔ q ∈ locs h S := by
    intro q
    unfold Ends locs Heap.vals
    simp only [List.mem_map, Set.mem_ofPred_eq]
    constructor
    · rintro ⟨_, ⟨s, hs, rfl⟩, e⟩; exact ⟨s, hs, e⟩
    · rintro ⟨s, hs, e⟩; exact ⟨_, ⟨s, hs, rfl⟩, e⟩
  rw [C70_examined hR _ (by
    intro a ha b hb
    exact hap a ((hends a).1 ha) b ((hends b).1 hb))]
  constructor
  · intro e
    have := congrArg List.length e
    rw [Heap.vals, List.length_map, c.length] at this
    have := c.three
    simp at *
    omega
  · intro q hq
    obtain ⟨s, hs, hq⟩ := mem_locs.1 ((hends q).1 (mem_endPts'.1 hq))
    obtain ⟨a, rfl⟩ := c.at_pt hs hq
    rw [count_at _ _ fun s hs => c.null hs]
    have : (S.filter fun s => decide (At h s (p a))).Perm [σ a, σ (a - 1)] := by
      rw [List.perm_ext_iff_of_nodup (c.nodup.filter _) (by
        simp only [List.nodup_cons, List.mem_singleton, List.not_mem_nil, not_false_eq_true, List.nodup_nil, and_true]
        intro e; exact c.ne_pred a (c.sinj e))]
      intro x
      rw [List.mem_filter, decide_eq_true_eq, List.mem_cons, List.mem_singleton]
      constructor
      · rintro ⟨h1, h2⟩
        obtain ⟨k, rfl⟩ := (c.mem x).1 h1
        exact ((c.at_iff k a).1 h2).imp (congrArg σ) (congrArg σ)
      · rintro (rfl | rfl)
        · exact ⟨(c.mem _).2 ⟨_, rfl⟩, (c.at_iff _ _).2 (Or.inl rfl)⟩
        · exact ⟨(c.mem _).2 ⟨_, rfl⟩, (c.at_iff _ _).2 (Or.inr rfl)⟩
    exact this.length_eq

/-- three or more sides of a loop, each touching the next and the last the first, are all sides -/
theorem IsCycleOf.full (c : IsCycleOf h S n p σ) {ret : List ℕ} (hnd : ret.Nodup) (h3 : 3 ≤ ret.length)
    (hsub : ∀ s ∈ ret, s ∈ S)
    (hch : ∀ k (hk : k < ret.length), ∃ q, At h ret[k] q ∧ At h (ret[(k + 1) % ret.length]'(Nat.mod_lt _ (by omega))) q) :
    ret.Perm S := by
  classical
  haveI : NeZero n := ⟨by have := c.three; omega⟩
  set N := ret.length with hN
  let I : Finset (ZMod n) := Finset.univ.filter fun a => σ a ∈ ret
  let Q : Finset (ZMod n) := Finset.univ.filter fun a => σ a ∈ ret ∧ σ (a - 1) ∈ ret
  have hI : I.card = N := by
    have : I.image σ = ret.toFinset := by
      ext s
      simp only [I, Finset.mem_image, Finset.mem_filter, Finset.mem_univ, true_and, List.mem_toFinset]
      constructor
      · rintro ⟨a, ha, rfl⟩; exact ha
      · intro hs
        obtain ⟨k, rfl⟩ := (c.mem s).1 (hsub s hs)
        exact ⟨k, hs, rfl⟩
    rw [← Finset.card_image_of_injective I c.sinj, this, List.toFinset_card_of_nodup hnd]
  have hmodlt : ∀ k, (k + 1) % N < ret.length := fun k => Nat.mod_lt _ (by omega)
  have hpt : ∀ k, ∃ a, ∀ hk : k < ret.length, At h ret[k] (p a) ∧ At h (ret[(k + 1) % N]'(hmodlt k)) (p a) := by
    intro k
    by_cases hk : k < ret.length
    · obtain ⟨q, h1, h2⟩ := hch k hk
      obtain ⟨a, rfl⟩ := c.at_pt (hsub _ (List.getElem_mem hk)) h1
      exact ⟨a, fun _ => ⟨h1, h2⟩⟩
    · exact ⟨0, fun h => absurd h hk⟩
  choose f hf using hpt
  have hinj : ∀ i j (hi : i < ret.length) (hj : j < ret.length), ret[i] = ret[j] → i = j := fun i j hi hj e =>
    (List.Nodup.getElem_inj_iff hnd).1 e
  have hstep : ∀ k, k < N → k ≠ (k + 1) % N := by
    intro k hk e
    rcases Nat.lt_or_ge (k + 1) N with h' | h'
    · rw [Nat.mod_eq_of_lt h'] at e; omega
    · rw [show k + 1 = N by omega, Nat.mod_self] at e; omega
  have hpair : ∀ k (hk : k < ret.length), (ret[k] = σ (f k) ∧ ret[(k + 1) % N]'(hmodlt k) = σ (f k - 1)) ∨
      (ret[k] = σ (f k - 1) ∧ ret[(k + 1) % N]'(hmodlt k) = σ (f k)) := by
    intro k hk
    obtain ⟨h1, h2⟩ := hf k hk
    obtain ⟨a, ha⟩ := (c.mem _).1 (hsub _ (List.getElem_mem hk))
    obtain ⟨b, hb⟩ := (c.mem _).1 (hsub _ (List.getElem_mem (hmodlt k)))
    rw [ha, c.at_iff] at h1
    rw [hb, c.at_iff] at h2
    have hab : a ≠ b := by
      rintro rfl
      exact hstep k hk (hinj _ _ hk (hmodlt k) (ha.trans hb.symm))
    rw [ha, hb]
    rcases h1 with rfl | rfl <;> rcases h2 with rfl | rfl
    · exact absurd rfl hab
    · exact Or.inl ⟨rfl, rfl⟩
    · exact Or.inr ⟨rfl, rfl⟩
    · exact absurd rfl hab
  have hQ : N ≤ Q.card := by
    have : (Finset.range N).card ≤ Q.card := by
      apply Finset.card_le_card_of_injOn f
      · intro k hk
        have hk : k < N := Finset.mem_range.1 hk
        have m1 := List.getElem_mem (l := ret) hk
        have m2 := List.getElem_mem (l := ret) (hmodlt k)
        simp only [Q, Finset.coe_filter, Finset.mem_univ, true_and, Set.mem_ofPred_eq]
        rcases hpair k hk with ⟨e1, e2⟩ | ⟨e1, e2⟩ <;> rw [e1] at m1 <;> rw [e2] at m2
        · exact ⟨m1, m2⟩
        · exact ⟨m2, m1⟩
      · intro k hk j hj e
        have hk : k < N := Finset.mem_range.1 hk
        have hj : j < N := Finset.mem_range.1 hj
        have a := hpair k hk
        have b := hpair j hj
        rw [e] at a
        have fin : ∀ h1 : ret[k] = ret[(j + 1) % N]'(hmodlt j), ret[(k + 1) % N]'(hmodlt k) = ret[j] → k = j := by
          intro h1 h2
          have e1 := hinj _ _ hk (hmodlt j) h1
          have e2 := hinj _ _ (hmodlt k) hj h2
          rcases Nat.lt_or_ge (j + 1) N with h' | h'
          · rw [Nat.mod_eq_of_lt h'] at e1
            rcases Nat.lt_or_ge (k + 1) N with h'' | h''
            · rw [Nat.mod_eq_of_lt h''] at e2; omega
            · rw [show k + 1 = N by omega, Nat.mod_self] at e2; omega
          · rw [show j + 1 = N by omega, Nat.mod_self] at e1
            rw [e1, Nat.mod_eq_of_lt (by omega)] at e2
            omega
        rcases a with ⟨a1, a2⟩ | ⟨a1, a2⟩ <;> rcases b with ⟨b1, b2⟩ | ⟨b1, b2⟩
        · exact hinj _ _ hk hj (a1.trans b1.symm)
        · exact fin (a1.trans b2.symm) (a2.trans b1.symm)
        · exact fin (a1.trans b2.symm) (a2.trans b1.symm)
        · exact hinj _ _ hk hj (a1.trans b1.symm)
    rwa [Finset.card_range] at this
  have hQI : Q = I := by
    apply Finset.eq_of_subset_of_card_le
    · intro a ha
      simp only [Q, I, Finset.mem_filter, Finset.mem_univ, true_and] at ha ⊢
      exact ha.1
    · rw [hI]; exact hQ
  have hpred : ∀ a, σ a ∈ ret → σ (a - 1) ∈ ret := by
    intro a ha
    have : a ∈ I := by simp only [I, Finset.mem_filter, Finset.mem_univ, true_and]; exact ha
    rw [← hQI] at this
    simp only [Q, Finset.mem_filter, Finset.mem_univ, true_and] at this
    exact this.2
  have h0 : 0 < ret.length := by omega
  obtain ⟨a, ha⟩ := (c.mem _).1 (hsub _ (List.getElem_mem h0))
  have ha : σ a ∈ ret := by rw [← ha]; exact List.getElem_mem h0
  have hall : ∀ m : ℕ, σ (a - m) ∈ ret := by
    intro m
    induction m with
    | zero => simpa using ha
    | succ m ih =>
      have := hpred _ ih
      rw [sub_sub] at this
      push_cast
      exact this
  rw [List.perm_ext_iff_of_nodup hnd c.nodup]
  intro s
  refine ⟨hsub s, fun hs => ?_⟩
  obtain ⟨b, rfl⟩ := (c.mem s).1 hs
  have := hall (a - b).val
  rw [ZMod.natCast_zmod_val, sub_sub_cancel] at this
  exact this

/-- a chain that is taken out of the graph and shares a side with a loop is this loop -/
theorem IsCycleOf.unique (c : IsCycleOf h S n p σ) {g g0 ret : List ℕ} (hg : ∀ s ∈ S, s ∈ g) (hnd : ret.Nodup)
    (h3 : 3 ≤ ret.length) (hr : ∀ s ∈ ret, s ∈ g0)
    (hch : ∀ k (hk : k < ret.length), ∃ q, At h ret[k] q ∧ At h (ret[(k + 1) % ret.length]'(Nat.mod_lt _ (by omega))) q)
    (hcnt : ∀ x ∈ ret, ∀ q, At h x q → ∀ u ∈ g, ∀ v ∈ g, ∀ w ∈ g, u ≠ v → u ≠ w → v ≠ w → At h u q → At h v q → ¬ At h w q)
    (hrem : ∀ v ∈ g0, v ∉ g → ∀ q, At h v q → ∀ u ∈ g, ∀ w ∈ g, u ≠ w → At h u q → ¬ At h w q)
    {x : ℕ} (hx : x ∈ S) (hxr : x ∈ ret) : ret.Perm S := by
  refine c.full hnd h3 ?_ hch
  have step : ∀ k (hk : k < ret.length), ret[k] ∈ S → ret[(k + 1) % ret.length]'(Nat.mod_lt _ (by omega)) ∈ S := by
    intro k hk hS
    obtain ⟨q, a1, a2⟩ := hch k hk
    obtain ⟨w, hw, hwne, aw⟩ := c.other hS a1
    by_contra hv
    have hmem := List.getElem_mem (l := ret) (show (k + 1) % ret.length < ret.length from Nat.mod_lt _ (by omega))
    by_cases hvg : ret[(k + 1) % ret.length]'(Nat.mod_lt _ (by omega)) ∈ g
    · refine hcnt _ (List.getElem_mem hk) q a1 _ (hg _ hS) _ (hg _ hw) _ hvg hwne.symm ?_ ?_ a1 aw a2
      · intro e; exact hv (e ▸ hS)
      · intro e; exact hv (e ▸ hw)
    · exact hrem _ (hr _ hmem) hvg q a2 _ (hg _ hS) _ (hg _ hw) hwne.symm a1 aw
  obtain ⟨k0, hk0, rfl⟩ := List.mem_iff_getElem.1 hxr
  have all : ∀ m, ret[(k0 + m) % ret.length]'(Nat.mod_lt _ (by omega)) ∈ S := by
    intro m
    induction m with
    | zero =>
      have : (k0 + 0) % ret.length = k0 := by rw [add_zero, Nat.mod_eq_of_lt hk0]
      rw [getElem_congr_idx this]; exact hx
    | succ m ih =>
      have := step _ (Nat.mod_lt _ (by omega)) ih
      rw [getElem_congr_idx (show (k0 + (m + 1)) % ret.length = ((k0 + m) % ret.length + 1) % ret.length by
        rw [Nat.mod_add_mod, add_assoc])]
      exact this
  intro s hs
  obtain ⟨j, hj, rfl⟩ := List.mem_iff_getElem.1 hs
  have := all (ret.length - k0 + j)
  rw [getElem_congr_idx (show (k0 + (ret.length - k0 + j)) % ret.length = j by
    rw [show k0 + (ret.length - k0 + j) = j + ret.length by omega, Nat.add_mod_right, Nat.mod_eq_of_lt hj])] at this
  exact this

end
end Srep
