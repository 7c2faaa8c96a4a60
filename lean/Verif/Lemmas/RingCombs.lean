import Verif.Lemmas.RingWalk
import Verif.Props.GroupB

/-!
The combinations stage of `find_loops` on sides of a ring.
-/

set_option linter.unusedSectionVars false

namespace Srep
variable {K : Type} [Field K] [LinearOrder K] [IsStrictOrderedRing K] [FloorRing K] {R : Rt K}

section
variable {n : ℕ} {v : ℕ → Pt K} {c : ℕ → SegCls} {h h' : Heap K} {o : ℕ → Bool}

/-- the side before side `m` -/
def ringPred (n m : ℕ) : ℕ := if m = 0 then n - 1 else m - 1

theorem RingPts.v_inj (r : RingPts R n v) (hR : R.IsRounding) {a b : ℕ} (ha : a < n) (hb : b < n) :
    v a = v b ↔ a = b := by
  constructor
  · intro e
    rw [← r.eq a b ha hb, e]; exact hR.peq_refl _
  · rintro rfl; rfl

theorem RingPts.v_next (r : RingPts R n v) (hR : R.IsRounding) {a m : ℕ} (ha : a < n) (hm : m < n) :
    v (a + 1) = v m ↔ a = ringPred n m := by
  have h3 := r.three
  unfold ringPred
  constructor
  · intro e
    have : R.peq (v (a + 1)) (v m) = true := by rw [e]; exact hR.peq_refl _
    rw [r.peq_iff (by omega) (by omega)] at this
    split_ifs <;> omega
  · intro e
    split_ifs at e with h0
    · rw [show a + 1 = n by omega, r.close, h0]
    · rw [show a + 1 = m by omega]

/-- how often a corner occurs among the ends of sides of the ring -/
theorem count_ends [DecidableEq (Pt K)] (r : RingPts R n v) (hR : R.IsRounding) (key : ℕ → ℕ) {m : ℕ} (hm : m < n) :
    ∀ p : List ℕ, (∀ s ∈ p, key s < n ∧ ∃ b, h.val s = rside v c (key s, b)) →
      (endPts (h.vals p)).count (v m) = (p.map key).count m + (p.map key).count (ringPred n m)
  | [], _ => rfl
  | s :: p, hp => by
    obtain ⟨hk, b, e⟩ := hp s List.mem_cons_self
    have ih := count_ends r hR key hm p fun t ht => hp t (List.mem_cons_of_mem _ ht)
    have h1 : endPts (h.vals (s :: p)) = (h.val s).i :: (h.val s).j :: endPts (h.vals p) := rfl
    have e1 : (v (key s) == v m) = (key s == m) := by
      rw [Bool.eq_iff_iff, beq_iff_eq, beq_iff_eq]; exact r.v_inj hR hk hm
    have e2 : (v (key s + 1) == v m) = (key s == ringPred n m) := by
      rw [Bool.eq_iff_iff, beq_iff_eq, beq_iff_eq]; exact r.v_next hR hk hm
    rw [h1, e, rside_i, rside_j, List.count_cons, List.count_cons, ih, List.map_cons, List.count_cons, List.count_cons]
    cases b <;> simp only [if_true, if_false, Bool.false_eq_true, e1, e2] <;> omega

theorem ends_mem {p : List ℕ} (key : ℕ → ℕ) (hp : ∀ s ∈ p, key s < n ∧ ∃ b, h.val s = rside v c (key s, b)) {x : Pt K}
    (hx : x ∈ endPts (h.vals p)) : ∃ m ≤ n, x = v m := by
  unfold endPts at hx
  rw [List.mem_flatMap] at hx
  obtain ⟨s, hs, hx⟩ := hx
  obtain ⟨t, ht, rfl⟩ := List.mem_map.1 hs
  obtain ⟨hk, b, e⟩ := hp t ht
  rw [e, rside_i, rside_j] at hx
  simp only [List.mem_cons, List.not_mem_nil, or_false] at hx
  cases b <;> simp only [if_true, if_false, Bool.false_eq_true] at hx <;> rcases hx with rfl | rfl
  · exact ⟨_, by omega, rfl⟩
  · exact ⟨_, by omega, rfl⟩
  · exact ⟨_, by omega, rfl⟩
  · exact ⟨_, by omega, rfl⟩

theorem ends_sep (hR : R.IsRounding) (hap : Apart R.tol (Set.range v)) {p : List ℕ} (key : ℕ → ℕ)
    (hp : ∀ s ∈ p, key s < n ∧ ∃ b, h.val s = rside v c (key s, b)) : R.Sep (endPts (h.vals p)) := by
  apply sep_of_apart hR
  intro x hx y hy
  obtain ⟨a, -, rfl⟩ := ends_mem key hp hx
  obtain ⟨b, -, rfl⟩ := ends_mem key hp hy
  exact hap _ ⟨_, rfl⟩ _ ⟨_, rfl⟩

/-- some but not all sides: not every end occurs twice -/
theorem allTwo_proper (r : RingPts R n v) (hR : R.IsRounding) (hap : Apart R.tol (Set.range v)) {p : List ℕ}
    (key : ℕ → ℕ) (hp : ∀ s ∈ p, key s < n ∧ ∃ b, h.val s = rside v c (key s, b)) (hnd : (p.map key).Nodup)
    (hne : p ≠ []) (hlt : p.length < n) : R.allTwo (endPts (h.vals p)) = false := by
  classical
  have h3 := r.three
  have hex : ∃ m < n, ringPred n m ∈ p.map key ∧ m ∉ p.map key := by
    by_contra hc
    push Not at hc
    obtain ⟨s, hs⟩ := List.exists_mem_of_ne_nil p hne
    have hs0 := (hp s hs).1
    have step : ∀ t, (key s + t) % n ∈ p.map key := by
      intro t
      induction t with
      | zero => rw [add_zero, Nat.mod_eq_of_lt hs0]; exact List.mem_map_of_mem hs
      | succ t ih =>
        apply hc _ (Nat.mod_lt _ (by omega))
        have : ringPred n ((key s + (t + 1)) % n) = (key s + t) % n := by
          unfold ringPred
          rw [← add_assoc, Nat.add_mod (key s + t) 1, Nat.mod_eq_of_lt (show 1 < n by omega)]
          have := Nat.mod_lt (key s + t) (show 0 < n by omega)
          rcases Nat.lt_or_ge ((key s + t) % n + 1) n with h | h
          · rw [Nat.mod_eq_of_lt h, if_neg (by omega)]; omega
          · rw [show (key s + t) % n + 1 = n by omega, Nat.mod_self, if_pos rfl]; omega
        rw [this]; exact ih
    have hsub : List.range n ⊆ p.map key := by
      intro k hk
      rw [List.mem_range] at hk
      have := step (n + k - key s)
      rw [show key s + (n + k - key s) = k + n by omega, Nat.add_mod_right, Nat.mod_eq_of_lt hk] at this
      exact this
    have := (List.nodup_range.subperm hsub).length_le
    rw [List.length_range, List.length_map] at this
    omega
  obtain ⟨m, hm, h1, h2⟩ := hex
  have hcount := count_ends (c := c) r hR key hm p hp
  rw [List.count_eq_zero_of_not_mem h2, List.count_eq_one_of_mem hnd h1] at hcount
  have hmem : v m ∈ endPts (h.vals p) := List.count_pos_iff.1 (by omega)
  have := (counter_spec hR (ends_sep hR hap key hp)).1 _ hmem
  unfold Rt.allTwo
  rw [Bool.and_eq_false_iff]
  right
  rw [List.all_eq_false]
  refine ⟨_, this, ?_⟩
  simp [hcount]

/-- all sides: every end occurs twice -/
theorem allTwo_full (r : RingPts R n v) (hR : R.IsRounding) (hap : Apart R.tol (Set.range v)) {p : List ℕ}
    (key : ℕ → ℕ) (hp : ∀ s ∈ p, key s < n ∧ ∃ b, h.val s = rside v c (key s, b)) (hall : ∀ k < n, k ∈ p.map key)
    (hnd : (p.map key).Nodup) : R.allTwo (endPts (h.vals p)) = true := by
  classical
  have h3 := r.three
  have hs := counter_spec hR (ends_sep hR hap key hp)
  have hcount : ∀ m < n, (endPts (h.vals p)).count (v m) = 2 := by
    intro m hm
    rw [count_ends (c := c) r hR key hm p hp, List.count_eq_one_of_mem hnd (hall m hm),
      List.count_eq_one_of_mem hnd (hall _ (by unfold ringPred; split_ifs <;> omega))]
  unfold Rt.allTwo
  rw [Bool.and_eq_true, decide_eq_true_eq, List.all_eq_true]
  constructor
  · have h0 : v 0 ∈ endPts (h.vals p) := List.count_pos_iff.1 (by rw [hcount 0 (by omega)]; omega)
    exact List.ne_nil_of_mem (hs.1 _ h0)
  · intro x hx
    obtain ⟨h1, h2⟩ := hs.2 x hx
    rw [decide_eq_true_eq, h2]
    obtain ⟨m, hm, e⟩ := ends_mem key hp h1
    rw [e]
    rcases Nat.lt_or_ge m n with h | h
    · exact hcount m h
    · rw [show m = n by omega, r.close]; exact hcount 0 (by omega)

theorem combs_skip {g : List ℕ} {cyc : List PLine} : ∀ ps : List (List ℕ),
    (∀ p ∈ ps, R.allTwo (endPts (h.vals p)) = false) → R.loopsCombs ps h g cyc = .ok h g cyc
  | [], _ => rfl
  | p :: ps, hp => by
    unfold Rt.loopsCombs
    have : R.loopsTry h g cyc p = .ok h g cyc := by
      unfold Rt.loopsTry
      rw [hp p List.mem_cons_self]; rfl
    rw [this]
    exact combs_skip ps fun q hq => hp q (List.mem_cons_of_mem _ hq)

theorem combos_long {α : Type} {l : List α} {m : ℕ} (hm : l.length < m) : combos m l = [] := by
  rw [List.eq_nil_iff_forall_not_mem]
  intro p hp
  rw [mem_combos] at hp
  have := hp.1.length_le
  omega

theorem combos_self {α : Type} : ∀ l : List α, combos l.length l = [l]
  | [] => rfl
  | a :: l => by
    rw [List.length_cons, combos, combos_self l, combos_long (by omega)]; rfl

/-- nothing is found among sides that do not close -/
theorem comb_skip {g : List ℕ} {cyc : List PLine}
    (hg : ∀ p : List ℕ, p.Sublist g → p ≠ [] → R.allTwo (endPts (h.vals p)) = false) :
    ∀ fuel m, m ≤ g.length + 1 → g.length + 2 ≤ fuel + m → R.loopsComb fuel m h g cyc = .ok h g cyc
  | 0, m, h1, h2 => by omega
  | fuel + 1, m, h1, h2 => by
    unfold Rt.loopsComb
    split_ifs with hm
    · rw [combs_skip]
      · exact comb_skip hg fuel (m + 1) (by omega) (by omega)
      · intro p hp
        rw [mem_combos] at hp
        refine hg p hp.1 ?_
        rintro rfl
        simp at hp
    · rfl

theorem comb_done {g : List ℕ} {cyc : List PLine} {m : ℕ} (hm : g.length ≤ m) (fuel : ℕ) :
    R.loopsComb (fuel + 2) m h g cyc = .ok h g cyc := by
  unfold Rt.loopsComb
  split_ifs
  · rw [combos_long (by omega)]
    show R.loopsComb (fuel + 1) (m + 1) h g cyc = _
    unfold Rt.loopsComb
    rw [if_neg (by omega)]
  · rfl

/-- the combination of all sides is the loop -/
theorem comb_full (r : RingPts R n v) (hR : R.IsRounding) (hn : n < 250) (hap : Apart R.tol (Set.range v))
    {g : List ℕ} (d : Lists n (rside v c) h g {x | x.2 = o x.1 ∧ x.1 < n}) (hlen : g.length = n)
    (hvalid : ∀ h' m w, RingFound n v c h' m w → R.plValid (h'.vals m) = true) :
    ∀ fuel m, 1 ≤ m → m + 1 ≤ n → n + 2 ≤ fuel + m →
    ∃ h' g' P w, R.loopsComb fuel m h g [] = .ok h' g' [⟨P, false⟩] ∧ RingFound n v c h' P w
  | 0, m, h1, h2, h3 => by omega
  | fuel + 1, m, h1, h2, h4 => by
    have h3 := r.three
    have side : ∀ s, ∃ k, s ∈ g → k < n ∧ h.val s = rside v c (k, o k) := by
      intro s
      by_cases hs : s ∈ g
      · obtain ⟨⟨k, b⟩, ⟨hb, hk⟩, e⟩ := d.val s hs
        dsimp only at hb hk
        subst hb
        exact ⟨k, fun _ => ⟨hk, e⟩⟩
      · exact ⟨0, fun h => absurd h hs⟩
    choose key hkey using side
    have hkg : ∀ p : List ℕ, p.Sublist g → (∀ s ∈ p, key s < n ∧ ∃ b, h.val s = rside v c (key s, b)) ∧
        (p.map key).Nodup := by
      intro p hp
      refine ⟨fun s hs => ⟨(hkey s (hp.subset hs)).1, _, (hkey s (hp.subset hs)).2⟩, ?_⟩
      apply List.Nodup.map_on _ (hp.nodup d.nodup)
      intro s hs t ht e
      apply d.inj s (hp.subset hs) t (hp.subset ht)
      rw [(hkey s (hp.subset hs)).2, (hkey t (hp.subset ht)).2, e]
    unfold Rt.loopsComb
    rw [if_pos (by omega)]
    rcases Nat.lt_or_ge (m + 1) n with hlt | hge
    · rw [combs_skip]
      · exact comb_full r hR hn hap d hlen hvalid fuel (m + 1) (by omega) (by omega) (by omega)
      · intro p hp
        rw [mem_combos] at hp
        obtain ⟨h5, h6⟩ := hkg p hp.1
        refine allTwo_proper r hR hap key h5 h6 ?_ (by omega)
        rintro rfl
        simp at hp
    · have hm : m + 1 = n := by omega
      rw [hm]
      have hc : combos n g = [g] := by rw [← hlen]; exact combos_self g
      rw [hc]
      obtain ⟨h', l, w, e, hperm, hlen', hchain, hval⟩ := order_closed r hR hn hap d
      obtain ⟨h5, h6⟩ := hkg g (List.Sublist.refl _)
      have hall : ∀ k < n, k ∈ g.map key := by
        intro k hk
        obtain ⟨s, hs, es⟩ := d.all (k, o k) ⟨rfl, hk⟩
        rw [(hkey s hs).2] at es
        have := congrArg Prod.fst (r.inj hR (by exact (hkey s hs).1) (by exact hk) es)
        rw [← show key s = k from this]
        exact List.mem_map_of_mem hs
      have hnseg : h.nseg ≤ h'.nseg := by
        have := (C48_only_reverses hR h ⟨g, false⟩).2.2.1
        rw [e] at this
        exact this.ge
      have hval' : ∀ s ∈ g, h'.val s = rside v c (key s, w) := fun s hs =>
        hval s hs (key s) (hkey s hs).1 (hkey s hs).2
      have found : RingFound n v c h' l w := by
        refine ⟨⟨fun x hx => hx.2, hperm.nodup_iff.2 d.nodup, fun s hs => lt_of_lt_of_le (d.lt s (hperm.mem_iff.1 hs)) hnseg,
          ?_, ?_, ?_⟩, hchain, hlen'⟩
        · intro s hs
          have hs := hperm.mem_iff.1 hs
          exact ⟨(key s, w), ⟨rfl, (hkey s hs).1⟩, hval' s hs⟩
        · rintro ⟨k, b⟩ ⟨hb, hk⟩
          dsimp only at hb hk
          obtain ⟨s, hs, rfl⟩ := List.mem_map.1 (hall k hk)
          exact ⟨s, hperm.mem_iff.2 hs, by rw [hval' s hs, hb]⟩
        · intro s hs t ht e
          have hs := hperm.mem_iff.1 hs
          have ht := hperm.mem_iff.1 ht
          rw [hval' s hs, hval' t ht] at e
          have := congrArg Prod.fst (r.inj hR (by exact (hkey s hs).1) (by exact (hkey t ht).1) e)
          apply d.inj s hs t ht
          rw [(hkey s hs).2, (hkey t ht).2, show key s = key t from this]
      have hne : h'.vals l ≠ [] := by
        intro h0
        have := congrArg List.length h0
        rw [Heap.vals, List.length_map, hlen'] at this
        simp at this
        omega
      have htry : ∃ g', R.loopsTry h g [] g = .ok h' g' [⟨l, false⟩] ∧ g'.length ≤ n := by
        unfold Rt.loopsTry
        rw [allTwo_full r hR hap key h5 hall h6, if_neg (by simp), e]
        dsimp only
        rw [hvalid h' l w found, isClosed_of_chain hR hne hchain]
        dsimp only
        have hcyc : R.inCycles h' ⟨l, false⟩ [] = false := rfl
        rw [hcyc]
        simp only [Bool.not_false, Bool.and_self, if_true, List.nil_append]
        split_ifs
        · exact ⟨_, rfl, by rw [← hlen]; exact List.length_filter_le _ _⟩
        · exact ⟨_, rfl, hlen.le⟩
      obtain ⟨g', e', hg'⟩ := htry
      have : R.loopsCombs [g] h g [] = .ok h' g' [⟨l, false⟩] := by
        unfold Rt.loopsCombs
        rw [e']; rfl
      rw [this]
      obtain ⟨f, rfl⟩ : ∃ f, fuel = f + 2 := ⟨fuel - 2, by omega⟩
      exact ⟨h', g', l, w, comb_done hg' f, found⟩

end
end Srep
