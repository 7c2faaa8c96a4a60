import Verif.Lemmas.RingCombs

/-!
# `find_loops` on a single loop whose segments do not all run the same way (C110)
-/

set_option linter.unusedSectionVars false

namespace Srep
variable {K : Type} [Field K] [LinearOrder K] [IsStrictOrderedRing K] [FloorRing K] {R : Rt K}

/-- `l` draws the ring through `p 0, p 1, …` once, head to tail, in one of the two directions; the side from `p k` to
`p (k + 1)` has the class `cls k` -/
def RingOf (n : ℕ) (p : ZMod n → Pt K) (cls : ZMod n → SegCls) (l : List (Seg K)) : Prop :=
  l.length = n ∧ ClosedChain l ∧
    ((∀ s, s ∈ l ↔ ∃ k, s = ⟨p k, p (k + 1), cls k⟩) ∨ ∀ s, s ∈ l ↔ ∃ k, s = ⟨p (k + 1), p k, cls k⟩)

section
variable {n : ℕ} {v : ℕ → Pt K} {c : ℕ → SegCls} {h h' : Heap K} {o : ℕ → Bool}

theorem lineReversed_rside (k : ℕ) (b : Bool) :
    (rside v c (k, b)).lineReversed = rside v (fun _ => .line) (k, !b) := by
  cases b <;> rfl

/-- which sides stay in the graph when the ring is found in the direction `d` -/
theorem keepSeg_ring (r : RingPts R n v) (hR : R.IsRounding) {m : List ℕ} {d : Bool} (f : RingFound n v c h m d) {x k : ℕ}
    {b : Bool} (hk : k < n) (hx : h.val x = rside v c (k, b)) :
    R.keepSeg h ⟨m, false⟩ x = true ↔ b = !d ∧ c k ≠ .line := by
  have hin : R.inSegs h x m = true ↔ b = d := by
    unfold Rt.inSegs
    rw [List.any_eq_true]
    constructor
    · rintro ⟨y, hy, e⟩
      obtain ⟨⟨j, b'⟩, ⟨hb, hj⟩, ey⟩ := f.lists.val y hy
      dsimp only at hb hj
      rw [Bool.or_eq_true, decide_eq_true_eq] at e
      rcases e with rfl | e
      · have := congrArg Prod.snd (r.inj hR (by exact hj) (by exact hk) (ey.symm.trans hx))
        exact (show b' = b from this) ▸ hb
      · rw [ey, hx, r.seq_iff hR (by exact hj) (by exact hk)] at e
        have := congrArg Prod.snd e
        exact (show b' = b from this) ▸ hb
    · rintro rfl
      obtain ⟨y, hy, ey⟩ := f.lists.all (k, b) ⟨rfl, hk⟩
      exact ⟨y, hy, by rw [ey, hx, hR.seq_refl, Bool.or_true]⟩
  have hrev : (m.any fun y => R.seq (h.val y) (h.val x).lineReversed) = true ↔ b = !d ∧ c k = .line := by
    rw [List.any_eq_true]
    constructor
    · rintro ⟨y, hy, e⟩
      obtain ⟨⟨j, b'⟩, ⟨hb, hj⟩, ey⟩ := f.lists.val y hy
      dsimp only at hb hj
      rw [ey, hx, lineReversed_rside] at e
      have e' : R.seq (rside v (fun _ => .line) (j, b')) (rside v (fun _ => .line) (k, !b)) = true := by
        simp only [Rt.seq, Bool.and_eq_true, rside_i, rside_j, rside_cls, decide_true, true_and] at e ⊢
        exact ⟨e.1.2, e.2⟩
      have hcls : SegCls.line = c j := by
        simp only [Rt.seq, Bool.and_eq_true, rside_cls, decide_eq_true_eq] at e
        exact e.1.1
      rw [r.seq_iff hR (by exact hj) (by exact hk)] at e'
      have e1 : j = k := congrArg Prod.fst e'
      have e2 : b' = !b := congrArg Prod.snd e'
      subst e1
      refine ⟨?_, hcls.symm⟩
      rw [← hb, e2, Bool.not_not]
    · rintro ⟨rfl, hc⟩
      obtain ⟨y, hy, ey⟩ := f.lists.all (k, d) ⟨rfl, hk⟩
      refine ⟨y, hy, ?_⟩
      rw [ey, hx, lineReversed_rside, Bool.not_not]
      have : rside v (fun _ => .line) (k, d) = rside v c (k, d) := by
        unfold rside; rw [hc]
      rw [this]; exact hR.seq_refl _
  unfold Rt.keepSeg
  rw [Bool.and_eq_true, Bool.not_eq_true', Bool.not_eq_true', Bool.eq_false_iff, Bool.eq_false_iff, Ne, Ne, hin, hrev]
  cases b <;> cases d <;> simp

/-- `find_loops` on the sides of a ring of which some Walls or NonWalls run each way -/
theorem findLoops_ring (r : RingPts R n v) (hR : R.IsRounding) (hn : n < 125) (hap : Apart R.tol (Set.range v))
    (π : SetOrder) (hπ : π.Ok) (fuel : ℕ) (hf : 2 * n ≤ fuel) (hw : h.WF) (G : List PLine)
    (d : Lists n (rside v c) h (G.flatMap PLine.segs) {x | x.2 = o x.1 ∧ x.1 < n}) (hlen : (G.flatMap PLine.segs).length = n)
    (ha : ∃ k < n, o k = true ∧ c k ≠ .line) (hb : ∃ k < n, o k = false ∧ c k ≠ .line)
    (hvalid : ∀ h' m w, RingFound n v c h' m w → R.plValid (h'.vals m) = true) :
    ∃ h' g P w, R.findLoops π fuel h G = .ok h' g [⟨P, false⟩] ∧ RingFound n v c h' P w := by
  have h3 := r.three
  have hset : (R.setOf h (G.flatMap PLine.segs)).map Prod.fst = G.flatMap PLine.segs := by
    rw [setOf_lists r hR d, tag_fst]
  unfold Rt.findLoops
  rw [hset]
  have hperm := hπ 0 (G.flatMap PLine.segs)
  have hlen' := hperm.length_eq
  rw [hlen] at hlen'
  have d' := d.perm hperm
  generalize π 0 (G.flatMap PLine.segs) = g at hperm hlen' d'
  obtain ⟨a, t, rfl⟩ : ∃ a t, g = a :: t := by
    cases g with
    | nil => simp at hlen'; omega
    | cons a t => exact ⟨a, t, rfl⟩
  have d1 : Lists n (rside v c) h (a :: t) {x | x.2 = o x.1 ∧ x.1 ∈ (Set.univ : Set ℕ) ∧ x.1 < n} := by
    have : {x : ℕ × Bool | x.2 = o x.1 ∧ x.1 ∈ (Set.univ : Set ℕ) ∧ x.1 < n} = {x | x.2 = o x.1 ∧ x.1 < n} := by
      ext x; simp
    rw [this]; exact d'
  obtain ⟨fuel, rfl⟩ : ∃ f, fuel = f + 2 := ⟨fuel - 2, by omega⟩
  have hwalk : ∀ f k h g cyc, R.loopsWalk π (fuel + 2) (f + 1) k h g cyc =
      match R.walkSegments π (fuel + 2) k h g with
      | .timeout => .timeout
      | .raised e => .raised e
      | .no h' => .ok h' g cyc
      | .found h' P =>
        if R.inCycles h' P cyc then .ok h' g cyc
        else R.loopsWalk π (fuel + 2) f (k + 2 * (fuel + 2) + 1) h' (g.filter (R.keepSeg h' P)) (cyc ++ [P]) :=
    fun f k h g cyc => rfl
  rcases walkSegments_ring r hR hn hap (Or.inl fun _ _ => Set.mem_univ _) hπ (fuel + 2) 1 hf hw d1 with
    ⟨h1, e, k1⟩ | ⟨h1, m, w, e, k1, f, -⟩
  · -- the walk finds nothing, the combinations do
    rw [hwalk, e]
    dsimp only
    have d2 := d'.mono k1.le fun s hs => k1.val s (d'.lt s hs)
    obtain ⟨h2, g2, P, w, e2, f2⟩ := comb_full r hR (by omega) hap d2 hlen' hvalid ((a :: t).length + 1) 1 (by omega)
      (by omega) (by omega)
    rw [e2]
    exact ⟨h2, g2, P, w, rfl, f2⟩
  · -- the walk finds the loop
    rw [hwalk, e]
    dsimp only
    rw [show R.inCycles h1 ⟨m, false⟩ [] = false from rfl]
    simp only [Bool.false_eq_true, if_false, List.nil_append]
    have side : ∀ s, ∃ k, s ∈ a :: t → k < n ∧ h1.val s = rside v c (k, o k) := by
      intro s
      by_cases hs : s ∈ a :: t
      · obtain ⟨⟨k, b⟩, ⟨hb, hk⟩, e⟩ := d'.val s hs
        dsimp only at hb hk
        subst hb
        exact ⟨k, fun _ => ⟨hk, by rw [k1.val s (d'.lt s hs), e]⟩⟩
      · exact ⟨0, fun h => absurd h hs⟩
    choose key hkey using side
    have hmem : ∀ s, s ∈ (a :: t).filter (R.keepSeg h1 ⟨m, false⟩) ↔ s ∈ a :: t ∧ o (key s) = !w ∧ c (key s) ≠ .line := by
      intro s
      rw [List.mem_filter]
      constructor
      · rintro ⟨h5, h6⟩
        exact ⟨h5, (keepSeg_ring r hR f (hkey s h5).1 (hkey s h5).2).1 h6⟩
      · rintro ⟨h5, h6⟩
        exact ⟨h5, (keepSeg_ring r hR f (hkey s h5).1 (hkey s h5).2).2 h6⟩
    have hsub : ((a :: t).filter (R.keepSeg h1 ⟨m, false⟩)).Sublist (a :: t) := List.filter_sublist
    have hkey' : ∀ k < n, ∃ s ∈ a :: t, key s = k := by
      intro k hk
      obtain ⟨s, hs, es⟩ := d'.all (k, o k) ⟨rfl, hk⟩
      refine ⟨s, hs, ?_⟩
      have h5 := (hkey s hs).2
      rw [k1.val s (d'.lt s hs), es] at h5
      exact (congrArg Prod.fst (r.inj hR (by exact hk) (by exact (hkey s hs).1) h5)).symm
    have hrest : ∃ k < n, o k = (!w) ∧ c k ≠ .line := by
      cases w
      · exact ha
      · exact hb
    have hother : ∃ k < n, o k = w := by
      cases w
      · obtain ⟨k, hk, h5, -⟩ := hb; exact ⟨k, hk, h5⟩
      · obtain ⟨k, hk, h5, -⟩ := ha; exact ⟨k, hk, h5⟩
    have hlt : ((a :: t).filter (R.keepSeg h1 ⟨m, false⟩)).length < n := by
      obtain ⟨k, hk, h5⟩ := hother
      obtain ⟨s, hs, rfl⟩ := hkey' k hk
      rw [← hlen']
      apply lt_of_le_of_ne hsub.length_le
      intro he
      have := hsub.eq_of_length he
      have h6 := (hmem s).1 (by rw [this]; exact hs)
      rw [h5] at h6
      cases w <;> simp at h6
    obtain ⟨b, u, hbu⟩ : ∃ b u, (a :: t).filter (R.keepSeg h1 ⟨m, false⟩) = b :: u := by
      obtain ⟨k, hk, h5, h6⟩ := hrest
      obtain ⟨s, hs, rfl⟩ := hkey' k hk
      have := (hmem s).2 ⟨hs, h5, h6⟩
      cases hc : (a :: t).filter (R.keepSeg h1 ⟨m, false⟩) with
      | nil => rw [hc] at this; simp at this
      | cons b u => exact ⟨b, u, rfl⟩
    rw [hbu] at hmem hsub hlt ⊢
    have d3 : Lists n (rside v c) h1 (b :: u) {x | x.2 = (fun _ => !w) x.1 ∧ x.1 ∈ {k | o k = (!w) ∧ c k ≠ .line} ∧ x.1 < n} := by
      refine ⟨fun x hx => hx.2.2, hsub.nodup d'.nodup, fun s hs => lt_of_lt_of_le (d'.lt s (hsub.subset hs)) k1.le, ?_, ?_, ?_⟩
      · intro s hs
        obtain ⟨h5, h6, h7⟩ := (hmem s).1 hs
        exact ⟨(key s, !w), ⟨rfl, ⟨h6, h7⟩, (hkey s h5).1⟩, by rw [(hkey s h5).2, h6]⟩
      · rintro ⟨k, b⟩ ⟨h5, ⟨h6, h7⟩, h8⟩
        dsimp only at h5 h6 h7 h8
        obtain ⟨s, hs, rfl⟩ := hkey' k h8
        exact ⟨s, (hmem s).2 ⟨hs, h6, h7⟩, by rw [(hkey s hs).2, h5, h6]⟩
      · intro x hx y hy e
        have hx := hsub.subset hx
        have hy := hsub.subset hy
        rw [k1.val x (d'.lt x hx), k1.val y (d'.lt y hy)] at e
        exact d'.inj x hx y hy e
    rw [hwalk]
    rcases walkSegments_ring r hR hn hap (Or.inr ⟨!w, fun _ _ => rfl⟩) hπ (fuel + 2) (1 + 2 * (fuel + 2) + 1) hf k1.wf d3 with
      ⟨h2, e2, k2⟩ | ⟨h2, m', w', e2, k2, f', hall⟩
    · rw [e2]
      dsimp only
      have hsk := comb_skip (R := R) (h := h2) (g := b :: u) (cyc := [⟨m, false⟩]) (by
        intro p hp hne
        have hv : ∀ s ∈ p, s ∈ a :: t ∧ h2.val s = rside v c (key s, o (key s)) := by
          intro s hs
          have h5 := hsub.subset (hp.subset hs)
          refine ⟨h5, ?_⟩
          rw [k2.val s (lt_of_lt_of_le (d'.lt s h5) k1.le), (hkey s h5).2]
        refine allTwo_proper (c := c) r hR hap key (fun s hs => ⟨(hkey s (hv s hs).1).1, _, (hv s hs).2⟩) ?_ hne ?_
        · apply List.Nodup.map_on _ (hp.nodup d3.nodup)
          intro x hx y hy e
          have hx' := (hv x hx).1
          have hy' := (hv y hy).1
          apply d3.inj x (hp.subset hx) y (hp.subset hy)
          rw [(hkey x hx').2, (hkey y hy').2, e]
        · exact lt_of_le_of_lt hp.length_le hlt) ((b :: u).length + 1) 1 (by omega) (by omega)
      rw [hsk]
      refine ⟨h2, b :: u, m, w, rfl, ⟨?_, ?_, f.length⟩⟩
      · exact f.lists.mono k2.le fun s hs => k2.val s (f.lists.lt s hs)
      · have : h2.vals m = h1.vals m := by
          unfold Heap.vals
          exact List.map_congr_left fun s hs => k2.val s (f.lists.lt s hs)
        rw [this]; exact f.chain
    · exfalso
      obtain ⟨k, hk, h5⟩ := hother
      have := (hall k hk).1
      rw [h5] at this
      cases w <;> simp at this

end

/-- C110: on a group whose segments form a single loop through different, separated points (fewer than 125 segments),
some of its Walls or NonWalls running each way, `find_loops` returns exactly one polygon, which draws the loop once,
head to tail - provided that every head-to-tail drawing of the loop is valid.  This holds for all iteration orders of
sets. -/
theorem C110_mixed_loop (hR : R.IsRounding) (π : SetOrder) (hπ : π.Ok) (fuel : ℕ) (h : Heap K) (G : List PLine) (n : ℕ)
    (p : ZMod n → Pt K) (σ : ZMod n → ℕ) (c : IsCycleOf h (G.flatMap PLine.segs) n p σ)
    (ha : ∃ k, (h.val (σ k)).i = p k ∧ (h.val (σ k)).cls ≠ .line)
    (hb : ∃ k, (h.val (σ k)).i = p (k + 1) ∧ (h.val (σ k)).cls ≠ .line)
    (hap : Apart R.tol (Set.range p)) (hn : n < 125) (hw : h.WF) (hG : ∀ P ∈ G, ∀ s ∈ P.segs, s < h.nseg)
    (hvalid : ∀ l, RingOf n p (fun k => (h.val (σ k)).cls) l → R.plValid l = true) (hf : 2 * n ≤ fuel) :
    ∃ h' g P, R.findLoops π fuel h G = .ok h' g [P] ∧ RingOf n p (fun k => (h.val (σ k)).cls) (h'.vals P.segs) := by
  classical
  have h3 := c.three
  have hn0 : NeZero n := ⟨by omega⟩
  have one : (1 : ZMod n) ≠ 0 := by
    have : Fact (1 < n) := ⟨by omega⟩
    exact one_ne_zero
  have hne : ∀ k, p k ≠ p (k + 1) := fun k e => one (by simpa using c.pinj e)
  have hlt : ∀ s ∈ G.flatMap PLine.segs, s < h.nseg := by
    intro s hs
    obtain ⟨P, hP, hs⟩ := List.mem_flatMap.1 hs
    exact hG P hP s hs
  set v : ℕ → Pt K := fun k => p (k : ZMod n) with hv
  set cc : ℕ → SegCls := fun k => (h.val (σ (k : ZMod n))).cls with hcc
  set o : ℕ → Bool := fun k => decide ((h.val (σ (k : ZMod n))).i = p k) with ho
  have inj : ∀ a b : ℕ, a < n → b < n → ((a : ZMod n) = b ↔ a = b) := by
    intro a b ha hb
    rw [ZMod.natCast_eq_natCast_iff', Nat.mod_eq_of_lt ha, Nat.mod_eq_of_lt hb]
  have r : RingPts R n v := by
    refine ⟨h3, by simp [hv], ?_⟩
    intro a b ha hb
    rw [(C04_apart hR hap ⟨_, rfl⟩ ⟨_, rfl⟩).1, c.pinj.eq_iff, inj a b ha hb]
  have hap' : Apart R.tol (Set.range v) := by
    rintro _ ⟨x, rfl⟩ _ ⟨y, rfl⟩
    exact hap _ ⟨_, rfl⟩ _ ⟨_, rfl⟩
  have hval : ∀ k : ZMod n, h.val (σ k) = rside v cc (k.val, o k.val) := by
    intro k
    unfold rside
    simp only [hv, hcc, ho, ZMod.natCast_zmod_val, Nat.cast_add, Nat.cast_one, decide_eq_true_eq]
    rcases c.ends k with e | e
    · rw [if_pos e.1]
      rw [← e.1, ← e.2]
    · rw [if_neg (by rw [e.1]; exact (hne k).symm)]
      rw [← e.1, ← e.2]
  have hvn : ∀ k < n, h.val (σ (k : ZMod n)) = rside v cc (k, o k) := by
    intro k hk
    have := hval (k : ZMod n)
    rwa [ZMod.val_natCast, Nat.mod_eq_of_lt hk] at this
  have d : Lists n (rside v cc) h (G.flatMap PLine.segs) {x | x.2 = o x.1 ∧ x.1 < n} := by
    refine ⟨fun x hx => hx.2, c.nodup, hlt, ?_, ?_, ?_⟩
    · intro s hs
      obtain ⟨k, rfl⟩ := (c.mem s).1 hs
      exact ⟨_, ⟨rfl, k.val_lt⟩, hval k⟩
    · rintro ⟨k, b⟩ ⟨hb, hk⟩
      dsimp only at hb hk
      exact ⟨σ k, (c.mem _).2 ⟨_, rfl⟩, by rw [hb]; exact hvn k hk⟩
    · intro s hs t ht e
      obtain ⟨a, rfl⟩ := (c.mem s).1 hs
      obtain ⟨b, rfl⟩ := (c.mem t).1 ht
      rw [hval, hval] at e
      have := congrArg Prod.fst (r.inj hR (by exact a.val_lt) (by exact b.val_lt) e)
      rw [ZMod.val_injective n this]
  have ring_of : ∀ h' m w, RingFound n v cc h' m w → RingOf n p (fun k => (h.val (σ k)).cls) (h'.vals m) := by
    intro h' m w f
    refine ⟨by rw [Heap.vals, List.length_map, f.length], f.chain, ?_⟩
    have key : ∀ s, s ∈ h'.vals m ↔ ∃ k : ZMod n, s = rside v cc (k.val, w) := by
      intro s
      constructor
      · intro hs
        obtain ⟨t, ht, rfl⟩ := List.mem_map.1 hs
        obtain ⟨⟨k, b⟩, ⟨hb, hk⟩, e⟩ := f.lists.val t ht
        dsimp only at hb hk
        exact ⟨k, by rw [e, hb, ZMod.val_natCast, Nat.mod_eq_of_lt hk]⟩
      · rintro ⟨k, rfl⟩
        obtain ⟨t, ht, e⟩ := f.lists.all (k.val, w) ⟨rfl, k.val_lt⟩
        rw [← e]
        exact List.mem_map_of_mem ht
    cases w
    · right
      intro s
      rw [key]
      apply exists_congr
      intro k
      unfold rside
      simp only [hv, hcc, ZMod.natCast_zmod_val, Nat.cast_add, Nat.cast_one, if_false, Bool.false_eq_true]
    · left
      intro s
      rw [key]
      apply exists_congr
      intro k
      unfold rside
      simp only [hv, hcc, ZMod.natCast_zmod_val, Nat.cast_add, Nat.cast_one, if_true]
  obtain ⟨h', g, P, w, e, f⟩ := findLoops_ring r hR hn hap' π hπ fuel hf hw G d c.length (by
    obtain ⟨k, h1, h2⟩ := ha
    refine ⟨k.val, k.val_lt, ?_, ?_⟩
    · simp only [ho, ZMod.natCast_zmod_val, h1, decide_true]
    · simpa only [hcc, ZMod.natCast_zmod_val] using h2) (by
    obtain ⟨k, h1, h2⟩ := hb
    refine ⟨k.val, k.val_lt, ?_, ?_⟩
    · simp only [ho, ZMod.natCast_zmod_val, h1, decide_eq_false_iff_not]
      exact (hne k).symm
    · simpa only [hcc, ZMod.natCast_zmod_val] using h2) fun h' m w f => hvalid _ (ring_of h' m w f)
  exact ⟨h', g, ⟨P, false⟩, e, ring_of h' P w f⟩

end Srep
