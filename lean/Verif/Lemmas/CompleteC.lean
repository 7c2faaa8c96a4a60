import Verif.Lemmas.CompleteB

/-!
The combinations stage of `find_loops` finds every simple loop of the segments it is given: the loop over the combinations.
-/

set_option linter.unusedSectionVars false

namespace Srep
variable {K : Type} [Field K] [LinearOrder K] [IsStrictOrderedRing K] [FloorRing K] {R : Rt K}

/-- the segments `S` of `g0` form a simple loop of fewer than 250 sides, valid however it is drawn as a chain -/
def Room (R : Rt K) (h0 : Heap K) (g0 S : List ℕ) : Prop :=
  (∃ (n : ℕ) (p : ZMod n → Pt K) (σ : ZMod n → ℕ), IsCycleOf h0 S n p σ) ∧ (∀ s ∈ S, s ∈ g0) ∧ S.length < 250 ∧
    ∀ l, ClosedChain l → SameDrawing l (h0.vals S) → R.plValid l = true

/-- one of the polygons `c` draws `S` -/
def Found (h0 h : Heap K) (c : List PLine) (S : List ℕ) : Prop := ∃ P ∈ c, SameDrawing (h.vals P.segs) (h0.vals S)

/-- `S` is a simple loop of segments of `g0` -/
def SimpleLoop (h0 : Heap K) (g0 S : List ℕ) : Prop :=
  (∃ (n : ℕ) (p : ZMod n → Pt K) (σ : ZMod n → ℕ), IsCycleOf h0 S n p σ) ∧ ∀ s ∈ S, s ∈ g0

/-- state of the combinations stage -/
structure CInv (R : Rt K) (E : Set (Pt K)) (h0 : Heap K) (g0 : List ℕ) (c0 : List PLine) (h : Heap K) (g : List ℕ) (c : List PLine) : Prop where
  rev : Rev h0 h
  sub : g.Sublist g0
  rem : ∀ v ∈ g0, v ∉ g → ∀ q, At h0 v q → ∀ u ∈ g, ∀ w ∈ g, u ≠ w → At h0 u q → ¬ At h0 w q
  cyc : ∀ P ∈ c, ∀ s ∈ P.segs, (h.val s).i ∈ E ∧ (h.val s).j ∈ E
  found : ∀ S, Room R h0 g0 S → Found h0 h c S ∨ ∀ s ∈ S, s ∈ g
  ring : ∀ P ∈ c, P ∈ c0 ∨ SimpleLoop h0 g0 P.segs

theorem drawing_of_edges {h h' : Heap K} : ∀ l : List ℕ, (∀ s ∈ l, SameEdge (h'.val s) (h.val s)) →
    List.Forall₂ SameEdge (h'.vals l) (h.vals l)
  | [], _ => .nil
  | s :: l, e => .cons (e s List.mem_cons_self) (drawing_of_edges l fun t ht => e t (List.mem_cons_of_mem _ ht))

theorem drawing_perm {h h' : Heap K} {l m : List ℕ} (hp : l.Perm m) (e : ∀ s ∈ m, SameEdge (h'.val s) (h.val s)) :
    SameDrawing (h'.vals l) (h.vals m) :=
  ⟨h'.vals m, (hp.map _).symm, drawing_of_edges m e⟩

theorem Found.rev {h0 h h' : Heap K} {c c' : List PLine} {S : List ℕ} (f : Found h0 h c S) (r : Rev h h')
    (hc : ∀ P ∈ c, P ∈ c') : Found h0 h' c' S := by
  obtain ⟨P, hP, d⟩ := f
  exact ⟨P, hc P hP, (drawing_perm (List.Perm.refl _) fun s _ => (r.val s).edge).trans d⟩

/-- separated points -/
theorem peq_of_apart (hR : R.IsRounding) {E : Set (Pt K)} (hE : Apart R.tol E) {p q : Pt K} (hp : p ∈ E) (hq : q ∈ E)
    (e : R.peq p q = true) : p = q := by
  have := sep_of_apart hR (l := [p, q]) (by
    intro a ha b hb
    simp only [List.mem_cons, List.not_mem_nil, or_false] at ha hb
    apply hE
    · rcases ha with rfl | rfl <;> assumption
    · rcases hb with rfl | rfl <;> assumption)
  exact this p (by simp) q (by simp) e

/-- the ends stay among the points `E` -/
theorem ends_rev {E : Set (Pt K)} {s t : Seg K} (h : s.i ∈ E ∧ s.j ∈ E) (e : SameEdge t s) : t.i ∈ E ∧ t.j ∈ E := by
  rcases e with ⟨a, b⟩ | ⟨a, b⟩ <;> rw [a, b]
  · exact h
  · exact h.symm

/-- equal lists of segments between separated points draw the same -/
theorem drawing_of_plEq (hR : R.IsRounding) {E : Set (Pt K)} (hE : Apart R.tol E) {h : Heap K} {l m : List ℕ}
    (hl : ∀ s ∈ l, (h.val s).i ∈ E ∧ (h.val s).j ∈ E) (hm : ∀ s ∈ m, (h.val s).i ∈ E ∧ (h.val s).j ∈ E)
    (e : R.plEq .polygonLine (h.vals l) .polygonLine (h.vals m) = true) : h.vals l = h.vals m := by
  unfold Rt.plEq at e
  simp only [Bool.and_eq_true, decide_eq_true_eq, List.all_eq_true] at e
  obtain ⟨⟨-, hlen⟩, hall⟩ := e
  apply List.ext_getElem hlen
  intro k h1 h2
  have hz := hall ((h.vals l)[k], (h.vals m)[k]) (by
    rw [List.mem_iff_getElem]
    exact ⟨k, by rw [List.length_zip]; omega, by simp⟩)
  have mem : ∀ (l : List ℕ) (hk : k < (h.vals l).length), ∃ s ∈ l, (h.vals l)[k] = h.val s := by
    intro l hk
    obtain ⟨s, hs, e⟩ := List.mem_map.1 (List.getElem_mem hk)
    exact ⟨s, hs, e.symm⟩
  obtain ⟨s, hs, es⟩ := mem l h1
  obtain ⟨t, ht, et⟩ := mem m h2
  rw [es, et] at hz ⊢
  simp only [Rt.seq, Bool.and_eq_true, decide_eq_true_eq] at hz
  have e1 := peq_of_apart hR hE (hl s hs).1 (hm t ht).1 hz.1.2
  have e2 := peq_of_apart hR hE (hl s hs).2 (hm t ht).2 hz.2
  have e3 := hz.1.1
  generalize h.val s = a at *
  generalize h.val t = b at *
  cases a; cases b
  simp only at e1 e2 e3
  rw [e1, e2, e3]

/-- a closed valid list of segments: each touches the next, the last the first -/
theorem chain_touch (hR : R.IsRounding) {h : Heap K} {ret : List ℕ} (o : NetOk R h ret) (h3 : 3 ≤ ret.length)
    (hc : R.isClosed (h.vals ret) = .ok true) (k : ℕ) (hk : k < ret.length) :
    ∃ q, At h ret[k] q ∧ At h (ret[(k + 1) % ret.length]'(Nat.mod_lt _ (by omega))) q := by
  unfold Rt.isClosed at hc
  split_ifs at hc with hcont
  swap
  · cases hc
  have hlen : (h.vals ret).length = ret.length := by simp [Heap.vals]
  rcases Nat.lt_or_ge (k + 1) ret.length with h' | h'
  · rw [getElem_congr_idx (Nat.mod_eq_of_lt h')]
    unfold Rt.isContinuous at hcont
    rw [List.all_eq_true] at hcont
    have := hcont (h.val ret[k], h.val ret[k + 1]) (by
      rw [List.mem_iff_getElem]
      exact ⟨k, by rw [List.length_zip, List.length_tail, hlen]; omega, by simp [Heap.vals]⟩)
    unfold Rt.continuous at this
    rw [Bool.and_eq_true, Bool.or_eq_true] at this
    have m1 := List.getElem_mem hk
    have m2 := List.getElem_mem h'
    rcases this.2 with e | e
    · have := o.peq hR (mem_locs.2 ⟨_, m1, at_j h _⟩) (mem_locs.2 ⟨_, m2, at_i h _⟩) e
      exact ⟨_, at_j h _, this ▸ at_i h _⟩
    · have := o.peq hR (mem_locs.2 ⟨_, m1, at_i h _⟩) (mem_locs.2 ⟨_, m2, at_j h _⟩) e
      exact ⟨_, at_i h _, this ▸ at_j h _⟩
  · have hk' : k = ret.length - 1 := by omega
    rw [getElem_congr_idx (show (k + 1) % ret.length = 0 by rw [show k + 1 = ret.length by omega, Nat.mod_self])]
    have e1 : (h.vals ret).head? = some (h.val ret[0]) := by
      rw [List.head?_eq_getElem?, List.getElem?_eq_getElem (by omega)]
      simp [Heap.vals]
    have e2 : (h.vals ret).getLast? = some (h.val ret[k]) := by
      rw [List.getLast?_eq_getElem?, List.getElem?_eq_getElem (by omega)]
      simp [Heap.vals, hk']
    rw [e1, e2] at hc
    injection hc with hc
    have := o.peq hR (mem_locs.2 ⟨_, List.getElem_mem _, at_i h _⟩) (mem_locs.2 ⟨_, List.getElem_mem hk, at_j h _⟩) hc
    exact ⟨_, at_j h _, this ▸ at_i h _⟩

theorem IsCycleOf.edges {h0 h : Heap K} {S m : List ℕ} {n : ℕ} {p : ZMod n → Pt K} {σ : ZMod n → ℕ} (c : IsCycleOf h0 S n p σ)
    (hp : m.Perm S) (e : ∀ s ∈ S, SameEdge (h.val s) (h0.val s)) : IsCycleOf h m n p σ := by
  refine ⟨c.three, c.pinj, c.sinj, hp.nodup_iff.2 c.nodup, fun s => by rw [hp.mem_iff, c.mem], fun k => ?_⟩
  have := e (σ k) ((c.mem _).2 ⟨k, rfl⟩)
  rcases this with ⟨a, b⟩ | ⟨a, b⟩ <;> rw [a, b]
  · exact c.ends k
  · exact (c.ends k).symm.imp (fun ⟨x, y⟩ => ⟨y, x⟩) fun ⟨x, y⟩ => ⟨y, x⟩

/-- the segments that stay in the graph -/
theorem keepSeg_iff (hR : R.IsRounding) {h : Heap K} {g0 ret : List ℕ} (o : NetOk R h g0) (hr : ∀ s ∈ ret, s ∈ g0) {x : ℕ}
    (hx : x ∈ g0) : R.keepSeg h ⟨ret, false⟩ x = true ↔ x ∉ ret := by
  unfold Rt.keepSeg
  rw [Bool.and_eq_true, Bool.not_eq_true', Bool.not_eq_true', Bool.eq_false_iff, Bool.eq_false_iff, Ne, Ne,
    inSegs_iff o hR hx hr]
  refine ⟨fun h => h.1, fun hn => ⟨hn, ?_⟩⟩
  rw [List.any_eq_true]
  rintro ⟨y, hy, e⟩
  simp only [Rt.seq, Bool.and_eq_true, decide_eq_true_eq, Seg.lineReversed] at e
  have e1 := o.peq hR (mem_locs.2 ⟨y, hr y hy, at_i h y⟩) (mem_locs.2 ⟨x, hx, at_j h x⟩) e.1.2
  have e2 := o.peq hR (mem_locs.2 ⟨y, hr y hy, at_j h y⟩) (mem_locs.2 ⟨x, hx, at_i h x⟩) e.2
  exact hn (o.db y (hr y hy) x hx (Or.inr ⟨e1, e2⟩) ▸ hy)

/-- segments of which each touches the next one, and of which no three meet, form a simple loop -/
theorem loop_of_touch {h : Heap K} {ret : List ℕ} (hnd : ret.Nodup) (h3 : 3 ≤ ret.length)
    (ht : ∀ (k : ℕ) (hk : k < ret.length),
      ∃ q, At h ret[k] q ∧ At h (ret[(k + 1) % ret.length]'(Nat.mod_lt _ (by omega))) q)
    (h2 : ∀ u ∈ ret, ∀ v ∈ ret, ∀ w ∈ ret, u ≠ v → u ≠ w → v ≠ w → ∀ q, At h u q → At h v q → ¬ At h w q) :
    ∃ (n : ℕ) (p : ZMod n → Pt K) (σ : ZMod n → ℕ), IsCycleOf h ret n p σ := by
  classical
  set n := ret.length with hn
  have hn0 : NeZero n := ⟨by omega⟩
  have hfac : Fact (1 < n) := ⟨by omega⟩
  set σ : ZMod n → ℕ := fun k => ret[k.val]'k.val_lt with hσ
  have sinj : Function.Injective σ := fun a b e => ZMod.val_injective n ((hnd.getElem_inj_iff).1 e)
  have smem : ∀ k, σ k ∈ ret := fun k => List.getElem_mem _
  have touch : ∀ k : ZMod n, ∃ q, At h (σ (k - 1)) q ∧ At h (σ k) q := by
    intro k
    obtain ⟨q, a, b⟩ := ht (k - 1).val (k - 1).val_lt
    refine ⟨q, a, ?_⟩
    have e : ((k - 1).val + 1) % ret.length = k.val := by
      have : (k - 1 + 1).val = ((k - 1).val + 1) % n := by rw [ZMod.val_add, ZMod.val_one]
      rw [sub_add_cancel] at this
      exact this.symm
    rw [getElem_congr_idx e] at b
    exact b
  choose p hp1 hp2 using touch
  have one : (1 : ZMod n) ≠ 0 := by
    intro e
    have := congrArg ZMod.val e
    rw [ZMod.val_one, ZMod.val_zero] at this
    omega
  have two : (1 : ZMod n) + 1 ≠ 0 := by
    intro e
    have := congrArg ZMod.val e
    rw [ZMod.val_add, ZMod.val_one, ZMod.val_zero, Nat.mod_eq_of_lt (by omega)] at this
    omega
  have ne1 : ∀ k : ZMod n, k - 1 ≠ k := fun k e => one (by simpa using e)
  have ne2 : ∀ k : ZMod n, k - 1 - 1 ≠ k := fun k e => two (by
    have : k - (1 + 1) = k := by rw [← sub_sub]; exact e
    simpa using this)
  have three : ∀ (a b c : ZMod n) (q : Pt K), a ≠ b → a ≠ c → b ≠ c → At h (σ a) q → At h (σ b) q → ¬ At h (σ c) q :=
    fun a b c q h4 h5 h6 => h2 _ (smem a) _ (smem b) _ (smem c) (sinj.ne h4) (sinj.ne h5) (sinj.ne h6) q
  have pinj : Function.Injective p := by
    intro a b e
    by_contra hab
    by_cases hb : b = a - 1
    · subst hb
      exact three a (a - 1) (a - 1 - 1) (p a) (ne1 a).symm (ne2 a).symm (ne1 _).symm (hp2 a) (e ▸ hp2 (a - 1)) (e ▸ hp1 (a - 1))
    · exact three a (a - 1) b (p a) (ne1 a).symm hab (Ne.symm hb) (hp2 a) (hp1 a) (e ▸ hp2 b)
  refine ⟨n, p, σ, h3, pinj, sinj, hnd, fun s => ⟨fun hs => ?_, ?_⟩, fun k => ?_⟩
  · obtain ⟨k, hk, rfl⟩ := List.mem_iff_getElem.1 hs
    refine ⟨(k : ZMod n), ?_⟩
    rw [hσ]
    exact getElem_congr_idx (ZMod.val_natCast_of_lt hk).symm
  · rintro ⟨k, rfl⟩; exact smem k
  · have a := hp2 k
    have b := hp1 (k + 1)
    rw [add_sub_cancel_right] at b
    have hne : p k ≠ p (k + 1) := pinj.ne (by simpa using one)
    rcases a with a | a <;> rcases b with b | b
    · exact absurd (a.symm.trans b) hne
    · exact Or.inl ⟨a, b⟩
    · exact Or.inr ⟨b, a⟩
    · exact absurd (a.symm.trans b) hne

/-- no three segments of a combination that is examined meet -/
theorem two_of_allTwo (hR : R.IsRounding) {h : Heap K} {p : List ℕ} (o : NetOk R h p)
    (h2 : R.allTwo (endPts (h.vals p)) = true) {u v w : ℕ} (hu : u ∈ p) (hv : v ∈ p) (hw : w ∈ p) (huv : u ≠ v)
    (huw : u ≠ w) (hvw : v ≠ w) (q : Pt K) (au : At h u q) (av : At h v q) : ¬ At h w q := by
  classical
  intro aw
  rw [C70_examined hR _ (by
    have e : Ends (h.vals p) ⊆ locs h p := by
      intro q hq
      unfold Ends Heap.vals at hq
      unfold locs
      simpa using hq
    exact fun a ha b hb => o.ap a (e ha) b (e hb))] at h2
  have hq : q ∈ endPts (h.vals p) := by
    rw [mem_endPts']
    refine ⟨h.val u, List.mem_map_of_mem hu, ?_⟩
    rcases au with e | e
    · exact Or.inl e.symm
    · exact Or.inr e.symm
  have h4 := h2.2 q hq
  rw [count_at q p o.null] at h4
  have hsub : [u, v, w].Subperm (p.filter fun s => decide (At h s q)) := by
    apply List.Nodup.subperm
    · simp [huv, huw, hvw]
    · intro x hx
      simp only [List.mem_cons, List.not_mem_nil, or_false] at hx
      rw [List.mem_filter, decide_eq_true_eq]
      rcases hx with rfl | rfl | rfl
      · exact ⟨hu, au⟩
      · exact ⟨hv, av⟩
      · exact ⟨hw, aw⟩
  have := hsub.length_le
  simp at this
  omega

/-- one combination -/
theorem loopsTry_complete (hR : R.IsRounding) {E : Set (Pt K)} (hE : Apart R.tol E) {h0 : Heap K} {g0 : List ℕ} {c0 : List PLine} (hE0 : locs h0 g0 ⊆ E)
    (o : NetOk R h0 g0) {h : Heap K} {g : List ℕ} {c : List PLine} (v : CInv R E h0 g0 c0 h g c) {p : List ℕ} (hp : ∀ s ∈ p, s ∈ g0) (hpn : p.Nodup) (hne : p ≠ [])
    (hlen : p.length < 250) :
    ∃ h' g' c', R.loopsTry h g c p = .ok h' g' c' ∧ CInv R E h0 g0 c0 h' g' c' ∧ g'.Sublist g ∧ (∀ P ∈ c, P ∈ c') ∧
      (∀ S, Room R h0 g0 S → Found h0 h c S ∨ p.Perm S → Found h0 h' c' S) := by
  have oh : NetOk R h g0 := o.edges fun s _ => (v.rev.val s).edge
  have op : NetOk R h p := oh.sub hpn hp
  unfold Rt.loopsTry
  by_cases h2 : R.allTwo (endPts (h.vals p)) = true
  swap
  · rw [Bool.not_eq_true] at h2
    rw [h2]
    refine ⟨h, g, c, rfl, v, List.Sublist.refl _, fun _ h => h, ?_⟩
    rintro S ⟨⟨n, q, σ, cy⟩, -⟩ (f | hpS)
    · exact f
    · have := (cy.edges (h := h) hpS fun s _ => (v.rev.val s).edge).allTwo hR op.ap
      rw [h2] at this
      cases this
  rw [h2, if_neg (by simp)]
  have rv := rev_order hR h ⟨p, false⟩
  rcases order_three hR op hne hlen with ⟨h', e⟩ | ⟨h', ret, e, h3⟩
  · rw [e] at rv
    have rv : Rev h h' := rv
    rw [e]
    refine ⟨h', g, c, rfl, ⟨v.rev.trans rv, v.sub, v.rem, ?_, ?_, ?_⟩, List.Sublist.refl _, fun _ h => h, ?_⟩
    · intro P hP s hs
      exact ends_rev (v.cyc P hP s hs) (rv.val s).edge
    · intro S hS
      exact (v.found S hS).imp (fun f => f.rev rv fun _ h => h) id
    · exact v.ring
    · rintro S ⟨⟨n, q, σ, cy⟩, -⟩ (f | hpS)
      · exact f.rev rv fun _ h => h
      · obtain ⟨h'', l, e', -⟩ := C76_restores_cycle hR h ⟨p, false⟩ n q σ
          (cy.edges (h := h) hpS fun s _ => (v.rev.val s).edge) op.ap hlen
        rw [e] at e'
        cases e'
  · rw [e] at rv
    have rv : Rev h h' := rv
    have rv0 : Rev h0 h' := v.rev.trans rv
    obtain ⟨hsub, hrn, hrne⟩ := C48_sublist hR h ⟨p, false⟩ h' ret e
    have hsub : ∀ s ∈ ret, s ∈ p := hsub
    have hsub0 : ∀ s ∈ ret, s ∈ g0 := fun s hs => hp s (hsub s hs)
    have o' : NetOk R h' g0 := o.edges fun s _ => (rv0.val s).edge
    have or' : NetOk R h' ret := o'.sub hrn hsub0
    have hvne : h'.vals ret ≠ [] := by
      intro e
      have := congrArg List.length e
      rw [Heap.vals, List.length_map] at this
      simp at this
      exact hrne this
    -- the combination is a loop
    have loop : ∀ S, Room R h0 g0 S → p.Perm S → R.plValid (h'.vals ret) = true ∧ R.isClosed (h'.vals ret) = .ok true ∧
        SameDrawing (h'.vals ret) (h0.vals S) := by
      rintro S ⟨⟨n, q, σ, cy⟩, hS0, hS, hval⟩ hpS
      obtain ⟨h'', l, e', hperm, hch, -⟩ := C76_restores_cycle hR h ⟨p, false⟩ n q σ
        (cy.edges (h := h) hpS fun s _ => (v.rev.val s).edge) op.ap hlen
      rw [e] at e'
      cases e'
      have d : SameDrawing (h'.vals ret) (h0.vals S) := drawing_perm (hperm.trans hpS) fun s _ => (rv0.val s).edge
      exact ⟨hval _ hch d, isClosed_of_chain hR hvne hch, d⟩
    have cyc' : ∀ P ∈ c, ∀ s ∈ P.segs, (h'.val s).i ∈ E ∧ (h'.val s).j ∈ E := by
      intro P hP s hs
      exact ends_rev (v.cyc P hP s hs) (rv.val s).edge
    have cycr : ∀ s ∈ ret, (h'.val s).i ∈ E ∧ (h'.val s).j ∈ E := fun s hs =>
      ends_rev ⟨hE0 (mem_locs.2 ⟨s, hsub0 s hs, at_i h0 s⟩), hE0 (mem_locs.2 ⟨s, hsub0 s hs, at_j h0 s⟩)⟩ (rv0.val s).edge
    have same : CInv R E h0 g0 c0 h' g c := ⟨rv0, v.sub, v.rem, cyc', fun S hS =>
      (v.found S hS).imp (fun f => f.rev rv fun _ h => h) id, v.ring⟩
    have ring : R.isClosed (h'.vals ret) = .ok true → ∀ P ∈ c ++ [⟨ret, false⟩], P ∈ c0 ∨ SimpleLoop h0 g0 P.segs := by
      intro hcl P hP
      rw [List.mem_append, List.mem_singleton] at hP
      rcases hP with hP | rfl
      · exact v.ring P hP
      · obtain ⟨n, q, σ, cy⟩ := loop_of_touch hrn h3 (chain_touch hR or' h3 hcl) (by
          intro u hu y hy w hw h4 h5 h6 q a1 a2 a3
          exact two_of_allTwo hR op h2 (hsub u hu) (hsub y hy) (hsub w hw) h4 h5 h6 q ((rv.at u q).1 a1) ((rv.at y q).1 a2)
            ((rv.at w q).1 a3))
        exact Or.inr ⟨⟨n, q, σ, cy.edges (List.Perm.refl _) fun s _ => (rv0.val s).edge.symm⟩, hsub0⟩
    rw [e]
    dsimp only
    cases hv : R.plValid (h'.vals ret) with
    | false =>
      refine ⟨h', g, c, rfl, same, List.Sublist.refl _, fun _ h => h, ?_⟩
      rintro S hS (f | hpS)
      · exact f.rev rv fun _ h => h
      · have := (loop S hS hpS).1
        rw [hv] at this
        cases this
    | true =>
      cases hcl : R.isClosed (h'.vals ret) with
      | error x =>
        exfalso
        unfold Rt.isClosed at hcl
        split_ifs at hcl
        obtain ⟨a, t, ea⟩ := List.exists_cons_of_ne_nil hvne
        rw [ea] at hcl
        rw [List.head?_cons, List.getLast?_cons] at hcl
        cases hcl
      | ok b =>
        dsimp only
        split_ifs with hb hcnt
        · -- a new loop without branches
          rw [Bool.and_eq_true, Bool.not_eq_true'] at hb
          have hcl : R.isClosed (h'.vals ret) = .ok true := by rw [hcl, hb.1]
          have hmem : ∀ x, x ∈ g.filter (R.keepSeg h' ⟨ret, false⟩) ↔ x ∈ g ∧ x ∉ ret := by
            intro x
            rw [List.mem_filter]
            refine and_congr_right fun hx => keepSeg_iff hR o' hsub0 (v.sub.subset hx)
          have hcnt' : ∀ x ∈ ret, ∀ q, At h0 x q → ∀ u ∈ g, ∀ y ∈ g, ∀ w ∈ g, u ≠ y → u ≠ w → y ≠ w → At h0 u q →
              At h0 y q → ¬ At h0 w q := by
            intro x hx q hq u hu y hy w hw h1 h2 h3 a1 a2 a3
            rw [List.all_eq_true] at hcnt
            have hq' : q ∈ endPts (h'.vals ret) := by
              rw [mem_endPts']
              refine ⟨h'.val x, List.mem_map_of_mem hx, ?_⟩
              rcases (rv0.at x q).2 hq with e | e
              · exact Or.inl e.symm
              · exact Or.inr e.symm
            have := of_decide_eq_true (hcnt q hq')
            have h4 := three_at hR hu hy hw h1 h2 h3 ((rv0.at u q).2 a1) ((rv0.at y q).2 a2) ((rv0.at w q).2 a3)
            omega
          refine ⟨h', _, _, rfl, ⟨rv0, (List.filter_sublist).trans v.sub, ?_, ?_, ?_, ring hcl⟩, List.filter_sublist,
            fun _ h => List.mem_append_left _ h, ?_⟩
          · intro x hx hxg q hq u hu w hw huw a1 a2
            rw [hmem] at hxg hu hw
            by_cases hxr : x ∈ g
            · have hxret : x ∈ ret := by by_contra hn; exact hxg ⟨hxr, hn⟩
              refine hcnt' x hxret q hq x hxr u hu.1 w hw.1 ?_ ?_ huw hq a1 a2
              · rintro rfl; exact hu.2 hxret
              · rintro rfl; exact hw.2 hxret
            · exact v.rem x hx hxr q hq u hu.1 w hw.1 huw a1 a2
          · intro P hP s hs
            rw [List.mem_append, List.mem_singleton] at hP
            rcases hP with hP | rfl
            · exact cyc' P hP s hs
            · exact cycr s hs
          · intro S hS
            rcases v.found S hS with f | hg
            · exact Or.inl (f.rev rv fun _ h => List.mem_append_left _ h)
            · by_cases hx : ∃ x ∈ S, x ∈ ret
              · obtain ⟨x, hxS, hxr⟩ := hx
                obtain ⟨⟨n, q, σ, cy⟩, -⟩ := hS
                have hperm := cy.unique hg hrn h3 hsub0 (fun k hk => by
                  obtain ⟨q, a1, a2⟩ := chain_touch hR or' h3 hcl k hk
                  exact ⟨q, (rv0.at _ q).1 a1, (rv0.at _ q).1 a2⟩) hcnt' v.rem hxS hxr
                exact Or.inl ⟨⟨ret, false⟩, by simp, drawing_perm hperm fun s _ => (rv0.val s).edge⟩
              · push Not at hx
                exact Or.inr fun s hs => (hmem s).2 ⟨hg s hs, hx s hs⟩
          · rintro S hS (f | hpS)
            · exact f.rev rv fun _ h => List.mem_append_left _ h
            · exact ⟨⟨ret, false⟩, by simp, (loop S hS hpS).2.2⟩
        · -- a new loop with branches
          rw [Bool.and_eq_true, Bool.not_eq_true'] at hb
          have hcl : R.isClosed (h'.vals ret) = .ok true := by rw [hcl, hb.1]
          refine ⟨h', _, _, rfl, ⟨rv0, v.sub, v.rem, ?_, ?_, ring hcl⟩, List.Sublist.refl _, fun _ h => List.mem_append_left _ h, ?_⟩
          · intro P hP s hs
            rw [List.mem_append, List.mem_singleton] at hP
            rcases hP with hP | rfl
            · exact cyc' P hP s hs
            · exact cycr s hs
          · intro S hS
            exact (v.found S hS).imp (fun f => f.rev rv fun _ h => List.mem_append_left _ h) id
          · rintro S hS (f | hpS)
            · exact f.rev rv fun _ h => List.mem_append_left _ h
            · exact ⟨⟨ret, false⟩, by simp, (loop S hS hpS).2.2⟩
        · -- open, or a loop that is known
          refine ⟨h', g, c, rfl, same, List.Sublist.refl _, fun _ h => h, ?_⟩
          rintro S hS (f | hpS)
          · exact f.rev rv fun _ h => h
          · obtain ⟨-, l2, l3⟩ := loop S hS hpS
            rw [hcl] at l2
            injection l2 with l2
            subst l2
            simp only [Bool.true_and, Bool.not_eq_true', Bool.not_eq_false] at hb
            unfold Rt.inCycles at hb
            rw [List.any_eq_true] at hb
            obtain ⟨Q, hQ, e⟩ := hb
            refine ⟨Q, hQ, ?_⟩
            rw [drawing_of_plEq hR hE (cyc' Q hQ) cycr e]
            exact l3

/-- the combinations of one length -/
theorem loopsCombs_complete (hR : R.IsRounding) {E : Set (Pt K)} (hE : Apart R.tol E) {h0 : Heap K} {g0 : List ℕ} {c0 : List PLine} (hE0 : locs h0 g0 ⊆ E)
    (o : NetOk R h0 g0) : ∀ (ps : List (List ℕ))
    (h : Heap K) (g : List ℕ) (c : List PLine), CInv R E h0 g0 c0 h g c →
    (∀ p ∈ ps, (∀ s ∈ p, s ∈ g0) ∧ p.Nodup ∧ p ≠ [] ∧ p.length < 250) →
    ∃ h' g' c', R.loopsCombs ps h g c = .ok h' g' c' ∧ CInv R E h0 g0 c0 h' g' c' ∧ g'.Sublist g ∧ (∀ P ∈ c, P ∈ c') ∧
      (∀ S, Room R h0 g0 S → (Found h0 h c S ∨ ∃ p ∈ ps, p.Perm S) → Found h0 h' c' S)
  | [], h, g, c, v, _ => ⟨h, g, c, rfl, v, List.Sublist.refl _, fun _ h => h, by
      rintro S hS (f | ⟨p, hp, -⟩)
      · exact f
      · simp at hp⟩
  | p :: ps, h, g, c, v, hps => by
    obtain ⟨a1, a2, a3, a4⟩ := hps p List.mem_cons_self
    obtain ⟨h1, g1, c1, e1, v1, s1, k1, f1⟩ := loopsTry_complete hR hE hE0 o v a1 a2 a3 a4
    obtain ⟨h2, g2, c2, e2, v2, s2, k2, f2⟩ := loopsCombs_complete hR hE hE0 o ps h1 g1 c1 v1 fun q hq => hps q (List.mem_cons_of_mem _ hq)
    refine ⟨h2, g2, c2, ?_, v2, s2.trans s1, fun P hP => k2 P (k1 P hP), ?_⟩
    · unfold Rt.loopsCombs
      rw [e1]
      exact e2
    · rintro S hS (f | ⟨q, hq, hqS⟩)
      · exact f2 S hS (Or.inl (f1 S hS (Or.inl f)))
      · rcases List.mem_cons.1 hq with rfl | hq
        · exact f2 S hS (Or.inl (f1 S hS (Or.inr hqS)))
        · exact f2 S hS (Or.inr ⟨q, hq, hqS⟩)

/-- all combinations -/
theorem loopsComb_complete (hR : R.IsRounding) {E : Set (Pt K)} (hE : Apart R.tol E) {h0 : Heap K} {g0 : List ℕ} {c0 : List PLine} (hE0 : locs h0 g0 ⊆ E)
    (o : NetOk R h0 g0) (hlen : g0.length < 250) :
    ∀ (fuel m : ℕ) (h : Heap K) (g : List ℕ) (c : List PLine), CInv R E h0 g0 c0 h g c → m ≤ g0.length + 1 →
    g0.length + 2 ≤ fuel + m → (∀ S, Room R h0 g0 S → S.length ≤ m → Found h0 h c S) →
    ∃ h' g' c', R.loopsComb fuel m h g c = .ok h' g' c' ∧ Rev h0 h' ∧ (∀ P ∈ c, P ∈ c') ∧
      (∀ P ∈ c', P ∈ c0 ∨ SimpleLoop h0 g0 P.segs) ∧ ∀ S, Room R h0 g0 S → Found h0 h' c' S
  | 0, m, h, g, c, v, h1, h2, hf => by omega
  | fuel + 1, m, h, g, c, v, h1, h2, hf => by
    classical
    have hg := v.sub.length_le
    unfold Rt.loopsComb
    split_ifs with hm
    · obtain ⟨h', g', c', e, v', s', k', f'⟩ := loopsCombs_complete hR hE hE0 o (combos (m + 1) g) h g c v (by
        intro p hp
        rw [mem_combos] at hp
        refine ⟨fun s hs => v.sub.subset (hp.1.subset hs), hp.1.nodup (v.sub.nodup o.nodup), ?_, ?_⟩
        · rintro rfl
          simp at hp
        · have := hp.1.length_le
          omega)
      rw [e]
      have next : ∀ S, Room R h0 g0 S → S.length ≤ m + 1 → Found h0 h' c' S := by
        intro S hS hSl
        apply f' S hS
        rcases Nat.lt_or_ge m S.length with h4 | h4
        · rcases v.found S hS with f | hSg
          · exact Or.inl f
          · right
            obtain ⟨⟨n, q, σ, cy⟩, -⟩ := hS
            have hp : (g.filter fun s => decide (s ∈ S)).Perm S := by
              rw [List.perm_ext_iff_of_nodup ((v.sub.nodup o.nodup).filter _) cy.nodup]
              intro s
              rw [List.mem_filter, decide_eq_true_eq]
              exact ⟨fun h => h.2, fun h => ⟨hSg s h, h⟩⟩
            refine ⟨_, ?_, hp⟩
            rw [mem_combos]
            exact ⟨List.filter_sublist, by rw [hp.length_eq]; omega⟩
        · exact Or.inl (hf S hS h4)
      obtain ⟨h2, g2, c2, e2, r2, k2, l2, f2⟩ := loopsComb_complete hR hE hE0 o hlen fuel (m + 1) h' g' c' v' (by omega)
        (by omega) next
      exact ⟨h2, g2, c2, e2, r2, fun P hP => k2 P (k' P hP), l2, f2⟩
    · refine ⟨h, g, c, rfl, v.rev, fun _ h => h, v.ring, ?_⟩
      intro S hS
      rcases v.found S hS with f | hSg
      · exact f
      · obtain ⟨⟨n, q, σ, cy⟩, -⟩ := id hS
        exact hf S hS (by have := (cy.nodup.subperm hSg).length_le; omega)

end Srep
