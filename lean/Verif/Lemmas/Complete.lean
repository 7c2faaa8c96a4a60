import Verif.Props.LoopsVessel

/-!
The combinations stage of `find_loops` finds every simple loop of the segments it is given.
-/

set_option linter.unusedSectionVars false

namespace Srep
variable {K : Type} [Field K] [LinearOrder K] [IsStrictOrderedRing K] [FloorRing K] {R : Rt K}

/-- `h` differs from `h0` only in the direction of segments -/
structure Rev (h0 h : Heap K) : Prop where
  pt : h.pt = h0.pt
  npt : h.npt = h0.npt
  nseg : h.nseg = h0.nseg
  turned : ∀ s, h.seg s = h0.seg s ∨ h.seg s = ⟨(h0.seg s).j, (h0.seg s).i, (h0.seg s).cls⟩

theorem Rev.refl (h : Heap K) : Rev h h := ⟨rfl, rfl, rfl, fun _ => Or.inl rfl⟩

theorem Rev.trans {a b c : Heap K} (x : Rev a b) (y : Rev b c) : Rev a c := by
  refine ⟨y.pt.trans x.pt, y.npt.trans x.npt, y.nseg.trans x.nseg, fun s => ?_⟩
  rcases x.turned s with e | e <;> rcases y.turned s with e' | e' <;> rw [e', e]
  · exact Or.inl rfl
  · exact Or.inr rfl
  · exact Or.inr rfl
  · exact Or.inl rfl

theorem rev_order (hR : R.IsRounding) (h : Heap K) (P : PLine) : Rev h ((R.order h P).heap h) := by
  have := C48_only_reverses hR h P
  exact ⟨this.1, this.2.1, this.2.2.1, this.2.2.2.2⟩

theorem Rev.val {h0 h : Heap K} (x : Rev h0 h) (s : ℕ) : UpToReversal (h0.val s) (h.val s) := by
  rcases x.turned s with e | e
  · left; unfold Heap.val; rw [e, x.pt]
  · right; unfold Heap.val; rw [e, x.pt]

theorem UpToReversal.edge {s t : Seg K} (h : UpToReversal s t) : SameEdge t s := by
  rcases h with rfl | rfl
  · exact Or.inl ⟨rfl, rfl⟩
  · exact Or.inr ⟨rfl, rfl⟩

/-- segment `s` has an end at `q` -/
def At (h : Heap K) (s : ℕ) (q : Pt K) : Prop := (h.val s).i = q ∨ (h.val s).j = q

theorem at_of_edge {h h' : Heap K} {s t : ℕ} (e : SameEdge (h'.val t) (h.val s)) (q : Pt K) : At h' t q ↔ At h s q := by
  unfold At
  rcases e with ⟨a, b⟩ | ⟨a, b⟩ <;> rw [a, b]
  exact or_comm

theorem Rev.at {h0 h : Heap K} (x : Rev h0 h) (s : ℕ) (q : Pt K) : At h s q ↔ At h0 s q := at_of_edge (x.val s).edge q

/-- different segments between separated points, none of length zero and none drawn twice -/
structure NetOk (R : Rt K) (h : Heap K) (g : List ℕ) : Prop where
  nodup : g.Nodup
  ap : Apart R.tol (locs h g)
  null : ∀ s ∈ g, (h.val s).i ≠ (h.val s).j
  db : ∀ s ∈ g, ∀ t ∈ g, SameEdge (h.val s) (h.val t) → s = t

theorem mem_locs {h : Heap K} {g : List ℕ} {q : Pt K} : q ∈ locs h g ↔ ∃ s ∈ g, At h s q := by
  unfold locs At
  constructor
  · rintro ⟨s, hs, e | e⟩
    · exact ⟨s, hs, Or.inl e.symm⟩
    · exact ⟨s, hs, Or.inr e.symm⟩
  · rintro ⟨s, hs, e | e⟩
    · exact ⟨s, hs, Or.inl e.symm⟩
    · exact ⟨s, hs, Or.inr e.symm⟩

theorem NetOk.edges {h h' : Heap K} {g : List ℕ} (o : NetOk R h g) (e : ∀ s ∈ g, SameEdge (h'.val s) (h.val s)) :
    NetOk R h' g := by
  refine ⟨o.nodup, ?_, ?_, ?_⟩
  · intro p hp q hq hne
    obtain ⟨s, hs, a⟩ := mem_locs.1 hp
    obtain ⟨t, ht, b⟩ := mem_locs.1 hq
    exact o.ap p (mem_locs.2 ⟨s, hs, (at_of_edge (e s hs) p).1 a⟩) q (mem_locs.2 ⟨t, ht, (at_of_edge (e t ht) q).1 b⟩) hne
  · intro s hs
    rcases e s hs with ⟨a, b⟩ | ⟨a, b⟩ <;> rw [a, b]
    · exact o.null s hs
    · exact (o.null s hs).symm
  · intro s hs t ht x
    exact o.db s hs t ht (((e s hs).symm.trans x).trans (e t ht))

theorem NetOk.sub {h : Heap K} {g p : List ℕ} (o : NetOk R h g) (hp : p.Nodup) (hs : ∀ s ∈ p, s ∈ g) : NetOk R h p := by
  refine ⟨hp, ?_, fun s h => o.null s (hs s h), fun s h t ht => o.db s (hs s h) t (hs t ht)⟩
  intro a ha b hb
  obtain ⟨s, h1, e1⟩ := mem_locs.1 ha
  obtain ⟨t, h2, e2⟩ := mem_locs.1 hb
  exact o.ap a (mem_locs.2 ⟨s, hs s h1, e1⟩) b (mem_locs.2 ⟨t, hs t h2, e2⟩)

theorem NetOk.peq {h : Heap K} {g : List ℕ} (o : NetOk R h g) (hR : R.IsRounding) {p q : Pt K} (hp : p ∈ locs h g)
    (hq : q ∈ locs h g) (e : R.peq p q = true) : p = q := by
  have := sep_of_apart hR (l := [p, q]) (by
    intro a ha b hb
    simp only [List.mem_cons, List.not_mem_nil, or_false] at ha hb
    apply o.ap
    · rcases ha with rfl | rfl <;> assumption
    · rcases hb with rfl | rfl <;> assumption)
  exact this p (by simp) q (by simp) e

theorem at_i (h : Heap K) (s : ℕ) : At h s (h.val s).i := Or.inl rfl
theorem at_j (h : Heap K) (s : ℕ) : At h s (h.val s).j := Or.inr rfl

theorem NetOk.seq {h : Heap K} {g : List ℕ} (o : NetOk R h g) (hR : R.IsRounding) {s t : ℕ} (hs : s ∈ g) (ht : t ∈ g)
    (e : R.seq (h.val s) (h.val t) = true) : s = t := by
  simp only [Rt.seq, Bool.and_eq_true, decide_eq_true_eq] at e
  have e1 := o.peq hR (mem_locs.2 ⟨s, hs, at_i h s⟩) (mem_locs.2 ⟨t, ht, at_i h t⟩) e.1.2
  have e2 := o.peq hR (mem_locs.2 ⟨s, hs, at_j h s⟩) (mem_locs.2 ⟨t, ht, at_j h t⟩) e.2
  exact o.db s hs t ht (Or.inl ⟨e1, e2⟩)

/-! ### `order` does not raise, and returns at least three segments -/

theorem orderAdd_ret (h : Heap K) (ret : List ℕ) (nxt : ℕ) (flip : Bool) : ret ⊆ (R.orderAdd h ret nxt flip).2 := by
  unfold Rt.orderAdd
  split_ifs
  · exact List.Subset.refl _
  · exact List.subset_append_left _ _
  · exact List.subset_append_left _ _

theorem orderLoop_keeps (segs : List ℕ) : ∀ (fuel : ℕ) (h : Heap K) (akt e : ℕ) (ret : List ℕ) (count : ℕ) (h' : Heap K)
    (l : List ℕ), R.orderLoop segs fuel h akt e ret count = .done h' l → ret ⊆ l
  | 0, _, _, _, _, _, _, _, hd => by simp [Rt.orderLoop] at hd
  | fuel + 1, h, akt, e, ret, count, h', l, hd => by
    unfold Rt.orderLoop at hd
    split at hd
    · cases hd
    · dsimp only at hd
      split_ifs at hd
      · cases hd
        exact orderAdd_ret _ _ _ _
      · exact fun x hx => orderLoop_keeps segs fuel _ _ _ _ _ _ _ hd (orderAdd_ret _ _ _ _ hx)

theorem orderLoop_raise (segs : List ℕ) (hn : segs.length < 250) : ∀ (fuel : ℕ) (h : Heap K) (akt e : ℕ) (ret : List ℕ)
    (count : ℕ) (h' : Heap K) (x : PyErr), count ≤ 2 * segs.length →
    R.orderLoop segs fuel h akt e ret count ≠ .raised h' x
  | 0, _, _, _, _, _, _, _, _ => by simp [Rt.orderLoop]
  | fuel + 1, h, akt, e, ret, count, h', x, hc => by
    unfold Rt.orderLoop
    split
    · simp
    · dsimp only
      rw [if_neg (by omega)]
      split_ifs
      · simp
      · exact orderLoop_raise segs hn fuel _ _ _ _ _ _ _ (by omega)

/-- the next segment has its start at the point looked for once it has been turned -/
theorem orderNext_at {segs : List ℕ} {h : Heap K} {akt e nxt : ℕ} {flip : Bool}
    (hn : R.orderNext segs h akt e = some (nxt, flip)) :
    nxt ∈ segs ∧ R.seq (h.val nxt) (h.val akt) = false ∧
      (flip = false ∧ R.peq (h.val nxt).i (h.pt e) = true ∨ flip = true ∧ R.peq (h.val nxt).j (h.pt e) = true) := by
  refine ⟨orderNext_mem hn, ?_⟩
  unfold Rt.orderNext at hn
  split at hn
  · rename_i x hx
    cases hn
    have := List.find?_some hx
    rw [Bool.and_eq_true, Bool.not_eq_true'] at this
    exact ⟨this.2, Or.inl ⟨rfl, this.1⟩⟩
  · split at hn
    · rename_i x hx
      cases hn
      have := List.find?_some hx
      rw [Bool.and_eq_true, Bool.not_eq_true'] at this
      exact ⟨this.2, Or.inr ⟨rfl, this.1⟩⟩
    · cases hn

theorem inSegs_iff {h : Heap K} {g : List ℕ} (o : NetOk R h g) (hR : R.IsRounding) {x : ℕ} {m : List ℕ} (hx : x ∈ g)
    (hm : ∀ s ∈ m, s ∈ g) : R.inSegs h x m = true ↔ x ∈ m := by
  unfold Rt.inSegs
  rw [List.any_eq_true]
  constructor
  · rintro ⟨y, hy, e⟩
    rw [Bool.or_eq_true, decide_eq_true_eq] at e
    rcases e with rfl | e
    · exact hy
    · rw [← o.seq hR (hm y hy) hx e]; exact hy
  · intro h; exact ⟨x, h, by simp⟩

theorem rev_orderAdd (h : Heap K) (ret : List ℕ) (nxt : ℕ) (flip : Bool) : Rev h (R.orderAdd h ret nxt flip).1 := by
  unfold Rt.orderAdd
  split_ifs
  · exact Rev.refl h
  · refine ⟨rfl, rfl, rfl, fun s => ?_⟩
    rw [Heap.reverse_seg]
    split_ifs with e
    · subst e; exact Or.inr rfl
    · exact Or.inl rfl
  · exact Rev.refl h

/-- a new segment is appended with its start at the point looked for; the others stay -/
theorem orderAdd_new {h : Heap K} {segs ret : List ℕ} (o : NetOk R h segs) (hR : R.IsRounding) {akt e nxt : ℕ} {flip : Bool}
    (hn : R.orderNext segs h akt e = some (nxt, flip)) (hret : ∀ s ∈ ret, s ∈ segs) (hnew : nxt ∉ ret)
    (he : h.pt e ∈ locs h segs) :
    (R.orderAdd h ret nxt flip).2 = ret ++ [nxt] ∧ ((R.orderAdd h ret nxt flip).1.val nxt).i = h.pt e ∧
      ∀ s, s ≠ nxt → (R.orderAdd h ret nxt flip).1.val s = h.val s := by
  obtain ⟨hm, -, hx⟩ := orderNext_at hn
  have hin : R.inSegs h nxt ret = false := by
    rw [Bool.eq_false_iff, Ne, inSegs_iff o hR hm hret]; exact hnew
  unfold Rt.orderAdd
  rw [hin]
  simp only [Bool.false_eq_true, if_false]
  refine ⟨trivial, ?_, ?_⟩
  · rcases hx with ⟨rfl, hx⟩ | ⟨rfl, hx⟩
    · simp only [Bool.false_eq_true, if_false]
      exact o.peq hR (mem_locs.2 ⟨nxt, hm, at_i h nxt⟩) he hx
    · simp only [if_true]
      rw [Heap.reverse_val, if_pos rfl]
      exact o.peq hR (mem_locs.2 ⟨nxt, hm, at_j h nxt⟩) he hx
  · intro s hs
    split_ifs
    · rw [Heap.reverse_val, if_neg hs]
    · rfl

theorem orderLoop_step {segs : List ℕ} {fuel : ℕ} {h : Heap K} {akt e : ℕ} {ret : List ℕ} {count : ℕ} {h' : Heap K}
    {l : List ℕ} (hd : R.orderLoop segs fuel h akt e ret count = .done h' l) :
    ∃ nxt flip, R.orderNext segs h akt e = some (nxt, flip) ∧ (R.orderAdd h ret nxt flip).2 ⊆ l ∧
      (count + 1 ≤ 2 * segs.length → ∃ f, R.orderLoop segs f (R.orderAdd h ret nxt flip).1 nxt
        ((R.orderAdd h ret nxt flip).1.seg nxt).j (R.orderAdd h ret nxt flip).2 (count + 1) = .done h' l) := by
  cases fuel with
  | zero => simp [Rt.orderLoop] at hd
  | succ fuel =>
    unfold Rt.orderLoop at hd
    split at hd
    · cases hd
    · rename_i nxt flip hn
      dsimp only at hd
      refine ⟨nxt, flip, hn, ?_⟩
      split_ifs at hd with h1 h2
      · cases hd
        exact ⟨List.Subset.refl _, fun h => by omega⟩
      · exact ⟨orderLoop_keeps segs fuel _ _ _ _ _ _ _ hd, fun _ => ⟨fuel, hd⟩⟩

theorem orderLoop_three (hR : R.IsRounding) {segs : List ℕ} {h : Heap K} (o : NetOk R h segs) {fuel a : ℕ} (ha : a ∈ segs)
    {h' : Heap K} {l : List ℕ} (hd : R.orderLoop segs fuel h a (h.seg a).j [] 0 = .done h' l) : 3 ≤ l.length := by
  obtain ⟨n1, f1, e1, s1, c1⟩ := orderLoop_step hd
  have he0 : h.pt (h.seg a).j ∈ locs h segs := mem_locs.2 ⟨a, ha, at_j h a⟩
  obtain ⟨m1, q1, -⟩ := orderNext_at e1
  have hne1 : n1 ≠ a := by rintro rfl; rw [hR.seq_refl] at q1; cases q1
  have hlen : 2 ≤ segs.length := by
    have : [n1, a].Subperm segs := by
      apply List.Nodup.subperm
      · simpa using hne1
      · intro x hx
        simp only [List.mem_cons, List.not_mem_nil, or_false] at hx
        rcases hx with rfl | rfl <;> assumption
    exact this.length_le
  obtain ⟨r1, -, -⟩ := orderAdd_new o hR e1 (ret := []) (by simp) (by simp) he0
  obtain ⟨g1, c1⟩ := c1 (by omega)
  rw [r1, List.nil_append] at c1 s1
  have rv1 := rev_orderAdd (R := R) h [] n1 f1
  generalize (R.orderAdd h [] n1 f1).1 = h1 at c1 rv1
  have o1 := o.edges fun s _ => (rv1.val s).edge
  obtain ⟨n2, f2, e2, s2, c2⟩ := orderLoop_step c1
  have he1 : h1.pt (h1.seg n1).j ∈ locs h1 segs := mem_locs.2 ⟨n1, m1, at_j h1 n1⟩
  obtain ⟨m2, q2, -⟩ := orderNext_at e2
  have hne2 : n2 ≠ n1 := by rintro rfl; rw [hR.seq_refl] at q2; cases q2
  obtain ⟨r2, v2, k2⟩ := orderAdd_new o1 hR e2 (ret := [n1]) (by simpa using m1) (by simpa using hne2) he1
  obtain ⟨g2, c2⟩ := c2 (by omega)
  rw [r2] at c2 s2
  have k2 := k2 n1 hne2.symm
  have rv2 := rev_orderAdd (R := R) h1 [n1] n2 f2
  generalize (R.orderAdd h1 [n1] n2 f2).1 = h2 at c2 rv2 v2 k2
  have o2 := o1.edges fun s _ => (rv2.val s).edge
  obtain ⟨n3, f3, e3, s3, -⟩ := orderLoop_step c2
  have he2 : h2.pt (h2.seg n2).j ∈ locs h2 segs := mem_locs.2 ⟨n2, m2, at_j h2 n2⟩
  obtain ⟨m3, q3, x3⟩ := orderNext_at e3
  have hne3 : n3 ≠ n2 := by rintro rfl; rw [hR.seq_refl] at q3; cases q3
  have hne4 : n3 ≠ n1 := by
    rintro rfl
    have hat : At h2 n3 (h2.val n2).j := by
      rcases x3 with ⟨-, x⟩ | ⟨-, x⟩
      · exact Or.inl (o2.peq hR (mem_locs.2 ⟨n3, m3, at_i h2 n3⟩) he2 x)
      · exact Or.inr (o2.peq hR (mem_locs.2 ⟨n3, m3, at_j h2 n3⟩) he2 x)
    have hj : (h2.val n3).j = (h2.val n2).i := by rw [k2, v2]; rfl
    rcases hat with hi | hi
    · exact hne2 (o2.db n2 m2 n3 m3 (Or.inr ⟨hj.symm, hi.symm⟩))
    · exact o2.null n2 m2 (hj.symm.trans hi)
  obtain ⟨r3, -, -⟩ := orderAdd_new o2 hR e3 (ret := [n1, n2]) (by
    intro s hs
    simp only [List.mem_cons, List.not_mem_nil, or_false] at hs
    rcases hs with rfl | rfl <;> assumption) (by simp [hne3, hne4]) he2
  change (R.orderAdd h2 [n1, n2] n3 f3).2 ⊆ l at s3
  rw [r3] at s3
  have : [n1, n2, n3].Subperm l := by
    apply List.Nodup.subperm _ s3
    simp [hne2.symm, hne3.symm, hne4.symm]
  exact this.length_le

/-- `order` of fewer than 250 segments does not raise; the list it returns has at least three segments -/
theorem order_three (hR : R.IsRounding) {h : Heap K} {p : List ℕ} (o : NetOk R h p) (hne : p ≠ []) (hlen : p.length < 250) :
    (∃ h', R.order h ⟨p, false⟩ = .failed h') ∨ ∃ h' l, R.order h ⟨p, false⟩ = .done h' l ∧ 3 ≤ l.length := by
  obtain ⟨a, t, rfl⟩ := List.exists_cons_of_ne_nil hne
  have h1 := order_cases hR h ⟨a :: t, false⟩ a t rfl _ le_rfl
  dsimp only at h1
  unfold Rt.order
  rcases h1 with ⟨k1, k2, k3⟩ | ⟨h', k1, k2⟩ | ⟨h', ret, l, f, k1, k2, -, -, -, k6⟩
  · left
    dsimp only
    rw [k2]
    cases hr : R.orderLoop (a :: t) (2 * (a :: t).length + 1) h a (h.seg a).j [] 0 with
    | failed h' => exact ⟨h', rfl⟩
    | raised h' e => exact absurd hr (orderLoop_raise _ hlen _ _ _ _ _ _ _ _ (by omega))
    | timeout => exact absurd hr k3
    | done h' l => exact absurd hr (k1 _ _)
  · have := orderLoop_three hR o (by simp) k1
    simp at this
  · refine Or.inr ⟨h', l, k6, ?_⟩
    rw [← k2.perm.length_eq]
    exact orderLoop_three hR o (by simp) k1

end Srep
