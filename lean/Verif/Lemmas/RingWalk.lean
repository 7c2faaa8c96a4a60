import Verif.Lemmas.RingSides

/-!
`walk_segments` on sides of a ring in any directions.
-/

set_option linter.unusedSectionVars false

namespace Srep
variable {K : Type} [Field K] [LinearOrder K] [IsStrictOrderedRing K] [FloorRing K] {R : Rt K}

/-- the hash of a segment with this value -/
def vhash (R : Rt K) (s : Seg K) : Int × Int := (R.phash s.i, R.phash s.j)

section
variable {n : ℕ} {v : ℕ → Pt K} {c : ℕ → SegCls}

/-- memory after `order`: only listed segments differ -/
theorem order_frame (hR : R.IsRounding) {h h' : Heap K} (hw : h.WF) {L : List ℕ}
    (e : (R.order h ⟨L, false⟩).heap h = h') : h'.WF ∧ h'.nseg = h.nseg ∧ h'.npt = h.npt ∧ h'.pt = h.pt ∧
      ∀ s, s ∉ L → h'.val s = h.val s := by
  subst e
  obtain ⟨h1, h2, h3, h4, -⟩ := C48_only_reverses hR h ⟨L, false⟩
  refine ⟨(tame_order hR hw _).wf, h3, h2, h1, ?_⟩
  intro s hs
  unfold Heap.val
  rw [h4 s hs, h1]

/-- a round of the walk, before `order` -/
theorem walkStep_gen (r : RingPts R n v) (hR : R.IsRounding) {π : SetOrder} (hπ : π.Ok) {w : Rt.WalkSt K} (hw : w.h.WF)
    {nxt : ℕ} {more : List ℕ} (hnx : R.walkNext π w = nxt :: more) (hlt : nxt < w.h.nseg) {x : ℕ × Bool} (hx : x.1 < n)
    (ex : w.h.val nxt = rside v c x) {a a' : ℕ} (ha : a = x.1 ∧ a' = x.1 + 1 ∨ a = x.1 + 1 ∧ a' = x.1)
    (hpt : w.h.pt w.pt = v a) (hnpt : w.pt < w.h.npt) {l : List ℕ} {I : Set (ℕ × Bool)} (hvis : w.vis = tag R w.h l)
    (d : Lists n (rside v c) w.h l I) {y : ℕ × Bool} (hy : y.1 < n) (ey : w.h.val w.akt = rside v c y)
    (halt : w.akt < w.h.nseg) :
    ∃ (h2 : Heap K) (L l' : List ℕ) (pt : ℕ), h2.WF ∧ w.h.nseg + w.h.nseg ≤ h2.nseg ∧
      (∀ s < w.h.nseg, h2.val s = w.h.val s) ∧ h2.val (nxt + w.h.nseg) = rside v c x ∧
      Lists n (rside v c) h2 L (insert x (insert y I)) ∧ (∀ s ∈ L, s = nxt ∨ w.h.nseg + w.h.nseg ≤ s) ∧
      (x ∉ insert y I → nxt ∈ L) ∧ Lists n (rside v c) w.h l' (insert y I) ∧ h2.pt pt = v a' ∧ pt < h2.npt ∧
      (∀ h3, R.order h2 ⟨L, false⟩ = .failed h3 → R.walkStep π w = .inr ⟨h3, R.setDiscard w.h w.nv w.akt, tag R w.h l',
        nxt + w.h.nseg, pt, w.branch || decide (0 < more.length), w.k + 2⟩) ∧
      (∀ h3 m b, R.order h2 ⟨L, false⟩ = .done h3 m → R.isClosed (h3.vals m) = .ok b → R.walkStep π w =
        if b && !(w.branch || decide (0 < more.length)) then .inl (.found h3 ⟨m, false⟩)
        else .inr ⟨h3, R.setDiscard w.h w.nv w.akt, tag R w.h l', nxt + w.h.nseg, pt,
          w.branch || decide (0 < more.length), w.k + 2⟩) := by
  have h3 := r.three
  have k1 := keep_deepcopy hw
  have k2 := keep_deepcopy k1.wf
  have k12 := k1.trans k2
  have hn1 : w.h.deepcopy.nseg = w.h.nseg + w.h.nseg := rfl
  obtain ⟨l', el', dl', -, -⟩ := setAdd_lists r hR d hy ey halt
  have d1 : Lists n (rside v c) w.h.deepcopy l' (insert y I) := dl'.mono k1.le fun s hs => k1.val s (dl'.lt s hs)
  have d2 := d1.copy
  have ex2 : w.h.deepcopy.deepcopy.val nxt = rside v c x := by rw [k12.val nxt hlt, ex]
  obtain ⟨L, eL, dL, mL, nL⟩ := setAdd_lists r hR d2 hx ex2 (lt_of_lt_of_le hlt k12.le)
  have hval : w.h.deepcopy.val (nxt + w.h.nseg) = rside v c x := by rw [deepcopy_new, ex]
  have hpt1 : w.h.deepcopy.pt w.pt = v a := by rw [deepcopy_pt_old hnpt, hpt]
  have hb := k1.wf (nxt + w.h.nseg) (by rw [hn1]; omega)
  -- the other end
  have hother : ∃ pt, [(w.h.deepcopy.seg (nxt + w.h.nseg)).i, (w.h.deepcopy.seg (nxt + w.h.nseg)).j].find? (fun y =>
      !R.peq (w.h.deepcopy.pt y) (w.h.deepcopy.pt w.pt)) = some pt ∧ w.h.deepcopy.pt pt = v a' ∧ pt < w.h.deepcopy.npt := by
    have hi : w.h.deepcopy.pt (w.h.deepcopy.seg (nxt + w.h.nseg)).i = if x.2 then v x.1 else v (x.1 + 1) := by
      show (w.h.deepcopy.val (nxt + w.h.nseg)).i = _
      rw [hval, rside_i]
    have hj : w.h.deepcopy.pt (w.h.deepcopy.seg (nxt + w.h.nseg)).j = if x.2 then v (x.1 + 1) else v x.1 := by
      show (w.h.deepcopy.val (nxt + w.h.nseg)).j = _
      rw [hval, rside_j]
    have ne1 : R.peq (v x.1) (v (x.1 + 1)) = false := by
      rw [Bool.eq_false_iff, Ne, r.peq_iff (by omega) (by omega)]; omega
    have ne2 : R.peq (v (x.1 + 1)) (v x.1) = false := by
      rw [Bool.eq_false_iff, Ne, r.peq_iff (by omega) (by omega)]; omega
    have hself : ∀ k, R.peq (v k) (v k) = true := fun k => hR.peq_refl _
    rcases hxb : x.2 with _ | _ <;> rw [hxb] at hi hj <;>
      simp only [if_true, if_false, Bool.false_eq_true] at hi hj <;> rcases ha with ⟨rfl, rfl⟩ | ⟨rfl, rfl⟩
    · exact ⟨_, by rw [List.find?_cons_of_pos]; rw [hi, hpt1, ne2]; rfl, hi, hb.1⟩
    · refine ⟨_, ?_, hj, hb.2⟩
      rw [List.find?_cons_of_neg (by rw [hi, hpt1, hself]; simp), List.find?_cons_of_pos]
      rw [hj, hpt1, ne1]; rfl
    · refine ⟨_, ?_, hj, hb.2⟩
      rw [List.find?_cons_of_neg (by rw [hi, hpt1, hself]; simp), List.find?_cons_of_pos]
      rw [hj, hpt1, ne2]; rfl
    · exact ⟨_, by rw [List.find?_cons_of_pos]; rw [hi, hpt1, ne1]; rfl, hi, hb.1⟩
  obtain ⟨pt, hfind, hpt', hptlt⟩ := hother
  have hstep : R.walkStep π w = match R.order w.h.deepcopy.deepcopy ⟨π (w.k + 1) L, false⟩ with
      | .timeout => .inl .timeout
      | .raised _ e => .inl (.raised e)
      | .failed h3 => .inr ⟨h3, R.setDiscard w.h w.nv w.akt, tag R w.h l', nxt + w.h.nseg, pt,
          w.branch || decide (0 < more.length), w.k + 2⟩
      | .done h3 ret =>
        match R.isClosed (h3.vals ret) with
        | .error e => .inl (.raised e)
        | .ok cc =>
          if cc && !(w.branch || decide (0 < more.length)) then .inl (.found h3 ⟨ret, false⟩)
          else .inr ⟨h3, R.setDiscard w.h w.nv w.akt, tag R w.h l', nxt + w.h.nseg, pt,
            w.branch || decide (0 < more.length), w.k + 2⟩ := by
    unfold Rt.walkStep
    rw [hnx]
    dsimp only
    rw [hfind]
    dsimp only
    rw [hvis, el']
    have e1 : (tag R w.h l').map (fun y => y.1 + w.h.deepcopy.nseg) = l'.map (· + w.h.deepcopy.nseg) := by
      unfold tag; rw [List.map_map]; rfl
    rw [e1, setOf_lists r hR d2, eL, tag_fst]
    cases R.order w.h.deepcopy.deepcopy ⟨π (w.k + 1) L, false⟩ with
    | done h3 ret =>
      dsimp only
      cases R.isClosed (h3.vals ret) <;> rfl
    | _ => rfl
  refine ⟨w.h.deepcopy.deepcopy, π (w.k + 1) L, l', pt, k12.wf, ?_, k12.val, ?_, dL.perm (hπ _ _), ?_, ?_, dl', ?_, ?_, ?_, ?_⟩
  · exact k2.le
  · rw [k2.val _ (by rw [hn1]; omega), hval]
  · intro s hs
    rcases mL s ((hπ _ _).mem_iff.1 hs) with h | h
    · obtain ⟨t, -, rfl⟩ := List.mem_map.1 h
      right
      show _ ≤ t + w.h.deepcopy.nseg
      rw [hn1]; omega
    · exact Or.inl h
  · intro hnot
    exact (hπ _ _).mem_iff.2 (nL hnot)
  · rw [deepcopy_pt_old hptlt]; exact hpt'
  · show pt < w.h.deepcopy.npt + w.h.deepcopy.npt
    omega
  · intro h3 e; rw [hstep, e]
  · intro h3 m b e eb; rw [hstep, e]; dsimp only; rw [eb]

/-- the walk after it has passed the sides `0, …, t` of the ring, all of them in `J`.  A side is in `_not_visited` in
its original direction `o`; the sides passed are there only if `order` has turned them (their hash is then outdated) -/
structure Fwd (R : Rt K) (n : ℕ) (v : ℕ → Pt K) (c : ℕ → SegCls) (o : ℕ → Bool) (J : Set ℕ) (h0 : Heap K) (t : ℕ)
    (w : Rt.WalkSt K) : Prop where
  lt : t < n
  sub : ∀ k ≤ t, k ∈ J
  wf : w.h.WF
  keep : Keep h0 w.h
  nvlt : ∀ y ∈ w.nv, h0.nseg ≤ y.1 ∧ y.1 < w.h.nseg
  nvnd : (w.nv.map Prod.fst).Nodup
  nval : ∀ y ∈ w.nv, ∃ k < n, k ∈ J ∧ y.2 = vhash R (rside v c (k, o k)) ∧
    (t < k ∧ w.h.val y.1 = rside v c (k, o k) ∨ k = t ∧ w.h.val y.1 = rside v c (k, o k) ∨
     k = t ∧ 0 < t ∧ w.h.val y.1 = rside v c (k, !o k) ∧ (t + 1 < n → o k = false ∧ ∃ j < n, o j = true) ∨
     0 < k ∧ k < t ∧ w.h.val y.1 = rside v c (k, !o k))
  nall : ∀ k ∈ J, t < k → k < n → ∃ y ∈ w.nv, w.h.val y.1 = rside v c (k, o k)
  ninj : ∀ y ∈ w.nv, ∀ z ∈ w.nv, ∀ k b b', k < n → w.h.val y.1 = rside v c (k, b) → w.h.val z.1 = rside v c (k, b') →
    y.1 = z.1
  vis : ∃ l, w.vis = tag R w.h l ∧ Lists n (rside v c) w.h l {x | x.2 = o x.1 ∧ (x.1 < t ∨ x.1 = 0)}
  akt : w.h.val w.akt = rside v c (t, o t)
  aktlt : w.akt < w.h.nseg
  pt : w.h.pt w.pt = v (t + 1)
  ptlt : w.pt < w.h.npt
  br : w.branch = false → t + 1 < n

/-- the walk on its way back over turned sides, at `v m` after the side `m`; a branch has been noticed -/
structure Bwd (R : Rt K) (n : ℕ) (v : ℕ → Pt K) (c : ℕ → SegCls) (o : ℕ → Bool) (h0 : Heap K) (m : ℕ)
    (w : Rt.WalkSt K) : Prop where
  pos : 0 < m
  lt : m < n
  wf : w.h.WF
  keep : Keep h0 w.h
  nvlt : ∀ y ∈ w.nv, h0.nseg ≤ y.1 ∧ y.1 < w.h.nseg
  nval : ∀ y ∈ w.nv, ∃ k b, k < n ∧ w.h.val y.1 = rside v c (k, b) ∧ (k ≤ m → 0 < k ∧ b = !o k)
  vis : ∃ l I, w.vis = tag R w.h l ∧ Lists n (rside v c) w.h l I ∧ ∀ k < m, (k, o k) ∈ I
  akt : w.h.val w.akt = rside v c (m, !o m)
  aktlt : w.akt < w.h.nseg
  pt : w.h.pt w.pt = v m
  ptlt : w.pt < w.h.npt
  br : w.branch = true

variable {o : ℕ → Bool} {J : Set ℕ} {h0 : Heap K}

theorem Fwd.cand (r : RingPts R n v) (hR : R.IsRounding) {t : ℕ} {w : Rt.WalkSt K} (i : Fwd R n v c o J h0 t w)
    {y : ℕ × (Int × Int)} (hy : y ∈ w.nv)
    (h1 : (R.onEnds (v (t + 1)) (w.h.val y.1) && !R.seq (w.h.val y.1) (rside v c (t, o t))) = true) :
    (t + 1 < n ∧ t + 1 ∈ J ∧ w.h.val y.1 = rside v c (t + 1, o (t + 1))) ∨
    (w.h.val y.1 = rside v c (t, !o t) ∧ 0 < t ∧ (t + 1 < n → o t = false ∧ ∃ j < n, o j = true)) := by
  have h3 := r.three
  have htn := i.lt
  rw [Bool.and_eq_true] at h1
  obtain ⟨h1, h2⟩ := h1
  have touch : ∀ k b, k < n → R.onEnds (v (t + 1)) (rside v c (k, b)) = true → k = t ∨ k = t + 1 ∨ k = 0 ∧ t + 1 = n := by
    intro k b hk h
    unfold Rt.onEnds at h
    rw [Bool.or_eq_true, rside_i, rside_j] at h
    have h' : R.peq (v k) (v (t + 1)) = true ∨ R.peq (v (k + 1)) (v (t + 1)) = true := by
      cases b
      · exact h.symm
      · exact h
    rw [r.peq_iff (by omega) (by omega), r.peq_iff (by omega) (by omega)] at h'
    omega
  obtain ⟨k, hk, hkJ, -, hc⟩ := i.nval y hy
  rcases hc with ⟨g1, g2⟩ | ⟨rfl, g2⟩ | ⟨rfl, g1, g2, g3⟩ | ⟨g0, g1, g2⟩
  · left
    rw [g2] at h1
    have := touch k _ hk h1
    have : k = t + 1 := by omega
    subst this
    exact ⟨hk, hkJ, g2⟩
  · rw [g2, hR.seq_refl] at h2; cases h2
  · exact Or.inr ⟨g2, g1, g3⟩
  · rw [g2] at h1
    have := touch k _ hk h1
    omega

theorem Fwd.next (r : RingPts R n v) (hR : R.IsRounding) {π : SetOrder} (hπ : π.Ok) {t : ℕ} {w : Rt.WalkSt K}
    (i : Fwd R n v c o J h0 t w) {nxt : ℕ} {more : List ℕ} (e : R.walkNext π w = nxt :: more) :
    (∃ y ∈ w.nv, y.1 = nxt) ∧
    ((t + 1 < n ∧ t + 1 ∈ J ∧ w.h.val nxt = rside v c (t + 1, o (t + 1))) ∨
     (w.h.val nxt = rside v c (t, !o t) ∧ 0 < t ∧ (t + 1 < n → o t = false ∧ ∃ j < n, o j = true) ∧
      (t + 1 < n → t + 1 ∈ J → more ≠ []))) := by
  have h3 := r.three
  have htn := i.lt
  have hp := hπ w.k (w.nv.map Prod.fst)
  unfold Rt.walkNext at e
  dsimp only at e
  rw [i.pt, i.akt] at e
  have mem : ∀ s ∈ π w.k (w.nv.map Prod.fst), ∃ y ∈ w.nv, y.1 = s := by
    intro s hs
    obtain ⟨y, hy, e⟩ := List.mem_map.1 (hp.mem_iff.1 hs)
    exact ⟨y, hy, e⟩
  have hi : ∀ s, R.peq (v (t + 1)) (w.h.val s).i = true → R.onEnds (v (t + 1)) (w.h.val s) = true := by
    intro s hs
    unfold Rt.onEnds
    rw [hR.peq_comm, hs, Bool.true_or]
  split_ifs at e with ha
  · have hm : nxt ∈ (π w.k (w.nv.map Prod.fst)).filter fun x =>
        R.peq (v (t + 1)) (w.h.val x).i && !R.seq (w.h.val x) (rside v c (t, o t)) := by
      rw [e]; exact List.mem_cons_self
    rw [List.mem_filter, Bool.and_eq_true] at hm
    obtain ⟨y, hy, rfl⟩ := mem nxt hm.1
    refine ⟨⟨y, hy, rfl⟩, ?_⟩
    rcases i.cand r hR hy (by rw [Bool.and_eq_true]; exact ⟨hi _ hm.2.1, hm.2.2⟩) with g | ⟨g1, g2, g3⟩
    · exact Or.inl g
    · right
      refine ⟨g1, g2, g3, ?_⟩
      intro h1 _
      exfalso
      have h4 := hm.2.1
      rw [g1, (g3 h1).1, rside_i] at h4
      simp only [Bool.not_false, if_true] at h4
      rw [r.peq_iff (by omega) (by omega)] at h4
      omega
  · have hm : nxt ∈ (π w.k (w.nv.map Prod.fst)).filter fun x =>
        R.onEnds (v (t + 1)) (w.h.val x) && !R.seq (w.h.val x) (rside v c (t, o t)) := by
      rw [e]; exact List.mem_cons_self
    rw [List.mem_filter] at hm
    obtain ⟨y, hy, rfl⟩ := mem nxt hm.1
    refine ⟨⟨y, hy, rfl⟩, ?_⟩
    rcases i.cand r hR hy hm.2 with g | ⟨g1, g2, g3⟩
    · exact Or.inl g
    · right
      refine ⟨g1, g2, g3, ?_⟩
      rintro h1 h2 rfl
      obtain ⟨z, hz, ez⟩ := i.nall (t + 1) h2 (by omega) h1
      have hzm : z.1 ∈ (π w.k (w.nv.map Prod.fst)).filter fun x =>
          R.onEnds (v (t + 1)) (w.h.val x) && !R.seq (w.h.val x) (rside v c (t, o t)) := by
        rw [List.mem_filter]
        refine ⟨hp.mem_iff.2 (List.mem_map_of_mem hz), ?_⟩
        rw [ez, Bool.and_eq_true]
        refine ⟨?_, ?_⟩
        · unfold Rt.onEnds
          rw [rside_i, rside_j, Bool.or_eq_true]
          cases o (t + 1)
          · right; exact hR.peq_refl _
          · left; exact hR.peq_refl _
        · rw [Bool.not_eq_true', Bool.eq_false_iff, Ne, r.seq_iff hR (by exact h1) (by exact htn)]
          intro h
          have : t + 1 = t := congrArg Prod.fst h
          omega
      rw [e, List.mem_singleton] at hzm
      rw [← hzm, ez] at g1
      have := congrArg Prod.fst (r.inj hR (by exact h1) (by exact htn) g1)
      dsimp only at this
      omega

/-- `m` lists all sides of the ring in one direction, each ending where the next one starts -/
structure RingFound (n : ℕ) (v : ℕ → Pt K) (c : ℕ → SegCls) (h : Heap K) (m : List ℕ) (d : Bool) : Prop where
  lists : Lists n (rside v c) h m {x | x.2 = d ∧ x.1 < n}
  chain : ClosedChain (h.vals m)
  length : m.length = n

/-- what is left in `_not_visited` when the current segment is discarded -/
theorem Fwd.discard (r : RingPts R n v) (hR : R.IsRounding) {t : ℕ} {w : Rt.WalkSt K} (i : Fwd R n v c o J h0 t w)
    (y : ℕ × (Int × Int)) : y ∈ R.setDiscard w.h w.nv w.akt ↔ y ∈ w.nv ∧ w.h.val y.1 ≠ rside v c (t, o t) := by
  have htn := i.lt
  have hit : ∀ y ∈ w.nv, R.setHit w.h w.akt y = true ↔ w.h.val y.1 = rside v c (t, o t) := by
    intro y hy
    obtain ⟨k, hk, -, eh, hc⟩ := i.nval y hy
    obtain ⟨b, hb⟩ : ∃ b, w.h.val y.1 = rside v c (k, b) := by
      rcases hc with ⟨-, g⟩ | ⟨-, g⟩ | ⟨-, -, g, -⟩ | ⟨-, -, g⟩ <;> exact ⟨_, g⟩
    unfold Rt.setHit
    rw [Bool.and_eq_true, Bool.or_eq_true, decide_eq_true_eq, decide_eq_true_eq, i.akt]
    constructor
    · rintro ⟨-, e | e⟩
      · rw [e]; exact i.akt
      · rw [hb, r.seq_iff hR (by exact hk) (by exact htn)] at e
        rw [hb, e]
    · intro e
      refine ⟨?_, Or.inr (by rw [e]; exact hR.seq_refl _)⟩
      have : k = t := congrArg Prod.fst (r.inj hR (by exact hk) (by exact htn) (hb.symm.trans e))
      subst this
      rw [eh]
      unfold Rt.segHash vhash
      rw [i.akt]
  unfold Rt.setDiscard
  have hnd : w.nv.Nodup := List.Nodup.of_map _ i.nvnd
  rw [mem_eraseP_unique hnd]
  · constructor
    · rintro ⟨h1, h2⟩
      refine ⟨h1, fun h => ?_⟩
      rw [(hit y h1).2 h] at h2
      cases h2
    · rintro ⟨h1, h2⟩
      refine ⟨h1, ?_⟩
      rw [Bool.eq_false_iff]
      exact fun h => h2 ((hit y h1).1 h)
  · intro a ha b hb e1 e2
    rw [hit a ha] at e1
    rw [hit b hb] at e2
    have h1 := i.ninj a ha b hb t (o t) (o t) htn e1 e2
    exact List.inj_on_of_nodup_map i.nvnd ha hb h1

theorem Fwd.insert_set {t : ℕ} : (insert (t, o t) {x : ℕ × Bool | x.2 = o x.1 ∧ (x.1 < t ∨ x.1 = 0)}) =
    {x | x.2 = o x.1 ∧ x.1 ≤ t} := by
  ext ⟨k, b⟩
  simp only [Set.mem_insert_iff, Set.mem_ofPred_eq, Prod.mk.injEq]
  constructor
  · rintro (⟨rfl, rfl⟩ | ⟨h1, h2⟩)
    · exact ⟨rfl, le_rfl⟩
    · exact ⟨h1, by omega⟩
  · rintro ⟨h1, h2⟩
    rcases Nat.lt_or_ge k t with h | h
    · exact Or.inr ⟨h1, Or.inl h⟩
    · have : k = t := by omega
      subst this
      exact Or.inl ⟨rfl, h1⟩

/-- the walk goes on -/
theorem Fwd.advance (r : RingPts R n v) (hR : R.IsRounding) {t : ℕ} {w : Rt.WalkSt K} (i : Fwd R n v c o J h0 t w)
    (ht : t + 1 < n) (hJ : t + 1 ∈ J) {nxt : ℕ} (hnv : ∃ y ∈ w.nv, y.1 = nxt)
    (ex : w.h.val nxt = rside v c (t + 1, o (t + 1))) {h2 h3 : Heap K} {L l' : List ℕ} {pt k : ℕ} {br : Bool}
    (w3 : h3.WF) (n3 : h3.nseg = h2.nseg) (q3 : h3.npt = h2.npt) (p3 : h3.pt = h2.pt)
    (f3 : ∀ s, s ∉ L → h3.val s = h2.val s) (n2 : w.h.nseg + w.h.nseg ≤ h2.nseg)
    (v2 : ∀ s < w.h.nseg, h2.val s = w.h.val s) (x2 : h2.val (nxt + w.h.nseg) = rside v c (t + 1, o (t + 1)))
    (mL : ∀ s ∈ L, s = nxt ∨ w.h.nseg + w.h.nseg ≤ s)
    (dl : Lists n (rside v c) w.h l' {x | x.2 = o x.1 ∧ x.1 ≤ t}) (e2 : h2.pt pt = v (t + 2)) (l2 : pt < h2.npt)
    (hx3 : h3.val nxt = rside v c (t + 1, o (t + 1)) ∨ h3.val nxt = rside v c (t + 1, !o (t + 1)) ∧
      (t + 2 < n → o (t + 1) = false ∧ ∃ j < n, o j = true))
    (hbr : br = false → t + 2 < n) :
    Fwd R n v c o J h0 (t + 1) ⟨h3, R.setDiscard w.h w.nv w.akt, tag R w.h l', nxt + w.h.nseg, pt, br, k⟩ := by
  obtain ⟨y0, hy0, rfl⟩ := hnv
  have hlt := i.nvlt y0 hy0
  have hold : ∀ s < w.h.nseg, s ≠ y0.1 → h3.val s = w.h.val s := by
    intro s hs hne
    rw [f3 s, v2 s hs]
    intro hc
    rcases mL s hc with h | h
    · exact hne h
    · omega
  have hkeep : Keep h0 h3 := by
    refine ⟨w3, ?_, ?_⟩
    · have := i.keep.le; omega
    · intro s hs
      have := i.keep.le
      rw [hold s (by omega) (by omega), i.keep.val s hs]
  -- the value of a member afterwards
  have hsame : ∀ y ∈ w.nv, ∀ k b, k < n → k ≠ t + 1 → w.h.val y.1 = rside v c (k, b) → h3.val y.1 = rside v c (k, b) := by
    intro y hy k b hk hne e
    rw [hold y.1 (i.nvlt y hy).2, e]
    intro hc
    rw [hc, ex] at e
    exact hne (congrArg Prod.fst (r.inj hR (by exact ht) (by exact hk) e)).symm
  refine ⟨ht, ?_, w3, hkeep, ?_, ?_, ?_, ?_, ?_, ⟨l', ?_, ?_⟩, ?_, ?_, ?_, ?_, hbr⟩
  · intro k hk
    rcases Nat.lt_or_ge k (t + 1) with h | h
    · exact i.sub k (by omega)
    · rw [show k = t + 1 by omega]; exact hJ
  · intro y hy
    have := i.nvlt y ((i.discard r hR y).1 hy).1
    dsimp only
    omega
  · exact i.nvnd.sublist ((List.eraseP_sublist (l := w.nv)).map _)
  · intro y hy
    obtain ⟨hy, hyt⟩ := (i.discard r hR y).1 hy
    obtain ⟨k, hk, hkJ, eh, hc⟩ := i.nval y hy
    refine ⟨k, hk, hkJ, eh, ?_⟩
    dsimp only
    rcases hc with ⟨g1, g2⟩ | ⟨rfl, g2⟩ | ⟨rfl, g1, g2, g3⟩ | ⟨g0, g1, g2⟩
    · by_cases hkt : k = t + 1
      · subst hkt
        have h1 := i.ninj y hy y0 hy0 (t + 1) _ _ hk g2 ex
        rw [h1]
        rcases hx3 with h | ⟨h, h'⟩
        · exact Or.inr (Or.inl ⟨rfl, h⟩)
        · exact Or.inr (Or.inr (Or.inl ⟨rfl, by omega, h, h'⟩))
      · exact Or.inl ⟨by omega, hsame y hy k _ hk hkt g2⟩
    · exact absurd g2 hyt
    · exact Or.inr (Or.inr (Or.inr ⟨g1, by omega, hsame y hy k _ hk (by omega) g2⟩))
    · exact Or.inr (Or.inr (Or.inr ⟨g0, by omega, hsame y hy k _ hk (by omega) g2⟩))
  · intro k hkJ hkt hk
    obtain ⟨y, hy, e⟩ := i.nall k hkJ (by omega) hk
    refine ⟨y, (i.discard r hR y).2 ⟨hy, ?_⟩, hsame y hy k _ hk (by omega) e⟩
    rw [e]
    intro hc
    have := congrArg Prod.fst (r.inj hR (by exact hk) (by show t < n; omega) hc)
    dsimp only at this
    omega
  · intro y hy z hz k b b' hk ey ez
    obtain ⟨hy, -⟩ := (i.discard r hR y).1 hy
    obtain ⟨hz, -⟩ := (i.discard r hR z).1 hz
    -- back to the values before
    have back : ∀ y ∈ w.nv, ∀ b, h3.val y.1 = rside v c (k, b) → ∃ b', w.h.val y.1 = rside v c (k, b') := by
      intro y hy b e
      obtain ⟨k', hk', -, -, hc⟩ := i.nval y hy
      obtain ⟨b', hb'⟩ : ∃ b, w.h.val y.1 = rside v c (k', b) := by
        rcases hc with ⟨-, g⟩ | ⟨-, g⟩ | ⟨-, -, g, -⟩ | ⟨-, -, g⟩ <;> exact ⟨_, g⟩
      by_cases hkt : k' = t + 1
      · subst hkt
        have h1 := i.ninj y hy y0 hy0 (t + 1) _ _ hk' hb' ex
        rw [h1] at e
        have : k = t + 1 := by
          rcases hx3 with h | ⟨h, -⟩ <;>
            exact congrArg Prod.fst (r.inj hR (by exact hk) (by exact ht) (e.symm.trans h))
        subst this
        exact ⟨b', hb'⟩
      · have h1 := hsame y hy k' b' hk' hkt hb'
        have : k = k' := congrArg Prod.fst (r.inj hR (by exact hk) (by exact hk') (e.symm.trans h1))
        subst this
        exact ⟨b', hb'⟩
    obtain ⟨d1, e1⟩ := back y hy b ey
    obtain ⟨d2, e2⟩ := back z hz b' ez
    exact i.ninj y hy z hz k d1 d2 hk e1 e2
  · dsimp only
    refine (tag_mono ?_).symm
    intro s hs
    refine hold s (dl.lt s hs) ?_
    rintro rfl
    obtain ⟨⟨k, b⟩, ⟨hb, hk⟩, e⟩ := dl.val _ hs
    rw [ex] at e
    have := congrArg Prod.fst (r.inj hR (by exact ht) (by show k < n; simp only at hk; omega) e)
    simp only at this hk
    omega
  · have hset : {x : ℕ × Bool | x.2 = o x.1 ∧ x.1 ≤ t} = {x | x.2 = o x.1 ∧ (x.1 < t + 1 ∨ x.1 = 0)} := by
      ext x; simp only [Set.mem_ofPred_eq]
      constructor
      · rintro ⟨h1, h2⟩; exact ⟨h1, by omega⟩
      · rintro ⟨h1, h2⟩; exact ⟨h1, by omega⟩
    rw [← hset]
    refine dl.mono (by dsimp only; omega) ?_
    intro s hs
    refine hold s (dl.lt s hs) ?_
    rintro rfl
    obtain ⟨⟨k, b⟩, ⟨hb, hk⟩, e⟩ := dl.val _ hs
    rw [ex] at e
    have := congrArg Prod.fst (r.inj hR (by exact ht) (by show k < n; simp only at hk; omega) e)
    simp only at this hk
    omega
  · dsimp only
    rw [f3, x2]
    intro hc
    rcases mL _ hc with h | h <;> omega
  · dsimp only; omega
  · dsimp only; rw [p3]; exact e2
  · dsimp only; omega

/-- the walk takes a turned side back -/
theorem back_step (r : RingPts R n v) (hR : R.IsRounding) (hn : n < 125) {π : SetOrder} (hπ : π.Ok) {w : Rt.WalkSt K}
    (hw : w.h.WF) (hk : Keep h0 w.h) (hnv : ∀ y ∈ w.nv, h0.nseg ≤ y.1 ∧ y.1 < w.h.nseg) {nxt : ℕ} {more : List ℕ}
    (hnx : R.walkNext π w = nxt :: more) (hmem : ∃ y ∈ w.nv, y.1 = nxt) {q : ℕ} (hq0 : 0 < q) (hq : q < n)
    (ex : w.h.val nxt = rside v c (q, !o q)) (hpt : w.h.pt w.pt = v (q + 1)) (hnpt : w.pt < w.h.npt)
    (hval : ∀ y ∈ R.setDiscard w.h w.nv w.akt, ∃ k b, k < n ∧ w.h.val y.1 = rside v c (k, b) ∧ (k ≤ q → 0 < k ∧ b = !o k))
    {l : List ℕ} {I : Set (ℕ × Bool)} (hvis : w.vis = tag R w.h l) (d : Lists n (rside v c) w.h l I) {y : ℕ × Bool}
    (hy : y.1 < n) (ey : w.h.val w.akt = rside v c y) (halt : w.akt < w.h.nseg)
    (hI : ∀ k ≤ q, (k, o k) ∈ insert y I) (hbr : (w.branch || decide (0 < more.length)) = true) :
    ∃ w', R.walkStep π w = .inr w' ∧ Bwd R n v c o h0 q w' := by
  obtain ⟨y0, hy0, rfl⟩ := hmem
  have hlt := hnv y0 hy0
  obtain ⟨h2, L, l', pt, w2, n2, v2, x2, dL, mL, nL, dl, e2, l2, c1, c2⟩ := walkStep_gen r hR hπ hw hnx hlt.2
    (x := (q, !o q)) (by exact hq) ex (a := q + 1) (a' := q) (Or.inr ⟨rfl, rfl⟩) hpt hnpt hvis d hy ey halt
  -- whatever order answers, no old segment changes
  have main : ∀ h3, (R.order h2 ⟨L, false⟩).heap h2 = h3 → Bwd R n v c o h0 q ⟨h3, R.setDiscard w.h w.nv w.akt,
      tag R w.h l', y0.1 + w.h.nseg, pt, w.branch || decide (0 < more.length), w.k + 2⟩ := by
    intro h3 e
    obtain ⟨w3, n3, q3, p3, f3⟩ := order_frame hR w2 e
    have hold : ∀ s < w.h.nseg, h3.val s = w.h.val s := by
      intro s hs
      by_cases hsL : s ∈ L
      · rcases mL s hsL with rfl | h
        · obtain ⟨s', hs', es'⟩ := dL.all (q, o q) (Set.mem_insert_of_mem _ (hI q le_rfl))
          have := order_noflip (k := q) (b := !o q) r hR (fun s hs => by
            obtain ⟨k, hk, e⟩ := dL.val s hs
            exact ⟨k, dL.dom k hk, e⟩) hsL hs' hq (by rw [v2 _ hs, ex]) (by rw [Bool.not_not]; exact es')
          rw [e] at this
          rw [this, ex]
        · omega
      · rw [f3 s hsL, v2 s hs]
    refine ⟨hq0, hq, w3, ?_, ?_, ?_, ⟨l', _, ?_, ?_, fun k hk => hI k (by omega)⟩, ?_, ?_, ?_, ?_, hbr⟩
    · show Keep h0 h3
      refine ⟨w3, ?_, ?_⟩
      · have := hk.le; omega
      · intro s hs
        have := hk.le
        rw [hold s (by omega), hk.val s hs]
    · intro z hz
      have := hnv z (List.mem_of_mem_eraseP hz)
      dsimp only; omega
    · intro z hz
      obtain ⟨k, b, h1, h3, h4⟩ := hval z hz
      refine ⟨k, b, h1, ?_, h4⟩
      dsimp only
      rw [hold z.1 (hnv z (List.mem_of_mem_eraseP hz)).2, h3]
    · exact (tag_mono fun s hs => hold s (dl.lt s hs)).symm
    · exact dl.mono (by dsimp only; omega) fun s hs => hold s (dl.lt s hs)
    · dsimp only
      rw [f3, x2]
      intro hc
      rcases mL _ hc with h | h <;> omega
    · dsimp only; omega
    · dsimp only; rw [p3]; exact e2
    · dsimp only; omega
  have hne : L ≠ [] := by
    obtain ⟨s, hs, -⟩ := dL.all _ (Set.mem_insert _ _)
    exact List.ne_nil_of_mem hs
  rcases order_answers hR h2 hne (by have := dL.length_le; omega) with ⟨h3, e⟩ | ⟨h3, m, e, hm⟩
  · exact ⟨_, c1 h3 e, main h3 (by rw [e]; rfl)⟩
  · obtain ⟨b, hb⟩ : ∃ b, R.isClosed (h3.vals m) = .ok b := by
      have hm' : h3.vals m ≠ [] := by
        unfold Heap.vals
        rw [Ne, List.map_eq_nil_iff]
        exact hm
      unfold Rt.isClosed
      rw [List.head?_eq_some_head hm', List.getLast?_eq_some_getLast hm']
      split_ifs <;> exact ⟨_, rfl⟩
    refine ⟨_, ?_, main h3 (by rw [e]; rfl)⟩
    rw [c2 h3 m b e hb, hbr]
    simp

/-- a round on the way back -/
theorem Bwd.step (r : RingPts R n v) (hR : R.IsRounding) (hn : n < 125) {π : SetOrder} (hπ : π.Ok) {m : ℕ}
    {w : Rt.WalkSt K} (i : Bwd R n v c o h0 m w) :
    R.walkStep π w = .inl (.no w.h) ∨ 1 < m ∧ ∃ w', R.walkStep π w = .inr w' ∧ Bwd R n v c o h0 (m - 1) w' := by
  have h3 := r.three
  have hm0 := i.pos
  have hmn := i.lt
  cases hnx : R.walkNext π w with
  | nil => left; unfold Rt.walkStep; rw [hnx]
  | cons nxt more =>
    right
    have hp := hπ w.k (w.nv.map Prod.fst)
    have hcand : nxt ∈ π w.k (w.nv.map Prod.fst) ∧
        (R.onEnds (v m) (w.h.val nxt) && !R.seq (w.h.val nxt) (rside v c (m, !o m))) = true := by
      unfold Rt.walkNext at hnx
      dsimp only at hnx
      rw [i.pt, i.akt] at hnx
      split_ifs at hnx with ha
      · have hm : nxt ∈ (π w.k (w.nv.map Prod.fst)).filter fun x =>
            R.peq (v m) (w.h.val x).i && !R.seq (w.h.val x) (rside v c (m, !o m)) := by
          rw [hnx]; exact List.mem_cons_self
        rw [List.mem_filter, Bool.and_eq_true] at hm
        refine ⟨hm.1, ?_⟩
        rw [Bool.and_eq_true]
        refine ⟨?_, hm.2.2⟩
        unfold Rt.onEnds
        rw [hR.peq_comm, hm.2.1, Bool.true_or]
      · have hm : nxt ∈ (π w.k (w.nv.map Prod.fst)).filter fun x =>
            R.onEnds (v m) (w.h.val x) && !R.seq (w.h.val x) (rside v c (m, !o m)) := by
          rw [hnx]; exact List.mem_cons_self
        rw [List.mem_filter] at hm
        exact hm
    obtain ⟨y, hy, rfl⟩ := List.mem_map.1 (hp.mem_iff.1 hcand.1)
    obtain ⟨k, b, hk, ek, hkb⟩ := i.nval y hy
    have h1 := hcand.2
    rw [Bool.and_eq_true, ek] at h1
    have hkm : k + 1 = m := by
      have h4 := h1.1
      unfold Rt.onEnds at h4
      rw [Bool.or_eq_true, rside_i, rside_j] at h4
      have h' : R.peq (v k) (v m) = true ∨ R.peq (v (k + 1)) (v m) = true := by
        cases b
        · exact h4.symm
        · exact h4
      rw [r.peq_iff (by omega) (by omega), r.peq_iff (by omega) (by omega)] at h'
      rcases h' with h' | h'
      · have : k = m := by omega
        subst this
        have h5 := h1.2
        rw [(hkb le_rfl).2, hR.seq_refl] at h5
        cases h5
      · omega
    obtain ⟨hk0, rfl⟩ := hkb (by omega)
    refine ⟨by omega, ?_⟩
    have hm1 : m - 1 = k := by omega
    rw [hm1]
    obtain ⟨l, I, hvis, d, hI⟩ := i.vis
    refine back_step r hR hn hπ i.wf i.keep i.nvlt hnx ⟨y, hy, rfl⟩ hk0 hk ek (by rw [i.pt, hkm]) i.ptlt ?_ hvis d
      (y := (m, !o m)) (by exact hmn) i.akt i.aktlt (fun j hj => Set.mem_insert_of_mem _ (hI j (by omega)))
      (by rw [i.br]; rfl)
    intro z hz
    obtain ⟨k', b', g1, g2, g3⟩ := i.nval z (List.mem_of_mem_eraseP hz)
    exact ⟨k', b', g1, g2, fun h => g3 (by omega)⟩

/-- a round on the way out -/
theorem Fwd.step (r : RingPts R n v) (hR : R.IsRounding) (hn : n < 125) (hap : Apart R.tol (Set.range v))
    (hJ : (∀ k < n, k ∈ J) ∨ ∀ k < n, o k = false) {π : SetOrder} (hπ : π.Ok) {t : ℕ}
    {w : Rt.WalkSt K} (i : Fwd R n v c o J h0 t w) :
    R.walkStep π w = .inl (.no w.h) ∨ (∃ w', R.walkStep π w = .inr w' ∧ Fwd R n v c o J h0 (t + 1) w') ∨
    (∃ w', R.walkStep π w = .inr w' ∧ Bwd R n v c o h0 t w') ∨
    ∃ h' m d, R.walkStep π w = .inl (.found h' ⟨m, false⟩) ∧ Keep h0 h' ∧ RingFound n v c h' m d ∧ ∀ k < n, k ∈ J := by
  have h3 := r.three
  have htn := i.lt
  cases hnx : R.walkNext π w with
  | nil => left; unfold Rt.walkStep; rw [hnx]
  | cons nxt more =>
    right
    obtain ⟨hmem, hc⟩ := i.next r hR hπ hnx
    obtain ⟨l, hvis, d⟩ := i.vis
    rcases hc with ⟨ht, htJ, ex⟩ | ⟨ex, ht0, hturn, hmore⟩
    · have hlt : nxt < w.h.nseg := by
        obtain ⟨y, hy, rfl⟩ := hmem
        exact (i.nvlt y hy).2
      obtain ⟨h2, L, l', pt, w2, n2, v2, x2, dL, mL, nL, dl, e2, l2, c1, c2⟩ := walkStep_gen r hR hπ i.wf hnx hlt
        (x := (t + 1, o (t + 1))) (by exact ht) ex (a := t + 1) (a' := t + 2) (Or.inl ⟨rfl, rfl⟩) i.pt i.ptlt hvis d
        (y := (t, o t)) (by exact htn) i.akt i.aktlt
      rw [Fwd.insert_set] at dL dl nL
      have hset : insert (t + 1, o (t + 1)) {x : ℕ × Bool | x.2 = o x.1 ∧ x.1 ≤ t} = {x | x.2 = o x.1 ∧ x.1 ≤ t + 1} := by
        rw [← Fwd.insert_set (t := t + 1)]
        congr 1
        ext x
        simp only [Set.mem_ofPred_eq]
        constructor
        · rintro ⟨h1, h2⟩; exact ⟨h1, by omega⟩
        · rintro ⟨h1, h2⟩; exact ⟨h1, by omega⟩
      rw [hset] at dL
      have hnL : nxt ∈ L := nL (by rintro ⟨-, h⟩; dsimp only at h; omega)
      by_cases hlast : t + 2 < n
      · left
        obtain ⟨h3, e, hturned⟩ := order_open r hR hlast (by omega) dL
        obtain ⟨w3, n3, q3, p3, f3⟩ := order_frame hR w2 (L := L) (h' := h3) (by rw [e]; rfl)
        refine ⟨_, c1 h3 e, i.advance r hR ht htJ hmem ex w3 n3 q3 p3 f3 n2 v2 x2 mL dl e2 l2 ?_ fun _ => hlast⟩
        rcases hturned nxt (by rw [v2 nxt hlt, ex]) with h | ⟨h, h'⟩
        · exact Or.inl h
        · cases hot : o (t + 1) with
          | true => left; exact h
          | false => right; exact ⟨h, fun _ => ⟨rfl, h'⟩⟩
      · have hall : ∀ k < n, k ∈ J := by
          intro k hk
          rcases Nat.lt_or_ge k (t + 1) with h | h
          · exact i.sub k (by omega)
          · rw [show k = t + 1 by omega]; exact htJ
        have hset2 : {x : ℕ × Bool | x.2 = o x.1 ∧ x.1 ≤ t + 1} = {x | x.2 = o x.1 ∧ x.1 < n} := by
          ext x
          simp only [Set.mem_ofPred_eq]
          constructor
          · rintro ⟨h1, h2⟩; exact ⟨h1, by omega⟩
          · rintro ⟨h1, h2⟩; exact ⟨h1, by omega⟩
        rw [hset2] at dL
        obtain ⟨h3, m, dd, e, hperm, hml, hch, hvals⟩ := order_closed r hR (by omega) hap dL
        obtain ⟨w3, n3, q3, p3, f3⟩ := order_frame hR w2 (L := L) (h' := h3) (by rw [e]; rfl)
        have hcl : R.isClosed (h3.vals m) = .ok true := isClosed_of_chain hR (by
          unfold Heap.vals
          rw [Ne, List.map_eq_nil_iff]
          rintro rfl
          simp at hml
          omega) hch
        have hx3 := hvals nxt hnL (t + 1) ht (by rw [v2 nxt hlt, ex])
        cases hb : (w.branch || decide (0 < more.length)) with
        | true =>
          left
          refine ⟨_, by rw [c2 h3 m true e hcl, hb]; rfl,
            i.advance r hR ht htJ hmem ex w3 n3 q3 p3 f3 n2 v2 x2 mL dl e2 l2 ?_ (by simp)⟩
          by_cases hd : dd = o (t + 1)
          · left; rw [hx3, hd]
          · right
            have : dd = !o (t + 1) := by
              revert hd; cases dd <;> cases o (t + 1) <;> simp
            exact ⟨by rw [hx3, this], fun h => absurd h hlast⟩
        | false =>
          right; right
          refine ⟨h3, m, dd, by rw [c2 h3 m true e hcl, hb]; rfl, ?_, ⟨⟨?_, ?_, ?_, ?_, ?_, ?_⟩, hch, hml⟩, hall⟩
          · refine ⟨w3, ?_, ?_⟩
            · have := i.keep.le; omega
            · intro s hs
              have := i.keep.le
              have hge : h0.nseg ≤ nxt := by
                obtain ⟨y, hy, rfl⟩ := hmem
                exact (i.nvlt y hy).1
              rw [f3, v2 s (by omega), i.keep.val s hs]
              intro hc
              rcases mL s hc with h | h <;> omega
          · rintro x ⟨-, h⟩; exact h
          · exact hperm.nodup_iff.2 dL.nodup
          · intro s hs
            have := dL.lt s (hperm.mem_iff.1 hs)
            omega
          · intro s hs
            obtain ⟨⟨k, b⟩, ⟨hb, hk⟩, ek⟩ := dL.val s (hperm.mem_iff.1 hs)
            dsimp only at hb hk
            subst hb
            exact ⟨(k, dd), ⟨rfl, hk⟩, hvals s (hperm.mem_iff.1 hs) k hk ek⟩
          · rintro ⟨k, b⟩ ⟨hb, hk⟩
            dsimp only at hb hk
            subst hb
            obtain ⟨s, hs, ek⟩ := dL.all (k, o k) ⟨rfl, hk⟩
            exact ⟨s, hperm.mem_iff.2 hs, hvals s hs k hk ek⟩
          · intro s hs s' hs' ee
            have hs := hperm.mem_iff.1 hs
            have hs' := hperm.mem_iff.1 hs'
            obtain ⟨⟨k, b⟩, ⟨hb, hk⟩, ek⟩ := dL.val s hs
            obtain ⟨⟨k', b'⟩, ⟨hb', hk'⟩, ek'⟩ := dL.val s' hs'
            dsimp only at hb hk hb' hk'
            subst hb hb'
            rw [hvals s hs k hk ek, hvals s' hs' k' hk' ek'] at ee
            have : k = k' := congrArg Prod.fst (r.inj hR (by exact hk) (by exact hk') ee)
            subst this
            exact dL.inj s hs s' hs' (ek.trans ek'.symm)
    · right; left
      refine back_step r hR hn hπ i.wf i.keep i.nvlt hnx hmem ht0 htn ex i.pt i.ptlt ?_ hvis d (y := (t, o t))
        (by exact htn) i.akt i.aktlt ?_ ?_
      · intro z hz
        obtain ⟨hz, hzt⟩ := (i.discard r hR z).1 hz
        obtain ⟨k, hk, -, -, hc⟩ := i.nval z hz
        rcases hc with ⟨g1, g2⟩ | ⟨rfl, g2⟩ | ⟨rfl, g1, g2, -⟩ | ⟨g0, g1, g2⟩
        · exact ⟨k, _, hk, g2, fun h => absurd h (by omega)⟩
        · exact absurd g2 hzt
        · exact ⟨k, _, hk, g2, fun _ => ⟨g1, rfl⟩⟩
        · exact ⟨k, _, hk, g2, fun _ => ⟨g0, rfl⟩⟩
      · intro k hk
        rw [Fwd.insert_set]
        exact ⟨rfl, hk⟩
      · by_cases ht : t + 1 < n
        · rcases hJ with hJ | hJ
          · have := hmore ht (hJ _ ht)
            have : 0 < more.length := List.length_pos_iff.2 this
            rw [decide_eq_true this, Bool.or_true]
          · obtain ⟨j, hj, ej⟩ := (hturn ht).2
            rw [hJ j hj] at ej
            cases ej
        · cases hb : w.branch with
          | true => rfl
          | false => exact absurd (i.br hb) ht

theorem Bwd.loop (r : RingPts R n v) (hR : R.IsRounding) (hn : n < 125) {π : SetOrder} (hπ : π.Ok) :
    ∀ (fuel m : ℕ) (w : Rt.WalkSt K), Bwd R n v c o h0 m w → m ≤ fuel →
    ∃ h', R.walkLoop π fuel w = .no h' ∧ Keep h0 h'
  | 0, m, w, i, hf => by have := i.pos; omega
  | fuel + 1, m, w, i, hf => by
    unfold Rt.walkLoop
    split_ifs with h0
    · exact ⟨w.h, rfl, i.keep⟩
    · rcases i.step r hR hn hπ with e | ⟨h1, w', e, i'⟩
      · rw [e]; exact ⟨w.h, rfl, i.keep⟩
      · rw [e]; exact Bwd.loop r hR hn hπ fuel (m - 1) w' i' (by omega)

theorem Fwd.loop (r : RingPts R n v) (hR : R.IsRounding) (hn : n < 125) (hap : Apart R.tol (Set.range v))
    (hJ : (∀ k < n, k ∈ J) ∨ ∀ k < n, o k = false) {π : SetOrder} (hπ : π.Ok) :
    ∀ (fuel t : ℕ) (w : Rt.WalkSt K), Fwd R n v c o J h0 t w → 2 * n ≤ fuel + t →
    (∃ h', R.walkLoop π fuel w = .no h' ∧ Keep h0 h') ∨
    ∃ h' m d, R.walkLoop π fuel w = .found h' ⟨m, false⟩ ∧ Keep h0 h' ∧ RingFound n v c h' m d ∧ ∀ k < n, k ∈ J
  | 0, t, w, i, hf => by have := i.lt; omega
  | fuel + 1, t, w, i, hf => by
    have := i.lt
    unfold Rt.walkLoop
    split_ifs with h0
    · exact Or.inl ⟨w.h, rfl, i.keep⟩
    · rcases i.step r hR hn hap hJ hπ with e | ⟨w', e, i'⟩ | ⟨w', e, i'⟩ | ⟨h', m, d, e, h1, h2, h3⟩
      · rw [e]; exact Or.inl ⟨w.h, rfl, i.keep⟩
      · rw [e]; exact Fwd.loop r hR hn hap hJ hπ fuel (t + 1) w' i' (by omega)
      · rw [e]; exact Or.inl (Bwd.loop r hR hn hπ fuel t w' i' (by omega))
      · rw [e]; exact Or.inr ⟨h', m, d, rfl, h1, h2, h3⟩

/-- the same ring seen from one of its sides, in the direction against that side -/
theorem RingPts.shift (r : RingPts R n v) (hR : R.IsRounding) (c : ℕ → SegCls) {k0 : ℕ} (hk0 : k0 < n) (b0 : Bool) :
    ∃ (v' : ℕ → Pt K) (c' : ℕ → SegCls) (τ : ℕ → ℕ), RingPts R n v' ∧ Set.range v' ⊆ Set.range v ∧ τ 0 = k0 ∧
      (∀ j < n, τ j < n) ∧ (∀ k < n, ∃ j < n, τ j = k) ∧
      ∀ j b, j < n → rside v' c' (j, b) = rside v c (τ j, b ^^ b0) := by
  have h3 := r.three
  have hn0 : NeZero n := ⟨by omega⟩
  have hcast : ∀ k ≤ n, v k = v (k : ZMod n).val := by
    intro k hk
    rw [ZMod.val_natCast]
    rcases Nat.lt_or_ge k n with h | h
    · rw [Nat.mod_eq_of_lt h]
    · have : k = n := by omega
      rw [this, Nat.mod_self, r.close]
  have heq : ∀ a b : ZMod n, R.peq (v a.val) (v b.val) = true ↔ a = b := by
    intro a b
    rw [r.eq _ _ a.val_lt b.val_lt]
    exact (ZMod.val_injective n).eq_iff
  have inj : ∀ a b : ℕ, a < n → b < n → ((a : ZMod n) = b ↔ a = b) := by
    intro a b ha hb
    rw [ZMod.natCast_eq_natCast_iff', Nat.mod_eq_of_lt ha, Nat.mod_eq_of_lt hb]
  have hnext : ∀ z : ZMod n, v (z.val + 1) = v (z + 1).val := by
    intro z
    rw [hcast (z.val + 1) z.val_lt]
    congr 2
    push_cast
    rw [ZMod.natCast_zmod_val]
  cases b0 with
  | false =>
    refine ⟨fun j => v (k0 + j : ZMod n).val, fun j => c (k0 + j : ZMod n).val, fun j => (k0 + j : ZMod n).val,
      ⟨h3, ?_, ?_⟩, ?_, ?_, fun j _ => ZMod.val_lt _, ?_, ?_⟩
    · simp
    · intro a b ha hb
      rw [heq, add_right_inj, inj a b ha hb]
    · rintro _ ⟨j, rfl⟩; exact ⟨_, rfl⟩
    · dsimp only; rw [Nat.cast_zero, add_zero, ZMod.val_natCast, Nat.mod_eq_of_lt hk0]
    · intro k hk
      refine ⟨((k : ZMod n) - k0).val, ZMod.val_lt _, ?_⟩
      dsimp only
      rw [ZMod.natCast_zmod_val, add_sub_cancel, ZMod.val_natCast, Nat.mod_eq_of_lt hk]
    · intro j b hj
      have e : v ((k0 + j : ZMod n).val + 1) = v (k0 + ((j + 1 : ℕ) : ZMod n)).val := by
        rw [hnext]
        push_cast
        rw [add_assoc]
      unfold rside
      dsimp only
      rw [Bool.xor_false, e]
  | true =>
    refine ⟨fun j => v (k0 + 1 - j : ZMod n).val, fun j => c (k0 - j : ZMod n).val, fun j => (k0 - j : ZMod n).val,
      ⟨h3, ?_, ?_⟩, ?_, ?_, fun j _ => ZMod.val_lt _, ?_, ?_⟩
    · simp
    · intro a b ha hb
      rw [heq, sub_right_inj, inj a b ha hb]
    · rintro _ ⟨j, rfl⟩; exact ⟨_, rfl⟩
    · dsimp only; rw [Nat.cast_zero, sub_zero, ZMod.val_natCast, Nat.mod_eq_of_lt hk0]
    · intro k hk
      refine ⟨((k0 : ZMod n) - k).val, ZMod.val_lt _, ?_⟩
      dsimp only
      rw [ZMod.natCast_zmod_val, sub_sub_cancel, ZMod.val_natCast, Nat.mod_eq_of_lt hk]
    · intro j b hj
      have e : v ((k0 - j : ZMod n).val + 1) = v (k0 + 1 - j : ZMod n).val := by
        rw [hnext]
        congr 2
        ring
      have e' : v (k0 + 1 - ((j + 1 : ℕ) : ZMod n)).val = v (k0 - j : ZMod n).val := by
        congr 2
        push_cast
        ring
      unfold rside
      dsimp only
      rw [e, e', Bool.xor_true]
      cases b <;> rfl

/-- `walk_segments` on sides of a ring: either all sides, in any directions, or some, all in the same direction -/
theorem walkSegments_ring (r : RingPts R n v) (hR : R.IsRounding) (hn : n < 125) (hap : Apart R.tol (Set.range v))
    (hJ : (∀ k < n, k ∈ J) ∨ ∃ b, ∀ k < n, o k = b) {π : SetOrder} (hπ : π.Ok) (fuel k : ℕ) (hf : 2 * n ≤ fuel)
    {h : Heap K} (hw : h.WF) {a : ℕ} {l : List ℕ}
    (d : Lists n (rside v c) h (a :: l) {x | x.2 = o x.1 ∧ x.1 ∈ J ∧ x.1 < n}) :
    (∃ h', R.walkSegments π fuel k h (a :: l) = .no h' ∧ Keep h h') ∨
    ∃ h' m d, R.walkSegments π fuel k h (a :: l) = .found h' ⟨m, false⟩ ∧ Keep h h' ∧ RingFound n v c h' m d ∧
      ∀ k < n, k ∈ J := by
  have h3 := r.three
  have k1 := keep_deepcopy hw
  have hn1 : h.deepcopy.nseg = h.nseg + h.nseg := rfl
  have d1 := d.copy
  have halt := d.lt a List.mem_cons_self
  have hva : h.deepcopy.val a = h.val a := k1.val a halt
  unfold Rt.walkSegments
  dsimp only
  rw [setOf_lists r hR d1, tag_fst]
  cases hfil : (π k ((a :: l).map (· + h.nseg))).filter (fun x =>
      R.peq (h.deepcopy.pt (h.deepcopy.seg a).i) (h.deepcopy.val x).i) with
  | nil =>
    exfalso
    rw [List.filter_eq_nil_iff] at hfil
    apply hfil (a + h.nseg) ((hπ k _).mem_iff.2 (List.mem_map_of_mem List.mem_cons_self))
    rw [deepcopy_new]
    show R.peq (h.deepcopy.val a).i _ = true
    rw [hva]; exact hR.peq_refl _
  | cons akt rest =>
    have hakt : akt ∈ (π k ((a :: l).map (· + h.nseg))).filter (fun x =>
        R.peq (h.deepcopy.pt (h.deepcopy.seg a).i) (h.deepcopy.val x).i) := by rw [hfil]; exact List.mem_cons_self
    rw [List.mem_filter] at hakt
    obtain ⟨s, hs, rfl⟩ := List.mem_map.1 ((hπ k _).mem_iff.1 hakt.1)
    obtain ⟨⟨k0, b0⟩, ⟨hb0, hk0J, hk0⟩, es⟩ := d.val s hs
    dsimp only at hb0 hk0J hk0
    obtain ⟨v', c', τ, r', hrange, hτ0, hτ, hτs, hside⟩ := r.shift hR c hk0 b0
    have hτi : ∀ i j, i < n → j < n → τ i = τ j → i = j := by
      intro i j hi hj e
      have h1 := hside i true hi
      rw [e, ← hside j true hj] at h1
      exact congrArg Prod.fst (r'.inj hR (by exact hi) (by exact hj) h1)
    have hb00 : o k0 = b0 := hb0.symm
    -- the new description
    have conv : ∀ (x : ℕ × Bool), x.1 < n → ∃ y : ℕ × Bool, y.1 < n ∧ τ y.1 = x.1 ∧ y.2 = (x.2 ^^ b0) ∧
        rside v c x = rside v' c' y := by
      rintro ⟨kx, bx⟩ hx
      obtain ⟨j, hj, rfl⟩ := hτs kx hx
      refine ⟨(j, bx ^^ b0), hj, rfl, rfl, ?_⟩
      rw [hside j _ hj]
      congr 2
      cases bx <;> cases b0 <;> rfl
    set o' : ℕ → Bool := fun j => o (τ j) ^^ b0 with ho'
    set J' : Set ℕ := {j | τ j ∈ J} with hJ'
    have d' : Lists n (rside v' c') h (a :: l) {x | x.2 = o' x.1 ∧ x.1 ∈ J' ∧ x.1 < n} := by
      refine ⟨fun x hx => hx.2.2, d.nodup, d.lt, ?_, ?_, d.inj⟩
      · intro s hs
        obtain ⟨x, ⟨hx1, hx2, hx3⟩, e⟩ := d.val s hs
        obtain ⟨y, hy1, hy2, hy3, hy4⟩ := conv x hx3
        refine ⟨y, ⟨?_, ?_, hy1⟩, by rw [e, hy4]⟩
        · rw [hy3, hx1, ← hy2]
        · show τ y.1 ∈ J
          rw [hy2]; exact hx2
      · rintro ⟨j, b⟩ ⟨hx1, hx2, hx3⟩
        dsimp only at hx1 hx2 hx3
        obtain ⟨s, hs, e⟩ := d.all (τ j, o (τ j)) ⟨rfl, hx2, hτ j hx3⟩
        refine ⟨s, hs, ?_⟩
        rw [e, hside j b hx3, hx1, ho']
        congr 2
        dsimp only
        cases o (τ j) <;> cases b0 <;> rfl
    have hJ2 : (∀ k < n, k ∈ J') ∨ ∀ k < n, o' k = false := by
      rcases hJ with h | ⟨b, hb⟩
      · exact Or.inl fun k hk => h _ (hτ k hk)
      · right
        intro k hk
        rw [ho']
        dsimp only
        rw [hb _ (hτ k hk), ← hb00, hb k0 hk0, Bool.xor_self]
    have ho0 : o' 0 = false := by
      rw [ho']
      dsimp only
      rw [hτ0, hb00, Bool.xor_self]
    have es' : h.val s = rside v' c' (0, false) := by
      rw [es, hside 0 false (by omega), hτ0, Bool.false_xor]
    have hpt : h.deepcopy.pt (h.deepcopy.seg a).i = v' 1 := by
      have h1 := hakt.2
      rw [deepcopy_new, es'] at h1
      obtain ⟨⟨ka, ba⟩, ⟨-, -, hka⟩, ea⟩ := d'.val a List.mem_cons_self
      have h2 : h.deepcopy.pt (h.deepcopy.seg a).i = (h.val a).i := by
        rw [← hva]; rfl
      rw [h2, ea, rside_i, rside_i] at h1
      rw [h2, ea, rside_i]
      dsimp only at hka h1 ⊢
      cases ba <;> simp only [if_true, if_false, Bool.false_eq_true, zero_add] at h1 ⊢ <;>
        rw [r'.peq_iff (by omega) (by omega)] at h1
      · rw [show ka + 1 = 1 by omega]
      · rw [show ka = 1 by omega]
    have dd := d'.copy
    have hb := k1.wf a (lt_of_lt_of_le halt k1.le)
    have hslt := d.lt s hs
    have init : Fwd R n v' c' o' J' h 0 ⟨h.deepcopy, tag R h.deepcopy ((a :: l).map (· + h.nseg)),
        [(s + h.nseg, R.segHash h.deepcopy (s + h.nseg))], s + h.nseg, (h.deepcopy.seg a).i, false, k + 1⟩ := by
      refine ⟨by omega, ?_, k1.wf, k1, ?_, ?_, ?_, ?_, ?_, ⟨[s + h.nseg], rfl, ?_⟩, ?_, ?_, ?_, hb.1, fun _ => by omega⟩
      · intro k hk
        obtain rfl : k = 0 := by omega
        show τ 0 ∈ J
        rw [hτ0]; exact hk0J
      · intro y hy
        dsimp only at hy
        obtain ⟨t, ht, rfl⟩ := List.mem_map.1 hy
        obtain ⟨t', ht', rfl⟩ := List.mem_map.1 ht
        have := d.lt t' ht'
        dsimp only
        omega
      · dsimp only
        rw [tag_fst]; exact dd.nodup
      · intro y hy
        dsimp only at hy
        obtain ⟨t, ht, rfl⟩ := List.mem_map.1 hy
        obtain ⟨⟨kt, bt⟩, ⟨h1, h2, h4⟩, et⟩ := dd.val t ht
        dsimp only at h1 h2 h4
        subst h1
        refine ⟨kt, h4, h2, ?_, ?_⟩
        · dsimp only
          unfold Rt.segHash vhash
          rw [et]
        · dsimp only
          rcases Nat.eq_zero_or_pos kt with h | h
          · exact Or.inr (Or.inl ⟨h, et⟩)
          · exact Or.inl ⟨h, et⟩
      · intro j hj hj0 hjn
        obtain ⟨t, ht, et⟩ := dd.all (j, o' j) ⟨rfl, hj, hjn⟩
        exact ⟨_, List.mem_map_of_mem ht, et⟩
      · intro y hy z hz j b b' hj ey ez
        dsimp only at hy hz
        obtain ⟨t, ht, rfl⟩ := List.mem_map.1 hy
        obtain ⟨u, hu, rfl⟩ := List.mem_map.1 hz
        dsimp only at ey ez ⊢
        obtain ⟨⟨kt, bt⟩, ⟨h1, h2, h4⟩, et⟩ := dd.val t ht
        obtain ⟨⟨ku, bu⟩, ⟨g1, g2, g4⟩, eu⟩ := dd.val u hu
        dsimp only at h1 h4 g1 g4
        have e1 := congrArg Prod.fst (r'.inj hR (by exact hj) (by exact h4) (ey.symm.trans et))
        have e2 := congrArg Prod.fst (r'.inj hR (by exact hj) (by exact g4) (ez.symm.trans eu))
        dsimp only at e1 e2
        subst e1 e2
        exact dd.inj t ht u hu (by rw [et, eu, h1, g1])
      · dsimp only
        refine ⟨?_, List.nodup_singleton _, ?_, ?_, ?_, ?_⟩
        · rintro x ⟨-, hx⟩; omega
        · intro t ht
          rw [List.mem_singleton] at ht
          subst ht
          omega
        · intro t ht
          rw [List.mem_singleton] at ht
          subst ht
          refine ⟨(0, false), ⟨ho0.symm, Or.inr rfl⟩, ?_⟩
          rw [deepcopy_new, es']
        · rintro ⟨x, b⟩ ⟨hx1, hx2⟩
          dsimp only at hx1 hx2
          obtain rfl : x = 0 := by omega
          rw [ho0] at hx1
          subst hx1
          exact ⟨_, List.mem_singleton.2 rfl, by rw [deepcopy_new, es']⟩
        · intro x hx y hy _
          rw [List.mem_singleton] at hx hy
          rw [hx, hy]
      · dsimp only
        rw [deepcopy_new, es', ho0]
      · dsimp only; omega
      · exact hpt
    rcases Fwd.loop r' hR hn (fun x hx y hy => hap x (hrange hx) y (hrange hy)) hJ2 hπ fuel 0 _ init (by omega) with
      ⟨h', e, hk⟩ | ⟨h', m, dd, e, hk, hm, hall⟩
    · left; exact ⟨h', e, hk⟩
    · right
      refine ⟨h', m, dd ^^ b0, e, hk, ⟨⟨fun x hx => hx.2, hm.lists.nodup, hm.lists.lt, ?_, ?_, hm.lists.inj⟩, hm.chain,
        hm.length⟩, ?_⟩
      · intro t ht
        obtain ⟨⟨j, b⟩, ⟨h1, h2⟩, et⟩ := hm.lists.val t ht
        dsimp only at h1 h2
        refine ⟨(τ j, b ^^ b0), ⟨by rw [h1], hτ j h2⟩, ?_⟩
        rw [et, hside j b h2]
      · rintro ⟨kx, bx⟩ ⟨h1, h2⟩
        dsimp only at h1 h2
        obtain ⟨j, hj, rfl⟩ := hτs kx h2
        obtain ⟨t, ht, et⟩ := hm.lists.all (j, dd) ⟨rfl, hj⟩
        exact ⟨t, ht, by rw [et, hside j dd hj, h1]⟩
      · intro kk hkk
        obtain ⟨j, hj, rfl⟩ := hτs kk hkk
        exact hall j hj

end
end Srep
