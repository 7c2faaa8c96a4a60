import Verif.Lemmas.OrderB
import Verif.Props.Purge

/-! Properties C48, C49: `order()`. -/

set_option linter.unusedSectionVars false

namespace Srep
variable {K : Type} [Field K] [LinearOrder K] [IsStrictOrderedRing K] [FloorRing K]

/-! ### C48 -/

/-- C48: both loops of `order` end within `2 n + 1` rounds: no number of rounds beyond that changes the
outcome. -/
theorem C48_terminates {R : Rt K} (hR : R.IsRounding) (h : Heap K) (P : PLine) :
    R.order h P ≠ .timeout ∧ ∀ fuel, 2 * P.segs.length + 1 ≤ fuel → R.orderF fuel h P = R.order h P := by
  cases hP : P.segs with
  | nil =>
    have : ∀ fuel, R.orderF fuel h P = .raised h .index := by
      intro fuel; unfold Rt.orderF; rw [hP]
    refine ⟨?_, ?_⟩
    · unfold Rt.order; rw [this]; simp
    · intro fuel _; unfold Rt.order; rw [this, this]
  | cons a t =>
    rw [← hP]
    have key : ∀ fuel, 2 * P.segs.length + 1 ≤ fuel → R.orderF fuel h P ≠ .timeout ∧
        R.orderF fuel h P = R.orderF (2 * P.segs.length + 1) h P := by
      intro fuel hf
      have h1 := order_cases hR h P a t hP fuel hf
      have h2 := order_cases hR h P a t hP _ le_rfl
      dsimp only at h1 h2
      -- the two runs share the loop; the rotation ends at the same place
      have hfin : R.orderF fuel h P = R.orderFinish fuel
          (R.orderLoop P.segs (2 * P.segs.length + 1) h a (h.seg a).j [] 0) := by
        rw [← (orderLoop_fuel R P.segs (2 * P.segs.length + 1) h a (h.seg a).j [] 0 (by omega)
          (by omega)).2 fuel hf]
        unfold Rt.orderF; simp only [hP]
      have hfin2 : R.orderF (2 * P.segs.length + 1) h P = R.orderFinish (2 * P.segs.length + 1)
          (R.orderLoop P.segs (2 * P.segs.length + 1) h a (h.seg a).j [] 0) := by
        unfold Rt.orderF; simp only [hP]
      rcases h1 with ⟨k1, k2, k3⟩ | ⟨h', k1, k2⟩ | ⟨h', ret, l, f, k1, k2, k3, k4, k5, k6⟩
      · refine ⟨by rw [k2]; exact k3, ?_⟩
        rcases h2 with ⟨m1, m2, m3⟩ | ⟨h'', m1, m2⟩ | ⟨h'', ret', l', f', m1, m2, m3, m4, m5, m6⟩
        · rw [k2, m2]
        · exact absurd m1 (k1 _ _)
        · exact absurd m1 (k1 _ _)
      · refine ⟨by rw [k2]; simp, ?_⟩
        rw [hfin, hfin2, k1]; rfl
      · refine ⟨by rw [k6]; simp, ?_⟩
        rw [hfin, hfin2, k1]
        simp only [Rt.orderFinish]
        cases hs : (ret.insertionSort fun x y => R.orderKeyLe (h'.val x) (h'.val y)) with
        | nil => rfl
        | cons g u =>
          simp only [hs]
          obtain ⟨hg, -⟩ := head_insertionSort R h' ret hs
          obtain ⟨x, y, hxy⟩ := List.append_of_mem hg
          obtain ⟨m, -, -, hm⟩ := rotateTo_spec R h' g (hR.seq_refl _) y.length x y rfl
          have hlen : ret.length ≤ P.segs.length := by
            obtain ⟨ret', inv, hret⟩ := orderLoop_inv R h P.segs (2 * P.segs.length + 1) h a (h.seg a).j [] 0
              ⟨rfl, rfl, rfl, fun _ _ => rfl, fun _ => Or.inl rfl, by simp, by simp⟩
            have := hret h' ret k1
            subst this
            exact (List.subperm_of_subset inv.nodup (fun s hs => inv.sub s hs)).length_le
          have hy : ret.length = x.length + (y.length + 1) := by rw [hxy]; simp
          rw [← hxy] at hm
          rw [hm fuel (by omega), hm (2 * P.segs.length + 1) (by omega)]
    exact ⟨(key _ le_rfl).1, fun fuel hf => (key fuel hf).2⟩

/-- the invariant of the loop holds at the end, whatever the outcome -/
theorem order_inv {R : Rt K} (hR : R.IsRounding) (h : Heap K) (P : PLine) :
    ∃ ret, OrderInv h P.segs ((R.order h P).heap h) ret ∧
      ∀ h' l, R.order h P = .done h' l → ret ~r l ∧ h' = (R.order h P).heap h := by
  cases hP : P.segs with
  | nil =>
    have : R.order h P = .raised h .index := by unfold Rt.order Rt.orderF; rw [hP]
    rw [this]
    refine ⟨[], ⟨rfl, rfl, rfl, fun _ _ => rfl, fun _ => Or.inl rfl, by simp, by simp⟩, ?_⟩
    intro h' l e; cases e
  | cons a t =>
    rw [← hP]
    have h1 := order_cases hR h P a t hP _ le_rfl
    obtain ⟨ret', inv, hret⟩ := orderLoop_inv R h P.segs (2 * P.segs.length + 1) h a (h.seg a).j [] 0
      ⟨rfl, rfl, rfl, fun _ _ => rfl, fun _ => Or.inl rfl, by simp, by simp⟩
    dsimp only at h1
    change _ ∨ _ ∨ _ at h1
    unfold Rt.order
    rcases h1 with ⟨k1, k2, k3⟩ | ⟨h', k1, k2⟩ | ⟨h', ret, l, f, k1, k2, k3, k4, k5, k6⟩
    · rw [k2]
      exact ⟨ret', inv, fun h' l e => absurd e (k1 h' l)⟩
    · rw [k2]
      rw [k1] at inv
      exact ⟨ret', inv, fun _ _ e => by cases e⟩
    · rw [k6]
      have := hret h' ret k1
      subst this
      rw [k1] at inv
      refine ⟨ret', inv, ?_⟩
      intro h'' l' e
      cases e
      exact ⟨k2, rfl⟩

/-- C48: whatever the outcome, `order` changes nothing but the direction of segments of the polyline: no
Point and no other segment changes, no object is created. -/
theorem C48_only_reverses {R : Rt K} (hR : R.IsRounding) (h : Heap K) (P : PLine) :
    let h' := (R.order h P).heap h
    h'.pt = h.pt ∧ h'.npt = h.npt ∧ h'.nseg = h.nseg ∧ (∀ s, s ∉ P.segs → h'.seg s = h.seg s) ∧
    ∀ s, h'.seg s = h.seg s ∨ h'.seg s = ⟨(h.seg s).j, (h.seg s).i, (h.seg s).cls⟩ := by
  obtain ⟨ret, inv, -⟩ := order_inv hR h P
  exact ⟨inv.pt, inv.npt, inv.nseg, fun s hs => inv.same s (fun hc => hs (inv.sub s hc)), inv.turned⟩

/-- C48: the list returned with True consists of segment objects of the polyline, none twice. -/
theorem C48_sublist {R : Rt K} (hR : R.IsRounding) (h : Heap K) (P : PLine) (h' : Heap K) (l : List ℕ)
    (hd : R.order h P = .done h' l) : (∀ s ∈ l, s ∈ P.segs) ∧ l.Nodup ∧ l ≠ [] := by
  obtain ⟨ret, inv, hret⟩ := order_inv hR h P
  obtain ⟨hrot, -⟩ := hret h' l hd
  refine ⟨fun s hs => inv.sub s (hrot.mem_iff.2 hs), (hrot.nodup_iff).1 inv.nodup, ?_⟩
  rintro rfl
  cases hP : P.segs with
  | nil =>
    have : R.order h P = .raised h .index := by unfold Rt.order Rt.orderF; rw [hP]
    rw [this] at hd; cases hd
  | cons a t =>
    have h1 := order_cases hR h P a t hP _ le_rfl
    dsimp only at h1
    unfold Rt.order at hd
    rcases h1 with ⟨k1, k2, k3⟩ | ⟨h', k1, k2⟩ | ⟨h', ret, l, f, k1, k2, k3, k4, ⟨b, u, rfl, k5⟩, k6⟩
    · rw [k2] at hd; exact k1 _ _ hd
    · rw [k2] at hd; cases hd
    · rw [k6] at hd; cases hd

/-- C48: with separated points and no null segment no two segments of the returned list are equal, and the
first one starts at the point closest to the origin. -/
theorem C48_distinct_first {R : Rt K} (hR : R.IsRounding) (h : Heap K) (P : PLine)
    (hap : Apart R.tol (locs h P.segs)) (hnull : ∀ s ∈ P.segs, (h.val s).i ≠ (h.val s).j)
    (h' : Heap K) (l : List ℕ) (hd : R.order h P = .done h' l) :
    (l.map h'.val).Nodup ∧ (l.Pairwise fun s t => R.seq (h'.val s) (h'.val t) = false) ∧
    ∃ b u, l = b :: u ∧ ∀ s ∈ l,
      R.distance ⟨0, 0⟩ (h'.val b).i ≤ R.distance ⟨0, 0⟩ (h'.val s).i := by
  have hsep := sep_of_locs hR hap
  cases hP : P.segs with
  | nil =>
    have : R.order h P = .raised h .index := by unfold Rt.order Rt.orderF; rw [hP]
    rw [this] at hd; cases hd
  | cons a t =>
    have h1 := order_cases hR h P a t hP _ le_rfl
    have base : OrderInv h P.segs h [] :=
      ⟨rfl, rfl, rfl, fun _ _ => rfl, fun _ => Or.inl rfl, by simp, by simp⟩
    obtain ⟨ret', inv, hret⟩ := orderLoop_inv R h P.segs (2 * P.segs.length + 1) h a (h.seg a).j [] 0 base
    dsimp only at h1
    unfold Rt.order at hd
    rcases h1 with ⟨k1, k2, k3⟩ | ⟨h'', k1, k2⟩ | ⟨h'', ret, l', f, k1, k2, k3, k4, ⟨b, u, rfl, k5⟩, k6⟩
    · rw [k2] at hd; exact absurd hd (k1 _ _)
    · rw [k2] at hd; cases hd
    · rw [k6] at hd
      cases hd
      have := hret h' ret k1
      subst this
      rw [k1] at inv
      change OrderInv h P.segs h' ret' at inv
      have hnd := orderLoop_distinct hR hsep hnull _ h a (h.seg a).j [] 0 base (by rw [hP]; simp) rfl
        (by simp) h' ret' k1
      have hmem : ∀ s ∈ b :: u, s ∈ ret' := fun s hs => k2.mem_iff.2 hs
      have hnd' : ((b :: u).map h'.val).Nodup := ((k2.map h'.val).nodup_iff).1 hnd
      refine ⟨hnd', ?_, b, u, rfl, ?_⟩
      · have := List.pairwise_map.1 hnd'
        refine this.imp_of_mem ?_
        intro s t hs ht hne
        rw [Bool.eq_false_iff]
        intro hq
        exact hne ((inv.seq_iff hR hsep (inv.sub _ (hmem _ hs)) (inv.sub _ (hmem _ ht))).1 hq)
      · intro s hs
        have e := (inv.seq_iff hR hsep (inv.sub _ (hmem b (by simp))) (inv.sub _ k3)).1 k5
        rw [e]
        have hle := k4 s (hmem s hs)
        have h0 : R.mkPt 0 0 = ⟨0, 0⟩ := by
          have : rhe8 (0 : K) = 0 := grid_zero.rhe8
          simp [Rt.mkPt, Rt.coord, Rt.round8, hR.zero, this]
        unfold Rt.orderKeyLe at hle
        simp only [h0] at hle
        rcases hle with hlt | ⟨heq, -⟩
        · exact hlt.le
        · exact heq.le

/-- C48: `order` can return False after it has reversed a segment in place. -/
theorem C48_failed_but_reversed : ∃ (h : Heap ℚ) (P : PLine),
    exRt.Sep (endPts (h.vals P.segs)) ∧ (∀ s ∈ P.segs, (h.val s).i ≠ (h.val s).j) ∧
    (match exRt.order h P with
     | .failed h' => decide (h'.seg 1 ≠ h.seg 1)
     | _ => false) = true :=
  ⟨⟨fun n => ⟨n, if n = 1 then 1 else 0⟩,
    fun s => if s = 0 then ⟨0, 1, .line⟩ else if s = 1 then ⟨2, 1, .line⟩ else ⟨2, 3, .line⟩, 4, 3⟩,
   ⟨[0, 1, 2], false⟩, by unfold Rt.Sep; decide +kernel⟩

/-- a shuffled square: (0,0)→(1,0), (1,1)→(0,1), (1,1)→(1,0), (0,1)→(0,0) on Points 0..3 -/
def exShuffled : Heap ℚ :=
  ⟨fun n => if n = 0 then ⟨2, 2⟩ else if n = 1 then ⟨1, 2⟩ else if n = 2 then ⟨1, 1⟩ else ⟨2, 1⟩,
   fun s => if s = 0 then ⟨0, 1, .line⟩ else if s = 1 then ⟨2, 3, .line⟩ else if s = 2 then ⟨2, 1, .line⟩
     else ⟨3, 0, .line⟩, 4, 4⟩

/-- `order` succeeds on it; segment 2 is reversed and the result starts at (1, 1) -/
example : exRt.Sep (endPts (exShuffled.vals [0, 1, 2, 3])) ∧
    (∀ s ∈ [0, 1, 2, 3], (exShuffled.val s).i ≠ (exShuffled.val s).j) ∧
    (match exRt.order exShuffled ⟨[0, 1, 2, 3], false⟩ with
     | .done h' l => (l, h'.vals l)
     | _ => ([], [])) = ([1, 3, 0, 2], [⟨⟨1, 1⟩, ⟨2, 1⟩, .line⟩, ⟨⟨2, 1⟩, ⟨2, 2⟩, .line⟩,
       ⟨⟨2, 2⟩, ⟨1, 2⟩, .line⟩, ⟨⟨1, 2⟩, ⟨1, 1⟩, .line⟩]) := by
  unfold Rt.Sep; decide +kernel

/-! ### C49 -/

/-- C49: the empty polyline raises IndexError. -/
theorem C49_empty (R : Rt K) (h : Heap K) (b : Bool) :
    R.order h ⟨[], b⟩ = .raised h .index := rfl

theorem orderLoop_many (R : Rt K) (segs : List ℕ) (hn : 250 ≤ segs.length) : ∀ (fuel : ℕ) (h : Heap K)
    (akt e : ℕ) (ret : List ℕ) (count : ℕ) (h' : Heap K) (l : List ℕ), count ≤ 500 →
    R.orderLoop segs fuel h akt e ret count ≠ .done h' l := by
  intro fuel
  induction fuel with
  | zero => intro h akt e ret count h' l _ hc; cases hc
  | succ fuel ih =>
    intro h akt e ret count h' l hcount hc
    unfold Rt.orderLoop at hc
    split at hc
    · cases hc
    · dsimp only at hc
      split_ifs at hc with h1 h2
      · omega
      · exact ih _ _ _ _ (count + 1) _ _ (by omega) hc

/-- C49: with 250 or more segments `order` never returns True. -/
theorem C49_never_true {R : Rt K} (hR : R.IsRounding) (h : Heap K) (P : PLine) (hn : 250 ≤ P.segs.length)
    (h' : Heap K) (l : List ℕ) : R.order h P ≠ .done h' l := by
  intro hd
  cases hP : P.segs with
  | nil => rw [hP] at hn; simp at hn
  | cons a t =>
    have h1 := order_cases hR h P a t hP _ le_rfl
    dsimp only at h1
    unfold Rt.order at hd
    rcases h1 with ⟨k1, k2, k3⟩ | ⟨h'', k1, k2⟩ | ⟨h'', ret, l', f, k1, k2, k3, k4, k5, k6⟩
    · rw [k2] at hd; exact k1 _ _ hd
    · exact orderLoop_many R P.segs hn _ _ _ _ _ 0 _ _ (by omega) k1
    · exact orderLoop_many R P.segs hn _ _ _ _ _ 0 _ _ (by omega) k1

/-- memory with the triangles (0,0),(1,0),(0,1) and (5,5),(6,5),(5,6) on Points 0..5 -/
def exTwo : Heap ℚ :=
  ⟨fun n => if n = 0 then ⟨0, 0⟩ else if n = 1 then ⟨1, 0⟩ else if n = 2 then ⟨0, 1⟩ else
     if n = 3 then ⟨5, 5⟩ else if n = 4 then ⟨6, 5⟩ else ⟨5, 6⟩,
   fun s => if s = 0 then ⟨0, 1, .line⟩ else if s = 1 then ⟨1, 2, .line⟩ else if s = 2 then ⟨2, 0, .line⟩ else
     if s = 3 then ⟨3, 4, .line⟩ else if s = 4 then ⟨4, 5, .line⟩ else ⟨5, 3, .line⟩, 6, 6⟩

/-- C49: two disjoint triangles: True is returned and the second triangle is gone. -/
theorem C49_second_cycle_dropped :
    (match exRt.order exTwo ⟨[0, 1, 2, 3, 4, 5], false⟩ with
     | .done _ l => l
     | _ => [3]) = [0, 1, 2] := by decide +kernel

end Srep
