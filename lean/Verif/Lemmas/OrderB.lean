import Verif.Lemmas.Order
import Mathlib.Data.Prod.Lex

/-! More lemmas about `order`: distinct segments, the first segment, the whole function. -/

set_option linter.unusedSectionVars false

namespace Srep
variable {K : Type} [Field K] [LinearOrder K] [IsStrictOrderedRing K] [FloorRing K]

/-- the segment with its endpoints swapped -/
def Seg.flip (s : Seg K) : Seg K := ⟨s.j, s.i, s.cls⟩

theorem OrderInv.val {h0 h : Heap K} {segs ret : List ℕ} (inv : OrderInv h0 segs h ret) (s : ℕ) :
    h.val s = h0.val s ∨ h.val s = (h0.val s).flip := by
  rcases inv.turned s with e | e
  · left; unfold Heap.val; rw [e, inv.pt]
  · right; unfold Heap.val; rw [e, inv.pt]; rfl

theorem OrderInv.mem_ends {h0 h : Heap K} {segs ret : List ℕ} (inv : OrderInv h0 segs h ret) {s : ℕ}
    (hs : s ∈ segs) : (h.val s).i ∈ endPts (h0.vals segs) ∧ (h.val s).j ∈ endPts (h0.vals segs) := by
  have hi : (h0.val s).i ∈ endPts (h0.vals segs) :=
    mem_endPts.2 ⟨h0.val s, List.mem_map_of_mem hs, Or.inl rfl⟩
  have hj : (h0.val s).j ∈ endPts (h0.vals segs) :=
    mem_endPts.2 ⟨h0.val s, List.mem_map_of_mem hs, Or.inr rfl⟩
  rcases inv.val s with e | e <;> rw [e]
  · exact ⟨hi, hj⟩
  · exact ⟨hj, hi⟩

theorem OrderInv.nonnull {h0 h : Heap K} {segs ret : List ℕ} (inv : OrderInv h0 segs h ret)
    (hnull : ∀ s ∈ segs, (h0.val s).i ≠ (h0.val s).j) {s : ℕ} (hs : s ∈ segs) :
    (h.val s).i ≠ (h.val s).j := by
  rcases inv.val s with e | e <;> rw [e]
  · exact hnull s hs
  · exact (hnull s hs).symm

theorem OrderInv.seq_iff {R : Rt K} (hR : R.IsRounding) {h0 h : Heap K} {segs ret : List ℕ}
    (inv : OrderInv h0 segs h ret) (hsep : R.Sep (endPts (h0.vals segs))) {s t : ℕ} (hs : s ∈ segs)
    (ht : t ∈ segs) : R.seq (h.val s) (h.val t) = true ↔ h.val s = h.val t := by
  constructor
  · intro hq
    simp only [Rt.seq, Bool.and_eq_true, decide_eq_true_eq] at hq
    have e1 := hsep _ (inv.mem_ends hs).1 _ (inv.mem_ends ht).1 hq.1.2
    have e2 := hsep _ (inv.mem_ends hs).2 _ (inv.mem_ends ht).2 hq.2
    cases hA : h.val s; cases hB : h.val t
    rw [hA, hB] at e1 e2 hq
    simp only at e1 e2 hq
    rw [e1, e2, hq.1.1]
  · intro e; rw [e]; exact hR.seq_refl _

theorem Heap.reverse_val (h : Heap K) (s t : ℕ) :
    (h.reverse s).val t = if t = s then (h.val s).flip else h.val t := by
  unfold Heap.val
  rw [Heap.reverse_seg]
  split_ifs <;> rfl

theorem orderNext_flip {R : Rt K} {segs : List ℕ} {h : Heap K} {akt e nxt : ℕ}
    (hn : R.orderNext segs h akt e = some (nxt, true)) :
    R.peq (h.pt (h.seg nxt).j) (h.pt e) = true ∧
    ∀ x ∈ segs, R.peq (h.pt (h.seg x).i) (h.pt e) = true → R.seq (h.val x) (h.val akt) = true := by
  unfold Rt.orderNext at hn
  split at hn
  · cases hn
  · rename_i hnone
    split at hn
    · rename_i x hx
      cases hn
      refine ⟨?_, ?_⟩
      · have := List.find?_some hx
        simp only [Bool.and_eq_true] at this
        exact this.1
      · intro y hy hp
        have := List.find?_eq_none.1 hnone y hy
        by_contra hc
        apply this
        simp [hp, Bool.eq_false_iff.2 hc]
    · cases hn

/-- with separated points and no null segment, segments of the result differ -/
theorem orderLoop_distinct {R : Rt K} (hR : R.IsRounding) {h0 : Heap K} {segs : List ℕ}
    (hsep : R.Sep (endPts (h0.vals segs))) (hnull : ∀ s ∈ segs, (h0.val s).i ≠ (h0.val s).j) :
    ∀ (fuel : ℕ) (h : Heap K) (akt e : ℕ) (ret : List ℕ) (count : ℕ), OrderInv h0 segs h ret →
    akt ∈ segs → h.pt e = (h.val akt).j → (ret.map h.val).Nodup →
    ∀ h' l, R.orderLoop segs fuel h akt e ret count = .done h' l → (l.map h'.val).Nodup := by
  intro fuel
  induction fuel with
  | zero => intro h akt e ret count _ _ _ _ h' l he; cases he
  | succ fuel ih =>
    intro h akt e ret count inv hakt hend hnd h' l he
    unfold Rt.orderLoop at he
    split at he
    · cases he
    · rename_i nxt flip hn
      have hm := orderNext_mem hn
      have inv' := inv.add (R := R) hm flip
      have hnd' : ((R.orderAdd h ret nxt flip).2.map (R.orderAdd h ret nxt flip).1.val).Nodup := by
        unfold Rt.orderAdd
        by_cases hin : R.inSegs h nxt ret = true
        · rw [if_pos hin]; exact hnd
        rw [if_neg hin]
        have hin' : ∀ y ∈ ret, y ≠ nxt ∧ h.val y ≠ h.val nxt := by
          intro y hy
          constructor
          · rintro rfl
            apply hin
            unfold Rt.inSegs
            rw [List.any_eq_true]
            exact ⟨y, hy, by simp⟩
          · intro e
            apply hin
            unfold Rt.inSegs
            rw [List.any_eq_true]
            exact ⟨y, hy, by rw [e, hR.seq_refl]; simp⟩
        cases flip with
        | false =>
          simp only [Bool.false_eq_true, if_false]
          rw [List.map_append, List.nodup_append]
          refine ⟨hnd, by simp, ?_⟩
          intro a ha b hb
          obtain ⟨y, hy, rfl⟩ := List.mem_map.1 ha
          simp only [List.map_cons, List.map_nil, List.mem_singleton] at hb
          rw [hb]; exact (hin' y hy).2
        | true =>
          simp only [if_true]
          obtain ⟨hp, hall⟩ := orderNext_flip hn
          have hej : (h.val nxt).j = h.pt e := by
            have hpe : h.pt e ∈ endPts (h0.vals segs) := by rw [hend]; exact (inv.mem_ends hakt).2
            exact hsep _ (inv.mem_ends hm).2 _ hpe hp
          have key : ∀ y ∈ ret, h.val y ≠ (h.val nxt).flip := by
            intro y hy hc
            have hys := inv.sub y hy
            have h1 : (h.val y).i = h.pt e := by rw [hc]; exact hej
            have h2 : R.peq (h.pt (h.seg y).i) (h.pt e) = true := by
              show R.peq (h.val y).i (h.pt e) = true
              rw [h1]; exact hR.peq_refl _
            have h3 := (inv.seq_iff hR hsep hys hakt).1 (hall y hys h2)
            apply inv.nonnull hnull hakt
            rw [← hend, ← h1, h3]
          have hmap : ret.map (h.reverse nxt).val = ret.map h.val := by
            apply List.map_congr_left
            intro y hy
            rw [Heap.reverse_val, if_neg (hin' y hy).1]
          rw [List.map_append, hmap, List.nodup_append]
          refine ⟨hnd, by simp, ?_⟩
          intro a ha b hb
          obtain ⟨y, hy, rfl⟩ := List.mem_map.1 ha
          simp only [List.map_cons, List.map_nil, List.mem_singleton] at hb
          rw [hb, Heap.reverse_val, if_pos rfl]
          exact key y hy
      dsimp only at he
      split_ifs at he
      · cases he; exact hnd'
      · exact ih _ _ _ _ _ inv' hm rfl hnd' h' l he

/-- the key of the final sort -/
def Rt.orderKey (R : Rt K) (s : Seg K) : K ×ₗ K ×ₗ K ×ₗ K :=
  toLex (R.distance (R.mkPt 0 0) s.i, toLex (s.i.x, toLex (s.i.y, R.norm s)))

theorem Rt.orderKeyLe_iff (R : Rt K) (s o : Seg K) :
    R.orderKeyLe s o ↔ R.orderKey s ≤ R.orderKey o := by
  unfold Rt.orderKeyLe Rt.orderKey
  simp only [Prod.Lex.toLex_le_toLex]

theorem head_insertionSort (R : Rt K) (h : Heap K) (l : List ℕ) {f : ℕ} {t : List ℕ}
    (he : (l.insertionSort fun x y => R.orderKeyLe (h.val x) (h.val y)) = f :: t) :
    f ∈ l ∧ ∀ x ∈ l, R.orderKeyLe (h.val f) (h.val x) := by
  have hperm := List.perm_insertionSort (fun x y => R.orderKeyLe (h.val x) (h.val y)) l
  have htot : Std.Total (fun x y : ℕ => R.orderKeyLe (h.val x) (h.val y)) :=
    ⟨fun a b => by simp only [Rt.orderKeyLe_iff]; exact le_total _ _⟩
  have htr : IsTrans ℕ (fun x y : ℕ => R.orderKeyLe (h.val x) (h.val y)) :=
    ⟨fun a b c h1 h2 => by rw [Rt.orderKeyLe_iff] at *; exact le_trans h1 h2⟩
  have hs := List.pairwise_insertionSort (fun x y => R.orderKeyLe (h.val x) (h.val y)) l
  rw [he] at hperm hs
  refine ⟨hperm.mem_iff.1 (by simp), ?_⟩
  intro x hx
  rcases List.mem_cons.1 (hperm.mem_iff.2 hx) with rfl | h1
  · rw [Rt.orderKeyLe_iff]
  · exact (List.pairwise_cons.1 hs).1 x h1

/-- `order` as a whole: with enough rounds it is the loop followed by one rotation of the list -/
theorem order_cases {R : Rt K} (hR : R.IsRounding) (h : Heap K) (P : PLine) (a : ℕ) (t : List ℕ)
    (hP : P.segs = a :: t) (fuel : ℕ) (hf : 2 * P.segs.length + 1 ≤ fuel) :
    let r := R.orderLoop P.segs (2 * P.segs.length + 1) h a (h.seg a).j [] 0
    (∀ h' l, r ≠ .done h' l) ∧ R.orderF fuel h P = r ∧ r ≠ .timeout ∨
    (∃ h', r = .done h' [] ∧ R.orderF fuel h P = .raised h' .index) ∨
    ∃ h' ret l f, r = .done h' ret ∧ ret ~r l ∧ f ∈ ret ∧
      (∀ x ∈ ret, R.orderKeyLe (h'.val f) (h'.val x)) ∧
      (∃ b u, l = b :: u ∧ R.seq (h'.val b) (h'.val f) = true) ∧ R.orderF fuel h P = .done h' l := by
  intro r
  have hfuel := orderLoop_fuel R P.segs (2 * P.segs.length + 1) h a (h.seg a).j [] 0 (by omega) (by omega)
  have hr : R.orderLoop P.segs fuel h a (h.seg a).j [] 0 = r := hfuel.2 fuel hf
  have hto : r ≠ .timeout := hfuel.1
  have hord : R.orderF fuel h P = R.orderFinish fuel r := by
    unfold Rt.orderF
    rw [← hr]
    simp only [hP]
  cases hc : r with
  | failed h' => left; rw [hc] at hord; exact ⟨by simp, hord, by simp⟩
  | raised h' e => left; rw [hc] at hord; exact ⟨by simp, hord, by simp⟩
  | timeout => exact absurd hc hto
  | done h' ret =>
    right
    rw [hc] at hord
    simp only [Rt.orderFinish] at hord
    cases hs : (ret.insertionSort fun x y => R.orderKeyLe (h'.val x) (h'.val y)) with
    | nil =>
      left
      have : ret = [] := by
        have := (List.perm_insertionSort (fun x y => R.orderKeyLe (h'.val x) (h'.val y)) ret)
        rw [hs] at this
        exact this.symm.eq_nil
      subst this
      refine ⟨h', rfl, ?_⟩
      rw [hord]; simp
    | cons f u =>
      right
      obtain ⟨hfm, hmin⟩ := head_insertionSort R h' ret hs
      obtain ⟨x, y, hxy⟩ := List.append_of_mem hfm
      obtain ⟨l, h1, h2, h3⟩ := rotateTo_spec R h' f (hR.seq_refl _) y.length x y rfl
      rw [← hxy] at h2 h3
      have hlen : ret.length ≤ P.segs.length := by
        obtain ⟨ret', inv, hret⟩ := orderLoop_inv R h P.segs (2 * P.segs.length + 1) h a (h.seg a).j [] 0
          ⟨rfl, rfl, rfl, fun _ _ => rfl, fun _ => Or.inl rfl, by simp, by simp⟩
        have := hret h' ret hc
        subst this
        exact (List.subperm_of_subset inv.nodup (fun s hs => inv.sub s hs)).length_le
      have hy : y.length + 1 ≤ fuel := by
        have : ret.length = x.length + (y.length + 1) := by rw [hxy]; simp
        omega
      refine ⟨h', ret, l, f, rfl, h2, hfm, hmin, h1, ?_⟩
      rw [hord, hs]
      simp only [h3 fuel hy]

end Srep
