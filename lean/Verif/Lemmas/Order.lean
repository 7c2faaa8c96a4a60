import Verif.Lemmas.PurgeB

/-! Lemmas about `order`. -/

set_option linter.unusedSectionVars false

namespace Srep
variable {K : Type} [Field K] [LinearOrder K] [IsStrictOrderedRing K] [FloorRing K]

/-- the segment object with its endpoints swapped -/
def SegObj.flip (s : SegObj) : SegObj := ⟨s.j, s.i, s.cls⟩

theorem Heap.reverse_seg (h : Heap K) (s t : ℕ) :
    (h.reverse s).seg t = if t = s then (h.seg s).flip else h.seg t := by
  unfold Heap.reverse Heap.setEndpoints SegObj.flip
  simp only [Function.update_apply]

/-- what holds of memory and of the list built by the loop of `order` -/
structure OrderInv (h0 : Heap K) (segs : List ℕ) (h : Heap K) (ret : List ℕ) : Prop where
  pt : h.pt = h0.pt
  npt : h.npt = h0.npt
  nseg : h.nseg = h0.nseg
  same : ∀ s, s ∉ ret → h.seg s = h0.seg s
  turned : ∀ s, h.seg s = h0.seg s ∨ h.seg s = (h0.seg s).flip
  sub : ∀ s ∈ ret, s ∈ segs
  nodup : ret.Nodup

theorem Rt.IsRounding.seq_refl {R : Rt K} (hR : R.IsRounding) (s : Seg K) : R.seq s s = true := by
  simp [Rt.seq, hR.peq_refl]

theorem orderNext_mem {R : Rt K} {segs : List ℕ} {h : Heap K} {akt e nxt : ℕ} {flip : Bool}
    (hn : R.orderNext segs h akt e = some (nxt, flip)) : nxt ∈ segs := by
  unfold Rt.orderNext at hn
  split at hn
  · rename_i x hx; cases hn; exact List.mem_of_find?_eq_some hx
  · split at hn
    · rename_i x hx; cases hn; exact List.mem_of_find?_eq_some hx
    · cases hn

theorem OrderInv.add {R : Rt K} {h0 h : Heap K} {segs ret : List ℕ} (inv : OrderInv h0 segs h ret)
    {nxt : ℕ} (hm : nxt ∈ segs) (flip : Bool) :
    OrderInv h0 segs (R.orderAdd h ret nxt flip).1 (R.orderAdd h ret nxt flip).2 := by
  unfold Rt.orderAdd
  split_ifs with hin hf
  · exact inv
  all_goals
    have hnot : nxt ∉ ret := by
      intro hc
      apply hin
      unfold Rt.inSegs
      rw [List.any_eq_true]
      exact ⟨nxt, hc, by simp⟩
    have hsub : ∀ s ∈ ret ++ [nxt], s ∈ segs := by
      intro s hs
      rcases List.mem_append.1 hs with h1 | h1
      · exact inv.sub s h1
      · rw [List.mem_singleton] at h1; rw [h1]; exact hm
    have hnd : (ret ++ [nxt]).Nodup := by
      rw [List.nodup_append]
      refine ⟨inv.nodup, by simp, ?_⟩
      intro a ha b hb
      rw [List.mem_singleton] at hb
      rintro rfl
      exact hnot (hb ▸ ha)
  · refine ⟨inv.pt, inv.npt, inv.nseg, ?_, ?_, hsub, hnd⟩
    · intro s hs
      rw [List.mem_append, List.mem_singleton] at hs
      push Not at hs
      rw [Heap.reverse_seg, if_neg hs.2, inv.same s hs.1]
    · intro s
      rw [Heap.reverse_seg]
      split_ifs with he
      · subst he; right; rw [inv.same s hnot]
      · exact inv.turned s
  · refine ⟨inv.pt, inv.npt, inv.nseg, ?_, inv.turned, hsub, hnd⟩
    intro s hs
    rw [List.mem_append] at hs
    push Not at hs
    exact inv.same s hs.1

/-- memory at the end of `order` -/
def Rt.OrderRes.heap (h0 : Heap K) : Rt.OrderRes K → Heap K
  | .failed h => h
  | .raised h _ => h
  | .done h _ => h
  | .timeout => h0

/-- the segment list returned -/
def Rt.OrderRes.list : Rt.OrderRes K → List ℕ
  | .done _ l => l
  | _ => []

theorem orderLoop_inv (R : Rt K) (h0 : Heap K) (segs : List ℕ) : ∀ (fuel : ℕ) (h : Heap K) (akt e : ℕ)
    (ret : List ℕ) (count : ℕ), OrderInv h0 segs h ret →
    ∃ ret', OrderInv h0 segs ((R.orderLoop segs fuel h akt e ret count).heap h0) ret' ∧
      ∀ h' l, R.orderLoop segs fuel h akt e ret count = .done h' l → ret' = l := by
  intro fuel
  induction fuel with
  | zero =>
    intro h akt e ret count inv
    refine ⟨[], ⟨rfl, rfl, rfl, fun _ _ => rfl, fun _ => Or.inl rfl, by simp, by simp⟩, ?_⟩
    intro h' l he; cases he
  | succ fuel ih =>
    intro h akt e ret count inv
    unfold Rt.orderLoop
    split
    · exact ⟨ret, inv, by intro h' l he; cases he⟩
    · rename_i nxt flip hn
      have inv' := inv.add (R := R) (orderNext_mem hn) flip
      split_ifs
      · exact ⟨_, inv', by intro h' l he; cases he⟩
      · exact ⟨_, inv', by intro h' l he; cases he; rfl⟩
      · exact ih _ _ _ _ _ inv'

/-- the loop stops within `2 n + 1` rounds, and the number of rounds allowed beyond that is irrelevant -/
theorem orderLoop_fuel (R : Rt K) (segs : List ℕ) : ∀ (fuel : ℕ) (h : Heap K) (akt e : ℕ) (ret : List ℕ)
    (count : ℕ), count ≤ 2 * segs.length → 2 * segs.length + 1 ≤ fuel + count →
    R.orderLoop segs fuel h akt e ret count ≠ .timeout ∧
    ∀ fuel', fuel ≤ fuel' → R.orderLoop segs fuel' h akt e ret count =
      R.orderLoop segs fuel h akt e ret count := by
  intro fuel
  induction fuel with
  | zero => intro h akt e ret count h1 h2; omega
  | succ fuel ih =>
    intro h akt e ret count h1 h2
    constructor
    · unfold Rt.orderLoop
      split
      · simp
      · simp only
        split_ifs
        · simp
        · simp
        · exact (ih _ _ _ _ (count + 1) (by omega) (by omega)).1
    · intro fuel' hf
      obtain ⟨f, rfl⟩ : ∃ f, fuel' = f + 1 := ⟨fuel' - 1, by omega⟩
      unfold Rt.orderLoop
      cases hn : R.orderNext segs h akt e with
      | none => rfl
      | some x =>
        simp only
        split_ifs
        · rfl
        · rfl
        · exact (ih _ _ _ _ (count + 1) (by omega) (by omega)).2 f (by omega)

theorem rotateTo_spec (R : Rt K) (h : Heap K) (f : ℕ) (hf : R.seq (h.val f) (h.val f) = true) :
    ∀ (m : ℕ) (u v : List ℕ), v.length = m → 
    ∃ l, (∃ a t, l = a :: t ∧ R.seq (h.val a) (h.val f) = true) ∧ (u ++ f :: v) ~r l ∧
      ∀ n, m + 1 ≤ n → R.rotateTo h f n (u ++ f :: v) = some l := by
  intro m
  induction m with
  | zero =>
    intro u v hv
    obtain rfl := List.length_eq_zero_iff.1 hv
    cases u with
    | nil =>
      refine ⟨[f], ⟨f, [], rfl, hf⟩, by simp, ?_⟩
      intro n hn
      unfold Rt.rotateTo
      simp [hf]
    | cons a t =>
      by_cases hc : R.seq (h.val a) (h.val f) = true
      · refine ⟨a :: t ++ [f], ⟨a, t ++ [f], rfl, hc⟩, List.IsRotated.refl _, ?_⟩
        intro n hn
        show R.rotateTo h f n (a :: (t ++ [f])) = _
        unfold Rt.rotateTo
        rw [if_pos hc]; rfl
      · refine ⟨f :: a :: t, ⟨f, a :: t, rfl, hf⟩, ?_, ?_⟩
        · exact List.isRotated_append (l := a :: t) (l' := [f])
        · intro n hn
          obtain ⟨k, rfl⟩ : ∃ k, n = k + 1 := ⟨n - 1, by omega⟩
          show R.rotateTo h f (k + 1) (a :: (t ++ [f])) = _
          unfold Rt.rotateTo
          rw [if_neg hc]
          have e1 : (a :: (t ++ [f])).getLast (by simp) = f := by
            rw [List.getLast_cons (by simp)]; simp
          have e2 : (a :: (t ++ [f])).dropLast = a :: t := by
            rw [← List.cons_append, List.dropLast_concat]
          simp only [e1, e2]
          unfold Rt.rotateTo
          rw [if_pos hf]
  | succ m ih =>
    intro u v hv
    obtain ⟨v', z, rfl⟩ : ∃ v' z, v = v' ++ [z] := by
      rcases List.eq_nil_or_concat v with rfl | ⟨v', z, rfl⟩
      · simp at hv
      · exact ⟨v', z, by simp⟩
    have hv' : v'.length = m := by simpa using hv
    obtain ⟨l, h1, h2, h3⟩ := ih (z :: u) v' hv'
    have hrot : (u ++ f :: (v' ++ [z])) ~r (z :: u ++ f :: v') := by
      have := List.isRotated_append (l := u ++ f :: v') (l' := [z])
      simpa using this
    by_cases hc : ∃ a t, u ++ f :: (v' ++ [z]) = a :: t ∧ R.seq (h.val a) (h.val f) = true
    · obtain ⟨a, t, e, hc⟩ := hc
      refine ⟨a :: t, ⟨a, t, rfl, hc⟩, by rw [e], ?_⟩
      intro n hn
      rw [e]; unfold Rt.rotateTo; rw [if_pos hc]
    · refine ⟨l, h1, hrot.trans h2, ?_⟩
      intro n hn
      obtain ⟨k, rfl⟩ : ∃ k, n = k + 1 := ⟨n - 1, by omega⟩
      obtain ⟨a, t, e⟩ : ∃ a t, u ++ f :: (v' ++ [z]) = a :: t := by
        cases u with
        | nil => exact ⟨f, _, rfl⟩
        | cons a t => exact ⟨a, _, rfl⟩
      have hne : ¬ R.seq (h.val a) (h.val f) = true := fun h' => hc ⟨a, t, e, h'⟩
      have e1 : (a :: t).getLast (by simp) = z := by
        have : (a :: t).getLast? = some z := by
          rw [← e, show u ++ f :: (v' ++ [z]) = (u ++ f :: v') ++ [z] by simp, List.getLast?_concat]
        exact Option.some.inj ((List.getLast?_eq_some_getLast _).symm.trans this)
      have e2 : (a :: t).dropLast = u ++ f :: v' := by
        rw [← e, show u ++ f :: (v' ++ [z]) = (u ++ f :: v') ++ [z] by simp, List.dropLast_concat]
      rw [e]
      unfold Rt.rotateTo
      rw [if_neg hne]
      simp only [e1, e2]
      exact h3 k (by omega)

end Srep
