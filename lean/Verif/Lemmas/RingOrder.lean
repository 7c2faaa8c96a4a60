import Verif.Lemmas.Collinear
import Verif.Props.OrderCycle
import Mathlib.Data.List.GetD

/-! `order` of a directed closed polygon listed in any order. -/

set_option linter.unusedSectionVars false

namespace Srep
variable {K : Type} [Field K] [LinearOrder K] [IsStrictOrderedRing K] [FloorRing K] {R : Rt K}

/-- the segments `c` lead from vertex to vertex -/
def RingAt (h : Heap K) (c : List ℕ) (vs : List (Pt K)) : Prop :=
  (c.map fun s => ((h.val s).i, (h.val s).j)) = vs.zip (vs.rotate 1)

theorem RingAt.length {h : Heap K} {c : List ℕ} {vs : List (Pt K)} (hc : RingAt h c vs) : c.length = vs.length := by
  have := congrArg List.length hc
  simpa using this

theorem RingAt.starts {h : Heap K} {c : List ℕ} {vs : List (Pt K)} (hc : RingAt h c vs) : (c.map fun s => (h.val s).i) = vs := by
  have := congrArg (List.map Prod.fst) hc
  rw [List.map_map, List.map_fst_zip (by simp)] at this
  exact this

theorem RingAt.nodup {h : Heap K} {c : List ℕ} {vs : List (Pt K)} (hc : RingAt h c vs) (hn : vs.Nodup) : c.Nodup := by
  rw [← hc.starts] at hn
  exact hn.of_map

theorem RingAt.rotate {h : Heap K} {c : List ℕ} {vs : List (Pt K)} (hc : RingAt h c vs) (k : ℕ) : RingAt h (c.rotate k) (vs.rotate k) := by
  unfold RingAt at *
  rw [List.map_rotate, hc, List.zip_eq_zipWith, List.zip_eq_zipWith, List.zipWith_rotate_distrib _ _ _ _ (by simp), List.rotate_rotate,
    List.rotate_rotate, Nat.add_comm]

/-- the same ring starting at another vertex -/
theorem RingAt.rotated {h : Heap K} {c : List ℕ} {vs ws : List (Pt K)} (hc : RingAt h c vs) (hr : vs ~r ws) :
    ∃ d, c ~r d ∧ RingAt h d ws := by
  obtain ⟨k, rfl⟩ := hr
  exact ⟨c.rotate k, ⟨k, rfl⟩, hc.rotate k⟩

theorem RingAt.get {h : Heap K} {c : List ℕ} {vs : List (Pt K)} (hc : RingAt h c vs) (k : ℕ) (hk : k < vs.length) :
    h.val (c.getD k 0) = ⟨vs.getD k ⟨0, 0⟩, vs.getD ((k + 1) % vs.length) ⟨0, 0⟩, (h.val (c.getD k 0)).cls⟩ := by
  have hl := hc.length
  have h1 : (c.map fun s => ((h.val s).i, (h.val s).j))[k]'(by rw [List.length_map, hl]; exact hk) =
      (vs.zip (vs.rotate 1))[k]'(by simpa using hk) := by
    simp only [show (c.map fun s => ((h.val s).i, (h.val s).j)) = vs.zip (vs.rotate 1) from hc]
  rw [List.getElem_map, List.getElem_zip, List.getElem_rotate] at h1
  have hm : (k + 1) % vs.length < vs.length := Nat.mod_lt _ (by omega)
  rw [List.getD_eq_getElem _ _ (by omega : k < c.length), List.getD_eq_getElem _ _ hk, List.getD_eq_getElem _ _ hm]
  have h2 := congrArg Prod.fst h1
  have h3 := congrArg Prod.snd h1
  dsimp only at h2 h3
  rw [← h2, ← h3]

theorem getD_inj {α : Type} {l : List α} (hn : l.Nodup) (d : α) {i j : ℕ} (hi : i < l.length) (hj : j < l.length)
    (h : l.getD i d = l.getD j d) : i = j := by
  rw [List.getD_eq_getElem _ _ hi, List.getD_eq_getElem _ _ hj] at h
  exact (hn.getElem_inj_iff).1 h

/-- `order` finds the ring and changes nothing in memory -/
theorem order_ring (hR : R.IsRounding) {h : Heap K} {c l : List ℕ} {vs : List (Pt K)} (hc : RingAt h c vs) (hn : vs.Nodup)
    (h3 : 3 ≤ vs.length) (h250 : vs.length < 250) (hp : l.Perm c) (hap : Apart R.tol {p | p ∈ vs}) (b : Bool) :
    ∃ m, R.order h ⟨l, b⟩ = .done h m ∧ m ~r c := by
  have hcn := hc.nodup hn
  have hcl := hc.length
  obtain ⟨s0, t, rfl⟩ : ∃ s0 t, l = s0 :: t := by
    cases l with
    | nil => have := hp.length_eq; simp at this; omega
    | cons s t => exact ⟨s, t, rfl⟩
  -- start the ring with the first segment listed
  have hs0 : s0 ∈ c := hp.mem_iff.1 (by simp)
  obtain ⟨c1, c2, e⟩ := List.append_of_mem hs0
  have hrot : c ~r s0 :: (c2 ++ c1) := by
    rw [e]
    have := isRotated_append' c1 (s0 :: c2)
    simpa using this
  obtain ⟨k0, hk0⟩ := hrot
  have hd := hc.rotate k0
  rw [hk0] at hd
  have hwn : (vs.rotate k0).Nodup := List.nodup_rotate.2 hn
  have hwl : (vs.rotate k0).length = vs.length := List.length_rotate ..
  have hwm : ∀ p, p ∈ vs.rotate k0 ↔ p ∈ vs := fun p => List.mem_rotate
  have hrd : c ~r s0 :: (c2 ++ c1) := ⟨k0, hk0⟩
  generalize vs.rotate k0 = ws at hd hwn hwl hwm
  generalize hdd : c2 ++ c1 = d' at hd hrd
  have hdl := hd.length
  set d := s0 :: d' with hdef
  have hdn := hd.nodup hwn
  set n := ws.length with hndef
  haveI : NeZero n := ⟨by omega⟩
  haveI : Fact (1 < n) := ⟨by omega⟩
  let p : ZMod n → Pt K := fun k => ws.getD k.val ⟨0, 0⟩
  let σ : ZMod n → ℕ := fun k => d.getD k.val 0
  have hval : ∀ k : ZMod n, h.val (σ k) = ⟨p k, p (k + 1), (h.val (σ k)).cls⟩ := by
    intro k
    have := hd.get k.val (ZMod.val_lt k)
    have e : (k + 1).val = (k.val + 1) % n := by rw [ZMod.val_add, ZMod.val_one]
    simp only [p, σ, e]
    exact this
  have hpinj : Function.Injective p := fun k k' e => ZMod.val_injective n (getD_inj hwn _ (ZMod.val_lt k) (ZMod.val_lt k') e)
  have cyc : IsCycleOf h (s0 :: t) n p σ := by
    refine ⟨by omega, hpinj, fun k k' e => ZMod.val_injective n (getD_inj hdn _ (by rw [hdl]; exact ZMod.val_lt k) (by rw [hdl]; exact ZMod.val_lt k') e),
      hp.nodup_iff.2 hcn, fun s => ?_, fun k => Or.inl ?_⟩
    · rw [hp.mem_iff, hrd.mem_iff, List.mem_iff_getElem]
      constructor
      · rintro ⟨i, hi, rfl⟩
        refine ⟨(i : ZMod n), ?_⟩
        simp only [σ]
        rw [ZMod.val_cast_of_lt (by omega), List.getD_eq_getElem]
      · rintro ⟨k, rfl⟩
        have hk : k.val < d.length := by rw [hdl]; exact ZMod.val_lt k
        exact ⟨k.val, hk, by simp only [σ]; rw [List.getD_eq_getElem]⟩
    · have := hval k
      rw [this]
      exact ⟨rfl, rfl⟩
  have hap' : Apart R.tol (locs h (s0 :: t)) := by
    have hin : ∀ q ∈ locs h (s0 :: t), q ∈ vs := by
      rintro q ⟨s, hs, hq⟩
      obtain ⟨k, rfl⟩ := (cyc.mem s).1 hs
      rw [hval k] at hq
      have hg : ∀ k : ZMod n, p k ∈ vs := fun k => by
        rw [← hwm]
        simp only [p]
        rw [List.getD_eq_getElem _ _ (ZMod.val_lt k)]
        exact List.getElem_mem _
      rcases hq with rfl | rfl
      exacts [hg _, hg _]
    exact fun x hx y hy => hap x (hin x hx) y (hin y hy)
  have hσ0 : σ 0 = s0 := by simp [σ, hdef]
  obtain ⟨g, m, d1, d2, d3, d4, d5⟩ := C76_direction hR h ⟨s0 :: t, b⟩ n p σ cyc hap' (by have := cyc.length; show (s0 :: t).length < 250; omega)
    (t := t) (by rw [hσ0]) (by
      have := hval 0
      rw [zero_add] at this
      rw [this]
      exact ⟨rfl, rfl⟩)
  have hrange : ((List.range n).map fun m : ℕ => σ (m : ZMod n)) = d := by
    apply List.ext_getElem
    · simp [hdl]
    · intro i h1 h2
      rw [List.getElem_map, List.getElem_range]
      simp only [σ]
      rw [ZMod.val_cast_of_lt (by omega), List.getD_eq_getElem]
  -- nothing changes in memory
  have hg : g = h := by
    have hinv := C48_only_reverses hR h ⟨s0 :: t, b⟩
    rw [d1] at hinv
    obtain ⟨i1, i2, i3, i4, i5⟩ := hinv
    have hseg : ∀ s, g.seg s = h.seg s := by
      intro s
      by_cases hs : s ∈ s0 :: t
      · rcases i5 s with h' | h'
        · exact h'
        · exfalso
          obtain ⟨k, rfl⟩ := (cyc.mem s).1 hs
          have h6 := d3 k.val
          rw [ZMod.natCast_zmod_val] at h6
          have h7 := hval k
          have h8 : (g.val (σ k)).i = (h.val (σ k)).j := by
            show g.pt (g.seg (σ k)).i = h.pt (h.seg (σ k)).j
            rw [show g.seg (σ k) = ⟨(h.seg (σ k)).j, (h.seg (σ k)).i, (h.seg (σ k)).cls⟩ from h', d4]
          rw [h6, h7] at h8
          have h9 := hpinj h8
          have h10 : (1 : ZMod n) = 0 := by
            have := congrArg (fun x => x - k) h9
            simpa using this.symm
          exact one_ne_zero h10
      · exact i4 s hs
    have j2 : g.npt = h.npt := i2
    have j3 : g.nseg = h.nseg := i3
    have j4 : g.seg = h.seg := funext hseg
    clear d1 d3 d5 i1 i2 i3 i4 i5 hseg
    cases g
    cases h
    simp only at d4 j2 j3 j4
    rw [d4, j2, j3, j4]
  subst hg
  refine ⟨m, d1, ?_⟩
  rw [hrange] at d2
  exact d2.trans hrd.symm

end Srep
