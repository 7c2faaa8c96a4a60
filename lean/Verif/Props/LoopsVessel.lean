import Verif.Props.LoopsMixed
import Verif.Props.HeadValid
import Verif.Props.RaumVessel

/-!
# The loop of a vessel with one room (C110)
-/

set_option linter.unusedSectionVars false

namespace Srep
variable {K : Type} [Field K] [LinearOrder K] [IsStrictOrderedRing K] [FloorRing K] {R : Rt K}

/-- two sides that have an end in common or lie in different strips -/
def KeepClear (s o : Seg K) : Prop := (s.i = o.i ∨ s.i = o.j ∨ s.j = o.i ∨ s.j = o.j) ∨ StripsApart s o

theorem KeepClear.symm {s o : Seg K} (h : KeepClear s o) : KeepClear o s := by
  rcases h with h | h
  · left
    rcases h with h | h | h | h
    · exact Or.inl h.symm
    · exact Or.inr (Or.inr (Or.inl h.symm))
    · exact Or.inr (Or.inl h.symm)
    · exact Or.inr (Or.inr (Or.inr h.symm))
  · exact Or.inr h.symm

theorem KeepClear.left {s o s' : Seg K} (h : KeepClear s o) (e : SameEdge s' s) : KeepClear s' o := by
  rcases e with ⟨e1, e2⟩ | ⟨e1, e2⟩
  · unfold KeepClear StripsApart at *
    rw [e1, e2]; exact h
  · rcases h with h | h
    · left
      rw [e1, e2]
      tauto
    · right
      unfold StripsApart at *
      rw [e1, e2]
      rcases h with h | h | h | h
      · exact Or.inl fun a ha => h a ha.symm
      · exact Or.inr (Or.inl fun a ha => h a ha.symm)
      · exact Or.inr (Or.inr (Or.inl fun a ha => h a ha.symm))
      · exact Or.inr (Or.inr (Or.inr fun a ha => h a ha.symm))

/-- a closed chain that draws sides which keep clear of each other is valid -/
theorem plValid_clear (hE : R.IsExact) {H l : List (Seg K)} (hH : H.Pairwise KeepClear) (hd : SameDrawing l H)
    (hc : ClosedChain l) (hne : l ≠ []) : R.plValid l = true := by
  have hcl : l.Pairwise KeepClear := by
    obtain ⟨l', hp, hf⟩ := hd
    have : l'.Pairwise KeepClear := by
      clear hp
      induction hf with
      | nil => exact .nil
      | @cons a b l1 l2 hab h12 ih =>
        rw [List.pairwise_cons] at hH ⊢
        refine ⟨?_, ih hH.2⟩
        intro s hs
        obtain ⟨k, hk, rfl⟩ := List.mem_iff_getElem.1 hs
        have hk' : k < l2.length := by rw [← h12.length_eq]; exact hk
        have h1 := hH.1 l2[k] (List.getElem_mem _)
        exact ((h1.left hab).symm.left (h12.get hk hk')).symm
    exact (List.Perm.pairwise_iff (fun h => KeepClear.symm h) hp).1 this
  have hclosed := isClosed_of_chain hE.isRounding hne hc
  rw [(C63_valid R l).2]
  refine ⟨?_, hne, ?_⟩
  · unfold Rt.isClosed at hclosed
    split_ifs at hclosed with h
    · exact h
    · cases hclosed
  · have key : ∀ s o : Seg K, KeepClear s o → R.intersectionOnSegment s o = false := by
      rintro s o (h | h)
      · exact ios_shared hE.isRounding _ _ h
      · exact ios_apart hE h
    intro a b ha hb hab
    rcases Nat.lt_or_gt_of_ne hab with h | h
    · exact key _ _ (List.pairwise_iff_getElem.1 hcl a b ha hb h)
    · exact key _ _ (List.pairwise_iff_getElem.1 hcl b a hb ha h).symm

/-- C110: a group whose segments draw, in any order and direction, a closed outline `H` with different, separated
corners (fewer than 125 sides), some Walls or NonWalls running with and some against the outline: `find_loops` returns
exactly one polygon, a closed chain that draws `H` - provided that every closed chain that draws `H` is valid. -/
theorem C110_outline (hR : R.IsRounding) (π : SetOrder) (hπ : π.Ok) (fuel : ℕ) (h : Heap K) (G : List PLine)
    (H : List (Seg K)) (hH : ClosedChain H) (hnd : (H.map Seg.i).Nodup) (h3 : 3 ≤ H.length) (hn : H.length < 125)
    (hap : Apart R.tol {p | p ∈ H.map Seg.i}) (hd : SameDrawing (h.vals (G.flatMap PLine.segs)) H)
    (ha : ∃ s ∈ h.vals (G.flatMap PLine.segs), s.cls ≠ .line ∧ ∃ o ∈ H, s.i = o.i ∧ s.j = o.j)
    (hb : ∃ s ∈ h.vals (G.flatMap PLine.segs), s.cls ≠ .line ∧ ∃ o ∈ H, s.i = o.j ∧ s.j = o.i)
    (hw : h.WF) (hG : ∀ P ∈ G, ∀ s ∈ P.segs, s < h.nseg)
    (hvalid : ∀ l, SameDrawing l H → ClosedChain l → l ≠ [] → R.plValid l = true) (hf : 2 * H.length ≤ fuel) :
    ∃ h' g P, R.findLoops π fuel h G = .ok h' g [P] ∧ ClosedChain (h'.vals P.segs) ∧ SameDrawing (h'.vals P.segs) H := by
  classical
  set n := H.length with hnH
  have hn0 : NeZero n := ⟨by omega⟩
  have hfac : Fact (1 < n) := ⟨by omega⟩
  set p : ZMod n → Pt K := fun k => (H[k.val]'k.val_lt).i with hp
  have hpj : ∀ k : ZMod n, (H[k.val]'k.val_lt).j = p (k + 1) := by
    intro k
    rw [hH k.val k.val_lt, hp]
    have : (k.val + 1) % H.length = (k + 1).val := by rw [ZMod.val_add, ZMod.val_one]
    simp only [this]
  have pinj : Function.Injective p := by
    intro a b e
    have h1 : (H.map Seg.i)[a.val]'(by rw [List.length_map]; exact a.val_lt) =
        (H.map Seg.i)[b.val]'(by rw [List.length_map]; exact b.val_lt) := by
      rw [List.getElem_map, List.getElem_map]; exact e
    exact ZMod.val_injective n ((hnd.getElem_inj_iff).1 h1)
  -- the segment objects
  obtain ⟨l', hl', hf2⟩ := hd
  have hcomp : Relation.Comp List.Perm (List.Forall₂ fun (v : Seg K) (a : ℕ) => v = h.val a) l' (G.flatMap PLine.segs) := by
    refine ⟨_, hl', ?_⟩
    unfold Heap.vals
    rw [List.forall₂_map_left_iff]
    exact List.forall₂_same.2 fun _ _ => rfl
  rw [← List.forall₂_comp_perm_eq_perm_comp_forall₂] at hcomp
  obtain ⟨L, hL, hLp⟩ := hcomp
  have hlenL : L.length = n := by rw [← hL.length_eq, hf2.length_eq]
  set σ : ZMod n → ℕ := fun k => L[k.val]'(by rw [hlenL]; exact k.val_lt) with hσ
  have hσe : ∀ k : ZMod n, SameEdge (h.val (σ k)) (H[k.val]'k.val_lt) := by
    intro k
    have h1 : k.val < l'.length := by rw [hf2.length_eq]; exact k.val_lt
    have h2 := hL.get h1 (by rw [hlenL]; exact k.val_lt)
    have h4 := hf2.get h1 k.val_lt
    have h2 : l'[k.val] = h.val (σ k) := h2
    have h4 : SameEdge l'[k.val] (H[k.val]'k.val_lt) := h4
    rwa [h2] at h4
  have ends : ∀ k, ((h.val (σ k)).i = p k ∧ (h.val (σ k)).j = p (k + 1)) ∨
      ((h.val (σ k)).i = p (k + 1) ∧ (h.val (σ k)).j = p k) := by
    intro k
    rcases hσe k with e | e
    · exact Or.inl ⟨e.1, by rw [e.2, hpj]⟩
    · exact Or.inr ⟨by rw [e.1, hpj], e.2⟩
  have two : (1 : ZMod n) + 1 ≠ 0 := by
    intro e
    have : ((2 : ℕ) : ZMod n) = 0 := by push_cast; rw [← e]; norm_num
    rw [ZMod.natCast_eq_zero_iff] at this
    have := Nat.le_of_dvd (by omega) this
    omega
  have edge_inj : ∀ a b : ZMod n, SameEdge (h.val (σ a)) (h.val (σ b)) → a = b := by
    intro a b e
    have key : (p a = p b ∧ p (a + 1) = p (b + 1)) ∨ (p a = p (b + 1) ∧ p (a + 1) = p b) := by
      rcases ends a with ea | ea <;> rcases ends b with eb | eb <;> rcases e with e | e <;>
        simp only [ea.1, ea.2, eb.1, eb.2] at e <;> tauto
    rcases key with k | k
    · exact pinj k.1
    · exfalso
      have e1 := pinj k.1
      have e2 := pinj k.2
      apply two
      have : b + (1 + 1) = b + 0 := by rw [← add_assoc, ← e1, e2, add_zero]
      exact add_left_cancel this
  have sinj : Function.Injective σ := fun a b e => edge_inj a b (by rw [e]; exact SameEdge.refl _)
  have hLnd : L.Nodup := by
    rw [List.nodup_iff_injective_getElem]
    intro a b e
    have ha' : a.val < n := by rw [← hlenL]; exact a.isLt
    have hb' : b.val < n := by rw [← hlenL]; exact b.isLt
    have : σ (a.val : ZMod n) = σ (b.val : ZMod n) := by
      simp only [hσ, ZMod.val_natCast, Nat.mod_eq_of_lt ha', Nat.mod_eq_of_lt hb']
      exact e
    have := sinj this
    rw [ZMod.natCast_eq_natCast_iff', Nat.mod_eq_of_lt ha', Nat.mod_eq_of_lt hb'] at this
    exact Fin.ext this
  have hmemσ : ∀ s, s ∈ G.flatMap PLine.segs ↔ ∃ k, s = σ k := by
    intro s
    rw [← hLp.mem_iff]
    constructor
    · intro hs
      obtain ⟨k, hk, rfl⟩ := List.mem_iff_getElem.1 hs
      rw [hlenL] at hk
      refine ⟨(k : ZMod n), ?_⟩
      simp only [hσ, ZMod.val_natCast, Nat.mod_eq_of_lt hk]
    · rintro ⟨k, rfl⟩
      exact List.getElem_mem _
  have cyc : IsCycleOf h (G.flatMap PLine.segs) n p σ :=
    ⟨h3, pinj, sinj, hLp.nodup_iff.1 hLnd, hmemσ, ends⟩
  have hval : ∀ s ∈ h.vals (G.flatMap PLine.segs), ∃ k, s = h.val (σ k) := by
    intro s hs
    obtain ⟨a, ha, rfl⟩ := List.mem_map.1 hs
    obtain ⟨k, rfl⟩ := (hmemσ a).1 ha
    exact ⟨k, rfl⟩
  have hidx : ∀ o ∈ H, ∃ k : ZMod n, o.i = p k ∧ o.j = p (k + 1) := by
    intro o ho
    obtain ⟨k, hk, rfl⟩ := List.mem_iff_getElem.1 ho
    have e : ((k : ℕ) : ZMod n).val = k := by rw [ZMod.val_natCast, Nat.mod_eq_of_lt hk]
    refine ⟨(k : ZMod n), ?_, ?_⟩
    · exact congrArg Seg.i (getElem_congr_idx e.symm)
    · rw [← hpj]
      exact congrArg Seg.j (getElem_congr_idx e.symm)
  have hne : ∀ k, p k ≠ p (k + 1) := fun k e => (one_ne_zero : (1 : ZMod n) ≠ 0) (by simpa using pinj e)
  have ring_draw : ∀ l, RingOf n p (fun k => (h.val (σ k)).cls) l → SameDrawing l H := by
    rintro l ⟨hlen, -, hmem⟩
    have gen : ∀ f : ZMod n → Seg K, (∀ k, SameEdge (f k) (H[k.val]'k.val_lt)) → Function.Injective f →
        (∀ s, s ∈ l ↔ ∃ k, s = f k) → SameDrawing l H := by
      intro f hfe hfi hm
      refine ⟨(List.range n).map fun k : ℕ => f (k : ZMod n), ?_, ?_⟩
      · have hnd' : ((List.range n).map fun k : ℕ => f (k : ZMod n)).Nodup := by
          apply List.Nodup.map_on _ List.nodup_range
          intro a ha b hb e
          rw [List.mem_range] at ha hb
          have := hfi e
          rwa [ZMod.natCast_eq_natCast_iff', Nat.mod_eq_of_lt ha, Nat.mod_eq_of_lt hb] at this
        have hsub : ((List.range n).map fun k : ℕ => f (k : ZMod n)) ⊆ l := by
          intro s hs
          obtain ⟨k, -, rfl⟩ := List.mem_map.1 hs
          exact (hm _).2 ⟨_, rfl⟩
        exact (hnd'.subperm hsub).perm_of_length_le (by rw [hlen, List.length_map, List.length_range])
      · rw [List.forall₂_iff_get]
        refine ⟨by simp [hnH], ?_⟩
        intro i h1 h2
        have h4 := hfe (i : ZMod n)
        have e : ((i : ℕ) : ZMod n).val = i := by rw [ZMod.val_natCast, Nat.mod_eq_of_lt h2]
        rw [show H[((i : ℕ) : ZMod n).val]'(ZMod.val_lt _) = H[i] from getElem_congr_idx e] at h4
        simpa using h4
    rcases hmem with hm | hm
    · refine gen (fun k => ⟨p k, p (k + 1), (h.val (σ k)).cls⟩) (fun k => Or.inl ⟨rfl, (hpj k).symm⟩) ?_ hm
      intro a b e
      have e' : p a = p b := by
        have e := congrArg Seg.i e
        exact e
      exact pinj e'
    · refine gen (fun k => ⟨p (k + 1), p k, (h.val (σ k)).cls⟩) (fun k => Or.inr ⟨(hpj k).symm, rfl⟩) ?_ hm
      intro a b e
      have e' : p a = p b := by
        have e := congrArg Seg.j e
        exact e
      exact pinj e'
  obtain ⟨h', g, P, e, hP⟩ := C110_mixed_loop hR π hπ fuel h G n p σ cyc (by
    obtain ⟨s, hs, hc, o, ho, e1, e2⟩ := ha
    obtain ⟨k, rfl⟩ := hval s hs
    obtain ⟨j, ej, ej'⟩ := hidx o ho
    refine ⟨k, ?_, hc⟩
    rcases ends k with e | e
    · exact e.1
    · exfalso
      have h1 := pinj (e.1.symm.trans (e1.trans ej))
      have h2 := pinj (e.2.symm.trans (e2.trans ej'))
      apply two
      have : j = j + (1 + 1) := by rw [← add_assoc, ← h2, h1]
      exact (left_eq_add.1 this)) (by
    obtain ⟨s, hs, hc, o, ho, e1, e2⟩ := hb
    obtain ⟨k, rfl⟩ := hval s hs
    obtain ⟨j, ej, ej'⟩ := hidx o ho
    refine ⟨k, ?_, hc⟩
    rcases ends k with e | e
    · exfalso
      have h1 := pinj (e.1.symm.trans (e1.trans ej'))
      have h2 := pinj (e.2.symm.trans (e2.trans ej))
      apply two
      have : j = j + (1 + 1) := by rw [← add_assoc, ← h1, h2]
      exact (left_eq_add.1 this)
    · exact e.1) (by
    rintro _ ⟨a, rfl⟩ _ ⟨b, rfl⟩
    have hm : ∀ k, p k ∈ H.map Seg.i := fun k => List.mem_map_of_mem (List.getElem_mem _)
    exact hap _ (hm a) _ (hm b)) hn hw hG
    (fun l hl => hvalid l (ring_draw l hl) hl.2.1 (by
      rintro rfl
      have := hl.1
      simp at this
      omega)) hf
  exact ⟨h', g, P, e, hP.2.1, ring_draw _ hP⟩

theorem SameDrawing.trans {l m q : List (Seg K)} (h : SameDrawing l m) (h' : SameDrawing m q) : SameDrawing l q := by
  obtain ⟨l', hp, hf⟩ := h
  obtain ⟨m', hp', hf'⟩ := h'
  have hc : Relation.Comp (List.Forall₂ SameEdge) List.Perm l' m' := ⟨m, hf, hp'.symm⟩
  rw [List.forall₂_comp_perm_eq_perm_comp_forall₂] at hc
  obtain ⟨l2, h1, h2⟩ := hc
  refine ⟨l2, h1.symm.trans hp, ?_⟩
  clear hp hp' hf h1
  induction h2 generalizing q with
  | nil => cases hf'; exact .nil
  | cons e _ ih =>
    cases hf' with
    | cons e' hf' => exact .cons (e.trans e') (ih hf')

theorem hexagon_clear {x y w h t u : K} (hw : 1 / 10 ^ 6 ≤ w) (hh : 1 / 10 ^ 6 ≤ h) (ht : 0 < t) (hu : 0 < u) :
    (hexagon x y w h t u).Pairwise KeepClear := by
  have e6 : (0 : K) < 1 / 10 ^ 6 := by positivity
  unfold hexagon
  simp only [List.pairwise_cons, List.mem_cons, List.not_mem_nil, or_false, forall_eq_or_imp, forall_eq, List.Pairwise.nil,
    and_true, false_imp_iff, implies_true]
  have L : ∀ s o : Seg K, (∀ a, a = s.i ∨ a = s.j → ∀ b, b = o.i ∨ b = o.j → b.x + 1 / 10 ^ 6 ≤ a.x) → KeepClear s o :=
    fun s o h => Or.inr (Or.inl h)
  have Rr : ∀ s o : Seg K, (∀ a, a = s.i ∨ a = s.j → ∀ b, b = o.i ∨ b = o.j → a.x + 1 / 10 ^ 6 ≤ b.x) → KeepClear s o :=
    fun s o h => Or.inr (Or.inr (Or.inl h))
  have U : ∀ s o : Seg K, (∀ a, a = s.i ∨ a = s.j → ∀ b, b = o.i ∨ b = o.j → b.y + 1 / 10 ^ 6 ≤ a.y) → KeepClear s o :=
    fun s o h => Or.inr (Or.inr (Or.inr (Or.inl h)))
  refine ⟨⟨?_, ?_, ?_, ?_, ?_⟩, ⟨?_, ?_, ?_, ?_⟩, ⟨?_, ?_, ?_⟩, ⟨?_, ?_⟩, ?_⟩
  · exact Or.inl (by simp)
  · apply L; rintro a (rfl | rfl) b (rfl | rfl) <;> dsimp only <;> linarith
  · apply L; rintro a (rfl | rfl) b (rfl | rfl) <;> dsimp only <;> linarith
  · apply L; rintro a (rfl | rfl) b (rfl | rfl) <;> dsimp only <;> linarith
  · exact Or.inl (by simp)
  · exact Or.inl (by simp)
  · apply L; rintro a (rfl | rfl) b (rfl | rfl) <;> dsimp only <;> linarith
  · apply U; rintro a (rfl | rfl) b (rfl | rfl) <;> dsimp only <;> linarith
  · apply U; rintro a (rfl | rfl) b (rfl | rfl) <;> dsimp only <;> linarith
  · exact Or.inl (by simp)
  · apply U; rintro a (rfl | rfl) b (rfl | rfl) <;> dsimp only <;> linarith
  · apply U; rintro a (rfl | rfl) b (rfl | rfl) <;> dsimp only <;> linarith
  · exact Or.inl (by simp)
  · apply Rr; rintro a (rfl | rfl) b (rfl | rfl) <;> dsimp only <;> linarith
  · exact Or.inl (by simp)

theorem hexagon_apart {x y w h t u d : K} (hd : 0 < d) (hw : d ≤ w) (hh : d ≤ h) (ht : 0 < t) (hu : 0 < u) :
    Apart d {p | p ∈ (hexagon x y w h t u).map Seg.i} := by
  intro p hp q hq hne
  simp only [hexagon, List.map_cons, List.map_nil, Set.mem_ofPred_eq, List.mem_cons, List.not_mem_nil, or_false] at hp hq
  have ax : ∀ a b : K, (d ≤ a - b ∨ d ≤ b - a) → d ≤ |a - b| := by
    rintro a b (h | h)
    · exact le_trans h (le_abs_self _)
    · rw [abs_sub_comm]; exact le_trans h (le_abs_self _)
  rcases hp with rfl | rfl | rfl | rfl | rfl | rfl <;> rcases hq with rfl | rfl | rfl | rfl | rfl | rfl <;>
    first
    | exact absurd rfl hne
    | (left; apply ax; left; dsimp only; linarith)
    | (left; apply ax; right; dsimp only; linarith)
    | (right; apply ax; left; dsimp only; linarith)
    | (right; apply ax; right; dsimp only; linarith)

/-- C110: the group of the graphs of a cylindrical shell and of a head at each of its ends, in any order: `find_loops`
returns exactly one polygon, a closed chain that draws the six Walls. -/
theorem C110_vessel (hE : R.IsExact) {m : MantelDim K} (hs : Sound m) (hcyl : m.d1 = m.d0) (hh : 1 / 10 ^ 5 ≤ m.h) (k1 k2 : K)
    (π : SetOrder) (hπ : π.Ok) (fuel : ℕ) (hf : 12 ≤ fuel) (h : Heap K) (hw : h.WF) (G : List PLine)
    (hG : ∀ P ∈ G, ∀ s ∈ P.segs, s < h.nseg)
    (hv : (h.vals (G.flatMap PLine.segs)).Perm ([rightWall m, leftWall m] ++
      R.headGraph ⟨m.posV + m.h, m.posH, m.d0, k1, 1⟩ ++ R.headGraph ⟨m.posV, m.posH, m.d0, k2, -1⟩)) :
    ∃ h' g P, R.findLoops π fuel h G = .ok h' g [P] ∧ ClosedChain (h'.vals P.segs) ∧
      SameDrawing (h'.vals P.segs) (h.vals (G.flatMap PLine.segs)) := by
  have hd0 : 0 < m.d0 := lt_of_lt_of_le (by positivity) hs.wide
  have hw2 : 1 / 10 ^ 5 ≤ m.d0 / 2 := by
    have := hs.wide
    have e5 : (1 : K) / 10 ^ 5 = 1 / 100000 := by norm_num
    rw [e5]; linarith
  have hd6 : 1 / 10 ^ 6 ≤ m.d0 := le_trans (by norm_num) hs.wide
  have e56 : (1 : K) / 10 ^ 6 ≤ 1 / 10 ^ 5 := by norm_num
  obtain ⟨a2, b2, c2, hg2, ea2, ec2, hbx2, hby2, -⟩ :=
    C74_reference_points hE ⟨m.posV + m.h, m.posH, m.d0, k1, 1⟩ hs.posH (hs.posV.add hs.h) hs.d0 hd6 (Or.inl rfl)
  obtain ⟨a3, b3, c3, hg3, ea3, ec3, hbx3, hby3, -⟩ :=
    C74_reference_points hE ⟨m.posV, m.posH, m.d0, k2, -1⟩ hs.posH hs.posV hs.d0 hd6 (Or.inr rfl)
  dsimp only at *
  set t := 1 * (b2.y - (m.posV + m.h)) with ht
  set u := -1 * (b3.y - m.posV) with hu
  have eb2 : b2 = ⟨m.posH, m.posV + m.h + t⟩ := by
    rcases b2 with ⟨bx, bY⟩
    simp only at hbx2 ht ⊢
    rw [hbx2, ht]; congr 1; ring
  have eb3 : b3 = ⟨m.posH, m.posV - u⟩ := by
    rcases b3 with ⟨bx, bY⟩
    simp only at hbx3 hu ⊢
    rw [hbx3, hu]; congr 1; ring
  rw [hg2, hg3, ea2, ea3, ec2, ec3, eb2, eb3] at hv
  set Hx := hexagon m.posH m.posV (m.d0 / 2) m.h t u with hHx
  have hdraw : SameDrawing (h.vals (G.flatMap PLine.segs)) Hx := by
    refine ⟨[rightWall m, ⟨⟨m.posH, m.posV + m.h + t⟩, ⟨m.posH + m.d0 / 2, m.posV + m.h⟩, .wall⟩,
        ⟨⟨m.posH - m.d0 / 2, m.posV + m.h⟩, ⟨m.posH, m.posV + m.h + t⟩, .wall⟩, leftWall m,
        ⟨⟨m.posH - m.d0 / 2, m.posV⟩, ⟨m.posH, m.posV - u⟩, .wall⟩,
        ⟨⟨m.posH, m.posV - u⟩, ⟨m.posH + m.d0 / 2, m.posV⟩, .wall⟩], ?_, ?_⟩
    · refine List.Perm.trans ?_ hv.symm
      classical
      rw [List.perm_iff_count]
      intro s
      simp only [List.cons_append, List.nil_append, List.count_cons, List.count_nil]
      omega
    · rw [hHx]
      unfold hexagon
      refine .cons (Or.inl ⟨rfl, ?_⟩) (.cons (Or.inr ⟨rfl, rfl⟩) (.cons (Or.inr ⟨rfl, rfl⟩) (.cons (Or.inl ⟨?_, rfl⟩)
        (.cons (Or.inl ⟨rfl, rfl⟩) (.cons (Or.inl ⟨rfl, rfl⟩) .nil)))))
      · unfold rightWall; rw [hcyl]
      · unfold leftWall; rw [hcyl]
  have hconv := hexagon_convex (x := m.posH) (y := m.posV) (w := m.d0 / 2) (h := m.h) (by positivity)
    (lt_of_lt_of_le (by positivity) hh) hby2 hby3
  have hclear := hexagon_clear (x := m.posH) (y := m.posV) (w := m.d0 / 2) (h := m.h) (le_trans e56 hw2) (le_trans e56 hh) hby2 hby3
  have htol : R.tol = 1 / 10 ^ 5 := by
    unfold Rt.tol
    rw [hE.mul', hE.eps']; norm_num
  have hap : Apart R.tol {p | p ∈ Hx.map Seg.i} := by
    rw [htol]
    exact hexagon_apart (by positivity) hw2 hh hby2 hby3
  obtain ⟨h', g, P, e, hc, hd⟩ := C110_outline hE.isRounding π hπ fuel h G Hx hconv.chain hconv.nodup (by simp [hHx, hexagon])
    (by simp [hHx, hexagon]) hap hdraw ⟨rightWall m, hv.mem_iff.2 (by simp), by simp [rightWall],
      ⟨⟨m.posH + m.d0 / 2, m.posV⟩, ⟨m.posH + m.d0 / 2, m.posV + m.h⟩, .wall⟩, by simp [hHx, hexagon], rfl,
      by unfold rightWall; rw [hcyl]⟩
    ⟨⟨⟨m.posH, m.posV + m.h + t⟩, ⟨m.posH + m.d0 / 2, m.posV + m.h⟩, .wall⟩, hv.mem_iff.2 (by simp), by simp,
      ⟨⟨m.posH + m.d0 / 2, m.posV + m.h⟩, ⟨m.posH, m.posV + m.h + t⟩, .wall⟩, by simp [hHx, hexagon], rfl, rfl⟩
    hw hG (fun l h1 h2 h3 => plValid_clear hE hclear h1 h2 h3) (by simpa [hHx, hexagon] using hf)
  exact ⟨h', g, P, e, hc, hd.trans hdraw.symm⟩

/-- a memory with these six segments as Walls, every one with two Points of its own -/
noncomputable def sixWalls (L : List (Seg ℝ)) : Heap ℝ :=
  { pt := fun k => if k % 2 = 0 then (L.getD (k / 2) ⟨⟨0, 0⟩, ⟨0, 0⟩, .wall⟩).i else (L.getD (k / 2) ⟨⟨0, 0⟩, ⟨0, 0⟩, .wall⟩).j
    seg := fun k => ⟨2 * k, 2 * k + 1, .wall⟩
    npt := 12
    nseg := 6 }

/-- a shell of diameter 2000 and height 3000 with two heads: one loop, whatever the order of the sets -/
example (π : SetOrder) (hπ : π.Ok) :
    ∃ h' g P, exReal.findLoops π 12 (sixWalls ([rightWall ⟨0, 0, 2000, 2000, 3000⟩, leftWall ⟨0, 0, 2000, 2000, 3000⟩] ++
        exReal.headGraph ⟨0 + 3000, 0, 2000, 0, 1⟩ ++ exReal.headGraph ⟨0, 0, 2000, 0, -1⟩))
      [⟨[0, 1], false⟩, ⟨[2, 3], false⟩, ⟨[4, 5], false⟩] = .ok h' g [P] ∧ ClosedChain (h'.vals P.segs) ∧
        (h'.vals P.segs).length = 6 := by
  have hs : Sound (⟨0, 0, 2000, 2000, 3000⟩ : MantelDim ℝ) := by
    refine ⟨?_, ?_, ?_, ?_, ?_, ?_, ?_, ?_, ?_⟩ <;> norm_num
    · exact_mod_cast grid_intCast (K := ℝ) 0
    · exact_mod_cast grid_intCast (K := ℝ) 0
    · exact_mod_cast grid_intCast (K := ℝ) 3000
    · exact_mod_cast grid_intCast (K := ℝ) 1000
    · exact_mod_cast grid_intCast (K := ℝ) 1000
  obtain ⟨h', g, P, e, hc, l', hp, hf⟩ := C110_vessel exReal_isExact hs rfl (by norm_num) 0 0 π hπ 12 le_rfl
    (sixWalls ([rightWall ⟨0, 0, 2000, 2000, 3000⟩, leftWall ⟨0, 0, 2000, 2000, 3000⟩] ++
        exReal.headGraph ⟨0 + 3000, 0, 2000, 0, 1⟩ ++ exReal.headGraph ⟨0, 0, 2000, 0, -1⟩))
    (by intro s hs; unfold sixWalls at *; dsimp only at *; omega)
    [⟨[0, 1], false⟩, ⟨[2, 3], false⟩, ⟨[4, 5], false⟩]
    (by
      intro P hP s hs
      simp only [List.mem_cons, List.not_mem_nil, or_false] at hP
      rcases hP with rfl | rfl | rfl <;> simp at hs <;> rcases hs with rfl | rfl <;> decide)
    (List.Perm.refl _)
  refine ⟨h', g, P, e, hc, ?_⟩
  rw [← hp.length_eq, hf.length_eq]
  rfl

/-! ### an open chain -/

/-- three Walls in an open chain, the last one against the others -/
def exOpenH : Heap ℚ :=
  { pt := fun k => [(⟨0, 0⟩ : Pt ℚ), ⟨1, 0⟩, ⟨1, 1⟩, ⟨0, 1⟩].getD k ⟨0, 0⟩
    seg := fun k => [⟨1, 0, .wall⟩, ⟨1, 2, .wall⟩, ⟨3, 2, .wall⟩].getD k ⟨0, 0, .wall⟩
    npt := 4
    nseg := 3 }

/-- the ends of the segments of the loops found -/
def Rt.LoopRes.drawn : Rt.LoopRes K → Option (List (List ((K × K) × (K × K))))
  | .ok h _ c => some (c.map fun P => (h.vals P.segs).map fun s => ((s.i.x, s.i.y), (s.j.x, s.j.y)))
  | _ => none

/-- C110: on an open chain the result depends on the iteration order of the sets: with one order no loop is found, with
another one `find_loops` returns a "loop" that passes one Wall to and fro. -/
theorem C110_open_chain : ∃ π π' : SetOrder, π.Ok ∧ π'.Ok ∧
    (exRt.findLoops π 6 exOpenH [⟨[0, 1, 2], false⟩]).drawn = some [] ∧
    (exRt.findLoops π' 6 exOpenH [⟨[0, 1, 2], false⟩]).drawn = some [[((0, 1), (1, 1)), ((1, 1), (0, 1))]] := by
  refine ⟨fun _ l => l, fun k l => if k = 0 then l else l.rotate (2 * k), fun _ _ => List.Perm.refl _, ?_, ?_, ?_⟩
  · intro k l
    dsimp only
    split_ifs
    · exact List.Perm.refl _
    · exact l.rotate_perm _
  · decide +kernel
  · decide +kernel

end Srep
