import Verif.Model.Overlap
import Verif.Props.Raum
import Verif.Props.Ray
import Mathlib.Algebra.BigOperators.Intervals
import Mathlib.Data.Nat.Choose.Basic

/-! C118, C119: what a vessel reports about the common parts of its rooms; constraints of a triangulation. -/

set_option linter.unusedSectionVars false

namespace Srep
open Rt
variable {α β ν : Type}

/-- the number of pairs `a < b < n` of positions with a property is "number of positions choose 2" -/
theorem pairs_choose (n : ℕ) (q : ℕ → Prop) [DecidablePred q] :
    ((Finset.range n ×ˢ Finset.range n).filter fun z => z.1 < z.2 ∧ q z.1 ∧ q z.2).card =
      (((Finset.range n).filter q).card).choose 2 := by
  induction n with
  | zero => simp
  | succ n ih =>
    have e1 : ((Finset.range (n + 1) ×ˢ Finset.range (n + 1)).filter fun z => z.1 < z.2 ∧ q z.1 ∧ q z.2) =
        ((Finset.range n ×ˢ Finset.range n).filter fun z => z.1 < z.2 ∧ q z.1 ∧ q z.2) ∪
        (if q n then ((Finset.range n).filter q).image fun a => (a, n) else ∅) := by
      ext ⟨a, b⟩
      simp only [Finset.mem_filter, Finset.mem_product, Finset.mem_range, Finset.mem_union]
      by_cases hn : q n
      · rw [if_pos hn, Finset.mem_image]
        simp only [Finset.mem_filter, Finset.mem_range, Prod.mk.injEq]
        constructor
        · rintro ⟨⟨h1, h2⟩, h3, h4, h5⟩
          rcases Nat.lt_or_ge b n with h | h
          · exact Or.inl ⟨⟨by omega, h⟩, h3, h4, h5⟩
          · exact Or.inr ⟨a, ⟨by omega, h4⟩, rfl, by omega⟩
        · rintro (⟨⟨h1, h2⟩, h3, h4, h5⟩ | ⟨c, ⟨h1, h2⟩, rfl, rfl⟩)
          · exact ⟨⟨by omega, by omega⟩, h3, h4, h5⟩
          · exact ⟨⟨by omega, by omega⟩, h1, h2, hn⟩
      · rw [if_neg hn]
        simp only [Finset.notMem_empty, or_false]
        constructor
        · rintro ⟨⟨h1, h2⟩, h3, h4, h5⟩
          have : b ≠ n := by rintro rfl; exact hn h5
          exact ⟨⟨by omega, by omega⟩, h3, h4, h5⟩
        · rintro ⟨⟨h1, h2⟩, h3, h4, h5⟩
          exact ⟨⟨by omega, by omega⟩, h3, h4, h5⟩
    rw [e1, Finset.card_union_of_disjoint, ih, Finset.range_add_one, Finset.filter_insert]
    · by_cases hn : q n
      · rw [if_pos hn, if_pos hn, Finset.card_insert_of_notMem (by simp), Finset.card_image_of_injective _ (by
          intro a b h; exact (Prod.mk.inj h).1), Nat.choose_succ_succ' _ 1, Nat.choose_one_right, Nat.add_comm]
      · rw [if_neg hn, if_neg hn]; simp
    · rw [Finset.disjoint_left]
      rintro ⟨a, b⟩ h1 h2
      simp only [Finset.mem_filter, Finset.mem_product, Finset.mem_range] at h1
      split_ifs at h2
      · simp only [Finset.mem_image, Prod.mk.injEq] at h2
        obtain ⟨c, -, -, rfl⟩ := h2
        omega
      · simp at h2

section
variable {inter : List α → List α → List α} {n : ℕ} {p : ℕ → List α}

theorem overlaps_of (hi : ∀ a b x, x ∈ inter a b ↔ x ∈ a ∧ x ∈ b) :
    (((overlapsInCycles inter (partsOf n p)).map Prod.fst).Pairwise fun p q => p.1 < q.1 ∨ (p.1 = q.1 ∧ p.2 < q.2)) ∧
    ∀ x, x ∈ overlapsInCycles inter (partsOf n p) ↔
      ∃ a b, a < b ∧ b < n ∧ (∃ y, y ∈ p a ∧ y ∈ p b) ∧ x = ((a, b), inter (p a) (p b)) := by
  have hne : ∀ a b, inter (p a) (p b) ≠ [] ↔ ∃ x, x ∈ p a ∧ x ∈ p b := by
    intro a b
    constructor
    · intro h
      obtain ⟨x, hx⟩ := List.exists_mem_of_ne_nil _ h
      exact ⟨x, (hi _ _ _).1 hx⟩
    · rintro ⟨x, hx⟩
      exact List.ne_nil_of_mem ((hi _ _ _).2 hx)
  have hsymm : ∀ a b, inter (p a) (p b) = [] ↔ inter (p b) (p a) = [] := by
    intro a b
    rw [← not_iff_not]
    refine (hne a b).trans (Iff.trans ?_ (hne b a).symm)
    exact ⟨fun ⟨x, h1, h2⟩ => ⟨x, h2, h1⟩, fun ⟨x, h1, h2⟩ => ⟨x, h2, h1⟩⟩
  obtain ⟨h1, h2⟩ := C82_overlaps inter n p hsymm
  refine ⟨h1, fun x => (h2 x).trans ?_⟩
  constructor
  · rintro ⟨a, b, g1, g2, g3, g4⟩; exact ⟨a, b, g1, g2, (hne a b).1 g3, g4⟩
  · rintro ⟨a, b, g1, g2, g3, g4⟩; exact ⟨a, b, g1, g2, (hne a b).2 g3, g4⟩

/-- C118: `all_overlapping_segments` lists a part once for every pair of rooms that have it: a part of `m` rooms is listed
"m choose 2" times — not at all for one room, once for two, three times for three. -/
theorem C118_count [DecidableEq α] (hi : ∀ a b x, x ∈ inter a b ↔ x ∈ a ∧ x ∈ b) (hnd : ∀ a b, (inter a b).Nodup) (x : α) :
    (allOverlapping inter (partsOf n p)).count x = (((Finset.range n).filter fun k => x ∈ p k).card).choose 2 := by
  obtain ⟨h1, h2⟩ := overlaps_of (n := n) (p := p) hi
  rw [← pairs_choose]
  unfold allOverlapping
  generalize overlapsInCycles inter (partsOf n p) = L at h1 h2
  have hc : ∀ L' : List ((ℕ × ℕ) × List α), (∀ e ∈ L', e.2.Nodup) →
      (L'.flatMap Prod.snd).count x = (L'.filter fun e => decide (x ∈ e.2)).length := by
    intro L' hL
    induction L' with
    | nil => rfl
    | cons e L' ih =>
      rw [List.flatMap_cons, List.count_append, ih fun e he => hL e (List.mem_cons_of_mem _ he), List.filter_cons]
      by_cases hx : x ∈ e.2
      · rw [if_pos (by simpa using hx), List.count_eq_one_of_mem (hL e (by simp)) hx, List.length_cons]
        omega
      · rw [if_neg (by simpa using hx), List.count_eq_zero_of_not_mem hx]
        omega
  rw [hc L (by
    intro e he
    obtain ⟨a, b, -, -, -, rfl⟩ := (h2 e).1 he
    exact hnd _ _)]
  have hsub : (((L.filter fun e => decide (x ∈ e.2)).map Prod.fst)).Nodup := by
    have : (L.map Prod.fst).Nodup := h1.imp fun h e => by
      rw [e] at h
      rcases h with h | h <;> omega
    exact this.sublist (List.filter_sublist.map _)
  rw [← List.length_map (f := Prod.fst), ← List.toFinset_card_of_nodup hsub]
  congr 1
  ext ⟨a, b⟩
  simp only [List.mem_toFinset, List.mem_map, List.mem_filter, decide_eq_true_eq, Finset.mem_filter, Finset.mem_product,
    Finset.mem_range]
  constructor
  · rintro ⟨e, ⟨he, hx⟩, hab⟩
    obtain ⟨a', b', g1, g2, -, rfl⟩ := (h2 e).1 he
    injection hab with u v
    subst u; subst v
    obtain ⟨k1, k2⟩ := (hi _ _ _).1 hx
    exact ⟨⟨by omega, g2⟩, g1, k1, k2⟩
  · rintro ⟨⟨g1, g2⟩, g3, g4, g5⟩
    exact ⟨_, ⟨(h2 _).2 ⟨a, b, g3, g2, ⟨x, g4, g5⟩, rfl⟩, (hi _ _ _).2 ⟨g4, g5⟩⟩, rfl⟩

/-- C118: `overlaps_in_cycles` and `overlaps_in_cycles_named` of a vessel have the pairs of rooms with a common part as
keys, in increasing order; the value is the Hauptteile of the common parts resp. the set of their names. -/
theorem C118_overlaps [DecidableEq ν] (hi : ∀ a b x, x ∈ inter a b ↔ x ∈ a ∧ x ∈ b) (ht : α → β) (name : β → ν) :
    PairsOf n p ((groupOverlaps inter ht (partsOf n p)).map Prod.fst) ∧
    (groupOverlapsNamed inter ht name (partsOf n p)).map Prod.fst = (groupOverlaps inter ht (partsOf n p)).map Prod.fst ∧
    (∀ e ∈ groupOverlaps inter ht (partsOf n p), ∀ y, y ∈ e.2 ↔ ∃ x, x ∈ p e.1.1 ∧ x ∈ p e.1.2 ∧ ht x = y) ∧
    ∀ e ∈ groupOverlapsNamed inter ht name (partsOf n p), e.2.Nodup ∧
      ∀ y, y ∈ e.2 ↔ ∃ x, x ∈ p e.1.1 ∧ x ∈ p e.1.2 ∧ name (ht x) = y := by
  obtain ⟨h1, h2⟩ := overlaps_of (n := n) (p := p) hi
  have hk := (overlaps_keys (n := n) (p := p) hi).1
  unfold groupOverlaps groupOverlapsNamed
  refine ⟨?_, ?_, ?_, ?_⟩
  · rw [List.map_map]
    exact hk
  · rw [List.map_map, List.map_map]
    rfl
  · intro e he y
    rw [List.mem_map] at he
    obtain ⟨e', he', rfl⟩ := he
    obtain ⟨a, b, g1, g2, g3, rfl⟩ := (h2 e').1 he'
    rw [List.mem_map]
    constructor
    · rintro ⟨x, hx, rfl⟩
      exact ⟨x, ((hi _ _ _).1 hx).1, ((hi _ _ _).1 hx).2, rfl⟩
    · rintro ⟨x, k1, k2, rfl⟩
      exact ⟨x, (hi _ _ _).2 ⟨k1, k2⟩, rfl⟩
  · intro e he
    rw [List.mem_map] at he
    obtain ⟨e', he', rfl⟩ := he
    obtain ⟨a, b, g1, g2, g3, rfl⟩ := (h2 e').1 he'
    refine ⟨List.nodup_dedup _, fun y => ?_⟩
    rw [List.mem_dedup, List.map_map, List.mem_map]
    constructor
    · rintro ⟨x, hx, rfl⟩
      exact ⟨x, ((hi _ _ _).1 hx).1, ((hi _ _ _).1 hx).2, rfl⟩
    · rintro ⟨x, k1, k2, rfl⟩
      exact ⟨x, (hi _ _ _).2 ⟨k1, k2⟩, rfl⟩

end

/-- C118: `disjunct_cycles` of a vessel never raises and reports no disjunct room for any room, whatever the rooms are. -/
theorem C118_disjunct (inter : List α → List α → List α) (cycles : List (ℕ × List α)) :
    groupDisjunct (β := β) inter cycles = .ok (cycles.map fun e => (e.1, [])) := by
  unfold groupDisjunct disjunctCycles
  rw [List.mapM_map]
  have hz : ∀ e : ℕ × List α, ((cycles.filter fun z => decide (z.1 ≠ e.1)).flatMap fun z =>
      if 0 < ([] : List α).length then [inter e.2 z.2] else []) = [] := by
    intro e
    rw [List.flatMap_eq_nil_iff]
    intro z _
    simp
  have key : ∀ l : List (ℕ × List α), l.mapM (m := Except PyErr) (fun e => if ((cycles.filter fun z => decide (z.1 ≠ e.1)).flatMap fun z =>
      if 0 < ([] : List α).length then [inter e.2 z.2] else []) = [] then .ok (e.1, ([] : List β)) else .error PyErr.attribute) =
      Except.ok (l.map fun e => (e.1, [])) := by
    intro l
    induction l with
    | nil => rfl
    | cons a l ih =>
      rw [List.mapM_cons, if_pos (hz a), ih]
      rfl
  exact key cycles

/-- C118: `node_degree` is an AssertionError exactly for a node that is not a key, else the length of its list. -/
theorem C118_degree (al : List (ℕ × List ℕ)) (hnd : (al.map Prod.fst).Nodup) (node : ℕ) :
    (nodeDegree al node = .error .assertion ↔ node ∉ al.map Prod.fst) ∧
    ∀ l, (node, l) ∈ al → nodeDegree al node = .ok l.length := by
  unfold nodeDegree
  induction al with
  | nil => simp
  | cons e al ih =>
    rw [List.map_cons, List.nodup_cons] at hnd
    obtain ⟨i1, i2⟩ := ih hnd.2
    rw [List.lookup_cons]
    by_cases h : node = e.1
    · subst h
      rw [beq_self_eq_true]
      refine ⟨by simp, fun l hl => ?_⟩
      rcases List.mem_cons.1 hl with h | hl
      · rw [← h]
      · exact absurd (List.mem_map_of_mem (f := Prod.fst) hl) hnd.1
    · rw [beq_false_of_ne h]
      refine ⟨by rw [i1]; simp [h], fun l hl => ?_⟩
      rcases List.mem_cons.1 hl with rfl | hl
      · exact absurd rfl h
      · exact i2 l hl

/-- three rooms that all have the part 7; the first two also 8: 7 is listed three times, 8 once -/
example : allOverlapping (fun a b => a.filter fun x => decide (x ∈ b))
    (partsOf 3 fun k => if k = 0 then [5, 7, 8] else if k = 1 then [8, 7] else [7, 9]) = [7, 8, 7, 7] := by decide
example : groupOverlapsNamed (fun a b => a.filter fun x => decide (x ∈ b)) (fun x : ℕ => x) (fun x => x / 2 * 2 : ℕ → ℕ)
    (partsOf 3 fun k => if k = 0 then [5, 6, 7] else if k = 1 then [6, 7] else [9]) = [((0, 1), [6])] := by decide
example : (∀ a b : List ℕ, ∀ x, x ∈ (a.filter fun x => decide (x ∈ b)).dedup ↔ x ∈ a ∧ x ∈ b) ∧
    ∀ a b : List ℕ, (a.filter fun x => decide (x ∈ b)).dedup.Nodup :=
  ⟨fun a b x => by simp, fun _ _ => List.nodup_dedup _⟩
example : nodeDegree [(0, [1, 2]), (1, [0]), (2, [0])] 0 = .ok 2 ∧ nodeDegree [(0, [1, 2])] 5 = .error .assertion := by decide

/-! ### C119 -/

section
variable {K : Type} [Field K] [LinearOrder K] [IsStrictOrderedRing K] [FloorRing K]

/-- a constraint has an end in common with the edge `a`–`b` -/
def SharesEnd (c : Seg K) (a b : Pt K) : Prop := c.i = a ∨ c.i = b ∨ c.j = a ∨ c.j = b

theorem touch_common {R : Rt K} (hE : R.IsExact) {c : Seg K} {a b : Pt K} {k : SegCls} (h : SharesEnd c a b) :
    R.touch c ⟨a, b, k⟩ = true := by
  have hd : ∀ q, R.distance q q < R.eps := fun q => by
    rw [hE.isRounding.distance_self, hE.eps']; positivity
  unfold Rt.touch
  rw [Bool.or_eq_true]
  right
  simp only [List.any_cons, List.any_nil, Bool.or_false, Bool.or_eq_true, decide_eq_true_eq]
  rcases h with h | h | h | h
  · exact Or.inl (Or.inl (by rw [h]; exact hd _))
  · exact Or.inl (Or.inr (by rw [h]; exact hd _))
  · exact Or.inr (Or.inl (by rw [h]; exact hd _))
  · exact Or.inr (Or.inr (by rw [h]; exact hd _))

/-- C119 (exact arithmetic): for an edge between two points, `intersectsConstraint` is true iff some constraint without a
common end meets it — provided that ends are equal or at least 1e-5 apart, and that each such constraint is in general position to
the edge: the edge does not start on its line, and there is no near miss.  A constraint with a common end is never counted, even if
it covers the edge. -/
theorem C119_meets {R : Rt K} (hE : R.IsExact) (ps : List (Pt K)) (cs : List (Seg K)) (e : ℤ × ℤ) (a b : Pt K)
    (ha : pyGet ps e.1 = some a) (hb : pyGet ps e.2 = some b)
    (hap : Apart (1 / 10 ^ 5) {q | q = a ∨ q = b ∨ ∃ c ∈ cs, q = c.i ∨ q = c.j})
    (hg : ∀ c ∈ cs, ¬ SharesEnd c a b → det3 c.i c.j a ≠ 0 ∧ Clear c.i c.j ⟨a, b, .line⟩) :
    ∃ r, R.intersectsConstraint ps cs e = .ok r ∧
      (r = true ↔ ∃ c ∈ cs, ¬ SharesEnd c a b ∧ Meet c.i c.j ⟨a, b, .line⟩) := by
  refine ⟨_, by unfold Rt.intersectsConstraint; rw [ha, hb], ?_⟩
  rw [List.any_eq_true]
  have hio : ∀ c : Seg K, R.intersectionOnSegment c ⟨a, b, .line⟩ = R.intersectionOnSegment ⟨c.i, c.j, .line⟩ ⟨a, b, .line⟩ :=
    fun c => rfl
  have hst : ∀ c : Seg K, SharesEnd c a b → R.intersectionOnSegment c ⟨a, b, .line⟩ = false := by
    intro c hc
    unfold Rt.intersectionOnSegment
    rw [if_pos (touch_common hE hc)]
  have hnt : ∀ c ∈ cs, ¬ SharesEnd c a b →
      (R.intersectionOnSegment c ⟨a, b, .line⟩ = true ↔ Meet c.i c.j ⟨a, b, .line⟩) := by
    intro c hc hs
    unfold SharesEnd at hs
    push Not at hs
    obtain ⟨g1, g2⟩ := hg c hc (by unfold SharesEnd; push Not; exact hs)
    rw [hio]
    refine ios_iff_meet hE ?_ g1 g2
    exact touch_false (R := R) (s := ⟨c.i, c.j, .line⟩) (o := ⟨a, b, .line⟩) hE hap (Or.inr (Or.inr ⟨c, hc, Or.inl rfl⟩))
      (Or.inr (Or.inr ⟨c, hc, Or.inr rfl⟩)) (Or.inl rfl) (Or.inr (Or.inl rfl)) hs.1 hs.2.1 hs.2.2.1 hs.2.2.2
  constructor
  · rintro ⟨c, hc, h⟩
    by_cases hs : SharesEnd c a b
    · rw [hst c hs] at h; cases h
    · exact ⟨c, hc, hs, (hnt c hc hs).1 h⟩
  · rintro ⟨c, hc, hs, h⟩
    exact ⟨c, hc, (hnt c hc hs).2 h⟩

theorem pyGet_none {γ : Type} (ps : List γ) (i : ℤ) : pyGet ps i = none ↔ ¬ (-(ps.length : ℤ) ≤ i ∧ i < ps.length) := by
  unfold pyGet
  split_ifs with h1 h2
  · rw [List.getElem?_eq_none_iff]; omega
  · rw [List.getElem?_eq_none_iff]; omega
  · simp only [true_iff]; omega

/-- C119: `intersectsConstraint` raises iff one of the two indices is not a valid one (negative indices count from the end),
and then it is an IndexError, whatever the constraints are. -/
theorem C119_index (R : Rt K) (ps : List (Pt K)) (cs : List (Seg K)) (i j : ℤ) :
    (∀ x, R.intersectsConstraint ps cs (i, j) = .error x → x = .index) ∧
    (R.intersectsConstraint ps cs (i, j) = .error .index ↔
      ¬ (-(ps.length : ℤ) ≤ i ∧ i < ps.length ∧ -(ps.length : ℤ) ≤ j ∧ j < ps.length)) := by
  have h1 := pyGet_none ps i
  have h2 := pyGet_none ps j
  unfold Rt.intersectsConstraint
  dsimp only
  cases hi : pyGet ps i with
  | none =>
    have := h1.1 hi
    refine ⟨by intro x h; cases h; rfl, by simp only [true_iff]; exact fun h => this ⟨h.1, h.2.1⟩⟩
  | some a =>
    cases hj : pyGet ps j with
    | none =>
      have := h2.1 hj
      refine ⟨by intro x h; cases h; rfl, by simp only [true_iff]; exact fun h => this h.2.2⟩
    | some b =>
      refine ⟨by intro x h; simp at h, ?_⟩
      have k1 : -(ps.length : ℤ) ≤ i ∧ i < ps.length := by
        by_contra h; rw [h1.2 h] at hi; cases hi
      have k2 : -(ps.length : ℤ) ≤ j ∧ j < ps.length := by
        by_contra h; rw [h2.2 h] at hj; cases hj
      constructor
      · intro h; simp at h
      · intro h; exact absurd ⟨k1.1, k1.2, k2.1, k2.2⟩ h

/-- non-vacuity of `C119_meets`: the diagonal of a square against a constraint crossing it -/
example : Apart (1 / 10 ^ 5) {q : Pt ℚ | q = ⟨0, 0⟩ ∨ q = ⟨2, 2⟩ ∨ ∃ c ∈ [exSeg 0 2 2 0, exSeg 0 0 2 0], q = c.i ∨ q = c.j} ∧
    ∀ c ∈ [exSeg 0 2 2 0, exSeg 0 0 2 0], ¬ SharesEnd c ⟨0, 0⟩ ⟨2, 2⟩ →
      det3 c.i c.j ⟨0, 0⟩ ≠ 0 ∧ Clear c.i c.j ⟨⟨0, 0⟩, ⟨2, 2⟩, .line⟩ := by
  constructor
  · have : {q : Pt ℚ | q = ⟨0, 0⟩ ∨ q = ⟨2, 2⟩ ∨ ∃ c ∈ [exSeg 0 2 2 0, exSeg 0 0 2 0], q = c.i ∨ q = c.j} =
        {q | q ∈ [(⟨0, 0⟩ : Pt ℚ), ⟨2, 2⟩, ⟨0, 2⟩, ⟨2, 0⟩]} := by
      ext q
      simp only [Set.mem_ofPred_eq, List.mem_cons, List.not_mem_nil, or_false, exists_eq_or_imp, exists_eq_left, exSeg]
      tauto
    rw [this]
    have h : ∀ a ∈ [(⟨0, 0⟩ : Pt ℚ), ⟨2, 2⟩, ⟨0, 2⟩, ⟨2, 0⟩], ∀ b ∈ [(⟨0, 0⟩ : Pt ℚ), ⟨2, 2⟩, ⟨0, 2⟩, ⟨2, 0⟩], a ≠ b →
        1 / 10 ^ 5 ≤ |a.x - b.x| ∨ 1 / 10 ^ 5 ≤ |a.y - b.y| := by decide +kernel
    exact h
  · intro c hc hs
    simp only [List.mem_cons, List.not_mem_nil, or_false] at hc
    rcases hc with rfl | rfl
    · refine ⟨by norm_num [det3, exSeg], ?_⟩
      rintro ⟨x, y⟩ h1 h2
      left
      unfold OnLine at h1 h2
      obtain ⟨u, e1⟩ := h1
      obtain ⟨w, e2⟩ := h2
      simp only [lerp, exSeg, Pt.mk.injEq] at e1 e2
      have hx : x = 1 := by linarith [e1.1, e1.2, e2.1, e2.2]
      have hy : y = 1 := by linarith [e1.1, e1.2, e2.1, e2.2]
      subst hx; subst hy
      exact ⟨⟨1 / 2, by norm_num, by norm_num, by norm_num [lerp, exSeg]⟩, ⟨1 / 2, by norm_num, by norm_num, by norm_num [lerp]⟩⟩
    · exact absurd (Or.inl rfl) hs
example : exRt.intersectsConstraint [⟨0, 0⟩, ⟨2, 2⟩, ⟨0, 2⟩, ⟨2, 0⟩] [exSeg 0 2 2 0, exSeg 0 0 2 0] (0, 1) = .ok true ∧
    exRt.intersectsConstraint [⟨0, 0⟩, ⟨2, 2⟩, ⟨0, 2⟩, ⟨2, 0⟩] [exSeg 0 0 2 2, exSeg 0 0 2 0] (0, 1) = .ok false := by
  decide +kernel

end
end Srep
