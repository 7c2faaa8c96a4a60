import Verif.Props.Poly
import Verif.Props.LineD
import Mathlib.Algebra.BigOperators.Group.List.Basic

/-! Properties of winding, validity and crossing of polylines. -/

set_option linter.unusedSectionVars false

namespace Srep
open Rt
variable {K : Type} [Field K] [LinearOrder K] [IsStrictOrderedRing K] [FloorRing K]

/-! ### C63 -/

theorem ios_symm {R : Rt K} (hR : R.IsRounding) (s o : Seg K) (h : R.HashOK [s.i, s.j, o.i, o.j]) :
    R.intersectionOnSegment s o = R.intersectionOnSegment o s := by
  unfold Rt.intersectionOnSegment
  rw [(C16_symm hR s o h).1]
  have hp := C11_symm hR s o
  rw [C11_total hR, C11_total hR] at hp
  simp only [Except.ok.injEq] at hp
  rw [hp]
  split
  · rfl
  · split
    · rfl
    · rw [Bool.and_comm]

theorem mem_crossingLines (R : Rt K) (l : List (Seg K)) (s o : Seg K) :
    (s, o) ∈ R.crossingLines l ↔ R.intersectionOnSegment s o = true ∧
      ∃ a b, ∃ (ha : a < l.length) (hb : b < l.length), a ≠ b ∧ l[a] = s ∧ l[b] = o := by
  unfold crossingLines
  rw [List.mem_filter, and_comm]
  apply and_congr_right
  intro _
  simp only [List.mem_flatMap, List.mem_map, List.mem_filter, List.mem_zipIdx_iff_getElem?, decide_eq_true_eq,
    Prod.mk.injEq, Prod.exists]
  constructor
  · rintro ⟨x, a, hx, y, b, ⟨hy, hne⟩, rfl, rfl⟩
    obtain ⟨ha, e1⟩ := List.getElem?_eq_some_iff.1 hx
    obtain ⟨hb, e2⟩ := List.getElem?_eq_some_iff.1 hy
    exact ⟨a, b, ha, hb, fun e => hne e.symm, e1, e2⟩
  · rintro ⟨a, b, ha, hb, hne, rfl, rfl⟩
    exact ⟨_, a, List.getElem?_eq_some_iff.2 ⟨ha, rfl⟩, _, b, ⟨List.getElem?_eq_some_iff.2 ⟨hb, rfl⟩, fun e => hne e.symm⟩,
      rfl, rfl⟩

theorem pair_sub {l : List (Seg K)} {s o : Seg K} (hs : s ∈ l) (ho : o ∈ l) :
    ∀ p ∈ [s.i, s.j, o.i, o.j], p ∈ endPts l := by
  intro p hp
  rw [mem_endPts']
  simp only [List.mem_cons, List.not_mem_nil, or_false] at hp
  rcases hp with rfl | rfl | rfl | rfl
  · exact ⟨s, hs, Or.inl rfl⟩
  · exact ⟨s, hs, Or.inr rfl⟩
  · exact ⟨o, ho, Or.inl rfl⟩
  · exact ⟨o, ho, Or.inr rfl⟩

/-- C63: the crossing relation is symmetric and irreflexive on positions: a pair is listed iff it crosses and
stands at two different positions, and then the swapped pair is listed too. -/
theorem C63_crossing {R : Rt K} (hR : R.IsRounding) (l : List (Seg K)) (h : R.HashOK (endPts l)) (s o : Seg K) :
    ((s, o) ∈ R.crossingLines l ↔ R.intersectionOnSegment s o = true ∧
      ∃ a b, ∃ (ha : a < l.length) (hb : b < l.length), a ≠ b ∧ l[a] = s ∧ l[b] = o) ∧
    ((s, o) ∈ R.crossingLines l ↔ (o, s) ∈ R.crossingLines l) := by
  refine ⟨mem_crossingLines R l s o, ?_⟩
  rw [mem_crossingLines, mem_crossingLines]
  have key : ∀ s o : Seg K, (R.intersectionOnSegment s o = true ∧
      ∃ a b, ∃ (ha : a < l.length) (hb : b < l.length), a ≠ b ∧ l[a] = s ∧ l[b] = o) →
      (R.intersectionOnSegment o s = true ∧
      ∃ a b, ∃ (ha : a < l.length) (hb : b < l.length), a ≠ b ∧ l[a] = o ∧ l[b] = s) := by
    rintro s o ⟨h1, a, b, ha, hb, hne, rfl, rfl⟩
    refine ⟨?_, b, a, hb, ha, hne.symm, rfl, rfl⟩
    rw [ios_symm hR _ _ (h.mono (pair_sub (List.getElem_mem hb) (List.getElem_mem ha)))]
    exact h1
  exact ⟨key s o, key o s⟩

/-- C63: `crossing_lines` is empty iff no two different positions cross; `isvalid` is that, continuity and having
a segment. -/
theorem C63_valid (R : Rt K) (l : List (Seg K)) :
    (R.crossingLines l = [] ↔ ∀ a b (ha : a < l.length) (hb : b < l.length), a ≠ b →
      R.intersectionOnSegment l[a] l[b] = false) ∧
    (R.plValid l = true ↔ R.isContinuous l = true ∧ l ≠ [] ∧
      ∀ a b (ha : a < l.length) (hb : b < l.length), a ≠ b → R.intersectionOnSegment l[a] l[b] = false) := by
  have h1 : (R.crossingLines l = [] ↔ ∀ a b (ha : a < l.length) (hb : b < l.length), a ≠ b →
      R.intersectionOnSegment l[a] l[b] = false) := by
    rw [List.eq_nil_iff_forall_not_mem]
    constructor
    · intro h a b ha hb hne
      by_contra hc
      exact h (l[a], l[b]) ((mem_crossingLines R l _ _).2 ⟨by simpa using hc, a, b, ha, hb, hne, rfl, rfl⟩)
    · rintro h ⟨s, o⟩ hm
      obtain ⟨hx, a, b, ha, hb, hne, rfl, rfl⟩ := (mem_crossingLines R l _ _).1 hm
      rw [h a b ha hb hne] at hx
      exact absurd hx (by simp)
  refine ⟨h1, ?_⟩
  unfold plValid
  rw [Bool.and_eq_true, Bool.and_eq_true, decide_eq_true_eq, decide_eq_true_eq, h1, and_assoc]
  apply and_congr_right; intro _
  apply and_congr_left; intro _
  rw [← List.length_pos_iff]
  exact Iff.rfl

theorem touch_shift {R : Rt K} (hE : R.IsExact) {s o s' o' : Seg K} (a b : K)
    (es : s' = ⟨shift s.i a b, shift s.j a b, s.cls⟩) (eo : o' = ⟨shift o.i a b, shift o.j a b, o.cls⟩)
    (h : R.HashOK [s.i, s.j, o.i, o.j]) (h' : R.HashOK [s'.i, s'.j, o'.i, o'.j]) :
    R.touch s' o' = R.touch s o := by
  rw [Bool.eq_iff_iff, touch_iff_distance hE.isRounding h, touch_iff_distance hE.isRounding h', es, eo]
  have hd : ∀ p q : Pt K, R.distance (shift p a b) (shift q a b) = R.distance p q := by
    intro p q
    rw [hE.distance', hE.distance']
    simp only [shift]
    congr 2 <;> ring
  simp [hd]

theorem isContinuous_iff (R : Rt K) (l : List (Seg K)) :
    R.isContinuous l = true ↔ ∀ k (hk : k + 1 < l.length), R.continuous l[k] l[k + 1] = true := by
  unfold isContinuous
  rw [List.all_eq_true]
  constructor
  · intro h k hk
    have := h (l[k], l[k + 1]) (by
      rw [List.mem_iff_getElem]
      exact ⟨k, by simp; omega, by simp⟩)
    exact this
  · intro h p hp
    obtain ⟨k, hk, rfl⟩ := List.getElem_of_mem hp
    rw [List.length_zip, List.length_tail] at hk
    rw [List.getElem_zip, List.getElem_tail]
    exact h k (by omega)

theorem apart_shift {S T : Set (Pt K)} {t a b : K} (h : Apart t S) (hT : ∀ p ∈ T, ∃ q ∈ S, p = shift q a b) :
    Apart t T := by
  intro p hp q hq hne
  obtain ⟨p', hp', rfl⟩ := hT p hp
  obtain ⟨q', hq', rfl⟩ := hT q hq
  have := h p' hp' q' hq' (fun e => hne (by rw [e]))
  have e1 : p'.x + a - (q'.x + a) = p'.x - q'.x := by ring
  have e2 : p'.y + b - (q'.y + b) = p'.y - q'.y := by ring
  simp only [shift, e1, e2]
  exact this

theorem peq_shift {R : Rt K} (hE : R.IsExact) (p q : Pt K) (a b : K) :
    R.peq (shift p a b) (shift q a b) = R.peq p q := by
  rw [Bool.eq_iff_iff, hE.peq_iff, hE.peq_iff]
  have e1 : p.x + a - (q.x + a) = p.x - q.x := by ring
  have e2 : p.y + b - (q.y + b) = p.y - q.y := by ring
  simp only [shift, e1, e2]

/-- a translated segment -/
def shiftSeg (s : Seg K) (a b : K) : Seg K := ⟨shift s.i a b, shift s.j a b, s.cls⟩

theorem continuous_shift {R : Rt K} (hE : R.IsExact) (l : List (Seg K)) (a b : K)
    (hap : Apart (1 / 10 ^ 5) (Ends l)) :
    R.isContinuous (l.map fun s => shiftSeg s a b) = R.isContinuous l ∧
    R.isClosed (l.map fun s => shiftSeg s a b) = R.isClosed l := by
  have hap' : Apart (1 / 10 ^ 5) (Ends (l.map fun s => shiftSeg s a b)) := by
    apply apart_shift hap (a := a) (b := b)
    rintro p ⟨s, hs, h⟩
    obtain ⟨t, ht, rfl⟩ := List.mem_map.1 hs
    rcases h with rfl | rfl
    · exact ⟨t.i, ⟨t, ht, Or.inl rfl⟩, rfl⟩
    · exact ⟨t.j, ⟨t, ht, Or.inr rfl⟩, rfl⟩
  have hR := hE.isRounding
  have hh := (sep_of_Ends hR (l := l) (by rw [hE.tol']; exact hap)).hashOK
  have hh' := (sep_of_Ends hR (l := l.map fun s => shiftSeg s a b) (by rw [hE.tol']; exact hap')).hashOK
  have hc : R.isContinuous (l.map fun s => shiftSeg s a b) = R.isContinuous l := by
    have key : ∀ s ∈ l, ∀ o ∈ l, R.continuous (shiftSeg s a b) (shiftSeg o a b) = R.continuous s o := by
      intro s hs o ho
      unfold Rt.continuous
      have ht : R.touch (shiftSeg s a b) (shiftSeg o a b) = R.touch s o :=
        touch_shift hE a b rfl rfl (hh.mono (pair_sub hs ho))
          (hh'.mono (pair_sub (List.mem_map_of_mem (f := fun s => shiftSeg s a b) hs)
            (List.mem_map_of_mem (f := fun s => shiftSeg s a b) ho)))
      rw [ht]
      show (_ && (R.peq (shift s.j a b) (shift o.i a b) || R.peq (shift s.i a b) (shift o.j a b))) = _
      rw [peq_shift hE, peq_shift hE]
    rw [Bool.eq_iff_iff, isContinuous_iff, isContinuous_iff]
    constructor
    · intro h k hk
      have := h k (by simpa using hk)
      simp only [List.getElem_map] at this
      rwa [key _ (List.getElem_mem _) _ (List.getElem_mem _)] at this
    · intro h k hk
      simp only [List.getElem_map]
      rw [key _ (List.getElem_mem _) _ (List.getElem_mem _)]
      exact h k (by simpa using hk)
  refine ⟨hc, ?_⟩
  unfold isClosed
  rw [hc, List.head?_map, List.getLast?_map]
  split_ifs
  · cases l.head? with
    | none => rfl
    | some x =>
      cases l.getLast? with
      | none => rfl
      | some y =>
        simp only [Option.map_some]
        rw [← peq_shift hE x.i y.j a b]
        rfl
  · rfl

/-- C63: moving a purged polyline with separated points by 8-decimal offsets preserves being continuous and being
closed (exact arithmetic). -/
theorem C63_move {R : Rt K} (hE : R.IsExact) (h : Heap K) (P : PLine) (hp : P.purged = true)
    (hap : Apart R.tol (locs h P.segs)) (hs : SharesPoints h P.segs) (a b : K)
    (hst : ∀ p ∈ locs h P.segs, R.Stored p) (ho : R.Stored ⟨a, b⟩) :
    R.isContinuous ((R.plMove h P a b).1.vals P.segs) = R.isContinuous (h.vals P.segs) ∧
    R.isClosed ((R.plMove h P a b).1.vals P.segs) = R.isClosed (h.vals P.segs) := by
  have hm := C46_move_exact hE h P hp hap hs a b hst ho
  have e : (R.plMove h P a b).1.vals P.segs = (h.vals P.segs).map fun s => shiftSeg s a b := by
    unfold Heap.vals
    rw [List.map_map]
    exact List.map_congr_left hm
  rw [e]
  apply continuous_shift hE
  rw [← hE.tol']
  intro p hp q hq
  apply hap
  · obtain ⟨s, hs, h⟩ := hp
    obtain ⟨t, ht, rfl⟩ := List.mem_map.1 hs
    exact ⟨t, ht, h⟩
  · obtain ⟨s, hs, h⟩ := hq
    obtain ⟨t, ht, rfl⟩ := List.mem_map.1 hs
    exact ⟨t, ht, h⟩

/-- non-vacuity: two crossing segments are listed in both orders -/
example : (exSeg 0 0 2 2, exSeg 0 2 2 0) ∈ exRt.crossingLines [exSeg 0 0 2 2, exSeg 0 2 2 0] ∧
    exRt.HashOK (endPts [exSeg 0 0 2 2, exSeg 0 2 2 0]) := by
  unfold HashOK
  decide +kernel

/-! ### C51 -/

/-- the same closed path traversed backwards -/
def revPath (l : List (Seg K)) : List (Seg K) := (l.map Seg.reversed).reverse

theorem revPath_length (l : List (Seg K)) : (revPath l).length = l.length := by simp [revPath]

theorem revPath_get (l : List (Seg K)) (k : ℕ) (hk : k < (revPath l).length) :
    (revPath l)[k] = (l[l.length - 1 - k]'(by rw [revPath_length] at hk; omega)).reversed := by
  simp [revPath]

theorem cps_length (R : Rt K) (l : List (Seg K)) : (R.cps l).length = l.length := by
  unfold cps
  rw [List.length_zipWith, List.length_append, List.length_tail, List.length_take]
  cases l with
  | nil => rfl
  | cons a l => simp

/-- `cps`: the cross product of each segment with the cyclically next one -/
theorem cps_get (R : Rt K) (l : List (Seg K)) (k : ℕ) (hk : k < l.length) :
    (R.cps l)[k]'(by rw [cps_length]; exact hk) =
      R.cross l[k] (l[(k + 1) % l.length]'(Nat.mod_lt _ (by omega))) := by
  unfold cps
  rw [List.getElem_zipWith]
  congr 1
  rcases Nat.lt_or_ge (k + 1) l.length with h | h
  · rw [List.getElem_append_left (by rw [List.length_tail]; omega), List.getElem_tail]
    simp only [Nat.mod_eq_of_lt h]
  · have e : k + 1 = l.length := by omega
    rw [List.getElem_append_right (by rw [List.length_tail]; omega)]
    have e' : (k + 1) % l.length = 0 := by rw [e, Nat.mod_self]
    simp only [e', List.getElem_take, List.length_tail]
    congr 1
    omega

/-- C51: traversing a closed polygon backwards negates the cross product at every vertex. -/
theorem C51_reverse_cps {R : Rt K} (hR : R.IsRounding) (l : List (Seg K)) (k : ℕ) (hk : k < l.length) :
    (R.cps (revPath l))[k]'(by rw [cps_length, revPath_length]; exact hk) =
      -(R.cps l)[(2 * l.length - 2 - k) % l.length]'(by rw [cps_length]; exact Nat.mod_lt _ (by omega)) := by
  rw [cps_get _ _ _ (by rw [revPath_length]; exact hk), revPath_get, revPath_get]
  rw [cps_get _ _ _ (Nat.mod_lt _ (by omega))]
  have h2 : ∀ s o : Seg K, R.cross s.reversed o.reversed = -R.cross o s := by
    intro s o
    rw [(C09_reverse hR s o.reversed).1, (C09_reverse hR s o).2.1, neg_neg, C09_cross_antisymm hR]
  rw [h2]
  have key : ∀ a b c d (ha : a < l.length) (hb : b < l.length) (hc : c < l.length) (hd : d < l.length),
      a = c → b = d → R.cross l[a] l[b] = R.cross l[c] l[d] := by
    rintro a b c d ha hb hc hd rfl rfl; rfl
  congr 1
  apply key
  · rw [revPath_length]
    rcases Nat.lt_or_ge (k + 1) l.length with h | h
    · rw [Nat.mod_eq_of_lt h, show 2 * l.length - 2 - k = (l.length - 1 - (k + 1)) + l.length by omega,
        Nat.add_mod_right, Nat.mod_eq_of_lt (by omega)]
    · have e : k + 1 = l.length := by omega
      rw [e, Nat.mod_self, show 2 * l.length - 2 - k = l.length - 1 by omega, Nat.mod_eq_of_lt (by omega)]
      omega
  · rcases Nat.lt_or_ge (k + 1) l.length with h | h
    · rw [show 2 * l.length - 2 - k = (l.length - 1 - (k + 1)) + l.length by omega,
        Nat.add_mod_right, Nat.mod_eq_of_lt (by omega : l.length - 1 - (k + 1) < l.length),
        Nat.mod_eq_of_lt (by omega)]
      omega
    · rw [show 2 * l.length - 2 - k = l.length - 1 by omega,
        Nat.mod_eq_of_lt (by omega : l.length - 1 < l.length), show l.length - 1 + 1 = l.length by omega,
        Nat.mod_self]
      omega

/-- the cross products backwards are, up to order, the negated ones -/
theorem cps_rev_perm {R : Rt K} (hR : R.IsRounding) (l : List (Seg K)) :
    (R.cps (revPath l)).Perm ((R.cps l).map Neg.neg) := by
  -- reversing and rotating
  have e : R.cps (revPath l) = (((R.cps l).map Neg.neg).rotate (l.length - 1)).reverse := by
    apply List.ext_getElem
    · simp [cps_length, revPath_length]
    · intro k h1 h2
      rw [cps_length, revPath_length] at h1
      rw [C51_reverse_cps hR l k h1, List.getElem_reverse, List.getElem_rotate, List.getElem_map]
      congr 1
      simp only [List.length_rotate, List.length_map, cps_length]
      congr 1
      congr 1
      omega
  rw [e]
  exact (List.reverse_perm _).trans (List.rotate_perm _ _)

/-- C51: `isconvex` of a valid polygon says that the cross products of consecutive segments all are ≥ 0 or all are
≤ 0; an invalid one is an AssertionError. -/
theorem C51_convex (R : Rt K) (l : List (Seg K)) :
    (R.plValid l = false → R.isConvex l = .error .assertion) ∧
    (R.plValid l = true → ∃ c, R.isConvex l = .ok c ∧
      (c = true ↔ (∀ x ∈ R.cps l, 0 ≤ x) ∨ ∀ x ∈ R.cps l, x ≤ 0)) := by
  unfold isConvex
  constructor
  · intro h; rw [h]; rfl
  · intro h
    rw [h]
    exact ⟨_, rfl, by simp [List.all_eq_true]⟩

/-- C51: `isccw` is the negation of `iscw` and fails exactly with it. -/
theorem C51_ccw (R : Rt K) (l : List (Seg K)) :
    (∀ b, R.isCw l = .ok b ↔ R.isCcw l = .ok (!b)) ∧ (∀ e, R.isCw l = .error e ↔ R.isCcw l = .error e) := by
  unfold isCcw
  cases R.isCw l with
  | error e => simp [Except.map]
  | ok c => simp [Except.map]

/-- C11: reversing either segment leaves the intersection point unchanged, bit for bit. -/
theorem C11_reverse {R : Rt K} (hR : R.IsRounding) (s o : Seg K) :
    R.intersectionPoint s.reversed o = R.intersectionPoint s o ∧
    R.intersectionPoint s o.reversed = R.intersectionPoint s o := by
  have key : ∀ s o : Seg K, R.intersectionPoint s.reversed o = R.intersectionPoint s o := by
    intro s o
    unfold Rt.intersectionPoint
    rw [(C10_laws hR s o).2.2.1]
    have hneg : ∀ a b : K, R.mul (-a) b = -R.mul a b := fun a b => neg_mul' hR a b
    have hsub : ∀ a b : K, R.sub (-a) (-b) = -R.sub a b := by
      intro a b; unfold Rt.sub; rw [← hR.neg]; congr 1; ring
    have e1 : R.sub s.j.x s.i.x = -R.sub s.i.x s.j.x := hR.sub_neg _ _
    have e2 : R.sub s.j.y s.i.y = -R.sub s.i.y s.j.y := hR.sub_neg _ _
    have e3 : R.sub (R.mul s.j.x s.i.y) (R.mul s.j.y s.i.x) = -R.sub (R.mul s.i.x s.j.y) (R.mul s.i.y s.j.x) := by
      rw [hR.sub_neg, mul_comm' R s.j.x, mul_comm' R s.j.y]
    have hd : R.ipDen s.reversed o = -R.ipDen s o := by
      unfold Rt.ipDen Seg.reversed
      simp only [e1, e2, hneg, hsub]
    have hx : R.ipNumX s.reversed o = -R.ipNumX s o := by
      unfold Rt.ipNumX Seg.reversed
      simp only [e1, e3, hneg, hsub]
    have hy : R.ipNumY s.reversed o = -R.ipNumY s o := by
      unfold Rt.ipNumY Seg.reversed
      simp only [e2, e3, hneg, hsub]
    simp only [hd, hx, hy, Rt.div, neg_div_neg_eq]
  have sy : ∀ s o : Seg K, R.intersectionPoint s o = R.intersectionPoint o s := by
    intro s o
    have hp := C11_symm hR s o
    rw [C11_total hR, C11_total hR] at hp
    simpa using hp
  exact ⟨key s o, by rw [sy, key, sy]⟩

theorem ios_reverse {R : Rt K} (hR : R.IsRounding) (s o : Seg K) (h : R.HashOK [s.i, s.j, o.i, o.j]) :
    R.intersectionOnSegment s.reversed o.reversed = R.intersectionOnSegment s o := by
  unfold Rt.intersectionOnSegment
  rw [(C11_reverse hR s o.reversed).1, (C11_reverse hR s o).2]
  have ht : R.touch s.reversed o.reversed = R.touch s o := by
    rw [(C16_symm hR s o.reversed (h.mono (by simp [Seg.reversed]))).2.1, (C16_symm hR s o h).2.2]
  rw [ht]
  simp only [C14_reverse]

theorem mem_revPath (l : List (Seg K)) (s : Seg K) : s ∈ revPath l ↔ s.reversed ∈ l := by
  unfold revPath
  rw [List.mem_reverse, List.mem_map]
  constructor
  · rintro ⟨t, ht, rfl⟩; exact ht
  · intro h; exact ⟨_, h, rfl⟩

/-- a polyline is valid iff it is valid traversed backwards -/
theorem plValid_rev {R : Rt K} (hR : R.IsRounding) (l : List (Seg K)) (hh : R.HashOK (endPts l)) :
    R.plValid (revPath l) = R.plValid l := by
  have hpair : ∀ a b (ha : a < l.length) (hb : b < l.length), R.HashOK [l[a].i, l[a].j, l[b].i, l[b].j] :=
    fun a b ha hb => hh.mono (pair_sub (List.getElem_mem ha) (List.getElem_mem hb))
  have hc : R.isContinuous (revPath l) = true ↔ R.isContinuous l = true := by
    have key : ∀ a b (ha : a < l.length) (hb : b < l.length),
        R.continuous l[a].reversed l[b].reversed = R.continuous l[b] l[a] := by
      intro a b ha hb
      unfold Rt.continuous
      have h := hpair a b ha hb
      rw [(C16_symm hR l[a] l[b].reversed (h.mono (by simp [Seg.reversed]))).2.1, (C16_symm hR _ _ h).2.2,
        (C16_symm hR _ _ h).1]
      simp only [Seg.reversed]
      rw [hR.peq_comm l[a].i, hR.peq_comm l[a].j]
    rw [isContinuous_iff, isContinuous_iff]
    constructor
    · intro h k hk
      have := h (l.length - 2 - k) (by rw [revPath_length]; omega)
      rw [revPath_get, revPath_get, key] at this
      have e1 : l.length - 1 - (l.length - 2 - k) = k + 1 := by omega
      have e2 : l.length - 1 - (l.length - 2 - k + 1) = k := by omega
      simpa only [e1, e2] using this
    · intro h k hk
      rw [revPath_length] at hk
      rw [revPath_get, revPath_get, key]
      have := h (l.length - 2 - k) (by omega)
      have e1 : l.length - 1 - k = l.length - 2 - k + 1 := by omega
      have e2 : l.length - 1 - (k + 1) = l.length - 2 - k := by omega
      simpa only [e1, e2] using this
  rw [Bool.eq_iff_iff, (C63_valid R _).2, (C63_valid R _).2, hc]
  apply and_congr_right
  intro _
  apply and_congr
  · unfold revPath; simp
  · constructor
    · intro h a b ha hb hne
      have := h (l.length - 1 - a) (l.length - 1 - b) (by rw [revPath_length]; omega)
        (by rw [revPath_length]; omega) (by omega)
      rw [revPath_get, revPath_get, ios_reverse hR _ _ (hpair _ _ _ _)] at this
      have e1 : l.length - 1 - (l.length - 1 - a) = a := by omega
      have e2 : l.length - 1 - (l.length - 1 - b) = b := by omega
      simpa only [e1, e2] using this
    · intro h a b ha hb hne
      rw [revPath_length] at ha hb
      rw [revPath_get, revPath_get, ios_reverse hR _ _ (hpair _ _ _ _)]
      exact h _ _ _ _ (by omega)

theorem psum_bounds {R : Rt K} (hR : R.IsRounding) (l : List K) (hf : ∀ x ∈ l, R.fl x = x) :
    ∀ a : K, R.fl a = a →
      ((∀ x ∈ l, 0 ≤ x) → 0 ≤ a → a ≤ l.foldl R.add a ∧ ∀ x ∈ l, x ≤ l.foldl R.add a) ∧
      ((∀ x ∈ l, x ≤ 0) → a ≤ 0 → l.foldl R.add a ≤ 0) := by
  induction l with
  | nil => intro a _; simp
  | cons y l ih =>
    intro a ha
    have hy := hf y (by simp)
    have ih' := ih (fun x hx => hf x (by simp [hx])) (R.add a y) (hR.idem _)
    constructor
    · intro h h0
      have hy0 := h y (by simp)
      have h1 : a ≤ R.add a y := by
        unfold Rt.add
        calc a = R.fl a := ha.symm
          _ ≤ _ := hR.mono (by linarith)
      have h2 : y ≤ R.add a y := by
        unfold Rt.add
        calc y = R.fl y := hy.symm
          _ ≤ _ := hR.mono (by linarith)
      obtain ⟨h3, h4⟩ := ih'.1 (fun x hx => h x (by simp [hx])) (h0.trans h1)
      refine ⟨h1.trans h3, ?_⟩
      intro x hx
      rcases List.mem_cons.1 hx with rfl | hx
      · exact h2.trans h3
      · exact h4 x hx
    · intro h h0
      have hy0 := h y (by simp)
      apply ih'.2 (fun x hx => h x (by simp [hx]))
      unfold Rt.add
      rw [← hR.zero]
      exact hR.mono (by linarith)

theorem cps_fl {R : Rt K} (hR : R.IsRounding) (l : List (Seg K)) : ∀ x ∈ R.cps l, R.fl x = x := by
  intro x hx
  obtain ⟨k, hk, rfl⟩ := List.getElem_of_mem hx
  rw [cps_length] at hk
  rw [cps_get _ _ _ hk]
  exact hR.idem _

/-- C51: for a valid convex polygon, `iscw` is false exactly when some cross product of consecutive segments is
positive (any correctly rounded arithmetic). -/
theorem C51_cw_convex {R : Rt K} (hR : R.IsRounding) (l : List (Seg K)) (h : R.isConvex l = .ok true) :
    ∃ b, R.isCw l = .ok b ∧ (b = false ↔ ∃ x ∈ R.cps l, 0 < x) := by
  unfold isCw
  rw [h]
  refine ⟨_, rfl, ?_⟩
  have hb := psum_bounds hR (R.cps l) (cps_fl hR l) 0 hR.zero
  have hv : R.plValid l = true := by
    by_contra hc
    rw [(C51_convex R l).1 (by simpa using hc)] at h
    simp at h
  obtain ⟨c, hc, hcc⟩ := (C51_convex R l).2 hv
  rw [h] at hc
  simp only [Except.ok.injEq] at hc
  simp only [Bool.not_eq_false', decide_eq_true_eq]
  rcases hcc.1 hc.symm with h0 | h0
  · obtain ⟨h1, h2⟩ := hb.1 h0 le_rfl
    constructor
    · intro hp
      by_contra hx
      push Not at hx
      exact absurd (hb.2 hx le_rfl) (not_le.2 hp)
    · rintro ⟨x, hx, hp⟩
      exact hp.trans_le (h2 x hx)
  · constructor
    · intro hp
      exact absurd (hb.2 h0 le_rfl) (not_le.2 hp)
    · rintro ⟨x, hx, hp⟩
      exact absurd (h0 x hx) (not_le.2 hp)

/-- C51: `iscw` of the polygon traversed backwards is the negation of `iscw`, and raises exactly when it raises: for
every polyline in which some turn is not straight (no convexity needed), in any correctly rounded arithmetic. -/
theorem C51_flip {R : Rt K} (hR : R.IsRounding) (l : List (Seg K)) (hh : R.HashOK (endPts l))
    (hx : ∃ x ∈ R.cps l, x ≠ 0) :
    R.isCw (revPath l) = (R.isCw l).map not := by
  have hperm := cps_rev_perm hR l
  have hm : ∀ x, x ∈ R.cps (revPath l) ↔ -x ∈ R.cps l := by
    intro x
    rw [hperm.mem_iff, List.mem_map]
    constructor
    · rintro ⟨y, hy, rfl⟩; rwa [neg_neg]
    · intro h; exact ⟨_, h, neg_neg x⟩
  have hv := plValid_rev hR l hh
  by_cases hval : R.plValid l = true
  · have hcv : R.isConvex (revPath l) = R.isConvex l := by
      obtain ⟨c, h1, h2⟩ := (C51_convex R l).2 hval
      obtain ⟨c', h1', h2'⟩ := (C51_convex R _).2 (hv.trans hval)
      rw [h1, h1']
      have : c' = c := by
        rw [Bool.eq_iff_iff, h2, h2', or_comm]
        apply or_congr
        · constructor
          · intro h x hx; have := h (-x) ((hm _).2 (by rwa [neg_neg])); linarith
          · intro h x hx; have := h (-x) ((hm _).1 hx); linarith
        · constructor
          · intro h x hx; have := h (-x) ((hm _).2 (by rwa [neg_neg])); linarith
          · intro h x hx; have := h (-x) ((hm _).1 hx); linarith
      rw [this]
    obtain ⟨c, h1, h2⟩ := (C51_convex R l).2 hval
    cases c with
    | true =>
      obtain ⟨b, hb, hb'⟩ := C51_cw_convex hR l h1
      obtain ⟨b', hc, hc'⟩ := C51_cw_convex hR (revPath l) (hcv.trans h1)
      rw [hb, hc]
      show _ = Except.ok (!b)
      obtain ⟨x, hxm, hx0⟩ := hx
      congr 1
      rcases h2.1 rfl with h0 | h0
      · have e1 : b = false := hb'.2 ⟨x, hxm, lt_of_le_of_ne (h0 x hxm) (Ne.symm hx0)⟩
        have e2 : b' = true := by
          by_contra hb
          obtain ⟨y, hy, hy0⟩ := hc'.1 (by simpa using hb)
          have := h0 _ ((hm y).1 hy)
          linarith
        rw [e1, e2]; rfl
      · have e1 : b = true := by
          by_contra hb
          obtain ⟨y, hy, hy0⟩ := hb'.1 (by simpa using hb)
          exact absurd (h0 y hy) (not_le.2 hy0)
        have e2 : b' = false := by
          refine hc'.2 ⟨-x, (hm _).2 (by rwa [neg_neg]), ?_⟩
          have := lt_of_le_of_ne (h0 x hxm) hx0
          linarith
        rw [e1, e2]; rfl
    | false =>
      have p1 : ((R.cps (revPath l)).filter fun x => decide (0 ≤ x)).length =
          ((R.cps l).filter fun x => decide (x ≤ 0)).length := by
        rw [(hperm.filter _).length_eq, List.filter_map, List.length_map]
        congr 2
        funext x
        simp
      have p2 : ((R.cps (revPath l)).filter fun x => decide (x ≤ 0)).length =
          ((R.cps l).filter fun x => decide (0 ≤ x)).length := by
        rw [(hperm.filter _).length_eq, List.filter_map, List.length_map]
        congr 2
        funext x
        simp
      unfold isCw
      rw [hcv, h1]
      simp only [p1, p2]
      split_ifs <;> first | rfl | omega
  · have h1 := (C51_convex R l).1 (by simpa using hval)
    have h2 := (C51_convex R _).1 (hv.trans (by simpa using hval))
    unfold isCw
    rw [h1, h2]
    rfl

/-- the counter-clockwise unit square -/
def exSquare : List (Seg ℚ) := [exSeg 0 0 1 0, exSeg 1 0 1 1, exSeg 1 1 0 1, exSeg 0 1 0 0]

/-- non-vacuity of C51 -/
example : exRt.isConvex exSquare = .ok true ∧ (∃ x ∈ exRt.cps exSquare, x ≠ 0) ∧ exRt.HashOK (endPts exSquare) ∧
    exRt.isCw exSquare = .ok false ∧ exRt.isCw (revPath exSquare) = .ok true := by
  unfold HashOK
  decide +kernel

/-! ### C52 -/

/-- twice the signed area of the closed path -/
def area2 (l : List (Seg K)) : K := (l.map fun s => s.i.x * s.j.y - s.j.x * s.i.y).sum

/-- C52 (the documented meaning fails): two valid, closed, non-self-intersecting polygons of positive signed area,
hence counter-clockwise; `iscw` says clockwise for the first and raises for the second. -/
theorem C52_wrong :
    (∃ l : List (Seg ℚ), exRt.plValid l = true ∧ ClosedChain l ∧ exRt.isClosed l = .ok true ∧ 0 < area2 l ∧
      exRt.isCw l = .ok true) ∧
    (∃ l : List (Seg ℚ), exRt.plValid l = true ∧ ClosedChain l ∧ exRt.isClosed l = .ok true ∧ 0 < area2 l ∧
      exRt.isCw l = .error .generic) := by
  refine ⟨⟨[exSeg 0 0 10 0, exSeg 10 0 5 1, exSeg 5 1 3 2, exSeg 3 2 2 3, exSeg 2 3 1 5, exSeg 1 5 0 10,
      exSeg 0 10 0 0], ?_⟩,
    ⟨[exSeg 0 0 10 0, exSeg 10 0 4 1, exSeg 4 1 2 2, exSeg 2 2 1 4, exSeg 1 4 0 10, exSeg 0 10 0 0], ?_⟩⟩
  · unfold ClosedChain area2
    decide +kernel
  · unfold ClosedChain area2
    decide +kernel

/-- C52: what `iscw` of a valid non-convex polygon computes: it compares how many turns are ≥ 0 and how many
are ≤ 0; equal numbers are an exception. -/
theorem C52_spec (R : Rt K) (l : List (Seg K)) (h : R.isConvex l = .ok false) :
    (R.isCw l = .ok true ↔
      (R.cps l).countP (fun x => decide (0 ≤ x)) < (R.cps l).countP fun x => decide (x ≤ 0)) ∧
    (R.isCw l = .ok false ↔
      (R.cps l).countP (fun x => decide (x ≤ 0)) < (R.cps l).countP fun x => decide (0 ≤ x)) ∧
    (R.isCw l = .error .generic ↔
      (R.cps l).countP (fun x => decide (x ≤ 0)) = (R.cps l).countP fun x => decide (0 ≤ x)) := by
  unfold isCw
  rw [h]
  simp only [List.countP_eq_length_filter]
  refine ⟨?_, ?_, ?_⟩ <;> split_ifs <;> simp <;> omega

end Srep
