import Verif.Props.Build
import Verif.Props.LineC

/-! Properties of polylines as values: bounding box, equality, search, outliers. -/

set_option linter.unusedSectionVars false

namespace Srep
open Rt
variable {K : Type} [Field K] [LinearOrder K] [IsStrictOrderedRing K] [FloorRing K]

/-- the endpoint locations of a list of segments -/
def Ends (l : List (Seg K)) : Set (Pt K) := {p | ∃ s ∈ l, p = s.i ∨ p = s.j}

theorem mem_endPts' {l : List (Seg K)} {p : Pt K} : p ∈ endPts l ↔ p ∈ Ends l := by
  unfold endPts Ends
  simp only [List.mem_flatMap, List.mem_cons, List.not_mem_nil, or_false]
  rfl

theorem sep_of_Ends {R : Rt K} (hR : R.IsRounding) {l : List (Seg K)} (h : Apart R.tol (Ends l)) :
    R.Sep (endPts l) := by
  apply sep_of_apart hR
  have : {p | p ∈ endPts l} = Ends l := by ext p; exact mem_endPts'
  rw [this]; exact h

/-! ### C39 -/

/-- what a bounding box with the start value 1e11 should be: the interval of one coordinate -/
def BoxAxis (f : Pt K → K) (l : List (Seg K)) (b : K × K) : Prop :=
  (∀ p ∈ Ends l, b.1 ≤ f p ∧ f p ≤ b.2) ∧ b.1 ≤ 10 ^ 11 ∧ -10 ^ 11 ≤ b.2 ∧
  (b.1 = 10 ^ 11 ∨ ∃ p ∈ Ends l, f p = b.1) ∧ (b.2 = -10 ^ 11 ∨ ∃ p ∈ Ends l, f p = b.2)

theorem Ends_append (l : List (Seg K)) (s : Seg K) :
    Ends (l ++ [s]) = {p | p ∈ Ends l ∨ p = s.i ∨ p = s.j} := by
  ext p
  simp only [Ends, List.mem_append, List.mem_singleton]
  constructor
  · rintro ⟨t, ht | rfl, h⟩
    · exact Or.inl ⟨t, ht, h⟩
    · exact Or.inr h
  · rintro (⟨t, ht, h⟩ | h)
    · exact ⟨t, Or.inl ht, h⟩
    · exact ⟨s, Or.inr rfl, h⟩

theorem boxAxis_step (f : Pt K → K) (l : List (Seg K)) (s : Seg K) (b : K × K) (h : BoxAxis f l b) :
    BoxAxis f (l ++ [s]) (min b.1 (min (f s.i) (f s.j)), max b.2 (max (f s.i) (f s.j))) := by
  obtain ⟨h1, h2, h3, h4, h5⟩ := h
  unfold BoxAxis
  rw [Ends_append]
  refine ⟨?_, le_trans (min_le_left _ _) h2, le_trans h3 (le_max_left _ _), ?_, ?_⟩
  · rintro p (hp | rfl | rfl)
    · exact ⟨le_trans (min_le_left _ _) (h1 p hp).1, le_trans (h1 p hp).2 (le_max_left _ _)⟩
    · exact ⟨le_trans (min_le_right _ _) (min_le_left _ _), le_trans (le_max_left _ _) (le_max_right _ _)⟩
    · exact ⟨le_trans (min_le_right _ _) (min_le_right _ _), le_trans (le_max_right _ _) (le_max_right _ _)⟩
  · show min b.1 (min (f s.i) (f s.j)) = _ ∨ ∃ p, _ ∧ f p = min b.1 (min (f s.i) (f s.j))
    rcases min_choice b.1 (min (f s.i) (f s.j)) with e | e
    · rw [e]
      rcases h4 with h4 | ⟨p, hp, h4⟩
      · exact Or.inl h4
      · exact Or.inr ⟨p, Or.inl hp, h4⟩
    · rw [e]
      rcases min_choice (f s.i) (f s.j) with e' | e' <;> rw [e']
      · exact Or.inr ⟨s.i, Or.inr (Or.inl rfl), rfl⟩
      · exact Or.inr ⟨s.j, Or.inr (Or.inr rfl), rfl⟩
  · show max b.2 (max (f s.i) (f s.j)) = _ ∨ ∃ p, _ ∧ f p = max b.2 (max (f s.i) (f s.j))
    rcases max_choice b.2 (max (f s.i) (f s.j)) with e | e
    · rw [e]
      rcases h5 with h5 | ⟨p, hp, h5⟩
      · exact Or.inl h5
      · exact Or.inr ⟨p, Or.inl hp, h5⟩
    · rw [e]
      rcases max_choice (f s.i) (f s.j) with e' | e' <;> rw [e']
      · exact Or.inr ⟨s.i, Or.inr (Or.inl rfl), rfl⟩
      · exact Or.inr ⟨s.j, Or.inr (Or.inr rfl), rfl⟩

/-- C39, all polylines: each bound is either attained by an endpoint or the start value ±1e11, and bounds all
endpoints. -/
theorem C39_general (l : List (Seg K)) :
    BoxAxis Pt.x l (boundingBox l).1 ∧ BoxAxis Pt.y l (boundingBox l).2 := by
  induction l using List.reverseRecOn with
  | nil =>
    have : ∀ f : Pt K → K, BoxAxis f [] ((10 ^ 11 : K), -10 ^ 11) := by
      intro f
      refine ⟨?_, le_rfl, le_rfl, Or.inl rfl, Or.inl rfl⟩
      rintro p ⟨s, hs, -⟩
      simp at hs
    exact ⟨this _, this _⟩
  | append_singleton l s ih =>
    unfold boundingBox at ih ⊢
    rw [List.foldl_append]
    exact ⟨boxAxis_step _ _ _ _ ih.1, boxAxis_step _ _ _ _ ih.2⟩

/-- the interval spanned by one coordinate of the endpoints -/
def Spans (f : Pt K → K) (l : List (Seg K)) (b : K × K) : Prop :=
  (∀ p ∈ Ends l, b.1 ≤ f p ∧ f p ≤ b.2) ∧ (∃ p ∈ Ends l, f p = b.1) ∧ ∃ p ∈ Ends l, f p = b.2

theorem spans_of_boxAxis (f : Pt K → K) (l : List (Seg K)) (b : K × K) (hne : l ≠ [])
    (hb : ∀ p ∈ Ends l, -10 ^ 11 ≤ f p ∧ f p ≤ 10 ^ 11) (h : BoxAxis f l b) : Spans f l b := by
  obtain ⟨h1, h2, h3, h4, h5⟩ := h
  obtain ⟨a, l', rfl⟩ := List.exists_cons_of_ne_nil hne
  have ha : a.i ∈ Ends (a :: l') := ⟨a, by simp, Or.inl rfl⟩
  refine ⟨h1, ?_, ?_⟩
  · rcases h4 with h4 | h4
    · exact ⟨a.i, ha, le_antisymm (by rw [h4]; exact (hb _ ha).2) (h1 _ ha).1⟩
    · exact h4
  · rcases h5 with h5 | h5
    · exact ⟨a.i, ha, le_antisymm (h1 _ ha).2 (by rw [h5]; exact (hb _ ha).1)⟩
    · exact h5

/-- C39: for coordinates within 1e11 of zero the box is exactly the range of the endpoint coordinates. -/
theorem C39_box (l : List (Seg K)) (hne : l ≠ [])
    (hb : ∀ p ∈ Ends l, |p.x| ≤ 10 ^ 11 ∧ |p.y| ≤ 10 ^ 11) :
    Spans Pt.x l (boundingBox l).1 ∧ Spans Pt.y l (boundingBox l).2 :=
  ⟨spans_of_boxAxis _ _ _ hne (fun p hp => abs_le.1 (hb p hp).1) (C39_general l).1,
    spans_of_boxAxis _ _ _ hne (fun p hp => abs_le.1 (hb p hp).2) (C39_general l).2⟩

/-- a convex-set consequence: every point of every segment is inside the box -/
theorem C39_contains (l : List (Seg K)) (s : Seg K) (hs : s ∈ l) (q : Pt K) (hq : OnSeg s q) :
    (boundingBox l).1.1 ≤ q.x ∧ q.x ≤ (boundingBox l).1.2 ∧
    (boundingBox l).2.1 ≤ q.y ∧ q.y ≤ (boundingBox l).2.2 := by
  obtain ⟨t, h0, h1, rfl⟩ := hq
  obtain ⟨⟨hx, -⟩, ⟨hy, -⟩⟩ := C39_general l
  have key : ∀ a b u v : K, u ≤ a ∧ a ≤ v → u ≤ b ∧ b ≤ v → u ≤ a + t * (b - a) ∧ a + t * (b - a) ≤ v := by
    intro a b u v ha hb
    have e : a + t * (b - a) = (1 - t) * a + t * b := by ring
    rw [e]
    have h1' : 0 ≤ 1 - t := by linarith
    have p1 := mul_le_mul_of_nonneg_left ha.1 h1'
    have p2 := mul_le_mul_of_nonneg_left ha.2 h1'
    have p3 := mul_le_mul_of_nonneg_left hb.1 h0
    have p4 := mul_le_mul_of_nonneg_left hb.2 h0
    constructor
    · linarith
    · linarith
  obtain ⟨a1, a2⟩ := key _ _ _ _ (hx s.i ⟨s, hs, Or.inl rfl⟩) (hx s.j ⟨s, hs, Or.inr rfl⟩)
  obtain ⟨b1, b2⟩ := key _ _ _ _ (hy s.i ⟨s, hs, Or.inl rfl⟩) (hy s.j ⟨s, hs, Or.inr rfl⟩)
  exact ⟨a1, a2, b1, b2⟩

/-- C39: entirely beyond 1e11 the start value leaks: the lower bound is 1e11 and no endpoint attains it. -/
theorem C39_sentinel (l : List (Seg K)) (h : ∀ p ∈ Ends l, 10 ^ 11 < p.x) :
    (boundingBox l).1.1 = 10 ^ 11 ∧ ∀ p ∈ Ends l, p.x ≠ (boundingBox l).1.1 := by
  have key : (boundingBox l).1.1 = 10 ^ 11 := by
    obtain ⟨⟨h1, h2, h3, h4, h5⟩, -⟩ := C39_general l
    rcases h4 with h4 | ⟨p, hp, h4⟩
    · exact h4
    · have := h p hp
      rw [h4] at this
      exact absurd h2 (not_le.2 this)
  exact ⟨key, fun p hp e => absurd (h p hp) (by rw [e, key]; exact lt_irrefl _)⟩

example : (∀ p ∈ Ends [exSeg 0 0 4 1, exSeg 4 1 2 7], |p.x| ≤ 10 ^ 11 ∧ |p.y| ≤ 10 ^ 11) ∧
    boundingBox [exSeg 0 0 4 1, exSeg 4 1 2 7] = ((0, 4), (0, 7)) := by
  refine ⟨?_, by decide +kernel⟩
  intro p hp
  rw [← mem_endPts'] at hp
  revert p
  decide +kernel
example : ∀ p ∈ Ends [exSeg (2 * 10 ^ 11) 0 (3 * 10 ^ 11) 1], 10 ^ 11 < p.x := by
  intro p hp
  rw [← mem_endPts'] at hp
  revert p
  decide +kernel

/-! ### C40 -/

theorem spans_unique {f : Pt K → K} {l : List (Seg K)} {b c : K × K} (hb : Spans f l b) (hc : Spans f l c) :
    b = c := by
  obtain ⟨b1, ⟨p, hp, b2⟩, ⟨q, hq, b3⟩⟩ := hb
  obtain ⟨c1, ⟨p', hp', c2⟩, ⟨q', hq', c3⟩⟩ := hc
  refine Prod.ext (le_antisymm ?_ ?_) (le_antisymm ?_ ?_)
  · rw [← c2]; exact (b1 _ hp').1
  · rw [← b2]; exact (c1 _ hp).1
  · rw [← b3]; exact (c1 _ hq).2
  · rw [← c3]; exact (b1 _ hq').2

/-- C40: exact arithmetic, 8-decimal offsets, coordinates within 1e11 before and after: the bounding box of the
moved polyline is the moved bounding box. -/
theorem C40_move_box {R : Rt K} (hE : R.IsExact) (h : Heap K) (P : PLine) (hp : P.purged = true)
    (hne : P.segs ≠ []) (hap : Apart R.tol (locs h P.segs)) (hs : SharesPoints h P.segs) (a b : K)
    (hst : ∀ p ∈ locs h P.segs, R.Stored p) (ho : R.Stored ⟨a, b⟩)
    (hb : ∀ p ∈ locs h P.segs, |p.x| ≤ 10 ^ 11 ∧ |p.y| ≤ 10 ^ 11 ∧ |p.x + a| ≤ 10 ^ 11 ∧ |p.y + b| ≤ 10 ^ 11) :
    boundingBox ((R.plMove h P a b).1.vals P.segs) =
      (((boundingBox (h.vals P.segs)).1.1 + a, (boundingBox (h.vals P.segs)).1.2 + a),
        ((boundingBox (h.vals P.segs)).2.1 + b, (boundingBox (h.vals P.segs)).2.2 + b)) := by
  have hm := C46_move_exact hE h P hp hap hs a b hst ho
  have hE1 : ∀ p, p ∈ Ends (h.vals P.segs) ↔ p ∈ locs h P.segs := by
    intro p; simp only [Ends, locs, Heap.vals, List.mem_map]
    constructor
    · rintro ⟨s, ⟨t, ht, rfl⟩, h⟩; exact ⟨t, ht, h⟩
    · rintro ⟨t, ht, h⟩; exact ⟨_, ⟨t, ht, rfl⟩, h⟩
  have hE2 : ∀ p, p ∈ Ends ((R.plMove h P a b).1.vals P.segs) ↔ ∃ q ∈ locs h P.segs, p = shift q a b := by
    intro p; simp only [Ends, locs, Heap.vals, List.mem_map]
    constructor
    · rintro ⟨s, ⟨t, ht, rfl⟩, h⟩
      rw [hm t ht] at h
      rcases h with h | h
      · exact ⟨_, ⟨t, ht, Or.inl rfl⟩, h⟩
      · exact ⟨_, ⟨t, ht, Or.inr rfl⟩, h⟩
    · rintro ⟨q, ⟨t, ht, hq⟩, rfl⟩
      refine ⟨_, ⟨t, ht, rfl⟩, ?_⟩
      rw [hm t ht]
      rcases hq with rfl | rfl
      · exact Or.inl rfl
      · exact Or.inr rfl
  have hv : h.vals P.segs ≠ [] := by simpa [Heap.vals] using hne
  have hv2 : (R.plMove h P a b).1.vals P.segs ≠ [] := by simpa [Heap.vals] using hne
  obtain ⟨s1, s2⟩ := C39_box (h.vals P.segs) hv
    (fun p hp => ⟨(hb p ((hE1 p).1 hp)).1, (hb p ((hE1 p).1 hp)).2.1⟩)
  obtain ⟨t1, t2⟩ := C39_box ((R.plMove h P a b).1.vals P.segs) hv2 (by
    intro p hp
    obtain ⟨q, hq, rfl⟩ := (hE2 p).1 hp
    exact ⟨(hb q hq).2.2.1, (hb q hq).2.2.2⟩)
  refine Prod.ext (spans_unique t1 ?_) (spans_unique t2 ?_)
  · refine ⟨?_, ?_, ?_⟩
    · intro p hp
      obtain ⟨q, hq, rfl⟩ := (hE2 p).1 hp
      have := s1.1 q ((hE1 q).2 hq)
      exact ⟨add_le_add_left this.1 _, add_le_add_left this.2 _⟩
    · obtain ⟨p, hp, e⟩ := s1.2.1
      exact ⟨shift p a b, (hE2 _).2 ⟨p, (hE1 p).1 hp, rfl⟩, by show p.x + a = _; rw [e]⟩
    · obtain ⟨p, hp, e⟩ := s1.2.2
      exact ⟨shift p a b, (hE2 _).2 ⟨p, (hE1 p).1 hp, rfl⟩, by show p.x + a = _; rw [e]⟩
  · refine ⟨?_, ?_, ?_⟩
    · intro p hp
      obtain ⟨q, hq, rfl⟩ := (hE2 p).1 hp
      have := s2.1 q ((hE1 q).2 hq)
      exact ⟨add_le_add_left this.1 _, add_le_add_left this.2 _⟩
    · obtain ⟨p, hp, e⟩ := s2.2.1
      exact ⟨shift p a b, (hE2 _).2 ⟨p, (hE1 p).1 hp, rfl⟩, by show p.y + b = _; rw [e]⟩
    · obtain ⟨p, hp, e⟩ := s2.2.2
      exact ⟨shift p a b, (hE2 _).2 ⟨p, (hE1 p).1 hp, rfl⟩, by show p.y + b = _; rw [e]⟩

/-! ### C41 -/

/-- C41: `==` of polylines, position by position. -/
theorem C41_iff (R : Rt K) (c d : PolyCls) (l m : List (Seg K)) :
    R.plEq c l d m = true ↔ c = d ∧ ∃ hl : l.length = m.length, ∀ k (hk : k < l.length),
      l[k].cls = m[k].cls ∧ R.peq l[k].i m[k].i = true ∧ R.peq l[k].j m[k].j = true := by
  unfold plEq
  rw [Bool.and_eq_true, Bool.and_eq_true, decide_eq_true_eq, decide_eq_true_eq, List.all_eq_true]
  have hseq : ∀ s o : Seg K, R.seq s o = true ↔ s.cls = o.cls ∧ R.peq s.i o.i = true ∧ R.peq s.j o.j = true := by
    intro s o
    unfold Rt.seq
    rw [Bool.and_eq_true, Bool.and_eq_true, decide_eq_true_eq, and_assoc, eq_comm]
  constructor
  · rintro ⟨⟨h1, h2⟩, h3⟩
    refine ⟨h1.symm, h2, ?_⟩
    intro k hk
    exact (hseq _ _).1 (h3 (l[k], m[k]) (by
      rw [List.mem_iff_getElem]
      exact ⟨k, by simp; omega, by simp⟩))
  · rintro ⟨h1, h2, h3⟩
    refine ⟨⟨h1.symm, h2⟩, ?_⟩
    intro p hp
    obtain ⟨k, hk, rfl⟩ := List.getElem_of_mem hp
    rw [List.length_zip] at hk
    rw [List.getElem_zip]
    exact (hseq _ _).2 (h3 k (by omega))

/-- C41: reflexive and symmetric. -/
theorem C41_refl_symm {R : Rt K} (hR : R.IsRounding) (c d : PolyCls) (l m : List (Seg K)) :
    R.plEq c l c l = true ∧ R.plEq c l d m = R.plEq d m c l := by
  constructor
  · rw [C41_iff]
    exact ⟨rfl, rfl, fun k hk => ⟨rfl, hR.peq_refl _, hR.peq_refl _⟩⟩
  · rw [Bool.eq_iff_iff, C41_iff, C41_iff]
    constructor
    · rintro ⟨h1, h2, h3⟩
      exact ⟨h1.symm, h2.symm, fun k hk => ⟨(h3 k (by omega)).1.symm,
        by rw [hR.peq_comm]; exact (h3 k (by omega)).2.1, by rw [hR.peq_comm]; exact (h3 k (by omega)).2.2⟩⟩
    · rintro ⟨h1, h2, h3⟩
      exact ⟨h1.symm, h2.symm, fun k hk => ⟨(h3 k (by omega)).1.symm,
        by rw [hR.peq_comm]; exact (h3 k (by omega)).2.1, by rw [hR.peq_comm]; exact (h3 k (by omega)).2.2⟩⟩

/-- C41: on separated points `==` is equality of class and segment list. -/
theorem C41_exact {R : Rt K} (hR : R.IsRounding) (c d : PolyCls) (l m : List (Seg K))
    (hap : Apart R.tol (Ends (l ++ m))) : R.plEq c l d m = true ↔ c = d ∧ l = m := by
  rw [C41_iff]
  have hS := sep_of_Ends hR hap
  constructor
  · rintro ⟨h1, h2, h3⟩
    refine ⟨h1, List.ext_getElem h2 ?_⟩
    intro k hk hk'
    obtain ⟨e1, e2, e3⟩ := h3 k hk
    have hl : l[k] ∈ l ++ m := List.mem_append_left _ (List.getElem_mem _)
    have hm : m[k] ∈ l ++ m := List.mem_append_right _ (List.getElem_mem _)
    have e2' := hS _ (mem_endPts'.2 ⟨_, hl, Or.inl rfl⟩) _ (mem_endPts'.2 ⟨_, hm, Or.inl rfl⟩) e2
    have e3' := hS _ (mem_endPts'.2 ⟨_, hl, Or.inr rfl⟩) _ (mem_endPts'.2 ⟨_, hm, Or.inr rfl⟩) e3
    cases hlk : l[k] with
    | mk i j cls => cases hmk : m[k] with
      | mk i' j' cls' =>
        rw [hlk, hmk] at e1 e2' e3'
        simp only at e1 e2' e3'
        rw [e1, e2', e3']
  · rintro ⟨rfl, rfl⟩
    exact ⟨rfl, rfl, fun k hk => ⟨rfl, hR.peq_refl _, hR.peq_refl _⟩⟩

/-- C41: the order of the segments and their direction matter. -/
theorem C41_order_matters : exRt.plEq .polygonLine [exSeg 0 0 1 0, exSeg 1 0 1 1] .polygonLine
      [exSeg 1 0 1 1, exSeg 0 0 1 0] = false ∧
    exRt.plEq .polygonLine [exSeg 0 0 1 0] .polygonLine [exSeg 1 0 0 0] = false := by decide +kernel

example : Apart exRt.tol (Ends ([exSeg 0 0 1 0] ++ [exSeg 0 0 1 0])) := by
  intro p hp q hq
  rw [← mem_endPts'] at hp hq
  revert p q
  decide +kernel

/-! ### C42 -/

/-- C42: with `direction_matters=True` two polylines with equally many segments give a TypeError, otherwise
False. -/
theorem C42_type_error (R : Rt K) (l m : List (Seg K)) :
    R.plLooseEqual l m true = if l.length = m.length then .error .type else .ok false := by
  unfold plLooseEqual
  by_cases h : l.length = m.length <;> simp [h]

/-- C42: order and direction are ignored: if `m` has as many segments as `l` and contains every segment of `l`
or its reverse (of the same class) then `l` is loosely equal to `m`. -/
theorem C42_ignores {R : Rt K} (hR : R.IsRounding) (l m : List (Seg K)) (hl : l.length = m.length)
    (h : ∀ s ∈ l, s ∈ m ∨ s.reversed ∈ m) : R.plLooseEqual l m false = .ok true := by
  unfold plLooseEqual
  rw [if_neg (by simpa using hl)]
  simp only [Bool.false_eq_true, if_false, Except.ok.injEq, List.all_eq_true, List.any_eq_true]
  intro s hs
  have hr := (C21_reverse hR s).1
  have hr' : R.looseEqual s.reversed s = true := by
    have := (C21_reverse hR s.reversed).2
    rwa [show s.reversed.reversed = s by cases s; rfl] at this
  rcases h s hs with h | h
  · exact ⟨s, h, by rw [hr]; rfl⟩
  · exact ⟨_, h, by rw [hr']; rfl⟩

/-- C42: in particular for every reordering with every choice of individual reversals; so it is reflexive. -/
theorem C42_perm {R : Rt K} (hR : R.IsRounding) (l m m' : List (Seg K)) (hp : l.Perm m')
    (hm : m.length = m'.length) (h : ∀ k (hk : k < m.length) (hk' : k < m'.length),
      m[k] = m'[k] ∨ m[k] = m'[k].reversed) :
    R.plLooseEqual l m false = .ok true ∧ R.plLooseEqual l l false = .ok true := by
  refine ⟨C42_ignores hR l m (hp.length_eq.trans hm.symm) ?_, C42_ignores hR l l rfl fun s hs => Or.inl hs⟩
  intro s hs
  obtain ⟨k, hk, rfl⟩ := List.getElem_of_mem (hp.mem_iff.1 hs)
  rcases h k (by omega) hk with e | e
  · left; rw [← e]; exact List.getElem_mem _
  · right; rw [← e]; exact List.getElem_mem _

/-- C42 on separated points: as many segments, and every segment of the first has the endpoints of some segment
of the second; the classes agree unless the one of the first is a plain LineSegment. -/
theorem C42_iff {R : Rt K} (hR : R.IsRounding) (l m : List (Seg K)) (hap : Apart R.tol (Ends (l ++ m))) :
    R.plLooseEqual l m false = .ok true ↔ l.length = m.length ∧
      ∀ x ∈ l, ∃ y ∈ m, (y.cls = x.cls ∨ x.cls = .line) ∧
        ((y.i = x.i ∧ y.j = x.j) ∨ (y.i = x.j ∧ y.j = x.i)) := by
  have hsub : ∀ x ∈ l, ∀ y ∈ m, Apart R.tol {y.i, y.j, x.i, x.j} := by
    intro x hx y hy p hp q hq
    have hin : ∀ p ∈ ({y.i, y.j, x.i, x.j} : Set (Pt K)), p ∈ Ends (l ++ m) := by
      intro p hp
      have hx' := List.mem_append_left m hx
      have hy' := List.mem_append_right l hy
      rcases hp with rfl | rfl | rfl | rfl
      · exact ⟨y, hy', Or.inl rfl⟩
      · exact ⟨y, hy', Or.inr rfl⟩
      · exact ⟨x, hx', Or.inl rfl⟩
      · exact ⟨x, hx', Or.inr rfl⟩
    exact hap p (hin p hp) q (hin q hq)
  unfold plLooseEqual
  by_cases hl : l.length = m.length
  · rw [if_neg (by simpa using hl)]
    simp only [Bool.false_eq_true, if_false, Except.ok.injEq, List.all_eq_true, List.any_eq_true, hl, true_and,
      Bool.or_eq_true]
    refine forall_congr' fun x => forall_congr' fun hx => exists_congr fun y => and_congr_right fun hy => ?_
    have h1 := C21_iff hR y x (hsub x hx y hy)
    have h2 := C21_iff hR y.lineReversed x (by
      have := hsub x hx y hy
      have e : ({y.lineReversed.i, y.lineReversed.j, x.i, x.j} : Set (Pt K)) = {y.i, y.j, x.i, x.j} := by
        ext p; simp only [Seg.lineReversed, Set.mem_insert_iff, Set.mem_singleton_iff]; tauto
      rw [e]; exact this)
    rw [h1, h2]
    simp only [Seg.lineReversed]
    constructor
    · rintro (⟨h, h'⟩ | ⟨h, h'⟩)
      · exact ⟨Or.inl h, h'⟩
      · refine ⟨Or.inr h.symm, ?_⟩
        rcases h' with ⟨u, v⟩ | ⟨u, v⟩
        · exact Or.inr ⟨v, u⟩
        · exact Or.inl ⟨v, u⟩
    · rintro ⟨h | h, h'⟩
      · exact Or.inl ⟨h, h'⟩
      · right
        refine ⟨h.symm, ?_⟩
        rcases h' with ⟨u, v⟩ | ⟨u, v⟩
        · exact Or.inr ⟨v, u⟩
        · exact Or.inl ⟨v, u⟩
  · rw [if_pos (by simpa using hl)]
    simp [hl]

/-- C42: not symmetric; a repeated segment on one side suffices. -/
theorem C42_not_symm : exRt.plLooseEqual [exSeg 0 0 1 0, exSeg 0 0 1 0] [exSeg 0 0 1 0, exSeg 1 0 1 1] false = .ok true ∧
    exRt.plLooseEqual [exSeg 0 0 1 0, exSeg 1 0 1 1] [exSeg 0 0 1 0, exSeg 0 0 1 0] false = .ok false := by
  decide +kernel

/-- C42: nor is it symmetric for different segment classes: a plain segment is loosely equal to a Wall in the same
place but not the other way round. -/
theorem C42_not_symm_class :
    ∃ c : SegCls, exRt.plLooseEqual [exSeg 0 0 1 0] [⟨⟨0, 0⟩, ⟨1, 0⟩, c⟩] false = .ok true ∧
      exRt.plLooseEqual [⟨⟨0, 0⟩, ⟨1, 0⟩, c⟩] [exSeg 0 0 1 0] false = .ok false :=
  ⟨.wall, by decide +kernel⟩

example : [exSeg 0 0 1 0, exSeg 1 0 1 1].Perm [exSeg 1 0 1 1, exSeg 0 0 1 0] ∧
    exSeg 1 1 1 0 = (exSeg 1 0 1 1).reversed := ⟨List.Perm.swap _ _ _, rfl⟩

/-! ### C43 -/

/-- C43: under the hash hypothesis, `loose_subset` says that every endpoint of the other polyline is an endpoint
of this one. -/
theorem C43_iff_hash {R : Rt K} (hR : R.IsRounding) (l m : List (Seg K)) (h : R.HashOK (endPts l ++ endPts m)) :
    R.plLooseSubset l m = true ↔ Ends m ⊆ Ends l := by
  unfold plLooseSubset
  have h1 := h.mono (m := endPts l) (fun p hp => List.mem_append_left _ hp)
  have h2 := h.mono (m := endPts m) (fun p hp => List.mem_append_right _ hp)
  rw [List.all_eq_true]
  constructor
  · intro hh p hp
    rw [← mem_endPts'] at hp ⊢
    have := hh p ((mem_pset hR h2 p).2 hp)
    rw [pmem_iff hR h (fun q hq => List.mem_append_left _ ((mem_pset hR h1 q).1 hq))
      (List.mem_append_right _ hp)] at this
    exact (mem_pset hR h1 p).1 this
  · intro hh p hp
    have hp' := (mem_pset hR h2 p).1 hp
    rw [pmem_iff hR h (fun q hq => List.mem_append_left _ ((mem_pset hR h1 q).1 hq))
      (List.mem_append_right _ hp')]
    rw [mem_pset hR h1, mem_endPts']
    exact hh (mem_endPts'.1 hp')

/-- C43: reflexive, transitive and the meaning, on separated points. -/
theorem C43_laws {R : Rt K} (hR : R.IsRounding) (l m n : List (Seg K))
    (hap : Apart R.tol (Ends (l ++ m ++ n))) :
    (R.plLooseSubset l m = true ↔ Ends m ⊆ Ends l) ∧ R.plLooseSubset l l = true ∧
    (R.plLooseSubset l m = true → R.plLooseSubset m n = true → R.plLooseSubset l n = true) := by
  have hS := (sep_of_Ends hR hap).hashOK
  have hin : ∀ a : List (Seg K), (∀ s ∈ a, s ∈ l ++ m ++ n) → ∀ p ∈ endPts a, p ∈ endPts (l ++ m ++ n) := by
    intro a ha p hp
    rw [mem_endPts'] at hp ⊢
    obtain ⟨s, hs, h⟩ := hp
    exact ⟨s, ha s hs, h⟩
  have key : ∀ a b : List (Seg K), (∀ s ∈ a, s ∈ l ++ m ++ n) → (∀ s ∈ b, s ∈ l ++ m ++ n) →
      (R.plLooseSubset a b = true ↔ Ends b ⊆ Ends a) := by
    intro a b ha hb
    apply C43_iff_hash hR
    apply hS.mono
    intro p hp
    rcases List.mem_append.1 hp with hp | hp
    · exact hin a ha p hp
    · exact hin b hb p hp
  have hl : ∀ s ∈ l, s ∈ l ++ m ++ n := fun s hs => by simp [hs]
  have hm : ∀ s ∈ m, s ∈ l ++ m ++ n := fun s hs => by simp [hs]
  have hn : ∀ s ∈ n, s ∈ l ++ m ++ n := fun s hs => by simp [hs]
  refine ⟨key l m hl hm, (key l l hl hl).2 (fun _ h => h), ?_⟩
  intro h1 h2
  rw [key l m hl hm] at h1
  rw [key m n hm hn] at h2
  exact (key l n hl hn).2 (fun p hp => h1 (h2 hp))

/-- C43: it is a test on endpoints only; it does not mean that the segments are among each other. -/
theorem C43_endpoints_only : exRt.plLooseSubset [exSeg 0 0 1 0, exSeg 1 0 1 1] [exSeg 0 0 1 1] = true := by
  decide +kernel

example : Apart exRt.tol (Ends ([exSeg 0 0 1 0] ++ [exSeg 1 0 1 1] ++ [exSeg 1 1 0 0])) := by
  intro p hp q hq
  rw [← mem_endPts'] at hp hq
  revert p q
  decide +kernel

/-! ### C44 -/

/-- C44: the segments starting at, ending at, or having the point, in polyline order; an unknown `whichend`
raises iff some segment has the point. -/
theorem C44_find {R : Rt K} (hR : R.IsRounding) (l : List (Seg K)) (p : Pt K) :
    R.findSegment l p .start = .ok (l.filter fun s => R.peq s.i p) ∧
    R.findSegment l p .finish = .ok (l.filter fun s => R.peq s.j p) ∧
    R.findSegment l p .both = .ok (l.filter fun s => R.peq s.i p || R.peq s.j p) ∧
    (R.findSegment l p .unknown = .error .generic ↔ ∃ s ∈ l, R.peq s.i p = true ∨ R.peq s.j p = true) ∧
    (R.findSegment l p .unknown = .ok [] ↔ ¬ ∃ s ∈ l, R.peq s.i p = true ∨ R.peq s.j p = true) := by
  have hE : (l.filter (R.onEnds p) = []) ↔ ¬ ∃ s ∈ l, R.peq s.i p = true ∨ R.peq s.j p = true := by
    rw [List.filter_eq_nil_iff]
    simp only [onEnds, Bool.or_eq_true, not_exists, not_and]
  have hsub : ∀ f : Seg K → Bool, (∀ s, f s = true → R.onEnds p s = true) →
      (l.filter (R.onEnds p)).filter f = l.filter f := by
    intro f hf
    rw [List.filter_filter]
    apply List.filter_congr
    intro s _
    cases h : f s with
    | false => simp
    | true => simp [hf s h]
  have hnil : ∀ f : Seg K → Bool, (∀ s, f s = true → R.onEnds p s = true) → l.filter (R.onEnds p) = [] →
      l.filter f = [] := by
    intro f hf h
    rw [← hsub f hf, h]; rfl
  have o1 : ∀ s, R.peq s.i p = true → R.onEnds p s = true := fun s h => by simp [onEnds, h]
  have o2 : ∀ s, R.peq s.j p = true → R.onEnds p s = true := fun s h => by simp [onEnds, h]
  have o3 : ∀ s : Seg K, (R.peq s.i p || R.peq s.j p) = true → R.onEnds p s = true := fun s h => h
  have c1 : (fun x : Seg K => R.peq p x.i) = fun x => R.peq x.i p := by ext x; rw [hR.peq_comm]
  have c2 : (fun x : Seg K => R.peq p x.j) = fun x => R.peq x.j p := by ext x; rw [hR.peq_comm]
  unfold findSegment
  by_cases h : l.filter (R.onEnds p) = []
  · simp only [h, if_true]
    refine ⟨?_, ?_, ?_, ?_, ?_⟩
    · rw [hnil _ o1 h]
    · rw [hnil _ o2 h]
    · rw [hnil _ o3 h]
    · exact ⟨fun h' => by simp at h', fun h' => absurd h' (hE.1 h)⟩
    · exact ⟨fun _ => hE.1 h, fun _ => by simp⟩
  · simp only [h, if_false]
    refine ⟨?_, ?_, ?_, ?_, ?_⟩
    · rw [c1, hsub _ o1]
    · rw [c2, hsub _ o2]
    · rw [hsub _ (fun _ h => h)]; rfl
    · exact ⟨fun _ => not_not.1 (fun hc => h (hE.2 hc)), fun _ => by simp⟩
    · exact ⟨fun h' => by simp at h', fun h' => absurd (hE.2 h') h⟩

/-- C44: on separated points `neighbour` returns exactly the other endpoints of the segments at the point. -/
theorem C44_neighbour {R : Rt K} (hR : R.IsRounding) (l : List (Seg K)) (p q : Pt K)
    (hap : Apart R.tol {r | r = p ∨ r ∈ Ends l}) :
    q ∈ R.neighbour l p ↔ q ≠ p ∧ ∃ s ∈ l, (s.i = p ∧ s.j = q) ∨ (s.i = q ∧ s.j = p) := by
  have hpe : ∀ r ∈ Ends l, (R.peq r p = true ↔ r = p) := by
    intro r hr
    exact (C04_apart hR hap (Or.inr hr) (Or.inl rfl)).1
  unfold neighbour
  simp only [List.filter_filter, Bool.and_self, List.mem_append, List.mem_map, List.mem_filter, Bool.and_eq_true,
    Bool.not_eq_true', onEnds, Bool.or_eq_true, ← Bool.not_eq_true]
  constructor
  · rintro (⟨s, ⟨hs, h1, h2⟩, rfl⟩ | ⟨s, ⟨hs, h1, h2⟩, rfl⟩)
    · rw [hpe _ ⟨s, hs, Or.inl rfl⟩] at h1
      rw [hpe _ ⟨s, hs, Or.inl rfl⟩, hpe _ ⟨s, hs, Or.inr rfl⟩] at h2
      rcases h2 with h2 | h2
      · exact absurd h2 h1
      · exact ⟨h1, s, hs, Or.inr ⟨rfl, h2⟩⟩
    · rw [hpe _ ⟨s, hs, Or.inr rfl⟩] at h1
      rw [hpe _ ⟨s, hs, Or.inl rfl⟩, hpe _ ⟨s, hs, Or.inr rfl⟩] at h2
      rcases h2 with h2 | h2
      · exact ⟨h1, s, hs, Or.inl ⟨h2, rfl⟩⟩
      · exact absurd h2 h1
  · rintro ⟨hq, s, hs, ⟨h1, h2⟩ | ⟨h1, h2⟩⟩
    · right
      refine ⟨s, ⟨hs, ?_, ?_⟩, h2⟩
      · rw [hpe _ ⟨s, hs, Or.inr rfl⟩, h2]; exact hq
      · left; rw [h1]; exact hR.peq_refl _
    · left
      refine ⟨s, ⟨hs, ?_, ?_⟩, h1⟩
      · rw [hpe _ ⟨s, hs, Or.inl rfl⟩, h1]; exact hq
      · right; rw [h2]; exact hR.peq_refl _

theorem filter_unique {α : Type} (l : List α) (f : α → Bool) (k : ℕ) (hk : k < l.length)
    (h : ∀ j (hj : j < l.length), f l[j] = true ↔ j = k) : l.filter f = [l[k]] := by
  have e : l = l.take k ++ l[k] :: l.drop (k + 1) := by
    rw [← List.drop_eq_getElem_cons hk, List.take_append_drop]
  have h1 : (l.take k).filter f = [] := by
    rw [List.filter_eq_nil_iff]
    intro x hx hf
    obtain ⟨j, hj, rfl⟩ := List.getElem_of_mem hx
    rw [List.length_take] at hj
    rw [List.getElem_take] at hf
    have := (h j (by omega)).1 hf
    omega
  have h2 : (l.drop (k + 1)).filter f = [] := by
    rw [List.filter_eq_nil_iff]
    intro x hx hf
    obtain ⟨j, hj, rfl⟩ := List.getElem_of_mem hx
    rw [List.length_drop] at hj
    rw [List.getElem_drop] at hf
    have := (h _ (by omega)).1 hf
    omega
  have h3 := (h k hk).2 rfl
  conv_lhs => rw [e]
  rw [List.filter_append, h1, List.filter_cons, if_pos h3, h2]
  rfl

/-- C44: in a closed polygon with at least three distinct, separated vertices `v 0 … v (n-1)` the neighbours of a
vertex are the previous and the next one. -/
theorem C44_two_neighbours {R : Rt K} (hR : R.IsRounding) (l : List (Seg K)) (v : ℕ → Pt K)
    (hn : 3 ≤ l.length) (hv : ∀ k (hk : k < l.length), l[k].i = v k ∧ l[k].j = v ((k + 1) % l.length))
    (hinj : ∀ a < l.length, ∀ b < l.length, v a = v b → a = b) (hap : Apart R.tol (Ends l))
    (k : ℕ) (hk : k < l.length) :
    R.neighbour l (v k) = [v ((k + (l.length - 1)) % l.length), v ((k + 1) % l.length)] := by
  have hmod : ∀ j, j % l.length < l.length := fun j => Nat.mod_lt _ (by omega)
  have hin : ∀ j, j < l.length → v j ∈ Ends l := fun j hj => ⟨l[j], List.getElem_mem _, Or.inl (hv j hj).1.symm⟩
  have hpe : ∀ a b, a < l.length → b < l.length → (R.peq (v a) (v b) = true ↔ a = b) := by
    intro a b ha hb
    rw [(C04_apart hR hap (hin a ha) (hin b hb)).1]
    exact ⟨hinj a ha b hb, fun e => by rw [e]⟩
  -- successor and predecessor
  have hsucc : ∀ j, j < l.length → ((j + 1) % l.length = k ↔ j = (k + (l.length - 1)) % l.length) := by
    intro j hj
    rcases Nat.lt_or_ge (j + 1) l.length with h1 | h1
    · rw [Nat.mod_eq_of_lt h1]
      rcases Nat.eq_zero_or_pos k with h2 | h2
      · rw [h2, Nat.zero_add, Nat.mod_eq_of_lt (by omega)]; omega
      · rw [show k + (l.length - 1) = (k - 1) + l.length by omega, Nat.add_mod_right,
          Nat.mod_eq_of_lt (by omega)]; omega
    · have : j + 1 = l.length := by omega
      rw [this, Nat.mod_self]
      rcases Nat.eq_zero_or_pos k with h2 | h2
      · rw [h2, Nat.zero_add, Nat.mod_eq_of_lt (by omega)]; omega
      · rw [show k + (l.length - 1) = (k - 1) + l.length by omega, Nat.add_mod_right,
          Nat.mod_eq_of_lt (by omega)]; omega
  have hne1 : ∀ j, j < l.length → (j + 1) % l.length ≠ j := by
    intro j hj
    rcases Nat.lt_or_ge (j + 1) l.length with h1 | h1
    · rw [Nat.mod_eq_of_lt h1]; omega
    · have : j + 1 = l.length := by omega
      rw [this, Nat.mod_self]; omega
  unfold neighbour
  simp only [List.filter_filter, Bool.and_self]
  have f1 := filter_unique l (fun x => !R.peq x.i (v k) && R.onEnds (v k) x) ((k + (l.length - 1)) % l.length)
    (hmod _) (by
      intro j hj
      have g1 := hpe j k hj hk
      have g2 := hpe ((j + 1) % l.length) k (hmod _) hk
      simp only [onEnds, (hv j hj).1, (hv j hj).2, Bool.and_eq_true, Bool.not_eq_true', Bool.or_eq_true,
        ← Bool.not_eq_true, g1, g2, hsucc j hj]
      constructor
      · rintro ⟨h1, h2 | h2⟩
        · exact absurd h2 h1
        · exact h2
      · intro h2
        refine ⟨?_, Or.inr h2⟩
        rintro rfl
        exact hne1 j hj ((hsucc j hj).2 h2))
  have f2 := filter_unique l (fun x => !R.peq x.j (v k) && R.onEnds (v k) x) k hk (by
      intro j hj
      have g1 := hpe j k hj hk
      have g2 := hpe ((j + 1) % l.length) k (hmod _) hk
      simp only [onEnds, (hv j hj).1, (hv j hj).2, Bool.and_eq_true, Bool.not_eq_true', Bool.or_eq_true,
        ← Bool.not_eq_true, g1, g2]
      constructor
      · rintro ⟨h1, h2 | h2⟩
        · exact h2
        · exact absurd h2 h1
      · rintro rfl
        exact ⟨hne1 j hj, Or.inl rfl⟩)
  rw [f1, f2]
  simp only [List.map_cons, List.map_nil, (hv _ (hmod _)).1, (hv k hk).2]
  rfl

/-- non-vacuity: a triangle -/
example : exRt.neighbour [exSeg 0 0 4 0, exSeg 4 0 0 3, exSeg 0 3 0 0] ⟨4, 0⟩ = [⟨0, 0⟩, ⟨0, 3⟩] := by decide +kernel
example : ∃ v : ℕ → Pt ℚ, (∀ k (hk : k < [exSeg 0 0 4 0, exSeg 4 0 0 3, exSeg 0 3 0 0].length),
      [exSeg 0 0 4 0, exSeg 4 0 0 3, exSeg 0 3 0 0][k].i = v k ∧
      [exSeg 0 0 4 0, exSeg 4 0 0 3, exSeg 0 3 0 0][k].j = v ((k + 1) % 3)) ∧
    ∀ a < 3, ∀ b < 3, v a = v b → a = b := by
  refine ⟨fun k => if k = 0 then ⟨0, 0⟩ else if k = 1 then ⟨4, 0⟩ else ⟨0, 3⟩, ?_, by decide +kernel⟩
  intro k hk
  have : k = 0 ∨ k = 1 ∨ k = 2 := by simp at hk; omega
  rcases this with rfl | rfl | rfl <;> exact ⟨rfl, rfl⟩

/-! ### C50 -/

/-- C50: on separated points exactly the segments are kept none of whose endpoints occurs only once among all
endpoints; the order is kept. -/
theorem C50_spec {R : Rt K} (hR : R.IsRounding) (l : List (Seg K)) (hap : Apart R.tol (Ends l)) :
    R.removeOutlier l = l.filter fun s => decide ((endPts l).count s.i ≠ 1 ∧ (endPts l).count s.j ≠ 1) := by
  have hS := sep_of_Ends hR hap
  have hperm : (allPoints l).Perm (endPts l) := List.perm_insertionSort _ _
  have hmem : ∀ p, p ∈ allPoints l ↔ p ∈ endPts l := fun p => hperm.mem_iff
  have hcnt : ∀ x ∈ endPts l, ((allPoints l).filter fun y => R.peq y x).length = (endPts l).count x := by
    intro x hx
    rw [← hperm.count_eq x, List.count_eq_countP, List.countP_eq_length_filter]
    congr 1
    apply List.filter_congr
    intro y hy
    rw [Bool.eq_iff_iff, hS.peq_iff hR ((hmem y).1 hy) hx]
    simp
  have key : ∀ y ∈ endPts l, (((allPoints l).filter fun x => decide (((allPoints l).filter fun y => R.peq y x).length = 1)).any
      fun z => R.peq z y) = true ↔ (endPts l).count y = 1 := by
    intro y hy
    simp only [List.any_eq_true, List.mem_filter, decide_eq_true_eq]
    constructor
    · rintro ⟨z, ⟨hz, h1⟩, h2⟩
      rw [hS.peq_iff hR ((hmem z).1 hz) hy] at h2
      subst h2
      rw [hcnt z hy] at h1
      exact h1
    · intro h
      exact ⟨y, ⟨(hmem y).2 hy, by rw [hcnt y hy]; exact h⟩, hR.peq_refl y⟩
  unfold removeOutlier
  apply List.filter_congr
  intro s hs
  have hi := key s.i (mem_endPts'.2 ⟨s, hs, Or.inl rfl⟩)
  have hj := key s.j (mem_endPts'.2 ⟨s, hs, Or.inr rfl⟩)
  rw [Bool.eq_iff_iff]
  simp only [List.any_cons, List.any_nil, Bool.or_false, Bool.not_eq_true', ← Bool.not_eq_true,
    decide_eq_true_eq]
  rw [Bool.or_eq_true, hi, hj, not_or]

/-- C50: segments are never added nor reordered, whatever the input. -/
theorem C50_sublist (R : Rt K) (l : List (Seg K)) : (R.removeOutlier l).Sublist l := by
  unfold removeOutlier
  exact List.filter_sublist

/-- C50: a polyline in which every endpoint location occurs at least twice is unchanged. -/
theorem C50_unchanged {R : Rt K} (hR : R.IsRounding) (l : List (Seg K))
    (h : ∀ p ∈ endPts l, 2 ≤ (endPts l).count p) : R.removeOutlier l = l := by
  have hperm : (allPoints l).Perm (endPts l) := List.perm_insertionSort _ _
  have hsp : (allPoints l).filter (fun x => decide (((allPoints l).filter fun y => R.peq y x).length = 1)) = [] := by
    rw [List.filter_eq_nil_iff]
    intro x hx hd
    rw [decide_eq_true_eq] at hd
    have h2 := h x (hperm.mem_iff.1 hx)
    rw [← hperm.count_eq x, List.count_eq_countP] at h2
    have : (allPoints l).countP (· == x) ≤ (allPoints l).countP fun y => R.peq y x := by
      apply List.countP_mono_left
      intro y _ hy
      rw [beq_iff_eq] at hy
      rw [hy]; exact hR.peq_refl x
    rw [List.countP_eq_length_filter (p := fun y => R.peq y x), hd] at this
    omega
  unfold removeOutlier
  simp only [hsp]
  simp

theorem count_endPts (l : List (Seg K)) (p : Pt K) :
    (endPts l).count p = (l.map Seg.i).count p + (l.map Seg.j).count p := by
  induction l with
  | nil => rfl
  | cons s l ih =>
    have e : endPts (s :: l) = s.i :: s.j :: endPts l := rfl
    rw [e]
    simp only [List.count_cons, List.map_cons, ih]
    omega

theorem closedChain_mem_i {l : List (Seg K)} (hc : ClosedChain l) (k : ℕ) (hk : k < l.length) :
    l[k].j ∈ l.map Seg.i := by
  rw [hc k hk]
  exact List.mem_map_of_mem (List.getElem_mem _)

theorem closedChain_mem_j {l : List (Seg K)} (hc : ClosedChain l) (k : ℕ) (hk : k < l.length) :
    l[k].i ∈ l.map Seg.j := by
  have h0 : 0 < l.length := by omega
  have hc' := hc ((k + (l.length - 1)) % l.length) (Nat.mod_lt _ h0)
  have e : ((k + (l.length - 1)) % l.length + 1) % l.length = k := by
    rw [Nat.mod_add_mod, show k + (l.length - 1) + 1 = k + l.length by omega, Nat.add_mod_right,
      Nat.mod_eq_of_lt hk]
  simp only [e] at hc'
  rw [← hc']
  exact List.mem_map_of_mem (List.getElem_mem _)

/-- C50: a closed polygon (every end is the start of the next segment, cyclically) is unchanged. -/
theorem C50_closed {R : Rt K} (hR : R.IsRounding) (l : List (Seg K)) (hc : ClosedChain l) :
    R.removeOutlier l = l := by
  apply C50_unchanged hR
  intro p hp
  rw [count_endPts]
  have hi : p ∈ l.map Seg.i ∧ p ∈ l.map Seg.j := by
    rw [mem_endPts'] at hp
    obtain ⟨s, hs, h⟩ := hp
    obtain ⟨k, hk, rfl⟩ := List.getElem_of_mem hs
    rcases h with rfl | rfl
    · exact ⟨List.mem_map_of_mem hs, closedChain_mem_j hc k hk⟩
    · exact ⟨closedChain_mem_i hc k hk, List.mem_map_of_mem hs⟩
  have h1 := List.count_pos_iff.2 hi.1
  have h2 := List.count_pos_iff.2 hi.2
  omega

/-- C50: one pass only: a dangling chain of two segments is shortened by one, a second pass removes the rest. -/
theorem C50_not_idempotent :
    ∃ l : List (Seg ℚ), exRt.removeOutlier l ≠ l ∧ exRt.removeOutlier (exRt.removeOutlier l) ≠ exRt.removeOutlier l :=
  ⟨[exSeg 0 0 4 0, exSeg 4 0 0 3, exSeg 0 3 0 0, exSeg 4 0 7 0, exSeg 7 0 9 0], by decide +kernel⟩

end Srep
