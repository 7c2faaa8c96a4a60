import Verif.Model.Lookup
import Verif.Props.GroupB
import Verif.Props.LoopsSingle

/-!
# Look-ups in groups of polygons and in polylines (C113)
-/

set_option linter.unusedSectionVars false

namespace Srep
open Rt
variable {K : Type} [Field K] [LinearOrder K] [IsStrictOrderedRing K] [FloorRing K] {R : Rt K} {α ν κ : Type}

/-- C113: `polygon_from_repr` returns a polygon iff exactly one position of the group holds an equal one, and then this one;
otherwise it raises. -/
theorem C113_from_repr (eqv : α → α → Bool) (ps : List α) (rep : α) :
    (∀ x, polygonFromRepr eqv ps rep = .ok x ↔ ∃ pre post, ps = pre ++ x :: post ∧ eqv x rep = true ∧
      (∀ y ∈ pre, eqv y rep = false) ∧ ∀ y ∈ post, eqv y rep = false) ∧
    ∀ e, polygonFromRepr eqv ps rep = .error e → e = .generic := by
  have key : ∀ x, (ps.filter fun y => eqv y rep) = [x] ↔ ∃ pre post, ps = pre ++ x :: post ∧ eqv x rep = true ∧
      (∀ y ∈ pre, eqv y rep = false) ∧ ∀ y ∈ post, eqv y rep = false := by
    intro x
    rw [List.filter_eq_cons_iff]
    constructor
    · rintro ⟨l1, l2, e, h1, h2, h3⟩
      rw [List.filter_eq_nil_iff] at h3
      exact ⟨l1, l2, e, h2, fun y hy => by simpa using h1 y hy, fun y hy => by simpa using h3 y hy⟩
    · rintro ⟨l1, l2, e, h2, h1, h3⟩
      refine ⟨l1, l2, e, fun y hy => by simp [h1 y hy], h2, ?_⟩
      rw [List.filter_eq_nil_iff]
      exact fun y hy => by simp [h3 y hy]
  constructor
  · intro x
    rw [← key x]
    unfold polygonFromRepr
    split
    · rename_i y hy
      rw [hy]
      simp
    · rename_i hn
      constructor
      · intro h; cases h
      · intro h; exact absurd h (hn x)
  · intro e
    unfold polygonFromRepr
    split
    · intro h; cases h
    · intro h; injection h with h; exact h.symm

/-- C113: a list of polygons of the group, no two of which are equal, gives the list of their names; a single polygon gives its name. -/
theorem C113_names (eqv : α → α → Bool) (name : α → ν) (ps v : List α) (hnd : ps.Nodup)
    (he : ∀ x ∈ ps, ∀ y ∈ ps, eqv x y = true ↔ x = y) (hv : ∀ x ∈ v, x ∈ ps) :
    nameFromRepr (κ := κ) eqv name ps (.many v) = .ok (.many (v.map name)) ∧
    ∀ x, nameFromRepr (κ := κ) eqv name ps (.one x) = .ok (.one (name x)) := by
  refine ⟨?_, fun _ => rfl⟩
  change Except.ok (NameRes.many (fillVect eqv name ps v)) = _
  congr 2
  unfold fillVect
  induction v with
  | nil => rfl
  | cons a v ih =>
    rw [List.flatMap_cons, List.map_cons, ih fun x hx => hv x (List.mem_cons_of_mem _ hx)]
    have ha := hv a (by simp)
    have : (ps.filter fun x => eqv a x) = [a] := by
      classical
      have e : (ps.filter fun x => eqv a x) = ps.filter fun x => x == a := by
        apply List.filter_congr
        intro x hx
        rw [Bool.eq_iff_iff, he a ha x hx, beq_iff_eq]
        exact eq_comm
      rw [e, List.filter_beq, List.count_eq_one_of_mem hnd ha]
      rfl
    rw [this]
    rfl

/-- C113: what is unknown, or is equal to two polygons of the group, is left out without notice. -/
theorem C113_names_dropped (eqv : α → α → Bool) (name : α → ν) (ps : List α) (x : α) :
    ((∀ y ∈ ps, eqv x y = false) → nameFromRepr (κ := κ) eqv name ps (.many [x]) = .ok (.many [])) ∧
    (∀ pre mid post y z, ps = pre ++ y :: mid ++ z :: post → eqv x y = true → eqv x z = true →
      nameFromRepr (κ := κ) eqv name ps (.many [x]) = .ok (.many [])) ∧
    nameFromRepr (κ := κ) eqv name ps .other = .error .generic := by
  refine ⟨?_, ?_, rfl⟩
  · intro h
    unfold nameFromRepr fillVect
    have : (ps.filter fun y => eqv x y) = [] := by
      rw [List.filter_eq_nil_iff]; intro y hy; simp [h y hy]
    simp [this]
  · rintro pre mid post y z rfl hy hz
    change Except.ok (NameRes.many (fillVect eqv name _ [x])) = _
    unfold fillVect
    have : 2 ≤ ((pre ++ y :: mid ++ z :: post).filter fun y => eqv x y).length := by
      simp only [List.filter_append, List.filter_cons, hy, hz, if_true, List.length_append, List.length_cons]
      omega
    rw [List.flatMap_cons, List.flatMap_nil, List.append_nil]
    generalize (pre ++ y :: mid ++ z :: post).filter (fun y => eqv x y) = m at *
    match m, this with
    | a :: b :: m, _ => rfl

/-- C113: `segments_from_points` gives, in their order, the polygons with at least one segment both ends of which are among the
points. -/
theorem C113_from_points (hR : R.IsRounding) (h : Heap K) (G : List PLine) (points : List (Pt K))
    (hap : Apart R.tol (locs h (G.flatMap PLine.segs) ∪ {p | p ∈ points})) :
    (R.segmentsFromPoints h G points).Sublist (List.range G.length) ∧
    ∀ k (hk : k < G.length), k ∈ R.segmentsFromPoints h G points ↔
      ∃ s ∈ G[k].segs, (h.val s).i ∈ points ∧ (h.val s).j ∈ points := by
  have hloc : ∀ s ∈ G.flatMap PLine.segs, (h.val s).i ∈ locs h (G.flatMap PLine.segs) ∧ (h.val s).j ∈ locs h (G.flatMap PLine.segs) :=
    fun s hs => ⟨⟨s, hs, Or.inl rfl⟩, ⟨s, hs, Or.inr rfl⟩⟩
  have hin : ∀ p ∈ locs h (G.flatMap PLine.segs), R.inPoints p points = true ↔ p ∈ points := by
    intro p hp
    unfold Rt.inPoints
    rw [List.any_eq_true]
    constructor
    · rintro ⟨q, hq, e⟩
      have : q = p := (C04_apart hR hap (Or.inr hq) (Or.inl hp)).1.1 e
      exact this ▸ hq
    · intro h
      exact ⟨p, h, hR.peq_refl p⟩
  refine ⟨List.filter_sublist, ?_⟩
  intro k hk
  unfold Rt.segmentsFromPoints
  dsimp only
  rw [List.mem_filter, List.mem_range, List.getElem?_eq_getElem hk, Option.any_some, List.any_eq_true]
  have hG : ∀ s ∈ G[k].segs, s ∈ G.flatMap PLine.segs := fun s hs => List.mem_flatMap.2 ⟨_, List.getElem_mem hk, hs⟩
  constructor
  · rintro ⟨-, y, hy, hs⟩
    obtain ⟨hy, h1⟩ := List.mem_filter.1 hy
    rw [Bool.and_eq_true, hin _ (hloc y hy).1, hin _ (hloc y hy).2] at h1
    unfold Rt.inSegs at hs
    rw [List.any_eq_true] at hs
    obtain ⟨z, hz, e⟩ := hs
    refine ⟨z, hz, ?_⟩
    rw [Bool.or_eq_true, decide_eq_true_eq] at e
    rcases e with rfl | e
    · exact h1
    · unfold Rt.seq at e
      simp only [Bool.and_eq_true] at e
      have e1 := (C04_apart hR hap (Or.inl (hloc z (hG z hz)).1) (Or.inl (hloc y hy).1)).1.1 e.1.2
      have e2 := (C04_apart hR hap (Or.inl (hloc z (hG z hz)).2) (Or.inl (hloc y hy).2)).1.1 e.2
      rw [e1, e2]
      exact h1
  · rintro ⟨s, hs, h1, h2⟩
    refine ⟨hk, s, ?_, ?_⟩
    · rw [List.mem_filter, Bool.and_eq_true, hin _ (hloc s (hG s hs)).1, hin _ (hloc s (hG s hs)).2]
      exact ⟨hG s hs, h1, h2⟩
    · unfold Rt.inSegs
      rw [List.any_eq_true]
      exact ⟨s, hs, by simp⟩

/-- C113: `as_edgelist` is a TypeError as soon as two segments of the group differ in one of their ends. -/
theorem C113_edgelist (hR : R.IsRounding) (h : Heap K) (G : List PLine)
    (hap : Apart R.tol (locs h (G.flatMap PLine.segs))) (hnull : ∀ P ∈ G, ∀ s ∈ P.segs, (h.val s).i ≠ (h.val s).j) :
    ((R.asEdgelist h G).2 = .error .type ↔ ∃ s ∈ G.flatMap PLine.segs, ∃ t ∈ G.flatMap PLine.segs,
      ((h.val s).i, (h.val s).j) ≠ ((h.val t).i, (h.val t).j)) ∧
    ((∀ s ∈ G.flatMap PLine.segs, ∀ t ∈ G.flatMap PLine.segs, ((h.val s).i, (h.val s).j) = ((h.val t).i, (h.val t).j)) →
      (R.asEdgelist h G).2 = .ok ((h.vals (G.flatMap PLine.segs)).map fun s => (s.i, s.j))) := by
  have hv : (R.reprGraph h G).1.vals (G.flatMap PLine.segs) = h.vals (G.flatMap PLine.segs) := by
    unfold Heap.vals
    exact List.map_congr_left fun s _ => (C66_shared hR h G hap hnull).2.2.1 s
  have hmem : ∀ s ∈ h.vals (G.flatMap PLine.segs), s.i ∈ locs h (G.flatMap PLine.segs) ∧ s.j ∈ locs h (G.flatMap PLine.segs) := by
    intro s hs
    obtain ⟨a, ha, rfl⟩ := List.mem_map.1 hs
    exact ⟨⟨a, ha, Or.inl rfl⟩, ⟨a, ha, Or.inr rfl⟩⟩
  have adj : ∀ l : List (Seg K), (∀ s ∈ l, s.i ∈ locs h (G.flatMap PLine.segs) ∧ s.j ∈ locs h (G.flatMap PLine.segs)) →
      (((l.zip l.tail).all fun x => R.endsEq x.1 x.2) = true ↔ ∀ s ∈ l, ∀ t ∈ l, (s.i, s.j) = (t.i, t.j)) := by
    intro l
    induction l with
    | nil => intro _; simp
    | cons a l ih =>
      intro hm
      cases l with
      | nil => simp
      | cons b l =>
        have ih := ih fun s hs => hm s (List.mem_cons_of_mem _ hs)
        rw [List.tail_cons] at ih
        rw [List.tail_cons, List.zip_cons_cons, List.all_cons, Bool.and_eq_true, ih]
        have hab : R.endsEq a b = true ↔ (a.i, a.j) = (b.i, b.j) := by
          unfold Rt.endsEq
          rw [Bool.and_eq_true, (C04_apart hR hap (hm a (by simp)).1 (hm b (by simp)).1).1,
            (C04_apart hR hap (hm a (by simp)).2 (hm b (by simp)).2).1, Prod.mk.injEq]
        rw [hab]
        constructor
        · rintro ⟨h1, h2⟩ s hs t ht
          have : ∀ s ∈ a :: b :: l, (s.i, s.j) = (b.i, b.j) := by
            intro s hs
            rcases List.mem_cons.1 hs with rfl | hs
            · exact h1
            · exact h2 s hs b (by simp)
          rw [this s hs, this t ht]
        · intro h
          exact ⟨h a (by simp) b (by simp), fun s hs t ht => h s (List.mem_cons_of_mem _ hs) t (List.mem_cons_of_mem _ ht)⟩
  have key := adj _ hmem
  have hall : (∀ s ∈ h.vals (G.flatMap PLine.segs), ∀ t ∈ h.vals (G.flatMap PLine.segs), (s.i, s.j) = (t.i, t.j)) ↔
      ∀ s ∈ G.flatMap PLine.segs, ∀ t ∈ G.flatMap PLine.segs, ((h.val s).i, (h.val s).j) = ((h.val t).i, (h.val t).j) := by
    unfold Heap.vals
    simp only [List.forall_mem_map]
  rw [hall] at key
  unfold Rt.asEdgelist
  dsimp only
  rw [hv]
  constructor
  · split_ifs with hc
    · have := key.1 hc
      constructor
      · intro h; cases h
      · rintro ⟨s, hs, t, ht, hne⟩
        exact absurd (this s hs t ht) hne
    · refine iff_of_true rfl ?_
      rw [key] at hc
      push Not at hc
      exact hc
  · intro h
    rw [if_pos (key.2 h)]

/-- C113: `discontinuity` lists the segments that are not continuous with the one before; it is empty iff the polyline is
continuous. -/
theorem C113_discontinuity (l : List (Seg K)) : (R.discontinuity l = [] ↔ R.isContinuous l = true) ∧
    ∀ s, s ∈ R.discontinuity l ↔ ∃ k, ∃ hk : k + 1 < l.length, R.continuous l[k] l[k + 1] = false ∧ s = l[k + 1] := by
  have hz : ∀ x, x ∈ l.zip l.tail ↔ ∃ k, ∃ hk : k + 1 < l.length, x = (l[k], l[k + 1]) := by
    intro x
    rw [List.mem_iff_getElem]
    constructor
    · rintro ⟨k, hk, rfl⟩
      rw [List.length_zip, List.length_tail] at hk
      exact ⟨k, by omega, by simp⟩
    · rintro ⟨k, hk, rfl⟩
      exact ⟨k, by rw [List.length_zip, List.length_tail]; omega, by simp⟩
  constructor
  · unfold Rt.discontinuity Rt.isContinuous
    rw [List.map_eq_nil_iff, List.filter_eq_nil_iff, List.all_eq_true]
    exact forall₂_congr fun x _ => by simp
  · intro s
    unfold Rt.discontinuity
    rw [List.mem_map]
    constructor
    · rintro ⟨x, hx, rfl⟩
      obtain ⟨hx, hc⟩ := List.mem_filter.1 hx
      obtain ⟨k, hk, rfl⟩ := (hz x).1 hx
      exact ⟨k, hk, by simpa using hc, rfl⟩
    · rintro ⟨k, hk, hc, rfl⟩
      exact ⟨(l[k], l[k + 1]), List.mem_filter.2 ⟨(hz _).2 ⟨k, hk, rfl⟩, by simpa using hc⟩, rfl⟩

/-- C113: in a closed chain with different, separated corners `next_segment` of a side is the side that follows it, after the
last one the first. -/
theorem C113_next (hR : R.IsRounding) (l : List (Seg K)) (hc : ClosedChain l) (hnd : (l.map Seg.i).Nodup)
    (hap : Apart R.tol {p | p ∈ l.map Seg.i}) (k : ℕ) (hk : k < l.length) :
    R.nextSegment l l[k] true = .ok (l[(k + 1) % l.length]'(Nat.mod_lt _ (by omega))) := by
  unfold Rt.nextSegment
  rw [if_pos rfl, isClosed_of_chain hR (by rintro rfl; simp at hk) hc]
  dsimp only
  have hn : (k + 1) % l.length < l.length := Nat.mod_lt _ (by omega)
  have : (l.filter fun x => R.peq x.i l[k].j) = [l[(k + 1) % l.length]] := by
    classical
    have hndl : l.Nodup := List.Nodup.of_map _ hnd
    have e : (l.filter fun x => R.peq x.i l[k].j) = l.filter fun x => x == l[(k + 1) % l.length] := by
      apply List.filter_congr
      intro x hx
      rw [hc k hk, Bool.eq_iff_iff, beq_iff_eq]
      rw [(C04_apart hR hap (List.mem_map_of_mem hx) (List.mem_map_of_mem (List.getElem_mem hn))).1]
      constructor
      · intro e
        exact List.inj_on_of_nodup_map hnd hx (List.getElem_mem hn) e
      · intro e; rw [e]
    rw [e, List.filter_beq, List.count_eq_one_of_mem hndl (List.getElem_mem hn)]
    rfl
  rw [this]

/-- C113: `next_segment` of a polyline that is not closed is an AssertionError, and with `isclosed=False` it is not implemented.
-/
theorem C113_next_open (l : List (Seg K)) (s : Seg K) :
    (R.isClosed l = .ok false → R.nextSegment l s true = .error .assertion) ∧
    R.nextSegment l s false = .error .notImplemented := by
  constructor
  · intro h
    unfold Rt.nextSegment
    rw [if_pos rfl, h]
  · rfl

/-! ### examples -/

/-- a square -/
example : exRt.nextSegment [exSeg 0 0 1 0, exSeg 1 0 1 1, exSeg 1 1 0 1, exSeg 0 1 0 0] (exSeg 0 1 0 0) true =
    .ok (exSeg 0 0 1 0) := by
  refine C113_next exRt_isRounding [exSeg 0 0 1 0, exSeg 1 0 1 1, exSeg 1 1 0 1, exSeg 0 1 0 0] ?_ (by decide +kernel) ?_ 3 (by decide)
  · intro k hk
    have : ∀ k : Fin 4, ([exSeg 0 0 1 0, exSeg 1 0 1 1, exSeg 1 1 0 1, exSeg 0 1 0 0][k.val]).j =
      ([exSeg 0 0 1 0, exSeg 1 0 1 1, exSeg 1 1 0 1, exSeg 0 1 0 0][(k.val + 1) % 4]'(Nat.mod_lt _ (by decide))).i := by decide +kernel
    exact this ⟨k, hk⟩
  · have : ∀ p ∈ [exSeg 0 0 1 0, exSeg 1 0 1 1, exSeg 1 1 0 1, exSeg 0 1 0 0].map Seg.i,
        ∀ q ∈ [exSeg 0 0 1 0, exSeg 1 0 1 1, exSeg 1 1 0 1, exSeg 0 1 0 0].map Seg.i, p ≠ q →
          exRt.tol ≤ |p.x - q.x| ∨ exRt.tol ≤ |p.y - q.y| := by decide +kernel
    exact this

/-- a polygon and one that is twice in the group -/
example : polygonFromRepr (fun x y : ℕ => decide (x = y)) [1, 2, 3, 2] 3 = .ok 3 ∧
    (polygonFromRepr (fun x y : ℕ => decide (x = y)) [1, 2, 3, 2] 2).toOption = none ∧
    fillVect (fun x y : ℕ => decide (x = y)) (fun x => x + 10) [1, 2, 3, 2] [3, 2, 1, 7] = [13, 11] := by decide

/-- the edges of a triangle cannot be listed, those of a single segment can -/
example : (exRt.asEdgelist exTriangle [⟨[0], true⟩, ⟨[1, 2], true⟩]).2.toOption = none ∧
    (exRt.asEdgelist exTriangle [⟨[0], true⟩]).2.toOption.isSome = true ∧
    exRt.segmentsFromPoints exTriangle [⟨[0], true⟩, ⟨[1, 2], true⟩] [(exTriangle.val 0).i, (exTriangle.val 0).j] = [0] := by decide +kernel

end Srep
