import Verif.Model.RaumPoly
import Verif.Props.Build
import Verif.Props.Mantel
import Verif.Props.Raum

/-! Properties of `as_polygon`, `wall_segments` and `nonwall_segments`. -/

set_option linter.unusedSectionVars false

namespace Srep
open Rt
variable {K : Type} [Field K] [LinearOrder K] [IsStrictOrderedRing K] [FloorRing K]
variable {α β : Type}

/-- C137: `wall_segments` and `nonwall_segments` have no segment in common; together they are all segments exactly if there is no
plain LineSegment among these. -/
theorem C137_classes (l : List (Seg K)) :
    (∀ s ∈ wallsOf l, s ∉ nonWallsOf l) ∧ ((wallsOf l ++ nonWallsOf l).Perm l ↔ ∀ s ∈ l, s.cls ≠ .line) := by
  refine ⟨?_, ?_, ?_⟩
  · intro s hs ht
    have a := of_decide_eq_true (List.mem_filter.1 hs).2
    have b := of_decide_eq_true (List.mem_filter.1 ht).2
    rw [a] at b; cases b
  · intro h s hs e
    rcases List.mem_append.1 (h.mem_iff.2 hs) with hm | hm
    · have a := of_decide_eq_true (List.mem_filter.1 hm).2
      rw [e] at a; cases a
    · have a := of_decide_eq_true (List.mem_filter.1 hm).2
      rw [e] at a; cases a
  · intro h
    have e : nonWallsOf l = l.filter fun s => !decide (s.cls = .wall) := by
      refine List.filter_congr fun s hs => ?_
      have := h s hs
      cases e : s.cls <;> simp_all
    rw [e]
    exact List.filter_append_perm _ l

/-- C137: `as_polygon` consists exactly of the Walls of the parts of the inner and outer walls of the room. -/
theorem C137_members (r : Raum α) (ht : α → β) (segs : β → List (Seg K)) (s : Seg K) :
    s ∈ r.asPolygon ht segs ↔ s.cls = .wall ∧ ∃ w, (w ∈ r.inner ∨ w ∈ r.outer) ∧ ∃ g ∈ w, s ∈ segs (ht g) := by
  simp only [Raum.asPolygon, Raum.ganzeWandung, Raum.innereWandung, Raum.aussereWandung, wallsOf, List.mem_flatMap, List.mem_append,
    List.mem_map, List.mem_flatten, List.mem_filter, decide_eq_true_eq]
  constructor
  · rintro ⟨p, ⟨g, ⟨w, hw, hg⟩, rfl⟩ | ⟨g, ⟨w, hw, hg⟩, rfl⟩, hs, hc⟩
    · exact ⟨hc, w, Or.inl hw, g, hg, hs⟩
    · exact ⟨hc, w, Or.inr hw, g, hg, hs⟩
  · rintro ⟨hc, w, hw | hw, g, hg, hs⟩
    · exact ⟨_, Or.inl ⟨g, ⟨w, hw, hg⟩, rfl⟩, hs, hc⟩
    · exact ⟨_, Or.inr ⟨g, ⟨w, hw, hg⟩, rfl⟩, hs, hc⟩

/-- C137: the inner walls come first, and every part contributes its Walls as often as it is listed. -/
theorem C137_count (r : Raum α) (ht : α → β) (segs : β → List (Seg K)) (s : Seg K) :
    (∃ a b, r.asPolygon ht segs = a ++ b ∧ (∀ w ∈ r.inner, ∀ g ∈ w, ∀ t ∈ segs (ht g), t.cls = .wall → t ∈ a) ∧
      a.length = ((r.inner.flatten.map fun g => (wallsOf (segs (ht g))).length).sum) ∧
      b.length = ((r.outer.flatten.map fun g => (wallsOf (segs (ht g))).length).sum)) ∧
    (r.asPolygon ht segs).count s =
      if s.cls = .wall then (((r.inner ++ r.outer).flatten.map fun g => (segs (ht g)).count s).sum) else 0 := by
  have e : r.asPolygon ht segs = (r.inner.flatten.flatMap fun g => wallsOf (segs (ht g))) ++
      r.outer.flatten.flatMap fun g => wallsOf (segs (ht g)) := by
    simp only [Raum.asPolygon, Raum.ganzeWandung, Raum.innereWandung, Raum.aussereWandung, List.flatMap_append, List.flatMap_map]
  refine ⟨⟨_, _, e, ?_, ?_, ?_⟩, ?_⟩
  · intro w hw g hg t ht' hc
    exact List.mem_flatMap.2 ⟨g, List.mem_flatten.2 ⟨w, hw, hg⟩, List.mem_filter.2 ⟨ht', by simpa using hc⟩⟩
  · rw [List.length_flatMap]
  · rw [List.length_flatMap]
  · rw [e, ← List.flatMap_append, ← List.flatten_append, List.count_flatMap]
    split
    next hc =>
      congr 1
      refine List.map_congr_left fun g _ => ?_
      show (wallsOf _).count s = _
      exact List.count_filter (by simpa using hc)
    next hc =>
      refine List.sum_eq_zero fun n hn => ?_
      obtain ⟨g, -, rfl⟩ := List.mem_map.1 hn
      refine List.count_eq_zero.2 fun hm => hc ?_
      simpa using (List.mem_filter.1 hm).2

theorem isContinuous_inner {R : Rt K} {l : List (Seg K)} (x y : List (Seg K)) (h : R.isContinuous l = false) :
    R.isContinuous (x ++ l ++ y) = false := by
  have hy : R.isContinuous (l ++ y) = false := by
    induction y using List.reverseRecOn with
    | nil => simpa using h
    | append_singleton y s ih => rw [← List.append_assoc, isContinuous_append, ih, Bool.false_and]
  induction x with
  | nil => simpa using hy
  | cons a x ih =>
    have ih' : R.isContinuous (x ++ (l ++ y)) = false := by simpa using ih
    rw [List.append_assoc, List.cons_append]
    generalize x ++ (l ++ y) = z at ih'
    cases z with
    | nil => simp [isContinuous] at ih'
    | cons b z =>
      unfold isContinuous at ih' ⊢
      simp only [List.tail_cons, List.zip_cons_cons, List.all_cons] at ih' ⊢
      rw [ih', Bool.and_false]

/-- C137: if the Walls of one of the parts are not a continuous polyline by themselves, `as_polygon` is neither continuous nor valid
nor closed, and `close` does not close it. -/
theorem C137_torn (R : Rt K) (r : Raum α) (ht : α → β) (segs : β → List (Seg K)) {w : List α} (hw : w ∈ r.inner ∨ w ∈ r.outer) {g : α}
    (hg : g ∈ w) (hd : R.isContinuous (wallsOf (segs (ht g))) = false) :
    R.isContinuous (r.asPolygon ht segs) = false ∧ R.plValid (r.asPolygon ht segs) = false ∧
    R.isClosed (r.asPolygon ht segs) = .ok false ∧
    ∃ s, R.close (r.asPolygon ht segs) = .ok (r.asPolygon ht segs ++ [s]) ∧
      R.isClosed (r.asPolygon ht segs ++ [s]) = .ok false := by
  have hc : R.isContinuous (r.asPolygon ht segs) = false := by
    have hm : ht g ∈ r.ganzeWandung ht := by
      rcases hw with hw | hw
      · exact List.mem_append_left _ (List.mem_map_of_mem (List.mem_flatten.2 ⟨w, hw, hg⟩))
      · exact List.mem_append_right _ (List.mem_map_of_mem (List.mem_flatten.2 ⟨w, hw, hg⟩))
    obtain ⟨x, y, e⟩ := List.append_of_mem hm
    unfold Raum.asPolygon
    rw [e, List.flatMap_append, List.flatMap_cons, ← List.append_assoc]
    exact isContinuous_inner _ _ hd
  obtain ⟨s, h1, -, h3⟩ := C37_close_torn R _ hc
  refine ⟨hc, ?_, ?_, s, h1, h3⟩
  · simp [plValid, hc]
  · simp [isClosed, hc]

/-- C137: so no room with an uncut shell or cone among its walls has an `as_polygon` that is valid or closed. -/
theorem C137_mantel {R : Rt K} (hR : R.IsRounding) (h : Heap K) (m : MantelDim K) (hc : CornersApart R m) (r : Raum α) (ht : α → β)
    (segs : β → List (Seg K)) {w : List α} (hw : w ∈ r.inner ∨ w ∈ r.outer) {g : α} (hg : g ∈ w)
    (hm : segs (ht g) = (R.mantelNew h m .nonWall).1.vals (R.mantelNew h m .nonWall).2.line.segs) :
    R.plValid (r.asPolygon ht segs) = false ∧ R.isClosed (r.asPolygon ht segs) = .ok false ∧
    ∃ s, R.close (r.asPolygon ht segs) = .ok (r.asPolygon ht segs ++ [s]) ∧
      R.isClosed (r.asPolygon ht segs ++ [s]) = .ok false := by
  have hap : Apart R.tol {q | ∃ a < 4, q = R.mantelCorner m a} := by
    rintro p ⟨a, ha, rfl⟩ q ⟨b, hb, rfl⟩ hne
    by_cases e : a = b
    · rw [e] at hne; exact absurd rfl hne
    · exact (hc a ha b hb e).2
  have hpe : ∀ a < 4, ∀ b < 4, a ≠ b → R.peq (R.mantelCorner m a) (R.mantelCorner m b) = false := by
    intro a ha b hb e
    rw [← Bool.not_eq_true, (C04_apart hR hap ⟨a, ha, rfl⟩ ⟨b, hb, rfl⟩).1]
    exact (hc a ha b hb e).1
  refine (C137_torn R r ht segs hw hg ?_).2
  rw [hm, (C72_outline hR h m hc).1]
  have e : wallsOf (outline (R.mantelCorner m 0) (R.mantelCorner m 1) (R.mantelCorner m 2) (R.mantelCorner m 3) .nonWall) =
      [⟨R.mantelCorner m 0, R.mantelCorner m 1, .wall⟩, ⟨R.mantelCorner m 2, R.mantelCorner m 3, .wall⟩] := by
    simp [wallsOf, outline]
  rw [e]
  simp [isContinuous, Rt.continuous, hpe 1 (by decide) 2 (by decide) (by decide), hpe 0 (by decide) 3 (by decide) (by decide)]

/-- C137: the rooms made by `raum_erstellen`: a room whose cycle contains no other cycle has exactly the Walls of the parts of its cycle
in its `as_polygon`; and with an uncut shell among the parts of the cycle it is neither valid nor closed. -/
theorem C137_rooms {R : Rt K} (hR : R.IsRounding) {inter : List α → List α → List α} {eqv : α → α → Bool} {n : ℕ} {p : ℕ → List α}
    (hi : ∀ a b x, x ∈ inter a b ↔ x ∈ a ∧ x ∈ b) (hq : ∀ x y, eqv x y = true ↔ x = y) (con : ℕ → List ℕ)
    (hcon : ∀ c, ∀ s ∈ con c, s < n) (rooms : List (Raum α)) (hr : raumErstellen inter eqv (partsOf n p) con = .ok rooms)
    (r : Raum α) (hm : r ∈ rooms) (ht : α → β) (segs : β → List (Seg K)) :
    (con r.cycle = [] → ∀ s, s ∈ r.asPolygon ht segs ↔ s.cls = .wall ∧ ∃ g ∈ p r.cycle, s ∈ segs (ht g)) ∧
    ((∃ g ∈ p r.cycle, ∃ (h : Heap K) (m : MantelDim K), CornersApart R m ∧
        segs (ht g) = (R.mantelNew h m .nonWall).1.vals (R.mantelNew h m .nonWall).2.line.segs) →
      R.plValid (r.asPolygon ht segs) = false ∧ R.isClosed (r.asPolygon ht segs) = .ok false) := by
  obtain ⟨ho, hin, -⟩ := (C91_walls hi hq con hcon rooms hr).2 r hm
  refine ⟨fun h0 s => ?_, ?_⟩
  · rw [C137_members, ho, hin h0]
    simp
  · rintro ⟨g, hg, h, m, hc, e⟩
    obtain ⟨h1, h2, -⟩ := C137_mantel hR h m hc r ht segs (w := p r.cycle) (Or.inr (by rw [ho]; simp)) hg e
    exact ⟨h1, h2⟩

/-! ### example: a room whose only outer wall is a shell -/

example : CornersApart exRt ⟨0, 0, 2, 2, 5⟩ ∧ ∃ r : Raum Unit, [()] ∈ r.outer ∧
    (r.asPolygon id fun _ => outline (exRt.mantelCorner ⟨0, 0, 2, 2, 5⟩ 0) (exRt.mantelCorner ⟨0, 0, 2, 2, 5⟩ 1)
      (exRt.mantelCorner ⟨0, 0, 2, 2, 5⟩ 2) (exRt.mantelCorner ⟨0, 0, 2, 2, 5⟩ 3) .nonWall).length = 2 := by
  refine ⟨?_, ⟨0, [[()]], []⟩, by simp, by simp [Raum.asPolygon, Raum.ganzeWandung, Raum.innereWandung, Raum.aussereWandung, wallsOf, outline]⟩
  unfold CornersApart
  decide +kernel

end Srep
