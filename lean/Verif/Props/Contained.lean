import Verif.Model.Contained
import Verif.Lemmas.HullC
import Verif.Props.Group
import Verif.Props.RaySide

/-! Which cycles `contained_cycles` lists under which (C92). -/

set_option linter.unusedSectionVars false

namespace Srep
open Rt
variable {K : Type} [Field K] [LinearOrder K] [IsStrictOrderedRing K] [FloorRing K] {R : Rt K}

theorem apart_mono {t : K} {S T : Set (Pt K)} (h : Apart t S) (hs : ∀ p ∈ T, p ∈ S) : Apart t T :=
  fun p hp q hq hne => h p (hs p hp) q (hs q hq) hne

theorem mem_cyclePoints (hR : R.IsRounding) {c : List (List (Seg K))} (h : Apart R.tol (corners c)) (p : Pt K) :
    p ∈ R.cyclePoints c ↔ p ∈ corners c := by
  unfold Rt.cyclePoints corners
  rw [List.mem_flatMap]
  constructor
  · rintro ⟨m, hm, hp⟩
    exact ⟨m, hm, mem_endPts'.1 (mem_pointSet_sub R m p hp)⟩
  · rintro ⟨m, hm, hp⟩
    refine ⟨m, hm, (mem_pointSet hR (sep_of_ends hR (apart_mono h ?_)).hashOK p).2 hp⟩
    rintro q ⟨s, hs, hq⟩
    exact ⟨m, hm, s, hs, hq⟩

theorem hashOK_cyclePoints (hR : R.IsRounding) {c : List (List (Seg K))} (h : Apart R.tol (corners c)) :
    R.HashOK (R.cyclePoints c) :=
  (sep_of_apart hR (apart_mono h fun p hp => (mem_cyclePoints hR h p).1 hp)).hashOK

theorem internalPts_filter (R : Rt K) (l : List (Seg K)) (fuel : ℕ) (f : Pt K → Bool) : ∀ (ps : List (Pt K))
    (ω : ℕ → ℕ → Pt K), (∀ p ∈ ps, ∀ n, R.plInternal l p (ω n) fuel = some (f p)) →
    R.internalPts l fuel ω ps = some (ps.filter f) := by
  intro ps
  induction ps with
  | nil => intro ω _; rfl
  | cons p ps ih =>
    intro ω h
    unfold Rt.internalPts
    rw [h p (by simp) 0]
    dsimp only
    rw [ih (fun n => ω (n + 1)) fun q hq n => h q (by simp [hq]) (n + 1), List.filter_cons]
    cases f p <;> rfl

/-- whatever the targets are: what `internalPts` keeps are members of the list, and it keeps no point that compares
equal to a vertex -/
theorem internalPts_sub (R : Rt K) (l : List (Seg K)) (fuel : ℕ) : ∀ (ps : List (Pt K)) (ω : ℕ → ℕ → Pt K) (i : List (Pt K)),
    R.internalPts l fuel ω ps = some i → ∀ p ∈ i, p ∈ ps ∧ (R.pointSet l).any (fun q => R.peq q p) = false := by
  intro ps
  induction ps with
  | nil => intro ω i h p hp; cases h; simp at hp
  | cons a ps ih =>
    intro ω i h p hp
    unfold Rt.internalPts at h
    match hb : R.plInternal l a (ω 0) fuel, h with
    | some b, h =>
      match hr : R.internalPts l fuel (fun n => ω (n + 1)) ps, h with
      | some r, h =>
        simp only [Option.map_some, Option.some.injEq] at h
        have hrec : p ∈ r → p ∈ a :: ps ∧ (R.pointSet l).any (fun q => R.peq q p) = false := fun hp =>
          ⟨by simp [(ih _ r hr p hp).1], (ih _ r hr p hp).2⟩
        cases b with
        | false => simp only [Bool.false_eq_true, if_false] at h; rw [← h] at hp; exact hrec hp
        | true =>
          simp only [if_true] at h
          rw [← h, List.mem_cons] at hp
          rcases hp with rfl | hp
          · refine ⟨by simp, ?_⟩
            unfold Rt.plInternal at hb
            split at hb
            · simp at hb
            · rename_i hn; simpa using hn
          · exact hrec hp

theorem corners_pairs (hR : R.IsRounding) {c : List (List (Seg K))} (h : Apart R.tol (corners c)) :
    {q | ∃ p ∈ (R.cyclePoints c).map (fun w => (w.x, w.y)), q = pairPt p} = corners c := by
  ext q
  simp only [Set.mem_ofPred_eq, List.mem_map]
  constructor
  · rintro ⟨p, ⟨a, ha, rfl⟩, rfl⟩
    exact (mem_cyclePoints hR h a).1 ha
  · intro hq
    exact ⟨(q.x, q.y), ⟨q, (mem_cyclePoints hR h q).2 hq, rfl⟩, rfl⟩

/-- the hull polygon of a cycle -/
theorem cycle_hull (hE : R.IsExact) {e : List (List (Seg K))} (hpl : Plane (corners e))
    (hg : ∀ p ∈ corners e, Grid p.x ∧ Grid p.y) (hap : Apart (1 / 10 ^ 5) (corners e)) :
    ∃ l n w, R.convexHull ((R.cyclePoints e).map fun w => (w.x, w.y)) = .inr (.ok l) ∧ HullCycle (corners e) n w ∧
      SidesOf l n w ∧ ConvexCcw l := by
  have hR := hE.isRounding
  have hap' : Apart R.tol (corners e) := by rw [hE.tol']; exact hap
  have hc := corners_pairs hR hap'
  have := convexHull_sides hE ((R.cyclePoints e).map fun w => (w.x, w.y)) (by rw [hc]; exact hpl) (by
    intro p hp
    rw [List.mem_map] at hp
    obtain ⟨a, ha, rfl⟩ := hp
    exact hg a ((mem_cyclePoints hR hap' a).1 ha)) (by rw [hc]; exact hap)
  rwa [hc] at this

theorem goodTarget_of {S : Set (Pt K)} {n : ℕ} {w : ℕ → Pt K} (H : HullCycle S n w) {l : List (Seg K)}
    (hl : SidesOf l n w) {p t : Pt K} (h : GoodFor S p t) : GoodTarget l p t ∧ Spread l p t := by
  have hmem : ∀ q, (∃ s ∈ l, q = s.i ∨ q = s.j) → Extreme S q := fun q hq => (H.ends_iff hl q).1 hq
  refine ⟨⟨h.right, ?_, ?_, ?_⟩, ?_⟩
  · intro s hs
    exact ⟨h.beyond _ (hmem s.i ⟨s, hs, Or.inl rfl⟩).1, h.beyond _ (hmem s.j ⟨s, hs, Or.inr rfl⟩).1⟩
  · intro s hs
    exact ⟨h.noVertex _ (hmem s.i ⟨s, hs, Or.inl rfl⟩), h.noVertex _ (hmem s.j ⟨s, hs, Or.inr rfl⟩)⟩
  · intro s hs
    obtain ⟨k, hk, rfl⟩ := List.getElem_of_mem hs
    rw [hl.2 k hk]
    exact h.clear _ _ (H.supports k)
  · apply apart_mono h.spread
    rintro q (rfl | rfl | hq)
    · exact Or.inl rfl
    · exact Or.inr (Or.inl rfl)
    · exact Or.inr (Or.inr (hmem q hq).1)

/-- the random targets that may be used -/
def used (ω : ℕ → ℕ → Pt K) : Set (Pt K) := {t | ∃ n k, k < 3 ∧ t = ω n k}

/-- the conditions under which the answer for `e` and `z` is determined: the corners of `e` are on the coordinate grid,
not on one line and at least 1e-5 apart, also those of `z`; the targets decide at all corners of `z` -/
structure Decided (e z : List (List (Seg K))) (ω : ℕ → ℕ → Pt K) : Prop where
  plane : Plane (corners e)
  grid : ∀ p ∈ corners e, Grid p.x ∧ Grid p.y
  apart : Apart (1 / 10 ^ 5) (corners e)
  apart' : Apart (1 / 10 ^ 5) (corners z)
  place : ∀ p ∈ corners z, Settled (corners e) (used ω) p

theorem not_inHull_of_mem_boundary {S : Set (Pt K)} {n : ℕ} {w : ℕ → Pt K} (H : HullCycle S n w) {p : Pt K}
    (h : Extreme S p) : ¬ InHull S p := by
  obtain ⟨k, rfl⟩ := H.vertex_of_extreme h
  intro hi
  have := (H.inHull_iff _).1 hi k
  unfold det3 at this
  simp at this

theorem not_inHull_of_offHull {S : Set (Pt K)} {p : Pt K} (h : OffHull S p) : ¬ InHull S p := by
  obtain ⟨a, b, hs, hn⟩ := h
  exact fun hi => absurd (hi a b hs) (not_lt.2 hn.le)

theorem used_nonempty (ω : ℕ → ℕ → Pt K) : ∃ t, t ∈ used ω := ⟨ω 0 0, 0, 0, by omega, rfl⟩

theorem plInternal_settled (hE : R.IsExact) {S : Set (Pt K)} {n : ℕ} {w : ℕ → Pt K} (H : HullCycle S n w)
    {l : List (Seg K)} (hl : SidesOf l n w) (hc : ConvexCcw l) (hap : Apart (1 / 10 ^ 5) S) (ω : ℕ → ℕ → Pt K) (p : Pt K)
    (hp : Settled S (used ω) p) (m fuel : ℕ) :
    ∃ b, R.plInternal l p (ω m) (fuel + 1) = some b ∧ (b = true ↔ Seems S (used ω) p) := by
  have hR := hE.isRounding
  have h3 : 3 ≤ l.length := by rw [hl.1]; exact H.three
  have hne : l ≠ [] := by
    rintro rfl
    simp at h3
  rcases hp with hx | ⟨hg, hcase⟩
  · refine ⟨false, ?_, ?_⟩
    · unfold Rt.plInternal
      rw [if_pos]
      rw [List.any_eq_true]
      refine ⟨p, (mem_pointSet hR ?_ p).2 ((H.ends_iff hl p).2 hx), hR.peq_refl p⟩
      apply (sep_of_ends hR (apart_mono (by rw [hE.tol']; exact hap) ?_)).hashOK
      intro q hq
      exact ((H.ends_iff hl q).1 hq).1
    · simp only [Bool.false_eq_true, false_iff]
      rintro (h | ⟨a, b, hs, hi, -⟩)
      · exact not_inHull_of_mem_boundary H hx h
      · exact not_extreme_of_inner hs.1.1 hs.1.2.1 hs.1.2.2.1 hi hx
  · have hg' := fun k (hk : k < 3) => goodTarget_of H hl (hg (ω m k) ⟨m, k, hk, rfl⟩)
    rcases hcase with h | h | ⟨a, b, hs, hi, hside⟩
    · exact ⟨true, (C84_inside hE l hc hne p ((H.inside_iff hl p).2 h) (ω m) hg' fuel).1, by simp [Seems, h]⟩
    · refine ⟨false, (C84_outside hE l hc p ((H.outside_iff hl p).2 h) (ω m) hg' fuel).1, ?_⟩
      simp only [Bool.false_eq_true, false_iff]
      rintro (h' | ⟨a, b, hs, ⟨u, u0, u1, rfl⟩, -⟩)
      · exact not_inHull_of_offHull h h'
      · obtain ⟨c, d, hcd, hn⟩ := h
        have g1 := mul_nonneg (sub_pos.2 u1).le (hcd.2.2.2 a hs.1.1)
        have g2 := mul_nonneg u0.le (hcd.2.2.2 b hs.1.2.1)
        rw [Ray.det3_lerp] at hn
        linarith
    · obtain ⟨k, rfl, rfl⟩ := H.side hs
      have hk : k % n < l.length := by rw [hl.1]; exact Nat.mod_lt _ H.pos
      have hmem : (⟨w k, w (k + 1), .line⟩ : Seg K) ∈ l := by
        have := List.getElem_mem hk
        rw [hl.2 _ hk, H.mod_eq, ← H.mod_eq (k % n + 1), Nat.mod_add_mod, H.mod_eq] at this
        exact this
      obtain ⟨c1, c2⟩ := C84_on_side hE l hc h3 _ hmem p hi (ω m) hg' fuel
      rcases hside with h | h
      · exact ⟨true, c1 fun k hk => h _ ⟨m, k, hk, rfl⟩, by simp only [true_iff]; exact Or.inr ⟨_, _, hs, hi, h⟩⟩
      · refine ⟨false, c2 fun k hk => h _ ⟨m, k, hk, rfl⟩, ?_⟩
        simp only [Bool.false_eq_true, false_iff]
        obtain ⟨u, u0, u1, rfl⟩ := hi
        rintro (h' | ⟨a, b, hs', hi', h'⟩)
        · have := h' _ _ hs.1
          rw [Ray.det3_lerp, Ray.det3_self, Ray.det3_self'] at this
          simp at this
        · obtain ⟨j, rfl, rfl⟩ := H.side hs'
          obtain ⟨v, v0, v1, e⟩ := hi'
          -- both sides contain the point, so they are the same side
          have e1 : det3 (w j) (w (j + 1)) (lerp (w k) (w (k + 1)) u) = 0 := by
            rw [e, Ray.det3_lerp, Ray.det3_self, Ray.det3_self']; ring
          rw [Ray.det3_lerp] at e1
          have g1 := H.left j _ (H.mem k)
          have g2 := H.left j _ (H.mem (k + 1))
          have p1 := mul_nonneg (sub_pos.2 u1).le g1
          have p2 := mul_nonneg u0.le g2
          have z1 : det3 (w j) (w (j + 1)) (w k) = 0 :=
            (mul_eq_zero.1 (show (1 - u) * det3 (w j) (w (j + 1)) (w k) = 0 by linarith)).resolve_left (sub_pos.2 u1).ne'
          have z2 : det3 (w j) (w (j + 1)) (w (k + 1)) = 0 :=
            (mul_eq_zero.1 (show u * det3 (w j) (w (j + 1)) (w (k + 1)) = 0 by linarith)).resolve_left u0.ne'
          obtain ⟨t, ht⟩ := used_nonempty ω
          have q1 := h t ht
          have q2 := h' t ht
          rcases H.strict j k with s1 | s1 | s1
          · rcases H.strict j (k + 1) with s2 | s2 | s2
            · exact H.ne k (s1.trans s2.symm)
            · rw [s1, s2] at q1; linarith
            · linarith
          · rcases H.strict j (k + 1) with s2 | s2 | s2
            · have := H.turn j
              have h4 := H.left k _ (H.mem (j + 2))
              rw [s1, s2] at h4
              have h5 : det3 (w (j + 1)) (w j) (w (j + 2)) = - det3 (w j) (w (j + 1)) (w (j + 2)) := by unfold det3; ring
              linarith
            · exact H.ne k (s1.trans s2.symm)
            · linarith
          · linarith

/-- C92: `z` counts as contained in `e` exactly if all of its corners are strictly inside of the convex hull of the
corners of `e`, or on a side of it that has the random targets on its outer side. -/
theorem C92_contains (hE : R.IsExact) (e z : List (List (Seg K))) (ω : ℕ → ℕ → Pt K) (hd : Decided e z ω) (fuel : ℕ) :
    ∃ b, R.containsCycle e z ω (fuel + 1) = .ok b ∧ (b = true ↔ ∀ p ∈ corners z, Seems (corners e) (used ω) p) := by
  classical
  have hR := hE.isRounding
  have hz : Apart R.tol (corners z) := by rw [hE.tol']; exact hd.apart'
  obtain ⟨l, n, w, hh, H, hl, hc⟩ := cycle_hull hE hd.plane hd.grid hd.apart
  have hi : R.internalPts l (fuel + 1) ω (R.cyclePoints z) =
      some ((R.cyclePoints z).filter fun p => decide (Seems (corners e) (used ω) p)) := by
    apply internalPts_filter
    intro p hp m
    obtain ⟨b, hb, hb'⟩ := plInternal_settled hE H hl hc hd.apart ω p (hd.place p ((mem_cyclePoints hR hz p).1 hp)) m fuel
    rw [hb, Option.some.injEq, Bool.eq_iff_iff, hb', decide_eq_true_iff]
  refine ⟨R.psetEq (R.pset ((R.cyclePoints z).filter fun p => decide (Seems (corners e) (used ω) p)))
    (R.pset (R.cyclePoints z)), ?_, ?_⟩
  · unfold Rt.containsCycle
    rw [hh]
    dsimp only
    rw [hi]
  · rw [psetEq_iff hR (hashOK_cyclePoints hR hz) (fun q hq => (List.mem_filter.1 hq).1) fun q hq => hq]
    constructor
    · intro h p hp
      have := (h p).2 ((mem_cyclePoints hR hz p).2 hp)
      simpa using (List.mem_filter.1 this).2
    · intro h p
      rw [List.mem_filter]
      exact ⟨fun h => h.1, fun hp => ⟨hp, by simpa using h p ((mem_cyclePoints hR hz p).1 hp)⟩⟩

/-- C92: so, if no corner of `z` is on a side of the hull of `e`, `z` counts as contained exactly if all of its corners
are strictly inside of the hull. -/
theorem C92_strictly (hE : R.IsExact) (e z : List (List (Seg K))) (ω : ℕ → ℕ → Pt K) (hd : Decided e z ω)
    (hoff : ∀ p ∈ corners z, ∀ a b, HullSide (corners e) a b → ¬ Inner a b p) (fuel : ℕ) :
    ∃ b, R.containsCycle e z ω (fuel + 1) = .ok b ∧ (b = true ↔ ∀ p ∈ corners z, InHull (corners e) p) := by
  obtain ⟨b, h1, h2⟩ := C92_contains hE e z ω hd fuel
  refine ⟨b, h1, h2.trans (forall₂_congr fun p hp => ⟨?_, Or.inl⟩)⟩
  rintro (h | ⟨a, c, hs, hi, -⟩)
  · exact h
  · exact absurd hi (hoff p hp a c hs)

theorem mapM_ok_of {α β ε : Type} (f : α → Except ε β) (g : α → β) : ∀ l : List α, (∀ a ∈ l, f a = .ok (g a)) →
    l.mapM f = .ok (l.map g) := by
  intro l
  induction l with
  | nil => intro _; rfl
  | cons a l ih =>
    intro h
    rw [List.mapM_cons, h a (by simp), ih fun b hb => h b (by simp [hb])]
    rfl

open Classical in
/-- C92: the dict `contained_cycles`: under every cycle, in the order of the keys, the other cycles with all corners
strictly inside of its convex hull, or on a side of it with the targets on the outer side. -/
theorem C92_dict (hE : R.IsExact) (cs : List (ℕ × List (List (Seg K)))) (ω : ℕ → ℕ → ℕ → ℕ → Pt K)
    (hd : ∀ e ∈ cs, ∀ z ∈ cs, z.1 ≠ e.1 → Decided e.2 z.2 (ω e.1 z.1)) (fuel : ℕ) :
    R.containedCycles cs ω (fuel + 1) = .ok (cs.map fun e => (e.1,
      (cs.filter fun z => decide (z.1 ≠ e.1 ∧ ∀ p ∈ corners z.2, Seems (corners e.2) (used (ω e.1 z.1)) p)).map Prod.fst)) := by
  unfold Rt.containedCycles
  apply mapM_ok_of
  intro e he
  have : ((cs.filter fun z => decide (z.1 ≠ e.1)).mapM fun z =>
      (R.containsCycle e.2 z.2 (ω e.1 z.1) (fuel + 1)).map fun b => (z.1, b)) =
      .ok ((cs.filter fun z => decide (z.1 ≠ e.1)).map fun z => (z.1, decide (∀ p ∈ corners z.2, Seems (corners e.2) (used (ω e.1 z.1)) p))) := by
    apply mapM_ok_of
    intro z hz
    obtain ⟨hz, hne⟩ := List.mem_filter.1 hz
    obtain ⟨b, hb, hb'⟩ := C92_contains hE e.2 z.2 (ω e.1 z.1) (hd e he z hz (by simpa using hne)) fuel
    rw [hb, show b = decide (∀ p ∈ corners z.2, Seems (corners e.2) (used (ω e.1 z.1)) p) by
      rw [Bool.eq_iff_iff, hb', decide_eq_true_iff]]
    rfl
  rw [this]
  simp only [Except.map, Except.ok.injEq, Prod.mk.injEq, true_and]
  rw [List.filter_map, List.map_map, List.filter_filter]
  congr 1
  apply List.filter_congr
  intro z _
  simp [Bool.and_comm]

/-- C92: containment of corners in the hull is transitive … -/
theorem C92_transitive (hE : R.IsExact) (e z y : List (List (Seg K))) (hpl : Plane (corners z))
    (hg : ∀ p ∈ corners z, Grid p.x ∧ Grid p.y) (hap : Apart (1 / 10 ^ 5) (corners z))
    (h1 : ∀ p ∈ corners z, InHull (corners e) p) (h2 : ∀ p ∈ corners y, InHull (corners z) p) :
    ∀ p ∈ corners y, InHull (corners e) p := by
  obtain ⟨l, n, w, -, H, -, -⟩ := cycle_hull hE hpl hg hap
  intro p hp a b hs
  obtain ⟨k, -, hk⟩ := H.min_le (-(b.y - a.y)) (b.x - a.x) p fun k => ((H.inHull_iff p).1 (h2 p hp) k).le
  have := h1 _ (H.mem (k + 1)) a b hs
  rw [HullCycle.det3_lin] at this ⊢
  linarith

/-- … and no cycle is contained in itself or in one contained in it. -/
theorem C92_not_mutual (hE : R.IsExact) (e z : List (List (Seg K))) (hpl : Plane (corners e))
    (hg : ∀ p ∈ corners e, Grid p.x ∧ Grid p.y) (hap : Apart (1 / 10 ^ 5) (corners e))
    (hpl' : Plane (corners z)) (hg' : ∀ p ∈ corners z, Grid p.x ∧ Grid p.y) (hap' : Apart (1 / 10 ^ 5) (corners z))
    (h1 : ∀ p ∈ corners z, InHull (corners e) p) : ¬ ∀ p ∈ corners e, InHull (corners z) p := by
  intro h2
  have h3 := C92_transitive hE e z e hpl' hg' hap' h1 h2
  obtain ⟨l, n, w, -, H, -, -⟩ := cycle_hull hE hpl hg hap
  exact not_inHull_of_mem_boundary H (H.extreme 0) (h3 _ (H.mem 0))

/-- C92: a cycle that has a corner in common with the hull polygon of `e` is never contained in `e`, whatever the
random targets are (in exact arithmetic). -/
theorem C92_shared_vertex (hE : R.IsExact) (e z : List (List (Seg K))) (hpl : Plane (corners e))
    (hg : ∀ p ∈ corners e, Grid p.x ∧ Grid p.y) (hap : Apart (1 / 10 ^ 5) (corners e))
    (hap' : Apart (1 / 10 ^ 5) (corners z)) (p : Pt K) (hp : p ∈ corners z) (hx : Extreme (corners e) p)
    (ω : ℕ → ℕ → Pt K) (fuel : ℕ) : R.containsCycle e z ω fuel ≠ .ok true := by
  have hR := hE.isRounding
  have hz : Apart R.tol (corners z) := by rw [hE.tol']; exact hap'
  have he : Apart R.tol (corners e) := by rw [hE.tol']; exact hap
  obtain ⟨l, n, w, hh, H, hl, hc⟩ := cycle_hull hE hpl hg hap
  unfold Rt.containsCycle
  rw [hh]
  dsimp only
  match hi : R.internalPts l fuel ω (R.cyclePoints z) with
  | none => simp
  | some i =>
    dsimp only
    intro h
    simp only [Except.ok.injEq] at h
    have hsub := internalPts_sub R l fuel _ ω i hi
    rw [psetEq_iff hR (hashOK_cyclePoints hR hz) (fun q hq => (hsub q hq).1) fun q hq => hq] at h
    have := (hsub p ((h p).2 ((mem_cyclePoints hR hz p).2 hp))).2
    rw [List.any_eq_false] at this
    refine this p ((mem_pointSet hR ?_ p).2 ((H.ends_iff hl p).2 hx)) (hR.peq_refl p)
    apply (sep_of_ends hR (apart_mono he ?_)).hashOK
    intro q hq
    exact ((H.ends_iff hl q).1 hq).1

/-- C92: a cycle without parts is contained in every cycle that has a hull or no parts … -/
theorem C92_empty (R : Rt K) (e : List (List (Seg K))) (ω : ℕ → ℕ → Pt K) (fuel : ℕ) (b : Bool)
    (h : R.containsCycle e [] ω fuel = .ok b) : b = true := by
  unfold Rt.containsCycle at h
  split at h
  · simpa [Rt.cyclePoints] using h.symm
  · cases h
  · simp [Rt.cyclePoints, Rt.internalPts, Rt.psetEq, Rt.pset] at h
    exact h

/-- … and a cycle without parts makes `contained_cycles` fail as soon as there is a cycle with a corner. -/
theorem C92_no_parts (hR : R.IsRounding) (z : List (List (Seg K))) (hz : Apart R.tol (corners z)) (p : Pt K)
    (hp : p ∈ corners z) (ω : ℕ → ℕ → Pt K) (fuel : ℕ) :
    R.containsCycle [] z ω fuel = .error (some .attribute) := by
  have h0 : R.convexHull ((R.cyclePoints []).map fun w => (w.x, w.y)) = .inl [] := by
    simp [Rt.cyclePoints, Rt.convexHull, hullSorted]
  unfold Rt.containsCycle
  rw [h0]
  dsimp only
  rw [if_neg]
  intro hc
  have := (mem_cyclePoints hR hz p).2 hp
  rw [hc] at this
  simp at this

/-! ### concrete cases -/

theorem sq12_corners (p : Pt ℝ) : p ∈ corners [sq12] ↔ p = ⟨1, 1⟩ ∨ p = ⟨2, 1⟩ ∨ p = ⟨2, 2⟩ ∨ p = ⟨1, 2⟩ := by
  constructor
  · rintro ⟨m, hm, s, hs, h⟩
    rw [List.mem_singleton] at hm
    subst hm
    simp only [sq12, List.mem_cons, List.not_mem_nil, or_false] at hs
    rcases hs with rfl | rfl | rfl | rfl <;> rcases h with rfl | rfl <;> simp
  · rintro (rfl | rfl | rfl | rfl)
    · exact ⟨sq12, by simp, _, List.mem_cons_self, Or.inl rfl⟩
    · exact ⟨sq12, by simp, _, List.mem_cons_self, Or.inr rfl⟩
    · exact ⟨sq12, by simp, ⟨⟨2, 2⟩, ⟨1, 2⟩, .line⟩, by simp [sq12], Or.inl rfl⟩
    · exact ⟨sq12, by simp, ⟨⟨1, 2⟩, ⟨1, 1⟩, .line⟩, by simp [sq12], Or.inl rfl⟩

theorem sq12_supports {a b : Pt ℝ} (h : Supports (corners [sq12]) a b) :
    (a = ⟨1, 1⟩ ∧ b = ⟨2, 1⟩) ∨ (a = ⟨2, 1⟩ ∧ b = ⟨2, 2⟩) ∨ (a = ⟨2, 2⟩ ∧ b = ⟨1, 2⟩) ∨ (a = ⟨1, 2⟩ ∧ b = ⟨1, 1⟩) := by
  obtain ⟨ha, hb, hne, hl⟩ := h
  have h1 := hl ⟨1, 1⟩ ((sq12_corners _).2 (by simp))
  have h2 := hl ⟨2, 1⟩ ((sq12_corners _).2 (by simp))
  have h3 := hl ⟨2, 2⟩ ((sq12_corners _).2 (by simp))
  have h4 := hl ⟨1, 2⟩ ((sq12_corners _).2 (by simp))
  rw [sq12_corners] at ha hb
  rcases ha with rfl | rfl | rfl | rfl <;> rcases hb with rfl | rfl | rfl | rfl <;>
    first
      | (exfalso; exact hne rfl)
      | (exfalso; norm_num [det3] at h1; done)
      | (exfalso; norm_num [det3] at h2; done)
      | (exfalso; norm_num [det3] at h3; done)
      | (exfalso; norm_num [det3] at h4; done)
      | (norm_num; done)

/-- the segment from (3/2, 3/2) to (3/2, 7/4) as a cycle of one part -/
noncomputable def seg32 : List (List (Seg ℝ)) := [[⟨⟨3/2, 3/2⟩, ⟨3/2, 7/4⟩, .line⟩]]

theorem seg32_corners (p : Pt ℝ) : p ∈ corners seg32 ↔ p = ⟨3/2, 3/2⟩ ∨ p = ⟨3/2, 7/4⟩ := by
  constructor
  · rintro ⟨m, hm, s, hs, h⟩
    rw [seg32, List.mem_singleton] at hm
    subst hm
    rw [List.mem_singleton] at hs
    subst hs
    exact h
  · intro h
    exact ⟨_, List.mem_singleton.2 rfl, _, List.mem_singleton.2 rfl, h⟩

theorem grid_int (n : ℤ) : Grid (n : ℝ) := ⟨n * 10 ^ 8, by push_cast; field_simp; norm_num⟩

/-- non-vacuity: the segment is inside of the square, and the target (11, 5) decides this -/
example : Decided [sq12] seg32 (fun _ _ => ⟨11, 5⟩) ∧ (∀ p ∈ corners seg32, InHull (corners [sq12]) p) ∧
    ∀ p ∈ corners seg32, ∀ a b, HullSide (corners [sq12]) a b → ¬ Inner a b p := by
  have hin : ∀ p ∈ corners seg32, InHull (corners [sq12]) p := by
    intro p hp a b hs
    rw [seg32_corners] at hp
    rcases sq12_supports hs with ⟨rfl, rfl⟩ | ⟨rfl, rfl⟩ | ⟨rfl, rfl⟩ | ⟨rfl, rfl⟩ <;> rcases hp with rfl | rfl <;>
      norm_num [det3]
  have hap : Apart (1 / 10 ^ 5 : ℝ) {q | q = ⟨3/2, 3/2⟩ ∨ q = ⟨3/2, 7/4⟩ ∨ q = ⟨11, 5⟩ ∨ q ∈ corners [sq12]} := by
    intro a ha b hb hne
    rw [Set.mem_ofPred_eq, sq12_corners] at ha hb
    rcases ha with rfl | rfl | rfl | rfl | rfl | rfl | rfl <;> rcases hb with rfl | rfl | rfl | rfl | rfl | rfl | rfl <;>
      first
        | exact absurd rfl hne
        | (left; norm_num [abs_of_pos, abs_of_neg]; done)
        | (right; norm_num [abs_of_pos, abs_of_neg]; done)
  refine ⟨⟨?_, ?_, apart_mono hap ?_, apart_mono hap ?_, ?_⟩, hin, ?_⟩
  · exact ⟨⟨1, 1⟩, (sq12_corners _).2 (by simp), ⟨2, 1⟩, (sq12_corners _).2 (by simp), ⟨2, 2⟩,
      (sq12_corners _).2 (by simp), by norm_num [det3]⟩
  · intro p hp
    have g1 := grid_int 1
    have g2 := grid_int 2
    push_cast at g1 g2
    rw [sq12_corners] at hp
    rcases hp with rfl | rfl | rfl | rfl
    · exact ⟨g1, g1⟩
    · exact ⟨g2, g1⟩
    · exact ⟨g2, g2⟩
    · exact ⟨g1, g2⟩
  · exact fun p hp => Or.inr (Or.inr (Or.inr hp))
  · intro p hp
    rw [seg32_corners] at hp
    rcases hp with h | h
    · exact Or.inl h
    · exact Or.inr (Or.inl h)
  · intro p hp
    refine Or.inr ⟨?_, Or.inl (hin p hp)⟩
    rintro t ⟨-, -, -, rfl⟩
    rw [seg32_corners] at hp
    refine ⟨?_, ?_, ?_, ?_, apart_mono hap ?_⟩
    · rcases hp with rfl | rfl <;> norm_num
    · intro q hq
      rw [sq12_corners] at hq
      rcases hq with rfl | rfl | rfl | rfl <;> norm_num
    · intro q hq
      have hq := (sq12_corners q).1 hq.1
      rcases hp with rfl | rfl <;> rcases hq with rfl | rfl | rfl | rfl <;> norm_num [det3]
    · intro a b hs X h1 h2
      obtain ⟨u, rfl⟩ := h1
      obtain ⟨w, e⟩ := h2
      have ex := congrArg Pt.x e
      have ey := congrArg Pt.y e
      unfold lerp at ex ey
      rcases sq12_supports hs with ⟨rfl, rfl⟩ | ⟨rfl, rfl⟩ | ⟨rfl, rfl⟩ | ⟨rfl, rfl⟩ <;> dsimp only at ex ey <;>
        rcases hp with rfl | rfl <;> dsimp only at ex ey
      · right; left; left
        unfold lerp
        have : u = -1/7 := by linarith
        norm_num [this]
      · right; left; left
        unfold lerp
        have : u = -3/13 := by linarith
        norm_num [this]
      · left
        have hu : u = 1/19 := by linarith
        have hw : w = 13/19 := by rw [hu] at ey; linarith
        refine ⟨⟨u, by norm_num [hu], by norm_num [hu], rfl⟩, ⟨w, by norm_num [hw], by norm_num [hw], e⟩⟩
      · left
        have hu : u = 1/19 := by linarith
        have hw : w = 35/38 := by rw [hu] at ey; linarith
        refine ⟨⟨u, by norm_num [hu], by norm_num [hu], rfl⟩, ⟨w, by norm_num [hw], by norm_num [hw], e⟩⟩
      · right; right; right; left
        have hu : u = 1/7 := by linarith
        unfold lerp
        norm_num [hu]
      · right; right; right; left
        have hu : u = 1/13 := by linarith
        unfold lerp
        norm_num [hu]
      · right; left; left
        have hu : u = -1/19 := by linarith
        unfold lerp
        norm_num [hu]
      · right; left; left
        have hu : u = -1/19 := by linarith
        unfold lerp
        norm_num [hu]
    · rintro q (rfl | rfl | hq)
      · rcases hp with h | h
        · exact Or.inl h
        · exact Or.inr (Or.inl h)
      · exact Or.inr (Or.inr (Or.inl rfl))
      · exact Or.inr (Or.inr (Or.inr hq))
  · rintro p hp a b hs ⟨u, -, -, rfl⟩
    have := hin _ hp a b hs.1
    rw [Ray.det3_lerp, Ray.det3_self, Ray.det3_self'] at this
    simp at this

/-- the square with corners (a, b) and (c, d) as a cycle of one part, in binary64 -/
def boxCycle (a b c d : ℚ) : List (List (Seg ℚ)) := [[exSeg a b c b, exSeg c b c d, exSeg c d a d, exSeg a d a b]]

/-- C92: what counts is the convex hull: a cycle that lies in a notch of another one, all of its corners outside, is
listed as contained in it. -/
theorem C92_notch : ∃ e z : List (Seg ℚ), ∃ ω : ℕ → Pt ℚ, (exRt.containsCycle [e] [z] (fun _ => ω) 1).toOption = some true ∧
    (∀ p ∈ exRt.pointSet z, exRt.plInternal e p ω 1 = some false) ∧ ∀ s ∈ e, ∀ o ∈ z, exRt.intersectionOnSegment s o = false :=
  ⟨[exSeg 0 0 6 0, exSeg 6 0 6 6, exSeg 6 6 4 6, exSeg 4 6 4 2, exSeg 4 2 2 2, exSeg 2 2 2 6, exSeg 2 6 0 6, exSeg 0 6 0 0],
    [exSeg (5/2) 3 (7/2) 3, exSeg (7/2) 3 (7/2) 5, exSeg (7/2) 5 (5/2) 5, exSeg (5/2) 5 (5/2) 3], fun k => ⟨100, 7 + k⟩,
    by decide +kernel, by decide +kernel, by decide +kernel⟩

/-- C92: of two cycles that touch a side of the outer one from inside, the one at the right side is contained in it, the
one at the left side is not. -/
theorem C92_touching_sides : ∃ ω : ℕ → Pt ℚ,
    (exRt.containsCycle (boxCycle 0 0 6 6) (boxCycle 3 1 6 3) (fun _ => ω) 1).toOption = some true ∧
    (exRt.containsCycle (boxCycle 0 0 6 6) (boxCycle 0 1 3 3) (fun _ => ω) 1).toOption = some false :=
  ⟨fun k => ⟨100, 7 + k⟩, by decide +kernel, by decide +kernel⟩

/-- C92_empty, C92_no_parts in binary64 -/
example : (exRt.containsCycle (boxCycle 0 0 6 6) [] (fun _ _ => ⟨100, 7⟩) 1).toOption = some true ∧
    (exRt.containsCycle [] (boxCycle 0 0 6 6) (fun _ _ => ⟨100, 7⟩) 1).toOption = none := by decide +kernel

end Srep
