import Verif.Props.RayFloat
import Verif.Props.TowerIntex

/-! The rooms recorded by `raum_intex`, in every correctly rounded arithmetic (C129). -/

set_option linter.unusedSectionVars false

namespace Srep
open Rt Ray
variable {K : Type} [Field K] [LinearOrder K] [IsStrictOrderedRing K] [FloorRing K] {R : Rt K}

theorem fl_sset_noTwice (hR : R.IsRounding) {l : List (Seg K)} {p t : Pt K} (hs : WideSpread l p t) (hnd : NoTwice l) : R.sset l = l := by
  apply sset_self
  refine hnd.imp_of_mem ?_
  intro a b ha hb hne
  rw [Bool.eq_false_iff]
  intro h
  unfold Rt.seq at h
  rw [Bool.and_eq_true, Bool.and_eq_true] at h
  refine hne ⟨?_, ?_⟩
  · exact fl_peq_eq hR hs (Or.inr (Or.inr ⟨a, ha, Or.inl rfl⟩)) (Or.inr (Or.inr ⟨b, hb, Or.inl rfl⟩)) h.1.2
  · exact fl_peq_eq hR hs (Or.inr (Or.inr ⟨a, ha, Or.inr rfl⟩)) (Or.inr (Or.inr ⟨b, hb, Or.inr rfl⟩)) h.2

open Classical in
theorem fl_crossCount_noTwice (hR : R.IsRounding) (hQ : R.RootOk) {a b : K} {l : List (Seg K)} {p t : Pt K} (hs : SafeTarget a b l p t)
    (hnd : NoTwice l) : R.crossCount l p t = meetCount l p t := by
  unfold Rt.crossCount meetCount
  rw [fl_sset_noTwice hR hs.spread hnd]
  congr 1
  apply List.filter_congr
  intro s hsl
  obtain ⟨d1, d2⟩ := hs.good.noVertex s hsl
  have hpi : p ≠ s.i := by rintro e; rw [← e, det3_self] at d1; exact d1 rfl
  have hpj : p ≠ s.j := by rintro e; rw [← e, det3_self] at d2; exact d2 rfl
  have hti : t ≠ s.i := by rintro e; rw [← e, det3_self'] at d1; exact d1 rfl
  have htj : t ≠ s.j := by rintro e; rw [← e, det3_self'] at d2; exact d2 rfl
  have ht := fl_touch_false (R := R) (s := ⟨p, t, .line⟩) (o := s) hR hQ hs.spread (Or.inl rfl) (Or.inr (Or.inl rfl))
    (Or.inr (Or.inr ⟨s, hsl, Or.inl rfl⟩)) (Or.inr (Or.inr ⟨s, hsl, Or.inr rfl⟩)) hpi hpj hti htj
  rw [Bool.eq_iff_iff, fl_ios_iff_meet hR hsl hs.room ht (hs.good.clear s hsl), decide_eq_true_eq]

open Classical in
/-- C129: let `m` be a closed polygon no side of which is drawn twice, and `l` the same sides in any order, each passed in any
direction.  In every correctly rounded arithmetic the answer for a point on no side and targets with enough room for rounding errors
is the parity of the number of sides of `m` to the right of the point. -/
theorem C129_drawing (hR : R.IsRounding) (hQ : R.RootOk) (l m : List (Seg K)) (hd : SameDrawing l m) (hc : ClosedChain m) (hnd : NoDouble m)
    (p : Pt K) (hoff : OffSides m p) (ω : ℕ → Pt K) (hω : ∀ k < 3, ∃ a b, SafeTarget a b l p (ω k)) (fuel : ℕ) :
    R.plInternal l p ω (fuel + 1) = some (decide (OddRight m p)) := by
  obtain ⟨a0, b0, s0⟩ := hω 0 (by omega)
  have g0 := s0.good.draw hd.symm
  have ne : (⟨p.x + 1, p.y⟩ : Pt K) ≠ p := by
    intro e
    have := congrArg Pt.x e
    simp at this
  have hodd : decide (OddRight m p) = decide (meetCount m p (ω 0) % 2 = 1) := by
    unfold OddRight
    rw [meetCount_eq_rayCount g0 hoff, ← countH_eq_rayCount g0.noVertex,
      countH_parity hc (t := ω 0) (t' := ⟨p.x + 1, p.y⟩) (by intro e; have := g0.right; rw [e] at this; exact lt_irrefl _ this) ne hoff]
    exact decide_eq_decide.2 Iff.rfl
  rw [hodd]
  apply plInternal_first
  · exact fl_not_vertex hR s0.spread s0.good
  · intro k hk
    obtain ⟨a, b, g⟩ := hω k hk
    have gm := g.good.draw hd.symm
    rw [fl_crossCount_noTwice hR hQ g (noDouble_draw hd hnd).noTwice, meetCount_draw hd,
      meetCount_eq_rayCount gm hoff, meetCount_eq_rayCount g0 hoff]
    exact rayCount_parity hc gm.right g0.right ⟨gm.noVertex, hoff⟩ ⟨g0.noVertex, hoff⟩

section
variable {ν ρ : Type}

/-- C129: rooms whose walls draw any closed polygons: if the reference points of all parts are off the sides and on their proper
sides, each room is recorded accordingly, in every correctly rounded arithmetic. -/
theorem C129_answers (hR : R.IsRounding) (hQ : R.RootOk) (rooms : List (GRoom ν ρ K)) (H : GRoom ν ρ K → List (Seg K))
    (hH : ∀ r ∈ rooms, ClosedChain (H r) ∧ NoDouble (H r) ∧ SameDrawing r.polygon (H r))
    (hp : ∀ r ∈ rooms, ∀ g ∈ r.walls, ∃ k, Lies (H r) g k)
    (ω : ℕ → ℕ → IntexKind → ℕ → ℕ → ℕ → Pt K)
    (hω : ∀ r ∈ rooms, ∀ g ∈ r.walls, ∀ x ∈ g.internal ++ g.external ++ g.indifferent, ∀ i j k n q c,
      ∃ a b, SafeTarget a b r.polygon x.1 (ω i j k n q c)) (fuel : ℕ) :
    ∃ T, R.raumIntex rooms (fuel + 1) ω = some T ∧
      ∀ n k r', (n, k, r') ∈ T ↔ ∃ r ∈ rooms, r.name = r' ∧ ∃ g ∈ r.walls, g.name = n ∧ Lies (H r) g (some k) := by
  classical
  have hans : Answers R rooms (fuel + 1) ω fun r p => decide (OddRight (H r) p) := by
    intro i r hr j g hg k n s _ q p hq
    have hrm := List.mem_of_getElem? hr
    have hgm := List.mem_of_getElem? hg
    obtain ⟨hcl, hnd, hd⟩ := hH r hrm
    have hout : R.removeOutliers r.polygon = r.polygon := C95_closed _ (H r) hd hcl
    obtain ⟨x, hx, -, rfl⟩ := mem_ptsAt.1 (List.mem_of_getElem? hq)
    rw [hout]
    have hall : x ∈ g.internal ++ g.external ++ g.indifferent := by
      cases k
      · exact List.mem_append_left _ (List.mem_append_left _ hx)
      · exact List.mem_append_left _ (List.mem_append_right _ hx)
      · exact List.mem_append_right _ hx
    have ht := fun c => hω r hrm g hgm x hall i j k n q c
    have hoff : OffSides (H r) x.1 := by
      obtain ⟨k', P⟩ := hp r hrm g hgm
      have hx0 : x ∈ g.internal ∨ x ∈ g.external ∨ x ∈ g.indifferent := by
        cases k
        · exact Or.inl hx
        · exact Or.inr (Or.inl hx)
        · exact Or.inr (Or.inr hx)
      rcases k' with _ | _ | _ | _
      · obtain ⟨a, b, c⟩ := P
        rw [a, b, c] at hx0
        rcases hx0 with h | h | h <;> cases h
      · obtain ⟨-, -, a, b, c, -⟩ := P
        rw [a] at hx0
        rcases hx0 with h | h | h
        · exact (b x h).1
        · exact (c x h).1
        · cases h
      · exact P.elim
      · obtain ⟨a, b, c, -⟩ := P
        rw [a, b] at hx0
        rcases hx0 with h | h | h
        · cases h
        · cases h
        · exact c x h
    exact C129_drawing hR hQ _ (H r) hd hcl hnd x.1 hoff _ (fun c _ => ht c) fuel
  obtain ⟨T, hT, hmem⟩ := C96_recorded rooms (fuel + 1) ω _ hans
  refine ⟨T, hT, fun n k r' => ?_⟩
  rw [hmem]
  have hrec : ∀ r ∈ rooms, ∀ g ∈ r.walls, (Recorded R g (fun p => decide (OddRight (H r) p)) k ↔ Lies (H r) g (some k)) := by
    intro r hr g hg
    obtain ⟨k', P⟩ := hp r hr g hg
    constructor
    · intro h
      rcases k' with _ | _ | _ | _
      · obtain ⟨a, b, c⟩ := P
        cases k with
        | innen => exact absurd a h.1
        | aussen => exact absurd b h.1
        | indifferent =>
          obtain ⟨s, -, x, hx, -⟩ := h
          rw [c] at hx; cases hx
      · cases k with
        | innen => exact P
        | aussen =>
          obtain ⟨-, s, hs, h⟩ := h
          obtain ⟨p, hps⟩ := P.2.2.2.2.2 s hs
          exact absurd (of_decide_eq_true (h (p, s) hps (hR.seq_refl s))) (P.2.2.2.2.1 _ hps).2
        | indifferent =>
          obtain ⟨s, -, x, hx, -⟩ := h
          rw [P.2.2.1] at hx; cases hx
      · exact P.elim
      · cases k with
        | innen => exact absurd P.1 h.1
        | aussen => exact absurd P.2.1 h.1
        | indifferent => exact P
    · intro Q
      cases k with
      | innen =>
        obtain ⟨s, hs⟩ := List.exists_mem_of_ne_nil _ Q.1
        exact ⟨Q.2.1, s, hs, fun x hx _ => decide_eq_true (Q.2.2.2.1 x hx).2⟩
      | aussen => exact Q.elim
      | indifferent =>
        obtain ⟨s, hs, p, hps, ho⟩ := Q.2.2.2
        exact ⟨s, hs, (p, s), hps, hR.seq_refl s, decide_eq_false ho⟩
  constructor
  · rintro ⟨r, hr, rfl, g, hg, rfl, h⟩
    exact ⟨r, hr, rfl, g, hg, rfl, (hrec r hr g hg).1 h⟩
  · rintro ⟨r, hr, rfl, g, hg, rfl, h⟩
    exact ⟨r, hr, rfl, g, hg, rfl, (hrec r hr g hg).2 h⟩

end

end Srep
