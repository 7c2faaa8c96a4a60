import Verif.Props.Winding

/-! Properties of the random point location tests of polylines.  The random targets are an arbitrary stream `ω`. -/

set_option linter.unusedSectionVars false

namespace Srep
open Rt
variable {K : Type} [Field K] [LinearOrder K] [IsStrictOrderedRing K] [FloorRing K]

/-! ### C53 -/

/-- a python set of Points keeps, for every element put in, one that is equal to it -/
theorem pset_repr {R : Rt K} (hR : R.IsRounding) (l : List (Pt K)) :
    ∀ p ∈ l, ∃ q ∈ R.pset l, R.peq q p = true := by
  have key : ∀ (l s : List (Pt K)),
      (∀ q ∈ s, q ∈ l.foldl (fun s p => if R.pmem p s then s else s ++ [p]) s) ∧
      ∀ p ∈ l, ∃ q ∈ l.foldl (fun s p => if R.pmem p s then s else s ++ [p]) s, R.peq q p = true := by
    intro l
    induction l with
    | nil => intro s; simp
    | cons a l ih =>
      intro s
      rw [List.foldl_cons]
      obtain ⟨h1, h2⟩ := ih (if R.pmem a s then s else s ++ [a])
      have hs : ∀ q ∈ s, q ∈ (if R.pmem a s then s else s ++ [a]) := by
        intro q hq
        split_ifs
        · exact hq
        · simp [hq]
      refine ⟨fun q hq => h1 q (hs q hq), ?_⟩
      intro p hp
      rcases List.mem_cons.1 hp with rfl | hp
      · by_cases hm : R.pmem p s = true
        · obtain ⟨q, hq, hqp⟩ := List.any_eq_true.1 hm
          rw [Bool.and_eq_true] at hqp
          exact ⟨q, h1 q (hs q hq), hqp.2⟩
        · refine ⟨p, h1 p ?_, hR.peq_refl p⟩
          rw [if_neg hm]
          simp
      · exact h2 p hp
  exact (key l []).2

theorem pointSet_repr {R : Rt K} (hR : R.IsRounding) (l : List (Seg K)) (p : Pt K) (hp : p ∈ Ends l) :
    (R.pointSet l).any (fun q => R.peq q p) = true := by
  obtain ⟨q, hq, hqp⟩ := pset_repr hR (allPoints l) p
    ((List.mem_insertionSort _).2 (mem_endPts'.2 hp))
  rw [List.any_eq_true]
  exact ⟨q, (List.mem_insertionSort _).2 hq, hqp⟩

/-- C53: every vertex is reported as not internal and as external, whatever the random targets are; no round of the
random loop is needed (`fuel` may be 0). -/
theorem C53_vertex {R : Rt K} (hR : R.IsRounding) (l : List (Seg K)) (p : Pt K) (hp : p ∈ Ends l)
    (ω : ℕ → Pt K) (fuel : ℕ) :
    R.plInternal l p ω fuel = some false ∧ R.plExternal l p ω fuel = some true := by
  have h : R.plInternal l p ω fuel = some false := by
    unfold plInternal
    rw [if_pos (pointSet_repr hR l p hp)]
  exact ⟨h, by unfold plExternal; rw [h]; rfl⟩

/-- C53: any finished evaluation of `is_external_point` is the negation of `is_internal_point` with the same draws. -/
theorem C53_external (R : Rt K) (l : List (Seg K)) (p : Pt K) (ω : ℕ → Pt K) (fuel : ℕ) (b : Bool) :
    R.plExternal l p ω fuel = some b ↔ R.plInternal l p ω fuel = some (!b) := by
  unfold plExternal
  cases R.plInternal l p ω fuel with
  | none => simp
  | some c => simp [Bool.not_eq_eq_eq_not]

/-- non-vacuity -/
example : exRt.mkPt 1 1 ∈ Ends exSquare := ⟨exSeg 1 0 1 1, by decide +kernel, by decide +kernel⟩

/-! ### C54 -/

/-- C54: `is_on_boundary` answers True only if the two random evaluations of the internal test disagree; a vertex and
every point for which they agree are answered with False. -/
theorem C54_boundary {R : Rt K} (hR : R.IsRounding) (l : List (Seg K)) (p : Pt K) (ω ω' : ℕ → Pt K) (fuel : ℕ) :
    (R.plOnBoundary l p ω ω' fuel = some true →
      R.plInternal l p ω fuel = some false ∧ R.plInternal l p ω' fuel = some true) ∧
    (∀ b, R.plInternal l p ω fuel = some b → R.plInternal l p ω' fuel = some b →
      R.plOnBoundary l p ω ω' fuel = some false) ∧
    (p ∈ Ends l → R.plOnBoundary l p ω ω' fuel = some false) := by
  have h2 : ∀ b, R.plInternal l p ω fuel = some b → R.plInternal l p ω' fuel = some b →
      R.plOnBoundary l p ω ω' fuel = some false := by
    intro b h h'
    unfold plOnBoundary plExternal
    rw [h, h']
    cases b <;> rfl
  refine ⟨?_, h2, fun hp => h2 false (C53_vertex hR l p hp ω fuel).1 (C53_vertex hR l p hp ω' fuel).1⟩
  intro h
  unfold plOnBoundary plExternal at h
  cases h1 : R.plInternal l p ω fuel with
  | none => rw [h1] at h; simp at h
  | some b =>
    cases b with
    | true => rw [h1] at h; simp at h
    | false =>
      cases h3 : R.plInternal l p ω' fuel with
      | none => rw [h1, h3] at h; simp at h
      | some c =>
        cases c with
        | true => exact ⟨rfl, rfl⟩
        | false => rw [h1, h3] at h; simp at h

/-- the square with opposite corners (1,1) and (2,2) -/
def exSquare12 : List (Seg ℚ) := [exSeg 1 1 2 1, exSeg 2 1 2 2, exSeg 2 2 1 2, exSeg 1 2 1 1]

/-- C54: True is attained when the draws of the second evaluation all aim through a vertex. -/
theorem C54_attained :
    ∃ (l : List (Seg ℚ)) (p t t' : Pt ℚ), exRt.Target l t ∧ exRt.Target l t' ∧
      exRt.plInternal l p (fun _ => t) 1 = some false ∧ exRt.plInternal l p (fun _ => t') 1 = some true ∧
      exRt.plOnBoundary l p (fun _ => t) (fun _ => t') 1 = some true := by
  refine ⟨exSquare12, exRt.mkPt 1 (3/2), exRt.mkPt 5 3, exRt.mkPt 3 (5/2),
    ⟨5, 3, ?_⟩, ⟨3, 5/2, ?_⟩, ?_⟩
  all_goals decide +kernel

/-! ### C55 -/

theorem mem_sset_sub (R : Rt K) (l : List (Seg K)) (s : Seg K) (h : s ∈ R.sset l) : s ∈ l := by
  have key : ∀ (l d : List (Seg K)), s ∈ l.foldl (fun d s => if R.smem s d then d else d ++ [s]) d → s ∈ d ∨ s ∈ l := by
    intro l
    induction l with
    | nil => intro d h; exact Or.inl h
    | cons a l ih =>
      intro d h
      rw [List.foldl_cons] at h
      rcases ih _ h with h | h
      · split_ifs at h
        · exact Or.inl h
        · rcases List.mem_append.1 h with h | h
          · exact Or.inl h
          · right; simp at h; simp [h]
      · right; simp [h]
  rcases key l [] h with h | h
  · simp at h
  · exact h

theorem add_mono {R : Rt K} (hR : R.IsRounding) {a b : K} (c : K) (h : a ≤ b) : R.add a c ≤ R.add b c := by
  unfold Rt.add
  exact hR.mono (by linarith)

/-- the ray from `p` to `t` stays to the right of (above) the polygon by more than the tolerance -/
def Beyond (R : Rt K) (f : Pt K → K) (upper : K) (p t : Pt K) : Prop :=
  R.add upper R.eps ≤ R.sub (min (f p) (f t)) R.eps

theorem crossCount_beyond {R : Rt K} (hR : R.IsRounding) (l : List (Seg K)) (p t : Pt K)
    (h : Beyond R Pt.x (boundingBox l).1.2 p t ∨
      R.add (boundingBox l).2.2 R.eps < R.sub (min p.y t.y) R.eps) : R.crossCount l p t = 0 := by
  unfold crossCount
  rw [List.length_eq_zero_iff, List.filter_eq_nil_iff]
  intro s hs hc
  have hsl := mem_sset_sub R l s hs
  obtain ⟨⟨hx, -⟩, ⟨hy, -⟩⟩ := C39_general l
  have hi : s.i ∈ Ends l := ⟨s, hsl, Or.inl rfl⟩
  have hj : s.j ∈ Ends l := ⟨s, hsl, Or.inr rfl⟩
  have hmx : max s.i.x s.j.x ≤ (boundingBox l).1.2 := max_le (hx _ hi).2 (hx _ hj).2
  have hmy : max s.i.y s.j.y ≤ (boundingBox l).2.2 := max_le (hy _ hi).2 (hy _ hj).2
  unfold intersectionOnSegment at hc
  split at hc
  · simp at hc
  · split at hc
    · simp at hc
    · rename_i q hq
      unfold isInternal at hc
      simp only [Bool.and_eq_true, decide_eq_true_eq] at hc
      obtain ⟨⟨⟨⟨a1, -⟩, a3⟩, -⟩, ⟨⟨⟨-, b2⟩, -⟩, b4⟩⟩ := hc
      rcases h with h | h
      · unfold Beyond at h
        exact absurd (b2.trans ((add_mono hR _ hmx).trans h)) (not_le.2 a1)
      · exact absurd (a3.trans (b4.trans (add_mono hR _ hmy))) (not_le.2 h)

/-- C55: a point to the right of (or above) the whole polygon by more than the tolerance is reported external in the
first round, for all random targets that also lie beyond it (any correctly rounded arithmetic). -/
theorem C55_outside {R : Rt K} (hR : R.IsRounding) (l : List (Seg K)) (p : Pt K) (ω : ℕ → Pt K) (fuel : ℕ)
    (h : ∀ k < 3, Beyond R Pt.x (boundingBox l).1.2 p (ω k) ∨
      R.add (boundingBox l).2.2 R.eps < R.sub (min p.y (ω k).y) R.eps) :
    R.plInternal l p ω (fuel + 1) = some false ∧ R.plExternal l p ω (fuel + 1) = some true := by
  have e : R.plInternal l p ω (fuel + 1) = some false := by
    unfold plInternal
    split_ifs
    · rfl
    · unfold internalLoop
      have h0 := crossCount_beyond hR l p _ (h 0 (by omega))
      have h1 := crossCount_beyond hR l p _ (h 1 (by omega))
      have h2 := crossCount_beyond hR l p _ (h 2 (by omega))
      simp [h0, h1, h2]
  exact ⟨e, by unfold plExternal; rw [e]; rfl⟩

/-- C55, exact arithmetic: the condition is that point and targets exceed the upper bound of the box by more than
twice the tolerance 1e-8, in x or in y. -/
theorem C55_outside_exact {R : Rt K} (hE : R.IsExact) (l : List (Seg K)) (p : Pt K) (ω : ℕ → Pt K) (fuel : ℕ)
    (h : (∀ k < 3, (boundingBox l).1.2 + 2 / 10 ^ 8 < p.x ∧ (boundingBox l).1.2 + 2 / 10 ^ 8 < (ω k).x) ∨
      (∀ k < 3, (boundingBox l).2.2 + 2 / 10 ^ 8 < p.y ∧ (boundingBox l).2.2 + 2 / 10 ^ 8 < (ω k).y)) :
    R.plInternal l p ω (fuel + 1) = some false ∧ R.plExternal l p ω (fuel + 1) = some true := by
  apply C55_outside hE.isRounding
  intro k hk
  have e2 : (2 : K) / 10 ^ 8 = 1 / 10 ^ 8 + 1 / 10 ^ 8 := by norm_num
  rcases h with h | h
  · left
    unfold Beyond
    obtain ⟨h1, h2⟩ := h k hk
    rw [hE.add', hE.sub', hE.eps']
    have := lt_min h1 h2
    linarith
  · right
    obtain ⟨h1, h2⟩ := h k hk
    rw [hE.add', hE.sub', hE.eps']
    have := lt_min h1 h2
    linarith

/-- non-vacuity: the targets are admissible for the square -/
example : exRt.Target exSquare12 (exRt.mkPt 10 5) ∧ Beyond exRt Pt.x (boundingBox exSquare12).1.2
    (exRt.mkPt 3 (3/2)) (exRt.mkPt 10 5) := by
  refine ⟨⟨10, 5, ?_⟩, ?_⟩
  · decide +kernel
  · unfold Beyond
    decide +kernel

/-! ### C56 -/

/-- C56 (the documented meaning fails): for a valid square in the negative quadrant and its centre, two admissible
random sequences give different answers. -/
theorem C56_random_answer :
    ∃ (l : List (Seg ℚ)) (p t t' : Pt ℚ), exRt.plValid l = true ∧ exRt.isClosed l = .ok true ∧
      exRt.Target l t ∧ exRt.Target l t' ∧
      (boundingBox l).1.1 < p.x ∧ p.x < (boundingBox l).1.2 ∧ (boundingBox l).2.1 < p.y ∧ p.y < (boundingBox l).2.2 ∧
      exRt.plInternal l p (fun _ => t) 1 = some false ∧ exRt.plInternal l p (fun _ => t') 1 = some true := by
  refine ⟨[exSeg (-2) (-2) (-1) (-2), exSeg (-1) (-2) (-1) (-1), exSeg (-1) (-1) (-2) (-1), exSeg (-2) (-1) (-2) (-2)],
    exRt.mkPt (-3/2) (-3/2), exRt.mkPt (-6/5) (-13/10), exRt.mkPt (-100) (-20), ?_, ?_,
    ⟨-6/5, -13/10, ?_⟩, ⟨-100, -20, ?_⟩, ?_⟩
  all_goals decide +kernel

end Srep
