import Verif.Model.DelaunayOf
import Verif.Props.TriangulateEx
import Verif.Props.Triangle
import Verif.Spec.Ray

/-! C132: a `Delaunay2d` of a polygon. -/

set_option linter.unusedSectionVars false

namespace Srep
open Rt
variable {K : Type} [Field K] [LinearOrder K] [IsStrictOrderedRing K] [FloorRing K]

/-! ### the points -/

/-- C132: without added points (`nr_added_points` is 0 after the constructor) `update_points` leaves exactly the ends of the segments
in `self.points`, each once, provided no two different ones are == with the same hash; in any rounding arithmetic. -/
theorem C132_points {R : Rt K} (hR : R.IsRounding) {l : List (Seg K)} (h : R.HashOK (endPts l)) (cand : ℕ → Pt K)
    (ω : ℕ → ℕ → Pt K) (ifuel fuel : ℕ) :
    ∃ ps, R.updatePoints l 0 cand ω ifuel fuel = some ps ∧ ps.Nodup ∧ ∀ q, q ∈ ps ↔ q ∈ Ends l := by
  have hm : R.HashOK (R.pointSet l) := h.mono fun q hq => mem_endPts'.2 ((mem_pointSet hR h q).1 hq)
  refine ⟨R.pset (R.pointSet l), ?_, nodup_pset hR hm, fun q => ?_⟩
  · unfold Rt.updatePoints
    cases fuel <;> rfl
  · rw [mem_pset hR hm, mem_pointSet hR h]

theorem addInternal_run (R : Rt K) (l : List (Seg K)) (cand : ℕ → Pt K) (ω : ℕ → ℕ → Pt K) (ifuel : ℕ) (acc : ℕ → Bool)
    (hacc : ∀ k, R.plInternal l (cand k) (ω k) ifuel = some (acc k)) : ∀ fuel k n ps,
    R.addInternal l cand ω ifuel fuel k n ps =
      if n ≤ ((List.range' k fuel).filter acc).length then some (ps ++ (((List.range' k fuel).filter acc).take n).map cand) else none := by
  intro fuel
  induction fuel with
  | zero =>
    intro k n ps
    cases n with
    | zero => simp [Rt.addInternal]
    | succ n => simp [Rt.addInternal]
  | succ f ih =>
    intro k n ps
    cases n with
    | zero => simp [Rt.addInternal]
    | succ n =>
      unfold Rt.addInternal
      rw [hacc k, List.range'_succ]
      cases e : acc k with
      | true =>
        simp only [List.filter_cons, e, if_true, List.length_cons, Nat.add_le_add_iff_right, List.take_succ_cons, List.map_cons]
        rw [ih]
        simp
      | false =>
        simp only [List.filter_cons, e]
        rw [ih]
        simp

/-- C132: with `nr_added_points = nr` (set by the user), the constructor's loop adds the first `nr` of the random points that
`is_internal_point` accepts, and does not end as long as there are fewer. -/
theorem C132_added (R : Rt K) (l : List (Seg K)) (nr : ℕ) (cand : ℕ → Pt K) (ω : ℕ → ℕ → Pt K) (ifuel : ℕ) (acc : ℕ → Bool)
    (hacc : ∀ k, R.plInternal l (cand k) (ω k) ifuel = some (acc k)) (fuel : ℕ) :
    R.updatePoints l nr cand ω ifuel fuel =
      if nr ≤ ((List.range fuel).filter acc).length then
        some (R.pset (R.pointSet l ++ (((List.range fuel).filter acc).take nr).map cand)) else none := by
  unfold Rt.updatePoints
  rw [addInternal_run R l cand ω ifuel acc hacc, ← List.range_eq_range']
  split_ifs <;> rfl

/-- C132: for a polygon without segments nothing is internal, so with `nr_added_points > 0` the loop never ends. -/
theorem C132_never (R : Rt K) (nr : ℕ) (h : 0 < nr) (cand : ℕ → Pt K) (ω : ℕ → ℕ → Pt K) (ifuel fuel : ℕ) :
    R.updatePoints [] nr cand ω (ifuel + 1) fuel = none := by
  rw [C132_added R [] nr cand ω (ifuel + 1) (fun _ => false) (fun k => by
    have : R.pointSet ([] : List (Seg K)) = [] := rfl
    unfold Rt.plInternal
    rw [this]
    simp [Rt.internalLoop, Rt.crossCount, Rt.sset])]
  simp [h.ne']

/-! ### triangulate -/

/-- C132, exact arithmetic: for a polygon whose corners are in general position `triangulate` gives a triangulation of the convex hull
of the corners, whatever the sides of the polygon are and in whatever order `list(set(...))` gives the corners. -/
theorem C132_hull {R : Rt K} (hE : R.IsExact) (hA : R.IsExactAngle) {O : Orders} (hO : O.Valid) {l : List (Seg K)}
    (hh : R.HashOK (endPts l)) (hst : ∀ p ∈ Ends l, R.Stored p) {ps : List (Pt K)} (hg : GeneralPos ps) (hps : ∀ q, q ∈ ps ↔ q ∈ Ends l)
    (h3 : 3 ≤ ps.length) (cand : ℕ → Pt K) (ω : ℕ → ℕ → Pt K) (ifuel fuel : ℕ) :
    ∃ s, R.updatePoints l 0 cand ω ifuel fuel = some s ∧ ∀ t : List (Pt K), t.Perm s →
      ∃ M f0, (∀ f, f0 ≤ f → R.delaunay O t f = some (.ok M)) ∧ M.Triangulates t ∧
        (⋃ T ∈ M.tris, M.region T) = _root_.convexHull K {q | ∃ p ∈ Ends l, q = p.pair} := by
  obtain ⟨s, h1, h2, h4⟩ := C132_points hE.isRounding hh cand ω ifuel fuel
  refine ⟨s, h1, fun t ht => ?_⟩
  have hsp : s.Perm ps := (List.perm_ext_iff_of_nodup h2 hg.1).2 fun q => by rw [h4, hps]
  have htp := ht.trans hsp
  obtain ⟨M, f0, a1, a2, -, -, -⟩ := C120_triangulate hE hA hO (ps := t) (fun p hp => hst p ((hps p).1 (htp.mem_iff.1 hp)))
    (hg.perm htp) (by rw [htp.length_eq]; exact h3)
  refine ⟨M, f0, a1, a2, ?_⟩
  rw [a2.cover]
  congr 1
  ext q
  constructor
  · rintro ⟨p, hp, e⟩; exact ⟨p, (hps p).1 (htp.mem_iff.1 hp), e⟩
  · rintro ⟨p, hp, e⟩; exact ⟨p, htp.mem_iff.2 ((hps p).2 hp), e⟩

theorem pos_natCast (M : Mesh K) {k : ℕ} (hk : k < M.points.length) : M.pos ((k : ℕ) : ℤ) = M.points[k] := by
  unfold Mesh.pos pyGet
  rw [if_pos (by omega), Int.toNat_natCast, List.getElem?_eq_getElem hk]
  rfl

/-- the convex hull of the corners of a strictly convex polygon, if they are the points of a mesh -/
theorem convexCcw_hull {R : Rt K} {M : Mesh K} {l : List (Seg K)} (hc : ConvexCcw l)
    (h : M.Tiled R (fun v : ℤ => 0 ≤ v ∧ v < M.points.length)) (hps : ∀ q, q ∈ M.points ↔ q ∈ Ends l)
    (q : K × K) :
    q ∈ _root_.convexHull K {q | ∃ p ∈ Ends l, q = p.pair} ↔ ∀ s ∈ l, 0 ≤ det3 s.i s.j ⟨q.1, q.2⟩ := by
  have hEnd : ∀ p ∈ Ends l, ∃ s ∈ l, p = s.i := by
    rintro p ⟨s, hs, rfl | rfl⟩
    · exact ⟨s, hs, rfl⟩
    · obtain ⟨k, hk, rfl⟩ := List.getElem_of_mem hs
      exact ⟨_, List.getElem_mem _, hc.chain k hk⟩
  have hpos : ∀ p ∈ Ends l, ∃ v : ℤ, (0 ≤ v ∧ v < M.points.length) ∧ M.pos v = p := by
    intro p hp
    obtain ⟨k, hk, e⟩ := List.getElem_of_mem ((hps p).2 hp)
    refine ⟨k, ⟨by omega, by omega⟩, ?_⟩
    rw [← e]
    exact pos_natCast M hk
  have hpos' : ∀ v : ℤ, 0 ≤ v → v < M.points.length → M.pos v ∈ Ends l := by
    intro v v0 v1
    obtain ⟨k, rfl⟩ := Int.eq_ofNat_of_zero_le v0
    have hk : k < M.points.length := by omega
    rw [← hps, show M.pos ((k : ℕ) : ℤ) = M.points[k] from pos_natCast M hk]
    exact List.getElem_mem _
  have hset : {q | ∃ p ∈ Ends l, q = p.pair} = {q | ∃ v : ℤ, (0 ≤ v ∧ v < M.points.length) ∧ q = (M.pos v).pair} := by
    ext q
    constructor
    · rintro ⟨p, hp, rfl⟩
      obtain ⟨v, hv, rfl⟩ := hpos p hp
      exact ⟨v, hv, rfl⟩
    · rintro ⟨v, hv, rfl⟩
      exact ⟨_, hpos' v hv.1 hv.2, rfl⟩
  constructor
  · intro hq s hs
    refine convexHull_min (t := {p : K × K | 0 ≤ det3 s.i s.j (pairPt p)}) ?_ (convex_left _ _) hq
    rintro _ ⟨p, hp, rfl⟩
    obtain ⟨o, ho, rfl⟩ := hEnd p hp
    show 0 ≤ det3 s.i s.j o.i
    rcases hc.left s hs o ho with e | e | e
    · rw [e]; apply le_of_eq; unfold det3; ring
    · rw [e]; apply le_of_eq; unfold det3; ring
    · exact e.le
  · intro hq
    rw [hset, h.hull_iff]
    rintro ⟨i, j⟩ he
    obtain ⟨⟨i0, i1⟩, j0, j1⟩ := h.hull.mem _ he
    have hij := pos_ne h.general.1 i0 i1 j0 j1 (h.hull.ne _ he)
    have hside := h.hull.conv _ he
    obtain ⟨s, hs, e1⟩ := hEnd _ (hpos' i i0 i1)
    obtain ⟨o, ho, e2⟩ := hEnd _ (hpos' j j0 j1)
    have hsj : s.j = M.pos j := by
      by_contra hne
      obtain ⟨v, ⟨v0, v1⟩, ev⟩ := hpos s.j ⟨s, hs, Or.inr rfl⟩
      have h2 : 0 < det3 s.i s.j (M.pos j) := by
        rcases hc.left s hs o ho with e | e | e
        · exact absurd (e1.trans (e.symm.trans e2.symm)) hij
        · exact absurd (e.symm.trans e2.symm) hne
        · rwa [e2]
      have hvi : v ≠ i := by
        rintro rfl
        rw [← ev, ← e1] at h2
        have : det3 (M.pos v) (M.pos v) (M.pos j) = 0 := by unfold det3; ring
        linarith
      have hvj : v ≠ j := by rintro rfl; exact hne ev.symm
      have h1 := hside v ⟨v0, v1⟩ hvi hvj
      dsimp only at h1
      rw [ev, e1] at h1
      have : det3 s.i (M.pos j) s.j = - det3 s.i s.j (M.pos j) := by unfold det3; ring
      linarith
    have := hq s hs
    rw [← e1, hsj] at this
    exact this

/-- … the polygon may have the same corners as the segments given without being passed in the same way -/
theorem delaunay_drawn {R : Rt K} (hE : R.IsExact) (hA : R.IsExactAngle) {O : Orders} (hO : O.Valid) {l m : List (Seg K)} (hc : ConvexCcw m)
    (hlm : ∀ q, q ∈ Ends l ↔ q ∈ Ends m)
    (hh : R.HashOK (endPts l)) (hst : ∀ p ∈ Ends m, R.Stored p) (hg : GeneralPos (m.map Seg.i)) (h3 : 3 ≤ m.length)
    (cand : ℕ → Pt K) (ω : ℕ → ℕ → Pt K) (ifuel fuel : ℕ) :
    ∃ s, R.updatePoints l 0 cand ω ifuel fuel = some s ∧ ∀ t : List (Pt K), t.Perm s →
      ∃ M f0, (∀ f, f0 ≤ f → R.delaunay O t f = some (.ok M)) ∧ M.Triangulates t ∧
        (⋃ T ∈ M.tris, M.region T) = {q : K × K | ∀ s ∈ m, 0 ≤ det3 s.i s.j ⟨q.1, q.2⟩} := by
  have hps : ∀ q, q ∈ m.map Seg.i ↔ q ∈ Ends m := by
    intro q
    rw [List.mem_map]
    constructor
    · rintro ⟨s, hs, rfl⟩; exact ⟨s, hs, Or.inl rfl⟩
    · rintro ⟨s, hs, rfl | rfl⟩
      · exact ⟨s, hs, rfl⟩
      · obtain ⟨k, hk, rfl⟩ := List.getElem_of_mem hs
        exact ⟨_, List.getElem_mem _, (hc.chain k hk).symm⟩
  obtain ⟨s, h1, h2, h4⟩ := C132_points hE.isRounding hh cand ω ifuel fuel
  refine ⟨s, h1, fun t ht => ?_⟩
  have htp : t.Perm (m.map Seg.i) := ht.trans ((List.perm_ext_iff_of_nodup h2 hg.1).2 fun q => by rw [h4, hps, hlm])
  obtain ⟨M, f0, c, a1, -, a2, h, -⟩ := delaunay_run hE hA hO (ps := t) (fun p hp => hst p ((hps p).1 (htp.mem_iff.1 hp)))
    (hg.perm htp) (by rw [htp.length_eq, List.length_map]; exact h3)
  have hMt : M.points.Perm t := by rw [a2]; exact (sortedFrom_spec hE c t).1
  have hT := h.triangulates (fun v v0 v1 => ⟨v0, v1⟩) hMt
  refine ⟨M, f0, a1, hT, ?_⟩
  have hmem : ∀ q, q ∈ M.points ↔ q ∈ Ends m := fun q => by rw [hMt.mem_iff, htp.mem_iff, hps]
  rw [hT.cover]
  ext q
  have := convexCcw_hull hc h hmem q
  rw [Set.mem_setOf_eq, ← this]
  have e : {q : K × K | ∃ p ∈ t, q = p.pair} = {q | ∃ p ∈ Ends m, q = p.pair} := by
    ext q
    constructor
    · rintro ⟨p, hp, e⟩; exact ⟨p, (hmem p).1 (hMt.mem_iff.2 hp), e⟩
    · rintro ⟨p, hp, e⟩; exact ⟨p, hMt.mem_iff.1 ((hmem p).2 hp), e⟩
  rw [e]

/-- C132, exact arithmetic: for a strictly convex polygon the triangles together are the polygon: exactly the points that are
to the right of no side. -/
theorem C132_convex {R : Rt K} (hE : R.IsExact) (hA : R.IsExactAngle) {O : Orders} (hO : O.Valid) {l : List (Seg K)} (hc : ConvexCcw l)
    (hh : R.HashOK (endPts l)) (hst : ∀ p ∈ Ends l, R.Stored p) (hg : GeneralPos (l.map Seg.i)) (h3 : 3 ≤ l.length)
    (cand : ℕ → Pt K) (ω : ℕ → ℕ → Pt K) (ifuel fuel : ℕ) :
    ∃ s, R.updatePoints l 0 cand ω ifuel fuel = some s ∧ ∀ t : List (Pt K), t.Perm s →
      ∃ M f0, (∀ f, f0 ≤ f → R.delaunay O t f = some (.ok M)) ∧ M.Triangulates t ∧
        (⋃ T ∈ M.tris, M.region T) = {q : K × K | ∀ s ∈ l, 0 ≤ det3 s.i s.j ⟨q.1, q.2⟩} :=
  delaunay_drawn hE hA hO hc (fun _ => Iff.rfl) hh hst hg h3 cand ω ifuel fuel

/-! ### examples -/

/-- sides through points with whole coordinates -/
noncomputable def iseg (a b : ℤ × ℤ) : Seg ℝ := ⟨ipt a, ipt b, .line⟩

theorem ipt_hash {l : List (Seg ℝ)} (h : ∀ p ∈ Ends l, ∃ z, p = ipt z) : exReal.HashOK (endPts l) := by
  intro p hp q hq _ he
  obtain ⟨a, rfl⟩ := h p (mem_endPts'.1 hp)
  obtain ⟨b, rfl⟩ := h q (mem_endPts'.1 hq)
  rw [exReal_isExact.peq_iff] at he
  unfold ipt at he ⊢
  simp only at he
  obtain ⟨h1, h2⟩ := he
  have k : ∀ x y : ℤ, |(x : ℝ) - y| < 1 / 10 ^ 5 → x = y := by
    intro x y hxy
    by_contra hne
    have : (1 : ℝ) ≤ |((x - y : ℤ) : ℝ)| := by
      rw [← Int.cast_abs]
      exact_mod_cast Int.one_le_abs (sub_ne_zero.2 hne)
    push_cast at this
    norm_num at hxy
    linarith
  rw [k _ _ h1, k _ _ h2]

/-- an arrowhead: (0,0), (4,0), (1,1), (0,4) -/
noncomputable def exArrow : List (Seg ℝ) := [iseg (0, 0) (4, 0), iseg (4, 0) (1, 1), iseg (1, 1) (0, 4), iseg (0, 4) (0, 0)]

/-- C132: the sides are not respected.  For the polygon (0,0), (4,0), (1,1), (0,4) the triangles cover the point (3/2, 3/2), from which a
ray goes to the right without meeting a side. -/
theorem C132_arrow {O : Orders} (hO : O.Valid) (cand : ℕ → Pt ℝ) (ω : ℕ → ℕ → Pt ℝ) (ifuel fuel : ℕ) :
    (∃ s, exReal.updatePoints exArrow 0 cand ω ifuel fuel = some s ∧ ∀ t : List (Pt ℝ), t.Perm s →
      ∃ M f0, (∀ f, f0 ≤ f → exReal.delaunay O t f = some (.ok M)) ∧ M.Triangulates t ∧
        ((3 / 2, 3 / 2) : ℝ × ℝ) ∈ ⋃ T ∈ M.tris, M.region T) ∧
    ∀ s ∈ exArrow, ∀ x : ℝ, 0 ≤ x → ¬ Between s.i s.j ⟨3 / 2 + x, 3 / 2⟩ := by
  have hends : ∀ q, q ∈ ([(0, 0), (4, 0), (1, 1), (0, 4)] : List (ℤ × ℤ)).map ipt ↔ q ∈ Ends exArrow := by
    intro q
    unfold Ends exArrow iseg
    simp only [List.map_cons, List.map_nil, List.mem_cons, List.not_mem_nil, or_false, exists_eq_or_imp, exists_eq_left,
      Set.mem_setOf_eq]
    tauto
  have hipt : ∀ p ∈ Ends exArrow, ∃ z, p = ipt z := by
    intro p hp
    obtain ⟨z, -, rfl⟩ := List.mem_map.1 ((hends p).2 hp)
    exact ⟨z, rfl⟩
  constructor
  · obtain ⟨s, h1, h2⟩ := C132_hull exReal_isExact (Rt.real_isExactAngle _) hO (l := exArrow) (ipt_hash hipt)
      (fun p hp => ipt_stored p ((hends p).2 hp)) (ipt_general (l := [(0, 0), (4, 0), (1, 1), (0, 4)]) (by decide) (by decide)) hends
      (by simp) cand ω ifuel fuel
    refine ⟨s, h1, fun t ht => ?_⟩
    obtain ⟨M, f0, a1, a2, a3⟩ := h2 t ht
    refine ⟨M, f0, a1, a2, ?_⟩
    rw [a3]
    have hm : ∀ z ∈ ([(0, 0), (4, 0), (1, 1), (0, 4)] : List (ℤ × ℤ)), ((z.1 : ℝ), (z.2 : ℝ)) ∈
        _root_.convexHull ℝ {q | ∃ p ∈ Ends exArrow, q = p.pair} := by
      intro z hz
      exact subset_convexHull ℝ _ ⟨ipt z, (hends _).1 (List.mem_map_of_mem hz), rfl⟩
    have hcv := convex_convexHull ℝ {q | ∃ p ∈ Ends exArrow, q = p.pair}
    have m1 := hcv (hm (4, 0) (by simp)) (hm (0, 4) (by simp)) (a := 1 / 2) (b := 1 / 2) (by norm_num) (by norm_num) (by norm_num)
    have m2 := hcv (hm (0, 0) (by simp)) m1 (a := 1 / 4) (b := 3 / 4) (by norm_num) (by norm_num) (by norm_num)
    convert m2 using 1
    ext <;> norm_num
  · intro s hs x hx hb
    obtain ⟨t, t0, t1, e⟩ := hb
    unfold lerp at e
    rw [Pt.mk.injEq] at e
    unfold exArrow iseg ipt at hs
    simp only [List.mem_cons, List.not_mem_nil, or_false] at hs
    rcases hs with rfl | rfl | rfl | rfl <;> simp only at e <;> push_cast at e <;> obtain ⟨e1, e2⟩ := e <;> linarith

/-- a square as in C132_convex -/
noncomputable def exSq : List (Seg ℝ) := [iseg (0, 0) (4, 0), iseg (4, 0) (4, 4), iseg (4, 4) (0, 4), iseg (0, 4) (0, 0)]

/-- C132_convex applies to it -/
example : ConvexCcw exSq ∧ exReal.HashOK (endPts exSq) ∧ (∀ p ∈ Ends exSq, exReal.Stored p) ∧ GeneralPos (exSq.map Seg.i) ∧
    3 ≤ exSq.length := by
  have hends : ∀ q, q ∈ ([(0, 0), (4, 0), (4, 4), (0, 4)] : List (ℤ × ℤ)).map ipt ↔ q ∈ Ends exSq := by
    intro q
    unfold Ends exSq iseg
    simp only [List.map_cons, List.map_nil, List.mem_cons, List.not_mem_nil, or_false, exists_eq_or_imp, exists_eq_left,
      Set.mem_setOf_eq]
    tauto
  have hg : GeneralPos (exSq.map Seg.i) := ipt_general (l := [(0, 0), (4, 0), (4, 4), (0, 4)]) (by decide) (by decide)
  refine ⟨⟨?_, hg.1, ?_⟩, ipt_hash ?_, fun p hp => ipt_stored p ((hends p).2 hp), hg, by simp [exSq]⟩
  · intro k hk
    have : k < 4 := hk
    interval_cases k <;> rfl
  · intro s hs o ho
    unfold exSq iseg at hs ho
    simp only [List.mem_cons, List.not_mem_nil, or_false] at hs ho
    rcases hs with rfl | rfl | rfl | rfl <;> rcases ho with rfl | rfl | rfl | rfl
    all_goals first | exact Or.inl rfl | exact Or.inr (Or.inl rfl) | (right; right; rw [ipt_det]; norm_num [idet])
  · intro p hp
    obtain ⟨z, -, rfl⟩ := List.mem_map.1 ((hends p).2 hp)
    exact ⟨z, rfl⟩

end Srep
