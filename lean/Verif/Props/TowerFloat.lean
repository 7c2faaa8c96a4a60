import Verif.Lemmas.TowerFloat

/-!
# Valid outlines, loops and rooms of vessels in floating point (C127)
-/

set_option linter.unusedSectionVars false

namespace Srep
open Rt
variable {K : Type} [Field K] [LinearOrder K] [IsStrictOrderedRing K] [FloorRing K] {R : Rt K}

/-- C127: a closed chain of sides with coordinates of at most a million, of which every two have an end in common or are at least 1e-6
apart in x or in y, is valid in every correctly rounded arithmetic. -/
theorem C127_valid (hR : R.IsRounding) {l : List (Seg K)} (hsm : ∀ s ∈ l, SmallSeg s) (hH : l.Pairwise KeepClear)
    (hc : ClosedChain l) (hne : l ≠ []) : R.plValid l = true :=
  plValid_clear_fl hR hsm hH (SameDrawing.refl l) hc hne

/-- C127: a shell with such dimensions, made in any correctly rounded arithmetic, has the four corners as its outline, which is a valid
polyline, and the two Walls as its graph; so `isvalid` answers no more than whether the computed middles of its two ends agree. -/
theorem C127_shell (hR : R.IsRounding) {m : MantelDim K} (hm : FairDim m) (h : Heap K) :
    (R.mantelNew h m .nonWall).1.vals (R.mantelNew h m .nonWall).2.line.segs =
      outline (R.mantelCorner m 0) (R.mantelCorner m 1) (R.mantelCorner m 2) (R.mantelCorner m 3) .nonWall ∧
    (R.mantelNew h m .nonWall).1.vals (R.mantelNew h m .nonWall).2.graph = [R.rightWallFl m, R.leftWallFl m] ∧
    R.plValid ((R.mantelNew h m .nonWall).1.vals (R.mantelNew h m .nonWall).2.line.segs) = true ∧
    (R.mantelValid (R.mantelNew h m .nonWall).1 (R.mantelNew h m .nonWall).2 = true ↔
      R.div (R.add (R.mantelCorner m 0).x (R.mantelCorner m 3).x) 2 = R.div (R.add (R.mantelCorner m 1).x (R.mantelCorner m 2).x) 2) := by
  have st := hm.stout hR
  have sm := hm.small hR
  have ht : R.tol ≤ 1 / 50000 := (tol_le hR).trans (by norm_num)
  have e0 : R.mantelCorner m 0 = ⟨(R.bandOf m).r0, (R.bandOf m).y0⟩ := rfl
  have e1 : R.mantelCorner m 1 = ⟨(R.bandOf m).r1, (R.bandOf m).y1⟩ := rfl
  have e2 : R.mantelCorner m 2 = ⟨(R.bandOf m).l1, (R.bandOf m).y1⟩ := rfl
  have e3 : R.mantelCorner m 3 = ⟨(R.bandOf m).l0, (R.bandOf m).y0⟩ := rfl
  have far : ∀ a < 4, ∀ b < 4, a < b → FarPts (1 / 50000) (R.mantelCorner m a) (R.mantelCorner m b) := by
    intro a ha b hb hab
    apply farPts_of
    have s1 := st.h
    have s2 := st.l0
    have s3 := st.l1
    have s4 := st.r0
    have s5 := st.r1
    interval_cases a <;> interval_cases b <;> first | omega | skip
    · right; right; left; rw [e0, e1]; exact s1
    · right; left; rw [e0, e2]; dsimp only; linarith
    · right; left; rw [e0, e3]; dsimp only; linarith
    · right; left; rw [e1, e2]; dsimp only; linarith
    · right; left; rw [e1, e3]; dsimp only; linarith
    · right; right; right; rw [e2, e3]; exact s1
  have hc : CornersApart R m := by
    intro a ha b hb hab
    have k : FarPts (1 / 50000) (R.mantelCorner m a) (R.mantelCorner m b) := by
      rcases Nat.lt_or_gt_of_ne hab with h | h
      · exact far a ha b hb h
      · exact (far b hb a ha h).symm
    refine ⟨?_, ?_⟩
    · intro e
      rw [e] at k
      rcases k with k | k <;> rw [sub_self, abs_zero] at k <;> norm_num at k
    · rcases k with k | k
      · exact Or.inl (ht.trans k)
      · exact Or.inr (ht.trans k)
  obtain ⟨o1, o2, -⟩ := C72_outline hR h m hc
  have hv : R.plValid ((R.mantelNew h m .nonWall).1.vals (R.mantelNew h m .nonWall).2.line.segs) = true := by
    rw [o1]
    refine C127_valid hR ?_ ?_ ?_ (by simp [outline])
    · intro s hs
      simp only [outline, List.mem_cons, List.not_mem_nil, or_false] at hs
      rcases hs with rfl | rfl | rfl | rfl
      · exact sm.1
      · exact ⟨sm.1.2, sm.2.1⟩
      · exact sm.2
      · exact ⟨sm.2.2, sm.1.1⟩
    · have s1 := st.h
      have s2 := st.l0
      have s3 := st.l1
      have s4 := st.r0
      have s5 := st.r1
      have n : (1 : K) / 10 ^ 6 ≤ 1 / 50000 := by norm_num
      simp only [outline, List.pairwise_cons, List.mem_cons, List.not_mem_nil, or_false, forall_eq_or_imp, forall_eq, false_imp_iff,
        implies_true, List.Pairwise.nil, and_true]
      refine ⟨⟨?_, ?_, ?_⟩, ⟨?_, ?_⟩, ?_⟩
      · left; right; right; left; rfl
      · right; left
        rw [e0, e1, e2, e3]
        rintro a (rfl | rfl) b (rfl | rfl) <;> dsimp only <;> linarith
      · left; right; left; rfl
      · left; right; right; left; rfl
      · right; right; right; left
        rw [e0, e1, e2, e3]
        rintro a (rfl | rfl) b (rfl | rfl) <;> dsimp only <;> linarith
      · left; right; right; left; rfl
    · have : Leads (R.mantelCorner m 0) (outline (R.mantelCorner m 0) (R.mantelCorner m 1) (R.mantelCorner m 2) (R.mantelCorner m 3) .nonWall)
          (R.mantelCorner m 0) := ⟨rfl, rfl, rfl, rfl, rfl⟩
      exact this.closed
  refine ⟨o1, o2, hv, ?_⟩
  unfold Rt.mantelValid
  rw [o2, hv]
  dsimp only
  rw [e0, e1, e2, e3]
  simp

/-- the Walls draw the outline of the bands -/
theorem stack_draws {a : MantelDim K} {as : List (MantelDim K)} {top bot : Ending K} {y l r y' l' r' : K} {up down : Option (Pt K)}
    (hu : List.Forall₂ SameEdge (R.topWalls ((a :: as).getLast (by simp)) top).reverse (lidUp y' l' r' up))
    (hd : List.Forall₂ SameEdge (R.bottomWalls a bot) (lidDown y l r down)) {v : List (Seg K)}
    (hv : v.Perm (R.stackWalls a as top bot)) : SameDrawing v (bandOutline y l r ((a :: as).map R.bandOf) y' l' r' up down) := by
  obtain ⟨ms, hms⟩ : ∃ ms, a :: as = ms := ⟨_, rfl⟩
  have hb : bandOutline y l r ((a :: as).map R.bandOf) y' l' r' up down =
      ms.map R.rightWallFl ++ (lidUp y' l' r' up ++ (ms.reverse.map R.leftWallFl ++ lidDown y l r down)) := by
    unfold bandOutline
    rw [hms, ← List.map_reverse, List.map_map, List.map_map]
    rfl
  rw [hb]
  refine ⟨ms.map R.rightWallFl ++ ((R.topWalls ((a :: as).getLast (by simp)) top).reverse ++
    (ms.reverse.map R.leftWallFl ++ R.bottomWalls a bot)), ?_, ?_⟩
  · refine .trans ?_ hv.symm
    unfold Rt.stackWalls
    have h1 : ((a :: as).flatMap fun m => [R.rightWallFl m, R.leftWallFl m]).Perm (ms.map R.rightWallFl ++ ms.map R.leftWallFl) := by
      rw [hms]; exact flatMap_pair_perm _ _ _
    refine .trans ?_ ((h1.append_right _).append_right _).symm
    rw [List.append_assoc, List.append_assoc]
    refine .append_left _ ?_
    rw [← List.append_assoc, ← List.append_assoc]
    refine .append_right _ ?_
    refine .trans List.perm_append_comm ?_
    refine .append ?_ (List.reverse_perm _)
    exact (List.reverse_perm _).map _
  · subst hms
    exact List.rel_append (forall₂_sameEdge_refl _) (List.rel_append hu (List.rel_append (forall₂_sameEdge_refl _) hd))

/-- everything about the outline of a stack -/
theorem stack_outline (hR : R.IsRounding) {a : MantelDim K} {as : List (MantelDim K)} (hch : (a :: as).IsChain fun m m' => R.StandsOn m' m)
    (hs : ∀ m ∈ a :: as, FairDim m) (top bot : Ending K) :
    ∃ H : List (Seg K), ClosedChain H ∧ (H.map Seg.i).Nodup ∧ Apart R.tol {p | p ∈ H.map Seg.i} ∧ H.Pairwise KeepClear ∧
      (∀ s ∈ H, SmallSeg s) ∧ 2 * as.length + 4 ≤ H.length ∧ H.length ≤ 2 * as.length + 6 ∧
      (∀ v : List (Seg K), v.Perm (R.stackWalls a as top bot) → SameDrawing v H) ∧
      (∃ s ∈ R.stackWalls a as top bot, s.cls ≠ .line ∧ ∃ o ∈ H, s.i = o.i ∧ s.j = o.j) ∧
      (∃ s ∈ R.stackWalls a as top bot, s.cls ≠ .line ∧ ∃ o ∈ H, s.i = o.j ∧ s.j = o.i) := by
  have hb := bands_of_chain a as hch
  have hax := posH_of_chain a as hch
  set z := (a :: as).getLast (by simp) with hz
  have hzm : z ∈ a :: as := List.getLast_mem _
  have ha : a ∈ a :: as := List.mem_cons_self ..
  have hst : ∀ m ∈ (a :: as).map R.bandOf, StoutBand (R.coord a.posH) (1 / 50000) m := by
    intro m hm
    obtain ⟨d, hd, rfl⟩ := List.mem_map.1 hm
    rw [← hax d hd]
    exact (hs d hd).stout hR
  have hne : (a :: as).map R.bandOf ≠ [] := by simp
  obtain ⟨up, pu, fu, su, s, hs1, hs2, o, ho, hi, hj⟩ := topWalls_lid hR top (hs z hzm)
  obtain ⟨down, pd, fd, sd⟩ := bottomWalls_lid hR bot (hs a ha)
  rw [hax z hzm] at pu
  have hup : (lidUp (R.bandOf z).y1 (R.bandOf z).l1 (R.bandOf z).r1 up).length = 1 ∨
      (lidUp (R.bandOf z).y1 (R.bandOf z).l1 (R.bandOf z).r1 up).length = 2 := by cases up <;> simp [lidUp]
  have hdn : (lidDown (R.bandOf a).y0 (R.bandOf a).l0 (R.bandOf a).r0 down).length = 1 ∨
      (lidDown (R.bandOf a).y0 (R.bandOf a).l0 (R.bandOf a).r0 down).length = 2 := by cases down <;> simp [lidDown]
  have hL : (bandOutline (R.bandOf a).y0 (R.bandOf a).l0 (R.bandOf a).r0 ((a :: as).map R.bandOf) (R.bandOf z).y1 (R.bandOf z).l1
      (R.bandOf z).r1 up down).length = (as.length + 1) + ((lidUp (R.bandOf z).y1 (R.bandOf z).l1 (R.bandOf z).r1 up).length +
        ((as.length + 1) + (lidDown (R.bandOf a).y0 (R.bandOf a).l0 (R.bandOf a).r0 down).length)) := by
    unfold bandOutline
    simp only [List.length_append, List.length_map, List.length_reverse, List.length_cons]
  have sa := (hs a ha).small hR
  have sz := (hs z hzm).small hR
  refine ⟨bandOutline (R.bandOf a).y0 (R.bandOf a).l0 (R.bandOf a).r0 ((a :: as).map R.bandOf) (R.bandOf z).y1 (R.bandOf z).l1
    (R.bandOf z).r1 up down, hb.closed up down, hb.nodup hne (by norm_num) hst pu pd, ?_, hb.clear hne (by norm_num) hst pu pd, ?_,
    by omega, by omega, fun v hv => stack_draws fu fd hv, ?_, ?_⟩
  · have h1 := hb.apart hne (by norm_num) hst pu pd
    have ht : R.tol ≤ 1 / 50000 := (tol_le hR).trans (by norm_num)
    intro p hp q hq hpq
    rcases h1 p hp q hq hpq with h | h
    · exact Or.inl (ht.trans h)
    · exact Or.inr (ht.trans h)
  · intro s hs'
    rcases List.mem_append.1 hs' with hs' | hs'
    · obtain ⟨b, hb', rfl⟩ := List.mem_map.1 hs'
      obtain ⟨m, hm, rfl⟩ := List.mem_map.1 hb'
      exact ((hs m hm).small hR).1
    · rcases List.mem_append.1 hs' with hs' | hs'
      · cases up with
        | none =>
          simp only [lidUp, List.mem_cons, List.not_mem_nil, or_false] at hs'
          subst hs'
          exact ⟨sz.1.2, sz.2.1⟩
        | some p =>
          have hp := su p rfl
          simp only [lidUp, List.mem_cons, List.not_mem_nil, or_false] at hs'
          rcases hs' with rfl | rfl
          · exact ⟨sz.1.2, hp⟩
          · exact ⟨hp, sz.2.1⟩
      · rcases List.mem_append.1 hs' with hs' | hs'
        · obtain ⟨b, hb', rfl⟩ := List.mem_map.1 hs'
          rw [List.mem_reverse] at hb'
          obtain ⟨m, hm, rfl⟩ := List.mem_map.1 hb'
          exact ((hs m hm).small hR).2
        · cases down with
          | none =>
            simp only [lidDown, List.mem_cons, List.not_mem_nil, or_false] at hs'
            subst hs'
            exact ⟨sa.2.2, sa.1.1⟩
          | some p =>
            have hp := sd p rfl
            simp only [lidDown, List.mem_cons, List.not_mem_nil, or_false] at hs'
            rcases hs' with rfl | rfl
            · exact ⟨sa.2.2, hp⟩
            · exact ⟨hp, sa.1.1⟩
  · exact ⟨R.rightWallFl a, List.mem_append_left _ (List.mem_append_left _ (List.mem_flatMap.2 ⟨a, ha, by simp⟩)),
      by simp [Rt.rightWallFl], riseBand (R.bandOf a), List.mem_append_left _ (List.mem_map_of_mem (List.mem_map_of_mem ha)), rfl, rfl⟩
  · exact ⟨s, List.mem_append_left _ (List.mem_append_right _ hs1), hs2, o,
      List.mem_append_right _ (List.mem_append_left _ ho), hi, hj⟩

/-- C127: in every correctly rounded arithmetic: the group of the graphs of up to 59 shells, each standing on the previous one (`pos_v` is
the computed sum of the `pos_v` and `h` below, the diameters fit), whatever their decimals, closed at each end by a torispherical head or by
one Wall between the corners, in any order: `find_loops` returns exactly one polygon, a closed chain that draws all the Walls. -/
theorem C127_loops (hR : R.IsRounding) {a : MantelDim K} {as : List (MantelDim K)} (hch : (a :: as).IsChain fun m m' => R.StandsOn m' m)
    (hs : ∀ m ∈ a :: as, FairDim m) (hlen : as.length ≤ 58) (top bot : Ending K) (π : SetOrder) (hπ : π.Ok) (fuel : ℕ)
    (hf : 4 * as.length + 12 ≤ fuel) (h : Heap K) (hw : h.WF) (G : List PLine) (hG : ∀ P ∈ G, ∀ s ∈ P.segs, s < h.nseg)
    (hv : (h.vals (G.flatMap PLine.segs)).Perm (R.stackWalls a as top bot)) :
    ∃ h' g P, R.findLoops π fuel h G = .ok h' g [P] ∧ ClosedChain (h'.vals P.segs) ∧
      SameDrawing (h'.vals P.segs) (h.vals (G.flatMap PLine.segs)) := by
  obtain ⟨H, hc, hn, hap, hcl, hsm, l1, l2, hd, ⟨s, s1, s2, s3⟩, ⟨t, t1, t2, t3⟩⟩ := stack_outline hR hch hs top bot
  obtain ⟨h', g, P, e, hcP, hdP⟩ := C110_outline hR π hπ fuel h G H hc hn (by omega) (by omega) hap (hd _ hv)
    ⟨s, hv.mem_iff.2 s1, s2, s3⟩ ⟨t, hv.mem_iff.2 t1, t2, t3⟩ hw hG
    (fun l h1 h2 h3 => plValid_clear_fl hR hsm hcl h1 h2 h3) (by omega)
  exact ⟨h', g, P, e, hcP, hdP.trans (hd _ hv).symm⟩

/-- C127: such a vessel, if the triangulation of its loop ends without an exception, has exactly one room, with all parts as its outer
wall and no inner wall. -/
theorem C127_one_room (hR : R.IsRounding) {a : MantelDim K} {as : List (MantelDim K)} (hch : (a :: as).IsChain fun m m' => R.StandsOn m' m)
    (hs : ∀ m ∈ a :: as, FairDim m) (hlen : as.length ≤ 58) (top bot : Ending K) (π : SetOrder) (hπ : π.Ok) (fuel : ℕ)
    (hf : 4 * as.length + 12 ≤ fuel) (h : Heap K) (hw : h.WF) (G : List PLine) (hG : ∀ P ∈ G, ∀ s ∈ P.segs, s < h.nseg)
    (hv : (h.vals (G.flatMap PLine.segs)).Perm (R.stackWalls a as top bot))
    (walls : ℕ → List ℕ) (hW : ∀ i < G.length, ∀ s ∈ walls i, s < h.nseg)
    (hwv : (h.vals ((List.range G.length).flatMap walls)).Perm (R.stackWalls a as top bot))
    (T : TriEnv K) (more : KeepMore K) (inter : List ℕ → List ℕ → List ℕ) (ω : ℕ → ℕ → ℕ → ℕ → Pt K) (cfuel : ℕ) :
    ∃ (h' : Heap K) (P : PLine), ClosedChain (h'.vals P.segs) ∧ SameDrawing (h'.vals P.segs) (h.vals (G.flatMap PLine.segs)) ∧
      ((∃ r, R.triangleMesh T.lib h' (h'.vals P.segs) (T.ω 0) T.fuel = .ok r) →
        ∃ h2, R.behalterRooms π fuel T more inter ω cfuel h G walls = .ok (h2, [⟨0, [List.range G.length], []⟩])) ∧
      (∀ x, R.triangleMesh T.lib h' (h'.vals P.segs) (T.ω 0) T.fuel = .error (some x) →
        R.behalterRooms π fuel T more inter ω cfuel h G walls = .raised x) := by
  obtain ⟨h', g, P, e, hc, hd⟩ := C127_loops hR hch hs hlen top bot π hπ fuel hf h hw G hG hv
  obtain ⟨H, hc', hn, hap, -, -, l1, l2, hdr, -, -⟩ := stack_outline hR hch hs top bot
  have hapG : Apart R.tol (Ends (h.vals (G.flatMap PLine.segs))) := by
    rw [Ends_sameDrawing (hdr _ hv), Ends_closedChain hc']
    exact hap
  exact ⟨h', P, hc, hd, C111_one_room hR π hπ fuel T more inter ω cfuel h hw G hG h' g P e hd hapG walls hW H hc' hn (by omega) (by omega)
    hap (hdr _ hwv)⟩

/-! ### a vessel in binary64 -/

/-- a memory with these segments as Walls, every one with two Points of its own -/
def wallMem (L : List (Seg ℚ)) : Heap ℚ :=
  { pt := fun k => if k % 2 = 0 then (L.getD (k / 2) ⟨⟨0, 0⟩, ⟨0, 0⟩, .wall⟩).i else (L.getD (k / 2) ⟨⟨0, 0⟩, ⟨0, 0⟩, .wall⟩).j
    seg := fun k => ⟨2 * k, 2 * k + 1, .wall⟩
    npt := 2 * L.length
    nseg := L.length }

/-- the floats 0.1, 0.2 and 0.7; the second shell begins at 0.1 + 0.2, which is not 0.3 -/
def shellA : MantelDim ℚ := ⟨exRt.fl (1 / 10), exRt.fl (7 / 10), 1 / 3, exRt.fl (1 / 10), exRt.fl (2 / 10)⟩
def shellB : MantelDim ℚ := ⟨exRt.add (exRt.fl (1 / 10)) (exRt.fl (2 / 10)), exRt.fl (7 / 10), exRt.fl (1 / 10), 1 / 3, exRt.fl (1 / 10)⟩

theorem shells_fair : ∀ m ∈ [shellA, shellB], FairDim m := by
  have fa : FairDim shellA := by refine ⟨?_, ?_, ?_, ?_, ?_, ?_, ?_, ?_⟩ <;> decide +kernel
  have fb : FairDim shellB := by refine ⟨?_, ?_, ?_, ?_, ?_, ?_, ?_, ?_⟩ <;> decide +kernel
  intro m hm
  simp only [List.mem_cons, List.not_mem_nil, or_false] at hm
  rcases hm with rfl | rfl
  · exact fa
  · exact fb

theorem shells_chain : [shellA, shellB].IsChain fun m m' => exRt.StandsOn m' m := by
  rw [List.isChain_cons_cons]
  exact ⟨⟨rfl, rfl, rfl⟩, by simp⟩

/-- two cones with the radii 1/6 and 0.05 around 0.7, a head on top and one Wall below, in binary64: one loop of seven sides, whatever the
order of the sets -/
example (π : SetOrder) (hπ : π.Ok) :
    shellB.posV ≠ exRt.fl (3 / 10) ∧
    ∃ h' g P, exRt.findLoops π 16 (wallMem (exRt.stackWalls shellA [shellB] (.head 0) .plate))
      [⟨[0, 1], false⟩, ⟨[2, 3], false⟩, ⟨[4, 5], false⟩, ⟨[6], false⟩] = .ok h' g [P] ∧ ClosedChain (h'.vals P.segs) ∧
        (h'.vals P.segs).length = 7 := by
  refine ⟨by decide +kernel, ?_⟩
  obtain ⟨h', g, P, e, hc, l', hp, hf⟩ := C127_loops exRt_isRounding shells_chain shells_fair (by simp) (.head 0) .plate π hπ 16 (by simp)
    (wallMem (exRt.stackWalls shellA [shellB] (.head 0) .plate))
    (by
      intro s hs
      unfold wallMem at *
      dsimp only at *
      omega)
    [⟨[0, 1], false⟩, ⟨[2, 3], false⟩, ⟨[4, 5], false⟩, ⟨[6], false⟩]
    (by
      intro P hP s hs
      have h7 : (wallMem (exRt.stackWalls shellA [shellB] (.head 0) .plate)).nseg = 7 := rfl
      rw [h7]
      simp only [List.mem_cons, List.not_mem_nil, or_false] at hP
      rcases hP with rfl | rfl | rfl | rfl <;> simp at hs <;> omega)
    (List.Perm.refl _)
  refine ⟨h', g, P, e, hc, ?_⟩
  rw [← hp.length_eq, hf.length_eq]
  rfl

end Srep
