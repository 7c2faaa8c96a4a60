import Verif.Lemmas.ValidFloat
import Verif.Props.Tower

/-! Stacks of shells whose dimensions are floats: the corners as they are computed. -/

set_option linter.unusedSectionVars false

namespace Srep
open Rt
variable {K : Type} [Field K] [LinearOrder K] [IsStrictOrderedRing K] [FloorRing K] {R : Rt K}

/-- dimensions of at most 100000, at least 1e-4 high and 0.01 wide; nothing is said about decimals -/
structure FairDim (m : MantelDim K) : Prop where
  posH : |m.posH| ≤ 10 ^ 5
  posV : |m.posV| ≤ 10 ^ 5
  h0 : 1 / 10 ^ 4 ≤ m.h
  h1 : m.h ≤ 10 ^ 5
  d0 : 1 / 100 ≤ m.d0
  d0' : m.d0 ≤ 10 ^ 5
  d1 : 1 / 100 ≤ m.d1
  d1' : m.d1 ≤ 10 ^ 5

/-- the second shell stands on the first one, its `pos_v` is the sum that Python computes -/
def Rt.StandsOn (R : Rt K) (m' m : MantelDim K) : Prop := m'.posH = m.posH ∧ m'.posV = R.add m.posV m.h ∧ m'.d0 = m.d1

/-- the corners of a shell -/
def Rt.bandOf (R : Rt K) (m : MantelDim K) : Band K where
  y0 := R.coord m.posV
  y1 := R.coord (R.add m.posV m.h)
  l0 := R.coord (R.sub m.posH (R.div m.d0 2))
  r0 := R.coord (R.add m.posH (R.div m.d0 2))
  l1 := R.coord (R.sub m.posH (R.div m.d1 2))
  r1 := R.coord (R.add m.posH (R.div m.d1 2))

/-- the two Walls of a shell, SR_Vessel/SR_hauptteile.py:715-727 -/
def Rt.rightWallFl (R : Rt K) (m : MantelDim K) : Seg K := ⟨R.mantelCorner m 0, R.mantelCorner m 1, .wall⟩
def Rt.leftWallFl (R : Rt K) (m : MantelDim K) : Seg K := ⟨R.mantelCorner m 2, R.mantelCorner m 3, .wall⟩

theorem riseBand_bandOf (m : MantelDim K) : riseBand (R.bandOf m) = R.rightWallFl m := rfl
theorem fallBand_bandOf (m : MantelDim K) : fallBand (R.bandOf m) = R.leftWallFl m := rfl

theorem coord_fl' (hR : R.IsRounding) (z : K) : R.coord (R.fl z) = R.coord z := by
  unfold Rt.coord; rw [hR.idem]

theorem coord_near' (hR : R.IsRounding) {z : K} (hz : |z| ≤ 3 * 10 ^ 6) : |R.coord z - z| ≤ 57 / 10 ^ 10 := by
  rw [← coord_fl' hR]; exact coord_near hR hz

theorem half_near (hR : R.IsRounding) {d : K} (h0 : 1 / 100 ≤ d) (h1 : d ≤ 10 ^ 5) :
    1 / 250 ≤ R.div d 2 ∧ R.div d 2 ≤ 6 * 10 ^ 4 := by
  have h := abs_le.1 (hR.rel (d / 2))
  have hd : |d / 2| = d / 2 := abs_of_nonneg (by linarith)
  rw [hd] at h
  have e : R.div d 2 = R.fl (d / 2) := rfl
  rw [e]
  have n : d / 2 / 2 ^ 53 ≤ d / 2 / 10 := by
    apply div_le_div_of_nonneg_left <;> [linarith; norm_num; norm_num]
  constructor <;> linarith [h.1, h.2]

theorem FairDim.corner (hR : R.IsRounding) {c d : K} (hc : |c| ≤ 10 ^ 5) (h0 : 1 / 100 ≤ d) (h1 : d ≤ 10 ^ 5) :
    R.coord (R.sub c (R.div d 2)) + 1 / 50000 ≤ R.coord c ∧ R.coord c + 1 / 50000 ≤ R.coord (R.add c (R.div d 2)) ∧
      |R.coord (R.sub c (R.div d 2))| ≤ 10 ^ 6 ∧ |R.coord (R.add c (R.div d 2))| ≤ 10 ^ 6 := by
  obtain ⟨a1, a2⟩ := half_near hR h0 h1
  have hc' := abs_le.1 hc
  have b1 := abs_le.1 (coord_near hR (z := c - R.div d 2) (by rw [abs_le]; constructor <;> linarith [hc'.1, hc'.2]))
  have b2 := abs_le.1 (coord_near hR (z := c + R.div d 2) (by rw [abs_le]; constructor <;> linarith [hc'.1, hc'.2]))
  have b3 := abs_le.1 (coord_near' hR (z := c) (by rw [abs_le]; constructor <;> linarith [hc'.1, hc'.2]))
  have n : (57 : K) / 10 ^ 10 = 57 / 10000000000 := by norm_num
  rw [n] at b1 b2 b3
  have e1 : R.sub c (R.div d 2) = R.fl (c - R.div d 2) := rfl
  have e2 : R.add c (R.div d 2) = R.fl (c + R.div d 2) := rfl
  rw [e1, e2]
  refine ⟨?_, ?_, ?_, ?_⟩
  · linarith [b1.2, b3.1]
  · linarith [b2.1, b3.2]
  · rw [abs_le]; constructor <;> linarith [b1.1, b1.2, hc'.1, hc'.2]
  · rw [abs_le]; constructor <;> linarith [b2.1, b2.2, hc'.1, hc'.2]

theorem FairDim.level (hR : R.IsRounding) {m : MantelDim K} (hm : FairDim m) :
    R.coord m.posV + 1 / 50000 ≤ R.coord (R.add m.posV m.h) ∧ |R.coord m.posV| ≤ 10 ^ 6 ∧ |R.coord (R.add m.posV m.h)| ≤ 3 * 10 ^ 5 := by
  have hc' := abs_le.1 hm.posV
  have h0 := hm.h0
  have h1 := hm.h1
  have e4 : (1 : K) / 10 ^ 4 = 1 / 10000 := by norm_num
  rw [e4] at h0
  have b2 := abs_le.1 (coord_near hR (z := m.posV + m.h) (by rw [abs_le]; constructor <;> linarith [hc'.1, hc'.2]))
  have b3 := abs_le.1 (coord_near' hR (z := m.posV) (by rw [abs_le]; constructor <;> linarith [hc'.1, hc'.2]))
  have n : (57 : K) / 10 ^ 10 = 57 / 10000000000 := by norm_num
  rw [n] at b2 b3
  have e2 : R.add m.posV m.h = R.fl (m.posV + m.h) := rfl
  rw [e2]
  refine ⟨?_, ?_, ?_⟩
  · linarith [b2.1, b3.2]
  · rw [abs_le]; constructor <;> linarith [b3.1, b3.2, hc'.1, hc'.2]
  · rw [abs_le]; constructor <;> linarith [b2.1, b2.2, hc'.1, hc'.2]

theorem FairDim.stout (hR : R.IsRounding) {m : MantelDim K} (hm : FairDim m) : StoutBand (R.coord m.posH) (1 / 50000) (R.bandOf m) where
  h := (hm.level hR).1
  l0 := (FairDim.corner hR hm.posH hm.d0 hm.d0').1
  r0 := (FairDim.corner hR hm.posH hm.d0 hm.d0').2.1
  l1 := (FairDim.corner hR hm.posH hm.d1 hm.d1').1
  r1 := (FairDim.corner hR hm.posH hm.d1 hm.d1').2.1

theorem FairDim.small (hR : R.IsRounding) {m : MantelDim K} (hm : FairDim m) :
    SmallSeg (R.rightWallFl m) ∧ SmallSeg (R.leftWallFl m) := by
  have c0 := (FairDim.corner hR hm.posH hm.d0 hm.d0').2.2
  have c1 := (FairDim.corner hR hm.posH hm.d1 hm.d1').2.2
  have l := (hm.level hR).2
  have l2 : |R.coord (R.add m.posV m.h)| ≤ 10 ^ 6 := l.2.trans (by norm_num)
  exact ⟨⟨⟨c0.2, l.1⟩, ⟨c1.2, l2⟩⟩, ⟨⟨c1.1, l2⟩, ⟨c0.1, l.1⟩⟩⟩

/-- shells that stand on each other are bands one above the other -/
theorem bands_of_chain (a : MantelDim K) (as : List (MantelDim K)) (h : (a :: as).IsChain fun m m' => R.StandsOn m' m) :
    Bands (R.bandOf a).y0 (R.bandOf a).l0 (R.bandOf a).r0 ((a :: as).map R.bandOf) (R.bandOf ((a :: as).getLast (by simp))).y1
      (R.bandOf ((a :: as).getLast (by simp))).l1 (R.bandOf ((a :: as).getLast (by simp))).r1 := by
  induction as generalizing a with
  | nil => exact ⟨rfl, rfl, rfl, rfl, rfl, rfl⟩
  | cons b bs ih =>
    rw [List.isChain_cons_cons] at h
    obtain ⟨⟨h1, h2, h3⟩, h4⟩ := h
    have := ih b h4
    refine ⟨rfl, rfl, rfl, ?_⟩
    have e1 : (R.bandOf b).y0 = (R.bandOf a).y1 := by simp only [Rt.bandOf, h2]
    have e2 : (R.bandOf b).l0 = (R.bandOf a).l1 := by simp only [Rt.bandOf, h1, h3]
    have e3 : (R.bandOf b).r0 = (R.bandOf a).r1 := by simp only [Rt.bandOf, h1, h3]
    rw [e1, e2, e3] at this
    exact this

theorem posH_of_chain (a : MantelDim K) (as : List (MantelDim K)) (h : (a :: as).IsChain fun m m' => R.StandsOn m' m) :
    ∀ m ∈ a :: as, m.posH = a.posH := by
  induction as generalizing a with
  | nil => intro m hm; rw [List.mem_singleton] at hm; rw [hm]
  | cons b bs ih =>
    rw [List.isChain_cons_cons] at h
    intro m hm
    rcases List.mem_cons.1 hm with rfl | hm
    · rfl
    · rw [ih b h.2 m hm, h.1.1]

/-- the graph of the part at the top of the last shell: a torispherical head, or one Wall between its upper corners -/
def Rt.topWalls (R : Rt K) (m : MantelDim K) : Ending K → List (Seg K)
  | .head k => R.headGraph ⟨R.add m.posV m.h, m.posH, m.d1, k, 1⟩
  | _ => [⟨R.mantelCorner m 2, R.mantelCorner m 1, .wall⟩]

/-- … and at the bottom of the first -/
def Rt.bottomWalls (R : Rt K) (m : MantelDim K) : Ending K → List (Seg K)
  | .head k => R.headGraph ⟨m.posV, m.posH, m.d0, k, -1⟩
  | _ => [⟨R.mantelCorner m 3, R.mantelCorner m 0, .wall⟩]

/-- all Walls of a stack that is closed at both ends -/
def Rt.stackWalls (R : Rt K) (a : MantelDim K) (as : List (MantelDim K)) (top bot : Ending K) : List (Seg K) :=
  ((a :: as).flatMap fun m => [R.rightWallFl m, R.leftWallFl m]) ++ R.topWalls ((a :: as).getLast (by simp)) top ++ R.bottomWalls a bot

theorem hGraph_bounds (hR : R.IsRounding) {d : K} (h1 : d ≤ 10 ^ 5) : 0 ≤ R.hGraph d ∧ R.hGraph d ≤ 10 ^ 5 := by
  unfold Rt.hGraph
  have e : R.div d 1000 = R.fl (d / 1000) := rfl
  have hz : R.fl (0 : K) = 0 := by
    have := hR.rel 0
    simpa using this
  constructor
  · exact le_trans (by have := hR.mono (x := 0) (y := 1 / 10) (by norm_num); rwa [hz] at this) (le_max_left _ _)
  · have k1 : R.fl (1 / 10) ≤ 10 ^ 5 := by
      have h := abs_le.1 (hR.rel (1 / 10))
      have n : |(1 / 10 : K)| / 2 ^ 53 ≤ 1 := by norm_num [abs_of_pos]
      have n2 : (1 : K) / 10 + 1 ≤ 10 ^ 5 := by norm_num
      linarith [h.2]
    have k2 : R.fl (d / 1000) ≤ 10 ^ 5 := by
      have hm := hR.mono (x := d / 1000) (y := 100) (by linarith)
      have h := abs_le.1 (hR.rel 100)
      have n : |(100 : K)| / 2 ^ 53 ≤ 1 := by norm_num [abs_of_pos]
      have n2 : (100 : K) + 1 ≤ 10 ^ 5 := by norm_num
      linarith [h.2]
    rw [e]
    exact max_le k1 k2

theorem neg_half (hR : R.IsRounding) (d : K) : R.div (-d) 2 = -R.div d 2 := by
  unfold Rt.div
  rw [neg_div, hR.neg]

theorem left_end (hR : R.IsRounding) (c d : K) : R.add (R.div (-d) 2) c = R.sub c (R.div d 2) := by
  rw [neg_half hR]
  unfold Rt.add Rt.sub
  congr 1; ring

theorem right_end (c d : K) : R.add (R.div d 2) c = R.add c (R.div d 2) := by
  unfold Rt.add
  congr 1; ring

theorem mul_one_fl (hR : R.IsRounding) {x : K} (h0 : 0 ≤ x) (h1 : x ≤ 10 ^ 5) : 0 ≤ R.mul 1 x ∧ R.mul 1 x ≤ 2 * 10 ^ 5 := by
  have e : R.mul 1 x = R.fl x := by unfold Rt.mul; rw [one_mul]
  rw [e]
  have h := abs_le.1 (hR.rel x)
  rw [abs_of_nonneg h0] at h
  have n : x / 2 ^ 53 ≤ x := div_le_self h0 (by norm_num)
  constructor <;> linarith [h.1, h.2]

/-- the top draws a lid -/
theorem topWalls_lid (hR : R.IsRounding) (e : Ending K) {m : MantelDim K} (hm : FairDim m) :
    ∃ up, ApexUp (R.coord m.posH) (R.bandOf m).y1 up ∧
      List.Forall₂ SameEdge (R.topWalls m e).reverse (lidUp (R.bandOf m).y1 (R.bandOf m).l1 (R.bandOf m).r1 up) ∧
      (∀ p, up = some p → SmallPt p) ∧
      ∃ s ∈ R.topWalls m e, s.cls ≠ .line ∧ ∃ o ∈ lidUp (R.bandOf m).y1 (R.bandOf m).l1 (R.bandOf m).r1 up, s.i = o.j ∧ s.j = o.i := by
  have flat : ∀ e : Ending K, R.topWalls m e = [⟨R.mantelCorner m 2, R.mantelCorner m 1, .wall⟩] → ∃ up, ApexUp (R.coord m.posH) (R.bandOf m).y1 up ∧
      List.Forall₂ SameEdge (R.topWalls m e).reverse (lidUp (R.bandOf m).y1 (R.bandOf m).l1 (R.bandOf m).r1 up) ∧
      (∀ p, up = some p → SmallPt p) ∧
      ∃ s ∈ R.topWalls m e, s.cls ≠ .line ∧ ∃ o ∈ lidUp (R.bandOf m).y1 (R.bandOf m).l1 (R.bandOf m).r1 up, s.i = o.j ∧ s.j = o.i := by
    intro e he
    rw [he]
    exact ⟨none, fun p h => (by cases h), .cons (Or.inr ⟨rfl, rfl⟩) .nil, fun p h => (by cases h), _, List.mem_cons_self .., by simp, _,
      List.mem_cons_self .., rfl, rfl⟩
  cases e with
  | plate => exact flat _ rfl
  | ende => exact flat _ rfl
  | head k =>
    obtain ⟨g0, g1⟩ := hGraph_bounds hR hm.d1'
    obtain ⟨t0, t1⟩ := mul_one_fl hR g0 g1
    have hl := (hm.level hR).2.2
    set v := R.add m.posV m.h with hv
    set p := R.mkPt m.posH (R.add v (R.mul 1 (R.hGraph m.d1))) with hp
    have hg : R.topWalls m (.head k) = [⟨⟨(R.bandOf m).l1, (R.bandOf m).y1⟩, p, .wall⟩, ⟨p, ⟨(R.bandOf m).r1, (R.bandOf m).y1⟩, .wall⟩] := by
      unfold Rt.topWalls Rt.headGraph
      simp only [left_end hR, right_end]
      rfl
    have e1 : R.add v (R.mul 1 (R.hGraph m.d1)) = R.fl (v + R.mul 1 (R.hGraph m.d1)) := rfl
    have hh := abs_le.1 hm.posH
    have vb : |v| ≤ 4 * 10 ^ 5 := by
      have h1 := abs_le.1 (hR.rel (m.posV + m.h))
      have h2 := abs_le.1 hm.posV
      have h3 := hm.h0
      have h4 := hm.h1
      have h5 : |m.posV + m.h| ≤ 2 * 10 ^ 5 := by
        rw [abs_le]
        have : (0 : K) ≤ 1 / 10 ^ 4 := by positivity
        constructor <;> linarith [h2.1, h2.2]
      have h6 : |m.posV + m.h| / 2 ^ 53 ≤ |m.posV + m.h| := div_le_self (abs_nonneg _) (by norm_num)
      have h7 := abs_le.1 h5
      have ev : v = R.fl (m.posV + m.h) := rfl
      rw [ev, abs_le]
      constructor <;> linarith [h1.1, h1.2, h7.1, h7.2]
    have vb' := abs_le.1 vb
    have sz : |v + R.mul 1 (R.hGraph m.d1)| ≤ 7 * 10 ^ 5 := by
      rw [abs_le]; constructor <;> linarith [vb'.1, vb'.2]
    refine ⟨some p, ?_, ?_, ?_, ?_⟩
    · intro q hq
      cases hq
      refine ⟨rfl, ?_⟩
      show R.coord v ≤ R.coord _
      rw [e1, coord_fl' hR]
      exact hR.coord_mono (by linarith)
    · rw [hg]
      exact .cons (Or.inr ⟨rfl, rfl⟩) (.cons (Or.inr ⟨rfl, rfl⟩) .nil)
    · intro q hq
      cases hq
      have n : (57 : K) / 10 ^ 10 ≤ 1 := by norm_num
      have b1 := abs_le.1 (coord_near' hR (z := m.posH) (by rw [abs_le]; constructor <;> linarith [hh.1, hh.2]))
      have b2 := abs_le.1 (coord_near hR (z := v + R.mul 1 (R.hGraph m.d1)) (sz.trans (by norm_num)))
      have sz' := abs_le.1 sz
      constructor
      · show |R.coord m.posH| ≤ _
        rw [abs_le]; constructor <;> linarith [b1.1, b1.2, hh.1, hh.2]
      · show |R.coord (R.fl _)| ≤ _
        rw [abs_le]; constructor <;> linarith [b2.1, b2.2, sz'.1, sz'.2]
    · rw [hg]
      exact ⟨_, List.mem_cons_self .., by simp, ⟨p, ⟨(R.bandOf m).l1, (R.bandOf m).y1⟩, .wall⟩, by simp [lidUp], rfl, rfl⟩

/-- … and so does the bottom -/
theorem bottomWalls_lid (hR : R.IsRounding) (e : Ending K) {m : MantelDim K} (hm : FairDim m) :
    ∃ down, ApexDown (R.coord m.posH) (R.bandOf m).y0 down ∧
      List.Forall₂ SameEdge (R.bottomWalls m e) (lidDown (R.bandOf m).y0 (R.bandOf m).l0 (R.bandOf m).r0 down) ∧
      (∀ p, down = some p → SmallPt p) := by
  have flat : ∀ e : Ending K, R.bottomWalls m e = [⟨R.mantelCorner m 3, R.mantelCorner m 0, .wall⟩] →
      ∃ down, ApexDown (R.coord m.posH) (R.bandOf m).y0 down ∧
      List.Forall₂ SameEdge (R.bottomWalls m e) (lidDown (R.bandOf m).y0 (R.bandOf m).l0 (R.bandOf m).r0 down) ∧
      (∀ p, down = some p → SmallPt p) := by
    intro e he
    rw [he]
    exact ⟨none, fun p h => (by cases h), .cons (Or.inl ⟨rfl, rfl⟩) .nil, fun p h => (by cases h)⟩
  cases e with
  | plate => exact flat _ rfl
  | ende => exact flat _ rfl
  | head k =>
    obtain ⟨g0, g1⟩ := hGraph_bounds hR hm.d0'
    obtain ⟨t0, t1⟩ := mul_one_fl hR g0 g1
    set v := m.posV with hv
    have eneg : R.mul (-1) (R.hGraph m.d0) = -R.mul 1 (R.hGraph m.d0) := by
      unfold Rt.mul; rw [← hR.neg]; congr 1; ring
    set p := R.mkPt m.posH (R.add v (R.mul (-1) (R.hGraph m.d0))) with hp
    have hg : R.bottomWalls m (.head k) = [⟨⟨(R.bandOf m).l0, (R.bandOf m).y0⟩, p, .wall⟩, ⟨p, ⟨(R.bandOf m).r0, (R.bandOf m).y0⟩, .wall⟩] := by
      unfold Rt.bottomWalls Rt.headGraph
      simp only [left_end hR, right_end]
      rfl
    have e1 : R.add v (R.mul (-1) (R.hGraph m.d0)) = R.fl (v - R.mul 1 (R.hGraph m.d0)) := by
      rw [eneg]; unfold Rt.add; rw [sub_eq_add_neg]
    have hh := abs_le.1 hm.posH
    have vb' := abs_le.1 hm.posV
    have sz : |v - R.mul 1 (R.hGraph m.d0)| ≤ 7 * 10 ^ 5 := by
      rw [abs_le]; constructor <;> linarith [vb'.1, vb'.2]
    refine ⟨some p, ?_, ?_, ?_⟩
    · intro q hq
      cases hq
      refine ⟨rfl, ?_⟩
      show R.coord _ ≤ R.coord v
      rw [e1, coord_fl' hR]
      exact hR.coord_mono (by linarith)
    · rw [hg]
      exact .cons (Or.inl ⟨rfl, rfl⟩) (.cons (Or.inl ⟨rfl, rfl⟩) .nil)
    · intro q hq
      cases hq
      have n : (57 : K) / 10 ^ 10 ≤ 1 := by norm_num
      have b1 := abs_le.1 (coord_near' hR (z := m.posH) (by rw [abs_le]; constructor <;> linarith [hh.1, hh.2]))
      have b2 := abs_le.1 (coord_near hR (z := v - R.mul 1 (R.hGraph m.d0)) (sz.trans (by norm_num)))
      have sz' := abs_le.1 sz
      constructor
      · show |R.coord m.posH| ≤ _
        rw [abs_le]; constructor <;> linarith [b1.1, b1.2, hh.1, hh.2]
      · show |R.coord (R.add v (R.mul (-1) (R.hGraph m.d0)))| ≤ _
        rw [e1, abs_le]; constructor <;> linarith [b2.1, b2.2, sz'.1, sz'.2]

end Srep
