import Verif.Props.TowerFloat
import Verif.Lemmas.Round
import Verif.Lemmas.CompleteC

/-!
# Flat heads and ends of rooms in floating point (C127)
-/

set_option linter.unusedSectionVars false

namespace Srep
open Rt
variable {K : Type} [Field K] [LinearOrder K] [IsStrictOrderedRing K] [FloorRing K] {R : Rt K}

/-- what a flat head consists of in any correctly rounded arithmetic, if its computed ends are apart -/
theorem plate_vals_fl (hR : R.IsRounding) (h : Heap K) (m : PlateDim K)
    (h2 : R.coord (R.add (R.coord (R.div (-m.d) 2)) m.posH) + R.tol ≤ R.coord (R.add (R.coord (R.div m.d 2)) m.posH)) :
    (R.plateNew h m).1.vals (R.plateNew h m).2.line.segs =
        [⟨⟨R.coord (R.add (R.coord (R.div (-m.d) 2)) m.posH), R.coord m.posV⟩,
          ⟨R.coord (R.add (R.coord (R.div m.d 2)) m.posH), R.coord m.posV⟩, .wall⟩] ∧
      (R.plateNew h m).2.line = ⟨[h.nseg], true⟩ ∧ (R.plateNew h m).2.graph = [h.nseg] := by
  have htol := hR.tol_pos
  have hz : R.coord (0 : K) = 0 := by
    have h := hR.coord_neg 0
    rw [neg_zero] at h
    linarith
  have ha : R.add (R.coord 0) m.posV = R.fl m.posV := by
    rw [hz]; unfold Rt.add; rw [zero_add]
  obtain ⟨p1, p2, p3, p4, p5, p6⟩ := Heap.newPts_spec [R.mkPt (R.div (-m.d) 2) 0, R.mkPt (R.div m.d 2) 0] h
  have q0 := p6 0 (by simp)
  have q1 := p6 1 (by simp)
  simp only [add_zero, List.getElem_cons_zero, List.getElem_cons_succ] at q0 q1
  set g := (h.newLine (R.mkPt (R.div (-m.d) 2) 0) (R.mkPt (R.div m.d 2) 0) .wall).1 with hg
  have es : g.seg h.nseg = ⟨h.npt, h.npt + 1, .wall⟩ := by
    show Function.update _ (h.newPts _).1.nseg _ h.nseg = _
    rw [p4]; simp
  have e2 : (h.newLine (R.mkPt (R.div (-m.d) 2) 0) (R.mkPt (R.div m.d 2) 0) .wall).2 = h.nseg := p4
  have ep : g.pt = (h.newPts [R.mkPt (R.div (-m.d) 2) 0, R.mkPt (R.div m.d 2) 0]).1.pt := rfl
  set g2 := R.segMove g h.nseg m.posH m.posV with hg2
  have hseg : g2.seg = g.seg := rfl
  have hp0 : g2.pt h.npt = ⟨R.coord (R.add (R.coord (R.div (-m.d) 2)) m.posH), R.coord m.posV⟩ := by
    rw [hg2]
    unfold Rt.segMove Rt.movePt Heap.setPt
    rw [es]
    dsimp only
    rw [Function.update_of_ne (by omega), Function.update_self, ep, q0]
    simp only [Rt.mkPt, ha, coord_fl' hR]
  have hp1 : g2.pt (h.npt + 1) = ⟨R.coord (R.add (R.coord (R.div m.d 2)) m.posH), R.coord m.posV⟩ := by
    rw [hg2]
    unfold Rt.segMove Rt.movePt Heap.setPt
    rw [es]
    dsimp only
    rw [Function.update_self, Function.update_of_ne (by omega), ep, q1]
    simp only [Rt.mkPt, ha, coord_fl' hR]
  have hval : g2.val h.nseg = ⟨⟨R.coord (R.add (R.coord (R.div (-m.d) 2)) m.posH), R.coord m.posV⟩,
      ⟨R.coord (R.add (R.coord (R.div m.d 2)) m.posH), R.coord m.posV⟩, .wall⟩ := by
    unfold Heap.val
    rw [hseg, es]
    dsimp only
    rw [hp0, hp1]
  set A := R.coord (R.add (R.coord (R.div (-m.d) 2)) m.posH) with hA
  set B := R.coord (R.add (R.coord (R.div m.d 2)) m.posH) with hB
  have hsep : R.Sep (endPts (g2.vals [h.nseg])) := by
    have hap : Apart R.tol {p : Pt K | p = ⟨A, R.coord m.posV⟩ ∨ p = ⟨B, R.coord m.posV⟩} := by
      rintro p (rfl | rfl) q (rfl | rfl) hpq
      · exact absurd rfl hpq
      · left; rw [abs_sub_comm]; exact le_trans (by dsimp only; linarith) (le_abs_self _)
      · left; exact le_trans (by dsimp only; linarith) (le_abs_self _)
      · exact absurd rfl hpq
    intro p hp q hq e
    simp only [Heap.vals, List.map_cons, List.map_nil, hval, endPts, List.flatMap_cons, List.flatMap_nil, List.append_nil, List.mem_cons,
      List.not_mem_nil, or_false] at hp hq
    exact peq_of_apart hR hap hp hq e
  have hpr := purge_spec hR (h := g2) (P := ⟨[h.nseg], false⟩) rfl hsep (by
    intro s hs'
    rw [List.mem_singleton] at hs'
    subst hs'
    rw [hval]
    intro e
    have := congrArg Pt.x e
    dsimp only at this
    linarith)
  unfold Rt.plateNew
  dsimp only
  rw [e2, ← hg, ← hg2]
  generalize R.purge g2 ⟨[h.nseg], false⟩ = q at *
  obtain ⟨q1', q2'⟩ := q
  obtain ⟨z1, z2, z3, z4, z5, z6, -, -⟩ := hpr
  dsimp only at *
  subst z1
  refine ⟨?_, rfl, ?_⟩
  · simp only [Heap.vals, List.map_cons, List.map_nil, z5, hval]
  · have hw : (q1'.val h.nseg).cls = .wall := by rw [z5, hval]
    simpa [Heap.walls, Heap.val] using hw

/-- a number within 1e-9 of a number with 8 decimals is stored as the float nearest to that -/
theorem coord_snap (hR : R.IsRounding) {y : K} {n : ℤ} (h : |y - n / 10 ^ 8| ≤ 1 / 10 ^ 9) (hn : |(n : K) / 10 ^ 8| ≤ 10 ^ 6) :
    R.coord y = R.fl (n / 10 ^ 8) := by
  refine hR.coord_of_near (lt_of_le_of_lt (hR.fl_err h) ?_)
  have : (|(n : K) / 10 ^ 8| + 1 / 10 ^ 9) / 2 ^ 53 ≤ (10 ^ 6 + 1) / 2 ^ 53 := by
    apply div_le_div_of_nonneg_right _ (by positivity)
    have : (1 : K) / 10 ^ 9 ≤ 1 := by norm_num
    linarith
  have n2 : (1 / 10 ^ 9 + (10 ^ 6 + 1) / 2 ^ 53 : K) < 1 / (2 * 10 ^ 8) := by norm_num
  linarith

/-- the ends of a flat head are the corners of the shell it closes -/
theorem plate_ends (hR : R.IsRounding) {c d : K} {a k : ℤ} (hc : c = R.fl (a / 10 ^ 8)) (hd : d = R.fl (2 * k / 10 ^ 8))
    (hcb : |c| ≤ 10 ^ 5) (h0 : 1 / 100 ≤ d) (h1 : d ≤ 10 ^ 5) :
    R.coord (R.add (R.coord (R.div (-d) 2)) c) = R.coord (R.sub c (R.div d 2)) ∧
    R.coord (R.add (R.coord (R.div d 2)) c) = R.coord (R.add c (R.div d 2)) := by
  have rel' : ∀ z B : K, |R.fl z| ≤ B → |R.fl z - z| ≤ 2 * B / 2 ^ 53 ∧ |z| ≤ 2 * B := by
    intro z B hB
    have hr := hR.rel z
    have h2 : |z| ≤ |R.fl z| + |R.fl z - z| := by
      have := abs_sub_abs_le_abs_sub z (R.fl z)
      rw [abs_sub_comm] at this
      linarith
    have h3 : |z| / 2 ^ 53 ≤ |z| / 2 := div_le_div_of_nonneg_left (abs_nonneg _) (by norm_num) (by norm_num)
    have h4 : |z| ≤ 2 * B := by linarith
    exact ⟨hr.trans (div_le_div_of_nonneg_right h4 (by positivity)), h4⟩
  obtain ⟨c1, c2⟩ := rel' (a / 10 ^ 8) (10 ^ 5) (by rw [← hc]; exact hcb)
  obtain ⟨d1, d2⟩ := rel' (2 * k / 10 ^ 8) (10 ^ 5) (by rw [← hd, abs_le]; constructor <;> linarith)
  rw [← hc] at c1
  rw [← hd] at d1
  obtain ⟨a1, a2⟩ := half_near hR h0 h1
  have n1 : (2 * 10 ^ 5 / 2 ^ 53 : K) ≤ 1 / 10 ^ 10 := by norm_num
  have c1 := abs_le.1 (c1.trans n1)
  have d1 := abs_le.1 (d1.trans n1)
  have kk : (2 * k / 10 ^ 8 : K) = 2 * (k / 10 ^ 8) := by ring
  rw [kk] at d1 d2
  have hk : |(k : K) / 10 ^ 8| ≤ 10 ^ 5 := by
    rw [abs_mul, abs_of_pos (by norm_num : (0 : K) < 2)] at d2; linarith
  -- the radius
  have e1 : R.div d 2 = R.fl (d / 2) := rfl
  have r1 := hR.rel (d / 2)
  have hdn : |d / 2| ≤ 10 ^ 5 := by rw [abs_le]; constructor <;> linarith
  have r2 := abs_le.1 (r1.trans (div_le_div_of_nonneg_right hdn (by positivity : (0 : K) ≤ 2 ^ 53)))
  have n2 : (10 ^ 5 / 2 ^ 53 : K) ≤ 1 / 10 ^ 10 := by norm_num
  have n9 : (1 : K) / 10 ^ 9 = 10 * (1 / 10 ^ 10) := by norm_num
  have tiny : (0 : K) < 1 / 10 ^ 10 := by positivity
  rw [← e1] at r2
  have rk : |R.div d 2 - k / 10 ^ 8| ≤ 2 * (1 / 10 ^ 10) := by
    rw [abs_le]; constructor <;> linarith [r2.1, r2.2, d1.1, d1.2]
  have ek : R.coord (R.div d 2) = R.fl (k / 10 ^ 8) := coord_snap hR (by rw [n9]; linarith) (hk.trans (by norm_num))
  have ekn : R.coord (R.div (-d) 2) = -R.fl (k / 10 ^ 8) := by rw [neg_half hR, hR.coord_neg, ek]
  have fk := hR.rel ((k : K) / 10 ^ 8)
  have fk := abs_le.1 ((fk.trans (div_le_div_of_nonneg_right hk (by positivity : (0 : K) ≤ 2 ^ 53))).trans n2)
  have hca := abs_le.1 c2
  have hk' := abs_le.1 hk
  have rk := abs_le.1 rk
  -- sums
  have key : ∀ (x : K) (n : ℤ), |x - n / 10 ^ 8| ≤ 4 * (1 / 10 ^ 10) → |(n : K) / 10 ^ 8| ≤ 4 * 10 ^ 5 → R.coord (R.fl x) = R.fl (n / 10 ^ 8) := by
    intro x n hx hn
    rw [coord_fl' hR]
    exact coord_snap hR (by rw [n9]; linarith) (hn.trans (by norm_num))
  have bm : |((a - k : ℤ) : K) / 10 ^ 8| ≤ 4 * 10 ^ 5 := by
    push_cast; rw [sub_div, abs_le]; constructor <;> linarith [hca.1, hca.2, hk'.1, hk'.2]
  have bp : |((a + k : ℤ) : K) / 10 ^ 8| ≤ 4 * 10 ^ 5 := by
    push_cast; rw [add_div, abs_le]; constructor <;> linarith [hca.1, hca.2, hk'.1, hk'.2]
  constructor
  · rw [ekn]
    have f1 : R.add (-R.fl (k / 10 ^ 8)) c = R.fl (-R.fl (k / 10 ^ 8) + c) := rfl
    have f2 : R.sub c (R.div d 2) = R.fl (c - R.div d 2) := rfl
    rw [f1, f2, key _ (a - k) ?_ bm, key _ (a - k) ?_ bm]
    · push_cast; rw [sub_div, abs_le]; constructor <;> linarith [c1.1, c1.2, rk.1, rk.2]
    · push_cast; rw [sub_div, abs_le]; constructor <;> linarith [c1.1, c1.2, fk.1, fk.2]
  · rw [ek]
    have f1 : R.add (R.fl (k / 10 ^ 8)) c = R.fl (R.fl (k / 10 ^ 8) + c) := rfl
    have f2 : R.add c (R.div d 2) = R.fl (c + R.div d 2) := rfl
    rw [f1, f2, key _ (a + k) ?_ bp, key _ (a + k) ?_ bp]
    · push_cast; rw [add_div, abs_le]; constructor <;> linarith [c1.1, c1.2, rk.1, rk.2]
    · push_cast; rw [add_div, abs_le]; constructor <;> linarith [c1.1, c1.2, fk.1, fk.2]

/-- C127: a flat head (or the end of a room) with the diameter and the axis of the shell it closes, both floats nearest to decimals (8 for
the axis, the radius on the same grid), is one Wall between the computed corners of the shell, in every correctly rounded arithmetic: at
the top if its `pos_v` is the computed sum `pos_v + h`, at the bottom if it is `pos_v`. -/
theorem C127_plate (hR : R.IsRounding) {m : MantelDim K} (hm : FairDim m) (h : Heap K) {a k : ℤ} (hc : m.posH = R.fl (a / 10 ^ 8)) :
    (m.d1 = R.fl (2 * k / 10 ^ 8) → (R.plateNew h ⟨R.add m.posV m.h, m.d1, m.posH⟩).1.vals
      (R.plateNew h ⟨R.add m.posV m.h, m.d1, m.posH⟩).2.graph = R.topWalls m .plate) ∧
    (m.d0 = R.fl (2 * k / 10 ^ 8) → (R.plateNew h ⟨m.posV, m.d0, m.posH⟩).1.vals
      (R.plateNew h ⟨m.posV, m.d0, m.posH⟩).2.graph = R.bottomWalls m .plate) := by
  have ht : R.tol ≤ 1 / 50000 := (tol_le hR).trans (by norm_num)
  have st := hm.stout hR
  constructor
  · intro hd
    obtain ⟨e1, e2⟩ := plate_ends hR hc hd hm.posH hm.d1 hm.d1'
    obtain ⟨p1, p2, p3⟩ := plate_vals_fl hR h ⟨R.add m.posV m.h, m.d1, m.posH⟩ (by
      dsimp only
      rw [e1, e2]
      have s1 := st.l1
      have s2 := st.r1
      simp only [Rt.bandOf] at s1 s2
      linarith)
    have : (R.plateNew h ⟨R.add m.posV m.h, m.d1, m.posH⟩).2.graph = (R.plateNew h ⟨R.add m.posV m.h, m.d1, m.posH⟩).2.line.segs := by
      rw [p2, p3]
    rw [this, p1]
    dsimp only
    rw [e1, e2]
    rfl
  · intro hd
    obtain ⟨e1, e2⟩ := plate_ends hR hc hd hm.posH hm.d0 hm.d0'
    obtain ⟨p1, p2, p3⟩ := plate_vals_fl hR h ⟨m.posV, m.d0, m.posH⟩ (by
      dsimp only
      rw [e1, e2]
      have s1 := st.l0
      have s2 := st.r0
      simp only [Rt.bandOf] at s1 s2
      linarith)
    have : (R.plateNew h ⟨m.posV, m.d0, m.posH⟩).2.graph = (R.plateNew h ⟨m.posV, m.d0, m.posH⟩).2.line.segs := by
      rw [p2, p3]
    rw [this, p1]
    dsimp only
    rw [e1, e2]
    rfl

/-- binary64: axis at 0.1, diameter 0.7 -/
example : (exRt.plateNew ⟨fun _ => ⟨0, 0⟩, fun _ => ⟨0, 0, .line⟩, 0, 0⟩ ⟨exRt.add (exRt.fl (1 / 10)) (exRt.fl (2 / 10)), exRt.fl (7 / 10),
      exRt.fl (1 / 10)⟩).1.vals (exRt.plateNew ⟨fun _ => ⟨0, 0⟩, fun _ => ⟨0, 0, .line⟩, 0, 0⟩
      ⟨exRt.add (exRt.fl (1 / 10)) (exRt.fl (2 / 10)), exRt.fl (7 / 10), exRt.fl (1 / 10)⟩).2.graph =
    exRt.topWalls ⟨exRt.fl (1 / 10), exRt.fl (1 / 10), 1, exRt.fl (7 / 10), exRt.fl (2 / 10)⟩ .plate := by
  refine (C127_plate exRt_isRounding (m := ⟨exRt.fl (1 / 10), exRt.fl (1 / 10), 1, exRt.fl (7 / 10), exRt.fl (2 / 10)⟩) ?_ _
    (a := 10000000) (k := 35000000) (by norm_num)).1 (by norm_num)
  refine ⟨?_, ?_, ?_, ?_, ?_, ?_, ?_, ?_⟩ <;> decide +kernel

end Srep
