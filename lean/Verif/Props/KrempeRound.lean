import Verif.Lemmas.KrempeRound
import Verif.Props.KrempeArc

/-! C130 (continued): the whole constructor of the rounded knuckle -/

set_option linter.unusedSectionVars false

namespace Srep
open Rt

/-- a junction rounded off with radius `r`: the shell above leans outwards less than the cone, both cuts lie clear of the arc,
the arc lies clear of the axis -/
structure RoundJunction (k o : MantelDim ℝ) (r hO hU : ℝ) : Prop extends Junction k o hO hU where
  rpos : 0 < r
  out : 0 ≤ leanOf o
  less : leanOf o < leanOf k
  uk : Untied (r * leanLen (leanOf k))
  uo : Untied (r * leanLen (leanOf o))
  gap : (12 / 10 ^ 5) ^ 2 ≤ dist2 (onWall (cornerOf o) (leanOf k) (-tangentLen (leanOf k) (leanOf o) r))
    (onWall (cornerOf o) (leanOf o) (tangentLen (leanOf k) (leanOf o) r))
  below : tangentLen (leanOf k) (leanOf o) r / leanLen (leanOf k) + arcOff (leanOf k) (leanOf o) + 2 / 10 ^ 5 ≤ hU
  above : tangentLen (leanOf k) (leanOf o) r / leanLen (leanOf o) + arcOff (leanOf k) (leanOf o) + 2 / 10 ^ 5 ≤ hO
  wide : arcOff (leanOf k) (leanOf o) + 1 / 10 ^ 5 ≤ k.d0 / 2

theorem Junction.onCone {k o : MantelDim ℝ} {hO hU : ℝ} (J : Junction k o hO hU) : OnCone k o :=
  ⟨⟨J.lk.gH, J.lk.gV, J.lk.gh, J.lk.g0, J.lk.g1, J.lk.hpos⟩, ⟨J.lo.gH, J.lo.gV, J.lo.gh, J.lo.g0, J.lo.g1, J.lo.hpos⟩, J.axis, J.meet, J.same⟩

/-- the points of the right side: lower cut, arc, upper cut -/
def roundSide {K : Type} (p0 : Pt K) (v : ℕ → Pt K) (p1 : Pt K) : ℕ → Pt K
  | 0 => p0
  | 5 => p1
  | n + 1 => v n

theorem Chained.congr {K : Type} {h : Heap K} {l : List ℕ} {n : ℕ} {q q' : ℕ → Pt K} (j : Chained h l n q) (e : ∀ i ≤ n, q i = q' i) :
    Chained h l n q' := by
  refine ⟨j.len, j.has, fun k hk => ?_⟩
  have := j.len
  rw [← e k (by omega), ← e (k + 1) (by omega)]
  exact j.val k hk

/-- `v` are the points of an arc from the touching point on the cone to that on the shell above -/
structure IsFillet (k o : MantelDim ℝ) (r : ℝ) (v : ℕ → Pt ℝ) : Prop where
  lower : Near (arcOff (leanOf k) (leanOf o)) (v 0) (onWall (cornerOf o) (leanOf k) (-tangentLen (leanOf k) (leanOf o) r))
  upper : Near (arcOff (leanOf k) (leanOf o)) (v 3) (onWall (cornerOf o) (leanOf o) (tangentLen (leanOf k) (leanOf o) r))
  circle : ∃ m, TouchesAt m r (cornerOf o) (leanOf k) (onWall (cornerOf o) (leanOf k) (-tangentLen (leanOf k) (leanOf o) r)) ∧
    TouchesAt m r (cornerOf o) (leanOf o) (onWall (cornerOf o) (leanOf o) (tangentLen (leanOf k) (leanOf o) r)) ∧
    ∀ n ≤ 3, Near (arcOff (leanOf k) (leanOf o)) (v n)
      (onCircle m.x m.y r (360 - leanDeg (leanOf k) + n * ((leanDeg (leanOf k) - leanDeg (leanOf o)) / 3)))

variable (hs : ℝ → ℝ → Int)

/-- the right side of the rounded knuckle -/
theorem round_right {h : Heap ℝ} {r hO hU : ℝ} {k o : ShellObj ℝ} (P : Parts h k o) (J : RoundJunction k.dim o.dim r hO hU)
    {q : (ℕ → Pt ℝ) → ℕ → Pt ℝ}
    (hq : q = fun v => roundSide ⟨o.dim.posH + cutRad k.dim (o.dim.posV - hU), o.dim.posV - hU⟩ v
      ⟨o.dim.posH + cutRad o.dim (o.dim.posV + hO), o.dim.posV + hO⟩) :
    ∃ v, IsFillet k.dim o.dim r v ∧ GridSpread 5 (q v) ∧ (∀ i ≤ 5, o.dim.posH + 1 / 10 ^ 5 ≤ (q v i).x) ∧
      ∃ c P', (Rt.real hs).krempeRight h r hO hU k o = .ok (c, P') ∧ h.Ext c ∧ Chained c P'.segs 5 (q v) ∧ SharesPoints c P'.segs := by
  have hE := Rt.real_isExact hs
  obtain ⟨s0, s1, s2, s3, hk, a0, -⟩ := shell_segs P.kegel
  obtain ⟨t0, t1, t2, t3, ho, b0, -⟩ := shell_segs P.oben
  have J' := J.toJunction
  have ax := J.axis
  have ha : |leanOf o.dim| = leanOf o.dim := abs_of_nonneg J.out
  obtain ⟨tl, el⟩ := fillet_lower (cornerOf o.dim) (r := r) J.less
  obtain ⟨tu, eu⟩ := fillet_upper (cornerOf o.dim) (r := r) J.less
  obtain ⟨v, sp, nr, -, arc⟩ := krempeArc_joined hs J'.onCone J.rpos (by rw [ha]; exact J.less) J.uk J.uo (by
    rw [ha, dist2_ends (filletCentre (cornerOf o.dim) (leanOf k.dim) (leanOf o.dim) r).x (filletCentre (cornerOf o.dim) (leanOf k.dim) (leanOf o.dim) r).y,
      onCircle_lean, onCircle_lean, ← el, ← eu]
    exact J.gap)
  obtain ⟨a, Q, ea, xa, ja, sa⟩ := arc h
  rw [ha] at nr
  have n0 : Near (arcOff (leanOf k.dim) (leanOf o.dim)) (v 0) (onWall (cornerOf o.dim) (leanOf k.dim) (-tangentLen (leanOf k.dim) (leanOf o.dim) r)) := by
    have := nr 0 (by norm_num)
    rw [Nat.cast_zero, zero_mul, add_zero, onCircle_lean, ← el] at this
    exact this
  have n3 : Near (arcOff (leanOf k.dim) (leanOf o.dim)) (v 3) (onWall (cornerOf o.dim) (leanOf o.dim) (tangentLen (leanOf k.dim) (leanOf o.dim) r)) := by
    have := nr 3 le_rfl
    have e : 360 - leanDeg (leanOf k.dim) + ((3 : ℕ) : ℝ) * ((leanDeg (leanOf k.dim) - leanDeg (leanOf o.dim)) / 3) = 360 - leanDeg (leanOf o.dim) := by
      push_cast; ring
    rw [e, onCircle_lean, ← eu] at this
    exact this
  have fil : IsFillet k.dim o.dim r v := ⟨n0, n3, _, tl, tu, nr⟩
  have hT := tangentLen_pos J.less J.rpos
  have hlk := leanLen_pos (leanOf k.dim)
  have hlo := leanLen_pos (leanOf o.dim)
  have c1 := J.below
  have c2 := J.above
  have c3 := J.wide
  have hoff : 0 ≤ arcOff (leanOf k.dim) (leanOf o.dim) := by
    have h1 : 0 < leanOf k.dim - leanOf o.dim := by have := J.less; linarith
    unfold arcOff
    positivity
  -- where the points of the arc lie
  set D := arcOff (leanOf k.dim) (leanOf o.dim) with hD
  set tk := leanOf k.dim with htk
  set T := tangentLen tk (leanOf o.dim) r with hTd
  have hpk : 0 < T / leanLen tk := div_pos hT hlk
  have hpo : 0 < T / leanLen (leanOf o.dim) := div_pos hT hlo
  have ylo : ∀ n ≤ 3, o.dim.posV - T / leanLen tk - D ≤ (v n).y ∧ (v n).y ≤ o.dim.posV + T / leanLen (leanOf o.dim) + D ∧
      o.dim.posH + o.dim.d0 / 2 - tk * (T / leanLen tk) - D ≤ (v n).x := by
    intro n hn
    obtain ⟨m1, m2⟩ := nr n hn
    obtain ⟨b1, b2, b3⟩ := arc_between J.out J.less J.rpos (filletCentre (cornerOf o.dim) tk (leanOf o.dim) r).x
      (filletCentre (cornerOf o.dim) tk (leanOf o.dim) r).y hn
    rw [onCircle_lean, ← el] at b1 b3
    rw [onCircle_lean (t := leanOf o.dim), ← eu] at b2
    have f1 : (onWall (cornerOf o.dim) tk (-T)).y = o.dim.posV - T / leanLen tk := by
      unfold onWall cornerOf
      dsimp only
      rw [neg_div]
      ring
    have f2 : (onWall (cornerOf o.dim) (leanOf o.dim) T).y = o.dim.posV + T / leanLen (leanOf o.dim) := rfl
    have f3 : (onWall (cornerOf o.dim) tk (-T)).x = o.dim.posH + o.dim.d0 / 2 - tk * (T / leanLen tk) := by
      unfold onWall cornerOf
      dsimp only
      rw [neg_div]
      ring
    rw [f1] at b1
    rw [f2] at b2
    rw [f3] at b3
    rw [abs_le] at m1 m2
    refine ⟨by linarith [m2.1], by linarith [m2.2], by linarith [m1.1]⟩
  have tk0 : 0 < tk := lt_of_le_of_lt J.out J.less
  have wideK : k.dim.d0 / 2 ≤ o.dim.d0 / 2 - tk * (T / leanLen tk) := by
    have e : o.dim.d0 / 2 = k.dim.d0 / 2 + tk * k.dim.h := by
      rw [← J.same, htk, leanOf, div_mul_cancel₀ _ J.lk.hpos.ne']
      ring
    have h1 : T / leanLen tk ≤ k.dim.h := by
      have h2 := J.lk.lo
      have h3 := J.meet
      have e5 : (0 : ℝ) < 1 / 10 ^ 5 := by positivity
      have e6 : (0 : ℝ) < 2 / 10 ^ 5 := by positivity
      linarith
    have := mul_le_mul_of_nonneg_left h1 tk0.le
    linarith
  have e5 : (0 : ℝ) < 1 / 10 ^ 5 := by positivity
  have e6 : (2 : ℝ) / 10 ^ 5 = 1 / 10 ^ 5 + 1 / 10 ^ 5 := by norm_num
  rw [e6] at c1 c2
  -- the cuts
  have ep : cutRight k.dim (o.dim.posV + -hU) = ⟨o.dim.posH + cutRad k.dim (o.dim.posV - hU), o.dim.posV - hU⟩ := by
    unfold cutRight
    rw [cutRad, ax, ← sub_eq_add_neg]
    congr 1
    ring
  have er : cutRight o.dim (o.dim.posV + hO) = ⟨o.dim.posH + cutRad o.dim (o.dim.posV + hO), o.dim.posV + hO⟩ := by
    unfold cutRight
    rw [cutRad]
    congr 1
    ring
  have k0 : (Rt.real hs).krempeCut (h.vals k.line.segs) (h.val s0) o.dim.posV (v 0).y hU false =
      some ⟨o.dim.posH + cutRad k.dim (o.dim.posV - hU), o.dim.posV - hU⟩ := by
    obtain ⟨m1, m2⟩ := n0
    have f1 : (onWall (cornerOf o.dim) tk (-T)).y = o.dim.posV - T / leanLen tk := by
      unfold onWall cornerOf
      dsimp only
      rw [neg_div]
      ring
    rw [f1, abs_le] at m2
    have hlt : |o.dim.posV - (v 0).y| < hU := by
      rw [abs_lt]
      constructor <;> linarith [m2.1, m2.2]
    unfold Rt.krempeCut
    rw [hE.sub', if_pos hlt, max_eq_left hlt.le, P.kegel, a0, ← ep]
    exact cut_ip hE J'.lk' _
  have k1 : (Rt.real hs).krempeCut (h.vals o.line.segs) (h.val t0) o.dim.posV (v 3).y hO true =
      some ⟨o.dim.posH + cutRad o.dim (o.dim.posV + hO), o.dim.posV + hO⟩ := by
    obtain ⟨m1, m2⟩ := n3
    have f2 : (onWall (cornerOf o.dim) (leanOf o.dim) T).y = o.dim.posV + T / leanLen (leanOf o.dim) := rfl
    rw [f2, abs_le] at m2
    have hlt : |o.dim.posV - (v 3).y| < hO := by
      rw [abs_lt]
      constructor <;> linarith [m2.1, m2.2]
    unfold Rt.krempeCut
    rw [hE.sub', if_pos hlt, max_eq_left hlt.le, P.oben, b0, ← er]
    exact cut_ip hE J.lo _
  have dv0 : ∀ n ≤ 3, 1 / 10 ^ 5 ≤ (v n).y - (o.dim.posV - hU) := fun n hn => by have := (ylo n hn).1; linarith
  have dv1 : ∀ n ≤ 3, 1 / 10 ^ 5 ≤ o.dim.posV + hO - (v n).y := fun n hn => by have := (ylo n hn).2.1; linarith
  obtain ⟨c, P', L, q', r1, r2, r3, r4, r5, r6⟩ := krempeRight_spec (R := Rt.real hs) hk ho P.hasK P.hasO (by rw [a0, b0]; exact ea) xa
    (by norm_num : 0 < 3) ja sa k0 k1
    (by
      intro p hp i hi e
      have hp' := Option.some.inj hp
      have := dv1 i hi
      rw [e, ← hp'] at this
      dsimp only at this
      linarith)
    (by
      intro p hp x hx e
      have hp' := Option.some.inj hp
      subst e
      rcases List.mem_append.1 hx with hx | hx
      · obtain ⟨i, hi, rfl⟩ := List.mem_map.1 hx
        have := dv0 i (by have := List.mem_range.1 hi; omega)
        rw [← hp'] at this
        dsimp only at this
        linarith
      · have hx' : x = ⟨o.dim.posH + cutRad o.dim (o.dim.posV + hO), o.dim.posV + hO⟩ := by simpa using hx
        have := congrArg Pt.y (hp'.trans hx')
        dsimp only at this
        linarith)
  have hL : L = 5 := by
    have := congrArg List.length r6
    simp at this
    omega
  subst hL
  have hqq : ∀ i ≤ 5, q' i = q v i := by
    simp [List.range_succ] at r6
    obtain ⟨w0, w1, w2, w3, w4, w5⟩ := r6
    intro i hi
    rw [hq]
    rcases (by omega : i = 0 ∨ i = 1 ∨ i = 2 ∨ i = 3 ∨ i = 4 ∨ i = 5) with rfl | rfl | rfl | rfl | rfl | rfl
    exacts [w0, w1, w2, w3, w4, w5]
  obtain ⟨r0', g0⟩ := J.lk.cutRad_ge
  obtain ⟨r1', g1⟩ := J.lo.cutRad_ge
  have six : ∀ (M : ℕ → Prop), (∀ i ≤ 3, M (i + 1)) → M 0 → M 5 → ∀ i ≤ 5, M i := by
    intro M h1 h2 h3 i hi
    rcases (by omega : i = 0 ∨ i = 1 ∨ i = 2 ∨ i = 3 ∨ i = 4 ∨ i = 5) with rfl | rfl | rfl | rfl | rfl | rfl
    exacts [h2, h1 0 (by omega), h1 1 (by omega), h1 2 (by omega), h1 3 (by omega), h3]
  have qs : ∀ i ≤ 3, q v (i + 1) = v i := by
    intro i hi
    rw [hq]
    rcases (by omega : i = 0 ∨ i = 1 ∨ i = 2 ∨ i = 3) with rfl | rfl | rfl | rfl <;> rfl
  have q0 : q v 0 = ⟨o.dim.posH + cutRad k.dim (o.dim.posV - hU), o.dim.posV - hU⟩ := by rw [hq]; rfl
  have q5 : q v 5 = ⟨o.dim.posH + cutRad o.dim (o.dim.posV + hO), o.dim.posV + hO⟩ := by rw [hq]; rfl
  have far : ∀ i j, i < j → j ≤ 5 → 1 / 10 ^ 5 ≤ |(q v i).x - (q v j).x| ∨ 1 / 10 ^ 5 ≤ |(q v i).y - (q v j).y| := by
    intro i j hij hj
    rcases Nat.eq_zero_or_pos i with rfl | hi
    · right
      rw [abs_sub_comm]
      refine le_trans ?_ (le_abs_self _)
      rw [q0]
      dsimp only
      rcases Nat.eq_or_lt_of_le hj with rfl | hj'
      · rw [q5]; dsimp only; linarith
      · obtain ⟨j, rfl⟩ : ∃ m, j = m + 1 := ⟨j - 1, by omega⟩
        rw [qs j (by omega)]
        exact dv0 j (by omega)
    · obtain ⟨i, rfl⟩ : ∃ m, i = m + 1 := ⟨i - 1, by omega⟩
      rcases Nat.eq_or_lt_of_le hj with rfl | hj'
      · right
        rw [abs_sub_comm, q5, qs i (by omega)]
        exact (dv1 i (by omega)).trans (le_abs_self _)
      · obtain ⟨j, rfl⟩ : ∃ m, j = m + 1 := ⟨j - 1, by omega⟩
        rw [qs i (by omega), qs j (by omega)]
        exact sp.apart i j (by omega) (by omega) (by omega)
  refine ⟨v, fil, ⟨?_, ?_⟩, ?_, c, P', r1, r3, r4.congr hqq, r5⟩
  · intro i j hi hj hne
    rcases Nat.lt_or_gt_of_ne hne with hlt | hlt
    · exact far i j hlt hj
    · rw [abs_sub_comm, abs_sub_comm (q v i).y]
      exact far j i hlt hi
  · refine six _ (fun i hi => by rw [qs i hi]; exact sp.grid i hi) ?_ ?_
    · rw [q0]; exact ⟨J.lo.gH.add g0, J.lk.gv⟩
    · rw [q5]; exact ⟨J.lo.gH.add g1, J.lo.gv⟩
  · refine six _ (fun i hi => ?_) ?_ ?_
    · rw [qs i hi]
      have := (ylo i hi).2.2
      linarith
    · rw [q0]; dsimp only; linarith
    · rw [q5]; dsimp only; linarith

/-- the acceptance test of the cuts, as in C106 -/
theorem round_check {k o : ShellObj ℝ} {h : Heap ℝ} {hO hU : ℝ} (P : Parts h k o) (J : Junction k.dim o.dim hO hU) {s0 t0 : ℕ} {ks os : List ℕ}
    (hk : k.line.segs = s0 :: ks) (ho : o.line.segs = t0 :: os) (v : ℕ → Pt ℝ) {q : ℕ → Pt ℝ}
    (hq : q = roundSide ⟨o.dim.posH + cutRad k.dim (o.dim.posV - hU), o.dim.posV - hU⟩ v
      ⟨o.dim.posH + cutRad o.dim (o.dim.posV + hO), o.dim.posV + hO⟩) :
    (((Rt.real hs).krempeOn (h.val s0) (q 0) || (Rt.real hs).krempeOn (h.val s0) (q 5)) &&
      ((Rt.real hs).krempeOn (h.val t0) (q 0) || (Rt.real hs).krempeOn (h.val t0) (q 5))) = true ↔
    k.dim.h * slip k.dim (o.dim.posV - hU) < 1 / 10 ^ 8 ∧ o.dim.h * slip o.dim (o.dim.posV + hO) < 1 / 10 ^ 8 := by
  obtain ⟨s0', s1, s2, s3, hk', a0, -⟩ := shell_segs P.kegel
  obtain ⟨t0', t1, t2, t3, ho', b0, -⟩ := shell_segs P.oben
  have e1 : s0 = s0' := by rw [hk] at hk'; exact (List.cons.inj hk').1
  have e2 : t0 = t0' := by rw [ho] at ho'; exact (List.cons.inj ho').1
  have ep : cutRight k.dim (o.dim.posV + -hU) = q 0 := by
    rw [hq]
    unfold cutRight roundSide
    rw [cutRad, J.axis, ← sub_eq_add_neg]
    congr 1
    ring
  have er : cutRight o.dim (o.dim.posV + hO) = q 5 := by
    rw [hq]
    show cutRight o.dim (o.dim.posV + hO) = ⟨o.dim.posH + cutRad o.dim (o.dim.posV + hO), o.dim.posV + hO⟩
    unfold cutRight
    rw [cutRad]
    congr 1
    ring
  rw [e1, e2, a0, b0, ← ep, ← er]
  exact J.check (Rt.real_isExact hs)

/-- C130 (rejected): both cuts are made; if (height of the part) * (rounding error of the cut) is at least 1e-8 for one of
them, the constructor raises an AssertionError, as without a radius (C106). -/
theorem C130_rejected {h : Heap ℝ} {r hO hU : ℝ} {k o : ShellObj ℝ} (u : Under ℝ) (P : Parts h k o) (J : RoundJunction k.dim o.dim r hO hU)
    (hb : 1 / 10 ^ 8 ≤ k.dim.h * slip k.dim (o.dim.posV - hU) ∨ 1 / 10 ^ 8 ≤ o.dim.h * slip o.dim (o.dim.posV + hO)) :
    (Rt.real hs).krempeInit h r hO hU k o u = .error .assertion := by
  have hE := Rt.real_isExact hs
  obtain ⟨s0, s1, s2, s3, hk, a0, -⟩ := shell_segs P.kegel
  obtain ⟨t0, t1, t2, t3, ho, b0, -⟩ := shell_segs P.oben
  obtain ⟨v, -, sp, -, c, P', e1, xc, jc, sc⟩ := round_right hs P J rfl
  have chk := round_check hs P J.toJunction hk ho v rfl
  have hne : ∀ i < 5, roundSide (⟨o.dim.posH + cutRad k.dim (o.dim.posV - hU), o.dim.posV - hU⟩ : Pt ℝ) v
      ⟨o.dim.posH + cutRad o.dim (o.dim.posV + hO), o.dim.posV + hO⟩ i ≠ roundSide ⟨o.dim.posH + cutRad k.dim (o.dim.posV - hU), o.dim.posV - hU⟩ v
      ⟨o.dim.posH + cutRad o.dim (o.dim.posV + hO), o.dim.posV + hO⟩ (i + 1) := by
    intro i hi e
    have := sp.apart i (i + 1) (by omega) (by omega) (by omega)
    rw [e, sub_self, sub_self, abs_zero] at this
    norm_num at this
  obtain ⟨f1, -⟩ := roundSegs_spec hE.isRounding h r hO hU k o u hk ho (P.hasK s0 (by rw [hk]; simp)) (P.hasO t0 (by rw [ho]; simp)) e1 xc
    (by norm_num) jc sc (by rw [hE.tol']; exact sp.apart) hne
  have := f1 (by
    rw [Bool.eq_false_iff, ne_eq, chk]
    rintro ⟨h1, h2⟩
    rcases hb with h | h <;> linarith)
  unfold Rt.krempeInit
  rw [if_pos J.rpos, this]
  split_ifs <;> rfl

/-- C130 (built): exact arithmetic, cone and shell in memory with their own outlines, the shell leaning outwards less than the
cone, both cuts at least 2e-5 clear of the arc and of the far ends of the walls, and accepted (see C130_rejected).  The
knuckle is built.  Its outline has 12 sides: on the right the lower cut, the four points of the arc (`IsFillet`) and the upper
cut, on the left the mirror images, joined by the two cross sections; it is closed and counterclockwise, and its graph
consists of the walls.  Cone and shell are cut back to the cuts; nothing that existed before is changed.  The part below the
cone is given, as its upper corners, the upper end of the arc and its mirror image; so is the cone itself if it is named as
that part. -/
theorem C130_built {h : Heap ℝ} {r hO hU : ℝ} {k o : ShellObj ℝ} (u : Under ℝ) (P : Parts h k o) (J : RoundJunction k.dim o.dim r hO hU)
    (h1 : k.dim.h * slip k.dim (o.dim.posV - hU) < 1 / 10 ^ 8) (h2 : o.dim.h * slip o.dim (o.dim.posV + hO) < 1 / 10 ^ 8) :
    ∃ g part w v, ∃ q : ℕ → Pt ℝ, (Rt.real hs).krempeInit h r hO hU k o u = .ok (g, part, w) ∧ h.Ext g ∧ IsFillet k.dim o.dim r v ∧
      q = roundSide ⟨o.dim.posH + cutRad k.dim (o.dim.posV - hU), o.dim.posV - hU⟩ v
        ⟨o.dim.posH + cutRad o.dim (o.dim.posV + hO), o.dim.posV + hO⟩ ∧
      g.vals part.line.segs ~r roundLoop 5 q (fun i => reflect o.dim.posH (q i)) ∧
      part.graph = g.walls part.line.segs ∧
      (u ≠ .kegel → Made g w.kegel (shell ⟨k.dim.posV, k.dim.posH, k.dim.d0, 2 * cutRad k.dim (o.dim.posV - hU), k.dim.h - hU⟩ .nonWall)) ∧
      Made g w.oben (shell ⟨o.dim.posV + hO, o.dim.posH, 2 * cutRad o.dim (o.dim.posV + hO), o.dim.d1, o.dim.h - hO⟩ .nonWall) ∧
      (u = .kegel → Made g w.kegel (outline (botR k.dim) (v 3) (reflect o.dim.posH (v 3)) (botL k.dim) (if k.skirt then .wall else .nonWall))) ∧
      (∀ x, u = .shell x → Grid x.dim.posH → Grid x.dim.posV → Grid x.dim.h → Grid (x.dim.d0 / 2) → Grid (x.dim.d1 / 2) →
        ∃ x', w.unten = some x' ∧
          Made g x' (outline (botR x.dim) (v 3) (reflect o.dim.posH (v 3)) (botL x.dim) (if x.skirt then .wall else .nonWall))) := by
  have hE := Rt.real_isExact hs
  obtain ⟨s0, s1, s2, s3, hk, a0, -⟩ := shell_segs P.kegel
  obtain ⟨t0, t1, t2, t3, ho, b0, -⟩ := shell_segs P.oben
  obtain ⟨v, fil, sp, hx, c, P', e1, xc, jc, sc⟩ := round_right hs P J rfl
  have chk := round_check hs P J.toJunction hk ho v rfl
  obtain ⟨q, hq⟩ : ∃ q : ℕ → Pt ℝ, q = roundSide ⟨o.dim.posH + cutRad k.dim (o.dim.posV - hU), o.dim.posV - hU⟩ v
      ⟨o.dim.posH + cutRad o.dim (o.dim.posV + hO), o.dim.posV + hO⟩ := ⟨_, rfl⟩
  rw [← hq] at sp hx jc chk
  have e5 : (0 : ℝ) < 1 / 10 ^ 5 := by positivity
  have hne : ∀ i < 5, q i ≠ q (i + 1) := by
    intro i hi e
    have := sp.apart i (i + 1) (by omega) (by omega) (by omega)
    rw [e, sub_self, sub_self, abs_zero] at this
    norm_num at this
  obtain ⟨-, f1⟩ := roundSegs_spec hE.isRounding h r hO hU k o u hk ho (P.hasK s0 (by rw [hk]; simp)) (P.hasO t0 (by rw [ho]; simp)) e1 xc
    (by norm_num) jc sc (by rw [hE.tol']; exact sp.apart) hne
  obtain ⟨g, w, hw, km⟩ := f1 (chk.2 ⟨h1, h2⟩)
  have gH := J.lo.gH
  have mir : ∀ i ≤ 5, mirrored (Rt.real hs) o.dim.posH (q i) = reflect o.dim.posH (q i) := fun i hi =>
    mirrored_exact hE ((hE.stored_iff _).2 (sp.grid i hi)) ((hE.stored_iff _).2 ⟨gH, grid_zero⟩)
  have rx : ∀ p : Pt ℝ, (reflect o.dim.posH p).x = 2 * o.dim.posH - p.x ∧ (reflect o.dim.posH p).y = p.y := fun p => ⟨rfl, rfl⟩
  have lp : ∀ i < 12, ∃ j ≤ 5, (i = j ∧ loopPt 5 q (fun k => mirrored (Rt.real hs) o.dim.posH (q k)) i = q j) ∨
      (i = 11 - j ∧ loopPt 5 q (fun k => mirrored (Rt.real hs) o.dim.posH (q k)) i = reflect o.dim.posH (q j)) := by
    intro i hi
    unfold loopPt
    rcases Nat.lt_or_ge i 6 with h | h
    · exact ⟨i, by omega, Or.inl ⟨rfl, by rw [if_pos (by omega)]⟩⟩
    · refine ⟨11 - i, by omega, Or.inr ⟨by omega, ?_⟩⟩
      rw [if_neg (by omega)]
      exact mir _ (by omega)
  have hap : ∀ i j, i < 2 * 5 + 2 → j < 2 * 5 + 2 → i ≠ j →
      1 / 10 ^ 5 ≤ |(loopPt 5 q (fun k => mirrored (Rt.real hs) o.dim.posH (q k)) i).x - (loopPt 5 q (fun k => mirrored (Rt.real hs) o.dim.posH (q k)) j).x| ∨
      1 / 10 ^ 5 ≤ |(loopPt 5 q (fun k => mirrored (Rt.real hs) o.dim.posH (q k)) i).y - (loopPt 5 q (fun k => mirrored (Rt.real hs) o.dim.posH (q k)) j).y| := by
    intro i j hi hj hne
    obtain ⟨i', hi', ⟨ei, e⟩ | ⟨ei, e⟩⟩ := lp i hi <;> obtain ⟨j', hj', ⟨ej, e'⟩ | ⟨ej, e'⟩⟩ := lp j hj <;> rw [e, e']
    · exact sp.apart i' j' hi' hj' (by omega)
    · left
      rw [(rx _).1]
      refine le_trans ?_ (le_abs_self _)
      have := hx i' hi'
      have := hx j' hj'
      linarith
    · left
      rw [(rx _).1, abs_sub_comm]
      refine le_trans ?_ (le_abs_self _)
      have := hx i' hi'
      have := hx j' hj'
      linarith
    · rw [(rx _).1, (rx _).1, (rx _).2, (rx _).2]
      have := sp.apart i' j' hi' hj' (by omega)
      have ex : 2 * o.dim.posH - (q i').x - (2 * o.dim.posH - (q j').x) = -((q i').x - (q j').x) := by ring
      rw [ex, abs_neg]
      exact this
  obtain ⟨p1, p2⟩ := J.toJunction.pos
  obtain ⟨g', part, d1, d2, d3, d4, -, d6⟩ := round_finish hE km (by norm_num) (by norm_num) hap J.conv (by linarith) (by linarith) J.rpos hw
  have q0 : q 0 = ⟨o.dim.posH + cutRad k.dim (o.dim.posV - hU), o.dim.posV - hU⟩ := by rw [hq]; rfl
  have q5 : q 5 = ⟨o.dim.posH + cutRad o.dim (o.dim.posV + hO), o.dim.posV + hO⟩ := by rw [hq]; rfl
  have q4 : q (5 - 1) = v 3 := by rw [hq]; rfl
  have gr : ∀ i ≤ 5, (Rt.real hs).mkPt (q i).x (q i).y = q i ∧
      (Rt.real hs).mkPt (reflect o.dim.posH (q i)).x (reflect o.dim.posH (q i)).y = reflect o.dim.posH (q i) := by
    intro i hi
    obtain ⟨gx, gy⟩ := sp.grid i hi
    refine ⟨hE.mkPt_grid gx gy, hE.mkPt_grid ?_ gy⟩
    rw [(rx _).1, two_mul]
    exact (gH.add gH).sub gx
  obtain ⟨k0, -, -, k3, -, -⟩ := C72_corners hE k.dim J.lk.gH J.lk.gV J.lk.gh J.lk.g0 J.lk.g1
  obtain ⟨-, o1, o2, -, -, -⟩ := C72_corners hE o.dim J.lo.gH J.lo.gV J.lo.gh J.lo.g0 J.lo.g1
  have mo := km.oben
  have mk := km.kegel
  have ma := km.alias'
  have mu := km.unten
  rw [mir 5 le_rfl, (gr 5 le_rfl).1, (gr 5 le_rfl).2, o1, o2, q5] at mo
  rw [mir 0 (by norm_num), (gr 0 (by norm_num)).1, (gr 0 (by norm_num)).2, k0, k3, q0] at mk
  rw [mir (5 - 1) (by norm_num), (gr (5 - 1) (by norm_num)).1, (gr (5 - 1) (by norm_num)).2, k0, k3, q4] at ma
  rw [mir (5 - 1) (by norm_num), (gr (5 - 1) (by norm_num)).1, (gr (5 - 1) (by norm_num)).2, q4] at mu
  have d3' : g'.vals part.line.segs ~r roundLoop 5 q (fun i => reflect o.dim.posH (q i)) := by
    have e : roundLoop 5 q (fun k => mirrored (Rt.real hs) o.dim.posH (q k)) = roundLoop 5 q (fun i => reflect o.dim.posH (q i)) := by
      unfold roundLoop
      dsimp only
      rw [mir 5 le_rfl, mir 0 (by norm_num)]
      congr 2
      apply List.map_congr_left
      intro i hi
      rw [mir _ (by omega), mir _ (by omega)]
    rw [← e]
    exact d3
  refine ⟨g', part, w, v, q, d1, d2, fil, hq, d3', d4, ?_, ?_, ?_, ?_⟩
  · intro hu
    have := d6 w.kegel _ (Or.inl rfl) (mk hu)
    have e : k.dim.posV + (k.dim.h - hU) = o.dim.posV - hU := by have := J.meet; linarith
    have er : reflect o.dim.posH (⟨o.dim.posH + cutRad k.dim (o.dim.posV - hU), o.dim.posV - hU⟩ : Pt ℝ) =
        ⟨o.dim.posH - cutRad k.dim (o.dim.posV - hU), o.dim.posV - hU⟩ := by
      unfold reflect
      dsimp only
      congr 1
      ring
    unfold shell
    dsimp only
    rw [e, mul_div_cancel_left₀ _ (two_ne_zero)]
    rw [er] at this
    rw [J.axis] at this ⊢
    exact this
  · have := d6 w.oben _ (Or.inr (Or.inl rfl)) mo
    have e : o.dim.posV + hO + (o.dim.h - hO) = o.dim.posV + o.dim.h := by ring
    have er : reflect o.dim.posH (⟨o.dim.posH + cutRad o.dim (o.dim.posV + hO), o.dim.posV + hO⟩ : Pt ℝ) =
        ⟨o.dim.posH - cutRad o.dim (o.dim.posV + hO), o.dim.posV + hO⟩ := by
      unfold reflect
      dsimp only
      congr 1
      ring
    unfold shell
    dsimp only
    rw [e, mul_div_cancel_left₀ _ (two_ne_zero)]
    rw [er] at this
    exact this
  · intro hu
    exact d6 w.kegel _ (Or.inl rfl) (ma hu)
  · intro x hx' gx1 gx2 gx3 gx4 gx5
    obtain ⟨x', w1, -, w3⟩ := mu x hx'
    obtain ⟨u0, -, -, u3, -, -⟩ := C72_corners hE x.dim gx1 gx2 gx3 gx4 gx5
    rw [u0, u3] at w3
    exact ⟨x', w1, d6 x' _ (Or.inr (Or.inr w1)) w3⟩

/-- C130 (other radii): with `r = 0` the constructor is the one of C106; a negative radius raises a plain Exception, once the
asserts have passed. -/
theorem C130_other (R : Rt ℝ) (h : Heap ℝ) (hO hU : ℝ) {k o : ShellObj ℝ} (u : Under ℝ) :
    R.krempeInit h 0 hO hU k o u = R.krempeNew h hO hU k o u ∧
    ∀ r < 0, Parts h k o → k.dim.d0 < k.dim.d1 → 0 < hO → 0 < hU → R.krempeInit h r hO hU k o u = .error .generic := by
  constructor
  · unfold Rt.krempeInit Rt.krempeNew
    rw [if_neg (lt_irrefl _), if_pos rfl]
    rfl
  · intro r hr P hd h1 h2
    obtain ⟨s0, s1, s2, s3, hk, -⟩ := shell_segs P.kegel
    obtain ⟨t0, t1, t2, t3, ho, -⟩ := shell_segs P.oben
    unfold Rt.krempeInit
    rw [if_neg (not_not.2 hd), if_neg (not_not.2 h1), if_neg (not_not.2 h2), if_neg (not_lt.2 hr.le), if_neg hr.ne, hk, ho]

section examples

/-- any two shells can be in memory -/
theorem exists_parts (k o : MantelDim ℝ) : ∃ h, ∃ a b : ShellObj ℝ, Parts h a b ∧ a.dim = k ∧ b.dim = o := by
  let h0 : Heap ℝ := ⟨fun _ => ⟨0, 0⟩, fun _ => ⟨0, 0, .line⟩, 0, 0⟩
  obtain ⟨-, a2, a3, -⟩ := h0.newOutline_spec (botR k) (topR k) (topL k) (botL k) .nonWall
  generalize h0.newOutline (botR k) (topR k) (topL k) (botL k) .nonWall = a at a2 a3
  obtain ⟨x, b2, b3, -⟩ := a.1.newOutline_spec (botR o) (topR o) (topL o) (botL o) .nonWall
  generalize a.1.newOutline (botR o) (topR o) (topL o) (botL o) .nonWall = b at x b2 b3
  exact ⟨b.1, ⟨k, ⟨a.2, true⟩, b.1.walls a.2, false⟩, ⟨o, ⟨b.2, true⟩, b.1.walls b.2, false⟩,
    ⟨(x.vals a3).trans a2, b2, fun s hs => x.has (a3 s hs), b3⟩, rfl, rfl⟩

/-- a cone of height 4 with radii 1 and 4, a cylinder of height 4 above it, `r = 1`, cuts 2 above and below the corner: the
hypotheses of `C130_built` hold -/
example : ∃ h, ∃ k o : ShellObj ℝ, Parts h k o ∧ RoundJunction k.dim o.dim 1 2 2 ∧
    k.dim.h * slip k.dim (o.dim.posV - 2) < 1 / 10 ^ 8 ∧ o.dim.h * slip o.dim (o.dim.posV + 2) < 1 / 10 ^ 8 := by
  obtain ⟨h, k, o, P, ek, eo⟩ := exists_parts ⟨0, 0, 2, 8, 4⟩ ⟨4, 0, 8, 8, 4⟩
  refine ⟨h, k, o, P, ?_⟩
  rw [ek, eo]
  have e1 : leanOf ⟨0, 0, 2, 8, 4⟩ = 3 / 4 := by norm_num [leanOf]
  have e2 : leanOf ⟨4, 0, 8, 8, 4⟩ = 0 := by norm_num [leanOf]
  have hd : arcOff (3 / 4) 0 ≤ 1 / 10 ^ 6 := by norm_num [arcOff]
  have hT : tangentLen (3 / 4) 0 1 = 1 / 3 := by norm_num [tangentLen, leanLen_34, leanLen_0]
  refine ⟨⟨⟨?_, ?_, rfl, by norm_num, rfl, by norm_num⟩, by norm_num, by rw [e2], by rw [e1, e2]; norm_num, ?_, ?_, ?_, ?_, ?_, ?_⟩, ?_, ?_⟩
  · exact ⟨⟨0, by norm_num⟩, ⟨0, by norm_num⟩, ⟨4 * 10 ^ 8, by norm_num⟩, ⟨10 ^ 8, by norm_num⟩, ⟨4 * 10 ^ 8, by norm_num⟩, ⟨2 * 10 ^ 8, by norm_num⟩,
      by norm_num, by norm_num, by norm_num, by norm_num⟩
  · exact ⟨⟨0, by norm_num⟩, ⟨4 * 10 ^ 8, by norm_num⟩, ⟨4 * 10 ^ 8, by norm_num⟩, ⟨4 * 10 ^ 8, by norm_num⟩, ⟨4 * 10 ^ 8, by norm_num⟩,
      ⟨6 * 10 ^ 8, by norm_num⟩, by norm_num, by norm_num, by norm_num, by norm_num⟩
  · rw [e1, leanLen_34]; exact Grid.untied ⟨125 * 10 ^ 6, by norm_num⟩
  · rw [e2, leanLen_0]; exact Grid.untied ⟨10 ^ 8, by norm_num⟩
  · rw [e1, e2, hT]
    norm_num [onWall, leanLen_34, leanLen_0, cornerOf, dist2]
  · rw [e1, e2, hT, leanLen_34]
    norm_num at hd ⊢
    linarith
  · rw [e1, e2, hT, leanLen_0]
    norm_num at hd ⊢
    linarith
  · rw [e1, e2]
    norm_num at hd ⊢
    linarith
  · have e : (0 : ℝ) + radAt ⟨0, 0, 2, 8, 4⟩ (4 - 2) = ((25 * 10 ^ 7 : ℤ) : ℝ) / 10 ^ 8 := by norm_num [radAt]
    unfold slip
    dsimp only
    rw [e, rhe8_grid, sub_self, abs_zero]
    norm_num
  · have e : (0 : ℝ) + radAt ⟨4, 0, 8, 8, 4⟩ (4 + 2) = ((4 * 10 ^ 8 : ℤ) : ℝ) / 10 ^ 8 := by norm_num [radAt]
    unfold slip
    dsimp only
    rw [e, rhe8_grid, sub_self, abs_zero]
    norm_num

/-- the same cone under a shell that widens as fast: the hypotheses of `C130_steep` hold -/
example : ∃ h, ∃ k o : ShellObj ℝ, Parts h k o ∧ Grid o.dim.posH ∧ Grid o.dim.posV ∧ 0 < k.dim.h ∧ 0 < o.dim.h ∧ |leanOf k.dim| ≤ |leanOf o.dim| := by
  obtain ⟨h, k, o, P, ek, eo⟩ := exists_parts ⟨0, 0, 2, 8, 4⟩ ⟨4, 0, 8, 14, 4⟩
  refine ⟨h, k, o, P, ?_⟩
  rw [ek, eo]
  refine ⟨grid_zero, ⟨4 * 10 ^ 8, by norm_num⟩, by norm_num, by norm_num, le_of_eq ?_⟩
  norm_num [leanOf]

end examples

end Srep
