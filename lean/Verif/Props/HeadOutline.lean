import Verif.Lemmas.HeadSix
import Verif.Lemmas.Ring
import Verif.Props.Mantel

/-! The outline of torispherical heads (C102). -/

set_option linter.unusedSectionVars false

namespace Srep
open Rt

/-- segments around a ring of points are continuous and closed -/
theorem ring_closed {K : Type} [Field K] [LinearOrder K] [IsStrictOrderedRing K] [FloorRing K] {R : Rt K} (hR : R.IsRounding)
    {l : List (Seg K)} {n : ℕ} (hn : 1 ≤ n) (hl : l.length = n) (W : ℕ → Pt K) (κ : ℕ → SegCls)
    (hW : ∀ k (hk : k < l.length), l[k] = ⟨W k, W ((k + 1) % n), κ k⟩) :
    R.isContinuous l = true ∧ R.isClosed l = .ok true := by
  have hc : R.isContinuous l = true := by
    unfold Rt.isContinuous
    rw [List.all_eq_true]
    intro p hp
    obtain ⟨k, hk, rfl⟩ := List.mem_iff_getElem.1 hp
    have hk1 : k + 1 < l.length := by
      simp only [List.length_zip, List.length_tail] at hk
      omega
    simp only [List.getElem_zip, List.getElem_tail]
    apply continuous_shared hR
    rw [hW k (by omega), hW (k + 1) hk1]
    dsimp only
    rw [Nat.mod_eq_of_lt (by omega)]
  refine ⟨hc, ?_⟩
  unfold Rt.isClosed
  rw [hc, if_pos rfl, List.head?_eq_getElem?, List.getLast?_eq_getElem?, List.getElem?_eq_getElem (by omega),
    List.getElem?_eq_getElem (by omega), hW 0 (by omega), hW _ (by omega)]
  dsimp only
  rw [hl, Nat.sub_add_cancel hn, Nat.mod_self, hR.peq_refl]

namespace HeadShape

theorem cos_sq (s : HeadShape) : Real.cos s.A ^ 2 = 1 - s.sinA ^ 2 := by
  have := Real.sin_sq_add_cos_sq s.A
  rw [sin_A] at this
  linarith

theorem step_ge (s : HeadShape) {c : ℝ} (h1 : c ≤ s.r1 * ((1 - s.sinA ^ 2) * s.sinA / 4)) (h2 : c ≤ s.r2 * ((1 - s.sinA ^ 2) / 18)) :
    c ≤ s.step := by
  unfold step
  apply le_min
  · refine h1.trans ?_
    apply mul_le_mul_of_nonneg_left _ (by have := s.dish; linarith)
    have h3 := s.cos_sq
    have h4 := s.cos_lt
    have h5 := s.cos_A_pos
    have : 1 - s.sinA ^ 2 ≤ Real.cos s.A := by rw [← h3]; nlinarith
    have := mul_le_mul_of_nonneg_right this s.sinA_pos.le
    linarith
  · rw [cos_sq]
    exact h2

theorem sinA_klopper : klopperShape.sinA = 4 / 9 := by
  unfold sinA klopperShape
  norm_num

theorem sinA_korbbogen : korbbogenShape.sinA = 173 / 323 := by
  unfold sinA korbbogenShape
  norm_num

theorem step_klopper : 4 / 1000 ≤ klopperShape.step := by
  apply step_ge <;> rw [sinA_klopper] <;> norm_num [klopperShape]

theorem step_korbbogen : 4 / 1000 ≤ korbbogenShape.step := by
  apply step_ge <;> rw [sinA_korbbogen] <;> norm_num [korbbogenShape]

theorem big_of_step {s : HeadShape} (hs : 4 / 1000 ≤ s.step) {d h1 : ℝ} (hd : 1 / 100 ≤ d) (h : 4 / 10 ^ 5 ≤ h1) : s.Big d h1 := by
  refine ⟨h, ?_⟩
  have := mul_le_mul hs hd (by norm_num) s.step_pos.le
  norm_num at this ⊢
  exact this

end HeadShape

/-- the shape of a class of heads -/
noncomputable def HeadKind.shape : HeadKind → Option HeadShape
  | .klopper => some klopperShape
  | .korbbogen => some korbbogenShape
  | .other => none

section real
variable (hs : ℝ → ℝ → Int)

theorem headRadii_shape {k : HeadKind} {s : HeadShape} (hk : k.shape = some s) (d : ℝ) :
    (Rt.real hs).headRadii k d = .ok (s.r1 * d, s.r2 * d) := by
  have hE := Rt.real_isExact hs
  cases k with
  | klopper =>
    have : s = klopperShape := by simpa [HeadKind.shape] using hk.symm
    subst this
    simp only [Rt.headRadii, hE.mul', hE.fl]
    rfl
  | korbbogen =>
    have : s = korbbogenShape := by simpa [HeadKind.shape] using hk.symm
    subst this
    simp only [Rt.headRadii, hE.mul', hE.fl]
    rfl
  | other => simp [HeadKind.shape] at hk

/-- the list of the segments -/
theorem HeadAt.list {h : Heap ℝ} {q : HeadPieces} {v : Fin 6 → ℕ → Pt ℝ} {N S : ℕ} (hq : HeadAt h q v N S) :
    q.zylRe.segs ++ q.kreRe.segs ++ q.kal.segs ++ q.kreLi.segs ++ q.zylLi.segs ++ [q.rn] = List.range' (S + 14) 17 := by
  have : [q.rn] = List.range' (S + 30) 1 := hq.rn.segs
  rw [this, hq.zr.segs, hq.kr.segs, hq.ka.segs, hq.kl.segs, hq.zl.segs]
  simp [List.range']

/-- the ends of the segments -/
theorem HeadAt.near {h : Heap ℝ} {q : HeadPieces} {v : Fin 6 → ℕ → Pt ℝ} {N S : ℕ} (hq : HeadAt h q v N S) {e : ℝ} {O : ℕ → Pt ℝ}
    (hv : HeadNear e v O) (k : ℕ) (hk : k < 17) : Near e (h.pt (h.seg (S + 14 + k)).i) (O k) ∧
      Near e (h.pt (h.seg (S + 14 + k)).j) (O ((k + 1) % 17)) ∧ (h.seg (S + 14 + k)).cls = if k < 16 then .wall else .nonWall := by
  have val : ∀ {t : ℕ} {a b : Pt ℝ} {κ : SegCls}, h.val t = ⟨a, b, κ⟩ → h.pt (h.seg t).i = a ∧ h.pt (h.seg t).j = b ∧ (h.seg t).cls = κ := by
    intro t a b κ e
    injection e with e1 e2 e3
    exact ⟨e1, e2, e3⟩
  by_cases k1 : k < 1
  · obtain ⟨e1, e2, e3⟩ := val (hq.zr.val k k1)
    rw [e1, e2, e3, if_pos (by omega), Nat.mod_eq_of_lt (by omega)]
    exact ⟨hv.zr k (by omega), hv.zr (k + 1) (by omega), rfl⟩
  by_cases k2 : k < 4
  · obtain ⟨i, rfl⟩ := Nat.exists_eq_add_of_le (not_lt.1 k1)
    obtain ⟨e1, e2, e3⟩ := val (hq.kr.val i (by omega))
    rw [show S + 14 + (1 + i) = S + 15 + i by omega, e1, e2, e3, if_pos (by omega), Nat.mod_eq_of_lt (by omega)]
    exact ⟨hv.kr i (by omega), hv.kr (i + 1) (by omega), rfl⟩
  by_cases k3 : k < 12
  · obtain ⟨i, rfl⟩ := Nat.exists_eq_add_of_le (not_lt.1 k2)
    obtain ⟨e1, e2, e3⟩ := val (hq.ka.val i (by omega))
    rw [show S + 14 + (4 + i) = S + 18 + i by omega, e1, e2, e3, if_pos (by omega), Nat.mod_eq_of_lt (by omega)]
    exact ⟨hv.ka i (by omega), hv.ka (i + 1) (by omega), rfl⟩
  by_cases k4 : k < 15
  · obtain ⟨i, rfl⟩ := Nat.exists_eq_add_of_le (not_lt.1 k3)
    obtain ⟨e1, e2, e3⟩ := val (hq.kl.val i (by omega))
    rw [show S + 14 + (12 + i) = S + 26 + i by omega, e1, e2, e3, if_pos (by omega), Nat.mod_eq_of_lt (by omega)]
    exact ⟨hv.kl i (by omega), hv.kl (i + 1) (by omega), rfl⟩
  by_cases k5 : k < 16
  · have : k = 15 := by omega
    subst this
    obtain ⟨e1, e2, e3⟩ := val (hq.zl.val 0 (by omega))
    rw [show S + 14 + 15 = S + 29 + 0 by omega, e1, e2, e3]
    exact ⟨hv.zl 0 (by omega), hv.zl 1 (by omega), rfl⟩
  · have : k = 16 := by omega
    subst this
    obtain ⟨e1, e2, e3⟩ := val (hq.rn.val 0 (by omega))
    rw [show S + 14 + 16 = S + 30 + 0 by omega, e1, e2, e3]
    exact ⟨hv.rn0, hv.rn1, rfl⟩

theorem opp_place (x0 y0 : ℝ) {c : Prop} [Decidable c] (h : c) (p : Pt ℝ) : headPlace c x0 y0 p = shift (opp p) x0 y0 := by
  unfold headPlace shift opp
  rw [if_pos h]
  simp only [Pt.mk.injEq]
  constructor <;> ring

theorem id_place (x0 y0 : ℝ) {c : Prop} [Decidable c] (h : ¬ c) (p : Pt ℝ) : headPlace c x0 y0 p = shift p x0 y0 := by
  unfold headPlace shift
  rw [if_neg h]
  simp only [Pt.mk.injEq]
  constructor <;> ring

/-- the segments of a head before `purge` -/
theorem head_segs_ring {k : HeadKind} {s : HeadShape} (hk : k.shape = some s) {m : HeadDim ℝ} (hb : s.Big m.d m.h1) (h : Heap ℝ) :
    ∃ h' q v, (Rt.real hs).headSegs h k m = .ok (h', List.range' (h.nseg + 14) 17) ∧ HeadAt h' q v h.npt h.nseg ∧
      HeadNear (3 / 10 ^ 8) v (fun i => headPlace (m.orient = -1) m.posH m.posV (s.vertex m.d m.h1 i)) ∧
      Wide (fun i => headPlace (m.orient = -1) m.posH m.posV (s.vertex m.d m.h1 i)) ∧
      (∀ p < h.npt, h'.pt p = h.pt p) ∧ ∀ t < h.nseg, h'.seg t = h.seg t := by
  have hE := Rt.real_isExact hs
  obtain ⟨ha, q, v, a1, a2, a3, a4, a5⟩ := head_pieces hs s hb h
  have hw : Wide (s.vertex m.d m.h1) := fun i j hi hj hne => hb.apart hi hj hne
  unfold Rt.headSegs
  rw [headRadii_shape hs hk]
  dsimp only
  rw [a1]
  dsimp only
  by_cases ho : m.orient = -1
  · have c180 : (Rt.real hs).trig.cos ((Rt.real hs).trig.radians 180) = -1 := by
      show Real.cos (180 * (Real.pi / 180)) = -1
      rw [HeadShape.rad_180, Real.cos_pi]
    have s180 : (Rt.real hs).trig.sin ((Rt.real hs).trig.radians 180) = 0 := by
      show Real.sin (180 * (Real.pi / 180)) = 0
      rw [HeadShape.rad_180, Real.sin_pi]
    obtain ⟨b1, b2, b3⟩ := a2.turn hE c180 s180 (a3.spreads hw)
    have n1 := a3.opp (by rw [s.vertex_zero, s.vertex_sixteen]; simp [opp]) (by rw [s.vertex_zero, s.vertex_sixteen]; simp [opp])
    rw [if_pos ho]
    generalize (Rt.real hs).headTurn ha q = t at *
    obtain ⟨c1, c2, c3⟩ := b1.move hE (n1.spreads hw.opp) m.posH m.posV
    refine ⟨_, _, _, by rw [c1.list], c1, ?_, ?_, ?_, ?_⟩
    · simp only [opp_place m.posH m.posV ho]
      exact n1.moved _ _
    · simp only [opp_place m.posH m.posV ho]
      exact hw.opp.shift _ _
    · intro p hp
      rw [c2 p hp, b2 p hp, a4 p hp]
    · intro t' ht
      rw [c3 _ (by omega), b3 _ (by omega), a5 _ ht]
  · rw [if_neg ho]
    obtain ⟨c1, c2, c3⟩ := a2.move hE (a3.spreads hw) m.posH m.posV
    refine ⟨_, _, _, by rw [c1.list], c1, ?_, ?_, ?_, ?_⟩
    · simp only [id_place m.posH m.posV ho]
      exact a3.moved _ _
    · simp only [id_place m.posH m.posV ho]
      exact hw.shift _ _
    · intro p hp
      rw [c2 p hp, a4 p hp]
    · intro t' ht
      rw [c3 _ (by omega), a5 _ ht]

theorem head_new {k : HeadKind} {s : HeadShape} (hk : k.shape = some s) {m : HeadDim ℝ} (hb : s.Big m.d m.h1) (h : Heap ℝ) :
    ∃ h' P, ∃ A : ℕ → ℕ, (Rt.real hs).headNew h k m = .ok (h', P) ∧ P.purged = true ∧ P.segs = List.range' (h.nseg + 14) 17 ∧
      (∀ i < 17, h'.seg (h.nseg + 14 + i) = ⟨A i, A ((i + 1) % 17), if i < 16 then .wall else .nonWall⟩) ∧
      (∀ i < 17, Near (3 / 10 ^ 8) (h'.pt (A i)) (headPlace (m.orient = -1) m.posH m.posV (s.vertex m.d m.h1 i))) ∧
      (∀ i j, i < 17 → j < 17 → A i = A j → i = j) ∧ (∀ i < 17, h.npt ≤ A i) ∧
      Wide (fun i => headPlace (m.orient = -1) m.posH m.posV (s.vertex m.d m.h1 i)) ∧
      (∀ p < h.npt, h'.pt p = h.pt p) ∧ ∀ t < h.nseg, h'.seg t = h.seg t := by
  have hE := Rt.real_isExact hs
  obtain ⟨ha, q, v, a1, a2, a3, a4, a5, a6⟩ := head_segs_ring hs hk hb h
  have hdup : ¬ (ha.ends (List.range' (h.nseg + 14) 17)).Nodup := by
    apply ends_dup (a := 4) (b := 5) (by omega) (by omega)
    have e1 := a2.ka.val 0 (by omega)
    have e2 := a2.ka.val 1 (by omega)
    injection e1 with _ e1 _
    injection e2 with e2 _ _
    exact a2.ka.shares _ _ ⟨_, a2.ka.mem (k := 0) (by omega), Or.inr rfl⟩ ⟨_, a2.ka.mem (k := 1) (by omega), Or.inl rfl⟩ (e1.trans e2.symm)
  have hpts : ∀ p, EndOf ha (List.range' (h.nseg + 14) 17) p → h.npt ≤ p := by
    rintro p ⟨t, ht, hp⟩
    rw [← a2.list] at ht
    simp only [List.mem_append] at ht
    rcases ht with ((((ht | ht) | ht) | ht) | ht) | ht
    · have := a2.zr.pts p ⟨t, ht, hp⟩; omega
    · have := a2.kr.pts p ⟨t, ht, hp⟩; omega
    · have := a2.ka.pts p ⟨t, ht, hp⟩; omega
    · have := a2.kl.pts p ⟨t, ht, hp⟩; omega
    · have := a2.zl.pts p ⟨t, ht, hp⟩; omega
    · have := a2.rn.pts p ⟨t, ht, hp⟩; omega
  have key := purge_ring hE (n := 17) (c := h.nseg + 14) (h := ha) (by omega) _
    (fun i j hi hj hne => a4 i j (by omega) (by omega) hne) (fun i hi => (a2.near a3 i hi).1) (fun i hi => (a2.near a3 i hi).2.1) hdup
  obtain ⟨k1, k2, k3, k4, k5, A, k6, k7, k8, k9⟩ := key
  refine ⟨((Rt.real hs).purge ha ⟨List.range' (h.nseg + 14) 17, false⟩).1, ((Rt.real hs).purge ha ⟨List.range' (h.nseg + 14) 17, false⟩).2, A,
    ?_, ?_, ?_, ?_, ?_, k8, fun i hi => hpts _ (k9 i hi), a4, ?_, ?_⟩
  · unfold Rt.headNew
    rw [a1]
  · rw [k1]
  · rw [k1]
  · intro i hi
    rw [k6 i hi, (a2.near a3 i hi).2.2]
  · intro i hi
    rw [k2]
    exact k7 i hi
  · intro p hp
    rw [k2, a5 p hp]
  · intro t ht
    rw [k5 t (by rw [List.mem_range'_1]; omega), a6 t ht]

/-- C102: a Klöpperboden or Korbbogenboden of diameter at least 0.01 and cylindrical height at least 0.00004 is outlined by 17
segments: 16 Walls and one NonWall (the base).  They join 17 different new Point objects in a ring, each within 3e-8 of the vertex
of the drawing by DIN 28011 or DIN 28013, turned by 180 degrees for `orient == -1` and moved to (pos_h, pos_v).  The polyline is
purged, continuous and closed.  Nothing else in memory is changed. -/
theorem C102_outline {k : HeadKind} {s : HeadShape} (hk : k.shape = some s) (m : HeadDim ℝ) (hd : 1 / 100 ≤ m.d)
    (h1 : 4 / 10 ^ 5 ≤ m.h1) (h : Heap ℝ) :
    ∃ h' P, ∃ A : ℕ → ℕ, (Rt.real hs).headNew h k m = .ok (h', P) ∧ P.purged = true ∧ P.segs.length = 17 ∧ P.segs.Nodup ∧
      (∀ i (hi : i < P.segs.length), h.nseg ≤ P.segs[i] ∧
        h'.seg P.segs[i] = ⟨A i, A ((i + 1) % 17), if i < 16 then .wall else .nonWall⟩) ∧
      (∀ i < 17, Near (3 / 10 ^ 8) (h'.pt (A i)) (headPlace (m.orient = -1) m.posH m.posV (s.vertex m.d m.h1 i))) ∧
      (∀ i j, i < 17 → j < 17 → A i = A j → i = j) ∧ (∀ i < 17, h.npt ≤ A i) ∧
      (Rt.real hs).isContinuous (h'.vals P.segs) = true ∧ (Rt.real hs).isClosed (h'.vals P.segs) = .ok true ∧
      (∀ p < h.npt, h'.pt p = h.pt p) ∧ ∀ t < h.nseg, h'.seg t = h.seg t := by
  have hE := Rt.real_isExact hs
  have hstep : 4 / 1000 ≤ s.step := by
    cases k with
    | klopper =>
      have : s = klopperShape := by simpa [HeadKind.shape] using hk.symm
      rw [this]; exact HeadShape.step_klopper
    | korbbogen =>
      have : s = korbbogenShape := by simpa [HeadKind.shape] using hk.symm
      rw [this]; exact HeadShape.step_korbbogen
    | other => simp [HeadKind.shape] at hk
  obtain ⟨h', P, A, a1, a2, a3, a4, a5, a6, a7, -, a9, a10⟩ := head_new hs hk (HeadShape.big_of_step hstep hd h1) h
  have hlen : P.segs.length = 17 := by rw [a3]; simp
  have hget : ∀ i (hi : i < P.segs.length), P.segs[i] = h.nseg + 14 + i := by
    intro i hi
    simp [a3]
  have hring := ring_closed hE.isRounding (l := h'.vals P.segs) (n := 17) (by omega) (by simp [Heap.vals, hlen])
    (fun i => h'.pt (A i)) (fun i => if i < 16 then .wall else .nonWall) (by
      intro i hi
      have hi' : i < P.segs.length := by simpa [Heap.vals] using hi
      simp only [Heap.vals, List.getElem_map, Heap.val]
      rw [hget i hi', a4 i (by omega)])
  refine ⟨h', P, A, a1, a2, hlen, by rw [a3]; exact List.nodup_range', ?_, a5, a6, a7, hring.1, hring.2, a9, a10⟩
  intro i hi
  rw [hget i hi]
  exact ⟨by omega, a4 i (by omega)⟩

/-- the sizes of C102 occur: a Klöpperboden of diameter 2 m turned downwards -/
example (h : Heap ℝ) : ∃ h' P, (Rt.real hs).headNew h .klopper ⟨3, 0, 2, 1 / 10, -1⟩ = .ok (h', P) ∧ P.segs.length = 17 ∧
    (Rt.real hs).isClosed (h'.vals P.segs) = .ok true := by
  obtain ⟨h', P, A, a1, a2, a3, a4, a5, a6, a7, a8, a9, a10, -⟩ :=
    C102_outline hs (k := .klopper) rfl ⟨3, 0, 2, 1 / 10, -1⟩ (by norm_num) (by norm_num) h
  exact ⟨h', P, a1, a3, a10⟩

/-- C102: the classes without a shape of their own raise the bare Exception -/
theorem C102_other {K : Type} [Field K] [LinearOrder K] [IsStrictOrderedRing K] [FloorRing K] (R : Rt K) (h : Heap K)
    (m : HeadDim K) : R.headNew h .other m = .error .generic := rfl

/-- C102: diameter 0 is a ZeroDivisionError -/
theorem C102_zero {k : HeadKind} (hk : k ≠ .other) (h : Heap ℝ) {m : HeadDim ℝ} (hd : m.d = 0) :
    (Rt.real hs).headNew h k m = .error .zeroDiv := by
  have hE := Rt.real_isExact hs
  obtain ⟨s, e⟩ : ∃ s, k.shape = some s := by
    cases k with
    | klopper => exact ⟨_, rfl⟩
    | korbbogen => exact ⟨_, rfl⟩
    | other => exact absurd rfl hk
  have : (Rt.real hs).headAngle 0 0 0 = .error .zeroDiv := by
    have e1 : ∀ x, (Rt.real hs).sq x = x * x := fun _ => rfl
    unfold Rt.headAngle
    simp only [hE.sub', hE.div', e1]
    norm_num
  unfold Rt.headNew Rt.headSegs
  rw [headRadii_shape hs e, hd]
  simp only [mul_zero]
  unfold Rt.headPieces
  rw [this]

/-- C102: a negative diameter fails the first assertion of `arc` -/
theorem C102_negative {k : HeadKind} (hk : k ≠ .other) (h : Heap ℝ) {m : HeadDim ℝ} (hd : m.d < 0) :
    (Rt.real hs).headNew h k m = .error .assertion := by
  have hE := Rt.real_isExact hs
  obtain ⟨s, e⟩ : ∃ s, k.shape = some s := by
    cases k with
    | klopper => exact ⟨_, rfl⟩
    | korbbogen => exact ⟨_, rfl⟩
    | other => exact absurd rfl hk
  unfold Rt.headNew Rt.headSegs
  rw [headRadii_shape hs e]
  generalize m.d = d at hd
  dsimp only
  have hw := s.w_pos
  have hc := s.cos_A_pos
  have hwd : (s.r1 - s.r2) * d < 0 := mul_neg_of_pos_of_neg hw hd
  have hwe : s.r1 * d - s.r2 * d = (s.r1 - s.r2) * d := by ring
  have hu : (s.r1 * d - s.r2 * d) * (s.r1 * d - s.r2 * d) - (d / 2 - s.r2 * d) * (d / 2 - s.r2 * d) =
      (-((s.r1 - s.r2) * d) * Real.cos s.A) ^ 2 := by
    have h1 := s.w_sin
    have h2 := Real.sin_sq_add_cos_sq s.A
    have e : d / 2 - s.r2 * d = (s.r1 - s.r2) * d * Real.sin s.A := by linear_combination (-d) * h1
    rw [e]
    linear_combination (-((s.r1 - s.r2) * d) ^ 2) * h2
  have hsq : Real.sqrt ((s.r1 * d - s.r2 * d) * (s.r1 * d - s.r2 * d) - (d / 2 - s.r2 * d) * (d / 2 - s.r2 * d)) =
      -((s.r1 - s.r2) * d) * Real.cos s.A := by
    rw [hu]
    exact Real.sqrt_sq (mul_nonneg (by linarith) hc.le)
  have hq : -((s.r1 - s.r2) * d) * Real.cos s.A / (s.r1 * d - s.r2 * d) = -Real.cos s.A := by
    rw [hwe]
    have := hwd.ne
    have := hw.ne'
    have := hd.ne
    field_simp
  have hA := s.A_lt
  have hang : (Rt.real hs).headAngle d (s.r1 * d) (s.r2 * d) = .ok (-((s.r1 - s.r2) * d) * Real.cos s.A, 180 - s.al) := by
    unfold Rt.headAngle
    simp only [hE.sub', hE.div']
    have e1 : ∀ x, (Rt.real hs).sq x = x * x := fun _ => rfl
    have e2 : ∀ x, (Rt.real hs).sqrt x = Real.sqrt x := fun _ => rfl
    have e3 : ∀ x, (Rt.real hs).trig.acos x = Real.arccos x := fun _ => rfl
    have e4 : ∀ x, (Rt.real hs).trig.degrees x = x * (180 / Real.pi) := fun _ => rfl
    simp only [e1, e2, e3, e4]
    rw [if_neg (by rw [hu]; exact not_lt.2 (by positivity)), if_neg (by rw [hwe]; exact hwd.ne), hsq, hq]
    rw [if_neg (by rw [abs_neg, abs_of_pos hc]; exact not_lt.2 s.cos_lt)]
    rw [Real.arccos_neg, Real.arccos_cos s.A_pos.le (by have := Real.pi_pos; linarith)]
    have := Real.pi_pos.ne'
    have e5 : (Real.pi - s.A) * (180 / Real.pi) = 180 - s.al := by
      unfold HeadShape.al HeadShape.A
      field_simp
    rw [e5]
  have hal := s.al_lt
  have hneg : ¬ (0 ≤ (Rt.real hs).sub 90 (180 - s.al) ∧ (Rt.real hs).sub 90 (180 - s.al) < 360) := by
    rw [hE.sub']
    rintro ⟨h1, -⟩
    linarith
  unfold Rt.headPieces
  rw [hang]
  dsimp only
  unfold Rt.arcH
  rw [if_pos hneg]

/-- the crown of the drawing: the middle of the dish is its highest point -/
theorem C102_crown (s : HeadShape) (d h1 : ℝ) : s.vertex d h1 8 = ⟨0, h1 + (s.r1 - s.depth) * d⟩ := by
  have := s.vertex_dish d h1 (k := 4) (by omega)
  rw [show 4 + 4 = 8 from rfl] at this
  rw [this]
  unfold onCircle
  have e : (90 - s.al + ((4 : ℕ) : ℝ) * (s.al / 4)) * (Real.pi / 180) = Real.pi / 2 := by push_cast; ring
  rw [e, Real.cos_pi_div_two, Real.sin_pi_div_two]
  simp only [mul_zero, mul_one, add_zero, Pt.mk.injEq, true_and]
  ring

theorem C102_highest (s : HeadShape) {d h1 : ℝ} (hd : 0 < d) (h : 0 ≤ h1) {k : ℕ} (hk : k ≤ 16) :
    (s.vertex d h1 k).y ≤ (s.vertex d h1 8).y := by
  rw [C102_crown]
  dsimp only
  have hp := Real.pi_pos
  have hA := s.A_pos
  have hA' := s.A_lt
  have hr1 := s.dish
  have hr2 := s.pos
  have hw := s.w_pos
  have hc := s.cos_A_pos
  have hc1 := s.cos_lt
  have hdep : s.depth = (s.r1 - s.r2) * Real.cos s.A := rfl
  have hD := HeadShape.D_rad (s := s)
  have hal0 := s.al_pos
  have hal1 := s.al_lt
  have hdep1 : s.depth ≤ s.r1 - s.r2 := by rw [hdep]; nlinarith
  have joint : s.r2 * Real.cos s.A ≤ s.r1 - s.depth := by rw [hdep]; nlinarith
  have kn : ∀ x : ℝ, Real.sin x ≤ Real.cos s.A → h1 + s.r2 * d * Real.sin x ≤ h1 + (s.r1 - s.depth) * d := by
    intro x hx
    have h1' := mul_le_mul_of_nonneg_left hx hr2.le
    have := mul_le_mul_of_nonneg_right (h1'.trans joint) hd.le
    linarith
  have hsinD := s.sin_D
  have hDlt := s.D_lt
  have hDpos := s.D_pos
  by_cases k0 : k = 0
  · subst k0
    rw [s.vertex_zero]
    have : 0 ≤ (s.r1 - s.depth) * d := mul_nonneg (by linarith) hd.le
    dsimp only
    linarith
  by_cases k1 : k ≤ 4
  · obtain ⟨i, rfl⟩ := Nat.exists_eq_add_of_le (Nat.one_le_iff_ne_zero.2 k0)
    rw [s.vertex_right d h1 (by omega)]
    apply kn
    rw [← hsinD]
    have hi : (i : ℝ) ≤ 3 := by exact_mod_cast (by omega : i ≤ 3)
    have hi0 : (0 : ℝ) ≤ i := Nat.cast_nonneg i
    have e : (i : ℝ) * ((90 - s.al) / 3) * (Real.pi / 180) = i * (s.D / 3) := by linear_combination (i / 3 : ℝ) * hD
    rw [e]
    apply Real.sin_le_sin_of_le_of_le_pi_div_two <;> nlinarith
  by_cases k2 : k ≤ 12
  · obtain ⟨i, rfl⟩ := Nat.exists_eq_add_of_le (Nat.le_of_lt (not_le.1 k1))
    rw [s.vertex_dish d h1 (by omega)]
    unfold onCircle
    dsimp only
    have := mul_le_mul_of_nonneg_left (Real.sin_le_one ((90 - s.al + (i : ℝ) * (s.al / 4)) * (Real.pi / 180)))
      (by nlinarith : 0 ≤ s.r1 * d)
    linarith
  by_cases k3 : k ≤ 15
  · obtain ⟨i, rfl⟩ := Nat.exists_eq_add_of_le (Nat.le_of_lt (not_le.1 k2))
    rw [s.vertex_left d h1 (by omega)]
    apply kn
    rw [← hsinD]
    have hi : (i : ℝ) ≤ 3 := by exact_mod_cast (by omega : i ≤ 3)
    have hi0 : (0 : ℝ) ≤ i := Nat.cast_nonneg i
    have e : (90 + s.al + (i : ℝ) * ((90 - s.al) / 3)) * (Real.pi / 180) = Real.pi - (3 - i) * (s.D / 3) := by
      linear_combination (-(3 - i) / 3 : ℝ) * hD
    rw [e, Real.sin_pi_sub]
    apply Real.sin_le_sin_of_le_of_le_pi_div_two <;> nlinarith
  · have : k = 16 := by omega
    subst this
    rw [s.vertex_sixteen]
    have : 0 ≤ (s.r1 - s.depth) * d := mul_nonneg (by linarith) hd.le
    dsimp only
    linarith

/-- C102: how high the heads are: between 0.193 d and 0.194 d for the Klöpperboden, between 0.254 d and 0.255 d for the
Korbbogenboden, besides h1 -/
theorem C102_height : 193 / 1000 < klopperShape.r1 - klopperShape.depth ∧ klopperShape.r1 - klopperShape.depth < 194 / 1000 ∧
    254 / 1000 < korbbogenShape.r1 - korbbogenShape.depth ∧ korbbogenShape.r1 - korbbogenShape.depth < 255 / 1000 := by
  have d1 : klopperShape.depth = (1 - 1 / 10) * Real.cos klopperShape.A := rfl
  have d2 : korbbogenShape.depth = (8 / 10 - 154 / 1000) * Real.cos korbbogenShape.A := rfl
  have c1 := klopperShape.cos_sq
  have c2 := korbbogenShape.cos_sq
  rw [HeadShape.sinA_klopper] at c1
  rw [HeadShape.sinA_korbbogen] at c2
  have p1 := klopperShape.cos_A_pos
  have p2 := korbbogenShape.cos_A_pos
  have r1 : klopperShape.r1 = 1 := rfl
  have r2 : korbbogenShape.r1 = 8 / 10 := rfl
  rw [d1, d2, r1, r2]
  refine ⟨?_, ?_, ?_, ?_⟩ <;> nlinarith

end real
end Srep
