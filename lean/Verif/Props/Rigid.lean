import Verif.Props.Purge

/-! Mirroring and rotating a polyline in memory (C86, C87). -/

set_option linter.unusedSectionVars false

namespace Srep
variable {K : Type} [Field K] [LinearOrder K] [IsStrictOrderedRing K] [FloorRing K]

/-- a polyline the transformations can be applied to: it is purged and really shares its endpoints, or it is not purged
yet and has no null segment -/
def Ready (h : Heap K) (P : PLine) : Prop :=
  (P.purged = true ∧ SharesPoints h P.segs) ∨ (P.purged = false ∧ ∀ s ∈ P.segs, (h.val s).i ≠ (h.val s).j)

/-- writing all points of `point_set` after `purge` -/
theorem write_all {R : Rt K} (hR : R.IsRounding) (h : Heap K) (P : PLine) (hr : Ready h P)
    (hap : Apart R.tol (locs h P.segs)) (F : Pt K → Pt K) :
    let g := (R.pointRefs (R.purge h P).1 P.segs).foldl (fun h p => h.setPt p (F (h.pt p))) (R.purge h P).1
    (R.purge h P).2 = ⟨P.segs, true⟩ ∧
    (∀ s ∈ P.segs, g.val s = ⟨F (h.val s).i, F (h.val s).j, (h.val s).cls⟩) ∧
    (∀ p, ¬ EndOf h P.segs p → g.pt p = h.pt p) ∧ (∀ s, s ∉ P.segs → g.seg s = h.seg s) ∧
    (∀ p, EndOf g P.segs p → EndOf h P.segs p) ∧
    ((∀ a ∈ locs h P.segs, ∀ b ∈ locs h P.segs, F a = F b → a = b) → SharesPoints g P.segs) := by
  intro g
  -- the state after purging
  obtain ⟨c1, c2, c3, c6, c7, c8⟩ : SharesPoints (R.purge h P).1 P.segs ∧ (R.purge h P).2 = ⟨P.segs, true⟩ ∧
      (R.purge h P).1.pt = h.pt ∧ (∀ s, (R.purge h P).1.val s = h.val s) ∧
      (∀ s, s ∉ P.segs → (R.purge h P).1.seg s = h.seg s) ∧
      ∀ p, EndOf (R.purge h P).1 P.segs p → EndOf h P.segs p := by
    rcases hr with ⟨hp, hs⟩ | ⟨hp, hn⟩
    · have hpu : R.purge h P = (h, P) := by unfold Rt.purge; rw [hp]; rfl
      rw [hpu]
      refine ⟨hs, ?_, rfl, fun _ => rfl, fun _ _ => rfl, fun _ h => h⟩
      cases P; simp_all
    · obtain ⟨c1, c2, c3, -, -, c6, c7, c8⟩ := C45_purge hR h P hp hap hn
      exact ⟨c1, c2, c3, c6, c7, c8⟩
  have hlocs : locs (R.purge h P).1 P.segs = locs h P.segs := by
    unfold locs; simp only [c6]
  obtain ⟨n1, n2⟩ := Heap.Shared.pointRefs hR (sep_of_locs hR (by rw [hlocs]; exact hap)).hashOK
    ((sharesPoints_iff _ _).1 c1)
  obtain ⟨f1, f2, f3, f4⟩ := foldl_setPt F (R.pointRefs (R.purge h P).1 P.segs) (R.purge h P).1 n1
  change g.seg = _ at f1
  change ∀ p, g.pt p = _ at f4
  have hin : ∀ p, EndOf (R.purge h P).1 P.segs p → g.pt p = F (h.pt p) := by
    intro p hp; rw [f4, if_pos ((n2 p).2 (Heap.mem_ends.2 hp)), c3]
  have hend : ∀ p, EndOf g P.segs p ↔ EndOf (R.purge h P).1 P.segs p := by
    intro p; unfold EndOf; rw [f1]
  have hloc : ∀ p, EndOf (R.purge h P).1 P.segs p → h.pt p ∈ locs h P.segs := by
    intro p hp
    rw [← hlocs]
    obtain ⟨s, hs, hp⟩ := hp
    refine ⟨s, hs, ?_⟩
    rcases hp with rfl | rfl
    · left; unfold Heap.val; rw [c3]
    · right; unfold Heap.val; rw [c3]
  refine ⟨c2, ?_, ?_, ?_, ?_, ?_⟩
  · intro s hs
    rw [← c6 s]
    unfold Heap.val
    rw [f1, hin _ ⟨s, hs, Or.inl rfl⟩, hin _ ⟨s, hs, Or.inr rfl⟩, c3]
  · intro p hp
    rw [f4, if_neg (fun hc => hp (c8 p (Heap.mem_ends.1 ((n2 p).1 hc)))), c3]
  · intro s hs; rw [f1, c7 s hs]
  · intro p hp; exact c8 p ((hend p).1 hp)
  · intro hinj a b ha hb e
    rw [hend] at ha hb
    rw [hin a ha, hin b hb] at e
    apply c1 a b ha hb
    rw [c3]
    exact hinj _ (hloc a ha) _ (hloc b hb) e

/-! ### C86 -/

/-- reflection about the vertical line at `x0` -/
def reflect (x0 : K) (p : Pt K) : Pt K := ⟨2 * x0 - p.x, p.y⟩

/-- what `mirror_vertical` writes into one Point -/
def mirrored (R : Rt K) (x0 : K) (p : Pt K) : Pt K := R.mkPt (R.sub p.x (R.mul 2 (R.sub p.x x0))) p.y

theorem mirrored_exact {R : Rt K} (hE : R.IsExact) {x0 : K} {p : Pt K} (hp : R.Stored p) (hx : R.Stored ⟨x0, 0⟩) :
    mirrored R x0 p = reflect x0 p := by
  rw [hE.stored_iff] at hp hx
  unfold mirrored reflect
  rw [hE.sub', hE.mul', hE.sub']
  have e : p.x - 2 * (p.x - x0) = x0 + x0 - p.x := by ring
  have e2 : 2 * x0 - p.x = x0 + x0 - p.x := by ring
  rw [e, e2, hE.mkPt_grid ((hx.1.add hx.1).sub hp.1) hp.2]

theorem locs_of_val {h g : Heap K} {l : List ℕ} {F : Pt K → Pt K}
    (hv : ∀ s ∈ l, g.val s = ⟨F (h.val s).i, F (h.val s).j, (h.val s).cls⟩) :
    ∀ q ∈ locs g l, ∃ p ∈ locs h l, q = F p := by
  rintro q ⟨s, hs, hq⟩
  rw [hv s hs] at hq
  rcases hq with rfl | rfl
  · exact ⟨_, ⟨s, hs, Or.inl rfl⟩, rfl⟩
  · exact ⟨_, ⟨s, hs, Or.inr rfl⟩, rfl⟩

/-- C86 (any correctly rounded arithmetic): `mirror_vertical` of a polyline writes every endpoint exactly once, keeps
all y coordinates of stored Points, and touches no other Point and no other segment. -/
theorem C86_mirror_once {R : Rt K} (hR : R.IsRounding) (h : Heap K) (P : PLine) (hr : Ready h P)
    (hap : Apart R.tol (locs h P.segs)) (x0 : K) :
    (R.plMirror h P x0).2 = ⟨P.segs, true⟩ ∧
    (∀ s ∈ P.segs, (R.plMirror h P x0).1.val s = ⟨mirrored R x0 (h.val s).i, mirrored R x0 (h.val s).j, (h.val s).cls⟩) ∧
    (∀ p, ¬ EndOf h P.segs p → (R.plMirror h P x0).1.pt p = h.pt p) ∧
    ∀ s, s ∉ P.segs → (R.plMirror h P x0).1.seg s = h.seg s := by
  obtain ⟨w1, w2, w3, w4, -, -⟩ := write_all hR h P hr hap (mirrored R x0)
  exact ⟨w1, w2, w3, w4⟩

/-- C86, exact arithmetic and 8-decimal numbers: `mirror_vertical(x0)` is the reflection about the line x = x0. -/
theorem C86_mirror_exact {R : Rt K} (hE : R.IsExact) (h : Heap K) (P : PLine) (hr : Ready h P)
    (hap : Apart R.tol (locs h P.segs)) (x0 : K) (hst : ∀ p ∈ locs h P.segs, R.Stored p) (hx : R.Stored ⟨x0, 0⟩) :
    ∀ s ∈ P.segs, (R.plMirror h P x0).1.val s =
      ⟨⟨2 * x0 - (h.val s).i.x, (h.val s).i.y⟩, ⟨2 * x0 - (h.val s).j.x, (h.val s).j.y⟩, (h.val s).cls⟩ := by
  intro s hs
  rw [(C86_mirror_once hE.isRounding h P hr hap x0).2.1 s hs, mirrored_exact hE (hst _ ⟨s, hs, Or.inl rfl⟩) hx,
    mirrored_exact hE (hst _ ⟨s, hs, Or.inr rfl⟩) hx]
  rfl

/-- C86, exact arithmetic: mirroring twice about the same axis restores all segments. -/
theorem C86_mirror_twice {R : Rt K} (hE : R.IsExact) (h : Heap K) (P : PLine) (hr : Ready h P)
    (hap : Apart R.tol (locs h P.segs)) (x0 : K) (hst : ∀ p ∈ locs h P.segs, R.Stored p) (hx : R.Stored ⟨x0, 0⟩) :
    ∀ s ∈ P.segs, (R.plMirror (R.plMirror h P x0).1 (R.plMirror h P x0).2 x0).1.val s = h.val s := by
  have hR := hE.isRounding
  obtain ⟨w1, w2, w3, w4, w5, w6⟩ := write_all hR h P hr hap (mirrored R x0)
  have e2 := C86_mirror_exact hE h P hr hap x0 hst hx
  have hinj : ∀ a ∈ locs h P.segs, ∀ b ∈ locs h P.segs, mirrored R x0 a = mirrored R x0 b → a = b := by
    intro a ha b hb e
    rw [mirrored_exact hE (hst a ha) hx, mirrored_exact hE (hst b hb) hx] at e
    unfold reflect at e
    injection e with e1 e2
    exact Pt.ext' (by linarith) e2
  have hs := w6 hinj
  set g := (R.plMirror h P x0).1 with hg
  change SharesPoints g P.segs at hs
  have hl : ∀ q ∈ locs g P.segs, ∃ p ∈ locs h P.segs, q = reflect x0 p := by
    apply locs_of_val
    intro s hs
    rw [e2 s hs]
    rfl
  have hap' : Apart R.tol (locs g P.segs) := by
    intro a ha b hb hne
    obtain ⟨a', ha', rfl⟩ := hl a ha
    obtain ⟨b', hb', rfl⟩ := hl b hb
    have := hap a' ha' b' hb' (fun e => hne (by rw [e]))
    unfold reflect
    dsimp only
    rw [show 2 * x0 - a'.x - (2 * x0 - b'.x) = -(a'.x - b'.x) by ring, abs_neg]
    exact this
  have hst' : ∀ p ∈ locs g P.segs, R.Stored p := by
    intro p hp
    obtain ⟨p', hp', rfl⟩ := hl p hp
    have := hst p' hp'
    rw [hE.stored_iff] at this hx ⊢
    refine ⟨?_, this.2⟩
    unfold reflect
    dsimp only
    rw [show 2 * x0 - p'.x = x0 + x0 - p'.x by ring]
    exact (hx.1.add hx.1).sub this.1
  have hP : (R.plMirror h P x0).2 = ⟨P.segs, true⟩ := w1
  rw [hP]
  intro s hsm
  rw [C86_mirror_exact hE g ⟨P.segs, true⟩ (Or.inl ⟨rfl, hs⟩) hap' x0 hst' hx s hsm, e2 s hsm]
  unfold Heap.val
  simp

/-- non-vacuity and the effect in binary64: a triangle of six Point objects mirrored about x = 3 -/
example : Ready exTriangle ⟨[0, 1, 2], false⟩ ∧
    (exRt.plMirror exTriangle ⟨[0, 1, 2], false⟩ 3).1.vals [0, 1, 2] =
    [⟨⟨5, 1⟩, ⟨1, 1⟩, .line⟩, ⟨⟨1, 1⟩, ⟨4, 4⟩, .line⟩, ⟨⟨4, 4⟩, ⟨5, 1⟩, .line⟩] := by
  refine ⟨Or.inr ⟨rfl, ?_⟩, ?_⟩ <;> decide +kernel

/-! ### C87 -/

/-- rotation about the origin by the angle with cosine `c` and sine `s` -/
def turn (c s : K) (p : Pt K) : Pt K := ⟨p.x * c - p.y * s, p.x * s + p.y * c⟩

/-- a point with both coordinates rounded to 8 decimals -/
def round8Pt (p : Pt K) : Pt K := ⟨rhe8 p.x, rhe8 p.y⟩

/-- what `rotate_about_origin` writes into one Point -/
def turned (R : Rt K) (c s : K) (a : Pt K) : Pt K :=
  R.mkPt (R.round8 (R.sub (R.mul a.x c) (R.mul a.y s))) (R.round8 (R.add (R.mul a.x s) (R.mul a.y c)))

theorem rhe8_isGrid (x : K) : Grid (rhe8 x) := ⟨rhe (x * 10 ^ 8), rfl⟩

theorem turned_exact {R : Rt K} (hE : R.IsExact) (c s : K) (p : Pt K) : turned R c s p = round8Pt (turn c s p) := by
  unfold turned round8Pt turn
  rw [hE.sub', hE.add', hE.mul', hE.mul', hE.mul', hE.mul', hE.round8', hE.round8']
  exact hE.mkPt_grid (rhe8_isGrid _) (rhe8_isGrid _)

/-- C87, exact arithmetic: `rotate_about_origin(phi)` moves every endpoint to the rotated position, rounded to 8
decimals, and touches nothing else. -/
theorem C87_rotate {R : Rt K} (hE : R.IsExact) (h : Heap K) (P : PLine) (hr : Ready h P)
    (hap : Apart R.tol (locs h P.segs)) (phi : K) :
    let c := R.trig.cos (R.trig.radians phi)
    let s := R.trig.sin (R.trig.radians phi)
    (R.plRotate h P phi).2 = ⟨P.segs, true⟩ ∧
    (∀ k ∈ P.segs, (R.plRotate h P phi).1.val k =
      ⟨round8Pt (turn c s (h.val k).i), round8Pt (turn c s (h.val k).j), (h.val k).cls⟩) ∧
    (∀ p, ¬ EndOf h P.segs p → (R.plRotate h P phi).1.pt p = h.pt p) ∧
    ∀ k, k ∉ P.segs → (R.plRotate h P phi).1.seg k = h.seg k := by
  intro c s
  obtain ⟨w1, w2, w3, w4, -, -⟩ := write_all hE.isRounding h P hr hap (turned R c s)
  refine ⟨w1, ?_, w3, w4⟩
  intro k hk
  have := w2 k hk
  rw [turned_exact hE, turned_exact hE] at this
  exact this

/-- C87, exact arithmetic: the position of every endpoint after the rotation differs from the rotated one by at most
half a unit of the 8th decimal in each coordinate. -/
theorem C87_error {R : Rt K} (hE : R.IsExact) (h : Heap K) (P : PLine) (hr : Ready h P)
    (hap : Apart R.tol (locs h P.segs)) (phi : K) :
    let c := R.trig.cos (R.trig.radians phi)
    let s := R.trig.sin (R.trig.radians phi)
    ∀ k ∈ P.segs,
      |((R.plRotate h P phi).1.val k).i.x - ((h.val k).i.x * c - (h.val k).i.y * s)| ≤ 1 / (2 * 10 ^ 8) ∧
      |((R.plRotate h P phi).1.val k).i.y - ((h.val k).i.x * s + (h.val k).i.y * c)| ≤ 1 / (2 * 10 ^ 8) ∧
      |((R.plRotate h P phi).1.val k).j.x - ((h.val k).j.x * c - (h.val k).j.y * s)| ≤ 1 / (2 * 10 ^ 8) ∧
      |((R.plRotate h P phi).1.val k).j.y - ((h.val k).j.x * s + (h.val k).j.y * c)| ≤ 1 / (2 * 10 ^ 8) := by
  intro c s k hk
  rw [(C87_rotate hE h P hr hap phi).2.1 k hk]
  exact ⟨abs_rhe8_sub_le _, abs_rhe8_sub_le _, abs_rhe8_sub_le _, abs_rhe8_sub_le _⟩

/-- C87, exact arithmetic: an angle with cosine 0 and sine 1 (90 degrees) turns 8-decimal points exactly. -/
theorem C87_quarter {R : Rt K} (hE : R.IsExact) (h : Heap K) (P : PLine) (hr : Ready h P)
    (hap : Apart R.tol (locs h P.segs)) (phi : K) (hc : R.trig.cos (R.trig.radians phi) = 0)
    (hs : R.trig.sin (R.trig.radians phi) = 1) (hst : ∀ p ∈ locs h P.segs, R.Stored p) :
    ∀ k ∈ P.segs, (R.plRotate h P phi).1.val k =
      ⟨⟨-(h.val k).i.y, (h.val k).i.x⟩, ⟨-(h.val k).j.y, (h.val k).j.x⟩, (h.val k).cls⟩ := by
  intro k hk
  have hq : ∀ p ∈ locs h P.segs, round8Pt (turn 0 1 p) = ⟨-p.y, p.x⟩ := by
    intro p hp
    have := (hE.stored_iff p).1 (hst p hp)
    unfold round8Pt turn
    simp only [mul_zero, mul_one, zero_sub, add_zero]
    rw [this.1.rhe8, this.2.neg.rhe8]
  have := (C87_rotate hE h P hr hap phi).2.1 k hk
  rw [hc, hs, hq _ ⟨k, hk, Or.inl rfl⟩, hq _ ⟨k, hk, Or.inr rfl⟩] at this
  exact this

theorem turn_norm {c s : K} (hu : c * c + s * s = 1) (a b : Pt K) :
    dist2 (turn c s a) (turn c s b) = dist2 a b := by
  unfold dist2 turn
  dsimp only
  linear_combination ((a.x - b.x) * (a.x - b.x) + (a.y - b.y) * (a.y - b.y)) * hu

/-- separated points stay separated under rotation and rounding -/
theorem apart_turn {c s t : K} (hu : c * c + s * s = 1) (ht : t = 1 / 10 ^ 5) {S : Set (Pt K)} (h : Apart (2 * t) S)
    {a b : Pt K} (ha : a ∈ S) (hb : b ∈ S) (hne : a ≠ b) :
    t ≤ |(round8Pt (turn c s a)).x - (round8Pt (turn c s b)).x| ∨
    t ≤ |(round8Pt (turn c s a)).y - (round8Pt (turn c s b)).y| := by
  have hn := turn_norm hu a b
  have htp : 0 < t := by rw [ht]; positivity
  have hd : 4 * (t * t) ≤ dist2 a b := by
    unfold dist2
    rcases h a ha b hb hne with h | h
    · have := mul_self_le_mul_self (by linarith) h
      rw [abs_mul_abs_self] at this
      nlinarith [mul_self_nonneg (a.y - b.y)]
    · have := mul_self_le_mul_self (by linarith) h
      rw [abs_mul_abs_self] at this
      nlinarith [mul_self_nonneg (a.x - b.x)]
  rw [← hn] at hd
  set u := turn c s a
  set v := turn c s b
  have key : 12 / 10 * t ≤ |u.x - v.x| ∨ 12 / 10 * t ≤ |u.y - v.y| := by
    by_contra hc
    push Not at hc
    have h1 := mul_self_lt_mul_self (abs_nonneg _) hc.1
    have h2 := mul_self_lt_mul_self (abs_nonneg _) hc.2
    rw [abs_mul_abs_self] at h1 h2
    unfold dist2 at hd
    nlinarith
  have hr : ∀ x y : K, 12 / 10 * t ≤ |x - y| → t ≤ |rhe8 x - rhe8 y| := by
    intro x y h
    have h1 := abs_rhe8_sub_le x
    have h2 := abs_rhe8_sub_le y
    have h3 : |x - y| ≤ |rhe8 x - rhe8 y| + |rhe8 x - x| + |rhe8 y - y| := by
      have e : x - y = (rhe8 x - rhe8 y) - (rhe8 x - x) + (rhe8 y - y) := by ring
      calc |x - y| = |(rhe8 x - rhe8 y) - (rhe8 x - x) + (rhe8 y - y)| := by rw [← e]
        _ ≤ |(rhe8 x - rhe8 y) - (rhe8 x - x)| + |rhe8 y - y| := abs_add_le _ _
        _ ≤ |rhe8 x - rhe8 y| + |rhe8 x - x| + |rhe8 y - y| := by
          have := abs_sub (rhe8 x - rhe8 y) (rhe8 x - x)
          linarith
    have e : (1 : K) / (2 * 10 ^ 8) + 1 / (2 * 10 ^ 8) ≤ 2 / 10 * t := by rw [ht]; norm_num
    linarith
  unfold round8Pt
  dsimp only
  rcases key with h | h
  · exact Or.inl (hr _ _ h)
  · exact Or.inr (hr _ _ h)

theorem write_move {R : Rt K} (hE : R.IsExact) (h : Heap K) (P : PLine) (hr : Ready h P)
    (hap : Apart R.tol (locs h P.segs)) (a b : K) (hst : ∀ p ∈ locs h P.segs, R.Stored p) (ho : R.Stored ⟨a, b⟩) :
    (R.plMove h P a b).2 = ⟨P.segs, true⟩ ∧
    (∀ k ∈ P.segs, (R.plMove h P a b).1.val k = ⟨shift (h.val k).i a b, shift (h.val k).j a b, (h.val k).cls⟩) ∧
    (∀ p, ¬ EndOf h P.segs p → (R.plMove h P a b).1.pt p = h.pt p) ∧
    (∀ k, k ∉ P.segs → (R.plMove h P a b).1.seg k = h.seg k) ∧
    (∀ p, EndOf (R.plMove h P a b).1 P.segs p → EndOf h P.segs p) ∧ SharesPoints (R.plMove h P a b).1 P.segs := by
  obtain ⟨w1, w2, w3, w4, w5, w6⟩ := write_all hE.isRounding h P hr hap (fun q => R.ptAdd q ⟨a, b⟩)
  refine ⟨w1, ?_, w3, w4, w5, ?_⟩
  · intro k hk
    have := w2 k hk
    rw [ptAdd_exact hE (hst _ ⟨k, hk, Or.inl rfl⟩) ho, ptAdd_exact hE (hst _ ⟨k, hk, Or.inr rfl⟩) ho] at this
    exact this
  · apply w6
    intro p hp q hq e
    rw [ptAdd_exact hE (hst p hp) ho, ptAdd_exact hE (hst q hq) ho] at e
    unfold shift at e
    injection e with e1 e2
    exact Pt.ext' (by linarith) (by linarith)

/-- C87, exact arithmetic and 8-decimal numbers, vertices at least 2e-5 apart: `rotate_about_xy(x0, y0, phi)` moves every
endpoint to the position rotated about (x0, y0), the offset from the centre being rounded to 8 decimals; nothing else is
written. -/
theorem C87_about_xy {R : Rt K} (hE : R.IsExact) (h : Heap K) (P : PLine) (hr : Ready h P)
    (hap : Apart (2 / 10 ^ 5) (locs h P.segs)) (x0 y0 phi : K) (hst : ∀ p ∈ locs h P.segs, R.Stored p)
    (ho : R.Stored ⟨x0, y0⟩)
    (hu : R.trig.cos (R.trig.radians phi) * R.trig.cos (R.trig.radians phi) +
      R.trig.sin (R.trig.radians phi) * R.trig.sin (R.trig.radians phi) = 1) :
    let c := R.trig.cos (R.trig.radians phi)
    let s := R.trig.sin (R.trig.radians phi)
    let F := fun p : Pt K => (⟨x0 + rhe8 ((p.x - x0) * c - (p.y - y0) * s), y0 + rhe8 ((p.x - x0) * s + (p.y - y0) * c)⟩ : Pt K)
    (R.plRotateXY h P x0 y0 phi).2 = ⟨P.segs, true⟩ ∧
    (∀ k ∈ P.segs, (R.plRotateXY h P x0 y0 phi).1.val k = ⟨F (h.val k).i, F (h.val k).j, (h.val k).cls⟩) ∧
    (∀ p, ¬ EndOf h P.segs p → (R.plRotateXY h P x0 y0 phi).1.pt p = h.pt p) ∧
    ∀ k, k ∉ P.segs → (R.plRotateXY h P x0 y0 phi).1.seg k = h.seg k := by
  intro c s F
  have hR := hE.isRounding
  have htol := hE.tol'
  have h2t : (2 : K) / 10 ^ 5 = 2 * R.tol := by rw [htol]; ring
  have weak : ∀ S : Set (Pt K), Apart (2 / 10 ^ 5) S → Apart R.tol S := by
    intro S hS a ha b hb hne
    have := hR.tol_pos
    rcases hS a ha b hb hne with h | h
    · left; rw [h2t] at h; linarith
    · right; rw [h2t] at h; linarith
  have ho' : R.Stored ⟨-x0, -y0⟩ := by
    rw [hE.stored_iff] at ho ⊢
    exact ⟨ho.1.neg, ho.2.neg⟩
  -- move to the origin
  obtain ⟨a1, a2, a3, a4, a5, a6⟩ := write_move hE h P hr (weak _ hap) (-x0) (-y0) hst ho'
  set h1 := (R.plMove h P (-x0) (-y0)).1 with hh1
  have l1 := locs_of_val (F := fun p => shift p (-x0) (-y0)) a2
  have hap1 : Apart (2 / 10 ^ 5) (locs h1 P.segs) := by
    intro p hp q hq hne
    obtain ⟨p', hp', rfl⟩ := l1 p hp
    obtain ⟨q', hq', rfl⟩ := l1 q hq
    have := hap p' hp' q' hq' (fun e => hne (by rw [e]))
    simpa [shift] using this
  -- rotate
  have r1 : Ready h1 ⟨P.segs, true⟩ := Or.inl ⟨rfl, a6⟩
  obtain ⟨w1, w2, w3, w4, w5, w6⟩ := write_all hR h1 ⟨P.segs, true⟩ r1 (weak _ hap1) (turned R c s)
  have hrot : R.plRotate h1 ⟨P.segs, true⟩ phi = ((R.pointRefs (R.purge h1 ⟨P.segs, true⟩).1 P.segs).foldl
      (fun h p => h.setPt p (turned R c s (h.pt p))) (R.purge h1 ⟨P.segs, true⟩).1, (R.purge h1 ⟨P.segs, true⟩).2) := rfl
  rw [w1] at hrot
  set h2 := (R.pointRefs (R.purge h1 ⟨P.segs, true⟩).1 P.segs).foldl
      (fun h p => h.setPt p (turned R c s (h.pt p))) (R.purge h1 ⟨P.segs, true⟩).1 with hh2
  have w2' : ∀ k ∈ P.segs, h2.val k = ⟨round8Pt (turn c s (h1.val k).i), round8Pt (turn c s (h1.val k).j), (h1.val k).cls⟩ := by
    intro k hk
    have := w2 k hk
    rw [turned_exact hE, turned_exact hE] at this
    exact this
  have sep : ∀ p ∈ locs h1 P.segs, ∀ q ∈ locs h1 P.segs, p ≠ q →
      R.tol ≤ |(round8Pt (turn c s p)).x - (round8Pt (turn c s q)).x| ∨
      R.tol ≤ |(round8Pt (turn c s p)).y - (round8Pt (turn c s q)).y| := fun p hp q hq hne =>
    apart_turn hu htol (by rw [← h2t]; exact hap1) hp hq hne
  have s2 : SharesPoints h2 P.segs := by
    apply w6
    intro p hp q hq e
    rw [turned_exact hE, turned_exact hE] at e
    by_contra hne
    have := sep p hp q hq hne
    rw [e, sub_self, sub_self, abs_zero] at this
    have := hR.tol_pos
    rcases ‹_ ∨ _› with h | h <;> linarith
  have l2 := locs_of_val (F := fun p => round8Pt (turn c s p)) w2'
  have hap2 : Apart R.tol (locs h2 P.segs) := by
    intro p hp q hq hne
    obtain ⟨p', hp', rfl⟩ := l2 p hp
    obtain ⟨q', hq', rfl⟩ := l2 q hq
    exact sep p' hp' q' hq' (fun e => hne (by rw [e]))
  have hst2 : ∀ p ∈ locs h2 P.segs, R.Stored p := by
    intro p hp
    obtain ⟨p', hp', rfl⟩ := l2 p hp
    rw [hE.stored_iff]
    exact ⟨rhe8_isGrid _, rhe8_isGrid _⟩
  -- move back
  obtain ⟨b1, b2, b3, b4, b5, b6⟩ := write_move hE h2 ⟨P.segs, true⟩ (Or.inl ⟨rfl, s2⟩) hap2 x0 y0 hst2 ho
  have hfin : R.plRotateXY h P x0 y0 phi = R.plMove h2 ⟨P.segs, true⟩ x0 y0 := by
    unfold Rt.plRotateXY
    dsimp only
    rw [a1, ← hh1, hrot]
  rw [hfin]
  refine ⟨b1, ?_, ?_, ?_⟩
  · intro k hk
    rw [b2 k hk, w2' k hk, a2 k hk]
    have e : ∀ p : Pt K, shift (round8Pt (turn c s (shift p (-x0) (-y0)))) x0 y0 = F p := by
      intro p
      unfold shift round8Pt turn
      dsimp only [F]
      simp only [← sub_eq_add_neg]
      rw [add_comm x0, add_comm y0]
    dsimp only
    rw [e, e]
  · intro p hp
    have n1 : ¬ EndOf h1 P.segs p := fun hc => hp (a5 p hc)
    have n2 : ¬ EndOf h2 P.segs p := fun hc => n1 (w5 p hc)
    rw [b3 p n2, w3 p n1, a3 p hp]
  · intro k hk
    rw [b4 k hk, w4 k hk, a4 k hk]

/-- C87: an endpoint at the centre of the rotation stays where it is. -/
theorem C87_centre {R : Rt K} (hE : R.IsExact) (h : Heap K) (P : PLine) (hr : Ready h P)
    (hap : Apart (2 / 10 ^ 5) (locs h P.segs)) (x0 y0 phi : K) (hst : ∀ p ∈ locs h P.segs, R.Stored p)
    (ho : R.Stored ⟨x0, y0⟩)
    (hu : R.trig.cos (R.trig.radians phi) * R.trig.cos (R.trig.radians phi) +
      R.trig.sin (R.trig.radians phi) * R.trig.sin (R.trig.radians phi) = 1) (k : ℕ) (hk : k ∈ P.segs)
    (hc : (h.val k).i = ⟨x0, y0⟩) : ((R.plRotateXY h P x0 y0 phi).1.val k).i = ⟨x0, y0⟩ := by
  have hz : rhe8 (0 : K) = 0 := by simpa using rhe8_grid (K := K) 0
  rw [(C87_about_xy hE h P hr hap x0 y0 phi hst ho hu).2.1 k hk, hc]
  simp [hz]

/-- the trigonometric hypotheses hold for the real functions -/
example (h : ℝ → ℝ → Int) (phi : ℝ) :
    (Rt.real h).trig.cos ((Rt.real h).trig.radians phi) * (Rt.real h).trig.cos ((Rt.real h).trig.radians phi) +
      (Rt.real h).trig.sin ((Rt.real h).trig.radians phi) * (Rt.real h).trig.sin ((Rt.real h).trig.radians phi) = 1 := by
  have := Real.cos_sq_add_sin_sq ((Rt.real h).trig.radians phi)
  rw [sq, sq] at this
  exact this

/-- … and 90 degrees is a quarter turn -/
example (h : ℝ → ℝ → Int) : (Rt.real h).trig.cos ((Rt.real h).trig.radians 90) = 0 ∧
    (Rt.real h).trig.sin ((Rt.real h).trig.radians 90) = 1 := by
  have e : (Rt.real h).trig.radians 90 = Real.pi / 2 := by
    simp only [Rt.real]
    ring
  rw [e]
  exact ⟨Real.cos_pi_div_two, Real.sin_pi_div_two⟩

end Srep
