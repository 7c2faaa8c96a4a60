import Verif.Lemmas.HeadHeap

/-! Pieces of an outline: chains of segments with their own Points, turned and moved one after the other. -/

set_option linter.unusedSectionVars false

namespace Srep
open Rt
variable {K : Type} [Field K] [LinearOrder K] [IsStrictOrderedRing K] [FloorRing K]

/-- the polyline `P` joins the points `v 0`, ..., `v n` by segments of class `κ`, with Point objects in `a...b` and the `n`
segment objects from `c` on -/
structure Piece (h : Heap K) (P : PLine) (n : ℕ) (v : ℕ → Pt K) (κ : SegCls) (a b c : ℕ) : Prop where
  segs : P.segs = List.range' c n
  val : ∀ k < n, h.val (c + k) = ⟨v k, v (k + 1), κ⟩
  pts : ∀ p, EndOf h P.segs p → a ≤ p ∧ p < b
  shares : SharesPoints h P.segs

/-- points on the grid, any two at least 1e-5 apart -/
structure GridSpread (n : ℕ) (v : ℕ → Pt K) : Prop where
  apart : ∀ j k, j ≤ n → k ≤ n → j ≠ k → 1 / 10 ^ 5 ≤ |(v j).x - (v k).x| ∨ 1 / 10 ^ 5 ≤ |(v j).y - (v k).y|
  grid : ∀ k ≤ n, Grid (v k).x ∧ Grid (v k).y

theorem Piece.seg {h : Heap K} {P : PLine} {n : ℕ} {v : ℕ → Pt K} {κ : SegCls} {a b c : ℕ} (hP : Piece h P n v κ a b c) :
    ∀ s ∈ P.segs, c ≤ s ∧ s < c + n := by
  intro s hs
  rw [hP.segs, List.mem_range'_1] at hs
  exact hs

theorem Piece.mem {h : Heap K} {P : PLine} {n : ℕ} {v : ℕ → Pt K} {κ : SegCls} {a b c : ℕ} (hP : Piece h P n v κ a b c) {k : ℕ}
    (hk : k < n) : c + k ∈ P.segs := by
  rw [hP.segs, List.mem_range'_1]
  omega

theorem Piece.index {h : Heap K} {P : PLine} {n : ℕ} {v : ℕ → Pt K} {κ : SegCls} {a b c : ℕ} (hP : Piece h P n v κ a b c) {s : ℕ}
    (hs : s ∈ P.segs) : ∃ k < n, s = c + k := by
  have := hP.seg s hs
  exact ⟨s - c, by omega, by omega⟩

theorem GridSpread.ne {n : ℕ} {v : ℕ → Pt K} (hv : GridSpread n v) {j k : ℕ} (hj : j ≤ n) (hk : k ≤ n) (h : j ≠ k) : v j ≠ v k := by
  intro e
  have := hv.apart j k hj hk h
  rw [e, sub_self, sub_self, abs_zero] at this
  norm_num at this

theorem Grid.neg' {x : K} (h : Grid x) : Grid (-x) := by
  obtain ⟨z, rfl⟩ := h
  exact ⟨-z, by push_cast; ring⟩

theorem Grid.add' {x y : K} (h : Grid x) (h' : Grid y) : Grid (x + y) := by
  obtain ⟨z, rfl⟩ := h
  obtain ⟨w, rfl⟩ := h'
  exact ⟨z + w, by push_cast; ring⟩

/-- the point turned by 180 degrees -/
def opp (p : Pt K) : Pt K := ⟨-p.x, -p.y⟩

theorem GridSpread.opp {n : ℕ} {v : ℕ → Pt K} (hv : GridSpread n v) : GridSpread n fun k => opp (v k) := by
  refine ⟨fun j k hj hk h => ?_, fun k hk => ⟨(hv.grid k hk).1.neg', (hv.grid k hk).2.neg'⟩⟩
  have e : ∀ x y : K, |(-x) - (-y)| = |x - y| := by
    intro x y
    rw [← abs_neg]
    congr 1
    ring
  simp only [Srep.opp, e]
  exact hv.apart j k hj hk h

/-- the point moved and stored -/
def moved (x0 y0 : K) (p : Pt K) : Pt K := round8Pt (Srep.shift p x0 y0)

theorem GridSpread.moved_ne {n : ℕ} {v : ℕ → Pt K} (hv : GridSpread n v) (x0 y0 : K) {j k : ℕ} (hj : j ≤ n) (hk : k ≤ n) (h : j ≠ k) :
    moved x0 y0 (v j) ≠ moved x0 y0 (v k) := by
  intro e
  injection e with e1 e2
  have key : ∀ x y z : K, rhe8 (x + z) = rhe8 (y + z) → ¬ 1 / 10 ^ 5 ≤ |x - y| := by
    intro x y z h
    have a1 := abs_le.1 (abs_rhe8_sub_le (x + z))
    have a2 := abs_le.1 (abs_rhe8_sub_le (y + z))
    rw [h] at a1
    rw [not_le, abs_lt]
    norm_num at *
    constructor <;> linarith
  rcases hv.apart j k hj hk h with h | h
  · exact key _ _ _ e1 h
  · exact key _ _ _ e2 h

theorem movePt_exact {R : Rt K} (hE : R.IsExact) (p : Pt K) (x0 y0 : K) :
    R.mkPt (R.add p.x x0) (R.add p.y y0) = moved x0 y0 p := by
  rw [hE.mkPt', hE.add', hE.add']
  rfl

/-- a piece is not affected by changes of other objects -/
theorem Piece.frame {h g : Heap K} {P : PLine} {n : ℕ} {v : ℕ → Pt K} {κ : SegCls} {a b c : ℕ} (hP : Piece h P n v κ a b c)
    (hp : ∀ p, a ≤ p ∧ p < b → g.pt p = h.pt p) (hs : ∀ s, c ≤ s ∧ s < c + n → g.seg s = h.seg s) : Piece g P n v κ a b c := by
  have hseg : ∀ s ∈ P.segs, g.seg s = h.seg s := fun s hm => hs s (hP.seg s hm)
  have hend : ∀ p, EndOf g P.segs p ↔ EndOf h P.segs p := by
    intro p
    constructor <;> rintro ⟨s, hm, hh⟩ <;> exact ⟨s, hm, by rw [hseg s hm] at *; exact hh⟩
  refine ⟨hP.segs, ?_, fun p hh => hP.pts p ((hend p).1 hh), ?_⟩
  · intro k hk
    rw [← hP.val k hk]
    have hm := hP.mem hk
    unfold Heap.val
    rw [hseg _ hm, hp _ (hP.pts _ ⟨_, hm, Or.inl rfl⟩), hp _ (hP.pts _ ⟨_, hm, Or.inr rfl⟩)]
  · intro p q h1 h2 e
    rw [hend] at h1 h2
    rw [hp _ (hP.pts _ h1), hp _ (hP.pts _ h2)] at e
    exact hP.shares p q h1 h2 e

theorem Piece.mem_locs {h : Heap K} {P : PLine} {n : ℕ} {v : ℕ → Pt K} {κ : SegCls} {a b c : ℕ} (hP : Piece h P n v κ a b c)
    {p : Pt K} (hp : p ∈ locs h P.segs) : ∃ k ≤ n, p = v k := by
  obtain ⟨s, hs, hp⟩ := hp
  obtain ⟨k, hk, rfl⟩ := hP.index hs
  rw [hP.val k hk] at hp
  rcases hp with rfl | rfl
  exacts [⟨k, by omega, rfl⟩, ⟨k + 1, by omega, rfl⟩]

theorem Piece.apart {h : Heap K} {P : PLine} {n : ℕ} {v : ℕ → Pt K} {κ : SegCls} {a b c : ℕ} (hP : Piece h P n v κ a b c)
    (hv : GridSpread n v) : Apart (1 / 10 ^ 5) (locs h P.segs) := by
  intro p hp q hq hne
  obtain ⟨j, hj, rfl⟩ := hP.mem_locs hp
  obtain ⟨k, hk, rfl⟩ := hP.mem_locs hq
  exact hv.apart j k hj hk fun e => hne (by rw [e])

theorem Piece.ready {h : Heap K} {P : PLine} {n : ℕ} {v : ℕ → Pt K} {κ : SegCls} {a b c : ℕ} (hP : Piece h P n v κ a b c)
    (hv : GridSpread n v) : Ready h P := by
  cases hp : P.purged with
  | true => exact Or.inl ⟨hp, hP.shares⟩
  | false =>
    refine Or.inr ⟨hp, fun s hs => ?_⟩
    obtain ⟨k, hk, rfl⟩ := hP.index hs
    rw [hP.val k hk]
    exact hv.ne (by omega) (by omega) (by omega)

/-- all points of a piece are written once -/
theorem Piece.write {R : Rt K} (hR : R.IsRounding) (ht : R.tol = 1 / 10 ^ 5) {h : Heap K} {P : PLine} {n : ℕ} {v : ℕ → Pt K}
    {κ : SegCls} {a b c : ℕ} (hP : Piece h P n v κ a b c) (hv : GridSpread n v) (F : Pt K → Pt K) {w : ℕ → Pt K}
    (hF : ∀ k ≤ n, F (v k) = w k) (hinj : ∀ j k, j ≤ n → k ≤ n → w j = w k → j = k) :
    let g := (R.pointRefs (R.purge h P).1 P.segs).foldl (fun h p => h.setPt p (F (h.pt p))) (R.purge h P).1
    (R.purge h P).2 = ⟨P.segs, true⟩ ∧ Piece g ⟨P.segs, true⟩ n w κ a b c ∧
    (∀ p, ¬ (a ≤ p ∧ p < b) → g.pt p = h.pt p) ∧ ∀ s, ¬ (c ≤ s ∧ s < c + n) → g.seg s = h.seg s := by
  intro g
  obtain ⟨w1, w2, w3, w4, w5, w6⟩ := write_all hR h P (hP.ready hv) (by rw [ht]; exact hP.apart hv) F
  refine ⟨w1, ⟨hP.segs, ?_, fun p hp => hP.pts p (w5 p hp), ?_⟩, fun p hp => w3 p fun hh => hp (hP.pts p hh),
    fun s hs => w4 s fun hh => hs (hP.seg s hh)⟩
  · intro k hk
    rw [w2 _ (hP.mem hk), hP.val k hk]
    dsimp only
    rw [hF k (by omega), hF (k + 1) (by omega)]
  · apply w6
    intro p hp q hq e
    obtain ⟨j, hj, rfl⟩ := hP.mem_locs hp
    obtain ⟨k, hk, rfl⟩ := hP.mem_locs hq
    rw [hF j hj, hF k hk] at e
    rw [hinj j k hj hk e]

/-- turning a piece by 180 degrees -/
theorem Piece.turn {R : Rt K} (hE : R.IsExact) (hc : R.trig.cos (R.trig.radians 180) = -1) (hs : R.trig.sin (R.trig.radians 180) = 0)
    {h : Heap K} {P : PLine} {n : ℕ} {v : ℕ → Pt K} {κ : SegCls} {a b c : ℕ} (hP : Piece h P n v κ a b c) (hv : GridSpread n v) :
    (R.plRotate h P 180).2 = ⟨P.segs, true⟩ ∧ Piece (R.plRotate h P 180).1 ⟨P.segs, true⟩ n (fun k => opp (v k)) κ a b c ∧
    (∀ p, ¬ (a ≤ p ∧ p < b) → (R.plRotate h P 180).1.pt p = h.pt p) ∧
    ∀ s, ¬ (c ≤ s ∧ s < c + n) → (R.plRotate h P 180).1.seg s = h.seg s := by
  apply hP.write hE.isRounding hE.tol' hv (turned R (R.trig.cos (R.trig.radians 180)) (R.trig.sin (R.trig.radians 180)))
  · intro k hk
    rw [turned_exact hE, hc, hs]
    have := hv.grid k hk
    simp only [round8Pt, Srep.turn, opp, mul_neg, mul_one, mul_zero, sub_zero, zero_add]
    rw [this.1.neg'.rhe8, this.2.neg'.rhe8]
  · intro j k hj hk e
    by_contra hne
    exact hv.opp.ne hj hk hne e

/-- moving a piece -/
theorem Piece.move {R : Rt K} (hE : R.IsExact) {h : Heap K} {P : PLine} {n : ℕ} {v : ℕ → Pt K} {κ : SegCls} {a b c : ℕ}
    (hP : Piece h P n v κ a b c) (hv : GridSpread n v) (x0 y0 : K) :
    (R.plMove h P x0 y0).2 = ⟨P.segs, true⟩ ∧ Piece (R.plMove h P x0 y0).1 ⟨P.segs, true⟩ n (fun k => moved x0 y0 (v k)) κ a b c ∧
    (∀ p, ¬ (a ≤ p ∧ p < b) → (R.plMove h P x0 y0).1.pt p = h.pt p) ∧
    ∀ s, ¬ (c ≤ s ∧ s < c + n) → (R.plMove h P x0 y0).1.seg s = h.seg s := by
  apply hP.write hE.isRounding hE.tol' hv (fun q => R.mkPt (R.add q.x x0) (R.add q.y y0))
  · intro k hk
    exact movePt_exact hE _ _ _
  · intro j k hj hk e
    by_contra hne
    exact hv.moved_ne x0 y0 hj hk hne e

/-! ### new objects -/

theorem newWalls_spec : ∀ (l : List ℕ) (h : Heap K), (∀ s ∈ l, s < h.nseg) →
    (h.newWalls l).2 = List.range' h.nseg l.length ∧ (h.newWalls l).1.nseg = h.nseg + l.length ∧
    (h.newWalls l).1.pt = h.pt ∧ (h.newWalls l).1.npt = h.npt ∧ (∀ s < h.nseg, (h.newWalls l).1.seg s = h.seg s) ∧
    ∀ k (hk : k < l.length), (h.newWalls l).1.seg (h.nseg + k) = ⟨(h.seg l[k]).i, (h.seg l[k]).j, .wall⟩ := by
  intro l
  induction l with
  | nil => intro h _; simp [Heap.newWalls]
  | cons a l ih =>
    intro h hl
    have e1 : ∀ s < h.nseg, (h.newSegC (h.seg a).i (h.seg a).j .wall).1.seg s = h.seg s := by
      intro s hs
      simp [Heap.newSegC, Function.update_apply, hs.ne]
    obtain ⟨i1, i2, i3, i4, i5, i6⟩ := ih (h.newSegC (h.seg a).i (h.seg a).j .wall).1
      (fun s hs => Nat.lt_succ_of_lt (hl s (by simp [hs])))
    have en : (h.newSegC (h.seg a).i (h.seg a).j .wall).1.nseg = h.nseg + 1 := rfl
    rw [en] at i1 i2 i5 i6
    refine ⟨?_, ?_, i3, i4, ?_, ?_⟩
    · show h.nseg :: _ = _
      rw [i1, List.length_cons, List.range'_succ]
    · show (Heap.newWalls _ l).1.nseg = _
      rw [i2, List.length_cons]; omega
    · intro s hs
      show (Heap.newWalls _ l).1.seg s = _
      rw [i5 s (by omega), e1 s hs]
    · intro k hk
      show (Heap.newWalls _ l).1.seg _ = _
      cases k with
      | zero =>
        rw [i5 _ (by omega)]
        simp [Heap.newSegC]
      | succ k =>
        have := i6 k (by simpa using hk)
        rw [show h.nseg + (k + 1) = h.nseg + 1 + k by omega, this]
        simp only [List.getElem_cons_succ]
        rw [e1 _ (hl _ (by simp))]

/-- new Wall objects on the Points of a piece -/
theorem Piece.walls {h : Heap K} {P : PLine} {n : ℕ} {v : ℕ → Pt K} {κ : SegCls} {a b c : ℕ} (hP : Piece h P n v κ a b c)
    (hd : c + n ≤ h.nseg) :
    Piece (h.newWalls P.segs).1 ⟨(h.newWalls P.segs).2, false⟩ n v .wall a b h.nseg ∧
    (h.newWalls P.segs).1.nseg = h.nseg + n ∧ (h.newWalls P.segs).1.npt = h.npt ∧
    (h.newWalls P.segs).1.pt = h.pt ∧ ∀ s < h.nseg, (h.newWalls P.segs).1.seg s = h.seg s := by
  obtain ⟨i1, i2, i3, i4, i5, i6⟩ := newWalls_spec P.segs h fun s hs => by have := hP.seg s hs; omega
  have hl : P.segs.length = n := by rw [hP.segs]; simp
  rw [hl] at i1 i2
  have hget : ∀ k (hk : k < P.segs.length), P.segs[k] = c + k := by
    intro k hk
    simp [hP.segs]
  have hend : ∀ p, EndOf (h.newWalls P.segs).1 (h.newWalls P.segs).2 p → EndOf h P.segs p := by
    rintro p ⟨s, hs, hp⟩
    rw [i1, List.mem_range'_1] at hs
    obtain ⟨k, rfl⟩ := Nat.exists_eq_add_of_le hs.1
    rw [i6 k (by omega)] at hp
    exact ⟨P.segs[k], List.getElem_mem _, hp⟩
  refine ⟨⟨i1, ?_, fun p hp => hP.pts p (hend p hp), ?_⟩, i2, i4, i3, i5⟩
  · intro k hk
    have e := hP.val k hk
    unfold Heap.val at e ⊢
    rw [i6 k (by omega), i3, hget k (by omega)]
    injection e with e1 e2 e3
    rw [← e1, ← e2]
  · intro p q hp hq e
    rw [i3] at e
    exact hP.shares p q (hend p hp) (hend q hq) e

/-- a new segment with its own Points -/
theorem newLine_piece (h : Heap K) (p q : Pt K) (κ : SegCls) (hne : p ≠ q) :
    Piece (h.newLine p q κ).1 ⟨[(h.newLine p q κ).2], false⟩ 1 (fun k => if k = 0 then p else q) κ h.npt (h.npt + 2) h.nseg ∧
    (h.newLine p q κ).1.nseg = h.nseg + 1 ∧ (h.newLine p q κ).1.npt = h.npt + 2 ∧
    (∀ x < h.npt, (h.newLine p q κ).1.pt x = h.pt x) ∧ (∀ s < h.nseg, (h.newLine p q κ).1.seg s = h.seg s) ∧
    (h.newLine p q κ).2 = h.nseg := by
  obtain ⟨p1, p2, p3, p4, p5, p6⟩ := Heap.newPts_spec [p, q] h
  have q0 := p6 0 (by simp)
  have q1 := p6 1 (by simp)
  simp only [List.length_cons, List.length_nil] at p2
  have es : (h.newLine p q κ).1.seg h.nseg = ⟨h.npt, h.npt + 1, κ⟩ := by
    show Function.update _ (h.newPts [p, q]).1.nseg _ h.nseg = _
    rw [p4]; simp
  have e2 : (h.newLine p q κ).2 = h.nseg := p4
  have ep : (h.newLine p q κ).1.pt = (h.newPts [p, q]).1.pt := rfl
  simp only [add_zero, List.getElem_cons_zero, List.getElem_cons_succ] at q0 q1
  refine ⟨⟨by rw [e2]; rfl, ?_, ?_, ?_⟩, ?_, p2, p5, ?_, e2⟩
  · intro k hk
    have : k = 0 := by omega
    subst this
    simp only [add_zero, Heap.val, es, ep, q0, q1]
    simp
  · rintro x ⟨s, hs, hx⟩
    rw [List.mem_singleton, e2] at hs
    subst hs
    rw [es] at hx
    simp only at hx
    omega
  · rintro x y ⟨s, hs, hx⟩ ⟨t, ht, hy⟩ e
    rw [List.mem_singleton, e2] at hs ht
    subst hs ht
    rw [es] at hx hy
    rw [ep] at e
    rcases hx with rfl | rfl <;> rcases hy with rfl | rfl
    · rfl
    · rw [q0, q1] at e; exact absurd e hne
    · rw [q0, q1] at e; exact absurd e.symm hne
    · rfl
  · show (h.newPts [p, q]).1.nseg + 1 = _
    rw [p4]
  · intro s hs
    show Function.update _ (h.newPts [p, q]).1.nseg _ s = _
    rw [p4, Function.update_of_ne hs.ne, p3]

/-- reversing a segment with its own Points -/
theorem Piece.reverse {h : Heap K} {s : ℕ} {v : ℕ → Pt K} {κ : SegCls} {a b c : ℕ} {f : Bool}
    (hP : Piece h ⟨[s], f⟩ 1 v κ a b c) :
    Piece (h.reverse s) ⟨[s], f⟩ 1 (fun k => v (1 - k)) κ a b c ∧ (h.reverse s).pt = h.pt ∧
    ∀ t, ¬ (c ≤ t ∧ t < c + 1) → (h.reverse s).seg t = h.seg t := by
  have e : (h.reverse s).seg s = ⟨(h.seg s).j, (h.seg s).i, (h.seg s).cls⟩ := by simp [Heap.reverse, Heap.setEndpoints]
  have hend : ∀ x, EndOf (h.reverse s) [s] x → EndOf h [s] x := by
    rintro x ⟨t, ht, hx⟩
    rw [List.mem_singleton] at ht
    subst ht
    rw [e] at hx
    exact ⟨t, by simp, hx.symm⟩
  have hsc : s = c := by simpa using hP.segs
  refine ⟨⟨hP.segs, ?_, fun x hx => hP.pts x (hend x hx), fun x y hx hy => hP.shares x y (hend x hx) (hend y hy)⟩, rfl, ?_⟩
  · intro k hk
    have : k = 0 := by omega
    subst this
    have w := hP.val 0 (by simp)
    simp only [add_zero, ← hsc, Heap.val] at w ⊢
    rw [e]
    injection w with v1 v2 v3
    show (⟨h.pt (h.seg s).j, h.pt (h.seg s).i, (h.seg s).cls⟩ : Seg K) = _
    rw [v1, v2, v3]
  · intro t ht
    have : t ≠ s := by
      rintro rfl
      exact ht (by omega)
    simp [Heap.reverse, Heap.setEndpoints, Function.update_apply, this]

/-- moving a segment with its own Points -/
theorem Piece.segMove {R : Rt K} (hE : R.IsExact) {h : Heap K} {s : ℕ} {v : ℕ → Pt K} {κ : SegCls} {a b c : ℕ} {f : Bool}
    (hP : Piece h ⟨[s], f⟩ 1 v κ a b c) (hv : GridSpread 1 v) (x0 y0 : K) :
    Piece (R.segMove h s x0 y0) ⟨[s], f⟩ 1 (fun k => moved x0 y0 (v k)) κ a b c ∧
    (∀ p, ¬ (a ≤ p ∧ p < b) → (R.segMove h s x0 y0).pt p = h.pt p) ∧ (R.segMove h s x0 y0).seg = h.seg := by
  have hsc : s = c := by simpa using hP.segs
  have e0 := hP.val 0 (by simp)
  simp only [add_zero, ← hsc, Heap.val] at e0
  injection e0 with v1 v2 v3
  have hne : (h.seg s).i ≠ (h.seg s).j := by
    intro e
    rw [e, v2] at v1
    exact hv.ne (by simp) (by simp) (by simp) v1
  have hst := fun k => movePt_exact hE (v k) x0 y0
  have hseg : (R.segMove h s x0 y0).seg = h.seg := rfl
  have pi : (R.segMove h s x0 y0).pt (h.seg s).i = moved x0 y0 (v 0) := by
    unfold Rt.segMove Rt.movePt Heap.setPt
    simp only [Function.update_apply, hne, if_false, if_true]
    rw [v1, hst 0]
  have pj : (R.segMove h s x0 y0).pt (h.seg s).j = moved x0 y0 (v 1) := by
    unfold Rt.segMove Rt.movePt Heap.setPt
    simp only [Function.update_apply, hne.symm, if_false, if_true]
    rw [v2]
    exact hst 1
  have hend : ∀ x, EndOf (R.segMove h s x0 y0) [s] x ↔ EndOf h [s] x := fun x => Iff.rfl
  refine ⟨⟨hP.segs, ?_, fun x hh => hP.pts x hh, ?_⟩, ?_, hseg⟩
  · intro k hk
    have : k = 0 := by omega
    subst this
    simp only [add_zero, ← hsc, Heap.val]
    rw [hseg, pi, pj, v3]
  · rintro x y ⟨t, ht, hx'⟩ ⟨u, hu, hy'⟩ e
    rw [List.mem_singleton] at ht hu
    subst ht hu
    rw [hseg] at hx' hy'
    have hne' := hv.moved_ne x0 y0 (j := 0) (k := 1) (by simp) (by simp) (by simp)
    rcases hx' with rfl | rfl <;> rcases hy' with rfl | rfl
    · rfl
    · rw [pi, pj] at e; exact absurd e hne'
    · rw [pi, pj] at e; exact absurd e.symm hne'
    · rfl
  · intro p hp
    have h1 : p ≠ (h.seg s).i := fun e => hp (hP.pts p ⟨s, by simp, Or.inl e⟩)
    have h2 : p ≠ (h.seg s).j := fun e => hp (hP.pts p ⟨s, by simp, Or.inr e⟩)
    unfold Rt.segMove Rt.movePt Heap.setPt
    simp only [Function.update_apply, h1, h2, if_false]

end Srep
