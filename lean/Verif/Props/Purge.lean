import Verif.Lemmas.PurgeB
import Verif.Props.Move

/-! Properties C45, C46, C47: merging coincident vertices, moving a polyline, the stale `purged` flag. -/

set_option linter.unusedSectionVars false

namespace Srep
variable {K : Type} [Field K] [LinearOrder K] [IsStrictOrderedRing K] [FloorRing K]

/-- the locations of the endpoints of the segments `l` -/
def locs (h : Heap K) (l : List ℕ) : Set (Pt K) := {p | ∃ s ∈ l, p = (h.val s).i ∨ p = (h.val s).j}

/-- `p` is the Point object of an endpoint of one of the segments `l` -/
def EndOf (h : Heap K) (l : List ℕ) (p : ℕ) : Prop := ∃ s ∈ l, p = (h.seg s).i ∨ p = (h.seg s).j

/-- endpoints of `l` at the same location are the same Point object -/
def SharesPoints (h : Heap K) (l : List ℕ) : Prop :=
  ∀ a b, EndOf h l a → EndOf h l b → h.pt a = h.pt b → a = b

theorem sharesPoints_iff (h : Heap K) (l : List ℕ) : SharesPoints h l ↔ h.Shared l := by
  constructor
  · intro hs a ha b hb e; exact hs a b (Heap.mem_ends.1 ha) (Heap.mem_ends.1 hb) e
  · intro hs a b ha hb e; exact hs a (Heap.mem_ends.2 ha) b (Heap.mem_ends.2 hb) e

theorem sep_of_locs {R : Rt K} (hR : R.IsRounding) {h : Heap K} {l : List ℕ}
    (hap : Apart R.tol (locs h l)) : R.Sep (endPts (h.vals l)) := by
  apply sep_of_apart hR
  have : {p | p ∈ endPts (h.vals l)} = locs h l := by
    ext p; simp [mem_endPts, Heap.vals, locs]
  rw [this]; exact hap

/-! ### C45 -/

/-- C45: `purge` of a polyline without null segments and with separated points: afterwards endpoints at the
same location are the same object; no coordinate and no segment outside the polyline changes, no object is
created, and every segment keeps its location and class. -/
theorem C45_purge {R : Rt K} (hR : R.IsRounding) (h : Heap K) (P : PLine) (hp : P.purged = false)
    (hap : Apart R.tol (locs h P.segs)) (hnull : ∀ s ∈ P.segs, (h.val s).i ≠ (h.val s).j) :
    SharesPoints (R.purge h P).1 P.segs ∧ (R.purge h P).2 = ⟨P.segs, true⟩ ∧
    (R.purge h P).1.pt = h.pt ∧ (R.purge h P).1.npt = h.npt ∧ (R.purge h P).1.nseg = h.nseg ∧
    (∀ s, (R.purge h P).1.val s = h.val s) ∧ (∀ s, s ∉ P.segs → (R.purge h P).1.seg s = h.seg s) ∧
    ∀ p, EndOf (R.purge h P).1 P.segs p → EndOf h P.segs p := by
  obtain ⟨h1, h2, h3, h4, h5, h6, h7, h8⟩ := purge_spec hR hp (sep_of_locs hR hap) hnull
  exact ⟨(sharesPoints_iff _ _).2 h8, h1, h2, h3, h4, h5, h6,
    fun p hp => Heap.mem_ends.1 (h7 p (Heap.mem_ends.2 hp))⟩

/-- C45: purging again changes nothing, even if the flag is reset. -/
theorem C45_again {R : Rt K} (hR : R.IsRounding) (h : Heap K) (P : PLine) (hp : P.purged = false)
    (hap : Apart R.tol (locs h P.segs)) (hnull : ∀ s ∈ P.segs, (h.val s).i ≠ (h.val s).j) (b : Bool) :
    R.purge (R.purge h P).1 ⟨P.segs, b⟩ = R.purge h P := by
  obtain ⟨h1, h2, h3, h4, h5, h6, h7, h8⟩ := purge_spec hR hp (sep_of_locs hR hap) hnull
  have hs : R.Sep (endPts ((R.purge h P).1.vals P.segs)) := by
    have : (R.purge h P).1.vals P.segs = h.vals P.segs := by
      unfold Heap.vals; exact List.map_congr_left fun s _ => h5 s
    rw [this]; exact sep_of_locs hR hap
  rw [purge_shared (P := ⟨P.segs, b⟩) hs h8]
  show ((R.purge h P).1, (⟨P.segs, true⟩ : PLine)) = R.purge h P
  rw [← h1]

/-- memory with a triangle of three segments and six Point objects, two at each corner -/
def exTriangle : Heap ℚ :=
  ⟨fun n => if n = 0 ∨ n = 5 then ⟨1, 1⟩ else if n = 1 ∨ n = 2 then ⟨5, 1⟩ else ⟨2, 4⟩,
   fun s => if s = 0 then ⟨0, 1, .line⟩ else if s = 1 then ⟨2, 3, .line⟩ else ⟨4, 5, .line⟩, 6, 3⟩

/-- the hypotheses of C45 hold for the triangle, whose corners are really two objects before and one after -/
example : exRt.Sep (endPts (exTriangle.vals [0, 1, 2])) ∧
    (∀ s ∈ [0, 1, 2], (exTriangle.val s).i ≠ (exTriangle.val s).j) ∧
    (exTriangle.seg 0).j ≠ (exTriangle.seg 1).i ∧
    ((exRt.purge exTriangle ⟨[0, 1, 2], false⟩).1.seg 0).j =
      ((exRt.purge exTriangle ⟨[0, 1, 2], false⟩).1.seg 1).i ∧
    ((exRt.purge exTriangle ⟨[0, 1, 2], false⟩).1.seg 2).j =
      ((exRt.purge exTriangle ⟨[0, 1, 2], false⟩).1.seg 0).i := by
  unfold Rt.Sep; decide +kernel

/-- C45 needs the hypothesis: a null segment keeps two coincident Point objects. -/
theorem C45_null_segment : ∃ (h : Heap ℚ) (P : PLine), P.purged = false ∧
    exRt.Sep (endPts (h.vals P.segs)) ∧ (exRt.purge h P).1.pt ((exRt.purge h P).1.seg 0).i =
      (exRt.purge h P).1.pt ((exRt.purge h P).1.seg 0).j ∧
    ((exRt.purge h P).1.seg 0).i ≠ ((exRt.purge h P).1.seg 0).j :=
  ⟨⟨fun _ => ⟨1, 1⟩, fun _ => ⟨0, 1, .line⟩, 2, 1⟩, ⟨[0], false⟩, by unfold Rt.Sep; decide +kernel⟩

/-! ### C46 -/

/-- C46: `move` of a purged polyline writes every endpoint exactly once and nothing else
(any arithmetic). -/
theorem C46_move_once {R : Rt K} (hR : R.IsRounding) (h : Heap K) (P : PLine) (hp : P.purged = true)
    (hap : Apart R.tol (locs h P.segs)) (hs : SharesPoints h P.segs) (a b : K) :
    (R.plMove h P a b).2 = P ∧ (R.plMove h P a b).1.seg = h.seg ∧
    (∀ p, EndOf h P.segs p → (R.plMove h P a b).1.pt p = R.ptAdd (h.pt p) ⟨a, b⟩) ∧
    ∀ p, ¬ EndOf h P.segs p → (R.plMove h P a b).1.pt p = h.pt p := by
  have hpu : R.purge h P = (h, P) := by unfold Rt.purge; rw [hp]; rfl
  obtain ⟨n1, n2⟩ := Heap.Shared.pointRefs hR (sep_of_locs hR hap).hashOK ((sharesPoints_iff _ _).1 hs)
  obtain ⟨f1, f2, f3, f4⟩ := foldl_setPt (fun q => R.ptAdd q ⟨a, b⟩) (R.pointRefs h P.segs) h n1
  have he : R.plMove h P a b =
      ((R.pointRefs h P.segs).foldl (fun h p => h.setPt p (R.ptAdd (h.pt p) ⟨a, b⟩)) h, P) := by
    unfold Rt.plMove; rw [hpu]; rfl
  rw [he]
  refine ⟨rfl, f1, ?_, ?_⟩
  · intro p hp; rw [f4, if_pos ((n2 p).2 (Heap.mem_ends.2 hp))]
  · intro p hp; rw [f4, if_neg (fun hc => hp (Heap.mem_ends.1 ((n2 p).1 hc)))]

theorem ptAdd_exact {R : Rt K} (hE : R.IsExact) {p : Pt K} {a b : K} (hp : R.Stored p)
    (ho : R.Stored ⟨a, b⟩) : R.ptAdd p ⟨a, b⟩ = shift p a b := by
  rw [hE.stored_iff] at hp ho
  unfold Rt.ptAdd shift
  rw [hE.add', hE.add', hE.mkPt_grid (hp.1.add ho.1) (hp.2.add ho.2)]

/-- C46, exact arithmetic and 8-decimal numbers: `move` of a purged polyline is the translation. -/
theorem C46_move_exact {R : Rt K} (hE : R.IsExact) (h : Heap K) (P : PLine) (hp : P.purged = true)
    (hap : Apart R.tol (locs h P.segs)) (hs : SharesPoints h P.segs) (a b : K)
    (hst : ∀ p ∈ locs h P.segs, R.Stored p) (ho : R.Stored ⟨a, b⟩) :
    ∀ s ∈ P.segs, (R.plMove h P a b).1.val s =
      ⟨shift (h.val s).i a b, shift (h.val s).j a b, (h.val s).cls⟩ := by
  intro s hsm
  obtain ⟨-, h1, h2, -⟩ := C46_move_once hE.isRounding h P hp hap hs a b
  unfold Heap.val
  have e1 := ptAdd_exact hE (hst (h.val s).i ⟨s, hsm, Or.inl rfl⟩) ho
  have e2 := ptAdd_exact hE (hst (h.val s).j ⟨s, hsm, Or.inr rfl⟩) ho
  rw [h1, h2 _ ⟨s, hsm, Or.inl rfl⟩, h2 _ ⟨s, hsm, Or.inr rfl⟩]
  exact congrArg₂ (fun u v => (⟨u, v, _⟩ : Seg K)) e1 e2

/-- C46, exact arithmetic: moving there and back restores memory. -/
theorem C46_move_back {R : Rt K} (hE : R.IsExact) (h : Heap K) (P : PLine) (hp : P.purged = true)
    (hap : Apart R.tol (locs h P.segs)) (hs : SharesPoints h P.segs) (a b : K)
    (hst : ∀ p ∈ locs h P.segs, R.Stored p) (ho : R.Stored ⟨a, b⟩) :
    (R.plMove (R.plMove h P a b).1 (R.plMove h P a b).2 (-a) (-b)).1.pt = h.pt ∧
    (R.plMove (R.plMove h P a b).1 (R.plMove h P a b).2 (-a) (-b)).1.seg = h.seg := by
  obtain ⟨h0, h1, h2, h3⟩ := C46_move_once hE.isRounding h P hp hap hs a b
  have hv := C46_move_exact hE h P hp hap hs a b hst ho
  have hend : ∀ p, EndOf (R.plMove h P a b).1 P.segs p ↔ EndOf h P.segs p := by
    intro p; unfold EndOf; rw [h1]
  have hpt : ∀ p, EndOf h P.segs p → (R.plMove h P a b).1.pt p = shift (h.pt p) a b := by
    intro p hp
    rw [h2 p hp]
    apply ptAdd_exact hE _ ho
    obtain ⟨s, hs, rfl | rfl⟩ := hp
    · exact hst _ ⟨s, hs, Or.inl rfl⟩
    · exact hst _ ⟨s, hs, Or.inr rfl⟩
  have hloc : ∀ q ∈ locs (R.plMove h P a b).1 P.segs, ∃ p ∈ locs h P.segs, q = shift p a b := by
    rintro q ⟨s, hs, hq⟩
    rw [hv s hs] at hq
    rcases hq with rfl | rfl
    · exact ⟨_, ⟨s, hs, Or.inl rfl⟩, rfl⟩
    · exact ⟨_, ⟨s, hs, Or.inr rfl⟩, rfl⟩
  have hap' : Apart R.tol (locs (R.plMove h P a b).1 P.segs) := by
    intro p hp q hq hne
    obtain ⟨p', hp', rfl⟩ := hloc p hp
    obtain ⟨q', hq', rfl⟩ := hloc q hq
    have := hap p' hp' q' hq' (fun e => hne (by rw [e]))
    simpa [shift] using this
  have hs' : SharesPoints (R.plMove h P a b).1 P.segs := by
    intro p q hp hq e
    rw [hend] at hp hq
    rw [hpt p hp, hpt q hq] at e
    apply hs p q hp hq
    unfold shift at e
    injection e with e1 e2
    exact Pt.ext' (add_right_cancel e1) (add_right_cancel e2)
  have ho' : R.Stored ⟨-a, -b⟩ := by
    rw [hE.stored_iff] at ho ⊢
    exact ⟨ho.1.neg, ho.2.neg⟩
  rw [h0]
  obtain ⟨-, k1, k2, k3⟩ := C46_move_once hE.isRounding (R.plMove h P a b).1 P hp hap' hs' (-a) (-b)
  refine ⟨?_, k1.trans h1⟩
  funext p
  by_cases he : EndOf h P.segs p
  · rw [k2 p ((hend p).2 he), hpt p he]
    have hstp : R.Stored (shift (h.pt p) a b) := by
      have : R.Stored (h.pt p) := by
        obtain ⟨s, hs, rfl | rfl⟩ := he
        · exact hst _ ⟨s, hs, Or.inl rfl⟩
        · exact hst _ ⟨s, hs, Or.inr rfl⟩
      rw [hE.stored_iff] at this ho ⊢
      exact ⟨this.1.add ho.1, this.2.add ho.2⟩
    rw [ptAdd_exact hE hstp ho']
    apply Pt.ext' <;> simp [shift]
  · rw [k3 p (fun hc => he ((hend p).1 hc)), h3 p he]

/-- C46: `move` of a polyline that is not purged yet first merges coincident endpoints, so it is a
translation as well. -/
theorem C46_move_unpurged {R : Rt K} (hE : R.IsExact) (h : Heap K) (P : PLine) (hp : P.purged = false)
    (hap : Apart R.tol (locs h P.segs)) (hnull : ∀ s ∈ P.segs, (h.val s).i ≠ (h.val s).j) (a b : K)
    (hst : ∀ p ∈ locs h P.segs, R.Stored p) (ho : R.Stored ⟨a, b⟩) :
    (∀ s ∈ P.segs, (R.plMove h P a b).1.val s =
      ⟨shift (h.val s).i a b, shift (h.val s).j a b, (h.val s).cls⟩) ∧
    ∀ p, ¬ EndOf h P.segs p → (R.plMove h P a b).1.pt p = h.pt p := by
  have hR := hE.isRounding
  obtain ⟨c1, c2, c3, c4, c5, c6, c7, c8⟩ := C45_purge hR h P hp hap hnull
  have hlocs : locs (R.purge h P).1 P.segs = locs h P.segs := by
    unfold locs; simp only [c6]
  have hm : R.plMove h P a b = R.plMove (R.purge h P).1 ⟨P.segs, true⟩ a b := by
    conv_lhs => unfold Rt.plMove
    conv_rhs => unfold Rt.plMove
    have : R.purge (R.purge h P).1 ⟨P.segs, true⟩ = R.purge h P := C45_again hR h P hp hap hnull true
    rw [this]
  rw [hm]
  constructor
  · intro s hs
    rw [C46_move_exact hE (R.purge h P).1 ⟨P.segs, true⟩ rfl (by rw [hlocs]; exact hap) c1 a b
      (by rw [hlocs]; exact hst) ho s hs, c6]
  · intro p hp
    rw [(C46_move_once hR (R.purge h P).1 ⟨P.segs, true⟩ rfl (by rw [hlocs]; exact hap) c1 a b).2.2.2 p
      (fun hc => hp (c8 p hc)), c3]

/-- a purged triangle moved by (1, -2) in binary64 -/
example : exRt.Stored ⟨1, -2⟩ ∧ (∀ p ∈ endPts (exTriangle.vals [0, 1, 2]), exRt.Stored p) ∧
    (exRt.plMove exTriangle ⟨[0, 1, 2], false⟩ 1 (-2)).1.vals [0, 1, 2] =
    [⟨⟨2, -1⟩, ⟨6, -1⟩, .line⟩, ⟨⟨6, -1⟩, ⟨3, 2⟩, .line⟩, ⟨⟨3, 2⟩, ⟨2, -1⟩, .line⟩] := by decide +kernel

/-- the hypotheses of the exact theorems are met by a segment between (0,0) and (3,1) over the reals -/
example : ∃ (h : Heap ℝ) (P : PLine), P.purged = true ∧ Apart exReal.tol (locs h P.segs) ∧
    SharesPoints h P.segs ∧ (∀ p ∈ locs h P.segs, exReal.Stored p) ∧ exReal.Stored ⟨1, 2⟩ ∧
    EndOf h P.segs 1 := by
  refine ⟨⟨fun n => if n = 0 then ⟨0, 0⟩ else ⟨3, 1⟩, fun _ => ⟨0, 1, .line⟩, 2, 1⟩, ⟨[0], true⟩, rfl,
    ?_, ?_, ?_, ?_, ?_⟩
  · intro p hp q hq hne
    have ht : exReal.tol ≤ 1 := by rw [exReal_isExact.tol']; norm_num
    simp only [locs, Heap.val, Set.mem_ofPred_eq, List.mem_singleton, exists_eq_left, if_true,
      one_ne_zero, if_false] at hp hq
    rcases hp with rfl | rfl <;> rcases hq with rfl | rfl
    · exact absurd rfl hne
    · left; norm_num; linarith
    · left; norm_num; linarith
    · exact absurd rfl hne
  · intro a b ha hb e
    simp only [EndOf, List.mem_singleton, exists_eq_left] at ha hb
    rcases ha with rfl | rfl <;> rcases hb with rfl | rfl <;> simp_all [Pt.mk.injEq]
  · intro p hp
    rw [exReal_isExact.stored_iff]
    simp only [locs, Heap.val, Set.mem_ofPred_eq, List.mem_singleton, exists_eq_left, if_true,
      one_ne_zero, if_false] at hp
    rcases hp with rfl | rfl
    · exact ⟨by simpa using grid_intCast 0, by simpa using grid_intCast 0⟩
    · exact ⟨by simpa using grid_intCast 3, by simpa using grid_intCast 1⟩
  · rw [exReal_isExact.stored_iff]
    exact ⟨by simpa using grid_intCast 1, by simpa using grid_intCast 2⟩
  · exact ⟨0, by simp, Or.inr rfl⟩

/-! ### C47 -/

/-- What `move` does to two coincident Point objects when the flag says "purged". -/
theorem stale_move {R : Rt K} (hR : R.IsRounding) (h : Heap K) (P : PLine) (hp : P.purged = true)
    (hh : R.HashOK (endPts (h.vals P.segs))) (a q : ℕ) (hq : EndOf h P.segs q)
    (hloc : h.pt q = h.pt a)
    (honly : ∀ c, EndOf h P.segs c → h.pt c = h.pt a → c = a ∨ c = q) (haq : a ≠ q) (x y : K) :
    ((R.plMove h P x y).1.pt a = R.ptAdd (h.pt a) ⟨x, y⟩ ∧ (R.plMove h P x y).1.pt q = h.pt q) ∨
    ((R.plMove h P x y).1.pt a = h.pt a ∧ (R.plMove h P x y).1.pt q = R.ptAdd (h.pt q) ⟨x, y⟩) := by
  have hpu : R.purge h P = (h, P) := by unfold Rt.purge; rw [hp]; rfl
  obtain ⟨n1, n2, n3⟩ := Heap.pointRefs_spec hR hh
  obtain ⟨-, -, -, f4⟩ := foldl_setPt (fun q => R.ptAdd q ⟨x, y⟩) (R.pointRefs h P.segs) h
    (List.Nodup.of_map _ n1)
  have he : (R.plMove h P x y).1 =
      (R.pointRefs h P.segs).foldl (fun h p => h.setPt p (R.ptAdd (h.pt p) ⟨x, y⟩)) h := by
    unfold Rt.plMove; rw [hpu]; rfl
  rw [he, f4, f4]
  have hnot : ¬ (a ∈ R.pointRefs h P.segs ∧ q ∈ R.pointRefs h P.segs) := fun hc =>
    haq (List.inj_on_of_nodup_map n1 hc.1 hc.2 hloc.symm)
  obtain ⟨c, hc, hce⟩ := n3 q (Heap.mem_ends.2 hq)
  rcases honly c (Heap.mem_ends.1 (n2 c hc)) (hce.trans hloc) with rfl | rfl
  · left
    rw [if_pos hc, if_neg (fun hq => hnot ⟨hc, hq⟩)]; exact ⟨rfl, rfl⟩
  · right
    rw [if_pos hc, if_neg (fun ha => hnot ⟨ha, hc⟩)]; exact ⟨rfl, rfl⟩

/-- C47: appending, at the end of a purged polyline, a new Point object `q` at the location of the existing
endpoint `a`: the flag stays set, and the next `move` moves exactly one of the two coincident Points. -/
theorem C47_append_end {R : Rt K} (hR : R.IsRounding) (h : Heap K) (P : PLine) (hp : P.purged = true)
    (hs : SharesPoints h P.segs) (hh : R.HashOK (endPts (h.vals P.segs)))
    (hfresh : ∀ s ∈ P.segs, s < h.nseg) (a q : ℕ) (ha : EndOf h P.segs a) (hq : ¬ EndOf h P.segs q)
    (hloc : h.pt q = h.pt a) :
    ∃ h' P', Rt.appendEnd h P q = .ok (h', P') ∧ P'.purged = true ∧ EndOf h' P'.segs a ∧ EndOf h' P'.segs q ∧
      h'.pt q = h'.pt a ∧ ∀ x y,
      ((R.plMove h' P' x y).1.pt a = R.ptAdd (h.pt a) ⟨x, y⟩ ∧ (R.plMove h' P' x y).1.pt q = h.pt q) ∨
      ((R.plMove h' P' x y).1.pt a = h.pt a ∧ (R.plMove h' P' x y).1.pt q = R.ptAdd (h.pt q) ⟨x, y⟩) := by
  obtain ⟨s0, hs0, has0⟩ := ha
  have hne : P.segs ≠ [] := by rintro e; rw [e] at hs0; simp at hs0
  obtain ⟨l, hl⟩ : ∃ l, P.segs.getLast? = some l := ⟨_, List.getLast?_eq_some_getLast hne⟩
  have hlm : l ∈ P.segs := List.mem_of_getLast? hl
  set h' := (h.newSeg (h.seg l).j q).1 with hh'
  have old : ∀ s ∈ P.segs, h'.seg s = h.seg s := by
    intro s hs; simp [hh', Heap.newSeg, Function.update_apply, (hfresh s hs).ne]
  have new : h'.seg h.nseg = ⟨(h.seg l).j, q, .line⟩ := by simp [hh', Heap.newSeg]
  have hends : ∀ c, EndOf h' (P.segs ++ [h.nseg]) c ↔ EndOf h P.segs c ∨ c = q := by
    intro c
    constructor
    · rintro ⟨s, hs, hc⟩
      rcases List.mem_append.1 hs with h1 | h1
      · rw [old s h1] at hc; exact Or.inl ⟨s, h1, hc⟩
      · rw [List.mem_singleton] at h1
        rw [h1, new] at hc
        rcases hc with rfl | rfl
        · exact Or.inl ⟨l, hlm, Or.inr rfl⟩
        · exact Or.inr rfl
    · rintro (⟨s, hs, hc⟩ | rfl)
      · exact ⟨s, List.mem_append_left _ hs, by rw [old s hs]; exact hc⟩
      · exact ⟨h.nseg, by simp, by rw [new]; exact Or.inr rfl⟩
  have hvals : ∀ p ∈ endPts (h'.vals (P.segs ++ [h.nseg])), p ∈ endPts (h.vals P.segs) := by
    intro p hp
    rw [← Heap.map_ends] at hp ⊢
    obtain ⟨c, hc, rfl⟩ := List.mem_map.1 hp
    rcases (hends c).1 (Heap.mem_ends.1 hc) with h1 | rfl
    · exact List.mem_map.2 ⟨c, Heap.mem_ends.2 h1, rfl⟩
    · exact List.mem_map.2 ⟨a, Heap.mem_ends.2 ⟨s0, hs0, has0⟩, hloc.symm⟩
  refine ⟨h', ⟨P.segs ++ [h.nseg], P.purged⟩, ?_, hp, (hends a).2 (Or.inl ⟨s0, hs0, has0⟩),
    (hends q).2 (Or.inr rfl), hloc, ?_⟩
  · unfold Rt.appendEnd; rw [hl]; rfl
  · intro x y
    exact stale_move hR h' ⟨P.segs ++ [h.nseg], P.purged⟩ hp (hh.mono hvals) a q ((hends q).2 (Or.inr rfl))
      hloc (by
        intro c hc e
        rcases (hends c).1 hc with h1 | rfl
        · exact Or.inl (hs c a h1 ⟨s0, hs0, has0⟩ e)
        · exact Or.inr rfl) (by rintro rfl; exact hq ⟨s0, hs0, has0⟩) x y

/-- C47: the same when the Point is appended at the beginning. -/
theorem C47_append_beginning {R : Rt K} (hR : R.IsRounding) (h : Heap K) (P : PLine) (hp : P.purged = true)
    (hs : SharesPoints h P.segs) (hh : R.HashOK (endPts (h.vals P.segs)))
    (hfresh : ∀ s ∈ P.segs, s < h.nseg) (a q : ℕ) (ha : EndOf h P.segs a) (hq : ¬ EndOf h P.segs q)
    (hloc : h.pt q = h.pt a) :
    ∃ h' P', Rt.appendBegin h P q = .ok (h', P') ∧ P'.purged = true ∧ EndOf h' P'.segs a ∧
      EndOf h' P'.segs q ∧ h'.pt q = h'.pt a ∧ ∀ x y,
      ((R.plMove h' P' x y).1.pt a = R.ptAdd (h.pt a) ⟨x, y⟩ ∧ (R.plMove h' P' x y).1.pt q = h.pt q) ∨
      ((R.plMove h' P' x y).1.pt a = h.pt a ∧ (R.plMove h' P' x y).1.pt q = R.ptAdd (h.pt q) ⟨x, y⟩) := by
  obtain ⟨s0, hs0, has0⟩ := ha
  obtain ⟨l, hl⟩ : ∃ l, P.segs.head? = some l := by
    cases hc : P.segs with
    | nil => rw [hc] at hs0; simp at hs0
    | cons b t => exact ⟨b, rfl⟩
  have hlm : l ∈ P.segs := List.mem_of_head? hl
  set h' := (h.newSeg q (h.seg l).i).1 with hh'
  have old : ∀ s ∈ P.segs, h'.seg s = h.seg s := by
    intro s hs; simp [hh', Heap.newSeg, Function.update_apply, (hfresh s hs).ne]
  have new : h'.seg h.nseg = ⟨q, (h.seg l).i, .line⟩ := by simp [hh', Heap.newSeg]
  have hends : ∀ c, EndOf h' (h.nseg :: P.segs) c ↔ EndOf h P.segs c ∨ c = q := by
    intro c
    constructor
    · rintro ⟨s, hs, hc⟩
      rcases List.mem_cons.1 hs with h1 | h1
      · rw [h1, new] at hc
        rcases hc with rfl | rfl
        · exact Or.inr rfl
        · exact Or.inl ⟨l, hlm, Or.inl rfl⟩
      · rw [old s h1] at hc; exact Or.inl ⟨s, h1, hc⟩
    · rintro (⟨s, hs, hc⟩ | rfl)
      · exact ⟨s, List.mem_cons_of_mem _ hs, by rw [old s hs]; exact hc⟩
      · exact ⟨h.nseg, by simp, by rw [new]; exact Or.inl rfl⟩
  have hvals : ∀ p ∈ endPts (h'.vals (h.nseg :: P.segs)), p ∈ endPts (h.vals P.segs) := by
    intro p hp
    rw [← Heap.map_ends] at hp ⊢
    obtain ⟨c, hc, rfl⟩ := List.mem_map.1 hp
    rcases (hends c).1 (Heap.mem_ends.1 hc) with h1 | rfl
    · exact List.mem_map.2 ⟨c, Heap.mem_ends.2 h1, rfl⟩
    · exact List.mem_map.2 ⟨a, Heap.mem_ends.2 ⟨s0, hs0, has0⟩, hloc.symm⟩
  refine ⟨h', ⟨h.nseg :: P.segs, P.purged⟩, ?_, hp, (hends a).2 (Or.inl ⟨s0, hs0, has0⟩),
    (hends q).2 (Or.inr rfl), hloc, ?_⟩
  · unfold Rt.appendBegin; rw [hl]; rfl
  · intro x y
    exact stale_move hR h' ⟨h.nseg :: P.segs, P.purged⟩ hp (hh.mono hvals) a q ((hends q).2 (Or.inr rfl))
      hloc (by
        intro c hc e
        rcases (hends c).1 hc with h1 | rfl
        · exact Or.inl (hs c a h1 ⟨s0, hs0, has0⟩ e)
        · exact Or.inr rfl) (by rintro rfl; exact hq ⟨s0, hs0, has0⟩) x y

/-- memory with the path (1,1) → (5,1) → (2,4) on three shared Points, and a fourth Point at (1,1) -/
def exPath : Heap ℚ :=
  ⟨fun n => if n = 0 ∨ n = 3 then ⟨1, 1⟩ else if n = 1 then ⟨5, 1⟩ else ⟨2, 4⟩,
   fun s => if s = 0 then ⟨0, 1, .line⟩ else ⟨1, 2, .line⟩, 4, 2⟩

/-- C47 in full: purge, append the coincident Point at the end (the polygon is closed now), move by (1, 0):
the polygon is open. -/
theorem C47_torn :
    (exRt.purge exPath ⟨[0, 1], false⟩).2.purged = true ∧
    (match Rt.appendEnd (exRt.purge exPath ⟨[0, 1], false⟩).1 (exRt.purge exPath ⟨[0, 1], false⟩).2 3 with
     | .ok (h', P') =>
       (exRt.isClosed (h'.vals P'.segs), exRt.isClosed ((exRt.plMove h' P' 1 0).1.vals P'.segs))
     | .error e => (.error e, .error e)) = (.ok true, .ok false) := by
  decide +kernel

end Srep
