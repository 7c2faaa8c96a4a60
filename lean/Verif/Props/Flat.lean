import Verif.Model.Flat
import Verif.Lemmas.HeadPiece
import Verif.Lemmas.PurgeB
import Verif.Props.Triangle
import Verif.Props.RaumVessel
import Verif.Props.Split

/-!
# C104: flat heads and ends of rooms
-/

namespace Srep

open Rt

section
variable {K : Type} [Field K] [LinearOrder K] [IsStrictOrderedRing K] [FloorRing K] {R : Rt K}

/-! ### the wall -/

theorem plate_vals (hE : R.IsExact) (h : Heap K) (m : PlateDim K) (hd : 2 / 10 ^ 5 ≤ m.d) :
    (R.plateNew h m).1.vals (R.plateNew h m).2.line.segs =
        [⟨⟨rhe8 (rhe8 (-m.d / 2) + m.posH), rhe8 m.posV⟩, ⟨rhe8 (rhe8 (m.d / 2) + m.posH), rhe8 m.posV⟩, .wall⟩] ∧
      (R.plateNew h m).2.line = ⟨[h.nseg], true⟩ ∧ (R.plateNew h m).2.graph = [h.nseg] ∧
      (∀ p < h.npt, (R.plateNew h m).1.pt p = h.pt p) ∧ ∀ s < h.nseg, (R.plateNew h m).1.seg s = h.seg s := by
  have hn : R.mkPt (R.div (-m.d) 2) 0 = ⟨rhe8 (-m.d / 2), 0⟩ := by rw [hE.mkPt', hE.div', grid_zero.rhe8]
  have hp : R.mkPt (R.div m.d 2) 0 = ⟨rhe8 (m.d / 2), 0⟩ := by rw [hE.mkPt', hE.div', grid_zero.rhe8]
  have e1 := abs_rhe8_sub_le (-m.d / 2)
  have e2 := abs_rhe8_sub_le (m.d / 2)
  have hlt : (1 : K) / 10 ^ 5 ≤ |rhe8 (-m.d / 2) - rhe8 (m.d / 2)| := by
    rw [abs_sub_comm]
    refine le_trans ?_ (le_abs_self _)
    have := abs_le.1 e1
    have := abs_le.1 e2
    norm_num at *
    linarith
  have hs : GridSpread 1 (fun k => if k = 0 then (⟨rhe8 (-m.d / 2), 0⟩ : Pt K) else ⟨rhe8 (m.d / 2), 0⟩) := by
    refine ⟨?_, ?_⟩
    · intro j k hj hk hjk
      left
      interval_cases j <;> interval_cases k <;> simp at hjk ⊢
      · simpa using hlt
      · rw [abs_sub_comm]; simpa using hlt
    · intro k hk
      interval_cases k <;> exact ⟨rhe8_isGrid _, grid_zero⟩
  have hne : (⟨rhe8 (-m.d / 2), 0⟩ : Pt K) ≠ ⟨rhe8 (m.d / 2), 0⟩ := by
    have := hs.ne (j := 0) (k := 1) (by simp) (by simp) (by simp)
    simpa using this
  obtain ⟨x1, x2, x3, x4, x5, x6⟩ := newLine_piece h ⟨rhe8 (-m.d / 2), 0⟩ ⟨rhe8 (m.d / 2), 0⟩ .wall hne
  unfold Rt.plateNew
  rw [hn, hp]
  generalize h.newLine ⟨rhe8 (-m.d / 2), 0⟩ ⟨rhe8 (m.d / 2), 0⟩ .wall = a1 at *
  obtain ⟨g, s⟩ := a1
  dsimp only at *
  subst x6
  obtain ⟨y1, y2, y3⟩ := x1.segMove hE hs m.posH m.posV
  generalize R.segMove g h.nseg m.posH m.posV = g2 at *
  have hval := y1.val 0 (by simp)
  simp only [add_zero, zero_add, if_true, one_ne_zero, if_false] at hval
  have hm0 := hs.moved_ne m.posH m.posV (j := 0) (k := 1) (by simp) (by simp) (by simp)
  simp only [if_true, one_ne_zero, if_false] at hm0
  have hsep : R.Sep (endPts (g2.vals [h.nseg])) := by
    have f1 := abs_le.1 e1
    have f2 := abs_le.1 e2
    have f3 := abs_le.1 (abs_rhe8_sub_le (rhe8 (-m.d / 2) + m.posH))
    have f4 := abs_le.1 (abs_rhe8_sub_le (rhe8 (m.d / 2) + m.posH))
    have hfar : rhe8 (rhe8 (-m.d / 2) + m.posH) + 1 / 10 ^ 5 ≤ rhe8 (rhe8 (m.d / 2) + m.posH) := by
      norm_num at *
      linarith
    simp only [Heap.vals, List.map_cons, List.map_nil, hval]
    rintro ⟨x, y⟩ hp ⟨x', y'⟩ hq e
    rw [hE.peq_iff] at e
    simp only [endPts, List.flatMap_cons, List.flatMap_nil, List.append_nil, List.mem_cons, List.not_mem_nil, or_false,
      moved, round8Pt, shift, Pt.mk.injEq] at hp hq
    rcases hp with ⟨rfl, rfl⟩ | ⟨rfl, rfl⟩ <;> rcases hq with ⟨rfl, rfl⟩ | ⟨rfl, rfl⟩ <;> try rfl
    · exact absurd (abs_lt.1 e.1).1 (by dsimp only; linarith)
    · exact absurd (abs_lt.1 e.1).2 (by dsimp only; linarith)
  have hpr := purge_spec hE.isRounding (h := g2) (P := ⟨[h.nseg], false⟩) rfl hsep (by
    intro s hs'
    rw [List.mem_singleton] at hs'
    subst hs'
    rw [hval]
    exact hm0)
  generalize R.purge g2 ⟨[h.nseg], false⟩ = q at *
  obtain ⟨q1, q2⟩ := q
  obtain ⟨z1, z2, z3, z4, z5, z6, -, -⟩ := hpr
  dsimp only at *
  subst z1
  refine ⟨?_, rfl, ?_, ?_, ?_⟩
  · simp only [Heap.vals, List.map_cons, List.map_nil, z5, hval]
    simp [moved, round8Pt, shift]
  · have hw : (q1.val h.nseg).cls = .wall := by rw [z5, hval]
    simpa [Heap.walls, Heap.val] using hw
  · intro p hp'
    rw [z2, y2 p (by omega), x4 p hp']
  · intro s hs'
    rw [z6 s (by simp; omega), y3, x5 s hs']

/-- C104: a flat head (or the end of a room) is one new horizontal Wall at the given level, centred on the given axis, with
an error of at most 1e-8; the graph is the same Wall, the line is purged and no older object is changed. -/
theorem C104_plate (hE : R.IsExact) (h : Heap K) (m : PlateDim K) (hd : 2 / 10 ^ 5 ≤ m.d) :
    ∃ a b : K, |a - (m.posH - m.d / 2)| ≤ 1 / 10 ^ 8 ∧ |b - (m.posH + m.d / 2)| ≤ 1 / 10 ^ 8 ∧ Grid a ∧ Grid b ∧
      (R.plateNew h m).1.vals (R.plateNew h m).2.line.segs = [⟨⟨a, rhe8 m.posV⟩, ⟨b, rhe8 m.posV⟩, .wall⟩] ∧
      (R.plateNew h m).2.line = ⟨[h.nseg], true⟩ ∧ (R.plateNew h m).2.graph = [h.nseg] ∧
      (∀ p < h.npt, (R.plateNew h m).1.pt p = h.pt p) ∧ ∀ s < h.nseg, (R.plateNew h m).1.seg s = h.seg s := by
  obtain ⟨h1, h2, h3, h4, h5⟩ := plate_vals hE h m hd
  refine ⟨_, _, ?_, ?_, rhe8_isGrid _, rhe8_isGrid _, h1, h2, h3, h4, h5⟩
  · have e1 := abs_le.1 (abs_rhe8_sub_le (-m.d / 2))
    have e2 := abs_le.1 (abs_rhe8_sub_le (rhe8 (-m.d / 2) + m.posH))
    rw [abs_le]
    norm_num at e1 e2 ⊢
    constructor <;> linarith
  · have e1 := abs_le.1 (abs_rhe8_sub_le (m.d / 2))
    have e2 := abs_le.1 (abs_rhe8_sub_le (rhe8 (m.d / 2) + m.posH))
    rw [abs_le]
    norm_num at e1 e2 ⊢
    constructor <;> linarith

/-- C104: with dimensions on the coordinate grid the wall is where it should be, exactly. -/
theorem C104_wall (hE : R.IsExact) (h : Heap K) (m : PlateDim K) (hd : 2 / 10 ^ 5 ≤ m.d) (g1 : Grid (m.d / 2)) (g2 : Grid m.posH)
    (g3 : Grid m.posV) : (R.plateNew h m).1.vals (R.plateNew h m).2.graph = [level (m.posH - m.d / 2) (m.posH + m.d / 2) m.posV .wall] := by
  obtain ⟨h1, h2, h3, -, -⟩ := plate_vals hE h m hd
  have hg : (R.plateNew h m).2.graph = (R.plateNew h m).2.line.segs := by rw [h2, h3]
  rw [hg, h1, neg_div, g1.rhe8, g1.neg'.rhe8, g3.rhe8, (g1.neg'.add g2).rhe8, (g1.add g2).rhe8]
  unfold level
  rw [neg_add_eq_sub, add_comm (m.d / 2)]

/-- C104: a flat head is always valid, whatever the dimensions; its size is half the diameter. -/
theorem C104_valid (hE : R.IsExact) (h : Heap K) (m : PlateDim K) :
    Rt.plateValid (R.plateNew h m).2.line = .ok true ∧ R.plateSize m = m.d / 2 := by
  refine ⟨?_, hE.div' _ _⟩
  have hp : ∀ (g : Heap K) (s : ℕ), (R.purge g ⟨[s], false⟩).2.segs = [s] := by
    intro g s
    unfold Rt.purge
    simp only [Bool.false_eq_true, if_false]
    split_ifs <;> rfl
  unfold Rt.plateNew Rt.plateValid
  dsimp only
  rw [hp]

/-- C104: a point is internal to a flat head iff it is on the level of the wall, with a tolerance of 1e-8, and at least 1e-5
away from both ends. -/
theorem C104_internal (hE : R.IsExact) (a b v : K) (hab : a + 1 / 10 ^ 5 ≤ b) (c : SegCls) (p : Pt K) :
    R.plateInternal [⟨⟨a, v⟩, ⟨b, v⟩, c⟩] p = .ok (decide (|p.y - v| ≤ 1 / 10 ^ 8 ∧ a + 1 / 10 ^ 5 ≤ p.x ∧ p.x ≤ b - 1 / 10 ^ 5)) := by
  set l : List (Seg K) := [⟨⟨a, v⟩, ⟨b, v⟩, c⟩] with hl
  have hsep : R.Sep (endPts l) := by
    rintro ⟨x, y⟩ hp ⟨x', y'⟩ hq e
    rw [hE.peq_iff] at e
    simp only [hl, endPts, List.flatMap_cons, List.flatMap_nil, List.append_nil, List.mem_cons, List.not_mem_nil, or_false,
      Pt.mk.injEq] at hp hq
    rcases hp with ⟨rfl, rfl⟩ | ⟨rfl, rfl⟩ <;> rcases hq with ⟨rfl, rfl⟩ | ⟨rfl, rfl⟩ <;> try rfl
    · exact absurd (abs_lt.1 e.1).1 (by dsimp only; linarith)
    · exact absurd (abs_lt.1 e.1).2 (by dsimp only; linarith)
  have hmem : ∀ q, q ∈ R.pointSet l ↔ q = ⟨a, v⟩ ∨ q = ⟨b, v⟩ := by
    intro q
    rw [mem_pointSet hE.isRounding hsep.hashOK, ← mem_endPts']
    simp [hl, endPts]
  have hend : (R.pointSet l).any (fun q => R.peq q p) = true ↔ R.peq ⟨a, v⟩ p = true ∨ R.peq ⟨b, v⟩ p = true := by
    rw [List.any_eq_true]
    constructor
    · rintro ⟨q, hq, h⟩
      rcases (hmem q).1 hq with rfl | rfl
      · exact Or.inl h
      · exact Or.inr h
    · rintro (h | h)
      · exact ⟨_, (hmem _).2 (Or.inl rfl), h⟩
      · exact ⟨_, (hmem _).2 (Or.inr rfl), h⟩
  have hlt : (1 : K) / 10 ^ 8 < 1 / 10 ^ 5 := by norm_num
  have hpos : (0 : K) < 1 / 10 ^ 8 := by norm_num
  unfold Rt.plateInternal
  split_ifs with hc
  · rw [hend, hE.peq_iff, hE.peq_iff] at hc
    congr 1
    symm
    rw [decide_eq_false_iff_not]
    rintro ⟨h1, h2, h3⟩
    rcases hc with ⟨hc, -⟩ | ⟨hc, -⟩ <;> rw [abs_lt] at hc <;> dsimp only at hc <;> linarith [hc.1, hc.2]
  · rw [hend, hE.peq_iff, hE.peq_iff] at hc
    push Not at hc
    rw [hl]
    dsimp only
    congr 1
    rw [Bool.eq_iff_iff, hE.isInternal_iff, decide_eq_true_eq]
    dsimp only
    rw [min_eq_left (by linarith), max_eq_right (by linarith), min_self, max_self]
    constructor
    · rintro ⟨h1, h2, h3, h4⟩
      have hy : |v - p.y| ≤ 1 / 10 ^ 8 := abs_le.2 ⟨by linarith, by linarith⟩
      have c1 := hc.1
      have c2 := hc.2
      dsimp only at c1 c2
      have c1' : 1 / 10 ^ 5 ≤ |a - p.x| := by
        by_contra hcon
        exact absurd (c1 (not_le.1 hcon)) (not_le.2 (lt_of_le_of_lt hy hlt))
      have c2' : 1 / 10 ^ 5 ≤ |b - p.x| := by
        by_contra hcon
        exact absurd (c2 (not_le.1 hcon)) (not_le.2 (lt_of_le_of_lt hy hlt))
      rw [abs_sub_comm] at hy
      refine ⟨hy, ?_, ?_⟩
      · rcases le_abs.1 c1' with h | h <;> linarith
      · rcases le_abs.1 c2' with h | h <;> linarith
    · rintro ⟨h1, h2, h3⟩
      rw [abs_le] at h1
      exact ⟨by linarith, by linarith, by linarith, by linarith⟩

/-- C104: the reference points of a flat head lie above and below its centre, at 0.01 times the diameter, and are not
internal to it. -/
theorem C104_points (hE : R.IsExact) (m : PlateDim K) (hd : 1 / 10 ^ 5 ≤ m.d) :
    ∃ p q : Pt K, R.plateIntex m = [p, q] ∧ p.x = rhe8 m.posH ∧ q.x = rhe8 m.posH ∧
      |p.y - (m.posV + m.d / 100)| ≤ 1 / (2 * 10 ^ 8) ∧ |q.y - (m.posV - m.d / 100)| ≤ 1 / (2 * 10 ^ 8) ∧
      ∀ a b : K, a + 1 / 10 ^ 5 ≤ b → ∀ c, R.plateInternal [⟨⟨a, rhe8 m.posV⟩, ⟨b, rhe8 m.posV⟩, c⟩] p = .ok false ∧
        R.plateInternal [⟨⟨a, rhe8 m.posV⟩, ⟨b, rhe8 m.posV⟩, c⟩] q = .ok false := by
  have e1 := abs_rhe8_sub_le (1 / 100 * m.d + m.posV)
  have e2 := abs_rhe8_sub_le (-(1 / 100) * m.d + m.posV)
  have e3 := abs_le.1 (abs_rhe8_sub_le m.posV)
  refine ⟨⟨rhe8 m.posH, rhe8 (1 / 100 * m.d + m.posV)⟩, ⟨rhe8 m.posH, rhe8 (-(1 / 100) * m.d + m.posV)⟩, ?_, rfl, rfl, ?_, ?_, ?_⟩
  · unfold Rt.plateIntex
    simp only [hE.mkPt', hE.add', hE.mul', hE.fl]
  · refine le_of_eq_of_le ?_ e1
    congr 1; ring
  · refine le_of_eq_of_le ?_ e2
    congr 1; ring
  · intro a b hab c
    rw [C104_internal hE _ _ _ hab, C104_internal hE _ _ _ hab]
    have f1 := (abs_le.1 e1).1
    have f2 := (abs_le.1 e2).2
    constructor <;> congr 1 <;> rw [decide_eq_false_iff_not] <;> rintro ⟨h, -, -⟩ <;> rw [abs_le] at h <;> dsimp only at h <;>
      obtain ⟨h1, h2⟩ := h <;> obtain ⟨e3, e4⟩ := e3 <;> norm_num at e3 e4 f1 f2 h1 h2 hd <;> linarith

/-! ### rooms -/

variable {ν ρ : Type}

/-- a part with 'indifferent' points only: each of them in the polygon `H` or outside, at least one outside -/
structure Divides (H : List (Seg K)) (g : GPart ν K) : Prop where
  internal : g.internal = []
  external : g.external = []
  clear : ∀ x ∈ g.indifferent, InsideCcw H x.1 ∨ OutsideCcw H x.1
  outside : ∃ s ∈ g.segs, ∃ p, (p, s) ∈ g.indifferent ∧ OutsideCcw H p

/-- a part without reference points -/
structure Blank (g : GPart ν K) : Prop where
  internal : g.internal = []
  external : g.external = []
  indifferent : g.indifferent = []

/-- C104: a flat head that is a side of a polygon has a reference point outside, whichever way the side is passed. -/
theorem C104_divides (hE : R.IsExact) (m : PlateDim K) (hd : 1 / 10 ^ 5 ≤ m.d) (g3 : Grid m.posV)
    (H : List (Seg K)) (name : ν) (a b : K) (hab : a < b) (c : SegCls)
    (hs : ∃ s ∈ H, SameEdge (level a b m.posV c) s)
    (hc : ∀ p ∈ R.plateIntex m, InsideCcw H p ∨ OutsideCcw H p) :
    Divides H (R.platePart name [level a b m.posV c] m) := by
  obtain ⟨p, q, e, hpx, hqx, hp, hq, -⟩ := C104_points hE m hd
  rw [e] at hc
  have hd0 : 0 < m.d := lt_of_lt_of_le (by positivity) hd
  have hpv : m.posV < p.y := by
    have := (abs_le.1 hp).1
    norm_num at this hd
    linarith
  have hqv : q.y < m.posV := by
    have := (abs_le.1 hq).2
    norm_num at this hd
    linarith
  unfold Rt.platePart
  rw [e]
  simp only [List.flatMap_cons, List.flatMap_nil, List.append_nil, List.map_cons, List.map_nil]
  refine ⟨rfl, rfl, ?_, level a b m.posV c, by simp, ?_⟩
  · intro x hx
    apply hc
    simp only [List.mem_cons, List.not_mem_nil, or_false] at hx ⊢
    rcases hx with rfl | rfl
    · exact Or.inl rfl
    · exact Or.inr rfl
  · obtain ⟨s, hsH, hse⟩ := hs
    rcases hse with ⟨h1, h2⟩ | ⟨h1, h2⟩
    · refine ⟨q, by simp, s, hsH, ?_⟩
      rw [← h1, ← h2]
      unfold det3 level
      dsimp only
      nlinarith [mul_pos (sub_pos.2 hab) (sub_pos.2 hqv)]
    · refine ⟨p, by simp, s, hsH, ?_⟩
      rw [← h1, ← h2]
      unfold det3 level
      dsimp only
      nlinarith [mul_pos (sub_pos.2 hab) (sub_pos.2 hpv)]

/-- C104: several rooms, each with walls that draw a strictly convex polygon: each room is recorded as inner room of the
parts with internal and external points on their proper sides, as indifferent for the flat heads, and not at all for the
ends of rooms. -/
theorem C104_rooms (hE : R.IsExact) (rooms : List (GRoom ν ρ K)) (H : GRoom ν ρ K → List (Seg K))
    (hH : ∀ r ∈ rooms, ConvexCcw (H r) ∧ 3 ≤ (H r).length ∧ SameDrawing r.polygon (H r))
    (hp : ∀ r ∈ rooms, ∀ g ∈ r.walls, Placed (H r) g ∨ Divides (H r) g ∨ Blank g)
    (ω : ℕ → ℕ → IntexKind → ℕ → ℕ → ℕ → Pt K)
    (hω : ∀ r ∈ rooms, ∀ g ∈ r.walls, ∀ x ∈ g.internal ++ g.external ++ g.indifferent, ∀ i j k n q c,
      GoodTarget r.polygon x.1 (ω i j k n q c) ∧ Spread r.polygon x.1 (ω i j k n q c)) (fuel : ℕ) :
    ∃ T, R.raumIntex rooms (fuel + 1) ω = some T ∧
      ∀ n k r', (n, k, r') ∈ T ↔ ∃ r ∈ rooms, r.name = r' ∧ ∃ g ∈ r.walls, g.name = n ∧
        (Placed (H r) g ∧ k = .innen ∨ Divides (H r) g ∧ k = .indifferent) := by
  classical
  have hno : ∀ L : List (Seg K), ∀ p, OutsideCcw L p → ¬ InsideCcw L p := by
    rintro L p ⟨s, hs, h⟩ hi
    exact absurd (hi s hs) (not_lt.2 h.le)
  have hans : Answers R rooms (fuel + 1) ω fun r p => decide (InsideCcw (H r) p) := by
    intro i r hr j g hg k n s _ q p hq
    have hrm := List.mem_of_getElem? hr
    have hgm := List.mem_of_getElem? hg
    obtain ⟨hconv, h3, hd⟩ := hH r hrm
    have hout : R.removeOutliers r.polygon = r.polygon := C95_closed _ (H r) hd hconv.chain
    obtain ⟨x, hx, -, rfl⟩ := mem_ptsAt.1 (List.mem_of_getElem? hq)
    rw [hout]
    have hall : x ∈ g.internal ++ g.external ++ g.indifferent := by
      cases k
      · exact List.mem_append_left _ (List.mem_append_left _ hx)
      · exact List.mem_append_left _ (List.mem_append_right _ hx)
      · exact List.mem_append_right _ hx
    have ht := fun c => hω r hrm g hgm x hall i j k n q c
    have hio : InsideCcw (H r) x.1 ∨ OutsideCcw (H r) x.1 := by
      rcases hp r hrm g hgm with P | P | P
      · cases k
        · exact Or.inl (P.internal x hx)
        · exact Or.inr (P.external x hx)
        · have hx' : x ∈ g.indifferent := hx
          rw [P.indifferent] at hx'; cases hx'
      · cases k
        · have hx' : x ∈ g.internal := hx
          rw [P.internal] at hx'; cases hx'
        · have hx' : x ∈ g.external := hx
          rw [P.external] at hx'; cases hx'
        · exact P.clear x hx
      · cases k
        · have hx' : x ∈ g.internal := hx
          rw [P.internal] at hx'; cases hx'
        · have hx' : x ∈ g.external := hx
          rw [P.external] at hx'; cases hx'
        · have hx' : x ∈ g.indifferent := hx
          rw [P.indifferent] at hx'; cases hx'
    rcases hio with hi | hi
    · show _ = some (decide (InsideCcw (H r) x.1))
      rw [decide_eq_true hi]
      exact C93_inside hE _ (H r) hd hconv h3 x.1 hi _ (fun c _ => ⟨(ht c).1.draw hd.symm, (ht c).2.draw hd.symm⟩) fuel
    · show _ = some (decide (InsideCcw (H r) x.1))
      rw [decide_eq_false (hno _ _ hi)]
      exact C93_outside hE _ (H r) hd hconv h3 x.1 hi _ (fun c _ => ⟨(ht c).1.draw hd.symm, (ht c).2.draw hd.symm⟩) fuel
  obtain ⟨T, hT, hmem⟩ := C96_recorded rooms (fuel + 1) ω _ hans
  refine ⟨T, hT, fun n k r' => ?_⟩
  rw [hmem]
  have hrec : ∀ r ∈ rooms, ∀ g ∈ r.walls, (Recorded R g (fun p => decide (InsideCcw (H r) p)) k ↔
      (Placed (H r) g ∧ k = .innen ∨ Divides (H r) g ∧ k = .indifferent)) := by
    intro r hr g hg
    rcases hp r hr g hg with P | P | P
    · have hnd : ¬ Divides (H r) g := fun D => P.some D.internal
      cases k with
      | innen =>
        refine ⟨fun _ => Or.inl ⟨P, rfl⟩, fun _ => ⟨P.some, ?_⟩⟩
        obtain ⟨s, hs⟩ := List.exists_mem_of_ne_nil _ P.segs
        exact ⟨s, hs, fun x hx _ => decide_eq_true (P.internal x hx)⟩
      | aussen =>
        refine ⟨?_, by rintro (⟨-, h⟩ | ⟨-, h⟩) <;> cases h⟩
        rintro ⟨-, s, hs, h⟩
        obtain ⟨p, hps⟩ := P.each s hs
        exact absurd (of_decide_eq_true (h (p, s) hps (hE.isRounding.seq_refl s))) (hno _ _ (P.external _ hps))
      | indifferent =>
        refine ⟨?_, ?_⟩
        · rintro ⟨s, -, x, hx, -⟩
          rw [P.indifferent] at hx
          cases hx
        · rintro (⟨-, h⟩ | ⟨h, -⟩)
          · cases h
          · exact absurd h hnd
    · have hnp : ¬ Placed (H r) g := fun Q => Q.some P.internal
      cases k with
      | innen =>
        refine ⟨fun h => absurd P.internal h.1, ?_⟩
        rintro (⟨h, -⟩ | ⟨-, h⟩)
        · exact absurd h hnp
        · cases h
      | aussen =>
        refine ⟨fun h => absurd P.external h.1, by rintro (⟨-, h⟩ | ⟨-, h⟩) <;> cases h⟩
      | indifferent =>
        refine ⟨fun _ => Or.inr ⟨P, rfl⟩, fun _ => ?_⟩
        obtain ⟨s, hs, p, hps, ho⟩ := P.outside
        exact ⟨s, hs, (p, s), hps, hE.isRounding.seq_refl s, decide_eq_false (hno _ _ ho)⟩
    · have hnp : ¬ Placed (H r) g := fun Q => Q.some P.internal
      have hnd : ¬ Divides (H r) g := by
        rintro ⟨-, -, -, s, -, p, h, -⟩
        rw [P.indifferent] at h
        cases h
      refine ⟨?_, by rintro (⟨h, -⟩ | ⟨h, -⟩); exacts [absurd h hnp, absurd h hnd]⟩
      cases k with
      | innen => exact fun h => absurd P.internal h.1
      | aussen => exact fun h => absurd P.external h.1
      | indifferent =>
        rintro ⟨s, -, x, hx, -⟩
        rw [P.indifferent] at hx
        cases hx
  constructor
  · rintro ⟨r, hr, rfl, g, hg, rfl, h⟩
    exact ⟨r, hr, rfl, g, hg, rfl, (hrec r hr g hg).1 h⟩
  · rintro ⟨r, hr, rfl, g, hg, rfl, h⟩
    exact ⟨r, hr, rfl, g, hg, rfl, (hrec r hr g hg).2 h⟩

theorem axis_inside {m : MantelDim K} (h0 : 0 < m.d0) (h1 : 0 < m.d1) (b : SegCls) {y : K} (hl : m.posV < y)
    (hu : y < m.posV + m.h) : InsideCcw (shell m b) ⟨m.posH, y⟩ := by
  have e1 := sub_pos.2 hl
  have e2 := sub_pos.2 hu
  have f1 := mul_pos h0 e1
  have f2 := mul_pos h0 e2
  have f3 := mul_pos h1 e1
  have f4 := mul_pos h1 e2
  intro s hs
  simp only [shell, outline, List.mem_cons, List.not_mem_nil, or_false] at hs
  rcases hs with rfl | rfl | rfl | rfl <;> unfold det3 <;> dsimp only <;> ring_nf at f1 f2 f3 f4 ⊢ <;> linarith

theorem axis_outside {m : MantelDim K} (h0 : 0 < m.d0) (h1 : 0 < m.d1) (b : SegCls) {y : K}
    (hy : y < m.posV ∨ m.posV + m.h < y) : OutsideCcw (shell m b) ⟨m.posH, y⟩ := by
  rcases hy with hy | hy
  · refine ⟨⟨⟨m.posH - m.d0 / 2, m.posV⟩, ⟨m.posH + m.d0 / 2, m.posV⟩, b⟩, by simp [shell, outline], ?_⟩
    have f := mul_pos h0 (sub_pos.2 hy)
    unfold det3
    dsimp only
    ring_nf at f ⊢
    linarith
  · refine ⟨⟨⟨m.posH + m.d1 / 2, m.posV + m.h⟩, ⟨m.posH - m.d1 / 2, m.posV + m.h⟩, .nonWall⟩, by simp [shell, outline], ?_⟩
    have f := mul_pos h1 (sub_pos.2 hy)
    unfold det3
    dsimp only
    ring_nf at f ⊢
    linarith

/-- a flat head (`true`) or the end of a room -/
def flatEnd (R : Rt K) (flat : Bool) (name : ν) (m : PlateDim K) : GPart ν K :=
  if flat then R.platePart name [level (m.posH - m.d / 2) (m.posH + m.d / 2) m.posV .wall] m
  else endPart name [level (m.posH - m.d / 2) (m.posH + m.d / 2) m.posV .wall]

theorem flatEnd_segs (R : Rt K) (flat : Bool) (name : ν) (m : PlateDim K) :
    (flatEnd R flat name m).segs = [level (m.posH - m.d / 2) (m.posH + m.d / 2) m.posV .wall] ∧ (flatEnd R flat name m).name = name := by
  cases flat <;> exact ⟨rfl, rfl⟩

/-- C104: a shell, cylindrical or conical, that is closed at both ends by a flat head or the end of a room: the room with
these three as walls, in any order, is recorded as inner room of the shell, as indifferent for each flat head, and as
nothing else. -/
theorem C104_vessel (hE : R.IsExact) {m : MantelDim K} (hs : Sound m) (b : SegCls) (low top : Bool)
    (h0 : m.d0 ≤ 50 * m.h) (h1 : m.d1 ≤ 50 * m.h) (hd1 : 1 / 10 ^ 5 ≤ m.d1) (n1 n2 n3 : ν) (ω' : ℕ → ℕ → ℕ → ℕ → ℕ → Pt K)
    (hω' : ∀ s, (s = rightWall m ∨ s = leftWall m) → ∀ r, R.intexFour m.posH 50000 (2 / 1000) s = .ok r → ∀ p ∈ r, ∀ e i n c k,
      GoodTarget (shell m b) p (ω' e i n c k) ∧ Spread (shell m b) p (ω' e i n c k)) (fuel' : ℕ) :
    ∃ g1 : GPart ν K, R.shellPart n1 (shell m b) [rightWall m, leftWall m] m.posH ω' (fuel' + 1) = .ok g1 ∧
      ∀ r : GRoom ν ρ K, r.walls.Perm [g1, flatEnd R low n2 ⟨m.posV, m.d0, m.posH⟩, flatEnd R top n3 ⟨m.posV + m.h, m.d1, m.posH⟩] →
      ∀ ω : ℕ → ℕ → IntexKind → ℕ → ℕ → ℕ → Pt K,
        (∀ g ∈ r.walls, ∀ x ∈ g.internal ++ g.external ++ g.indifferent, ∀ i j k n q c,
          GoodTarget r.polygon x.1 (ω i j k n q c) ∧ Spread r.polygon x.1 (ω i j k n q c)) → ∀ fuel : ℕ,
        ∃ T, R.raumIntex [r] (fuel + 1) ω = some T ∧
          ∀ n k r', (n, k, r') ∈ T ↔ r' = r.name ∧ (n = n1 ∧ k = .innen ∨ n = n2 ∧ low = true ∧ k = .indifferent ∨
            n = n3 ∧ top = true ∧ k = .indifferent) := by
  have hh : 0 < m.h := lt_of_lt_of_le (by positivity) hs.high
  have hd0 : 0 < m.d0 := lt_of_lt_of_le (by positivity) hs.wide
  have hd05 : 1 / 10 ^ 5 ≤ m.d0 := le_trans (by norm_num) hs.wide
  have hhigh := hs.high
  obtain ⟨p, q, r, t, p', q', r', t', eg1, hin, hbe⟩ := shellPart_ok hE hs n1 b ω' hω' fuel'
  refine ⟨_, eg1, ?_⟩
  intro r0 hperm ω hω fuel
  have P1 : Placed (shell m b) (⟨n1, [rightWall m, leftWall m],
      [(p, rightWall m), (q, rightWall m), (p', leftWall m), (q', leftWall m)],
      [(r, rightWall m), (t, rightWall m), (r', leftWall m), (t', leftWall m)], []⟩ : GPart ν K) := by
    refine ⟨by simp, ?_, by simp, ?_, ?_, rfl⟩
    · intro x hx
      apply hin
      simp only [List.mem_cons, List.not_mem_nil, or_false] at hx
      rcases hx with rfl | rfl | rfl | rfl <;> simp
    · intro x hx
      refine BeyondWall.outside ?_ b
      apply hbe
      simp only [List.mem_cons, List.not_mem_nil, or_false] at hx
      rcases hx with rfl | rfl | rfl | rfl <;> simp
    · intro s hs'
      simp only [List.mem_cons, List.not_mem_nil, or_false] at hs'
      rcases hs' with rfl | rfl
      · exact ⟨r, by simp⟩
      · exact ⟨r', by simp⟩
  have D2 : ∀ nm : ν, Divides (shell m b) (flatEnd R true nm ⟨m.posV, m.d0, m.posH⟩) := by
    intro nm
    refine C104_divides hE ⟨m.posV, m.d0, m.posH⟩ hd05 hs.posV (shell m b) nm _ _ (by dsimp only; linarith) .wall
      ⟨⟨⟨m.posH - m.d0 / 2, m.posV⟩, ⟨m.posH + m.d0 / 2, m.posV⟩, b⟩, by simp [shell, outline], Or.inl ⟨rfl, rfl⟩⟩ ?_
    obtain ⟨u, v, e, hux, hvx, hu, hv, -⟩ := C104_points hE ⟨m.posV, m.d0, m.posH⟩ hd05
    rw [e]
    obtain ⟨ux, uy⟩ := u
    obtain ⟨vx, vy⟩ := v
    dsimp only at *
    rw [hs.posH.rhe8] at hux hvx
    subst hux hvx
    have a1 := abs_le.1 hu
    have a2 := abs_le.1 hv
    intro x hx
    simp only [List.mem_cons, List.not_mem_nil, or_false] at hx
    rcases hx with rfl | rfl
    · exact Or.inl (axis_inside hd0 hs.top b (by norm_num at a1 hd05; linarith) (by norm_num at a1 hhigh; linarith))
    · exact Or.inr (axis_outside hd0 hs.top b (Or.inl (by norm_num at a2 hd05; linarith)))
  have D3 : ∀ nm : ν, Divides (shell m b) (flatEnd R true nm ⟨m.posV + m.h, m.d1, m.posH⟩) := by
    intro nm
    have htop := hs.top
    refine C104_divides hE ⟨m.posV + m.h, m.d1, m.posH⟩ hd1 (hs.posV.add hs.h) (shell m b) nm _ _ (by dsimp only; linarith) .wall
      ⟨⟨⟨m.posH + m.d1 / 2, m.posV + m.h⟩, ⟨m.posH - m.d1 / 2, m.posV + m.h⟩, .nonWall⟩, by simp [shell, outline], Or.inr ⟨rfl, rfl⟩⟩ ?_
    obtain ⟨u, v, e, hux, hvx, hu, hv, -⟩ := C104_points hE ⟨m.posV + m.h, m.d1, m.posH⟩ hd1
    rw [e]
    obtain ⟨ux, uy⟩ := u
    obtain ⟨vx, vy⟩ := v
    dsimp only at *
    rw [hs.posH.rhe8] at hux hvx
    subst hux hvx
    have a1 := abs_le.1 hu
    have a2 := abs_le.1 hv
    intro x hx
    simp only [List.mem_cons, List.not_mem_nil, or_false] at hx
    rcases hx with rfl | rfl
    · exact Or.inr (axis_outside hd0 hs.top b (Or.inr (by norm_num at a1 hd1; linarith)))
    · exact Or.inl (axis_inside hd0 hs.top b (by norm_num at a2 hhigh; linarith) (by norm_num at a2 hd1; linarith))
  have BB : ∀ (nm : ν) (d : PlateDim K), Blank (flatEnd R false nm d) := fun _ _ => ⟨rfl, rfl, rfl⟩
  have hnb : ∀ (nm : ν) (d : PlateDim K), ¬ Divides (shell m b) (flatEnd R false nm d) := by
    rintro nm d ⟨-, -, -, s, -, x, hx, -⟩
    cases hx
  have hnp : ∀ (f : Bool) (nm : ν) (d : PlateDim K), ¬ Placed (shell m b) (flatEnd R f nm d) := by
    intro f nm d hP
    apply hP.some
    cases f <;> rfl
  have hdraw : SameDrawing r0.polygon (shell m b) := by
    have hpp : r0.polygon.Perm [rightWall m, leftWall m, level (m.posH - m.d0 / 2) (m.posH + m.d0 / 2) m.posV .wall,
        level (m.posH - m.d1 / 2) (m.posH + m.d1 / 2) (m.posV + m.h) .wall] := by
      unfold GRoom.polygon
      refine (hperm.flatMap_right _).trans ?_
      simp only [List.flatMap_cons, List.flatMap_nil, (flatEnd_segs R _ _ _).1]
      exact List.Perm.refl _
    refine ⟨[rightWall m, level (m.posH - m.d1 / 2) (m.posH + m.d1 / 2) (m.posV + m.h) .wall, leftWall m,
      level (m.posH - m.d0 / 2) (m.posH + m.d0 / 2) m.posV .wall], ?_, ?_⟩
    · refine List.Perm.trans ?_ hpp.symm
      classical
      rw [List.perm_iff_count]
      intro s
      simp only [List.count_cons, List.count_nil]
      omega
    · unfold shell outline
      exact .cons (Or.inl ⟨rfl, rfl⟩) (.cons (Or.inr ⟨rfl, rfl⟩) (.cons (Or.inl ⟨rfl, rfl⟩) (.cons (Or.inl ⟨rfl, rfl⟩) .nil)))
  have hmem := fun g => hperm.mem_iff (a := g)
  have hkind : ∀ g ∈ r0.walls, Placed (shell m b) g ∨ Divides (shell m b) g ∨ Blank g := by
    intro g hg
    have hg' := (hmem g).1 hg
    simp only [List.mem_cons, List.not_mem_nil, or_false] at hg'
    rcases hg' with rfl | rfl | rfl
    · exact Or.inl P1
    · right
      cases low
      · exact Or.inr (BB _ _)
      · exact Or.inl (D2 _)
    · right
      cases top
      · exact Or.inr (BB _ _)
      · exact Or.inl (D3 _)
  have nD1 : ¬ Divides (shell m b) (⟨n1, [rightWall m, leftWall m],
      [(p, rightWall m), (q, rightWall m), (p', leftWall m), (q', leftWall m)],
      [(r, rightWall m), (t, rightWall m), (r', leftWall m), (t', leftWall m)], []⟩ : GPart ν K) := fun D => by
    have := D.internal
    simp at this
  obtain ⟨T, hT, hrec⟩ := C104_rooms hE [r0] (fun _ => shell m b)
    (by
      intro r hr
      obtain rfl : r = r0 := by simpa using hr
      exact ⟨shell_convex hd0 hs.top hh b, by simp [shell, outline], hdraw⟩)
    (by
      intro r hr
      obtain rfl : r = r0 := by simpa using hr
      exact hkind) ω
    (by
      intro r hr
      obtain rfl : r = r0 := by simpa using hr
      exact hω) fuel
  refine ⟨T, hT, fun n k r' => ?_⟩
  rw [hrec]
  constructor
  · rintro ⟨r1, hr1, rfl, g, hg, rfl, hk⟩
    obtain rfl : r1 = r0 := by simpa using hr1
    refine ⟨rfl, ?_⟩
    have hg' := (hmem g).1 hg
    simp only [List.mem_cons, List.not_mem_nil, or_false] at hg'
    rcases hg' with rfl | rfl | rfl
    · rcases hk with ⟨-, hk⟩ | ⟨hk, -⟩
      · exact Or.inl ⟨rfl, hk⟩
      · exact absurd hk nD1
    · rcases hk with ⟨hk, -⟩ | ⟨hk, hk'⟩
      · exact absurd hk (hnp _ _ _)
      · cases low
        · exact absurd hk (hnb _ _)
        · exact Or.inr (Or.inl ⟨rfl, rfl, hk'⟩)
    · rcases hk with ⟨hk, -⟩ | ⟨hk, hk'⟩
      · exact absurd hk (hnp _ _ _)
      · cases top
        · exact absurd hk (hnb _ _)
        · exact Or.inr (Or.inr ⟨rfl, rfl, hk'⟩)
  · rintro ⟨rfl, h | ⟨rfl, rfl, hk⟩ | ⟨rfl, rfl, hk⟩⟩
    · obtain ⟨rfl, hk⟩ := h
      exact ⟨r0, by simp, rfl, _, (hmem _).2 (by simp), rfl, Or.inl ⟨P1, hk⟩⟩
    · exact ⟨r0, by simp, rfl, _, (hmem _).2 (by simp), (flatEnd_segs R _ _ _).2, Or.inr ⟨D2 _, hk⟩⟩
    · exact ⟨r0, by simp, rfl, _, (hmem _).2 (by simp), (flatEnd_segs R _ _ _).2, Or.inr ⟨D3 _, hk⟩⟩

end
/-! ### concrete cases -/

/-- a flat head of diameter 4 at (2, 4), binary64 -/
example : let r := exRt.plateNew ⟨fun _ => ⟨0, 0⟩, fun _ => ⟨0, 0, .line⟩, 0, 0⟩ ⟨4, 4, 2⟩
    r.1.vals r.2.graph = [level 0 4 4 .wall] ∧ r.1.vals r.2.line.segs = [level 0 4 4 .wall] ∧ r.2.line.purged = true := by
  decide +kernel

/-- a flat head without extent is valid, too: a wall from a point to itself -/
example : let r := exRt.plateNew ⟨fun _ => ⟨0, 0⟩, fun _ => ⟨0, 0, .line⟩, 0, 0⟩ ⟨4, 0, 2⟩
    r.1.vals r.2.graph = [level 2 2 4 .wall] ∧ (Rt.plateValid r.2.line).toOption = some true := by
  decide +kernel

example : (exRt.plateInternal [level 0 4 4 .wall] ⟨1, 4⟩).toOption = some true ∧
    (exRt.plateInternal [level 0 4 4 .wall] ⟨1, 5⟩).toOption = some false ∧
    (exRt.plateInternal [level 0 4 4 .wall] ⟨4, 4⟩).toOption = some false ∧
    exRt.plateIntex ⟨4, 4, 2⟩ = [⟨2, exRt.fl (101 / 25)⟩, ⟨2, exRt.fl (99 / 25)⟩] := by
  decide +kernel

/-- a room below and a room above the same flat head, binary64: both are indifferent for it, the lower one is an inner room
of its part 0 and the upper one of its part 1 -/
theorem C104_two_rooms :
    (match exRt.raumIntex
        [⟨7, [⟨0, [⟨⟨0, 4⟩, ⟨0, 0⟩, .wall⟩, ⟨⟨0, 0⟩, ⟨4, 0⟩, .wall⟩, ⟨⟨4, 0⟩, ⟨4, 4⟩, .wall⟩], [(⟨1, 1⟩, ⟨⟨0, 0⟩, ⟨4, 0⟩, .wall⟩)], [], []⟩,
          exRt.platePart 2 [level 0 4 4 .wall] ⟨4, 4, 2⟩]⟩,
        ⟨8, [⟨1, [⟨⟨0, 4⟩, ⟨0, 8⟩, .wall⟩, ⟨⟨0, 8⟩, ⟨4, 8⟩, .wall⟩, ⟨⟨4, 8⟩, ⟨4, 4⟩, .wall⟩], [(⟨1, 7⟩, ⟨⟨0, 8⟩, ⟨4, 8⟩, .wall⟩)], [], []⟩,
          exRt.platePart 2 [level 0 4 4 .wall] ⟨4, 4, 2⟩]⟩] 1 (fun _ _ _ _ _ _ => ⟨128, 65⟩) with
      | some T => T.map fun x => (x.1, decide (x.2.1 = .innen), decide (x.2.1 = .indifferent), x.2.2)
      | none => ([] : List (ℕ × Bool × Bool × ℕ))) =
      [(0, true, false, 7), (2, false, true, 7), (1, true, false, 8), (2, false, true, 8)] := by
  decide +kernel

example : Sound exDim ∧ exDim.d0 ≤ 50 * exDim.h ∧ exDim.d1 ≤ 50 * exDim.h ∧ 1 / 10 ^ 5 ≤ exDim.d1 := by
  refine ⟨exDim_sound, ?_⟩
  norm_num [exDim]

end Srep
