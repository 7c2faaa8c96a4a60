import Verif.Lemmas.KrempeHeap
import Verif.Props.Split
import Verif.Props.OrderCycle
import Verif.Spec.Area

/-! C106: the sharp-edged knuckle between a cone and the shell above it -/

set_option linter.unusedSectionVars false

namespace Srep
open Rt
variable {K : Type} [Field K] [LinearOrder K] [IsStrictOrderedRing K] [FloorRing K] {R : Rt K}

/-- the cone `k` widens upwards and carries the shell `o` on the same axis; the cuts `hU` below and `hO` above the junction
pass the walls at least 1e-5 clear of their ends; dimensions on the coordinate grid -/
structure Junction (k o : MantelDim K) (hO hU : K) : Prop where
  lk : Level k (o.posV - hU)
  lo : Level o (o.posV + hO)
  axis : k.posH = o.posH
  meet : k.posV + k.h = o.posV
  same : k.d1 = o.d0
  conv : k.d0 < k.d1

/-- by how much the stored x coordinate of the cut of the right wall at height `z` is off -/
def slip (m : MantelDim K) (z : K) : K := |rhe8 (m.posH + radAt m z) - (m.posH + radAt m z)|

/-- radius of the stored cut -/
def cutRad (m : MantelDim K) (z : K) : K := rhe8 (m.posH + radAt m z) - m.posH

/-- the hexagon of the knuckle, from the lower right corner counterclockwise: axis `c`, junction at height `v` with radius
`r`; lower radius `r0` at `v - hU`, upper radius `r1` at `v + hO` -/
def knuckle (c v r r0 r1 hO hU : K) : List (Seg K) :=
  [⟨⟨c + r0, v - hU⟩, ⟨c + r, v⟩, .wall⟩, ⟨⟨c + r, v⟩, ⟨c + r1, v + hO⟩, .wall⟩, ⟨⟨c + r1, v + hO⟩, ⟨c - r1, v + hO⟩, .nonWall⟩,
    ⟨⟨c - r1, v + hO⟩, ⟨c - r, v⟩, .wall⟩, ⟨⟨c - r, v⟩, ⟨c - r0, v - hU⟩, .wall⟩, ⟨⟨c - r0, v - hU⟩, ⟨c + r0, v - hU⟩, .nonWall⟩]

theorem Level.radAt_between {m : MantelDim K} {z : K} (hl : Level m z) :
    min (m.d0 / 2) (m.d1 / 2) ≤ radAt m z ∧ radAt m z ≤ max (m.d0 / 2) (m.d1 / 2) := by
  obtain ⟨u0, u1⟩ := hl.u
  unfold radAt
  rcases le_total (m.d0 / 2) (m.d1 / 2) with h | h
  · rw [min_eq_left h, max_eq_right h]
    constructor <;> nlinarith
  · rw [min_eq_right h, max_eq_left h]
    constructor <;> nlinarith

/-- the acceptance test of the cuts -/
theorem on_cut (hE : R.IsExact) {m : MantelDim K} {z : K} (hl : Level m z) :
    R.krempeOn (wallR m) (cutRight m z) = true ↔ m.h * slip m z < 1 / 10 ^ 8 := by
  have hint : R.isInternal (wallR m) (cutRight m z) = true := by
    rw [hE.isInternal_iff]
    obtain ⟨b1, b2⟩ := hl.radAt_between
    obtain ⟨c1, c2⟩ := rhe8_close (m.posH + radAt m z)
    have e8 : (0 : K) < 1 / 10 ^ 8 := by positivity
    have e5 : (0 : K) < 1 / 10 ^ 5 := by positivity
    have l1 := hl.lo
    have l2 := hl.hi
    have hh := hl.hpos
    show min (m.posH + m.d0 / 2) (m.posH + m.d1 / 2) - 1 / 10 ^ 8 < rhe8 (m.posH + radAt m z) ∧
      rhe8 (m.posH + radAt m z) ≤ max (m.posH + m.d0 / 2) (m.posH + m.d1 / 2) + 1 / 10 ^ 8 ∧
      min m.posV (m.posV + m.h) - 1 / 10 ^ 8 ≤ z ∧ z ≤ max m.posV (m.posV + m.h) + 1 / 10 ^ 8
    rw [min_add_add_left, max_add_add_left, min_eq_left (by linarith : m.posV ≤ m.posV + m.h),
      max_eq_right (by linarith : m.posV ≤ m.posV + m.h)]
    refine ⟨by linarith, by linarith, by linarith, by linarith⟩
  unfold Rt.krempeOn
  rw [hint, Bool.and_true, hE.isOnLine_iff, hE.peq_iff, hE.peq_iff]
  obtain ⟨e1, e2⟩ := hl.ends
  have hdet : |det3 (wallR m).i (wallR m).j (cutRight m z)| = m.h * slip m z := by
    have hh := hl.hpos
    have hd : det3 (wallR m).i (wallR m).j (cutRight m z) = -(m.h * (rhe8 (m.posH + radAt m z) - (m.posH + radAt m z))) := by
      show (m.posH + m.d1 / 2 - (m.posH + m.d0 / 2)) * (z - m.posV) - (m.posV + m.h - m.posV) * (rhe8 (m.posH + radAt m z) - (m.posH + m.d0 / 2)) = _
      have : m.h * radAt m z = m.h * (m.d0 / 2) + (z - m.posV) * (m.d1 / 2 - m.d0 / 2) := by
        unfold radAt
        field_simp
      linear_combination -this
    rw [hd, abs_neg, abs_mul, abs_of_pos hh]
    rfl
  rw [hdet]
  constructor
  · rintro (⟨-, h⟩ | ⟨-, h⟩ | h)
    · exact absurd h (not_lt.2 e1)
    · exact absurd h (not_lt.2 e2)
    · exact h
  · exact fun h => Or.inr (Or.inr h)

theorem not_on (hE : R.IsExact) {m : MantelDim K} (hm : 0 < m.h) {p : Pt K}
    (hp : p.y ≤ m.posV - 1 / 10 ^ 5 ∨ m.posV + m.h + 1 / 10 ^ 5 ≤ p.y) : R.krempeOn (wallR m) p = false := by
  unfold Rt.krempeOn
  rw [Bool.and_eq_false_iff]
  right
  rw [Bool.eq_false_iff, ne_eq, hE.isInternal_iff]
  rintro ⟨-, -, h1, h2⟩
  change min m.posV (m.posV + m.h) - 1 / 10 ^ 8 ≤ p.y at h1
  change p.y ≤ max m.posV (m.posV + m.h) + 1 / 10 ^ 8 at h2
  rw [min_eq_left (by linarith)] at h1
  rw [max_eq_right (by linarith)] at h2
  have e : (1 : K) / 10 ^ 8 < 1 / 10 ^ 5 := by norm_num
  rcases hp with h | h <;> linarith

/-- where the cutting line meets the right wall -/
theorem cut_ip' (hE : R.IsExact) {m : MantelDim K} {v d : K} (gv : Grid (v + d)) (hh : 0 < m.h) (h0 : 1 / 10 ^ 5 ≤ m.d0 / 2) (b : SegCls) :
    R.intersectionPoint (R.krempeCutter (shell m b) v d) (wallR m) = some (cutRight m (v + d)) := by
  have hc : ∃ a b', a < b' ∧ R.krempeCutter (shell m b) v d = level a b' (v + d) .line := by
    unfold Rt.krempeCutter
    dsimp only
    rw [hE.sub', hE.add', hE.add', hE.mkPt', hE.mkPt', gv.rhe8]
    refine ⟨_, _, ?_, rfl⟩
    have b1 : (boundingBox (shell m b)).1.1 ≤ m.posH - m.d0 / 2 := by
      simp [boundingBox, shell, outline]
    have b2 : m.posH + m.d0 / 2 ≤ (boundingBox (shell m b)).1.2 := by
      simp [boundingBox, shell, outline]
    set x := (boundingBox (shell m b)).1.1
    set y := (boundingBox (shell m b)).1.2
    set w := |max (boundingBox (shell m b)).2.1 (boundingBox (shell m b)).2.2| with hw
    have w0 : 0 ≤ w := abs_nonneg _
    have m1 : min x y ≤ x := min_le_left _ _
    have m2 : y ≤ max x y := le_max_right _ _
    obtain ⟨-, c1⟩ := rhe8_close (min x y - w)
    obtain ⟨c2, -⟩ := rhe8_close (max x y + w)
    have e : (1 : K) / 10 ^ 8 < 1 / 10 ^ 5 := by norm_num
    linarith
  obtain ⟨a, b', hab, hc⟩ := hc
  rw [hc]
  have on : v + d = (wallR m).i.y + (v + d - m.posV) / m.h * ((wallR m).j.y - (wallR m).i.y) := by
    have := hh.ne'
    simp only [wallR, botR, topR]
    field_simp
    ring
  rw [ip_level hE hab (by show m.posV ≠ m.posV + m.h; linarith) on gv]
  rw [xR]
  rfl

theorem cut_ip (hE : R.IsExact) {m : MantelDim K} {v d : K} (hl : Level m (v + d)) (b : SegCls) :
    R.intersectionPoint (R.krempeCutter (shell m b) v d) (wallR m) = some (cutRight m (v + d)) :=
  cut_ip' hE hl.gv hl.hpos hl.r0 b

/-- the corners of the hexagon, counterclockwise -/
def knucklePt (c v r r0 r1 hO hU : K) : ZMod 6 → Pt K :=
  ![⟨c + r0, v - hU⟩, ⟨c + r, v⟩, ⟨c + r1, v + hO⟩, ⟨c - r1, v + hO⟩, ⟨c - r, v⟩, ⟨c - r0, v - hU⟩]

theorem knucklePt_apart {c v r r0 r1 hO hU : K} (a : 1 / 10 ^ 5 ≤ r) (a0 : 1 / 10 ^ 5 ≤ r0) (a1 : 1 / 10 ^ 5 ≤ r1)
    (o : 1 / 10 ^ 5 ≤ hO) (u : 1 / 10 ^ 5 ≤ hU) (i j : ZMod 6) (hij : i ≠ j) :
    1 / 10 ^ 5 ≤ |(knucklePt c v r r0 r1 hO hU i).x - (knucklePt c v r r0 r1 hO hU j).x| ∨
    1 / 10 ^ 5 ≤ |(knucklePt c v r r0 r1 hO hU i).y - (knucklePt c v r r0 r1 hO hU j).y| := by
  have e5 : (0 : K) < 1 / 10 ^ 5 := by positivity
  generalize (1 : K) / 10 ^ 5 = t at a a0 a1 o u e5 ⊢
  have key : ∀ x y : K, t ≤ x - y ∨ t ≤ y - x → t ≤ |x - y| := by
    rintro x y (h | h)
    · exact h.trans (le_abs_self _)
    · rw [abs_sub_comm]; exact h.trans (le_abs_self _)
  change Fin 6 at i j
  fin_cases i <;> fin_cases j <;> first
    | exact absurd rfl hij
    | (right; apply key; left; simp [knucklePt]; linarith)
    | (right; apply key; right; simp [knucklePt]; linarith)
    | (left; apply key; left; simp [knucklePt]; linarith)
    | (left; apply key; right; simp [knucklePt]; linarith)

theorem Made.frame {g g' : Heap K} {o : ShellObj K} {l : List (Seg K)} (m : Made g o l) (hp : g'.pt = g.pt) (hn : g'.npt = g.npt)
    (hm : g'.nseg = g.nseg) (hs : ∀ s ∈ o.line.segs, g'.seg s = g.seg s) : Made g' o l := by
  refine ⟨?_, m.graph.trans (walls_congr hs).symm, ?_⟩
  · rw [← m.vals]
    unfold Heap.vals Heap.val
    apply List.map_congr_left
    intro s hl
    rw [hs s hl, hp]
  · intro s hl
    have := m.has s hl
    exact ⟨by rw [hm]; exact this.seg, by rw [hs s hl, hn]; exact this.i, by rw [hs s hl, hn]; exact this.j⟩

/-- the rest of the constructor once the sides exist -/
theorem krempe_finish (hE : R.IsExact) {h g : Heap K} {k o : ShellObj K} {u : Under K} {w : KrempeRes K} {c v r r0 r1 hO hU : K}
    (hc : o.dim.posH = c) (gc : Grid c) (gv : Grid v) (gr : Grid r) (g0 : Grid r0) (g1 : Grid r1) (gO : Grid (v + hO)) (gU : Grid (v - hU))
    (a : 1 / 10 ^ 5 ≤ r) (a0 : 1 / 10 ^ 5 ≤ r0) (a1 : 1 / 10 ^ 5 ≤ r1) (o' : 1 / 10 ^ 5 ≤ hO) (u' : 1 / 10 ^ 5 ≤ hU)
    (km : KrempeMade R h g k o u w ⟨c + r0, v - hU⟩ ⟨c + r, v⟩ ⟨c + r1, v + hO⟩)
    (hd : k.dim.d0 < k.dim.d1) (hk : R.krempeSegs h hO hU k o u = .ok (g, w)) :
    ∃ g' part, R.krempeNew h hO hU k o u = .ok (g', part, w) ∧ h.Ext g' ∧
      g'.vals part.line.segs ~r knuckle c v r r0 r1 hO hU ∧ part.graph = g'.walls part.line.segs ∧ part.line.purged = true ∧
      (∀ x l, (x = w.kegel ∨ x = w.oben ∨ w.unten = some x) → Made g x l → Made g' x l) := by
  have e5 : (0 : K) < 1 / 10 ^ 5 := by positivity
  obtain ⟨n, n1, n2, n3, n4, n5, v0, v1, v2, v3, v4, v5⟩ := km.sides
  have mir : ∀ x y, Grid x → Grid y → mirrored R o.dim.posH ⟨c + x, y⟩ = ⟨c - x, y⟩ := by
    intro x y hx hy
    rw [hc, mirrored_exact hE ((hE.stored_iff _).2 ⟨gc.add hx, hy⟩) ((hE.stored_iff _).2 ⟨gc, grid_zero⟩)]
    unfold reflect
    dsimp only
    congr 1
    ring
  rw [mir r1 _ g1 gO] at v2 v3
  rw [mir r _ gr gv] at v3 v4
  rw [mir r0 _ g0 gU] at v4 v5
  set p := knucklePt c v r r0 r1 hO hU with hp
  set σ : ZMod 6 → ℕ := fun k => n + (show Fin 6 from k).val with hσ
  have hinj : Function.Injective p := by
    intro i j e
    by_contra hij
    have := knucklePt_apart (c := c) (v := v) a a0 a1 o' u' i j hij
    rw [← hp, e, sub_self, sub_self, abs_zero] at this
    rcases this with h | h <;> linarith
  have cyc : ∀ g1 : Heap K, (∀ s, g1.val s = g.val s) → IsCycleOf g1 w.segs 6 p σ := by
    intro g1 hg
    refine ⟨by norm_num, hinj, ?_, ?_, ?_, ?_⟩
    · intro i j e
      simp only [hσ] at e
      exact Fin.ext (by omega)
    · rw [n2]; simp
    · intro s
      rw [n2]
      constructor
      · intro hs
        simp only [List.mem_cons, List.not_mem_nil, or_false] at hs
        rcases hs with rfl | rfl | rfl | rfl | rfl | rfl
        exacts [⟨(0 : Fin 6), rfl⟩, ⟨(1 : Fin 6), rfl⟩, ⟨(2 : Fin 6), rfl⟩, ⟨(3 : Fin 6), rfl⟩, ⟨(4 : Fin 6), rfl⟩, ⟨(5 : Fin 6), rfl⟩]
      · rintro ⟨k, rfl⟩
        change Fin 6 at k
        fin_cases k <;> simp [hσ]
    · intro k
      rw [hg]
      change Fin 6 at k
      fin_cases k
      · left; change (g.val n).i = _ ∧ (g.val n).j = _; rw [v0]; exact ⟨rfl, rfl⟩
      · left; change (g.val (n + 1)).i = _ ∧ (g.val (n + 1)).j = _; rw [v1]; exact ⟨rfl, rfl⟩
      · left; change (g.val (n + 2)).i = _ ∧ (g.val (n + 2)).j = _; rw [v2]; exact ⟨rfl, rfl⟩
      · right; change (g.val (n + 3)).i = _ ∧ (g.val (n + 3)).j = _; rw [v3]; exact ⟨rfl, rfl⟩
      · right; change (g.val (n + 4)).i = _ ∧ (g.val (n + 4)).j = _; rw [v4]; exact ⟨rfl, rfl⟩
      · left; change (g.val (n + 5)).i = _ ∧ (g.val (n + 5)).j = _; rw [v5]; exact ⟨rfl, rfl⟩
  have hends : ∀ g1 : Heap K, (∀ s, g1.val s = g.val s) → ∀ x ∈ locs g1 w.segs, ∃ k, x = p k := by
    rintro g1 hg x ⟨s, hs, hx⟩
    have cy := cyc g1 hg
    obtain ⟨k, rfl⟩ := (cy.mem s).1 hs
    rcases cy.ends k with ⟨h1, h2⟩ | ⟨h1, h2⟩ <;> rw [h1, h2] at hx <;> rcases hx with rfl | rfl
    exacts [⟨_, rfl⟩, ⟨_, rfl⟩, ⟨_, rfl⟩, ⟨_, rfl⟩]
  have hap : ∀ g1 : Heap K, (∀ s, g1.val s = g.val s) → Apart R.tol (locs g1 w.segs) := by
    intro g1 hg x hx y hy hxy
    obtain ⟨i, rfl⟩ := hends g1 hg x hx
    obtain ⟨j, rfl⟩ := hends g1 hg y hy
    rw [hE.tol']
    exact knucklePt_apart a a0 a1 o' u' i j fun e => hxy (by rw [e])
  have hnull : ∀ s ∈ w.segs, (g.val s).i ≠ (g.val s).j := by
    intro s hs
    have cy := cyc g fun _ => rfl
    obtain ⟨k, rfl⟩ := (cy.mem s).1 hs
    have hne : p k ≠ p (k + 1) := fun e => cy.one_ne (by have := hinj e; exact left_eq_add.1 this)
    rcases cy.ends k with ⟨h1, h2⟩ | ⟨h1, h2⟩ <;> rw [h1, h2]
    exacts [hne, hne.symm]
  obtain ⟨q1, q2, q3, q4, q5, q6, -, -⟩ := purge_spec hE.isRounding (h := g) (P := ⟨w.segs, false⟩) rfl
    (sep_of_locs hE.isRounding (hap g fun _ => rfl)) hnull
  have hnew : R.krempeNew h hO hU k o u = (match R.order (R.purge g ⟨w.segs, false⟩).1 (R.purge g ⟨w.segs, false⟩).2 with
      | .raised _ e => .error e
      | .timeout => .error .generic
      | .failed g' => .ok (g', ⟨(R.purge g ⟨w.segs, false⟩).2, g'.walls (R.purge g ⟨w.segs, false⟩).2.segs⟩, w)
      | .done g' l =>
        .ok ((R.purge g' ⟨l, (R.purge g ⟨w.segs, false⟩).2.purged⟩).1, ⟨(R.purge g' ⟨l, (R.purge g ⟨w.segs, false⟩).2.purged⟩).2,
          (R.purge g' ⟨l, (R.purge g ⟨w.segs, false⟩).2.purged⟩).1.walls (R.purge g' ⟨l, (R.purge g ⟨w.segs, false⟩).2.purged⟩).2.segs⟩, w)) := by
    unfold Rt.krempeNew
    rw [if_neg (not_not.2 hd), if_neg (not_not.2 (by linarith)), if_neg (not_not.2 (by linarith)), hk]
    rfl
  rw [q1] at hnew
  set f := (R.purge g ⟨w.segs, false⟩).1 with hf
  clear_value f
  obtain ⟨g', l, d1, d2, d3, d4, d5⟩ := C76_direction hE.isRounding f ⟨w.segs, true⟩ 6 p σ (cyc f q5) (hap f q5)
    (by show w.segs.length < 250; rw [n2]; simp) (t := [n + 1, n + 2, n + 3, n + 4, n + 5]) (by show w.segs = _; rw [n2]; rfl)
    (by rw [q5]; change (g.val n).i = _ ∧ (g.val n).j = _; rw [v0]; exact ⟨rfl, rfl⟩)
  have d6 := C48_only_reverses hE.isRounding f ⟨w.segs, true⟩
  rw [d1] at d6
  obtain ⟨-, m1, m2, -, -⟩ := d6
  change g'.npt = f.npt at m1
  change g'.nseg = f.nseg at m2
  rw [d1] at hnew
  have hpur : R.purge g' ⟨l, true⟩ = (g', ⟨l, true⟩) := by
    unfold Rt.purge
    simp
  dsimp only at hnew
  rw [hpur] at hnew
  have hout : ∀ s, s ∉ w.segs → g'.seg s = g.seg s := fun s hs => (d5 s hs).trans (q6 s hs)
  refine ⟨g', ⟨⟨l, true⟩, g'.walls l⟩, hnew, ?_, ?_, rfl, rfl, ?_⟩
  · have e1 := km.ext.npt
    have e2 := km.ext.nseg
    refine ⟨by omega, by omega, fun x hx => by rw [d4, q2]; exact km.ext.pt x hx, fun s hs => ?_⟩
    rw [hout s, km.ext.seg s hs]
    rw [n2]
    simp only [List.mem_cons, List.not_mem_nil, or_false]
    omega
  · have := d2.map g'.val
    rw [List.map_map] at this
    refine List.IsRotated.trans this ?_
    have c0 := d3 0
    have c1 := d3 1
    have c2 := d3 2
    have c3 := d3 3
    have c4 := d3 4
    have c5 := d3 5
    rw [q5] at c0 c1 c2 c3 c4 c5
    change g'.val n = ⟨_, _, (g.val n).cls⟩ at c0
    change g'.val (n + 1) = ⟨_, _, (g.val (n + 1)).cls⟩ at c1
    change g'.val (n + 2) = ⟨_, _, (g.val (n + 2)).cls⟩ at c2
    change g'.val (n + 3) = ⟨_, _, (g.val (n + 3)).cls⟩ at c3
    change g'.val (n + 4) = ⟨_, _, (g.val (n + 4)).cls⟩ at c4
    change g'.val (n + 5) = ⟨_, _, (g.val (n + 5)).cls⟩ at c5
    rw [v0] at c0
    rw [v1] at c1
    rw [v2] at c2
    rw [v3] at c3
    rw [v4] at c4
    rw [v5] at c5
    have : List.map (g'.val ∘ fun m : ℕ => σ (m : ZMod 6)) (List.range 6) =
        [g'.val n, g'.val (n + 1), g'.val (n + 2), g'.val (n + 3), g'.val (n + 4), g'.val (n + 5)] := rfl
    rw [this, c0, c1, c2, c3, c4, c5]
    exact List.IsRotated.refl _
  · intro x l' hx m
    refine m.frame (by rw [d4, q2]) (by omega) (by omega) fun s hs => hout s ?_
    have : s < n := by
      rcases hx with rfl | rfl | hx
      · exact n4 s (by simp [hs])
      · exact n4 s (by simp [hs])
      · exact n5 x hx s hs
    rw [n2]
    simp only [List.mem_cons, List.not_mem_nil, or_false]
    omega

theorem shell_segs {h : Heap K} {l : List ℕ} {m : MantelDim K} {b : SegCls} (e : h.vals l = shell m b) :
    ∃ s0 s1 s2 s3, l = [s0, s1, s2, s3] ∧ h.val s0 = wallR m ∧ h.val s1 = lidT m ∧ h.val s2 = wallL m ∧ h.val s3 = ⟨botL m, botR m, b⟩ := by
  have hl : l.length = 4 := by
    have := congrArg List.length e
    simpa [Heap.vals, shell, outline] using this
  match l, hl with
  | [s0, s1, s2, s3], _ =>
    simp only [Heap.vals, shell, outline, List.map_cons, List.map_nil, List.cons.injEq, and_true] at e
    exact ⟨s0, s1, s2, s3, rfl, e.1, e.2.1, e.2.2.1, e.2.2.2⟩

theorem krempe_reject {h : Heap K} {hO hU : K} {k o : ShellObj K} (u : Under K)
    {s0 s1 t0 : ℕ} {ks os : List ℕ} (hk : k.line.segs = s0 :: s1 :: ks) (ho : o.line.segs = t0 :: os) {p r : Pt K}
    (i0 : R.intersectionPoint (R.krempeCutter (h.vals k.line.segs) o.dim.posV (-hU)) (h.val s0) = some p)
    (i1 : R.intersectionPoint (R.krempeCutter (h.vals o.line.segs) o.dim.posV hO) (h.val t0) = some r)
    (hc : ((R.krempeOn (h.val s0) p || R.krempeOn (h.val s0) r) && (R.krempeOn (h.val t0) p || R.krempeOn (h.val t0) r)) = false) :
    R.krempeNew h hO hU k o u = .error .assertion := by
  have : R.krempeSegs h hO hU k o u = .error .assertion := by
    unfold Rt.krempeSegs
    rw [hk] at i0
    rw [ho] at i1
    rw [hk, ho]
    dsimp only
    rw [i0, i1]
    dsimp only
    rw [hc]
    rfl
  unfold Rt.krempeNew
  rw [this]
  split_ifs <;> rfl

theorem Junction.pos {k o : MantelDim K} {hO hU : K} (J : Junction k o hO hU) : 1 / 10 ^ 5 ≤ hO ∧ 1 / 10 ^ 5 ≤ hU := by
  have h1 := J.lo.lo
  have h2 := J.lk.hi
  have h3 := J.meet
  constructor <;> linarith

theorem Level.cutRad_ge {m : MantelDim K} {z : K} (hl : Level m z) : 1 / 10 ^ 5 ≤ cutRad m z ∧ Grid (cutRad m z) := by
  have hg : Grid (1 / 10 ^ 5 : K) := ⟨1000, by norm_num⟩
  refine ⟨?_, (rhe8_isGrid _).sub hl.gH⟩
  unfold cutRad
  have h1 := rhe8_mono (add_le_add_right hl.rad m.posH)
  rw [(hl.gH.add hg).rhe8] at h1
  linarith

/-- the parts of memory the constructor looks at -/
structure Parts (h : Heap K) (k o : ShellObj K) : Prop where
  kegel : h.vals k.line.segs = shell k.dim .nonWall
  oben : h.vals o.line.segs = shell o.dim .nonWall
  hasK : ∀ s ∈ k.line.segs, h.Has s
  hasO : ∀ s ∈ o.line.segs, h.Has s

theorem Junction.lk' {k o : MantelDim K} {hO hU : K} (J : Junction k o hO hU) : Level k (o.posV + -hU) := by
  rw [← sub_eq_add_neg]
  exact J.lk

/-- which cuts are accepted -/
theorem Junction.check (hE : R.IsExact) {k o : MantelDim K} {hO hU : K} (J : Junction k o hO hU) :
    ((R.krempeOn (wallR k) (cutRight k (o.posV + -hU)) || R.krempeOn (wallR k) (cutRight o (o.posV + hO))) &&
      (R.krempeOn (wallR o) (cutRight k (o.posV + -hU)) || R.krempeOn (wallR o) (cutRight o (o.posV + hO)))) = true ↔
    k.h * slip k (o.posV - hU) < 1 / 10 ^ 8 ∧ o.h * slip o (o.posV + hO) < 1 / 10 ^ 8 := by
  obtain ⟨p1, p2⟩ := J.pos
  have n1 : R.krempeOn (wallR k) (cutRight o (o.posV + hO)) = false :=
    not_on hE J.lk.hpos (Or.inr (by have := J.meet; show k.posV + k.h + 1 / 10 ^ 5 ≤ o.posV + hO; linarith))
  have n2 : R.krempeOn (wallR o) (cutRight k (o.posV + -hU)) = false :=
    not_on hE J.lo.hpos (Or.inl (by show o.posV + -hU ≤ o.posV - 1 / 10 ^ 5; linarith))
  rw [n1, n2, Bool.or_false, Bool.false_or, Bool.and_eq_true, on_cut hE J.lk', on_cut hE J.lo, sub_eq_add_neg]

/-- C106 (rejected): exact arithmetic, cone and shell in memory with their own outlines, cuts clear of the ends of the walls.
If the stored point of one of the two cuts misses the wall by so much that (height of the part) * (rounding error) is at least
1e-8, `KegelKrempe(r=0)` raises an AssertionError. -/
theorem C106_rejected (hE : R.IsExact) {h : Heap K} {hO hU : K} {k o : ShellObj K} (u : Under K) (P : Parts h k o)
    (J : Junction k.dim o.dim hO hU)
    (hs : 1 / 10 ^ 8 ≤ k.dim.h * slip k.dim (o.dim.posV - hU) ∨ 1 / 10 ^ 8 ≤ o.dim.h * slip o.dim (o.dim.posV + hO)) :
    R.krempeNew h hO hU k o u = .error .assertion := by
  obtain ⟨s0, s1, s2, s3, hk, a0, -⟩ := shell_segs P.kegel
  obtain ⟨t0, t1, t2, t3, ho, b0, -⟩ := shell_segs P.oben
  refine krempe_reject u hk ho (p := cutRight k.dim (o.dim.posV + -hU)) (r := cutRight o.dim (o.dim.posV + hO)) ?_ ?_ ?_
  · rw [P.kegel, a0]
    exact cut_ip hE J.lk' _
  · rw [P.oben, b0]
    exact cut_ip hE J.lo _
  · rw [a0, b0, Bool.eq_false_iff, ne_eq, J.check hE]
    rintro ⟨h1, h2⟩
    rcases hs with h | h <;> linarith

/-- C106 (built): otherwise the knuckle is built.  Its outline is the hexagon through the cuts and the junction,
counterclockwise and closed, its graph consists of the walls of it; the cone and the shell above are cut back to the cuts (the
cone only if it is not the part below at the same time); nothing that existed before is changed. -/
theorem C106_built (hE : R.IsExact) {h : Heap K} {hO hU : K} {k o : ShellObj K} (u : Under K) (P : Parts h k o)
    (J : Junction k.dim o.dim hO hU)
    (h1 : k.dim.h * slip k.dim (o.dim.posV - hU) < 1 / 10 ^ 8) (h2 : o.dim.h * slip o.dim (o.dim.posV + hO) < 1 / 10 ^ 8) :
    ∃ g part w, R.krempeNew h hO hU k o u = .ok (g, part, w) ∧ h.Ext g ∧
      g.vals part.line.segs ~r knuckle o.dim.posH o.dim.posV (o.dim.d0 / 2) (cutRad k.dim (o.dim.posV - hU))
        (cutRad o.dim (o.dim.posV + hO)) hO hU ∧
      part.graph = g.walls part.line.segs ∧
      (u ≠ .kegel → Made g w.kegel (shell ⟨k.dim.posV, k.dim.posH, k.dim.d0, 2 * cutRad k.dim (o.dim.posV - hU), k.dim.h - hU⟩ .nonWall)) ∧
      Made g w.oben (shell ⟨o.dim.posV + hO, o.dim.posH, 2 * cutRad o.dim (o.dim.posV + hO), o.dim.d1, o.dim.h - hO⟩ .nonWall) ∧
      (u = .kegel → Made g w.kegel (shell k.dim (if k.skirt then .wall else .nonWall))) ∧
      (∀ v, u = .shell v → Grid v.dim.posH → Grid v.dim.posV → Grid v.dim.h → Grid (v.dim.d0 / 2) → Grid (v.dim.d1 / 2) → v.dim.posH = o.dim.posH →
        ∃ v', w.unten = some v' ∧
          Made g v' (shell ⟨v.dim.posV, v.dim.posH, v.dim.d0, o.dim.d0, o.dim.posV - v.dim.posV⟩ (if v.skirt then .wall else .nonWall))) := by
  obtain ⟨s0, s1, s2, s3, hk, a0, a1, -⟩ := shell_segs P.kegel
  obtain ⟨t0, t1, t2, t3, ho, b0, -⟩ := shell_segs P.oben
  obtain ⟨p1, p2⟩ := J.pos
  obtain ⟨r0, g0⟩ := J.lk.cutRad_ge
  obtain ⟨r1, g1⟩ := J.lo.cutRad_ge
  have e5 : (0 : K) < 1 / 10 ^ 5 := by positivity
  have ax := J.axis
  set c := o.dim.posH with hc
  set v := o.dim.posV with hv
  set x0 := cutRad k.dim (v - hU) with hx0
  set x1 := cutRad o.dim (v + hO) with hx1
  have ep : cutRight k.dim (v + -hU) = ⟨c + x0, v - hU⟩ := by
    unfold cutRight
    rw [hx0, cutRad, ax, ← sub_eq_add_neg]
    congr 1
    ring
  have er : cutRight o.dim (v + hO) = ⟨c + x1, v + hO⟩ := by
    unfold cutRight
    rw [hx1, cutRad]
    congr 1
    ring
  have hq : topR k.dim = ⟨c + o.dim.d0 / 2, v⟩ := by
    unfold topR
    rw [ax, J.same, J.meet]
  have hap : Apart R.tol {x | x = (⟨c + x0, v - hU⟩ : Pt K) ∨ x = ⟨c + o.dim.d0 / 2, v⟩ ∨ x = ⟨c + x1, v + hO⟩} := by
    rw [hE.tol']
    have key : ∀ x, (x = (⟨c + x0, v - hU⟩ : Pt K) ∨ x = ⟨c + o.dim.d0 / 2, v⟩ ∨ x = ⟨c + x1, v + hO⟩) →
        ∃ i, x = knucklePt c v (o.dim.d0 / 2) x0 x1 hO hU i := by
      rintro x (rfl | rfl | rfl)
      exacts [⟨(0 : Fin 6), rfl⟩, ⟨(1 : Fin 6), rfl⟩, ⟨(2 : Fin 6), rfl⟩]
    intro x hx y hy hxy
    obtain ⟨i, rfl⟩ := key x hx
    obtain ⟨j, rfl⟩ := key y hy
    exact knucklePt_apart J.lo.r0 r0 r1 p1 p2 i j fun e => hxy (by rw [e])
  obtain ⟨-, hbuilt⟩ := krempeSegs_spec hE.isRounding h hO hU k o u hk ho (P.hasK s1 (by rw [hk]; simp)) (P.hasO t0 (by rw [ho]; simp))
    (p := ⟨c + x0, v - hU⟩) (q := ⟨c + o.dim.d0 / 2, v⟩) (r := ⟨c + x1, v + hO⟩)
    (by rw [P.kegel, a0, ← ep]; exact cut_ip hE J.lk' _) (by rw [P.oben, b0, ← er]; exact cut_ip hE J.lo _)
    (by rw [a1]; exact hq) (by rw [b0]; rfl)
    (by intro e; injection e with _ e; linarith) (by intro e; injection e with _ e; linarith) hap
  obtain ⟨g, w, hw, km⟩ := hbuilt (by rw [a0, b0, ← ep, ← er]; exact (J.check hE).2 ⟨h1, h2⟩)
  obtain ⟨g', part, f1, f2, f3, f4, -, f6⟩ := krempe_finish hE hc.symm J.lo.gH J.lo.gV J.lo.g0 g0 g1 J.lo.gv J.lk.gv J.lo.r0 r0 r1 p1 p2 km
    J.conv hw
  have mir : ∀ x y, Grid x → Grid y → mirrored R o.dim.posH ⟨c + x, y⟩ = ⟨c - x, y⟩ := by
    intro x y hx hy
    rw [← hc, mirrored_exact hE ((hE.stored_iff _).2 ⟨J.lo.gH.add hx, hy⟩) ((hE.stored_iff _).2 ⟨J.lo.gH, grid_zero⟩)]
    unfold reflect
    dsimp only
    congr 1
    ring
  have gm : ∀ x y : K, Grid x → Grid y → R.mkPt (c + x) y = ⟨c + x, y⟩ ∧ R.mkPt (c - x) y = ⟨c - x, y⟩ := fun x y hx hy =>
    ⟨hE.mkPt_grid (J.lo.gH.add hx) hy, hE.mkPt_grid (J.lo.gH.sub hx) hy⟩
  obtain ⟨k0, -, -, k3, -, -⟩ := C72_corners hE k.dim J.lk.gH J.lk.gV J.lk.gh J.lk.g0 J.lk.g1
  obtain ⟨-, o1, o2, -, -, -⟩ := C72_corners hE o.dim J.lo.gH J.lo.gV J.lo.gh J.lo.g0 J.lo.g1
  have mo := km.oben
  have mk := km.kegel
  have ma := km.alias'
  have mu := km.unten
  rw [mir _ _ g1 J.lo.gv, (gm _ _ g1 J.lo.gv).1, (gm _ _ g1 J.lo.gv).2, o1, o2] at mo
  rw [mir _ _ g0 J.lk.gv, (gm _ _ g0 J.lk.gv).1, (gm _ _ g0 J.lk.gv).2, k0, k3] at mk
  rw [mir _ _ J.lo.g0 J.lo.gV, (gm _ _ J.lo.g0 J.lo.gV).1, (gm _ _ J.lo.g0 J.lo.gV).2, k0, k3] at ma
  rw [mir _ _ J.lo.g0 J.lo.gV, (gm _ _ J.lo.g0 J.lo.gV).1, (gm _ _ J.lo.g0 J.lo.gV).2] at mu
  refine ⟨g', part, w, f1, f2, f3, f4, ?_, ?_, ?_, ?_⟩
  · intro hu
    have := f6 w.kegel _ (Or.inl rfl) (mk hu)
    have e : k.dim.posV + (k.dim.h - hU) = v - hU := by have := J.meet; linarith
    unfold shell
    dsimp only
    rw [e, mul_div_cancel_left₀ _ (two_ne_zero)]
    rw [ax] at this ⊢
    exact this
  · have := f6 w.oben _ (Or.inr (Or.inl rfl)) mo
    have e : v + hO + (o.dim.h - hO) = v + o.dim.h := by ring
    unfold shell
    dsimp only
    rw [e, mul_div_cancel_left₀ _ (two_ne_zero)]
    exact this
  · intro hu
    have := f6 w.kegel _ (Or.inl rfl) (ma hu)
    unfold shell
    rw [ax, J.same, J.meet]
    rw [ax] at this
    exact this
  · intro x hx gx1 gx2 gx3 gx4 gx5 hax
    obtain ⟨v', w1, w2, w3⟩ := mu x hx
    obtain ⟨u0, -, -, u3, -, -⟩ := C72_corners hE x.dim gx1 gx2 gx3 gx4 gx5
    rw [u0, u3] at w3
    refine ⟨v', w1, ?_⟩
    have := f6 v' _ (Or.inr (Or.inr w1)) w3
    unfold shell
    dsimp only
    rw [show x.dim.posV + (v - x.dim.posV) = v by ring, hax]
    rw [hax] at this
    exact this

/-- C106 (arguments): a cone that does not widen upwards or a distance that is not positive: AssertionError. -/
theorem C106_arguments (R : Rt K) (h : Heap K) (hO hU : K) (k o : ShellObj K) (u : Under K)
    (hb : k.dim.d1 ≤ k.dim.d0 ∨ hO ≤ 0 ∨ hU ≤ 0) : R.krempeNew h hO hU k o u = .error .assertion := by
  unfold Rt.krempeNew
  split_ifs with h1 h2 h3
  · exfalso
    rcases hb with hb | hb | hb
    · exact absurd h1 (not_lt.2 hb)
    · exact absurd h2 (not_lt.2 hb)
    · exact absurd h3 (not_lt.2 hb)
  all_goals rfl

/-- C106 (short parts): parts lower than 2 are always accepted. -/
theorem C106_short {k o : MantelDim K} {hO hU : K} (J : Junction k o hO hU) (h1 : k.h < 2) (h2 : o.h < 2) :
    k.h * slip k (o.posV - hU) < 1 / 10 ^ 8 ∧ o.h * slip o (o.posV + hO) < 1 / 10 ^ 8 := by
  have key : ∀ (m : MantelDim K) (z : K), 0 < m.h → m.h < 2 → m.h * slip m z < 1 / 10 ^ 8 := by
    intro m z h0 hm
    have hs : slip m z ≤ 1 / (2 * 10 ^ 8) := abs_rhe8_sub_le _
    have : m.h * slip m z ≤ m.h * (1 / (2 * 10 ^ 8)) := mul_le_mul_of_nonneg_left hs h0.le
    have e : (1 : K) / 10 ^ 8 = 2 * (1 / (2 * 10 ^ 8)) := by norm_num
    have e0 : (0 : K) < 1 / (2 * 10 ^ 8) := by positivity
    rw [e]
    nlinarith
  exact ⟨key k _ J.lk.hpos h1, key o _ J.lo.hpos h2⟩

/-- C106 (cylinders): the cut of a cylinder is exact. -/
theorem C106_cylinder {m : MantelDim K} {z : K} (hl : Level m z) (h : m.d0 = m.d1) : slip m z = 0 ∧ cutRad m z = m.d0 / 2 := by
  have e : radAt m z = m.d0 / 2 := by
    unfold radAt
    rw [h]
    ring
  unfold slip cutRad
  rw [e, (hl.gH.add hl.g0).rhe8]
  exact ⟨by simp, by ring⟩

/-- C106 (cuts outside): a cut 1e-5 or more below the cone or above the upper part raises an AssertionError. -/
theorem C106_outside (hE : R.IsExact) {h : Heap K} {hO hU : K} {k o : ShellObj K} (u : Under K) (P : Parts h k o)
    (hk : 0 < k.dim.h) (ho : 0 < o.dim.h) (dk : 1 / 10 ^ 5 ≤ k.dim.d0 / 2) (dO : 1 / 10 ^ 5 ≤ o.dim.d0 / 2)
    (gU : Grid (o.dim.posV - hU)) (gO : Grid (o.dim.posV + hO)) (meet : k.dim.posV + k.dim.h = o.dim.posV)
    (pO : 1 / 10 ^ 5 ≤ hO) (pU : 1 / 10 ^ 5 ≤ hU)
    (hb : k.dim.h + 1 / 10 ^ 5 ≤ hU ∨ o.dim.h + 1 / 10 ^ 5 ≤ hO) :
    R.krempeNew h hO hU k o u = .error .assertion := by
  obtain ⟨s0, s1, s2, s3, hk', a0, -⟩ := shell_segs P.kegel
  obtain ⟨t0, t1, t2, t3, ho', b0, -⟩ := shell_segs P.oben
  rw [sub_eq_add_neg] at gU
  refine krempe_reject u hk' ho' (p := cutRight k.dim (o.dim.posV + -hU)) (r := cutRight o.dim (o.dim.posV + hO)) ?_ ?_ ?_
  · rw [P.kegel, a0]
    exact cut_ip' hE gU hk dk _
  · rw [P.oben, b0]
    exact cut_ip' hE gO ho dO _
  · rw [a0, b0]
    have n1 : R.krempeOn (wallR k.dim) (cutRight o.dim (o.dim.posV + hO)) = false :=
      not_on hE hk (Or.inr (by show k.dim.posV + k.dim.h + 1 / 10 ^ 5 ≤ o.dim.posV + hO; linarith))
    have n2 : R.krempeOn (wallR o.dim) (cutRight k.dim (o.dim.posV + -hU)) = false :=
      not_on hE ho (Or.inl (by show o.dim.posV + -hU ≤ o.dim.posV - 1 / 10 ^ 5; linarith))
    rw [n1, n2]
    rcases hb with hb | hb
    · rw [not_on hE hk (Or.inl (by show o.dim.posV + -hU ≤ k.dim.posV - 1 / 10 ^ 5; linarith))]
      rfl
    · rw [not_on hE ho (p := cutRight o.dim (o.dim.posV + hO))
        (Or.inr (by show o.dim.posV + o.dim.h + 1 / 10 ^ 5 ≤ o.dim.posV + hO; linarith))]
      simp

/-- C106 (area): cone, knuckle and upper part together enclose the area of the two uncut parts, up to 2e-8 (`sideSum` is
twice the area). -/
theorem C106_area {k o : MantelDim K} {hO hU : K} (J : Junction k o hO hU)
    (h1 : k.h * slip k (o.posV - hU) < 1 / 10 ^ 8) (h2 : o.h * slip o (o.posV + hO) < 1 / 10 ^ 8) :
    |sideSum (shell ⟨k.posV, k.posH, k.d0, 2 * cutRad k (o.posV - hU), k.h - hU⟩ .nonWall) +
      sideSum (knuckle o.posH o.posV (o.d0 / 2) (cutRad k (o.posV - hU)) (cutRad o (o.posV + hO)) hO hU) +
      sideSum (shell ⟨o.posV + hO, o.posH, 2 * cutRad o (o.posV + hO), o.d1, o.h - hO⟩ .nonWall) -
      (sideSum (shell k .nonWall) + sideSum (shell o .nonWall))| < 4 / 10 ^ 8 := by
  have e1 : cutRad k (o.posV - hU) = radAt k (o.posV - hU) + (rhe8 (k.posH + radAt k (o.posV - hU)) - (k.posH + radAt k (o.posV - hU))) := by
    unfold cutRad; ring
  have e2 : cutRad o (o.posV + hO) = radAt o (o.posV + hO) + (rhe8 (o.posH + radAt o (o.posV + hO)) - (o.posH + radAt o (o.posV + hO))) := by
    unfold cutRad; ring
  unfold slip at h1 h2
  set a := rhe8 (k.posH + radAt k (o.posV - hU)) - (k.posH + radAt k (o.posV - hU)) with ha
  set b := rhe8 (o.posH + radAt o (o.posV + hO)) - (o.posH + radAt o (o.posV + hO)) with hb
  clear_value a b
  have hk := J.lk.hpos
  have ho := J.lo.hpos
  have f1 : k.h * radAt k (o.posV - hU) = k.h * (k.d0 / 2) + (k.h - hU) * (k.d1 / 2 - k.d0 / 2) := by
    have : k.h - hU = o.posV - hU - k.posV := by have := J.meet; linarith
    rw [this]
    unfold radAt
    field_simp
  have f2 : o.h * radAt o (o.posV + hO) = o.h * (o.d0 / 2) + hO * (o.d1 / 2 - o.d0 / 2) := by
    unfold radAt
    field_simp
    ring
  have key : sideSum (shell ⟨k.posV, k.posH, k.d0, 2 * cutRad k (o.posV - hU), k.h - hU⟩ .nonWall) +
      sideSum (knuckle o.posH o.posV (o.d0 / 2) (cutRad k (o.posV - hU)) (cutRad o (o.posV + hO)) hO hU) +
      sideSum (shell ⟨o.posV + hO, o.posH, 2 * cutRad o (o.posV + hO), o.d1, o.h - hO⟩ .nonWall) -
      (sideSum (shell k .nonWall) + sideSum (shell o .nonWall)) = 2 * (k.h * a) + 2 * (o.h * b) := by
    rw [e1, e2]
    simp only [sideSum, shell, outline, knuckle, List.map_cons, List.map_nil, List.sum_cons, List.sum_nil]
    have hm := J.meet
    have hs := J.same
    have hx := J.axis
    rw [hx]
    rw [hs] at f1 ⊢
    rw [← hm] at f1 f2 ⊢
    generalize radAt k (k.posV + k.h - hU) = x at f1 ⊢
    generalize radAt o (k.posV + k.h + hO) = y at f2 ⊢
    linear_combination 2 * f1 + 2 * f2
  rw [key]
  have t1 := abs_lt.1 (show |k.h * a| < 1 / 10 ^ 8 by rw [abs_mul, abs_of_pos hk]; exact h1)
  have t2 := abs_lt.1 (show |o.h * b| < 1 / 10 ^ 8 by rw [abs_mul, abs_of_pos ho]; exact h2)
  rw [abs_lt]
  constructor <;> linarith [t1.1, t1.2, t2.1, t2.2]

/-- C106 (convex): if the upper part does not widen and the cone is really narrower at the cut, the hexagon is convex and
passed counterclockwise. -/
theorem C106_convex {c v r r0 r1 hO hU : K} (h0 : 0 < r0) (h1 : 0 < r1) (h01 : r0 < r) (h12 : r1 ≤ r) (ho : 0 < hO) (hu : 0 < hU) :
    ConvexCcw (knuckle c v r r0 r1 hO hU) where
  chain := by
    intro k hk
    have : k < 6 := hk
    interval_cases k <;> simp [knuckle]
  nodup := by
    have : (knuckle c v r r0 r1 hO hU).map Seg.i = [⟨c + r0, v - hU⟩, ⟨c + r, v⟩, ⟨c + r1, v + hO⟩, ⟨c - r1, v + hO⟩, ⟨c - r, v⟩, ⟨c - r0, v - hU⟩] := rfl
    rw [this]
    simp only [List.nodup_cons, List.mem_cons, List.not_mem_nil, or_false, not_or, Pt.mk.injEq, not_and, List.nodup_nil, not_false_eq_true, and_true]
    refine ⟨⟨?_, ?_, ?_, ?_, ?_⟩, ⟨?_, ?_, ?_, ?_⟩, ⟨?_, ?_, ?_⟩, ⟨?_, ?_⟩, ?_⟩ <;> intro h <;> (try intro h') <;> linarith
  left := by
    intro s hs o ho'
    simp only [knuckle, List.mem_cons, List.not_mem_nil, or_false] at hs ho'
    rcases hs with rfl | rfl | rfl | rfl | rfl | rfl <;> rcases ho' with rfl | rfl | rfl | rfl | rfl | rfl <;>
      first
        | exact Or.inl rfl
        | exact Or.inr (Or.inl rfl)
        | (right; right; simp only [det3]; nlinarith [mul_pos h0 ho, mul_pos h0 hu, mul_pos h1 ho, mul_pos h1 hu, mul_pos (sub_pos.2 h01) ho,
            mul_pos (sub_pos.2 h01) hu, mul_nonneg (sub_nonneg.2 h12) ho.le, mul_nonneg (sub_nonneg.2 h12) hu.le, mul_pos ho hu])

/-- C106 (the cone as the part below): with `hts = (upper part, cone)` the cone keeps its full outline, so that it overlaps the
knuckle: the point of the axis half way down to the lower cut is strictly inside both. -/
theorem C106_overlap {k o : MantelDim K} {hO hU : K} (J : Junction k o hO hU) (h0 : cutRad k (o.posV - hU) < o.d0 / 2)
    (h1 : cutRad o (o.posV + hO) ≤ o.d0 / 2) (b : SegCls) :
    InsideCcw (shell k b) ⟨o.posH, o.posV - hU / 2⟩ ∧
    InsideCcw (knuckle o.posH o.posV (o.d0 / 2) (cutRad k (o.posV - hU)) (cutRad o (o.posV + hO)) hO hU) ⟨o.posH, o.posV - hU / 2⟩ := by
  obtain ⟨p1, p2⟩ := J.pos
  have e5 : (0 : K) < 1 / 10 ^ 5 := by positivity
  have a0 := e5.trans_le J.lk.cutRad_ge.1
  have a1 := e5.trans_le J.lo.cutRad_ge.1
  have kh := J.lk.hpos
  have k0 := e5.trans_le J.lk.r0
  have k1 := e5.trans_le J.lo.r0
  have pO := e5.trans_le p1
  have pU := e5.trans_le p2
  have lo := J.lk.lo
  have hm := J.meet
  have hx := J.axis
  have hs := J.same
  have hc := J.conv
  generalize cutRad k (o.posV - hU) = x at *
  generalize cutRad o (o.posV + hO) = y at *
  constructor
  · intro s hs'
    simp only [shell, outline, List.mem_cons, List.not_mem_nil, or_false] at hs'
    have hk : 0 < k.h - hU / 2 := by linarith
    have hd : 0 < k.d1 / 2 - k.d0 / 2 := by linarith
    rcases hs' with rfl | rfl | rfl | rfl <;> simp only [det3] <;> rw [← hm, hx] <;>
      linarith [mul_pos (show 0 < k.d1 / 2 by rw [hs]; exact k1) pU, mul_pos hd hk, mul_pos kh k0, mul_pos k1 pU, mul_pos k0 hk, mul_pos pU hd]
  · intro s hs'
    simp only [knuckle, List.mem_cons, List.not_mem_nil, or_false] at hs'
    have hd : 0 < o.d0 / 2 - x := by linarith
    have hy : 0 ≤ o.d0 / 2 - y := by linarith
    rcases hs' with rfl | rfl | rfl | rfl | rfl | rfl <;> simp only [det3] <;>
      linarith [mul_pos hd pU, mul_pos pU a0, mul_nonneg hy pU.le, mul_pos pO k1, mul_pos a1 pU, mul_pos a1 pO]

/-- the vessel of the test-suite (test_SRhauptteile.py:846-852), in memory -/
def exParts : Heap ℚ × ShellObj ℚ × ShellObj ℚ :=
  let a := (⟨fun _ => ⟨0, 0⟩, fun _ => ⟨0, 0, .line⟩, 0, 0⟩ : Heap ℚ).newOutline ⟨1, 1⟩ ⟨2, 2⟩ ⟨-2, 2⟩ ⟨-1, 1⟩ .nonWall
  let b := a.1.newOutline ⟨2, 2⟩ ⟨2, 7 / 2⟩ ⟨-2, 7 / 2⟩ ⟨-2, 2⟩ .nonWall
  (b.1, ⟨⟨1, 0, 2, 4, 1⟩, ⟨a.2, true⟩, a.1.walls a.2, false⟩, ⟨⟨2, 0, 4, 4, 3 / 2⟩, ⟨b.2, true⟩, b.1.walls b.2, false⟩)

example : Parts exParts.1 exParts.2.1 exParts.2.2 := by
  refine ⟨by decide +kernel, by decide +kernel, ?_, ?_⟩
  · have : ∀ s ∈ exParts.2.1.line.segs, s < exParts.1.nseg ∧ (exParts.1.seg s).i < exParts.1.npt ∧ (exParts.1.seg s).j < exParts.1.npt := by
      decide +kernel
    exact fun s hs => ⟨(this s hs).1, (this s hs).2.1, (this s hs).2.2⟩
  · have : ∀ s ∈ exParts.2.2.line.segs, s < exParts.1.nseg ∧ (exParts.1.seg s).i < exParts.1.npt ∧ (exParts.1.seg s).j < exParts.1.npt := by
      decide +kernel
    exact fun s hs => ⟨(this s hs).1, (this s hs).2.1, (this s hs).2.2⟩

example : Junction (⟨1, 0, 2, 4, 1⟩ : MantelDim ℚ) ⟨2, 0, 4, 4, 3 / 2⟩ (2 / 5) (3 / 10) where
  lk := ⟨⟨0, by norm_num⟩, ⟨10 ^ 8, by norm_num⟩, ⟨10 ^ 8, by norm_num⟩, ⟨10 ^ 8, by norm_num⟩, ⟨2 * 10 ^ 8, by norm_num⟩,
    ⟨17 * 10 ^ 7, by norm_num⟩, by norm_num, by norm_num, by norm_num, by norm_num⟩
  lo := ⟨⟨0, by norm_num⟩, ⟨2 * 10 ^ 8, by norm_num⟩, ⟨15 * 10 ^ 7, by norm_num⟩, ⟨2 * 10 ^ 8, by norm_num⟩, ⟨2 * 10 ^ 8, by norm_num⟩,
    ⟨24 * 10 ^ 7, by norm_num⟩, by norm_num, by norm_num, by norm_num, by norm_num⟩
  axis := rfl
  meet := by norm_num
  same := rfl
  conv := by norm_num

/-- the same vessel in binary64 -/
example : (exRt.krempeNew exParts.1 (exRt.fl (2 / 5)) (exRt.fl (3 / 10)) exParts.2.1 exParts.2.2 .none).toOption.isSome = true := by
  decide +kernel

/-- cone of height 7 under a cylinder, in memory -/
def exHigh : Heap ℚ × ShellObj ℚ × ShellObj ℚ :=
  let a := (⟨fun _ => ⟨0, 0⟩, fun _ => ⟨0, 0, .line⟩, 0, 0⟩ : Heap ℚ).newOutline ⟨1, 0⟩ ⟨2, 7⟩ ⟨-2, 7⟩ ⟨-1, 0⟩ .nonWall
  let b := a.1.newOutline ⟨2, 7⟩ ⟨2, 8⟩ ⟨-2, 8⟩ ⟨-2, 7⟩ .nonWall
  (b.1, ⟨⟨0, 0, 2, 4, 7⟩, ⟨a.2, true⟩, a.1.walls a.2, false⟩, ⟨⟨7, 0, 4, 4, 1⟩, ⟨b.2, true⟩, b.1.walls b.2, false⟩)

/-- C106 (expected to be accepted, but rejected): a cone of height 7 with diameters 2 and 4 under a cylinder, cuts 2 below and
1/2 above the junction, in binary64: AssertionError. -/
theorem C106_high_cone_rejected : exRt.krempeNew exHigh.1 (1 / 2) 2 exHigh.2.1 exHigh.2.2 .none = .error .assertion := by
  have : (match exRt.krempeNew exHigh.1 (1 / 2) 2 exHigh.2.1 exHigh.2.2 .none with
    | .error .assertion => true
    | _ => false) = true := by decide +kernel
  split at this
  · assumption
  · cases this

end Srep
