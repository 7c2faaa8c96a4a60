import Verif.Props.RaumIntex
import Verif.Props.Intex
import Verif.Props.Head

/-! Skirts (C96) and vessels with one room (C97). -/

set_option linter.unusedSectionVars false

namespace Srep
open Rt Ray
variable {K : Type} [Field K] [LinearOrder K] [IsStrictOrderedRing K] [FloorRing K] {R : Rt K}

/-! ### drawings -/

theorem SameDrawing.symm {l m : List (Seg K)} (h : SameDrawing l m) : SameDrawing m l := by
  obtain ⟨l', hp, h2⟩ := h
  have h3 : List.Forall₂ SameEdge m l' := by
    have := h2.flip
    exact this.imp fun _ _ h => SameEdge.symm h
  have h4 : Relation.Comp (List.Forall₂ SameEdge) List.Perm m l := ⟨l', h3, hp⟩
  rw [List.forall₂_comp_perm_eq_perm_comp_forall₂] at h4
  obtain ⟨m', hm, h5⟩ := h4
  exact ⟨m', hm.symm, h5⟩

/-! ### parts -/

theorem evalAll_two {α β ε : Type} {f : ℕ → α → Except ε β} {a b : α} {x y : β} (h0 : f 0 a = .ok x) (h1 : f 1 b = .ok y) :
    evalAll f 0 [a, b] = .ok [x, y] := by
  unfold evalAll
  rw [h0]
  dsimp only
  unfold evalAll
  rw [Nat.zero_add, h1]
  rfl

theorem graphPart_two {ν ε : Type} {name : ν} {s t : Seg K} {ev : ℕ → Except ε (List (List (Pt K) × List (Pt K)))}
    {x y : List (Pt K) × List (Pt K)} (h : ∀ n, ev n = .ok [x, y]) :
    graphPart name [s, t] ev = .ok ⟨name, [s, t], x.1.map (fun p => (p, s)) ++ y.1.map (fun p => (p, t)),
      x.2.map (fun p => (p, s)) ++ y.2.map (fun p => (p, t)), []⟩ := by
  unfold graphPart
  simp only [addIntex, h, Except.map, List.append_nil]
  rfl

/-- the graph of a sound shell with its reference points; the points do not depend on the random targets -/
theorem shellPart_ok {ν : Type} (hE : R.IsExact) {m : MantelDim K} (hs : Sound m) (name : ν) (b : SegCls)
    (ω : ℕ → ℕ → ℕ → ℕ → ℕ → Pt K)
    (hω : ∀ s, (s = rightWall m ∨ s = leftWall m) → ∀ r, R.intexFour m.posH 50000 (2 / 1000) s = .ok r → ∀ p ∈ r, ∀ e i n c k,
      GoodTarget (shell m b) p (ω e i n c k) ∧ Spread (shell m b) p (ω e i n c k)) (fuel : ℕ) :
    ∃ p q r t p' q' r' t', R.shellPart name (shell m b) [rightWall m, leftWall m] m.posH ω (fuel + 1) =
      .ok ⟨name, [rightWall m, leftWall m], [(p, rightWall m), (q, rightWall m), (p', leftWall m), (q', leftWall m)],
        [(r, rightWall m), (t, rightWall m), (r', leftWall m), (t', leftWall m)], []⟩ ∧
      (∀ x ∈ [p, q, p', q'], InsideCcw (shell m b) x) ∧ ∀ x ∈ [r, t, r', t'], BeyondWall m x := by
  have hh : 0 < m.h := lt_of_lt_of_le (by positivity) hs.high
  have hd0 : 0 < m.d0 := lt_of_lt_of_le (by positivity) hs.wide
  have hc := shell_convex hd0 hs.top hh b
  have hne : shell m b ≠ [] := by simp [shell, outline]
  obtain ⟨⟨p, q, r, t, e, h1, h2, h3, h4⟩, p', q', r', t', e', h1', h2', h3', h4'⟩ := C94_points hE hs b
  have g := hω _ (Or.inl rfl) _ e
  have g' := hω _ (Or.inr rfl) _ e'
  have hr : ∀ v i, R.mantelIntex (shell m b) m.posH (rightWall m) (ω v i) (fuel + 1) = .ok ([q, t], [p, r]) := by
    intro v i
    have c0 := intexClass_outside hE hc (h1.outside b) (ω := ω v i 0) (fun c _ k _ => g p (by simp) v i 0 c k) fuel
    have c1 := intexClass_inside hE hc hne h2 (ω := ω v i 1) (fun c _ k _ => g q (by simp) v i 1 c k) fuel
    have c2 := intexClass_outside hE hc (h3.outside b) (ω := ω v i 2) (fun c _ k _ => g r (by simp) v i 2 c k) fuel
    have c3 := intexClass_inside hE hc hne h4 (ω := ω v i 3) (fun c _ k _ => g t (by simp) v i 3 c k) fuel
    unfold Rt.mantelIntex
    rw [e]
    simp only [Rt.intexSort, c0, c1, c2, c3, Except.map, if_true, Bool.false_eq_true, if_false, Nat.reduceAdd]
  have hl : ∀ v i, R.mantelIntex (shell m b) m.posH (leftWall m) (ω v i) (fuel + 1) = .ok ([p', r'], [q', t']) := by
    intro v i
    have c0 := intexClass_inside hE hc hne h1' (ω := ω v i 0) (fun c _ k _ => g' p' (by simp) v i 0 c k) fuel
    have c1 := intexClass_outside hE hc (h2'.outside b) (ω := ω v i 1) (fun c _ k _ => g' q' (by simp) v i 1 c k) fuel
    have c2 := intexClass_inside hE hc hne h3' (ω := ω v i 2) (fun c _ k _ => g' r' (by simp) v i 2 c k) fuel
    have c3 := intexClass_outside hE hc (h4'.outside b) (ω := ω v i 3) (fun c _ k _ => g' t' (by simp) v i 3 c k) fuel
    unfold Rt.mantelIntex
    rw [e']
    simp only [Rt.intexSort, c0, c1, c2, c3, Except.map, if_true, Bool.false_eq_true, if_false, Nat.reduceAdd]
  refine ⟨q, t, p, r, p', r', q', t', ?_, ?_, ?_⟩
  · unfold Rt.shellPart
    refine graphPart_two (x := ([q, t], [p, r])) (y := ([p', r'], [q', t'])) fun v => ?_
    exact evalAll_two (f := fun i s => R.mantelIntex (shell m b) m.posH s (ω v i) (fuel + 1)) (hr v 0) (hl v 1)
  · intro x hx
    simp only [List.mem_cons, List.not_mem_nil, or_false] at hx
    rcases hx with rfl | rfl | rfl | rfl <;> assumption
  · intro x hx
    simp only [List.mem_cons, List.not_mem_nil, or_false] at hx
    rcases hx with rfl | rfl | rfl | rfl <;> assumption

/-- the graph of a head with its reference points -/
theorem headPart_ok {ν : Type} (hE : R.IsExact) (m : HeadDim K) (hp : Grid m.posH) (hv : Grid m.posV)
    (hd : Grid (m.d / 2)) (hd6 : 1 / 10 ^ 6 ≤ m.d) (ho : m.orient = 1 ∨ m.orient = -1) (name : ν) :
    ∃ H : K, 0 < H ∧ ∃ a b c : Pt K, a = ⟨m.posH - m.d / 2, m.posV⟩ ∧ b = ⟨m.posH, m.posV + m.orient * H⟩ ∧
      c = ⟨m.posH + m.d / 2, m.posV⟩ ∧ ∃ p q r p' q' r', R.headPart name m =
        .ok ⟨name, [⟨a, b, .wall⟩, ⟨b, c, .wall⟩], [(p, ⟨a, b, .wall⟩), (q, ⟨a, b, .wall⟩), (p', ⟨b, c, .wall⟩), (q', ⟨b, c, .wall⟩)],
          [(r, ⟨a, b, .wall⟩), (r', ⟨b, c, .wall⟩)], []⟩ ∧
        (∀ x ∈ [p, q], Below m.orient (-1) a b x) ∧ Above m.orient (-1) a b r ∧
        (∀ x ∈ [p', q'], Below m.orient 1 c b x) ∧ Above m.orient 1 c b r' := by
  obtain ⟨a, b, c, hg, ha, hc, hbx, hby, ⟨p, q, r, e, h1, h2, h3⟩, p', q', r', e', h1', h2', h3'⟩ :=
    C74_reference_points hE m hp hv hd hd6 ho
  have ho2 : m.orient * m.orient = 1 := by rcases ho with h | h <;> rw [h] <;> norm_num
  refine ⟨m.orient * (b.y - m.posV), hby, a, b, c, ha, ?_, hc, p, q, r, p', q', r', ?_, ?_, h3, ?_, h3'⟩
  · rcases b with ⟨bx, bY⟩
    simp only at hbx ⊢
    rw [hbx]
    congr 1
    linear_combination (-(bY - m.posV)) * ho2
  · unfold Rt.headPart
    rw [hg]
    refine graphPart_two (x := ([p, q], [r])) (y := ([p', q'], [r'])) fun _ => ?_
    exact evalAll_two (f := fun _ s => R.headIntex m s) e e'
  · intro x hx
    simp only [List.mem_cons, List.not_mem_nil, or_false] at hx
    rcases hx with rfl | rfl <;> assumption
  · intro x hx
    simp only [List.mem_cons, List.not_mem_nil, or_false] at hx
    rcases hx with rfl | rfl <;> assumption

/-! ### the hexagon -/

/-- a rectangle of half width `w` and height `h` with triangles of heights `t` and `u` above and below -/
def hexagon (x y w h t u : K) : List (Seg K) :=
  [⟨⟨x + w, y⟩, ⟨x + w, y + h⟩, .wall⟩, ⟨⟨x + w, y + h⟩, ⟨x, y + h + t⟩, .wall⟩, ⟨⟨x, y + h + t⟩, ⟨x - w, y + h⟩, .wall⟩,
    ⟨⟨x - w, y + h⟩, ⟨x - w, y⟩, .wall⟩, ⟨⟨x - w, y⟩, ⟨x, y - u⟩, .wall⟩, ⟨⟨x, y - u⟩, ⟨x + w, y⟩, .wall⟩]

theorem hexagon_convex {x y w h t u : K} (hw : 0 < w) (hh : 0 < h) (ht : 0 < t) (hu : 0 < u) :
    ConvexCcw (hexagon x y w h t u) where
  chain := by
    intro k hk
    have : k < 6 := hk
    interval_cases k <;> simp [hexagon]
  nodup := by
    simp only [hexagon, List.map_cons, List.map_nil, List.nodup_cons, List.mem_cons, List.not_mem_nil, or_false, not_or,
      Pt.mk.injEq, not_and, not_false_eq_true, List.nodup_nil, and_true]
    refine ⟨⟨fun _ e => ?_, fun e => ?_, fun e => ?_, fun e => ?_, fun e => ?_⟩, ⟨fun e => ?_, fun e => ?_, fun e => ?_, fun e => ?_⟩,
      ⟨fun e => ?_, fun e => ?_, fun _ e => ?_⟩, ⟨fun _ e => ?_, fun e => ?_⟩, fun e => ?_⟩ <;> linarith
  left := by
    intro s hs o ho
    simp only [hexagon, List.mem_cons, List.not_mem_nil, or_false] at hs ho
    have p1 := mul_pos hw hh
    have p2 := mul_pos hw ht
    have p3 := mul_pos hw hu
    rcases hs with rfl | rfl | rfl | rfl | rfl | rfl <;> rcases ho with rfl | rfl | rfl | rfl | rfl | rfl <;>
      first
      | exact Or.inl rfl
      | exact Or.inr (Or.inl rfl)
      | (right; right; unfold det3; dsimp only; ring_nf; nlinarith)

theorem hexagon_inside {x y w h t u : K} (hw : 0 < w) (ht : 0 < t) (hu : 0 < u) {p : Pt K} :
    (|p.x - x| < w ∧ y < p.y ∧ p.y < y + h → InsideCcw (hexagon x y w h t u) p) ∧
    (0 < h → (Below 1 (-1) ⟨x - w, y + h⟩ ⟨x, y + h + 1 * t⟩ p ∨ Below 1 1 ⟨x + w, y + h⟩ ⟨x, y + h + 1 * t⟩ p ∨
      Below (-1) (-1) ⟨x - w, y⟩ ⟨x, y + -1 * u⟩ p ∨ Below (-1) 1 ⟨x + w, y⟩ ⟨x, y + -1 * u⟩ p) →
      InsideCcw (hexagon x y w h t u) p) := by
  have key : ∀ a b : K, (|a| < w ∧ 0 < w * b + u * (w - |a|) ∧ 0 < w * (h - b) + t * (w - |a|)) → p.x = x + a → p.y = y + b → 0 < h →
      InsideCcw (hexagon x y w h t u) p := by
    rintro a b ⟨h1, h2, h3⟩ hx hy hh s hs
    obtain ⟨a1, a2⟩ := abs_lt.1 h1
    have b1 := le_abs_self a
    have b2 := neg_abs_le a
    have c1 := mul_le_mul_of_nonneg_left b1 hu.le
    have c2 := mul_le_mul_of_nonneg_left b2 hu.le
    have c3 := mul_le_mul_of_nonneg_left b1 ht.le
    have c4 := mul_le_mul_of_nonneg_left b2 ht.le
    simp only [hexagon, List.mem_cons, List.not_mem_nil, or_false] at hs
    rcases hs with rfl | rfl | rfl | rfl | rfl | rfl <;> unfold det3 <;> simp only [hx, hy]
    · have := mul_pos hh (sub_pos.2 a2)
      ring_nf at this ⊢; linarith
    · ring_nf at h3 c3 ⊢; linarith
    · ring_nf at h3 c4 ⊢; linarith
    · have := mul_pos hh (by linarith : 0 < w + a)
      ring_nf at this ⊢; linarith
    · ring_nf at h2 c2 ⊢; linarith
    · ring_nf at h2 c1 ⊢; linarith
  constructor
  · rintro ⟨h1, h2, h3⟩
    refine key (p.x - x) (p.y - y) ⟨h1, ?_, ?_⟩ (by ring) (by ring) (by linarith)
    · have := mul_pos hw (sub_pos.2 h2)
      have := mul_pos hu (sub_pos.2 h1)
      linarith
    · have := mul_pos hw (by linarith : 0 < h - (p.y - y))
      have := mul_pos ht (sub_pos.2 h1)
      linarith
  · intro hh hB
    have fin : ∀ a b : K, p.x = x + a → p.y = y + b → ((h < b ∧ 0 < w * (h - b) + t * (w - |a|)) ∨
        (b < 0 ∧ 0 < w * b + u * (w - |a|))) → InsideCcw (hexagon x y w h t u) p := by
      rintro a b hx hy (⟨h1, h2⟩ | ⟨h1, h2⟩)
      · have hn := mul_neg_of_pos_of_neg hw (sub_neg.2 h1)
        have ha : |a| < w := sub_pos.1 (pos_of_mul_pos_right (by linarith : 0 < t * (w - |a|)) ht.le)
        refine key a b ⟨ha, ?_, h2⟩ hx hy hh
        have := mul_pos hw (by linarith : 0 < b)
        have := mul_pos hu (sub_pos.2 ha)
        linarith
      · have hn := mul_neg_of_pos_of_neg hw h1
        have ha : |a| < w := sub_pos.1 (pos_of_mul_pos_right (by linarith : 0 < u * (w - |a|)) hu.le)
        refine key a b ⟨ha, h2, ?_⟩ hx hy hh
        have := mul_pos hw (by linarith : 0 < h - b)
        have := mul_pos ht (sub_pos.2 ha)
        linarith
    refine fin (p.x - x) (p.y - y) (by ring) (by ring) ?_
    rcases hB with ⟨b1, b2, b3⟩ | ⟨b1, b2, b3⟩ | ⟨b1, b2, b3⟩ | ⟨b1, b2, b3⟩ <;> unfold det3 at b2 <;> dsimp only at b1 b2 b3
    · left
      rw [abs_of_neg (by linarith)]
      refine ⟨by linarith, ?_⟩
      ring_nf at b2 ⊢; linarith
    · left
      rw [abs_of_pos (by linarith)]
      refine ⟨by linarith, ?_⟩
      ring_nf at b2 ⊢; linarith
    · right
      rw [abs_of_neg (by linarith)]
      refine ⟨by linarith, ?_⟩
      ring_nf at b2 ⊢; linarith
    · right
      rw [abs_of_pos (by linarith)]
      refine ⟨by linarith, ?_⟩
      ring_nf at b2 ⊢; linarith

theorem hexagon_outside {x y w h t u : K} {p : Pt K} (hB : Above 1 (-1) ⟨x - w, y + h⟩ ⟨x, y + h + 1 * t⟩ p ∨
    Above 1 1 ⟨x + w, y + h⟩ ⟨x, y + h + 1 * t⟩ p ∨ Above (-1) (-1) ⟨x - w, y⟩ ⟨x, y + -1 * u⟩ p ∨
    Above (-1) 1 ⟨x + w, y⟩ ⟨x, y + -1 * u⟩ p) : OutsideCcw (hexagon x y w h t u) p := by
  rcases hB with b | b | b | b <;> replace b := b.1 <;> unfold det3 at b <;> dsimp only at b
  · refine ⟨⟨⟨x, y + h + t⟩, ⟨x - w, y + h⟩, .wall⟩, by simp [hexagon], ?_⟩
    unfold det3; dsimp only; ring_nf at b ⊢; linarith
  · refine ⟨⟨⟨x + w, y + h⟩, ⟨x, y + h + t⟩, .wall⟩, by simp [hexagon], ?_⟩
    unfold det3; dsimp only; ring_nf at b ⊢; linarith
  · refine ⟨⟨⟨x - w, y⟩, ⟨x, y - u⟩, .wall⟩, by simp [hexagon], ?_⟩
    unfold det3; dsimp only; ring_nf at b ⊢; linarith
  · refine ⟨⟨⟨x, y - u⟩, ⟨x + w, y⟩, .wall⟩, by simp [hexagon], ?_⟩
    unfold det3; dsimp only; ring_nf at b ⊢; linarith

/-! ### rooms -/

section
variable {ν ρ : Type}

/-- the reference points of a part are where they should be: the internal ones in the polygon `H`, the external ones outside,
and every segment has an external one -/
structure Placed (H : List (Seg K)) (g : GPart ν K) : Prop where
  segs : g.segs ≠ []
  internal : ∀ x ∈ g.internal, InsideCcw H x.1
  some : g.internal ≠ []
  external : ∀ x ∈ g.external, OutsideCcw H x.1
  each : ∀ s ∈ g.segs, ∃ p, (p, s) ∈ g.external
  indifferent : g.indifferent = []

/-- C97: if the walls of a room, in any order and direction, draw a strictly convex polygon and the reference points of all
parts are on their proper sides of it, the room is recorded as inner room of each of its parts, and as nothing else. -/
theorem C97_room (hE : R.IsExact) (r : GRoom ν ρ K) (H : List (Seg K)) (hH : ConvexCcw H) (h3 : 3 ≤ H.length)
    (hd : SameDrawing r.polygon H) (hp : ∀ g ∈ r.walls, Placed H g) (ω : ℕ → ℕ → IntexKind → ℕ → ℕ → ℕ → Pt K)
    (hω : ∀ g ∈ r.walls, ∀ x ∈ g.internal ++ g.external, ∀ i j k n q c, GoodTarget r.polygon x.1 (ω i j k n q c) ∧
      Spread r.polygon x.1 (ω i j k n q c)) (fuel : ℕ) :
    ∃ T, R.raumIntex [r] (fuel + 1) ω = some T ∧
      ∀ n k r', (n, k, r') ∈ T ↔ (∃ g ∈ r.walls, g.name = n) ∧ k = .innen ∧ r' = r.name := by
  classical
  have hno : ∀ p, OutsideCcw H p → ¬ InsideCcw H p := by
    rintro p ⟨s, hs, h⟩ hi
    exact absurd (hi s hs) (not_lt.2 h.le)
  have hout : R.removeOutliers r.polygon = r.polygon := C95_closed _ H hd hH.chain
  have hans : Answers R [r] (fuel + 1) ω fun _ p => decide (InsideCcw H p) := by
    intro i r0 hr0 j g hg k n s _ q p hq
    have er : r0 = r := by
      have := List.mem_of_getElem? hr0
      simpa using this
    subst er
    have hgm := List.mem_of_getElem? hg
    obtain ⟨x, hx, -, rfl⟩ := mem_ptsAt.1 (List.mem_of_getElem? hq)
    rw [hout]
    have P := hp g hgm
    cases k with
    | innen =>
      have hi := P.internal x hx
      have ht := hω g hgm x (List.mem_append_left _ hx)
      show _ = some (decide (InsideCcw H x.1))
      rw [decide_eq_true hi]
      exact C93_inside hE _ H hd hH h3 x.1 hi _ (fun c _ => ⟨(ht _ _ _ _ _ c).1.draw hd.symm, (ht _ _ _ _ _ c).2.draw hd.symm⟩) fuel
    | aussen =>
      have hi := P.external x hx
      have ht := hω g hgm x (List.mem_append_right _ hx)
      show _ = some (decide (InsideCcw H x.1))
      rw [decide_eq_false (hno _ hi)]
      exact C93_outside hE _ H hd hH h3 x.1 hi _ (fun c _ => ⟨(ht _ _ _ _ _ c).1.draw hd.symm, (ht _ _ _ _ _ c).2.draw hd.symm⟩) fuel
    | indifferent =>
      have hx' : x ∈ g.indifferent := hx
      rw [P.indifferent] at hx'
      cases hx'
  obtain ⟨T, hT, hmem⟩ := C96_recorded [r] (fuel + 1) ω _ hans
  refine ⟨T, hT, fun n k r' => ?_⟩
  rw [hmem]
  have hrec : ∀ g ∈ r.walls, (Recorded R g (fun p => decide (InsideCcw H p)) k ↔ k = .innen) := by
    intro g hg
    have P := hp g hg
    cases k with
    | innen =>
      refine ⟨fun _ => rfl, fun _ => ⟨P.some, ?_⟩⟩
      obtain ⟨s, hs⟩ := List.exists_mem_of_ne_nil _ P.segs
      exact ⟨s, hs, fun x hx _ => decide_eq_true (P.internal x hx)⟩
    | aussen =>
      refine ⟨?_, fun h => by cases h⟩
      rintro ⟨-, s, hs, h⟩
      obtain ⟨p, hps⟩ := P.each s hs
      exact absurd (of_decide_eq_true (h (p, s) hps (hE.isRounding.seq_refl s))) (hno _ (P.external _ hps))
    | indifferent =>
      refine ⟨?_, fun h => by cases h⟩
      rintro ⟨s, -, x, hx, -⟩
      rw [P.indifferent] at hx
      cases hx
  constructor
  · rintro ⟨r0, hr0, rfl, g, hg, rfl, h⟩
    obtain rfl : r0 = r := by simpa using hr0
    exact ⟨⟨g, hg, rfl⟩, (hrec g hg).1 h, rfl⟩
  · rintro ⟨⟨g, hg, rfl⟩, hk, rfl⟩
    exact ⟨r, by simp, rfl, g, hg, rfl, (hrec g hg).2 hk⟩

/-- C97: for a cylindrical shell with a head at both ends the parts are made without an error, and a room that has these
three as walls, in any order, is recorded as inner room of each of them and as nothing else. -/
theorem C97_vessel (hE : R.IsExact) {m : MantelDim K} (hs : Sound m) (hcyl : m.d1 = m.d0) (b : SegCls) (k1 k2 : K)
    (n1 n2 n3 : ν) (ω' : ℕ → ℕ → ℕ → ℕ → ℕ → Pt K)
    (hω' : ∀ s, (s = rightWall m ∨ s = leftWall m) → ∀ r, R.intexFour m.posH 50000 (2 / 1000) s = .ok r → ∀ p ∈ r, ∀ e i n c k,
      GoodTarget (shell m b) p (ω' e i n c k) ∧ Spread (shell m b) p (ω' e i n c k)) (fuel' : ℕ) :
    ∃ g1 g2 g3 : GPart ν K, R.shellPart n1 (shell m b) [rightWall m, leftWall m] m.posH ω' (fuel' + 1) = .ok g1 ∧
      R.headPart n2 ⟨m.posV + m.h, m.posH, m.d0, k1, 1⟩ = .ok g2 ∧ R.headPart n3 ⟨m.posV, m.posH, m.d0, k2, -1⟩ = .ok g3 ∧
      ∀ r : GRoom ν ρ K, r.walls.Perm [g1, g2, g3] → ∀ ω : ℕ → ℕ → IntexKind → ℕ → ℕ → ℕ → Pt K,
        (∀ g ∈ r.walls, ∀ x ∈ g.internal ++ g.external, ∀ i j k n q c, GoodTarget r.polygon x.1 (ω i j k n q c) ∧
          Spread r.polygon x.1 (ω i j k n q c)) → ∀ fuel : ℕ,
        ∃ T, R.raumIntex [r] (fuel + 1) ω = some T ∧
          ∀ n k r', (n, k, r') ∈ T ↔ (n = n1 ∨ n = n2 ∨ n = n3) ∧ k = .innen ∧ r' = r.name := by
  have hh : 0 < m.h := lt_of_lt_of_le (by positivity) hs.high
  have hd0 : 0 < m.d0 := lt_of_lt_of_le (by positivity) hs.wide
  have hw : 0 < m.d0 / 2 := by positivity
  have hd6 : 1 / 10 ^ 6 ≤ m.d0 := le_trans (by norm_num) hs.wide
  obtain ⟨p, q, r, t, p', q', r', t', eg1, hin, hbe⟩ := shellPart_ok hE hs n1 b ω' hω' fuel'
  obtain ⟨H, hH, a2, b2, c2, ea2, eb2, ec2, p2, q2, r2, p2', q2', r2', eg2, i2, e2, i2', e2'⟩ :=
    headPart_ok hE ⟨m.posV + m.h, m.posH, m.d0, k1, 1⟩ hs.posH (hs.posV.add hs.h) hs.d0 hd6 (Or.inl rfl) n2
  obtain ⟨U, hU, a3, b3, c3, ea3, eb3, ec3, p3, q3, r3, p3', q3', r3', eg3, i3, e3, i3', e3'⟩ :=
    headPart_ok hE ⟨m.posV, m.posH, m.d0, k2, -1⟩ hs.posH hs.posV hs.d0 hd6 (Or.inr rfl) n3
  refine ⟨_, _, _, eg1, eg2, eg3, ?_⟩
  dsimp only at *
  subst ea2 eb2 ec2 ea3 eb3 ec3
  intro r0 hperm ω hω fuel
  have hHi := fun p => @hexagon_inside K _ _ _ _ m.posH m.posV (m.d0 / 2) m.h H U hw hH hU p
  have hHo := fun p => @hexagon_outside K _ _ _ _ m.posH m.posV (m.d0 / 2) m.h H U p
  have P1 : Placed (hexagon m.posH m.posV (m.d0 / 2) m.h H U) (⟨n1, [rightWall m, leftWall m],
      [(p, rightWall m), (q, rightWall m), (p', leftWall m), (q', leftWall m)],
      [(r, rightWall m), (t, rightWall m), (r', leftWall m), (t', leftWall m)], []⟩ : GPart ν K) := by
    refine ⟨by simp, ?_, by simp, ?_, ?_, rfl⟩
    · intro x hx
      have h1 : InsideCcw (shell m b) x.1 := by
        apply hin
        simp only [List.mem_cons, List.not_mem_nil, or_false] at hx
        rcases hx with rfl | rfl | rfl | rfl <;> simp
      have s1 := h1 (rightWall m) (by simp [shell, outline, rightWall])
      have s2 := h1 ⟨⟨m.posH + m.d1 / 2, m.posV + m.h⟩, ⟨m.posH - m.d1 / 2, m.posV + m.h⟩, .nonWall⟩ (by simp [shell, outline])
      have s3 := h1 (leftWall m) (by simp [shell, outline, leftWall])
      have s4 := h1 ⟨⟨m.posH - m.d0 / 2, m.posV⟩, ⟨m.posH + m.d0 / 2, m.posV⟩, b⟩ (by simp [shell, outline])
      unfold det3 rightWall at s1
      unfold det3 at s2 s4
      unfold det3 leftWall at s3
      dsimp only at s1 s2 s3 s4
      rw [hcyl] at s1 s2 s3
      refine (hHi x.1).1 ⟨abs_lt.2 ⟨?_, ?_⟩, ?_, ?_⟩
      · have : 0 < m.h * (x.1.x - m.posH + m.d0 / 2) := by ring_nf at s3 ⊢; linarith
        linarith [pos_of_mul_pos_right this hh.le]
      · have : 0 < m.h * (m.d0 / 2 - (x.1.x - m.posH)) := by ring_nf at s1 ⊢; linarith
        linarith [pos_of_mul_pos_right this hh.le]
      · have : 0 < m.d0 * (x.1.y - m.posV) := by ring_nf at s4 ⊢; linarith
        linarith [pos_of_mul_pos_right this hd0.le]
      · have : 0 < m.d0 * (m.posV + m.h - x.1.y) := by ring_nf at s2 ⊢; linarith
        linarith [pos_of_mul_pos_right this hd0.le]
    · intro x hx
      have h1 : BeyondWall m x.1 := by
        apply hbe
        simp only [List.mem_cons, List.not_mem_nil, or_false] at hx
        rcases hx with rfl | rfl | rfl | rfl <;> simp
      obtain ⟨⟨s, hs', h2⟩, -⟩ := h1
      refine ⟨s, ?_, h2⟩
      simp only [List.mem_cons, List.not_mem_nil, or_false] at hs'
      rcases hs' with rfl | rfl <;> simp [hexagon, rightWall, leftWall, hcyl]
    · intro s hs'
      simp only [List.mem_cons, List.not_mem_nil, or_false] at hs'
      rcases hs' with rfl | rfl
      · exact ⟨r, by simp⟩
      · exact ⟨r', by simp⟩
  have P2 : Placed (hexagon m.posH m.posV (m.d0 / 2) m.h H U) (⟨n2,
      [⟨⟨m.posH - m.d0 / 2, m.posV + m.h⟩, ⟨m.posH, m.posV + m.h + 1 * H⟩, .wall⟩,
        ⟨⟨m.posH, m.posV + m.h + 1 * H⟩, ⟨m.posH + m.d0 / 2, m.posV + m.h⟩, .wall⟩],
      [(p2, ⟨⟨m.posH - m.d0 / 2, m.posV + m.h⟩, ⟨m.posH, m.posV + m.h + 1 * H⟩, .wall⟩),
        (q2, ⟨⟨m.posH - m.d0 / 2, m.posV + m.h⟩, ⟨m.posH, m.posV + m.h + 1 * H⟩, .wall⟩),
        (p2', ⟨⟨m.posH, m.posV + m.h + 1 * H⟩, ⟨m.posH + m.d0 / 2, m.posV + m.h⟩, .wall⟩),
        (q2', ⟨⟨m.posH, m.posV + m.h + 1 * H⟩, ⟨m.posH + m.d0 / 2, m.posV + m.h⟩, .wall⟩)],
      [(r2, ⟨⟨m.posH - m.d0 / 2, m.posV + m.h⟩, ⟨m.posH, m.posV + m.h + 1 * H⟩, .wall⟩),
        (r2', ⟨⟨m.posH, m.posV + m.h + 1 * H⟩, ⟨m.posH + m.d0 / 2, m.posV + m.h⟩, .wall⟩)], []⟩ : GPart ν K) := by
    refine ⟨by simp, ?_, by simp, ?_, ?_, rfl⟩
    · intro x hx
      apply (hHi x.1).2 hh
      simp only [List.mem_cons, List.not_mem_nil, or_false] at hx
      rcases hx with rfl | rfl | rfl | rfl
      · exact Or.inl (i2 _ (by simp))
      · exact Or.inl (i2 _ (by simp))
      · exact Or.inr (Or.inl (i2' _ (by simp)))
      · exact Or.inr (Or.inl (i2' _ (by simp)))
    · intro x hx
      apply hHo x.1
      simp only [List.mem_cons, List.not_mem_nil, or_false] at hx
      rcases hx with rfl | rfl
      · exact Or.inl e2
      · exact Or.inr (Or.inl e2')
    · intro s hs'
      simp only [List.mem_cons, List.not_mem_nil, or_false] at hs'
      rcases hs' with rfl | rfl
      · exact ⟨r2, by simp⟩
      · exact ⟨r2', by simp⟩
  have P3 : Placed (hexagon m.posH m.posV (m.d0 / 2) m.h H U) (⟨n3,
      [⟨⟨m.posH - m.d0 / 2, m.posV⟩, ⟨m.posH, m.posV + -1 * U⟩, .wall⟩,
        ⟨⟨m.posH, m.posV + -1 * U⟩, ⟨m.posH + m.d0 / 2, m.posV⟩, .wall⟩],
      [(p3, ⟨⟨m.posH - m.d0 / 2, m.posV⟩, ⟨m.posH, m.posV + -1 * U⟩, .wall⟩),
        (q3, ⟨⟨m.posH - m.d0 / 2, m.posV⟩, ⟨m.posH, m.posV + -1 * U⟩, .wall⟩),
        (p3', ⟨⟨m.posH, m.posV + -1 * U⟩, ⟨m.posH + m.d0 / 2, m.posV⟩, .wall⟩),
        (q3', ⟨⟨m.posH, m.posV + -1 * U⟩, ⟨m.posH + m.d0 / 2, m.posV⟩, .wall⟩)],
      [(r3, ⟨⟨m.posH - m.d0 / 2, m.posV⟩, ⟨m.posH, m.posV + -1 * U⟩, .wall⟩),
        (r3', ⟨⟨m.posH, m.posV + -1 * U⟩, ⟨m.posH + m.d0 / 2, m.posV⟩, .wall⟩)], []⟩ : GPart ν K) := by
    refine ⟨by simp, ?_, by simp, ?_, ?_, rfl⟩
    · intro x hx
      apply (hHi x.1).2 hh
      simp only [List.mem_cons, List.not_mem_nil, or_false] at hx
      rcases hx with rfl | rfl | rfl | rfl
      · exact Or.inr (Or.inr (Or.inl (i3 _ (by simp))))
      · exact Or.inr (Or.inr (Or.inl (i3 _ (by simp))))
      · exact Or.inr (Or.inr (Or.inr (i3' _ (by simp))))
      · exact Or.inr (Or.inr (Or.inr (i3' _ (by simp))))
    · intro x hx
      apply hHo x.1
      simp only [List.mem_cons, List.not_mem_nil, or_false] at hx
      rcases hx with rfl | rfl
      · exact Or.inr (Or.inr (Or.inl e3))
      · exact Or.inr (Or.inr (Or.inr e3'))
    · intro s hs'
      simp only [List.mem_cons, List.not_mem_nil, or_false] at hs'
      rcases hs' with rfl | rfl
      · exact ⟨r3, by simp⟩
      · exact ⟨r3', by simp⟩
  have hdraw : SameDrawing r0.polygon (hexagon m.posH m.posV (m.d0 / 2) m.h H U) := by
    have hpp : r0.polygon.Perm [rightWall m, leftWall m,
        ⟨⟨m.posH - m.d0 / 2, m.posV + m.h⟩, ⟨m.posH, m.posV + m.h + 1 * H⟩, .wall⟩,
        ⟨⟨m.posH, m.posV + m.h + 1 * H⟩, ⟨m.posH + m.d0 / 2, m.posV + m.h⟩, .wall⟩,
        ⟨⟨m.posH - m.d0 / 2, m.posV⟩, ⟨m.posH, m.posV + -1 * U⟩, .wall⟩,
        ⟨⟨m.posH, m.posV + -1 * U⟩, ⟨m.posH + m.d0 / 2, m.posV⟩, .wall⟩] := by
      unfold GRoom.polygon
      exact hperm.flatMap_right _
    refine ⟨[rightWall m, ⟨⟨m.posH, m.posV + m.h + 1 * H⟩, ⟨m.posH + m.d0 / 2, m.posV + m.h⟩, .wall⟩,
        ⟨⟨m.posH - m.d0 / 2, m.posV + m.h⟩, ⟨m.posH, m.posV + m.h + 1 * H⟩, .wall⟩, leftWall m,
        ⟨⟨m.posH - m.d0 / 2, m.posV⟩, ⟨m.posH, m.posV + -1 * U⟩, .wall⟩,
        ⟨⟨m.posH, m.posV + -1 * U⟩, ⟨m.posH + m.d0 / 2, m.posV⟩, .wall⟩], ?_, ?_⟩
    · refine List.Perm.trans ?_ hpp.symm
      classical
      rw [List.perm_iff_count]
      intro s
      simp only [List.count_cons, List.count_nil]
      omega
    · unfold hexagon
      have eu : m.posV + -1 * U = m.posV - U := by ring
      rw [one_mul, eu]
      refine .cons (Or.inl ⟨rfl, ?_⟩) (.cons (Or.inr ⟨rfl, rfl⟩) (.cons (Or.inr ⟨rfl, rfl⟩) (.cons (Or.inl ⟨?_, rfl⟩)
        (.cons (Or.inl ⟨rfl, rfl⟩) (.cons (Or.inl ⟨rfl, rfl⟩) .nil)))))
      · unfold rightWall; rw [hcyl]
      · unfold leftWall; rw [hcyl]
  have hplaced : ∀ g ∈ r0.walls, Placed (hexagon m.posH m.posV (m.d0 / 2) m.h H U) g := by
    intro g hg
    have hg' := hperm.mem_iff.1 hg
    simp only [List.mem_cons, List.not_mem_nil, or_false] at hg'
    rcases hg' with rfl | rfl | rfl
    · exact P1
    · exact P2
    · exact P3
  obtain ⟨T, hT, hmem⟩ := C97_room hE r0 _ (hexagon_convex hw hh hH hU) (by simp [hexagon]) hdraw hplaced ω hω fuel
  refine ⟨T, hT, fun n k r' => ?_⟩
  rw [hmem]
  have hn : (∃ g ∈ r0.walls, g.name = n) ↔ (n = n1 ∨ n = n2 ∨ n = n3) := by
    constructor
    · rintro ⟨g, hg, rfl⟩
      have hg' := hperm.mem_iff.1 hg
      simp only [List.mem_cons, List.not_mem_nil, or_false] at hg'
      rcases hg' with rfl | rfl | rfl <;> simp
    · rintro (rfl | rfl | rfl)
      · exact ⟨_, hperm.mem_iff.2 (List.mem_cons_self ..), rfl⟩
      · exact ⟨_, hperm.mem_iff.2 (List.mem_cons_of_mem _ (List.mem_cons_self ..)), rfl⟩
      · exact ⟨_, hperm.mem_iff.2 (List.mem_cons_of_mem _ (List.mem_cons_of_mem _ (List.mem_cons_self ..))), rfl⟩
  rw [hn]

/-! ### skirts -/

/-- C96: a skirt whose reference points are sorted as in `C94_sorted` and `C94_bottom_sorted` (the bottom wall has no internal
ones) makes every room it is a wall of its inner room, also if it surrounds the skirt. -/
theorem C96_skirt (hE : R.IsExact) {m : MantelDim K} (hs : Sound m) (g : GPart ν K) (hb : bottomWall m ∈ g.segs)
    (hne : g.internal ≠ []) (hi : ∀ x ∈ g.internal, x.2 = rightWall m ∨ x.2 = leftWall m) (rooms : List (GRoom ν ρ K))
    (r : GRoom ν ρ K) (hr : r ∈ rooms) (hg : g ∈ r.walls) (fuel : ℕ) (ω : ℕ → ℕ → IntexKind → ℕ → ℕ → ℕ → Pt K)
    (T : List (ν × IntexKind × ρ)) (hT : R.raumIntex rooms fuel ω = some T) : (g.name, .innen, r.name) ∈ T := by
  have hw := hs.wide
  have hd0 : 0 < m.d0 := lt_of_lt_of_le (by positivity) hs.wide
  have h5 : (1 : K) / 10 ^ 5 < 1 / 100 := by norm_num
  refine C96_no_points rooms fuel ω T hT r hr g hg (bottomWall m) hb .innen (Or.inl rfl) hne ?_
  intro x hx
  rw [Bool.eq_false_iff]
  intro hq
  unfold Rt.seq at hq
  simp only [Bool.and_eq_true] at hq
  rcases hi x hx with e | e <;> rw [e] at hq
  · have h1 := ((hE.peq_iff _ _).1 hq.1.2).1
    simp only [rightWall, bottomWall] at h1
    rw [show m.posH + m.d0 / 2 - (m.posH - m.d0 / 2) = m.d0 by ring, abs_of_pos hd0] at h1
    linarith
  · have h1 := ((hE.peq_iff _ _).1 hq.2).1
    simp only [leftWall, bottomWall] at h1
    rw [show m.posH - m.d0 / 2 - (m.posH + m.d0 / 2) = -m.d0 by ring, abs_neg, abs_of_pos hd0] at h1
    linarith

end

/-! ### concrete cases -/

/-- a square room; its part 0 has the bottom side with an internal point that is not in the room, and the right side without
any internal point -/
def plainRoom : GRoom ℕ ℕ ℚ :=
  ⟨7, [⟨0, [⟨⟨0, 0⟩, ⟨4, 0⟩, .wall⟩, ⟨⟨4, 0⟩, ⟨4, 4⟩, .wall⟩], [(⟨1, -3⟩, ⟨⟨0, 0⟩, ⟨4, 0⟩, .wall⟩)], [], []⟩,
    ⟨1, [⟨⟨4, 4⟩, ⟨0, 4⟩, .wall⟩, ⟨⟨0, 4⟩, ⟨0, 0⟩, .wall⟩], [(⟨1, 3⟩, ⟨⟨4, 4⟩, ⟨0, 4⟩, .wall⟩), (⟨1, 9⟩, ⟨⟨0, 4⟩, ⟨0, 0⟩, .wall⟩)],
      [(⟨1, 8⟩, ⟨⟨4, 4⟩, ⟨0, 4⟩, .wall⟩), (⟨-1, 3⟩, ⟨⟨0, 4⟩, ⟨0, 0⟩, .wall⟩)], []⟩]⟩

/-- a room is recorded as inner room of part 0, none of whose internal points is in it, and of part 1, one of whose two
internal points is in it; it is not an outer room (binary64) -/
theorem C96_plain :
    (match exRt.raumIntex [plainRoom] 1 (fun _ _ _ _ _ _ => ⟨128, 65⟩) with
      | some T => T.map fun x => (x.1, decide (x.2.1 = .innen), x.2.2)
      | none => []) = [(0, true, 7), (1, true, 7)] := by
  decide +kernel

/-- no near miss, checked at the common point of the two lines -/
theorem clear_at {p t : Pt K} {s : Seg K} (u : K)
    (hu : (t.x - p.x) * (s.j.y - s.i.y) - (t.y - p.y) * (s.j.x - s.i.x) ≠ 0)
    (he : u * ((t.x - p.x) * (s.j.y - s.i.y) - (t.y - p.y) * (s.j.x - s.i.x)) =
      (s.i.x - p.x) * (s.j.y - s.i.y) - (s.i.y - p.y) * (s.j.x - s.i.x))
    (h : (0 ≤ u ∧ u ≤ 1 ∧ ∃ w, 0 ≤ w ∧ w ≤ 1 ∧ lerp p t u = lerp s.i s.j w) ∨ FarFromBox p t (lerp p t u) ∨
      FarFromBox s.i s.j (lerp p t u)) : Clear p t s := by
  rintro X ⟨v, rfl⟩ ⟨w, e⟩
  have ex := congrArg Pt.x e
  have ey := congrArg Pt.y e
  unfold lerp at ex ey
  dsimp only at ex ey
  have hv : v = u := by
    apply mul_right_cancel₀ hu
    rw [he]
    linear_combination (s.j.y - s.i.y) * ex - (s.j.x - s.i.x) * ey
  subst hv
  rcases h with ⟨h0, h1, w', h2, h3, e'⟩ | h | h
  · exact Or.inl ⟨⟨v, h0, h1, rfl⟩, ⟨w', h2, h3, e'⟩⟩
  · exact Or.inr (Or.inl h)
  · exact Or.inr (Or.inr h)

/-- the outline of the cylinder of diameter 2 and height 5 with heads of the height 0.1 -/
noncomputable def exHexagon : List (Seg ℝ) := hexagon 0 0 1 5 (1 / 10) (1 / 10)

/-- the target (100, 50) is in general position for an internal reference point of the upper head -/
example : InsideCcw exHexagon ⟨9 / 10, 5 + 5 / 1000⟩ ∧ GoodTarget exHexagon ⟨9 / 10, 5 + 5 / 1000⟩ ⟨100, 50⟩ := by
  refine ⟨?_, by norm_num, ?_, ?_, ?_⟩
  · intro s hs
    simp only [exHexagon, hexagon, List.mem_cons, List.not_mem_nil, or_false] at hs
    rcases hs with rfl | rfl | rfl | rfl | rfl | rfl <;> norm_num [det3]
  · intro s hs
    simp only [exHexagon, hexagon, List.mem_cons, List.not_mem_nil, or_false] at hs
    rcases hs with rfl | rfl | rfl | rfl | rfl | rfl <;> norm_num
  · intro s hs
    simp only [exHexagon, hexagon, List.mem_cons, List.not_mem_nil, or_false] at hs
    rcases hs with rfl | rfl | rfl | rfl | rfl | rfl <;> norm_num [det3]
  · intro s hs
    simp only [exHexagon, hexagon, List.mem_cons, List.not_mem_nil, or_false] at hs
    rcases hs with rfl | rfl | rfl | rfl | rfl | rfl
    · refine clear_at (1 / 991) (by norm_num) (by norm_num) (Or.inr (Or.inr ?_))
      norm_num [FarFromBox, lerp]
    · refine clear_at (1 / 10981) (by norm_num) (by norm_num) (Or.inl ⟨by norm_num, by norm_num, ?_⟩)
      refine ⟨999 / 10981, by norm_num, by norm_num, ?_⟩
      norm_num [lerp]
    · refine clear_at (37 / 7017) (by norm_num) (by norm_num) (Or.inr (Or.inr ?_))
      norm_num [FarFromBox, lerp]
    · refine clear_at (-19 / 991) (by norm_num) (by norm_num) (Or.inr (Or.inl ?_))
      norm_num [FarFromBox, lerp]
    · refine clear_at (-1039 / 10981) (by norm_num) (by norm_num) (Or.inr (Or.inl ?_))
      norm_num [FarFromBox, lerp]
    · refine clear_at (-1003 / 7017) (by norm_num) (by norm_num) (Or.inr (Or.inl ?_))
      norm_num [FarFromBox, lerp]

example : Sound exDim ∧ exDim.d1 = exDim.d0 := ⟨exDim_sound, rfl⟩

end Srep
