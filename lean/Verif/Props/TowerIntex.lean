import Verif.Props.Tower
import Verif.Lemmas.TowerSlab

/-!
# Vessels made of a stack of shells (C122): for which parts the room is an inner room
-/

set_option linter.unusedSectionVars false

namespace Srep
open Rt Ray
variable {K : Type} [Field K] [LinearOrder K] [IsStrictOrderedRing K] [FloorRing K] {R : Rt K}

/-! ### rooms with any outline -/

section
variable {ν ρ : Type}

/-- how the reference points of a part lie to the polygon `H`; off all sides, and
* `innen`: the internal ones inside, the external ones outside, at least one for each segment;
* `indifferent`: no internal or external points, an indifferent one outside;
* nothing: no points at all. -/
def Lies (H : List (Seg K)) (g : GPart ν K) : Option IntexKind → Prop
  | some .innen => g.segs ≠ [] ∧ g.internal ≠ [] ∧ g.indifferent = [] ∧ (∀ x ∈ g.internal, OffSides H x.1 ∧ OddRight H x.1) ∧
      (∀ x ∈ g.external, OffSides H x.1 ∧ ¬ OddRight H x.1) ∧ ∀ s ∈ g.segs, ∃ p, (p, s) ∈ g.external
  | some .aussen => False
  | some .indifferent => g.internal = [] ∧ g.external = [] ∧ (∀ x ∈ g.indifferent, OffSides H x.1) ∧
      ∃ s ∈ g.segs, ∃ p, (p, s) ∈ g.indifferent ∧ ¬ OddRight H p
  | none => g.internal = [] ∧ g.external = [] ∧ g.indifferent = []

theorem Lies.unique {H : List (Seg K)} {g : GPart ν K} {k k' : Option IntexKind} (h : Lies H g k) (h' : Lies H g k') : k = k' := by
  have ne : g.indifferent = [] → ¬ ∃ s ∈ g.segs, ∃ p, (p, s) ∈ g.indifferent ∧ ¬ OddRight H p := by
    rintro e ⟨s, -, p, hp, -⟩
    rw [e] at hp
    cases hp
  rcases k with _ | _ | _ | _ <;> rcases k' with _ | _ | _ | _ <;> first
    | rfl
    | exact h.elim
    | exact h'.elim
    | exact absurd h.1 h'.2.1
    | exact absurd h'.1 h.2.1
    | exact absurd h'.2.2.2 (ne h.2.2)
    | exact absurd h.2.2.2 (ne h'.2.2)

/-- C122: rooms whose walls draw any closed polygons: if the reference points of all parts are off the sides and on their proper
sides, in the sense of the parity of the sides to the right, each room is recorded accordingly. -/
theorem C122_answers (hE : R.IsExact) (rooms : List (GRoom ν ρ K)) (H : GRoom ν ρ K → List (Seg K))
    (hH : ∀ r ∈ rooms, ClosedChain (H r) ∧ NoDouble (H r) ∧ SameDrawing r.polygon (H r))
    (hp : ∀ r ∈ rooms, ∀ g ∈ r.walls, ∃ k, Lies (H r) g k)
    (ω : ℕ → ℕ → IntexKind → ℕ → ℕ → ℕ → Pt K)
    (hω : ∀ r ∈ rooms, ∀ g ∈ r.walls, ∀ x ∈ g.internal ++ g.external ++ g.indifferent, ∀ i j k n q c,
      GoodTarget r.polygon x.1 (ω i j k n q c) ∧ Spread r.polygon x.1 (ω i j k n q c)) (fuel : ℕ) :
    ∃ T, R.raumIntex rooms (fuel + 1) ω = some T ∧
      ∀ n k r', (n, k, r') ∈ T ↔ ∃ r ∈ rooms, r.name = r' ∧ ∃ g ∈ r.walls, g.name = n ∧ Lies (H r) g (some k) := by
  classical
  have hans : Answers R rooms (fuel + 1) ω fun r p => decide (OddRight (H r) p) := by
    intro i r hr j g hg k n s _ q p hq
    have hrm := List.mem_of_getElem? hr
    have hgm := List.mem_of_getElem? hg
    obtain ⟨hcl, hnd, hd⟩ := hH r hrm
    have hout : R.removeOutliers r.polygon = r.polygon := C95_closed _ (H r) hd hcl
    obtain ⟨x, hx, -, rfl⟩ := mem_ptsAt.1 (List.mem_of_getElem? hq)
    rw [hout]
    have hall : x ∈ g.internal ++ g.external ++ g.indifferent := by
      cases k
      · exact List.mem_append_left _ (List.mem_append_left _ hx)
      · exact List.mem_append_left _ (List.mem_append_right _ hx)
      · exact List.mem_append_right _ hx
    have ht := fun c => hω r hrm g hgm x hall i j k n q c
    have hoff : OffSides (H r) x.1 := by
      obtain ⟨k', P⟩ := hp r hrm g hgm
      have hx0 : x ∈ g.internal ∨ x ∈ g.external ∨ x ∈ g.indifferent := by
        cases k
        · exact Or.inl hx
        · exact Or.inr (Or.inl hx)
        · exact Or.inr (Or.inr hx)
      rcases k' with _ | _ | _ | _
      · obtain ⟨a, b, c⟩ := P
        rw [a, b, c] at hx0
        rcases hx0 with h | h | h <;> cases h
      · obtain ⟨-, -, a, b, c, -⟩ := P
        rw [a] at hx0
        rcases hx0 with h | h | h
        · exact (b x h).1
        · exact (c x h).1
        · cases h
      · exact P.elim
      · obtain ⟨a, b, c, -⟩ := P
        rw [a, b] at hx0
        rcases hx0 with h | h | h
        · cases h
        · cases h
        · exact c x h
    refine (plInternal_countH hE _ (H r) hd hcl hnd x.1 hoff _
      (fun c _ => ⟨(ht c).1.draw hd.symm, (ht c).2.draw hd.symm⟩) ⟨x.1.x + 1, x.1.y⟩ ?_ fuel).trans ?_
    · intro e
      have := congrArg Pt.x e
      simp at this
    · exact congrArg some (decide_eq_decide.2 Iff.rfl)
  obtain ⟨T, hT, hmem⟩ := C96_recorded rooms (fuel + 1) ω _ hans
  refine ⟨T, hT, fun n k r' => ?_⟩
  rw [hmem]
  have hrec : ∀ r ∈ rooms, ∀ g ∈ r.walls, (Recorded R g (fun p => decide (OddRight (H r) p)) k ↔ Lies (H r) g (some k)) := by
    intro r hr g hg
    obtain ⟨k', P⟩ := hp r hr g hg
    constructor
    · intro h
      rcases k' with _ | _ | _ | _
      · obtain ⟨a, b, c⟩ := P
        cases k with
        | innen => exact absurd a h.1
        | aussen => exact absurd b h.1
        | indifferent =>
          obtain ⟨s, -, x, hx, -⟩ := h
          rw [c] at hx; cases hx
      · cases k with
        | innen => exact P
        | aussen =>
          obtain ⟨-, s, hs, h⟩ := h
          obtain ⟨p, hps⟩ := P.2.2.2.2.2 s hs
          exact absurd (of_decide_eq_true (h (p, s) hps (hE.isRounding.seq_refl s))) (P.2.2.2.2.1 _ hps).2
        | indifferent =>
          obtain ⟨s, -, x, hx, -⟩ := h
          rw [P.2.2.1] at hx; cases hx
      · exact P.elim
      · cases k with
        | innen => exact absurd P.1 h.1
        | aussen => exact absurd P.2.1 h.1
        | indifferent => exact P
    · intro Q
      cases k with
      | innen =>
        obtain ⟨s, hs⟩ := List.exists_mem_of_ne_nil _ Q.1
        exact ⟨Q.2.1, s, hs, fun x hx _ => decide_eq_true (Q.2.2.2.1 x hx).2⟩
      | aussen => exact Q.elim
      | indifferent =>
        obtain ⟨s, hs, p, hps, ho⟩ := Q.2.2.2
        exact ⟨s, hs, (p, s), hps, hE.isRounding.seq_refl s, decide_eq_false ho⟩
  constructor
  · rintro ⟨r, hr, rfl, g, hg, rfl, h⟩
    exact ⟨r, hr, rfl, g, hg, rfl, (hrec r hr g hg).1 h⟩
  · rintro ⟨r, hr, rfl, g, hg, rfl, h⟩
    exact ⟨r, hr, rfl, g, hg, rfl, (hrec r hr g hg).2 h⟩

/-! ### the parts of a stack -/

variable {c y w : K} {ms : List (MantelDim K)} {y' w' : K} {up down : Option K}

/-- the reference points of a shell -/
theorem Stack.shell_lies (hE : R.IsExact) (hst : Stack c y w ms y' w') (hs : SoundStack ms) (hu : PosCap up) (hd : PosCap down)
    {m : MantelDim K} (hm : m ∈ ms) (name : ν) (b : SegCls) (ω : ℕ → ℕ → ℕ → ℕ → ℕ → Pt K)
    (hω : ∀ s, (s = rightWall m ∨ s = leftWall m) → ∀ r, R.intexFour m.posH 50000 (2 / 1000) s = .ok r → ∀ p ∈ r, ∀ e i n c k,
      GoodTarget (shell m b) p (ω e i n c k) ∧ Spread (shell m b) p (ω e i n c k)) (fuel : ℕ) :
    ∃ g : GPart ν K, R.shellPart name (shell m b) [rightWall m, leftWall m] m.posH ω (fuel + 1) = .ok g ∧ g.name = name ∧
      g.segs = [rightWall m, leftWall m] ∧ Lies (towerOutline c y w ms y' w' up down) g (some .innen) := by
  have hsm := (hs m hm).1
  have hh : 0 < m.h := lt_of_lt_of_le (by positivity) hsm.high
  have hd0 : 0 < m.d0 := lt_of_lt_of_le (by positivity) hsm.wide
  have hd1 := hsm.top
  obtain ⟨p, q, r, t, p', q', r', t', eg, hin, hbe⟩ := shellPart_ok hE hsm name b ω hω fuel
  have slab := fun x : Pt K => hst.slab (p := x) (by norm_num : (0 : K) < 1 / 10 ^ 5) hs.stout hu hd hm
  have IN : ∀ x ∈ [p, q, p', q'], OffSides (towerOutline c y w ms y' w' up down) x ∧ OddRight (towerOutline c y w ms y' w' up down) x := by
    intro x hx
    have hi := hin x hx
    have a1 := hi (rightWall m) (by simp [shell, outline, rightWall])
    have a2 := hi (leftWall m) (by simp [shell, outline, leftWall])
    have a3 := hi ⟨⟨m.posH - m.d0 / 2, m.posV⟩, ⟨m.posH + m.d0 / 2, m.posV⟩, b⟩ (by simp [shell, outline])
    have a4 := hi ⟨⟨m.posH + m.d1 / 2, m.posV + m.h⟩, ⟨m.posH - m.d1 / 2, m.posV + m.h⟩, .nonWall⟩ (by simp [shell, outline])
    have y1 : m.posV < x.y := by
      have : 0 < m.d0 * (x.y - m.posV) := by unfold det3 at a3; dsimp only at a3; ring_nf at a3 ⊢; linarith
      linarith [pos_of_mul_pos_right this hd0.le]
    have y2 : x.y < m.posV + m.h := by
      have : 0 < m.d1 * (m.posV + m.h - x.y) := by unfold det3 at a4; dsimp only at a4; ring_nf at a4 ⊢; linarith
      linarith [pos_of_mul_pos_right this hd1.le]
    exact (slab x y1 y2).inside a1 a2
  have OUT : ∀ x ∈ [r, t, r', t'], OffSides (towerOutline c y w ms y' w' up down) x ∧ ¬ OddRight (towerOutline c y w ms y' w' up down) x := by
    intro x hx
    obtain ⟨⟨s, hs', h2⟩, y1, y2⟩ := hbe x hx
    refine (slab x y1 y2).outside ?_ ?_
    · have e : det3 (riseOf m).i (riseOf m).j x + det3 (fallOf m).i (fallOf m).j x =
          m.d0 * (m.posV + m.h - x.y) + m.d1 * (x.y - m.posV) := by
        simp only [det3, riseOf, fallOf]
        ring
      rw [e]
      have := mul_pos hd0 (sub_pos.2 y2)
      have := mul_pos hd1 (sub_pos.2 y1)
      linarith
    · simp only [List.mem_cons, List.not_mem_nil, or_false] at hs'
      rcases hs' with rfl | rfl
      · exact Or.inl h2
      · exact Or.inr h2
  refine ⟨_, eg, rfl, rfl, by simp, by simp, rfl, ?_, ?_, ?_⟩
  · intro x hx
    apply IN
    simp only [List.mem_cons, List.not_mem_nil, or_false] at hx
    rcases hx with rfl | rfl | rfl | rfl <;> simp
  · intro x hx
    apply OUT
    simp only [List.mem_cons, List.not_mem_nil, or_false] at hx
    rcases hx with rfl | rfl | rfl | rfl <;> simp
  · intro s hs'
    simp only [List.mem_cons, List.not_mem_nil, or_false] at hs'
    rcases hs' with rfl | rfl
    · exact ⟨r, by simp⟩
    · exact ⟨r', by simp⟩

/-- points at a pointed top -/
theorem Stack.top_in (hst : Stack c y w ms y' w') (hne : ms ≠ []) (hs : SoundStack ms) (hd : PosCap down) {t : K} (ht : 0 < t) (hw : 0 < w') {p : Pt K}
    (hB : Below 1 (-1) ⟨c - w', y'⟩ ⟨c, y' + t⟩ p ∨ Below 1 1 ⟨c + w', y'⟩ ⟨c, y' + t⟩ p) :
    OffSides (towerOutline c y w ms y' w' (some t) down) p ∧ OddRight (towerOutline c y w ms y' w' (some t) down) p := by
  have fin : ∀ a b : K, p.x = c + a → p.y = y' + b → 0 < b → 0 < w' * (t - b) - t * |a| →
      OffSides (towerOutline c y w ms y' w' (some t) down) p ∧ OddRight (towerOutline c y w ms y' w' (some t) down) p := by
    intro a b ha hb hb0 hk
    have h1 := mul_le_mul_of_nonneg_left (le_abs_self a) ht.le
    have h2 := mul_le_mul_of_nonneg_left (neg_abs_le a) ht.le
    have h3 := mul_nonneg ht.le (abs_nonneg a)
    have hbt : 0 < t - b := pos_of_mul_pos_right (by linarith : 0 < w' * (t - b)) hw.le
    refine (hst.slab_up (p := p) hne (by norm_num : (0 : K) < 1 / 10 ^ 5) hs.stout ht hd (by linarith) (by linarith)).inside ?_ ?_ <;>
      unfold det3 <;> simp only [ha, hb]
    · ring_nf at hk h1 ⊢; linarith
    · ring_nf at hk h2 ⊢; linarith
  refine fin (p.x - c) (p.y - y') (by ring) (by ring) ?_ ?_
  · rcases hB with ⟨h, -, -⟩ | ⟨h, -, -⟩ <;> dsimp only at h <;> linarith
  · rcases hB with ⟨-, h, h'⟩ | ⟨-, h, h'⟩ <;> unfold det3 at h <;> dsimp only at h h'
    · rw [abs_of_neg (by linarith)]
      ring_nf at h ⊢; linarith
    · rw [abs_of_pos (by linarith)]
      ring_nf at h ⊢; linarith

theorem Stack.top_out (hst : Stack c y w ms y' w') (hne : ms ≠ []) (hs : SoundStack ms) (hd : PosCap down) {t : K} (ht : 0 < t) (hw : 0 < w') {p : Pt K}
    (hB : Above 1 (-1) ⟨c - w', y'⟩ ⟨c, y' + t⟩ p ∨ Above 1 1 ⟨c + w', y'⟩ ⟨c, y' + t⟩ p) :
    OffSides (towerOutline c y w ms y' w' (some t) down) p ∧ ¬ OddRight (towerOutline c y w ms y' w' (some t) down) p := by
  have hy : y' < p.y ∧ p.y < y' + t := by
    rcases hB with ⟨-, h1, h2⟩ | ⟨-, h1, h2⟩ <;> dsimp only at h1 h2 <;> constructor <;> linarith
  refine (hst.slab_up (p := p) hne (by norm_num : (0 : K) < 1 / 10 ^ 5) hs.stout ht hd hy.1 hy.2).outside ?_ ?_
  · have := mul_pos hw (sub_pos.2 hy.2)
    unfold det3
    dsimp only
    ring_nf at this ⊢
    linarith
  · rcases hB with ⟨h, -, -⟩ | ⟨h, -, -⟩ <;> unfold det3 at h <;> dsimp only at h
    · right
      unfold det3; dsimp only
      ring_nf at h ⊢; linarith
    · left
      unfold det3; dsimp only
      ring_nf at h ⊢; linarith

/-- points at a pointed bottom -/
theorem Stack.bot_in (hst : Stack c y w ms y' w') (hne : ms ≠ []) (hs : SoundStack ms) (hu : PosCap up) {t : K} (ht : 0 < t) (hw : 0 < w) {p : Pt K}
    (hB : Below (-1) (-1) ⟨c - w, y⟩ ⟨c, y - t⟩ p ∨ Below (-1) 1 ⟨c + w, y⟩ ⟨c, y - t⟩ p) :
    OffSides (towerOutline c y w ms y' w' up (some t)) p ∧ OddRight (towerOutline c y w ms y' w' up (some t)) p := by
  have fin : ∀ a b : K, p.x = c + a → p.y = y - b → 0 < b → 0 < w * (t - b) - t * |a| →
      OffSides (towerOutline c y w ms y' w' up (some t)) p ∧ OddRight (towerOutline c y w ms y' w' up (some t)) p := by
    intro a b ha hb hb0 hk
    have h1 := mul_le_mul_of_nonneg_left (le_abs_self a) ht.le
    have h2 := mul_le_mul_of_nonneg_left (neg_abs_le a) ht.le
    have h3 := mul_nonneg ht.le (abs_nonneg a)
    have hbt : 0 < t - b := pos_of_mul_pos_right (by linarith : 0 < w * (t - b)) hw.le
    refine (hst.slab_down (p := p) hne (by norm_num : (0 : K) < 1 / 10 ^ 5) hs.stout hu ht (by linarith) (by linarith)).inside ?_ ?_ <;>
      unfold det3 <;> simp only [ha, hb]
    · ring_nf at hk h1 ⊢; linarith
    · ring_nf at hk h2 ⊢; linarith
  refine fin (p.x - c) (y - p.y) (by ring) (by ring) ?_ ?_
  · rcases hB with ⟨h, -, -⟩ | ⟨h, -, -⟩ <;> dsimp only at h <;> linarith
  · rcases hB with ⟨-, h, h'⟩ | ⟨-, h, h'⟩ <;> unfold det3 at h <;> dsimp only at h h'
    · rw [abs_of_neg (by linarith)]
      ring_nf at h ⊢; linarith
    · rw [abs_of_pos (by linarith)]
      ring_nf at h ⊢; linarith

theorem Stack.bot_out (hst : Stack c y w ms y' w') (hne : ms ≠ []) (hs : SoundStack ms) (hu : PosCap up) {t : K} (ht : 0 < t) (hw : 0 < w) {p : Pt K}
    (hB : Above (-1) (-1) ⟨c - w, y⟩ ⟨c, y - t⟩ p ∨ Above (-1) 1 ⟨c + w, y⟩ ⟨c, y - t⟩ p) :
    OffSides (towerOutline c y w ms y' w' up (some t)) p ∧ ¬ OddRight (towerOutline c y w ms y' w' up (some t)) p := by
  have hy : p.y < y ∧ y - t < p.y := by
    rcases hB with ⟨-, h1, h2⟩ | ⟨-, h1, h2⟩ <;> dsimp only at h1 h2 <;> constructor <;> linarith
  refine (hst.slab_down (p := p) hne (by norm_num : (0 : K) < 1 / 10 ^ 5) hs.stout hu ht hy.1 hy.2).outside ?_ ?_
  · have := mul_pos hw (sub_pos.2 hy.2)
    unfold det3
    dsimp only
    ring_nf at this ⊢
    linarith
  · rcases hB with ⟨h, -, -⟩ | ⟨h, -, -⟩ <;> unfold det3 at h <;> dsimp only at h
    · right
      unfold det3; dsimp only
      ring_nf at h ⊢; linarith
    · left
      unfold det3; dsimp only
      ring_nf at h ⊢; linarith

/-- the part at an end, with its reference points -/
def Rt.IsEnd (R : Rt K) (v c d o : K) (name : ν) (g : GPart ν K) : Ending K → Prop
  | .head k => R.headPart name ⟨v, c, d, k, o⟩ = .ok g
  | .plate => g = R.platePart name [level (c - d / 2) (c + d / 2) v .wall] ⟨v, d, c⟩
  | .ende => g = endPart name [level (c - d / 2) (c + d / 2) v .wall]

/-- as what the room is recorded -/
def Ending.kind : Ending K → Option IntexKind
  | .head _ => some .innen
  | .plate => some .indifferent
  | .ende => none

/-- the reference points of what is at the top -/
theorem Stack.top_lies (hE : R.IsExact) (hst : Stack c y w ms y' w') (hne : ms ≠ []) (hs : SoundStack ms) (top : Ending K)
    (hlow : 2 * w' ≤ 50 * (y' - y)) (name : ν) :
    ∃ g : GPart ν K, R.IsEnd y' c (2 * w') 1 name g top ∧ g.name = name ∧ g.segs = R.endWalls y' c (2 * w') 1 top ∧
    ∃ up, PosCap up ∧ List.Forall₂ SameEdge (R.endWalls y' c (2 * w') 1 top).reverse (capUp c y' w' up) ∧
      ∀ down, PosCap down → Lies (towerOutline c y w ms y' w' up down) g top.kind := by
  obtain ⟨⟨hc, hy, hw0, hw2⟩, hy', hw0', hw2'⟩ := hs.ends hst hne
  have e2 : 2 * w' / 2 = w' := by ring
  have hw : 0 < w' := lt_of_lt_of_le (by norm_num) hw2'
  have fe : List.Forall₂ SameEdge [level (c - 2 * w' / 2) (c + 2 * w' / 2) y' .wall].reverse (capUp c y' w' none) := by
    rw [e2]
    exact .cons (Or.inr ⟨rfl, rfl⟩) .nil
  cases top with
  | ende =>
    exact ⟨_, rfl, rfl, rfl, none, fun x h => (by cases h), fe, fun _ _ => ⟨rfl, rfl, rfl⟩⟩
  | plate =>
    refine ⟨_, rfl, rfl, rfl, none, fun x h => (by cases h), fe, fun down hd => ?_⟩
    obtain ⟨p, q, e, hpx, hqx, hp, hq, -⟩ := C104_points hE ⟨y', 2 * w', c⟩ (by
      have : (1 : K) / 10 ^ 5 = 1 / 100000 := by norm_num
      dsimp only; rw [this]; linarith)
    dsimp only at hpx hqx hp hq
    rw [hc.rhe8] at hpx hqx
    have hp' := abs_le.1 hp
    have hq' := abs_le.1 hq
    have hgap := hst.high hne (by norm_num : (0 : K) < 1 / 10 ^ 5) hs.stout
    norm_num at hp' hq' hgap hw2'
    have ap := hst.above (p := p) hne (by norm_num : (0 : K) < 1 / 10 ^ 5) hs.stout hd (by linarith [hp'.1])
    have aq := hst.axis_off (up := none) (down := down) (v := q.y) (by norm_num : (0 : K) < 1 / 10 ^ 5) hs.stout (fun x h => by cases h) hd
      (by linarith [hq'.1]) (by linarith [hq'.2])
    have eq : q = ⟨c, q.y⟩ := by rcases q with ⟨a, b⟩; simp only at hqx; rw [hqx]
    rw [← eq] at aq
    unfold Rt.platePart
    rw [e]
    simp only [List.flatMap_cons, List.flatMap_nil, List.append_nil, List.map_cons, List.map_nil]
    refine ⟨rfl, rfl, ?_, level (c - 2 * w' / 2) (c + 2 * w' / 2) y' .wall, by simp, p, by simp, ap.2⟩
    intro x hx
    simp only [List.mem_cons, List.not_mem_nil, or_false] at hx
    rcases hx with rfl | rfl
    · exact ap.1
    · exact aq
  | head k =>
    obtain ⟨H, hH, a, b, d, ha, hb, hd', p, q, r, p', q', r', eg, i1, o1, i2, o2⟩ :=
      headPart_ok hE ⟨y', c, 2 * w', k, 1⟩ hc hy' (by simpa only [e2] using hw0') (by
        have : (1 : K) / 10 ^ 6 = 1 / 1000000 := by norm_num
        dsimp only; rw [this]; linarith) (Or.inl rfl) name
    have eseg : R.headGraph ⟨y', c, 2 * w', k, 1⟩ = [⟨a, b, .wall⟩, ⟨b, d, .wall⟩] := by
      have h := eg
      unfold Rt.headPart graphPart at h
      cases hx : addIntex (fun _ : ℕ => evalAll (fun _ s => R.headIntex ⟨y', c, 2 * w', k, 1⟩ s) 0 (R.headGraph ⟨y', c, 2 * w', k, 1⟩)) 0
          (R.headGraph ⟨y', c, 2 * w', k, 1⟩) with
      | error x => rw [hx] at h; cases h
      | ok x =>
        rw [hx] at h
        simp only [Except.map, Except.ok.injEq, GPart.mk.injEq] at h
        exact h.2.1
    dsimp only at ha hb hd' i1 o1 i2 o2
    rw [e2] at ha hd'
    rw [one_mul] at hb
    refine ⟨_, eg, rfl, eseg.symm, some H, (by rintro x ⟨⟩; exact hH), ?_, fun down hd => ?_⟩
    · show List.Forall₂ SameEdge (R.headGraph _).reverse _
      rw [eseg, ha, hb, hd']
      exact .cons (Or.inr ⟨rfl, rfl⟩) (.cons (Or.inr ⟨rfl, rfl⟩) .nil)
    · subst ha hb hd'
      refine ⟨by simp, by simp, rfl, ?_, ?_, ?_⟩
      · intro x hx
        simp only [List.mem_cons, List.not_mem_nil, or_false] at hx
        rcases hx with rfl | rfl | rfl | rfl
        · exact hst.top_in hne hs hd hH hw (Or.inl (i1 _ (by simp)))
        · exact hst.top_in hne hs hd hH hw (Or.inl (i1 _ (by simp)))
        · exact hst.top_in hne hs hd hH hw (Or.inr (i2 _ (by simp)))
        · exact hst.top_in hne hs hd hH hw (Or.inr (i2 _ (by simp)))
      · intro x hx
        simp only [List.mem_cons, List.not_mem_nil, or_false] at hx
        rcases hx with rfl | rfl
        · exact hst.top_out hne hs hd hH hw (Or.inl o1)
        · exact hst.top_out hne hs hd hH hw (Or.inr o2)
      · intro s hs'
        simp only [List.mem_cons, List.not_mem_nil, or_false] at hs'
        rcases hs' with rfl | rfl
        · exact ⟨r, by simp⟩
        · exact ⟨r', by simp⟩

/-- … and at the bottom -/
theorem Stack.bot_lies (hE : R.IsExact) (hst : Stack c y w ms y' w') (hne : ms ≠ []) (hs : SoundStack ms) (bot : Ending K)
    (hlow : 2 * w ≤ 50 * (y' - y)) (name : ν) :
    ∃ g : GPart ν K, R.IsEnd y c (2 * w) (-1) name g bot ∧ g.name = name ∧ g.segs = R.endWalls y c (2 * w) (-1) bot ∧
    ∃ down, PosCap down ∧ List.Forall₂ SameEdge (R.endWalls y c (2 * w) (-1) bot) (capDown c y w down) ∧
      ∀ up, PosCap up → Lies (towerOutline c y w ms y' w' up down) g bot.kind := by
  obtain ⟨⟨hc, hy, hw0, hw2⟩, hy', hw0', hw2'⟩ := hs.ends hst hne
  have e2 : 2 * w / 2 = w := by ring
  have hw : 0 < w := lt_of_lt_of_le (by norm_num) hw2
  have fe : List.Forall₂ SameEdge [level (c - 2 * w / 2) (c + 2 * w / 2) y .wall] (capDown c y w none) := by
    rw [e2]
    exact .cons (Or.inl ⟨rfl, rfl⟩) .nil
  cases bot with
  | ende =>
    exact ⟨_, rfl, rfl, rfl, none, fun x h => (by cases h), fe, fun _ _ => ⟨rfl, rfl, rfl⟩⟩
  | plate =>
    refine ⟨_, rfl, rfl, rfl, none, fun x h => (by cases h), fe, fun up hu => ?_⟩
    obtain ⟨q, p, e, hqx, hpx, hq, hp, -⟩ := C104_points hE ⟨y, 2 * w, c⟩ (by
      have : (1 : K) / 10 ^ 5 = 1 / 100000 := by norm_num
      dsimp only; rw [this]; linarith)
    dsimp only at hpx hqx hp hq
    rw [hc.rhe8] at hpx hqx
    have hp' := abs_le.1 hp
    have hq' := abs_le.1 hq
    have hgap := hst.high hne (by norm_num : (0 : K) < 1 / 10 ^ 5) hs.stout
    norm_num at hp' hq' hgap hw2
    have ap := hst.below (p := p) hne (by norm_num : (0 : K) < 1 / 10 ^ 5) hs.stout hu (by linarith [hp'.2])
    have aq := hst.axis_off (up := up) (down := none) (v := q.y) (by norm_num : (0 : K) < 1 / 10 ^ 5) hs.stout hu (fun x h => by cases h)
      (by linarith [hq'.1]) (by linarith [hq'.2])
    have eq : q = ⟨c, q.y⟩ := by rcases q with ⟨a, b⟩; simp only at hqx; rw [hqx]
    rw [← eq] at aq
    unfold Rt.platePart
    rw [e]
    simp only [List.flatMap_cons, List.flatMap_nil, List.append_nil, List.map_cons, List.map_nil]
    refine ⟨rfl, rfl, ?_, level (c - 2 * w / 2) (c + 2 * w / 2) y .wall, by simp, p, by simp, ap.2⟩
    intro x hx
    simp only [List.mem_cons, List.not_mem_nil, or_false] at hx
    rcases hx with rfl | rfl
    · exact aq
    · exact ap.1
  | head k =>
    obtain ⟨H, hH, a, b, d, ha, hb, hd', p, q, r, p', q', r', eg, i1, o1, i2, o2⟩ :=
      headPart_ok hE ⟨y, c, 2 * w, k, -1⟩ hc hy (by simpa only [e2] using hw0) (by
        have : (1 : K) / 10 ^ 6 = 1 / 1000000 := by norm_num
        dsimp only; rw [this]; linarith) (Or.inr rfl) name
    have eseg : R.headGraph ⟨y, c, 2 * w, k, -1⟩ = [⟨a, b, .wall⟩, ⟨b, d, .wall⟩] := by
      have h := eg
      unfold Rt.headPart graphPart at h
      cases hx : addIntex (fun _ : ℕ => evalAll (fun _ s => R.headIntex ⟨y, c, 2 * w, k, -1⟩ s) 0 (R.headGraph ⟨y, c, 2 * w, k, -1⟩)) 0
          (R.headGraph ⟨y, c, 2 * w, k, -1⟩) with
      | error x => rw [hx] at h; cases h
      | ok x =>
        rw [hx] at h
        simp only [Except.map, Except.ok.injEq, GPart.mk.injEq] at h
        exact h.2.1
    dsimp only at ha hb hd' i1 o1 i2 o2
    rw [e2] at ha hd'
    rw [neg_one_mul, ← sub_eq_add_neg] at hb
    refine ⟨_, eg, rfl, eseg.symm, some H, (by rintro x ⟨⟩; exact hH), ?_, fun up hu => ?_⟩
    · show List.Forall₂ SameEdge (R.headGraph _) _
      rw [eseg, ha, hb, hd']
      exact .cons (Or.inl ⟨rfl, rfl⟩) (.cons (Or.inl ⟨rfl, rfl⟩) .nil)
    · subst ha hb hd'
      refine ⟨by simp, by simp, rfl, ?_, ?_, ?_⟩
      · intro x hx
        simp only [List.mem_cons, List.not_mem_nil, or_false] at hx
        rcases hx with rfl | rfl | rfl | rfl
        · exact hst.bot_in hne hs hu hH hw (Or.inl (i1 _ (by simp)))
        · exact hst.bot_in hne hs hu hH hw (Or.inl (i1 _ (by simp)))
        · exact hst.bot_in hne hs hu hH hw (Or.inr (i2 _ (by simp)))
        · exact hst.bot_in hne hs hu hH hw (Or.inr (i2 _ (by simp)))
      · intro x hx
        simp only [List.mem_cons, List.not_mem_nil, or_false] at hx
        rcases hx with rfl | rfl
        · exact hst.bot_out hne hs hu hH hw (Or.inl o1)
        · exact hst.bot_out hne hs hu hH hw (Or.inr o2)
      · intro s hs'
        simp only [List.mem_cons, List.not_mem_nil, or_false] at hs'
        rcases hs' with rfl | rfl
        · exact ⟨r, by simp⟩
        · exact ⟨r', by simp⟩

/-- a part made of the shell `m`, by a constructor that met targets in general position -/
def Rt.IsShell (R : Rt K) (m : MantelDim K) (g : GPart ν K) : Prop :=
  ∃ (name : ν) (b : SegCls) (ω : ℕ → ℕ → ℕ → ℕ → ℕ → Pt K) (fuel : ℕ),
    (∀ s, (s = rightWall m ∨ s = leftWall m) → ∀ r, R.intexFour m.posH 50000 (2 / 1000) s = .ok r → ∀ p ∈ r, ∀ e i n c k,
      GoodTarget (shell m b) p (ω e i n c k) ∧ Spread (shell m b) p (ω e i n c k)) ∧
    R.shellPart name (shell m b) [rightWall m, leftWall m] m.posH ω (fuel + 1) = .ok g

theorem IsEnd.unique {v c d o : K} {name : ν} {g g' : GPart ν K} {e : Ending K} (h : R.IsEnd v c d o name g e)
    (h' : R.IsEnd v c d o name g' e) : g = g' := by
  cases e with
  | head k =>
    have h1 : R.headPart name _ = .ok g := h
    have h2 : R.headPart name _ = .ok g' := h'
    rw [h1] at h2
    exact Except.ok.inj h2
  | plate => exact Eq.trans h (Eq.symm h')
  | ende => exact Eq.trans h (Eq.symm h')

/-- C122: a stack of any number of shells, with a torispherical head, a flat head or the end of a room at each end: the room with
all these parts as walls, in any order, is recorded as inner room of every shell and every torispherical head, as indifferent for
the flat heads, and as nothing else.  The room may have a waist. -/
theorem C122_intex (hE : R.IsExact) (hst : Stack c y w ms y' w') (hne : ms ≠ []) (hs : SoundStack ms) (top bot : Ending K)
    (h1 : 2 * w' ≤ 50 * (y' - y)) (h2 : 2 * w ≤ 50 * (y' - y)) (gs : List (GPart ν K)) (hgs : List.Forall₂ R.IsShell ms gs)
    (n1 n2 : ν) (gt gb : GPart ν K) (ht : R.IsEnd y' c (2 * w') 1 n1 gt top) (hb : R.IsEnd y c (2 * w) (-1) n2 gb bot)
    (r : GRoom ν ρ K) (hr : r.walls.Perm (gs ++ [gt, gb])) (ω : ℕ → ℕ → IntexKind → ℕ → ℕ → ℕ → Pt K)
    (hω : ∀ g ∈ r.walls, ∀ x ∈ g.internal ++ g.external ++ g.indifferent, ∀ i j k n q c,
      GoodTarget r.polygon x.1 (ω i j k n q c) ∧ Spread r.polygon x.1 (ω i j k n q c)) (fuel : ℕ) :
    ∃ T, R.raumIntex [r] (fuel + 1) ω = some T ∧
      ∀ n k r', (n, k, r') ∈ T ↔ r' = r.name ∧ ((∃ g ∈ gs, g.name = n) ∧ k = .innen ∨ n = n1 ∧ top.kind = some k ∨
        n = n2 ∧ bot.kind = some k) := by
  obtain ⟨gt', ht', nt, st, up, pu, fu, lt⟩ := hst.top_lies hE hne hs top h1 n1
  obtain ⟨gb', hb', nb, sb, down, pd, fd, lb⟩ := hst.bot_lies hE hne hs bot h2 n2
  obtain rfl := IsEnd.unique ht ht'
  obtain rfl := IsEnd.unique hb hb'
  have lgs : ∀ l : List (MantelDim K), (∀ m ∈ l, m ∈ ms) → ∀ l' : List (GPart ν K), List.Forall₂ R.IsShell l l' →
      (∀ g ∈ l', Lies (towerOutline c y w ms y' w' up down) g (some .innen)) ∧
      l'.flatMap GPart.segs = l.flatMap fun m => [rightWall m, leftWall m] := by
    intro l hl l' hf
    induction hf with
    | nil => exact ⟨fun g hg => (by cases hg), rfl⟩
    | @cons m g l l' hmg _ ih =>
      obtain ⟨name, b, ω', fuel', hω', e⟩ := hmg
      obtain ⟨g', e', -, es, L⟩ := hst.shell_lies hE hs pu pd (hl m (List.mem_cons_self ..)) name b ω' hω' fuel'
      rw [e] at e'
      obtain rfl := Except.ok.inj e'
      obtain ⟨i1, i2⟩ := ih fun x hx => hl x (List.mem_cons_of_mem _ hx)
      refine ⟨?_, by rw [List.flatMap_cons, List.flatMap_cons, es, i2]⟩
      intro x hx
      rcases List.mem_cons.1 hx with rfl | hx
      · exact L
      · exact i1 x hx
  obtain ⟨lg, sg⟩ := lgs ms (fun m h => h) gs hgs
  have hdraw : SameDrawing r.polygon (towerOutline c y w ms y' w' up down) := by
    refine tower_draws fu fd ?_
    unfold GRoom.polygon
    refine (hr.flatMap_right _).trans ?_
    rw [List.flatMap_append, sg]
    unfold Rt.towerWalls
    simp only [List.flatMap_cons, List.flatMap_nil, List.append_nil, st, sb, List.append_assoc]
    exact .refl _
  have hcl := hst.closed up down
  have hms : 0 < ms.length := List.length_pos_iff.2 hne
  have hup : (capUp c y' w' up).length = 1 ∨ (capUp c y' w' up).length = 2 := by cases up <;> simp [capUp]
  have hdn : (capDown c y w down).length = 1 ∨ (capDown c y w down).length = 2 := by cases down <;> simp [capDown]
  have hL : (towerOutline c y w ms y' w' up down).length = ms.length + ((capUp c y' w' up).length + (ms.length + (capDown c y w down).length)) := by
    unfold towerOutline
    simp only [List.length_append, List.length_map, List.length_reverse]
  have hnd := noDouble_of_nodup hcl (hst.nodup hne (by norm_num : (0 : K) < 1 / 10 ^ 5) hs.stout pu pd) (by omega)
  have hall : ∀ g ∈ r.walls, (g ∈ gs ∧ Lies (towerOutline c y w ms y' w' up down) g (some .innen)) ∨
      (g = gt ∧ Lies (towerOutline c y w ms y' w' up down) g top.kind) ∨ (g = gb ∧ Lies (towerOutline c y w ms y' w' up down) g bot.kind) := by
    intro g hg
    have := hr.mem_iff.1 hg
    simp only [List.mem_append, List.mem_cons, List.not_mem_nil, or_false] at this
    rcases this with h | rfl | rfl
    · exact Or.inl ⟨h, lg g h⟩
    · exact Or.inr (Or.inl ⟨rfl, lt down pd⟩)
    · exact Or.inr (Or.inr ⟨rfl, lb up pu⟩)
  obtain ⟨T, hT, hmem⟩ := C122_answers hE [r] (fun _ => towerOutline c y w ms y' w' up down)
    (by intro r0 hr0; obtain rfl : r0 = r := by simpa using hr0
        exact ⟨hcl, hnd, hdraw⟩)
    (by intro r0 hr0 g hg; obtain rfl : r0 = r := by simpa using hr0
        rcases hall g hg with ⟨-, h⟩ | ⟨-, h⟩ | ⟨-, h⟩
        · exact ⟨_, h⟩
        · exact ⟨_, h⟩
        · exact ⟨_, h⟩) ω
    (by intro r0 hr0; obtain rfl : r0 = r := by simpa using hr0
        exact hω) fuel
  refine ⟨T, hT, fun n k r' => ?_⟩
  rw [hmem]
  constructor
  · rintro ⟨r0, hr0, rfl, g, hg, rfl, h⟩
    obtain rfl : r0 = r := by simpa using hr0
    refine ⟨rfl, ?_⟩
    rcases hall g hg with ⟨a, b⟩ | ⟨a, b⟩ | ⟨a, b⟩
    · left
      have := h.unique b
      exact ⟨⟨g, a, rfl⟩, Option.some.inj this⟩
    · right; left
      exact ⟨a ▸ nt, b.unique h⟩
    · right; right
      exact ⟨a ▸ nb, b.unique h⟩
  · rintro ⟨rfl, ⟨⟨g, hg, rfl⟩, rfl⟩ | ⟨rfl, hk⟩ | ⟨rfl, hk⟩⟩
    · exact ⟨r, by simp, rfl, g, hr.mem_iff.2 (List.mem_append_left _ hg), rfl, lg g hg⟩
    · exact ⟨r, by simp, rfl, gt, hr.mem_iff.2 (by simp), nt, hk ▸ lt down pd⟩
    · exact ⟨r, by simp, rfl, gb, hr.mem_iff.2 (by simp), nb, hk ▸ lb up pu⟩

/-- C122: the parts of such a vessel can be made: no constructor raises an exception. -/
theorem C122_parts (hE : R.IsExact) (hst : Stack c y w ms y' w') (hne : ms ≠ []) (hs : SoundStack ms) (top bot : Ending K) (n1 n2 : ν)
    (h1 : 2 * w' ≤ 50 * (y' - y)) (h2 : 2 * w ≤ 50 * (y' - y)) :
    (∀ m ∈ ms, ∀ (name : ν) (b : SegCls) (ω : ℕ → ℕ → ℕ → ℕ → ℕ → Pt K) (fuel : ℕ),
      (∀ s, (s = rightWall m ∨ s = leftWall m) → ∀ r, R.intexFour m.posH 50000 (2 / 1000) s = .ok r → ∀ p ∈ r, ∀ e i n c k,
        GoodTarget (shell m b) p (ω e i n c k) ∧ Spread (shell m b) p (ω e i n c k)) →
      ∃ g, R.shellPart name (shell m b) [rightWall m, leftWall m] m.posH ω (fuel + 1) = .ok g ∧ R.IsShell m g ∧ g.name = name) ∧
    (∃ g : GPart ν K, R.IsEnd y' c (2 * w') 1 n1 g top) ∧ ∃ g : GPart ν K, R.IsEnd y c (2 * w) (-1) n2 g bot := by
  refine ⟨?_, ?_, ?_⟩
  · intro m hm name b ω fuel hω
    obtain ⟨g, e, en, -⟩ := hst.shell_lies (up := none) (down := none) hE hs (fun x h => by cases h) (fun x h => by cases h) hm name b ω hω fuel
    exact ⟨g, e, ⟨name, b, ω, fuel, hω, e⟩, en⟩
  · obtain ⟨g, h, -⟩ := hst.top_lies hE hne hs top h1 n1
    exact ⟨g, h⟩
  · obtain ⟨g, h, -⟩ := hst.bot_lies hE hne hs bot h2 n2
    exact ⟨g, h⟩

end

/-! ### a vessel with a waist -/

/-- a cone of diameter 2000 to 1000 below a cone of diameter 1000 to 2000, each 1500 high -/
def waist : List (MantelDim ℝ) := [⟨0, 0, 2000, 1000, 1500⟩, ⟨1500, 0, 1000, 2000, 1500⟩]

theorem waist_stack : Stack 0 0 1000 waist 3000 1000 := by
  refine ⟨rfl, rfl, ?_, rfl, ?_, ?_, ?_, ?_⟩ <;> norm_num

theorem waist_sound : SoundStack waist := by
  intro m hm
  simp only [waist, List.mem_cons, List.not_mem_nil, or_false] at hm
  rcases hm with rfl | rfl
  · refine ⟨⟨?_, ?_, ?_, ?_, ?_, ?_, ?_, ?_, ?_⟩, ?_, ?_⟩ <;> norm_num [abs_of_nonneg, abs_of_nonpos]
    · exact_mod_cast grid_intCast (K := ℝ) 0
    · exact_mod_cast grid_intCast (K := ℝ) 0
    · exact_mod_cast grid_intCast (K := ℝ) 1500
    · exact_mod_cast grid_intCast (K := ℝ) 1000
    · exact_mod_cast grid_intCast (K := ℝ) 500
  · refine ⟨⟨?_, ?_, ?_, ?_, ?_, ?_, ?_, ?_, ?_⟩, ?_, ?_⟩ <;> norm_num [abs_of_nonneg, abs_of_nonpos]
    · exact_mod_cast grid_intCast (K := ℝ) 0
    · exact_mod_cast grid_intCast (K := ℝ) 1500
    · exact_mod_cast grid_intCast (K := ℝ) 1500
    · exact_mod_cast grid_intCast (K := ℝ) 500
    · exact_mod_cast grid_intCast (K := ℝ) 1000

/-- a memory with these segments as Walls, every one with two Points of its own -/
noncomputable def wallHeap (L : List (Seg ℝ)) : Heap ℝ :=
  { pt := fun k => if k % 2 = 0 then (L.getD (k / 2) ⟨⟨0, 0⟩, ⟨0, 0⟩, .wall⟩).i else (L.getD (k / 2) ⟨⟨0, 0⟩, ⟨0, 0⟩, .wall⟩).j
    seg := fun k => ⟨2 * k, 2 * k + 1, .wall⟩
    npt := 2 * L.length
    nseg := L.length }

/-- this vessel, with a torispherical head on top and a flat head below: one loop of seven sides, whatever the order of the sets;
it is not convex -/
example (π : SetOrder) (hπ : π.Ok) :
    (∃ h' g P, exReal.findLoops π 16 (wallHeap (exReal.towerWalls 0 0 1000 waist 3000 1000 (.head 0) .plate))
      [⟨[0, 1], false⟩, ⟨[2, 3], false⟩, ⟨[4, 5], false⟩, ⟨[6], false⟩] = .ok h' g [P] ∧ ClosedChain (h'.vals P.segs) ∧
        (h'.vals P.segs).length = 7) ∧
    ¬ ConvexCcw (towerOutline 0 0 1000 waist 3000 1000 (some 100) none) := by
  constructor
  · obtain ⟨h', g, P, e, hc, l', hp, hf⟩ := C122_loops exReal_isExact waist_stack (by simp [waist]) waist_sound (by simp [waist])
      (.head 0) .plate π hπ 16 (by simp [waist]) (wallHeap (exReal.towerWalls 0 0 1000 waist 3000 1000 (.head 0) .plate))
      (by
        intro s hs
        unfold wallHeap at *
        dsimp only at *
        omega)
      [⟨[0, 1], false⟩, ⟨[2, 3], false⟩, ⟨[4, 5], false⟩, ⟨[6], false⟩]
      (by
        intro P hP s hs
        have h7 : (wallHeap (exReal.towerWalls 0 0 1000 waist 3000 1000 (.head 0) .plate)).nseg = 7 := rfl
        rw [h7]
        simp only [List.mem_cons, List.not_mem_nil, or_false] at hP
        rcases hP with rfl | rfl | rfl | rfl <;> simp at hs <;> omega)
      (List.Perm.refl _)
    refine ⟨h', g, P, e, hc, ?_⟩
    rw [← hp.length_eq, hf.length_eq]
    rfl
  · intro h
    have := h.left ⟨⟨1000, 0⟩, ⟨500, 1500⟩, .wall⟩ (by
      unfold towerOutline waist riseOf
      norm_num) ⟨⟨1000, 3000⟩, ⟨0, 3100⟩, .wall⟩ (by
      unfold towerOutline waist capUp
      norm_num)
    norm_num [det3] at this

end Srep
