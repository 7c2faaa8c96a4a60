import Verif.Spec.Region
import Verif.Lemmas.Region
import Verif.Lemmas.RatEx
import Verif.Props.RayDraw

/-!
# The regions of the plane that is_internal_point tells apart (C115)
-/

set_option linter.unusedSectionVars false

namespace Srep
open Rt Ray
variable {K : Type} [Field K] [LinearOrder K] [IsStrictOrderedRing K] [FloorRing K] {R : Rt K}

/-- the answer in terms of a ray in any direction -/
theorem plInternal_countH (hE : R.IsExact) (l m : List (Seg K)) (hd : SameDrawing l m) (hc : ClosedChain m) (hnd : NoDouble m)
    (p : Pt K) (hoff : OffSides m p) (ω : ℕ → Pt K) (hω : ∀ k < 3, GoodTarget m p (ω k) ∧ Spread m p (ω k))
    (t : Pt K) (ht : t ≠ p) (fuel : ℕ) :
    R.plInternal l p ω (fuel + 1) = some (decide (countH p t m % 2 = 1)) := by
  have g := (hω 0 (by omega)).1
  rw [C93_drawing hE l m hd hc hnd p hoff ω hω (ω 0) g fuel, meetCount_eq_rayCount g hoff, ← countH_eq_rayCount g.noVertex,
    countH_parity hc (t := ω 0) (t' := t) (by intro e; have := g.right; rw [e] at this; exact lt_irrefl _ this) ht hoff]

open Classical in
theorem meetCount_eq_sum (m : List (Seg K)) (p q : Pt K) : meetCount m p q = (m.map fun s => ind (Meet p q s)).sum := by
  unfold meetCount
  exact sum_ind_eq_length (fun s => Meet p q s) _ m fun s _ => by simp

theorem between_self {p X : Pt K} (h : Between p p X) : X = p := by
  obtain ⟨t, -, -, rfl⟩ := h
  unfold lerp
  cases p
  simp

/-- the parities at the ends of a straight piece -/
theorem countH_step {m : List (Seg K)} (hc : ClosedChain m) {p q t u : Pt K} (hp : OffSides m p) (hq : OffSides m q)
    (hv : PassesNoVertex m p q) (ht : t ≠ p) (hu : u ≠ q) :
    countH p t m % 2 = (meetCount m p q + countH q u m) % 2 := by
  by_cases hpq : p = q
  · subst hpq
    have : meetCount m p p = 0 := by
      rw [meetCount_eq_sum, List.sum_eq_zero]
      intro x hx
      obtain ⟨s, hs, rfl⟩ := List.mem_map.1 hx
      refine ind_false ?_
      rintro ⟨X, h1, h2⟩
      rw [between_self h1] at h2
      exact hp s hs h2
    rw [this, zero_add]
    exact countH_parity hc ht hu hp
  · have hb : beyondPt p q ≠ q := by
      intro e
      apply hpq
      have h1 := congrArg Pt.x e
      have h2 := congrArg Pt.y e
      unfold beyondPt at h1 h2
      dsimp only at h1 h2
      exact pt_ext (by linarith) (by linarith)
    have e1 := countH_parity hc ht (Ne.symm hpq) hp
    have e2 := countH_parity hc hu hb hq
    have e3 : countH p q m = meetCount m p q + countH q (beyondPt p q) m := by
      rw [meetCount_eq_sum]
      unfold countH
      rw [← sum_map_add']
      congr 1
      apply List.map_congr_left
      intro s hs
      exact cross_split hpq s (hp s hs) (hq s hs) (hv s hs).1 (hv s hs).2
    omega

theorem pieces_cons (p q : Pt K) (c : List (Pt K)) : pieces (p :: q :: c) = (p, q) :: pieces (q :: c) := rfl

/-- the parities at the ends of a path -/
theorem countH_path {m : List (Seg K)} (hc : ClosedChain m) : ∀ (c : List (Pt K)) (p : Pt K), FreePath m (p :: c) →
    ∀ q ∈ (p :: c).getLast?, ∀ t u, t ≠ p → u ≠ q → countH p t m % 2 = (crossings m (p :: c) + countH q u m) % 2
  | [], p, hf, q, hq, t, u, ht, hu => by
    rw [List.getLast?_singleton, Option.mem_some_iff] at hq
    subst hq
    have : crossings m [p] = 0 := rfl
    rw [this, zero_add]
    exact countH_parity hc ht hu (hf.off p (by simp))
  | r :: c, p, hf, q, hq, t, u, ht, hu => by
    have hf' : FreePath m (r :: c) := ⟨fun x hx => hf.off x (List.mem_cons_of_mem _ hx), fun x hx => hf.noVertex x (by
      rw [pieces_cons]; exact List.mem_cons_of_mem _ hx)⟩
    have hr : (⟨r.x + 1, r.y⟩ : Pt K) ≠ r := by
      intro e
      have := congrArg Pt.x e
      dsimp only at this
      linarith
    rw [List.getLast?_cons_cons] at hq
    have h1 := countH_path hc c r hf' q hq ⟨r.x + 1, r.y⟩ u hr hu
    have h2 := countH_step hc (hf.off p (by simp)) (hf.off r (by simp)) (hf.noVertex (p, r) (by rw [pieces_cons]; simp)) ht hr
    have h3 : crossings m (p :: r :: c) = meetCount m p r + crossings m (r :: c) := by
      unfold crossings
      rw [pieces_cons, List.map_cons, List.sum_cons]
    rw [h3]
    omega

/-- C115: for a path from `p` to `q` with straight pieces through no vertex the answers at its ends are equal iff the path
meets sides an even number of times. -/
theorem C115_path (hE : R.IsExact) (l m : List (Seg K)) (hd : SameDrawing l m) (hc : ClosedChain m) (hnd : NoDouble m)
    (p q : Pt K) (c : List (Pt K)) (hf : FreePath m (p :: c)) (hq : (p :: c).getLast? = some q)
    (ω ω' : ℕ → Pt K) (hω : ∀ k < 3, GoodTarget m p (ω k) ∧ Spread m p (ω k))
    (hω' : ∀ k < 3, GoodTarget m q (ω' k) ∧ Spread m q (ω' k)) (fuel fuel' : ℕ) :
    ∃ b b', R.plInternal l p ω (fuel + 1) = some b ∧ R.plInternal l q ω' (fuel' + 1) = some b' ∧
      (b = b' ↔ crossings m (p :: c) % 2 = 0) := by
  have ne : ∀ r : Pt K, (⟨r.x + 1, r.y⟩ : Pt K) ≠ r := by
    intro r e
    have := congrArg Pt.x e
    dsimp only at this
    linarith
  have hoffp : OffSides m p := hf.off p (by simp)
  have hoffq : OffSides m q := hf.off q (List.mem_of_getLast? hq)
  refine ⟨_, _, plInternal_countH hE l m hd hc hnd p hoffp ω hω _ (ne p) fuel,
    plInternal_countH hE l m hd hc hnd q hoffq ω' hω' _ (ne q) fuel', ?_⟩
  have h := countH_path hc c p hf q hq _ _ (ne p) (ne q)
  rw [decide_eq_decide]
  constructor
  · intro e; omega
  · intro e; omega

theorem freePath_of_misses {m : List (Seg K)} {c : List (Pt K)} (h : MissesAll m c) : FreePath m c ∧ crossings m c = 0 := by
  refine ⟨⟨h.1, ?_⟩, ?_⟩
  · intro x hx s hs
    refine ⟨fun hb => h.2 x hx s hs ⟨s.i, hb, 0, le_refl _, zero_le_one, ?_⟩, fun hb => h.2 x hx s hs ⟨s.j, hb, 1, zero_le_one, le_refl _, ?_⟩⟩
    · unfold lerp; cases s.i; simp
    · unfold lerp; cases s.j; simp
  · unfold crossings
    apply List.sum_eq_zero
    intro n hn
    obtain ⟨x, hx, rfl⟩ := List.mem_map.1 hn
    rw [meetCount_eq_sum, List.sum_eq_zero]
    intro k hk
    obtain ⟨s, hs, rfl⟩ := List.mem_map.1 hk
    exact ind_false (h.2 x hx s hs)

/-- C115: points that can be joined by a path that meets no side get the same answer. -/
theorem C115_same_region (hE : R.IsExact) (l m : List (Seg K)) (hd : SameDrawing l m) (hc : ClosedChain m) (hnd : NoDouble m)
    (p q : Pt K) (c : List (Pt K)) (hf : MissesAll m (p :: c)) (hq : (p :: c).getLast? = some q)
    (ω ω' : ℕ → Pt K) (hω : ∀ k < 3, GoodTarget m p (ω k) ∧ Spread m p (ω k))
    (hω' : ∀ k < 3, GoodTarget m q (ω' k) ∧ Spread m q (ω' k)) (fuel fuel' : ℕ) :
    ∃ b, R.plInternal l p ω (fuel + 1) = some b ∧ R.plInternal l q ω' (fuel' + 1) = some b := by
  obtain ⟨hf', h0⟩ := freePath_of_misses hf
  obtain ⟨b, b', e1, e2, h⟩ := C115_path hE l m hd hc hnd p q c hf' hq ω ω' hω hω' fuel fuel'
  have := h.2 (by rw [h0])
  exact ⟨b, e1, this ▸ e2⟩

/-- C115: points on the two sides of one side of the polygon get opposite answers. -/
theorem C115_across (hE : R.IsExact) (l m : List (Seg K)) (hd : SameDrawing l m) (hc : ClosedChain m) (hnd : NoDouble m)
    (p q : Pt K) (hp : OffSides m p) (hq : OffSides m q) (hv : PassesNoVertex m p q)
    (h1 : ∃ pre s post, m = pre ++ s :: post ∧ Meet p q s ∧ ∀ o ∈ pre ++ post, ¬ Meet p q o)
    (ω ω' : ℕ → Pt K) (hω : ∀ k < 3, GoodTarget m p (ω k) ∧ Spread m p (ω k))
    (hω' : ∀ k < 3, GoodTarget m q (ω' k) ∧ Spread m q (ω' k)) (fuel fuel' : ℕ) :
    ∃ b, R.plInternal l p ω (fuel + 1) = some b ∧ R.plInternal l q ω' (fuel' + 1) = some (!b) := by
  have hone : crossings m [p, q] = 1 := by
    obtain ⟨pre, s, post, rfl, hs, ho⟩ := h1
    have hz : ∀ n : List (Seg K), (∀ o ∈ n, ¬ Meet p q o) → (n.map fun s => ind (Meet p q s)).sum = 0 := by
      intro n hn
      apply List.sum_eq_zero
      intro k hk
      obtain ⟨s, hs, rfl⟩ := List.mem_map.1 hk
      exact ind_false (hn s hs)
    unfold crossings pieces
    simp only [List.tail_cons, List.zip_cons_cons, List.zip_nil_right, List.map_cons, List.map_nil, List.sum_cons, List.sum_nil]
    rw [meetCount_eq_sum, List.map_append, List.map_cons, List.sum_append, List.sum_cons, ind_true hs,
      hz pre fun o h => ho o (List.mem_append_left _ h), hz post fun o h => ho o (List.mem_append_right _ h)]
    rfl
  obtain ⟨b, b', e1, e2, h⟩ := C115_path hE l m hd hc hnd p q [q] ⟨by
    intro x hx
    simp only [List.mem_cons, List.not_mem_nil, or_false] at hx
    rcases hx with rfl | rfl
    · exact hp
    · exact hq, by
    intro x hx
    have : x = (p, q) := by simpa [pieces] using hx
    rw [this]
    exact hv⟩ rfl ω ω' hω hω' fuel fuel'
  refine ⟨b, e1, ?_⟩
  rw [e2]
  rw [hone] at h
  have : b ≠ b' := fun e => absurd (h.1 e) (by decide)
  cases b <;> cases b' <;> simp_all

/-- C115: a point from which a path that meets no side leads to a point beyond a straight line that has the whole polygon on the
other side is external. -/
theorem C115_outer_region (hE : R.IsExact) (l m : List (Seg K)) (hd : SameDrawing l m) (hc : ClosedChain m) (hnd : NoDouble m)
    (p q : Pt K) (c : List (Pt K)) (hf : MissesAll m (p :: c)) (hq : (p :: c).getLast? = some q) (hsep : Separable m q)
    (ω : ℕ → Pt K) (hω : ∀ k < 3, GoodTarget m p (ω k) ∧ Spread m p (ω k)) (fuel : ℕ) :
    R.plInternal l p ω (fuel + 1) = some false ∧ R.plExternal l p ω (fuel + 1) = some true := by
  have ne : ∀ r : Pt K, (⟨r.x + 1, r.y⟩ : Pt K) ≠ r := by
    intro r e
    have := congrArg Pt.x e
    dsimp only at this
    linarith
  obtain ⟨hf', h0⟩ := freePath_of_misses hf
  have key : R.plInternal l p ω (fuel + 1) = some false := by
    rw [plInternal_countH hE l m hd hc hnd p (hf.1 p (by simp)) ω hω _ (ne p) fuel]
    congr 1
    rw [decide_eq_false_iff_not]
    obtain ⟨r, hr⟩ := hsep
    by_cases hm : m = []
    · subst hm
      simp [countH]
    · obtain ⟨s, hs⟩ := List.exists_mem_of_ne_nil m hm
      have hrq : r ≠ q := by
        rintro rfl
        have := (hr s hs).1
        unfold det3 at this
        simp at this
      have h := countH_path hc c p hf' q hq _ r (ne p) hrq
      have hz : countH q r m = 0 := by
        unfold countH
        apply List.sum_eq_zero
        intro k hk
        obtain ⟨s, hs, rfl⟩ := List.mem_map.1 hk
        refine ind_false ?_
        have := hr s hs
        rintro (⟨h, _, _⟩ | ⟨_, h, _⟩) <;> linarith [this.1, this.2]
      rw [h0, hz] at h
      omega
  refine ⟨key, ?_⟩
  unfold plExternal
  rw [key]
  rfl

/-! ### a concrete case: a polygon in the shape of the letter U -/

namespace RegionEx
open RatEx

/-- the sides of the U -/
def uShape : List (Seg ℚ) :=
  [exSeg 1 1 7 1, exSeg 7 1 7 7, exSeg 7 7 5 7, exSeg 5 7 5 3, exSeg 5 3 3 3, exSeg 3 3 3 7, exSeg 3 7 1 7, exSeg 1 7 1 1]

/-- the check that a segment does not meet a side -/
def missB (p t : Pt ℚ) (s : Seg ℚ) : Bool :=
  if dirs p t s.i s.j = 0 then decide (det3 p t s.i ≠ 0) else !onB p t s.i s.j

theorem miss_pt {p t : Pt ℚ} {s : Seg ℚ} (h : missB p t s = true) : ¬ Meet (pt p) (pt t) (seg s) := by
  rintro ⟨X, ⟨u, u0, u1, rfl⟩, ⟨w, w0, w1, e⟩⟩
  change lerp (pt p) (pt t) u = lerp (pt s.i) (pt s.j) w at e
  unfold missB at h
  split_ifs at h with hd
  · rw [decide_eq_true_eq] at h
    exact h (no_common e hd)
  · obtain ⟨e1, e2⟩ := common_pos e hd
    rw [e1] at u0 u1
    rw [e2] at w0 w1
    have : onB p t s.i s.j = true := by
      unfold onB
      simp only [Bool.and_eq_true, decide_eq_true_eq]
      exact ⟨⟨⟨by exact_mod_cast u0, by exact_mod_cast u1⟩, by exact_mod_cast w0⟩, by exact_mod_cast w1⟩
    rw [this] at h
    cases h

theorem off_sides {p : Pt ℚ} (h : ∀ s ∈ uShape, det3 s.i s.j p ≠ 0) : OffSides (uShape.map seg) (pt p) := by
  intro s hs hc
  obtain ⟨s, hs', rfl⟩ := List.mem_map.1 hs
  obtain ⟨u, -, -, e⟩ := hc
  apply h s hs'
  have : det3 (pt s.i) (pt s.j) (pt p) = 0 := by
    rw [e]
    change det3 (pt s.i) (pt s.j) (lerp (pt s.i) (pt s.j) u) = 0
    unfold det3 lerp
    ring
  rw [det3_pt] at this
  exact_mod_cast this

theorem u_chain : ClosedChain (uShape.map seg) := by
  intro k hk
  have hk : k < 8 := hk
  interval_cases k <;> rfl

theorem u_noDouble : NoDouble (uShape.map seg) := by
  unfold NoDouble
  rw [List.pairwise_map]
  have : uShape.Pairwise fun a b => ¬ ((a.i = b.i ∧ a.j = b.j) ∨ (a.i = b.j ∧ a.j = b.i)) := by decide +kernel
  refine this.imp ?_
  rintro a b h (⟨h1, h2⟩ | ⟨h1, h2⟩)
  · exact h (Or.inl ⟨pt_inj h1, pt_inj h2⟩)
  · exact h (Or.inr ⟨pt_inj h1, pt_inj h2⟩)

theorem aim {p t : Pt ℚ} (h : goodB uShape p t = true) (h' : spreadB uShape p t = true) :
    ∀ k < 3, GoodTarget (uShape.map seg) (pt p) ((fun _ => pt t : ℕ → Pt ℝ) k) ∧ Spread (uShape.map seg) (pt p) ((fun _ => pt t : ℕ → Pt ℝ) k) :=
  fun _ _ => ⟨good_pt h, spread_pt h'⟩

/-- the notch of the U is external, although it is within the bounding box and the convex hull -/
example : exReal.plInternal (uShape.map seg) (pt ⟨4, 5⟩) (fun _ => pt ⟨29, 10⟩) 1 = some false := by
  refine (C115_outer_region exReal_isExact _ _ (SameDrawing.refl _) u_chain u_noDouble (pt ⟨4, 5⟩) (pt ⟨4, 9⟩) [pt ⟨4, 9⟩] ⟨?_, ?_⟩ rfl ?_
    _ (aim (by decide +kernel) (by decide +kernel)) 0).1
  · intro p hp
    simp only [List.mem_cons, List.not_mem_nil, or_false] at hp
    rcases hp with rfl | rfl
    · exact off_sides (by decide +kernel)
    · exact off_sides (by decide +kernel)
  · intro x hx s hs
    have : x = (pt ⟨4, 5⟩, pt ⟨4, 9⟩) := by simpa [pieces] using hx
    obtain ⟨s, hs', rfl⟩ := List.mem_map.1 hs
    rw [this]
    have hb : ∀ s ∈ uShape, missB ⟨4, 5⟩ ⟨4, 9⟩ s = true := by decide +kernel
    exact miss_pt (hb s hs')
  · refine ⟨pt ⟨3, 9⟩, ?_⟩
    intro s hs
    obtain ⟨s, hs', rfl⟩ := List.mem_map.1 hs
    have hb : ∀ s ∈ uShape, 0 < det3 ⟨4, 9⟩ ⟨3, 9⟩ s.i ∧ 0 < det3 ⟨4, 9⟩ ⟨3, 9⟩ s.j := by decide +kernel
    change 0 < det3 (pt ⟨4, 9⟩) (pt ⟨3, 9⟩) (pt s.i) ∧ 0 < det3 (pt ⟨4, 9⟩) (pt ⟨3, 9⟩) (pt s.j)
    rw [det3_pt, det3_pt]
    have := hb s hs'
    exact ⟨by exact_mod_cast this.1, by exact_mod_cast this.2⟩

/-- its left arm is on the other side of one side of the U, as seen from the notch -/
example : ∃ b, exReal.plInternal (uShape.map seg) (pt ⟨4, 5⟩) (fun _ => pt ⟨29, 10⟩) 1 = some b ∧
    exReal.plInternal (uShape.map seg) (pt ⟨2, 5⟩) (fun _ => pt ⟨29, 10⟩) 1 = some (!b) := by
  have hb : ∀ s ∈ [exSeg 1 1 7 1, exSeg 7 1 7 7, exSeg 7 7 5 7, exSeg 5 7 5 3, exSeg 5 3 3 3] ++ [exSeg 3 7 1 7, exSeg 1 7 1 1],
    missB ⟨4, 5⟩ ⟨2, 5⟩ s = true := by decide +kernel
  refine C115_across exReal_isExact _ _ (SameDrawing.refl _) u_chain u_noDouble _ _ (off_sides (by decide +kernel)) (off_sides (by decide +kernel))
    ?_ ⟨[exSeg 1 1 7 1, exSeg 7 1 7 7, exSeg 7 7 5 7, exSeg 5 7 5 3, exSeg 5 3 3 3].map seg, seg (exSeg 3 3 3 7), [exSeg 3 7 1 7, exSeg 1 7 1 1].map seg, rfl, ?_, ?_⟩
    _ _ (aim (by decide +kernel) (by decide +kernel)) (aim (by decide +kernel) (by decide +kernel)) 0 0
  · intro s hs
    obtain ⟨s, hs', rfl⟩ := List.mem_map.1 hs
    have hv : ∀ s ∈ uShape, det3 ⟨4, 5⟩ ⟨2, 5⟩ s.i ≠ 0 ∧ det3 ⟨4, 5⟩ ⟨2, 5⟩ s.j ≠ 0 := by decide +kernel
    have key : ∀ v : Pt ℚ, det3 ⟨4, 5⟩ ⟨2, 5⟩ v ≠ 0 → ¬ Between (pt ⟨4, 5⟩) (pt ⟨2, 5⟩) (pt v) := by
      rintro v h ⟨u, -, -, e⟩
      apply h
      have : det3 (pt ⟨4, 5⟩) (pt ⟨2, 5⟩) (pt v) = 0 := by rw [e]; unfold det3 lerp; ring
      rw [det3_pt] at this
      exact_mod_cast this
    exact ⟨key _ (hv s hs').1, key _ (hv s hs').2⟩
  · refine ⟨⟨3, 5⟩, ⟨1 / 2, by norm_num, by norm_num, ?_⟩, ⟨1 / 2, by norm_num, by norm_num, ?_⟩⟩
    · unfold lerp pt; norm_num
    · unfold lerp seg exSeg pt; norm_num
  · intro o ho
    rw [← List.map_append] at ho
    obtain ⟨s, hs, rfl⟩ := List.mem_map.1 ho
    exact miss_pt (hb s hs)

end RegionEx

end Srep
