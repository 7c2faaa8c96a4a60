import Verif.Lemmas.Turning
import Verif.Spec.Convex
import Verif.Props.LoopsVessel

/-! What `isconvex` says about the shape of a polygon. -/

set_option linter.unusedSectionVars false

namespace Srep
open Rt
variable {K : Type} [Field K] [LinearOrder K] [IsStrictOrderedRing K] [FloorRing K]

/-- the corners of a polygon, again and again -/
def cornerAt (l : List (Seg K)) (h : 0 < l.length) (k : ℕ) : Pt K := (l[k % l.length]'(Nat.mod_lt _ h)).i

theorem cornerAt_per (l : List (Seg K)) (h : 0 < l.length) (k : ℕ) : cornerAt l h (k + l.length) = cornerAt l h k := by
  unfold cornerAt
  simp only [Nat.add_mod_right]

theorem cornerAt_side {l : List (Seg K)} (hc : ClosedChain l) (h : 0 < l.length) (k : ℕ) :
    (l[k % l.length]'(Nat.mod_lt _ h)).i = cornerAt l h k ∧ (l[k % l.length]'(Nat.mod_lt _ h)).j = cornerAt l h (k + 1) := by
  refine ⟨rfl, ?_⟩
  rw [hc _ (Nat.mod_lt _ h)]
  unfold cornerAt
  simp only [Nat.mod_add_mod]

theorem cps_corner {R : Rt K} (hE : R.IsExact) {l : List (Seg K)} (hc : ClosedChain l) (h : 0 < l.length) (k : ℕ) :
    (R.cps l)[k % l.length]'(by rw [cps_length]; exact Nat.mod_lt _ h) = sideCross (cornerAt l h) k (k + 1) := by
  rw [cps_get R l _ (Nat.mod_lt _ h), hE.cross']
  simp only [Nat.mod_add_mod]
  rw [(cornerAt_side hc h k).1, (cornerAt_side hc h k).2, (cornerAt_side hc h (k + 1)).1, (cornerAt_side hc h (k + 1)).2]
  rfl

/-- every position comes up again in a full turn from `c` on -/
theorem exists_mod {n p : ℕ} (hp : p < n) (c : ℕ) : ∃ i, c ≤ i ∧ i < c + n ∧ i % n = p := by
  have hd := Nat.div_add_mod c n
  have hm := Nat.mod_lt c (by omega : 0 < n)
  rcases Nat.lt_or_ge p (c % n) with h1 | h1
  · refine ⟨p + n * (c / n + 1), ?_, ?_, ?_⟩
    · rw [Nat.mul_add]; omega
    · rw [Nat.mul_add]; omega
    · rw [Nat.add_mul_mod_self_left, Nat.mod_eq_of_lt hp]
  · refine ⟨p + n * (c / n), by omega, by omega, ?_⟩
    rw [Nat.add_mul_mod_self_left, Nat.mod_eq_of_lt hp]

/-- a pair of a side and a corner, with the corner counted on from the start of the side -/
theorem pair_at {l : List (Seg K)} (hc : ClosedChain l) {s o : Seg K} (hs : s ∈ l) (ho : o ∈ l) (h : 0 < l.length) (c : ℕ) :
    ∃ i j, c ≤ i ∧ i < c + l.length ∧ i ≤ j ∧ j < i + l.length ∧ s.i = cornerAt l h i ∧ s.j = cornerAt l h (i + 1) ∧
      o.i = cornerAt l h j := by
  obtain ⟨p, hp, rfl⟩ := List.getElem_of_mem hs
  obtain ⟨q, hq, rfl⟩ := List.getElem_of_mem ho
  obtain ⟨i, h1, h2, e1⟩ := exists_mod hp c
  obtain ⟨j, h3, h4, e2⟩ := exists_mod hq i
  have c1 := cornerAt_side hc h i
  have c2 := cornerAt_side hc h j
  simp only [e1] at c1
  simp only [e2] at c2
  exact ⟨i, j, h1, h2, h3, h4, c1.1, c1.2, c2.1⟩

/-- the start and the lengths of the two parts of a polygon that goes round once -/
theorem OnceRound.blocks {l : List (Seg K)} (hc : ClosedChain l) (h : 0 < l.length) (ho : OnceRound l) :
    ∃ (a b : K) (c m : ℕ), m ≤ l.length ∧ (∀ k, c ≤ k → k < c + m → 0 < sideAlong (cornerAt l h) a b k) ∧
      ∀ k, c + m ≤ k → k < c + l.length → sideAlong (cornerAt l h) a b k < 0 := by
  obtain ⟨a, b, f, g, ⟨c, hr⟩, hf, hg⟩ := ho
  have hlen : f.length + g.length = l.length := by rw [← List.length_append, ← hr, List.length_rotate]
  have hget : ∀ k (hk : k < l.length), l[(k + c) % l.length]'(Nat.mod_lt _ h) = (f ++ g)[k]'(by rw [List.length_append]; omega) := by
    intro k hk
    simp only [← hr, List.getElem_rotate]
  have hal : ∀ k, sideAlong (cornerAt l h) a b k = a * ((l[k % l.length]'(Nat.mod_lt _ h)).j.x - (l[k % l.length]'(Nat.mod_lt _ h)).i.x) +
      b * ((l[k % l.length]'(Nat.mod_lt _ h)).j.y - (l[k % l.length]'(Nat.mod_lt _ h)).i.y) := by
    intro k
    rw [(cornerAt_side hc h k).1, (cornerAt_side hc h k).2]
    rfl
  refine ⟨a, b, c, f.length, by omega, ?_, ?_⟩
  · intro k h1 h2
    obtain ⟨q, rfl⟩ : ∃ q, k = q + c := ⟨k - c, by omega⟩
    rw [hal, hget q (by omega), List.getElem_append_left (by omega)]
    exact hf _ (List.getElem_mem _)
  · intro k h1 h2
    obtain ⟨q, rfl⟩ : ∃ q, k = q + c := ⟨k - c, by omega⟩
    rw [hal, hget q (by omega), List.getElem_append_right (by omega)]
    exact hg _ (List.getElem_mem _)

/-- turns of at most four corners -/
theorem four_left {v : ℕ → Pt K} {n : ℕ} (hn : n ≤ 4) (hper : ∀ k, v (k + n) = v k) (ht : ∀ k, 0 ≤ sideCross v k (k + 1))
    {i j : ℕ} (hj : i ≤ j) (hj' : j < i + n) : 0 ≤ det3 (v i) (v (i + 1)) (v j) := by
  rcases (by omega : j = i ∨ j = i + 1 ∨ j = i + 2 ∨ (n = 4 ∧ j = i + 3)) with rfl | rfl | rfl | ⟨rfl, rfl⟩
  · apply le_of_eq; unfold det3; ring
  · apply le_of_eq; unfold det3; ring
  · have := ht i
    rw [show i + 2 = (i + 1) + 1 by omega, sideCross_step]
    have e : det3 (v i) (v (i + 1)) (v (i + 1)) = 0 := by unfold det3; ring
    rw [e, zero_add]; exact this
  · have := ht (i + 3)
    have e : det3 (v i) (v (i + 1)) (v (i + 3)) = sideCross v (i + 3) (i + 3 + 1) := by
      unfold det3 sideCross
      rw [show i + 3 + 1 + 1 = (i + 1) + 4 by omega, show i + 3 + 1 = i + 4 by omega, hper, hper]; ring
    rwa [e]

theorem noneRight_of_turns {R : Rt K} (hE : R.IsExact) {l : List (Seg K)} (hc : ClosedChain l)
    (ho : OnceRound l ∨ l.length ≤ 4) (ht : ∀ x ∈ R.cps l, 0 ≤ x) : NoneRight l := by
  intro s hs o ho'
  have h : 0 < l.length := List.length_pos_of_mem hs
  have ht' : ∀ k, 0 ≤ sideCross (cornerAt l h) k (k + 1) := by
    intro k; rw [← cps_corner hE hc h k]; exact ht _ (List.getElem_mem _)
  rcases ho with ho | ho
  · obtain ⟨a, b, c, m, hm, hup, hdn⟩ := ho.blocks hc h
    obtain ⟨i, j, h1, h2, h3, h4, e1, e2, e3⟩ := pair_at hc hs ho' h c
    rw [e1, e2, e3]
    exact left_of_all (cornerAt_per l h) ht' hm hup hdn h1 h2 h3 h4.le
  · obtain ⟨i, j, h1, h2, h3, h4, e1, e2, e3⟩ := pair_at hc hs ho' h 0
    rw [e1, e2, e3]
    exact four_left ho (cornerAt_per l h) ht' h3 h4

theorem turns_of_noneRight {R : Rt K} (hE : R.IsExact) {l : List (Seg K)} (hc : ClosedChain l) (hr : NoneRight l) :
    ∀ x ∈ R.cps l, 0 ≤ x := by
  intro x hx
  obtain ⟨k, hk, rfl⟩ := List.getElem_of_mem hx
  rw [cps_length] at hk
  have h : 0 < l.length := by omega
  have e := cps_corner hE hc h k
  simp only [Nat.mod_eq_of_lt hk] at e
  rw [e]
  have := hr _ (List.getElem_mem (Nat.mod_lt k h)) _ (List.getElem_mem (Nat.mod_lt (k + 1 + 1) h))
  rw [(cornerAt_side hc h k).1, (cornerAt_side hc h k).2, (cornerAt_side hc h (k + 1 + 1)).1, sideCross_step] at this
  have e0 : det3 (cornerAt l h k) (cornerAt l h (k + 1)) (cornerAt l h (k + 1)) = 0 := by unfold det3; ring
  rwa [e0, zero_add] at this

/-! ### the mirrored polygon -/

/-- mirrored at the y axis -/
def flipX (s : Seg K) : Seg K := ⟨⟨-s.i.x, s.i.y⟩, ⟨-s.j.x, s.j.y⟩, s.cls⟩

theorem flipX_chain {l : List (Seg K)} (hc : ClosedChain l) : ClosedChain (l.map flipX) := by
  intro k hk
  rw [List.length_map] at hk
  simp only [List.getElem_map, List.length_map]
  show (⟨-(l[k]).j.x, (l[k]).j.y⟩ : Pt K) = _
  rw [hc k hk]
  rfl

theorem flipX_once {l : List (Seg K)} (ho : OnceRound l) : OnceRound (l.map flipX) := by
  obtain ⟨a, b, f, g, hr, hf, hg⟩ := ho
  refine ⟨-a, b, f.map flipX, g.map flipX, ?_, ?_, ?_⟩
  · rw [← List.map_append]; exact hr.map _
  · intro s hs
    obtain ⟨t, ht, rfl⟩ := List.mem_map.1 hs
    have := hf t ht
    simp only [flipX]; linarith
  · intro s hs
    obtain ⟨t, ht, rfl⟩ := List.mem_map.1 hs
    have := hg t ht
    simp only [flipX]; linarith

theorem flipX_cps {R : Rt K} (hE : R.IsExact) (l : List (Seg K)) : R.cps (l.map flipX) = (R.cps l).map fun x => -x := by
  apply List.ext_getElem
  · simp [cps_length]
  · intro k h1 h2
    rw [cps_length, List.length_map] at h1
    simp only [List.getElem_map]
    rw [cps_get R _ k (by simpa using h1), cps_get R l k h1, hE.cross', hE.cross']
    simp only [List.getElem_map, List.length_map, flipX]
    ring

theorem flipX_none {l : List (Seg K)} : NoneRight (l.map flipX) ↔ NoneLeft l := by
  have e : ∀ s o : Seg K, det3 (flipX s).i (flipX s).j (flipX o).i = - det3 s.i s.j o.i := by
    intro s o; simp only [flipX, det3]; ring
  unfold NoneRight NoneLeft
  constructor
  · intro h s hs o ho
    have := h _ (List.mem_map_of_mem hs) _ (List.mem_map_of_mem ho)
    rw [e] at this; linarith
  · intro h s hs o ho
    obtain ⟨s', hs', rfl⟩ := List.mem_map.1 hs
    obtain ⟨o', ho', rfl⟩ := List.mem_map.1 ho
    rw [e]
    have := h s' hs' o' ho'
    linarith

/-- C131: `isconvex` of a valid closed polygon, exact arithmetic.  If no corner is to the right of a side, or none to the
left, it is True.  If it is True, and the polygon goes round once or has at most four sides, then this is so. -/
theorem C131_convex {R : Rt K} (hE : R.IsExact) {l : List (Seg K)} (hc : ClosedChain l) (hv : R.plValid l = true) :
    (NoneRight l ∨ NoneLeft l → R.isConvex l = .ok true) ∧
    (OnceRound l ∨ l.length ≤ 4 → R.isConvex l = .ok true → NoneRight l ∨ NoneLeft l) := by
  obtain ⟨c, e, hcv⟩ := (C51_convex R l).2 hv
  have hT : R.isConvex l = .ok true ↔ (∀ x ∈ R.cps l, 0 ≤ x) ∨ ∀ x ∈ R.cps l, x ≤ 0 := by
    rw [e, ← hcv]; simp
  rw [hT]
  constructor
  · rintro (h | h)
    · exact Or.inl (turns_of_noneRight hE hc h)
    · right
      intro x hx
      have := turns_of_noneRight hE (flipX_chain hc) (flipX_none.2 h) (-x) (by
        rw [flipX_cps hE]; exact List.mem_map_of_mem hx)
      linarith
  · rintro ho (h | h)
    · exact Or.inl (noneRight_of_turns hE hc ho h)
    · right
      rw [← flipX_none]
      refine noneRight_of_turns hE (flipX_chain hc) (ho.imp flipX_once (by simp)) ?_
      rw [flipX_cps hE]
      intro x hx
      obtain ⟨y, hy, rfl⟩ := List.mem_map.1 hx
      have := h y hy
      linarith

/-- C131: without straight corners: a closed polygon that turns left at every corner and goes round once is strictly convex,
in the sense required by C84, C93 and C103: all other corners are strictly to the left of each side, and no corner occurs twice. -/
theorem C131_strict {R : Rt K} (hE : R.IsExact) {l : List (Seg K)} (hc : ClosedChain l) (ho : OnceRound l)
    (ht : ∀ x ∈ R.cps l, 0 < x) : ConvexCcw l := by
  rcases Nat.eq_zero_or_pos l.length with h0 | h
  · rw [List.length_eq_zero_iff] at h0
    subst h0
    exact ⟨hc, by simp, by simp⟩
  have ht' : ∀ k, 0 < sideCross (cornerAt l h) k (k + 1) := by
    intro k; rw [← cps_corner hE hc h k]; exact ht _ (List.getElem_mem _)
  obtain ⟨a, b, c, m, hm, hup, hdn⟩ := ho.blocks hc h
  have hL : ∀ i j, c ≤ i → i < c + l.length → i + 1 < j → j < i + l.length →
      0 < det3 (cornerAt l h i) (cornerAt l h (i + 1)) (cornerAt l h j) := fun i j h1 h2 h3 h4 =>
    strictly_left (cornerAt_per l h) ht' hm hup hdn h1 h2 h3 h4
  refine ⟨hc, ?_, ?_⟩
  · rw [List.nodup_iff_getElem?_ne_getElem?]
    intro p q hpq hq hx
    rw [List.length_map] at hq
    obtain ⟨i, h1, h2, e1⟩ := exists_mod (by omega : p < l.length) c
    obtain ⟨j, h3, h4, e2⟩ := exists_mod hq i
    have c1 := (cornerAt_side hc h i).1
    have c2 := (cornerAt_side hc h j).1
    simp only [e1] at c1
    simp only [e2] at c2
    have e : cornerAt l h i = cornerAt l h j := by
      rw [← c1, ← c2]
      simpa [List.getElem?_eq_getElem, hq, (by omega : p < l.length)] using hx
    have hne : i ≠ j := by rintro rfl; omega
    rcases (by omega : j = i + 1 ∨ i + 1 < j) with rfl | h5
    · have := ht' i
      unfold sideCross at this
      rw [← e] at this
      simp at this
    · have := hL i j h1 h2 h5 h4
      rw [← e] at this
      unfold det3 at this
      simp at this
  · intro s hs o ho'
    obtain ⟨i, j, h1, h2, h3, h4, e1, e2, e3⟩ := pair_at hc hs ho' h c
    rw [e1, e2, e3]
    rcases (by omega : j = i ∨ j = i + 1 ∨ i + 1 < j) with rfl | rfl | h5
    · exact Or.inl rfl
    · exact Or.inr (Or.inl rfl)
    · exact Or.inr (Or.inr (hL i j h1 h2 h5 h4))

/-! ### convex polygons go round once -/

/-- a direction that is perpendicular to none of the sides -/
theorem exists_direction (l : List (Seg K)) (hn : ∀ s ∈ l, s.i ≠ s.j) :
    ∃ b : K, ∀ s ∈ l, 1 * (s.j.x - s.i.x) + b * (s.j.y - s.i.y) ≠ 0 := by
  classical
  obtain ⟨b, hb⟩ := Infinite.exists_notMem_finset (l.map fun s => -(s.j.x - s.i.x) / (s.j.y - s.i.y)).toFinset
  refine ⟨b, fun s hs e => ?_⟩
  by_cases hy : s.j.y - s.i.y = 0
  · rw [hy] at e
    refine hn s hs (Pt.ext' ?_ ?_) <;> linarith
  · apply hb
    rw [List.mem_toFinset]
    refine List.mem_map.2 ⟨s, hs, ?_⟩
    field_simp
    linarith

/-- a point strictly to the left of a side that comes backwards, and to the left of the next one, which leaves forwards, is
ahead of their common corner -/
theorem ahead_of_corner {a b : K} {p q r z : Pt K} (ht : 0 < det3 p q r) (h1 : 0 < det3 p q z) (h2 : 0 ≤ det3 q r z)
    (hp : a * (q.x - p.x) + b * (q.y - p.y) < 0) (hr : 0 < a * (r.x - q.x) + b * (r.y - q.y)) :
    0 < a * (z.x - q.x) + b * (z.y - q.y) := by
  have e : det3 p q r * (a * (z.x - q.x) + b * (z.y - q.y)) =
      det3 p q z * (a * (r.x - q.x) + b * (r.y - q.y)) + det3 q r z * -(a * (q.x - p.x) + b * (q.y - p.y)) := by
    unfold det3; ring
  have : 0 < det3 p q r * (a * (z.x - q.x) + b * (z.y - q.y)) := by
    rw [e]; exact add_pos_of_pos_of_nonneg (mul_pos h1 hr) (mul_nonneg h2 (by linarith))
  exact (pos_iff_pos_of_mul_pos this).1 ht

/-- C131: conversely every strictly convex polygon goes round once and turns left at every corner. -/
theorem C131_once {R : Rt K} (hE : R.IsExact) {l : List (Seg K)} (hcv : ConvexCcw l) (h3 : 3 ≤ l.length) :
    OnceRound l ∧ ∀ x ∈ R.cps l, 0 < x := by
  have hc := hcv.chain
  have h : 0 < l.length := by omega
  set v := cornerAt l h with hv
  set n := l.length with hn
  have hper : ∀ k, v (k + n) = v k := cornerAt_per l h
  have hinj : ∀ i j, v i = v j → i % n = j % n := by
    intro i j e
    have := (List.nodup_iff_injective_getElem.1 hcv.nodup)
    have hi : i % n < (l.map Seg.i).length := by rw [List.length_map]; exact Nat.mod_lt _ h
    have hj : j % n < (l.map Seg.i).length := by rw [List.length_map]; exact Nat.mod_lt _ h
    have := @this ⟨i % n, hi⟩ ⟨j % n, hj⟩ (by simp only [List.getElem_map]; exact e)
    simpa using this
  have hmod : ∀ i d, 0 < d → d < n → (i + d) % n ≠ i % n := by
    intro i d h1 h2 e
    have := (Nat.modEq_iff_dvd' (by omega : i ≤ i + d)).1 (show i ≡ i + d [MOD n] from e.symm)
    rw [Nat.add_sub_cancel_left] at this
    exact absurd (Nat.le_of_dvd h1 this) (by omega)
  have hleft : ∀ i j, v j = v i ∨ v j = v (i + 1) ∨ 0 < det3 (v i) (v (i + 1)) (v j) := by
    intro i j
    have := hcv.left _ (List.getElem_mem (Nat.mod_lt i h)) _ (List.getElem_mem (Nat.mod_lt j h))
    rwa [(cornerAt_side hc h i).1, (cornerAt_side hc h i).2, (cornerAt_side hc h j).1] at this
  have hleft' : ∀ i j, 0 ≤ det3 (v i) (v (i + 1)) (v j) := by
    intro i j
    rcases hleft i j with e | e | e
    · rw [e]; apply le_of_eq; unfold det3; ring
    · rw [e]; apply le_of_eq; unfold det3; ring
    · exact e.le
  have hturn : ∀ i, 0 < det3 (v i) (v (i + 1)) (v (i + 2)) := by
    intro i
    rcases hleft i (i + 2) with e | e | e
    · exact absurd (hinj _ _ e) (hmod i 2 (by omega) (by omega))
    · exact absurd (hinj _ _ e) (hmod (i + 1) 1 (by omega) (by omega))
    · exact e
  have hcps : ∀ x ∈ R.cps l, 0 < x := by
    intro x hx
    obtain ⟨k, hk, rfl⟩ := List.getElem_of_mem hx
    rw [cps_length] at hk
    have e := cps_corner hE hc h k
    simp only [Nat.mod_eq_of_lt hk] at e
    rw [e]
    have := hturn k
    rw [show k + 2 = (k + 1) + 1 by omega, sideCross_step] at this
    have e0 : det3 (v k) (v (k + 1)) (v (k + 1)) = 0 := by unfold det3; ring
    rwa [e0, zero_add] at this
  refine ⟨?_, hcps⟩
  obtain ⟨b, hb⟩ := exists_direction l (by
    intro s hs e
    obtain ⟨k, hk, rfl⟩ := List.getElem_of_mem hs
    have c1 := cornerAt_side hc h k
    simp only [Nat.mod_eq_of_lt hk] at c1
    rw [c1.1, c1.2] at e
    exact hmod k 1 (by omega) (by omega) (hinj _ _ e).symm)
  have hs : ∀ k, sideAlong v 1 b k ≠ 0 := by
    intro k
    have := hb _ (List.getElem_mem (Nat.mod_lt k h))
    rw [(cornerAt_side hc h k).1, (cornerAt_side hc h k).2] at this
    exact this
  obtain ⟨c, -, hmin⟩ := Finset.exists_min_image (Finset.range n) (fun k => 1 * (v k).x + b * (v k).y)
    ⟨0, Finset.mem_range.2 h⟩
  have hvm : ∀ k, v (k % n) = v k := by
    intro k; rw [hv]; unfold cornerAt; simp only [← hn, Nat.mod_mod]
  have hmin : ∀ k, 1 * (v c).x + b * (v c).y ≤ 1 * (v k).x + b * (v k).y := by
    intro k
    have := hmin (k % n) (Finset.mem_range.2 (Nat.mod_lt _ h))
    rwa [hvm] at this
  -- a corner reached backwards and left forwards is the hindmost one
  have hlow : ∀ k, sideAlong v 1 b k < 0 → 0 < sideAlong v 1 b (k + 1) → (k + 1) % n = c % n := by
    intro k h1 h2
    have h4 := hmin (k + 1)
    rcases hleft k c with e | e | e
    · have := hmin (k + 1)
      unfold sideAlong at h1
      rw [e] at this
      linarith
    · exact (hinj _ _ e).symm
    · have := ahead_of_corner (hturn k) e (hleft' (k + 1) c) h1 h2
      linarith
  have hstart : 0 < sideAlong v 1 b c := by
    refine lt_of_le_of_ne ?_ (hs c).symm
    have := hmin (c + 1)
    unfold sideAlong; linarith
  have hend : sideAlong v 1 b (c + (n - 1)) < 0 := by
    refine lt_of_le_of_ne ?_ (hs _)
    have := hmin (c + (n - 1))
    unfold sideAlong
    rw [show c + (n - 1) + 1 = c + n by omega, hper]; linarith
  classical
  have hex : ∃ m, sideAlong v 1 b (c + m) < 0 := ⟨n - 1, hend⟩
  set m := Nat.find hex with hm
  have hmn : m ≤ n - 1 := Nat.find_min' hex hend
  have hup : ∀ k < m, 0 < sideAlong v 1 b (c + k) := by
    intro k hk
    have := Nat.find_min hex hk
    exact lt_of_le_of_ne (not_lt.1 this) (hs _).symm
  have hdn : ∀ k, m ≤ k → k < n → sideAlong v 1 b (c + k) < 0 := by
    intro k hk
    induction k, hk using Nat.le_induction with
    | base => intro _; exact Nat.find_spec hex
    | succ k hk ih =>
      intro hlt
      by_contra hcon
      have := hlow (c + k) (ih (by omega)) (lt_of_le_of_ne (not_lt.1 hcon) (hs _).symm)
      exact hmod c (k + 1) (by omega) hlt this
  have hside : ∀ k (hk : k < (l.rotate c).length), 1 * (((l.rotate c)[k]).j.x - ((l.rotate c)[k]).i.x) +
      b * (((l.rotate c)[k]).j.y - ((l.rotate c)[k]).i.y) = sideAlong v 1 b (c + k) := by
    intro k hk
    rw [List.getElem_rotate, (cornerAt_side hc h (k + c)).1, (cornerAt_side hc h (k + c)).2, add_comm k c]
    rfl
  refine ⟨1, b, (l.rotate c).take m, (l.rotate c).drop m, ⟨c, (List.take_append_drop _ _).symm⟩, ?_, ?_⟩
  · intro s hs
    obtain ⟨k, hk, rfl⟩ := List.getElem_of_mem hs
    rw [List.length_take, List.length_rotate] at hk
    rw [List.getElem_take, hside]
    exact hup k (by omega)
  · intro s hs
    obtain ⟨k, hk, rfl⟩ := List.getElem_of_mem hs
    rw [List.length_drop, List.length_rotate] at hk
    rw [List.getElem_drop, hside]
    exact hdn _ (by omega) (by omega)

/-- the hypotheses of C131 hold for the square with corners (1, 1) and (2, 2) -/
example : exReal.IsExact ∧ ClosedChain sq12 ∧ exReal.plValid sq12 = true ∧ OnceRound sq12 ∧ (∀ x ∈ exReal.cps sq12, 0 < x) ∧
    NoneRight sq12 ∧ ConvexCcw sq12 ∧ 3 ≤ sq12.length := by
  have h := C131_once exReal_isExact sq12_convex (by decide)
  refine ⟨exReal_isExact, sq12_convex.chain, plValid_clear exReal_isExact (H := sq12) ?_ (SameDrawing.refl _) sq12_convex.chain (by simp [sq12]),
    h.1, h.2, noneRight_of_turns exReal_isExact sq12_convex.chain (Or.inl h.1) (fun x hx => (h.2 x hx).le), sq12_convex, by decide⟩
  simp only [sq12, List.pairwise_cons, List.mem_cons, List.not_mem_nil, or_false]
  refine ⟨?_, ?_, ?_, ?_, ?_⟩
  all_goals first | exact List.Pairwise.nil | skip
  all_goals
    intro o ho
    unfold KeepClear StripsApart
    first
    | rcases ho with rfl | rfl | rfl <;> norm_num
    | rcases ho with rfl | rfl <;> norm_num
    | (subst ho; norm_num)
    | exact ho.elim

/-! ### a polygon that goes round twice -/

/-- a big triangle and a small one inside of it, passed one after the other from their common corner -/
def exTwoRounds : List (Seg ℚ) := [exSeg 0 0 4 0, exSeg 4 0 4 4, exSeg 4 4 0 0, exSeg 0 0 2 1, exSeg 2 1 3 2, exSeg 3 2 0 0]

/-- C131: otherwise `isconvex` can be wrong.  A big triangle and a small one inside of it, passed one after the other from
their common corner, form a valid closed polygon that turns left at each of its six corners; `isconvex` is True (and `iscw`
False), although a corner is to the left and another one to the right of a side. -/
theorem C131_two_rounds : exRt.plValid exTwoRounds = true ∧ ClosedChain exTwoRounds ∧ exRt.isClosed exTwoRounds = .ok true ∧
    (∀ x ∈ exRt.cps exTwoRounds, 0 < x) ∧ exRt.isConvex exTwoRounds = .ok true ∧ exRt.isCw exTwoRounds = .ok false ∧
    ¬ NoneRight exTwoRounds ∧ ¬ NoneLeft exTwoRounds := by
  unfold ClosedChain NoneRight NoneLeft
  decide +kernel

/-- a triangle with a zigzag on its lower side: (0, 0), (2, 0), (1, 0), (3, 0), (0, 3) -/
def exZigzag : List (Seg ℚ) := [exSeg 0 0 2 0, exSeg 2 0 1 0, exSeg 1 0 3 0, exSeg 3 0 0 3, exSeg 0 3 0 0]

/-- C131: and it can be wrong for different corners, if the polygon turns back at a corner.  Parallel sides never meet for
`isvalid`, and a turn back has cross product 0, so that the zigzag polygon is valid, closed, convex and not clockwise, although
the corner (0, 3) is to the left of the first side and to the right of the second one. -/
theorem C131_zigzag : exRt.plValid exZigzag = true ∧ ClosedChain exZigzag ∧ exRt.isClosed exZigzag = .ok true ∧
    (exZigzag.map Seg.i).Nodup ∧ exRt.isConvex exZigzag = .ok true ∧ exRt.isCw exZigzag = .ok false ∧
    ¬ NoneRight exZigzag ∧ ¬ NoneLeft exZigzag := by
  unfold ClosedChain NoneRight NoneLeft
  decide +kernel

end Srep
