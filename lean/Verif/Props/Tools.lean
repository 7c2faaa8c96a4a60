import Verif.Model.Tools
import Verif.Props.LineC
import Verif.Props.Point
import Verif.Props.Rigid
import Verif.Props.OrderCycle
import Verif.Props.Order
import Verif.Props.RaumIntex
import Verif.Props.Loops
import Verif.Props.LoopsSingle

/-!
# Refinement of boundaries (C116), and small functions around polygons (C117)
-/

set_option linter.unusedSectionVars false

namespace Srep
open Rt
variable {K : Type} [Field K] [LinearOrder K] [IsStrictOrderedRing K] [FloorRing K] {R : Rt K}

theorem foldl_min_le : ∀ (l : List K) (a : K), l.foldl min a ≤ a ∧ (∀ x ∈ l, l.foldl min a ≤ x) ∧ (l.foldl min a = a ∨ l.foldl min a ∈ l)
  | [], a => ⟨le_refl _, by simp, Or.inl rfl⟩
  | b :: l, a => by
    obtain ⟨h1, h2, h3⟩ := foldl_min_le l (min a b)
    rw [List.foldl_cons]
    refine ⟨h1.trans (min_le_left _ _), ?_, ?_⟩
    · intro x hx
      rcases List.mem_cons.1 hx with rfl | hx
      · exact h1.trans (min_le_right _ _)
      · exact h2 x hx
    · rcases h3 with h3 | h3
      · rcases min_choice a b with e | e
        · left; rw [h3, e]
        · right; rw [h3, e]; simp
      · right; exact List.mem_cons_of_mem _ h3

theorem minOf_some {l : List K} {m : K} (h : minOf l = some m) : m ∈ l ∧ ∀ x ∈ l, m ≤ x := by
  cases l with
  | nil => cases h
  | cons a l =>
    have e : l.foldl min a = m := Option.some.inj h
    obtain ⟨h1, h2, h3⟩ := foldl_min_le l a
    rw [e] at h1 h2 h3
    refine ⟨?_, ?_⟩
    · rcases h3 with rfl | h3
      · simp
      · exact List.mem_cons_of_mem _ h3
    · intro x hx
      rcases List.mem_cons.1 hx with rfl | hx
      · exact h1
      · exact h2 x hx

/-- C116: without constraints a ValueError, with a constraint of length zero a ZeroDivisionError; otherwise it succeeds. -/
theorem C116_errors (hE : R.IsExact) (cs : List (Seg K)) (pts : List (Pt K)) :
    (R.refineBoundaries cs pts = .error .value ↔ cs = []) ∧
    (R.refineBoundaries cs pts = .error .zeroDiv ↔ ∃ c ∈ cs, c.i = c.j) ∧
    ((∃ l, R.refineBoundaries cs pts = .ok l) ↔ cs ≠ [] ∧ ∀ c ∈ cs, c.i ≠ c.j) := by
  cases hm : minOf (cs.map R.norm) with
  | none =>
    have hcs : cs = [] := by
      cases cs with
      | nil => rfl
      | cons a l => cases hm
    subst hcs
    have e : R.refineBoundaries [] pts = .error .value := rfl
    rw [e]
    simp
  | some m =>
    obtain ⟨h1, h2⟩ := minOf_some hm
    obtain ⟨c0, hc0, e0⟩ := List.mem_map.1 h1
    have hne : cs ≠ [] := List.ne_nil_of_mem hc0
    have hz : m = 0 ↔ ∃ c ∈ cs, c.i = c.j := by
      constructor
      · intro h
        refine ⟨c0, hc0, ?_⟩
        rw [h, hE.norm'] at e0
        exact (C07_zero_iff hE _ _).1 e0
      · rintro ⟨c, hc, e⟩
        have := h2 _ (List.mem_map.2 ⟨c, hc, rfl⟩)
        rw [hE.norm', (C07_zero_iff hE _ _).2 e] at this
        have h0 : 0 ≤ m := by rw [← e0, hE.norm']; exact (C07_euclid hE _ _).1
        exact le_antisymm this h0
    by_cases h : m = 0
    · have e : R.refineBoundaries cs pts = .error .zeroDiv := by unfold refineBoundaries; rw [hm]; exact if_pos h
      rw [e]
      refine ⟨by simp [hne], by simp [hz.1 h], ?_⟩
      constructor
      · rintro ⟨l, hl⟩; cases hl
      · rintro ⟨-, hc⟩
        obtain ⟨c, hc', e⟩ := hz.1 h
        exact absurd e (hc c hc')
    · have e : ∃ l, R.refineBoundaries cs pts = .ok l := by unfold refineBoundaries; rw [hm]; exact ⟨_, if_neg h⟩
      obtain ⟨l, e⟩ := e
      rw [e]
      have hno := mt hz.2 h
      refine ⟨by simp [hne], by simpa using hno, ?_⟩
      constructor
      · intro _
        exact ⟨hne, fun c hc e => hno ⟨c, hc, e⟩⟩
      · intro _; exact ⟨l, rfl⟩

theorem distance_lerp (hE : R.IsExact) (a b : Pt K) {u w : K} (h : u ≤ w) :
    R.distance (lerp a b u) (lerp a b w) = (w - u) * R.distance a b := by
  obtain ⟨n1, e1⟩ := C07_euclid hE (lerp a b u) (lerp a b w)
  obtain ⟨n2, e2⟩ := C07_euclid hE a b
  have h' : 0 ≤ w - u := sub_nonneg.2 h
  refine (pow_left_inj₀ n1 (mul_nonneg h' n2) (two_ne_zero)).1 ?_
  rw [e1, mul_pow, e2]
  unfold lerp
  dsimp only
  ring

theorem distance_near (hE : R.IsExact) {p q : Pt K} (hx : |p.x - q.x| ≤ 1 / 2 * (1 / 10 ^ 8)) (hy : |p.y - q.y| ≤ 1 / 2 * (1 / 10 ^ 8)) :
    R.distance p q ≤ 1 / 10 ^ 8 := by
  obtain ⟨n1, e1⟩ := C07_euclid hE p q
  refine (pow_le_pow_iff_left₀ n1 (by positivity) (two_ne_zero)).1 ?_
  rw [e1, ← sq_abs (p.x - q.x), ← sq_abs (p.y - q.y)]
  have a := pow_le_pow_left₀ (abs_nonneg (p.x - q.x)) hx 2
  have b := pow_le_pow_left₀ (abs_nonneg (p.y - q.y)) hy 2
  have : (1 / 2 * (1 / 10 ^ 8) : K) ^ 2 + (1 / 2 * (1 / 10 ^ 8)) ^ 2 ≤ (1 / 10 ^ 8) ^ 2 := by norm_num
  linarith

/-- C116: every constraint is cut into at least two pieces of equal length, shorter than the shortest constraint, but at
least half as long; the ends of the pieces are appended to the points, in order, every inner one twice. -/
theorem C116_cut (hE : R.IsExact) (cs : List (Seg K)) (pts l : List (Pt K)) (h : R.refineBoundaries cs pts = .ok l) :
    ∃ (m : K) (n : Seg K → ℕ) (node : Seg K → ℕ → Pt K),
      (∃ c ∈ cs, R.distance c.i c.j = m) ∧ (∀ c ∈ cs, m ≤ R.distance c.i c.j) ∧
      l = pts ++ cs.flatMap (fun c => (List.range (n c)).flatMap fun k => [node c k, node c (k + 1)]) ∧
      ∀ c ∈ cs, 2 ≤ n c ∧ node c 0 = c.i ∧ node c (n c) = c.j ∧
        m / 2 ≤ R.distance c.i c.j / n c ∧ R.distance c.i c.j / n c < m ∧
        (∀ k ≤ n c, R.distance (node c k) (lerp c.i c.j ((k : K) / n c)) ≤ 1 / 10 ^ 8) ∧
        ∀ k < n c, m / 2 - 2 / 10 ^ 8 ≤ R.distance (node c k) (node c (k + 1)) ∧
          R.distance (node c k) (node c (k + 1)) < m + 2 / 10 ^ 8 := by
  unfold refineBoundaries at h
  cases hm : minOf (cs.map R.norm) with
  | none => rw [hm] at h; cases h
  | some m =>
    rw [hm] at h
    dsimp only at h
    by_cases h0 : m = 0
    · rw [if_pos h0] at h; cases h
    rw [if_neg h0] at h
    have hl := Except.ok.inj h
    obtain ⟨h1, h2⟩ := minOf_some hm
    obtain ⟨c0, hc0, e0⟩ := List.mem_map.1 h1
    have hm0 : 0 < m := lt_of_le_of_ne (by rw [← e0, hE.norm']; exact (C07_euclid hE _ _).1) (Ne.symm h0)
    have hle : ∀ c ∈ cs, m ≤ R.distance c.i c.j := by
      intro c hc
      have := h2 _ (List.mem_map.2 ⟨c, hc, rfl⟩)
      rwa [hE.norm'] at this
    have hdiv : ∀ c ∈ cs, ∃ n : ℕ, R.refineDivs m c = n ∧ 2 ≤ n ∧ ((n : K) - 1) * m ≤ R.distance c.i c.j ∧ R.distance c.i c.j < n * m := by
      intro c hc
      have e : R.refineDivs m c = ⌊R.distance c.i c.j / m⌋ + 1 := by unfold refineDivs; rw [hE.div', hE.norm']
      have hf1 : 1 ≤ ⌊R.distance c.i c.j / m⌋ := by
        rw [Int.le_floor, Int.cast_one, le_div_iff₀ hm0, one_mul]
        exact hle c hc
      refine ⟨(⌊R.distance c.i c.j / m⌋ + 1).toNat, ?_, by omega, ?_, ?_⟩
      · rw [e]; omega
      · have := Int.floor_le (R.distance c.i c.j / m)
        rw [le_div_iff₀ hm0] at this
        have e2 : (((⌊R.distance c.i c.j / m⌋ + 1).toNat : ℕ) : K) = (⌊R.distance c.i c.j / m⌋ : K) + 1 := by
          have : (((⌊R.distance c.i c.j / m⌋ + 1).toNat : ℤ) : K) = ((⌊R.distance c.i c.j / m⌋ + 1 : ℤ) : K) := by
            congr 1; omega
          push_cast at this ⊢
          exact this
        rw [e2]
        linarith
      · have := Int.lt_floor_add_one (R.distance c.i c.j / m)
        rw [div_lt_iff₀ hm0] at this
        have e2 : (((⌊R.distance c.i c.j / m⌋ + 1).toNat : ℕ) : K) = (⌊R.distance c.i c.j / m⌋ : K) + 1 := by
          have : (((⌊R.distance c.i c.j / m⌋ + 1).toNat : ℤ) : K) = ((⌊R.distance c.i c.j / m⌋ + 1 : ℤ) : K) := by
            congr 1; omega
          push_cast at this ⊢
          exact this
        rw [e2]
        exact this
    have hex : ∀ c : Seg K, ∃ x : ℕ × (ℕ → Pt K), c ∈ cs → R.refineDivs m c = x.1 ∧ 2 ≤ x.1 ∧ ((x.1 : K) - 1) * m ≤ R.distance c.i c.j ∧
        R.distance c.i c.j < x.1 * m ∧ x.2 0 = c.i ∧ x.2 x.1 = c.j ∧ (∀ k, 0 < k → k < x.1 → x.2 k = R.divPoint c x.1 k) ∧
        (R.divideLine c x.1).length = x.1 ∧ ∀ k, k < x.1 → (R.divideLine c x.1)[k]? = some ⟨x.2 k, x.2 (k + 1), .line⟩ := by
      intro c
      by_cases hc : c ∈ cs
      · obtain ⟨n, a1, a2, a3, a4⟩ := hdiv c hc
        obtain ⟨node, b1, b2, b3, b4, b5⟩ := C27_structure R c n (by omega)
        exact ⟨(n, node), fun _ => ⟨a1, a2, a3, a4, b1, b2, b3, b4, b5⟩⟩
      · exact ⟨(0, fun _ => c.i), fun h => absurd h hc⟩
    choose x hx using hex
    refine ⟨m, fun c => (x c).1, fun c => (x c).2, ⟨c0, hc0, by rw [← e0, hE.norm']⟩, hle, ?_, ?_⟩
    · rw [← hl]
      congr 1
      apply List.flatMap_congr
      intro c hc
      obtain ⟨a1, a2, -, -, b1, b2, b3, b4, b5⟩ := hx c hc
      rw [a1]
      have : R.divideLine c (x c).1 = (List.range (x c).1).map fun k => (⟨(x c).2 k, (x c).2 (k + 1), .line⟩ : Seg K) := by
        apply List.ext_getElem?
        intro k
        by_cases hk : k < (x c).1
        · rw [b5 k hk, List.getElem?_map, List.getElem?_range hk]; rfl
        · rw [List.getElem?_eq_none (by omega), List.getElem?_eq_none (by simp; omega)]
      rw [this, List.flatMap_map]
    · intro c hc
      obtain ⟨a1, a2, a3, a4, b1, b2, b3, b4, b5⟩ := hx c hc
      dsimp only
      set n := (x c).1
      set node := (x c).2
      have hn0 : (0 : K) < n := by exact_mod_cast (by omega : 0 < n)
      have hn2 : (2 : K) ≤ n := by exact_mod_cast a2
      have hnear : ∀ k ≤ n, R.distance (node k) (lerp c.i c.j ((k : K) / n)) ≤ 1 / 10 ^ 8 := by
        intro k hk
        rcases Nat.eq_zero_or_pos k with rfl | hk0
        · rw [b1, Nat.cast_zero, zero_div]
          have : lerp c.i c.j (0 : K) = c.i := by unfold lerp; simp
          rw [this, (C07_zero_iff hE _ _).2 rfl]
          positivity
        rcases Nat.lt_or_ge k n with hk' | hk'
        · rw [b3 k hk0 hk']
          obtain ⟨p1, p2⟩ := C27_position hE c n k (by omega)
          exact distance_near hE p1 p2
        · have : k = n := le_antisymm hk hk'
          rw [this, b2, div_self hn0.ne']
          have : lerp c.i c.j (1 : K) = c.j := by unfold lerp; simp
          rw [this, (C07_zero_iff hE _ _).2 rfl]
          positivity
      have hlow : m / 2 ≤ R.distance c.i c.j / n := by
        rw [div_le_div_iff₀ two_pos hn0]
        nlinarith
      have hup : R.distance c.i c.j / n < m := by
        rw [div_lt_iff₀ hn0]; linarith
      refine ⟨a2, b1, b2, hlow, hup, hnear, ?_⟩
      intro k hk
      have d1 := hnear k (by omega)
      have d2 := hnear (k + 1) (by omega)
      have hkk : (k : K) / n ≤ ((k + 1 : ℕ) : K) / n := by
        apply div_le_div_of_nonneg_right _ hn0.le
        push_cast; linarith
      have d3 := distance_lerp hE c.i c.j hkk
      have d4 : ((k + 1 : ℕ) : K) / n - (k : K) / n = 1 / n := by push_cast; ring
      rw [d4] at d3
      have d5 : 1 / (n : K) * R.distance c.i c.j = R.distance c.i c.j / n := by ring
      rw [d5] at d3
      have t1 := C07_triangle hE (node k) (lerp c.i c.j ((k : K) / n)) (node (k + 1))
      have t2 := C07_triangle hE (lerp c.i c.j ((k : K) / n)) (lerp c.i c.j (((k + 1 : ℕ) : K) / n)) (node (k + 1))
      have t3 := C07_triangle hE (lerp c.i c.j ((k : K) / n)) (node k) (lerp c.i c.j (((k + 1 : ℕ) : K) / n))
      have t4 := C07_triangle hE (node k) (node (k + 1)) (lerp c.i c.j (((k + 1 : ℕ) : K) / n))
      have s1 := hE.isRounding.distance_comm (lerp c.i c.j (((k + 1 : ℕ) : K) / n)) (node (k + 1))
      have s2 := hE.isRounding.distance_comm (lerp c.i c.j ((k : K) / n)) (node k)
      have e8 : (2 / 10 ^ 8 : K) = 1 / 10 ^ 8 + 1 / 10 ^ 8 := by ring
      rw [e8]
      constructor <;> linarith

/-- two sides of different lengths, in binary64: pieces of 3/2, 3/2 and 2, 2, 2 -/
example : exRt.refineBoundaries [exSeg 0 0 3 0, exSeg 3 0 3 6] [] =
    .ok [⟨0, 0⟩, ⟨3 / 2, 0⟩, ⟨3 / 2, 0⟩, ⟨3, 0⟩, ⟨3, 0⟩, ⟨3, 2⟩, ⟨3, 2⟩, ⟨3, 4⟩, ⟨3, 4⟩, ⟨3, 6⟩] := by decide +kernel

/-! ### C117 -/

/-- a matrix, given by its rows, times a vector -/
def mulVec (M : (K × K) × (K × K)) (p : Pt K) : Pt K := ⟨M.1.1 * p.x + M.1.2 * p.y, M.2.1 * p.x + M.2.2 * p.y⟩

/-- C117: `rotationsmatrix(phi)` turns the other way round than `rotate_about_origin(phi)`: it takes every endpoint of the
rotated polygon back to where it was, up to 1e-8. -/
theorem C117_rotation (hE : R.IsExact) (h : Heap K) (P : PLine) (hr : Ready h P) (hap : Apart R.tol (locs h P.segs)) (phi : K)
    (hcs : R.trig.cos (R.trig.radians phi) ^ 2 + R.trig.sin (R.trig.radians phi) ^ 2 = 1) :
    ∀ k ∈ P.segs,
      |(mulVec (R.rotationsmatrix phi) ((R.plRotate h P phi).1.val k).i).x - (h.val k).i.x| ≤ 1 / 10 ^ 8 ∧
      |(mulVec (R.rotationsmatrix phi) ((R.plRotate h P phi).1.val k).i).y - (h.val k).i.y| ≤ 1 / 10 ^ 8 ∧
      |(mulVec (R.rotationsmatrix phi) ((R.plRotate h P phi).1.val k).j).x - (h.val k).j.x| ≤ 1 / 10 ^ 8 ∧
      |(mulVec (R.rotationsmatrix phi) ((R.plRotate h P phi).1.val k).j).y - (h.val k).j.y| ≤ 1 / 10 ^ 8 := by
  intro k hk
  obtain ⟨e1, e2, e3, e4⟩ := C87_error hE h P hr hap phi k hk
  set c := R.trig.cos (R.trig.radians phi)
  set s := R.trig.sin (R.trig.radians phi)
  have hM : R.rotationsmatrix phi = ((c, s), (-s, c)) := by
    unfold rotationsmatrix
    dsimp only
    rw [hE.mul', hE.mul', one_mul, neg_one_mul]
  have hc1 : |c| ≤ 1 := by rw [← sq_le_one_iff_abs_le_one]; nlinarith [_root_.sq_nonneg s]
  have hs1 : |s| ≤ 1 := by rw [← sq_le_one_iff_abs_le_one]; nlinarith [_root_.sq_nonneg c]
  have key : ∀ {a b u v x y : K}, |u - (x * c - y * s)| ≤ 1 / (2 * 10 ^ 8) → |v - (x * s + y * c)| ≤ 1 / (2 * 10 ^ 8) →
      |c * u + s * v - x| ≤ 1 / 10 ^ 8 ∧ |-s * u + c * v - y| ≤ 1 / 10 ^ 8 := by
    intro _ _ u v x y hu hv
    have i1 : c * u + s * v - x = c * (u - (x * c - y * s)) + s * (v - (x * s + y * c)) := by linear_combination x * hcs
    have i2 : -s * u + c * v - y = -(s * (u - (x * c - y * s))) + c * (v - (x * s + y * c)) := by linear_combination y * hcs
    have small : ∀ {a w : K}, |a| ≤ 1 → |w| ≤ 1 / (2 * 10 ^ 8) → |a * w| ≤ 1 / (2 * 10 ^ 8) := by
      intro a w ha hw
      rw [abs_mul]
      calc |a| * |w| ≤ 1 * (1 / (2 * 10 ^ 8)) := mul_le_mul ha hw (abs_nonneg _) zero_le_one
        _ = _ := one_mul _
    have e8 : (1 / 10 ^ 8 : K) = 1 / (2 * 10 ^ 8) + 1 / (2 * 10 ^ 8) := by norm_num
    rw [i1, i2, e8]
    refine ⟨(abs_add_le _ _).trans (add_le_add (small hc1 hu) (small hs1 hv)), (abs_add_le _ _).trans (add_le_add ?_ (small hc1 hv))⟩
    rw [abs_neg]
    exact small hs1 hu
  rw [hM]
  have r1 := key (a := 0) (b := 0) e1 e2
  have r2 := key (a := 0) (b := 0) e3 e4
  exact ⟨r1.1, r1.2, r2.1, r2.2⟩

/-- C117: the rows of `rotationsmatrix` are orthonormal and its determinant is 1. -/
theorem C117_matrix (hE : R.IsExact) (phi : K)
    (hcs : R.trig.cos (R.trig.radians phi) ^ 2 + R.trig.sin (R.trig.radians phi) ^ 2 = 1) :
    let M := R.rotationsmatrix phi
    M.1.1 ^ 2 + M.1.2 ^ 2 = 1 ∧ M.2.1 ^ 2 + M.2.2 ^ 2 = 1 ∧ M.1.1 * M.2.1 + M.1.2 * M.2.2 = 0 ∧
      M.1.1 * M.2.2 - M.1.2 * M.2.1 = 1 := by
  unfold rotationsmatrix
  dsimp only
  rw [hE.mul', hE.mul', one_mul, neg_one_mul]
  refine ⟨hcs, by linear_combination hcs, by ring, by linear_combination hcs⟩

/-- the hypothesis on cosine and sine holds for the real functions -/
example (phi : ℝ) : exReal.trig.cos (exReal.trig.radians phi) ^ 2 + exReal.trig.sin (exReal.trig.radians phi) ^ 2 = 1 :=
  Real.cos_sq_add_sin_sq _

/-- C117: `simplify` keeps the segments both endpoints of which are the end of another segment as well, and of the internal
and external points those that belong to such a segment; indifferent points all remain. -/
theorem C117_simplify (hR : R.IsRounding) (P : MarkedPoly K) (ha : R.Sep (occurrences P.segs)) :
    (∀ s, s ∈ (R.simplify P).segs ↔ s ∈ P.segs ∧ endsAt P.segs s.i ≠ 1 ∧ endsAt P.segs s.j ≠ 1) ∧
    (∀ x, x.2 ∈ P.segs → ((x ∈ (R.simplify P).internal ↔ x ∈ P.internal ∧ x.2 ∈ (R.simplify P).segs) ∧
      (x ∈ (R.simplify P).external ↔ x ∈ P.external ∧ x.2 ∈ (R.simplify P).segs))) ∧
    (R.simplify P).indifferent = P.indifferent := by
  have hm := mem_removeOutliers hR P.segs ha
  have hin : ∀ t ∈ P.segs, ((R.removeOutliers P.segs).any fun s => R.seq s t) = true ↔ t ∈ R.removeOutliers P.segs := by
    intro t ht
    rw [List.any_eq_true]
    constructor
    · rintro ⟨s, hs, e⟩
      have hs' := ((hm s).1 hs).1
      unfold Rt.seq at e
      rw [Bool.and_eq_true, Bool.and_eq_true, decide_eq_true_eq] at e
      have mo : ∀ {s : Seg K}, s ∈ P.segs → s.i ∈ occurrences P.segs ∧ s.j ∈ occurrences P.segs := by
        intro s hs
        exact ⟨mem_occurrences.2 ⟨s, hs, Or.inl rfl⟩, mem_occurrences.2 ⟨s, hs, Or.inr rfl⟩⟩
      have e1 := (ha.peq_iff hR (mo hs').1 (mo ht).1).1 e.1.2
      have e2 := (ha.peq_iff hR (mo hs').2 (mo ht).2).1 e.2
      have : s = t := by
        cases s; cases t
        simp only [Seg.mk.injEq]
        exact ⟨e1, e2, e.1.1.symm⟩
      exact this ▸ hs
    · intro h
      exact ⟨t, h, hR.seq_refl t⟩
  refine ⟨hm, ?_, rfl⟩
  intro x hx
  constructor
  · change x ∈ P.internal.filter _ ↔ _
    rw [List.mem_filter, hin x.2 hx]
    rfl
  · change x ∈ P.external.filter _ ↔ _
    rw [List.mem_filter, hin x.2 hx]
    rfl

/-- C117: a closed polygon all sure points of which belong to its sides is not changed by `simplify`. -/
theorem C117_simplify_closed (hR : R.IsRounding) (P : MarkedPoly K) (m : List (Seg K)) (hd : SameDrawing P.segs m) (hc : ClosedChain m)
    (hi : ∀ x ∈ P.internal, x.2 ∈ P.segs) (he : ∀ x ∈ P.external, x.2 ∈ P.segs) : R.simplify P = P := by
  have h := C95_closed (R := R) P.segs m hd hc
  unfold simplify
  rw [h]
  have key : ∀ l : List (Pt K × Seg K), (∀ x ∈ l, x.2 ∈ P.segs) → (l.filter fun x => P.segs.any fun s => R.seq s x.2) = l := by
    intro l hl
    rw [List.filter_eq_self]
    intro x hx
    rw [List.any_eq_true]
    exact ⟨x.2, hl x hx, hR.seq_refl _⟩
  dsimp only
  rw [key _ hi, key _ he]

/-- a triangle with a tail: the tail and its internal point are removed, the indifferent point of the tail remains -/
example : exRt.simplify ⟨[exSeg 0 0 4 0, exSeg 4 0 0 4, exSeg 0 4 0 0, exSeg 4 0 9 0],
      [(⟨1, 1⟩, exSeg 0 0 4 0), (⟨8, 1⟩, exSeg 4 0 9 0)], [], [(⟨8, 1⟩, exSeg 4 0 9 0)]⟩ =
    ⟨[exSeg 0 0 4 0, exSeg 4 0 0 4, exSeg 0 4 0 0], [(⟨1, 1⟩, exSeg 0 0 4 0)], [], [(⟨8, 1⟩, exSeg 4 0 9 0)]⟩ := by
  have h1 : (exRt.simplify ⟨[exSeg 0 0 4 0, exSeg 4 0 0 4, exSeg 0 4 0 0, exSeg 4 0 9 0],
      [(⟨1, 1⟩, exSeg 0 0 4 0), (⟨8, 1⟩, exSeg 4 0 9 0)], [], [(⟨8, 1⟩, exSeg 4 0 9 0)]⟩).segs =
      [exSeg 0 0 4 0, exSeg 4 0 0 4, exSeg 0 4 0 0] := by decide +kernel
  have h2 : (exRt.simplify ⟨[exSeg 0 0 4 0, exSeg 4 0 0 4, exSeg 0 4 0 0, exSeg 4 0 9 0],
      [(⟨1, 1⟩, exSeg 0 0 4 0), (⟨8, 1⟩, exSeg 4 0 9 0)], [], [(⟨8, 1⟩, exSeg 4 0 9 0)]⟩).internal = [(⟨1, 1⟩, exSeg 0 0 4 0)] := by
    decide +kernel
  exact congrArg₂ (fun a b => (⟨a, b, [], [(⟨8, 1⟩, exSeg 4 0 9 0)]⟩ : MarkedPoly ℚ)) h1 h2

/-- C117: `ordered_copy` leaves everything in memory as it is: the original is not ordered, and its segments are not
reversed. -/
theorem C117_ordered_copy_keeps (hR : R.IsRounding) (h : Heap K) (hw : h.WF) (P : PLine) :
    (∀ p < h.npt, (R.orderedCopy h P).1.pt p = h.pt p) ∧ ∀ s < h.nseg, (R.orderedCopy h P).1.seg s = h.seg s := by
  set Q : PLine := ⟨P.segs.map (· + h.nseg), P.purged⟩ with hQ
  have hmem : (R.orderedCopy h P).1 = (R.order h.deepcopy Q).heap h.deepcopy := by
    unfold orderedCopy
    dsimp only
    rw [← hQ]
    cases R.order h.deepcopy Q <;> rfl
  obtain ⟨a1, -, -, a4, -⟩ := C48_only_reverses hR h.deepcopy Q
  rw [hmem]
  refine ⟨?_, ?_⟩
  · intro p hp
    rw [a1]
    exact deepcopy_pt_old hp
  · intro s hs
    rw [a4 s (by
      intro hc
      obtain ⟨t, -, e⟩ := List.mem_map.1 hc
      omega)]
    simp only [Heap.deepcopy, if_pos hs]

/-- C117: for the shuffled sides of a closed walk `ordered_copy` returns True - not a polygon. -/
theorem C117_ordered_copy_true (hR : R.IsRounding) (h : Heap K) (P : PLine) (n : ℕ)
    (p : ZMod n → Pt K) (σ : ZMod n → ℕ) (c : IsCycleOf h P.segs n p σ)
    (hap : Apart R.tol (locs h P.segs)) (hn : P.segs.length < 250) :
    (R.orderedCopy h P).2 = some (.ok true) := by
  have hv : ∀ s, h.deepcopy.val (s + h.nseg) = h.val s := deepcopy_new h
  have c' : IsCycleOf h.deepcopy (P.segs.map (· + h.nseg)) n p (fun k => σ k + h.nseg) := by
    refine ⟨c.three, c.pinj, fun a b e => c.sinj (Nat.add_right_cancel e), c.nodup.map (fun a b e => Nat.add_right_cancel e), ?_, ?_⟩
    · intro s
      rw [List.mem_map]
      constructor
      · rintro ⟨t, ht, rfl⟩
        obtain ⟨k, rfl⟩ := (c.mem t).1 ht
        exact ⟨k, rfl⟩
      · rintro ⟨k, rfl⟩
        exact ⟨σ k, (c.mem _).2 ⟨k, rfl⟩, rfl⟩
    · intro k
      rw [hv]
      exact c.ends k
  have hlocs : locs h.deepcopy (P.segs.map (· + h.nseg)) = locs h P.segs := by
    unfold locs
    ext q
    constructor
    · rintro ⟨s, hs, hq⟩
      obtain ⟨t, ht, rfl⟩ := List.mem_map.1 hs
      rw [hv] at hq
      exact ⟨t, ht, hq⟩
    · rintro ⟨t, ht, hq⟩
      exact ⟨t + h.nseg, List.mem_map.2 ⟨t, ht, rfl⟩, by rw [hv]; exact hq⟩
  obtain ⟨h', l, e, -⟩ := C76_restores_cycle hR h.deepcopy ⟨P.segs.map (· + h.nseg), P.purged⟩ n p _ c' (by rw [hlocs]; exact hap)
    (by simpa using hn)
  unfold orderedCopy
  dsimp only
  rw [e]
  rfl

/-- the shuffled square of C76 (`exShuffled` meets the hypotheses there): True, and every segment object
of the original still starts at the same Point -/
example : (match (exRt.orderedCopy exShuffled ⟨[0, 1, 2, 3], false⟩).2 with | some (.ok b) => b | _ => false) = true ∧
    ∀ s < exShuffled.nseg, ((exRt.orderedCopy exShuffled ⟨[0, 1, 2, 3], false⟩).1.seg s).i = (exShuffled.seg s).i := by
  decide +kernel

end Srep
