import Verif.Props.LineA
import Verif.Lemmas.Trig

/-! Properties C21, C22, C25-C33: equality, reversing, length, points on a segment, angles. -/

set_option linter.unusedSectionVars false

namespace Srep
variable {K : Type} [Field K] [LinearOrder K] [IsStrictOrderedRing K] [FloorRing K]

/-! ### C21 -/

theorem norm_reversed {R : Rt K} (hR : R.IsRounding) (s : Seg K) : R.norm s.reversed = R.norm s := by
  unfold Rt.norm
  rw [dx_reversed hR, dy_reversed hR, hR.sq_neg, hR.sq_neg]

/-- C21: a segment is loosely equal to itself and to its reverse of the same class; every correctly
rounded arithmetic, any hash. -/
theorem C21_reverse {R : Rt K} (hR : R.IsRounding) (s : Seg K) :
    R.looseEqual s s = true ∧ R.looseEqual s s.reversed = true := by
  have hm : ∀ p : Pt K, ∀ l : List (Pt K), p ∈ l → R.pmem p l = true := by
    intro p l h
    unfold Rt.pmem
    rw [List.any_eq_true]
    exact ⟨p, h, by simp [hR.peq_refl]⟩
  have refl : ∀ l : List (Pt K), R.psetEq l l = true := by
    intro l
    unfold Rt.psetEq
    simp only [decide_true, Bool.true_and, List.all_eq_true]
    intro p hp; exact hm p l hp
  have symm1 : ∀ p q : Pt K, R.pmem p [q] = R.pmem q [p] := by
    intro p q
    simp only [Rt.pmem, List.any_cons, List.any_nil, Bool.or_false, hR.peq_comm q p]
    congr 1
    simp [eq_comm]
  constructor
  · simp [Rt.looseEqual, refl]
  · unfold Rt.looseEqual
    rw [norm_reversed hR]
    have e : ∀ p q : Pt K, R.pset [p, q] = if R.pmem q [p] then [p] else [p, q] := by
      intro p q
      simp only [Rt.pset, List.foldl_cons, List.foldl_nil]
      have : R.pmem p [] = false := by simp [Rt.pmem]
      rw [this]; simp
    have : R.psetEq (R.pset [s.i, s.j]) (R.pset [s.j, s.i]) = true := by
      rw [e, e, symm1 s.i s.j]
      cases h : R.pmem s.j [s.i]
      · unfold Rt.psetEq
        simp [hm s.i [s.j, s.i] (by simp), hm s.j [s.j, s.i] (by simp)]
      · unfold Rt.psetEq
        rw [symm1] at h
        simp [h]
    simp [Seg.reversed, this]

/-- C21: symmetric, under the hash hypothesis. -/
theorem C21_symm {R : Rt K} (hR : R.IsRounding) (s o : Seg K) (h : R.HashOK [s.i, s.j, o.i, o.j]) :
    R.looseEqual s o = R.looseEqual o s := by
  unfold Rt.looseEqual
  have : R.psetEq (R.pset [s.i, s.j]) (R.pset [o.i, o.j])
      = R.psetEq (R.pset [o.i, o.j]) (R.pset [s.i, s.j]) := by
    rw [Bool.eq_iff_iff, Rt.psetEq_iff hR h (by simp) (by simp), Rt.psetEq_iff hR h (by simp) (by simp)]
    exact forall_congr' fun q => Iff.comm
  rw [this]
  congr 1
  · congr 1
    simp [eq_comm]
  · simp [eq_comm]

/-- C21: on Points among which == is identity (e.g. apart by the tolerance), loose equality means same
class and the same two endpoints in either order. -/
theorem C21_iff {R : Rt K} (hR : R.IsRounding) (s o : Seg K)
    (h : Apart R.tol {s.i, s.j, o.i, o.j}) :
    R.looseEqual s o = true ↔
      s.cls = o.cls ∧ ((s.i = o.i ∧ s.j = o.j) ∨ (s.i = o.j ∧ s.j = o.i)) := by
  have hS : R.Sep [s.i, s.j, o.i, o.j] := by
    apply sep_of_apart hR
    intro p hp q hq
    exact h p (by simpa using hp) q (by simpa using hq)
  unfold Rt.looseEqual
  rw [Bool.and_eq_true, Bool.and_eq_true, decide_eq_true_eq, decide_eq_true_eq,
    Rt.psetEq_iff hR hS.hashOK (by simp) (by simp)]
  constructor
  · rintro ⟨⟨h1, h2⟩, h3⟩
    refine ⟨h1.symm, ?_⟩
    have a := (h2 s.i).1 (by simp)
    have b := (h2 s.j).1 (by simp)
    have c := (h2 o.i).2 (by simp)
    have d := (h2 o.j).2 (by simp)
    simp only [List.mem_cons, List.not_mem_nil, or_false] at a b c d
    rcases a with a | a
    · rcases b with b | b
      · rcases d with d | d
        · exact Or.inl ⟨a, by rw [d, b, a]⟩
        · exact Or.inl ⟨a, d.symm⟩
      · exact Or.inl ⟨a, b⟩
    · rcases b with b | b
      · exact Or.inr ⟨a, b⟩
      · rcases c with c | c
        · exact Or.inl ⟨c.symm, b⟩
        · exact Or.inr ⟨a, c.symm⟩
  · rintro ⟨h1, ⟨h2, h3⟩ | ⟨h2, h3⟩⟩
    · refine ⟨⟨h1.symm, by rw [h2, h3]; simp⟩, ?_⟩
      simp [Rt.norm, Rt.dx, Rt.dy, h2, h3]
    · refine ⟨⟨h1.symm, by rw [h2, h3]; simp; tauto⟩, ?_⟩
      have := norm_reversed hR o
      rw [← this]
      simp [Rt.norm, Rt.dx, Rt.dy, h2, h3, Seg.reversed]

/-- C21: == implies loose equality on separated Points. -/
theorem C21_eq_loose {R : Rt K} (hR : R.IsRounding) (s o : Seg K)
    (h : Apart R.tol {s.i, s.j, o.i, o.j}) (he : R.seq s o = true) : R.looseEqual s o = true := by
  rw [C21_iff hR s o h]
  unfold Rt.seq at he
  rw [Bool.and_eq_true, Bool.and_eq_true, decide_eq_true_eq] at he
  obtain ⟨⟨h1, h2⟩, h3⟩ := he
  exact ⟨h1.symm, Or.inl ⟨(C04_apart hR h (by simp) (by simp)).1.1 h2,
    (C04_apart hR h (by simp) (by simp)).1.1 h3⟩⟩

/-- C21: in general == does not imply loose equality (binary64 witness). -/
theorem C21_eq_not_loose :
    ∃ s o : Seg ℚ, exRt.Stored s.i ∧ exRt.Stored s.j ∧ exRt.Stored o.i ∧ exRt.Stored o.j ∧
      exRt.seq s o = true ∧ exRt.looseEqual s o = false :=
  ⟨exSeg 0 0 1 0, ⟨exRt.mkPt (1/10^7) 0, ⟨1, 0⟩, .line⟩, by decide +kernel⟩

/-! ### C22 -/

/-- C22: reversing twice is the identity; the class is kept; the direction vector is negated and the
length unchanged, bit for bit. -/
theorem C22_reverse {R : Rt K} (hR : R.IsRounding) (s : Seg K) :
    s.reversed.reversed = s ∧ s.reversed.cls = s.cls ∧ s.reversed.i = s.j ∧ s.reversed.j = s.i ∧
    R.dx s.reversed = -R.dx s ∧ R.dy s.reversed = -R.dy s ∧ R.norm s.reversed = R.norm s :=
  ⟨rfl, rfl, rfl, rfl, dx_reversed hR s, dy_reversed hR s, norm_reversed hR s⟩

/-- C22: `line_reversed` of anything is never == to a Wall or NonWall, in either order, and never loosely
equal; for plain segments it is the reversed segment. -/
theorem C22_line_reversed (R : Rt K) (s w : Seg K) (hw : w.cls ≠ .line) :
    R.seq s.lineReversed w = false ∧ R.seq w s.lineReversed = false ∧
    R.looseEqual s.lineReversed w = false ∧ R.looseEqual w s.lineReversed = false ∧
    (s.cls = .line → s.lineReversed = s.reversed) := by
  have h1 : decide (w.cls = s.lineReversed.cls) = false := by simp [Seg.lineReversed, hw]
  have h2 : decide (s.lineReversed.cls = w.cls) = false := by simp [Seg.lineReversed, Ne.symm hw]
  refine ⟨by simp [Rt.seq, h1], by simp [Rt.seq, h2], by simp [Rt.looseEqual, h1],
    by simp [Rt.looseEqual, h2], ?_⟩
  intro h; simp [Seg.lineReversed, Seg.reversed, h]

example : exRt.seq (Seg.lineReversed ⟨⟨0, 0⟩, ⟨1, 0⟩, .wall⟩) ⟨⟨1, 0⟩, ⟨0, 0⟩, .wall⟩ = false :=
  (C22_line_reversed exRt _ _ (by decide)).1

/-! ### C25 -/

/-- C25: the length is non-negative, the same in both directions, and 0 when the endpoints coincide
(every correctly rounded arithmetic). -/
theorem C25_float {R : Rt K} (hR : R.IsRounding) (s : Seg K) :
    0 ≤ R.norm s ∧ R.norm s.reversed = R.norm s ∧ (s.i = s.j → R.norm s = 0) := by
  refine ⟨hR.sqrt_nonneg _, norm_reversed hR s, ?_⟩
  intro h
  simp [Rt.norm, Rt.dx, Rt.dy, h, Rt.sub, Rt.add, hR.zero, hR.sq_zero, hR.sqrt_zero]

/-- C25, exact arithmetic: the Euclidean length; zero only for coinciding endpoints; equals
`distance(i, j)`; triangle inequality. -/
theorem C25_exact {R : Rt K} (hE : R.IsExact) (s : Seg K) :
    R.norm s * R.norm s = dist2 s.i s.j ∧ (R.norm s = 0 ↔ s.i = s.j) ∧
    R.norm s = R.distance s.i s.j ∧
    ∀ p, R.norm s ≤ R.norm ⟨s.i, p, .line⟩ + R.norm ⟨p, s.j, .line⟩ := by
  refine ⟨?_, hE.norm_eq_zero s, hE.norm' s, ?_⟩
  · rw [hE.norm_sq]; unfold dist2; ring
  · intro p
    rw [hE.norm', hE.norm', hE.norm']
    exact C07_triangle hE s.i p s.j

/-! ### C26 -/

/-- C26: ratios outside [0,1] raise AssertionError, 0 and 1 return the endpoints (any arithmetic). -/
theorem C26_ends (R : Rt K) (s : Seg K) :
    (∀ r, (r < 0 ∨ 1 < r) → R.pointAtRatio s r = .error .assertion) ∧
    R.pointAtRatio s 0 = .ok s.i ∧ R.pointAtRatio s 1 = .ok s.j := by
  unfold Rt.pointAtRatio
  refine ⟨?_, by simp, by simp⟩
  rintro r (h | h)
  · rw [if_pos]; intro hh; linarith [hh.1]
  · rw [if_pos]; intro hh; linarith [hh.2]

/-- C26, exact arithmetic, stored endpoints: the result is within 0.5e-8 per coordinate of the exact
point at the ratio and inside the closed bounding box. -/
theorem C26_exact {R : Rt K} (hE : R.IsExact) (s : Seg K) (hi : R.Stored s.i) (hj : R.Stored s.j)
    (r : K) (h0 : 0 ≤ r) (h1 : r ≤ 1) :
    ∃ p, R.pointAtRatio s r = .ok p ∧ R.Stored p ∧
      |p.x - (lerp s.i s.j r).x| ≤ 1 / 2 * (1 / 10 ^ 8) ∧
      |p.y - (lerp s.i s.j r).y| ≤ 1 / 2 * (1 / 10 ^ 8) ∧
      min s.i.x s.j.x ≤ p.x ∧ p.x ≤ max s.i.x s.j.x ∧ min s.i.y s.j.y ≤ p.y ∧ p.y ≤ max s.i.y s.j.y := by
  have hhalf : (0 : K) ≤ 1 / 2 * (1 / 10 ^ 8) := by positivity
  unfold Rt.pointAtRatio
  rw [if_neg (not_not.2 ⟨h0, h1⟩)]
  by_cases e0 : r = 0
  · rw [if_pos e0, e0]
    refine ⟨s.i, rfl, hi, ?_, ?_, min_le_left _ _, le_max_left _ _, min_le_left _ _, le_max_left _ _⟩ <;>
      rw [lerp_zero, sub_self, abs_zero] <;> exact hhalf
  rw [if_neg e0]
  by_cases e1 : r = 1
  · rw [if_pos e1, e1]
    refine ⟨s.j, rfl, hj, ?_, ?_, min_le_right _ _, le_max_right _ _, min_le_right _ _, le_max_right _ _⟩ <;>
      rw [lerp_one, sub_self, abs_zero] <;> exact hhalf
  rw [if_neg e1]
  have ex : ∀ a b : K, R.add (R.mul (R.sub 1 r) a) (R.mul r b) = a + r * (b - a) := by
    intro a b; rw [hE.add', hE.mul', hE.mul', hE.sub']; ring
  obtain ⟨gix, giy⟩ := (hE.stored_iff _).1 hi
  obtain ⟨gjx, gjy⟩ := (hE.stored_iff _).1 hj
  have lo : ∀ a b : K, Grid a → Grid b → min a b ≤ rhe8 (a + r * (b - a)) := by
    intro a b ha hb
    have hm : Grid (min a b) := by rcases min_choice a b with h | h <;> rw [h] <;> assumption
    rw [← hm.rhe8]
    apply rhe8_mono
    rcases le_total a b with h | h
    · rw [min_eq_left h]; nlinarith
    · rw [min_eq_right h]; nlinarith
  have up : ∀ a b : K, Grid a → Grid b → rhe8 (a + r * (b - a)) ≤ max a b := by
    intro a b ha hb
    have hm : Grid (max a b) := by rcases max_choice a b with h | h <;> rw [h] <;> assumption
    conv_rhs => rw [← hm.rhe8]
    apply rhe8_mono
    rcases le_total a b with h | h
    · rw [max_eq_right h]; nlinarith
    · rw [max_eq_left h]; nlinarith
  have half : ∀ x : K, |rhe8 x - x| ≤ 1 / 2 * (1 / 10 ^ 8) := fun x =>
    (abs_rhe8_sub_le x).trans (le_of_eq (by norm_num))
  rw [ex, ex, hE.mkPt']
  refine ⟨_, rfl, (hE.stored_iff _).2 ⟨grid_rhe8 _, grid_rhe8 _⟩, half _, half _,
    lo _ _ gix gjx, up _ _ gix gjx, lo _ _ giy gjy, up _ _ giy gjy⟩

example : exRt.pointAtRatio (exSeg 0 0 1 3) (1/3) = .ok (exRt.mkPt (33333333/10^8) 1) := by
  decide +kernel

/-! ### C27 -/

theorem chain_length : ∀ l : List (Pt K), (Rt.chain l).length = l.length - 1
  | [] => rfl
  | [_] => rfl
  | a :: b :: l => by
    have := chain_length (b :: l)
    simp only [Rt.chain, List.length_cons, this]
    simp

theorem chain_get : ∀ (l : List (Pt K)) (k : ℕ) (a b : Pt K), l[k]? = some a → l[k + 1]? = some b →
    (Rt.chain l)[k]? = some ⟨a, b, .line⟩
  | [], k, a, b, h, _ => by simp at h
  | [x], k, a, b, _, h => by simp at h
  | x :: y :: l, 0, a, b, h1, h2 => by
    simp only [List.getElem?_cons_zero, Option.some.injEq, Nat.zero_add, List.getElem?_cons_succ] at h1 h2
    subst h1 h2
    simp [Rt.chain]
  | x :: y :: l, k + 1, a, b, h1, h2 => by
    simp only [List.getElem?_cons_succ] at h1 h2
    simp only [Rt.chain, List.getElem?_cons_succ]
    exact chain_get (y :: l) k a b (by simpa using h1) (by simpa using h2)

theorem divNodes_length (R : Rt K) (s : Seg K) (n : ℤ) :
    (R.divNodes s n).length = (n - 1).toNat + 2 := by
  simp [Rt.divNodes]

/-- C27: for n ≥ 1 the result has exactly n segments; node 0 is `l.i`, node n is `l.j`, node k in between
is the k-th division point, and segment k joins node k to node k+1. -/
theorem C27_structure (R : Rt K) (s : Seg K) (n : ℕ) (hn : 1 ≤ n) :
    ∃ node : ℕ → Pt K, node 0 = s.i ∧ node n = s.j ∧
      (∀ k, 0 < k → k < n → node k = R.divPoint s n k) ∧
      (R.divideLine s n).length = n ∧
      ∀ k, k < n → (R.divideLine s n)[k]? = some ⟨node k, node (k + 1), .line⟩ := by
  have hlen : (R.divNodes s (n : ℤ)).length = n + 1 := by
    rw [divNodes_length]; omega
  have htn : ((n : ℤ) - 1).toNat = n - 1 := by omega
  refine ⟨fun k => ((R.divNodes s (n : ℤ))[k]?).getD s.i, ?_, ?_, ?_, ?_, ?_⟩
  · simp [Rt.divNodes]
  · have : (R.divNodes s (n : ℤ))[n]? = some s.j := by
      unfold Rt.divNodes
      rw [List.cons_append, htn]
      obtain ⟨m, rfl⟩ : ∃ m, n = m + 1 := ⟨n - 1, by omega⟩
      simp
    simp [this]
  · intro k h0 hk
    have : (R.divNodes s (n : ℤ))[k]? = some (R.divPoint s n k) := by
      unfold Rt.divNodes
      rw [List.cons_append, htn]
      obtain ⟨m, rfl⟩ : ∃ m, k = m + 1 := ⟨k - 1, by omega⟩
      rw [List.getElem?_cons_succ, List.getElem?_append_left (by simp; omega),
        List.getElem?_map, List.getElem?_range (by omega)]
      rfl
    simp [this]
  · unfold Rt.divideLine
    rw [chain_length, hlen]; rfl
  · intro k hk
    unfold Rt.divideLine
    apply chain_get
    · beta_reduce; rw [List.getElem?_eq_getElem (by omega), Option.getD_some]
    · beta_reduce; rw [List.getElem?_eq_getElem (by omega), Option.getD_some]

/-- C27: n ≤ 1, zero and negative numbers included, yields the single segment i-j. -/
theorem C27_degenerate (R : Rt K) (s : Seg K) (n : ℤ) (hn : n ≤ 1) :
    R.divideLine s n = [⟨s.i, s.j, .line⟩] := by
  have : (n - 1).toNat = 0 := by omega
  simp [Rt.divideLine, Rt.divNodes, this, Rt.chain]

/-- C27, exact arithmetic: the k-th division point is within 0.5e-8 per coordinate of the exact one. -/
theorem C27_position {R : Rt K} (hE : R.IsExact) (s : Seg K) (n k : ℕ) (hn : 1 ≤ n) :
    |(R.divPoint s n k).x - (lerp s.i s.j ((k : K) / n)).x| ≤ 1 / 2 * (1 / 10 ^ 8) ∧
    |(R.divPoint s n k).y - (lerp s.i s.j ((k : K) / n)).y| ≤ 1 / 2 * (1 / 10 ^ 8) := by
  have hn' : (n : K) ≠ 0 := by
    have : (0 : K) < n := by exact_mod_cast hn
    exact this.ne'
  have half : ∀ x : K, |rhe8 x - x| ≤ 1 / 2 * (1 / 10 ^ 8) := fun x =>
    (abs_rhe8_sub_le x).trans (le_of_eq (by norm_num))
  have e : ∀ a b : K, ((n : K) - k) / n * a + k / n * b = a + k / n * (b - a) := by
    intro a b; field_simp; ring
  unfold Rt.divPoint
  rw [hE.mkPt']
  simp only [hE.add', hE.mul', hE.sub', hE.div', Int.cast_natCast, e, lerp]
  exact ⟨half _, half _⟩

example : (exRt.divideLine (exSeg 0 0 1 0) 3).map (fun s => s.j.x)
    = [exRt.coord (33333333/10^8), exRt.coord (66666667/10^8), 1] := by decide +kernel

/-! ### C28 -/

/-- C28: False iff the point fails `is_internal_point`; otherwise two chained segments. -/
theorem C28_result (R : Rt K) (s : Seg K) (p : Pt K) :
    (R.addPointOnLine s p = none ↔ R.isInternal s p = false) ∧
    (∀ a b, R.addPointOnLine s p = some (a, b) → a.i = s.i ∧ a.j = p ∧ b.i = p ∧ b.j = s.j) := by
  unfold Rt.addPointOnLine
  cases h : R.isInternal s p
  · simp
  · simp only [if_true]
    refine ⟨by simp, ?_⟩
    intro a b h
    simp only [Option.some.injEq, Prod.mk.injEq] at h
    obtain ⟨rfl, rfl⟩ := h
    exact ⟨rfl, rfl, rfl, rfl⟩

/-- C28, exact arithmetic: every slanted segment can be "divided" at a corner of its bounding box, which
is not on its line. -/
theorem C28_off_line {R : Rt K} (hE : R.IsExact) (s : Seg K) (hx : s.i.x ≠ s.j.x)
    (hy : s.i.y ≠ s.j.y) :
    ¬ OnLine s.i s.j ⟨s.i.x, s.j.y⟩ ∧
    R.addPointOnLine s ⟨s.i.x, s.j.y⟩
      = some (⟨s.i, ⟨s.i.x, s.j.y⟩, .line⟩, ⟨⟨s.i.x, s.j.y⟩, s.j, .line⟩) := by
  constructor
  · rintro ⟨t, ht⟩
    simp only [lerp, Pt.mk.injEq] at ht
    have h1 : t * (s.j.x - s.i.x) = 0 := by linarith [ht.1]
    have h2 : t = 0 := (mul_eq_zero.1 h1).resolve_right (fun h => hx (by linarith))
    rw [h2] at ht
    exact hy (by linarith [ht.2])
  · unfold Rt.addPointOnLine
    rw [if_pos]
    exact (C14_accepts hE s).1 _ (min_le_left _ _) (le_max_left _ _) (min_le_right _ _) (le_max_right _ _)

/-! ### C29 -/

/-- C29: ZeroDivisionError exactly when the length is zero, otherwise a non-negative number (every
correctly rounded arithmetic). -/
theorem C29_error {R : Rt K} (hR : R.IsRounding) (s : Seg K) (p : Pt K) :
    (R.linePointDistance s p = .error .zeroDiv ↔ R.norm s = 0) ∧
    (R.norm s ≠ 0 → ∃ d, R.linePointDistance s p = .ok d ∧ 0 ≤ d) := by
  unfold Rt.linePointDistance
  constructor
  · by_cases h : R.norm s = 0 <;> simp [h]
  · intro h
    rw [if_neg h]
    exact ⟨_, rfl, hR.nonneg (div_nonneg (abs_nonneg _) (hR.sqrt_nonneg _))⟩

/-- C29, exact arithmetic: the result is the Euclidean distance to the infinite line: attained by a
point of the line, and no point of the line is closer. -/
theorem C29_exact {R : Rt K} (hE : R.IsExact) (s : Seg K) (p : Pt K) (hs : s.i ≠ s.j) :
    ∃ d q, R.linePointDistance s p = .ok d ∧ OnLine s.i s.j q ∧ R.distance p q = d ∧
      (∀ r, OnLine s.i s.j r → d ≤ R.distance p r) ∧
      R.linePointDistance s.reversed p = .ok d := by
  obtain ⟨q, h1, h2, h3⟩ := hE.foot hs p
  have hn := hE.norm_pos hs
  have num : ∀ s : Seg K, |R.sub (R.add (R.sub (R.mul (R.sub s.j.y s.i.y) p.x)
      (R.mul (R.sub s.j.x s.i.x) p.y)) (R.mul s.j.x s.i.y)) (R.mul s.j.y s.i.x)| = |det3 s.i s.j p| := by
    intro s
    simp only [hE.sub', hE.add', hE.mul', det3]
    rw [← abs_neg]; congr 1; ring
  have val : R.distance p q = |det3 s.i s.j p| / R.norm s := by
    rw [eq_div_iff hn.ne']; exact h3
  refine ⟨R.distance p q, q, ?_, h1, rfl, h2, ?_⟩
  · unfold Rt.linePointDistance
    rw [if_neg hn.ne', num, hE.div', val]
  · unfold Rt.linePointDistance
    rw [norm_reversed hE.isRounding, if_neg hn.ne', num, hE.div', val]
    have : det3 s.reversed.i s.reversed.j p = -det3 s.i s.j p := by
      unfold det3 Seg.reversed; ring
    rw [this, abs_neg]

/-! ### C30 -/

/-- C30: with `degrees(atan2)` in [-180, 180] and 360 representable, `direction` is in [0, 360] in every
correctly rounded arithmetic. -/
theorem C30_range_float {R : Rt K} (hR : R.IsRounding) (s : Seg K)
    (hlo : -180 ≤ R.trig.degrees (R.trig.atan2 (R.dy s) (R.dx s)))
    (hhi : R.trig.degrees (R.trig.atan2 (R.dy s) (R.dx s)) ≤ 180) (h360 : R.fl 360 = 360) :
    0 ≤ R.direction s ∧ R.direction s ≤ 360 := by
  unfold Rt.direction
  set r := R.trig.degrees (R.trig.atan2 (R.dy s) (R.dx s))
  simp only
  split_ifs with h
  · constructor
    · exact hR.nonneg (by linarith)
    · have := hR.mono (show 360 + r ≤ 360 by linarith)
      rw [h360] at this; exact this
  · exact ⟨not_lt.1 h, by linarith⟩

/-- C30: 360 itself is attained in binary64: for a tiny negative angle the sum rounds to 360, although 0
and 360 are the same direction. -/
theorem C30_attains_360 : ∃ (t : Trig ℚ) (s : Seg ℚ),
    (∀ y x, -180 ≤ t.degrees (t.atan2 y x) ∧ t.degrees (t.atan2 y x) ≤ 180) ∧
    (Rt.b64 t fun _ _ => 0).direction s = 360 :=
  ⟨⟨fun _ _ => -1/10^17, id, id, id, id, id⟩, exSeg 0 0 1 0, by
    intro y x; constructor <;> norm_num, by decide +kernel⟩

/-- a segment with different endpoints has a non-zero direction vector -/
theorem dir_ne {R : Rt K} (hE : R.IsExact) {s : Seg K} (h : s.i ≠ s.j) :
    R.dx s ≠ 0 ∨ R.dy s ≠ 0 := by
  rw [hE.dx', hE.dy']
  by_contra hc
  push Not at hc
  exact h (Pt.ext' (by linarith [hc.1]) (by linarith [hc.2]))

/-- C30, exact arithmetic: the range is [0, 360). -/
theorem C30_range {R : Rt K} (hE : R.IsExact) (hD : R.IsExactDir) (s : Seg K) :
    0 ≤ R.direction s ∧ R.direction s < 360 := by
  have h1 := hD.lo (R.dy s) (R.dx s)
  have h2 := hD.hi (R.dy s) (R.dx s)
  unfold Rt.direction
  simp only [hE.add']
  split_ifs with h
  · constructor <;> linarith
  · constructor <;> linarith

/-- C30, exact arithmetic: equal directions iff the direction vectors are positive multiples. -/
theorem C30_equal_direction {R : Rt K} (hE : R.IsExact) (hD : R.IsExactDir) (s o : Seg K)
    (hs : s.i ≠ s.j) (ho : o.i ≠ o.j) :
    R.direction s = R.direction o ↔
      ∃ t, 0 < t ∧ o.j.x - o.i.x = t * (s.j.x - s.i.x) ∧ o.j.y - o.i.y = t * (s.j.y - s.i.y) := by
  have h1 := hD.lo (R.dy s) (R.dx s)
  have h2 := hD.hi (R.dy s) (R.dx s)
  have h3 := hD.lo (R.dy o) (R.dx o)
  have h4 := hD.hi (R.dy o) (R.dx o)
  have key := hD.ray _ _ _ _ (dir_ne hE hs) (dir_ne hE ho)
  rw [hE.dx' o, hE.dy' o, hE.dx' s, hE.dy' s] at key
  rw [← key]
  unfold Rt.direction
  simp only [hE.add']
  rw [hE.dx' o, hE.dy' o, hE.dx' s, hE.dy' s] at *
  constructor
  · intro h
    split_ifs at h <;> linarith
  · intro h; rw [h]

theorem fmod360 {R : Rt K} (hE : R.IsExact) {d : K} (h0 : 0 ≤ d) (h1 : d < 360) :
    R.fmod (R.add d 180) 360 = if d < 180 then d + 180 else d - 180 := by
  unfold Rt.fmod
  rw [hE.fl, hE.add']
  split_ifs with h
  · have : ⌊(d + 180) / 360⌋ = 0 := by
      rw [Int.floor_eq_iff]
      constructor
      · simp; positivity
      · rw [div_lt_iff₀ (by norm_num)]; push_cast; linarith
    rw [this]; simp
  · have : ⌊(d + 180) / 360⌋ = 1 := by
      rw [Int.floor_eq_iff]
      constructor
      · rw [le_div_iff₀ (by norm_num)]; push_cast; linarith
      · rw [div_lt_iff₀ (by norm_num)]; push_cast; linarith
    rw [this]; push_cast; ring

theorem direction_reversed {R : Rt K} (hE : R.IsExact) (hD : R.IsExactDir) {s : Seg K} (hs : s.i ≠ s.j) :
    R.direction s.reversed = if R.direction s < 180 then R.direction s + 180 else R.direction s - 180 := by
  have h1 := hD.lo (R.dy s) (R.dx s)
  have h2 := hD.hi (R.dy s) (R.dx s)
  have h := hD.opp _ _ (dir_ne hE hs)
  unfold Rt.direction
  simp only [hE.add']
  rw [dx_reversed hE.isRounding, dy_reversed hE.isRounding]
  rcases h with ⟨ha, hb⟩ | ⟨ha, hb⟩
  · rw [hb]
    split_ifs <;> linarith
  · rw [hb]
    split_ifs <;> linarith

/-- C30, exact arithmetic: opposite directions iff the direction vectors are negative multiples. -/
theorem C30_opposite_iff {R : Rt K} (hE : R.IsExact) (hD : R.IsExactDir) (s o : Seg K)
    (hs : s.i ≠ s.j) (ho : o.i ≠ o.j) :
    R.oppositeDirection s o = true ↔
      ∃ t, t < 0 ∧ o.j.x - o.i.x = t * (s.j.x - s.i.x) ∧ o.j.y - o.i.y = t * (s.j.y - s.i.y) := by
  unfold Rt.oppositeDirection
  obtain ⟨r0, r1⟩ := C30_range hE hD s
  rw [decide_eq_true_eq, fmod360 hE r0 r1, ← direction_reversed hE hD hs,
    C30_equal_direction hE hD s.reversed o (by exact fun h => hs h.symm) ho]
  constructor
  · rintro ⟨t, h0, h1, h2⟩
    refine ⟨-t, by linarith, ?_, ?_⟩
    · rw [h1]; simp only [Seg.reversed]; ring
    · rw [h2]; simp only [Seg.reversed]; ring
  · rintro ⟨t, h0, h1, h2⟩
    refine ⟨-t, by linarith, ?_, ?_⟩
    · rw [h1]; simp only [Seg.reversed]; ring
    · rw [h2]; simp only [Seg.reversed]; ring

/-- C30, exact arithmetic: `opposite_direction` is symmetric, holds for a segment and its reverse, and is
incompatible with equal direction. -/
theorem C30_opposite_laws {R : Rt K} (hE : R.IsExact) (hD : R.IsExactDir) (s o : Seg K)
    (hs : s.i ≠ s.j) (ho : o.i ≠ o.j) :
    R.oppositeDirection s o = R.oppositeDirection o s ∧ R.oppositeDirection s s.reversed = true ∧
    (R.oppositeDirection s o = true → R.direction s ≠ R.direction o) := by
  refine ⟨?_, ?_, ?_⟩
  · rw [Bool.eq_iff_iff, C30_opposite_iff hE hD s o hs ho, C30_opposite_iff hE hD o s ho hs]
    constructor <;> rintro ⟨t, h0, h1, h2⟩ <;>
      exact ⟨t⁻¹, inv_lt_zero.2 h0, by rw [h1, inv_mul_cancel_left₀ h0.ne], by
        rw [h2, inv_mul_cancel_left₀ h0.ne]⟩
  · rw [C30_opposite_iff hE hD s s.reversed hs (fun h => hs h.symm)]
    exact ⟨-1, by norm_num, by simp [Seg.reversed], by simp [Seg.reversed]⟩
  · intro h hc
    obtain ⟨t, h0, h1, h2⟩ := (C30_opposite_iff hE hD s o hs ho).1 h
    obtain ⟨u, g0, g1, g2⟩ := (C30_equal_direction hE hD s o hs ho).1 hc
    have e1 : (u - t) * (s.j.x - s.i.x) = 0 := by rw [sub_mul, ← g1, ← h1, sub_self]
    have e2 : (u - t) * (s.j.y - s.i.y) = 0 := by rw [sub_mul, ← g2, ← h2, sub_self]
    have hut : u - t ≠ 0 := by linarith
    have f1 := (mul_eq_zero.1 e1).resolve_left hut
    have f2 := (mul_eq_zero.1 e2).resolve_left hut
    exact hs (Pt.ext' (by linarith) (by linarith))

/-- the real functions satisfy the assumptions -/
example : exReal.IsExactDir ∧ exReal.IsExact := ⟨Rt.real_isExactDir _, exReal_isExact⟩

/-! ### C31 -/

/-- C31: ZeroDivisionError exactly if the product of the lengths is zero; the result is the same when the
segments are exchanged (any arithmetic). -/
theorem C31_error (R : Rt K) (s o : Seg K) :
    (R.angleBetween s o = .error .zeroDiv ↔ R.mul (R.norm s) (R.norm o) = 0) ∧
    R.angleBetween s o = R.angleBetween o s := by
  constructor
  · unfold Rt.angleBetween
    by_cases h : R.mul (R.norm s) (R.norm o) = 0
    · simp [h]
    · simp only [h, if_false, iff_false]
      split_ifs <;> simp
  · unfold Rt.angleBetween
    rw [mul_comm' R (R.norm s), C09_dot_symm]

/-- C31, exact arithmetic: for segments of non-zero length the argument of acos is the normalised dot
product and lies in [-1, 1], so no exception. -/
theorem C31_exact {R : Rt K} (hE : R.IsExact) (s o : Seg K) (hs : s.i ≠ s.j) (ho : o.i ≠ o.j) :
    ∃ c, R.angleBetween s o = .ok (R.trig.degrees (R.trig.acos c)) ∧ -1 ≤ c ∧ c ≤ 1 ∧
      c * (R.norm s * R.norm o)
        = (s.j.x - s.i.x) * (o.j.x - o.i.x) + (s.j.y - s.i.y) * (o.j.y - o.i.y) := by
  have h1 := hE.norm_pos hs
  have h2 := hE.norm_pos ho
  have hp := mul_pos h1 h2
  have h3 := hE.norm_sq s
  have h4 := hE.norm_sq o
  set N := R.norm s * R.norm o with hN
  set D := (s.j.x - s.i.x) * (o.j.x - o.i.x) + (s.j.y - s.i.y) * (o.j.y - o.i.y) with hD
  have sq : D ^ 2 ≤ N ^ 2 := by
    have e : N ^ 2 = (R.norm s * R.norm s) * (R.norm o * R.norm o) := by rw [hN]; ring
    rw [e, h3, h4, hD]
    nlinarith [sq_nonneg ((s.j.x - s.i.x) * (o.j.y - o.i.y) - (s.j.y - s.i.y) * (o.j.x - o.i.x))]
  have habs := abs_le_of_sq_le_sq' sq hp.le
  have b1 : -1 ≤ D / N := by rw [le_div_iff₀ hp]; linarith [habs.1]
  have b2 : D / N ≤ 1 := by rw [div_le_one hp]; exact habs.2
  refine ⟨D / N, ?_, b1, b2, ?_⟩
  · unfold Rt.angleBetween
    simp only [hE.mul', hE.div', hE.dot', ← hN, ← hD]
    rw [if_neg hp.ne', if_neg]
    push Not; exact ⟨b1, b2⟩
  · field_simp

/-- C31: in binary64 the argument can leave the domain: the angle between the segment (0,0)-(2,3) and
itself raises ValueError, whatever `acos` does. -/
theorem C31_domain_error :
    exRt.angleBetween (exSeg 0 0 2 3) (exSeg 0 0 2 3) = .error .value := by decide +kernel

/-- C31: `angle_from_start_point` rejects a Point equal to the start with AssertionError and otherwise is
the angle to the segment from the start to the Point. -/
theorem C31_from_start (R : Rt K) (s : Seg K) (p : Pt K) :
    (R.peq p s.i = true → R.angleFromStart s p = .error .assertion) ∧
    (R.peq p s.i = false → R.angleFromStart s p = R.angleBetween s ⟨s.i, p, .line⟩) := by
  unfold Rt.angleFromStart
  constructor <;> intro h <;> simp [h]

/-! ### C32 -/

/-- C32, exact arithmetic: `midpoint` is the point at one third; it is the true midpoint only for
coinciding endpoints, and otherwise the reversed segment has a different one. -/
theorem C32_midpoint {R : Rt K} (hE : R.IsExact) (s : Seg K) :
    R.midpoint s = ((lerp s.i s.j (1 / 3)).x, (lerp s.i s.j (1 / 3)).y) ∧
    (R.midpoint s = ((s.i.x + s.j.x) / 2, (s.i.y + s.j.y) / 2) ↔ s.i = s.j) ∧
    (R.midpoint s.reversed = R.midpoint s ↔ s.i = s.j) := by
  have e : ∀ s : Seg K, R.midpoint s = ((2 * s.i.x + s.j.x) / 3, (2 * s.i.y + s.j.y) / 3) := by
    intro s; unfold Rt.midpoint; simp only [hE.div', hE.add', hE.mul']
  rw [e, e]
  refine ⟨?_, ?_, ?_⟩
  · simp only [lerp, Prod.mk.injEq]; constructor <;> ring
  · simp only [Prod.mk.injEq]
    constructor
    · rintro ⟨h1, h2⟩; exact Pt.ext' (by linarith) (by linarith)
    · intro h; rw [h]; constructor <;> ring
  · simp only [Prod.mk.injEq, Seg.reversed]
    constructor
    · rintro ⟨h1, h2⟩; exact Pt.ext' (by linarith) (by linarith)
    · intro h; rw [h]; simp

/-! ### C33 -/

/-- C33, exact arithmetic: (0,0) for null segments; otherwise a vector of length one which times the
length gives the direction vector; never an exception. -/
theorem C33_unitvector {R : Rt K} (hE : R.IsExact) (s : Seg K) :
    (R.isnull s = true → R.unitvector s = .ok (0, 0)) ∧
    (R.isnull s = false → ∃ ux uy, R.unitvector s = .ok (ux, uy) ∧ ux * ux + uy * uy = 1 ∧
      R.norm s * ux = s.j.x - s.i.x ∧ R.norm s * uy = s.j.y - s.i.y) := by
  constructor
  · intro h; simp [Rt.unitvector, h]
  · intro h
    have hne : s.i ≠ s.j := by
      intro e
      rw [Rt.isnull, e, hE.isRounding.peq_refl] at h
      simp at h
    have hn := hE.norm_pos hne
    have h2 := hE.norm_sq s
    refine ⟨(s.j.x - s.i.x) / R.norm s, (s.j.y - s.i.y) / R.norm s, ?_, ?_, ?_, ?_⟩
    · simp [Rt.unitvector, h, hn.ne', hE.div', hE.dx', hE.dy']
    · have : (s.j.x - s.i.x) / R.norm s * ((s.j.x - s.i.x) / R.norm s)
          + (s.j.y - s.i.y) / R.norm s * ((s.j.y - s.i.y) / R.norm s)
          = ((s.j.x - s.i.x) * (s.j.x - s.i.x) + (s.j.y - s.i.y) * (s.j.y - s.i.y))
            / (R.norm s * R.norm s) := by field_simp
      rw [this, ← h2, div_self (mul_pos hn hn).ne']
    · field_simp
    · field_simp

/-- C33: a segment shorter than the tolerance has a positive length but the zero unit vector (binary64). -/
theorem C33_near_null :
    ∃ s : Seg ℚ, exRt.Stored s.i ∧ exRt.Stored s.j ∧ 0 < exRt.norm s ∧
      exRt.unitvector s = .ok (0, 0) :=
  ⟨⟨⟨0, 0⟩, exRt.mkPt (1/10^6) 0, .line⟩, by decide +kernel⟩

end Srep
