import Verif.Props.HullConvex
import Verif.Props.RayFloat
import Verif.Lemmas.Dyadic

/-! Orientation tests and `convex_hull` in every correctly rounded arithmetic, binary64 among them. -/

set_option linter.unusedSectionVars false

namespace Srep
open Rt
variable {K : Type} [Field K] [LinearOrder K] [IsStrictOrderedRing K] [FloorRing K]

/-! ### vector products -/

/-- the sign of a number is known from an approximation -/
theorem sign_of_near {x y m : K} (h : |x - y| ≤ m) (hm : m < |y|) : (x < 0 ↔ y < 0) ∧ (0 < x ↔ 0 < y) ∧ x ≠ 0 := by
  have h := abs_le.1 h
  rcases lt_abs.1 hm with h1 | h1
  · have m0 : 0 ≤ m := by linarith
    exact ⟨⟨fun _ => by linarith, fun _ => by linarith⟩, ⟨fun _ => by linarith, fun _ => by linarith⟩,
      ne_of_gt (by linarith)⟩
  · have m0 : 0 ≤ m := by linarith
    exact ⟨⟨fun _ => by linarith, fun _ => by linarith⟩, ⟨fun _ => by linarith, fun _ => by linarith⟩,
      ne_of_lt (by linarith)⟩

/-- C125: the error of `crossproduct`, of `crossproduct_commonstart` and of the turn used by `convex_hull`. -/
theorem C125_error {R : Rt K} (hR : R.IsRounding) (s o : Seg K) (a b c : K × K) :
    |R.cross s o - turnOf s.i s.j o| ≤
      detMargin (s.j.x - s.i.x) (o.j.y - o.i.y) (s.j.y - s.i.y) (o.j.x - o.i.x) ∧
    |R.crossStartVal s o - det3 s.i s.j o.j| ≤
      detMargin (s.j.x - s.i.x) (o.j.y - s.i.y) (s.j.y - s.i.y) (o.j.x - s.i.x) ∧
    |R.hullCross a b c - det3 (pairPt a) (pairPt b) (pairPt c)| ≤
      detMargin (b.1 - a.1) (c.2 - a.2) (b.2 - a.2) (c.1 - a.1) :=
  ⟨(near_det hR _ _ _ _).le_five (by norm_num) le_rfl, (near_det hR _ _ _ _).le_five (by norm_num) le_rfl,
    (near_det hR _ _ _ _).le_five (by norm_num) le_rfl⟩

/-- C125: for coordinates that are short multiples of a power of two there is no error at all. -/
theorem C125_exact {R : Rt K} (hD : R.HasDyadics) (j : ℤ) (s o : Seg K) (hi : Dyadic j s.i) (hj : Dyadic j s.j)
    (hi' : Dyadic j o.i) (hj' : Dyadic j o.j) :
    R.cross s o = turnOf s.i s.j o ∧ R.crossStartVal s o = det3 s.i s.j o.j := by
  obtain ⟨m1, n1, h1, h2, e1⟩ := hi
  obtain ⟨m2, n2, h3, h4, e2⟩ := hj
  obtain ⟨m3, n3, h5, h6, e3⟩ := hi'
  obtain ⟨m4, n4, h7, h8, e4⟩ := hj'
  constructor
  · unfold Rt.cross Rt.dx Rt.dy turnOf
    rw [e1, e2, e3, e4]
    exact det_dyadic hD j _ _ _ _ _ _ _ _ h3 h8 h4 h7 h1 h6 h2 h5
  · unfold Rt.crossStartVal det3
    rw [e1, e2, e4]
    exact det_dyadic hD j _ _ _ _ _ _ _ _ h3 h8 h4 h7 h1 h2 h2 h1

/-! ### sides of a line -/

/-- C125: `is_point_to_right` is right for every point that is off the line by more than rounding errors; the ends of the
segment are not to the right. -/
theorem C125_right {R : Rt K} (hR : R.IsRounding) (s : Seg K) (p : Pt K) :
    (ClearTurn s.i s.j p → (R.isRight s p = true ↔ det3 s.i s.j p < 0)) ∧
    (p = s.i ∨ p = s.j → R.isRight s p = false) := by
  unfold Rt.isRight
  constructor
  · intro h
    rw [decide_eq_true_eq]
    exact (sign_of_near (C125_error hR s ⟨s.i, p, .line⟩ (0, 0) (0, 0) (0, 0)).1 h).1
  · intro h
    rw [decide_eq_false_iff_not]
    have : R.cross s ⟨s.i, p, .line⟩ = 0 := by
      unfold Rt.cross Rt.dx Rt.dy Rt.sub Rt.mul
      rcases h with rfl | rfl
      · simp only [sub_self, hR.zero, mul_zero]
      · dsimp only
        rw [mul_comm, sub_self, hR.zero]
    rw [this]
    exact lt_irrefl _

/-- C125: `is_point_to_left` is right for every point that is off the line by more than rounding errors and EPS together,
and not within the tolerance of an end of the segment. -/
theorem C125_left {R : Rt K} (hR : R.IsRounding) (s : Seg K) (p : Pt K) (hi : R.peq p s.i = false) (hj : R.peq p s.j = false)
    (h : detMargin (s.j.x - s.i.x) (p.y - s.i.y) (s.j.y - s.i.y) (p.x - s.i.x) + 2 / 10 ^ 8 < |det3 s.i s.j p|) :
    (R.isLeft s p = true ↔ 0 < det3 s.i s.j p) ∧ R.isOnLine s p = false := by
  have e := C125_error hR s ⟨s.i, p, .line⟩ (0, 0) (0, 0) (0, 0)
  have heps : R.eps ≤ 2 / 10 ^ 8 := by
    have := (abs_le.1 (eps_near hR)).2
    have n : (1 / 10 ^ 8 / 2 ^ 53 : K) ≤ 1 / 10 ^ 8 := by norm_num
    linarith
  have hon : R.isOnLine s p = false := by
    unfold Rt.isOnLine
    rw [hi, hj, Bool.false_or, Bool.false_or, decide_eq_false_iff_not, not_lt]
    have h1 := e.2.1
    have h2 := abs_sub_abs_le_abs_sub (det3 s.i s.j p) (R.crossStartVal s ⟨s.i, p, .line⟩)
    rw [abs_sub_comm] at h2
    dsimp only at h1
    linarith
  have n0 : (0 : K) < 2 / 10 ^ 8 := by norm_num
  refine ⟨?_, hon⟩
  unfold Rt.isLeft
  rw [hon]
  simp only [Bool.false_eq_true, if_false, Bool.not_eq_true', ← Bool.not_eq_true]
  have hc : ClearTurn s.i s.j p := by unfold ClearTurn; linarith
  rw [(C125_right hR s p).1 hc, not_lt]
  constructor
  · intro h0
    refine lt_of_le_of_ne h0 ?_
    intro h1
    rw [← h1, abs_zero] at h
    have : 0 ≤ detMargin (s.j.x - s.i.x) (p.y - s.i.y) (s.j.y - s.i.y) (p.x - s.i.x) := by unfold detMargin; positivity
    linarith
  · exact le_of_lt

/-- C125: two segments whose directions differ by more than rounding errors are not parallel for `is_parallel`, and have an
intersection point. -/
theorem C125_parallel {R : Rt K} (hR : R.IsRounding) (s o : Seg K) (h : ClearAngle s o) :
    R.isParallel s o = false ∧ R.isIntersecting s o = true ∧ (R.intersectionPoint s o).isSome = true := by
  have := (sign_of_near (C125_error hR s o (0, 0) (0, 0) (0, 0)).1 h).2.2
  have hp : R.isParallel s o = false := by unfold Rt.isParallel; rw [decide_eq_false_iff_not]; exact this
  refine ⟨hp, by unfold Rt.isIntersecting; rw [hp]; rfl, ?_⟩
  unfold Rt.intersectionPoint
  rw [if_neg (by rw [hp]; simp)]
  rfl

/-- C125: for coordinates that are short multiples of a power of two, `is_point_to_right` and `is_parallel` make no
mistakes. -/
theorem C125_exact_tests {R : Rt K} (hD : R.HasDyadics) (j : ℤ) (s o : Seg K) (hi : Dyadic j s.i) (hj : Dyadic j s.j)
    (hi' : Dyadic j o.i) (hj' : Dyadic j o.j) :
    (R.isRight s o.j = true ↔ det3 s.i s.j o.j < 0) ∧ (R.isParallel s o = true ↔ turnOf s.i s.j o = 0) := by
  constructor
  · unfold Rt.isRight
    rw [decide_eq_true_eq, (C125_exact hD j s ⟨s.i, o.j, .line⟩ hi hj hi hj').1]
    rfl
  · unfold Rt.isParallel
    rw [decide_eq_true_eq, (C125_exact hD j s o hi hj hi' hj').1]

/-! ### convexity -/

theorem psum_pos {R : Rt K} (hR : R.IsRounding) {l : List K} (hl : l ≠ []) (h : ∀ x ∈ l, 0 < x) : 0 < R.psum l := by
  unfold Rt.psum
  have key : ∀ (l : List K) (d : K), 0 < d → (∀ x ∈ l, 0 < x) → 0 < l.foldl R.add d := by
    intro l
    induction l with
    | nil => intro d h _; exact h
    | cons a l ih =>
      intro d hd h
      exact ih _ (hR.pos (add_pos hd (h a List.mem_cons_self))) fun x hx => h x (List.mem_cons_of_mem _ hx)
  cases l with
  | nil => exact absurd rfl hl
  | cons a l =>
    exact key l _ (hR.pos (by rw [zero_add]; exact h a List.mem_cons_self)) fun x hx => h x (List.mem_cons_of_mem _ hx)

theorem psum_neg' {R : Rt K} (hR : R.IsRounding) {l : List K} (h : ∀ x ∈ l, x ≤ 0) : R.psum l ≤ 0 := by
  unfold Rt.psum
  have key : ∀ (l : List K) (d : K), d ≤ 0 → (∀ x ∈ l, x ≤ 0) → l.foldl R.add d ≤ 0 := by
    intro l
    induction l with
    | nil => intro d h _; exact h
    | cons a l ih =>
      intro d hd h
      refine ih _ ?_ fun x hx => h x (List.mem_cons_of_mem _ hx)
      have := hR.mono (add_nonpos hd (h a List.mem_cons_self))
      rwa [hR.zero] at this
  exact key l 0 le_rfl h

/-- consecutive sides, the last one followed by the first -/
def corner2 (l : List (Seg K)) : List (Seg K × Seg K) := l.zip (l.tail ++ l.take 1)

theorem cps_eq (R : Rt K) (l : List (Seg K)) : R.cps l = (corner2 l).map fun q => R.cross q.1 q.2 := by
  unfold Rt.cps corner2
  rw [List.zip, List.map_zipWith]

/-- C125: `isconvex`, `iscw` and `isccw` of a valid polyline whose corners all turn by more than rounding errors: convex if
they all turn the same way, and the way is found; not convex if two of them turn different ways. -/
theorem C125_convex {R : Rt K} (hR : R.IsRounding) (l : List (Seg K)) (hv : R.plValid l = true)
    (hc : ∀ q ∈ corner2 l, ClearAngle q.1 q.2) :
    ((∀ q ∈ corner2 l, 0 < turnOf q.1.i q.1.j q.2) →
      R.isConvex l = .ok true ∧ R.isCw l = .ok false ∧ R.isCcw l = .ok true) ∧
    ((∀ q ∈ corner2 l, turnOf q.1.i q.1.j q.2 < 0) →
      R.isConvex l = .ok true ∧ R.isCw l = .ok true ∧ R.isCcw l = .ok false) ∧
    ((∃ q ∈ corner2 l, 0 < turnOf q.1.i q.1.j q.2) → (∃ q ∈ corner2 l, turnOf q.1.i q.1.j q.2 < 0) →
      R.isConvex l = .ok false) := by
  have hs : ∀ q ∈ corner2 l, (R.cross q.1 q.2 < 0 ↔ turnOf q.1.i q.1.j q.2 < 0) ∧
      (0 < R.cross q.1 q.2 ↔ 0 < turnOf q.1.i q.1.j q.2) := fun q hq =>
    ⟨(sign_of_near (C125_error hR q.1 q.2 (0, 0) (0, 0) (0, 0)).1 (hc q hq)).1,
      (sign_of_near (C125_error hR q.1 q.2 (0, 0) (0, 0) (0, 0)).1 (hc q hq)).2.1⟩
  have hne : R.cps l ≠ [] := by
    have : l ≠ [] := by
      rintro rfl
      unfold Rt.plValid at hv
      simp at hv
    cases l with
    | nil => exact absurd rfl this
    | cons a l => unfold Rt.cps; cases l <;> simp
  have hmem : ∀ x ∈ R.cps l, ∃ q ∈ corner2 l, R.cross q.1 q.2 = x := by
    intro x hx
    rw [cps_eq] at hx
    exact List.mem_map.1 hx
  have hcv : ∀ b, R.isConvex l = .ok b ↔
      ((R.cps l).all (fun x => decide (0 ≤ x)) || (R.cps l).all fun x => decide (x ≤ 0)) = b := by
    intro b
    unfold Rt.isConvex
    rw [if_neg (by rw [hv]; simp)]
    simp
  refine ⟨?_, ?_, ?_⟩
  · intro h
    have hp : ∀ x ∈ R.cps l, 0 < x := by
      intro x hx
      obtain ⟨q, hq, rfl⟩ := hmem x hx
      exact (hs q hq).2.2 (h q hq)
    have h1 : R.isConvex l = .ok true := by
      rw [hcv, Bool.or_eq_true]
      left
      rw [List.all_eq_true]
      intro x hx
      rw [decide_eq_true_eq]
      exact (hp x hx).le
    have h2 : R.isCw l = .ok false := by
      unfold Rt.isCw
      rw [h1]
      dsimp only
      rw [decide_eq_true (psum_pos hR hne hp)]
      rfl
    exact ⟨h1, h2, by unfold Rt.isCcw; rw [h2]; rfl⟩
  · intro h
    have hp : ∀ x ∈ R.cps l, x < 0 := by
      intro x hx
      obtain ⟨q, hq, rfl⟩ := hmem x hx
      exact (hs q hq).1.2 (h q hq)
    have h1 : R.isConvex l = .ok true := by
      rw [hcv, Bool.or_eq_true]
      right
      rw [List.all_eq_true]
      intro x hx
      rw [decide_eq_true_eq]
      exact (hp x hx).le
    have h2 : R.isCw l = .ok true := by
      unfold Rt.isCw
      rw [h1]
      dsimp only
      rw [decide_eq_false (not_lt.2 (psum_neg' hR fun x hx => (hp x hx).le))]
      rfl
    exact ⟨h1, h2, by unfold Rt.isCcw; rw [h2]; rfl⟩
  · rintro ⟨q, hq, h1⟩ ⟨q', hq', h2⟩
    have m1 : R.cross q.1 q.2 ∈ R.cps l := by rw [cps_eq]; exact List.mem_map.2 ⟨q, hq, rfl⟩
    have m2 : R.cross q'.1 q'.2 ∈ R.cps l := by rw [cps_eq]; exact List.mem_map.2 ⟨q', hq', rfl⟩
    rw [hcv, Bool.or_eq_false_iff]
    constructor
    · rw [List.all_eq_false]
      refine ⟨_, m2, ?_⟩
      rw [decide_eq_true_eq, not_le]
      exact (hs q' hq').1.2 h2
    · rw [List.all_eq_false]
      refine ⟨_, m1, ?_⟩
      rw [decide_eq_true_eq, not_le]
      exact (hs q hq).2.2 h1

/-! ### the convex hull -/

/-- exact arithmetic but for square roots, which the hull does not use -/
def plainRt (K : Type) [Field K] (R : Rt K) : Rt K := { R with fl := id }

theorem plain_hullCross (R : Rt K) (o a b : K × K) : (plainRt K R).hullCross o a b = pdet o a b := rfl

theorem hullPop_congr {R R' : Rt K} {S : List (K × K)}
    (h : ∀ o ∈ S, ∀ a ∈ S, ∀ b ∈ S, (R.hullCross o a b ≤ 0 ↔ R'.hullCross o a b ≤ 0)) {p : K × K} (hp : p ∈ S) :
    ∀ st : List (K × K), (∀ q ∈ st, q ∈ S) → R.hullPop p st = R'.hullPop p st
  | [], _ => rfl
  | [a], _ => rfl
  | a :: o :: l, hst => by
    have ih := hullPop_congr h hp (o :: l) fun q hq => hst q (List.mem_cons_of_mem _ hq)
    have hh := h o (hst o (by simp)) a (hst a (by simp)) p hp
    unfold Rt.hullPop
    by_cases h1 : R.hullCross o a p ≤ 0
    · rw [if_pos h1, if_pos (hh.1 h1), ih]
    · rw [if_neg h1, if_neg fun h => h1 (hh.2 h)]

theorem hullPop_sub (R : Rt K) (p : K × K) : ∀ st : List (K × K), ∀ q ∈ R.hullPop p st, q ∈ st
  | [], q, h => h
  | [a], q, h => h
  | a :: o :: l, q, h => by
    unfold Rt.hullPop at h
    split_ifs at h
    · exact List.mem_cons_of_mem _ (hullPop_sub R p (o :: l) q h)
    · exact h

theorem hullHalf_congr {R R' : Rt K} {S : List (K × K)}
    (h : ∀ o ∈ S, ∀ a ∈ S, ∀ b ∈ S, (R.hullCross o a b ≤ 0 ↔ R'.hullCross o a b ≤ 0)) (ps : List (K × K))
    (hps : ∀ q ∈ ps, q ∈ S) : R.hullHalf ps = R'.hullHalf ps := by
  unfold Rt.hullHalf
  have key : ∀ (ps st : List (K × K)), (∀ q ∈ ps, q ∈ S) → (∀ q ∈ st, q ∈ S) →
      ps.foldl (fun st p => p :: R.hullPop p st) st = ps.foldl (fun st p => p :: R'.hullPop p st) st := by
    intro ps
    induction ps with
    | nil => intro st _ _; rfl
    | cons p ps ih =>
      intro st h1 h2
      rw [List.foldl_cons, List.foldl_cons, hullPop_congr h (h1 p List.mem_cons_self) st h2]
      refine ih _ (fun q hq => h1 q (List.mem_cons_of_mem _ hq)) ?_
      intro q hq
      rcases List.mem_cons.1 hq with rfl | hq
      · exact h1 _ List.mem_cons_self
      · exact h2 q (hullPop_sub R' p st q hq)
  exact key ps [] hps (by simp)

/-- the hull depends on the signs of the turns only -/
theorem hullNodes_congr {R R' : Rt K} {ps : List (K × K)}
    (h : ∀ o ∈ ps, ∀ a ∈ ps, ∀ b ∈ ps, (R.hullCross o a b ≤ 0 ↔ R'.hullCross o a b ≤ 0)) :
    R.hullNodes ps = R'.hullNodes ps := by
  unfold Rt.hullNodes
  rw [hullHalf_congr h (hullSorted ps) fun q hq => (hullSorted_mem ps q).1 hq,
    hullHalf_congr h (hullSorted ps).reverse fun q hq => (hullSorted_mem ps q).1 (List.mem_reverse.1 hq)]

/-- two of the three points are the same: the turn is exactly zero -/
theorem hullCross_same {R : Rt K} (hR : R.IsRounding) (o a b : K × K) (h : o = a ∨ o = b ∨ a = b) :
    R.hullCross o a b = 0 ∧ pdet o a b = 0 := by
  constructor
  · unfold Rt.hullCross Rt.sub Rt.mul
    rcases h with rfl | rfl | rfl
    · simp only [sub_self, hR.zero, zero_mul]
    · simp only [sub_self, hR.zero, mul_zero]
    · rw [mul_comm (R.fl (a.2 - o.2)), sub_self, hR.zero]
  · unfold pdet
    rcases h with rfl | rfl | rfl <;> ring

/-- every three different members turn by more than rounding errors -/
def ClearTurns (ps : List (K × K)) : Prop :=
  ∀ o ∈ ps, ∀ a ∈ ps, ∀ b ∈ ps, o ≠ a → o ≠ b → a ≠ b → ClearTurn (pairPt o) (pairPt a) (pairPt b)

theorem clear_sign {R : Rt K} (hR : R.IsRounding) {ps : List (K × K)} (h : ClearTurns ps) :
    ∀ o ∈ ps, ∀ a ∈ ps, ∀ b ∈ ps, (R.hullCross o a b ≤ 0 ↔ (plainRt K R).hullCross o a b ≤ 0) := by
  intro o ho a ha b hb
  rw [plain_hullCross]
  by_cases hs : o = a ∨ o = b ∨ a = b
  · obtain ⟨h1, h2⟩ := hullCross_same hR o a b hs
    rw [h1, h2]
  · have hs : o ≠ a ∧ o ≠ b ∧ a ≠ b := by tauto
    have := (sign_of_near (C125_error hR ⟨⟨0, 0⟩, ⟨0, 0⟩, .line⟩ ⟨⟨0, 0⟩, ⟨0, 0⟩, .line⟩ o a b).2.2
      (h o ho a ha b hb hs.1 hs.2.1 hs.2.2)).2.1
    rw [← not_lt, ← not_lt, this]
    rfl

theorem dyadic_sign {R : Rt K} (hD : R.HasDyadics) {j : ℤ} {ps : List (K × K)} (h : ∀ p ∈ ps, Dyadic j (pairPt p)) :
    ∀ o ∈ ps, ∀ a ∈ ps, ∀ b ∈ ps, (R.hullCross o a b ≤ 0 ↔ (plainRt K R).hullCross o a b ≤ 0) := by
  intro o ho a ha b hb
  rw [plain_hullCross]
  have : R.hullCross o a b = pdet o a b :=
    (C125_exact hD j ⟨pairPt o, pairPt a, .line⟩ ⟨pairPt o, pairPt b, .line⟩ (h o ho) (h a ha) (h o ho) (h b hb)).2
  rw [this]

/-- C125: `convex_hull` finds the convex hull if every three different members turn by more than rounding errors: members
of the input, none twice, starting with the lexicographically smallest, all members to the left of all edges, strictly left
turns (two vertices for two members). -/
theorem C125_hull {R : Rt K} (hR : R.IsRounding) (ps : List (K × K)) (h : ∃ p ∈ ps, ∃ q ∈ ps, p ≠ q) (hc : ClearTurns ps) :
    IsHull ps (R.hullNodes ps) ∧
    (∀ p ∈ (R.hullNodes ps).head?, ∀ q ∈ ps, LexLe p q) ∧
    ((∃ x ∈ ps, ∃ y ∈ ps, ∃ z ∈ ps, x ≠ y ∧ x ≠ z ∧ y ≠ z) →
      ∀ k (hk : k < (R.hullNodes ps).length),
        0 < det3 (pairPt (R.hullNodes ps)[k])
          (pairPt ((R.hullNodes ps)[(k + 1) % (R.hullNodes ps).length]'(Nat.mod_lt _ (by omega))))
          (pairPt ((R.hullNodes ps)[(k + 2) % (R.hullNodes ps).length]'(Nat.mod_lt _ (by omega))))) := by
  have e := hullNodes_congr (clear_sign hR hc)
  obtain ⟨h1, h2, h3, -⟩ := hullNodes_spec (plain_hullCross R) ps h
  rw [← e] at h1 h2
  refine ⟨h1, h2, ?_⟩
  rintro ⟨x, hx, y, hy, z, hz, n1, n2, n3⟩
  have := h3 ⟨x, hx, y, hy, z, hz, by
    have := hc x hx y hy z hz n1 n2 n3
    intro h0
    unfold ClearTurn at this
    rw [h0, abs_zero] at this
    have : 0 ≤ detMargin ((pairPt y).x - (pairPt x).x) ((pairPt z).y - (pairPt x).y) ((pairPt y).y - (pairPt x).y)
      ((pairPt z).x - (pairPt x).x) := by unfold detMargin; positivity
    linarith⟩
  simp only [← e] at this
  exact this

/-- C125: for coordinates that are short multiples of a power of two it finds the convex hull without any condition on the
turns. -/
theorem C125_hull_exact {R : Rt K} (hD : R.HasDyadics) (j : ℤ) (ps : List (K × K)) (h : ∃ p ∈ ps, ∃ q ∈ ps, p ≠ q)
    (hg : ∀ p ∈ ps, Dyadic j (pairPt p)) :
    IsHull ps (R.hullNodes ps) ∧
    (∀ p ∈ (R.hullNodes ps).head?, ∀ q ∈ ps, LexLe p q) ∧
    ((∃ x ∈ ps, ∃ y ∈ ps, ∃ z ∈ ps, det3 (pairPt x) (pairPt y) (pairPt z) ≠ 0) →
      ∀ k (hk : k < (R.hullNodes ps).length),
        0 < det3 (pairPt (R.hullNodes ps)[k])
          (pairPt ((R.hullNodes ps)[(k + 1) % (R.hullNodes ps).length]'(Nat.mod_lt _ (by omega))))
          (pairPt ((R.hullNodes ps)[(k + 2) % (R.hullNodes ps).length]'(Nat.mod_lt _ (by omega))))) ∧
    ((∀ x ∈ ps, ∀ y ∈ ps, ∀ z ∈ ps, det3 (pairPt x) (pairPt y) (pairPt z) = 0) →
      (R.hullNodes ps).length = 2) := by
  have e := hullNodes_congr (dyadic_sign hD hg)
  have := hullNodes_spec (plain_hullCross R) ps h
  simp only [← e] at this
  exact this

/-- C125: the polyline that `convex_hull` returns, whenever its node list is right: closed, side `k` runs from vertex `k` to
vertex `k + 1`. -/
theorem C125_hull_polyline {R : Rt K} (hR : R.IsRounding) (ps : List (K × K)) (hH : IsHull ps (R.hullNodes ps))
    (hg : ∀ p ∈ ps, R.Stored (pairPt p)) (hap : Apart (2 / 10 ^ 5) {q | ∃ p ∈ ps, q = pairPt p}) :
    ∃ l, R.convexHull ps = .inr (.ok l) ∧ l.length = (R.hullNodes ps).length ∧
      (∀ k (hk : k < l.length) (hk' : k < (R.hullNodes ps).length),
        l[k] = ⟨pairPt (R.hullNodes ps)[k],
          pairPt ((R.hullNodes ps)[(k + 1) % (R.hullNodes ps).length]'(Nat.mod_lt _ (by omega))), .line⟩) ∧
      R.isClosed l = .ok true := by
  have hv2 := hH.two
  have h2 : 2 ≤ (hullSorted ps).length := by
    apply two_le_hullSorted
    refine ⟨_, hH.mem _ (List.getElem_mem (by omega : 0 < _)), _, hH.mem _ (List.getElem_mem (by omega : 1 < _)), ?_⟩
    intro h
    have := (List.Nodup.getElem_inj_iff hH.nodup).1 h
    omega
  have hmap : ((R.hullNodes ps).map fun n => R.mkPt n.1 n.2) = (R.hullNodes ps).map pairPt := by
    apply List.map_congr_left
    intro p hp
    obtain ⟨h1, h2⟩ := hg p (hH.mem p hp)
    unfold Rt.mkPt pairPt at *
    rw [h1, h2]
  have hpf : R.polygonFromNodes (R.hullNodes ps) false = .ok (chain ((R.hullNodes ps).map pairPt)) := by
    unfold polygonFromNodes
    simp only [Bool.false_eq_true, if_false, hmap]
  have hpeq : R.peq (((R.hullNodes ps).map pairPt)[0]'(by simp; omega))
      (((R.hullNodes ps).map pairPt)[((R.hullNodes ps).map pairPt).length - 1]'(by simp; omega)) = false := by
    rw [Bool.eq_false_iff]
    simp only [List.getElem_map, List.length_map]
    intro hc
    have he := fl_peq_eq hR hap ⟨_, hH.mem _ (List.getElem_mem (by omega : 0 < (R.hullNodes ps).length)), rfl⟩
        ⟨_, hH.mem _ (List.getElem_mem (by omega : (R.hullNodes ps).length - 1 < _)), rfl⟩ hc
    have hx := congrArg Pt.x he
    have hy := congrArg Pt.y he
    have := (List.Nodup.getElem_inj_iff hH.nodup).1
      (Prod.ext hx hy : (R.hullNodes ps)[0] = (R.hullNodes ps)[(R.hullNodes ps).length - 1])
    omega
  obtain ⟨l, h1, -, h3, h4, h5⟩ := close_chain hR _ (by simpa using hv2) hpeq
  refine ⟨l, ?_, by simpa using h3, ?_, h5⟩
  · unfold Rt.convexHull
    rw [if_neg (by omega), hpf]
    exact congrArg _ h1
  · intro k hk hk'
    have := h4 k hk (by simpa using hk')
    rw [this]
    simp

/-! ### concrete cases in binary64 -/

instance (a b c : Pt ℚ) : Decidable (ClearTurn a b c) := by unfold ClearTurn; infer_instance
instance (s o : Seg ℚ) : Decidable (ClearAngle s o) := by unfold ClearAngle; infer_instance
instance (ps : List (ℚ × ℚ)) : Decidable (ClearTurns ps) := by unfold ClearTurns; infer_instance

/-- five points with coordinates that binary64 cannot hold exactly -/
def roughPts : List (ℚ × ℚ) :=
  [(exRt.coord (1 / 10), exRt.coord (2 / 10)), (exRt.coord (21 / 10), exRt.coord (3 / 10)),
    (exRt.coord (19 / 10), exRt.coord (22 / 10)), (exRt.coord (2 / 10), exRt.coord (19 / 10)),
    (exRt.coord (11 / 10), exRt.coord (9 / 10))]

/-- non-vacuity: all turns of the five points are clear, and the points are stored and apart -/
example : ClearTurns roughPts ∧ (∃ p ∈ roughPts, ∃ q ∈ roughPts, p ≠ q) ∧ (∀ p ∈ roughPts, exRt.Stored (pairPt p)) ∧
    (∃ x ∈ roughPts, ∃ y ∈ roughPts, ∃ z ∈ roughPts, x ≠ y ∧ x ≠ z ∧ y ≠ z) ∧
    ∀ p ∈ roughPts, ∀ q ∈ roughPts, pairPt p ≠ pairPt q → 2 / 10 ^ 5 ≤ |p.1 - q.1| ∨ 2 / 10 ^ 5 ≤ |p.2 - q.2| := by
  unfold roughPts
  refine ⟨?_, ?_, ?_, ?_, ?_⟩ <;> decide +kernel

/-- non-vacuity: collinear points with halves as coordinates are short multiples of 2⁻¹ -/
example : ∀ p ∈ [((0 : ℚ), (0 : ℚ)), (1 / 2, 1 / 2), (3 / 2, 3 / 2), (2, 1 / 2)], Dyadic (-1) (pairPt p) := by
  intro p hp
  simp only [List.mem_cons, List.not_mem_nil, or_false] at hp
  rcases hp with rfl | rfl | rfl | rfl
  · exact ⟨0, 0, by norm_num, by norm_num, by norm_num [pairPt]⟩
  · exact ⟨1, 1, by norm_num, by norm_num, by norm_num [pairPt]⟩
  · exact ⟨3, 3, by norm_num, by norm_num, by norm_num [pairPt]⟩
  · exact ⟨4, 1, by norm_num, by norm_num, by norm_num [pairPt]⟩

/-- non-vacuity: all corners of the square turn left, in both ways of drawing it the turns are clear -/
example : exRt.plValid sq13 = true ∧ (∀ q ∈ corner2 sq13, ClearAngle q.1 q.2) ∧
    ∀ q ∈ corner2 sq13, 0 < turnOf q.1.i q.1.j q.2 := by
  refine ⟨by decide +kernel, by decide +kernel, ?_⟩
  unfold turnOf
  decide +kernel

/-- non-vacuity: points clearly to the left and to the right -/
example : ClearTurn (⟨0, 0⟩ : Pt ℚ) ⟨1 / 10, 2 / 10⟩ ⟨3 / 10, 1 / 10⟩ ∧
    ClearAngle (⟨⟨0, 0⟩, ⟨1 / 10, 2 / 10⟩, .line⟩ : Seg ℚ) ⟨⟨1, 0⟩, ⟨3 / 10, 1 / 10⟩, .line⟩ := by
  decide +kernel

end Srep
