import Verif.Lemmas.HeadPiece
import Verif.Lemmas.HeadGeo

/-! The three arcs of a torispherical head in real arithmetic. -/

set_option linter.unusedSectionVars false

namespace Srep
open Rt

theorem Near.mono {e e' : ℝ} {p q : Pt ℝ} (h : Near e p q) (hee : e ≤ e') : Near e' p q := ⟨h.1.trans hee, h.2.trans hee⟩

theorem Near.trans {e e' : ℝ} {p q r : Pt ℝ} (h : Near e p q) (h' : Near e' q r) : Near (e + e') p r := by
  refine ⟨?_, ?_⟩
  · exact (abs_sub_le _ _ _).trans (add_le_add h.1 h'.1)
  · exact (abs_sub_le _ _ _).trans (add_le_add h.2 h'.2)

theorem Near.opp {e : ℝ} {p q : Pt ℝ} (h : Near e p q) : Near e (opp p) (opp q) := by
  have k : ∀ x y : ℝ, |(-x) - (-y)| = |x - y| := by
    intro x y
    rw [← abs_neg]
    congr 1
    ring
  unfold Near Srep.opp
  dsimp only
  rw [k, k]
  exact h

theorem Near.shift {e : ℝ} {p q : Pt ℝ} (h : Near e p q) (x y : ℝ) : Near e (shift p x y) (shift q x y) := by
  unfold Near Srep.shift
  dsimp only
  rw [add_sub_add_right_eq_sub, add_sub_add_right_eq_sub]
  exact h

theorem near_round8 (p : Pt ℝ) : Near (5 / 10 ^ 9) (round8Pt p) p := by
  have h1 := abs_rhe8_sub_le p.x
  have h2 := abs_rhe8_sub_le p.y
  constructor
  · refine h1.trans (by norm_num)
  · refine h2.trans (by norm_num)

theorem near_circle {cx cy ex ey : ℝ} {e : ℝ} (h : Near e ⟨cx, cy⟩ ⟨ex, ey⟩) (r t : ℝ) :
    Near e (onCircle cx cy r t) (onCircle ex ey r t) := by
  unfold Near onCircle
  dsimp only
  rw [add_sub_add_right_eq_sub, add_sub_add_right_eq_sub]
  exact h

section real
variable (hs : ℝ → ℝ → Int)

/-- an arc is a piece -/
theorem arc_piece (h : Heap ℝ) (px py r a b : ℝ) (n : ℕ) (ho : ArcOk r a b n) (hP : (Rt.real hs).Stored ⟨px, py⟩) :
    ∃ h' P, (Rt.real hs).arcH h px py r a b n false = .ok (h', P) ∧
      Piece h' P n (arcPt px py r a b n) .line h.npt (h.npt + (n + 1)) h.nseg ∧ h'.npt = h.npt + (n + 1) ∧ h'.nseg = h.nseg + n ∧
      (∀ p < h.npt, h'.pt p = h.pt p) ∧ ∀ s < h.nseg, h'.seg s = h.seg s := by
  obtain ⟨h', P, q1, -, q3, q4, q5, -, -, q8, q9⟩ := arc_join hs h px py r a b n false ho hP (by simp)
  obtain ⟨b1, b2, b3, b4⟩ := arc_bound q1
  refine ⟨h', P, q1, ⟨b3, ?_, b4, q5⟩, b1, b2, q8, q9⟩
  intro k hk
  have := q4 k (by omega)
  simp only [b3, List.getElem_range', one_mul] at this
  exact this

theorem arcPt_grid {px py : ℝ} (hx : Grid px) (hy : Grid py) (r a b : ℝ) (n k : ℕ) :
    Grid (arcPt px py r a b n k).x ∧ Grid (arcPt px py r a b n k).y :=
  ⟨(rhe8_isGrid _).add' hx, (rhe8_isGrid _).add' hy⟩

/-- the points of an arc about a stored centre -/
theorem arcPt_near' (cx cy r a b : ℝ) (n k : ℕ) :
    Near (2 / 10 ^ 8) (arcPt (rhe8 cx) (rhe8 cy) r a b n k) (onCircle cx cy r (a + k * ((b - a) / n))) := by
  have h1 := arcPt_near (rhe8 cx) (rhe8 cy) r a b n k
  have h2 := near_circle (near_round8 ⟨cx, cy⟩) r (a + k * ((b - a) / n))
  exact (h1.trans h2).mono (by norm_num)

/-- points near to points which are apart -/
theorem spread_of_near {n : ℕ} {v O : ℕ → Pt ℝ} (hn : ∀ k ≤ n, Near (2 / 10 ^ 8) (v k) (O k))
    (hO : ∀ j k, j ≤ n → k ≤ n → j ≠ k → 4 / 10 ^ 5 ≤ |(O j).x - (O k).x| ∨ 4 / 10 ^ 5 ≤ |(O j).y - (O k).y|)
    (hg : ∀ k ≤ n, Grid (v k).x ∧ Grid (v k).y) : GridSpread n v := by
  refine ⟨fun j k hj hk hne => ?_, hg⟩
  have key : ∀ x y u w : ℝ, |x - u| ≤ 2 / 10 ^ 8 → |y - w| ≤ 2 / 10 ^ 8 → 4 / 10 ^ 5 ≤ |u - w| → 1 / 10 ^ 5 ≤ |x - y| := by
    intro x y u w h1 h2 h3
    have := abs_sub_le u x w
    have := abs_sub_le x y w
    rw [abs_sub_comm u x] at *
    norm_num at *
    linarith
  have h1 := hn j hj
  have h2 := hn k hk
  exact (hO j k hj hk hne).imp (key _ _ _ _ h1.1 h2.1) (key _ _ _ _ h1.2 h2.2)

namespace HeadShape
variable (s : HeadShape)

/-- the sizes for which the vertices of a head are at least 4e-5 apart -/
structure Big (d h1 : ℝ) : Prop where
  h1 : 4 / 10 ^ 5 ≤ h1
  step : 4 / 10 ^ 5 ≤ s.step * d

variable {s}

theorem Big.pos {d h1 : ℝ} (h : s.Big d h1) : 0 < d := by
  have := h.step
  by_contra hc
  have := mul_nonpos_of_nonneg_of_nonpos s.step_pos.le (not_lt.1 hc)
  norm_num at *
  linarith

variable (s) in
theorem cos_lt : Real.cos s.A ≤ 1 := Real.cos_le_one _

theorem Big.dish {d h1 : ℝ} (h : s.Big d h1) : 4 / 10 ^ 5 ≤ s.r1 * d * s.sinA / 4 := by
  refine h.step.trans ?_
  have hd := h.pos
  have : s.step ≤ s.r1 * Real.cos s.A * s.sinA / 4 := (min_le_left _ _).trans (le_of_eq (by ring))
  have c := s.cos_lt
  have h1 := s.dish
  have h2 := s.sinA_pos
  have : s.r1 * Real.cos s.A * s.sinA ≤ s.r1 * 1 * s.sinA := by
    apply mul_le_mul_of_nonneg_right _ h2.le
    apply mul_le_mul_of_nonneg_left c (by linarith)
  nlinarith

theorem Big.knuckle {d h1 : ℝ} (h : s.Big d h1) : 4 / 10 ^ 5 ≤ s.r2 * d * Real.cos s.A / 3 := by
  refine h.step.trans ?_
  have hd := h.pos
  have e : s.step ≤ s.r2 * Real.cos s.A ^ 2 / 18 := (min_le_right _ _).trans (le_of_eq (by ring))
  have c := s.cos_lt
  have c0 := s.cos_A_pos
  have h1 := s.pos
  have e2 : s.r2 * Real.cos s.A ^ 2 / 18 ≤ s.r2 * Real.cos s.A / 3 := by
    have : s.r2 * Real.cos s.A ^ 2 ≤ s.r2 * (Real.cos s.A * 1) := by
      rw [_root_.sq]
      apply mul_le_mul_of_nonneg_left _ h1.le
      apply mul_le_mul_of_nonneg_left c c0.le
    have : 0 < s.r2 * Real.cos s.A := by positivity
    linarith
  have := mul_le_mul_of_nonneg_right (e.trans e2) hd.le
  linarith

theorem Big.lt {d h1 : ℝ} (h : s.Big d h1) : 4 / 10 ^ 5 ≤ d := by
  have h1 := h.knuckle
  have hd := h.pos
  have c := s.cos_lt
  have c0 := s.cos_A_pos
  have h2 := s.pos
  have h3 := s.half
  have : s.r2 * d * Real.cos s.A ≤ s.r2 * d * 1 := mul_le_mul_of_nonneg_left c (by positivity)
  nlinarith

theorem Big.apart {d h1 : ℝ} (h : s.Big d h1) {j k : ℕ} (hj : j ≤ 16) (hk : k ≤ 16) (hjk : j ≠ k) :
    4 / 10 ^ 5 ≤ |(s.vertex d h1 j).x - (s.vertex d h1 k).x| ∨ 4 / 10 ^ 5 ≤ |(s.vertex d h1 j).y - (s.vertex d h1 k).y| :=
  s.vertex_apart h.pos h.h1 h.lt h.step hj hk hjk

/-- a chord seen from the centre under the angle `x` -/
theorem chord_le {r t u x : ℝ} (hx : (u - t) / 2 * (Real.pi / 180) = x) (h : 4 / 10 ^ 5 ≤ 2 * r * Real.sin x) :
    (4 / 10 ^ 5) ^ 2 ≤ dist2 (onCircle 0 0 r t) (onCircle 0 0 r u) := by
  rw [dist2_symm, dist2_circle, hx]
  exact pow_le_pow_left₀ (by positivity) h 2

theorem D_rad : (90 - s.al) * (Real.pi / 180) = s.D := by
  unfold D
  rw [sub_mul, rad_90, al_rad]

theorem Big.sin_dish {d h1 : ℝ} (h : s.Big d h1) : 4 / 10 ^ 5 ≤ 2 * (s.r1 * d) * Real.sin (s.A / 8) ∧
    4 / 10 ^ 5 ≤ 2 * (s.r1 * d) * Real.sin s.A := by
  have h0 := h.dish
  have hd := h.pos
  have hr := s.dish
  have hrd : 0 < s.r1 * d := by nlinarith
  have hp := Real.pi_pos
  have b1 := sin_div s.A_pos.le (by have := s.A_lt; linarith) 8 (by norm_num)
  rw [sin_A] at b1 ⊢
  push_cast at b1
  have := s.sinA_pos
  constructor
  · have := mul_le_mul_of_nonneg_left b1 hrd.le
    linarith
  · have : 0 < s.r1 * d * s.sinA := by positivity
    linarith

theorem Big.sin_knuckle {d h1 : ℝ} (h : s.Big d h1) : 4 / 10 ^ 5 ≤ 2 * (s.r2 * d) * Real.sin (s.D / 6) ∧
    4 / 10 ^ 5 ≤ 2 * (s.r2 * d) * Real.sin (s.D / 2) := by
  have h0 := h.knuckle
  have hd := h.pos
  have hr := s.pos
  have hrd : 0 < s.r2 * d := by positivity
  have hp := Real.pi_pos
  have hD := s.D_lt
  have b1 := sin_div s.D_pos.le (by linarith) 6 (by norm_num)
  have b2 := sin_div s.D_pos.le (by linarith) 2 (by norm_num)
  rw [sin_D] at b1 b2
  push_cast at b1 b2
  have := s.cos_A_pos
  have c1 := mul_le_mul_of_nonneg_left b1 hrd.le
  have c2 := mul_le_mul_of_nonneg_left b2 hrd.le
  have : 0 < s.r2 * d * Real.cos s.A := by positivity
  constructor <;> linarith

theorem Big.arc_dish {d h1 : ℝ} (h : s.Big d h1) : ArcOk (s.r1 * d) (90 - s.al) (90 + s.al) 8 := by
  have h1 := s.al_pos
  have h2 := s.al_lt
  have h3 := s.dish
  have hd := h.pos
  have hal := s.al_rad
  refine ⟨by linarith, by linarith, by linarith, by linarith, by linarith, by nlinarith, by norm_num, ?_, Or.inr ?_⟩
  · apply chord_le _ h.sin_dish.1
    push_cast
    linear_combination hal / 8
  · apply chord_le _ h.sin_dish.2
    linear_combination hal

theorem Big.arc_right {d h1 : ℝ} (h : s.Big d h1) : ArcOk (s.r2 * d) 0 (90 - s.al) 3 := by
  have h1 := s.al_pos
  have h2 := s.al_lt
  have h3 := s.pos
  have hd := h.pos
  have hD := D_rad (s := s)
  refine ⟨by linarith, by linarith, by linarith, by linarith, by linarith, by positivity, by norm_num, ?_, Or.inr ?_⟩
  · apply chord_le _ h.sin_knuckle.1
    push_cast
    linear_combination hD / 6
  · apply chord_le _ h.sin_knuckle.2
    linear_combination hD / 2

theorem Big.arc_left {d h1 : ℝ} (h : s.Big d h1) : ArcOk (s.r2 * d) (90 + s.al) 180 3 := by
  have h1 := s.al_pos
  have h2 := s.al_lt
  have h3 := s.pos
  have hd := h.pos
  have hD := D_rad (s := s)
  refine ⟨by linarith, by linarith, by linarith, by linarith, by linarith, by positivity, by norm_num, ?_, Or.inr ?_⟩
  · apply chord_le _ h.sin_knuckle.1
    push_cast
    linear_combination hD / 6
  · apply chord_le _ h.sin_knuckle.2
    linear_combination hD / 2

end HeadShape

/-- `h` and `alpha` of a head -/
theorem headAngle_real (s : HeadShape) {d : ℝ} (hd : 0 < d) :
    (Rt.real hs).headAngle d (s.r1 * d) (s.r2 * d) = .ok (s.depth * d, s.al) := by
  have hE := Rt.real_isExact hs
  have hw := s.w_pos
  have hwd : 0 < (s.r1 - s.r2) * d := mul_pos hw hd
  have hc := s.cos_A_pos
  have hwe : s.r1 * d - s.r2 * d = (s.r1 - s.r2) * d := by ring
  have hu : (s.r1 * d - s.r2 * d) * (s.r1 * d - s.r2 * d) - (d / 2 - s.r2 * d) * (d / 2 - s.r2 * d) =
      ((s.r1 - s.r2) * d * Real.cos s.A) ^ 2 := by
    have h1 := s.w_sin
    have h2 := Real.sin_sq_add_cos_sq s.A
    have e : d / 2 - s.r2 * d = (s.r1 - s.r2) * d * Real.sin s.A := by linear_combination (-d) * h1
    rw [e]
    linear_combination (-((s.r1 - s.r2) * d) ^ 2) * h2
  have hsq : Real.sqrt ((s.r1 * d - s.r2 * d) * (s.r1 * d - s.r2 * d) - (d / 2 - s.r2 * d) * (d / 2 - s.r2 * d)) =
      (s.r1 - s.r2) * d * Real.cos s.A := by
    rw [hu]
    exact Real.sqrt_sq (by positivity)
  have hq : (s.r1 - s.r2) * d * Real.cos s.A / (s.r1 * d - s.r2 * d) = Real.cos s.A := by
    rw [hwe]
    field_simp
  unfold Rt.headAngle
  simp only [hE.sub', hE.div']
  have e1 : ∀ x, (Rt.real hs).sq x = x * x := fun _ => rfl
  have e2 : ∀ x, (Rt.real hs).sqrt x = Real.sqrt x := fun _ => rfl
  have e3 : ∀ x, (Rt.real hs).trig.acos x = Real.arccos x := fun _ => rfl
  have e4 : ∀ x, (Rt.real hs).trig.degrees x = x * (180 / Real.pi) := fun _ => rfl
  simp only [e1, e2, e3, e4]
  rw [if_neg (by rw [hu]; exact not_lt.2 (by positivity)), if_neg (by rw [hwe]; exact hwd.ne'), hsq, hq]
  rw [if_neg (by rw [abs_of_pos hc]; exact not_lt.2 s.cos_lt)]
  have hA := s.A_lt
  rw [Real.arccos_cos s.A_pos.le (by have := Real.pi_pos; linarith)]
  congr 2
  · unfold HeadShape.depth HeadShape.A
    ring

end real
end Srep
