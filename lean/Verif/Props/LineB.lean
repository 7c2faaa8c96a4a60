import Verif.Props.LineC

/-! Properties C18-C20: overlap and common part of two segments. -/

set_option linter.unusedSectionVars false

namespace Srep
variable {K : Type} [Field K] [LinearOrder K] [IsStrictOrderedRing K] [FloorRing K]

/-! ### positions on a common line -/

/-- `t` lies between `a` and `b`, in either order -/
def Btw (a b t : K) : Prop := (a ≤ t ∧ t ≤ b) ∨ (b ≤ t ∧ t ≤ a)

theorem lerp_lerp (u v : Pt K) (a b t : K) :
    lerp (lerp u v a) (lerp u v b) t = lerp u v (a + t * (b - a)) := by
  unfold lerp; simp only; congr 1 <;> ring

theorem between_lerp (u v : Pt K) (a b : K) (q : Pt K) :
    Between (lerp u v a) (lerp u v b) q ↔ ∃ t, Btw a b t ∧ q = lerp u v t := by
  constructor
  · rintro ⟨t, h0, h1, rfl⟩
    refine ⟨a + t * (b - a), ?_, lerp_lerp u v a b t⟩
    rcases le_total a b with h | h
    · left; constructor <;> nlinarith
    · right; constructor <;> nlinarith
  · rintro ⟨t, ht, rfl⟩
    by_cases hab : a = b
    · subst hab
      have : t = a := by rcases ht with ⟨h1, h2⟩ | ⟨h1, h2⟩ <;> exact le_antisymm (by assumption) (by assumption)
      exact ⟨0, le_rfl, zero_le_one, by rw [lerp_zero, this]⟩
    · have hne : b - a ≠ 0 := fun h => hab (by linarith)
      refine ⟨(t - a) / (b - a), ?_, ?_, ?_⟩
      · rcases ht with ⟨h1, h2⟩ | ⟨h1, h2⟩
        · exact div_nonneg (by linarith) (by linarith)
        · exact div_nonneg_of_nonpos (by linarith) (by linarith)
      · rcases lt_or_gt_of_ne hne with h | h
        · rw [div_le_one_of_neg h]; rcases ht with ⟨h1, h2⟩ | ⟨h1, h2⟩ <;> linarith
        · rw [div_le_one h]; rcases ht with ⟨h1, h2⟩ | ⟨h1, h2⟩ <;> linarith
      · rw [lerp_lerp]; congr 1; field_simp; ring

/-- On the line of a segment, away from its endpoints by the tolerance, the box test decides membership. -/
theorem isInternal_lerp {R : Rt K} (hE : R.IsExact) (w : Seg K) (hw : w.i ≠ w.j) (t : K)
    (h : Apart (1 / 10 ^ 5) {w.i, w.j, lerp w.i w.j t}) :
    R.isInternal w (lerp w.i w.j t) = true ↔ 0 ≤ t ∧ t ≤ 1 := by
  constructor
  · intro hI
    rw [hE.isInternal_iff] at hI
    obtain ⟨b1, b2, b3, b4⟩ := hI
    have p5 : (1 : K) / 10 ^ 8 < 1 / 10 ^ 5 := by norm_num
    constructor
    · by_contra hc
      push Not at hc
      have hne : lerp w.i w.j t ≠ w.i := by
        intro e
        have := lerp_inj hw (e.trans (lerp_zero w.i w.j).symm); linarith
      rcases h (lerp w.i w.j t) (by simp) w.i (by simp) hne with hx | hy
      · simp only [lerp] at hx b1 b2
        rcases le_total w.i.x w.j.x with h1 | h1
        · rw [min_eq_left h1] at b1
          rw [abs_of_nonpos (by nlinarith)] at hx; linarith
        · rw [max_eq_left h1] at b2
          rw [abs_of_nonneg (by nlinarith)] at hx; linarith
      · simp only [lerp] at hy b3 b4
        rcases le_total w.i.y w.j.y with h1 | h1
        · rw [min_eq_left h1] at b3
          rw [abs_of_nonpos (by nlinarith)] at hy; linarith
        · rw [max_eq_left h1] at b4
          rw [abs_of_nonneg (by nlinarith)] at hy; linarith
    · by_contra hc
      push Not at hc
      have hne : lerp w.i w.j t ≠ w.j := by
        intro e
        have := lerp_inj hw (e.trans (lerp_one w.i w.j).symm); linarith
      rcases h (lerp w.i w.j t) (by simp) w.j (by simp) hne with hx | hy
      · simp only [lerp] at hx b1 b2
        rcases le_total w.i.x w.j.x with h1 | h1
        · rw [max_eq_right h1] at b2
          rw [abs_of_nonneg (by nlinarith)] at hx; linarith
        · rw [min_eq_right h1] at b1
          rw [abs_of_nonpos (by nlinarith)] at hx; linarith
      · simp only [lerp] at hy b3 b4
        rcases le_total w.i.y w.j.y with h1 | h1
        · rw [max_eq_right h1] at b4
          rw [abs_of_nonneg (by nlinarith)] at hy; linarith
        · rw [min_eq_right h1] at b3
          rw [abs_of_nonpos (by nlinarith)] at hy; linarith
  · rintro ⟨h0, h1⟩
    exact (C14_accepts hE w).2.2.2 _ ⟨t, h0, h1, rfl⟩

theorem Apart.mono {t : K} {S T : Set (Pt K)} (h : Apart t S) (hs : T ⊆ S) : Apart t T :=
  fun p hp q hq => h p (hs hp) q (hs hq)

/-- The same for a segment given by two positions on the line. -/
theorem isInternal_pos {R : Rt K} (hE : R.IsExact) (u v : Pt K) (huv : u ≠ v) (a b t : K) (hab : a ≠ b)
    (c : SegCls) (h : Apart (1 / 10 ^ 5) {lerp u v a, lerp u v b, lerp u v t}) :
    R.isInternal ⟨lerp u v a, lerp u v b, c⟩ (lerp u v t) = true ↔ Btw a b t := by
  have hne : b - a ≠ 0 := fun h => hab (by linarith)
  have e : lerp u v t = lerp (lerp u v a) (lerp u v b) ((t - a) / (b - a)) := by
    rw [lerp_lerp]; congr 1; field_simp; ring
  have hw : lerp u v a ≠ lerp u v b := fun h => hab (lerp_inj huv h)
  rw [e] at h ⊢
  rw [isInternal_lerp hE ⟨lerp u v a, lerp u v b, c⟩ hw _ h]
  unfold Btw
  rcases lt_or_gt_of_ne hne with hn | hn
  · rw [div_le_one_of_neg hn]
    constructor
    · rintro ⟨h1, h2⟩
      have : t - a ≤ 0 := by
        by_contra hc; push Not at hc
        have := div_neg_of_pos_of_neg hc hn; linarith
      right; constructor <;> linarith
    · rintro (⟨h1, h2⟩ | ⟨h1, h2⟩)
      · exact ⟨div_nonneg_of_nonpos (by linarith) (by linarith), by linarith⟩
      · exact ⟨div_nonneg_of_nonpos (by linarith) (by linarith), by linarith⟩
  · rw [div_le_one hn]
    constructor
    · rintro ⟨h1, h2⟩
      have : 0 ≤ t - a := by
        by_contra hc; push Not at hc
        have := div_neg_of_neg_of_pos hc hn; linarith
      left; constructor <;> linarith
    · rintro (⟨h1, h2⟩ | ⟨h1, h2⟩)
      · exact ⟨div_nonneg (by linarith) (by linarith), by linarith⟩
      · exact ⟨div_nonneg (by linarith) (by linarith), by linarith⟩

/-- outcome of `overlap` in terms of the common points of the two closed segments -/
def OverlapSpec (s o : Seg K) (r : Bool × Option (Part K)) : Prop :=
  (r = (false, none) ∧ ∀ q, ¬ (OnSeg s q ∧ OnSeg o q)) ∨
  (∃ p, r = (true, some (.pt p)) ∧ ∀ q, OnSeg s q ∧ OnSeg o q ↔ q = p) ∨
  (∃ part u v, r = (true, some part) ∧ part.ends? = some (u, v) ∧ u ≠ v ∧
    ∀ q, OnSeg s q ∧ OnSeg o q ↔ Between u v q)

theorem eq_singleton_of_nodup {α : Type} {l : List α} {c : α} (hn : l.Nodup) (h : ∀ q, q ∈ l ↔ q = c) :
    l = [c] := by
  match l, hn, h with
  | [], _, h => exact absurd ((h c).2 rfl) (by simp)
  | [a], _, h => rw [(h a).1 (by simp)]
  | a :: b :: l, hn, h =>
    have ha := (h a).1 (by simp)
    have hb := (h b).1 (by simp)
    rw [List.nodup_cons] at hn
    exact absurd (by rw [ha, hb]; simp) hn.1

/-- The branch "one endpoint in common": both segments start (position-wise) at `c`. -/
theorem touch_branch {R : Rt K} (hE : R.IsExact) (hD : R.IsExactDir) (u v : Pt K) (huv : u ≠ v)
    (c t1 t2 : K) (h1 : t1 ≠ c) (h2 : t2 ≠ c) (s o : Seg K)
    (hs : ∀ q, OnSeg s q ↔ ∃ t, Btw c t1 t ∧ q = lerp u v t)
    (ho : ∀ q, OnSeg o q ↔ ∃ t, Btw c t2 t ∧ q = lerp u v t) :
    OverlapSpec s o
      (if R.direction ⟨lerp u v c, lerp u v t1, .line⟩ = R.direction ⟨lerp u v c, lerp u v t2, .line⟩ then
        (true, some (.seg (if R.norm ⟨lerp u v c, lerp u v t1, .line⟩ ≤ R.norm ⟨lerp u v c, lerp u v t2, .line⟩
          then ⟨lerp u v c, lerp u v t1, .line⟩ else ⟨lerp u v c, lerp u v t2, .line⟩)))
        else (true, some (.pt (lerp u v c)))) := by
  have n1 : lerp u v c ≠ lerp u v t1 := fun h => h1 (lerp_inj huv h).symm
  have n2 : lerp u v c ≠ lerp u v t2 := fun h => h2 (lerp_inj huv h).symm
  have hdir := C30_equal_direction hE hD ⟨lerp u v c, lerp u v t1, .line⟩ ⟨lerp u v c, lerp u v t2, .line⟩ n1 n2
  have hpos : (∃ t, 0 < t ∧ (lerp u v t2).x - (lerp u v c).x = t * ((lerp u v t1).x - (lerp u v c).x) ∧
      (lerp u v t2).y - (lerp u v c).y = t * ((lerp u v t1).y - (lerp u v c).y)) ↔
      0 < (t2 - c) / (t1 - c) := by
    have hc1 : t1 - c ≠ 0 := sub_ne_zero.2 h1
    constructor
    · rintro ⟨t, h0, hx, hy⟩
      have : lerp u v (t2 - c) = lerp u v (t * (t1 - c)) := by
        simp only [lerp] at hx hy ⊢
        congr 1
        · linear_combination hx
        · linear_combination hy
      have := lerp_inj huv this
      rw [this]
      rwa [mul_div_cancel_right₀ _ hc1]
    · intro h0
      refine ⟨_, h0, ?_, ?_⟩
      · simp only [lerp]; field_simp; ring
      · simp only [lerp]; field_simp; ring
  rw [hpos] at hdir
  have common : ∀ q, OnSeg s q ∧ OnSeg o q ↔ ∃ t, (Btw c t1 t ∧ Btw c t2 t) ∧ q = lerp u v t := by
    intro q
    rw [hs, ho]
    constructor
    · rintro ⟨⟨t, ht, rfl⟩, ⟨t', ht', e⟩⟩
      have := lerp_inj huv e
      subst this
      exact ⟨t, ⟨ht, ht'⟩, rfl⟩
    · rintro ⟨t, ⟨ht, ht'⟩, rfl⟩
      exact ⟨⟨t, ht, rfl⟩, ⟨t, ht', rfl⟩⟩
  by_cases hd : 0 < (t2 - c) / (t1 - c)
  · rw [if_pos (hdir.2 hd)]
    have D2 : 0 < (v.x - u.x) * (v.x - u.x) + (v.y - u.y) * (v.y - u.y) := by
      rcases lt_or_eq_of_le (add_nonneg (mul_self_nonneg (v.x - u.x)) (mul_self_nonneg (v.y - u.y))) with h | h
      · exact h
      · exfalso
        have a := mul_self_nonneg (v.x - u.x)
        have b := mul_self_nonneg (v.y - u.y)
        have hx : v.x - u.x = 0 := mul_self_eq_zero.1 (by linarith)
        have hy : v.y - u.y = 0 := mul_self_eq_zero.1 (by linarith)
        exact huv (Pt.ext' (by linarith) (by linarith))
    have hnorm : R.norm ⟨lerp u v c, lerp u v t1, .line⟩ ≤ R.norm ⟨lerp u v c, lerp u v t2, .line⟩ ↔
        (t1 - c) * (t1 - c) ≤ (t2 - c) * (t2 - c) := by
      have a1 := hE.norm_sq ⟨lerp u v c, lerp u v t1, .line⟩
      have a2 := hE.norm_sq ⟨lerp u v c, lerp u v t2, .line⟩
      have b1 := hE.norm_nonneg ⟨lerp u v c, lerp u v t1, .line⟩
      have b2 := hE.norm_nonneg ⟨lerp u v c, lerp u v t2, .line⟩
      set N1 := R.norm ⟨lerp u v c, lerp u v t1, .line⟩
      set N2 := R.norm ⟨lerp u v c, lerp u v t2, .line⟩
      have a1' : N1 * N1 = (t1 - c) * (t1 - c) * ((v.x - u.x) * (v.x - u.x) + (v.y - u.y) * (v.y - u.y)) := by
        rw [a1]; simp only [lerp]; ring
      have a2' : N2 * N2 = (t2 - c) * (t2 - c) * ((v.x - u.x) * (v.x - u.x) + (v.y - u.y) * (v.y - u.y)) := by
        rw [a2]; simp only [lerp]; ring
      constructor
      · intro h
        have : N1 * N1 ≤ N2 * N2 := mul_self_le_mul_self b1 h
        rw [a1', a2'] at this
        exact le_of_mul_le_mul_right this D2
      · intro h
        have : N1 * N1 ≤ N2 * N2 := by rw [a1', a2']; exact mul_le_mul_of_nonneg_right h D2.le
        by_contra hc
        push Not at hc
        nlinarith
    right; right
    have cases : (0 < t1 - c ∧ 0 < t2 - c) ∨ (t1 - c < 0 ∧ t2 - c < 0) := by
      rcases div_pos_iff.1 hd with h | h
      · exact Or.inl ⟨h.2, h.1⟩
      · exact Or.inr ⟨h.2, h.1⟩
    by_cases hn : (t1 - c) * (t1 - c) ≤ (t2 - c) * (t2 - c)
    · rw [if_pos (hnorm.2 hn)]
      refine ⟨_, _, _, rfl, rfl, n1, ?_⟩
      intro q
      rw [common, between_lerp]
      apply exists_congr
      intro t
      apply and_congr_left
      intro _
      unfold Btw
      rcases cases with ⟨p1, p2⟩ | ⟨p1, p2⟩
      · have : t1 ≤ t2 := by nlinarith
        constructor
        · rintro ⟨h, -⟩; exact h
        · rintro h; refine ⟨h, ?_⟩
          rcases h with ⟨h3, h4⟩ | ⟨h3, h4⟩ <;> left <;> constructor <;> linarith
      · have : t2 ≤ t1 := by nlinarith
        constructor
        · rintro ⟨h, -⟩; exact h
        · rintro h; refine ⟨h, ?_⟩
          rcases h with ⟨h3, h4⟩ | ⟨h3, h4⟩ <;> right <;> constructor <;> linarith
    · rw [if_neg (fun h => hn (hnorm.1 h))]
      refine ⟨_, _, _, rfl, rfl, n2, ?_⟩
      push Not at hn
      intro q
      rw [common, between_lerp]
      apply exists_congr
      intro t
      apply and_congr_left
      intro _
      unfold Btw
      rcases cases with ⟨p1, p2⟩ | ⟨p1, p2⟩
      · have : t2 ≤ t1 := by nlinarith
        constructor
        · rintro ⟨-, h⟩; exact h
        · rintro h; refine ⟨?_, h⟩
          rcases h with ⟨h3, h4⟩ | ⟨h3, h4⟩ <;> left <;> constructor <;> linarith
      · have : t1 ≤ t2 := by nlinarith
        constructor
        · rintro ⟨-, h⟩; exact h
        · rintro h; refine ⟨?_, h⟩
          rcases h with ⟨h3, h4⟩ | ⟨h3, h4⟩ <;> right <;> constructor <;> linarith
  · rw [if_neg (fun h => hd (hdir.1 h))]
    right; left
    refine ⟨_, rfl, ?_⟩
    intro q
    rw [common]
    have hd' : (t1 - c < 0 ∧ 0 < t2 - c) ∨ (0 < t1 - c ∧ t2 - c < 0) := by
      have hc1 : t1 - c ≠ 0 := sub_ne_zero.2 h1
      have hc2 : t2 - c ≠ 0 := sub_ne_zero.2 h2
      rcases lt_or_gt_of_ne hc1 with a | a <;> rcases lt_or_gt_of_ne hc2 with b | b
      · exact absurd (div_pos_of_neg_of_neg b a) hd
      · exact Or.inl ⟨a, b⟩
      · exact Or.inr ⟨a, b⟩
      · exact absurd (div_pos b a) hd
    constructor
    · rintro ⟨t, ⟨ht, ht'⟩, rfl⟩
      congr 1
      unfold Btw at ht ht'
      rcases hd' with ⟨a, b⟩ | ⟨a, b⟩ <;> rcases ht with ⟨x1, x2⟩ | ⟨x1, x2⟩ <;>
        rcases ht' with ⟨y1, y2⟩ | ⟨y1, y2⟩ <;> linarith
    · rintro rfl
      refine ⟨c, ?_, rfl⟩
      unfold Btw
      rcases hd' with ⟨a, b⟩ | ⟨a, b⟩
      · exact ⟨Or.inr ⟨by linarith, le_rfl⟩, Or.inl ⟨le_rfl, by linarith⟩⟩
      · exact ⟨Or.inl ⟨le_rfl, by linarith⟩, Or.inr ⟨by linarith, le_rfl⟩⟩

/-- Two closed segments on a line given by positions. -/
theorem sortByOrigin_two (R : Rt K) (x y : Pt K) :
    R.sortByOrigin [x, y] = [x, y] ∨ R.sortByOrigin [x, y] = [y, x] := by
  unfold Rt.sortByOrigin
  simp only [List.insertionSort_cons, List.insertionSort_nil, List.orderedInsert_nil,
    List.orderedInsert_cons]
  split_ifs
  · exact Or.inl rfl
  · exact Or.inr rfl

theorem between_comm (u v q : Pt K) : Between u v q ↔ Between v u q := by
  have : ∀ u v : Pt K, Between u v q → Between v u q := by
    rintro u v ⟨t, h0, h1, rfl⟩
    refine ⟨1 - t, by linarith, by linarith, ?_⟩
    unfold lerp; congr 1 <;> ring
  exact ⟨this u v, this v u⟩

set_option maxHeartbeats 2000000 in
/-- C18: two collinear segments of non-zero length whose endpoints are separated by the tolerance (and
which are of the same class if they have both endpoints in common): `overlap` does not raise, returns
(False, None) iff the closed segments are disjoint, (True, Point) iff they have exactly that one point
in common, and otherwise (True, segment) where the segment is their intersection.  Exact arithmetic. -/
theorem C18_collinear {R : Rt K} (hE : R.IsExact) (hD : R.IsExactDir) (s o : Seg K)
    (hs : s.i ≠ s.j) (ho : o.i ≠ o.j)
    (st : R.Stored s.i ∧ R.Stored s.j ∧ R.Stored o.i ∧ R.Stored o.j)
    (hap : Apart (1 / 10 ^ 5) {s.i, s.j, o.i, o.j})
    (hc1 : OnLine s.i s.j o.i) (hc2 : OnLine s.i s.j o.j)
    (hcls : s.cls = o.cls ∨ ¬ ((s.i = o.i ∧ s.j = o.j) ∨ (s.i = o.j ∧ s.j = o.i))) :
    ∃ r, R.overlap s o = .ok r ∧ OverlapSpec s o r := by
  have hR := hE.isRounding
  obtain ⟨a, ha⟩ := hc1
  obtain ⟨b, hb⟩ := hc2
  obtain ⟨u, v, cs⟩ := s
  obtain ⟨oi, oj, co⟩ := o
  simp only at hs ho st hap ha hb hcls
  subst ha hb
  have hab : a ≠ b := fun h => ho (by rw [h])
  have hapT : Apart R.tol {u, v, lerp u v a, lerp u v b} := by rw [hE.tol']; exact hap
  have hsep : R.Sep [u, v, lerp u v a, lerp u v b] := by
    apply sep_of_apart hR
    intro p hp q hq
    exact hapT p (by simpa using hp) q (by simpa using hq)
  have hpar : R.isParallel ⟨u, v, cs⟩ ⟨lerp u v a, lerp u v b, co⟩ = true := by
    rw [hE.isParallel_iff]; simp only [lerp]; ring
  have hcol : R.isCollinear ⟨u, v, cs⟩ ⟨lerp u v a, lerp u v b, co⟩ = true := by
    unfold Rt.isCollinear
    rw [C15_complete hE ⟨u, v, cs⟩ _ ⟨a, rfl⟩, C15_complete hE ⟨u, v, cs⟩ _ ⟨b, rfl⟩]; rfl
  have onS : ∀ q, OnSeg (⟨u, v, cs⟩ : Seg K) q ↔ ∃ t, Btw 0 1 t ∧ q = lerp u v t := by
    intro q
    have := between_lerp u v 0 1 q
    rw [lerp_zero, lerp_one] at this; exact this
  have onS' : ∀ q, OnSeg (⟨u, v, cs⟩ : Seg K) q ↔ ∃ t, Btw 1 0 t ∧ q = lerp u v t := by
    intro q
    have := between_lerp u v 1 0 q
    rw [lerp_zero, lerp_one] at this
    rw [← this]; exact between_comm u v q
  have onO : ∀ q, OnSeg (⟨lerp u v a, lerp u v b, co⟩ : Seg K) q ↔ ∃ t, Btw a b t ∧ q = lerp u v t :=
    fun q => between_lerp u v a b q
  have onO' : ∀ q, OnSeg (⟨lerp u v a, lerp u v b, co⟩ : Seg K) q ↔ ∃ t, Btw b a t ∧ q = lerp u v t := by
    intro q; rw [← between_lerp u v b a q]; exact between_comm _ _ q
  have hloose := C21_iff hR ⟨u, v, cs⟩ ⟨lerp u v a, lerp u v b, co⟩ hapT
  simp only at hloose
  have htouch := C16_common hE ⟨u, v, cs⟩ ⟨lerp u v a, lerp u v b, co⟩ hsep.hashOK st.1 st.2.1 st.2.2.1 st.2.2.2
  simp only at htouch
  have e0 : ∀ t, u = lerp u v t ↔ t = 0 := by
    intro t
    constructor
    · intro h; exact lerp_inj hs (h.symm.trans (lerp_zero u v).symm)
    · rintro rfl; rw [lerp_zero]
  have e1 : ∀ t, v = lerp u v t ↔ t = 1 := by
    intro t
    constructor
    · intro h; exact lerp_inj hs (h.symm.trans (lerp_one u v).symm)
    · rintro rfl; rw [lerp_one]
  rw [e0, e0, e1, e1] at htouch
  rw [e0, e0, e1, e1] at hloose
  rw [e0, e0, e1, e1] at hcls
  unfold Rt.overlap
  simp only [hpar, hcol, Bool.not_true, Bool.false_eq_true, if_false]
  by_cases hl : R.looseEqual ⟨u, v, cs⟩ ⟨lerp u v a, lerp u v b, co⟩ = true
  · have ht : R.touch ⟨u, v, cs⟩ ⟨lerp u v a, lerp u v b, co⟩ = true := by
      rw [htouch]; have := (hloose.1 hl).2; tauto
    simp only [ht, hl, Bool.not_true, Bool.and_false, Bool.false_eq_true, if_false, if_true]
    refine ⟨_, rfl, Or.inr (Or.inr ⟨_, u, v, rfl, rfl, hs, ?_⟩)⟩
    intro q
    constructor
    · exact fun h => h.1
    · intro h
      refine ⟨h, ?_⟩
      rcases (hloose.1 hl).2 with ⟨r1, r2⟩ | ⟨r1, r2⟩
      · subst r1 r2; rw [onO]; exact (onS q).1 h
      · subst r1 r2; rw [onO]; exact (onS' q).1 h
  have hl' : R.looseEqual ⟨u, v, cs⟩ ⟨lerp u v a, lerp u v b, co⟩ = false := by simpa using hl
  have hnot : ¬ ((a = 0 ∧ b = 1) ∨ (b = 0 ∧ a = 1)) := by
    intro hh
    rcases hcls with hcls | hcls
    · exact hl (hloose.2 ⟨hcls, hh⟩)
    · exact hcls hh
  by_cases ht : R.touch ⟨u, v, cs⟩ ⟨lerp u v a, lerp u v b, co⟩ = true
  · simp only [ht, hl', Bool.not_true, Bool.and_false, Bool.false_eq_true, if_false, if_true]
    have inter : ∀ c, (∀ q, (q ∈ [u, v] ∧ q ∈ [lerp u v a, lerp u v b]) ↔ q = c) →
        R.psetInter (R.pset [u, v]) (R.pset [lerp u v a, lerp u v b]) = [c] := by
      intro c hc
      refine eq_singleton_of_nodup (Rt.nodup_psetInter hR hsep.hashOK (by simp) (by simp)) ?_
      intro q
      rw [Rt.mem_psetInter hR hsep.hashOK (by simp) (by simp)]
      exact hc q
    have npeq : ∀ p q : Pt K, p ∈ [u, v, lerp u v a, lerp u v b] → q ∈ [u, v, lerp u v a, lerp u v b] →
        (p ≠ q) → R.peq p q = false := by
      intro p q hp hq hne
      rw [Bool.eq_false_iff]; exact fun h => hne (hsep p hp q hq h)
    have vu : v ≠ u := fun h => hs h.symm
    have mA : lerp u v a ∈ [u, v, lerp u v a, lerp u v b] := by simp
    have mB : lerp u v b ∈ [u, v, lerp u v a, lerp u v b] := by simp
    have mU : u ∈ [u, v, lerp u v a, lerp u v b] := by simp
    have mV : v ∈ [u, v, lerp u v a, lerp u v b] := by simp
    rcases htouch.1 ht with h | h | h | h
    · -- a = 0
      subst h
      have hb0 : b ≠ 0 := fun h => hab h.symm
      have hb1 : b ≠ 1 := fun h => hnot (Or.inl ⟨rfl, h⟩)
      have bu : lerp u v b ≠ u := fun h => hb0 ((e0 b).1 h.symm)
      have bv : lerp u v b ≠ v := fun h => hb1 ((e1 b).1 h.symm)
      rw [inter u (by
        intro q
        simp only [List.mem_cons, List.not_mem_nil, or_false, lerp_zero]
        constructor
        · rintro ⟨rfl | rfl, h | h⟩
          · rfl
          · rfl
          · exact h
          · exact absurd h.symm bv
        · rintro rfl; simp)]
      have hf : [u, v, lerp u v 0, lerp u v b].filter (fun x => !R.peq x u) = [v, lerp u v b] := by
        simp [lerp_zero, hR.peq_refl, npeq v u mV mU vu, npeq _ u mB mU bu]
      simp only [hf]
      have := touch_branch hE hD u v hs 0 1 b one_ne_zero hb0 ⟨u, v, cs⟩ ⟨lerp u v 0, lerp u v b, co⟩ onS onO
      simp only [lerp_zero, lerp_one] at this ⊢
      split_ifs at this ⊢ <;> exact ⟨_, rfl, this⟩
    · -- b = 0
      subst h
      have ha1 : a ≠ 1 := fun h => hnot (Or.inr ⟨rfl, h⟩)
      have au : lerp u v a ≠ u := fun h => hab ((e0 a).1 h.symm)
      have av : lerp u v a ≠ v := fun h => ha1 ((e1 a).1 h.symm)
      rw [inter u (by
        intro q
        simp only [List.mem_cons, List.not_mem_nil, or_false, lerp_zero]
        constructor
        · rintro ⟨rfl | rfl, h | h⟩
          · rfl
          · rfl
          · exact absurd h.symm av
          · exact h
        · rintro rfl; simp)]
      have hf : [u, v, lerp u v a, lerp u v 0].filter (fun x => !R.peq x u) = [v, lerp u v a] := by
        simp [lerp_zero, hR.peq_refl, npeq v u mV mU vu, npeq _ u mA mU au]
      simp only [hf]
      have := touch_branch hE hD u v hs 0 1 a one_ne_zero hab ⟨u, v, cs⟩ ⟨lerp u v a, lerp u v 0, co⟩ onS onO'
      simp only [lerp_zero, lerp_one] at this ⊢
      split_ifs at this ⊢ <;> exact ⟨_, rfl, this⟩
    · -- a = 1
      subst h
      have hb1 : b ≠ 1 := fun h => hab h.symm
      have hb0 : b ≠ 0 := fun h => hnot (Or.inr ⟨h, rfl⟩)
      have bu : lerp u v b ≠ u := fun h => hb0 ((e0 b).1 h.symm)
      have bv : lerp u v b ≠ v := fun h => hb1 ((e1 b).1 h.symm)
      rw [inter v (by
        intro q
        simp only [List.mem_cons, List.not_mem_nil, or_false, lerp_one]
        constructor
        · rintro ⟨rfl | rfl, h | h⟩
          · exact absurd h hs
          · exact absurd h.symm bu
          · rfl
          · rfl
        · rintro rfl; simp)]
      have hf : [u, v, lerp u v 1, lerp u v b].filter (fun x => !R.peq x v) = [u, lerp u v b] := by
        simp [lerp_one, hR.peq_refl, npeq u v mU mV hs, npeq _ v mB mV bv]
      simp only [hf]
      have := touch_branch hE hD u v hs 1 0 b zero_ne_one hb1 ⟨u, v, cs⟩ ⟨lerp u v 1, lerp u v b, co⟩ onS' onO
      simp only [lerp_zero, lerp_one] at this ⊢
      split_ifs at this ⊢ <;> exact ⟨_, rfl, this⟩
    · -- b = 1
      subst h
      have ha0 : a ≠ 0 := fun h => hnot (Or.inl ⟨h, rfl⟩)
      have au : lerp u v a ≠ u := fun h => ha0 ((e0 a).1 h.symm)
      have av : lerp u v a ≠ v := fun h => hab ((e1 a).1 h.symm)
      rw [inter v (by
        intro q
        simp only [List.mem_cons, List.not_mem_nil, or_false, lerp_one]
        constructor
        · rintro ⟨rfl | rfl, h | h⟩
          · exact absurd h.symm au
          · exact absurd h hs
          · rfl
          · rfl
        · rintro rfl; simp)]
      have hf : [u, v, lerp u v a, lerp u v 1].filter (fun x => !R.peq x v) = [u, lerp u v a] := by
        simp [lerp_one, hR.peq_refl, npeq u v mU mV hs, npeq _ v mA mV av]
      simp only [hf]
      have := touch_branch hE hD u v hs 1 0 a zero_ne_one hab ⟨u, v, cs⟩ ⟨lerp u v a, lerp u v 1, co⟩ onS' onO'
      simp only [lerp_zero, lerp_one] at this ⊢
      split_ifs at this ⊢ <;> exact ⟨_, rfl, this⟩
  · -- no common endpoint
    have hn : ¬ (a = 0 ∨ b = 0 ∨ a = 1 ∨ b = 1) := fun h => ht (htouch.2 h)
    push Not at hn
    obtain ⟨a0, b0, a1, b1⟩ := hn
    have ht' : R.touch ⟨u, v, cs⟩ ⟨lerp u v a, lerp u v b, co⟩ = false := by simpa using ht
    have iS : ∀ t, lerp u v t ∈ ({u, v, lerp u v a, lerp u v b} : Set (Pt K)) →
        (R.isInternal ⟨u, v, cs⟩ (lerp u v t) = true ↔ 0 ≤ t ∧ t ≤ 1) := by
      intro t hm
      apply isInternal_lerp hE ⟨u, v, cs⟩ hs t
      apply hap.mono
      rintro p (rfl | rfl | rfl)
      · exact Or.inl rfl
      · exact Or.inr (Or.inl rfl)
      · exact hm
    have iO : ∀ t, lerp u v t ∈ ({u, v, lerp u v a, lerp u v b} : Set (Pt K)) →
        (R.isInternal ⟨lerp u v a, lerp u v b, co⟩ (lerp u v t) = true ↔ Btw a b t) := by
      intro t hm
      apply isInternal_pos hE u v hs a b t hab
      apply hap.mono
      rintro p (rfl | rfl | rfl)
      · exact Or.inr (Or.inr (Or.inl rfl))
      · exact Or.inr (Or.inr (Or.inr rfl))
      · exact hm
    have iSa := iS a (by simp)
    have iSb := iS b (by simp)
    have iO0 := iO 0 (by simp [lerp_zero])
    have iO1 := iO 1 (by simp [lerp_one])
    rw [lerp_zero] at iO0
    rw [lerp_one] at iO1
    have T : ∀ {x : Bool} {P : Prop}, (x = true ↔ P) → P → x = true := fun h p => h.2 p
    have F : ∀ {x : Bool} {P : Prop}, (x = true ↔ P) → ¬ P → x = false := fun h p => by
      rw [Bool.eq_false_iff]; exact fun hx => p (h.1 hx)
    have common : ∀ q, OnSeg (⟨u, v, cs⟩ : Seg K) q ∧ OnSeg (⟨lerp u v a, lerp u v b, co⟩ : Seg K) q ↔
        ∃ t, (Btw 0 1 t ∧ Btw a b t) ∧ q = lerp u v t := by
      intro q
      rw [onS, onO]
      constructor
      · rintro ⟨⟨t, ht, rfl⟩, ⟨t', ht', e⟩⟩
        have := lerp_inj hs e
        subst this
        exact ⟨t, ⟨ht, ht'⟩, rfl⟩
      · rintro ⟨t, ⟨ht, ht'⟩, rfl⟩
        exact ⟨⟨t, ht, rfl⟩, ⟨t, ht', rfl⟩⟩
    -- result with a pair of inner points
    have pair : ∀ x y : K, x ≠ y → (∀ t, Btw 0 1 t ∧ Btw a b t ↔ Btw x y t) →
        OverlapSpec ⟨u, v, cs⟩ ⟨lerp u v a, lerp u v b, co⟩
          (true, some (.segN (R.sortByOrigin [lerp u v x, lerp u v y]))) := by
      intro x y hxy hset
      right; right
      rcases sortByOrigin_two R (lerp u v x) (lerp u v y) with h | h
      · refine ⟨_, lerp u v x, lerp u v y, rfl, by rw [h]; rfl, fun h => hxy (lerp_inj hs h), ?_⟩
        intro q; rw [common, between_lerp]
        simp only [hset]
      · refine ⟨_, lerp u v y, lerp u v x, rfl, by rw [h]; rfl, fun h => hxy (lerp_inj hs h).symm, ?_⟩
        intro q; rw [common, between_comm, between_lerp]
        simp only [hset]
    have sp : (a < 0 ∨ (0 < a ∧ a < 1) ∨ 1 < a) := by
      rcases lt_or_gt_of_ne a0 with h | h
      · exact Or.inl h
      · rcases lt_or_gt_of_ne a1 with h' | h'
        · exact Or.inr (Or.inl ⟨h, h'⟩)
        · exact Or.inr (Or.inr h')
    have sq : (b < 0 ∨ (0 < b ∧ b < 1) ∨ 1 < b) := by
      rcases lt_or_gt_of_ne b0 with h | h
      · exact Or.inl h
      · rcases lt_or_gt_of_ne b1 with h' | h'
        · exact Or.inr (Or.inl ⟨h, h'⟩)
        · exact Or.inr (Or.inr h')
    unfold Btw at iO0 iO1 pair common
    rcases sp with p | ⟨p, p'⟩ | p <;> rcases sq with q | ⟨q, q'⟩ | q
    · -- both left
      simp only [F iSa (by intro h; linarith [h.1]), F iSb (by intro h; linarith [h.1]),
        F iO0 (by rintro (h | h) <;> linarith [h.1, h.2]), F iO1 (by rintro (h | h) <;> linarith [h.1, h.2]),
        ht', Bool.or_false, Bool.not_false, Bool.and_true, if_true]
      refine ⟨_, rfl, Or.inl ⟨rfl, ?_⟩⟩
      intro r hr
      obtain ⟨t, ⟨h1, h2⟩, -⟩ := (common r).1 hr
      rcases h1 with h1 | h1 <;> rcases h2 with h2 | h2 <;> linarith [h1.1, h1.2, h2.1, h2.2]
    · -- a left, b inside
      simp only [F iSa (by intro h; linarith [h.1]), T iSb ⟨q.le, q'.le⟩,
        T iO0 (Or.inl ⟨p.le, q.le⟩), F iO1 (by rintro (h | h) <;> linarith [h.1, h.2]),
        ht', hl', Bool.or_false, Bool.or_true, Bool.not_true, Bool.and_true, Bool.and_false, if_true,
        Bool.false_eq_true, if_false, List.filter_cons, List.filter_nil, List.nil_append, List.cons_append]
      refine ⟨_, rfl, ?_⟩
      have := pair b 0 b0 (by
        intro t
        constructor
        · rintro ⟨h1 | h1, h2 | h2⟩ <;> first | (right; constructor <;> linarith [h1.1, h1.2, h2.1, h2.2]) | skip
        · rintro (h | h)
          · exfalso; linarith [h.1, h.2]
          · exact ⟨Or.inl ⟨by linarith [h.1], by linarith [h.2]⟩, Or.inl ⟨by linarith [h.1], by linarith [h.2]⟩⟩)
      rwa [lerp_zero] at this
    · -- a left, b right
      simp only [F iSa (by intro h; linarith [h.1]), F iSb (by intro h; linarith [h.2]),
        T iO0 (Or.inl ⟨p.le, by linarith⟩), T iO1 (Or.inl ⟨by linarith, q.le⟩),
        ht', hl', Bool.or_false, Bool.or_true, Bool.not_true, Bool.and_true, Bool.and_false, if_true,
        Bool.false_eq_true, if_false]
      refine ⟨_, rfl, Or.inr (Or.inr ⟨_, u, v, rfl, rfl, hs, ?_⟩)⟩
      intro r
      constructor
      · exact fun h => h.1
      · intro h
        refine ⟨h, ?_⟩
        obtain ⟨t, ht, rfl⟩ := (onS r).1 h
        refine (onO _).2 ⟨t, ?_, rfl⟩
        rcases ht with ht | ht <;> left <;> constructor <;> linarith [ht.1, ht.2]
    · -- a inside, b left
      simp only [T iSa ⟨p.le, p'.le⟩, F iSb (by intro h; linarith [h.1]),
        T iO0 (Or.inr ⟨q.le, p.le⟩), F iO1 (by rintro (h | h) <;> linarith [h.1, h.2]),
        ht', hl', Bool.or_false, Bool.true_or, Bool.not_true, Bool.and_true, Bool.and_false, if_true,
        Bool.false_eq_true, if_false, List.filter_cons, List.filter_nil, List.nil_append, List.cons_append]
      refine ⟨_, rfl, ?_⟩
      have := pair a 0 a0 (by
        intro t
        constructor
        · rintro ⟨h1 | h1, h2 | h2⟩ <;> first | (right; constructor <;> linarith [h1.1, h1.2, h2.1, h2.2]) | skip
        · rintro (h | h)
          · exfalso; linarith [h.1, h.2]
          · exact ⟨Or.inl ⟨by linarith [h.1], by linarith [h.2]⟩, Or.inr ⟨by linarith [h.1], by linarith [h.2]⟩⟩)
      rwa [lerp_zero] at this
    · -- both inside
      simp only [T iSa ⟨p.le, p'.le⟩, T iSb ⟨q.le, q'.le⟩,
        ht', hl', Bool.or_true, Bool.not_true, Bool.and_true, Bool.false_and, if_true,
        Bool.false_eq_true, if_false]
      refine ⟨_, rfl, Or.inr (Or.inr ⟨_, _, _, rfl, rfl, ho, ?_⟩)⟩
      intro r
      constructor
      · exact fun h => h.2
      · intro h
        refine ⟨?_, h⟩
        obtain ⟨t, ht, rfl⟩ := (onO r).1 h
        refine (onS _).2 ⟨t, ?_, rfl⟩
        rcases ht with ht | ht <;> left <;> constructor <;> linarith [ht.1, ht.2]
    · -- a inside, b right
      simp only [T iSa ⟨p.le, p'.le⟩, F iSb (by intro h; linarith [h.2]),
        F iO0 (by rintro (h | h) <;> linarith [h.1, h.2]), T iO1 (Or.inl ⟨p'.le, q.le⟩),
        ht', hl', Bool.or_false, Bool.true_or, Bool.or_true, Bool.not_true, Bool.and_true, Bool.and_false, if_true,
        Bool.false_eq_true, if_false, List.filter_cons, List.filter_nil, List.nil_append, List.cons_append]
      refine ⟨_, rfl, ?_⟩
      have := pair a 1 a1 (by
        intro t
        constructor
        · rintro ⟨h1 | h1, h2 | h2⟩ <;> first | (left; constructor <;> linarith [h1.1, h1.2, h2.1, h2.2]) | skip
        · rintro (h | h)
          · exact ⟨Or.inl ⟨by linarith [h.1], by linarith [h.2]⟩, Or.inl ⟨by linarith [h.1], by linarith [h.2]⟩⟩
          · exfalso; linarith [h.1, h.2])
      rwa [lerp_one] at this
    · -- a right, b left
      simp only [F iSa (by intro h; linarith [h.2]), F iSb (by intro h; linarith [h.1]),
        T iO0 (Or.inr ⟨q.le, by linarith⟩), T iO1 (Or.inr ⟨by linarith, p.le⟩),
        ht', hl', Bool.or_false, Bool.or_true, Bool.not_true, Bool.and_true, Bool.and_false, if_true,
        Bool.false_eq_true, if_false]
      refine ⟨_, rfl, Or.inr (Or.inr ⟨_, u, v, rfl, rfl, hs, ?_⟩)⟩
      intro r
      constructor
      · exact fun h => h.1
      · intro h
        refine ⟨h, ?_⟩
        obtain ⟨t, ht, rfl⟩ := (onS r).1 h
        refine (onO _).2 ⟨t, ?_, rfl⟩
        rcases ht with ht | ht <;> right <;> constructor <;> linarith [ht.1, ht.2]
    · -- a right, b inside
      simp only [F iSa (by intro h; linarith [h.2]), T iSb ⟨q.le, q'.le⟩,
        F iO0 (by rintro (h | h) <;> linarith [h.1, h.2]), T iO1 (Or.inr ⟨q'.le, p.le⟩),
        ht', hl', Bool.or_false, Bool.true_or, Bool.or_true, Bool.not_true, Bool.and_true, Bool.and_false, if_true,
        Bool.false_eq_true, if_false, List.filter_cons, List.filter_nil, List.nil_append, List.cons_append]
      refine ⟨_, rfl, ?_⟩
      have := pair b 1 b1 (by
        intro t
        constructor
        · rintro ⟨h1 | h1, h2 | h2⟩ <;> first | (left; constructor <;> linarith [h1.1, h1.2, h2.1, h2.2]) | skip
        · rintro (h | h)
          · exact ⟨Or.inl ⟨by linarith [h.1], by linarith [h.2]⟩, Or.inr ⟨by linarith [h.1], by linarith [h.2]⟩⟩
          · exfalso; linarith [h.1, h.2])
      rwa [lerp_one] at this
    · -- both right
      simp only [F iSa (by intro h; linarith [h.2]), F iSb (by intro h; linarith [h.2]),
        F iO0 (by rintro (h | h) <;> linarith [h.1, h.2]), F iO1 (by rintro (h | h) <;> linarith [h.1, h.2]),
        ht', Bool.or_false, Bool.not_false, Bool.and_true, if_true]
      refine ⟨_, rfl, Or.inl ⟨rfl, ?_⟩⟩
      intro r hr
      obtain ⟨t, ⟨h1, h2⟩, -⟩ := (common r).1 hr
      rcases h1 with h1 | h1 <;> rcases h2 with h2 | h2 <;> linarith [h1.1, h1.2, h2.1, h2.2]

/-- C18: segments that are not parallel yield (False, None) (any arithmetic); parallel segments that are not
collinear in the sense of the code yield (False, None) and have no common point. -/
theorem C18_not_collinear {R : Rt K} (hE : R.IsExact) (s o : Seg K) :
    (R.isParallel s o = false → R.overlap s o = .ok (false, none)) ∧
    (R.isParallel s o = true → R.isCollinear s o = false → s.i ≠ s.j →
      R.overlap s o = .ok (false, none) ∧ ∀ q, ¬ (OnSeg s q ∧ OnSeg o q)) := by
  constructor
  · intro h; simp [Rt.overlap, h]
  · intro h1 h2 hs
    refine ⟨by simp [Rt.overlap, h1, h2], ?_⟩
    rintro q ⟨⟨t, -, -, rfl⟩, ⟨t', -, -, e⟩⟩
    have : R.isCollinear s o = true := by
      rw [hE.isParallel_iff] at h1
      simp only [lerp, Pt.mk.injEq] at e
      unfold Rt.isCollinear
      have key : ∀ w : K, det3 s.i s.j (lerp o.i o.j w) = 0 := by
        intro w
        unfold det3
        simp only [lerp]
        linear_combination (w - t') * h1 + (s.j.x - s.i.x) * (-e.2) + (s.j.y - s.i.y) * e.1
      have a := key 0
      have b := key 1
      rw [lerp_zero] at a
      rw [lerp_one] at b
      rw [C15_complete hE s _ ((det3_eq_zero_iff hs _).1 a), C15_complete hE s _ ((det3_eq_zero_iff hs _).1 b)]
      rfl
    rw [this] at h2; simp at h2

/-- the hypotheses of C18 are satisfiable: (0,0)-(4,2) and (2,1)-(8,4) -/
example : ∃ r, exReal.overlap ⟨⟨0, 0⟩, ⟨4, 2⟩, .line⟩ ⟨⟨2, 1⟩, ⟨8, 4⟩, .wall⟩ = .ok r ∧
    OverlapSpec ⟨⟨0, 0⟩, ⟨4, 2⟩, .line⟩ ⟨⟨2, 1⟩, ⟨8, 4⟩, .wall⟩ r := by
  have g : ∀ n : ℤ, Grid (n : ℝ) := grid_intCast
  have g0 : Grid (0 : ℝ) := grid_zero
  have g1 : Grid (1 : ℝ) := by exact_mod_cast g 1
  have g2 : Grid (2 : ℝ) := by exact_mod_cast g 2
  have g4 : Grid (4 : ℝ) := by exact_mod_cast g 4
  have g8 : Grid (8 : ℝ) := by exact_mod_cast g 8
  apply C18_collinear exReal_isExact (Rt.real_isExactDir _)
  · simp
  · simp
  · simp only [exReal_isExact.stored_iff]; exact ⟨⟨g0, g0⟩, ⟨g4, g2⟩, ⟨g2, g1⟩, ⟨g8, g4⟩⟩
  · intro p hp q hq hne
    simp only [Set.mem_insert_iff, Set.mem_singleton_iff] at hp hq
    rcases hp with rfl | rfl | rfl | rfl <;> rcases hq with rfl | rfl | rfl | rfl <;>
      first | exact absurd rfl hne | (left; norm_num)
  · exact ⟨1 / 2, by simp [lerp]; norm_num⟩
  · exact ⟨2, by simp [lerp]; norm_num⟩
  · right; simp

end Srep
