import Verif.Props.Region
import Mathlib.Data.List.ProdSigma
import Mathlib.Data.List.Perm.Subperm

/-!
# How many random targets of `is_internal_point` are in general position (C123)

The theorems on `is_internal_point` ask for targets in general position (`GoodTarget`, `Spread`).  Here: almost all targets are.
-/

set_option linter.unusedSectionVars false

namespace Srep
open Rt
variable {K : Type} [Field K] [LinearOrder K] [IsStrictOrderedRing K] [FloorRing K] {R : Rt K}

/-- `p` is at least `e` away from all sides, in some coordinate -/
def AwayFrom (e : K) (l : List (Seg K)) (p : Pt K) : Prop :=
  ∀ s ∈ l, ∀ Z, OnSeg s Z → e ≤ |Z.x - p.x| ∨ e ≤ |Z.y - p.y|

theorem far_end {a b p t : Pt K} {w : K} (hw : w < 0) (hS : 0 < t.x - p.x) (hm : |t.y - p.y| ≤ t.x - p.x)
    (h0 : det3 p t (lerp a b w) = 0) (hd : 5 / 10 ^ 8 * (t.x - p.x) ≤ |det3 p t a|) : FarFromBox a b (lerp a b w) := by
  have e : det3 p t a = -w * ((t.x - p.x) * (b.y - a.y) - (t.y - p.y) * (b.x - a.x)) := by
    unfold det3 lerp at *
    dsimp only at h0
    linear_combination h0
  have h1 : |(t.x - p.x) * (b.y - a.y) - (t.y - p.y) * (b.x - a.x)| ≤ (t.x - p.x) * (|b.y - a.y| + |b.x - a.x|) := by
    refine le_trans (abs_sub _ _) ?_
    rw [abs_mul, abs_mul, abs_of_pos hS, mul_add]
    exact add_le_add_right (mul_le_mul_of_nonneg_right hm (abs_nonneg _)) _
  have h2 : (t.x - p.x) * (5 / 10 ^ 8) ≤ (t.x - p.x) * (-w * (|b.y - a.y| + |b.x - a.x|)) := by
    rw [e, abs_mul, abs_of_pos (by linarith : 0 < -w)] at hd
    have := mul_le_mul_of_nonneg_left h1 (by linarith : 0 ≤ -w)
    linarith
  have h3 := le_of_mul_le_mul_left h2 hS
  have hk : (2 : K) / 10 ^ 8 < 5 / 10 ^ 8 / 2 := by norm_num
  have hor : 5 / 10 ^ 8 / 2 ≤ -w * |b.x - a.x| ∨ 5 / 10 ^ 8 / 2 ≤ -w * |b.y - a.y| := by
    by_contra hc
    rw [not_or, not_le, not_le] at hc
    linarith [hc.1, hc.2]
  unfold FarFromBox lerp
  dsimp only
  rcases hor with h | h
  · rcases le_total 0 (b.x - a.x) with hx | hx
    · left
      rw [abs_of_nonneg hx] at h
      rw [min_eq_left (by linarith)]
      linarith
    · right; left
      rw [abs_of_nonpos hx] at h
      rw [max_eq_left (by linarith)]
      linarith
  · rcases le_total 0 (b.y - a.y) with hx | hx
    · right; right; left
      rw [abs_of_nonneg hx] at h
      rw [min_eq_left (by linarith)]
      linarith
    · right; right; right
      rw [abs_of_nonpos hx] at h
      rw [max_eq_left (by linarith)]
      linarith

/-- a target to the right, in a direction that is not steeper than 45 degrees and passes no vertex in a distance of less than
about 5e-8 -/
theorem goodTarget_of_sight {l : List (Seg K)} {p t : Pt K} (h0 : AwayFrom (3 / 10 ^ 8) l p) (hS : p.x < t.x)
    (hb : ∀ s ∈ l, s.i.x < t.x ∧ s.j.x < t.x) (hm : |t.y - p.y| ≤ t.x - p.x)
    (hv : ∀ s ∈ l, 5 / 10 ^ 8 * (t.x - p.x) ≤ |det3 p t s.i| ∧ 5 / 10 ^ 8 * (t.x - p.x) ≤ |det3 p t s.j|) : GoodTarget l p t := by
  have hS' : 0 < t.x - p.x := sub_pos.2 hS
  have hpos : 0 < 5 / 10 ^ 8 * (t.x - p.x) := by positivity
  refine ⟨hS, hb, fun s hs => ?_, fun s hs => ?_⟩
  · exact ⟨abs_pos.1 (lt_of_lt_of_le hpos (hv s hs).1), abs_pos.1 (lt_of_lt_of_le hpos (hv s hs).2)⟩
  · rintro X ⟨u, rfl⟩ ⟨w, e⟩
    have hdet : det3 p t (lerp s.i s.j w) = 0 := by
      rw [← e]; unfold det3 lerp; dsimp only; ring
    rcases lt_or_ge w 0 with hw | hw
    · right; right
      rw [e]
      exact far_end hw hS' hm hdet (hv s hs).1
    rcases lt_or_ge 1 w with hw1 | hw1
    · right; right
      have e2 : lerp s.i s.j w = lerp s.j s.i (1 - w) := by
        unfold lerp; congr 1 <;> ring
      rw [e, e2]
      have := far_end (a := s.j) (b := s.i) (w := 1 - w) (by linarith) hS' hm (e2 ▸ hdet) (hv s hs).2
      unfold FarFromBox at this ⊢
      rwa [min_comm, max_comm, min_comm s.i.y, max_comm s.i.y]
    have hon : OnSeg s (lerp p t u) := ⟨w, hw, hw1, e⟩
    rcases lt_or_ge u 0 with hu | hu
    · right; left; left
      rw [min_eq_left hS.le]
      have hk : (2 : K) / 10 ^ 8 < 3 / 10 ^ 8 := by norm_num
      have key : 3 / 10 ^ 8 ≤ -u * (t.x - p.x) := by
        rcases h0 s hs _ hon with h | h
        · unfold lerp at h
          dsimp only at h
          rw [add_sub_cancel_left, abs_mul, abs_of_neg hu, abs_of_pos hS'] at h
          exact h
        · unfold lerp at h
          dsimp only at h
          rw [add_sub_cancel_left, abs_mul, abs_of_neg hu] at h
          exact le_trans h (mul_le_mul_of_nonneg_left hm (by linarith))
      unfold lerp
      dsimp only
      linarith
    · left
      refine ⟨⟨u, hu, ?_, rfl⟩, hon⟩
      by_contra hc
      rw [not_le] at hc
      have hx : t.x < (lerp s.i s.j w).x := by
        rw [← e]
        unfold lerp
        dsimp only
        have := mul_lt_mul_of_pos_right hc hS'
        linarith
      obtain ⟨b1, b2⟩ := hb s hs
      have h1 := mul_nonneg (by linarith : 0 ≤ 1 - w) (sub_nonneg.2 b1.le)
      have h2 := mul_nonneg hw (sub_nonneg.2 b2.le)
      unfold lerp at hx
      dsimp only at hx
      linarith

/-- the ordinate `v` at the abscissa `u` makes a target near the line of sight through the vertex `q` -/
def Touches (p : Pt K) (u v : K) (q : Pt K) : Prop := |det3 p ⟨u, v⟩ q| < 5 / 10 ^ 8 * (u - p.x)

/-- the vertex is not above or below the point -/
theorem Touches.steep {p q : Pt K} {u v a : K} (ha : 1 / 10 ^ 7 ≤ a) (hq : a ≤ |q.x - p.x| ∨ a ≤ |q.y - p.y|) (hS : p.x < u)
    (hv : |v - p.y| ≤ (u - p.x) / 2) (h : Touches p u v q) : a ≤ |q.x - p.x| := by
  have hS' : 0 < u - p.x := sub_pos.2 hS
  unfold Touches det3 at h
  dsimp only at h
  by_contra hx
  have hy := hq.resolve_left hx
  rw [not_le] at hx
  have h1 : |(v - p.y) * (q.x - p.x)| ≤ (u - p.x) / 2 * a := by
    rw [abs_mul]
    exact mul_le_mul hv hx.le (abs_nonneg _) (by linarith)
  have h2 : (u - p.x) * a ≤ |(u - p.x) * (q.y - p.y)| := by
    rw [abs_mul, abs_of_pos hS']
    exact mul_le_mul_of_nonneg_left hy hS'.le
  have h3 := abs_sub_abs_le_abs_sub ((u - p.x) * (q.y - p.y)) ((v - p.y) * (q.x - p.x))
  have h4 := mul_le_mul_of_nonneg_left ha hS'.le
  have e5 : (5 : K) / 10 ^ 8 * (u - p.x) = (u - p.x) * (1 / 10 ^ 7) / 2 := by ring
  rw [e5] at h
  linarith

/-- C123: at an abscissa `u` to the right of the vertices `N`, in a range of ordinates that is not steep seen from `p`, the targets that
are not in general position are near to the lines from `p` through the vertices: nearer than 5e-8 (u - p.x)/a, for `a` the distance of `p`
from the vertices. -/
theorem C123_cover (l : List (Seg K)) (N : List (Pt K)) (p : Pt K) (a u v : K) (ha : 1 / 10 ^ 5 ≤ a) (hN : ∀ s ∈ l, s.i ∈ N ∧ s.j ∈ N)
    (hu : ∀ q ∈ N, q.x + 1 / 10 ^ 5 ≤ u) (hp : p.x + 1 / 10 ^ 5 ≤ u) (hoff : AwayFrom (3 / 10 ^ 8) l p)
    (hap : Apart a {q | q = p ∨ q ∈ N}) (hpN : p ∉ N) (hr : |v - p.y| ≤ (u - p.x) / 2)
    (hbad : ¬ (GoodTarget l p ⟨u, v⟩ ∧ Spread l p ⟨u, v⟩)) :
    ∃ q ∈ N, a ≤ |q.x - p.x| ∧ |v - (p.y + (u - p.x) * (q.y - p.y) / (q.x - p.x))| * a < 5 / 10 ^ 8 * (u - p.x) := by
  have e5 : (0 : K) < 1 / 10 ^ 5 := by positivity
  have ha0 : 0 < a := lt_of_lt_of_le e5 ha
  have hpu : p.x < u := by linarith
  have hS' : 0 < u - p.x := sub_pos.2 hpu
  obtain ⟨q, hq, ht⟩ : ∃ q ∈ N, Touches p u v q := by
    by_contra hc
    push Not at hc
    refine hbad ⟨goodTarget_of_sight hoff hpu (fun s hs => ?_) ?_ fun s hs => ?_, ?_⟩
    · dsimp only
      constructor
      · linarith [hu _ (hN s hs).1]
      · linarith [hu _ (hN s hs).2]
    · dsimp only
      linarith
    · have t1 := hc s.i (hN s hs).1
      have t2 := hc s.j (hN s hs).2
      unfold Touches at t1 t2
      exact ⟨not_lt.1 t1, not_lt.1 t2⟩
    · have hin : ∀ q, (q = p ∨ q = (⟨u, v⟩ : Pt K) ∨ ∃ s ∈ l, q = s.i ∨ q = s.j) → q = ⟨u, v⟩ ∨ (q = p ∨ q ∈ N) := by
        rintro q (rfl | rfl | ⟨s, hs, rfl | rfl⟩)
        · exact Or.inr (Or.inl rfl)
        · exact Or.inl rfl
        · exact Or.inr (Or.inr (hN s hs).1)
        · exact Or.inr (Or.inr (hN s hs).2)
      have hux : ∀ q, (q = p ∨ q ∈ N) → q.x + 1 / 10 ^ 5 ≤ u := by
        rintro q (rfl | hq)
        · exact hp
        · exact hu q hq
      intro q hq q' hq' hne
      rcases hin q hq with rfl | g <;> rcases hin q' hq' with rfl | g'
      · exact absurd rfl hne
      · left
        rw [le_abs]; left
        have := hux q' g'
        dsimp only
        linarith
      · left
        rw [le_abs]; right
        have := hux q g
        dsimp only
        linarith
      · rcases hap q g q' g' hne with h | h
        · exact Or.inl (le_trans ha h)
        · exact Or.inr (le_trans ha h)
  have hne : q ≠ p := fun e => hpN (e ▸ hq)
  have hx := ht.steep (le_trans (by norm_num) ha) (hap _ (Or.inr hq) _ (Or.inl rfl) hne) hpu hr
  refine ⟨q, hq, hx, ?_⟩
  have hdx : q.x - p.x ≠ 0 := by
    intro e
    rw [e, abs_zero] at hx
    linarith
  unfold Touches det3 at ht
  dsimp only at ht
  have e : (v - (p.y + (u - p.x) * (q.y - p.y) / (q.x - p.x))) * (q.x - p.x) =
      -((u - p.x) * (q.y - p.y) - (v - p.y) * (q.x - p.x)) := by
    field_simp
    ring
  have h1 : |v - (p.y + (u - p.x) * (q.y - p.y) / (q.x - p.x))| * |q.x - p.x| < 5 / 10 ^ 8 * (u - p.x) := by
    rw [← abs_mul, e, abs_neg]
    exact ht
  exact lt_of_le_of_lt (mul_le_mul_of_nonneg_left hx (abs_nonneg _)) h1

/-- C123: let the points of `P` be away from the sides and from the vertices of a polygon with the vertices `N`, and `u` an abscissa to
the right of all of them.  Among any ordinates, in a range that is not steep seen from the points, with distances of at least
1e-7 (u - p.x)/a, the targets at no more than one per point and vertex are not in general position. -/
theorem C123_few (l : List (Seg K)) (N P : List (Pt K)) (a u : K) (ha : 1 / 10 ^ 5 ≤ a) (hN : ∀ s ∈ l, s.i ∈ N ∧ s.j ∈ N)
    (hu : ∀ q ∈ N, q.x + 1 / 10 ^ 5 ≤ u)
    (hP : ∀ p ∈ P, AwayFrom (3 / 10 ^ 8) l p ∧ Apart a {q | q = p ∨ q ∈ N} ∧ p ∉ N ∧ p.x + 1 / 10 ^ 5 ≤ u)
    (V : List K) (D : K) (hD : ∀ p ∈ P, 1 / 10 ^ 7 * (u - p.x) ≤ D * a) (hV : V.Pairwise fun v v' => D ≤ |v - v'|)
    (hr : ∀ p ∈ P, ∀ v ∈ V, |v - p.y| ≤ (u - p.x) / 2) (bad : K → Bool)
    (hbad : ∀ v, bad v = true → ¬ ∀ p ∈ P, GoodTarget l p ⟨u, v⟩ ∧ Spread l p ⟨u, v⟩) :
    (V.filter bad).length ≤ P.length * N.length := by
  classical
  have ha0 : 0 < a := lt_of_lt_of_le (by positivity) ha
  have hT : ∀ v ∈ V.filter bad, ∃ x : Pt K × Pt K, x ∈ P.product N ∧
      |v - (x.1.y + (u - x.1.x) * (x.2.y - x.1.y) / (x.2.x - x.1.x))| * a < 5 / 10 ^ 8 * (u - x.1.x) := by
    intro v hv
    obtain ⟨hvV, hvb⟩ := List.mem_filter.1 hv
    have := hbad v hvb
    push Not at this
    obtain ⟨p, hp, hb⟩ := this
    obtain ⟨h1, h2, h3, h4⟩ := hP p hp
    obtain ⟨q, hq, -, h⟩ := C123_cover l N p a u v ha hN hu h4 h1 h2 h3 (hr p hp v hvV) (fun h => hb h.1 h.2)
    exact ⟨(p, q), List.mem_product.2 ⟨hp, hq⟩, h⟩
  haveI : Nonempty (Pt K × Pt K) := ⟨(⟨0, 0⟩, ⟨0, 0⟩)⟩
  choose! f hf using hT
  have hnd : ((V.filter bad).map f).Nodup := by
    rw [List.Nodup, List.pairwise_map]
    refine List.Pairwise.imp_of_mem ?_ (hV.filter bad)
    intro v v' hv hv' hd e
    obtain ⟨hx, ht⟩ := hf v hv
    obtain ⟨hx', ht'⟩ := hf v' hv'
    rw [← e] at ht'
    obtain ⟨hp, hq⟩ := List.mem_product.1 hx
    have h5 := hD _ hp
    have h6 := mul_le_mul_of_nonneg_right hd ha0.le
    generalize (f v).1.y + (u - (f v).1.x) * ((f v).2.y - (f v).1.y) / ((f v).2.x - (f v).1.x) = c at ht ht'
    have h7 : |v - v'| ≤ |v - c| + |v' - c| := by
      have e : v - v' = (v - c) - (v' - c) := by ring
      rw [e]
      exact abs_sub _ _
    have h8 := mul_le_mul_of_nonneg_right h7 ha0.le
    have e9 : (1 : K) / 10 ^ 7 * (u - (f v).1.x) = 5 / 10 ^ 8 * (u - (f v).1.x) + 5 / 10 ^ 8 * (u - (f v).1.x) := by ring
    rw [add_mul] at h8
    linarith
  have hsub : (V.filter bad).map f ⊆ P.product N := by
    intro x hx
    obtain ⟨v, hv, rfl⟩ := List.mem_map.1 hx
    exact (hf v hv).1
  have := (hnd.subperm hsub).length_le
  rw [List.length_map] at this
  refine le_trans this (le_of_eq ?_)
  exact List.length_product ..

theorem boundingBox_upper (l : List (Seg K)) : ∀ s ∈ l, (s.i.x ≤ (boundingBox l).1.2 ∧ s.j.x ≤ (boundingBox l).1.2) ∧
    s.i.y ≤ (boundingBox l).2.2 ∧ s.j.y ≤ (boundingBox l).2.2 := by
  unfold boundingBox
  generalize (((10 ^ 11, -10 ^ 11), (10 ^ 11, -10 ^ 11)) : (K × K) × (K × K)) = b
  have mono : ∀ (l : List (Seg K)) (b : (K × K) × (K × K)),
      b.1.2 ≤ (l.foldl (fun b s => ((min b.1.1 (min s.i.x s.j.x), max b.1.2 (max s.i.x s.j.x)),
        (min b.2.1 (min s.i.y s.j.y), max b.2.2 (max s.i.y s.j.y)))) b).1.2 ∧
      b.2.2 ≤ (l.foldl (fun b s => ((min b.1.1 (min s.i.x s.j.x), max b.1.2 (max s.i.x s.j.x)),
        (min b.2.1 (min s.i.y s.j.y), max b.2.2 (max s.i.y s.j.y)))) b).2.2 := by
    intro l
    induction l with
    | nil => exact fun b => ⟨le_refl _, le_refl _⟩
    | cons s l ih =>
      intro b
      rw [List.foldl_cons]
      obtain ⟨h1, h2⟩ := ih ((min b.1.1 (min s.i.x s.j.x), max b.1.2 (max s.i.x s.j.x)),
        (min b.2.1 (min s.i.y s.j.y), max b.2.2 (max s.i.y s.j.y)))
      exact ⟨le_trans (le_max_left _ _) h1, le_trans (le_max_left _ _) h2⟩
  induction l generalizing b with
  | nil => intro s hs; cases hs
  | cons s l ih =>
    intro o ho
    rw [List.foldl_cons]
    rcases List.mem_cons.1 ho with rfl | ho
    · obtain ⟨h1, h2⟩ := mono l ((min b.1.1 (min o.i.x o.j.x), max b.1.2 (max o.i.x o.j.x)),
        (min b.2.1 (min o.i.y o.j.y), max b.2.2 (max o.i.y o.j.y)))
      dsimp only at h1 h2
      exact ⟨⟨le_trans (le_trans (le_max_left _ _) (le_max_right _ _)) h1, le_trans (le_trans (le_max_right _ _) (le_max_right _ _)) h1⟩,
        le_trans (le_trans (le_max_left _ _) (le_max_right _ _)) h2, le_trans (le_trans (le_max_right _ _) (le_max_right _ _)) h2⟩
    · exact ih _ o ho

/-- C123: for a polygon with positive upper bounds, not too far to the left, and points that are away from its sides and vertices,
there is a possible random target that is in general position seen from all the points. -/
theorem C123_exists (hE : R.IsExact) (l : List (Seg K)) (N P : List (Pt K)) (a M : K) (ha : 1 / 10 ^ 5 ≤ a) (haM : a ≤ M)
    (hN : ∀ s ∈ l, s.i ∈ N ∧ s.j ∈ N) (hN' : ∀ q ∈ N, ∃ s ∈ l, q = s.i ∨ q = s.j)
    (hP : ∀ p ∈ P, AwayFrom (3 / 10 ^ 8) l p ∧ Apart a {q | q = p ∨ q ∈ N} ∧ p ∉ N ∧ |p.x| ≤ M ∧ |p.y| ≤ M)
    (hX : 0 < (boundingBox l).1.2) (hXM : (boundingBox l).1.2 ≤ M) (hMX : 8 * M ≤ 500 * (boundingBox l).1.2)
    (hY : 0 < (boundingBox l).2.2) (hYM : (boundingBox l).2.2 ≤ M)
    (hroom : (P.length * N.length : ℕ) * (M / 10 ^ 6) ≤ a * (boundingBox l).2.2) :
    ∃ t, R.Target l t ∧ ∀ p ∈ P, GoodTarget l p t ∧ Spread l p t := by
  classical
  set X := (boundingBox l).1.2 with hXd
  set Y := (boundingBox l).2.2 with hYd
  have ha0 : 0 < a := lt_of_lt_of_le (by positivity) ha
  have hM0 : 0 < M := lt_of_lt_of_le ha0 haM
  have hM5 : 1 / 10 ^ 5 ≤ M := le_trans ha haM
  set n := P.length * N.length with hn
  set D := M / 10 ^ 6 / a with hDd
  have hDa : D * a = M / 10 ^ 6 := by rw [hDd]; field_simp
  have hD6 : 1 / 10 ^ 6 ≤ D := by
    rw [hDd, le_div_iff₀ ha0]
    have := mul_le_mul_of_nonneg_left haM (by positivity : (0 : K) ≤ 1 / 10 ^ 6)
    linarith
  have hD0 : 0 < D := lt_of_lt_of_le (by positivity) hD6
  have hnD : (n : K) * D ≤ Y := by
    have : (n : K) * D * a ≤ Y * a := by
      rw [mul_assoc, hDa, mul_comm Y]; exact hroom
    exact le_of_mul_le_mul_right this ha0
  have hU := abs_le.1 (abs_rhe8_sub_le (8 * M))
  set u := rhe8 (8 * M) with hu
  have h5e : (1 : K) / (2 * 10 ^ 8) ≤ M / 1000 := by
    have : (1 : K) / (2 * 10 ^ 8) ≤ 1 / 10 ^ 5 / 1000 := by norm_num
    linarith
  have hv5 : ∀ v : K, |rhe8 v - v| ≤ M / 1000 := fun v => le_trans (abs_rhe8_sub_le v) h5e
  let V : List K := (List.range (n + 1)).map fun k : ℕ => rhe8 (Y + k * D)
  have hVY : ∀ v ∈ V, ∃ k : ℕ, k ≤ n ∧ v = rhe8 (Y + k * D) := by
    intro v hv
    obtain ⟨k, hk, rfl⟩ := List.mem_map.1 hv
    exact ⟨k, by have := List.mem_range.1 hk; omega, rfl⟩
  have hkD : ∀ k : ℕ, k ≤ n → 0 ≤ (k : K) * D ∧ (k : K) * D ≤ Y := by
    intro k hk
    refine ⟨by positivity, le_trans ?_ hnD⟩
    have : (k : K) ≤ n := by exact_mod_cast hk
    exact mul_le_mul_of_nonneg_right this hD0.le
  have hNM : ∀ q ∈ N, q.x ≤ X := by
    intro q hq
    obtain ⟨s, hs, rfl | rfl⟩ := hN' q hq
    · exact (boundingBox_upper l s hs).1.1
    · exact (boundingBox_upper l s hs).1.2
  have hfew := C123_few l N P a u ha hN
    (by
      intro q hq
      have := hNM q hq
      linarith [hU.1])
    (by
      intro p hp
      obtain ⟨h1, h2, h3, h4, h5⟩ := hP p hp
      refine ⟨h1, h2, h3, ?_⟩
      have := (abs_le.1 h4).2
      linarith [hU.1])
    V (D - 1 / 10 ^ 8)
    (by
      intro p hp
      obtain ⟨h1, h2, h3, h4, h5⟩ := hP p hp
      have := (abs_le.1 h4).1
      rw [sub_mul, hDa]
      have h6 : u - p.x ≤ M * (901 / 100) := by linarith [hU.2]
      have h7 := mul_le_mul_of_nonneg_left h6 (by positivity : (0 : K) ≤ 1 / 10 ^ 7)
      have h8 := mul_le_mul_of_nonneg_left haM (by positivity : (0 : K) ≤ 1 / 10 ^ 8)
      norm_num at h7 h8 ⊢
      linarith)
    (by
      rw [List.pairwise_map]
      refine List.Pairwise.imp ?_ List.pairwise_lt_range
      intro i j hij
      have h1 := abs_le.1 (abs_rhe8_sub_le (Y + (i : K) * D))
      have h2 := abs_le.1 (abs_rhe8_sub_le (Y + (j : K) * D))
      have h3 : (i : K) + 1 ≤ j := by exact_mod_cast hij
      have h4 := mul_le_mul_of_nonneg_right h3 hD0.le
      rw [le_abs]; right
      norm_num at h1 h2 ⊢
      linarith [h1.2, h2.1])
    (by
      intro p hp v hv
      obtain ⟨h1, h2, h3, h4, h5⟩ := hP p hp
      obtain ⟨k, hk, rfl⟩ := hVY v hv
      obtain ⟨k1, k2⟩ := hkD k hk
      have h6 := abs_le.1 (hv5 (Y + (k : K) * D))
      have h7 := abs_le.1 h4
      have h8 := abs_le.1 h5
      rw [abs_le]
      constructor <;> linarith [h6.1, h6.2, h7.1, h7.2, h8.1, h8.2, hU.1, hU.2])
    (fun v => decide (¬ ∀ p ∈ P, GoodTarget l p ⟨u, v⟩ ∧ Spread l p ⟨u, v⟩)) (fun v h => of_decide_eq_true h)
  have hex : ∃ v ∈ V, ∀ p ∈ P, GoodTarget l p ⟨u, v⟩ ∧ Spread l p ⟨u, v⟩ := by
    by_contra hc
    push Not at hc
    have hall : V.filter (fun v => decide (¬ ∀ p ∈ P, GoodTarget l p ⟨u, v⟩ ∧ Spread l p ⟨u, v⟩)) = V := by
      rw [List.filter_eq_self]
      intro v hv
      rw [decide_eq_true_eq]
      intro h
      obtain ⟨p, hp, h'⟩ := hc v hv
      exact h' (h p hp).1 (h p hp).2
    rw [hall] at hfew
    have : V.length = n + 1 := by simp [V]
    omega
  obtain ⟨v, hv, hgood⟩ := hex
  obtain ⟨k, hk, rfl⟩ := hVY v hv
  obtain ⟨k1, k2⟩ := hkD k hk
  refine ⟨⟨u, rhe8 (Y + k * D)⟩, (C85_targets hE l hX hY _).2 ⟨8 * M, Y + k * D, ?_, hMX, ?_, ?_, rfl⟩, hgood⟩
  · linarith
  · linarith
  · linarith

/-- C123: … and for random targets chosen so, `is_internal_point` ends in the first round, for all the points, with the parity of the number of
sides that a ray in any direction passes. -/
theorem C123_decided (hE : R.IsExact) (l : List (Seg K)) (hc : ClosedChain l) (hnd : NoDouble l) (N P : List (Pt K)) (a M : K)
    (ha : 1 / 10 ^ 5 ≤ a) (haM : a ≤ M) (hN : ∀ s ∈ l, s.i ∈ N ∧ s.j ∈ N) (hN' : ∀ q ∈ N, ∃ s ∈ l, q = s.i ∨ q = s.j)
    (hP : ∀ p ∈ P, AwayFrom (3 / 10 ^ 8) l p ∧ Apart a {q | q = p ∨ q ∈ N} ∧ p ∉ N ∧ |p.x| ≤ M ∧ |p.y| ≤ M)
    (hX : 0 < (boundingBox l).1.2) (hXM : (boundingBox l).1.2 ≤ M) (hMX : 8 * M ≤ 500 * (boundingBox l).1.2)
    (hY : 0 < (boundingBox l).2.2) (hYM : (boundingBox l).2.2 ≤ M)
    (hroom : (P.length * N.length : ℕ) * (M / 10 ^ 6) ≤ a * (boundingBox l).2.2) :
    ∃ ω : ℕ → Pt K, (∀ k, R.Target l (ω k)) ∧ ∀ p ∈ P, ∀ fuel,
      (∀ t, GoodTarget l p t → R.plInternal l p ω (fuel + 1) = some (decide (meetCount l p t % 2 = 1))) ∧
      ∃ t, R.Target l t ∧ GoodTarget l p t := by
  obtain ⟨t, ht, hg⟩ := C123_exists hE l N P a M ha haM hN hN' hP hX hXM hMX hY hYM hroom
  refine ⟨fun _ => t, fun _ => ht, fun p hp fuel => ⟨fun t' ht' => ?_, t, ht, (hg p hp).1⟩⟩
  refine C93_drawing hE l l (SameDrawing.refl _) hc hnd p ?_ _ (fun _ _ => hg p hp) t' ht' fuel
  intro s hs ho
  have hz : (0 : K) < 3 / 10 ^ 8 := by positivity
  rcases (hP p hp).1 s hs p ho with h | h <;> rw [sub_self, abs_zero] at h <;> linarith

/-! ### a concrete case: the polygon in the shape of the letter U -/

namespace TargetEx
open RatEx RegionEx

/-- the check of `AwayFrom` by the box around a side -/
def awayB (e : ℚ) (p : Pt ℚ) (s : Seg ℚ) : Bool :=
  decide (e ≤ min s.i.x s.j.x - p.x) || decide (e ≤ p.x - max s.i.x s.j.x) ||
  decide (e ≤ min s.i.y s.j.y - p.y) || decide (e ≤ p.y - max s.i.y s.j.y)

theorem away_lo {w a b c e : ℝ} (h0 : 0 ≤ w) (h1 : w ≤ 1) (h : e ≤ min a b - c) : e ≤ |a + w * (b - a) - c| := by
  have ha : e ≤ a - c := le_trans h (by linarith [min_le_left a b])
  have hb : e ≤ b - c := le_trans h (by linarith [min_le_right a b])
  refine le_trans ?_ (le_abs_self _)
  have k1 := mul_le_mul_of_nonneg_left ha (by linarith : 0 ≤ 1 - w)
  have k2 := mul_le_mul_of_nonneg_left hb h0
  linarith

theorem away_hi {w a b c e : ℝ} (h0 : 0 ≤ w) (h1 : w ≤ 1) (h : e ≤ c - max a b) : e ≤ |a + w * (b - a) - c| := by
  have ha : e ≤ c - a := le_trans h (by linarith [le_max_left a b])
  have hb : e ≤ c - b := le_trans h (by linarith [le_max_right a b])
  refine le_trans ?_ (neg_le_abs _)
  have k1 := mul_le_mul_of_nonneg_left ha (by linarith : 0 ≤ 1 - w)
  have k2 := mul_le_mul_of_nonneg_left hb h0
  linarith

theorem away_pt {l : List (Seg ℚ)} {e : ℚ} {p : Pt ℚ} (h : ∀ s ∈ l, awayB e p s = true) : AwayFrom (e : ℝ) (l.map seg) (pt p) := by
  intro s hs Z hZ
  obtain ⟨s, hs', rfl⟩ := List.mem_map.1 hs
  obtain ⟨w, w0, w1, rfl⟩ := hZ
  have := h s hs'
  unfold awayB at this
  simp only [Bool.or_eq_true, decide_eq_true_eq] at this
  rcases this with ((h | h) | h) | h
  · left; have := le_r h; push_cast at this; exact away_lo w0 w1 this
  · left; have := le_r h; push_cast at this; exact away_hi w0 w1 this
  · right; have := le_r h; push_cast at this; exact away_lo w0 w1 this
  · right; have := le_r h; push_cast at this; exact away_hi w0 w1 this

/-- three points: in the notch, in the left arm and outside -/
def three : List (Pt ℚ) := [⟨4, 5⟩, ⟨2, 5⟩, ⟨4, 9⟩]

/-- the corners of the U -/
def corners : List (Pt ℚ) := uShape.map (·.i)

/-- one choice of the random numbers decides all three -/
example : ∃ ω : ℕ → Pt ℝ, (∀ k, exReal.Target (uShape.map seg) (ω k)) ∧ ∀ p ∈ three.map pt, ∀ fuel,
      (∀ t, GoodTarget (uShape.map seg) p t → exReal.plInternal (uShape.map seg) p ω (fuel + 1) =
        some (decide (meetCount (uShape.map seg) p t % 2 = 1))) ∧ ∃ t, exReal.Target (uShape.map seg) t ∧ GoodTarget (uShape.map seg) p t := by
  have bb : boundingBox (uShape.map seg) = ((((boundingBox uShape).1.1 : ℝ), ((boundingBox uShape).1.2 : ℝ)),
      (((boundingBox uShape).2.1 : ℝ), ((boundingBox uShape).2.2 : ℝ))) := by
    have gen : ∀ (l : List (Seg ℚ)) (b : (ℚ × ℚ) × (ℚ × ℚ)),
        (l.map seg).foldl (fun b s => ((min b.1.1 (min s.i.x s.j.x), max b.1.2 (max s.i.x s.j.x)),
          (min b.2.1 (min s.i.y s.j.y), max b.2.2 (max s.i.y s.j.y)))) (((b.1.1 : ℝ), (b.1.2 : ℝ)), ((b.2.1 : ℝ), (b.2.2 : ℝ))) =
        (fun c : (ℚ × ℚ) × (ℚ × ℚ) => (((c.1.1 : ℝ), (c.1.2 : ℝ)), ((c.2.1 : ℝ), (c.2.2 : ℝ))))
        (l.foldl (fun b s => ((min b.1.1 (min s.i.x s.j.x), max b.1.2 (max s.i.x s.j.x)),
          (min b.2.1 (min s.i.y s.j.y), max b.2.2 (max s.i.y s.j.y)))) b) := by
      intro l
      induction l with
      | nil => intro b; rfl
      | cons s l ih =>
        intro b
        rw [List.map_cons, List.foldl_cons, List.foldl_cons, ← ih]
        congr 1
        simp only [seg, pt, Rat.cast_min, Rat.cast_max]
    have := gen uShape ((10 ^ 11, -10 ^ 11), (10 ^ 11, -10 ^ 11))
    unfold boundingBox
    push_cast at this
    exact this
  have b1 : (boundingBox uShape).1.2 = 7 := by decide +kernel
  have b2 : (boundingBox uShape).2.2 = 7 := by decide +kernel
  have e1 : (boundingBox (uShape.map seg)).1.2 = 7 := by rw [bb, b1]; norm_num
  have e2 : (boundingBox (uShape.map seg)).2.2 = 7 := by rw [bb, b2]; norm_num
  have hap : ∀ p ∈ three, ∀ q ∈ p :: corners, ∀ q' ∈ p :: corners, q ≠ q' → 1 ≤ |q.x - q'.x| ∨ 1 ≤ |q.y - q'.y| := by decide +kernel
  have haw : ∀ p ∈ three, ∀ s ∈ uShape, awayB (3 / 10 ^ 8) p s = true := by decide +kernel
  have hno : ∀ p ∈ three, p ∉ corners ∧ |p.x| ≤ 9 ∧ |p.y| ≤ 9 := by decide +kernel
  have hcor : ∀ s ∈ uShape, s.i ∈ corners ∧ s.j ∈ corners := by decide +kernel
  refine C123_decided exReal_isExact _ u_chain u_noDouble (corners.map pt) (three.map pt) 1 9 (by norm_num) (by norm_num) ?_ ?_ ?_
    (by rw [e1]; norm_num) (by rw [e1]; norm_num) (by rw [e1]; norm_num) (by rw [e2]; norm_num) (by rw [e2]; norm_num) ?_
  · intro s hs
    obtain ⟨s, hs', rfl⟩ := List.mem_map.1 hs
    exact ⟨List.mem_map_of_mem (hcor s hs').1, List.mem_map_of_mem (hcor s hs').2⟩
  · intro q hq
    obtain ⟨q, hq', rfl⟩ := List.mem_map.1 hq
    obtain ⟨s, hs, rfl⟩ := List.mem_map.1 hq'
    exact ⟨seg s, List.mem_map_of_mem hs, Or.inl rfl⟩
  · intro p hp
    obtain ⟨p, hp', rfl⟩ := List.mem_map.1 hp
    refine ⟨?_, ?_, ?_, ?_⟩
    · have := away_pt (haw p hp')
      push_cast at this
      exact this
    · have mem : ∀ q : Pt ℝ, (q = pt p ∨ q ∈ corners.map pt) → ∃ r ∈ p :: corners, q = pt r := by
        rintro q (rfl | hq)
        · exact ⟨p, List.mem_cons_self, rfl⟩
        · obtain ⟨r, hr, rfl⟩ := List.mem_map.1 hq
          exact ⟨r, List.mem_cons_of_mem _ hr, rfl⟩
      intro q hq q' hq' hne
      obtain ⟨r, hr, rfl⟩ := mem q hq
      obtain ⟨r', hr', rfl⟩ := mem q' hq'
      rcases hap p hp' r hr r' hr' (fun e => hne (e ▸ rfl)) with h | h
      · left; have := le_r h; push_cast at this; exact this
      · right; have := le_r h; push_cast at this; exact this
    · intro h
      obtain ⟨q, hq, e⟩ := List.mem_map.1 h
      exact (hno p hp').1 (pt_inj e ▸ hq)
    · have h1 := le_r (hno p hp').2.1
      have h2 := le_r (hno p hp').2.2
      push_cast at h1 h2
      exact ⟨h1, h2⟩
  · rw [e2, List.length_map, List.length_map]
    have : three.length * corners.length = 24 := by decide +kernel
    rw [this]
    norm_num

end TargetEx
end Srep
