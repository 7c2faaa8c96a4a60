import Verif.Lemmas.PolyCycle
import Verif.Spec.Tiling

/-! Points in general position, triangles and quadrilaterals. -/

set_option linter.unusedSectionVars false

namespace Srep
namespace Cyc
variable {K : Type} [Field K] [LinearOrder K] [IsStrictOrderedRing K]

/-- an affine function -/
structure Aff (K : Type) where
  u : K
  v : K
  w : K

/-- its value -/
def Aff.at (f : Aff K) (X : Pt K) : K := f.u * X.x + f.v * X.y + f.w

/-- the side of a line -/
def Aff.line (p q : Pt K) : Aff K := ⟨-(q.y - p.y), q.x - p.x, (q.y - p.y) * p.x - (q.x - p.x) * p.y⟩

def Aff.neg (f : Aff K) : Aff K := ⟨-f.u, -f.v, -f.w⟩

@[simp] theorem Aff.line_at (p q X : Pt K) : (Aff.line p q).at X = det3 p q X := by
  unfold Aff.line Aff.at det3; ring

@[simp] theorem Aff.neg_at (f : Aff K) (X : Pt K) : f.neg.at X = -f.at X := by
  unfold Aff.neg Aff.at; ring

/-- the point reached in direction `(a, b)` -/
def go (X : Pt K) (a b t : K) : Pt K := ⟨X.x + t * a, X.y + t * b⟩

theorem Aff.go_at (f : Aff K) (X : Pt K) (a b t : K) : f.at (go X a b t) = f.at X + t * (f.u * a + f.v * b) := by
  unfold go Aff.at; ring

/-- strict inequalities survive small steps -/
theorem small_step (F : List (Aff K)) (X : Pt K) (hF : ∀ f ∈ F, 0 < f.at X) (a b : K) :
    ∃ δ : K, 0 < δ ∧ ∀ t, 0 ≤ t → t ≤ δ → ∀ f ∈ F, 0 < f.at (go X a b t) := by
  induction F with
  | nil => exact ⟨1, one_pos, by simp⟩
  | cons f F ih =>
    obtain ⟨δ, hδ, h⟩ := ih fun g hg => hF g (List.mem_cons_of_mem _ hg)
    have hf := hF f List.mem_cons_self
    set s := f.u * a + f.v * b with hs
    refine ⟨min δ (f.at X / (|s| + 1) / 2), ?_, ?_⟩
    · refine lt_min hδ ?_
      have : 0 < |s| + 1 := by positivity
      positivity
    · intro t h0 h1 g hg
      rcases List.mem_cons.1 hg with rfl | hg
      · rw [Aff.go_at, ← hs]
        have h2 := h1.trans (min_le_right _ _)
        have hp : 0 < |s| + 1 := by positivity
        have h3 : t * (|s| + 1) ≤ g.at X / 2 := by
          have := mul_le_mul_of_nonneg_right h2 hp.le
          have e : g.at X / (|s| + 1) / 2 * (|s| + 1) = g.at X / 2 := by field_simp
          rw [e] at this; exact this
        have h4 := neg_abs_le s
        nlinarith [mul_nonneg h0 (abs_nonneg s)]
      · exact h t h0 (h1.trans (min_le_left _ _)) g hg

/-- finitely many strict inequalities and finitely many lines to avoid -/
theorem generic (L : List (Aff K)) (hL : ∀ g ∈ L, g.u ≠ 0 ∨ g.v ≠ 0) :
    ∀ (F : List (Aff K)) (X : Pt K), (∀ f ∈ F, 0 < f.at X) →
      ∃ Y, (∀ f ∈ F, 0 < f.at Y) ∧ ∀ g ∈ L, g.at Y ≠ 0 := by
  induction L with
  | nil => intro F X h; exact ⟨X, h, by simp⟩
  | cons g L ih =>
    intro F X hF
    have ih' := ih fun g hg => hL g (List.mem_cons_of_mem _ hg)
    rcases lt_trichotomy (g.at X) 0 with h | h | h
    · obtain ⟨Y, h1, h2⟩ := ih' (g.neg :: F) X (by
        intro f hf
        rcases List.mem_cons.1 hf with rfl | hf
        · rw [Aff.neg_at]; linarith
        · exact hF f hf)
      refine ⟨Y, fun f hf => h1 f (List.mem_cons_of_mem _ hf), ?_⟩
      intro k hk
      rcases List.mem_cons.1 hk with rfl | hk
      · have := h1 k.neg List.mem_cons_self
        rw [Aff.neg_at] at this
        exact (neg_pos.1 this).ne
      · exact h2 k hk
    · obtain ⟨δ, hδ, hs⟩ := small_step F X hF g.u g.v
      have hg : 0 < g.at (go X g.u g.v δ) := by
        rw [Aff.go_at, h, zero_add]
        refine mul_pos hδ ?_
        rcases hL g List.mem_cons_self with h | h
        · nlinarith [mul_self_pos.2 h, mul_self_nonneg g.v]
        · nlinarith [mul_self_pos.2 h, mul_self_nonneg g.u]
      obtain ⟨Y, h1, h2⟩ := ih' (g :: F) (go X g.u g.v δ) (by
        intro f hf
        rcases List.mem_cons.1 hf with rfl | hf
        · exact hg
        · exact hs δ hδ.le le_rfl f hf)
      refine ⟨Y, fun f hf => h1 f (List.mem_cons_of_mem _ hf), ?_⟩
      intro k hk
      rcases List.mem_cons.1 hk with rfl | hk
      · exact (h1 k List.mem_cons_self).ne'
      · exact h2 k hk
    · obtain ⟨Y, h1, h2⟩ := ih' (g :: F) X (by
        intro f hf
        rcases List.mem_cons.1 hf with rfl | hf
        · exact h
        · exact hF f hf)
      refine ⟨Y, fun f hf => h1 f (List.mem_cons_of_mem _ hf), ?_⟩
      intro k hk
      rcases List.mem_cons.1 hk with rfl | hk
      · exact (h1 k List.mem_cons_self).ne'
      · exact h2 k hk

theorem _root_.Srep.InTri.rot {a b c X : Pt K} : InTri a b c X ↔ InTri b c a X := by
  unfold InTri; tauto

theorem _root_.Srep.InTri.swap {a b c X : Pt K} : InTri a b c X ↔ InTri b a c X := by
  unfold InTri
  have e1 : det3 b a X = -det3 a b X := by unfold det3; ring
  have e2 : det3 a c X = -det3 c a X := by unfold det3; ring
  have e3 : det3 c b X = -det3 b c X := by unfold det3; ring
  rw [e1, e2, e3]
  simp only [neg_pos, neg_lt_zero]
  tauto

theorem inTri_pos {a b c X : Pt K} (h : 0 < det3 a b c) :
    InTri a b c X ↔ 0 < det3 a b X ∧ 0 < det3 b c X ∧ 0 < det3 c a X := by
  have id : det3 a b X + det3 b c X + det3 c a X = det3 a b c := by unfold det3; ring
  unfold InTri
  constructor
  · rintro (h | ⟨h1, h2, h3⟩)
    · exact h
    · linarith
  · exact Or.inl

theorem inTri_neg {a b c X : Pt K} (h : det3 a b c < 0) :
    InTri a b c X ↔ det3 a b X < 0 ∧ det3 b c X < 0 ∧ det3 c a X < 0 := by
  have id : det3 a b X + det3 b c X + det3 c a X = det3 a b c := by unfold det3; ring
  unfold InTri
  constructor
  · rintro (⟨h1, h2, h3⟩ | h)
    · linarith
    · exact h
  · exact Or.inr

/-- strictly inside a convex quadrilateral `a p b q` -/
def InQuad (a p b q X : Pt K) : Prop := 0 < det3 a p X ∧ 0 < det3 p b X ∧ 0 < det3 b q X ∧ 0 < det3 q a X

/-- a diagonal cuts a convex quadrilateral into two triangles -/
theorem quad_cut {a p b q X : Pt K} (h1 : 0 < det3 a p q) (h2 : 0 < det3 b q p) (h3 : 0 < det3 a p b)
    (h4 : 0 < det3 a b q) (hs : det3 p q X ≠ 0) :
    InQuad a p b q X ↔ InTri a p q X ∨ InTri b p q X := by
  have e0 : det3 q p X = -det3 p q X := by unfold det3; ring
  rw [inTri_pos h1, InTri.rot, InTri.swap, InTri.rot, InTri.rot, inTri_pos h2, e0, neg_pos]
  unfold InQuad
  constructor
  · rintro ⟨a1, a2, a3, a4⟩
    rcases lt_or_gt_of_ne hs with h | h
    · right; exact ⟨a3, h, a2⟩
    · left; exact ⟨a1, h, a4⟩
  · rintro (⟨a1, a2, a3⟩ | ⟨a1, a2, a3⟩)
    · refine ⟨a1, ?_, ?_, a3⟩
      · have id : det3 a p q * det3 p b X = det3 p q X * det3 a p b + det3 a p X * det3 b q p := by unfold det3; ring
        have : 0 < det3 a p q * det3 p b X := by
          rw [id]; exact add_pos (mul_pos a2 h3) (mul_pos a1 h2)
        exact (mul_pos_iff_of_pos_left h1).1 this
      · have id : det3 a p q * det3 b q X = det3 p q X * det3 a b q + det3 q a X * det3 b q p := by unfold det3; ring
        have : 0 < det3 a p q * det3 b q X := by
          rw [id]; exact add_pos (mul_pos a2 h4) (mul_pos a3 h2)
        exact (mul_pos_iff_of_pos_left h1).1 this
    · refine ⟨?_, a3, a1, ?_⟩
      · have id : det3 b q p * det3 a p X = -det3 p q X * det3 a p b + det3 p b X * det3 a p q := by unfold det3; ring
        have : 0 < det3 b q p * det3 a p X := by
          rw [id]; exact add_pos (mul_pos (neg_pos.2 a2) h3) (mul_pos a3 h1)
        exact (mul_pos_iff_of_pos_left h2).1 this
      · have id : det3 b q p * det3 q a X = -det3 p q X * det3 a b q + det3 b q X * det3 a p q := by unfold det3; ring
        have : 0 < det3 b q p * det3 q a X := by
          rw [id]; exact add_pos (mul_pos (neg_pos.2 a2) h4) (mul_pos a1 h1)
        exact (mul_pos_iff_of_pos_left h2).1 this

theorem cut_excl {a p b q X : Pt K} (h1 : 0 < det3 a p q) (h2 : 0 < det3 b q p) :
    ¬ (InTri a p q X ∧ InTri b p q X) := by
  have e0 : det3 q p X = -det3 p q X := by unfold det3; ring
  rw [inTri_pos h1, InTri.rot (a := b), InTri.swap (a := p), InTri.rot (a := q), InTri.rot (a := p), inTri_pos h2, e0,
    neg_pos]
  rintro ⟨⟨-, g1, -⟩, -, g2, -⟩
  linarith

/-- Both cuts of a convex quadrilateral cover the same points, each once. -/
theorem quad_flip {a p b q X : Pt K} (s0 : 0 < det3 a p q * det3 b q p) (s1 : 0 < det3 a p q * det3 a p b)
    (s2 : 0 < det3 a p q * det3 a b q) (hs : det3 p q X ≠ 0) (ht : det3 a b X ≠ 0) :
    ((InTri a p q X ∨ InTri b p q X) ↔ (InTri a p b X ∨ InTri a b q X)) ∧
    ¬ (InTri a p q X ∧ InTri b p q X) ∧ ¬ (InTri a p b X ∧ InTri a b q X) := by
  have key : ∀ p q : Pt K, 0 < det3 a p q → 0 < det3 b q p → 0 < det3 a p b → 0 < det3 a b q → det3 p q X ≠ 0 →
      ((InTri a p q X ∨ InTri b p q X) ↔ (InTri a p b X ∨ InTri a b q X)) ∧
      ¬ (InTri a p q X ∧ InTri b p q X) ∧ ¬ (InTri a p b X ∧ InTri a b q X) := by
    intro p q h1 h2 h3 h4 hs
    have c1 := quad_cut h1 h2 h3 h4 hs
    have g1 : 0 < det3 q a b := by rw [show det3 q a b = det3 a b q by unfold det3; ring]; exact h4
    have g2 : 0 < det3 p b a := by rw [show det3 p b a = det3 a p b by unfold det3; ring]; exact h3
    have g3 : 0 < det3 q a p := by rw [show det3 q a p = det3 a p q by unfold det3; ring]; exact h1
    have g4 : 0 < det3 q p b := by rw [show det3 q p b = det3 b q p by unfold det3; ring]; exact h2
    have c2 := quad_cut g1 g2 g3 g4 ht
    have c3 := cut_excl (X := X) g1 g2
    have e1 : InQuad q a p b X ↔ InQuad a p b q X := by unfold InQuad; tauto
    have e2 : InTri q a b X ↔ InTri a b q X := InTri.rot
    have e3 : InTri p a b X ↔ InTri a p b X := InTri.swap
    rw [e1, e2, e3] at c2
    rw [e2, e3] at c3
    exact ⟨by rw [← c1, c2, or_comm], cut_excl h1 h2, fun h => c3 ⟨h.2, h.1⟩⟩
  rcases pos_and_pos_or_neg_and_neg_of_mul_pos s0 with ⟨h1, h2⟩ | ⟨h1, h2⟩
  · exact key p q h1 h2 ((mul_pos_iff_of_pos_left h1).1 s1) ((mul_pos_iff_of_pos_left h1).1 s2) hs
  · have h3 := (neg_iff_neg_of_mul_pos s1).1 h1
    have h4 := (neg_iff_neg_of_mul_pos s2).1 h1
    have := key q p (by rw [det3_swap]; linarith) (by rw [det3_swap]; linarith)
      (by rw [det3_swap]; linarith) (by rw [det3_swap]; linarith) (by rw [det3_swap']; exact neg_ne_zero.2 hs)
    have e1 : InTri a q p X ↔ InTri a p q X := by rw [InTri.rot, InTri.swap, InTri.rot, InTri.rot]
    have e2 : InTri b q p X ↔ InTri b p q X := by rw [InTri.rot, InTri.swap, InTri.rot, InTri.rot]
    have e3 : InTri a q b X ↔ InTri a b q X := by rw [InTri.rot, InTri.swap, InTri.rot, InTri.rot]
    have e4 : InTri a b p X ↔ InTri a p b X := by rw [InTri.rot, InTri.swap, InTri.rot, InTri.rot]
    rw [e1, e2, e3, e4] at this
    exact ⟨this.1.trans or_comm, this.2.1, fun h => this.2.2 ⟨h.2, h.1⟩⟩

/-- near the crossing of the diagonals there are points on either side of the diagonal `a b`, inside the quadrilateral and
away from given lines -/
theorem quad_meet {a p b q w : Pt K} (h1 : 0 < det3 a p q) (h2 : 0 < det3 b q p) (h3 : 0 < det3 a p b)
    (h4 : 0 < det3 a b q) (hw : det3 a b w ≠ 0) (L : List (Aff K)) (hL : ∀ g ∈ L, g.u ≠ 0 ∨ g.v ≠ 0) :
    ∃ X, InQuad a p b q X ∧ InTri w a b X ∧ ∀ g ∈ L, g.at X ≠ 0 := by
  set d := det3 a p q + det3 b q p with hd
  have dpos : 0 < d := by linarith
  set Z : Pt K := ⟨(det3 b q p * a.x + det3 a p q * b.x) / d, (det3 b q p * a.y + det3 a p q * b.y) / d⟩ with hZ
  have aff : ∀ u v : Pt K, det3 u v Z = (det3 b q p * det3 u v a + det3 a p q * det3 u v b) / d := by
    intro u v
    rw [eq_div_iff dpos.ne']
    have ex : Z.x * d = det3 b q p * a.x + det3 a p q * b.x := by simp only [hZ]; field_simp
    have ey : Z.y * d = det3 b q p * a.y + det3 a p q * b.y := by simp only [hZ]; field_simp
    have : det3 u v Z * d = (v.x - u.x) * (Z.y * d - u.y * d) - (v.y - u.y) * (Z.x * d - u.x * d) := by
      unfold det3; ring
    rw [this, ex, ey, hd]
    unfold det3; ring
  have z1 : 0 < det3 a p Z := by
    rw [aff, det_self1, mul_zero, zero_add]; positivity
  have z2 : 0 < det3 p b Z := by
    rw [aff, det_self2, mul_zero, add_zero, show det3 p b a = det3 a p b by unfold det3; ring]; positivity
  have z3 : 0 < det3 b q Z := by
    rw [aff, det_self1, mul_zero, add_zero, show det3 b q a = det3 a b q by unfold det3; ring]; positivity
  have z4 : 0 < det3 q a Z := by
    rw [aff, det_self2, mul_zero, zero_add, show det3 q a b = det3 a b q by unfold det3; ring]; positivity
  have z0 : det3 a b Z = 0 := by
    rw [aff, det_self1, det_self2, mul_zero, mul_zero, add_zero, zero_div]
  have zb : det3 b w Z = det3 b q p / d * det3 a b w := by
    rw [aff, det_self1, mul_zero, add_zero, show det3 b w a = det3 a b w by unfold det3; ring]; ring
  have za : det3 w a Z = det3 a p q / d * det3 a b w := by
    rw [aff, det_self2, mul_zero, zero_add, show det3 w a b = det3 a b w by unfold det3; ring]; ring
  set F := [Aff.line a p, Aff.line p b, Aff.line b q, Aff.line q a] with hF
  have hFZ : ∀ f ∈ F, 0 < f.at Z := by
    intro f hf
    simp only [hF, List.mem_cons, List.not_mem_nil, or_false] at hf
    rcases hf with rfl | rfl | rfl | rfl <;> rw [Aff.line_at] <;> assumption
  obtain ⟨δ, hδ, hs⟩ := small_step F Z hFZ (w.x - Z.x) (w.y - Z.y)
  set t := min δ (1 / 2) with ht
  have t0 : 0 < t := lt_min hδ (by norm_num)
  have t1 : t < 1 := lt_of_le_of_lt (min_le_right _ _) (by norm_num)
  set Y := go Z (w.x - Z.x) (w.y - Z.y) t with hY
  have affY : ∀ u v : Pt K, det3 u v Y = (1 - t) * det3 u v Z + t * det3 u v w := by
    intro u v; simp only [hY, go]; unfold det3; ring
  have hFY := hs t t0.le (min_le_left _ _)
  have y0 : det3 a b Y = t * det3 a b w := by rw [affY, z0]; ring
  have yb : det3 b w Y = (1 - t) * (det3 b q p / d) * det3 a b w := by rw [affY, zb, det_self2]; ring
  have ya : det3 w a Y = (1 - t) * (det3 a p q / d) * det3 a b w := by rw [affY, za, det_self1]; ring
  have c1 : 0 < (1 - t) * (det3 b q p / d) := mul_pos (by linarith) (div_pos h2 dpos)
  have c2 : 0 < (1 - t) * (det3 a p q / d) := mul_pos (by linarith) (div_pos h1 dpos)
  have quad : ∀ X, (∀ f ∈ F, 0 < f.at X) → InQuad a p b q X := by
    intro X hX
    simp only [hF, List.mem_cons, List.not_mem_nil, or_false, forall_eq_or_imp, forall_eq, Aff.line_at] at hX
    exact hX
  rcases lt_or_gt_of_ne hw with hw | hw
  · obtain ⟨X, x1, x2⟩ := generic L hL (F ++ [(Aff.line a b).neg, (Aff.line b w).neg, (Aff.line w a).neg]) Y (by
      intro f hf
      rcases List.mem_append.1 hf with hf | hf
      · exact hFY f hf
      · simp only [List.mem_cons, List.not_mem_nil, or_false] at hf
        rcases hf with rfl | rfl | rfl <;> rw [Aff.neg_at, Aff.line_at]
        · rw [y0]; nlinarith
        · rw [yb]; nlinarith
        · rw [ya]; nlinarith)
    refine ⟨X, quad X fun f hf => x1 f (List.mem_append_left _ hf), ?_, x2⟩
    have hx := fun f hf => x1 f (List.mem_append_right F hf)
    simp only [List.mem_cons, List.not_mem_nil, or_false, forall_eq_or_imp, forall_eq, Aff.line_at, Aff.neg_at,
      neg_pos] at hx
    exact Or.inr ⟨hx.2.2, hx.1, hx.2.1⟩
  · obtain ⟨X, x1, x2⟩ := generic L hL (F ++ [(Aff.line a b), (Aff.line b w), (Aff.line w a)]) Y (by
      intro f hf
      rcases List.mem_append.1 hf with hf | hf
      · exact hFY f hf
      · simp only [List.mem_cons, List.not_mem_nil, or_false] at hf
        rcases hf with rfl | rfl | rfl <;> rw [Aff.line_at]
        · rw [y0]; nlinarith
        · rw [yb]; nlinarith
        · rw [ya]; nlinarith)
    refine ⟨X, quad X fun f hf => x1 f (List.mem_append_left _ hf), ?_, x2⟩
    have hx := fun f hf => x1 f (List.mem_append_right F hf)
    simp only [List.mem_cons, List.not_mem_nil, or_false, forall_eq_or_imp, forall_eq, Aff.line_at] at hx
    exact Or.inl ⟨hx.2.2, hx.1, hx.2.1⟩

end Cyc
end Srep
