import Verif.Lemmas.Generic
import Verif.Lemmas.MeshTerm
import Verif.Props.DelaunayAdd

/-! The mesh of Delaunay2d is a triangulation of a convex polygon: kept by flips and by adding a point. -/

set_option linter.unusedSectionVars false

namespace Srep
open Cyc
variable {K : Type} [Field K] [LinearOrder K] [IsStrictOrderedRing K] [FloorRing K] {R : Rt K}

/-- on no line through two of the points -/
def Mesh.Away (M : Mesh K) (X : Pt K) : Prop :=
  ∀ i j : ℤ, 0 ≤ i → i < M.points.length → 0 ≤ j → j < M.points.length → i ≠ j → det3 (M.pos i) (M.pos j) X ≠ 0

open Classical in
/-- 1 if the point is strictly inside the triangle -/
noncomputable def ind (P : ℤ → Pt K) (X : Pt K) (T : Tri) : K := if InTri (P T.a) (P T.b) (P T.c) X then 1 else 0

/-- points in general position, triangles covering each point inside the convex boundary once -/
structure Mesh.Tiled (R : Rt K) (M : Mesh K) (A : ℤ → Prop) : Prop where
  cons : M.Consistent
  two : M.AtMostTwo
  full : ∀ x l, M.e2t x = some l → l ≠ []
  planar : M.Planar
  stored : ∀ p ∈ M.points, R.Stored p
  general : GeneralPos M.points
  hull : Hulled M.pos M.bnd A
  nodup : M.bnd.Nodup
  single : ∀ e ∈ M.bnd, M.Single e
  inA : ∀ v, A v → 0 ≤ v ∧ v < M.points.length
  verts : ∀ T ∈ M.tris, ∀ v, T.Has v → A v
  cover : ∀ X, M.Away X → Inner M.pos M.bnd X → (M.tris.map (ind M.pos X)).sum = 1
  outer : ∀ X, M.Away X → ¬ Inner M.pos M.bnd X → (M.tris.map (ind M.pos X)).sum = 0

variable {M : Mesh K} {A : ℤ → Prop}

theorem Mesh.Tiled.inRange (h : M.Tiled R A) : M.InRange := fun T hT v hv => h.inA v (h.verts T hT v hv)

theorem Mesh.Tiled.good (h : M.Tiled R A) : M.Good R := ⟨h.cons.toSound, h.planar, h.stored⟩

theorem Mesh.Tiled.bounded (h : M.Tiled R A) : M.Bounded :=
  ⟨h.nodup, h.hull.ne, h.single, h.hull.starts, h.hull.ends, fun _ he => h.hull.once he⟩

theorem pos_mem {M : Mesh K} {i : ℤ} (h0 : 0 ≤ i) (h1 : i < M.points.length) : M.pos i ∈ M.points := by
  obtain ⟨p, hp⟩ := pyGet_some ⟨h0, h1⟩
  unfold Mesh.pos
  rw [hp]
  exact pyGet_mem hp

theorem pos_ne {M : Mesh K} (h : M.points.Nodup) {i j : ℤ} (i0 : 0 ≤ i) (i1 : i < M.points.length) (j0 : 0 ≤ j)
    (j1 : j < M.points.length) (hij : i ≠ j) : M.pos i ≠ M.pos j := by
  unfold Mesh.pos pyGet
  rw [if_pos i0, if_pos j0]
  have a : i.toNat < M.points.length := by omega
  have b : j.toNat < M.points.length := by omega
  rw [List.getElem?_eq_getElem a, List.getElem?_eq_getElem b, Option.getD_some, Option.getD_some]
  intro hh
  have := (List.Nodup.getElem_inj_iff h).1 hh
  omega

theorem GeneralPos.det {M : Mesh K} (h : GeneralPos M.points) {i j k : ℤ} (hi : 0 ≤ i ∧ i < M.points.length)
    (hj : 0 ≤ j ∧ j < M.points.length) (hk : 0 ≤ k ∧ k < M.points.length) (ij : i ≠ j) (jk : j ≠ k) (ik : i ≠ k) :
    1 / 10 ^ 8 < |det3 (M.pos i) (M.pos j) (M.pos k)| :=
  h.2 _ (pos_mem hi.1 hi.2) _ (pos_mem hj.1 hj.2) _ (pos_mem hk.1 hk.2) (pos_ne h.1 hi.1 hi.2 hj.1 hj.2 ij)
    (pos_ne h.1 hj.1 hj.2 hk.1 hk.2 jk) (pos_ne h.1 hi.1 hi.2 hk.1 hk.2 ik)

theorem GeneralPos.det_ne {M : Mesh K} (h : GeneralPos M.points) {i j k : ℤ} (hi : 0 ≤ i ∧ i < M.points.length)
    (hj : 0 ≤ j ∧ j < M.points.length) (hk : 0 ≤ k ∧ k < M.points.length) (ij : i ≠ j) (jk : j ≠ k) (ik : i ≠ k) :
    det3 (M.pos i) (M.pos j) (M.pos k) ≠ 0 := by
  intro h0
  have := h.det hi hj hk ij jk ik
  rw [h0, abs_zero] at this
  have : (0 : K) < 1 / 10 ^ 8 := by positivity
  linarith

/-- all lines through two of the points -/
def Mesh.lines (M : Mesh K) : List (Aff K) :=
  (List.range M.points.length).flatMap fun i : ℕ =>
    ((List.range M.points.length).filter fun j : ℕ => decide (i ≠ j)).map fun j : ℕ =>
      Aff.line (M.pos (i : ℤ)) (M.pos (j : ℤ))

theorem lines_ne {M : Mesh K} (h : M.points.Nodup) : ∀ g ∈ M.lines, g.u ≠ 0 ∨ g.v ≠ 0 := by
  intro g hg
  unfold Mesh.lines at hg
  simp only [List.mem_flatMap, List.mem_map, List.mem_filter, List.mem_range, decide_eq_true_eq] at hg
  obtain ⟨i, hi, j, ⟨hj, hij⟩, rfl⟩ := hg
  have := pos_ne h (i := i) (j := j) (by omega) (by omega) (by omega) (by omega) (by omega)
  by_contra hc
  push Not at hc
  apply this
  simp only [Aff.line] at hc
  have e1 : (M.pos i).x = (M.pos j).x := by linarith [hc.2]
  have e2 : (M.pos i).y = (M.pos j).y := by linarith [hc.1]
  rw [show M.pos i = ⟨(M.pos i).x, (M.pos i).y⟩ from rfl, e1, e2]

theorem away_iff {M : Mesh K} {X : Pt K} : M.Away X ↔ ∀ g ∈ M.lines, g.at X ≠ 0 := by
  unfold Mesh.lines
  simp only [List.mem_flatMap, List.mem_map, List.mem_filter, List.mem_range, decide_eq_true_eq]
  constructor
  · rintro h g ⟨i, hi, j, ⟨hj, hij⟩, rfl⟩
    rw [Aff.line_at]
    exact h i j (by omega) (by omega) (by omega) (by omega) (by omega)
  · intro h i j i0 i1 j0 j1 hij
    have := h (Aff.line (M.pos i) (M.pos j)) ⟨i.toNat, by omega, j.toNat, ⟨by omega, by omega⟩, by
      rw [Int.toNat_of_nonneg i0, Int.toNat_of_nonneg j0]⟩
    rwa [Aff.line_at] at this

theorem inTri_perm (P : ℤ → Pt K) {T : Tri} (hp : T.Proper) {x y z : ℤ} (h : ∀ v, T.Has v ↔ v = x ∨ v = y ∨ v = z)
    (X : Pt K) : InTri (P T.a) (P T.b) (P T.c) X ↔ InTri (P x) (P y) (P z) X := by
  have s : ∀ a b c : Pt K, InTri a c b X ↔ InTri a b c X := fun a b c => by
    rw [InTri.rot, InTri.swap, InTri.rot, InTri.rot]
  rcases tri_cases hp h with rfl | rfl | rfl | rfl | rfl | rfl <;> dsimp only
  · exact Iff.rfl
  · exact s _ _ _
  · exact InTri.swap
  · exact InTri.rot.symm
  · exact InTri.rot
  · rw [InTri.swap]; exact InTri.rot.symm

theorem ind_nonneg (P : ℤ → Pt K) (X : Pt K) (T : Tri) : 0 ≤ ind P X T := by
  unfold ind; split_ifs <;> simp

theorem sum_ind_nonneg (P : ℤ → Pt K) (X : Pt K) (l : List Tri) : 0 ≤ (l.map (ind P X)).sum := by
  induction l with
  | nil => simp
  | cons a l ih => simp only [List.map_cons, List.sum_cons]; have := ind_nonneg P X a; linarith

theorem ind_one {P : ℤ → Pt K} {X : Pt K} {T : Tri} (h : InTri (P T.a) (P T.b) (P T.c) X) : ind P X T = 1 := by
  unfold ind; rw [if_pos h]

theorem ind_zero {P : ℤ → Pt K} {X : Pt K} {T : Tri} (h : ¬ InTri (P T.a) (P T.b) (P T.c) X) : ind P X T = 0 := by
  unfold ind; rw [if_neg h]

theorem sum_ind_one {P : ℤ → Pt K} {X : Pt K} {l : List Tri} {n : ℕ} {T : Tri} (hT : l[n]? = some T)
    (h : InTri (P T.a) (P T.b) (P T.c) X) : 1 ≤ (l.map (ind P X)).sum := by
  induction l generalizing n with
  | nil => simp at hT
  | cons a l ih =>
    simp only [List.map_cons, List.sum_cons]
    cases n with
    | zero =>
      simp only [List.getElem?_cons_zero, Option.some.injEq] at hT
      subst hT
      rw [ind_one h]
      have := sum_ind_nonneg P X l
      linarith
    | succ n =>
      have := ih (by simpa using hT)
      have := ind_nonneg P X a
      linarith

theorem sum_ind_two {P : ℤ → Pt K} {X : Pt K} {l : List Tri} {n m : ℕ} {T S : Tri} (hT : l[n]? = some T)
    (hS : l[m]? = some S) (hnm : n ≠ m) (h : InTri (P T.a) (P T.b) (P T.c) X) (h' : InTri (P S.a) (P S.b) (P S.c) X) :
    2 ≤ (l.map (ind P X)).sum := by
  induction l generalizing n m with
  | nil => simp at hT
  | cons a l ih =>
    simp only [List.map_cons, List.sum_cons]
    cases n with
    | zero =>
      simp only [List.getElem?_cons_zero, Option.some.injEq] at hT
      subst hT
      cases m with
      | zero => exact absurd rfl hnm
      | succ m =>
        have := sum_ind_one (by simpa using hS) h'
        rw [ind_one h]
        linarith
    | succ n =>
      cases m with
      | zero =>
        simp only [List.getElem?_cons_zero, Option.some.injEq] at hS
        subst hS
        have := sum_ind_one (by simpa using hT) h
        rw [ind_one h']
        linarith
      | succ m =>
        have := ih (by simpa using hT) (by simpa using hS) (by omega)
        have := ind_nonneg P X a
        linarith

theorem exists_of_sum_pos {P : ℤ → Pt K} {X : Pt K} {l : List Tri} (h : 0 < (l.map (ind P X)).sum) :
    ∃ T ∈ l, InTri (P T.a) (P T.b) (P T.c) X := by
  by_contra hc
  push Not at hc
  have : (l.map (ind P X)).sum = 0 := by
    have : l.map (ind P X) = l.map fun _ => (0 : K) := List.map_congr_left fun T hT => ind_zero (hc T hT)
    rw [this]; simp
  linarith

/-- no point is in two triangles -/
theorem Mesh.Tiled.excl (h : M.Tiled R A) {X : Pt K} (hX : M.Away X) {n m : ℕ} {T S : Tri} (hT : M.tris[n]? = some T)
    (hS : M.tris[m]? = some S) (hnm : n ≠ m) : ¬ (M.Inside T X ∧ M.Inside S X) := by
  rintro ⟨h1, h2⟩
  have := sum_ind_two hT hS hnm h1 h2
  by_cases hi : Inner M.pos M.bnd X
  · rw [h.cover X hX hi] at this
    have : (2 : K) ≤ 1 := this
    norm_num at this
  · rw [h.outer X hX hi] at this
    have : (2 : K) ≤ 0 := this
    norm_num at this

/-! ### flips -/

section flip
variable {e : ℤ × ℤ} {t1 t2 : ℕ} {T1 T2 : Tri} {o1 o2 : ℤ} {v1 v2 : List ℕ}

/-- the new diagonal is not an edge yet -/
theorem Mesh.Tiled.diag_free (h : M.Tiled R A) (F : FlipFacts M e t1 t2 T1 T2 o1 o2 v1 v2)
    (s0 : 0 < det3 (M.pos o1) (M.pos e.1) (M.pos e.2) * det3 (M.pos o2) (M.pos e.2) (M.pos e.1))
    (s1 : 0 < det3 (M.pos o1) (M.pos e.1) (M.pos e.2) * det3 (M.pos o1) (M.pos e.1) (M.pos o2))
    (s2 : 0 < det3 (M.pos o1) (M.pos e.1) (M.pos e.2) * det3 (M.pos o1) (M.pos o2) (M.pos e.2)) :
    M.e2t (makeKey o1 o2) = none := by
  by_contra hc
  obtain ⟨l, hl⟩ := Option.ne_none_iff_exists'.1 hc
  obtain ⟨n, hn⟩ := List.exists_mem_of_ne_nil l (h.full _ _ hl)
  obtain ⟨U, hU, hE⟩ := h.cons.sound _ _ hl n hn
  obtain ⟨ua, ub⟩ := Tri.has_of_key hE
  have n1 : n ≠ t1 := by
    rintro rfl
    rw [F.h1] at hU; obtain rfl := Option.some.inj hU
    rcases (F.has1 _).1 ub with hh | hh | hh
    · exact F.oo hh.symm
    · exact F.o21 hh
    · exact F.o22 hh
  have n2 : n ≠ t2 := by
    rintro rfl
    rw [F.h2] at hU; obtain rfl := Option.some.inj hU
    rcases (F.has2 _).1 ua with hh | hh | hh
    · exact F.oo hh
    · exact F.o11 hh
    · exact F.o12 hh
  have mU := List.mem_of_getElem? hU
  have pU := h.cons.proper _ mU
  obtain ⟨w1, w2, w3⟩ := Tri.opp_spec pU hE
  have w0 := Tri.opp_has pU hE
  set w := U.opp (makeKey o1 o2)
  have kk : ∀ v, (v = (makeKey o1 o2).1 ∨ v = (makeKey o1 o2).2) ↔ v = o1 ∨ v = o2 := makeKey_mem o1 o2
  have hw : ∀ v, U.Has v ↔ v = w ∨ v = o1 ∨ v = o2 := fun v => by rw [w3, kk]
  have wo : w ≠ o1 ∧ w ≠ o2 := by
    have : ¬ (w = o1 ∨ w = o2) := by rw [← kk]; tauto
    tauto
  have r := h.inRange
  have hne : det3 (M.pos o1) (M.pos o2) (M.pos w) ≠ 0 :=
    h.general.det_ne (r _ mU _ ua) (r _ mU _ ub) (r _ mU _ w0) F.oo wo.2.symm wo.1.symm
  have key : ∃ X, (InTri (M.pos o1) (M.pos e.1) (M.pos e.2) X ∨ InTri (M.pos o2) (M.pos e.1) (M.pos e.2) X) ∧
      InTri (M.pos w) (M.pos o1) (M.pos o2) X ∧ M.Away X := by
    have m1 := List.mem_of_getElem? F.h1
    have r1 := r _ m1 e.1 ((F.has1 _).2 (by tauto))
    have r2 := r _ m1 e.2 ((F.has1 _).2 (by tauto))
    rcases pos_and_pos_or_neg_and_neg_of_mul_pos s0 with ⟨h1, h2⟩ | ⟨h1, h2⟩
    · obtain ⟨X, x1, x2, x3⟩ := quad_meet h1 h2 ((mul_pos_iff_of_pos_left h1).1 s1) ((mul_pos_iff_of_pos_left h1).1 s2)
        hne M.lines (lines_ne h.general.1)
      have aw := away_iff.2 x3
      exact ⟨X, (quad_cut h1 h2 ((mul_pos_iff_of_pos_left h1).1 s1) ((mul_pos_iff_of_pos_left h1).1 s2)
        (aw _ _ r1.1 r1.2 r2.1 r2.2 F.lt.ne)).1 x1, x2, aw⟩
    · have h3 := (neg_iff_neg_of_mul_pos s1).1 h1
      have h4 := (neg_iff_neg_of_mul_pos s2).1 h1
      have g1 : 0 < det3 (M.pos o1) (M.pos e.2) (M.pos e.1) := by rw [det3_swap]; linarith
      have g2 : 0 < det3 (M.pos o2) (M.pos e.1) (M.pos e.2) := by rw [det3_swap]; linarith
      have g3 : 0 < det3 (M.pos o1) (M.pos e.2) (M.pos o2) := by rw [det3_swap]; linarith
      have g4 : 0 < det3 (M.pos o1) (M.pos o2) (M.pos e.1) := by rw [det3_swap]; linarith
      obtain ⟨X, x1, x2, x3⟩ := quad_meet g1 g2 g3 g4 hne M.lines (lines_ne h.general.1)
      have aw := away_iff.2 x3
      have := (quad_cut g1 g2 g3 g4 (aw _ _ r2.1 r2.2 r1.1 r1.2 F.lt.ne')).1 x1
      have s : ∀ a b c : Pt K, InTri a c b X ↔ InTri a b c X := fun a b c => by
        rw [InTri.rot, InTri.swap, InTri.rot, InTri.rot]
      rw [s _ (M.pos e.1), s _ (M.pos e.1)] at this
      exact ⟨X, this, x2, aw⟩
  obtain ⟨X, x1, x2, x3⟩ := key
  have xU : M.Inside U X := (inTri_perm M.pos pU hw X).2 x2
  rcases x1 with x1 | x1
  · exact h.excl x3 hU F.h1 n1 ⟨xU, (inTri_perm M.pos (h.cons.proper _ (List.mem_of_getElem? F.h1)) F.has1 X).2 x1⟩
  · exact h.excl x3 hU F.h2 n2 ⟨xU, (inTri_perm M.pos (h.cons.proper _ (List.mem_of_getElem? F.h2)) F.has2 X).2 x1⟩

/-- a flip keeps the triangulation -/
theorem Mesh.Tiled.flip (h : M.Tiled R A) (F : FlipFacts M e t1 t2 T1 T2 o1 o2 v1 v2)
    (s0 : 0 < det3 (M.pos o1) (M.pos e.1) (M.pos e.2) * det3 (M.pos o2) (M.pos e.2) (M.pos e.1))
    (s1 : 0 < det3 (M.pos o1) (M.pos e.1) (M.pos e.2) * det3 (M.pos o1) (M.pos e.1) (M.pos o2))
    (s2 : 0 < det3 (M.pos o1) (M.pos e.1) (M.pos e.2) * det3 (M.pos o1) (M.pos o2) (M.pos e.2)) :
    (flipped M e t1 t2 o1 o2 v1 v2).Tiled R A ∧
      ∀ v, (∃ T ∈ (flipped M e t1 t2 o1 o2 v1 v2).tris, T.Has v) ↔ ∃ T ∈ M.tris, T.Has v := by
  have hnew := h.diag_free F s0 s1 s2
  have hcons : (flipped M e t1 t2 o1 o2 v1 v2).Consistent := ⟨F.sound h.cons.toSound, F.complete h.cons hnew⟩
  have m1 := List.mem_of_getElem? F.h1
  have m2 := List.mem_of_getElem? F.h2
  have r := h.inRange
  have re1 := r _ m1 e.1 ((F.has1 _).2 (by tauto))
  have re2 := r _ m1 e.2 ((F.has1 _).2 (by tauto))
  have ro1 := r _ m1 o1 ((F.has1 _).2 (by tauto))
  have ro2 := r _ m2 o2 ((F.has2 _).2 (by tauto))
  have hsum : ∀ X, M.Away X → ((flipped M e t1 t2 o1 o2 v1 v2).tris.map (ind M.pos X)).sum
      = (M.tris.map (ind M.pos X)).sum := by
    intro X hX
    rw [F.sum]
    obtain ⟨q1, q2, q3⟩ := quad_flip s0 s1 s2 (hX _ _ re1.1 re1.2 re2.1 re2.2 F.lt.ne)
      (hX _ _ ro1.1 ro1.2 ro2.1 ro2.2 F.oo)
    have i1 := inTri_perm M.pos (h.cons.proper _ m1) F.has1 X
    have i2 := inTri_perm M.pos (h.cons.proper _ m2) F.has2 X
    have key : ind M.pos X T1 + ind M.pos X T2 = ind M.pos X ⟨o1, e.1, o2⟩ + ind M.pos X ⟨o1, o2, e.2⟩ := by
      by_cases b1 : InTri (M.pos o1) (M.pos e.1) (M.pos e.2) X ∨ InTri (M.pos o2) (M.pos e.1) (M.pos e.2) X
      · have l1 : ind M.pos X T1 + ind M.pos X T2 = 1 := by
          rcases b1 with b | b
          · rw [ind_one (i1.2 b), ind_zero (fun hh => q2 ⟨b, i2.1 hh⟩), add_zero]
          · rw [ind_one (i2.2 b), ind_zero (fun hh => q2 ⟨i1.1 hh, b⟩), zero_add]
        have l2 : ind M.pos X ⟨o1, e.1, o2⟩ + ind M.pos X ⟨o1, o2, e.2⟩ = 1 := by
          rcases q1.1 b1 with b | b
          · rw [ind_one (T := ⟨o1, e.1, o2⟩) b, ind_zero (T := ⟨o1, o2, e.2⟩) (fun hh => q3 ⟨b, hh⟩), add_zero]
          · rw [ind_one (T := ⟨o1, o2, e.2⟩) b, ind_zero (T := ⟨o1, e.1, o2⟩) (fun hh => q3 ⟨hh, b⟩), zero_add]
        rw [l1, l2]
      · have b2 := fun hh => b1 (q1.2 hh)
        rw [ind_zero (fun hh => b1 (Or.inl (i1.1 hh))), ind_zero (fun hh => b1 (Or.inr (i2.1 hh))),
          ind_zero (T := ⟨o1, e.1, o2⟩) (fun hh => b2 (Or.inl hh)),
          ind_zero (T := ⟨o1, o2, e.2⟩) (fun hh => b2 (Or.inr hh))]
    linarith
  refine ⟨⟨hcons, F.atMostTwo h.two, ?_, F.planar h.cons.toSound h.planar s0 s1 s2, h.stored, h.general, h.hull,
    h.nodup, ?_, h.inA, ?_, ?_, ?_⟩, ?_⟩
  · intro x l hx hl
    rw [F.e2t] at hx
    subst hl
    split_ifs at hx
    · have := congrArg List.length (Option.some.inj hx)
      rw [length_relabel] at this
      exact h.full _ _ F.hv2 (List.length_eq_zero_iff.1 this)
    · have := congrArg List.length (Option.some.inj hx)
      rw [length_relabel] at this
      exact h.full _ _ F.hv1 (List.length_eq_zero_iff.1 this)
    · cases hx
    · exact h.full _ _ hx rfl
  · intro b hb
    have hne := h.hull.ne b hb
    have hs := (single_iff h.cons hne).1 (h.single b hb)
    rw [single_iff hcons hne, F.e2t]
    split_ifs with k1 k2 k3 k4
    · rw [k1, F.hv2] at hs
      simpa [length_relabel] using hs
    · rw [k2, F.hv1] at hs
      simpa [length_relabel] using hs
    · rw [k3, hnew] at hs; simp at hs
    · rw [k4, F.entry] at hs; simp at hs
    · exact hs
  · intro T hT v hv
    obtain ⟨T', h1, h2⟩ := F.has_old hT hv
    exact h.verts _ h1 _ h2
  · intro X hX hi
    exact (hsum X hX).trans (h.cover X hX hi)
  · intro X hX hi
    exact (hsum X hX).trans (h.outer X hX hi)
  · intro v
    constructor
    · rintro ⟨T, hT, hv⟩; exact F.has_old hT hv
    · rintro ⟨T, hT, hv⟩
      obtain ⟨n, hn⟩ := List.mem_iff_getElem?.1 hT
      have N1 : (flipped M e t1 t2 o1 o2 v1 v2).tris[t1]? = some ⟨o1, e.1, o2⟩ := by
        rw [F.tris, if_neg F.ne, if_pos rfl]
      have N2 : (flipped M e t1 t2 o1 o2 v1 v2).tris[t2]? = some ⟨o1, o2, e.2⟩ := by rw [F.tris, if_pos rfl]
      have N1' := List.mem_of_getElem? N1
      have N2' := List.mem_of_getElem? N2
      by_cases e1 : n = t1
      · subst e1
        rw [F.h1] at hn; obtain rfl := Option.some.inj hn
        rcases (F.has1 v).1 hv with rfl | rfl | rfl
        · exact ⟨_, N1', Or.inl rfl⟩
        · exact ⟨_, N1', Or.inr (Or.inl rfl)⟩
        · exact ⟨_, N2', Or.inr (Or.inr rfl)⟩
      · by_cases e2 : n = t2
        · subst e2
          rw [F.h2] at hn; obtain rfl := Option.some.inj hn
          rcases (F.has2 v).1 hv with rfl | rfl | rfl
          · exact ⟨_, N1', Or.inr (Or.inr rfl)⟩
          · exact ⟨_, N1', Or.inr (Or.inl rfl)⟩
          · exact ⟨_, N2', Or.inr (Or.inr rfl)⟩
        · exact ⟨T, List.mem_of_getElem? (by rw [F.tris, if_neg e2, if_neg e1]; exact hn), hv⟩

/-- `flipOneEdge` keeps the triangulation and never raises -/
theorem Mesh.Tiled.flipOne (hE : R.IsExact) (hA : R.IsExactAngle) (h : M.Tiled R A) (e : ℤ × ℤ) :
    ∃ M' r, R.flipOneEdge M e = .ok (M', r) ∧ M'.Tiled R A ∧
      (∀ v, (∃ T ∈ M'.tris, T.Has v) ↔ ∃ T ∈ M.tris, T.Has v) ∧ M'.bnd = M.bnd := by
  obtain ⟨M', r, hr⟩ := C61_no_error (R := R) h.cons h.two h.inRange e (h.planar.oppNe h.cons.toSound e)
  refine ⟨M', r, hr, ?_⟩
  rcases flip_cases hr with ⟨rfl, -⟩ | ⟨t1, t2, T1, T2, p, q, a, b, v1, v2, F, rfl, -⟩
  · exact ⟨h, fun _ => Iff.rfl, rfl⟩
  · obtain ⟨G, s0, hI⟩ := F.illegal hE hA h.good
    obtain ⟨s1, s2⟩ := quad_signs s0 hI
    obtain ⟨g1, g2⟩ := h.flip G s0 s1 s2
    exact ⟨g1, g2, rfl⟩

theorem Mesh.Tiled.flipRound (hE : R.IsExact) (hA : R.IsExactAngle) (es : List (ℤ × ℤ)) :
    ∀ {M : Mesh K}, M.Tiled R A → ∃ M' r, R.flipRound M es = .ok (M', r) ∧ M'.Tiled R A ∧
      (∀ v, (∃ T ∈ M'.tris, T.Has v) ↔ ∃ T ∈ M.tris, T.Has v) ∧ M'.bnd = M.bnd := by
  induction es with
  | nil => intro M h; exact ⟨M, [], rfl, h, fun _ => Iff.rfl, rfl⟩
  | cons e es ih =>
    intro M h
    obtain ⟨M1, r1, a1, a2, a3, a4⟩ := h.flipOne hE hA e
    obtain ⟨M2, r2, b1, b2, b3, b4⟩ := ih a2
    refine ⟨M2, r1 ∪ r2, ?_, b2, fun v => (b3 v).trans (a3 v), b4.trans a4⟩
    unfold Rt.flipRound
    rw [a1]
    dsimp only
    rw [b1]

end flip

end Srep
