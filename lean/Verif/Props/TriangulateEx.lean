import Verif.Props.Triangulate
import Verif.Spec.Example

/-! C120: points to which the theorems apply, and what another order of `_pts.pop()` would do. -/

set_option linter.unusedSectionVars false

namespace Srep

/-- a point with whole coordinates -/
noncomputable def ipt (z : ℤ × ℤ) : Pt ℝ := ⟨z.1, z.2⟩

/-- the determinant of whole numbers -/
def idet (a b c : ℤ × ℤ) : ℤ := (b.1 - a.1) * (c.2 - a.2) - (b.2 - a.2) * (c.1 - a.1)

theorem ipt_det (a b c : ℤ × ℤ) : det3 (ipt a) (ipt b) (ipt c) = (idet a b c : ℝ) := by
  unfold det3 ipt idet; push_cast; ring

theorem ipt_inj {a b : ℤ × ℤ} (h : ipt a = ipt b) : a = b := by
  unfold ipt at h
  rw [Pt.mk.injEq] at h
  exact Prod.ext (by exact_mod_cast h.1) (by exact_mod_cast h.2)

theorem ipt_general {l : List (ℤ × ℤ)} (hn : l.Nodup)
    (h : ∀ p ∈ l, ∀ q ∈ l, ∀ r ∈ l, p ≠ q → q ≠ r → p ≠ r → idet p q r ≠ 0) : GeneralPos (l.map ipt) := by
  refine ⟨(List.nodup_map_iff_inj_on hn).2 fun x _ y _ hxy => ipt_inj hxy, ?_⟩
  intro p hp q hq r hr h1 h2 h3
  obtain ⟨p, mp, rfl⟩ := List.mem_map.1 hp
  obtain ⟨q, mq, rfl⟩ := List.mem_map.1 hq
  obtain ⟨r, mr, rfl⟩ := List.mem_map.1 hr
  have h0 := h p mp q mq r mr (fun hh => h1 (by rw [hh])) (fun hh => h2 (by rw [hh])) (fun hh => h3 (by rw [hh]))
  rw [ipt_det, ← Int.cast_abs]
  have : (1 : ℝ) ≤ ((|idet p q r| : ℤ) : ℝ) := by exact_mod_cast Int.one_le_abs h0
  refine lt_of_lt_of_le ?_ this
  norm_num

theorem ipt_stored {l : List (ℤ × ℤ)} : ∀ p ∈ l.map ipt, exReal.Stored p := by
  intro p hp
  obtain ⟨z, -, rfl⟩ := List.mem_map.1 hp
  rw [exReal_isExact.stored_iff]
  exact ⟨grid_intCast (K := ℝ) z.1, grid_intCast (K := ℝ) z.2⟩

/-- the orders CPython would use for whole numbers; the others as they come -/
def plainOrders : Orders := ⟨fun _ l => l, fun _ _ l => l, fromThree⟩

theorem plainOrders_valid : plainOrders.Valid :=
  ⟨fun _ _ => List.Perm.refl _, fun _ _ _ => List.Perm.refl _, fun _ => List.Perm.refl _⟩

/-- five points -/
def fivePts : List (ℤ × ℤ) := [(-10, 0), (-11, -3), (-11, 4), (12, 0), (20, -1)]

theorem fivePts_general : GeneralPos (fivePts.map ipt) := ipt_general (by decide) (by decide)

/-- the theorems apply to them -/
example : ∃ M f0, (∀ f, f0 ≤ f → exReal.delaunay plainOrders (fivePts.map ipt) f = some (.ok M)) ∧
    M.Triangulates (fivePts.map ipt) ∧ (∀ x, M.AngleOk exReal x) ∧
    (∀ p ∈ fivePts.map ipt, ∃ T ∈ M.tris, p = M.pos T.a ∨ p = M.pos T.b ∨ p = M.pos T.c) ∧
    M.tris.length + M.bnd.length = 8 := by
  obtain ⟨M, f0, h1, h2, -, -, h5⟩ := C120_triangulate exReal_isExact (Rt.real_isExactAngle _) plainOrders_valid ipt_stored
    fivePts_general (by simp [fivePts])
  obtain ⟨h6, h7⟩ := C120_all_points exReal_isExact (Rt.real_isExactAngle _) plainOrders_valid ipt_stored
    fivePts_general (by simp [fivePts]) rfl (h1 f0 le_rfl)
  refine ⟨M, f0, h1, h2, h5, h6, ?_⟩
  simp only [fivePts, List.length_map, List.length_cons, List.length_nil] at h7
  omega

/-- with five points the last two are popped in the other order -/
def swapOrders : Orders := ⟨fun _ l => l, fun _ _ l => l, fun n => if n = 5 then [4, 3] else fromThree n⟩

theorem swapOrders_valid : swapOrders.Valid := by
  refine ⟨fun _ _ => List.Perm.refl _, fun _ _ _ => List.Perm.refl _, fun n => ?_⟩
  unfold swapOrders
  dsimp only
  split_ifs with h
  · subst h
    exact List.Perm.swap 3 4 []
  · exact List.Perm.refl _

theorem ipt_mk (x y : ℤ) : exReal.mkPt (x : ℝ) (y : ℝ) = ipt (x, y) :=
  exReal_isExact.mkPt_grid (grid_intCast (K := ℝ) x) (grid_intCast (K := ℝ) y)

theorem ipt_sum (l : List (ℤ × ℤ)) : ∀ a, (l.map ipt).foldl exReal.ptAdd (ipt a)
    = ipt (l.foldl (fun a b => (a.1 + b.1, a.2 + b.2)) a) := by
  have ga : ∀ a b : ℤ × ℤ, exReal.ptAdd (ipt a) (ipt b) = ipt (a.1 + b.1, a.2 + b.2) := by
    intro a b
    unfold Rt.ptAdd
    rw [exReal_isExact.add', exReal_isExact.add', ← ipt_mk (a.1 + b.1)]
    unfold ipt
    push_cast
    rfl
  induction l with
  | nil => intro a; rfl
  | cons b l ih => intro a; simp only [List.map_cons, List.foldl_cons, ga]; exact ih _

theorem fivePts_centroid : exReal.centroid (fivePts.map ipt) = .ok ⟨0, 0⟩ := by
  have h0 : (⟨0, 0⟩ : Pt ℝ) = ipt (0, 0) := by unfold ipt; simp
  unfold Rt.centroid
  rw [if_neg (by simp [fivePts])]
  dsimp only
  rw [h0, ipt_sum]
  have hs : fivePts.foldl (fun a b => (a.1 + b.1, a.2 + b.2)) (0, 0) = (0, 0) := by decide
  rw [hs, exReal_isExact.div', exReal_isExact.div', show (ipt (0, 0)).x = 0 by simp [ipt],
    show (ipt (0, 0)).y = 0 by simp [ipt], zero_div]
  have := ipt_mk 0 0
  simp only [Int.cast_zero] at this
  rw [this]

theorem fivePts_sorted : exReal.sortedFrom ⟨0, 0⟩ (fivePts.map ipt) = fivePts.map ipt := by
  have hkey : ∀ z : ℤ × ℤ, exReal.sq (exReal.distance ⟨0, 0⟩ (ipt z)) = ((z.1 * z.1 + z.2 * z.2 : ℤ) : ℝ) := by
    intro z
    have hE := exReal_isExact
    rw [hE.sq, hE.distance', hE.sqrt_sq _ (add_nonneg (mul_self_nonneg _) (mul_self_nonneg _))]
    unfold ipt
    push_cast
    ring
  unfold Rt.sortedFrom
  apply List.Pairwise.insertionSort_eq
  rw [List.pairwise_map]
  simp only [hkey]
  have : fivePts.Pairwise fun a b => a.1 * a.1 + a.2 * a.2 ≤ b.1 * b.1 + b.2 * b.2 := by decide
  exact this.imp fun h => by exact_mod_cast h

/-- C120: with another order of `_pts.pop()` a point can be left out: (12, 0), popped after (20, -1), is then in the convex hull
already and becomes a corner of no triangle. -/
theorem C120_pop_order {M : Mesh ℝ} {f : ℕ} (h : exReal.delaunay swapOrders (fivePts.map ipt) f = some (.ok M)) :
    M.points = fivePts.map ipt ∧ ¬ ∃ T ∈ M.tris, T.Has 3 := by
  have hE := exReal_isExact
  have h3 : 3 ≤ (fivePts.map ipt).length := by simp [fivePts]
  obtain ⟨M', f0, c, h1, h2, h3', -⟩ := delaunay_run hE (Rt.real_isExactAngle _) swapOrders_valid ipt_stored
    fivePts_general h3
  obtain rfl : M = M' := by
    have a := delaunay_mono (le_max_left f f0) h
    rw [h1 _ (le_max_right f f0)] at a
    simpa using a.symm
  rw [fivePts_centroid, Except.ok.injEq] at h2
  subst h2
  rw [fivePts_sorted] at h3'
  refine ⟨h3', ?_⟩
  rw [(C120_corners hE (Rt.real_isExactAngle _) swapOrders_valid ipt_stored fivePts_general h3 h).2 [4] 3 [] rfl, not_not]
  have hpos : ∀ v : ℤ, M.pos v = (pyGet (fivePts.map ipt) v).getD ⟨0, 0⟩ := by intro v; unfold Mesh.pos; rw [h3']
  have p1 : M.pos 1 = ipt (-11, -3) := by rw [hpos]; rfl
  have p2 : M.pos 2 = ipt (-11, 4) := by rw [hpos]; rfl
  have p3 : M.pos 3 = ipt (12, 0) := by rw [hpos]; rfl
  have p4 : M.pos 4 = ipt (20, -1) := by rw [hpos]; rfl
  refine mem_hull_of_tri (a := (M.pos 1).pair) (b := (M.pos 4).pair) (c := (M.pos 2).pair)
    ⟨1, by simp, rfl⟩ ⟨4, by simp, rfl⟩ ⟨2, by simp, rfl⟩ ?_ ?_ ?_ ?_ <;>
    simp only [pair_pt, p1, p2, p3, p4, ipt_det] <;> norm_num [idet]

end Srep
