import Verif.Props.TriangulateEx

/-! C120 needs general position: a node on the line of a side leaves a flat triangle. -/

set_option linter.unusedSectionVars false

namespace Srep

/-- no flip if both opposite angles are at most right angles -/
theorem flipTest_acute {p q a b : Pt ℝ} (hp : exReal.Stored p) (hq : exReal.Stored q) (ha : exReal.Stored a)
    (hb : exReal.Stored b) (h1 : 0 ≤ dot3 a p q) (h2 : 0 ≤ dot3 b p q) : exReal.flipTest p q a b = false := by
  have hE := exReal_isExact
  unfold Rt.flipTest Rt.oppAngle
  rw [areaOf_exact hE ha hp hq, areaOf_exact hE hb hq hp, dotOf_exact hE ha hp hq, dotOf_exact hE hb hp hq, hE.mul',
    hE.add', hE.add', hE.eps', decide_eq_false_iff_not, not_lt]
  have hpi : exReal.trig.atan2 0 (-1) = Real.pi := by
    have e : (⟨-1, 0⟩ : ℂ) = -1 := by apply Complex.ext <;> simp
    simp only [exReal, Rt.real]
    rw [e, Complex.arg_neg_one]
  have key : ∀ y x : ℝ, 0 ≤ x → |exReal.trig.atan2 y x| ≤ Real.pi / 2 := by
    intro y x hx
    simp only [exReal, Rt.real]
    exact Complex.abs_arg_le_pi_div_two_iff.2 hx
  unfold dot3 at h1 h2
  have k1 := key (det3 a p q) _ h1
  have k2 := key (det3 b q p) _ h2
  rw [hpi]
  have := Real.pi_pos
  have : Real.pi * (1 + 1 / 10 ^ 8) = Real.pi + Real.pi / 10 ^ 8 := by ring
  have : 0 < Real.pi / 10 ^ 8 := by positivity
  linarith

/-- the scalar product of whole numbers -/
def idot (a b c : ℤ × ℤ) : ℤ := (b.1 - a.1) * (c.1 - a.1) + (b.2 - a.2) * (c.2 - a.2)

theorem ipt_dot (a b c : ℤ × ℤ) : dot3 (ipt a) (ipt b) (ipt c) = (idot a b c : ℝ) := by
  unfold dot3 ipt idot; push_cast; ring

theorem stored_ipt (z : ℤ × ℤ) : exReal.Stored (ipt z) := by
  rw [exReal_isExact.stored_iff]
  exact ⟨grid_intCast (K := ℝ) z.1, grid_intCast (K := ℝ) z.2⟩

theorem ipt_area (a b c : ℤ × ℤ) : exReal.areaOf (ipt a) (ipt b) (ipt c) = (idet a b c : ℝ) := by
  rw [areaOf_exact exReal_isExact (stored_ipt a) (stored_ipt b) (stored_ipt c), ipt_det]

theorem ipt_no_flip (p q a b : ℤ × ℤ) (h1 : 0 ≤ idot a p q) (h2 : 0 ≤ idot b p q) :
    exReal.flipTest (ipt p) (ipt q) (ipt a) (ipt b) = false := by
  refine flipTest_acute (stored_ipt p) (stored_ipt q) (stored_ipt a) (stored_ipt b) ?_ ?_ <;> rw [ipt_dot]
  · exact_mod_cast h1
  · exact_mod_cast h2

theorem int_lt_eps (n : ℤ) : ((n : ℝ) < exReal.eps) ↔ n ≤ 0 := by
  rw [exReal_isExact.eps']
  constructor
  · intro h
    by_contra hc
    have : (1 : ℝ) ≤ n := by exact_mod_cast (by omega : (1 : ℤ) ≤ n)
    norm_num at h
    linarith
  · intro h
    have : (n : ℝ) ≤ 0 := by exact_mod_cast h
    have : (0 : ℝ) < 1 / 10 ^ 8 := by norm_num
    linarith

theorem int_lt_neg_eps (n : ℤ) : ((n : ℝ) < -exReal.eps) ↔ n < 0 := by
  rw [exReal_isExact.eps']
  constructor
  · intro h
    by_contra hc
    have : (0 : ℝ) ≤ n := by exact_mod_cast (by omega : (0 : ℤ) ≤ n)
    have : (0 : ℝ) < 1 / 10 ^ 8 := by norm_num
    linarith
  · intro h
    have : (n : ℝ) ≤ -1 := by exact_mod_cast (by omega : n ≤ -1)
    norm_num
    linarith

/-- four nodes, three on the line y = 0 -/
def flatPts : List (ℤ × ℤ) := [(1, 0), (-1, 0), (-1, 4), (5, 0)]

theorem flatPts_centroid : exReal.centroid (flatPts.map ipt) = .ok (ipt (1, 1)) := by
  have hs : flatPts.foldl (fun a b => (a.1 + b.1, a.2 + b.2)) (0, 0) = (4, 4) := by decide
  have h0 : (⟨0, 0⟩ : Pt ℝ) = ipt (0, 0) := by unfold ipt; simp
  unfold Rt.centroid
  rw [if_neg (by simp [flatPts])]
  dsimp only
  rw [h0, ipt_sum, hs, exReal_isExact.div', exReal_isExact.div', show (ipt (4, 4)).x = 4 by simp [ipt],
    show (ipt (4, 4)).y = 4 by simp [ipt], show (((flatPts.map ipt).length : ℕ) : ℝ) = 4 by simp [flatPts],
    div_self (by norm_num)]
  have := ipt_mk 1 1
  simp only [Int.cast_one] at this
  rw [this]

theorem flatPts_sorted : exReal.sortedFrom (ipt (1, 1)) (flatPts.map ipt) = flatPts.map ipt := by
  have hkey : ∀ z : ℤ × ℤ, exReal.sq (exReal.distance (ipt (1, 1)) (ipt z))
      = (((1 - z.1) * (1 - z.1) + (1 - z.2) * (1 - z.2) : ℤ) : ℝ) := by
    intro z
    have hE := exReal_isExact
    rw [hE.sq, hE.distance', hE.sqrt_sq _ (add_nonneg (mul_self_nonneg _) (mul_self_nonneg _))]
    unfold ipt
    push_cast
    ring
  unfold Rt.sortedFrom
  apply List.Pairwise.insertionSort_eq
  rw [List.pairwise_map]
  simp only [hkey]
  have : flatPts.Pairwise fun z w => (1 - z.1) * (1 - z.1) + (1 - z.2) * (1 - z.2)
      ≤ (1 - w.1) * (1 - w.1) + (1 - w.2) * (1 - w.2) := by decide
  exact this.imp fun h => by exact_mod_cast h

/-- the mesh with the first triangle -/
noncomputable def flat0 : Mesh ℝ := ⟨flatPts.map ipt, [⟨0, 2, 1⟩],
  (((E2T.empty).set (makeKey 0 2) [0]).set (makeKey 2 1) [0]).set (makeKey 1 0) [0], [(0, 2), (2, 1), (1, 0)]⟩

theorem flat_area (i j k : ℕ) {a b c : ℤ × ℤ} (ha : flatPts[i]? = some a) (hb : flatPts[j]? = some b)
    (hc : flatPts[k]? = some c) : exReal.getArea (flatPts.map ipt) i j k = .ok (idet a b c : ℝ) := by
  have g : ∀ (n : ℕ) {z : ℤ × ℤ}, flatPts[n]? = some z → pyGet (flatPts.map ipt) (n : ℤ) = some (ipt z) := by
    intro n z h
    unfold pyGet
    rw [if_pos (by omega), Int.toNat_natCast, List.getElem?_map, h]
    rfl
  unfold Rt.getArea
  rw [g i ha, g j hb, g k hc]
  dsimp only
  rw [ipt_area]

theorem flat_drop : exReal.dropFlat (flatPts.map ipt) = flatPts.map ipt := by
  simp only [flatPts, List.map_cons, List.map_nil]
  unfold Rt.dropFlat
  rw [if_neg]
  rw [ipt_area, exReal_isExact.eps']
  norm_num [idet]

theorem flat_first : exReal.firstMesh (flatPts.map ipt) = some (.ok flat0) := by
  have hc : exReal.makeCcw (flatPts.map ipt) ⟨0, 1, 2⟩ = .ok ⟨0, 2, 1⟩ := by
    have := flat_area 0 1 2 rfl rfl rfl
    unfold Rt.makeCcw
    have h2 : exReal.getArea (flatPts.map ipt) 0 1 2 = _ := this
    rw [h2]
    dsimp only
    rw [if_pos ((int_lt_neg_eps _).2 (by decide))]
  unfold Rt.firstMesh
  rw [flat_drop, hc, if_pos (by simp [flatPts])]
  rfl

/-- the mesh after the last point was added -/
noncomputable def flat1 : Mesh ℝ := ⟨flatPts.map ipt, [⟨0, 2, 1⟩, ⟨0, 3, 2⟩, ⟨0, 1, 3⟩],
  (((((((((E2T.empty).set (makeKey 0 2) [0]).set (makeKey 2 1) [0]).set (makeKey 1 0) [0]).set (makeKey 0 2) [0, 1]).set
    (makeKey 3 0) [1]).set (makeKey 2 3) [1]).set (makeKey 1 0) [0, 2]).set (makeKey 3 1) [2]).set (makeKey 0 3) [1, 2],
  [(2, 1), (3, 2), (1, 3)]⟩

theorem flat_vis (i j : ℕ) {a b : ℤ × ℤ} (ha : flatPts[i]? = some a) (hb : flatPts[j]? = some b) :
    exReal.isEdgeVisible (flatPts.map ipt) 3 ((i : ℤ), (j : ℤ)) = .ok (decide (idet (5, 0) a b ≤ 0)) := by
  unfold Rt.isEdgeVisible
  have := flat_area 3 i j rfl ha hb
  have h2 : exReal.getArea (flatPts.map ipt) 3 (i : ℤ) (j : ℤ) = _ := this
  dsimp only
  rw [h2]
  simp only [Except.map]
  rw [Except.ok.injEq, decide_eq_decide]
  exact int_lt_eps _

theorem flat_add : exReal.addPoint flat0 3 = .ok flat1 := by
  have v1 : exReal.isEdgeVisible (flatPts.map ipt) 3 (0, 2) = .ok true := flat_vis 0 2 rfl rfl
  have v2 : exReal.isEdgeVisible (flatPts.map ipt) 3 (2, 1) = .ok false := flat_vis 2 1 rfl rfl
  have v3 : exReal.isEdgeVisible (flatPts.map ipt) 3 (1, 0) = .ok true := flat_vis 1 0 rfl rfl
  have c1 : exReal.makeCcw (flatPts.map ipt) ⟨0, 2, 3⟩ = .ok ⟨0, 3, 2⟩ := by
    have h2 : exReal.getArea (flatPts.map ipt) 0 2 3 = _ := flat_area 0 2 3 rfl rfl rfl
    unfold Rt.makeCcw
    rw [h2]
    dsimp only
    rw [if_pos ((int_lt_neg_eps _).2 (by decide))]
  have c2 : exReal.makeCcw (flatPts.map ipt) ⟨0, 1, 3⟩ = .ok ⟨0, 1, 3⟩ := by
    have h2 : exReal.getArea (flatPts.map ipt) 0 1 3 = _ := flat_area 0 1 3 rfl rfl rfl
    unfold Rt.makeCcw
    rw [h2]
    dsimp only
    rw [if_neg (fun h => by have := (int_lt_neg_eps _).1 h; revert this; decide)]
  have s1 : Tri.sorted 0 2 3 = ⟨0, 2, 3⟩ := by decide
  have s2 : Tri.sorted 1 0 3 = ⟨0, 1, 3⟩ := by decide
  have a1 : exReal.addEdge flat0 3 (0, 2) = .ok ⟨flatPts.map ipt, [⟨0, 2, 1⟩, ⟨0, 3, 2⟩],
      ((((((E2T.empty).set (makeKey 0 2) [0]).set (makeKey 2 1) [0]).set (makeKey 1 0) [0]).set (makeKey 0 2) [0, 1]).set
        (makeKey 3 0) [1]).set (makeKey 2 3) [1], [(0, 2), (2, 1), (1, 0)]⟩ := by
    unfold Rt.addEdge flat0
    dsimp only
    rw [s1, c1]
    rfl
  have a2 : exReal.addEdge ⟨flatPts.map ipt, [⟨0, 2, 1⟩, ⟨0, 3, 2⟩],
      ((((((E2T.empty).set (makeKey 0 2) [0]).set (makeKey 2 1) [0]).set (makeKey 1 0) [0]).set (makeKey 0 2) [0, 1]).set
        (makeKey 3 0) [1]).set (makeKey 2 3) [1], [(0, 2), (2, 1), (1, 0)]⟩ 3 (1, 0)
      = .ok { flat1 with bnd := [(0, 2), (2, 1), (1, 0)] } := by
    unfold Rt.addEdge flat1
    dsimp only
    rw [s2, c2]
    rfl
  unfold Rt.addPoint
  have hl : exReal.addLoop 3 flat0.bnd flat0 = .ok ({ flat1 with bnd := [(0, 2), (2, 1), (1, 0)] }, [(0, 2), (1, 0)]) := by
    have hb : flat0.bnd = [(0, 2), (2, 1), (1, 0)] := rfl
    have hp : flat0.points = flatPts.map ipt := rfl
    rw [hb]
    simp only [Rt.addLoop, hp, v1, a1, v2, v3, a2]
  rw [hl]
  dsimp only
  have hn : newBoundary { flat1 with bnd := [(0, 2), (2, 1), (1, 0)] } 3 [(0, 2), (1, 0)] = .ok [(2, 1), (3, 2), (1, 3)] := by
    unfold newBoundary flat1
    decide
  rw [hn]
  rfl

theorem flat_one : ∀ e ∈ flat1.keys, exReal.flipOneEdge flat1 e = .ok (flat1, []) := by
  have hk : flat1.keys = [(1, 2), (2, 3), (0, 2), (0, 1), (1, 3), (0, 3)] := by decide
  rw [hk]
  have one : ∀ (e : ℤ × ℤ) (n : ℕ), flat1.e2t e = some [n] → exReal.flipOneEdge flat1 e = .ok (flat1, []) := by
    intro e n h
    unfold Rt.flipOneEdge
    rw [h]
    rfl
  have two : ∀ (e : ℤ × ℤ) (n m : ℕ) (T S : Tri) (p q a b : ℤ × ℤ), flat1.e2t e = some [n, m] → flat1.tris[n]? = some T →
      flat1.tris[m]? = some S → pyGet flat1.points e.1 = some (ipt p) → pyGet flat1.points e.2 = some (ipt q) →
      pyGet flat1.points (T.opp e) = some (ipt a) → pyGet flat1.points (S.opp e) = some (ipt b) →
      0 ≤ idot a p q → 0 ≤ idot b p q → exReal.flipOneEdge flat1 e = .ok (flat1, []) := by
    intro e n m T S p q a b h1 h2 h3 h4 h5 h6 h7 h8 h9
    unfold Rt.flipOneEdge
    rw [h1]
    dsimp only [Option.getD_some]
    rw [h2, h3]
    dsimp only
    rw [h4, h5, h6, h7]
    dsimp only
    rw [ipt_no_flip p q a b h8 h9]
    rfl
  intro e he
  simp only [List.mem_cons, List.not_mem_nil, or_false] at he
  rcases he with rfl | rfl | rfl | rfl | rfl | rfl
  · exact one _ 0 rfl
  · exact one _ 1 rfl
  · exact two _ 0 1 ⟨0, 2, 1⟩ ⟨0, 3, 2⟩ (1, 0) (-1, 4) (-1, 0) (5, 0) rfl rfl rfl rfl rfl rfl rfl (by decide) (by decide)
  · exact two _ 0 2 ⟨0, 2, 1⟩ ⟨0, 1, 3⟩ (1, 0) (-1, 0) (-1, 4) (5, 0) rfl rfl rfl rfl rfl rfl rfl (by decide) (by decide)
  · exact one _ 2 rfl
  · exact two _ 1 2 ⟨0, 3, 2⟩ ⟨0, 1, 3⟩ (1, 0) (5, 0) (-1, 4) (-1, 0) rfl rfl rfl rfl rfl rfl rfl (by decide) (by decide)

theorem flat_round : ∀ es : List (ℤ × ℤ), (∀ e ∈ es, exReal.flipOneEdge flat1 e = .ok (flat1, [])) →
    exReal.flipRound flat1 es = .ok (flat1, []) := by
  intro es
  induction es with
  | nil => intro _; rfl
  | cons e es ih =>
    intro h
    unfold Rt.flipRound
    rw [h e List.mem_cons_self]
    dsimp only
    rw [ih fun x hx => h x (List.mem_cons_of_mem _ hx)]
    rfl

/-- the run on the four nodes -/
theorem flat_run (f : ℕ) : exReal.delaunay plainOrders (flatPts.map ipt) (f + 1) = some (.ok flat1) := by
  unfold Rt.delaunay
  rw [flatPts_centroid]
  dsimp only
  rw [flatPts_sorted, flat_first]
  have hp : plainOrders.pops flat0.points.length = [3] := rfl
  dsimp only
  rw [hp]
  have ha : exReal.addPointBy plainOrders flat0 3 (f + 1) = some (.ok flat1) := by
    unfold Rt.addPointBy
    have : exReal.addPoint { flat0 with bnd := plainOrders.bnd 3 flat0.bnd } 3 = .ok flat1 := flat_add
    rw [this]
    dsimp only
    unfold Rt.flipEdgesBy
    rw [show plainOrders.edges 3 0 flat1.keys = flat1.keys from rfl, flat_round _ flat_one]
  unfold Rt.addAll
  rw [ha]
  rfl

/-- C120 fails without general position: of the four nodes (1, 0), (-1, 0), (-1, 4), (5, 0), three of them on a line, the
result has the flat triangle (1, 0), (-1, 0), (5, 0). -/
theorem C120_flat (f : ℕ) : ∃ M : Mesh ℝ, exReal.delaunay plainOrders (flatPts.map ipt) (f + 1) = some (.ok M) ∧
    M.points = flatPts.map ipt ∧ ∃ T ∈ M.tris, T = ⟨0, 1, 3⟩ ∧ M.area T = 0 := by
  refine ⟨flat1, flat_run f, rfl, ⟨0, 1, 3⟩, by simp [flat1], rfl, ?_⟩
  · have p0 : flat1.pos 0 = ipt (1, 0) := rfl
    have p1 : flat1.pos 1 = ipt (-1, 0) := rfl
    have p3 : flat1.pos 3 = ipt (5, 0) := rfl
    unfold Mesh.area
    dsimp only
    rw [p0, p1, p3, ipt_det]
    norm_num [idet]

end Srep
