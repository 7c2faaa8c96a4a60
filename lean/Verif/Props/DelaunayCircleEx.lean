import Verif.Props.DelaunayCircle
import Verif.Props.TriangulateFlat

/-! C121: points to which the theorems apply, and the corners of a square, to which they do not. -/

set_option linter.unusedSectionVars false

namespace Srep

/-- the squared distance of whole numbers -/
def idist (a b : ℤ × ℤ) : ℤ := (a.1 - b.1) * (a.1 - b.1) + (a.2 - b.2) * (a.2 - b.2)

def icirc (a b c d : ℤ × ℤ) : ℤ := idist a d * idet d b c + idist b d * idet d c a + idist c d * idet d a b

theorem ipt_dist (a b : ℤ × ℤ) : dist2 (ipt a) (ipt b) = (idist a b : ℝ) := by
  unfold dist2 ipt idist; push_cast; ring

theorem ipt_circ (a b c d : ℤ × ℤ) : circDet (ipt a) (ipt b) (ipt c) (ipt d) = (icirc a b c d : ℝ) := by
  unfold circDet icirc
  simp only [ipt_dist, ipt_det]
  push_cast
  ring

theorem ipt_noFour {l : List (ℤ × ℤ)}
    (h : ∀ p ∈ l, ∀ q ∈ l, ∀ a ∈ l, ∀ b ∈ l, p ≠ q → p ≠ a → p ≠ b → q ≠ a → q ≠ b → a ≠ b →
      idist a p * idist a q * (idist b p * idist b q) < 10 ^ 15 * icirc a p q b ^ 2) : NoFourOnCircle (l.map ipt) := by
  intro p hp q hq a ha b hb h1 h2 h3 h4 h5 h6
  obtain ⟨p, mp, rfl⟩ := List.mem_map.1 hp
  obtain ⟨q, mq, rfl⟩ := List.mem_map.1 hq
  obtain ⟨a, ma, rfl⟩ := List.mem_map.1 ha
  obtain ⟨b, mb, rfl⟩ := List.mem_map.1 hb
  have h0 := h p mp q mq a ma b mb (fun hh => h1 (by rw [hh])) (fun hh => h2 (by rw [hh])) (fun hh => h3 (by rw [hh]))
    (fun hh => h4 (by rw [hh])) (fun hh => h5 (by rw [hh])) (fun hh => h6 (by rw [hh]))
  rw [ipt_dist, ipt_dist, ipt_dist, ipt_dist, ipt_circ]
  exact_mod_cast h0

theorem fivePts_noFour : NoFourOnCircle (fivePts.map ipt) := ipt_noFour (by decide)

/-- the theorems apply to the five points -/
example : ∃ M f, exReal.delaunay plainOrders (fivePts.map ipt) f = some (.ok M) ∧ M.tris ≠ [] ∧
    ∀ T ∈ M.tris, EmptyCircle (M.pos T.a) (M.pos T.b) (M.pos T.c) (fivePts.map ipt) := by
  obtain ⟨M, f0, h1, -⟩ := C120_triangulate exReal_isExact (Rt.real_isExactAngle _) plainOrders_valid ipt_stored
    fivePts_general (by simp [fivePts])
  have h := h1 f0 le_rfl
  refine ⟨M, f0, h, ?_, C121_empty_circle exReal_isExact (Rt.real_isExactAngle _) (Rt.real_isFineAngle _) plainOrders_valid
    ipt_stored fivePts_general fivePts_noFour (by simp [fivePts]) rfl h⟩
  have := (C120_all_points exReal_isExact (Rt.real_isExactAngle _) plainOrders_valid ipt_stored fivePts_general
    (by simp [fivePts]) rfl h).1 (ipt (12, 0)) (List.mem_map.2 ⟨(12, 0), by decide, rfl⟩)
  obtain ⟨T, hT, -⟩ := this
  exact List.ne_nil_of_mem hT

/-- of these, (-10, 0), (-11, -3), (-11, 4) are a triangle, (-11, -3), (-11, 4), (12, 0) are not -/
example {M : Mesh ℝ} {f : ℕ} (h : exReal.delaunay plainOrders (fivePts.map ipt) f = some (.ok M)) :
    (¬ ∃ T ∈ M.tris, M.HasCorners T (ipt (-11, -3)) (ipt (-11, 4)) (ipt (12, 0))) := by
  have mem : ∀ z ∈ fivePts, ipt z ∈ fivePts.map ipt := fun z hz => List.mem_map.2 ⟨z, hz, rfl⟩
  rw [C121_characterised exReal_isExact (Rt.real_isExactAngle _) (Rt.real_isFineAngle _) plainOrders_valid ipt_stored
    fivePts_general fivePts_noFour (by simp [fivePts]) rfl h (mem _ (by decide)) (mem _ (by decide)) (mem _ (by decide))
    (fun hh => by have := ipt_inj hh; revert this; decide) (fun hh => by have := ipt_inj hh; revert this; decide)
    (fun hh => by have := ipt_inj hh; revert this; decide)]
  rintro ⟨z, z1, z2, hz⟩
  have := hz (ipt (-10, 0)) (mem _ (by decide)) (fun hh => by have := ipt_inj hh; revert this; decide)
    (fun hh => by have := ipt_inj hh; revert this; decide) (fun hh => by have := ipt_inj hh; revert this; decide)
  unfold dist2 ipt at *
  push_cast at *
  nlinarith

/-! ### the corners of a square -/

section
variable (a b c d : ℤ × ℤ)

/-- the first triangle -/
noncomputable def four0 : Mesh ℝ := ⟨[a, b, c, d].map ipt, [⟨0, 1, 2⟩],
  (((E2T.empty).set (makeKey 0 1) [0]).set (makeKey 1 2) [0]).set (makeKey 2 0) [0], [(0, 1), (1, 2), (2, 0)]⟩

/-- the mesh after the last point was added -/
noncomputable def four1 : Mesh ℝ := ⟨[a, b, c, d].map ipt, [⟨0, 1, 2⟩, ⟨0, 2, 3⟩],
  ((((((E2T.empty).set (makeKey 0 1) [0]).set (makeKey 1 2) [0]).set (makeKey 2 0) [0]).set (makeKey 2 0) [0, 1]).set
    (makeKey 3 2) [1]).set (makeKey 0 3) [1],
  [(0, 1), (1, 2), (2, 3), (3, 0)]⟩

theorem four_area (l : List (ℤ × ℤ)) (i j k : ℕ) {a b c : ℤ × ℤ} (ha : l[i]? = some a) (hb : l[j]? = some b)
    (hc : l[k]? = some c) : exReal.getArea (l.map ipt) i j k = .ok (idet a b c : ℝ) := by
  have g : ∀ (n : ℕ) {z : ℤ × ℤ}, l[n]? = some z → pyGet (l.map ipt) (n : ℤ) = some (ipt z) := by
    intro n z h
    unfold pyGet
    rw [if_pos (by omega), Int.toNat_natCast, List.getElem?_map, h]
    rfl
  unfold Rt.getArea
  rw [g i ha, g j hb, g k hc]
  dsimp only
  rw [ipt_area]

variable {a b c d}

theorem four_first (h : 0 < idet a b c) : exReal.firstMesh ([a, b, c, d].map ipt) = some (.ok (four0 a b c d)) := by
  have h1 : (1 : ℝ) ≤ (idet a b c : ℝ) := by exact_mod_cast h
  have hd : exReal.dropFlat ([a, b, c, d].map ipt) = [a, b, c, d].map ipt := by
    simp only [List.map_cons, List.map_nil]
    unfold Rt.dropFlat
    rw [if_neg]
    rw [ipt_area, exReal_isExact.eps', abs_of_pos (by linarith)]
    norm_num
    linarith
  have hc : exReal.makeCcw ([a, b, c, d].map ipt) ⟨0, 1, 2⟩ = .ok ⟨0, 1, 2⟩ := by
    have h2 : exReal.getArea ([a, b, c, d].map ipt) 0 1 2 = _ := four_area [a, b, c, d] 0 1 2 rfl rfl rfl
    unfold Rt.makeCcw
    rw [h2]
    dsimp only
    rw [if_neg (fun hh => by have := (int_lt_neg_eps _).1 hh; omega)]
  unfold Rt.firstMesh
  rw [hd, hc, if_pos (by simp)]
  rfl

theorem four_add (h1 : 0 < idet d a b) (h2 : 0 < idet d b c) (h3 : idet d c a < 0) :
    exReal.addPoint (four0 a b c d) 3 = .ok (four1 a b c d) := by
  have vis : ∀ (i j : ℕ) {x y : ℤ × ℤ}, [a, b, c, d][i]? = some x → [a, b, c, d][j]? = some y →
      exReal.isEdgeVisible ([a, b, c, d].map ipt) 3 ((i : ℤ), (j : ℤ)) = .ok (decide (idet d x y ≤ 0)) := by
    intro i j x y hx hy
    unfold Rt.isEdgeVisible
    have h2 : exReal.getArea ([a, b, c, d].map ipt) 3 (i : ℤ) (j : ℤ) = _ := four_area [a, b, c, d] 3 i j rfl hx hy
    dsimp only
    rw [h2]
    simp only [Except.map]
    rw [Except.ok.injEq, decide_eq_decide]
    exact int_lt_eps _
  have v1 : exReal.isEdgeVisible ([a, b, c, d].map ipt) 3 (0, 1) = .ok false :=
    (vis 0 1 rfl rfl).trans (by rw [decide_eq_false (by omega)])
  have v2 : exReal.isEdgeVisible ([a, b, c, d].map ipt) 3 (1, 2) = .ok false :=
    (vis 1 2 rfl rfl).trans (by rw [decide_eq_false (by omega)])
  have v3 : exReal.isEdgeVisible ([a, b, c, d].map ipt) 3 (2, 0) = .ok true :=
    (vis 2 0 rfl rfl).trans (by rw [decide_eq_true (by omega)])
  have c1 : exReal.makeCcw ([a, b, c, d].map ipt) ⟨0, 2, 3⟩ = .ok ⟨0, 2, 3⟩ := by
    have h2 : exReal.getArea ([a, b, c, d].map ipt) 0 2 3 = _ := four_area [a, b, c, d] 0 2 3 rfl rfl rfl
    unfold Rt.makeCcw
    rw [h2]
    dsimp only
    have e : idet a c d = -idet d c a := by unfold idet; ring
    rw [if_neg (fun hh => by have := (int_lt_neg_eps _).1 hh; omega)]
  have s1 : Tri.sorted 2 0 3 = ⟨0, 2, 3⟩ := by decide
  have a1 : exReal.addEdge (four0 a b c d) 3 (2, 0) = .ok { four1 a b c d with bnd := [(0, 1), (1, 2), (2, 0)] } := by
    unfold Rt.addEdge four0
    dsimp only
    rw [s1, c1]
    rfl
  unfold Rt.addPoint
  have hl : exReal.addLoop 3 (four0 a b c d).bnd (four0 a b c d)
      = .ok ({ four1 a b c d with bnd := [(0, 1), (1, 2), (2, 0)] }, [(2, 0)]) := by
    have hb : (four0 a b c d).bnd = [(0, 1), (1, 2), (2, 0)] := rfl
    have hp : (four0 a b c d).points = [a, b, c, d].map ipt := rfl
    rw [hb]
    simp only [Rt.addLoop, hp, v1, v2, v3, a1]
  rw [hl]
  dsimp only
  have hn : newBoundary { four1 a b c d with bnd := [(0, 1), (1, 2), (2, 0)] } 3 [(2, 0)]
      = .ok [(0, 1), (1, 2), (2, 3), (3, 0)] := by
    rfl
  rw [hn]
  rfl

theorem four_one (h1 : 0 ≤ idot b a c) (h2 : 0 ≤ idot d a c) :
    ∀ e ∈ (four1 a b c d).keys, exReal.flipOneEdge (four1 a b c d) e = .ok (four1 a b c d, []) := by
  have hk : (four1 a b c d).keys = [(0, 1), (1, 2), (0, 2), (2, 3), (0, 3)] := by
    unfold Mesh.keys four1
    dsimp only
    decide
  rw [hk]
  have one : ∀ (e : ℤ × ℤ) (n : ℕ), (four1 a b c d).e2t e = some [n] →
      exReal.flipOneEdge (four1 a b c d) e = .ok (four1 a b c d, []) := by
    intro e n h
    unfold Rt.flipOneEdge
    rw [h]
    rfl
  intro e he
  simp only [List.mem_cons, List.not_mem_nil, or_false] at he
  rcases he with rfl | rfl | rfl | rfl | rfl
  · exact one _ 0 rfl
  · exact one _ 0 rfl
  · have g1 : (four1 a b c d).e2t (0, 2) = some [0, 1] := rfl
    have g2 : (four1 a b c d).tris[0]? = some ⟨0, 1, 2⟩ := rfl
    have g3 : (four1 a b c d).tris[1]? = some ⟨0, 2, 3⟩ := rfl
    have o1 : (⟨0, 1, 2⟩ : Tri).opp (0, 2) = 1 := by decide
    have o2 : (⟨0, 2, 3⟩ : Tri).opp (0, 2) = 3 := by decide
    have q0 : pyGet (four1 a b c d).points 0 = some (ipt a) := rfl
    have q1 : pyGet (four1 a b c d).points 1 = some (ipt b) := rfl
    have q2 : pyGet (four1 a b c d).points 2 = some (ipt c) := rfl
    have q3 : pyGet (four1 a b c d).points 3 = some (ipt d) := rfl
    unfold Rt.flipOneEdge
    rw [g1]
    dsimp only [Option.getD_some]
    rw [g2, g3]
    dsimp only
    rw [o1, o2, q0, q1, q2, q3]
    dsimp only
    rw [ipt_no_flip a c b d h1 h2]
    rfl
  · exact one _ 1 rfl
  · exact one _ 1 rfl

theorem four_round : ∀ es : List (ℤ × ℤ), (∀ e ∈ es, exReal.flipOneEdge (four1 a b c d) e = .ok (four1 a b c d, [])) →
    exReal.flipRound (four1 a b c d) es = .ok (four1 a b c d, []) := by
  intro es
  induction es with
  | nil => intro _; rfl
  | cons e es ih =>
    intro h
    unfold Rt.flipRound
    rw [h e List.mem_cons_self]
    dsimp only
    rw [ih fun x hx => h x (List.mem_cons_of_mem _ hx)]
    rfl

/-- four points around the origin at the same distance, in counterclockwise order -/
theorem four_run (hs : [a, b, c, d].foldl (fun a b => (a.1 + b.1, a.2 + b.2)) (0, 0) = (0, 0))
    (hr : [a, b, c, d].Pairwise fun a b => a.1 * a.1 + a.2 * a.2 ≤ b.1 * b.1 + b.2 * b.2) (h0 : 0 < idet a b c)
    (h1 : 0 < idet d a b) (h2 : 0 < idet d b c) (h3 : idet d c a < 0) (h4 : 0 ≤ idot b a c) (h5 : 0 ≤ idot d a c) (f : ℕ) :
    exReal.delaunay plainOrders ([a, b, c, d].map ipt) (f + 1) = some (.ok (four1 a b c d)) := by
  have hcen : exReal.centroid ([a, b, c, d].map ipt) = .ok ⟨0, 0⟩ := by
    have h0 : (⟨0, 0⟩ : Pt ℝ) = ipt (0, 0) := by unfold ipt; simp
    unfold Rt.centroid
    rw [if_neg (by simp)]
    dsimp only
    rw [h0, ipt_sum, hs, exReal_isExact.div', exReal_isExact.div', show (ipt (0, 0)).x = 0 by simp [ipt],
      show (ipt (0, 0)).y = 0 by simp [ipt], zero_div]
    have := ipt_mk 0 0
    simp only [Int.cast_zero] at this
    rw [this]
  have hsort : exReal.sortedFrom ⟨0, 0⟩ ([a, b, c, d].map ipt) = [a, b, c, d].map ipt := by
    have hkey : ∀ z : ℤ × ℤ, exReal.sq (exReal.distance ⟨0, 0⟩ (ipt z)) = ((z.1 * z.1 + z.2 * z.2 : ℤ) : ℝ) := by
      intro z
      have hE := exReal_isExact
      rw [hE.sq, hE.distance', hE.sqrt_sq _ (add_nonneg (mul_self_nonneg _) (mul_self_nonneg _))]
      unfold ipt
      push_cast
      ring
    unfold Rt.sortedFrom
    apply List.Pairwise.insertionSort_eq
    rw [List.pairwise_map]
    simp only [hkey]
    exact hr.imp fun h => by exact_mod_cast h
  unfold Rt.delaunay
  rw [hcen]
  dsimp only
  rw [hsort, four_first h0]
  have hp : plainOrders.pops (four0 a b c d).points.length = [3] := rfl
  dsimp only
  rw [hp]
  have ha : exReal.addPointBy plainOrders (four0 a b c d) 3 (f + 1) = some (.ok (four1 a b c d)) := by
    unfold Rt.addPointBy
    have : exReal.addPoint { four0 a b c d with bnd := plainOrders.bnd 3 (four0 a b c d).bnd } 3 = .ok (four1 a b c d) :=
      four_add h1 h2 h3
    rw [this]
    dsimp only
    unfold Rt.flipEdgesBy
    rw [show plainOrders.edges 3 0 (four1 a b c d).keys = (four1 a b c d).keys from rfl, four_round _ (four_one h4 h5)]
  unfold Rt.addAll
  rw [ha]
  rfl

end

/-- C121 fails for points on a circle: of the corners of a square, given in another order, other triples are triangles. -/
theorem C121_square (f : ℕ) : ∃ M M' : Mesh ℝ,
    exReal.delaunay plainOrders ([(1, 0), (0, 1), (-1, 0), (0, -1)].map ipt) (f + 1) = some (.ok M) ∧
    exReal.delaunay plainOrders ([(0, 1), (-1, 0), (0, -1), (1, 0)].map ipt) (f + 1) = some (.ok M') ∧
    (∃ T ∈ M'.tris, M'.HasCorners T (ipt (0, 1)) (ipt (-1, 0)) (ipt (0, -1))) ∧
    ¬ ∃ T ∈ M.tris, M.HasCorners T (ipt (0, 1)) (ipt (-1, 0)) (ipt (0, -1)) := by
  refine ⟨_, _, four_run (by decide) (by decide) (by decide) (by decide) (by decide) (by decide) (by decide) (by decide) f,
    four_run (by decide) (by decide) (by decide) (by decide) (by decide) (by decide) (by decide) (by decide) f, ?_, ?_⟩
  · exact ⟨⟨0, 1, 2⟩, by simp [four1], fun p => Iff.rfl⟩
  · rintro ⟨T, hT, hc⟩
    have hne : ∀ x y : ℤ × ℤ, x ≠ y → ipt x ≠ ipt y := fun x y h hh => h (ipt_inj hh)
    have := (hc (ipt (1, 0))).1 (by
      simp only [four1, List.mem_cons, List.not_mem_nil, or_false] at hT
      rcases hT with rfl | rfl
      · exact Or.inl rfl
      · exact Or.inl rfl)
    rcases this with h | h | h
    · exact hne _ _ (by decide) h
    · exact hne _ _ (by decide) h
    · exact hne _ _ (by decide) h

end Srep
