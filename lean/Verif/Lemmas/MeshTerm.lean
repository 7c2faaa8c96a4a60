import Verif.Lemmas.MeshGeom
import Verif.Props.Delaunay
import Mathlib.Data.Set.Finite.List
import Mathlib.Data.Set.Card

/-! A potential decreased by every flip; finiteness. -/

set_option linter.unusedSectionVars false

namespace Srep
variable {K : Type} [Field K] [LinearOrder K] [IsStrictOrderedRing K] [FloorRing K] {R : Rt K}

theorem sum_set {α : Type} (g : α → K) (l : List α) (i : ℕ) (y z : α) (h : l[i]? = some y) :
    ((l.set i z).map g).sum = (l.map g).sum - g y + g z := by
  induction l generalizing i with
  | nil => simp at h
  | cons a l ih =>
    cases i with
    | zero =>
      simp only [List.getElem?_cons_zero, Option.some.injEq] at h
      subst h
      simp only [List.set_cons_zero, List.map_cons, List.sum_cons]
      ring
    | succ i =>
      simp only [List.getElem?_cons_succ] at h
      simp only [List.set_cons_succ, List.map_cons, List.sum_cons, ih i h]
      ring

/-- sum of the squared distances of the vertices from the origin, times twice the area -/
def Mesh.weight (P : ℤ → Pt K) (T : Tri) : K :=
  |det3 (P T.a) (P T.b) (P T.c)| * (sqn (P T.a) + sqn (P T.b) + sqn (P T.c))

/-- the potential -/
def potential (P : ℤ → Pt K) (l : List Tri) : K := (l.map (Mesh.weight P)).sum

theorem tri_cases {T : Tri} (hp : T.Proper) {x y z : ℤ} (h : ∀ v, T.Has v ↔ v = x ∨ v = y ∨ v = z) :
    T = ⟨x, y, z⟩ ∨ T = ⟨x, z, y⟩ ∨ T = ⟨y, x, z⟩ ∨ T = ⟨y, z, x⟩ ∨ T = ⟨z, x, y⟩ ∨ T = ⟨z, y, x⟩ := by
  obtain ⟨a, b, c⟩ := T
  obtain ⟨h1, h2, h3⟩ := hp
  have ha := (h a).1 (Or.inl rfl)
  have hb := (h b).1 (Or.inr (Or.inl rfl))
  have hc := (h c).1 (Or.inr (Or.inr rfl))
  simp only [Tri.mk.injEq] at *
  rcases ha with rfl | rfl | rfl <;> rcases hb with rfl | rfl | rfl <;> rcases hc with rfl | rfl | rfl <;>
    simp_all

theorem tri_abs (P : ℤ → Pt K) {T : Tri} (hp : T.Proper) {x y z : ℤ}
    (h : ∀ v, T.Has v ↔ v = x ∨ v = y ∨ v = z) :
    |det3 (P T.a) (P T.b) (P T.c)| = |det3 (P x) (P y) (P z)| := by
  have e1 : det3 (P x) (P z) (P y) = -det3 (P x) (P y) (P z) := by unfold det3; ring
  have e2 : det3 (P y) (P x) (P z) = -det3 (P x) (P y) (P z) := by unfold det3; ring
  have e3 : det3 (P y) (P z) (P x) = det3 (P x) (P y) (P z) := by unfold det3; ring
  have e4 : det3 (P z) (P x) (P y) = det3 (P x) (P y) (P z) := by unfold det3; ring
  have e5 : det3 (P z) (P y) (P x) = -det3 (P x) (P y) (P z) := by unfold det3; ring
  rcases tri_cases hp h with rfl | rfl | rfl | rfl | rfl | rfl <;> dsimp only
  · rw [e1, abs_neg]
  · rw [e2, abs_neg]
  · rw [e3]
  · rw [e4]
  · rw [e5, abs_neg]

theorem tri_weight (P : ℤ → Pt K) {T : Tri} (hp : T.Proper) {x y z : ℤ}
    (h : ∀ v, T.Has v ↔ v = x ∨ v = y ∨ v = z) :
    Mesh.weight P T = |det3 (P x) (P y) (P z)| * (sqn (P x) + sqn (P y) + sqn (P z)) := by
  unfold Mesh.weight
  rw [tri_abs P hp h]
  rcases tri_cases hp h with rfl | rfl | rfl | rfl | rfl | rfl <;> dsimp only <;> ring

variable {M : Mesh K} {e : ℤ × ℤ} {t1 t2 : ℕ} {T1 T2 : Tri} {o1 o2 : ℤ} {v1 v2 : List ℕ}

theorem FlipFacts.sum (F : FlipFacts M e t1 t2 T1 T2 o1 o2 v1 v2) (g : Tri → K) :
    ((flipped M e t1 t2 o1 o2 v1 v2).tris.map g).sum =
      (M.tris.map g).sum - g T1 - g T2 + g ⟨o1, e.1, o2⟩ + g ⟨o1, o2, e.2⟩ := by
  unfold flipped
  rw [sum_set g _ t2 T2, sum_set g _ t1 T1 _ F.h1]
  · ring
  · rw [List.getElem?_set_ne F.ne]; exact F.h2

theorem FlipFacts.potential_lt (hM : M.Sound) (F : FlipFacts M e t1 t2 T1 T2 o1 o2 v1 v2)
    (s0 : 0 < det3 (M.pos o1) (M.pos e.1) (M.pos e.2) * det3 (M.pos o2) (M.pos e.2) (M.pos e.1))
    (hI : Illegal (M.pos e.1) (M.pos e.2) (M.pos o1) (M.pos o2)) :
    potential M.pos (flipped M e t1 t2 o1 o2 v1 v2).tris < potential M.pos M.tris := by
  unfold potential
  rw [F.sum, tri_weight M.pos (hM.proper _ (List.mem_of_getElem? F.h1)) F.has1,
    tri_weight M.pos (hM.proper _ (List.mem_of_getElem? F.h2)) F.has2]
  have := quad_abs_potential s0 hI
  unfold Mesh.weight
  dsimp only
  rw [det3_swap (M.pos o2) (M.pos e.2) (M.pos e.1), abs_neg]
  linarith

theorem FlipFacts.total_eq (hM : M.Sound) (F : FlipFacts M e t1 t2 T1 T2 o1 o2 v1 v2)
    (s0 : 0 < det3 (M.pos o1) (M.pos e.1) (M.pos e.2) * det3 (M.pos o2) (M.pos e.2) (M.pos e.1))
    (hI : Illegal (M.pos e.1) (M.pos e.2) (M.pos o1) (M.pos o2)) :
    (flipped M e t1 t2 o1 o2 v1 v2).total = M.total := by
  unfold Mesh.total Mesh.area
  rw [F.sum]
  have hpos : (flipped M e t1 t2 o1 o2 v1 v2).pos = M.pos := rfl
  rw [hpos, tri_abs M.pos (hM.proper _ (List.mem_of_getElem? F.h1)) F.has1,
    tri_abs M.pos (hM.proper _ (List.mem_of_getElem? F.h2)) F.has2]
  have := quad_abs_area s0 hI
  rw [det3_swap (M.pos o2) (M.pos e.2) (M.pos e.1), abs_neg]
  linarith

/-- What is needed for the geometric reasoning. -/
structure Mesh.Good (R : Rt K) (M : Mesh K) : Prop where
  sound : M.Sound
  planar : M.Planar
  stored : ∀ p ∈ M.points, R.Stored p

theorem pyGet_mem {α : Type} {l : List α} {n : ℤ} {x : α} (h : pyGet l n = some x) : x ∈ l := by
  unfold pyGet at h
  split_ifs at h <;> exact List.mem_of_getElem? h

theorem flipTest_illegal (hE : R.IsExact) (hA : R.IsExactAngle) {p q a b : Pt K} (hp : R.Stored p)
    (hq : R.Stored q) (ha : R.Stored a) (hb : R.Stored b) (h0 : 0 < det3 a p q * det3 b q p)
    (h : R.flipTest p q a b = true) : Illegal p q a b := by
  unfold Rt.flipTest Rt.oppAngle at h
  rw [decide_eq_true_eq, hE.add', hE.mul', hE.add', hE.eps', areaOf_exact hE ha hp hq, areaOf_exact hE hb hq hp,
    dotOf_exact hE ha hp hq, dotOf_exact hE hb hp hq] at h
  have h1 : det3 a p q ≠ 0 := fun hh => by rw [hh, zero_mul] at h0; exact lt_irrefl _ h0
  have h2 : det3 b q p ≠ 0 := fun hh => by rw [hh, mul_zero] at h0; exact lt_irrefl _ h0
  refine hA.sum _ _ _ _ h1 h2 (lt_of_le_of_lt ?_ h)
  have := hA.pi_nonneg
  have : (0 : K) < 1 / 10 ^ 8 := by positivity
  nlinarith

/-- An executed flip on a good mesh: signs and test at the four points. -/
theorem Flip.illegal (hE : R.IsExact) (hA : R.IsExactAngle) (hM : M.Good R) {p q a b : Pt K}
    (F : Flip R M e t1 t2 T1 T2 p q a b v1 v2) :
    FlipFacts M e t1 t2 T1 T2 (T1.opp e) (T2.opp e) v1 v2 ∧
    0 < det3 (M.pos (T1.opp e)) (M.pos e.1) (M.pos e.2) * det3 (M.pos (T2.opp e)) (M.pos e.2) (M.pos e.1) ∧
    Illegal (M.pos e.1) (M.pos e.2) (M.pos (T1.opp e)) (M.pos (T2.opp e)) := by
  have G := F.facts hM.sound (hM.planar.oppNe hM.sound e _ _ _ _ F.entry F.h1 F.h2)
  have pp : M.pos e.1 = p := by unfold Mesh.pos; rw [F.hp]; rfl
  have pq : M.pos e.2 = q := by unfold Mesh.pos; rw [F.hq]; rfl
  have pa : M.pos (T1.opp e) = a := by unfold Mesh.pos; rw [F.ha]; rfl
  have pb : M.pos (T2.opp e) = b := by unfold Mesh.pos; rw [F.hb]; rfl
  have h0 := hM.planar e t1 t2 T1 T2 _ _ F.entry F.h1 F.h2 ((G.has1 _).2 (Or.inl rfl)) G.o11 G.o12
    ((G.has2 _).2 (Or.inl rfl)) G.o21 G.o22
  have h1 : 0 < det3 (M.pos (T1.opp e)) (M.pos e.1) (M.pos e.2)
      * det3 (M.pos (T2.opp e)) (M.pos e.2) (M.pos e.1) := by
    have e1 := det3_rot (M.pos (T1.opp e)) (M.pos e.1) (M.pos e.2)
    have e2 : det3 (M.pos e.1) (M.pos e.2) (M.pos (T2.opp e))
        = -det3 (M.pos (T2.opp e)) (M.pos e.2) (M.pos e.1) := by unfold det3; ring
    rw [e1, e2] at h0
    linarith
  refine ⟨G, h1, ?_⟩
  rw [pp, pq, pa, pb] at h1 ⊢
  exact flipTest_illegal hE hA (hM.stored _ (pyGet_mem F.hp)) (hM.stored _ (pyGet_mem F.hq))
    (hM.stored _ (pyGet_mem F.ha)) (hM.stored _ (pyGet_mem F.hb)) h1 F.test

theorem Flip.good (hE : R.IsExact) (hA : R.IsExactAngle) (hM : M.Good R) {p q a b : Pt K}
    (F : Flip R M e t1 t2 T1 T2 p q a b v1 v2) :
    (flipped M e t1 t2 (T1.opp e) (T2.opp e) v1 v2).Good R := by
  obtain ⟨G, s0, hI⟩ := F.illegal hE hA hM
  obtain ⟨s1, s2⟩ := quad_signs s0 hI
  exact ⟨G.sound hM.sound, G.planar hM.sound hM.planar s0 s1 s2, hM.stored⟩

/-! ### finiteness -/

/-- triangle lists of the same length with vertices among those of `l` -/
def Triangulations (l : List Tri) : Set (List Tri) :=
  {L | L.length = l.length ∧ ∀ T ∈ L, ∀ v, T.Has v → ∃ T' ∈ l, T'.Has v}

theorem finite_triangulations (l : List Tri) : (Triangulations l).Finite := by
  have hV : {v : ℤ | ∃ T' ∈ l, T'.Has v}.Finite := by
    have : {v : ℤ | ∃ T' ∈ l, T'.Has v} = ⋃ T' ∈ {T' | T' ∈ l}, {v | T'.Has v} := by
      ext v; simp
    rw [this]
    refine Set.Finite.biUnion (List.finite_toSet l) ?_
    intro T _
    have : {v | T.Has v} = {T.a, T.b, T.c} := by
      ext v; simp [Tri.Has]
    rw [this]; exact Set.toFinite _
  set V := {v : ℤ | ∃ T' ∈ l, T'.Has v}
  have hT : {T : Tri | ∀ v, T.Has v → v ∈ V}.Finite := by
    refine Set.Finite.subset ((hV.prod (hV.prod hV)).image fun p => (⟨p.1, p.2.1, p.2.2⟩ : Tri)) ?_
    intro T h
    exact ⟨(T.a, T.b, T.c), ⟨h _ (Or.inl rfl), h _ (Or.inr (Or.inl rfl)), h _ (Or.inr (Or.inr rfl))⟩, rfl⟩
  set S := {T : Tri | ∀ v, T.Has v → v ∈ V}
  have := hT.to_subtype
  refine Set.Finite.subset ((List.finite_length_eq S l.length).image fun L => L.map Subtype.val) ?_
  rintro L ⟨h1, h2⟩
  refine ⟨L.attach.map fun T => ⟨T.1, fun v hv => h2 _ T.2 v hv⟩, by simpa using h1, ?_⟩
  simp

/-- number of triangle lists of smaller potential -/
noncomputable def rank (P : ℤ → Pt K) (B : List Tri) (l : List Tri) : ℕ :=
  Set.ncard {L ∈ Triangulations B | potential P L < potential P l}

theorem rank_lt {P : ℤ → Pt K} {B l l' : List Tri} (h : l' ∈ Triangulations B) (hp : potential P l' < potential P l) :
    rank P B l' < rank P B l := by
  unfold rank
  refine Set.ncard_lt_ncard ?_ ((finite_triangulations B).subset fun L hL => hL.1)
  refine ⟨fun L hL => ⟨hL.1, hL.2.trans hp⟩, ?_⟩
  intro hs
  have := hs (show l' ∈ {L ∈ Triangulations B | potential P L < potential P l} from ⟨h, hp⟩)
  exact lt_irrefl _ this.2

theorem FlipFacts.mem_triangulations (F : FlipFacts M e t1 t2 T1 T2 o1 o2 v1 v2) {B : List Tri}
    (h : M.tris ∈ Triangulations B) : (flipped M e t1 t2 o1 o2 v1 v2).tris ∈ Triangulations B := by
  refine ⟨by rw [← h.1]; simp [flipped], ?_⟩
  intro T hT v hv
  obtain ⟨T', h1, h2⟩ := F.has_old hT hv
  exact h.2 _ h1 _ h2

/-- one call of `flipOneEdge` on a good mesh -/
theorem flipOne_good (hE : R.IsExact) (hA : R.IsExactAngle) {M' : Mesh K} {r : List (ℤ × ℤ)} {B : List Tri}
    (hM : M.Good R) (hB : M.tris ∈ Triangulations B) (h : R.flipOneEdge M e = .ok (M', r)) :
    M'.Good R ∧ M'.points = M.points ∧ M'.tris ∈ Triangulations B ∧ M'.total = M.total ∧
      ((M' = M ∧ r = []) ∨ (r ≠ [] ∧ rank M.pos B M'.tris < rank M.pos B M.tris)) := by
  rcases flip_cases h with ⟨rfl, hr⟩ | ⟨t1, t2, T1, T2, p, q, a, b, v1, v2, F, rfl, hr⟩
  · exact ⟨hM, rfl, hB, rfl, Or.inl ⟨rfl, hr⟩⟩
  · obtain ⟨G, s0, hI⟩ := F.illegal hE hA hM
    have hm := G.mem_triangulations hB
    refine ⟨F.good hE hA hM, rfl, hm, G.total_eq hM.sound s0 hI, Or.inr ⟨by rw [hr]; simp, ?_⟩⟩
    exact rank_lt hm (G.potential_lt hM.sound s0 hI)

theorem flipRound_good (hE : R.IsExact) (hA : R.IsExactAngle) {B : List Tri} (es : List (ℤ × ℤ)) :
    ∀ {M M' : Mesh K} {r : List (ℤ × ℤ)}, M.Good R → M.tris ∈ Triangulations B →
      R.flipRound M es = .ok (M', r) →
      M'.Good R ∧ M'.points = M.points ∧ M'.tris ∈ Triangulations B ∧ M'.total = M.total ∧
      rank M.pos B M'.tris ≤ rank M.pos B M.tris ∧ (r ≠ [] → rank M.pos B M'.tris < rank M.pos B M.tris) := by
  induction es with
  | nil =>
    intro M M' r hM hB h
    simp only [Rt.flipRound, Except.ok.injEq, Prod.mk.injEq] at h
    obtain ⟨rfl, rfl⟩ := h
    exact ⟨hM, rfl, hB, rfl, le_rfl, fun h => absurd rfl h⟩
  | cons e es ih =>
    intro M M' r hM hB h
    unfold Rt.flipRound at h
    cases h1 : R.flipOneEdge M e with
    | error x => rw [h1] at h; cases h
    | ok p1 =>
      obtain ⟨M1, r1⟩ := p1
      rw [h1] at h
      dsimp only at h
      cases h2 : R.flipRound M1 es with
      | error x => rw [h2] at h; cases h
      | ok p2 =>
        obtain ⟨M2, r2⟩ := p2
        rw [h2] at h
        simp only [Except.ok.injEq, Prod.mk.injEq] at h
        obtain ⟨rfl, rfl⟩ := h
        obtain ⟨g1, g2, g3, g4, g5⟩ := flipOne_good hE hA hM hB h1
        obtain ⟨k1, k2, k3, k4, k5, k6⟩ := ih g1 g3 h2
        have hpos : M1.pos = M.pos := by funext v; unfold Mesh.pos; rw [g2]
        rw [hpos] at k5 k6
        have hle : rank M.pos B M1.tris ≤ rank M.pos B M.tris := by
          rcases g5 with ⟨rfl, -⟩ | ⟨-, g⟩
          · exact le_rfl
          · exact g.le
        refine ⟨k1, k2.trans g2, k3, k4.trans g4, k5.trans hle, ?_⟩
        intro hne
        rcases g5 with ⟨rfl, rfl⟩ | ⟨-, g⟩
        · exact k6 (by simpa using hne)
        · exact lt_of_le_of_lt k5 g

end Srep
