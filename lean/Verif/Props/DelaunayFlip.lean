import Verif.Lemmas.MeshTerm
import Verif.Spec.Example

/-!
# Edge flips of Delaunay2d in exact arithmetic (C77, C78)
-/

set_option linter.unusedSectionVars false

namespace Srep
variable {K : Type} [Field K] [LinearOrder K] [IsStrictOrderedRing K] [FloorRing K] {R : Rt K}

/-- the point `b` is strictly inside every circle through `a`, `p`, `q` -/
def InCircle (a p q b : Pt K) : Prop :=
  ∀ c : Pt K, dist2 c a = dist2 c p → dist2 c a = dist2 c q → dist2 c b < dist2 c a

theorem incircle_of_illegal {p q a b : Pt K} (h0 : 0 < det3 a p q * det3 b q p) (h : Illegal p q a b) :
    InCircle a p q b := by
  intro c e1 e2
  have id1 : ∀ p q a b : Pt K, dist2 c a = dist2 c p → dist2 c a = dist2 c q →
      cotSum p q a b = det3 a p q * (dist2 c b - dist2 c a) := by
    intro p q a b e1 e2
    have : cotSum p q a b - det3 a p q * (dist2 c b - dist2 c a)
        = det3 a b q * (dist2 c a - dist2 c p) + det3 a p b * (dist2 c a - dist2 c q) := by
      unfold cotSum det3 dot3 dist2; ring
    rw [← e1, ← e2, sub_self, mul_zero, mul_zero, add_zero] at this
    linarith
  rcases h.cases h0 with ⟨h1, h2, h3⟩ | ⟨h1, h2, h3⟩
  · rw [id1 p q a b e1 e2] at h3
    have := neg_of_mul_neg_right h3 h1.le
    linarith
  · rw [id1 q p a b e2 e1] at h3
    have := neg_of_mul_neg_right h3 h1.le
    linarith

/-- C77: exact arithmetic.  A call of `flipOneEdge` on a planar mesh with a sound table leaves a planar mesh
with a sound table, the same points, the same number of triangles and the same total area.  It changes the
mesh only if the edge has two triangles and the third vertex of the second is strictly inside the circumcircle
of the first. -/
theorem C77_flip (hE : R.IsExact) (hA : R.IsExactAngle) {M M' : Mesh K} {e : ℤ × ℤ} {r : List (ℤ × ℤ)}
    (hs : M.Sound) (hP : M.Planar) (hst : ∀ p ∈ M.points, R.Stored p)
    (h : R.flipOneEdge M e = .ok (M', r)) :
    M'.Sound ∧ M'.Planar ∧ M'.points = M.points ∧ M'.tris.length = M.tris.length ∧ M'.total = M.total ∧
    ((M' = M ∧ r = []) ∨ ∃ n m T S u v, M.e2t e = some [n, m] ∧ M.tris[n]? = some T ∧ M.tris[m]? = some S ∧
      (∀ w, T.Has w ↔ w = u ∨ w = e.1 ∨ w = e.2) ∧ (∀ w, S.Has w ↔ w = v ∨ w = e.1 ∨ w = e.2) ∧
      InCircle (M.pos u) (M.pos e.1) (M.pos e.2) (M.pos v) ∧
      M'.tris = (M.tris.set n ⟨u, e.1, v⟩).set m ⟨u, v, e.2⟩) := by
  have hM : M.Good R := ⟨hs, hP, hst⟩
  obtain ⟨g1, g2, g3, g4, -⟩ := flipOne_good hE hA (B := M.tris) hM ⟨rfl, fun T hT v hv => ⟨T, hT, hv⟩⟩ h
  refine ⟨g1.sound, g1.planar, g2, g3.1, g4, ?_⟩
  rcases flip_cases h with ⟨rfl, hr⟩ | ⟨t1, t2, T1, T2, p, q, a, b, v1, v2, F, rfl, hr⟩
  · exact Or.inl ⟨rfl, hr⟩
  · obtain ⟨G, s0, hI⟩ := F.illegal hE hA hM
    exact Or.inr ⟨t1, t2, T1, T2, _, _, F.entry, F.h1, F.h2, G.has1, G.has2, incircle_of_illegal s0 hI, rfl⟩

/-- C61: exact arithmetic.  A flip of a planar mesh with a sound table keeps the total area and planarity. -/
theorem C61_area (hE : R.IsExact) (hA : R.IsExactAngle) {M M' : Mesh K} {e : ℤ × ℤ} {r : List (ℤ × ℤ)}
    (hs : M.Sound) (hP : M.Planar) (hst : ∀ p ∈ M.points, R.Stored p)
    (h : R.flipOneEdge M e = .ok (M', r)) : M'.total = M.total ∧ M'.Planar :=
  let c := C77_flip hE hA hs hP hst h
  ⟨c.2.2.2.2.1, c.2.1⟩

/-! ## C78 -/

/-- the edge passes Delaunay's test -/
def Mesh.Legal (R : Rt K) (M : Mesh K) (x : ℤ × ℤ) : Prop :=
  ∀ n m T S, M.e2t x = some [n, m] → M.tris[n]? = some T → M.tris[m]? = some S →
    R.flipTest (M.pos x.1) (M.pos x.2) (M.pos (T.opp x)) (M.pos (S.opp x)) = false

theorem opp_eq {T : Tri} {x : ℤ × ℤ} {w : ℤ} (hp : T.Proper) (hx : T.HasEdge x) (hw : T.Has w) (h1 : w ≠ x.1)
    (h2 : w ≠ x.2) : T.opp x = w := by
  obtain ⟨-, -, a3⟩ := Tri.opp_spec hp hx
  rcases (a3 w).1 hw with h | h | h
  · exact h.symm
  · exact absurd h h1
  · exact absurd h h2

theorem opp_mid1 {o1 o2 u : ℤ} {x : ℤ × ℤ} (h1 : o1 ≠ u) (h2 : o2 ≠ u) (h : o1 ≠ o2) (hk : x = makeKey o1 o2) :
    (⟨o1, u, o2⟩ : Tri).opp x = u := by
  have km := makeKey_mem o1 o2 u
  rw [← hk] at km
  have kn : ¬ (u = x.1 ∨ u = x.2) := fun h => (km.1 h).elim (fun h => h1 h.symm) (fun h => h2 h.symm)
  refine opp_eq ⟨h1, h2.symm, h⟩ ?_ (Or.inr (Or.inl rfl)) (fun h => kn (Or.inl h)) (fun h => kn (Or.inr h))
  rw [hk]; exact Tri.HasEdge.mk' h (Or.inl rfl) (Or.inr (Or.inr rfl))

theorem opp_mid2 {o1 o2 u : ℤ} {x : ℤ × ℤ} (h1 : o1 ≠ u) (h2 : o2 ≠ u) (h : o1 ≠ o2) (hk : x = makeKey o1 o2) :
    (⟨o1, o2, u⟩ : Tri).opp x = u := by
  have km := makeKey_mem o1 o2 u
  rw [← hk] at km
  have kn : ¬ (u = x.1 ∨ u = x.2) := fun h => (km.1 h).elim (fun h => h1 h.symm) (fun h => h2 h.symm)
  refine opp_eq ⟨h, h2, h1⟩ ?_ (Or.inr (Or.inr rfl)) (fun h => kn (Or.inl h)) (fun h => kn (Or.inr h))
  rw [hk]; exact Tri.HasEdge.mk' h (Or.inl rfl) (Or.inr (Or.inl rfl))

theorem legal_after (hE : R.IsExact) (hA : R.IsExactAngle) {M : Mesh K} {e : ℤ × ℤ} {t1 t2 : ℕ} {T1 T2 : Tri}
    {p q a b : Pt K} {v1 v2 : List ℕ} (hM : M.Good R) (F : Flip R M e t1 t2 T1 T2 p q a b v1 v2) {x : ℤ × ℤ}
    (hr : x ∉ [makeKey (T1.opp e) e.2, makeKey (T2.opp e) e.1, makeKey (T1.opp e) e.1, makeKey (T2.opp e) e.2])
    (hx : x = e ∨ x = makeKey (T1.opp e) (T2.opp e) ∨ M.Legal R x) :
    (flipped M e t1 t2 (T1.opp e) (T2.opp e) v1 v2).Legal R x := by
  obtain ⟨G, s0, hI⟩ := F.illegal hE hA hM
  obtain ⟨s1, s2⟩ := quad_signs s0 hI
  simp only [List.mem_cons, List.not_mem_nil, or_false, not_or] at hr
  obtain ⟨r1, r2, r3, r4⟩ := hr
  intro n m T S hn hT hS
  have hpos : (flipped M e t1 t2 (T1.opp e) (T2.opp e) v1 v2).pos = M.pos := rfl
  rw [hpos]
  rw [G.e2t, if_neg r2, if_neg r1] at hn
  split_ifs at hn with hk he
  · simp only [Option.some.injEq, List.cons.injEq, and_true] at hn
    obtain ⟨rfl, rfl⟩ := hn
    rw [G.tris, if_neg G.ne, if_pos rfl] at hT
    rw [G.tris, if_pos rfl] at hS
    obtain rfl := Option.some.inj hT
    obtain rfl := Option.some.inj hS
    have w1 := opp_mid1 G.o11 G.o21 G.oo hk
    have w2 := opp_mid2 G.o12 G.o22 G.oo hk
    have st : ∀ v, (∃ z, pyGet M.points v = some z) → R.Stored (M.pos v) := by
      rintro v ⟨z, hz⟩
      have : M.pos v = z := by unfold Mesh.pos; rw [hz]; rfl
      rw [this]; exact hM.stored _ (pyGet_mem hz)
    have sp := st e.1 ⟨_, F.hp⟩
    have sq := st e.2 ⟨_, F.hq⟩
    have sa := st (T1.opp e) ⟨_, F.ha⟩
    have sb := st (T2.opp e) ⟨_, F.hb⟩
    generalize T1.opp e = o1 at *
    generalize T2.opp e = o2 at *
    rw [w1, w2]
    obtain ⟨b1, b2, -, -⟩ := quad_back s0 hI
    have pp : 0 < det3 (M.pos o1) (M.pos e.1) (M.pos o2) * det3 (M.pos o1) (M.pos o2) (M.pos e.2) := by
      have h3 := mul_pos s1 s2
      have h4 : (det3 (M.pos o1) (M.pos e.1) (M.pos e.2) * det3 (M.pos o1) (M.pos e.1) (M.pos o2))
        * (det3 (M.pos o1) (M.pos e.1) (M.pos e.2) * det3 (M.pos o1) (M.pos o2) (M.pos e.2))
        = (det3 (M.pos o1) (M.pos e.1) (M.pos o2) * det3 (M.pos o1) (M.pos o2) (M.pos e.2))
          * (det3 (M.pos o1) (M.pos e.1) (M.pos e.2) * det3 (M.pos o1) (M.pos e.1) (M.pos e.2)) := by ring
      rw [h4] at h3
      exact pos_of_mul_pos_left h3 (mul_self_nonneg _)
    by_contra hc
    rw [Bool.not_eq_false] at hc
    have hkk : (x.1 = o1 ∧ x.2 = o2) ∨ (x.1 = o2 ∧ x.2 = o1) := by
      rw [hk]; unfold makeKey; split_ifs <;> simp
    rcases hkk with ⟨k1, k2⟩ | ⟨k1, k2⟩
    · rw [k1, k2] at hc
      refine b1 (flipTest_illegal hE hA sa sb sp sq ?_ hc)
      have e1 : det3 (M.pos e.1) (M.pos o1) (M.pos o2) = -det3 (M.pos o1) (M.pos e.1) (M.pos o2) := by
        unfold det3; ring
      have e2 : det3 (M.pos e.2) (M.pos o2) (M.pos o1) = -det3 (M.pos o1) (M.pos o2) (M.pos e.2) := by
        unfold det3; ring
      rw [e1, e2, neg_mul_neg]; exact pp
    · rw [k1, k2] at hc
      refine b2 (flipTest_illegal hE hA sb sa sp sq ?_ hc)
      have e1 : det3 (M.pos e.1) (M.pos o2) (M.pos o1) = det3 (M.pos o1) (M.pos e.1) (M.pos o2) := by
        unfold det3; ring
      have e2 : det3 (M.pos e.2) (M.pos o1) (M.pos o2) = det3 (M.pos o1) (M.pos o2) (M.pos e.2) := by
        unfold det3; ring
      rw [e1, e2]; exact pp
  · have hL : M.Legal R x := by tauto
    have un : ∀ k, k ∈ [n, m] → k ≠ t1 ∧ k ≠ t2 := by
      intro k hk'
      obtain ⟨T', hT', hE'⟩ := hM.sound.sound _ _ hn k hk'
      constructor
      · rintro rfl
        rw [G.h1] at hT'; obtain rfl := Option.some.inj hT'
        exact r3 (G.edge1 hE' he r1)
      · rintro rfl
        rw [G.h2] at hT'; obtain rfl := Option.some.inj hT'
        exact r4 (G.edge2 hE' he r2)
    obtain ⟨n1, n2⟩ := un n (by simp)
    obtain ⟨m1, m2⟩ := un m (by simp)
    rw [G.tris, if_neg n2, if_neg n1] at hT
    rw [G.tris, if_neg m2, if_neg m1] at hS
    exact hL n m T S hn hT hS

theorem legal_of_noflip {M : Mesh K} (e : ℤ × ℤ) (h : R.flipOneEdge M e = .ok (M, [])) : M.Legal R e := by
  intro n m T S hn hT hS
  unfold Rt.flipOneEdge at h
  rw [hn] at h
  simp only [Option.getD_some, hT, hS] at h
  split at h
  · rename_i p q a b hp hq ha hb
    split_ifs at h with ht
    · exfalso
      unfold flipWrite at h
      dsimp only at h
      split at h
      · cases h
      · split at h
        · cases h
        · simp at h
    · have pp : M.pos e.1 = p := by unfold Mesh.pos; rw [hp]; rfl
      have pq : M.pos e.2 = q := by unfold Mesh.pos; rw [hq]; rfl
      have pa : M.pos (T.opp e) = a := by unfold Mesh.pos; rw [ha]; rfl
      have pb : M.pos (S.opp e) = b := by unfold Mesh.pos; rw [hb]; rfl
      rw [pp, pq, pa, pb]
      simpa using ht
  · cases h

theorem flipRound_legal (hE : R.IsExact) (hA : R.IsExactAngle) (es : List (ℤ × ℤ)) :
    ∀ (acc : List (ℤ × ℤ)) {M M' : Mesh K} {r : List (ℤ × ℤ)}, M.Good R →
      (∀ x, x ∉ es → x ∉ acc → M.Legal R x) → R.flipRound M es = .ok (M', r) →
      ∀ x, x ∉ r → x ∉ acc → M'.Legal R x := by
  induction es with
  | nil =>
    intro acc M M' r _ hL h x hx hacc
    simp only [Rt.flipRound, Except.ok.injEq, Prod.mk.injEq] at h
    obtain ⟨rfl, rfl⟩ := h
    exact hL x (by simp) hacc
  | cons e es ih =>
    intro acc M M' r hM hL h x hx hacc
    unfold Rt.flipRound at h
    cases h1 : R.flipOneEdge M e with
    | error y => rw [h1] at h; cases h
    | ok p1 =>
      obtain ⟨M1, r1⟩ := p1
      rw [h1] at h
      dsimp only at h
      cases h2 : R.flipRound M1 es with
      | error y => rw [h2] at h; cases h
      | ok p2 =>
        obtain ⟨M2, r2⟩ := p2
        rw [h2] at h
        simp only [Except.ok.injEq, Prod.mk.injEq] at h
        obtain ⟨rfl, rfl⟩ := h
        simp only [List.mem_union_iff, not_or] at hx
        have hM1 := (flipOne_good hE hA (B := M.tris) hM ⟨rfl, fun T hT v hv => ⟨T, hT, hv⟩⟩ h1).1
        refine ih (acc ++ r1) hM1 ?_ h2 x hx.2 (by simp [hacc, hx.1])
        intro y hy hy'
        simp only [List.mem_append, not_or] at hy'
        rcases flip_cases h1 with ⟨rfl, rfl⟩ | ⟨t1, t2, T1, T2, p, q, a, b, v1, v2, F, rfl, hr⟩
        · by_cases hye : y = e
          · subst hye; exact legal_of_noflip y h1
          · exact hL y (by simp [hye, hy]) hy'.1
        · refine legal_after hE hA hM F (hr ▸ hy'.2) ?_
          by_cases hye : y = e
          · exact Or.inl hye
          · exact Or.inr (Or.inr (hL y (by simp [hye, hy]) hy'.1))

/-- C78: exact arithmetic.  `flipEdges` terminates on every planar mesh with a sound table, for every set of
edges it starts with and every order of iteration. -/
theorem C78_terminates (hE : R.IsExact) (hA : R.IsExactAngle) {M : Mesh K} (hs : M.Sound) (hP : M.Planar)
    (hst : ∀ p ∈ M.points, R.Stored p) (es : List (ℤ × ℤ)) :
    ∃ fuel out, R.flipEdges M es fuel = some out := by
  suffices H : ∀ (n : ℕ) (M' : Mesh K) (es : List (ℤ × ℤ)), M'.Good R → M'.points = M.points →
      M'.tris ∈ Triangulations M.tris → rank M.pos M.tris M'.tris ≤ n →
      ∃ out, R.flipEdges M' es (n + 1) = some out by
    obtain ⟨out, h⟩ := H _ M es ⟨hs, hP, hst⟩ rfl ⟨rfl, fun T hT v hv => ⟨T, hT, hv⟩⟩ le_rfl
    exact ⟨_, out, h⟩
  intro n
  induction n with
  | zero =>
    intro M' es hM hpt hB hn
    unfold Rt.flipEdges
    cases h : R.flipRound M' es with
    | error x => exact ⟨_, rfl⟩
    | ok p =>
      obtain ⟨M1, r⟩ := p
      cases r with
      | nil => exact ⟨_, rfl⟩
      | cons a l =>
        obtain ⟨-, -, -, -, -, g⟩ := flipRound_good hE hA (B := M.tris) es hM hB h
        have hpos : M'.pos = M.pos := by funext v; unfold Mesh.pos; rw [hpt]
        rw [hpos] at g
        have := g (by simp)
        omega
  | succ n ih =>
    intro M' es hM hpt hB hn
    unfold Rt.flipEdges
    cases h : R.flipRound M' es with
    | error x => exact ⟨_, rfl⟩
    | ok p =>
      obtain ⟨M1, r⟩ := p
      cases r with
      | nil => exact ⟨_, rfl⟩
      | cons a l =>
        obtain ⟨g1, g2, g3, -, -, g⟩ := flipRound_good hE hA (B := M.tris) es hM hB h
        have hpos : M'.pos = M.pos := by funext v; unfold Mesh.pos; rw [hpt]
        rw [hpos] at g
        have := g (by simp)
        exact ih M1 (a :: l) g1 (g2.trans hpt) g3 (by omega)

/-- the sum of the two angles opposite to the edge is at most π (1 + EPS) -/
def Mesh.AngleOk (R : Rt K) (M : Mesh K) (x : ℤ × ℤ) : Prop :=
  ∀ n m T S u v, M.e2t x = some [n, m] → M.tris[n]? = some T → M.tris[m]? = some S →
    T.Has u → u ≠ x.1 → u ≠ x.2 → S.Has v → v ≠ x.1 → v ≠ x.2 →
    |R.trig.atan2 (det3 (M.pos u) (M.pos x.1) (M.pos x.2)) (dot3 (M.pos u) (M.pos x.1) (M.pos x.2))|
      + |R.trig.atan2 (det3 (M.pos v) (M.pos x.2) (M.pos x.1)) (dot3 (M.pos v) (M.pos x.1) (M.pos x.2))|
      ≤ R.trig.atan2 0 (-1) * (1 + 1 / 10 ^ 8)

theorem Mesh.Legal.angleOk (hE : R.IsExact) {M : Mesh K} (hM : M.Good R) (hr : M.InRange) {x : ℤ × ℤ}
    (h : M.Legal R x) : M.AngleOk R x := by
  intro n m T S u v hn hT hS hu u1 u2 hv v1 v2
  have hL := h n m T S hn hT hS
  have mT := List.mem_of_getElem? hT
  have mS := List.mem_of_getElem? hS
  obtain ⟨T', gT, eT⟩ := hM.sound.sound _ _ hn n (by simp)
  obtain ⟨S', gS, eS⟩ := hM.sound.sound _ _ hn m (by simp)
  rw [hT] at gT; obtain rfl := Option.some.inj gT
  rw [hS] at gS; obtain rfl := Option.some.inj gS
  obtain ⟨-, -, a3⟩ := Tri.opp_spec (hM.sound.proper _ mT) eT
  obtain ⟨-, -, b3⟩ := Tri.opp_spec (hM.sound.proper _ mS) eS
  have hu' : u = T.opp x := by have := (a3 u).1 hu; tauto
  have hv' : v = S.opp x := by have := (b3 v).1 hv; tauto
  have st : ∀ {T : Tri} {w : ℤ}, T ∈ M.tris → T.Has w → R.Stored (M.pos w) := by
    intro T w hT hw
    obtain ⟨z, hz⟩ := pyGet_some (hr _ hT _ hw)
    have : M.pos w = z := by unfold Mesh.pos; rw [hz]; rfl
    rw [this]; exact hM.stored _ (pyGet_mem hz)
  have s1 := st mT eT.2.1
  have s2 := st mT eT.2.2
  have s3 := st mT hu
  have s4 := st mS hv
  rw [← hu', ← hv'] at hL
  unfold Rt.flipTest Rt.oppAngle at hL
  rw [decide_eq_false_iff_not, not_lt, hE.add', hE.mul', hE.add', hE.eps', areaOf_exact hE s3 s1 s2,
    areaOf_exact hE s4 s2 s1, dotOf_exact hE s3 s1 s2, dotOf_exact hE s4 s1 s2] at hL
  exact hL

theorem flipEdges_result (hE : R.IsExact) (hA : R.IsExactAngle) (fuel : ℕ) :
    ∀ {M M' : Mesh K} {es : List (ℤ × ℤ)}, M.Good R → (∀ x, x ∉ es → M.Legal R x) →
      R.flipEdges M es fuel = some (.ok M') →
      M'.Good R ∧ M'.points = M.points ∧ M'.tris ∈ Triangulations M.tris ∧ M'.total = M.total ∧
        ∀ x, M'.Legal R x := by
  induction fuel with
  | zero => intro M M' es _ _ h; simp [Rt.flipEdges] at h
  | succ n ih =>
    intro M M' es hM hL h
    unfold Rt.flipEdges at h
    cases h1 : R.flipRound M es with
    | error y => rw [h1] at h; simp at h
    | ok p =>
      obtain ⟨M1, r⟩ := p
      rw [h1] at h
      obtain ⟨g1, g2, g3, g4, -, -⟩ := flipRound_good hE hA (B := M.tris) es hM
        ⟨rfl, fun T hT v hv => ⟨T, hT, hv⟩⟩ h1
      have hl := flipRound_legal hE hA es [] hM (fun x hx _ => hL x hx) h1
      cases r with
      | nil =>
        simp only [Option.some.injEq, Except.ok.injEq] at h
        subst h
        exact ⟨g1, g2, g3, g4, fun x => hl x (by simp) (by simp)⟩
      | cons a l =>
        dsimp only at h
        obtain ⟨k1, k2, k3, k4, k5⟩ := ih g1 (fun x hx => hl x hx (by simp)) h
        refine ⟨k1, k2.trans g2, ⟨k3.1.trans g3.1, ?_⟩, k4.trans g4, k5⟩
        intro T hT v hv
        obtain ⟨T', h1, h2⟩ := k3.2 T hT v hv
        exact g3.2 T' h1 v h2

/-- C78: exact arithmetic.  If `flipEdges`, started on all keys of the table in any order, returns, the mesh is
planar with a sound table, has the same points, number of triangles, vertices and total area, and at every edge
with two triangles the two opposite angles sum up to at most π (1 + EPS). -/
theorem C78_delaunay (hE : R.IsExact) (hA : R.IsExactAngle) {M M' : Mesh K} (hs : M.Sound) (hP : M.Planar)
    (hst : ∀ p ∈ M.points, R.Stored p) (hr : M.InRange) {es : List (ℤ × ℤ)}
    (hes : ∀ x l, M.e2t x = some l → x ∈ es) {fuel : ℕ} (h : R.flipEdges M es fuel = some (.ok M')) :
    M'.Sound ∧ M'.Planar ∧ M'.points = M.points ∧ M'.tris.length = M.tris.length ∧ M'.total = M.total ∧
      ∀ x, M'.AngleOk R x := by
  have hL : ∀ x, x ∉ es → M.Legal R x := by
    intro x hx n m T S hn
    exact absurd (hes x _ hn) hx
  obtain ⟨g1, g2, g3, g4, g5⟩ := flipEdges_result hE hA fuel ⟨hs, hP, hst⟩ hL h
  have hr' : M'.InRange := by
    intro T hT v hv
    obtain ⟨T', h1, h2⟩ := g3.2 T hT v hv
    rw [g2]; exact hr T' h1 v h2
  exact ⟨g1.sound, g1.planar, g2, g3.1, g4, fun x => (g5 x).angleOk hE g1 hr'⟩

/-! ## A mesh on which a flip happens -/

/-- the square-like quadrilateral (0,0), (1,0), (0,1), (-1,1), cut along its long diagonal; `l` is the order in
which the table lists the two triangles at the diagonal -/
noncomputable def exMesh (l : List ℕ) : Mesh ℝ where
  points := [⟨0, 0⟩, ⟨1, 0⟩, ⟨-1, 1⟩, ⟨0, 1⟩]
  tris := [⟨0, 1, 2⟩, ⟨3, 2, 1⟩]
  e2t := (((((E2T.empty).set (1, 2) l).set (0, 1) [0]).set (0, 2) [0]).set (1, 3) [1]).set (2, 3) [1]
  bnd := []

theorem exMesh_entry {l r : List ℕ} {x : ℤ × ℤ} (h : (exMesh l).e2t x = some r) :
    (x = (2, 3) ∧ r = [1]) ∨ (x = (1, 3) ∧ r = [1]) ∨ (x = (0, 2) ∧ r = [0]) ∨ (x = (0, 1) ∧ r = [0]) ∨
      (x = (1, 2) ∧ r = l) := by
  simp only [exMesh, E2T.set, E2T.empty] at h
  split_ifs at h with h1 h2 h3 h4 h5 <;> simp_all

theorem exMesh_consistent {l : List ℕ} (hl : l = [0, 1] ∨ l = [1, 0]) : (exMesh l).Consistent := by
  have at0 : ∀ x, (⟨0, 1, 2⟩ : Tri).HasEdge x → (exMesh l).At 0 x := fun x hx => ⟨_, rfl, hx⟩
  have at1 : ∀ x, (⟨3, 2, 1⟩ : Tri).HasEdge x → (exMesh l).At 1 x := fun x hx => ⟨_, rfl, hx⟩
  refine ⟨⟨?_, ?_, ?_, ?_⟩, ?_⟩
  · intro T hT
    simp only [exMesh, List.mem_cons, List.not_mem_nil, or_false] at hT
    rcases hT with rfl | rfl <;> simp [Tri.Proper]
  · intro x r h
    rcases exMesh_entry h with ⟨rfl, -⟩ | ⟨rfl, -⟩ | ⟨rfl, -⟩ | ⟨rfl, -⟩ | ⟨rfl, -⟩ <;> norm_num
  · intro x r h
    rcases exMesh_entry h with ⟨-, rfl⟩ | ⟨-, rfl⟩ | ⟨-, rfl⟩ | ⟨-, rfl⟩ | ⟨-, rfl⟩
    all_goals first | simp | skip
    rcases hl with rfl | rfl <;> simp
  · intro x r h n hn
    rcases exMesh_entry h with ⟨rfl, rfl⟩ | ⟨rfl, rfl⟩ | ⟨rfl, rfl⟩ | ⟨rfl, rfl⟩ | ⟨rfl, rfl⟩
    · obtain rfl : n = 1 := by simpa using hn
      exact at1 _ (by simp [Tri.HasEdge, Tri.Has])
    · obtain rfl : n = 1 := by simpa using hn
      exact at1 _ (by simp [Tri.HasEdge, Tri.Has])
    · obtain rfl : n = 0 := by simpa using hn
      exact at0 _ (by simp [Tri.HasEdge, Tri.Has])
    · obtain rfl : n = 0 := by simpa using hn
      exact at0 _ (by simp [Tri.HasEdge, Tri.Has])
    · have : n = 0 ∨ n = 1 := by rcases hl with rfl | rfl <;> simp at hn <;> tauto
      rcases this with rfl | rfl
      · exact at0 _ (by simp [Tri.HasEdge, Tri.Has])
      · exact at1 _ (by simp [Tri.HasEdge, Tri.Has])
  · rintro n ⟨x1, x2⟩ ⟨T, hT, h1, h2, h3⟩
    match n, hT with
    | 0, hT =>
      obtain rfl := Option.some.inj hT
      simp only [Tri.Has] at h1 h2 h3
      rcases h2 with rfl | rfl | rfl <;> rcases h3 with rfl | rfl | rfl <;>
        first | (exfalso; revert h1; decide) | skip
      · exact ⟨[0], by simp [exMesh, E2T.set], by simp⟩
      · exact ⟨[0], by simp [exMesh, E2T.set], by simp⟩
      · exact ⟨l, by simp [exMesh, E2T.set], by rcases hl with rfl | rfl <;> simp⟩
    | 1, hT =>
      obtain rfl := Option.some.inj hT
      simp only [Tri.Has] at h1 h2 h3
      rcases h2 with rfl | rfl | rfl <;> rcases h3 with rfl | rfl | rfl <;>
        first | (exfalso; revert h1; decide) | skip
      · exact ⟨[1], by simp [exMesh, E2T.set], by simp⟩
      · exact ⟨[1], by simp [exMesh, E2T.set], by simp⟩
      · exact ⟨l, by simp [exMesh, E2T.set], by rcases hl with rfl | rfl <;> simp⟩
    | k + 2, hT => simp [exMesh] at hT

theorem exMesh_pos (l : List ℕ) : (exMesh l).pos 0 = ⟨0, 0⟩ ∧ (exMesh l).pos 1 = ⟨1, 0⟩ ∧
    (exMesh l).pos 2 = ⟨-1, 1⟩ ∧ (exMesh l).pos 3 = ⟨0, 1⟩ := by
  simp [Mesh.pos, pyGet, exMesh]

theorem exMesh_planar {l : List ℕ} (hl : l = [0, 1] ∨ l = [1, 0]) : (exMesh l).Planar := by
  obtain ⟨p0, p1, p2, p3⟩ := exMesh_pos l
  intro x n m T S u v h hT hS hu u1 u2 hv v1 v2
  rcases exMesh_entry h with ⟨-, hr⟩ | ⟨-, hr⟩ | ⟨-, hr⟩ | ⟨-, hr⟩ | ⟨rfl, hr⟩
  · simp at hr
  · simp at hr
  · simp at hr
  · simp at hr
  · rcases hl with rfl | rfl
    · simp only [List.cons.injEq, and_true] at hr
      obtain ⟨rfl, rfl⟩ := hr
      obtain rfl := Option.some.inj hT
      obtain rfl := Option.some.inj hS
      have hu' : u = 0 := by simp only [Tri.Has] at hu; tauto
      have hv' : v = 3 := by simp only [Tri.Has] at hv; tauto
      rw [hu', hv', p0, p1, p2, p3]
      norm_num [det3]
    · simp only [List.cons.injEq, and_true] at hr
      obtain ⟨rfl, rfl⟩ := hr
      obtain rfl := Option.some.inj hT
      obtain rfl := Option.some.inj hS
      have hu' : u = 3 := by simp only [Tri.Has] at hu; tauto
      have hv' : v = 0 := by simp only [Tri.Has] at hv; tauto
      rw [hu', hv', p0, p1, p2, p3]
      norm_num [det3]

theorem exMesh_stored (l : List ℕ) : ∀ p ∈ (exMesh l).points, exReal.Stored p := by
  intro p hp
  simp only [exMesh, List.mem_cons, List.not_mem_nil, or_false] at hp
  rw [exReal_isExact.stored_iff]
  rcases hp with rfl | rfl | rfl | rfl
  · exact ⟨⟨0, by norm_num⟩, ⟨0, by norm_num⟩⟩
  · exact ⟨⟨100000000, by norm_num⟩, ⟨0, by norm_num⟩⟩
  · exact ⟨⟨-100000000, by norm_num⟩, ⟨100000000, by norm_num⟩⟩
  · exact ⟨⟨0, by norm_num⟩, ⟨100000000, by norm_num⟩⟩

theorem exMesh_inRange (l : List ℕ) : (exMesh l).InRange := by
  intro T hT v hv
  simp only [exMesh, List.mem_cons, List.not_mem_nil, or_false] at hT
  rcases hT with rfl | rfl <;> rcases hv with rfl | rfl | rfl <;> simp [exMesh]

theorem arg_three_quarters : Complex.arg ⟨-1, 1⟩ = 3 * Real.pi / 4 := by
  have h1 : (⟨-1, 1⟩ : ℂ) = (Real.sqrt 2 : ℝ) * (Real.cos (3 * Real.pi / 4) + Real.sin (3 * Real.pi / 4) * Complex.I) := by
    have e : 3 * Real.pi / 4 = Real.pi - Real.pi / 4 := by ring
    have s2 : Real.sqrt 2 * Real.sqrt 2 = 2 := Real.mul_self_sqrt (by norm_num)
    rw [e, Real.cos_pi_sub, Real.sin_pi_sub, Real.cos_pi_div_four, Real.sin_pi_div_four]
    apply Complex.ext
    · simp; nlinarith
    · simp; nlinarith
  rw [h1, Complex.ofReal_cos, Complex.ofReal_sin]
  have := Real.pi_pos
  exact Complex.arg_mul_cos_add_sin_mul_I (Real.sqrt_pos.2 (by norm_num)) ⟨by linarith, by linarith⟩

/-- the flip test succeeds on the diagonal, whichever of the two triangles is first -/
theorem exMesh_test {l : List ℕ} : exReal.flipTest ((exMesh l).pos 1) ((exMesh l).pos 2) ((exMesh l).pos 0)
      ((exMesh l).pos 3) = true ∧
    exReal.flipTest ((exMesh l).pos 1) ((exMesh l).pos 2) ((exMesh l).pos 3) ((exMesh l).pos 0) = true := by
  obtain ⟨p0, p1, p2, p3⟩ := exMesh_pos l
  have st := exMesh_stored l
  have s0 : exReal.Stored ⟨0, 0⟩ := st _ (by simp [exMesh])
  have s1 : exReal.Stored ⟨1, 0⟩ := st _ (by simp [exMesh])
  have s2 : exReal.Stored ⟨-1, 1⟩ := st _ (by simp [exMesh])
  have s3 : exReal.Stored ⟨0, 1⟩ := st _ (by simp [exMesh])
  have hE := exReal_isExact
  have hpi : Complex.arg ⟨-1, 0⟩ = Real.pi := by
    have e : (⟨-1, 0⟩ : ℂ) = -1 := by apply Complex.ext <;> simp
    rw [e, Complex.arg_neg_one]
  have hneg : |Complex.arg ⟨-1, -1⟩| = 3 * Real.pi / 4 := by
    have e : (⟨-1, -1⟩ : ℂ) = (starRingEnd ℂ) ⟨-1, 1⟩ := by apply Complex.ext <;> simp
    have h1 := Real.pi_pos
    have h2 : (Complex.arg ⟨-1, 1⟩) ≠ Real.pi := by rw [arg_three_quarters]; intro h; linarith
    rw [e, Complex.arg_conj, if_neg h2, abs_neg, arg_three_quarters, abs_of_pos (by positivity)]
  have hp : |Complex.arg ⟨-1, 1⟩| = 3 * Real.pi / 4 := by
    rw [arg_three_quarters, abs_of_pos (by have := Real.pi_pos; positivity)]
  have hpos := Real.pi_pos
  rw [p0, p1, p2, p3]
  unfold Rt.flipTest Rt.oppAngle
  constructor
  · rw [decide_eq_true_iff, hE.add', hE.mul', hE.add', hE.eps', areaOf_exact hE s0 s1 s2, areaOf_exact hE s3 s2 s1,
      dotOf_exact hE s0 s1 s2, dotOf_exact hE s3 s1 s2]
    norm_num [det3, dot3, exReal, Rt.real, hpi, hp]
    linarith
  · rw [decide_eq_true_iff, hE.add', hE.mul', hE.add', hE.eps', areaOf_exact hE s3 s1 s2, areaOf_exact hE s0 s2 s1,
      dotOf_exact hE s0 s1 s2, dotOf_exact hE s3 s1 s2]
    norm_num [det3, dot3, exReal, Rt.real, hpi, hneg]
    linarith

theorem exMesh_flip : exReal.flipOneEdge (exMesh [0, 1]) (1, 2)
    = .ok (flipped (exMesh [0, 1]) (1, 2) 0 1 0 3 [0] [1], [(0, 2), (1, 3), (0, 1), (2, 3)]) := by
  have h := (exMesh_test (l := [0, 1])).1
  unfold Mesh.pos at h
  simp [pyGet, exMesh] at h
  simp [Rt.flipOneEdge, exMesh, E2T.set, E2T.del, pyGet, Tri.opp, h, flipWrite, makeKey, flipped]

theorem exMesh_flip' : exReal.flipOneEdge (exMesh [1, 0]) (1, 2)
    = .ok (flipped (exMesh [1, 0]) (1, 2) 1 0 3 0 [1] [0], [(2, 3), (0, 1), (1, 3), (0, 2)]) := by
  have h := (exMesh_test (l := [1, 0])).2
  unfold Mesh.pos at h
  simp [pyGet, exMesh] at h
  simp [Rt.flipOneEdge, exMesh, E2T.set, E2T.del, pyGet, Tri.opp, h, flipWrite, makeKey, flipped]

/-- C61: the total *signed* area is not kept: if the table lists first the triangle running against the edge, both
new triangles run clockwise. -/
theorem C61_signed_area : ¬ ∀ (M M' : Mesh ℝ) (e : ℤ × ℤ) (r : List (ℤ × ℤ)), M.Consistent → M.Planar →
    M.InRange → (∀ p ∈ M.points, exReal.Stored p) → exReal.flipOneEdge M e = .ok (M', r) →
    (M'.tris.map M'.area).sum = (M.tris.map M.area).sum := by
  intro H
  have := H _ _ _ _ (exMesh_consistent (Or.inr rfl)) (exMesh_planar (Or.inr rfl)) (exMesh_inRange _)
    (exMesh_stored _) exMesh_flip'
  obtain ⟨p0, p1, p2, p3⟩ := exMesh_pos [1, 0]
  have hpos : (flipped (exMesh [1, 0]) (1, 2) 1 0 3 0 [1] [0]).pos = (exMesh [1, 0]).pos := rfl
  have ht : (flipped (exMesh [1, 0]) (1, 2) 1 0 3 0 [1] [0]).tris = [⟨3, 0, 2⟩, ⟨3, 1, 0⟩] := rfl
  have ht0 : (exMesh [1, 0]).tris = [⟨0, 1, 2⟩, ⟨3, 2, 1⟩] := rfl
  rw [ht, ht0] at this
  simp only [List.map_cons, List.map_nil, Mesh.area, hpos, p0, p1, p2, p3] at this
  norm_num [det3] at this

/-- the hypotheses of C77 and C78 hold of a mesh which changes -/
example : ∃ M M' r, M.Consistent ∧ M.Planar ∧ M.InRange ∧ (∀ p ∈ M.points, exReal.Stored p) ∧
    exReal.flipOneEdge M (1, 2) = .ok (M', r) ∧ M'.tris ≠ M.tris := by
  exact ⟨_, _, _, exMesh_consistent (Or.inl rfl), exMesh_planar (Or.inl rfl), exMesh_inRange _,
    exMesh_stored _, exMesh_flip, by simp [exMesh, flipped]⟩

end Srep
