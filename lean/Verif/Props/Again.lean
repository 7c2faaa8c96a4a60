import Verif.Model.Again
import Verif.Props.TriangulateFlat

/-!
# A second call of `Delaunay2d.triangulate` (C128)
-/

set_option linter.unusedSectionVars false

namespace Srep
variable {K : Type} [Field K] [LinearOrder K] [IsStrictOrderedRing K] [FloorRing K] {R : Rt K}

theorem addAllOn_keys (O : Orders) (fuel : ℕ) (l : List ℤ) (M : Mesh K) :
    R.addAllOn O Mesh.keys fuel l M = R.addAll O fuel l M := by
  induction l generalizing M with
  | nil => rfl
  | cons i l ih =>
    unfold Rt.addAllOn Rt.addAll
    rw [show R.addPointOn O Mesh.keys M i fuel = R.addPointBy O M i fuel from rfl]
    split <;> simp_all

/-- C128: on a new object the general call is the call of C120 and C121. -/
theorem C128_first (O : Orders) (qs ps : List (Pt K)) (fuel : ℕ) :
    R.triangulateOn O Mesh.keys ⟨qs, [], E2T.empty, []⟩ ps fuel = R.delaunay O ps fuel := by
  unfold Rt.triangulateOn Rt.delaunay Rt.firstMesh
  cases R.centroid ps with
  | error x => rfl
  | ok c =>
    dsimp only
    split_ifs
    · cases R.makeCcw (R.dropFlat (R.sortedFrom c ps)) ⟨0, 1, 2⟩ with
      | error x => rfl
      | ok t => exact addAllOn_keys _ _ _ _
    · rfl

theorem flipWrite_len {M M' : Mesh K} {e : ℤ × ℤ} {t1 t2 : ℕ} {o1 o2 : ℤ} {r : List (ℤ × ℤ)} (h : flipWrite M e t1 t2 o1 o2 = .ok (M', r)) :
    M'.tris.length = M.tris.length := by
  unfold flipWrite at h
  dsimp only at h
  split at h
  · cases h
  · split at h
    · cases h
    · obtain ⟨rfl, -⟩ := Prod.mk.inj (Except.ok.inj h)
      simp

theorem flipOneEdge_len {M M' : Mesh K} {e : ℤ × ℤ} {r : List (ℤ × ℤ)} (h : R.flipOneEdge M e = .ok (M', r)) :
    M'.tris.length = M.tris.length := by
  unfold Rt.flipOneEdge at h
  split at h
  · obtain ⟨rfl, -⟩ := Prod.mk.inj (Except.ok.inj h); rfl
  · obtain ⟨rfl, -⟩ := Prod.mk.inj (Except.ok.inj h); rfl
  · split at h
    · split at h
      · split_ifs at h
        · exact flipWrite_len h
        · obtain ⟨rfl, -⟩ := Prod.mk.inj (Except.ok.inj h); rfl
      · cases h
    · cases h
  · cases h

theorem flipRound_len {es : List (ℤ × ℤ)} {M M' : Mesh K} {r : List (ℤ × ℤ)} (h : R.flipRound M es = .ok (M', r)) :
    M'.tris.length = M.tris.length := by
  induction es generalizing M r with
  | nil => obtain ⟨rfl, -⟩ := Prod.mk.inj (Except.ok.inj h); rfl
  | cons e es ih =>
    unfold Rt.flipRound at h
    split at h
    · cases h
    · rename_i M1 r1 h1
      split at h
      · cases h
      · rename_i M2 r2 h2
        obtain ⟨rfl, -⟩ := Prod.mk.inj (Except.ok.inj h)
        rw [ih h2, flipOneEdge_len h1]

theorem flipEdgesBy_len {O : Orders} {ip : ℤ} {fuel k : ℕ} {M M' : Mesh K} {es : List (ℤ × ℤ)}
    (h : R.flipEdgesBy O ip M es k fuel = some (.ok M')) : M'.tris.length = M.tris.length := by
  induction fuel generalizing M es k with
  | zero => cases h
  | succ f ih =>
    unfold Rt.flipEdgesBy at h
    split at h
    · cases h
    · rename_i M1 h1
      cases h
      exact flipRound_len h1
    · rename_i M1 es1 _ h1
      rw [ih h, flipRound_len h1]

theorem addLoop_tris {ip : ℤ} {es vis : List (ℤ × ℤ)} {M M' : Mesh K} (h : R.addLoop ip es M = .ok (M', vis)) :
    ∃ l, M'.tris = M.tris ++ l ∧ l.length = vis.length ∧ M'.bnd = M.bnd ∧ M'.points = M.points := by
  induction es generalizing M vis with
  | nil => obtain ⟨rfl, rfl⟩ := Prod.mk.inj (Except.ok.inj h); exact ⟨[], by simp⟩
  | cons e es ih =>
    unfold Rt.addLoop at h
    split at h
    · cases h
    · exact ih h
    · split at h
      · cases h
      · rename_i M1 h1
        split at h
        · cases h
        · rename_i M2 v2 h2
          obtain ⟨rfl, rfl⟩ := Prod.mk.inj (Except.ok.inj h)
          obtain ⟨l, e1, e2, e3, e4⟩ := ih h2
          unfold Rt.addEdge at h1
          split at h1
          · cases h1
          · rename_i t _
            dsimp only at h1
            split at h1
            · cases h1
            · cases h1
              exact ⟨t :: l, by simpa using e1, by simp [e2], e3, e4⟩

theorem addPoint_tris {ip : ℤ} {M M' : Mesh K} (h : R.addPoint M ip = .ok M') : ∃ l, M'.tris = M.tris ++ l := by
  unfold Rt.addPoint at h
  split at h
  · cases h
  · rename_i M1 vis h1
    split at h
    · cases h
    · cases h
      obtain ⟨l, e, -⟩ := addLoop_tris h1
      exact ⟨l, e⟩

theorem addAllOn_len {O : Orders} {ks : Mesh K → List (ℤ × ℤ)} {fuel : ℕ} {l : List ℤ} {M M' : Mesh K}
    (h : R.addAllOn O ks fuel l M = some (.ok M')) : M.tris.length ≤ M'.tris.length := by
  induction l generalizing M with
  | nil => cases h; exact le_rfl
  | cons i l ih =>
    unfold Rt.addAllOn at h
    split at h
    · cases h
    · cases h
    · rename_i M1 h1
      refine le_trans ?_ (ih h)
      unfold Rt.addPointOn at h1
      split at h1
      · cases h1
      · rename_i M2 h2
        rw [flipEdgesBy_len h1]
        obtain ⟨t, e⟩ := addPoint_tris h2
        rw [e]
        simp

/-- C128: no call of `triangulate` starts afresh: on an object that has triangles already, a call that ends has more triangles
afterwards than before, unless all points are on one line, when everything but the points stays. -/
theorem C128_more (O : Orders) (ks : Mesh K → List (ℤ × ℤ)) (M0 : Mesh K) (ps : List (Pt K)) (fuel : ℕ) {M : Mesh K}
    (h : R.triangulateOn O ks M0 ps fuel = some (.ok M)) :
    M0.tris.length < M.tris.length ∨ (M.points.length < 3 ∧ M.tris = M0.tris ∧ M.bnd = M0.bnd ∧ M.e2t = M0.e2t) := by
  unfold Rt.triangulateOn at h
  split at h
  · cases h
  · dsimp only at h
    split_ifs at h with h3
    · split at h
      · cases h
      · refine Or.inl (lt_of_lt_of_le ?_ (addAllOn_len h))
        simp
    · cases h
      exact Or.inr ⟨by simpa using h3, rfl, rfl, rfl⟩

/-- C128: a second call with the same three points: the triangle is there twice, boundary and table are as before. -/
theorem C128_three {O O' : Orders} (hO : O.Valid) (hO' : O'.Valid) (ks : Mesh K → List (ℤ × ℤ)) {ps : List (Pt K)} (h3 : ps.length = 3)
    {fuel fuel' : ℕ} {M : Mesh K} (h : R.delaunay O ps fuel = some (.ok M)) (ht : M.tris ≠ []) :
    ∃ t, M.tris = [t] ∧ R.triangulateOn O' ks M ps fuel' = some (.ok { M with tris := [t, t] }) := by
  have p0 : ∀ {O : Orders}, O.Valid → O.pops 3 = [] := fun hO => (hO.pops 3).eq_nil
  rw [← C128_first O [] ps fuel] at h
  unfold Rt.triangulateOn at h ⊢
  split at h
  · cases h
  · rename_i c hc
    dsimp only at h ⊢
    split_ifs at h with hl
    · have hlen : (R.dropFlat (R.sortedFrom c ps)).length = 3 := by
        refine le_antisymm ?_ hl
        have := (dropFlat_suffix (R := R) (R.sortedFrom c ps)).length_le
        rw [Rt.sortedFrom, List.length_insertionSort, h3] at this
        exact this
      rw [if_pos hl]
      split at h
      · cases h
      · rename_i t h1
        rw [hlen, p0 hO] at h
        rw [hlen, p0 hO']
        cases h
        refine ⟨t, rfl, ?_⟩
        simp only [Rt.addAllOn, List.nil_append, Option.some.injEq, Except.ok.injEq, Mesh.mk.injEq, true_and]
        refine ⟨rfl, ?_, ?_⟩
        · funext x
          unfold E2T.set
          split_ifs <;> rfl
        · simp [List.insert]
    · cases h
      exact absurd rfl ht

theorem addEdge_grows {M M' : Mesh K} {ip : ℤ} {e : ℤ × ℤ} (h : R.addEdge M ip e = .ok M') (x : ℤ × ℤ) :
    ((M.e2t x).getD []).length ≤ ((M'.e2t x).getD []).length := by
  unfold Rt.addEdge at h
  split at h
  · cases h
  · dsimp only at h
    split at h
    · cases h
    · rename_i v hv
      cases h
      simp only [E2T.set]
      split_ifs <;> simp_all

/-- a boundary edge at the point itself gets its new triangle twice -/
theorem addEdge_own {M M' : Mesh K} {ip : ℤ} {e : ℤ × ℤ} (hip : e.1 = ip ∨ e.2 = ip) (h : R.addEdge M ip e = .ok M') :
    ((M.e2t (makeKey e.1 e.2)).getD []).length + 2 ≤ ((M'.e2t (makeKey e.1 e.2)).getD []).length ∧
      ∃ t ∈ M'.tris, (t.a = ip ∧ t.b = ip) ∨ (t.b = ip ∧ t.c = ip) ∨ (t.a = ip ∧ t.c = ip) := by
  unfold Rt.addEdge at h
  split at h
  · cases h
  · rename_i t ht
    dsimp only at h
    split at h
    · cases h
    · rename_i v hv
      cases h
      constructor
      · obtain ⟨x, y⟩ := e
        dsimp only at hip hv ⊢
        have hd : x ≠ y → makeKey x x ≠ makeKey x y ∧ makeKey y y ≠ makeKey x y := by
          intro h
          unfold makeKey
          constructor <;> split_ifs <;> simp only [ne_eq, Prod.mk.injEq] <;> omega
        by_cases hxy : x = y
        · subst hxy
          rcases hip with rfl | rfl <;> simp [E2T.set, hv]
        · obtain ⟨d1, d2⟩ := hd hxy
          rcases hip with rfl | rfl
          · rw [makeKey_comm y x]
            simp [E2T.set, hv, d1, d1.symm]
          · rw [makeKey_comm y x]
            simp [E2T.set, hv, d2, d2.symm]
      · refine ⟨t, by simp, ?_⟩
        have hs : ((Tri.sorted e.1 e.2 ip).a = ip ∧ (Tri.sorted e.1 e.2 ip).b = ip) ∨
            ((Tri.sorted e.1 e.2 ip).b = ip ∧ (Tri.sorted e.1 e.2 ip).c = ip) := by
          obtain ⟨x, y⟩ := e
          dsimp only at hip ⊢
          unfold Tri.sorted
          simp only [List.insertionSort, List.foldr, List.orderedInsert]
          by_cases hxy : x ≤ y <;> by_cases hyx : y ≤ x <;> rcases hip with rfl | rfl <;> simp [hxy, hyx] <;> omega
        unfold Rt.makeCcw at ht
        split at ht
        · cases ht
        · cases ht
          split_ifs
          · dsimp only; tauto
          · tauto

theorem visible_own (hR : R.IsRounding) {ps : List (Pt K)} {ip : ℤ} {e : ℤ × ℤ} {b : Bool} (hip : e.1 = ip ∨ e.2 = ip)
    (h : R.isEdgeVisible ps ip e = .ok b) : b = true := by
  have z : ∀ p : Pt K, R.ptSub p p = ⟨0, 0⟩ := by
    intro p
    have : R.coord 0 = 0 := by simp [Rt.coord, Rt.round8, rhe8, rhe, hR.zero]
    simp [Rt.ptSub, Rt.mkPt, Rt.sub, this, hR.zero]
  have e0 : (0 : K) < R.eps := hR.eps_pos
  unfold Rt.isEdgeVisible Rt.getArea at h
  split at h
  · rename_i p q r hp hq hr
    cases h
    rw [decide_eq_true_iff]
    rcases hip with rfl | rfl
    · rw [hp] at hq
      cases hq
      simpa [Rt.areaOf, z, Rt.mul, Rt.sub, hR.zero] using e0
    · rw [hp] at hr
      cases hr
      simpa [Rt.areaOf, z, Rt.mul, Rt.sub, hR.zero] using e0
  · cases h

theorem addLoop_grows {ip : ℤ} {es vis : List (ℤ × ℤ)} {M M' : Mesh K} (h : R.addLoop ip es M = .ok (M', vis)) (x : ℤ × ℤ) :
    ((M.e2t x).getD []).length ≤ ((M'.e2t x).getD []).length := by
  induction es generalizing M vis with
  | nil => obtain ⟨rfl, rfl⟩ := Prod.mk.inj (Except.ok.inj h); exact le_rfl
  | cons e es ih =>
    unfold Rt.addLoop at h
    split at h
    · cases h
    · exact ih h
    · split at h
      · cases h
      · rename_i M1 h1
        split at h
        · cases h
        · rename_i M2 v2 h2
          obtain ⟨rfl, rfl⟩ := Prod.mk.inj (Except.ok.inj h)
          exact (addEdge_grows h1 x).trans (ih h2)

theorem addLoop_own (hR : R.IsRounding) {ip : ℤ} {es vis : List (ℤ × ℤ)} {M M' : Mesh K} {e : ℤ × ℤ} (he : e ∈ es)
    (hip : e.1 = ip ∨ e.2 = ip) (h : R.addLoop ip es M = .ok (M', vis)) :
    ((M.e2t (makeKey e.1 e.2)).getD []).length + 2 ≤ ((M'.e2t (makeKey e.1 e.2)).getD []).length ∧
      ∃ t ∈ M'.tris, (t.a = ip ∧ t.b = ip) ∨ (t.b = ip ∧ t.c = ip) ∨ (t.a = ip ∧ t.c = ip) := by
  induction es generalizing M vis with
  | nil => cases he
  | cons f es ih =>
    unfold Rt.addLoop at h
    split at h
    · cases h
    · rename_i hv
      rcases List.mem_cons.1 he with rfl | he
      · exact absurd (visible_own hR hip hv) (by decide)
      · exact ih he h
    · split at h
      · cases h
      · rename_i M1 h1
        split at h
        · cases h
        · rename_i M2 v2 h2
          obtain ⟨rfl, rfl⟩ := Prod.mk.inj (Except.ok.inj h)
          rcases List.mem_cons.1 he with rfl | he
          · obtain ⟨g1, t, g2, g3⟩ := addEdge_own hip h1
            obtain ⟨l, e1, -⟩ := addLoop_tris h2
            exact ⟨g1.trans (addLoop_grows h2 _), t, by rw [e1]; exact List.mem_append_left _ g2, g3⟩
          · obtain ⟨g1, g2⟩ := ih he h2
            have := addEdge_grows h1 (makeKey e.1 e.2)
            exact ⟨by omega, g2⟩

/-- C128: if a point that is an end of a boundary edge is added once more, the mesh gets a triangle that has the point as corner twice,
and the edge is listed with at least three triangles, on which `flipOneEdge` raises a ValueError; in every correctly rounded arithmetic. -/
theorem C128_value (hR : R.IsRounding) {M M' : Mesh K} {ip : ℤ} {e : ℤ × ℤ} (he : e ∈ M.bnd) (hip : e.1 = ip ∨ e.2 = ip)
    {v0 : List ℕ} (hv : M.e2t (makeKey e.1 e.2) = some v0) (hv0 : v0 ≠ []) (h : R.addPoint M ip = .ok M') :
    (∃ t ∈ M'.tris, (t.a = ip ∧ t.b = ip) ∨ (t.b = ip ∧ t.c = ip) ∨ (t.a = ip ∧ t.c = ip)) ∧
    (∃ v, M'.e2t (makeKey e.1 e.2) = some v ∧ 3 ≤ v.length) ∧ R.flipOneEdge M' (makeKey e.1 e.2) = .error .value := by
  unfold Rt.addPoint at h
  split at h
  · cases h
  · rename_i M1 vis h1
    split at h
    · cases h
    · cases h
      obtain ⟨g1, g2⟩ := addLoop_own hR he hip h1
      rw [hv, Option.getD_some] at g1
      have g0 : 1 ≤ v0.length := by
        rcases v0 with _ | ⟨a, l⟩
        · exact absurd rfl hv0
        · simp
      refine ⟨g2, ?_⟩
      cases hx : M1.e2t (makeKey e.1 e.2) with
      | none => rw [hx] at g1; simp at g1
      | some v =>
        rw [hx, Option.getD_some] at g1
        refine ⟨⟨v, rfl, by omega⟩, ?_⟩
        unfold Rt.flipOneEdge
        rw [show ({ M1 with bnd := _ } : Mesh K).e2t (makeKey e.1 e.2) = some v from hx, Option.getD_some]
        rcases v with _ | ⟨a, _ | ⟨b, _ | ⟨c, l⟩⟩⟩
        · exact absurd g1 (by simp)
        · exact absurd g1 (by simp)
        · exact absurd g1 (by simp; omega)
        · rfl

theorem fin_set {d : E2T} (h : d.Fin) (k : ℤ × ℤ) (v : List ℕ) : (d.set k v).Fin := by
  unfold E2T.Fin at *
  refine (h.insert k).subset fun x hx => ?_
  by_cases hk : x = k
  · exact Or.inl hk
  · exact Or.inr (by simpa [E2T.set, hk] using hx)

theorem addEdge_fin {M M' : Mesh K} {ip : ℤ} {e : ℤ × ℤ} (h : R.addEdge M ip e = .ok M') (hf : M.e2t.Fin) : M'.e2t.Fin := by
  unfold Rt.addEdge at h
  split at h
  · cases h
  · dsimp only at h
    split at h
    · cases h
    · cases h
      exact fin_set (fin_set (fin_set hf _ _) _ _) _ _

theorem addLoop_fin {ip : ℤ} {es vis : List (ℤ × ℤ)} {M M' : Mesh K} (h : R.addLoop ip es M = .ok (M', vis)) (hf : M.e2t.Fin) :
    M'.e2t.Fin := by
  induction es generalizing M vis with
  | nil => obtain ⟨rfl, rfl⟩ := Prod.mk.inj (Except.ok.inj h); exact hf
  | cons e es ih =>
    unfold Rt.addLoop at h
    split at h
    · cases h
    · exact ih h hf
    · split at h
      · cases h
      · rename_i M1 h1
        split at h
        · cases h
        · rename_i M2 v2 h2
          obtain ⟨rfl, rfl⟩ := Prod.mk.inj (Except.ok.inj h)
          exact ih h2 (addEdge_fin h1 hf)

theorem addPoint_fin {ip : ℤ} {M M' : Mesh K} (h : R.addPoint M ip = .ok M') (hf : M.e2t.Fin) : M'.e2t.Fin := by
  unfold Rt.addPoint at h
  split at h
  · cases h
  · rename_i M1 vis h1
    split at h
    · cases h
    · cases h
      exact (addLoop_fin h1 hf :)

/-- C128: if the number popped first belongs to an end of a boundary edge of the object and `flipEdges` looks at this edge first, the call
raises an exception, whatever the triangles, in every correctly rounded arithmetic. -/
theorem C128_raises (hR : R.IsRounding) {O : Orders} (hO : O.Valid) {ks : Mesh K → List (ℤ × ℤ)} (hks : KeysOf ks) {M0 : Mesh K} (hf0 : M0.e2t.Fin)
    {ps : List (Pt K)} {c : Pt K} (hc : R.centroid ps = .ok c) (h3 : 3 ≤ (R.dropFlat (R.sortedFrom c ps)).length) {i : ℤ} {l : List ℤ}
    (hpop : O.pops (R.dropFlat (R.sortedFrom c ps)).length = i :: l) {e : ℤ × ℤ} (he : e ∈ M0.bnd) (hi : e.1 = i ∨ e.2 = i)
    {v0 : List ℕ} (hv : M0.e2t (makeKey e.1 e.2) = some v0) (hv0 : v0 ≠ [])
    (hfirst : ∀ L, makeKey e.1 e.2 ∈ L → ∃ r, O.edges i 0 L = makeKey e.1 e.2 :: r) (fuel : ℕ) :
    ∃ x, R.triangulateOn O ks M0 ps (fuel + 1) = some (.error x) := by
  unfold Rt.triangulateOn
  rw [hc]
  dsimp only
  rw [if_pos h3]
  split
  · exact ⟨_, rfl⟩
  · rename_i t _
    rw [hpop]
    unfold Rt.addAllOn Rt.addPointOn
    dsimp only
    obtain ⟨v, hv1, hv2⟩ : ∃ v, (((M0.e2t.set (makeKey t.a t.b) [0]).set (makeKey t.b t.c) [0]).set (makeKey t.c t.a) [0])
        (makeKey e.1 e.2) = some v ∧ v ≠ [] := by
      simp only [E2T.set]
      split_ifs
      · exact ⟨_, rfl, by simp⟩
      · exact ⟨_, rfl, by simp⟩
      · exact ⟨_, rfl, by simp⟩
      · exact ⟨_, hv, hv0⟩
    cases ha : R.addPoint ⟨R.dropFlat (R.sortedFrom c ps), M0.tris ++ [t],
          ((M0.e2t.set (makeKey t.a t.b) [0]).set (makeKey t.b t.c) [0]).set (makeKey t.c t.a) [0],
          O.bnd i (M0.bnd ∪ [(t.a, t.b), (t.b, t.c), (t.c, t.a)])⟩ i with
    | error x => exact ⟨x, rfl⟩
    | ok M1 =>
      have hb : e ∈ O.bnd i (M0.bnd ∪ [(t.a, t.b), (t.b, t.c), (t.c, t.a)]) :=
        (hO.bnd _ _).mem_iff.2 (List.mem_union_iff.2 (Or.inl he))
      obtain ⟨-, ⟨w, hw, -⟩, hf⟩ := C128_value hR (e := e) hb hi hv1 hv2 ha
      obtain ⟨r, hr⟩ := hfirst (ks M1) ((hks M1 (addPoint_fin ha (fin_set (fin_set (fin_set hf0 _ _) _ _) _ _)) _).2 (by rw [hw]; rfl))
      refine ⟨.value, ?_⟩
      dsimp only
      unfold Rt.flipEdgesBy
      rw [hr]
      unfold Rt.flipRound
      rw [hf]

/-- the edge (2, 3) is looked at first -/
def frontOrders : Orders := ⟨fun _ l => l, fun _ _ l => if (2, 3) ∈ l then (2, 3) :: l.erase (2, 3) else l, fromThree⟩

theorem frontOrders_valid : frontOrders.Valid :=
  ⟨fun _ _ => List.Perm.refl _, fun _ _ l => by
    unfold frontOrders
    dsimp only
    split_ifs with h
    · exact (List.perm_cons_erase h).symm
    · exact List.Perm.refl _, fun _ => List.Perm.refl _⟩

/-- C128: the nodes (1, 0), (-1, 0), (-1, 4), (5, 0): the first call ends, the second one raises an exception -/
theorem C128_second {ks : Mesh ℝ → List (ℤ × ℤ)} (hks : KeysOf ks) (f f' : ℕ) :
    ∃ M, exReal.delaunay plainOrders (flatPts.map ipt) (f + 1) = some (.ok M) ∧
      ∃ x, exReal.triangulateOn frontOrders ks M (flatPts.map ipt) (f' + 1) = some (.error x) := by
  have hd := flat_run f
  refine ⟨flat1, hd, ?_⟩
  have hdr : exReal.dropFlat (exReal.sortedFrom (ipt (1, 1)) (flatPts.map ipt)) = flatPts.map ipt := by
    rw [flatPts_sorted]
    exact flat_drop
  refine C128_raises exReal_isExact.isRounding frontOrders_valid hks ?_ flatPts_centroid (by rw [hdr]; simp [flatPts]) (i := 3) (l := [])
    (by rw [hdr]; rfl) (e := (3, 2)) (by simp [flat1]) (Or.inl rfl) (v0 := [1]) rfl (by simp) ?_ f'
  · unfold flat1
    dsimp only
    refine fin_set (fin_set (fin_set (fin_set (fin_set (fin_set (fin_set (fin_set (fin_set ?_ _ _) _ _) _ _) _ _) _ _) _ _) _ _) _ _) _ _
    unfold E2T.Fin E2T.empty
    simp
  · intro L hL
    refine ⟨L.erase (2, 3), ?_⟩
    have hk : makeKey (3, 2).1 (3, 2).2 = (2, 3) := rfl
    rw [hk] at hL ⊢
    unfold frontOrders
    dsimp only
    rw [if_pos hL]

/-- such lists of keys exist -/
example : ∃ ks : Mesh ℝ → List (ℤ × ℤ), KeysOf ks := by
  classical
  refine ⟨fun M => if h : M.e2t.Fin then h.toFinset.toList else [], fun M h x => ?_⟩
  dsimp only
  rw [dif_pos h, Finset.mem_toList]
  exact h.mem_toFinset

/-- binary64: the triangle (0, 0), (4, 0), (0, 4) is stored a second time -/
example (ks : Mesh ℚ → List (ℤ × ℤ)) : ∃ M t, exRt.delaunay plainOrders [⟨0, 0⟩, ⟨4, 0⟩, ⟨0, 4⟩] 1 = some (.ok M) ∧ M.tris = [t] ∧
    exRt.triangulateOn plainOrders ks M [⟨0, 0⟩, ⟨4, 0⟩, ⟨0, 4⟩] 1 = some (.ok { M with tris := [t, t] }) := by
  have hb : (match exRt.delaunay plainOrders [⟨0, 0⟩, ⟨4, 0⟩, ⟨0, 4⟩] 1 with
    | some (.ok M) => decide (M.tris ≠ [])
    | _ => false) = true := by decide +kernel
  split at hb
  · rename_i M hM
    obtain ⟨t, h1, h2⟩ := C128_three (R := exRt) plainOrders_valid plainOrders_valid ks (ps := [⟨0, 0⟩, ⟨4, 0⟩, ⟨0, 4⟩]) rfl hM
      (of_decide_eq_true hb) (fuel' := 1)
    exact ⟨M, t, hM, h1, h2⟩
  · cases hb

end Srep
