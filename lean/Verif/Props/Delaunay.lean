import Verif.Lemmas.MeshFlip
import Verif.Lemmas.Line
import Verif.Lemmas.SegExact
import Verif.Spec.Geom
import Verif.Spec.Example

/-!
# Triangulation dispatch (C59), primitives of Delaunay2d (C60), edge flips (C61)
-/

set_option linter.unusedSectionVars false

namespace Srep

/-! ## C59 -/

/-- C59: with `None` the call raises and the stored triangles stay. -/
theorem C59_none {T : Type} (ear mesh : List T → TriStep T) (ch : Alg) (force : Bool) (st : List T) :
    triangulate ear mesh ch none force st = (some .generic, st) := rfl

/-- C59: an unknown algorithm name raises iff there are no stored triangles or `force` is set; the stored
triangles stay in any case. -/
theorem C59_unknown {T : Type} (ear mesh : List T → TriStep T) (ch : Alg) (force : Bool) (st : List T) :
    ((triangulate ear mesh ch (some .unknown) force st).1 = some .generic ↔ st = [] ∨ force = true) ∧
    ((triangulate ear mesh ch (some .unknown) force st).1 = none ↔ ¬ (st = [] ∨ force = true)) ∧
    (triangulate ear mesh ch (some .unknown) force st).2 = st := by
  unfold triangulate
  by_cases h : st = [] ∨ force = true <;> simp [h]

/-- C59: 'delaunay' raises AttributeError whenever it is executed, and destroys the stored triangles. -/
theorem C59_delaunay {T : Type} (ear mesh : List T → TriStep T) (ch : Alg) (force : Bool) (st : List T)
    (h : st = [] ∨ force = true) :
    triangulate ear mesh ch (some .delaunay) force st = (some .attribute, []) := by
  unfold triangulate triangulateDelaunay
  simp [h]

/-- C59: with stored triangles and without `force`, every name (also an unknown one) is accepted and nothing
happens; with 'random' the outcome is that of one of the three algorithms, among them the failing one. -/
theorem C59_cached_random {T : Type} (ear mesh : List T → TriStep T) (ch : Alg) (a : Alg) (st : List T)
    (hch : ch = .delaunay ∨ ch = .earClipping ∨ ch = .triangle) :
    (st ≠ [] → triangulate ear mesh ch (some a) false st = (none, st)) ∧
    (triangulate ear mesh ch (some .random) true st = (some .attribute, []) ∨
      triangulate ear mesh ch (some .random) true st = ear st ∨
      triangulate ear mesh ch (some .random) true st = mesh st) ∧
    triangulate ear mesh .delaunay (some .random) true st = (some .attribute, []) := by
  refine ⟨fun h => by simp [triangulate, h], ?_, by simp [triangulate, triangulateDelaunay]⟩
  rcases hch with rfl | rfl | rfl <;> simp [triangulate, triangulateDelaunay]

/-- one stored triangle is lost -/
example : triangulate (fun s => (none, s)) (fun s => (none, s)) .triangle (some .delaunay) true [7]
    = (some .attribute, []) := by decide

/-! ## C60 -/

section
variable {K : Type} [Field K] [LinearOrder K] [IsStrictOrderedRing K] [FloorRing K] {R : Rt K}

theorem areaOf_swap (hR : R.IsRounding) (p q r : Pt K) : R.areaOf p r q = -R.areaOf p q r := by
  unfold Rt.areaOf
  rw [hR.sub_neg, neg_inj]
  unfold Rt.mul
  rw [mul_comm (R.ptSub r p).y, mul_comm (R.ptSub r p).x]

theorem areaOf_exact (hE : R.IsExact) {p q r : Pt K} (hp : R.Stored p) (hq : R.Stored q) (hr : R.Stored r) :
    R.areaOf p q r = det3 p q r := by
  rw [hE.stored_iff] at hp hq hr
  unfold Rt.areaOf Rt.ptSub det3
  rw [hE.sub', hE.mul', hE.mul', hE.sub', hE.sub', hE.sub', hE.sub',
    hE.mkPt_grid (hq.1.sub hp.1) (hq.2.sub hp.2), hE.mkPt_grid (hr.1.sub hp.1) (hr.2.sub hp.2)]

theorem dotOf_exact (hE : R.IsExact) {p q r : Pt K} (hp : R.Stored p) (hq : R.Stored q) (hr : R.Stored r) :
    R.dotOf p q r = (q.x - p.x) * (r.x - p.x) + (q.y - p.y) * (r.y - p.y) := by
  rw [hE.stored_iff] at hp hq hr
  unfold Rt.dotOf Rt.ptSub
  rw [hE.add', hE.mul', hE.mul', hE.sub', hE.sub', hE.sub', hE.sub',
    hE.mkPt_grid (hq.1.sub hp.1) (hq.2.sub hp.2), hE.mkPt_grid (hr.1.sub hp.1) (hr.2.sub hp.2)]

/-- C60 (binary64): exchanging the last two points changes the sign of `getArea`, for all points and any
rounding; the same index twice in a row gives 0 there. -/
theorem C60_swap (hR : R.IsRounding) (ps : List (Pt K)) (i j k : ℤ) :
    R.getArea ps i k j = (R.getArea ps i j k).map Neg.neg := by
  unfold Rt.getArea
  cases pyGet ps i <;> cases pyGet ps j <;> cases pyGet ps k <;> try rfl
  rename_i p q r
  show Except.ok (R.areaOf p r q) = Except.ok (-R.areaOf p q r)
  rw [areaOf_swap hR]

/-- C60 (exact arithmetic): `getArea` is twice the signed area; it is invariant under rotation of the indices
and changes sign with every exchange of two. -/
theorem C60_exact (hE : R.IsExact) {ps : List (Pt K)} (hs : ∀ p ∈ ps, R.Stored p) {i j k : ℤ} {p q r : Pt K}
    (hi : pyGet ps i = some p) (hj : pyGet ps j = some q) (hk : pyGet ps k = some r) :
    R.getArea ps i j k = .ok (det3 p q r) ∧ R.getArea ps j k i = R.getArea ps i j k ∧
      R.getArea ps k i j = R.getArea ps i j k ∧ R.getArea ps j i k = (R.getArea ps i j k).map Neg.neg ∧
      R.getArea ps k j i = (R.getArea ps i j k).map Neg.neg := by
  have mem : ∀ {n : ℤ} {x : Pt K}, pyGet ps n = some x → x ∈ ps := by
    intro n x h
    unfold pyGet at h
    split_ifs at h <;> exact List.mem_of_getElem? h
  have a := hs _ (mem hi)
  have b := hs _ (mem hj)
  have c := hs _ (mem hk)
  unfold Rt.getArea
  rw [hi, hj, hk]
  simp only [Except.map, areaOf_exact hE a b c, areaOf_exact hE b c a, areaOf_exact hE c a b,
    areaOf_exact hE b a c, areaOf_exact hE c b a, Except.ok.injEq, true_and]
  unfold det3
  refine ⟨?_, ?_, ?_, ?_⟩ <;> ring

/-- C60 (binary64): `makeCounterClockwise` keeps the first vertex, permutes the other two at most, and the
area of the result is never below -EPS; if the given triangle had an area below -EPS, the result has an area
above EPS. -/
theorem C60_ccw (hR : R.IsRounding) {ps : List (Pt K)} {t t' : Tri} (h : R.makeCcw ps t = .ok t') :
    (t' = t ∨ t' = ⟨t.a, t.c, t.b⟩) ∧ ∃ a a', R.getArea ps t.a t.b t.c = .ok a ∧
      R.getArea ps t'.a t'.b t'.c = .ok a' ∧ -R.eps ≤ a' ∧ |a'| = |a| := by
  unfold Rt.makeCcw at h
  cases ha : R.getArea ps t.a t.b t.c with
  | error e => rw [ha] at h; cases h
  | ok a =>
    rw [ha] at h
    simp only [Except.ok.injEq] at h
    subst h
    have he := hR.eps_pos
    split_ifs with h1
    · refine ⟨Or.inr rfl, a, -a, rfl, ?_, by linarith, abs_neg a⟩
      show R.getArea ps t.a t.c t.b = _
      rw [C60_swap hR, ha]; rfl
    · exact ⟨Or.inl rfl, a, a, rfl, ha, not_lt.1 h1, rfl⟩

end

/-- C60: `makeKey` does not depend on the order of its arguments, is sorted, and determines the pair. -/
theorem C60_key (i j k l : ℤ) :
    makeKey i j = makeKey j i ∧ (makeKey i j).1 ≤ (makeKey i j).2 ∧
      (makeKey i j = makeKey k l ↔ (i = k ∧ j = l) ∨ (i = l ∧ j = k)) := by
  refine ⟨makeKey_comm i j, makeKey_le i j, ?_, ?_⟩
  · intro h
    unfold makeKey at h
    split_ifs at h <;> simp only [Prod.mk.injEq] at h <;> omega
  · rintro (⟨rfl, rfl⟩ | ⟨rfl, rfl⟩)
    · rfl
    · exact makeKey_comm _ _

/-- a clockwise triangle is turned around -/
example : (exRt.makeCcw [⟨0, 0⟩, ⟨0, 1⟩, ⟨1, 0⟩] ⟨0, 1, 2⟩).toOption = some ⟨0, 2, 1⟩ := by decide +kernel

/-- a triangle of area between -EPS and 0 stays clockwise: the bound -EPS of `C60_ccw` is needed -/
example : (exRt.makeCcw [⟨0, 0⟩, ⟨0, 1 / 100000⟩, ⟨1 / 10000, 0⟩] ⟨0, 1, 2⟩).toOption = some ⟨0, 1, 2⟩ := by
  decide +kernel

/-! ## C61 -/

section
variable {K : Type} [Field K] [LinearOrder K] [IsStrictOrderedRing K] [FloorRing K] {R : Rt K}

/-- the two triangles at the edge have different third vertices -/
def Mesh.OppNe (M : Mesh K) (e : ℤ × ℤ) : Prop :=
  ∀ n m T S, M.e2t e = some [n, m] → M.tris[n]? = some T → M.tris[m]? = some S → T.opp e ≠ S.opp e

/-- the third vertices of the two triangles at the edge are not joined by an edge of the table -/
def Mesh.DiagFree (M : Mesh K) (e : ℤ × ℤ) : Prop :=
  ∀ n m T S, M.e2t e = some [n, m] → M.tris[n]? = some T → M.tris[m]? = some S →
    M.e2t (makeKey (T.opp e) (S.opp e)) = none

/-- C61: whatever the arithmetic, `flipOneEdge` on a sound mesh keeps the points, the boundary, the number of
triangles and the soundness of the table, and adds no vertex; it changes at most two triangles. -/
theorem C61_sound {M M' : Mesh K} {e : ℤ × ℤ} {r : List (ℤ × ℤ)} (hM : M.Sound) (ho : M.OppNe e)
    (h : R.flipOneEdge M e = .ok (M', r)) :
    M'.Sound ∧ M'.points = M.points ∧ M'.bnd = M.bnd ∧ M'.tris.length = M.tris.length ∧
      (∀ T ∈ M'.tris, ∀ v, T.Has v → ∃ T' ∈ M.tris, T'.Has v) ∧
      (∃ n m : ℕ, ∀ k : ℕ, k ≠ n → k ≠ m → M'.tris[k]? = M.tris[k]?) ∧ (M.AtMostTwo → M'.AtMostTwo) := by
  rcases flip_cases h with ⟨rfl, -⟩ | ⟨t1, t2, T1, T2, p, q, a, b, v1, v2, F, rfl, -⟩
  · exact ⟨hM, rfl, rfl, rfl, fun T hT v hv => ⟨T, hT, hv⟩, ⟨0, 0, fun _ _ _ => rfl⟩, id⟩
  · have G := F.facts hM (ho _ _ _ _ F.entry F.h1 F.h2)
    exact ⟨G.sound hM, rfl, rfl, by simp [flipped], fun T hT v hv => G.has_old hT hv,
      ⟨t1, t2, fun k h1 h2 => by rw [G.tris, if_neg h2, if_neg h1]⟩, fun h => G.atMostTwo h⟩

/-- C61: if moreover the new edge is not yet in the table, the table stays consistent: an edge lists a triangle
iff the triangle has the edge. -/
theorem C61_consistent {M M' : Mesh K} {e : ℤ × ℤ} {r : List (ℤ × ℤ)} (hM : M.Consistent) (ho : M.OppNe e)
    (hd : M.DiagFree e) (h : R.flipOneEdge M e = .ok (M', r)) :
    M'.Consistent ∧ ∀ n x, (∃ l, M'.e2t x = some l ∧ n ∈ l) ↔ M'.At n x := by
  have key : M'.Consistent := by
    rcases flip_cases h with ⟨rfl, -⟩ | ⟨t1, t2, T1, T2, p, q, a, b, v1, v2, F, rfl, -⟩
    · exact hM
    · have G := F.facts hM.toSound (ho _ _ _ _ F.entry F.h1 F.h2)
      exact ⟨G.sound hM.toSound, G.complete hM (hd _ _ _ _ F.entry F.h1 F.h2)⟩
  exact ⟨key, fun n x => ⟨fun ⟨l, hl, hn⟩ => key.sound _ _ hl _ hn, fun hx => key.complete n x hx⟩⟩

theorem pyGet_some {α : Type} {l : List α} {v : ℤ} (h : 0 ≤ v ∧ v < l.length) : ∃ p, pyGet l v = some p := by
  unfold pyGet
  rw [if_pos h.1]
  exact ⟨_, List.getElem?_eq_getElem (by omega)⟩

/-- C61: on a consistent mesh with at most two triangles per edge `flipOneEdge` never raises. -/
theorem C61_no_error {M : Mesh K} (hM : M.Consistent) (h2 : M.AtMostTwo) (hr : M.InRange) (e : ℤ × ℤ)
    (ho : M.OppNe e) : ∃ M' r, R.flipOneEdge M e = .ok (M', r) := by
  unfold Rt.flipOneEdge
  split
  · exact ⟨_, _, rfl⟩
  · exact ⟨_, _, rfl⟩
  · rename_i t1 t2 he
    have he' : M.e2t e = some [t1, t2] := by
      cases hx : M.e2t e with
      | none => rw [hx] at he; simp at he
      | some l => rw [hx] at he; simp at he; rw [he]
    obtain ⟨T1, g1, e1⟩ := hM.sound _ _ he' t1 (by simp)
    obtain ⟨T2, g2, e2⟩ := hM.sound _ _ he' t2 (by simp)
    have m1 := List.mem_of_getElem? g1
    have m2 := List.mem_of_getElem? g2
    obtain ⟨a1, a2, a3⟩ := Tri.opp_spec (hM.proper _ m1) e1
    obtain ⟨b1, b2, b3⟩ := Tri.opp_spec (hM.proper _ m2) e2
    have oo := ho _ _ _ _ he' g1 g2
    obtain ⟨p, hp⟩ := pyGet_some (hr _ m1 _ e1.2.1)
    obtain ⟨q, hq⟩ := pyGet_some (hr _ m1 _ e1.2.2)
    obtain ⟨a, ha⟩ := pyGet_some (hr _ m1 _ (Tri.opp_has (hM.proper _ m1) e1))
    obtain ⟨b, hb⟩ := pyGet_some (hr _ m2 _ (Tri.opp_has (hM.proper _ m2) e2))
    rw [g1, g2]
    simp only [hp, hq, ha, hb]
    split_ifs with ht
    · obtain ⟨v1, hv1, -⟩ := hM.complete t1 (makeKey (T1.opp e) e.2)
        ⟨T1, g1, Tri.HasEdge.mk' a2 ((a3 _).2 (by tauto)) ((a3 _).2 (by tauto))⟩
      obtain ⟨v2, hv2, -⟩ := hM.complete t2 (makeKey (T2.opp e) e.1)
        ⟨T2, g2, Tri.HasEdge.mk' b1 ((b3 _).2 (by tauto)) ((b3 _).2 (by tauto))⟩
      have q1 : ((M.e2t.del e).set (makeKey (T1.opp e) (T2.opp e)) [t1, t2]) (makeKey (T1.opp e) e.2) = some v1 := by
        simp only [E2T.set, E2T.del]
        rw [if_neg (makeKey_ne (Or.inr ⟨a2.symm, b2.symm⟩)), if_neg (makeKey_ne_of_lt (Or.inl ⟨a1, a2⟩)), hv1]
      have q2 : ∀ w, (((M.e2t.del e).set (makeKey (T1.opp e) (T2.opp e)) [t1, t2]).set (makeKey (T1.opp e) e.2) w)
          (makeKey (T2.opp e) e.1) = some v2 := by
        intro w
        simp only [E2T.set, E2T.del]
        rw [if_neg (makeKey_ne (Or.inl ⟨oo.symm, b2⟩)), if_neg (makeKey_ne (Or.inr ⟨a1.symm, b1.symm⟩)),
          if_neg (makeKey_ne_of_lt (Or.inl ⟨b1, b2⟩)), hv2]
      unfold flipWrite
      dsimp only
      rw [q1]
      dsimp only
      rw [q2]
      exact ⟨_, _, rfl⟩
    · exact ⟨_, _, rfl⟩
  · rename_i x1 x2 x3
    cases hx : M.e2t e with
    | none => exfalso; rw [hx] at x1; simp at x1
    | some l =>
      exfalso
      have := h2 _ _ hx
      rw [hx] at x1 x2 x3
      match l, this with
      | [], _ => simp at x1
      | [u], _ => simp at x2
      | [u, v], _ => exact x3 u v rfl

end
end Srep
