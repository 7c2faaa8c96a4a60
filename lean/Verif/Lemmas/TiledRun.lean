import Verif.Lemmas.TiledAdd
import Verif.Lemmas.TiledCover
import Verif.Model.Triangulate
import Verif.Props.DelaunayFlip

/-! The triangulation from the first triangle to the last point. -/

set_option linter.unusedSectionVars false

namespace Srep
open Cyc
variable {K : Type} [Field K] [LinearOrder K] [IsStrictOrderedRing K] [FloorRing K] {R : Rt K}
variable {M : Mesh K} {A : ℤ → Prop}

/-! ### the first triangle -/

theorem Mesh.Tiled.first (hE : R.IsExact) {ps : List (Pt K)} (hst : ∀ p ∈ ps, R.Stored p) (hg : GeneralPos ps)
    (h3 : 3 ≤ ps.length) :
    ∃ M, R.firstMesh ps = some (.ok M) ∧ M.points = ps ∧ M.Tiled R (fun v => 0 ≤ v ∧ v < 3) ∧ M.tris.length = 1 ∧
      M.bnd.length = 3 ∧ (∀ v, 0 ≤ v ∧ v < 3 → ∃ T ∈ M.tris, T.Has v) ∧ ∀ x, M.Legal R x := by
  obtain ⟨p, q, r, l, rfl⟩ : ∃ p q r l, ps = p :: q :: r :: l := by
    match ps, h3 with
    | p :: q :: r :: l, _ => exact ⟨p, q, r, l, rfl⟩
  have heps : (0 : K) < 1 / 10 ^ 8 := by positivity
  have hnd := hg.1
  simp only [List.nodup_cons, List.mem_cons, not_or] at hnd
  have hbig := hg.2 p (by simp) q (by simp) r (by simp) hnd.1.1 hnd.2.1.1 hnd.1.2.1
  have hdet := areaOf_exact hE (hst p (by simp)) (hst q (by simp)) (hst r (by simp))
  have hdrop : R.dropFlat (p :: q :: r :: l) = p :: q :: r :: l := by
    unfold Rt.dropFlat
    rw [if_neg]
    rw [hdet, hE.eps', not_lt]
    exact hbig.le
  obtain ⟨t, ht⟩ : ∃ t, R.makeCcw (p :: q :: r :: l) ⟨0, 1, 2⟩ = .ok t := by
    have hga : R.getArea (p :: q :: r :: l) 0 1 2 = .ok (R.areaOf p q r) := rfl
    unfold Rt.makeCcw; rw [hga]; exact ⟨_, rfl⟩
  have hM : R.firstMesh (p :: q :: r :: l) = some (.ok ⟨p :: q :: r :: l, [t],
      (((E2T.empty).set (makeKey t.a t.b) [0]).set (makeKey t.b t.c) [0]).set (makeKey t.c t.a) [0],
      [(t.a, t.b), (t.b, t.c), (t.c, t.a)]⟩) := by
    unfold Rt.firstMesh
    rw [hdrop, ht, if_pos (by simp)]
  obtain ⟨M', t', hM', htr, ht2, -, hbnd, hc, h2, hr, hB, -⟩ := C89_first hE.isRounding hM
  set M : Mesh K := ⟨p :: q :: r :: l, [t],
      (((E2T.empty).set (makeKey t.a t.b) [0]).set (makeKey t.b t.c) [0]).set (makeKey t.c t.a) [0],
      [(t.a, t.b), (t.b, t.c), (t.c, t.a)]⟩ with hMdef
  obtain rfl : M = M' := Except.ok.inj hM'
  obtain rfl : t = t' := by
    have : [t] = [t'] := htr
    simpa using this
  have hgM : GeneralPos M.points := hg
  have hlen : (3 : ℤ) ≤ M.points.length := by exact_mod_cast h3
  have hin : ∀ v : ℤ, 0 ≤ v ∧ v < 3 → 0 ≤ v ∧ v < M.points.length := fun v hv => ⟨hv.1, by omega⟩
  have hhas : ∀ v, t.Has v ↔ 0 ≤ v ∧ v < 3 := by
    intro v
    have : t.Has v ↔ v = 0 ∨ v = 1 ∨ v = 2 := by
      rcases ht2 with rfl | rfl <;> unfold Tri.Has <;> dsimp only <;> tauto
    rw [this]; omega
  have hmt : t ∈ M.tris := by rw [htr]; simp
  obtain ⟨hpl, -, hstM, hpos⟩ := C89_first_planar hE hst hM (by
    intro T hT hh
    rw [htr, List.mem_singleton] at hT
    subst hT
    have hp := hc.proper T hmt
    have ha := hin _ ((hhas T.a).1 (Or.inl rfl))
    have hb := hin _ ((hhas T.b).1 (Or.inr (Or.inl rfl)))
    have hcc := hin _ ((hhas T.c).1 (Or.inr (Or.inr rfl)))
    have := hgM.det ha hb hcc hp.1 hp.2.1 hp.2.2
    unfold Mesh.area at hh
    rw [hh, abs_neg, abs_of_pos heps] at this
    exact lt_irrefl _ this)
  have hpos := hpos t hmt
  have hp := hc.proper t hmt
  have hent : ∀ x l, M.e2t x = some l → l = [0] := by
    intro x l hx
    have := first_table ht2 x
    have e : M.e2t x = _ := this
    rw [e] at hx
    split_ifs at hx
    exact (Option.some.inj hx).symm
  unfold Mesh.area at hpos
  have hpos2 : 0 < det3 (M.pos t.b) (M.pos t.c) (M.pos t.a) := by
    have : det3 (M.pos t.b) (M.pos t.c) (M.pos t.a) = det3 (M.pos t.a) (M.pos t.b) (M.pos t.c) := by unfold det3; ring
    rwa [this]
  have hpos3 : 0 < det3 (M.pos t.c) (M.pos t.a) (M.pos t.b) := by
    have : det3 (M.pos t.c) (M.pos t.a) (M.pos t.b) = det3 (M.pos t.a) (M.pos t.b) (M.pos t.c) := by unfold det3; ring
    rwa [this]
  have hmem : ∀ e, e ∈ M.bnd ↔ e = (t.a, t.b) ∨ e = (t.b, t.c) ∨ e = (t.c, t.a) := by
    intro e; rw [hbnd]; simp
  have hA : ∀ v, (0 ≤ v ∧ v < 3) ↔ v = t.a ∨ v = t.b ∨ v = t.c := fun v => (hhas v).symm
  have hinner : ∀ X, Cyc.Inner M.pos M.bnd X ↔ InTri (M.pos t.a) (M.pos t.b) (M.pos t.c) X := by
    intro X
    rw [inTri_pos hpos]
    unfold Cyc.Inner
    simp only [hmem]
    constructor
    · intro h
      exact ⟨h (t.a, t.b) (Or.inl rfl), h (t.b, t.c) (Or.inr (Or.inl rfl)), h (t.c, t.a) (Or.inr (Or.inr rfl))⟩
    · rintro ⟨h1, h2, h3⟩ e (rfl | rfl | rfl)
      · exact h1
      · exact h2
      · exact h3
  have hsum : ∀ X, (M.tris.map (ind M.pos X)).sum = ind M.pos X t := by
    intro X; rw [htr]; simp
  refine ⟨M, hM, rfl, ⟨hc, h2, ?_, hpl, hstM, hgM, ?_, hB.nodup, hB.single, hin, ?_, ?_, ?_⟩, rfl, rfl, ?_, ?_⟩
  · intro x l hx
    rw [hent x l hx]; simp
  · refine ⟨hB.ne, hB.starts, hB.ends, ?_, ?_, ?_, ?_, ?_, ?_⟩
    · intro e he
      rw [hA, hA]
      rcases (hmem e).1 he with rfl | rfl | rfl <;> simp
    · intro e he v hv v1 v2
      rw [hA] at hv
      rcases (hmem e).1 he with rfl | rfl | rfl <;> dsimp only at v1 v2 ⊢ <;> rcases hv with rfl | rfl | rfl <;>
        first | exact absurd rfl v1 | exact absurd rfl v2 | assumption
    · intro e he
      rcases (hmem e).1 he with rfl | rfl | rfl
      · exact ⟨(t.b, t.c), (hmem _).2 (by simp), rfl⟩
      · exact ⟨(t.c, t.a), (hmem _).2 (by simp), rfl⟩
      · exact ⟨(t.a, t.b), (hmem _).2 (by simp), rfl⟩
    · intro e he
      rcases (hmem e).1 he with rfl | rfl | rfl
      · exact ⟨(t.c, t.a), (hmem _).2 (by simp), rfl⟩
      · exact ⟨(t.a, t.b), (hmem _).2 (by simp), rfl⟩
      · exact ⟨(t.b, t.c), (hmem _).2 (by simp), rfl⟩
    · rw [hbnd]; simp
    · exact ⟨0, 1, 2, by norm_num, by norm_num, by norm_num, by norm_num, by norm_num, by norm_num⟩
  · intro T hT v hv
    rw [htr, List.mem_singleton] at hT
    subst hT
    exact (hhas v).1 hv
  · intro X _ hi
    rw [hsum]
    exact ind_one ((hinner X).1 hi)
  · intro X _ hi
    rw [hsum]
    exact ind_zero (fun hh => hi ((hinner X).2 hh))
  · intro v hv
    exact ⟨t, hmt, (hhas v).2 hv⟩
  · intro x n m T S hx
    have := hent x _ hx
    simp at this

/-! ### flips until nothing changes -/

theorem Mesh.Tiled.mem_keys (h : M.Tiled R A) (x : ℤ × ℤ) : x ∈ M.keys ↔ (M.e2t x).isSome := by
  unfold Mesh.keys
  rw [List.mem_dedup, List.mem_flatMap]
  constructor
  · rintro ⟨T, hT, hx⟩
    have hp := h.cons.proper T hT
    have hE : T.HasEdge x := by
      simp only [List.mem_cons, List.not_mem_nil, or_false] at hx
      rcases hx with rfl | rfl | rfl
      · exact Tri.HasEdge.mk' hp.1 (Or.inl rfl) (Or.inr (Or.inl rfl))
      · exact Tri.HasEdge.mk' hp.2.1 (Or.inr (Or.inl rfl)) (Or.inr (Or.inr rfl))
      · exact Tri.HasEdge.mk' hp.2.2 (Or.inl rfl) (Or.inr (Or.inr rfl))
    obtain ⟨n, hn⟩ := List.mem_iff_getElem?.1 hT
    obtain ⟨l, hl, -⟩ := h.cons.complete n x ⟨T, hn, hE⟩
    rw [hl]; rfl
  · intro hx
    obtain ⟨l, hl⟩ := Option.isSome_iff_exists.1 hx
    obtain ⟨n, hn⟩ := List.exists_mem_of_ne_nil l (h.full _ _ hl)
    obtain ⟨T, hT, hk⟩ := h.cons.sound _ _ hl n hn
    refine ⟨T, List.mem_of_getElem? hT, ?_⟩
    obtain ⟨h0, h1, h2⟩ := hk
    have hh : ∀ i j : ℤ, x.1 = i → x.2 = j → i < j → x = makeKey i j ∧ x = makeKey j i := by
      rintro i j rfl rfl hlt
      unfold makeKey
      rw [if_pos hlt.le, if_neg (not_le.2 hlt)]
      exact ⟨rfl, rfl⟩
    simp only [List.mem_cons, List.not_mem_nil, or_false]
    rcases h1 with h1 | h1 | h1 <;> rcases h2 with h2 | h2 | h2 <;> first
      | (rw [h1, h2] at h0; exact absurd h0 (lt_irrefl _))
      | (have := hh _ _ h1 h2 (by rw [← h1, ← h2]; exact h0); tauto)

theorem Mesh.Tiled.flipEdgesBy (hE : R.IsExact) (hA : R.IsExactAngle) {O : Orders} (hO : O.Valid) (ip : ℤ)
    (h : M.Tiled R A) (es : List (ℤ × ℤ)) (hL : ∀ x, x ∉ es → M.Legal R x) :
    ∃ M' f0, (∀ f, f0 ≤ f → R.flipEdgesBy O ip M es 0 f = some (.ok M')) ∧ M'.Tiled R A ∧ M'.points = M.points ∧
      (∀ v, (∃ T ∈ M'.tris, T.Has v) ↔ ∃ T ∈ M.tris, T.Has v) ∧ M'.bnd = M.bnd ∧ M'.tris.length = M.tris.length ∧
      ∀ x, M'.Legal R x := by
  suffices H : ∀ (n : ℕ) (M1 : Mesh K) (es : List (ℤ × ℤ)) (k : ℕ), M1.Tiled R A → (∀ x, x ∉ es → M1.Legal R x) →
      M1.points = M.points → M1.tris ∈ Triangulations M.tris → rank M.pos M.tris M1.tris ≤ n →
      ∃ M' f0, (∀ f, f0 ≤ f → R.flipEdgesBy O ip M1 es k f = some (.ok M')) ∧ M'.Tiled R A ∧ M'.points = M1.points ∧
      (∀ v, (∃ T ∈ M'.tris, T.Has v) ↔ ∃ T ∈ M1.tris, T.Has v) ∧ M'.bnd = M1.bnd ∧
      M'.tris.length = M.tris.length ∧ ∀ x, M'.Legal R x by
    exact H _ M es 0 h hL rfl ⟨rfl, fun T hT v hv => ⟨T, hT, hv⟩⟩ le_rfl
  intro n
  induction n with
  | zero =>
    intro M1 es k h1 hL hpt hB hn
    obtain ⟨M2, r, a1, a2, a3, a4⟩ := h1.flipRound hE hA (O.edges ip k es)
    obtain ⟨-, b2, b3, -, -, b6⟩ := flipRound_good hE hA (B := M.tris) _ h1.good hB a1
    have hl := flipRound_legal hE hA (O.edges ip k es) [] h1.good
      (fun x hx _ => hL x fun hh => hx ((hO.edges ip k es).mem_iff.2 hh)) a1
    have hpos : M1.pos = M.pos := by unfold Mesh.pos; rw [hpt]
    obtain rfl : r = [] := by
      by_contra hc
      have := b6 hc
      rw [hpos] at this
      omega
    refine ⟨M2, 1, ?_, a2, b2, a3, a4, b3.1, fun x => hl x (by simp) (by simp)⟩
    intro f hf
    obtain ⟨f, rfl⟩ : ∃ g, f = g + 1 := ⟨f - 1, by omega⟩
    unfold Rt.flipEdgesBy
    rw [a1]
  | succ n ih =>
    intro M1 es k h1 hL hpt hB hn
    obtain ⟨M2, r, a1, a2, a3, a4⟩ := h1.flipRound hE hA (O.edges ip k es)
    obtain ⟨-, b2, b3, -, -, b6⟩ := flipRound_good hE hA (B := M.tris) _ h1.good hB a1
    have hl := flipRound_legal hE hA (O.edges ip k es) [] h1.good
      (fun x hx _ => hL x fun hh => hx ((hO.edges ip k es).mem_iff.2 hh)) a1
    have hpos : M1.pos = M.pos := by unfold Mesh.pos; rw [hpt]
    cases r with
    | nil =>
      refine ⟨M2, 1, ?_, a2, b2, a3, a4, b3.1, fun x => hl x (by simp) (by simp)⟩
      intro f hf
      obtain ⟨f, rfl⟩ : ∃ g, f = g + 1 := ⟨f - 1, by omega⟩
      unfold Rt.flipEdgesBy
      rw [a1]
    | cons y r =>
      have := b6 (by simp)
      rw [hpos] at this
      obtain ⟨M', f0, c1, c2, c3, c4, c5, c6, c7⟩ := ih M2 (y :: r) (k + 1) a2 (fun x hx => hl x hx (by simp))
        (b2.trans hpt) b3 (by omega)
      refine ⟨M', f0 + 1, ?_, c2, c3.trans b2, fun v => (c4 v).trans (a3 v), c5.trans a4, c6, c7⟩
      intro f hf
      obtain ⟨f, rfl⟩ : ∃ g, f = g + 1 := ⟨f - 1, by omega⟩
      unfold Rt.flipEdgesBy
      rw [a1]
      exact c1 f (by omega)

/-! ### one point more -/

theorem pair_pt (p : Pt K) : pairPt p.pair = p := rfl

/-- the convex hull of the points added so far -/
theorem Mesh.Tiled.hull_iff (h : M.Tiled R A) (q : K × K) :
    q ∈ _root_.convexHull K {q | ∃ v, A v ∧ q = (M.pos v).pair} ↔
      ∀ e ∈ M.bnd, 0 ≤ det3 (M.pos e.1) (M.pos e.2) (pairPt q) := by
  constructor
  · intro hq e he
    refine convexHull_min (t := {p : K × K | 0 ≤ det3 (M.pos e.1) (M.pos e.2) (pairPt p)}) ?_ (convex_left _ _) hq
    rintro _ ⟨v, hv, rfl⟩
    exact h.hull.nonneg he hv
  · intro hin
    obtain ⟨T, hT, hc⟩ := h.closed hin
    have va := h.verts T hT T.a (Or.inl rfl)
    have vb := h.verts T hT T.b (Or.inr (Or.inl rfl))
    have vc := h.verts T hT T.c (Or.inr (Or.inr rfl))
    have hpr := h.cons.proper T hT
    have hD := h.general.det_ne (h.inA _ va) (h.inA _ vb) (h.inA _ vc) hpr.1 hpr.2.1 hpr.2.2
    exact convexHull_mono (by
      rintro q (rfl | rfl | rfl)
      · exact ⟨_, va, rfl⟩
      · exact ⟨_, vb, rfl⟩
      · exact ⟨_, vc, rfl⟩) (mem_region hD hc)

theorem Mesh.Tiled.reorder (h : M.Tiled R A) {l : List (ℤ × ℤ)} (hl : l.Perm M.bnd) :
    ({ M with bnd := l } : Mesh K).Tiled R A := by
  have hi : ∀ X, Cyc.Inner M.pos l X ↔ Cyc.Inner M.pos M.bnd X := by
    intro X; unfold Cyc.Inner; simp only [hl.mem_iff]
  refine ⟨⟨⟨h.cons.proper, h.cons.key, h.cons.nodup, h.cons.sound⟩, h.cons.complete⟩, h.two, h.full, h.planar, h.stored,
    h.general, Hulled.congr h.hull fun e => hl.mem_iff, (hl.nodup_iff).2 h.nodup, fun e he => h.single e (hl.mem_iff.1 he),
    h.inA, h.verts, ?_, ?_⟩
  · intro X hX hh
    exact h.cover X hX ((hi X).1 hh)
  · intro X hX hh
    exact h.outer X hX (fun h' => hh ((hi X).2 h'))

theorem Mesh.Tiled.addPointBy (hE : R.IsExact) (hA : R.IsExactAngle) {O : Orders} (hO : O.Valid) {ip : ℤ}
    (h : M.Tiled R A) (hip : 0 ≤ ip ∧ ip < M.points.length) (hn : ¬ A ip) :
    ∃ M' f0, (∀ f, f0 ≤ f → R.addPointBy O M ip f = some (.ok M')) ∧ M'.Tiled R (fun v => A v ∨ v = ip) ∧
      M'.points = M.points ∧ (∀ v, (∃ T ∈ M.tris, T.Has v) → ∃ T ∈ M'.tris, T.Has v) ∧
      (∀ v, (∃ T ∈ M'.tris, T.Has v) → (∃ T ∈ M.tris, T.Has v) ∨ v = ip) ∧
      ((∃ T ∈ M'.tris, T.Has ip) → ∃ e ∈ M.bnd, det3 (M.pos e.1) (M.pos e.2) (M.pos ip) < 0) ∧
      ((∃ e ∈ M.bnd, det3 (M.pos e.1) (M.pos e.2) (M.pos ip) < 0) →
        (∃ T ∈ M'.tris, T.Has ip) ∧ M'.tris.length + M'.bnd.length = M.tris.length + M.bnd.length + 2) ∧
      ∀ x, M'.Legal R x := by
  have hp := hO.bnd ip M.bnd
  have h1 := h.reorder hp
  obtain ⟨M1, a1, a2, a3, a4, a7, a5, a6⟩ := h1.add hE hip hn
  obtain ⟨M2, f0, b1, b2, b3, b4, b5, b6, b7⟩ := a2.flipEdgesBy hE hA hO ip M1.keys (by
    intro x hx n m T S hl
    exact absurd ((a2.mem_keys x).2 (by rw [hl]; rfl)) hx)
  refine ⟨M2, f0, ?_, b2, b3.trans a3, fun v hv => (b4 v).2 (a4 v hv),
    fun v hv => a7 v ((b4 v).1 hv), ?_, ?_, b7⟩
  · intro f hf
    unfold Rt.addPointBy
    rw [a1]
    exact b1 f hf
  · intro hu
    by_contra hc
    obtain ⟨c1, -⟩ := a5 (fun ⟨e, he, hlt⟩ => hc ⟨e, hp.mem_iff.1 he, hlt⟩)
    obtain ⟨T, hT, hh⟩ := (b4 ip).1 hu
    rw [c1] at hT
    exact hn (h.verts T hT ip hh)
  · rintro ⟨e, he, hlt⟩
    obtain ⟨c1, c2⟩ := a6 ⟨e, hp.mem_iff.2 he, hlt⟩
    refine ⟨(b4 ip).2 c1, ?_⟩
    rw [b5, b6, c2]
    have : (O.bnd ip M.bnd).length = M.bnd.length := hp.length_eq
    dsimp only
    omega

/-! ### all points -/

theorem Mesh.Tiled.addAll (hE : R.IsExact) (hA : R.IsExactAngle) {O : Orders} (hO : O.Valid) (l : List ℤ) :
    ∀ {M : Mesh K} {A : ℤ → Prop}, M.Tiled R A → l.Nodup → (∀ i ∈ l, 0 ≤ i ∧ i < M.points.length ∧ ¬ A i) →
      (∀ x, M.Legal R x) →
      ∃ M' f0, (∀ f, f0 ≤ f → R.addAll O f l M = some (.ok M')) ∧ M'.Tiled R (fun v => A v ∨ v ∈ l) ∧
        M'.points = M.points ∧ (∀ v, (∃ T ∈ M.tris, T.Has v) → ∃ T ∈ M'.tris, T.Has v) ∧
        (∀ v, v ∉ l → (∃ T ∈ M'.tris, T.Has v) → ∃ T ∈ M.tris, T.Has v) ∧ (∀ x, M'.Legal R x) ∧
        (∀ l1 i l2, l = l1 ++ i :: l2 → ((∃ T ∈ M'.tris, T.Has i) ↔
          (M.pos i).pair ∉ _root_.convexHull K {q | ∃ v, (A v ∨ v ∈ l1) ∧ q = (M.pos v).pair})) ∧
        ((∀ l1 i l2, l = l1 ++ i :: l2 → ∀ E, Hulled M.pos E (fun v => A v ∨ v ∈ l1) →
            ∃ e ∈ E, det3 (M.pos e.1) (M.pos e.2) (M.pos i) < 0) →
          (∀ i ∈ l, ∃ T ∈ M'.tris, T.Has i) ∧
          M'.tris.length + M'.bnd.length = M.tris.length + M.bnd.length + 2 * l.length) := by
  induction l with
  | nil =>
    intro M A h _ _ hL
    refine ⟨M, 0, fun f _ => rfl, ?_, rfl, fun v hv => hv, fun v _ hv => hv, hL, ?_,
      fun _ => ⟨by simp, by simp⟩⟩
    swap
    · intro l1 i l2 hl; simp at hl
    simpa using h
  | cons i l ih =>
    intro M A h hnd hin hL
    rw [List.nodup_cons] at hnd
    obtain ⟨hi0, hi1, hiA⟩ := hin i List.mem_cons_self
    obtain ⟨M1, f1, a1, a2, a3, a4, a7, a8, a5, a6⟩ := h.addPointBy hE hA hO ⟨hi0, hi1⟩ hiA
    obtain ⟨M2, f2, b1, b2, b3, b4, b7, b5, b8, b6⟩ := ih a2 hnd.2 (by
      intro j hj
      obtain ⟨j0, j1, jA⟩ := hin j (List.mem_cons_of_mem _ hj)
      refine ⟨j0, by rw [a3]; exact j1, ?_⟩
      rintro (hh | rfl)
      · exact jA hh
      · exact hnd.1 hj) a6
    have hpos : M1.pos = M.pos := by unfold Mesh.pos; rw [a3]
    have hset : (fun v => (A v ∨ v = i) ∨ v ∈ l) = fun v => A v ∨ v ∈ i :: l := by
      funext v; simp only [List.mem_cons, or_assoc]
    refine ⟨M2, max f1 f2, ?_, by rw [← hset]; exact b2, b3.trans a3, fun v hv => b4 v (a4 v hv), ?_,
      b5, ?_, ?_⟩
    · intro f hf
      unfold Rt.addAll
      rw [a1 f (le_trans (le_max_left _ _) hf)]
      exact b1 f (le_trans (le_max_right _ _) hf)
    · intro v hv hu
      rw [List.mem_cons, not_or] at hv
      rcases a7 v (b7 v hv.2 hu) with hh | hh
      · exact hh
      · exact absurd hh hv.1
    · intro l1 j l2 hl
      cases l1 with
      | nil =>
        simp only [List.nil_append, List.cons.injEq] at hl
        obtain ⟨rfl, rfl⟩ := hl
        simp only [List.not_mem_nil, or_false]
        rw [h.hull_iff]
        simp only [pair_pt]
        push Not
        constructor
        · intro hu
          exact a8 (b7 i hnd.1 hu)
        · intro hs
          exact b4 i (a5 hs).1
      | cons k l1 =>
        simp only [List.cons_append, List.cons.injEq] at hl
        obtain ⟨rfl, hl⟩ := hl
        rw [b8 l1 j l2 hl, hpos]
        simp only [List.mem_cons, or_assoc]
    · intro hsee
      obtain ⟨c1, c2⟩ := a5 (hsee [] i l rfl M.bnd (by simpa using h.hull))
      obtain ⟨d1, d2⟩ := b6 (by
        intro l1 j l2 hl E HE
        rw [hpos] at HE ⊢
        refine hsee (i :: l1) j l2 (by rw [hl]; rfl) E ?_
        have : (fun v => (A v ∨ v = i) ∨ v ∈ l1) = fun v => A v ∨ v ∈ i :: l1 := by
          funext v; simp only [List.mem_cons, or_assoc]
        rw [← this]; exact HE)
      refine ⟨?_, ?_⟩
      · intro j hj
        rcases List.mem_cons.1 hj with rfl | hj
        · exact b4 _ c1
        · exact d1 j hj
      · rw [d2, c2, List.length_cons]; ring

end Srep
