import Verif.Props.EarOk

/-! `ear_clipping` of convex polygons with the `triangle_ok` of the code (C135). -/

set_option linter.unusedSectionVars false

namespace Srep
open Rt
variable {K : Type} [Field K] [LinearOrder K] [IsStrictOrderedRing K] [FloorRing K] {R : Rt K}

/-- the segments from each point to the next -/
def pathSides : List (Pt K) → List (Seg K)
  | p :: q :: l => ⟨p, q, .line⟩ :: pathSides (q :: l)
  | _ => []

/-- the sides of the polygon with the corners `w` -/
def loopSides (w : List (Pt K)) : List (Seg K) := pathSides (w ++ w.take 1)

theorem pathSides_length : ∀ v : List (Pt K), (pathSides v).length = v.length - 1
  | [] => rfl
  | [_] => rfl
  | p :: q :: l => by
    have := pathSides_length (q :: l)
    simp only [pathSides, List.length_cons] at *
    omega

theorem pathSides_get : ∀ (v : List (Pt K)) (k : ℕ) (hk : k < (pathSides v).length) (h1 : k < v.length) (h2 : k + 1 < v.length),
    (pathSides v)[k] = ⟨v[k], v[k + 1], .line⟩
  | [], k, hk, _, _ => by simp [pathSides] at hk
  | [_], k, hk, _, _ => by simp [pathSides] at hk
  | p :: q :: l, 0, _, _, _ => rfl
  | p :: q :: l, k + 1, hk, h1, h2 => by
    simp only [pathSides, List.getElem_cons_succ]
    exact pathSides_get (q :: l) k _ (by simpa using h1) (by simpa using h2)

theorem Sides.draw {h : Heap K} : ∀ {v : List (Pt K)} {τ : List ℕ}, Sides h v τ →
    List.Forall₂ SameEdge (h.vals τ) (pathSides v)
  | [], τ, hs => by cases τ <;> exact hs.elim
  | [_], τ, hs => by rw [hs.single]; exact .nil
  | p :: q :: l, τ, hs => by
    obtain ⟨s, τ', rfl, h1, h2⟩ := hs.cons
    exact .cons h1 h2.draw

theorem PolygonOf.draw {h : Heap K} {w : List (Pt K)} {segs : List ℕ} (hp : PolygonOf h w segs) :
    SameDrawing (h.vals segs) (loopSides w) := by
  obtain ⟨-, -, τ, h1, h2⟩ := hp
  exact ⟨h.vals τ, (h1.map _).symm, h2.draw⟩

theorem TriangleOf.draw {h : Heap K} {t : List ℕ} {c : Pt K × Pt K × Pt K} (ht : TriangleOf h t c) :
    SameDrawing (h.vals t) (triSegs c) := by
  obtain ⟨τ, h1, h2⟩ := ht
  exact ⟨h.vals τ, (h1.map _).symm, h2.draw⟩

theorem loopSides_length {w : List (Pt K)} (h : 0 < w.length) : (loopSides w).length = w.length := by
  unfold loopSides
  rw [pathSides_length, List.length_append, List.length_take]
  omega

theorem loopSides_get {w : List (Pt K)} (k : ℕ) (hk : k < (loopSides w).length) (h1 : k < w.length) :
    (loopSides w)[k] = ⟨w[k], w[(k + 1) % w.length]'(Nat.mod_lt _ (by omega)), .line⟩ := by
  have e := pathSides_get (w ++ w.take 1) k hk (by simp; omega) (by simp; omega)
  have e' : (loopSides w)[k] = (pathSides (w ++ w.take 1))[k]'hk := rfl
  rw [e', e]
  congr 1
  · rw [List.getElem_append_left h1]
  · by_cases h2 : k + 1 < w.length
    · rw [List.getElem_append_left h2]
      congr 1
      rw [Nat.mod_eq_of_lt h2]
    · have : k + 1 = w.length := by omega
      rw [List.getElem_append_right (by omega), List.getElem_take]
      congr 1
      rw [this, Nat.mod_self]
      omega

theorem ends_loopSides {w : List (Pt K)} (h : 0 < w.length) (p : Pt K) : p ∈ Ends (loopSides w) ↔ p ∈ w := by
  constructor
  · rintro ⟨s, hs, hp⟩
    obtain ⟨k, hk, rfl⟩ := List.getElem_of_mem hs
    have hk' : k < w.length := by rw [← loopSides_length h]; exact hk
    rw [loopSides_get k hk hk'] at hp
    rcases hp with rfl | rfl <;> exact List.getElem_mem _
  · intro hp
    obtain ⟨k, hk, rfl⟩ := List.getElem_of_mem hp
    have hk' : k < (loopSides w).length := by rw [loopSides_length h]; exact hk
    exact ⟨_, List.getElem_mem hk', Or.inl (by rw [loopSides_get k hk' hk])⟩

theorem ear_det3_rot (a b c : Pt K) : det3 a b c = det3 b c a := by unfold det3; ring

/-- the corners of a polygon passed counter-clockwise, every three of them in this order turning left -/
theorem loopSides_convex {w : List (Pt K)} (h3 : 3 ≤ w.length) (hn : w.Nodup)
    (ht : ∀ a b c, [a, b, c].Sublist w → 0 < det3 a b c) : ConvexCcw (loopSides w) := by
  have hlen := loopSides_length (w := w) (by omega)
  have ht' : ∀ i j k (hij : i < j) (hjk : j < k) (hk : k < w.length), 0 < det3 w[i] w[j] w[k] := by
    intro i j k hij hjk hk
    apply ht
    have := List.map_getElem_sublist (l := w) (is := [⟨i, by omega⟩, ⟨j, by omega⟩, ⟨k, hk⟩]) (by
      refine List.pairwise_cons.2 ⟨?_, List.pairwise_pair.2 hjk⟩
      intro x hx
      rcases List.mem_pair.1 hx with rfl | rfl
      · exact hij
      · exact hij.trans hjk)
    simpa using this
  refine ⟨?_, ?_, ?_⟩
  · intro k hk
    have hk' : k < w.length := by rw [← hlen]; exact hk
    rw [loopSides_get k hk hk', loopSides_get _ _ (by rw [hlen]; exact Nat.mod_lt _ (by omega))]
    simp only [hlen]
  · have : (loopSides w).map Seg.i = w := by
      apply List.ext_getElem
      · rw [List.length_map, hlen]
      · intro k h1 h2
        rw [List.getElem_map, loopSides_get k _ h2]
    rw [this]; exact hn
  · intro s hs o ho
    obtain ⟨k, hk, rfl⟩ := List.getElem_of_mem hs
    obtain ⟨j, hj, rfl⟩ := List.getElem_of_mem ho
    have hk' : k < w.length := by rw [← hlen]; exact hk
    have hj' : j < w.length := by rw [← hlen]; exact hj
    rw [loopSides_get k hk hk', loopSides_get j hj hj']
    dsimp only
    by_cases h1 : j = k
    · left; subst h1; rfl
    right
    by_cases h2 : k + 1 < w.length
    · simp only [Nat.mod_eq_of_lt h2]
      by_cases h4 : j = k + 1
      · left; subst h4; rfl
      right
      rcases Nat.lt_or_gt_of_ne h1 with h | h
      · rw [← ear_det3_rot]; exact ht' j k (k + 1) h (by omega) h2
      · exact ht' k (k + 1) j (by omega) (by omega) hj'
    · have h5 : k + 1 = w.length := by omega
      simp only [h5, Nat.mod_self]
      by_cases h4 : j = 0
      · left; subst h4; rfl
      right
      rw [ear_det3_rot]
      exact ht' 0 j k (by omega) (by omega) hk'

/-- The random targets of `ear_clipping` for the polygon with the corners `w`: for every convex polygon of corners of `w` with
the consecutive corners `c`, `a`, `b` all targets of the test of the stored middle of the triangle and of the tests of the
other corners are in general position, and no two lines of sides that do not touch just miss each other. -/
structure EarDraws (w : List (Pt K)) (ω : ℕ → ℕ → ℕ → Pt K) : Prop where
  mid : ∀ a b u c, (∀ q ∈ a :: b :: u ++ [c], q ∈ w) → (a :: b :: u ++ [c]).Nodup →
    (∀ x y z, [x, y, z].Sublist (a :: b :: u ++ [c]) → 0 < det3 x y z) →
    ∀ n, ∀ k < 3, GoodTarget (loopSides (a :: b :: u ++ [c])) (storedCentre (c, a, b)) (ω n 0 k) ∧
      Spread (loopSides (a :: b :: u ++ [c])) (storedCentre (c, a, b)) (ω n 0 k)
  corner : ∀ a b c, a ∈ w → b ∈ w → c ∈ w → 0 < det3 c a b → ∀ p ∈ w, ¬ IsCorner (c, a, b) p → ∀ n i, ∀ k < 3,
    GoodTarget (triSegs (c, a, b)) p (ω n (i + 1) k) ∧ Spread (triSegs (c, a, b)) p (ω n (i + 1) k)
  clear : ∀ p ∈ w, ∀ q ∈ w, ∀ r ∈ w, ∀ z ∈ w, [p, q, r, z].Nodup → Clear p q ⟨r, z, .line⟩

/-- The stored middle of three consecutive corners is inside a convex polygon of corners of `w` despite the rounding, if all
sides and diagonals are at most `D` long in each coordinate and left turns are not too flat for this size. -/
theorem centre_of_margin {w : List (Pt K)} {D : K} (hD : ∀ p ∈ w, ∀ q ∈ w, |q.x - p.x| ≤ D ∧ |q.y - p.y| ≤ D)
    (hδ : ∀ a ∈ w, ∀ b ∈ w, ∀ c ∈ w, 0 < det3 a b c → 3 * D / 10 ^ 8 < det3 a b c) (a b : Pt K) (u : List (Pt K)) (c : Pt K)
    (hsub : ∀ q ∈ a :: b :: u ++ [c], q ∈ w) (hn : (a :: b :: u ++ [c]).Nodup)
    (htri : ∀ x y z, [x, y, z].Sublist (a :: b :: u ++ [c]) → 0 < det3 x y z) :
    InsideCcw (loopSides (a :: b :: u ++ [c])) (storedCentre (c, a, b)) := by
  have hcv := loopSides_convex (by simp) hn htri
  have hpos : 0 < det3 c a b := by
    rw [ear_det3_rot]
    apply htri
    simp
  have hends := ends_loopSides (w := a :: b :: u ++ [c]) (by simp)
  intro s hs
  have si := hsub _ ((hends _).1 ⟨s, hs, Or.inl rfl⟩)
  have sj := hsub _ ((hends _).1 ⟨s, hs, Or.inr rfl⟩)
  obtain ⟨dx, dy⟩ := hD _ si _ sj
  have hval : ∀ q, q ∈ a :: b :: u ++ [c] → q = s.i ∨ q = s.j ∨ 3 * D / 10 ^ 8 < det3 s.i s.j q := by
    intro q hq
    have key : q = s.i ∨ q = s.j ∨ 0 < det3 s.i s.j q := by
      obtain ⟨o, ho, h | h⟩ := (hends q).2 hq
      · rw [h]; exact hcv.left s hs o ho
      · obtain ⟨k, hk, rfl⟩ := List.getElem_of_mem ho
        rw [h, hcv.chain k hk]
        exact hcv.left s hs _ (List.getElem_mem _)
    rcases key with h | h | h
    · exact Or.inl h
    · exact Or.inr (Or.inl h)
    · exact Or.inr (Or.inr (hδ _ si _ sj q (hsub q hq) h))
  have hD0 : 0 ≤ D := (abs_nonneg _).trans dx
  have hnn : ∀ q, q ∈ a :: b :: u ++ [c] → 0 ≤ det3 s.i s.j q := by
    intro q hq
    rcases hval q hq with rfl | rfl | h
    · apply le_of_eq; unfold det3; ring
    · apply le_of_eq; unfold det3; ring
    · exact le_trans (by positivity) h.le
  have ha := hnn a (by simp)
  have hb := hnn b (by simp)
  have hc := hnn c (by simp)
  have hbig : 3 * D / 10 ^ 8 < det3 s.i s.j a + det3 s.i s.j b + det3 s.i s.j c := by
    obtain ⟨hca, hab, hbc⟩ := det3_ne hpos.ne'
    rcases hval a (by simp) with h1 | h1 | h1
    · rcases hval b (by simp) with h2 | h2 | h2
      · exact absurd (h1.trans h2.symm) hab
      · rcases hval c (by simp) with h3 | h3 | h3
        · exact absurd (h3.trans h1.symm) hca
        · exact absurd (h2.trans h3.symm) hbc
        · linarith
      · linarith
    · rcases hval b (by simp) with h2 | h2 | h2
      · rcases hval c (by simp) with h3 | h3 | h3
        · exact absurd (h2.trans h3.symm) hbc
        · exact absurd (h3.trans h1.symm) hca
        · linarith
      · exact absurd (h1.trans h2.symm) hab
      · linarith
    · linarith
  have ex := abs_rhe8_sub_le ((c.x + a.x + b.x) / 3)
  have ey := abs_rhe8_sub_le ((c.y + a.y + b.y) / 3)
  unfold storedCentre
  dsimp only
  generalize rhe8 ((c.x + a.x + b.x) / 3) = X at *
  generalize rhe8 ((c.y + a.y + b.y) / 3) = Y at *
  have hsum : det3 s.i s.j ⟨X, Y⟩ = (det3 s.i s.j a + det3 s.i s.j b + det3 s.i s.j c) / 3 +
      ((s.j.x - s.i.x) * (Y - (c.y + a.y + b.y) / 3) - (s.j.y - s.i.y) * (X - (c.x + a.x + b.x) / 3)) := by unfold det3; ring
  have p1 : |(s.j.x - s.i.x) * (Y - (c.y + a.y + b.y) / 3)| ≤ D * (1 / (2 * 10 ^ 8)) := by
    rw [abs_mul]; exact mul_le_mul dx ey (abs_nonneg _) hD0
  have p2 : |(s.j.y - s.i.y) * (X - (c.x + a.x + b.x) / 3)| ≤ D * (1 / (2 * 10 ^ 8)) := by
    rw [abs_mul]; exact mul_le_mul dy ex (abs_nonneg _) hD0
  rw [hsum]
  have q1 := (abs_le.1 p1).1
  have q2 := (abs_le.1 p2).2
  have e : D * (1 / (2 * 10 ^ 8)) + D * (1 / (2 * 10 ^ 8)) = (3 * D / 10 ^ 8) / 3 := by ring
  linarith

/-- C135: `ear_clipping` of a strictly convex polygon (every three corners turn left by at least eps, and by more than 3e-8 times
the size of the polygon, so that rounding does not move a middle out of it), with the `triangle_ok` of the code, returns True for every choice of corners, when the targets are in general position. -/
theorem C135_convex (hE : R.IsExact) {choice : ℕ → List (Pt K) → Pt K} (hch : ∀ n l, l ≠ [] → choice n l ∈ l)
    (h : Heap K) (C : PLine) (w : List (Pt K)) (hp : PolygonOf h w C.segs) (h3 : 3 ≤ w.length) (hw : w.length ≤ 5002)
    (hap : Apart R.tol {p | p ∈ w}) (hl : ∀ s ∈ C.segs, s < h.nseg)
    (hturn : ∀ a b c, [a, b, c].Sublist w → R.eps ≤ det3 a b c) (D : K)
    (hD : ∀ p ∈ w, ∀ q ∈ w, |q.x - p.x| ≤ D ∧ |q.y - p.y| ≤ D)
    (hδ : ∀ a ∈ w, ∀ b ∈ w, ∀ c ∈ w, 0 < det3 a b c → 3 * D / 10 ^ 8 < det3 a b c) (ω : ℕ → ℕ → ℕ → Pt K)
    (hω : EarDraws w ω) (fuel : ℕ) :
    (R.earClipping choice (R.earTok ω (fuel + 1)) h C).2.2 = .ok true := by
  refine C90_convex_done hE hch h C w hp h3 hw hap hl hturn ?_
  intro n h' P T a b u c hsub htri hP hT
  have heps : (0 : K) < R.eps := hE.isRounding.eps_pos
  have htri' : ∀ x y z, [x, y, z].Sublist (a :: b :: u ++ [c]) → 0 < det3 x y z := fun x y z hs => heps.trans_le (htri x y z hs)
  have hv3 : 3 ≤ (a :: b :: u ++ [c]).length := by simp
  have hv0 : 0 < (a :: b :: u ++ [c]).length := by omega
  have hcv := loopSides_convex hv3 hP.1 htri'
  have hpos : 0 < det3 c a b := by
    rw [ear_det3_rot]
    apply htri'
    simp
  have hends := ends_loopSides hv0
  unfold Rt.earTok
  rw [C134_convex hE (h'.vals P.segs) (loopSides (a :: b :: u ++ [c])) (h'.vals T.segs) (c, a, b) hP.draw hcv
    (by rw [loopSides_length hv0]; exact hv3) (apart_mono (by rw [← hE.tol']; exact hap) fun p hpm => hsub p ((hends p).1 hpm))
    ?_ hT.draw hpos (ω n) (centre_of_margin hD hδ a b u c hsub hP.1 htri') (hω.mid a b u c hsub hP.1 htri' n) ?_ ?_ fuel]
  · intro p hpc
    rw [hends]
    rcases hpc with rfl | rfl | rfl <;> simp
  · intro p hpm hnc i
    exact hω.corner a b c (hsub a (by simp)) (hsub b (by simp)) (hsub c (by simp)) hpos p (hsub p ((hends p).1 hpm)) hnc n i
  · have hmem : ∀ o ∈ loopSides (a :: b :: u ++ [c]) ++ triSegs (c, a, b), o.i ∈ w ∧ o.j ∈ w ∧ o.i ≠ o.j ∧ o.cls = .line := by
      intro o ho
      rcases List.mem_append.1 ho with h | h
      · obtain ⟨k, hk, rfl⟩ := List.getElem_of_mem h
        have hk' := hk
        rw [loopSides_length hv0] at hk'
        rw [loopSides_get k hk hk']
        refine ⟨hsub _ (List.getElem_mem _), hsub _ (List.getElem_mem _), ?_, rfl⟩
        dsimp only
        intro e
        have := (List.Nodup.getElem_inj_iff hP.1).1 e
        rcases Nat.lt_or_ge (k + 1) (a :: b :: u ++ [c]).length with h2 | h2
        · rw [Nat.mod_eq_of_lt h2] at this; omega
        · have h5 : k + 1 = (a :: b :: u ++ [c]).length := by omega
          rw [h5, Nat.mod_self] at this; omega
      · obtain ⟨hab, hbc, hca⟩ := det3_ne hpos.ne'
        have ha := hsub a (by simp)
        have hb := hsub b (by simp)
        have hc := hsub c (by simp)
        simp only [triSegs, List.mem_cons, List.not_mem_nil, or_false] at h
        rcases h with rfl | rfl | rfl
        · exact ⟨hc, ha, hab, rfl⟩
        · exact ⟨ha, hb, hbc, rfl⟩
        · exact ⟨hb, hc, hca, rfl⟩
    intro s hs o ho
    by_cases hce : CommonEnd s o
    · exact Or.inl hce
    right
    obtain ⟨s1, s2, s3, -⟩ := hmem s (List.mem_append_left _ hs)
    obtain ⟨o1, o2, o3, o4⟩ := hmem o ho
    have := hω.clear s.i s1 s.j s2 o.i o1 o.j o2 (by
      unfold CommonEnd at hce
      simp only [List.nodup_cons, List.mem_cons, List.not_mem_nil, or_false, List.nodup_nil, not_false_eq_true, and_true]
      tauto)
    rw [show o = ⟨o.i, o.j, .line⟩ by cases o; simp_all]
    exact this

/-- C135: … and then there are two triangles less than corners, and their areas add up to the area of the polygon. -/
theorem C135_area (hE : R.IsExact) {choice : ℕ → List (Pt K) → Pt K} (hch : ∀ n l, l ≠ [] → choice n l ∈ l)
    (h : Heap K) (C : PLine) (w : List (Pt K)) (hp : PolygonOf h w C.segs) (h3 : 3 ≤ w.length) (hw : w.length ≤ 5002)
    (hap : Apart R.tol {p | p ∈ w}) (hl : ∀ s ∈ C.segs, s < h.nseg)
    (hturn : ∀ a b c, [a, b, c].Sublist w → R.eps ≤ det3 a b c) (D : K)
    (hD : ∀ p ∈ w, ∀ q ∈ w, |q.x - p.x| ≤ D ∧ |q.y - p.y| ≤ D)
    (hδ : ∀ a ∈ w, ∀ b ∈ w, ∀ c ∈ w, 0 < det3 a b c → 3 * D / 10 ^ 8 < det3 a b c) (ω : ℕ → ℕ → ℕ → Pt K)
    (hω : EarDraws w ω) (fuel : ℕ) :
    ∃ h' ids, R.earClipping choice (R.earTok ω (fuel + 1)) h C = (h', ids, .ok true) ∧ ids.length + 2 = w.length ∧
      ∃ areas : List K, (ids.map fun t => R.triArea (h'.vals t)) = areas.map .ok ∧ areas.sum = twiceArea w / 2 := by
  have hdone := C135_convex hE hch h C w hp h3 hw hap hl hturn D hD hδ ω hω fuel
  generalize hr : R.earClipping choice (R.earTok ω (fuel + 1)) h C = r at hdone
  obtain ⟨h', ids, b⟩ := r
  simp only at hdone
  subst hdone
  obtain ⟨ts, t1, t2, -⟩ := C90_triangulation hE.isRounding hch h C w hp h3 hap hl h' ids hr
  obtain ⟨areas, a1, -, a3⟩ := C90_area hE hch h C w hp h3 hap hl h' ids hr
  exact ⟨h', ids, rfl, by rw [t1.length_eq]; exact t2, areas, a1,
    a3 fun a b c hs => hE.isRounding.eps_pos.trans_le (hturn a b c hs)⟩

/-! ### a concrete case -/

theorem clear_calc {p t : Pt K} {s : Seg K}
    (hd : (t.x - p.x) * (s.j.y - s.i.y) - (t.y - p.y) * (s.j.x - s.i.x) ≠ 0) {u w : K}
    (hu : u = ((s.i.x - p.x) * (s.j.y - s.i.y) - (s.i.y - p.y) * (s.j.x - s.i.x)) /
      ((t.x - p.x) * (s.j.y - s.i.y) - (t.y - p.y) * (s.j.x - s.i.x)))
    (hw : w = ((s.i.x - p.x) * (t.y - p.y) - (s.i.y - p.y) * (t.x - p.x)) /
      ((t.x - p.x) * (s.j.y - s.i.y) - (t.y - p.y) * (s.j.x - s.i.x)))
    (hc : ((0 ≤ u ∧ u ≤ 1) ∧ 0 ≤ w ∧ w ≤ 1) ∨ FarFromBox p t (lerp p t u) ∨ FarFromBox s.i s.j (lerp p t u)) :
    Clear p t s := by
  refine clear_of u w hd ?_ hc
  rw [eq_div_iff hd] at hu hw
  unfold lerp
  congr 1
  · have : (p.x + u * (t.x - p.x) - (s.i.x + w * (s.j.x - s.i.x))) *
        ((t.x - p.x) * (s.j.y - s.i.y) - (t.y - p.y) * (s.j.x - s.i.x)) = 0 := by
      linear_combination (t.x - p.x) * hu - (s.j.x - s.i.x) * hw
    exact sub_eq_zero.1 ((mul_eq_zero.1 this).resolve_right hd)
  · have : (p.y + u * (t.y - p.y) - (s.i.y + w * (s.j.y - s.i.y))) *
        ((t.x - p.x) * (s.j.y - s.i.y) - (t.y - p.y) * (s.j.x - s.i.x)) = 0 := by
      linear_combination (t.y - p.y) * hu - (s.j.y - s.i.y) * hw
    exact sub_eq_zero.1 ((mul_eq_zero.1 this).resolve_right hd)

theorem clear_parallel {p t : Pt K} {s : Seg K}
    (hd : (t.x - p.x) * (s.j.y - s.i.y) - (t.y - p.y) * (s.j.x - s.i.x) = 0) (hi : det3 p t s.i ≠ 0) : Clear p t s := by
  rintro X ⟨u, rfl⟩ ⟨w, e⟩
  exfalso
  have e1 := congrArg Pt.x e
  have e2 := congrArg Pt.y e
  simp only [lerp] at e1 e2
  apply hi
  unfold det3
  linear_combination (t.x - p.x) * (-e2) - (t.y - p.y) * (-e1) - w * hd

/-- the corners of the square, counter-clockwise -/
def sq3corners : List (Pt ℝ) := [⟨0, 0⟩, ⟨3, 0⟩, ⟨3, 3⟩, ⟨0, 3⟩]

theorem mem_sq3 {p : Pt ℝ} (h : p ∈ sq3corners) : p = ⟨0, 0⟩ ∨ p = ⟨3, 0⟩ ∨ p = ⟨3, 3⟩ ∨ p = ⟨0, 3⟩ := by
  simpa [sq3corners] using h

/-- the places of the middles -/
def Sq3Mid (p : Pt ℝ) : Prop := p = ⟨1, 1⟩ ∨ p = ⟨2, 1⟩ ∨ p = ⟨2, 2⟩ ∨ p = ⟨1, 2⟩

theorem sq3_mid {a b c : Pt ℝ} (ha : a ∈ sq3corners) (hb : b ∈ sq3corners) (hc : c ∈ sq3corners) (h : 0 < det3 c a b) :
    Sq3Mid (storedCentre (c, a, b)) ∧ storedCentre (c, a, b) = ⟨(c.x + a.x + b.x) / 3, (c.y + a.y + b.y) / 3⟩ := by
  have h1 : rhe8 (1 : ℝ) = 1 := by have := (grid_int 1).rhe8; simpa using this
  have h2 : rhe8 (2 : ℝ) = 2 := by have := (grid_int 2).rhe8; simpa using this
  unfold Sq3Mid storedCentre
  rcases mem_sq3 ha with rfl | rfl | rfl | rfl <;> rcases mem_sq3 hb with rfl | rfl | rfl | rfl <;>
    rcases mem_sq3 hc with rfl | rfl | rfl | rfl <;>
    first
      | (exfalso; norm_num [det3] at h; done)
      | norm_num [h1, h2]

theorem sq3_ray {p r z : Pt ℝ} (hp : Sq3Mid p ∨ p ∈ sq3corners) (hr : r ∈ sq3corners) (hz : z ∈ sq3corners) (hrz : r ≠ z)
    (hpr : p ≠ r) (hpz : p ≠ z) : Clear p ⟨10, 3 / 2⟩ ⟨r, z, .line⟩ := by
  have hp' : p = ⟨1, 1⟩ ∨ p = ⟨2, 1⟩ ∨ p = ⟨2, 2⟩ ∨ p = ⟨1, 2⟩ ∨ p = ⟨0, 0⟩ ∨ p = ⟨3, 0⟩ ∨ p = ⟨3, 3⟩ ∨ p = ⟨0, 3⟩ := by
    rcases hp with h | h
    · unfold Sq3Mid at h; tauto
    · have := mem_sq3 h; tauto
  clear hp
  rcases hp' with rfl | rfl | rfl | rfl | rfl | rfl | rfl | rfl <;> rcases mem_sq3 hr with rfl | rfl | rfl | rfl <;>
    rcases mem_sq3 hz with rfl | rfl | rfl | rfl <;>
    first
      | exact absurd rfl hrz
      | exact absurd rfl hpr
      | exact absurd rfl hpz
      | (refine clear_calc (by norm_num) rfl rfl ?_
         norm_num [FarFromBox, lerp])

theorem sq3_det {p r : Pt ℝ} (hp : Sq3Mid p ∨ p ∈ sq3corners) (hr : r ∈ sq3corners) (hpr : p ≠ r) :
    det3 p ⟨10, 3 / 2⟩ r ≠ 0 := by
  have hp' : p = ⟨1, 1⟩ ∨ p = ⟨2, 1⟩ ∨ p = ⟨2, 2⟩ ∨ p = ⟨1, 2⟩ ∨ p = ⟨0, 0⟩ ∨ p = ⟨3, 0⟩ ∨ p = ⟨3, 3⟩ ∨ p = ⟨0, 3⟩ := by
    rcases hp with h | h
    · unfold Sq3Mid at h; tauto
    · have := mem_sq3 h; tauto
  clear hp
  rcases hp' with rfl | rfl | rfl | rfl | rfl | rfl | rfl | rfl <;> rcases mem_sq3 hr with rfl | rfl | rfl | rfl <;>
    first
      | exact absurd rfl hpr
      | norm_num [det3]

theorem sq3_good {l : List (Seg ℝ)} {p : Pt ℝ} (hp : Sq3Mid p ∨ p ∈ sq3corners)
    (hl : ∀ s ∈ l, s.i ∈ sq3corners ∧ s.j ∈ sq3corners ∧ s.i ≠ s.j ∧ p ≠ s.i ∧ p ≠ s.j ∧ s.cls = .line) :
    GoodTarget l p ⟨10, 3 / 2⟩ ∧ Spread l p ⟨10, 3 / 2⟩ := by
  have hx : ∀ q : Pt ℝ, Sq3Mid q ∨ q ∈ sq3corners → ∃ m n : ℤ, q = ⟨m, n⟩ ∧ q.x < 10 := by
    intro q hq
    rcases hq with h | h
    · rcases h with rfl | rfl | rfl | rfl
      · exact ⟨1, 1, by norm_num⟩
      · exact ⟨2, 1, by norm_num⟩
      · exact ⟨2, 2, by norm_num⟩
      · exact ⟨1, 2, by norm_num⟩
    · rcases mem_sq3 h with rfl | rfl | rfl | rfl
      · exact ⟨0, 0, by norm_num⟩
      · exact ⟨3, 0, by norm_num⟩
      · exact ⟨3, 3, by norm_num⟩
      · exact ⟨0, 3, by norm_num⟩
  have hlt : ∀ q : Pt ℝ, Sq3Mid q ∨ q ∈ sq3corners → q.x < 10 := fun q hq => (hx q hq).choose_spec.choose_spec.2
  refine ⟨⟨hlt p hp, fun s hs => ⟨hlt _ (Or.inr (hl s hs).1), hlt _ (Or.inr (hl s hs).2.1)⟩, fun s hs => ?_, fun s hs => ?_⟩, ?_⟩
  · obtain ⟨h1, h2, h3, h4, h5, -⟩ := hl s hs
    exact ⟨sq3_det hp h1 h4, sq3_det hp h2 h5⟩
  · obtain ⟨h1, h2, h3, h4, h5, h6⟩ := hl s hs
    have := sq3_ray hp h1 h2 h3 h4 h5
    rw [show s = ⟨s.i, s.j, .line⟩ by cases s; simp_all]
    exact this
  · have hint : ∀ x y : ℤ, x ≠ y → (1 : ℝ) / 10 ^ 5 ≤ |(x : ℝ) - y| := by
      intro x y hxy
      have : (1 : ℤ) ≤ |x - y| := Int.one_le_abs (sub_ne_zero.2 hxy)
      have h2 : (1 : ℝ) ≤ |(x : ℝ) - y| := by exact_mod_cast this
      refine le_trans ?_ h2
      norm_num
    have key : ∀ q : Pt ℝ, (q = p ∨ q = ⟨10, 3 / 2⟩ ∨ ∃ s ∈ l, q = s.i ∨ q = s.j) →
        q = ⟨10, 3 / 2⟩ ∨ ∃ m n : ℤ, q = ⟨m, n⟩ ∧ q.x < 10 := by
      rintro q (rfl | h | ⟨s, hs, rfl | rfl⟩)
      · exact Or.inr (hx _ hp)
      · exact Or.inl h
      · exact Or.inr (hx _ (Or.inr (hl s hs).1))
      · exact Or.inr (hx _ (Or.inr (hl s hs).2.1))
    have far : ∀ m : ℤ, (m : ℝ) < 10 → (1 : ℝ) / 10 ^ 5 ≤ |(m : ℝ) - 10| := by
      intro m hm
      have : m ≠ 10 := by rintro rfl; norm_num at hm
      have := hint m 10 this
      simpa using this
    intro a ha b hb hne
    rcases key a ha with rfl | ⟨m, n, rfl, hm⟩ <;> rcases key b hb with rfl | ⟨m', n', rfl, hm'⟩
    · exact absurd rfl hne
    · left
      rw [abs_sub_comm]
      exact far m' hm'
    · left
      exact far m hm
    · by_cases h : m = m'
      · right; exact hint n n' fun h' => hne (by rw [h, h'])
      · left; exact hint m m' h

theorem mid_not_corner {p r : Pt ℝ} (hp : Sq3Mid p) (hr : r ∈ sq3corners) : p ≠ r := by
  rcases hp with rfl | rfl | rfl | rfl <;> rcases mem_sq3 hr with rfl | rfl | rfl | rfl <;> norm_num

theorem sq3_size : ∀ p ∈ sq3corners, ∀ q ∈ sq3corners, |q.x - p.x| ≤ 3 ∧ |q.y - p.y| ≤ 3 := by
  intro p hp q hq
  rcases mem_sq3 hp with rfl | rfl | rfl | rfl <;> rcases mem_sq3 hq with rfl | rfl | rfl | rfl <;> norm_num

theorem sq3_steep : ∀ p ∈ sq3corners, ∀ q ∈ sq3corners, ∀ r ∈ sq3corners, 0 < det3 p q r → 3 * 3 / 10 ^ 8 < det3 p q r := by
  intro p hp q hq r hr
  rcases mem_sq3 hp with rfl | rfl | rfl | rfl <;> rcases mem_sq3 hq with rfl | rfl | rfl | rfl <;>
    rcases mem_sq3 hr with rfl | rfl | rfl | rfl <;> norm_num [det3]

theorem sq3_earDraws : EarDraws sq3corners fun _ _ _ => ⟨10, 3 / 2⟩ where
  mid := by
    intro a b u c hsub hn htri n k hk
    have hcv := loopSides_convex (by simp) hn htri
    have hpos : 0 < det3 c a b := by
      rw [ear_det3_rot]
      apply htri
      simp
    have hends := ends_loopSides (w := a :: b :: u ++ [c]) (by simp)
    have hm := (sq3_mid (hsub a (by simp)) (hsub b (by simp)) (hsub c (by simp)) hpos).1
    refine sq3_good (Or.inl hm) ?_
    intro s hs
    have h1 := hsub _ ((hends _).1 ⟨s, hs, Or.inl rfl⟩)
    have h2 := hsub _ ((hends _).1 ⟨s, hs, Or.inr rfl⟩)
    refine ⟨h1, h2, ?_, mid_not_corner hm h1, mid_not_corner hm h2, ?_⟩
    all_goals
      obtain ⟨k, hk, rfl⟩ := List.getElem_of_mem hs
      have hk' := hk
      rw [loopSides_length (by simp)] at hk'
      rw [loopSides_get k hk hk']
    dsimp only
    intro e
    have := (List.Nodup.getElem_inj_iff hn).1 e
    have h3 : 3 ≤ (a :: b :: u ++ [c]).length := by simp
    rcases Nat.lt_or_ge (k + 1) (a :: b :: u ++ [c]).length with h2 | h2
    · rw [Nat.mod_eq_of_lt h2] at this; omega
    · have h5 : k + 1 = (a :: b :: u ++ [c]).length := by omega
      rw [h5, Nat.mod_self] at this; omega
  corner := by
    intro a b c ha hb hc hpos p hp hnc n i k hk
    obtain ⟨hca, hab, hbc⟩ := det3_ne hpos.ne'
    unfold IsCorner at hnc
    refine sq3_good (Or.inr hp) ?_
    intro s hs
    simp only [triSegs, List.mem_cons, List.not_mem_nil, or_false] at hs
    rcases hs with rfl | rfl | rfl
    · exact ⟨hc, ha, hca, by tauto, by tauto, rfl⟩
    · exact ⟨ha, hb, hab, by tauto, by tauto, rfl⟩
    · exact ⟨hb, hc, hbc, by tauto, by tauto, rfl⟩
  clear := by
    intro p hp q hq r hr z hz hn
    simp only [List.nodup_cons, List.mem_cons, List.not_mem_nil, or_false, not_or, List.nodup_nil, not_false_eq_true, and_true] at hn
    obtain ⟨⟨n1, n2, n3⟩, ⟨n4, n5⟩, n6⟩ := hn
    rcases mem_sq3 hp with rfl | rfl | rfl | rfl <;> rcases mem_sq3 hq with rfl | rfl | rfl | rfl <;>
      first
        | exact absurd rfl n1
        | skip
    all_goals
      rcases mem_sq3 hr with rfl | rfl | rfl | rfl <;>
      first
        | exact absurd rfl n2
        | exact absurd rfl n4
        | skip
    all_goals
      rcases mem_sq3 hz with rfl | rfl | rfl | rfl <;>
      first
        | exact absurd rfl n3
        | exact absurd rfl n5
        | exact absurd rfl n6
        | (refine clear_parallel ?_ ?_ <;> norm_num [det3] <;> fail)
        | (refine clear_calc (by norm_num) rfl rfl ?_
           norm_num [FarFromBox, lerp])

/-- memory with the square of four segments sharing their corners -/
noncomputable def sq3heap : Heap ℝ :=
  ⟨fun n => if n = 0 then ⟨0, 0⟩ else if n = 1 then ⟨3, 0⟩ else if n = 2 then ⟨3, 3⟩ else ⟨0, 3⟩,
   fun s => if s = 0 then ⟨0, 1, .line⟩ else if s = 1 then ⟨1, 2, .line⟩ else if s = 2 then ⟨2, 3, .line⟩
    else ⟨3, 0, .line⟩, 4, 4⟩

theorem sq3corners_apart : Apart exReal.tol {p | p ∈ sq3corners} := by
  rw [exReal_isExact.tol']
  intro a ha b hb hne
  rcases mem_sq3 ha with rfl | rfl | rfl | rfl <;> rcases mem_sq3 hb with rfl | rfl | rfl | rfl <;>
    first
      | exact absurd rfl hne
      | (left; norm_num; done)
      | (right; norm_num; done)

theorem sq3heap_polygon : PolygonOf sq3heap sq3corners [0, 1, 2, 3] := by
  refine ⟨by norm_num [sq3corners], by decide, [0, 1, 2, 3], List.Perm.refl _, ?_⟩
  refine ⟨Or.inl ?_, Or.inl ?_, Or.inl ?_, Or.inl ?_, trivial⟩ <;> simp [sq3heap, Heap.val]

theorem sq3corners_turn (a b c : Pt ℝ) (hs : [a, b, c].Sublist sq3corners) : exReal.eps ≤ det3 a b c := by
  rw [exReal_isExact.eps']
  have := List.mem_sublists.2 hs
  simp only [sq3corners, List.sublists, List.foldr, List.flatMap_cons, List.flatMap_nil, List.cons_append, List.nil_append,
    List.mem_cons, List.cons.injEq, List.not_mem_nil, reduceCtorEq, and_false, false_and, false_or, or_false,
    and_true] at this
  rcases this with ⟨rfl, rfl, rfl⟩ | ⟨rfl, rfl, rfl⟩ | ⟨rfl, rfl, rfl⟩ | ⟨rfl, rfl, rfl⟩ <;> norm_num [det3]

/-- the square is finished, whatever corners are chosen -/
example (choice : ℕ → List (Pt ℝ) → Pt ℝ) (hch : ∀ n l, l ≠ [] → choice n l ∈ l) :
    (exReal.earClipping choice (exReal.earTok (fun _ _ _ => ⟨10, 3 / 2⟩) 1) sq3heap ⟨[0, 1, 2, 3], false⟩).2.2 = .ok true :=
  C135_convex exReal_isExact hch _ _ sq3corners sq3heap_polygon (by simp [sq3corners]) (by simp [sq3corners])
    sq3corners_apart (by simp [sq3heap]) sq3corners_turn 3 sq3_size sq3_steep _ sq3_earDraws 0

/-- half of the square is accepted -/
example : exReal.earOk (loopSides sq3corners) (triSegs (⟨0, 3⟩, ⟨0, 0⟩, ⟨3, 0⟩)) (fun _ _ => ⟨10, 3 / 2⟩) 1 = .ok true := by
  have hp := sq3heap_polygon
  have htri : ∀ x y z, [x, y, z].Sublist sq3corners → 0 < det3 x y z := fun x y z hs =>
    exReal_isExact.isRounding.eps_pos.trans_le (sq3corners_turn x y z hs)
  have hends := ends_loopSides (w := sq3corners) (by simp [sq3corners])
  refine C134_convex exReal_isExact _ (loopSides sq3corners) _ _ (SameDrawing.refl _) (loopSides_convex (by simp [sq3corners]) hp.1 htri)
    (by rw [loopSides_length] <;> simp [sq3corners]) ?_ ?_ (SameDrawing.refl _) (by norm_num [det3]) (fun _ _ => ⟨10, 3 / 2⟩)
    (centre_of_margin sq3_size sq3_steep ⟨0, 0⟩ ⟨3, 0⟩ [⟨3, 3⟩] ⟨0, 3⟩ (fun q h => h) hp.1 htri)
    (sq3_earDraws.mid ⟨0, 0⟩ ⟨3, 0⟩ [⟨3, 3⟩] ⟨0, 3⟩ (fun q h => h) hp.1 htri 0)
    (fun p hm hn i => sq3_earDraws.corner ⟨0, 0⟩ ⟨3, 0⟩ ⟨0, 3⟩ (by simp [sq3corners]) (by simp [sq3corners])
      (by simp [sq3corners]) (by norm_num [det3]) p ((hends p).1 hm) hn 0 i) ?_ 0
  · rw [← exReal_isExact.tol']
    exact apart_mono sq3corners_apart fun p h => (hends p).1 h
  · intro p h
    rw [hends]
    rcases h with rfl | rfl | rfl <;> simp [sq3corners]
  · intro s hs o ho
    simp only [loopSides, sq3corners, pathSides, triSegs, List.take, List.cons_append, List.nil_append, List.mem_cons,
      List.not_mem_nil, or_false] at hs ho
    rcases hs with rfl | rfl | rfl | rfl <;> rcases ho with rfl | rfl | rfl | rfl | rfl | rfl | rfl <;>
      first
        | (left; norm_num [CommonEnd]; done)
        | (right; refine clear_parallel ?_ ?_ <;> norm_num [det3] <;> fail)

end Srep
