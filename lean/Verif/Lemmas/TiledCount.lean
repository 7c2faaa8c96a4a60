import Verif.Lemmas.TiledNext
import Verif.Lemmas.TiledRun
import Mathlib.Combinatorics.Enumerative.DoubleCounting

/-! Counting the edges of a tiled mesh. -/

set_option linter.unusedSectionVars false

namespace Srep
open Cyc
variable {K : Type} [Field K] [LinearOrder K] [IsStrictOrderedRing K] [FloorRing K] {R : Rt K}
variable {M : Mesh K} {A : ℤ → Prop}

/-- the third vertex -/
theorem Tri.third {T : Tri} (hp : T.Proper) {i j : ℤ} (hij : i ≠ j) (hi : T.Has i) (hj : T.Has j) :
    ∃ u, (∀ v, T.Has v ↔ v = i ∨ v = j ∨ v = u) ∧ j ≠ u ∧ i ≠ u := by
  obtain ⟨h1, h2, h3⟩ := hp
  unfold Tri.Has at *
  rcases hi with rfl | rfl | rfl <;> rcases hj with rfl | rfl | rfl
  · exact absurd rfl hij
  · exact ⟨T.c, fun v => by tauto, h2, h3⟩
  · exact ⟨T.b, fun v => by tauto, h2.symm, h1⟩
  · exact ⟨T.c, fun v => by tauto, h3, h2⟩
  · exact absurd rfl hij
  · exact ⟨T.a, fun v => by tauto, h3.symm, h1.symm⟩
  · exact ⟨T.b, fun v => by tauto, h1, h2.symm⟩
  · exact ⟨T.a, fun v => by tauto, h1.symm, h3.symm⟩
  · exact absurd rfl hij

/-- the table of an edge has one triangle iff the edge is a boundary edge -/
theorem Mesh.Tiled.one_iff (h : M.Tiled R A) {x : ℤ × ℤ} {l : List ℕ} (hl : M.e2t x = some l) :
    l.length = 1 ↔ x ∈ M.bnd ∨ (x.2, x.1) ∈ M.bnd := by
  have hlt := h.cons.key x l hl
  constructor
  · intro h1
    obtain ⟨n, rfl⟩ := List.length_eq_one_iff.1 h1
    obtain ⟨T, hT, -, hi, hj⟩ := h.cons.sound x _ hl n (by simp)
    have mT := List.mem_of_getElem? hT
    obtain ⟨u, hv, hju, hiu⟩ := Tri.third (h.cons.proper T mT) (ne_of_lt hlt) hi hj
    have Ai := h.verts T mT _ hi
    have Aj := h.verts T mT _ hj
    have Au := h.verts T mT u ((hv u).2 (Or.inr (Or.inr rfl)))
    have hsame : ∀ w, A w → 0 ≤ det3 (M.pos x.1) (M.pos x.2) (M.pos u) * det3 (M.pos x.1) (M.pos x.2) (M.pos w) := by
      intro w hw
      by_contra hc
      obtain ⟨m, S, hS, hmn, a, b⟩ := h.beyond hT hv (ne_of_lt hlt) hju hiu hw (not_le.1 hc)
      obtain ⟨l', hl', hm⟩ := h.cons.complete m x ⟨S, hS, hlt, a, b⟩
      rw [hl] at hl'
      obtain rfl := Option.some.inj hl'
      exact hmn (by simpa using hm)
    have hne : ∀ w, A w → w ≠ x.1 → w ≠ x.2 → det3 (M.pos x.1) (M.pos x.2) (M.pos w) ≠ 0 := fun w hw h1 h2 =>
      h.general.det_ne (h.inA _ Ai) (h.inA _ Aj) (h.inA _ hw) (ne_of_lt hlt) (Ne.symm h2) (Ne.symm h1)
    have hu := hne u Au (Ne.symm hiu) (Ne.symm hju)
    rcases lt_or_gt_of_ne hu with hu | hu
    · right
      refine (h.sides Aj Ai (ne_of_gt hlt)).2 fun v hv h1 h2 => ?_
      have a := hsame v hv
      have b := hne v hv h2 h1
      have c : det3 (M.pos x.1) (M.pos x.2) (M.pos v) < 0 := by
        refine lt_of_le_of_ne ?_ b
        by_contra hc
        have := mul_neg_of_neg_of_pos hu (not_le.1 hc)
        linarith
      have e : det3 (M.pos x.2) (M.pos x.1) (M.pos v) = - det3 (M.pos x.1) (M.pos x.2) (M.pos v) := by unfold det3; ring
      linarith
    · left
      refine (h.sides Ai Aj (ne_of_lt hlt)).2 fun v hv h1 h2 => ?_
      have a := hsame v hv
      have b := hne v hv h1 h2
      refine lt_of_le_of_ne ?_ b.symm
      by_contra hc
      have := mul_neg_of_pos_of_neg hu (not_le.1 hc)
      linarith
  · intro hb
    obtain ⟨n, T, hT, a, b, huniq⟩ : ∃ (n : ℕ) (T : Tri), M.tris[n]? = some T ∧ T.Has x.1 ∧ T.Has x.2 ∧
        ∀ (m : ℕ) (S : Tri), M.tris[m]? = some S → S.Has x.1 → S.Has x.2 → m = n := by
      rcases hb with hb | hb
      · exact h.single _ hb
      · obtain ⟨n, T, hT, a, b, hu⟩ := h.single _ hb
        exact ⟨n, T, hT, b, a, fun m S hS c d => hu m S hS d c⟩
    refine length_one_of (h.cons.nodup x l hl) (f := n) ?_ ?_
    · obtain ⟨l', hl', hm⟩ := h.cons.complete n x ⟨T, hT, hlt, a, b⟩
      rw [hl] at hl'
      obtain rfl := Option.some.inj hl'
      exact hm
    · intro m hm
      obtain ⟨S, hS, -, c, d⟩ := h.cons.sound x l hl m hm
      exact huniq m S hS c d

/-- three edges per triangle, two triangles per edge, one at the boundary -/
theorem Mesh.Tiled.count (h : M.Tiled R A) {es : List (ℤ × ℤ)} (hn : es.Nodup) (he : ∀ x, x ∈ es ↔ (M.e2t x).isSome) :
    2 * es.length = 3 * M.tris.length + M.bnd.length := by
  classical
  have h2 := Finset.sum_card_bipartiteAbove_eq_sum_card_bipartiteBelow (s := es.toFinset)
    (t := Finset.range M.tris.length) (fun x n => M.At n x)
  -- from the side of the triangles
  have hT : ∀ n ∈ Finset.range M.tris.length, (Finset.bipartiteBelow (fun x n => M.At n x) es.toFinset n).card = 3 := by
    intro n hnr
    have hlt := Finset.mem_range.1 hnr
    have hT : M.tris[n]? = some M.tris[n] := List.getElem?_eq_getElem hlt
    set T := M.tris[n] with hTd
    obtain ⟨p1, p2, p3⟩ := h.cons.proper T (List.getElem_mem hlt)
    have : Finset.bipartiteBelow (fun x n => M.At n x) es.toFinset n =
        {makeKey T.a T.b, makeKey T.b T.c, makeKey T.a T.c} := by
      ext x
      simp only [Finset.mem_bipartiteBelow, List.mem_toFinset, Finset.mem_insert, Finset.mem_singleton]
      constructor
      · rintro ⟨-, S, hS, hlt, a, b⟩
        rw [hT] at hS
        obtain rfl := Option.some.inj hS
        have hh : ∀ i j : ℤ, x.1 = i → x.2 = j → i < j → x = makeKey i j ∧ x = makeKey j i := by
          rintro i j rfl rfl hlt
          unfold makeKey
          rw [if_pos hlt.le, if_neg (not_le.2 hlt)]
          exact ⟨rfl, rfl⟩
        rcases a with a | a | a <;> rcases b with b | b | b <;> first
          | (rw [a, b] at hlt; exact absurd hlt (lt_irrefl _))
          | (have := hh _ _ a b (by rw [← a, ← b]; exact hlt); tauto)
      · intro hx
        have hE : T.HasEdge x := by
          rcases hx with rfl | rfl | rfl
          · exact Tri.HasEdge.mk' p1 (Or.inl rfl) (Or.inr (Or.inl rfl))
          · exact Tri.HasEdge.mk' p2 (Or.inr (Or.inl rfl)) (Or.inr (Or.inr rfl))
          · exact Tri.HasEdge.mk' p3 (Or.inl rfl) (Or.inr (Or.inr rfl))
        obtain ⟨l, hl, -⟩ := h.cons.complete n x ⟨T, hT, hE⟩
        exact ⟨(he x).2 (by rw [hl]; rfl), T, hT, hE⟩
    rw [this]
    refine Finset.card_eq_three.2 ⟨_, _, _, ?_, ?_, ?_, rfl⟩
    · exact makeKey_ne (Or.inl ⟨p1, p3⟩)
    · exact makeKey_ne (Or.inr ⟨p1.symm, p2⟩)
    · exact makeKey_ne (Or.inl ⟨p1.symm, p2⟩)
  -- from the side of the edges
  have hA : ∀ x ∈ es.toFinset, (Finset.bipartiteAbove (fun x n => M.At n x) (Finset.range M.tris.length) x).card +
      (if x ∈ M.bnd ∨ (x.2, x.1) ∈ M.bnd then 1 else 0) = 2 := by
    intro x hx
    obtain ⟨l, hl⟩ := Option.isSome_iff_exists.1 ((he x).1 (List.mem_toFinset.1 hx))
    have : Finset.bipartiteAbove (fun x n => M.At n x) (Finset.range M.tris.length) x = l.toFinset := by
      ext n
      simp only [Finset.mem_bipartiteAbove, Finset.mem_range, List.mem_toFinset]
      constructor
      · rintro ⟨-, hat⟩
        obtain ⟨l', hl', hm⟩ := h.cons.complete n x hat
        rw [hl] at hl'
        obtain rfl := Option.some.inj hl'
        exact hm
      · intro hm
        obtain ⟨T, hT, hE⟩ := h.cons.sound x l hl n hm
        exact ⟨(List.getElem?_eq_some_iff.1 hT).1, T, hT, hE⟩
    rw [this, List.toFinset_card_of_nodup (h.cons.nodup x l hl)]
    have h1 := h.two x l hl
    have h0 := List.length_pos_iff.2 (h.full x l hl)
    have hi := h.one_iff hl
    split_ifs with hb
    · rw [hi.2 hb]
    · have : l.length ≠ 1 := fun hh => hb (hi.1 hh)
      omega
  have hsum := Finset.sum_congr (rfl : es.toFinset = es.toFinset) hA
  rw [Finset.sum_add_distrib, h2, Finset.sum_congr rfl hT, Finset.sum_const, Finset.sum_const, Finset.card_range,
    List.toFinset_card_of_nodup hn, ← Finset.card_filter] at hsum
  -- the boundary
  have hb : (es.toFinset.filter fun x => x ∈ M.bnd ∨ (x.2, x.1) ∈ M.bnd).card = M.bnd.length := by
    have : es.toFinset.filter (fun x => x ∈ M.bnd ∨ (x.2, x.1) ∈ M.bnd) =
        M.bnd.toFinset.image fun e => makeKey e.1 e.2 := by
      ext x
      simp only [Finset.mem_filter, List.mem_toFinset, Finset.mem_image]
      constructor
      · rintro ⟨hx, hb⟩
        obtain ⟨l, hl⟩ := Option.isSome_iff_exists.1 ((he x).1 hx)
        have hlt := h.cons.key x l hl
        rcases hb with hb | hb
        · exact ⟨x, hb, makeKey_sorted hlt.le⟩
        · exact ⟨_, hb, by rw [makeKey_comm]; exact makeKey_sorted hlt.le⟩
      · rintro ⟨e, hbe, rfl⟩
        obtain ⟨n, T, hT, a, b, -⟩ := h.single e hbe
        obtain ⟨l, hl, -⟩ := h.cons.complete n _ ⟨T, hT, Tri.HasEdge.mk' (h.hull.ne e hbe) a b⟩
        refine ⟨(he _).2 (by rw [hl]; rfl), ?_⟩
        unfold makeKey
        split_ifs
        · exact Or.inl hbe
        · exact Or.inr hbe
    rw [this, Finset.card_image_of_injOn, List.toFinset_card_of_nodup h.nodup]
    intro e hbe f hbf hk
    have hbe : e ∈ M.bnd := by simpa using hbe
    have hbf : f ∈ M.bnd := by simpa using hbf
    have hk : makeKey e.1 e.2 = makeKey f.1 f.2 := hk
    have ho := h.hull.once hbe
    have key : e = f ∨ e = (f.2, f.1) := by
      unfold makeKey at hk
      obtain ⟨e1, e2⟩ := e
      obtain ⟨f1, f2⟩ := f
      simp only at hk
      split_ifs at hk <;> simp only [Prod.mk.injEq] at hk ⊢ <;> omega
    rcases key with key | key
    · exact key
    · exact absurd (by rw [key]; exact hbf) ho
  rw [hb] at hsum
  simp only [smul_eq_mul] at hsum
  omega

end Srep
