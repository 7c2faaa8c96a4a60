import Verif.Lemmas.HullB
import Verif.Spec.Example
import Verif.Props.LineA
import Verif.Props.LineB
import Verif.Lemmas.Heap

/-! Properties of `convex_hull`. -/

set_option linter.unusedSectionVars false

namespace Srep
open Rt
variable {K : Type} [Field K] [LinearOrder K] [IsStrictOrderedRing K] [FloorRing K]

/-- the point with the coordinates of a pair -/
def pairPt (p : K × K) : Pt K := ⟨p.1, p.2⟩

/-- lexicographic order of coordinate pairs, as Python orders tuples -/
def LexLe (p q : K × K) : Prop := p.1 < q.1 ∨ (p.1 = q.1 ∧ p.2 ≤ q.2)

/-- The cyclic list `v` of pairs is the counter-clockwise convex hull of the pairs in `S`: its members are
members of `S`, no member occurs twice, every member of `S` lies on or to the left of every directed edge. -/
structure IsHull (S v : List (K × K)) : Prop where
  two : 2 ≤ v.length
  mem : ∀ p ∈ v, p ∈ S
  nodup : v.Nodup
  left : ∀ k (hk : k < v.length), ∀ q ∈ S,
    0 ≤ det3 (pairPt v[k]) (pairPt (v[(k + 1) % v.length]'(Nat.mod_lt _ (by omega)))) (pairPt q)

theorem det3_pairPt (a b c : K × K) : det3 (pairPt a) (pairPt b) (pairPt c) = pdet a b c := rfl

theorem two_le_hullSorted {ps : List (K × K)} (h : ∃ p ∈ ps, ∃ q ∈ ps, p ≠ q) :
    2 ≤ (hullSorted ps).length := by
  obtain ⟨p, hp, q, hq, hne⟩ := h
  rw [← hullSorted_mem] at hp hq
  match hc : hullSorted ps, hp, hq with
  | [a], hp, hq =>
    rw [List.mem_singleton] at hp hq
    exact absurd (hp.trans hq.symm) hne
  | a :: b :: l, _, _ => simp

/-- the node list, if the turns are computed exactly -/
theorem hullNodes_spec {R : Rt K} (hE : ∀ o a b, R.hullCross o a b = pdet o a b) (ps : List (K × K)) (h : ∃ p ∈ ps, ∃ q ∈ ps, p ≠ q) :
    IsHull ps (R.hullNodes ps) ∧
    (∀ p ∈ (R.hullNodes ps).head?, ∀ q ∈ ps, LexLe p q) ∧
    ((∃ x ∈ ps, ∃ y ∈ ps, ∃ z ∈ ps, det3 (pairPt x) (pairPt y) (pairPt z) ≠ 0) →
      ∀ k (hk : k < (R.hullNodes ps).length),
        0 < det3 (pairPt (R.hullNodes ps)[k])
          (pairPt ((R.hullNodes ps)[(k + 1) % (R.hullNodes ps).length]'(Nat.mod_lt _ (by omega))))
          (pairPt ((R.hullNodes ps)[(k + 2) % (R.hullNodes ps).length]'(Nat.mod_lt _ (by omega))))) ∧
    ((∀ x ∈ ps, ∀ y ∈ ps, ∀ z ∈ ps, det3 (pairPt x) (pairPt y) (pairPt z) = 0) →
      (R.hullNodes ps).length = 2) := by
  have h2 := two_le_hullSorted h
  obtain ⟨lo, hi, H, hlo⟩ := twoHalves hE ps h2
  have hL2 := H.L2
  have hU2 := H.U2
  have hlen : (R.hullNodes ps).length = ((R.hullHalf (hullSorted ps)).reverse.length - 1) +
      ((R.hullHalf (hullSorted ps).reverse).reverse.length - 1) := by
    unfold hullNodes; rw [List.length_append, List.length_dropLast, List.length_dropLast]
  have hmem : ∀ p ∈ R.hullNodes ps, p ∈ ps := by
    intro p hp
    unfold hullNodes at hp
    rw [List.mem_append] at hp
    rw [← hullSorted_mem]
    rcases hp with hp | hp
    · exact H.memL p (List.dropLast_subset _ hp)
    · exact H.memU p (List.dropLast_subset _ hp)
  refine ⟨⟨by omega, hmem, H.nodup, ?_⟩, ?_, ?_, ?_⟩
  · intro k hk q hq
    exact H.left k hk q ((hullSorted_mem ps q).2 hq)
  · intro p hp q hq
    obtain ⟨-, low, -⟩ := dropLast_append_get _ _ H.L2 H.U2 (H.Ll.trans H.U0.symm) (H.Ul.trans H.L0.symm)
    have e := low 0 (by omega) (by rw [List.length_append, List.length_dropLast, List.length_dropLast]; omega)
    rw [H.L0] at e
    have hp' : p = lo := by
      rw [← head_get (a := p) (l := R.hullNodes ps) hp (by omega)]
      exact e
    have hs := List.pairwise_insertionSort pairLe ps.dedup
    have hq' := (hullSorted_mem ps q).2 hq
    have hs' : (hullSorted ps).Pairwise pairLe := hs
    subst hp'
    cases hc : hullSorted ps with
    | nil => rw [hc] at hq'; simp at hq'
    | cons a t =>
      rw [hc] at hlo hq' hs'
      simp only [List.head?_cons, Option.some.injEq] at hlo
      subst hlo
      rcases List.mem_cons.1 hq' with rfl | hq'
      · exact Or.inr ⟨rfl, le_rfl⟩
      · exact (List.pairwise_cons.1 hs').1 q hq'
  · rintro ⟨x, hx, y, hy, z, hz, hne⟩ k hk
    exact H.turn ⟨x, (hullSorted_mem _ _).2 hx, y, (hullSorted_mem _ _).2 hy, z, (hullSorted_mem _ _).2 hz, hne⟩
      k hk
  · intro hcol
    have hmL : ∀ p ∈ (R.hullHalf (hullSorted ps)).reverse, p ∈ ps :=
      fun p hp => (hullSorted_mem _ _).1 (H.memL p hp)
    have hmU : ∀ p ∈ (R.hullHalf (hullSorted ps).reverse).reverse, p ∈ ps :=
      fun p hp => (hullSorted_mem _ _).1 (H.memU p hp)
    have hL : (R.hullHalf (hullSorted ps)).reverse.length ≤ 2 := by
      by_contra hc
      have := H.lower.turn 0 (by omega)
      have h0 := hcol _ (hmL _ (List.getElem_mem (by omega : 0 < _))) _ (hmL _ (List.getElem_mem (by omega : 1 < _)))
        _ (hmL _ (List.getElem_mem (by omega : 2 < _)))
      rw [det3_pairPt] at h0
      simp only [Nat.zero_add] at this
      rw [h0] at this
      exact lt_irrefl _ this
    have hU : (R.hullHalf (hullSorted ps).reverse).reverse.length ≤ 2 := by
      by_contra hc
      have := H.upTurn 0 (by omega)
      have h0 := hcol _ (hmU _ (List.getElem_mem (by omega : 0 < _))) _ (hmU _ (List.getElem_mem (by omega : 1 < _)))
        _ (hmU _ (List.getElem_mem (by omega : 2 < _)))
      rw [det3_pairPt] at h0
      simp only [Nat.zero_add] at this
      rw [h0] at this
      exact lt_irrefl _ this
    omega

/-- C34 (node list, exact arithmetic, any input with two distinct members): what is handed to
`polygon_from_nodes` is the convex hull, starting at the lexicographically smallest member; if not all members
are collinear then every turn is strictly left; otherwise there are just two vertices. -/
theorem C34_nodes {R : Rt K} (hE : R.IsExact) (ps : List (K × K)) (h : ∃ p ∈ ps, ∃ q ∈ ps, p ≠ q) :
    IsHull ps (R.hullNodes ps) ∧
    (∀ p ∈ (R.hullNodes ps).head?, ∀ q ∈ ps, LexLe p q) ∧
    ((∃ x ∈ ps, ∃ y ∈ ps, ∃ z ∈ ps, det3 (pairPt x) (pairPt y) (pairPt z) ≠ 0) →
      ∀ k (hk : k < (R.hullNodes ps).length),
        0 < det3 (pairPt (R.hullNodes ps)[k])
          (pairPt ((R.hullNodes ps)[(k + 1) % (R.hullNodes ps).length]'(Nat.mod_lt _ (by omega))))
          (pairPt ((R.hullNodes ps)[(k + 2) % (R.hullNodes ps).length]'(Nat.mod_lt _ (by omega))))) ∧
    ((∀ x ∈ ps, ∀ y ∈ ps, ∀ z ∈ ps, det3 (pairPt x) (pairPt y) (pairPt z) = 0) →
      (R.hullNodes ps).length = 2) :=
  hullNodes_spec (hullCross_exact hE) ps h

theorem chain_isContinuous {R : Rt K} (hR : R.IsRounding) : ∀ l : List (Pt K), R.isContinuous (chain l) = true
  | [] => rfl
  | [a] => rfl
  | [a, b] => rfl
  | a :: b :: c :: l => by
    have ih := chain_isContinuous hR (b :: c :: l)
    unfold isContinuous at ih ⊢
    simp only [chain, List.tail_cons, List.zip_cons_cons, List.all_cons] at ih ⊢
    rw [Bool.and_eq_true]
    exact ⟨C17_chain hR _ _ (Or.inl rfl), ih⟩

/-- closing an open chain of points -/
theorem close_chain {R : Rt K} (hR : R.IsRounding) (v : List (Pt K)) (hv2 : 2 ≤ v.length)
    (hpeq : R.peq v[0] v[v.length - 1] = false) :
    ∃ l, R.close (chain v) = .ok l ∧ l = chain (v ++ [v[0]]) ∧ l.length = v.length ∧
      (∀ k (hk : k < l.length) (hk' : k < v.length),
        l[k] = ⟨v[k], v[(k + 1) % v.length]'(Nat.mod_lt _ (by omega)), .line⟩) ∧
      R.isClosed l = .ok true := by
  have hcl : (chain v).length = v.length - 1 := chain_length' v
  have hget : ∀ k (hk : k + 1 < v.length), (chain v)[k]'(by omega) = ⟨v[k], v[k + 1], .line⟩ :=
    fun k hk => chain_getElem _ k hk
  have hhead : (chain v).head? = some ⟨v[0], v[1], .line⟩ := by
    rw [List.head?_eq_getElem?, List.getElem?_eq_getElem (by omega), hget 0 (by omega)]
  have hlast : (chain v).getLast? = some ⟨v[v.length - 2], v[v.length - 1], .line⟩ := by
    rw [List.getLast?_eq_getElem?, List.getElem?_eq_getElem (by omega)]
    have := hget (v.length - 2) (by omega)
    have e1 : v.length - 2 + 1 = v.length - 1 := by omega
    simp only [e1] at this
    rw [← this]
    congr 2
    omega
  have hclosed : R.isClosed (chain v) = .ok false := by
    unfold isClosed
    rw [if_pos (chain_isContinuous hR _), hhead, hlast]
    simp only [hpeq]
  have happ : chain v ++ [⟨v[v.length - 1], v[0], .line⟩] = chain (v ++ [v[0]]) := by
    apply List.ext_getElem
    · rw [List.length_append, hcl, chain_length']
      simp; omega
    · intro k h1 h2
      rw [chain_getElem _ k (by rw [chain_length'] at h2; omega)]
      rcases Nat.lt_or_ge (k + 1) v.length with h3 | h3
      · rw [List.getElem_append_left (by omega), hget k h3]
        rw [List.getElem_append_left (by omega), List.getElem_append_left (by omega)]
      · have hk : k = v.length - 1 := by
          rw [List.length_append, hcl] at h1
          simp at h1; omega
        subst hk
        rw [List.getElem_append_right (by omega), List.getElem_append_left (by omega),
          List.getElem_append_right (by omega)]
        simp [hcl]
  refine ⟨chain v ++ [⟨v[v.length - 1], v[0], .line⟩], ?_, happ, ?_, ?_, ?_⟩
  · unfold close
    rw [hclosed]
    simp only [hhead, hlast]
  · rw [List.length_append, hcl]; simp; omega
  · intro k hk hk'
    rcases Nat.lt_or_ge (k + 1) v.length with h3 | h3
    · rw [List.getElem_append_left (by omega), hget k h3]
      have e : (k + 1) % v.length = k + 1 := Nat.mod_eq_of_lt h3
      simp only [e]
    · have hk1 : k = v.length - 1 := by omega
      subst hk1
      rw [List.getElem_append_right (by omega)]
      have e : (v.length - 1 + 1) % v.length = 0 := by
        rw [show v.length - 1 + 1 = v.length by omega, Nat.mod_self]
      simp [e]
  · rw [happ]
    unfold isClosed
    rw [if_pos (chain_isContinuous hR _), ← happ]
    rw [List.getLast?_append, List.head?_append, hhead]
    simp only [List.getLast?_singleton, Option.some_or, Except.ok.injEq]
    exact hR.peq_refl _

/-- C34 (the returned polyline; members with at most 8 decimals, as every Point stores, and at least 1e-5
apart): it is closed, segment `k` runs from vertex `k` to vertex `k + 1`, the vertices being the hull of
`C34_nodes`. -/
theorem C34_polyline {R : Rt K} (hE : R.IsExact) (ps : List (K × K)) (h : ∃ p ∈ ps, ∃ q ∈ ps, p ≠ q)
    (hg : ∀ p ∈ ps, Grid p.1 ∧ Grid p.2) (hap : Apart (1 / 10 ^ 5) {q | ∃ p ∈ ps, q = pairPt p}) :
    ∃ l, R.convexHull ps = .inr (.ok l) ∧ l.length = (R.hullNodes ps).length ∧
      (∀ k (hk : k < l.length) (hk' : k < (R.hullNodes ps).length),
        l[k] = ⟨pairPt (R.hullNodes ps)[k],
          pairPt ((R.hullNodes ps)[(k + 1) % (R.hullNodes ps).length]'(Nat.mod_lt _ (by omega))), .line⟩) ∧
      R.isClosed l = .ok true := by
  have h2 := two_le_hullSorted h
  obtain ⟨hH, -⟩ := C34_nodes hE ps h
  have hmap : ((R.hullNodes ps).map fun n => R.mkPt n.1 n.2) = (R.hullNodes ps).map pairPt := by
    apply List.map_congr_left
    intro p hp
    obtain ⟨h1, h2⟩ := hg p (hH.mem p hp)
    exact hE.mkPt_grid h1 h2
  have hpf : R.polygonFromNodes (R.hullNodes ps) false = .ok (chain ((R.hullNodes ps).map pairPt)) := by
    unfold polygonFromNodes
    simp only [Bool.false_eq_true, if_false, hmap]
  have hv2 := hH.two
  have hpeq : R.peq (((R.hullNodes ps).map pairPt)[0]'(by simp; omega))
      (((R.hullNodes ps).map pairPt)[((R.hullNodes ps).map pairPt).length - 1]'(by simp; omega)) = false := by
    rw [Bool.eq_false_iff, Ne, hE.peq_iff]
    simp only [List.getElem_map, List.length_map]
    rintro hc
    by_cases he : pairPt (R.hullNodes ps)[0] = pairPt (R.hullNodes ps)[(R.hullNodes ps).length - 1]
    · have hx := congrArg Pt.x he
      have hy := congrArg Pt.y he
      have := (List.Nodup.getElem_inj_iff hH.nodup).1
        (Prod.ext hx hy : (R.hullNodes ps)[0] = (R.hullNodes ps)[(R.hullNodes ps).length - 1])
      omega
    · rcases hap _ ⟨_, hH.mem _ (List.getElem_mem (by omega : 0 < (R.hullNodes ps).length)), rfl⟩ _
        ⟨_, hH.mem _ (List.getElem_mem (by omega : (R.hullNodes ps).length - 1 < _)), rfl⟩ he with h | h
      · exact absurd hc.1 (not_lt.2 h)
      · exact absurd hc.2 (not_lt.2 h)
  obtain ⟨l, h1, -, h3, h4, h5⟩ := close_chain hE.isRounding _ (by simpa using hv2) hpeq
  refine ⟨l, ?_, by simpa using h3, ?_, h5⟩
  · unfold Rt.convexHull
    rw [if_neg (by omega), hpf]
    exact congrArg _ h1
  · intro k hk hk'
    have := h4 k hk (by simpa using hk')
    rw [this]
    simp

/-- C34 (fewer than two distinct members): the result is the plain list of the distinct members. -/
theorem C34_degenerate (R : Rt K) (ps : List (K × K)) (h : ∀ p ∈ ps, ∀ q ∈ ps, p = q) :
    (ps = [] ∧ R.convexHull ps = .inl []) ∨ ∃ p ∈ ps, R.convexHull ps = .inl [p] := by
  have hnd : (hullSorted ps).Nodup := (List.perm_insertionSort _ _).nodup_iff.2 (List.nodup_dedup _)
  match hc : hullSorted ps, hnd with
  | [], _ =>
    left
    refine ⟨?_, by unfold Rt.convexHull; rw [hc]; rfl⟩
    rw [List.eq_nil_iff_forall_not_mem]
    intro p hp
    rw [← hullSorted_mem, hc] at hp
    simp at hp
  | [a], _ =>
    right
    exact ⟨a, (hullSorted_mem _ _).1 (by rw [hc]; simp), by unfold Rt.convexHull; rw [hc]; rfl⟩
  | a :: b :: l, hnd =>
    have := h a ((hullSorted_mem _ _).1 (by rw [hc]; simp)) b ((hullSorted_mem _ _).1 (by rw [hc]; simp))
    rw [this] at hnd
    simp at hnd

/-- C34: in binary64 the claim fails: the three points (2, 10.4), (1.9, 10.9), (0.5, 17.9) (each the nearest
double) give a hull of two vertices with the third point strictly outside. -/
theorem C34_float_member_outside :
    ∃ a b c : ℚ × ℚ, exRt.hullNodes [a, b, c] = [c, a] ∧
      det3 (pairPt c) (pairPt a) (pairPt b) < 0 ∧ a = (exRt.fl 2, exRt.fl (104 / 10)) ∧
      b = (exRt.fl (19 / 10), exRt.fl (109 / 10)) ∧ c = (exRt.fl (5 / 10), exRt.fl (179 / 10)) :=
  ⟨(exRt.fl 2, exRt.fl (104 / 10)), (exRt.fl (19 / 10), exRt.fl (109 / 10)),
    (exRt.fl (5 / 10), exRt.fl (179 / 10)), by decide +kernel, by decide +kernel, rfl, rfl, rfl⟩

/-- non-vacuity: a square with its centre, exact arithmetic -/
example : (∃ p ∈ [((0 : ℝ), (0 : ℝ)), (2, 0), (2, 2), (0, 2), (1, 1)], ∃ q ∈ [((0 : ℝ), (0 : ℝ)), (2, 0), (2, 2), (0, 2), (1, 1)], p ≠ q) ∧
    ∃ x ∈ [((0 : ℝ), (0 : ℝ)), (2, 0), (2, 2), (0, 2), (1, 1)], ∃ y ∈ [((0 : ℝ), (0 : ℝ)), (2, 0), (2, 2), (0, 2), (1, 1)],
      ∃ z ∈ [((0 : ℝ), (0 : ℝ)), (2, 0), (2, 2), (0, 2), (1, 1)], det3 (pairPt x) (pairPt y) (pairPt z) ≠ 0 :=
  ⟨⟨(0, 0), by simp, (2, 0), by simp, by simp⟩, (0, 0), by simp, (2, 0), by simp, (2, 2), by simp, by
    norm_num [det3, pairPt]⟩
example : exRt.hullNodes [(0, 0), (2, 0), (2, 2), (0, 2), (1, 1), (1, 0)] = [(0, 0), (2, 0), (2, 2), (0, 2)] := by
  decide +kernel

/-- C35: two inputs with the same members give the same result, in any arithmetic. -/
theorem C35_same_members (R : Rt K) (ps qs : List (K × K)) (h : ∀ p, p ∈ ps ↔ p ∈ qs) :
    R.convexHull ps = R.convexHull qs := by
  have hperm : ps.dedup.Perm qs.dedup := by
    rw [List.perm_ext_iff_of_nodup (List.nodup_dedup _) (List.nodup_dedup _)]
    intro p
    rw [List.mem_dedup, List.mem_dedup]
    exact h p
  have hs : hullSorted ps = hullSorted qs := by
    unfold hullSorted
    exact List.Perm.eq_of_pairwise' (List.pairwise_insertionSort _ _) (List.pairwise_insertionSort _ _)
      ((List.perm_insertionSort _ _).trans (hperm.trans (List.perm_insertionSort _ _).symm))
  unfold Rt.convexHull hullNodes
  rw [hs]

example : (∀ p, p ∈ [((0 : ℚ), (1 : ℚ)), (2, 3), (0, 1)] ↔ p ∈ [((2 : ℚ), (3 : ℚ)), (0, 1)]) := by
  intro p; simp only [List.mem_cons, List.not_mem_nil, or_false]; tauto

end Srep
