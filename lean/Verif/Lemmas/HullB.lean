import Verif.Lemmas.Hull
import Mathlib.Data.List.Sort
import Mathlib.Data.List.Dedup

/-! Both halves of the hull put together. -/

set_option linter.unusedSectionVars false

namespace Srep
variable {K : Type} [Field K] [LinearOrder K] [IsStrictOrderedRing K]

/-- the facts about one half of a hull, as a sequence from its start to its end -/
structure HalfOK (S L : List (K × K)) : Prop where
  lt : ∀ k (hk : k + 1 < L.length), pairLt (L[k]) (L[k + 1])
  left : ∀ k (hk : k + 1 < L.length), ∀ q ∈ S, 0 ≤ pdet (L[k]) (L[k + 1]) q
  turn : ∀ k (hk : k + 2 < L.length), 0 < pdet (L[k]) (L[k + 1]) (L[k + 2])

theorem HullInv.halfOK {S : List (K × K)} : ∀ st : List (K × K), HullInv S st → HalfOK S st.reverse
  | [], _ => ⟨by simp, by simp, by simp⟩
  | [a], _ => ⟨by simp, by simp, by simp⟩
  | b :: a :: l, h => by
    have ih := HullInv.halfOK (a :: l) h.2.2.2
    have hlen : (b :: a :: l).reverse.length = (a :: l).reverse.length + 1 := by simp
    have e1 : ∀ k (hk : k < (a :: l).reverse.length),
        (b :: a :: l).reverse[k]'(by omega) = (a :: l).reverse[k] := by
      intro k hk
      simp only [List.reverse_cons (a := b)]
      rw [List.getElem_append_left hk]
    have e2 : (b :: a :: l).reverse[(a :: l).reverse.length]'(by omega) = b := by
      simp only [List.reverse_cons (a := b)]
      rw [List.getElem_append_right (by simp)]
      simp
    have e3 : (b :: a :: l).reverse[l.length]'(by simp) = a := by
      rw [e1 _ (by simp)]
      simp only [List.reverse_cons (a := a)]
      rw [List.getElem_append_right (by simp)]
      simp
    have hla : (a :: l).reverse.length = l.length + 1 := by simp
    refine ⟨?_, ?_, ?_⟩
    · intro k hk
      rcases Nat.lt_or_ge (k + 1) (a :: l).reverse.length with h1 | h1
      · rw [e1 k (by omega), e1 (k + 1) h1]; exact ih.lt k h1
      · have hk' : k = l.length := by omega
        subst hk'
        have : (b :: a :: l).reverse[l.length + 1] = b := by
          have := e2; simp only [hla] at this; exact this
        rw [e3, this]; exact h.1
    · intro k hk q hq
      rcases Nat.lt_or_ge (k + 1) (a :: l).reverse.length with h1 | h1
      · rw [e1 k (by omega), e1 (k + 1) h1]; exact ih.left k h1 q hq
      · have hk' : k = l.length := by omega
        subst hk'
        have : (b :: a :: l).reverse[l.length + 1] = b := by
          have := e2; simp only [hla] at this; exact this
        rw [e3, this]; exact h.2.1 q hq
    · intro k hk
      rcases Nat.lt_or_ge (k + 2) (a :: l).reverse.length with h1 | h1
      · rw [e1 k (by omega), e1 (k + 1) (by omega), e1 (k + 2) h1]; exact ih.turn k h1
      · cases l with
        | nil => simp at hk
        | cons z l =>
          have hk' : k = l.length := by simp at hk h1 ⊢; omega
          subst hk'
          have t1 : (b :: a :: z :: l).reverse[l.length + 2] = b := by
            have := e2; simp only [hla, List.length_cons] at this; exact this
          have t2 : (b :: a :: z :: l).reverse[l.length + 1] = a := by
            have := e3; simp only [List.length_cons] at this; exact this
          have t3 : (b :: a :: z :: l).reverse[l.length] = z := by
            rw [e1 _ (by simp)]
            simp
          rw [t1, t2, t3]
          exact h.2.2.1 z (by simp)

theorem HalfOK.pairwise {S L : List (K × K)} (h : HalfOK S L) : L.Pairwise pairLt := by
  have : IsTrans (K × K) pairLt := ⟨fun _ _ _ => pairLt.trans⟩
  rw [← List.isChain_iff_pairwise, List.isChain_iff_getElem]
  intro k hk
  exact h.lt k hk

/-- point reflection -/
def pneg (p : K × K) : K × K := (-p.1, -p.2)

theorem pneg_pneg (p : K × K) : pneg (pneg p) = p := by simp [pneg]

theorem pdet_neg (o a b : K × K) : pdet (pneg o) (pneg a) (pneg b) = pdet o a b := by
  unfold pdet pneg; ring

theorem pairLt_neg {p q : K × K} : pairLt (pneg p) (pneg q) ↔ pairLt q p := by
  unfold pairLt pneg
  simp only [neg_lt_neg_iff, neg_inj]
  constructor
  · rintro (h | ⟨h, h'⟩)
    · exact Or.inl h
    · exact Or.inr ⟨h.symm, h'⟩
  · rintro (h | ⟨h, h'⟩)
    · exact Or.inl h
    · exact Or.inr ⟨h.symm, h'⟩

theorem par_pos {ux uy wx wy gx gy : K} (hu : Pos ux uy) (hw : Pos wx wy) (h0 : ux * wy - uy * wx = 0)
    (h1 : 0 < ux * gy - uy * gx) : 0 < wx * gy - wy * gx := by
  rcases hu with hu | ⟨hu, hu'⟩
  · have hwx : 0 < wx := by
      rcases hw with h | ⟨h, h'⟩
      · exact h
      · rw [h] at h0
        have := mul_pos hu h'
        linarith
    have e : ux * (wx * gy - wy * gx) = wx * (ux * gy - uy * gx) := by
      linear_combination (-gx) * h0
    have : 0 < ux * (wx * gy - wy * gx) := by rw [e]; exact mul_pos hwx h1
    exact pos_of_mul_pos_right this hu.le
  · rw [hu] at h0 h1
    have hwx : wx = 0 := by
      have : uy * wx = 0 := by linarith
      rcases mul_eq_zero.1 this with h | h
      · linarith
      · exact h
    rcases hw with h | ⟨-, h⟩
    · linarith
    · rw [hwx]
      have hg : gx < 0 := by
        by_contra hc
        have := mul_nonneg hu'.le (le_of_not_gt hc)
        linarith
      have := mul_pos_of_neg_of_neg (neg_lt_zero.2 h) hg
      linarith

/-- points on one line through `m` in direction `u` are collinear -/
theorem collinear_of_dir {ux uy : K} (hu : Pos ux uy) {m x y z : K × K}
    (hx : ux * (x.2 - m.2) - uy * (x.1 - m.1) = 0) (hy : ux * (y.2 - m.2) - uy * (y.1 - m.1) = 0)
    (hz : ux * (z.2 - m.2) - uy * (z.1 - m.1) = 0) : pdet x y z = 0 := by
  rcases hu with hu | ⟨hu, hu'⟩
  · have : ux * pdet x y z = 0 := by
      unfold pdet
      linear_combination (y.1 - x.1) * hz - (z.1 - x.1) * hy + (z.1 - y.1) * hx
    rcases mul_eq_zero.1 this with h | h
    · linarith
    · exact h
  · rw [hu] at hx hy hz
    have h1 : ∀ t : K × K, 0 * (t.2 - m.2) - uy * (t.1 - m.1) = 0 → t.1 = m.1 := by
      intro t ht
      have : uy * (t.1 - m.1) = 0 := by linarith
      rcases mul_eq_zero.1 this with h | h
      · linarith
      · linarith
    unfold pdet
    rw [h1 x hx, h1 y hy, h1 z hz]; ring

/-- The two halves of a hull of the points `S`: `L` from the smallest to the largest point, `U` back. -/
structure TwoHalves (S L U : List (K × K)) (lo hi : K × K) : Prop where
  lower : HalfOK S L
  upper : HalfOK (S.map pneg) (U.map pneg)
  memL : ∀ q ∈ L, q ∈ S
  memU : ∀ q ∈ U, q ∈ S
  L2 : 2 ≤ L.length
  U2 : 2 ≤ U.length
  L0 : L[0] = lo
  Ll : L[L.length - 1] = hi
  U0 : U[0] = hi
  Ul : U[U.length - 1] = lo

section
variable {S L U : List (K × K)} {lo hi : K × K}

theorem TwoHalves.upLt (h : TwoHalves S L U lo hi) (k : ℕ) (hk : k + 1 < U.length) :
    pairLt (U[k + 1]) (U[k]) := by
  have := h.upper.lt k (by simpa using hk)
  simp only [List.getElem_map] at this
  exact pairLt_neg.1 this

theorem TwoHalves.upLeft (h : TwoHalves S L U lo hi) (k : ℕ) (hk : k + 1 < U.length) (q : K × K)
    (hq : q ∈ S) : 0 ≤ pdet (U[k]) (U[k + 1]) q := by
  have := h.upper.left k (by simpa using hk) (pneg q) (List.mem_map_of_mem hq)
  simp only [List.getElem_map, pdet_neg] at this
  exact this

theorem TwoHalves.upTurn (h : TwoHalves S L U lo hi) (k : ℕ) (hk : k + 2 < U.length) :
    0 < pdet (U[k]) (U[k + 1]) (U[k + 2]) := by
  have := h.upper.turn k (by simpa using hk)
  simp only [List.getElem_map, pdet_neg] at this
  exact this

theorem TwoHalves.upPairwise (h : TwoHalves S L U lo hi) : U.Pairwise fun a b => pairLt b a := by
  have := h.upper.pairwise
  rw [List.pairwise_map] at this
  exact this.imp fun h => pairLt_neg.1 h

/-- the closed polygon: `L[:-1] + U[:-1]` -/
theorem TwoHalves.nodup (h : TwoHalves S L U lo hi) : (L.dropLast ++ U.dropLast).Nodup := by
  have hL := h.lower.pairwise
  have hU := h.upPairwise
  have hL2 := h.L2
  have hU2 := h.U2
  rw [List.nodup_append]
  refine ⟨?_, ?_, ?_⟩
  · exact (hL.imp pairLt.ne).sublist (List.dropLast_sublist _)
  · exact (hU.imp fun h => (pairLt.ne h).symm).sublist (List.dropLast_sublist _)
  · intro a ha b hb e
    subst e
    obtain ⟨i, hi', ei⟩ := List.getElem_of_mem ha
    obtain ⟨j, hj, ej⟩ := List.getElem_of_mem hb
    rw [List.length_dropLast] at hi' hj
    rw [List.getElem_dropLast] at ei ej
    have hLm : ∀ x y (hx : x < L.length) (hy : y < L.length), x < y → pairLt L[x] L[y] :=
      fun x y hx hy hxy => List.pairwise_iff_getElem.1 hL x y hx hy hxy
    have hUm : ∀ x y (hx : x < U.length) (hy : y < U.length), x < y → pairLt U[y] U[x] :=
      fun x y hx hy hxy => List.pairwise_iff_getElem.1 hU x y hx hy hxy
    rcases Nat.eq_zero_or_pos i with rfl | hi0
    · have h1 := hUm j (U.length - 1) (by omega) (by omega) (by omega)
      rw [h.Ul, ← h.L0, ei, ej] at h1
      exact pairLt.irrefl _ h1
    rcases Nat.eq_zero_or_pos j with rfl | hj0
    · have h1 := hLm i (L.length - 1) (by omega) (by omega) (by omega)
      rw [h.Ll, ← h.U0, ei, ej] at h1
      exact pairLt.irrefl _ h1
    obtain ⟨i, rfl⟩ : ∃ i', i = i' + 1 := ⟨i - 1, by omega⟩
    obtain ⟨j, rfl⟩ : ∃ j', j = j' + 1 := ⟨j - 1, by omega⟩
    have t1 := h.lower.turn i (by omega)
    have l1 := h.lower.left i (by omega) (U[j]) (h.memU _ (List.getElem_mem _))
    have u1 := h.upLeft j (by omega) (L[i]) (h.memL _ (List.getElem_mem _))
    have u2 := h.upLeft j (by omega) (L[i + 2]) (h.memL _ (List.getElem_mem _))
    have p1 := pairLt_pos.1 (h.lower.lt i (by omega))
    have p2 := pairLt_pos.1 (h.upLt j (by omega))
    rw [ei] at t1 l1 p1
    rw [ej] at u1 u2 p2
    unfold pdet at t1 l1 u1 u2
    have := par_pos p1 p2 (gx := (L[i + 2]).1 - a.1) (gy := (L[i + 2]).2 - a.2) (by linarith) (by linarith)
    linarith

end

theorem dropLast_append_get (L U : List (K × K)) (hL : 2 ≤ L.length) (hU : 2 ≤ U.length)
    (h1 : L[L.length - 1] = U[0]) (h2 : U[U.length - 1] = L[0]) :
    (L.dropLast ++ U.dropLast).length = (L.length - 1) + (U.length - 1) ∧
    (∀ k (hk : k < L.length) (hk' : k < (L.dropLast ++ U.dropLast).length),
      (L.dropLast ++ U.dropLast)[k] = L[k]) ∧
    ∀ j (hj : j < U.length),
      (L.dropLast ++ U.dropLast)[(L.length - 1 + j) % (L.dropLast ++ U.dropLast).length]'
        (Nat.mod_lt _ (by simp; omega)) = U[j] := by
  have hlen : (L.dropLast ++ U.dropLast).length = (L.length - 1) + (U.length - 1) := by simp
  have low : ∀ k (hk : k < L.length) (hk' : k < (L.dropLast ++ U.dropLast).length),
      (L.dropLast ++ U.dropLast)[k] = L[k] := by
    intro k hk hk'
    rcases Nat.lt_or_ge k (L.length - 1) with h | h
    · rw [List.getElem_append_left (by simpa using h), List.getElem_dropLast]
    · have : k = L.length - 1 := by omega
      subst this
      rw [List.getElem_append_right (by simp), List.getElem_dropLast, h1]
      simp
  refine ⟨hlen, low, ?_⟩
  intro j hj
  rcases Nat.lt_or_ge j (U.length - 1) with h | h
  · have e : (L.length - 1 + j) % (L.dropLast ++ U.dropLast).length = L.length - 1 + j :=
      Nat.mod_eq_of_lt (by omega)
    simp only [e]
    rw [List.getElem_append_right (by simp), List.getElem_dropLast]
    simp
  · have hj' : j = U.length - 1 := by omega
    subst hj'
    have e : (L.length - 1 + (U.length - 1)) % (L.dropLast ++ U.dropLast).length = 0 := by
      rw [hlen, Nat.mod_self]
    simp only [e]
    rw [low 0 (by omega) (by omega), h2]

section
variable {S L U : List (K × K)} {lo hi : K × K}

theorem TwoHalves.left (h : TwoHalves S L U lo hi) (k : ℕ) (hk : k < (L.dropLast ++ U.dropLast).length)
    (q : K × K) (hq : q ∈ S) :
    0 ≤ pdet ((L.dropLast ++ U.dropLast)[k])
      ((L.dropLast ++ U.dropLast)[(k + 1) % (L.dropLast ++ U.dropLast).length]'(Nat.mod_lt _ (by omega))) q := by
  have hL2 := h.L2
  have hU2 := h.U2
  obtain ⟨hlen, low, up⟩ := dropLast_append_get L U h.L2 h.U2 (h.Ll.trans h.U0.symm) (h.Ul.trans h.L0.symm)
  rcases Nat.lt_or_ge k (L.length - 1) with h1 | h1
  · have e : (k + 1) % (L.dropLast ++ U.dropLast).length = k + 1 := Nat.mod_eq_of_lt (by omega)
    simp only [e]
    rw [low k (by omega) hk, low (k + 1) (by omega) (by omega)]
    exact h.lower.left k (by omega) q hq
  · obtain ⟨j, rfl⟩ : ∃ j, k = L.length - 1 + j := ⟨k - (L.length - 1), by omega⟩
    have u1 := up j (by omega)
    have u2 := up (j + 1) (by omega)
    have e : (L.length - 1 + j) % (L.dropLast ++ U.dropLast).length = L.length - 1 + j :=
      Nat.mod_eq_of_lt (by omega)
    simp only [e] at u1
    rw [u1]
    simp only [← add_assoc] at u2
    rw [u2]
    exact h.upLeft j (by omega) q hq

theorem TwoHalves.turn (h : TwoHalves S L U lo hi) (hnc : ∃ x ∈ S, ∃ y ∈ S, ∃ z ∈ S, pdet x y z ≠ 0)
    (k : ℕ) (hk : k < (L.dropLast ++ U.dropLast).length) :
    0 < pdet ((L.dropLast ++ U.dropLast)[k])
      ((L.dropLast ++ U.dropLast)[(k + 1) % (L.dropLast ++ U.dropLast).length]'(Nat.mod_lt _ (by omega)))
      ((L.dropLast ++ U.dropLast)[(k + 2) % (L.dropLast ++ U.dropLast).length]'(Nat.mod_lt _ (by omega))) := by
  have hL2 := h.L2
  have hU2 := h.U2
  obtain ⟨hlen, low, up⟩ := dropLast_append_get L U h.L2 h.U2 (h.Ll.trans h.U0.symm) (h.Ul.trans h.L0.symm)
  -- junctions
  have junction : ∀ (a m b : K × K), a ∈ S → b ∈ S → (Pos (m.1 - a.1) (m.2 - a.2) ∧ Pos (m.1 - b.1) (m.2 - b.2) ∨
      Pos (a.1 - m.1) (a.2 - m.2) ∧ Pos (b.1 - m.1) (b.2 - m.2)) → (∀ q ∈ S, 0 ≤ pdet a m q) →
      (∀ q ∈ S, 0 ≤ pdet m b q) → 0 < pdet a m b := by
    intro a m b ha hb hpos hl1 hl2
    rcases lt_or_eq_of_le (hl1 b hb) with h1 | h1
    · exact h1
    exfalso
    obtain ⟨x, hx, y, hy, z, hz, hne⟩ := hnc
    apply hne
    rcases hpos with ⟨hu, hw⟩ | ⟨hu, hw⟩
    · have key : ∀ q ∈ S, (m.1 - a.1) * (q.2 - m.2) - (m.2 - a.2) * (q.1 - m.1) = 0 := by
        intro q hq
        have g1 := hl1 q hq
        have g2 := hl2 q hq
        unfold pdet at g1 g2 h1
        rcases lt_or_eq_of_le (show 0 ≤ (m.1 - a.1) * (q.2 - m.2) - (m.2 - a.2) * (q.1 - m.1) by linarith)
          with h2 | h2
        · have := par_pos hu hw (by linarith) h2
          linarith
        · exact h2.symm
      exact collinear_of_dir hu (key x hx) (key y hy) (key z hz)
    · have key : ∀ q ∈ S, (b.1 - m.1) * (q.2 - m.2) - (b.2 - m.2) * (q.1 - m.1) = 0 := by
        intro q hq
        have g1 := hl1 q hq
        have g2 := hl2 q hq
        unfold pdet at g1 g2 h1
        rcases lt_or_eq_of_le (show 0 ≤ (b.1 - m.1) * (q.2 - m.2) - (b.2 - m.2) * (q.1 - m.1) by linarith)
          with h2 | h2
        · have := par_pos hw hu (by linarith) h2
          linarith
        · exact h2.symm
      exact collinear_of_dir hw (key x hx) (key y hy) (key z hz)
  have hmL : ∀ i (hi : i < L.length), L[i] ∈ S := fun i hi => h.memL _ (List.getElem_mem _)
  have hmU : ∀ i (hi : i < U.length), U[i] ∈ S := fun i hi => h.memU _ (List.getElem_mem _)
  rcases Nat.lt_or_ge (k + 2) L.length with h1 | h1
  · -- inside the lower half
    have e1 : (k + 1) % (L.dropLast ++ U.dropLast).length = k + 1 := Nat.mod_eq_of_lt (by omega)
    have e2 : (k + 2) % (L.dropLast ++ U.dropLast).length = k + 2 := Nat.mod_eq_of_lt (by omega)
    simp only [e1, e2]
    rw [low k (by omega) hk, low (k + 1) (by omega) (by omega), low (k + 2) (by omega) (by omega)]
    exact h.lower.turn k (by omega)
  rcases Nat.lt_or_ge k (L.length - 1) with h2 | h2
  · -- at the largest point
    have hk' : k + 1 = L.length - 1 := by omega
    have u1 := up 1 (by omega)
    have e1 : (k + 1) % (L.dropLast ++ U.dropLast).length = k + 1 := Nat.mod_eq_of_lt (by omega)
    have e2 : L.length - 1 + 1 = k + 2 := by omega
    simp only [e2] at u1
    simp only [e1]
    rw [u1, low k (by omega) hk, low (k + 1) (by omega) (by omega)]
    have hi1 : L[k + 1] = U[0] := by
      have := h.Ll.trans h.U0.symm
      simp only [hk']
      exact this
    apply junction _ _ _ (hmL _ _) (hmU _ _)
    · left
      refine ⟨pairLt_pos.1 (h.lower.lt k (by omega)), ?_⟩
      rw [hi1]
      exact pairLt_pos.1 (h.upLt 0 (by omega))
    · exact h.lower.left k (by omega)
    · intro q hq
      rw [hi1]
      exact h.upLeft 0 (by omega) q hq
  · obtain ⟨j, rfl⟩ : ∃ j, k = L.length - 1 + j := ⟨k - (L.length - 1), by omega⟩
    have u0 := up j (by omega)
    have e : (L.length - 1 + j) % (L.dropLast ++ U.dropLast).length = L.length - 1 + j :=
      Nat.mod_eq_of_lt (by omega)
    simp only [e] at u0
    have u1 := up (j + 1) (by omega)
    simp only [← add_assoc] at u1
    rw [u0, u1]
    rcases Nat.lt_or_ge (j + 2) U.length with h3 | h3
    · have u2 := up (j + 2) h3
      simp only [← add_assoc] at u2
      rw [u2]
      exact h.upTurn j h3
    · -- at the smallest point
      have hj : j + 1 = U.length - 1 := by omega
      have e2 : (L.length - 1 + j + 2) % (L.dropLast ++ U.dropLast).length = 1 := by
        have : L.length - 1 + j + 2 = (L.dropLast ++ U.dropLast).length + 1 := by omega
        rw [this, Nat.add_mod_left]
        exact Nat.mod_eq_of_lt (by omega)
      simp only [e2]
      rw [low 1 (by omega) (by omega)]
      have hl1 : U[j + 1] = L[0] := by
        have := h.Ul.trans h.L0.symm
        simp only [hj]
        exact this
      apply junction _ _ _ (hmU _ _) (hmL _ _)
      · right
        refine ⟨pairLt_pos.1 (h.upLt j (by omega)), ?_⟩
        rw [hl1]
        exact pairLt_pos.1 (h.lower.lt 0 (by omega))
      · exact h.upLeft j (by omega)
      · intro q hq
        rw [hl1]
        exact h.lower.left 0 (by omega) q hq

end

variable [FloorRing K]

theorem hullHalf_neg {R : Rt K} (hE : ∀ o a b, R.hullCross o a b = pdet o a b) (ps : List (K × K)) :
    R.hullHalf (ps.map pneg) = (R.hullHalf ps).map pneg := by
  have hpop : ∀ (p : K × K) (l : List (K × K)),
      R.hullPop (pneg p) (l.map pneg) = (R.hullPop p l).map pneg := by
    intro p l
    induction l with
    | nil => rfl
    | cons a l ih =>
      cases l with
      | nil => rfl
      | cons o l =>
        simp only [List.map_cons, Rt.hullPop, hE, pdet_neg] at ih ⊢
        split_ifs
        · exact ih
        · rfl
  have hfold : ∀ (ps st : List (K × K)), (ps.map pneg).foldl (fun st p => p :: R.hullPop p st) (st.map pneg) =
      (ps.foldl (fun st p => p :: R.hullPop p st) st).map pneg := by
    intro ps
    induction ps with
    | nil => intro st; rfl
    | cons p ps ih =>
      intro st
      simp only [List.map_cons, List.foldl_cons]
      rw [hpop, ← List.map_cons, ih]
  exact hfold ps []

instance : Std.Total (pairLe (K := K)) := ⟨fun p q => by
  unfold pairLe
  rcases lt_trichotomy p.1 q.1 with h | h | h
  · exact Or.inl (Or.inl h)
  · rcases le_total p.2 q.2 with h' | h'
    · exact Or.inl (Or.inr ⟨h, h'⟩)
    · exact Or.inr (Or.inr ⟨h.symm, h'⟩)
  · exact Or.inr (Or.inl h)⟩

instance : IsTrans (K × K) pairLe := ⟨fun p q r h1 h2 => by
  unfold pairLe at *
  rcases h1 with h1 | ⟨h1, h1'⟩ <;> rcases h2 with h2 | ⟨h2, h2'⟩
  · left; linarith
  · left; linarith
  · left; linarith
  · right; exact ⟨by linarith, by linarith⟩⟩

instance : Std.Antisymm (pairLe (K := K)) := ⟨fun p q h1 h2 => by
  unfold pairLe at *
  rcases h1 with h1 | ⟨h1, h1'⟩ <;> rcases h2 with h2 | ⟨h2, h2'⟩
  · linarith
  · linarith
  · linarith
  · exact Prod.ext h1 (le_antisymm h1' h2')⟩

theorem hullSorted_mem (ps : List (K × K)) (q : K × K) : q ∈ hullSorted ps ↔ q ∈ ps := by
  unfold hullSorted
  rw [(List.perm_insertionSort _ _).mem_iff, List.mem_dedup]

theorem hullSorted_pairwise (ps : List (K × K)) : (hullSorted ps).Pairwise pairLt := by
  have h1 := List.pairwise_insertionSort pairLe ps.dedup
  have h2 : (hullSorted ps).Nodup := (List.perm_insertionSort _ _).nodup_iff.2 (List.nodup_dedup _)
  have h3 := List.Pairwise.and h1 h2
  refine h3.imp ?_
  rintro a b ⟨h, hne⟩
  unfold pairLe at h
  unfold pairLt
  rcases h with h | ⟨h, h'⟩
  · exact Or.inl h
  · right; exact ⟨h, lt_of_le_of_ne h' fun e => hne (Prod.ext h e)⟩

theorem last_get {α : Type} {l : List α} {a : α} (h : l.getLast? = some a) (hl : 0 < l.length) :
    l[l.length - 1] = a := by
  rw [List.getLast?_eq_getElem?] at h
  exact (List.getElem?_eq_some_iff.1 h).2

theorem head_get {α : Type} {l : List α} {a : α} (h : l.head? = some a) (hl : 0 < l.length) : l[0] = a := by
  cases l with
  | nil => simp at hl
  | cons b l => simpa using h

/-- the halves computed by `convex_hull` -/
theorem twoHalves {R : Rt K} (hE : ∀ o a b, R.hullCross o a b = pdet o a b) (ps : List (K × K)) (h2 : 2 ≤ (hullSorted ps).length) :
    ∃ lo hi, TwoHalves (hullSorted ps) (R.hullHalf (hullSorted ps)).reverse
      (R.hullHalf (hullSorted ps).reverse).reverse lo hi ∧ (hullSorted ps).head? = some lo := by
  have hs := hullSorted_pairwise ps
  set S := hullSorted ps with hS
  obtain ⟨a, t, hat⟩ : ∃ a t, S = a :: t := by
    cases hc : S with
    | nil => rw [hc] at h2; simp at h2
    | cons a t => exact ⟨a, t, rfl⟩
  obtain ⟨m, hm⟩ : ∃ m, S.getLast? = some m := ⟨_, List.getLast?_eq_some_getLast (by rw [hat]; simp)⟩
  have hmS := List.mem_of_getLast? hm
  have haS : a ∈ S := by rw [hat]; simp
  have ham : a ≠ m := by
    have h1 := List.pairwise_iff_getElem.1 hs 0 (S.length - 1) (by omega) (by omega) (by omega)
    rw [last_get hm (by omega), head_get (a := a) (by rw [hat]; rfl) (by omega)] at h1
    exact pairLt.ne h1
  have low := hullHalf_inv hE a t (by rw [← hat]; exact hs)
  rw [← hat] at low
  obtain ⟨l1, l2, l3, l4⟩ := low
  rw [hm] at l4
  -- the upper half, reflected
  have hsn : (S.reverse.map pneg).Pairwise pairLt := by
    rw [List.pairwise_map, List.pairwise_reverse]
    exact hs.imp fun h => pairLt_neg.2 h
  obtain ⟨b, u, hbu⟩ : ∃ b u, S.reverse.map pneg = b :: u := by
    cases hc : S.reverse.map pneg with
    | nil =>
      have := congrArg List.length hc
      simp at this
      rw [this] at h2; simp at h2
    | cons b u => exact ⟨b, u, rfl⟩
  have up := hullHalf_inv hE b u (by rw [← hbu]; exact hsn)
  rw [← hbu, hullHalf_neg hE] at up
  obtain ⟨u1, u2, u3, u4⟩ := up
  have hb : b = pneg m := by
    have : (S.reverse.map pneg).head? = some (pneg m) := by
      rw [List.head?_map, List.head?_reverse, hm]; rfl
    rw [hbu] at this
    simpa using this
  have hlast : (S.reverse.map pneg).getLast? = some (pneg a) := by
    rw [List.getLast?_map, List.getLast?_reverse, hat]; rfl
  rw [hlast] at u4
  rw [List.getLast?_map, hb] at u3
  rw [List.head?_map] at u4
  have inj : Function.Injective (pneg (K := K)) := fun x y e => by
    rw [← pneg_pneg x, e, pneg_pneg]
  have u3' : (R.hullHalf S.reverse).getLast? = some m := by
    cases hc : (R.hullHalf S.reverse).getLast? with
    | none => rw [hc] at u3; simp at u3
    | some x => rw [hc] at u3; simp only [Option.map_some, Option.some.injEq] at u3; rw [inj u3]
  have u4' : (R.hullHalf S.reverse).head? = some a := by
    cases hc : (R.hullHalf S.reverse).head? with
    | none => rw [hc] at u4; simp at u4
    | some x => rw [hc] at u4; simp only [Option.map_some, Option.some.injEq] at u4; rw [inj u4]
  have two : ∀ (l : List (K × K)) (x y : K × K), l.head? = some x → l.getLast? = some y → x ≠ y →
      2 ≤ l.length := by
    intro l x y hx hy hne
    match l with
    | [] => simp at hx
    | [z] => simp only [List.head?_cons, List.getLast?_singleton, Option.some.injEq] at hx hy; exact absurd (hx.symm.trans hy) hne
    | z :: w :: l => simp
  have hL2 := two _ _ _ l4 l3 ham.symm
  have hU2 := two _ _ _ u4' u3' ham
  refine ⟨a, m, ⟨HullInv.halfOK _ l1, ?_, ?_, ?_, ?_, ?_, ?_, ?_, ?_, ?_⟩, by rw [hat]; rfl⟩
  · have := HullInv.halfOK _ u1
    rw [List.map_reverse]
    refine ⟨this.lt, ?_, this.turn⟩
    intro k hk q hq
    apply this.left k hk q
    rw [List.mem_map] at hq ⊢
    obtain ⟨r, hr, e⟩ := hq
    exact ⟨r, by simpa using hr, e⟩
  · intro q hq; exact l2 q (by simpa using hq)
  · intro q hq
    have := u2 (pneg q) (List.mem_map_of_mem (by simpa using hq))
    rw [List.mem_map] at this
    obtain ⟨r, hr, e⟩ := this
    rw [← inj e]; simpa using hr
  · simpa using hL2
  · simpa using hU2
  · exact head_get (by rw [List.head?_reverse, l3]) (by simp; omega)
  · exact last_get (by rw [List.getLast?_reverse, l4]) (by simp; omega)
  · exact head_get (by rw [List.head?_reverse, u3']) (by simp; omega)
  · exact last_get (by rw [List.getLast?_reverse, u4']) (by simp; omega)

end Srep
