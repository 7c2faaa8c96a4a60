import Verif.Model.Collinear
import Verif.Lemmas.RingOrder
import Verif.Props.Build
import Verif.Lemmas.HeapExt
import Verif.Spec.Example

/-! # C108: removal of collinear points -/

set_option linter.unusedSectionVars false

namespace Srep
variable {K : Type} [Field K] [LinearOrder K] [IsStrictOrderedRing K] [FloorRing K] {R : Rt K}

/-- the test by which `remove_collinear_points` drops a point `p` between `a` and `b` -/
def Rt.dropTest (R : Rt K) (a p b : Pt K) : Bool := R.isOnLine ⟨a, b, .line⟩ p

theorem perm_filter_single {α : Type} {l m : List α} {a : α} (hp : l.Perm m) {f : α → Bool} (h : m.filter f = [a]) : l.filter f = [a] := by
  have := hp.filter f
  rw [h] at this
  exact List.perm_singleton.1 this

/-- one vertex of a ring and the segments next to it -/
theorem ring_around {h : Heap K} {d : List ℕ} {a p b : Pt K} {rest : List (Pt K)} (hd : RingAt h d (a :: p :: b :: rest)) :
    ∃ s1 s2 c, d = s1 :: s2 :: c ∧ ((h.val s1).i = a ∧ (h.val s1).j = p) ∧ ((h.val s2).i = p ∧ (h.val s2).j = b) ∧
      (c.map fun s => ((h.val s).i, (h.val s).j)) = (b :: rest).zip (rest ++ [a]) := by
  unfold RingAt at hd
  have e : (a :: p :: b :: rest).zip ((a :: p :: b :: rest).rotate 1) = (a, p) :: (p, b) :: (b :: rest).zip (rest ++ [a]) := by
    simp
  rw [e] at hd
  match d, hd with
  | s1 :: s2 :: c, hd =>
    simp only [List.map_cons, List.cons.injEq, Prod.mk.injEq] at hd
    exact ⟨s1, s2, c, rfl, hd.1, hd.2.1, hd.2.2⟩

/-- what the loop finds at a vertex: its neighbours, and the segments that stay -/
theorem loop_around (hR : R.IsRounding) {h : Heap K} {c l : List ℕ} {vs : List (Pt K)} (hc : RingAt h c vs) (hn : vs.Nodup)
    (hp : l.Perm c) (hap : Apart R.tol {p | p ∈ vs}) {a p b : Pt K} {rest : List (Pt K)} (hr : vs ~r a :: p :: b :: rest) :
    ∃ x y e, R.neighbourRefs h l p = [x, y] ∧ h.pt x = a ∧ h.pt y = b ∧ (∀ s ∈ e, s ∈ l) ∧
      (l.filter fun s => !R.inSegs h s (R.segsAt h l p)).Perm e ∧
      (e.map fun s => ((h.val s).i, (h.val s).j)) = (b :: rest).zip (rest ++ [a]) := by
  obtain ⟨d, hcd, hd⟩ := hc.rotated hr
  have hsep := sep_of_apart hR hap
  have hnr := (hr.nodup_iff).1 hn
  have hdn := hd.nodup hnr
  obtain ⟨s1, s2, e, rfl, ⟨i1, j1⟩, ⟨i2, j2⟩, he⟩ := ring_around hd
  have hld : l.Perm (s1 :: s2 :: e) := hp.trans hcd.perm
  obtain ⟨⟨ma, mp, mb⟩, d1, d2, d3⟩ := around_distinct hn hr
  have hpe : ∀ x ∈ vs, R.peq x p = true ↔ x = p := fun x hx => ⟨fun h => hsep x hx p mp h, fun h => by rw [h]; exact hR.peq_refl p⟩
  have hpe' : ∀ x ∈ vs, R.peq p x = true ↔ x = p := fun x hx => ⟨fun h => (hsep p mp x hx h).symm, fun h => by rw [h]; exact hR.peq_refl p⟩
  have mrest : ∀ x ∈ b :: rest, x ∈ vs ∧ x ≠ p := fun x hx => ⟨(hr.mem_iff).2 (by simp only [List.mem_cons] at hx ⊢; tauto), by
    rintro rfl; simp only [List.nodup_cons, List.mem_cons] at hnr; simp only [List.mem_cons] at hx; tauto⟩
  have mrest' : ∀ x ∈ rest ++ [a], x ∈ vs ∧ x ≠ p := by
    intro x hx
    rcases List.mem_append.1 hx with h | h
    · exact mrest x (by simp [h])
    · simp only [List.mem_singleton] at h
      rw [h]
      exact ⟨ma, d1⟩
  have hes : ∀ s ∈ e, ((h.val s).i ∈ vs ∧ (h.val s).i ≠ p) ∧ ((h.val s).j ∈ vs ∧ (h.val s).j ≠ p) := by
    intro s hs
    have : ((h.val s).i, (h.val s).j) ∈ (b :: rest).zip (rest ++ [a]) := by
      rw [← he]; exact List.mem_map.2 ⟨s, hs, rfl⟩
    obtain ⟨h1, h2⟩ := List.of_mem_zip this
    exact ⟨mrest _ h1, mrest' _ h2⟩
  -- segments at the vertex
  have o1 : R.onEnds p (h.val s1) = true := by simp [Rt.onEnds, i1, j1, hR.peq_refl]
  have o2 : R.onEnds p (h.val s2) = true := by simp [Rt.onEnds, i2, j2, hR.peq_refl]
  have oe : ∀ s ∈ e, R.onEnds p (h.val s) = false := by
    intro s hs
    obtain ⟨⟨h1, h2⟩, h3, h4⟩ := hes s hs
    have g1 : R.peq (h.val s).i p = false := by rw [← Bool.not_eq_true, hpe _ h1]; exact h2
    have g2 : R.peq (h.val s).j p = false := by rw [← Bool.not_eq_true, hpe _ h3]; exact h4
    simp [Rt.onEnds, g1, g2]
  have hsa : (R.segsAt h l p).Perm [s1, s2] := by
    have h0 := hld.filter fun s => R.onEnds p (h.val s)
    have h1 : (s1 :: s2 :: e).filter (fun s => R.onEnds p (h.val s)) = [s1, s2] := by
      simp only [List.filter_cons, o1, o2, if_true, List.cons.injEq, true_and]
      exact List.filter_eq_nil_iff.2 (fun s hs => by simp [oe s hs])
    rw [h1] at h0
    exact h0
  have qa : R.peq a p = false := by rw [← Bool.not_eq_true, hpe a ma]; exact d1
  have qb : R.peq b p = false := by rw [← Bool.not_eq_true, hpe b mb]; exact d2.symm
  have f1 : (R.segsAt h l p).filter (fun s => !R.peq (h.val s).i p) = [s1] :=
    perm_filter_single hsa (by simp [i1, i2, qa, hR.peq_refl])
  have f2 : (R.segsAt h l p).filter (fun s => !R.peq (h.val s).j p) = [s2] :=
    perm_filter_single hsa (by simp [j1, j2, qb, hR.peq_refl])
  refine ⟨(h.seg s1).i, (h.seg s2).j, e, ?_, i1, j2, fun s hs => hld.mem_iff.2 (by simp [hs]), ?_, he⟩
  · unfold Rt.neighbourRefs
    rw [f1, f2]
    rfl
  · have hin : ∀ s, R.inSegs h s (R.segsAt h l p) = true ↔ ∃ y ∈ [s1, s2], y = s ∨ R.seq (h.val y) (h.val s) = true := by
      intro s
      unfold Rt.inSegs
      rw [List.any_eq_true]
      constructor
      · rintro ⟨y, hy, h'⟩
        exact ⟨y, hsa.mem_iff.1 hy, by simpa using h'⟩
      · rintro ⟨y, hy, h'⟩
        exact ⟨y, hsa.mem_iff.2 hy, by simpa using h'⟩
    have g1 : R.inSegs h s1 (R.segsAt h l p) = true := (hin s1).2 ⟨s1, by simp, Or.inl rfl⟩
    have g2 : R.inSegs h s2 (R.segsAt h l p) = true := (hin s2).2 ⟨s2, by simp, Or.inl rfl⟩
    have g3 : ∀ s ∈ e, R.inSegs h s (R.segsAt h l p) = false := by
      intro s hs
      rw [← Bool.not_eq_true, hin]
      obtain ⟨⟨h1, h2⟩, h3, h4⟩ := hes s hs
      simp only [List.nodup_cons, List.mem_cons, not_or] at hdn
      rintro ⟨y, hy, h'⟩
      simp only [List.mem_cons, List.not_mem_nil, or_false] at hy
      rcases hy with rfl | rfl
      · rcases h' with rfl | h'
        · exact hdn.1.2 hs
        · unfold Rt.seq at h'
          simp only [Bool.and_eq_true, j1] at h'
          exact h4 ((hpe' _ h3).1 h'.2)
      · rcases h' with rfl | h'
        · exact hdn.2.1 hs
        · unfold Rt.seq at h'
          simp only [Bool.and_eq_true, i2] at h'
          exact h2 ((hpe' _ h1).1 h'.1.2)
    have h0 := hld.filter fun s => !R.inSegs h s (R.segsAt h l p)
    have h1 : (s1 :: s2 :: e).filter (fun s => !R.inSegs h s (R.segsAt h l p)) = e := by
      simp only [List.filter_cons, g1, g2, Bool.not_true, Bool.false_eq_true, if_false]
      exact List.filter_eq_self.2 (fun s hs => by simp [g3 s hs])
    rw [h1] at h0
    exact h0

/-- the loop of `remove_collinear_points` thins the ring -/
theorem removeLoop_spec (hR : R.IsRounding) (ps : List (Pt K)) : ∀ (h : Heap K) (c l : List ℕ) (vs : List (Pt K)),
    RingAt h c vs → vs.Nodup → vs.length < 250 → l.Perm c → (∀ s ∈ l, s < h.nseg) → Apart R.tol {p | p ∈ vs} → ps.Nodup →
    (∀ p ∈ ps, p ∈ vs) → 3 ≤ (thin R.dropTest ps vs).length →
    ∃ g m d, R.removeLoop h l ps = .ok (g, m) ∧ m.Perm d ∧ RingAt g d (thin R.dropTest ps vs) ∧ (l ~r c → m ~r d) ∧
      g.pt = h.pt ∧ g.npt = h.npt ∧ h.nseg ≤ g.nseg ∧ (∀ s < h.nseg, g.seg s = h.seg s) ∧
      ∀ s ∈ m, s < g.nseg ∧ (s ∈ l ∨ (h.nseg ≤ s ∧ (g.seg s).cls = .line)) := by
  induction ps with
  | nil =>
    intro h c l vs hc hn _ hp hal _ _ _ _
    exact ⟨h, l, c, rfl, hp, hc, id, rfl, rfl, le_rfl, fun _ _ => rfl, fun s hs => ⟨hal s hs, Or.inl hs⟩⟩
  | cons p ps ih =>
    intro h c l vs hc hn h250 hp hal hap hpn hps h3
    rw [thin_cons] at h3 ⊢
    have hpm := hps p (by simp)
    have hpn' := List.nodup_cons.1 hpn
    have hvl : 3 ≤ vs.length := by
      refine h3.trans ((thin_length_le _ _ _).trans ?_)
      split
      · rw [List.length_erase_of_mem hpm]; omega
      · exact le_rfl
    obtain ⟨a, b, rest, hr⟩ := exists_around hpm hvl
    obtain ⟨x, y, e, hnb, hx, hy, hel, hfil, he⟩ := loop_around hR hc hn hp hap hr
    have hfl := flatAt_around (T := R.dropTest) hn hr
    unfold Rt.removeLoop
    rw [hnb]
    dsimp only
    rw [hx, hy]
    by_cases hT : R.dropTest a p b = true
    · rw [hfl, if_pos hT] at h3 ⊢
      rw [if_pos (show R.isOnLine ⟨a, b, .line⟩ p = true from hT)]
      set g := (h.newSeg x y).1 with hg
      have hgs : ∀ s < h.nseg, g.seg s = h.seg s := fun s hs => by simp [hg, Heap.newSeg, hs.ne]
      have hgv : ∀ s < h.nseg, g.val s = h.val s := fun s hs => by
        unfold Heap.val
        rw [hgs s hs]
        rfl
      have hgn : g.nseg = h.nseg + 1 := rfl
      have hnew : (g.val h.nseg).i = a ∧ (g.val h.nseg).j = b := by
        simp [hg, Heap.newSeg, Heap.val, hx, hy]
      have hnewc : (g.seg h.nseg).cls = .line := by simp [hg, Heap.newSeg]
      have hring : RingAt g (h.nseg :: e) (a :: b :: rest) := by
        unfold RingAt
        have e2 : (a :: b :: rest).zip ((a :: b :: rest).rotate 1) = (a, b) :: (b :: rest).zip (rest ++ [a]) := by simp
        rw [e2, List.map_cons, hnew.1, hnew.2, ← he]
        congr 1
        apply List.map_congr_left
        intro s hs
        rw [hgv s (hal s (hel s hs))]
      have her := erase_around hn hr
      have hne := hn.erase p
      have hlen3 : 3 ≤ (vs.erase p).length := h3.trans (thin_length_le _ _ _)
      have hsub : ∀ q ∈ vs.erase p, q ∈ vs := fun q hq => List.mem_of_mem_erase hq
      have hap2 : Apart R.tol {q | q ∈ vs.erase p} := fun q hq r hr => hap q (hsub q hq) r (hsub r hr)
      obtain ⟨c', hcc, hc'⟩ := hring.rotated her.symm
      have hperm : ((l.filter fun s => !R.inSegs h s (R.segsAt h l p)) ++ [(h.newSeg x y).2]).Perm c' := by
        refine List.Perm.trans ?_ hcc.perm
        refine (List.perm_append_comm).trans ?_
        exact List.Perm.cons _ hfil
      have hlt : (vs.erase p).length < 250 := lt_of_le_of_lt (List.length_erase_le) h250
      obtain ⟨m, ho, hm⟩ := order_ring hR hc' hne hlen3 hlt hperm hap2 false
      rw [ho]
      dsimp only
      have hmem : ∀ s ∈ m, s ∈ l ∨ s = h.nseg := by
        intro s hs
        have : s ∈ h.nseg :: e := hcc.mem_iff.2 ((hm.mem_iff).1 hs)
        rcases List.mem_cons.1 this with rfl | h'
        · exact Or.inr rfl
        · exact Or.inl (hel s h')
      obtain ⟨g', m', d, r1, r2, r3, r4, r5, r6, r7, r8, r9⟩ := ih g c' m (vs.erase p) hc' hne hlt hm.perm
        (fun s hs => by
          rw [hgn]
          rcases hmem s hs with h' | rfl
          · exact Nat.lt_succ_of_lt (hal s h')
          · exact Nat.lt_succ_self _)
        hap2 hpn'.2 (fun q hq => (hn.mem_erase_iff).2 ⟨fun e => hpn'.1 (e ▸ hq), hps q (by simp [hq])⟩) h3
      refine ⟨g', m', d, r1, r2, r3, fun _ => r4 hm, r5, r6, by omega, fun s hs => by rw [r8 s (by omega), hgs s hs], fun s hs => ?_⟩
      obtain ⟨q1, q2⟩ := r9 s hs
      refine ⟨q1, ?_⟩
      rcases q2 with h' | ⟨h', h''⟩
      · rcases hmem s h' with h' | rfl
        · exact Or.inl h'
        · refine Or.inr ⟨le_rfl, ?_⟩
          rw [r8 _ (by omega)]
          exact hnewc
      · exact Or.inr ⟨by omega, h''⟩
    · rw [hfl, if_neg hT] at h3 ⊢
      rw [if_neg (show ¬ R.isOnLine ⟨a, b, .line⟩ p = true from hT)]
      exact ih h c l vs hc hn h250 hp hal hap hpn'.2 (fun q hq => hps q (by simp [hq])) h3

/-- C108 (what it does): for every rounding and every listing of the segments of a closed directed polygon, the result is a
closed polygon of new objects through the vertices that remain when each vertex is looked at once; segments between two
vertices that were neighbours keep their class, the others are plain ones; the original and everything else in memory stays as
it is. -/
theorem C108_process (hR : R.IsRounding) (h : Heap K) (P : PLine) {c : List ℕ} {vs : List (Pt K)} (hc : RingAt h c vs) (hp : P.segs.Perm c)
    (hal : ∀ s ∈ P.segs, h.Has s) (hn : vs.Nodup) (hap : Apart R.tol {p | p ∈ vs}) (h250 : vs.length < 250)
    (h3 : 3 ≤ (thin R.dropTest (P.segs.map fun s => (h.val s).i) vs).length) :
    ∃ g Q d, R.removeCollinear h P = .ok (g, Q) ∧ Q.segs.Perm d ∧ RingAt g d (thin R.dropTest (P.segs.map fun s => (h.val s).i) vs) ∧
      (P.segs ~r c → Q.segs ~r d) ∧ h.Ext g ∧ Q.purged = P.purged ∧
      ∀ s ∈ Q.segs, h.nseg ≤ s ∧ (g.val s ∈ h.vals P.segs ∨ (g.val s).cls = .line) := by
  have hcm : ∀ s ∈ c, s < h.nseg ∧ (h.seg s).i < h.npt ∧ (h.seg s).j < h.npt := fun s hs => by
    obtain ⟨h1, h2, h3⟩ := hal s (hp.mem_iff.2 hs)
    exact ⟨h1, h2, h3⟩
  have hcopy : ∀ s ∈ c, h.deepcopy.val (s + h.nseg) = h.val s := fun s hs => (deepcopy_val h s (hcm s hs).1 (hcm s hs).2).2
  have hring : RingAt h.deepcopy (c.map (· + h.nseg)) vs := by
    unfold RingAt at *
    rw [← hc, List.map_map]
    apply List.map_congr_left
    intro s hs
    simp only [Function.comp, hcopy s hs]
  have hst : (c.map fun s => (h.val s).i) = vs := hc.starts
  have hps : (P.segs.map fun s => (h.val s).i).Perm vs := by
    rw [← hst]; exact hp.map _
  obtain ⟨g, m, d, r1, r2, r3, r4, r5, r6, r7, r8, r9⟩ := removeLoop_spec hR _ h.deepcopy (c.map (· + h.nseg)) (P.segs.map (· + h.nseg)) vs hring hn
    h250 (hp.map _) (fun s hs => by
      obtain ⟨t, ht, rfl⟩ := List.mem_map.1 hs
      have := (hal t ht).seg
      show t + h.nseg < h.nseg + h.nseg
      omega) hap (hps.nodup_iff.2 hn) (fun p hp => hps.mem_iff.1 hp) h3
  have hext : h.Ext g := by
    have h1 := Heap.ext_deepcopy h
    refine ⟨by rw [r6]; exact h1.npt, h1.nseg.trans r7, fun p hp => by rw [r5]; exact h1.pt p hp, fun s hs => ?_⟩
    rw [r8 s (lt_of_lt_of_le hs h1.nseg)]
    exact h1.seg s hs
  refine ⟨g, { P with segs := m }, d, ?_, r2, r3, fun hr => r4 (hr.map _), hext, rfl, fun s hs => ?_⟩
  · unfold Rt.removeCollinear
    rw [r1]
  · obtain ⟨-, q⟩ := r9 s hs
    rcases q with q | ⟨q1, q2⟩
    · obtain ⟨t, ht, rfl⟩ := List.mem_map.1 q
      refine ⟨by omega, Or.inl ?_⟩
      have hlt : t + h.nseg < h.deepcopy.nseg := by
        have := (hal t ht).seg
        show t + h.nseg < h.nseg + h.nseg
        omega
      have e : g.val (t + h.nseg) = h.deepcopy.val (t + h.nseg) := by
        unfold Heap.val
        rw [r8 _ hlt, r5]
      rw [e, hcopy t (hp.mem_iff.1 ht)]
      exact List.mem_map.2 ⟨t, ht, rfl⟩
    · refine ⟨?_, Or.inr q2⟩
      have : h.deepcopy.nseg = h.nseg + h.nseg := rfl
      omega

/-- the test is the one for three points on a line, up to 1e-8 in the cross product -/
theorem dropTest_iff (hE : R.IsExact) {a p b : Pt K} {vs : List (Pt K)} (hap : Apart R.tol {p | p ∈ vs}) (ha : a ∈ vs) (hp : p ∈ vs)
    (hb : b ∈ vs) (h1 : a ≠ p) (h2 : p ≠ b) : R.dropTest a p b = true ↔ |det3 a p b| < 1 / 10 ^ 8 := by
  have hsep := sep_of_apart hE.isRounding hap
  unfold Rt.dropTest
  rw [hE.isOnLine_iff]
  have e : det3 a b p = -det3 a p b := by unfold det3; ring
  dsimp only
  rw [e, abs_neg]
  constructor
  · rintro (h | h | h)
    · exact absurd (hsep p hp a ha h).symm h1
    · exact absurd (hsep p hp b hb h) h2
    · exact h
  · intro h
    exact Or.inr (Or.inr h)

/-- C108 (area): every vertex left out changes twice the area by less than 1e-8. -/
theorem C108_area (hE : R.IsExact) {ps vs : List (Pt K)} (hn : vs.Nodup) (hap : Apart R.tol {p | p ∈ vs})
    (h3 : 3 ≤ (thin R.dropTest ps vs).length) :
    |shoelace vs - shoelace (thin R.dropTest ps vs)| ≤ ((vs.length : K) - (thin R.dropTest ps vs).length) * (1 / 10 ^ 8) :=
  thin_area ps vs hn (fun _ ha _ hp _ hb h1 h2 _ hT => ((dropTest_iff hE hap ha hp hb h1 h2).1 hT).le) h3

/-- C108 (corners): if three vertices with a cross product below 1e-8 are on a line, which for example holds if the coordinates
have at most four decimals, and not all vertices are on one line, then exactly the corners remain, in the same order. -/
theorem C108_corners (hE : R.IsExact) {ps vs : List (Pt K)} (hn : vs.Nodup) (hap : Apart R.tol {p | p ∈ vs}) (hps : ps.Perm vs)
    (hd : ∀ a ∈ vs, ∀ p ∈ vs, ∀ b ∈ vs, |det3 a p b| < 1 / 10 ^ 8 → det3 a p b = 0) (hnl : ∃ a ∈ vs, ∃ b ∈ vs, ∃ c ∈ vs, det3 a b c ≠ 0) :
    3 ≤ (polyCorners vs).length ∧ thin R.dropTest ps vs = polyCorners vs ∧ shoelace (polyCorners vs) = shoelace vs := by
  obtain ⟨a, ha, b, hb, c, hc, h⟩ := hnl
  have h3 := three_corners hn ha hb hc h
  have key : thin R.dropTest ps vs = polyCorners vs := by
    refine thin_corners hn hps (fun a ha p hp b hb h1 h2 h4 => ?_) h3
    rw [Bool.eq_iff_iff, dropTest_iff hE hap ha hp hb h1 h2]
    unfold onLine
    rw [decide_eq_true_eq]
    refine ⟨hd a ha p hp b hb, fun h => ?_⟩
    rw [h, abs_zero]
    positivity
  refine ⟨h3, key, ?_⟩
  have ha := thin_area (T := R.dropTest) (e := 0) ps vs hn
    (fun a ha p hp b hb h1 h2 _ hT => by rw [hd a ha p hp b hb ((dropTest_iff hE hap ha hp hb h1 h2).1 hT), abs_zero]) (by rw [key]; exact h3)
  rw [key, mul_zero] at ha
  exact (sub_eq_zero.1 (abs_eq_zero.1 (le_antisymm ha (abs_nonneg _)))).symm

/-- coordinates with at most four decimals -/
theorem det3_coarse {a p b : Pt K} (hc : ∀ q ∈ [a, p, b], ∃ m n : ℤ, q.x = m / 10 ^ 4 ∧ q.y = n / 10 ^ 4) (h : |det3 a p b| < 1 / 10 ^ 8) :
    det3 a p b = 0 := by
  obtain ⟨m1, n1, e1, f1⟩ := hc a (by simp)
  obtain ⟨m2, n2, e2, f2⟩ := hc p (by simp)
  obtain ⟨m3, n3, e3, f3⟩ := hc b (by simp)
  have e : det3 a p b = (((m2 - m1) * (n3 - n1) - (n2 - n1) * (m3 - m1) : ℤ) : K) / 10 ^ 8 := by
    unfold det3
    rw [e1, e2, e3, f1, f2, f3]
    push_cast
    ring
  generalize (m2 - m1) * (n3 - n1) - (n2 - n1) * (m3 - m1) = z at e
  rw [e, abs_div, abs_of_pos (by positivity : (0 : K) < 10 ^ 8), div_lt_div_iff_of_pos_right (by positivity), ← Int.cast_abs] at h
  have : |z| < 1 := by exact_mod_cast h
  rw [e, Int.abs_lt_one_iff.1 this]
  simp

/-- C108 (result): for coordinates with at most four decimals the result is the closed polygon through the corners; the order and
direction are kept and so is the area. -/
theorem C108_result (hE : R.IsExact) (h : Heap K) (P : PLine) {vs : List (Pt K)} (hc : RingAt h P.segs vs) (hal : ∀ s ∈ P.segs, h.Has s)
    (hn : vs.Nodup) (hap : Apart R.tol {p | p ∈ vs}) (h250 : vs.length < 250)
    (h4 : ∀ q ∈ vs, ∃ m n : ℤ, q.x = m / 10 ^ 4 ∧ q.y = n / 10 ^ 4) (hnl : ∃ a ∈ vs, ∃ b ∈ vs, ∃ c ∈ vs, det3 a b c ≠ 0) :
    ∃ g Q ws, R.removeCollinear h P = .ok (g, Q) ∧ RingAt g Q.segs ws ∧ ws ~r polyCorners vs ∧ 3 ≤ ws.length ∧ shoelace ws = shoelace vs ∧
      g.vals P.segs = h.vals P.segs := by
  have hst : (P.segs.map fun s => (h.val s).i) = vs := hc.starts
  obtain ⟨k1, k2, k3⟩ := C108_corners hE hn hap (List.Perm.of_eq hst) (fun a ha p hp b hb => det3_coarse (fun q hq => by
    simp only [List.mem_cons, List.not_mem_nil, or_false] at hq
    rcases hq with rfl | rfl | rfl
    exacts [h4 _ ha, h4 _ hp, h4 _ hb])) hnl
  obtain ⟨g, Q, d, r1, -, r3, r4, r5, -, -⟩ := C108_process hE.isRounding h P hc (List.Perm.refl _) hal hn hap h250 (by rw [k2]; exact k1)
  rw [k2] at r3
  obtain ⟨n, hn'⟩ := (r4 (List.IsRotated.refl _)).symm
  have r6 := r3.rotate n
  rw [hn'] at r6
  have hw : (polyCorners vs).rotate n ~r polyCorners vs := List.IsRotated.forall _ _
  exact ⟨g, Q, _, r1, r6, hw, by rw [List.length_rotate]; exact k1, by rw [shoelace_rotated hw, k3], r5.vals hal⟩

/-- memory with the closed polygon through the given vertices -/
def ringHeap (l : List (Pt ℚ)) : Heap ℚ × PLine :=
  (⟨fun p => l.getD p ⟨0, 0⟩, fun s => ⟨s, (s + 1) % l.length, .line⟩, l.length, l.length⟩, ⟨List.range l.length, false⟩)

/-- C108: on a polyline that begins with a loose end (no other segment at its first point) an IndexError is raised, because
the line to the only neighbour has one end. -/
theorem C108_loose_end (h : Heap K) (P : PLine) (s : ℕ) (rest : List ℕ) (hs : P.segs = s :: rest) (hR : R.IsRounding)
    (hal : ∀ t ∈ P.segs, h.Has t) (hne : R.peq (h.val s).j (h.val s).i = false)
    (ho : ∀ t ∈ rest, R.peq (h.val t).i (h.val s).i = false ∧ R.peq (h.val t).j (h.val s).i = false) :
    R.removeCollinear h P = .error (some .index) := by
  have hcopy : ∀ t ∈ P.segs, h.deepcopy.val (t + h.nseg) = h.val t := fun t ht =>
    (deepcopy_val h t (hal t ht).seg ⟨(hal t ht).2, (hal t ht).3⟩).2
  have hseg : R.segsAt h.deepcopy (P.segs.map (· + h.nseg)) (h.val s).i = [s + h.nseg] := by
    unfold Rt.segsAt
    rw [hs, List.map_cons, List.filter_cons_of_pos, List.filter_eq_nil_iff.2]
    · intro t ht
      obtain ⟨u, hu, rfl⟩ := List.mem_map.1 ht
      unfold Rt.onEnds
      rw [hcopy u (by rw [hs]; exact List.mem_cons_of_mem _ hu), (ho u hu).1, (ho u hu).2]
      decide
    · unfold Rt.onEnds
      rw [hcopy s (by rw [hs]; exact List.mem_cons_self), hR.peq_refl]
      rfl
  have hs' : h.deepcopy.val (s + h.nseg) = h.val s := hcopy s (by rw [hs]; exact List.mem_cons_self)
  have hnb : R.neighbourRefs h.deepcopy (P.segs.map (· + h.nseg)) (h.val s).i = [(h.deepcopy.seg (s + h.nseg)).j] := by
    unfold Rt.neighbourRefs
    rw [hseg]
    simp [hs', hR.peq_refl, hne]
  unfold Rt.removeCollinear
  have e : (P.segs.map fun t => (h.val t).i) = (h.val s).i :: rest.map fun t => (h.val t).i := by rw [hs]; rfl
  rw [e, Rt.removeLoop, hnb]

/-- C108: a square with side 5e-5 is no polygon for `remove_collinear_points`: each of its corners passes for a point on a line, and
an AssertionError is raised once no neighbours are left. -/
theorem C108_small : ∃ (h : Heap ℚ) (P : PLine),
    h.vals P.segs = [⟨⟨0, 0⟩, ⟨1 / 20000, 0⟩, .line⟩, ⟨⟨1 / 20000, 0⟩, ⟨1 / 20000, 1 / 20000⟩, .line⟩,
      ⟨⟨1 / 20000, 1 / 20000⟩, ⟨0, 1 / 20000⟩, .line⟩, ⟨⟨0, 1 / 20000⟩, ⟨0, 0⟩, .line⟩] ∧
    exRt.removeCollinear h P = .error (some .assertion) := by
  refine ⟨(ringHeap [⟨0, 0⟩, ⟨1 / 20000, 0⟩, ⟨1 / 20000, 1 / 20000⟩, ⟨0, 1 / 20000⟩]).1,
    (ringHeap [⟨0, 0⟩, ⟨1 / 20000, 0⟩, ⟨1 / 20000, 1 / 20000⟩, ⟨0, 1 / 20000⟩]).2, ?_, ?_⟩
  · decide +kernel
  · have : (match exRt.removeCollinear (ringHeap [⟨0, 0⟩, ⟨1 / 20000, 0⟩, ⟨1 / 20000, 1 / 20000⟩, ⟨0, 1 / 20000⟩]).1
        (ringHeap [⟨0, 0⟩, ⟨1 / 20000, 0⟩, ⟨1 / 20000, 1 / 20000⟩, ⟨0, 1 / 20000⟩]).2 with
        | .error e => decide (e = some .assertion) | _ => false) = true := by decide +kernel
    split at this
    · rename_i e he
      rw [he, of_decide_eq_true this]
    · cases this

/-- a square with a vertex in the middle of its lower side: the vertices that remain -/
example : polyCorners ([⟨0, 0⟩, ⟨1, 0⟩, ⟨2, 0⟩, ⟨2, 2⟩, ⟨0, 2⟩] : List (Pt ℚ)) = [⟨0, 0⟩, ⟨2, 0⟩, ⟨2, 2⟩, ⟨0, 2⟩] := by decide +kernel

/-- it meets the hypotheses of `C108_process` in binary64 -/
example : RingAt (ringHeap [⟨0, 0⟩, ⟨1, 0⟩, ⟨2, 0⟩, ⟨2, 2⟩, ⟨0, 2⟩]).1 (List.range 5) [⟨0, 0⟩, ⟨1, 0⟩, ⟨2, 0⟩, ⟨2, 2⟩, ⟨0, 2⟩] ∧
    (∀ s ∈ List.range 5, s < 5) ∧ 3 ≤ (thin exRt.dropTest [⟨0, 0⟩, ⟨1, 0⟩, ⟨2, 0⟩, ⟨2, 2⟩, ⟨0, 2⟩] [⟨0, 0⟩, ⟨1, 0⟩, ⟨2, 0⟩, ⟨2, 2⟩, ⟨0, 2⟩]).length := by
  refine ⟨?_, by simp, by decide +kernel⟩
  unfold RingAt
  decide +kernel

/-- the result, and that of a square with a spike: the tip, which is not between its neighbours, is left out as well -/
example : (exRt.removeCollinear (ringHeap [⟨0, 0⟩, ⟨1, 0⟩, ⟨2, 0⟩, ⟨2, 2⟩, ⟨0, 2⟩]).1 (ringHeap [⟨0, 0⟩, ⟨1, 0⟩, ⟨2, 0⟩, ⟨2, 2⟩, ⟨0, 2⟩]).2).toOption.map
      (fun r => (r.1.vals r.2.segs).map Seg.i) = some [⟨0, 0⟩, ⟨2, 0⟩, ⟨2, 2⟩, ⟨0, 2⟩] ∧
    (exRt.removeCollinear (ringHeap [⟨0, 0⟩, ⟨1, 0⟩, ⟨1, 3⟩, ⟨1, 1⟩, ⟨0, 1⟩]).1 (ringHeap [⟨0, 0⟩, ⟨1, 0⟩, ⟨1, 3⟩, ⟨1, 1⟩, ⟨0, 1⟩]).2).toOption.map
      (fun r => (r.1.vals r.2.segs).map Seg.i) = some [⟨0, 0⟩, ⟨1, 0⟩, ⟨1, 1⟩, ⟨0, 1⟩] := by decide +kernel

/-- in exact arithmetic it meets the hypotheses of `C108_result` -/
example : ∃ vs : List (Pt ℝ), vs = [⟨0, 0⟩, ⟨1, 0⟩, ⟨2, 0⟩, ⟨2, 2⟩, ⟨0, 2⟩] ∧ vs.Nodup ∧ Apart exReal.tol {p | p ∈ vs} ∧ vs.length < 250 ∧
    (∀ q ∈ vs, ∃ m n : ℤ, q.x = m / 10 ^ 4 ∧ q.y = n / 10 ^ 4) ∧ ∃ a ∈ vs, ∃ b ∈ vs, ∃ c ∈ vs, det3 a b c ≠ 0 := by
  refine ⟨_, rfl, ?_, ?_, by norm_num, ?_, ⟨0, 0⟩, by simp, ⟨2, 0⟩, by simp, ⟨2, 2⟩, by simp, by norm_num [det3]⟩
  · norm_num
  · intro p hp q hq hpq
    rw [exReal_isExact.tol']
    simp only [List.mem_cons, List.not_mem_nil, or_false, Set.mem_ofPred_eq] at hp hq
    rcases hp with rfl | rfl | rfl | rfl | rfl <;> rcases hq with rfl | rfl | rfl | rfl | rfl <;>
      first
      | exact absurd rfl hpq
      | (left; norm_num; done)
      | (right; norm_num; done)
  · intro q hq
    simp only [List.mem_cons, List.not_mem_nil, or_false] at hq
    rcases hq with rfl | rfl | rfl | rfl | rfl
    · exact ⟨0, 0, by norm_num, by norm_num⟩
    · exact ⟨10000, 0, by norm_num, by norm_num⟩
    · exact ⟨20000, 0, by norm_num, by norm_num⟩
    · exact ⟨20000, 20000, by norm_num, by norm_num⟩
    · exact ⟨0, 20000, by norm_num, by norm_num⟩

/-- an open chain of two segments -/
example : ∃ (h : Heap ℚ) (P : PLine), h.vals P.segs = [⟨⟨0, 0⟩, ⟨1, 0⟩, .line⟩, ⟨⟨1, 0⟩, ⟨2, 0⟩, .line⟩] ∧
    exRt.removeCollinear h P = .error (some .index) := by
  let h := (ringHeap [⟨0, 0⟩, ⟨1, 0⟩, ⟨2, 0⟩]).1
  refine ⟨h, ⟨[0, 1], false⟩, by decide +kernel, C108_loose_end h _ 0 [1] rfl exRt_isRounding ?_ (by decide +kernel) ?_⟩
  · intro t ht
    fin_cases ht <;> exact ⟨by decide, by decide, by decide⟩
  · intro t ht
    fin_cases ht
    decide +kernel

end Srep
