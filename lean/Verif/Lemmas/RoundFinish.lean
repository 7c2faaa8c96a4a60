import Verif.Lemmas.RoundHeap
import Verif.Props.Krempe

/-! Ordering the sides of the rounded knuckle -/

set_option linter.unusedSectionVars false

namespace Srep
open Rt
variable {K : Type} [Field K] [LinearOrder K] [IsStrictOrderedRing K] [FloorRing K] {R : Rt K}

/-- a closed outline: up along `q 0`, ..., `q L`, over to `q' L`, down along `q'`, back to `q 0`; the cross sections are no walls -/
def roundLoop (L : ℕ) (q q' : ℕ → Pt K) : List (Seg K) :=
  (List.range L).map (fun k => ⟨q k, q (k + 1), .wall⟩) ++ [⟨q L, q' L, .nonWall⟩] ++
    (List.range L).map (fun k => ⟨q' (L - k), q' (L - k - 1), .wall⟩) ++ [⟨q' 0, q 0, .nonWall⟩]

/-- the corners in the order of the outline -/
def loopPt (L : ℕ) (q q' : ℕ → Pt K) (i : ℕ) : Pt K := if i ≤ L then q i else q' (2 * L + 1 - i)

/-- the sides in the order of the outline -/
def loopSeg (n L i : ℕ) : ℕ := if i ≤ L then n + i else if i ≤ 2 * L then n + L + 1 + (2 * L - i) else n + 2 * L + 1

theorem loopSeg_inj {n L i j : ℕ} (hi : i < 2 * L + 2) (hj : j < 2 * L + 2) (e : loopSeg n L i = loopSeg n L j) : i = j := by
  unfold loopSeg at e
  split_ifs at e <;> omega

theorem loopSeg_mem {n L s : ℕ} : s ∈ List.range' n (2 * L + 2) ↔ ∃ i < 2 * L + 2, s = loopSeg n L i := by
  rw [List.mem_range'_1]
  constructor
  · rintro ⟨h1, h2⟩
    rcases Nat.lt_or_ge s (n + L + 1) with h | h
    · exact ⟨s - n, by omega, by unfold loopSeg; rw [if_pos (by omega)]; omega⟩
    rcases Nat.lt_or_ge s (n + 2 * L + 1) with h' | h'
    · exact ⟨2 * L - (s - n - L - 1), by omega, by unfold loopSeg; rw [if_neg (by omega), if_pos (by omega)]; omega⟩
    · exact ⟨2 * L + 1, by omega, by unfold loopSeg; rw [if_neg (by omega), if_neg (by omega)]; omega⟩
  · rintro ⟨i, hi, rfl⟩
    unfold loopSeg
    split_ifs <;> omega

/-- the sides lie in the order of the outline, those on the left are turned round -/
theorem RoundSides.at {g : Heap K} {segs : List ℕ} {n L : ℕ} {q q' : ℕ → Pt K} (s : RoundSides g segs n L q q') {i : ℕ} (hi : i < 2 * L + 2) :
    let a := loopPt L q q' i
    let b := if i = 2 * L + 1 then q 0 else loopPt L q q' (i + 1)
    ∃ c, (c = if i = L ∨ i = 2 * L + 1 then SegCls.nonWall else .wall) ∧ (g.val (loopSeg n L i) = ⟨a, b, c⟩ ∨ g.val (loopSeg n L i) = ⟨b, a, c⟩) := by
  intro a b
  refine ⟨_, rfl, ?_⟩
  simp only [a, b]
  unfold loopSeg loopPt
  rcases Nat.lt_or_ge i L with h | h
  · left
    rw [if_pos h.le, if_pos h.le, if_neg (by omega), if_pos (by omega), if_neg (by omega)]
    exact s.right i h
  rcases Nat.eq_or_lt_of_le h with rfl | h
  · left
    rw [if_pos le_rfl, if_pos le_rfl, if_neg (by omega), if_neg (by omega), if_pos (Or.inl rfl), s.top]
    congr 2
    omega
  rcases Nat.lt_or_ge i (2 * L + 1) with h' | h'
  · right
    rw [if_neg (by omega), if_pos (by omega), if_neg (by omega), if_neg (by omega), if_neg (by omega), if_neg (by omega), s.left _ (by omega)]
    congr 2 <;> omega
  · left
    have : i = 2 * L + 1 := by omega
    subst this
    rw [if_neg (by omega), if_neg (by omega), if_neg (by omega), if_pos rfl, if_pos (Or.inr rfl), s.bottom, Nat.sub_self]

theorem roundLoop_eq (L : ℕ) (q q' : ℕ → Pt K) :
    (List.range (2 * L + 2)).map (fun i => (⟨loopPt L q q' i, if i = 2 * L + 1 then q 0 else loopPt L q q' (i + 1),
      if i = L ∨ i = 2 * L + 1 then SegCls.nonWall else .wall⟩ : Seg K)) = roundLoop L q q' := by
  have e : 2 * L + 2 = L + 1 + L + 1 := by ring
  rw [e, List.range_succ, List.map_append, List.range_add, List.map_append, List.range_succ, List.map_append]
  unfold roundLoop
  congr 1
  · congr 1
    · congr 1
      · apply List.map_congr_left
        intro k hk
        have := List.mem_range.1 hk
        unfold loopPt
        rw [if_pos (by omega), if_neg (by omega), if_pos (by omega), if_neg (by omega)]
      · unfold loopPt
        rw [List.map_singleton, if_pos le_rfl, if_neg (by omega), if_neg (by omega), if_pos (Or.inl rfl)]
        congr 3
        omega
    · rw [List.map_map]
      apply List.map_congr_left
      intro k hk
      have := List.mem_range.1 hk
      simp only [Function.comp]
      unfold loopPt
      rw [if_neg (by omega), if_neg (by omega), if_neg (by omega), if_neg (by omega)]
      congr 2 <;> omega
  · rw [List.map_singleton]
    unfold loopPt
    rw [if_neg (by omega), if_pos (by omega), if_pos (by omega)]
    congr 3
    omega

/-- the rest of the constructor once the sides exist -/
theorem round_finish (hE : R.IsExact) {h g : Heap K} {k o : ShellObj K} {u : Under K} {w : KrempeRes K} {r hO hU : K} {L : ℕ} {q : ℕ → Pt K}
    (km : RoundMade R h g k o u w L q) (hL : 0 < L) (hL' : L < 120)
    (hap : ∀ i j, i < 2 * L + 2 → j < 2 * L + 2 → i ≠ j →
      1 / 10 ^ 5 ≤ |(loopPt L q (fun k => mirrored R o.dim.posH (q k)) i).x - (loopPt L q (fun k => mirrored R o.dim.posH (q k)) j).x| ∨
      1 / 10 ^ 5 ≤ |(loopPt L q (fun k => mirrored R o.dim.posH (q k)) i).y - (loopPt L q (fun k => mirrored R o.dim.posH (q k)) j).y|)
    (hd : k.dim.d0 < k.dim.d1) (hO0 : 0 < hO) (hU0 : 0 < hU) (hr : 0 < r) (hk : R.roundSegs h r hO hU k o u = .ok (g, w)) :
    ∃ g' part, R.krempeInit h r hO hU k o u = .ok (g', part, w) ∧ h.Ext g' ∧
      g'.vals part.line.segs ~r roundLoop L q (fun k => mirrored R o.dim.posH (q k)) ∧
      part.graph = g'.walls part.line.segs ∧ part.line.purged = true ∧
      (∀ x l, (x = w.kegel ∨ x = w.oben ∨ w.unten = some x) → Made g x l → Made g' x l) := by
  have e5 : (0 : K) < 1 / 10 ^ 5 := by positivity
  obtain ⟨n, n1, S, n4, n5⟩ := km.sides
  generalize hq' : (fun k => mirrored R o.dim.posH (q k)) = q' at S hap
  set N := 2 * L + 2 with hN
  have hN0 : NeZero N := ⟨by omega⟩
  set p : ZMod N → Pt K := fun k => loopPt L q q' k.val with hp
  set σ : ZMod N → ℕ := fun k => loopSeg n L k.val with hσ
  have hlt : ∀ k : ZMod N, k.val < 2 * L + 2 := fun k => ZMod.val_lt k
  have hnext : ∀ k : ZMod N, p (k + 1) = if k.val = 2 * L + 1 then q 0 else loopPt L q q' (k.val + 1) := by
    intro k
    simp only [hp]
    have hk := hlt k
    have h1 : (1 : ZMod N).val = 1 := by rw [ZMod.val_one_eq_one_mod, Nat.mod_eq_of_lt (by omega)]
    rw [ZMod.val_add, h1]
    by_cases hc : k.val = 2 * L + 1
    · rw [if_pos hc, hc, show 2 * L + 1 + 1 = N by omega, Nat.mod_self]
      unfold loopPt
      rw [if_pos (by omega)]
    · rw [if_neg hc, Nat.mod_eq_of_lt (by omega)]
  have hinj : Function.Injective p := by
    intro i j e
    by_contra hij
    have := hap i.val j.val (hlt i) (hlt j) fun e => hij (ZMod.val_injective N e)
    simp only [hp] at e
    rw [e, sub_self, sub_self, abs_zero] at this
    rcases this with h | h <;> linarith
  have cyc : ∀ g1 : Heap K, (∀ s, g1.val s = g.val s) → IsCycleOf g1 w.segs N p σ := by
    intro g1 hg
    refine ⟨by omega, hinj, ?_, ?_, ?_, ?_⟩
    · intro i j e
      exact ZMod.val_injective N (loopSeg_inj (hlt i) (hlt j) e)
    · rw [S.segs]; exact List.nodup_range'
    · intro s
      rw [S.segs, loopSeg_mem]
      constructor
      · rintro ⟨i, hi, rfl⟩
        refine ⟨(i : ZMod N), ?_⟩
        simp only [hσ]
        rw [ZMod.val_natCast, Nat.mod_eq_of_lt hi]
      · rintro ⟨k, rfl⟩
        exact ⟨k.val, hlt k, rfl⟩
    · intro k
      rw [hg, hnext]
      obtain ⟨c, -, e | e⟩ := S.at (hlt k)
      · left; simp only [hσ]; rw [e]; exact ⟨rfl, rfl⟩
      · right; simp only [hσ]; rw [e]; exact ⟨rfl, rfl⟩
  have hends : ∀ g1 : Heap K, (∀ s, g1.val s = g.val s) → ∀ x ∈ locs g1 w.segs, ∃ k, x = p k := by
    rintro g1 hg x ⟨s, hs, hx⟩
    have cy := cyc g1 hg
    obtain ⟨k, rfl⟩ := (cy.mem s).1 hs
    rcases cy.ends k with ⟨h1, h2⟩ | ⟨h1, h2⟩ <;> rw [h1, h2] at hx <;> rcases hx with rfl | rfl
    exacts [⟨_, rfl⟩, ⟨_, rfl⟩, ⟨_, rfl⟩, ⟨_, rfl⟩]
  have hap' : ∀ g1 : Heap K, (∀ s, g1.val s = g.val s) → Apart R.tol (locs g1 w.segs) := by
    intro g1 hg x hx y hy hxy
    obtain ⟨i, rfl⟩ := hends g1 hg x hx
    obtain ⟨j, rfl⟩ := hends g1 hg y hy
    rw [hE.tol']
    exact hap _ _ (hlt i) (hlt j) fun e => hxy (by simp only [hp]; rw [e])
  have hnull : ∀ s ∈ w.segs, (g.val s).i ≠ (g.val s).j := by
    intro s hs
    have cy := cyc g fun _ => rfl
    obtain ⟨k, rfl⟩ := (cy.mem s).1 hs
    have hne : p k ≠ p (k + 1) := fun e => cy.one_ne (by have := hinj e; exact left_eq_add.1 this)
    rcases cy.ends k with ⟨h1, h2⟩ | ⟨h1, h2⟩ <;> rw [h1, h2]
    exacts [hne, hne.symm]
  obtain ⟨q1, q2, q3, q4, q5, q6, -, -⟩ := purge_spec hE.isRounding (h := g) (P := ⟨w.segs, false⟩) rfl
    (sep_of_locs hE.isRounding (hap' g fun _ => rfl)) hnull
  have hnew : R.krempeInit h r hO hU k o u = (match R.order (R.purge g ⟨w.segs, false⟩).1 (R.purge g ⟨w.segs, false⟩).2 with
      | .raised _ e => .error e
      | .timeout => .error .generic
      | .failed g' => .ok (g', ⟨(R.purge g ⟨w.segs, false⟩).2, g'.walls (R.purge g ⟨w.segs, false⟩).2.segs⟩, w)
      | .done g' l =>
        .ok ((R.purge g' ⟨l, (R.purge g ⟨w.segs, false⟩).2.purged⟩).1, ⟨(R.purge g' ⟨l, (R.purge g ⟨w.segs, false⟩).2.purged⟩).2,
          (R.purge g' ⟨l, (R.purge g ⟨w.segs, false⟩).2.purged⟩).1.walls (R.purge g' ⟨l, (R.purge g ⟨w.segs, false⟩).2.purged⟩).2.segs⟩, w)) := by
    unfold Rt.krempeInit
    rw [if_neg (not_not.2 hd), if_neg (not_not.2 hO0), if_neg (not_not.2 hU0), if_pos hr, hk]
    rfl
  rw [q1] at hnew
  set f := (R.purge g ⟨w.segs, false⟩).1 with hf
  clear_value f
  have hP : w.segs = σ 0 :: List.range' (n + 1) (2 * L + 1) := by
    rw [S.segs, List.range'_succ]
    congr 1
  obtain ⟨g', l, d1, d2, d3, d4, d5⟩ := C76_direction hE.isRounding f ⟨w.segs, true⟩ N p σ (cyc f q5) (hap' f q5)
    (by show w.segs.length < 250; rw [S.segs]; simp; omega) hP
    (by
      rw [q5]
      have e : g.val (σ 0) = ⟨q 0, q 1, .wall⟩ := by
        have := S.right 0 hL
        simp only [hσ, ZMod.val_zero]
        unfold loopSeg
        rw [if_pos (by omega)]
        exact this
      have e1 := hnext 0
      rw [zero_add, ZMod.val_zero, if_neg (by omega), zero_add] at e1
      have e0 : p 0 = q 0 := by
        simp only [hp, ZMod.val_zero]
        unfold loopPt
        rw [if_pos (by omega)]
      rw [e, e0, e1]
      unfold loopPt
      rw [if_pos (by omega)]
      exact ⟨rfl, rfl⟩)
  have d6 := C48_only_reverses hE.isRounding f ⟨w.segs, true⟩
  rw [d1] at d6
  obtain ⟨-, m1, m2, -, -⟩ := d6
  change g'.npt = f.npt at m1
  change g'.nseg = f.nseg at m2
  rw [d1] at hnew
  have hpur : R.purge g' ⟨l, true⟩ = (g', ⟨l, true⟩) := by
    unfold Rt.purge
    simp
  dsimp only at hnew
  rw [hpur] at hnew
  have hout : ∀ s, s ∉ w.segs → g'.seg s = g.seg s := fun s hs => (d5 s hs).trans (q6 s hs)
  have hnot : ∀ s < n, s ∉ w.segs := by
    intro s hs
    rw [S.segs, List.mem_range'_1]
    omega
  refine ⟨g', ⟨⟨l, true⟩, g'.walls l⟩, hnew, ?_, ?_, rfl, rfl, ?_⟩
  · have e1 := km.ext.npt
    have e2 := km.ext.nseg
    refine ⟨by omega, by omega, fun x hx => by rw [d4, q2]; exact km.ext.pt x hx, fun s hs => ?_⟩
    rw [hout s (hnot s (by omega)), km.ext.seg s hs]
  · have := d2.map g'.val
    rw [List.map_map] at this
    refine List.IsRotated.trans this ?_
    rw [← roundLoop_eq]
    have : List.map (g'.val ∘ fun m : ℕ => σ (m : ZMod N)) (List.range N) = (List.range (2 * L + 2)).map (fun i =>
        (⟨loopPt L q q' i, if i = 2 * L + 1 then q 0 else loopPt L q q' (i + 1),
          if i = L ∨ i = 2 * L + 1 then SegCls.nonWall else .wall⟩ : Seg K)) := by
      apply List.map_congr_left
      intro i hi
      have hi' : i < 2 * L + 2 := List.mem_range.1 hi
      have hv : ((i : ℕ) : ZMod N).val = i := by rw [ZMod.val_natCast, Nat.mod_eq_of_lt hi']
      simp only [Function.comp]
      rw [d3 i, q5]
      have e1 := hnext (i : ZMod N)
      rw [hv] at e1
      rw [e1]
      have e2 : p (i : ZMod N) = loopPt L q q' i := by simp only [hp]; rw [hv]
      rw [e2]
      congr 1
      obtain ⟨c, hc, e | e⟩ := S.at hi'
      · simp only [hσ]; rw [hv, e, hc]
      · simp only [hσ]; rw [hv, e, hc]
    rw [this]
  · intro x l' hx m
    refine m.frame (by rw [d4, q2]) (by omega) (by omega) fun s hs => hout s (hnot s ?_)
    rcases hx with rfl | rfl | hx
    · exact n4 s (by simp [hs])
    · exact n4 s (by simp [hs])
    · exact n5 x hx s hs

/-- the right side of the rounded knuckle for a given arc -/
theorem krempeRight_spec {h a : Heap K} {r hO hU : K} {k o : ShellObj K} {s0 t0 : ℕ} {ks os : List ℕ} {P : PLine} {n : ℕ} {v : ℕ → Pt K}
    (hk : k.line.segs = s0 :: ks) (ho : o.line.segs = t0 :: os) (hasK : ∀ s ∈ k.line.segs, h.Has s) (hasO : ∀ s ∈ o.line.segs, h.Has s)
    (ea : R.krempeArc h o.dim.posH o.dim.posV r (h.val s0) (h.val t0) = .ok (a, P)) (xa : h.Ext a) (hn : 0 < n) (j : Chained a P.segs n v)
    (sh : SharesPoints a P.segs) {c0 c1 : Option (Pt K)}
    (e0 : R.krempeCut (h.vals k.line.segs) (h.val s0) o.dim.posV (v 0).y hU false = c0)
    (e1 : R.krempeCut (h.vals o.line.segs) (h.val t0) o.dim.posV (v n).y hO true = c1)
    (d1 : ∀ p ∈ c1, ∀ k ≤ n, v k ≠ p) (d0 : ∀ p ∈ c0, ∀ x ∈ (List.range (n + 1)).map v ++ c1.toList, x ≠ p) :
    ∃ c P' L q, R.krempeRight h r hO hU k o = .ok (c, P') ∧ n ≤ L ∧ h.Ext c ∧ Chained c P'.segs L q ∧ SharesPoints c P'.segs ∧
      (List.range (L + 1)).map q = c0.toList ++ ((List.range (n + 1)).map v ++ c1.toList) := by
  obtain ⟨f, hf⟩ : ∃ f, P.segs.head? = some f := by
    have := j.len
    match P.segs, this with
    | [], h0 => simp at h0; omega
    | f :: _, _ => exact ⟨f, rfl⟩
  obtain ⟨l, hl⟩ : ∃ l, P.segs.getLast? = some l := by
    have := j.len
    match P.segs, this with
    | [], h0 => simp at h0; omega
    | a :: b, _ => exact ⟨_, List.getLast?_cons⟩
  have vk : a.vals k.line.segs = h.vals k.line.segs := xa.vals hasK
  have vo : a.vals o.line.segs = h.vals o.line.segs := xa.vals hasO
  have v0 : a.val s0 = h.val s0 := xa.val (hasK s0 (by rw [hk]; simp))
  have w0 : a.val t0 = h.val t0 := xa.val (hasO t0 (by rw [ho]; simp))
  obtain ⟨-, f2⟩ := j.first hf
  obtain ⟨-, l2, -⟩ := j.last hn hl
  obtain ⟨n1, q1, b1, b2, b3, b4, b5, b6⟩ := krempeAbove_spec a j sh hl hn c1 d1
  have d0' : ∀ p ∈ c0, ∀ k ≤ n1, q1 k ≠ p := by
    intro p hp i hi
    refine d0 p hp _ ?_
    rw [← b5]
    exact List.mem_map.2 ⟨i, List.mem_range.2 (by omega), rfl⟩
  obtain ⟨n2, q2, g1, g2, g3, g4, g5⟩ := krempeBelow_spec _ b3 b4 (b6.trans hf) c0 d0'
  refine ⟨_, ⟨_, P.purged⟩, n2, q2, ?_, by omega, (xa.trans b2).trans g2, g3, g4, ?_⟩
  · unfold Rt.krempeRight
    rw [hk, ho] at *
    dsimp only
    rw [ea]
    dsimp only
    rw [hf, hl]
    dsimp only
    rw [vk, vo, v0, w0, f2, l2, e0, e1]
  · rw [g5, b5]

end Srep
