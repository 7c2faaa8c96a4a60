import Verif.Props.Group
import Verif.Props.Loops
import Verif.Props.Purge

/-! Further properties of groups: shared points (C66) and the combinations examined by `find_loops` (C70). -/

set_option linter.unusedSectionVars false

namespace Srep
open Rt
variable {K : Type} [Field K] [LinearOrder K] [IsStrictOrderedRing K] [FloorRing K] {R : Rt K}

/-- C66: after `representative_graph` the endpoints at one location are one Point object in all polygons of the group;
no coordinate changes and no segment moves. -/
theorem C66_shared (hR : R.IsRounding) (h : Heap K) (G : List PLine)
    (hap : Apart R.tol (locs h (G.flatMap PLine.segs))) (hnull : ∀ P ∈ G, ∀ s ∈ P.segs, (h.val s).i ≠ (h.val s).j) :
    (∀ P ∈ G, ∀ Q ∈ G, ∀ a b, EndOf (R.reprGraph h G).1 P.segs a → EndOf (R.reprGraph h G).1 Q.segs b →
      (R.reprGraph h G).1.pt a = (R.reprGraph h G).1.pt b → a = b) ∧
    (R.reprGraph h G).1.pt = h.pt ∧ (∀ s, (R.reprGraph h G).1.val s = h.val s) ∧
    (R.reprGraph h G).2 = ⟨G.flatMap PLine.segs, true⟩ := by
  obtain ⟨h1, h2, h3, -, -, h6, -, -⟩ := C45_purge hR h ⟨G.flatMap PLine.segs, false⟩ rfl hap (by
    intro s hs
    obtain ⟨P, hP, hs⟩ := List.mem_flatMap.1 hs
    exact hnull P hP s hs)
  refine ⟨?_, h3, h6, h2⟩
  intro P hP Q hQ a b ⟨s, hs, ha⟩ ⟨t, ht, hb⟩ e
  exact h1 a b ⟨s, List.mem_flatMap.2 ⟨P, hP, hs⟩, ha⟩ ⟨t, List.mem_flatMap.2 ⟨Q, hQ, ht⟩, hb⟩ e

/-- two polygons with a corner at the same place, held by two Point objects, share the object afterwards -/
example : (exTriangle.seg 0).j ≠ (exTriangle.seg 1).i ∧
    ((exRt.reprGraph exTriangle [⟨[0], true⟩, ⟨[1, 2], true⟩]).1.seg 0).j =
      ((exRt.reprGraph exTriangle [⟨[0], true⟩, ⟨[1, 2], true⟩]).1.seg 1).i := by decide +kernel

/-- `Counter` of separated points counts them -/
theorem counter_spec [DecidableEq (Pt K)] (hR : R.IsRounding) {l : List (Pt K)} (hs : R.Sep l) :
    (∀ p ∈ l, (p, l.count p) ∈ R.counter l) ∧ ∀ x ∈ R.counter l, x.1 ∈ l ∧ x.2 = l.count x.1 := by
  have key : ∀ (m d : List (Pt K)) (c : List (Pt K × ℕ)), (∀ p ∈ d ++ m, p ∈ l) →
      (∀ p ∈ d, (p, d.count p) ∈ c) → (∀ x ∈ c, x.1 ∈ d ∧ x.2 = d.count x.1) →
      let r := m.foldl (fun c p =>
        if c.any fun x => decide (R.phash x.1 = R.phash p) && R.peq x.1 p then
          c.map fun x => if decide (R.phash x.1 = R.phash p) && R.peq x.1 p then (x.1, x.2 + 1) else x
        else c ++ [(p, 1)]) c
      (∀ p ∈ d ++ m, (p, (d ++ m).count p) ∈ r) ∧ ∀ x ∈ r, x.1 ∈ d ++ m ∧ x.2 = (d ++ m).count x.1 := by
    intro m
    induction m with
    | nil => intro d c hl h1 h2; rw [List.append_nil]; exact ⟨h1, h2⟩
    | cons a m ih =>
      intro d c hl h1 h2
      have hal : a ∈ l := hl a (by simp)
      have htest : ∀ x ∈ c, (decide (R.phash x.1 = R.phash a) && R.peq x.1 a) = true ↔ x.1 = a := by
        intro x hx
        have hxl : x.1 ∈ l := hl _ (by simp [(h2 x hx).1])
        rw [Bool.and_eq_true, decide_eq_true_eq, hs.peq_iff hR hxl hal]
        constructor
        · exact fun e => e.2
        · intro e; exact ⟨by rw [e], e⟩
      have e : d ++ a :: m = (d ++ [a]) ++ m := by simp
      rw [List.foldl_cons, e]
      apply ih
      · intro p hp; exact hl p (by simpa using hp)
      · intro p hp
        split_ifs with hany
        · rw [List.any_eq_true] at hany
          obtain ⟨x, hx, ht⟩ := hany
          have hxa := (htest x hx).1 ht
          have had : a ∈ d := hxa ▸ (h2 x hx).1
          have hpd : p ∈ d := by
            rcases List.mem_append.1 hp with h | h
            · exact h
            · rw [List.mem_singleton] at h; rw [h]; exact had
          rw [List.mem_map]
          refine ⟨(p, d.count p), h1 p hpd, ?_⟩
          by_cases hpa : p = a
          · rw [if_pos ((htest _ (h1 p hpd)).2 hpa)]
            simp [hpa]
          · rw [if_neg (fun h => hpa ((htest _ (h1 p hpd)).1 h))]
            simp [List.count_append, Ne.symm hpa]
        · have had : a ∉ d := by
            intro had
            apply hany
            rw [List.any_eq_true]
            exact ⟨_, h1 a had, (htest _ (h1 a had)).2 rfl⟩
          rcases List.mem_append.1 hp with h | h
          · have hpa : p ≠ a := fun e => had (e ▸ h)
            have := h1 p h
            simp [List.count_append, Ne.symm hpa, this]
          · rw [List.mem_singleton] at h
            subst h
            simp [List.count_eq_zero_of_not_mem had]
      · intro x hx
        split_ifs at hx with hany
        · rw [List.mem_map] at hx
          obtain ⟨y, hy, rfl⟩ := hx
          obtain ⟨hy1, hy2⟩ := h2 y hy
          by_cases hya : y.1 = a
          · rw [if_pos ((htest y hy).2 hya)]
            refine ⟨by simp [hy1], ?_⟩
            simp [hy2, hya]
          · rw [if_neg (fun h => hya ((htest y hy).1 h))]
            refine ⟨by simp [hy1], ?_⟩
            simp [List.count_append, Ne.symm hya, hy2]
        · have had : a ∉ d := by
            intro had
            apply hany
            rw [List.any_eq_true]
            exact ⟨_, h1 a had, (htest _ (h1 a had)).2 rfl⟩
          rcases List.mem_append.1 hx with h | h
          · obtain ⟨hy1, hy2⟩ := h2 x h
            have hxa : x.1 ≠ a := fun e => had (e ▸ hy1)
            refine ⟨by simp [hy1], ?_⟩
            simp [List.count_append, Ne.symm hxa, hy2]
          · rw [List.mem_singleton] at h
            subst h
            simp [List.count_eq_zero_of_not_mem had]
  have := key l [] [] (by simp) (by simp) (by simp)
  exact this

/-- C70: a combination of segments is examined exactly if each of its points occurs exactly twice. -/
theorem C70_examined [DecidableEq (Pt K)] (hR : R.IsRounding) (l : List (Seg K)) (hap : Apart R.tol (Ends l)) :
    R.allTwo (endPts l) = true ↔ l ≠ [] ∧ ∀ p ∈ endPts l, (endPts l).count p = 2 := by
  have hs := sep_of_ends hR hap
  obtain ⟨h1, h2⟩ := counter_spec hR hs
  have hnil : R.counter (endPts l) ≠ [] ↔ l ≠ [] := by
    constructor
    · rintro h rfl; exact h rfl
    · intro h e
      obtain ⟨s, t, rfl⟩ := List.exists_cons_of_ne_nil h
      have := h1 s.i (by simp [endPts])
      rw [e] at this
      simp at this
  unfold Rt.allTwo
  rw [Bool.and_eq_true, decide_eq_true_eq, List.all_eq_true, hnil]
  refine and_congr_right fun _ => ⟨?_, ?_⟩
  · intro h p hp
    simpa using h _ (h1 p hp)
  · intro h x hx
    obtain ⟨g1, g2⟩ := h2 x hx
    simp [g2, h x.1 g1]

/-- a triangle is examined, a path of two segments is not -/
example : exRt.allTwo (endPts [exSeg 0 0 3 0, exSeg 0 4 3 0, exSeg 0 4 0 0]) = true ∧
    exRt.allTwo (endPts [exSeg 0 0 3 0, exSeg 0 4 3 0]) = false := by decide +kernel

end Srep
