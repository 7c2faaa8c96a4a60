import Verif.Spec.Collinear
import Mathlib.Tactic.LinearCombination

/-! Lemmas about closed lists of vertices. -/

set_option linter.unusedSectionVars false

namespace Srep

section
variable {α : Type} [DecidableEq α]

theorem isRotated_append' (a b : List α) : (a ++ b) ~r (b ++ a) := List.isRotated_append

theorem isRotated_filter {l m : List α} (h : l ~r m) (f : α → Bool) : l.filter f ~r m.filter f := by
  obtain ⟨k, hk, rfl⟩ := List.isRotated_iff_mod.1 h
  rw [List.rotate_eq_drop_append_take hk]
  conv_lhs => rw [← List.take_append_drop k l, List.filter_append]
  rw [List.filter_append]
  exact isRotated_append' _ _

theorem isRotated_erase {l m : List α} (h : l ~r m) (hn : l.Nodup) (p : α) : l.erase p ~r m.erase p := by
  rw [hn.erase_eq_filter, ((h.nodup_iff).1 hn).erase_eq_filter]
  exact isRotated_filter h _

/-- a vertex with its neighbours -/
theorem exists_around {vs : List α} {p : α} (hp : p ∈ vs) (h3 : 3 ≤ vs.length) :
    ∃ a b rest, vs ~r a :: p :: b :: rest := by
  obtain ⟨l1, l2, rfl⟩ := List.append_of_mem hp
  have hr : (l1 ++ p :: l2) ~r (p :: (l2 ++ l1)) := by
    have := isRotated_append' l1 (p :: l2)
    simpa using this
  have hl : 2 ≤ (l2 ++ l1).length := by
    simp only [List.length_append, List.length_cons] at h3 ⊢
    omega
  generalize l2 ++ l1 = w at hr hl
  match w, hl with
  | b :: c :: w, _ =>
    have hne : (c :: w) ≠ [] := by simp
    refine ⟨(c :: w).getLast hne, b, (c :: w).dropLast, hr.trans ?_⟩
    have h1 := isRotated_append' (p :: b :: (c :: w).dropLast) [(c :: w).getLast hne]
    have h2 : p :: b :: (c :: w).dropLast ++ [(c :: w).getLast hne] = p :: b :: c :: w := by
      rw [List.cons_append, List.cons_append, List.dropLast_append_getLast]
    rw [h2] at h1
    simpa using h1

theorem prev_next_of_around {vs rest : List α} {a p b : α} (hn : vs.Nodup) (hr : vs ~r a :: p :: b :: rest) (hp : p ∈ vs) :
    vs.prev p hp = a ∧ vs.next p hp = b := by
  have hn' := (hr.nodup_iff).1 hn
  have hpa : p ≠ a := by
    intro e
    subst e
    simp at hn'
  constructor
  · rw [List.isRotated_prev_eq hr hn hp]
    apply List.prev_cons_cons_of_ne
    exact hpa
  · rw [List.isRotated_next_eq hr hn hp]
    have hr2 : (a :: p :: b :: rest) ~r (p :: b :: (rest ++ [a])) := by
      have := isRotated_append' [a] (p :: b :: rest)
      simpa using this
    rw [List.isRotated_next_eq hr2 hn']
    apply List.next_cons_cons_eq

theorem erase_around {vs rest : List α} {a p b : α} (hn : vs.Nodup) (hr : vs ~r a :: p :: b :: rest) :
    vs.erase p ~r a :: b :: rest := by
  have hn' := (hr.nodup_iff).1 hn
  have hpa : a ≠ p := by
    intro e
    subst e
    simp at hn'
  have := isRotated_erase hr hn p
  rwa [List.erase_cons_tail (by simpa using hpa), List.erase_cons_head] at this
end

variable {K : Type} [Field K] [LinearOrder K] [IsStrictOrderedRing K]

theorem flatAt_around {T : Pt K → Pt K → Pt K → Bool} {vs rest : List (Pt K)} {a p b : Pt K} (hn : vs.Nodup)
    (hr : vs ~r a :: p :: b :: rest) : flatAt T vs p = T a p b := by
  have hp : p ∈ vs := (hr.mem_iff).2 (by simp)
  obtain ⟨h1, h2⟩ := prev_next_of_around hn hr hp
  unfold flatAt
  rw [dif_pos hp, h1, h2]

/-! ### cyclic pairs -/

theorem zip_rotate_rotated {vs ws : List (Pt K)} (h : vs ~r ws) : vs.zip (vs.rotate 1) ~r ws.zip (ws.rotate 1) := by
  obtain ⟨k, rfl⟩ := h
  refine ⟨k, ?_⟩
  rw [List.zip_eq_zipWith, List.zip_eq_zipWith, List.zipWith_rotate_distrib _ _ _ _ (by simp), List.rotate_rotate, List.rotate_rotate,
    Nat.add_comm]

theorem shoelace_rotated {vs ws : List (Pt K)} (h : vs ~r ws) : shoelace vs = shoelace ws := by
  unfold shoelace
  exact (((zip_rotate_rotated h).map _).perm).sum_eq

theorem shoelace_erase {vs rest : List (Pt K)} {a p b : Pt K} (hn : vs.Nodup) (hr : vs ~r a :: p :: b :: rest) :
    shoelace vs - shoelace (vs.erase p) = det3 a p b := by
  rw [shoelace_rotated hr, shoelace_rotated (erase_around hn hr)]
  unfold shoelace det3
  have e1 : (a :: p :: b :: rest).zip ((a :: p :: b :: rest).rotate 1) = (a, p) :: (p, b) :: (b :: rest).zip (rest ++ [a]) := by
    simp
  have e2 : (a :: b :: rest).zip ((a :: b :: rest).rotate 1) = (a, b) :: (b :: rest).zip (rest ++ [a]) := by
    simp
  rw [e1, e2]
  simp only [List.map_cons, List.sum_cons]
  ring

theorem thin_nil (T : Pt K → Pt K → Pt K → Bool) (vs : List (Pt K)) : thin T [] vs = vs := rfl

theorem thin_cons (T : Pt K → Pt K → Pt K → Bool) (p : Pt K) (ps vs : List (Pt K)) :
    thin T (p :: ps) vs = thin T ps (if flatAt T vs p then vs.erase p else vs) := rfl

theorem thin_sublist (T : Pt K → Pt K → Pt K → Bool) (ps vs : List (Pt K)) : (thin T ps vs).Sublist vs := by
  induction ps generalizing vs with
  | nil => exact List.Sublist.refl _
  | cons p ps ih =>
    rw [thin_cons]
    refine (ih _).trans ?_
    split
    · exact List.erase_sublist
    · exact List.Sublist.refl _

theorem thin_rotated {T : Pt K → Pt K → Pt K → Bool} (ps : List (Pt K)) {vs ws : List (Pt K)} (h : vs ~r ws) (hn : vs.Nodup) :
    thin T ps vs ~r thin T ps ws := by
  induction ps generalizing vs ws with
  | nil => exact h
  | cons p ps ih =>
    rw [thin_cons, thin_cons]
    have e : flatAt T vs p = flatAt T ws p := by
      unfold flatAt
      by_cases hp : p ∈ vs
      · have hp' := (h.mem_iff).1 hp
        rw [dif_pos hp, dif_pos hp', List.isRotated_prev_eq h hn hp, List.isRotated_next_eq h hn hp]
      · rw [dif_neg hp, dif_neg fun hc => hp ((h.mem_iff).2 hc)]
    rw [e]
    split
    · exact ih (isRotated_erase h hn p) (hn.erase p)
    · exact ih h hn

/-! ### three points on a line -/

theorem cross_trans {ux uy vx vy wx wy : K} (hu : ux ≠ 0 ∨ uy ≠ 0) (h1 : ux * vy - uy * vx = 0) (h2 : ux * wy - uy * wx = 0) :
    vx * wy - vy * wx = 0 := by
  rcases hu with h | h
  · have : ux * (vx * wy - vy * wx) = 0 := by linear_combination vx * h2 - wx * h1
    exact (mul_eq_zero.1 this).resolve_left h
  · have : uy * (vx * wy - vy * wx) = 0 := by linear_combination vy * h2 - wy * h1
    exact (mul_eq_zero.1 this).resolve_left h

theorem pt_ne_cases {a b : Pt K} (h : a ≠ b) : a.x - b.x ≠ 0 ∨ a.y - b.y ≠ 0 := by
  by_contra hc
  push Not at hc
  exact h (by obtain ⟨x, y⟩ := a; obtain ⟨z, w⟩ := b; simp only [sub_eq_zero] at hc; rw [hc.1, hc.2])

/-- `a`, `p`, `b` on a line: lines through `b` and `a` and through `b` and `p` are the same -/
theorem line_shift {a p b y : Pt K} (h : det3 a p b = 0) (hab : a ≠ b) (hpb : p ≠ b) : det3 p b y = 0 ↔ det3 a b y = 0 := by
  unfold det3 at *
  constructor
  · intro h2
    have := cross_trans (pt_ne_cases hpb) (vx := a.x - b.x) (vy := a.y - b.y) (wx := y.x - b.x) (wy := y.y - b.y)
      (by linear_combination -h) (by linear_combination -h2)
    linear_combination -this
  · intro h2
    have := cross_trans (pt_ne_cases hab) (vx := p.x - b.x) (vy := p.y - b.y) (wx := y.x - b.x) (wy := y.y - b.y)
      (by linear_combination h) (by linear_combination -h2)
    linear_combination -this

theorem det3_flip_ends (a b c : Pt K) : det3 c b a = -det3 a b c := by unfold det3; ring

/-- leaving out a vertex on the line through its neighbours does not change which other vertices are -/
theorem flat_stable {vs rest : List (Pt K)} {a p b q : Pt K} (hn : vs.Nodup) (h4 : 4 ≤ vs.length) (hr : vs ~r a :: p :: b :: rest)
    (h : det3 a p b = 0) (hq : q ∈ vs) (hqp : q ≠ p) : flatAt onLine (vs.erase p) q = flatAt onLine vs q := by
  have hp : p ∈ vs := (hr.mem_iff).2 (by simp)
  obtain ⟨ep, en⟩ := prev_next_of_around hn hr hp
  have hd := (hr.nodup_iff).1 hn
  obtain ⟨x, y, w, hw⟩ := exists_around hq (by omega)
  have hd' := (hw.nodup_iff).1 hn
  have hlen : w.length + 3 = vs.length := by rw [hw.perm.length_eq]; simp
  have hwne : w ≠ [] := by rintro rfl; simp at hlen; omega
  rw [flatAt_around hn hw]
  by_cases hx : p = x
  · subst hx
    -- q = b
    have hw2 : vs ~r w.getLast hwne :: p :: q :: y :: w.dropLast := by
      refine hw.trans ?_
      have h1 := isRotated_append' (p :: q :: y :: w.dropLast) [w.getLast hwne]
      simp only [List.cons_append, List.dropLast_append_getLast, List.nil_append] at h1
      exact h1
    obtain ⟨e1, e2⟩ := prev_next_of_around hn hw2 hp
    have hqb : q = b := e2.symm.trans en
    have hla : w.getLast hwne = a := e1.symm.trans ep
    rw [flatAt_around (hn.erase p) (erase_around hn hw2), hla, hqb]
    rw [hqb] at hd'
    unfold onLine
    have := line_shift (y := y) h (by rintro rfl; simp at hd) (by rintro rfl; simp at hd)
    simp only [this]
  · by_cases hy : p = y
    · subst hy
      obtain ⟨z, w', rfl⟩ : ∃ z w', w = z :: w' := by cases w with | nil => exact absurd rfl hwne | cons z w' => exact ⟨z, w', rfl⟩
      have hw2 : vs ~r q :: p :: z :: (w' ++ [x]) := by
        refine hw.trans ?_
        have h1 := isRotated_append' [x] (q :: p :: z :: w')
        simpa using h1
      obtain ⟨e1, e2⟩ := prev_next_of_around hn hw2 hp
      have hqa : q = a := e1.symm.trans ep
      have hzb : z = b := e2.symm.trans en
      have he : vs.erase p ~r x :: q :: z :: w' := by
        refine (erase_around hn hw2).trans ?_
        have h1 := isRotated_append' (q :: z :: w') [x]
        simpa using h1
      rw [flatAt_around (hn.erase p) he, hqa, hzb]
      unfold onLine
      have hs : det3 b p a = 0 := by rw [det3_flip_ends, h, neg_zero]
      have := line_shift (y := x) hs (by rintro rfl; simp at hd) (by rintro rfl; simp at hd)
      rw [det3_flip_ends x a p, det3_flip_ends x a b, neg_eq_zero, neg_eq_zero] at this
      simp only [this]
    · have he : vs.erase p ~r x :: q :: y :: w.erase p := by
        have := isRotated_erase hw hn p
        rwa [List.erase_cons_tail (by simpa using fun e : x = p => hx e.symm), List.erase_cons_tail (by simpa using hqp),
          List.erase_cons_tail (by simpa using fun e : y = p => hy e.symm)] at this
      rw [flatAt_around (hn.erase p) he]

theorem around_distinct {vs rest : List (Pt K)} {a p b : Pt K} (hn : vs.Nodup) (hr : vs ~r a :: p :: b :: rest) :
    (a ∈ vs ∧ p ∈ vs ∧ b ∈ vs) ∧ a ≠ p ∧ p ≠ b ∧ a ≠ b := by
  have hd := (hr.nodup_iff).1 hn
  refine ⟨⟨(hr.mem_iff).2 (by simp), (hr.mem_iff).2 (by simp), (hr.mem_iff).2 (by simp)⟩, ?_, ?_, ?_⟩ <;> rintro rfl <;> simp at hd

theorem filter_erase_of_not {l : List (Pt K)} (hn : l.Nodup) {f : Pt K → Bool} {p : Pt K} (hp : f p = false) :
    (l.erase p).filter f = l.filter f := by
  rw [hn.erase_eq_filter, List.filter_filter]
  apply List.filter_congr
  intro x _
  by_cases hx : x = p
  · subst hx; simp [hp]
  · simp [hx]

theorem thin_corners_aux {T : Pt K → Pt K → Pt K → Bool} {F : Pt K → Bool} (ps : List (Pt K)) : ∀ (vs : List (Pt K)), vs.Nodup →
    (∀ a ∈ vs, ∀ p ∈ vs, ∀ b ∈ vs, a ≠ p → p ≠ b → a ≠ b → T a p b = onLine a p b) →
    (∀ q ∈ vs, flatAt onLine vs q = F q) → (∀ q ∈ vs, F q = true → q ∈ ps) → ps.Nodup → (∀ p ∈ ps, p ∈ vs) →
    3 ≤ (vs.filter fun q => !F q).length → thin T ps vs = vs.filter fun q => !F q := by
  induction ps with
  | nil =>
    intro vs _ _ _ h2 _ _ _
    rw [thin_nil, List.filter_eq_self.2]
    intro q hq
    rw [Bool.not_eq_true', ← Bool.not_eq_true]
    intro hc
    exact absurd (h2 q hq hc) (by simp)
  | cons p ps ih =>
    intro vs hn hT h1 h2 hnp hin h3
    have hp := hin p (by simp)
    have hlen : 3 ≤ vs.length := h3.trans (List.length_filter_le _ _)
    obtain ⟨a, b, rest, hr⟩ := exists_around hp hlen
    obtain ⟨⟨ma, mp, mb⟩, d1, d2, d3⟩ := around_distinct hn hr
    have e : flatAt T vs p = F p := by
      rw [← h1 p hp, flatAt_around hn hr, flatAt_around hn hr, hT a ma p mp b mb d1 d2 d3]
    rw [thin_cons, e]
    have hnp' := List.nodup_cons.1 hnp
    by_cases hF : F p = true
    · rw [if_pos hF]
      have hfe := filter_erase_of_not hn (f := fun q => !F q) (p := p) (by simp [hF])
      have h4 : 4 ≤ vs.length := by
        have : 3 ≤ (vs.erase p).length := by
          rw [← hfe] at h3
          exact h3.trans (List.length_filter_le _ _)
        rw [List.length_erase_of_mem hp] at this
        omega
      have hdet : det3 a p b = 0 := by
        have := h1 p hp
        rw [flatAt_around hn hr, hF] at this
        simpa [onLine] using this
      rw [ih (vs.erase p) (hn.erase p) (fun a ha p hp b hb => hT a (List.mem_of_mem_erase ha) p (List.mem_of_mem_erase hp) b (List.mem_of_mem_erase hb)),
        hfe]
      · intro q hq
        have hq' := (hn.mem_erase_iff).1 hq
        rw [flat_stable hn h4 hr hdet hq'.2 hq'.1, h1 q hq'.2]
      · intro q hq hFq
        have hq' := (hn.mem_erase_iff).1 hq
        rcases List.mem_cons.1 (h2 q hq'.2 hFq) with h | h
        · exact absurd h hq'.1
        · exact h
      · exact hnp'.2
      · intro q hq
        exact (hn.mem_erase_iff).2 ⟨fun h => hnp'.1 (h ▸ hq), hin q (by simp [hq])⟩
      · rw [hfe]; exact h3
    · rw [if_neg hF]
      refine ih vs hn hT h1 (fun q hq hFq => ?_) hnp'.2 (fun q hq => hin q (by simp [hq])) h3
      rcases List.mem_cons.1 (h2 q hq hFq) with h | h
      · rw [h] at hFq; exact absurd hFq hF
      · exact h

/-- looking once at every vertex leaves exactly the corners -/
theorem thin_corners {T : Pt K → Pt K → Pt K → Bool} {ps vs : List (Pt K)} (hn : vs.Nodup) (hps : ps.Perm vs)
    (hT : ∀ a ∈ vs, ∀ p ∈ vs, ∀ b ∈ vs, a ≠ p → p ≠ b → a ≠ b → T a p b = onLine a p b) (h3 : 3 ≤ (polyCorners vs).length) :
    thin T ps vs = polyCorners vs :=
  thin_corners_aux ps vs hn hT (fun _ _ => rfl) (fun _ hq _ => hps.mem_iff.2 hq) (hps.nodup_iff.2 hn) (fun _ hp => hps.mem_iff.1 hp) h3

/-- the corners are the same after leaving out a vertex on the line through its neighbours -/
theorem corners_erase {vs rest : List (Pt K)} {a p b : Pt K} (hn : vs.Nodup) (h4 : 4 ≤ vs.length) (hr : vs ~r a :: p :: b :: rest)
    (h : det3 a p b = 0) : polyCorners (vs.erase p) = polyCorners vs := by
  unfold polyCorners
  have hf : flatAt onLine vs p = true := by rw [flatAt_around hn hr]; simp [onLine, h]
  rw [← filter_erase_of_not hn (f := fun q => !flatAt onLine vs q) (p := p) (by simp [hf])]
  apply List.filter_congr
  intro q hq
  have hq' := (hn.mem_erase_iff).1 hq
  rw [flat_stable hn h4 hr h hq'.2 hq'.1]

theorem corners_or_line (n : ℕ) : ∀ vs : List (Pt K), vs.length = n → vs.Nodup → 3 ≤ vs.length →
    3 ≤ (polyCorners vs).length ∨ ∃ u v, u ≠ v ∧ ∀ q ∈ vs, det3 u v q = 0 := by
  induction n with
  | zero => intro vs h _ h3; omega
  | succ n ih =>
    intro vs hl hn h3
    by_cases hf : ∀ p ∈ vs, flatAt onLine vs p = false
    · left
      unfold polyCorners
      rw [List.filter_eq_self.2]
      · exact h3
      · intro p hp; simp [hf p hp]
    · push Not at hf
      obtain ⟨p, hp, hfp⟩ := hf
      obtain ⟨a, b, rest, hr⟩ := exists_around hp h3
      obtain ⟨⟨ma, mp, mb⟩, d1, d2, d3⟩ := around_distinct hn hr
      have hdet : det3 a p b = 0 := by
        rw [flatAt_around hn hr] at hfp
        simpa [onLine] using hfp
      have hlen : vs.length = rest.length + 3 := by rw [hr.perm.length_eq]; simp
      by_cases h4 : 4 ≤ vs.length
      · have hle : (vs.erase p).length = n := by rw [List.length_erase_of_mem hp]; omega
        rcases ih (vs.erase p) hle (hn.erase p) (by omega) with h | ⟨u, v, huv, h⟩
        · left
          rwa [corners_erase hn h4 hr hdet] at h
        · right
          refine ⟨u, v, huv, fun q hq => ?_⟩
          by_cases hqp : q = p
          · subst hqp
            have ha := h a ((hn.mem_erase_iff).2 ⟨d1, ma⟩)
            have hb := h b ((hn.mem_erase_iff).2 ⟨d2.symm, mb⟩)
            unfold det3 at *
            have hw : v.x - u.x ≠ 0 ∨ v.y - u.y ≠ 0 := pt_ne_cases huv.symm
            have hba : (b.x - a.x) * (v.y - u.y) - (b.y - a.y) * (v.x - u.x) = 0 := by linear_combination ha - hb
            have hpa := cross_trans (pt_ne_cases d3.symm) (vx := q.x - a.x) (vy := q.y - a.y) (wx := v.x - u.x) (wy := v.y - u.y)
              (by linear_combination -hdet) (by linear_combination hba)
            linear_combination ha - hpa
          · exact h q ((hn.mem_erase_iff).2 ⟨hqp, hq⟩)
      · right
        have hrest : rest = [] := by
          rw [← List.length_eq_zero_iff]; omega
        subst hrest
        refine ⟨a, b, d3, fun q hq => ?_⟩
        have := (hr.mem_iff).1 hq
        simp only [List.mem_cons, List.not_mem_nil, or_false] at this
        rcases this with rfl | rfl | rfl
        · unfold det3; ring
        · unfold det3 at *; linear_combination -hdet
        · unfold det3; ring

/-- a polygon whose vertices are not all on one line has at least three corners -/
theorem three_corners {vs : List (Pt K)} (hn : vs.Nodup) {a b c : Pt K} (ha : a ∈ vs) (hb : b ∈ vs) (hc : c ∈ vs) (h : det3 a b c ≠ 0) :
    3 ≤ (polyCorners vs).length := by
  have hab : a ≠ b := by rintro rfl; apply h; unfold det3; ring
  have hac : a ≠ c := by rintro rfl; apply h; unfold det3; ring
  have hbc : b ≠ c := by rintro rfl; apply h; unfold det3; ring
  have h3 : 3 ≤ vs.length := by
    have hs : ([a, b, c] : List (Pt K)).Nodup := by simp [hab, hac, hbc]
    have := (hs.subperm (l₂ := vs) (by
      intro x hx
      simp only [List.mem_cons, List.not_mem_nil, or_false] at hx
      rcases hx with rfl | rfl | rfl <;> assumption)).length_le
    simpa using this
  rcases corners_or_line vs.length vs rfl hn h3 with h' | ⟨u, v, huv, hl⟩
  · exact h'
  · exfalso
    apply h
    have e1 := hl a ha
    have e2 := hl b hb
    have e3 := hl c hc
    unfold det3 at *
    exact cross_trans (pt_ne_cases huv.symm) (by linear_combination e2 - e1) (by linear_combination e3 - e1)

theorem thin_length_le (T : Pt K → Pt K → Pt K → Bool) (ps vs : List (Pt K)) : (thin T ps vs).length ≤ vs.length :=
  (thin_sublist T ps vs).length_le

/-- the area changes by at most `e` with each vertex left out -/
theorem thin_area {T : Pt K → Pt K → Pt K → Bool} {e : K} (ps : List (Pt K)) : ∀ (vs : List (Pt K)), vs.Nodup →
    (∀ a ∈ vs, ∀ p ∈ vs, ∀ b ∈ vs, a ≠ p → p ≠ b → a ≠ b → T a p b = true → |det3 a p b| ≤ e) → 3 ≤ (thin T ps vs).length →
    |shoelace vs - shoelace (thin T ps vs)| ≤ ((vs.length : K) - (thin T ps vs).length) * e := by
  induction ps with
  | nil => intro vs _ _ _; simp [thin_nil]
  | cons p ps ih =>
    intro vs hn hT h3
    rw [thin_cons] at h3 ⊢
    by_cases hf : flatAt T vs p = true
    · rw [if_pos hf] at h3 ⊢
      have hp : p ∈ vs := by
        by_contra hc
        unfold flatAt at hf
        rw [dif_neg hc] at hf
        cases hf
      have hle := thin_length_le T ps (vs.erase p)
      rw [List.length_erase_of_mem hp] at hle
      obtain ⟨a, b, rest, hr⟩ := exists_around hp (by omega)
      obtain ⟨⟨ma, mp, mb⟩, d1, d2, d3⟩ := around_distinct hn hr
      have h1 := ih (vs.erase p) (hn.erase p)
        (fun a ha p hp b hb => hT a (List.mem_of_mem_erase ha) p (List.mem_of_mem_erase hp) b (List.mem_of_mem_erase hb)) h3
      rw [flatAt_around hn hr] at hf
      have h2 := hT a ma p mp b mb d1 d2 d3 hf
      rw [← shoelace_erase hn hr] at h2
      rw [List.length_erase_of_mem hp, Nat.cast_sub (by omega), Nat.cast_one] at h1
      have h4 := abs_add_le (shoelace vs - shoelace (vs.erase p)) (shoelace (vs.erase p) - shoelace (thin T ps (vs.erase p)))
      rw [sub_add_sub_cancel] at h4
      linarith
    · rw [if_neg hf] at h3 ⊢
      exact ih vs hn hT h3

end Srep
