import Verif.Model.Pointset
import Verif.Props.Midpoint
import Verif.Props.Point
import Verif.Props.LineA
import Verif.Lemmas.SegExact

/-!
# Joining a set of points (C114)
-/

set_option linter.unusedSectionVars false

namespace Srep
open Rt
variable {K : Type} [Field K] [LinearOrder K] [IsStrictOrderedRing K] [FloorRing K] {R : Rt K}

/-- the first element of the sorted list is one of the nearest ones -/
theorem nearest_head (p : Pt K) {rest : List (Pt K)} {x : Pt K} {t : List (Pt K)}
    (h : (rest.insertionSort fun x y => R.distance x p ≤ R.distance y p) = x :: t) :
    x ∈ rest ∧ ∀ y ∈ rest, R.distance x p ≤ R.distance y p := by
  have hp := List.perm_insertionSort (fun x y : Pt K => R.distance x p ≤ R.distance y p) rest
  have : Std.Total fun x y : Pt K => R.distance x p ≤ R.distance y p := ⟨fun _ _ => le_total _ _⟩
  have : IsTrans (Pt K) fun x y => R.distance x p ≤ R.distance y p := ⟨fun _ _ _ => le_trans⟩
  have hs := List.pairwise_insertionSort (fun x y : Pt K => R.distance x p ≤ R.distance y p) rest
  rw [h] at hp hs
  refine ⟨hp.mem_iff.1 (by simp), ?_⟩
  intro y hy
  rcases List.mem_cons.1 (hp.mem_iff.2 hy) with rfl | hy
  · exact le_refl _
  · exact List.rel_of_pairwise_cons hs hy

/-- what the rounds can give -/
theorem nearestNext_ok (hR : R.IsRounding) (points : List (Pt K)) (hap : Apart R.tol {q | q ∈ points}) (p : Pt K) :
    ∀ n ps, ps.Nodup → (∀ q ∈ ps, q ∈ points) →
      (R.nearestNext points p n ps = .error .index ∨
        ∃ t, R.nearestNext points p n ps = .ok (ps ++ t) ∧ (ps ++ t).Nodup ∧ (∀ q ∈ t, q ∈ points) ∧
          t.Pairwise (fun a b => R.distance a p ≤ R.distance b p) ∧ t.length = n) ∧
      (points.Nodup → ps.length + n ≤ points.length → R.nearestNext points p n ps ≠ .error .index) := by
  intro n
  induction n with
  | zero =>
    intro ps h1 h2
    exact ⟨Or.inr ⟨[], by simp [Rt.nearestNext], by simpa using h1, by simp, List.Pairwise.nil, rfl⟩, by simp [Rt.nearestNext]⟩
  | succ n ih =>
    intro ps h1 h2
    have hin : ∀ x ∈ points, (ps.any fun q => R.peq q x) = true ↔ x ∈ ps := by
      intro x hx
      rw [List.any_eq_true]
      constructor
      · rintro ⟨q, hq, e⟩
        have : q = x := (C04_apart hR hap (h2 q hq) hx).1.1 e
        exact this ▸ hq
      · intro h
        exact ⟨x, h, hR.peq_refl x⟩
    have hrest : ∀ x, x ∈ (points.filter fun x => !ps.any fun q => R.peq q x) ↔ x ∈ points ∧ x ∉ ps := by
      intro x
      rw [List.mem_filter]
      refine and_congr_right fun hx => ?_
      rw [Bool.not_eq_true', ← Bool.not_eq_true, hin x hx]
    rw [Rt.nearestNext]
    split
    · rename_i hs
      refine ⟨Or.inl rfl, ?_⟩
      intro hnd hlen
      exfalso
      have hnil : (points.filter fun x => !ps.any fun q => R.peq q x) = [] := by
        rw [← List.length_eq_zero_iff, ← (List.perm_insertionSort (fun x y : Pt K => R.distance x p ≤ R.distance y p) _).length_eq, hs]
        rfl
      have hsub : points ⊆ ps := by
        intro x hx
        by_contra hc
        have := (hrest x).2 ⟨hx, hc⟩
        rw [hnil] at this
        cases this
      have := (hnd.subperm hsub).length_le
      omega
    · rename_i x t hs
      obtain ⟨hx, hmin⟩ := nearest_head p hs
      obtain ⟨hxp, hxn⟩ := (hrest x).1 hx
      have n1 : (ps ++ [x]).Nodup := by
        rw [List.nodup_append]
        refine ⟨h1, by simp, ?_⟩
        intro a ha b hb
        rw [List.mem_singleton] at hb
        rintro rfl
        exact hxn (hb ▸ ha)
      have n2 : ∀ q ∈ ps ++ [x], q ∈ points := by
        intro q hq
        rcases List.mem_append.1 hq with hq | hq
        · exact h2 q hq
        · rw [List.mem_singleton] at hq; exact hq ▸ hxp
      obtain ⟨ih1, ih2⟩ := ih (ps ++ [x]) n1 n2
      constructor
      · rcases ih1 with e | ⟨t', e, m1, m2, m3, m4⟩
        · exact Or.inl e
        · refine Or.inr ⟨x :: t', ?_, ?_, ?_, ?_, by simp [m4]⟩
          · rw [e]; simp
          · simpa using m1
          · intro q hq
            rcases List.mem_cons.1 hq with rfl | hq
            · exact hxp
            · exact m2 q hq
          · rw [List.pairwise_cons]
            refine ⟨?_, m3⟩
            intro y hy
            refine hmin y ((hrest y).2 ⟨m2 y hy, ?_⟩)
            intro hc
            have hd := (List.nodup_append.1 m1).2.2
            exact hd y (List.mem_append_left _ hc) y hy rfl
      · intro hnd hlen
        exact ih2 hnd (by rw [List.length_append, List.length_singleton]; omega)

/-- C114: from a start point the points are joined in the order of their distance from the start point, each point once. -/
theorem C114_path (hR : R.IsRounding) (points : List (Pt K)) (hap : Apart R.tol {q | q ∈ points}) (hnd : points.Nodup)
    {p : Pt K} (hp : p ∈ points) : ∃ t, R.pointPath points p = .ok (p :: t) ∧ (p :: t).Perm points ∧
      t.Pairwise fun a b => R.distance a p ≤ R.distance b p := by
  have hlen : 0 < points.length := List.length_pos_of_mem hp
  obtain ⟨h1, h2⟩ := nearestNext_ok hR points hap p (points.length - 1) [p] (by simp) (by simpa using hp)
  rcases h1 with e | ⟨t, e, m1, m2, m3, m4⟩
  · exact absurd e (h2 hnd (by rw [List.length_singleton]; omega))
  · refine ⟨t, e, ?_, m3⟩
    have hsub : p :: t ⊆ points := by
      intro q hq
      rcases List.mem_cons.1 hq with rfl | hq
      · exact hp
      · exact m2 q hq
    exact ((show (p :: t).Nodup from m1).subperm hsub).perm_of_length_le (by rw [List.length_cons]; omega)

/-- the rounds over the start points -/
theorem pointset_fold (points : List (Pt K)) (path : Pt K → List (Pt K)) :
    ∀ (starts : List (Pt K)) (b : K × Option (List (Seg K))), (∀ p ∈ starts, R.pointPath points p = .ok (path p)) →
      ∃ r, starts.foldlM (fun (b : K × Option (List (Seg K))) p => do
        let ps ← R.pointPath points p
        if R.pathLen (joinPts ps) < b.1 then pure (R.pathLen (joinPts ps), some (joinPts ps)) else pure b) b = Except.ok r ∧
      r.1 ≤ b.1 ∧ (∀ p ∈ starts, r.1 ≤ R.pathLen (joinPts (path p))) ∧
      (r = b ∨ ∃ p ∈ starts, r = (R.pathLen (joinPts (path p)), some (joinPts (path p))) ∧ R.pathLen (joinPts (path p)) < b.1) := by
  intro starts
  induction starts with
  | nil => intro b _; exact ⟨b, rfl, le_refl _, by simp, Or.inl rfl⟩
  | cons a l ih =>
    intro b h
    rw [List.foldlM_cons, h a (by simp)]
    by_cases hc : R.pathLen (joinPts (path a)) < b.1
    · obtain ⟨r, e, h1, h2, h3⟩ := ih (R.pathLen (joinPts (path a)), some (joinPts (path a))) fun p hp => h p (List.mem_cons_of_mem _ hp)
      refine ⟨r, ?_, h1.trans hc.le, ?_, ?_⟩
      · rw [← e]
        change (if _ then _ else _) >>= _ = _
        rw [if_pos hc]
        rfl
      · intro p hp
        rcases List.mem_cons.1 hp with rfl | hp
        · exact h1
        · exact h2 p hp
      · rcases h3 with h3 | ⟨p, hp, h3, h4⟩
        · exact Or.inr ⟨a, by simp, h3, hc⟩
        · exact Or.inr ⟨p, List.mem_cons_of_mem _ hp, h3, h4.trans hc⟩
    · obtain ⟨r, e, h1, h2, h3⟩ := ih b fun p hp => h p (List.mem_cons_of_mem _ hp)
      refine ⟨r, ?_, h1, ?_, ?_⟩
      · rw [← e]
        change (if _ then _ else _) >>= _ = _
        rw [if_neg hc]
        rfl
      · intro p hp
        rcases List.mem_cons.1 hp with rfl | hp
        · exact h1.trans (not_lt.1 hc)
        · exact h2 p hp
      · rcases h3 with h3 | ⟨p, hp, h3, h4⟩
        · exact Or.inl h3
        · exact Or.inr ⟨p, List.mem_cons_of_mem _ hp, h3, h4⟩

/-- C114: the result is the shortest one of the paths from the start points, whatever the order of iteration of the set is; if
none is shorter than 10e10, a NameError (UnboundLocalError) is raised. -/
theorem C114_result (hR : R.IsRounding) (points : List (Pt K)) (hap : Apart R.tol {q | q ∈ points}) (hnd : points.Nodup)
    (starts : List (Pt K)) (hst : ∀ p, p ∈ starts ↔ p ∈ points) :
    ((∃ p ∈ points, ∃ ps, R.pointPath points p = .ok ps ∧ R.pathLen (joinPts ps) < 10 ^ 11) →
      ∃ p ∈ points, ∃ ps, R.pointPath points p = .ok ps ∧ R.segmentsFromPointset starts points = .ok (joinPts ps) ∧
        ∀ q ∈ points, ∀ qs, R.pointPath points q = .ok qs → R.pathLen (joinPts ps) ≤ R.pathLen (joinPts qs)) ∧
    ((∀ p ∈ points, ∀ ps, R.pointPath points p = .ok ps → 10 ^ 11 ≤ R.pathLen (joinPts ps)) →
      R.segmentsFromPointset starts points = .error .name) := by
  choose! f hf using fun p (hp : p ∈ points) => C114_path hR points hap hnd hp
  obtain ⟨r, e, h1, h2, h3⟩ := pointset_fold (R := R) points (fun p => p :: f p) starts ((10 : K) ^ 11, none)
    fun p hp => (hf p ((hst p).1 hp)).1
  have hres : R.segmentsFromPointset starts points = match r.2 with
      | none => .error .name
      | some l => .ok l := by
    unfold Rt.segmentsFromPointset
    rw [e]
    rfl
  have hpath : ∀ p ∈ points, ∀ ps, R.pointPath points p = .ok ps → ps = p :: f p := by
    intro p hp ps h
    rw [(hf p hp).1] at h
    injection h with h
    exact h.symm
  constructor
  · rintro ⟨p, hp, ps, hps, hlt⟩
    rcases h3 with h3 | ⟨q, hq, h3, h4⟩
    · exfalso
      have := h2 p ((hst p).2 hp)
      rw [h3] at this
      rw [hpath p hp ps hps] at hlt
      exact absurd hlt (not_lt.2 this)
    · refine ⟨q, (hst q).1 hq, q :: f q, (hf q ((hst q).1 hq)).1, by rw [hres, h3], ?_⟩
      intro z hz qs hqs
      have := h2 z ((hst z).2 hz)
      rw [h3] at this
      rw [hpath z hz qs hqs]
      exact this
  · intro h
    rcases h3 with h3 | ⟨q, hq, h3, h4⟩
    · rw [hres, h3]
    · exact absurd h4 (not_lt.2 (h q ((hst q).1 hq) _ (hf q ((hst q).1 hq)).1))

/-- C114: no points are a NameError, points that are not all different an IndexError. -/
theorem C114_errors (hR : R.IsRounding) (points : List (Pt K)) (hap : Apart R.tol {q | q ∈ points})
    (starts : List (Pt K)) (hst : ∀ p, p ∈ starts ↔ p ∈ points) :
    (points = [] → R.segmentsFromPointset starts points = .error .name) ∧
    (¬points.Nodup → R.segmentsFromPointset starts points = .error .index) := by
  constructor
  · rintro rfl
    have : starts = [] := List.eq_nil_iff_forall_not_mem.2 fun p hp => by simpa using (hst p).1 hp
    rw [this]
    rfl
  · intro hnd
    cases starts with
    | nil =>
      exfalso
      apply hnd
      have : points = [] := List.eq_nil_iff_forall_not_mem.2 fun p hp => by simpa using (hst p).2 hp
      rw [this]
      exact List.nodup_nil
    | cons a l =>
      have ha : a ∈ points := (hst a).1 (by simp)
      have hlen : 0 < points.length := List.length_pos_of_mem ha
      have he : R.pointPath points a = .error .index := by
        rcases (nearestNext_ok hR points hap a (points.length - 1) [a] (by simp) (by simpa using ha)).1 with e | ⟨t, e, m1, m2, m3, m4⟩
        · exact e
        · exfalso
          apply hnd
          have hsub : a :: t ⊆ points := by
            intro q hq
            rcases List.mem_cons.1 hq with rfl | hq
            · exact ha
            · exact m2 q hq
          have hperm := ((show (a :: t).Nodup from m1).subperm hsub).perm_of_length_le (by rw [List.length_cons]; omega)
          exact hperm.nodup_iff.1 m1
      unfold Rt.segmentsFromPointset
      rw [List.foldlM_cons, he]
      rfl

/-! ### points on a line -/

theorem pathLen_cons (hE : R.IsExact) (a b : Pt K) (l : List (Pt K)) :
    R.pathLen (joinPts (a :: b :: l)) = R.distance a b + R.pathLen (joinPts (b :: l)) := by
  unfold Rt.pathLen
  rw [psum_exact hE, psum_exact hE]
  simp [joinPts, hE.norm']

theorem pathLen_single (hE : R.IsExact) (a : Pt K) : R.pathLen (joinPts [a]) = 0 := by
  unfold Rt.pathLen
  rw [psum_exact hE]
  simp [joinPts]

theorem pathLen_nonneg (hE : R.IsExact) : ∀ (a : Pt K) (l : List (Pt K)), 0 ≤ R.pathLen (joinPts (a :: l))
  | a, [] => (pathLen_single hE a).ge
  | a, b :: l => by
    rw [pathLen_cons hE]
    exact add_nonneg (hE.sqrt_nonneg _) (pathLen_nonneg hE b l)

/-- a path is at least as long as the distance of two of its points -/
theorem distance_le_path (hE : R.IsExact) : ∀ (l : List (Pt K)) (x y : Pt K), x ∈ l → y ∈ l →
    R.distance x y ≤ R.pathLen (joinPts l)
  | [], x, y, hx, _ => by cases hx
  | [a], x, y, hx, hy => by
    rw [List.mem_singleton] at hx hy
    rw [hx, hy, hE.isRounding.distance_self, pathLen_single hE]
  | a :: b :: l, x, y, hx, hy => by
    rw [pathLen_cons hE]
    have hn : 0 ≤ R.distance a b := hE.sqrt_nonneg _
    have hab : ∀ z, z ∈ b :: l → R.distance a z ≤ R.distance a b + R.pathLen (joinPts (b :: l)) := fun z hz =>
      (C07_triangle hE a b z).trans (add_le_add le_rfl (distance_le_path hE (b :: l) b z (by simp) hz))
    rcases List.mem_cons.1 hx with hx | hx
    · rcases List.mem_cons.1 hy with hy | hy
      · rw [hx, hy, hE.isRounding.distance_self]
        exact add_nonneg hn (pathLen_nonneg hE b l)
      · rw [hx]; exact hab y hy
    · rcases List.mem_cons.1 hy with hy | hy
      · rw [hy, hE.isRounding.distance_comm]; exact hab x hx
      · exact (distance_le_path hE (b :: l) x y hx hy).trans (le_add_of_nonneg_left hn)

/-- the points lie on the line through `a` with direction `d` -/
def AllOnLine (a d : Pt K) (points : List (Pt K)) : Prop := ∀ p ∈ points, ∃ t : K, p = ⟨a.x + t * d.x, a.y + t * d.y⟩

theorem distance_line (hE : R.IsExact) (a d : Pt K) (s t : K) :
    R.distance ⟨a.x + s * d.x, a.y + s * d.y⟩ ⟨a.x + t * d.x, a.y + t * d.y⟩ = |t - s| * R.sqrt (d.x * d.x + d.y * d.y) := by
  have h0 : 0 ≤ d.x * d.x + d.y * d.y := add_nonneg (mul_self_nonneg _) (mul_self_nonneg _)
  have h1 : 0 ≤ R.sqrt (d.x * d.x + d.y * d.y) := hE.sqrt_nonneg _
  refine (mul_self_inj (hE.sqrt_nonneg _) (mul_nonneg (abs_nonneg _) h1)).1 ?_
  have := hE.distance_sq ⟨a.x + s * d.x, a.y + s * d.y⟩ ⟨a.x + t * d.x, a.y + t * d.y⟩
  refine Eq.trans this ?_
  have e : |t - s| * R.sqrt (d.x * d.x + d.y * d.y) * (|t - s| * R.sqrt (d.x * d.x + d.y * d.y)) =
      (|t - s| * |t - s|) * (R.sqrt (d.x * d.x + d.y * d.y) * R.sqrt (d.x * d.x + d.y * d.y)) := by ring
  rw [e, abs_mul_abs_self, hE.sqrt_sq _ h0]
  ring

/-- C114: of points on a line the result is a shortest way to join them (exact arithmetic). -/
theorem C114_collinear (hE : R.IsExact) (points : List (Pt K)) (hap : Apart R.tol {q | q ∈ points}) (hnd : points.Nodup)
    (hne : points ≠ []) (a d : Pt K) (hline : AllOnLine a d points) (hsmall : ∀ p ∈ points, ∀ q ∈ points, R.distance p q < 10 ^ 11)
    (starts : List (Pt K)) (hst : ∀ p, p ∈ starts ↔ p ∈ points) :
    ∃ ps, R.segmentsFromPointset starts points = .ok (joinPts ps) ∧ ps.Perm points ∧
      ∀ qs, qs.Perm points → R.pathLen (joinPts ps) ≤ R.pathLen (joinPts qs) := by
  choose! τ hτ using hline
  -- the first point on the line
  obtain ⟨e, he, hmin⟩ : ∃ e ∈ points, ∀ p ∈ points, τ e ≤ τ p := by
    have : ∀ l : List (Pt K), l ≠ [] → ∃ e ∈ l, ∀ p ∈ l, τ e ≤ τ p := by
      intro l
      induction l with
      | nil => intro h; exact absurd rfl h
      | cons b l ih =>
        intro _
        by_cases hl : l = []
        · subst hl; exact ⟨b, by simp, by simp⟩
        · obtain ⟨e, he, hm⟩ := ih hl
          rcases le_total (τ b) (τ e) with h | h
          · refine ⟨b, by simp, fun p hp => ?_⟩
            rcases List.mem_cons.1 hp with rfl | hp
            · exact le_rfl
            · exact h.trans (hm p hp)
          · refine ⟨e, List.mem_cons_of_mem _ he, fun p hp => ?_⟩
            rcases List.mem_cons.1 hp with rfl | hp
            · exact h
            · exact hm p hp
    exact this points hne
  set D := R.sqrt (d.x * d.x + d.y * d.y) with hD
  have hD0 : 0 ≤ D := hE.sqrt_nonneg _
  have hdist : ∀ p ∈ points, ∀ q ∈ points, R.distance p q = |τ q - τ p| * D := by
    intro p hp q hq
    conv_lhs => rw [hτ p hp, hτ q hq]
    exact distance_line hE a d _ _
  have hde : ∀ p ∈ points, R.distance p e = (τ p - τ e) * D := by
    intro p hp
    rw [hdist p hp e he, abs_sub_comm, abs_of_nonneg (sub_nonneg.2 (hmin p hp))]
  -- the path from this point
  have tele : ∀ (t : List (Pt K)) (b : Pt K), b ∈ points → (∀ q ∈ t, q ∈ points) →
      (b :: t).Pairwise (fun x y => R.distance x e ≤ R.distance y e) →
      ∃ z ∈ b :: t, R.pathLen (joinPts (b :: t)) = R.distance z e - R.distance b e := by
    intro t
    induction t with
    | nil => intro b _ _ _; exact ⟨b, by simp, by rw [pathLen_single hE, sub_self]⟩
    | cons c t ih =>
      intro b hb ht hs
      have hc := ht c (by simp)
      rw [List.pairwise_cons] at hs
      obtain ⟨z, hz, ez⟩ := ih c hc (fun q hq => ht q (List.mem_cons_of_mem _ hq)) hs.2
      refine ⟨z, List.mem_cons_of_mem _ hz, ?_⟩
      have h1 := hs.1 c (by simp)
      rw [pathLen_cons hE, ez, hdist b hb c hc]
      rw [hde b hb, hde c hc] at h1
      have h2 : 0 ≤ (τ c - τ b) * D := by linarith
      have h3 : |τ c - τ b| * D = (τ c - τ b) * D := by
        rw [← abs_of_nonneg hD0, ← abs_mul, abs_of_nonneg hD0, abs_of_nonneg h2]
      rw [h3, hde b hb, hde c hc]
      ring
  obtain ⟨t, et, hperm, hsort⟩ := C114_path hE.isRounding points hap hnd he
  have hsub : ∀ q ∈ e :: t, q ∈ points := fun q hq => hperm.mem_iff.1 hq
  obtain ⟨z, hz, ez⟩ := tele t e he (fun q hq => hsub q (List.mem_cons_of_mem _ hq)) (by
    rw [List.pairwise_cons]
    refine ⟨?_, hsort⟩
    intro y _
    rw [hE.isRounding.distance_self]
    exact hE.sqrt_nonneg _)
  rw [hE.isRounding.distance_self, sub_zero] at ez
  have hzp := hsub z hz
  obtain ⟨p, hp, ps, hps, hres, hbest⟩ := (C114_result hE.isRounding points hap hnd starts hst).1
    ⟨e, he, e :: t, et, by rw [ez]; exact hsmall z hzp e he⟩
  obtain ⟨t', et', hperm', -⟩ := C114_path hE.isRounding points hap hnd hp
  rw [et'] at hps
  injection hps with hps
  refine ⟨ps, hres, hps ▸ hperm', ?_⟩
  intro qs hqs
  calc R.pathLen (joinPts ps) ≤ R.pathLen (joinPts (e :: t)) := hbest e he _ et
    _ = R.distance z e := ez
    _ ≤ _ := distance_le_path hE qs z e (hqs.mem_iff.2 hzp) (hqs.mem_iff.2 he)

/-! ### the result is not the shortest one in general -/

/-- the corners of a rectangle -/
def exCorners : List (Pt ℚ) := [⟨0, 0⟩, ⟨2, 0⟩, ⟨2, 3⟩, ⟨0, 3⟩]

theorem exCorners_apart : Apart exRt.tol {q | q ∈ exCorners} := by
  have : ∀ p ∈ exCorners, ∀ q ∈ exCorners, p ≠ q → exRt.tol ≤ |p.x - q.x| ∨ exRt.tol ≤ |p.y - q.y| := by decide +kernel
  exact this

/-- C114: the corners of a rectangle with sides 2 and 3 can be joined with length 7; whatever the order of iteration is, the result
is longer than 7.6, as it contains a diagonal. -/
theorem C114_not_shortest (starts : List (Pt ℚ)) (hst : ∀ p, p ∈ starts ↔ p ∈ exCorners) :
    ∃ l, exRt.segmentsFromPointset starts exCorners = .ok l ∧ 76 / 10 < exRt.pathLen l ∧
      ∃ ps, ps.Perm exCorners ∧ exRt.pathLen (joinPts ps) = 7 := by
  have hall : ∀ p ∈ exCorners, (match exRt.pointPath exCorners p with
      | .ok ps => decide (76 / 10 < exRt.pathLen (joinPts ps)) && decide (exRt.pathLen (joinPts ps) < 10 ^ 11)
      | .error _ => false) = true := by decide +kernel
  have hp0 : (⟨0, 0⟩ : Pt ℚ) ∈ exCorners := by decide +kernel
  obtain ⟨t, et, -, -⟩ := C114_path exRt_isRounding exCorners exCorners_apart (by decide +kernel) hp0
  have h0 := hall _ hp0
  rw [et] at h0
  simp only [Bool.and_eq_true, decide_eq_true_eq] at h0
  obtain ⟨p, hp, ps, hps, hres, -⟩ := (C114_result exRt_isRounding exCorners exCorners_apart (by decide +kernel) starts hst).1
    ⟨_, hp0, _, et, h0.2⟩
  have h1 := hall p hp
  rw [hps] at h1
  simp only [Bool.and_eq_true, decide_eq_true_eq] at h1
  exact ⟨_, hres, h1.1, exCorners, List.Perm.refl _, by decide +kernel⟩

/-! ### examples -/

/-- four points on a line, in mixed order -/
example : (match exRt.segmentsFromPointset [⟨4, 0⟩, ⟨0, 0⟩, ⟨7, 0⟩, ⟨1, 0⟩] [⟨4, 0⟩, ⟨0, 0⟩, ⟨7, 0⟩, ⟨1, 0⟩] with
    | .ok l => decide (l = [exSeg 0 0 1 0, exSeg 1 0 4 0, exSeg 4 0 7 0])
    | .error _ => false) = true := by decide +kernel

/-- a point given twice -/
example : (match exRt.segmentsFromPointset [⟨4, 0⟩, ⟨0, 0⟩] [⟨4, 0⟩, ⟨0, 0⟩, ⟨4, 0⟩] with
    | .ok _ => false
    | .error e => decide (e = .index)) = true := by decide +kernel

end Srep
