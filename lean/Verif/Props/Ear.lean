import Verif.Lemmas.EarB
import Verif.Spec.Example

/-! Property C90: ear clipping. -/

set_option linter.unusedSectionVars false

namespace Srep
open Rt
variable {K : Type} [Field K] [LinearOrder K] [IsStrictOrderedRing K] [FloorRing K]

/-! ### Cutting corners off -/

theorem pathSum_append (p : Pt K) : ∀ (u v : List (Pt K)), pathSum (u ++ p :: v) = pathSum (u ++ [p]) + pathSum (p :: v)
  | [], v => by simp [pathSum]
  | [a], v => by simp [pathSum]
  | a :: b :: u, v => by
    have := pathSum_append p (b :: u) v
    simp only [List.cons_append, pathSum] at this ⊢
    rw [this]; ring

theorem twiceArea_append (u v : List (Pt K)) : twiceArea (u ++ v) = twiceArea (v ++ u) := by
  cases u with
  | nil => simp
  | cons a u =>
    cases v with
    | nil => simp
    | cons b v =>
      unfold twiceArea
      have e1 : (a :: u ++ b :: v) ++ List.take 1 (a :: u ++ b :: v) = (a :: u) ++ b :: (v ++ [a]) := by simp
      have e2 : (b :: v ++ a :: u) ++ List.take 1 (b :: v ++ a :: u) = (b :: v) ++ a :: (u ++ [b]) := by simp
      rw [e1, e2, pathSum_append b (a :: u), pathSum_append a (b :: v)]
      simp only [List.cons_append]
      ring

theorem twiceArea_rotated {w w' : List (Pt K)} (h : w ~r w') : twiceArea w = twiceArea w' := by
  obtain ⟨n, rfl⟩ := h
  rcases Nat.eq_zero_or_pos w.length with e | e
  · rw [List.length_eq_zero_iff] at e
    subst e
    simp
  rw [← List.rotate_mod, List.rotate_eq_drop_append_take (Nat.mod_lt _ e).le, twiceArea_append, List.take_append_drop]

/-- the doubled area of the cut triangle is what the polygon loses -/
theorem twiceArea_cut (a b c : Pt K) (u : List (Pt K)) :
    twiceArea (a :: b :: u ++ [c]) = det3 c a b + twiceArea (b :: u ++ [c]) := by
  have e1 : twiceArea (a :: b :: u ++ [c]) = pathSum [a, b] + pathSum (b :: u ++ [c]) + pathSum [c, a] := by
    have : (a :: b :: u ++ [c]) ++ List.take 1 (a :: b :: u ++ [c]) = (a :: b :: u) ++ c :: [a] := by simp
    unfold twiceArea
    rw [this, pathSum_append c (a :: b :: u) [a]]
    simp [pathSum]
  have e2 : twiceArea (b :: u ++ [c]) = pathSum (b :: u ++ [c]) + pathSum [c, b] := by
    have : (b :: u ++ [c]) ++ List.take 1 (b :: u ++ [c]) = (b :: u) ++ c :: [b] := by simp
    unfold twiceArea
    rw [this, pathSum_append c (b :: u) [b]]
  rw [e1, e2]
  simp only [pathSum, det3]
  ring

theorem Cuts.area {w v : List (Pt K)} {ts : List (Pt K × Pt K × Pt K)} (h : Cuts w ts v) :
    (ts.map fun t => det3 t.1 t.2.1 t.2.2).sum + twiceArea v = twiceArea w := by
  induction h with
  | nil w => simp
  | cut hr _ ih =>
    rw [List.map_cons, List.sum_cons, add_assoc, ih, twiceArea_rotated hr, twiceArea_cut]

theorem Cuts.length {w v : List (Pt K)} {ts : List (Pt K × Pt K × Pt K)} (h : Cuts w ts v) :
    ts.length + v.length = w.length := by
  induction h with
  | nil w => simp
  | cut hr _ ih =>
    have := hr.perm.length_eq
    simp at this ih ⊢
    omega

theorem sublist_rotated {v x z : List (Pt K)} (h : v.Sublist x) (hr : v ~r z) :
    ∃ y, x ~r y ∧ z.Sublist y := by
  obtain ⟨n, rfl⟩ := hr
  rcases Nat.eq_zero_or_pos v.length with e | e
  · rw [List.length_eq_zero_iff] at e
    subst e
    exact ⟨x, List.IsRotated.refl _, by simp⟩
  rw [← List.rotate_mod, List.rotate_eq_drop_append_take (Nat.mod_lt _ e).le]
  rw [← List.take_append_drop (n % v.length) v, List.append_sublist_iff] at h
  obtain ⟨r1, r2, rfl, s1, s2⟩ := h
  refine ⟨r2 ++ r1, ?_, List.Sublist.append s2 s1⟩
  have := List.IsRotated.forall (r1 ++ r2) r1.length
  rw [List.rotate_append_length_eq] at this
  exact this.symm

/-- the corners of every cut triangle are corners of the polygon, met in this order when going round it -/
theorem Cuts.sublist {w v : List (Pt K)} {ts : List (Pt K × Pt K × Pt K)} (h : Cuts w ts v) :
    ∀ t ∈ ts, ∃ w', w ~r w' ∧ [t.1, t.2.1, t.2.2].Sublist w' := by
  induction h with
  | nil w => simp
  | @cut w v a b c u ts hr _ ih =>
    intro t ht
    rcases List.mem_cons.1 ht with rfl | ht
    · refine ⟨c :: (a :: b :: u), hr.trans ?_, by simp⟩
      have := List.IsRotated.forall (a :: b :: u ++ [c]) (a :: b :: u).length
      rw [List.rotate_append_length_eq] at this
      exact this.symm
    · obtain ⟨w', h1, h2⟩ := ih t ht
      obtain ⟨y, h3, h4⟩ := sublist_rotated (List.sublist_cons_self a (b :: u ++ [c])) h1
      exact ⟨y, hr.trans h3, h2.trans h4⟩

/-- the corners turn left all the way round: any three of them, in their order, turn left -/
def LeftTurning (w : List (Pt K)) : Prop := ∀ a b c, [a, b, c].Sublist w → 0 < det3 a b c

theorem turn_rotated {w w' : List (Pt K)} {Q : K → Prop} (h : ∀ a b c, [a, b, c].Sublist w → Q (det3 a b c))
    (hr : w ~r w') : ∀ a b c, [a, b, c].Sublist w' → Q (det3 a b c) := by
  have hcyc : ∀ a b c : Pt K, det3 a b c = det3 b c a := by intro a b c; unfold det3; ring
  intro a b c hs
  obtain ⟨n, rfl⟩ := hr
  rcases Nat.eq_zero_or_pos w.length with e | e
  · rw [List.length_eq_zero_iff] at e
    subst e
    simp at hs
  rw [← List.rotate_mod, List.rotate_eq_drop_append_take (Nat.mod_lt _ e).le] at hs
  generalize n % w.length = k at hs
  have hw := List.take_append_drop k w
  generalize w.take k = x1 at *
  generalize w.drop k = x2 at *
  rw [List.sublist_append_iff] at hs
  obtain ⟨t2, t1, e, s2, s1⟩ := hs
  have key : (t1 ++ t2).Sublist w := by rw [← hw]; exact s1.append s2
  match t2, t1, e with
  | [], t1, e =>
    rw [List.nil_append] at e
    rw [List.append_nil, ← e] at key
    exact h a b c key
  | [x], t1, e =>
    simp only [List.cons_append, List.nil_append, List.cons.injEq] at e
    obtain ⟨rfl, rfl⟩ := e
    rw [hcyc]
    exact h b c a key
  | [x, y'], t1, e =>
    simp only [List.cons_append, List.nil_append, List.cons.injEq] at e
    obtain ⟨rfl, rfl, rfl⟩ := e
    rw [hcyc, hcyc]
    exact h c a b key
  | [x, y', z], t1, e =>
    simp only [List.cons_append, List.nil_append, List.cons.injEq] at e
    obtain ⟨rfl, rfl, rfl, rfl⟩ := e
    exact h _ _ _ (by simpa using key)
  | x :: y' :: z :: z' :: t, t1, e =>
    simp at e

theorem LeftTurning.rotated {w w' : List (Pt K)} (h : LeftTurning w) (hr : w ~r w') : LeftTurning w' :=
  turn_rotated (Q := fun x => 0 < x) h hr

/-! ### The loop -/

section
variable {R : Rt K} {choice : ℕ → List (Pt K) → Pt K} {tok : ℕ → Heap K → PLine → PLine → Bool}

theorem earLoop_spec (hR : R.IsRounding) (hch : ∀ n l, l ≠ [] → choice n l ∈ l) : ∀ (n : ℕ) (h : Heap K) (C : PLine)
    (w : List (Pt K)) (tris : List (List ℕ)), PolygonOf h w C.segs → 3 ≤ w.length → Apart R.tol {p | p ∈ w} →
    (∀ s ∈ C.segs, s < h.nseg) →
    ∃ ids ts v, (R.earLoop choice tok n h C tris).2.1 = tris ++ ids ∧ Later h (R.earLoop choice tok n h C tris).1 ∧
      List.Forall₂ (TriangleOf (R.earLoop choice tok n h C tris).1) ids ts ∧ Cuts w ts v ∧
      ts.length ≤ n ∧ (((R.earLoop choice tok n h C tris).2.2 = .ok true ∧ v.length = 2) ∨
        ((R.earLoop choice tok n h C tris).2.2 = .ok false ∧ 3 ≤ v.length) ∨
        (∃ e, (R.earLoop choice tok n h C tris).2.2 = .error e) ∧ ¬ R.IsExact) := by
  intro n
  induction n with
  | zero =>
    intro h C w tris hp h3 hap hl
    have hlen := (hp.pointSet hR h3 (sep_of_apart hR hap)).1
    unfold Rt.earLoop
    rw [if_neg (by omega)]
    exact ⟨[], [], w, by simp, Later.refl h, List.Forall₂.nil, Cuts.nil w, by simp,
      Or.inr (Or.inl ⟨rfl, h3⟩)⟩
  | succ n ih =>
    intro h C w tris hp h3 hap hl
    obtain ⟨hlen, hmem⟩ := hp.pointSet hR h3 (sep_of_apart hR hap)
    have hne : R.pointSet (h.vals C.segs) ≠ [] := by
      intro e; rw [e] at hlen; simp at hlen; omega
    have hround := earRound_spec hR hp h3 hap hl (hmem _ (hch n _ hne)) (tok n)
    unfold Rt.earLoop
    rw [if_neg (by omega)]
    simp only
    generalize R.earRound h C (choice n (R.pointSet (h.vals C.segs))) (tok n) = r at *
    generalize choice n (R.pointSet (h.vals C.segs)) = a at *
    cases r with
    | raised h' e =>
      exact ⟨[], [], w, by simp, hround.1, List.Forall₂.nil, Cuts.nil w, by simp,
        Or.inr (Or.inr ⟨⟨e, rfl⟩, hround.2⟩)⟩
    | rejected h' =>
      have hlat : Later h h' := hround.1
      obtain ⟨ids, ts, v, g1, g2, g3, g4, g5, g6⟩ := ih h' C w tris (hlat.polygonOf hp hl) h3 hap
        fun s hs => lt_of_lt_of_le (hl s hs) hlat.1
      exact ⟨ids, ts, v, g1, hlat.trans g2, g3, g4, by omega, g6⟩
    | clipped h' C' t =>
      obtain ⟨hlat, ht, hC, b, u, c, hr, htri, hpoly, hsmall⟩ := hround
      have hap' : Apart R.tol {p | p ∈ b :: u ++ [c]} := by
        intro p hp q hq
        exact hap p (hr.mem_iff.2 (List.mem_cons_of_mem a hp)) q (hr.mem_iff.2 (List.mem_cons_of_mem a hq))
      simp only
      by_cases hu : u = []
      · have hps := hsmall hu
        subst hu
        have e : R.earLoop choice tok n h' C' (tris ++ [t]) = (h', tris ++ [t], .ok true) := by
          unfold Rt.earLoop
          rw [if_pos hps]
        rw [e]
        exact ⟨[t], [(c, a, b)], [b, c], rfl, hlat, List.Forall₂.cons htri List.Forall₂.nil,
          Cuts.cut hr (Cuts.nil _), by simp, Or.inl ⟨rfl, rfl⟩⟩
      · have hlen' : 3 ≤ (b :: u ++ [c]).length := by
          have := List.length_pos_iff.2 hu
          simp; omega
        obtain ⟨ids, ts, v, g1, g2, g3, g4, g5, g6⟩ := ih h' C' (b :: u ++ [c]) (tris ++ [t]) (hpoly hu) hlen' hap' hC
        refine ⟨t :: ids, (c, a, b) :: ts, v, ?_, hlat.trans g2, List.Forall₂.cons (g2.triangleOf htri ht) g3,
          Cuts.cut hr g4, by simpa using g5, g6⟩
        rw [g1]; simp

theorem Cuts.two {v : List (Pt K)} (h : v.length = 2) : twiceArea v = 0 := by
  match v, h with
  | [b, c], _ => simp only [twiceArea, List.take, List.cons_append, List.nil_append, pathSum]; ring

/-- C90: `ear_clipping` of a polygon with n separated corners, whatever points are chosen and whatever `triangle_ok`
answers.  If it returns True it has stored exactly n - 2 triangles; in the final memory the segments of each are still
the sides of a triangle whose corners are corners of the polygon, met in this order when going round it; and the signed
areas add up to the signed area of the polygon. -/
theorem C90_triangulation (hR : R.IsRounding) (hch : ∀ n l, l ≠ [] → choice n l ∈ l) (h : Heap K) (C : PLine)
    (w : List (Pt K)) (hp : PolygonOf h w C.segs) (h3 : 3 ≤ w.length) (hap : Apart R.tol {p | p ∈ w})
    (hl : ∀ s ∈ C.segs, s < h.nseg) (h' : Heap K) (ids : List (List ℕ))
    (hres : R.earClipping choice tok h C = (h', ids, .ok true)) :
    ∃ ts : List (Pt K × Pt K × Pt K), List.Forall₂ (TriangleOf h') ids ts ∧ ts.length + 2 = w.length ∧
      (ts.map fun t => det3 t.1 t.2.1 t.2.2).sum = twiceArea w ∧
      ∀ t ∈ ts, ∃ w', w ~r w' ∧ [t.1, t.2.1, t.2.2].Sublist w' := by
  obtain ⟨ids', ts, v, g1, -, g3, g4, g6, g5⟩ := earLoop_spec (choice := choice) (tok := tok) hR hch 5000 h C w [] hp h3
    hap hl
  unfold Rt.earClipping at hres
  rw [hres] at g1 g3 g5
  simp only [List.nil_append] at g1
  subst g1
  rcases g5 with ⟨-, hv⟩ | ⟨hf, -⟩ | ⟨⟨e, hf⟩, -⟩
  · refine ⟨ts, g3, ?_, ?_, g4.sublist⟩
    · rw [← g4.length, hv]
    · rw [← g4.area, Cuts.two hv, add_zero]
  · simp at hf
  · simp at hf

/-- the corner at which a triangle is cut off is no corner of the triangles cut off later -/
theorem Cuts.fresh {w v : List (Pt K)} {ts : List (Pt K × Pt K × Pt K)} (h : Cuts w ts v) (hn : w.Nodup) :
    (ts.Pairwise fun t t' => t.2.1 ≠ t'.1 ∧ t.2.1 ≠ t'.2.1 ∧ t.2.1 ≠ t'.2.2) ∧
      ∀ t ∈ ts, t.1 ∈ w ∧ t.2.1 ∈ w ∧ t.2.2 ∈ w := by
  induction h with
  | nil w => simp
  | @cut w v a b c u ts hr _ ih =>
    have hn' := hr.perm.nodup_iff.1 hn
    rw [List.cons_append, List.nodup_cons] at hn'
    obtain ⟨i1, i2⟩ := ih hn'.2
    have hm : ∀ p, p ∈ w ↔ p ∈ a :: b :: u ++ [c] := fun p => hr.perm.mem_iff
    refine ⟨List.pairwise_cons.2 ⟨?_, i1⟩, ?_⟩
    · intro t ht
      obtain ⟨j1, j2, j3⟩ := i2 t ht
      exact ⟨fun (e : a = _) => hn'.1 (e ▸ j1), fun (e : a = _) => hn'.1 (e ▸ j2), fun (e : a = _) => hn'.1 (e ▸ j3)⟩
    · intro t ht
      simp only [hm]
      rcases List.mem_cons.1 ht with rfl | ht
      · simp
      · obtain ⟨j1, j2, j3⟩ := i2 t ht
        exact ⟨List.mem_cons_of_mem _ j1, List.mem_cons_of_mem _ j2, List.mem_cons_of_mem _ j3⟩

theorem TriangleOf.ends {h : Heap K} {t : List ℕ} {c : Pt K × Pt K × Pt K} (ht : TriangleOf h t c) :
    (∀ s ∈ t, ((h.val s).i = c.1 ∨ (h.val s).i = c.2.1 ∨ (h.val s).i = c.2.2) ∧
      ((h.val s).j = c.1 ∨ (h.val s).j = c.2.1 ∨ (h.val s).j = c.2.2)) ∧
    ∃ s ∈ t, (h.val s).i = c.2.1 ∨ (h.val s).j = c.2.1 := by
  obtain ⟨τ, hp, hs⟩ := ht
  match τ, hp, hs with
  | [x, y, z], hp, hs =>
    obtain ⟨h1, h2, h3, -⟩ := hs
    refine ⟨?_, x, hp.mem_iff.2 (by simp), ?_⟩
    · intro s hs
      have := hp.mem_iff.1 hs
      simp only [List.mem_cons, List.not_mem_nil, or_false] at this
      rcases this with rfl | rfl | rfl
      · rcases h1 with ⟨e1, e2⟩ | ⟨e1, e2⟩ <;> simp [e1, e2]
      · rcases h2 with ⟨e1, e2⟩ | ⟨e1, e2⟩ <;> simp [e1, e2]
      · rcases h3 with ⟨e1, e2⟩ | ⟨e1, e2⟩ <;> simp [e1, e2]
    · rcases h1 with ⟨-, e⟩ | ⟨e, -⟩
      · exact Or.inr e
      · exact Or.inl e

/-- equal polylines have equal segments -/
theorem plEq_mem {c d : PolyCls} {l m : List (Seg K)} (h : R.plEq c l d m = true) : ∀ s ∈ l, ∃ o ∈ m, R.seq s o = true := by
  unfold Rt.plEq at h
  simp only [Bool.and_eq_true, decide_eq_true_eq, List.all_eq_true] at h
  intro s hs
  obtain ⟨k, hk, rfl⟩ := List.getElem_of_mem hs
  have hk' : k < m.length := h.1.2 ▸ hk
  exact ⟨m[k], List.getElem_mem _, h.2 (l[k], m[k]) (by
    rw [List.mem_iff_getElem]
    exact ⟨k, by simp [hk, hk'], by simp⟩)⟩

/-- C90: no two of the triangles are equal (`==`), so the set they are stored in has all of them, whatever their hashes are. -/
theorem C90_distinct (hR : R.IsRounding) (hch : ∀ n l, l ≠ [] → choice n l ∈ l) (h : Heap K) (C : PLine)
    (w : List (Pt K)) (hp : PolygonOf h w C.segs) (h3 : 3 ≤ w.length) (hap : Apart R.tol {p | p ∈ w})
    (hl : ∀ s ∈ C.segs, s < h.nseg) :
    (R.earClipping choice tok h C).2.1.Pairwise fun t t' =>
      R.plEq .triangle ((R.earClipping choice tok h C).1.vals t) .triangle ((R.earClipping choice tok h C).1.vals t') = false := by
  obtain ⟨ids', ts, v, g1, -, g3, g4, -⟩ := earLoop_spec (choice := choice) (tok := tok) hR hch 5000 h C w [] hp h3
    hap hl
  unfold Rt.earClipping
  rw [List.nil_append] at g1
  rw [g1]
  obtain ⟨f1, f2⟩ := g4.fresh hp.1
  generalize (R.earLoop choice tok 5000 h C []).1 = h' at *
  clear g1 g4
  induction g3 with
  | nil => exact .nil
  | @cons t c ids ts ht hts ih =>
    rw [List.pairwise_cons] at f1
    refine List.pairwise_cons.2 ⟨?_, ih f1.2 fun t ht => f2 t (List.mem_cons_of_mem _ ht)⟩
    intro t' ht'
    obtain ⟨c', hc', htc⟩ : ∃ c' ∈ ts, TriangleOf h' t' c' := by
      clear ih f1 f2
      induction hts with
      | nil => cases ht'
      | @cons x y _ _ hxy _ ih' =>
        rcases List.mem_cons.1 ht' with rfl | hm
        · exact ⟨y, List.mem_cons_self .., hxy⟩
        · obtain ⟨c', h1, h2⟩ := ih' hm
          exact ⟨c', List.mem_cons_of_mem _ h1, h2⟩
    rw [← Bool.not_eq_true]
    intro he
    obtain ⟨-, s, hs, hsa⟩ := ht.ends
    obtain ⟨o, ho, hso⟩ := plEq_mem he _ (List.mem_map_of_mem hs)
    obtain ⟨x, hx, rfl⟩ := List.mem_map.1 ho
    obtain ⟨x1, x2⟩ := htc.ends.1 x hx
    obtain ⟨m1, m2, m3⟩ := f2 c' (List.mem_cons_of_mem _ hc')
    have ma := (f2 c (List.mem_cons_self ..)).2.1
    obtain ⟨n1, n2, n3⟩ := f1.1 c' hc'
    unfold Rt.seq at hso
    simp only [Bool.and_eq_true, decide_eq_true_eq] at hso
    have key : ∀ q, R.peq c.2.1 q = true → (q = c'.1 ∨ q = c'.2.1 ∨ q = c'.2.2) → False := by
      intro q hq hc
      have hqw : q ∈ {p | p ∈ w} := by rcases hc with rfl | rfl | rfl <;> assumption
      have := (C04_apart hR hap ma hqw).1.1 hq
      rcases hc with rfl | rfl | rfl
      · exact n1 this
      · exact n2 this
      · exact n3 this
    rcases hsa with e | e
    · exact key _ (e ▸ hso.1.2) x1
    · exact key _ (e ▸ hso.2) x2

/-- C90: if it returns False, fewer triangles have been stored; what they miss of the signed area is the area of the
polygon that is left. -/
theorem C90_given_up (hR : R.IsRounding) (hch : ∀ n l, l ≠ [] → choice n l ∈ l) (h : Heap K) (C : PLine)
    (w : List (Pt K)) (hp : PolygonOf h w C.segs) (h3 : 3 ≤ w.length) (hap : Apart R.tol {p | p ∈ w})
    (hl : ∀ s ∈ C.segs, s < h.nseg) (h' : Heap K) (ids : List (List ℕ))
    (hres : R.earClipping choice tok h C = (h', ids, .ok false)) :
    ∃ (ts : List (Pt K × Pt K × Pt K)) (v : List (Pt K)), List.Forall₂ (TriangleOf h') ids ts ∧ 3 ≤ v.length ∧
      ts.length + v.length = w.length ∧ (ts.map fun t => det3 t.1 t.2.1 t.2.2).sum + twiceArea v = twiceArea w := by
  obtain ⟨ids', ts, v, g1, -, g3, g4, g6, g5⟩ := earLoop_spec (choice := choice) (tok := tok) hR hch 5000 h C w [] hp h3
    hap hl
  unfold Rt.earClipping at hres
  rw [hres] at g1 g3 g5
  simp only [List.nil_append] at g1
  subst g1
  rcases g5 with ⟨hf, -⟩ | ⟨-, hv⟩ | ⟨⟨e, hf⟩, -⟩
  · simp at hf
  · exact ⟨ts, v, g3, hv, g4.length, g4.area⟩
  · simp at hf

/-- C90: a polygon with more than 5002 corners is never finished. -/
theorem C90_too_many (hR : R.IsRounding) (hch : ∀ n l, l ≠ [] → choice n l ∈ l) (h : Heap K) (C : PLine)
    (w : List (Pt K)) (hp : PolygonOf h w C.segs) (h3 : 5002 < w.length) (hap : Apart R.tol {p | p ∈ w})
    (hl : ∀ s ∈ C.segs, s < h.nseg) : (R.earClipping choice tok h C).2.2 ≠ .ok true := by
  obtain ⟨ids', ts, v, g1, -, g3, g4, g6, g5⟩ := earLoop_spec (choice := choice) (tok := tok) hR hch 5000 h C w [] hp
    (by omega) hap hl
  unfold Rt.earClipping
  rcases g5 with ⟨-, hv⟩ | ⟨hf, -⟩ | ⟨⟨e, hf⟩, -⟩
  · have := g4.length
    omega
  · rw [hf]; simp
  · rw [hf]; simp

/-- C90, exact arithmetic: a convex counter-clockwise polygon with at most 5002 corners, no three of which are nearly on
one line, is finished whatever points are chosen, if `triangle_ok` accepts the triangles of three consecutive corners of the
convex polygons left over, all corners of which are corners of the given one. -/
theorem C90_convex_done (hE : R.IsExact) (hch : ∀ n l, l ≠ [] → choice n l ∈ l)
    (h : Heap K) (C : PLine) (w : List (Pt K)) (hp : PolygonOf h w C.segs) (h3 : 3 ≤ w.length) (hw : w.length ≤ 5002)
    (hap : Apart R.tol {p | p ∈ w}) (hl : ∀ s ∈ C.segs, s < h.nseg)
    (hturn : ∀ a b c, [a, b, c].Sublist w → R.eps ≤ det3 a b c)
    (htok : ∀ n h' P T a b u c, (∀ q ∈ a :: b :: u ++ [c], q ∈ w) →
      (∀ x y z, [x, y, z].Sublist (a :: b :: u ++ [c]) → R.eps ≤ det3 x y z) → PolygonOf h' (a :: b :: u ++ [c]) P.segs →
      TriangleOf h' T.segs (c, a, b) → tok n h' P T = true) : (R.earClipping choice tok h C).2.2 = .ok true := by
  have hR := hE.isRounding
  obtain ⟨w₀, hw₀⟩ : ∃ w₀, w₀ = w := ⟨w, rfl⟩
  rw [← hw₀] at htok
  have key : ∀ (n : ℕ) (h : Heap K) (C : PLine) (w : List (Pt K)) (tris : List (List ℕ)), PolygonOf h w C.segs →
      3 ≤ w.length → w.length ≤ n + 2 → Apart R.tol {p | p ∈ w} → (∀ s ∈ C.segs, s < h.nseg) →
      (∀ w', w ~r w' → ∀ a b c, [a, b, c].Sublist w' → R.eps ≤ det3 a b c) → (∀ q ∈ w, q ∈ w₀) →
      (R.earLoop choice tok n h C tris).2.2 = .ok true := by
    intro n
    induction n with
    | zero => intro h C w tris _ h3 hn; omega
    | succ n ih =>
      intro h C w tris hp h3 hn hap hl hturn hsub
      obtain ⟨hlen, hmem⟩ := hp.pointSet hR h3 (sep_of_apart hR hap)
      have hne : R.pointSet (h.vals C.segs) ≠ [] := by
        intro e; rw [e] at hlen; simp at hlen; omega
      have hround := earRound_spec hR hp h3 hap hl (hmem _ (hch n _ hne)) (tok n)
      unfold Rt.earLoop
      rw [if_neg (by omega)]
      simp only
      generalize R.earRound h C (choice n (R.pointSet (h.vals C.segs))) (tok n) = r at *
      generalize choice n (R.pointSet (h.vals C.segs)) = a at *
      cases r with
      | raised h' e => exact absurd hE hround.2
      | rejected h' =>
        obtain ⟨b, u, c, hr, hd⟩ := hround.2 hE fun h' T b u c hr hP hT => htok n h' C T a b u c (fun q hq => hsub q (hr.mem_iff.2 hq)) (hturn _ hr)
          (hP.rotated hr) hT
        have hr' : w ~r c :: (a :: b :: u) := by
          refine hr.trans ?_
          have := List.IsRotated.forall (a :: b :: u ++ [c]) (a :: b :: u).length
          rw [List.rotate_append_length_eq] at this
          exact this.symm
        have := hturn _ hr' c a b (by simp)
        have := le_abs_self (det3 c a b)
        linarith
      | clipped h' C' t =>
        obtain ⟨hlat, ht, hC, b, u, c, hr, htri, hpoly, hsmall⟩ := hround
        simp only
        by_cases hu : u = []
        · have hps := hsmall hu
          unfold Rt.earLoop
          rw [if_pos hps]
        · have hwl := hr.perm.length_eq
          have hul := List.length_pos_iff.2 hu
          simp only [List.length_append, List.length_cons, List.length_nil] at hwl
          refine ih h' C' (b :: u ++ [c]) (tris ++ [t]) (hpoly hu) ?_ ?_ ?_ hC ?_ fun q hq =>
            hsub q (hr.mem_iff.2 (List.mem_cons_of_mem a hq))
          · simp only [List.length_append, List.length_cons, List.length_nil]; omega
          · simp only [List.length_append, List.length_cons, List.length_nil]; omega
          · intro p hp q hq
            exact hap p (hr.mem_iff.2 (List.mem_cons_of_mem a hp)) q (hr.mem_iff.2 (List.mem_cons_of_mem a hq))
          · intro w' hr' x y z hs
            obtain ⟨w'', h1, h2⟩ := sublist_rotated (List.sublist_cons_self a (b :: u ++ [c])) hr'
            exact hturn w'' (hr.trans h1) x y z (hs.trans h2)
  refine key 5000 h C w [] hp h3 hw hap hl ?_ (fun q hq => hw₀ ▸ hq)
  intro w' hr
  exact turn_rotated (Q := fun x => R.eps ≤ x) hturn hr

theorem TriangleOf.area (hE : R.IsExact) {h : Heap K} {t : List ℕ} {c : Pt K × Pt K × Pt K} (ht : TriangleOf h t c) :
    R.triArea (h.vals t) = .ok (|det3 c.1 c.2.1 c.2.2| / 2) := by
  obtain ⟨τ, h1, h2⟩ := ht
  obtain ⟨x, τ1, rfl, j1, h2⟩ := h2.cons
  obtain ⟨y, τ2, rfl, j2, h2⟩ := h2.cons
  obtain ⟨z, τ3, rfl, j3, h2⟩ := h2.cons
  rw [h2.single] at h1
  exact triArea_perm hE h1 j1 j2 j3

/-- C90, exact arithmetic: `ear_clipping` of such a polygon raises nothing. -/
theorem C90_no_error (hE : R.IsExact) (hch : ∀ n l, l ≠ [] → choice n l ∈ l) (h : Heap K) (C : PLine)
    (w : List (Pt K)) (hp : PolygonOf h w C.segs) (h3 : 3 ≤ w.length) (hap : Apart R.tol {p | p ∈ w})
    (hl : ∀ s ∈ C.segs, s < h.nseg) : ∃ b, (R.earClipping choice tok h C).2.2 = .ok b := by
  obtain ⟨ids', ts, v, g1, -, g3, g4, g6, g5⟩ := earLoop_spec (choice := choice) (tok := tok) hE.isRounding hch 5000 h C w []
    hp h3 hap hl
  unfold Rt.earClipping
  rcases g5 with ⟨hf, -⟩ | ⟨hf, -⟩ | ⟨-, hf⟩
  · exact ⟨_, hf⟩
  · exact ⟨_, hf⟩
  · exact absurd hE hf

theorem forall₂_areas (hE : R.IsExact) {h : Heap K} {ids : List (List ℕ)} {ts : List (Pt K × Pt K × Pt K)}
    (hf : List.Forall₂ (TriangleOf h) ids ts) :
    (ids.map fun t => R.triArea (h.vals t)) = (ts.map fun t => |det3 t.1 t.2.1 t.2.2| / 2).map .ok := by
  induction hf with
  | nil => rfl
  | cons ht _ ih => rw [List.map_cons, ih, ht.area hE]; rfl

/-- C90, exact arithmetic: the areas of the stored triangles, as computed afterwards, add up to at least the area of
the polygon; to exactly the area if the polygon is convex and counter-clockwise. -/
theorem C90_area (hE : R.IsExact) (hch : ∀ n l, l ≠ [] → choice n l ∈ l) (h : Heap K) (C : PLine)
    (w : List (Pt K)) (hp : PolygonOf h w C.segs) (h3 : 3 ≤ w.length) (hap : Apart R.tol {p | p ∈ w})
    (hl : ∀ s ∈ C.segs, s < h.nseg) (h' : Heap K) (ids : List (List ℕ))
    (hres : R.earClipping choice tok h C = (h', ids, .ok true)) :
    ∃ areas : List K, (ids.map fun t => R.triArea (h'.vals t)) = areas.map .ok ∧ |twiceArea w| / 2 ≤ areas.sum ∧
      (LeftTurning w → areas.sum = twiceArea w / 2) := by
  obtain ⟨ts, g1, g2, g3, g4⟩ := C90_triangulation (tok := tok) hE.isRounding hch h C w hp h3 hap hl h' ids hres
  refine ⟨_, forall₂_areas hE g1, ?_, ?_⟩
  · rw [← g3]
    clear g1 g2 g3 g4
    induction ts with
    | nil => simp
    | cons t ts ih =>
      simp only [List.map_cons, List.sum_cons]
      have := abs_add_le (det3 t.1 t.2.1 t.2.2) (ts.map fun t => det3 t.1 t.2.1 t.2.2).sum
      linarith
  · intro hw
    have hpos : ∀ t ∈ ts, 0 < det3 t.1 t.2.1 t.2.2 := by
      intro t ht
      obtain ⟨w', h1, h2⟩ := g4 t ht
      exact hw.rotated h1 _ _ _ h2
    rw [← g3]
    clear g1 g2 g3 g4
    induction ts with
    | nil => simp
    | cons t ts ih =>
      simp only [List.map_cons, List.sum_cons]
      rw [ih fun t ht => hpos t (by simp [ht]), abs_of_pos (hpos t (by simp))]
      ring

end

/-! ### A quadrangle -/

/-- memory with a quadrangle of four segments sharing their four corners -/
def exQuad : Heap ℚ :=
  ⟨fun n => if n = 0 then ⟨0, 0⟩ else if n = 1 then ⟨4, 0⟩ else if n = 2 then ⟨4, 3⟩ else ⟨1, 3⟩,
   fun s => if s = 0 then ⟨0, 1, .line⟩ else if s = 1 then ⟨1, 2, .line⟩ else if s = 2 then ⟨2, 3, .line⟩
    else ⟨3, 0, .line⟩, 4, 4⟩

/-- `ear_clipping` of the quadrangle, always taking the first point and accepting every triangle -/
def exQuadEars : Heap ℚ × List (List ℕ) × Except PyErr Bool :=
  exRt.earClipping (fun _ l => l.headD ⟨0, 0⟩) (fun _ _ _ _ => true) exQuad ⟨[0, 1, 2, 3], false⟩

/-- the quadrangle meets the hypotheses of C90, and is finished with two triangles -/
example : PolygonOf exQuad [⟨0, 0⟩, ⟨4, 0⟩, ⟨4, 3⟩, ⟨1, 3⟩] [0, 1, 2, 3] ∧ LeftTurning [(⟨0, 0⟩ : Pt ℚ), ⟨4, 0⟩, ⟨4, 3⟩, ⟨1, 3⟩] ∧
    Apart exRt.tol {p | p ∈ [(⟨0, 0⟩ : Pt ℚ), ⟨4, 0⟩, ⟨4, 3⟩, ⟨1, 3⟩]} ∧
    (∀ s ∈ [0, 1, 2, 3], s < exQuad.nseg) ∧ exQuadEars.2.2.toOption = some true ∧
    exQuadEars.2.1 = [[0, 4, 3], [4, 5, 2]] ∧ twiceArea [(⟨0, 0⟩ : Pt ℚ), ⟨4, 0⟩, ⟨4, 3⟩, ⟨1, 3⟩] = 21 := by
  refine ⟨⟨by decide +kernel, by decide, [0, 1, 2, 3], List.Perm.refl _, ?_⟩, ?_, ?_, by decide, by decide +kernel,
    by decide +kernel, by decide +kernel⟩
  · refine ⟨Or.inl ?_, Or.inl ?_, Or.inl ?_, Or.inl ?_, trivial⟩ <;> decide +kernel
  · intro a b c hs
    have := List.mem_sublists.2 hs
    simp only [List.sublists, List.foldr, List.flatMap_cons, List.flatMap_nil, List.cons_append, List.nil_append,
      List.mem_cons, List.cons.injEq, List.not_mem_nil, reduceCtorEq, and_false, false_and, false_or, or_false,
      and_true] at this
    rcases this with ⟨rfl, rfl, rfl⟩ | ⟨rfl, rfl, rfl⟩ | ⟨rfl, rfl, rfl⟩ | ⟨rfl, rfl, rfl⟩ <;> decide +kernel
  · intro p hp q hq hne
    simp only [Set.mem_ofPred_eq, List.mem_cons, List.not_mem_nil, or_false] at hp hq
    rcases hp with rfl | rfl | rfl | rfl <;> rcases hq with rfl | rfl | rfl | rfl <;>
      first | exact absurd rfl hne | decide +kernel

/-- C90: the stored triangles share the cutting segments, and a later triangle turns them round.  In the quadrangle the
first triangle, closed when it was made, is no longer closed in the end, so it fails its own `is_triangle`. -/
theorem C90_torn : exQuadEars.2.2.toOption = some true ∧
    (exQuadEars.2.1.map fun t => (exRt.isClosed (exQuadEars.1.vals t)).toOption) = [some false, some true] ∧
    (exQuadEars.2.1.map fun t => (exRt.isTriangle (exQuadEars.1.vals t)).toOption) = [some false, some true] := by
  refine ⟨?_, ?_, ?_⟩ <;> decide +kernel

end Srep
