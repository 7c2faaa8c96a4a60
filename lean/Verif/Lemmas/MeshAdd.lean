import Verif.Lemmas.Mesh
import Verif.Spec.Mesh

/-! Lemmas about adding a point to a Delaunay mesh. -/

set_option linter.unusedSectionVars false

namespace Srep
variable {K : Type} [Field K] [LinearOrder K] [IsStrictOrderedRing K] [FloorRing K]

/-- the vertices of the sorted triangle -/
theorem Tri.has_sorted (a b c v : ℤ) : (Tri.sorted a b c).Has v ↔ v = a ∨ v = b ∨ v = c := by
  have hp : ([a, b, c].insertionSort (· ≤ ·)).Perm [a, b, c] := List.perm_insertionSort _ _
  unfold Tri.sorted
  generalize hl : [a, b, c].insertionSort (· ≤ ·) = l at hp
  have h3 : l.length = 3 := by rw [hp.length_eq]; rfl
  match l, h3, hp with
  | [x, y, z], _, hp =>
    have := hp.mem_iff (a := v)
    simpa [Tri.Has] using this

theorem Tri.proper_sorted {a b c : ℤ} (h1 : a ≠ b) (h2 : b ≠ c) (h3 : a ≠ c) : (Tri.sorted a b c).Proper := by
  have hp : ([a, b, c].insertionSort (· ≤ ·)).Perm [a, b, c] := List.perm_insertionSort _ _
  unfold Tri.sorted
  generalize hl : [a, b, c].insertionSort (· ≤ ·) = l at hp
  have h3' : l.length = 3 := by rw [hp.length_eq]; rfl
  match l, h3', hp with
  | [x, y, z], _, hp =>
    have := hp.nodup_iff.2 (by simp [h1, h2, h3])
    simp at this
    unfold Tri.Proper
    tauto

theorem makeCcw_has {R : Rt K} {ps : List (Pt K)} {t t' : Tri} (h : R.makeCcw ps t = .ok t') :
    (∀ v, t'.Has v ↔ t.Has v) ∧ (t.Proper → t'.Proper) := by
  unfold Rt.makeCcw at h
  split at h
  · cases h
  · simp only [Except.ok.injEq] at h
    subst h
    split_ifs
    · refine ⟨fun v => ?_, ?_⟩
      · unfold Tri.Has; tauto
      · unfold Tri.Proper; rintro ⟨h1, h2, h3⟩; exact ⟨h3, h2.symm, h1⟩
    · exact ⟨fun _ => Iff.rfl, id⟩

/-- the three keys of the new triangle -/
def newKeys (ip : ℤ) (e : ℤ × ℤ) : List (ℤ × ℤ) := [makeKey e.1 e.2, makeKey ip e.1, makeKey e.2 ip]

theorem mem_newKeys {ip : ℤ} {e x : ℤ × ℤ} (h1 : e.1 ≠ e.2) (h2 : ip ≠ e.1) (h3 : ip ≠ e.2) :
    x ∈ newKeys ip e ↔ x.1 < x.2 ∧ (x.1 = e.1 ∨ x.1 = e.2 ∨ x.1 = ip) ∧ (x.2 = e.1 ∨ x.2 = e.2 ∨ x.2 = ip) := by
  obtain ⟨a, b⟩ := e
  obtain ⟨x, y⟩ := x
  dsimp only at *
  unfold newKeys makeKey
  simp only [List.mem_cons, List.not_mem_nil, or_false]
  split_ifs <;> simp only [Prod.mk.injEq] <;> omega

/-- `addEdge`: what is added -/
theorem addEdge_spec {R : Rt K} {M : Mesh K} {ip : ℤ} {e : ℤ × ℤ} {v : List ℕ} {p q r : Pt K} (h1 : e.1 ≠ e.2)
    (h2 : ip ≠ e.1) (h3 : ip ≠ e.2) (hv : M.e2t (makeKey e.1 e.2) = some v) (hp : pyGet M.points e.1 = some p)
    (hq : pyGet M.points e.2 = some q) (hr : pyGet M.points ip = some r) :
    ∃ t M', R.addEdge M ip e = .ok M' ∧ R.makeCcw M.points (Tri.sorted e.1 e.2 ip) = .ok t ∧
      (∀ w, t.Has w ↔ w = e.1 ∨ w = e.2 ∨ w = ip) ∧ t.Proper ∧
      M'.points = M.points ∧ M'.bnd = M.bnd ∧ M'.tris = M.tris ++ [t] ∧
      ∀ x, M'.e2t x = if x ∈ newKeys ip e then some ((M.e2t x).getD [] ++ [M.tris.length]) else M.e2t x := by
  have hget : ∀ w, w = e.1 ∨ w = e.2 ∨ w = ip → ∃ z, pyGet M.points w = some z := by
    rintro w (rfl | rfl | rfl)
    · exact ⟨p, hp⟩
    · exact ⟨q, hq⟩
    · exact ⟨r, hr⟩
  have hs := Tri.has_sorted e.1 e.2 ip
  obtain ⟨t, ht⟩ : ∃ t, R.makeCcw M.points (Tri.sorted e.1 e.2 ip) = .ok t := by
    obtain ⟨a, ha⟩ := hget _ ((hs _).1 (Or.inl rfl))
    obtain ⟨b, hb⟩ := hget _ ((hs _).1 (Or.inr (Or.inl rfl)))
    obtain ⟨c, hc⟩ := hget _ ((hs _).1 (Or.inr (Or.inr rfl)))
    unfold Rt.makeCcw Rt.getArea
    rw [ha, hb, hc]
    exact ⟨_, rfl⟩
  obtain ⟨m1, m2⟩ := makeCcw_has ht
  have k01 : makeKey ip e.1 ≠ makeKey e.1 e.2 := by
    unfold makeKey; split_ifs <;> simp only [ne_eq, Prod.mk.injEq] <;> omega
  have k02 : makeKey e.2 ip ≠ makeKey e.1 e.2 := by
    unfold makeKey; split_ifs <;> simp only [ne_eq, Prod.mk.injEq] <;> omega
  have k12 : makeKey e.2 ip ≠ makeKey ip e.1 := by
    unfold makeKey; split_ifs <;> simp only [ne_eq, Prod.mk.injEq] <;> omega
  unfold Rt.addEdge
  rw [ht]
  dsimp only
  rw [hv]
  refine ⟨t, _, rfl, rfl, fun w => (m1 w).trans (hs w), m2 (Tri.proper_sorted h1 (Ne.symm h3) (Ne.symm h2)), rfl, rfl, rfl, ?_⟩
  intro x
  dsimp only
  unfold E2T.set newKeys
  simp only [List.mem_cons, List.not_mem_nil, or_false]
  by_cases e2 : x = makeKey e.2 ip
  · subst e2; simp [k02, k12, Ne.symm k12]
  · by_cases e1 : x = makeKey ip e.1
    · subst e1; simp [k01, e2]
    · by_cases e0 : x = makeKey e.1 e.2
      · subst e0; simp [e1, e2, hv]
      · simp [e0, e1, e2]

theorem at_lt {M : Mesh K} {n : ℕ} {x : ℤ × ℤ} (h : M.At n x) : n < M.tris.length := by
  obtain ⟨T, hT, -⟩ := h
  exact (List.getElem?_eq_some_iff.1 hT).1

/-- adding one triangle with its three keys keeps the table consistent -/
theorem consistent_add {M M' : Mesh K} {ip : ℤ} {e : ℤ × ℤ} {t : Tri} (hM : M.Consistent) (h1 : e.1 ≠ e.2)
    (h2 : ip ≠ e.1) (h3 : ip ≠ e.2) (ht : ∀ w, t.Has w ↔ w = e.1 ∨ w = e.2 ∨ w = ip) (hp : t.Proper)
    (htr : M'.tris = M.tris ++ [t])
    (he : ∀ x, M'.e2t x = if x ∈ newKeys ip e then some ((M.e2t x).getD [] ++ [M.tris.length]) else M.e2t x) :
    M'.Consistent := by
  have hat : ∀ n x, M.At n x → M'.At n x := by
    rintro n x ⟨T, hT, hx⟩
    refine ⟨T, ?_, hx⟩
    rw [htr, List.getElem?_append_left (List.getElem?_eq_some_iff.1 hT).1, hT]
  have hnew : ∀ x ∈ newKeys ip e, M'.At M.tris.length x := by
    intro x hx
    refine ⟨t, by rw [htr]; simp, ?_⟩
    obtain ⟨a, b, c⟩ := (mem_newKeys h1 h2 h3).1 hx
    exact ⟨a, (ht _).2 b, (ht _).2 c⟩
  have hat' : ∀ n x, M'.At n x → M.At n x ∨ (n = M.tris.length ∧ x ∈ newKeys ip e) := by
    rintro n x ⟨T, hT, hx⟩
    rw [htr] at hT
    by_cases hn : n < M.tris.length
    · rw [List.getElem?_append_left hn] at hT
      exact Or.inl ⟨T, hT, hx⟩
    · right
      have hn' := (List.getElem?_eq_some_iff.1 hT).1
      simp at hn'
      have : n = M.tris.length := by omega
      subst this
      simp at hT
      subst hT
      obtain ⟨a, b, c⟩ := hx
      exact ⟨rfl, (mem_newKeys h1 h2 h3).2 ⟨a, (ht _).1 b, (ht _).1 c⟩⟩
  have hold : ∀ x, ∀ n ∈ (M.e2t x).getD [], M.At n x := by
    intro x n hn
    cases hx : M.e2t x with
    | none => rw [hx] at hn; simp at hn
    | some l => rw [hx] at hn; exact hM.sound _ _ hx n hn
  refine ⟨⟨?_, ?_, ?_, ?_⟩, ?_⟩
  · intro T hT
    rw [htr, List.mem_append, List.mem_singleton] at hT
    rcases hT with h | rfl
    · exact hM.proper T h
    · exact hp
  · intro x l hx
    rw [he] at hx
    split_ifs at hx with hk
    · exact ((mem_newKeys h1 h2 h3).1 hk).1
    · exact hM.key _ _ hx
  · intro x l hx
    rw [he] at hx
    split_ifs at hx with hk
    · simp only [Option.some.injEq] at hx
      rw [← hx, List.nodup_append]
      refine ⟨?_, by simp, ?_⟩
      · cases hx : M.e2t x with
        | none => simp
        | some l => exact hM.nodup _ _ hx
      · intro n hn m hm
        rw [List.mem_singleton] at hm
        have := at_lt (hold x n hn)
        omega
    · exact hM.nodup _ _ hx
  · intro x l hx n hn
    rw [he] at hx
    split_ifs at hx with hk
    · simp only [Option.some.injEq] at hx
      rw [← hx, List.mem_append, List.mem_singleton] at hn
      rcases hn with h | rfl
      · exact hat _ _ (hold x n h)
      · exact hnew x hk
    · exact hat _ _ (hM.sound _ _ hx n hn)
  · intro n x hx
    rw [he]
    rcases hat' n x hx with h | ⟨rfl, hk⟩
    · obtain ⟨l, hl, hn⟩ := hM.complete n x h
      split_ifs with hk
      · exact ⟨_, rfl, by rw [hl]; simp [hn]⟩
      · exact ⟨l, hl, hn⟩
    · rw [if_pos hk]
      exact ⟨_, rfl, by simp⟩

/-- the list of the numbers of the visible edges among `es` that have `x` as a key of their triangle -/
theorem addLoop_spec {R : Rt K} {ip : ℤ} {r : Pt K} : ∀ (es : List (ℤ × ℤ)) (M : Mesh K), M.Consistent →
    (∀ e ∈ es, e.1 ≠ e.2 ∧ ip ≠ e.1 ∧ ip ≠ e.2 ∧ (M.e2t (makeKey e.1 e.2)).isSome ∧
      (∃ p, pyGet M.points e.1 = some p) ∧ ∃ q, pyGet M.points e.2 = some q) → pyGet M.points ip = some r →
    ∃ M' vis ts, R.addLoop ip es M = .ok (M', vis) ∧ M'.Consistent ∧ M'.points = M.points ∧ M'.bnd = M.bnd ∧
      M'.tris = M.tris ++ ts ∧
      vis = es.filter (fun e => match R.isEdgeVisible M.points ip e with | .ok b => b | .error _ => false) ∧
      List.Forall₂ (fun e t => R.makeCcw M.points (Tri.sorted e.1 e.2 ip) = .ok t ∧
        ∀ w, t.Has w ↔ w = e.1 ∨ w = e.2 ∨ w = ip) vis ts ∧
      (∀ x, ((M'.e2t x).getD []).length = ((M.e2t x).getD []).length + (vis.filter fun e => decide (x ∈ newKeys ip e)).length) ∧
      (∀ x, (M'.e2t x).isSome ↔ (M.e2t x).isSome ∨ ∃ e ∈ vis, x ∈ newKeys ip e) ∧
      (∀ x, ∀ n ∈ (M'.e2t x).getD [], n ∈ (M.e2t x).getD [] ∨
        ∃ k e, n = M.tris.length + k ∧ vis[k]? = some e ∧ x ∈ newKeys ip e) := by
  intro es
  induction es with
  | nil =>
    intro M hM _ _
    exact ⟨M, [], [], rfl, hM, rfl, rfl, by simp, rfl, List.Forall₂.nil, by simp, by simp, fun x n hn => Or.inl hn⟩
  | cons e es ih =>
    intro M hM hes hr
    obtain ⟨h1, h2, h3, hk, ⟨p, hp⟩, ⟨q, hq⟩⟩ := hes e List.mem_cons_self
    have hes' := fun f hf => hes f (List.mem_cons_of_mem _ hf)
    obtain ⟨a, ha⟩ : ∃ a, R.isEdgeVisible M.points ip e = .ok a := by
      unfold Rt.isEdgeVisible Rt.getArea
      rw [hp, hq, hr]
      exact ⟨_, rfl⟩
    cases a with
    | false =>
      obtain ⟨M', vis, ts, i1, i2, i3, i4, i5, i6, i7⟩ := ih M hM hes' hr
      refine ⟨M', vis, ts, ?_, i2, i3, i4, i5, ?_, i7⟩
      · unfold Rt.addLoop
        rw [ha]
        exact i1
      · rw [List.filter_cons_of_neg (by rw [ha]; simp), i6]
    | true =>
      obtain ⟨v, hv⟩ := Option.isSome_iff_exists.1 hk
      obtain ⟨t, M1, s1, s2, s3, s4, s5, s6, s7, s8⟩ := addEdge_spec (R := R) h1 h2 h3 hv hp hq hr
      have c1 := consistent_add hM h1 h2 h3 s3 s4 s7 s8
      obtain ⟨M', vis, ts, i1, i2, i3, i4, i5, i6, i7, i8, i9, i10⟩ := ih M1 c1 (by
        intro f hf
        obtain ⟨g1, g2, g3, g4, g5, g6⟩ := hes' f hf
        rw [s5]
        refine ⟨g1, g2, g3, ?_, g5, g6⟩
        rw [s8]
        split_ifs
        · rfl
        · exact g4) (by rw [s5]; exact hr)
      rw [s5] at i6 i7
      refine ⟨M', e :: vis, t :: ts, ?_, i2, i3.trans s5, i4.trans s6, ?_, ?_, ?_, ?_, ?_, ?_⟩
      · unfold Rt.addLoop
        rw [ha]
        dsimp only
        rw [s1]
        dsimp only
        rw [i1]
      · rw [i5, s7, List.append_assoc, List.singleton_append]
      · rw [List.filter_cons_of_pos (by rw [ha]), i6]
      · exact List.Forall₂.cons ⟨s2, s3⟩ i7
      · intro x
        rw [i8, s8]
        by_cases hx : x ∈ newKeys ip e
        · rw [if_pos hx, List.filter_cons_of_pos (by simpa using hx)]
          simp; omega
        · rw [if_neg hx, List.filter_cons_of_neg (by simpa using hx)]
      · intro x
        rw [i9, s8]
        by_cases hx : x ∈ newKeys ip e
        · rw [if_pos hx]; simp [hx]
        · rw [if_neg hx]; simp [hx]
      · intro x n hn
        rcases i10 x n hn with h | ⟨k, f, rfl, hf, hx⟩
        · rw [s8] at h
          split_ifs at h with hx
          · simp only [Option.getD_some, List.mem_append, List.mem_singleton] at h
            rcases h with h | rfl
            · exact Or.inl h
            · exact Or.inr ⟨0, e, by simp, by simp, hx⟩
          · exact Or.inl h
        · right
          refine ⟨k + 1, f, ?_, by simpa using hf, hx⟩
          rw [s7]; simp; omega

end Srep
