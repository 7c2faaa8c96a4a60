import Verif.Lemmas.MeshAdd
import Verif.Props.Delaunay
import Verif.Spec.Example

/-!
# Adding a point to the mesh of Delaunay2d (C89)
-/

set_option linter.unusedSectionVars false

namespace Srep
variable {K : Type} [Field K] [LinearOrder K] [IsStrictOrderedRing K] [FloorRing K] {R : Rt K}

/-- an entry of the table of a consistent mesh -/
theorem mem_entry {M : Mesh K} (hM : M.Consistent) {e : ℤ × ℤ} (he : e.1 ≠ e.2) (n : ℕ) :
    n ∈ (M.e2t (makeKey e.1 e.2)).getD [] ↔ ∃ T, M.tris[n]? = some T ∧ T.Has e.1 ∧ T.Has e.2 := by
  constructor
  · intro h
    cases hx : M.e2t (makeKey e.1 e.2) with
    | none => rw [hx] at h; simp at h
    | some l =>
      rw [hx] at h
      obtain ⟨T, hT, hk⟩ := hM.sound _ _ hx n h
      exact ⟨T, hT, Tri.has_of_key hk⟩
  · rintro ⟨T, hT, h1, h2⟩
    obtain ⟨l, hl, hn⟩ := hM.complete n _ ⟨T, hT, Tri.HasEdge.mk' he h1 h2⟩
    rw [hl]; exact hn

theorem nodup_entry {M : Mesh K} (hM : M.Consistent) (x : ℤ × ℤ) : ((M.e2t x).getD []).Nodup := by
  cases hx : M.e2t x with
  | none => simp
  | some l => exact hM.nodup _ _ hx

theorem single_iff {M : Mesh K} (hM : M.Consistent) {e : ℤ × ℤ} (he : e.1 ≠ e.2) :
    M.Single e ↔ ((M.e2t (makeKey e.1 e.2)).getD []).length = 1 := by
  constructor
  · rintro ⟨n, T, hT, h1, h2, hu⟩
    have hn := (mem_entry hM he n).2 ⟨T, hT, h1, h2⟩
    have hnd := nodup_entry hM (makeKey e.1 e.2)
    generalize hl : (M.e2t (makeKey e.1 e.2)).getD [] = l at hn hnd
    have hall : ∀ m ∈ l, m = n := by
      intro m hm
      rw [← hl] at hm
      obtain ⟨S, hS, g1, g2⟩ := (mem_entry hM he m).1 hm
      exact hu m S hS g1 g2
    match l, hn, hnd, hall with
    | [a], _, _, _ => rfl
    | a :: b :: l, _, hnd, hall =>
      have ha := hall a (by simp)
      have hb := hall b (by simp)
      simp [ha, hb] at hnd
  · intro h
    obtain ⟨n, hn⟩ := List.length_eq_one_iff.1 h
    obtain ⟨T, hT, h1, h2⟩ := (mem_entry hM he n).1 (by rw [hn]; simp)
    refine ⟨n, T, hT, h1, h2, ?_⟩
    intro m S hS g1 g2
    have := (mem_entry hM he m).2 ⟨S, hS, g1, g2⟩
    rw [hn] at this
    simpa using this

theorem length_le_one {α : Type} {l : List α} (hn : l.Nodup) (h : ∀ a ∈ l, ∀ b ∈ l, a = b) : l.length ≤ 1 := by
  match l, hn, h with
  | [], _, _ => simp
  | [a], _, _ => simp
  | a :: b :: l, hn, h =>
    have := h a (by simp) b (by simp)
    simp [this] at hn

theorem pyGet_mem {α : Type} {l : List α} {n : ℤ} {x : α} (h : pyGet l n = some x) : x ∈ l := by
  unfold pyGet at h
  split_ifs at h <;> exact List.mem_of_getElem? h

/-- the mesh, its new triangles and its new boundary -/
structure Grown (R : Rt K) (M M' : Mesh K) (ip : ℤ) (vis : List (ℤ × ℤ)) (ts : List Tri) : Prop where
  cons : M'.Consistent
  points : M'.points = M.points
  tris : M'.tris = M.tris ++ ts
  visible : ∀ e, e ∈ vis ↔ e ∈ M.bnd ∧ R.isEdgeVisible M.points ip e = .ok true
  nodup : vis.Nodup
  ccw : List.Forall₂ (fun e t => R.makeCcw M.points (Tri.sorted e.1 e.2 ip) = .ok t) vis ts
  has : List.Forall₂ (fun e t => ∀ w, t.Has w ↔ w = e.1 ∨ w = e.2 ∨ w = ip) vis ts
  len : ∀ x, ((M'.e2t x).getD []).length = ((M.e2t x).getD []).length +
    (vis.filter fun e => decide (x ∈ newKeys ip e)).length
  mem : ∀ x, ∀ n ∈ (M'.e2t x).getD [], n ∈ (M.e2t x).getD [] ∨
        ∃ k e, n = M.tris.length + k ∧ vis[k]? = some e ∧ x ∈ newKeys ip e
  bnd : M'.bnd = (M.bnd.filter fun b => decide (b ∉ vis)) ∪
      (vis.flatMap fun e => [(e.1, ip), (ip, e.2)]).filter
        fun b => decide (((M'.e2t (makeKey b.1 b.2)).getD []).length = 1)
  dom : ∀ x, (M'.e2t x).isSome ↔ (M.e2t x).isSome ∨ ∃ e ∈ vis, x ∈ newKeys ip e

theorem bnd_ends {M : Mesh K} {ip : ℤ} (hB : M.Bounded) (hnew : ∀ T ∈ M.tris, ¬ T.Has ip) :
    ∀ e ∈ M.bnd, ip ≠ e.1 ∧ ip ≠ e.2 ∧ ∃ T ∈ M.tris, T.Has e.1 ∧ T.Has e.2 := by
  intro e he
  obtain ⟨n, T, hT, h1, h2, -⟩ := hB.single e he
  have hm := List.mem_of_getElem? hT
  refine ⟨?_, ?_, T, hm, h1, h2⟩
  · rintro rfl; exact hnew T hm h1
  · rintro rfl; exact hnew T hm h2

theorem addPoint_grown {M : Mesh K} (hM : M.Consistent) (hr : M.InRange) (hB : M.Bounded) {ip : ℤ}
    (hip : 0 ≤ ip ∧ ip < M.points.length) (hnew : ∀ T ∈ M.tris, ¬ T.Has ip) :
    ∃ M' vis ts, R.addPoint M ip = .ok M' ∧ Grown R M M' ip vis ts := by
  have hends := bnd_ends hB hnew
  obtain ⟨r, hrp⟩ := pyGet_some hip
  have pre : ∀ e ∈ M.bnd, e.1 ≠ e.2 ∧ ip ≠ e.1 ∧ ip ≠ e.2 ∧ (M.e2t (makeKey e.1 e.2)).isSome ∧
      (∃ p, pyGet M.points e.1 = some p) ∧ ∃ q, pyGet M.points e.2 = some q := by
    intro e he
    obtain ⟨g1, g2, T, hT, h1, h2⟩ := hends e he
    refine ⟨hB.ne e he, g1, g2, ?_, pyGet_some (hr T hT _ h1), pyGet_some (hr T hT _ h2)⟩
    have := (single_iff hM (hB.ne e he)).1 (hB.single e he)
    cases hx : M.e2t (makeKey e.1 e.2) with
    | none => rw [hx] at this; simp at this
    | some l => rfl
  obtain ⟨M1, vis, ts, i1, i2, i3, i4, i5, i6, i7, i8, i9, i10⟩ := addLoop_spec (R := R) M.bnd M hM pre hrp
  have hcand : (vis.flatMap fun e => [(e.1, ip), (ip, e.2)]).all fun b => (M1.e2t (makeKey b.1 b.2)).isSome := by
    rw [List.all_eq_true]
    intro b hb
    rw [List.mem_flatMap] at hb
    obtain ⟨e, he, hb⟩ := hb
    rw [i9]
    refine Or.inr ⟨e, he, ?_⟩
    simp only [List.mem_cons, List.not_mem_nil, or_false] at hb
    unfold newKeys
    rcases hb with rfl | rfl
    · simp [makeKey_comm]
    · simp [makeKey_comm]
  refine ⟨⟨M1.points, M1.tris, M1.e2t, (M1.bnd.filter fun b => decide (b ∉ vis)) ∪
    (vis.flatMap fun e => [(e.1, ip), (ip, e.2)]).filter
        fun b => decide (((M1.e2t (makeKey b.1 b.2)).getD []).length = 1)⟩, vis, ts, ?_,
    ⟨?_, i3, i5, ?_, ?_, ?_, ?_, i8, i10, ?_, i9⟩⟩
  · unfold Rt.addPoint
    rw [i1]
    dsimp only
    unfold newBoundary
    simp only
    rw [if_pos hcand]
  · exact ⟨⟨i2.proper, i2.key, i2.nodup, i2.sound⟩, i2.complete⟩
  · intro e
    rw [i6, List.mem_filter]
    constructor
    · rintro ⟨h, h2⟩
      refine ⟨h, ?_⟩
      cases hv : R.isEdgeVisible M.points ip e with
      | error x => rw [hv] at h2; simp at h2
      | ok b => rw [hv] at h2; simp at h2; rw [h2]
    · rintro ⟨h, h2⟩
      exact ⟨h, by rw [h2]⟩
  · rw [i6]; exact hB.nodup.filter _
  · exact i7.imp fun e t h => h.1
  · exact i7.imp fun e t h => h.2
  · rw [i4]

theorem mem_newKeys_no {ip : ℤ} {e f : ℤ × ℤ} (hf : f.1 ≠ f.2) (h1 : ip ≠ f.1) (h2 : ip ≠ f.2)
    (he : e.1 ≠ e.2) (e1 : ip ≠ e.1) (e2 : ip ≠ e.2) :
    makeKey e.1 e.2 ∈ newKeys ip f ↔ e = f ∨ e = (f.2, f.1) := by
  rw [mem_newKeys hf h1 h2]
  obtain ⟨a, b⟩ := e
  obtain ⟨c, d⟩ := f
  dsimp only at *
  unfold makeKey
  split_ifs <;> simp only [Prod.mk.injEq] <;> omega

theorem mem_newKeys_ip {ip v : ℤ} {f : ℤ × ℤ} (hf : f.1 ≠ f.2) (h1 : ip ≠ f.1) (h2 : ip ≠ f.2) (hv : v ≠ ip) :
    makeKey v ip ∈ newKeys ip f ↔ v = f.1 ∨ v = f.2 := by
  rw [mem_newKeys hf h1 h2]
  obtain ⟨c, d⟩ := f
  dsimp only at *
  unfold makeKey
  split_ifs <;> dsimp only <;> omega

section
variable {M M' : Mesh K} {ip : ℤ} {vis : List (ℤ × ℤ)} {ts : List Tri}

/-- an unchanged boundary edge still has one triangle -/
theorem Grown.old_single (G : Grown R M M' ip vis ts) (hM : M.Consistent) (hB : M.Bounded)
    (hnew : ∀ T ∈ M.tris, ¬ T.Has ip) {e : ℤ × ℤ} (he : e ∈ M.bnd) (hv : e ∉ vis) : M'.Single e := by
  have hends := bnd_ends hB hnew
  rw [single_iff G.cons (hB.ne e he), G.len, (single_iff hM (hB.ne e he)).1 (hB.single e he)]
  have : vis.filter (fun f => decide (makeKey e.1 e.2 ∈ newKeys ip f)) = [] := by
    rw [List.filter_eq_nil_iff]
    intro f hf
    have hfb := ((G.visible f).1 hf).1
    rw [decide_eq_true_eq, mem_newKeys_no (hB.ne f hfb) (hends f hfb).1 (hends f hfb).2.1 (hB.ne e he) (hends e he).1
      (hends e he).2.1]
    rintro (rfl | rfl)
    · exact hv hf
    · exact hB.once f hfb he
  rw [this]; rfl

theorem Grown.mem_bnd (G : Grown R M M' ip vis ts) (hB : M.Bounded)
    (hnew : ∀ T ∈ M.tris, ¬ T.Has ip) (e : ℤ × ℤ) :
    e ∈ M'.bnd ↔ (e ∈ M.bnd ∧ e ∉ vis) ∨ (M'.Single e ∧ ∃ f ∈ vis, e = (f.1, ip) ∨ e = (ip, f.2)) := by
  have hends := bnd_ends hB hnew
  rw [G.bnd, List.mem_union_iff, List.mem_filter, List.mem_filter, decide_eq_true_eq, decide_eq_true_eq, List.mem_flatMap]
  refine or_congr Iff.rfl ?_
  constructor
  · rintro ⟨⟨f, hf, h⟩, h2⟩
    have hfb := ((G.visible f).1 hf).1
    simp only [List.mem_cons, List.not_mem_nil, or_false] at h
    refine ⟨(single_iff G.cons ?_).2 h2, f, hf, h⟩
    rcases h with rfl | rfl
    · exact (hends f hfb).1.symm
    · exact (hends f hfb).2.1
  · rintro ⟨h, f, hf, hx⟩
    have hfb := ((G.visible f).1 hf).1
    refine ⟨⟨f, hf, by simpa using hx⟩, (single_iff G.cons ?_).1 h⟩
    rcases hx with rfl | rfl
    · exact (hends f hfb).1.symm
    · exact (hends f hfb).2.1

/-- no entry for a pair with the new point before -/
theorem entry_new (hM : M.Consistent) (hnew : ∀ T ∈ M.tris, ¬ T.Has ip) {v : ℤ} (hv : v ≠ ip) :
    (M.e2t (makeKey v ip)).getD [] = [] := by
  rw [List.eq_nil_iff_forall_not_mem]
  intro n hn
  obtain ⟨T, hT, -, h⟩ := (mem_entry hM (e := (v, ip)) hv n).1 hn
  exact hnew T (List.mem_of_getElem? hT) h

theorem Grown.atMostTwo (G : Grown R M M' ip vis ts) (hM : M.Consistent) (hB : M.Bounded)
    (hnew : ∀ T ∈ M.tris, ¬ T.Has ip) (h2 : M.AtMostTwo) : M'.AtMostTwo := by
  have hends := bnd_ends hB hnew
  have hvb : ∀ f ∈ vis, f ∈ M.bnd := fun f hf => ((G.visible f).1 hf).1
  intro x l hx
  have hlen := G.len x
  rw [hx, Option.getD_some] at hlen
  rw [hlen]
  have hlt := G.cons.key x l hx
  have hnd : (vis.filter fun e => decide (x ∈ newKeys ip e)).Nodup := G.nodup.filter _
  by_cases hip : x.1 = ip ∨ x.2 = ip
  · obtain ⟨v, hv, hxv⟩ : ∃ v, v ≠ ip ∧ x = makeKey v ip := by
      obtain ⟨a, b⟩ := x
      dsimp only at *
      rcases hip with rfl | rfl
      · exact ⟨b, by omega, by rw [makeKey_comm]; exact (makeKey_sorted (e := (a, b)) hlt.le).symm⟩
      · exact ⟨a, by omega, (makeKey_sorted (e := (a, b)) hlt.le).symm⟩
    subst hxv
    rw [entry_new hM hnew hv]
    simp only [List.length_nil, zero_add]
    generalize hL : vis.filter (fun e => decide (makeKey v ip ∈ newKeys ip e)) = L at hnd
    have hmem : ∀ f ∈ L, f ∈ M.bnd ∧ (v = f.1 ∨ v = f.2) := by
      intro f hf
      rw [← hL, List.mem_filter, decide_eq_true_eq] at hf
      have hfb := hvb f hf.1
      exact ⟨hfb, (mem_newKeys_ip (hB.ne f hfb) (hends f hfb).1 (hends f hfb).2.1 hv).1 hf.2⟩
    have e := List.length_eq_length_filter_add (l := L) (fun f => decide (f.1 = v))
    have a1 : (L.filter fun f => decide (f.1 = v)).length ≤ 1 := by
      refine length_le_one (hnd.filter _) ?_
      intro a ha b hb
      rw [List.mem_filter, decide_eq_true_eq] at ha hb
      exact hB.starts a (hmem a ha.1).1 b (hmem b hb.1).1 (ha.2.trans hb.2.symm)
    have a2 : (L.filter fun f => !decide (f.1 = v)).length ≤ 1 := by
      refine length_le_one (hnd.filter _) ?_
      intro a ha b hb
      rw [List.mem_filter, Bool.not_eq_true', decide_eq_false_iff_not] at ha hb
      obtain ⟨ha1, ha2⟩ := hmem a ha.1
      obtain ⟨hb1, hb2⟩ := hmem b hb.1
      refine hB.ends a ha1 b hb1 ?_
      rcases ha2 with h | h
      · exact absurd h.symm ha.2
      · rcases hb2 with h' | h'
        · exact absurd h'.symm hb.2
        · rw [← h, ← h']
    omega
  · push Not at hip
    by_cases hf : ∃ f ∈ vis, x ∈ newKeys ip f
    · obtain ⟨f, hf, hxf⟩ := hf
      have hfb := hvb f hf
      have hne : x.1 ≠ x.2 := hlt.ne
      have hxk : makeKey x.1 x.2 = x := makeKey_sorted hlt.le
      have key : ∀ g ∈ M.bnd, x ∈ newKeys ip g → x = g ∨ x = (g.2, g.1) := by
        intro g hgb hg
        rw [← hxk] at hg
        exact (mem_newKeys_no (hB.ne g hgb) (hends g hgb).1 (hends g hgb).2.1 hne (Ne.symm hip.1) (Ne.symm hip.2)).1 hg
      have h1 : ((M.e2t x).getD []).length = 1 := by
        have : x = makeKey f.1 f.2 := by
          rcases key f hfb hxf with h | h
          · rw [← h, hxk]
          · rw [makeKey_comm]
            have : f.2 = x.1 ∧ f.1 = x.2 := by rw [h]; exact ⟨rfl, rfl⟩
            rw [this.1, this.2, hxk]
        rw [this]
        exact (single_iff hM (hB.ne f hfb)).1 (hB.single f hfb)
      rw [h1]
      have : (vis.filter fun e => decide (x ∈ newKeys ip e)).length ≤ 1 := by
        refine length_le_one hnd ?_
        intro a ha b hb
        rw [List.mem_filter, decide_eq_true_eq] at ha hb
        have ha' := hvb a ha.1
        have hb' := hvb b hb.1
        rcases key a ha' ha.2 with h | h <;> rcases key b hb' hb.2 with h' | h'
        · exact h.symm.trans h'
        · exact absurd (by rw [← h', h]; exact ha') (hB.once b hb')
        · exact absurd (by rw [← h, h']; exact hb') (hB.once a ha')
        · rw [h] at h'
          simp only [Prod.mk.injEq] at h'
          exact Prod.ext h'.2 h'.1
      omega
    · have : vis.filter (fun e => decide (x ∈ newKeys ip e)) = [] := by
        rw [List.filter_eq_nil_iff]
        intro f hf' h
        exact hf ⟨f, hf', by simpa using h⟩
      rw [this]
      cases hx : M.e2t x with
      | none => simp
      | some l => simpa using h2 x l hx

end

/-- C89 (any arithmetic): let the table be consistent, the boundary be a set of edges with one triangle each, and let
the new point not be used by a triangle yet.  Then `addPoint` (before the flips) raises nothing and appends one triangle
for each boundary edge the point sees, made of the edge and the point; the table stays consistent with at most two
triangles per edge.  The boundary loses the edges seen and gains those edges to the new point that belong to one triangle
only, so that all edges of the new boundary belong to exactly one triangle. -/
theorem C89_add {M : Mesh K} (hM : M.Consistent) (h2 : M.AtMostTwo) (hr : M.InRange) (hB : M.Bounded) {ip : ℤ}
    (hip : 0 ≤ ip ∧ ip < M.points.length) (hnew : ∀ T ∈ M.tris, ¬ T.Has ip) :
    ∃ M' vis ts, R.addPoint M ip = .ok M' ∧ M'.points = M.points ∧ M'.tris = M.tris ++ ts ∧
      (∀ e, e ∈ vis ↔ e ∈ M.bnd ∧ R.isEdgeVisible M.points ip e = .ok true) ∧ vis.Nodup ∧
      List.Forall₂ (fun e t => ∀ w, t.Has w ↔ w = e.1 ∨ w = e.2 ∨ w = ip) vis ts ∧
      M'.Consistent ∧ M'.AtMostTwo ∧ M'.InRange ∧
      (∀ e, e ∈ M'.bnd ↔ (e ∈ M.bnd ∧ e ∉ vis) ∨ (M'.Single e ∧ ∃ f ∈ vis, e = (f.1, ip) ∨ e = (ip, f.2))) ∧
      ∀ e ∈ M'.bnd, M'.Single e := by
  obtain ⟨M', vis, ts, h, G⟩ := addPoint_grown (R := R) hM hr hB hip hnew
  have hb := G.mem_bnd hB hnew
  refine ⟨M', vis, ts, h, G.points, G.tris, G.visible, G.nodup, G.has, G.cons, G.atMostTwo hM hB hnew h2, ?_, hb, ?_⟩
  · intro T hT v hv
    rw [G.points]
    rw [G.tris, List.mem_append] at hT
    rcases hT with hT | hT
    · exact hr T hT v hv
    · obtain ⟨e, he, hh⟩ : ∃ e ∈ vis, ∀ w, T.Has w ↔ w = e.1 ∨ w = e.2 ∨ w = ip := by
        obtain ⟨n, hn, rfl⟩ := List.mem_iff_getElem.1 hT
        exact ⟨vis[n]'(by rw [G.has.length_eq]; exact hn), List.getElem_mem _, G.has.get _ hn⟩
      have heb := ((G.visible e).1 he).1
      obtain ⟨-, -, S, hS, s1, s2⟩ := bnd_ends hB hnew e heb
      rcases (hh v).1 hv with rfl | rfl | rfl
      · exact hr S hS _ s1
      · exact hr S hS _ s2
      · exact hip
  · intro e he
    rcases (hb e).1 he with ⟨h1, h2⟩ | ⟨h1, -⟩
    · exact G.old_single hM hB hnew h1 h2
    · exact h1
section
variable {M M' : Mesh K} {ip : ℤ} {vis : List (ℤ × ℤ)} {ts : List Tri}

/-- the new triangle of a visible edge -/
theorem Grown.tri (G : Grown R M M' ip vis ts) {k : ℕ} {e : ℤ × ℤ} (h : vis[k]? = some e) :
    ∃ t, M'.tris[M.tris.length + k]? = some t ∧ ∀ w, t.Has w ↔ w = e.1 ∨ w = e.2 ∨ w = ip := by
  obtain ⟨hk, he⟩ := List.getElem?_eq_some_iff.1 h
  have hk' : k < ts.length := by rw [← G.has.length_eq]; exact hk
  refine ⟨ts[k], ?_, ?_⟩
  · rw [G.tris, List.getElem?_append_right (by omega), Nat.add_sub_cancel_left]
    exact List.getElem?_eq_getElem hk'
  · rw [← he]; exact G.has.get hk hk'

theorem Grown.same (G : Grown R M M' ip vis ts) {f g : ℤ × ℤ} {x : ℤ} (hf : f ∈ vis) (hg : g ∈ vis)
    (hs : M'.Single (x, ip)) (h1 : x = f.1 ∨ x = f.2) (h2 : x = g.1 ∨ x = g.2) : f = g := by
  obtain ⟨n, T, -, -, -, hu⟩ := hs
  obtain ⟨k, hk⟩ := List.mem_iff_getElem?.1 hf
  obtain ⟨l, hl⟩ := List.mem_iff_getElem?.1 hg
  obtain ⟨t, ht, hth⟩ := G.tri hk
  obtain ⟨s, hs, hsh⟩ := G.tri hl
  have a := hu _ t ht ((hth _).2 (by dsimp only; tauto)) ((hth _).2 (by simp))
  have b := hu _ s hs ((hsh _).2 (by dsimp only; tauto)) ((hsh _).2 (by simp))
  have : k = l := by omega
  rw [this, hl] at hk
  exact (Option.some.inj hk).symm

theorem Mesh.Single.symm {M : Mesh K} {a b : ℤ} (h : M.Single (a, b)) : M.Single (b, a) := by
  obtain ⟨n, T, hT, h1, h2, hu⟩ := h
  exact ⟨n, T, hT, h2, h1, fun m S hS g1 g2 => hu m S hS g2 g1⟩

/-- C89 (any arithmetic): if moreover the visible edges are consecutive (only one of them does not start where another one
ends, only one does not end where another one starts), the new boundary is again a boundary in the sense assumed. -/
theorem C89_boundary {M M' : Mesh K} (hM : M.Consistent) (hr : M.InRange) (hB : M.Bounded) {ip : ℤ}
    (hip : 0 ≤ ip ∧ ip < M.points.length) (hnew : ∀ T ∈ M.tris, ¬ T.Has ip) (h : R.addPoint M ip = .ok M')
    (V : ℤ × ℤ → Prop) (hV : ∀ e, V e ↔ e ∈ M.bnd ∧ R.isEdgeVisible M.points ip e = .ok true)
    (hs : ∀ f g, V f → V g → (∀ k, V k → k.2 ≠ f.1) → (∀ k, V k → k.2 ≠ g.1) → f = g)
    (he : ∀ f g, V f → V g → (∀ k, V k → k.1 ≠ f.2) → (∀ k, V k → k.1 ≠ g.2) → f = g) : M'.Bounded := by
  obtain ⟨M'', vis, ts, h', G⟩ := addPoint_grown (R := R) hM hr hB hip hnew
  rw [h] at h'
  obtain rfl : M' = M'' := Except.ok.inj h'
  have hends := bnd_ends hB hnew
  have hb := G.mem_bnd hB hnew
  have hvV : ∀ e, e ∈ vis ↔ V e := fun e => (G.visible e).trans (hV e).symm
  have hvb : ∀ f ∈ vis, f ∈ M.bnd := fun f hf => ((G.visible f).1 hf).1
  have s1 : ∀ f ∈ vis, M'.Single (f.1, ip) → ∀ k, V k → k.2 ≠ f.1 := by
    intro f hf hS k hk e
    have := G.same hf ((hvV k).2 hk) hS (Or.inl rfl) (Or.inr e.symm)
    subst this
    exact hB.ne f (hvb f hf) e.symm
  have s2 : ∀ f ∈ vis, M'.Single (ip, f.2) → ∀ k, V k → k.1 ≠ f.2 := by
    intro f hf hS k hk e
    have := G.same hf ((hvV k).2 hk) hS.symm (Or.inr rfl) (Or.inl e.symm)
    subst this
    exact hB.ne f (hvb f hf) e
  refine ⟨?_, ?_, ?_, ?_, ?_, ?_⟩
  · rw [G.bnd]
    apply List.Nodup.union
    apply List.Nodup.filter
    rw [List.nodup_flatMap]
    refine ⟨?_, ?_⟩
    · intro f hf
      simp only [List.nodup_cons, List.mem_singleton, Prod.mk.injEq, List.not_mem_nil, not_false_eq_true,
        List.nodup_nil, and_true, not_and]
      intro e
      exact absurd e.symm (hends f (hvb f hf)).1
    · refine List.Pairwise.imp_of_mem ?_ G.nodup
      intro f g hf hg hne
      unfold Function.onFun List.Disjoint
      intro x hx hy
      simp only [List.mem_cons, List.not_mem_nil, or_false] at hx hy
      have f1 := hends f (hvb f hf)
      have g1 := hends g (hvb g hg)
      rcases hx with rfl | rfl <;> rcases hy with e | e <;> simp only [Prod.mk.injEq] at e
      · exact hne (hB.starts f (hvb f hf) g (hvb g hg) e.1)
      · exact f1.1 e.1.symm
      · exact g1.1 e.1
      · exact hne (hB.ends f (hvb f hf) g (hvb g hg) e.2)
  · intro e hx
    rcases (hb e).1 hx with ⟨h1, -⟩ | ⟨-, f, hf, rfl | rfl⟩
    · exact hB.ne e h1
    · exact (hends f (hvb f hf)).1.symm
    · exact (hends f (hvb f hf)).2.1
  · intro e hx
    rcases (hb e).1 hx with ⟨h1, h2⟩ | ⟨h1, -⟩
    · exact G.old_single hM hB hnew h1 h2
    · exact h1
  · intro e hx f hy heq
    rcases (hb e).1 hx with ⟨a1, a2⟩ | ⟨a1, g, hg, rfl | rfl⟩ <;>
      rcases (hb f).1 hy with ⟨b1, b2⟩ | ⟨b1, k, hk, rfl | rfl⟩ <;> try dsimp only at heq
    · exact hB.starts e a1 f b1 heq
    · exact absurd (by rw [hB.starts e a1 k (hvb k hk) heq]; exact hk) a2
    · exact absurd heq.symm (hends e a1).1
    · exact absurd (by rw [← hB.starts g (hvb g hg) f b1 heq]; exact hg) b2
    · rw [heq]
    · exact absurd heq.symm (hends g (hvb g hg)).1
    · exact absurd heq (hends f b1).1
    · exact absurd heq (hends k (hvb k hk)).1
    · rw [he g k ((hvV g).1 hg) ((hvV k).1 hk) (s2 g hg a1) (s2 k hk b1)]
  · intro e hx f hy heq
    rcases (hb e).1 hx with ⟨a1, a2⟩ | ⟨a1, g, hg, rfl | rfl⟩ <;>
      rcases (hb f).1 hy with ⟨b1, b2⟩ | ⟨b1, k, hk, rfl | rfl⟩ <;> try dsimp only at heq
    · exact hB.ends e a1 f b1 heq
    · exact absurd heq.symm (hends e a1).2.1
    · exact absurd (by rw [hB.ends e a1 k (hvb k hk) heq]; exact hk) a2
    · exact absurd heq (hends f b1).2.1
    · rw [hs g k ((hvV g).1 hg) ((hvV k).1 hk) (s1 g hg a1) (s1 k hk b1)]
    · exact absurd heq (hends k (hvb k hk)).2.1
    · exact absurd (by rw [← hB.ends g (hvb g hg) f b1 heq]; exact hg) b2
    · exact absurd heq.symm (hends g (hvb g hg)).2.1
    · rw [heq]
  · intro e hx hy
    rcases (hb e).1 hx with ⟨a1, a2⟩ | ⟨a1, g, hg, rfl | rfl⟩ <;>
      rcases (hb _).1 hy with ⟨b1, b2⟩ | ⟨b1, k, hk, q | q⟩ <;> (try simp only [Prod.mk.injEq] at q)
    · exact hB.once e a1 b1
    · exact (hends e a1).1 q.2.symm
    · exact (hends e a1).2.1 q.1.symm
    · exact (hends _ b1).1 rfl
    · exact (hends g (hvb g hg)).1 q.2.symm
    · exact s1 g hg a1 k ((hvV k).1 hk) q.2.symm
    · exact (hends _ b1).2.1 rfl
    · exact s2 g hg a1 k ((hvV k).1 hk) q.1.symm
    · exact (hends g (hvb g hg)).2.1 q.1.symm

end

/-- C89, exact arithmetic: an edge is visible from a point iff the point is to the right of it or on its line or nearer to
it than twice the area EPS. -/
theorem C89_visible (hE : R.IsExact) {M : Mesh K} (hst : ∀ p ∈ M.points, R.Stored p) {ip : ℤ} {e : ℤ × ℤ}
    (h0 : 0 ≤ ip ∧ ip < M.points.length) (h1 : 0 ≤ e.1 ∧ e.1 < M.points.length) (h2 : 0 ≤ e.2 ∧ e.2 < M.points.length) :
    R.isEdgeVisible M.points ip e = .ok (decide (det3 (M.pos e.1) (M.pos e.2) (M.pos ip) < 1 / 10 ^ 8)) := by
  obtain ⟨p, hp⟩ := pyGet_some h0
  obtain ⟨q, hq⟩ := pyGet_some h1
  obtain ⟨r, hr⟩ := pyGet_some h2
  have := (C60_exact hE hst hp hq hr).1
  unfold Rt.isEdgeVisible
  rw [this]
  simp only [Except.map, Mesh.pos, hp, hq, hr, Option.getD_some, hE.eps', Except.ok.injEq, decide_eq_decide]
  rw [show det3 p q r = det3 q r p by unfold det3; ring]

/-- twice the absolute area depends on the vertices only -/
theorem abs_area_of_has {M : Mesh K} {t : Tri} (hp : t.Proper) {a b c : ℤ} (h : ∀ w, t.Has w ↔ w = a ∨ w = b ∨ w = c) :
    |M.area t| = |det3 (M.pos a) (M.pos b) (M.pos c)| := by
  obtain ⟨x, y, z⟩ := t
  obtain ⟨h1, h2, h3⟩ := hp
  dsimp only at h1 h2 h3
  have hx := (h x).1 (Or.inl rfl)
  have hy := (h y).1 (Or.inr (Or.inl rfl))
  have hz := (h z).1 (Or.inr (Or.inr rfl))
  unfold Mesh.area
  rcases hx with rfl | rfl | rfl <;> rcases hy with rfl | rfl | rfl <;> rcases hz with rfl | rfl | rfl <;>
    first
    | exact absurd rfl h1
    | exact absurd rfl h2
    | exact absurd rfl h3
    | rfl
    | (dsimp only; rw [abs_eq_abs]; unfold det3; first | (left; ring1) | (right; ring1))

/-- C89, exact arithmetic: on a planar mesh with the triangles to the left of the boundary, if the new point is not within
the tolerance of the line of a boundary edge, `addPoint` leaves a planar mesh with the triangles to the left of the new
boundary; all new triangles are counter-clockwise, and the total area grows by the areas between the new point and the
visible edges. -/
theorem C89_planar (hE : R.IsExact) {M M' : Mesh K} (hM : M.Consistent) (h2 : M.AtMostTwo) (hr : M.InRange)
    (hB : M.Bounded) {ip : ℤ} (hip : 0 ≤ ip ∧ ip < M.points.length) (hnew : ∀ T ∈ M.tris, ¬ T.Has ip)
    (hst : ∀ p ∈ M.points, R.Stored p) (hP : M.Planar) (hL : M.LeftOfBoundary)
    (hfar : ∀ e ∈ M.bnd, det3 (M.pos e.1) (M.pos e.2) (M.pos ip) < 1 / 10 ^ 8 →
      det3 (M.pos e.1) (M.pos e.2) (M.pos ip) < -(1 / 10 ^ 8)) (h : R.addPoint M ip = .ok M') :
    M'.Planar ∧ M'.LeftOfBoundary ∧ (∀ T ∈ M'.tris.drop M.tris.length, 0 < M'.area T) ∧
    M'.total = M.total + ((M.bnd.filter fun e => decide (det3 (M.pos e.1) (M.pos e.2) (M.pos ip) < 0)).map
      fun e => -det3 (M.pos e.1) (M.pos e.2) (M.pos ip)).sum := by
  obtain ⟨M'', vis, ts, h', G⟩ := addPoint_grown (R := R) hM hr hB hip hnew
  rw [h] at h'
  obtain rfl : M' = M'' := Except.ok.inj h'
  have hends := bnd_ends hB hnew
  have hb := G.mem_bnd hB hnew
  have hpos : M'.pos = M.pos := by unfold Mesh.pos; rw [G.points]
  have heps : (0 : K) < 1 / 10 ^ 8 := by positivity
  have hvis : ∀ e, e ∈ vis ↔ e ∈ M.bnd ∧ det3 (M.pos e.1) (M.pos e.2) (M.pos ip) < 0 := by
    intro e
    rw [G.visible]
    refine and_congr_right fun he => ?_
    obtain ⟨-, -, T, hT, t1, t2⟩ := hends e he
    rw [C89_visible hE hst hip (hr T hT _ t1) (hr T hT _ t2), Except.ok.injEq, decide_eq_true_eq]
    constructor
    · intro g; have := hfar e he g; linarith
    · intro g; linarith
  have hvb : ∀ f ∈ vis, f ∈ M.bnd := fun f hf => ((hvis f).1 hf).1
  have hneg : ∀ f ∈ vis, det3 (M.pos f.1) (M.pos f.2) (M.pos ip) < -(1 / 10 ^ 8) := by
    intro f hf
    obtain ⟨g1, g2⟩ := (hvis f).1 hf
    exact hfar f g1 (by linarith)
  have hold : ∀ n, n < M.tris.length → M'.tris[n]? = M.tris[n]? := by
    intro n hn; rw [G.tris, List.getElem?_append_left hn]
  have h2' := G.atMostTwo hM hB hnew h2
  refine ⟨?_, ?_, ?_, ?_⟩
  · -- planarity
    intro x n m T S u v hx hT hS hu hu1 hu2 hv hv1 hv2
    rw [hpos]
    have hxlt := G.cons.key _ _ hx
    have hxk : makeKey x.1 x.2 = x := makeKey_sorted hxlt.le
    have hnm : n ≠ m := by have := G.cons.nodup _ _ hx; simpa using this
    have cls : ∀ k ∈ [n, m], k ∈ (M.e2t x).getD [] ∨ ∃ j e, k = M.tris.length + j ∧ vis[j]? = some e ∧ x ∈ newKeys ip e := by
      intro k hk
      have := G.mem x k
      rw [hx] at this
      exact this hk
    have oldlt : ∀ k ∈ (M.e2t x).getD [], k < M.tris.length ∧ x.1 ≠ ip ∧ x.2 ≠ ip := by
      intro k hk
      rw [← hxk] at hk
      obtain ⟨Q, hQ, q1, q2⟩ := (mem_entry hM (e := x) hxlt.ne k).1 hk
      refine ⟨(List.getElem?_eq_some_iff.1 hQ).1, ?_, ?_⟩
      · rintro e; exact hnew Q (List.mem_of_getElem? hQ) (e ▸ q1)
      · rintro e; exact hnew Q (List.mem_of_getElem? hQ) (e ▸ q2)
    -- one old triangle and one new one
    have mixed : ∀ (k : ℕ) (Q : Tri) (j : ℕ) (e : ℤ × ℤ) (Q' : Tri) (a b : ℤ), k ∈ (M.e2t x).getD [] → M'.tris[k]? = some Q →
        vis[j]? = some e → x ∈ newKeys ip e → M'.tris[M.tris.length + j]? = some Q' → Q.Has a → a ≠ x.1 → a ≠ x.2 →
        Q'.Has b → b ≠ x.1 → b ≠ x.2 →
        det3 (M.pos x.1) (M.pos x.2) (M.pos a) * det3 (M.pos x.1) (M.pos x.2) (M.pos b) < 0 := by
      intro k Q j e Q' a b hk hQ hj hxe hQ' ha a1 a2 hb' b1 b2
      obtain ⟨hlt, n1, n2⟩ := oldlt k hk
      have hev := List.mem_of_getElem? hj
      have heb := hvb e hev
      have hxx := (mem_newKeys_no (hB.ne e heb) (hends e heb).1 (hends e heb).2.1 hxlt.ne (Ne.symm n1) (Ne.symm n2)).1
        (by rw [hxk]; exact hxe)
      rw [hold k hlt] at hQ
      have hQm := List.mem_of_getElem? hQ
      obtain ⟨q1, q2⟩ : Q.Has x.1 ∧ Q.Has x.2 := by
        have hk' := hk
        rw [← hxk] at hk'
        obtain ⟨Z, hZ, z1, z2⟩ := (mem_entry hM (e := x) hxlt.ne k).1 hk'
        rw [hQ] at hZ
        obtain rfl := Option.some.inj hZ
        exact ⟨z1, z2⟩
      obtain ⟨t, ht, hth⟩ := G.tri hj
      rw [hQ'] at ht
      obtain rfl := Option.some.inj ht
      have hn := hneg e hev
      rcases hxx with rfl | rfl
      · have hbip : b = ip := by
          rcases (hth b).1 hb' with q | q | q
          · exact absurd q b1
          · exact absurd q b2
          · exact q
        subst hbip
        have hl := hL x heb Q hQm a q1 q2 ha a1 a2
        exact mul_neg_of_pos_of_neg hl (by linarith)
      · dsimp only at *
        have hbip : b = ip := by
          rcases (hth b).1 hb' with q | q | q
          · exact absurd q b2
          · exact absurd q b1
          · exact q
        subst hbip
        have hl := hL e heb Q hQm a q2 q1 ha a2 a1
        have s : ∀ p q r : Pt K, det3 q p r = -det3 p q r := by intro p q r; unfold det3; ring
        rw [s (M.pos e.1), s (M.pos e.1), neg_mul_neg]
        exact mul_neg_of_pos_of_neg hl (by linarith)
    rcases cls n (by simp) with hn | ⟨j, e, rfl, hj, hxe⟩ <;> rcases cls m (by simp) with hm | ⟨k, f, rfl, hk, hxf⟩
    · -- both old
      have l1 := (oldlt n hn).1
      have l2 := (oldlt m hm).1
      rw [hold n l1] at hT
      rw [hold m l2] at hS
      cases hl : M.e2t x with
      | none => rw [hl] at hn; simp at hn
      | some l =>
        rw [hl, Option.getD_some] at hn hm
        have hlen := h2 x l hl
        match l, hn, hm, hlen with
        | [a], hn, hm, _ =>
          rw [List.mem_singleton] at hn hm
          exact absurd (hn.trans hm.symm) hnm
        | [a, b], hn, hm, _ =>
          simp only [List.mem_cons, List.not_mem_nil, or_false] at hn hm
          rcases hn with rfl | rfl <;> rcases hm with rfl | rfl
          · exact absurd rfl hnm
          · exact hP x _ _ T S u v hl hT hS hu hu1 hu2 hv hv1 hv2
          · have := hP x _ _ S T v u hl hS hT hv hv1 hv2 hu hu1 hu2
            rwa [mul_comm] at this
          · exact absurd rfl hnm
    · exact mixed n T k f S u v hn hT hk hxf hS hu hu1 hu2 hv hv1 hv2
    · rw [mul_comm]
      exact mixed m S j e T v u hm hS hj hxe hT hv hv1 hv2 hu hu1 hu2
    · -- both new
      have hev := List.mem_of_getElem? hj
      have hfv := List.mem_of_getElem? hk
      have heb := hvb e hev
      have hfb := hvb f hfv
      have hef : e ≠ f := by
        rintro rfl
        apply hnm
        obtain ⟨a1, a2⟩ := List.getElem?_eq_some_iff.1 hj
        obtain ⟨b1, b2⟩ := List.getElem?_eq_some_iff.1 hk
        have := (G.nodup.getElem_inj_iff (hi := a1) (hj := b1)).1 (a2.trans b2.symm)
        omega
      obtain ⟨t, ht, hth⟩ := G.tri hj
      obtain ⟨s, hs, hsh⟩ := G.tri hk
      rw [hT] at ht
      rw [hS] at hs
      obtain rfl := Option.some.inj ht
      obtain rfl := Option.some.inj hs
      have e1 := hends e heb
      have f1 := hends f hfb
      by_cases hxip : x.1 = ip ∨ x.2 = ip
      · obtain ⟨w, hw, hxw⟩ : ∃ w, w ≠ ip ∧ (x = (w, ip) ∨ x = (ip, w)) := by
          obtain ⟨a, b⟩ := x
          dsimp only at *
          rcases hxip with rfl | rfl
          · exact ⟨b, by omega, Or.inr rfl⟩
          · exact ⟨a, by omega, Or.inl rfl⟩
        have hxm : x = makeKey w ip := by
          rcases hxw with q | q
          · rw [← hxk, q]
          · rw [← hxk, q, makeKey_comm]
        rw [hxm] at hxe hxf
        have we := (mem_newKeys_ip (hB.ne e heb) e1.1 e1.2.1 hw).1 hxe
        have wf := (mem_newKeys_ip (hB.ne f hfb) f1.1 f1.2.1 hw).1 hxf
        have huw : u ≠ w ∧ u ≠ ip := by
          rcases hxw with rfl | rfl
          · exact ⟨hu1, hu2⟩
          · exact ⟨hu2, hu1⟩
        have hvw : v ≠ w ∧ v ≠ ip := by
          rcases hxw with rfl | rfl
          · exact ⟨hv1, hv2⟩
          · exact ⟨hv2, hv1⟩
        have ne := hneg e hev
        have nf := hneg f hfv
        have hu' := (hth u).1 hu
        have hv' := (hsh v).1 hv
        have main : det3 (M.pos w) (M.pos ip) (M.pos u) * det3 (M.pos w) (M.pos ip) (M.pos v) < 0 := by
          have r1 : ∀ p q r : Pt K, det3 p r q = -det3 p q r := by intro p q r; unfold det3; ring
          have r2 : ∀ p q r : Pt K, det3 q r p = det3 p q r := by intro p q r; unfold det3; ring
          rcases we with q1 | q1 <;> rcases wf with q2 | q2
          · exact absurd (hB.starts e heb f hfb (q1.symm.trans q2)) hef
          · have hue : u = e.2 := by rcases hu' with q | q | q; · exact absurd (q.trans q1.symm) huw.1
                                     · exact q
                                     · exact absurd q huw.2
            have hvf : v = f.1 := by rcases hv' with q | q | q; · exact q
                                     · exact absurd (q.trans q2.symm) hvw.1
                                     · exact absurd q hvw.2
            rw [hue, hvf, r1 _ (M.pos e.2), r2 (M.pos f.1)]
            rw [← q2] at nf
            rw [← q1] at ne
            apply mul_neg_of_pos_of_neg <;> linarith
          · have hue : u = e.1 := by rcases hu' with q | q | q; · exact q
                                     · exact absurd (q.trans q1.symm) huw.1
                                     · exact absurd q huw.2
            have hvf : v = f.2 := by rcases hv' with q | q | q; · exact absurd (q.trans q2.symm) hvw.1
                                     · exact q
                                     · exact absurd q hvw.2
            rw [hue, hvf, r1 _ (M.pos f.2)]
            rw [← q2] at nf
            rw [← q1] at ne
            rw [r2]
            apply mul_neg_of_neg_of_pos <;> linarith
          · exact absurd (hB.ends e heb f hfb (q1.symm.trans q2)) hef
        rcases hxw with rfl | rfl
        · exact main
        · have s : ∀ p q r : Pt K, det3 q p r = -det3 p q r := by intro p q r; unfold det3; ring
          dsimp only
          rw [s (M.pos w), s (M.pos w), neg_mul_neg]
          exact main
      · push Not at hxip
        rw [← hxk] at hxe hxf
        have a := (mem_newKeys_no (hB.ne e heb) e1.1 e1.2.1 hxlt.ne (Ne.symm hxip.1) (Ne.symm hxip.2)).1 hxe
        have b := (mem_newKeys_no (hB.ne f hfb) f1.1 f1.2.1 hxlt.ne (Ne.symm hxip.1) (Ne.symm hxip.2)).1 hxf
        exfalso
        rcases a with a | a <;> rcases b with b | b
        · exact hef (a.symm.trans b)
        · exact hB.once f hfb (by rw [← b, a]; exact heb)
        · exact hB.once e heb (by rw [← a, b]; exact hfb)
        · rw [a] at b
          simp only [Prod.mk.injEq] at b
          exact hef (Prod.ext b.2 b.1)
  · -- left of the boundary
    intro e he T hT u t1 t2 hu u1 u2
    rw [hpos]
    obtain ⟨n, hn⟩ := List.mem_iff_getElem?.1 hT
    rcases (hb e).1 he with ⟨a1, a2⟩ | ⟨a1, f, hf, hef⟩
    · obtain ⟨-, -, S, hS, s1, s2⟩ := hends e a1
      obtain ⟨m, hm⟩ := List.mem_iff_getElem?.1 hS
      have hml := (List.getElem?_eq_some_iff.1 hm).1
      obtain ⟨k, -, -, -, -, hu'⟩ := G.old_single hM hB hnew a1 a2
      have e1 := hu' n T hn t1 t2
      have e2 := hu' m S (by rw [hold m hml]; exact hm) s1 s2
      rw [e1, ← e2, hold m hml] at hn
      exact hL e a1 T (List.mem_of_getElem? hn) u t1 t2 hu u1 u2
    · obtain ⟨k, hk⟩ := List.mem_iff_getElem?.1 hf
      obtain ⟨t, ht, hth⟩ := G.tri hk
      have hneg := hneg f hf
      obtain ⟨j, -, -, -, -, hu'⟩ := a1
      have htt : T = t := by
        have e1 := hu' n T hn t1 t2
        have e2 := hu' _ t ht ((hth _).2 (by rcases hef with rfl | rfl <;> simp)) ((hth _).2 (by rcases hef with rfl | rfl <;> simp))
        rw [e1, ← e2, ht] at hn
        exact (Option.some.inj hn).symm
      rw [htt] at hu
      have hu3 := (hth u).1 hu
      rcases hef with rfl | rfl <;> dsimp only at *
      · have : u = f.2 := by tauto
        rw [this, show det3 (M.pos f.1) (M.pos ip) (M.pos f.2) = -det3 (M.pos f.1) (M.pos f.2) (M.pos ip) by
          unfold det3; ring]
        linarith
      · have : u = f.1 := by tauto
        rw [this, show det3 (M.pos ip) (M.pos f.2) (M.pos f.1) = -det3 (M.pos f.1) (M.pos f.2) (M.pos ip) by
          unfold det3; ring]
        linarith
  · -- orientation
    intro T hT
    rw [G.tris, List.drop_left] at hT
    obtain ⟨k, hk, rfl⟩ := List.mem_iff_getElem.1 hT
    have hk' : k < vis.length := by rw [G.has.length_eq]; exact hk
    have hc := G.ccw.get hk' hk
    have hh := G.has.get hk' hk
    simp only [List.get_eq_getElem] at hc hh
    set e := vis[k] with hee
    set t := ts[k] with htt
    have hev : e ∈ vis := List.getElem_mem _
    have heb := hvb e hev
    obtain ⟨g1, g2, Q, hQ, q1, q2⟩ := hends e heb
    have hprop : t.Proper := (makeCcw_has hc).2 (Tri.proper_sorted (hB.ne e heb) (Ne.symm g2) (Ne.symm g1))
    have rng : ∀ w, t.Has w → 0 ≤ w ∧ w < M.points.length := by
      intro w hw
      rcases (hh w).1 hw with rfl | rfl | rfl
      · exact hr Q hQ _ q1
      · exact hr Q hQ _ q2
      · exact hip
    obtain ⟨-, a, a', ha, ha', hle, habs⟩ := C60_ccw hE.isRounding hc
    obtain ⟨p, hp⟩ := pyGet_some (rng t.a (Or.inl rfl))
    obtain ⟨q, hq⟩ := pyGet_some (rng t.b (Or.inr (Or.inl rfl)))
    obtain ⟨r, hrr⟩ := pyGet_some (rng t.c (Or.inr (Or.inr rfl)))
    have harea : a' = M.area t := by
      have := (C60_exact hE hst hp hq hrr).1
      rw [ha', Except.ok.injEq] at this
      rw [this]
      simp only [Mesh.area, Mesh.pos, hp, hq, hrr, Option.getD_some]
    have hA : M'.area t = M.area t := by unfold Mesh.area; rw [hpos]
    have hbig : 1 / 10 ^ 8 < |M.area t| := by
      rw [abs_area_of_has hprop hh]
      have := hneg e hev
      rw [abs_of_neg (by linarith)]
      linarith
    rw [hA, ← harea]
    rw [hE.eps'] at hle
    rw [← harea] at hbig
    rcases lt_abs.1 hbig with q | q <;> linarith
  · -- total area
    have hA : ∀ t, M'.area t = M.area t := by intro t; unfold Mesh.area; rw [hpos]
    have hfil : (M.bnd.filter fun e => decide (det3 (M.pos e.1) (M.pos e.2) (M.pos ip) < 0)).Perm vis := by
      rw [List.perm_ext_iff_of_nodup (hB.nodup.filter _) G.nodup]
      intro e
      rw [hvis, List.mem_filter, decide_eq_true_eq]
    rw [(hfil.map _).sum_eq]
    unfold Mesh.total
    rw [G.tris, List.map_append, List.sum_append]
    congr 1
    · simp only [hA]
    · have hprop : ∀ T ∈ ts, T.Proper := fun T hT => G.cons.proper T (by rw [G.tris]; simp [hT])
      have key : ∀ (vs : List (ℤ × ℤ)) (us : List Tri), List.Forall₂ (fun e t => ∀ w, t.Has w ↔ w = e.1 ∨ w = e.2 ∨ w = ip) vs us →
          (∀ T ∈ us, T.Proper) → (∀ e ∈ vs, det3 (M.pos e.1) (M.pos e.2) (M.pos ip) < -(1 / 10 ^ 8)) →
          (us.map fun T => |M'.area T|).sum = (vs.map fun e => -det3 (M.pos e.1) (M.pos e.2) (M.pos ip)).sum := by
        intro vs us hf
        induction hf with
        | nil => intro _ _; rfl
        | @cons e t vs us h0 _ ih =>
          intro hp hn
          rw [List.map_cons, List.map_cons, List.sum_cons, List.sum_cons,
            ih (fun T hT => hp T (List.mem_cons_of_mem _ hT)) (fun e he => hn e (List.mem_cons_of_mem _ he)), hA,
            abs_area_of_has (hp t List.mem_cons_self) h0, abs_of_neg]
          have := hn e List.mem_cons_self
          linarith
      exact key vis ts G.has hprop hneg

/-! ### the first triangle -/

theorem dropFlat_suffix (R : Rt K) (ps : List (Pt K)) : R.dropFlat ps <:+ ps := by
  fun_induction Rt.dropFlat R ps with
  | case1 p q r l h ih => exact ih.trans (List.suffix_cons p _)
  | case2 p q r l h => exact List.suffix_refl _
  | case3 l h => exact List.suffix_refl _

theorem dropFlat_head (R : Rt K) {ps : List (Pt K)} (h : 3 ≤ (R.dropFlat ps).length) :
    ∃ p q r l, R.dropFlat ps = p :: q :: r :: l ∧ R.eps ≤ |R.areaOf p q r| := by
  fun_induction Rt.dropFlat R ps with
  | case1 p q r l hf ih => exact ih h
  | case2 p q r l hf => exact ⟨p, q, r, l, rfl, not_lt.1 hf⟩
  | case3 l hl =>
    match l, h, hl with
    | a :: b :: c :: m, _, hl => exact absurd rfl (hl a b c m)

/-- C89 (any arithmetic): no triangle is made iff all triples of consecutive points have an area below EPS. -/
theorem C89_none (R : Rt K) (ps : List (Pt K)) :
    R.firstMesh ps = none ↔ ∀ p q r, [p, q, r] <:+: ps → |R.areaOf p q r| < R.eps := by
  have h1 : R.firstMesh ps = none ↔ (R.dropFlat ps).length < 3 := by
    unfold Rt.firstMesh
    split_ifs with h
    · simp [h]
    · simpa using h
  rw [h1]
  fun_induction Rt.dropFlat R ps with
  | case1 p q r l hf ih =>
    have hh : R.firstMesh (q :: r :: l) = none ↔ (R.dropFlat (q :: r :: l)).length < 3 := by
      unfold Rt.firstMesh
      split_ifs with h
      · simp [h]
      · simpa using h
    refine (ih hh).trans ?_
    constructor
    · intro h a b c hi
      rw [List.infix_cons_iff] at hi
      rcases hi with hi | hi
      · simp only [List.cons_prefix_cons, List.nil_prefix, and_true] at hi
        obtain ⟨rfl, rfl, rfl⟩ := hi
        exact hf
      · exact h a b c hi
    · intro h a b c hi
      exact h a b c (hi.trans (List.suffix_cons p _).isInfix)
  | case2 p q r l hf =>
    constructor
    · intro h; simp only [List.length_cons] at h; omega
    · intro h
      exact absurd (h p q r ⟨[], l, rfl⟩) hf
  | case3 l hl =>
    constructor
    · intro h a b c hi
      have := hi.length_le
      simp at this
      omega
    · intro _
      match l, hl with
      | [], _ => simp
      | [_], _ => simp
      | [_, _], _ => simp
      | a :: b :: c :: m, hl => exact absurd rfl (hl a b c m)

theorem first_table {t : Tri} (ht : t = ⟨0, 1, 2⟩ ∨ t = ⟨0, 2, 1⟩) (x : ℤ × ℤ) :
    ((((E2T.empty).set (makeKey t.a t.b) [0]).set (makeKey t.b t.c) [0]).set (makeKey t.c t.a) [0]) x =
      if x = (0, 1) ∨ x = (0, 2) ∨ x = (1, 2) then some [0] else none := by
  rcases ht with rfl | rfl <;> simp only [E2T.set, E2T.empty, makeKey] <;> norm_num <;>
    split_ifs <;> simp_all

/-- C89 (any correctly rounded arithmetic): the first triangle.  If `triangulate` makes one, its tables satisfy all that
`C89_add` assumes; its vertices are three consecutive points, all points before them are dropped, and its area is at
least EPS, counter-clockwise (or exactly -EPS, which neither test catches). -/
theorem C89_first (hR : R.IsRounding) {ps : List (Pt K)} {r : Except PyErr (Mesh K)} (h : R.firstMesh ps = some r) :
    ∃ M t, r = .ok M ∧ M.tris = [t] ∧ (t = ⟨0, 1, 2⟩ ∨ t = ⟨0, 2, 1⟩) ∧ M.points <:+ ps ∧
      M.bnd = [(t.a, t.b), (t.b, t.c), (t.c, t.a)] ∧ M.Consistent ∧ M.AtMostTwo ∧ M.InRange ∧ M.Bounded ∧
      ∃ a, R.getArea M.points t.a t.b t.c = .ok a ∧ (a = -R.eps ∨ R.eps ≤ a) := by
  unfold Rt.firstMesh at h
  split_ifs at h with h3
  obtain ⟨p, q, z, l, hd, hbig⟩ := dropFlat_head R h3
  have hsuf := dropFlat_suffix R ps
  rw [hd] at h hsuf
  have hga : R.getArea (p :: q :: z :: l) 0 1 2 = .ok (R.areaOf p q z) := rfl
  obtain ⟨t, ht⟩ : ∃ t, R.makeCcw (p :: q :: z :: l) ⟨0, 1, 2⟩ = .ok t := by
    unfold Rt.makeCcw; rw [hga]; exact ⟨_, rfl⟩
  obtain ⟨c1, a, a', ha, ha', hle, habs⟩ := C60_ccw hR ht
  rw [ht] at h
  simp only [Option.some.injEq] at h
  have ht2 : t = ⟨0, 1, 2⟩ ∨ t = ⟨0, 2, 1⟩ := c1
  refine ⟨_, t, h.symm, rfl, ht2, hsuf, rfl, ?_, ?_, ?_, ?_, a', ha', ?_⟩
  · have hhas : ∀ w, t.Has w ↔ w = 0 ∨ w = 1 ∨ w = 2 := by
      intro w; rcases ht2 with rfl | rfl <;> unfold Tri.Has <;> dsimp only <;> tauto
    have hmem : ∀ x : ℤ × ℤ, t.HasEdge x ↔ x = (0, 1) ∨ x = (0, 2) ∨ x = (1, 2) := by
      rintro ⟨x, y⟩
      unfold Tri.HasEdge
      rw [hhas, hhas]
      simp only [Prod.mk.injEq]
      omega
    refine ⟨⟨?_, ?_, ?_, ?_⟩, ?_⟩
    · intro T hT
      rw [List.mem_singleton] at hT
      subst hT
      rcases ht2 with rfl | rfl <;> simp [Tri.Proper]
    · intro x l' hx
      dsimp only at hx
      rw [first_table ht2 x] at hx
      split_ifs at hx with hk
      exact ((hmem x).2 hk).1
    · intro x l' hx
      dsimp only at hx
      rw [first_table ht2 x] at hx
      split_ifs at hx with hk
      rw [← Option.some.inj hx]; simp
    · intro x l' hx n hn
      dsimp only at hx
      rw [first_table ht2 x] at hx
      split_ifs at hx with hk
      rw [← Option.some.inj hx, List.mem_singleton] at hn
      subst hn
      exact ⟨t, rfl, (hmem x).2 hk⟩
    · rintro n x ⟨T, hT, hx⟩
      have hn : n = 0 := by
        have := (List.getElem?_eq_some_iff.1 hT).1
        simpa using this
      subst hn
      obtain rfl : t = T := by simpa using hT
      refine ⟨[0], ?_, by simp⟩
      dsimp only
      rw [first_table ht2 x, if_pos ((hmem x).1 hx)]
  · intro x l' hx
    dsimp only at hx
    rw [first_table ht2 x] at hx
    split_ifs at hx with hk
    rw [← Option.some.inj hx]; simp
  · intro T hT v hv
    rw [List.mem_singleton] at hT
    subst hT
    have : v = 0 ∨ v = 1 ∨ v = 2 := by
      rcases ht2 with rfl | rfl <;> unfold Tri.Has at hv <;> dsimp only at hv <;> tauto
    simp only [List.length_cons]
    push_cast
    omega
  · have hs : ∀ e : ℤ × ℤ, t.Has e.1 → t.Has e.2 → Mesh.Single (⟨p :: q :: z :: l, [t],
        (((E2T.empty).set (makeKey t.a t.b) [0]).set (makeKey t.b t.c) [0]).set (makeKey t.c t.a) [0],
        [(t.a, t.b), (t.b, t.c), (t.c, t.a)]⟩ : Mesh K) e := by
      intro e h1 h2
      refine ⟨0, t, rfl, h1, h2, ?_⟩
      intro m S hS _ _
      have := (List.getElem?_eq_some_iff.1 hS).1
      simpa using this
    refine ⟨?_, ?_, ?_, ?_, ?_, ?_⟩
    · dsimp only; rcases ht2 with rfl | rfl <;> decide
    · dsimp only; rcases ht2 with rfl | rfl <;> decide
    · intro e he
      simp only [List.mem_cons, List.not_mem_nil, or_false] at he
      apply hs <;> unfold Tri.Has <;> rcases he with rfl | rfl | rfl <;> simp
    · dsimp only; rcases ht2 with rfl | rfl <;> decide
    · dsimp only; rcases ht2 with rfl | rfl <;> decide
    · dsimp only; rcases ht2 with rfl | rfl <;> decide
  · rw [show R.getArea (p :: q :: z :: l) (⟨0, 1, 2⟩ : Tri).a (⟨0, 1, 2⟩ : Tri).b (⟨0, 1, 2⟩ : Tri).c = .ok (R.areaOf p q z)
      from hga, Except.ok.injEq] at ha
    rw [ha, ← habs] at hbig
    have := hR.eps_pos
    rcases le_abs.1 hbig with g | g
    · exact Or.inr g
    · exact Or.inl (by linarith)

/-- C89, exact arithmetic: the first triangle, unless its area is exactly -EPS, satisfies what `C89_planar` assumes. -/
theorem C89_first_planar (hE : R.IsExact) {ps : List (Pt K)} (hst : ∀ p ∈ ps, R.Stored p) {M : Mesh K}
    (h : R.firstMesh ps = some (.ok M)) (hne : ∀ T ∈ M.tris, M.area T ≠ -(1 / 10 ^ 8)) :
    M.Planar ∧ M.LeftOfBoundary ∧ (∀ p ∈ M.points, R.Stored p) ∧ ∀ T ∈ M.tris, 0 < M.area T := by
  obtain ⟨M', t, hM', htr, ht, hsuf, hbnd, hc, h2, hr, hB, a, ha, hpos⟩ := C89_first hE.isRounding h
  obtain rfl : M = M' := Except.ok.inj hM'
  have hst' : ∀ p ∈ M.points, R.Stored p := fun p hp => hst p (hsuf.subset hp)
  have hone : ∀ n T, M.tris[n]? = some T → n = 0 ∧ T = t := by
    intro n T hT
    rw [htr] at hT
    have := (List.getElem?_eq_some_iff.1 hT).1
    have h0 : n = 0 := by simpa using this
    subst h0
    simp at hT
    exact ⟨rfl, hT.symm⟩
  have harea : a = M.area t := by
    have hm : t ∈ M.tris := by rw [htr]; simp
    obtain ⟨p, hp⟩ := pyGet_some (hr t hm t.a (Or.inl rfl))
    obtain ⟨q, hq⟩ := pyGet_some (hr t hm t.b (Or.inr (Or.inl rfl)))
    obtain ⟨r, hrr⟩ := pyGet_some (hr t hm t.c (Or.inr (Or.inr rfl)))
    have := (C60_exact hE hst' hp hq hrr).1
    rw [ha, Except.ok.injEq] at this
    rw [this]
    simp only [Mesh.area, Mesh.pos, hp, hq, hrr, Option.getD_some]
  have hpos' : 0 < M.area t := by
    rw [hE.eps'] at hpos
    have := hne t (by rw [htr]; simp)
    have he : (0 : K) < 1 / 10 ^ 8 := by positivity
    rcases hpos with g | g
    · exact absurd (harea ▸ g) this
    · rw [← harea]; linarith
  refine ⟨?_, ?_, hst', ?_⟩
  · intro x n m T S u v hx
    obtain ⟨Q, hQ, -⟩ := hc.sound _ _ hx n (by simp)
    obtain ⟨Q', hQ', -⟩ := hc.sound _ _ hx m (by simp)
    have := hc.nodup _ _ hx
    rw [(hone n Q hQ).1, (hone m Q' hQ').1] at this
    simp at this
  · intro e he T hT u t1 t2 hu u1 u2
    rw [htr, List.mem_singleton] at hT
    subst hT
    unfold Mesh.area at hpos'
    rw [hbnd] at he
    simp only [List.mem_cons, List.not_mem_nil, or_false] at he
    unfold Tri.Has at hu
    rcases he with rfl | rfl | rfl <;> dsimp only at u1 u2 ⊢
    · have : u = T.c := by tauto
      rw [this]; exact hpos'
    · have : u = T.a := by tauto
      rw [this, show det3 (M.pos T.b) (M.pos T.c) (M.pos T.a) = det3 (M.pos T.a) (M.pos T.b) (M.pos T.c) by
        unfold det3; ring]
      exact hpos'
    · have : u = T.b := by tauto
      rw [this, show det3 (M.pos T.c) (M.pos T.a) (M.pos T.b) = det3 (M.pos T.a) (M.pos T.b) (M.pos T.c) by
        unfold det3; ring]
      exact hpos'
  · intro T hT
    rw [htr, List.mem_singleton] at hT
    subst hT
    exact hpos'

/-! ### non-vacuity -/

/-- three points on a line in front (the first is dropped), then (1, 2) and (3, 1) -/
def exGrow : List (Pt ℚ) := [⟨0, 0⟩, ⟨1, 0⟩, ⟨2, 0⟩, ⟨1, 2⟩, ⟨3, 1⟩]

/-- triangles and boundary of the first mesh, and after adding point 3 -/
def exSee (x : Option (Except PyErr (Mesh ℚ))) : List (List Tri × List (ℤ × ℤ)) :=
  match x with
  | some (.ok M) => [(M.tris, M.bnd)] ++ (match exRt.addPoint M 3 with | .ok M' => [(M'.tris, M'.bnd)] | .error _ => [])
  | _ => []

theorem exSee_eq : exSee (exRt.firstMesh exGrow) = [([⟨0, 1, 2⟩], [(0, 1), (1, 2), (2, 0)]),
    ([⟨0, 1, 2⟩, ⟨1, 3, 2⟩], [(0, 1), (2, 0), (1, 3), (3, 2)])] := by decide +kernel

/-- binary64: the hypotheses of `C89_add` and `C89_boundary` hold for adding the fourth point; one edge is seen -/
example : ∃ M M', exRt.firstMesh exGrow = some (.ok M) ∧ M.Consistent ∧ M.AtMostTwo ∧ M.InRange ∧ M.Bounded ∧
    (∀ T ∈ M.tris, ¬ T.Has 3) ∧ exRt.addPoint M 3 = .ok M' ∧ M'.tris = [⟨0, 1, 2⟩, ⟨1, 3, 2⟩] ∧
    M'.bnd = [(0, 1), (2, 0), (1, 3), (3, 2)] := by
  have key := exSee_eq
  unfold exSee at key
  split at key
  · rename_i M hM
    obtain ⟨M', t, hM', htr, ht, hsuf, hbnd, hc, h2, hrr, hB, -⟩ := C89_first exRt_isRounding hM
    obtain rfl : M = M' := Except.ok.inj hM'
    split at key
    · rename_i M' hM'
      simp only [List.cons_append, List.nil_append, List.cons.injEq, Prod.mk.injEq, and_true] at key
      refine ⟨M, M', hM, hc, h2, hrr, hB, ?_, hM', key.2.1, key.2.2⟩
      rw [key.1.1]
      intro T hT
      rw [List.mem_singleton] at hT
      subst hT
      simp [Tri.Has]
    · simp at key
  · simp at key

/-- the same square in exact real arithmetic: the hypotheses of `C89_planar` hold -/
example : ∃ M, exReal.firstMesh [⟨0, 0⟩, ⟨1, 0⟩, ⟨0, 1⟩, ⟨1, 1⟩] = some (.ok M) ∧ M.Planar ∧ M.LeftOfBoundary ∧
    M.Bounded ∧ M.bnd = [(0, 1), (1, 2), (2, 0)] ∧ ∀ e ∈ M.bnd, det3 (M.pos e.1) (M.pos e.2) (M.pos 3) < 1 / 10 ^ 8 →
      det3 (M.pos e.1) (M.pos e.2) (M.pos 3) < -(1 / 10 ^ 8) := by
  have hE := exReal_isExact
  have hst : ∀ p ∈ ([⟨0, 0⟩, ⟨1, 0⟩, ⟨0, 1⟩, ⟨1, 1⟩] : List (Pt ℝ)), exReal.Stored p := by
    intro p hp
    rw [hE.stored_iff]
    simp only [List.mem_cons, List.not_mem_nil, or_false] at hp
    have g0 : Grid (0 : ℝ) := ⟨0, by norm_num⟩
    have g1 : Grid (1 : ℝ) := ⟨10 ^ 8, by norm_num⟩
    rcases hp with rfl | rfl | rfl | rfl <;> exact ⟨by assumption, by assumption⟩
  have harea : exReal.areaOf (⟨0, 0⟩ : Pt ℝ) ⟨1, 0⟩ ⟨0, 1⟩ = 1 := by
    rw [areaOf_exact hE (hst _ (by simp)) (hst _ (by simp)) (hst _ (by simp))]
    unfold det3; norm_num
  have heps : exReal.eps = 1 / 10 ^ 8 := hE.eps'
  have hd : exReal.dropFlat ([⟨0, 0⟩, ⟨1, 0⟩, ⟨0, 1⟩, ⟨1, 1⟩] : List (Pt ℝ)) = [⟨0, 0⟩, ⟨1, 0⟩, ⟨0, 1⟩, ⟨1, 1⟩] := by
    unfold Rt.dropFlat
    rw [harea, heps, if_neg (by norm_num)]
  have hccw : exReal.makeCcw ([⟨0, 0⟩, ⟨1, 0⟩, ⟨0, 1⟩, ⟨1, 1⟩] : List (Pt ℝ)) ⟨0, 1, 2⟩ = .ok ⟨0, 1, 2⟩ := by
    unfold Rt.makeCcw
    rw [show exReal.getArea ([⟨0, 0⟩, ⟨1, 0⟩, ⟨0, 1⟩, ⟨1, 1⟩] : List (Pt ℝ)) 0 1 2 = .ok (exReal.areaOf ⟨0, 0⟩ ⟨1, 0⟩ ⟨0, 1⟩) from rfl,
      harea, heps]
    dsimp only
    rw [if_neg (by norm_num)]
  have hf : ∃ M, exReal.firstMesh ([⟨0, 0⟩, ⟨1, 0⟩, ⟨0, 1⟩, ⟨1, 1⟩] : List (Pt ℝ)) = some (.ok M) ∧ M.tris = [⟨0, 1, 2⟩] ∧
      M.points = [⟨0, 0⟩, ⟨1, 0⟩, ⟨0, 1⟩, ⟨1, 1⟩] ∧ M.bnd = [(0, 1), (1, 2), (2, 0)] := by
    unfold Rt.firstMesh
    rw [hd, if_pos (by simp), hccw]
    exact ⟨_, rfl, rfl, rfl, rfl⟩
  obtain ⟨M, hM, htr, hps, hbnd⟩ := hf
  have p0 : M.pos 0 = ⟨0, 0⟩ := by unfold Mesh.pos; rw [hps]; rfl
  have p1 : M.pos 1 = ⟨1, 0⟩ := by unfold Mesh.pos; rw [hps]; rfl
  have p2 : M.pos 2 = ⟨0, 1⟩ := by unfold Mesh.pos; rw [hps]; rfl
  have p3 : M.pos 3 = ⟨1, 1⟩ := by unfold Mesh.pos; rw [hps]; rfl
  obtain ⟨a1, a2, -, -⟩ := C89_first_planar hE hst hM (by
    intro T hT
    rw [htr, List.mem_singleton] at hT
    subst hT
    unfold Mesh.area
    dsimp only
    rw [p0, p1, p2]
    unfold det3; norm_num)
  obtain ⟨M', t, hM', -, -, -, -, -, -, -, hB, -⟩ := C89_first hE.isRounding hM
  obtain rfl : M = M' := Except.ok.inj hM'
  refine ⟨M, hM, a1, a2, hB, hbnd, ?_⟩
  rw [hbnd]
  intro e he
  simp only [List.mem_cons, List.not_mem_nil, or_false] at he
  rcases he with rfl | rfl | rfl <;> dsimp only <;> simp only [p0, p1, p2, p3] <;> unfold det3 <;> norm_num

end Srep
