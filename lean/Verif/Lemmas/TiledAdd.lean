import Verif.Lemmas.Tiled

/-! Adding a point keeps the triangulation. -/

set_option linter.unusedSectionVars false

namespace Srep
open Cyc
variable {K : Type} [Field K] [LinearOrder K] [IsStrictOrderedRing K] [FloorRing K] {R : Rt K}
variable {M : Mesh K} {A : ℤ → Prop}

theorem Mesh.Tiled.left (h : M.Tiled R A) : M.LeftOfBoundary := by
  intro e he T hT u _ _ hu u1 u2
  exact h.hull.conv e he u (h.verts T hT u hu) u1 u2

theorem length_one_of {α : Type} {l : List α} (hn : l.Nodup) {f : α} (hf : f ∈ l) (h : ∀ x ∈ l, x = f) :
    l.length = 1 := by
  have h1 := length_le_one hn (fun a ha b hb => (h a ha).trans (h b hb).symm)
  have h2 := List.length_pos_of_mem hf
  omega

theorem sum_one_of {α : Type} {l : List α} (hn : l.Nodup) {g : α → K} {k : α} (hk : k ∈ l) (h1 : g k = 1)
    (h0 : ∀ x ∈ l, x ≠ k → g x = 0) : (l.map g).sum = 1 := by
  induction l with
  | nil => simp at hk
  | cons a l ih =>
    rw [List.nodup_cons] at hn
    simp only [List.map_cons, List.sum_cons]
    by_cases ha : a = k
    · subst ha
      have : l.map g = l.map fun _ => (0 : K) := List.map_congr_left fun x hx =>
        h0 x (List.mem_cons_of_mem _ hx) (fun hh => hn.1 (hh ▸ hx))
      rw [h1, this]; simp
    · rcases List.mem_cons.1 hk with hk | hk
      · exact absurd hk.symm ha
      · rw [h0 a List.mem_cons_self ha, ih hn.2 hk fun x hx => h0 x (List.mem_cons_of_mem _ hx), zero_add]

theorem forall₂_sum {α β : Type} {l : List α} {l' : List β} {f : α → K} {g : β → K}
    (h : List.Forall₂ (fun a b => f a = g b) l l') : (l.map f).sum = (l'.map g).sum := by
  induction h with
  | nil => rfl
  | cons h _ ih => simp only [List.map_cons, List.sum_cons, h, ih]

theorem Hulled.congr {P : ℤ → Pt K} {E E' : List (ℤ × ℤ)} (H : Hulled P E A) (h : ∀ e, e ∈ E' ↔ e ∈ E) :
    Hulled P E' A := by
  refine ⟨?_, ?_, ?_, ?_, ?_, ?_, ?_, ?_, H.three⟩
  · intro e he; exact H.ne e ((h e).1 he)
  · intro e he f hf; exact H.starts e ((h e).1 he) f ((h f).1 hf)
  · intro e he f hf; exact H.ends e ((h e).1 he) f ((h f).1 hf)
  · intro e he; exact H.mem e ((h e).1 he)
  · intro e he; exact H.conv e ((h e).1 he)
  · intro e he
    obtain ⟨f, hf, hh⟩ := H.next e ((h e).1 he)
    exact ⟨f, (h f).2 hf, hh⟩
  · intro e he
    obtain ⟨f, hf, hh⟩ := H.prev e ((h e).1 he)
    exact ⟨f, (h f).2 hf, hh⟩
  · intro hE
    obtain ⟨e, he⟩ := List.exists_mem_of_ne_nil E H.some
    have := (h e).2 he
    rw [hE] at this; simp at this

/-- One point is added: seen or unseen. -/
theorem Mesh.Tiled.add (hE : R.IsExact) (h : M.Tiled R A) {ip : ℤ} (hip : 0 ≤ ip ∧ ip < M.points.length)
    (hA : ¬ A ip) :
    ∃ M', R.addPoint M ip = .ok M' ∧ M'.Tiled R (fun v => A v ∨ v = ip) ∧ M'.points = M.points ∧
      (∀ v, (∃ T ∈ M.tris, T.Has v) → ∃ T ∈ M'.tris, T.Has v) ∧
      (∀ v, (∃ T ∈ M'.tris, T.Has v) → (∃ T ∈ M.tris, T.Has v) ∨ v = ip) ∧
      ((¬ ∃ e ∈ M.bnd, det3 (M.pos e.1) (M.pos e.2) (M.pos ip) < 0) →
        M'.tris = M.tris ∧ ∀ e, e ∈ M'.bnd ↔ e ∈ M.bnd) ∧
      ((∃ e ∈ M.bnd, det3 (M.pos e.1) (M.pos e.2) (M.pos ip) < 0) →
        (∃ T ∈ M'.tris, T.Has ip) ∧ M'.tris.length + M'.bnd.length = M.tris.length + M.bnd.length + 2) := by
  have hnew : ∀ T ∈ M.tris, ¬ T.Has ip := fun T hT hh => hA (h.verts T hT ip hh)
  obtain ⟨M', vis, ts, hadd, G⟩ := addPoint_grown (R := R) h.cons h.inRange h.bounded hip hnew
  have hB := h.bounded
  have hends := bnd_ends hB hnew
  have hb := G.mem_bnd hB hnew
  have hpos : M'.pos = M.pos := by unfold Mesh.pos; rw [G.points]
  have heps : (0 : K) < 1 / 10 ^ 8 := by positivity
  have rng : ∀ e ∈ M.bnd, (0 ≤ e.1 ∧ e.1 < M.points.length) ∧ 0 ≤ e.2 ∧ e.2 < M.points.length := fun e he =>
    ⟨h.inA _ (h.hull.mem e he).1, h.inA _ (h.hull.mem e he).2⟩
  have big : ∀ e ∈ M.bnd, 1 / 10 ^ 8 < |det3 (M.pos e.1) (M.pos e.2) (M.pos ip)| := fun e he =>
    h.general.det (rng e he).1 (rng e he).2 hip (hB.ne e he) (hends e he).2.1.symm (hends e he).1.symm
  have hfar : ∀ e ∈ M.bnd, det3 (M.pos e.1) (M.pos e.2) (M.pos ip) < 1 / 10 ^ 8 →
      det3 (M.pos e.1) (M.pos e.2) (M.pos ip) < -(1 / 10 ^ 8) := by
    intro e he hlt
    rcases lt_abs.1 (big e he) with hh | hh <;> linarith
  have h0 : ∀ e ∈ M.bnd, det3 (M.pos e.1) (M.pos e.2) (M.pos ip) ≠ 0 := by
    intro e he hz
    have := big e he
    rw [hz, abs_zero] at this
    linarith
  have hvis : ∀ e, e ∈ vis ↔ e ∈ M.bnd ∧ det3 (M.pos e.1) (M.pos e.2) (M.pos ip) < 0 := by
    intro e
    rw [G.visible]
    refine and_congr_right fun he => ?_
    rw [C89_visible hE h.stored hip (rng e he).1 (rng e he).2, Except.ok.injEq, decide_eq_true_eq]
    constructor
    · intro g; have := hfar e he g; linarith
    · intro g; linarith
  have hvb : ∀ f ∈ vis, f ∈ M.bnd := fun f hf => ((hvis f).1 hf).1
  obtain ⟨hplanar, -, -, -⟩ := C89_planar hE h.cons h.two h.inRange hB hip hnew h.stored h.planar h.left hfar hadd
  have htwo := G.atMostTwo h.cons hB hnew h.two
  have hfull : ∀ x l, M'.e2t x = some l → l ≠ [] := by
    intro x l hx hl
    subst hl
    have hlen := G.len x
    rw [hx, Option.getD_some, List.length_nil] at hlen
    rcases (G.dom x).1 (by rw [hx]; rfl) with hd | ⟨e, he, hk⟩
    · obtain ⟨l0, hl0⟩ := Option.isSome_iff_exists.1 hd
      rw [hl0, Option.getD_some] at hlen
      have := List.length_pos_iff.2 (h.full _ _ hl0)
      omega
    · have : e ∈ vis.filter fun e => decide (x ∈ newKeys ip e) := by
        rw [List.mem_filter]; exact ⟨he, by simpa using hk⟩
      have := List.length_pos_of_mem this
      omega
  have htri : ∀ T ∈ M'.tris, T ∈ M.tris ∨ ∃ e ∈ vis, ∀ w, T.Has w ↔ w = e.1 ∨ w = e.2 ∨ w = ip := by
    intro T hT
    rw [G.tris, List.mem_append] at hT
    rcases hT with hT | hT
    · exact Or.inl hT
    · obtain ⟨n, hn, rfl⟩ := List.mem_iff_getElem.1 hT
      exact Or.inr ⟨vis[n]'(by rw [G.has.length_eq]; exact hn), List.getElem_mem _, G.has.get _ hn⟩
  have hverts : ∀ T ∈ M'.tris, ∀ v, T.Has v → A v ∨ v = ip := by
    intro T hT v hv
    rcases htri T hT with hT | ⟨e, he, hh⟩
    · exact Or.inl (h.verts T hT v hv)
    · have hm := h.hull.mem e (hvb e he)
      rcases (hh v).1 hv with rfl | rfl | rfl
      · exact Or.inl hm.1
      · exact Or.inl hm.2
      · exact Or.inr rfl
  have hin : ∀ v, A v ∨ v = ip → 0 ≤ v ∧ v < M'.points.length := by
    rw [G.points]
    rintro v (hv | rfl)
    · exact h.inA v hv
    · exact hip
  have haway : ∀ X, M'.Away X → M.Away X := by
    intro X hX
    unfold Mesh.Away at hX ⊢
    rw [G.points, hpos] at hX
    exact hX
  have hold : ∀ v, (∃ T ∈ M.tris, T.Has v) → ∃ T ∈ M'.tris, T.Has v := by
    rintro v ⟨T, hT, hv⟩
    exact ⟨T, by rw [G.tris]; exact List.mem_append_left _ hT, hv⟩
  have hused : ∀ v, (∃ T ∈ M'.tris, T.Has v) → (∃ T ∈ M.tris, T.Has v) ∨ v = ip := by
    rintro v ⟨T, hT, hv⟩
    rcases htri T hT with hT | ⟨e, he, hh⟩
    · exact Or.inl ⟨T, hT, hv⟩
    · obtain ⟨-, -, S, hS, s1, s2⟩ := hends e (hvb e he)
      rcases (hh v).1 hv with rfl | rfl | rfl
      · exact Or.inl ⟨S, hS, s1⟩
      · exact Or.inl ⟨S, hS, s2⟩
      · exact Or.inr rfl
  -- the new triangles and the points inside
  have hin2 : ∀ X, (ts.map (ind M.pos X)).sum = (vis.map fun e => ind M.pos X ⟨e.1, e.2, ip⟩).sum := by
    intro X
    symm
    refine forall₂_sum ?_
    have hpr : ∀ t ∈ ts, t.Proper := fun t ht =>
      G.cons.proper t (by rw [G.tris]; exact List.mem_append_right _ ht)
    have aux : ∀ {l : List (ℤ × ℤ)} {l' : List Tri},
        List.Forall₂ (fun e t => ∀ w, Tri.Has t w ↔ w = e.1 ∨ w = e.2 ∨ w = ip) l l' → (∀ t ∈ l', t.Proper) →
        List.Forall₂ (fun e t => ind M.pos X ⟨e.1, e.2, ip⟩ = ind M.pos X t) l l' := by
      intro l l' hl
      induction hl with
      | nil => intro _; exact List.Forall₂.nil
      | cons hh _ ih =>
        intro hp
        refine List.Forall₂.cons ?_ (ih fun t ht => hp t (List.mem_cons_of_mem _ ht))
        have := inTri_perm M.pos (hp _ List.mem_cons_self) hh X
        unfold ind
        split_ifs with h1 h2 h2
        · rfl
        · exact absurd (this.2 h1) h2
        · exact absurd (this.1 h2) h1
        · rfl
    exact aux G.has hpr
  have hnewIn : ∀ e ∈ vis, ∀ X, InTri (M.pos e.1) (M.pos e.2) (M.pos ip) X ↔ InNew M.pos (M.pos ip) e X := by
    intro e he X
    rw [inTri_neg ((hvis e).1 he).2]
    rfl
  have hsum : ∀ X, (M'.tris.map (ind M'.pos X)).sum = (M.tris.map (ind M.pos X)).sum
      + (vis.map fun e => ind M.pos X ⟨e.1, e.2, ip⟩).sum := by
    intro X
    rw [hpos, G.tris, List.map_append, List.sum_append, hin2]
  have hzero : ∀ X, (∀ e ∈ vis, ¬ InNew M.pos (M.pos ip) e X) →
      (vis.map fun e => ind M.pos X ⟨e.1, e.2, ip⟩).sum = 0 := by
    intro X hX
    have : (vis.map fun e => ind M.pos X ⟨e.1, e.2, ip⟩) = vis.map fun _ => (0 : K) :=
      List.map_congr_left fun e he => ind_zero (T := ⟨e.1, e.2, ip⟩) (fun hh => hX e he ((hnewIn e he X).1 hh))
    rw [this]; simp
  by_cases hex : ∃ e ∈ M.bnd, det3 (M.pos e.1) (M.pos e.2) (M.pos ip) < 0
  · obtain ⟨f, g, a, b, S⟩ := h.hull.seen h0 hex
    have hfv : f ∈ vis := (hvis f).2 ⟨S.hf, S.fQ⟩
    have hgv : g ∈ vis := (hvis g).2 ⟨S.hg, S.gQ⟩
    have fin : f.1 ≠ ip := (hends f S.hf).1.symm
    have gin : g.2 ≠ ip := (hends g S.hg).2.1.symm
    have sf : M'.Single (f.1, ip) := by
      rw [single_iff G.cons fin, G.len, entry_new h.cons hnew fin, List.length_nil, zero_add]
      refine length_one_of (G.nodup.filter _) (f := f) ?_ ?_
      · rw [List.mem_filter, decide_eq_true_eq,
          mem_newKeys_ip (hB.ne f S.hf) (hends f S.hf).1 (hends f S.hf).2.1 fin]
        exact ⟨hfv, Or.inl rfl⟩
      · intro k hk
        rw [List.mem_filter, decide_eq_true_eq] at hk
        have hkb := hvb k hk.1
        rcases (mem_newKeys_ip (hB.ne k hkb) (hends k hkb).1 (hends k hkb).2.1 fin).1 hk.2 with hh | hh
        · exact (hB.starts f S.hf k hkb hh).symm
        · exfalso
          have := hB.ends a S.ha k hkb (S.af.trans hh)
          have h1 := ((hvis k).1 hk.1).2
          rw [← this] at h1
          have := S.aQ
          linarith
    have sg : M'.Single (ip, g.2) := by
      apply Mesh.Single.symm
      rw [single_iff G.cons gin, G.len, entry_new h.cons hnew gin, List.length_nil, zero_add]
      refine length_one_of (G.nodup.filter _) (f := g) ?_ ?_
      · rw [List.mem_filter, decide_eq_true_eq,
          mem_newKeys_ip (hB.ne g S.hg) (hends g S.hg).1 (hends g S.hg).2.1 gin]
        exact ⟨hgv, Or.inr rfl⟩
      · intro k hk
        rw [List.mem_filter, decide_eq_true_eq] at hk
        have hkb := hvb k hk.1
        rcases (mem_newKeys_ip (hB.ne k hkb) (hends k hkb).1 (hends k hkb).2.1 gin).1 hk.2 with hh | hh
        · exfalso
          have := hB.starts b S.hb k hkb (S.gb.trans hh)
          have h1 := ((hvis k).1 hk.1).2
          rw [← this] at h1
          have := S.bQ
          linarith
        · exact (hB.ends g S.hg k hkb hh).symm
    have N : NewEdges M.pos M.bnd M'.bnd (M.pos ip) ip f g := by
      refine ⟨fun e => ?_⟩
      rw [hb]
      constructor
      · rintro (⟨h1, h2⟩ | ⟨h1, k, hk, rfl | rfl⟩)
        · left
          refine ⟨h1, lt_of_le_of_ne ?_ (h0 e h1).symm⟩
          by_contra hc
          exact h2 ((hvis e).2 ⟨h1, not_le.1 hc⟩)
        · right; left
          have : k = f := by
            by_contra hne
            obtain ⟨j, hj, jq, hjk⟩ := S.first k (hvb k hk) ((hvis k).1 hk).2 hne
            have := G.same hk ((hvis j).2 ⟨hj, jq⟩) h1 (Or.inl rfl) (Or.inr hjk.symm)
            rw [← this] at hjk
            exact hB.ne k (hvb k hk) hjk.symm
          rw [this]
        · right; right
          have : k = g := by
            by_contra hne
            obtain ⟨j, hj, jq, hjk⟩ := S.last k (hvb k hk) ((hvis k).1 hk).2 hne
            have := G.same hk ((hvis j).2 ⟨hj, jq⟩) h1.symm (Or.inr rfl) (Or.inl hjk.symm)
            rw [← this] at hjk
            exact hB.ne k (hvb k hk) hjk
          rw [this]
      · rintro (⟨h1, h2⟩ | rfl | rfl)
        · left
          refine ⟨h1, fun hv => ?_⟩
          have := ((hvis e).1 hv).2
          linarith
        · exact Or.inr ⟨sf, f, hfv, Or.inl rfl⟩
        · exact Or.inr ⟨sg, g, hgv, Or.inr rfl⟩
    have H' := h.hull.add S N hA h0
    have hB' : M'.Bounded := by
      refine C89_boundary (R := R) h.cons h.inRange hB hip hnew hadd (fun e => e ∈ vis) (fun e => G.visible e) ?_ ?_
      · have key : ∀ k ∈ vis, (∀ j ∈ vis, j.2 ≠ k.1) → k = f := by
          intro k hk hj
          by_contra hne
          obtain ⟨j, hj', jq, hjk⟩ := S.first k (hvb k hk) ((hvis k).1 hk).2 hne
          exact hj j ((hvis j).2 ⟨hj', jq⟩) hjk
        intro k j hk hj h1 h2
        exact (key k hk h1).trans (key j hj h2).symm
      · have key : ∀ k ∈ vis, (∀ j ∈ vis, j.1 ≠ k.2) → k = g := by
          intro k hk hj
          by_contra hne
          obtain ⟨j, hj', jq, hjk⟩ := S.last k (hvb k hk) ((hvis k).1 hk).2 hne
          exact hj j ((hvis j).2 ⟨hj', jq⟩) hjk
        intro k j hk hj h1 h2
        exact (key k hk h1).trans (key j hj h2).symm
    refine ⟨M', hadd, ⟨G.cons, htwo, hfull, hplanar, by rw [G.points]; exact h.stored, by rw [G.points]; exact h.general,
      by rw [hpos]; exact H', hB'.nodup, hB'.single, hin, hverts, ?_, ?_⟩, G.points, hold, hused, fun hc => absurd hex hc, ?_⟩
    · intro X hX hi
      rw [hpos] at hi
      have hX' := haway X hX
      rw [hsum]
      by_cases ho : Inner M.pos M.bnd X
      · rw [h.cover X hX' ho, hzero X, add_zero]
        intro e he hh
        have := ho e (hvb e he)
        have := hh.1
        linarith
      · rw [h.outer X hX' ho, zero_add]
        obtain ⟨k, hk, kq, hkX⟩ := h.hull.inNew_of_inner S N h0
          (fun e he => hX' _ _ (rng e he).1.1 (rng e he).1.2 (rng e he).2.1 (rng e he).2.2 (hB.ne e he))
          (fun e he => hX' _ _ hip.1 hip.2 (rng e he).2.1 (rng e he).2.2 (hends e he).2.1) hi ho
        have hkv : k ∈ vis := (hvis k).2 ⟨hk, kq⟩
        refine sum_one_of G.nodup (k := k) hkv (ind_one (T := ⟨k.1, k.2, ip⟩) ((hnewIn k hkv X).2 hkX)) ?_
        intro e he hne
        refine ind_zero (T := ⟨e.1, e.2, ip⟩) fun hh => hne ?_
        exact h.hull.inNew_unique hk (hvb e he) kq ((hvis e).1 he).2 hkX ((hnewIn e he X).1 hh)
    · intro X hX hi
      rw [hpos] at hi
      have hX' := haway X hX
      rw [hsum, h.outer X hX' (fun ho => hi (h.hull.inner_mono S N ho)), zero_add]
      apply hzero
      intro e he hh
      exact hi (h.hull.inner_of_inNew S N hA h0 (hvb e he) ((hvis e).1 he).2 hh)
    · intro _
      refine ⟨?_, ?_⟩
      · obtain ⟨k, hk⟩ := List.mem_iff_getElem?.1 hfv
        obtain ⟨t, ht, hh⟩ := G.tri hk
        exact ⟨t, List.mem_of_getElem? ht, (hh ip).2 (by tauto)⟩
      · have l1 : M'.tris.length = M.tris.length + vis.length := by
          rw [G.tris, List.length_append, G.has.length_eq]
        have l2 : M'.bnd.Perm ((M.bnd.filter fun e => !decide (e ∈ vis)) ++ [(f.1, ip), (ip, g.2)]) := by
          rw [List.perm_ext_iff_of_nodup hB'.nodup]
          · intro e
            rw [List.mem_append, List.mem_filter, hb]
            simp only [List.mem_cons, List.not_mem_nil, or_false, Bool.not_eq_true', decide_eq_false_iff_not]
            have := N.mem e
            rw [hb] at this
            constructor
            · intro hh
              rcases this.1 hh with ⟨h1, h2⟩ | h1
              · left; refine ⟨h1, fun hv => ?_⟩
                have := ((hvis e).1 hv).2
                linarith
              · exact Or.inr h1
            · rintro (hh | hh)
              · exact Or.inl hh
              · exact this.2 (Or.inr hh)
          · rw [List.nodup_append]
            refine ⟨h.nodup.filter _, by simpa using fun hh => absurd hh fin, ?_⟩
            intro e he k hk hek
            subst hek
            have := hends e (List.mem_filter.1 he).1
            simp only [List.mem_cons, List.not_mem_nil, or_false] at hk
            rcases hk with rfl | rfl
            · exact this.2.1 rfl
            · exact this.1 rfl
        have l3 : vis.length = (M.bnd.filter fun e => decide (e ∈ vis)).length := by
          refine (List.Perm.length_eq ?_)
          rw [List.perm_ext_iff_of_nodup G.nodup (h.nodup.filter _)]
          intro e
          rw [List.mem_filter, decide_eq_true_eq]
          exact ⟨fun hh => ⟨hvb e hh, hh⟩, fun hh => hh.2⟩
        have l4 := List.length_eq_length_filter_add (l := M.bnd) (fun e => decide (e ∈ vis))
        have l5 := l2.length_eq
        rw [List.length_append] at l5
        simp only [List.length_cons, List.length_nil] at l5
        omega
  · have hv0 : vis = [] := by
      rw [List.eq_nil_iff_forall_not_mem]
      intro e he
      exact hex ⟨e, (hvis e).1 he⟩
    subst hv0
    have hts : ts = [] := by
      have := G.has.length_eq
      exact List.length_eq_zero_iff.1 this.symm
    subst hts
    have hmem : ∀ e, e ∈ M'.bnd ↔ e ∈ M.bnd := by
      intro e
      rw [hb]
      simp
    have hB' : M'.Bounded := by
      refine C89_boundary (R := R) h.cons h.inRange hB hip hnew hadd (fun e => e ∈ []) (fun e => G.visible e) ?_ ?_ <;>
        simp
    have H' : Hulled M.pos M'.bnd fun v => A v ∨ v = ip := by
      have H1 : Hulled M.pos M.bnd fun v => A v ∨ v = ip := by
        have H := h.hull
        refine ⟨H.ne, H.starts, H.ends, ?_, ?_, H.next, H.prev, H.some, ?_⟩
        · intro e he; exact ⟨Or.inl (H.mem e he).1, Or.inl (H.mem e he).2⟩
        · rintro e he v (hv | rfl) v1 v2
          · exact H.conv e he v hv v1 v2
          · push Not at hex
            exact lt_of_le_of_ne (hex e he) (h0 e he).symm
        · obtain ⟨x, y, z, hx, hy, hz, hh⟩ := H.three
          exact ⟨x, y, z, Or.inl hx, Or.inl hy, Or.inl hz, hh⟩
      exact Hulled.congr H1 hmem
    have hinner : ∀ X, Inner M.pos M'.bnd X ↔ Inner M.pos M.bnd X := by
      intro X
      unfold Inner
      simp only [hmem]
    have htr : M'.tris = M.tris := by rw [G.tris, List.append_nil]
    refine ⟨M', hadd, ⟨G.cons, htwo, hfull, hplanar, by rw [G.points]; exact h.stored, by rw [G.points]; exact h.general,
      by rw [hpos]; exact H', hB'.nodup, hB'.single, hin, hverts, ?_, ?_⟩, G.points, hold, hused, fun _ => ⟨htr, hmem⟩,
      fun hc => absurd hc hex⟩
    · intro X hX hi
      rw [hpos] at hi
      rw [hpos, htr]
      exact h.cover X (haway X hX) ((hinner X).1 hi)
    · intro X hX hi
      rw [hpos] at hi
      rw [hpos, htr]
      exact h.outer X (haway X hX) (fun hh => hi ((hinner X).2 hh))

end Srep
