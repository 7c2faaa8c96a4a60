import Verif.Lemmas.Combos
import Verif.Props.Order

/-!
# `walk_segments` and `find_loops`: where the segments of the loops come from (C70)
-/

set_option linter.unusedSectionVars false

namespace Srep
variable {K : Type} [Field K] [LinearOrder K] [IsStrictOrderedRing K] [FloorRing K] {R : Rt K}

/-- the same segment (ends and class), up to its direction -/
def UpToReversal (s t : Seg K) : Prop := t = s ∨ t = ⟨s.j, s.i, s.cls⟩

theorem UpToReversal.trans {s t u : Seg K} (h : UpToReversal s t) (h' : UpToReversal t u) : UpToReversal s u := by
  rcases h with rfl | rfl <;> rcases h' with rfl | rfl
  · exact Or.inl rfl
  · exact Or.inr rfl
  · exact Or.inr rfl
  · exact Or.inl rfl

/-- every segment object in memory refers to Points in memory -/
def Heap.WF (h : Heap K) : Prop := ∀ s < h.nseg, (h.seg s).i < h.npt ∧ (h.seg s).j < h.npt

/-- memory after steps that only add objects and reverse segments -/
structure Tame (h h' : Heap K) : Prop where
  wf : h'.WF
  le : h.nseg ≤ h'.nseg
  val : ∀ s < h.nseg, UpToReversal (h.val s) (h'.val s)

theorem Tame.refl {h : Heap K} (hw : h.WF) : Tame h h := ⟨hw, le_rfl, fun _ _ => Or.inl rfl⟩

theorem Tame.trans {a b c : Heap K} (h : Tame a b) (h' : Tame b c) : Tame a c :=
  ⟨h'.wf, h.le.trans h'.le, fun s hs => (h.val s hs).trans (h'.val s (lt_of_lt_of_le hs h.le))⟩

theorem tame_deepcopy {h : Heap K} (hw : h.WF) : Tame h h.deepcopy := by
  refine ⟨?_, by simp [Heap.deepcopy], ?_⟩
  · intro s hs
    simp only [Heap.deepcopy] at hs ⊢
    split_ifs with h1
    · have := hw s h1; omega
    · have := hw (s - h.nseg) (by omega); dsimp only; omega
  · intro s hs
    left
    have := hw s hs
    simp only [Heap.val, Heap.deepcopy, if_pos hs, if_pos this.1, if_pos this.2]

theorem deepcopy_new (h : Heap K) (s : ℕ) : h.deepcopy.val (s + h.nseg) = h.val s := by
  simp [Heap.val, Heap.deepcopy]

theorem tame_order (hR : R.IsRounding) {h : Heap K} (hw : h.WF) (P : PLine) : Tame h ((R.order h P).heap h) := by
  obtain ⟨h1, h2, h3, -, h5⟩ := C48_only_reverses hR h P
  refine ⟨?_, by rw [h3], ?_⟩
  · intro s hs
    rw [h3] at hs
    have := hw s hs
    rw [h2]
    rcases h5 s with e | e <;> rw [e]
    · exact this
    · exact ⟨this.2, this.1⟩
  · intro s hs
    unfold Heap.val
    rw [h1]
    rcases h5 s with e | e <;> rw [e]
    · exact Or.inl rfl
    · exact Or.inr rfl

/-- the segment at the address `s` is, up to its direction, one of the segments `S` of the memory `h0` -/
def Orig (h0 : Heap K) (S : List ℕ) (h : Heap K) (s : ℕ) : Prop :=
  s < h.nseg ∧ ∃ g ∈ S, UpToReversal (h0.val g) (h.val s)

section
variable {h0 : Heap K} {S : List ℕ}

theorem Orig.tame {h h' : Heap K} {s : ℕ} (o : Orig h0 S h s) (t : Tame h h') : Orig h0 S h' s := by
  obtain ⟨h1, g, hg, h2⟩ := o
  exact ⟨lt_of_lt_of_le h1 t.le, g, hg, h2.trans (t.val s h1)⟩

theorem Orig.copy {h : Heap K} {s : ℕ} (o : Orig h0 S h s) : Orig h0 S h.deepcopy (s + h.nseg) := by
  obtain ⟨h1, g, hg, h2⟩ := o
  refine ⟨by simp [Heap.deepcopy, h1], g, hg, ?_⟩
  rw [deepcopy_new]; exact h2

theorem mem_setAdd {h : Heap K} {T : Rt.SegSet} {x : ℕ} {y : ℕ × (Int × Int)} (hy : y ∈ R.setAdd h T x) :
    y ∈ T ∨ y.1 = x := by
  unfold Rt.setAdd at hy
  split_ifs at hy
  · exact Or.inl hy
  · rw [List.mem_append, List.mem_singleton] at hy
    rcases hy with hy | rfl
    · exact Or.inl hy
    · exact Or.inr rfl

theorem mem_setOf {h : Heap K} {l : List ℕ} {y : ℕ × (Int × Int)} (hy : y ∈ R.setOf h l) : y.1 ∈ l := by
  have key : ∀ (l : List ℕ) (T : Rt.SegSet), y ∈ l.foldl (R.setAdd h) T → y ∈ T ∨ y.1 ∈ l := by
    intro l
    induction l with
    | nil => intro T hy; exact Or.inl hy
    | cons a l ih =>
      intro T hy
      rcases ih _ hy with h1 | h1
      · rcases mem_setAdd h1 with h2 | h2
        · exact Or.inl h2
        · exact Or.inr (by rw [h2]; exact List.mem_cons_self)
      · exact Or.inr (List.mem_cons_of_mem _ h1)
  exact (key l [] hy).resolve_left (by simp)

theorem mem_setDiscard {h : Heap K} {T : Rt.SegSet} {x : ℕ} {y : ℕ × (Int × Int)}
    (hy : y ∈ R.setDiscard h T x) : y ∈ T := List.mem_of_mem_eraseP hy

/-- invariant of the loop of `walk_segments` -/
structure WInv (h0 : Heap K) (S : List ℕ) (w : Rt.WalkSt K) : Prop where
  wf : w.h.WF
  nv : ∀ y ∈ w.nv, Orig h0 S w.h y.1
  vis : ∀ y ∈ w.vis, Orig h0 S w.h y.1
  akt : Orig h0 S w.h w.akt

/-- what is known about the result of a walk that started in the memory `h` -/
def WalkOk (R : Rt K) (h0 : Heap K) (S : List ℕ) (h : Heap K) : Rt.WalkRes K → Prop
  | .no h' => Tame h h'
  | .found h' P => Tame h h' ∧ (∀ s ∈ P.segs, Orig h0 S h' s) ∧ R.isClosed (h'.vals P.segs) = .ok true
  | .raised _ => True
  | .timeout => True

theorem WalkOk.mono {h h' : Heap K} (t : Tame h h') {r : Rt.WalkRes K} (o : WalkOk R h0 S h' r) :
    WalkOk R h0 S h r := by
  cases r with
  | no _ => exact t.trans o
  | found _ _ => exact ⟨t.trans o.1, o.2⟩
  | raised _ => trivial
  | timeout => trivial

theorem walkNext_mem {π : SetOrder} (hπ : π.Ok) {w : Rt.WalkSt K} {x : ℕ} (hx : x ∈ R.walkNext π w) :
    ∃ y ∈ w.nv, y.1 = x := by
  unfold Rt.walkNext at hx
  dsimp only at hx
  split_ifs at hx
  all_goals
    have := (hπ _ _).mem_iff.1 (List.mem_of_mem_filter hx)
    rw [List.mem_map] at this
    exact this

theorem walkStep_inv (hR : R.IsRounding) {π : SetOrder} (hπ : π.Ok) {w : Rt.WalkSt K} (i : WInv h0 S w) :
    match R.walkStep π w with
    | .inl r => WalkOk R h0 S w.h r
    | .inr w' => WInv h0 S w' ∧ Tame w.h w'.h := by
  unfold Rt.walkStep
  cases hn : R.walkNext π w with
  | nil => exact Tame.refl i.wf
  | cons nxt more =>
    obtain ⟨y, hy, hyx⟩ := walkNext_mem hπ (show nxt ∈ R.walkNext π w by rw [hn]; exact List.mem_cons_self)
    have onxt : Orig h0 S w.h nxt := hyx ▸ i.nv y hy
    dsimp only
    have t1 : Tame w.h w.h.deepcopy := tame_deepcopy i.wf
    cases hf : [(w.h.deepcopy.seg (nxt + w.h.nseg)).i, (w.h.deepcopy.seg (nxt + w.h.nseg)).j].find? fun x =>
        !R.peq (w.h.deepcopy.pt x) (w.h.deepcopy.pt w.pt) with
    | none => trivial
    | some pt =>
      dsimp only
      generalize hh1 : w.h.deepcopy = h1 at *
      have t2 : Tame h1 h1.deepcopy := tame_deepcopy t1.wf
      have ovis : ∀ y ∈ R.setAdd w.h w.vis w.akt, Orig h0 S w.h y.1 := by
        intro y hy
        rcases mem_setAdd hy with h | h
        · exact i.vis y h
        · rw [h]; exact i.akt
      generalize hvis : R.setAdd w.h w.vis w.akt = vis at *
      have oakt : Orig h0 S h1 (nxt + w.h.nseg) := hh1 ▸ onxt.copy
      set T := π (w.k + 1) ((R.setAdd h1.deepcopy (R.setOf h1.deepcopy (vis.map fun y => y.1 + h1.nseg)) nxt).map
        Prod.fst) with hT
      have oT : ∀ s ∈ T, Orig h0 S h1.deepcopy s := by
        intro s hs
        have := (hπ _ _).mem_iff.1 hs
        rw [List.mem_map] at this
        obtain ⟨y, hy, rfl⟩ := this
        rcases mem_setAdd hy with h | h
        · have := mem_setOf h
          rw [List.mem_map] at this
          obtain ⟨z, hz, e⟩ := this
          rw [← e]
          exact ((ovis z hz).tame t1).copy
        · rw [h]; exact (onxt.tame t1).tame t2
      have t3 : Tame h1.deepcopy ((R.order h1.deepcopy ⟨T, false⟩).heap h1.deepcopy) := tame_order hR t2.wf _
      have hsub := C48_sublist hR h1.deepcopy ⟨T, false⟩
      have next : ∀ h3, Tame h1.deepcopy h3 → ∀ b k,
          WInv h0 S ⟨h3, R.setDiscard w.h w.nv w.akt, vis, nxt + w.h.nseg, pt, b, k⟩ ∧ Tame w.h h3 := by
        intro h3 t b k
        have tt := (t1.trans t2).trans t
        exact ⟨⟨tt.wf, fun y hy => (i.nv y (mem_setDiscard hy)).tame tt, fun y hy => (ovis y hy).tame tt,
          oakt.tame (t2.trans t)⟩, tt⟩
      cases ho : R.order h1.deepcopy ⟨T, false⟩ with
      | timeout => trivial
      | raised h3 e => trivial
      | failed h3 =>
        rw [ho] at t3
        exact next h3 t3 _ _
      | done h3 ret =>
        rw [ho] at t3
        dsimp only
        cases hc : R.isClosed (h3.vals ret) with
        | error e => trivial
        | ok c =>
          dsimp only
          by_cases hcb : (c && !(w.branch || decide (0 < more.length))) = true
          · rw [if_pos hcb]
            refine ⟨(t1.trans t2).trans t3, ?_, ?_⟩
            · intro s hs
              exact (oT s ((hsub h3 ret ho).1 s hs)).tame t3
            · rw [Bool.and_eq_true] at hcb
              rw [hc, hcb.1]
          · rw [if_neg hcb]
            exact next h3 t3 _ _

theorem walkLoop_ok (hR : R.IsRounding) {π : SetOrder} (hπ : π.Ok) : ∀ (fuel : ℕ) (w : Rt.WalkSt K),
    WInv h0 S w → WalkOk R h0 S w.h (R.walkLoop π fuel w)
  | 0, _, _ => trivial
  | fuel + 1, w, i => by
    unfold Rt.walkLoop
    split_ifs
    · exact Tame.refl i.wf
    · have := walkStep_inv hR hπ i
      cases hs : R.walkStep π w with
      | inl r => rw [hs] at this; exact this
      | inr w' =>
        rw [hs] at this
        exact (walkLoop_ok hR hπ fuel w' this.1).mono this.2

theorem walkSegments_ok (hR : R.IsRounding) {π : SetOrder} (hπ : π.Ok) (fuel k : ℕ) (h : Heap K) (hw : h.WF)
    (l : List ℕ) (hl : ∀ s ∈ l, Orig h0 S h s) : WalkOk R h0 S h (R.walkSegments π fuel k h l) := by
  unfold Rt.walkSegments
  cases l with
  | nil => trivial
  | cons a l =>
    dsimp only
    have t := tame_deepcopy hw
    have onv : ∀ y ∈ R.setOf h.deepcopy ((a :: l).map (· + h.nseg)), Orig h0 S h.deepcopy y.1 := by
      intro y hy
      have := mem_setOf hy
      rw [List.mem_map] at this
      obtain ⟨z, hz, e⟩ := this
      rw [← e]
      exact (hl z hz).copy
    cases hf : (π k ((R.setOf h.deepcopy ((a :: l).map (· + h.nseg))).map Prod.fst)).filter fun x =>
        R.peq (h.deepcopy.pt (h.deepcopy.seg a).i) (h.deepcopy.val x).i with
    | nil => trivial
    | cons akt m =>
      dsimp only
      have hakt : Orig h0 S h.deepcopy akt := by
        have : akt ∈ π k ((R.setOf h.deepcopy ((a :: l).map (· + h.nseg))).map Prod.fst) :=
          List.mem_of_mem_filter (hf ▸ List.mem_cons_self)
        have := (hπ _ _).mem_iff.1 this
        rw [List.mem_map] at this
        obtain ⟨y, hy, rfl⟩ := this
        exact onv y hy
      refine (walkLoop_ok hR hπ fuel _ ⟨t.wf, onv, ?_, hakt⟩).mono t
      intro y hy
      rw [List.mem_singleton] at hy
      rw [hy]; exact hakt

/-- memory, graph and cycles during `find_loops` -/
def LoopOk (h0 : Heap K) (S : List ℕ) : Rt.LoopRes K → Prop
  | .ok h g c => Tame h0 h ∧ (∀ s ∈ g, Orig h0 S h s) ∧ ∀ P ∈ c, ∀ s ∈ P.segs, Orig h0 S h s
  | .raised _ => True
  | .timeout => True

theorem loopsWalk_ok (hR : R.IsRounding) {π : SetOrder} (hπ : π.Ok) (wf : ℕ) : ∀ (fuel k : ℕ) (h : Heap K)
    (g : List ℕ) (c : List PLine), LoopOk h0 S (.ok h g c) → LoopOk h0 S (R.loopsWalk π wf fuel k h g c)
  | 0, _, _, _, _, _ => trivial
  | fuel + 1, k, h, g, c, o => by
    unfold Rt.loopsWalk
    have := walkSegments_ok hR hπ wf k h o.1.wf g o.2.1
    cases hr : R.walkSegments π wf k h g with
    | timeout => trivial
    | raised e => trivial
    | no h' =>
      rw [hr] at this
      exact ⟨o.1.trans this, fun s hs => (o.2.1 s hs).tame this, fun P hP s hs => (o.2.2 P hP s hs).tame this⟩
    | found h' P =>
      rw [hr] at this
      obtain ⟨t, h1, -⟩ := this
      dsimp only
      split_ifs
      · exact ⟨o.1.trans t, fun s hs => (o.2.1 s hs).tame t, fun P hP s hs => (o.2.2 P hP s hs).tame t⟩
      · apply loopsWalk_ok hR hπ wf fuel
        refine ⟨o.1.trans t, fun s hs => (o.2.1 s (List.mem_of_mem_filter hs)).tame t, ?_⟩
        intro Q hQ s hs
        rw [List.mem_append, List.mem_singleton] at hQ
        rcases hQ with hQ | rfl
        · exact (o.2.2 Q hQ s hs).tame t
        · exact h1 s hs

theorem loopsTry_ok (hR : R.IsRounding) (h : Heap K) (g : List ℕ) (c : List PLine) (p : List ℕ)
    (hp : ∀ s ∈ p, ∃ g ∈ S, UpToReversal (h0.val g) (h.val s)) (o : LoopOk h0 S (.ok h g c))
    (hp' : ∀ s ∈ p, s < h.nseg) :
    LoopOk h0 S (R.loopsTry h g c p) ∧ ∀ h' g' c', R.loopsTry h g c p = .ok h' g' c' → Tame h h' := by
  unfold Rt.loopsTry
  have t := tame_order hR o.1.wf ⟨p, false⟩
  have same : ∀ h', Tame h h' → LoopOk h0 S (.ok h' g c) := fun h' t =>
    ⟨o.1.trans t, fun s hs => (o.2.1 s hs).tame t, fun P hP s hs => (o.2.2 P hP s hs).tame t⟩
  split_ifs
  · exact ⟨o, fun h' g' c' e => by injection e with e _ _; rw [← e]; exact Tame.refl o.1.wf⟩
  · cases ho : R.order h ⟨p, false⟩ with
    | timeout => exact ⟨trivial, by simp⟩
    | raised _ e => exact ⟨trivial, by simp⟩
    | failed h' =>
      rw [ho] at t
      exact ⟨same h' t, fun _ _ _ e => by injection e with e _ _; rw [← e]; exact t⟩
    | done h' ret =>
      rw [ho] at t
      have hsub := C48_sublist hR h ⟨p, false⟩ h' ret ho
      have oret : ∀ s ∈ ret, Orig h0 S h' s := fun s hs =>
        (show Orig h0 S h s from ⟨hp' s (hsub.1 s hs), hp s (hsub.1 s hs)⟩).tame t
      dsimp only
      cases R.plValid (h'.vals ret) with
      | false =>
        exact ⟨same h' t, fun _ _ _ e => by injection e with e _ _; rw [← e]; exact t⟩
      | true =>
        cases R.isClosed (h'.vals ret) with
        | error e => exact ⟨trivial, by simp⟩
        | ok b =>
          dsimp only
          have ocyc : ∀ P ∈ c ++ [(⟨ret, false⟩ : PLine)], ∀ s ∈ P.segs, Orig h0 S h' s := by
            intro Q hQ s hs
            rw [List.mem_append, List.mem_singleton] at hQ
            rcases hQ with hQ | rfl
            · exact (o.2.2 Q hQ s hs).tame t
            · exact oret s hs
          split_ifs
          · exact ⟨⟨o.1.trans t, fun s hs => (o.2.1 s (List.mem_of_mem_filter hs)).tame t, ocyc⟩,
              fun _ _ _ e => by injection e with e _ _; rw [← e]; exact t⟩
          · exact ⟨⟨o.1.trans t, fun s hs => (o.2.1 s hs).tame t, ocyc⟩,
              fun _ _ _ e => by injection e with e _ _; rw [← e]; exact t⟩
          · exact ⟨same h' t, fun _ _ _ e => by injection e with e _ _; rw [← e]; exact t⟩

theorem loopsCombs_ok (hR : R.IsRounding) : ∀ (ps : List (List ℕ)) (h : Heap K) (g : List ℕ) (c : List PLine),
    (∀ p ∈ ps, ∀ s ∈ p, Orig h0 S h s) → LoopOk h0 S (.ok h g c) → LoopOk h0 S (R.loopsCombs ps h g c)
  | [], _, _, _, _, o => o
  | p :: ps, h, g, c, hp, o => by
    unfold Rt.loopsCombs
    obtain ⟨h1, h2⟩ := loopsTry_ok hR h g c p (fun s hs => (hp p List.mem_cons_self s hs).2) o
      (fun s hs => (hp p List.mem_cons_self s hs).1)
    cases hr : R.loopsTry h g c p with
    | ok h' g' c' =>
      rw [hr] at h1
      exact loopsCombs_ok hR ps h' g' c' (fun q hq s hs => (hp q (List.mem_cons_of_mem _ hq) s hs).tame (h2 _ _ _ hr)) h1
    | raised e => trivial
    | timeout => trivial

theorem loopsComb_ok (hR : R.IsRounding) : ∀ (fuel n : ℕ) (h : Heap K) (g : List ℕ) (c : List PLine),
    LoopOk h0 S (.ok h g c) → LoopOk h0 S (R.loopsComb fuel n h g c)
  | 0, _, _, _, _, _ => trivial
  | fuel + 1, n, h, g, c, o => by
    unfold Rt.loopsComb
    split_ifs
    · have := loopsCombs_ok hR (combos (n + 1) g) h g c (by
        intro p hp s hs
        have := (mem_combos _ _ _).1 hp
        exact o.2.1 s (this.1.subset hs)) o
      cases hr : R.loopsCombs (combos (n + 1) g) h g c with
      | ok h' g' c' =>
        rw [hr] at this
        exact loopsComb_ok hR fuel (n + 1) h' g' c' this
      | raised e => trivial
      | timeout => trivial
    · exact o

end

/-- what `find_loops` leaves: besides C70, the segment objects there were before are at most reversed -/
theorem findLoops_ok (hR : R.IsRounding) (π : SetOrder) (hπ : π.Ok) (fuel : ℕ) (h : Heap K) (G : List PLine)
    (hw : h.WF) (hG : ∀ P ∈ G, ∀ s ∈ P.segs, s < h.nseg) (h' : Heap K) (g : List ℕ) (c : List PLine)
    (hr : R.findLoops π fuel h G = .ok h' g c) :
    (c.Pairwise fun P Q => P.segs.length ≤ Q.segs.length) ∧
    (∀ P ∈ c, ∀ s ∈ P.segs, ∃ Q ∈ G, ∃ g ∈ Q.segs, UpToReversal (h.val g) (h'.val s)) ∧ Tame h h' := by
  unfold Rt.findLoops at hr
  have hall : ∀ s ∈ π 0 ((R.setOf h (G.flatMap PLine.segs)).map Prod.fst), Orig h (G.flatMap PLine.segs) h s := by
    intro s hs
    have := (hπ _ _).mem_iff.1 hs
    rw [List.mem_map] at this
    obtain ⟨y, hy, rfl⟩ := this
    have hm := mem_setOf hy
    refine ⟨?_, y.1, hm, Or.inl rfl⟩
    rw [List.mem_flatMap] at hm
    obtain ⟨P, hP, hs⟩ := hm
    exact hG P hP _ hs
  have o1 := loopsWalk_ok hR hπ (h0 := h) (S := G.flatMap PLine.segs) fuel fuel 1 h _ [] ⟨Tame.refl hw, hall, by simp⟩
  cases h1 : R.loopsWalk π fuel fuel 1 h (π 0 ((R.setOf h (G.flatMap PLine.segs)).map Prod.fst)) [] with
  | raised e => rw [h1] at hr; simp at hr
  | timeout => rw [h1] at hr; simp at hr
  | ok h1' g1 c1 =>
    rw [h1] at hr o1
    dsimp only at hr
    have o2 := loopsComb_ok hR (g1.length + 1) 1 h1' g1 c1 o1
    cases h2 : R.loopsComb (g1.length + 1) 1 h1' g1 c1 with
    | raised e => rw [h2] at hr; simp at hr
    | timeout => rw [h2] at hr; simp at hr
    | ok h2' g2 c2 =>
      rw [h2] at hr o2
      dsimp only at hr
      injection hr with e1 e2 e3
      subst e1; subst e2; subst e3
      refine ⟨?_, ?_, o2.1⟩
      · haveI : Std.Total (fun P Q : PLine => P.segs.length ≤ Q.segs.length) := ⟨fun a b => le_total _ _⟩
        haveI : IsTrans PLine (fun P Q : PLine => P.segs.length ≤ Q.segs.length) := ⟨fun a b c h h' => le_trans h h'⟩
        exact List.pairwise_insertionSort (fun P Q : PLine => P.segs.length ≤ Q.segs.length) c2
      · intro P hP s hs
        obtain ⟨-, k, hk, hu⟩ := o2.2.2 P ((List.mem_insertionSort _).1 hP) s hs
        rw [List.mem_flatMap] at hk
        obtain ⟨Q, hQ, hk⟩ := hk
        exact ⟨Q, hQ, k, hk, hu⟩

/-- C70: whatever the iteration order of the sets, the loops returned are sorted by their number of segments, and
each of their segments is, up to its direction, a segment of the group. -/
theorem C70_segments (hR : R.IsRounding) (π : SetOrder) (hπ : π.Ok) (fuel : ℕ) (h : Heap K) (G : List PLine)
    (hw : h.WF) (hG : ∀ P ∈ G, ∀ s ∈ P.segs, s < h.nseg) (h' : Heap K) (g : List ℕ) (c : List PLine)
    (hr : R.findLoops π fuel h G = .ok h' g c) :
    (c.Pairwise fun P Q => P.segs.length ≤ Q.segs.length) ∧
    ∀ P ∈ c, ∀ s ∈ P.segs, ∃ Q ∈ G, ∃ g ∈ Q.segs, UpToReversal (h.val g) (h'.val s) :=
  have o := findLoops_ok hR π hπ fuel h G hw hG h' g c hr
  ⟨o.1, o.2.1⟩

/-- C70: a polyline returned by `walk_segments` is closed, and its segments are, up to their direction, segments of
the list walked. -/
theorem C70_walk (hR : R.IsRounding) (π : SetOrder) (hπ : π.Ok) (fuel k : ℕ) (h : Heap K) (l : List ℕ) (hw : h.WF)
    (hl : ∀ s ∈ l, s < h.nseg) (h' : Heap K) (P : PLine) (hr : R.walkSegments π fuel k h l = .found h' P) :
    R.isClosed (h'.vals P.segs) = .ok true ∧
    (∀ s ∈ P.segs, ∃ g ∈ l, UpToReversal (h.val g) (h'.val s)) ∧
    ∀ s < h.nseg, UpToReversal (h.val s) (h'.val s) := by
  have := walkSegments_ok hR hπ (h0 := h) (S := l) fuel k h hw l
    (fun s hs => ⟨hl s hs, s, hs, Or.inl rfl⟩)
  rw [hr] at this
  exact ⟨this.2.2, fun s hs => (this.2.1 s hs).2, this.1.val⟩

/-- C70: a combination of segments is added to the loops only if it can be ordered to a valid closed polyline that is
not among the loops yet and each of its points occurs twice. -/
theorem C70_accepts (hR : R.IsRounding) (h h' : Heap K) (g g' p : List ℕ) (c c' : List PLine)
    (hr : R.loopsTry h g c p = .ok h' g' c') : c' = c ∨ ∃ P : PLine, c' = c ++ [P] ∧
      (∀ s ∈ P.segs, s ∈ p) ∧ P.segs.Nodup ∧ R.plValid (h'.vals P.segs) = true ∧
      R.isClosed (h'.vals P.segs) = .ok true ∧ R.inCycles h' P c = false ∧ R.allTwo (endPts (h.vals p)) = true := by
  unfold Rt.loopsTry at hr
  split_ifs at hr with h2
  · injection hr with _ _ e; exact Or.inl e.symm
  · cases ho : R.order h ⟨p, false⟩ with
    | timeout => rw [ho] at hr; simp at hr
    | raised _ e => rw [ho] at hr; simp at hr
    | failed h1 => rw [ho] at hr; injection hr with _ _ e; exact Or.inl e.symm
    | done h1 ret =>
      rw [ho] at hr
      dsimp only at hr
      have hsub := C48_sublist hR h ⟨p, false⟩ h1 ret ho
      cases hv : R.plValid (h1.vals ret) with
      | false => rw [hv] at hr; injection hr with _ _ e; exact Or.inl e.symm
      | true =>
        rw [hv] at hr
        cases hc : R.isClosed (h1.vals ret) with
        | error e => rw [hc] at hr; simp at hr
        | ok b =>
          rw [hc] at hr
          dsimp only at hr
          have fin : (b && !R.inCycles h1 ⟨ret, false⟩ c) = true → h' = h1 → c' = c ++ [(⟨ret, false⟩ : PLine)] →
              ∃ P : PLine, c' = c ++ [P] ∧ (∀ s ∈ P.segs, s ∈ p) ∧ P.segs.Nodup ∧
                R.plValid (h'.vals P.segs) = true ∧ R.isClosed (h'.vals P.segs) = .ok true ∧
                R.inCycles h' P c = false ∧ R.allTwo (endPts (h.vals p)) = true := by
            intro hb e1 e2
            rw [Bool.and_eq_true] at hb
            subst e1
            refine ⟨⟨ret, false⟩, e2, hsub.1, hsub.2.1, hv, by rw [hc, hb.1], by simpa using hb.2, by simpa using h2⟩
          split_ifs at hr with h3 h4
          · injection hr with e1 _ e3; exact Or.inr (fin h3 e1.symm e3.symm)
          · injection hr with e1 _ e3; exact Or.inr (fin h3 e1.symm e3.symm)
          · injection hr with _ _ e; exact Or.inl e.symm

/-- a square with a diagonal, drawn once round and the diagonal -/
def exThetaH : Heap ℚ :=
  ⟨fun n => if n = 0 then ⟨1, 1⟩ else if n = 1 then ⟨3, 1⟩ else if n = 2 then ⟨3, 4⟩ else ⟨1, 3⟩,
   fun s => if s = 0 then ⟨0, 1, .line⟩ else if s = 1 then ⟨1, 2, .line⟩ else if s = 2 then ⟨2, 3, .line⟩
     else if s = 3 then ⟨3, 0, .line⟩ else ⟨1, 3, .line⟩, 4, 5⟩

/-- number of segments of each loop found, and whether it is closed in the memory returned -/
def Rt.LoopRes.closedness (R : Rt K) : Rt.LoopRes K → List (ℕ × Bool)
  | .ok h _ c => c.map fun P => (P.segs.length, decide (R.isClosed (h.vals P.segs) = .ok true))
  | _ => []

/-- C70: a returned loop need not be closed.  In a square with a diagonal the two triangles share the diagonal
object; ordering the second triangle reverses it, so the first triangle is torn. -/
theorem C70_torn : (exRt.findLoops (fun _ l => l) 6 exThetaH [⟨[0, 1, 2, 3, 4], false⟩]).closedness exRt =
    [(3, false), (3, true), (4, true)] := by decide +kernel

example : exThetaH.WF := by
  intro s hs
  have : s < 5 := hs
  interval_cases s <;> decide

end Srep
