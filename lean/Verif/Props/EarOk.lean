import Verif.Model.EarOk
import Verif.Props.Area
import Verif.Props.TriRel
import Verif.Props.ConvexSimple

/-! The triangles `ear_clipping` accepts (C134). -/

set_option linter.unusedSectionVars false

namespace Srep
open Rt
variable {K : Type} [Field K] [LinearOrder K] [IsStrictOrderedRing K] [FloorRing K] {R : Rt K}

/-- the segments have a common end -/
def CommonEnd (s o : Seg K) : Prop := s.i = o.i ∨ s.i = o.j ∨ s.j = o.i ∨ s.j = o.j

/-- the segments have a common end, or no common point and also no near miss -/
def NoCrossing (s o : Seg K) : Prop := CommonEnd s o ∨ (¬ Meet s.i s.j o ∧ Clear s.i s.j o)

theorem CommonEnd.symm {s o : Seg K} (h : CommonEnd s o) : CommonEnd o s := by
  unfold CommonEnd at *
  simp only [eq_comm] at *
  tauto

theorem CommonEnd.congr {s s' o o' : Seg K} (hs : SameEdge s s') (ho : SameEdge o o') (h : CommonEnd s' o') :
    CommonEnd s o := by
  unfold CommonEnd at *
  rcases hs with ⟨h1, h2⟩ | ⟨h1, h2⟩ <;> rcases ho with ⟨h3, h4⟩ | ⟨h3, h4⟩ <;> rw [h1, h2, h3, h4] <;> tauto

theorem farFromBox_symm {a b X : Pt K} (h : FarFromBox a b X) : FarFromBox b a X := by
  unfold FarFromBox at *
  rwa [min_comm b.x, min_comm b.y, max_comm b.x, max_comm b.y]

theorem NoCrossing.symm {s o : Seg K} (h : NoCrossing s o) : NoCrossing o s := by
  rcases h with h | ⟨h1, h2⟩
  · exact Or.inl h.symm
  · right
    refine ⟨?_, ?_⟩
    · rintro ⟨X, a, b⟩
      exact h1 ⟨X, b, a⟩
    · intro X a b
      rcases h2 X b a with ⟨c, d⟩ | c | c
      · exact Or.inl ⟨d, c⟩
      · exact Or.inr (Or.inr c)
      · exact Or.inr (Or.inl c)

theorem NoCrossing.left {s s' o : Seg K} (hs : SameEdge s s') (h : NoCrossing s' o) : NoCrossing s o := by
  rcases h with h | ⟨h1, h2⟩
  · exact Or.inl (h.congr hs (Or.inl ⟨rfl, rfl⟩))
  · right
    rcases hs with ⟨e1, e2⟩ | ⟨e1, e2⟩
    · rw [e1, e2]; exact ⟨h1, h2⟩
    · rw [e1, e2]
      refine ⟨?_, ?_⟩
      · rintro ⟨X, a, b⟩
        exact h1 ⟨X, between_symm.1 a, b⟩
      · intro X a b
        rcases h2 X (onLine_symm.1 a) b with ⟨c, d⟩ | c | c
        · exact Or.inl ⟨between_symm.1 c, d⟩
        · exact Or.inr (Or.inl (farFromBox_symm c))
        · exact Or.inr (Or.inr c)

theorem NoCrossing.congr {s s' o o' : Seg K} (hs : SameEdge s s') (ho : SameEdge o o') (h : NoCrossing s' o') :
    NoCrossing s o := ((h.left hs).symm.left ho).symm

/-- segments that do not cross are not found to cross -/
theorem ios_noCrossing (hE : R.IsExact) {S : Set (Pt K)} (ha : Apart (1 / 10 ^ 5) S) {s o : Seg K} (h1 : s.i ∈ S)
    (h2 : s.j ∈ S) (h3 : o.i ∈ S) (h4 : o.j ∈ S) (h : NoCrossing s o) : R.intersectionOnSegment s o = false := by
  by_cases hce : CommonEnd s o
  · exact ios_shared hE.isRounding _ _ hce
  obtain ⟨n1, n2, n3, n4⟩ : s.i ≠ o.i ∧ s.i ≠ o.j ∧ s.j ≠ o.i ∧ s.j ≠ o.j := by
    unfold CommonEnd at hce; tauto
  have ht := touch_false hE ha h1 h2 h3 h4 n1 n2 n3 n4
  obtain ⟨hm, hc⟩ := h.resolve_left hce
  cases hp : R.isParallel s o with
  | true => exact ios_parallel _ _ hp
  | false =>
    obtain ⟨q, hq, he, rx, ry⟩ := C12_correct hE s o hp
    have hip : R.intersectionPoint s o = some ⟨rhe8 q.x, rhe8 q.y⟩ := by
      unfold Rt.intersectionPointE at he
      unfold Rt.intersectionPoint
      rw [if_neg (by rw [hp]; simp)] at he ⊢
      split_ifs at he
      simpa using he
    unfold Rt.intersectionOnSegment
    rw [if_neg (by rw [ht]; simp), hip]
    obtain ⟨o1, o2⟩ := (hq q).2 rfl
    dsimp only at o1 o2 ⊢
    rw [Bool.eq_false_iff]
    intro hcon
    rw [Bool.and_eq_true, hE.isInternal_iff, hE.isInternal_iff] at hcon
    dsimp only at hcon
    rw [abs_le] at rx ry
    obtain ⟨⟨a1, a2, a3, a4⟩, ⟨b1, b2, b3, b4⟩⟩ := hcon
    rcases hc q o1 o2 with h | h | h
    · exact hm ⟨q, h⟩
    · rcases h with h | h | h | h <;> linarith
    · rcases h with h | h | h | h <;> linarith

/-! ### the test and the one of `triangle_mesh` -/

theorem earOk_of_mesh {l T : List (Seg K)} {ω : ℕ → ℕ → Pt K} {fuel : ℕ} (h : R.meshOk l T ω fuel = .ok true) :
    R.earOk l T ω fuel = .ok (!(twoOf (l ++ T)).any fun x => R.intersectionOnSegment x.1 x.2) := by
  unfold Rt.meshOk at h
  unfold Rt.earOk
  cases h1 : R.plMidpoint T with
  | error e => rw [h1] at h; cases h
  | ok M =>
    rw [h1] at h
    simp only at h ⊢
    cases h2 : R.plInternal l M (ω 0) fuel with
    | none => rw [h2] at h; cases h
    | some b =>
      rw [h2] at h
      cases b with
      | false => cases h
      | true =>
        simp only at h ⊢
        split at h
        · cases h
        · cases h
        · rename_i hi
          rw [hi]
          simp only
          split_ifs with hx
          · rw [hx]; rfl
          · simp only [Bool.not_eq_true] at hx
            rw [hx]
            exact h

theorem earOk_of_mesh_false {l T : List (Seg K)} {ω : ℕ → ℕ → Pt K} {fuel : ℕ}
    (h : R.meshOk l T ω fuel = .ok false) : R.earOk l T ω fuel = .ok false := by
  unfold Rt.meshOk at h
  unfold Rt.earOk
  cases h1 : R.plMidpoint T with
  | error e => rw [h1] at h; cases h
  | ok M =>
    rw [h1] at h
    simp only at h ⊢
    cases h2 : R.plInternal l M (ω 0) fuel with
    | none => rw [h2] at h; cases h
    | some b =>
      rw [h2] at h
      cases b with
      | false => rfl
      | true =>
        simp only at h ⊢
        split at h
        · cases h
        · rename_i hi
          rw [hi]
        · rename_i hi
          rw [hi]
          simp only
          split_ifs with hx
          · rfl
          · exact h

theorem SameDrawing.symm_mem {l m : List (Seg K)} (h : SameDrawing l m) : ∀ s ∈ l, ∃ o ∈ m, SameEdge s o := by
  obtain ⟨l', hp, hf⟩ := h
  intro s hs
  obtain ⟨k, hk, rfl⟩ := List.mem_iff_getElem.1 (hp.mem_iff.2 hs)
  have hk' : k < m.length := by rw [← hf.length_eq]; exact hk
  exact ⟨m[k], List.getElem_mem _, hf.get hk hk'⟩

theorem sameEdge_ends {s o : Seg K} {S : Set (Pt K)} (h : SameEdge s o) (h1 : o.i ∈ S) (h2 : o.j ∈ S) : s.i ∈ S ∧ s.j ∈ S := by
  rcases h with ⟨e1, e2⟩ | ⟨e1, e2⟩ <;> rw [e1, e2]
  · exact ⟨h1, h2⟩
  · exact ⟨h2, h1⟩

theorem no_crossing_found (hE : R.IsExact) {l m T : List (Seg K)} {t : Pt K × Pt K × Pt K} (hd : SameDrawing l m)
    (hap : Apart (1 / 10 ^ 5) (Ends m)) (hcor : ∀ p, IsCorner t p → p ∈ Ends m) (hT : SameDrawing T (triSegs t))
    (hx : ∀ s ∈ m, ∀ o ∈ m ++ triSegs t, NoCrossing s o) :
    ((twoOf (l ++ T)).any fun x => R.intersectionOnSegment x.1 x.2) = false := by
  have hE' : ∀ o ∈ m ++ triSegs t, o.i ∈ Ends m ∧ o.j ∈ Ends m := by
    intro o ho
    rcases List.mem_append.1 ho with h | h
    · exact ⟨⟨o, h, Or.inl rfl⟩, ⟨o, h, Or.inr rfl⟩⟩
    · exact ⟨hcor _ ((ends_triSegs t _).1 ⟨o, h, Or.inl rfl⟩), hcor _ ((ends_triSegs t _).1 ⟨o, h, Or.inr rfl⟩)⟩
  have hpre : ∀ s ∈ l ++ T, ∃ o ∈ m ++ triSegs t, SameEdge s o := by
    intro s hs
    rcases List.mem_append.1 hs with h | h
    · obtain ⟨o, ho, e⟩ := hd.symm_mem s h
      exact ⟨o, List.mem_append_left _ ho, e⟩
    · obtain ⟨o, ho, e⟩ := hT.symm_mem s h
      exact ⟨o, List.mem_append_right _ ho, e⟩
  have hall : ∀ s ∈ m ++ triSegs t, ∀ o ∈ m ++ triSegs t, NoCrossing s o := by
    intro s hs o ho
    rcases List.mem_append.1 hs with h | h
    · exact hx s h o ho
    · rcases List.mem_append.1 ho with h' | h'
      · exact (hx o h' s hs).symm
      · left
        simp only [triSegs, List.mem_cons, List.not_mem_nil, or_false] at h h'
        unfold CommonEnd
        rcases h with rfl | rfl | rfl <;> rcases h' with rfl | rfl | rfl <;> simp
  have : (l ++ T).Pairwise fun s o => R.intersectionOnSegment s o = false := by
    refine List.pairwise_of_forall_mem_list ?_
    intro s hs o ho
    obtain ⟨s', hs', e1⟩ := hpre s hs
    obtain ⟨o', ho', e2⟩ := hpre o ho
    obtain ⟨a1, a2⟩ := sameEdge_ends e1 (hE' s' hs').1 (hE' s' hs').2
    obtain ⟨b1, b2⟩ := sameEdge_ends e2 (hE' o' ho').1 (hE' o' ho').2
    exact ios_noCrossing hE hap a1 a2 b1 b2 ((hall s' hs' o' ho').congr e1 e2)
  rw [List.any_eq_false]
  intro x hxm
  rw [(pairwise_twoOf _ _).1 this x hxm]
  simp

/-- the area of a triangle drawn in any way -/
theorem triArea_draw (hE : R.IsExact) {T : List (Seg K)} {t : Pt K × Pt K × Pt K} (hT : SameDrawing T (triSegs t)) :
    R.triArea T = .ok (|det3 t.1 t.2.1 t.2.2| / 2) := by
  obtain ⟨p, q, r⟩ := t
  obtain ⟨T', hp, hf⟩ := hT
  have e1 : |det3 q r p| = |det3 p q r| := by congr 1; unfold det3; ring
  have e2 : |det3 r p q| = |det3 p q r| := by congr 1; unfold det3; ring
  have e3 : |det3 q p r| = |det3 p q r| := by rw [← abs_neg]; congr 1; unfold det3; ring
  have e4 : |det3 p r q| = |det3 p q r| := by rw [← abs_neg]; congr 1; unfold det3; ring
  have e5 : |det3 r q p| = |det3 p q r| := by rw [← abs_neg]; congr 1; unfold det3; ring
  unfold triSegs at hf
  cases hf with
  | @cons x _ _ _ jx hf =>
  cases hf with
  | @cons y _ _ _ jy hf =>
  cases hf with
  | @cons z _ _ _ jz hf =>
  cases hf
  have jx : Joins x p q := jx
  have jy : Joins y q r := jy
  have jz : Joins z r p := jz
  have hmem := List.mem_permutations.2 hp.symm
  have : T = [x, y, z] ∨ T = [y, x, z] ∨ T = [z, y, x] ∨ T = [y, z, x] ∨ T = [z, x, y] ∨ T = [x, z, y] := by
    simpa [List.permutations, List.permutationsAux, List.permutationsAux.rec, List.permutationsAux2] using hmem
  rcases this with rfl | rfl | rfl | rfl | rfl | rfl <;> unfold Rt.triArea <;> simp only
  · exact C57_area hE p q r _ _ _ jx jy jz
  · rw [C57_area hE r q p _ _ _ jy.symm jx.symm jz.symm, e5]
  · rw [C57_area hE p r q _ _ _ jz.symm jy.symm jx.symm, e4]
  · rw [C57_area hE q r p _ _ _ jy jz jx, e1]
  · rw [C57_area hE r p q _ _ _ jz jx jy, e2]
  · rw [C57_area hE q p r _ _ _ jx.symm jz.symm jy.symm, e3]

/-! ### the claims -/

/-- C134: a triangle between corners of the polygon is accepted if its middle (as stored, rounded to 8 decimals) is inside,
no other corner of the polygon is in it, and no side of the polygon crosses another one or a side of the triangle. -/
theorem C134_accept (hE : R.IsExact) (l m T : List (Seg K)) (t : Pt K × Pt K × Pt K) (hd : SameDrawing l m)
    (hc : ClosedChain m) (hnd : NoDouble m) (hap : Apart (1 / 10 ^ 5) (Ends m)) (hcor : ∀ p, IsCorner t p → p ∈ Ends m)
    (hT : SameDrawing T (triSegs t)) (hpos : 0 < det3 t.1 t.2.1 t.2.2) (ω : ℕ → ℕ → Pt K)
    (hoff : ∀ s ∈ m, ¬ OnSeg s (storedCentre t))
    (hω : ∀ k < 3, GoodTarget m (storedCentre t) (ω 0 k) ∧ Spread m (storedCentre t) (ω 0 k))
    (hin : meetCount m (storedCentre t) (ω 0 0) % 2 = 1)
    (hout : ∀ p ∈ Ends m, ¬ IsCorner t p → OutsideCcw (triSegs t) p)
    (hω' : ∀ p ∈ Ends m, ¬ IsCorner t p → ∀ n, ∀ k < 3, GoodTarget (triSegs t) p (ω (n + 1) k) ∧
      Spread (triSegs t) p (ω (n + 1) k))
    (hx : ∀ s ∈ m, ∀ o ∈ m ++ triSegs t, NoCrossing s o) (fuel : ℕ) :
    R.earOk l T ω (fuel + 1) = .ok true := by
  rw [earOk_of_mesh (meshOk_keep hE hd hc hnd hap hcor hT hpos (triArea_draw hE hT) ω hoff hω hin hout hω' fuel),
    no_crossing_found hE hd hap hcor hT hx]
  rfl

/-- C134: what is accepted is accepted by `triangle_mesh` as well, and no two different positions of the list of segments of
polygon and triangle hold segments that are found to cross - whatever the targets are. -/
theorem C134_accepted (R : Rt K) (l T : List (Seg K)) (ω : ℕ → ℕ → Pt K) (fuel : ℕ) (h : R.earOk l T ω fuel = .ok true) :
    R.meshOk l T ω fuel = .ok true ∧ (l ++ T).Pairwise fun s o => R.intersectionOnSegment s o = false := by
  unfold Rt.earOk at h
  unfold Rt.meshOk
  cases h1 : R.plMidpoint T with
  | error e => rw [h1] at h; cases h
  | ok M =>
    rw [h1] at h
    simp only at h ⊢
    cases h2 : R.plInternal l M (ω 0) fuel with
    | none => rw [h2] at h; cases h
    | some b =>
      rw [h2] at h
      cases b with
      | false => cases h
      | true =>
        simp only at h ⊢
        split at h
        · cases h
        · cases h
        · rename_i hi
          rw [hi]
          simp only
          split_ifs at h with hx
          · cases h
          refine ⟨h, (pairwise_twoOf _ _).2 ?_⟩
          intro x hxm
          rw [Bool.not_eq_true, List.any_eq_false] at hx
          simpa using hx x hxm

/-- C134: a triangle cut off in a round of `ear_clipping` has passed the test on the polygon of that round: none of its sides
was found to cross a side of this polygon. -/
theorem C134_clipped (R : Rt K) (ω : ℕ → ℕ → ℕ → Pt K) (fuel n : ℕ) (h : Heap K) (C : PLine) (cp : Pt K) (h' : Heap K)
    (C' : PLine) (t : List ℕ) (hr : R.earRound h C cp (R.earTok ω fuel n) = .clipped h' C' t) :
    ∃ h1 : Heap K, R.earOk (h1.vals C.segs) (h1.vals t) (ω n) fuel = .ok true ∧
      ∀ s ∈ h1.vals C.segs, ∀ o ∈ h1.vals t, R.intersectionOnSegment s o = false := by
  have key : ∀ h1 T, R.earTok ω fuel n h1 C T = true → R.earOk (h1.vals C.segs) (h1.vals T.segs) (ω n) fuel = .ok true := by
    intro h1 T hT
    unfold Rt.earTok at hT
    split at hT
    · assumption
    · cases hT
  unfold Rt.earRound at hr
  split_ifs at hr
  split at hr
  · simp only at hr
    split_ifs at hr
    split at hr
    · cases hr
    · split_ifs at hr with ht
      cases hr
      have := key _ _ ht
      exact ⟨_, this, (List.pairwise_append.1 (C134_accepted R _ _ _ _ this).2).2.2⟩
  · cases hr

/-- C134: a triangle one side of which crosses a side of the polygon (a common point, not parallel, the four ends different) is
never accepted, whatever the targets are and wherever the corners are. -/
theorem C134_crossing (hE : R.IsExact) (l T : List (Seg K)) (ω : ℕ → ℕ → Pt K) (fuel : ℕ)
    (hap : Apart (1 / 10 ^ 5) (Ends (l ++ T))) (s o : Seg K) (hs : s ∈ l) (ho : o ∈ T) (hce : ¬ CommonEnd s o)
    (hp : (s.j.x - s.i.x) * (o.j.y - o.i.y) - (s.j.y - s.i.y) * (o.j.x - o.i.x) ≠ 0) (hm : Meet s.i s.j o) :
    R.earOk l T ω fuel ≠ .ok true := by
  intro h
  have hf := (List.pairwise_append.1 (C134_accepted R l T ω fuel h).2).2.2 s hs o ho
  obtain ⟨X, b1, b2⟩ := hm
  obtain ⟨n1, n2, n3, n4⟩ : s.i ≠ o.i ∧ s.i ≠ o.j ∧ s.j ≠ o.i ∧ s.j ≠ o.j := by
    unfold CommonEnd at hce; tauto
  have hs' := List.mem_append_left T hs
  have ho' := List.mem_append_right l ho
  have ht := touch_false hE hap ⟨s, hs', Or.inl rfl⟩ ⟨s, hs', Or.inr rfl⟩ ⟨o, ho', Or.inl rfl⟩ ⟨o, ho', Or.inr rfl⟩ n1 n2 n3 n4
  rw [ios_of_meet hE ht hp b1 b2] at hf
  cases hf

/-- C134: a triangle whose middle is outside of the polygon is rejected … -/
theorem C134_outside (hE : R.IsExact) (l m T : List (Seg K)) (t : Pt K × Pt K × Pt K) (hd : SameDrawing l m)
    (hc : ClosedChain m) (hnd : NoDouble m) (hap : Apart (1 / 10 ^ 5) (Ends m)) (hcor : ∀ p, IsCorner t p → p ∈ Ends m)
    (hT : SameDrawing T (triSegs t)) (hpos : 0 < det3 t.1 t.2.1 t.2.2) (ω : ℕ → ℕ → Pt K)
    (hoff : ∀ s ∈ m, ¬ OnSeg s (storedCentre t))
    (hω : ∀ k < 3, GoodTarget m (storedCentre t) (ω 0 k) ∧ Spread m (storedCentre t) (ω 0 k))
    (hin : ¬ meetCount m (storedCentre t) (ω 0 0) % 2 = 1) (fuel : ℕ) :
    R.earOk l T ω (fuel + 1) = .ok false :=
  earOk_of_mesh_false (meshOk_drop hE hd hc hnd hap hcor hT hpos ω hoff hω hin fuel)

/-- C134: … and so is one with another corner of the polygon strictly inside. -/
theorem C134_foreign (hE : R.IsExact) (l m T : List (Seg K)) (t : Pt K × Pt K × Pt K) (hd : SameDrawing l m)
    (hc : ClosedChain m) (hnd : NoDouble m) (hap : Apart (1 / 10 ^ 5) (Ends m)) (hcor : ∀ p, IsCorner t p → p ∈ Ends m)
    (hT : SameDrawing T (triSegs t)) (hpos : 0 < det3 t.1 t.2.1 t.2.2) (ω : ℕ → ℕ → Pt K)
    (hoff : ∀ s ∈ m, ¬ OnSeg s (storedCentre t))
    (hω : ∀ k < 3, GoodTarget m (storedCentre t) (ω 0 k) ∧ Spread m (storedCentre t) (ω 0 k))
    (hside : ∀ p ∈ Ends m, ¬ IsCorner t p → InsideCcw (triSegs t) p ∨ OutsideCcw (triSegs t) p)
    (hω' : ∀ p ∈ Ends m, ¬ IsCorner t p → ∀ n, ∀ k < 3, GoodTarget (triSegs t) p (ω (n + 1) k) ∧
      Spread (triSegs t) p (ω (n + 1) k)) (p : Pt K) (hp : p ∈ Ends m) (hin : InsideCcw (triSegs t) p) (fuel : ℕ) :
    R.earOk l T ω (fuel + 1) = .ok false :=
  earOk_of_mesh_false (C99_foreign hE l m T t hd hc hnd hap hcor hT hpos ω hoff hω hside hω' p hp hin fuel)

/-! ### convex polygons -/

/-- a side of a strictly convex polygon and a chord of other corners have no common point -/
theorem side_chord {m : List (Seg K)} (hc : ConvexCcw m) {s o : Seg K} (hs : s ∈ m) (h1 : o.i ∈ Ends m) (h2 : o.j ∈ Ends m)
    (hce : ¬ CommonEnd s o) : ¬ Meet s.i s.j o := by
  have hleft : ∀ q ∈ Ends m, q ≠ s.i → q ≠ s.j → 0 < det3 s.i s.j q := by
    rintro q ⟨o, ho, rfl | rfl⟩ n1 n2
    · rcases hc.left s hs o ho with h | h | h
      · exact absurd h n1
      · exact absurd h n2
      · exact h
    · obtain ⟨k, hk, rfl⟩ := List.getElem_of_mem ho
      rw [hc.chain k hk] at n1 n2 ⊢
      rcases hc.left s hs _ (List.getElem_mem _) with h | h | h
      · exact absurd h n1
      · exact absurd h n2
      · exact h
  rintro ⟨X, ⟨u, -, -, rfl⟩, ⟨w, w0, w1, e⟩⟩
  unfold CommonEnd at hce
  have p1 := hleft o.i h1 (fun e => hce (by simp [e])) (fun e => hce (by simp [e]))
  have p2 := hleft o.j h2 (fun e => hce (by simp [e])) (fun e => hce (by simp [e]))
  have d1 : det3 s.i s.j (lerp s.i s.j u) = 0 := by unfold det3 lerp; ring
  have d2 : det3 s.i s.j (lerp o.i o.j w) = (1 - w) * det3 s.i s.j o.i + w * det3 s.i s.j o.j := by unfold det3 lerp; ring
  rw [e, d2] at d1
  rcases w0.eq_or_lt with rfl | h
  · linarith
  · nlinarith [mul_pos h p2, mul_nonneg (sub_nonneg.2 w1) p1.le]

/-- C134: a counter-clockwise triangle between corners of a strictly convex polygon is accepted when the stored middle is
inside - unless a line through a side and a line through another side or a side of the triangle just miss each other. -/
theorem C134_convex (hE : R.IsExact) (l m T : List (Seg K)) (t : Pt K × Pt K × Pt K) (hd : SameDrawing l m)
    (hc : ConvexCcw m) (hm : 3 ≤ m.length) (hap : Apart (1 / 10 ^ 5) (Ends m)) (hcor : ∀ p, IsCorner t p → p ∈ Ends m)
    (hT : SameDrawing T (triSegs t)) (hpos : 0 < det3 t.1 t.2.1 t.2.2) (ω : ℕ → ℕ → Pt K) (hin : InsideCcw m (storedCentre t))
    (hω : ∀ k < 3, GoodTarget m (storedCentre t) (ω 0 k) ∧ Spread m (storedCentre t) (ω 0 k))
    (hω' : ∀ p ∈ Ends m, ¬ IsCorner t p → ∀ n, ∀ k < 3, GoodTarget (triSegs t) p (ω (n + 1) k) ∧
      Spread (triSegs t) p (ω (n + 1) k))
    (hx : ∀ s ∈ m, ∀ o ∈ m ++ triSegs t, CommonEnd s o ∨ Clear s.i s.j o) (fuel : ℕ) :
    R.earOk l T ω (fuel + 1) = .ok true := by
  have hne : m ≠ [] := by rintro rfl; simp at hm
  refine C134_accept hE l m T t hd hc.chain (hc.noDouble hm) hap hcor hT hpos ω (not_onSeg_of_inside hin) hω ?_
    (fun p hp hnc => vertex_outside hc hcor hpos p hp hnc) hω' ?_ fuel
  · have g := (hω 0 (by omega)).1
    rw [meetCount_eq_rayCount g (not_onSeg_of_inside hin), Ray.rayCount_inside hc hne g.right g.noVertex hin]
  · intro s hs o ho
    by_cases hce : CommonEnd s o
    · exact Or.inl hce
    refine Or.inr ⟨side_chord hc hs ?_ ?_ hce, (hx s hs o ho).resolve_left hce⟩
    all_goals
      rcases List.mem_append.1 ho with h | h
    · exact ⟨o, h, Or.inl rfl⟩
    · exact hcor _ ((ends_triSegs t _).1 ⟨o, h, Or.inl rfl⟩)
    · exact ⟨o, h, Or.inr rfl⟩
    · exact hcor _ ((ends_triSegs t _).1 ⟨o, h, Or.inr rfl⟩)

/-! ### concrete cases -/

/-- the triangle over the notch is not accepted here either -/
example (fuel : ℕ) : exReal.earOk (notched.map RatEx.seg) (triSegs (RatEx.tri unnotched)) (fun _ _ => RatEx.pt ⟨10, 7 / 2⟩)
    (fuel + 1) = .ok false := earOk_of_mesh_false (C99_notch fuel)

/-- a dart: of the three triangles with its corners the two inside are accepted, the one outside is not -/
example :
    (exRt.earOk [exSeg 0 0 3 0, exSeg 3 0 1 1, exSeg 1 1 0 3, exSeg 0 3 0 0] [exSeg 0 0 3 0, exSeg 3 0 1 1, exSeg 1 1 0 0]
      (fun _ k => ⟨10 + k, 2⟩) 1).toOption = some true ∧
    (exRt.earOk [exSeg 0 0 3 0, exSeg 3 0 1 1, exSeg 1 1 0 3, exSeg 0 3 0 0] [exSeg 0 0 1 1, exSeg 1 1 0 3, exSeg 0 3 0 0]
      (fun _ k => ⟨10 + k, 1⟩) 1).toOption = some true ∧
    (exRt.earOk [exSeg 0 0 3 0, exSeg 3 0 1 1, exSeg 1 1 0 3, exSeg 0 3 0 0] [exSeg 3 0 0 3, exSeg 0 3 1 1, exSeg 1 1 3 0]
      (fun _ k => ⟨10 + k, 2⟩) 1).toOption = some false := by
  decide +kernel

/-- two crossing segments meet the hypotheses of `C134_crossing` -/
example (ω : ℕ → ℕ → Pt ℝ) (fuel : ℕ) : exReal.earOk [⟨⟨0, 0⟩, ⟨2, 2⟩, .line⟩, ⟨⟨2, 2⟩, ⟨4, 0⟩, .line⟩, ⟨⟨4, 0⟩, ⟨0, 0⟩, .line⟩]
    [⟨⟨0, 2⟩, ⟨2, 0⟩, .line⟩, ⟨⟨2, 0⟩, ⟨1, 5⟩, .line⟩, ⟨⟨1, 5⟩, ⟨0, 2⟩, .line⟩] ω fuel ≠ .ok true := by
  refine C134_crossing exReal_isExact _ _ ω fuel ?_ ⟨⟨0, 0⟩, ⟨2, 2⟩, .line⟩ ⟨⟨0, 2⟩, ⟨2, 0⟩, .line⟩ (by simp) (by simp) ?_ ?_ ?_
  · intro a ha b hb hne
    have key : ∀ q : Pt ℝ, q ∈ Ends ([⟨⟨0, 0⟩, ⟨2, 2⟩, .line⟩, ⟨⟨2, 2⟩, ⟨4, 0⟩, .line⟩, ⟨⟨4, 0⟩, ⟨0, 0⟩, .line⟩] ++
        [⟨⟨0, 2⟩, ⟨2, 0⟩, .line⟩, ⟨⟨2, 0⟩, ⟨1, 5⟩, .line⟩, ⟨⟨1, 5⟩, ⟨0, 2⟩, .line⟩]) →
        q = ⟨0, 0⟩ ∨ q = ⟨2, 2⟩ ∨ q = ⟨4, 0⟩ ∨ q = ⟨0, 2⟩ ∨ q = ⟨2, 0⟩ ∨ q = ⟨1, 5⟩ := by
      rintro q ⟨s, hs, hq⟩
      simp only [List.cons_append, List.nil_append, List.mem_cons, List.not_mem_nil, or_false] at hs
      rcases hs with rfl | rfl | rfl | rfl | rfl | rfl <;> rcases hq with rfl | rfl <;> simp
    rcases key a ha with rfl | rfl | rfl | rfl | rfl | rfl <;> rcases key b hb with rfl | rfl | rfl | rfl | rfl | rfl <;>
      first
        | exact absurd rfl hne
        | (left; norm_num; done)
        | (right; norm_num; done)
  · norm_num [CommonEnd]
  · norm_num
  · exact ⟨⟨1, 1⟩, ⟨1 / 2, by norm_num, by norm_num, by norm_num [lerp]⟩, ⟨1 / 2, by norm_num, by norm_num, by norm_num [lerp]⟩⟩

end Srep
