import Verif.Props.RaySide
import Verif.Lemmas.Order

/-! The answer of `is_internal_point` depends only on the drawing (C93): not on the order, the direction and the class of
the sides. -/

set_option linter.unusedSectionVars false

namespace Srep
open Rt Ray
variable {K : Type} [Field K] [LinearOrder K] [IsStrictOrderedRing K] [FloorRing K] {R : Rt K}

theorem SameEdge.symm {s o : Seg K} (h : SameEdge s o) : SameEdge o s := by
  rcases h with ⟨a, b⟩ | ⟨a, b⟩
  · exact Or.inl ⟨a.symm, b.symm⟩
  · exact Or.inr ⟨b.symm, a.symm⟩

theorem SameEdge.trans {s o u : Seg K} (h : SameEdge s o) (h' : SameEdge o u) : SameEdge s u := by
  rcases h with ⟨a, b⟩ | ⟨a, b⟩ <;> rcases h' with ⟨c, d⟩ | ⟨c, d⟩
  · exact Or.inl ⟨a.trans c, b.trans d⟩
  · exact Or.inr ⟨a.trans c, b.trans d⟩
  · exact Or.inr ⟨a.trans d, b.trans c⟩
  · exact Or.inl ⟨a.trans d, b.trans c⟩

theorem SameEdge.refl (s : Seg K) : SameEdge s s := Or.inl ⟨rfl, rfl⟩

theorem SameDrawing.refl (l : List (Seg K)) : SameDrawing l l :=
  ⟨l, List.Perm.refl _, List.forall₂_same.2 fun s _ => SameEdge.refl s⟩

theorem sameDrawing_mem {l m : List (Seg K)} (h : SameDrawing l m) {s : Seg K} (hs : s ∈ l) : ∃ o ∈ m, SameEdge s o := by
  obtain ⟨l', hp, hf⟩ := h
  have hs' := hp.mem_iff.2 hs
  clear hp hs
  induction hf with
  | nil => simp at hs'
  | cons h _ ih =>
    rcases List.mem_cons.1 hs' with rfl | hs'
    · exact ⟨_, List.mem_cons_self, h⟩
    · obtain ⟨o, ho, hso⟩ := ih hs'
      exact ⟨o, List.mem_cons_of_mem _ ho, hso⟩

theorem GoodTarget.draw {l m : List (Seg K)} (h : SameDrawing l m) {p t : Pt K} (g : GoodTarget m p t) : GoodTarget l p t where
  right := g.right
  beyond := by
    intro s hs
    obtain ⟨o, ho, h | h⟩ := sameDrawing_mem h hs
    · rw [h.1, h.2]; exact g.beyond o ho
    · rw [h.1, h.2]; exact (g.beyond o ho).symm
  noVertex := by
    intro s hs
    obtain ⟨o, ho, h | h⟩ := sameDrawing_mem h hs
    · rw [h.1, h.2]; exact g.noVertex o ho
    · rw [h.1, h.2]; exact (g.noVertex o ho).symm
  clear := by
    intro s hs X h1 h2
    obtain ⟨o, ho, h | h⟩ := sameDrawing_mem h hs
    · unfold OnSeg
      rw [h.1, h.2] at h2 ⊢
      exact g.clear o ho X h1 h2
    · unfold OnSeg FarFromBox
      rw [h.1, h.2] at h2 ⊢
      have := g.clear o ho X h1 (onLine_symm.1 h2)
      unfold OnSeg FarFromBox at this
      rw [between_symm (a := o.j), min_comm o.j.x, max_comm o.j.x, min_comm o.j.y, max_comm o.j.y]
      exact this

theorem Spread.draw {l m : List (Seg K)} (h : SameDrawing l m) {p t : Pt K} (g : Spread m p t) : Spread l p t := by
  have key : ∀ q, (q = p ∨ q = t ∨ ∃ s ∈ l, q = s.i ∨ q = s.j) → (q = p ∨ q = t ∨ ∃ s ∈ m, q = s.i ∨ q = s.j) := by
    rintro q (e | e | ⟨s, hs, e⟩)
    · exact Or.inl e
    · exact Or.inr (Or.inl e)
    · obtain ⟨o, ho, h | h⟩ := sameDrawing_mem h hs
      · rw [h.1, h.2] at e; exact Or.inr (Or.inr ⟨o, ho, e⟩)
      · rw [h.1, h.2] at e; exact Or.inr (Or.inr ⟨o, ho, e.symm⟩)
  intro a ha b hb
  exact g a (key a ha) b (key b hb)

theorem noDouble_draw {l m : List (Seg K)} (h : SameDrawing l m) (hm : NoDouble m) : NoDouble l := by
  obtain ⟨l', hp, hf⟩ := h
  refine (hp.pairwise_iff (fun h => fun h' => h h'.symm)).1 ?_
  clear hp
  unfold NoDouble at hm
  induction hf with
  | nil => exact List.Pairwise.nil
  | @cons a b l₁ l₂ h hf ih =>
    rw [List.pairwise_cons] at hm ⊢
    refine ⟨?_, ih hm.2⟩
    intro x hx hc
    obtain ⟨o, ho, hxo⟩ := sameDrawing_mem ⟨l₁, List.Perm.refl _, hf⟩ hx
    exact hm.1 o ho (h.symm.trans (hc.trans hxo))

theorem meet_sameEdge {p t : Pt K} {s o : Seg K} (h : SameEdge s o) : Meet p t s ↔ Meet p t o := by
  unfold Meet OnSeg
  rcases h with h | h
  · rw [h.1, h.2]
  · rw [h.1, h.2]
    simp only [between_symm (a := o.j) (b := o.i)]

open Classical in
theorem meetCount_draw {l m : List (Seg K)} (h : SameDrawing l m) (p t : Pt K) : meetCount l p t = meetCount m p t := by
  obtain ⟨l', hp, hf⟩ := h
  unfold meetCount
  rw [← (hp.filter _).length_eq]
  clear hp
  induction hf with
  | nil => rfl
  | @cons a b l₁ l₂ h hf ih =>
    by_cases hb : Meet p t b
    · rw [List.filter_cons_of_pos (by simpa using (meet_sameEdge h).2 hb), List.filter_cons_of_pos (by simpa using hb)]
      simp only [List.length_cons]
      rw [ih]
    · rw [List.filter_cons_of_neg (by simpa using fun h' => hb ((meet_sameEdge h).1 h')),
        List.filter_cons_of_neg (by simpa using hb)]
      exact ih

/-- no side is listed twice in the same direction -/
def NoTwice (l : List (Seg K)) : Prop := l.Pairwise fun a b => ¬ (a.i = b.i ∧ a.j = b.j)

theorem NoDouble.noTwice {l : List (Seg K)} (h : NoDouble l) : NoTwice l := h.imp fun h h' => h (Or.inl h')

theorem sset_noTwice (hE : R.IsExact) {l : List (Seg K)} {p t : Pt K} (hs : Spread l p t) (hnd : NoTwice l) : R.sset l = l := by
  apply sset_self
  refine hnd.imp_of_mem ?_
  intro a b ha hb hne
  rw [Bool.eq_false_iff]
  intro h
  unfold Rt.seq at h
  rw [Bool.and_eq_true, Bool.and_eq_true] at h
  refine hne ⟨?_, ?_⟩
  · exact peq_eq hE hs (Or.inr (Or.inr ⟨a, ha, Or.inl rfl⟩)) (Or.inr (Or.inr ⟨b, hb, Or.inl rfl⟩)) h.1.2
  · exact peq_eq hE hs (Or.inr (Or.inr ⟨a, ha, Or.inr rfl⟩)) (Or.inr (Or.inr ⟨b, hb, Or.inr rfl⟩)) h.2

open Classical in
theorem crossCount_noTwice (hE : R.IsExact) {l : List (Seg K)} {p t : Pt K} (hs : Spread l p t) (hnd : NoTwice l)
    (hg : GoodTarget l p t) : R.crossCount l p t = meetCount l p t := by
  unfold Rt.crossCount meetCount
  rw [sset_noTwice hE hs hnd]
  congr 1
  apply List.filter_congr
  intro s hsl
  obtain ⟨d1, d2⟩ := hg.noVertex s hsl
  have hpi : p ≠ s.i := by rintro e; rw [← e, det3_self] at d1; exact d1 rfl
  have hpj : p ≠ s.j := by rintro e; rw [← e, det3_self] at d2; exact d2 rfl
  have hti : t ≠ s.i := by rintro e; rw [← e, det3_self'] at d1; exact d1 rfl
  have htj : t ≠ s.j := by rintro e; rw [← e, det3_self'] at d2; exact d2 rfl
  have ht := touch_false (R := R) (s := ⟨p, t, .line⟩) (o := s) hE hs (Or.inl rfl) (Or.inr (Or.inl rfl))
    (Or.inr (Or.inr ⟨s, hsl, Or.inl rfl⟩)) (Or.inr (Or.inr ⟨s, hsl, Or.inr rfl⟩)) hpi hpj hti htj
  rw [Bool.eq_iff_iff, ios_iff_meet hE ht d1 (hg.clear s hsl), decide_eq_true_eq]

/-- in a convex polygon of at least three sides no side is drawn twice -/
theorem ConvexCcw.noDouble {l : List (Seg K)} (hc : ConvexCcw l) (h3 : 3 ≤ l.length) : NoDouble l := by
  unfold NoDouble
  rw [List.pairwise_iff_getElem]
  intro a b ha hb hab h
  rcases h with ⟨e, -⟩ | ⟨e1, e2⟩
  · have := List.nodup_iff_injective_getElem.1 hc.nodup
    have h2 := @this ⟨a, by simpa using ha⟩ ⟨b, by simpa using hb⟩ (by simpa using e)
    simp at h2
    omega
  · have inj : ∀ x (hx : x < l.length) y (hy : y < l.length), l[x].i = l[y].i → x = y := by
      intro x hx y hy e
      have h0 := List.nodup_iff_injective_getElem.1 hc.nodup
      have h2 := @h0 ⟨x, by simpa using hx⟩ ⟨y, by simpa using hy⟩ (by simpa using e)
      simpa using h2
    have c1 := hc.chain a ha
    have c2 := hc.chain b hb
    have m1 : (a + 1) % l.length < l.length := Nat.mod_lt _ (by omega)
    have m2 : (b + 1) % l.length < l.length := Nat.mod_lt _ (by omega)
    have i1 := inj _ m1 b hb (by rw [← c1, e2])
    have i2 := inj _ m2 a ha (by rw [← c2, ← e1])
    rw [Nat.mod_eq_of_lt (by omega)] at i1
    by_cases h : b + 1 < l.length
    · rw [Nat.mod_eq_of_lt h] at i2; omega
    · have : b + 1 = l.length := by omega
      rw [this, Nat.mod_self] at i2
      omega

/-- C93: let `m` be a closed polygon no side of which is drawn twice, and `l` the same sides in any order, each passed in
any direction.  For a point on no side and targets in general position the answer for `l` is the parity of the number of
sides of `m` met on the way to any such target. -/
theorem C93_drawing (hE : R.IsExact) (l m : List (Seg K)) (hd : SameDrawing l m) (hc : ClosedChain m) (hnd : NoDouble m)
    (p : Pt K) (hoff : ∀ s ∈ m, ¬ OnSeg s p) (ω : ℕ → Pt K) (hω : ∀ k < 3, GoodTarget m p (ω k) ∧ Spread m p (ω k))
    (t : Pt K) (ht : GoodTarget m p t) (fuel : ℕ) :
    R.plInternal l p ω (fuel + 1) = some (decide (meetCount m p t % 2 = 1)) := by
  apply plInternal_first
  · exact not_vertex hE ((hω 0 (by omega)).2.draw hd) ((hω 0 (by omega)).1.draw hd)
  · intro k hk
    obtain ⟨g, sp⟩ := hω k hk
    rw [crossCount_noTwice hE (sp.draw hd) (noDouble_draw hd hnd).noTwice (g.draw hd), meetCount_draw hd,
      meetCount_eq_rayCount g hoff, meetCount_eq_rayCount ht hoff]
    exact rayCount_parity hc g.right ht.right ⟨g.noVertex, hoff⟩ ⟨ht.noVertex, hoff⟩

/-- C93: True for every point strictly inside of a strictly convex polygon of at least three sides, however its sides
are listed. -/
theorem C93_inside (hE : R.IsExact) (l m : List (Seg K)) (hd : SameDrawing l m) (hc : ConvexCcw m) (h3 : 3 ≤ m.length)
    (p : Pt K) (hp : InsideCcw m p) (ω : ℕ → Pt K) (hω : ∀ k < 3, GoodTarget m p (ω k) ∧ Spread m p (ω k)) (fuel : ℕ) :
    R.plInternal l p ω (fuel + 1) = some true := by
  have hoff := not_onSeg_of_inside hp
  have g := (hω 0 (by omega)).1
  have h := C93_drawing hE l m hd hc.chain (hc.noDouble h3) p hoff ω hω (ω 0) g fuel
  have hne : m ≠ [] := by rintro rfl; simp at h3
  rwa [meetCount_eq_rayCount g hoff, rayCount_inside hc hne g.right g.noVertex hp] at h

/-- C93: … and False for every point strictly outside. -/
theorem C93_outside (hE : R.IsExact) (l m : List (Seg K)) (hd : SameDrawing l m) (hc : ConvexCcw m) (h3 : 3 ≤ m.length)
    (p : Pt K) (hp : OutsideCcw m p) (ω : ℕ → Pt K) (hω : ∀ k < 3, GoodTarget m p (ω k) ∧ Spread m p (ω k)) (fuel : ℕ) :
    R.plInternal l p ω (fuel + 1) = some false := by
  have hoff := not_onSeg_of_outside hc hp
  have g := (hω 0 (by omega)).1
  have h := C93_drawing hE l m hd hc.chain (hc.noDouble h3) p hoff ω hω (ω 0) g fuel
  rwa [meetCount_eq_rayCount g hoff, rayCount_outside hc g.noVertex hp] at h

/-! ### sides that are drawn twice -/

theorem smem_self (hR : R.IsRounding) {s : Seg K} {d : List (Seg K)} (h : s ∈ d) : R.smem s d = true := by
  unfold Rt.smem
  rw [List.any_eq_true]
  exact ⟨s, h, by simp [hR.seq_refl]⟩

/-- C93: a side listed a second time in the same direction does not count: the answer stays the same. -/
theorem C93_twice (hE : R.IsExact) (l : List (Seg K)) (hnd : NoDouble l) (s : Seg K) (hs : s ∈ l) (p : Pt K)
    (ω : ℕ → Pt K) (t : Pt K) (ht : GoodTarget l p t ∧ Spread l p t) (fuel : ℕ) :
    R.plInternal (l ++ [s]) p ω fuel = R.plInternal l p ω fuel := by
  have hmem : ∀ o, o ∈ l ++ [s] ↔ o ∈ l := by
    intro o
    rw [List.mem_append, List.mem_singleton]
    constructor
    · rintro (h | rfl)
      · exact h
      · exact hs
    · exact Or.inl
  have g' : GoodTarget (l ++ [s]) p t := ⟨ht.1.right, fun o ho => ht.1.beyond o ((hmem o).1 ho),
    fun o ho => ht.1.noVertex o ((hmem o).1 ho), fun o ho => ht.1.clear o ((hmem o).1 ho)⟩
  have s' : Spread (l ++ [s]) p t := by
    unfold Spread
    simp only [hmem]
    exact ht.2
  have hset : R.sset (l ++ [s]) = R.sset l := by
    have h0 : R.sset l = l := sset_noTwice hE ht.2 hnd.noTwice
    have h1 : R.sset (l ++ [s]) = if R.smem s (R.sset l) then R.sset l else R.sset l ++ [s] := by
      unfold Rt.sset
      rw [List.foldl_append]
      rfl
    rw [h1, h0, if_pos (smem_self hE.isRounding hs)]
  have hloop : ∀ k, R.internalLoop (l ++ [s]) p ω fuel k = R.internalLoop l p ω fuel k := by
    induction fuel with
    | zero => intro k; rfl
    | succ f ih =>
      intro k
      unfold Rt.internalLoop Rt.crossCount
      rw [hset]
      dsimp only
      rw [ih (k + 1)]
  unfold Rt.plInternal
  rw [not_vertex hE s' g', not_vertex hE ht.2 ht.1, hloop]

/-- the segment passed in the opposite direction -/
def backwards (s : Seg K) : Seg K := ⟨s.j, s.i, s.cls⟩

/-- C93: a side listed a second time in the opposite direction counts twice.  The answer becomes False for every point
strictly inside if all targets are seen through that side. -/
theorem C93_turned (hE : R.IsExact) (l : List (Seg K)) (hc : ConvexCcw l) (h3 : 3 ≤ l.length) (s : Seg K) (hs : s ∈ l)
    (hne : s.i ≠ s.j) (p : Pt K) (hp : InsideCcw l p) (ω : ℕ → Pt K)
    (hω : ∀ k < 3, GoodTarget l p (ω k) ∧ Spread l p (ω k) ∧ Meet p (ω k) s) (fuel : ℕ) :
    R.plInternal (l ++ [backwards s]) p ω (fuel + 1) = some false := by
  have hg : ∀ k < 3, GoodTarget (l ++ [backwards s]) p (ω k) ∧ Spread (l ++ [backwards s]) p (ω k) := by
    intro k hk
    obtain ⟨g, sp, -⟩ := hω k hk
    have g1 := g.flip
    have hm : backwards s ∈ oppositeWay l := mem_oppositeWay.2 hs
    have hmem : ∀ o, o ∈ l ++ [backwards s] → o ∈ l ∨ o = backwards s := by
      intro o ho
      rcases List.mem_append.1 ho with h | h
      · exact Or.inl h
      · exact Or.inr (List.mem_singleton.1 h)
    refine ⟨⟨g.right, ?_, ?_, ?_⟩, ?_⟩
    · intro o ho
      rcases hmem o ho with h | rfl
      · exact g.beyond o h
      · exact g1.beyond _ hm
    · intro o ho
      rcases hmem o ho with h | rfl
      · exact g.noVertex o h
      · exact g1.noVertex _ hm
    · intro o ho
      rcases hmem o ho with h | rfl
      · exact g.clear o h
      · exact g1.clear _ hm
    · have key : ∀ q, (q = p ∨ q = ω k ∨ ∃ o ∈ l ++ [backwards s], q = o.i ∨ q = o.j) →
          (q = p ∨ q = ω k ∨ ∃ o ∈ l, q = o.i ∨ q = o.j) := by
        rintro q (e | e | ⟨o, ho, e⟩)
        · exact Or.inl e
        · exact Or.inr (Or.inl e)
        · rcases hmem o ho with h | rfl
          · exact Or.inr (Or.inr ⟨o, h, e⟩)
          · exact Or.inr (Or.inr ⟨s, hs, e.symm⟩)
      intro a ha b hb
      exact sp a (key a ha) b (key b hb)
  have hnt : NoTwice (l ++ [backwards s]) := by
    unfold NoTwice
    rw [List.pairwise_append]
    refine ⟨(hc.noDouble h3).noTwice, List.pairwise_singleton _ _, ?_⟩
    intro a ha b hb hab
    rw [List.mem_singleton] at hb
    subst hb
    have nd := List.pairwise_iff_getElem.1 (hc.noDouble h3)
    obtain ⟨x, hx, rfl⟩ := List.getElem_of_mem ha
    obtain ⟨y, hy, rfl⟩ := List.getElem_of_mem hs
    rcases lt_trichotomy x y with h | h | h
    · exact nd x y hx hy h (Or.inr hab)
    · subst h; exact hne hab.1
    · exact nd y x hy hx h (Or.inr ⟨hab.2.symm, hab.1.symm⟩)
  apply plInternal_first (c := 2)
  · exact not_vertex hE (hg 0 (by omega)).2 (hg 0 (by omega)).1
  · intro k hk
    obtain ⟨g, sp⟩ := hg k hk
    obtain ⟨g0, -, hm⟩ := hω k hk
    rw [crossCount_noTwice hE sp hnt g]
    have h1 : meetCount (l ++ [backwards s]) p (ω k) = meetCount l p (ω k) + 1 := by
      classical
      unfold meetCount
      rw [List.filter_append, List.length_append, List.filter_cons_of_pos]
      · rfl
      · exact decide_eq_true ((meet_flip p (ω k) s).2 hm)
    rw [h1, meetCount_eq_rayCount g0 (not_onSeg_of_inside hp), rayCount_inside hc (by rintro rfl; simp at hs) g0.right g0.noVertex hp]

/-! ### a concrete case -/

/-- the sides of the square in another order, two of them turned -/
def sq12s : List (Seg ℝ) :=
  [⟨⟨2, 2⟩, ⟨2, 1⟩, .wall⟩, ⟨⟨1, 2⟩, ⟨1, 1⟩, .line⟩, ⟨⟨1, 1⟩, ⟨2, 1⟩, .nonWall⟩, ⟨⟨1, 2⟩, ⟨2, 2⟩, .wall⟩]

theorem sq12s_drawing : SameDrawing sq12s sq12 := by
  refine ⟨[⟨⟨1, 1⟩, ⟨2, 1⟩, .nonWall⟩, ⟨⟨2, 2⟩, ⟨2, 1⟩, .wall⟩, ⟨⟨1, 2⟩, ⟨2, 2⟩, .wall⟩, ⟨⟨1, 2⟩, ⟨1, 1⟩, .line⟩], ?_, ?_⟩
  · unfold sq12s
    rw [List.perm_iff_count]
    intro a
    simp only [List.count_cons, List.count_nil]
    omega
  · unfold sq12
    refine .cons (Or.inl ⟨rfl, rfl⟩) (.cons (Or.inr ⟨rfl, rfl⟩) (.cons (Or.inr ⟨rfl, rfl⟩) (.cons (Or.inl ⟨rfl, rfl⟩) .nil)))

/-- the centre of the square is internal for the shuffled sides, and stays so if a side is repeated -/
example : exReal.plInternal sq12s ⟨3/2, 3/2⟩ (fun _ => ⟨11, 5⟩) 1 = some true ∧
    exReal.plInternal (sq12 ++ [⟨⟨2, 1⟩, ⟨2, 2⟩, .line⟩]) ⟨3/2, 3/2⟩ (fun _ => ⟨11, 5⟩) 1 = some true ∧
    exReal.plInternal (sq12 ++ [⟨⟨2, 2⟩, ⟨2, 1⟩, .line⟩]) ⟨3/2, 3/2⟩ (fun _ => ⟨11, 5⟩) 1 = some false := by
  obtain ⟨h1, h2, -, -, h3, h4⟩ := sq12_good
  refine ⟨?_, ?_, ?_⟩
  · exact C93_inside exReal_isExact sq12s sq12 sq12s_drawing h1 (by simp [sq12]) _ h2 _ (fun k _ => ⟨h3, h4⟩) 0
  · rw [C93_twice exReal_isExact sq12 (h1.noDouble (by simp [sq12])) _ (by simp [sq12]) _ _ ⟨11, 5⟩ ⟨h3, h4⟩ 1]
    exact (C84_inside exReal_isExact sq12 h1 (by simp [sq12]) _ h2 _ (fun k _ => ⟨h3, h4⟩) 0).1
  · refine C93_turned exReal_isExact sq12 h1 (by simp [sq12]) ⟨⟨2, 1⟩, ⟨2, 2⟩, .line⟩ (by simp [sq12]) (by simp) _ h2 _
      (fun k _ => ⟨h3, h4, ⟨2, 32/19⟩, ⟨1/19, by norm_num, by norm_num, ?_⟩, ⟨13/19, by norm_num, by norm_num, ?_⟩⟩) 0
    · unfold lerp; norm_num
    · unfold lerp; norm_num

end Srep
