import Verif.Model.Ear
import Verif.Spec.Ear
import Verif.Props.Triangle
import Verif.Props.OrderCycle

/-! Lemmas about rings of segments and about one round of ear clipping. -/

set_option linter.unusedSectionVars false

namespace Srep
open Rt
variable {K : Type} [Field K] [LinearOrder K] [IsStrictOrderedRing K] [FloorRing K]

/-! ### Rings -/

theorem Sides.cons {h : Heap K} {p q : Pt K} {l : List (Pt K)} {τ : List ℕ} (hs : Sides h (p :: q :: l) τ) :
    ∃ s τ', τ = s :: τ' ∧ Joins (h.val s) p q ∧ Sides h (q :: l) τ' := by
  cases τ with
  | nil => exact hs.elim
  | cons s τ' => exact ⟨s, τ', rfl, hs.1, hs.2⟩

theorem Sides.single {h : Heap K} {p : Pt K} {τ : List ℕ} (hs : Sides h [p] τ) : τ = [] := by
  cases τ with
  | nil => rfl
  | cons s τ' => exact hs.elim

theorem Sides.snoc {h : Heap K} {p q : Pt K} {s : ℕ} (hj : Joins (h.val s) p q) : ∀ {u : List (Pt K)} {τ : List ℕ},
    Sides h (u ++ [p]) τ → Sides h (u ++ [p, q]) (τ ++ [s])
  | [], τ, hs => by
    rw [List.nil_append] at hs
    rw [hs.single]
    exact ⟨hj, trivial⟩
  | [a], τ, hs => by
    obtain ⟨t, τ', rfl, h1, h2⟩ := Sides.cons (l := []) hs
    rw [h2.single]
    exact ⟨h1, hj, trivial⟩
  | a :: b :: u, τ, hs => by
    obtain ⟨t, τ', rfl, h1, h2⟩ := Sides.cons hs
    exact ⟨h1, Sides.snoc hj (u := b :: u) h2⟩

theorem Sides.unsnoc {h : Heap K} {p q : Pt K} : ∀ {u : List (Pt K)} {τ : List ℕ},
    Sides h (u ++ [p, q]) τ → ∃ s τ', τ = τ' ++ [s] ∧ Joins (h.val s) p q ∧ Sides h (u ++ [p]) τ'
  | [], τ, hs => by
    obtain ⟨t, τ', rfl, h1, h2⟩ := Sides.cons (l := []) hs
    rw [h2.single]
    exact ⟨t, [], rfl, h1, trivial⟩
  | [a], τ, hs => by
    obtain ⟨t, τ', rfl, h1, h2⟩ := Sides.cons (l := [q]) hs
    obtain ⟨t', τ'', rfl, h3, h4⟩ := Sides.cons (l := []) h2
    rw [h4.single]
    exact ⟨t', [t], rfl, h3, h1, trivial⟩
  | a :: b :: u, τ, hs => by
    obtain ⟨t, τ', rfl, h1, h2⟩ := Sides.cons hs
    obtain ⟨s, τ'', rfl, h3, h4⟩ := Sides.unsnoc (u := b :: u) h2
    exact ⟨s, t :: τ'', rfl, h3, h1, h4⟩

/-- every segment joins two points of the list -/
theorem Sides.mem {h : Heap K} : ∀ {u : List (Pt K)} {τ : List ℕ}, Sides h u τ → u.Nodup → ∀ s ∈ τ,
    ∃ p ∈ u, ∃ q ∈ u, p ≠ q ∧ Joins (h.val s) p q
  | [], τ, hs, _, s, hm => by cases τ <;> exact hs.elim
  | [a], τ, hs, _, s, hm => by rw [hs.single] at hm; simp at hm
  | a :: b :: u, τ, hs, hn, s, hm => by
    obtain ⟨t, τ', rfl, h1, h2⟩ := hs.cons
    rcases List.mem_cons.1 hm with rfl | hm
    · refine ⟨a, by simp, b, by simp, ?_, h1⟩
      rintro rfl
      simp at hn
    · obtain ⟨p, hp, q, hq, hne, hj⟩ := Sides.mem h2 (List.nodup_cons.1 hn).2 s hm
      exact ⟨p, by simp [hp], q, by simp [hq], hne, hj⟩

/-- a longer open path has no side joining its ends -/
theorem Sides.not_ends {h : Heap K} {b c : Pt K} {u : List (Pt K)} (hu : u ≠ []) {τ : List ℕ}
    (hs : Sides h (b :: u ++ [c]) τ) (hn : (b :: u ++ [c]).Nodup) : ∀ s ∈ τ, ¬ Joins (h.val s) b c := by
  cases u with
  | nil => exact absurd rfl hu
  | cons d u =>
    obtain ⟨t, τ', rfl, h1, h2⟩ := Sides.cons hs
    intro s hm hj
    have hbm : b ∉ d :: u ++ [c] := (List.nodup_cons.1 hn).1
    have hn' : (d :: u ++ [c]).Nodup := (List.nodup_cons.1 hn).2
    have hcd : c ≠ d := by
      rintro rfl
      simp at hn'
    have hbd : b ≠ d := by
      rintro rfl
      simp at hbm
    have hbc : b ≠ c := by
      rintro rfl
      simp at hbm
    rcases List.mem_cons.1 hm with rfl | hm
    · unfold Joins at h1 hj
      aesop
    · obtain ⟨p, hp, q, hq, hne, hj'⟩ := Sides.mem h2 hn' s hm
      have hpb : p ≠ b := fun e => hbm (e ▸ hp)
      have hqb : q ≠ b := fun e => hbm (e ▸ hq)
      unfold Joins at hj' hj
      aesop

theorem PolygonOf.rotate {h : Heap K} {segs : List ℕ} : ∀ {u v : List (Pt K)}, PolygonOf h (u ++ v) segs →
    PolygonOf h (v ++ u) segs
  | [], v, hp => by simpa using hp
  | [a], [], hp => by simpa using hp
  | a :: b :: u, [], hp => by simpa using hp
  | [a], b :: v, hp => by
    obtain ⟨h1, h2, τ, h3, h4⟩ := hp
    obtain ⟨s, τ', rfl, h5, h6⟩ := Sides.cons (l := v ++ [a]) (by simpa using h4)
    refine ⟨(List.perm_append_comm.nodup_iff).1 h1, h2, τ' ++ [s], ?_, ?_⟩
    · exact h3.trans (List.perm_append_singleton _ _).symm
    · have := Sides.snoc h5 (u := b :: v) (by simpa using h6)
      simpa using this
  | a :: b :: u, c :: v, hp => by
    have h1 : PolygonOf h ([a] ++ (b :: u ++ c :: v)) segs := by simpa using hp
    obtain ⟨g1, g2, τ, g3, g4⟩ := h1
    obtain ⟨s, τ', rfl, h5, h6⟩ := Sides.cons (l := u ++ c :: v ++ [a]) (by simpa using g4)
    have h2 : PolygonOf h ((b :: u) ++ (c :: v ++ [a])) segs := by
      refine ⟨?_, g2, τ' ++ [s], g3.trans (List.perm_append_singleton _ _).symm, ?_⟩
      · have : ([a] ++ (b :: u ++ c :: v)).Perm ((b :: u) ++ (c :: v ++ [a])) := by
          have := List.perm_append_comm (l₁ := [a]) (l₂ := b :: u ++ c :: v)
          simpa using this
        exact this.nodup_iff.1 g1
      · have := Sides.snoc h5 (u := b :: u ++ c :: v) (by simpa using h6)
        simpa using this
    have := PolygonOf.rotate h2
    simpa using this

theorem PolygonOf.rotated {h : Heap K} {segs : List ℕ} {w w' : List (Pt K)} (hp : PolygonOf h w segs)
    (hr : w ~r w') : PolygonOf h w' segs := by
  obtain ⟨n, rfl⟩ := hr
  rcases Nat.eq_zero_or_pos w.length with e | e
  · rw [List.length_eq_zero_iff] at e
    subst e
    simpa using hp
  rw [← List.rotate_mod, List.rotate_eq_drop_append_take (Nat.mod_lt _ e).le]
  apply PolygonOf.rotate
  rwa [List.take_append_drop]

/-- the parts of a ring at the corner `a` -/
theorem PolygonOf.corner {h : Heap K} {segs : List ℕ} {a b c : Pt K} {u : List (Pt K)}
    (hp : PolygonOf h (a :: b :: u ++ [c]) segs) : ∃ s1 s2 τ, segs.Perm (s1 :: s2 :: τ) ∧ Joins (h.val s1) a b ∧
      Joins (h.val s2) c a ∧ Sides h (b :: u ++ [c]) τ := by
  obtain ⟨-, -, τ, h3, h4⟩ := hp
  obtain ⟨s1, τ', rfl, h5, h6⟩ := Sides.cons (l := u ++ [c] ++ [a]) (by simpa using h4)
  obtain ⟨s2, τ'', rfl, h7, h8⟩ := Sides.unsnoc (u := b :: u) (by simpa using h6)
  exact ⟨s1, s2, τ'', h3.trans (by simpa using (List.perm_append_singleton s2 τ'').cons s1), h5, h7, h8⟩

/-- a corner of a ring with at least three corners, put first -/
theorem rotate_to {w : List (Pt K)} (h3 : 3 ≤ w.length) {a : Pt K} (ha : a ∈ w) :
    ∃ b u c, w ~r a :: b :: u ++ [c] := by
  obtain ⟨x, y, rfl⟩ := List.append_of_mem ha
  have hr : (x ++ a :: y) ~r (a :: y ++ x) := by
    have := List.IsRotated.forall (x ++ a :: y) x.length
    rw [List.rotate_append_length_eq] at this
    exact this.symm
  have hl : 2 ≤ (y ++ x).length := by simp at h3 ⊢; omega
  generalize e : y ++ x = z at hl
  have e' : a :: y ++ x = a :: z := by rw [← e]; rfl
  rw [e'] at hr
  match z, hl with
  | b :: d :: z', _ =>
    refine ⟨b, (d :: z').dropLast, (d :: z').getLast (by simp), ?_⟩
    have : a :: b :: (d :: z').dropLast ++ [(d :: z').getLast (by simp)] = a :: b :: d :: z' := by
      simp only [List.cons_append]
      rw [List.dropLast_append_getLast]
    rw [this]
    exact hr

theorem PolygonOf.mem_ends {h : Heap K} {segs : List ℕ} {w : List (Pt K)} (hp : PolygonOf h w segs)
    (h3 : 3 ≤ w.length) : (∀ s ∈ segs, ∃ p ∈ w, ∃ q ∈ w, p ≠ q ∧ Joins (h.val s) p q) ∧
      ∀ p ∈ w, ∃ s ∈ segs, ∃ q, Joins (h.val s) p q := by
  constructor
  · have hw : w ≠ [] := by rintro rfl; simp at h3
    obtain ⟨b, u, c, hr⟩ := rotate_to h3 (a := w.head hw) (List.head_mem hw)
    have hp' := hp.rotated hr
    obtain ⟨s1, s2, τ, k1, k2, k3, k4⟩ := hp'.corner
    intro s hs
    have hmem : ∀ p, p ∈ w.head hw :: b :: u ++ [c] → p ∈ w := fun p => hr.mem_iff.2
    have hnd := hp'.1
    rw [List.cons_append, List.nodup_cons] at hnd
    have hab : w.head hw ≠ b := fun e => hnd.1 (by rw [e]; simp)
    have hac : w.head hw ≠ c := fun e => hnd.1 (by rw [e]; simp)
    have := k1.subset hs
    rcases List.mem_cons.1 this with rfl | this
    · exact ⟨_, hmem _ (by simp), _, hmem b (by simp), hab, k2⟩
    · rcases List.mem_cons.1 this with rfl | this
      · exact ⟨c, hmem _ (by simp), _, hmem _ (by simp), hac.symm, k3⟩
      · obtain ⟨p, m1, q, m2, m3, m4⟩ := Sides.mem k4 (by simpa using hnd.2) s this
        exact ⟨p, hmem p (by simp at m1 ⊢; tauto), q, hmem q (by simp at m2 ⊢; tauto), m3, m4⟩
  · intro p hpw
    obtain ⟨b, u, c, hr⟩ := rotate_to h3 hpw
    obtain ⟨s1, s2, τ, k1, k2, -⟩ := (hp.rotated hr).corner
    exact ⟨s1, k1.symm.subset (by simp), b, k2⟩

theorem Joins.ends {s : Seg K} {p q : Pt K} (h : Joins s p q) : (s.i = p ∨ s.i = q) ∧ (s.j = p ∨ s.j = q) := by
  unfold Joins at h; tauto

theorem Joins.symm {s : Seg K} {p q : Pt K} (h : Joins s p q) : Joins s q p := by
  unfold Joins at *; tauto

theorem PolygonOf.endPts {h : Heap K} {segs : List ℕ} {w : List (Pt K)} (hp : PolygonOf h w segs)
    (h3 : 3 ≤ w.length) (p : Pt K) : p ∈ endPts (h.vals segs) ↔ p ∈ w := by
  rw [mem_endPts]
  unfold Heap.vals
  constructor
  · rintro ⟨s, hs, he⟩
    obtain ⟨t, ht, rfl⟩ := List.mem_map.1 hs
    obtain ⟨a, ha, b, hb, -, hj⟩ := (hp.mem_ends h3).1 t ht
    rcases hj.ends with ⟨h1 | h1, h2 | h2⟩ <;> rcases he with rfl | rfl <;> simp_all
  · intro hpw
    obtain ⟨s, hs, q, hj⟩ := (hp.mem_ends h3).2 p hpw
    refine ⟨_, List.mem_map_of_mem hs, ?_⟩
    unfold Joins at hj
    rcases hj with hj | hj
    · exact Or.inl hj.1.symm
    · exact Or.inr hj.2.symm

theorem PolygonOf.pointSet {R : Rt K} (hR : R.IsRounding) {h : Heap K} {segs : List ℕ} {w : List (Pt K)}
    (hp : PolygonOf h w segs) (h3 : 3 ≤ w.length) (hs : R.Sep w) :
    (R.pointSet (h.vals segs)).length = w.length ∧ ∀ p ∈ R.pointSet (h.vals segs), p ∈ w := by
  have hs' : R.HashOK (Srep.endPts (h.vals segs)) := (hs.mono fun p hp' => (hp.endPts h3 p).1 hp').hashOK
  have hm : ∀ p, p ∈ R.pointSet (h.vals segs) ↔ p ∈ w := fun p => by
    rw [mem_pointSet hR hs', ← mem_endPts', hp.endPts h3]
  refine ⟨?_, fun p => (hm p).1⟩
  exact ((List.perm_ext_iff_of_nodup (nodup_pointSet hR hs') hp.1).2 hm).length_eq

/-! ### Neighbours -/

theorem perm_pair {l : List ℕ} {x y : ℕ} (h : l.Perm [x, y]) : l = [x, y] ∨ l = [y, x] := by
  match l, h with
  | [a, b], h =>
    have h1 : a = x ∨ a = y := by simpa using h.subset (List.mem_cons_self)
    rcases h1 with rfl | rfl
    · left
      have := (List.perm_cons a).1 h
      simpa using this
    · right
      have h2 : [a, b].Perm [a, x] := h.trans (List.Perm.swap _ _ _)
      have := (List.perm_cons a).1 h2
      simpa using this
  | [], h => simpa using h.length_eq
  | [_], h => simpa using h.length_eq
  | _ :: _ :: _ :: _, h => simpa using h.length_eq

/-- the segments at a corner -/
theorem corner_filter {R : Rt K} (hR : R.IsRounding) {h : Heap K} {segs : List ℕ} {a b c : Pt K} {u : List (Pt K)}
    (hn : (a :: b :: u ++ [c]).Nodup) (hs : R.Sep (a :: b :: u ++ [c])) {s1 s2 : ℕ} {τ : List ℕ}
    (hp : segs.Perm (s1 :: s2 :: τ)) (j1 : Joins (h.val s1) a b) (j2 : Joins (h.val s2) c a)
    (hS : Sides h (b :: u ++ [c]) τ) :
    (segs.filter fun s => R.onEnds a (h.val s)) = [s1, s2] ∨
      (segs.filter fun s => R.onEnds a (h.val s)) = [s2, s1] := by
  apply perm_pair
  refine (hp.filter _).trans ?_
  have e1 : R.onEnds a (h.val s1) = true := by
    unfold Rt.onEnds Joins at *
    rcases j1 with ⟨h1, h2⟩ | ⟨h1, h2⟩ <;> simp [h1, h2, hR.peq_refl]
  have e2 : R.onEnds a (h.val s2) = true := by
    unfold Rt.onEnds Joins at *
    rcases j2 with ⟨h1, h2⟩ | ⟨h1, h2⟩ <;> simp [h1, h2, hR.peq_refl]
  have hna := (List.nodup_cons.1 (show (a :: (b :: u ++ [c])).Nodup by simpa using hn))
  have e3 : τ.filter (fun s => R.onEnds a (h.val s)) = [] := by
    rw [List.filter_eq_nil_iff]
    intro s hm
    obtain ⟨p, hp, q, hq, -, hj⟩ := Sides.mem hS hna.2 s hm
    have f : ∀ r ∈ b :: u ++ [c], R.peq r a = false := by
      intro r hr
      rw [Bool.eq_false_iff, Ne, hs.peq_iff hR (by simp at hr ⊢; tauto) (by simp)]
      rintro rfl
      exact hna.1 hr
    unfold Rt.onEnds
    rcases hj with ⟨h1, h2⟩ | ⟨h1, h2⟩ <;> simp [h1, h2, f p hp, f q hq]
  simp only [List.filter_cons, e1, e2, e3, if_true]
  exact List.Perm.refl _

theorem nbRefs_corner {R : Rt K} (hR : R.IsRounding) {h : Heap K} {segs : List ℕ} {a b c : Pt K} {u : List (Pt K)}
    (hn : (a :: b :: u ++ [c]).Nodup) (hs : R.Sep (a :: b :: u ++ [c])) {s1 s2 : ℕ} {τ : List ℕ}
    (hp : segs.Perm (s1 :: s2 :: τ)) (j1 : Joins (h.val s1) a b) (j2 : Joins (h.val s2) c a)
    (hS : Sides h (b :: u ++ [c]) τ) :
    ∃ x y, R.nbRefs h segs a = [x, y] ∧ ((h.pt x = b ∧ h.pt y = c) ∨ (h.pt x = c ∧ h.pt y = b)) := by
  have pa : R.peq a a = true := hR.peq_refl a
  have hab : b ≠ a := by rintro rfl; simp at hn
  have hac : c ≠ a := by rintro rfl; simp at hn
  have pb : R.peq b a = false := by
    rw [Bool.eq_false_iff, Ne, hs.peq_iff hR (by simp) (by simp)]; exact hab
  have pc : R.peq c a = false := by
    rw [Bool.eq_false_iff, Ne, hs.peq_iff hR (by simp) (by simp)]; exact hac
  unfold Rt.nbRefs
  rcases corner_filter hR hn hs hp j1 j2 hS with e | e <;> rw [e] <;>
    rcases j1 with ⟨h1, h2⟩ | ⟨h1, h2⟩ <;> rcases j2 with ⟨h3, h4⟩ | ⟨h3, h4⟩ <;>
    simp only [List.filter_cons, List.filter_nil, h1, h2, h3, h4, pa, pb, pc, Bool.not_true, Bool.not_false,
      if_true, Bool.false_eq_true, if_false, List.map_cons, List.map_nil, List.nil_append, List.cons_append] <;>
    refine ⟨_, _, rfl, ?_⟩ <;> unfold Heap.val at h1 h2 h3 h4 <;> simp only at h1 h2 h3 h4 <;> simp [h1, h2, h3, h4]

theorem PolygonOf.two_neighbours {R : Rt K} (hR : R.IsRounding) {h : Heap K} {segs : List ℕ} {w : List (Pt K)}
    (hp : PolygonOf h w segs) (h3 : 3 ≤ w.length) (hs : R.Sep w) {p : Pt K} (hpw : p ∈ w) :
    (R.nbRefs h segs p).length = 2 := by
  obtain ⟨b, u, c, hr⟩ := rotate_to h3 hpw
  have hp' := hp.rotated hr
  obtain ⟨s1, s2, τ, k1, k2, k3, k4⟩ := hp'.corner
  obtain ⟨x, y, e, -⟩ := nbRefs_corner hR hp'.1 (hs.mono fun q hq => hr.mem_iff.2 hq) k1 k2 k3 k4
  rw [e]; rfl

/-! ### Memory -/

/-- segments may be turned round, not more; new ones may come -/
def Later (h h' : Heap K) : Prop :=
  h.nseg ≤ h'.nseg ∧ ∀ s < h.nseg, ∀ p q, Joins (h.val s) p q → Joins (h'.val s) p q

theorem Later.refl (h : Heap K) : Later h h := ⟨le_rfl, fun _ _ _ _ e => e⟩

theorem Later.trans {h h' h'' : Heap K} (a : Later h h') (b : Later h' h'') : Later h h'' :=
  ⟨a.1.trans b.1, fun s hs p q e => b.2 s (lt_of_lt_of_le hs a.1) p q (a.2 s hs p q e)⟩

theorem Later.sides {h h' : Heap K} (a : Later h h') : ∀ {u : List (Pt K)} {τ : List ℕ}, Sides h u τ →
    (∀ s ∈ τ, s < h.nseg) → Sides h' u τ
  | [], [], hs, _ => hs.elim
  | [], _ :: _, hs, _ => hs.elim
  | [p], τ, hs, _ => by rw [hs.single]; trivial
  | p :: q :: u, τ, hs, hl => by
    obtain ⟨t, τ', rfl, h1, h2⟩ := hs.cons
    exact ⟨a.2 t (hl t (by simp)) p q h1, a.sides h2 fun s hm => hl s (by simp [hm])⟩

theorem Later.polygonOf {h h' : Heap K} (a : Later h h') {w : List (Pt K)} {segs : List ℕ} (hp : PolygonOf h w segs)
    (hl : ∀ s ∈ segs, s < h.nseg) : PolygonOf h' w segs := by
  obtain ⟨h1, h2, τ, h3, h4⟩ := hp
  exact ⟨h1, h2, τ, h3, a.sides h4 fun s hm => hl s (h3.symm.subset hm)⟩

theorem Later.triangleOf {h h' : Heap K} (a : Later h h') {t : List ℕ} {c : Pt K × Pt K × Pt K}
    (hp : TriangleOf h t c) (hl : ∀ s ∈ t, s < h.nseg) : TriangleOf h' t c := by
  obtain ⟨τ, h3, h4⟩ := hp
  exact ⟨τ, h3, a.sides h4 fun s hm => hl s (h3.symm.subset hm)⟩

theorem later_newSeg (h : Heap K) (x y : ℕ) : Later h (h.newSeg x y).1 := by
  refine ⟨Nat.le_succ _, ?_⟩
  intro s hs p q e
  have : (h.newSeg x y).1.val s = h.val s := by
    simp [Heap.newSeg, Heap.val, Function.update_apply, hs.ne]
  rwa [this]

theorem newSeg_val (h : Heap K) (x y : ℕ) : (h.newSeg x y).1.val h.nseg = ⟨h.pt x, h.pt y, .line⟩ := by
  simp [Heap.newSeg, Heap.val]

theorem later_purge {R : Rt K} (hR : R.IsRounding) {h : Heap K} {P : PLine} {w : List (Pt K)} (hs : R.Sep w)
    (hm : ∀ s ∈ P.segs, ∃ p ∈ w, ∃ q ∈ w, p ≠ q ∧ Joins (h.val s) p q) :
    Later h (R.purge h P).1 ∧ (R.purge h P).2.segs = P.segs ∧ (R.purge h P).1.nseg = h.nseg ∧
      ∀ s, (R.purge h P).1.val s = h.val s := by
  by_cases hpu : P.purged = true
  · have : R.purge h P = (h, P) := by unfold Rt.purge; rw [if_pos hpu]
    rw [this]
    exact ⟨Later.refl h, rfl, rfl, fun _ => rfl⟩
  · obtain ⟨h1, h2, h3, h4, h5, -⟩ := purge_spec hR (P := P) (h := h) (by simpa using hpu)
      (hs.mono (by
        intro p hp
        obtain ⟨s, hs', he⟩ := mem_endPts.1 hp
        obtain ⟨t, ht, rfl⟩ := List.mem_map.1 hs'
        obtain ⟨a, ha, b, hb, -, hj⟩ := hm t ht
        rcases hj.ends with ⟨h1 | h1, h2 | h2⟩ <;> rcases he with rfl | rfl <;> simp_all))
      (by
        intro s hs'
        obtain ⟨a, ha, b, hb, hne, hj⟩ := hm s hs'
        rcases hj with ⟨h1, h2⟩ | ⟨h1, h2⟩ <;> rw [h1, h2]
        · exact hne
        · exact hne.symm)
    refine ⟨⟨h4.ge, fun s _ p q e => by rwa [h5]⟩, by rw [h1], h4, h5⟩

theorem later_order {R : Rt K} (hR : R.IsRounding) (h : Heap K) (P : PLine) {h' : Heap K} {l : List ℕ}
    (e : R.order h P = .done h' l) : Later h h' ∧ h'.nseg = h.nseg := by
  have := C48_only_reverses hR h P
  simp only [e, Rt.OrderRes.heap] at this
  obtain ⟨h1, h2, h3, h4, h5⟩ := this
  refine ⟨⟨h3.ge, ?_⟩, h3⟩
  intro s _ p q hj
  unfold Joins Heap.val at *
  rcases h5 s with e | e <;> simp only [e, h1] at * <;> tauto

/-! ### The triangle -/

theorem isCycleOf_three {h : Heap K} {x y z : ℕ} {p q r : Pt K} (hxy : x ≠ y) (hyz : y ≠ z) (hzx : z ≠ x)
    (hpq : p ≠ q) (hqr : q ≠ r) (hrp : r ≠ p) (jx : Joins (h.val x) p q) (jy : Joins (h.val y) q r)
    (jz : Joins (h.val z) r p) :
    IsCycleOf h [x, y, z] 3 (![p, q, r] : Fin 3 → Pt K) (![x, y, z] : Fin 3 → ℕ) := by
  refine ⟨le_rfl, ?_, ?_, ?_, ?_, ?_⟩
  · intro i j e
    fin_cases i <;> fin_cases j <;> first | rfl | simp_all
  · intro i j e
    fin_cases i <;> fin_cases j <;> first | rfl | simp_all
  · simp [hxy, hyz, hzx.symm]
  · intro s
    constructor
    · intro hs
      simp only [List.mem_cons, List.not_mem_nil, or_false] at hs
      rcases hs with rfl | rfl | rfl
      · exact ⟨(0 : Fin 3), rfl⟩
      · exact ⟨(1 : Fin 3), rfl⟩
      · exact ⟨(2 : Fin 3), rfl⟩
    · rintro ⟨k, rfl⟩
      fin_cases k <;> simp
  · intro k
    fin_cases k
    · exact jx
    · exact jy
    · exact jz

theorem triangleNew_spec {R : Rt K} (hR : R.IsRounding) {h : Heap K} {x y z : ℕ} {p q r : Pt K}
    (hap : Apart R.tol {t | t = p ∨ t = q ∨ t = r}) (hxy : x ≠ y) (hyz : y ≠ z) (hzx : z ≠ x)
    (hpq : p ≠ q) (hqr : q ≠ r) (hrp : r ≠ p) (jx : Joins (h.val x) p q) (jy : Joins (h.val y) q r)
    (jz : Joins (h.val z) r p) : ∃ h' l, l.Perm [x, y, z] ∧ Later h h' ∧ h'.nseg = h.nseg ∧ ClosedChain (h'.vals l) ∧
      (R.triangleNew h [x, y, z]).1 = h' ∧ (∀ T, (R.triangleNew h [x, y, z]).2 = .ok T → T.segs = l) ∧
      (R.isTriangle (h'.vals l) = .ok true → ∃ T, (R.triangleNew h [x, y, z]).2 = .ok T) := by
  have hsep : R.Sep [p, q, r] := sep_of_apart hR (by
    have : {t | t ∈ [p, q, r]} = {t | t = p ∨ t = q ∨ t = r} := by ext t; simp
    rw [this]; exact hap)
  have hm : ∀ s ∈ [x, y, z], ∃ a ∈ [p, q, r], ∃ b ∈ [p, q, r], a ≠ b ∧ Joins (h.val s) a b := by
    intro s hs
    simp only [List.mem_cons, List.not_mem_nil, or_false] at hs
    rcases hs with rfl | rfl | rfl
    · exact ⟨p, by simp, q, by simp, hpq, jx⟩
    · exact ⟨q, by simp, r, by simp, hqr, jy⟩
    · exact ⟨r, by simp, p, by simp, hrp, jz⟩
  obtain ⟨k1, k2, k3, k4⟩ := later_purge hR (P := ⟨[x, y, z], false⟩) hsep hm
  unfold Rt.triangleNew
  generalize R.purge h ⟨[x, y, z], false⟩ = P at *
  have c := isCycleOf_three hxy hyz hzx hpq hqr hrp (k4 x ▸ jx) (k4 y ▸ jy) (k4 z ▸ jz)
  have k2' : P.2.segs = [x, y, z] := k2
  rw [← k2'] at c
  obtain ⟨h', l, e1, e2, e3, e4⟩ := C76_restores_cycle hR P.1 P.2 3 _ _ c (by
    intro s hs t ht
    refine hap s ?_ t ?_
    · obtain ⟨v, hv, he⟩ := hs
      rw [k2'] at hv
      obtain ⟨a, ha, b, hb, -, hj⟩ := hm v hv
      rw [k4] at he
      simp only [List.mem_cons, List.not_mem_nil, or_false] at ha hb
      rcases hj.ends with ⟨h1 | h1, h2 | h2⟩ <;> rcases he with rfl | rfl <;> simp_all
    · obtain ⟨v, hv, he⟩ := ht
      rw [k2'] at hv
      obtain ⟨a, ha, b, hb, -, hj⟩ := hm v hv
      rw [k4] at he
      simp only [List.mem_cons, List.not_mem_nil, or_false] at ha hb
      rcases hj.ends with ⟨h1 | h1, h2 | h2⟩ <;> rcases he with rfl | rfl <;> simp_all) (by rw [k2']; simp)
  obtain ⟨m1, m2⟩ := later_order hR P.1 P.2 e1
  refine ⟨h', l, k2' ▸ e2, k1.trans m1, m2.trans k3, e3, ?_, ?_, ?_⟩ <;> simp only [e1]
  · cases R.isTriangle (h'.vals l) with
    | error e => rfl
    | ok b => cases b <;> rfl
  · intro T hT
    cases hi : R.isTriangle (h'.vals l) with
    | error e => rw [hi] at hT; cases hT
    | ok b =>
      rw [hi] at hT
      cases b
      · cases hT
      · cases hT; rfl
  · intro hi
    rw [hi]
    exact ⟨_, rfl⟩

/-- three segments, in any order, joining three points pairwise -/
theorem triArea_perm {R : Rt K} (hE : R.IsExact) {h : Heap K} {l : List ℕ} {x y z : ℕ} {p q r : Pt K}
    (hl : l.Perm [x, y, z]) (jx : Joins (h.val x) p q) (jy : Joins (h.val y) q r)
    (jz : Joins (h.val z) r p) : R.triArea (h.vals l) = .ok (|det3 p q r| / 2) := by
  have e1 : |det3 q r p| = |det3 p q r| := by congr 1; unfold det3; ring
  have e2 : |det3 r p q| = |det3 p q r| := by congr 1; unfold det3; ring
  have e3 : |det3 q p r| = |det3 p q r| := by rw [← abs_neg]; congr 1; unfold det3; ring
  have e4 : |det3 p r q| = |det3 p q r| := by rw [← abs_neg]; congr 1; unfold det3; ring
  have e5 : |det3 r q p| = |det3 p q r| := by rw [← abs_neg]; congr 1; unfold det3; ring
  have hmem := List.mem_permutations.2 hl
  have : l = [x, y, z] ∨ l = [y, x, z] ∨ l = [z, y, x] ∨ l = [y, z, x] ∨ l = [z, x, y] ∨ l = [x, z, y] := by
    simpa [List.permutations, List.permutationsAux, List.permutationsAux.rec, List.permutationsAux2] using hmem
  rcases this with rfl | rfl | rfl | rfl | rfl | rfl <;> unfold Rt.triArea <;> simp only [Heap.vals, List.map_cons,
    List.map_nil]
  · exact C57_area hE p q r _ _ _ jx jy jz
  · rw [C57_area hE r q p _ _ _ jy.symm jx.symm jz.symm, e5]
  · rw [C57_area hE p r q _ _ _ jz.symm jy.symm jx.symm, e4]
  · rw [C57_area hE q r p _ _ _ jy jz jx, e1]
  · rw [C57_area hE r p q _ _ _ jz jx jy, e2]
  · rw [C57_area hE q p r _ _ _ jx.symm jz.symm jy.symm, e3]

theorem isTriangle_of {R : Rt K} (hE : R.IsExact) {h : Heap K} {l : List ℕ} {x y z : ℕ} {p q r : Pt K}
    (hap : Apart R.tol {t | t = p ∨ t = q ∨ t = r})
    (hpq : p ≠ q) (hqr : q ≠ r) (hrp : r ≠ p) (hl : l.Perm [x, y, z]) (jx : Joins (h.val x) p q)
    (jy : Joins (h.val y) q r) (jz : Joins (h.val z) r p) (hc : ClosedChain (h.vals l)) (hd : det3 p q r ≠ 0) :
    R.isTriangle (h.vals l) = .ok true := by
  have hR := hE.isRounding
  have hsep : R.Sep [p, q, r] := sep_of_apart hR (by
    have : {t | t ∈ [p, q, r]} = {t | t = p ∨ t = q ∨ t = r} := by ext t; simp
    rw [this]; exact hap)
  have hlen : l.length = 3 := by rw [hl.length_eq]; rfl
  have hend : ∀ t, t ∈ endPts (h.vals l) ↔ t ∈ [p, q, r] := by
    intro t
    rw [mem_endPts]
    constructor
    · rintro ⟨s, hs, he⟩
      obtain ⟨v, hv, rfl⟩ := List.mem_map.1 hs
      have := hl.subset hv
      simp only [List.mem_cons, List.not_mem_nil, or_false] at this ⊢
      rcases this with rfl | rfl | rfl
      · rcases jx.ends with ⟨h1 | h1, h2 | h2⟩ <;> rcases he with rfl | rfl <;> simp_all
      · rcases jy.ends with ⟨h1 | h1, h2 | h2⟩ <;> rcases he with rfl | rfl <;> simp_all
      · rcases jz.ends with ⟨h1 | h1, h2 | h2⟩ <;> rcases he with rfl | rfl <;> simp_all
    · intro ht
      simp only [List.mem_cons, List.not_mem_nil, or_false] at ht
      have hx : h.val x ∈ h.vals l := List.mem_map_of_mem (hl.symm.subset (by simp))
      have hy : h.val y ∈ h.vals l := List.mem_map_of_mem (hl.symm.subset (by simp))
      rcases ht with rfl | rfl | rfl
      · rcases jx with ⟨h1, h2⟩ | ⟨h1, h2⟩
        · exact ⟨_, hx, Or.inl h1.symm⟩
        · exact ⟨_, hx, Or.inr h2.symm⟩
      · rcases jx with ⟨h1, h2⟩ | ⟨h1, h2⟩
        · exact ⟨_, hx, Or.inr h2.symm⟩
        · exact ⟨_, hx, Or.inl h1.symm⟩
      · rcases jy with ⟨h1, h2⟩ | ⟨h1, h2⟩
        · exact ⟨_, hy, Or.inr h2.symm⟩
        · exact ⟨_, hy, Or.inl h1.symm⟩
  have hs' : R.HashOK (Srep.endPts (h.vals l)) := (hsep.mono fun t ht => (hend t).1 ht).hashOK
  have hps : (R.pointSet (h.vals l)).length = 3 := by
    have hn : [p, q, r].Nodup := by simp [hpq, hqr, hrp.symm]
    have := ((List.perm_ext_iff_of_nodup (nodup_pointSet hR hs') hn).2 fun t => by
      rw [mem_pointSet hR hs', ← mem_endPts', hend]).length_eq
    simpa using this
  have hvl : (h.vals l).length = 3 := by simp [Heap.vals, hlen]
  have hcl : R.isClosed (h.vals l) = .ok true := by
    have hA := triArea_perm hE hl jx jy jz
    generalize h.vals l = v at *
    match v, hvl with
    | [a, b, c], _ =>
      have c0 : a.j = b.i := hc 0 (by simp)
      have c1 : b.j = c.i := hc 1 (by simp)
      have c2 : c.j = a.i := by simpa using hc 2 (by simp)
      unfold Rt.isClosed
      rw [if_pos]
      · simp [c2, hR.peq_refl]
      · simp [Rt.isContinuous, Rt.continuous, Rt.touch, c0, c1, hR.peq_refl, hR.distance_self, hR.eps_pos]
  unfold Rt.isTriangle
  rw [if_pos ⟨hps, hvl⟩, hcl]
  simp only
  rw [triArea_perm hE hl jx jy jz]
  simp [Except.map, hd]

end Srep
