import Verif.Model.Intex
import Verif.Props.RayDraw

/-! Outliers of a drawing (C95) and the relation of rooms to parts (C96). -/

set_option linter.unusedSectionVars false

namespace Srep
open Rt Ray
variable {K : Type} [Field K] [LinearOrder K] [IsStrictOrderedRing K] [FloorRing K] {R : Rt K}

/-! ### C95: outliers -/

theorem mem_occurrences {l : List (Seg K)} {p : Pt K} : p ∈ occurrences l ↔ ∃ s ∈ l, p = s.i ∨ p = s.j := by
  unfold occurrences
  simp only [List.mem_flatMap, List.mem_cons, List.not_mem_nil, or_false]

/-- the number of ends of segments of `l` at the point `p` -/
def endsAt (l : List (Seg K)) (p : Pt K) : ℕ :=
  (l.map fun s => (if s.i = p then 1 else 0) + (if s.j = p then 1 else 0)).sum

theorem countP_occurrences {l : List (Seg K)} {f : Pt K → Bool} {p : Pt K} (h : ∀ q ∈ occurrences l, f q = true ↔ q = p) :
    (occurrences l).countP f = endsAt l p := by
  induction l with
  | nil => rfl
  | cons s l ih =>
    have h1 : occurrences (s :: l) = s.i :: s.j :: occurrences l := rfl
    rw [h1] at h ⊢
    have hi := h s.i (by simp)
    have hj := h s.j (by simp)
    have hl := ih fun q hq => h q (by simp [hq])
    have e : endsAt (s :: l) p = (if s.i = p then 1 else 0) + (if s.j = p then 1 else 0) + endsAt l p := rfl
    rw [e, List.countP_cons, List.countP_cons, hl]
    have hi' : (if f s.i = true then 1 else 0) = if s.i = p then 1 else 0 := by simp only [hi]
    have hj' : (if f s.j = true then 1 else 0) = if s.j = p then 1 else 0 := by simp only [hj]
    rw [hi', hj']
    omega

/-- if different endpoints are not `==`, exactly those segments are kept both endpoints of which
are the end of another segment as well (or which are points themselves). -/
theorem mem_removeOutliers (hR : R.IsRounding) (l : List (Seg K)) (ha : R.Sep (occurrences l)) (s : Seg K) :
    s ∈ R.removeOutliers l ↔ s ∈ l ∧ endsAt l s.i ≠ 1 ∧ endsAt l s.j ≠ 1 := by
  have hpq : ∀ p ∈ occurrences l, ∀ q ∈ occurrences l, (R.peq p q = true ↔ p = q) :=
    fun p hp q hq => ha.peq_iff hR hp hq
  unfold Rt.removeOutliers
  dsimp only
  rw [List.mem_filter]
  constructor
  · rintro ⟨hs, h⟩
    rw [Bool.not_eq_true', List.any_eq_false] at h
    have key : ∀ y ∈ [s.i, s.j], endsAt l y ≠ 1 := by
      intro y hy h1
      have hyo : y ∈ occurrences l := by
        rw [mem_occurrences]
        exact ⟨s, hs, by simpa using hy⟩
      apply h y hy
      rw [List.any_eq_true]
      refine ⟨y, List.mem_filter.2 ⟨hyo, ?_⟩, hR.peq_refl y⟩
      rw [decide_eq_true_eq, countP_occurrences fun q hq => hpq q hq y hyo]
      exact h1
    exact ⟨hs, key _ (by simp), key _ (by simp)⟩
  · rintro ⟨hs, h1, h2⟩
    refine ⟨hs, ?_⟩
    rw [Bool.not_eq_true', List.any_eq_false]
    intro y hy h
    have hyo : y ∈ occurrences l := by
      rw [mem_occurrences]
      exact ⟨s, hs, by simpa using hy⟩
    rw [List.any_eq_true] at h
    obtain ⟨x, hx, hxy⟩ := h
    obtain ⟨hx1, hx2⟩ := List.mem_filter.1 hx
    have e := (hpq x hx1 y hyo).1 hxy
    subst e
    rw [decide_eq_true_eq, countP_occurrences fun q hq => hpq q hq x hx1] at hx2
    simp only [List.mem_cons, List.not_mem_nil, or_false] at hy
    rcases hy with rfl | rfl
    · exact h1 hx2
    · exact h2 hx2

/-- C95: if different endpoints are not `==`, exactly those segments are kept, in their order, both endpoints of which are
the end of another segment as well (or which are points themselves). -/
theorem C95_kept (hR : R.IsRounding) (l : List (Seg K)) (ha : R.Sep (occurrences l)) :
    R.removeOutliers l = l.filter fun s => decide (endsAt l s.i ≠ 1 ∧ endsAt l s.j ≠ 1) := by
  have h := mem_removeOutliers hR l ha
  unfold Rt.removeOutliers at h ⊢
  dsimp only at h ⊢
  apply List.filter_congr
  intro s hs
  have h2 := h s
  rw [List.mem_filter, and_congr_right_iff] at h2
  exact Bool.eq_iff_iff.2 ((h2 hs).trans decide_eq_true_iff.symm)

theorem countP_ends {l : List (Seg K)} (f : Pt K → Bool) :
    (occurrences l).countP f = (l.map Seg.i).countP f + (l.map Seg.j).countP f := by
  induction l with
  | nil => rfl
  | cons s l ih =>
    have h1 : occurrences (s :: l) = s.i :: s.j :: occurrences l := rfl
    rw [h1, List.countP_cons, List.countP_cons, ih, List.map_cons, List.map_cons, List.countP_cons, List.countP_cons]
    omega

theorem countP_occurrences_perm {l m : List (Seg K)} (h : l.Perm m) (f : Pt K → Bool) :
    (occurrences l).countP f = (occurrences m).countP f := by
  rw [countP_ends, countP_ends, (h.map _).countP_eq, (h.map _).countP_eq]

theorem countP_drawing {l m : List (Seg K)} (h : SameDrawing l m) (f : Pt K → Bool) :
    (occurrences l).countP f = (occurrences m).countP f := by
  obtain ⟨l', hp, h2⟩ := h
  rw [← countP_occurrences_perm hp]
  clear hp
  induction h2 with
  | nil => rfl
  | @cons s o l' m hs _ ih =>
    have h1 : ∀ (s : Seg K) l, occurrences (s :: l) = s.i :: s.j :: occurrences l := fun _ _ => rfl
    rw [h1, h1]
    simp only [List.countP_cons, ih]
    rcases hs with ⟨e1, e2⟩ | ⟨e1, e2⟩ <;> rw [e1, e2]
    omega

/-- C95: a closed polygon, drawn in any order and direction, has no outliers.  This holds for any comparison of points. -/
theorem C95_closed (l m : List (Seg K)) (hd : SameDrawing l m) (hc : ClosedChain m) : R.removeOutliers l = l := by
  unfold Rt.removeOutliers
  dsimp only
  rw [List.filter_eq_self]
  intro s _
  rw [Bool.not_eq_true', List.any_eq_false]
  intro y _ h
  rw [List.any_eq_true] at h
  obtain ⟨x, hx, -⟩ := h
  have h2 := (List.mem_filter.1 hx).2
  rw [decide_eq_true_eq, countP_drawing hd, countP_ends, (closedChain_perm hc).countP_eq] at h2
  omega

theorem endsAt_closed (l m : List (Seg K)) (hd : SameDrawing l m) (hc : ClosedChain m) (p : Pt K) : endsAt l p % 2 = 0 := by
  classical
  rw [← countP_occurrences (f := fun q => decide (q = p)) fun q _ => by simp, countP_drawing hd, countP_ends,
    (closedChain_perm hc).countP_eq]
  omega

theorem endsAt_append (l m : List (Seg K)) (p : Pt K) : endsAt (l ++ m) p = endsAt l p + endsAt m p := by
  unfold endsAt; simp

theorem endsAt_pos {l : List (Seg K)} {p : Pt K} : 0 < endsAt l p ↔ p ∈ occurrences l := by
  classical
  rw [← countP_occurrences (f := fun q => decide (q = p)) fun q _ => by simp, List.countP_pos_iff]
  simp

/-- C95: only one round is made: of a tail of two segments at a closed polygon the first one remains, which then is an
outlier; a second call would remove it. -/
theorem C95_one_round (hR : R.IsRounding) (c m : List (Seg K)) (hd : SameDrawing c m) (hc : ClosedChain m) (a b d : Pt K)
    (k k' : SegCls) (ha : a ∈ occurrences c) (hb : b ∉ occurrences c) (hdc : d ∉ occurrences c) (hbd : b ≠ d)
    (hs : R.Sep (occurrences (c ++ [⟨a, b, k⟩, ⟨b, d, k'⟩]))) :
    R.removeOutliers (c ++ [⟨a, b, k⟩, ⟨b, d, k'⟩]) = c ++ [⟨a, b, k⟩] ∧ endsAt (c ++ [⟨a, b, k⟩]) b = 1 ∧
    R.removeOutliers (c ++ [⟨a, b, k⟩]) = c := by
  have hab : a ≠ b := by rintro rfl; exact hb ha
  have had : a ≠ d := by rintro rfl; exact hdc ha
  have b0 : endsAt c b = 0 := by have := (@endsAt_pos K _ _ _ _ c b); by_contra h; exact hb (this.1 (by omega))
  have d0 : endsAt c d = 0 := by have := (@endsAt_pos K _ _ _ _ c d); by_contra h; exact hdc (this.1 (by omega))
  have hge : ∀ y ∈ occurrences c, 2 ≤ endsAt c y := by
    intro y hy
    have := endsAt_pos.2 hy
    have := endsAt_closed c m hd hc y
    omega
  have keep : ∀ t : List (Seg K), ∀ s ∈ c, decide (endsAt (c ++ t) s.i ≠ 1 ∧ endsAt (c ++ t) s.j ≠ 1) = true := by
    intro t s hs
    have h1 := hge s.i (mem_occurrences.2 ⟨s, hs, Or.inl rfl⟩)
    have h2 := hge s.j (mem_occurrences.2 ⟨s, hs, Or.inr rfl⟩)
    rw [decide_eq_true_eq, endsAt_append, endsAt_append]
    omega
  have ha2 := hge a ha
  have eb : endsAt (c ++ [⟨a, b, k⟩]) b = 1 := by
    rw [endsAt_append, b0]; simp [endsAt, hab]
  refine ⟨?_, eb, ?_⟩
  · rw [C95_kept hR _ hs, List.filter_append, List.filter_eq_self.2 (keep _)]
    congr 1
    have e1 : endsAt (c ++ [⟨a, b, k⟩, ⟨b, d, k'⟩]) a ≠ 1 := by rw [endsAt_append]; omega
    have e2 : endsAt (c ++ [⟨a, b, k⟩, ⟨b, d, k'⟩]) b = 2 := by
      rw [endsAt_append, b0]; simp [endsAt, hab, hbd.symm]
    have e3 : endsAt (c ++ [⟨a, b, k⟩, ⟨b, d, k'⟩]) d = 1 := by
      rw [endsAt_append, d0]; simp [endsAt, had, hbd]
    simp [e1, e2, e3]
  · have hs' : R.Sep (occurrences (c ++ [⟨a, b, k⟩])) := by
      apply hs.mono
      intro p hp
      obtain ⟨s, h1, h2⟩ := mem_occurrences.1 hp
      exact mem_occurrences.2 ⟨s, by simp at h1 ⊢; tauto, h2⟩
    rw [C95_kept hR _ hs', List.filter_append, List.filter_eq_self.2 (keep _)]
    simp [eb]

/-- a square with a tail of two segments: one call leaves the first of them, the second call removes it (binary64) -/
def tailed : List (Seg ℚ) :=
  [⟨⟨0, 0⟩, ⟨1, 0⟩, .wall⟩, ⟨⟨1, 1⟩, ⟨1, 0⟩, .wall⟩, ⟨⟨1, 1⟩, ⟨0, 1⟩, .wall⟩, ⟨⟨0, 0⟩, ⟨0, 1⟩, .wall⟩,
    ⟨⟨1, 1⟩, ⟨2, 2⟩, .wall⟩, ⟨⟨2, 2⟩, ⟨3, 2⟩, .wall⟩]

example : (exRt.removeOutliers tailed).length = 5 ∧ (exRt.removeOutliers (exRt.removeOutliers tailed)).length = 4 := by
  decide +kernel

/-! ### C96: rooms and parts -/

section
variable {ν ρ : Type}

/-- Is a room recorded as `k` for the part `g`, if `inside` says which points are in the room?  Innen and aussen: there
are points of the kind, and all of those of one segment are inside; indifferent: some point is not inside. -/
def Recorded (R : Rt K) (g : GPart ν K) (inside : Pt K → Bool) : IntexKind → Prop
  | .innen => g.internal ≠ [] ∧ ∃ s ∈ g.segs, ∀ x ∈ g.internal, R.seq x.2 s = true → inside x.1 = true
  | .aussen => g.external ≠ [] ∧ ∃ s ∈ g.segs, ∀ x ∈ g.external, R.seq x.2 s = true → inside x.1 = true
  | .indifferent => ∃ s ∈ g.segs, ∃ x ∈ g.indifferent, R.seq x.2 s = true ∧ inside x.1 = false

/-- every test of a reference point that is made ends, with the answer `inside room point` -/
def Answers (R : Rt K) (rooms : List (GRoom ν ρ K)) (fuel : ℕ) (ω : ℕ → ℕ → IntexKind → ℕ → ℕ → ℕ → Pt K)
    (inside : GRoom ν ρ K → Pt K → Bool) : Prop :=
  ∀ i r, rooms[i]? = some r → ∀ j g, r.walls[j]? = some g → ∀ k n s, g.segs[n]? = some s → ∀ q p,
    (R.ptsAt g k s)[q]? = some p → R.plInternal (R.removeOutliers r.polygon) p (ω i j k n q) fuel = some (inside r p)

theorem mem_collect {α β : Type} {f : ℕ → α → Option (List β)} {l : List α} {n : ℕ} {T : List β}
    (h : collect f n l = some T) (x : β) :
    x ∈ T ↔ ∃ i a y, l[i]? = some a ∧ f (n + i) a = some y ∧ x ∈ y := by
  induction l generalizing n T with
  | nil =>
    cases h
    simp
  | cons a l ih =>
    unfold collect at h
    cases hf : f n a with
    | none => rw [hf] at h; cases h
    | some z =>
      rw [hf] at h
      obtain ⟨T', hT', rfl⟩ := Option.map_eq_some_iff.1 h
      rw [List.mem_append, ih hT']
      constructor
      · rintro (hz | ⟨i, b, y, h1, h2, h3⟩)
        · exact ⟨0, a, z, rfl, hf, hz⟩
        · exact ⟨i + 1, b, y, by simpa using h1, by rw [← h2]; congr 1; omega, h3⟩
      · rintro ⟨i, b, y, h1, h2, h3⟩
        cases i with
        | zero =>
          cases h1
          rw [Nat.add_zero, hf] at h2
          cases h2
          exact Or.inl h3
        | succ i => exact Or.inr ⟨i, b, y, by simpa using h1, by rw [← h2]; congr 1; omega, h3⟩

theorem collect_some {α β : Type} {f : ℕ → α → Option (List β)} {l : List α} {n : ℕ}
    (h : ∀ i a, l[i]? = some a → ∃ y, f (n + i) a = some y) : ∃ T, collect f n l = some T := by
  induction l generalizing n with
  | nil => exact ⟨[], rfl⟩
  | cons a l ih =>
    obtain ⟨z, hz⟩ := h 0 a rfl
    rw [Nat.add_zero] at hz
    obtain ⟨T, hT⟩ := ih (n := n + 1) fun i b hb => by
      obtain ⟨y, hy⟩ := h (i + 1) b (by simpa using hb)
      exact ⟨y, by rw [← hy]; congr 1; omega⟩
    exact ⟨z ++ T, by unfold collect; rw [hz, hT]; rfl⟩

theorem collect_elem {α β : Type} {f : ℕ → α → Option (List β)} {l : List α} {n : ℕ} {T : List β}
    (h : collect f n l = some T) {i : ℕ} {a : α} (ha : l[i]? = some a) : ∃ y, f (n + i) a = some y := by
  induction l generalizing n T i with
  | nil => simp at ha
  | cons b l ih =>
    unfold collect at h
    cases hf : f n b with
    | none => rw [hf] at h; cases h
    | some z =>
      rw [hf] at h
      obtain ⟨T', hT', rfl⟩ := Option.map_eq_some_iff.1 h
      cases i with
      | zero => cases ha; exact ⟨z, hf⟩
      | succ i =>
        obtain ⟨y, hy⟩ := ih hT' (i := i) (by simpa using ha)
        exact ⟨y, by rw [← hy]; congr 1; omega⟩

theorem allInternal_eq {l : List (Seg K)} {fuel : ℕ} {f : Pt K → Bool} :
    ∀ (ps : List (Pt K)) (ω : ℕ → ℕ → Pt K), (∀ q p, ps[q]? = some p → R.plInternal l p (ω q) fuel = some (f p)) →
      R.allInternal l fuel ω ps = some (ps.all f)
  | [], _, _ => rfl
  | p :: ps, ω, h => by
    have h0 := h 0 p rfl
    have ih := allInternal_eq ps (fun n => ω (n + 1)) fun q p hq => h (q + 1) p (by simpa using hq)
    unfold Rt.allInternal
    rw [h0, List.all_cons]
    cases hf : f p
    · rfl
    · simpa using ih

theorem intexLoop_eq {l : List (Seg K)} {fuel : ℕ} {f : Pt K → Bool} {g : GPart ν K} {k : IntexKind} :
    ∀ (ss : List (Seg K)) (ω : ℕ → ℕ → ℕ → Pt K),
      (∀ n s, ss[n]? = some s → ∀ q p, (R.ptsAt g k s)[q]? = some p → R.plInternal l p (ω n q) fuel = some (f p)) →
      R.intexLoop l g k fuel ω ss = some (ss.any fun s => k.adds ((R.ptsAt g k s).all f))
  | [], _, _ => rfl
  | s :: ss, ω, h => by
    have h0 := allInternal_eq (R.ptsAt g k s) (ω 0) (h 0 s rfl)
    have ih := intexLoop_eq ss (fun n => ω (n + 1)) fun n s hn => h (n + 1) s (by simpa using hn)
    unfold Rt.intexLoop
    rw [h0, List.any_cons]
    dsimp only
    rw [ih]
    rfl

theorem mem_ptsAt {g : GPart ν K} {k : IntexKind} {s : Seg K} {p : Pt K} :
    p ∈ R.ptsAt g k s ↔ ∃ x ∈ g.pts k, R.seq x.2 s = true ∧ x.1 = p := by
  unfold Rt.ptsAt
  simp only [List.mem_map, List.mem_filter]
  constructor
  · rintro ⟨x, ⟨h1, h2⟩, h3⟩; exact ⟨x, h1, h2, h3⟩
  · rintro ⟨x, h1, h2, h3⟩; exact ⟨x, ⟨h1, h2⟩, h3⟩

theorem recorded_iff {g : GPart ν K} {f : Pt K → Bool} {k : IntexKind} :
    (if (g.pts k).isEmpty then false else g.segs.any fun s => k.adds ((R.ptsAt g k s).all f)) = true ↔ Recorded R g f k := by
  have hall : ∀ s, (R.ptsAt g k s).all f = true ↔ ∀ x ∈ g.pts k, R.seq x.2 s = true → f x.1 = true := by
    intro s
    rw [List.all_eq_true]
    constructor
    · intro h x hx hs
      exact h x.1 (mem_ptsAt.2 ⟨x, hx, hs, rfl⟩)
    · intro h p hp
      obtain ⟨x, hx, hs, rfl⟩ := mem_ptsAt.1 hp
      exact h x hx hs
  have hne : (g.pts k).isEmpty = true ↔ g.pts k = [] := List.isEmpty_iff
  have main : (if (g.pts k).isEmpty then false else
      g.segs.any fun s => k.adds ((R.ptsAt g k s).all f)) = true ↔
      g.pts k ≠ [] ∧ ∃ s ∈ g.segs, k.adds ((R.ptsAt g k s).all f) = true := by
    by_cases h : g.pts k = []
    · simp [h]
    · have : (g.pts k).isEmpty = false := by simpa using h
      simp [h]
  rw [main]
  cases k with
  | innen => exact and_congr_right fun _ => exists_congr fun s => and_congr_right fun _ => hall s
  | aussen => exact and_congr_right fun _ => exists_congr fun s => and_congr_right fun _ => hall s
  | indifferent =>
    have h2 : ∀ s, IntexKind.adds .indifferent ((R.ptsAt g .indifferent s).all f) = true ↔
        ∃ x ∈ g.indifferent, R.seq x.2 s = true ∧ f x.1 = false := by
      intro s
      have h3 : IntexKind.adds .indifferent ((R.ptsAt g .indifferent s).all f) = true ↔
          ¬ (R.ptsAt g .indifferent s).all f = true := by
        unfold IntexKind.adds; simp
      rw [h3, hall s]
      push Not
      exact exists_congr fun x => and_congr_right fun _ => and_congr_right fun _ => by simp
    constructor
    · rintro ⟨-, s, hs, h⟩
      exact ⟨s, hs, (h2 s).1 h⟩
    · rintro ⟨s, hs, h⟩
      refine ⟨?_, s, hs, (h2 s).2 h⟩
      obtain ⟨x, hx, -⟩ := h
      intro h0
      have : x ∈ g.pts .indifferent := hx
      rw [h0] at this
      cases this

theorem intexPart_mem {l : List (Seg K)} {r : ρ} {g : GPart ν K} {fuel : ℕ} {ω : IntexKind → ℕ → ℕ → ℕ → Pt K}
    {T : List (ν × IntexKind × ρ)} (h : R.intexPart l r g fuel ω = some T) (n : ν) (k : IntexKind) (r' : ρ) :
    (n, k, r') ∈ T ↔ n = g.name ∧ r' = r ∧ R.intexAdds l g k fuel (ω k) = some true := by
  unfold Rt.intexPart at h
  rw [mem_collect h]
  constructor
  · rintro ⟨i, k', y, h1, h2, h3⟩
    obtain ⟨b, hb, rfl⟩ := Option.map_eq_some_iff.1 h2
    cases b
    · simp at h3
    · simp only [if_true, List.mem_singleton, Prod.mk.injEq] at h3
      obtain ⟨e1, e2, e3⟩ := h3
      exact ⟨e1, e3, by rw [e2]; exact hb⟩
  · rintro ⟨rfl, rfl, h2⟩
    have hk : ∃ i : ℕ, [IntexKind.innen, IntexKind.aussen, IntexKind.indifferent][i]? = some k := by
      cases k
      · exact ⟨0, rfl⟩
      · exact ⟨1, rfl⟩
      · exact ⟨2, rfl⟩
    obtain ⟨i, hi⟩ := hk
    exact ⟨i, k, [(g.name, k, r')], hi, by rw [h2]; rfl, by simp⟩

/-- the entries of a completed `raum_intex` -/
theorem raumIntex_mem {rooms : List (GRoom ν ρ K)} {fuel : ℕ} {ω : ℕ → ℕ → IntexKind → ℕ → ℕ → ℕ → Pt K}
    {T : List (ν × IntexKind × ρ)} (h : R.raumIntex rooms fuel ω = some T) (n : ν) (k : IntexKind) (r' : ρ) :
    (n, k, r') ∈ T ↔ ∃ i r j g, rooms[i]? = some r ∧ r.walls[j]? = some g ∧ r.name = r' ∧ g.name = n ∧
      R.intexAdds (R.removeOutliers r.polygon) g k fuel (ω i j k) = some true := by
  unfold Rt.raumIntex at h
  rw [mem_collect h]
  constructor
  · rintro ⟨i, r, y, h1, h2, h3⟩
    rw [Nat.zero_add] at h2
    rw [mem_collect h2] at h3
    obtain ⟨j, g, z, h4, h5, h6⟩ := h3
    rw [Nat.zero_add] at h5
    obtain ⟨e1, e2, e3⟩ := (intexPart_mem h5 n k r').1 h6
    exact ⟨i, r, j, g, h1, h4, e2.symm, e1.symm, e3⟩
  · rintro ⟨i, r, j, g, h1, h4, e2, e1, e3⟩
    obtain ⟨y, hy⟩ := collect_elem h h1
    refine ⟨i, r, y, h1, hy, ?_⟩
    rw [Nat.zero_add] at hy
    rw [mem_collect hy]
    obtain ⟨z, hz⟩ := collect_elem hy h4
    refine ⟨j, g, z, h4, hz, ?_⟩
    rw [Nat.zero_add] at hz
    exact (intexPart_mem hz n k r').2 ⟨e1.symm, e2.symm, e3⟩

/-- C96: if every test of a reference point ends, `raum_intex` ends, and a room is in the set of a kind for a part iff the
part is a wall of a room of this name and the rule `Recorded` holds for it. -/
theorem C96_recorded (rooms : List (GRoom ν ρ K)) (fuel : ℕ) (ω : ℕ → ℕ → IntexKind → ℕ → ℕ → ℕ → Pt K)
    (inside : GRoom ν ρ K → Pt K → Bool) (hans : Answers R rooms fuel ω inside) :
    ∃ T, R.raumIntex rooms fuel ω = some T ∧ ∀ n k r', (n, k, r') ∈ T ↔
      ∃ r ∈ rooms, r.name = r' ∧ ∃ g ∈ r.walls, g.name = n ∧ Recorded R g (inside r) k := by
  have hadd : ∀ i r, rooms[i]? = some r → ∀ j g, r.walls[j]? = some g → ∀ k,
      R.intexAdds (R.removeOutliers r.polygon) g k fuel (ω i j k) =
        some (if (g.pts k).isEmpty then false else g.segs.any fun s => k.adds ((R.ptsAt g k s).all (inside r))) := by
    intro i r hr j g hg k
    unfold Rt.intexAdds
    by_cases h : (g.pts k).isEmpty = true
    · rw [if_pos h, if_pos h]
    · rw [if_neg h, if_neg h]
      exact intexLoop_eq g.segs (ω i j k) (hans i r hr j g hg k)
  have hT : ∃ T, R.raumIntex rooms fuel ω = some T := by
    unfold Rt.raumIntex
    apply collect_some
    intro i r hr
    rw [Nat.zero_add]
    apply collect_some
    intro j g hg
    rw [Nat.zero_add]
    unfold Rt.intexPart
    apply collect_some
    intro _ k _
    rw [hadd i r hr j g hg k]
    exact ⟨_, rfl⟩
  obtain ⟨T, hT⟩ := hT
  refine ⟨T, hT, fun n k r' => ?_⟩
  rw [raumIntex_mem hT]
  constructor
  · rintro ⟨i, r, j, g, h1, h4, e2, e1, e3⟩
    rw [hadd i r h1 j g h4 k, Option.some_inj, recorded_iff] at e3
    exact ⟨r, List.mem_of_getElem? h1, e2, g, List.mem_of_getElem? h4, e1, e3⟩
  · rintro ⟨r, hr, e2, g, hg, e1, e3⟩
    obtain ⟨i, h1⟩ := List.mem_iff_getElem?.1 hr
    obtain ⟨j, h4⟩ := List.mem_iff_getElem?.1 hg
    exact ⟨i, r, j, g, h1, h4, e2, e1, by rw [hadd i r h1 j g h4 k, Option.some_inj, recorded_iff]; exact e3⟩

theorem intexLoop_free {l : List (Seg K)} {fuel : ℕ} {g : GPart ν K} {k : IntexKind} (hk : k ≠ .indifferent) {s : Seg K}
    (hs : R.ptsAt g k s = []) : ∀ (ss : List (Seg K)) (ω : ℕ → ℕ → ℕ → Pt K) (b : Bool), s ∈ ss →
      R.intexLoop l g k fuel ω ss = some b → b = true
  | [], _, _, h, _ => by cases h
  | t :: ss, ω, b, h, hb => by
    unfold Rt.intexLoop at hb
    cases ha : R.allInternal l fuel (ω 0) (R.ptsAt g k t) with
    | none => rw [ha] at hb; cases hb
    | some a =>
      rw [ha] at hb
      obtain ⟨c, hc, rfl⟩ := Option.map_eq_some_iff.1 hb
      rcases List.mem_cons.1 h with rfl | h
      · rw [hs] at ha
        cases ha
        cases k
        · rfl
        · rfl
        · exact absurd rfl hk
      · rw [intexLoop_free hk hs ss _ c h hc, Bool.or_true]

/-- C96: a segment that has no points of a kind makes the room a room of this kind, wherever the part and the room are. -/
theorem C96_no_points (rooms : List (GRoom ν ρ K)) (fuel : ℕ) (ω : ℕ → ℕ → IntexKind → ℕ → ℕ → ℕ → Pt K)
    (T : List (ν × IntexKind × ρ)) (hT : R.raumIntex rooms fuel ω = some T) (r : GRoom ν ρ K) (hr : r ∈ rooms) (g : GPart ν K)
    (hg : g ∈ r.walls) (s : Seg K) (hs : s ∈ g.segs) (k : IntexKind) (hk : k = .innen ∨ k = .aussen) (hne : g.pts k ≠ [])
    (hno : ∀ x ∈ g.pts k, R.seq x.2 s = false) : (g.name, k, r.name) ∈ T := by
  have hk' : k ≠ .indifferent := by rcases hk with rfl | rfl <;> simp
  obtain ⟨i, h1⟩ := List.mem_iff_getElem?.1 hr
  obtain ⟨j, h4⟩ := List.mem_iff_getElem?.1 hg
  rw [raumIntex_mem hT]
  refine ⟨i, r, j, g, h1, h4, rfl, rfl, ?_⟩
  unfold Rt.raumIntex at hT
  obtain ⟨y, hy⟩ := collect_elem hT h1
  rw [Nat.zero_add] at hy
  obtain ⟨z, hz⟩ := collect_elem hy h4
  rw [Nat.zero_add] at hz
  unfold Rt.intexPart at hz
  have hk2 : ∃ i : ℕ, [IntexKind.innen, IntexKind.aussen, IntexKind.indifferent][i]? = some k := by
    rcases hk with rfl | rfl
    · exact ⟨0, rfl⟩
    · exact ⟨1, rfl⟩
  obtain ⟨q, hq⟩ := hk2
  obtain ⟨w, hw⟩ := collect_elem hz hq
  obtain ⟨b, hb, -⟩ := Option.map_eq_some_iff.1 hw
  rw [hb]
  unfold Rt.intexAdds at hb
  have hne' : (g.pts k).isEmpty ≠ true := by simpa using hne
  rw [if_neg hne'] at hb
  have he : R.ptsAt g k s = [] := by
    rw [List.eq_nil_iff_forall_not_mem]
    intro p hp
    obtain ⟨x, hx, h2, -⟩ := mem_ptsAt.1 hp
    rw [hno x hx] at h2
    cases h2
  rw [intexLoop_free hk' he g.segs _ b hs hb]

end

end Srep
