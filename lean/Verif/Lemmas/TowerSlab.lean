import Verif.Lemmas.Tower
import Verif.Props.Region
import Mathlib.Data.List.Perm.Basic

/-! Parity of the sides to the right of a point, when only two sides of the polygon pass its height. -/

set_option linter.unusedSectionVars false

namespace Srep
open Ray
variable {K : Type} [Field K] [LinearOrder K] [IsStrictOrderedRing K] [FloorRing K]

/-- an odd number of sides to the right of the point -/
def OddRight (H : List (Seg K)) (p : Pt K) : Prop := countH p ⟨p.x + 1, p.y⟩ H % 2 = 1

/-- the side is above or below the height of the point -/
def OffLevel (p : Pt K) (s : Seg K) : Prop := (s.i.y < p.y ∧ s.j.y < p.y) ∨ (p.y < s.i.y ∧ p.y < s.j.y)

theorem det3_level (p q : Pt K) : det3 p ⟨p.x + 1, p.y⟩ q = q.y - p.y := by unfold det3; dsimp only; ring

theorem det3_turn (p a b : Pt K) : det3 p a b = det3 a b p := by unfold det3; ring

theorem OffLevel.off {p : Pt K} {s : Seg K} (h : OffLevel p s) : ¬ OnSeg s p := by
  rintro ⟨t, t0, t1, e⟩
  have hy := congrArg Pt.y e
  unfold lerp at hy
  dsimp only at hy
  rcases h with ⟨h1, h2⟩ | ⟨h1, h2⟩
  · nlinarith [mul_nonneg t0 (sub_nonneg.2 h2.le), mul_nonneg (sub_nonneg.2 t1) (sub_nonneg.2 h1.le)]
  · nlinarith [mul_nonneg t0 (sub_nonneg.2 h2.le), mul_nonneg (sub_nonneg.2 t1) (sub_nonneg.2 h1.le)]

theorem OffLevel.noCross {p : Pt K} {s : Seg K} (h : OffLevel p s) : ¬ CrossH p ⟨p.x + 1, p.y⟩ s := by
  unfold CrossH
  simp only [det3_level]
  rcases h with ⟨h1, h2⟩ | ⟨h1, h2⟩ <;> rintro (⟨a, b, -⟩ | ⟨a, b, -⟩) <;> linarith

theorem onSeg_det {s : Seg K} {p : Pt K} (h : OnSeg s p) : det3 s.i s.j p = 0 := by
  obtain ⟨t, -, -, rfl⟩ := h
  unfold det3 lerp
  dsimp only
  ring

/-- all sides are above or below -/
theorem outside_level {H : List (Seg K)} {p : Pt K} (h : ∀ s ∈ H, OffLevel p s) : OffSides H p ∧ ¬ OddRight H p := by
  refine ⟨fun s hs => (h s hs).off, ?_⟩
  unfold OddRight countH
  rw [sum_ind_eq_zero.2 fun s hs => (h s hs).noCross]
  decide

/-- one side passes the height upwards, one downwards -/
structure Slab (H : List (Seg K)) (p : Pt K) (a b : Seg K) : Prop where
  nodup : H.Nodup
  up : a ∈ H
  down : b ∈ H
  rest : ∀ s ∈ H, s = a ∨ s = b ∨ OffLevel p s
  rises : a.i.y < p.y ∧ p.y < a.j.y
  falls : p.y < b.i.y ∧ b.j.y < p.y

theorem Slab.ne {H : List (Seg K)} {p : Pt K} {a b : Seg K} (h : Slab H p a b) : a ≠ b := by
  rintro rfl
  linarith [h.rises.1, h.rises.2, h.falls.1, h.falls.2]

theorem Slab.count {H : List (Seg K)} {p : Pt K} {a b : Seg K} (h : Slab H p a b) :
    countH p ⟨p.x + 1, p.y⟩ H = ind (0 < det3 a.i a.j p) + ind (det3 b.i b.j p < 0) := by
  classical
  have hp1 : H.Perm (a :: H.erase a) := List.perm_cons_erase h.up
  have hb : b ∈ H.erase a := (List.mem_erase_of_ne h.ne.symm).2 h.down
  have hp2 : (H.erase a).Perm (b :: (H.erase a).erase b) := List.perm_cons_erase hb
  have hp : H.Perm (a :: b :: (H.erase a).erase b) := hp1.trans (hp2.cons a)
  have hz : (((H.erase a).erase b).map fun s => ind (CrossH p ⟨p.x + 1, p.y⟩ s)).sum = 0 := by
    apply sum_ind_eq_zero.2
    intro s hs
    have hs1 := (h.nodup.erase a).mem_erase_iff.1 hs
    have hs2 := h.nodup.mem_erase_iff.1 hs1.2
    rcases h.rest s hs2.2 with e | e | e
    · exact absurd e hs2.1
    · exact absurd e hs1.1
    · exact e.noCross
  unfold countH
  rw [(hp.map _).sum_eq, List.map_cons, List.map_cons, List.sum_cons, List.sum_cons, hz, add_zero]
  congr 1
  · congr 1
    unfold CrossH
    simp only [det3_level, det3_turn p a.i a.j]
    apply propext
    constructor
    · rintro (⟨-, -, h⟩ | ⟨h1, h2, -⟩)
      · exact h
      · linarith [h.rises.1]
    · intro h'
      exact Or.inl ⟨by linarith [h.rises.1], by linarith [h.rises.2], h'⟩
  · congr 1
    unfold CrossH
    simp only [det3_level, det3_turn p b.i b.j]
    apply propext
    constructor
    · rintro (⟨h1, -, -⟩ | ⟨-, -, h⟩)
      · linarith [h.falls.1]
      · exact h
    · intro h'
      exact Or.inr ⟨by linarith [h.falls.1], by linarith [h.falls.2], h'⟩

theorem Slab.off {H : List (Seg K)} {p : Pt K} {a b : Seg K} (h : Slab H p a b) (ha : det3 a.i a.j p ≠ 0) (hb : det3 b.i b.j p ≠ 0) :
    OffSides H p := by
  intro s hs ho
  rcases h.rest s hs with rfl | rfl | e
  · exact ha (onSeg_det ho)
  · exact hb (onSeg_det ho)
  · exact e.off ho

/-- between the two sides -/
theorem Slab.inside {H : List (Seg K)} {p : Pt K} {a b : Seg K} (h : Slab H p a b) (ha : 0 < det3 a.i a.j p) (hb : 0 < det3 b.i b.j p) :
    OffSides H p ∧ OddRight H p := by
  refine ⟨h.off ha.ne' hb.ne', ?_⟩
  unfold OddRight
  rw [h.count, ind_true ha, ind_false (not_lt.2 hb.le)]

/-- beyond one of them -/
theorem Slab.outside {H : List (Seg K)} {p : Pt K} {a b : Seg K} (h : Slab H p a b) (hs : 0 < det3 a.i a.j p + det3 b.i b.j p)
    (hab : det3 a.i a.j p < 0 ∨ det3 b.i b.j p < 0) : OffSides H p ∧ ¬ OddRight H p := by
  rcases hab with ha | hb
  · have hb : 0 < det3 b.i b.j p := by linarith
    refine ⟨h.off ha.ne hb.ne', ?_⟩
    unfold OddRight
    rw [h.count, ind_false (not_lt.2 ha.le), ind_false (not_lt.2 hb.le)]
    decide
  · have ha : 0 < det3 a.i a.j p := by linarith
    refine ⟨h.off ha.ne' hb.ne, ?_⟩
    unfold OddRight
    rw [h.count, ind_true ha, ind_true hb]
    decide

/-! ### the slabs of a stack -/

section
variable {c y w e : K} {ms : List (MantelDim K)} {y' w' : K} {up down : Option K}

theorem Stack.nodupSegs (h : Stack c y w ms y' w') (hne : ms ≠ []) (he : 0 < e) (hs : ∀ m ∈ ms, Stout e m) (hu : PosCap up) (hd : PosCap down) :
    (towerOutline c y w ms y' w' up down).Nodup := List.Nodup.of_map _ (h.nodup hne he hs hu hd)

theorem mem_tower {s : Seg K} : s ∈ towerOutline c y w ms y' w' up down ↔
    (∃ m ∈ ms, s = riseOf m ∨ s = fallOf m) ∨ s ∈ capUp c y' w' up ∨ s ∈ capDown c y w down := by
  unfold towerOutline
  simp only [List.mem_append, List.mem_map, List.mem_reverse]
  constructor
  · rintro (⟨m, hm, rfl⟩ | h | ⟨m, hm, rfl⟩ | h)
    · exact Or.inl ⟨m, hm, Or.inl rfl⟩
    · exact Or.inr (Or.inl h)
    · exact Or.inl ⟨m, hm, Or.inr rfl⟩
    · exact Or.inr (Or.inr h)
  · rintro (⟨m, hm, rfl | rfl⟩ | h | h)
    · exact Or.inl ⟨m, hm, rfl⟩
    · exact Or.inr (Or.inr (Or.inl ⟨m, hm, rfl⟩))
    · exact Or.inr (Or.inl h)
    · exact Or.inr (Or.inr (Or.inr h))

theorem capUp_above (hu : PosCap up) {s : Seg K} (hs : s ∈ capUp c y' w' up) : y' ≤ s.i.y ∧ y' ≤ s.j.y := by
  cases up with
  | none =>
    simp only [capUp, List.mem_cons, List.not_mem_nil, or_false] at hs
    subst hs; exact ⟨le_refl _, le_refl _⟩
  | some t =>
    have := hu t rfl
    simp only [capUp, List.mem_cons, List.not_mem_nil, or_false] at hs
    rcases hs with rfl | rfl <;> constructor <;> dsimp only <;> linarith

theorem capDown_below (hd : PosCap down) {s : Seg K} (hs : s ∈ capDown c y w down) : s.i.y ≤ y ∧ s.j.y ≤ y := by
  cases down with
  | none =>
    simp only [capDown, List.mem_cons, List.not_mem_nil, or_false] at hs
    subst hs; exact ⟨le_refl _, le_refl _⟩
  | some t =>
    have := hd t rfl
    simp only [capDown, List.mem_cons, List.not_mem_nil, or_false] at hs
    rcases hs with rfl | rfl <;> constructor <;> dsimp only <;> linarith

/-- at the height of a shell -/
theorem Stack.slab (h : Stack c y w ms y' w') (he : 0 < e) (hs : ∀ m ∈ ms, Stout e m) (hu : PosCap up) (hd : PosCap down)
    {m : MantelDim K} (hm : m ∈ ms) {p : Pt K} (h1 : m.posV < p.y) (h2 : p.y < m.posV + m.h) :
    Slab (towerOutline c y w ms y' w' up down) p (riseOf m) (fallOf m) := by
  have hne : ms ≠ [] := List.ne_nil_of_mem hm
  have hle := (h.le he hs).2
  refine ⟨h.nodupSegs hne he hs hu hd, mem_tower.2 (Or.inl ⟨m, hm, Or.inl rfl⟩), mem_tower.2 (Or.inl ⟨m, hm, Or.inr rfl⟩), ?_, ⟨h1, h2⟩, ⟨h2, h1⟩⟩
  intro s hs'
  rcases mem_tower.1 hs' with ⟨m', hm', hx⟩ | hx | hx
  · by_cases e' : m' = m
    · subst e'
      rcases hx with rfl | rfl
      · exact Or.inl rfl
      · exact Or.inr (Or.inl rfl)
    · right; right
      haveI : Std.Symm fun a b : MantelDim K => a ≠ b → Follows e a b ∨ Follows e b a := ⟨fun a b h hn => (h (Ne.symm hn)).symm⟩
      have hf := (List.Pairwise.forall_of_forall (R := fun a b => a ≠ b → Follows e a b ∨ Follows e b a) (fun a _ hn => absurd rfl hn)
        ((h.pairwise he hs).imp (S := fun a b => a ≠ b → Follows e a b ∨ Follows e b a) fun h _ => Or.inl h) hm hm') (Ne.symm e')
      have hh := (hs m' hm').h
      rcases hf with hf | hf
      · have := hf.le he
        right
        rcases hx with rfl | rfl <;> simp only [riseOf, fallOf] <;> constructor <;> linarith
      · have := hf.le he
        left
        rcases hx with rfl | rfl <;> simp only [riseOf, fallOf] <;> constructor <;> linarith
  · right; right; right
    obtain ⟨a, b⟩ := capUp_above hu hx
    have := hle m hm
    constructor <;> linarith
  · right; right; left
    obtain ⟨a, b⟩ := capDown_below hd hx
    have := hle m hm
    constructor <;> linarith

/-- at the height of a pointed top -/
theorem Stack.slab_up (h : Stack c y w ms y' w') (hne : ms ≠ []) (he : 0 < e) (hs : ∀ m ∈ ms, Stout e m) {t : K} (hu : 0 < t) (hd : PosCap down)
    {p : Pt K} (h1 : y' < p.y) (h2 : p.y < y' + t) :
    Slab (towerOutline c y w ms y' w' (some t) down) p ⟨⟨c + w', y'⟩, ⟨c, y' + t⟩, .wall⟩ ⟨⟨c, y' + t⟩, ⟨c - w', y'⟩, .wall⟩ := by
  have hle := (h.le he hs).2
  have hhigh := h.high hne he hs
  refine ⟨h.nodupSegs hne he hs (by rintro x ⟨⟩; exact hu) hd, mem_tower.2 (Or.inr (Or.inl (by simp [capUp]))),
    mem_tower.2 (Or.inr (Or.inl (by simp [capUp]))), ?_, ⟨h1, h2⟩, ⟨h2, h1⟩⟩
  intro s hs'
  rcases mem_tower.1 hs' with ⟨m', hm', hx⟩ | hx | hx
  · right; right; left
    have := hle m' hm'
    have hh := (hs m' hm').h
    rcases hx with rfl | rfl <;> simp only [riseOf, fallOf] <;> constructor <;> linarith
  · simp only [capUp, List.mem_cons, List.not_mem_nil, or_false] at hx
    rcases hx with rfl | rfl
    · exact Or.inl rfl
    · exact Or.inr (Or.inl rfl)
  · right; right; left
    obtain ⟨a, b⟩ := capDown_below hd hx
    constructor <;> linarith

/-- at the height of a pointed bottom -/
theorem Stack.slab_down (h : Stack c y w ms y' w') (hne : ms ≠ []) (he : 0 < e) (hs : ∀ m ∈ ms, Stout e m) {t : K} (hu : PosCap up) (hd : 0 < t)
    {p : Pt K} (h1 : p.y < y) (h2 : y - t < p.y) :
    Slab (towerOutline c y w ms y' w' up (some t)) p ⟨⟨c, y - t⟩, ⟨c + w, y⟩, .wall⟩ ⟨⟨c - w, y⟩, ⟨c, y - t⟩, .wall⟩ := by
  have hle := (h.le he hs).2
  have hhigh := h.high hne he hs
  refine ⟨h.nodupSegs hne he hs hu (by rintro x ⟨⟩; exact hd), mem_tower.2 (Or.inr (Or.inr (by simp [capDown]))),
    mem_tower.2 (Or.inr (Or.inr (by simp [capDown]))), ?_, ⟨h2, h1⟩, ⟨h1, h2⟩⟩
  intro s hs'
  rcases mem_tower.1 hs' with ⟨m', hm', hx⟩ | hx | hx
  · right; right; right
    have := hle m' hm'
    have hh := (hs m' hm').h
    rcases hx with rfl | rfl <;> simp only [riseOf, fallOf] <;> constructor <;> linarith
  · right; right; right
    obtain ⟨a, b⟩ := capUp_above hu hx
    constructor <;> linarith
  · simp only [capDown, List.mem_cons, List.not_mem_nil, or_false] at hx
    rcases hx with rfl | rfl
    · exact Or.inr (Or.inl rfl)
    · exact Or.inl rfl

/-- above a flat top -/
theorem Stack.above (h : Stack c y w ms y' w') (hne : ms ≠ []) (he : 0 < e) (hs : ∀ m ∈ ms, Stout e m) (hd : PosCap down)
    {p : Pt K} (h1 : y' < p.y) : OffSides (towerOutline c y w ms y' w' none down) p ∧ ¬ OddRight (towerOutline c y w ms y' w' none down) p := by
  have hle := (h.le he hs).2
  have hhigh := h.high hne he hs
  refine outside_level fun s hs' => Or.inl ?_
  rcases mem_tower.1 hs' with ⟨m', hm', hx⟩ | hx | hx
  · have := hle m' hm'
    have hh := (hs m' hm').h
    rcases hx with rfl | rfl <;> simp only [riseOf, fallOf] <;> constructor <;> linarith
  · simp only [capUp, List.mem_cons, List.not_mem_nil, or_false] at hx
    subst hx
    exact ⟨h1, h1⟩
  · obtain ⟨a, b⟩ := capDown_below hd hx
    constructor <;> linarith

/-- below a flat bottom -/
theorem Stack.below (h : Stack c y w ms y' w') (hne : ms ≠ []) (he : 0 < e) (hs : ∀ m ∈ ms, Stout e m) (hu : PosCap up)
    {p : Pt K} (h1 : p.y < y) : OffSides (towerOutline c y w ms y' w' up none) p ∧ ¬ OddRight (towerOutline c y w ms y' w' up none) p := by
  have hle := (h.le he hs).2
  have hhigh := h.high hne he hs
  refine outside_level fun s hs' => Or.inr ?_
  rcases mem_tower.1 hs' with ⟨m', hm', hx⟩ | hx | hx
  · have := hle m' hm'
    have hh := (hs m' hm').h
    rcases hx with rfl | rfl <;> simp only [riseOf, fallOf] <;> constructor <;> linarith
  · obtain ⟨a, b⟩ := capUp_above hu hx
    constructor <;> linarith
  · simp only [capDown, List.mem_cons, List.not_mem_nil, or_false] at hx
    subst hx
    exact ⟨h1, h1⟩

/-- on the axis, between bottom and top -/
theorem Stack.axis_off (h : Stack c y w ms y' w') (he : 0 < e) (hs : ∀ m ∈ ms, Stout e m) (hu : PosCap up) (hd : PosCap down)
    {v : K} (h1 : y < v) (h2 : v < y') : OffSides (towerOutline c y w ms y' w' up down) ⟨c, v⟩ := by
  intro s hs' ho
  rcases mem_tower.1 hs' with ⟨m', hm', hx⟩ | hx | hx
  · obtain ⟨t, t0, t1, e1⟩ := ho
    have hxx := congrArg Pt.x e1
    have g := hs m' hm'
    have d0 := lt_of_lt_of_le he g.d0
    have d1 := lt_of_lt_of_le he g.d1
    have hax := h.axis m' hm'
    have key : 0 < (1 - t) * (m'.d0 / 2) + t * (m'.d1 / 2) := by
      rcases eq_or_lt_of_le t0 with h0 | h0
      · rw [← h0]; linarith
      · have := mul_pos h0 d1
        have := mul_nonneg (sub_nonneg.2 t1) d0.le
        linarith
    have key' : 0 < (1 - t) * (m'.d1 / 2) + t * (m'.d0 / 2) := by
      rcases eq_or_lt_of_le t0 with h0 | h0
      · rw [← h0]; linarith
      · have := mul_pos h0 d0
        have := mul_nonneg (sub_nonneg.2 t1) d1.le
        linarith
    rcases hx with rfl | rfl <;> simp only [riseOf, fallOf, lerp, hax] at hxx <;> linarith
  · obtain ⟨a, b⟩ := capUp_above hu hx
    exact OffLevel.off (p := ⟨c, v⟩) (Or.inr ⟨lt_of_lt_of_le h2 a, lt_of_lt_of_le h2 b⟩) ho
  · obtain ⟨a, b⟩ := capDown_below hd hx
    exact OffLevel.off (p := ⟨c, v⟩) (Or.inl ⟨lt_of_le_of_lt a h1, lt_of_le_of_lt b h1⟩) ho

end

end Srep
