import Verif.Lemmas.TowerSlab
import Verif.Lemmas.Bands

/-! Parity of the sides to the right of a point, for outlines made of bands. -/

set_option linter.unusedSectionVars false

namespace Srep
open Ray
variable {K : Type} [Field K] [LinearOrder K] [IsStrictOrderedRing K] [FloorRing K]
variable {c y l r e : K} {ms : List (Band K)} {y' l' r' : K} {up down : Option (Pt K)}

theorem Bands.nodupSegs (h : Bands y l r ms y' l' r') (hne : ms ≠ []) (he : 0 < e) (hs : ∀ m ∈ ms, StoutBand c e m) (hu : ApexUp c y' up)
    (hd : ApexDown c y down) : (bandOutline y l r ms y' l' r' up down).Nodup := List.Nodup.of_map _ (h.nodup hne he hs hu hd)

theorem mem_bands {s : Seg K} : s ∈ bandOutline y l r ms y' l' r' up down ↔
    (∃ m ∈ ms, s = riseBand m ∨ s = fallBand m) ∨ s ∈ lidUp y' l' r' up ∨ s ∈ lidDown y l r down := by
  unfold bandOutline
  simp only [List.mem_append, List.mem_map, List.mem_reverse]
  constructor
  · rintro (⟨m, hm, rfl⟩ | h | ⟨m, hm, rfl⟩ | h)
    · exact Or.inl ⟨m, hm, Or.inl rfl⟩
    · exact Or.inr (Or.inl h)
    · exact Or.inl ⟨m, hm, Or.inr rfl⟩
    · exact Or.inr (Or.inr h)
  · rintro (⟨m, hm, rfl | rfl⟩ | h | h)
    · exact Or.inl ⟨m, hm, rfl⟩
    · exact Or.inr (Or.inr (Or.inl ⟨m, hm, rfl⟩))
    · exact Or.inr (Or.inl h)
    · exact Or.inr (Or.inr (Or.inr h))

theorem lidUp_above (hu : ApexUp c y' up) {s : Seg K} (hs : s ∈ lidUp y' l' r' up) : y' ≤ s.i.y ∧ y' ≤ s.j.y := by
  cases up with
  | none =>
    simp only [lidUp, List.mem_cons, List.not_mem_nil, or_false] at hs
    subst hs; exact ⟨le_refl _, le_refl _⟩
  | some t =>
    have := (hu t rfl).2
    simp only [lidUp, List.mem_cons, List.not_mem_nil, or_false] at hs
    rcases hs with rfl | rfl <;> constructor <;> dsimp only <;> linarith

theorem lidDown_below (hd : ApexDown c y down) {s : Seg K} (hs : s ∈ lidDown y l r down) : s.i.y ≤ y ∧ s.j.y ≤ y := by
  cases down with
  | none =>
    simp only [lidDown, List.mem_cons, List.not_mem_nil, or_false] at hs
    subst hs; exact ⟨le_refl _, le_refl _⟩
  | some t =>
    have := (hd t rfl).2
    simp only [lidDown, List.mem_cons, List.not_mem_nil, or_false] at hs
    rcases hs with rfl | rfl <;> constructor <;> dsimp only <;> linarith

/-- at the height of a band -/
theorem Bands.slab (h : Bands y l r ms y' l' r') (he : 0 < e) (hs : ∀ m ∈ ms, StoutBand c e m) (hu : ApexUp c y' up) (hd : ApexDown c y down)
    {m : Band K} (hm : m ∈ ms) {p : Pt K} (h1 : m.y0 < p.y) (h2 : p.y < m.y1) :
    Slab (bandOutline y l r ms y' l' r' up down) p (riseBand m) (fallBand m) := by
  have hne : ms ≠ [] := List.ne_nil_of_mem hm
  have hle := (h.le he hs).2
  refine ⟨h.nodupSegs hne he hs hu hd, mem_bands.2 (Or.inl ⟨m, hm, Or.inl rfl⟩), mem_bands.2 (Or.inl ⟨m, hm, Or.inr rfl⟩), ?_, ⟨h1, h2⟩, ⟨h2, h1⟩⟩
  intro s hs'
  rcases mem_bands.1 hs' with ⟨m', hm', hx⟩ | hx | hx
  · by_cases e' : m' = m
    · subst e'
      rcases hx with rfl | rfl
      · exact Or.inl rfl
      · exact Or.inr (Or.inl rfl)
    · right; right
      haveI : Std.Symm fun a b : Band K => a ≠ b → BandFollows e a b ∨ BandFollows e b a := ⟨fun a b h hn => (h (Ne.symm hn)).symm⟩
      have hf := (List.Pairwise.forall_of_forall (R := fun a b => a ≠ b → BandFollows e a b ∨ BandFollows e b a) (fun a _ hn => absurd rfl hn)
        ((h.pairwise he hs).imp (S := fun a b => a ≠ b → BandFollows e a b ∨ BandFollows e b a) fun h _ => Or.inl h) hm hm') (Ne.symm e')
      have hh := (hs m' hm').h
      rcases hf with hf | hf
      · have := hf.le he
        right
        rcases hx with rfl | rfl <;> simp only [riseBand, fallBand] <;> constructor <;> linarith
      · have := hf.le he
        left
        rcases hx with rfl | rfl <;> simp only [riseBand, fallBand] <;> constructor <;> linarith
  · right; right; right
    obtain ⟨a, b⟩ := lidUp_above hu hx
    have := hle m hm
    constructor <;> linarith
  · right; right; left
    obtain ⟨a, b⟩ := lidDown_below hd hx
    have := hle m hm
    constructor <;> linarith

/-- at the height of a pointed top -/
theorem Bands.slab_up (h : Bands y l r ms y' l' r') (hne : ms ≠ []) (he : 0 < e) (hs : ∀ m ∈ ms, StoutBand c e m) {t : Pt K}
    (hu : ApexUp c y' (some t)) (hd : ApexDown c y down) {p : Pt K} (h1 : y' < p.y) (h2 : p.y < t.y) :
    Slab (bandOutline y l r ms y' l' r' (some t) down) p ⟨⟨r', y'⟩, t, .wall⟩ ⟨t, ⟨l', y'⟩, .wall⟩ := by
  have hle := (h.le he hs).2
  have hhigh := h.high hne he hs
  refine ⟨h.nodupSegs hne he hs hu hd, mem_bands.2 (Or.inr (Or.inl (by simp [lidUp]))),
    mem_bands.2 (Or.inr (Or.inl (by simp [lidUp]))), ?_, ⟨h1, h2⟩, ⟨h2, h1⟩⟩
  intro s hs'
  rcases mem_bands.1 hs' with ⟨m', hm', hx⟩ | hx | hx
  · right; right; left
    have := hle m' hm'
    have hh := (hs m' hm').h
    rcases hx with rfl | rfl <;> simp only [riseBand, fallBand] <;> constructor <;> linarith
  · simp only [lidUp, List.mem_cons, List.not_mem_nil, or_false] at hx
    rcases hx with rfl | rfl
    · exact Or.inl rfl
    · exact Or.inr (Or.inl rfl)
  · right; right; left
    obtain ⟨a, b⟩ := lidDown_below hd hx
    constructor <;> linarith

/-- at the height of a pointed bottom -/
theorem Bands.slab_down (h : Bands y l r ms y' l' r') (hne : ms ≠ []) (he : 0 < e) (hs : ∀ m ∈ ms, StoutBand c e m) {t : Pt K}
    (hu : ApexUp c y' up) (hd : ApexDown c y (some t)) {p : Pt K} (h1 : p.y < y) (h2 : t.y < p.y) :
    Slab (bandOutline y l r ms y' l' r' up (some t)) p ⟨t, ⟨r, y⟩, .wall⟩ ⟨⟨l, y⟩, t, .wall⟩ := by
  have hle := (h.le he hs).2
  have hhigh := h.high hne he hs
  refine ⟨h.nodupSegs hne he hs hu hd, mem_bands.2 (Or.inr (Or.inr (by simp [lidDown]))),
    mem_bands.2 (Or.inr (Or.inr (by simp [lidDown]))), ?_, ⟨h2, h1⟩, ⟨h1, h2⟩⟩
  intro s hs'
  rcases mem_bands.1 hs' with ⟨m', hm', hx⟩ | hx | hx
  · right; right; right
    have := hle m' hm'
    have hh := (hs m' hm').h
    rcases hx with rfl | rfl <;> simp only [riseBand, fallBand] <;> constructor <;> linarith
  · right; right; right
    obtain ⟨a, b⟩ := lidUp_above hu hx
    constructor <;> linarith
  · simp only [lidDown, List.mem_cons, List.not_mem_nil, or_false] at hx
    rcases hx with rfl | rfl
    · exact Or.inr (Or.inl rfl)
    · exact Or.inl rfl

/-- above a flat top -/
theorem Bands.above (h : Bands y l r ms y' l' r') (hne : ms ≠ []) (he : 0 < e) (hs : ∀ m ∈ ms, StoutBand c e m) (hd : ApexDown c y down)
    {p : Pt K} (h1 : y' < p.y) :
    OffSides (bandOutline y l r ms y' l' r' none down) p ∧ ¬ OddRight (bandOutline y l r ms y' l' r' none down) p := by
  have hle := (h.le he hs).2
  have hhigh := h.high hne he hs
  refine outside_level fun s hs' => Or.inl ?_
  rcases mem_bands.1 hs' with ⟨m', hm', hx⟩ | hx | hx
  · have := hle m' hm'
    have hh := (hs m' hm').h
    rcases hx with rfl | rfl <;> simp only [riseBand, fallBand] <;> constructor <;> linarith
  · simp only [lidUp, List.mem_cons, List.not_mem_nil, or_false] at hx
    subst hx
    exact ⟨h1, h1⟩
  · obtain ⟨a, b⟩ := lidDown_below hd hx
    constructor <;> linarith

/-- below a flat bottom -/
theorem Bands.below (h : Bands y l r ms y' l' r') (hne : ms ≠ []) (he : 0 < e) (hs : ∀ m ∈ ms, StoutBand c e m) (hu : ApexUp c y' up)
    {p : Pt K} (h1 : p.y < y) :
    OffSides (bandOutline y l r ms y' l' r' up none) p ∧ ¬ OddRight (bandOutline y l r ms y' l' r' up none) p := by
  have hle := (h.le he hs).2
  have hhigh := h.high hne he hs
  refine outside_level fun s hs' => Or.inr ?_
  rcases mem_bands.1 hs' with ⟨m', hm', hx⟩ | hx | hx
  · have := hle m' hm'
    have hh := (hs m' hm').h
    rcases hx with rfl | rfl <;> simp only [riseBand, fallBand] <;> constructor <;> linarith
  · obtain ⟨a, b⟩ := lidUp_above hu hx
    constructor <;> linarith
  · simp only [lidDown, List.mem_cons, List.not_mem_nil, or_false] at hx
    subst hx
    exact ⟨h1, h1⟩

/-- on the axis, between bottom and top -/
theorem Bands.axis_off (h : Bands y l r ms y' l' r') (he : 0 < e) (hs : ∀ m ∈ ms, StoutBand c e m) (hu : ApexUp c y' up) (hd : ApexDown c y down)
    {v : K} (h1 : y < v) (h2 : v < y') : OffSides (bandOutline y l r ms y' l' r' up down) ⟨c, v⟩ := by
  intro s hs' ho
  rcases mem_bands.1 hs' with ⟨m', hm', hx⟩ | hx | hx
  · obtain ⟨t, t0, t1, e1⟩ := ho
    have hxx := congrArg Pt.x e1
    have g := hs m' hm'
    have t1' : 0 ≤ 1 - t := sub_nonneg.2 t1
    have a1 := mul_le_mul_of_nonneg_left g.r0 t1'
    have a2 := mul_le_mul_of_nonneg_left g.r1 t0
    have b1 := mul_le_mul_of_nonneg_left g.l0 t0
    have b2 := mul_le_mul_of_nonneg_left g.l1 t1'
    rcases hx with rfl | rfl <;> simp only [riseBand, fallBand, lerp] at hxx <;> nlinarith
  · obtain ⟨a, b⟩ := lidUp_above hu hx
    exact OffLevel.off (p := ⟨c, v⟩) (Or.inr ⟨lt_of_lt_of_le h2 a, lt_of_lt_of_le h2 b⟩) ho
  · obtain ⟨a, b⟩ := lidDown_below hd hx
    exact OffLevel.off (p := ⟨c, v⟩) (Or.inl ⟨lt_of_le_of_lt a h1, lt_of_le_of_lt b h1⟩) ho

end Srep
