import Verif.Lemmas.Tower
import Verif.Spec.Bands

/-! Outlines around an axis given by coordinates: the corners are different and the sides keep clear of each other. -/

set_option linter.unusedSectionVars false

namespace Srep
variable {K : Type} [Field K] [LinearOrder K] [IsStrictOrderedRing K] [FloorRing K]

/-- a band is at least `e` high and its corners are at least `e` to the right and to the left of the axis `c` -/
structure StoutBand (c e : K) (m : Band K) : Prop where
  h : m.y0 + e ≤ m.y1
  l0 : m.l0 + e ≤ c
  r0 : c + e ≤ m.r0
  l1 : m.l1 + e ≤ c
  r1 : c + e ≤ m.r1

theorem Bands.le {c y l r e : K} {ms : List (Band K)} {y' l' r' : K} (h : Bands y l r ms y' l' r') (he : 0 < e)
    (hs : ∀ m ∈ ms, StoutBand c e m) : y ≤ y' ∧ ∀ m ∈ ms, y ≤ m.y0 ∧ m.y1 ≤ y' := by
  induction ms generalizing y l r with
  | nil => exact ⟨h.1.le, fun m hm => by cases hm⟩
  | cons a as ih =>
    obtain ⟨h1, h2⟩ := ih h.2.2.2 fun m hm => hs m (List.mem_cons_of_mem _ hm)
    have := (hs a (List.mem_cons_self ..)).h
    have e1 := h.1
    refine ⟨by linarith, fun m hm => ?_⟩
    rcases List.mem_cons.1 hm with rfl | hm
    · exact ⟨e1.ge, h1⟩
    · have := h2 m hm
      exact ⟨by linarith, this.2⟩

/-- of two bands the one follows immediately on the other, or there is a distance -/
def BandFollows (e : K) (m m' : Band K) : Prop :=
  (m'.y0 = m.y1 ∧ m'.l0 = m.l1 ∧ m'.r0 = m.r1) ∨ m.y1 + e ≤ m'.y0

theorem BandFollows.le {e : K} (he : 0 < e) {m m' : Band K} (h : BandFollows e m m') : m.y1 ≤ m'.y0 := by
  rcases h with ⟨h, -⟩ | h <;> linarith

theorem Bands.pairwise {c y l r e : K} {ms : List (Band K)} {y' l' r' : K} (h : Bands y l r ms y' l' r') (he : 0 < e)
    (hs : ∀ m ∈ ms, StoutBand c e m) : ms.Pairwise (BandFollows e) := by
  induction ms generalizing y l r with
  | nil => exact .nil
  | cons a as ih =>
    have hs' : ∀ m ∈ as, StoutBand c e m := fun m hm => hs m (List.mem_cons_of_mem _ hm)
    refine .cons ?_ (ih h.2.2.2 hs')
    intro m hm
    have ht := h.2.2.2
    cases as with
    | nil => cases hm
    | cons b bs =>
      rcases List.mem_cons.1 hm with rfl | hm
      · exact Or.inl ⟨ht.1, ht.2.1, ht.2.2.1⟩
      · right
        have h3 := (ht.2.2.2.le he fun m hm => hs' m (List.mem_cons_of_mem _ hm)).2 m hm
        have := (hs' b (List.mem_cons_self ..)).h
        have := ht.1
        linarith [h3.1]

/-- the last band ends at the top, the others below -/
theorem Bands.top {c y l r e : K} {ms : List (Band K)} {y' l' r' : K} (h : Bands y l r ms y' l' r') (he : 0 < e)
    (hs : ∀ m ∈ ms, StoutBand c e m) : ∀ m ∈ ms, (m.y1 = y' ∧ m.l1 = l' ∧ m.r1 = r') ∨ m.y1 + e ≤ y' := by
  induction ms generalizing y l r with
  | nil => intro m hm; cases hm
  | cons a as ih =>
    have hs' : ∀ m ∈ as, StoutBand c e m := fun m hm => hs m (List.mem_cons_of_mem _ hm)
    intro m hm
    rcases List.mem_cons.1 hm with rfl | hm
    · cases as with
      | nil => exact Or.inl h.2.2.2
      | cons b bs =>
        right
        have ht := h.2.2.2
        have h3 := (ht.2.2.2.le he fun m hm => hs' m (List.mem_cons_of_mem _ hm)).1
        have := (hs' b (List.mem_cons_self ..)).h
        have := ht.1
        linarith
    · exact ih h.2.2.2 hs' m hm

/-- the first band begins at the bottom, the others above -/
theorem Bands.bottom {c y l r e : K} {ms : List (Band K)} {y' l' r' : K} (h : Bands y l r ms y' l' r') (he : 0 < e)
    (hs : ∀ m ∈ ms, StoutBand c e m) : ∀ m ∈ ms, (m.y0 = y ∧ m.l0 = l ∧ m.r0 = r) ∨ y + e ≤ m.y0 := by
  cases ms with
  | nil => intro m hm; cases hm
  | cons a as =>
    have hs' : ∀ m ∈ as, StoutBand c e m := fun m hm => hs m (List.mem_cons_of_mem _ hm)
    intro m hm
    rcases List.mem_cons.1 hm with rfl | hm
    · exact Or.inl ⟨h.1, h.2.1, h.2.2.1⟩
    · right
      have h3 := (h.2.2.2.le he hs').2 m hm
      have := (hs a (List.mem_cons_self ..)).h
      have := h.1
      linarith [h3.1]

theorem Bands.wide {c y l r e : K} {ms : List (Band K)} {y' l' r' : K} (h : Bands y l r ms y' l' r') (hne : ms ≠ [])
    (hs : ∀ m ∈ ms, StoutBand c e m) : (l + e ≤ c ∧ c + e ≤ r) ∧ l' + e ≤ c ∧ c + e ≤ r' := by
  induction ms generalizing y l r with
  | nil => exact absurd rfl hne
  | cons a as ih =>
    have ha := hs a (List.mem_cons_self ..)
    refine ⟨⟨h.2.1 ▸ ha.l0, h.2.2.1 ▸ ha.r0⟩, ?_⟩
    cases as with
    | nil => exact ⟨h.2.2.2.2.1 ▸ ha.l1, h.2.2.2.2.2 ▸ ha.r1⟩
    | cons b bs => exact (ih h.2.2.2 (by simp) fun m hm => hs m (List.mem_cons_of_mem _ hm)).2

theorem Bands.high {c y l r e : K} {ms : List (Band K)} {y' l' r' : K} (h : Bands y l r ms y' l' r') (hne : ms ≠ []) (he : 0 < e)
    (hs : ∀ m ∈ ms, StoutBand c e m) : y + e ≤ y' := by
  cases ms with
  | nil => exact absurd rfl hne
  | cons a as =>
    have h3 := (h.2.2.2.le he fun m hm => hs m (List.mem_cons_of_mem _ hm)).1
    have := (hs a (List.mem_cons_self ..)).h
    have := h.1
    linarith

/-! ### the outline -/

theorem Bands.leads_up {y l r : K} {ms : List (Band K)} {y' l' r' : K} (h : Bands y l r ms y' l' r') :
    Leads ⟨r, y⟩ (ms.map riseBand) ⟨r', y'⟩ := by
  induction ms generalizing y l r with
  | nil => obtain ⟨rfl, rfl, rfl⟩ := h; rfl
  | cons m as ih =>
    refine ⟨?_, ih h.2.2.2⟩
    unfold riseBand
    rw [h.1, h.2.2.1]

theorem Bands.leads_down {y l r : K} {ms : List (Band K)} {y' l' r' : K} (h : Bands y l r ms y' l' r') :
    Leads ⟨l', y'⟩ (ms.reverse.map fallBand) ⟨l, y⟩ := by
  induction ms generalizing y l r with
  | nil => obtain ⟨rfl, rfl, rfl⟩ := h; rfl
  | cons m as ih =>
    rw [List.reverse_cons, List.map_append]
    refine (ih h.2.2.2).append ⟨rfl, ?_⟩
    unfold fallBand
    dsimp only
    rw [h.1, h.2.1]
    rfl

theorem lidUp_leads (y l r : K) (t : Option (Pt K)) : Leads ⟨r, y⟩ (lidUp y l r t) ⟨l, y⟩ := by
  cases t with
  | none => exact ⟨rfl, rfl⟩
  | some t => exact ⟨rfl, rfl, rfl⟩

theorem lidDown_leads (y l r : K) (t : Option (Pt K)) : Leads ⟨l, y⟩ (lidDown y l r t) ⟨r, y⟩ := by
  cases t with
  | none => exact ⟨rfl, rfl⟩
  | some t => exact ⟨rfl, rfl, rfl⟩

theorem Bands.closed {y l r : K} {ms : List (Band K)} {y' l' r' : K} (h : Bands y l r ms y' l' r') (up down : Option (Pt K)) :
    ClosedChain (bandOutline y l r ms y' l' r' up down) := by
  unfold bandOutline
  exact (h.leads_up.append ((lidUp_leads y' l' r' up).append (h.leads_down.append (lidDown_leads y l r down)))).closed

/-- the apex of the top and that of the bottom are on the axis -/
def ApexUp (c y : K) (t : Option (Pt K)) : Prop := ∀ p, t = some p → p.x = c ∧ y ≤ p.y
def ApexDown (c y : K) (t : Option (Pt K)) : Prop := ∀ p, t = some p → p.x = c ∧ p.y ≤ y

theorem Bands.far {c y l r e : K} {ms : List (Band K)} {y' l' r' : K} (h : Bands y l r ms y' l' r') (hne : ms ≠ []) (he : 0 < e)
    (hs : ∀ m ∈ ms, StoutBand c e m) {up down : Option (Pt K)} (hu : ApexUp c y' up) (hd : ApexDown c y down) :
    ((bandOutline y l r ms y' l' r' up down).map Seg.i).Pairwise (FarPts e) := by
  obtain ⟨⟨hl, hr⟩, hl', hr'⟩ := h.wide hne hs
  have hhigh := h.high hne he hs
  have hle := (h.le he hs).2
  have hR : ∀ p ∈ (ms.map riseBand).map Seg.i, ∃ m ∈ ms, p = ⟨m.r0, m.y0⟩ := by
    intro p hp
    simp only [List.map_map, List.mem_map] at hp
    obtain ⟨m, hm, rfl⟩ := hp
    exact ⟨m, hm, by simp only [Function.comp, riseBand]⟩
  have hL : ∀ p ∈ (ms.reverse.map fallBand).map Seg.i, ∃ m ∈ ms, p = ⟨m.l1, m.y1⟩ := by
    intro p hp
    simp only [List.map_map, List.mem_map, List.mem_reverse] at hp
    obtain ⟨m, hm, rfl⟩ := hp
    exact ⟨m, hm, by simp only [Function.comp, fallBand]⟩
  have hU : ∀ p ∈ (lidUp y' l' r' up).map Seg.i, p = ⟨r', y'⟩ ∨ (p.x = c ∧ y' ≤ p.y) := by
    intro p hp
    cases up with
    | none => left; simpa [lidUp] using hp
    | some t =>
      simp only [lidUp, List.map_cons, List.map_nil, List.mem_cons, List.not_mem_nil, or_false] at hp
      rcases hp with rfl | rfl
      · exact Or.inl rfl
      · exact Or.inr (hu _ rfl)
  have hD : ∀ p ∈ (lidDown y l r down).map Seg.i, p = ⟨l, y⟩ ∨ (p.x = c ∧ p.y ≤ y) := by
    intro p hp
    cases down with
    | none => left; simpa [lidDown] using hp
    | some t =>
      simp only [lidDown, List.map_cons, List.map_nil, List.mem_cons, List.not_mem_nil, or_false] at hp
      rcases hp with rfl | rfl
      · exact Or.inl rfl
      · exact Or.inr (hd _ rfl)
  unfold bandOutline
  simp only [List.map_append, List.pairwise_append]
  refine ⟨?_, ⟨?_, ⟨?_, ?_, ?_⟩, ?_⟩, ?_⟩
  · rw [List.pairwise_map, List.pairwise_map]
    refine (h.pairwise he hs).imp_of_mem ?_
    intro a b ha hb hab
    apply farPts_of
    right; right; left
    have := hab.le he
    have := (hs a ha).h
    simp only [riseBand]
    linarith
  · cases up with
    | none => simp [lidUp]
    | some t =>
      simp only [lidUp, List.map_cons, List.map_nil, List.pairwise_cons, List.mem_cons, List.not_mem_nil, or_false, forall_eq, false_imp_iff,
        implies_true, List.Pairwise.nil, and_true]
      apply farPts_of
      right; left
      show t.x + e ≤ r'
      have := (hu t rfl).1
      linarith
  · rw [List.pairwise_map, List.pairwise_map, List.pairwise_reverse]
    refine (h.pairwise he hs).imp_of_mem ?_
    intro a b ha hb hab
    apply farPts_of
    right; right; right
    have := hab.le he
    have := (hs b hb).h
    simp only [fallBand]
    linarith
  · cases down with
    | none => simp [lidDown]
    | some t =>
      simp only [lidDown, List.map_cons, List.map_nil, List.pairwise_cons, List.mem_cons, List.not_mem_nil, or_false, forall_eq, false_imp_iff,
        implies_true, List.Pairwise.nil, and_true]
      apply farPts_of
      left
      show l + e ≤ t.x
      have := (hd t rfl).1
      linarith
  · intro p hp q hq
    obtain ⟨m, hm, rfl⟩ := hL p hp
    have := hs m hm
    have h1 := hle m hm
    apply farPts_of
    rcases hD q hq with rfl | ⟨t1, t2⟩
    · right; right; right
      show y + e ≤ m.y1
      linarith [this.h]
    · left
      show m.l1 + e ≤ q.x
      linarith [this.l1]
  · intro p hp q hq
    apply farPts_of
    rcases List.mem_append.1 hq with hq | hq
    · obtain ⟨m, hm, rfl⟩ := hL q hq
      have := (hs m hm).l1
      right; left
      rcases hU p hp with rfl | ⟨t1, t2⟩
      · show m.l1 + e ≤ r'
        linarith
      · show m.l1 + e ≤ p.x
        linarith
    · right; right; right
      have h1 : q.y ≤ y := by
        rcases hD q hq with rfl | ⟨t1, t2⟩
        · exact le_refl _
        · exact t2
      have h2 : y' ≤ p.y := by
        rcases hU p hp with rfl | ⟨t1, t2⟩
        · exact le_refl _
        · exact t2
      linarith
  · intro p hp q hq
    obtain ⟨m, hm, rfl⟩ := hR p hp
    have hsm := hs m hm
    have h1 := hle m hm
    apply farPts_of
    rcases List.mem_append.1 hq with hq | hq
    · right; right; left
      have h2 : y' ≤ q.y := by
        rcases hU q hq with rfl | ⟨t1, t2⟩
        · exact le_refl _
        · exact t2
      show m.y0 + e ≤ q.y
      linarith [hsm.h]
    · right; left
      have h2 : q.x ≤ c := by
        rcases List.mem_append.1 hq with hq | hq
        · obtain ⟨m', hm', rfl⟩ := hL q hq
          have := (hs m' hm').l1
          show m'.l1 ≤ c
          linarith
        · rcases hD q hq with rfl | ⟨t1, t2⟩
          · show l ≤ c; linarith
          · exact t1.le
      show q.x + e ≤ m.r0
      linarith [hsm.r0]

theorem Bands.nodup {c y l r e : K} {ms : List (Band K)} {y' l' r' : K} (h : Bands y l r ms y' l' r') (hne : ms ≠ []) (he : 0 < e)
    (hs : ∀ m ∈ ms, StoutBand c e m) {up down : Option (Pt K)} (hu : ApexUp c y' up) (hd : ApexDown c y down) :
    ((bandOutline y l r ms y' l' r' up down).map Seg.i).Nodup := by
  refine (h.far hne he hs hu hd).imp ?_
  rintro p q h rfl
  rcases h with h | h <;> rw [sub_self, abs_zero] at h <;> exact absurd h (not_le.2 he)

theorem Bands.apart {c y l r e : K} {ms : List (Band K)} {y' l' r' : K} (h : Bands y l r ms y' l' r') (hne : ms ≠ []) (he : 0 < e)
    (hs : ∀ m ∈ ms, StoutBand c e m) {up down : Option (Pt K)} (hu : ApexUp c y' up) (hd : ApexDown c y down) :
    Apart e {p | p ∈ (bandOutline y l r ms y' l' r' up down).map Seg.i} := by
  have hp := h.far hne he hs hu hd
  intro p hp' q hq' hne
  haveI : Std.Symm fun p q : Pt K => p ≠ q → FarPts e p q := ⟨fun p q h hn => (h (Ne.symm hn)).symm⟩
  exact (List.Pairwise.forall_of_forall (R := fun p q => p ≠ q → FarPts e p q)
    (fun p _ hn => absurd rfl hn)
    (hp.imp (S := fun p q => p ≠ q → FarPts e p q) fun h _ => h) hp' hq') hne

/-- the sides of the outline keep clear of each other -/
theorem Bands.clear {c y l r e : K} {ms : List (Band K)} {y' l' r' : K} (h : Bands y l r ms y' l' r') (hne : ms ≠ []) (he : 1 / 10 ^ 6 ≤ e)
    (hs : ∀ m ∈ ms, StoutBand c e m) {up down : Option (Pt K)} (hu : ApexUp c y' up) (hd : ApexDown c y down) :
    (bandOutline y l r ms y' l' r' up down).Pairwise KeepClear := by
  have he0 : 0 < e := lt_of_lt_of_le (by positivity) he
  obtain ⟨⟨hl, hr⟩, hl', hr'⟩ := h.wide hne hs
  have hhigh := h.high hne he0 hs
  have hle := (h.le he0 hs).2
  -- boxes of the sides
  have xL : ∀ s o : Seg K, ∀ x, (x ≤ s.i.x ∧ x ≤ s.j.x) → (o.i.x + e ≤ x ∧ o.j.x + e ≤ x) → StripsApart s o := by
    intro s o x h1 h2
    left
    rintro a (rfl | rfl) b (rfl | rfl) <;> linarith [h1.1, h1.2, h2.1, h2.2]
  have yL : ∀ s o : Seg K, ∀ x, (x ≤ s.i.y ∧ x ≤ s.j.y) → (o.i.y + e ≤ x ∧ o.j.y + e ≤ x) → StripsApart s o := by
    intro s o x h1 h2
    right; right; left
    rintro a (rfl | rfl) b (rfl | rfl) <;> linarith [h1.1, h1.2, h2.1, h2.2]
  have sym : ∀ s o : Seg K, StripsApart s o → KeepClear o s := fun s o h => KeepClear.symm (Or.inr h)
  have rise : ∀ m ∈ ms, (c + e ≤ (riseBand m).i.x ∧ c + e ≤ (riseBand m).j.x) ∧ (riseBand m).i.y = m.y0 ∧ (riseBand m).j.y = m.y1 := by
    intro m hm
    have := hs m hm
    simp only [riseBand]
    exact ⟨⟨this.r0, this.r1⟩, trivial, trivial⟩
  have fall : ∀ m ∈ ms, ((fallBand m).i.x + e ≤ c ∧ (fallBand m).j.x + e ≤ c) ∧ (fallBand m).j.y = m.y0 ∧ (fallBand m).i.y = m.y1 := by
    intro m hm
    have := hs m hm
    simp only [fallBand]
    exact ⟨⟨this.l1, this.l0⟩, trivial, trivial⟩
  have hUy : ∀ s ∈ lidUp y' l' r' up, y' ≤ s.i.y ∧ y' ≤ s.j.y := by
    intro s hs'
    cases up with
    | none =>
      simp only [lidUp, List.mem_cons, List.not_mem_nil, or_false] at hs'
      subst hs'; exact ⟨le_refl _, le_refl _⟩
    | some t =>
      obtain ⟨t1, t2⟩ := hu t rfl
      simp only [lidUp, List.mem_cons, List.not_mem_nil, or_false] at hs'
      rcases hs' with rfl | rfl <;> constructor <;> dsimp only <;> linarith
  have hDy : ∀ s ∈ lidDown y l r down, s.i.y ≤ y ∧ s.j.y ≤ y := by
    intro s hs'
    cases down with
    | none =>
      simp only [lidDown, List.mem_cons, List.not_mem_nil, or_false] at hs'
      subst hs'; exact ⟨le_refl _, le_refl _⟩
    | some t =>
      obtain ⟨t1, t2⟩ := hd t rfl
      simp only [lidDown, List.mem_cons, List.not_mem_nil, or_false] at hs'
      rcases hs' with rfl | rfl <;> constructor <;> dsimp only <;> linarith
  -- a side of the top has a given corner or is beyond the axis
  have hUr : ∀ s ∈ lidUp y' l' r' up, s.i = ⟨r', y'⟩ ∨ (s.i.x ≤ c ∧ s.j.x ≤ c) := by
    intro s hs'
    cases up with
    | none =>
      simp only [lidUp, List.mem_cons, List.not_mem_nil, or_false] at hs'
      subst hs'; exact Or.inl rfl
    | some t =>
      obtain ⟨t1, t2⟩ := hu t rfl
      simp only [lidUp, List.mem_cons, List.not_mem_nil, or_false] at hs'
      rcases hs' with rfl | rfl
      · exact Or.inl rfl
      · right; constructor <;> dsimp only <;> linarith
  have hUl : ∀ s ∈ lidUp y' l' r' up, s.j = ⟨l', y'⟩ ∨ (c ≤ s.i.x ∧ c ≤ s.j.x) := by
    intro s hs'
    cases up with
    | none =>
      simp only [lidUp, List.mem_cons, List.not_mem_nil, or_false] at hs'
      subst hs'; exact Or.inl rfl
    | some t =>
      obtain ⟨t1, t2⟩ := hu t rfl
      simp only [lidUp, List.mem_cons, List.not_mem_nil, or_false] at hs'
      rcases hs' with rfl | rfl
      · right; constructor <;> dsimp only <;> linarith
      · exact Or.inl rfl
  have hDl : ∀ s ∈ lidDown y l r down, s.i = ⟨l, y⟩ ∨ (c ≤ s.i.x ∧ c ≤ s.j.x) := by
    intro s hs'
    cases down with
    | none =>
      simp only [lidDown, List.mem_cons, List.not_mem_nil, or_false] at hs'
      subst hs'; exact Or.inl rfl
    | some t =>
      obtain ⟨t1, t2⟩ := hd t rfl
      simp only [lidDown, List.mem_cons, List.not_mem_nil, or_false] at hs'
      rcases hs' with rfl | rfl
      · exact Or.inl rfl
      · right; constructor <;> dsimp only <;> linarith
  have hDr : ∀ s ∈ lidDown y l r down, s.j = ⟨r, y⟩ ∨ (s.i.x ≤ c ∧ s.j.x ≤ c) := by
    intro s hs'
    cases down with
    | none =>
      simp only [lidDown, List.mem_cons, List.not_mem_nil, or_false] at hs'
      subst hs'; exact Or.inl rfl
    | some t =>
      obtain ⟨t1, t2⟩ := hd t rfl
      simp only [lidDown, List.mem_cons, List.not_mem_nil, or_false] at hs'
      rcases hs' with rfl | rfl
      · right; constructor <;> dsimp only <;> linarith
      · exact Or.inl rfl
  unfold bandOutline
  simp only [List.pairwise_append]
  refine ⟨?_, ⟨?_, ⟨?_, ?_, ?_⟩, ?_⟩, ?_⟩
  · rw [List.pairwise_map]
    refine (h.pairwise he0 hs).imp_of_mem ?_
    intro a b ha hb hab
    obtain ⟨-, a1, a2⟩ := rise a ha
    obtain ⟨-, b1, b2⟩ := rise b hb
    have hh := (hs a ha).h
    have hh' := (hs b hb).h
    rcases hab with ⟨h1, h2⟩ | h1
    · left; right; right; left
      simp only [riseBand, h1, h2.2]
    · refine sym _ _ (yL _ _ b.y0 ⟨b1.ge, ?_⟩ ⟨?_, ?_⟩)
      · rw [b2]; linarith
      · rw [a1]; linarith
      · rw [a2]; linarith
  · cases up with
    | none => simp [lidUp]
    | some t =>
      simp only [lidUp, List.pairwise_cons, List.mem_cons, List.not_mem_nil, or_false, forall_eq, false_imp_iff,
        implies_true, List.Pairwise.nil, and_true]
      left; right; right; left; rfl
  · rw [List.pairwise_map, List.pairwise_reverse]
    refine (h.pairwise he0 hs).imp_of_mem ?_
    intro a b ha hb hab
    obtain ⟨-, a1, a2⟩ := fall a ha
    obtain ⟨-, b1, b2⟩ := fall b hb
    have hh := (hs a ha).h
    have hh' := (hs b hb).h
    rcases hab with ⟨h1, h2⟩ | h1
    · left; right; right; left
      simp only [fallBand, h1, h2.1]
    · refine Or.inr (yL _ _ b.y0 ⟨?_, b1.ge⟩ ⟨?_, ?_⟩)
      · rw [b2]; linarith
      · rw [a2]; linarith
      · rw [a1]; linarith
  · cases down with
    | none => simp [lidDown]
    | some t =>
      simp only [lidDown, List.pairwise_cons, List.mem_cons, List.not_mem_nil, or_false, forall_eq, false_imp_iff,
        implies_true, List.Pairwise.nil, and_true]
      left; right; right; left; rfl
  · intro p hp q hq
    obtain ⟨m, hm, rfl⟩ := List.mem_map.1 hp
    rw [List.mem_reverse] at hm
    obtain ⟨⟨x1, x2⟩, y1, y2⟩ := fall m hm
    have hh := (hs m hm).h
    rcases hDl q hq with e1 | ⟨e1, e2⟩
    · rcases h.bottom he0 hs m hm with ⟨b1, b2⟩ | b1
      · left; right; right; left
        rw [e1]
        simp only [fallBand, b1, b2.1]
      · obtain ⟨q1, q2⟩ := hDy q hq
        refine Or.inr (yL _ _ m.y0 ⟨?_, y1.ge⟩ ⟨?_, ?_⟩) <;> linarith
    · exact sym _ _ (xL _ _ c ⟨e1, e2⟩ ⟨x1, x2⟩)
  · intro p hp q hq
    rcases List.mem_append.1 hq with hq | hq
    · obtain ⟨m, hm, rfl⟩ := List.mem_map.1 hq
      rw [List.mem_reverse] at hm
      obtain ⟨⟨x1, x2⟩, y1, y2⟩ := fall m hm
      have hh := (hs m hm).h
      rcases hUl p hp with e1 | ⟨e1, e2⟩
      · rcases h.top he0 hs m hm with ⟨b1, b2⟩ | b1
        · left; right; right; left
          rw [e1]
          simp only [fallBand, b1, b2.1]
        · obtain ⟨q1, q2⟩ := hUy p hp
          refine Or.inr (yL _ _ y' ⟨q1, q2⟩ ⟨?_, ?_⟩) <;> linarith
      · exact Or.inr (xL _ _ c ⟨e1, e2⟩ ⟨x1, x2⟩)
    · obtain ⟨q1, q2⟩ := hUy p hp
      obtain ⟨d1, d2⟩ := hDy q hq
      refine Or.inr (yL _ _ y' ⟨q1, q2⟩ ⟨?_, ?_⟩) <;> linarith
  · intro p hp q hq
    obtain ⟨m, hm, rfl⟩ := List.mem_map.1 hp
    obtain ⟨⟨x1, x2⟩, y1, y2⟩ := rise m hm
    have hh := (hs m hm).h
    rcases List.mem_append.1 hq with hq | hq
    · rcases hUr q hq with e1 | ⟨e1, e2⟩
      · rcases h.top he0 hs m hm with ⟨b1, b2⟩ | b1
        · left; right; right; left
          rw [e1]
          simp only [riseBand, b1, b2.2]
        · obtain ⟨q1, q2⟩ := hUy q hq
          refine sym _ _ (yL _ _ y' ⟨q1, q2⟩ ⟨?_, ?_⟩) <;> linarith
      · exact Or.inr (xL _ _ (c + e) ⟨x1, x2⟩ ⟨by linarith, by linarith⟩)
    · rcases List.mem_append.1 hq with hq | hq
      · obtain ⟨m', hm', rfl⟩ := List.mem_map.1 hq
        rw [List.mem_reverse] at hm'
        obtain ⟨⟨z1, z2⟩, -, -⟩ := fall m' hm'
        exact Or.inr (xL _ _ c ⟨by linarith, by linarith⟩ ⟨z1, z2⟩)
      · rcases hDr q hq with e1 | ⟨e1, e2⟩
        · rcases h.bottom he0 hs m hm with ⟨b1, b2⟩ | b1
          · left; right; left
            rw [e1]
            simp only [riseBand, b1, b2.2]
          · obtain ⟨d1, d2⟩ := hDy q hq
            refine Or.inr (yL _ _ m.y0 ⟨?_, ?_⟩ ⟨?_, ?_⟩) <;> linarith
        · exact Or.inr (xL _ _ (c + e) ⟨x1, x2⟩ ⟨by linarith, by linarith⟩)

end Srep
