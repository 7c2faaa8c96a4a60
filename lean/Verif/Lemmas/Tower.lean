import Verif.Spec.Tower
import Verif.Props.LoopsVessel
import Mathlib.Data.List.Pairwise

/-! The outline of a stack of shells: a closed chain, its corners are separated, its sides keep clear of each other. -/

set_option linter.unusedSectionVars false

namespace Srep
variable {K : Type} [Field K] [LinearOrder K] [IsStrictOrderedRing K] [FloorRing K]

/-! ### chains -/

/-- the segments lead from `p` to `q` -/
def Leads (p : Pt K) : List (Seg K) → Pt K → Prop
  | [], q => p = q
  | s :: l, q => s.i = p ∧ Leads s.j l q

theorem Leads.append {p q r : Pt K} {l m : List (Seg K)} (h : Leads p l q) (h' : Leads q m r) : Leads p (l ++ m) r := by
  induction l generalizing p with
  | nil => cases h; exact h'
  | cons s l ih => exact ⟨h.1, ih h.2⟩

theorem Leads.next {p q : Pt K} {l : List (Seg K)} (h : Leads p l q) (k : ℕ) (hk : k + 1 < l.length) :
    (l[k]'(by omega)).j = l[k + 1].i := by
  induction l generalizing p k with
  | nil => simp at hk
  | cons s l ih =>
    cases k with
    | zero =>
      cases l with
      | nil => simp at hk
      | cons t l => exact h.2.1.symm
    | succ k =>
      simp only [List.getElem_cons_succ]
      exact ih h.2 k (by simpa using hk)

theorem Leads.last {p q : Pt K} {l : List (Seg K)} (h : Leads p l q) (k : ℕ) (hk : k + 1 = l.length) : (l[k]'(by omega)).j = q := by
  induction l generalizing p k with
  | nil => simp at hk
  | cons s l ih =>
    cases k with
    | zero =>
      cases l with
      | nil => exact h.2
      | cons t l => simp at hk
    | succ k =>
      simp only [List.getElem_cons_succ]
      exact ih h.2 k (by simpa using hk)

theorem Leads.first {p q : Pt K} {l : List (Seg K)} (h : Leads p l q) (hk : 0 < l.length) : l[0].i = p := by
  cases l with
  | nil => simp at hk
  | cons s l => exact h.1

theorem Leads.closed {p : Pt K} {l : List (Seg K)} (h : Leads p l p) : ClosedChain l := by
  intro k hk
  rcases Nat.lt_or_ge (k + 1) l.length with h1 | h1
  · simp only [Nat.mod_eq_of_lt h1]
    exact h.next k h1
  · have h2 : k + 1 = l.length := by omega
    simp only [h2, Nat.mod_self]
    rw [h.last k h2, h.first]

/-- in a closed chain of at least three sides with different corners no side is drawn twice -/
theorem noDouble_of_nodup {l : List (Seg K)} (hc : ClosedChain l) (hn : (l.map Seg.i).Nodup) (h3 : 3 ≤ l.length) : NoDouble l := by
  unfold NoDouble
  rw [List.pairwise_iff_getElem]
  intro a b ha hb hab h
  have inj : ∀ x (hx : x < l.length) y (hy : y < l.length), l[x].i = l[y].i → x = y := by
    intro x hx y hy e
    have h0 := List.nodup_iff_injective_getElem.1 hn
    have h2 := @h0 ⟨x, by simpa using hx⟩ ⟨y, by simpa using hy⟩ (by simpa using e)
    simpa using h2
  rcases h with ⟨e, -⟩ | ⟨e1, e2⟩
  · have := inj a ha b hb e
    omega
  · have c1 := hc a ha
    have c2 := hc b hb
    have m1 : (a + 1) % l.length < l.length := Nat.mod_lt _ (by omega)
    have m2 : (b + 1) % l.length < l.length := Nat.mod_lt _ (by omega)
    have i1 := inj _ m1 b hb (by rw [← c1, e2])
    have i2 := inj _ m2 a ha (by rw [← c2, ← e1])
    rw [Nat.mod_eq_of_lt (by omega)] at i1
    by_cases h : b + 1 < l.length
    · rw [Nat.mod_eq_of_lt h] at i2; omega
    · have : b + 1 = l.length := by omega
      rw [this, Nat.mod_self] at i2
      omega

/-! ### stacks -/

theorem Stack.axis {c y w : K} {ms : List (MantelDim K)} {y' w' : K} (h : Stack c y w ms y' w') : ∀ m ∈ ms, m.posH = c := by
  induction ms generalizing y w with
  | nil => intro m hm; cases hm
  | cons a l ih =>
    intro m hm
    rcases List.mem_cons.1 hm with rfl | hm
    · exact h.1
    · exact ih h.2.2.2 m hm

/-- a shell is at least `e` high and its radii are at least `e` -/
structure Stout (e : K) (m : MantelDim K) : Prop where
  h : e ≤ m.h
  d0 : e ≤ m.d0 / 2
  d1 : e ≤ m.d1 / 2

theorem Stack.le {c y w e : K} {ms : List (MantelDim K)} {y' w' : K} (h : Stack c y w ms y' w') (he : 0 < e)
    (hs : ∀ m ∈ ms, Stout e m) : y ≤ y' ∧ ∀ m ∈ ms, y ≤ m.posV ∧ m.posV + m.h ≤ y' := by
  induction ms generalizing y w with
  | nil => exact ⟨h.1.le, fun m hm => by cases hm⟩
  | cons a l ih =>
    obtain ⟨h1, h2⟩ := ih h.2.2.2 fun m hm => hs m (List.mem_cons_of_mem _ hm)
    have := (hs a (List.mem_cons_self ..)).h
    refine ⟨by linarith, fun m hm => ?_⟩
    rcases List.mem_cons.1 hm with rfl | hm
    · exact ⟨h.2.1.ge, by rw [h.2.1]; exact h1⟩
    · have := h2 m hm
      exact ⟨by linarith, this.2⟩

/-- of two shells of a stack the one follows immediately on the other, or there is a distance -/
def Follows (e : K) (m m' : MantelDim K) : Prop :=
  (m'.posV = m.posV + m.h ∧ m'.d0 / 2 = m.d1 / 2) ∨ m.posV + m.h + e ≤ m'.posV

theorem Follows.le {e : K} (he : 0 < e) {m m' : MantelDim K} (h : Follows e m m') : m.posV + m.h ≤ m'.posV := by
  rcases h with ⟨h, -⟩ | h <;> linarith

theorem Stack.pairwise {c y w e : K} {ms : List (MantelDim K)} {y' w' : K} (h : Stack c y w ms y' w') (he : 0 < e)
    (hs : ∀ m ∈ ms, Stout e m) : ms.Pairwise (Follows e) := by
  induction ms generalizing y w with
  | nil => exact .nil
  | cons a l ih =>
    have hs' : ∀ m ∈ l, Stout e m := fun m hm => hs m (List.mem_cons_of_mem _ hm)
    refine .cons ?_ (ih h.2.2.2 hs')
    intro m hm
    have ht := h.2.2.2
    cases l with
    | nil => cases hm
    | cons b l =>
      rcases List.mem_cons.1 hm with rfl | hm
      · exact Or.inl ⟨by rw [ht.2.1, h.2.1], ht.2.2.1⟩
      · right
        have h3 := (ht.2.2.2.le he fun m hm => hs' m (List.mem_cons_of_mem _ hm)).2 m hm
        have := (hs' b (List.mem_cons_self ..)).h
        rw [h.2.1]
        linarith [h3.1]

/-- the last shell ends at the top, the others below -/
theorem Stack.top {c y w e : K} {ms : List (MantelDim K)} {y' w' : K} (h : Stack c y w ms y' w') (he : 0 < e)
    (hs : ∀ m ∈ ms, Stout e m) : ∀ m ∈ ms, (m.posV + m.h = y' ∧ m.d1 / 2 = w') ∨ m.posV + m.h + e ≤ y' := by
  induction ms generalizing y w with
  | nil => intro m hm; cases hm
  | cons a l ih =>
    have hs' : ∀ m ∈ l, Stout e m := fun m hm => hs m (List.mem_cons_of_mem _ hm)
    intro m hm
    rcases List.mem_cons.1 hm with rfl | hm
    · cases l with
      | nil => exact Or.inl ⟨by rw [h.2.1]; exact h.2.2.2.1, h.2.2.2.2⟩
      | cons b l =>
        right
        have ht := h.2.2.2
        have h3 := (ht.2.2.2.le he fun m hm => hs' m (List.mem_cons_of_mem _ hm)).1
        have := (hs' b (List.mem_cons_self ..)).h
        rw [h.2.1]
        linarith
    · exact ih h.2.2.2 hs' m hm

/-- the first shell begins at the bottom, the others above -/
theorem Stack.bottom {c y w e : K} {ms : List (MantelDim K)} {y' w' : K} (h : Stack c y w ms y' w') (he : 0 < e)
    (hs : ∀ m ∈ ms, Stout e m) : ∀ m ∈ ms, (m.posV = y ∧ m.d0 / 2 = w) ∨ y + e ≤ m.posV := by
  cases ms with
  | nil => intro m hm; cases hm
  | cons a l =>
    have hs' : ∀ m ∈ l, Stout e m := fun m hm => hs m (List.mem_cons_of_mem _ hm)
    intro m hm
    rcases List.mem_cons.1 hm with rfl | hm
    · exact Or.inl ⟨h.2.1, h.2.2.1⟩
    · right
      have h3 := (h.2.2.2.le he hs').2 m hm
      have := (hs a (List.mem_cons_self ..)).h
      linarith [h3.1]

theorem Stack.wide {c y w e : K} {ms : List (MantelDim K)} {y' w' : K} (h : Stack c y w ms y' w') (hne : ms ≠ [])
    (hs : ∀ m ∈ ms, Stout e m) : e ≤ w ∧ e ≤ w' := by
  induction ms generalizing y w with
  | nil => exact absurd rfl hne
  | cons a l ih =>
    refine ⟨h.2.2.1 ▸ (hs a (List.mem_cons_self ..)).d0, ?_⟩
    cases l with
    | nil => exact h.2.2.2.2 ▸ (hs a (List.mem_cons_self ..)).d1
    | cons b l => exact (ih h.2.2.2 (by simp) fun m hm => hs m (List.mem_cons_of_mem _ hm)).2

theorem Stack.high {c y w e : K} {ms : List (MantelDim K)} {y' w' : K} (h : Stack c y w ms y' w') (hne : ms ≠ []) (he : 0 < e)
    (hs : ∀ m ∈ ms, Stout e m) : y + e ≤ y' := by
  cases ms with
  | nil => exact absurd rfl hne
  | cons a l =>
    have h3 := (h.2.2.2.le he fun m hm => hs m (List.mem_cons_of_mem _ hm)).1
    have := (hs a (List.mem_cons_self ..)).h
    linarith

/-! ### the outline -/

theorem Stack.leads_up {c y w : K} {ms : List (MantelDim K)} {y' w' : K} (h : Stack c y w ms y' w') :
    Leads ⟨c + w, y⟩ (ms.map riseOf) ⟨c + w', y'⟩ := by
  induction ms generalizing y w with
  | nil => obtain ⟨rfl, rfl⟩ := h; rfl
  | cons m l ih =>
    refine ⟨?_, ?_⟩
    · unfold riseOf
      rw [h.1, h.2.1, h.2.2.1]
    · have := ih h.2.2.2
      unfold riseOf
      dsimp only
      rw [h.1, h.2.1]
      exact this

theorem Stack.leads_down {c y w : K} {ms : List (MantelDim K)} {y' w' : K} (h : Stack c y w ms y' w') :
    Leads ⟨c - w', y'⟩ (ms.reverse.map fallOf) ⟨c - w, y⟩ := by
  induction ms generalizing y w with
  | nil => obtain ⟨rfl, rfl⟩ := h; rfl
  | cons m l ih =>
    rw [List.reverse_cons, List.map_append]
    refine (ih h.2.2.2).append ⟨?_, ?_⟩
    · unfold fallOf
      rw [h.1, h.2.1]
    · unfold fallOf
      dsimp only
      rw [h.1, h.2.1, h.2.2.1]
      rfl

theorem capUp_leads (c y w : K) (t : Option K) : Leads ⟨c + w, y⟩ (capUp c y w t) ⟨c - w, y⟩ := by
  cases t with
  | none => exact ⟨rfl, rfl⟩
  | some t => exact ⟨rfl, rfl, rfl⟩

theorem capDown_leads (c y w : K) (t : Option K) : Leads ⟨c - w, y⟩ (capDown c y w t) ⟨c + w, y⟩ := by
  cases t with
  | none => exact ⟨rfl, rfl⟩
  | some t => exact ⟨rfl, rfl, rfl⟩

theorem Stack.closed {c y w : K} {ms : List (MantelDim K)} {y' w' : K} (h : Stack c y w ms y' w') (up down : Option K) :
    ClosedChain (towerOutline c y w ms y' w' up down) := by
  unfold towerOutline
  exact (h.leads_up.append ((capUp_leads c y' w' up).append (h.leads_down.append (capDown_leads c y w down)))).closed

/-- different places, at least `e` apart in a coordinate -/
def FarPts (e : K) (p q : Pt K) : Prop := e ≤ |p.x - q.x| ∨ e ≤ |p.y - q.y|

theorem farPts_of {e : K} {p q : Pt K} (h : p.x + e ≤ q.x ∨ q.x + e ≤ p.x ∨ p.y + e ≤ q.y ∨ q.y + e ≤ p.y) : FarPts e p q := by
  rcases h with h | h | h | h
  · left; rw [abs_sub_comm]; exact le_trans (by linarith) (le_abs_self _)
  · left; exact le_trans (by linarith) (le_abs_self _)
  · right; rw [abs_sub_comm]; exact le_trans (by linarith) (le_abs_self _)
  · right; exact le_trans (by linarith) (le_abs_self _)

theorem FarPts.symm {e : K} {p q : Pt K} (h : FarPts e p q) : FarPts e q p := by
  unfold FarPts at *
  rwa [abs_sub_comm q.x, abs_sub_comm q.y]

/-- the heights of the ends are positive -/
def PosCap (t : Option K) : Prop := ∀ x, t = some x → 0 < x

theorem Stack.far {c y w e : K} {ms : List (MantelDim K)} {y' w' : K} (h : Stack c y w ms y' w') (hne : ms ≠ []) (he : 0 < e)
    (hs : ∀ m ∈ ms, Stout e m) {up down : Option K} (hu : PosCap up) (hd : PosCap down) :
    ((towerOutline c y w ms y' w' up down).map Seg.i).Pairwise (FarPts e) := by
  obtain ⟨hw, hw'⟩ := h.wide hne hs
  have hhigh := h.high hne he hs
  have hax := h.axis
  have hle := (h.le he hs).2
  have hR : ∀ p ∈ (ms.map riseOf).map Seg.i, ∃ m ∈ ms, p = ⟨c + m.d0 / 2, m.posV⟩ := by
    intro p hp
    simp only [List.map_map, List.mem_map] at hp
    obtain ⟨m, hm, rfl⟩ := hp
    exact ⟨m, hm, by simp only [Function.comp, riseOf, hax m hm]⟩
  have hL : ∀ p ∈ (ms.reverse.map fallOf).map Seg.i, ∃ m ∈ ms, p = ⟨c - m.d1 / 2, m.posV + m.h⟩ := by
    intro p hp
    simp only [List.map_map, List.mem_map, List.mem_reverse] at hp
    obtain ⟨m, hm, rfl⟩ := hp
    exact ⟨m, hm, by simp only [Function.comp, fallOf, hax m hm]⟩
  have hU : ∀ p ∈ (capUp c y' w' up).map Seg.i, p = ⟨c + w', y'⟩ ∨ ∃ t, 0 < t ∧ p = ⟨c, y' + t⟩ := by
    intro p hp
    cases up with
    | none => left; simpa [capUp] using hp
    | some t =>
      simp only [capUp, List.map_cons, List.map_nil, List.mem_cons, List.not_mem_nil, or_false] at hp
      rcases hp with rfl | rfl
      · exact Or.inl rfl
      · exact Or.inr ⟨t, hu t rfl, rfl⟩
  have hD : ∀ p ∈ (capDown c y w down).map Seg.i, p = ⟨c - w, y⟩ ∨ ∃ t, 0 < t ∧ p = ⟨c, y - t⟩ := by
    intro p hp
    cases down with
    | none => left; simpa [capDown] using hp
    | some t =>
      simp only [capDown, List.map_cons, List.map_nil, List.mem_cons, List.not_mem_nil, or_false] at hp
      rcases hp with rfl | rfl
      · exact Or.inl rfl
      · exact Or.inr ⟨t, hd t rfl, rfl⟩
  unfold towerOutline
  simp only [List.map_append, List.pairwise_append]
  refine ⟨?_, ⟨?_, ⟨?_, ?_, ?_⟩, ?_⟩, ?_⟩
  · rw [List.pairwise_map, List.pairwise_map]
    refine (h.pairwise he hs).imp_of_mem ?_
    intro a b ha hb hab
    apply farPts_of
    right; right; left
    have := hab.le he
    have := (hs a ha).h
    simp only [riseOf]
    linarith
  · cases up with
    | none => simp [capUp]
    | some t =>
      simp only [capUp, List.map_cons, List.map_nil, List.pairwise_cons, List.mem_cons, List.not_mem_nil, or_false, forall_eq, false_imp_iff,
        implies_true, List.Pairwise.nil, and_true]
      apply farPts_of
      right; left
      show c + e ≤ c + w'
      linarith
  · rw [List.pairwise_map, List.pairwise_map, List.pairwise_reverse]
    refine (h.pairwise he hs).imp_of_mem ?_
    intro a b ha hb hab
    apply farPts_of
    right; right; right
    have := hab.le he
    have := (hs b hb).h
    simp only [fallOf]
    linarith
  · cases down with
    | none => simp [capDown]
    | some t =>
      simp only [capDown, List.map_cons, List.map_nil, List.pairwise_cons, List.mem_cons, List.not_mem_nil, or_false, forall_eq, false_imp_iff,
        implies_true, List.Pairwise.nil, and_true]
      apply farPts_of
      left
      show c - w + e ≤ c
      linarith
  · intro p hp q hq
    obtain ⟨m, hm, rfl⟩ := hL p hp
    have := hs m hm
    have h1 := hle m hm
    apply farPts_of
    rcases hD q hq with rfl | ⟨t, -, rfl⟩
    · right; right; right
      show y + e ≤ m.posV + m.h
      linarith [this.h]
    · left
      show c - m.d1 / 2 + e ≤ c
      linarith [this.d1]
  · intro p hp q hq
    apply farPts_of
    rcases List.mem_append.1 hq with hq | hq
    · obtain ⟨m, hm, rfl⟩ := hL q hq
      have := (hs m hm).d1
      right; left
      rcases hU p hp with rfl | ⟨t, -, rfl⟩
      · show c - m.d1 / 2 + e ≤ c + w'
        linarith
      · show c - m.d1 / 2 + e ≤ c
        linarith
    · right; right; right
      have h1 : q.y ≤ y := by
        rcases hD q hq with rfl | ⟨t, ht, rfl⟩
        · exact le_refl _
        · show y - t ≤ y; linarith
      have h2 : y' ≤ p.y := by
        rcases hU p hp with rfl | ⟨t, ht, rfl⟩
        · exact le_refl _
        · show y' ≤ y' + t; linarith
      linarith
  · intro p hp q hq
    obtain ⟨m, hm, rfl⟩ := hR p hp
    have hsm := hs m hm
    have h1 := hle m hm
    apply farPts_of
    rcases List.mem_append.1 hq with hq | hq
    · right; right; left
      have h2 : y' ≤ q.y := by
        rcases hU q hq with rfl | ⟨t, ht, rfl⟩
        · exact le_refl _
        · show y' ≤ y' + t; linarith
      show m.posV + e ≤ q.y
      linarith [hsm.h]
    · right; left
      have h2 : q.x ≤ c := by
        rcases List.mem_append.1 hq with hq | hq
        · obtain ⟨m', hm', rfl⟩ := hL q hq
          have := (hs m' hm').d1
          show c - m'.d1 / 2 ≤ c
          linarith
        · rcases hD q hq with rfl | ⟨t, ht, rfl⟩
          · show c - w ≤ c; linarith
          · exact le_refl _
      show q.x + e ≤ c + m.d0 / 2
      linarith [hsm.d0]

theorem Stack.nodup {c y w e : K} {ms : List (MantelDim K)} {y' w' : K} (h : Stack c y w ms y' w') (hne : ms ≠ []) (he : 0 < e)
    (hs : ∀ m ∈ ms, Stout e m) {up down : Option K} (hu : PosCap up) (hd : PosCap down) :
    ((towerOutline c y w ms y' w' up down).map Seg.i).Nodup := by
  refine (h.far hne he hs hu hd).imp ?_
  rintro p q h rfl
  rcases h with h | h <;> rw [sub_self, abs_zero] at h <;> exact absurd h (not_le.2 he)

theorem Stack.apart {c y w e : K} {ms : List (MantelDim K)} {y' w' : K} (h : Stack c y w ms y' w') (hne : ms ≠ []) (he : 0 < e)
    (hs : ∀ m ∈ ms, Stout e m) {up down : Option K} (hu : PosCap up) (hd : PosCap down) :
    Apart e {p | p ∈ (towerOutline c y w ms y' w' up down).map Seg.i} := by
  have hp := h.far hne he hs hu hd
  intro p hp' q hq' hne
  haveI : Std.Symm fun p q : Pt K => p ≠ q → FarPts e p q := ⟨fun p q h hn => (h (Ne.symm hn)).symm⟩
  exact (List.Pairwise.forall_of_forall (R := fun p q => p ≠ q → FarPts e p q)
    (fun p _ hn => absurd rfl hn)
    (hp.imp (S := fun p q => p ≠ q → FarPts e p q) fun h _ => h) hp' hq') hne

/-- the sides of the outline keep clear of each other -/
theorem Stack.clear {c y w e : K} {ms : List (MantelDim K)} {y' w' : K} (h : Stack c y w ms y' w') (hne : ms ≠ []) (he : 1 / 10 ^ 6 ≤ e)
    (hs : ∀ m ∈ ms, Stout e m) {up down : Option K} (hu : PosCap up) (hd : PosCap down) :
    (towerOutline c y w ms y' w' up down).Pairwise KeepClear := by
  have he0 : 0 < e := lt_of_lt_of_le (by positivity) he
  obtain ⟨hw, hw'⟩ := h.wide hne hs
  have hhigh := h.high hne he0 hs
  have hax := h.axis
  have hle := (h.le he0 hs).2
  -- boxes of the sides
  have xL : ∀ s o : Seg K, ∀ x, (x ≤ s.i.x ∧ x ≤ s.j.x) → (o.i.x + e ≤ x ∧ o.j.x + e ≤ x) → StripsApart s o := by
    intro s o x h1 h2
    left
    rintro a (rfl | rfl) b (rfl | rfl) <;> linarith [h1.1, h1.2, h2.1, h2.2]
  have yL : ∀ s o : Seg K, ∀ x, (x ≤ s.i.y ∧ x ≤ s.j.y) → (o.i.y + e ≤ x ∧ o.j.y + e ≤ x) → StripsApart s o := by
    intro s o x h1 h2
    right; right; left
    rintro a (rfl | rfl) b (rfl | rfl) <;> linarith [h1.1, h1.2, h2.1, h2.2]
  have sym : ∀ s o : Seg K, StripsApart s o → KeepClear o s := fun s o h => KeepClear.symm (Or.inr h)
  have rise : ∀ m ∈ ms, (c + e ≤ (riseOf m).i.x ∧ c + e ≤ (riseOf m).j.x) ∧ (riseOf m).i.y = m.posV ∧ (riseOf m).j.y = m.posV + m.h := by
    intro m hm
    have := hs m hm
    simp only [riseOf, hax m hm]
    exact ⟨⟨by linarith [this.d0], by linarith [this.d1]⟩, trivial, trivial⟩
  have fall : ∀ m ∈ ms, ((fallOf m).i.x + e ≤ c ∧ (fallOf m).j.x + e ≤ c) ∧ (fallOf m).j.y = m.posV ∧ (fallOf m).i.y = m.posV + m.h := by
    intro m hm
    have := hs m hm
    simp only [fallOf, hax m hm]
    exact ⟨⟨by linarith [this.d1], by linarith [this.d0]⟩, trivial, trivial⟩
  have hUy : ∀ s ∈ capUp c y' w' up, y' ≤ s.i.y ∧ y' ≤ s.j.y := by
    intro s hs'
    cases up with
    | none =>
      simp only [capUp, List.mem_cons, List.not_mem_nil, or_false] at hs'
      subst hs'; exact ⟨le_refl _, le_refl _⟩
    | some t =>
      have := hu t rfl
      simp only [capUp, List.mem_cons, List.not_mem_nil, or_false] at hs'
      rcases hs' with rfl | rfl <;> constructor <;> dsimp only <;> linarith
  have hDy : ∀ s ∈ capDown c y w down, s.i.y ≤ y ∧ s.j.y ≤ y := by
    intro s hs'
    cases down with
    | none =>
      simp only [capDown, List.mem_cons, List.not_mem_nil, or_false] at hs'
      subst hs'; exact ⟨le_refl _, le_refl _⟩
    | some t =>
      have := hd t rfl
      simp only [capDown, List.mem_cons, List.not_mem_nil, or_false] at hs'
      rcases hs' with rfl | rfl <;> constructor <;> dsimp only <;> linarith
  -- a side of the top has a given corner or is beyond the axis
  have hUr : ∀ s ∈ capUp c y' w' up, s.i = ⟨c + w', y'⟩ ∨ (s.i.x ≤ c ∧ s.j.x ≤ c) := by
    intro s hs'
    cases up with
    | none =>
      simp only [capUp, List.mem_cons, List.not_mem_nil, or_false] at hs'
      subst hs'; exact Or.inl rfl
    | some t =>
      simp only [capUp, List.mem_cons, List.not_mem_nil, or_false] at hs'
      rcases hs' with rfl | rfl
      · exact Or.inl rfl
      · right; constructor <;> dsimp only <;> linarith
  have hUl : ∀ s ∈ capUp c y' w' up, s.j = ⟨c - w', y'⟩ ∨ (c ≤ s.i.x ∧ c ≤ s.j.x) := by
    intro s hs'
    cases up with
    | none =>
      simp only [capUp, List.mem_cons, List.not_mem_nil, or_false] at hs'
      subst hs'; exact Or.inl rfl
    | some t =>
      simp only [capUp, List.mem_cons, List.not_mem_nil, or_false] at hs'
      rcases hs' with rfl | rfl
      · right; constructor <;> dsimp only <;> linarith
      · exact Or.inl rfl
  have hDl : ∀ s ∈ capDown c y w down, s.i = ⟨c - w, y⟩ ∨ (c ≤ s.i.x ∧ c ≤ s.j.x) := by
    intro s hs'
    cases down with
    | none =>
      simp only [capDown, List.mem_cons, List.not_mem_nil, or_false] at hs'
      subst hs'; exact Or.inl rfl
    | some t =>
      simp only [capDown, List.mem_cons, List.not_mem_nil, or_false] at hs'
      rcases hs' with rfl | rfl
      · exact Or.inl rfl
      · right; constructor <;> dsimp only <;> linarith
  have hDr : ∀ s ∈ capDown c y w down, s.j = ⟨c + w, y⟩ ∨ (s.i.x ≤ c ∧ s.j.x ≤ c) := by
    intro s hs'
    cases down with
    | none =>
      simp only [capDown, List.mem_cons, List.not_mem_nil, or_false] at hs'
      subst hs'; exact Or.inl rfl
    | some t =>
      simp only [capDown, List.mem_cons, List.not_mem_nil, or_false] at hs'
      rcases hs' with rfl | rfl
      · right; constructor <;> dsimp only <;> linarith
      · exact Or.inl rfl
  unfold towerOutline
  simp only [List.pairwise_append]
  refine ⟨?_, ⟨?_, ⟨?_, ?_, ?_⟩, ?_⟩, ?_⟩
  · rw [List.pairwise_map]
    refine (h.pairwise he0 hs).imp_of_mem ?_
    intro a b ha hb hab
    obtain ⟨-, a1, a2⟩ := rise a ha
    obtain ⟨-, b1, b2⟩ := rise b hb
    have hh := (hs a ha).h
    have hh' := (hs b hb).h
    rcases hab with ⟨h1, h2⟩ | h1
    · left; right; right; left
      simp only [riseOf, hax a ha, hax b hb, h1, h2]
    · refine sym _ _ (yL _ _ b.posV ⟨b1.ge, ?_⟩ ⟨?_, ?_⟩)
      · rw [b2]; linarith
      · rw [a1]; linarith
      · rw [a2]; linarith
  · cases up with
    | none => simp [capUp]
    | some t =>
      simp only [capUp, List.pairwise_cons, List.mem_cons, List.not_mem_nil, or_false, forall_eq, false_imp_iff,
        implies_true, List.Pairwise.nil, and_true]
      left; right; right; left; rfl
  · rw [List.pairwise_map, List.pairwise_reverse]
    refine (h.pairwise he0 hs).imp_of_mem ?_
    intro a b ha hb hab
    obtain ⟨-, a1, a2⟩ := fall a ha
    obtain ⟨-, b1, b2⟩ := fall b hb
    have hh := (hs a ha).h
    have hh' := (hs b hb).h
    rcases hab with ⟨h1, h2⟩ | h1
    · left; right; right; left
      simp only [fallOf, hax a ha, hax b hb, h1, h2]
    · refine Or.inr (yL _ _ b.posV ⟨?_, b1.ge⟩ ⟨?_, ?_⟩)
      · rw [b2]; linarith
      · rw [a2]; linarith
      · rw [a1]; linarith
  · cases down with
    | none => simp [capDown]
    | some t =>
      simp only [capDown, List.pairwise_cons, List.mem_cons, List.not_mem_nil, or_false, forall_eq, false_imp_iff,
        implies_true, List.Pairwise.nil, and_true]
      left; right; right; left; rfl
  · intro p hp q hq
    obtain ⟨m, hm, rfl⟩ := List.mem_map.1 hp
    rw [List.mem_reverse] at hm
    obtain ⟨⟨x1, x2⟩, y1, y2⟩ := fall m hm
    have hh := (hs m hm).h
    rcases hDl q hq with e1 | ⟨e1, e2⟩
    · rcases h.bottom he0 hs m hm with ⟨b1, b2⟩ | b1
      · left; right; right; left
        rw [e1]
        simp only [fallOf, hax m hm, b1, b2]
      · obtain ⟨q1, q2⟩ := hDy q hq
        refine Or.inr (yL _ _ m.posV ⟨?_, y1.ge⟩ ⟨?_, ?_⟩) <;> linarith
    · exact sym _ _ (xL _ _ c ⟨e1, e2⟩ ⟨x1, x2⟩)
  · intro p hp q hq
    rcases List.mem_append.1 hq with hq | hq
    · obtain ⟨m, hm, rfl⟩ := List.mem_map.1 hq
      rw [List.mem_reverse] at hm
      obtain ⟨⟨x1, x2⟩, y1, y2⟩ := fall m hm
      have hh := (hs m hm).h
      rcases hUl p hp with e1 | ⟨e1, e2⟩
      · rcases h.top he0 hs m hm with ⟨b1, b2⟩ | b1
        · left; right; right; left
          rw [e1]
          simp only [fallOf, hax m hm, b1, b2]
        · obtain ⟨q1, q2⟩ := hUy p hp
          refine Or.inr (yL _ _ y' ⟨q1, q2⟩ ⟨?_, ?_⟩) <;> linarith
      · exact Or.inr (xL _ _ c ⟨e1, e2⟩ ⟨x1, x2⟩)
    · obtain ⟨q1, q2⟩ := hUy p hp
      obtain ⟨d1, d2⟩ := hDy q hq
      refine Or.inr (yL _ _ y' ⟨q1, q2⟩ ⟨?_, ?_⟩) <;> linarith
  · intro p hp q hq
    obtain ⟨m, hm, rfl⟩ := List.mem_map.1 hp
    obtain ⟨⟨x1, x2⟩, y1, y2⟩ := rise m hm
    have hh := (hs m hm).h
    rcases List.mem_append.1 hq with hq | hq
    · rcases hUr q hq with e1 | ⟨e1, e2⟩
      · rcases h.top he0 hs m hm with ⟨b1, b2⟩ | b1
        · left; right; right; left
          rw [e1]
          simp only [riseOf, hax m hm, b1, b2]
        · obtain ⟨q1, q2⟩ := hUy q hq
          refine sym _ _ (yL _ _ y' ⟨q1, q2⟩ ⟨?_, ?_⟩) <;> linarith
      · exact Or.inr (xL _ _ (c + e) ⟨x1, x2⟩ ⟨by linarith, by linarith⟩)
    · rcases List.mem_append.1 hq with hq | hq
      · obtain ⟨m', hm', rfl⟩ := List.mem_map.1 hq
        rw [List.mem_reverse] at hm'
        obtain ⟨⟨z1, z2⟩, -, -⟩ := fall m' hm'
        exact Or.inr (xL _ _ c ⟨by linarith, by linarith⟩ ⟨z1, z2⟩)
      · rcases hDr q hq with e1 | ⟨e1, e2⟩
        · rcases h.bottom he0 hs m hm with ⟨b1, b2⟩ | b1
          · left; right; left
            rw [e1]
            simp only [riseOf, hax m hm, b1, b2]
          · obtain ⟨d1, d2⟩ := hDy q hq
            refine Or.inr (yL _ _ m.posV ⟨?_, ?_⟩ ⟨?_, ?_⟩) <;> linarith
        · exact Or.inr (xL _ _ (c + e) ⟨x1, x2⟩ ⟨by linarith, by linarith⟩)

end Srep
