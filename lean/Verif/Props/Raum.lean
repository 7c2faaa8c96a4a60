import Verif.Lemmas.Raum

/-! C91: the walls of the rooms of a vessel. -/

namespace Srep
variable {α : Type}

/-- the dict of the parts in each of the cycles 0, ..., n-1 -/
def partsOf (n : ℕ) (p : ℕ → List α) : List (ℕ × List α) := (List.range n).map fun k => (k, p k)

/-- `ks` lists the pairs of touching cycles in increasing order -/
def PairsOf (n : ℕ) (p : ℕ → List α) (ks : List (ℕ × ℕ)) : Prop :=
  (ks.Pairwise fun x y => x.1 < y.1 ∨ (x.1 = y.1 ∧ x.2 < y.2)) ∧
    ∀ a b, (a, b) ∈ ks ↔ a < b ∧ Touching n p a b

theorem Touching.symm {n : ℕ} {p : ℕ → List α} {a b : ℕ} (h : Touching n p a b) : Touching n p b a := by
  obtain ⟨h1, h2, h3, x, h4, h5⟩ := h
  exact ⟨h2, h1, fun e => h3 e.symm, x, h5, h4⟩

theorem sicAt_partsOf {n s : ℕ} (p : ℕ → List α) (hs : s < n) : sicAt (partsOf n p) s = p s := by
  have key : ∀ l : List ℕ, s ∈ l → ((l.map fun k => (k, p k)).lookup s).getD [] = p s := by
    intro l
    induction l with
    | nil => intro h; cases h
    | cons a l ih =>
      intro h
      rw [List.map_cons, List.lookup_cons]
      by_cases e : s = a
      · subst e; simp
      · rw [beq_false_of_ne e]
        exact ih ((List.mem_cons.1 h).resolve_left e)
  exact key _ (List.mem_range.2 hs)

section
variable {inter : List α → List α → List α} {eqv : α → α → Bool} {n : ℕ} {p : ℕ → List α}

theorem overlaps_keys (hi : ∀ a b x, x ∈ inter a b ↔ x ∈ a ∧ x ∈ b) :
    PairsOf n p ((overlapsInCycles inter (partsOf n p)).map Prod.fst) ∧
    (∀ x, x ∈ (overlapsInCycles inter (partsOf n p)).flatMap Prod.snd ↔
      ∃ a b, Touching n p a b ∧ x ∈ p a ∧ x ∈ p b) := by
  have hne : ∀ a b, inter (p a) (p b) ≠ [] ↔ ∃ x, x ∈ p a ∧ x ∈ p b := by
    intro a b
    constructor
    · intro h
      obtain ⟨x, hx⟩ := List.exists_mem_of_ne_nil _ h
      exact ⟨x, (hi _ _ _).1 hx⟩
    · rintro ⟨x, hx⟩
      exact List.ne_nil_of_mem ((hi _ _ _).2 hx)
  have hsymm : ∀ a b, inter (p a) (p b) = [] ↔ inter (p b) (p a) = [] := by
    intro a b
    rw [← not_iff_not]
    refine (hne a b).trans (Iff.trans ?_ (hne b a).symm)
    exact ⟨fun ⟨x, h1, h2⟩ => ⟨x, h2, h1⟩, fun ⟨x, h1, h2⟩ => ⟨x, h2, h1⟩⟩
  obtain ⟨h1, h2⟩ := C82_overlaps inter n p hsymm
  refine ⟨⟨h1, fun a b => ?_⟩, fun x => ?_⟩
  · rw [List.mem_map]
    constructor
    · rintro ⟨y, hy, e⟩
      obtain ⟨a', b', g1, g2, g3, rfl⟩ := (h2 y).1 hy
      injection e with e1 e2
      subst e1; subst e2
      exact ⟨g1, by omega, g2, by omega, (hne _ _).1 g3⟩
    · rintro ⟨g1, -, g2, -, g3⟩
      exact ⟨_, (h2 _).2 ⟨a, b, g1, g2, (hne _ _).2 g3, rfl⟩, rfl⟩
  · rw [List.mem_flatMap]
    constructor
    · rintro ⟨y, hy, hx⟩
      obtain ⟨a, b, g1, g2, g3, rfl⟩ := (h2 y).1 hy
      obtain ⟨e1, e2⟩ := (hi _ _ _).1 hx
      exact ⟨a, b, ⟨by omega, g2, by omega, x, e1, e2⟩, e1, e2⟩
    · rintro ⟨a, b, ⟨g1, g2, g3, -⟩, e1, e2⟩
      rcases Nat.lt_or_gt_of_ne g3 with h | h
      · exact ⟨_, (h2 _).2 ⟨a, b, h, g2, (hne _ _).2 ⟨x, e1, e2⟩, rfl⟩, (hi _ _ _).2 ⟨e1, e2⟩⟩
      · exact ⟨_, (h2 _).2 ⟨b, a, h, g1, (hne _ _).2 ⟨x, e2, e1⟩, rfl⟩, (hi _ _ _).2 ⟨e2, e1⟩⟩

theorem PairsOf.unique {ks ks' : List (ℕ × ℕ)} (h : PairsOf n p ks) (h' : PairsOf n p ks') : ks = ks' := by
  have nd : ∀ {l : List (ℕ × ℕ)}, (l.Pairwise fun x y => x.1 < y.1 ∨ (x.1 = y.1 ∧ x.2 < y.2)) → l.Nodup := by
    intro l hl
    refine hl.imp ?_
    rintro x y (h | h) rfl
    · omega
    · omega
  have hp : ks.Perm ks' := (List.perm_ext_iff_of_nodup (nd h.1) (nd h'.1)).2 fun x => by
    obtain ⟨a, b⟩ := x
    rw [h.2, h'.2]
  refine hp.eq_of_pairwise ?_ h.1 h'.1
  rintro ⟨a, b⟩ ⟨c, d⟩ - - h1 h2
  simp only at h1 h2
  omega

/-- C91: the walls of the rooms.  The outer wall of a room are the parts of its cycle.  A room whose cycle contains no
cycle has no inner wall.  Otherwise the inner walls are those parts that belong to one cycle only, where this cycle is
contained in the room or touches, anywhere in the vessel, another cycle. -/
theorem C91_walls (hi : ∀ a b x, x ∈ inter a b ↔ x ∈ a ∧ x ∈ b) (hq : ∀ x y, eqv x y = true ↔ x = y)
    (con : ℕ → List ℕ) (hcon : ∀ c, ∀ s ∈ con c, s < n) (rooms : List (Raum α))
    (hr : raumErstellen inter eqv (partsOf n p) con = .ok rooms) :
    rooms.map Raum.cycle = List.range n ∧ ∀ r ∈ rooms, r.outer = [p r.cycle] ∧ (con r.cycle = [] → r.inner = []) ∧
      ∀ x, (∃ w ∈ r.inner, x ∈ w) ↔ con r.cycle ≠ [] ∧ ∃ a, a < n ∧ x ∈ p a ∧
        (∀ b, b < n → b ≠ a → x ∉ p b) ∧ (a ∈ con r.cycle ∨ ∃ b, Touching n p a b) := by
  obtain ⟨hk1, hk2⟩ := overlaps_keys (n := n) (p := p) hi
  have hf := mapM_ok_iff _ _ _ hr
  set ov := overlapsInCycles inter (partsOf n p) with hov
  have hroom : ∀ c r, c < n → raumNew eqv (partsOf n p) ov (con c) c = .ok r → r.cycle = c ∧ r.outer = [p c] ∧
      (con c = [] → r.inner = []) ∧ ∀ x, (∃ w ∈ r.inner, x ∈ w) ↔ con c ≠ [] ∧ ∃ a, a < n ∧ x ∈ p a ∧
        (∀ b, b < n → b ≠ a → x ∉ p b) ∧ (a ∈ con c ∨ ∃ b, Touching n p a b) := by
    intro c r hc h
    have hout : ((partsOf n p).filter fun e => decide (e.1 = c)).map Prod.snd = [p c] := by
      unfold partsOf
      rw [List.filter_map, List.map_map]
      have : (List.range n).filter ((fun e : ℕ × List α => decide (e.1 = c)) ∘ fun k => (k, p k)) = [c] := by
        refine (List.filter_congr (q := fun k => k == c) ?_).trans ?_
        · intro k _; rfl
        · rw [List.filter_beq, List.count_eq_one_of_mem List.nodup_range (List.mem_range.2 hc)]; rfl
      rw [this]; rfl
    unfold raumNew at h
    simp only [hout] at h
    by_cases h0 : con c = []
    · rw [if_pos h0] at h
      injection h with h
      subst h
      simp [h0]
    · rw [if_neg h0] at h
      cases hl : iwLoop (ownParts eqv (partsOf n p) (ov.flatMap Prod.snd)) (ov.map Prod.fst) [] [] with
      | error e => rw [hl] at h; cases h
      | ok iw =>
        rw [hl] at h
        injection h with h
        subst h
        refine ⟨rfl, rfl, fun e => absurd e h0, fun x => ?_⟩
        obtain ⟨-, -, hm⟩ := (iwLoop_start _ _).1 iw hl
        have hm' : (∃ w ∈ iw, x ∈ w) ↔ ∃ a b, Touching n p a b ∧ x ∈ p a ∧
            ∀ a' b', Touching n p a' b' → x ∈ p a' → x ∉ p b' := by
          rw [← List.mem_flatten, hm]
          have hshared : ∀ y, (!(ov.flatMap Prod.snd).any fun z => eqv y z) = true ↔
              ∀ a' b', Touching n p a' b' → y ∈ p a' → y ∉ p b' := by
            intro y
            rw [Bool.not_eq_true', Bool.eq_false_iff, ne_eq, List.any_eq_true]
            constructor
            · intro hno a' b' ht h1 h2
              exact hno ⟨y, (hk2 y).2 ⟨a', b', ht, h1, h2⟩, (hq _ _).2 rfl⟩
            · rintro hno ⟨z, hz, e⟩
              rw [hq] at e
              subst e
              obtain ⟨a', b', ht, h1, h2⟩ := (hk2 y).1 hz
              exact hno a' b' ht h1 h2
          constructor
          · rintro ⟨⟨a, b⟩, hab, hx⟩
            obtain ⟨hlt, ht⟩ := (hk1.2 a b).1 hab
            rw [ownParts, List.mem_filter, hshared, sicAt_partsOf p ht.1, sicAt_partsOf p ht.2.1, List.mem_append] at hx
            rcases hx with ⟨hx | hx, hno⟩
            · exact ⟨a, b, ht, hx, hno⟩
            · exact ⟨b, a, ht.symm, hx, hno⟩
          · rintro ⟨a, b, ht, hx, hno⟩
            rcases Nat.lt_or_gt_of_ne ht.2.2.1 with h | h
            · refine ⟨(a, b), (hk1.2 a b).2 ⟨h, ht⟩, ?_⟩
              rw [ownParts, List.mem_filter, hshared, sicAt_partsOf p ht.1, List.mem_append]
              exact ⟨Or.inl hx, hno⟩
            · refine ⟨(b, a), (hk1.2 b a).2 ⟨h, ht.symm⟩, ?_⟩
              rw [ownParts, List.mem_filter, hshared, sicAt_partsOf p ht.1, List.mem_append]
              exact ⟨Or.inr hx, hno⟩
        have hrest : ∀ s, s < n → ((!ov.any fun k => decide (s = k.1.1) || decide (s = k.1.2)) = true ↔
            ∀ b, ¬ Touching n p s b) := by
          intro s hs
          rw [Bool.not_eq_true', Bool.eq_false_iff, ne_eq, List.any_eq_true]
          constructor
          · intro hno b ht
            apply hno
            rcases Nat.lt_or_gt_of_ne ht.2.2.1 with h | h
            · obtain ⟨y, hy, e⟩ := List.mem_map.1 ((hk1.2 s b).2 ⟨h, ht⟩)
              exact ⟨y, hy, by simp [e]⟩
            · obtain ⟨y, hy, e⟩ := List.mem_map.1 ((hk1.2 b s).2 ⟨h, ht.symm⟩)
              exact ⟨y, hy, by simp [e]⟩
          · rintro hno ⟨y, hy, e⟩
            obtain ⟨-, ht⟩ := (hk1.2 y.1.1 y.1.2).1 (List.mem_map.2 ⟨y, hy, rfl⟩)
            rw [Bool.or_eq_true, decide_eq_true_eq, decide_eq_true_eq] at e
            rcases e with e | e
            · exact hno y.1.2 (by rw [e]; exact ht)
            · exact hno y.1.1 (by rw [e]; exact ht.symm)
        have hsplit : (∃ w ∈ iw ++ (((con c).filter fun x => !ov.any fun k => decide (x = k.1.1) ||
              decide (x = k.1.2)).map (sicAt (partsOf n p))), x ∈ w) ↔
            (∃ w ∈ iw, x ∈ w) ∨ ∃ s ∈ con c, (∀ b, ¬ Touching n p s b) ∧ x ∈ p s := by
          constructor
          · rintro ⟨w, hw, hx⟩
            rcases List.mem_append.1 hw with hw | hw
            · exact Or.inl ⟨w, hw, hx⟩
            · obtain ⟨s, hs, rfl⟩ := List.mem_map.1 hw
              rw [List.mem_filter] at hs
              have hsn := hcon c s hs.1
              rw [sicAt_partsOf p hsn] at hx
              exact Or.inr ⟨s, hs.1, (hrest s hsn).1 hs.2, hx⟩
          · rintro (⟨w, hw, hx⟩ | ⟨s, hs, hno, hx⟩)
            · exact ⟨w, List.mem_append_left _ hw, hx⟩
            · have hsn := hcon c s hs
              refine ⟨sicAt (partsOf n p) s, List.mem_append_right _ (List.mem_map.2 ⟨s, ?_, rfl⟩), ?_⟩
              · rw [List.mem_filter]; exact ⟨hs, (hrest s hsn).2 hno⟩
              · rw [sicAt_partsOf p hsn]; exact hx
        refine hsplit.trans ?_
        rw [hm']
        constructor
        · rintro (⟨a, b, ht, hx, hno⟩ | ⟨s, hs, hno, hx⟩)
          · refine ⟨h0, a, ht.1, hx, fun b' hb' hne hxb => ?_, Or.inr ⟨b, ht⟩⟩
            exact hno a b' ⟨ht.1, hb', fun e => hne e.symm, x, hx, hxb⟩ hx hxb
          · refine ⟨h0, s, hcon c s hs, hx, fun b' hb' hne hxb => ?_, Or.inl hs⟩
            exact hno b' ⟨hcon c s hs, hb', fun e => hne e.symm, x, hx, hxb⟩
        · rintro ⟨-, a, ha, hx, hone, hor⟩
          by_cases ht : ∃ b, Touching n p a b
          · obtain ⟨b, ht⟩ := ht
            refine Or.inl ⟨a, b, ht, hx, fun a' b' ht' h1 h2 => ?_⟩
            by_cases e : a' = a
            · exact hone b' ht'.2.1 (fun e' => ht'.2.2.1 (e.trans e'.symm)) h2
            · exact hone a' ht'.1 e h1
          · exact Or.inr ⟨a, hor.resolve_right ht, fun b hb => ht ⟨b, hb⟩, hx⟩
  have hall : ∀ (l : List ℕ) (rs : List (Raum α)), (∀ c ∈ l, c < n) →
      List.Forall₂ (fun (c : ℕ × List α) r => raumNew eqv (partsOf n p) ov (con c.1) c.1 = .ok r)
        (l.map fun k => (k, p k)) rs →
      rs.map Raum.cycle = l ∧ ∀ r ∈ rs, ∃ c ∈ l, raumNew eqv (partsOf n p) ov (con c) c = .ok r := by
    intro l
    induction l with
    | nil => intro rs _ h; cases h; simp
    | cons a l ih =>
      intro rs hl h
      cases h with
      | cons h1 h2 =>
        obtain ⟨g1, g2⟩ := ih _ (fun c hc => hl c (List.mem_cons_of_mem _ hc)) h2
        refine ⟨?_, ?_⟩
        · rw [List.map_cons, g1, (hroom a _ (hl a List.mem_cons_self) h1).1]
        · intro r hr
          rcases List.mem_cons.1 hr with rfl | hr
          · exact ⟨a, List.mem_cons_self, h1⟩
          · obtain ⟨c, hc, h⟩ := g2 r hr
            exact ⟨c, List.mem_cons_of_mem _ hc, h⟩
  obtain ⟨g1, g2⟩ := hall (List.range n) rooms (fun c hc => List.mem_range.1 hc) hf
  refine ⟨g1, fun r hr => ?_⟩
  obtain ⟨c, hc, h⟩ := g2 r hr
  obtain ⟨e, h1, h2, h3⟩ := hroom c r (List.mem_range.1 hc) h
  rw [e]
  exact ⟨h1, h2, h3⟩

/-- C91: where all touching cycles are contained in the room, its inner walls are, as intended, the parts of the
contained cycles without the parts between two of them. -/
theorem C91_right (hi : ∀ a b x, x ∈ inter a b ↔ x ∈ a ∧ x ∈ b) (hq : ∀ x y, eqv x y = true ↔ x = y)
    (con : ℕ → List ℕ) (hcon : ∀ c, ∀ s ∈ con c, s < n) (rooms : List (Raum α))
    (hr : raumErstellen inter eqv (partsOf n p) con = .ok rooms) (r : Raum α) (hm : r ∈ rooms)
    (hin : ∀ a b, Touching n p a b → a ∈ con r.cycle) (x : α) :
    (∃ w ∈ r.inner, x ∈ w) ↔ ∃ a ∈ con r.cycle, x ∈ p a ∧ ∀ b, b < n → b ≠ a → x ∉ p b := by
  obtain ⟨-, -, h⟩ := (C91_walls hi hq con hcon rooms hr).2 r hm
  rw [h x]
  constructor
  · rintro ⟨-, a, -, hx, hone, h | ⟨b, hb⟩⟩
    · exact ⟨a, h, hx, hone⟩
    · exact ⟨a, hin a b hb, hx, hone⟩
  · rintro ⟨a, ha, hx, hone⟩
    exact ⟨List.ne_nil_of_mem ha, a, hcon _ a ha, hx, hone, Or.inl ha⟩

/-- C91: parts of any touching cycle `a`, also one outside of the room or its own, become inner walls of every room
that contains a cycle. -/
theorem C91_foreign (hi : ∀ a b x, x ∈ inter a b ↔ x ∈ a ∧ x ∈ b) (hq : ∀ x y, eqv x y = true ↔ x = y)
    (con : ℕ → List ℕ) (hcon : ∀ c, ∀ s ∈ con c, s < n) (rooms : List (Raum α))
    (hr : raumErstellen inter eqv (partsOf n p) con = .ok rooms) (r : Raum α) (hm : r ∈ rooms)
    (h0 : con r.cycle ≠ []) (a b : ℕ) (ht : Touching n p a b) (x : α) (hx : x ∈ p a)
    (hone : ∀ b, b < n → b ≠ a → x ∉ p b) : ∃ w ∈ r.inner, x ∈ w := by
  obtain ⟨-, -, h⟩ := (C91_walls hi hq con hcon rooms hr).2 r hm
  exact (h x).2 ⟨h0, a, ht.1, hx, hone, Or.inr ⟨b, ht⟩⟩

/-- C91: `raum_erstellen`, and with it the constructor of the vessel, raises IndexError (and nothing else) exactly if some
cycle contains another one and, in the list of the touching pairs, a pair has a cycle in common with an earlier
one at a place beyond the number of lists made until then. -/
theorem C91_raises (hi : ∀ a b x, x ∈ inter a b ↔ x ∈ a ∧ x ∈ b) (con : ℕ → List ℕ) (ks : List (ℕ × ℕ))
    (hks : PairsOf n p ks) :
    (∀ e, raumErstellen inter eqv (partsOf n p) con = .error e → e = .index) ∧
    ((∃ e, raumErstellen inter eqv (partsOf n p) con = .error e) ↔ (∃ c, c < n ∧ con c ≠ []) ∧
      ∃ j v, j < ks.length ∧ v < j ∧ Shares (ks.getD j (0, 0)) (ks.getD v (0, 0)) ∧
        strangerPairs (ks.take j) + strangers (ks.getD j (0, 0)) (ks.take v) < v) := by
  have hk := (overlaps_keys (n := n) (p := p) hi).1.unique hks
  obtain ⟨-, g2, g3⟩ := iwLoop_start (ownParts eqv (partsOf n p)
    ((overlapsInCycles inter (partsOf n p)).flatMap Prod.snd)) ks
  have hone : ∀ c, (∀ e, raumNew eqv (partsOf n p) (overlapsInCycles inter (partsOf n p)) (con c) c = .error e →
      e = .index) ∧ ((∃ e, raumNew eqv (partsOf n p) (overlapsInCycles inter (partsOf n p)) (con c) c = .error e) ↔
        con c ≠ [] ∧ ∃ e, iwLoop (ownParts eqv (partsOf n p)
          ((overlapsInCycles inter (partsOf n p)).flatMap Prod.snd)) ks [] [] = .error e) := by
    intro c
    unfold raumNew
    simp only [hk]
    by_cases h0 : con c = []
    · rw [if_pos h0]
      refine ⟨fun e h => (by cases h), ⟨fun ⟨e, h⟩ => (by cases h), fun h => absurd h0 h.1⟩⟩
    · rw [if_neg h0]
      cases hl : iwLoop (ownParts eqv (partsOf n p)
          ((overlapsInCycles inter (partsOf n p)).flatMap Prod.snd)) ks [] [] with
      | error e =>
        refine ⟨fun e' h => ?_, ⟨fun _ => ⟨h0, e, rfl⟩, fun _ => ⟨e, rfl⟩⟩⟩
        injection h with h
        rw [← h]
        exact g2 e hl
      | ok iw =>
        refine ⟨fun e h => (by cases h), ⟨fun ⟨e, h⟩ => (by cases h), fun ⟨_, e, h⟩ => (by cases h)⟩⟩
  refine ⟨mapM_error_index _ _ _ fun c _ => (hone c.1).1, ?_⟩
  unfold raumErstellen
  rw [mapM_error_iff]
  constructor
  · rintro ⟨⟨c, l⟩, hc, h⟩
    obtain ⟨h0, hE⟩ := (hone c).2.1 h
    refine ⟨⟨c, ?_, h0⟩, g3.1 hE⟩
    unfold partsOf at hc
    rw [List.mem_map] at hc
    obtain ⟨k, hk, e⟩ := hc
    injection e with e1 _
    rw [← e1]
    exact List.mem_range.1 hk
  · rintro ⟨⟨c, hc, h0⟩, h⟩
    exact ⟨(c, p c), List.mem_map.2 ⟨c, List.mem_range.2 hc, rfl⟩, (hone c).2.2 ⟨h0, g3.2 h⟩⟩

/-- C91: with at most two touching pairs the rooms are always made. -/
theorem C91_two_pairs (hi : ∀ a b x, x ∈ inter a b ↔ x ∈ a ∧ x ∈ b) (con : ℕ → List ℕ) (ks : List (ℕ × ℕ))
    (hks : PairsOf n p ks) (h2 : ks.length ≤ 2) :
    ∃ rooms, raumErstellen inter eqv (partsOf n p) con = .ok rooms := by
  cases hr : raumErstellen inter eqv (partsOf n p) con with
  | ok rooms => exact ⟨rooms, rfl⟩
  | error e =>
    obtain ⟨-, j, v, h1, h2', h3, h4⟩ := (C91_raises (eqv := eqv) hi con ks hks).2.1 ⟨e, hr⟩
    omega

theorem sorted_hub : ∀ (l : List (ℕ × ℕ)) (m : ℕ), (l.Pairwise fun x y => x.1 < y.1 ∨ (x.1 = y.1 ∧ x.2 < y.2)) →
    m ≤ (l.filter fun x => decide (x.1 = 0)).length → ∀ j, j < m → j < l.length ∧ (l.getD j (0, 0)).1 = 0 := by
  intro l
  induction l with
  | nil => intro m _ hm j hj; simp at hm; omega
  | cons a l ih =>
    intro m hp hm j hj
    rw [List.pairwise_cons] at hp
    by_cases ha : a.1 = 0
    · rw [List.filter_cons, if_pos (by simpa using ha), List.length_cons] at hm
      cases j with
      | zero => exact ⟨by simp, by simpa using ha⟩
      | succ j =>
        obtain ⟨h1, h2⟩ := ih (m - 1) hp.2 (by omega) j (by omega)
        exact ⟨by simpa using h1, by simpa using h2⟩
    · exfalso
      have : (a :: l).filter (fun x => decide (x.1 = 0)) = [] := by
        rw [List.filter_eq_nil_iff]
        intro x hx
        rw [decide_eq_true_eq]
        rcases List.mem_cons.1 hx with rfl | hx
        · exact ha
        · rcases hp.1 x hx with h | h <;> omega
      rw [this] at hm
      simp at hm
      omega

/-- C91: if the first cycle touches three others and some cycle contains another one, the vessel cannot be made. -/
theorem C91_hub (hi : ∀ a b x, x ∈ inter a b ↔ x ∈ a ∧ x ∈ b) (con : ℕ → List ℕ) (c : ℕ) (hc : c < n)
    (h0 : con c ≠ []) (a₁ a₂ a₃ : ℕ) (h12 : a₁ < a₂) (h23 : a₂ < a₃) (ht₁ : Touching n p 0 a₁)
    (ht₂ : Touching n p 0 a₂) (ht₃ : Touching n p 0 a₃) :
    raumErstellen inter eqv (partsOf n p) con = .error .index := by
  have hks := (overlaps_keys (n := n) (p := p) hi).1
  generalize hov : (overlapsInCycles inter (partsOf n p)).map Prod.fst = ks at hks
  obtain ⟨hE, hiff⟩ := C91_raises (eqv := eqv) hi con ks hks
  have hpos : ∀ a, Touching n p 0 a → 0 < a := fun a h => Nat.pos_of_ne_zero fun e => h.2.2.1 e.symm
  have hlen : 3 ≤ (ks.filter fun x => decide (x.1 = 0)).length := by
    have hnd : [(0, a₁), (0, a₂), (0, a₃)].Nodup := by
      simp; omega
    have hsub : [(0, a₁), (0, a₂), (0, a₃)] ⊆ ks.filter fun x => decide (x.1 = 0) := by
      intro x hx
      rw [List.mem_filter]
      simp only [List.mem_cons, List.not_mem_nil, or_false] at hx
      rcases hx with rfl | rfl | rfl
      · exact ⟨(hks.2 _ _).2 ⟨hpos _ ht₁, ht₁⟩, by simp⟩
      · exact ⟨(hks.2 _ _).2 ⟨hpos _ ht₂, ht₂⟩, by simp⟩
      · exact ⟨(hks.2 _ _).2 ⟨hpos _ ht₃, ht₃⟩, by simp⟩
    simpa using (hnd.subperm hsub).length_le
  have hz := sorted_hub ks 3 hks.1 hlen
  obtain ⟨-, z0⟩ := hz 0 (by omega)
  obtain ⟨-, z1⟩ := hz 1 (by omega)
  obtain ⟨hl, z2⟩ := hz 2 (by omega)
  have hex : ∃ e, raumErstellen inter eqv (partsOf n p) con = .error e := by
    rw [hiff]
    refine ⟨⟨c, hc, h0⟩, 2, 1, hl, by omega, ⟨0, Or.inl z2.symm, Or.inl z1.symm⟩, ?_⟩
    match ks, hl, z0, z1, z2 with
    | k0 :: k1 :: k2 :: ks, _, z0, z1, z2 =>
      simp only [List.getD_cons_zero, List.getD_cons_succ] at z0 z1 z2
      have s10 : Shares k1 k0 := ⟨0, Or.inl z1.symm, Or.inl z0.symm⟩
      have s20 : Shares k2 k0 := ⟨0, Or.inl z2.symm, Or.inl z0.symm⟩
      simp [strangerPairs, strangers, Finset.sum_range_succ, s10, s20]
  obtain ⟨e, he⟩ := hex
  rw [he, hE e he]

end

/-- intersection of lists of numbers -/
def exInter (a b : List ℕ) : List ℕ := a.filter fun x => decide (x ∈ b)

theorem exInter_spec (a b : List ℕ) (x : ℕ) : x ∈ exInter a b ↔ x ∈ a ∧ x ∈ b := by
  simp [exInter]

/-- a room (cycle 0) with two touching rooms (1 and 2) inside: the part 21 between them is not an inner wall -/
example : raumErstellen exInter (fun x y => decide (x = y))
    (partsOf 3 fun c => if c = 0 then [1, 2] else if c = 1 then [11, 21] else [21, 12])
    (fun c => if c = 0 then [1, 2] else []) =
    .ok [⟨0, [[1, 2]], [[11, 12]]⟩, ⟨1, [[11, 21]], []⟩, ⟨2, [[21, 12]], []⟩] := by rfl

/-- a room (0) beside a room (1) that contains a third one (2): the walls 10, 20 of both become inner walls of room 1 -/
example : raumErstellen exInter (fun x y => decide (x = y))
    (partsOf 3 fun c => if c = 0 then [10, 5] else if c = 1 then [5, 20] else [30])
    (fun c => if c = 1 then [2] else []) =
    .ok [⟨0, [[10, 5]], []⟩, ⟨1, [[5, 20]], [[10, 20], [30]]⟩, ⟨2, [[30]], []⟩] := by rfl

/-- three rooms on a common one, one of them with a room inside -/
example : raumErstellen exInter (fun x y => decide (x = y))
    (partsOf 5 fun c => if c = 0 then [1, 2, 3] else if c = 4 then [9] else [c])
    (fun c => if c = 1 then [4] else []) = .error .index := by rfl

end Srep
