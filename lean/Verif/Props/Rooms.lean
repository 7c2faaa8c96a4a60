import Verif.Model.Vessel
import Mathlib.Data.List.Perm.Basic
import Mathlib.Data.List.Nodup
import Mathlib.Data.Fintype.Card
import Mathlib.Logic.Equiv.Basic

/-! The comparison of room dictionaries (C71). -/

namespace Srep
variable {κ ρ : Type} [DecidableEq κ] [DecidableEq ρ]

/-! ### permutations -/

theorem mem_kperms : ∀ (k : ℕ) (l : List ρ), l.Nodup → ∀ x, x ∈ kperms k l ↔ x.length = k ∧ x.Nodup ∧ x ⊆ l := by
  intro k
  induction k with
  | zero => intro l _ x; cases x <;> simp [kperms]
  | succ k ih =>
    intro l hl x
    simp only [kperms, List.mem_flatMap, List.mem_map]
    constructor
    · rintro ⟨a, ha, y, hy, rfl⟩
      obtain ⟨h1, h2, h3⟩ := (ih _ (hl.erase a) y).1 hy
      refine ⟨by simp [h1], List.nodup_cons.2 ⟨fun h => ?_, h2⟩, ?_⟩
      · have := h3 h
        rw [hl.mem_erase_iff] at this
        exact this.1 rfl
      · intro z hz
        rcases List.mem_cons.1 hz with rfl | hz
        · exact ha
        · exact List.mem_of_mem_erase (h3 hz)
    · rintro ⟨h1, h2, h3⟩
      cases x with
      | nil => simp at h1
      | cons a y =>
        obtain ⟨h4, h5⟩ := List.nodup_cons.1 h2
        refine ⟨a, h3 (by simp), y, (ih _ (hl.erase a) y).2 ⟨by simpa using h1, h5, ?_⟩, rfl⟩
        intro z hz
        rw [hl.mem_erase_iff]
        exact ⟨fun h => h4 (h ▸ hz), h3 (by simp [hz])⟩

theorem nodup_kperms : ∀ (k : ℕ) (l : List ρ), l.Nodup → (kperms k l).Nodup := by
  intro k
  induction k with
  | zero => intro l _; simp [kperms]
  | succ k ih =>
    intro l hl
    rw [kperms, List.nodup_flatMap]
    refine ⟨fun a _ => (ih _ (hl.erase a)).map fun _ _ h => by simpa using h, ?_⟩
    refine hl.imp_of_mem ?_
    intro a b _ _ hab
    rw [Function.onFun, List.disjoint_left]
    intro x hx hx'
    simp only [List.mem_map] at hx hx'
    obtain ⟨y, -, rfl⟩ := hx
    obtain ⟨z, -, hz⟩ := hx'
    simp only [List.cons.injEq] at hz
    exact hab hz.1.symm

theorem kperms_head : ∀ (k : ℕ) (l : List ρ), k ≤ l.length → ∃ t, kperms k l = l.take k :: t := by
  intro k
  induction k with
  | zero => intro l _; exact ⟨[], by simp [kperms]⟩
  | succ k ih =>
    intro l hk
    cases l with
    | nil => simp at hk
    | cons a l =>
      obtain ⟨t, ht⟩ := ih l (by simpa using hk)
      rw [kperms, List.flatMap_cons, List.erase_cons_head, ht]
      exact ⟨_, rfl⟩

/-! ### specification -/

/-- the room occurs in the dict -/
def Occurs (d : RDict κ ρ) (r : ρ) : Prop := ∃ e ∈ d, r ∈ e.2

/-- `f` renames the rooms of `d` (and nothing else) so that every entry of `d` becomes the entry of `b` under the
same key, as far as that consists of rooms of `d` -/
def Renaming (d b : RDict κ ρ) (f : Equiv.Perm ρ) : Prop :=
  (∀ r, ¬ Occurs d r → f r = r) ∧ (∀ k, k ∈ d.map Prod.fst ↔ k ∈ b.map Prod.fst) ∧
  ∀ e ∈ d, ∀ g ∈ b, e.1 = g.1 → ∀ r, Occurs d r → (r ∈ e.2 ↔ f r ∈ g.2)

/-! ### conversion -/

theorem mapM_ok {α β : Type} (f : α → Except PyErr β) (g : α → β) :
    ∀ l : List α, (∀ a ∈ l, f a = .ok (g a)) → l.mapM f = .ok (l.map g) := by
  intro l
  induction l with
  | nil => intro _; rfl
  | cons a l ih =>
    intro h
    rw [List.mapM_cons, h a (by simp), ih fun b hb => h b (by simp [hb])]
    rfl

theorem mapM_error {α β : Type} (f : α → Except PyErr β) (e : PyErr) :
    ∀ l : List α, (∀ a ∈ l, (∃ b, f a = .ok b) ∨ f a = .error e) → (∃ a ∈ l, f a = .error e) →
      l.mapM f = .error e := by
  intro l
  induction l with
  | nil => rintro _ ⟨a, ha, -⟩; simp at ha
  | cons a l ih =>
    rintro h ⟨c, hc, hce⟩
    rw [List.mapM_cons]
    rcases h a (by simp) with ⟨b, hb⟩ | hb
    · rw [hb]
      have : c ∈ l := by
        rcases List.mem_cons.1 hc with rfl | hc
        · rw [hb] at hce; simp at hce
        · exact hc
      have := ih (fun x hx => h x (by simp [hx])) ⟨c, this, hce⟩
      simp only [this]; rfl
    · rw [hb]; rfl

theorem lookup_zip (r : ρ) : ∀ (x : List ρ) (m k : ℕ), x.length ≤ m →
    (x.zip (List.range' k m)).lookup r = if r ∈ x then some (k + x.idxOf r) else none := by
  intro x
  induction x with
  | nil => intro m k _; simp
  | cons a x ih =>
    intro m k hm
    cases m with
    | zero => simp at hm
    | succ m =>
      rw [List.range'_succ, List.zip_cons_cons, List.lookup_cons, ih m (k + 1) (by simpa using hm)]
      by_cases h : r = a
      · subst h; simp
      · have h' : (r == a) = false := by simpa using h
        rw [h']
        by_cases hr : r ∈ x
        · simp [hr, h, Ne.symm h, Nat.add_assoc, Nat.add_comm 1]
        · simp [hr, h]

theorem lookup_letters (r : ρ) (x : List ρ) (m : ℕ) (hm : x.length ≤ m) :
    (x.zip (List.range m)).lookup r = if r ∈ x then some (x.idxOf r) else none := by
  rw [List.range_eq_range', lookup_zip r x m 0 hm, Nat.zero_add]

theorem idxOf_map_inj (g : ρ → ρ) (hg : Function.Injective g) (r : ρ) :
    ∀ l : List ρ, (l.map g).idxOf (g r) = l.idxOf r := by
  intro l
  induction l with
  | nil => simp
  | cons a l ih =>
    by_cases h : a = r
    · subst h; simp
    · rw [List.map_cons, List.idxOf_cons_ne _ h, List.idxOf_cons_ne _ (fun e => h (hg e)), ih]

/-- converting with the letters given out in the order `x` -/
theorem convertDict_ok {rs x : List ρ} (hx : ∀ r ∈ rs, r ∈ x) (m : ℕ) (hm : x.length ≤ m) (d : RDict κ ρ) :
    convertDict rs (x.zip (List.range m)) d =
      .ok (d.map fun e => (e.1, (rs.filter fun r => decide (r ∈ e.2)).map x.idxOf)) := by
  unfold convertDict
  apply mapM_ok
  intro e _
  have : convertSet rs (x.zip (List.range m)) e.2 = .ok ((rs.filter fun r => decide (r ∈ e.2)).map x.idxOf) := by
    unfold convertSet
    apply mapM_ok
    intro r hr
    rw [lookup_letters r x m hm, if_pos (hx r (List.mem_filter.1 hr).1)]
  rw [this]; rfl

theorem setSame_iff (s t : List ℕ) : setSame s t = true ↔ ∀ n, n ∈ s ↔ n ∈ t := by
  unfold setSame
  simp only [Bool.and_eq_true, List.all_eq_true, decide_eq_true_eq]
  exact ⟨fun h n => ⟨h.1 n, h.2 n⟩, fun h => ⟨fun n => (h n).1, fun n => (h n).2⟩⟩

theorem dictSame_iff (d b : RDict κ ℕ) (hd : (d.map Prod.fst).Nodup) (hb : (b.map Prod.fst).Nodup) :
    dictSame d b = true ↔ (∀ k, k ∈ d.map Prod.fst ↔ k ∈ b.map Prod.fst) ∧
      ∀ e ∈ d, ∀ g ∈ b, e.1 = g.1 → ∀ n, n ∈ e.2 ↔ n ∈ g.2 := by
  have uniq : ∀ (l : RDict κ ℕ), (l.map Prod.fst).Nodup → ∀ e ∈ l, ∀ g ∈ l, e.1 = g.1 → e = g := by
    intro l hl e he g hg h
    exact List.inj_on_of_nodup_map hl he hg h
  unfold dictSame
  simp only [Bool.and_eq_true, List.all_eq_true, List.any_eq_true, decide_eq_true_eq, setSame_iff, List.mem_map]
  constructor
  · rintro ⟨h1, h2⟩
    refine ⟨fun k => ⟨?_, ?_⟩, ?_⟩
    · rintro ⟨e, he, rfl⟩
      obtain ⟨g, hg, hk, -⟩ := h1 e he
      exact ⟨g, hg, hk⟩
    · rintro ⟨g, hg, rfl⟩
      obtain ⟨e, he, hk, -⟩ := h2 g hg
      exact ⟨e, he, hk.symm⟩
    · intro e he g hg hk
      obtain ⟨g', hg', hk', h⟩ := h1 e he
      rw [uniq b hb g hg g' hg' (by rw [hk', hk])]
      exact h
  · rintro ⟨h1, h2⟩
    refine ⟨fun e he => ?_, fun g hg => ?_⟩
    · obtain ⟨g, hg, hk⟩ := (h1 e.1).1 ⟨e, he, rfl⟩
      exact ⟨g, hg, hk, h2 e he g hg hk.symm⟩
    · obtain ⟨e, he, hk⟩ := (h1 g.1).2 ⟨g, hg, rfl⟩
      exact ⟨e, he, hk.symm, h2 e he g hg hk⟩

/-- comparing the dicts after converting: a statement on the renaming that belongs to the order of the letters -/
theorem compare_iff {d b : RDict κ ρ} {rs : List ρ} (hrs : RoomsOf d rs) (hd : (d.map Prod.fst).Nodup)
    (hb : (b.map Prod.fst).Nodup) (f : Equiv.Perm ρ) (hf : ∀ r, ¬ Occurs d r → f r = r) :
    dictSame (d.map fun e => (e.1, (rs.filter fun r => decide (r ∈ e.2)).map (rs.map f.symm).idxOf))
      (b.map fun e => (e.1, (rs.filter fun r => decide (r ∈ e.2)).map rs.idxOf)) = true ↔ Renaming d b f := by
  have hrs' : ∀ r, r ∈ rs ↔ Occurs d r := hrs.2
  have hmem : ∀ r, r ∈ rs → f r ∈ rs := by
    intro r hr
    by_contra h
    have h1 : ¬ Occurs d (f r) := fun h' => h ((hrs' _).2 h')
    have h2 := f.injective (hf _ h1)
    rw [h2] at h
    exact h hr
  have hmem' : ∀ r, r ∈ rs → f.symm r ∈ rs := by
    intro r hr
    by_contra h
    have h1 : ¬ Occurs d (f.symm r) := fun h' => h ((hrs' _).2 h')
    have h2 := hf _ h1
    rw [Equiv.apply_symm_apply] at h2
    rw [← h2] at h
    exact h hr
  have hidx : ∀ r, (rs.map f.symm).idxOf r = rs.idxOf (f r) := by
    intro r
    have := idxOf_map_inj f.symm f.symm.injective (f r) rs
    rwa [Equiv.symm_apply_apply] at this
  have hinj : ∀ r ∈ rs, ∀ r' ∈ rs, rs.idxOf r = rs.idxOf r' → r = r' := by
    intro r hr r' hr' h
    exact (List.idxOf_inj hr).1 h
  have k1 : (d.map fun e => (e.1, (rs.filter fun r => decide (r ∈ e.2)).map (rs.map f.symm).idxOf)).map Prod.fst =
      d.map Prod.fst := by rw [List.map_map]; rfl
  have k2 : (b.map fun e => (e.1, (rs.filter fun r => decide (r ∈ e.2)).map rs.idxOf)).map Prod.fst =
      b.map Prod.fst := by rw [List.map_map]; rfl
  rw [dictSame_iff _ _ (by rw [k1]; exact hd) (by rw [k2]; exact hb), k1, k2]
  unfold Renaming
  constructor
  · rintro ⟨h1, h2⟩
    refine ⟨hf, h1, ?_⟩
    intro e he g hg hk r hr
    have hr' := (hrs' r).2 hr
    have h := h2 _ (List.mem_map_of_mem he) _ (List.mem_map_of_mem hg) hk
    simp only [List.mem_map, List.mem_filter, decide_eq_true_eq, hidx] at h
    constructor
    · intro hre
      obtain ⟨q, ⟨hq, hqg⟩, hqe⟩ := (h (rs.idxOf (f r))).1 ⟨r, ⟨hr', hre⟩, rfl⟩
      rwa [hinj q hq _ (hmem r hr') hqe] at hqg
    · intro hrg
      obtain ⟨q, ⟨hq, hqg⟩, hqe⟩ := (h (rs.idxOf (f r))).2 ⟨f r, ⟨hmem r hr', hrg⟩, rfl⟩
      have := f.injective (hinj _ (hmem q hq) _ (hmem r hr') hqe)
      rwa [this] at hqg
  · rintro ⟨-, h1, h2⟩
    refine ⟨h1, ?_⟩
    intro e' he' g' hg' hk n
    obtain ⟨e, he, rfl⟩ := List.mem_map.1 he'
    obtain ⟨g, hg, rfl⟩ := List.mem_map.1 hg'
    have h := h2 e he g hg hk
    simp only [List.mem_map, List.mem_filter, decide_eq_true_eq, hidx]
    constructor
    · rintro ⟨r, ⟨hr, hre⟩, rfl⟩
      exact ⟨f r, ⟨hmem r hr, (h r ((hrs' r).1 hr)).1 hre⟩, rfl⟩
    · rintro ⟨r, ⟨hr, hrg⟩, rfl⟩
      refine ⟨f.symm r, ⟨hmem' r hr, (h _ ((hrs' _).1 (hmem' r hr))).2 ?_⟩, ?_⟩
      · rwa [Equiv.apply_symm_apply]
      · rw [Equiv.apply_symm_apply]

/-- every order of the rooms comes from a renaming -/
theorem perm_of_order {rs x : List ρ} (hrs : rs.Nodup) (hx : x.Nodup) (hl : x.length = rs.length) (hs : x ⊆ rs) :
    ∃ f : Equiv.Perm ρ, (∀ r, r ∉ rs → f r = r) ∧ x = rs.map f.symm := by
  have hp : x.Perm rs := (List.subperm_of_subset hx hs).perm_of_length_le hl.ge
  have hm : ∀ r, r ∈ x ↔ r ∈ rs := fun r => hp.mem_iff
  let g : ρ → ρ := fun r => if r ∈ rs then x.getD (rs.idxOf r) r else r
  let h : ρ → ρ := fun r => if r ∈ rs then rs.getD (x.idxOf r) r else r
  have gx : ∀ r ∈ rs, ∃ hi : rs.idxOf r < x.length, g r = x[rs.idxOf r] := by
    intro r hr
    have hi : rs.idxOf r < x.length := by rw [hl]; exact List.idxOf_lt_length_of_mem hr
    exact ⟨hi, by simp only [g, if_pos hr]; simp [List.getD, hi]⟩
  have hx' : ∀ r ∈ rs, ∃ hi : x.idxOf r < rs.length, h r = rs[x.idxOf r] := by
    intro r hr
    have hi : x.idxOf r < rs.length := by rw [← hl]; exact List.idxOf_lt_length_of_mem ((hm r).2 hr)
    exact ⟨hi, by simp only [h, if_pos hr]; simp [List.getD, hi]⟩
  have hg : ∀ r, h (g r) = r := by
    intro r
    by_cases hr : r ∈ rs
    · obtain ⟨hi, e⟩ := gx r hr
      have hgr : g r ∈ rs := by rw [e]; exact hs (List.getElem_mem hi)
      obtain ⟨hj, e'⟩ := hx' (g r) hgr
      rw [e']
      have : x.idxOf (g r) = rs.idxOf r := by
        rw [e]; exact List.Nodup.idxOf_getElem hx _ hi
      simp only [this]
      exact List.getElem_idxOf _
    · simp only [g, h, if_neg hr]
  have gh : ∀ r, g (h r) = r := by
    intro r
    by_cases hr : r ∈ rs
    · obtain ⟨hi, e⟩ := hx' r hr
      have hhr : h r ∈ rs := by rw [e]; exact List.getElem_mem hi
      obtain ⟨hj, e'⟩ := gx (h r) hhr
      rw [e']
      have : rs.idxOf (h r) = x.idxOf r := by
        rw [e]; exact List.Nodup.idxOf_getElem hrs _ hi
      simp only [this]
      exact List.getElem_idxOf _
    · simp only [g, h, if_neg hr]
  refine ⟨⟨h, g, gh, hg⟩, fun r hr => by simp only [Equiv.coe_fn_mk, h, if_neg hr], ?_⟩
  apply List.ext_getElem (by simp [hl])
  intro i h1 h2
  rw [List.getElem_map]
  change _ = g _
  obtain ⟨hi, e⟩ := gx rs[i] (List.getElem_mem _)
  rw [e]
  have : rs.idxOf rs[i] = i := List.Nodup.idxOf_getElem hrs _ _
  simp only [this]

theorem length_filter_one {α : Type} (p : α → Bool) (l : List α) (hl : l.Nodup) :
    (l.filter p).length = 1 ↔ ∃! a, a ∈ l ∧ p a = true := by
  rw [List.length_eq_one_iff]
  constructor
  · rintro ⟨a, ha⟩
    have hm : ∀ b, b ∈ l ∧ p b = true ↔ b = a := by
      intro b
      rw [← List.mem_filter, ha, List.mem_singleton]
    exact ⟨a, (hm a).2 rfl, fun b hb => (hm b).1 hb⟩
  · rintro ⟨a, ha, hu⟩
    refine ⟨a, ?_⟩
    rw [← List.perm_singleton]
    apply (List.perm_ext_iff_of_nodup (hl.filter p) (List.nodup_singleton a)).2
    intro b
    rw [List.mem_filter, List.mem_singleton]
    exact ⟨fun hb => hu b hb, fun h => h ▸ ha⟩

/-! ### C71 -/

/-- C71: for at most 26 rooms, `raum_dict_checker` returns True iff exactly one renaming of the rooms turns the dict
into the pattern; in all other cases - no renaming, or several - it raises `Exception`.  The result does not depend on
the order in which the set of rooms is listed. -/
theorem C71_checker (d b : RDict κ ρ) (rs : List ρ) (hrs : RoomsOf d rs) (hn : rs.length ≤ 26)
    (hd : (d.map Prod.fst).Nodup) (hb : (b.map Prod.fst).Nodup) :
    (raumDictChecker rs d b = .ok true ↔ ∃! f, Renaming d b f) ∧
    (raumDictChecker rs d b = .error .generic ↔ ¬ ∃! f, Renaming d b f) := by
  have hmin : min 26 rs.length = rs.length := min_eq_right hn
  obtain ⟨t, ht⟩ := kperms_head rs.length rs le_rfl
  rw [List.take_length] at ht
  have hval : raumDictChecker rs d b =
      if (((kperms rs.length rs).map fun x =>
          dictSame (d.map fun e => (e.1, (rs.filter fun r => decide (r ∈ e.2)).map x.idxOf))
            (b.map fun e => (e.1, (rs.filter fun r => decide (r ∈ e.2)).map rs.idxOf))).filter id).length = 1
      then .ok true else .error .generic := by
    unfold raumDictChecker
    simp only [hmin, List.length_range]
    have hp : (kperms rs.length rs).map (fun x => x.zip (List.range rs.length)) =
        rs.zip (List.range rs.length) :: t.map fun x => x.zip (List.range rs.length) := by rw [ht]; rfl
    rw [hp]
    dsimp only
    rw [convertDict_ok (fun r h => h) rs.length le_rfl b]
    dsimp only
    rw [← hp, List.mapM_map]
    rw [mapM_ok _ (fun x => dictSame (d.map fun e => (e.1, (rs.filter fun r => decide (r ∈ e.2)).map x.idxOf))
            (b.map fun e => (e.1, (rs.filter fun r => decide (r ∈ e.2)).map rs.idxOf)))]
    intro x hx
    obtain ⟨h1, h2, h3⟩ := (mem_kperms _ _ hrs.1 x).1 hx
    have hp' : x.Perm rs := (List.subperm_of_subset h2 h3).perm_of_length_le h1.ge
    simp only [Function.comp]
    rw [convertDict_ok (fun r h => hp'.mem_iff.2 h) rs.length h1.le d]
    rfl
  have hiff : (((kperms rs.length rs).map fun x =>
          dictSame (d.map fun e => (e.1, (rs.filter fun r => decide (r ∈ e.2)).map x.idxOf))
            (b.map fun e => (e.1, (rs.filter fun r => decide (r ∈ e.2)).map rs.idxOf))).filter id).length = 1 ↔
      ∃! f, Renaming d b f := by
    rw [List.filter_map, List.length_map, length_filter_one _ _ (nodup_kperms _ _ hrs.1)]
    have hout : ∀ {f : Equiv.Perm ρ}, (∀ r, ¬ Occurs d r → f r = r) → rs.map f.symm ∈ kperms rs.length rs := by
      intro f hf
      rw [mem_kperms _ _ hrs.1]
      refine ⟨by simp, hrs.1.map f.symm.injective, ?_⟩
      intro r hr
      obtain ⟨q, hq, rfl⟩ := List.mem_map.1 hr
      by_contra h
      have h1 : ¬ Occurs d (f.symm q) := fun h' => h ((hrs.2 _).2 h')
      have h2 := hf _ h1
      rw [Equiv.apply_symm_apply] at h2
      rw [← h2] at h
      exact h hq
    constructor
    · rintro ⟨x, ⟨hx, hc⟩, hu⟩
      obtain ⟨h1, h2, h3⟩ := (mem_kperms _ _ hrs.1 x).1 hx
      obtain ⟨f, hf, rfl⟩ := perm_of_order hrs.1 h2 h1 h3
      have hf' : ∀ r, ¬ Occurs d r → f r = r := fun r hr => hf r fun h => hr ((hrs.2 r).1 h)
      refine ⟨f, (compare_iff hrs hd hb f hf').1 hc, ?_⟩
      intro g hg
      have := hu (rs.map g.symm) ⟨hout hg.1, (compare_iff hrs hd hb g hg.1).2 hg⟩
      rw [List.map_inj_left] at this
      apply Equiv.symm_bijective.injective
      ext r
      by_cases hr : r ∈ rs
      · exact this r hr
      · have hr' : ¬ Occurs d r := fun h => hr ((hrs.2 r).2 h)
        rw [(Equiv.symm_apply_eq f).2 (hf' r hr').symm, (Equiv.symm_apply_eq g).2 (hg.1 r hr').symm]
    · rintro ⟨f, hf, hu⟩
      refine ⟨rs.map f.symm, ⟨hout hf.1, (compare_iff hrs hd hb f hf.1).2 hf⟩, ?_⟩
      rintro x ⟨hx, hc⟩
      obtain ⟨h1, h2, h3⟩ := (mem_kperms _ _ hrs.1 x).1 hx
      obtain ⟨g, hg, rfl⟩ := perm_of_order hrs.1 h2 h1 h3
      have hg' : ∀ r, ¬ Occurs d r → g r = r := fun r hr => hg r fun h => hr ((hrs.2 r).1 h)
      rw [hu g ((compare_iff hrs hd hb g hg').1 hc)]
  rw [hval, ← hiff]
  constructor <;> split_ifs with h <;> simp [h]

/-- C71: a dict that does not distinguish two rooms - they occur in exactly the same entries - is never accepted, not
even when it is compared with itself. -/
theorem C71_symmetric (d b : RDict κ ρ) (rs : List ρ) (hrs : RoomsOf d rs) (hn : rs.length ≤ 26)
    (hd : (d.map Prod.fst).Nodup) (hb : (b.map Prod.fst).Nodup) (r q : ρ) (hr : Occurs d r) (hq : Occurs d q)
    (hrq : r ≠ q) (hsame : ∀ e ∈ d, r ∈ e.2 ↔ q ∈ e.2) : raumDictChecker rs d b = .error .generic := by
  rw [(C71_checker d b rs hrs hn hd hb).2]
  rintro ⟨f, hf, hu⟩
  have hsw : ∀ e ∈ d, ∀ u, Equiv.swap r q u ∈ e.2 ↔ u ∈ e.2 := by
    intro e he u
    by_cases h1 : u = r
    · subst h1; rw [Equiv.swap_apply_left]; exact (hsame e he).symm
    · by_cases h2 : u = q
      · subst h2; rw [Equiv.swap_apply_right]; exact hsame e he
      · rw [Equiv.swap_apply_of_ne_of_ne h1 h2]
  have hoc : ∀ u, Occurs d (Equiv.swap r q u) ↔ Occurs d u := by
    intro u
    exact ⟨fun ⟨e, he, h⟩ => ⟨e, he, (hsw e he u).1 h⟩, fun ⟨e, he, h⟩ => ⟨e, he, (hsw e he u).2 h⟩⟩
  have h2 : Renaming d b ((Equiv.swap r q).trans f) := by
    refine ⟨fun u hu' => ?_, hf.2.1, fun e he g hg hk u hu' => ?_⟩
    · have : u ≠ r := fun h => hu' (h ▸ hr)
      have h' : u ≠ q := fun h => hu' (h ▸ hq)
      rw [Equiv.trans_apply, Equiv.swap_apply_of_ne_of_ne this h']
      exact hf.1 u hu'
    · rw [Equiv.trans_apply, ← hsw e he u]
      exact hf.2.2 e he g hg hk _ ((hoc u).2 hu')
  have := hu _ h2
  have h3 : f q = f r := by
    conv_rhs => rw [← this]
    rw [Equiv.trans_apply, Equiv.swap_apply_left]
  exact hrq (f.injective h3).symm

/-- C71: a dict is accepted as its own pattern iff it has no symmetry, i.e.
no renaming but the identity maps it to itself. -/
theorem C71_self (d : RDict κ ρ) (rs : List ρ) (hrs : RoomsOf d rs) (hn : rs.length ≤ 26)
    (hd : (d.map Prod.fst).Nodup) :
    raumDictChecker rs d d = .ok true ↔ ∀ f, Renaming d d f → f = Equiv.refl ρ := by
  rw [(C71_checker d d rs hrs hn hd hd).1]
  have h1 : Renaming d d (Equiv.refl ρ) := by
    refine ⟨fun _ _ => rfl, fun _ => Iff.rfl, fun e he g hg hk r _ => ?_⟩
    rw [List.inj_on_of_nodup_map hd he hg hk]; rfl
  exact ⟨fun ⟨f, _, hu⟩ g hg => (hu g hg).trans (hu _ h1).symm, fun h => ⟨_, h1, h⟩⟩

theorem convertSet_cases (rs : List ρ) (p : List (ρ × ℕ)) (v : List ρ) :
    ((∀ r ∈ rs, r ∈ v → ∃ c, p.lookup r = some c) → ∃ l, convertSet rs p v = .ok l) ∧
    ((∃ r ∈ rs, r ∈ v ∧ p.lookup r = none) → convertSet rs p v = .error .key) := by
  constructor
  · intro h
    refine ⟨_, mapM_ok _ (fun r => (p.lookup r).getD 0) _ ?_⟩
    intro r hr
    rw [List.mem_filter, decide_eq_true_eq] at hr
    obtain ⟨c, hc⟩ := h r hr.1 hr.2
    rw [hc]; rfl
  · rintro ⟨r, hr, hv, hn⟩
    apply mapM_error
    · intro a _
      cases p.lookup a with
      | none => right; rfl
      | some c => left; exact ⟨c, rfl⟩
    · exact ⟨r, by simp [hr, hv], by rw [hn]⟩

theorem convertDict_cases (rs : List ρ) (p : List (ρ × ℕ)) (d : RDict κ ρ) :
    ((∃ l, convertDict rs p d = .ok l) ∨ convertDict rs p d = .error .key) ∧
    ((∃ e ∈ d, ∃ r ∈ rs, r ∈ e.2 ∧ p.lookup r = none) → convertDict rs p d = .error .key) := by
  have hs : ∀ v, (∃ l, convertSet rs p v = .ok l) ∨ convertSet rs p v = .error .key := by
    intro v
    by_cases h : ∃ r ∈ rs, r ∈ v ∧ p.lookup r = none
    · exact Or.inr ((convertSet_cases rs p v).2 h)
    · left
      apply (convertSet_cases rs p v).1
      intro r hr hv
      cases hp : p.lookup r with
      | none => exact absurd ⟨r, hr, hv, hp⟩ h
      | some c => exact ⟨c, rfl⟩
  have he : ∀ e : κ × List ρ, (∃ l, (convertSet rs p e.2).map (fun s => (e.1, s)) = .ok l) ∨
      (convertSet rs p e.2).map (fun s => (e.1, s)) = .error .key := by
    intro e
    rcases hs e.2 with ⟨l, hl⟩ | hl
    · left; rw [hl]; exact ⟨_, rfl⟩
    · right; rw [hl]; rfl
  have h2 : (∃ e ∈ d, (convertSet rs p e.2).map (fun s => (e.1, s)) = .error .key) →
      convertDict rs p d = .error .key := fun h => mapM_error _ _ d (fun e _ => he e) h
  constructor
  · by_cases h : ∃ e ∈ d, (convertSet rs p e.2).map (fun s => (e.1, s)) = .error .key
    · exact Or.inr (h2 h)
    · left
      have hall : ∀ e ∈ d, ∃ l, (convertSet rs p e.2).map (fun s => (e.1, s)) = .ok l := by
        intro e hed
        rcases he e with h' | h'
        · exact h'
        · exact absurd ⟨e, hed, h'⟩ h
      clear h h2 he
      unfold convertDict
      induction d with
      | nil => exact ⟨[], rfl⟩
      | cons e d ih =>
        obtain ⟨l, hl⟩ := hall e (by simp)
        obtain ⟨t, ht⟩ := ih fun e he => hall e (by simp [he])
        exact ⟨l :: t, by rw [List.mapM_cons, hl, ht]; rfl⟩
  · rintro ⟨e, hed, r, hr, hre, hp⟩
    exact h2 ⟨e, hed, by rw [(convertSet_cases rs p e.2).2 ⟨r, hr, hre, hp⟩]; rfl⟩

/-- C71: with more than 26 rooms the letters run out and the function ends in a KeyError for every pattern. -/
theorem C71_too_many (d b : RDict κ ρ) (rs : List ρ) (hrs : RoomsOf d rs) (hn : 26 < rs.length) :
    raumDictChecker rs d b = .error .key := by
  have hmin : min 26 rs.length = 26 := min_eq_left hn.le
  obtain ⟨t, ht⟩ := kperms_head 26 rs hn.le
  unfold raumDictChecker
  simp only [hmin, List.length_range]
  have hp : (kperms 26 rs).map (fun x => x.zip (List.range 26)) =
      (rs.take 26).zip (List.range 26) :: t.map fun x => x.zip (List.range 26) := by rw [ht]; rfl
  rw [hp]
  dsimp only
  rcases (convertDict_cases rs ((rs.take 26).zip (List.range 26)) b).1 with ⟨b', hb'⟩ | hb'
  · rw [hb']
    dsimp only
    rw [mapM_error _ .key]
    · intro p _
      rcases (convertDict_cases rs p d).1 with ⟨l, hl⟩ | hl
      · left; rw [hl]; exact ⟨_, rfl⟩
      · right; rw [hl]; rfl
    · refine ⟨_, List.mem_cons_self, ?_⟩
      rw [(convertDict_cases rs _ d).2]
      · rfl
      · have hr : rs[26] ∈ rs := List.getElem_mem hn
        obtain ⟨e, he, hre⟩ := (hrs.2 _).1 hr
        refine ⟨e, he, rs[26], hr, hre, ?_⟩
        rw [lookup_letters _ _ _ (by simp), if_neg]
        intro h
        obtain ⟨i, hi, h⟩ := List.mem_take_iff_getElem.1 h
        have := (List.Nodup.getElem_inj_iff hrs.1).1 h
        omega
  · rw [hb']

/-- two parts of a vessel with two rooms, as in tests/test_SRhauptteile.py -/
def exRooms : RDict (ℕ × ℕ) ℕ := [((0, 0), [10]), ((0, 1), []), ((1, 0), [10]), ((1, 1), [20])]

/-- the same with the rooms exchanged -/
def exRooms' : RDict (ℕ × ℕ) ℕ := [((0, 0), [20]), ((0, 1), []), ((1, 0), [20]), ((1, 1), [10])]

/-- the accepted renaming of the example is the exchange of the two rooms -/
example : RoomsOf exRooms [20, 10] ∧ (exRooms.map Prod.fst).Nodup ∧ (exRooms'.map Prod.fst).Nodup ∧
    raumDictChecker [20, 10] exRooms exRooms' = .ok true ∧ raumDictChecker [10, 20] exRooms exRooms' = .ok true := by
  refine ⟨⟨by decide, fun r => ?_⟩, by decide, by decide, by rfl, by rfl⟩
  simp [exRooms]
  omega

/-- C71: a vessel of two rooms that lie symmetrically - each part borders on both - is not even accepted as itself -/
example : raumDictChecker [10, 20] [((0, 0), [10, 20]), ((1, 0), [20, 10])] [((0, 0), [10, 20]), ((1, 0), [20, 10])] =
    .error .generic := by rfl

end Srep
