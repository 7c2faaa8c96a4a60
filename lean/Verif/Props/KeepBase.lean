import Verif.Model.KeepBase
import Verif.Props.Group
import Verif.Props.TriRel

/-!
# The choice of the rooms among several loops (C112)
-/

set_option linter.unusedSectionVars false

namespace Srep
open Rt
variable {K : Type} [Field K] [LinearOrder K] [IsStrictOrderedRing K] [FloorRing K] {R : Rt K} {α τ : Type}

/-! ### what is said about the choice -/

/-- no two triangles of these polygons are congruent or overlap -/
def ClashFree (o : PolyOps α τ K) (c : List α) : Prop := (c.flatMap o.tris).Pairwise fun t u => o.clash t u = false

/-- `c` is a best choice among the polygons `ps`: polygons whose triangles do not clash, as many as possible, and of these with
the largest sum of areas -/
structure BestOf (R : Rt K) (o : PolyOps α τ K) (ps c : List α) : Prop where
  sub : c.Sublist ps
  ne : c ≠ []
  clear : ClashFree o c
  best : ∀ d : List α, d.Sublist ps → d ≠ [] → ClashFree o d →
    d.length < c.length ∨ (d.length = c.length ∧ R.psum (d.map o.area) ≤ R.psum (c.map o.area))

/-- a set never finds what it does not have -/
def MemSound (mem : ℕ → α → List α → Bool) : Prop := ∀ n x S, mem n x S = true → x ∈ S

/-- a set of two is a subset only if both are there -/
def SubSound (sub : α × α → List α → Bool) : Prop := ∀ y c, sub y c = true → y.1 ∈ c ∧ y.2 ∈ c

theorem anyClash_iff (o : PolyOps α τ K) (ts : List τ) :
    o.anyClash ts = false ↔ ts.Pairwise fun t u => o.clash t u = false := by
  rw [pairwise_twoOf]
  unfold PolyOps.anyClash
  rw [List.any_eq_false]
  simp only [Bool.not_eq_true]

theorem ClashFree.sublist {o : PolyOps α τ K} {c d : List α} (h : ClashFree o c) (hd : d.Sublist c) : ClashFree o d :=
  List.Pairwise.sublist (by
    have := (hd.map o.tris).flatten
    rwa [← List.flatMap_def, ← List.flatMap_def] at this) h

theorem twoOf_sublist : ∀ {l : List α} {y : α × α}, y ∈ twoOf l → [y.1, y.2].Sublist l
  | [], y, h => by simp [twoOf] at h
  | a :: l, y, h => by
    unfold twoOf at h
    rcases List.mem_append.1 h with h | h
    · obtain ⟨b, hb, rfl⟩ := List.mem_map.1 h
      exact (List.singleton_sublist.2 hb).cons_cons a
    · exact (twoOf_sublist h).cons a

/-- two members of a sublist stand there in the order they have in the list -/
theorem pair_sublist {l c : List α} {x y : α} (hnd : l.Nodup) (hc : c.Sublist l) (hxy : [x, y].Sublist l) (hx : x ∈ c) (hy : y ∈ c) :
    [x, y].Sublist c := by
  classical
  have hne : x ≠ y := by
    have := hnd.sublist hxy
    simp at this
    exact this
  have e : c = l.filter fun a => decide (a ∈ c) := by
    have h1 := hc.filter fun a => decide (a ∈ c)
    have h2 : c.filter (fun a => decide (a ∈ c)) = c := by
      rw [List.filter_eq_self]; intro a ha; simpa using ha
    rw [h2] at h1
    refine h1.eq_of_length_le ?_
    have hsub : l.filter (fun a => decide (a ∈ c)) ⊆ c := fun a ha => by
      have := (List.mem_filter.1 ha).2; simpa using this
    exact ((hnd.filter _).subperm hsub).length_le
  rw [e]
  have := hxy.filter fun a => decide (a ∈ c)
  simpa [hx, hy] using this

/-- C112: whatever the hashes of the polygons are: the combinations found are exactly the non-empty selections of polygons whose
triangles do not clash. -/
theorem C112_candidates (o : PolyOps α τ K) (sub : α × α → List α → Bool) (hsub : SubSound sub) (l : List α) (hnd : l.Nodup)
    (c : List α) : c ∈ o.candidates sub l ↔ c.Sublist l ∧ c ≠ [] ∧ ClashFree o c := by
  unfold PolyOps.candidates
  simp only [List.mem_flatMap, List.mem_range, List.mem_filter, mem_combos, Bool.not_eq_true', anyClash_iff]
  constructor
  · rintro ⟨k, hk, ⟨⟨h1, h2⟩, -⟩, h3⟩
    exact ⟨h1, by rintro rfl; simp at h2, h3⟩
  · rintro ⟨h1, h2, h3⟩
    have hlen : 0 < c.length := List.length_pos_of_ne_nil h2
    refine ⟨c.length - 1, by have := h1.length_le; omega, ⟨⟨h1, by omega⟩, ?_⟩, h3⟩
    rw [List.any_eq_false]
    intro y hy hs
    unfold PolyOps.overlapPairs at hy
    obtain ⟨hy, hcl⟩ := List.mem_filter.1 hy
    obtain ⟨m1, m2⟩ := hsub y c hs
    have := ClashFree.sublist h3 (pair_sublist hnd h1 (twoOf_sublist hy) m1 m2)
    unfold ClashFree at this
    rw [← anyClash_iff] at this
    simp at this
    rw [this] at hcl
    cases hcl

theorem keyLt_trans {o : PolyOps α τ K} {a b c : List α} (h : R.keyLt o a b = false) (h' : R.keyLt o b c = false) :
    R.keyLt o a c = false := by
  unfold Rt.keyLt at *
  simp only [Bool.or_eq_false_iff, Bool.and_eq_false_iff, decide_eq_false_iff_not, not_lt] at *
  obtain ⟨h1, h2⟩ := h
  obtain ⟨h3, h4⟩ := h'
  refine ⟨by omega, ?_⟩
  by_cases e : a.length = c.length
  · right
    have e1 : a.length = b.length := by omega
    have e2 : b.length = c.length := by omega
    exact le_trans (h4.resolve_left (not_not.2 e2)) (h2.resolve_left (not_not.2 e1))
  · exact Or.inl e

theorem keyLt_asymm {o : PolyOps α τ K} {a b : List α} (h : R.keyLt o a b = true) : R.keyLt o b a = false := by
  unfold Rt.keyLt at *
  simp only [Bool.or_eq_false_iff, Bool.and_eq_false_iff, decide_eq_false_iff_not, not_lt, Bool.or_eq_true, Bool.and_eq_true,
    decide_eq_true_eq] at *
  rcases h with h | ⟨h1, h2⟩
  · exact ⟨by omega, Or.inl (by omega)⟩
  · exact ⟨by omega, Or.inr h2.le⟩

theorem bestComb_spec (o : PolyOps α τ K) (cs : List (List α)) : (cs = [] ∧ R.bestComb o cs = none) ∨
    ∃ c ∈ cs, R.bestComb o cs = some c ∧ ∀ d ∈ cs, R.keyLt o c d = false := by
  cases cs with
  | nil => exact Or.inl ⟨rfl, rfl⟩
  | cons a cs =>
    right
    unfold Rt.bestComb
    have key : ∀ (cs : List (List α)) (a : List α),
        (cs.foldl (fun b d => if R.keyLt o b d then d else b) a) ∈ a :: cs ∧
        ∀ d ∈ a :: cs, R.keyLt o (cs.foldl (fun b d => if R.keyLt o b d then d else b) a) d = false := by
      intro cs
      induction cs with
      | nil =>
        intro a
        refine ⟨by simp, ?_⟩
        intro d hd
        rw [List.mem_singleton] at hd
        subst hd
        simp [Rt.keyLt]
      | cons b cs ih =>
        intro a
        simp only [List.foldl_cons]
        obtain ⟨i1, i2⟩ := ih (if R.keyLt o a b then b else a)
        refine ⟨?_, ?_⟩
        · rcases List.mem_cons.1 i1 with e | e
          · rw [e]; split_ifs <;> simp
          · exact List.mem_cons_of_mem _ (List.mem_cons_of_mem _ e)
        · intro d hd
          have i3 := i2 _ List.mem_cons_self
          rcases List.mem_cons.1 hd with rfl | hd
          · refine keyLt_trans i3 ?_
            split_ifs with hk
            · exact keyLt_asymm hk
            · simp [Rt.keyLt]
          · rcases List.mem_cons.1 hd with rfl | hd
            · refine keyLt_trans i3 ?_
              split_ifs with hk
              · simp [Rt.keyLt]
              · simpa using hk
            · exact i2 d (List.mem_cons_of_mem _ hd)
    exact ⟨_, (key cs a).1, rfl, (key cs a).2⟩

/-- C112: `_ret[0]` is a best choice, for every order of iteration of the set; IndexError iff every single polygon has
triangles that clash. -/
theorem C112_choice (o : PolyOps α τ K) (sub : α × α → List α → Bool) (hsub : SubSound sub) (σ : List (List α) → List (List α))
    (hσ : ∀ cs, (σ cs).Perm cs) (ps : List α) (hnd : ps.Nodup) :
    (∀ c, R.bestComb o (σ (o.candidates sub ps)) = some c → BestOf R o ps c) ∧
    (R.bestComb o (σ (o.candidates sub ps)) = none ↔ ∀ p ∈ ps, ¬ ClashFree o [p]) := by
  have hmem : ∀ d, d ∈ σ (o.candidates sub ps) ↔ d.Sublist ps ∧ d ≠ [] ∧ ClashFree o d := fun d => by
    rw [(hσ _).mem_iff, C112_candidates o sub hsub ps hnd]
  rcases bestComb_spec (R := R) o (σ (o.candidates sub ps)) with ⟨h1, h2⟩ | ⟨c, h1, h2, h3⟩
  · rw [h2]
    refine ⟨by simp, iff_of_true rfl ?_⟩
    intro p hp hc
    have := (hmem [p]).2 ⟨List.singleton_sublist.2 hp, by simp, hc⟩
    rw [h1] at this
    cases this
  · rw [h2]
    obtain ⟨m1, m2, m3⟩ := (hmem c).1 h1
    refine ⟨?_, ?_⟩
    · rintro _ ⟨⟩
      refine ⟨m1, m2, m3, ?_⟩
      intro d d1 d2 d3
      have := h3 d ((hmem d).2 ⟨d1, d2, d3⟩)
      unfold Rt.keyLt at this
      simp only [Bool.or_eq_false_iff, Bool.and_eq_false_iff, decide_eq_false_iff_not, not_lt] at this
      rcases Nat.lt_or_ge d.length c.length with h | h
      · exact Or.inl h
      · have e : d.length = c.length := le_antisymm this.1 h
        exact Or.inr ⟨e, this.2.resolve_left (not_not.2 e.symm)⟩
    · constructor
      · intro h; cases h
      · intro h
        obtain ⟨a, ha⟩ := List.exists_mem_of_ne_nil c m2
        exact absurd (m3.sublist (List.singleton_sublist.2 ha)) (h a (m1.subset ha))

/-! ### polygons that are loosely equal -/

theorem pair_total {l : List α} {x y : α} (hx : x ∈ l) (hy : y ∈ l) (hne : x ≠ y) : [x, y].Sublist l ∨ [y, x].Sublist l := by
  induction l with
  | nil => cases hx
  | cons a l ih =>
    rcases List.mem_cons.1 hx with rfl | hx1
    · rcases List.mem_cons.1 hy with rfl | hy
      · exact absurd rfl hne
      · exact Or.inl ((List.singleton_sublist.2 hy).cons_cons _)
    · rcases List.mem_cons.1 hy with rfl | hy
      · exact Or.inr ((List.singleton_sublist.2 hx1).cons_cons _)
      · exact (ih hx1 hy).imp (fun h => h.cons a) (fun h => h.cons a)

theorem pair_antisymm {l : List α} {x y : α} (hnd : l.Nodup) (h : [x, y].Sublist l) : ¬ [y, x].Sublist l := by
  induction l with
  | nil => cases h
  | cons a l ih =>
    intro h'
    obtain ⟨ha, hl⟩ := List.nodup_cons.1 hnd
    cases h with
    | cons _ h =>
      cases h' with
      | cons _ h' => exact ih hl h h'
      | cons_cons _ h' => exact ha (h.subset (by simp))
    | cons_cons _ h =>
      cases h' with
      | cons _ h' => exact ha (h'.subset (by simp))
      | cons_cons _ h' => exact ha (List.singleton_sublist.1 h')

theorem looseInner (o : PolyOps α τ K) {mem : ℕ → α → List α → Bool} (hmem : ∀ n x S, mem n x S = true ↔ x ∈ S) (x : α) :
    ∀ (ys : List α) (n : ℕ) (S : List α), (∀ y ∈ ys, y ≠ x) → ∃ n' S',
      (∀ rest, o.looseRemoved mem n (ys.map (fun y => (x, y)) ++ rest) S = o.looseRemoved mem n' rest S') ∧
      ∀ z, z ∈ S' ↔ z ∈ S ∨ (z = x ∧ ∃ y ∈ ys, o.loose x y = true ∧ y ∉ S)
  | [], n, S, _ => ⟨n, S, fun _ => rfl, by simp⟩
  | y :: ys, n, S, hne => by
    obtain ⟨n', S', h1, h2⟩ := looseInner o hmem x ys (n + 1)
      (if o.loose x y && !mem n y S then S ++ [x] else S) (fun y hy => hne y (List.mem_cons_of_mem _ hy))
    refine ⟨n', S', fun rest => ?_, ?_⟩
    · rw [← h1]; rfl
    · intro z
      rw [h2]
      have hm : mem n y S = true ↔ y ∈ S := hmem n y S
      by_cases hc : o.loose x y = true ∧ y ∉ S
      · have : (o.loose x y && !mem n y S) = true := by
          rw [hc.1, Bool.true_and, Bool.not_eq_true', ← Bool.not_eq_true, hm]; exact hc.2
        rw [if_pos this]
        constructor
        · rintro (h | ⟨rfl, -⟩)
          · rcases List.mem_append.1 h with h | h
            · exact Or.inl h
            · rw [List.mem_singleton] at h
              exact Or.inr ⟨h, y, by simp, hc⟩
          · exact Or.inr ⟨rfl, y, by simp, hc⟩
        · rintro (h | ⟨rfl, -⟩)
          · exact Or.inl (List.mem_append_left _ h)
          · exact Or.inl (by simp)
      · have : ¬ (o.loose x y && !mem n y S) = true := by
          rw [Bool.and_eq_true, Bool.not_eq_true', ← Bool.not_eq_true, hm]; exact hc
        rw [if_neg this]
        constructor
        · rintro (h | ⟨rfl, w, hw, h⟩)
          · exact Or.inl h
          · exact Or.inr ⟨rfl, w, List.mem_cons_of_mem _ hw, h⟩
        · rintro (h | ⟨rfl, w, hw, h⟩)
          · exact Or.inl h
          · rcases List.mem_cons.1 hw with rfl | hw
            · exact absurd h hc
            · exact Or.inr ⟨rfl, w, hw, h⟩

theorem looseOuter (o : PolyOps α τ K) {mem : ℕ → α → List α → Bool} (hmem : ∀ n x S, mem n x S = true ↔ x ∈ S)
    {l : List α} (hnd : l.Nodup) (he : ∀ x ∈ l, ∀ y ∈ l, o.eqv x y = true ↔ x = y)
    (hsym : ∀ x ∈ l, ∀ y ∈ l, o.loose x y = true → o.loose y x = true) :
    ∀ (post pre : List α) (n : ℕ) (S : List α), l = pre ++ post →
      (∀ z, z ∈ S ↔ z ∈ pre ∧ ∃ y, [z, y].Sublist l ∧ o.loose z y = true) →
      ∀ z, z ∈ o.looseRemoved mem n (post.flatMap fun x => (l.filter fun y => !o.eqv x y).map fun y => (x, y)) S ↔
        z ∈ l ∧ ∃ y, [z, y].Sublist l ∧ o.loose z y = true
  | [], pre, n, S, hl, hS => by
    intro z
    rw [List.append_nil] at hl
    rw [List.flatMap_nil]
    unfold PolyOps.looseRemoved
    rw [hS, ← hl]
  | x :: post, pre, n, S, hl, hS => by
    intro z
    have hxl : x ∈ l := by rw [hl]; simp
    rw [List.flatMap_cons]
    obtain ⟨n', S', h1, h2⟩ := looseInner o hmem x (l.filter fun y => !o.eqv x y) n S (by
      intro y hy e
      subst e
      obtain ⟨hy, h⟩ := List.mem_filter.1 hy
      rw [(he y hy y hy).2 rfl] at h
      cases h)
    rw [h1]
    refine looseOuter o hmem hnd he hsym post (pre ++ [x]) n' S' (by rw [hl]; simp) ?_ z
    intro w
    rw [h2, hS]
    have hpre : ∀ y ∈ pre, [y, x].Sublist l := by
      intro y hy
      rw [hl]
      exact (List.singleton_sublist.2 hy).append (List.singleton_sublist.2 (List.mem_cons_self (a := x) (l := post)))
    constructor
    · rintro (⟨h, h'⟩ | ⟨rfl, y, hy, hly, hyS⟩)
      · exact ⟨List.mem_append_left _ h, h'⟩
      · refine ⟨by simp, ?_⟩
        obtain ⟨hyl, hne⟩ := List.mem_filter.1 hy
        have hne : w ≠ y := by
          intro e
          rw [(he w hxl y hyl).2 e] at hne
          cases hne
        rcases pair_total hxl hyl hne with h | h
        · exact ⟨y, h, hly⟩
        · exfalso
          apply hyS
          rw [hS]
          refine ⟨?_, w, h, hsym _ hxl _ hyl hly⟩
          rw [hl] at hyl
          rcases List.mem_append.1 hyl with hp | hp
          · exact hp
          · exfalso
            rcases List.mem_cons.1 hp with rfl | hp
            · exact hne rfl
            · refine pair_antisymm hnd h ?_
              rw [hl]
              exact (((List.singleton_sublist.2 hp).cons_cons w)).trans (List.sublist_append_right _ _)
    · rintro ⟨h, y, hy, hly⟩
      rcases List.mem_append.1 h with h | h
      · exact Or.inl ⟨h, y, hy, hly⟩
      · rw [List.mem_singleton] at h
        subst h
        right
        have hyl : y ∈ l := hy.subset (by simp)
        refine ⟨rfl, y, ?_, hly, ?_⟩
        · rw [List.mem_filter]
          refine ⟨hyl, ?_⟩
          rw [Bool.not_eq_true', ← Bool.not_eq_true, he w hxl y hyl]
          rintro rfl
          have := hnd.sublist hy
          simp at this
        · rw [hS]
          rintro ⟨hp, -⟩
          exact pair_antisymm hnd hy (hpre y hp)

theorem zipIdx_filter_fst (p : α → Bool) : ∀ (l : List α) (k : ℕ),
    ((l.zipIdx k).filter fun x => p x.1).map Prod.fst = l.filter p
  | [], k => rfl
  | a :: l, k => by
    rw [List.zipIdx_cons, List.filter_cons, List.filter_cons]
    dsimp only
    split_ifs
    · rw [List.map_cons, zipIdx_filter_fst p l]
    · exact zipIdx_filter_fst p l _

theorem removeLoose_sublist (o : PolyOps α τ K) (mem : ℕ → α → List α → Bool) (l : List α) : (o.removeLoose mem l).Sublist l := by
  unfold PolyOps.removeLoose
  have h : ((l.zipIdx.filter fun x => !mem ((o.loosePairs l).length + x.2) x.1
      (o.looseRemoved mem 0 (o.loosePairs l) [])).map Prod.fst).Sublist (l.zipIdx.map Prod.fst) := List.filter_sublist.map _
  rwa [List.zipIdx_map_fst] at h

/-- C112: if the set of removed polygons finds its members, exactly the last one of loosely equal polygons is kept. -/
theorem C112_loose_last (o : PolyOps α τ K) (mem : ℕ → α → List α → Bool) (hmem : ∀ n x S, mem n x S = true ↔ x ∈ S)
    (l : List α) (hnd : l.Nodup) (he : ∀ x ∈ l, ∀ y ∈ l, o.eqv x y = true ↔ x = y)
    (hsym : ∀ x ∈ l, ∀ y ∈ l, o.loose x y = true → o.loose y x = true) :
    (o.removeLoose mem l).Sublist l ∧
    ∀ x, x ∈ o.removeLoose mem l ↔ x ∈ l ∧ ∀ y, [x, y].Sublist l → o.loose x y = false := by
  refine ⟨removeLoose_sublist o mem l, ?_⟩
  intro x
  have key := looseOuter o hmem hnd he hsym l [] 0 [] rfl (by simp) x
  have hS : o.looseRemoved mem 0 (l.flatMap fun x => (l.filter fun y => !o.eqv x y).map fun y => (x, y)) [] =
    o.looseRemoved mem 0 (o.loosePairs l) [] := rfl
  rw [hS] at key
  classical
  have e : o.removeLoose mem l = l.filter fun x => !decide (x ∈ o.looseRemoved mem 0 (o.loosePairs l) []) := by
    unfold PolyOps.removeLoose
    dsimp only
    rw [← zipIdx_filter_fst _ l 0]
    congr 1
    apply List.filter_congr
    intro q _
    congr 1
    rw [Bool.eq_iff_iff, hmem, decide_eq_true_eq]
  rw [e, List.mem_filter, Bool.not_eq_true', decide_eq_false_iff_not, key]
  constructor
  · rintro ⟨h, h'⟩
    refine ⟨h, fun y hy => ?_⟩
    rw [← Bool.not_eq_true]
    exact fun hl => h' ⟨h, y, hy, hl⟩
  · rintro ⟨h, h'⟩
    refine ⟨h, ?_⟩
    rintro ⟨-, y, hy, hl⟩
    rw [h' y hy] at hl
    cases hl

/-- C112: if no hash is met twice, loosely equal polygons are all kept. -/
theorem C112_loose_missed (o : PolyOps α τ K) (l : List α) : o.removeLoose (fun _ _ _ => false) l = l := by
  unfold PolyOps.removeLoose
  simp

/-- C112: if no two different polygons are loosely equal, none is removed, whatever the hashes. -/
theorem C112_no_loose (o : PolyOps α τ K) (mem : ℕ → α → List α → Bool) (hmem : MemSound mem) (l : List α)
    (he : ∀ x ∈ l, ∀ y ∈ l, o.eqv x y = true ↔ x = y) (hl : ∀ x ∈ l, ∀ y ∈ l, x ≠ y → o.loose x y = false) :
    o.removeLoose mem l = l := by
  have hS : ∀ (qs : List (α × α)) (n : ℕ), (∀ q ∈ qs, o.loose q.1 q.2 = false) → o.looseRemoved mem n qs [] = [] := by
    intro qs
    induction qs with
    | nil => intro n _; rfl
    | cons q qs ih =>
      intro n h
      unfold PolyOps.looseRemoved
      rw [h q (by simp)]
      simpa using ih (n + 1) fun q hq => h q (List.mem_cons_of_mem _ hq)
  unfold PolyOps.removeLoose
  rw [hS]
  · have hm : ∀ n x, mem n x ([] : List α) = false := fun n x => by
      rw [← Bool.not_eq_true]; intro h; exact absurd (hmem n x [] h) (by simp)
    simp [hm]
  · intro q hq
    unfold PolyOps.loosePairs at hq
    obtain ⟨x, hx, hq⟩ := List.mem_flatMap.1 hq
    obtain ⟨y, hy, rfl⟩ := List.mem_map.1 hq
    obtain ⟨hy, h⟩ := List.mem_filter.1 hy
    refine hl x hx y hy ?_
    intro e
    rw [(he x hx y hy).2 e] at h
    cases h

/-! ### what is kept -/

theorem mem_perms2 {l : List α} (hnd : l.Nodup) (q : α × α) : q ∈ perms2 l ↔ q.1 ∈ l ∧ q.2 ∈ l ∧ q.1 ≠ q.2 := by
  unfold perms2
  simp only [List.mem_flatMap, List.mem_map, List.mem_filter, decide_eq_true_eq]
  constructor
  · rintro ⟨⟨a, i⟩, ha, ⟨b, j⟩, ⟨hb, hij⟩, rfl⟩
    rw [List.mem_zipIdx_iff_getElem?] at ha hb
    obtain ⟨hi, ea⟩ := List.getElem?_eq_some_iff.1 ha
    obtain ⟨hj, eb⟩ := List.getElem?_eq_some_iff.1 hb
    dsimp only at *
    refine ⟨ea ▸ List.getElem_mem _, eb ▸ List.getElem_mem _, ?_⟩
    rw [← ea, ← eb]
    intro e
    exact hij ((hnd.getElem_inj_iff).1 e).symm
  · rintro ⟨h1, h2, hne⟩
    obtain ⟨i, hi, e1⟩ := List.mem_iff_getElem.1 h1
    obtain ⟨j, hj, e2⟩ := List.mem_iff_getElem.1 h2
    refine ⟨(q.1, i), ?_, (q.2, j), ⟨?_, ?_⟩, rfl⟩
    · rw [List.mem_zipIdx_iff_getElem?]; exact List.getElem?_eq_some_iff.2 ⟨hi, e1⟩
    · rw [List.mem_zipIdx_iff_getElem?]; exact List.getElem?_eq_some_iff.2 ⟨hj, e2⟩
    · dsimp only
      intro e
      apply hne
      rw [← e1, ← e2]
      exact getElem_congr_idx e.symm

theorem toAdd_eq (o : PolyOps α τ K) {ps c : List α} {x : α} (he : ∀ x ∈ ps, ∀ y ∈ ps, o.eqv x y = true ↔ x = y)
    (hx : x ∈ ps) (hc : c ⊆ ps) (hxc : x ∉ c) (qs : List (α × α)) (hq : ∀ q ∈ qs, q.1 ∈ ps) :
    ((∃ q ∈ qs, q.1 = x ∧ (o.inner x q.2 = true ∨ o.outer x q.2 = true)) → o.toAdd c x qs = [x]) ∧
    ((¬ ∃ q ∈ qs, q.1 = x ∧ (o.inner x q.2 = true ∨ o.outer x q.2 = true)) → o.toAdd c x qs = []) := by
  unfold PolyOps.toAdd
  have hcx : (c.any fun y => o.eqv x y) = false := by
    rw [List.any_eq_false]
    intro y hy h
    exact hxc ((he x hx y (hc hy)).1 h ▸ hy)
  have full : ∀ qs : List (α × α), (∀ q ∈ qs, q.1 ∈ ps) → qs.foldl (fun add q => if o.eqv x q.1 && (o.inner q.1 q.2 || o.outer q.1 q.2) &&
      !(add.any fun y => o.eqv q.1 y) && !(c.any fun y => o.eqv q.1 y) then add ++ [q.1] else add) [x] = [x] := by
    intro qs
    induction qs with
    | nil => intro _; rfl
    | cons q qs ih =>
      intro h
      rw [List.foldl_cons, if_neg, ih fun q hq => h q (List.mem_cons_of_mem _ hq)]
      intro hh
      simp only [Bool.and_eq_true, List.any_cons, List.any_nil, Bool.or_false, Bool.not_eq_true'] at hh
      obtain ⟨⟨⟨h1, -⟩, h2⟩, -⟩ := hh
      have e := (he x hx q.1 (h q (by simp))).1 h1
      rw [← e, (he x hx x hx).2 rfl] at h2
      cases h2
  induction qs with
  | nil => exact ⟨fun ⟨q, hq, _⟩ => absurd hq (by simp), fun _ => rfl⟩
  | cons q qs ih =>
    obtain ⟨i1, i2⟩ := ih fun q hq' => hq q (List.mem_cons_of_mem _ hq')
    have hq' := hq q (by simp)
    rw [List.foldl_cons]
    by_cases hh : q.1 = x ∧ (o.inner x q.2 = true ∨ o.outer x q.2 = true)
    · have e : (if o.eqv x q.1 && (o.inner q.1 q.2 || o.outer q.1 q.2) && !(([] : List α).any fun y => o.eqv q.1 y) &&
          !(c.any fun y => o.eqv q.1 y) then ([] : List α) ++ [q.1] else []) = [x] := by
        rw [hh.1, hcx, (he x hx x hx).2 rfl]
        simp [hh.2]
      rw [e, full qs fun q hq'' => hq q (List.mem_cons_of_mem _ hq'')]
      exact ⟨fun _ => rfl, fun h => absurd ⟨q, by simp, hh⟩ h⟩
    · have e : (if o.eqv x q.1 && (o.inner q.1 q.2 || o.outer q.1 q.2) && !(([] : List α).any fun y => o.eqv q.1 y) &&
          !(c.any fun y => o.eqv q.1 y) then ([] : List α) ++ [q.1] else []) = [] := by
        rw [if_neg]
        intro hb
        simp only [Bool.and_eq_true, Bool.or_eq_true] at hb
        have e := (he x hx q.1 hq').1 hb.1.1.1
        exact hh ⟨e.symm, by rw [e]; exact hb.1.1.2⟩
      rw [e]
      constructor
      · rintro ⟨w, hw, h⟩
        rcases List.mem_cons.1 hw with rfl | hw
        · exact absurd h hh
        · exact i1 ⟨w, hw, h⟩
      · intro h
        exact i2 fun ⟨w, hw, h'⟩ => h ⟨w, List.mem_cons_of_mem _ hw, h'⟩

/-- the polygons left after the first two steps -/
def Rt.reduced (R : Rt K) (o : PolyOps α τ K) (mem : ℕ → α → List α → Bool) (l : List α) : List α :=
  R.keepByArea o.eqv o.area (fun p => (o.tris p).map o.triArea) (o.removeLoose mem l)

theorem reduced_sublist (o : PolyOps α τ K) (mem : ℕ → α → List α → Bool) (l : List α) : (R.reduced o mem l).Sublist l :=
  (areaReduce_sublist _ _ _).trans (removeLoose_sublist o mem l)

/-- C112: what `keep_base_polygons` returns for two or more polygons, whatever the hashes and orders of sets: a best choice `c`
of the polygons left after the reductions, perhaps followed by one more, which has all points of another polygon inside or
all of them outside.  It is an IndexError iff every polygon has triangles that clash. -/
theorem C112_kept (o : PolyOps α τ K) (mem : ℕ → α → List α → Bool) (sub : α × α → List α → Bool) (hsub : SubSound sub)
    (σ : List (List α) → List (List α)) (hσ : ∀ cs, (σ cs).Perm cs) (l : List α) (hnd : l.Nodup)
    (he : ∀ x ∈ l, ∀ y ∈ l, o.eqv x y = true ↔ x = y) :
    (∀ r, R.keepMore o mem sub σ l = .ok r → ∃ c, BestOf R o (R.reduced o mem l) c ∧
      (r = c ∨ ∃ x ∈ R.reduced o mem l, x ∉ c ∧ r = c ++ [x] ∧
        ∃ y ∈ R.reduced o mem l, y ≠ x ∧ (o.inner x y = true ∨ o.outer x y = true))) ∧
    (R.keepMore o mem sub σ l = .error .index ↔ ∀ p ∈ R.reduced o mem l, ¬ ClashFree o [p]) := by
  have hsubl := reduced_sublist (R := R) o mem l
  have hnd' := hnd.sublist hsubl
  have he' : ∀ x ∈ R.reduced o mem l, ∀ y ∈ R.reduced o mem l, o.eqv x y = true ↔ x = y :=
    fun x hx y hy => he x (hsubl.subset hx) y (hsubl.subset hy)
  obtain ⟨k1, k2⟩ := C112_choice (R := R) o sub hsub σ hσ (R.reduced o mem l) hnd'
  rw [← k2]
  unfold Rt.keepMore
  rw [show R.keepByArea o.eqv o.area (fun p => (o.tris p).map o.triArea) (o.removeLoose mem l) = R.reduced o mem l from rfl]
  dsimp only
  cases hb : R.bestComb o (σ (o.candidates sub (R.reduced o mem l))) with
  | none => exact ⟨by simp, by simp⟩
  | some c =>
    have hc := k1 c hb
    dsimp only
    refine ⟨?_, ?_⟩
    · intro r hr
      refine ⟨c, hc, ?_⟩
      split_ifs at hr with hlen
      · injection hr with hr
        exact Or.inl hr.symm
      · split at hr
        · rename_i x hlo
          injection hr with hr
          have hx : x ∈ o.leftOut (R.reduced o mem l) c := by rw [hlo]; simp
          unfold PolyOps.leftOut at hx
          obtain ⟨hx, h⟩ := List.mem_filter.1 hx
          rw [Bool.and_eq_true, Bool.not_eq_true', List.any_eq_false] at h
          have hxc : x ∉ c := fun hx' => h.1 x hx' ((he' x hx x hx).2 rfl)
          obtain ⟨t1, t2⟩ := toAdd_eq o he' hx hc.sub.subset hxc (perms2 (R.reduced o mem l))
            (fun q hq => ((mem_perms2 hnd' q).1 hq).1)
          by_cases hex : ∃ q ∈ perms2 (R.reduced o mem l), q.1 = x ∧ (o.inner x q.2 = true ∨ o.outer x q.2 = true)
          · rw [t1 hex] at hr
            obtain ⟨q, hq, e, h'⟩ := hex
            obtain ⟨q1, q2, q3⟩ := (mem_perms2 hnd' q).1 hq
            exact Or.inr ⟨x, hx, hxc, hr.symm, q.2, q2, by rw [← e]; exact q3.symm, h'⟩
          · rw [t2 hex, List.append_nil] at hr
            exact Or.inl hr.symm
        · cases hr
    · refine ⟨?_, by simp⟩
      intro h
      split_ifs at h
      split at h
      · cases h
      · injection h with h
        cases h

/-- C112: if no two different polygons are loosely equal: there is an Exception iff two or more are left out; if one is left
out, it is added iff it has all points of another polygon inside or all outside, and is dropped otherwise. -/
theorem C112_left_out (o : PolyOps α τ K) (mem : ℕ → α → List α → Bool) (sub : α × α → List α → Bool) (hsub : SubSound sub)
    (σ : List (List α) → List (List α)) (hσ : ∀ cs, (σ cs).Perm cs) (l : List α) (hnd : l.Nodup)
    (he : ∀ x ∈ l, ∀ y ∈ l, o.eqv x y = true ↔ x = y) (hl : ∀ x ∈ l, ∀ y ∈ l, o.loose x y = true ↔ x = y)
    (hne : ∃ p ∈ R.reduced o mem l, ClashFree o [p]) :
    ∃ c, BestOf R o (R.reduced o mem l) c ∧
      ((R.reduced o mem l).length = c.length → R.keepMore o mem sub σ l = .ok (R.reduced o mem l)) ∧
      ((R.reduced o mem l).length = c.length + 1 → ∃ x ∈ R.reduced o mem l, x ∉ c ∧
        ((∃ y ∈ R.reduced o mem l, y ≠ x ∧ (o.inner x y = true ∨ o.outer x y = true)) →
          R.keepMore o mem sub σ l = .ok (c ++ [x])) ∧
        ((¬ ∃ y ∈ R.reduced o mem l, y ≠ x ∧ (o.inner x y = true ∨ o.outer x y = true)) →
          R.keepMore o mem sub σ l = .ok c)) ∧
      (c.length + 2 ≤ (R.reduced o mem l).length → R.keepMore o mem sub σ l = .error .generic) := by
  classical
  have hsubl := reduced_sublist (R := R) o mem l
  have hnd' := hnd.sublist hsubl
  have he' : ∀ x ∈ R.reduced o mem l, ∀ y ∈ R.reduced o mem l, o.eqv x y = true ↔ x = y :=
    fun x hx y hy => he x (hsubl.subset hx) y (hsubl.subset hy)
  have hl' : ∀ x ∈ R.reduced o mem l, ∀ y ∈ R.reduced o mem l, o.loose x y = true ↔ x = y :=
    fun x hx y hy => hl x (hsubl.subset hx) y (hsubl.subset hy)
  obtain ⟨k1, k2⟩ := C112_choice (R := R) o sub hsub σ hσ (R.reduced o mem l) hnd'
  unfold Rt.keepMore
  rw [show R.keepByArea o.eqv o.area (fun p => (o.tris p).map o.triArea) (o.removeLoose mem l) = R.reduced o mem l from rfl]
  generalize R.reduced o mem l = ps at *
  dsimp only
  cases hb : R.bestComb o (σ (o.candidates sub ps)) with
  | none =>
    obtain ⟨p, hp, hc⟩ := hne
    exact absurd hc (k2.1 hb p hp)
  | some c =>
    have hc := k1 c hb
    have hcnd := hnd'.sublist hc.sub
    have hlo : o.leftOut ps c = ps.filter fun x => decide (x ∉ c) := by
      unfold PolyOps.leftOut
      apply List.filter_congr
      intro x hx
      have e1 : (c.any fun y => o.eqv x y) = decide (x ∈ c) := by
        rw [Bool.eq_iff_iff, List.any_eq_true, decide_eq_true_eq]
        exact ⟨fun ⟨y, hy, h⟩ => (he' x hx y (hc.sub.subset hy)).1 h ▸ hy, fun h => ⟨x, h, (he' x hx x hx).2 rfl⟩⟩
      have e2 : (c.any fun y => o.loose x y) = decide (x ∈ c) := by
        rw [Bool.eq_iff_iff, List.any_eq_true, decide_eq_true_eq]
        exact ⟨fun ⟨y, hy, h⟩ => (hl' x hx y (hc.sub.subset hy)).1 h ▸ hy, fun h => ⟨x, h, (hl' x hx x hx).2 rfl⟩⟩
      rw [e1, e2]
      by_cases h : x ∈ c <;> simp [h]
    have hcount : (ps.filter fun x => decide (x ∉ c)).length + c.length = ps.length := by
      have h1 := List.length_eq_length_filter_add (l := ps) fun x => decide (x ∈ c)
      have h2 : (ps.filter fun x => decide (x ∈ c)).length = c.length := by
        apply List.Perm.length_eq
        rw [List.perm_ext_iff_of_nodup (hnd'.filter _) hcnd]
        intro a
        rw [List.mem_filter, decide_eq_true_eq]
        exact ⟨fun h => h.2, fun h => ⟨hc.sub.subset h, h⟩⟩
      have h3 : (ps.filter fun x => !decide (x ∈ c)) = ps.filter fun x => decide (x ∉ c) := by
        apply List.filter_congr; intro x _; simp
      rw [h2, h3] at h1
      omega
    dsimp only
    refine ⟨c, hc, ?_, ?_, ?_⟩
    · intro hlen
      rw [if_pos hlen, hc.sub.eq_of_length hlen.symm]
    · intro hlen
      rw [if_neg (by omega), hlo]
      obtain ⟨x, hx⟩ := List.length_eq_one_iff.1 (show (ps.filter fun x => decide (x ∉ c)).length = 1 by omega)
      have hxm : x ∈ ps.filter fun x => decide (x ∉ c) := by rw [hx]; simp
      obtain ⟨hxp, hxc⟩ := List.mem_filter.1 hxm
      have hxc := of_decide_eq_true hxc
      rw [hx]
      obtain ⟨t1, t2⟩ := toAdd_eq o he' hxp hc.sub.subset hxc (perms2 ps) (fun q hq => ((mem_perms2 hnd' q).1 hq).1)
      refine ⟨x, hxp, hxc, ?_, ?_⟩
      · rintro ⟨y, hy, hyx, h⟩
        dsimp only
        rw [t1 ⟨(x, y), (mem_perms2 hnd' _).2 ⟨hxp, hy, hyx.symm⟩, rfl, h⟩]
      · intro h
        dsimp only
        rw [t2, List.append_nil]
        rintro ⟨q, hq, e, h'⟩
        obtain ⟨q1, q2, q3⟩ := (mem_perms2 hnd' q).1 hq
        exact h ⟨q.2, q2, by rw [← e]; exact q3.symm, h'⟩
    · intro hlen
      rw [if_neg (by omega), hlo]
      have h2 : 2 ≤ (ps.filter fun x => decide (x ∉ c)).length := by omega
      generalize ps.filter (fun x => decide (x ∉ c)) = m at *
      match m, h2 with
      | a :: b :: m, _ => rfl

/-! ### common arrangements -/

/-- areas that cannot be put together from others: nothing is removed because of its area -/
theorem keepByArea_all [DecidableEq α] {eqv : α → α → Bool} {area : α → K} {tris : α → List K} (l : List α)
    (he : ∀ x ∈ l, ∀ y ∈ l, eqv x y = true → x = y)
    (h : ∀ comb : List α, comb.Sublist l → 2 ≤ comb.length → ∀ x ∈ l, R.eps ≤ |R.sub (area x) (R.psum (comb.flatMap tris))|)
    (hnd : l.Nodup) : R.keepByArea eqv area tris l = l := by
  obtain ⟨h1, h2⟩ := C69_reason (R := R) (area := area) (tris := tris) l he
  refine h1.eq_of_length_le ?_
  refine (hnd.subperm ?_).length_le
  intro x hx
  by_contra hn
  obtain ⟨comb, c1, c2, c3⟩ := h2 x hx hn
  exact absurd c3 (not_lt.2 (h comb c1 c2 x hx))

/-- no polygon has the area of the triangles of two or more others -/
def NoAreaSums (R : Rt K) (o : PolyOps α τ K) (l : List α) : Prop :=
  ∀ comb : List α, comb.Sublist l → 2 ≤ comb.length → ∀ x ∈ l,
    R.eps ≤ |R.sub (o.area x) (R.psum (comb.flatMap fun p => (o.tris p).map o.triArea))|

/-- C112: rooms beside each other and the outline of some of them: if the outline `u` is the only polygon with the area of the
triangles of two or more polygons, and the triangles of the others do not clash, exactly the others are kept, in their order. -/
theorem C112_rooms_and_outline [DecidableEq α] (o : PolyOps α τ K) (mem : ℕ → α → List α → Bool) (hmem : MemSound mem)
    (sub : α × α → List α → Bool) (hsub : SubSound sub) (σ : List (List α) → List (List α)) (hσ : ∀ cs, (σ cs).Perm cs)
    (l : List α) (hnd : l.Nodup) (he : ∀ x ∈ l, ∀ y ∈ l, o.eqv x y = true ↔ x = y)
    (hl : ∀ x ∈ l, ∀ y ∈ l, o.loose x y = true ↔ x = y) (u : α) (hu : u ∈ l) (comb : List α) (hc : comb.Sublist l)
    (h2 : 2 ≤ comb.length) (hm : |R.sub (o.area u) (R.psum (comb.flatMap fun p => (o.tris p).map o.triArea))| < R.eps)
    (honly : ∀ comb : List α, comb.Sublist l → 2 ≤ comb.length → ∀ x ∈ l,
      |R.sub (o.area x) (R.psum (comb.flatMap fun p => (o.tris p).map o.triArea))| < R.eps → x = u)
    (hfree : ClashFree o (l.erase u)) : R.keepMore o mem sub σ l = .ok (l.erase u) := by
  have hred : R.reduced o mem l = l.erase u := by
    unfold Rt.reduced
    rw [C112_no_loose o mem hmem l he fun x hx y hy hne => by rw [← Bool.not_eq_true, hl x hx y hy]; exact hne]
    exact C69_removed l hnd he u hu comb hc h2 hm honly
  have hlen : 1 ≤ (l.erase u).length := by
    rw [List.length_erase_of_mem hu]
    have := hc.length_le
    omega
  obtain ⟨a, ha⟩ := List.exists_mem_of_ne_nil (l.erase u) (by rintro e; rw [e] at hlen; simp at hlen)
  obtain ⟨c, hb, k, -⟩ := C112_left_out (R := R) o mem sub hsub σ hσ l hnd he hl
    (by rw [hred]; exact ⟨a, ha, hfree.sublist (List.singleton_sublist.2 ha)⟩)
  rw [hred] at hb k
  apply k
  have h1 := hb.sub.length_le
  rcases hb.best (l.erase u) (List.Sublist.refl _) (by rintro e; rw [e] at hlen; simp at hlen) hfree with h | h
  · omega
  · exact h.1

/-- C112: rooms that do not clash are all kept if no area is a sum of areas. -/
theorem C112_rooms_beside [DecidableEq α] (o : PolyOps α τ K) (mem : ℕ → α → List α → Bool) (hmem : MemSound mem)
    (sub : α × α → List α → Bool) (hsub : SubSound sub) (σ : List (List α) → List (List α)) (hσ : ∀ cs, (σ cs).Perm cs)
    (l : List α) (hnd : l.Nodup) (hne : l ≠ []) (he : ∀ x ∈ l, ∀ y ∈ l, o.eqv x y = true ↔ x = y)
    (hl : ∀ x ∈ l, ∀ y ∈ l, o.loose x y = true ↔ x = y) (harea : NoAreaSums R o l) (hfree : ClashFree o l) :
    R.keepMore o mem sub σ l = .ok l := by
  have hred : R.reduced o mem l = l := by
    unfold Rt.reduced
    rw [C112_no_loose o mem hmem l he fun x hx y hy hne => by rw [← Bool.not_eq_true, hl x hx y hy]; exact hne]
    exact keepByArea_all l (fun x hx y hy => (he x hx y hy).1) harea hnd
  obtain ⟨a, ha⟩ := List.exists_mem_of_ne_nil l hne
  obtain ⟨c, hb, k, -⟩ := C112_left_out (R := R) o mem sub hsub σ hσ l hnd he hl
    (by rw [hred]; exact ⟨a, ha, hfree.sublist (List.singleton_sublist.2 ha)⟩)
  rw [hred] at hb k
  apply k
  have h1 := hb.sub.length_le
  rcases hb.best l (List.Sublist.refl _) hne hfree with h | h
  · omega
  · exact h.1

/-- if any two polygons clash, a best choice is a single one of the largest area -/
theorem BestOf.single {o : PolyOps α τ K} {ps c : List α} (hb : BestOf R o ps c) (hone : ∀ p ∈ ps, ClashFree o [p])
    (htwo : ∀ x y, [x, y].Sublist ps → ¬ ClashFree o [x, y]) : ∃ a ∈ ps, c = [a] ∧ ∀ p ∈ ps, R.psum [o.area p] ≤ R.psum [o.area a] := by
  match c, hb with
  | [], hb => exact absurd rfl hb.ne
  | [a], hb =>
    refine ⟨a, hb.sub.subset (by simp), rfl, ?_⟩
    intro p hp
    rcases hb.best [p] (List.singleton_sublist.2 hp) (by simp) (hone p hp) with h | h
    · simp at h
    · exact h.2
  | a :: b :: c, hb =>
    have h1 : [a, b].Sublist (a :: b :: c) := ((List.nil_sublist c).cons_cons b).cons_cons a
    exact absurd (hb.clear.sublist h1) (htwo a b (h1.trans hb.sub))

/-- C112: two rooms that clash (one inside the other): the larger one `b` comes first; the smaller one `a` follows iff all points
of `b` are inside of `a` or all are outside of it, and is lost otherwise. -/
theorem C112_nested [DecidableEq α] (o : PolyOps α τ K) (mem : ℕ → α → List α → Bool) (hmem : MemSound mem)
    (sub : α × α → List α → Bool) (hsub : SubSound sub) (σ : List (List α) → List (List α)) (hσ : ∀ cs, (σ cs).Perm cs)
    (l : List α) (a b : α) (hab : a ≠ b) (hp : l = [a, b] ∨ l = [b, a]) (he : ∀ x ∈ l, ∀ y ∈ l, o.eqv x y = true ↔ x = y)
    (hl : ∀ x ∈ l, ∀ y ∈ l, o.loose x y = true ↔ x = y) (harea : NoAreaSums R o l) (ha : ClashFree o [a]) (hb : ClashFree o [b])
    (hclash : ¬ ClashFree o l) (hlt : R.psum [o.area a] < R.psum [o.area b]) :
    R.keepMore o mem sub σ l = .ok (if o.inner a b || o.outer a b then [b, a] else [b]) := by
  have hperm : l.Perm [a, b] := by
    rcases hp with rfl | rfl
    · exact List.Perm.refl _
    · exact List.Perm.swap _ _ _
  have hnd : l.Nodup := hperm.nodup_iff.2 (by simp [hab])
  have hmeml : ∀ x, x ∈ l ↔ x = a ∨ x = b := fun x => by rw [hperm.mem_iff]; simp
  have hred : R.reduced o mem l = l := by
    unfold Rt.reduced
    rw [C112_no_loose o mem hmem l he fun x hx y hy hne => by rw [← Bool.not_eq_true, hl x hx y hy]; exact hne]
    exact keepByArea_all l (fun x hx y hy => (he x hx y hy).1) harea hnd
  have hone : ∀ p ∈ l, ClashFree o [p] := by
    intro p hp
    rcases (hmeml p).1 hp with rfl | rfl
    · exact ha
    · exact hb
  have hlen : l.length = 2 := hperm.length_eq
  obtain ⟨c, hc, -, k, -⟩ := C112_left_out (R := R) o mem sub hsub σ hσ l hnd he hl
    (by rw [hred]; exact ⟨a, (hmeml a).2 (Or.inl rfl), ha⟩)
  rw [hred] at hc k
  obtain ⟨d, hd, rfl, hmax⟩ := hc.single hone (by
    intro x y hxy hcl
    rw [hxy.eq_of_length (by rw [hlen]; rfl)] at hcl
    exact hclash hcl)
  have hdb : d = b := by
    rcases (hmeml d).1 hd with rfl | rfl
    · exact absurd (hmax b ((hmeml b).2 (Or.inr rfl))) (not_le.2 hlt)
    · rfl
  subst hdb
  obtain ⟨x, hx, hxd, k1, k2⟩ := k (by rw [hlen]; rfl)
  have hxa : x = a := by
    rcases (hmeml x).1 hx with rfl | rfl
    · rfl
    · simp at hxd
  subst hxa
  by_cases hio : o.inner x d = true ∨ o.outer x d = true
  · rw [k1 ⟨d, hd, hab.symm, hio⟩, if_pos (by simpa using hio)]
    rfl
  · rw [k2, if_neg (by simpa using hio)]
    rintro ⟨y, hy, hyx, h⟩
    rcases (hmeml y).1 hy with rfl | rfl
    · exact hyx rfl
    · exact hio h

/-- C112: three or more rooms any two of which clash (one inside the other) end with an Exception. -/
theorem C112_three_nested [DecidableEq α] (o : PolyOps α τ K) (mem : ℕ → α → List α → Bool) (hmem : MemSound mem)
    (sub : α × α → List α → Bool) (hsub : SubSound sub) (σ : List (List α) → List (List α)) (hσ : ∀ cs, (σ cs).Perm cs)
    (l : List α) (hnd : l.Nodup) (h3 : 3 ≤ l.length) (he : ∀ x ∈ l, ∀ y ∈ l, o.eqv x y = true ↔ x = y)
    (hl : ∀ x ∈ l, ∀ y ∈ l, o.loose x y = true ↔ x = y) (harea : NoAreaSums R o l) (hone : ∀ p ∈ l, ClashFree o [p])
    (htwo : ∀ x y, [x, y].Sublist l → ¬ ClashFree o [x, y]) : R.keepMore o mem sub σ l = .error .generic := by
  have hred : R.reduced o mem l = l := by
    unfold Rt.reduced
    rw [C112_no_loose o mem hmem l he fun x hx y hy hne => by rw [← Bool.not_eq_true, hl x hx y hy]; exact hne]
    exact keepByArea_all l (fun x hx y hy => (he x hx y hy).1) harea hnd
  obtain ⟨p, hp⟩ := List.exists_mem_of_ne_nil l (by rintro rfl; simp at h3)
  obtain ⟨c, hc, -, -, k⟩ := C112_left_out (R := R) o mem sub hsub σ hσ l hnd he hl (by rw [hred]; exact ⟨p, hp, hone p hp⟩)
  rw [hred] at hc k
  obtain ⟨d, hd, rfl, -⟩ := hc.single hone htwo
  exact k (by simpa using h3)

/-! ### examples -/

/-- intervals of whole numbers as polygons, cut into pieces of length one as triangles -/
def exIntervals : PolyOps (ℕ × ℕ) ℕ ℚ where
  eqv x y := decide (x = y)
  loose x y := decide (x = y)
  area x := (x.2 : ℚ) - x.1
  tris x := List.range' x.1 (x.2 - x.1)
  triArea _ := 1
  clash t u := decide (t = u)
  inner x y := decide (x.1 < y.1) && decide (y.2 < x.2)
  outer x y := (decide (y.1 < x.1) || decide (x.2 < y.1)) && (decide (y.2 < x.1) || decide (x.2 < y.2))

/-- two rooms beside each other and their outline, whatever the hashes -/
example (mem : ℕ → ℕ × ℕ → List (ℕ × ℕ) → Bool) (hmem : MemSound mem) (sub : (ℕ × ℕ) × (ℕ × ℕ) → List (ℕ × ℕ) → Bool)
    (hsub : SubSound sub) (σ : List (List (ℕ × ℕ)) → List (List (ℕ × ℕ))) (hσ : ∀ cs, (σ cs).Perm cs) :
    exRt.keepMore exIntervals mem sub σ [(0, 1), (0, 3), (1, 3)] = .ok [(0, 1), (1, 3)] := by
  have hu : ∀ comb ∈ [((0 : ℕ), (1 : ℕ)), (0, 3), (1, 3)].sublists, 2 ≤ comb.length →
      ∀ x ∈ [((0 : ℕ), (1 : ℕ)), (0, 3), (1, 3)],
      |exRt.sub (exIntervals.area x) (exRt.psum (comb.flatMap fun p => (exIntervals.tris p).map exIntervals.triArea))| < exRt.eps →
        x = (0, 3) := by decide +kernel
  exact C112_rooms_and_outline exIntervals mem hmem sub hsub σ hσ [(0, 1), (0, 3), (1, 3)] (by decide) (by decide +kernel)
    (by decide +kernel) (0, 3) (by decide) [(0, 1), (1, 3)] (by decide) (by decide) (by decide +kernel)
    (fun comb h1 h2 => hu comb (List.mem_sublists.2 h1) h2) (by unfold ClashFree; decide +kernel)

/-- a room in another one: both are kept, the larger one first -/
example (mem : ℕ → ℕ × ℕ → List (ℕ × ℕ) → Bool) (hmem : MemSound mem) (sub : (ℕ × ℕ) × (ℕ × ℕ) → List (ℕ × ℕ) → Bool)
    (hsub : SubSound sub) (σ : List (List (ℕ × ℕ)) → List (List (ℕ × ℕ))) (hσ : ∀ cs, (σ cs).Perm cs) :
    exRt.keepMore exIntervals mem sub σ [(1, 2), (0, 3)] = .ok [(0, 3), (1, 2)] := by
  have hu : ∀ comb ∈ [((1 : ℕ), (2 : ℕ)), (0, 3)].sublists, 2 ≤ comb.length → ∀ x ∈ [((1 : ℕ), (2 : ℕ)), (0, 3)],
      exRt.eps ≤ |exRt.sub (exIntervals.area x)
        (exRt.psum (comb.flatMap fun p => (exIntervals.tris p).map exIntervals.triArea))| := by decide +kernel
  have := C112_nested (R := exRt) exIntervals mem hmem sub hsub σ hσ [(1, 2), (0, 3)] (1, 2) (0, 3) (by decide) (Or.inl rfl)
    (by decide +kernel) (by decide +kernel) (fun comb h1 h2 => hu comb (List.mem_sublists.2 h1) h2)
    (by unfold ClashFree; decide +kernel) (by unfold ClashFree; decide +kernel) (by unfold ClashFree; decide +kernel)
    (by decide +kernel)
  rw [this]
  decide +kernel

/-- a room that overlaps another one in part is lost -/
example (mem : ℕ → ℕ × ℕ → List (ℕ × ℕ) → Bool) (hmem : MemSound mem) (sub : (ℕ × ℕ) × (ℕ × ℕ) → List (ℕ × ℕ) → Bool)
    (hsub : SubSound sub) (σ : List (List (ℕ × ℕ)) → List (List (ℕ × ℕ))) (hσ : ∀ cs, (σ cs).Perm cs) :
    exRt.keepMore exIntervals mem sub σ [(2, 4), (0, 3)] = .ok [(0, 3)] := by
  have hu : ∀ comb ∈ [((2 : ℕ), (4 : ℕ)), (0, 3)].sublists, 2 ≤ comb.length → ∀ x ∈ [((2 : ℕ), (4 : ℕ)), (0, 3)],
      exRt.eps ≤ |exRt.sub (exIntervals.area x)
        (exRt.psum (comb.flatMap fun p => (exIntervals.tris p).map exIntervals.triArea))| := by decide +kernel
  have := C112_nested (R := exRt) exIntervals mem hmem sub hsub σ hσ [(2, 4), (0, 3)] (2, 4) (0, 3) (by decide) (Or.inl rfl)
    (by decide +kernel) (by decide +kernel) (fun comb h1 h2 => hu comb (List.mem_sublists.2 h1) h2)
    (by unfold ClashFree; decide +kernel) (by unfold ClashFree; decide +kernel) (by unfold ClashFree; decide +kernel)
    (by decide +kernel)
  rw [this]
  decide +kernel

/-- three rooms, each in the next one -/
example (mem : ℕ → ℕ × ℕ → List (ℕ × ℕ) → Bool) (hmem : MemSound mem) (sub : (ℕ × ℕ) × (ℕ × ℕ) → List (ℕ × ℕ) → Bool)
    (hsub : SubSound sub) (σ : List (List (ℕ × ℕ)) → List (List (ℕ × ℕ))) (hσ : ∀ cs, (σ cs).Perm cs) :
    exRt.keepMore exIntervals mem sub σ [(2, 3), (1, 4), (0, 5)] = .error .generic := by
  have hu : ∀ comb ∈ [((2 : ℕ), (3 : ℕ)), (1, 4), (0, 5)].sublists, 2 ≤ comb.length →
      ∀ x ∈ [((2 : ℕ), (3 : ℕ)), (1, 4), (0, 5)], exRt.eps ≤ |exRt.sub (exIntervals.area x)
        (exRt.psum (comb.flatMap fun p => (exIntervals.tris p).map exIntervals.triArea))| := by decide +kernel
  have h2 : ∀ c ∈ [((2 : ℕ), (3 : ℕ)), (1, 4), (0, 5)].sublists, c.length = 2 → ¬ ClashFree exIntervals c := by
    unfold ClashFree; decide +kernel
  exact C112_three_nested exIntervals mem hmem sub hsub σ hσ _ (by decide) (by decide) (by decide +kernel)
    (by decide +kernel) (fun comb h1 h2 => hu comb (List.mem_sublists.2 h1) h2) (by unfold ClashFree; decide +kernel)
    (fun x y h => h2 _ (List.mem_sublists.2 h) rfl)

end Srep
