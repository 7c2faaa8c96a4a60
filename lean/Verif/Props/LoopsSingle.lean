import Verif.Props.Loops
import Verif.Props.OrderCycle

/-!
# `find_loops` on a single head-to-tail loop raises IndexError (C81)
-/

set_option linter.unusedSectionVars false

namespace Srep
variable {K : Type} [Field K] [LinearOrder K] [IsStrictOrderedRing K] [FloorRing K] {R : Rt K}

/-- `q 0, q 1, …` are the points of a loop in the direction opposite to its segments: the segment `u k` goes from
`q k` to `q (k - 1)`; `==` tells the points apart -/
structure Loop (R : Rt K) (n : ℕ) (q : ZMod n → Pt K) (u : ZMod n → Seg K) : Prop where
  i : ∀ k, (u k).i = q k
  j : ∀ k, (u k).j = q (k - 1)
  eq : ∀ a b, R.peq (q a) (q b) = true ↔ a = b

/-- the addresses `l` hold exactly the segments `u k`, `k ∈ I`, each once -/
structure Dir {n : ℕ} (u : ZMod n → Seg K) (h : Heap K) (l : List ℕ) (I : Set (ZMod n)) : Prop where
  nodup : l.Nodup
  lt : ∀ s ∈ l, s < h.nseg
  val : ∀ s ∈ l, ∃ k ∈ I, h.val s = u k
  all : ∀ k ∈ I, ∃ s ∈ l, h.val s = u k
  inj : ∀ s ∈ l, ∀ t ∈ l, h.val s = h.val t → s = t

section
variable {n : ℕ} {q : ZMod n → Pt K} {u : ZMod n → Seg K} {h h' : Heap K} {l : List ℕ} {I : Set (ZMod n)}

theorem Loop.inj (c : Loop R n q u) (hR : R.IsRounding) {a b : ZMod n} (e : u a = u b) : a = b := by
  rw [← c.eq, ← c.i, ← c.i, e]; exact hR.peq_refl _

theorem Loop.seq_iff (c : Loop R n q u) (hR : R.IsRounding) {a b : ZMod n} : R.seq (u a) (u b) = true ↔ a = b := by
  constructor
  · intro e
    simp only [Rt.seq, Bool.and_eq_true, c.i] at e
    exact (c.eq a b).1 e.1.2
  · rintro rfl; exact hR.seq_refl _

theorem Dir.perm (d : Dir u h l I) {l' : List ℕ} (hp : l'.Perm l) : Dir u h l' I :=
  ⟨hp.nodup_iff.2 d.nodup, fun s hs => d.lt s (hp.mem_iff.1 hs), fun s hs => d.val s (hp.mem_iff.1 hs),
    fun k hk => let ⟨s, hs, e⟩ := d.all k hk; ⟨s, hp.mem_iff.2 hs, e⟩,
    fun s hs t ht => d.inj s (hp.mem_iff.1 hs) t (hp.mem_iff.1 ht)⟩

theorem Dir.copy (d : Dir u h l I) : Dir u h.deepcopy (l.map (· + h.nseg)) I := by
  refine ⟨d.nodup.map (fun a b e => by simpa using e), ?_, ?_, ?_, ?_⟩
  · intro s hs
    obtain ⟨t, ht, rfl⟩ := List.mem_map.1 hs
    have := d.lt t ht
    simp [Heap.deepcopy]; omega
  · intro s hs
    obtain ⟨t, ht, rfl⟩ := List.mem_map.1 hs
    rw [deepcopy_new]; exact d.val t ht
  · intro k hk
    obtain ⟨s, hs, e⟩ := d.all k hk
    exact ⟨s + h.nseg, List.mem_map_of_mem hs, by rw [deepcopy_new, e]⟩
  · intro s hs t ht e
    obtain ⟨s', hs', rfl⟩ := List.mem_map.1 hs
    obtain ⟨t', ht', rfl⟩ := List.mem_map.1 ht
    rw [deepcopy_new, deepcopy_new] at e
    rw [d.inj s' hs' t' ht' e]

theorem deepcopy_old (hw : h.WF) {s : ℕ} (hs : s < h.nseg) : h.deepcopy.val s = h.val s := by
  have := hw s hs
  simp only [Heap.val, Heap.deepcopy, if_pos hs, if_pos this.1, if_pos this.2]

theorem deepcopy_pt_old {p : ℕ} (hp : p < h.npt) : h.deepcopy.pt p = h.pt p := by
  simp only [Heap.deepcopy, if_pos hp]

/-- memory in which the old segments keep their values -/
structure Keep (h h' : Heap K) : Prop where
  wf : h'.WF
  le : h.nseg ≤ h'.nseg
  val : ∀ s < h.nseg, h'.val s = h.val s

theorem Keep.refl (hw : h.WF) : Keep h h := ⟨hw, le_rfl, fun _ _ => rfl⟩

theorem Keep.trans {a b c : Heap K} (x : Keep a b) (y : Keep b c) : Keep a c :=
  ⟨y.wf, x.le.trans y.le, fun s hs => (y.val s (lt_of_lt_of_le hs x.le)).trans (x.val s hs)⟩

theorem keep_deepcopy (hw : h.WF) : Keep h h.deepcopy :=
  ⟨(tame_deepcopy hw).wf, (tame_deepcopy hw).le, fun _ hs => deepcopy_old hw hs⟩

theorem Dir.keep (d : Dir u h l I) (k : Keep h h') : Dir u h' l I := by
  have hv : ∀ s ∈ l, h'.val s = h.val s := fun s hs => k.val s (d.lt s hs)
  refine ⟨d.nodup, fun s hs => lt_of_lt_of_le (d.lt s hs) k.le, ?_, ?_, ?_⟩
  · intro s hs; rw [hv s hs]; exact d.val s hs
  · intro j hj
    obtain ⟨s, hs, e⟩ := d.all j hj
    exact ⟨s, hs, by rw [hv s hs, e]⟩
  · intro s hs t ht; rw [hv s hs, hv t ht]; exact d.inj s hs t ht

/-- the members of a set with their hashes -/
def tag (R : Rt K) (h : Heap K) (l : List ℕ) : Rt.SegSet := l.map fun s => (s, R.segHash h s)

theorem tag_fst : (tag R h l).map Prod.fst = l := by
  unfold tag; rw [List.map_map]; exact List.map_id' l

theorem tag_keep (hl : ∀ s ∈ l, s < h.nseg) (k : Keep h h') : tag R h' l = tag R h l := by
  unfold tag
  apply List.map_congr_left
  intro s hs
  simp only [Rt.segHash, k.val s (hl s hs)]

theorem hit_iff (c : Loop R n q u) (hR : R.IsRounding) {x y : ℕ} {a b : ZMod n} (hx : h.val x = u a)
    (hy : h.val y = u b) : R.setHit h x (y, R.segHash h y) = true ↔ a = b := by
  unfold Rt.setHit
  rw [Bool.and_eq_true, Bool.or_eq_true, decide_eq_true_eq, decide_eq_true_eq]
  constructor
  · rintro ⟨-, e | e⟩
    · have e : y = x := e
      subst e
      exact c.inj hR (hx.symm.trans hy)
    · have e : R.seq (h.val y) (h.val x) = true := e
      rw [hx, hy] at e
      exact ((c.seq_iff hR).1 e).symm
  · rintro rfl
    refine ⟨?_, Or.inr ?_⟩
    · show R.segHash h y = R.segHash h x
      unfold Rt.segHash; rw [hx, hy]
    · show R.seq (h.val y) (h.val x) = true
      rw [hx, hy]; exact hR.seq_refl _

theorem setAdd_new (c : Loop R n q u) (hR : R.IsRounding) (d : Dir u h l I) {x : ℕ} {k : ZMod n}
    (hx : h.val x = u k) (hk : k ∉ I) : R.setAdd h (tag R h l) x = tag R h (l ++ [x]) := by
  unfold Rt.setAdd
  rw [if_neg]
  · simp [tag]
  · rw [List.any_eq_true]
    rintro ⟨y, hy, e⟩
    obtain ⟨s, hs, rfl⟩ := List.mem_map.1 hy
    obtain ⟨j, hj, e'⟩ := d.val s hs
    rw [hit_iff c hR hx e'] at e
    exact hk (e ▸ hj)

theorem setAdd_old (c : Loop R n q u) (hR : R.IsRounding) (d : Dir u h l I) {x : ℕ} {k : ZMod n}
    (hx : h.val x = u k) (hk : k ∈ I) : R.setAdd h (tag R h l) x = tag R h l := by
  unfold Rt.setAdd
  rw [if_pos]
  rw [List.any_eq_true]
  obtain ⟨s, hs, e⟩ := d.all k hk
  exact ⟨_, List.mem_map_of_mem hs, (hit_iff c hR hx e).2 rfl⟩

theorem Dir.snoc (c : Loop R n q u) (hR : R.IsRounding) (d : Dir u h l I) {x : ℕ} {k : ZMod n}
    (hx : h.val x = u k) (hk : k ∉ I) (hlt : x < h.nseg) : Dir u h (l ++ [x]) (insert k I) := by
  have hne : ∀ s ∈ l, h.val s ≠ h.val x := by
    intro s hs e
    obtain ⟨j, hj, e'⟩ := d.val s hs
    rw [e', hx] at e
    exact hk (c.inj hR e ▸ hj)
  refine ⟨?_, ?_, ?_, ?_, ?_⟩
  · rw [List.nodup_append]
    refine ⟨d.nodup, List.nodup_singleton _, ?_⟩
    rintro a ha b hb rfl
    rw [List.mem_singleton] at hb
    subst hb
    exact hne _ ha rfl
  · intro s hs
    rw [List.mem_append, List.mem_singleton] at hs
    rcases hs with hs | rfl
    · exact d.lt s hs
    · exact hlt
  · intro s hs
    rw [List.mem_append, List.mem_singleton] at hs
    rcases hs with hs | rfl
    · obtain ⟨j, hj, e⟩ := d.val s hs
      exact ⟨j, Set.mem_insert_of_mem _ hj, e⟩
    · exact ⟨k, Set.mem_insert _ _, hx⟩
  · intro j hj
    rcases hj with rfl | hj
    · exact ⟨x, by simp, hx⟩
    · obtain ⟨s, hs, e⟩ := d.all j hj
      exact ⟨s, by simp [hs], e⟩
  · intro s hs t ht e
    rw [List.mem_append, List.mem_singleton] at hs ht
    rcases hs with hs | rfl <;> rcases ht with ht | rfl
    · exact d.inj s hs t ht e
    · exact absurd e (hne s hs)
    · exact absurd e.symm (hne t ht)
    · rfl

theorem setOf_dir (c : Loop R n q u) (hR : R.IsRounding) (d : Dir u h l I) : R.setOf h l = tag R h l := by
  have key : ∀ (t a : List ℕ), (a ++ t).Nodup → (∀ s ∈ a ++ t, ∃ k, h.val s = u k) →
      (∀ s ∈ a ++ t, ∀ s' ∈ a ++ t, h.val s = h.val s' → s = s') →
      t.foldl (R.setAdd h) (tag R h a) = tag R h (a ++ t) := by
    intro t
    induction t with
    | nil => intro a _ _ _; simp
    | cons x t ih =>
      intro a hnd hv hi
      rw [List.foldl_cons]
      have : R.setAdd h (tag R h a) x = tag R h (a ++ [x]) := by
        unfold Rt.setAdd
        rw [if_neg]
        · simp [tag]
        · rw [List.any_eq_true]
          rintro ⟨y, hy, e⟩
          obtain ⟨s, hs, rfl⟩ := List.mem_map.1 hy
          obtain ⟨k, hk⟩ := hv x (by simp)
          obtain ⟨j, hj⟩ := hv s (by simp [hs])
          rw [hit_iff c hR hk hj] at e
          subst e
          have := hi s (by simp [hs]) x (by simp) (hj.trans hk.symm)
          subst this
          rw [List.nodup_append] at hnd
          exact hnd.2.2 s hs s (by simp) rfl
      rw [this]
      have e : a ++ x :: t = (a ++ [x]) ++ t := by simp
      rw [e] at hnd hv hi ⊢
      exact ih _ hnd hv hi
  exact key l [] (by simpa using d.nodup) (by
    intro s hs
    obtain ⟨k, -, e⟩ := d.val s (by simpa using hs)
    exact ⟨k, e⟩) (by simpa using d.inj)

theorem mem_eraseP_unique {α : Type} {f : α → Bool} {l : List α} (hnd : l.Nodup)
    (hu : ∀ a ∈ l, ∀ b ∈ l, f a = true → f b = true → a = b) (x : α) :
    x ∈ l.eraseP f ↔ x ∈ l ∧ f x = false := by
  induction l with
  | nil => simp
  | cons a l ih =>
    rw [List.nodup_cons] at hnd
    by_cases ha : f a = true
    · rw [List.eraseP_cons_of_pos ha]
      constructor
      · intro hx
        refine ⟨List.mem_cons_of_mem _ hx, ?_⟩
        rw [Bool.eq_false_iff]
        intro hf
        have := hu a List.mem_cons_self x (List.mem_cons_of_mem _ hx) ha hf
        exact hnd.1 (this ▸ hx)
      · rintro ⟨hx, hf⟩
        rcases List.mem_cons.1 hx with rfl | hx
        · rw [hf] at ha; cases ha
        · exact hx
    · rw [List.eraseP_cons_of_neg ha, List.mem_cons, List.mem_cons,
        ih hnd.2 (fun a ha b hb => hu a (List.mem_cons_of_mem _ ha) b (List.mem_cons_of_mem _ hb))]
      constructor
      · rintro (rfl | ⟨h1, h2⟩)
        · exact ⟨Or.inl rfl, by simpa using ha⟩
        · exact ⟨Or.inr h1, h2⟩
      · rintro ⟨rfl | h1, h2⟩
        · exact Or.inl rfl
        · exact Or.inr ⟨h1, h2⟩

theorem setDiscard_dir (c : Loop R n q u) (hR : R.IsRounding) (d : Dir u h l I) {x : ℕ} {k : ZMod n}
    (hx : h.val x = u k) : ∃ l', R.setDiscard h (tag R h l) x = tag R h l' ∧ Dir u h l' (I \ {k}) := by
  refine ⟨l.eraseP fun s => R.setHit h x (s, R.segHash h s), ?_, ?_⟩
  · unfold Rt.setDiscard tag
    rw [List.eraseP_map]
    rfl
  · have hm := mem_eraseP_unique (f := fun s => R.setHit h x (s, R.segHash h s)) d.nodup (by
      intro a ha b hb e1 e2
      obtain ⟨i, -, hi⟩ := d.val a ha
      obtain ⟨j, -, hj⟩ := d.val b hb
      rw [hit_iff c hR hx hi] at e1
      rw [hit_iff c hR hx hj] at e2
      exact d.inj a ha b hb (by rw [hi, hj, ← e1, ← e2]))
    refine ⟨d.nodup.sublist List.eraseP_sublist, ?_, ?_, ?_, ?_⟩
    · intro s hs; exact d.lt s ((hm s).1 hs).1
    · intro s hs
      obtain ⟨h1, h2⟩ := (hm s).1 hs
      obtain ⟨j, hj, e⟩ := d.val s h1
      refine ⟨j, ⟨hj, ?_⟩, e⟩
      intro hjk
      rw [Set.mem_singleton_iff] at hjk
      rw [Bool.eq_false_iff] at h2
      exact h2 ((hit_iff c hR hx e).2 hjk.symm)
    · rintro j ⟨hj, hjk⟩
      obtain ⟨s, hs, e⟩ := d.all j hj
      refine ⟨s, (hm s).2 ⟨hs, ?_⟩, e⟩
      rw [Bool.eq_false_iff]
      intro hh
      exact hjk ((hit_iff c hR hx e).1 hh).symm
    · intro s hs t ht; exact d.inj s ((hm s).1 hs).1 t ((hm t).1 ht).1

/-! ### `order` on a part of the loop -/

theorem orderNext_dir (c : Loop R n q u) (hR : R.IsRounding) (d : Dir u h l I) {akt e : ℕ} {k : ZMod n}
    (hk : h.val akt = u k) (he : h.pt e = q (k - 1)) :
    (R.orderNext l h akt e = none ∧ (k - 1 ∉ I ∨ (k - 1 = k))) ∨
    ∃ x ∈ l, R.orderNext l h akt e = some (x, false) ∧ h.val x = u (k - 1) ∧ k - 1 ∈ I := by
  unfold Rt.orderNext
  cases hf : l.find? fun x => R.peq (h.pt (h.seg x).i) (h.pt e) && !R.seq (h.val x) (h.val akt) with
  | some x =>
    right
    have hx := List.find?_some hf
    have hm := List.mem_of_find?_eq_some hf
    rw [Bool.and_eq_true] at hx
    obtain ⟨j, hj, e'⟩ := d.val x hm
    have : R.peq (h.val x).i (h.pt e) = true := hx.1
    rw [e', c.i, he, c.eq] at this
    subst this
    exact ⟨x, hm, rfl, e', hj⟩
  | none =>
    left
    dsimp only
    have hn := List.find?_eq_none.1 hf
    have hf2 : l.find? (fun x => R.peq (h.pt (h.seg x).j) (h.pt e) && !R.seq (h.val x) (h.val akt)) = none := by
      rw [List.find?_eq_none]
      intro x hx hc
      rw [Bool.and_eq_true] at hc
      obtain ⟨j, hj, e'⟩ := d.val x hx
      have h1 : R.peq (h.val x).j (h.pt e) = true := hc.1
      rw [e', c.j, he, c.eq] at h1
      have : j = k := by simpa using h1
      subst this
      have h2 := hc.2
      rw [e', hk, hR.seq_refl] at h2
      cases h2
    rw [hf2]
    refine ⟨rfl, ?_⟩
    by_contra hcon
    push Not at hcon
    obtain ⟨x, hx, e'⟩ := d.all _ hcon.1
    apply hn x hx
    rw [Bool.and_eq_true]
    refine ⟨?_, ?_⟩
    · show R.peq (h.val x).i (h.pt e) = true
      rw [e', c.i, he]; exact hR.peq_refl _
    · rw [e', hk, Bool.not_eq_true']
      rw [Bool.eq_false_iff]
      intro hs
      exact hcon.2 ((c.seq_iff hR).1 hs)

theorem orderLoop_dir (c : Loop R n q u) (hR : R.IsRounding) (d : Dir u h l I) :
    ∀ (fuel akt e : ℕ) (ret : List ℕ) (count : ℕ) (k : ZMod n), h.val akt = u k → h.pt e = q (k - 1) →
      (R.orderLoop l fuel h akt e ret count).heap h = h
  | 0, _, _, _, _, _, _, _ => rfl
  | fuel + 1, akt, e, ret, count, k, hk, he => by
    unfold Rt.orderLoop
    rcases orderNext_dir c hR d hk he with ⟨e1, -⟩ | ⟨x, -, e1, hx, -⟩
    · rw [e1]; rfl
    · rw [e1]
      dsimp only
      have ha : (R.orderAdd h ret x false).1 = h := by
        unfold Rt.orderAdd; split_ifs <;> simp_all
      rw [ha]
      split_ifs
      · rfl
      · rfl
      · refine orderLoop_dir c hR d fuel x _ _ _ (k - 1) hx ?_
        show (h.val x).j = _
        rw [hx, c.j]

theorem order_dir (c : Loop R n q u) (hR : R.IsRounding) (d : Dir u h l I) : (R.order h ⟨l, false⟩).heap h = h := by
  cases hl : l with
  | nil => rfl
  | cons a t =>
    obtain ⟨k, -, hk⟩ := d.val a (by rw [hl]; exact List.mem_cons_self)
    have h1 := orderLoop_dir c hR d (2 * l.length + 1) a (h.seg a).j [] 0 k hk (by
      show (h.val a).j = _; rw [hk, c.j])
    have := order_cases hR h ⟨l, false⟩ a t hl (2 * l.length + 1) le_rfl
    dsimp only at this
    rw [← hl]
    show (R.orderF (2 * l.length + 1) h ⟨l, false⟩).heap h = h
    rcases this with ⟨-, e, -⟩ | ⟨h', e, e'⟩ | ⟨h', ret, m, f, e, -, -, -, -, e'⟩
    · rw [e]; exact h1
    · rw [e']; rw [e] at h1; exact h1
    · rw [e']; rw [e] at h1; exact h1

/-- on the segments `u 0, …, u m` of a longer loop `order` fails -/
theorem order_path (c : Loop R n q u) (hR : R.IsRounding) {m : ℕ} (hm : m + 1 < n) (hn : n < 250)
    (d : Dir u h l {k | ∃ a : ℕ, a ≤ m ∧ k = a}) : R.order h ⟨l, false⟩ = .failed h := by
  have cast : ∀ a b : ℕ, a < n → b < n → (a : ZMod n) = b → a = b := by
    intro a b ha hb e
    rw [ZMod.natCast_eq_natCast_iff'] at e
    rwa [Nat.mod_eq_of_lt ha, Nat.mod_eq_of_lt hb] at e
  have hlen : m + 1 ≤ l.length := by
    choose! f hf using d.all
    have : ((List.range (m + 1)).map fun a : ℕ => f (a : ZMod n)) ⊆ l := by
      intro x hx
      obtain ⟨a, ha, rfl⟩ := List.mem_map.1 hx
      rw [List.mem_range] at ha
      exact (hf a ⟨a, by omega, rfl⟩).1
    have hnd : ((List.range (m + 1)).map fun a : ℕ => f (a : ZMod n)).Nodup := by
      refine List.nodup_range.map_on ?_
      intro a ha b hb e
      rw [List.mem_range] at ha hb
      have h1 := (hf a ⟨a, by omega, rfl⟩).2
      have h2 := (hf b ⟨b, by omega, rfl⟩).2
      rw [e] at h1
      exact cast a b (by omega) (by omega) (c.inj hR (h1.symm.trans h2))
    have := (List.subperm_of_subset hnd this).length_le
    simpa using this
  have loop : ∀ (a : ℕ), a ≤ m → ∀ (fuel akt e : ℕ) (ret : List ℕ) (count : ℕ), a < fuel → count + a ≤ m →
      h.val akt = u a → h.pt e = q ((a : ZMod n) - 1) → R.orderLoop l fuel h akt e ret count = .failed h := by
    intro a
    induction a with
    | zero =>
      intro _ fuel akt e ret count hf hc hk he
      obtain ⟨fuel, rfl⟩ : ∃ f, fuel = f + 1 := ⟨fuel - 1, by omega⟩
      unfold Rt.orderLoop
      rcases orderNext_dir c hR d hk he with ⟨e1, -⟩ | ⟨x, -, -, -, b, hb, e2⟩
      · rw [e1]
      · exfalso
        have e3 : ((b + 1 : ℕ) : ZMod n) = ((0 : ℕ) : ZMod n) := by
          push_cast
          rw [← e2]
          push_cast
          ring
        have := cast (b + 1) 0 (by omega) (by omega) e3
        omega
    | succ a ih =>
      intro ha fuel akt e ret count hf hc hk he
      obtain ⟨fuel, rfl⟩ : ∃ f, fuel = f + 1 := ⟨fuel - 1, by omega⟩
      unfold Rt.orderLoop
      have hcast : ((a + 1 : ℕ) : ZMod n) - 1 = (a : ZMod n) := by push_cast; ring
      rcases orderNext_dir c hR d hk he with ⟨-, e1⟩ | ⟨x, -, e1, hx, -⟩
      · exfalso
        rw [hcast] at e1
        rcases e1 with e1 | e1
        · exact e1 ⟨a, by omega, rfl⟩
        · have := cast a (a + 1) (by omega) (by omega) e1
          omega
      · rw [e1]
        dsimp only
        have hadd : (R.orderAdd h ret x false).1 = h := by
          unfold Rt.orderAdd; split_ifs <;> simp_all
        rw [hadd, if_neg (by omega), if_neg (by omega)]
        rw [hcast] at hx
        refine ih (by omega) fuel x _ _ _ (by omega) (by omega) hx ?_
        show (h.val x).j = _
        rw [hx, c.j]
  cases hl : l with
  | nil => rw [hl] at hlen; simp at hlen
  | cons a t =>
    obtain ⟨k, ⟨b, hb, rfl⟩, hk⟩ := d.val a (by rw [hl]; exact List.mem_cons_self)
    have h1 := loop b hb (2 * l.length + 1) a (h.seg a).j [] 0 (by omega) (by omega) hk (by
      show (h.val a).j = _; rw [hk, c.j])
    have := order_cases hR h ⟨l, false⟩ a t hl (2 * l.length + 1) le_rfl
    dsimp only at this
    rw [← hl]
    show R.orderF (2 * l.length + 1) h ⟨l, false⟩ = _
    rw [h1] at this
    rcases this with ⟨-, e, -⟩ | ⟨h', e, e'⟩ | ⟨h', ret, m, f, e, -, -, -, -, e'⟩
    · exact e
    · cases e
    · cases e

theorem isClosed_of_chain (hR : R.IsRounding) {l : List (Seg K)} (hne : l ≠ []) (hc : ClosedChain l) :
    R.isClosed l = .ok true := by
  have hpos : 0 < l.length := List.length_pos_iff.2 hne
  have hcont : R.isContinuous l = true := by
    unfold Rt.isContinuous
    rw [List.all_eq_true]
    intro x hx
    obtain ⟨k, hk, e⟩ := List.mem_iff_getElem.1 hx
    rw [List.length_zip, List.length_tail] at hk
    have h1 : k + 1 < l.length := by omega
    have h2 := hc k (by omega)
    simp only [Nat.mod_eq_of_lt h1] at h2
    rw [← e, List.getElem_zip, List.getElem_tail]
    unfold Rt.continuous Rt.touch
    rw [Bool.and_eq_true, Bool.or_eq_true, Bool.or_eq_true]
    refine ⟨Or.inr ?_, Or.inl ?_⟩
    · rw [List.any_eq_true]
      refine ⟨l[k].j, by simp, ?_⟩
      rw [List.any_eq_true]
      refine ⟨l[k + 1].i, by simp, ?_⟩
      rw [h2, hR.distance_self]
      exact decide_eq_true hR.eps_pos
    · show R.peq l[k].j l[k + 1].i = true
      rw [h2]; exact hR.peq_refl _
  unfold Rt.isClosed
  rw [if_pos hcont, List.head?_eq_some_head hne, List.getLast?_eq_some_getLast hne]
  have h2 := hc (l.length - 1) (by omega)
  have h3 : (l.length - 1 + 1) % l.length = 0 := by
    rw [Nat.sub_add_cancel hpos]; exact Nat.mod_self _
  simp only [h3] at h2
  dsimp only
  rw [List.head_eq_getElem, List.getLast_eq_getElem, h2, hR.peq_refl]

/-- on all segments of the loop `order` succeeds and changes nothing but the order of the list -/
theorem order_loop (c : Loop R n q u) (hR : R.IsRounding) (h3 : 3 ≤ n) (hn : n < 250)
    (hap : Apart R.tol (Set.range q)) (d : Dir u h l Set.univ) :
    ∃ m, R.order h ⟨l, false⟩ = .done h m ∧ m.Perm l ∧ R.isClosed (h.vals m) = .ok true := by
  have : NeZero n := ⟨by omega⟩
  choose f hf using fun k => d.all k (Set.mem_univ k)
  have cyc : IsCycleOf h l n (fun k => q (-k)) (fun k => f (-k)) := by
    refine ⟨h3, ?_, ?_, d.nodup, ?_, ?_⟩
    · intro a b e
      dsimp only at e
      have : R.peq (q (-a)) (q (-b)) = true := by rw [e]; exact hR.peq_refl _
      exact neg_injective ((c.eq _ _).1 this)
    · intro a b e
      dsimp only at e
      have h1 := (hf (-a)).2
      rw [e, (hf (-b)).2] at h1
      exact (neg_injective (c.inj hR h1)).symm
    · intro s
      constructor
      · intro hs
        obtain ⟨k, -, e⟩ := d.val s hs
        refine ⟨-k, d.inj s hs _ (hf _).1 ?_⟩
        rw [(hf _).2, e, neg_neg]
      · rintro ⟨k, rfl⟩
        exact (hf _).1
    · intro k
      left
      rw [(hf _).2, c.i, c.j]
      refine ⟨rfl, ?_⟩
      congr 1
      ring
  have hap' : Apart R.tol (locs h l) := by
    have hsub : locs h l ⊆ Set.range q := by
      rintro p ⟨s, hs, hp⟩
      obtain ⟨k, -, e⟩ := d.val s hs
      rw [e, c.i, c.j] at hp
      rcases hp with rfl | rfl
      · exact ⟨k, rfl⟩
      · exact ⟨k - 1, rfl⟩
    intro a ha b hb
    exact hap a (hsub ha) b (hsub hb)
  have hlen := cyc.length
  obtain ⟨h', m, h1, h2, h4, -⟩ := C76_restores_cycle hR h ⟨l, false⟩ n _ _ cyc hap' (by show l.length < 250; omega)
  have h5 := order_dir c hR d
  rw [h1] at h5
  have h5 : h' = h := h5
  subst h5
  refine ⟨m, h1, h2, isClosed_of_chain hR ?_ h4⟩
  intro e
  unfold Heap.vals at e
  rw [List.map_eq_nil_iff] at e
  have h6 := h2.length_eq
  rw [e] at h6
  have : (0 : ℕ) = l.length := h6
  omega

/-! ### the walk -/

/-- the state of the walk after `t` rounds -/
structure WSt (R : Rt K) (n : ℕ) (q : ZMod n → Pt K) (u : ZMod n → Seg K) (t : ℕ) (w : Rt.WalkSt K) : Prop where
  wf : w.h.WF
  nv : ∃ l, w.nv = tag R w.h l ∧ Dir u w.h l {k | ∃ a : ℕ, t ≤ a ∧ a < n ∧ k = a}
  vis : ∃ l, w.vis = tag R w.h l ∧ Dir u w.h l {k | ∃ a : ℕ, a ≤ t - 1 ∧ k = a}
  akt : w.h.val w.akt = u t
  lt : w.akt < w.h.nseg
  pt : w.h.pt w.pt = q t
  npt : w.pt < w.h.npt
  branch : w.branch = false

theorem filter_eq_singleton {α : Type} {f : α → Bool} {l : List α} (hnd : l.Nodup) {x : α} (hx : x ∈ l)
    (hf : ∀ y ∈ l, f y = true ↔ y = x) : l.filter f = [x] := by
  have h1 : (l.filter f).Nodup := hnd.filter _
  have h2 : ∀ y, y ∈ l.filter f ↔ y = x := by
    intro y
    rw [List.mem_filter]
    constructor
    · rintro ⟨hy, e⟩; exact (hf y hy).1 e
    · rintro rfl; exact ⟨hx, (hf y hx).2 rfl⟩
  have : (l.filter f).Perm [x] := (List.perm_ext_iff_of_nodup h1 (List.nodup_singleton x)).2 (by
    intro y; rw [h2, List.mem_singleton])
  exact List.perm_singleton.1 this

theorem walk_next (c : Loop R n q u) (hR : R.IsRounding) {π : SetOrder} (hπ : π.Ok) {t : ℕ} {w : Rt.WalkSt K}
    (i : WSt R n q u t w) (ht : t + 2 ≤ n) : ∃ x, R.walkNext π w = [x] ∧ x < w.h.nseg ∧
      w.h.val x = u ((t + 1 : ℕ) : ZMod n) := by
  have cast : ∀ a b : ℕ, a < n → b < n → (a : ZMod n) = b → a = b := by
    intro a b ha hb e
    rw [ZMod.natCast_eq_natCast_iff'] at e
    rwa [Nat.mod_eq_of_lt ha, Nat.mod_eq_of_lt hb] at e
  obtain ⟨l, e, d⟩ := i.nv
  have hl : w.nv.map Prod.fst = l := by rw [e, tag_fst]
  have d' := d.perm (hπ w.k l)
  obtain ⟨x, hx, ex⟩ := d'.all ((t + 1 : ℕ) : ZMod n) ⟨t + 1, by omega, by omega, rfl⟩
  refine ⟨x, ?_, d'.lt x hx, ex⟩
  unfold Rt.walkNext
  rw [hl, i.pt, i.akt]
  dsimp only
  have h1 : (π w.k l).filter (fun x => R.peq (q t) (w.h.val x).i && !R.seq (w.h.val x) (u t)) = [] := by
    rw [List.filter_eq_nil_iff]
    intro y hy hc
    obtain ⟨k, -, ek⟩ := d'.val y hy
    rw [Bool.and_eq_true, ek, c.i, c.eq] at hc
    obtain ⟨h1, h2⟩ := hc
    rw [← h1, hR.seq_refl] at h2
    cases h2
  rw [h1, if_neg (by simp)]
  apply filter_eq_singleton d'.nodup hx
  intro y hy
  obtain ⟨k, ⟨a, ha, han, rfl⟩, ek⟩ := d'.val y hy
  unfold Rt.onEnds
  rw [Bool.and_eq_true, Bool.or_eq_true, ek, c.i, c.j, Bool.not_eq_true', Bool.eq_false_iff]
  rw [hR.peq_comm, c.eq, hR.peq_comm, c.eq]
  constructor
  · rintro ⟨h2, h3⟩
    rcases h2 with h2 | h2
    · exfalso
      apply h3
      rw [c.seq_iff hR]
      simpa [eq_comm] using h2
    · apply d'.inj y hy x hx
      rw [ek, ex]
      congr 1
      push_cast
      linear_combination -h2
  · rintro rfl
    have : a = t + 1 := cast a (t + 1) han (by omega) (c.inj hR (ek.symm.trans ex))
    subst this
    refine ⟨Or.inr (by push_cast; ring), ?_⟩
    intro hs
    rw [c.seq_iff hR] at hs
    have := cast (t + 1) t (by omega) (by omega) hs
    omega

theorem walk_step (c : Loop R n q u) (hR : R.IsRounding) (h3 : 3 ≤ n) (hn : n < 250)
    (hap : Apart R.tol (Set.range q)) {π : SetOrder} (hπ : π.Ok) {t : ℕ} {w : Rt.WalkSt K}
    (i : WSt R n q u t w) (ht : t + 2 ≤ n) :
    (t + 2 < n ∧ ∃ w', R.walkStep π w = .inr w' ∧ WSt R n q u (t + 1) w' ∧ Keep w.h w'.h) ∨
    ∃ h' m, R.walkStep π w = .inl (.found h' ⟨m, false⟩) ∧ Keep w.h h' ∧ Dir u h' m Set.univ := by
  have cast : ∀ a b : ℕ, a < n → b < n → (a : ZMod n) = b → a = b := by
    intro a b ha hb e
    rw [ZMod.natCast_eq_natCast_iff'] at e
    rwa [Nat.mod_eq_of_lt ha, Nat.mod_eq_of_lt hb] at e
  obtain ⟨x, hx, hxlt, hxv⟩ := walk_next c hR hπ i ht
  obtain ⟨ln, en, dn⟩ := i.nv
  obtain ⟨lv, ev, dv⟩ := i.vis
  obtain ⟨ln', en', dn'⟩ := setDiscard_dir c hR dn i.akt
  have hvis : ∃ lv', R.setAdd w.h w.vis w.akt = tag R w.h lv' ∧
      Dir u w.h lv' {k | ∃ a : ℕ, a ≤ t ∧ k = a} := by
    rw [ev]
    by_cases h0 : t = 0
    · subst h0
      refine ⟨lv, setAdd_old c hR dv i.akt ⟨0, le_rfl, rfl⟩, dv⟩
    · refine ⟨lv ++ [w.akt], setAdd_new c hR dv i.akt ?_, ?_⟩
      · rintro ⟨a, ha, e⟩
        have := cast t a (by omega) (by omega) e
        omega
      · have := dv.snoc c hR i.akt (by
          rintro ⟨a, ha, e⟩
          have := cast t a (by omega) (by omega) e
          omega) i.lt
        convert this using 1
        ext k
        simp only [Set.mem_ofPred_eq, Set.mem_insert_iff]
        constructor
        · rintro ⟨a, ha, rfl⟩
          by_cases h : a = t
          · exact Or.inl (by rw [h])
          · exact Or.inr ⟨a, by omega, rfl⟩
        · rintro (rfl | ⟨a, ha, rfl⟩)
          · exact ⟨t, le_rfl, rfl⟩
          · exact ⟨a, by omega, rfl⟩
  obtain ⟨lv', ev', dv'⟩ := hvis
  have k1 := keep_deepcopy i.wf
  have k2 := keep_deepcopy k1.wf
  have k12 := k1.trans k2
  unfold Rt.walkStep
  rw [hx]
  dsimp only
  have hval : w.h.deepcopy.val (x + w.h.nseg) = u ((t + 1 : ℕ) : ZMod n) := by rw [deepcopy_new, hxv]
  have hpt : w.h.deepcopy.pt w.pt = q t := by
    rw [← i.pt]; simp only [Heap.deepcopy, if_pos i.npt]
  have hi : w.h.deepcopy.pt (w.h.deepcopy.seg (x + w.h.nseg)).i = q ((t + 1 : ℕ) : ZMod n) := by
    show (w.h.deepcopy.val (x + w.h.nseg)).i = _
    rw [hval, c.i]
  have hfind : [(w.h.deepcopy.seg (x + w.h.nseg)).i, (w.h.deepcopy.seg (x + w.h.nseg)).j].find? (fun y =>
      !R.peq (w.h.deepcopy.pt y) (w.h.deepcopy.pt w.pt)) = some (w.h.deepcopy.seg (x + w.h.nseg)).i := by
    rw [List.find?_cons_of_pos]
    rw [hi, hpt, Bool.not_eq_true', Bool.eq_false_iff, Ne, c.eq]
    intro e
    have := cast (t + 1) t (by omega) (by omega) e
    omega
  rw [hfind]
  dsimp only
  rw [ev', en, en']
  have e1 : (tag R w.h lv').map (fun y => y.1 + w.h.deepcopy.nseg) = lv'.map (· + w.h.deepcopy.nseg) := by
    unfold tag; rw [List.map_map]; rfl
  rw [e1]
  have d2 := (dv'.keep k1).copy
  have hx2 : w.h.deepcopy.deepcopy.val x = u ((t + 1 : ℕ) : ZMod n) := by rw [k12.val x hxlt, hxv]
  have hnot : ((t + 1 : ℕ) : ZMod n) ∉ {k : ZMod n | ∃ a : ℕ, a ≤ t ∧ k = a} := by
    rintro ⟨a, ha, e⟩
    have := cast (t + 1) a (by omega) (by omega) e
    omega
  rw [setOf_dir c hR d2, setAdd_new c hR d2 hx2 hnot, tag_fst]
  have d3 := (d2.snoc c hR hx2 hnot (lt_of_lt_of_le hxlt k12.le)).perm (hπ (w.k + 1) _)
  have hset : insert ((t + 1 : ℕ) : ZMod n) {k : ZMod n | ∃ a : ℕ, a ≤ t ∧ k = a} =
      {k : ZMod n | ∃ a : ℕ, a ≤ t + 1 ∧ k = a} := by
    ext k
    simp only [Set.mem_ofPred_eq, Set.mem_insert_iff]
    constructor
    · rintro (rfl | ⟨a, ha, rfl⟩)
      · exact ⟨t + 1, le_rfl, rfl⟩
      · exact ⟨a, by omega, rfl⟩
    · rintro ⟨a, ha, rfl⟩
      by_cases h : a = t + 1
      · exact Or.inl (by rw [h])
      · exact Or.inr ⟨a, by omega, rfl⟩
  rw [hset] at d3
  by_cases hlast : t + 2 < n
  · left
    refine ⟨hlast, ?_⟩
    rw [order_path c hR (by omega) hn d3]
    dsimp only
    refine ⟨_, rfl, ⟨k12.wf, ⟨ln', (tag_keep dn'.lt k12).symm, ?_⟩, ⟨lv', (tag_keep dv'.lt k12).symm, ?_⟩, ?_, ?_, ?_, ?_, ?_⟩,
      k12⟩
    · have := dn'.keep k12
      convert this using 1
      ext k
      simp only [Set.mem_ofPred_eq, Set.mem_diff, Set.mem_singleton_iff]
      constructor
      · rintro ⟨a, h1, h2, rfl⟩
        refine ⟨⟨a, by omega, h2, rfl⟩, ?_⟩
        intro e
        have := cast a t h2 (by omega) e
        omega
      · rintro ⟨⟨a, h1, h2, rfl⟩, hne⟩
        refine ⟨a, ?_, h2, rfl⟩
        rcases Nat.lt_or_ge t a with h | h
        · exact h
        · exact absurd (by rw [show a = t by omega]) hne
    · exact dv'.keep k12
    · rw [k2.val _ (by simp [Heap.deepcopy]; exact hxlt), hval]
    · refine lt_of_lt_of_le ?_ k2.le
      simp [Heap.deepcopy]; exact hxlt
    · have hb := k1.wf (x + w.h.nseg) (by simp [Heap.deepcopy]; exact hxlt)
      show w.h.deepcopy.deepcopy.pt _ = _
      rw [← hi]
      exact deepcopy_pt_old hb.1
    · have hb := k1.wf (x + w.h.nseg) (by simp [Heap.deepcopy]; exact hxlt)
      have := hb.1
      show (w.h.deepcopy.seg (x + w.h.nseg)).i < w.h.deepcopy.npt + w.h.deepcopy.npt
      omega
    · rw [i.branch]; rfl
  · right
    have huniv : {k : ZMod n | ∃ a : ℕ, a ≤ t + 1 ∧ k = a} = Set.univ := by
      have : NeZero n := ⟨by omega⟩
      ext k
      simp only [Set.mem_ofPred_eq, Set.mem_univ, iff_true]
      exact ⟨k.val, by have := k.val_lt; omega, by simp⟩
    rw [huniv] at d3
    obtain ⟨m, e, hp, hc⟩ := order_loop c hR h3 hn hap d3
    rw [e]
    dsimp only
    rw [hc]
    dsimp only
    rw [i.branch]
    exact ⟨_, m, rfl, k12, d3.perm hp⟩

theorem walkLoop_loop (c : Loop R n q u) (hR : R.IsRounding) (h3 : 3 ≤ n) (hn : n < 250)
    (hap : Apart R.tol (Set.range q)) {π : SetOrder} (hπ : π.Ok) : ∀ (fuel t : ℕ) (w : Rt.WalkSt K),
    WSt R n q u t w → t + 2 ≤ n → n ≤ t + 1 + fuel →
    ∃ h' m, R.walkLoop π fuel w = .found h' ⟨m, false⟩ ∧ Keep w.h h' ∧ Dir u h' m Set.univ
  | 0, t, w, i, h1, h2 => by omega
  | fuel + 1, t, w, i, h1, h2 => by
    unfold Rt.walkLoop
    have hne : w.nv.length ≠ 0 := by
      obtain ⟨l, e, d⟩ := i.nv
      obtain ⟨x, hx, -⟩ := d.all ((t : ℕ) : ZMod n) ⟨t, le_rfl, by omega, rfl⟩
      rw [e]
      unfold tag
      rw [List.length_map]
      exact (List.length_pos_of_mem hx).ne'
    rw [if_neg hne]
    rcases walk_step c hR h3 hn hap hπ i h1 with ⟨h4, w', e, i', k⟩ | ⟨h', m, e, k, d⟩
    · rw [e]
      dsimp only
      obtain ⟨h', m, e', k', d⟩ := walkLoop_loop c hR h3 hn hap hπ fuel (t + 1) w' i' (by omega) (by omega)
      exact ⟨h', m, e', k.trans k', d⟩
    · rw [e]
      exact ⟨h', m, rfl, k, d⟩

theorem walkSegments_loop (c : Loop R n q u) (hR : R.IsRounding) (h3 : 3 ≤ n) (hn : n < 250)
    (hap : Apart R.tol (Set.range q)) {π : SetOrder} (hπ : π.Ok) (fuel k : ℕ) (hf : n ≤ fuel + 1) (hw : h.WF)
    {a : ℕ} {l : List ℕ} (d : Dir u h (a :: l) Set.univ) (ha : h.val a = u 0) :
    ∃ h' m, R.walkSegments π fuel k h (a :: l) = .found h' ⟨m, false⟩ ∧ Keep h h' ∧ Dir u h' m Set.univ := by
  have hn0 : NeZero n := ⟨by omega⟩
  have k1 := keep_deepcopy hw
  have hset : {k : ZMod n | ∃ a : ℕ, 0 ≤ a ∧ a < n ∧ k = a} = Set.univ := by
    ext k
    simp only [Set.mem_ofPred_eq, Set.mem_univ, iff_true]
    exact ⟨k.val, by omega, k.val_lt, by simp⟩
  unfold Rt.walkSegments
  dsimp only
  have d1 := d.copy
  rw [setOf_dir c hR d1, tag_fst]
  have d2 := d1.perm (hπ k _)
  have halt := d.lt a List.mem_cons_self
  have hpt : h.deepcopy.pt (h.deepcopy.seg a).i = q 0 := by
    show (h.deepcopy.val a).i = _
    rw [k1.val a halt, ha, c.i]
  obtain ⟨x, hx, ex⟩ := d2.all 0 (Set.mem_univ _)
  have hfil : (π k ((a :: l).map (· + h.nseg))).filter (fun x =>
      R.peq (h.deepcopy.pt (h.deepcopy.seg a).i) (h.deepcopy.val x).i) = [x] := by
    apply filter_eq_singleton d2.nodup hx
    intro y hy
    obtain ⟨j, -, ej⟩ := d2.val y hy
    rw [hpt, ej, c.i, c.eq]
    constructor
    · rintro rfl; exact d2.inj y hy x hx (by rw [ej, ex])
    · rintro rfl; exact c.inj hR (ex.symm.trans ej)
  rw [hfil]
  have hb := k1.wf a (lt_of_lt_of_le halt k1.le)
  have dx : Dir u h.deepcopy [x] {k | ∃ a : ℕ, a ≤ 0 - 1 ∧ k = a} := by
    refine ⟨List.nodup_singleton _, ?_, ?_, ?_, ?_⟩
    · intro s hs; rw [List.mem_singleton] at hs; subst hs; exact d2.lt _ hx
    · intro s hs; rw [List.mem_singleton] at hs; subst hs; exact ⟨0, ⟨0, by omega, by simp⟩, ex⟩
    · rintro j ⟨b, hb, rfl⟩
      refine ⟨x, List.mem_singleton.2 rfl, ?_⟩
      have : b = 0 := by omega
      subst this
      simpa using ex
    · intro s hs t ht _
      rw [List.mem_singleton] at hs ht
      rw [hs, ht]
  obtain ⟨h', m, e, k', d'⟩ := walkLoop_loop c hR h3 hn hap hπ fuel 0
    ⟨h.deepcopy, tag R h.deepcopy ((a :: l).map (· + h.nseg)), [(x, R.segHash h.deepcopy x)], x,
      (h.deepcopy.seg a).i, false, k + 1⟩
    ⟨k1.wf, ⟨_, rfl, by rw [hset]; exact d1⟩, ⟨[x], rfl, dx⟩, by simpa using ex, d2.lt x hx, by simpa using hpt, hb.1, rfl⟩
    (by omega) (by omega)
  exact ⟨h', m, e, k1.trans k', d'⟩

/-- C81: on a group whose segments form a single loop, head to tail, through different, separated points (fewer than
250 segments), `find_loops` finds the loop, removes all its segments from the graph, and raises IndexError on walking
the empty graph.  This holds for all iteration orders of sets and all classes of segments. -/
theorem C81_single_loop (hR : R.IsRounding) (π : SetOrder) (hπ : π.Ok) (fuel : ℕ) (h : Heap K) (G : List PLine) (n : ℕ)
    (p : ZMod n → Pt K) (σ : ZMod n → ℕ) (c : IsCycleOf h (G.flatMap PLine.segs) n p σ)
    (hdir : ∀ k, (h.val (σ k)).i = p k) (hap : Apart R.tol (Set.range p)) (hn : n < 250) (hw : h.WF)
    (hG : ∀ P ∈ G, ∀ s ∈ P.segs, s < h.nseg) (hf : n ≤ fuel) : R.findLoops π fuel h G = .raised .index := by
  have h3 := c.three
  have hn0 : NeZero n := ⟨by omega⟩
  have one : (1 : ZMod n) ≠ 0 := by
    have : Fact (1 < n) := ⟨by omega⟩
    exact one_ne_zero
  have hj : ∀ k, (h.val (σ k)).j = p (k + 1) := by
    intro k
    rcases c.ends k with e | e
    · exact e.2
    · exfalso
      have := c.pinj ((hdir k).symm.trans e.1)
      exact one (by simpa using this.symm)
  have hpe : ∀ a b, R.peq (p a) (p b) = true ↔ a = b := by
    intro a b
    rw [(C04_apart hR hap ⟨a, rfl⟩ ⟨b, rfl⟩).1]
    exact c.pinj.eq_iff
  have hlt : ∀ s ∈ G.flatMap PLine.segs, s < h.nseg := by
    intro s hs
    obtain ⟨P, hP, hs⟩ := List.mem_flatMap.1 hs
    exact hG P hP s hs
  -- all segments, seen from the start of any of them
  have main : ∀ c0 : ZMod n, Loop R n (fun k => p (c0 - k)) (fun k => h.val (σ (c0 - k))) ∧
      Dir (fun k : ZMod n => h.val (σ (c0 - k))) h (G.flatMap PLine.segs) Set.univ := by
    intro c0
    have lp : Loop R n (fun k => p (c0 - k)) (fun k => h.val (σ (c0 - k))) := by
      refine ⟨fun k => hdir _, fun k => ?_, fun a b => ?_⟩
      · rw [hj]
        congr 1
        ring
      · rw [hpe]
        constructor
        · intro e; exact sub_right_injective e
        · rintro rfl; rfl
    refine ⟨lp, c.nodup, hlt, ?_, ?_, ?_⟩
    · intro s hs
      obtain ⟨k, rfl⟩ := (c.mem s).1 hs
      exact ⟨c0 - k, Set.mem_univ _, by rw [sub_sub_cancel]⟩
    · intro k _
      exact ⟨σ (c0 - k), (c.mem _).2 ⟨_, rfl⟩, rfl⟩
    · intro s hs t ht e
      obtain ⟨a, rfl⟩ := (c.mem s).1 hs
      obtain ⟨b, rfl⟩ := (c.mem t).1 ht
      have h1 : p a = p b := by rw [← hdir, ← hdir, e]
      rw [c.pinj h1]
  have hset : (R.setOf h (G.flatMap PLine.segs)).map Prod.fst = G.flatMap PLine.segs := by
    rw [setOf_dir (main 0).1 hR (main 0).2, tag_fst]
  unfold Rt.findLoops
  rw [hset]
  have hperm := hπ 0 (G.flatMap PLine.segs)
  generalize π 0 (G.flatMap PLine.segs) = g at hperm
  cases g with
  | nil =>
    have := hperm.length_eq
    rw [c.length] at this
    simp at this
    omega
  | cons a t =>
    obtain ⟨c0, hc0⟩ := (c.mem a).1 (hperm.mem_iff.1 List.mem_cons_self)
    obtain ⟨lp, d⟩ := main c0
    have hap' : Apart R.tol (Set.range fun k => p (c0 - k)) := by
      rintro _ ⟨x, rfl⟩ _ ⟨y, rfl⟩
      exact hap _ ⟨_, rfl⟩ _ ⟨_, rfl⟩
    have d' := d.perm hperm
    obtain ⟨h', m, e, k, dm⟩ := walkSegments_loop lp hR h3 hn hap' hπ fuel 1 (by omega) hw d' (by
      rw [hc0, sub_zero])
    obtain ⟨fuel, rfl⟩ : ∃ f, fuel = f + 2 := ⟨fuel - 2, by omega⟩
    have hgraph : (a :: t).filter (R.keepSeg h' ⟨m, false⟩) = [] := by
      rw [List.filter_eq_nil_iff]
      intro x hx hkeep
      unfold Rt.keepSeg at hkeep
      rw [Bool.and_eq_true, Bool.not_eq_true', Bool.eq_false_iff] at hkeep
      apply hkeep.1
      unfold Rt.inSegs
      rw [List.any_eq_true]
      obtain ⟨j, -, ej⟩ := d'.val x hx
      obtain ⟨y, hy, ey⟩ := dm.all j (Set.mem_univ _)
      refine ⟨y, hy, ?_⟩
      rw [Bool.or_eq_true]
      right
      rw [ey, k.val x (d'.lt x hx), ej]
      exact hR.seq_refl _
    have hwalk : ∀ k, R.loopsWalk π (fuel + 2) (fuel + 2) k h (a :: t) [] =
        match R.walkSegments π (fuel + 2) k h (a :: t) with
        | .timeout => .timeout
        | .raised e => .raised e
        | .no h' => .ok h' (a :: t) []
        | .found h' P =>
          if R.inCycles h' P [] then .ok h' (a :: t) []
          else R.loopsWalk π (fuel + 2) (fuel + 1) (k + 2 * (fuel + 2) + 1) h'
            ((a :: t).filter (R.keepSeg h' P)) ([] ++ [P]) := fun k => rfl
    rw [hwalk, e]
    dsimp only
    rw [hgraph]
    rfl

end

/-- a square of plain segments, head to tail -/
def exSquareH (cls : SegCls) : Heap ℚ :=
  { pt := fun k => [(⟨0, 0⟩ : Pt ℚ), ⟨1, 0⟩, ⟨1, 1⟩, ⟨0, 1⟩].getD k ⟨0, 0⟩
    seg := fun k => ⟨k % 4, (k + 1) % 4, cls⟩
    npt := 4
    nseg := 4 }

example : exRt.findLoops (fun _ l => l) 6 (exSquareH .line) [⟨[0, 1, 2, 3], false⟩] matches .raised .index := by
  decide +kernel

example : IsCycleOf (exSquareH .line) [0, 1, 2, 3] 4 (fun k => (exSquareH .line).pt k.val) (fun k => k.val) ∧
    ∀ k : ZMod 4, ((exSquareH .line).val k.val).i = (exSquareH .line).pt k.val := by
  refine ⟨⟨by norm_num, ?_, ?_, by decide, ?_, ?_⟩, ?_⟩
  · intro a b; revert a b; decide
  · intro a b; revert a b; decide
  · intro s
    constructor
    · intro hs
      simp only [List.mem_cons, List.not_mem_nil, or_false] at hs
      rcases hs with rfl | rfl | rfl | rfl
      · exact ⟨0, rfl⟩
      · exact ⟨1, rfl⟩
      · exact ⟨2, rfl⟩
      · exact ⟨3, rfl⟩
    · rintro ⟨k, rfl⟩; revert k; decide
  · decide
  · decide

/-- a square of Walls, two of them against the others -/
def exMixedH : Heap ℚ :=
  { exSquareH .wall with seg := fun k => if k = 0 ∨ k = 3 then ⟨(k + 1) % 4, k, .wall⟩ else ⟨k, (k + 1) % 4, .wall⟩ }

/-- the number of segments left in the graph -/
def Rt.LoopRes.left : Rt.LoopRes K → Option ℕ
  | .ok _ g _ => some g.length
  | _ => none

/-- C81: the same loop of Walls, two of them in the other direction, is returned: reversed Walls are not recognised
(`line_reversed` is no Wall), so segments stay in the graph and it is not empty. -/
theorem C81_mixed_walls :
    (exRt.findLoops (fun _ l => l) 6 exMixedH [⟨[0, 1, 2, 3], false⟩]).closedness exRt = [(4, true)] ∧
    (exRt.findLoops (fun _ l => l) 6 exMixedH [⟨[0, 1, 2, 3], false⟩]).left = some 2 := by decide +kernel

end Srep
