import Verif.Props.LoopsSingle

/-!
The sides of a ring in either direction, lists and sets of such sides in memory, and `order` on them.
-/

set_option linter.unusedSectionVars false

namespace Srep
variable {K : Type} [Field K] [LinearOrder K] [IsStrictOrderedRing K] [FloorRing K] {R : Rt K}

/-- `v 0, …, v (n - 1)` are different points for `==`, and `v n` is `v 0` again -/
structure RingPts (R : Rt K) (n : ℕ) (v : ℕ → Pt K) : Prop where
  three : 3 ≤ n
  close : v n = v 0
  eq : ∀ a b, a < n → b < n → (R.peq (v a) (v b) = true ↔ a = b)

/-- the side between `v k` and `v (k + 1)`, in the direction of the ring (`true`) or against it -/
def rside (v : ℕ → Pt K) (c : ℕ → SegCls) (x : ℕ × Bool) : Seg K :=
  if x.2 then ⟨v x.1, v (x.1 + 1), c x.1⟩ else ⟨v (x.1 + 1), v x.1, c x.1⟩

/-- the addresses `l` hold exactly the sides `I`, each once -/
structure Lists (n : ℕ) (u : ℕ × Bool → Seg K) (h : Heap K) (l : List ℕ) (I : Set (ℕ × Bool)) : Prop where
  dom : ∀ x ∈ I, x.1 < n
  nodup : l.Nodup
  lt : ∀ s ∈ l, s < h.nseg
  val : ∀ s ∈ l, ∃ k ∈ I, h.val s = u k
  all : ∀ k ∈ I, ∃ s ∈ l, h.val s = u k
  inj : ∀ s ∈ l, ∀ t ∈ l, h.val s = h.val t → s = t

section
variable {n : ℕ} {v : ℕ → Pt K} {c : ℕ → SegCls} {h h' : Heap K} {l : List ℕ} {I : Set (ℕ × Bool)}

theorem RingPts.peq_iff (r : RingPts R n v) {a b : ℕ} (ha : a ≤ n) (hb : b ≤ n) :
    R.peq (v a) (v b) = true ↔ a = b ∨ (a = 0 ∧ b = n) ∨ (a = n ∧ b = 0) := by
  have h3 := r.three
  rcases Nat.lt_or_ge a n with h1 | h1 <;> rcases Nat.lt_or_ge b n with h2 | h2
  · rw [r.eq a b h1 h2]; omega
  · have : b = n := by omega
    subst this
    rw [r.close, r.eq a 0 h1 (by omega)]; omega
  · have : a = n := by omega
    subst this
    rw [r.close, r.eq 0 b (by omega) h2]; omega
  · have : a = n := by omega
    subst this
    have : b = a := by omega
    subst this
    rw [r.close, r.eq 0 0 (by omega) (by omega)]; omega

theorem rside_i (x : ℕ × Bool) : (rside v c x).i = if x.2 then v x.1 else v (x.1 + 1) := by
  unfold rside; split_ifs <;> rfl

theorem rside_j (x : ℕ × Bool) : (rside v c x).j = if x.2 then v (x.1 + 1) else v x.1 := by
  unfold rside; split_ifs <;> rfl

theorem rside_cls (x : ℕ × Bool) : (rside v c x).cls = c x.1 := by
  unfold rside; split_ifs <;> rfl

theorem rside_flip (k : ℕ) (b : Bool) : (rside v c (k, b)).flip = rside v c (k, !b) := by
  cases b <;> rfl

theorem RingPts.seq_iff (r : RingPts R n v) (hR : R.IsRounding) {x y : ℕ × Bool} (hx : x.1 < n) (hy : y.1 < n) :
    R.seq (rside v c x) (rside v c y) = true ↔ x = y := by
  have h3 := r.three
  constructor
  · intro e
    obtain ⟨k, b⟩ := x
    obtain ⟨m, d⟩ := y
    dsimp only at hx hy
    simp only [Rt.seq, Bool.and_eq_true, rside_i, rside_j] at e
    obtain ⟨⟨-, e1⟩, e2⟩ := e
    cases b <;> cases d <;> simp only [if_true, if_false, Bool.false_eq_true] at e1 e2 <;>
      rw [r.peq_iff (by omega) (by omega)] at e1 e2
    · rw [show k = m by omega]
    · omega
    · omega
    · rw [show k = m by omega]
  · rintro rfl; exact hR.seq_refl _

theorem RingPts.inj (r : RingPts R n v) (hR : R.IsRounding) {x y : ℕ × Bool} (hx : x.1 < n) (hy : y.1 < n)
    (e : rside v c x = rside v c y) : x = y := by
  rw [← r.seq_iff hR hx hy (c := c), e]; exact hR.seq_refl _

theorem Lists.perm {u : ℕ × Bool → Seg K} (d : Lists n u h l I) {l' : List ℕ} (hp : l'.Perm l) : Lists n u h l' I :=
  ⟨d.dom, hp.nodup_iff.2 d.nodup, fun s hs => d.lt s (hp.mem_iff.1 hs), fun s hs => d.val s (hp.mem_iff.1 hs),
    fun k hk => let ⟨s, hs, e⟩ := d.all k hk; ⟨s, hp.mem_iff.2 hs, e⟩,
    fun s hs t ht => d.inj s (hp.mem_iff.1 hs) t (hp.mem_iff.1 ht)⟩

theorem Lists.copy {u : ℕ × Bool → Seg K} (d : Lists n u h l I) : Lists n u h.deepcopy (l.map (· + h.nseg)) I := by
  refine ⟨d.dom, d.nodup.map (fun a b e => by simpa using e), ?_, ?_, ?_, ?_⟩
  · intro s hs
    obtain ⟨t, ht, rfl⟩ := List.mem_map.1 hs
    have := d.lt t ht
    simp [Heap.deepcopy]; omega
  · intro s hs
    obtain ⟨t, ht, rfl⟩ := List.mem_map.1 hs
    rw [deepcopy_new]; exact d.val t ht
  · intro k hk
    obtain ⟨s, hs, e⟩ := d.all k hk
    exact ⟨s + h.nseg, List.mem_map_of_mem hs, by rw [deepcopy_new, e]⟩
  · intro s hs t ht e
    obtain ⟨s', hs', rfl⟩ := List.mem_map.1 hs
    obtain ⟨t', ht', rfl⟩ := List.mem_map.1 ht
    rw [deepcopy_new, deepcopy_new] at e
    rw [d.inj s' hs' t' ht' e]

/-- the description holds in a memory with the same values at these addresses -/
theorem Lists.mono {u : ℕ × Bool → Seg K} (d : Lists n u h l I) (hn : h.nseg ≤ h'.nseg)
    (hv : ∀ s ∈ l, h'.val s = h.val s) : Lists n u h' l I := by
  refine ⟨d.dom, d.nodup, fun s hs => lt_of_lt_of_le (d.lt s hs) hn, ?_, ?_, ?_⟩
  · intro s hs; rw [hv s hs]; exact d.val s hs
  · intro j hj
    obtain ⟨s, hs, e⟩ := d.all j hj
    exact ⟨s, hs, by rw [hv s hs, e]⟩
  · intro s hs t ht; rw [hv s hs, hv t ht]; exact d.inj s hs t ht

theorem tag_mono (hv : ∀ s ∈ l, h'.val s = h.val s) : tag R h' l = tag R h l := by
  unfold tag
  apply List.map_congr_left
  intro s hs
  simp only [Rt.segHash, hv s hs]

theorem rhit_iff (r : RingPts R n v) (hR : R.IsRounding) {x y : ℕ} {a b : ℕ × Bool} (ha : a.1 < n) (hb : b.1 < n)
    (hx : h.val x = rside v c a) (hy : h.val y = rside v c b) : R.setHit h x (y, R.segHash h y) = true ↔ a = b := by
  unfold Rt.setHit
  rw [Bool.and_eq_true, Bool.or_eq_true, decide_eq_true_eq, decide_eq_true_eq]
  constructor
  · rintro ⟨-, e | e⟩
    · have e : y = x := e
      subst e
      exact r.inj hR ha hb (hx.symm.trans hy)
    · have e : R.seq (h.val y) (h.val x) = true := e
      rw [hx, hy] at e
      exact ((r.seq_iff hR hb ha).1 e).symm
  · rintro rfl
    refine ⟨?_, Or.inr ?_⟩
    · show R.segHash h y = R.segHash h x
      unfold Rt.segHash; rw [hx, hy]
    · show R.seq (h.val y) (h.val x) = true
      rw [hx, hy]; exact hR.seq_refl _

/-- adding a side to a set of sides -/
theorem setAdd_lists (r : RingPts R n v) (hR : R.IsRounding) (d : Lists n (rside v c) h l I) {x : ℕ} {k : ℕ × Bool}
    (hk : k.1 < n) (hx : h.val x = rside v c k) (hlt : x < h.nseg) :
    ∃ l', R.setAdd h (tag R h l) x = tag R h l' ∧ Lists n (rside v c) h l' (insert k I) ∧ (∀ s ∈ l', s ∈ l ∨ s = x) ∧
      (k ∉ I → x ∈ l') := by
  by_cases hin : k ∈ I
  · refine ⟨l, ?_, ?_, fun s hs => Or.inl hs, fun h => absurd hin h⟩
    · unfold Rt.setAdd
      rw [if_pos]
      rw [List.any_eq_true]
      obtain ⟨s, hs, e⟩ := d.all k hin
      exact ⟨_, List.mem_map_of_mem hs, (rhit_iff r hR hk hk hx e).2 rfl⟩
    · rw [Set.insert_eq_of_mem hin]; exact d
  · have hne : ∀ s ∈ l, h.val s ≠ h.val x := by
      intro s hs e
      obtain ⟨j, hj, e'⟩ := d.val s hs
      rw [e', hx] at e
      exact hin (r.inj hR (d.dom j hj) hk e ▸ hj)
    refine ⟨l ++ [x], ?_, ⟨?_, ?_, ?_, ?_, ?_, ?_⟩, ?_, fun _ => by simp⟩
    · unfold Rt.setAdd
      rw [if_neg]
      · simp [tag]
      · rw [List.any_eq_true]
        rintro ⟨y, hy, e⟩
        obtain ⟨s, hs, rfl⟩ := List.mem_map.1 hy
        obtain ⟨j, hj, e'⟩ := d.val s hs
        rw [rhit_iff r hR hk (d.dom j hj) hx e'] at e
        exact hin (e ▸ hj)
    · rintro y (rfl | hy)
      · exact hk
      · exact d.dom y hy
    · rw [List.nodup_append]
      refine ⟨d.nodup, List.nodup_singleton _, ?_⟩
      rintro a ha b hb rfl
      rw [List.mem_singleton] at hb
      subst hb
      exact hne _ ha rfl
    · intro s hs
      rw [List.mem_append, List.mem_singleton] at hs
      rcases hs with hs | rfl
      · exact d.lt s hs
      · exact hlt
    · intro s hs
      rw [List.mem_append, List.mem_singleton] at hs
      rcases hs with hs | rfl
      · obtain ⟨j, hj, e⟩ := d.val s hs
        exact ⟨j, Set.mem_insert_of_mem _ hj, e⟩
      · exact ⟨k, Set.mem_insert _ _, hx⟩
    · intro j hj
      rcases hj with rfl | hj
      · exact ⟨x, by simp, hx⟩
      · obtain ⟨s, hs, e⟩ := d.all j hj
        exact ⟨s, by simp [hs], e⟩
    · intro s hs t ht e
      rw [List.mem_append, List.mem_singleton] at hs ht
      rcases hs with hs | rfl <;> rcases ht with ht | rfl
      · exact d.inj s hs t ht e
      · exact absurd e (hne s hs)
      · exact absurd e.symm (hne t ht)
      · rfl
    · intro s hs
      rw [List.mem_append, List.mem_singleton] at hs
      exact hs

theorem setOf_lists (r : RingPts R n v) (hR : R.IsRounding) (d : Lists n (rside v c) h l I) :
    R.setOf h l = tag R h l := by
  have key : ∀ (t a : List ℕ), (a ++ t).Nodup → (∀ s ∈ a ++ t, ∃ k : ℕ × Bool, k.1 < n ∧ h.val s = rside v c k) →
      (∀ s ∈ a ++ t, ∀ s' ∈ a ++ t, h.val s = h.val s' → s = s') →
      t.foldl (R.setAdd h) (tag R h a) = tag R h (a ++ t) := by
    intro t
    induction t with
    | nil => intro a _ _ _; simp
    | cons x t ih =>
      intro a hnd hv hi
      rw [List.foldl_cons]
      have : R.setAdd h (tag R h a) x = tag R h (a ++ [x]) := by
        unfold Rt.setAdd
        rw [if_neg]
        · simp [tag]
        · rw [List.any_eq_true]
          rintro ⟨y, hy, e⟩
          obtain ⟨s, hs, rfl⟩ := List.mem_map.1 hy
          obtain ⟨k, hk0, hk⟩ := hv x (by simp)
          obtain ⟨j, hj0, hj⟩ := hv s (by simp [hs])
          rw [rhit_iff r hR hk0 hj0 hk hj] at e
          subst e
          have := hi s (by simp [hs]) x (by simp) (hj.trans hk.symm)
          subst this
          rw [List.nodup_append] at hnd
          exact hnd.2.2 s hs s (by simp) rfl
      rw [this]
      have e : a ++ x :: t = (a ++ [x]) ++ t := by simp
      rw [e] at hnd hv hi ⊢
      exact ih _ hnd hv hi
  exact key l [] (by simpa using d.nodup) (by
    intro s hs
    obtain ⟨k, hk, e⟩ := d.val s (by simpa using hs)
    exact ⟨k, d.dom k hk, e⟩) (by simpa using d.inj)

/-- there are at most `2 n` sides -/
theorem Lists.length_le {u : ℕ × Bool → Seg K} (d : Lists n u h l I) : l.length ≤ 2 * n := by
  classical
  choose f hf using fun s : {s // s ∈ l} => d.val s.1 s.2
  have h1 : l.attach.length ≤ (Finset.range n ×ˢ (Finset.univ : Finset Bool)).card := by
    have h2 : (l.attach.map f).toFinset ⊆ Finset.range n ×ˢ (Finset.univ : Finset Bool) := by
      intro x hx
      rw [List.mem_toFinset, List.mem_map] at hx
      obtain ⟨s, -, rfl⟩ := hx
      rw [Finset.mem_product, Finset.mem_range]
      exact ⟨d.dom _ (hf s).1, Finset.mem_univ _⟩
    have h3 : (l.attach.map f).Nodup := by
      refine (List.nodup_attach.2 d.nodup).map ?_
      intro s t e
      apply Subtype.ext
      exact d.inj s.1 s.2 t.1 t.2 (by rw [(hf s).2, (hf t).2, e])
    have h4 := Finset.card_le_card h2
    rw [List.toFinset_card_of_nodup h3, List.length_map] at h4
    exact h4
  rw [List.length_attach, Finset.card_product, Finset.card_range] at h1
  simp at h1
  omega

/-! ### `order` -/

theorem orderLoop_not_raised (R : Rt K) (l : List ℕ) (hl : l.length < 250) : ∀ (fuel : ℕ) (h : Heap K) (akt e : ℕ)
    (ret : List ℕ) (count : ℕ), count ≤ 2 * l.length → ∀ h' x, R.orderLoop l fuel h akt e ret count ≠ .raised h' x := by
  intro fuel
  induction fuel with
  | zero => intro h akt e ret count _ h' x; unfold Rt.orderLoop; simp
  | succ fuel ih =>
    intro h akt e ret count hc h' x
    unfold Rt.orderLoop
    split
    · simp
    · dsimp only
      split_ifs
      · omega
      · simp
      · exact ih _ _ _ _ _ (by omega) _ _

theorem orderLoop_done_ne (R : Rt K) (l : List ℕ) : ∀ (fuel : ℕ) (h : Heap K) (akt e : ℕ)
    (ret : List ℕ) (count : ℕ), ∀ h' x, R.orderLoop l fuel h akt e ret count = .done h' x → x ≠ [] := by
  intro fuel
  induction fuel with
  | zero => intro h akt e ret count h' x; unfold Rt.orderLoop; simp
  | succ fuel ih =>
    intro h akt e ret count h' x
    unfold Rt.orderLoop
    split
    · simp
    · rename_i nxt flip hn
      dsimp only
      split_ifs
      · simp
      · intro e
        injection e with e1 e2
        rw [← e2]
        unfold Rt.orderAdd
        split_ifs with hin
        · rintro rfl
          simp [Rt.inSegs] at hin
        all_goals simp
      · exact ih _ _ _ _ _ _ _

/-- on 1 to 249 segments `order` answers True or False -/
theorem order_answers (hR : R.IsRounding) (h : Heap K) (hne : l ≠ []) (hl : l.length < 250) :
    (∃ h', R.order h ⟨l, false⟩ = .failed h') ∨ ∃ h' m, R.order h ⟨l, false⟩ = .done h' m ∧ m ≠ [] := by
  cases hP : l with
  | nil => exact absurd hP hne
  | cons a t =>
    have h1 := order_cases hR h ⟨l, false⟩ a t hP _ le_rfl
    have h2 := orderLoop_not_raised R l hl (2 * l.length + 1) h a (h.seg a).j [] 0 (by omega)
    have h3 := orderLoop_done_ne R l (2 * l.length + 1) h a (h.seg a).j [] 0
    dsimp only at h1
    rw [← hP]
    have hdef : R.order h ⟨l, false⟩ = R.orderF (2 * l.length + 1) h ⟨l, false⟩ := rfl
    rcases h1 with ⟨k1, k2, k3⟩ | ⟨h', k1, k2⟩ | ⟨h', ret, m, f, k1, k2, k3, k4, ⟨b, w, rfl, -⟩, k6⟩
    · left
      rw [hdef, k2]
      generalize R.orderLoop l (2 * l.length + 1) h a (h.seg a).j [] 0 = res at *
      cases res with
      | failed h' => exact ⟨h', rfl⟩
      | raised h' e => exact absurd rfl (h2 h' e)
      | done h' m => exact absurd rfl (k1 h' m)
      | timeout => exact absurd rfl k3
    · exact absurd rfl (h3 _ _ k1)
    · right
      exact ⟨h', _, by rw [hdef, k6], by simp⟩

/-- `order` does not reverse a segment whose reverse is in the list as well -/
theorem order_noflip (r : RingPts R n v) (hR : R.IsRounding)
    (hv : ∀ s ∈ l, ∃ k : ℕ × Bool, k.1 < n ∧ h.val s = rside v c k) {x y : ℕ} (hx : x ∈ l) (hy : y ∈ l) {k : ℕ} {b : Bool}
    (hk : k < n) (ex : h.val x = rside v c (k, b)) (ey : h.val y = rside v c (k, !b)) :
    ((R.order h ⟨l, false⟩).heap h).val x = rside v c (k, b) := by
  have h3 := r.three
  have loop : ∀ (fuel : ℕ) (h1 : Heap K) (akt e : ℕ) (ret : List ℕ) (count : ℕ), OrderInv h l h1 ret → akt ∈ l →
      h1.pt e = (h1.val akt).j → h1.val x = rside v c (k, b) → h1.val y = rside v c (k, !b) →
      R.orderLoop l fuel h1 akt e ret count ≠ .timeout →
      ((R.orderLoop l fuel h1 akt e ret count).heap h).val x = rside v c (k, b) := by
    intro fuel
    induction fuel with
    | zero => intro h1 akt e ret count _ _ _ _ _ hto; exact absurd rfl hto
    | succ fuel ih =>
      intro h1 akt e ret count inv hakt he hx1 hy1 hto
      have fam : ∀ s ∈ l, ∃ k : ℕ × Bool, k.1 < n ∧ h1.val s = rside v c k := by
        intro s hs
        obtain ⟨⟨m, d⟩, hm, e'⟩ := hv s hs
        rcases inv.val s with e2 | e2
        · exact ⟨(m, d), hm, by rw [e2, e']⟩
        · exact ⟨(m, !d), hm, by rw [e2, e', rside_flip]⟩
      unfold Rt.orderLoop at hto ⊢
      cases hn : R.orderNext l h1 akt e with
      | none => exact hx1
      | some q =>
        obtain ⟨nxt, flip⟩ := q
        rw [hn] at hto
        dsimp only at hto ⊢
        have hmem := orderNext_mem hn
        have inv' := inv.add (R := R) hmem flip
        -- neither x nor y is reversed
        have key : ∀ (z z' : ℕ) (d : Bool), z' ∈ l → h1.val z = rside v c (k, d) → h1.val z' = rside v c (k, !d) →
            (R.orderAdd h1 ret nxt flip).1.val z = rside v c (k, d) := by
          intro z z' d hz' hz1 hz1'
          unfold Rt.orderAdd
          split_ifs with h1' h2'
          · exact hz1
          · subst h2'
            rw [Heap.reverse_val]
            split_ifs with hzn
            · exfalso
              subst hzn
              obtain ⟨g1, g2⟩ := orderNext_flip hn
              have g1 : R.peq (h1.val z).j (h1.pt e) = true := g1
              have g3 := g2 z' hz' (by
                show R.peq (h1.val z').i (h1.pt e) = true
                rw [hz1, rside_j] at g1
                rw [hz1', rside_i]
                cases d <;> exact g1)
              obtain ⟨⟨m, d'⟩, hm, em⟩ := fam akt hakt
              rw [hz1', em, r.seq_iff hR hk hm] at g3
              rw [he, em, hz1, ← g3, rside_j, rside_j] at g1
              cases d <;> simp only [Bool.not_true, Bool.not_false, if_true, if_false, Bool.false_eq_true] at g1 <;>
                rw [r.peq_iff (by omega) (by omega)] at g1 <;> omega
            · exact hz1
          · exact hz1
        have kx := key x y b hy hx1 hy1
        have ky := key y x (!b) hx hy1 (by rw [Bool.not_not]; exact hx1)
        split_ifs with g1 g2
        · exact kx
        · exact kx
        · rw [if_neg g1, if_neg g2] at hto
          exact ih _ _ _ _ _ inv' hmem rfl kx ky hto
  have hto := (C48_terminates hR h ⟨l, false⟩).1
  cases hP : l with
  | nil => rw [hP] at hx; cases hx
  | cons a t =>
    have h1 := order_cases hR h ⟨l, false⟩ a t hP _ le_rfl
    dsimp only at h1
    have hto' := (orderLoop_fuel R l (2 * l.length + 1) h a (h.seg a).j [] 0 (by omega) (by omega)).1
    have h2 := loop (2 * l.length + 1) h a (h.seg a).j [] 0
      ⟨rfl, rfl, rfl, fun _ _ => rfl, fun _ => Or.inl rfl, by simp, by simp⟩ (by rw [hP]; simp) rfl ex ey hto'
    rw [← hP]
    have hdef : R.order h ⟨l, false⟩ = R.orderF (2 * l.length + 1) h ⟨l, false⟩ := rfl
    rcases h1 with ⟨k1, k2, k3⟩ | ⟨h', k1, k2⟩ | ⟨h', ret, m, f, k1, k2, k3, k4, k5, k6⟩
    · rw [hdef, k2]; exact h2
    · rw [hdef, k2]; rw [k1] at h2; exact h2
    · rw [hdef, k6]; rw [k1] at h2; exact h2

/-- on an open chain of sides the next segment is the next side in the direction of the current one -/
theorem orderNext_open (r : RingPts R n v) (hR : R.IsRounding) {m : ℕ} (hm : m + 1 < n)
    (fam : ∀ s ∈ l, ∃ k b, k ≤ m ∧ h.val s = rside v c (k, b))
    (uniq : ∀ s ∈ l, ∀ t ∈ l, ∀ k b b', k ≤ m → h.val s = rside v c (k, b) → h.val t = rside v c (k, b') → s = t)
    {akt e a : ℕ} {d : Bool} (hakt : akt ∈ l) (ha : a ≤ m) (hv : h.val akt = rside v c (a, d))
    (he : h.pt e = v (if d then a + 1 else a)) :
    R.orderNext l h akt e = none ∨ ∃ s ∈ l, ∃ nk ≤ m, (d = true ∧ nk = a + 1 ∨ d = false ∧ nk + 1 = a) ∧
      (R.orderNext l h akt e = some (s, false) ∧ h.val s = rside v c (nk, d) ∨
       R.orderNext l h akt e = some (s, true) ∧ h.val s = rside v c (nk, !d)) := by
  unfold Rt.orderNext
  cases hf : l.find? fun x => R.peq (h.pt (h.seg x).i) (h.pt e) && !R.seq (h.val x) (h.val akt) with
  | some x =>
    right
    have hx := List.find?_some hf
    have hmem := List.mem_of_find?_eq_some hf
    rw [Bool.and_eq_true] at hx
    obtain ⟨k, b, hk, ek⟩ := fam x hmem
    have h1 : R.peq (h.val x).i (h.pt e) = true := hx.1
    have hne : k ≠ a := by
      rintro rfl
      have := uniq x hmem akt hakt k b d hk ek hv
      subst this
      have h2 := hx.2
      rw [hR.seq_refl] at h2
      cases h2
    rw [ek, he, rside_i] at h1
    refine ⟨x, hmem, k, hk, ?_⟩
    cases b <;> cases d <;> simp only [if_true, if_false, Bool.false_eq_true] at h1 <;>
      rw [r.peq_iff (by omega) (by omega)] at h1
    · exact ⟨Or.inr ⟨rfl, by omega⟩, Or.inl ⟨rfl, ek⟩⟩
    · omega
    · omega
    · exact ⟨Or.inl ⟨rfl, by omega⟩, Or.inl ⟨rfl, ek⟩⟩
  | none =>
    dsimp only
    cases hf2 : l.find? fun x => R.peq (h.pt (h.seg x).j) (h.pt e) && !R.seq (h.val x) (h.val akt) with
    | none => left; rfl
    | some x =>
      right
      have hx := List.find?_some hf2
      have hmem := List.mem_of_find?_eq_some hf2
      rw [Bool.and_eq_true] at hx
      obtain ⟨k, b, hk, ek⟩ := fam x hmem
      have h1 : R.peq (h.val x).j (h.pt e) = true := hx.1
      have hne : k ≠ a := by
        rintro rfl
        have := uniq x hmem akt hakt k b d hk ek hv
        subst this
        have h2 := hx.2
        rw [hR.seq_refl] at h2
        cases h2
      rw [ek, he, rside_j] at h1
      refine ⟨x, hmem, k, hk, ?_⟩
      cases b <;> cases d <;> simp only [if_true, if_false, Bool.false_eq_true] at h1 <;>
        rw [r.peq_iff (by omega) (by omega)] at h1
      · omega
      · exact ⟨Or.inl ⟨rfl, by omega⟩, Or.inr ⟨rfl, ek⟩⟩
      · exact ⟨Or.inr ⟨rfl, by omega⟩, Or.inr ⟨rfl, ek⟩⟩
      · omega

/-- on an open chain of sides, in any directions, `order` answers False; the last side of the chain is left as it is
or turned outwards, the latter only if some side has the direction of the ring -/
theorem order_open (r : RingPts R n v) (hR : R.IsRounding) {m : ℕ} (hm : m + 1 < n) (hn : n < 250) {o : ℕ → Bool}
    (d : Lists n (rside v c) h l {x | x.2 = o x.1 ∧ x.1 ≤ m}) :
    ∃ h', R.order h ⟨l, false⟩ = .failed h' ∧ ∀ s, h.val s = rside v c (m, o m) →
      h'.val s = rside v c (m, o m) ∨ h'.val s = rside v c (m, true) ∧ ∃ k < n, o k = true := by
  have hlen : m + 1 ≤ l.length := by
    choose! f hf using d.all
    have : ((List.range (m + 1)).map fun a : ℕ => f (a, o a)) ⊆ l := by
      intro x hx
      obtain ⟨a, ha, rfl⟩ := List.mem_map.1 hx
      rw [List.mem_range] at ha
      exact (hf (a, o a) ⟨rfl, by show a ≤ m; omega⟩).1
    have hnd : ((List.range (m + 1)).map fun a : ℕ => f (a, o a)).Nodup := by
      refine List.nodup_range.map_on ?_
      intro a ha b hb e
      rw [List.mem_range] at ha hb
      have h1 := (hf (a, o a) ⟨rfl, by show a ≤ m; omega⟩).2
      have h2 := (hf (b, o b) ⟨rfl, by show b ≤ m; omega⟩).2
      rw [e] at h1
      have := r.inj hR (by show a < n; omega) (by show b < n; omega) (h1.symm.trans h2)
      exact congrArg Prod.fst this
    have := (List.subperm_of_subset hnd this).length_le
    simpa using this
  have side : ∀ s ∈ l, ∃ k ≤ m, h.val s = rside v c (k, o k) := by
    intro s hs
    obtain ⟨⟨k, b⟩, ⟨hb, hk⟩, e⟩ := d.val s hs
    dsimp only at hb hk
    subst hb
    exact ⟨k, hk, e⟩
  have fam : ∀ (h1 : Heap K) (ret : List ℕ), OrderInv h l h1 ret → ∀ s ∈ l, ∃ k b, k ≤ m ∧ h1.val s = rside v c (k, b) := by
    intro h1 ret inv s hs
    obtain ⟨k, hk, e'⟩ := side s hs
    rcases inv.val s with e2 | e2
    · exact ⟨k, _, hk, by rw [e2, e']⟩
    · exact ⟨k, _, hk, by rw [e2, e', rside_flip]⟩
  have orig : ∀ (h1 : Heap K) (ret : List ℕ), OrderInv h l h1 ret → ∀ s ∈ l, ∀ k b, k ≤ m → h1.val s = rside v c (k, b) →
      h.val s = rside v c (k, o k) := by
    intro h1 ret inv s hs k b hk e
    obtain ⟨k', hk', e'⟩ := side s hs
    have : k' = k := by
      rcases inv.val s with e2 | e2
      · rw [e', e] at e2
        exact (congrArg Prod.fst (r.inj hR (by show k < n; omega) (by show k' < n; omega) e2)).symm
      · rw [e', e, rside_flip] at e2
        exact (congrArg Prod.fst (r.inj hR (by show k < n; omega) (by show k' < n; omega) e2)).symm
    rw [← this]; exact e'
  have uniq : ∀ (h1 : Heap K) (ret : List ℕ), OrderInv h l h1 ret → ∀ s ∈ l, ∀ t ∈ l, ∀ k b b', k ≤ m →
      h1.val s = rside v c (k, b) → h1.val t = rside v c (k, b') → s = t := by
    intro h1 ret inv s hs t ht k b b' hk e1 e2
    exact d.inj s hs t ht (by rw [orig h1 ret inv s hs k b hk e1, orig h1 ret inv t ht k b' hk e2])
  have loop : ∀ (w : Bool) (rem : ℕ) (fuel : ℕ) (h1 : Heap K) (akt e a : ℕ) (ret : List ℕ) (count : ℕ),
      OrderInv h l h1 ret → akt ∈ l → a ≤ m → h1.val akt = rside v c (a, w) → h1.pt e = (h1.val akt).j →
      (if w then m - a else a) = rem → rem < fuel → count + rem ≤ m →
      (∀ s ∈ ret, ∃ k b, k ≤ m ∧ (if w then k ≤ a else a ≤ k) ∧ h1.val s = rside v c (k, b)) →
      (w = true → ∃ k < n, o k = true) →
      (∀ s, h.val s = rside v c (m, o m) →
        h1.val s = rside v c (m, o m) ∨ h1.val s = rside v c (m, true) ∧ ∃ k < n, o k = true) →
      ∃ h', R.orderLoop l fuel h1 akt e ret count = .failed h' ∧ ∀ s, h.val s = rside v c (m, o m) →
        h'.val s = rside v c (m, o m) ∨ h'.val s = rside v c (m, true) ∧ ∃ k < n, o k = true := by
    intro w rem
    induction rem with
    | zero =>
      intro fuel h1 akt e a ret count inv hakt ha hv he hrem hf hc hret hw hs
      obtain ⟨fuel, rfl⟩ : ∃ f, fuel = f + 1 := ⟨fuel - 1, by omega⟩
      unfold Rt.orderLoop
      rcases orderNext_open r hR hm (fam h1 ret inv) (uniq h1 ret inv) hakt ha hv
        (by rw [he, hv, rside_j]; cases w <;> rfl) with e1 | ⟨s, -, nk, hnk, e1, -⟩
      · rw [e1]; exact ⟨h1, rfl, hs⟩
      · exfalso
        rcases e1 with ⟨rfl, e1⟩ | ⟨rfl, e1⟩
        · simp only [if_true] at hrem; omega
        · simp only [if_false, Bool.false_eq_true] at hrem; omega
    | succ rem ih =>
      intro fuel h1 akt e a ret count inv hakt ha hv he hrem hf hc hret hw hs
      obtain ⟨fuel, rfl⟩ : ∃ f, fuel = f + 1 := ⟨fuel - 1, by omega⟩
      unfold Rt.orderLoop
      rcases orderNext_open r hR hm (fam h1 ret inv) (uniq h1 ret inv) hakt ha hv
        (by rw [he, hv, rside_j]; cases w <;> rfl) with e1 | ⟨s, hsl, nk, hnk, e0, e1⟩
      · rw [e1]; exact ⟨h1, rfl, hs⟩
      · -- the next side is new
        obtain ⟨b, hb⟩ : ∃ b, h1.val s = rside v c (nk, b) := by
          rcases e1 with ⟨-, e1⟩ | ⟨-, e1⟩ <;> exact ⟨_, e1⟩
        have hnew : R.inSegs h1 s ret = false := by
          rw [Bool.eq_false_iff]
          intro hin
          unfold Rt.inSegs at hin
          rw [List.any_eq_true] at hin
          obtain ⟨y, hy, hin⟩ := hin
          obtain ⟨k, b', hk, hka, ey⟩ := hret y hy
          have : k = nk := by
            rw [Bool.or_eq_true, decide_eq_true_eq] at hin
            rcases hin with rfl | hin
            · exact congrArg Prod.fst (r.inj hR (by show k < n; omega) (by show nk < n; omega) (ey.symm.trans hb))
            · rw [ey, hb, r.seq_iff hR (by show k < n; omega) (by show nk < n; omega)] at hin
              exact congrArg Prod.fst hin
          subst this
          rcases e0 with ⟨rfl, e0⟩ | ⟨rfl, e0⟩
          · simp only [if_true] at hka; omega
          · simp only [if_false, Bool.false_eq_true] at hka; omega
        -- memory afterwards
        have step : ∃ f, R.orderNext l h1 akt e = some (s, f) ∧ (R.orderAdd h1 ret s f).1.val s = rside v c (nk, w) ∧
            (R.orderAdd h1 ret s f).2 = ret ++ [s] ∧
            ∀ t, t ≠ s → (R.orderAdd h1 ret s f).1.val t = h1.val t := by
          rcases e1 with ⟨e1, e2⟩ | ⟨e1, e2⟩
          · refine ⟨false, e1, ?_, ?_, ?_⟩
            · unfold Rt.orderAdd; rw [hnew]; exact e2
            · unfold Rt.orderAdd; rw [hnew]; rfl
            · intro t _; unfold Rt.orderAdd; rw [hnew]; rfl
          · refine ⟨true, e1, ?_, ?_, ?_⟩
            · unfold Rt.orderAdd; rw [hnew]
              show (h1.reverse s).val s = _
              rw [Heap.reverse_val, if_pos rfl, e2, rside_flip, Bool.not_not]
            · unfold Rt.orderAdd; rw [hnew]; rfl
            · intro t ht; unfold Rt.orderAdd; rw [hnew]
              show (h1.reverse s).val t = _
              rw [Heap.reverse_val, if_neg ht]
        obtain ⟨f, ef, ev, er, eo⟩ := step
        rw [ef]
        dsimp only
        rw [if_neg (by omega), if_neg (by omega)]
        have inv' := inv.add (R := R) (orderNext_mem ef) f
        refine ih fuel _ s _ nk _ (count + 1) inv' hsl hnk ev rfl ?_ (by omega) (by omega) ?_ hw ?_
        · rcases e0 with ⟨rfl, e0⟩ | ⟨rfl, e0⟩
          · simp only [if_true] at hrem ⊢; omega
          · simp only [if_false, Bool.false_eq_true] at hrem ⊢; omega
        · rw [er]
          intro t ht
          rw [List.mem_append, List.mem_singleton] at ht
          by_cases hts : t = s
          · subst hts
            exact ⟨nk, w, hnk, by cases w <;> simp, ev⟩
          · rcases ht with ht | ht
            · obtain ⟨k, b', hk, hka, ey⟩ := hret t ht
              refine ⟨k, b', hk, ?_, by rw [eo t hts, ey]⟩
              rcases e0 with ⟨rfl, e0⟩ | ⟨rfl, e0⟩
              · simp only [if_true] at hka ⊢; omega
              · simp only [if_false, Bool.false_eq_true] at hka ⊢; omega
            · exact absurd ht hts
        · intro t ht
          by_cases hts : t = s
          · subst hts
            have h5 := orig h1 ret inv t hsl nk b hnk hb
            rw [ht] at h5
            have h6 : m = nk := congrArg Prod.fst (r.inj hR (by show m < n; omega) (by show nk < n; omega) h5)
            rcases e0 with ⟨rfl, e0⟩ | ⟨rfl, e0⟩
            · right; rw [ev, ← h6]; exact ⟨rfl, hw rfl⟩
            · omega
          · rw [eo t hts]; exact hs t ht
  cases hl : l with
  | nil => rw [hl] at hlen; simp at hlen
  | cons a t =>
    have hal : a ∈ l := by rw [hl]; exact List.mem_cons_self
    obtain ⟨k, hk, ek⟩ := side a hal
    obtain ⟨h', h1, h1'⟩ := loop (o k) _ (2 * l.length + 1) h a (h.seg a).j k [] 0
      ⟨rfl, rfl, rfl, fun _ _ => rfl, fun _ => Or.inl rfl, by simp, by simp⟩ hal hk ek rfl rfl
      (by split_ifs <;> omega) (by split_ifs <;> omega) (by simp) (fun h => ⟨k, by omega, h⟩) (fun s hs => Or.inl hs)
    have := order_cases hR h ⟨l, false⟩ a t hl (2 * l.length + 1) le_rfl
    dsimp only at this
    rw [← hl]
    refine ⟨h', ?_, h1'⟩
    show R.orderF (2 * l.length + 1) h ⟨l, false⟩ = _
    rw [h1] at this
    rcases this with ⟨-, e, -⟩ | ⟨h', e, e'⟩ | ⟨h', ret, m, f, e, -, -, -, -, e'⟩
    · exact e
    · cases e
    · cases e

/-- on all sides of the ring, in any directions, `order` answers True and gives all of them the same direction -/
theorem order_closed (r : RingPts R n v) (hR : R.IsRounding) (hn : n < 250) (hap : Apart R.tol (Set.range v))
    {o : ℕ → Bool} (d : Lists n (rside v c) h l {x | x.2 = o x.1 ∧ x.1 < n}) :
    ∃ h' m w, R.order h ⟨l, false⟩ = .done h' m ∧ m.Perm l ∧ m.length = n ∧ ClosedChain (h'.vals m) ∧
      ∀ s ∈ l, ∀ k < n, h.val s = rside v c (k, o k) → h'.val s = rside v c (k, w) := by
  have h3 := r.three
  have hn0 : NeZero n := ⟨by omega⟩
  have hfac : Fact (1 < n) := ⟨by omega⟩
  have side : ∀ s ∈ l, ∃ k < n, h.val s = rside v c (k, o k) := by
    intro s hs
    obtain ⟨⟨k, b⟩, ⟨hb, hk⟩, e⟩ := d.val s hs
    dsimp only at hb hk
    subst hb
    exact ⟨k, hk, e⟩
  have hall : ∀ k : ZMod n, ∃ s ∈ l, h.val s = rside v c (k.val, o k.val) := fun k =>
    d.all (k.val, o k.val) ⟨rfl, k.val_lt⟩
  choose f hf using hall
  have hnext : ∀ k : ZMod n, v (k.val + 1) = v (k + 1).val := by
    intro k
    have h1 : (k + 1).val = (k.val + 1) % n := by rw [ZMod.val_add, ZMod.val_one]
    have h2 := k.val_lt
    rw [h1]
    rcases Nat.lt_or_ge (k.val + 1) n with h | h
    · rw [Nat.mod_eq_of_lt h]
    · have : k.val + 1 = n := by omega
      rw [this, Nat.mod_self, r.close]
  have cyc : IsCycleOf h l n (fun k => v k.val) f := by
    refine ⟨h3, ?_, ?_, d.nodup, ?_, ?_⟩
    · intro a b e
      dsimp only at e
      have : R.peq (v a.val) (v b.val) = true := by rw [e]; exact hR.peq_refl _
      rw [r.eq _ _ a.val_lt b.val_lt] at this
      exact ZMod.val_injective n this
    · intro a b e
      have h1 := (hf a).2
      rw [e, (hf b).2] at h1
      have := r.inj hR b.val_lt a.val_lt h1
      exact ZMod.val_injective n (congrArg Prod.fst this).symm
    · intro s
      constructor
      · intro hs
        obtain ⟨k, hk, e⟩ := side s hs
        refine ⟨(k : ZMod n), d.inj s hs _ (hf _).1 ?_⟩
        rw [(hf _).2, e, ZMod.val_natCast, Nat.mod_eq_of_lt hk]
      · rintro ⟨k, rfl⟩; exact (hf k).1
    · intro k
      rw [(hf k).2, rside_i, rside_j]
      dsimp only
      rw [← hnext]
      cases o k.val
      · right; exact ⟨rfl, rfl⟩
      · left; exact ⟨rfl, rfl⟩
  have hap' : Apart R.tol (locs h l) := by
    have hsub : locs h l ⊆ Set.range v := by
      rintro p ⟨s, hs, hp⟩
      obtain ⟨k, -, e⟩ := side s hs
      rw [e, rside_i, rside_j] at hp
      split_ifs at hp
      · rcases hp with rfl | rfl <;> exact ⟨_, rfl⟩
      · rcases hp with rfl | rfl <;> exact ⟨_, rfl⟩
    intro a ha b hb
    exact hap a (hsub ha) b (hsub hb)
  have hlen := cyc.length
  obtain ⟨h', m, h1, h2, h4, -⟩ := C76_restores_cycle hR h ⟨l, false⟩ n _ _ cyc hap' (by show l.length < 250; omega)
  have hml : m.length = n := by rw [h2.length_eq]; exact hlen
  obtain ⟨ret, inv, -⟩ := order_inv hR h ⟨l, false⟩
  rw [h1] at inv
  have inv : OrderInv h l h' ret := inv
  have val' : ∀ s ∈ l, ∀ k < n, h.val s = rside v c (k, o k) → ∃ b, h'.val s = rside v c (k, b) := by
    intro s _ k _ e
    rcases inv.val s with e2 | e2
    · exact ⟨_, by rw [e2, e]⟩
    · exact ⟨_, by rw [e2, e, rside_flip]⟩
  have h2 : m.Perm l := h2
  have key : ∀ (i : ℕ) (hi : i < m.length), ∃ k < n, h.val m[i] = rside v c (k, o k) := fun i hi =>
    side _ (h2.mem_iff.1 (List.getElem_mem hi))
  have hmv : ∀ (i : ℕ) (hi : i < m.length), ∃ k b, k < n ∧ h.val m[i] = rside v c (k, o k) ∧
      h'.val m[i] = rside v c (k, b) := by
    intro i hi
    obtain ⟨k, hk, e⟩ := key i hi
    obtain ⟨b, eb⟩ := val' _ (h2.mem_iff.1 (List.getElem_mem hi)) k hk e
    exact ⟨k, b, hk, e, eb⟩
  obtain ⟨k0, w, hk0, -, e0⟩ := hmv 0 (by omega)
  have hall : ∀ (i : ℕ) (hi : i < m.length), ∃ k < n, h.val m[i] = rside v c (k, o k) ∧ h'.val m[i] = rside v c (k, w) := by
    intro i
    induction i with
    | zero =>
      intro hi
      obtain ⟨k, b, hk, e1, e2⟩ := hmv 0 hi
      have := r.inj hR (by exact hk0) (by exact hk) (e0.symm.trans e2)
      have hb : w = b := congrArg Prod.snd this
      exact ⟨k, hk, e1, by rw [hb]; exact e2⟩
    | succ i ih =>
      intro hi
      obtain ⟨k, hk, e1, e2⟩ := ih (by omega)
      obtain ⟨k', b, hk', e3, e4⟩ := hmv (i + 1) hi
      have hc := h4 i (by show i < (h'.vals m).length; rw [Heap.vals, List.length_map]; omega)
      have hl' : (h'.vals m).length = m.length := by unfold Heap.vals; rw [List.length_map]
      have hc : (h'.val m[i]).j = (h'.val m[i + 1]).i := by
        simp only [hl', Nat.mod_eq_of_lt hi] at hc
        simpa [Heap.vals] using hc
      have hne : k ≠ k' := by
        rintro rfl
        have := d.inj _ (h2.mem_iff.1 (List.getElem_mem (by omega : i < m.length))) _
          (h2.mem_iff.1 (List.getElem_mem hi)) (e1.trans e3.symm)
        have hnd : m.Nodup := h2.nodup_iff.2 d.nodup
        rw [hnd.getElem_inj_iff] at this
        omega
      refine ⟨k', hk', e3, ?_⟩
      have hp : R.peq (h'.val m[i]).j (h'.val m[i + 1]).i = true := by rw [hc]; exact hR.peq_refl _
      rw [e2, e4, rside_i, rside_j] at hp
      rw [e4]
      cases w <;> cases b <;> simp only [if_true, if_false, Bool.false_eq_true] at hp <;>
        rw [r.peq_iff (by omega) (by omega)] at hp
      · omega
      · omega
  refine ⟨h', m, w, h1, h2, hml, h4, ?_⟩
  intro s hs k hk e
  obtain ⟨i, hi, rfl⟩ := List.mem_iff_getElem.1 (h2.mem_iff.2 hs)
  obtain ⟨k', hk', e1, e2⟩ := hall i hi
  have := r.inj hR (by exact hk') (by exact hk) (e1.symm.trans e)
  have hkk : k' = k := congrArg Prod.fst this
  rw [← hkk]; exact e2

end
end Srep
