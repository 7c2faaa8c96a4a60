import Verif.Lemmas.KrempeHeap
import Verif.Lemmas.HeadPiece
import Verif.Model.KrempeArc

/-! The objects `KegelKrempe` makes for `r > 0`. -/

set_option linter.unusedSectionVars false

namespace Srep
open Rt
variable {K : Type} [Field K] [LinearOrder K] [IsStrictOrderedRing K] [FloorRing K]

/-- the segments of `l` join `q 0`, ..., `q n`, and are in memory -/
structure Chained (h : Heap K) (l : List ℕ) (n : ℕ) (q : ℕ → Pt K) : Prop where
  len : l.length = n
  has : ∀ s ∈ l, h.Has s
  val : ∀ k (hk : k < l.length), (h.val l[k]).i = q k ∧ (h.val l[k]).j = q (k + 1)

theorem Chained.ext {h g : Heap K} {l : List ℕ} {n : ℕ} {q : ℕ → Pt K} (a : h.Ext g) (j : Chained h l n q) : Chained g l n q :=
  ⟨j.len, fun s hs => a.has (j.has s hs), fun k hk => by rw [a.val (j.has _ (List.getElem_mem hk))]; exact j.val k hk⟩

theorem Chained.mem_locs {h : Heap K} {l : List ℕ} {n : ℕ} {q : ℕ → Pt K} (j : Chained h l n q) {p : Pt K} (hp : p ∈ locs h l) :
    ∃ k ≤ n, p = q k := by
  obtain ⟨s, hs, hp⟩ := hp
  obtain ⟨k, hk, rfl⟩ := List.getElem_of_mem hs
  have := j.len
  obtain ⟨v1, v2⟩ := j.val k hk
  rw [v1, v2] at hp
  rcases hp with rfl | rfl
  exacts [⟨k, by omega, rfl⟩, ⟨k + 1, by omega, rfl⟩]

/-- copying and mirroring a polyline -/
theorem mirrorList_spec {R : Rt K} (hR : R.IsRounding) (h : Heap K) {P : PLine} {n : ℕ} {q : ℕ → Pt K} (hj : Chained h P.segs n q)
    (hsh : SharesPoints h P.segs) (hap : ∀ i j, i ≤ n → j ≤ n → i ≠ j → R.tol ≤ |(q i).x - (q j).x| ∨ R.tol ≤ |(q i).y - (q j).y|)
    (hq : ∀ i < n, q i ≠ q (i + 1)) (x0 : K) :
    let m := (R.plMirror h.deepcopy ⟨P.segs.map (· + h.nseg), P.purged⟩ x0).1
    h.Ext m ∧ Chained m (P.segs.map (· + h.nseg)) n fun k => mirrored R x0 (q k) := by
  intro m
  have hseg : ∀ s, h.deepcopy.seg (s + h.nseg) = ⟨(h.seg s).i + h.npt, (h.seg s).j + h.npt, (h.seg s).cls⟩ := by
    intro s; simp [Heap.deepcopy]
  have hpt : ∀ p, h.deepcopy.pt (p + h.npt) = h.pt p := by intro p; simp [Heap.deepcopy]
  have hval : ∀ s, h.deepcopy.val (s + h.nseg) = h.val s := by
    intro s
    unfold Heap.val
    rw [hseg]
    dsimp only
    rw [hpt, hpt]
  have hends : ∀ x, EndOf h.deepcopy (P.segs.map (· + h.nseg)) x → ∃ y, x = y + h.npt ∧ EndOf h P.segs y ∧ y < h.npt := by
    rintro x ⟨s, hs, hx⟩
    obtain ⟨t, ht, rfl⟩ := List.mem_map.1 hs
    have ha := hj.has t ht
    rw [hseg] at hx
    rcases hx with rfl | rfl
    exacts [⟨_, rfl, ⟨t, ht, Or.inl rfl⟩, ha.i⟩, ⟨_, rfl, ⟨t, ht, Or.inr rfl⟩, ha.j⟩]
  have hr : Ready h.deepcopy ⟨P.segs.map (· + h.nseg), P.purged⟩ := by
    cases hp : P.purged with
    | true =>
      refine Or.inl ⟨rfl, ?_⟩
      intro a b ha hb e
      obtain ⟨a', rfl, ha, -⟩ := hends a ha
      obtain ⟨b', rfl, hb, -⟩ := hends b hb
      rw [hpt, hpt] at e
      rw [hsh a' b' ha hb e]
    | false =>
      refine Or.inr ⟨rfl, ?_⟩
      intro s hs
      obtain ⟨t, ht, rfl⟩ := List.mem_map.1 hs
      obtain ⟨k, hk, rfl⟩ := List.getElem_of_mem ht
      rw [hval, (hj.val k hk).1, (hj.val k hk).2]
      exact hq k (by have := hj.len; omega)
  have hap' : Apart R.tol (locs h.deepcopy (P.segs.map (· + h.nseg))) := by
    have : ∀ x ∈ locs h.deepcopy (P.segs.map (· + h.nseg)), x ∈ locs h P.segs := by
      rintro x ⟨s, hs, hx⟩
      obtain ⟨t, ht, rfl⟩ := List.mem_map.1 hs
      rw [hval] at hx
      exact ⟨t, ht, hx⟩
    intro x hx y hy hxy
    obtain ⟨i, hi, rfl⟩ := hj.mem_locs (this x hx)
    obtain ⟨j, hj', rfl⟩ := hj.mem_locs (this y hy)
    exact hap i j hi hj' fun e => hxy (by rw [e])
  obtain ⟨-, m2, m3, m4⟩ := C86_mirror_once hR h.deepcopy ⟨P.segs.map (· + h.nseg), P.purged⟩ hr hap' x0
  obtain ⟨b1, b2, b3⟩ := write_bound R (mirrored R x0) (fun x => x < h.npt + h.npt) h.deepcopy ⟨P.segs.map (· + h.nseg), P.purged⟩
    (fun x hx => by obtain ⟨y, rfl, -, hy⟩ := hends x hx; omega)
  change m.npt = _ at b1
  change m.nseg = _ at b2
  change ∀ x, EndOf m (P.segs.map (· + h.nseg)) x → _ at b3
  have hn : h.deepcopy.npt = h.npt + h.npt := rfl
  have hs : h.deepcopy.nseg = h.nseg + h.nseg := rfl
  refine ⟨⟨by omega, by omega, ?_, ?_⟩, ⟨by rw [List.length_map]; exact hj.len, ?_, ?_⟩⟩
  · intro x hx
    rw [← h.ext_deepcopy.pt x hx]
    exact m3 x fun he => by obtain ⟨y, rfl, -, hy⟩ := hends x he; omega
  · intro s hs'
    rw [← h.ext_deepcopy.seg s hs']
    refine m4 s ?_
    intro hc
    obtain ⟨t, ht, rfl⟩ := List.mem_map.1 hc
    omega
  · intro s hs'
    have h1 := b3 _ ⟨s, hs', Or.inl rfl⟩
    have h2 := b3 _ ⟨s, hs', Or.inr rfl⟩
    obtain ⟨t, ht, rfl⟩ := List.mem_map.1 hs'
    have := (hj.has t ht).seg
    exact ⟨by omega, by rw [b1]; exact h1, by rw [b1]; exact h2⟩
  · intro k hk
    have hk' : k < P.segs.length := by simpa using hk
    have := m2 (P.segs[k] + h.nseg) (List.mem_map.2 ⟨_, List.getElem_mem hk', rfl⟩)
    rw [hval, (hj.val k hk').1, (hj.val k hk').2] at this
    simp only [List.getElem_map]
    change m.val _ = _ at this
    rw [this]
    exact ⟨rfl, rfl⟩

/-- new walls on the Points of given segments -/
theorem newWalls_joined (h : Heap K) {l : List ℕ} {n : ℕ} {q : ℕ → Pt K} (hj : Chained h l n q) :
    h.Ext (h.newWalls l).1 ∧ (h.newWalls l).2 = List.range' h.nseg n ∧ (h.newWalls l).1.nseg = h.nseg + n ∧
    (∀ k < n, (h.newWalls l).1.val (h.nseg + k) = ⟨q k, q (k + 1), .wall⟩) ∧ ∀ k < n, (h.newWalls l).1.Has (h.nseg + k) := by
  obtain ⟨i1, i2, i3, i4, i5, i6⟩ := newWalls_spec l h fun s hs => (hj.has s hs).seg
  rw [hj.len] at i1 i2
  have hlen := hj.len
  refine ⟨⟨i4.ge, by omega, fun p _ => by rw [i3], i5⟩, i1, i2, ?_, ?_⟩
  · intro k hk
    unfold Heap.val
    rw [i6 k (by omega), i3]
    have := hj.val k (by omega)
    dsimp only
    rw [← this.1, ← this.2]
    rfl
  · intro k hk
    have ha := hj.has _ (List.getElem_mem (by omega : k < l.length))
    refine ⟨by omega, ?_, ?_⟩
    · rw [i6 k (by omega), i4]; exact ha.i
    · rw [i6 k (by omega), i4]; exact ha.j

/-- the sides of the knuckle -/
structure RoundSides (g : Heap K) (segs : List ℕ) (n L : ℕ) (q q' : ℕ → Pt K) : Prop where
  segs : segs = List.range' n (2 * L + 2)
  has : ∀ k < 2 * L + 2, g.Has (n + k)
  right : ∀ k < L, g.val (n + k) = ⟨q k, q (k + 1), .wall⟩
  top : g.val (n + L) = ⟨q L, q' L, .nonWall⟩
  left : ∀ k < L, g.val (n + L + 1 + k) = ⟨q' k, q' (k + 1), .wall⟩
  bottom : g.val (n + 2 * L + 1) = ⟨q' 0, q 0, .nonWall⟩

theorem Heap.pt_i {h : Heap K} {s : ℕ} : h.pt (h.seg s).i = (h.val s).i := rfl
theorem Heap.pt_j {h : Heap K} {s : ℕ} : h.pt (h.seg s).j = (h.val s).j := rfl

theorem roundSides_spec (h : Heap K) {re li : List ℕ} {L f l f' l' : ℕ} {q q' : ℕ → Pt K} (hr : Chained h re L q) (hl : Chained h li L q')
    (hf : h.Has f) (hl1 : h.Has l) (hf' : h.Has f') (hl' : h.Has l') (vf : (h.val f).i = q 0) (vl : (h.val l).j = q L)
    (vf' : (h.val f').i = q' 0) (vl' : (h.val l').j = q' L) :
    h.Ext (h.roundSides re li f l f' l').1 ∧
    RoundSides (h.roundSides re li f l f' l').1 (h.roundSides re li f l f' l').2 h.nseg L q q' := by
  unfold Heap.roundSides
  dsimp only
  obtain ⟨xa, a2, a3, a4, a5⟩ := newWalls_joined h hr
  generalize h.newWalls re = a at *
  have xb := a.1.ext_newSegC (a.1.seg l).j (a.1.seg l').j .nonWall
  have vb := a.1.newSegC_val (a.1.seg l).j (a.1.seg l').j .nonWall
  have hb := a.1.newSegC_has (xa.has hl1).j (xa.has hl').j .nonWall
  have nb : (a.1.newSegC (a.1.seg l).j (a.1.seg l').j .nonWall).1.nseg = a.1.nseg + 1 := rfl
  have ib : (a.1.newSegC (a.1.seg l).j (a.1.seg l').j .nonWall).2 = a.1.nseg := rfl
  rw [Heap.pt_j, Heap.pt_j, xa.val hl1, xa.val hl', vl, vl'] at vb
  generalize a.1.newSegC (a.1.seg l).j (a.1.seg l').j .nonWall = b at *
  obtain ⟨xc, c2, c3, c4, c5⟩ := newWalls_joined b.1 (hl.ext (xa.trans xb))
  generalize b.1.newWalls li = c at *
  have xac := (xa.trans xb).trans xc
  have xd := c.1.ext_newSegC (c.1.seg f').i (c.1.seg f).i .nonWall
  have vd := c.1.newSegC_val (c.1.seg f').i (c.1.seg f).i .nonWall
  have hd := c.1.newSegC_has (xac.has hf').i (xac.has hf).i .nonWall
  have id' : (c.1.newSegC (c.1.seg f').i (c.1.seg f).i .nonWall).2 = c.1.nseg := rfl
  rw [Heap.pt_i, Heap.pt_i, xac.val hf', xac.val hf, vf, vf'] at vd
  generalize c.1.newSegC (c.1.seg f').i (c.1.seg f).i .nonWall = d at *
  have xbd := xc.trans xd
  have xad := xb.trans xbd
  refine ⟨xac.trans xd, ?_, ?_, ?_, ?_, ?_, ?_⟩
  · rw [a2, ib, c2, id', c3, nb, a3]
    have e : 2 * L + 2 = L + (1 + (L + 1)) := by ring
    rw [e, ← List.range'_append_1, ← List.range'_append_1, ← List.range'_append_1]
    simp only [List.range'_one, List.append_assoc]
  · intro k hk
    rcases Nat.lt_or_ge k L with h1 | h1
    · exact xad.has (a5 k h1)
    rcases Nat.eq_or_lt_of_le h1 with h2 | h2
    · rw [ib, a3] at hb
      rw [← h2]
      exact xbd.has hb
    rcases Nat.lt_or_ge k (2 * L + 1) with h3 | h3
    · have := xd.has (c5 (k - L - 1) (by omega))
      rw [nb, a3] at this
      exact (by omega : h.nseg + L + 1 + (k - L - 1) = h.nseg + k) ▸ this
    · rw [id', c3, nb, a3] at hd
      exact (by omega : h.nseg + L + 1 + L = h.nseg + k) ▸ hd
  · intro k hk
    rw [xad.val (a5 k hk)]
    exact a4 k hk
  · rw [ib, a3] at vb hb
    rw [xbd.val hb]
    exact vb
  · intro k hk
    have e := c4 k hk
    have e' := c5 k hk
    rw [nb, a3] at e e'
    rw [xd.val e']
    exact e
  · rw [id', c3, nb, a3] at vd
    exact (by omega : h.nseg + L + 1 + L = h.nseg + 2 * L + 1) ▸ vd

theorem Chained.endOf_lt {h : Heap K} {l : List ℕ} {n : ℕ} {q : ℕ → Pt K} (j : Chained h l n q) {x : ℕ} (hx : EndOf h l x) :
    x < h.npt ∧ ∃ k ≤ n, h.pt x = q k := by
  obtain ⟨s, hs, hx⟩ := hx
  have ha := j.has s hs
  refine ⟨by rcases hx with rfl | rfl; exacts [ha.i, ha.j], ?_⟩
  refine j.mem_locs (p := h.pt x) ⟨s, hs, ?_⟩
  rcases hx with rfl | rfl
  exacts [Or.inl rfl, Or.inr rfl]

/-- one more segment to a new Point -/
theorem newEnd_spec (h : Heap K) {l : List ℕ} {n : ℕ} {q : ℕ → Pt K} (j : Chained h l n q) (sh : SharesPoints h l) {p : Pt K}
    (hp : ∀ k ≤ n, q k ≠ p) {e : ℕ} (he : EndOf h l e) (g : Heap K) (hpt : g.pt = Function.update h.pt h.npt p) (hnp : g.npt = h.npt + 1)
    (hns : g.nseg = h.nseg + 1) (hsg : ∀ s < h.nseg, g.seg s = h.seg s)
    (hnew : g.seg h.nseg = ⟨e, h.npt, .line⟩ ∨ g.seg h.nseg = ⟨h.npt, e, .line⟩) :
    h.Ext g ∧ g.Has h.nseg ∧ ∀ l', (∀ s ∈ l', s ∈ l ∨ s = h.nseg) → SharesPoints g l' := by
  obtain ⟨e1, k, hk, e2⟩ := j.endOf_lt he
  have x : h.Ext g := ⟨by omega, by omega, fun y hy => by rw [hpt, Function.update_of_ne (by omega)], hsg⟩
  refine ⟨x, ?_, ?_⟩
  · rcases hnew with hn | hn
    · exact ⟨by omega, by rw [hn]; dsimp only; omega, by rw [hn]; dsimp only; omega⟩
    · exact ⟨by omega, by rw [hn]; dsimp only; omega, by rw [hn]; dsimp only; omega⟩
  · intro l' hl'
    have key : ∀ y, EndOf g l' y → EndOf h l y ∨ y = h.npt := by
      rintro y ⟨s, hs, hy⟩
      rcases hl' s hs with hs | rfl
      · rw [x.seg s (j.has s hs).seg] at hy
        exact Or.inl ⟨s, hs, hy⟩
      · rcases hnew with hn | hn
        · rw [hn] at hy
          rcases hy with rfl | rfl
          exacts [Or.inl he, Or.inr rfl]
        · rw [hn] at hy
          rcases hy with rfl | rfl
          exacts [Or.inr rfl, Or.inl he]
    have pn : g.pt h.npt = p := by rw [hpt, Function.update_self]
    intro a b ha hb e
    rcases key a ha with ha | rfl
    · obtain ⟨a1, ka, hka, a2⟩ := j.endOf_lt ha
      rcases key b hb with hb | rfl
      · obtain ⟨b1, -⟩ := j.endOf_lt hb
        rw [x.pt a a1, x.pt b b1] at e
        exact sh a b ha hb e
      · rw [x.pt a a1, pn, a2] at e
        exact absurd e (hp ka hka)
    · rcases key b hb with hb | rfl
      · obtain ⟨b1, kb, hkb, b2⟩ := j.endOf_lt hb
        rw [x.pt b b1, pn, b2] at e
        exact absurd e.symm (hp kb hkb)
      · rfl

/-- the right side with the cut above -/
theorem krempeAbove_spec (h : Heap K) {segs : List ℕ} {l n : ℕ} {q : ℕ → Pt K} (j : Chained h segs n q) (sh : SharesPoints h segs)
    (hl : segs.getLast? = some l) (hn : 0 < n) (op : Option (Pt K)) (hp : ∀ p ∈ op, ∀ k ≤ n, q k ≠ p) :
    ∃ n' q', n ≤ n' ∧ h.Ext (h.krempeAbove segs l op).1 ∧ Chained (h.krempeAbove segs l op).1 (h.krempeAbove segs l op).2 n' q' ∧
      SharesPoints (h.krempeAbove segs l op).1 (h.krempeAbove segs l op).2 ∧
      (List.range (n' + 1)).map q' = (List.range (n + 1)).map q ++ op.toList ∧
      (h.krempeAbove segs l op).2.head? = segs.head? := by
  cases op with
  | none => exact ⟨n, q, le_rfl, .refl _, j, sh, by simp, rfl⟩
  | some p =>
    have hlm : l ∈ segs := List.mem_of_getLast? hl
    have hll : ∃ h0 : n - 1 < segs.length, segs[n - 1] = l := by
      rw [List.getLast?_eq_getElem?, j.len] at hl
      exact List.getElem?_eq_some_iff.1 hl
    obtain ⟨x, y, z⟩ := newEnd_spec h j sh (hp p rfl) (e := (h.seg l).j) ⟨l, hlm, Or.inr rfl⟩ (h.krempeAbove segs l (some p)).1 rfl rfl rfl
      (fun s hs => Function.update_of_ne (by exact hs.ne) _ _) (Or.inl (Function.update_self _ _ _))
    have e2 : (h.krempeAbove segs l (some p)).2 = segs ++ [h.nseg] := rfl
    have hv : (h.krempeAbove segs l (some p)).1.val h.nseg = ⟨q n, p, .line⟩ := by
      have hs : (h.krempeAbove segs l (some p)).1.seg h.nseg = ⟨(h.seg l).j, h.npt, .line⟩ := Function.update_self _ _ _
      unfold Heap.val
      rw [hs]
      dsimp only
      have p1 : (h.krempeAbove segs l (some p)).1.pt h.npt = p := Function.update_self _ _ _
      rw [x.pt _ (j.has l hlm).j, p1]
      obtain ⟨h0, rfl⟩ := hll
      have := (j.val (n - 1) h0).2
      rw [show n - 1 + 1 = n by omega] at this
      rw [← this]
      rfl
    refine ⟨n + 1, fun k => if k ≤ n then q k else p, by omega, x, ⟨?_, ?_, ?_⟩, z _ ?_, ?_, ?_⟩
    · rw [e2]; simp [j.len]
    · intro s hs
      rw [e2] at hs
      rcases List.mem_append.1 hs with hs | hs
      · exact x.has (j.has s hs)
      · rw [List.mem_singleton.1 hs]; exact y
    · intro k hk
      simp only [e2] at hk ⊢
      rw [List.length_append, j.len] at hk
      simp only [List.length_cons, List.length_nil] at hk
      rcases Nat.lt_or_ge k n with h1 | h1
      · have hk' : k < segs.length := by rw [j.len]; exact h1
        rw [List.getElem_append_left hk', x.val (j.has _ (List.getElem_mem hk')), if_pos h1.le, if_pos (by omega)]
        exact j.val k hk'
      · have : k = n := by omega
        subst this
        rw [List.getElem_append_right (by rw [j.len])]
        simp only [j.len, Nat.sub_self, List.getElem_cons_zero]
        rw [hv, if_pos le_rfl, if_neg (by omega)]
        exact ⟨rfl, rfl⟩
    · intro s hs
      rw [e2] at hs
      rcases List.mem_append.1 hs with hs | hs
      exacts [Or.inl hs, Or.inr (List.mem_singleton.1 hs)]
    · rw [List.range_succ, List.map_append]
      congr 1
      · apply List.map_congr_left
        intro k hk
        rw [if_pos (by have := List.mem_range.1 hk; omega)]
      · simp
    · rw [e2]
      have := j.len
      match segs, this with
      | [], h0 => simp at h0; omega
      | _ :: _, _ => rfl

/-- the right side with the cut below -/
theorem krempeBelow_spec (h : Heap K) {segs : List ℕ} {f n : ℕ} {q : ℕ → Pt K} (j : Chained h segs n q) (sh : SharesPoints h segs)
    (hf : segs.head? = some f) (op : Option (Pt K)) (hp : ∀ p ∈ op, ∀ k ≤ n, q k ≠ p) :
    ∃ n' q', n ≤ n' ∧ h.Ext (h.krempeBelow segs f op).1 ∧ Chained (h.krempeBelow segs f op).1 (h.krempeBelow segs f op).2 n' q' ∧
      SharesPoints (h.krempeBelow segs f op).1 (h.krempeBelow segs f op).2 ∧
      (List.range (n' + 1)).map q' = op.toList ++ (List.range (n + 1)).map q := by
  cases op with
  | none => exact ⟨n, q, le_rfl, .refl _, j, sh, by simp⟩
  | some p =>
    have hfm : f ∈ segs := List.mem_of_head? hf
    obtain ⟨x, y, z⟩ := newEnd_spec h j sh (hp p rfl) (e := (h.seg f).i) ⟨f, hfm, Or.inl rfl⟩ (h.krempeBelow segs f (some p)).1 rfl rfl rfl
      (fun s hs => Function.update_of_ne (by exact hs.ne) _ _) (Or.inr (Function.update_self _ _ _))
    have e2 : (h.krempeBelow segs f (some p)).2 = h.nseg :: segs := rfl
    have hv : (h.krempeBelow segs f (some p)).1.val h.nseg = ⟨p, q 0, .line⟩ := by
      have hs : (h.krempeBelow segs f (some p)).1.seg h.nseg = ⟨h.npt, (h.seg f).i, .line⟩ := Function.update_self _ _ _
      unfold Heap.val
      rw [hs]
      dsimp only
      have p1 : (h.krempeBelow segs f (some p)).1.pt h.npt = p := Function.update_self _ _ _
      rw [x.pt _ (j.has f hfm).i, p1]
      match segs, hf, j with
      | f' :: t, hf, j =>
        have : f' = f := by simpa using hf
        subst this
        have := (j.val 0 (by simp)).1
        rw [← this]
        rfl
    refine ⟨n + 1, fun k => match k with | 0 => p | k + 1 => q k, by omega, x, ⟨?_, ?_, ?_⟩, z _ ?_, ?_⟩
    · rw [e2]; simp [j.len]
    · intro s hs
      rw [e2] at hs
      rcases List.mem_cons.1 hs with rfl | hs
      · exact y
      · exact x.has (j.has s hs)
    · intro k hk
      simp only [e2] at hk ⊢
      cases k with
      | zero =>
        rw [List.getElem_cons_zero, hv]
        exact ⟨rfl, rfl⟩
      | succ k =>
        have hk' : k < segs.length := by simpa using hk
        rw [List.getElem_cons_succ, x.val (j.has _ (List.getElem_mem hk'))]
        exact j.val k hk'
    · intro s hs
      rw [e2] at hs
      rcases List.mem_cons.1 hs with rfl | hs
      exacts [Or.inr rfl, Or.inl hs]
    · rw [List.range_succ_eq_map, List.map_cons, List.map_map]
      rfl

/-- what `make_segments` makes for `r > 0`; `q 0`, ..., `q L` are the points of the right side from below -/
structure RoundMade (R : Rt K) (h g : Heap K) (k o : ShellObj K) (u : Under K) (w : KrempeRes K) (L : ℕ) (q : ℕ → Pt K) : Prop where
  ext : h.Ext g
  sides : ∃ n, h.nseg ≤ n ∧ RoundSides g w.segs n L q (fun k => mirrored R o.dim.posH (q k)) ∧
    (∀ s ∈ w.kegel.line.segs ++ w.oben.line.segs, s < n) ∧ (∀ v, w.unten = some v → ∀ s ∈ v.line.segs, s < n)
  oben : Made g w.oben (outline (R.mkPt (q L).x (q L).y) (R.mantelCorner o.dim 1) (R.mantelCorner o.dim 2)
    (R.mkPt (mirrored R o.dim.posH (q L)).x (mirrored R o.dim.posH (q L)).y) .nonWall)
  kegel : u ≠ .kegel → Made g w.kegel (outline (R.mantelCorner k.dim 0) (R.mkPt (q 0).x (q 0).y)
    (R.mkPt (mirrored R o.dim.posH (q 0)).x (mirrored R o.dim.posH (q 0)).y) (R.mantelCorner k.dim 3) .nonWall)
  alias' : u = .kegel → Made g w.kegel (outline (R.mantelCorner k.dim 0) (R.mkPt (q (L - 1)).x (q (L - 1)).y)
    (R.mkPt (mirrored R o.dim.posH (q (L - 1))).x (mirrored R o.dim.posH (q (L - 1))).y) (R.mantelCorner k.dim 3)
      (if k.skirt then .wall else .nonWall))
  unten : ∀ v, u = .shell v → ∃ v', w.unten = some v' ∧ v'.dim = v.dim ∧ Made g v' (outline (R.mantelCorner v.dim 0)
    (R.mkPt (q (L - 1)).x (q (L - 1)).y) (R.mkPt (mirrored R o.dim.posH (q (L - 1))).x (mirrored R o.dim.posH (q (L - 1))).y)
      (R.mantelCorner v.dim 3) (if v.skirt then .wall else .nonWall))
  dims : w.kegel.dim = k.dim ∧ w.oben.dim = o.dim

theorem Chained.first {h : Heap K} {l : List ℕ} {n f : ℕ} {q : ℕ → Pt K} (j : Chained h l n q) (hf : l.head? = some f) :
    h.Has f ∧ (h.val f).i = q 0 := by
  match l, hf, j with
  | f' :: t, hf, j =>
    have : f' = f := by simpa using hf
    subst this
    exact ⟨j.has _ (by simp), (j.val 0 (by simp)).1⟩

theorem Chained.last {h : Heap K} {l : List ℕ} {n e : ℕ} {q : ℕ → Pt K} (j : Chained h l n q) (hn : 0 < n) (hf : l.getLast? = some e) :
    h.Has e ∧ (h.val e).j = q n ∧ (h.val e).i = q (n - 1) := by
  rw [List.getLast?_eq_getElem?, j.len] at hf
  obtain ⟨h0, rfl⟩ := List.getElem?_eq_some_iff.1 hf
  have := j.val (n - 1) h0
  rw [show n - 1 + 1 = n by omega] at this
  exact ⟨j.has _ (List.getElem_mem h0), this.2, this.1⟩

theorem roundSegs_spec {R : Rt K} (hR : R.IsRounding) (h : Heap K) (r hO hU : K) (k o : ShellObj K) (u : Under K)
    {s0 t0 : ℕ} {ks os : List ℕ} (hk : k.line.segs = s0 :: ks) (ho : o.line.segs = t0 :: os) (h1 : h.Has s0) (ht : h.Has t0)
    {c : Heap K} {P : PLine} (hr : R.krempeRight h r hO hU k o = .ok (c, P)) (xc : h.Ext c) {L : ℕ} {q : ℕ → Pt K} (hL : 0 < L)
    (j : Chained c P.segs L q) (sh : SharesPoints c P.segs)
    (hap : ∀ i j, i ≤ L → j ≤ L → i ≠ j → R.tol ≤ |(q i).x - (q j).x| ∨ R.tol ≤ |(q i).y - (q j).y|)
    (hq : ∀ i < L, q i ≠ q (i + 1)) :
    (((R.krempeOn (h.val s0) (q 0) || R.krempeOn (h.val s0) (q L)) && (R.krempeOn (h.val t0) (q 0) || R.krempeOn (h.val t0) (q L))) = false →
      R.roundSegs h r hO hU k o u = .error .assertion) ∧
    (((R.krempeOn (h.val s0) (q 0) || R.krempeOn (h.val s0) (q L)) && (R.krempeOn (h.val t0) (q 0) || R.krempeOn (h.val t0) (q L))) = true →
      ∃ g w, R.roundSegs h r hO hU k o u = .ok (g, w) ∧ RoundMade R h g k o u w L q) := by
  have hdef := (rfl : R.roundSegs h r hO hU k o u = R.roundSegs h r hO hU k o u)
  conv_rhs at hdef => unfold Rt.roundSegs
  rw [hr] at hdef
  dsimp only at hdef
  obtain ⟨f, hf⟩ : ∃ f, P.segs.head? = some f := by
    have := j.len
    match P.segs, this with
    | [], h0 => simp at h0; omega
    | f :: _, _ => exact ⟨f, rfl⟩
  obtain ⟨l, hl⟩ : ∃ l, P.segs.getLast? = some l := by
    have := j.len
    match P.segs, this with
    | [], h0 => simp at h0; omega
    | a :: b, _ => exact ⟨_, List.getLast?_cons⟩
  obtain ⟨f1, f2⟩ := j.first hf
  obtain ⟨l1, l2, l3⟩ := j.last hL hl
  rw [hf, hl, hk, ho] at hdef
  dsimp only at hdef
  rw [f2, l2, xc.val h1, xc.val ht] at hdef
  constructor
  · intro hc
    rw [hc] at hdef
    simpa using hdef
  intro hc
  rw [hc] at hdef
  simp only [Bool.not_true, Bool.false_eq_true, if_false] at hdef
  obtain ⟨xm, jm⟩ := mirrorList_spec hR c j sh hap hq o.dim.posH
  have hf' : (P.segs.map (· + c.nseg)).head? = some (f + c.nseg) := by rw [List.head?_map, hf]; rfl
  have hl' : (P.segs.map (· + c.nseg)).getLast? = some (l + c.nseg) := by rw [List.getLast?_map, hl]; rfl
  generalize (R.plMirror c.deepcopy ⟨P.segs.map (· + c.nseg), P.purged⟩ o.dim.posH).1 = m at xm jm hdef
  generalize f + c.nseg = f' at hf' hdef
  generalize l + c.nseg = l' at hl' hdef
  generalize P.segs.map (· + c.nseg) = li at hf' hl' jm hdef
  obtain ⟨f1', f2'⟩ := jm.first hf'
  obtain ⟨l1', l2', l3'⟩ := jm.last hL hl'
  have j2 := j.ext xm
  clear sh hq hap
  have hxm := xc.trans xm
  obtain ⟨f1, f2⟩ := j2.first hf
  obtain ⟨l1, l2, l3⟩ := j2.last hL hl
  rw [l2, l2'] at hdef
  obtain ⟨xo, mo, do1, do2⟩ := reshape_spec m o (R.mkPt (q L).x (q L).y) (R.mantelCorner o.dim 1) (R.mantelCorner o.dim 2)
    (R.mkPt (mirrored R o.dim.posH (q L)).x (mirrored R o.dim.posH (q L)).y) .nonWall
  change m.Ext (R.reshapeOben m o (q L) (mirrored R o.dim.posH (q L))).1 at xo
  change Made (R.reshapeOben m o (q L) (mirrored R o.dim.posH (q L))).1 (R.reshapeOben m o (q L) (mirrored R o.dim.posH (q L))).2 _ at mo
  change (R.reshapeOben m o (q L) (mirrored R o.dim.posH (q L))).2.dim = _ at do1
  generalize R.reshapeOben m o (q L) (mirrored R o.dim.posH (q L)) = no at xo mo do1 hdef
  rw [xo.val f1, xo.val f1', f2, f2'] at hdef
  obtain ⟨xk, mk, dk1, dk2⟩ := reshape_spec no.1 k (R.mantelCorner k.dim 0) (R.mkPt (q 0).x (q 0).y)
    (R.mkPt (mirrored R o.dim.posH (q 0)).x (mirrored R o.dim.posH (q 0)).y) (R.mantelCorner k.dim 3) .nonWall
  change no.1.Ext (R.reshapeUnten no.1 k (q 0) (mirrored R o.dim.posH (q 0)) .nonWall).1 at xk
  change Made (R.reshapeUnten no.1 k (q 0) (mirrored R o.dim.posH (q 0)) .nonWall).1 (R.reshapeUnten no.1 k (q 0) (mirrored R o.dim.posH (q 0)) .nonWall).2 _ at mk
  change (R.reshapeUnten no.1 k (q 0) (mirrored R o.dim.posH (q 0)) .nonWall).2.dim = _ at dk1
  change (R.reshapeUnten no.1 k (q 0) (mirrored R o.dim.posH (q 0)) .nonWall).2.skirt = _ at dk2
  generalize R.reshapeUnten no.1 k (q 0) (mirrored R o.dim.posH (q 0)) .nonWall = nk at xk mk dk1 dk2 hdef
  have xmk := xo.trans xk
  rw [xmk.val l1, xmk.val l1', l3, l3'] at hdef
  have fin : ∀ nu : Heap K, m.Ext nu → nu.Ext (nu.roundSides P.segs li f l f' l').1 ∧
      RoundSides (nu.roundSides P.segs li f l f' l').1 (nu.roundSides P.segs li f l f' l').2 nu.nseg L q fun k => mirrored R o.dim.posH (q k) := by
    intro nu xu
    exact roundSides_spec nu (j2.ext xu) (jm.ext xu) (xu.has f1) (xu.has l1) (xu.has f1') (xu.has l1')
      (by rw [xu.val f1]; exact f2) (by rw [xu.val l1]; exact l2) (by rw [xu.val f1']; exact f2') (by rw [xu.val l1']; exact l2')
  cases u with
  | none =>
    dsimp only at hdef
    obtain ⟨xs, ss⟩ := fin nk.1 xmk
    refine ⟨_, _, hdef, hxm.trans (xmk.trans xs), ⟨nk.1.nseg, (hxm.trans xmk).nseg, ss, ?_, ?_⟩, (mo.ext xk).ext xs, fun _ => mk.ext xs, ?_, ?_, dk1, do1⟩
    · intro s hs
      rcases List.mem_append.1 hs with hs | hs
      · exact (mk.has s hs).seg
      · exact ((mo.ext xk).has s hs).seg
    · intro v hv
      cases hv
    · intro e
      cases e
    · intro v e
      cases e
  | kegel =>
    dsimp only at hdef
    rw [dk2] at hdef
    obtain ⟨xu, mu, du1, du2⟩ := reshape_spec nk.1 nk.2 (R.mantelCorner nk.2.dim 0) (R.mkPt (q (L - 1)).x (q (L - 1)).y)
      (R.mkPt (mirrored R o.dim.posH (q (L - 1))).x (mirrored R o.dim.posH (q (L - 1))).y) (R.mantelCorner nk.2.dim 3) (if k.skirt = true then .wall else .nonWall)
    change nk.1.Ext (R.reshapeUnten nk.1 nk.2 (q (L - 1)) (mirrored R o.dim.posH (q (L - 1))) (if k.skirt = true then .wall else .nonWall)).1 at xu
    change Made (R.reshapeUnten nk.1 nk.2 (q (L - 1)) (mirrored R o.dim.posH (q (L - 1))) (if k.skirt = true then .wall else .nonWall)).1
      (R.reshapeUnten nk.1 nk.2 (q (L - 1)) (mirrored R o.dim.posH (q (L - 1))) (if k.skirt = true then .wall else .nonWall)).2 _ at mu
    change (R.reshapeUnten nk.1 nk.2 (q (L - 1)) (mirrored R o.dim.posH (q (L - 1))) (if k.skirt = true then .wall else .nonWall)).2.dim = _ at du1
    generalize R.reshapeUnten nk.1 nk.2 (q (L - 1)) (mirrored R o.dim.posH (q (L - 1))) (if k.skirt = true then .wall else .nonWall) = nu at xu mu du1 hdef
    have xmu := xmk.trans xu
    obtain ⟨xs, ss⟩ := fin nu.1 xmu
    rw [dk1] at mu du1
    refine ⟨_, _, hdef, hxm.trans (xmu.trans xs), ⟨nu.1.nseg, (hxm.trans xmu).nseg, ss, ?_, ?_⟩, ((mo.ext xk).ext xu).ext xs, fun e => absurd rfl e,
      fun _ => mu.ext xs, ?_, du1, do1⟩
    · intro s hs
      rcases List.mem_append.1 hs with hs | hs
      · exact (mu.has s hs).seg
      · exact (((mo.ext xk).ext xu).has s hs).seg
    · intro v hv
      cases hv
    · intro v e
      cases e
  | shell v =>
    dsimp only at hdef
    obtain ⟨xu, mu, du1, du2⟩ := reshape_spec nk.1 v (R.mantelCorner v.dim 0) (R.mkPt (q (L - 1)).x (q (L - 1)).y)
      (R.mkPt (mirrored R o.dim.posH (q (L - 1))).x (mirrored R o.dim.posH (q (L - 1))).y) (R.mantelCorner v.dim 3) (if v.skirt = true then .wall else .nonWall)
    change nk.1.Ext (R.reshapeUnten nk.1 v (q (L - 1)) (mirrored R o.dim.posH (q (L - 1))) (if v.skirt = true then .wall else .nonWall)).1 at xu
    change Made (R.reshapeUnten nk.1 v (q (L - 1)) (mirrored R o.dim.posH (q (L - 1))) (if v.skirt = true then .wall else .nonWall)).1
      (R.reshapeUnten nk.1 v (q (L - 1)) (mirrored R o.dim.posH (q (L - 1))) (if v.skirt = true then .wall else .nonWall)).2 _ at mu
    change (R.reshapeUnten nk.1 v (q (L - 1)) (mirrored R o.dim.posH (q (L - 1))) (if v.skirt = true then .wall else .nonWall)).2.dim = _ at du1
    generalize R.reshapeUnten nk.1 v (q (L - 1)) (mirrored R o.dim.posH (q (L - 1))) (if v.skirt = true then .wall else .nonWall) = nu at xu mu du1 hdef
    have xmu := xmk.trans xu
    obtain ⟨xs, ss⟩ := fin nu.1 xmu
    refine ⟨_, _, hdef, hxm.trans (xmu.trans xs), ⟨nu.1.nseg, (hxm.trans xmu).nseg, ss, ?_, ?_⟩, ((mo.ext xk).ext xu).ext xs,
      fun _ => (mk.ext xu).ext xs, fun e => (by cases e), ?_, dk1, do1⟩
    · intro s hs
      rcases List.mem_append.1 hs with hs | hs
      · exact ((mk.ext xu).has s hs).seg
      · exact (((mo.ext xk).ext xu).has s hs).seg
    · intro v' hv s hs
      injection hv with hv
      subst hv
      exact (mu.has s hs).seg
    · intro v' e
      injection e with e
      subst e
      exact ⟨_, rfl, du1, mu.ext xs⟩

end Srep
