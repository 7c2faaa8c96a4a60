import Verif.Lemmas.HeapExt
import Verif.Props.Rigid

/-! The objects `KegelKrempe` makes. -/

set_option linter.unusedSectionVars false

namespace Srep
open Rt
variable {K : Type} [Field K] [LinearOrder K] [IsStrictOrderedRing K] [FloorRing K]

/-- the part has the outline `l`, its graph the walls of it -/
structure Made (g : Heap K) (o : ShellObj K) (l : List (Seg K)) : Prop where
  vals : g.vals o.line.segs = l
  graph : o.graph = g.walls o.line.segs
  has : ∀ s ∈ o.line.segs, g.Has s

theorem walls_congr {h g : Heap K} {l : List ℕ} (e : ∀ s ∈ l, g.seg s = h.seg s) : g.walls l = h.walls l := by
  unfold Heap.walls
  apply List.filter_congr
  intro s hs
  rw [e s hs]

theorem Made.ext {h g : Heap K} {o : ShellObj K} {l : List (Seg K)} (a : h.Ext g) (m : Made h o l) : Made g o l :=
  ⟨(a.vals m.has).trans m.vals, m.graph.trans (walls_congr fun s hs => a.seg s (m.has s hs).seg).symm, fun s hs => a.has (m.has s hs)⟩

theorem reshape_spec (h : Heap K) (o : ShellObj K) (p1 p2 p3 p4 : Pt K) (b : SegCls) :
    h.Ext (h.reshape o p1 p2 p3 p4 b).1 ∧ Made (h.reshape o p1 p2 p3 p4 b).1 (h.reshape o p1 p2 p3 p4 b).2 (outline p1 p2 p3 p4 b) ∧
    (h.reshape o p1 p2 p3 p4 b).2.dim = o.dim ∧ (h.reshape o p1 p2 p3 p4 b).2.skirt = o.skirt := by
  obtain ⟨e1, e2, e3, -⟩ := h.newOutline_spec p1 p2 p3 p4 b
  exact ⟨e1, ⟨e2, rfl, e3⟩, rfl, rfl⟩

theorem krempeSides_spec (h : Heap K) {re0 re1 li0 li1 : ℕ} (h0 : h.Has re0) (h1 : h.Has re1) (h2 : h.Has li0) (h3 : h.Has li1) :
    h.Ext (h.krempeSides re0 re1 li0 li1).1 ∧
    (h.krempeSides re0 re1 li0 li1).2 = [h.nseg, h.nseg + 1, h.nseg + 2, h.nseg + 3, h.nseg + 4, h.nseg + 5] ∧
    (h.krempeSides re0 re1 li0 li1).1.val h.nseg = ⟨(h.val re0).i, (h.val re0).j, .wall⟩ ∧
    (h.krempeSides re0 re1 li0 li1).1.val (h.nseg + 1) = ⟨(h.val re1).i, (h.val re1).j, .wall⟩ ∧
    (h.krempeSides re0 re1 li0 li1).1.val (h.nseg + 2) = ⟨(h.val re1).j, (h.val li1).j, .nonWall⟩ ∧
    (h.krempeSides re0 re1 li0 li1).1.val (h.nseg + 3) = ⟨(h.val li1).i, (h.val li1).j, .wall⟩ ∧
    (h.krempeSides re0 re1 li0 li1).1.val (h.nseg + 4) = ⟨(h.val li0).i, (h.val li0).j, .wall⟩ ∧
    (h.krempeSides re0 re1 li0 li1).1.val (h.nseg + 5) = ⟨(h.val li0).i, (h.val re0).i, .nonWall⟩ ∧
    ∀ k < 6, (h.krempeSides re0 re1 li0 li1).1.Has (h.nseg + k) := by
  have e0 := h0.seg.ne
  have e1 := h1.seg.ne
  have e2 := h2.seg.ne
  have e3 := h3.seg.ne
  have f0 : ∀ n, re0 ≠ h.nseg + n := fun n => by have := h0.seg; omega
  have f1 : ∀ n, re1 ≠ h.nseg + n := fun n => by have := h1.seg; omega
  have f2 : ∀ n, li0 ≠ h.nseg + n := fun n => by have := h2.seg; omega
  have f3 : ∀ n, li1 ≠ h.nseg + n := fun n => by have := h3.seg; omega
  refine ⟨?_, rfl, ?_, ?_, ?_, ?_, ?_, ?_, ?_⟩
  · unfold Heap.krempeSides
    exact (((((h.ext_newSegC _ _ _).trans (Heap.ext_newSegC _ _ _ _)).trans (Heap.ext_newSegC _ _ _ _)).trans
      (Heap.ext_newSegC _ _ _ _)).trans (Heap.ext_newSegC _ _ _ _)).trans (Heap.ext_newSegC _ _ _ _)
  · simp [Heap.krempeSides, Heap.newSegC, Heap.val, Function.update_apply, Nat.add_assoc, e0, e1, e2, e3, f0, f1, f2, f3]
  · simp [Heap.krempeSides, Heap.newSegC, Heap.val, Function.update_apply, Nat.add_assoc, e0, e1, e2, e3, f0, f1, f2, f3]
  · simp [Heap.krempeSides, Heap.newSegC, Heap.val, Function.update_apply, Nat.add_assoc, e0, e1, e2, e3, f0, f1, f2, f3]
  · simp [Heap.krempeSides, Heap.newSegC, Heap.val, Function.update_apply, Nat.add_assoc, e0, e1, e2, e3, f0, f1, f2, f3]
  · simp [Heap.krempeSides, Heap.newSegC, Heap.val, Function.update_apply, Nat.add_assoc, e0, e1, e2, e3, f0, f1, f2, f3]
  · simp [Heap.krempeSides, Heap.newSegC, Heap.val, Function.update_apply, Nat.add_assoc, e0, e1, e2, e3, f0, f1, f2, f3]
  · intro k hk
    have hs : (h.krempeSides re0 re1 li0 li1).1.nseg = h.nseg + 6 := rfl
    have hp : (h.krempeSides re0 re1 li0 li1).1.npt = h.npt := rfl
    have a0 := h0.i
    have a1 := h0.j
    have a2 := h1.i
    have a3 := h1.j
    have a4 := h2.i
    have a5 := h2.j
    have a6 := h3.i
    have a7 := h3.j
    refine ⟨by omega, ?_, ?_⟩ <;> rw [hp] <;>
    · rcases (by omega : k = 0 ∨ k = 1 ∨ k = 2 ∨ k = 3 ∨ k = 4 ∨ k = 5) with rfl | rfl | rfl | rfl | rfl | rfl <;>
      simp [Heap.krempeSides, Heap.newSegC, Function.update_apply, Nat.add_assoc, e0, e1, e2, e3, f0, f1, f2, f3] <;> assumption

/-- copying and mirroring the two segments of the right side -/
theorem mirrorCopy_spec {R : Rt K} (hR : R.IsRounding) (h : Heap K) {a b : ℕ} (ha : h.Has a) (hb : h.Has b)
    {p q r : Pt K} {ca cb : SegCls} (va : h.val a = ⟨p, q, ca⟩) (vb : h.val b = ⟨q, r, cb⟩) (hpq : p ≠ q) (hqr : q ≠ r)
    (hap : Apart R.tol {x | x = p ∨ x = q ∨ x = r}) (x0 : K) :
    let m := (R.plMirror h.deepcopy ⟨[a + h.nseg, b + h.nseg], false⟩ x0).1
    h.Ext m ∧ m.Has (a + h.nseg) ∧ m.Has (b + h.nseg) ∧
    m.val (a + h.nseg) = ⟨mirrored R x0 p, mirrored R x0 q, ca⟩ ∧ m.val (b + h.nseg) = ⟨mirrored R x0 q, mirrored R x0 r, cb⟩ := by
  intro m
  have da := (deepcopy_val h a ha.seg ⟨ha.i, ha.j⟩).2
  have db := (deepcopy_val h b hb.seg ⟨hb.i, hb.j⟩).2
  have sa : h.deepcopy.seg (a + h.nseg) = ⟨(h.seg a).i + h.npt, (h.seg a).j + h.npt, (h.seg a).cls⟩ := by simp [Heap.deepcopy]
  have sb : h.deepcopy.seg (b + h.nseg) = ⟨(h.seg b).i + h.npt, (h.seg b).j + h.npt, (h.seg b).cls⟩ := by simp [Heap.deepcopy]
  have hends : ∀ x, EndOf h.deepcopy [a + h.nseg, b + h.nseg] x → h.npt ≤ x ∧ x < h.npt + h.npt := by
    rintro x ⟨s, hs, hx⟩
    have := ha.i
    have := ha.j
    have := hb.i
    have := hb.j
    simp only [List.mem_cons, List.not_mem_nil, or_false] at hs
    rcases hs with rfl | rfl
    · rw [sa] at hx
      dsimp only at hx
      omega
    · rw [sb] at hx
      dsimp only at hx
      omega
  have hr : Ready h.deepcopy ⟨[a + h.nseg, b + h.nseg], false⟩ := by
    refine Or.inr ⟨rfl, ?_⟩
    intro s hs
    simp only [List.mem_cons, List.not_mem_nil, or_false] at hs
    rcases hs with rfl | rfl
    · rw [da, va]; exact hpq
    · rw [db, vb]; exact hqr
  have hap' : Apart R.tol (locs h.deepcopy [a + h.nseg, b + h.nseg]) := by
    have : ∀ x ∈ locs h.deepcopy [a + h.nseg, b + h.nseg], x = p ∨ x = q ∨ x = r := by
      rintro x ⟨s, hs, hx⟩
      simp only [List.mem_cons, List.not_mem_nil, or_false] at hs
      rcases hs with rfl | rfl
      · rw [da, va] at hx
        rcases hx with rfl | rfl <;> simp
      · rw [db, vb] at hx
        rcases hx with rfl | rfl <;> simp
    intro x hx y hy hxy
    exact hap x (this x hx) y (this y hy) hxy
  obtain ⟨-, m2, m3, m4⟩ := C86_mirror_once hR h.deepcopy ⟨[a + h.nseg, b + h.nseg], false⟩ hr hap' x0
  obtain ⟨b1, b2, b3⟩ := write_bound R (mirrored R x0) (fun x => x < h.npt + h.npt) h.deepcopy ⟨[a + h.nseg, b + h.nseg], false⟩
    (fun x hx => (hends x hx).2)
  change m.npt = _ at b1
  change m.nseg = _ at b2
  change ∀ x, EndOf m [a + h.nseg, b + h.nseg] x → _ at b3
  have hn : h.deepcopy.npt = h.npt + h.npt := rfl
  have hs : h.deepcopy.nseg = h.nseg + h.nseg := rfl
  refine ⟨⟨by omega, by omega, ?_, ?_⟩, ?_, ?_, ?_, ?_⟩
  · intro x hx
    rw [← h.ext_deepcopy.pt x hx]
    exact m3 x fun he => by have := (hends x he).1; omega
  · intro s hs'
    rw [← h.ext_deepcopy.seg s hs']
    refine m4 s ?_
    simp only [List.mem_cons, List.not_mem_nil, or_false]
    omega
  · have := ha.seg
    exact ⟨by omega, by rw [b1]; exact b3 _ ⟨_, by simp, Or.inl rfl⟩, by rw [b1]; exact b3 _ ⟨_, by simp, Or.inr rfl⟩⟩
  · have := hb.seg
    exact ⟨by omega, by rw [b1]; exact b3 _ ⟨b + h.nseg, by simp, Or.inl rfl⟩, by rw [b1]; exact b3 _ ⟨b + h.nseg, by simp, Or.inr rfl⟩⟩
  · have := m2 (a + h.nseg) (by simp)
    rw [da, va] at this
    exact this
  · have := m2 (b + h.nseg) (by simp)
    rw [db, vb] at this
    exact this

/-- what `make_segments` makes, for given cuts: `p`, `q`, `r` are the points of the right side from below -/
structure KrempeMade (R : Rt K) (h g : Heap K) (k o : ShellObj K) (u : Under K) (w : KrempeRes K) (p q r : Pt K) : Prop where
  ext : h.Ext g
  sides : ∃ n, h.nseg ≤ n ∧ w.segs = [n, n + 1, n + 2, n + 3, n + 4, n + 5] ∧ (∀ k < 6, g.Has (n + k)) ∧
    (∀ s ∈ w.kegel.line.segs ++ w.oben.line.segs, s < n) ∧ (∀ v, w.unten = some v → ∀ s ∈ v.line.segs, s < n) ∧
    g.val n = ⟨p, q, .wall⟩ ∧ g.val (n + 1) = ⟨q, r, .wall⟩ ∧
    g.val (n + 2) = ⟨r, mirrored R o.dim.posH r, .nonWall⟩ ∧
    g.val (n + 3) = ⟨mirrored R o.dim.posH q, mirrored R o.dim.posH r, .wall⟩ ∧
    g.val (n + 4) = ⟨mirrored R o.dim.posH p, mirrored R o.dim.posH q, .wall⟩ ∧
    g.val (n + 5) = ⟨mirrored R o.dim.posH p, p, .nonWall⟩
  oben : Made g w.oben (outline (R.mkPt r.x r.y) (R.mantelCorner o.dim 1) (R.mantelCorner o.dim 2)
    (R.mkPt (mirrored R o.dim.posH r).x (mirrored R o.dim.posH r).y) .nonWall)
  kegel : u ≠ .kegel → Made g w.kegel (outline (R.mantelCorner k.dim 0) (R.mkPt p.x p.y)
    (R.mkPt (mirrored R o.dim.posH p).x (mirrored R o.dim.posH p).y) (R.mantelCorner k.dim 3) .nonWall)
  alias' : u = .kegel → Made g w.kegel (outline (R.mantelCorner k.dim 0) (R.mkPt q.x q.y)
    (R.mkPt (mirrored R o.dim.posH q).x (mirrored R o.dim.posH q).y) (R.mantelCorner k.dim 3) (if k.skirt then .wall else .nonWall))
  unten : ∀ v, u = .shell v → ∃ v', w.unten = some v' ∧ v'.dim = v.dim ∧ Made g v' (outline (R.mantelCorner v.dim 0) (R.mkPt q.x q.y)
    (R.mkPt (mirrored R o.dim.posH q).x (mirrored R o.dim.posH q).y) (R.mantelCorner v.dim 3) (if v.skirt then .wall else .nonWall))
  dims : w.kegel.dim = k.dim ∧ w.oben.dim = o.dim

theorem krempeSegs_spec {R : Rt K} (hR : R.IsRounding) (h : Heap K) (hO hU : K) (k o : ShellObj K) (u : Under K)
    {s0 s1 t0 : ℕ} {ks os : List ℕ} (hk : k.line.segs = s0 :: s1 :: ks) (ho : o.line.segs = t0 :: os)
    (h1 : h.Has s1) (ht : h.Has t0) {p q r : Pt K}
    (i0 : R.intersectionPoint (R.krempeCutter (h.vals k.line.segs) o.dim.posV (-hU)) (h.val s0) = some p)
    (i1 : R.intersectionPoint (R.krempeCutter (h.vals o.line.segs) o.dim.posV hO) (h.val t0) = some r)
    (q1 : (h.val s1).i = q) (q0 : (h.val t0).i = q) (hpq : p ≠ q) (hqr : q ≠ r)
    (hap : Apart R.tol {x | x = p ∨ x = q ∨ x = r}) :
    (((R.krempeOn (h.val s0) p || R.krempeOn (h.val s0) r) && (R.krempeOn (h.val t0) p || R.krempeOn (h.val t0) r)) = false →
      R.krempeSegs h hO hU k o u = .error .assertion) ∧
    (((R.krempeOn (h.val s0) p || R.krempeOn (h.val s0) r) && (R.krempeOn (h.val t0) p || R.krempeOn (h.val t0) r)) = true →
      ∃ g w, R.krempeSegs h hO hU k o u = .ok (g, w) ∧ KrempeMade R h g k o u w p q r) := by
  have hdef := (rfl : R.krempeSegs h hO hU k o u = R.krempeSegs h hO hU k o u)
  conv_rhs at hdef => unfold Rt.krempeSegs
  rw [hk, ho] at hdef
  rw [hk] at i0
  rw [ho] at i1
  dsimp only at hdef
  rw [i0, i1] at hdef
  dsimp only at hdef
  constructor
  · intro hc
    rw [hc] at hdef
    simpa using hdef
  intro hc
  rw [hc] at hdef
  simp only [Bool.not_true, Bool.false_eq_true, if_false] at hdef
  -- the two segments of the right side
  have xa := h.ext_newPts [p, r]
  have na : (h.newPts [p, r]).1.npt = h.npt + 2 := rfl
  have pa : (h.newPts [p, r]).1.pt h.npt = p ∧ (h.newPts [p, r]).1.pt (h.npt + 1) = r := by
    simp [Heap.newPts, Heap.newPt, Function.update_apply]
  generalize (h.newPts [p, r]).1 = a at xa na pa hdef
  have hat := xa.has ht
  have vat := xa.val ht
  have x0 := a.ext_newSegC h.npt (a.seg t0).i .line
  have y0 := a.newSegC_has (i := h.npt) (by omega) hat.i .line
  have v0 := a.newSegC_val h.npt (a.seg t0).i .line
  have v0' : a.pt (a.seg t0).i = q := by
    rw [← q0, ← vat]
    rfl
  rw [pa.1, v0'] at v0
  have n0 : (a.newSegC h.npt (a.seg t0).i .line).1.npt = a.npt := rfl
  have p0 : (a.newSegC h.npt (a.seg t0).i .line).1.pt = a.pt := rfl
  generalize a.newSegC h.npt (a.seg t0).i .line = re0 at x0 y0 v0 n0 p0 hdef
  have hb1 := (xa.trans x0).has h1
  have vb1 := (xa.trans x0).val h1
  have x1 := re0.1.ext_newSegC (re0.1.seg s1).i (h.npt + 1) .line
  have y1 := re0.1.newSegC_has (j := h.npt + 1) hb1.i (by omega) .line
  have v1 := re0.1.newSegC_val (re0.1.seg s1).i (h.npt + 1) .line
  have v1' : re0.1.pt (re0.1.seg s1).i = q := by
    rw [← q1, ← vb1]
    rfl
  rw [v1', p0, pa.2] at v1
  generalize re0.1.newSegC (re0.1.seg s1).i (h.npt + 1) .line = re1 at x1 y1 v1 hdef
  have z0 := x1.has y0
  have w0 := (x1.val y0).trans v0
  obtain ⟨xm, ym0, ym1, vm0, vm1⟩ := mirrorCopy_spec hR re1.1 z0 y1 w0 v1 hpq hqr hap o.dim.posH
  generalize (R.plMirror re1.1.deepcopy ⟨[re0.2 + re1.1.nseg, re1.2 + re1.1.nseg], false⟩ o.dim.posH).1 = m at xm ym0 ym1 vm0 vm1 hdef
  generalize re0.2 + re1.1.nseg = li0 at ym0 vm0 hdef
  generalize re1.2 + re1.1.nseg = li1 at ym1 vm1 hdef
  have zr0 := xm.has z0
  have zr1 := xm.has y1
  have wr0 := (xm.val z0).trans w0
  have wr1 := (xm.val y1).trans v1
  have hxm := xa.trans (x0.trans (x1.trans xm))
  generalize re0.2 = r0 at zr0 wr0 hdef
  generalize re1.2 = r1 at zr1 wr1 hdef
  -- the parts
  have e1 : (m.val r1).j = r := by rw [wr1]
  have e2 : (m.val li1).j = mirrored R o.dim.posH r := by rw [vm1]
  rw [e1, e2] at hdef
  obtain ⟨xo, mo, do1, do2⟩ := reshape_spec m o (R.mkPt r.x r.y) (R.mantelCorner o.dim 1) (R.mantelCorner o.dim 2)
    (R.mkPt (mirrored R o.dim.posH r).x (mirrored R o.dim.posH r).y) .nonWall
  change m.Ext (R.reshapeOben m o r (mirrored R o.dim.posH r)).1 at xo
  change Made (R.reshapeOben m o r (mirrored R o.dim.posH r)).1 (R.reshapeOben m o r (mirrored R o.dim.posH r)).2 _ at mo
  change (R.reshapeOben m o r (mirrored R o.dim.posH r)).2.dim = _ at do1
  generalize R.reshapeOben m o r (mirrored R o.dim.posH r) = no at xo mo do1 hdef
  have e3 : (no.1.val r0).i = p := by rw [xo.val zr0, wr0]
  have e4 : (no.1.val li0).i = mirrored R o.dim.posH p := by rw [xo.val ym0, vm0]
  rw [e3, e4] at hdef
  obtain ⟨xk, mk, dk1, dk2⟩ := reshape_spec no.1 k (R.mantelCorner k.dim 0) (R.mkPt p.x p.y)
    (R.mkPt (mirrored R o.dim.posH p).x (mirrored R o.dim.posH p).y) (R.mantelCorner k.dim 3) .nonWall
  change no.1.Ext (R.reshapeUnten no.1 k p (mirrored R o.dim.posH p) .nonWall).1 at xk
  change Made (R.reshapeUnten no.1 k p (mirrored R o.dim.posH p) .nonWall).1 (R.reshapeUnten no.1 k p (mirrored R o.dim.posH p) .nonWall).2 _ at mk
  change (R.reshapeUnten no.1 k p (mirrored R o.dim.posH p) .nonWall).2.dim = _ at dk1
  change (R.reshapeUnten no.1 k p (mirrored R o.dim.posH p) .nonWall).2.skirt = _ at dk2
  generalize R.reshapeUnten no.1 k p (mirrored R o.dim.posH p) .nonWall = nk at xk mk dk1 dk2 hdef
  have xmk := xo.trans xk
  have e5 : (nk.1.val r1).i = q := by rw [xmk.val zr1, wr1]
  have e6 : (nk.1.val li1).i = mirrored R o.dim.posH q := by rw [xmk.val ym1, vm1]
  rw [e5, e6] at hdef
  cases u with
  | none =>
    dsimp only at hdef
    obtain ⟨xs, s2, s3, s4, s5, s6, s7, s8, s9⟩ := krempeSides_spec nk.1 (xmk.has zr0) (xmk.has zr1) (xmk.has ym0) (xmk.has ym1)
    rw [xmk.val zr0, xmk.val zr1, xmk.val ym0, xmk.val ym1, wr0, wr1, vm0, vm1] at *
    refine ⟨_, _, hdef, hxm.trans (xmk.trans xs), ⟨nk.1.nseg, ?_, s2, s9, ?_, ?_, s3, s4, s5, s6, s7, s8⟩, (mo.ext xk).ext xs, fun _ => mk.ext xs, ?_, ?_, dk1, do1⟩
    · exact (hxm.trans xmk).nseg
    · intro s hs
      rcases List.mem_append.1 hs with hs | hs
      · exact (mk.has s hs).seg
      · exact ((mo.ext xk).has s hs).seg
    · intro v hv
      cases hv
    · intro e
      cases e
    · intro v e
      cases e
  | kegel =>
    dsimp only at hdef
    rw [dk2] at hdef
    obtain ⟨xu, mu, du1, du2⟩ := reshape_spec nk.1 nk.2 (R.mantelCorner nk.2.dim 0) (R.mkPt q.x q.y)
      (R.mkPt (mirrored R o.dim.posH q).x (mirrored R o.dim.posH q).y) (R.mantelCorner nk.2.dim 3) (if k.skirt = true then .wall else .nonWall)
    change nk.1.Ext (R.reshapeUnten nk.1 nk.2 q (mirrored R o.dim.posH q) (if k.skirt = true then .wall else .nonWall)).1 at xu
    change Made (R.reshapeUnten nk.1 nk.2 q (mirrored R o.dim.posH q) (if k.skirt = true then .wall else .nonWall)).1
      (R.reshapeUnten nk.1 nk.2 q (mirrored R o.dim.posH q) (if k.skirt = true then .wall else .nonWall)).2 _ at mu
    change (R.reshapeUnten nk.1 nk.2 q (mirrored R o.dim.posH q) (if k.skirt = true then .wall else .nonWall)).2.dim = _ at du1
    generalize R.reshapeUnten nk.1 nk.2 q (mirrored R o.dim.posH q) (if k.skirt = true then .wall else .nonWall) = nu at xu mu du1 hdef
    have xmu := xmk.trans xu
    obtain ⟨xs, s2, s3, s4, s5, s6, s7, s8, s9⟩ := krempeSides_spec nu.1 (xmu.has zr0) (xmu.has zr1) (xmu.has ym0) (xmu.has ym1)
    rw [xmu.val zr0, xmu.val zr1, xmu.val ym0, xmu.val ym1, wr0, wr1, vm0, vm1] at *
    rw [dk1] at mu du1
    refine ⟨_, _, hdef, hxm.trans (xmu.trans xs), ⟨nu.1.nseg, ?_, s2, s9, ?_, ?_, s3, s4, s5, s6, s7, s8⟩, ((mo.ext xk).ext xu).ext xs, fun e => absurd rfl e,
      fun _ => mu.ext xs, ?_, du1, do1⟩
    · exact (hxm.trans xmu).nseg
    · intro s hs
      rcases List.mem_append.1 hs with hs | hs
      · exact (mu.has s hs).seg
      · exact (((mo.ext xk).ext xu).has s hs).seg
    · intro v hv
      cases hv
    · intro v e
      cases e
  | shell v =>
    dsimp only at hdef
    obtain ⟨xu, mu, du1, du2⟩ := reshape_spec nk.1 v (R.mantelCorner v.dim 0) (R.mkPt q.x q.y)
      (R.mkPt (mirrored R o.dim.posH q).x (mirrored R o.dim.posH q).y) (R.mantelCorner v.dim 3) (if v.skirt = true then .wall else .nonWall)
    change nk.1.Ext (R.reshapeUnten nk.1 v q (mirrored R o.dim.posH q) (if v.skirt = true then .wall else .nonWall)).1 at xu
    change Made (R.reshapeUnten nk.1 v q (mirrored R o.dim.posH q) (if v.skirt = true then .wall else .nonWall)).1
      (R.reshapeUnten nk.1 v q (mirrored R o.dim.posH q) (if v.skirt = true then .wall else .nonWall)).2 _ at mu
    change (R.reshapeUnten nk.1 v q (mirrored R o.dim.posH q) (if v.skirt = true then .wall else .nonWall)).2.dim = _ at du1
    generalize R.reshapeUnten nk.1 v q (mirrored R o.dim.posH q) (if v.skirt = true then .wall else .nonWall) = nu at xu mu du1 hdef
    have xmu := xmk.trans xu
    obtain ⟨xs, s2, s3, s4, s5, s6, s7, s8, s9⟩ := krempeSides_spec nu.1 (xmu.has zr0) (xmu.has zr1) (xmu.has ym0) (xmu.has ym1)
    rw [xmu.val zr0, xmu.val zr1, xmu.val ym0, xmu.val ym1, wr0, wr1, vm0, vm1] at *
    refine ⟨_, _, hdef, hxm.trans (xmu.trans xs), ⟨nu.1.nseg, ?_, s2, s9, ?_, ?_, s3, s4, s5, s6, s7, s8⟩, ((mo.ext xk).ext xu).ext xs,
      fun _ => (mk.ext xu).ext xs, fun e => (by cases e), ?_, dk1, do1⟩
    · exact (hxm.trans xmu).nseg
    · intro s hs
      rcases List.mem_append.1 hs with hs | hs
      · exact ((mk.ext xu).has s hs).seg
      · exact (((mo.ext xk).ext xu).has s hs).seg
    · intro v' hv s hs
      injection hv with hv
      subst hv
      exact (mu.has s hs).seg
    · intro v' e
      injection e with e
      subst e
      exact ⟨_, rfl, du1, mu.ext xs⟩

end Srep
