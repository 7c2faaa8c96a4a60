import Verif.Model.Vessel
import Verif.Model.Split

/-!
# The knuckle between a cone and a shell (`KegelKrempe`, SR_Vessel/SR_hauptteile.py:988-1292), sharp edged (`r = 0`)

`_graphrep_re`, `_graphrep_li` and `self._graphrep` (1160-1165) are never used and are left out.  The reference points
that `graph.renew()` and `graph.add_intex_points()` make do not change memory; that their classification may raise is
not part of this model (see Model/KrempeIntex.lean).
-/

namespace Srep

/-- a `Mantel` (or `StandZarge`, if `skirt`) with the numbers it was made from -/
structure ShellObj (K : Type) where
  dim : MantelDim K
  line : PLine
  graph : List ℕ
  skirt : Bool

/-- what is connected from below: nothing, the cone itself, or another shell; `hts[0]` if `hts` has two elements,
SR_Vessel/SR_hauptteile.py:1030-1039 -/
inductive Under (K : Type)
  | none
  | kegel
  | shell (u : ShellObj K)

/-- the parts after the construction: the sides of the knuckle, the cone, the shell above, and the shell below if that is
another part -/
structure KrempeRes (K : Type) where
  segs : List ℕ
  kegel : ShellObj K
  oben : ShellObj K
  unten : Option (ShellObj K)

/-- four Points and the four sides through them, SR_Vessel/SR_hauptteile.py:1180-1188, 1192-1200, 1205-1219 -/
def Heap.newOutline {K : Type} (h : Heap K) (p1 p2 p3 p4 : Pt K) (bottom : SegCls) : Heap K × List ℕ :=
  let p := h.newPts [p1, p2, p3, p4]
  let n := h.npt
  let a := p.1.newSegC n (n + 1) .wall
  let b := a.1.newSegC (n + 1) (n + 2) .nonWall
  let c := b.1.newSegC (n + 2) (n + 3) .wall
  let d := c.1.newSegC (n + 3) n bottom
  (d.1, [a.2, b.2, c.2, d.2])

section
variable {K : Type} [Field K] [LinearOrder K] [IsStrictOrderedRing K] [FloorRing K]

namespace Rt
variable (R : Rt K)

/-- `_cutter`, SR_Vessel/SR_hauptteile.py:1138-1139 -/
def krempeCutter (l : List (Seg K)) (posV vpos : K) : Seg K :=
  let b := boundingBox l
  ⟨R.mkPt (R.sub (min b.1.1 b.1.2) |max b.2.1 b.2.2|) (R.add posV vpos),
    R.mkPt (R.add (max b.1.1 b.1.2) |max b.2.1 b.2.2|) (R.add posV vpos), .line⟩

/-- `x.segments[0].is_point_on_line(p) and x.segments[0].is_internal_point(p)`, SR_Vessel/SR_hauptteile.py:1171-1172 -/
def krempeOn (s : Seg K) (p : Pt K) : Bool := R.isOnLine s p && R.isInternal s p

/-- the new outline of a shell, `graph.renew()`: SR_Vessel/SR_hauptteile.py:1187-1189, 1199-1201, 1219-1220 -/
def _root_.Srep.Heap.reshape {K : Type} (h : Heap K) (o : ShellObj K) (p1 p2 p3 p4 : Pt K) (bottom : SegCls) : Heap K × ShellObj K :=
  let r := h.newOutline p1 p2 p3 p4 bottom
  (r.1, { o with line := { o.line with segs := r.2 }, graph := r.1.walls r.2 })

/-- the shell above, SR_Vessel/SR_hauptteile.py:1180-1189: `a` and `b` are the last points of the right and the left side -/
def reshapeOben (h : Heap K) (o : ShellObj K) (a b : Pt K) : Heap K × ShellObj K :=
  h.reshape o (R.mkPt a.x a.y) (R.mantelCorner o.dim 1) (R.mantelCorner o.dim 2) (R.mkPt b.x b.y) .nonWall

/-- the cone, SR_Vessel/SR_hauptteile.py:1191-1201, and the shell below, 1203-1220: `a` and `b` are the new upper corners -/
def reshapeUnten (h : Heap K) (o : ShellObj K) (a b : Pt K) (bottom : SegCls) : Heap K × ShellObj K :=
  h.reshape o (R.mantelCorner o.dim 0) (R.mkPt a.x a.y) (R.mkPt b.x b.y) (R.mantelCorner o.dim 3) bottom

/-- `_ret` for `r = 0`, SR_Vessel/SR_hauptteile.py:1236-1240; `re` and `li` are the two segments of the right and the left
side -/
def _root_.Srep.Heap.krempeSides {K : Type} (h : Heap K) (re0 re1 li0 li1 : ℕ) : Heap K × List ℕ :=
  let a := h.newSegC (h.seg re0).i (h.seg re0).j .wall
  let b := a.1.newSegC (a.1.seg re1).i (a.1.seg re1).j .wall
  let c := b.1.newSegC (b.1.seg re1).j (b.1.seg li1).j .nonWall
  let d := c.1.newSegC (c.1.seg li1).i (c.1.seg li1).j .wall
  let e := d.1.newSegC (d.1.seg li0).i (d.1.seg li0).j .wall
  let f := e.1.newSegC (e.1.seg li0).i (e.1.seg re0).i .nonWall
  (f.1, [a.2, b.2, c.2, d.2, e.2, f.2])

/-- `make_segments` of `KegelKrempe` for `r = 0`, SR_Vessel/SR_hauptteile.py:1074-1249.  `k` is the cone, `o` the shell above.
A missing intersection point makes `mirror_vertical` of the unused walls (1164) raise an AttributeError. -/
def krempeSegs (h : Heap K) (hOben hUnten : K) (k o : ShellObj K) (u : Under K) : Except PyErr (Heap K × KrempeRes K) :=
  match k.line.segs, o.line.segs with
  | s0 :: s1 :: _, t0 :: _ =>
    match R.intersectionPoint (R.krempeCutter (h.vals k.line.segs) o.dim.posV (-hUnten)) (h.val s0),
      R.intersectionPoint (R.krempeCutter (h.vals o.line.segs) o.dim.posV hOben) (h.val t0) with
    | some p0, some p1 =>
      let a := h.newPts [p0, p1]
      let re0 := a.1.newSegC h.npt (a.1.seg t0).i .line
      let re1 := re0.1.newSegC (re0.1.seg s1).i (h.npt + 1) .line
      if !((R.krempeOn (h.val s0) p0 || R.krempeOn (h.val s0) p1) && (R.krempeOn (h.val t0) p0 || R.krempeOn (h.val t0) p1)) then
        .error .assertion
      else
        let c := re1.1.deepcopy
        let li0 := re0.2 + re1.1.nseg
        let li1 := re1.2 + re1.1.nseg
        let m := (R.plMirror c ⟨[li0, li1], false⟩ o.dim.posH).1
        let no := R.reshapeOben m o (m.val re1.2).j (m.val li1).j
        let nk := R.reshapeUnten no.1 k (no.1.val re0.2).i (no.1.val li0).i .nonWall
        let nu : Heap K × ShellObj K × Option (ShellObj K) :=
          match u with
          | .none => (nk.1, nk.2, none)
          | .kegel =>
            let r := R.reshapeUnten nk.1 nk.2 (nk.1.val re1.2).i (nk.1.val li1).i (if nk.2.skirt then .wall else .nonWall)
            (r.1, r.2, none)
          | .shell v =>
            let r := R.reshapeUnten nk.1 v (nk.1.val re1.2).i (nk.1.val li1).i (if v.skirt then .wall else .nonWall)
            (r.1, nk.2, some r.2)
        let w := nu.1.krempeSides re0.2 re1.2 li0 li1
        .ok (w.1, ⟨w.2, nu.2.1, no.2, nu.2.2⟩)
    | _, _ => .error .attribute
  | _, _ => .error .index

/-- `KegelKrempe.__init__` for `r = 0`, SR_Vessel/SR_hauptteile.py:989-1028, with the asserts of 1041-1052 on the numbers (which
of `hts` is above is decided by the caller; all are shells).  `order()` that fails returns False, which is ignored. -/
def krempeNew (h : Heap K) (hOben hUnten : K) (k o : ShellObj K) (u : Under K) :
    Except PyErr (Heap K × Part2 × KrempeRes K) :=
  if ¬ (k.dim.d0 < k.dim.d1) then .error .assertion
  else if ¬ (0 < hOben) then .error .assertion
  else if ¬ (0 < hUnten) then .error .assertion
  else
    match R.krempeSegs h hOben hUnten k o u with
    | .error e => .error e
    | .ok (g, q) =>
      let p := R.purge g ⟨q.segs, false⟩
      match R.order p.1 p.2 with
      | .raised _ e => .error e
      | .timeout => .error .generic
      | .failed g' => .ok (g', ⟨p.2, g'.walls p.2.segs⟩, q)
      | .done g' l =>
        let z := R.purge g' ⟨l, p.2.purged⟩
        .ok (z.1, ⟨z.2, z.1.walls z.2.segs⟩, q)

end Rt
end
end Srep
