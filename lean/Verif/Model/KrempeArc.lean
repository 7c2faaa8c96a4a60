import Verif.Model.Krempe
import Verif.Model.Arc
import Verif.Model.HeadSegs

/-!
# The rounded knuckle between a cone and a shell (`KegelKrempe` with `r > 0`, SR_Vessel/SR_hauptteile.py:988-1292)

`_graphrep_re`, `_graphrep_li` and `self._graphrep` (1102, 1148-1165) are never used and are left out.  The copies `l_oben` and
`l_unten` (1087, 1091) are made and dropped inside `make_segments`; they are given by their values.  `isvalid` of the walls
(geometry/SR_line.py:517) is taken to hold.
-/

namespace Srep
variable {K : Type} [Field K] [LinearOrder K] [IsStrictOrderedRing K] [FloorRing K]

namespace Rt
variable (R : Rt K)

/-- a segment moved by `x0` to the side, SR_Vessel/SR_hauptteile.py:1089, 1094 and geometry/SR_line.py:497-500 -/
def segShifted (s : Seg K) (x0 : K) : Seg K :=
  ⟨R.mkPt (R.add s.i.x x0) (R.add s.i.y 0), R.mkPt (R.add s.j.x x0) (R.add s.j.y 0), s.cls⟩

/-- the angle of a wall to the axis and its copy moved inwards by `r / cos(angle)`, SR_Vessel/SR_hauptteile.py:1087-1089 and
1091-1094 -/
def krempeParallel (axis s : Seg K) (r : K) : Except PyErr (K × Seg K) :=
  match R.angleBetween axis s with
  | .error e => .error e
  | .ok w =>
    if R.trig.cos (R.trig.radians w) = 0 then .error .zeroDiv
    else .ok (w, R.segShifted s (R.div (-r) (R.trig.cos (R.trig.radians w))))

/-- `_kre_re = arc(...)` with its centre, SR_Vessel/SR_hauptteile.py:1083-1098; `sk` and `so` are the first segments of the
cone and of the shell above.  Without a centre `arc` raises an Exception once its asserts have passed
(geometry/SR_polygon.py:1757); KEGELKREMPE_SEGMENTS is 3 (SR_Vessel/SR_hauptteile.py:17). -/
def krempeArc (h : Heap K) (posH posV r : K) (sk so : Seg K) : Except PyErr (Heap K × PLine) :=
  let axis : Seg K := ⟨R.mkPt posH posV, R.mkPt posH (R.add posV 1), .line⟩
  match R.krempeParallel axis so r with
  | .error e => .error e
  | .ok (wo, lo) =>
    match R.krempeParallel axis sk r with
    | .error e => .error e
    | .ok (wu, lu) =>
      match R.intersectionPoint lu lo with
      | some m => R.arcH h m.x m.y r (R.sub 360 wu) (R.sub 360 wo) 3 false
      | none =>
        match R.arcH h 0 0 r (R.sub 360 wu) (R.sub 360 wo) 3 false with
        | .error e => .error e
        | .ok _ => .error .generic

/-- the cut of the wall `s` of the part with the segments `l`, at the distance `d` below (above, if `up`) the junction, made
only if the end of the arc at height `y` is nearer than that: SR_Vessel/SR_hauptteile.py:1112-1124, 1135-1143 -/
def krempeCut (l : List (Seg K)) (s : Seg K) (posV y d : K) (up : Bool) : Option (Pt K) :=
  if |R.sub posV y| < d then
    R.intersectionPoint (R.krempeCutter l posV (if up then max d |R.sub posV y| else -max d |R.sub posV y|)) s
  else none

/-- `_kre_re.append_point_at_end(_ips[1])`, SR_Vessel/SR_hauptteile.py:1147-1148 -/
def _root_.Srep.Heap.krempeAbove (h : Heap K) (segs : List ℕ) (l : ℕ) : Option (Pt K) → Heap K × List ℕ
  | none => (h, segs)
  | some p =>
    let s := (h.newPt p).1.newSegC (h.seg l).j h.npt .line
    (s.1, segs ++ [s.2])

/-- `_kre_re._segments.insert(0, LineSegment(_ips[0], _kre_re.first_point))`, SR_Vessel/SR_hauptteile.py:1151-1152; `f` is the
first segment -/
def _root_.Srep.Heap.krempeBelow (h : Heap K) (segs : List ℕ) (f : ℕ) : Option (Pt K) → Heap K × List ℕ
  | none => (h, segs)
  | some p =>
    let s := (h.newPt p).1.newSegC h.npt (h.seg f).i .line
    (s.1, s.2 :: segs)

/-- the right side of the knuckle, SR_Vessel/SR_hauptteile.py:1083-1153: memory, its segments and the flag `purged` of the
polyline (which adding the ends does not change) -/
def krempeRight (h : Heap K) (r hOben hUnten : K) (k o : ShellObj K) : Except PyErr (Heap K × PLine) :=
  match k.line.segs, o.line.segs with
  | s0 :: _, t0 :: _ =>
    match R.krempeArc h o.dim.posH o.dim.posV r (h.val s0) (h.val t0) with
    | .error e => .error e
    | .ok (a, P) =>
      match P.segs.head?, P.segs.getLast? with
      | some f, some l =>
        let b := a.krempeAbove P.segs l (R.krempeCut (a.vals o.line.segs) (a.val t0) o.dim.posV (a.val l).j.y hOben true)
        let c := b.1.krempeBelow b.2 f (R.krempeCut (a.vals k.line.segs) (a.val s0) o.dim.posV (a.val f).i.y hUnten false)
        .ok (c.1, ⟨c.2, P.purged⟩)
      | _, _ => .error .index
  | _, _ => .error .index

/-- `_ret` for `r > 0`, SR_Vessel/SR_hauptteile.py:1229-1233; `f` and `l` are the first and last segment of the right side,
`f'` and `l'` of the left -/
def _root_.Srep.Heap.roundSides (h : Heap K) (re li : List ℕ) (f l f' l' : ℕ) : Heap K × List ℕ :=
  let a := h.newWalls re
  let b := a.1.newSegC (a.1.seg l).j (a.1.seg l').j .nonWall
  let c := b.1.newWalls li
  let d := c.1.newSegC (c.1.seg f').i (c.1.seg f).i .nonWall
  (d.1, a.2 ++ [b.2] ++ c.2 ++ [d.2])

/-- `make_segments` of `KegelKrempe` for `r > 0`, SR_Vessel/SR_hauptteile.py:1074-1249.  `k` is the cone, `o` the shell above. -/
def roundSegs (h : Heap K) (r hOben hUnten : K) (k o : ShellObj K) (u : Under K) : Except PyErr (Heap K × KrempeRes K) :=
  match R.krempeRight h r hOben hUnten k o with
  | .error e => .error e
  | .ok (c, P) =>
    match P.segs.head?, P.segs.getLast?, k.line.segs, o.line.segs with
    | some f, some l, s0 :: _, t0 :: _ =>
      let p0 := (c.val f).i
      let p1 := (c.val l).j
      if !((R.krempeOn (c.val s0) p0 || R.krempeOn (c.val s0) p1) && (R.krempeOn (c.val t0) p0 || R.krempeOn (c.val t0) p1)) then
        .error .assertion
      else
        let li := P.segs.map (· + c.nseg)
        let f' := f + c.nseg
        let l' := l + c.nseg
        let m := (R.plMirror c.deepcopy ⟨li, P.purged⟩ o.dim.posH).1
        let no := R.reshapeOben m o (m.val l).j (m.val l').j
        let nk := R.reshapeUnten no.1 k (no.1.val f).i (no.1.val f').i .nonWall
        let nu : Heap K × ShellObj K × Option (ShellObj K) :=
          match u with
          | .none => (nk.1, nk.2, none)
          | .kegel =>
            let q := R.reshapeUnten nk.1 nk.2 (nk.1.val l).i (nk.1.val l').i (if nk.2.skirt then .wall else .nonWall)
            (q.1, q.2, none)
          | .shell v =>
            let q := R.reshapeUnten nk.1 v (nk.1.val l).i (nk.1.val l').i (if v.skirt then .wall else .nonWall)
            (q.1, nk.2, some q.2)
        let w := nu.1.roundSides P.segs li f l f' l'
        .ok (w.1, ⟨w.2, nu.2.1, no.2, nu.2.2⟩)
    | _, _, _, _ => .error .index

/-- `KegelKrempe.__init__`, SR_Vessel/SR_hauptteile.py:989-1028, for any `r`: a negative one raises an Exception (1131-1132) -/
def krempeInit (h : Heap K) (r hOben hUnten : K) (k o : ShellObj K) (u : Under K) :
    Except PyErr (Heap K × Part2 × KrempeRes K) :=
  if ¬ (k.dim.d0 < k.dim.d1) then .error .assertion
  else if ¬ (0 < hOben) then .error .assertion
  else if ¬ (0 < hUnten) then .error .assertion
  else
    match (if 0 < r then R.roundSegs h r hOben hUnten k o u
      else if r = 0 then R.krempeSegs h hOben hUnten k o u
      else match k.line.segs, o.line.segs with
        | _ :: _, _ :: _ => .error .generic
        | _, _ => .error .index) with
    | .error e => .error e
    | .ok (g, q) =>
      let p := R.purge g ⟨q.segs, false⟩
      match R.order p.1 p.2 with
      | .raised _ e => .error e
      | .timeout => .error .generic
      | .failed g' => .ok (g', ⟨p.2, g'.walls p.2.segs⟩, q)
      | .done g' l =>
        let z := R.purge g' ⟨l, p.2.purged⟩
        .ok (z.1, ⟨z.2, z.1.walls z.2.segs⟩, q)

end Rt
end Srep
