import Verif.Model.Vessel
import Verif.Model.Arc

/-!
# The outline of torispherical heads (SR_Vessel/SR_hauptteile.py)

`Point` objects that are made only to hand over the centre of an arc are left out.
-/

namespace Srep

/-- the name of the class, SR_Vessel/SR_hauptteile.py:798-805 -/
inductive HeadKind | klopper | korbbogen | other
  deriving DecidableEq, Repr

/-- `PolygonLine([Wall(x.i, x.j) for x in ...])`: new Wall objects on the Points of existing segments,
SR_Vessel/SR_hauptteile.py:828-830 -/
def Heap.newWalls {K : Type} (h : Heap K) : List ℕ → Heap K × List ℕ
  | [] => (h, [])
  | s :: l =>
    let a := h.newSegC (h.seg s).i (h.seg s).j .wall
    let r := Heap.newWalls a.1 l
    (r.1, a.2 :: r.2)

/-- a new segment of class `c` with two new Points, e.g. `Wall(Point(...), Point(...))`,
SR_Vessel/SR_hauptteile.py:827, 831-832 -/
def Heap.newLine {K : Type} (h : Heap K) (p q : Pt K) (c : SegCls) : Heap K × ℕ :=
  let a := h.newPts [p, q]
  a.1.newSegC h.npt (h.npt + 1) c

section
variable {K : Type} [Field K] [LinearOrder K] [IsStrictOrderedRing K] [FloorRing K]

namespace Rt
variable (R : Rt K)

/-- R1 (kalotte) and R2 (krempe), SR_Vessel/SR_hauptteile.py:798-805 -/
def headRadii (k : HeadKind) (d : K) : Except PyErr (K × K) :=
  match k with
  | .klopper => .ok (R.mul 1 d, R.mul (R.fl (1 / 10)) d)
  | .korbbogen => .ok (R.mul (R.fl (8 / 10)) d, R.mul (R.fl (154 / 1000)) d)
  | .other => .error .generic

/-- `h` and `alpha`, SR_Vessel/SR_hauptteile.py:807-808: `math.sqrt` of a negative number and `math.acos` outside of -1...1
raise a ValueError -/
def headAngle (d r1 r2 : K) : Except PyErr (K × K) :=
  let w := R.sub r1 r2
  let u := R.sub (R.sq w) (R.sq (R.sub (R.div d 2) r2))
  if u < 0 then .error .value
  else if w = 0 then .error .zeroDiv
  else if 1 < |R.div (R.sqrt u) w| then .error .value
  else .ok (R.sqrt u, R.trig.degrees (R.trig.acos (R.div (R.sqrt u) w)))

/-- the pieces of the outline: `zylboard_re`, `krempe_re`, `kalotte`, `krempe_li`, `zylboard_li`, `RN` -/
structure _root_.Srep.HeadPieces where
  zylRe : PLine
  kreRe : PLine
  kal : PLine
  kreLi : PLine
  zylLi : PLine
  rn : ℕ

/-- the pieces before they are turned and moved, SR_Vessel/SR_hauptteile.py:807-832 -/
def headPieces (h : Heap K) (d h1 r1 r2 : K) : Except PyErr (Heap K × HeadPieces) :=
  match R.headAngle d r1 r2 with
  | .error e => .error e
  | .ok (hh, al) =>
    let m1 := R.mkPt 0 (R.sub h1 hh)
    match R.arcH h m1.x m1.y r1 (R.sub 90 al) (R.add 90 al) 8 false with
    | .error e => .error e
    | .ok (ha, kal) =>
      let x2 := R.add 0 (R.mul (R.sub r1 r2) (R.trig.sin (R.trig.radians al)))
      let y2 := R.add (R.sub h1 hh) (R.mul (R.sub r1 r2) (R.trig.cos (R.trig.radians al)))
      let m2 := R.mkPt x2 y2
      match R.arcH ha m2.x m2.y r2 0 (R.sub 90 al) 3 false with
      | .error e => .error e
      | .ok (hb, kreRe) =>
        let m3 := R.mkPt (-x2) y2
        match R.arcH hb m3.x m3.y r2 (R.add 90 al) 180 3 false with
        | .error e => .error e
        | .ok (hc, kreLi) =>
          let c := R.div d 2
          let e := R.div (-d) 2
          let p1 := hc.newLine (R.mkPt c 0) (R.mkPt c h1) .wall
          let p2 := p1.1.newWalls kreRe.segs
          let p3 := p2.1.newWalls kal.segs
          let p4 := p3.1.newWalls kreLi.segs
          let p5 := p4.1.newLine (R.mkPt e h1) (R.mkPt e 0) .wall
          let p6 := p5.1.newLine (R.mkPt e 0) (R.mkPt c 0) .nonWall
          .ok (p6.1, ⟨⟨[p1.2], false⟩, ⟨p2.2, false⟩, ⟨p3.2, false⟩, ⟨p4.2, false⟩, ⟨[p5.2], false⟩, p6.2⟩)

/-- `if self.orient == -1`, SR_Vessel/SR_hauptteile.py:834-840 -/
def headTurn (h : Heap K) (q : HeadPieces) : Heap K × HeadPieces :=
  let a := R.plRotate h q.zylLi 180
  let b := R.plRotate a.1 q.zylRe 180
  let c := R.plRotate b.1 q.kreLi 180
  let d := R.plRotate c.1 q.kreRe 180
  let e := R.plRotate d.1 q.kal 180
  (e.1.reverse q.rn, ⟨b.2, d.2, e.2, c.2, a.2, q.rn⟩)

/-- SR_Vessel/SR_hauptteile.py:842-847 -/
def headMove (h : Heap K) (q : HeadPieces) (x0 y0 : K) : Heap K × HeadPieces :=
  let a := R.plMove h q.zylLi x0 y0
  let b := R.plMove a.1 q.zylRe x0 y0
  let c := R.plMove b.1 q.kreLi x0 y0
  let d := R.plMove c.1 q.kreRe x0 y0
  let e := R.plMove d.1 q.kal x0 y0
  (R.segMove e.1 q.rn x0 y0, ⟨b.2, d.2, e.2, c.2, a.2, q.rn⟩)

/-- `make_segments` of `TorispherischesBoden`, SR_Vessel/SR_hauptteile.py:790-852 -/
def headSegs (h : Heap K) (k : HeadKind) (m : HeadDim K) : Except PyErr (Heap K × List ℕ) :=
  match R.headRadii k m.d with
  | .error e => .error e
  | .ok (r1, r2) =>
    match R.headPieces h m.d m.h1 r1 r2 with
    | .error e => .error e
    | .ok (ha, q) =>
      let t := if m.orient = -1 then R.headTurn ha q else (ha, q)
      let r := R.headMove t.1 t.2 m.posH m.posV
      .ok (r.1, r.2.zylRe.segs ++ r.2.kreRe.segs ++ r.2.kal.segs ++ r.2.kreLi.segs ++ r.2.zylLi.segs ++ [r.2.rn])

/-- `TorispherischesBoden.__init__`, SR_Vessel/SR_hauptteile.py:731-741, up to the polyline: `make_segments` and
`Hauptteil.__init__` with `purge` (463-467).  The graph is `headGraph`. -/
def headNew (h : Heap K) (k : HeadKind) (m : HeadDim K) : Except PyErr (Heap K × PLine) :=
  match R.headSegs h k m with
  | .error e => .error e
  | .ok (ha, l) => .ok (R.purge ha ⟨l, false⟩)

/-- `Hauptteil.polygonline`, SR_Vessel/SR_hauptteile.py:513-516: a new polyline of the same segment objects -/
def _root_.Srep.polygonlineOf (P : PLine) : PLine := ⟨P.segs, false⟩

/-- `TorispherischesBoden.isvalid`, SR_Vessel/SR_hauptteile.py:784-786 -/
def headValid (h : Heap K) (P : PLine) : Bool := R.plValid (h.vals (polygonlineOf P).segs)

/-- `TorispherischesBoden.characteristic_size`, SR_Vessel/SR_hauptteile.py:771-773 -/
def headSize (m : HeadDim K) : K := R.div m.d 2

end Rt
end
end Srep
