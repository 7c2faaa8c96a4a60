import Verif.Model.Heap

/-!
# The vessel layer (SR_Vessel/SR_hauptteile.py) and geometry/additional_stuff.py

Not modelled: plotting, `linenum`, names, `Raum`/`Behalter` bookkeeping.
-/

namespace Srep

/-! ### geometry/additional_stuff.py -/

/-- a tuple of three numbers -/
structure V3 (K : Type) where
  x : K
  y : K
  z : K
  deriving DecidableEq, Repr

section
variable {K : Type} [Field K] [LinearOrder K] [IsStrictOrderedRing K] [FloorRing K]

namespace Rt
variable (R : Rt K)

/-- `square(a) + square(b) + square(c)`, geometry/additional_stuff.py:7-8, 22 -/
def sumSq (a b c : K) : K := R.add (R.add (R.mul a a) (R.mul b b)) (R.mul c c)

/-- `a`, geometry/additional_stuff.py:22 -/
def slA (l1 l2 : V3 K) : K := R.sumSq (R.sub l2.x l1.x) (R.sub l2.y l1.y) (R.sub l2.z l1.z)

/-- `b`, geometry/additional_stuff.py:23-25 -/
def slB (l1 l2 sp : V3 K) : K :=
  R.mul 2 (R.add (R.add (R.mul (R.sub l2.x l1.x) (R.sub l1.x sp.x)) (R.mul (R.sub l2.y l1.y) (R.sub l1.y sp.y)))
    (R.mul (R.sub l2.z l1.z) (R.sub l1.z sp.z)))

/-- `c`, geometry/additional_stuff.py:27-29 -/
def slC (l1 sp : V3 K) (r : K) : K :=
  R.sub (R.sub
    (R.add (R.add (R.add (R.sumSq sp.x sp.y sp.z) (R.mul l1.x l1.x)) (R.mul l1.y l1.y)) (R.mul l1.z l1.z))
    (R.mul 2 (R.add (R.add (R.mul sp.x l1.x) (R.mul sp.y l1.y)) (R.mul sp.z l1.z)))) (R.mul r r)

/-- `i`, the discriminant, geometry/additional_stuff.py:31 -/
def slDisc (l1 l2 sp : V3 K) (r : K) : K :=
  R.sub (R.mul (R.slB l1 l2 sp) (R.slB l1 l2 sp)) (R.mul (R.mul 4 (R.slA l1 l2)) (R.slC l1 sp r))

/-- the point of the line at parameter `mu`, geometry/additional_stuff.py:47-50 -/
def slPoint (l1 l2 : V3 K) (mu : K) : V3 K :=
  ⟨R.add l1.x (R.mul mu (R.sub l2.x l1.x)), R.add l1.y (R.mul mu (R.sub l2.y l1.y)),
    R.add l1.z (R.mul mu (R.sub l2.z l1.z))⟩

/-- `sphere_line_intersection`, geometry/additional_stuff.py:5-59.  In the branch of one intersection the
name `p` is not defined (line 37). -/
def sphereLine (l1 l2 sp : V3 K) (r : K) : Except PyErr (Option (V3 K) × Option (V3 K)) :=
  let a := R.slA l1 l2
  let b := R.slB l1 l2 sp
  let i := R.slDisc l1 l2 sp r
  if i < 0 then .ok (none, none)
  else if i = 0 then .error .name
  else if R.mul 2 a = 0 then .error .zeroDiv
  else .ok (some (R.slPoint l1 l2 (R.div (R.add (-b) (R.sqrt i)) (R.mul 2 a))),
    some (R.slPoint l1 l2 (R.div (R.sub (-b) (R.sqrt i)) (R.mul 2 a))))

end Rt
end

/-! ### Mantel and StandZarge -/

/-- the arguments of `Mantel(pos_v=, pos_h=, d=(d0, d1), h=)` -/
structure MantelDim (K : Type) where
  posV : K
  posH : K
  d0 : K
  d1 : K
  h : K

/-- a new segment object of class `c` -/
def Heap.newSegC {K : Type} (h : Heap K) (i j : ℕ) (c : SegCls) : Heap K × ℕ :=
  ({ h with seg := Function.update h.seg h.nseg ⟨i, j, c⟩, nseg := h.nseg + 1 }, h.nseg)

/-- `wall_segments`, SR_Vessel/SR_hauptteile.py:503-505 -/
def Heap.walls {K : Type} (h : Heap K) (l : List ℕ) : List ℕ := l.filter fun s => decide ((h.seg s).cls = .wall)

section
variable {K : Type} [Field K] [LinearOrder K] [IsStrictOrderedRing K] [FloorRing K]

namespace Rt
variable (R : Rt K)

/-- the points `p1 ... p4` of `Mantel.make_segments`, SR_Vessel/SR_hauptteile.py:717-720 -/
def mantelCorner (m : MantelDim K) : ℕ → Pt K
  | 0 => R.mkPt (R.add m.posH (R.div m.d0 2)) m.posV
  | 1 => R.mkPt (R.add m.posH (R.div m.d1 2)) (R.add m.posV m.h)
  | 2 => R.mkPt (R.sub m.posH (R.div m.d1 2)) (R.add m.posV m.h)
  | _ => R.mkPt (R.sub m.posH (R.div m.d0 2)) m.posV

/-- `make_segments` of `Mantel` (`bottom = .nonWall`), SR_Vessel/SR_hauptteile.py:715-727, and of `StandZarge`
(`bottom = .wall`, the replaced NonWall object is dropped), lines 1301-1305. -/
def mantelSegs (h : Heap K) (m : MantelDim K) (bottom : SegCls) : Heap K × List ℕ :=
  let p := h.newPts [R.mantelCorner m 0, R.mantelCorner m 1, R.mantelCorner m 2, R.mantelCorner m 3]
  let n := h.npt
  let a := p.1.newSegC n (n + 1) .wall
  let b := a.1.newSegC (n + 1) (n + 2) .nonWall
  let c := b.1.newSegC (n + 2) (n + 3) .wall
  let d := c.1.newSegC (n + 3) n bottom
  (d.1, [a.2, b.2, c.2, d.2])

/-- A part of a vessel: its polyline and the segments of its graph (which are Wall objects of the polyline). -/
structure _root_.Srep.Part2 where
  line : PLine
  graph : List ℕ

/-- `Mantel.__init__`, SR_Vessel/SR_hauptteile.py:616-626: `make_segments`, `Hauptteil.__init__` with `purge`
(463-467), `Graph` of the wall segments (geometry/SR_polygon_group.py:755-759).  The reference points added last
do not change memory; that their classification may raise (or not end) is not part of this definition. -/
def mantelNew (h : Heap K) (m : MantelDim K) (bottom : SegCls) : Heap K × Part2 :=
  let r := R.mantelSegs h m bottom
  let q := R.purge r.1 ⟨r.2, false⟩
  (q.1, ⟨q.2, q.1.walls q.2.segs⟩)

/-- `StandZarge.__init__`, SR_Vessel/SR_hauptteile.py:1297-1299: the segments are made a second time, the graph keeps
the first ones and the flag `purged` stays set -/
def standZargeNew (h : Heap K) (m : MantelDim K) : Heap K × Part2 :=
  let r := R.mantelNew h m .wall
  let q := R.mantelSegs r.1 m .wall
  (q.1, ⟨⟨q.2, r.2.line.purged⟩, r.2.graph⟩)

/-- `Mantel.isvalid`, SR_Vessel/SR_hauptteile.py:697-715 -/
def mantelValid (h : Heap K) (M : Part2) : Bool :=
  match h.vals M.graph with
  | [s0, s1] =>
    decide (s0.i.y = s1.j.y) && decide (s0.j.y = s1.i.y) &&
      decide (R.div (R.add s0.i.x s1.j.x) 2 = R.div (R.add s0.j.x s1.i.x) 2) && R.plValid (h.vals M.line.segs)
  | _ => false

end Rt
end

/-! ### torispherical heads -/

/-- the arguments of a torispherical head; `orient` is 1 or -1 -/
structure HeadDim (K : Type) where
  posV : K
  posH : K
  d : K
  h1 : K
  orient : K

section
variable {K : Type} [Field K] [LinearOrder K] [IsStrictOrderedRing K] [FloorRing K]

namespace Rt
variable (R : Rt K)

/-- `h_graph`, SR_Vessel/SR_hauptteile.py:775-777 -/
def hGraph (d : K) : K := max (R.fl (1 / 10)) (R.div d 1000)

/-- `graphrepr_segments` of a torispherical head, SR_Vessel/SR_hauptteile.py:779-782 -/
def headGraph (m : HeadDim K) : List (Seg K) :=
  let top := R.mkPt m.posH (R.add m.posV (R.mul m.orient (R.hGraph m.d)))
  [⟨R.mkPt (R.add (R.div (-m.d) 2) m.posH) m.posV, top, .wall⟩,
    ⟨top, R.mkPt (R.add (R.div m.d 2) m.posH) m.posV, .wall⟩]

/-- the reference point at `pos_h + v * a * d`, `pos_v + orient * b * h_graph`,
SR_Vessel/SR_hauptteile.py:763-765 (`a` and `b` are decimal literals) -/
def headPoint (m : HeadDim K) (v a b : K) : Pt K :=
  R.mkPt (R.add m.posH (R.mul (R.mul v (R.fl a)) m.d))
    (R.add m.posV (R.mul (R.mul m.orient (R.fl b)) (R.hGraph m.d)))

/-- the reference points (internal, external) of one segment of the graph,
SR_Vessel/SR_hauptteile.py:753-765 -/
def headIntex (m : HeadDim K) (s : Seg K) : Except PyErr (List (Pt K) × List (Pt K)) :=
  let pts := fun v => ([R.headPoint m v (45 / 100) (5 / 100), R.headPoint m v (5 / 100) (85 / 100)],
    [R.headPoint m v (25 / 100) (55 / 100)])
  if min s.i.x s.j.x < m.posH then .ok (pts (-1))
  else if m.posH < max s.i.x s.j.x then .ok (pts 1)
  else .error .generic

end Rt
end

/-! ### raum_dict_checker -/

section
variable {κ ρ : Type} [DecidableEq κ] [DecidableEq ρ]

/-- A dict of dicts of sets of rooms, flattened: a key is the pair of the outer and the inner key, a set is a list
whose order and repetitions do not matter. -/
abbrev RDict (κ ρ : Type) := List (κ × List ρ)

/-- `itertools.permutations(l, k)` of a list of different elements -/
def kperms : ℕ → List ρ → List (List ρ)
  | 0, _ => [[]]
  | k + 1, l => l.flatMap fun a => (kperms k (l.erase a)).map (a :: ·)

/-- `p[r] for r in _rs if r in vv`, SR_Vessel/SR_hauptteile.py:36-37 (KeyError for a room without a letter) -/
def convertSet (rs : List ρ) (p : List (ρ × ℕ)) (vv : List ρ) : Except PyErr (List ℕ) :=
  (rs.filter fun r => decide (r ∈ vv)).mapM fun r =>
    match p.lookup r with
    | some c => .ok c
    | none => .error .key

/-- `convert`, SR_Vessel/SR_hauptteile.py:32-39 -/
def convertDict (rs : List ρ) (p : List (ρ × ℕ)) (d : RDict κ ρ) : Except PyErr (RDict κ ℕ) :=
  d.mapM fun e => (convertSet rs p e.2).map fun s => (e.1, s)

/-- equality of sets given as lists -/
def setSame (s t : List ℕ) : Bool := s.all (fun x => decide (x ∈ t)) && t.all fun x => decide (x ∈ s)

/-- `==` of two dicts of sets (different keys in each) -/
def dictSame (d b : RDict κ ℕ) : Bool :=
  d.all (fun e => b.any fun f => decide (f.1 = e.1) && setSame e.2 f.2) &&
    b.all fun f => d.any fun e => decide (f.1 = e.1) && setSame e.2 f.2

/-- The rooms in the order in which `list(set(...))` happens to list them, SR_Vessel/SR_hauptteile.py:45-49. -/
def RoomsOf (d : RDict κ ρ) (rs : List ρ) : Prop := rs.Nodup ∧ ∀ r, r ∈ rs ↔ ∃ e ∈ d, r ∈ e.2

/-- `raum_dict_checker`, SR_Vessel/SR_hauptteile.py:24-117, for `_raums = rs`; the letters `chr(97)...` are numbered
from 0, there are at most 26. -/
def raumDictChecker (rs : List ρ) (d b : RDict κ ρ) : Except PyErr Bool :=
  let iv := List.range (min 26 rs.length)
  let pairs := (kperms iv.length rs).map fun x => x.zip iv
  match pairs with
  | [] => .error .index
  | p0 :: _ =>
    match convertDict rs p0 b with
    | .error e => .error e
    | .ok b' =>
      match pairs.mapM fun p => (convertDict rs p d).map fun d' => dictSame d' b' with
      | .error e => .error e
      | .ok res => if (res.filter id).length = 1 then .ok true else .error .generic

end
end Srep
