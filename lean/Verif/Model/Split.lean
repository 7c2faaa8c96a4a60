import Verif.Model.Vessel

/-!
# Cutting parts of a vessel (SR_Vessel/SR_hauptteile.py, `Hauptteil.split`, `RaumEnde`, `Behalter.cut_by_raumende`)

Segments are values here.  `Graph.renew` is modelled by the segments the graph has afterwards; that it also classifies
the reference points anew (see Model/Intex.lean) is left out.
-/

namespace Srep

/-- A part of a vessel: `_segments` and `graph._segments`, SR_Vessel/SR_hauptteile.py:463-467 -/
structure SPart (K : Type) where
  segs : List (Seg K)
  graph : List (Seg K)
  deriving DecidableEq

/-- `itertools.combinations(l, 2)` as pairs -/
def pairs2 {α : Type} : List α → List (α × α)
  | [] => []
  | a :: l => l.map (fun b => (a, b)) ++ pairs2 l

/-- `wall_segments`, SR_Vessel/SR_hauptteile.py:503-505 -/
def wallsOf {K : Type} (l : List (Seg K)) : List (Seg K) := l.filter fun s => decide (s.cls = .wall)

section
variable {K : Type} [Field K] [LinearOrder K] [IsStrictOrderedRing K] [FloorRing K]

namespace Rt
variable (R : Rt K)

/-- `intersecting_lines`, geometry/SR_polygon.py:1762-1766 -/
def intersectingLines (l : List (Seg K)) : List (Seg K × Seg K) :=
  (pairs2 l).filter fun x => R.intersectionOnSegment x.1 x.2

/-- `cut_lines` after both filters, SR_Vessel/SR_hauptteile.py:555-565 -/
def splitCuts (cl : Seg K) (graph : List (Seg K)) : List (Seg K × Seg K) :=
  (R.intersectingLines (cl :: graph)).filter fun x =>
    R.intersectionOnSegment x.1 x.2 && !R.intersectionOnEndpoint x.1 x.2

/-- `sl in x` for a pair `x`, SR_Vessel/SR_hauptteile.py:577 -/
def inPair (sl : Seg K) (x : Seg K × Seg K) : Bool := R.seq x.1 sl || R.seq x.2 sl

/-- one segment of the copied graph, SR_Vessel/SR_hauptteile.py:572-592.  The two halves have the class of `sl`, which
is `Wall` for every graph (500-501, 781-782), so the last branch is not reached; pairs of `cut_lines` have an
intersection point. -/
def splitOne (cuts : List (Seg K × Seg K)) (segs : List (Seg K)) (sl : Seg K) : List (Seg K) :=
  (cuts.filter (R.inPair sl)).foldl (fun S x =>
    match R.intersectionPoint x.1 x.2 with
    | none => S
    | some p => S.eraseP (fun s => R.seq s sl) ++
        [⟨R.mkPt sl.i.x sl.i.y, R.mkPt p.x p.y, sl.cls⟩, ⟨R.mkPt p.x p.y, R.mkPt sl.j.x sl.j.y, sl.cls⟩]) segs

/-- the new `_segments` of the part that is cut, SR_Vessel/SR_hauptteile.py:569-592 -/
def splitSegs (cuts : List (Seg K × Seg K)) (graph segs : List (Seg K)) : List (Seg K) :=
  graph.foldl (R.splitOne cuts) segs

/-- the new `_segments` of the cutting part, SR_Vessel/SR_hauptteile.py:600-607 -/
def splitEnd (cl : Seg K) (cuts : List (Seg K × Seg K)) : Except PyErr (List (Seg K)) :=
  match (cuts.filter (R.inPair cl)).foldl (fun pts x =>
    match R.intersectionPoint x.1 x.2 with
    | none => pts
    | some p => pts.insertIdx 1 p) [cl.i, cl.j] with
  | p0 :: p1 :: p2 :: p3 :: _ => .ok [⟨p0, p1, .wall⟩, ⟨p1, p2, .nonWall⟩, ⟨p2, p3, .wall⟩]
  | _ => .error .index

/-- `Hauptteil.split(ht=..., keep=...)`, SR_Vessel/SR_hauptteile.py:518-612: the state of both parts afterwards, also
if an exception is raised, and the result.  `tori` says that the class is derived from `TorispherischesBoden`. -/
def split (tori : Bool) (self ht : SPart K) (keep : Bool) : SPart K × SPart K × Except PyErr Bool :=
  if tori then (self, ht, .ok false) else
  match ht.graph with
  | [] => (self, ht, .error .index)
  | cl :: _ =>
    let cuts := R.splitCuts cl self.graph
    if cuts.isEmpty then (self, ht, .ok false) else
    let S := R.splitSegs cuts self.graph self.segs
    let self' : SPart K := ⟨S, wallsOf S⟩
    if keep then (self', ht, .ok true) else
    match R.splitEnd cl cuts with
    | .error e => (self', ht, .error e)
    | .ok T => (self', ⟨T, wallsOf T⟩, .ok true)

/-- the cutting line of `split(v=...)`, SR_Vessel/SR_hauptteile.py:543-547 -/
def splitLine (graph : List (Seg K)) (v : K) : Seg K :=
  let b := (boundingBox graph).1
  let lo := min b.1 b.2
  let hi := max b.1 b.2
  ⟨R.mkPt (R.sub lo (R.mul (R.fl (1 / 2)) |R.sub hi lo|)) v, R.mkPt (R.add hi (R.mul (R.fl (1 / 2)) |R.sub hi lo|)) v, .line⟩

/-- `Hauptteil.split(v=...)`, SR_Vessel/SR_hauptteile.py:518-598, 612 -/
def splitLevel (tori : Bool) (self : SPart K) (v : K) : SPart K × Bool :=
  if tori then (self, false) else
  let cuts := R.splitCuts (R.splitLine self.graph v) self.graph
  if cuts.isEmpty then (self, false) else
  let S := R.splitSegs cuts self.graph self.segs
  (⟨S, wallsOf S⟩, true)

/-- `RaumEnde.__init__`, SR_Vessel/SR_hauptteile.py:1308-1318: one Wall, moved (geometry/SR_line.py:497-500) -/
def raumEnde (d posH posV : K) : SPart K :=
  let a := R.mkPt (R.div (-d) 2) 0
  let b := R.mkPt (R.div d 2) 0
  let s : Seg K := ⟨R.mkPt (R.add a.x posH) (R.add a.y posV), R.mkPt (R.add b.x posH) (R.add b.y posV), .wall⟩
  ⟨[s], [s]⟩

/-- a new shell as values, SR_Vessel/SR_hauptteile.py:715-727 (that `mantelNew` has these values is `C72_outline`) -/
def shellVals (m : MantelDim K) : SPart K :=
  let w : Seg K := ⟨R.mantelCorner m 0, R.mantelCorner m 1, .wall⟩
  let u : Seg K := ⟨R.mantelCorner m 2, R.mantelCorner m 3, .wall⟩
  ⟨[w, ⟨R.mantelCorner m 1, R.mantelCorner m 2, .nonWall⟩, u, ⟨R.mantelCorner m 3, R.mantelCorner m 0, .nonWall⟩], [w, u]⟩

/-- `ht.split(ht=x, keep=False)` in the loops of `cut_by_raumende`, SR_Vessel/SR_hauptteile.py:226-229, for the parts
number `i` and `j`; if they are the same object, nothing is cut (`C98_itself`). -/
def cutStep (tori : ℕ → Bool) (S : List (SPart K)) (i j : ℕ) : List (SPart K) × Except PyErr Bool :=
  match S[i]?, S[j]? with
  | some a, some b =>
    let r := R.split (tori i) a b false
    ((S.set i r.1).set j r.2.1, r.2.2)
  | _, _ => (S, .error .index)

/-- the loops, ended by the first exception -/
def cutLoop (tori : ℕ → Bool) : List (ℕ × ℕ) → List (SPart K) → List (SPart K) × Except PyErr Unit
  | [], S => (S, .ok ())
  | (i, j) :: l, S =>
    match R.cutStep tori S i j with
    | (S', .ok _) => cutLoop tori l S'
    | (S', .error e) => (S', .error e)

/-- `Behalter.cut_by_raumende`, SR_Vessel/SR_hauptteile.py:221-229; `ends` are the numbers of the parts with
`typ == 'raumende'` -/
def cutByRaumende (tori : ℕ → Bool) (ends : List ℕ) (S : List (SPart K)) : List (SPart K) × Except PyErr Unit :=
  R.cutLoop tori ((List.range S.length).flatMap fun i => ends.map fun j => (i, j)) S

end Rt
end
end Srep
