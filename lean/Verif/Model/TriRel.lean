import Verif.Model.Polygon
import Verif.Model.Intex

/-!
# Relations of two triangles (geometry/SR_polygon.py:1067-1165, geometry/SR_line.py:438-444)

A Triangle is its list of segments.  `ω` are the random targets of the point tests.  The sets of pairs and of common parts
are iterated in the order of insertion; the results do not depend on the order, only which of several exceptions is raised.
-/

namespace Srep

/-- the class name of a common part -/
inductive PartType | point | lineSegment | wall | nonWall
  deriving DecidableEq, Repr

/-- `cp.__class__.__name__`, geometry/SR_line.py:441 -/
def Part.typeName {K : Type} : Part K → PartType
  | .pt _ => .point
  | .segN _ => .lineSegment
  | .seg s => match s.cls with
    | .line => .lineSegment
    | .wall => .wall
    | .nonWall => .nonWall

section
variable {K : Type} [Field K] [LinearOrder K] [IsStrictOrderedRing K] [FloorRing K]

namespace Rt
variable (R : Rt K)

/-- `common_part_type`, geometry/SR_line.py:438-444 (Points and LineSegments are true in a condition) -/
def commonPartType (s o : Seg K) : Except PyErr (Option PartType) :=
  match R.commonPart s o with
  | .error e => .error e
  | .ok cp => .ok (cp.map Part.typeName)

/-- `p in pairs` for a set of pairs of LineSegments: same hashes and `==` -/
def segPairMem (p : Seg K × Seg K) (d : List (Seg K × Seg K)) : Bool :=
  d.any fun q => R.smem p.1 [q.1] && R.smem p.2 [q.2]

/-- the set of pairs made in `overlap` and `touch`, geometry/SR_polygon.py:1094-1098, 1114-1118 -/
def segPairs (l m : List (Seg K)) : List (Seg K × Seg K) :=
  (l.flatMap fun s => m.map fun o => (s, o)).foldl
    (fun d p => if !R.segPairMem p d && !R.segPairMem (p.2, p.1) d then d ++ [p] else d) []

/-- the loops over the pairs, geometry/SR_polygon.py:1100-1102, 1121-1123: the common parts that are not None, with their
types -/
def pairParts : List (Seg K × Seg K) → Except PyErr (List (Part K × PartType))
  | [] => .ok []
  | (s, o) :: ps =>
    match R.commonPart s o with
    | .error e => .error e
    | .ok cp =>
      match R.commonPartType s o with
      | .error e => .error e
      | .ok ty =>
        match pairParts ps with
        | .error e => .error e
        | .ok r =>
          match cp, ty with
          | some x, some y => .ok ((x, y) :: r)
          | _, _ => .ok r

/-- `any(self.is_internal_point(x) for x in ...)`: stops at the first True -/
def anyInternal (l : List (Seg K)) (fuel : ℕ) : (ℕ → ℕ → Pt K) → List (Pt K) → Option Bool
  | _, [] => some false
  | ω, p :: ps =>
    match R.plInternal l p (ω 0) fuel with
    | none => none
    | some true => some true
    | some false => anyInternal l fuel (fun n => ω (n + 1)) ps

/-- `enclosed`, geometry/SR_polygon.py:1075-1082: `some none` is the returned None, `none`: a random loop has not ended -/
def triEnclosed (l m : List (Seg K)) (ω : ℕ → ℕ → Pt K) (fuel : ℕ) : Option (Option Bool) :=
  match R.allInternal l fuel ω (R.pointSet m) with
  | none => none
  | some true => some (some true)
  | some false => some none

/-- the part of `overlap` after the tests of the corners, geometry/SR_polygon.py:1092-1108 -/
def triCross (l m : List (Seg K)) : Except PyErr Bool :=
  match R.pairParts (R.segPairs l m) with
  | .error e => .error e
  | .ok r => .ok (r.any fun x => decide (x.2 = .point) &&
      match x.1 with
      | .pt p => !((R.pointSet l ++ R.pointSet m).any fun q => R.peq q p)
      | _ => true)

/-- `overlap`, geometry/SR_polygon.py:1084-1108: `.ok none`: a random loop has not ended -/
def triOverlap (l m : List (Seg K)) (ω : ℕ → ℕ → ℕ → Pt K) (fuel : ℕ) : Except PyErr (Option Bool) :=
  match R.anyInternal l fuel (ω 0) (R.pointSet m) with
  | none => .ok none
  | some true => .ok (some true)
  | some false =>
    match R.anyInternal m fuel (ω 1) (R.pointSet l) with
    | none => .ok none
    | some true => .ok (some true)
    | some false => (R.triCross l m).map some

/-- the ends of a LineSegment object -/
def _root_.Srep.Part.ends : Part K → List (Pt K)
  | .pt _ => []
  | .seg s => [s.i, s.j]
  | .segN ps => ps

/-- the set of common parts of `touch`, geometry/SR_polygon.py:1120-1125: LineSegments are compared by their ends (simplified
for LineSegments made of more than two points) -/
def lineSet (r : List (Part K)) : List (Part K) :=
  r.foldl (fun d x => if d.any (fun y => decide (y.ends.length = x.ends.length) &&
    (y.ends.zip x.ends).all fun q => decide (R.phash q.1 = R.phash q.2) && R.peq q.1 q.2) then d else d ++ [x]) []

/-- `touch`, geometry/SR_polygon.py:1110-1130 -/
def triTouch (l m : List (Seg K)) : Except PyErr Bool :=
  match R.pairParts (R.segPairs l m) with
  | .error e => .error e
  | .ok r => .ok (decide ((R.lineSet ((r.filter fun x => decide (x.2 = .lineSegment)).map Prod.fst)).length = 1))

/-- the test of `touch` at the end of `disjunct`, geometry/SR_polygon.py:1157-1160 -/
def disjunctTouch (l m : List (Seg K)) : Except PyErr (Option Bool) :=
  match R.triTouch l m with
  | .error e => .error e
  | .ok b => .ok (some !b)

/-- `disjunct`, geometry/SR_polygon.py:1132-1160 -/
def triDisjunct (l m : List (Seg K)) (ω : ℕ → ℕ → ℕ → ℕ → Pt K) (fuel : ℕ) : Except PyErr (Option Bool) :=
  if R.congruent l m = some true then .ok (some false)
  else match R.triOverlap l m (ω 0) fuel with
    | .error e => .error e
    | .ok none => .ok none
    | .ok (some true) => .ok (some false)
    | .ok (some false) =>
      match R.triOverlap m l (ω 1) fuel with
      | .error e => .error e
      | .ok none => .ok none
      | .ok (some true) => .ok (some false)
      | .ok (some false) =>
        match R.triEnclosed l m (ω 2 0) fuel with
        | none => .ok none
        | some none => R.disjunctTouch l m
        | some (some _) =>
          match R.triEnclosed m l (ω 3 0) fuel with
          | none => .ok none
          | some none => .ok (some false)
          | some (some _) => R.disjunctTouch l m

/-- `itertools.combinations(l, 2)` -/
def _root_.Srep.twoOf {α : Type} : List α → List (α × α)
  | [] => []
  | x :: l => l.map (fun y => (x, y)) ++ twoOf l

/-- `any(x[0].overlap(x[1]) or x[0].congruent(x[1]) for x in ...)`, geometry/SR_polygon.py:145, over the pairs of triangles:
stops at the first True -/
def anyOverlap (fuel : ℕ) : (ℕ → ℕ → ℕ → ℕ → Pt K) → List (List (Seg K) × List (Seg K)) → Except PyErr (Option Bool)
  | _, [] => .ok (some false)
  | ω, x :: xs =>
    match R.triOverlap x.1 x.2 (ω 0) fuel with
    | .error e => .error e
    | .ok none => .ok none
    | .ok (some true) => .ok (some true)
    | .ok (some false) =>
      if R.congruent x.1 x.2 = some true then .ok (some true) else anyOverlap fuel (fun n => ω (n + 1)) xs

/-- `PolygonLine.disjunct`, geometry/SR_polygon.py:140-148: `ts` and `us` are the stored triangles of the two polygons
(`triangles`, lines 98-99, empty before any triangulation) in the order of iteration of the sets -/
def plDisjunct (ts us : List (List (Seg K))) (ω : ℕ → ℕ → ℕ → ℕ → Pt K) (fuel : ℕ) : Except PyErr (Option Bool) :=
  match R.anyOverlap fuel ω (twoOf (ts ++ us)) with
  | .error e => .error e
  | .ok b => .ok (b.map not)

end Rt
end
end Srep
