import Verif.Model.Polygon

/-!
# Triangulation: dispatch and the Delaunay mesh (geometry/SR_polygon.py:663-743, 1169-1513)

The data structure of `Delaunay2d` is a list of points, a list of triangles (three point numbers each), a
dict from sorted pairs of point numbers to lists of triangle numbers, and a set of oriented boundary edges.
Point numbers are Python ints (negative numbers index from the end).  The dict is a partial function.  A
Python set is a list without repetitions; the order of iteration over it is the order of the list, so that a
theorem about all lists covers every order.  `EPS` is `R.eps`.  The state after an exception is not modelled
here.
-/

namespace Srep

/-! ### `triangulate`, geometry/SR_polygon.py:663-683 -/

/-- names of the triangulation algorithms -/
inductive Alg | delaunay | earClipping | triangle | random | unknown
  deriving DecidableEq, Repr

/-- A step on the stored triangle set: what is raised, if anything, and the triangle set afterwards. -/
abbrev TriStep (T : Type) := Option PyErr × List T

/-- `triangulate_delaunay`, geometry/SR_polygon.py:685-708: `_delete_triangles()` empties the stored set; then
`self.delaunay` is evaluated, an attribute no PolygonLine has (its assignment in `__init__` is commented out,
geometry/SR_polygon.py:34) -/
def triangulateDelaunay {T : Type} (_stored : List T) : TriStep T := (some .attribute, [])

/-- `triangulate`, geometry/SR_polygon.py:663-683.  `alg = none` is the argument None, `choice` the value of
`random.choice`, `ear` and `mesh` are whatever `ear_clipping` and `triangle_mesh` do. -/
def triangulate {T : Type} (ear mesh : List T → TriStep T) (choice : Alg) (alg : Option Alg) (force : Bool)
    (stored : List T) : TriStep T :=
  match alg with
  | none => (some .generic, stored)
  | some a =>
    let a := if a = .random then choice else a
    if stored = [] ∨ force then
      match a with
      | .delaunay => triangulateDelaunay stored
      | .earClipping => ear stored
      | .triangle => mesh stored
      | _ => (some .generic, stored)
    else (none, stored)

/-! ### Delaunay2d -/

/-- three point numbers: a Python list of length 3 -/
structure Tri where
  a : ℤ
  b : ℤ
  c : ℤ
  deriving DecidableEq, Repr

/-- the dict `edge2Triangles` -/
abbrev E2T := ℤ × ℤ → Option (List ℕ)

/-- `{}` -/
def E2T.empty : E2T := fun _ => none
/-- `d[k] = v` -/
def E2T.set (d : E2T) (k : ℤ × ℤ) (v : List ℕ) : E2T := fun e => if e = k then some v else d e
/-- `del d[k]` -/
def E2T.del (d : E2T) (k : ℤ × ℤ) : E2T := fun e => if e = k then none else d e

/-- fields of a `Delaunay2d` object, geometry/SR_polygon.py:1178-1194 -/
structure Mesh (K : Type) where
  points : List (Pt K)
  tris : List Tri
  e2t : E2T
  bnd : List (ℤ × ℤ)

/-- `l[i]`; `none` is an IndexError -/
def pyGet {α : Type} (l : List α) (i : ℤ) : Option α :=
  if 0 ≤ i then l[i.toNat]? else if 0 ≤ (l.length : ℤ) + i then l[((l.length : ℤ) + i).toNat]? else none

/-- `makeKey`, geometry/SR_polygon.py:1529-1533 -/
def makeKey (i j : ℤ) : ℤ × ℤ := if i ≤ j then (i, j) else (j, i)

/-- `if not tri[i] in edge: iOpposite = tri[i]` for i = 0, 1, 2, starting from -1,
geometry/SR_polygon.py:1377-1383 -/
def Tri.opp (t : Tri) (e : ℤ × ℤ) : ℤ :=
  [t.a, t.b, t.c].foldl (fun o v => if v ≠ e.1 ∧ v ≠ e.2 then v else o) (-1)

/-- `newTri.sort()` -/
def Tri.sorted (a b c : ℤ) : Tri :=
  match [a, b, c].insertionSort (· ≤ ·) with
  | [x, y, z] => ⟨x, y, z⟩
  | _ => ⟨a, b, c⟩

section
variable {K : Type} [Field K] [LinearOrder K] [IsStrictOrderedRing K] [FloorRing K]
namespace Rt
variable (R : Rt K)

/-- `d1.x * d2.y - d1.y * d2.x` of the differences of three points, geometry/SR_polygon.py:1313-1315 -/
def areaOf (p q r : Pt K) : K :=
  R.sub (R.mul (R.ptSub q p).x (R.ptSub r p).y) (R.mul (R.ptSub q p).y (R.ptSub r p).x)

/-- `getArea`, geometry/SR_polygon.py:1306-1315 -/
def getArea (ps : List (Pt K)) (i j k : ℤ) : Except PyErr K :=
  match pyGet ps i, pyGet ps j, pyGet ps k with
  | some p, some q, some r => .ok (R.areaOf p q r)
  | _, _, _ => .error .index

/-- `isEdgeVisible`, geometry/SR_polygon.py:1317-1327 -/
def isEdgeVisible (ps : List (Pt K)) (ip : ℤ) (e : ℤ × ℤ) : Except PyErr Bool :=
  (R.getArea ps ip e.1 e.2).map fun a => decide (a < R.eps)

/-- `makeCounterClockwise`, geometry/SR_polygon.py:1339-1347 -/
def makeCcw (ps : List (Pt K)) (t : Tri) : Except PyErr Tri :=
  match R.getArea ps t.a t.b t.c with
  | .error e => .error e
  | .ok a => .ok (if a < -R.eps then ⟨t.a, t.c, t.b⟩ else t)

/-- `dotproduct` of two difference vectors, geometry/SR_polygon.py:1535-1539 -/
def dotOf (p q r : Pt K) : K :=
  R.add (R.mul (R.ptSub q p).x (R.ptSub r p).x) (R.mul (R.ptSub q p).y (R.ptSub r p).y)

/-- the two angles at the opposite vertices, geometry/SR_polygon.py:1386-1395: `p`, `q` are the ends of the
edge, `o` the opposite vertex (`crossProd2` has the ends exchanged, which `flipTest` does by its arguments) -/
def oppAngle (c d : K) : K := |R.trig.atan2 c d|

/-- Delaunay's test, geometry/SR_polygon.py:1386-1398; `math.pi` is `math.atan2(0, -1)` -/
def flipTest (p q o1 o2 : Pt K) : Bool :=
  decide (R.mul (R.trig.atan2 0 (-1)) (R.add 1 R.eps) <
    R.add (R.oppAngle (R.areaOf o1 p q) (R.dotOf o1 p q)) (R.oppAngle (R.areaOf o2 q p) (R.dotOf o2 p q)))

/-- replace `x` by `y` in a list of triangle numbers, geometry/SR_polygon.py:1424-1426 -/
def _root_.Srep.relabel (x y : ℕ) (v : List ℕ) : List ℕ := v.map fun t => if t = x then y else t

/-- the changes made when the test succeeds, geometry/SR_polygon.py:1405-1442 -/
def _root_.Srep.flipWrite (M : Mesh K) (e : ℤ × ℤ) (t1 t2 : ℕ) (o1 o2 : ℤ) : Except PyErr (Mesh K × List (ℤ × ℤ)) :=
  let tris := (M.tris.set t1 ⟨o1, e.1, o2⟩).set t2 ⟨o1, o2, e.2⟩
  let d := (M.e2t.del e).set (makeKey o1 o2) [t1, t2]
  match d (makeKey o1 e.2) with
  | none => .error .key
  | some v1 =>
    let d := d.set (makeKey o1 e.2) (relabel t1 t2 v1)
    match d (makeKey o2 e.1) with
    | none => .error .key
    | some v2 =>
      .ok (⟨M.points, tris, d.set (makeKey o2 e.1) (relabel t2 t1 v2), M.bnd⟩,
        [makeKey o1 e.2, makeKey o2 e.1, makeKey o1 e.1, makeKey o2 e.2])

/-- `flipOneEdge`, geometry/SR_polygon.py:1349-1441: the new mesh and the set of edges to look at next -/
def flipOneEdge (M : Mesh K) (e : ℤ × ℤ) : Except PyErr (Mesh K × List (ℤ × ℤ)) :=
  match (M.e2t e).getD [] with
  | [] | [_] => .ok (M, [])
  | [t1, t2] =>
    match M.tris[t1]?, M.tris[t2]? with
    | some T1, some T2 =>
      match pyGet M.points e.1, pyGet M.points e.2, pyGet M.points (T1.opp e), pyGet M.points (T2.opp e) with
      | some p, some q, some a, some b =>
        if R.flipTest p q a b then flipWrite M e t1 t2 (T1.opp e) (T2.opp e) else .ok (M, [])
      | _, _, _, _ => .error .index
    | _, _ => .error .index
  | _ => .error .value

/-- one pass of the loop body of `flipEdges` over the collected edges, geometry/SR_polygon.py:1460-1463 -/
def flipRound (M : Mesh K) : List (ℤ × ℤ) → Except PyErr (Mesh K × List (ℤ × ℤ))
  | [] => .ok (M, [])
  | e :: es =>
    match R.flipOneEdge M e with
    | .error x => .error x
    | .ok (M1, r1) =>
      match flipRound M1 es with
      | .error x => .error x
      | .ok (M2, r2) => .ok (M2, r1 ∪ r2)

/-- `flipEdges` started on the edges `es` (all keys of the dict), geometry/SR_polygon.py:1443-1466; `none`:
not finished after `fuel` passes.  It always returns None, so the loop around it in `addPoint` runs once. -/
def flipEdges (M : Mesh K) (es : List (ℤ × ℤ)) : ℕ → Option (Except PyErr (Mesh K))
  | 0 => none
  | fuel + 1 =>
    match R.flipRound M es with
    | .error x => some (.error x)
    | .ok (M1, []) => some (.ok M1)
    | .ok (M1, es1) => flipEdges M1 es1 fuel

/-- the loop body of `addPoint` for one boundary edge, geometry/SR_polygon.py:1483-1515 (without the two sets
of boundary edges to change, see `addPoint`); `v1` and `v2` are the same list object if `k1 = k2` is in the dict -/
def addEdge (M : Mesh K) (ip : ℤ) (e : ℤ × ℤ) : Except PyErr (Mesh K) :=
  match R.makeCcw M.points (Tri.sorted e.1 e.2 ip) with
  | .error x => .error x
  | .ok t =>
    let n := M.tris.length
    match M.e2t (makeKey e.1 e.2) with
    | none => .error .key
    | some v =>
      let d := M.e2t.set (makeKey e.1 e.2) (v ++ [n])
      let k1 := makeKey ip e.1
      let k2 := makeKey e.2 ip
      let v1 := (d k1).getD [] ++ [n]
      let v2 := (if k1 = k2 ∧ (d k1).isSome then v1 else (d k2).getD []) ++ [n]
      .ok { M with tris := M.tris ++ [t], e2t := (d.set k1 v1).set k2 v2 }

/-- the first loop of `addPoint`: new mesh and the visible edges, geometry/SR_polygon.py:1480-1515 -/
def addLoop (ip : ℤ) : List (ℤ × ℤ) → Mesh K → Except PyErr (Mesh K × List (ℤ × ℤ))
  | [], M => .ok (M, [])
  | e :: es, M =>
    match R.isEdgeVisible M.points ip e with
    | .error x => .error x
    | .ok false => addLoop ip es M
    | .ok true =>
      match R.addEdge M ip e with
      | .error x => .error x
      | .ok M1 =>
        match addLoop ip es M1 with
        | .error x => .error x
        | .ok (M2, vis) => .ok (M2, e :: vis)

/-- the new boundary: visible edges leave, `(e0, ip)` and `(ip, e1)` enter if only one triangle has them,
geometry/SR_polygon.py:1517-1527 -/
def _root_.Srep.newBoundary (M : Mesh K) (ip : ℤ) (vis : List (ℤ × ℤ)) : Except PyErr (List (ℤ × ℤ)) :=
  let cand := vis.flatMap fun e => [(e.1, ip), (ip, e.2)]
  if cand.all fun b => (M.e2t (makeKey b.1 b.2)).isSome then
    .ok ((M.bnd.filter fun b => decide (b ∉ vis)) ∪
      cand.filter fun b => decide (((M.e2t (makeKey b.1 b.2)).getD []).length = 1))
  else .error .key

/-- `addPoint` up to the flips, geometry/SR_polygon.py:1473-1527 -/
def addPoint (M : Mesh K) (ip : ℤ) : Except PyErr (Mesh K) :=
  match R.addLoop ip M.bnd M with
  | .error x => .error x
  | .ok (M1, vis) =>
    match newBoundary M1 ip vis with
    | .error x => .error x
    | .ok b => .ok { M1 with bnd := b }

/-- the loop of `triangulate` dropping points until the first three are not on one line,
geometry/SR_polygon.py:1252-1262 -/
def dropFlat : List (Pt K) → List (Pt K)
  | p :: q :: r :: l => if |R.areaOf p q r| < R.eps then dropFlat (q :: r :: l) else p :: q :: r :: l
  | l => l

/-- the first triangle and its tables, geometry/SR_polygon.py:1264-1285; `none`: all points on a line -/
def firstMesh (ps : List (Pt K)) : Option (Except PyErr (Mesh K)) :=
  if 3 ≤ (R.dropFlat ps).length then
    some (match R.makeCcw (R.dropFlat ps) ⟨0, 1, 2⟩ with
      | .error x => .error x
      | .ok t => .ok ⟨R.dropFlat ps, [t],
          (((E2T.empty).set (makeKey t.a t.b) [0]).set (makeKey t.b t.c) [0]).set (makeKey t.c t.a) [0],
          [(t.a, t.b), (t.b, t.c), (t.c, t.a)]⟩)
  else none

end Rt
end
end Srep
