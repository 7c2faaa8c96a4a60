import Verif.Model.Ear
import Verif.Model.Contained

/-!
# `triangle_mesh` and `area` of polygons (geometry/SR_polygon.py)

The triangulation itself is done by the third-party library `triangle`; it is a function from the vertices and the
pairs of vertex numbers to an answer (`none` if the answer has no key 'triangles').
-/

namespace Srep

/-- the library `triangle`: vertices and segments to vertices and triangles, geometry/SR_polygon.py:927-936 -/
abbrev TriLib (K : Type) := List (Pt K) → List (ℕ × ℕ) → Option (List (K × K) × List (ℕ × ℕ × ℕ))

section
variable {K : Type} [Field K] [LinearOrder K] [IsStrictOrderedRing K] [FloorRing K]

namespace Rt
variable (R : Rt K)

/-- the lookup `_segs[p]` in the dict from Points to numbers, geometry/SR_polygon.py:921-923 -/
def vertexNo (vs : List (Pt K)) (p : Pt K) : Except PyErr ℕ :=
  match vs.findIdx? fun v => decide (R.phash v = R.phash p) && R.peq v p with
  | some k => .ok k
  | none => .error .key

/-- the segments as pairs of numbers, geometry/SR_polygon.py:915-923 -/
def meshSegments (l : List (Seg K)) : Except PyErr (List (ℕ × ℕ)) :=
  l.mapM fun s => do
    let a ← R.vertexNo (R.pointSet l) s.i
    let b ← R.vertexNo (R.pointSet l) s.j
    pure (a, b)

/-- vertices of the answer that are not known get the next number, geometry/SR_polygon.py:938-941 -/
def meshVertices (vs : List (Pt K)) : List (K × K) → List (Pt K)
  | [] => vs
  | v :: l =>
    if vs.any fun w => R.peq w (R.mkPt v.1 v.2) then meshVertices vs l
    else meshVertices (vs ++ [R.mkPt v.1 v.2]) l

/-- `Triangle` of three numbered vertices, geometry/SR_polygon.py:944-946; the new objects of one triangle are not used
for another one, so each is built in the memory `h` as it is before the loop.  The value is the list of its segments. -/
def meshTri (h : Heap K) (vs : List (Pt K)) (t : ℕ × ℕ × ℕ) : Except PyErr (List (Seg K)) :=
  match vs[t.1]?, vs[t.2.1]?, vs[t.2.2]? with
  | some a, some b, some c =>
    match R.fromNodesH h [(a.x, a.y), (b.x, b.y), (c.x, c.y)] false with
    | .error e => .error e
    | .ok (h1, P) =>
      match R.closeH h1 P with
      | .error e => .error e
      | .ok (h2, Q) =>
        match R.triangleNew h2 Q.segs with
        | (_, .error e) => .error e
        | (h3, .ok T) => .ok (h3.vals T.segs)
  | _, _, _ => .error .key

/-- `triangle_ok` of `triangle_mesh`, geometry/SR_polygon.py:881-903; `.error none`: a test of a point has not ended.
`ω 0` are the random targets of the test of the midpoint, `ω (n + 1)` those of the n-th vertex tested. -/
def meshOk (l T : List (Seg K)) (ω : ℕ → ℕ → Pt K) (fuel : ℕ) : Except (Option PyErr) Bool :=
  match R.plMidpoint T with
  | .error e => .error (some e)
  | .ok M =>
    match R.plInternal l M (ω 0) fuel with
    | none => .error none
    | some false => .ok false
    | some true =>
      match R.internalPts T fuel (fun n => ω (n + 1))
          ((R.pointSet l).filter fun x => !(R.pointSet T).any fun y => R.peq y x) with
      | none => .error none
      | some (_ :: _) => .ok false
      | some [] =>
        match R.triArea T with
        | .error e => .error (some e)
        | .ok A => .ok (!decide (A ≤ 0))

/-- the loop over the triangles of the answer, geometry/SR_polygon.py:943-949.  Simplified: the triangles go into a set, where
equal ones are stored once if the generator objects made for their hashes have the same address; C99_distinct: triangles with
different corners are never equal. -/
def meshLoop (h : Heap K) (l : List (Seg K)) (vs : List (Pt K)) (fuel : ℕ) :
    (ℕ → ℕ → ℕ → Pt K) → List (ℕ × ℕ × ℕ) → Except (Option PyErr) (List (List (Seg K)))
  | _, [] => .ok []
  | ω, t :: ts =>
    match R.meshTri h vs t with
    | .error e => .error (some e)
    | .ok T =>
      match R.meshOk l T (ω 0) fuel with
      | .error e => .error e
      | .ok b => (meshLoop h l vs fuel (fun n => ω (n + 1)) ts).map fun r => if b then T :: r else r

/-- `triangle_mesh`, geometry/SR_polygon.py:845-947: the triangles stored in the polygon -/
def triangleMesh (lib : TriLib K) (h : Heap K) (l : List (Seg K)) (ω : ℕ → ℕ → ℕ → Pt K) (fuel : ℕ) :
    Except (Option PyErr) (List (List (Seg K))) :=
  match R.meshSegments l with
  | .error e => .error (some e)
  | .ok segs =>
    match lib (R.pointSet l) segs with
    | none => .ok []
    | some a => R.meshLoop h l (R.meshVertices (R.pointSet l) a.1) fuel ω a.2

/-- the areas of the triangles -/
def meshAreas : List (List (Seg K)) → Except PyErr (List K)
  | [] => .ok []
  | T :: r =>
    match R.triArea T with
    | .error e => .error e
    | .ok A => (meshAreas r).map fun m => A :: m

/-- the value in the dict `detailled_area`, geometry/SR_polygon.py:615-625 (`TRIANGULATION_ALGORITHM` is 'triangle'); the
order of the sum is that of the answer (the code sums over a set) -/
def detailledArea (lib : TriLib K) (h : Heap K) (l : List (Seg K)) (ω : ℕ → ℕ → ℕ → Pt K) (fuel : ℕ) :
    Except (Option PyErr) K :=
  match R.triangleMesh lib h l ω fuel with
  | .error e => .error e
  | .ok r =>
    match R.meshAreas r with
    | .error e => .error (some e)
    | .ok m => .ok (R.round8 (R.psum m))

/-- `area`, geometry/SR_polygon.py:600-613: the dict has one value, so the first branch is always taken, where everything
is calculated for a second time -/
def polyArea (lib : TriLib K) (h : Heap K) (l : List (Seg K)) (ω ω' : ℕ → ℕ → ℕ → Pt K) (fuel : ℕ) :
    Except (Option PyErr) K :=
  match R.detailledArea lib h l ω fuel with
  | .error e => .error e
  | .ok _ => R.detailledArea lib h l ω' fuel

/-- `area` is a cached property, geometry/SR_polygon.py:600: a value once calculated is kept in the object (`cache`).
Returns the value and the new state of the cache. -/
def areaGet (lib : TriLib K) (cache : Option K) (h : Heap K) (l : List (Seg K)) (ω ω' : ℕ → ℕ → ℕ → Pt K) (fuel : ℕ) :
    Except (Option PyErr) K × Option K :=
  match cache with
  | some a => (.ok a, cache)
  | none =>
    match R.polyArea lib h l ω ω' fuel with
    | .error e => (.error e, none)
    | .ok a => (.ok a, some a)

end Rt
end
end Srep
