import Verif.Model.Tools
import Verif.Model.Flat
import Verif.Model.Split

/-!
# The graph of a part: `Graph.renew` and `add_intex_points` (geometry/SR_polygon_group.py)

The graph is a polyline with its sure points (`MarkedPoly`).  Exceptions leave the graph as it is at that moment, so the functions return the
graph together with the exception, if there is one.
-/

namespace Srep
variable {K : Type} [Field K] [LinearOrder K] [IsStrictOrderedRing K] [FloorRing K]

/-- the keys of the inner dicts of `intex_points`, geometry/SR_polygon_group.py:779-786; `other` is any other key -/
inductive IxKey
  | internal | external | indifferent | other
  deriving DecidableEq

/-- one value of the attribute `intex_points` of a part: for a segment the dict under this key, as its items in order;
`none` if there is no such key -/
abbrev IxDict (K : Type) := Seg K → Option (List (IxKey × List (Pt K)))

namespace Rt
variable (R : Rt K)

/-- `add_internal_point`, `add_external_point`, `add_indifferent_point` for the points of one list, geometry/SR_polygon.py:276-286, and the
branches of geometry/SR_polygon_group.py:778-786.  `IntexPoint(args=p.xy)` rounds the coordinates.  The second part of the result is
true if the exception 'WTF' is raised. -/
def addKey (s : Seg K) (k : IxKey) (ps : List (Pt K)) (g : MarkedPoly K) : MarkedPoly K × Bool :=
  let l := ps.map fun p => (R.mkPt p.x p.y, s)
  match k with
  | .internal => ({ g with internal := g.internal ++ l }, false)
  | .external => ({ g with external := g.external ++ l }, false)
  | .indifferent => ({ g with indifferent := g.indifferent ++ l }, false)
  | .other => (g, !ps.isEmpty)

/-- the loop over the keys of one segment, geometry/SR_polygon_group.py:777-786; `ev n` is the n-th evaluation of `hauptteil.intex_points`
(the property is evaluated anew each time and may use random numbers).  The number is the next evaluation. -/
def addKeys (ev : ℕ → Except PyErr (IxDict K)) (s : Seg K) : ℕ → List IxKey → MarkedPoly K → MarkedPoly K × ℕ × Option PyErr
  | n, [], g => (g, n, none)
  | n, k :: ks, g =>
    match ev n with
    | .error e => (g, n + 1, some e)
    | .ok d =>
      match d s with
      | none => (g, n + 1, some .key)
      | some items =>
        match items.lookup k with
        | none => (g, n + 1, some .key)
        | some ps =>
          match R.addKey s k ps g with
          | (g', true) => (g', n + 1, some .generic)
          | (g', false) => addKeys ev s (n + 1) ks g'

/-- the loop over the segments, geometry/SR_polygon_group.py:776-786 -/
def addSegs (ev : ℕ → Except PyErr (IxDict K)) : ℕ → List (Seg K) → MarkedPoly K → MarkedPoly K × ℕ × Option PyErr
  | n, [], g => (g, n, none)
  | n, s :: ss, g =>
    match ev n with
    | .error e => (g, n + 1, some e)
    | .ok d =>
      match d s with
      | none => (g, n + 1, some .key)
      | some items =>
        match R.addKeys ev s (n + 1) (items.map Prod.fst) g with
        | (g', n', some e) => (g', n', some e)
        | (g', n', none) => addSegs ev n' ss g'

/-- `add_intex_points`, geometry/SR_polygon_group.py:769-786 -/
def addIntexPoints (ev : ℕ → Except PyErr (IxDict K)) (n : ℕ) (g : MarkedPoly K) : MarkedPoly K × ℕ × Option PyErr :=
  R.addSegs ev n g.segs g

/-- `Graph.renew`, geometry/SR_polygon_group.py:761-767; `repr` is `hauptteil.graphrepr_segments` (by values) -/
def renew (ev : ℕ → Except PyErr (IxDict K)) (n : ℕ) (repr : List (Seg K)) (g : MarkedPoly K) : MarkedPoly K × ℕ × Option PyErr :=
  let g := { g with segs := repr }
  let g := { g with internal := [] }
  let g := { g with indifferent := [] }
  let g := { g with external := [] }
  R.addIntexPoints ev n g

/-- `Graph(hauptteil)` and then `add_intex_points`, as in the constructors of the parts: geometry/SR_polygon_group.py:756-759,
geometry/SR_polygon.py:24-31, SR_Vessel/SR_hauptteile.py:740-741; `none` without segments, where `PolygonLine` takes two empty
LineSegments (not modelled) -/
def newGraph (ev : ℕ → Except PyErr (IxDict K)) (n : ℕ) (repr : List (Seg K)) : Option (MarkedPoly K × ℕ × Option PyErr) :=
  match repr with
  | [] => none
  | s :: l => some (R.addIntexPoints ev n ⟨s :: l, [], [], []⟩)

/-- `Flachboden.intex_points`, SR_Vessel/SR_hauptteile.py:921-936, for the segments `l` of the part; the dict is read by the value of the
segment -/
def plateDict (m : PlateDim K) (l : List (Seg K)) : IxDict K := fun s =>
  if s ∈ wallsOf l then some [(.internal, []), (.external, []), (.indifferent, R.plateIntex m)] else none

/-- `RaumEnde.intex_points`, SR_Vessel/SR_hauptteile.py:1335-1347 -/
def _root_.Srep.endDict (l : List (Seg K)) : IxDict K := fun s =>
  if s ∈ wallsOf l then some [(.internal, []), (.external, []), (.indifferent, [])] else none

end Rt
end Srep
