import Verif.Model.Polygon

/-! # Angles of triangles (geometry/SR_polygon.py) -/

namespace Srep
namespace Rt
variable {K : Type} [Field K] [LinearOrder K] [IsStrictOrderedRing K] [FloorRing K] (R : Rt K)

/-- two segments of the copy after the reversals at the beginning of a round, geometry/SR_polygon.py:1052-1061 -/
def toStart (s o : Seg K) : Seg K × Seg K :=
  if R.peq s.i o.j then (s, o.reversed)
  else if R.peq o.i s.j then (s.reversed, o)
  else if R.peq o.j s.j then (s.reversed, o.reversed)
  else (s, o)

/-- `Triangle.angles`, geometry/SR_polygon.py:1047-1065, for the three segments of a triangle (a Triangle has three, see
`is_triangle`): the pairs are (0, 1), (0, 2), (1, 2), and the reversals of earlier rounds stay.  The segments are those of a
deep copy, so that the triangle itself does not change.  The message printed for a wrong sum is left out. -/
def triAngles (a b c : Seg K) : Except PyErr (List K) :=
  let ab := R.toStart a b
  match R.angleBetween ab.1 ab.2 with
  | .error e => .error e
  | .ok x =>
    let ac := R.toStart ab.1 c
    match R.angleBetween ac.1 ac.2 with
    | .error e => .error e
    | .ok y =>
      let bc := R.toStart ab.2 ac.2
      match R.angleBetween bc.1 bc.2 with
      | .error e => .error e
      | .ok z => .ok [x, y, z]

/-- `Triangle.quality`, geometry/SR_polygon.py:1042-1045 -/
def triQuality (a b c : Seg K) : Except PyErr K :=
  (R.triAngles a b c).map fun l => R.psum (l.map fun x => |R.sub x 60|)

end Rt
end Srep
