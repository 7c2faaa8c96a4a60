import Verif.Model.Num

/-!
# Points, value level (geometry/SR_point.py)

A `Pt` is a *valid* `Point`: two float coordinates.  The object level (invalid points, cached validity,
subclasses, odd constructor arguments) is in `Model/PointObj.lean`.
-/

namespace Srep

/-- Python exceptions the code can raise. -/
inductive PyErr
  | assertion | index | type | zeroDiv | value | key | name | attribute | generic | notImplemented
  deriving DecidableEq, Repr

/-- Coordinates of a valid Point, geometry/SR_point.py:71-84. -/
structure Pt (K : Type) where
  x : K
  y : K
  deriving DecidableEq, Repr

section
variable {K : Type} [Field K] [LinearOrder K] [IsStrictOrderedRing K] [FloorRing K]

namespace Rt
variable (R : Rt K)

/-- `Point((x, y))` for numbers `x`, `y`: geometry/SR_point.py:22-29, 86-94. -/
def mkPt (x y : K) : Pt K := ⟨R.coord x, R.coord y⟩

/-- `Point.__eq__` on valid Points of the same class, geometry/SR_point.py:53-65. -/
def peq (p q : Pt K) : Bool :=
  decide (|R.sub p.x q.x| < R.tol) && decide (|R.sub p.y q.y| < R.tol)

/-- `hash(self._coords)`, geometry/SR_point.py:70-71. -/
def phash (p : Pt K) : Int := R.hash p.x p.y

/-- `distance`, geometry/SR_point.py:13-18 (validity asserts hold). -/
def distance (p q : Pt K) : K :=
  R.sqrt (R.add (R.sq (R.sub p.x q.x)) (R.sq (R.sub p.y q.y)))

/-- `Point.__add__` with a valid left operand, geometry/SR_point.py:47-51. -/
def ptAdd (p q : Pt K) : Pt K := R.mkPt (R.add p.x q.x) (R.add p.y q.y)

/-- `Point.__sub__` with a valid left operand, geometry/SR_point.py:41-45. -/
def ptSub (p q : Pt K) : Pt K := R.mkPt (R.sub p.x q.x) (R.sub p.y q.y)

/-- A point whose coordinates are what `_set_coords` stores. -/
def Stored (p : Pt K) : Prop := R.coord p.x = p.x ∧ R.coord p.y = p.y

instance (p : Pt K) : Decidable (R.Stored p) := by unfold Stored; infer_instance

end Rt
end
end Srep
