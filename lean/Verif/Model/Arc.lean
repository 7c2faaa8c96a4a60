import Verif.Model.Heap

/-! # Circular arcs (geometry/SR_polygon.py) -/

namespace Srep
variable {K : Type} [Field K] [LinearOrder K] [IsStrictOrderedRing K] [FloorRing K]

namespace Rt
variable (R : Rt K)

/-- `x % 360` for a float, geometry/SR_polygon.py:1750 -/
def mod360 (x : K) : K := R.fl (x - 360 * ⌊x / 360⌋)

/-- the node with number `st` of `arc`, geometry/SR_polygon.py:1745-1751 -/
def arcNode (r a b : K) (n st : ℕ) : K × K :=
  let deg := R.mod360 (R.mul st (R.div (R.sub b a) n))
  (R.mul r (R.trig.cos (R.trig.radians deg)), R.mul r (R.trig.sin (R.trig.radians deg)))

/-- `nodes` of `arc`, geometry/SR_polygon.py:1749-1751 -/
def arcNodes (r a b : K) (n : ℕ) : List (K × K) := (List.range (n + 1)).map (R.arcNode r a b n)

/-- `arc(P, r, alpha_start=a, alpha_end=b, n, cw)`, geometry/SR_polygon.py:1727-1760, with the centre (px, py) given as a
Point, list or tuple of numbers; `n` is a number of segments (a negative one fails the same assertion as 0) -/
def arcH (h : Heap K) (px py r a b : K) (n : ℕ) (cw : Bool) : Except PyErr (Heap K × PLine) :=
  if ¬ (0 ≤ a ∧ a < 360) then .error .assertion
  else if ¬ (0 < b ∧ b ≤ 360) then .error .assertion
  else if ¬ a < b then .error .assertion
  else if ¬ 0 < r then .error .assertion
  else if ¬ 0 < n then .error .assertion
  else match R.fromNodesH h (R.arcNodes r a b n) cw with
    | .error e => .error e
    | .ok q =>
      let t := R.plRotate q.1 q.2 a
      .ok (R.plMove t.1 t.2 px py)

end Rt
end Srep
