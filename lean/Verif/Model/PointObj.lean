import Verif.Model.Point

/-!
# Points, object level (geometry/SR_point.py)

Raw coordinates as stored, class tag and the cache behind `isvalid` (a `cached_property`).
-/

namespace Srep

/-- The Python scalars that can be passed as a coordinate.  `num x` is an int or float of value `x`
(`float(num)` succeeds), `text v` is a string (`float` succeeds with `v` or raises ValueError),
`none` is `None` and `other` any further non-number (both: `float` raises TypeError). -/
inductive PyVal (K : Type)
  | num (x : K)
  | text (v : Option K)
  | none
  | other
  deriving DecidableEq, Repr

/-- What is stored in `_coords` / passed as `args`: a tuple, a list, or something that is neither
iterable nor subscriptable (a number, `None`). -/
inductive PyCoords (K : Type)
  | tup (l : List (PyVal K))
  | lst (l : List (PyVal K))
  | scalar
  deriving DecidableEq, Repr

/-- class of the object -/
inductive PtCls | point | intex
  deriving DecidableEq, Repr

/-- A Point object: `_coords`, the cache of `isvalid` and the class. -/
structure PointObj (K : Type) where
  coords : PyCoords K
  cache : Option Bool
  cls : PtCls
  deriving DecidableEq, Repr

section
variable {K : Type} [Field K] [LinearOrder K] [IsStrictOrderedRing K] [FloorRing K]

/-- `EMPTY = (None, None)`, geometry/SR_point.py:7. -/
def emptyCoords : PyCoords K := .tup [.none, .none]

namespace PointObj
variable (R : Rt K)

/-- `round(float(x), PRECISION)` on one entry, geometry/SR_point.py:92. -/
def conv : PyVal K → Except PyErr (PyVal K)
  | .num x => .ok (.num (R.coord x))
  | .text (some x) => .ok (.num (R.coord x))
  | .text Option.none => .error .value
  | .none => .error .type
  | .other => .error .type

/-- the list comprehension in `_set_coords`: entries are converted left to right and the first failure
is raised, geometry/SR_point.py:92. -/
def convAll : List (PyVal K) → Except PyErr (List (PyVal K))
  | [] => .ok []
  | v :: vs => match conv R v with
    | .error e => .error e
    | .ok w => match convAll vs with
      | .error e => .error e
      | .ok ws => .ok (w :: ws)

/-- New value of `_coords` after `_set_coords(coords=a)`; `TypeError` is swallowed and the argument is
stored as it is, `ValueError` propagates.  geometry/SR_point.py:86-94. -/
def newCoords (a : PyCoords K) : Except PyErr (PyCoords K) :=
  match a with
  | .scalar => .ok .scalar
  | .tup l => match convAll R l with
    | .ok l' => .ok (.tup l')
    | .error .type => .ok a
    | .error e => .error e
  | .lst l => match convAll R l with
    | .ok l' => .ok (.tup l')
    | .error .type => .ok a
    | .error e => .error e

/-- `Point(args)` / `IntexPoint(args)`, geometry/SR_point.py:22-29,152-158. -/
def new (c : PtCls) (a : PyCoords K) : Except PyErr (PointObj K) :=
  match newCoords R a with
  | .ok co => .ok ⟨co, Option.none, c⟩
  | .error e => .error e

/-- `_set_coords` on an existing object (the cache is not touched), geometry/SR_point.py:88-94. -/
def setCoords (p : PointObj K) (a : PyCoords K) : Except PyErr (PointObj K) :=
  match newCoords R a with
  | .ok co => .ok { p with coords := co }
  | .error e => .error e

/-- `_empty`, geometry/SR_point.py:96-98. -/
def empty (p : PointObj K) : PointObj K := { p with coords := emptyCoords }

/-- `self._coords[n]`, geometry/SR_point.py:73-81. -/
def item (c : PyCoords K) (n : Nat) : Except PyErr (PyVal K) :=
  match c with
  | .scalar => .error .type
  | .tup l => match l[n]? with | some v => .ok v | Option.none => .error .index
  | .lst l => match l[n]? with | some v => .ok v | Option.none => .error .index

/-- `isinstance(v, (int, float))` -/
def isNumber : PyVal K → Bool
  | .num _ => true
  | _ => false

/-- body of `isvalid`, geometry/SR_point.py:110-124.  (`len(self.xy) != 2` never holds because `xy` is
always a pair, but evaluating it needs both items.) -/
def validNow (c : PyCoords K) : Except PyErr Bool :=
  if c = emptyCoords then .ok false
  else match item c 0 with
    | .error e => .error e
    | .ok vx =>
      if !isNumber vx then .ok false
      else match item c 1 with
        | .error e => .error e
        | .ok vy => if !isNumber vy then .ok false else .ok true

/-- `p.isvalid`: cached after the first successful evaluation, geometry/SR_point.py:109-124. -/
def isvalid (p : PointObj K) : Except PyErr (Bool × PointObj K) :=
  match p.cache with
  | some b => .ok (b, p)
  | Option.none => match validNow p.coords with
    | .ok b => .ok (b, { p with cache := some b })
    | .error e => .error e

/-- the number behind `p.x` / `p.y` used in arithmetic; arithmetic with a non-number is a TypeError
(`text` in a subtraction or `abs` also raises TypeError) -/
def number (p : PointObj K) (n : Nat) : Except PyErr K :=
  match item p.coords n with
  | .error e => .error e
  | .ok (.num x) => .ok x
  | .ok _ => .error .type

/-- `Point.__eq__` between two Point objects, geometry/SR_point.py:53-65: result and the two objects
afterwards (their caches may have been filled). -/
def eq (p q : PointObj K) : Except PyErr (Bool × PointObj K × PointObj K) := do
  let (vp, p') ← isvalid p
  if !vp then return (false, p', q)
  let (vq, q') ← isvalid q
  if !vq then return (false, p', q')
  if q'.cls ≠ p'.cls then return (false, p', q')
  let px ← number p' 0
  let py ← number p' 1
  let qx ← number q' 0
  let qy ← number q' 1
  return (R.peq ⟨px, py⟩ ⟨qx, qy⟩, p', q')

/-- `Point.__ne__`, geometry/SR_point.py:67-68. -/
def ne (p q : PointObj K) : Except PyErr (Bool × PointObj K × PointObj K) :=
  match eq R p q with
  | .ok (b, p', q') => .ok (!b, p', q')
  | .error e => .error e

/-- result of `p + q`, `p - q`: a Point or an explanatory string -/
inductive SumRes (K : Type)
  | pt (p : PointObj K)
  | msg
  deriving DecidableEq, Repr

/-- `Point.__add__`, geometry/SR_point.py:47-51. -/
def add (p q : PointObj K) : Except PyErr (SumRes K) := do
  let (vp, p') ← isvalid p
  if vp then
    let px ← number p' 0
    let qx ← number q 0
    let py ← number p' 1
    let qy ← number q 1
    let r ← new R .point (.tup [.num (R.add px qx), .num (R.add py qy)])
    return .pt r
  else return .msg

/-- `Point.__sub__`, geometry/SR_point.py:41-45. -/
def sub (p q : PointObj K) : Except PyErr (SumRes K) := do
  let (vp, p') ← isvalid p
  if vp then
    let px ← number p' 0
    let qx ← number q 0
    let py ← number p' 1
    let qy ← number q 1
    let r ← new R .point (.tup [.num (R.sub px qx), .num (R.sub py qy)])
    return .pt r
  else return .msg

/-- module-level `distance`, geometry/SR_point.py:13-18. -/
def distance (p q : PointObj K) : Except PyErr K := do
  let (vp, p') ← isvalid p
  if !vp then throw .assertion
  let (vq, q') ← isvalid q
  if !vq then throw .assertion
  let px ← number p' 0
  let qx ← number q' 0
  let py ← number p' 1
  let qy ← number q' 1
  return R.distance ⟨px, py⟩ ⟨qx, qy⟩

/-- Operations of a history of one Point object. -/
inductive Op (K : Type)
  | set (a : PyCoords K)
  | empty
  | query
  deriving DecidableEq, Repr

/-- Run a history and collect the answers of the validity queries. A `set` raising ValueError leaves the
object as it was (the caller catches the exception and goes on). -/
def run (p : PointObj K) : List (Op K) → List (Except PyErr Bool)
  | [] => []
  | .set a :: ops => match setCoords R p a with
    | .ok p' => run p' ops
    | .error _ => run p ops
  | .empty :: ops => run (empty p) ops
  | .query :: ops => match isvalid p with
    | .ok (b, p') => .ok b :: run p' ops
    | .error e => .error e :: run p ops

end PointObj
end
end Srep
