import Verif.Spec.Ray

/-! Margins for calculations with rounding errors, independent of the code. -/

namespace Srep
variable {K : Type} [Field K] [LinearOrder K] [IsStrictOrderedRing K]

/-- the coordinates of `p` are at most `a` in absolute value -/
def Within (a : K) (p : Pt K) : Prop := |p.x| ≤ a ∧ |p.y| ≤ a

/-- the vector product of the directions of the line of sight from `p` to `t` and of the side `s` -/
def turnOf (p t : Pt K) (s : Seg K) : K := (t.x - p.x) * (s.j.y - s.i.y) - (t.y - p.y) * (s.j.x - s.i.x)

/-- enough room for rounding errors: the polygon and the point are in the square of half width `a`, the target in the one
of half width `b`, and no side is nearly parallel to the line of sight or very short compared with its distance from the
origin -/
structure Roomy (a b : K) (l : List (Seg K)) (p t : Pt K) : Prop where
  small : 1 / 10 ^ 6 ≤ a
  order : a ≤ b
  big : b ≤ 10 ^ 6
  point : Within a p
  target : Within b t
  ends : ∀ s ∈ l, Within a s.i ∧ Within a s.j
  steep : ∀ s ∈ l, a * a * b ≤ 2 ^ 15 * |turnOf p t s|

/-- all vertices, the point and the target are equal or at least 2e-5 apart in some coordinate -/
def WideSpread (l : List (Seg K)) (p t : Pt K) : Prop :=
  Apart (2 / 10 ^ 5) {q | q = p ∨ q = t ∨ ∃ s ∈ l, q = s.i ∨ q = s.j}

/-- a target in general position with enough room for rounding errors -/
structure SafeTarget (a b : K) (l : List (Seg K)) (p t : Pt K) : Prop where
  good : GoodTarget l p t
  room : Roomy a b l p t
  spread : WideSpread l p t

/-- what four rounded differences, two rounded products and a rounded difference can do to a vector product -/
def detMargin (a b c d : K) : K := (|a * b| + |c * d|) / 2 ^ 50

/-- `c` is off the line through `a` and `b` by more than rounding errors -/
def ClearTurn (a b c : Pt K) : Prop :=
  detMargin (b.x - a.x) (c.y - a.y) (b.y - a.y) (c.x - a.x) < |det3 a b c|

/-- the directions of two segments differ by more than rounding errors -/
def ClearAngle (s o : Seg K) : Prop :=
  detMargin (s.j.x - s.i.x) (o.j.y - o.i.y) (s.j.y - s.i.y) (o.j.x - o.i.x) < |turnOf s.i s.j o|

/-- the coordinates are multiples of the power of two `2 ^ j` by whole numbers of less than 25 bits -/
def Dyadic (j : ℤ) (p : Pt K) : Prop := ∃ m n : ℤ, |m| < 2 ^ 25 ∧ |n| < 2 ^ 25 ∧ p = ⟨m * 2 ^ j, n * 2 ^ j⟩

end Srep
