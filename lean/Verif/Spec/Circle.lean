import Verif.Spec.Geom

/-! Circles through points; independent of the code. -/

namespace Srep
variable {K : Type} [Field K] [LinearOrder K]

/-- There is a circle through the three points having all other points of the list strictly outside. -/
def EmptyCircle (a b c : Pt K) (ps : List (Pt K)) : Prop :=
  ∃ z, dist2 z a = dist2 z b ∧ dist2 z b = dist2 z c ∧ ∀ p ∈ ps, p ≠ a → p ≠ b → p ≠ c → dist2 z a < dist2 z p

/-- zero if and only if the four points are on a circle or a line -/
def circDet (a b c d : Pt K) : K :=
  dist2 a d * det3 d b c + dist2 b d * det3 d c a + dist2 c d * det3 d a b

/-- No four of the points are on a circle, or nearly so.  `|circDet a p q b|` is the product of the four distances from
`a` and `b` to `p` and `q`, times the sine of the sum of the angles at `a` and `b` over `p q`; this sine has to be greater
than `10 ^ -7.5`, so that the sum is not between π and π (1 + 1e-8). -/
def NoFourOnCircle (ps : List (Pt K)) : Prop :=
  ∀ p ∈ ps, ∀ q ∈ ps, ∀ a ∈ ps, ∀ b ∈ ps, p ≠ q → p ≠ a → p ≠ b → q ≠ a → q ≠ b → a ≠ b →
    dist2 a p * dist2 a q * (dist2 b p * dist2 b q) < 10 ^ 15 * circDet a p q b ^ 2

end Srep
