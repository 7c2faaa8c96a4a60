import Verif.Spec.Ray

/-! The convex hull of a set of points, by its supporting lines; independent of the code. -/

namespace Srep
variable {K : Type} [Field K] [LinearOrder K] [IsStrictOrderedRing K]

/-- the line from `a` to `b`, two members of `S`, has all members of `S` on it or to its left -/
def Supports (S : Set (Pt K)) (a b : Pt K) : Prop := a ∈ S ∧ b ∈ S ∧ a ≠ b ∧ ∀ q ∈ S, 0 ≤ det3 a b q

/-- strictly inside of the convex hull of `S` (not all members of `S` on one line): strictly to the left of all
supporting lines -/
def InHull (S : Set (Pt K)) (p : Pt K) : Prop := ∀ a b, Supports S a b → 0 < det3 a b p

/-- strictly outside: strictly to the right of a supporting line -/
def OffHull (S : Set (Pt K)) (p : Pt K) : Prop := ∃ a b, Supports S a b ∧ det3 a b p < 0

/-- a member of `S` that is the only one farthest in some direction: a vertex of the convex hull -/
def Extreme (S : Set (Pt K)) (p : Pt K) : Prop :=
  p ∈ S ∧ ∃ u v : K, ∀ q ∈ S, q ≠ p → 0 < u * (q.x - p.x) + v * (q.y - p.y)

/-- a side of the convex hull -/
def HullSide (S : Set (Pt K)) (a b : Pt K) : Prop := Supports S a b ∧ Extreme S a ∧ Extreme S b

/-- not all members of `S` are on one line -/
def Plane (S : Set (Pt K)) : Prop := ∃ a ∈ S, ∃ b ∈ S, ∃ c ∈ S, det3 a b c ≠ 0

/-- a target in general position seen from `p`: to the right of `p` and of `S`, the line from `p` to the target passes
no vertex of the hull of `S`, there are no near misses at the supporting lines, and nothing is closer than 1e-5 -/
structure GoodFor (S : Set (Pt K)) (p t : Pt K) : Prop where
  right : p.x < t.x
  beyond : ∀ q ∈ S, q.x < t.x
  noVertex : ∀ q, Extreme S q → det3 p t q ≠ 0
  clear : ∀ a b, Supports S a b → Clear p t ⟨a, b, .line⟩
  spread : Apart (1 / 10 ^ 5) {q | q = p ∨ q = t ∨ q ∈ S}

/-- strictly inside of the convex hull, or on one of its sides (but not a vertex) with all targets on the outer side of it -/
def Seems (S : Set (Pt K)) (T : Set (Pt K)) (p : Pt K) : Prop :=
  InHull S p ∨ ∃ a b, HullSide S a b ∧ Inner a b p ∧ ∀ t ∈ T, det3 a b t < 0

/-- a point where the targets `T` decide: a vertex of the hull; or all targets are in general position, and it is
strictly inside or outside of the hull or on one of its sides with all targets on one side of it -/
def Settled (S : Set (Pt K)) (T : Set (Pt K)) (p : Pt K) : Prop :=
  Extreme S p ∨ (∀ t ∈ T, GoodFor S p t) ∧ (InHull S p ∨ OffHull S p ∨
    ∃ a b, HullSide S a b ∧ Inner a b p ∧ ((∀ t ∈ T, det3 a b t < 0) ∨ ∀ t ∈ T, 0 < det3 a b t))

/-- the endpoints of the segments of the parts of a cycle -/
def corners (c : List (List (Seg K))) : Set (Pt K) := {p | ∃ m ∈ c, ∃ s ∈ m, p = s.i ∨ p = s.j}

end Srep
