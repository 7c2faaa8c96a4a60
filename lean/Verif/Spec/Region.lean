import Verif.Spec.Ray

/-! Paths in the plane that avoid or cross a polygon, independent of the code. -/

namespace Srep
variable {K : Type} [Field K] [LinearOrder K] [IsStrictOrderedRing K]

/-- the point is on no side -/
def OffSides (m : List (Seg K)) (p : Pt K) : Prop := ∀ s ∈ m, ¬ OnSeg s p

/-- the segment from `p` to `q` passes no vertex -/
def PassesNoVertex (m : List (Seg K)) (p q : Pt K) : Prop := ∀ s ∈ m, ¬ Between p q s.i ∧ ¬ Between p q s.j

/-- the straight pieces of the path through the points `c` -/
def pieces (c : List (Pt K)) : List (Pt K × Pt K) := c.zip c.tail

/-- a path with straight pieces that do not pass a vertex and do not end on a side -/
structure FreePath (m : List (Seg K)) (c : List (Pt K)) : Prop where
  off : ∀ p ∈ c, OffSides m p
  noVertex : ∀ x ∈ pieces c, PassesNoVertex m x.1 x.2

/-- how often the path meets a side -/
noncomputable def crossings (m : List (Seg K)) (c : List (Pt K)) : ℕ := ((pieces c).map fun x => meetCount m x.1 x.2).sum

/-- the path meets no side -/
def MissesAll (m : List (Seg K)) (c : List (Pt K)) : Prop :=
  (∀ p ∈ c, OffSides m p) ∧ ∀ x ∈ pieces c, ∀ s ∈ m, ¬ Meet x.1 x.2 s

/-- there is a line through `p` with all vertices on one side of it -/
def Separable (m : List (Seg K)) (p : Pt K) : Prop := ∃ r, ∀ s ∈ m, 0 < det3 p r s.i ∧ 0 < det3 p r s.j

end Srep
