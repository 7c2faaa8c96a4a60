import Verif.Spec.Ray

/-! Subdivision of polygons, independent of the code. -/

namespace Srep
variable {K : Type} [Field K] [LinearOrder K] [IsStrictOrderedRing K]

/-- `m` is `l` with some sides replaced by two halves that meet at an inner point of the side -/
inductive Refine : List (Seg K) → List (Seg K) → Prop
  | nil : Refine [] []
  | keep (s : Seg K) {l m : List (Seg K)} : Refine l m → Refine (s :: l) (s :: m)
  | cut (s : Seg K) (c : Pt K) {l m : List (Seg K)} : Inner s.i s.j c → Refine l m →
      Refine (s :: l) (⟨s.i, c, s.cls⟩ :: ⟨c, s.j, s.cls⟩ :: m)

end Srep
