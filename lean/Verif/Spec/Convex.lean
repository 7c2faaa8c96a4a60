import Verif.Spec.Geom
import Mathlib.Data.List.Rotate

/-! Convexity of a closed polygon, told by its corners. -/

namespace Srep
variable {K : Type} [Field K] [LinearOrder K] [IsStrictOrderedRing K]

/-- no corner is strictly to the right of a side -/
def NoneRight (l : List (Seg K)) : Prop := ∀ s ∈ l, ∀ o ∈ l, 0 ≤ det3 s.i s.j o.i

/-- no corner is strictly to the left of a side -/
def NoneLeft (l : List (Seg K)) : Prop := ∀ s ∈ l, ∀ o ∈ l, det3 s.i s.j o.i ≤ 0

/-- the polygon goes round once: in some direction `(a, b)`, starting at a suitable corner, its sides go forwards and then
backwards -/
def OnceRound (l : List (Seg K)) : Prop :=
  ∃ (a b : K) (fwd back : List (Seg K)), l ~r (fwd ++ back) ∧
    (∀ s ∈ fwd, 0 < a * (s.j.x - s.i.x) + b * (s.j.y - s.i.y)) ∧
    ∀ s ∈ back, a * (s.j.x - s.i.x) + b * (s.j.y - s.i.y) < 0

/-- sides that follow one another have only their common corner in common: the polygon does not turn back at a corner -/
def NoTurnBack (l : List (Seg K)) : Prop :=
  ∀ k (hk : k < l.length) p, Between l[k].i l[k].j p →
    Between (l[(k + 1) % l.length]'(Nat.mod_lt _ (by omega))).i (l[(k + 1) % l.length]'(Nat.mod_lt _ (by omega))).j p → p = l[k].j

end Srep
