import Verif.Model.Line

/-! Plain geometric notions the properties are stated with; independent of the code. -/

namespace Srep
variable {K : Type} [Field K] [LinearOrder K] [IsStrictOrderedRing K]

/-- Distinct members are at least `t` apart in some coordinate. -/
def Apart (t : K) (S : Set (Pt K)) : Prop :=
  ∀ p ∈ S, ∀ q ∈ S, p ≠ q → t ≤ |p.x - q.x| ∨ t ≤ |p.y - q.y|

/-- determinant of the vectors a→b and a→c: positive iff c is to the left of a→b -/
def det3 (a b c : Pt K) : K := (b.x - a.x) * (c.y - a.y) - (b.y - a.y) * (c.x - a.x)

/-- the point a + t (b - a) -/
def lerp (a b : Pt K) (t : K) : Pt K := ⟨a.x + t * (b.x - a.x), a.y + t * (b.y - a.y)⟩

/-- `q` lies on the infinite line through `a` and `b` -/
def OnLine (a b q : Pt K) : Prop := ∃ t : K, q = lerp a b t

/-- `q` lies on the closed segment from `a` to `b` -/
def Between (a b q : Pt K) : Prop := ∃ t : K, 0 ≤ t ∧ t ≤ 1 ∧ q = lerp a b t

/-- the closed segment of a LineSegment object -/
def OnSeg (s : Seg K) (q : Pt K) : Prop := Between s.i s.j q

/-- squared Euclidean distance -/
def dist2 (a b : Pt K) : K := (a.x - b.x) * (a.x - b.x) + (a.y - b.y) * (a.y - b.y)

/-- the two ends of a returned segment object, if it is a segment with two ends -/
def Part.ends? : Part K → Option (Pt K × Pt K)
  | .seg s => some (s.i, s.j)
  | .segN [a, b] => some (a, b)
  | _ => none

/-- every segment ends where the next one starts, and the last one where the first one starts -/
def ClosedChain (l : List (Seg K)) : Prop :=
  ∀ k (hk : k < l.length), (l[k]).j = (l[(k + 1) % l.length]'(Nat.mod_lt _ (by omega))).i

end Srep
