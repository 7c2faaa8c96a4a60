import Verif.Spec.Geom

/-! Rays, crossings and convex polygons, independent of the code. -/

namespace Srep
variable {K : Type} [Field K] [LinearOrder K] [IsStrictOrderedRing K]

/-- the two closed segments `p`–`t` and `s` have a common point -/
def Meet (p t : Pt K) (s : Seg K) : Prop := ∃ X, Between p t X ∧ OnSeg s X

/-- `p` is between `a` and `b`, but neither of them -/
def Inner (a b p : Pt K) : Prop := ∃ u : K, 0 < u ∧ u < 1 ∧ p = lerp a b u

/-- `X` is outside of the bounding box of `a` and `b` by more than 2e-8 in some direction -/
def FarFromBox (a b X : Pt K) : Prop :=
  X.x < min a.x b.x - 2 / 10 ^ 8 ∨ max a.x b.x + 2 / 10 ^ 8 < X.x ∨
  X.y < min a.y b.y - 2 / 10 ^ 8 ∨ max a.y b.y + 2 / 10 ^ 8 < X.y

/-- no near miss: the common point of the two lines is on both segments, or clearly outside of one of them -/
def Clear (p t : Pt K) (s : Seg K) : Prop :=
  ∀ X, OnLine p t X → OnLine s.i s.j X → (Between p t X ∧ OnSeg s X) ∨ FarFromBox p t X ∨ FarFromBox s.i s.j X

/-- a strictly convex polygon, counter-clockwise: closed, vertices different, and every vertex is strictly to the left
of every side it is not an end of -/
structure ConvexCcw (l : List (Seg K)) : Prop where
  chain : ClosedChain l
  nodup : (l.map Seg.i).Nodup
  left : ∀ s ∈ l, ∀ o ∈ l, o.i = s.i ∨ o.i = s.j ∨ 0 < det3 s.i s.j o.i

/-- strictly inside: to the left of all sides -/
def InsideCcw (l : List (Seg K)) (p : Pt K) : Prop := ∀ s ∈ l, 0 < det3 s.i s.j p

/-- strictly outside: to the right of a side -/
def OutsideCcw (l : List (Seg K)) (p : Pt K) : Prop := ∃ s ∈ l, det3 s.i s.j p < 0

/-- the same polygon passed in the opposite direction -/
def oppositeWay (l : List (Seg K)) : List (Seg K) := l.reverse.map fun s => ⟨s.j, s.i, s.cls⟩

/-- a target in general position, seen from `p`: to the right of `p` and of all vertices, the line through `p` and the
target passes no vertex, and there are no near misses -/
structure GoodTarget (l : List (Seg K)) (p t : Pt K) : Prop where
  right : p.x < t.x
  beyond : ∀ s ∈ l, s.i.x < t.x ∧ s.j.x < t.x
  noVertex : ∀ s ∈ l, det3 p t s.i ≠ 0 ∧ det3 p t s.j ≠ 0
  clear : ∀ s ∈ l, Clear p t s

/-- all vertices, the point and the target are equal or at least 1e-5 apart in some coordinate -/
def Spread (l : List (Seg K)) (p t : Pt K) : Prop :=
  Apart (1 / 10 ^ 5) {q | q = p ∨ q = t ∨ ∃ s ∈ l, q = s.i ∨ q = s.j}

open Classical in
/-- the number of sides of `l` that meet the segment from `p` to `t` -/
noncomputable def meetCount (l : List (Seg K)) (p t : Pt K) : ℕ := (l.filter fun s => decide (Meet p t s)).length

/-- the same side, perhaps passed in the opposite direction or of another class -/
def SameEdge (s o : Seg K) : Prop := (s.i = o.i ∧ s.j = o.j) ∨ (s.i = o.j ∧ s.j = o.i)

/-- the same sides in any order, each passed in any direction -/
def SameDrawing (l m : List (Seg K)) : Prop := ∃ l' : List (Seg K), l'.Perm l ∧ List.Forall₂ SameEdge l' m

/-- no side is drawn twice -/
def NoDouble (l : List (Seg K)) : Prop := l.Pairwise fun a b => ¬ SameEdge a b

end Srep
