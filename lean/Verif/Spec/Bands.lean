import Verif.Spec.Ray

/-! Outlines around an axis, given by the coordinates of their corners: bands one above the other, with something at both ends. -/

namespace Srep
variable {K : Type}

/-- a band from the level `y0` to the level `y1` with its four corners -/
structure Band (K : Type) where
  y0 : K
  y1 : K
  l0 : K
  r0 : K
  l1 : K
  r1 : K

/-- bands one above the other, the first begins at `y`, `l`, `r` and the last ends at `y'`, `l'`, `r'` -/
def Bands : K → K → K → List (Band K) → K → K → K → Prop
  | y, l, r, [], y', l', r' => y = y' ∧ l = l' ∧ r = r'
  | y, l, r, m :: ms, y', l', r' => m.y0 = y ∧ m.l0 = l ∧ m.r0 = r ∧ Bands m.y1 m.l1 m.r1 ms y' l' r'

/-- the right and the left side of a band, upwards and downwards -/
def riseBand (m : Band K) : Seg K := ⟨⟨m.r0, m.y0⟩, ⟨m.r1, m.y1⟩, .wall⟩
def fallBand (m : Band K) : Seg K := ⟨⟨m.l1, m.y1⟩, ⟨m.l0, m.y0⟩, .wall⟩

/-- the top: two slopes to an apex, or one straight line -/
def lidUp (y l r : K) : Option (Pt K) → List (Seg K)
  | none => [⟨⟨r, y⟩, ⟨l, y⟩, .wall⟩]
  | some p => [⟨⟨r, y⟩, p, .wall⟩, ⟨p, ⟨l, y⟩, .wall⟩]

/-- the bottom -/
def lidDown (y l r : K) : Option (Pt K) → List (Seg K)
  | none => [⟨⟨l, y⟩, ⟨r, y⟩, .wall⟩]
  | some p => [⟨⟨l, y⟩, p, .wall⟩, ⟨p, ⟨r, y⟩, .wall⟩]

/-- the whole outline, counter-clockwise -/
def bandOutline (y l r : K) (ms : List (Band K)) (y' l' r' : K) (up down : Option (Pt K)) : List (Seg K) :=
  ms.map riseBand ++ (lidUp y' l' r' up ++ (ms.reverse.map fallBand ++ lidDown y l r down))

end Srep
