import Verif.Spec.Ray
import Verif.Model.Vessel

/-! Stacks of shells: the dimensions fit together, and the outline they draw with something at both ends. -/

namespace Srep
variable {K : Type} [Field K] [LinearOrder K] [IsStrictOrderedRing K]

/-- shells on the axis `c`, one above the other, from the level `y` with the radius `w` to the level `y'` with the radius `w'` -/
def Stack (c : K) : K → K → List (MantelDim K) → K → K → Prop
  | y, w, [], y', w' => y = y' ∧ w = w'
  | y, w, m :: ms, y', w' => m.posH = c ∧ m.posV = y ∧ m.d0 / 2 = w ∧ Stack c (y + m.h) (m.d1 / 2) ms y' w'

/-- the top: two slopes to an apex that is higher by `t`, or one straight line -/
def capUp (c y w : K) : Option K → List (Seg K)
  | none => [⟨⟨c + w, y⟩, ⟨c - w, y⟩, .wall⟩]
  | some t => [⟨⟨c + w, y⟩, ⟨c, y + t⟩, .wall⟩, ⟨⟨c, y + t⟩, ⟨c - w, y⟩, .wall⟩]

/-- the bottom: two slopes to an apex that is lower by `u`, or one straight line -/
def capDown (c y w : K) : Option K → List (Seg K)
  | none => [⟨⟨c - w, y⟩, ⟨c + w, y⟩, .wall⟩]
  | some u => [⟨⟨c - w, y⟩, ⟨c, y - u⟩, .wall⟩, ⟨⟨c, y - u⟩, ⟨c + w, y⟩, .wall⟩]

/-- the right and the left wall of a shell, upwards and downwards -/
def riseOf (m : MantelDim K) : Seg K := ⟨⟨m.posH + m.d0 / 2, m.posV⟩, ⟨m.posH + m.d1 / 2, m.posV + m.h⟩, .wall⟩
def fallOf (m : MantelDim K) : Seg K := ⟨⟨m.posH - m.d1 / 2, m.posV + m.h⟩, ⟨m.posH - m.d0 / 2, m.posV⟩, .wall⟩

/-- the whole outline, counter-clockwise -/
def towerOutline (c y w : K) (ms : List (MantelDim K)) (y' w' : K) (up down : Option K) : List (Seg K) :=
  ms.map riseOf ++ (capUp c y' w' up ++ (ms.reverse.map fallOf ++ capDown c y w down))

end Srep
