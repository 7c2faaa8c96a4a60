import Verif.Model.Raum
import Verif.Model.Split

/-!
# The walls of a room as a polygon (SR_Vessel/SR_hauptteile.py, `Raum`)

The rooms are those of Model/Raum.lean; `ht` is the attribute `hauptteil` of a Graph object, `segs` the attribute `segments` of a
part.
-/

namespace Srep

section
variable {α β : Type}

/-- `innere_wandung`, SR_Vessel/SR_hauptteile.py:175-178 (the elements of the generator) -/
def Raum.innereWandung (r : Raum α) (ht : α → β) : List β := r.inner.flatten.map ht

/-- `aussere_wandung`, SR_Vessel/SR_hauptteile.py:180-183 -/
def Raum.aussereWandung (r : Raum α) (ht : α → β) : List β := r.outer.flatten.map ht

/-- `ganze_wandung`, SR_Vessel/SR_hauptteile.py:185-188 -/
def Raum.ganzeWandung (r : Raum α) (ht : α → β) : List β := r.innereWandung ht ++ r.aussereWandung ht

/-- `nonwall_segments`, SR_Vessel/SR_hauptteile.py:508-511 -/
def nonWallsOf {K : Type} (l : List (Seg K)) : List (Seg K) := l.filter fun s => decide (s.cls = .nonWall)

/-- the segments of `as_polygon`, SR_Vessel/SR_hauptteile.py:197-203; the argument of `PolygonLine` is an iterator, which is never
false, so that a room without walls gives a polygon without segments -/
def Raum.asPolygon {K : Type} (r : Raum α) (ht : α → β) (segs : β → List (Seg K)) : List (Seg K) :=
  (r.ganzeWandung ht).flatMap fun p => wallsOf (segs p)

end
end Srep
