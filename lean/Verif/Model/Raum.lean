import Verif.Model.Group

/-!
# Rooms of a vessel: their walls and their relation to the parts (SR_Vessel/SR_hauptteile.py)

The parts are elements of an arbitrary type `α` (they are Graph objects); `inter` is the intersection of two sets of
parts as a list, `eqv` is `==` of parts or identity.
-/

namespace Srep

/-- a `Raum`, SR_Vessel/SR_hauptteile.py:164-170: the number of its cycle, `_aussere_wandung` and `_innere_wandung` -/
structure Raum (α : Type) where
  cycle : ℕ
  outer : List (List α)
  inner : List (List α)
  deriving DecidableEq

section
variable {α : Type}

/-- `sic[s]`; all numbers looked up are keys of the dict -/
def sicAt (sic : List (ℕ × List α)) (s : ℕ) : List α := (sic.lookup s).getD []

/-- `[x for x in sic[s] if x not in self.all_overlapping_segments]` for both `s in k`, one after the other,
SR_Vessel/SR_hauptteile.py:293-294, 300-304; `all` is `all_overlapping_segments` -/
def ownParts (eqv : α → α → Bool) (sic : List (ℕ × List α)) (all : List α) (k : ℕ × ℕ) : List α :=
  (sicAt sic k.1 ++ sicAt sic k.2).filter fun x => !all.any fun y => eqv x y

/-- `any([x in _v for x in k])`, SR_Vessel/SR_hauptteile.py:298 -/
def seenPair (k v : ℕ × ℕ) : Bool :=
  decide (k.1 = v.1) || decide (k.1 = v.2) || decide (k.2 = v.1) || decide (k.2 = v.2)

/-- the loop over `_visited`, SR_Vessel/SR_hauptteile.py:297-304, from the index `n` on; `w` are the parts added -/
def iwVisit (w : List α) (k : ℕ × ℕ) : List (ℕ × ℕ) → ℕ → List (List α) → Except PyErr (List (List α))
  | [], _, iw => .ok iw
  | v :: vs, n, iw =>
    if seenPair k v then
      if n < iw.length then iwVisit w k vs (n + 1) (iw.modify n (· ++ w)) else .error .index
    else iwVisit w k vs (n + 1) (iw ++ [w])

/-- the loop over `overlaps_in_cycles.items()`, SR_Vessel/SR_hauptteile.py:289-307 -/
def iwLoop (own : ℕ × ℕ → List α) : List (ℕ × ℕ) → List (ℕ × ℕ) → List (List α) → Except PyErr (List (List α))
  | [], _, iw => .ok iw
  | k :: ks, vis, iw =>
    match iwVisit (own k) k vis 0 (if vis = [] then iw ++ [own k] else iw) with
    | .ok iw' => iwLoop own ks (vis ++ [k]) iw'
    | .error e => .error e

/-- one round of the loop of `raum_erstellen`, SR_Vessel/SR_hauptteile.py:251-319, for the cycle `c`; `ov` is
`overlaps_in_cycles` of the graph, `con` is `contained_cycles[c]` -/
def raumNew (eqv : α → α → Bool) (sic : List (ℕ × List α)) (ov : List ((ℕ × ℕ) × List α)) (con : List ℕ) (c : ℕ) :
    Except PyErr (Raum α) :=
  let outer := (sic.filter fun e => decide (e.1 = c)).map Prod.snd
  if con = [] then .ok ⟨c, outer, []⟩
  else
    match iwLoop (ownParts eqv sic (ov.flatMap Prod.snd)) (ov.map Prod.fst) [] [] with
    | .error e => .error e
    | .ok iw =>
      let rest := con.filter fun x => !ov.any fun k => decide (x = k.1.1) || decide (x = k.1.2)
      .ok ⟨c, outer, iw ++ rest.map (sicAt sic)⟩

/-- `raum_erstellen`, SR_Vessel/SR_hauptteile.py:232-326 -/
def raumErstellen (inter : List α → List α → List α) (eqv : α → α → Bool) (sic : List (ℕ × List α))
    (contained : ℕ → List ℕ) : Except PyErr (List (Raum α)) :=
  sic.mapM fun c => raumNew eqv sic (overlapsInCycles inter sic) (contained c.1) c.1

end
end Srep
