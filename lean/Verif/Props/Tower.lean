import Verif.Lemmas.Tower
import Verif.Props.RoomsVessel
import Verif.Props.Flat

/-!
# Vessels made of a stack of shells (C122): loops and rooms
-/

set_option linter.unusedSectionVars false

namespace Srep
open Rt
variable {K : Type} [Field K] [LinearOrder K] [IsStrictOrderedRing K] [FloorRing K] {R : Rt K}

/-- what closes a stack: a torispherical head (with its argument `h1`), a flat head, or the end of a room -/
inductive Ending (K : Type)
  | head (h1 : K)
  | plate
  | ende

/-- the graph of the part at an end: `graphrepr_segments` of a head (SR_Vessel/SR_hauptteile.py:779-782), or the one Wall of a
`Flachboden` or `RaumEnde` with dimensions on the grid (`C104_wall`) -/
def Rt.endWalls (R : Rt K) (v c d o : K) : Ending K → List (Seg K)
  | .head k => R.headGraph ⟨v, c, d, k, o⟩
  | _ => [level (c - d / 2) (c + d / 2) v .wall]

/-- the dimensions of the shells of a stack: sound, at least 1e-5 high and at least 0.01 wide -/
def SoundStack (ms : List (MantelDim K)) : Prop := ∀ m ∈ ms, Sound m ∧ 1 / 10 ^ 5 ≤ m.h ∧ 1 / 100 ≤ m.d1

theorem SoundStack.stout {ms : List (MantelDim K)} (hs : SoundStack ms) : ∀ m ∈ ms, Stout (1 / 10 ^ 5) m := by
  intro m hm
  obtain ⟨h1, h2, h3⟩ := hs m hm
  have h4 := h1.wide
  have e5 : (1 : K) / 10 ^ 5 = 1 / 100000 := by norm_num
  refine ⟨h2, ?_, ?_⟩ <;> rw [e5] <;> linarith

/-- the ends of a stack are on the grid and wide enough -/
theorem SoundStack.ends {ms : List (MantelDim K)} (hs : SoundStack ms) {c y w y' w' : K} (h : Stack c y w ms y' w') (hne : ms ≠ []) :
    (Grid c ∧ Grid y ∧ Grid w ∧ 1 / 200 ≤ w) ∧ Grid y' ∧ Grid w' ∧ 1 / 200 ≤ w' := by
  induction ms generalizing y w with
  | nil => exact absurd rfl hne
  | cons a l ih =>
    obtain ⟨h1, h2, h3⟩ := hs a (List.mem_cons_self ..)
    refine ⟨⟨h.1 ▸ h1.posH, h.2.1 ▸ h1.posV, h.2.2.1 ▸ h1.d0, h.2.2.1 ▸ by linarith [h1.wide]⟩, ?_⟩
    cases l with
    | nil =>
      obtain ⟨e1, e2⟩ := h.2.2.2
      rw [← e1, ← e2, ← h.2.1]
      exact ⟨h1.posV.add h1.h, h1.d1, by linarith⟩
    | cons b l => exact (ih (fun m hm => hs m (List.mem_cons_of_mem _ hm)) h.2.2.2 (by simp)).2

/-- the graph of the part at the top draws a cap, from left to right -/
theorem endWalls_up (hE : R.IsExact) (e : Ending K) {c v w : K} (hc : Grid c) (hv : Grid v) (hw : Grid w) (hw2 : 1 / 200 ≤ w) :
    ∃ up, PosCap up ∧ List.Forall₂ SameEdge (R.endWalls v c (2 * w) 1 e).reverse (capUp c v w up) ∧
      ∃ s ∈ R.endWalls v c (2 * w) 1 e, s.cls ≠ .line ∧ ∃ o ∈ capUp c v w up, s.i = o.j ∧ s.j = o.i := by
  have e2 : 2 * w / 2 = w := by ring
  have flat : ∀ a : Unit, ∃ up, PosCap up ∧ List.Forall₂ SameEdge [level (c - 2 * w / 2) (c + 2 * w / 2) v .wall].reverse (capUp c v w up) ∧
      ∃ s ∈ [level (c - 2 * w / 2) (c + 2 * w / 2) v .wall], s.cls ≠ .line ∧ ∃ o ∈ capUp c v w up, s.i = o.j ∧ s.j = o.i := by
    rintro -
    rw [e2]
    refine ⟨none, fun x h => (by cases h), .cons (Or.inr ⟨rfl, rfl⟩) .nil, _, List.mem_cons_self .., by simp [level], _,
      List.mem_cons_self .., rfl, rfl⟩
  cases e with
  | plate => exact flat ()
  | ende => exact flat ()
  | head k =>
    obtain ⟨a, b, d, hg, ha, hd, hbx, hby, -⟩ := C74_reference_points hE ⟨v, c, 2 * w, k, 1⟩ hc hv (by simpa only [e2] using hw)
      (by
        have : (1 : K) / 10 ^ 6 = 1 / 1000000 := by norm_num
        dsimp only; rw [this]; linarith) (Or.inl rfl)
    dsimp only at *
    rw [e2] at ha hd
    have hb : b = ⟨c, v + (b.y - v)⟩ := by
      rcases b with ⟨bx, bY⟩
      simp only at hbx ⊢
      rw [hbx]; congr 1; ring
    refine ⟨some (b.y - v), ?_, ?_, ?_⟩
    · intro x hx
      cases hx
      linarith
    · show List.Forall₂ SameEdge (R.headGraph _).reverse _
      rw [hg, ha, hd]
      refine .cons (Or.inr ⟨hb, rfl⟩) (.cons (Or.inr ⟨rfl, hb⟩) .nil)
    · refine ⟨⟨a, b, .wall⟩, ?_, by simp, ⟨⟨c, v + (b.y - v)⟩, ⟨c - w, v⟩, .wall⟩, by simp [capUp], ha, hb⟩
      show _ ∈ R.headGraph _
      rw [hg]; simp

/-- … and that at the bottom -/
theorem endWalls_down (hE : R.IsExact) (e : Ending K) {c v w : K} (hc : Grid c) (hv : Grid v) (hw : Grid w) (hw2 : 1 / 200 ≤ w) :
    ∃ down, PosCap down ∧ List.Forall₂ SameEdge (R.endWalls v c (2 * w) (-1) e) (capDown c v w down) := by
  have e2 : 2 * w / 2 = w := by ring
  have flat : ∀ a : Unit, ∃ down, PosCap down ∧ List.Forall₂ SameEdge [level (c - 2 * w / 2) (c + 2 * w / 2) v .wall] (capDown c v w down) := by
    rintro -
    rw [e2]
    exact ⟨none, fun x h => (by cases h), .cons (Or.inl ⟨rfl, rfl⟩) .nil⟩
  cases e with
  | plate => exact flat ()
  | ende => exact flat ()
  | head k =>
    obtain ⟨a, b, d, hg, ha, hd, hbx, hby, -⟩ := C74_reference_points hE ⟨v, c, 2 * w, k, -1⟩ hc hv (by simpa only [e2] using hw)
      (by
        have : (1 : K) / 10 ^ 6 = 1 / 1000000 := by norm_num
        dsimp only; rw [this]; linarith) (Or.inr rfl)
    dsimp only at *
    rw [e2] at ha hd
    have hb : b = ⟨c, v - (v - b.y)⟩ := by
      rcases b with ⟨bx, bY⟩
      simp only at hbx ⊢
      rw [hbx]; congr 1; ring
    refine ⟨some (v - b.y), ?_, ?_⟩
    · intro x hx
      cases hx
      linarith
    · show List.Forall₂ SameEdge (R.headGraph _) _
      rw [hg, ha, hd]
      exact .cons (Or.inl ⟨rfl, hb⟩) (.cons (Or.inl ⟨hb, rfl⟩) .nil)

theorem flatMap_pair_perm {α β : Type} (f g : α → β) (l : List α) : (l.flatMap fun a => [f a, g a]).Perm (l.map f ++ l.map g) := by
  induction l with
  | nil => exact .refl _
  | cons a l ih =>
    rw [List.flatMap_cons, List.map_cons, List.map_cons]
    refine .trans (.append_left _ ih) ?_
    simp only [List.cons_append, List.nil_append]
    exact .cons _ List.perm_middle.symm

/-- all walls of a stack that is closed at both ends -/
def Rt.towerWalls (R : Rt K) (c y w : K) (ms : List (MantelDim K)) (y' w' : K) (top bot : Ending K) : List (Seg K) :=
  (ms.flatMap fun m => [rightWall m, leftWall m]) ++ R.endWalls y' c (2 * w') 1 top ++ R.endWalls y c (2 * w) (-1) bot

theorem forall₂_sameEdge_refl (l : List (Seg K)) : List.Forall₂ SameEdge l l := by
  induction l with
  | nil => exact .nil
  | cons a l ih => exact .cons (Or.inl ⟨rfl, rfl⟩) ih

/-- the walls draw the outline -/
theorem tower_draws {c y w : K} {ms : List (MantelDim K)} {y' w' : K} {top bot : Ending K} {up down : Option K}
    (hu : List.Forall₂ SameEdge (R.endWalls y' c (2 * w') 1 top).reverse (capUp c y' w' up))
    (hd : List.Forall₂ SameEdge (R.endWalls y c (2 * w) (-1) bot) (capDown c y w down)) {l : List (Seg K)}
    (hl : l.Perm (R.towerWalls c y w ms y' w' top bot)) : SameDrawing l (towerOutline c y w ms y' w' up down) := by
  refine ⟨ms.map riseOf ++ ((R.endWalls y' c (2 * w') 1 top).reverse ++ (ms.reverse.map fallOf ++ R.endWalls y c (2 * w) (-1) bot)), ?_, ?_⟩
  · refine .trans ?_ hl.symm
    unfold Rt.towerWalls
    have h1 : (ms.flatMap fun m => [rightWall m, leftWall m]).Perm (ms.map riseOf ++ ms.map fallOf) := flatMap_pair_perm _ _ _
    refine .trans ?_ ((h1.append_right _).append_right _).symm
    rw [List.append_assoc, List.append_assoc]
    refine .append_left _ ?_
    rw [← List.append_assoc, ← List.append_assoc]
    refine .append_right _ ?_
    refine .trans List.perm_append_comm ?_
    refine .append ?_ (List.reverse_perm _)
    exact (List.reverse_perm _).map _
  · refine List.rel_append (forall₂_sameEdge_refl _) (List.rel_append hu (List.rel_append (forall₂_sameEdge_refl _) hd))

/-- C122: the group of the graphs of up to 60 shells, cylindrical or conical, one above the other, and of a torispherical head, a
flat head or the end of a room at each end, in any order: `find_loops` returns exactly one polygon, a closed chain that draws all
the Walls. -/
theorem C122_loops (hE : R.IsExact) {c y w : K} {ms : List (MantelDim K)} {y' w' : K} (hst : Stack c y w ms y' w') (hne : ms ≠ [])
    (hs : SoundStack ms) (hlen : ms.length ≤ 60) (top bot : Ending K) (π : SetOrder) (hπ : π.Ok) (fuel : ℕ) (hf : 4 * ms.length + 8 ≤ fuel)
    (h : Heap K) (hw : h.WF) (G : List PLine) (hG : ∀ P ∈ G, ∀ s ∈ P.segs, s < h.nseg)
    (hv : (h.vals (G.flatMap PLine.segs)).Perm (R.towerWalls c y w ms y' w' top bot)) :
    ∃ h' g P, R.findLoops π fuel h G = .ok h' g [P] ∧ ClosedChain (h'.vals P.segs) ∧
      SameDrawing (h'.vals P.segs) (h.vals (G.flatMap PLine.segs)) := by
  obtain ⟨⟨hc, hy, hw0, hw2⟩, hy', hw0', hw2'⟩ := hs.ends hst hne
  obtain ⟨up, pu, fu, s, hs1, hs2, o, ho, hi, hj⟩ := endWalls_up hE top hc hy' hw0' hw2'
  obtain ⟨down, pd, fd⟩ := endWalls_down hE bot hc hy hw0 hw2
  have hsto := hs.stout
  have htol : R.tol = 1 / 10 ^ 5 := by
    unfold Rt.tol
    rw [hE.mul', hE.eps']; norm_num
  have hdraw := tower_draws fu fd hv
  have hclear := hst.clear hne (by norm_num) hsto pu pd
  have hup : (capUp c y' w' up).length = 1 ∨ (capUp c y' w' up).length = 2 := by cases up <;> simp [capUp]
  have hdn : (capDown c y w down).length = 1 ∨ (capDown c y w down).length = 2 := by cases down <;> simp [capDown]
  have hms : 0 < ms.length := List.length_pos_iff.2 hne
  have hL : (towerOutline c y w ms y' w' up down).length = ms.length + ((capUp c y' w' up).length + (ms.length + (capDown c y w down).length)) := by
    unfold towerOutline
    simp only [List.length_append, List.length_map, List.length_reverse]
  obtain ⟨a, ha⟩ := List.exists_mem_of_ne_nil _ hne
  obtain ⟨h', g, P, e, hcl, hd⟩ := C110_outline hE.isRounding π hπ fuel h G _ (hst.closed up down) (hst.nodup hne (by positivity) hsto pu pd)
    (by omega) (by omega) (by rw [htol]; exact hst.apart hne (by positivity) hsto pu pd) hdraw
    ⟨rightWall a, hv.mem_iff.2 (List.mem_append_left _ (List.mem_append_left _ (List.mem_flatMap.2 ⟨a, ha, by simp⟩))),
      by simp [rightWall], riseOf a, List.mem_append_left _ (List.mem_map_of_mem ha), rfl, rfl⟩
    ⟨s, hv.mem_iff.2 (List.mem_append_left _ (List.mem_append_right _ hs1)), hs2, o,
      List.mem_append_right _ (List.mem_append_left _ ho), hi, hj⟩
    hw hG (fun l h1 h2 h3 => plValid_clear hE hclear h1 h2 h3) (by omega)
  exact ⟨h', g, P, e, hcl, hd.trans hdraw.symm⟩

/-- C122: such a vessel, if the triangulation of its loop ends without an exception, has exactly one room, with all parts as its outer
wall and no inner wall. -/
theorem C122_one_room (hE : R.IsExact) {c y w : K} {ms : List (MantelDim K)} {y' w' : K} (hst : Stack c y w ms y' w') (hne : ms ≠ [])
    (hs : SoundStack ms) (hlen : ms.length ≤ 60) (top bot : Ending K) (π : SetOrder) (hπ : π.Ok) (fuel : ℕ) (hf : 4 * ms.length + 8 ≤ fuel)
    (h : Heap K) (hw : h.WF) (G : List PLine) (hG : ∀ P ∈ G, ∀ s ∈ P.segs, s < h.nseg)
    (hv : (h.vals (G.flatMap PLine.segs)).Perm (R.towerWalls c y w ms y' w' top bot))
    (walls : ℕ → List ℕ) (hW : ∀ i < G.length, ∀ s ∈ walls i, s < h.nseg) (H : List (Seg K)) (hH : ClosedChain H)
    (hnd : (H.map Seg.i).Nodup) (h3 : 3 ≤ H.length) (hn : H.length < 250) (hapH : Apart R.tol {p | p ∈ H.map Seg.i})
    (hdH : SameDrawing (h.vals ((List.range G.length).flatMap walls)) H)
    (T : TriEnv K) (more : KeepMore K) (inter : List ℕ → List ℕ → List ℕ) (ω : ℕ → ℕ → ℕ → ℕ → Pt K) (cfuel : ℕ) :
    ∃ (h' : Heap K) (P : PLine), ClosedChain (h'.vals P.segs) ∧ SameDrawing (h'.vals P.segs) (h.vals (G.flatMap PLine.segs)) ∧
      ((∃ r, R.triangleMesh T.lib h' (h'.vals P.segs) (T.ω 0) T.fuel = .ok r) →
        ∃ h2, R.behalterRooms π fuel T more inter ω cfuel h G walls = .ok (h2, [⟨0, [List.range G.length], []⟩])) ∧
      (∀ x, R.triangleMesh T.lib h' (h'.vals P.segs) (T.ω 0) T.fuel = .error (some x) →
        R.behalterRooms π fuel T more inter ω cfuel h G walls = .raised x) := by
  obtain ⟨h', g, P, e, hc, hd⟩ := C122_loops hE hst hne hs hlen top bot π hπ fuel hf h hw G hG hv
  obtain ⟨⟨hc', hy, hw0, hw2⟩, hy', hw0', hw2'⟩ := hs.ends hst hne
  obtain ⟨up, pu, fu, -⟩ := endWalls_up hE top hc' hy' hw0' hw2'
  obtain ⟨down, pd, fd⟩ := endWalls_down hE bot hc' hy hw0 hw2
  have htol : R.tol = 1 / 10 ^ 5 := by
    unfold Rt.tol
    rw [hE.mul', hE.eps']; norm_num
  have hap : Apart R.tol (Ends (h.vals (G.flatMap PLine.segs))) := by
    rw [Ends_sameDrawing (tower_draws fu fd hv), Ends_closedChain (hst.closed up down), htol]
    exact hst.apart hne (by positivity) hs.stout pu pd
  exact ⟨h', P, hc, hd, C111_one_room hE.isRounding π hπ fuel T more inter ω cfuel h hw G hG h' g P e hd hap walls hW H hH hnd h3 hn
    hapH hdH⟩

end Srep
