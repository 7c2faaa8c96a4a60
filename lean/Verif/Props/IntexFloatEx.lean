import Verif.Props.IntexFloat

/-!
# A vessel in binary64 that meets the hypotheses of C129
-/

namespace Srep
open Rt Ray

/-- a cylinder of diameter 1.2 and height 0.7 at the level 0.1, all in binary64 -/
def pot : MantelDim ℚ := ⟨exRt.fl (1 / 10), 0, exRt.fl (12 / 10), exRt.fl (12 / 10), exRt.fl (7 / 10)⟩

theorem pot_fair : FairDim pot ∧ |pot.d1 - pot.d0| ≤ 20 * pot.h := by
  refine ⟨⟨?_, ?_, ?_, ?_, ?_, ?_, ?_, ?_⟩, ?_⟩ <;> decide +kernel

/-- with a torispherical head above and a flat head below -/
theorem pot_vessel : exRt.FairVessel pot [] (.head (1 / 20)) .plate where
  chain := by simp
  fair := by
    intro m hm
    rw [List.mem_singleton.1 hm]
    exact pot_fair
  axis := by intro k _; decide +kernel
  up := by intro h; cases h
  down := by intro _; decide +kernel

/-- the point with its target, tested -/
def safeB (a b : ℚ) (l : List (Seg ℚ)) (t p : Pt ℚ) : Bool :=
  RatEx.goodB l p t && RatEx.apartB (2 / 10 ^ 5) (p :: t :: l.flatMap fun s => [s.i, s.j]) &&
    decide (|p.x| ≤ a ∧ |p.y| ≤ a ∧ |t.x| ≤ b ∧ |t.y| ≤ b) &&
    l.all fun s => decide (|s.i.x| ≤ a ∧ |s.i.y| ≤ a ∧ |s.j.x| ≤ a ∧ |s.j.y| ≤ a ∧ a * a * b ≤ 2 ^ 15 * |turnOf p t s|)

theorem safe_q {a b : ℚ} {l : List (Seg ℚ)} {p t : Pt ℚ} (ha : 1 / 10 ^ 6 ≤ a) (hab : a ≤ b) (hb : b ≤ 10 ^ 6) (h : safeB a b l t p = true) :
    SafeTarget a b l p t := by
  unfold safeB at h
  simp only [Bool.and_eq_true, decide_eq_true_eq, List.all_eq_true] at h
  obtain ⟨⟨⟨h1, h2⟩, h3, h4, h5, h6⟩, h7⟩ := h
  refine ⟨good_q h1, ⟨ha, hab, hb, ⟨h3, h4⟩, ⟨h5, h6⟩, ?_, ?_⟩, wide_q h2⟩
  · intro s hs
    obtain ⟨x1, x2, x3, x4, -⟩ := h7 s hs
    exact ⟨⟨x1, x2⟩, ⟨x3, x4⟩⟩
  · intro s hs
    exact (h7 s hs).2.2.2.2

/-- the target of all calls -/
def aim : Pt ℚ := ⟨3, 4137 / 10000⟩

theorem pot_shell : exRt.SafeShell pot .nonWall fun _ _ _ _ _ => aim := by
  have key : ∀ s, (s = exRt.rightWallFl pot ∨ s = exRt.leftWallFl pot) →
      (match exRt.intexFour pot.posH 50000 (2 / 1000) s with
        | .ok r => r.all (safeB 1 3 (exRt.shellFl pot .nonWall) aim)
        | .error _ => true) = true := by
    rintro s (rfl | rfl) <;> decide +kernel
  intro s hs r hr p hp e i n c k
  have := key s hs
  rw [hr] at this
  exact ⟨1, 3, safe_q (by norm_num) (by norm_num) (by norm_num) (List.all_eq_true.1 this p hp)⟩

/-- the head and the plate -/
def potHead : HeadDim ℚ := ⟨exRt.add pot.posV pot.h, pot.posH, pot.d1, 1 / 20, 1⟩
def potPlate : GPart ℕ ℚ := exRt.platePart 2 [⟨exRt.mantelCorner pot 3, exRt.mantelCorner pot 0, .wall⟩] ⟨pot.posV, pot.d0, pot.posH⟩

/-- the room: all its walls, the target in sight of all reference points -/
theorem pot_room (g gt : GPart ℕ ℚ) (hg : exRt.shellPart 0 (exRt.shellFl pot .nonWall) [exRt.rightWallFl pot, exRt.leftWallFl pot] pot.posH
      (fun _ _ _ _ _ => aim) 1 = .ok g) (ht : exRt.headPart 1 potHead = .ok gt) :
    ∃ T, exRt.raumIntex [(⟨7, [gt, g, potPlate]⟩ : GRoom ℕ ℕ ℚ)] 1 (fun _ _ _ _ _ _ => aim) = some T ∧
      ∀ n k r, (n, k, r) ∈ T ↔ r = 7 ∧ (n = 0 ∧ k = .innen ∨ n = 1 ∧ k = .innen ∨ n = 2 ∧ k = .indifferent) := by
  have hsh : exRt.IsShellFl pot g := ⟨0, .nonWall, fun _ _ _ _ _ => aim, 0, pot_shell, hg⟩
  have hsn : g.name = 0 ∧ g.segs = [exRt.rightWallFl pot, exRt.leftWallFl pot] := by
    obtain ⟨p, q, r, t, p', q', r', t', eg, -⟩ := shellPart_fl exRt_isRounding (Rt.b64_rootOk _ _) pot_fair.1 pot_fair.2 0 .nonWall
      (fun _ _ _ _ _ => aim) pot_shell 0
    rw [hg] at eg
    obtain rfl := Except.ok.inj eg
    exact ⟨rfl, rfl⟩
  have key : ∀ s, (s = exRt.rightWallFl pot ∨ s = exRt.leftWallFl pot) →
      (match exRt.intexFour pot.posH 50000 (2 / 1000) s, exRt.headPart 1 potHead with
        | .ok r, .ok gt => (r ++ (gt.internal ++ gt.external ++ gt.indifferent ++ potPlate.indifferent).map Prod.fst).all
            (safeB 2 3 (gt.segs ++ [exRt.rightWallFl pot, exRt.leftWallFl pot] ++ potPlate.segs) aim)
        | _, _ => true) = true := by
    rintro s (rfl | rfl) <;> decide +kernel
  have hpoly : (⟨7, [gt, g, potPlate]⟩ : GRoom ℕ ℕ ℚ).polygon = gt.segs ++ [exRt.rightWallFl pot, exRt.leftWallFl pot] ++ potPlate.segs := by
    simp [GRoom.polygon, hsn.2]
  obtain ⟨gi, -, -, gp⟩ := C129_points exRt_isRounding (Rt.b64_rootOk _ _) pot_fair.1 pot_fair.2 hsh
  have safe : ∀ {p : Pt ℚ}, safeB 2 3 (gt.segs ++ [exRt.rightWallFl pot, exRt.leftWallFl pot] ++ potPlate.segs) aim p = true →
      ∃ α β, SafeTarget α β (⟨7, [gt, g, potPlate]⟩ : GRoom ℕ ℕ ℚ).polygon p aim := by
    intro p h
    rw [hpoly]
    exact ⟨2, 3, safe_q (by norm_num) (by norm_num) (by norm_num) h⟩
  obtain ⟨pts, hpts⟩ : ∃ pts, exRt.intexFour pot.posH 50000 (2 / 1000) (exRt.rightWallFl pot) = .ok pts := by
    obtain ⟨p, q, r, t, p', q', r', t', eg, ⟨e, -⟩, -⟩ := shellPart_fl exRt_isRounding (Rt.b64_rootOk _ _) pot_fair.1 pot_fair.2 0 .nonWall
      (fun _ _ _ _ _ => aim) pot_shell 0
    exact ⟨_, e⟩
  have hkey := key _ (Or.inl rfl)
  rw [hpts, ht] at hkey
  obtain ⟨T, hT, hmem⟩ := C129_intex exRt_isRounding (Rt.b64_rootOk _ _) pot_vessel [g] (.cons hsh .nil) 1 2 gt potPlate ht rfl
    ⟨7, [gt, g, potPlate]⟩ (List.Perm.swap _ _ _) (fun _ _ _ _ _ _ => aim) (by
      intro w hw x hx i j k n q c
      simp only [List.mem_cons, List.not_mem_nil, or_false] at hw
      rcases hw with rfl | rfl | rfl
      · exact safe (List.all_eq_true.1 hkey x.1 (List.mem_append_right _ (List.mem_map_of_mem (List.mem_append_left _ hx))))
      · rw [gi, List.append_nil] at hx
        obtain ⟨pts', e, hp, hs⟩ := gp x hx
        have := key _ hs
        rw [e, ht] at this
        exact safe (List.all_eq_true.1 this x.1 (List.mem_append_left _ hp))
      · exact safe (List.all_eq_true.1 hkey x.1 (List.mem_append_right _ (List.mem_map_of_mem (List.mem_append_right _ hx))))) 0
  refine ⟨T, hT, ?_⟩
  intro n k r
  rw [hmem]
  simp only [List.mem_singleton, exists_eq_left, hsn.1, Ending.kind, Option.some.injEq]
  constructor
  · rintro ⟨h, ⟨rfl, rfl⟩ | ⟨rfl, rfl⟩ | ⟨rfl, rfl⟩⟩ <;> simp [h]
  · rintro ⟨h, ⟨rfl, rfl⟩ | ⟨rfl, rfl⟩ | ⟨rfl, rfl⟩⟩ <;> simp [h]

/-- and the shell and the head can be made -/
example : (∃ g : GPart ℕ ℚ, exRt.shellPart 0 (exRt.shellFl pot .nonWall) [exRt.rightWallFl pot, exRt.leftWallFl pot] pot.posH
      (fun _ _ _ _ _ => aim) 1 = .ok g) ∧ ∃ g : GPart ℕ ℚ, exRt.headPart 1 potHead = .ok g := by
  obtain ⟨h1, h2, -⟩ := C129_parts exRt_isRounding (Rt.b64_rootOk _ _) pot_vessel (1 : ℕ) 2
  obtain ⟨g, e, -⟩ := h1 pot (List.mem_singleton.2 rfl) 0 .nonWall _ 0 pot_shell
  exact ⟨⟨g, e⟩, h2⟩

end Srep
