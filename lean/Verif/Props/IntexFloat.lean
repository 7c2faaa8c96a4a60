import Verif.Props.AnswersFloat
import Verif.Props.TowerFloat
import Verif.Lemmas.HeadFl

/-!
# For which parts the room of a vessel is an inner room, in floating point (C129)
-/

set_option linter.unusedSectionVars false

namespace Srep
open Rt Ray
variable {K : Type} [Field K] [LinearOrder K] [IsStrictOrderedRing K] [FloorRing K] {R : Rt K}

section
variable {ν ρ : Type}
variable {c y l r : K} {ms : List (Band K)} {y' l' r' : K} {up down : Option (Pt K)}

/-! ### the shells -/

/-- the segments of a shell; `b` is the class of the lower one -/
def Rt.shellFl (R : Rt K) (m : MantelDim K) (b : SegCls) : List (Seg K) :=
  [⟨R.mantelCorner m 0, R.mantelCorner m 1, .wall⟩, ⟨R.mantelCorner m 1, R.mantelCorner m 2, .nonWall⟩,
    ⟨R.mantelCorner m 2, R.mantelCorner m 3, .wall⟩, ⟨R.mantelCorner m 3, R.mantelCorner m 0, b⟩]

theorem Bands.noDouble (h : Bands y l r ms y' l' r') (hne : ms ≠ []) {e : K} (he : 0 < e) (hs : ∀ m ∈ ms, StoutBand c e m) (hu : ApexUp c y' up)
    (hd : ApexDown c y down) : NoDouble (bandOutline y l r ms y' l' r' up down) := by
  refine noDouble_of_nodup (h.closed up down) (h.nodup hne he hs hu hd) ?_
  have hms : 0 < ms.length := List.length_pos_iff.2 hne
  have hup : 1 ≤ (lidUp y' l' r' up).length := by cases up <;> simp [lidUp]
  have hdn : 1 ≤ (lidDown y l r down).length := by cases down <;> simp [lidDown]
  unfold bandOutline
  simp only [List.length_append, List.length_map, List.length_reverse]
  omega

theorem apexUp_none : ApexUp c y none := fun p h => by cases h
theorem apexDown_none : ApexDown c y none := fun p h => by cases h

theorem InBand.inside (h : Bands y l r ms y' l' r') {e : K} (he : 0 < e) (hs : ∀ m ∈ ms, StoutBand c e m) (hu : ApexUp c y' up)
    (hd : ApexDown c y down) {m : Band K} (hm : m ∈ ms) {p : Pt K} (hp : InBand m p) :
    OffSides (bandOutline y l r ms y' l' r' up down) p ∧ OddRight (bandOutline y l r ms y' l' r' up down) p :=
  (h.slab he hs hu hd hm hp.low hp.high).inside hp.rise hp.fall

theorem OffBand.outside (h : Bands y l r ms y' l' r') {e : K} (he : 0 < e) (hs : ∀ m ∈ ms, StoutBand c e m) (hu : ApexUp c y' up)
    (hd : ApexDown c y down) {m : Band K} (hm : m ∈ ms) {p : Pt K} (hp : OffBand m p) :
    OffSides (bandOutline y l r ms y' l' r' up down) p ∧ ¬ OddRight (bandOutline y l r ms y' l' r' up down) p :=
  (h.slab he hs hu hd hm hp.low hp.high).outside hp.sum hp.off

theorem intexClass_of {L : List (Seg K)} {p : Pt K} {ω : ℕ → ℕ → Pt K} {fuel : ℕ} {b : Bool} (h : ∀ k, R.plInternal L p (ω k) fuel = some b) :
    R.intexClass L p ω fuel = .ok b := by
  have h' : ∀ k, R.plExternal L p (ω k) fuel = some !b := fun k => by unfold Rt.plExternal; rw [h k]; rfl
  unfold Rt.intexClass
  simp only [h, h']
  cases b <;> rfl

open Classical in
/-- what `is_internal_point` of a shell answers -/
theorem shellFl_answers (hR : R.IsRounding) (hQ : R.RootOk) {m : MantelDim K} (hm : FairDim m) (b : SegCls) {p : Pt K} {ω : ℕ → ℕ → Pt K}
    (hω : ∀ c k, ∃ α β, SafeTarget α β (R.shellFl m b) p (ω c k)) (fuel : ℕ) :
    (InBand (R.bandOf m) p → R.intexClass (R.shellFl m b) p ω (fuel + 1) = .ok true) ∧
    (OffBand (R.bandOf m) p → R.intexClass (R.shellFl m b) p ω (fuel + 1) = .ok false) := by
  have hb : Bands (R.bandOf m).y0 (R.bandOf m).l0 (R.bandOf m).r0 [R.bandOf m] (R.bandOf m).y1 (R.bandOf m).l1 (R.bandOf m).r1 :=
    ⟨rfl, rfl, rfl, rfl, rfl, rfl⟩
  have hst : ∀ x ∈ [R.bandOf m], StoutBand (R.coord m.posH) (1 / 50000) x := by
    intro x hx; rw [List.mem_singleton.1 hx]; exact hm.stout hR
  have he : (0 : K) < 1 / 50000 := by norm_num
  have draw : SameDrawing (R.shellFl m b) (bandOutline (R.bandOf m).y0 (R.bandOf m).l0 (R.bandOf m).r0 [R.bandOf m] (R.bandOf m).y1
      (R.bandOf m).l1 (R.bandOf m).r1 none none) :=
    ⟨_, .refl _, .cons (Or.inl ⟨rfl, rfl⟩) (.cons (Or.inl ⟨rfl, rfl⟩) (.cons (Or.inl ⟨rfl, rfl⟩) (.cons (Or.inl ⟨rfl, rfl⟩) .nil)))⟩
  have ans := fun (ho : OffSides _ p) k => C129_drawing hR hQ _ _ draw (hb.closed none none)
    (hb.noDouble (by simp) he hst apexUp_none apexDown_none) p ho (ω k) (fun j _ => hω k j) fuel
  constructor
  · intro h
    obtain ⟨o1, o2⟩ := h.inside hb he hst (apexUp_none) (apexDown_none) (List.mem_singleton.2 rfl)
    exact intexClass_of fun k => (ans o1 k).trans (by rw [decide_eq_true o2])
  · intro h
    obtain ⟨o1, o2⟩ := h.outside hb he hst (apexUp_none) (apexDown_none) (List.mem_singleton.2 rfl)
    exact intexClass_of fun k => (ans o1 k).trans (by rw [decide_eq_false o2])

/-- targets of the constructor of a shell with enough room for rounding errors -/
def Rt.SafeShell (R : Rt K) (m : MantelDim K) (b : SegCls) (ω : ℕ → ℕ → ℕ → ℕ → ℕ → Pt K) : Prop :=
  ∀ s, (s = R.rightWallFl m ∨ s = R.leftWallFl m) → ∀ r, R.intexFour m.posH 50000 (2 / 1000) s = .ok r → ∀ p ∈ r, ∀ e i n c k,
    ∃ α β, SafeTarget α β (R.shellFl m b) p (ω e i n c k)

/-- the graph of a shell with its reference points; the points do not depend on the random targets -/
theorem shellPart_fl (hR : R.IsRounding) (hQ : R.RootOk) {m : MantelDim K} (hm : FairDim m) (hs : |m.d1 - m.d0| ≤ 20 * m.h) (name : ν)
    (b : SegCls) (ω : ℕ → ℕ → ℕ → ℕ → ℕ → Pt K) (hω : R.SafeShell m b ω) (fuel : ℕ) :
    ∃ p q r t p' q' r' t', R.shellPart name (R.shellFl m b) [R.rightWallFl m, R.leftWallFl m] m.posH ω (fuel + 1) =
      .ok ⟨name, [R.rightWallFl m, R.leftWallFl m],
        [(p, R.rightWallFl m), (q, R.rightWallFl m), (p', R.leftWallFl m), (q', R.leftWallFl m)],
        [(r, R.rightWallFl m), (t, R.rightWallFl m), (r', R.leftWallFl m), (t', R.leftWallFl m)], []⟩ ∧
      (R.intexFour m.posH 50000 (2 / 1000) (R.rightWallFl m) = .ok [r, p, t, q] ∧
        R.intexFour m.posH 50000 (2 / 1000) (R.leftWallFl m) = .ok [p', r', q', t']) ∧
      (∀ x ∈ [p, q, p', q'], InBand (R.bandOf m) x) ∧ ∀ x ∈ [r, t, r', t'], OffBand (R.bandOf m) x := by
  obtain ⟨⟨p, q, r, t, e, h1, h2, h3, h4⟩, p', q', r', t', e', h1', h2', h3', h4'⟩ := hm.points hR hs
  have g := hω _ (Or.inl rfl) _ e
  have g' := hω _ (Or.inr rfl) _ e'
  have hr : ∀ v i, R.mantelIntex (R.shellFl m b) m.posH (R.rightWallFl m) (ω v i) (fuel + 1) = .ok ([q, t], [p, r]) := by
    intro v i
    have c0 := (shellFl_answers hR hQ hm b (ω := ω v i 0) (g p (by simp) v i 0) fuel).2 h1
    have c1 := (shellFl_answers hR hQ hm b (ω := ω v i 1) (g q (by simp) v i 1) fuel).1 h2
    have c2 := (shellFl_answers hR hQ hm b (ω := ω v i 2) (g r (by simp) v i 2) fuel).2 h3
    have c3 := (shellFl_answers hR hQ hm b (ω := ω v i 3) (g t (by simp) v i 3) fuel).1 h4
    unfold Rt.mantelIntex
    rw [e]
    simp only [Rt.intexSort, c0, c1, c2, c3, Except.map, if_true, Bool.false_eq_true, if_false, Nat.reduceAdd]
  have hl : ∀ v i, R.mantelIntex (R.shellFl m b) m.posH (R.leftWallFl m) (ω v i) (fuel + 1) = .ok ([p', r'], [q', t']) := by
    intro v i
    have c0 := (shellFl_answers hR hQ hm b (ω := ω v i 0) (g' p' (by simp) v i 0) fuel).1 h1'
    have c1 := (shellFl_answers hR hQ hm b (ω := ω v i 1) (g' q' (by simp) v i 1) fuel).2 h2'
    have c2 := (shellFl_answers hR hQ hm b (ω := ω v i 2) (g' r' (by simp) v i 2) fuel).1 h3'
    have c3 := (shellFl_answers hR hQ hm b (ω := ω v i 3) (g' t' (by simp) v i 3) fuel).2 h4'
    unfold Rt.mantelIntex
    rw [e']
    simp only [Rt.intexSort, c0, c1, c2, c3, Except.map, if_true, Bool.false_eq_true, if_false, Nat.reduceAdd]
  refine ⟨q, t, p, r, p', r', q', t', ?_, ⟨e, e'⟩, ?_, ?_⟩
  · unfold Rt.shellPart
    refine graphPart_two (x := ([q, t], [p, r])) (y := ([p', r'], [q', t'])) fun v => ?_
    exact evalAll_two (f := fun i s => R.mantelIntex (R.shellFl m b) m.posH s (ω v i) (fuel + 1)) (hr v 0) (hl v 1)
  · intro x hx
    simp only [List.mem_cons, List.not_mem_nil, or_false] at hx
    rcases hx with rfl | rfl | rfl | rfl <;> assumption
  · intro x hx
    simp only [List.mem_cons, List.not_mem_nil, or_false] at hx
    rcases hx with rfl | rfl | rfl | rfl <;> assumption

/-- the reference points of a shell of the vessel -/
theorem Bands.shell_lies (hR : R.IsRounding) (hQ : R.RootOk) (hb : Bands y l r ms y' l' r') {e : K} (he : 0 < e)
    (hst : ∀ m ∈ ms, StoutBand c e m) (hu : ApexUp c y' up) (hd : ApexDown c y down) {m : MantelDim K} (hm : FairDim m)
    (hs : |m.d1 - m.d0| ≤ 20 * m.h) (hmm : R.bandOf m ∈ ms) (name : ν) (b : SegCls) (ω : ℕ → ℕ → ℕ → ℕ → ℕ → Pt K) (hω : R.SafeShell m b ω)
    (fuel : ℕ) : ∃ g : GPart ν K, R.shellPart name (R.shellFl m b) [R.rightWallFl m, R.leftWallFl m] m.posH ω (fuel + 1) = .ok g ∧
      g.name = name ∧ g.segs = [R.rightWallFl m, R.leftWallFl m] ∧ Lies (bandOutline y l r ms y' l' r' up down) g (some .innen) := by
  obtain ⟨p, q, r, t, p', q', r', t', eg, -, hin, hbe⟩ := shellPart_fl hR hQ hm hs name b ω hω fuel
  refine ⟨_, eg, rfl, rfl, by simp, by simp, rfl, ?_, ?_, ?_⟩
  · intro x hx
    refine (hin x.1 ?_).inside hb he hst hu hd hmm
    simp only [List.mem_cons, List.not_mem_nil, or_false] at hx
    rcases hx with rfl | rfl | rfl | rfl <;> simp
  · intro x hx
    refine (hbe x.1 ?_).outside hb he hst hu hd hmm
    simp only [List.mem_cons, List.not_mem_nil, or_false] at hx
    rcases hx with rfl | rfl | rfl | rfl <;> simp
  · intro s hs'
    simp only [List.mem_cons, List.not_mem_nil, or_false] at hs'
    rcases hs' with rfl | rfl
    · exact ⟨r, by simp⟩
    · exact ⟨r', by simp⟩

/-! ### the ends -/

theorem InLid.top (hb : Bands y l r ms y' l' r') (hne : ms ≠ []) {e : K} (he : 0 < e) (hst : ∀ m ∈ ms, StoutBand c e m) {t : Pt K}
    (hu : ApexUp c y' (some t)) (hd : ApexDown c y down) {p : Pt K} {A B h x q : K} (hp : InLid A B h x q) (eA : A = r' - t.x) (eB : B = t.x - l')
    (eh : h = t.y - y') (ex : x = p.x - t.x) (eq : q = p.y - y') :
    OffSides (bandOutline y l r ms y' l' r' (some t) down) p ∧ OddRight (bandOutline y l r ms y' l' r' (some t) down) p := by
  subst eA eB eh ex eq
  have h1 := hp.low
  have h2 := hp.high
  refine (hb.slab_up hne he hst hu hd (by linarith) (by linarith)).inside ?_ ?_
  · refine lt_of_lt_of_eq hp.rise ?_
    simp only [det3]; ring
  · refine lt_of_lt_of_eq hp.fall ?_
    simp only [det3]; ring

theorem OffLid.top (hb : Bands y l r ms y' l' r') (hne : ms ≠ []) {e : K} (he : 0 < e) (hst : ∀ m ∈ ms, StoutBand c e m) {t : Pt K}
    (hu : ApexUp c y' (some t)) (hd : ApexDown c y down) {p : Pt K} {A B h x q : K} (hp : OffLid A B h x q) (eA : A = r' - t.x) (eB : B = t.x - l')
    (eh : h = t.y - y') (ex : x = p.x - t.x) (eq : q = p.y - y') :
    OffSides (bandOutline y l r ms y' l' r' (some t) down) p ∧ ¬ OddRight (bandOutline y l r ms y' l' r' (some t) down) p := by
  subst eA eB eh ex eq
  have h1 := hp.low
  have h2 := hp.high
  refine (hb.slab_up hne he hst hu hd (by linarith) (by linarith)).outside ?_ ?_
  · refine lt_of_lt_of_eq hp.sum ?_
    simp only [det3]; ring
  · rcases hp.off with h | h
    · left
      refine lt_of_eq_of_lt ?_ h
      simp only [det3]; ring
    · right
      refine lt_of_eq_of_lt ?_ h
      simp only [det3]; ring

theorem InLid.bottom (hb : Bands y l r ms y' l' r') (hne : ms ≠ []) {e : K} (he : 0 < e) (hst : ∀ m ∈ ms, StoutBand c e m) {t : Pt K}
    (hu : ApexUp c y' up) (hd : ApexDown c y (some t)) {p : Pt K} {A B h x q : K} (hp : InLid A B h x q) (eA : A = r - t.x) (eB : B = t.x - l)
    (eh : h = y - t.y) (ex : x = p.x - t.x) (eq : q = y - p.y) :
    OffSides (bandOutline y l r ms y' l' r' up (some t)) p ∧ OddRight (bandOutline y l r ms y' l' r' up (some t)) p := by
  subst eA eB eh ex eq
  have h1 := hp.low
  have h2 := hp.high
  refine (hb.slab_down hne he hst hu hd (by linarith) (by linarith)).inside ?_ ?_
  · refine lt_of_lt_of_eq hp.rise ?_
    simp only [det3]; ring
  · refine lt_of_lt_of_eq hp.fall ?_
    simp only [det3]; ring

theorem OffLid.bottom (hb : Bands y l r ms y' l' r') (hne : ms ≠ []) {e : K} (he : 0 < e) (hst : ∀ m ∈ ms, StoutBand c e m) {t : Pt K}
    (hu : ApexUp c y' up) (hd : ApexDown c y (some t)) {p : Pt K} {A B h x q : K} (hp : OffLid A B h x q) (eA : A = r - t.x) (eB : B = t.x - l)
    (eh : h = y - t.y) (ex : x = p.x - t.x) (eq : q = y - p.y) :
    OffSides (bandOutline y l r ms y' l' r' up (some t)) p ∧ ¬ OddRight (bandOutline y l r ms y' l' r' up (some t)) p := by
  subst eA eB eh ex eq
  have h1 := hp.low
  have h2 := hp.high
  refine (hb.slab_down hne he hst hu hd (by linarith) (by linarith)).outside ?_ ?_
  · refine lt_of_lt_of_eq hp.sum ?_
    simp only [det3]; ring
  · rcases hp.off with h | h
    · left
      refine lt_of_eq_of_lt ?_ h
      simp only [det3]; ring
    · right
      refine lt_of_eq_of_lt ?_ h
      simp only [det3]; ring

/-- the graph of a head with its reference points; the axis must not be rounded down -/
theorem headPart_fl (hR : R.IsRounding) {v0 c d k o : K} (hc : |c| ≤ 10 ^ 5) (d0 : 1 / 100 ≤ d) (d1 : d ≤ 10 ^ 5)
    (hx : c ≤ R.coord c) (name : ν) :
    ∃ a b t : Pt K, a = ⟨R.coord (R.sub c (R.div d 2)), R.coord v0⟩ ∧ b = ⟨R.coord (R.add c (R.div d 2)), R.coord v0⟩ ∧
      t = ⟨R.coord c, R.coord (R.add v0 (R.mul o (R.hGraph d)))⟩ ∧
      R.headGraph ⟨v0, c, d, k, o⟩ = [⟨a, t, .wall⟩, ⟨t, b, .wall⟩] ∧
      R.headPart name ⟨v0, c, d, k, o⟩ = .ok ⟨name, [⟨a, t, .wall⟩, ⟨t, b, .wall⟩],
        [(R.headPoint ⟨v0, c, d, k, o⟩ (-1) (45 / 100) (5 / 100), ⟨a, t, .wall⟩), (R.headPoint ⟨v0, c, d, k, o⟩ (-1) (5 / 100) (85 / 100), ⟨a, t, .wall⟩),
          (R.headPoint ⟨v0, c, d, k, o⟩ 1 (45 / 100) (5 / 100), ⟨t, b, .wall⟩), (R.headPoint ⟨v0, c, d, k, o⟩ 1 (5 / 100) (85 / 100), ⟨t, b, .wall⟩)],
        [(R.headPoint ⟨v0, c, d, k, o⟩ (-1) (25 / 100) (55 / 100), ⟨a, t, .wall⟩), (R.headPoint ⟨v0, c, d, k, o⟩ 1 (25 / 100) (55 / 100), ⟨t, b, .wall⟩)],
        []⟩ := by
  have hg : R.headGraph ⟨v0, c, d, k, o⟩ = [⟨⟨R.coord (R.sub c (R.div d 2)), R.coord v0⟩, ⟨R.coord c, R.coord (R.add v0 (R.mul o (R.hGraph d)))⟩, .wall⟩,
      ⟨⟨R.coord c, R.coord (R.add v0 (R.mul o (R.hGraph d)))⟩, ⟨R.coord (R.add c (R.div d 2)), R.coord v0⟩, .wall⟩] := by
    unfold Rt.headGraph
    simp only [left_end hR, right_end]
    rfl
  obtain ⟨f1, f2, -, -⟩ := FairDim.corner hR hc d0 d1
  obtain ⟨k1, k2⟩ := corner_near hR hc d0 d1
  rw [abs_le] at k1 k2
  have n : (58 : K) / 10 ^ 10 ≤ 1 / 1000 := by norm_num
  refine ⟨_, _, _, rfl, rfl, rfl, hg, ?_⟩
  unfold Rt.headPart
  rw [hg]
  refine graphPart_two (x := ([R.headPoint ⟨v0, c, d, k, o⟩ (-1) (45 / 100) (5 / 100), R.headPoint ⟨v0, c, d, k, o⟩ (-1) (5 / 100) (85 / 100)],
      [R.headPoint ⟨v0, c, d, k, o⟩ (-1) (25 / 100) (55 / 100)]))
    (y := ([R.headPoint ⟨v0, c, d, k, o⟩ 1 (45 / 100) (5 / 100), R.headPoint ⟨v0, c, d, k, o⟩ 1 (5 / 100) (85 / 100)],
      [R.headPoint ⟨v0, c, d, k, o⟩ 1 (25 / 100) (55 / 100)])) fun _ => ?_
  refine evalAll_two (f := fun _ s => R.headIntex ⟨v0, c, d, k, o⟩ s) ?_ ?_
  · unfold Rt.headIntex
    rw [if_pos]
    refine lt_of_le_of_lt (min_le_left _ _) ?_
    dsimp only
    linarith [k2.2]
  · unfold Rt.headIntex
    rw [if_neg, if_pos]
    · refine lt_of_lt_of_le ?_ (le_max_right _ _)
      dsimp only
      linarith [k1.1]
    · rw [not_lt]
      refine le_min hx ?_
      dsimp only
      linarith [k1.1]

/-- the part at the top of the shell `m`, with its reference points -/
def Rt.IsTop (R : Rt K) (m : MantelDim K) (name : ν) (g : GPart ν K) : Ending K → Prop
  | .head k => R.headPart name ⟨R.add m.posV m.h, m.posH, m.d1, k, 1⟩ = .ok g
  | .plate => g = R.platePart name [⟨R.mantelCorner m 2, R.mantelCorner m 1, .wall⟩] ⟨R.add m.posV m.h, m.d1, m.posH⟩
  | .ende => g = endPart name [⟨R.mantelCorner m 2, R.mantelCorner m 1, .wall⟩]

/-- … and at the bottom -/
def Rt.IsBottom (R : Rt K) (m : MantelDim K) (name : ν) (g : GPart ν K) : Ending K → Prop
  | .head k => R.headPart name ⟨m.posV, m.posH, m.d0, k, -1⟩ = .ok g
  | .plate => g = R.platePart name [⟨R.mantelCorner m 3, R.mantelCorner m 0, .wall⟩] ⟨m.posV, m.d0, m.posH⟩
  | .ende => g = endPart name [⟨R.mantelCorner m 3, R.mantelCorner m 0, .wall⟩]

theorem top_size (hR : R.IsRounding) {m : MantelDim K} (hm : FairDim m) : |R.add m.posV m.h| ≤ 4 * 10 ^ 5 := by
  have h1 := abs_le.1 (hR.rel (m.posV + m.h))
  have h2 := abs_le.1 hm.posV
  have h3 := hm.h0
  have h4 := hm.h1
  have h5 : |m.posV + m.h| ≤ 2 * 10 ^ 5 := by
    rw [abs_le]
    have : (0 : K) ≤ 1 / 10 ^ 4 := by positivity
    constructor <;> linarith [h2.1, h2.2]
  have h6 : |m.posV + m.h| / 2 ^ 53 ≤ |m.posV + m.h| := div_le_self (abs_nonneg _) (by norm_num)
  have h7 := abs_le.1 h5
  have ev : R.add m.posV m.h = R.fl (m.posV + m.h) := rfl
  rw [ev, abs_le]
  constructor <;> linarith [h1.1, h1.2, h7.1, h7.2]

/-- the two reference points of a flat head -/
theorem plate_near (hR : R.IsRounding) {v0 c d : K} (hv : |v0| ≤ 4 * 10 ^ 5) (d0 : 1 / 100 ≤ d) (d1 : d ≤ 10 ^ 5) :
    ∃ a b : K, R.plateIntex ⟨v0, d, c⟩ = [⟨R.coord c, a⟩, ⟨R.coord c, b⟩] ∧ |a - (R.coord v0 + d / 100)| ≤ 1 / 10 ^ 7 ∧
      |b - (R.coord v0 - d / 100)| ≤ 1 / 10 ^ 7 := by
  have dp : 0 ≤ d := le_trans (by norm_num) d0
  have s1 := shifted_near hR (v := 1) (a := 1 / 100) (c := v0) (Or.inl rfl) (by norm_num) (by norm_num) dp d1 hv
  have s2 := shifted_near hR (v := -1) (a := 1 / 100) (c := v0) (Or.inr rfl) (by norm_num) (by norm_num) dp d1 hv
  rw [sign_mul hR (Or.inl rfl)] at s1
  rw [sign_mul hR (Or.inr rfl)] at s2
  have kv := coord_near' hR (z := v0) (hv.trans (by norm_num))
  have n58 : (58 : K) / 10 ^ 10 = 58 / 10000000000 := by norm_num
  have n57 : (57 : K) / 10 ^ 10 = 57 / 10000000000 := by norm_num
  have n7 : (1 : K) / 10 ^ 7 = 1 / 10000000 := by norm_num
  rw [n58, abs_le] at s1 s2
  rw [n57, abs_le] at kv
  refine ⟨R.coord (R.add v0 (R.mul (1 * R.fl (1 / 100)) d)), R.coord (R.add v0 (R.mul (-1 * R.fl (1 / 100)) d)), ?_, ?_, ?_⟩
  · have c1 : ∀ x, R.add x v0 = R.add v0 x := fun x => by unfold Rt.add; rw [add_comm]
    unfold Rt.plateIntex
    simp only [hR.neg, c1, one_mul, neg_mul]
    rfl
  · rw [n7, abs_le]; constructor <;> linarith [s1.1, s1.2, kv.1, kv.2]
  · rw [n7, abs_le]; constructor <;> linarith [s2.1, s2.2, kv.1, kv.2]

/-- the reference points of what is at the top -/
theorem Bands.top_lies (hR : R.IsRounding) {m : MantelDim K} (hm : FairDim m) (hb : Bands y l r ms (R.bandOf m).y1 (R.bandOf m).l1 (R.bandOf m).r1)
    (hne : ms ≠ []) (hst : ∀ b ∈ ms, StoutBand (R.coord m.posH) (1 / 50000) b) (e : Ending K)
    (hax : ∀ k, e = .head k → m.posH ≤ R.coord m.posH) (hlow : e = .plate → m.d1 ≤ 50 * ((R.bandOf m).y1 - y)) (name : ν) :
    ∃ g : GPart ν K, R.IsTop m name g e ∧ g.name = name ∧ g.segs = R.topWalls m e ∧
    ∃ up, ApexUp (R.coord m.posH) (R.bandOf m).y1 up ∧ List.Forall₂ SameEdge (R.topWalls m e).reverse (lidUp (R.bandOf m).y1 (R.bandOf m).l1 (R.bandOf m).r1 up) ∧
      ∀ down, ApexDown (R.coord m.posH) y down →
        Lies (bandOutline y l r ms (R.bandOf m).y1 (R.bandOf m).l1 (R.bandOf m).r1 up down) g e.kind := by
  have he : (0 : K) < 1 / 50000 := by norm_num
  cases e with
  | ende => exact ⟨_, rfl, rfl, rfl, none, apexUp_none, .cons (Or.inr ⟨rfl, rfl⟩) .nil, fun _ _ => ⟨rfl, rfl, rfl⟩⟩
  | plate =>
    obtain ⟨a, b, ep, ha, hb'⟩ := plate_near hR (v0 := R.add m.posV m.h) (c := m.posH) (top_size hR hm) hm.d1 hm.d1'
    refine ⟨_, rfl, rfl, rfl, none, apexUp_none, .cons (Or.inr ⟨rfl, rfl⟩) .nil, fun down hd => ?_⟩
    have hg := hlow rfl
    have hd0 := hm.d1
    have hgap := hb.high hne he hst
    have n7 : (1 : K) / 10 ^ 7 = 1 / 10000000 := by norm_num
    rw [n7, abs_le] at ha hb'
    have ey : (R.bandOf m).y1 = R.coord (R.add m.posV m.h) := rfl
    have ap := hb.above (p := ⟨R.coord m.posH, a⟩) hne he hst hd (by rw [ey]; dsimp only; linarith [ha.1])
    have aq := hb.axis_off (up := none) (down := down) (v := b) he hst apexUp_none hd (by rw [ey] at hg hgap; linarith [hb'.1])
      (by rw [ey]; linarith [hb'.2])
    unfold Rt.platePart
    rw [ep]
    simp only [List.flatMap_cons, List.flatMap_nil, List.append_nil, List.map_cons, List.map_nil]
    refine ⟨rfl, rfl, ?_, ⟨R.mantelCorner m 2, R.mantelCorner m 1, .wall⟩, by simp, ⟨R.coord m.posH, a⟩, by simp, ap.2⟩
    intro x hx
    simp only [List.mem_cons, List.not_mem_nil, or_false] at hx
    rcases hx with rfl | rfl
    · exact ap.1
    · exact aq
  | head k =>
    obtain ⟨a, b, t, ea, eb, et, eg, ep⟩ := headPart_fl (v0 := R.add m.posV m.h) (k := k) (o := 1) hR hm.posH hm.d1 hm.d1' (hax k rfl) name
    have pl := fun v (hv : v = 1 ∨ v = -1) => head_places hR (k := k) (o := 1) (v := v) hm.posH (top_size hR hm) hm.d1 hm.d1'
      (Or.inl rfl) hv rfl rfl rfl rfl rfl rfl
    obtain ⟨i1, i2, o1⟩ := pl (-1) (Or.inr rfl)
    obtain ⟨j1, j2, o2⟩ := pl 1 (Or.inl rfl)
    have tx : t.x = R.coord m.posH := by rw [et]
    have ty : t.y = R.coord (R.add (R.add m.posV m.h) (R.mul 1 (R.hGraph m.d1))) := by rw [et]
    refine ⟨_, ep, rfl, eg.symm, some t, ?_, ?_, fun down hd => ?_⟩
    · intro q hq
      cases hq
      refine ⟨tx, ?_⟩
      have := i1.low.trans i1.high
      rw [← ty] at this
      show R.coord _ ≤ _
      linarith
    · show List.Forall₂ SameEdge (R.headGraph _).reverse _
      rw [eg, ea, eb]
      exact .cons (Or.inr ⟨rfl, rfl⟩) (.cons (Or.inr ⟨rfl, rfl⟩) .nil)
    · have ap : ApexUp (R.coord m.posH) (R.bandOf m).y1 (some t) := by
        intro q hq
        cases hq
        refine ⟨tx, ?_⟩
        have := i1.low.trans i1.high
        rw [← ty] at this
        show R.coord _ ≤ _
        linarith
      have IN := fun {p : Pt K} (h : InLid (R.coord (R.add m.posH (R.div m.d1 2)) - R.coord m.posH) (R.coord m.posH - R.coord (R.sub m.posH (R.div m.d1 2)))
          (1 * (R.coord (R.add (R.add m.posV m.h) (R.mul 1 (R.hGraph m.d1))) - R.coord (R.add m.posV m.h))) (p.x - R.coord m.posH) (1 * (p.y - R.coord (R.add m.posV m.h)))) =>
        h.top hb hne he hst ap hd (p := p) (by rw [tx]; rfl) (by rw [tx]; rfl) (by rw [ty]; rw [one_mul]; rfl) (by rw [tx]) (by rw [one_mul]; rfl)
      have OUT := fun {p : Pt K} (h : OffLid (R.coord (R.add m.posH (R.div m.d1 2)) - R.coord m.posH) (R.coord m.posH - R.coord (R.sub m.posH (R.div m.d1 2)))
          (1 * (R.coord (R.add (R.add m.posV m.h) (R.mul 1 (R.hGraph m.d1))) - R.coord (R.add m.posV m.h))) (p.x - R.coord m.posH) (1 * (p.y - R.coord (R.add m.posV m.h)))) =>
        h.top hb hne he hst ap hd (p := p) (by rw [tx]; rfl) (by rw [tx]; rfl) (by rw [ty]; rw [one_mul]; rfl) (by rw [tx]) (by rw [one_mul]; rfl)
      refine ⟨by simp, by simp, rfl, ?_, ?_, ?_⟩
      · intro x hx
        simp only [List.mem_cons, List.not_mem_nil, or_false] at hx
        rcases hx with rfl | rfl | rfl | rfl
        · exact IN i1
        · exact IN i2
        · exact IN j1
        · exact IN j2
      · intro x hx
        simp only [List.mem_cons, List.not_mem_nil, or_false] at hx
        rcases hx with rfl | rfl
        · exact OUT o1
        · exact OUT o2
      · intro s hs'
        simp only [List.mem_cons, List.not_mem_nil, or_false] at hs'
        rcases hs' with rfl | rfl
        · exact ⟨_, List.mem_cons_self ..⟩
        · exact ⟨_, List.mem_cons_of_mem _ (List.mem_cons_self ..)⟩

/-- … and at the bottom -/
theorem Bands.bottom_lies (hR : R.IsRounding) {m : MantelDim K} (hm : FairDim m) (hb : Bands (R.bandOf m).y0 (R.bandOf m).l0 (R.bandOf m).r0 ms y' l' r')
    (hne : ms ≠ []) (hst : ∀ b ∈ ms, StoutBand (R.coord m.posH) (1 / 50000) b) (e : Ending K)
    (hax : ∀ k, e = .head k → m.posH ≤ R.coord m.posH) (hlow : e = .plate → m.d0 ≤ 50 * (y' - (R.bandOf m).y0)) (name : ν) :
    ∃ g : GPart ν K, R.IsBottom m name g e ∧ g.name = name ∧ g.segs = R.bottomWalls m e ∧
    ∃ down, ApexDown (R.coord m.posH) (R.bandOf m).y0 down ∧ List.Forall₂ SameEdge (R.bottomWalls m e) (lidDown (R.bandOf m).y0 (R.bandOf m).l0 (R.bandOf m).r0 down) ∧
      ∀ up, ApexUp (R.coord m.posH) y' up →
        Lies (bandOutline (R.bandOf m).y0 (R.bandOf m).l0 (R.bandOf m).r0 ms y' l' r' up down) g e.kind := by
  have he : (0 : K) < 1 / 50000 := by norm_num
  cases e with
  | ende => exact ⟨_, rfl, rfl, rfl, none, apexDown_none, .cons (Or.inl ⟨rfl, rfl⟩) .nil, fun _ _ => ⟨rfl, rfl, rfl⟩⟩
  | plate =>
    obtain ⟨a, b, ep, ha, hb'⟩ := plate_near hR (v0 := m.posV) (c := m.posH) (hm.posV.trans (by norm_num)) hm.d0 hm.d0'
    refine ⟨_, rfl, rfl, rfl, none, apexDown_none, .cons (Or.inl ⟨rfl, rfl⟩) .nil, fun up hu => ?_⟩
    have hg := hlow rfl
    have hd0 := hm.d0
    have hgap := hb.high hne he hst
    have n7 : (1 : K) / 10 ^ 7 = 1 / 10000000 := by norm_num
    rw [n7, abs_le] at ha hb'
    have ey : (R.bandOf m).y0 = R.coord (m.posV) := rfl
    have ap := hb.below (p := ⟨R.coord m.posH, b⟩) hne he hst hu (by rw [ey]; dsimp only; linarith [hb'.2])
    have aq := hb.axis_off (up := up) (down := none) (v := a) he hst hu apexDown_none (by rw [ey]; linarith [ha.1])
      (by rw [ey] at hg hgap; linarith [ha.2])
    unfold Rt.platePart
    rw [ep]
    simp only [List.flatMap_cons, List.flatMap_nil, List.append_nil, List.map_cons, List.map_nil]
    refine ⟨rfl, rfl, ?_, ⟨R.mantelCorner m 3, R.mantelCorner m 0, .wall⟩, by simp, ⟨R.coord m.posH, b⟩, by simp, ap.2⟩
    intro x hx
    simp only [List.mem_cons, List.not_mem_nil, or_false] at hx
    rcases hx with rfl | rfl
    · exact aq
    · exact ap.1
  | head k =>
    obtain ⟨a, b, t, ea, eb, et, eg, ep⟩ := headPart_fl (v0 := m.posV) (k := k) (o := -1) hR hm.posH hm.d0 hm.d0' (hax k rfl) name
    have pl := fun v (hv : v = 1 ∨ v = -1) => head_places hR (k := k) (o := -1) (v := v) hm.posH (hm.posV.trans (by norm_num)) hm.d0 hm.d0'
      (Or.inr rfl) hv rfl rfl rfl rfl rfl rfl
    obtain ⟨i1, i2, o1⟩ := pl (-1) (Or.inr rfl)
    obtain ⟨j1, j2, o2⟩ := pl 1 (Or.inl rfl)
    have tx : t.x = R.coord m.posH := by rw [et]
    have ty : t.y = R.coord (R.add (m.posV) (R.mul (-1) (R.hGraph m.d0))) := by rw [et]
    refine ⟨_, ep, rfl, eg.symm, some t, ?_, ?_, fun up hu => ?_⟩
    · intro q hq
      cases hq
      refine ⟨tx, ?_⟩
      have := i1.low.trans i1.high
      rw [← ty] at this
      show _ ≤ R.coord _
      linarith
    · show List.Forall₂ SameEdge (R.headGraph _) _
      rw [eg, ea, eb]
      exact .cons (Or.inl ⟨rfl, rfl⟩) (.cons (Or.inl ⟨rfl, rfl⟩) .nil)
    · have ap : ApexDown (R.coord m.posH) (R.bandOf m).y0 (some t) := by
        intro q hq
        cases hq
        refine ⟨tx, ?_⟩
        have := i1.low.trans i1.high
        rw [← ty] at this
        show _ ≤ R.coord _
        linarith
      have IN := fun {p : Pt K} (h : InLid (R.coord (R.add m.posH (R.div m.d0 2)) - R.coord m.posH) (R.coord m.posH - R.coord (R.sub m.posH (R.div m.d0 2)))
          ((-1) * (R.coord (R.add (m.posV) (R.mul (-1) (R.hGraph m.d0))) - R.coord (m.posV))) (p.x - R.coord m.posH) ((-1) * (p.y - R.coord (m.posV)))) =>
        h.bottom hb hne he hst hu ap (p := p) (by rw [tx]; rfl) (by rw [tx]; rfl) (by rw [ty]; rw [neg_one_mul, neg_sub]; rfl) (by rw [tx]) (by rw [neg_one_mul, neg_sub]; rfl)
      have OUT := fun {p : Pt K} (h : OffLid (R.coord (R.add m.posH (R.div m.d0 2)) - R.coord m.posH) (R.coord m.posH - R.coord (R.sub m.posH (R.div m.d0 2)))
          ((-1) * (R.coord (R.add (m.posV) (R.mul (-1) (R.hGraph m.d0))) - R.coord (m.posV))) (p.x - R.coord m.posH) ((-1) * (p.y - R.coord (m.posV)))) =>
        h.bottom hb hne he hst hu ap (p := p) (by rw [tx]; rfl) (by rw [tx]; rfl) (by rw [ty]; rw [neg_one_mul, neg_sub]; rfl) (by rw [tx]) (by rw [neg_one_mul, neg_sub]; rfl)
      refine ⟨by simp, by simp, rfl, ?_, ?_, ?_⟩
      · intro x hx
        simp only [List.mem_cons, List.not_mem_nil, or_false] at hx
        rcases hx with rfl | rfl | rfl | rfl
        · exact IN i1
        · exact IN i2
        · exact IN j1
        · exact IN j2
      · intro x hx
        simp only [List.mem_cons, List.not_mem_nil, or_false] at hx
        rcases hx with rfl | rfl
        · exact OUT o1
        · exact OUT o2
      · intro s hs'
        simp only [List.mem_cons, List.not_mem_nil, or_false] at hs'
        rcases hs' with rfl | rfl
        · exact ⟨_, List.mem_cons_self ..⟩
        · exact ⟨_, List.mem_cons_of_mem _ (List.mem_cons_self ..)⟩

/-! ### the vessel -/

/-- a part made of the shell `m`, by a constructor that met safe targets -/
def Rt.IsShellFl (R : Rt K) (m : MantelDim K) (g : GPart ν K) : Prop :=
  ∃ (name : ν) (b : SegCls) (ω : ℕ → ℕ → ℕ → ℕ → ℕ → Pt K) (fuel : ℕ), R.SafeShell m b ω ∧
    R.shellPart name (R.shellFl m b) [R.rightWallFl m, R.leftWallFl m] m.posH ω (fuel + 1) = .ok g

theorem IsTop.unique {m : MantelDim K} {name : ν} {g g' : GPart ν K} {e : Ending K} (h : R.IsTop m name g e) (h' : R.IsTop m name g' e) : g = g' := by
  cases e with
  | head k =>
    have h1 : R.headPart name _ = .ok g := h
    have h2 : R.headPart name _ = .ok g' := h'
    rw [h1] at h2
    exact Except.ok.inj h2
  | plate => exact Eq.trans h (Eq.symm h')
  | ende => exact Eq.trans h (Eq.symm h')

theorem IsBottom.unique {m : MantelDim K} {name : ν} {g g' : GPart ν K} {e : Ending K} (h : R.IsBottom m name g e) (h' : R.IsBottom m name g' e) :
    g = g' := by
  cases e with
  | head k =>
    have h1 : R.headPart name _ = .ok g := h
    have h2 : R.headPart name _ = .ok g' := h'
    rw [h1] at h2
    exact Except.ok.inj h2
  | plate => exact Eq.trans h (Eq.symm h')
  | ende => exact Eq.trans h (Eq.symm h')

/-- what is wanted of a vessel: fair shells that are not too flat, each standing on the previous one; the axis of a torispherical head must not
be rounded down, and a flat head must not be too wide for the height of the room -/
structure Rt.FairVessel (R : Rt K) (a : MantelDim K) (as : List (MantelDim K)) (top bot : Ending K) : Prop where
  chain : (a :: as).IsChain fun m m' => R.StandsOn m' m
  fair : ∀ m ∈ a :: as, FairDim m ∧ |m.d1 - m.d0| ≤ 20 * m.h
  axis : ∀ k, top = .head k ∨ bot = .head k → a.posH ≤ R.coord a.posH
  up : top = .plate → ((a :: as).getLast (by simp)).d1 ≤ 50 * ((R.bandOf ((a :: as).getLast (by simp))).y1 - (R.bandOf a).y0)
  down : bot = .plate → a.d0 ≤ 50 * ((R.bandOf ((a :: as).getLast (by simp))).y1 - (R.bandOf a).y0)

/-- the outline of the room and how the reference points of all parts lie to it -/
theorem vessel_lies (hR : R.IsRounding) (hQ : R.RootOk) {a : MantelDim K} {as : List (MantelDim K)} {top bot : Ending K}
    (hv : R.FairVessel a as top bot) (n1 n2 : ν) :
    ∃ gt gb : GPart ν K, R.IsTop ((a :: as).getLast (by simp)) n1 gt top ∧ gt.name = n1 ∧
      gt.segs = R.topWalls ((a :: as).getLast (by simp)) top ∧ R.IsBottom a n2 gb bot ∧ gb.name = n2 ∧ gb.segs = R.bottomWalls a bot ∧
      ∃ H : List (Seg K), ClosedChain H ∧ NoDouble H ∧ (∀ v : List (Seg K), v.Perm (R.stackWalls a as top bot) → SameDrawing v H) ∧
        Lies H gt top.kind ∧ Lies H gb bot.kind ∧
        ∀ m ∈ a :: as, ∀ (name : ν) (b : SegCls) (ω : ℕ → ℕ → ℕ → ℕ → ℕ → Pt K), R.SafeShell m b ω → ∀ fuel,
          ∃ g : GPart ν K, R.shellPart name (R.shellFl m b) [R.rightWallFl m, R.leftWallFl m] m.posH ω (fuel + 1) = .ok g ∧ g.name = name ∧
            g.segs = [R.rightWallFl m, R.leftWallFl m] ∧ Lies H g (some .innen) := by
  have hb := bands_of_chain a as hv.chain
  have hax := posH_of_chain a as hv.chain
  have hup := hv.up
  have hdown := hv.down
  have hzm : (a :: as).getLast (by simp) ∈ a :: as := List.getLast_mem _
  have ha : a ∈ a :: as := List.mem_cons_self ..
  have draws := fun {up down : Option (Pt K)} (fu : List.Forall₂ SameEdge (R.topWalls ((a :: as).getLast (by simp)) top).reverse
      (lidUp (R.bandOf ((a :: as).getLast (by simp))).y1 (R.bandOf ((a :: as).getLast (by simp))).l1 (R.bandOf ((a :: as).getLast (by simp))).r1 up))
      (fd : List.Forall₂ SameEdge (R.bottomWalls a bot) (lidDown (R.bandOf a).y0 (R.bandOf a).l0 (R.bandOf a).r0 down)) (v : List (Seg K)) hv =>
    stack_draws fu fd (v := v) hv
  generalize (a :: as).getLast (by simp) = z at *
  have hst : ∀ m ∈ (a :: as).map R.bandOf, StoutBand (R.coord a.posH) (1 / 50000) m := by
    intro m hm
    obtain ⟨d, hd, rfl⟩ := List.mem_map.1 hm
    rw [← hax d hd]
    exact (hv.fair d hd).1.stout hR
  have hstz : ∀ m ∈ (a :: as).map R.bandOf, StoutBand (R.coord z.posH) (1 / 50000) m := by rw [hax z hzm]; exact hst
  have hne : (a :: as).map R.bandOf ≠ [] := by simp
  have he : (0 : K) < 1 / 50000 := by norm_num
  obtain ⟨gt, ht, nt, st, up, pu, fu, lt⟩ := hb.top_lies hR (hv.fair z hzm).1 hne hstz top
    (fun k e => by rw [hax z hzm]; exact hv.axis k (Or.inl e)) hup n1
  obtain ⟨gb, hb', nb, sb, down, pd, fd, lb⟩ := hb.bottom_lies hR (hv.fair a ha).1 hne hst bot (fun k e => hv.axis k (Or.inr e)) hdown n2
  rw [hax z hzm] at pu lt
  refine ⟨gt, gb, ht, nt, st, hb', nb, sb, _, hb.closed up down, hb.noDouble hne he hst pu pd, draws fu fd, lt down pd, lb up pu, ?_⟩
  intro m hm name b ω hω fuel
  exact hb.shell_lies hR hQ he hst pu pd (hv.fair m hm).1 (hv.fair m hm).2 (List.mem_map_of_mem hm) name b ω hω fuel

/-- C129: in every correctly rounded arithmetic: a stack of any number of shells, whatever their decimals, with a torispherical head, a flat
head or the end of a room at each end: the room with all these parts as walls, in any order, is recorded as inner room of every shell and
every torispherical head, as indifferent for the flat heads, and as nothing else. -/
theorem C129_intex (hR : R.IsRounding) (hQ : R.RootOk) {a : MantelDim K} {as : List (MantelDim K)} {top bot : Ending K}
    (hv : R.FairVessel a as top bot) (gs : List (GPart ν K)) (hgs : List.Forall₂ R.IsShellFl (a :: as) gs) (n1 n2 : ν) (gt gb : GPart ν K)
    (ht : R.IsTop ((a :: as).getLast (by simp)) n1 gt top) (hb : R.IsBottom a n2 gb bot) (r : GRoom ν ρ K)
    (hr : r.walls.Perm (gs ++ [gt, gb])) (ω : ℕ → ℕ → IntexKind → ℕ → ℕ → ℕ → Pt K)
    (hω : ∀ g ∈ r.walls, ∀ x ∈ g.internal ++ g.external ++ g.indifferent, ∀ i j k n q c, ∃ α β, SafeTarget α β r.polygon x.1 (ω i j k n q c))
    (fuel : ℕ) :
    ∃ T, R.raumIntex [r] (fuel + 1) ω = some T ∧
      ∀ n k r', (n, k, r') ∈ T ↔ r' = r.name ∧ ((∃ g ∈ gs, g.name = n) ∧ k = .innen ∨ n = n1 ∧ top.kind = some k ∨
        n = n2 ∧ bot.kind = some k) := by
  obtain ⟨gt', gb', ht', nt, st, hb', nb, sb, H, hcl, hnd, hdr, lt, lb, lsh⟩ := vessel_lies hR hQ hv n1 n2
  obtain rfl := IsTop.unique ht ht'
  obtain rfl := IsBottom.unique hb hb'
  have lgs : ∀ l : List (MantelDim K), (∀ m ∈ l, m ∈ a :: as) → ∀ l' : List (GPart ν K), List.Forall₂ R.IsShellFl l l' →
      (∀ g ∈ l', Lies H g (some .innen)) ∧ l'.flatMap GPart.segs = l.flatMap fun m => [R.rightWallFl m, R.leftWallFl m] := by
    intro l hl l' hf
    induction hf with
    | nil => exact ⟨fun g hg => (by cases hg), rfl⟩
    | @cons m g l l' hmg _ ih =>
      obtain ⟨name, b, ω', fuel', hω', e⟩ := hmg
      obtain ⟨g', e', -, es, L⟩ := lsh m (hl m (List.mem_cons_self ..)) name b ω' hω' fuel'
      rw [e] at e'
      obtain rfl := Except.ok.inj e'
      obtain ⟨i1, i2⟩ := ih fun x hx => hl x (List.mem_cons_of_mem _ hx)
      refine ⟨?_, by rw [List.flatMap_cons, List.flatMap_cons, es, i2]⟩
      intro x hx
      rcases List.mem_cons.1 hx with rfl | hx
      · exact L
      · exact i1 x hx
  obtain ⟨lg, sg⟩ := lgs (a :: as) (fun m h => h) gs hgs
  have hdraw : SameDrawing r.polygon H := by
    refine hdr _ ?_
    unfold GRoom.polygon
    refine (hr.flatMap_right _).trans ?_
    rw [List.flatMap_append, sg]
    unfold Rt.stackWalls
    simp only [List.flatMap_cons, List.flatMap_nil, List.append_nil, st, sb, List.append_assoc]
    exact .refl _
  have hall : ∀ g ∈ r.walls, (g ∈ gs ∧ Lies H g (some .innen)) ∨ (g = gt ∧ Lies H g top.kind) ∨ (g = gb ∧ Lies H g bot.kind) := by
    intro g hg
    have := hr.mem_iff.1 hg
    simp only [List.mem_append, List.mem_cons, List.not_mem_nil, or_false] at this
    rcases this with h | rfl | rfl
    · exact Or.inl ⟨h, lg g h⟩
    · exact Or.inr (Or.inl ⟨rfl, lt⟩)
    · exact Or.inr (Or.inr ⟨rfl, lb⟩)
  obtain ⟨T, hT, hmem⟩ := C129_answers hR hQ [r] (fun _ => H)
    (by intro r0 hr0; obtain rfl : r0 = r := by simpa using hr0
        exact ⟨hcl, hnd, hdraw⟩)
    (by intro r0 hr0 g hg; obtain rfl : r0 = r := by simpa using hr0
        rcases hall g hg with ⟨-, h⟩ | ⟨-, h⟩ | ⟨-, h⟩
        · exact ⟨_, h⟩
        · exact ⟨_, h⟩
        · exact ⟨_, h⟩) ω
    (by intro r0 hr0; obtain rfl : r0 = r := by simpa using hr0
        exact hω) fuel
  refine ⟨T, hT, fun n k r' => ?_⟩
  rw [hmem]
  constructor
  · rintro ⟨r0, hr0, rfl, g, hg, rfl, h⟩
    obtain rfl : r0 = r := by simpa using hr0
    refine ⟨rfl, ?_⟩
    rcases hall g hg with ⟨x, y⟩ | ⟨x, y⟩ | ⟨x, y⟩
    · left
      have := h.unique y
      exact ⟨⟨g, x, rfl⟩, Option.some.inj this⟩
    · right; left
      exact ⟨x ▸ nt, y.unique h⟩
    · right; right
      exact ⟨x ▸ nb, y.unique h⟩
  · rintro ⟨rfl, ⟨⟨g, hg, rfl⟩, rfl⟩ | ⟨rfl, hk⟩ | ⟨rfl, hk⟩⟩
    · exact ⟨r, by simp, rfl, g, hr.mem_iff.2 (List.mem_append_left _ hg), rfl, lg g hg⟩
    · exact ⟨r, by simp, rfl, gt, hr.mem_iff.2 (by simp), nt, hk ▸ lt⟩
    · exact ⟨r, by simp, rfl, gb, hr.mem_iff.2 (by simp), nb, hk ▸ lb⟩

/-- C129: the parts of such a vessel can be made: no constructor raises an exception. -/
theorem C129_parts (hR : R.IsRounding) (hQ : R.RootOk) {a : MantelDim K} {as : List (MantelDim K)} {top bot : Ending K}
    (hv : R.FairVessel a as top bot) (n1 n2 : ν) :
    (∀ m ∈ a :: as, ∀ (name : ν) (b : SegCls) (ω : ℕ → ℕ → ℕ → ℕ → ℕ → Pt K) (fuel : ℕ), R.SafeShell m b ω →
      ∃ g : GPart ν K, R.shellPart name (R.shellFl m b) [R.rightWallFl m, R.leftWallFl m] m.posH ω (fuel + 1) = .ok g ∧ R.IsShellFl m g ∧
        g.name = name) ∧
    (∃ g : GPart ν K, R.IsTop ((a :: as).getLast (by simp)) n1 g top) ∧ ∃ g : GPart ν K, R.IsBottom a n2 g bot := by
  obtain ⟨gt, gb, ht, -, -, hb, -, -, H, -, -, -, -, -, lsh⟩ := vessel_lies hR hQ hv n1 n2
  refine ⟨?_, ⟨gt, ht⟩, gb, hb⟩
  intro m hm name b ω fuel hω
  obtain ⟨g, e, en, -⟩ := lsh m hm name b ω hω fuel
  exact ⟨g, e, ⟨name, b, ω, fuel, hω, e⟩, en⟩

/-- C129: the reference points of a shell are those computed from its two walls, whatever the targets of its constructor were. -/
theorem C129_points (hR : R.IsRounding) (hQ : R.RootOk) {m : MantelDim K} (hm : FairDim m) (hs : |m.d1 - m.d0| ≤ 20 * m.h) {g : GPart ν K}
    (hg : R.IsShellFl m g) :
    g.indifferent = [] ∧ (∀ x ∈ g.internal, InBand (R.bandOf m) x.1) ∧ (∀ x ∈ g.external, OffBand (R.bandOf m) x.1) ∧
      ∀ x ∈ g.internal ++ g.external, ∃ pts, R.intexFour m.posH 50000 (2 / 1000) x.2 = .ok pts ∧ x.1 ∈ pts ∧
        (x.2 = R.rightWallFl m ∨ x.2 = R.leftWallFl m) := by
  obtain ⟨name, b, ω, fuel, hω, e⟩ := hg
  obtain ⟨p, q, r, t, p', q', r', t', eg, ⟨e1, e2⟩, hin, hbe⟩ := shellPart_fl hR hQ hm hs name b ω hω fuel
  rw [e] at eg
  obtain rfl := Except.ok.inj eg
  refine ⟨rfl, ?_, ?_, ?_⟩
  · intro x hx
    apply hin
    simp only [List.mem_cons, List.not_mem_nil, or_false] at hx
    rcases hx with rfl | rfl | rfl | rfl <;> simp
  · intro x hx
    apply hbe
    simp only [List.mem_cons, List.not_mem_nil, or_false] at hx
    rcases hx with rfl | rfl | rfl | rfl <;> simp
  · intro x hx
    simp only [List.cons_append, List.nil_append, List.mem_cons, List.not_mem_nil, or_false] at hx
    rcases hx with rfl | rfl | rfl | rfl | rfl | rfl | rfl | rfl
    · exact ⟨_, e1, by simp, Or.inl rfl⟩
    · exact ⟨_, e1, by simp, Or.inl rfl⟩
    · exact ⟨_, e2, by simp, Or.inr rfl⟩
    · exact ⟨_, e2, by simp, Or.inr rfl⟩
    · exact ⟨_, e1, by simp, Or.inl rfl⟩
    · exact ⟨_, e1, by simp, Or.inl rfl⟩
    · exact ⟨_, e2, by simp, Or.inr rfl⟩
    · exact ⟨_, e2, by simp, Or.inr rfl⟩

end

end Srep
