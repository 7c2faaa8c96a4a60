import Verif.Lemmas.TriRel
import Mathlib.Data.Real.Basic
import Mathlib.Tactic.NormNum

/-! Checks of concrete figures with rational coordinates, carried over to the real numbers (used by examples only). -/

namespace Srep.RatEx

/-- the same point with real coordinates -/
def pt (p : Pt ℚ) : Pt ℝ := ⟨p.x, p.y⟩
/-- the same segment with real coordinates -/
def seg (s : Seg ℚ) : Seg ℝ := ⟨pt s.i, pt s.j, s.cls⟩
/-- the same triangle with real coordinates -/
def tri (t : Pt ℚ × Pt ℚ × Pt ℚ) : Pt ℝ × Pt ℝ × Pt ℝ := (pt t.1, pt t.2.1, pt t.2.2)

theorem pt_inj {p q : Pt ℚ} (h : pt p = pt q) : p = q := by
  cases p; cases q
  simpa [pt] using h

theorem det3_pt (a b c : Pt ℚ) : det3 (pt a) (pt b) (pt c) = ((det3 a b c : ℚ) : ℝ) := by
  unfold det3 pt; push_cast; ring

theorem lerp_pt (a b : Pt ℚ) (u : ℚ) : lerp (pt a) (pt b) (u : ℝ) = pt (lerp a b u) := by
  unfold lerp pt; push_cast; rfl

theorem tri_segs (t : Pt ℚ × Pt ℚ × Pt ℚ) : triSegs (tri t) = (triSegs t).map seg := rfl

/-- the cross product of the directions -/
def dirs (p t a b : Pt ℚ) : ℚ := (t.x - p.x) * (b.y - a.y) - (t.y - p.y) * (b.x - a.x)
/-- the position of the common point of the lines on the first … -/
def pos (p t a b : Pt ℚ) : ℚ := ((a.x - p.x) * (b.y - a.y) - (a.y - p.y) * (b.x - a.x)) / dirs p t a b
/-- … and on the second line -/
def pos' (p t a b : Pt ℚ) : ℚ := ((a.x - p.x) * (t.y - p.y) - (a.y - p.y) * (t.x - p.x)) / dirs p t a b

/-- `X` is outside of the box by more than 2e-8 -/
def farB (a b X : Pt ℚ) : Bool :=
  decide (X.x < min a.x b.x - 2 / 10 ^ 8) || decide (max a.x b.x + 2 / 10 ^ 8 < X.x) ||
  decide (X.y < min a.y b.y - 2 / 10 ^ 8) || decide (max a.y b.y + 2 / 10 ^ 8 < X.y)

/-- both positions are on the segments -/
def onB (p t a b : Pt ℚ) : Bool :=
  decide (0 ≤ pos p t a b) && decide (pos p t a b ≤ 1) && decide (0 ≤ pos' p t a b) && decide (pos' p t a b ≤ 1)

/-- the check of `Clear` -/
def clearB (p t a b : Pt ℚ) : Bool :=
  if dirs p t a b = 0 then decide (det3 p t a ≠ 0)
  else onB p t a b || farB p t (lerp p t (pos p t a b)) || farB a b (lerp p t (pos p t a b))

theorem lt_r {a b : ℚ} (h : a < b) : (a : ℝ) < (b : ℝ) := Rat.cast_lt.2 h
theorem le_r {a b : ℚ} (h : a ≤ b) : (a : ℝ) ≤ (b : ℝ) := Rat.cast_le.2 h

theorem far_pt {a b X : Pt ℚ} (h : farB a b X = true) : FarFromBox (pt a) (pt b) (pt X) := by
  unfold farB at h
  simp only [Bool.or_eq_true, decide_eq_true_eq] at h
  unfold FarFromBox pt
  dsimp only
  rcases h with ((h | h) | h) | h
  · left; have := lt_r h; push_cast at this; exact this
  · right; left; have := lt_r h; push_cast at this; exact this
  · right; right; left; have := lt_r h; push_cast at this; exact this
  · right; right; right; have := lt_r h; push_cast at this; exact this

theorem common_pos {p t a b : Pt ℚ} {u w : ℝ} (h : lerp (pt p) (pt t) u = lerp (pt a) (pt b) w) (hd : dirs p t a b ≠ 0) :
    u = pos p t a b ∧ w = pos' p t a b := by
  have e1 := congrArg Pt.x h
  have e2 := congrArg Pt.y h
  simp only [lerp, pt] at e1 e2
  have hd' : ((dirs p t a b : ℚ) : ℝ) ≠ 0 := by exact_mod_cast hd
  have hD : ((dirs p t a b : ℚ) : ℝ) = (t.x - p.x) * (b.y - a.y) - (t.y - p.y) * (b.x - a.x) := by unfold dirs; push_cast; ring
  unfold pos pos'
  push_cast
  constructor
  · rw [eq_div_iff hd', hD]
    linear_combination (b.y - a.y : ℝ) * e1 - (b.x - a.x : ℝ) * e2
  · rw [eq_div_iff hd', hD]
    linear_combination (t.y - p.y : ℝ) * e1 - (t.x - p.x : ℝ) * e2

theorem no_common {p t a b : Pt ℚ} {u w : ℝ} (h : lerp (pt p) (pt t) u = lerp (pt a) (pt b) w) (hd : dirs p t a b = 0) :
    det3 p t a = 0 := by
  have e1 := congrArg Pt.x h
  have e2 := congrArg Pt.y h
  simp only [lerp, pt] at e1 e2
  have hD : (t.x - p.x : ℝ) * (b.y - a.y) - (t.y - p.y) * (b.x - a.x) = 0 := by
    have : ((dirs p t a b : ℚ) : ℝ) = 0 := by rw [hd]; norm_num
    rw [← this]; unfold dirs; push_cast; ring
  have : ((det3 p t a : ℚ) : ℝ) = 0 := by
    unfold det3
    push_cast
    linear_combination (t.y - p.y : ℝ) * e1 - (t.x - p.x : ℝ) * e2 - w * hD
  exact_mod_cast this

theorem clear_pt {p t : Pt ℚ} {s : Seg ℚ} (h : clearB p t s.i s.j = true) : Clear (pt p) (pt t) (seg s) := by
  rintro X ⟨u, rfl⟩ ⟨w, e⟩
  change lerp (pt p) (pt t) u = lerp (pt s.i) (pt s.j) w at e
  unfold clearB at h
  split_ifs at h with hd
  · rw [decide_eq_true_eq] at h
    exact absurd (no_common e hd) h
  · obtain ⟨e1, e2⟩ := common_pos e hd
    rw [Bool.or_eq_true, Bool.or_eq_true] at h
    rcases h with (h | h) | h
    · left
      unfold onB at h
      simp only [Bool.and_eq_true, decide_eq_true_eq] at h
      obtain ⟨⟨⟨h1, h2⟩, h3⟩, h4⟩ := h
      exact ⟨⟨u, by rw [e1]; exact_mod_cast h1, by rw [e1]; exact_mod_cast h2, rfl⟩,
        ⟨w, by rw [e2]; exact_mod_cast h3, by rw [e2]; exact_mod_cast h4, e⟩⟩
    · right; left
      rw [e1, lerp_pt]
      exact far_pt h
    · right; right
      rw [e1, lerp_pt]
      exact far_pt h

/-- the check of `GoodTarget` -/
def goodB (l : List (Seg ℚ)) (p t : Pt ℚ) : Bool :=
  decide (p.x < t.x) && l.all fun s => decide (s.i.x < t.x) && decide (s.j.x < t.x) && decide (det3 p t s.i ≠ 0) &&
    decide (det3 p t s.j ≠ 0) && clearB p t s.i s.j

theorem good_pt {l : List (Seg ℚ)} {p t : Pt ℚ} (h : goodB l p t = true) : GoodTarget (l.map seg) (pt p) (pt t) := by
  unfold goodB at h
  simp only [Bool.and_eq_true, decide_eq_true_eq, List.all_eq_true] at h
  obtain ⟨h0, h⟩ := h
  refine ⟨lt_r h0, ?_, ?_, ?_⟩
  all_goals
    intro s hs
    obtain ⟨s, hs', rfl⟩ := List.mem_map.1 hs
    obtain ⟨⟨⟨⟨h1, h2⟩, h3⟩, h4⟩, h5⟩ := h s hs'
  · exact ⟨lt_r h1, lt_r h2⟩
  · change det3 (pt p) (pt t) (pt s.i) ≠ 0 ∧ det3 (pt p) (pt t) (pt s.j) ≠ 0
    rw [det3_pt, det3_pt]
    exact ⟨by exact_mod_cast h3, by exact_mod_cast h4⟩
  · exact clear_pt h5

/-- the check of `Apart` -/
def apartB (e : ℚ) (L : List (Pt ℚ)) : Bool :=
  L.all fun a => L.all fun b => decide (a = b) || decide (e ≤ |a.x - b.x|) || decide (e ≤ |a.y - b.y|)

theorem apart_pt {e : ℚ} {L : List (Pt ℚ)} (h : apartB e L = true) {S : Set (Pt ℝ)} (hS : ∀ p ∈ S, ∃ q ∈ L, p = pt q) :
    Apart (e : ℝ) S := by
  intro p hp q hq hne
  obtain ⟨a, ha, rfl⟩ := hS p hp
  obtain ⟨b, hb, rfl⟩ := hS q hq
  unfold apartB at h
  have := List.all_eq_true.1 (List.all_eq_true.1 h a ha) b hb
  simp only [Bool.or_eq_true, decide_eq_true_eq] at this
  unfold pt
  rcases this with (h | h) | h
  · exact absurd (congrArg pt h) hne
  · left; have := le_r h; push_cast at this; exact this
  · right; have := le_r h; push_cast at this; exact this

/-- the check of `Spread` -/
def spreadB (l : List (Seg ℚ)) (p t : Pt ℚ) : Bool := apartB (1 / 10 ^ 5) (p :: t :: l.flatMap fun s => [s.i, s.j])

theorem spread_pt {l : List (Seg ℚ)} {p t : Pt ℚ} (h : spreadB l p t = true) : Spread (l.map seg) (pt p) (pt t) := by
  have := apart_pt h (S := {q | q = pt p ∨ q = pt t ∨ ∃ s ∈ l.map seg, q = s.i ∨ q = s.j}) (by
    rintro q (rfl | rfl | ⟨s, hs, hq⟩)
    · exact ⟨p, by simp, rfl⟩
    · exact ⟨t, by simp, rfl⟩
    · obtain ⟨s, hs', rfl⟩ := List.mem_map.1 hs
      rcases hq with rfl | rfl
      · exact ⟨s.i, List.mem_cons_of_mem _ (List.mem_cons_of_mem _ (List.mem_flatMap.2 ⟨s, hs', by simp⟩)), rfl⟩
      · exact ⟨s.j, List.mem_cons_of_mem _ (List.mem_cons_of_mem _ (List.mem_flatMap.2 ⟨s, hs', by simp⟩)), rfl⟩)
  unfold Spread
  convert this using 1
  norm_num

/-- the corners -/
def corners (t : Pt ℚ × Pt ℚ × Pt ℚ) : List (Pt ℚ) := [t.1, t.2.1, t.2.2]

theorem corner_pt {t : Pt ℚ × Pt ℚ × Pt ℚ} {p : Pt ℝ} (h : IsCorner (tri t) p) : ∃ q ∈ corners t, p = pt q := by
  unfold corners
  rcases h with rfl | rfl | rfl
  · exact ⟨t.1, by simp, rfl⟩
  · exact ⟨t.2.1, by simp, rfl⟩
  · exact ⟨t.2.2, by simp, rfl⟩

theorem corner_of {t : Pt ℚ × Pt ℚ × Pt ℚ} {q : Pt ℚ} (h : q ∈ corners t) : IsCorner (tri t) (pt q) := by
  unfold corners at h
  simp only [List.mem_cons, List.not_mem_nil, or_false] at h
  rcases h with rfl | rfl | rfl <;> simp [IsCorner, tri]

/-- the check of `Aims` for one target for all tests -/
def aimsB (t u : Pt ℚ × Pt ℚ × Pt ℚ) (w : Pt ℚ) : Bool :=
  (corners u).all fun p => decide (p ∈ corners t) || (goodB (triSegs t) p w && spreadB (triSegs t) p w)

theorem aims_pt {t u : Pt ℚ × Pt ℚ × Pt ℚ} {w : Pt ℚ} (h : aimsB t u w = true) {ps : List (Pt ℝ)}
    (hps : ∀ p ∈ ps, IsCorner (tri u) p) : Aims (tri t) ps (fun _ _ => pt w) := by
  intro n p hp hc k _
  obtain ⟨q, hq, rfl⟩ := corner_pt (hps p (List.mem_of_getElem? hp))
  unfold aimsB at h
  have := List.all_eq_true.1 h q hq
  rw [Bool.or_eq_true, decide_eq_true_eq, Bool.and_eq_true] at this
  rcases this with h | h
  · exact absurd (corner_of h) hc
  · rw [tri_segs]
    exact ⟨good_pt h.1, spread_pt h.2⟩

/-- no common end -/
def joinedB (s o : Seg ℚ) : Bool := decide (s.i = o.i) || decide (s.i = o.j) || decide (s.j = o.i) || decide (s.j = o.j)

/-- the ends are ends of the side, or off its line -/
def offB (t u : Pt ℚ × Pt ℚ × Pt ℚ) : Bool :=
  (triSegs t).all fun s => (corners u).all fun p => decide (p = s.i) || decide (p = s.j) || decide (1 / 10 ^ 8 ≤ |det3 s.i s.j p|)

/-- the check of `TriPlaced` for triangles with integral coordinates -/
def placedB (t u : Pt ℚ × Pt ℚ × Pt ℚ) : Bool :=
  decide (0 < det3 t.1 t.2.1 t.2.2) && decide (0 < det3 u.1 u.2.1 u.2.2) &&
  ((corners t ++ corners u).all fun p => decide (p.x.den = 1) && decide (p.y.den = 1)) &&
  apartB (1 / 10 ^ 5) (corners t ++ corners u) && offB t u && offB u t &&
  ((triSegs t).all fun s => (triSegs u).all fun o => joinedB s o || (clearB s.i s.j o.i o.j &&
    (decide (dirs s.i s.j o.i o.j = 0) || !onB s.i s.j o.i o.j || (corners t ++ corners u).all fun p =>
      decide (2 / 10 ^ 5 ≤ |(lerp s.i s.j (pos s.i s.j o.i o.j)).x - p.x|) ||
      decide (2 / 10 ^ 5 ≤ |(lerp s.i s.j (pos s.i s.j o.i o.j)).y - p.y|))))

theorem off_pt {t u : Pt ℚ × Pt ℚ × Pt ℚ} (h : offB t u = true) : ∀ s ∈ triSegs (tri t), ∀ p, IsCorner (tri u) p →
    (p = s.i ∨ p = s.j) ∨ 1 / 10 ^ 8 ≤ |det3 s.i s.j p| := by
  intro s hs p hp
  rw [tri_segs] at hs
  obtain ⟨s, hs', rfl⟩ := List.mem_map.1 hs
  obtain ⟨q, hq, rfl⟩ := corner_pt hp
  unfold offB at h
  have := List.all_eq_true.1 (List.all_eq_true.1 h s hs') q hq
  simp only [Bool.or_eq_true, decide_eq_true_eq] at this
  rcases this with (h | h) | h
  · exact Or.inl (Or.inl (congrArg pt h))
  · exact Or.inl (Or.inr (congrArg pt h))
  · right
    change 1 / 10 ^ 8 ≤ |det3 (pt s.i) (pt s.j) (pt q)|
    rw [det3_pt]
    have := le_r h
    push_cast at this
    exact this

theorem joined_pt {s o : Seg ℚ} (h : joinedB s o = true) : Joined (seg s) (seg o) := by
  unfold joinedB at h
  simp only [Bool.or_eq_true, decide_eq_true_eq] at h
  unfold Joined seg
  rcases h with ((h | h) | h) | h <;> simp [h]

theorem placed_pt {t u : Pt ℚ × Pt ℚ × Pt ℚ} (h : placedB t u = true) : TriPlaced (tri t) (tri u) := by
  unfold placedB at h
  simp only [Bool.and_eq_true, decide_eq_true_eq] at h
  obtain ⟨⟨⟨⟨⟨⟨h1, h2⟩, h3⟩, h4⟩, h5⟩, h6⟩, h7⟩ := h
  have hc : ∀ p, IsCorner (tri t) p ∨ IsCorner (tri u) p → ∃ q ∈ corners t ++ corners u, p = pt q := by
    rintro p (hp | hp)
    · obtain ⟨q, hq, e⟩ := corner_pt hp
      exact ⟨q, List.mem_append_left _ hq, e⟩
    · obtain ⟨q, hq, e⟩ := corner_pt hp
      exact ⟨q, List.mem_append_right _ hq, e⟩
  refine ⟨?_, ?_, ?_, ?_, off_pt h5, off_pt h6, ?_, ?_⟩
  · change 0 < det3 (pt _) (pt _) (pt _)
    rw [det3_pt]; exact_mod_cast h1
  · change 0 < det3 (pt _) (pt _) (pt _)
    rw [det3_pt]; exact_mod_cast h2
  · intro p hp
    obtain ⟨q, hq, rfl⟩ := hc p hp
    have := List.all_eq_true.1 h3 q hq
    simp only [Bool.and_eq_true, decide_eq_true_eq] at this
    have key : ∀ x : ℚ, x.den = 1 → ∃ n : ℤ, (x : ℝ) = n / 10 ^ 8 := by
      intro x hx
      obtain ⟨n, rfl⟩ : ∃ n : ℤ, x = n := ⟨x.num, ((Rat.den_eq_one_iff x).1 hx).symm⟩
      refine ⟨n * 10 ^ 8, ?_⟩
      push_cast
      field_simp
      norm_num
    exact ⟨key _ this.1, key _ this.2⟩
  · have := apart_pt h4 (S := {p | IsCorner (tri t) p ∨ IsCorner (tri u) p}) hc
    convert this using 1
    norm_num
  all_goals
    intro s hs o ho hj
    rw [tri_segs] at hs ho
    obtain ⟨s, hs', rfl⟩ := List.mem_map.1 hs
    obtain ⟨o, ho', rfl⟩ := List.mem_map.1 ho
    have := List.all_eq_true.1 (List.all_eq_true.1 h7 s hs') o ho'
    rw [Bool.or_eq_true, Bool.and_eq_true] at this
    have hh := this.resolve_left fun hh => hj (joined_pt hh)
  · exact clear_pt hh.1
  · rintro X ⟨x, x0, x1, rfl⟩ ⟨w, w0, w1, e⟩ p hp
    change lerp (pt s.i) (pt s.j) x = lerp (pt o.i) (pt o.j) w at e
    obtain ⟨hcl, hf⟩ := hh
    by_cases hd : dirs s.i s.j o.i o.j = 0
    · unfold clearB at hcl
      rw [if_pos hd, decide_eq_true_eq] at hcl
      exact absurd (no_common e hd) hcl
    · obtain ⟨e1, e2⟩ := common_pos e hd
      simp only [Bool.or_eq_true, decide_eq_true_eq, hd, false_or] at hf
      have hon : onB s.i s.j o.i o.j = true := by
        unfold onB
        simp only [Bool.and_eq_true, decide_eq_true_eq]
        rw [e1] at x0 x1
        rw [e2] at w0 w1
        exact ⟨⟨⟨by exact_mod_cast x0, by exact_mod_cast x1⟩, by exact_mod_cast w0⟩, by exact_mod_cast w1⟩
      rw [hon] at hf
      have hf' := hf.resolve_left (by simp)
      obtain ⟨q, hq, rfl⟩ := hc p hp
      have := List.all_eq_true.1 hf' q hq
      simp only [Bool.or_eq_true, decide_eq_true_eq] at this
      change 2 / 10 ^ 5 ≤ |(lerp (pt s.i) (pt s.j) x).x - (pt q).x| ∨ 2 / 10 ^ 5 ≤ |(lerp (pt s.i) (pt s.j) x).y - (pt q).y|
      rw [e1, lerp_pt]
      unfold pt
      dsimp only
      rcases this with h | h
      · left; have := le_r h; push_cast at this; exact this
      · right; have := le_r h; push_cast at this; exact this

end Srep.RatEx
