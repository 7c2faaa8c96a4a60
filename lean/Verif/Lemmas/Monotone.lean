import Verif.Lemmas.Turning
import Mathlib.Topology.Order.IntermediateValue
import Mathlib.Topology.Algebra.Order.Group
import Mathlib.Topology.Algebra.Field
import Mathlib.Topology.Order.OrderClosed
import Mathlib.Topology.Instances.Real.Lemmas

/-! A closed polygon that does not touch itself and turns left at every corner goes round once. -/

set_option linter.unusedSectionVars false

namespace Srep

/-! ### chains of points that go to the right -/

/-- height of the line through `a` and `b` at `x` -/
noncomputable def lineY (a b : Pt ℝ) (x : ℝ) : ℝ := a.y + (x - a.x) * ((b.y - a.y) / (b.x - a.x))

theorem lineY_left (a b : Pt ℝ) : lineY a b a.x = a.y := by unfold lineY; simp

theorem lineY_right {a b : Pt ℝ} (h : a.x < b.x) : lineY a b b.x = b.y := by
  have : b.x - a.x ≠ 0 := by linarith
  unfold lineY; field_simp; ring

theorem lineY_swap {a b : Pt ℝ} (h : a.x < b.x) (x : ℝ) : lineY a b x = lineY b a x := by
  have h1 : b.x - a.x ≠ 0 := by linarith
  have h2 : a.x - b.x ≠ 0 := by linarith
  unfold lineY
  rw [show (a.y - b.y) / (a.x - b.x) = (b.y - a.y) / (b.x - a.x) by rw [← neg_sub b.y, ← neg_sub b.x, neg_div_neg_eq]]
  field_simp; ring

theorem lineY_between {a b : Pt ℝ} (h : a.x < b.x) {x : ℝ} (h1 : a.x ≤ x) (h2 : x ≤ b.x) : Between a b ⟨x, lineY a b x⟩ := by
  have hp : 0 < b.x - a.x := by linarith
  refine ⟨(x - a.x) / (b.x - a.x), div_nonneg (by linarith) hp.le, (div_le_one hp).2 (by linarith), ?_⟩
  unfold lerp lineY
  rw [Pt.mk.injEq]
  constructor
  · field_simp; ring
  · field_simp

theorem Between.swap {a b p : Pt ℝ} (h : Between a b p) : Between b a p := by
  obtain ⟨t, h0, h1, rfl⟩ := h
  refine ⟨1 - t, by linarith, by linarith, ?_⟩
  unfold lerp
  rw [Pt.mk.injEq]
  constructor <;> ring

/-- the polyline through the points `w 0`, …, `w d` as a function of x -/
noncomputable def chainY (w : ℕ → Pt ℝ) : ℕ → ℝ → ℝ
  | 0, _ => (w 0).y
  | d + 1, x => if x ≤ (w d).x then chainY w d x else lineY (w d) (w (d + 1)) x

theorem chainY_end {w : ℕ → Pt ℝ} {d : ℕ} (h : ∀ k < d, (w k).x < (w (k + 1)).x) : chainY w d (w d).x = (w d).y := by
  cases d with
  | zero => rfl
  | succ d =>
    have := h d (by omega)
    show (if _ then _ else _) = _
    rw [if_neg (not_le.2 this), lineY_right this]

theorem chainY_last {w : ℕ → Pt ℝ} {d : ℕ} {x : ℝ} (h : (w d).x < x) : chainY w (d + 1) x = lineY (w d) (w (d + 1)) x := by
  show (if _ then _ else _) = _
  rw [if_neg (not_le.2 h)]

theorem chainY_mono {w : ℕ → Pt ℝ} {d : ℕ} (h : ∀ k < d, (w k).x < (w (k + 1)).x) : ∀ k ≤ d, (w 0).x ≤ (w k).x := by
  intro k hk
  induction k with
  | zero => exact le_rfl
  | succ k ih => exact (ih (by omega)).trans (h k (by omega)).le

theorem chainY_first {w : ℕ → Pt ℝ} {d : ℕ} (h : ∀ k < d + 1, (w k).x < (w (k + 1)).x) {x : ℝ} (h0 : (w 0).x < x)
    (h1 : x ≤ (w 1).x) : chainY w (d + 1) x = lineY (w 0) (w 1) x := by
  induction d with
  | zero => exact chainY_last h0
  | succ d ih =>
    have : x ≤ (w (d + 1)).x := by
      refine h1.trans ?_
      have := chainY_mono (w := fun k => w (k + 1)) (d := d) (fun k hk => h (k + 1) (by omega)) d le_rfl
      exact this
    show (if _ then _ else _) = _
    rw [if_pos this]
    exact ih (fun k hk => h k (by omega))

theorem chainY_start {w : ℕ → Pt ℝ} {d : ℕ} (h : ∀ k < d, (w k).x < (w (k + 1)).x) : chainY w d (w 0).x = (w 0).y := by
  induction d with
  | zero => rfl
  | succ d ih =>
    show (if _ then _ else _) = _
    rw [if_pos (chainY_mono h d (by omega))]
    exact ih (fun k hk => h k (by omega))

theorem chainY_continuous {w : ℕ → Pt ℝ} {d : ℕ} (h : ∀ k < d, (w k).x < (w (k + 1)).x) : Continuous (chainY w d) := by
  induction d with
  | zero => exact continuous_const
  | succ d ih =>
    have ih := ih (fun k hk => h k (by omega))
    have hl : Continuous (lineY (w d) (w (d + 1))) := by
      unfold lineY
      fun_prop
    show Continuous fun x => if x ≤ (w d).x then chainY w d x else lineY (w d) (w (d + 1)) x
    refine ih.if_le hl continuous_id continuous_const ?_
    intro x hx
    rw [hx, chainY_end (fun k hk => h k (by omega)), lineY_left]

theorem chainY_on {w : ℕ → Pt ℝ} {d : ℕ} (h : ∀ k < d, (w k).x < (w (k + 1)).x) (hd : 0 < d) {x : ℝ} (h0 : (w 0).x ≤ x)
    (h1 : x ≤ (w d).x) : ∃ k < d, Between (w k) (w (k + 1)) ⟨x, chainY w d x⟩ := by
  induction d with
  | zero => omega
  | succ d ih =>
    by_cases hx : x ≤ (w d).x
    · have e : chainY w (d + 1) x = chainY w d x := if_pos hx
      rw [e]
      rcases Nat.eq_zero_or_pos d with rfl | hd'
      · refine ⟨0, by omega, 0, le_rfl, zero_le_one, ?_⟩
        have : x = (w 0).x := le_antisymm hx h0
        unfold lerp
        simp [this, chainY]
      · obtain ⟨k, hk, hb⟩ := ih (fun k hk => h k (by omega)) hd' hx
        exact ⟨k, by omega, hb⟩
    · push Not at hx
      rw [chainY_last hx]
      exact ⟨d, by omega, lineY_between (h d (by omega)) hx.le h1⟩

/-- two continuous functions that do not meet keep their order -/
theorem keep_order {f g : ℝ → ℝ} (hf : Continuous f) (hg : Continuous g) {s t : ℝ} (hne : ∀ x ∈ Set.uIcc s t, f x ≠ g x)
    (h : f s < g s) : f t < g t := by
  by_contra hc
  push Not at hc
  have := intermediate_value_uIcc (f := fun x => f x - g x) (a := s) (b := t) (hf.sub hg).continuousOn
  obtain ⟨x, hx, e⟩ := this (show (0 : ℝ) ∈ _ from Set.mem_uIcc.2 (Or.inl ⟨by linarith, by linarith⟩))
  exact hne x hx (by linarith)

/-- the lower one of two sides that arrive at a corner from the left -/
theorem peak_order {a b c : Pt ℝ} (ha : a.x < b.x) (hc : c.x < b.x) (ht : 0 < det3 a b c) {x : ℝ} (hx : x < b.x) :
    lineY a b x < lineY c b x := by
  rw [lineY_swap ha, lineY_swap hc]
  unfold lineY
  have h1 : 0 < b.x - a.x := by linarith
  have h2 : 0 < b.x - c.x := by linarith
  have e : (a.y - b.y) / (a.x - b.x) = (b.y - a.y) / (b.x - a.x) := by rw [← neg_sub b.y, ← neg_sub b.x, neg_div_neg_eq]
  have e' : (c.y - b.y) / (c.x - b.x) = (b.y - c.y) / (b.x - c.x) := by rw [← neg_sub b.y, ← neg_sub b.x, neg_div_neg_eq]
  have : (b.y - c.y) / (b.x - c.x) < (b.y - a.y) / (b.x - a.x) := by
    rw [div_lt_div_iff₀ h2 h1]
    unfold det3 at ht
    nlinarith
  rw [e, e']
  nlinarith

/-- the lower one of two sides that leave a corner to the right: the one that leaves it, if the polygon turns left -/
theorem foot_order {a b c : Pt ℝ} (ha : b.x < a.x) (hc : b.x < c.x) (ht : 0 < det3 a b c) {x : ℝ} (hx : b.x < x) :
    lineY b c x < lineY b a x := by
  unfold lineY
  have h1 : 0 < a.x - b.x := by linarith
  have h2 : 0 < c.x - b.x := by linarith
  have : (c.y - b.y) / (c.x - b.x) < (a.y - b.y) / (a.x - b.x) := by
    rw [div_lt_div_iff₀ h2 h1]
    unfold det3 at ht
    nlinarith
  nlinarith

/-- two chains that end in the same point, the first one arriving below the second one, and do not meet before -/
theorem chain_below {w w' : ℕ → Pt ℝ} {d d' : ℕ} (h : ∀ k < d + 1, (w k).x < (w (k + 1)).x)
    (h' : ∀ k < d' + 1, (w' k).x < (w' (k + 1)).x) (he : w (d + 1) = w' (d' + 1)) (ht : 0 < det3 (w d) (w (d + 1)) (w' d')) {x1 : ℝ}
    (h1 : x1 < (w (d + 1)).x) (hne : ∀ x, x1 ≤ x → x < (w (d + 1)).x → chainY w (d + 1) x ≠ chainY w' (d' + 1) x) :
    chainY w (d + 1) x1 < chainY w' (d' + 1) x1 := by
  have a1 := h d (by omega)
  have a2 := h' d' (by omega)
  rw [← he] at a2
  obtain ⟨x, hx, hx'⟩ := exists_between (max_lt (max_lt a1 a2) h1)
  have b1 : (w d).x < x := lt_of_le_of_lt ((le_max_left _ _).trans (le_max_left _ _)) hx
  have b2 : (w' d').x < x := lt_of_le_of_lt ((le_max_right _ _).trans (le_max_left _ _)) hx
  have b3 : x1 < x := lt_of_le_of_lt (le_max_right _ _) hx
  refine keep_order (s := x) (chainY_continuous h) (chainY_continuous h') ?_ ?_
  · intro y hy
    rw [Set.uIcc_of_ge b3.le] at hy
    exact hne y hy.1 (lt_of_le_of_lt hy.2 hx')
  · rw [chainY_last b1, chainY_last b2, ← he]
    exact peak_order a1 a2 ht hx'

/-! ### one round -/

/-- the sides of the closed polygon with `n` corners meet only in the corner between two neighbours -/
def SimpleRing (v : ℕ → Pt ℝ) (n : ℕ) : Prop :=
  ∀ i j p, Between (v i) (v (i + 1)) p → Between (v j) (v (j + 1)) p → ¬ i ≡ j [MOD n] →
    (i + 1 ≡ j [MOD n] ∧ p = v (i + 1)) ∨ (j + 1 ≡ i [MOD n] ∧ p = v (j + 1))

theorem SimpleRing.meet {v : ℕ → Pt ℝ} {n : ℕ} (hS : SimpleRing v n) (hper : ∀ k, v (k + n) = v k) {i j : ℕ} {p : Pt ℝ}
    (hij : i < j) (hj : j < n) (h1 : Between (v i) (v (i + 1)) p) (h2 : Between (v j) (v (j + 1)) p) :
    (j = i + 1 ∧ p = v (i + 1)) ∨ (i = 0 ∧ j + 1 = n ∧ p = v 0) := by
  rcases hS i j p h1 h2 (fun e => by have := e.eq_of_lt_of_lt (by omega) hj; omega) with ⟨e, hp⟩ | ⟨e, hp⟩
  · exact Or.inl ⟨(e.eq_of_lt_of_lt (by omega) hj).symm, hp⟩
  · right
    rcases Nat.lt_or_ge (j + 1) n with h | h
    · have := e.eq_of_lt_of_lt h (by omega); omega
    · have hjn : j + 1 = n := by omega
      rw [hjn] at e hp
      have : i = 0 := by
        have e' : 0 ≡ i [MOD n] := (Nat.modEq_zero_iff_dvd.2 (dvd_refl n)).symm.trans e
        exact (e'.eq_of_lt_of_lt (by omega) (by omega)).symm
      exact ⟨this, hjn, by rw [hp]; have := hper 0; rwa [Nat.zero_add] at this⟩

/-- A closed polygon that does not touch itself and turns left at every corner, started at the rightmost of the corners that
are reached from the right and left to the right: it goes to the right and then to the left, once. -/
theorem one_round {v : ℕ → Pt ℝ} {n : ℕ} (hper : ∀ k, v (k + n) = v k) (hn : 0 < n) (hx : ∀ k, (v k).x ≠ (v (k + 1)).x)
    (hturn : ∀ k, ((v k).x < (v (k + 1)).x ∧ (v (k + 2)).x < (v (k + 1)).x) ∨ ((v (k + 1)).x < (v k).x ∧ (v (k + 1)).x < (v (k + 2)).x) →
      0 < det3 (v k) (v (k + 1)) (v (k + 2))) (hS : SimpleRing v n) (h0 : (v 0).x < (v 1).x)
    (hlast : (v n).x < (v (n - 1)).x)
    (hmax : ∀ k, (v (k + 1)).x < (v k).x → (v (k + 1)).x < (v (k + 2)).x → (v (k + 1)).x ≤ (v 0).x) :
    ∃ b ≤ n, (∀ k < b, (v k).x < (v (k + 1)).x) ∧ ∀ k, b ≤ k → k < n → (v (k + 1)).x < (v k).x := by
  classical
  have hlast' : (v (n - 1 + 1)).x < (v (n - 1)).x := by rw [show n - 1 + 1 = n by omega]; exact hlast
  have hup : ∀ k, ¬ (v (k + 1)).x < (v k).x → (v k).x < (v (k + 1)).x := fun k h =>
    lt_of_le_of_ne (not_lt.1 h) (hx k)
  -- the first side that goes to the left
  have hb : ∃ b, (v (b + 1)).x < (v b).x := ⟨n - 1, hlast'⟩
  obtain ⟨b, hPb, hbmin⟩ : ∃ b, (v (b + 1)).x < (v b).x ∧ ∀ k < b, ¬ (v (k + 1)).x < (v k).x :=
    ⟨Nat.find hb, Nat.find_spec hb, fun k hk => Nat.find_min hb hk⟩
  have hbn : b ≤ n - 1 := by
    by_contra hc; exact hbmin (n - 1) (by omega) hlast'
  have hb0 : 0 < b := by
    rcases Nat.eq_zero_or_pos b with rfl | h
    · simp only [Nat.zero_add] at hPb; linarith
    · exact h
  by_cases hQ : ∀ k, b ≤ k → k < n → (v (k + 1)).x < (v k).x
  · exact ⟨b, by omega, fun k hk => hup k (hbmin k hk), hQ⟩
  exfalso
  -- the last run to the left
  have ha : ∃ a, ∀ k, a ≤ k → k < n → (v (k + 1)).x < (v k).x :=
    ⟨n - 1, fun k h1 h2 => by rw [show k = n - 1 by omega]; exact hlast'⟩
  obtain ⟨a, hQa, hamin⟩ : ∃ a, (∀ k, a ≤ k → k < n → (v (k + 1)).x < (v k).x) ∧
      ∀ m < a, ¬ ∀ k, m ≤ k → k < n → (v (k + 1)).x < (v k).x := ⟨Nat.find ha, Nat.find_spec ha, fun k hk => Nat.find_min ha hk⟩
  have hba : b < a := by
    by_contra hc
    exact hQ fun k h1 h2 => hQa k (by omega) h2
  have han : a ≤ n - 1 := by
    by_contra hc
    exact hamin (n - 1) (by omega) fun k h1 h2 => by rw [show k = n - 1 by omega]; exact hlast'
  have hPa : ¬ (v (a - 1 + 1)).x < (v (a - 1)).x := by
    intro h
    refine hamin (a - 1) (by omega) fun k h1 h2 => ?_
    rcases Nat.lt_or_ge k a with h3 | h3
    · rw [show k = a - 1 by omega]; exact h
    · exact hQa k h3 h2
  -- the end of the first run to the left
  have hc : ∃ c, b < c ∧ ¬ (v (c + 1)).x < (v c).x := by
    refine ⟨a - 1, ?_, hPa⟩
    rcases (by omega : b < a - 1 ∨ b = a - 1) with h | h
    · exact h
    · rw [← h] at hPa; exact absurd hPb hPa
  obtain ⟨c, ⟨hbc, hPc⟩, hcmin⟩ : ∃ c, (b < c ∧ ¬ (v (c + 1)).x < (v c).x) ∧
      ∀ k < c, ¬ (b < k ∧ ¬ (v (k + 1)).x < (v k).x) := ⟨Nat.find hc, Nat.find_spec hc, fun k hk => Nat.find_min hc hk⟩
  have hca : c ≤ a - 1 := by
    by_contra hcon
    refine hcmin (a - 1) (by omega) ⟨?_, hPa⟩
    rcases (by omega : b < a - 1 ∨ b = a - 1) with h | h
    · exact h
    · rw [← h] at hPa; exact absurd hPb hPa
  have hl : ∀ k, b ≤ k → k < c → (v (k + 1)).x < (v k).x := by
    intro k h1 h2
    rcases (by omega : k = b ∨ b < k) with rfl | h3
    · exact hPb
    · by_contra hcon; exact hcmin k h2 ⟨h3, hcon⟩
  -- the last run to the right
  have he : ∃ e, ∀ k, e ≤ k → k < a → ¬ (v (k + 1)).x < (v k).x :=
    ⟨a - 1, fun k h1 h2 => by rw [show k = a - 1 by omega]; exact hPa⟩
  obtain ⟨e, hSe, hemin⟩ : ∃ e, (∀ k, e ≤ k → k < a → ¬ (v (k + 1)).x < (v k).x) ∧
      ∀ m < e, ¬ ∀ k, m ≤ k → k < a → ¬ (v (k + 1)).x < (v k).x := ⟨Nat.find he, Nat.find_spec he, fun k hk => Nat.find_min he hk⟩
  have hea : e ≤ a - 1 := by
    by_contra hcon
    exact hemin (a - 1) (by omega) fun k h1 h2 => by rw [show k = a - 1 by omega]; exact hPa
  have hce : c ≤ e := by
    by_contra hcon
    exact hSe (c - 1) (by omega) (by omega) (hl (c - 1) (by omega) (by omega))
  have hPe : (v (e - 1 + 1)).x < (v (e - 1)).x := by
    by_contra hcon
    refine hemin (e - 1) (by omega) fun k h1 h2 => ?_
    rcases (by omega : k = e - 1 ∨ e ≤ k) with h3 | h3
    · rw [h3]; exact hcon
    · exact hSe k h3 h2
  -- the two inner corners are not to the right of the first one
  have hxe : (v e).x ≤ (v 0).x := by
    have h1 := hup e (hSe e le_rfl (by omega))
    have := hmax (e - 1) hPe
    rw [show e - 1 + 1 = e by omega, show e - 1 + 2 = e + 1 by omega] at this
    exact this h1
  have hxc : (v c).x ≤ (v 0).x := by
    have h1 := hup c hPc
    have := hmax (c - 1) (hl (c - 1) (by omega) (by omega))
    rw [show c - 1 + 1 = c by omega, show c - 1 + 2 = c + 1 by omega] at this
    exact this h1
  have hvn : v n = v 0 := by have := hper 0; rwa [Nat.zero_add] at this
  -- the four chains
  set r := chainY v b with hr
  set wl : ℕ → Pt ℝ := fun k => v (c - k) with hwl
  set wρ : ℕ → Pt ℝ := fun k => v (e + k) with hwρ
  set wm : ℕ → Pt ℝ := fun k => v (n - k) with hwm
  have ir : ∀ k < b, (v k).x < (v (k + 1)).x := fun k hk => hup k (hbmin k hk)
  have il : ∀ k < c - b, (wl k).x < (wl (k + 1)).x := by
    intro k hk
    have := hl (c - (k + 1)) (by omega) (by omega)
    rw [show c - (k + 1) + 1 = c - k by omega] at this
    exact this
  have iρ : ∀ k < a - e, (wρ k).x < (wρ (k + 1)).x := fun k hk => hup (e + k) (hSe (e + k) (by omega) (by omega))
  have im : ∀ k < n - a, (wm k).x < (wm (k + 1)).x := by
    intro k hk
    have := hQa (n - (k + 1)) (by omega) (by omega)
    rw [show n - (k + 1) + 1 = n - k by omega] at this
    exact this
  have el : wl (c - b) = v b := by simp only [hwl]; congr 1; omega
  have eρ : wρ (a - e) = v a := by simp only [hwρ]; congr 1; omega
  have em : wm (n - a) = v a := by simp only [hwm]; congr 1; omega
  have em0 : wm 0 = v 0 := by simp only [hwm]; rw [Nat.sub_zero, hvn]
  have Hr : ∀ x, (v 0).x ≤ x → x ≤ (v b).x → ∃ k < b, Between (v k) (v (k + 1)) ⟨x, chainY v b x⟩ :=
    fun x h1 h2 => chainY_on ir hb0 h1 h2
  have Hl : ∀ x, (v 0).x ≤ x → x ≤ (v b).x → ∃ k, b ≤ k ∧ k < c ∧ Between (v k) (v (k + 1)) ⟨x, chainY wl (c - b) x⟩ := by
    intro x h1 h2
    obtain ⟨k, hk, hB⟩ := chainY_on il (by omega) (hxc.trans h1 : (wl 0).x ≤ x) (by rw [el]; exact h2)
    refine ⟨c - (k + 1), by omega, by omega, ?_⟩
    rw [show c - (k + 1) + 1 = c - k by omega]
    exact hB.swap
  have Hρ : ∀ x, (v 0).x ≤ x → x ≤ (v a).x → ∃ k, e ≤ k ∧ k < a ∧ Between (v k) (v (k + 1)) ⟨x, chainY wρ (a - e) x⟩ := by
    intro x h1 h2
    obtain ⟨k, hk, hB⟩ := chainY_on iρ (by omega) (hxe.trans h1 : (wρ 0).x ≤ x) (by rw [eρ]; exact h2)
    exact ⟨e + k, by omega, by omega, hB⟩
  have Hm : ∀ x, (v 0).x ≤ x → x ≤ (v a).x → ∃ k, a ≤ k ∧ k < n ∧ Between (v k) (v (k + 1)) ⟨x, chainY wm (n - a) x⟩ := by
    intro x h1 h2
    obtain ⟨k, hk, hB⟩ := chainY_on im (by omega) (by rw [em0]; exact h1 : (wm 0).x ≤ x) (by rw [em]; exact h2)
    refine ⟨n - (k + 1), by omega, by omega, ?_⟩
    rw [show n - (k + 1) + 1 = n - k by omega]
    exact hB.swap
  have x0b : (v 0).x < (v b).x := by
    obtain ⟨b', rfl⟩ : ∃ b', b = b' + 1 := ⟨b - 1, by omega⟩
    exact lt_of_le_of_lt (chainY_mono ir b' (by omega)) (ir b' (by omega))
  have x0a : (v 0).x < (v a).x := by
    have h1 := chainY_mono im (n - a - 1) (by omega)
    have h2 := im (n - a - 1) (by omega)
    rw [show n - a - 1 + 1 = n - a by omega, em] at h2
    rw [em0] at h1
    linarith
  -- order at the left end
  have A : chainY v b (v 0).x < chainY wl (c - b) (v 0).x := by
    obtain ⟨b', rfl⟩ : ∃ b', b = b' + 1 := ⟨b - 1, by omega⟩
    obtain ⟨d, hd⟩ : ∃ d, c - (b' + 1) = d + 1 := ⟨c - (b' + 1) - 1, by omega⟩
    rw [hd] at il el Hl ⊢
    refine chain_below ir il el.symm ?_ x0b ?_
    · have : wl d = v (b' + 2) := by simp only [hwl]; congr 1; omega
      rw [this]; exact hturn b' (Or.inl ⟨ir b' (by omega), hPb⟩)
    · intro x h1 h2 heq
      obtain ⟨i, hi, B1⟩ := Hr x h1 h2.le
      obtain ⟨j, hj, hj', B2⟩ := Hl x h1 h2.le
      rw [← heq] at B2
      rcases hS.meet hper (by omega) (by omega) B1 B2 with ⟨h3, h4⟩ | ⟨_, h3, _⟩
      · have : i = b' := by omega
        rw [this] at h4
        have := congrArg Pt.x h4
        simp only at this
        linarith
      · omega
  have B : chainY wρ (a - e) (v 0).x < chainY wm (n - a) (v 0).x := by
    obtain ⟨d, hd⟩ : ∃ d, a - e = d + 1 := ⟨a - e - 1, by omega⟩
    obtain ⟨d', hd'⟩ : ∃ d', n - a = d' + 1 := ⟨n - a - 1, by omega⟩
    rw [hd] at iρ eρ Hρ ⊢
    rw [hd'] at im em Hm ⊢
    refine chain_below iρ im (eρ.trans em.symm) ?_ (by rw [eρ]; exact x0a) ?_
    · have e1 : wρ d = v (a - 1) := by simp only [hwρ]; congr 1; omega
      have e2 : wm d' = v (a - 1 + 2) := by simp only [hwm]; congr 1; omega
      have := hturn (a - 1) (Or.inl ⟨hup _ hPa, by
        rw [show a - 1 + 1 = a by omega, show a - 1 + 2 = a + 1 by omega]; exact hQa a le_rfl (by omega)⟩)
      rw [show a - 1 + 1 = a by omega] at this
      rw [e1, e2, eρ]; exact this
    · intro x h1 h2 heq
      rw [eρ] at h2
      obtain ⟨i, hi, hi', B1⟩ := Hρ x h1 h2.le
      obtain ⟨j, hj, hj', B2⟩ := Hm x h1 h2.le
      rw [← heq] at B2
      rcases hS.meet hper (by omega) (by omega) B1 B2 with ⟨h3, h4⟩ | ⟨h3, _, _⟩
      · have : i + 1 = a := by omega
        rw [this] at h4
        have := congrArg Pt.x h4
        simp only at this
        linarith
      · omega
  have C : ∀ t, (v 0).x < t → t ≤ (v b).x → t ≤ (v a).x → chainY v b t < chainY wm (n - a) t := by
    intro t h1 h2 h3
    have f1 : (v 0).x < (wm 1).x := by have := im 0 (by omega); rwa [em0] at this
    obtain ⟨x, hx1, hx2⟩ := exists_between (lt_min (lt_min h0 f1) h1)
    have g1 : x < (v 1).x := lt_of_lt_of_le hx2 ((min_le_left _ _).trans (min_le_left _ _))
    have g2 : x < (wm 1).x := lt_of_lt_of_le hx2 ((min_le_left _ _).trans (min_le_right _ _))
    have g3 : x < t := lt_of_lt_of_le hx2 (min_le_right _ _)
    refine keep_order (s := x) (chainY_continuous ir) (chainY_continuous im) ?_ ?_
    · intro y hy heq
      rw [Set.uIcc_of_le g3.le] at hy
      obtain ⟨i, hi, B1⟩ := Hr y (hx1.le.trans hy.1) (hy.2.trans h2)
      obtain ⟨j, hj, hj', B2⟩ := Hm y (hx1.le.trans hy.1) (hy.2.trans h3)
      rw [← heq] at B2
      rcases hS.meet hper (by omega) (by omega) B1 B2 with ⟨h4, _⟩ | ⟨_, _, h4⟩
      · omega
      · have := congrArg Pt.x h4
        simp only at this
        linarith [hy.1]
    · obtain ⟨b', hb'⟩ : ∃ b', b = b' + 1 := ⟨b - 1, by omega⟩
      obtain ⟨d', hd'⟩ : ∃ d', n - a = d' + 1 := ⟨n - a - 1, by omega⟩
      rw [hb'] at ir ⊢
      rw [hd'] at im ⊢
      rw [chainY_first ir hx1 g1.le, chainY_first im (by rw [em0]; exact hx1) g2.le, em0]
      refine foot_order f1 h0 ?_ hx1
      have := hturn (n - 1) (Or.inr ⟨hlast', by
        rw [show n - 1 + 2 = 1 + n by omega, show n - 1 + 1 = n by omega, hper, hvn]; exact h0⟩)
      rw [show n - 1 + 2 = 1 + n by omega, show n - 1 + 1 = n by omega, hper, hvn] at this
      exact this
  have r0 : chainY v b (v 0).x = (v 0).y := chainY_start ir
  have m0 : chainY wm (n - a) (v 0).x = (v 0).y := by have := chainY_start im; rwa [em0] at this
  rcases le_or_gt (v b).x (v a).x with hX | hX
  · -- the chain from `a` is above the top of the first chain, and below the second chain at the left end
    have h1 := C (v b).x x0b le_rfl hX
    have e1 : chainY v b (v b).x = (v b).y := chainY_end ir
    have e2 : chainY wl (c - b) (v b).x = (v b).y := by have := chainY_end il; rwa [el] at this
    have h2 : chainY wm (n - a) (v b).x < chainY wl (c - b) (v b).x := by
      refine keep_order (s := (v 0).x) (chainY_continuous im) (chainY_continuous il) ?_ (by linarith)
      intro y hy heq
      rw [Set.uIcc_of_le x0b.le] at hy
      obtain ⟨i, hi, hi', B1⟩ := Hl y hy.1 hy.2
      obtain ⟨j, hj, hj', B2⟩ := Hm y hy.1 (hy.2.trans hX)
      rw [heq] at B2
      rcases hS.meet hper (by omega) (by omega) B1 B2 with ⟨h4, _⟩ | ⟨h4, _, _⟩ <;> omega
    linarith
  · have h1 := C (v a).x x0a hX.le le_rfl
    have e1 : chainY wρ (a - e) (v a).x = (v a).y := by have := chainY_end iρ; rwa [eρ] at this
    have e2 : chainY wm (n - a) (v a).x = (v a).y := by have := chainY_end im; rwa [em] at this
    have h2 : chainY wρ (a - e) (v a).x < chainY v b (v a).x := by
      refine keep_order (s := (v 0).x) (chainY_continuous iρ) (chainY_continuous ir) ?_ (by linarith)
      intro y hy heq
      rw [Set.uIcc_of_le x0a.le] at hy
      obtain ⟨i, hi, B1⟩ := Hr y hy.1 (hy.2.trans hX.le)
      obtain ⟨j, hj, hj', B2⟩ := Hρ y hy.1 hy.2
      rw [heq] at B2
      rcases hS.meet hper (by omega) (by omega) B1 B2 with ⟨h4, _⟩ | ⟨_, h4, _⟩ <;> omega
    linarith

end Srep
