import Verif.Model.Arc
import Verif.Spec.Arc
import Verif.Props.Rigid
import Verif.Props.Build
import Verif.Lemmas.Real
import Mathlib.Analysis.Convex.SpecificFunctions.Deriv

/-! Circular arcs (C101). -/

set_option linter.unusedSectionVars false

namespace Srep
open Rt
section
variable {K : Type} [Field K] [LinearOrder K] [IsStrictOrderedRing K] [FloorRing K]

/-- where a node ends up: stored, rotated, rounded and moved -/
def placed (c s x0 y0 : K) (n : K × K) : Pt K := shift (round8Pt (turn c s (round8Pt ⟨n.1, n.2⟩))) x0 y0

/-- nodes joined, rotated about the origin and moved -/
theorem rotate_move_nodes {R : Rt K} (hE : R.IsExact) (h : Heap K) (nodes ns : List (K × K)) (cw : Bool)
    (hns : (if cw then cwNodes nodes else .ok nodes) = .ok ns)
    (hne : ∀ k (hk : k + 1 < ns.length), round8Pt ⟨ns[k].1, ns[k].2⟩ ≠ round8Pt ⟨ns[k + 1].1, ns[k + 1].2⟩)
    (hap : Apart (2 / 10 ^ 5) {p | ∃ n ∈ ns, p = round8Pt ⟨n.1, n.2⟩}) (phi x0 y0 : K)
    (hu : R.trig.cos (R.trig.radians phi) * R.trig.cos (R.trig.radians phi) +
      R.trig.sin (R.trig.radians phi) * R.trig.sin (R.trig.radians phi) = 1) (ho : R.Stored ⟨x0, y0⟩) :
    ∃ q h' P, R.fromNodesH h nodes cw = .ok q ∧
      R.plMove (R.plRotate q.1 q.2 phi).1 (R.plRotate q.1 q.2 phi).2 x0 y0 = (h', P) ∧ P.purged = true ∧
      P.segs.length = ns.length - 1 ∧
      (∀ k (hk : k < P.segs.length) (hk' : k + 1 < ns.length), h'.val P.segs[k] =
        ⟨placed (R.trig.cos (R.trig.radians phi)) (R.trig.sin (R.trig.radians phi)) x0 y0 ns[k],
          placed (R.trig.cos (R.trig.radians phi)) (R.trig.sin (R.trig.radians phi)) x0 y0 ns[k + 1], .line⟩) ∧
      SharesPoints h' P.segs ∧ P.segs.Nodup ∧ (∀ s ∈ P.segs, h.nseg ≤ s) ∧
      (∀ p < h.npt, h'.pt p = h.pt p) ∧ ∀ s < h.nseg, h'.seg s = h.seg s := by
  obtain ⟨h1, P, e1, e2, e3, e4, -, e6, e7, e8, e9⟩ := C36_objects hE.isRounding h nodes ns cw hns
  have hR := hE.isRounding
  have htol := hE.tol'
  have h2t : (2 : K) / 10 ^ 5 = 2 * R.tol := by rw [htol]; ring
  set c := R.trig.cos (R.trig.radians phi) with hc
  set s := R.trig.sin (R.trig.radians phi) with hs
  have hmk : ∀ n : K × K, R.mkPt n.1 n.2 = round8Pt ⟨n.1, n.2⟩ := fun n => hE.mkPt' _ _
  have e4' : ∀ k (hk : k < P.segs.length) (hk' : k + 1 < ns.length),
      h1.val P.segs[k] = ⟨round8Pt ⟨ns[k].1, ns[k].2⟩, round8Pt ⟨ns[k + 1].1, ns[k + 1].2⟩, .line⟩ := by
    intro k hk hk'
    rw [e4 k hk hk', hmk, hmk]
  have hl : locs h1 P.segs ⊆ {p | ∃ n ∈ ns, p = round8Pt ⟨n.1, n.2⟩} := by
    rintro p ⟨x, hx, hp⟩
    obtain ⟨k, hk, rfl⟩ := List.mem_iff_getElem.1 hx
    have hk' : k + 1 < ns.length := by omega
    rw [e4' k hk hk'] at hp
    rcases hp with rfl | rfl
    exacts [⟨_, List.getElem_mem _, rfl⟩, ⟨_, List.getElem_mem _, rfl⟩]
  have hap1 : Apart (2 / 10 ^ 5) (locs h1 P.segs) := fun p hp q hq => hap p (hl hp) q (hl hq)
  have weak : Apart R.tol (locs h1 P.segs) := by
    intro a ha b hb hne
    have := hR.tol_pos
    rcases hap1 a ha b hb hne with h | h
    · left; rw [h2t] at h; linarith
    · right; rw [h2t] at h; linarith
  have hready : Ready h1 P := by
    right
    refine ⟨e3, fun x hx => ?_⟩
    obtain ⟨k, hk, rfl⟩ := List.mem_iff_getElem.1 hx
    have hk' : k + 1 < ns.length := by omega
    rw [e4' k hk hk']
    exact hne k hk'
  obtain ⟨w1, w2, w3, w4, w5, w6⟩ := write_all hR h1 P hready weak (turned R c s)
  have hrot : R.plRotate h1 P phi = ((R.pointRefs (R.purge h1 P).1 P.segs).foldl
      (fun h p => h.setPt p (turned R c s (h.pt p))) (R.purge h1 P).1, (R.purge h1 P).2) := rfl
  rw [w1] at hrot
  set h2 := (R.pointRefs (R.purge h1 P).1 P.segs).foldl
      (fun h p => h.setPt p (turned R c s (h.pt p))) (R.purge h1 P).1 with hh2
  have w2' : ∀ k ∈ P.segs, h2.val k = ⟨round8Pt (turn c s (h1.val k).i), round8Pt (turn c s (h1.val k).j), (h1.val k).cls⟩ := by
    intro k hk
    have := w2 k hk
    rw [turned_exact hE, turned_exact hE] at this
    exact this
  have sep : ∀ p ∈ locs h1 P.segs, ∀ q ∈ locs h1 P.segs, p ≠ q →
      R.tol ≤ |(round8Pt (turn c s p)).x - (round8Pt (turn c s q)).x| ∨
      R.tol ≤ |(round8Pt (turn c s p)).y - (round8Pt (turn c s q)).y| := fun p hp q hq hne =>
    apart_turn hu htol (by rw [← h2t]; exact hap1) hp hq hne
  have s2 : SharesPoints h2 P.segs := by
    apply w6
    intro p hp q hq e
    rw [turned_exact hE, turned_exact hE] at e
    by_contra hne
    have := sep p hp q hq hne
    rw [e, sub_self, sub_self, abs_zero] at this
    have := hR.tol_pos
    rcases ‹_ ∨ _› with h | h <;> linarith
  have l2 := locs_of_val (F := fun p => round8Pt (turn c s p)) w2'
  have hap2 : Apart R.tol (locs h2 P.segs) := by
    intro p hp q hq hne
    obtain ⟨p', hp', rfl⟩ := l2 p hp
    obtain ⟨q', hq', rfl⟩ := l2 q hq
    exact sep p' hp' q' hq' (fun e => hne (by rw [e]))
  have hst2 : ∀ p ∈ locs h2 P.segs, R.Stored p := by
    intro p hp
    obtain ⟨p', hp', rfl⟩ := l2 p hp
    rw [hE.stored_iff]
    exact ⟨rhe8_isGrid _, rhe8_isGrid _⟩
  obtain ⟨b1, b2, b3, b4, b5, b6⟩ := write_move hE h2 ⟨P.segs, true⟩ (Or.inl ⟨rfl, s2⟩) hap2 x0 y0 hst2 ho
  have hold : ∀ p < h.npt, ¬ EndOf h1 P.segs p := by
    rintro p hp ⟨x, hx, hp'⟩
    obtain ⟨k, hk, rfl⟩ := List.mem_iff_getElem.1 hx
    have := e6 k hk
    omega
  have hseg : ∀ x < h.nseg, x ∉ P.segs := by
    intro x hx hm
    obtain ⟨k, hk, rfl⟩ := List.mem_iff_getElem.1 hm
    have := e6 k hk
    omega
  refine ⟨(h1, P), (R.plMove h2 ⟨P.segs, true⟩ x0 y0).1, ⟨P.segs, true⟩, e1, ?_, rfl, e2, ?_, b6, ?_, ?_, ?_, ?_⟩
  · dsimp only
    rw [hrot]
    exact Prod.ext rfl b1
  · intro k hk hk'
    have hm := List.getElem_mem hk
    rw [b2 _ hm, w2' _ hm, e4' k hk hk']
    rfl
  · rw [List.nodup_iff_injective_get]
    intro a b hab
    have := (e7 a b a.2 b.2).1.1 (by simpa using hab)
    exact Fin.ext this
  · intro x hx
    obtain ⟨k, hk, rfl⟩ := List.mem_iff_getElem.1 hx
    exact (e6 k hk).1
  · intro p hp
    rw [b3 p (fun hh => hold p hp (w5 p hh)), w3 p (hold p hp), e8 p hp]
  · intro x hx
    rw [b4 x (hseg x hx), w4 x (hseg x hx), e9 x hx]

end

/-! ### the geometry of the circle -/

theorem dist2_circle (cx cy r t u : ℝ) : dist2 (onCircle cx cy r t) (onCircle cx cy r u) =
    (2 * r * Real.sin ((t - u) / 2 * (Real.pi / 180))) ^ 2 := by
  unfold dist2 onCircle
  dsimp only
  set x := t * (Real.pi / 180)
  set y := u * (Real.pi / 180)
  have e : (t - u) / 2 * (Real.pi / 180) = (x - y) / 2 := by simp only [x, y]; ring
  rw [e]
  have h1 := Real.cos_sub_cos x y
  have h2 := Real.sin_sub_sin x y
  have h3 := Real.sin_sq_add_cos_sq ((x + y) / 2)
  have : (cx + r * Real.cos x - (cx + r * Real.cos y)) = r * (Real.cos x - Real.cos y) := by ring
  rw [this]
  have : (cy + r * Real.sin x - (cy + r * Real.sin y)) = r * (Real.sin x - Real.sin y) := by ring
  rw [this, h1, h2]
  linear_combination (4 * r ^ 2 * Real.sin ((x - y) / 2) ^ 2) * h3

theorem dist2_symm (a b : Pt ℝ) : dist2 a b = dist2 b a := by unfold dist2; ring

/-- between two angles the sine is at least the smaller one of the sines -/
theorem sin_between {u v x : ℝ} (h0 : 0 ≤ u) (h1 : u ≤ x) (h2 : x ≤ v) (h3 : v ≤ Real.pi) {m : ℝ} (hu : m ≤ Real.sin u)
    (hv : m ≤ Real.sin v) : m ≤ Real.sin x := by
  have hc := strictConcaveOn_sin_Icc.concaveOn
  have := hc.min_le_of_mem_Icc (x := u) (y := v) (z := x) ⟨h0, by linarith⟩ ⟨by linarith, h3⟩ ⟨h1, h2⟩
  exact (le_min hu hv).trans this

/-- what `arc` is called with: sensible arguments, the ends of a piece and, unless the arc is a whole circle, of the arc at
least 4e-5 apart -/
structure ArcOk (r a b : ℝ) (n : ℕ) : Prop where
  a0 : 0 ≤ a
  a1 : a < 360
  b0 : 0 < b
  b1 : b ≤ 360
  ab : a < b
  r0 : 0 < r
  n0 : 0 < n
  chord : (4 / 10 ^ 5) ^ 2 ≤ dist2 (onCircle 0 0 r 0) (onCircle 0 0 r ((b - a) / n))
  gap : b - a = 360 ∨ (4 / 10 ^ 5) ^ 2 ≤ dist2 (onCircle 0 0 r a) (onCircle 0 0 r b)

theorem sine_of_chord {r t u : ℝ} (hr : 0 < r) (h0 : 0 ≤ (u - t) / 2 * (Real.pi / 180)) (h1 : (u - t) / 2 * (Real.pi / 180) ≤ Real.pi)
    (h : (4 / 10 ^ 5) ^ 2 ≤ dist2 (onCircle 0 0 r t) (onCircle 0 0 r u)) :
    2 / 10 ^ 5 / r ≤ Real.sin ((u - t) / 2 * (Real.pi / 180)) := by
  rw [dist2_symm, dist2_circle] at h
  have hs := Real.sin_nonneg_of_nonneg_of_le_pi h0 h1
  have := (pow_le_pow_iff_left₀ (by positivity) (by positivity) two_ne_zero).1 h
  rw [div_le_iff₀ hr]
  linarith

theorem chord_of_sine {r t u : ℝ} (hr : 0 < r) (h : 2 / 10 ^ 5 / r ≤ Real.sin ((u - t) / 2 * (Real.pi / 180))) (cx cy : ℝ) :
    (4 / 10 ^ 5) ^ 2 ≤ dist2 (onCircle cx cy r t) (onCircle cx cy r u) := by
  rw [dist2_symm, dist2_circle]
  rw [div_le_iff₀ hr] at h
  exact pow_le_pow_left₀ (by positivity) (by linarith) 2

/-- different nodes are apart, except the ends of a whole circle -/
theorem ArcOk.sep {r a b : ℝ} {n : ℕ} (h : ArcOk r a b n) {k l : ℕ} (hkl : k < l) (hl : l ≤ n)
    (hf : b - a = 360 → ¬ (k = 0 ∧ l = n)) :
    (4 / 10 ^ 5) ^ 2 ≤ dist2 (onCircle 0 0 r (k * ((b - a) / n))) (onCircle 0 0 r (l * ((b - a) / n))) := by
  have hpi := Real.pi_pos
  have hn : (0 : ℝ) < n := by exact_mod_cast h.n0
  have hab := h.ab
  have ha0 := h.a0
  have hb1 := h.b1
  set δ := (b - a) / n with hδ
  have hδ0 : 0 < δ := div_pos (by linarith) hn
  have hnδ : n * δ = b - a := by rw [hδ]; field_simp
  have hn1 : (1 : ℝ) ≤ n := by exact_mod_cast h.n0
  have hδ1 : δ ≤ b - a := by nlinarith
  have s1 := sine_of_chord h.r0 (t := 0) (u := δ) (by positivity) (by nlinarith) h.chord
  apply chord_of_sine h.r0
  have m1 : (k : ℝ) + 1 ≤ l := by exact_mod_cast hkl
  have m2 : (l : ℝ) ≤ n := by exact_mod_cast hl
  have k0 : (0 : ℝ) ≤ k := Nat.cast_nonneg k
  have e1 : ((δ - 0) / 2 * (Real.pi / 180)) ≤ (l * δ - k * δ) / 2 * (Real.pi / 180) := by
    apply mul_le_mul_of_nonneg_right _ (by positivity)
    nlinarith
  rcases h.gap with hfull | hgap
  · -- a whole circle
    have m3 : (l : ℝ) - k ≤ n - 1 := by
      have : l + 1 ≤ n + k := by
        rcases Nat.eq_zero_or_pos k with rfl | hk
        · have := hf hfull
          have : l ≠ n := fun e => this ⟨rfl, e⟩
          omega
        · omega
      have : (l : ℝ) + 1 ≤ n + k := by exact_mod_cast this
      linarith
    refine sin_between (v := Real.pi - (δ - 0) / 2 * (Real.pi / 180)) (by positivity) e1 ?_ ?_ s1 (by rw [Real.sin_pi_sub]; exact s1)
    · have : (l * δ - k * δ) ≤ 360 - δ := by nlinarith
      nlinarith
    · have : 0 ≤ (δ - 0) / 2 * (Real.pi / 180) := by positivity
      linarith
  · have s2 := sine_of_chord h.r0 (t := a) (u := b) (by apply mul_nonneg; linarith; positivity) (by nlinarith) hgap
    refine sin_between (v := (b - a) / 2 * (Real.pi / 180)) (by positivity) e1 ?_ (by nlinarith) s1 s2
    apply mul_le_mul_of_nonneg_right _ (by positivity)
    nlinarith

/-- rounding keeps them apart -/
theorem apart_round {p q : Pt ℝ} (h : (4 / 10 ^ 5) ^ 2 ≤ dist2 p q) :
    2 / 10 ^ 5 ≤ |(round8Pt p).x - (round8Pt q).x| ∨ 2 / 10 ^ 5 ≤ |(round8Pt p).y - (round8Pt q).y| := by
  by_contra hc
  push Not at hc
  obtain ⟨h1, h2⟩ := hc
  have key : ∀ x y : ℝ, |rhe8 x - rhe8 y| < 2 / 10 ^ 5 → |x - y| ≤ 2 / 10 ^ 5 + 1 / 10 ^ 8 := by
    intro x y hh
    have a1 := abs_le.1 (abs_rhe8_sub_le x)
    have a2 := abs_le.1 (abs_rhe8_sub_le y)
    have a3 := abs_lt.1 hh
    rw [abs_le]
    constructor <;> linarith
  have k1 := key _ _ h1
  have k2 := key _ _ h2
  have b1 := mul_self_le_mul_self (abs_nonneg _) k1
  have b2 := mul_self_le_mul_self (abs_nonneg _) k2
  rw [abs_mul_abs_self] at b1 b2
  unfold dist2 at h
  norm_num at h b1 b2
  linarith

section real
variable (hs : ℝ → ℝ → Int)

theorem arcNode_real (r a b : ℝ) (n k : ℕ) : (Rt.real hs).arcNode r a b n k =
    ((onCircle 0 0 r (k * ((b - a) / n))).x, (onCircle 0 0 r (k * ((b - a) / n))).y) := by
  have hE := Rt.real_isExact hs
  unfold Rt.arcNode Rt.mod360
  simp only [hE.mul', hE.div', hE.sub', hE.fl]
  set x := (k : ℝ) * ((b - a) / n)
  have e : (Rt.real hs).trig.radians (x - 360 * ⌊x / 360⌋) = x * (Real.pi / 180) - ⌊x / 360⌋ * (2 * Real.pi) := by
    show (x - 360 * ⌊x / 360⌋) * (Real.pi / 180) = _
    ring
  rw [e]
  show (r * Real.cos _, r * Real.sin _) = _
  rw [Real.cos_sub_int_mul_two_pi, Real.sin_sub_int_mul_two_pi]
  unfold onCircle
  simp

/-- the position of a node of `arc` -/
noncomputable def arcPt (px py r a b : ℝ) (n k : ℕ) : Pt ℝ :=
  placed (Real.cos (a * (Real.pi / 180))) (Real.sin (a * (Real.pi / 180))) px py
    ((onCircle 0 0 r (k * ((b - a) / n))).x, (onCircle 0 0 r (k * ((b - a) / n))).y)

theorem arcPt_near (px py r a b : ℝ) (n k : ℕ) : Near (13 / 10 ^ 9) (arcPt px py r a b n k) (onCircle px py r (a + k * ((b - a) / n))) := by
  unfold arcPt placed onCircle
  set θ := (k : ℝ) * ((b - a) / n)
  set c := Real.cos (a * (Real.pi / 180)) with hc
  set s := Real.sin (a * (Real.pi / 180)) with hs
  have hu : s ^ 2 + c ^ 2 = 1 := Real.sin_sq_add_cos_sq _
  have e1 : (a + θ) * (Real.pi / 180) = a * (Real.pi / 180) + θ * (Real.pi / 180) := by ring
  rw [e1, Real.cos_add, Real.sin_add, ← hc, ← hs]
  set C := Real.cos (θ * (Real.pi / 180))
  set S := Real.sin (θ * (Real.pi / 180))
  simp only [round8Pt, turn, shift, zero_add]
  have a1 := abs_rhe8_sub_le (r * C)
  have a2 := abs_rhe8_sub_le (r * S)
  have hcs : |c| + |s| ≤ 15 / 10 := by
    have := sq_nonneg (|c| - |s|)
    have h1 := sq_abs c
    have h2 := sq_abs s
    nlinarith [abs_nonneg c, abs_nonneg s]
  have lin : ∀ x y u v : ℝ, |x| ≤ 1 / (2 * 10 ^ 8) → |y| ≤ 1 / (2 * 10 ^ 8) → |u| + |v| ≤ 15 / 10 → |x * u + y * v| ≤ 75 / 10 ^ 10 := by
    intro x y u v hx hy huv
    have b1 : |x * u| ≤ 1 / (2 * 10 ^ 8) * |u| := by rw [abs_mul]; exact mul_le_mul_of_nonneg_right hx (abs_nonneg _)
    have b2 : |y * v| ≤ 1 / (2 * 10 ^ 8) * |v| := by rw [abs_mul]; exact mul_le_mul_of_nonneg_right hy (abs_nonneg _)
    have := abs_add_le (x * u) (y * v)
    norm_num at *
    linarith
  constructor
  · dsimp only
    have b1 := abs_le.1 (abs_rhe8_sub_le (rhe8 (r * C) * c - rhe8 (r * S) * s))
    have b2 := abs_le.1 (lin _ _ c (-s) a1 a2 (by rwa [abs_neg]))
    rw [abs_le]
    constructor <;> norm_num at * <;> nlinarith
  · dsimp only
    have b1 := abs_le.1 (abs_rhe8_sub_le (rhe8 (r * C) * s + rhe8 (r * S) * c))
    have b2 := abs_le.1 (lin _ _ s c a1 a2 (by rwa [add_comm]))
    rw [abs_le]
    constructor <;> norm_num at * <;> nlinarith

theorem arcPt_full {px py r a b : ℝ} {n : ℕ} (hn : 0 < n) (h : b - a = 360) : arcPt px py r a b n n = arcPt px py r a b n 0 := by
  have hn' : (n : ℝ) ≠ 0 := by exact_mod_cast hn.ne'
  have e : onCircle 0 0 r (n * ((b - a) / n)) = onCircle 0 0 r ((0 : ℕ) * ((b - a) / n)) := by
    unfold onCircle
    rw [h, mul_div_cancel₀ _ hn']
    have : (360 : ℝ) * (Real.pi / 180) = 2 * Real.pi := by ring
    rw [this]
    simp
  unfold arcPt
  rw [e]

/-- the order in which the nodes are joined -/
def joinOrder (n : ℕ) : Bool → ℕ → ℕ
  | false, k => k
  | true, k => if k = 0 then 0 else n + 1 - k

theorem joined_nodes (r a b : ℝ) (n : ℕ) (cw : Bool) :
    (if cw then cwNodes ((Rt.real hs).arcNodes r a b n) else .ok ((Rt.real hs).arcNodes r a b n)) =
      .ok ((List.range (n + 1)).map fun k => (Rt.real hs).arcNode r a b n (joinOrder n cw k)) := by
  cases cw with
  | false => rfl
  | true =>
    rw [if_pos rfl]
    unfold Rt.arcNodes
    rw [List.range_succ_eq_map, List.map_cons, cwNodes_cons, List.map_cons]
    congr 2
    apply List.ext_getElem
    · simp
    · intro k h1 h2
      simp at h1 h2
      simp only [List.getElem_reverse, List.getElem_map, List.getElem_range, List.length_map, List.length_range, joinOrder]
      rw [if_neg (by omega)]
      congr 1
      omega

theorem arc_join (h : Heap ℝ) (px py r a b : ℝ) (n : ℕ) (cw : Bool) (ho : ArcOk r a b n) (hP : (Rt.real hs).Stored ⟨px, py⟩)
    (hcw : cw = true → b - a ≠ 360) :
    ∃ h' P, (Rt.real hs).arcH h px py r a b n cw = .ok (h', P) ∧ P.purged = true ∧ P.segs.length = n ∧
      (∀ k (hk : k < P.segs.length), h'.val P.segs[k] =
        ⟨arcPt px py r a b n (joinOrder n cw k), arcPt px py r a b n (joinOrder n cw (k + 1)), .line⟩) ∧
      SharesPoints h' P.segs ∧ P.segs.Nodup ∧ (∀ s ∈ P.segs, h.nseg ≤ s) ∧
      (∀ p < h.npt, h'.pt p = h.pt p) ∧ ∀ s < h.nseg, h'.seg s = h.seg s := by
  have hE := Rt.real_isExact hs
  set σ := joinOrder n cw with hσ
  have hσn : ∀ k ≤ n, σ k ≤ n := by
    intro k hk
    cases cw
    · exact hk
    · simp only [hσ, joinOrder]
      split <;> omega
  have hget : ∀ k (hk : k < ((List.range (n + 1)).map fun k => (Rt.real hs).arcNode r a b n (σ k)).length),
      ((List.range (n + 1)).map fun k => (Rt.real hs).arcNode r a b n (σ k))[k] = (Rt.real hs).arcNode r a b n (σ k) := by
    intro k hk
    simp
  have sep : ∀ k l, k ≤ n → l ≤ n → k ≠ l → (b - a = 360 → ¬ (min k l = 0 ∧ max k l = n)) →
      2 / 10 ^ 5 ≤ |(round8Pt (onCircle 0 0 r (k * ((b - a) / n)))).x - (round8Pt (onCircle 0 0 r (l * ((b - a) / n)))).x| ∨
      2 / 10 ^ 5 ≤ |(round8Pt (onCircle 0 0 r (k * ((b - a) / n)))).y - (round8Pt (onCircle 0 0 r (l * ((b - a) / n)))).y| := by
    intro k l hk hl hne hf
    rcases Nat.lt_or_gt_of_ne hne with hlt | hlt
    · rw [min_eq_left hlt.le, max_eq_right hlt.le] at hf
      exact apart_round (ho.sep hlt hl hf)
    · rw [min_eq_right hlt.le, max_eq_left hlt.le] at hf
      exact apart_round (by rw [dist2_symm]; exact ho.sep hlt hk hf)
  have hn1 : b - a = 360 → n ≠ 1 := by
    rintro hf rfl
    have := ho.chord
    rw [hf, dist2_symm, dist2_circle] at this
    have e : ((360 : ℝ) / (1 : ℕ) - 0) / 2 * (Real.pi / 180) = Real.pi := by push_cast; ring
    rw [e, Real.sin_pi] at this
    norm_num at this
  have key := rotate_move_nodes hE h ((Rt.real hs).arcNodes r a b n) _ cw
    (joined_nodes hs r a b n cw) ?_ ?_ a px py ?_ hP
  · obtain ⟨q, h', P, q1, q2, q3, q4, q5, q6, q7, q8, q9, q10⟩ := key
    have hlen : P.segs.length = n := by rw [q4]; simp
    refine ⟨h', P, ?_, q3, hlen, ?_, q6, q7, q8, q9, q10⟩
    · unfold Rt.arcH
      rw [if_neg (not_not.2 ⟨ho.a0, ho.a1⟩), if_neg (not_not.2 ⟨ho.b0, ho.b1⟩), if_neg (not_not.2 ho.ab), if_neg (not_not.2 ho.r0),
        if_neg (not_not.2 ho.n0), q1]
      dsimp only
      rw [q2]
    · intro k hk
      rw [q5 k hk (by simp; omega), hget, hget, arcNode_real, arcNode_real]
      rfl
  · intro k hk e
    simp only [List.length_map, List.length_range] at hk
    rw [hget, hget, arcNode_real, arcNode_real] at e
    have := sep (σ k) (σ (k + 1)) (hσn k (by omega)) (hσn _ (by omega)) ?_ ?_
    · rw [show round8Pt (onCircle 0 0 r (σ k * ((b - a) / n))) = round8Pt (onCircle 0 0 r (σ (k + 1) * ((b - a) / n))) from e] at this
      norm_num at this
    · cases cw <;> simp only [hσ, joinOrder]
      · omega
      · split <;> simp <;> omega
    · intro hf
      cases cw
      · simp only [hσ, joinOrder]
        have := hn1 hf
        omega
      · exact absurd hf (hcw rfl)
  · rintro p ⟨x, hx, rfl⟩ q ⟨y, hy, rfl⟩ hne
    obtain ⟨k, hk, rfl⟩ := List.mem_map.1 hx
    obtain ⟨l, hl, rfl⟩ := List.mem_map.1 hy
    rw [arcNode_real, arcNode_real] at hne ⊢
    rw [← hσ] at hne ⊢
    have hk' := hσn k (by simpa using Nat.lt_succ_iff.1 (List.mem_range.1 hk))
    have hl' := hσn l (by simpa using Nat.lt_succ_iff.1 (List.mem_range.1 hl))
    generalize σ k = k' at *
    generalize σ l = l' at *
    refine sep k' l' hk' hl' (fun e => hne (by rw [e])) ?_
    intro hf hh
    apply hne
    have full : onCircle 0 0 r (n * ((b - a) / n)) = onCircle 0 0 r ((0 : ℕ) * ((b - a) / n)) := by
      have hn' : (n : ℝ) ≠ 0 := by exact_mod_cast ho.n0.ne'
      unfold onCircle
      rw [hf, mul_div_cancel₀ _ hn']
      have : (360 : ℝ) * (Real.pi / 180) = 2 * Real.pi := by ring
      rw [this]
      simp
    rcases Nat.lt_or_ge k' l' with hlt | hlt
    · rw [min_eq_left hlt.le, max_eq_right hlt.le] at hh
      rw [hh.1, hh.2, full]
    · rw [min_eq_right hlt, max_eq_left hlt] at hh
      rw [hh.1, hh.2, full]
  · have := Real.cos_sq_add_sin_sq (a * (Real.pi / 180))
    rw [_root_.sq, _root_.sq] at this
    exact this

/-- C101: `arc` makes n segments joining n + 1 points in their order, each within 1.3e-8 of the point of the circle at the
angle `alpha_start + k * (alpha_end - alpha_start) / n`; consecutive segments share their Point objects, the polyline is
continuous, and closed exactly for a whole circle, whose last point is the very first one; nothing else in memory is changed. -/
theorem C101_arc (h : Heap ℝ) (px py r a b : ℝ) (n : ℕ) (ho : ArcOk r a b n) (hP : (Rt.real hs).Stored ⟨px, py⟩) :
    ∃ h' P, ∃ v : ℕ → Pt ℝ, (Rt.real hs).arcH h px py r a b n false = .ok (h', P) ∧ P.purged = true ∧ P.segs.length = n ∧
      (∀ k (hk : k < P.segs.length), h'.val P.segs[k] = ⟨v k, v (k + 1), .line⟩) ∧
      (∀ k ≤ n, Near (13 / 10 ^ 9) (v k) (onCircle px py r (a + k * ((b - a) / n)))) ∧
      SharesPoints h' P.segs ∧ P.segs.Nodup ∧ (Rt.real hs).isContinuous (h'.vals P.segs) = true ∧
      (∃ c, (Rt.real hs).isClosed (h'.vals P.segs) = .ok c ∧ (c = true ↔ b - a = 360)) ∧ (b - a = 360 → v n = v 0) ∧
      (∀ s ∈ P.segs, h.nseg ≤ s) ∧ (∀ p < h.npt, h'.pt p = h.pt p) ∧ ∀ s < h.nseg, h'.seg s = h.seg s := by
  have hE := Rt.real_isExact hs
  obtain ⟨h', P, q1, q2, q3, q4, q5, q6, q7, q8, q9⟩ := arc_join hs h px py r a b n false ho hP (by simp)
  simp only [joinOrder] at q4
  have hvals : h'.vals P.segs = chain ((List.range (n + 1)).map (arcPt px py r a b n)) := by
    apply List.ext_getElem
    · rw [chain_length']
      simp [Heap.vals, q3]
    · intro k h1 h2
      rw [chain_getElem _ k (by rw [chain_length'] at h2; omega)]
      have hk : k < P.segs.length := by simpa [Heap.vals] using h1
      simp only [Heap.vals, List.getElem_map, List.getElem_range]
      exact q4 k hk
  have hcont : (Rt.real hs).isContinuous (h'.vals P.segs) = true := by
    rw [hvals]
    exact chain_isContinuous hE.isRounding _
  refine ⟨h', P, arcPt px py r a b n, q1, q2, q3, q4, fun k _ => arcPt_near px py r a b n k, q5, q6, hcont, ?_,
    arcPt_full ho.n0, q7, q8, q9⟩
  have hn := ho.n0
  have hfirst : (h'.vals P.segs).head? = some ⟨arcPt px py r a b n 0, arcPt px py r a b n 1, .line⟩ := by
    rw [List.head?_eq_getElem?, List.getElem?_eq_getElem (by simp [Heap.vals]; omega)]
    simp only [Heap.vals, List.getElem_map]
    rw [q4 0 (by omega)]
  have hlast : (h'.vals P.segs).getLast? = some ⟨arcPt px py r a b n (n - 1), arcPt px py r a b n n, .line⟩ := by
    rw [List.getLast?_eq_getElem?, List.getElem?_eq_getElem (by simp [Heap.vals]; omega)]
    simp only [Heap.vals, List.getElem_map, List.length_map]
    rw [q4 _ (by omega), q3, Nat.sub_add_cancel hn]
  unfold Rt.isClosed
  rw [hcont, if_pos rfl, hfirst, hlast]
  refine ⟨_, rfl, ?_⟩
  dsimp only
  rw [hE.peq_iff]
  constructor
  · intro ⟨x1, x2⟩
    rcases ho.gap with hg | hg
    · exact hg
    · exfalso
      have n1 := arcPt_near px py r a b n 0
      have n2 := arcPt_near px py r a b n n
      have hn' : (n : ℝ) ≠ 0 := by exact_mod_cast hn.ne'
      have e2 : a + n * ((b - a) / n) = b := by field_simp; ring
      rw [e2] at n2
      rw [show a + ((0 : ℕ) : ℝ) * ((b - a) / n) = a by simp] at n1
      have hg' : (4 / 10 ^ 5) ^ 2 ≤ dist2 (onCircle px py r a) (onCircle px py r b) := by
        rw [dist2_circle] at hg ⊢
        exact hg
      obtain ⟨y1, y2⟩ := n1
      obtain ⟨z1, z2⟩ := n2
      have key : ∀ u v u' v' : ℝ, |u - v| < 1 / 10 ^ 5 → |u - u'| ≤ 13 / 10 ^ 9 → |v - v'| ≤ 13 / 10 ^ 9 → |u' - v'| ≤ 2 / 10 ^ 5 := by
        intro u v u' v' k1 k2 k3
        have k1 := abs_lt.1 k1
        have k2 := abs_le.1 k2
        have k3 := abs_le.1 k3
        rw [abs_le]
        norm_num at *
        constructor <;> linarith
      have w1 := mul_self_le_mul_self (abs_nonneg _) (key _ _ _ _ x1 y1 z1)
      have w2 := mul_self_le_mul_self (abs_nonneg _) (key _ _ _ _ x2 y2 z2)
      rw [abs_mul_abs_self] at w1 w2
      unfold dist2 at hg'
      norm_num at hg' w1 w2
      linarith
  · intro hf
    rw [arcPt_full hn hf]
    norm_num

/-- C101: all points of an arc are at the distance r from the centre, up to 2e-8. -/
theorem C101_radius {px py r t : ℝ} {p : Pt ℝ} (hr : 0 < r) (hp : Near (13 / 10 ^ 9) p (onCircle px py r t)) :
    |Real.sqrt (dist2 p ⟨px, py⟩) - r| ≤ 2 / 10 ^ 8 := by
  obtain ⟨h1, h2⟩ := hp
  unfold onCircle at h1 h2
  dsimp only at h1 h2
  set C := Real.cos (t * (Real.pi / 180))
  set S := Real.sin (t * (Real.pi / 180))
  have hu : S ^ 2 + C ^ 2 = 1 := Real.sin_sq_add_cos_sq _
  set ex := p.x - (px + r * C) with hex
  set ey := p.y - (py + r * S) with hey
  have e : dist2 p ⟨px, py⟩ = r ^ 2 + 2 * r * (C * ex + S * ey) + (ex ^ 2 + ey ^ 2) := by
    unfold dist2
    simp only [hex, hey]
    linear_combination (r ^ 2) * hu
  have q1 : ex ^ 2 ≤ (13 / 10 ^ 9) ^ 2 := by rw [← sq_abs]; exact pow_le_pow_left₀ (abs_nonneg _) h1 2
  have q2 : ey ^ 2 ≤ (13 / 10 ^ 9) ^ 2 := by rw [← sq_abs]; exact pow_le_pow_left₀ (abs_nonneg _) h2 2
  have hde : (C * ex + S * ey) ^ 2 + (C * ey - S * ex) ^ 2 = ex ^ 2 + ey ^ 2 := by
    linear_combination (ex ^ 2 + ey ^ 2) * hu
  have h3 := sq_nonneg (C * ey - S * ex)
  have hd : (C * ex + S * ey) ^ 2 ≤ (19 / 10 ^ 9) ^ 2 := by
    norm_num at q1 q2 ⊢
    linarith
  have hd' := abs_le_of_sq_le_sq' hd (by positivity)
  have hq0 := sq_nonneg ex
  have hq1 := sq_nonneg ey
  rw [abs_le, e]
  constructor
  · by_cases hb : r ≤ 2 / 10 ^ 8
    · have := Real.sqrt_nonneg (r ^ 2 + 2 * r * (C * ex + S * ey) + (ex ^ 2 + ey ^ 2))
      linarith
    · push Not at hb
      have : r - 2 / 10 ^ 8 ≤ Real.sqrt (r ^ 2 + 2 * r * (C * ex + S * ey) + (ex ^ 2 + ey ^ 2)) := by
        apply Real.le_sqrt_of_sq_le
        have hm : (r - 2 / 10 ^ 8) ^ 2 ≤ (r + (C * ex + S * ey)) ^ 2 := by
          apply pow_le_pow_left₀ (by linarith)
          have := hd'.1
          norm_num at this ⊢
          linarith
        nlinarith
      linarith
  · have : Real.sqrt (r ^ 2 + 2 * r * (C * ex + S * ey) + (ex ^ 2 + ey ^ 2)) ≤ r + 2 / 10 ^ 8 := by
      rw [Real.sqrt_le_left (by positivity)]
      have hm := mul_le_mul_of_nonneg_left hd'.2 (by positivity : 0 ≤ 2 * r)
      norm_num at hm q1 q2 ⊢
      nlinarith
    linarith

/-- C101, the failure of `cw=True`: an arc that is not a whole circle begins with the chord from its start to its end, then
goes back to the point after the start; the piece at the start is missing. -/
theorem C101_cw (h : Heap ℝ) (px py r a b : ℝ) (n : ℕ) (ho : ArcOk r a b n) (hf : b - a ≠ 360) (hP : (Rt.real hs).Stored ⟨px, py⟩) :
    ∃ h' P, ∃ v : ℕ → Pt ℝ, (Rt.real hs).arcH h px py r a b n true = .ok (h', P) ∧ P.segs.length = n ∧
      (∀ k ≤ n, Near (13 / 10 ^ 9) (v k) (onCircle px py r (a + k * ((b - a) / n)))) ∧
      (∀ hk : 0 < P.segs.length, h'.val P.segs[0] = ⟨v 0, v n, .line⟩) ∧
      (∀ k (hk : k < P.segs.length), 0 < k → h'.val P.segs[k] = ⟨v (n + 1 - k), v (n - k), .line⟩) := by
  obtain ⟨h', P, q1, q2, q3, q4, q5, q6, q7, q8, q9⟩ := arc_join hs h px py r a b n true ho hP (fun _ => hf)
  refine ⟨h', P, arcPt px py r a b n, q1, q3, fun k _ => arcPt_near px py r a b n k, ?_, ?_⟩
  · intro hk
    rw [q4 0 hk]
    simp [joinOrder]
  · intro k hk h0
    rw [q4 k hk]
    simp only [joinOrder]
    rw [if_neg (by omega), if_neg (by omega)]
    congr 2
    omega

/-- C101: arguments out of range fail an assertion. -/
theorem C101_asserts {K : Type} [Field K] [LinearOrder K] [IsStrictOrderedRing K] [FloorRing K] (R : Rt K) (h : Heap K)
    (px py r a b : K) (n : ℕ) (cw : Bool) : R.arcH h px py r a b n cw = .error .assertion ↔
      ¬ (0 ≤ a ∧ a < b ∧ b ≤ 360 ∧ 0 < r ∧ 0 < n) := by
  unfold Rt.arcH
  split
  · next hh => exact ⟨fun _ hc => hh ⟨hc.1, hc.2.1.trans_le hc.2.2.1⟩, fun _ => rfl⟩
  · next h1 =>
    split
    · next hh => exact ⟨fun _ hc => hh ⟨hc.1.trans_lt hc.2.1, hc.2.2.1⟩, fun _ => rfl⟩
    · next h2 =>
      split
      · next hh => exact ⟨fun _ hc => hh hc.2.1, fun _ => rfl⟩
      · next h3 =>
        split
        · next hh => exact ⟨fun _ hc => hh hc.2.2.2.1, fun _ => rfl⟩
        · next h4 =>
          split
          · next hh => exact ⟨fun _ hc => hh hc.2.2.2.2, fun _ => rfl⟩
          · next h5 =>
            rw [not_not] at h1 h2 h3 h4 h5
            refine ⟨fun hh => ?_, fun hh => absurd ⟨h1.1, h3, h2.2, h4, h5⟩ hh⟩
            exfalso
            unfold Rt.fromNodesH Rt.arcNodes at hh
            rw [List.range_succ_eq_map, List.map_cons, cwNodes_cons] at hh
            cases cw <;> simp at hh

end real

/-- the sensible arguments: a quarter of the unit circle in three pieces, and a whole circle in four -/
example : ArcOk 1 0 90 3 ∧ ArcOk 1 0 360 4 := by
  have h6 : Real.sin (-(Real.pi / 12)) ^ 2 = (1 - Real.cos (Real.pi / 6)) / 2 := by
    rw [Real.sin_neg, neg_sq, Real.sin_sq_eq_half_sub]
    rw [show 2 * (Real.pi / 12) = Real.pi / 6 by ring]
    ring
  have h4 : Real.sin (-(Real.pi / 4)) ^ 2 = 1 / 2 := by
    rw [Real.sin_neg, neg_sq, Real.sin_pi_div_four, div_pow, Real.sq_sqrt (by norm_num)]
    norm_num
  have h3 : Real.sqrt 3 ≤ 18 / 10 := by rw [Real.sqrt_le_left (by norm_num)]; norm_num
  constructor
  · refine ⟨by norm_num, by norm_num, by norm_num, by norm_num, by norm_num, by norm_num, by norm_num, ?_, Or.inr ?_⟩
    · rw [dist2_circle, show ((0 : ℝ) - (90 - 0) / (3 : ℕ)) / 2 * (Real.pi / 180) = -(Real.pi / 12) by push_cast; ring, mul_pow, h6,
        Real.cos_pi_div_six]
      norm_num
      linarith
    · rw [dist2_circle, show ((0 : ℝ) - 90) / 2 * (Real.pi / 180) = -(Real.pi / 4) by ring, mul_pow, h4]
      norm_num
  · refine ⟨by norm_num, by norm_num, by norm_num, by norm_num, by norm_num, by norm_num, by norm_num, ?_, Or.inl (by norm_num)⟩
    rw [dist2_circle, show ((0 : ℝ) - (360 - 0) / (4 : ℕ)) / 2 * (Real.pi / 180) = -(Real.pi / 4) by push_cast; ring, mul_pow, h4]
    norm_num

/-- the binary64 values of `math.cos` and `math.sin` at multiples of 90 degrees (angles are kept in degrees) -/
def quarterTrig : Trig ℚ where
  atan2 _ _ := 0
  acos := id
  degrees := id
  radians := id
  cos x := if x = 0 then 1 else if x = 90 then fl64 (6123233995736766 / 10 ^ 32) else if x = 180 then -1 else
    if x = 270 then fl64 (-(18369701987210297 / 10 ^ 32)) else 0
  sin x := if x = 0 then 0 else if x = 90 then 1 else if x = 180 then fl64 (12246467991473532 / 10 ^ 32) else
    if x = 270 then -1 else 0

/-- binary64 with these functions -/
def quarterRt : Rt ℚ := Rt.b64 quarterTrig (fun x y => ⌊x * 10 ^ 8⌋ + 7 * ⌊y * 10 ^ 8⌋)

/-- an empty memory -/
def noHeap : Heap ℚ := ⟨fun _ => ⟨0, 0⟩, fun _ => ⟨0, 0, .line⟩, 0, 0⟩

/-- C101, the failure of `cw=True` for a whole circle (binary64): about the centre (5, 7) with radius 2 and four pieces the
first segment runs from (7, 7) to (2, 0), which is the start of the circle before it was moved, and the last piece of the
circle is missing; without `cw` the circle is right. -/
theorem C101_cw_circle :
    ((quarterRt.arcH noHeap 5 7 2 0 360 4 false).toOption.map fun q => q.1.vals q.2.segs) =
      some [⟨⟨7, 7⟩, ⟨5, 9⟩, .line⟩, ⟨⟨5, 9⟩, ⟨3, 7⟩, .line⟩, ⟨⟨3, 7⟩, ⟨5, 5⟩, .line⟩, ⟨⟨5, 5⟩, ⟨7, 7⟩, .line⟩] ∧
    ((quarterRt.arcH noHeap 5 7 2 0 360 4 true).toOption.map fun q => q.1.vals q.2.segs) =
      some [⟨⟨7, 7⟩, ⟨2, 0⟩, .line⟩, ⟨⟨7, 7⟩, ⟨5, 5⟩, .line⟩, ⟨⟨5, 5⟩, ⟨3, 7⟩, .line⟩, ⟨⟨3, 7⟩, ⟨5, 9⟩, .line⟩] := by
  constructor <;> decide +kernel

end Srep
