import Verif.Model.PointObj
import Verif.Lemmas.Exact
import Verif.Spec.Geom
import Verif.Spec.Example
import Mathlib.Tactic.NormNum.RealSqrt

/-! Properties C01-C08: points. -/

set_option linter.unusedSectionVars false

namespace Srep
variable {K : Type} [Field K] [LinearOrder K] [IsStrictOrderedRing K] [FloorRing K]

/-! ### C01 -/

/-- C01: storing a stored coordinate again changes nothing, for every correctly rounded arithmetic. -/
theorem C01_coord_stable {R : Rt K} (hR : R.IsRounding) (x : K) : R.coord (R.coord x) = R.coord x :=
  hR.coord_idem x

/-- C01: a stored coordinate is the float nearest to a number with 8 decimals. -/
theorem C01_coord_is_decimal (R : Rt K) (x : K) : ∃ n : ℤ, R.coord x = R.fl ((n : K) / 10 ^ 8) :=
  ⟨_, rfl⟩

/-- C01: constructing a Point from the coordinates of a Point made of numbers gives the same object
state, for tuples of any length. -/
theorem C01_reconstruct {R : Rt K} (hR : R.IsRounding) (c c' : PtCls) (l : List K) :
    ∃ l' : List K,
      PointObj.new R c (.tup (l.map .num)) = .ok ⟨.tup (l'.map .num), none, c⟩ ∧
      PointObj.new R c' (.tup (l'.map .num)) = .ok ⟨.tup (l'.map .num), none, c'⟩ := by
  have conv : ∀ l : List K,
      PointObj.convAll R (l.map .num) = .ok ((l.map R.coord).map .num) := by
    intro l
    induction l with
    | nil => rfl
    | cons a l ih => simp only [List.map_cons, PointObj.convAll, PointObj.conv, ih]
  refine ⟨l.map R.coord, ?_, ?_⟩
  · simp only [PointObj.new, PointObj.newCoords, conv]
  · have e : (l.map R.coord).map R.coord = l.map R.coord := by
      rw [List.map_map]
      apply List.map_congr_left
      intro a _
      simp [hR.coord_idem]
    simp only [PointObj.new, PointObj.newCoords, conv, e]

/-- C01: adding or subtracting the origin reproduces a stored Point exactly. -/
theorem C01_add_origin {R : Rt K} (hR : R.IsRounding) (p : Pt K) (hp : R.Stored p) :
    R.ptAdd p ⟨0, 0⟩ = p ∧ R.ptSub p ⟨0, 0⟩ = p := by
  have hx : R.fl p.x = p.x := by rw [← hp.1]; exact hR.coord_fl _
  have hy : R.fl p.y = p.y := by rw [← hp.2]; exact hR.coord_fl _
  constructor
  · simp only [Rt.ptAdd, Rt.mkPt, Rt.add, add_zero, hx, hy, hp.1, hp.2]
  · simp only [Rt.ptSub, Rt.mkPt, Rt.sub, sub_zero, hx, hy, hp.1, hp.2]

/-- every Point made from numbers is stored in the sense used above -/
theorem C01_stored {R : Rt K} (hR : R.IsRounding) (x y : K) : R.Stored (R.mkPt x y) :=
  ⟨hR.coord_idem x, hR.coord_idem y⟩

/-- not vacuous: 0.123456785 is really changed by storing, in binary64 -/
example : exRt.coord (123456785 / 10 ^ 9) ≠ exRt.fl (123456785 / 10 ^ 9) := by decide +kernel

/-! ### C02 -/

/-- C02, exact arithmetic: error at most half a unit of the 8th decimal, and no 8-decimal number is
closer. -/
theorem C02_error_exact {R : Rt K} (hE : R.IsExact) (x : K) :
    |R.coord x - x| ≤ 1 / 2 * (1 / 10 ^ 8) ∧ ∀ n : ℤ, |R.coord x - x| ≤ |(n : K) / 10 ^ 8 - x| := by
  rw [hE.coord']
  refine ⟨?_, rhe8_nearest x⟩
  have := abs_rhe8_sub_le x
  calc _ ≤ _ := this
    _ = _ := by norm_num

/-- C02, correctly rounded arithmetic: the error with respect to the float passed in is at most half a
unit of the 8th decimal plus one float rounding of the decimal. -/
theorem C02_error_float {R : Rt K} (hR : R.IsRounding) (x : K) :
    |R.coord x - R.fl x| ≤ 1 / 2 * (1 / 10 ^ 8) + |rhe8 (R.fl x)| / 2 ^ 53 := by
  have h1 := abs_rhe8_sub_le (R.fl x)
  have h2 := hR.rel (rhe8 (R.fl x))
  have e : R.coord x - R.fl x
      = (R.fl (rhe8 (R.fl x)) - rhe8 (R.fl x)) + (rhe8 (R.fl x) - R.fl x) := by
    simp only [Rt.coord, Rt.round8]; ring
  rw [e]
  have h3 := abs_add_le (R.fl (rhe8 (R.fl x)) - rhe8 (R.fl x)) (rhe8 (R.fl x) - R.fl x)
  have e2 : (1 : K) / (2 * 10 ^ 8) = 1 / 2 * (1 / 10 ^ 8) := by norm_num
  rw [e2] at h1
  linarith

/-- C02, correctly rounded arithmetic: never more than one unit of the 8th decimal. -/
theorem C02_error_float_abs {R : Rt K} (hR : R.IsRounding) (x : K) :
    |R.coord x - R.fl x| ≤ 1 / 10 ^ 8 := by
  have h1 := abs_rhe8_sub_le (R.fl x)
  have h2 := hR.nearest (rhe8 (R.fl x)) x
  have e : R.coord x - R.fl x
      = (R.fl (rhe8 (R.fl x)) - rhe8 (R.fl x)) + (rhe8 (R.fl x) - R.fl x) := by
    simp only [Rt.coord, Rt.round8]; ring
  rw [e]
  have h3 := abs_add_le (R.fl (rhe8 (R.fl x)) - rhe8 (R.fl x)) (rhe8 (R.fl x) - R.fl x)
  rw [abs_sub_comm (R.fl x)] at h2
  have e2 : (1 : K) / (2 * 10 ^ 8) + 1 / (2 * 10 ^ 8) = 1 / 10 ^ 8 := by norm_num
  linarith

/-- C02: storing preserves order, so betweenness survives construction. -/
theorem C02_monotone {R : Rt K} (hR : R.IsRounding) {x y z : K} (h1 : x ≤ y) (h2 : y ≤ z) :
    R.coord x ≤ R.coord y ∧ R.coord y ≤ R.coord z :=
  ⟨hR.coord_mono h1, hR.coord_mono h2⟩

/-! ### C03 -/

/-- A Point object that reports valid, whose cache is not stale and whose coordinates are numbers
`x`, `y` (further entries are allowed). -/
def LooksLike (p : PointObj K) (x y : K) : Prop :=
  PointObj.number p 0 = .ok x ∧ PointObj.number p 1 = .ok y ∧ p.cache ≠ some false

private theorem number_num {p : PointObj K} {n : Nat} {x : K} (h : PointObj.number p n = .ok x) :
    PointObj.item p.coords n = .ok (.num x) := by
  unfold PointObj.number at h
  split at h
  · simp at h
  · rename_i v hv; simp at h; rw [hv, h]
  · simp at h

private theorem looksLike_isvalid {p : PointObj K} {x y : K} (h : LooksLike p x y) :
    PointObj.isvalid p = .ok (true, { p with cache := some true }) := by
  obtain ⟨hx, hy, hc⟩ := h
  have ix := number_num hx
  have iy := number_num hy
  unfold PointObj.isvalid
  rcases hcache : p.cache with _ | b
  · have hne : p.coords ≠ emptyCoords := by
      intro h0; rw [h0] at ix; simp [emptyCoords, PointObj.item] at ix
    simp [PointObj.validNow, hne, ix, iy, PointObj.isNumber]
  · cases b
    · exact absurd hcache hc
    · obtain ⟨a, b, c⟩ := p
      simp at hcache ⊢
      exact hcache

/-- C03: what `==` means: two Points with numeric coordinates are equal iff they have the same class and
differ by less than the tolerance in each coordinate. -/
theorem C03_eq_iff {R : Rt K} {p q : PointObj K} {px py qx qy : K} (hp : LooksLike p px py)
    (hq : LooksLike q qx qy) :
    ∃ b p' q', PointObj.eq R p q = .ok (b, p', q') ∧
      (b = true ↔ p.cls = q.cls ∧ |R.sub px qx| < R.tol ∧ |R.sub py qy| < R.tol) := by
  unfold PointObj.eq
  rw [looksLike_isvalid hp, looksLike_isvalid hq]
  obtain ⟨hx, hy, _⟩ := hp
  obtain ⟨gx, gy, _⟩ := hq
  have hx' : PointObj.number { p with cache := some true } 0 = .ok px := hx
  have hy' : PointObj.number { p with cache := some true } 1 = .ok py := hy
  have gx' : PointObj.number { q with cache := some true } 0 = .ok qx := gx
  have gy' : PointObj.number { q with cache := some true } 1 = .ok qy := gy
  by_cases hc : q.cls = p.cls
  · refine ⟨R.peq ⟨px, py⟩ ⟨qx, qy⟩, { p with cache := some true }, { q with cache := some true }, ?_, ?_⟩
    · rw [hc] at gx' gy'
      simp only [bind, Except.bind, pure, Except.pure, hx', hy', gx', gy', Bool.not_true,
        Bool.false_eq_true, if_false, ne_eq, hc, not_true_eq_false]
    · simp [Rt.peq, hc]
  · refine ⟨false, { p with cache := some true }, { q with cache := some true }, ?_, ?_⟩
    · simp [bind, Except.bind, pure, Except.pure, hc]
    · simp [Ne.symm hc]

/-- C03, exact arithmetic: the tolerance is exactly 1e-5. -/
theorem C03_eq_iff_exact {R : Rt K} (hE : R.IsExact) {p q : PointObj K} {px py qx qy : K}
    (hp : LooksLike p px py) (hq : LooksLike q qx qy) :
    ∃ b p' q', PointObj.eq R p q = .ok (b, p', q') ∧
      (b = true ↔ p.cls = q.cls ∧ |px - qx| < 1 / 10 ^ 5 ∧ |py - qy| < 1 / 10 ^ 5) := by
  have := C03_eq_iff (R := R) hp hq
  simpa only [hE.sub', hE.tol'] using this

/-- C03: reflexive on valid Points (correctly rounded arithmetic). -/
theorem C03_refl {R : Rt K} (hR : R.IsRounding) {p : PointObj K} {px py : K} (hp : LooksLike p px py) :
    ∃ p' q', PointObj.eq R p p = .ok (true, p', q') := by
  obtain ⟨b, p', q', h, hb⟩ := C03_eq_iff (R := R) hp hp
  have : b = true := hb.2 ⟨rfl, by simp [Rt.sub, hR.zero, hR.tol_pos], by
    simp [Rt.sub, hR.zero, hR.tol_pos]⟩
  exact ⟨p', q', this ▸ h⟩

private theorem peq_comm {R : Rt K} (hR : R.IsRounding) (p q : Pt K) : R.peq p q = R.peq q p := by
  unfold Rt.peq
  rw [hR.sub_neg p.x, hR.sub_neg p.y, abs_neg, abs_neg]

private theorem isvalid_spec {p p' : PointObj K} {b : Bool} (h : PointObj.isvalid p = .ok (b, p')) :
    p'.coords = p.coords ∧ p'.cls = p.cls ∧ PointObj.isvalid p' = .ok (b, p') := by
  unfold PointObj.isvalid at h
  split at h
  · rename_i c hc
    simp only [Except.ok.injEq, Prod.mk.injEq] at h
    obtain ⟨rfl, rfl⟩ := h
    exact ⟨rfl, rfl, by simp [PointObj.isvalid, hc]⟩
  · split at h
    · simp only [Except.ok.injEq, Prod.mk.injEq] at h
      obtain ⟨rfl, rfl⟩ := h
      exact ⟨rfl, rfl, by simp [PointObj.isvalid]⟩
    · simp at h

/-- When `p == q` succeeds with True both are reported valid, have the same class and numeric
coordinates within tolerance. -/
private theorem eq_true_spec {R : Rt K} {p q p' q' : PointObj K}
    (h : PointObj.eq R p q = .ok (true, p', q')) :
    (∃ p₁, PointObj.isvalid p = .ok (true, p₁)) ∧ (∃ q₁, PointObj.isvalid q = .ok (true, q₁)) ∧
    q.cls = p.cls ∧ ∃ px py qx qy, PointObj.number p 0 = .ok px ∧ PointObj.number p 1 = .ok py ∧
      PointObj.number q 0 = .ok qx ∧ PointObj.number q 1 = .ok qy ∧
      R.peq ⟨px, py⟩ ⟨qx, qy⟩ = true := by
  unfold PointObj.eq at h
  rcases hv : PointObj.isvalid p with e | ⟨vp, p₁⟩
  · simp [hv, bind, Except.bind] at h
  rcases hw : PointObj.isvalid q with e | ⟨vq, q₁⟩
  · rw [hv, hw] at h
    cases vp <;> simp [bind, Except.bind, pure, Except.pure] at h
  rw [hv, hw] at h
  obtain ⟨c1, k1, _⟩ := isvalid_spec hv
  obtain ⟨c2, k2, _⟩ := isvalid_spec hw
  have n1 : ∀ n, PointObj.number p₁ n = PointObj.number p n := by
    intro n; unfold PointObj.number; rw [c1]
  have n2 : ∀ n, PointObj.number q₁ n = PointObj.number q n := by
    intro n; unfold PointObj.number; rw [c2]
  cases vp
  · simp [bind, Except.bind, pure, Except.pure] at h
  cases vq
  · simp [bind, Except.bind, pure, Except.pure] at h
  simp only [bind, Except.bind, pure, Except.pure, Bool.not_true, Bool.false_eq_true, if_false,
    k1, k2, n1, n2] at h
  split at h
  · simp at h
  rename_i hc
  rcases a1 : PointObj.number p 0 with e | px
  · simp [a1] at h
  rcases a2 : PointObj.number p 1 with e | py
  · simp [a1, a2] at h
  rcases a3 : PointObj.number q 0 with e | qx
  · simp [a1, a2, a3] at h
  rcases a4 : PointObj.number q 1 with e | qy
  · simp [a1, a2, a3, a4] at h
  simp only [a1, a2, a3, a4, Except.ok.injEq, Prod.mk.injEq] at h
  exact ⟨⟨p₁, rfl⟩, ⟨q₁, rfl⟩, not_not.1 hc, px, py, qx, qy, rfl, rfl, rfl, rfl, h.1⟩

private theorem eq_of_spec {R : Rt K} {p q : PointObj K} {p₁ q₁ : PointObj K} {px py qx qy : K}
    (hp : PointObj.isvalid p = .ok (true, p₁)) (hq : PointObj.isvalid q = .ok (true, q₁))
    (hc : q.cls = p.cls) (a1 : PointObj.number p 0 = .ok px) (a2 : PointObj.number p 1 = .ok py)
    (a3 : PointObj.number q 0 = .ok qx) (a4 : PointObj.number q 1 = .ok qy) :
    PointObj.eq R p q = .ok (R.peq ⟨px, py⟩ ⟨qx, qy⟩, p₁, q₁) := by
  obtain ⟨c1, k1, _⟩ := isvalid_spec hp
  obtain ⟨c2, k2, _⟩ := isvalid_spec hq
  have n1 : ∀ n, PointObj.number p₁ n = PointObj.number p n := by
    intro n; unfold PointObj.number; rw [c1]
  have n2 : ∀ n, PointObj.number q₁ n = PointObj.number q n := by
    intro n; unfold PointObj.number; rw [c2]
  unfold PointObj.eq
  simp [hp, hq, bind, Except.bind, pure, Except.pure, k1, k2, hc, n1, n2, a1, a2, a3, a4]

/-- C03: symmetric for arbitrary objects in arbitrary states (stale caches included): whenever both
orders produce an answer the answers agree, and a True answer in one order is a True answer in the
other. -/
theorem C03_symm {R : Rt K} (hR : R.IsRounding) {p q p' q' : PointObj K}
    (h : PointObj.eq R p q = .ok (true, p', q')) :
    ∃ p'' q'', PointObj.eq R q p = .ok (true, q'', p'') := by
  obtain ⟨⟨p₁, h1⟩, ⟨q₁, h2⟩, hc, px, py, qx, qy, a1, a2, a3, a4, hpe⟩ := eq_true_spec h
  refine ⟨p₁, q₁, ?_⟩
  rw [eq_of_spec h2 h1 hc.symm a3 a4 a1 a2, peq_comm hR, hpe]

/-- C03: an invalid Point is equal to nothing, itself included. -/
theorem C03_invalid {R : Rt K} {p p₁ : PointObj K} (h : PointObj.isvalid p = .ok (false, p₁))
    (q : PointObj K) :
    PointObj.eq R p q = .ok (false, p₁, q) ∧ ∀ q' p', PointObj.eq R q p ≠ .ok (true, q', p') := by
  constructor
  · unfold PointObj.eq; simp [h, bind, Except.bind, pure, Except.pure]
  · intro q' p' hh
    obtain ⟨_, ⟨p₂, h2⟩, _⟩ := eq_true_spec hh
    rw [h] at h2; simp at h2

/-- C03: objects of different classes are never equal. -/
theorem C03_class {R : Rt K} {p q : PointObj K} (h : p.cls ≠ q.cls) :
    ∀ p' q', PointObj.eq R p q ≠ .ok (true, p', q') := by
  intro p' q' hh
  exact h (eq_true_spec hh).2.2.1.symm

/-- C03: `!=` is the complement of `==`. -/
theorem C03_ne {R : Rt K} {p q p' q' : PointObj K} {b : Bool} :
    PointObj.ne R p q = .ok (b, p', q') ↔ PointObj.eq R p q = .ok (!b, p', q') := by
  unfold PointObj.ne
  rcases PointObj.eq R p q with e | ⟨b', p₁, q₁⟩
  · simp
  · cases b <;> cases b' <;> simp

/-- hypotheses are satisfiable: a fresh Point made of two numbers looks like its coordinates -/
theorem looksLike_new {R : Rt K} (c : PtCls) (x y : K) :
    ∃ p, PointObj.new R c (.tup [.num x, .num y]) = .ok p ∧ LooksLike p (R.coord x) (R.coord y) ∧
      p.cls = c :=
  ⟨⟨.tup [.num (R.coord x), .num (R.coord y)], none, c⟩, rfl, ⟨rfl, rfl, by simp⟩, rfl⟩

example : ∃ p, PointObj.new exRt .point (.tup [.none, .num 1]) = .ok p ∧
    (∃ p₁, PointObj.isvalid p = .ok (false, p₁)) := ⟨_, rfl, _, rfl⟩

/-! ### C04 -/

/-- C04: equality of Points is not transitive, already in binary64: three stored Points with
p == q, q == r, p != r. -/
theorem C04_not_transitive :
    ∃ p q r : Pt ℚ, exRt.Stored p ∧ exRt.Stored q ∧ exRt.Stored r ∧
      exRt.peq p q = true ∧ exRt.peq q r = true ∧ exRt.peq p r = false :=
  ⟨exRt.mkPt 0 0, exRt.mkPt (9 / 10 ^ 6) 0, exRt.mkPt (18 / 10 ^ 6) 0, by decide +kernel⟩

/-- C04: if Points that compare equal always had equal hashes, the hash would be the same for all
Points whatsoever (exact arithmetic, any hash function). -/
theorem C04_hash_contract_forces_constant {R : Rt K} (hE : R.IsExact)
    (contract : ∀ p q : Pt K, R.Stored p → R.Stored q → R.peq p q = true → R.phash p = R.phash q) :
    ∀ p q : Pt K, R.Stored p → R.Stored q → R.phash p = R.phash q := by
  have g : ∀ n : ℤ, Grid ((n : K) / 10 ^ 8) := fun n => ⟨n, rfl⟩
  have stepx : ∀ n m : ℤ, R.phash ⟨(n : K) / 10 ^ 8, (m : K) / 10 ^ 8⟩
      = R.phash ⟨((n + 1 : ℤ) : K) / 10 ^ 8, (m : K) / 10 ^ 8⟩ := by
    intro n m
    apply contract _ _ ((hE.stored_iff _).2 ⟨g _, g _⟩) ((hE.stored_iff _).2 ⟨g _, g _⟩)
    rw [hE.peq_iff]
    have e : (n : K) / 10 ^ 8 - ((n + 1 : ℤ) : K) / 10 ^ 8 = -(1 / 10 ^ 8) := by push_cast; ring
    simp only [e, abs_neg, sub_self, abs_zero]
    refine ⟨?_, by positivity⟩
    rw [abs_of_pos (by positivity)]; norm_num
  have stepy : ∀ n m : ℤ, R.phash ⟨(n : K) / 10 ^ 8, (m : K) / 10 ^ 8⟩
      = R.phash ⟨(n : K) / 10 ^ 8, ((m + 1 : ℤ) : K) / 10 ^ 8⟩ := by
    intro n m
    apply contract _ _ ((hE.stored_iff _).2 ⟨g _, g _⟩) ((hE.stored_iff _).2 ⟨g _, g _⟩)
    rw [hE.peq_iff]
    have e : (m : K) / 10 ^ 8 - ((m + 1 : ℤ) : K) / 10 ^ 8 = -(1 / 10 ^ 8) := by push_cast; ring
    simp only [e, abs_neg, sub_self, abs_zero]
    refine ⟨by positivity, ?_⟩
    rw [abs_of_pos (by positivity)]; norm_num
  have allx : ∀ n m : ℤ, R.phash ⟨(n : K) / 10 ^ 8, (m : K) / 10 ^ 8⟩
      = R.phash ⟨((0 : ℤ) : K) / 10 ^ 8, (m : K) / 10 ^ 8⟩ := by
    intro n m
    induction n using Int.induction_on with
    | zero => rfl
    | succ k ih => rw [← stepx, ih]
    | pred k ih =>
      rw [← ih]
      have := stepx (-(k : ℤ) - 1) m
      rwa [show -(k : ℤ) - 1 + 1 = -(k : ℤ) by ring] at this
  have ally : ∀ m : ℤ, R.phash ⟨((0 : ℤ) : K) / 10 ^ 8, (m : K) / 10 ^ 8⟩
      = R.phash ⟨((0 : ℤ) : K) / 10 ^ 8, ((0 : ℤ) : K) / 10 ^ 8⟩ := by
    intro m
    induction m using Int.induction_on with
    | zero => rfl
    | succ k ih => rw [← stepy, ih]
    | pred k ih =>
      rw [← ih]
      have := stepy 0 (-(k : ℤ) - 1)
      rwa [show -(k : ℤ) - 1 + 1 = -(k : ℤ) by ring] at this
  intro p q hp hq
  obtain ⟨⟨a, ha⟩, ⟨b, hb⟩⟩ := (hE.stored_iff p).1 hp
  obtain ⟨⟨c, hc⟩, ⟨d, hd⟩⟩ := (hE.stored_iff q).1 hq
  obtain ⟨px, py⟩ := p
  obtain ⟨qx, qy⟩ := q
  simp only at ha hb hc hd
  subst ha hb hc hd
  rw [allx a b, ally b, allx c d, ally d]

/-- C04: concrete violation in binary64 for a hash that distinguishes the two coordinates. -/
theorem C04_hash_contract_fails :
    ∃ p q : Pt ℚ, exRt.Stored p ∧ exRt.Stored q ∧ exRt.peq p q = true ∧ exRt.phash p ≠ exRt.phash q :=
  ⟨exRt.mkPt 0 0, exRt.mkPt (1 / 10 ^ 7) 0, by decide +kernel⟩

/-- C04: on a family of Points that are apart, == is identity of coordinates in every correctly rounded
arithmetic; hence it is transitive and the hash respects it. -/
theorem C04_apart {R : Rt K} (hR : R.IsRounding) {S : Set (Pt K)} (hS : Apart R.tol S) {p q : Pt K}
    (hp : p ∈ S) (hq : q ∈ S) :
    (R.peq p q = true ↔ p = q) ∧ (R.peq p q = true → R.phash p = R.phash q) ∧
      (∀ r ∈ S, R.peq p q = true → R.peq q r = true → R.peq p r = true) := by
  have flt : R.fl R.tol = R.tol := hR.idem _
  have big : ∀ d : K, R.tol ≤ |d| → ¬ |R.fl d| < R.tol := by
    intro d hd
    rw [not_lt]
    rcases abs_cases d with ⟨e, h0⟩ | ⟨e, h0⟩
    · have := hR.mono (e ▸ hd : R.tol ≤ d)
      rw [flt] at this
      exact this.trans (le_abs_self _)
    · have := hR.mono (e ▸ hd : R.tol ≤ -d)
      rw [flt, hR.neg] at this
      exact this.trans (neg_le_abs _)
  have key : ∀ a ∈ S, ∀ b ∈ S, (R.peq a b = true ↔ a = b) := by
    intro a ha b hb
    constructor
    · intro h
      by_contra hne
      simp only [Rt.peq, Bool.and_eq_true, Rt.sub] at h
      have h := And.intro (of_decide_eq_true h.1) (of_decide_eq_true h.2)
      rcases hS a ha b hb hne with h' | h'
      · exact big _ h' h.1
      · exact big _ h' h.2
    · rintro rfl
      simp [Rt.peq, Rt.sub, hR.zero, hR.tol_pos]
  refine ⟨key p hp q hq, ?_, ?_⟩
  · intro h; rw [(key p hp q hq).1 h]
  · intro r hr h1 h2
    rw [(key p hp q hq).1 h1]; exact h2

/-- hypotheses are satisfiable with more than one point -/
example : Apart exRt.tol {exRt.mkPt 0 0, exRt.mkPt 1 0, exRt.mkPt 1 2} := by
  intro p hp q hq
  simp only [Set.mem_insert_iff, Set.mem_singleton_iff] at hp hq
  rcases hp with rfl | rfl | rfl <;> rcases hq with rfl | rfl | rfl <;> decide +kernel

/-! ### C05 -/

private theorem run_cached {R : Rt K} (b : Bool) : ∀ (ops : List (PointObj.Op K)) (p : PointObj K),
    p.cache = some b → ∀ a ∈ PointObj.run R p ops, a = .ok b := by
  intro ops
  induction ops with
  | nil => intro p _ a ha; simp [PointObj.run] at ha
  | cons op ops ih =>
    intro p hp a ha
    cases op with
    | set c =>
      simp only [PointObj.run, PointObj.setCoords] at ha
      rcases hn : PointObj.newCoords R c with e | co
      · rw [hn] at ha; exact ih p hp a ha
      · rw [hn] at ha; exact ih { p with coords := co } hp a ha
    | empty => exact ih (PointObj.empty p) hp a ha
    | query =>
      simp only [PointObj.run, PointObj.isvalid, hp, List.mem_cons] at ha
      rcases ha with ha | ha
      · exact ha
      · exact ih p hp a ha

/-- C05: in any history, once a validity query has been answered every later query gives the same
answer, whatever happened to the coordinates in between. -/
theorem C05_validity_frozen (R : Rt K) (ops : List (PointObj.Op K)) (p : PointObj K) (b : Bool)
    (before after : List (Except PyErr Bool))
    (h : PointObj.run R p ops = before ++ .ok b :: after) : ∀ a ∈ after, a = .ok b := by
  induction ops generalizing p before with
  | nil => simp [PointObj.run] at h
  | cons op ops ih =>
    cases op with
    | set c =>
      simp only [PointObj.run] at h
      split at h <;> exact ih _ _ h
    | empty => exact ih _ _ h
    | query =>
      simp only [PointObj.run] at h
      rcases hv : PointObj.isvalid p with e | ⟨b', p'⟩
      · rw [hv] at h
        cases before with
        | nil => simp at h
        | cons x xs => simp only [List.cons_append, List.cons.injEq] at h; exact ih _ _ h.2
      · rw [hv] at h
        cases before with
        | nil =>
          simp only [List.nil_append, List.cons.injEq, Except.ok.injEq] at h
          obtain ⟨rfl, rfl⟩ := h
          have hc : p'.cache = some b' := by
            unfold PointObj.isvalid at hv
            split at hv
            · rename_i c hc
              simp only [Except.ok.injEq, Prod.mk.injEq] at hv
              rw [← hv.2, ← hv.1]; exact hc
            · split at hv
              · simp only [Except.ok.injEq, Prod.mk.injEq] at hv
                rw [← hv.2, ← hv.1]
              · simp at hv
          exact run_cached b' ops p' hc
        | cons x xs => simp only [List.cons_append, List.cons.injEq] at h; exact ih _ _ h.2

/-- C05: the concrete history query, revoke, query: a revoked Point still reports valid, for every valid
fresh Point, and then `distance` raises TypeError instead of the documented assertion. -/
theorem C05_revoked_still_valid (R : Rt K) (c : PtCls) (x y : K) :
    ∃ p, PointObj.new R c (.tup [.num x, .num y]) = .ok p ∧
      PointObj.run R p [.query, .empty, .query] = [.ok true, .ok true] ∧
      ∃ p₁, PointObj.isvalid p = .ok (true, p₁) ∧
        PointObj.distance R (PointObj.empty p₁) (PointObj.empty p₁) = .error .type := by
  refine ⟨⟨.tup [.num (R.coord x), .num (R.coord y)], none, c⟩, rfl, ?_, ?_⟩
  · simp [PointObj.run, PointObj.isvalid, PointObj.validNow, emptyCoords, PointObj.item,
      PointObj.isNumber, PointObj.empty]
  · refine ⟨⟨.tup [.num (R.coord x), .num (R.coord y)], some true, c⟩, ?_, rfl⟩
    simp [PointObj.isvalid, PointObj.validNow, emptyCoords, PointObj.item, PointObj.isNumber]

/-! ### C06 -/

/-- C06: addition is commutative and subtraction antisymmetric bit for bit (correctly rounded
arithmetic). -/
theorem C06_comm {R : Rt K} (hR : R.IsRounding) (p q : Pt K) :
    R.ptAdd p q = R.ptAdd q p ∧ (R.ptSub p q).x = -(R.ptSub q p).x ∧
      (R.ptSub p q).y = -(R.ptSub q p).y := by
  refine ⟨?_, ?_, ?_⟩
  · simp only [Rt.ptAdd, Rt.add, add_comm]
  · simp only [Rt.ptSub, Rt.mkPt]; rw [hR.sub_neg, hR.coord_neg]
  · simp only [Rt.ptSub, Rt.mkPt]; rw [hR.sub_neg, hR.coord_neg]

/-- C06: p - p is the origin (correctly rounded arithmetic). -/
theorem C06_sub_self {R : Rt K} (hR : R.IsRounding) (p : Pt K) : R.ptSub p p = ⟨0, 0⟩ := by
  have : R.coord 0 = 0 := by
    have : rhe8 (0 : K) = 0 := (grid_zero).rhe8
    simp [Rt.coord, Rt.round8, hR.zero, this]
  simp [Rt.ptSub, Rt.mkPt, Rt.sub, hR.zero, this]

/-- C06, exact arithmetic on 8-decimal coordinates: sums and differences are the coordinate-wise ones
and subtraction undoes addition. -/
theorem C06_exact {R : Rt K} (hE : R.IsExact) {p q : Pt K} (hp : R.Stored p) (hq : R.Stored q) :
    R.ptAdd p q = ⟨p.x + q.x, p.y + q.y⟩ ∧ R.ptSub p q = ⟨p.x - q.x, p.y - q.y⟩ ∧
      R.ptSub (R.ptAdd p q) q = p := by
  obtain ⟨h1, h2⟩ := (hE.stored_iff p).1 hp
  obtain ⟨h3, h4⟩ := (hE.stored_iff q).1 hq
  have ha : R.ptAdd p q = ⟨p.x + q.x, p.y + q.y⟩ := by
    unfold Rt.ptAdd; rw [hE.add', hE.add', hE.mkPt_grid (h1.add h3) (h2.add h4)]
  refine ⟨ha, ?_, ?_⟩
  · unfold Rt.ptSub; rw [hE.sub', hE.sub', hE.mkPt_grid (h1.sub h3) (h2.sub h4)]
  · rw [ha]; unfold Rt.ptSub
    rw [hE.sub', hE.sub']
    simp only [add_sub_cancel_right]
    exact hE.mkPt_grid h1 h2

/-- C06, object level: for Point (or IntexPoint) objects with numbers as coordinates `p + q` and `p - q` are new plain
Points whose coordinates are the rounded sums and differences, component by component. -/
theorem C06_object {R : Rt K} {p q : PointObj K} {px py qx qy : K} (hp : LooksLike p px py)
    (hq : LooksLike q qx qy) :
    PointObj.add R p q = .ok (.pt ⟨.tup [.num (R.ptAdd ⟨px, py⟩ ⟨qx, qy⟩).x, .num (R.ptAdd ⟨px, py⟩ ⟨qx, qy⟩).y], none, .point⟩) ∧
    PointObj.sub R p q = .ok (.pt ⟨.tup [.num (R.ptSub ⟨px, py⟩ ⟨qx, qy⟩).x, .num (R.ptSub ⟨px, py⟩ ⟨qx, qy⟩).y], none, .point⟩) := by
  have hv := looksLike_isvalid hp
  obtain ⟨hx, hy, -⟩ := hp
  obtain ⟨gx, gy, -⟩ := hq
  have hx' : PointObj.number { p with cache := some true } 0 = .ok px := hx
  have hy' : PointObj.number { p with cache := some true } 1 = .ok py := hy
  constructor
  · unfold PointObj.add
    simp [hv, hx', hy', gx, gy, bind, Except.bind, pure, Except.pure, PointObj.new, PointObj.newCoords,
      PointObj.convAll, PointObj.conv, Rt.ptAdd, Rt.mkPt]
  · unfold PointObj.sub
    simp [hv, hx', hy', gx, gy, bind, Except.bind, pure, Except.pure, PointObj.new, PointObj.newCoords,
      PointObj.convAll, PointObj.conv, Rt.ptSub, Rt.mkPt]

/-- instance: (5, 7) - (2, 1) as objects -/
example : PointObj.sub exRt ⟨.tup [.num 5, .num 7], none, .point⟩ ⟨.tup [.num 2, .num 1], none, .point⟩ =
    .ok (.pt ⟨.tup [.num 3, .num 6], none, .point⟩) := by decide +kernel

/-! ### C07 -/

/-- C07: symmetric, non-negative, zero on identical coordinates (correctly rounded arithmetic). -/
theorem C07_float {R : Rt K} (hR : R.IsRounding) (p q : Pt K) :
    R.distance p q = R.distance q p ∧ 0 ≤ R.distance p q ∧ R.distance p p = 0 := by
  refine ⟨?_, hR.sqrt_nonneg _, ?_⟩
  · unfold Rt.distance
    rw [hR.sub_neg p.x, hR.sub_neg p.y, hR.sq_neg, hR.sq_neg]
  · simp [Rt.distance, Rt.sub, Rt.add, hR.zero, hR.sq_zero, hR.sqrt_zero]

/-- C07: the computed distance is the Euclidean one (exact arithmetic). -/
theorem C07_euclid {R : Rt K} (hE : R.IsExact) (p q : Pt K) :
    0 ≤ R.distance p q ∧ R.distance p q ^ 2 = (p.x - q.x) ^ 2 + (p.y - q.y) ^ 2 := by
  refine ⟨hE.sqrt_nonneg _, ?_⟩
  rw [sq, hE.distance_sq]; ring

/-- C07: zero exactly between Points of identical coordinates (exact arithmetic). -/
theorem C07_zero_iff {R : Rt K} (hE : R.IsExact) (p q : Pt K) : R.distance p q = 0 ↔ p = q := by
  constructor
  · intro h
    have h2 := hE.distance_sq p q
    rw [h] at h2
    have a := mul_self_nonneg (p.x - q.x)
    have b := mul_self_nonneg (p.y - q.y)
    have ha : p.x - q.x = 0 := mul_self_eq_zero.1 (by linarith)
    have hb : p.y - q.y = 0 := mul_self_eq_zero.1 (by linarith)
    cases p; cases q; simp at *; constructor <;> linarith
  · rintro rfl; exact (C07_float hE.isRounding p p).2.2

/-- C07: triangle inequality (exact arithmetic). -/
theorem C07_triangle {R : Rt K} (hE : R.IsExact) (p q r : Pt K) :
    R.distance p r ≤ R.distance p q + R.distance q r := by
  have n1 : 0 ≤ R.distance p q := hE.sqrt_nonneg _
  have n2 : 0 ≤ R.distance q r := hE.sqrt_nonneg _
  have n3 : 0 ≤ R.distance p r := hE.sqrt_nonneg _
  have e1 := hE.distance_sq p q
  have e2 := hE.distance_sq q r
  have e3 := hE.distance_sq p r
  set a := p.x - q.x
  set b := p.y - q.y
  set c := q.x - r.x
  set d := q.y - r.y
  have hx : p.x - r.x = a + c := by ring
  have hy : p.y - r.y = b + d := by ring
  rw [hx, hy] at e3
  -- Cauchy-Schwarz
  have cs : a * c + b * d ≤ R.distance p q * R.distance q r := by
    by_contra h
    push Not at h
    have h0 : 0 ≤ R.distance p q * R.distance q r := mul_nonneg n1 n2
    have : (R.distance p q * R.distance q r) * (R.distance p q * R.distance q r)
        < (a * c + b * d) * (a * c + b * d) := mul_self_lt_mul_self h0 h
    have e : (R.distance p q * R.distance q r) * (R.distance p q * R.distance q r)
        = (a * a + b * b) * (c * c + d * d) := by rw [← e1, ← e2]; ring
    nlinarith [mul_self_nonneg (a * d - b * c)]
  by_contra h
  push Not at h
  have : (R.distance p q + R.distance q r) * (R.distance p q + R.distance q r)
      < R.distance p r * R.distance p r := mul_self_lt_mul_self (by linarith) h
  nlinarith

/-- C07: invariant under translation of both Points by an 8-decimal offset (exact arithmetic). -/
theorem C07_translate {R : Rt K} (hE : R.IsExact) {p q t : Pt K} (hp : R.Stored p) (hq : R.Stored q)
    (ht : R.Stored t) : R.distance (R.ptAdd p t) (R.ptAdd q t) = R.distance p q := by
  rw [(C06_exact hE hp ht).1, (C06_exact hE hq ht).1, hE.distance', hE.distance']
  simp

/-- exact arithmetic with non-trivial stored points exists: the reals -/
example (h : ℝ → ℝ → Int) : (Rt.real h).distance ⟨0, 0⟩ ⟨3, 4⟩ = 5 := by
  rw [(Rt.real_isExact h).distance']
  simp only [Rt.real]
  norm_num

/-! ### C08 -/

/-- An entry that is not a number and does not parse as one because it is not text. -/
def NonNumber (v : PyVal K) : Prop := v = .none ∨ v = .other

private theorem convAll_type {R : Rt K} : ∀ l : List (PyVal K), (∀ v ∈ l, v ≠ .text none) →
    (∃ v ∈ l, NonNumber v) → PointObj.convAll R l = .error .type := by
  intro l
  induction l with
  | nil => simp
  | cons a l ih =>
    intro h1 h2
    cases a with
    | none => rfl
    | other => rfl
    | num x =>
      have : ∃ v ∈ l, NonNumber v := by
        obtain ⟨v, hv, hn⟩ := h2
        rcases List.mem_cons.1 hv with rfl | hv
        · rcases hn with h | h <;> simp at h
        · exact ⟨v, hv, hn⟩
      simp [PointObj.convAll, PointObj.conv, ih (fun v hv => h1 v (List.mem_cons_of_mem _ hv)) this]
    | text t =>
      cases t with
      | none => exact absurd rfl (h1 _ List.mem_cons_self)
      | some x =>
        have : ∃ v ∈ l, NonNumber v := by
          obtain ⟨v, hv, hn⟩ := h2
          rcases List.mem_cons.1 hv with rfl | hv
          · rcases hn with h | h <;> simp at h
          · exact ⟨v, hv, hn⟩
        simp [PointObj.convAll, PointObj.conv, ih (fun v hv => h1 v (List.mem_cons_of_mem _ hv)) this]

/-- C08: construction never raises TypeError. -/
theorem C08_no_type_error (R : Rt K) (c : PtCls) (a : PyCoords K) :
    PointObj.new R c a ≠ .error .type := by
  unfold PointObj.new PointObj.newCoords
  cases a with
  | scalar => simp
  | tup l =>
    rcases h : PointObj.convAll R l with e | l'
    · cases e <;> simp [h]
    · simp [h]
  | lst l =>
    rcases h : PointObj.convAll R l with e | l'
    · cases e <;> simp [h]
    · simp [h]

/-- C08: text that does not parse, preceded by entries that convert, raises ValueError. -/
theorem C08_bad_text (R : Rt K) (c : PtCls) (pre post : List (PyVal K))
    (hpre : ∀ v ∈ pre, ∃ w, PointObj.conv R v = .ok w) :
    PointObj.new R c (.tup (pre ++ .text none :: post)) = .error .value := by
  have : PointObj.convAll R (pre ++ .text none :: post) = .error .value := by
    induction pre with
    | nil => rfl
    | cons a l ih =>
      obtain ⟨w, hw⟩ := hpre a List.mem_cons_self
      simp [PointObj.convAll, hw, ih (fun v hv => hpre v (List.mem_cons_of_mem _ hv))]
  simp [PointObj.new, PointObj.newCoords, this]

/-- C08: if one of the first two entries is not a number the Point is created but is invalid. -/
theorem C08_nonnumber_invalid (R : Rt K) (c : PtCls) (u v : PyVal K) (rest : List (PyVal K))
    (ht : ∀ w ∈ u :: v :: rest, w ≠ .text none) (h : NonNumber u ∨ NonNumber v) :
    ∃ p, PointObj.new R c (.tup (u :: v :: rest)) = .ok p ∧ ∃ p₁, PointObj.isvalid p = .ok (false, p₁) := by
  have hc : PointObj.convAll R (u :: v :: rest) = .error .type := by
    apply convAll_type _ ht
    rcases h with h | h
    · exact ⟨u, by simp, h⟩
    · exact ⟨v, by simp, h⟩
  refine ⟨⟨.tup (u :: v :: rest), none, c⟩, by simp [PointObj.new, PointObj.newCoords, hc], ?_⟩
  have hv : PointObj.validNow (.tup (u :: v :: rest)) = .ok false := by
    unfold PointObj.validNow
    split_ifs with h0
    · rfl
    · rcases h with h | h
      · rcases h with rfl | rfl <;> simp [PointObj.item, PointObj.isNumber]
      · rcases h with rfl | rfl <;> cases u <;> simp [PointObj.item, PointObj.isNumber]
  exact ⟨_, by simp [PointObj.isvalid, hv]; rfl⟩

/-- C08: a tuple with at least two numbers in front is accepted as valid whatever follows, and if a
non-number follows, the coordinates are kept unrounded: validity does not imply rounded
coordinates. -/
theorem C08_extra_entries (R : Rt K) (c : PtCls) (x y : K) (rest : List (PyVal K))
    (ht : ∀ w ∈ rest, w ≠ .text none) :
    ∃ p, PointObj.new R c (.tup (.num x :: .num y :: rest)) = .ok p ∧
      (∃ p₁, PointObj.isvalid p = .ok (true, p₁)) ∧
      ((∃ w ∈ rest, NonNumber w) → PointObj.number p 0 = .ok x ∧ PointObj.number p 1 = .ok y) ∧
      ((¬ ∃ w ∈ rest, NonNumber w) →
        PointObj.number p 0 = .ok (R.coord x) ∧ PointObj.number p 1 = .ok (R.coord y)) := by
  by_cases h : ∃ w ∈ rest, NonNumber w
  · have hc : PointObj.convAll R (.num x :: .num y :: rest) = .error .type := by
      apply convAll_type
      · intro w hw
        simp only [List.mem_cons] at hw
        rcases hw with rfl | rfl | hw
        · simp
        · simp
        · exact ht w hw
      · obtain ⟨w, hw, hn⟩ := h
        exact ⟨w, by simp [hw], hn⟩
    refine ⟨⟨.tup (.num x :: .num y :: rest), none, c⟩,
      by simp [PointObj.new, PointObj.newCoords, hc], ?_, ?_, fun h' => absurd h h'⟩
    · refine ⟨_, by
        simp [PointObj.isvalid, PointObj.validNow, emptyCoords, PointObj.item, PointObj.isNumber]; rfl⟩
    · intro _; exact ⟨rfl, rfl⟩
  · have hc : ∃ l', PointObj.convAll R rest = .ok l' := by
      clear c
      induction rest with
      | nil => exact ⟨[], rfl⟩
      | cons a l ih =>
        obtain ⟨l', hl⟩ := ih (fun w hw => ht w (List.mem_cons_of_mem _ hw))
          (fun ⟨w, hw, hn⟩ => h ⟨w, List.mem_cons_of_mem _ hw, hn⟩)
        cases a with
        | none => exact absurd ⟨_, List.mem_cons_self, Or.inl rfl⟩ h
        | other => exact absurd ⟨_, List.mem_cons_self, Or.inr rfl⟩ h
        | num z => exact ⟨.num (R.coord z) :: l', by simp [PointObj.convAll, PointObj.conv, hl]⟩
        | text t =>
          cases t with
          | none => exact absurd rfl (ht _ List.mem_cons_self)
          | some z => exact ⟨.num (R.coord z) :: l', by simp [PointObj.convAll, PointObj.conv, hl]⟩
    obtain ⟨l', hl⟩ := hc
    refine ⟨⟨.tup (.num (R.coord x) :: .num (R.coord y) :: l'), none, c⟩,
      by simp [PointObj.new, PointObj.newCoords, PointObj.convAll, PointObj.conv, hl], ?_,
      fun h' => absurd h' h, fun _ => ⟨rfl, rfl⟩⟩
    exact ⟨_, by
        simp [PointObj.isvalid, PointObj.validNow, emptyCoords, PointObj.item, PointObj.isNumber]; rfl⟩

/-- C08: `+` and `-` on an invalid left operand return a message, never a Point, whatever the right
operand. -/
theorem C08_sum_invalid (R : Rt K) {p p₁ : PointObj K} (h : PointObj.isvalid p = .ok (false, p₁))
    (q : PointObj K) : PointObj.add R p q = .ok .msg ∧ PointObj.sub R p q = .ok .msg := by
  constructor
  · simp [PointObj.add, h, bind, Except.bind, pure, Except.pure]
  · simp [PointObj.sub, h, bind, Except.bind, pure, Except.pure]

/-- C08: `distance` refuses an invalid Point on either side with AssertionError. -/
theorem C08_distance_invalid (R : Rt K) {p p₁ : PointObj K} (h : PointObj.isvalid p = .ok (false, p₁))
    (q : PointObj K) : PointObj.distance R p q = .error .assertion ∧
      ((∃ b q₁, PointObj.isvalid q = .ok (b, q₁)) → PointObj.distance R q p = .error .assertion) := by
  constructor
  · simp [PointObj.distance, h, bind, Except.bind, throw, throwThe, MonadExceptOf.throw]
  · rintro ⟨b, q₁, hq⟩
    cases b <;>
    simp [PointObj.distance, hq, h, bind, Except.bind, throw, throwThe, MonadExceptOf.throw]

/-- C08: too short tuples raise IndexError when asked for validity. -/
theorem C08_short_tuple (R : Rt K) (c : PtCls) (x : K) :
    (∃ p, PointObj.new R c (.tup []) = .ok p ∧ PointObj.isvalid p = .error .index) ∧
    (∃ p, PointObj.new R c (.tup [.num x]) = .ok p ∧ PointObj.isvalid p = .error .index) ∧
    (∃ p, PointObj.new R c .scalar = .ok p ∧ PointObj.isvalid p = .error .type) := by
  refine ⟨⟨⟨.tup [], none, c⟩, rfl, ?_⟩, ⟨⟨.tup [.num (R.coord x)], none, c⟩, rfl, ?_⟩,
    ⟨⟨.scalar, none, c⟩, rfl, ?_⟩⟩ <;>
  simp [PointObj.isvalid, PointObj.validNow, emptyCoords, PointObj.item, PointObj.isNumber]

end Srep
