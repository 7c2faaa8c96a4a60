import Verif.Lemmas.FlipGeom
import Mathlib.Data.Finset.Max
import Mathlib.Tactic.LinearCombination
import Mathlib.Tactic.FieldSimp

/-! Convex cycles of directed edges in the plane, seen from a point outside. -/

set_option linter.unusedSectionVars false

namespace Srep
namespace Cyc
variable {K : Type} [Field K] [LinearOrder K] [IsStrictOrderedRing K]

/-- A walk around a point cannot stay in an open half-plane bounded by a line through it. -/
theorem turn (P : ℤ → Pt K) (E : Finset (ℤ × ℤ)) (hne : E.Nonempty) (hn : ∀ e ∈ E, ∃ f ∈ E, f.1 = e.2) (X : Pt K)
    (hX : ∀ e ∈ E, 0 < det3 (P e.1) (P e.2) X) (a b : K) :
    ∃ e ∈ E, 0 ≤ a * ((P e.1).x - X.x) + b * ((P e.1).y - X.y) := by
  by_contra hcon
  push Not at hcon
  set φ : ℤ → K := fun v => a * ((P v).x - X.x) + b * ((P v).y - X.y) with hφ
  set ψ : ℤ → K := fun v => -b * ((P v).x - X.x) + a * ((P v).y - X.y) with hψ
  have hneg : ∀ e ∈ E, φ e.1 < 0 := hcon
  have hneg2 : ∀ e ∈ E, φ e.2 < 0 := by
    intro e he
    obtain ⟨f, hf, h⟩ := hn e he
    rw [← h]; exact hneg f hf
  have hu : 0 < a ^ 2 + b ^ 2 := by
    obtain ⟨e, he⟩ := hne
    have := hneg e he
    by_contra h
    have ha : a = 0 := by nlinarith [sq_nonneg a, sq_nonneg b]
    have hb : b = 0 := by nlinarith [sq_nonneg a, sq_nonneg b]
    simp only [hφ, ha, hb] at this
    simp at this
  have hstep : ∀ e ∈ E, ψ e.1 / φ e.1 < ψ e.2 / φ e.2 := by
    intro e he
    have h1 := hneg e he
    have h2 := hneg2 e he
    have hd := mul_pos hu (hX e he)
    have hid : (a ^ 2 + b ^ 2) * det3 (P e.1) (P e.2) X = φ e.1 * ψ e.2 - ψ e.1 * φ e.2 := by
      simp only [hφ, hψ]; unfold det3; ring
    rw [hid] at hd
    rw [← sub_pos]
    have : ψ e.2 / φ e.2 - ψ e.1 / φ e.1 = (φ e.1 * ψ e.2 - ψ e.1 * φ e.2) / (φ e.1 * φ e.2) := by
      field_simp [h1.ne, h2.ne]
    rw [this]
    exact div_pos hd (mul_pos_of_neg_of_neg h1 h2)
  obtain ⟨e, he, hmax⟩ := Finset.exists_max_image E (fun e => ψ e.1 / φ e.1) hne
  obtain ⟨f, hf, h⟩ := hn e he
  have h1 := hmax f hf
  have h2 := hstep e he
  rw [h] at h1
  exact absurd h1 (not_le.2 h2)

/-- The same for a walk backwards. -/
theorem turn' (P : ℤ → Pt K) (E : Finset (ℤ × ℤ)) (hne : E.Nonempty) (hn : ∀ e ∈ E, ∃ f ∈ E, f.2 = e.1) (X : Pt K)
    (hX : ∀ e ∈ E, 0 < det3 (P e.1) (P e.2) X) (a b : K) :
    ∃ e ∈ E, 0 ≤ a * ((P e.2).x - X.x) + b * ((P e.2).y - X.y) := by
  set Q : ℤ → Pt K := fun v => ⟨(P v).x, -(P v).y⟩ with hQ
  obtain ⟨e, he, h⟩ := turn Q (E.image Prod.swap) (hne.image _) (by
    intro e he
    obtain ⟨f, hf, rfl⟩ := Finset.mem_image.1 he
    obtain ⟨g, hg, h⟩ := hn f hf
    exact ⟨g.swap, Finset.mem_image_of_mem _ hg, h⟩) ⟨X.x, -X.y⟩ (by
    intro e he
    obtain ⟨f, hf, rfl⟩ := Finset.mem_image.1 he
    have := hX f hf
    have e : det3 (Q f.swap.1) (Q f.swap.2) ⟨X.x, -X.y⟩ = det3 (P f.1) (P f.2) X := by
      simp only [hQ, Prod.fst_swap, Prod.snd_swap]; unfold det3; ring
    rw [e]; exact this) a (-b)
  obtain ⟨f, hf, rfl⟩ := Finset.mem_image.1 he
  refine ⟨f, hf, ?_⟩
  simp only [hQ, Prod.fst_swap] at h
  linarith

/-- No closed chain of edges has all of a point `C` to the left and a point `Q` to the right. -/
theorem no_cycle (P : ℤ → Pt K) (E : Finset (ℤ × ℤ)) (hne : E.Nonempty)
    (hn : (∀ e ∈ E, ∃ f ∈ E, f.1 = e.2) ∨ ∀ e ∈ E, ∃ f ∈ E, f.2 = e.1) (C Q : Pt K)
    (hC : ∀ e ∈ E, 0 < det3 (P e.1) (P e.2) C) (hQ : ∀ e ∈ E, det3 (P e.1) (P e.2) Q < 0) : False := by
  set a := C.x - Q.x with ha
  set b := C.y - Q.y with hb
  have hu : 0 < a ^ 2 + b ^ 2 := by
    obtain ⟨e, he⟩ := hne
    have h1 := hC e he
    have h2 := hQ e he
    by_contra h
    have ha0 : a = 0 := by nlinarith [sq_nonneg a, sq_nonneg b]
    have hb0 : b = 0 := by nlinarith [sq_nonneg a, sq_nonneg b]
    have : C = Q := by
      cases C; cases Q
      simp only [Pt.mk.injEq]
      dsimp only at ha hb
      constructor <;> linarith
    rw [this] at h1
    linarith
  have bound : ∀ g : ℤ × ℤ → K, ∃ s : K, 0 ≤ s ∧ ∀ e ∈ E, g e < s * (a ^ 2 + b ^ 2) := by
    intro g
    obtain ⟨m, hm, hmax⟩ := Finset.exists_max_image E g hne
    refine ⟨(|g m| + 1) / (a ^ 2 + b ^ 2), by positivity, ?_⟩
    intro e he
    rw [div_mul_cancel₀ _ hu.ne']
    have := hmax e he
    have := le_abs_self (g m)
    linarith
  have far : ∀ s : K, 0 ≤ s → ∀ e ∈ E, 0 < det3 (P e.1) (P e.2) (⟨C.x + s * a, C.y + s * b⟩ : Pt K) := by
    intro s hs e he
    have h1 := hC e he
    have h2 := hQ e he
    have : det3 (P e.1) (P e.2) (⟨C.x + s * a, C.y + s * b⟩ : Pt K)
        = (1 + s) * det3 (P e.1) (P e.2) C - s * det3 (P e.1) (P e.2) Q := by
      simp only [ha, hb]; unfold det3; ring
    rw [this]
    nlinarith
  rcases hn with hn | hn
  · obtain ⟨s, hs, hb'⟩ := bound fun e => a * ((P e.1).x - C.x) + b * ((P e.1).y - C.y)
    obtain ⟨e, he, h⟩ := turn P E hne hn _ (far s hs) a b
    have := hb' e he
    dsimp only at h this
    linarith
  · obtain ⟨s, hs, hb'⟩ := bound fun e => a * ((P e.2).x - C.x) + b * ((P e.2).y - C.y)
    obtain ⟨e, he, h⟩ := turn' P E hne hn _ (far s hs) a b
    have := hb' e he
    dsimp only at h this
    linarith

/-- The line from a vertex `t` of a convex polygon to an outer point `Q` touches it there if `Q` sees the edge after it
but not the edge before it. -/
theorem tangent {a t b Q X : Pt K} (h1 : 0 < det3 a t Q) (h2 : det3 t b Q < 0) (h3 : 0 < det3 a t b)
    (x1 : 0 ≤ det3 a t X) (x2 : 0 ≤ det3 t b X) (hx : 0 < det3 a t X ∨ 0 < det3 t b X) : 0 < det3 t Q X := by
  have id : det3 a t b * det3 t Q X = det3 t b X * det3 a t Q - det3 a t X * det3 t b Q := by unfold det3; ring
  have : 0 < det3 t b X * det3 a t Q - det3 a t X * det3 t b Q := by
    rcases hx with hx | hx
    · nlinarith [mul_nonneg x2 h1.le, mul_pos hx (neg_pos.2 h2)]
    · nlinarith [mul_pos hx h1, mul_nonneg x1 (neg_pos.2 h2).le]
  rw [← id] at this
  exact (mul_pos_iff_of_pos_left h3).1 this

theorem tangent' {a t b Q X : Pt K} (h1 : det3 a t Q < 0) (h2 : 0 < det3 t b Q) (h3 : 0 < det3 a t b)
    (x1 : 0 ≤ det3 a t X) (x2 : 0 ≤ det3 t b X) (hx : 0 < det3 a t X ∨ 0 < det3 t b X) : 0 < det3 Q t X := by
  have id : det3 a t b * det3 Q t X = det3 a t X * det3 t b Q - det3 t b X * det3 a t Q := by unfold det3; ring
  have : 0 < det3 a t X * det3 t b Q - det3 t b X * det3 a t Q := by
    rcases hx with hx | hx
    · nlinarith [mul_nonneg x2 (neg_pos.2 h1).le, mul_pos hx h2]
    · nlinarith [mul_pos hx (neg_pos.2 h1), mul_nonneg x1 h2.le]
  rw [← id] at this
  exact (mul_pos_iff_of_pos_left h3).1 this

/-- The directed edges `E` are the sides of the convex hull of the points with numbers `A`, walked counter-clockwise;
all points are corners of it or strictly inside. -/
structure Hulled (P : ℤ → Pt K) (E : List (ℤ × ℤ)) (A : ℤ → Prop) : Prop where
  ne : ∀ e ∈ E, e.1 ≠ e.2
  starts : ∀ e ∈ E, ∀ f ∈ E, e.1 = f.1 → e = f
  ends : ∀ e ∈ E, ∀ f ∈ E, e.2 = f.2 → e = f
  mem : ∀ e ∈ E, A e.1 ∧ A e.2
  conv : ∀ e ∈ E, ∀ v, A v → v ≠ e.1 → v ≠ e.2 → 0 < det3 (P e.1) (P e.2) (P v)
  next : ∀ e ∈ E, ∃ f ∈ E, f.1 = e.2
  prev : ∀ e ∈ E, ∃ f ∈ E, f.2 = e.1
  some : E ≠ []
  three : ∃ x y z, A x ∧ A y ∧ A z ∧ x ≠ y ∧ y ≠ z ∧ x ≠ z

variable {P : ℤ → Pt K} {E : List (ℤ × ℤ)} {A : ℤ → Prop}

theorem det_self1 (a b : Pt K) : det3 a b a = 0 := by unfold det3; ring
theorem det_self2 (a b : Pt K) : det3 a b b = 0 := by unfold det3; ring
theorem det_self0 (a b : Pt K) : det3 a a b = 0 := by unfold det3; ring

theorem Hulled.nonneg (H : Hulled P E A) {e : ℤ × ℤ} (he : e ∈ E) {v : ℤ} (hv : A v) :
    0 ≤ det3 (P e.1) (P e.2) (P v) := by
  by_cases h1 : v = e.1
  · rw [h1, det_self1]
  by_cases h2 : v = e.2
  · rw [h2, det_self2]
  exact (H.conv e he v hv h1 h2).le

/-- a point strictly inside -/
theorem Hulled.centre (H : Hulled P E A) : ∃ C : Pt K, ∀ e ∈ E, 0 < det3 (P e.1) (P e.2) C := by
  obtain ⟨x, y, z, hx, hy, hz, hxy, hyz, hxz⟩ := H.three
  refine ⟨⟨((P x).x + (P y).x + (P z).x) / 3, ((P x).y + (P y).y + (P z).y) / 3⟩, ?_⟩
  intro e he
  have id : det3 (P e.1) (P e.2) (⟨((P x).x + (P y).x + (P z).x) / 3, ((P x).y + (P y).y + (P z).y) / 3⟩ : Pt K)
      = (det3 (P e.1) (P e.2) (P x) + det3 (P e.1) (P e.2) (P y) + det3 (P e.1) (P e.2) (P z)) / 3 := by
    unfold det3; field_simp; ring
  rw [id]
  have h1 := H.nonneg he hx
  have h2 := H.nonneg he hy
  have h3 := H.nonneg he hz
  have hne := H.ne e he
  have : 0 < det3 (P e.1) (P e.2) (P x) ∨ 0 < det3 (P e.1) (P e.2) (P y) ∨ 0 < det3 (P e.1) (P e.2) (P z) := by
    by_cases ax : x = e.1 ∨ x = e.2
    · by_cases ay : y = e.1 ∨ y = e.2
      · right; right
        apply H.conv e he z hz <;> · rintro rfl; omega
      · push Not at ay
        exact Or.inr (Or.inl (H.conv e he y hy ay.1 ay.2))
    · push Not at ax
      exact Or.inl (H.conv e he x hx ax.1 ax.2)
  rcases this with h | h | h <;> linarith

theorem Hulled.once (H : Hulled P E A) {e : ℤ × ℤ} (he : e ∈ E) : (e.2, e.1) ∉ E := by
  intro h
  obtain ⟨C, hC⟩ := H.centre
  have h1 := hC e he
  have h2 := hC _ h
  have := det3_swap' (P e.1) (P e.2) C
  dsimp only at h2
  linarith

/-- A point not farther from some centre than the point `Q` exists outside: if all corners are at most as far from `G`
as `Q`, and `Q` is none of them, then `Q` sees an edge or is on its line. -/
theorem Hulled.outside (H : Hulled P E A) (G Q : Pt K)
    (hfar : ∀ v, A v → ((P v).x - G.x) ^ 2 + ((P v).y - G.y) ^ 2 ≤ (Q.x - G.x) ^ 2 + (Q.y - G.y) ^ 2)
    (hd : ∀ v, A v → P v ≠ Q) : ∃ e ∈ E, det3 (P e.1) (P e.2) Q ≤ 0 := by
  by_contra hcon
  push Not at hcon
  obtain ⟨e, he, h⟩ := turn P E.toFinset (List.toFinset_nonempty_iff _ |>.2 H.some)
    (by simpa using H.next) Q (by simpa using hcon) (Q.x - G.x) (Q.y - G.y)
  rw [List.mem_toFinset] at he
  have hA := (H.mem e he).1
  have h1 := hfar _ hA
  have h2 := hd _ hA
  have : 0 < ((P e.1).x - Q.x) ^ 2 + ((P e.1).y - Q.y) ^ 2 := by
    by_contra hc
    apply h2
    have ha0 : (P e.1).x - Q.x = 0 := by
      have := sq_nonneg ((P e.1).x - Q.x); have := sq_nonneg ((P e.1).y - Q.y)
      exact pow_eq_zero_iff (two_ne_zero) |>.1 (by linarith)
    have hb0 : (P e.1).y - Q.y = 0 := by
      have := sq_nonneg ((P e.1).x - Q.x); have := sq_nonneg ((P e.1).y - Q.y)
      exact pow_eq_zero_iff (two_ne_zero) |>.1 (by linarith)
    have e1 : (P e.1).x = Q.x := by linarith
    have e2 : (P e.1).y = Q.y := by linarith
    rw [show P e.1 = ⟨(P e.1).x, (P e.1).y⟩ from rfl, e1, e2]
  nlinarith

/-- What is known about the first and the last edge seen. -/
structure Seen (P : ℤ → Pt K) (E : List (ℤ × ℤ)) (A : ℤ → Prop) (Q : Pt K) (f g a b : ℤ × ℤ) : Prop where
  hf : f ∈ E
  hg : g ∈ E
  ha : a ∈ E
  hb : b ∈ E
  fQ : det3 (P f.1) (P f.2) Q < 0
  gQ : det3 (P g.1) (P g.2) Q < 0
  aQ : 0 < det3 (P a.1) (P a.2) Q
  bQ : 0 < det3 (P b.1) (P b.2) Q
  af : a.2 = f.1
  gb : b.1 = g.2
  first : ∀ k ∈ E, det3 (P k.1) (P k.2) Q < 0 → k ≠ f → ∃ j ∈ E, det3 (P j.1) (P j.2) Q < 0 ∧ j.2 = k.1
  last : ∀ k ∈ E, det3 (P k.1) (P k.2) Q < 0 → k ≠ g → ∃ j ∈ E, det3 (P j.1) (P j.2) Q < 0 ∧ j.1 = k.2

/-- tangent at the start of the first visible edge -/
theorem Hulled.tan_first (H : Hulled P E A) {Q : Pt K} {f a : ℤ × ℤ} (hf : f ∈ E) (ha : a ∈ E)
    (fQ : det3 (P f.1) (P f.2) Q < 0) (aQ : 0 < det3 (P a.1) (P a.2) Q) (af : a.2 = f.1) :
    (∀ v, A v → v ≠ f.1 → 0 < det3 (P f.1) Q (P v)) ∧
    ∀ X, (∀ e ∈ E, 0 < det3 (P e.1) (P e.2) X) → 0 < det3 (P f.1) Q X := by
  have hne : a.1 ≠ f.2 := by
    intro h
    exact H.once hf (by rw [← h, ← af]; exact ha)
  have hne2 : f.2 ≠ a.2 := by rw [af]; exact (H.ne f hf).symm
  have h3 : 0 < det3 (P a.1) (P f.1) (P f.2) := by
    have := H.conv a ha f.2 (H.mem f hf).2 hne.symm hne2
    rwa [af] at this
  rw [af] at aQ
  refine ⟨?_, ?_⟩
  · intro v hv hvf
    have x1 := H.nonneg ha hv
    have x2 := H.nonneg hf hv
    rw [af] at x1
    refine tangent aQ fQ h3 x1 x2 ?_
    by_cases h : v = a.1
    · right; exact H.conv f hf v hv hvf (by rw [h]; exact hne)
    · left
      have := H.conv a ha v hv h (by rw [af]; exact hvf)
      rwa [af] at this
  · intro X hX
    have x1 := hX a ha
    rw [af] at x1
    exact tangent aQ fQ h3 x1.le (hX f hf).le (Or.inl x1)

/-- tangent at the end of the last visible edge -/
theorem Hulled.tan_last (H : Hulled P E A) {Q : Pt K} {g b : ℤ × ℤ} (hg : g ∈ E) (hb : b ∈ E)
    (gQ : det3 (P g.1) (P g.2) Q < 0) (bQ : 0 < det3 (P b.1) (P b.2) Q) (gb : b.1 = g.2) :
    (∀ v, A v → v ≠ g.2 → 0 < det3 Q (P g.2) (P v)) ∧
    ∀ X, (∀ e ∈ E, 0 < det3 (P e.1) (P e.2) X) → 0 < det3 Q (P g.2) X := by
  have hne : b.2 ≠ g.1 := by
    intro h
    exact H.once hg (by rw [← h, ← gb]; exact hb)
  have h3 : 0 < det3 (P g.1) (P g.2) (P b.2) :=
    H.conv g hg b.2 (H.mem b hb).2 hne (by rw [← gb]; exact (H.ne b hb).symm)
  rw [gb] at bQ
  refine ⟨?_, ?_⟩
  · intro v hv hvf
    have x1 := H.nonneg hg hv
    have x2 := H.nonneg hb hv
    rw [gb] at x2
    refine tangent' gQ bQ h3 x1 x2 ?_
    by_cases h : v = g.1
    · right
      have := H.conv b hb v hv (by rw [gb]; exact hvf) (by rw [h]; exact hne.symm)
      rwa [gb] at this
    · left; exact H.conv g hg v hv h hvf
  · intro X hX
    have x1 := hX b hb
    rw [gb] at x1
    exact tangent' gQ bQ h3 (hX g hg).le x1.le (Or.inr x1)

/-- The visible edges of a convex cycle are consecutive. -/
theorem Hulled.seen (H : Hulled P E A) {Q : Pt K} (h0 : ∀ e ∈ E, det3 (P e.1) (P e.2) Q ≠ 0)
    (hv : ∃ e ∈ E, det3 (P e.1) (P e.2) Q < 0) : ∃ f g a b, Seen P E A Q f g a b := by
  obtain ⟨C, hC⟩ := H.centre
  set V := E.toFinset.filter fun e => det3 (P e.1) (P e.2) Q < 0 with hV
  have mV : ∀ e, e ∈ V ↔ e ∈ E ∧ det3 (P e.1) (P e.2) Q < 0 := by
    intro e; simp [hV]
  have neV : V.Nonempty := by
    obtain ⟨e, he, h⟩ := hv
    exact ⟨e, (mV e).2 ⟨he, h⟩⟩
  have cV : ∀ e ∈ V, 0 < det3 (P e.1) (P e.2) C := fun e he => hC e ((mV e).1 he).1
  have qV : ∀ e ∈ V, det3 (P e.1) (P e.2) Q < 0 := fun e he => ((mV e).1 he).2
  have ex1 : ∃ f ∈ V, ∀ k ∈ V, k.2 ≠ f.1 := by
    by_contra hcon
    push Not at hcon
    exact no_cycle P V neV (Or.inr hcon) C Q cV qV
  have ex2 : ∃ g ∈ V, ∀ k ∈ V, k.1 ≠ g.2 := by
    by_contra hcon
    push Not at hcon
    exact no_cycle P V neV (Or.inl hcon) C Q cV qV
  have unseen : ∀ e ∈ E, e ∉ V → 0 < det3 (P e.1) (P e.2) Q := by
    intro e he h
    rw [mV] at h
    push Not at h
    exact lt_of_le_of_ne (h he) (h0 e he).symm
  have first : ∀ f ∈ V, (∀ k ∈ V, k.2 ≠ f.1) → ∃ a ∈ E, 0 < det3 (P a.1) (P a.2) Q ∧ a.2 = f.1 := by
    intro f hf h
    obtain ⟨a, ha, haf⟩ := H.prev f ((mV f).1 hf).1
    exact ⟨a, ha, unseen a ha (fun hh => h a hh haf), haf⟩
  have last : ∀ g ∈ V, (∀ k ∈ V, k.1 ≠ g.2) → ∃ b ∈ E, 0 < det3 (P b.1) (P b.2) Q ∧ b.1 = g.2 := by
    intro g hg h
    obtain ⟨b, hb, hbg⟩ := H.next g ((mV g).1 hg).1
    exact ⟨b, hb, unseen b hb (fun hh => h b hh hbg), hbg⟩
  obtain ⟨f, hf, hf'⟩ := ex1
  obtain ⟨g, hg, hg'⟩ := ex2
  obtain ⟨a, ha, aQ, af⟩ := first f hf hf'
  obtain ⟨b, hb, bQ, gb⟩ := last g hg hg'
  obtain ⟨hfE, fQ⟩ := (mV f).1 hf
  obtain ⟨hgE, gQ⟩ := (mV g).1 hg
  refine ⟨f, g, a, b, hfE, hgE, ha, hb, fQ, gQ, aQ, bQ, af, gb, ?_, ?_⟩
  · intro k hk kQ hkf
    by_contra hcon
    push Not at hcon
    have hkV : k ∈ V := (mV k).2 ⟨hk, kQ⟩
    obtain ⟨a', ha', aQ', af'⟩ := first k hkV (fun j hj => hcon j ((mV j).1 hj).1 ((mV j).1 hj).2)
    have hne : f.1 ≠ k.1 := fun h => hkf (H.starts f hfE k hk h).symm
    have t1 := (H.tan_first hfE ha fQ aQ af).1 k.1 (H.mem k hk).1 hne.symm
    have t2 := (H.tan_first hk ha' kQ aQ' af').1 f.1 (H.mem f hfE).1 hne
    have : det3 (P f.1) Q (P k.1) = -det3 (P k.1) Q (P f.1) := by unfold det3; ring
    linarith
  · intro k hk kQ hkg
    by_contra hcon
    push Not at hcon
    have hkV : k ∈ V := (mV k).2 ⟨hk, kQ⟩
    obtain ⟨b', hb', bQ', gb'⟩ := last k hkV (fun j hj => hcon j ((mV j).1 hj).1 ((mV j).1 hj).2)
    have hne : g.2 ≠ k.2 := fun h => hkg (H.ends g hgE k hk h).symm
    have t1 := (H.tan_last hgE hb gQ bQ gb).1 k.2 (H.mem k hk).2 hne.symm
    have t2 := (H.tan_last hk hb' kQ bQ' gb').1 g.2 (H.mem g hgE).2 hne
    have : det3 Q (P g.2) (P k.2) = -det3 Q (P k.2) (P g.2) := by unfold det3; ring
    linarith

/-- strictly inside the triangle of a visible edge (a clockwise one) and the point it is seen from -/
def InNew (P : ℤ → Pt K) (Q : Pt K) (f : ℤ × ℤ) (X : Pt K) : Prop :=
  det3 (P f.1) (P f.2) X < 0 ∧ det3 (P f.2) Q X < 0 ∧ det3 Q (P f.1) X < 0

/-- strictly to the left of all edges -/
def Inner (P : ℤ → Pt K) (E : List (ℤ × ℤ)) (X : Pt K) : Prop := ∀ e ∈ E, 0 < det3 (P e.1) (P e.2) X

/-- the ray from `Q` through `X` enters over `f`: every other edge is crossed, if at all, before -/
theorem Hulled.enter (H : Hulled P E A) {Q X : Pt K} {f k : ℤ × ℤ} (hf : f ∈ E) (hk : k ∈ E) (hne : k ≠ f)
    (fQ : det3 (P f.1) (P f.2) Q < 0) (kQ : det3 (P k.1) (P k.2) Q < 0)
    (x1 : det3 (P f.2) Q X < 0) (x2 : det3 Q (P f.1) X < 0) :
    det3 (P f.1) (P f.2) Q * det3 (P k.1) (P k.2) X - det3 (P f.1) (P f.2) X * det3 (P k.1) (P k.2) Q < 0 := by
  -- both sides are, up to a positive factor, the side of `k` on which the crossing point with `f` lies
  have k1 := H.nonneg hk (H.mem f hf).1
  have k2 := H.nonneg hk (H.mem f hf).2
  have kp : 0 < det3 (P k.1) (P k.2) (P f.1) ∨ 0 < det3 (P k.1) (P k.2) (P f.2) := by
    by_contra hcon
    push Not at hcon
    have e1 : f.1 = k.1 ∨ f.1 = k.2 := by
      by_contra h; push Not at h
      exact absurd (H.conv k hk _ (H.mem f hf).1 h.1 h.2) (not_lt.2 hcon.1)
    have e2 : f.2 = k.1 ∨ f.2 = k.2 := by
      by_contra h; push Not at h
      exact absurd (H.conv k hk _ (H.mem f hf).2 h.1 h.2) (not_lt.2 hcon.2)
    have hfn := H.ne f hf
    rcases e1 with e1 | e1
    · exact hne (H.starts f hf k hk e1).symm
    · rcases e2 with e2 | e2
      · rw [e1, e2] at fQ
        have := det3_swap' (P k.1) (P k.2) Q
        linarith
      · exact hfn (e1.trans e2.symm)
  have id : det3 (P f.1) (P f.2) Q * det3 (P k.1) (P k.2) X - det3 (P f.1) (P f.2) X * det3 (P k.1) (P k.2) Q
      = det3 (P f.2) Q X * det3 (P k.1) (P k.2) (P f.1) + det3 Q (P f.1) X * det3 (P k.1) (P k.2) (P f.2) := by
    unfold det3; ring
  rw [id]
  rcases kp with h | h
  · nlinarith [mul_pos (neg_pos.2 x1) h, mul_nonneg (neg_pos.2 x2).le k2]
  · nlinarith [mul_nonneg (neg_pos.2 x1).le k1, mul_pos (neg_pos.2 x2) h]

/-- the new boundary -/
structure NewEdges (P : ℤ → Pt K) (E E' : List (ℤ × ℤ)) (Q : Pt K) (q : ℤ) (f g : ℤ × ℤ) : Prop where
  mem : ∀ e, e ∈ E' ↔ (e ∈ E ∧ 0 < det3 (P e.1) (P e.2) Q) ∨ e = (f.1, q) ∨ e = (q, g.2)

section add
variable {E' : List (ℤ × ℤ)} {q : ℤ} {f g a b : ℤ × ℤ}

/-- The boundary after adding an outer point is a convex cycle again. -/
theorem Hulled.add (H : Hulled P E A) (S : Seen P E A (P q) f g a b) (N : NewEdges P E E' (P q) q f g) (hq : ¬ A q)
    (h0 : ∀ e ∈ E, det3 (P e.1) (P e.2) (P q) ≠ 0) : Hulled P E' fun v => A v ∨ v = q := by
  have nq : ∀ v, A v → v ≠ q := by rintro v hv rfl; exact hq hv
  have Af := H.mem f S.hf
  have Ag := H.mem g S.hg
  obtain ⟨tf, -⟩ := H.tan_first S.hf S.ha S.fQ S.aQ S.af
  obtain ⟨tg, -⟩ := H.tan_last S.hg S.hb S.gQ S.bQ S.gb
  have hfg : f.1 ≠ g.2 := by
    intro h
    have := S.aQ
    have hag := H.ends a S.ha g S.hg (S.af.trans h)
    rw [hag] at this
    have := S.gQ
    linarith
  have start : ∀ e ∈ E, 0 < det3 (P e.1) (P e.2) (P q) → e.1 ≠ f.1 := by
    intro e he h h'
    rw [H.starts e he f S.hf h'] at h
    have := S.fQ
    linarith
  have endg : ∀ e ∈ E, 0 < det3 (P e.1) (P e.2) (P q) → e.2 ≠ g.2 := by
    intro e he h h'
    rw [H.ends e he g S.hg h'] at h
    have := S.gQ
    linarith
  have sgn : ∀ e ∈ E, ¬ 0 < det3 (P e.1) (P e.2) (P q) → det3 (P e.1) (P e.2) (P q) < 0 := fun e he h =>
    lt_of_le_of_ne (not_lt.1 h) (h0 e he)
  refine ⟨?_, ?_, ?_, ?_, ?_, ?_, ?_, ?_, ?_⟩
  · intro e he
    rcases (N.mem e).1 he with ⟨h, -⟩ | rfl | rfl
    · exact H.ne e h
    · exact nq _ Af.1
    · exact (nq _ Ag.2).symm
  · intro e he k hk h
    rcases (N.mem e).1 he with ⟨he1, he2⟩ | rfl | rfl <;> rcases (N.mem k).1 hk with ⟨hk1, hk2⟩ | rfl | rfl
    · exact H.starts e he1 k hk1 h
    · exact absurd h (start e he1 he2)
    · exact absurd h (nq _ (H.mem e he1).1)
    · exact absurd h.symm (start k hk1 hk2)
    · rfl
    · exact absurd h (nq _ Af.1)
    · exact absurd h.symm (nq _ (H.mem k hk1).1)
    · exact absurd h.symm (nq _ Af.1)
    · rfl
  · intro e he k hk h
    rcases (N.mem e).1 he with ⟨he1, he2⟩ | rfl | rfl <;> rcases (N.mem k).1 hk with ⟨hk1, hk2⟩ | rfl | rfl
    · exact H.ends e he1 k hk1 h
    · exact absurd h (nq _ (H.mem e he1).2)
    · exact absurd h (endg e he1 he2)
    · exact absurd h.symm (nq _ (H.mem k hk1).2)
    · rfl
    · exact absurd h.symm (nq _ Ag.2)
    · exact absurd h.symm (endg k hk1 hk2)
    · exact absurd h (nq _ Ag.2)
    · rfl
  · intro e he
    rcases (N.mem e).1 he with ⟨h, -⟩ | rfl | rfl
    · exact ⟨Or.inl (H.mem e h).1, Or.inl (H.mem e h).2⟩
    · exact ⟨Or.inl Af.1, Or.inr rfl⟩
    · exact ⟨Or.inr rfl, Or.inl Ag.2⟩
  · intro e he v hv v1 v2
    rcases (N.mem e).1 he with ⟨h, h'⟩ | rfl | rfl
    · rcases hv with hv | rfl
      · exact H.conv e h v hv v1 v2
      · exact h'
    · rcases hv with hv | rfl
      · exact tf v hv v1
      · exact absurd rfl v2
    · rcases hv with hv | rfl
      · exact tg v hv v2
      · exact absurd rfl v1
  · intro e he
    rcases (N.mem e).1 he with ⟨h, h'⟩ | rfl | rfl
    · obtain ⟨k, hk, hke⟩ := H.next e h
      by_cases hkq : 0 < det3 (P k.1) (P k.2) (P q)
      · exact ⟨k, (N.mem k).2 (Or.inl ⟨hk, hkq⟩), hke⟩
      · have hkf : k = f := by
          by_contra hne
          obtain ⟨j, hj, hjq, hjk⟩ := S.first k hk (sgn k hk hkq) hne
          rw [H.ends j hj e h (hjk.trans hke)] at hjq
          linarith
        exact ⟨(f.1, q), (N.mem _).2 (Or.inr (Or.inl rfl)), by rw [← hke, hkf]⟩
    · exact ⟨(q, g.2), (N.mem _).2 (Or.inr (Or.inr rfl)), rfl⟩
    · exact ⟨b, (N.mem b).2 (Or.inl ⟨S.hb, S.bQ⟩), S.gb⟩
  · intro e he
    rcases (N.mem e).1 he with ⟨h, h'⟩ | rfl | rfl
    · obtain ⟨k, hk, hke⟩ := H.prev e h
      by_cases hkq : 0 < det3 (P k.1) (P k.2) (P q)
      · exact ⟨k, (N.mem k).2 (Or.inl ⟨hk, hkq⟩), hke⟩
      · have hkg : k = g := by
          by_contra hne
          obtain ⟨j, hj, hjq, hjk⟩ := S.last k hk (sgn k hk hkq) hne
          rw [H.starts j hj e h (hjk.trans hke)] at hjq
          linarith
        exact ⟨(q, g.2), (N.mem _).2 (Or.inr (Or.inr rfl)), by rw [← hke, hkg]⟩
    · exact ⟨a, (N.mem a).2 (Or.inl ⟨S.ha, S.aQ⟩), S.af⟩
    · exact ⟨(f.1, q), (N.mem _).2 (Or.inr (Or.inl rfl)), rfl⟩
  · intro h
    have := (N.mem (f.1, q)).2 (Or.inr (Or.inl rfl))
    rw [h] at this
    simp at this
  · obtain ⟨x, y, z, hx, hy, hz, h⟩ := H.three
    exact ⟨x, y, z, Or.inl hx, Or.inl hy, Or.inl hz, h⟩

/-- (i) what was inside stays inside -/
theorem Hulled.inner_mono (H : Hulled P E A) (S : Seen P E A (P q) f g a b) (N : NewEdges P E E' (P q) q f g)
    {X : Pt K} (hX : Inner P E X) : Inner P E' X := by
  intro e he
  rcases (N.mem e).1 he with ⟨h, -⟩ | rfl | rfl
  · exact hX e h
  · exact (H.tan_first S.hf S.ha S.fQ S.aQ S.af).2 X hX
  · exact (H.tan_last S.hg S.hb S.gQ S.bQ S.gb).2 X hX

/-- (iii) a point is in at most one new triangle -/
theorem Hulled.inNew_unique (H : Hulled P E A) {Q X : Pt K} {f k : ℤ × ℤ} (hf : f ∈ E) (hk : k ∈ E)
    (fQ : det3 (P f.1) (P f.2) Q < 0) (kQ : det3 (P k.1) (P k.2) Q < 0) (xf : InNew P Q f X) (xk : InNew P Q k X) :
    k = f := by
  by_contra hne
  have h1 := H.enter hf hk hne fQ kQ xf.2.1 xf.2.2
  have h2 := H.enter hk hf (Ne.symm hne) kQ fQ xk.2.1 xk.2.2
  linarith

/-- (iv) a point newly inside is in a new triangle -/
theorem Hulled.inNew_of_inner (H : Hulled P E A) (S : Seen P E A (P q) f g a b) (N : NewEdges P E E' (P q) q f g)
    (h0 : ∀ e ∈ E, det3 (P e.1) (P e.2) (P q) ≠ 0) {X : Pt K} (gen : ∀ e ∈ E, det3 (P e.1) (P e.2) X ≠ 0)
    (gen' : ∀ e ∈ E, det3 (P q) (P e.2) X ≠ 0) (hX : Inner P E' X)
    (hn : ¬ Inner P E X) : ∃ k ∈ E, det3 (P k.1) (P k.2) (P q) < 0 ∧ InNew P (P q) k X := by
  obtain ⟨C, hC⟩ := H.centre
  have xf := hX (f.1, q) ((N.mem _).2 (Or.inr (Or.inl rfl)))
  have xg := hX (q, g.2) ((N.mem _).2 (Or.inr (Or.inr rfl)))
  dsimp only at xf xg
  have hk : ∃ k ∈ E, det3 (P k.1) (P k.2) (P q) < 0 ∧ det3 (P q) (P k.1) X < 0 ∧ 0 < det3 (P q) (P k.2) X := by
    by_contra hcon
    push Not at hcon
    set V := E.toFinset.filter fun e => det3 (P e.1) (P e.2) (P q) < 0 ∧ det3 (P q) (P e.1) X < 0 with hV
    have mV : ∀ e, e ∈ V ↔ e ∈ E ∧ det3 (P e.1) (P e.2) (P q) < 0 ∧ det3 (P q) (P e.1) X < 0 := by
      intro e; simp [hV]
    refine no_cycle P V ⟨f, (mV f).2 ⟨S.hf, S.fQ, ?_⟩⟩ (Or.inl ?_) C (P q)
      (fun e he => hC e ((mV e).1 he).1) (fun e he => ((mV e).1 he).2.1)
    · rw [det3_swap']; linarith
    · intro e he
      obtain ⟨e1, e2, e3⟩ := (mV e).1 he
      have e4 := lt_of_le_of_ne (hcon e e1 e2 e3) (gen' e e1)
      have hne : e ≠ g := by rintro rfl; linarith
      obtain ⟨j, hj, hjq, hje⟩ := S.last e e1 e2 hne
      exact ⟨j, (mV j).2 ⟨hj, hjq, by rw [hje]; exact e4⟩, hje⟩
  obtain ⟨k, hk, kq, k1, k2⟩ := hk
  have k2' : det3 (P k.2) (P q) X < 0 := by rw [det3_swap']; linarith
  refine ⟨k, hk, kq, ?_, k2', k1⟩
  by_contra hc
  have kx : 0 < det3 (P k.1) (P k.2) X := lt_of_le_of_ne (not_lt.1 hc) (gen k hk).symm
  apply hn
  intro e he
  by_cases hek : e = k
  · rw [hek]; exact kx
  by_cases heq : 0 < det3 (P e.1) (P e.2) (P q)
  · exact hX e ((N.mem e).2 (Or.inl ⟨he, heq⟩))
  · have heq' := lt_of_le_of_ne (not_lt.1 heq) (h0 e he)
    have := H.enter hk he hek kq heq' k2' k1
    by_contra hc2
    have hc3 := not_lt.1 hc2
    nlinarith [mul_nonneg_of_nonpos_of_nonpos kq.le hc3, mul_pos kx (neg_pos.2 heq')]

/-- (v) new triangles are inside -/
theorem Hulled.inner_of_inNew (H : Hulled P E A) (S : Seen P E A (P q) f g a b) (N : NewEdges P E E' (P q) q f g)
    (hq : ¬ A q) (h0 : ∀ e ∈ E, det3 (P e.1) (P e.2) (P q) ≠ 0) {X : Pt K} {k : ℤ × ℤ} (hk : k ∈ E)
    (kq : det3 (P k.1) (P k.2) (P q) < 0) (hX : InNew P (P q) k X) : Inner P E' X := by
  have H' := H.add S N hq h0
  intro e he
  have e1 := H'.nonneg he (Or.inl (H.mem k hk).1)
  have e2 := H'.nonneg he (Or.inl (H.mem k hk).2)
  have e3 := H'.nonneg he (Or.inr rfl : A q ∨ q = q)
  obtain ⟨x1, x2, x3⟩ := hX
  have id : det3 (P k.1) (P k.2) (P q) * det3 (P e.1) (P e.2) X
      = det3 (P k.2) (P q) X * det3 (P e.1) (P e.2) (P k.1) + det3 (P q) (P k.1) X * det3 (P e.1) (P e.2) (P k.2)
        + det3 (P k.1) (P k.2) X * det3 (P e.1) (P e.2) (P q) := by
    unfold det3; ring
  have nq : ∀ v, A v → v ≠ q := by rintro v hv rfl; exact hq hv
  have pos : 0 < det3 (P e.1) (P e.2) (P k.1) ∨ 0 < det3 (P e.1) (P e.2) (P k.2) ∨ 0 < det3 (P e.1) (P e.2) (P q) := by
    have hne := H'.ne e he
    have hkn := H.ne k hk
    have q1 := nq _ (H.mem k hk).1
    have q2 := nq _ (H.mem k hk).2
    by_cases ax : k.1 = e.1 ∨ k.1 = e.2
    · by_cases ay : k.2 = e.1 ∨ k.2 = e.2
      · right; right
        apply H'.conv e he q (Or.inr rfl) <;> · intro h; omega
      · push Not at ay
        exact Or.inr (Or.inl (H'.conv e he _ (Or.inl (H.mem k hk).2) ay.1 ay.2))
    · push Not at ax
      exact Or.inl (H'.conv e he _ (Or.inl (H.mem k hk).1) ax.1 ax.2)
  have hneg : det3 (P k.1) (P k.2) (P q) * det3 (P e.1) (P e.2) X < 0 := by
    rw [id]
    have m1 := mul_nonneg (neg_pos.2 x2).le e1
    have m2 := mul_nonneg (neg_pos.2 x3).le e2
    have m3 := mul_nonneg (neg_pos.2 x1).le e3
    rcases pos with h | h | h
    · have := mul_pos (neg_pos.2 x2) h; linarith
    · have := mul_pos (neg_pos.2 x3) h; linarith
    · have := mul_pos (neg_pos.2 x1) h; linarith
  by_contra hc
  have := mul_nonneg_of_nonpos_of_nonpos kq.le (not_lt.1 hc)
  linarith

end add

end Cyc
end Srep
