import Verif.Lemmas.HeadArc
import Verif.Model.HeadSegs

/-! The six pieces of the outline of a head, made, turned and moved. -/

set_option linter.unusedSectionVars false

namespace Srep
open Rt

section
variable {K : Type} [Field K] [LinearOrder K] [IsStrictOrderedRing K] [FloorRing K]

/-- the six pieces in memory: 23 Points from `N` on, 17 segments from `S + 14` on -/
structure HeadAt (h : Heap K) (q : HeadPieces) (v : Fin 6 → ℕ → Pt K) (N S : ℕ) : Prop where
  zr : Piece h q.zylRe 1 (v 0) .wall (N + 17) (N + 19) (S + 14)
  kr : Piece h q.kreRe 3 (v 1) .wall (N + 9) (N + 13) (S + 15)
  ka : Piece h q.kal 8 (v 2) .wall N (N + 9) (S + 18)
  kl : Piece h q.kreLi 3 (v 3) .wall (N + 13) (N + 17) (S + 26)
  zl : Piece h q.zylLi 1 (v 4) .wall (N + 19) (N + 21) (S + 29)
  rn : Piece h ⟨[q.rn], false⟩ 1 (v 5) .nonWall (N + 21) (N + 23) (S + 30)

/-- the points of each piece are on the grid and apart -/
structure Spreads (v : Fin 6 → ℕ → Pt K) : Prop where
  zr : GridSpread 1 (v 0)
  kr : GridSpread 3 (v 1)
  ka : GridSpread 8 (v 2)
  kl : GridSpread 3 (v 3)
  zl : GridSpread 1 (v 4)
  rn : GridSpread 1 (v 5)

/-- the points after turning -/
def oppSix (v : Fin 6 → ℕ → Pt K) : Fin 6 → ℕ → Pt K := fun i k => if i = 5 then v 5 (1 - k) else opp (v i k)

/-- the points after moving -/
def movedSix (x0 y0 : K) (v : Fin 6 → ℕ → Pt K) : Fin 6 → ℕ → Pt K := fun i k => moved x0 y0 (v i k)

theorem HeadAt.turn {R : Rt K} (hE : R.IsExact) (hc : R.trig.cos (R.trig.radians 180) = -1)
    (hs : R.trig.sin (R.trig.radians 180) = 0) {h : Heap K} {q : HeadPieces} {v : Fin 6 → ℕ → Pt K} {N S : ℕ}
    (hq : HeadAt h q v N S) (hv : Spreads v) :
    HeadAt (R.headTurn h q).1 (R.headTurn h q).2 (oppSix v) N S ∧
    (∀ p < N, (R.headTurn h q).1.pt p = h.pt p) ∧ ∀ s < S + 14, (R.headTurn h q).1.seg s = h.seg s := by
  unfold Rt.headTurn
  dsimp only
  obtain ⟨a1, a2, a3, a4⟩ := hq.zl.turn hE hc hs hv.zl
  generalize R.plRotate h q.zylLi 180 = a at *
  have zr := hq.zr.frame (fun p hp => a3 p (by omega)) (fun s hs => a4 s (by omega))
  have kl := hq.kl.frame (fun p hp => a3 p (by omega)) (fun s hs => a4 s (by omega))
  have kr := hq.kr.frame (fun p hp => a3 p (by omega)) (fun s hs => a4 s (by omega))
  have ka := hq.ka.frame (fun p hp => a3 p (by omega)) (fun s hs => a4 s (by omega))
  have rn := hq.rn.frame (fun p hp => a3 p (by omega)) (fun s hs => a4 s (by omega))
  obtain ⟨b1, b2, b3, b4⟩ := zr.turn hE hc hs hv.zr
  generalize R.plRotate a.1 q.zylRe 180 = b at *
  replace kl := kl.frame (fun p hp => b3 p (by omega)) (fun s hs => b4 s (by omega))
  replace kr := kr.frame (fun p hp => b3 p (by omega)) (fun s hs => b4 s (by omega))
  replace ka := ka.frame (fun p hp => b3 p (by omega)) (fun s hs => b4 s (by omega))
  replace rn := rn.frame (fun p hp => b3 p (by omega)) (fun s hs => b4 s (by omega))
  replace a2 := a2.frame (fun p hp => b3 p (by omega)) (fun s hs => b4 s (by omega))
  obtain ⟨c1, c2, c3, c4⟩ := kl.turn hE hc hs hv.kl
  generalize R.plRotate b.1 q.kreLi 180 = c at *
  replace kr := kr.frame (fun p hp => c3 p (by omega)) (fun s hs => c4 s (by omega))
  replace ka := ka.frame (fun p hp => c3 p (by omega)) (fun s hs => c4 s (by omega))
  replace rn := rn.frame (fun p hp => c3 p (by omega)) (fun s hs => c4 s (by omega))
  replace a2 := a2.frame (fun p hp => c3 p (by omega)) (fun s hs => c4 s (by omega))
  replace b2 := b2.frame (fun p hp => c3 p (by omega)) (fun s hs => c4 s (by omega))
  obtain ⟨d1, d2, d3, d4⟩ := kr.turn hE hc hs hv.kr
  generalize R.plRotate c.1 q.kreRe 180 = d at *
  replace ka := ka.frame (fun p hp => d3 p (by omega)) (fun s hs => d4 s (by omega))
  replace rn := rn.frame (fun p hp => d3 p (by omega)) (fun s hs => d4 s (by omega))
  replace a2 := a2.frame (fun p hp => d3 p (by omega)) (fun s hs => d4 s (by omega))
  replace b2 := b2.frame (fun p hp => d3 p (by omega)) (fun s hs => d4 s (by omega))
  replace c2 := c2.frame (fun p hp => d3 p (by omega)) (fun s hs => d4 s (by omega))
  obtain ⟨e1, e2, e3, e4⟩ := ka.turn hE hc hs hv.ka
  generalize R.plRotate d.1 q.kal 180 = e at *
  replace rn := rn.frame (fun p hp => e3 p (by omega)) (fun s hs => e4 s (by omega))
  replace a2 := a2.frame (fun p hp => e3 p (by omega)) (fun s hs => e4 s (by omega))
  replace b2 := b2.frame (fun p hp => e3 p (by omega)) (fun s hs => e4 s (by omega))
  replace c2 := c2.frame (fun p hp => e3 p (by omega)) (fun s hs => e4 s (by omega))
  replace d2 := d2.frame (fun p hp => e3 p (by omega)) (fun s hs => e4 s (by omega))
  obtain ⟨f1, f2, f3⟩ := rn.reverse
  replace a2 := a2.frame (fun p hp => by rw [f2]) (fun s hs => f3 s (by omega))
  replace b2 := b2.frame (fun p hp => by rw [f2]) (fun s hs => f3 s (by omega))
  replace c2 := c2.frame (fun p hp => by rw [f2]) (fun s hs => f3 s (by omega))
  replace d2 := d2.frame (fun p hp => by rw [f2]) (fun s hs => f3 s (by omega))
  replace e2 := e2.frame (fun p hp => by rw [f2]) (fun s hs => f3 s (by omega))
  rw [a1, b1, c1, d1, e1]
  refine ⟨⟨b2, d2, e2, c2, a2, f1⟩, ?_, ?_⟩
  · intro p hp
    rw [f2, e3 p (by omega), d3 p (by omega), c3 p (by omega), b3 p (by omega), a3 p (by omega)]
  · intro s hs
    rw [f3 s (by omega), e4 s (by omega), d4 s (by omega), c4 s (by omega), b4 s (by omega), a4 s (by omega)]

theorem HeadAt.move {R : Rt K} (hE : R.IsExact) {h : Heap K} {q : HeadPieces} {v : Fin 6 → ℕ → Pt K} {N S : ℕ}
    (hq : HeadAt h q v N S) (hv : Spreads v) (x0 y0 : K) :
    HeadAt (R.headMove h q x0 y0).1 (R.headMove h q x0 y0).2 (movedSix x0 y0 v) N S ∧
    (∀ p < N, (R.headMove h q x0 y0).1.pt p = h.pt p) ∧ ∀ s < S + 14, (R.headMove h q x0 y0).1.seg s = h.seg s := by
  unfold Rt.headMove
  dsimp only
  obtain ⟨a1, a2, a3, a4⟩ := hq.zl.move hE hv.zl x0 y0
  generalize R.plMove h q.zylLi x0 y0 = a at *
  have zr := hq.zr.frame (fun p hp => a3 p (by omega)) (fun s hs => a4 s (by omega))
  have kl := hq.kl.frame (fun p hp => a3 p (by omega)) (fun s hs => a4 s (by omega))
  have kr := hq.kr.frame (fun p hp => a3 p (by omega)) (fun s hs => a4 s (by omega))
  have ka := hq.ka.frame (fun p hp => a3 p (by omega)) (fun s hs => a4 s (by omega))
  have rn := hq.rn.frame (fun p hp => a3 p (by omega)) (fun s hs => a4 s (by omega))
  obtain ⟨b1, b2, b3, b4⟩ := zr.move hE hv.zr x0 y0
  generalize R.plMove a.1 q.zylRe x0 y0 = b at *
  replace kl := kl.frame (fun p hp => b3 p (by omega)) (fun s hs => b4 s (by omega))
  replace kr := kr.frame (fun p hp => b3 p (by omega)) (fun s hs => b4 s (by omega))
  replace ka := ka.frame (fun p hp => b3 p (by omega)) (fun s hs => b4 s (by omega))
  replace rn := rn.frame (fun p hp => b3 p (by omega)) (fun s hs => b4 s (by omega))
  replace a2 := a2.frame (fun p hp => b3 p (by omega)) (fun s hs => b4 s (by omega))
  obtain ⟨c1, c2, c3, c4⟩ := kl.move hE hv.kl x0 y0
  generalize R.plMove b.1 q.kreLi x0 y0 = c at *
  replace kr := kr.frame (fun p hp => c3 p (by omega)) (fun s hs => c4 s (by omega))
  replace ka := ka.frame (fun p hp => c3 p (by omega)) (fun s hs => c4 s (by omega))
  replace rn := rn.frame (fun p hp => c3 p (by omega)) (fun s hs => c4 s (by omega))
  replace a2 := a2.frame (fun p hp => c3 p (by omega)) (fun s hs => c4 s (by omega))
  replace b2 := b2.frame (fun p hp => c3 p (by omega)) (fun s hs => c4 s (by omega))
  obtain ⟨d1, d2, d3, d4⟩ := kr.move hE hv.kr x0 y0
  generalize R.plMove c.1 q.kreRe x0 y0 = d at *
  replace ka := ka.frame (fun p hp => d3 p (by omega)) (fun s hs => d4 s (by omega))
  replace rn := rn.frame (fun p hp => d3 p (by omega)) (fun s hs => d4 s (by omega))
  replace a2 := a2.frame (fun p hp => d3 p (by omega)) (fun s hs => d4 s (by omega))
  replace b2 := b2.frame (fun p hp => d3 p (by omega)) (fun s hs => d4 s (by omega))
  replace c2 := c2.frame (fun p hp => d3 p (by omega)) (fun s hs => d4 s (by omega))
  obtain ⟨e1, e2, e3, e4⟩ := ka.move hE hv.ka x0 y0
  generalize R.plMove d.1 q.kal x0 y0 = e at *
  replace rn := rn.frame (fun p hp => e3 p (by omega)) (fun s hs => e4 s (by omega))
  replace a2 := a2.frame (fun p hp => e3 p (by omega)) (fun s hs => e4 s (by omega))
  replace b2 := b2.frame (fun p hp => e3 p (by omega)) (fun s hs => e4 s (by omega))
  replace c2 := c2.frame (fun p hp => e3 p (by omega)) (fun s hs => e4 s (by omega))
  replace d2 := d2.frame (fun p hp => e3 p (by omega)) (fun s hs => e4 s (by omega))
  obtain ⟨f1, f2, f3⟩ := rn.segMove hE hv.rn x0 y0
  replace a2 := a2.frame (fun p hp => f2 p (by omega)) (fun s hs => by rw [f3])
  replace b2 := b2.frame (fun p hp => f2 p (by omega)) (fun s hs => by rw [f3])
  replace c2 := c2.frame (fun p hp => f2 p (by omega)) (fun s hs => by rw [f3])
  replace d2 := d2.frame (fun p hp => f2 p (by omega)) (fun s hs => by rw [f3])
  replace e2 := e2.frame (fun p hp => f2 p (by omega)) (fun s hs => by rw [f3])
  rw [a1, b1, c1, d1, e1]
  refine ⟨⟨b2, d2, e2, c2, a2, f1⟩, ?_, ?_⟩
  · intro p hp
    rw [f2 p (by omega), e3 p (by omega), d3 p (by omega), c3 p (by omega), b3 p (by omega), a3 p (by omega)]
  · intro s hs
    rw [f3, e4 s (by omega), d4 s (by omega), c4 s (by omega), b4 s (by omega), a4 s (by omega)]

end

section real
variable (hs : ℝ → ℝ → Int)

/-- the points of the six pieces are near to the vertices `O 0`, ..., `O 16` -/
structure HeadNear (e : ℝ) (v : Fin 6 → ℕ → Pt ℝ) (O : ℕ → Pt ℝ) : Prop where
  zr : ∀ k ≤ 1, Near e (v 0 k) (O k)
  kr : ∀ k ≤ 3, Near e (v 1 k) (O (1 + k))
  ka : ∀ k ≤ 8, Near e (v 2 k) (O (4 + k))
  kl : ∀ k ≤ 3, Near e (v 3 k) (O (12 + k))
  zl : ∀ k ≤ 1, Near e (v 4 k) (O (15 + k))
  rn0 : Near e (v 5 0) (O 16)
  rn1 : Near e (v 5 1) (O 0)
  grid : ∀ i k, Grid (v i k).x ∧ Grid (v i k).y

/-- vertices at least 4e-5 apart -/
def Wide (O : ℕ → Pt ℝ) : Prop :=
  ∀ j k, j ≤ 16 → k ≤ 16 → j ≠ k → 4 / 10 ^ 5 ≤ |(O j).x - (O k).x| ∨ 4 / 10 ^ 5 ≤ |(O j).y - (O k).y|

theorem HeadNear.spreads {v : Fin 6 → ℕ → Pt ℝ} {O : ℕ → Pt ℝ} (hv : HeadNear (2 / 10 ^ 8) v O) (hO : Wide O) : Spreads v := by
  refine ⟨?_, ?_, ?_, ?_, ?_, ?_⟩
  · exact spread_of_near (O := O) hv.zr (fun j k hj hk h => hO _ _ (by omega) (by omega) (by omega)) fun k _ => hv.grid _ k
  · exact spread_of_near (O := fun k => O (1 + k)) hv.kr (fun j k hj hk h => hO _ _ (by omega) (by omega) (by omega)) fun k _ => hv.grid _ k
  · exact spread_of_near (O := fun k => O (4 + k)) hv.ka (fun j k hj hk h => hO _ _ (by omega) (by omega) (by omega)) fun k _ => hv.grid _ k
  · exact spread_of_near (O := fun k => O (12 + k)) hv.kl (fun j k hj hk h => hO _ _ (by omega) (by omega) (by omega)) fun k _ => hv.grid _ k
  · exact spread_of_near (O := fun k => O (15 + k)) hv.zl (fun j k hj hk h => hO _ _ (by omega) (by omega) (by omega)) fun k _ => hv.grid _ k
  · refine spread_of_near (O := fun k => O (16 * (1 - k))) ?_ (fun j k hj hk h => hO _ _ (by omega) (by omega) (by omega)) fun k _ => hv.grid _ k
    intro k hk
    obtain rfl | rfl : k = 0 ∨ k = 1 := by omega
    exacts [hv.rn0, hv.rn1]

theorem HeadNear.opp {v : Fin 6 → ℕ → Pt ℝ} {O : ℕ → Pt ℝ} (hv : HeadNear (2 / 10 ^ 8) v O) (h0 : O 0 = opp (O 16)) (h1 : O 16 = Srep.opp (O 0)) :
    HeadNear (2 / 10 ^ 8) (oppSix v) fun k => Srep.opp (O k) := by
  refine ⟨fun k hk => (hv.zr k hk).opp, fun k hk => (hv.kr k hk).opp, fun k hk => (hv.ka k hk).opp, fun k hk => (hv.kl k hk).opp,
    fun k hk => (hv.zl k hk).opp, ?_, ?_, ?_⟩
  · have := hv.rn1; rw [h0] at this; exact this
  · have := hv.rn0; rw [h1] at this; exact this
  · intro i k
    unfold oppSix
    split_ifs
    · exact hv.grid _ _
    · exact ⟨(hv.grid _ _).1.neg', (hv.grid _ _).2.neg'⟩

theorem near_moved {p q : Pt ℝ} (h : Near (2 / 10 ^ 8) p q) (x0 y0 : ℝ) : Near (3 / 10 ^ 8) (moved x0 y0 p) (Srep.shift q x0 y0) :=
  ((near_round8 _).trans (h.shift x0 y0)).mono (by norm_num)

theorem HeadNear.moved {v : Fin 6 → ℕ → Pt ℝ} {O : ℕ → Pt ℝ} (hv : HeadNear (2 / 10 ^ 8) v O) (x0 y0 : ℝ) :
    HeadNear (3 / 10 ^ 8) (movedSix x0 y0 v) fun k => Srep.shift (O k) x0 y0 :=
  ⟨fun k hk => near_moved (hv.zr k hk) _ _, fun k hk => near_moved (hv.kr k hk) _ _, fun k hk => near_moved (hv.ka k hk) _ _,
    fun k hk => near_moved (hv.kl k hk) _ _, fun k hk => near_moved (hv.zl k hk) _ _, near_moved hv.rn0 _ _, near_moved hv.rn1 _ _,
    fun _ _ => ⟨rhe8_isGrid _, rhe8_isGrid _⟩⟩

theorem Wide.opp {O : ℕ → Pt ℝ} (hO : Wide O) : Wide fun k => Srep.opp (O k) := by
  intro j k hj hk h
  have e : ∀ x y : ℝ, |(-x) - (-y)| = |x - y| := by
    intro x y
    rw [← abs_neg]
    congr 1
    ring
  simp only [Srep.opp, e]
  exact hO j k hj hk h

theorem Wide.shift {O : ℕ → Pt ℝ} (hO : Wide O) (x0 y0 : ℝ) : Wide fun k => Srep.shift (O k) x0 y0 := by
  intro j k hj hk h
  simp only [Srep.shift, add_sub_add_right_eq_sub]
  exact hO j k hj hk h

/-- the six pieces as they are made -/
theorem head_pieces (s : HeadShape) {d h1 : ℝ} (hb : s.Big d h1) (h : Heap ℝ) :
    ∃ h' q v, (Rt.real hs).headPieces h d h1 (s.r1 * d) (s.r2 * d) = .ok (h', q) ∧ HeadAt h' q v h.npt h.nseg ∧
      HeadNear (2 / 10 ^ 8) v (s.vertex d h1) ∧ (∀ p < h.npt, h'.pt p = h.pt p) ∧ ∀ t < h.nseg, h'.seg t = h.seg t := by
  have hE := Rt.real_isExact hs
  have hd := hb.pos
  have hst : ∀ x y : ℝ, (Rt.real hs).Stored ⟨rhe8 x, rhe8 y⟩ := by
    intro x y
    rw [hE.stored_iff]
    exact ⟨rhe8_isGrid _, rhe8_isGrid _⟩
  have hx2 : (Rt.real hs).add 0 ((Rt.real hs).mul ((Rt.real hs).sub (s.r1 * d) (s.r2 * d))
      ((Rt.real hs).trig.sin ((Rt.real hs).trig.radians s.al))) = d / 2 - s.r2 * d := by
    simp only [hE.add', hE.mul', hE.sub']
    show 0 + (s.r1 * d - s.r2 * d) * Real.sin (s.al * (Real.pi / 180)) = _
    rw [s.al_rad]
    linear_combination d * s.w_sin
  have hy2 : (Rt.real hs).add ((Rt.real hs).sub h1 (s.depth * d)) ((Rt.real hs).mul ((Rt.real hs).sub (s.r1 * d) (s.r2 * d))
      ((Rt.real hs).trig.cos ((Rt.real hs).trig.radians s.al))) = h1 := by
    simp only [hE.add', hE.mul', hE.sub']
    show h1 - s.depth * d + (s.r1 * d - s.r2 * d) * Real.cos (s.al * (Real.pi / 180)) = _
    rw [s.al_rad]
    unfold HeadShape.depth
    rw [← HeadShape.A]
    ring
  have hmk : ∀ x y : ℝ, (Rt.real hs).mkPt x y = ⟨rhe8 x, rhe8 y⟩ := fun x y => hE.mkPt' x y
  have dl : (Rt.real hs).div (-d) 2 = -(d / 2) := by rw [hE.div']; ring
  obtain ⟨ha, kal, a1, a2, a3, a4, a5, a6⟩ := arc_piece hs h (rhe8 0) (rhe8 (h1 - s.depth * d)) (s.r1 * d) (90 - s.al) (90 + s.al) 8
    hb.arc_dish (hst _ _)
  obtain ⟨hbb, kr, b1, b2, b3, b4, b5, b6⟩ := arc_piece hs ha (rhe8 (d / 2 - s.r2 * d)) (rhe8 h1) (s.r2 * d) 0 (90 - s.al) 3
    hb.arc_right (hst _ _)
  obtain ⟨hc, kl, c1, c2, c3, c4, c5, c6⟩ := arc_piece hs hbb (rhe8 (-(d / 2 - s.r2 * d))) (rhe8 h1) (s.r2 * d) (90 + s.al) 180 3
    hb.arc_left (hst _ _)
  have hcomp : (Rt.real hs).headPieces h d h1 (s.r1 * d) (s.r2 * d) =
      (let p1 := hc.newLine ⟨rhe8 (d / 2), rhe8 0⟩ ⟨rhe8 (d / 2), rhe8 h1⟩ .wall
       let p2 := p1.1.newWalls kr.segs
       let p3 := p2.1.newWalls kal.segs
       let p4 := p3.1.newWalls kl.segs
       let p5 := p4.1.newLine ⟨rhe8 (-(d / 2)), rhe8 h1⟩ ⟨rhe8 (-(d / 2)), rhe8 0⟩ .wall
       let p6 := p5.1.newLine ⟨rhe8 (-(d / 2)), rhe8 0⟩ ⟨rhe8 (d / 2), rhe8 0⟩ .nonWall
       .ok (p6.1, ⟨⟨[p1.2], false⟩, ⟨p2.2, false⟩, ⟨p3.2, false⟩, ⟨p4.2, false⟩, ⟨[p5.2], false⟩, p6.2⟩)) := by
    unfold Rt.headPieces
    rw [headAngle_real hs s hd]
    dsimp only
    rw [hx2, hy2, dl]
    simp only [hmk, hE.sub', hE.add', hE.div']
    rw [a1]
    dsimp only
    rw [b1]
    dsimp only
    rw [c1]
  have v0 := s.vertex_zero d h1
  have v1 := s.vertex_one d h1
  have v15 := s.vertex_fifteen d h1
  have v16 := s.vertex_sixteen d h1
  have hnr : ∀ x y : ℝ, Near (2 / 10 ^ 8) (⟨rhe8 x, rhe8 y⟩ : Pt ℝ) ⟨x, y⟩ := fun x y => (near_round8 ⟨x, y⟩).mono (by norm_num)
  set w : Fin 6 → ℕ → Pt ℝ := fun i => match i with
    | 0 => fun k => if k = 0 then ⟨rhe8 (d / 2), rhe8 0⟩ else ⟨rhe8 (d / 2), rhe8 h1⟩
    | 1 => arcPt (rhe8 (d / 2 - s.r2 * d)) (rhe8 h1) (s.r2 * d) 0 (90 - s.al) 3
    | 2 => arcPt (rhe8 0) (rhe8 (h1 - s.depth * d)) (s.r1 * d) (90 - s.al) (90 + s.al) 8
    | 3 => arcPt (rhe8 (-(d / 2 - s.r2 * d))) (rhe8 h1) (s.r2 * d) (90 + s.al) 180 3
    | 4 => fun k => if k = 0 then ⟨rhe8 (-(d / 2)), rhe8 h1⟩ else ⟨rhe8 (-(d / 2)), rhe8 0⟩
    | 5 => fun k => if k = 0 then ⟨rhe8 (-(d / 2)), rhe8 0⟩ else ⟨rhe8 (d / 2), rhe8 0⟩ with hw
  have hnear : HeadNear (2 / 10 ^ 8) w (s.vertex d h1) := by
    refine ⟨?_, ?_, ?_, ?_, ?_, ?_, ?_, ?_⟩
    · intro k hk
      obtain rfl | rfl : k = 0 ∨ k = 1 := by omega
      · rw [v0]; exact hnr _ _
      · rw [v1]; exact hnr _ _
    · intro k hk
      rw [s.vertex_right d h1 hk]
      have := arcPt_near' (d / 2 - s.r2 * d) h1 (s.r2 * d) 0 (90 - s.al) 3 k
      convert this using 2
      push_cast
      ring
    · intro k hk
      rw [s.vertex_dish d h1 hk]
      have := arcPt_near' 0 (h1 - s.depth * d) (s.r1 * d) (90 - s.al) (90 + s.al) 8 k
      convert this using 2
      push_cast
      ring
    · intro k hk
      rw [s.vertex_left d h1 hk]
      have := arcPt_near' (-(d / 2 - s.r2 * d)) h1 (s.r2 * d) (90 + s.al) 180 3 k
      convert this using 2
      push_cast
      ring
    · intro k hk
      obtain rfl | rfl : k = 0 ∨ k = 1 := by omega
      · rw [show 15 + 0 = 15 from rfl, v15]; exact hnr _ _
      · rw [show 15 + 1 = 16 from rfl, v16]; exact hnr _ _
    · rw [v16]; exact hnr _ _
    · rw [v0]; exact hnr _ _
    · intro i k
      fin_cases i
      · simp only [hw]; split_ifs <;> exact ⟨rhe8_isGrid _, rhe8_isGrid _⟩
      · exact arcPt_grid (rhe8_isGrid _) (rhe8_isGrid _) _ _ _ _ _
      · exact arcPt_grid (rhe8_isGrid _) (rhe8_isGrid _) _ _ _ _ _
      · exact arcPt_grid (rhe8_isGrid _) (rhe8_isGrid _) _ _ _ _ _
      · simp only [hw]; split_ifs <;> exact ⟨rhe8_isGrid _, rhe8_isGrid _⟩
      · simp only [hw]; split_ifs <;> exact ⟨rhe8_isGrid _, rhe8_isGrid _⟩
  have hsp := hnear.spreads (fun j k hj hk hjk => hb.apart hj hk hjk)
  have ne0 : (⟨rhe8 (d / 2), rhe8 0⟩ : Pt ℝ) ≠ ⟨rhe8 (d / 2), rhe8 h1⟩ := hsp.zr.ne (j := 0) (k := 1) (by simp) (by simp) (by simp)
  have ne4 : (⟨rhe8 (-(d / 2)), rhe8 h1⟩ : Pt ℝ) ≠ ⟨rhe8 (-(d / 2)), rhe8 0⟩ := hsp.zl.ne (j := 0) (k := 1) (by simp) (by simp) (by simp)
  have ne5 : (⟨rhe8 (-(d / 2)), rhe8 0⟩ : Pt ℝ) ≠ ⟨rhe8 (d / 2), rhe8 0⟩ := hsp.rn.ne (j := 0) (k := 1) (by simp) (by simp) (by simp)
  dsimp only at hcomp
  obtain ⟨x1, x2, x3, x4, x5, x6⟩ := newLine_piece hc ⟨rhe8 (d / 2), rhe8 0⟩ ⟨rhe8 (d / 2), rhe8 h1⟩ .wall ne0
  generalize hc.newLine ⟨rhe8 (d / 2), rhe8 0⟩ ⟨rhe8 (d / 2), rhe8 h1⟩ .wall = p1 at *
  replace a2 := a2.frame (g := p1.1) (fun p hp => by rw [x4 p (by omega), c5 p (by omega), b5 p (by omega)])
    (fun t ht => by rw [x5 t (by omega), c6 t (by omega), b6 t (by omega)])
  replace b2 := b2.frame (g := p1.1) (fun p hp => by rw [x4 p (by omega), c5 p (by omega)])
    (fun t ht => by rw [x5 t (by omega), c6 t (by omega)])
  replace c2 := c2.frame (g := p1.1) (fun p hp => by rw [x4 p (by omega)]) (fun t ht => by rw [x5 t (by omega)])
  obtain ⟨y1, y2, y3, y4, y5⟩ := b2.walls (by omega)
  generalize p1.1.newWalls kr.segs = p2 at *
  replace a2 := a2.frame (g := p2.1) (fun p hp => by rw [y4]) (fun t ht => by rw [y5 t (by omega)])
  replace c2 := c2.frame (g := p2.1) (fun p hp => by rw [y4]) (fun t ht => by rw [y5 t (by omega)])
  replace x1 := x1.frame (g := p2.1) (fun p hp => by rw [y4]) (fun t ht => by rw [y5 t (by omega)])
  obtain ⟨z1, z2, z3, z4, z5⟩ := a2.walls (by omega)
  generalize p2.1.newWalls kal.segs = p3 at *
  replace c2 := c2.frame (g := p3.1) (fun p hp => by rw [z4]) (fun t ht => by rw [z5 t (by omega)])
  replace x1 := x1.frame (g := p3.1) (fun p hp => by rw [z4]) (fun t ht => by rw [z5 t (by omega)])
  replace y1 := y1.frame (g := p3.1) (fun p hp => by rw [z4]) (fun t ht => by rw [z5 t (by omega)])
  obtain ⟨u1, u2, u3, u4, u5⟩ := c2.walls (by omega)
  generalize p3.1.newWalls kl.segs = p4 at *
  replace x1 := x1.frame (g := p4.1) (fun p hp => by rw [u4]) (fun t ht => by rw [u5 t (by omega)])
  replace y1 := y1.frame (g := p4.1) (fun p hp => by rw [u4]) (fun t ht => by rw [u5 t (by omega)])
  replace z1 := z1.frame (g := p4.1) (fun p hp => by rw [u4]) (fun t ht => by rw [u5 t (by omega)])
  obtain ⟨l1, l2, l3, l4, l5, l6⟩ := newLine_piece p4.1 ⟨rhe8 (-(d / 2)), rhe8 h1⟩ ⟨rhe8 (-(d / 2)), rhe8 0⟩ .wall ne4
  generalize p4.1.newLine ⟨rhe8 (-(d / 2)), rhe8 h1⟩ ⟨rhe8 (-(d / 2)), rhe8 0⟩ .wall = p5 at *
  replace x1 := x1.frame (g := p5.1) (fun p hp => by rw [l4 p (by omega)]) (fun t ht => by rw [l5 t (by omega)])
  replace y1 := y1.frame (g := p5.1) (fun p hp => by rw [l4 p (by omega)]) (fun t ht => by rw [l5 t (by omega)])
  replace z1 := z1.frame (g := p5.1) (fun p hp => by rw [l4 p (by omega)]) (fun t ht => by rw [l5 t (by omega)])
  replace u1 := u1.frame (g := p5.1) (fun p hp => by rw [l4 p (by omega)]) (fun t ht => by rw [l5 t (by omega)])
  obtain ⟨r1, r2, r3, r4, r5, r6⟩ := newLine_piece p5.1 ⟨rhe8 (-(d / 2)), rhe8 0⟩ ⟨rhe8 (d / 2), rhe8 0⟩ .nonWall ne5
  generalize p5.1.newLine ⟨rhe8 (-(d / 2)), rhe8 0⟩ ⟨rhe8 (d / 2), rhe8 0⟩ .nonWall = p6 at *
  replace x1 := x1.frame (g := p6.1) (fun p hp => by rw [r4 p (by omega)]) (fun t ht => by rw [r5 t (by omega)])
  replace y1 := y1.frame (g := p6.1) (fun p hp => by rw [r4 p (by omega)]) (fun t ht => by rw [r5 t (by omega)])
  replace z1 := z1.frame (g := p6.1) (fun p hp => by rw [r4 p (by omega)]) (fun t ht => by rw [r5 t (by omega)])
  replace u1 := u1.frame (g := p6.1) (fun p hp => by rw [r4 p (by omega)]) (fun t ht => by rw [r5 t (by omega)])
  replace l1 := l1.frame (g := p6.1) (fun p hp => by rw [r4 p (by omega)]) (fun t ht => by rw [r5 t (by omega)])
  refine ⟨p6.1, _, w, hcomp, ⟨?_, ?_, ?_, ?_, ?_, ?_⟩, hnear, ?_, ?_⟩
  · rw [c3, c4, b3, b4, a3, a4] at x1
    exact x1
  · rw [a3, x2, c4, b4, a4] at y1
    exact y1
  · rw [y2, x2, c4, b4, a4] at z1
    exact z1
  · rw [b3, a3, z2, y2, x2, c4, b4, a4] at u1
    exact u1
  · rw [u2, z2, y2, x2, u3, z3, y3, x3, c3, c4, b3, b4, a3, a4] at l1
    exact l1
  · rw [l2, u2, z2, y2, x2, l3, u3, z3, y3, x3, c3, c4, b3, b4, a3, a4] at r1
    exact r1
  · intro p hp
    rw [r4 p (by omega), l4 p (by omega), u4, z4, y4, x4 p (by omega), c5 p (by omega), b5 p (by omega), a5 p (by omega)]
  · intro t ht
    rw [r5 t (by omega), l5 t (by omega), u5 t (by omega), z5 t (by omega), y5 t (by omega), x5 t (by omega), c6 t (by omega),
      b6 t (by omega), a6 t (by omega)]

end real
end Srep
