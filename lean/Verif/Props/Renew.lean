import Verif.Model.Renew
import Verif.Spec.Example

/-! Properties of `Graph.renew` and `add_intex_points`. -/

set_option linter.unusedSectionVars false

namespace Srep
open Rt
variable {K : Type} [Field K] [LinearOrder K] [IsStrictOrderedRing K] [FloorRing K]

/-- the points that one value of `intex_points` has under the key `k` for the segments `ss`, each rounded and with its segment -/
def IxDict.points (R : Rt K) (d : IxDict K) (k : IxKey) (ss : List (Seg K)) : List (Pt K × Seg K) :=
  ss.flatMap fun s => (((d s).bind fun items => items.lookup k).getD []).map fun p => (R.mkPt p.x p.y, s)

/-- a segment is fully described: it is a key, its own dict has every key once, and nothing under an unknown key -/
def IxDict.Describes (d : IxDict K) (s : Seg K) : Prop :=
  ∃ items, d s = some items ∧ (items.map Prod.fst).Nodup ∧ ∀ ps, items.lookup .other = some ps → ps = []

theorem addKeys_append (R : Rt K) (ev : ℕ → Except PyErr (IxDict K)) (s : Seg K) (ks : List IxKey) : ∀ n, ∃ a b c n' e, ∀ g : MarkedPoly K,
    R.addKeys ev s n ks g = (⟨g.segs, g.internal ++ a, g.external ++ b, g.indifferent ++ c⟩, n', e) := by
  induction ks with
  | nil => exact fun n => ⟨[], [], [], n, none, fun g => by simp [addKeys]⟩
  | cons k ks ih =>
    intro n
    obtain ⟨a, b, c, n', e, h⟩ := ih (n + 1)
    cases h1 : ev n with
    | error x => exact ⟨[], [], [], n + 1, some x, fun g => by simp [addKeys, h1]⟩
    | ok d =>
      cases h2 : d s with
      | none => exact ⟨[], [], [], n + 1, some .key, fun g => by simp [addKeys, h1, h2]⟩
      | some items =>
        cases h3 : items.lookup k with
        | none => exact ⟨[], [], [], n + 1, some .key, fun g => by simp [addKeys, h1, h2, h3]⟩
        | some ps =>
          cases k with
          | internal => exact ⟨(ps.map fun p => (R.mkPt p.x p.y, s)) ++ a, b, c, n', e, fun g => by
            simp only [addKeys, h1, h2, h3, addKey, h, List.append_assoc]⟩
          | external => exact ⟨a, (ps.map fun p => (R.mkPt p.x p.y, s)) ++ b, c, n', e, fun g => by
            simp only [addKeys, h1, h2, h3, addKey, h, List.append_assoc]⟩
          | indifferent => exact ⟨a, b, (ps.map fun p => (R.mkPt p.x p.y, s)) ++ c, n', e, fun g => by
            simp only [addKeys, h1, h2, h3, addKey, h, List.append_assoc]⟩
          | other =>
            cases h4 : ps with
            | nil => exact ⟨a, b, c, n', e, fun g => by simp [addKeys, h1, h2, h3, addKey, h, h4]⟩
            | cons q qs => exact ⟨[], [], [], n + 1, some .generic, fun g => by simp [addKeys, h1, h2, h3, addKey, h4]⟩

theorem addSegs_append (R : Rt K) (ev : ℕ → Except PyErr (IxDict K)) (ss : List (Seg K)) : ∀ n, ∃ a b c n' e, ∀ g : MarkedPoly K,
    R.addSegs ev n ss g = (⟨g.segs, g.internal ++ a, g.external ++ b, g.indifferent ++ c⟩, n', e) := by
  induction ss with
  | nil => exact fun n => ⟨[], [], [], n, none, fun g => by simp [addSegs]⟩
  | cons s ss ih =>
    intro n
    cases h1 : ev n with
    | error x => exact ⟨[], [], [], n + 1, some x, fun g => by simp [addSegs, h1]⟩
    | ok d =>
      cases h2 : d s with
      | none => exact ⟨[], [], [], n + 1, some .key, fun g => by simp [addSegs, h1, h2]⟩
      | some items =>
        obtain ⟨a, b, c, m, e, h⟩ := addKeys_append R ev s (items.map Prod.fst) (n + 1)
        cases e with
        | some e => exact ⟨a, b, c, m, some e, fun g => by simp only [addSegs, h1, h2, h]⟩
        | none =>
          obtain ⟨a', b', c', m', e', h'⟩ := ih m
          exact ⟨a ++ a', b ++ b', c ++ c', m', e', fun g => by simp only [addSegs, h1, h2, h, h', List.append_assoc]⟩

/-- C140: `renew` forgets the graph it is called on: the outcome (graph and exception) is the same for all graphs of the part, and the
same as for a graph made anew.  The segments are those of the part even if `intex_points` raises. -/
theorem C140_forgets (R : Rt K) (ev : ℕ → Except PyErr (IxDict K)) (n : ℕ) (repr : List (Seg K)) (g g' : MarkedPoly K) :
    R.renew ev n repr g = R.renew ev n repr g' ∧ (R.renew ev n repr g).1.segs = repr ∧
    (repr ≠ [] → R.newGraph ev n repr = some (R.renew ev n repr g)) := by
  refine ⟨rfl, ?_, ?_⟩
  · obtain ⟨a, b, c, m, e, h⟩ := addSegs_append R ev repr n
    show (R.addSegs ev n repr _).1.segs = repr
    rw [h]
  · intro h
    cases repr with
    | nil => exact absurd rfl h
    | cons s l => rfl

/-- C140: `add_intex_points` only appends: what it adds, and whether it raises, does not depend on the points the graph has.  So without
`renew` every further call adds the points again. -/
theorem C140_appends (R : Rt K) (ev : ℕ → Except PyErr (IxDict K)) (n : ℕ) (repr : List (Seg K)) (g0 : MarkedPoly K) :
    ∀ g : MarkedPoly K, g.segs = repr →
      (R.addIntexPoints ev n g).1 = ⟨repr, g.internal ++ (R.renew ev n repr g0).1.internal,
        g.external ++ (R.renew ev n repr g0).1.external, g.indifferent ++ (R.renew ev n repr g0).1.indifferent⟩ ∧
      (R.addIntexPoints ev n g).2 = (R.renew ev n repr g0).2 := by
  rintro g rfl
  obtain ⟨a, b, c, m, e, h⟩ := addSegs_append R ev g.segs n
  unfold renew addIntexPoints
  simp only [h, List.nil_append, and_self]

theorem addKeys_pure (R : Rt K) (d : IxDict K) (s : Seg K) (items : List (IxKey × List (Pt K))) (hd : d s = some items)
    (ho : ∀ ps, items.lookup .other = some ps → ps = []) (ks : List IxKey) (hk : ks.Nodup)
    (hl : ∀ k ∈ ks, ∃ ps, items.lookup k = some ps) : ∀ n g, R.addKeys (fun _ => .ok d) s n ks g =
      (⟨g.segs, g.internal ++ (if .internal ∈ ks then d.points R .internal [s] else []),
        g.external ++ (if .external ∈ ks then d.points R .external [s] else []),
        g.indifferent ++ (if .indifferent ∈ ks then d.points R .indifferent [s] else [])⟩, n + ks.length, none) := by
  induction ks with
  | nil => intro n g; simp [addKeys]
  | cons k ks ih =>
    intro n g
    obtain ⟨ps, hps⟩ := hl k List.mem_cons_self
    have hn := (List.nodup_cons.1 hk).1
    have ih' := ih (List.nodup_cons.1 hk).2 fun k h => hl k (List.mem_cons_of_mem _ h)
    cases k with
    | other =>
      have := ho _ hps
      subst this
      simp [addKeys, hd, hps, addKey, ih', Nat.add_assoc, Nat.add_comm 1]
    | internal => simp [addKeys, hd, hps, addKey, ih', hn, IxDict.points, Nat.add_assoc, Nat.add_comm 1]
    | external => simp [addKeys, hd, hps, addKey, ih', hn, IxDict.points, Nat.add_assoc, Nat.add_comm 1]
    | indifferent => simp [addKeys, hd, hps, addKey, ih', hn, IxDict.points, Nat.add_assoc, Nat.add_comm 1]

theorem lookup_of_key (items : List (IxKey × List (Pt K))) (k : IxKey) : k ∈ items.map Prod.fst ↔ ∃ ps, items.lookup k = some ps := by
  induction items with
  | nil => simp
  | cons x l ih =>
    obtain ⟨a, ps⟩ := x
    rw [List.lookup_cons]
    by_cases h : k = a
    · subst h; simp
    · have : (k == a) = false := by simpa using h
      simp [this, h, ih]

theorem addSegs_pure (R : Rt K) (d : IxDict K) (ss rest : List (Seg K)) (h : ∀ s ∈ ss, d.Describes s) : ∀ n (g : MarkedPoly K), ∃ m,
    R.addSegs (fun _ => .ok d) n (ss ++ rest) g = R.addSegs (fun _ => .ok d) m rest
      ⟨g.segs, g.internal ++ d.points R .internal ss, g.external ++ d.points R .external ss,
        g.indifferent ++ d.points R .indifferent ss⟩ := by
  induction ss with
  | nil => exact fun n g => ⟨n, by simp [IxDict.points]⟩
  | cons s ss ih =>
    intro n g
    obtain ⟨items, hd, hn, ho⟩ := h s List.mem_cons_self
    have hp : ∀ k, (if k ∈ items.map Prod.fst then d.points R k [s] else []) = d.points R k [s] := by
      intro k
      split
      · rfl
      next hk =>
        rw [lookup_of_key] at hk
        cases e : items.lookup k with
        | none => simp [IxDict.points, hd, e]
        | some ps => exact absurd ⟨ps, e⟩ hk
    have e := addKeys_pure R d s items hd ho (items.map Prod.fst) hn (fun k hk => (lookup_of_key items k).1 hk) (n + 1) g
    rw [hp, hp, hp] at e
    obtain ⟨m, hm⟩ := ih (fun s hs => h s (List.mem_cons_of_mem _ hs)) (n + 1 + (items.map Prod.fst).length)
      ⟨g.segs, g.internal ++ d.points R .internal [s], g.external ++ d.points R .external [s],
        g.indifferent ++ d.points R .indifferent [s]⟩
    refine ⟨m, ?_⟩
    simp only [List.cons_append, addSegs, hd, e, hm]
    have hc : ∀ k, d.points R k (s :: ss) = d.points R k [s] ++ d.points R k ss := by
      intro k; simp [IxDict.points]
    simp only [hc, List.append_assoc]

/-- C140: a part whose `intex_points` is the same at each evaluation and describes every segment of the graph: `renew` does not raise, and
the graph has exactly the points of the part, in the order of the segments, each once. -/
theorem C140_points (R : Rt K) (d : IxDict K) (n : ℕ) (repr : List (Seg K)) (g : MarkedPoly K) (h : ∀ s ∈ repr, d.Describes s) :
    ∃ m, R.renew (fun _ => .ok d) n repr g =
      (⟨repr, d.points R .internal repr, d.points R .external repr, d.points R .indifferent repr⟩, m, none) := by
  obtain ⟨m, hm⟩ := addSegs_pure R d repr [] h n ⟨repr, [], [], []⟩
  refine ⟨m, ?_⟩
  rw [List.append_nil] at hm
  show R.addSegs _ _ _ _ = _
  rw [hm]
  simp [addSegs]

/-- C140: if a segment of the graph is not a key of `intex_points` (as when the dict is made from other segments than the graph), `renew`
raises a KeyError and leaves a graph with the new segments, but only with the points of the segments before this one. -/
theorem C140_missing (R : Rt K) (d : IxDict K) (n : ℕ) (a b : List (Seg K)) (s : Seg K) (g : MarkedPoly K) (h : ∀ s ∈ a, d.Describes s)
    (hs : d s = none) : ∃ m, R.renew (fun _ => .ok d) n (a ++ s :: b) g =
      (⟨a ++ s :: b, d.points R .internal a, d.points R .external a, d.points R .indifferent a⟩, m, some .key) := by
  obtain ⟨m, hm⟩ := addSegs_pure R d a (s :: b) h n ⟨a ++ s :: b, [], [], []⟩
  refine ⟨m + 1, ?_⟩
  show R.addSegs _ _ _ _ = _
  rw [hm]
  simp [addSegs, hs]

theorem addKeys_other (R : Rt K) (d : IxDict K) (s : Seg K) (items : List (IxKey × List (Pt K))) (hd : d s = some items)
    (ps : List (Pt K)) (ho : items.lookup .other = some ps) (hps : ps ≠ []) (ks : List IxKey)
    (hl : ∀ k ∈ ks, ∃ ps, items.lookup k = some ps) (hk : .other ∈ ks) :
    ∀ n g, (R.addKeys (fun _ => .ok d) s n ks g).2.2 = some .generic := by
  induction ks with
  | nil => simp at hk
  | cons k ks ih =>
    intro n g
    obtain ⟨qs, hqs⟩ := hl k List.mem_cons_self
    have ih' := ih fun k h => hl k (List.mem_cons_of_mem _ h)
    cases k with
    | other =>
      obtain rfl : ps = qs := by rw [ho] at hqs; exact Option.some.inj hqs
      have : ps.isEmpty = false := by simpa using hps
      simp [addKeys, hd, ho, addKey, this]
    | internal => simpa [addKeys, hd, hqs, addKey] using ih' (by simpa using hk) _ _
    | external => simpa [addKeys, hd, hqs, addKey] using ih' (by simpa using hk) _ _
    | indifferent => simpa [addKeys, hd, hqs, addKey] using ih' (by simpa using hk) _ _

/-- C140: if `intex_points` has points under an unknown key for a segment, the Exception of `add_intex_points` is raised, whatever the
segments after it. -/
theorem C140_unknown (R : Rt K) (d : IxDict K) (n : ℕ) (a b : List (Seg K)) (s : Seg K) (g : MarkedPoly K) (h : ∀ s ∈ a, d.Describes s)
    (items : List (IxKey × List (Pt K))) (hd : d s = some items) (ps : List (Pt K)) (ho : items.lookup .other = some ps) (hps : ps ≠ []) :
    (R.renew (fun _ => .ok d) n (a ++ s :: b) g).2.2 = some .generic := by
  obtain ⟨m, hm⟩ := addSegs_pure R d a (s :: b) h n ⟨a ++ s :: b, [], [], []⟩
  show (R.addSegs _ _ _ _).2.2 = _
  rw [hm]
  have e := addKeys_other R d s items hd ps ho hps (items.map Prod.fst) (fun k hk => (lookup_of_key items k).1 hk)
    ((lookup_of_key items .other).2 ⟨ps, ho⟩) (m + 1)
    ⟨a ++ s :: b, [] ++ d.points R .internal a, [] ++ d.points R .external a, [] ++ d.points R .indifferent a⟩
  generalize hx : R.addKeys (fun _ => .ok d) s (m + 1) (items.map Prod.fst) _ = x at e
  obtain ⟨g', n', w⟩ := x
  simp only at e
  subst e
  simp only [addSegs, hd, hx]

/-- C140: an exception of `intex_points` itself at its first evaluation is passed on, and leaves the new segments without points. -/
theorem C140_raises (R : Rt K) (ev : ℕ → Except PyErr (IxDict K)) (n : ℕ) (repr : List (Seg K)) (g : MarkedPoly K) (e : PyErr)
    (h : ev n = .error e) (hr : repr ≠ []) : ∃ m, R.renew ev n repr g = (⟨repr, [], [], []⟩, m, some e) := by
  cases repr with
  | nil => exact absurd rfl hr
  | cons s l =>
    refine ⟨n + 1, ?_⟩
    show R.addSegs _ _ _ _ = _
    simp only [addSegs, h]

/-- the sure points of a graph by their kind -/
def MarkedPoly.under (g : MarkedPoly K) : IxKey → List (Pt K × Seg K)
  | .internal => g.internal
  | .external => g.external
  | .indifferent => g.indifferent
  | .other => []

/-- the point `x.1`, kept for the segment `x.2` as one of the kind `k`, is a rounded point of some evaluation of `intex_points` -/
def ComesFrom (R : Rt K) (ev : ℕ → Except PyErr (IxDict K)) (k : IxKey) (x : Pt K × Seg K) : Prop :=
  ∃ n d items ps q, ev n = .ok d ∧ d x.2 = some items ∧ items.lookup k = some ps ∧ q ∈ ps ∧ x.1 = R.mkPt q.x q.y

theorem addKeys_from (R : Rt K) (ev : ℕ → Except PyErr (IxDict K)) (s : Seg K) (ks : List IxKey) : ∀ n (g : MarkedPoly K) (k : IxKey),
    ∀ x ∈ (R.addKeys ev s n ks g).1.under k, x ∈ g.under k ∨ x.2 = s ∧ ComesFrom R ev k x := by
  induction ks with
  | nil => exact fun n g k x hx => Or.inl hx
  | cons a ks ih =>
    intro n g k x hx
    cases h1 : ev n with
    | error e => simp only [addKeys, h1] at hx; exact Or.inl hx
    | ok d =>
      cases h2 : d s with
      | none => simp only [addKeys, h1, h2] at hx; exact Or.inl hx
      | some items =>
        cases h3 : items.lookup a with
        | none => simp only [addKeys, h1, h2, h3] at hx; exact Or.inl hx
        | some ps =>
          have key : x ∈ (R.addKey s a ps g).1.under k → x ∈ g.under k ∨ x.2 = s ∧ ComesFrom R ev k x := by
            intro hx
            have : x ∈ g.under k ∨ k = a ∧ x ∈ ps.map fun p => (R.mkPt p.x p.y, s) := by
              cases a <;> cases k <;> simpa [addKey, MarkedPoly.under] using hx
            rcases this with h | ⟨rfl, h⟩
            · exact Or.inl h
            · obtain ⟨q, hq, rfl⟩ := List.mem_map.1 h
              exact Or.inr ⟨rfl, n, d, items, ps, q, h1, h2, h3, hq, rfl⟩
          cases h4 : R.addKey s a ps g with
          | mk g' w =>
            rw [h4] at key
            cases w with
            | true => simp only [addKeys, h1, h2, h3, h4] at hx; exact key hx
            | false =>
              simp only [addKeys, h1, h2, h3, h4] at hx
              rcases ih _ _ k x hx with h | h
              · exact key h
              · exact Or.inr h

theorem addSegs_from (R : Rt K) (ev : ℕ → Except PyErr (IxDict K)) (ss : List (Seg K)) : ∀ n (g : MarkedPoly K) (k : IxKey),
    ∀ x ∈ (R.addSegs ev n ss g).1.under k, x ∈ g.under k ∨ x.2 ∈ ss ∧ ComesFrom R ev k x := by
  induction ss with
  | nil => exact fun n g k x hx => Or.inl hx
  | cons s ss ih =>
    intro n g k x hx
    cases h1 : ev n with
    | error e => simp only [addSegs, h1] at hx; exact Or.inl hx
    | ok d =>
      cases h2 : d s with
      | none => simp only [addSegs, h1, h2] at hx; exact Or.inl hx
      | some items =>
        have key := addKeys_from R ev s (items.map Prod.fst) (n + 1) g k x
        rcases h3 : R.addKeys ev s (n + 1) (items.map Prod.fst) g with ⟨g', m, _ | e⟩
        · rw [h3] at key
          simp only [addSegs, h1, h2, h3] at hx
          rcases ih _ _ k x hx with h | ⟨h, h'⟩
          · rcases key h with h | ⟨h, h'⟩
            · exact Or.inl h
            · exact Or.inr ⟨h ▸ List.mem_cons_self, h'⟩
          · exact Or.inr ⟨List.mem_cons_of_mem _ h, h'⟩
        · rw [h3] at key
          simp only [addSegs, h1, h2, h3] at hx
          rcases key hx with h | ⟨h, h'⟩
          · exact Or.inl h
          · exact Or.inr ⟨h ▸ List.mem_cons_self, h'⟩

/-- C140, also for random `intex_points` and after an exception: every point of the graph belongs to one of the present segments of the
part and was, under this kind, in some evaluation of `intex_points`. -/
theorem C140_sound (R : Rt K) (ev : ℕ → Except PyErr (IxDict K)) (n : ℕ) (repr : List (Seg K)) (g : MarkedPoly K) (k : IxKey) :
    ∀ x ∈ (R.renew ev n repr g).1.under k, x.2 ∈ repr ∧ ComesFrom R ev k x := by
  intro x hx
  rcases addSegs_from R ev repr n _ k x hx with h | h
  · cases k <;> simp [MarkedPoly.under] at h
  · exact h

theorem points_const (R : Rt K) (d : IxDict K) (k : IxKey) (ss : List (Seg K)) (items : List (IxKey × List (Pt K)))
    (h : ∀ s ∈ ss, d s = some items) (ps : List (Pt K)) (hk : items.lookup k = some ps) :
    d.points R k ss = ss.flatMap fun s => ps.map fun p => (R.mkPt p.x p.y, s) := by
  unfold IxDict.points
  simp only [List.flatMap_def]
  congr 1
  refine List.map_congr_left fun s hs => ?_
  rw [h s hs, Option.bind_some, hk, Option.getD_some]

/-- C140: the renewed graph of a flat head, cut or not, has the Walls of the head as segments; for each of them it has the same two
'indifferent' points, both over the middle of the whole head (so next to no Wall if a hole has been cut there), and no others.
The graph of the end of a room has no points at all. -/
theorem C140_plate {R : Rt K} (hR : R.IsRounding) (m : PlateDim K) (l : List (Seg K)) (n : ℕ) (g : MarkedPoly K) :
    (∃ n', R.renew (fun _ => .ok (R.plateDict m l)) n (wallsOf l) g =
      (⟨wallsOf l, [], [], (wallsOf l).flatMap fun s => (R.plateIntex m).map fun p => (p, s)⟩, n', none)) ∧
    (∀ p ∈ R.plateIntex m, p.x = R.coord m.posH) ∧
    ∃ n', R.renew (fun _ => .ok (endDict l)) n (wallsOf l) g = (⟨wallsOf l, [], [], []⟩, n', none) := by
  refine ⟨?_, ?_, ?_⟩
  · have hd : ∀ s ∈ wallsOf l, R.plateDict m l s = some [(.internal, []), (.external, []), (.indifferent, R.plateIntex m)] :=
      fun s hs => if_pos hs
    obtain ⟨n', h⟩ := C140_points R (R.plateDict m l) n (wallsOf l) g fun s hs =>
      ⟨_, hd s hs, (show [IxKey.internal, .external, .indifferent].Nodup by decide), fun ps h => by cases (show (none : Option (List (Pt K))) = some ps from h)⟩
    refine ⟨n', ?_⟩
    rw [h, points_const R _ _ _ _ hd [] rfl, points_const R _ _ _ _ hd [] rfl, points_const R _ _ _ _ hd (R.plateIntex m) rfl]
    have e : (R.plateIntex m).map (fun p => R.mkPt p.x p.y) = R.plateIntex m := by
      simp [plateIntex, mkPt, hR.coord_idem]
    have e' : ∀ s : Seg K, (R.plateIntex m).map (fun p => (R.mkPt p.x p.y, s)) = (R.plateIntex m).map fun p => (p, s) := by
      intro s
      conv_rhs => rw [← e, List.map_map]
      rfl
    simp only [Prod.mk.injEq, MarkedPoly.mk.injEq, and_true, true_and]
    refine ⟨by simp, by simp, ?_⟩
    simp only [e']
  · intro p hp
    simp only [plateIntex, List.mem_cons, List.not_mem_nil, or_false] at hp
    rcases hp with rfl | rfl <;> rfl
  · have hd : ∀ s ∈ wallsOf l, endDict l s = some [(.internal, []), (.external, []), (.indifferent, [])] :=
      fun s hs => if_pos hs
    obtain ⟨n', h⟩ := C140_points R (endDict l) n (wallsOf l) g fun s hs =>
      ⟨_, hd s hs, (show [IxKey.internal, .external, .indifferent].Nodup by decide), fun ps h => by cases (show (none : Option (List (Pt K))) = some ps from h)⟩
    refine ⟨n', ?_⟩
    rw [h, points_const R _ _ _ _ hd [] rfl, points_const R _ _ _ _ hd [] rfl, points_const R _ _ _ _ hd [] rfl]
    simp

/-! ### example: one described segment with an internal and an external point -/

example : ∃ d : IxDict ℚ, d.Describes ⟨⟨0, 0⟩, ⟨1, 0⟩, .wall⟩ ∧
    d.points exRt .internal [⟨⟨0, 0⟩, ⟨1, 0⟩, .wall⟩] = [(⟨1, 1⟩, ⟨⟨0, 0⟩, ⟨1, 0⟩, .wall⟩)] ∧ d ⟨⟨1, 0⟩, ⟨1, 1⟩, .wall⟩ = none := by
  refine ⟨fun s => if s.i.x = 0 then some [(.internal, [⟨1, 1⟩]), (.external, [⟨1, -1⟩]), (.indifferent, [])] else none, ?_, ?_, ?_⟩
  · exact ⟨_, if_pos rfl, by decide, fun ps h => by cases (show (none : Option (List (Pt ℚ))) = some ps from h)⟩
  · decide +kernel
  · exact if_neg (by decide)

end Srep
