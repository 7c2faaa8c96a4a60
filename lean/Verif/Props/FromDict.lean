import Verif.Model.FromDict
import Verif.Props.Mantel
import Verif.Props.Head
import Verif.Props.Flat

/-!
# C105: parts from dicts
-/

namespace Srep

open Rt

section
variable {K O : Type}

theorem args_ok (d : PartDict K) (keys : List String) (v : List (DictVal K)) :
    d.args keys = .ok v ↔ List.Forall₂ (fun k x => d.lookup k = some x) keys v := by
  induction keys generalizing v with
  | nil =>
    constructor
    · intro h
      injection h with h
      subst h
      exact .nil
    · rintro ⟨⟩
      rfl
  | cons k ks ih =>
    unfold PartDict.args PartDict.get
    cases hk : d.lookup k with
    | none =>
      refine ⟨fun h => ?_, ?_⟩
      · cases h
      · rintro (_ | ⟨h, -⟩)
        rw [hk] at h
        cases h
    | some x =>
      dsimp only
      cases ha : d.args ks with
      | error e =>
        refine ⟨fun h => ?_, ?_⟩
        · cases h
        · rintro (_ | ⟨h, h2⟩)
          rw [(ih _).2 h2] at ha
          cases ha
      | ok l =>
        have := (ih l).1 ha
        constructor
        · intro h
          injection h with h
          subst h
          exact .cons hk this
        · rintro (_ | ⟨h, h2⟩)
          rw [hk] at h
          injection h with h
          subst h
          have e := (ih _).2 h2
          rw [ha] at e
          injection e with e
          subst e
          rfl

theorem args_missing (d : PartDict K) (keys : List String) (h : ∃ k ∈ keys, d.lookup k = none) : d.args keys = .error .key := by
  induction keys with
  | nil => obtain ⟨k, hk, -⟩ := h; cases hk
  | cons k ks ih =>
    unfold PartDict.args PartDict.get
    cases hk : d.lookup k with
    | none => rfl
    | some x =>
      obtain ⟨k', hk', h'⟩ := h
      rw [List.mem_cons] at hk'
      rcases hk' with rfl | hk'
      · rw [hk] at h'; cases h'
      · dsimp only
        rw [ih ⟨k', hk', h'⟩]
        rfl

theorem attrList_ok {α : Type} (attr : α → Except PyErr Bool) (l : List α) (f : α → Bool) (h : ∀ k ∈ l, attr k = .ok (f k)) :
    attrList attr l = .ok (l.map f) := by
  induction l with
  | nil => rfl
  | cons k ks ih =>
    unfold attrList
    rw [h k (List.mem_cons_self ..), ih fun x hx => h x (List.mem_cons_of_mem _ hx)]
    rfl

theorem attrList_all {α : Type} (attr : α → Except PyErr Bool) (l : List α) (b : List Bool) (h : attrList attr l = .ok b)
    (hb : b.all id = true) : ∀ k ∈ l, attr k = .ok true := by
  induction l generalizing b with
  | nil => intro k hk; cases hk
  | cons a l ih =>
    unfold attrList at h
    cases ha : attr a with
    | error e => rw [ha] at h; cases h
    | ok x =>
      rw [ha] at h
      dsimp only at h
      cases hr : attrList attr l with
      | error e => rw [hr] at h; cases h
      | ok y =>
        rw [hr] at h
        injection h with h
        subst h
        simp only [List.all_cons, id, Bool.and_eq_true] at hb
        intro k hk
        rw [List.mem_cons] at hk
        rcases hk with rfl | hk
        · rw [ha, hb.1]
        · exact ih y hr hb.2 k hk

variable (keys : List String) (make : List (DictVal K) → Except PyErr O) (attr : O → String → Except PyErr Bool) (d : PartDict K)

/-- C105: without one of the keys no part is made, and the bare Exception is raised. -/
theorem C105_missing (h : ∃ k ∈ keys, k ∉ d.map Prod.fst) : fromDict keys make attr d = .error .generic := by
  unfold fromDict
  rw [args_missing d keys]
  obtain ⟨k, hk, h⟩ := h
  refine ⟨k, hk, ?_⟩
  rw [List.lookup_eq_none_iff]
  intro p hp
  rw [bne_iff_ne]
  rintro rfl
  exact h (List.mem_map_of_mem hp)

/-- C105: a part is returned iff all keys are there, the constructor succeeds with their values, and every key of the dict is
the name of an attribute of the part; the part is that of the constructor. -/
theorem C105_iff (o : O) : fromDict keys make attr d = .ok o ↔
    ∃ v, List.Forall₂ (fun k x => d.lookup k = some x) keys v ∧ make v = .ok o ∧ ∀ k ∈ d.map Prod.fst, attr o k = .ok true := by
  constructor
  · intro h
    unfold fromDict at h
    cases ha : d.args keys with
    | error e =>
      rw [ha] at h
      dsimp only at h
      cases e <;> cases h
    | ok v =>
      rw [ha] at h
      dsimp only at h
      cases hm : make v with
      | error e =>
        rw [hm] at h
        dsimp only at h
        cases e <;> cases h
      | ok o' =>
        rw [hm] at h
        dsimp only at h
        cases hl : attrList (attr o') (d.map Prod.fst) with
        | error e =>
          rw [hl] at h
          dsimp only at h
          cases e <;> cases h
        | ok b =>
          rw [hl] at h
          dsimp only at h
          by_cases hb : b.all id = true
          · rw [if_pos hb] at h
            dsimp only at h
            injection h with h
            subst h
            exact ⟨v, (args_ok d keys v).1 ha, hm, attrList_all _ _ _ hl hb⟩
          · rw [if_neg hb] at h
            cases h
  · rintro ⟨v, hv, hm, hk⟩
    unfold fromDict
    rw [(args_ok d keys v).2 hv]
    dsimp only
    rw [hm]
    dsimp only
    rw [attrList_ok (attr o) _ (fun _ => true) hk]
    dsimp only
    rw [if_pos (by simp)]

/-- C105: if all keys are there and the constructor succeeds, one key that is not the name of an attribute makes the call raise
an AssertionError. -/
theorem C105_unknown (v : List (DictVal K)) (hv : List.Forall₂ (fun k x => d.lookup k = some x) keys v) (o : O)
    (hm : make v = .ok o) (f : String → Bool) (hf : ∀ k ∈ d.map Prod.fst, attr o k = .ok (f k)) (k : String) (hk : k ∈ d.map Prod.fst)
    (hkf : f k = false) : fromDict keys make attr d = .error .assertion := by
  unfold fromDict
  rw [(args_ok d keys v).2 hv]
  dsimp only
  rw [hm]
  dsimp only
  rw [attrList_ok (attr o) _ f hf]
  dsimp only
  rw [if_neg]
  intro hall
  rw [List.all_eq_true] at hall
  have := hall (f k) (List.mem_map_of_mem hk)
  rw [hkf] at this
  cases this

end

section
variable {K : Type} [Field K] [LinearOrder K] [IsStrictOrderedRing K] [FloorRing K] (R : Rt K)

/-- the items a shell needs -/
structure MantelItems (a : PartDict K) (m : MantelDim K) : Prop where
  name : "name" ∈ a.map Prod.fst
  posV : a.lookup "pos_v" = some (.num m.posV)
  posH : a.lookup "pos_h" = some (.num m.posH)
  d : ∃ l, a.lookup "d" = some (.nums (m.d0 :: m.d1 :: l))
  h : a.lookup "h" = some (.num m.h)

theorem lookup_of_mem {d : PartDict K} {k : String} (h : k ∈ d.map Prod.fst) : ∃ x, d.lookup k = some x := by
  cases hk : d.lookup k with
  | some x => exact ⟨x, rfl⟩
  | none =>
    rw [List.lookup_eq_none_iff] at hk
    obtain ⟨p, hp, rfl⟩ := List.mem_map.1 h
    have := hk p hp
    simp at this

/-- C105: the shell from a dict is the shell of the constructor; further items whose keys are names of attributes, and further
numbers in `d`, change nothing. -/
theorem C105_mantel (h : Heap K) (attr : Heap K × Part2 → String → Except PyErr Bool) (d : PartDict K) (m : MantelDim K)
    (hi : MantelItems d m) (ha : ∀ k ∈ d.map Prod.fst, attr (R.mantelNew h m .nonWall) k = .ok true) :
    R.mantelFromDict h attr d = .ok (R.mantelNew h m .nonWall) := by
  obtain ⟨x, hx⟩ := lookup_of_mem hi.name
  obtain ⟨l, hl⟩ := hi.d
  exact (C105_iff _ _ _ _ _).2 ⟨_, .cons hx (.cons hi.posV (.cons hi.posH (.cons hl (.cons hi.h .nil)))), rfl, ha⟩

/-- C105: a tuple `d` of less than two diameters ends with an IndexError, a single number with a TypeError. -/
theorem C105_diameters (h : Heap K) (attr : Heap K × Part2 → String → Except PyErr Bool) (d : PartDict K) (v x t : K)
    (hn : "name" ∈ d.map Prod.fst) (hv : d.lookup "pos_v" = some (.num v)) (hh : d.lookup "pos_h" = some (.num x))
    (ht : d.lookup "h" = some (.num t)) :
    (∀ l, d.lookup "d" = some (.nums l) → l.length < 2 → R.mantelFromDict h attr d = .error .index) ∧
    ∀ y, d.lookup "d" = some (.num y) → R.mantelFromDict h attr d = .error .type := by
  obtain ⟨a, ha⟩ := lookup_of_mem hn
  refine ⟨fun l hl h2 => ?_, fun y hy => ?_⟩ <;> unfold Rt.mantelFromDict fromDict
  · rw [(args_ok d _ _).2 (.cons ha (.cons hv (.cons hh (.cons hl (.cons ht .nil)))))]
    match l, h2 with
    | [], _ => rfl
    | [_], _ => rfl
  · rw [(args_ok d _ _).2 (.cons ha (.cons hv (.cons hh (.cons hy (.cons ht .nil)))))]
    rfl

/-- C105: `StandZarge.from_dict` does not make a skirt: the part is a shell with two walls in its graph, and valid if it is a
cylinder, while every skirt has three walls in its graph and is invalid. -/
theorem C105_skirt (hR : R.IsRounding) (h : Heap K) (attr : Heap K × Part2 → String → Except PyErr Bool) (d : PartDict K)
    (m : MantelDim K) (hi : MantelItems d m) (hc : CornersApart R m) (r : Heap K × Part2) (hr : R.standZargeFromDict h attr d = .ok r) :
    r.2.graph.length = 2 ∧ (m.d0 = m.d1 → R.mantelValid r.1 r.2 = true) ∧
      (R.standZargeNew h m).2.graph.length = 3 ∧ R.mantelValid (R.standZargeNew h m).1 (R.standZargeNew h m).2 = false := by
  obtain ⟨v, hv, hm, -⟩ := (C105_iff _ _ _ _ _).1 hr
  obtain ⟨x, hx⟩ := lookup_of_mem hi.name
  obtain ⟨l, hl⟩ := hi.d
  have e := (args_ok d _ _).2 hv
  rw [(args_ok d ["name", "pos_v", "pos_h", "d", "h"] _).2
    (.cons hx (.cons hi.posV (.cons hi.posH (.cons hl (.cons hi.h .nil)))))] at e
  injection e with e
  subst e
  have er : r = R.mantelNew h m .nonWall := by
    have : R.makeMantel h [x, .num m.posV, .num m.posH, .nums (m.d0 :: m.d1 :: l), .num m.h] = .ok (R.mantelNew h m .nonWall) := rfl
    rw [this] at hm
    injection hm with hm
    exact hm.symm
  subst er
  obtain ⟨-, hg, -⟩ := C72_outline hR h m hc
  refine ⟨?_, fun hd => C72_valid_cylinder hR h m hc hd, C73_never_valid R h m⟩
  have := congrArg List.length hg
  simpa [Heap.vals] using this

/-- C105: the flat head (or end of a room) from a dict is that of the constructor -/
theorem C105_plate (h : Heap K) (attr : Heap K × Part2 → String → Except PyErr Bool) (d : PartDict K) (m : PlateDim K)
    (hn : "name" ∈ d.map Prod.fst) (hv : d.lookup "pos_v" = some (.num m.posV)) (hh : d.lookup "pos_h" = some (.num m.posH))
    (hd : d.lookup "d" = some (.num m.d)) (ha : ∀ k ∈ d.map Prod.fst, attr (R.plateNew h m) k = .ok true) :
    R.plateFromDict h attr d = .ok (R.plateNew h m) := by
  obtain ⟨x, hx⟩ := lookup_of_mem hn
  exact (C105_iff _ _ _ _ _).2 ⟨_, .cons hx (.cons hv (.cons hh (.cons hd .nil))), rfl, ha⟩

/-- C105: the torispherical head from a dict is that of the constructor -/
theorem C105_head (h : Heap K) (k : HeadKind) (attr : Heap K × PLine → String → Except PyErr Bool) (d : PartDict K) (m : HeadDim K)
    (hn : "name" ∈ d.map Prod.fst) (hv : d.lookup "pos_v" = some (.num m.posV)) (hh : d.lookup "pos_h" = some (.num m.posH))
    (hd : d.lookup "d" = some (.num m.d)) (h1 : d.lookup "h1" = some (.num m.h1)) (ho : d.lookup "orient" = some (.num m.orient))
    (r : Heap K × PLine) (hr : R.headNew h k m = .ok r) (ha : ∀ k ∈ d.map Prod.fst, attr r k = .ok true) :
    R.headFromDict h k attr d = .ok r := by
  obtain ⟨x, hx⟩ := lookup_of_mem hn
  exact (C105_iff _ _ _ _ _).2 ⟨_, .cons hx (.cons hv (.cons hh (.cons hd (.cons h1 (.cons ho .nil))))), hr, ha⟩

/-- C105: no tube sheet is ever made from a dict: the bare Exception if a key is missing, a TypeError otherwise. -/
theorem C105_tube_sheet (attr : Heap K × Part2 → String → Except PyErr Bool) (d : PartDict K) :
    (Rt.tubeSheetFromDict attr d = .error .generic ∧ ∃ k ∈ ["name", "pos_v", "pos_h", "d"], k ∉ d.map Prod.fst) ∨
    (Rt.tubeSheetFromDict attr d = .error .type ∧ ∀ k ∈ ["name", "pos_v", "pos_h", "d"], k ∈ d.map Prod.fst) := by
  by_cases h : ∃ k ∈ ["name", "pos_v", "pos_h", "d"], k ∉ d.map Prod.fst
  · exact Or.inl ⟨C105_missing _ _ _ _ h, h⟩
  · push Not at h
    refine Or.inr ⟨?_, h⟩
    obtain ⟨a, ha⟩ := lookup_of_mem (h "name" (by simp))
    obtain ⟨b, hb⟩ := lookup_of_mem (h "pos_v" (by simp))
    obtain ⟨c, hc⟩ := lookup_of_mem (h "pos_h" (by simp))
    obtain ⟨e, he⟩ := lookup_of_mem (h "d" (by simp))
    unfold Rt.tubeSheetFromDict fromDict
    rw [(args_ok d _ _).2 (.cons ha (.cons hb (.cons hc (.cons he .nil))))]
    rfl

end

/-! ### concrete cases -/

/-- the dict of tests/test_SRhauptteile.py:76-83 with one more item -/
def exDict (extra : String) : PartDict ℚ :=
  [("name", .other), ("pos_v", .num 1), ("pos_h", .num 2), ("d", .nums [4, 4]), ("h", .num 3), (extra, .other)]

/-- some of the attributes of a shell -/
def exAttr (_ : Heap ℚ × Part2) (k : String) : Except PyErr Bool :=
  .ok (k ∈ ["name", "pos_v", "pos_h", "d", "h", "typ", "segments", "graph"])

example : MantelItems (exDict "segments") ⟨1, 2, 4, 4, 3⟩ ∧ CornersApart exRt ⟨1, 2, 4, 4, 3⟩ ∧
    (exRt.standZargeFromDict noObjects exAttr (exDict "segments")).toOption.isSome = true := by
  refine ⟨⟨by decide, by decide, by decide, ⟨[], by decide⟩, by decide⟩, ?_, by decide +kernel⟩
  unfold CornersApart
  decide +kernel

/-- a misspelt extra key is found, a key such as "segments" is not -/
example : (match exRt.mantelFromDict noObjects exAttr (exDict "heigth") with | .error e => some e | .ok _ => none) = some .assertion ∧
    (match exRt.mantelFromDict noObjects exAttr (exDict "segments") with | .error e => some e | .ok _ => none) = none ∧
    (match exRt.mantelFromDict noObjects exAttr [] with | .error e => some e | .ok _ => none) = some .generic := by
  decide +kernel

example : (match exRt.mantelFromDict noObjects exAttr
    [("name", .other), ("pos_v", .num 1), ("pos_h", .num 2), ("d", .nums [4]), ("h", .num 3)] with
    | .error e => some e | .ok _ => none) = some .index := by
  decide +kernel

end Srep
