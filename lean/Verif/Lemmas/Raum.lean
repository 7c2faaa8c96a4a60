import Verif.Model.Raum
import Verif.Spec.Raum
import Verif.Props.Group

/-! Lemmas about the loops of `raum_erstellen`. -/

namespace Srep
variable {α : Type}

theorem getD_left (l m : List (ℕ × ℕ)) {j : ℕ} (hj : j < l.length) :
    (l ++ m).getD j (0, 0) = l.getD j (0, 0) := by
  simp [List.getD_eq_getElem?_getD, List.getElem?_append_left hj]

theorem getD_eq_get (l : List (ℕ × ℕ)) {j : ℕ} (hj : j < l.length) : l.getD j (0, 0) = l[j] := by
  simp [List.getD_eq_getElem?_getD, hj]

theorem seenPair_iff (k v : ℕ × ℕ) : seenPair k v = true ↔ Shares k v := by
  unfold seenPair Shares
  simp only [Bool.or_eq_true, decide_eq_true_eq]
  constructor
  · rintro (((h | h) | h) | h)
    · exact ⟨_, Or.inl rfl, Or.inl h⟩
    · exact ⟨_, Or.inl rfl, Or.inr h⟩
    · exact ⟨_, Or.inr rfl, Or.inl h⟩
    · exact ⟨_, Or.inr rfl, Or.inr h⟩
  · rintro ⟨x, rfl | rfl, h | h⟩ <;> simp [h]

theorem strangers_cons (k v : ℕ × ℕ) (l : List (ℕ × ℕ)) :
    strangers k (v :: l) = (if Shares k v then 0 else 1) + strangers k l := by
  unfold strangers
  by_cases h : Shares k v
  · simp [h]
  · simp [h]; omega

theorem mem_modify_append {iw : List (List α)} {n : ℕ} (hn : n < iw.length) (w : List α) (x : α) :
    x ∈ (iw.modify n (· ++ w)).flatten ↔ x ∈ iw.flatten ∨ x ∈ w := by
  induction iw generalizing n with
  | nil => simp at hn
  | cons a iw ih =>
    cases n with
    | zero =>
      rw [List.modify_zero_cons, List.flatten_cons, List.flatten_cons, List.mem_append, List.mem_append, List.mem_append,
        or_right_comm]
    | succ n =>
      rw [List.modify_succ_cons, List.flatten_cons, List.mem_append, ih (by simpa using hn), List.flatten_cons,
        List.mem_append, or_assoc]

theorem iwVisit_ok (w : List α) (k : ℕ × ℕ) : ∀ (vs : List (ℕ × ℕ)) (n : ℕ) (iw r : List (List α)),
    iwVisit w k vs n iw = .ok r → r.length = iw.length + strangers k vs ∧
      ∀ x, x ∈ r.flatten ↔ x ∈ iw.flatten ∨ (vs ≠ [] ∧ x ∈ w) := by
  intro vs
  induction vs with
  | nil =>
    intro n iw r h
    injection h with h
    subst h
    simp [strangers]
  | cons v vs ih =>
    intro n iw r h
    rw [iwVisit] at h
    rw [strangers_cons]
    by_cases hs : Shares k v
    · rw [if_pos ((seenPair_iff k v).2 hs)] at h
      split_ifs at h with hn
      · obtain ⟨h1, h2⟩ := ih _ _ _ h
        rw [List.length_modify] at h1
        refine ⟨by rw [if_pos hs]; omega, fun x => ?_⟩
        rw [h2, mem_modify_append hn]
        simp; tauto
    · rw [if_neg (fun c => hs ((seenPair_iff k v).1 c))] at h
      obtain ⟨h1, h2⟩ := ih _ _ _ h
      rw [List.length_append, List.length_singleton] at h1
      refine ⟨by rw [if_neg hs]; omega, fun x => ?_⟩
      rw [h2, List.flatten_append, List.mem_append]
      simp; tauto

theorem iwVisit_error (w : List α) (k : ℕ × ℕ) : ∀ (vs : List (ℕ × ℕ)) (n : ℕ) (iw : List (List α)),
    (∀ e, iwVisit w k vs n iw = .error e → e = .index) ∧
    ((∃ e, iwVisit w k vs n iw = .error e) ↔
      ∃ v, ∃ hv : v < vs.length, Shares k vs[v] ∧ iw.length + strangers k (vs.take v) ≤ n + v) := by
  intro vs
  induction vs with
  | nil => intro n iw; simp [iwVisit]
  | cons a vs ih =>
    intro n iw
    rw [iwVisit]
    by_cases hs : Shares k a
    · rw [if_pos ((seenPair_iff k a).2 hs)]
      by_cases hn : n < iw.length
      · rw [if_pos hn]
        refine ⟨(ih _ _).1, (ih _ _).2.trans ?_⟩
        rw [List.length_modify]
        constructor
        · rintro ⟨v, hv, h1, h2⟩
          refine ⟨v + 1, by simpa using hv, by simpa using h1, ?_⟩
          rw [List.take_succ_cons, strangers_cons, if_pos hs]; omega
        · rintro ⟨v, hv, h1, h2⟩
          cases v with
          | zero => simp [strangers] at h2; omega
          | succ v =>
            refine ⟨v, by simpa using hv, by simpa using h1, ?_⟩
            rw [List.take_succ_cons, strangers_cons, if_pos hs] at h2; omega
      · rw [if_neg hn]
        refine ⟨fun e h => by injection h with h; exact h.symm, fun _ => ⟨0, by simp, by simpa using hs, ?_⟩,
          fun _ => ⟨_, rfl⟩⟩
        simp [strangers]; omega
    · rw [if_neg (fun c => hs ((seenPair_iff k a).1 c))]
      refine ⟨(ih _ _).1, (ih _ _).2.trans ?_⟩
      rw [List.length_append, List.length_singleton]
      constructor
      · rintro ⟨v, hv, h1, h2⟩
        refine ⟨v + 1, by simpa using hv, by simpa using h1, ?_⟩
        rw [List.take_succ_cons, strangers_cons, if_neg hs]; omega
      · rintro ⟨v, hv, h1, h2⟩
        cases v with
        | zero => exact absurd h1 hs
        | succ v =>
          refine ⟨v, by simpa using hv, by simpa using h1, ?_⟩
          rw [List.take_succ_cons, strangers_cons, if_neg hs] at h2; omega

theorem strangerPairs_concat (l : List (ℕ × ℕ)) (k : ℕ × ℕ) :
    strangerPairs (l ++ [k]) = strangerPairs l + strangers k l := by
  unfold strangerPairs
  rw [List.length_append, List.length_singleton, Finset.sum_range_succ]
  congr 1
  · apply Finset.sum_congr rfl
    intro j hj
    have hj := Finset.mem_range.1 hj
    rw [getD_left _ _ hj, List.take_append_of_le_length hj.le]
  · rw [List.take_left]
    simp [List.getD_eq_getElem?_getD]

/-- the pairs `vis ++ ks`, of which `vis` is done -/
theorem iwLoop_spec (own : ℕ × ℕ → List α) : ∀ (ks vis : List (ℕ × ℕ)) (iw : List (List α)), vis ≠ [] →
    iw.length = 1 + strangerPairs vis →
    (∀ r, iwLoop own ks vis iw = .ok r → r.length = 1 + strangerPairs (vis ++ ks) ∧
      ∀ x, x ∈ r.flatten ↔ x ∈ iw.flatten ∨ ∃ k ∈ ks, x ∈ own k) ∧
    (∀ e, iwLoop own ks vis iw = .error e → e = .index) ∧
    ((∃ e, iwLoop own ks vis iw = .error e) ↔ ∃ j v, vis.length ≤ j ∧ j < (vis ++ ks).length ∧ v < j ∧
      Shares ((vis ++ ks).getD j (0, 0)) ((vis ++ ks).getD v (0, 0)) ∧
      strangerPairs ((vis ++ ks).take j) + strangers ((vis ++ ks).getD j (0, 0)) ((vis ++ ks).take v) < v) := by
  intro ks
  induction ks with
  | nil =>
    intro vis iw hv hl
    refine ⟨?_, ?_, ?_⟩
    · intro r h
      injection h with h
      subst h
      simp [hl]
    · intro e h; cases h
    · constructor
      · rintro ⟨e, h⟩; cases h
      · rintro ⟨j, v, h1, h2, -⟩; simp at h2; omega
  | cons k ks ih =>
    intro vis iw hv hl
    rw [iwLoop, if_neg hv]
    have happ : vis ++ k :: ks = (vis ++ [k]) ++ ks := by simp
    have hk : (vis ++ k :: ks).getD vis.length (0, 0) = k := by simp [List.getD_eq_getElem?_getD]
    have htk : (vis ++ k :: ks).take vis.length = vis := List.take_left
    obtain ⟨hE1, hE2⟩ := iwVisit_error (own k) k vis 0 iw
    cases hc : iwVisit (own k) k vis 0 iw with
    | error e =>
      refine ⟨fun r h => (by cases h), fun e' h => ?_, ⟨fun _ => ?_, fun _ => ⟨e, rfl⟩⟩⟩
      · injection h with h
        subst h
        exact hE1 e hc
      · obtain ⟨v, hvl, h1, h2⟩ := hE2.1 ⟨e, hc⟩
        refine ⟨vis.length, v, le_rfl, by simp, hvl, ?_, ?_⟩
        · rw [hk, getD_left _ _ hvl, getD_eq_get _ hvl]; exact h1
        · rw [htk, hk, List.take_append_of_le_length hvl.le]; omega
    | ok iw' =>
      obtain ⟨h1, h2⟩ := iwVisit_ok _ _ _ _ _ _ hc
      obtain ⟨g1, g2, g3⟩ := ih (vis ++ [k]) iw' (by simp) (by rw [strangerPairs_concat]; omega)
      rw [← happ] at g1 g3
      refine ⟨fun r hr => ?_, g2, g3.trans ?_⟩
      · obtain ⟨f1, f2⟩ := g1 r hr
        refine ⟨f1, fun x => ?_⟩
        rw [f2, h2, or_assoc]
        simp only [ne_eq, hv, not_false_eq_true, true_and, List.mem_cons, or_and_right, exists_or, exists_eq_left]
      · constructor
        · rintro ⟨j, v, hj, hr⟩
          exact ⟨j, v, by simp at hj; omega, hr⟩
        · rintro ⟨j, v, hj, hj2, hvj, hs, hlt⟩
          refine ⟨j, v, ?_, hj2, hvj, hs, hlt⟩
          rw [List.length_append, List.length_singleton]
          rcases Nat.lt_or_ge vis.length j with h | h
          · exact h
          · exfalso
            have hj' : j = vis.length := by omega
            subst hj'
            have : ∃ e, iwVisit (own k) k vis 0 iw = .error e := by
              rw [hE2]
              refine ⟨v, hvj, ?_, ?_⟩
              · rw [hk, getD_left _ _ hvj, getD_eq_get _ hvj] at hs; exact hs
              · rw [htk, hk, List.take_append_of_le_length hvj.le] at hlt; omega
            obtain ⟨e, he⟩ := this
            rw [hc] at he
            cases he

/-- the loop from its beginning -/
theorem iwLoop_start (own : ℕ × ℕ → List α) (ks : List (ℕ × ℕ)) :
    (∀ r, iwLoop own ks [] [] = .ok r → (ks ≠ [] → r.length = 1 + strangerPairs ks) ∧ (ks = [] → r = []) ∧
      ∀ x, x ∈ r.flatten ↔ ∃ k ∈ ks, x ∈ own k) ∧
    (∀ e, iwLoop own ks [] [] = .error e → e = .index) ∧
    ((∃ e, iwLoop own ks [] [] = .error e) ↔ ∃ j v, j < ks.length ∧ v < j ∧
      Shares (ks.getD j (0, 0)) (ks.getD v (0, 0)) ∧
      strangerPairs (ks.take j) + strangers (ks.getD j (0, 0)) (ks.take v) < v) := by
  cases ks with
  | nil =>
    refine ⟨?_, ?_, ?_⟩
    · intro r h
      injection h with h
      subst h
      simp
    · intro e h; cases h
    · constructor
      · rintro ⟨e, h⟩; cases h
      · rintro ⟨j, v, h, -⟩; simp at h
  | cons k ks =>
    have e0 : iwLoop own (k :: ks) [] [] = iwLoop own ks [k] [own k] := rfl
    rw [e0]
    obtain ⟨g1, g2, g3⟩ := iwLoop_spec own ks [k] [own k] (by simp) (by simp [strangerPairs, strangers])
    refine ⟨fun r hr => ?_, g2, g3.trans ?_⟩
    · obtain ⟨f1, f2⟩ := g1 r hr
      refine ⟨fun _ => f1, by simp, fun x => ?_⟩
      rw [f2]; simp
    · constructor
      · rintro ⟨j, v, -, h⟩; exact ⟨j, v, h⟩
      · rintro ⟨j, v, h1, h2, h3⟩; exact ⟨j, v, by simp; omega, h1, h2, h3⟩

theorem mapM_ok_iff {β γ : Type} (f : β → Except PyErr γ) : ∀ (l : List β) (r : List γ), l.mapM f = .ok r →
    List.Forall₂ (fun a b => f a = .ok b) l r := by
  intro l
  induction l with
  | nil => intro r h; cases h; exact .nil
  | cons a l ih =>
    intro r h
    rw [List.mapM_cons] at h
    cases ha : f a with
    | error e => rw [ha] at h; cases h
    | ok b =>
      rw [ha] at h
      cases hl : l.mapM f with
      | error e => rw [hl] at h; cases h
      | ok r' =>
        rw [hl] at h
        cases h
        exact .cons ha (ih _ hl)

theorem mapM_error_iff {β γ : Type} (f : β → Except PyErr γ) : ∀ (l : List β),
    (∃ e, l.mapM f = .error e) ↔ ∃ a ∈ l, ∃ e, f a = .error e := by
  intro l
  induction l with
  | nil =>
    constructor
    · rintro ⟨e, h⟩; cases h
    · rintro ⟨a, h, -⟩; cases h
  | cons a l ih =>
    rw [List.mapM_cons]
    cases ha : f a with
    | error e => exact ⟨fun _ => ⟨a, List.mem_cons_self, e, ha⟩, fun _ => ⟨e, rfl⟩⟩
    | ok b =>
      cases hl : l.mapM f with
      | error e =>
        obtain ⟨c, hc, e', he⟩ := ih.1 ⟨e, hl⟩
        exact ⟨fun _ => ⟨c, List.mem_cons_of_mem _ hc, e', he⟩, fun _ => ⟨e, rfl⟩⟩
      | ok r =>
        constructor
        · rintro ⟨e, h⟩; cases h
        · rintro ⟨c, hc, e, he⟩
          rcases List.mem_cons.1 hc with rfl | hc
          · rw [ha] at he; cases he
          · obtain ⟨e', h'⟩ := ih.2 ⟨c, hc, e, he⟩
            rw [hl] at h'; cases h'

theorem mapM_error_index {β γ : Type} (f : β → Except PyErr γ) (err : PyErr) : ∀ (l : List β),
    (∀ a ∈ l, ∀ e, f a = .error e → e = err) → ∀ e, l.mapM f = .error e → e = err := by
  intro l
  induction l with
  | nil => intro _ e h; cases h
  | cons a l ih =>
    intro hf e h
    rw [List.mapM_cons] at h
    cases ha : f a with
    | error e' =>
      rw [ha] at h
      injection h with h
      rw [← h]
      exact hf a List.mem_cons_self e' ha
    | ok b =>
      rw [ha] at h
      cases hl : l.mapM f with
      | error e' =>
        rw [hl] at h
        injection h with h
        rw [← h]
        exact ih (fun c hc => hf c (List.mem_cons_of_mem _ hc)) e' hl
      | ok r => rw [hl] at h; cases h

end Srep
