import Verif.Model.PosteriorScores
import Verif.Lemmas.ScoreLoops
import Verif.Lemmas.Outputs
import Mathlib.Tactic.Linarith

/-! Closed forms of the score functions and the per-cell identities behind C14 / C15. -/

namespace LFM

open Spec

section cells
variable (L l : Nat) (hl : l < L) (Z : Nat → Int) (r : Int → Nat → Prop)
  [∀ v, DecidablePred (r v)] (p : Nat → Prop) [DecidablePred p]
  (hp : ∀ l' < L, p l' ↔ r (Z l') l' ∧ l' ≠ l) (v : Int) (Q : Fin L → Prop)

include hl hp in
theorem or_cell (hQ : ∀ l' : Fin L, Q l' ↔ r (if (l' : Nat) = l then v else Z l') l') :
    pm (LOp.OR.Holds Q) = if ∃ l' < L, p l' then 1 else if r v l then 1 else -1 := by
  have key : LOp.OR.Holds Q ↔ (∃ l' < L, p l') ∨ r v l := by
    constructor
    · rintro ⟨l', h⟩
      rw [hQ] at h
      by_cases e : (l' : Nat) = l
      · rw [if_pos e] at h; exact Or.inr (e ▸ h)
      · rw [if_neg e] at h; exact Or.inl ⟨l', l'.2, (hp _ l'.2).2 ⟨h, e⟩⟩
    · rintro (⟨l', h1, h2⟩ | h)
      · obtain ⟨h3, h4⟩ := (hp _ h1).1 h2
        exact ⟨⟨l', h1⟩, (hQ _).2 (by rw [if_neg h4]; exact h3)⟩
      · exact ⟨⟨l, hl⟩, (hQ _).2 (by rw [if_pos rfl]; exact h)⟩
  rw [pm_congr key, pm_eq_ite]
  by_cases h1 : ∃ l' < L, p l'
  · simp only [h1, true_or, if_true]
  · simp only [h1, false_or, if_false]

include hl hp in
theorem nand_cell (hQ : ∀ l' : Fin L, ¬ Q l' ↔ r (if (l' : Nat) = l then v else Z l') l') :
    pm (LOp.NAND.Holds Q) = if ∃ l' < L, p l' then 1 else if r v l then 1 else -1 := by
  rw [← or_cell L l hl Z r p hp v (fun l => ¬ Q l) hQ]
  apply pm_congr
  simp [LOp.Holds]

include hl hp in
theorem xor_cell (hQ : ∀ l' : Fin L, Q l' ↔ r (if (l' : Nat) = l then v else Z l') l') :
    pm (LOp.XOR.Holds Q) =
      if (List.range L).countP p = 0 then if r v l then 1 else -1
      else if (List.range L).countP p = 1 then if r v l then -1 else 1 else -1 := by
  have h1 : LOp.XOR.Holds Q ↔ (List.range L).countP
      (fun l' => r (if l' = l then v else Z l') l') = 1 := by
    rw [countP_range_eq_one]
    exact existsUnique_congr hQ
  have h2 : (List.range L).countP (fun l' => r (if l' = l then v else Z l') l') =
      (List.range L).countP p + if r v l then 1 else 0 := by
    rw [countP_range_eq_card, countP_range_eq_card]
    by_cases hr : r v l
    · rw [if_pos hr, ← Finset.card_insert_of_notMem (a := l)]
      · congr 1
        ext x
        simp only [Finset.mem_filter, Finset.mem_range, Finset.mem_insert]
        constructor
        · rintro ⟨h, h'⟩
          by_cases e : x = l
          · exact Or.inl e
          · rw [if_neg e] at h'; exact Or.inr ⟨h, (hp x h).2 ⟨h', e⟩⟩
        · rintro (rfl | ⟨h, h'⟩)
          · exact ⟨hl, by rw [if_pos rfl]; exact hr⟩
          · obtain ⟨h3, h4⟩ := (hp x h).1 h'
            exact ⟨h, by rw [if_neg h4]; exact h3⟩
      · simp only [Finset.mem_filter, Finset.mem_range, not_and]
        intro h h'
        exact ((hp l h).1 h').2 rfl
    · rw [if_neg hr, add_zero]
      congr 1
      ext x
      simp only [Finset.mem_filter, Finset.mem_range]
      constructor
      · rintro ⟨h, h'⟩
        by_cases e : x = l
        · subst e; rw [if_pos rfl] at h'; exact absurd h' hr
        · rw [if_neg e] at h'; exact ⟨h, (hp x h).2 ⟨h', e⟩⟩
      · rintro ⟨h, h'⟩
        obtain ⟨h3, h4⟩ := (hp x h).1 h'
        exact ⟨h, by rw [if_neg h4]; exact h3⟩
  rw [pm_congr h1, h2, pm_eq_ite]
  generalize (List.range L).countP (fun b => decide (p b)) = c
  by_cases hr : r v l
  · simp only [hr, if_true]
    by_cases h0 : c = 0
    · simp [h0]
    · by_cases h1 : c = 1
      · simp [h1]
      · simp [h0, h1]
  · simp only [hr, if_false, add_zero]
    by_cases h0 : c = 0
    · simp [h0]
    · by_cases h1 : c = 1
      · simp [h1]
      · simp [h0, h1]

end cells

/-- cell identity for OR-type outer operators -/
theorem orTerm_cell (skip ex r1 r0 : Prop) [Decidable skip] [Decidable ex] [Decidable r1]
    [Decidable r0] (t x : Int)
    (h : 2 * (if skip then 0 else t) =
      x * ((if r1 then 1 else -1) - (if r0 then 1 else -1))) :
    2 * orTerm skip ex t =
      x * ((if ex then 1 else if r1 then 1 else -1) - (if ex then 1 else if r0 then 1 else -1)) := by
  unfold orTerm
  by_cases he : ex
  · simp [he]
  · simp only [he, if_false]; exact h

theorem xorTerm_cell (skip r1 r0 : Prop) [Decidable skip] [Decidable r1]
    [Decidable r0] (c : Nat) (t0 t1 x : Int) (ht : t1 = -t0)
    (h : 2 * (if skip then 0 else t0) =
      x * ((if r1 then 1 else -1) - (if r0 then 1 else -1))) :
    2 * xorTerm skip c t0 t1 = x * (
      (if c = 0 then if r1 then 1 else -1 else if c = 1 then if r1 then -1 else 1 else -1) -
      (if c = 0 then if r0 then 1 else -1 else if c = 1 then if r0 then -1 else 1 else -1)) := by
  unfold xorTerm
  subst ht
  by_cases h0 : c = 0
  · simp only [h0, if_true]; exact h
  · by_cases h1 : c = 1
    · subst h1
      simp only [h0, if_false, if_true]
      by_cases hs : skip
      · simp only [hs, if_true] at h ⊢
        split_ifs at h ⊢ <;> linarith
      · simp only [hs, if_false] at h ⊢
        split_ifs at h ⊢ <;> linarith
    · simp [h0, h1]

end LFM
