import Verif.Spec.Deaf
import Verif.Lemmas.ZeroLambda

/-! Models with inner operator NAND: a row with enough entries -1 determines the prediction. -/

namespace LFM

open Spec

/-- the models with inner operator NAND, and the number of entries -1 that determines the prediction -/
def NandModel (lom : Lom8) (k : Nat) : Prop := (lom = .OR_NAND ∧ k = 1) ∨ (lom = .XOR_NAND ∧ k = 2)

/-- a row has at least `k` entries -1 -/
def RowNegative (k L : Nat) (u : Nat → Int) : Prop := ∃ s : Finset (Fin L), k ≤ s.card ∧ ∀ l ∈ s, u l = -1

theorem lom_nand {lom : Lom8} {k : Nat} (h : NandModel lom k) {K L : Nat} (x : Fin L → Fin K → Prop) (j : Fin K)
    (s : Finset (Fin L)) (hs : k ≤ s.card) (hx : ∀ l ∈ s, ¬ x l j) :
    Spec.lom lom.outer lom.inner x ↔ lom = .OR_NAND := by
  rcases h with ⟨rfl, rfl⟩ | ⟨rfl, rfl⟩
  · obtain ⟨l, hl⟩ := Finset.card_pos.1 hs
    exact iff_of_true ⟨l, fun hall => hx l hl (hall j)⟩ rfl
  · obtain ⟨l, hl, l', hl', hne⟩ := Finset.one_lt_card.1 hs
    refine iff_of_false ?_ (by simp)
    rintro ⟨a, -, ha⟩
    have h1 := ha l fun hall => hx l hl (hall j)
    have h2 := ha l' fun hall => hx l' hl' (hall j)
    exact hne (h1.trans h2.symm)

theorem pred2_nand {lom : Lom8} {k : Nat} (h : NandModel lom k) {L : Nat} (z u : Nat → Int) (hu : RowNegative k L u) :
    pred2 lom L z u = pm (lom = .OR_NAND) := by
  obtain ⟨s, hs, hx⟩ := hu
  refine pm_congr (lom_nand h _ 1 s hs fun l hl => ?_)
  simp [hx l hl]

theorem pred3_nand {lom : Lom8} {k : Nat} (h : NandModel lom k) {L : Nat} (z u v : Nat → Int) (hu : RowNegative k L u) :
    pred3 lom L z u v = pm (lom = .OR_NAND) := by
  obtain ⟨s, hs, hx⟩ := hu
  refine pm_congr (lom_nand h _ 1 s hs fun l hl => ?_)
  simp [hx l hl]

theorem manyNegative_row {k : Nat} {A : Arr Int} (h : ManyNegative k A) {N L : Nat} (hs : A.shape = [N, L]) {n : Nat} (hn : n < N) :
    RowNegative k L fun l => A [n, l] := by
  have h0 : A.dim 0 = N := by simp [Arr.dim, hs]
  have h1 : A.dim 1 = L := by simp [Arr.dim, hs]
  have := h n (by rw [h0]; exact hn)
  rw [h1] at this
  exact this

end LFM
