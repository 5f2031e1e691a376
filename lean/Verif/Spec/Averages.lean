import Verif.Spec.RandomOrder

/-!
# Specification: averages over samples, with random orders of updates
-/

namespace LFM.Spec.Hier

open MeasureTheory

/-- expectation if the orders of the matrices and all draws are independent and uniform -/
noncomputable def expectation (h : Hier) (mats : List Nat) (T : Nat) (F : Orders mats T → h.Draws T → ℝ) : ℝ :=
  (∑ σ, ∫ ω, F σ ω ∂h.allDraws T) / Fintype.card (Orders mats T)

/-- all states with the same fixed entries are linked by changes that matter and by changes of all free entries at once -/
def Linking (h : Hier) (free : h.Site → Prop) (s0 : h.State) : Prop :=
  ∀ s s' : h.State, h.Agree free s s0 → h.Agree free s' s0 →
    Relation.ReflTransGen (fun a b => (∃ q, Matters free a q ∧ DifferAt a b q) ∨ b = opposite free a) s s'

end LFM.Spec.Hier
