import Verif.Spec.Logic
import Mathlib.Data.Real.Basic
import Mathlib.Algebra.BigOperators.Ring.Finset
import Mathlib.Data.Fintype.BigOperators

/-!
# Specification: probability of an event that depends on independent bits
-/

namespace LFM.Spec

open Classical in
/-- probability of the event `P` when bit `i` is true with probability `p i`, independently: the sum over
all assignments of the weight of the assignment, restricted to those in which `P` holds -/
noncomputable def bernProb {ι : Type} [Fintype ι] (p : ι → ℝ) (P : (ι → Prop) → Prop) : ℝ :=
  ∑ b : ι → Bool, (∏ i, if b i then p i else 1 - p i) * if P fun i => b i = true then 1 else 0

/-- probability that a cell is 1 in the logical operator machine `outer-inner` when bit `l` of factor `k`
is true with probability `p l k` -/
noncomputable def lomProb {L K : Nat} (outer inner : LOp) (p : Fin L → Fin K → ℝ) : ℝ :=
  bernProb (fun i : Fin L × Fin K => p i.1 i.2) fun b => lom outer inner fun l k => b (l, k)

end LFM.Spec
