import Verif.Spec.Samples

/-!
# Specification: sampling with random orders of updates

In every sweep the order of the sampled matrices is drawn at random, uniformly and independently of everything else. An
update flips the entry for certain if its values are equally probable. `Mixing` says which configurations can be told
apart nevertheless.
-/

namespace LFM.Spec.Hier

/-- an order of the matrices for each of `T` sweeps -/
abbrev Orders (mats : List Nat) (T : Nat) := Fin T → {l : List Nat // l ∈ mats.permutations.toFinset}

/-- a machine that uses these orders -/
def withOrders {mats : List Nat} {T : Nat} (wr : Wiring) (σ : Orders mats T) : Wiring :=
  { wr with perm := fun t l => if ht : t < T then (σ ⟨t, ht⟩).1 else l }

variable (h : Hier)

/-- probability of an event if the orders of the matrices and all draws are independent and uniform -/
noncomputable def prob (mats : List Nat) (T : Nat) (A : Orders mats T → h.Draws T → Prop) : ENNReal :=
  (∑ σ, h.allDraws T {ω | A σ ω}) / Fintype.card (Orders mats T)

variable {h}

open Classical in
/-- all free entries are changed -/
noncomputable def opposite (free : h.Site → Prop) (s : h.State) : h.State :=
  fun j e => if free ⟨j, e⟩ then !(s j e) else s j e

open Classical in
/-- the state in the middle of a sweep that changes every free entry, just before the update of entry `q`: the matrices
`before` have been updated, and the entries of the same matrix that come before `q` -/
noncomputable def midway (free : h.Site → Prop) (before : Finset (Fin h.M)) (q : h.Site) (s : h.State) : h.State :=
  fun j e => if free ⟨j, e⟩ ∧ (j ∈ before ∨ j = q.1 ∧ ((e.1 : Nat) < q.2.1 ∨ (e.1 : Nat) = q.2.1 ∧ (e.2 : Nat) < q.2.2))
    then !(s j e) else s j e

/-- a sweep that changes all entries meets entry `q` when its two values are not equally probable, from state `s` or from
its opposite -/
def Matters (free : h.Site → Prop) (s : h.State) (q : h.Site) : Prop :=
  free q ∧ ∃ before : Finset (Fin h.M), q.1 ∉ before ∧ ∃ x, (x = midway free before q s ∨ x = midway free before q (opposite free s)) ∧
    h.joint (Function.update x q.1 (Function.update (x q.1) q.2 true)) ≠
      h.joint (Function.update x q.1 (Function.update (x q.1) q.2 false))

/-- the states differ in entry `q` only -/
def DifferAt (s s' : h.State) (q : h.Site) : Prop := ∀ q' : h.Site, s q'.1 q'.2 ≠ s' q'.1 q'.2 ↔ q' = q

/-- all states with the same fixed entries are linked by changes that matter -/
def Mixing (free : h.Site → Prop) (s0 : h.State) : Prop :=
  ∀ s s' : h.State, h.Agree free s s0 → h.Agree free s' s0 →
    Relation.ReflTransGen (fun a b => ∃ q, Matters free a q ∧ DifferAt a b q) s s'

end LFM.Spec.Hier
