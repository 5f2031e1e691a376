import Verif.Model.Wiring
import Verif.Spec.Hier

/-!
# Specification: samples of a hierarchical machine with fixed parameters, as random variables
-/

namespace LFM.Spec.Hier

open MeasureTheory

variable (h : Hier)

/-- uniform draws for `T` sweeps over all latent matrices -/
abbrev Draws (T : Nat) := (p : Fin T × Fin h.M) → (Fin (h.rows p.2) × Fin (h.cols p.2) → ℝ)

/-- they are independent -/
noncomputable def allDraws (T : Nat) : Measure (h.Draws T) := Measure.pi fun p => uniformDraws (h.rows p.2) (h.cols p.2)

variable {h}

/-- the draws of sweep `t` for matrix `i` -/
def pad {T : Nat} (ω : h.Draws T) (t : Nat) (i : Fin h.M) : Fin (h.rows i) × Fin (h.cols i) → ℝ :=
  if ht : t < T then ω (⟨t, ht⟩, i) else fun _ => 0

/-- a machine that uses these draws -/
def withDraws {T : Nat} (wr : Wiring) (ω : h.Draws T) : Wiring :=
  { wr with rnd := fun t i => if hi : i < h.M then rndOf (pad ω t ⟨i, hi⟩) else fun _ => 0 }

variable (h)

/-- machine `m` has the layers and priors of the hierarchy, all parameters and all data are fixed, annealing and
automatic clean-up are off; sampling functions that have been assigned in earlier calls, if any, are those that would be
assigned now -/
structure FixedLbdas (wr : Wiring) (m : Mach Sampler LbdaUpdate) : Prop where
  layers : m.layers = wr.layers
  layerOf : m.layerOf = wr.layerOf
  prior : ∀ i < h.M, m.bernoulli_prior i = h.prior i
  lfixed : ∀ k < m.layers.length, m.lfixed k = true
  anneal : m.anneal = false
  off : ∀ lr ∈ m.layers, lr.auto_clean = false ∧ lr.auto_reset = false
  fct : ∀ i f, m.fct i = some f → getSampler wr m i = .ok (some f, none)
  free : ∀ i ∈ freeMats m, i < h.M
  nodup : (freeMats m).Nodup

/-- sample number `k` out of `S` of machine `m'` is `s'`: sampled matrices have it in their trace, the others hold it -/
def IsSample (m m' : Mach Sampler LbdaUpdate) (S k : Nat) (s' : h.State) : Prop :=
  (∀ i : Fin h.M, (i : Nat) ∈ freeMats m → ∃ tr, m'.trace i = some tr ∧ tr.shape = [S, h.rows i, h.cols i] ∧
    ∀ (n : Fin (h.rows i)) (l : Fin (h.cols i)), tr [k, n, l] = sgn (s' i (n, l))) ∧
  ∀ i : Fin h.M, (i : Nat) ∉ freeMats m → Holds (m'.world.mat i).val (s' i)

/-- the weight of a state does not depend on entry `e` of matrix `i` -/
def Indifferent (h : Hier) (i : Fin h.M) (e : Fin (h.rows i) × Fin (h.cols i)) : Prop :=
  ∀ s : h.State, h.joint (Function.update s i (Function.update (s i) e true)) =
    h.joint (Function.update s i (Function.update (s i) e false))

/-- nothing is known about row `n` of factor `i`: the prior is 1/2, no layer has it as its child, and the data of its
layer are missing in row `n` (in column `n` if it is the second factor, and accordingly along the third axis) -/
def Unobserved (h : Hier) (i : Fin h.M) (n : Nat) : Prop :=
  h.prior i = 1 / 2 ∧ h.parentsOf i = [] ∧ ∀ k ∈ h.layers, (i : Nat) ∈ k.factors → h.M ≤ k.child ∧
    match k.v with
    | none =>
      (k.z = i → ∀ d < h.cols k.child, h.data k.child [n, d] = 0) ∧
      (k.u = i → ∀ r < h.rows k.child, h.data k.child [r, n] = 0)
    | some v =>
      (k.z = i → ∀ d < h.rows k.u, ∀ e < h.rows v, h.data k.child [n, d, e] = 0) ∧
      (k.u = i → ∀ r < h.rows k.z, ∀ e < h.rows v, h.data k.child [r, n, e] = 0) ∧
      (v = i → ∀ r < h.rows k.z, ∀ d < h.rows k.u, h.data k.child [r, d, n] = 0)

/-- no entry is indifferent, whatever the other entries -/
def NoTies (h : Hier) : Prop :=
  ∀ (s : h.State) (i : Fin h.M) (e : Fin (h.rows i) × Fin (h.cols i)),
    h.joint (Function.update s i (Function.update (s i) e true)) ≠
      h.joint (Function.update s i (Function.update (s i) e false))

/-- posterior probability of a state -/
noncomputable def posterior (h : Hier) (s : h.State) : ℝ := h.joint s / ∑ x, h.joint x

/-- an entry of a latent matrix -/
abbrev Site (h : Hier) := (i : Fin h.M) × (Fin (h.rows i) × Fin (h.cols i))

/-- machine `m` with masks `fe` of fixed entries samples entry `q` -/
def Sampled (h : Hier) (m : Mach Sampler LbdaUpdate) (fe : Nat → Arr Int) (q : h.Site) : Prop :=
  (q.1 : Nat) ∈ freeMats m ∧ fe q.1 [q.2.1, q.2.2] ≠ 1

/-- the states have the same values in all entries that are not free -/
def Agree (h : Hier) (free : h.Site → Prop) (s s0 : h.State) : Prop := ∀ q : h.Site, ¬ free q → s q.1 q.2 = s0 q.1 q.2

open Classical in
/-- posterior probability of a state given the entries that are not free: they have the values that they have in `s0` -/
noncomputable def posteriorGiven (h : Hier) (free : h.Site → Prop) (s0 s : h.State) : ℝ :=
  if h.Agree free s s0 then h.joint s / ∑ x with h.Agree free x s0, h.joint x else 0

/-- no free entry is indifferent, whatever the other free entries -/
def NoTiesGiven (h : Hier) (free : h.Site → Prop) (s0 : h.State) : Prop :=
  ∀ s, h.Agree free s s0 → ∀ q : h.Site, free q →
    h.joint (Function.update s q.1 (Function.update (s q.1) q.2 true)) ≠
      h.joint (Function.update s q.1 (Function.update (s q.1) q.2 false))

end LFM.Spec.Hier
