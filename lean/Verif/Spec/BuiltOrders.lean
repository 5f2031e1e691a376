import Verif.Spec.Describe
import Verif.Spec.Averages

/-!
# Specification: convergence of samples and averages of a machine that calls of the API have built

In every sweep the order of the sampled matrices is drawn at random, uniformly and independently of everything else.
-/

namespace LFM.Spec

/-- machine `s` has a single layer, with two factors of `L` columns on the data `X` (with `N` rows and `D` columns), default
priors, and no fixed entries -/
structure PlainLayer (s : Workshop) (lr : LayerInfo) (X : Arr Int) (N D L : Nat) : Prop where
  layers : s.m.layers = [lr]
  arity : lr.factors.length = 2
  data : (s.m.world.mat (s.child 0)).val = X
  shape : X.shape = [N, D]
  size : ∀ i ∈ lr.factors, (s.m.world.mat i).val.dim 1 = L
  prior : ∀ i ∈ lr.factors, s.m.bernoulli_prior i = 1 / 2
  free : ∀ i ∈ lr.factors, s.m.fixed i = false ∧ ∀ idx, (s.m.world.mat i).fixed_entries idx ≠ 1

namespace Hier

open MeasureTheory

/-- a call in which the matrices are updated in these orders -/
def callOrders (dr : LFM.Draws) {mats : List Nat} {T : Nat} (σ : Orders mats T) : LFM.Draws :=
  { dr with perm := fun t l => if ht : t < T then (σ ⟨t, ht⟩).1 else l }

/-- there is a length of burn-in after which the probability of every sample that machine `s` stores is close to its posterior
probability given what is fixed, whatever the initial values -/
def SamplesConvergeOf (h : Hier) (num : Equiv.Perm Nat) (s : Workshop) (dr : LFM.Draws) (st0 : h.State) : Prop :=
  ∀ δ : ℝ, 0 < δ → ∃ B : Nat, ∀ (S cw bmin : Nat) (eps : ℝ) (bmax : Int) (ps fx : Nat), 1 ≤ cw → 1 ≤ ps →
    ∀ T, s.m.clock + bmin + bmax.toNat + S ≤ T → ∀ k < S, B ≤ bmin + k → ∀ st st' : h.State,
    h.Agree (FreeEntry num s) st st0 →
    |(h.prob (freeMats s.m) T fun σ ω => ∃ s', (startAt num s st).infer S cw eps bmin bmax ps fx
        (callWith num (callOrders dr σ) ω) = .ok s' ∧ SampleOf num s s' S k st').toReal -
      h.posteriorGiven (FreeEntry num s) st0 st'| < δ

/-- `f` is the average of `g` over the `S` samples of a call of `infer` of machine `s` -/
def IsAverageOf (h : Hier) (num : Equiv.Perm Nat) (s : Workshop) (dr : LFM.Draws) (S cw : Nat) (eps : ℝ) (bmin : Nat)
    (bmax : Int) (ps fx T : Nat) (st : h.State) (g : h.State → ℝ) (f : Orders (freeMats s.m) T → h.Draws T → ℝ) : Prop :=
  ∀ σ ω, ∃ (s' : Workshop) (x : Nat → h.State), (startAt num s st).infer S cw eps bmin bmax ps fx
    (callWith num (callOrders dr σ) ω) = .ok s' ∧ (∀ k < S, SampleOf num s s' S k (x k)) ∧
    f σ ω = (∑ k ∈ Finset.range S, g (x k)) / S

/-- with more and more samples, the mean square error of averages over the samples of machine `s` gets arbitrarily small,
whatever the initial values and the other arguments of `infer` -/
def AveragesConvergeOf (h : Hier) (num : Equiv.Perm Nat) (s : Workshop) (dr : LFM.Draws) (st0 : h.State) : Prop :=
  ∀ g : h.State → ℝ, (∀ x, |g x| ≤ 1) → ∀ δ : ℝ, 0 < δ → ∃ S0 : Nat, ∀ (S cw bmin : Nat) (eps : ℝ) (bmax : Int) (ps fx : Nat),
    1 ≤ cw → 1 ≤ ps → 1 ≤ S → S0 ≤ S → ∀ T, s.m.clock + bmin + bmax.toNat + S ≤ T → ∀ st : h.State,
    h.Agree (FreeEntry num s) st st0 →
    ∃ f, h.IsAverageOf num s dr S cw eps bmin bmax ps fx T st g f ∧
      (∀ σ, Integrable (fun ω => (f σ ω - ∑ x, h.posteriorGiven (FreeEntry num s) st0 x * g x) ^ 2) (h.allDraws T)) ∧
      h.expectation (freeMats s.m) T (fun σ ω => (f σ ω - ∑ x, h.posteriorGiven (FreeEntry num s) st0 x * g x) ^ 2) < δ

end Hier

end LFM.Spec
