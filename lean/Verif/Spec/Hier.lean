import Verif.Spec.Config

/-!
# Specification: hierarchical machines and their posterior

A machine with any number of layers of two or three factors. Matrices are numbered; those below `M` are latent, the others
are data. The child of a two-factor layer is a data matrix or a factor of another layer; that of a three-factor layer is a
three-dimensional data array. The joint posterior weight of all latent matrices is the product of the likelihoods of all
layers (the child given the factors) and of the Bernoulli priors.
-/

namespace LFM.Spec

/-- a layer with factors number `z` and `u`, and `v` if there are three, and child number `child` -/
structure HLayer where
  model : Lom8
  z : Nat
  u : Nat
  child : Nat
  lbda : ℝ
  v : Option Nat

/-- all factors of a layer -/
def HLayer.factors (k : HLayer) : List Nat := k.z :: k.u :: k.v.toList

/-- a hierarchical machine -/
structure Hier where
  M : Nat
  rows : Nat → Nat
  cols : Nat → Nat
  layers : List HLayer
  data : Nat → Arr Int
  prior : Nat → ℝ

namespace Hier

variable (h : Hier)

/-- a configuration of every latent matrix -/
abbrev State := (i : Fin h.M) → Cfg (h.rows i) (h.cols i)

/-- the entries of matrix `i` -/
def val (s : h.State) (i : Nat) : Factor :=
  if hi : i < h.M then Cfg.fac (s ⟨i, hi⟩) else fun n d => h.data i [n, d]

/-- likelihood of a layer -/
noncomputable def layerLik (s : h.State) (k : HLayer) : ℝ :=
  match k.v with
  | none => lik2 k.model (h.rows k.child) (h.cols k.child) (h.cols k.z) k.lbda (h.val s k.child) (h.val s k.z) (h.val s k.u)
  | some v => lik3 k.model (h.rows k.z) (h.rows k.u) (h.rows v) (h.cols k.z) k.lbda (fun n d e => h.data k.child [n, d, e])
      (h.val s k.z) (h.val s k.u) (h.val s v)

/-- unnormalised posterior probability of a state -/
noncomputable def joint (s : h.State) : ℝ :=
  (h.layers.map (h.layerLik s)).prod * ∏ i : Fin h.M, priorProb (h.prior i) (h.rows i) (h.cols i) (Cfg.fac (s i))

/-- the layers whose child is matrix `i` -/
def parentsOf (i : Nat) : List HLayer := h.layers.filter fun k => k.child = i

end Hier

/-- a legal hierarchy: every latent matrix is a factor of exactly one layer, sizes fit, no layer has its own factor as
its child, data are in {-1, 0, 1}; at most two layers share a latent child, and then have the same model; factors of
three-factor layers have no layers on top of them; scores do not overflow -/
structure Hier.Legal (h : Hier) : Prop where
  prior : ∀ i < h.M, 0 < h.prior i ∧ h.prior i < 1
  latent : ∀ k ∈ h.layers, ∀ i ∈ k.factors, i < h.M
  child : ∀ k ∈ h.layers, k.child ∉ k.factors
  nodup : (h.layers.flatMap HLayer.factors).Nodup
  owner : ∀ i < h.M, ∃ k ∈ h.layers, i ∈ k.factors
  parents : ∀ i < h.M, (h.parentsOf i).length ≤ 2 ∧ ∀ k ∈ h.parentsOf i, ∀ k' ∈ h.parentsOf i, k.model = k'.model
  rows2 : ∀ k ∈ h.layers, k.v = none → h.rows k.z ≤ 32767 ∧ h.rows k.u ≤ 32767
  sizes2 : ∀ k ∈ h.layers, k.v = none →
    h.rows k.z = h.rows k.child ∧ h.rows k.u = h.cols k.child ∧ h.cols k.u = h.cols k.z
  data2 : ∀ k ∈ h.layers, k.v = none → h.M ≤ k.child →
    (h.data k.child).shape = [h.rows k.child, h.cols k.child] ∧ DataArr (h.data k.child)
  rows3 : ∀ k ∈ h.layers, ∀ v, k.v = some v →
    h.rows k.u * h.rows v < 2 ^ 63 ∧ h.rows k.z * h.rows v < 2 ^ 63 ∧ h.rows k.z * h.rows k.u < 2 ^ 63
  sizes3 : ∀ k ∈ h.layers, ∀ v, k.v = some v → h.cols k.u = h.cols k.z ∧ h.cols v = h.cols k.z
  data3 : ∀ k ∈ h.layers, ∀ v, k.v = some v → h.M ≤ k.child ∧
    (h.data k.child).shape = [h.rows k.z, h.rows k.u, h.rows v] ∧ DataArr (h.data k.child)
  parents3 : ∀ k ∈ h.layers, k.v ≠ none → ∀ i ∈ k.factors, h.parentsOf i = []

open Classical in
/-- transition probabilities of a sequence of steps with independent draws -/
noncomputable def schedule {ι S : Type} [Fintype S] (K : ι → S → S → ENNReal) : List ι → S → S → ENNReal
  | [], s, s' => if s = s' then 1 else 0
  | i :: rest, s, s' => ∑ s1, K i s s1 * schedule K rest s1 s'

end LFM.Spec
