import Verif.Model.Assemble
import Verif.Spec.Samples

/-!
# Specification: the hierarchy that a machine built by calls of the API stands for, whatever the numbers of its matrices
-/

namespace LFM.Spec

/-- matrix `i` of hierarchy `h` is matrix `num i` of machine `s`; latent matrices are the factors of layers -/
structure Hier.Describes (h : Hier) (s : Workshop) (num : Equiv.Perm Nat) : Prop where
  latent : ∀ i, i < h.M ↔ s.m.layerOf (num i) ≠ none
  shape : ∀ i < h.M, (s.m.world.mat (num i)).val.shape = [h.rows i, h.cols i]
  data : ∀ i, h.M ≤ i → h.data i = (s.m.world.mat (num i)).val
  prior : ∀ i < h.M, h.prior i = s.m.bernoulli_prior (num i)
  length : s.m.layers.length = h.layers.length
  layers : ∀ (k : Nat) (L : HLayer), h.layers[k]? = some L → ∃ lr : LayerInfo, s.m.layers[k]? = some lr ∧
    lr.model = L.model.name ∧ lr.factors = L.factors.map num ∧ s.child k = num L.child ∧
    s.m.world.lbda k = .scalar (.fin L.lbda)

/-- layers have two or three factors; at most two layers are on top of a factor, and then have the same model; none is on
top of factors of three-factor layers; data are in {-1, 0, 1}; scores do not overflow -/
structure Proper (s : Workshop) : Prop where
  arity : ∀ (k : Nat) (lr : LayerInfo), s.m.layers[k]? = some lr → lr.factors.length = 2 ∨ lr.factors.length = 3
  top : ∀ (k : Nat) (lr : LayerInfo) (i : Nat), s.m.layers[k]? = some lr → i ∈ lr.factors →
    (s.parents i).length ≤ 2 ∧ (lr.factors.length = 3 → s.parents i = []) ∧
    ∀ p ∈ s.parents i, ∀ p' ∈ s.parents i, s.m.layers[p]?.map LayerInfo.model = s.m.layers[p']?.map LayerInfo.model
  data : ∀ k < s.m.layers.length, s.m.layerOf (s.child k) = none → DataArr (s.m.world.mat (s.child k)).val
  sizes2 : ∀ k < s.m.layers.length, ∀ N D, (s.m.world.mat (s.child k)).val.shape = [N, D] → N ≤ 32767 ∧ D ≤ 32767
  sizes3 : ∀ k < s.m.layers.length, ∀ N D E, (s.m.world.mat (s.child k)).val.shape = [N, D, E] →
    D * E < 2 ^ 63 ∧ N * E < 2 ^ 63 ∧ N * D < 2 ^ 63

/-- all lambdas and all data are fixed, annealing and automatic clean-up are off; sampling functions that have been assigned
in earlier inferences, if any, are those that would be assigned now (C45, C103) -/
structure FixedCall (s : Workshop) : Prop where
  lfixed : ∀ k < s.m.layers.length, s.m.lfixed k = true
  data : ∀ i ∈ freeMats s.m, s.m.layerOf i ≠ none
  anneal : s.m.anneal = false
  off : ∀ lr ∈ s.m.layers, lr.auto_clean = false ∧ lr.auto_reset = false
  fct : ∀ i f, s.m.fct i = some f → ∀ dr, getSampler (s.wiring dr) s.m i = .ok (some f, none)

namespace Hier

variable {h : Hier}

/-- machine `s` with the entries of its factors as in state `st` -/
def startAt (num : Equiv.Perm Nat) (s : Workshop) (st : h.State) : Workshop :=
  { s with m := { s.m with world := { s.m.world with mat := fun j => if hj : num.symm j < h.M then
    ⟨Cfg.arr (st ⟨num.symm j, hj⟩), (s.m.world.mat j).fixed_entries⟩ else s.m.world.mat j } } }

/-- a call with these uniform draws -/
def callWith (num : Equiv.Perm Nat) (dr : LFM.Draws) {T : Nat} (ω : h.Draws T) : LFM.Draws :=
  { dr with rnd := fun t j => if hj : num.symm j < h.M then rndOf (pad ω t ⟨num.symm j, hj⟩) else fun _ => 0 }

/-- sample number `k` out of `S` that inference of `s` has left in `s'` is `st'`: factors that are not fixed have it in
their trace, the others hold it -/
def SampleOf (num : Equiv.Perm Nat) (s s' : Workshop) (S k : Nat) (st' : h.State) : Prop :=
  (∀ i : Fin h.M, s.m.fixed (num i) = false → ∃ tr, s'.m.trace (num i) = some tr ∧ tr.shape = [S, h.rows i, h.cols i] ∧
    ∀ (n : Fin (h.rows i)) (l : Fin (h.cols i)), tr [k, n, l] = sgn (st' i (n, l))) ∧
  ∀ i : Fin h.M, s.m.fixed (num i) = true → Holds (s'.m.world.mat (num i)).val (st' i)

/-- entry `q` of machine `s` is not fixed -/
def FreeEntry (num : Equiv.Perm Nat) (s : Workshop) (q : h.Site) : Prop :=
  s.m.fixed (num q.1) = false ∧ (s.m.world.mat (num q.1)).fixed_entries [q.2.1, q.2.2] ≠ 1

end Hier

end LFM.Spec
