import Mathlib.Data.Fintype.Card
import Verif.Spec.Logic
import Verif.Model.Output

/-!
# Specification: layers in legal states and their outputs
-/

namespace LFM.Spec

/-- a probability -/
def IsProb (x : NpF) : Prop := ∃ y, x = .fin y ∧ 0 ≤ y ∧ y ≤ 1

/-- a number in `[-1, 1]` -/
def IsSigned (x : NpF) : Prop := ∃ y, x = .fin y ∧ -1 ≤ y ∧ y ≤ 1

/-- a factor with a legal value and legal samples: `N` rows, entries in `{-1, 1}`; the value has `L` columns, the
samples have `Lt` (`L`, except for OR-AND-IBP layers, whose traces have additional columns) -/
structure LegalFac (L Lt : Nat) (f : OFac) : Prop where
  shape : ∃ N, f.val.shape = [N, L] ∧ ∀ tr, f.trace = some tr → ∀ a ∈ tr, a.shape = [N, Lt]
  val : PMArr f.val
  samples : ∀ tr, f.trace = some tr → ∀ a ∈ tr, PMArr a

/-- the layer computes `outer-inner`; OR-AND-IBP layers compute OR-AND -/
def Computes (model : String) (o i : LOp) : Prop :=
  model = modelName o i ∨ model = "OR-AND-IBP" ∧ o = .OR ∧ i = .AND

/-- sample `t` of a factor -/
def sample (f : OFac) (t : Nat) : Arr Int := (f.trace.getD []).getD t (Arr.full [] 0)

/-- the factor has `S` samples -/
def HasSamples (S : Nat) (f : OFac) : Prop := ∃ tr, f.trace = some tr ∧ tr.length = S

/-- number of samples of lambda, if it has been sampled -/
def lbdaSamples : OLbda → Option Nat
  | .scalar _ tr => tr.map List.length
  | .vector _ tr => tr.map List.length

/-- number of rows of each factor: the shape of the data -/
def rows (s : OLayer) : List Nat := s.factors.map fun f => f.val.shape.headD 0

open Classical in
/-- fraction of the numbers `0, ..., S-1` with a property -/
noncomputable def fraction (S : Nat) (P : Nat → Prop) : ℝ :=
  ((Finset.univ.filter fun t : Fin S => P t).card : ℝ) / S

/-- a single dispersion parameter that is a number or `+inf`, and if it has been sampled, at least once and with such
values -/
def LegalLbda : OLbda → Prop
  | .scalar val none => val ≠ .nan ∧ val ≠ .negInf
  | .scalar _ (some tr) => tr ≠ [] ∧ ∀ x ∈ tr, x ≠ .nan ∧ x ≠ .negInf
  | .vector _ _ => False

/-- what the technique needs: a trace of lambda and of every factor for `mc`; two factors and one of the eight
implemented models, or three and OR-AND, for `factor_mean` -/
def Supported (technique : String) (s : OLayer) (o i : LOp) : Prop :=
  technique = "point_estimate" ∨ technique = "factor_map" ∨
  technique = "factor_mean" ∧ (s.factors.length = 2 ∧ (∃ m : Lom8, m.outer = o ∧ m.inner = i) ∨
    s.factors.length = 3 ∧ o = .OR ∧ i = .AND) ∨
  technique = "mc" ∧ ∃ S, 0 < S ∧ lbdaSamples s.lbda = some S ∧ ∀ f ∈ s.factors, HasSamples S f

end LFM.Spec
