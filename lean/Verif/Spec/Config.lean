import Mathlib.MeasureTheory.Constructions.Pi
import Mathlib.MeasureTheory.Measure.Lebesgue.Basic
import Verif.Spec.Posterior

/-!
# Specification: distributions over binary matrices

A configuration assigns a bit to every entry of an `N × L` matrix; draws are independent and uniform on
`[0, 1)`, one per entry.
-/

namespace LFM.Spec

open MeasureTheory

/-- the `{-1, 1}` coding of a bit -/
def sgn (b : Bool) : Int := if b then 1 else -1

/-- configurations of an `N × L` matrix -/
abbrev Cfg (N L : Nat) := Fin N × Fin L → Bool

/-- the configuration as a factor (entries outside the matrix are irrelevant) -/
def Cfg.fac {N L : Nat} (c : Cfg N L) : Factor := fun n l =>
  if h : n < N ∧ l < L then sgn (c (⟨n, h.1⟩, ⟨l, h.2⟩)) else 1

/-- the configuration as a numpy array -/
def Cfg.arr {N L : Nat} (c : Cfg N L) : Arr Int :=
  ⟨[N, L], fun i => match i with
    | [n, l] => c.fac n l
    | _ => 1⟩

/-- draws as a function of array indices -/
def rndOf {N L : Nat} (u : Fin N × Fin L → ℝ) : List Nat → ℝ := fun i => match i with
  | [n, l] => if h : n < N ∧ l < L then u (⟨n, h.1⟩, ⟨l, h.2⟩) else 0
  | _ => 0

/-- law of independent draws, uniform on `[0, 1)` -/
noncomputable def uniformDraws (N L : Nat) : Measure (Fin N × Fin L → ℝ) :=
  Measure.pi fun _ => volume.restrict (Set.Ico 0 1)

/-- the array `R` holds configuration `c` -/
def Holds {N L : Nat} (R : Arr Int) (c : Cfg N L) : Prop :=
  R.shape = [N, L] ∧ ∀ (n : Fin N) (l : Fin L), R [n, l] = sgn (c (n, l))

/-- probability that one application of `step` to the matrix holding `c` succeeds and gives `c'` -/
noncomputable def transition {N L : Nat} (step : Arr Int → (List Nat → ℝ) → Except Err (Arr Int))
    (c c' : Cfg N L) : ENNReal :=
  uniformDraws N L {u | ∃ R, step c.arr (rndOf u) = .ok R ∧ Holds R c'}

end LFM.Spec
