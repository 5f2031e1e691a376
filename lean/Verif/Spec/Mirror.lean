import Verif.Model.MatrixWrappers
import Verif.Model.Machine
import Verif.Spec.Logic

/-! Factors up to the sign of all entries that are not fixed. -/

namespace LFM.Spec

/-- `A` is the value of `F` with all entries that are not fixed multiplied by `σ` -/
def MirrorOf (F : Fac) (σ : Int) (A : Arr Int) : Prop :=
  A.shape = F.val.shape ∧
  ∀ idx, InB F.val.shape idx → A idx = if F.fixed_entries idx = 1 then F.val idx else σ * F.val idx

end LFM.Spec
