import Verif.Spec.Mirror
import Verif.Spec.Score

/-! Factors none of whose entries has an effect on any prediction when its turn comes. -/

namespace LFM.Spec

/-- row `d` of a factor all of whose free entries are multiplied by `σ` -/
def signedRow (F : Fac) (σ : Int) (d : Nat) : Nat → Int :=
  fun l => if F.fixed_entries [d, l] = 1 then F.val [d, l] else σ * F.val [d, l]

/-- row `n` of this factor at the turn of entry `l`, if all free entries before it have just changed their sign; the entry itself has
the value `v` -/
def turnRow (F : Fac) (σ : Int) (n l : Nat) (v : Int) : Nat → Int :=
  fun l' => if l' = l then v else signedRow F (if l' < l then -σ else σ) n l'

/-- the signs that a factor takes; one that is fixed keeps its own -/
def SignOf (fixed : Bool) (σ : Int) : Prop := σ = 1 ∨ fixed = false ∧ σ = -1

/-- no free entry of `F` has an effect on any prediction from `F` and `G` when its turn comes, whatever signs the factors have -/
def Unheard2 (lom : Lom8) (L : Nat) (F G : Fac × Bool) : Prop :=
  F.2 = false → ∀ σ τ, SignOf F.2 σ → SignOf G.2 τ → ∀ n < F.1.val.dim 0, ∀ d < G.1.val.dim 0, ∀ l < L,
    F.1.fixed_entries [n, l] ≠ 1 →
    pred2 lom L (turnRow F.1 σ n l 1) (signedRow G.1 τ d) = pred2 lom L (turnRow F.1 σ n l (-1)) (signedRow G.1 τ d)

/-- the same for three factors -/
def Unheard3 (lom : Lom8) (L : Nat) (F G H : Fac × Bool) : Prop :=
  F.2 = false → ∀ σ τ ρ, SignOf F.2 σ → SignOf G.2 τ → SignOf H.2 ρ →
    ∀ n < F.1.val.dim 0, ∀ d < G.1.val.dim 0, ∀ k < H.1.val.dim 0, ∀ l < L, F.1.fixed_entries [n, l] ≠ 1 →
    pred3 lom L (turnRow F.1 σ n l 1) (signedRow G.1 τ d) (signedRow H.1 ρ k) =
      pred3 lom L (turnRow F.1 σ n l (-1)) (signedRow G.1 τ d) (signedRow H.1 ρ k)

/-- no free entry of any factor has an effect on any prediction when its turn comes. The flag of a factor says that the whole
factor is fixed. -/
def Unheard (lom : Lom8) : List (Fac × Bool) → Prop
  | [F, G] => Unheard2 lom (F.1.val.dim 1) F G ∧ Unheard2 lom (G.1.val.dim 1) G F
  | [F, G, H] => Unheard3 lom (F.1.val.dim 1) F G H ∧ Unheard3 lom (G.1.val.dim 1) G F H ∧ Unheard3 lom (H.1.val.dim 1) H F G
  | _ => False

/-- the number of latent dimensions from which on there are two such factors, with sizes of any kind -/
def quietFrom2 : Lom8 → Nat
  | .OR_AND => 6
  | .OR_NAND => 2
  | .OR_XOR => 3
  | .NAND_XOR => 3
  | .XOR_AND => 10
  | .XOR_XOR => 5
  | .XOR_NXOR => 5
  | .XOR_NAND => 4

/-- the same for three factors -/
def quietFrom3 : Lom8 → Nat
  | .OR_AND => 12
  | .OR_NAND => 2
  | .OR_XOR => 5
  | .NAND_XOR => 3
  | .XOR_AND => 23
  | .XOR_XOR => 9
  | .XOR_NXOR => 5
  | .XOR_NAND => 3

end LFM.Spec
