import Verif.Model.FixedArg
import Verif.Lemmas.Counting
import Verif.Props.Assemble

/-!
# C128: `fixed` given as an array

`MachineMatrix` accepts an array of the shape of the matrix for `fixed` (machine.py:231-235). The claim that it holds the
marked entries fixed is false: `infer` takes the truth value of the array (machine.py:686), which arrays of several entries
do not have.
-/

namespace LFM

open Spec

namespace Spec

/-- the mask marks entry `idx` -/
def Marks (A : Arr Int) (idx : List Nat) : Prop := InB A.shape idx ∧ A idx ≠ 0

/-- number of entries of an array of a given shape -/
def entryCount (shape : List Nat) : Nat := shape.prod

end Spec

theorem truth_many {A : Arr Int} (h : 2 ≤ entryCount A.shape) : (FixedArg.mask A).truth = .error .valueError := by
  have hl : (indices A.shape).length = entryCount A.shape := length_indices A.shape
  simp only [FixedArg.truth]
  match hi : indices A.shape with
  | [] => rw [hi] at hl; simp at hl; omega
  | [i] => rw [hi] at hl; simp at hl; omega
  | _ :: _ :: _ => rfl

theorem freeOf_error {fx : Nat → FixedArg} {l : List Nat} {i : Nat} (hi : i ∈ l) {A : Arr Int} (hf : fx i = .mask A)
    (h : 2 ≤ entryCount A.shape) : freeOf fx l = .error .valueError := by
  induction l with
  | nil => exact absurd hi (by simp)
  | cons j rest ih =>
    have ht : (fx j).truth = .error .valueError ∨ ∃ b, (fx j).truth = .ok b := by
      unfold FixedArg.truth
      split
      · exact .inr ⟨_, rfl⟩
      · split
        · exact .inr ⟨_, rfl⟩
        · exact .inr ⟨_, rfl⟩
        · exact .inl rfl
    unfold freeOf
    rcases ht with ht | ⟨b, ht⟩
    · rw [ht]; rfl
    · rw [ht]
      rcases List.mem_cons.mp hi with rfl | hi
      · rw [hf, truth_many h] at ht
        exact absurd ht (by simp)
      · rw [ih hi]; rfl

/-- the truth value is that of "the whole matrix is fixed" for flags and for masks of at most one entry -/
theorem truth_few {fx : FixedArg} {b : Bool} (h : fx = .flag b ∨ ∃ A, fx = .mask A ∧ entryCount A.shape ≤ 1 ∧
    (b = true ↔ ∃ idx, Marks A idx)) : fx.truth = .ok b := by
  rcases h with rfl | ⟨A, rfl, h1, hb⟩
  · rfl
  have hl : (indices A.shape).length = entryCount A.shape := length_indices A.shape
  simp only [FixedArg.truth]
  match hi : indices A.shape with
  | [] =>
    have : b = false := by
      cases b
      · rfl
      · obtain ⟨idx, hm, -⟩ := hb.mp rfl
        rw [← mem_indices, hi] at hm
        exact absurd hm (by simp)
    rw [this]
  | [i] =>
    have hmem : ∀ idx, InB A.shape idx ↔ idx = i := fun idx => by rw [← mem_indices, hi]; simp
    have : (∃ idx, Marks A idx) ↔ A i ≠ 0 :=
      ⟨fun ⟨idx, hm, hv⟩ => by rwa [(hmem idx).mp hm] at hv, fun hv => ⟨i, (hmem i).mpr rfl, hv⟩⟩
    rw [this] at hb
    cases b
    · have : ¬ A i ≠ 0 := fun hh => by simpa using hb.mpr hh
      simp [this]
    · have := hb.mp rfl
      simp [this]
  | _ :: _ :: _ => rw [hi] at hl; simp at hl; omega

theorem freeOf_few {fx : Nat → FixedArg} {fixed : Nat → Bool} {l : List Nat} (h : ∀ i ∈ l, (fx i).truth = .ok (fixed i)) :
    freeOf fx l = .ok (l.filter fun i => !fixed i) := by
  induction l with
  | nil => rfl
  | cons j rest ih =>
    unfold freeOf
    rw [h j (by simp), ih fun i hi => h i (by simp [hi])]
    cases hj : fixed j <;> simp [hj] <;> rfl

/-- **C128 (masks cannot be used).** If the attribute `fixed` of any matrix of a machine is an array of two or more entries,
`infer` ends with a ValueError, whatever the entries, the machine and the settings. -/
theorem C128_wrong {F G : Type} (fx : Nat → FixedArg) (env : Env F G) (S cw : Nat) (eps : ℝ) (bmin : Nat) (bmax : Int)
    (ps fl : Nat) (m : Mach F G) {i : Nat} (hi : i ∈ members m) {A : Arr Int} (hA : fx i = .mask A)
    (h : 2 ≤ entryCount A.shape) : inferFixedArg fx env S cw eps bmin bmax ps fl m = .error .valueError := by
  unfold inferFixedArg
  rw [freeOf_error hi hA h]
  rfl

/-- **C128 (at creation).** An array of another shape than the matrix is refused, one of the same shape is accepted; in both
cases no entry of the matrix is held fixed by it. -/
theorem C128_creation (shape : List Nat) (A : Arr Int) :
    (A.shape ≠ shape → storeFixed shape (.mask A) = .error .assertionError) ∧
    (A.shape = shape → storeFixed shape (.mask A) = .ok (.mask A)) ∧
    ∀ idx, ¬ Marks (newFixedEntries shape (.mask A)) idx := by
  refine ⟨fun h => by simp [storeFixed, h], fun h => by simp [storeFixed, h], fun idx hm => hm.2 rfl⟩

/-- **C128** (`_partial`: the claim holds only of flags and of matrices with at most one entry). If `fixed` of each matrix is a
flag, or an array of at most one entry, `infer` does what it does with the flag "some entry is marked". -/
theorem C128_one_entry_partial {F G : Type} (fx : Nat → FixedArg) (env : Env F G) (S cw : Nat) (eps : ℝ) (bmin : Nat)
    (bmax : Int) (ps fl : Nat) (m : Mach F G) (h : ∀ i ∈ members m, fx i = .flag (m.fixed i) ∨
      ∃ A, fx i = .mask A ∧ entryCount A.shape ≤ 1 ∧ (m.fixed i = true ↔ ∃ idx, Marks A idx)) :
    inferFixedArg fx env S cw eps bmin bmax ps fl m = infer env S cw eps bmin bmax ps fl m := by
  unfold inferFixedArg
  rw [freeOf_few (fixed := m.fixed) fun i hi => truth_few (h i hi)]
  have : (fun i => if i ∈ members m then decide (i ∉ (members m).filter fun i => !m.fixed i) else m.fixed i) = m.fixed := by
    funext i
    split
    · rename_i hi
      cases hf : m.fixed i <;> simp [hi, hf]
    · rfl
  show infer env S cw eps bmin bmax ps fl
    { m with fixed := fun i => if i ∈ members m then decide (i ∉ (members m).filter fun i => !m.fixed i) else m.fixed i } = _
  rw [this]

/-- in a machine with data and one layer, a mask that is meant to hold one entry of the first factor meets the hypotheses of
`C128_wrong` -/
theorem C128_hypotheses_met : Built shop2 ∧ 1 ∈ members shop2.m ∧ (shop2.m.world.mat 1).val.shape = [3, 2] ∧
    2 ≤ entryCount [3, 2] ∧ Marks ⟨[3, 2], fun i => if i = [0, 0] then 1 else 0⟩ [0, 0] ∧
    storeFixed [3, 2] (.mask ⟨[3, 2], fun i => if i = [0, 0] then 1 else 0⟩) =
      .ok (.mask ⟨[3, 2], fun i => if i = [0, 0] then 1 else 0⟩) := by
  refine ⟨shop2_built, ?_, rfl, by decide, ⟨⟨by decide, by decide, trivial⟩, by simp⟩, rfl⟩
  have hl : shop2.m.layers = [⟨[1, 2], "XOR-AND", none, false, false⟩] := rfl
  simp [members, hl, LayerInfo.factors]

end LFM
