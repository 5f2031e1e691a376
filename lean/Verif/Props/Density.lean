import Verif.Model.Density
import Verif.Lemmas.Prob

/-!
# C13: expected density
-/

namespace LFM

open Spec

theorem prod_erase_const {n : Nat} (j : Fin n) (c : ℝ) :
    ∏ _i ∈ Finset.univ.erase j, c = c ^ (n - 1) := by
  rw [Finset.prod_const, Finset.card_erase_of_mem (Finset.mem_univ j), Finset.card_univ, Fintype.card_fin]

/-- probability of an operator on `n` independent bits of probability `q` -/
noncomputable def opProb (o : LOp) (n : Nat) (q : ℝ) : ℝ :=
  match o with
  | .AND => q ^ n
  | .NAND => 1 - q ^ n
  | .OR => 1 - (1 - q) ^ n
  | .NOR => (1 - q) ^ n
  | .XOR => n * (q * (1 - q) ^ (n - 1))
  | .NXOR => 1 - n * (q * (1 - q) ^ (n - 1))

theorem bernProb_const (o : LOp) (n : Nat) (q : ℝ) :
    bernProb (fun _ : Fin n => q) o.Holds = opProb o n q := by
  have he : ∀ j : Fin n, @Finset.prod (Fin n) ℝ _ (@Finset.erase (Fin n)
      (fun a b => Classical.propDecidable (a = b)) Finset.univ j) (fun _ => 1 - q) = (1 - q) ^ (n - 1) := by
    intro j
    rw [← prod_erase_const j (1 - q)]
    congr!
  cases o
  · rw [bernProb_AND]; simp [opProb]
  · rw [bernProb_NAND]; simp [opProb]
  · rw [bernProb_OR]; simp [opProb]
  · rw [bernProb_NOR]; simp [opProb]
  · rw [bernProb_XOR]; simp only [he]; simp [opProb]
  · rw [bernProb_NXOR]; simp only [he]; simp [opProb]

theorem lomProb_const (o i : LOp) (L K : Nat) (f : ℝ) :
    lomProb (L := L) (K := K) o i (fun _ _ => f) = opProb o L (opProb i K f) := by
  rw [lomProb_eq]
  simp only [bernProb_const]

theorem ok_of_eq {x : Except Err ℝ} {a b : ℝ} (h : x = .ok a) (e : a = b) : x = .ok b := e ▸ h

/-- **C13** (`_partial`). For 34 of the 36 models (all but XOR-XOR and NXOR-XOR), `expected_density` is the
probability that a cell is 1 when all `K * L` factor bits are independent with probability `f`; for the
remaining two this holds for two factors and for a single latent dimension. It fails in general,
`C13_xor_xor_wrong`. -/
theorem C13_expected_density_partial (o i : LOp) (L K : Nat) (f : ℝ) (hL : 1 ≤ L) (hK : 1 ≤ K)
    (hm : ¬ (i = .XOR ∧ (o = .XOR ∨ o = .NXOR)) ∨ K = 2 ∨ L = 1) :
    expected_density (modelName o i) L K f = .ok (lomProb (L := L) (K := K) o i fun _ _ => f) := by
  rw [lomProb_const]
  have hs : ∀ x : ℝ, 1 - (1 - x) = x := fun x => by ring
  cases o <;> cases i
  case XOR.XOR =>
    refine congrArg Except.ok ?_
    show (L : ℝ) * (K * f * (1 - f) ^ (K - 1) * (f ^ K + (1 - f) ^ K) ^ (L - 1)) =
      L * ((K * (f * (1 - f) ^ (K - 1))) * (1 - K * (f * (1 - f) ^ (K - 1))) ^ (L - 1))
    rcases hm with h | rfl | rfl
    · simp at h
    · have : f ^ 2 + (1 - f) ^ 2 = 1 - (2 : Nat) * (f * (1 - f) ^ (2 - 1)) := by norm_num; ring
      rw [this]; ring
    · simp; ring
  case NXOR.XOR =>
    refine congrArg Except.ok ?_
    show 1 - (L : ℝ) * (K * f * (1 - f) ^ (K - 1) * (f ^ K + (1 - f) ^ K) ^ (L - 1)) =
      1 - L * ((K * (f * (1 - f) ^ (K - 1))) * (1 - K * (f * (1 - f) ^ (K - 1))) ^ (L - 1))
    rcases hm with h | rfl | rfl
    · simp at h
    · have : f ^ 2 + (1 - f) ^ 2 = 1 - (2 : Nat) * (f * (1 - f) ^ (2 - 1)) := by norm_num; ring
      rw [this]; ring
    · simp; ring
  case XOR.NXOR =>
    refine congrArg Except.ok ?_
    show (L : ℝ) * ((1 - (K * f * (1 - f) ^ (K - 1))) * (K * f * (1 - f) ^ (K - 1)) ^ (L - 1)) =
      L * ((1 - K * (f * (1 - f) ^ (K - 1))) * (1 - (1 - K * (f * (1 - f) ^ (K - 1)))) ^ (L - 1))
    rw [hs]; ring
  case NXOR.NXOR =>
    refine congrArg Except.ok ?_
    show 1 - (L : ℝ) * ((1 - (K * f * (1 - f) ^ (K - 1))) * (K * f * (1 - f) ^ (K - 1)) ^ (L - 1)) =
      1 - L * ((1 - K * (f * (1 - f) ^ (K - 1))) * (1 - (1 - K * (f * (1 - f) ^ (K - 1)))) ^ (L - 1))
    rw [hs]; ring
  all_goals
    refine ok_of_eq rfl ?_
    simp only [applyInv, opProb, hs, if_true, if_false, Bool.false_eq_true]
    try ring

/-- The two models that are wrong: with three factors of density 1/2 and two latent dimensions the code
answers 3/16 for XOR-XOR, the truth is 15/32. -/
theorem C13_xor_xor_wrong :
    expected_density "XOR-XOR" 2 3 (1/2) = .ok (3/16) ∧
    lomProb (L := 2) (K := 3) .XOR .XOR (fun _ _ => 1/2) = 15/32 ∧
    expected_density "NXOR-XOR" 2 3 (1/2) = .ok (13/16) ∧
    lomProb (L := 2) (K := 3) .NXOR .XOR (fun _ _ => 1/2) = 17/32 := by
  refine ⟨ok_of_eq rfl ?_, ?_, ok_of_eq rfl ?_, ?_⟩
  · simp only [applyInv]; norm_num
  · rw [lomProb_const]; simp only [opProb]; norm_num
  · simp only [applyInv]; norm_num
  · rw [lomProb_const]; simp only [opProb]; norm_num

/-- a name outside the 36 has no density -/
theorem C13_unknown_rejected (model : String) (L K : Nat) (f : ℝ)
    (h : ∀ o i : LOp, model ≠ modelName o i) : expected_density model L K f = .error .typingError := by
  have e1 : model ≠ "XOR-NXOR" := h .XOR .NXOR
  have e2 : model ≠ "NXOR-NXOR" := h .NXOR .NXOR
  have hc : get_lom_class model = .error .typingError := by
    have hn : ∀ o i : LOp, (model = modelName o i) = False := fun o i => eq_false (h o i)
    have hh : ∀ s, (∃ o i : LOp, s = modelName o i) → (model = s) = False := by
      rintro s ⟨o, i, rfl⟩; exact hn o i
    unfold get_lom_class
    simp only [hh "AND-AND" ⟨.AND, .AND, rfl⟩, hh "NOR-NAND" ⟨.NOR, .NAND, rfl⟩, hh "AND-NOR" ⟨.AND, .NOR, rfl⟩,
      hh "NOR-OR" ⟨.NOR, .OR, rfl⟩, hh "OR-NAND" ⟨.OR, .NAND, rfl⟩, hh "NAND-AND" ⟨.NAND, .AND, rfl⟩,
      hh "OR-OR" ⟨.OR, .OR, rfl⟩, hh "NAND-NOR" ⟨.NAND, .NOR, rfl⟩, hh "AND-NAND" ⟨.AND, .NAND, rfl⟩,
      hh "NOR-AND" ⟨.NOR, .AND, rfl⟩, hh "AND-OR" ⟨.AND, .OR, rfl⟩, hh "NOR-NOR" ⟨.NOR, .NOR, rfl⟩,
      hh "OR-AND" ⟨.OR, .AND, rfl⟩, hh "NAND-NAND" ⟨.NAND, .NAND, rfl⟩, hh "OR-NOR" ⟨.OR, .NOR, rfl⟩,
      hh "NAND-OR" ⟨.NAND, .OR, rfl⟩, hh "XOR-AND" ⟨.XOR, .AND, rfl⟩, hh "XOR-NOR" ⟨.XOR, .NOR, rfl⟩,
      hh "NXOR-AND" ⟨.NXOR, .AND, rfl⟩, hh "NXOR-NOR" ⟨.NXOR, .NOR, rfl⟩, hh "XOR-NAND" ⟨.XOR, .NAND, rfl⟩,
      hh "XOR-OR" ⟨.XOR, .OR, rfl⟩, hh "NXOR-NAND" ⟨.NXOR, .NAND, rfl⟩, hh "NXOR-OR" ⟨.NXOR, .OR, rfl⟩,
      hh "AND-XOR" ⟨.AND, .XOR, rfl⟩, hh "NOR-NXOR" ⟨.NOR, .NXOR, rfl⟩, hh "OR-NXOR" ⟨.OR, .NXOR, rfl⟩,
      hh "NAND-XOR" ⟨.NAND, .XOR, rfl⟩, hh "AND-NXOR" ⟨.AND, .NXOR, rfl⟩, hh "NOR-XOR" ⟨.NOR, .XOR, rfl⟩,
      hh "OR-XOR" ⟨.OR, .XOR, rfl⟩, hh "NAND-NXOR" ⟨.NAND, .NXOR, rfl⟩, hh "XOR-XOR" ⟨.XOR, .XOR, rfl⟩,
      hh "NXOR-XOR" ⟨.NXOR, .XOR, rfl⟩, hh "XOR-NXOR" ⟨.XOR, .NXOR, rfl⟩, hh "NXOR-NXOR" ⟨.NXOR, .NXOR, rfl⟩,
      or_false, if_false]
  simp [expected_density, e1, e2, hc]

/-- a case meeting the hypotheses, with a value that is not 0 or 1: OR-AND, two factors, three dimensions -/
example : expected_density "OR-AND" 3 2 (1/2) = .ok (37/64) ∧
    lomProb (L := 3) (K := 2) .OR .AND (fun _ _ => 1/2) = 37/64 := by
  have h := C13_expected_density_partial .OR .AND 3 2 (1/2) (by omega) (by omega) (.inl (by simp))
  have e : lomProb (L := 3) (K := 2) .OR .AND (fun _ _ => 1/2) = 37/64 := by
    rw [lomProb_const]; simp only [opProb]; norm_num
  exact ⟨by rw [← e]; exact h, e⟩

example : ∀ o i : LOp, "OR-OF" ≠ modelName o i := by
  intro o i; cases o <;> cases i <;> decide

end LFM
