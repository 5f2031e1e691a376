import Mathlib.MeasureTheory.Measure.Lebesgue.Basic
import Verif.Model.MatrixUpdates
import Verif.Lemmas.Posterior

/-! The flip functions as functions of their uniform draw. -/

namespace LFM

open Spec MeasureTheory

theorem IsPM.cast_sq {z : Int} (hz : IsPM z) : (z : ℝ) * z = 1 := by
  rcases hz with rfl | rfl <;> norm_num

/-- the flip happens exactly when the draw is below `exp(-z·logit)` -/
theorem flip_iff (x : ℝ) {z : Int} (hz : IsPM z) {u : ℝ} (hu : u < 1) :
    flip_metropolised_gibbs_numba x z u = -z ↔ u < Real.exp (-(z : ℝ) * x) := by
  unfold flip_metropolised_gibbs_numba
  rcases hz with rfl | rfl
  · by_cases h : x ≤ 0
    · have : (1 : ℝ) ≤ Real.exp (-((1 : Int) : ℝ) * x) := by
        rw [← Real.exp_zero]; apply Real.exp_le_exp.2; push_cast; linarith
      rw [if_pos ⟨rfl, h⟩]
      simp only [true_iff]
      linarith
    · rw [if_neg (fun h' => h h'.2), if_neg (by simp)]
      split
      · rename_i h'; simpa using h'
      · rename_i h'; simpa using h'
  · by_cases h : 0 ≤ x
    · have : (1 : ℝ) ≤ Real.exp (-((-1 : Int) : ℝ) * x) := by
        rw [← Real.exp_zero]; apply Real.exp_le_exp.2; push_cast; linarith
      rw [if_neg (by simp), if_pos ⟨rfl, h⟩]
      simp only [neg_neg, true_iff]
      linarith
    · rw [if_neg (by simp), if_neg (fun h' => h h'.2)]
      split
      · rename_i h'; simpa using h'
      · rename_i h'; simpa using h'

theorem flip_eq_or (x : ℝ) {z : Int} (_hz : IsPM z) (u : ℝ) :
    flip_metropolised_gibbs_numba x z u = -z ∨ flip_metropolised_gibbs_numba x z u = z := by
  unfold flip_metropolised_gibbs_numba
  split
  · rename_i h; left; omega
  · split
    · rename_i h; left; omega
    · split
      · exact Or.inl rfl
      · exact Or.inr rfl

theorem isPM_flip (x : ℝ) {z : Int} (hz : IsPM z) (u : ℝ) :
    IsPM (flip_metropolised_gibbs_numba x z u) := by
  rcases flip_eq_or x hz u with h | h <;> rw [h]
  · rcases hz with rfl | rfl
    · exact Or.inr rfl
    · exact Or.inl rfl
  · exact hz

/-- the set of draws that flip is an interval -/
theorem flip_set (x : ℝ) {z : Int} (hz : IsPM z) :
    {u | u ∈ Set.Ico (0 : ℝ) 1 ∧ flip_metropolised_gibbs_numba x z u = -z} =
      Set.Ico 0 (min 1 (Real.exp (-(z : ℝ) * x))) := by
  ext u
  simp only [Set.mem_ofPred_eq, Set.mem_Ico, lt_min_iff]
  constructor
  · rintro ⟨⟨h0, h1⟩, h⟩
    exact ⟨h0, h1, (flip_iff x hz h1).1 h⟩
  · rintro ⟨h0, h1, h⟩
    exact ⟨⟨h0, h1⟩, (flip_iff x hz h1).2 h⟩

/-- and the set of draws that stay is the rest of the unit interval -/
theorem stay_set (x : ℝ) {z : Int} (hz : IsPM z) :
    {u | u ∈ Set.Ico (0 : ℝ) 1 ∧ flip_metropolised_gibbs_numba x z u = z} =
      Set.Ico (min 1 (Real.exp (-(z : ℝ) * x))) 1 := by
  have hne : -z ≠ z := by rcases hz with rfl | rfl <;> decide
  have hpos := Real.exp_pos (-(z : ℝ) * x)
  ext u
  simp only [Set.mem_ofPred_eq, Set.mem_Ico]
  constructor
  · rintro ⟨⟨h0, h1⟩, h⟩
    refine ⟨?_, h1⟩
    by_contra hlt
    rw [not_le, lt_min_iff] at hlt
    exact hne (((flip_iff x hz h1).2 hlt.2).symm.trans h)
  · rintro ⟨h0, h1⟩
    have h2 : Real.exp (-(z : ℝ) * x) ≤ u := by
      rcases min_le_iff.1 h0 with h | h
      · linarith
      · exact h
    refine ⟨⟨by linarith, h1⟩, ?_⟩
    rcases flip_eq_or x hz u with h | h
    · exact absurd ((flip_iff x hz h1).1 h) (not_lt.2 h2)
    · exact h

theorem volume_flip (x : ℝ) {z : Int} (hz : IsPM z) :
    volume {u | u ∈ Set.Ico (0 : ℝ) 1 ∧ flip_metropolised_gibbs_numba x z u = -z} =
      ENNReal.ofReal (min 1 (Real.exp (-(z : ℝ) * x))) := by
  rw [flip_set x hz, Real.volume_Ico, sub_zero]

theorem volume_stay (x : ℝ) {z : Int} (hz : IsPM z) :
    volume {u | u ∈ Set.Ico (0 : ℝ) 1 ∧ flip_metropolised_gibbs_numba x z u = z} =
      ENNReal.ofReal (1 - min 1 (Real.exp (-(z : ℝ) * x))) := by
  rw [stay_set x hz, Real.volume_Ico]

theorem sigmoid_neg (x : ℝ) : sigmoid (-x) = 1 - sigmoid x := by
  unfold sigmoid
  rw [neg_neg]
  have h : Real.exp (-x) * Real.exp x = 1 := by rw [← Real.exp_add]; simp
  have h1 : (1 + Real.exp (-x)) ≠ 0 := by positivity
  have h2 : (1 + Real.exp x) ≠ 0 := by positivity
  field_simp
  linarith

theorem sigmoid_neg_eq (x : ℝ) : sigmoid (-x) = Real.exp (-x) * sigmoid x := by
  unfold sigmoid
  rw [neg_neg]
  have h : Real.exp (-x) * Real.exp x = 1 := by rw [← Real.exp_add]; simp
  have h1 : (1 + Real.exp (-x)) ≠ 0 := by positivity
  have h2 : (1 + Real.exp x) ≠ 0 := by positivity
  field_simp
  linarith

theorem sigmoid_lt_one (x : ℝ) : sigmoid x < 1 := by
  have := sigmoid_pos (-x); rw [sigmoid_neg] at this; linarith

theorem sigmoid_le_half_iff (x : ℝ) : sigmoid x ≤ 1 / 2 ↔ x ≤ 0 := by
  have h1 : (0 : ℝ) < 1 + Real.exp (-x) := by positivity
  unfold sigmoid
  rw [div_le_div_iff₀ h1 (by norm_num), ← neg_nonneg, ← Real.one_le_exp_iff]
  constructor <;> intro h <;> linarith

theorem half_le_sigmoid_iff (x : ℝ) : 1 / 2 ≤ sigmoid x ↔ 0 ≤ x := by
  have h := sigmoid_le_half_iff (-x)
  rw [sigmoid_neg] at h
  constructor
  · intro h'; have := h.1 (by linarith); linarith
  · intro h'; have := h.2 (by linarith); linarith

end LFM
