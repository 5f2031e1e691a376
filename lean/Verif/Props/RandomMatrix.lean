import Verif.Model.RandomMatrix
import Verif.Props.RandomInit

/-!
# C130: `random_machine_matrix` gives independent entries of the density asked for
-/

namespace LFM

open Spec MeasureTheory

theorem uniform_below {p : ℝ} (h0 : 0 ≤ p) (h1 : p ≤ 1) : volume.restrict (Set.Ico (0 : ℝ) 1) (Set.Iic p) = ENNReal.ofReal p := by
  rw [Measure.restrict_apply measurableSet_Iic]
  refine le_antisymm ?_ ?_
  · refine (measure_mono (t := Set.Icc 0 p) fun x hx => ⟨hx.2.1, hx.1⟩).trans ?_
    rw [Real.volume_Icc, sub_zero]
  · refine le_trans ?_ (measure_mono (s := Set.Ico 0 p) fun x hx => ⟨hx.2.le, hx.1, hx.2.trans_le h1⟩)
    rw [Real.volume_Ico, sub_zero]

theorem uniform_above {p : ℝ} (h0 : 0 ≤ p) : volume.restrict (Set.Ico (0 : ℝ) 1) (Set.Ioi p) = ENNReal.ofReal (1 - p) := by
  rw [Measure.restrict_apply measurableSet_Ioi]
  have : Set.Ioi p ∩ Set.Ico 0 1 = Set.Ioo p 1 := by
    ext x
    exact ⟨fun h => ⟨h.1, h.2.2⟩, fun h => ⟨h.1, h0.trans h.1.le, h.2⟩⟩
  rw [this, Real.volume_Ioo]

/-- the draws that make an entry 1 (`b`) or -1 -/
def drawsGiving (p : ℝ) (b : Bool) : Set ℝ := {u | 2 * np_binomial1 p u - 1 = sgn b}

theorem drawsGiving_law {p : ℝ} (h0 : 0 ≤ p) (h1 : p ≤ 1) (b : Bool) :
    volume.restrict (Set.Ico (0 : ℝ) 1) (drawsGiving p b) = ENNReal.ofReal (if b then p else 1 - p) := by
  by_cases hp : p ≤ 1 / 2
  · cases b
    · have : drawsGiving p false = Set.Iic (1 - p) := by
        ext u
        simp only [drawsGiving, np_binomial1, if_pos hp, Set.mem_setOf_eq, Set.mem_Iic, sgn]
        by_cases h : u > 1 - p
        · simp [h]
        · simp [h, not_lt.mp h]
      rw [this, uniform_below (by linarith) (by linarith)]; simp
    · have : drawsGiving p true = Set.Ioi (1 - p) := by
        ext u
        simp only [drawsGiving, np_binomial1, if_pos hp, Set.mem_setOf_eq, Set.mem_Ioi, sgn]
        by_cases h : u > 1 - p
        · simp [h]
        · simp [h]
      rw [this, uniform_above (by linarith)]; simp
  · cases b
    · have : drawsGiving p false = Set.Ioi p := by
        ext u
        simp only [drawsGiving, np_binomial1, if_neg hp, Set.mem_setOf_eq, Set.mem_Ioi, sgn, sub_sub_cancel]
        by_cases h : u > p
        · simp [h]
        · simp [h]
      rw [this, uniform_above h0]; simp
    · have : drawsGiving p true = Set.Iic p := by
        ext u
        simp only [drawsGiving, np_binomial1, if_neg hp, Set.mem_setOf_eq, Set.mem_Iic, sgn, sub_sub_cancel]
        by_cases h : u > p
        · simp [h]
        · simp [h, not_lt.mp h]
      rw [this, uniform_below h0 h1]; simp

/-- **C130**: for every probability the entries are independent, 1 with that probability and -1 otherwise -/
theorem C130_density {N L : Nat} {p : ℝ} (h0 : 0 ≤ p) (h1 : p ≤ 1) (c : Cfg N L) :
    startLaw (random_machine_matrix p [N, L]) c = bernoulli p c := by
  have hok : ∀ r, random_machine_matrix p [N, L] r = .ok ⟨[N, L], fun i => 2 * np_binomial1 p (r i) - 1⟩ := fun r =>
    if_neg (by push Not; exact ⟨h0, h1⟩)
  have hset : {u : Fin N × Fin L → ℝ | ∃ R, random_machine_matrix p [N, L] (rndOf u) = .ok R ∧ Holds R c} =
      Set.univ.pi fun e => drawsGiving p (c e) := by
    have hr : ∀ (u : Fin N × Fin L → ℝ) (n : Fin N) (l : Fin L), rndOf u [(n : Nat), (l : Nat)] = u (n, l) := by
      intro u n l; simp [rndOf]
    ext u
    rw [Set.mem_univ_pi]
    constructor
    · rintro ⟨R, hR, hc⟩ ⟨n, l⟩
      rw [hok] at hR
      cases hR
      have := hc.2 n l
      simp only [hr] at this
      exact this
    · intro h
      refine ⟨_, hok _, rfl, fun n l => ?_⟩
      have := h (n, l)
      show 2 * np_binomial1 p (rndOf u [(n : Nat), (l : Nat)]) - 1 = _
      rw [hr]
      exact this
  rw [startLaw, hset, uniformDraws, Measure.pi_pi]
  exact Finset.prod_congr rfl fun e _ => drawsGiving_law h0 h1 (c e)

/-- **C130**: for every shape and every draws a number in `[0, 1]` gives an array of that shape whose entries are -1 or 1, and any
other number gives a ValueError -/
theorem C130_values (p : ℝ) (shape : List Nat) (rand : Rnd) :
    (0 ≤ p ∧ p ≤ 1 → ∃ R, random_machine_matrix p shape rand = .ok R ∧ R.shape = shape ∧ ∀ i, R i = 1 ∨ R i = -1) ∧
      (¬ (0 ≤ p ∧ p ≤ 1) → random_machine_matrix p shape rand = .error .valueError) := by
  constructor
  · rintro ⟨h0, h1⟩
    refine ⟨_, if_neg (by push Not; exact ⟨h0, h1⟩), rfl, fun i => ?_⟩
    show 2 * np_binomial1 p (rand i) - 1 = 1 ∨ 2 * np_binomial1 p (rand i) - 1 = -1
    unfold np_binomial1
    split <;> split <;> decide
  · intro h
    refine if_pos ?_
    by_contra hc
    push Not at hc
    exact h hc

/-- the densities zero and one give a constant matrix, with draws in `[0, 1)` -/
theorem C130_extremes (shape : List Nat) (rand : Rnd) (hr : ∀ i, 0 ≤ rand i ∧ rand i < 1) :
    (∃ R, random_machine_matrix 0 shape rand = .ok R ∧ ∀ i, R i = -1) ∧ ∃ R, random_machine_matrix 1 shape rand = .ok R ∧ ∀ i, R i = 1 := by
  refine ⟨⟨_, if_neg (by norm_num), fun i => ?_⟩, ⟨_, if_neg (by norm_num), fun i => ?_⟩⟩
  · show 2 * np_binomial1 0 (rand i) - 1 = -1
    rw [np_binomial1, if_pos (by norm_num), if_neg (by have := (hr i).2; linarith)]; rfl
  · show 2 * np_binomial1 1 (rand i) - 1 = 1
    rw [np_binomial1, if_neg (by norm_num), if_neg (by have := (hr i).2; linarith)]; rfl

/-- the hypotheses can be met: of a 1 × 2 matrix with density one quarter, `[[1, -1]]` has probability 3/16 -/
theorem C130_hypotheses_met : startLaw (random_machine_matrix (1 / 4) [1, 2]) (fun e : Fin 1 × Fin 2 => e.2 = 0) = ENNReal.ofReal (3 / 16) := by
  rw [C130_density (by norm_num) (by norm_num), bernoulli, Fintype.prod_prod_type]
  simp only [Fin.prod_univ_two, Finset.univ_unique, Finset.prod_singleton]
  simp only [decide_true, if_true, Fin.reduceEq, decide_false]
  rw [if_neg (by decide), ← ENNReal.ofReal_mul (by norm_num)]
  norm_num

end LFM
