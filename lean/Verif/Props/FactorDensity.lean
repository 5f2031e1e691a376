import Mathlib.Tactic.Linarith
import Mathlib.Tactic.NormNum
import Verif.Props.Density

/-!
# Property C83: `factor_density` inverts the expected density
-/

namespace LFM

open Spec

/-- Specification: what the solver is to find a zero of: the difference between the density of the data, with factors of
density `f`, and the density wanted; a huge number where `f` is not a density -/
noncomputable def excess (o i : LOp) (L K : Nat) (X f : ℝ) : ℝ :=
  if 0 ≤ f ∧ f ≤ 1 then lomProb (L := L) (K := K) o i (fun _ _ => f) - X else 1e10

section

variable {o i : LOp} {L K : Nat} {X : ℝ}

theorem fdFunc_eq (hL : 1 ≤ L) (hK : 1 ≤ K) (hm : ¬ (i = .XOR ∧ (o = .XOR ∨ o = .NXOR)) ∨ K = 2 ∨ L = 1) (f : ℝ) :
    fdFunc (modelName o i) L K X f = .ok (excess o i L K X f, decide (0 ≤ f ∧ f ≤ 1)) := by
  rw [fdFunc, excess, C13_expected_density_partial o i L K f hL hK hm]
  by_cases h0 : f < 0
  · have : ¬ (0 ≤ f ∧ f ≤ 1) := fun h => absurd h.1 (not_le.mpr h0)
    simp [h0, this]
  · by_cases h1 : f > 1
    · have : ¬ (0 ≤ f ∧ f ≤ 1) := fun h => absurd h.2 (not_le.mpr h1)
      simp [h0, h1, this]
    · have : 0 ≤ f ∧ f ≤ 1 := ⟨not_lt.mp h0, not_lt.mp h1⟩
      simp [h0, h1, this]

theorem callSolver_eq (fs : (ℝ → ℝ) → ℝ → ℝ) (hL : 1 ≤ L) (hK : 1 ≤ K)
    (hm : ¬ (i = .XOR ∧ (o = .XOR ∨ o = .NXOR)) ∨ K = 2 ∨ L = 1) (g : ℝ) :
    callSolver fs (fdFunc (modelName o i) L K X) g = .ok (fs (excess o i L K X) g) := by
  rw [callSolver, fdFunc_eq hL hK hm]
  simp only [fdFunc_eq hL hK hm]

theorem fdStep_inside (fs : (ℝ → ℝ) → ℝ → ℝ) (hL : 1 ≤ L) (hK : 1 ≤ K)
    (hm : ¬ (i = .XOR ∧ (o = .XOR ∨ o = .NXOR)) ∨ K = 2 ∨ L = 1) (st : ℝ × Option ℝ) (g : ℝ)
    (h : 0 ≤ fs (excess o i L K X) g ∧ fs (excess o i L K X) g ≤ 1) :
    fdStep fs (fdFunc (modelName o i) L K X) st g = .ok (if |excess o i L K X (fs (excess o i L K X) g)| < st.1 then
      (|excess o i L K X (fs (excess o i L K X) g)|, some (fs (excess o i L K X) g)) else st) := by
  rw [fdStep, callSolver_eq fs hL hK hm]
  simp only [bind, Except.bind, fdFunc_eq hL hK hm, decide_eq_true h, index0]
  split <;> rfl

theorem fdStep_outside (fs : (ℝ → ℝ) → ℝ → ℝ) (hL : 1 ≤ L) (hK : 1 ≤ K)
    (hm : ¬ (i = .XOR ∧ (o = .XOR ∨ o = .NXOR)) ∨ K = 2 ∨ L = 1) (st : ℝ × Option ℝ) (g : ℝ)
    (h : ¬ (0 ≤ fs (excess o i L K X) g ∧ fs (excess o i L K X) g ≤ 1)) :
    fdStep fs (fdFunc (modelName o i) L K X) st g = .error .typingError := by
  rw [fdStep, callSolver_eq fs hL hK hm]
  simp only [bind, Except.bind, fdFunc_eq hL hK hm, decide_eq_false h, index0]

/-- the loop over the guesses keeps the best solution so far -/
theorem fdLoop (fs : (ℝ → ℝ) → ℝ → ℝ) (hL : 1 ≤ L) (hK : 1 ≤ K)
    (hm : ¬ (i = .XOR ∧ (o = .XOR ∨ o = .NXOR)) ∨ K = 2 ∨ L = 1) (gs : List ℝ) (st : ℝ × Option ℝ)
    (h : ∀ g ∈ gs, 0 ≤ fs (excess o i L K X) g ∧ fs (excess o i L K X) g ≤ 1) :
    ∃ st', gs.foldlM (fdStep fs (fdFunc (modelName o i) L K X)) st = .ok st' ∧ st'.1 ≤ st.1 ∧
      (∀ g ∈ gs, st'.1 ≤ |excess o i L K X (fs (excess o i L K X) g)|) ∧
      (st' = st ∨ ∃ g ∈ gs, st' = (|excess o i L K X (fs (excess o i L K X) g)|, some (fs (excess o i L K X) g))) := by
  induction gs generalizing st with
  | nil => exact ⟨st, rfl, le_rfl, by simp, .inl rfl⟩
  | cons g gs ih =>
    rw [List.foldlM_cons, fdStep_inside fs hL hK hm st g (h g (by simp))]
    obtain ⟨st', e, hle, hall, hc⟩ := ih (if |excess o i L K X (fs (excess o i L K X) g)| < st.1 then
      (|excess o i L K X (fs (excess o i L K X) g)|, some (fs (excess o i L K X) g)) else st)
      fun g' hg' => h g' (List.mem_cons_of_mem _ hg')
    refine ⟨st', e, ?_, ?_, ?_⟩
    · refine hle.trans ?_
      split
      · rename_i hl; exact hl.le
      · exact le_rfl
    · intro g' hg'
      rcases List.mem_cons.mp hg' with rfl | hg'
      · refine hle.trans ?_
        split
        · exact le_rfl
        · rename_i hl; exact not_lt.mp hl
      · exact hall g' hg'
    · rcases hc with hc | ⟨g', hg', hc⟩
      · by_cases hl : |excess o i L K X (fs (excess o i L K X) g)| < st.1
        · rw [if_pos hl] at hc; exact .inr ⟨g, by simp, hc⟩
        · rw [if_neg hl] at hc; exact .inl hc
      · exact .inr ⟨g', List.mem_cons_of_mem _ hg', hc⟩

/-- the loop fails as soon as one solution is not a density -/
theorem fdLoop_fails (fs : (ℝ → ℝ) → ℝ → ℝ) (hL : 1 ≤ L) (hK : 1 ≤ K)
    (hm : ¬ (i = .XOR ∧ (o = .XOR ∨ o = .NXOR)) ∨ K = 2 ∨ L = 1) (gs : List ℝ) (st : ℝ × Option ℝ)
    (h : ∃ g ∈ gs, ¬ (0 ≤ fs (excess o i L K X) g ∧ fs (excess o i L K X) g ≤ 1)) :
    gs.foldlM (fdStep fs (fdFunc (modelName o i) L K X)) st = .error .typingError := by
  induction gs generalizing st with
  | nil => simp at h
  | cons g gs ih =>
    rw [List.foldlM_cons]
    by_cases hg : 0 ≤ fs (excess o i L K X) g ∧ fs (excess o i L K X) g ≤ 1
    · rw [fdStep_inside fs hL hK hm st g hg]
      refine ih _ ?_
      obtain ⟨g', hg', hn⟩ := h
      rcases List.mem_cons.mp hg' with rfl | hg'
      · exact absurd hg hn
      · exact ⟨g', hg', hn⟩
    · rw [fdStep_outside fs hL hK hm st g hg]; rfl

end

/-- the initial guesses of `factor_density`, auxiliary_functions.py:1093 -/
def guesses : List ℚ := [1/100, 1/4, 1/2, 3/4, 99/100]

theorem fdGuesses_eq : fdGuesses = guesses.map fun q : ℚ => (q : ℝ) := by
  simp only [fdGuesses, guesses, List.map_cons, List.map_nil]
  norm_num

/-- the probability of a one lies in [0, 1] -/
theorem lomProb_const_mem (o i : LOp) (L K : Nat) (f : ℝ) (h : 0 ≤ f ∧ f ≤ 1) :
    0 ≤ lomProb (L := L) (K := K) o i (fun _ _ => f) ∧ lomProb (L := L) (K := K) o i (fun _ _ => f) ≤ 1 := by
  rw [lomProb_eq]
  exact bernProb_mem (fun _ => bernProb_mem (fun _ => h) _) _

/-- **C83** (`_partial`: the solver is scipy's, not modelled; two models as in C13). Whatever the solver, if all its
solutions are densities, `factor_density` returns one of them, and none of them gives a data density closer to the one
wanted. -/
theorem C83_closest_partial (fs : (ℝ → ℝ) → ℝ → ℝ) (o i : LOp) (L K : Nat) (X : ℝ) (hL : 1 ≤ L) (hK : 1 ≤ K)
    (hm : ¬ (i = .XOR ∧ (o = .XOR ∨ o = .NXOR)) ∨ K = 2 ∨ L = 1) (hX : 0 ≤ X ∧ X ≤ 1)
    (h : ∀ g ∈ guesses, 0 ≤ fs (excess o i L K X) g ∧ fs (excess o i L K X) g ≤ 1) :
    ∃ f, factor_density fs (modelName o i) L K X = .ok f ∧ (∃ g ∈ guesses, f = fs (excess o i L K X) g) ∧
      0 ≤ f ∧ f ≤ 1 ∧ ∀ g ∈ guesses, |lomProb (L := L) (K := K) o i (fun _ _ => f) - X| ≤
        |lomProb (L := L) (K := K) o i (fun _ _ => fs (excess o i L K X) g) - X| := by
  have h' : ∀ g ∈ fdGuesses, 0 ≤ fs (excess o i L K X) g ∧ fs (excess o i L K X) g ≤ 1 := by
    rw [fdGuesses_eq]
    intro g hg
    obtain ⟨q, hq, rfl⟩ := List.mem_map.mp hg
    exact h q hq
  obtain ⟨st, e, hle, hall, hc⟩ := fdLoop (X := X) fs hL hK hm fdGuesses (1e10, none) h'
  have hx : ∀ g ∈ guesses, excess o i L K X (fs (excess o i L K X) g) =
      lomProb (L := L) (K := K) o i (fun _ _ => fs (excess o i L K X) g) - X := fun g hg => by
    conv_lhs => rw [excess]
    rw [if_pos (h g hg)]
  have hsmall : ∀ g ∈ guesses, |excess o i L K X (fs (excess o i L K X) g)| ≤ 1 := by
    intro g hg
    rw [hx g hg]
    obtain ⟨h0, h1⟩ := lomProb_const_mem o i L K _ (h g hg)
    rw [abs_le]
    constructor <;> linarith [hX.1, hX.2]
  have hbest : ∃ g ∈ guesses, st = (|excess o i L K X (fs (excess o i L K X) g)|, some (fs (excess o i L K X) g)) := by
    rcases hc with rfl | ⟨g, hg, hc⟩
    · exfalso
      have h1 := hall (1/2 : ℚ) (by rw [fdGuesses_eq]; exact List.mem_map.mpr ⟨_, by simp [guesses], rfl⟩)
      have h2 := hsmall (1/2) (by simp [guesses])
      norm_num at h1 h2
      linarith
    · rw [fdGuesses_eq] at hg
      obtain ⟨q, hq, rfl⟩ := List.mem_map.mp hg
      exact ⟨q, hq, hc⟩
  obtain ⟨g, hg, rfl⟩ := hbest
  refine ⟨fs (excess o i L K X) g, ?_, ⟨g, hg, rfl⟩, (h g hg).1, (h g hg).2, ?_⟩
  · rw [factor_density]
    simp only [e, bind, Except.bind]
    rfl
  · intro g' hg'
    have := hall (g' : ℝ) (by rw [fdGuesses_eq]; exact List.mem_map.mpr ⟨g', hg', rfl⟩)
    rwa [hx g hg, hx g' hg'] at this

/-- **C83** (`_partial`, see `C83_closest_partial`): with a solver that never moves to a worse point and that finds a zero
from one of the five initial guesses, data generated from factors of the density returned have the density wanted. -/
theorem C83_inverts_partial (fs : (ℝ → ℝ) → ℝ → ℝ) (o i : LOp) (L K : Nat) (X : ℝ) (hL : 1 ≤ L) (hK : 1 ≤ K)
    (hm : ¬ (i = .XOR ∧ (o = .XOR ∨ o = .NXOR)) ∨ K = 2 ∨ L = 1) (hX : 0 ≤ X ∧ X ≤ 1)
    (hdesc : ∀ (F : ℝ → ℝ) (g : ℝ), |F (fs F g)| ≤ |F g|) (hfind : ∃ g ∈ guesses, excess o i L K X (fs (excess o i L K X) g) = 0) :
    ∃ f, factor_density fs (modelName o i) L K X = .ok f ∧ 0 ≤ f ∧ f ≤ 1 ∧
      lomProb (L := L) (K := K) o i (fun _ _ => f) = X := by
  have h : ∀ g ∈ guesses, 0 ≤ fs (excess o i L K X) g ∧ fs (excess o i L K X) g ≤ 1 := by
    intro g hg
    by_contra hn
    have h1 := hdesc (excess o i L K X) g
    have hg01 : 0 ≤ (g : ℝ) ∧ (g : ℝ) ≤ 1 := by
      simp only [guesses, List.mem_cons, List.not_mem_nil, or_false] at hg
      rcases hg with rfl | rfl | rfl | rfl | rfl <;> norm_num
    have e1 : excess o i L K X (fs (excess o i L K X) g) = 1e10 := by
      conv_lhs => rw [excess]
      rw [if_neg hn]
    have e2 : excess o i L K X g = lomProb (L := L) (K := K) o i (fun _ _ => (g : ℝ)) - X := by
      rw [excess, if_pos hg01]
    rw [e1, e2] at h1
    obtain ⟨h2, h3⟩ := lomProb_const_mem o i L K _ hg01
    have h4 : |lomProb (L := L) (K := K) o i (fun _ _ => (g : ℝ)) - X| ≤ 1 := by
      rw [abs_le]; constructor <;> linarith [hX.1, hX.2]
    have h5 : |(1e10 : ℝ)| = 1e10 := abs_of_pos (by norm_num)
    rw [h5] at h1
    norm_num at h1
    linarith
  obtain ⟨f, e, _, h0, h1, hmin⟩ := C83_closest_partial fs o i L K X hL hK hm hX h
  refine ⟨f, e, h0, h1, ?_⟩
  obtain ⟨g, hg, hz⟩ := hfind
  have := hmin g hg
  have hx : excess o i L K X (fs (excess o i L K X) g) =
      lomProb (L := L) (K := K) o i (fun _ _ => fs (excess o i L K X) g) - X := by
    conv_lhs => rw [excess]
    rw [if_pos (h g hg)]
  rw [← hx, hz, abs_zero] at this
  exact sub_eq_zero.mp (abs_nonpos_iff.mp this)

/-- **C83** (what goes wrong): one solution outside [0, 1] is enough for a TypeError, even if another is exact -/
theorem C83_wrong (fs : (ℝ → ℝ) → ℝ → ℝ) (o i : LOp) (L K : Nat) (X : ℝ) (hL : 1 ≤ L) (hK : 1 ≤ K)
    (hm : ¬ (i = .XOR ∧ (o = .XOR ∨ o = .NXOR)) ∨ K = 2 ∨ L = 1)
    (h : ∃ g ∈ guesses, ¬ (0 ≤ fs (excess o i L K X) g ∧ fs (excess o i L K X) g ≤ 1)) :
    factor_density fs (modelName o i) L K X = .error .typingError := by
  have h' : ∃ g ∈ fdGuesses, ¬ (0 ≤ fs (excess o i L K X) g ∧ fs (excess o i L K X) g ≤ 1) := by
    obtain ⟨q, hq, hn⟩ := h
    exact ⟨q, by rw [fdGuesses_eq]; exact List.mem_map.mpr ⟨q, hq, rfl⟩, hn⟩
  rw [factor_density]
  simp only [fdLoop_fails (X := X) fs hL hK hm fdGuesses (1e10, none) h', bind, Except.bind]

/-- **C83**: a name that is not a model raises TypeError -/
theorem C83_unknown_rejected (fs : (ℝ → ℝ) → ℝ → ℝ) (model : String) (L K : Nat) (X : ℝ)
    (h : ∀ o i : LOp, model ≠ modelName o i) : factor_density fs model L K X = .error .typingError := by
  rw [factor_density]
  have : callSolver fs (fdFunc model L K X) 0.01 = .error .typingError := by
    rw [callSolver, fdFunc, C13_unknown_rejected model L K _ h]
    norm_num
  simp only [fdGuesses, List.foldlM_cons, fdStep, this, bind, Except.bind]

/-- **C83**: densities far above 1 raise UnboundLocalError, even if all solutions of the solver are densities -/
theorem C83_absurd_density (fs : (ℝ → ℝ) → ℝ → ℝ) (o i : LOp) (L K : Nat) (X : ℝ) (hL : 1 ≤ L) (hK : 1 ≤ K)
    (hm : ¬ (i = .XOR ∧ (o = .XOR ∨ o = .NXOR)) ∨ K = 2 ∨ L = 1) (hX : 1e10 + 1 < X)
    (h : ∀ g ∈ guesses, 0 ≤ fs (excess o i L K X) g ∧ fs (excess o i L K X) g ≤ 1) :
    factor_density fs (modelName o i) L K X = .error .unboundLocal := by
  have h' : ∀ g ∈ fdGuesses, 0 ≤ fs (excess o i L K X) g ∧ fs (excess o i L K X) g ≤ 1 := by
    rw [fdGuesses_eq]
    intro g hg
    obtain ⟨q, hq, rfl⟩ := List.mem_map.mp hg
    exact h q hq
  obtain ⟨st', e, hle, -, hc⟩ := fdLoop (X := X) fs hL hK hm fdGuesses (1e10, none) h'
  rw [factor_density]
  simp only [e, bind, Except.bind]
  rcases hc with rfl | ⟨g, hg, rfl⟩
  · rfl
  · exfalso
    obtain ⟨g0, g1⟩ := h' g hg
    have hp := (lomProb_const_mem o i L K _ ⟨g0, g1⟩).2
    have he : excess o i L K X (fs (excess o i L K X) g) =
        lomProb (L := L) (K := K) o i (fun _ _ => fs (excess o i L K X) g) - X := by
      conv_lhs => rw [excess]
      rw [if_pos ⟨g0, g1⟩]
    simp only [he] at hle
    rw [abs_of_neg (by linarith [show (0 : ℝ) < 1e10 by norm_num])] at hle
    linarith

/-- the hypotheses of `C83_inverts_partial` can be met, for every density that can be had at all: by a solver that returns a
zero if there is one -/
theorem C83_hypotheses_met : ∃ fs : (ℝ → ℝ) → ℝ → ℝ, (∀ (F : ℝ → ℝ) (g : ℝ), |F (fs F g)| ≤ |F g|) ∧
    ∀ o i L K X, (∃ f, 0 ≤ f ∧ f ≤ 1 ∧ lomProb (L := L) (K := K) o i (fun _ _ => f) = X) →
      ∃ g ∈ guesses, excess o i L K X (fs (excess o i L K X) g) = 0 := by
  classical
  refine ⟨fun F g => if h : ∃ f, F f = 0 then h.choose else g, ?_, ?_⟩
  · intro F g
    dsimp only
    split
    · rename_i h; rw [h.choose_spec, abs_zero]; exact abs_nonneg _
    · exact le_rfl
  · rintro o i L K X ⟨f, h0, h1, hf⟩
    have hz : ∃ f, excess o i L K X f = 0 := ⟨f, by rw [excess, if_pos ⟨h0, h1⟩, hf, sub_self]⟩
    refine ⟨1/2, by simp [guesses], ?_⟩
    dsimp only
    rw [dif_pos hz]
    exact hz.choose_spec

/-- a density that can be had: half of the data, from two factors of density one half, for XOR-XOR of one dimension -/
example : ∃ f : ℝ, 0 ≤ f ∧ f ≤ 1 ∧ lomProb (L := 1) (K := 2) .XOR .XOR (fun _ _ => f) = 1/2 := by
  refine ⟨1/2, by norm_num, by norm_num, ?_⟩
  rw [lomProb_const]; simp only [opProb]; norm_num

end LFM
