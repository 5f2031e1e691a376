import Verif.Props.Output
import Verif.Spec.Threshold

/-!
# C49, C51: output of qL-AND layers
-/

namespace LFM

open Spec

/-- the cells of the output of a qL-AND layer -/
theorem outputQL_get (s : OLayer) {N D : Nat} (hX : s.childShape = [N, D]) {z u : OFac} {fs : List OFac}
    (hf : s.factors = z :: u :: fs) : ∃ X, outputQL s = .ok X ∧ X.shape = [N, D] ∧ ∀ n d, n < N → d < D →
      X [n, d] = .fin ((qL_AND_product (u.val.row d) (z.val.row n) (s.q [0, d]) : Int) : ℝ) := by
  have h := fill2 N D (fun n d => NpF.fin ((qL_AND_product (u.val.row d) (z.val.row n) (s.q [0, d]) : Int) : ℝ))
    (Arr.full [N, D] (.fin 0))
  refine ⟨_, ?_, h.1, h.2⟩
  unfold outputQL
  rw [hX, hf]
  simp only [Id.run_bind, Id.run_pure]
  rw [run_forIn_yield]
  intro n b
  simp only [Id.run_bind, Id.run_pure]
  rw [run_forIn_yield]
  intro d b
  rfl

/-- **C49**, **C51** (`_partial`: qL-AND; the values are not probabilities, see `C49_qL_wrong`). Whatever the technique, the
output of a qL-AND layer is the prediction of the current factors with the current thresholds: 1 if at least `q_d`
dimensions are on in both factors, and -1 otherwise; with `map_to_probabilities=False` 1 or -3. -/
theorem C49_qL_partial (argsort : Arr ℝ → List Nat) (technique : String) (noisy mp : Bool) (s : OLayer)
    (hm : s.model = "qL-AND") {N D L : Nat} (hX : s.childShape = [N, D]) {z u : OFac} (hf : s.factors = [z, u])
    (hz : z.val.shape = [N, L]) (hu : u.val.shape = [D, L]) (hq : ∀ d < D, 1 ≤ s.q [0, d]) :
    ∃ X, (output argsort technique noisy false mp s).1 = .ok X ∧ X.shape = [N, D] ∧ ∀ n < N, ∀ d < D,
      X [n, d] = .fin (if mp then ((predQ L (s.q [0, d]) (fun l => z.val [n, l]) (fun l => u.val [d, l]) : Int) : ℝ)
        else 2 * ((predQ L (s.q [0, d]) (fun l => z.val [n, l]) (fun l => u.val [d, l]) : Int) : ℝ) - 1) := by
  obtain ⟨X, h1, h2, h3⟩ := outputQL_get s hX hf
  have hs : ({ s with model := if s.model = "OR-AND-IBP" then "OR-AND" else s.model } : OLayer) = s := by
    rw [if_neg (by rw [hm]; decide)]
  have hc : computeOutput argsort technique noisy s = .ok X := by
    unfold computeOutput
    rw [if_neg (by rw [hm]; decide), if_pos hm, h1]
  have hcell : ∀ n < N, ∀ d < D, X [n, d] =
      .fin ((predQ L (s.q [0, d]) (fun l => z.val [n, l]) (fun l => u.val [d, l]) : Int) : ℝ) := by
    intro n hn d hd
    rw [h3 n d hn hd, qL_AND_product_eq _ _ _ (hq d hd)]
    have hdim : (u.val.row d).dim 0 = L := by simp [Arr.row, Arr.dim, hu]
    rw [hdim, countP_range_eq_card_fin, predQ, pm_eq_ite]
    simp only [and_comm]
    rfl
  refine ⟨if mp then X else X.map NpF.twiceMinusOne, ?_, ?_, fun n hn d hd => ?_⟩
  · rw [output_eq, hs, hc]
  · cases mp
    · exact h2
    · exact h2
  · cases mp
    · show (X [n, d]).twiceMinusOne = _
      rw [hcell n hn d hd]
      rfl
    · show X [n, d] = _
      rw [hcell n hn d hd]
      rfl

/-- hypotheses met: two rows and two columns, two dimensions, thresholds 1 and 2; the output of row 0 is 1, -1 -/
example : ∃ s : OLayer, s.model = "qL-AND" ∧ s.childShape = [2, 2] ∧ (∃ z u : OFac, s.factors = [z, u] ∧
    z.val.shape = [2, 2] ∧ u.val.shape = [2, 2]) ∧ (∀ d < 2, 1 ≤ s.q [0, d]) ∧
    ∃ X, outputQL s = .ok X ∧ X [0, 0] = .fin 1 ∧ X [0, 1] = .fin (-1) := by
  refine ⟨⟨"qL-AND", [⟨Arr.mat 2 [[1, -1], [1, 1]] 0, none⟩, ⟨Arr.mat 2 [[1, -1], [1, 1]] 0, none⟩], .scalar (.fin 1) none,
    Arr.mat 2 [[1, 2]] 0, [2, 2], none⟩, rfl, rfl, ⟨_, _, rfl, rfl, rfl⟩, by decide, ?_⟩
  obtain ⟨X, h1, -, h3⟩ := outputQL_get ⟨"qL-AND", [⟨Arr.mat 2 [[1, -1], [1, 1]] 0, none⟩, ⟨Arr.mat 2 [[1, -1], [1, 1]] 0, none⟩],
    .scalar (.fin 1) none, Arr.mat 2 [[1, 2]] 0, [2, 2], none⟩ rfl rfl
  refine ⟨X, h1, ?_, ?_⟩
  · rw [h3 0 0 (by omega) (by omega)]
    have : qL_AND_product ((Arr.mat 2 [[1, -1], [1, 1]] 0).row 0) ((Arr.mat 2 [[1, -1], [1, 1]] 0).row 0)
      ((Arr.mat 2 [[(1 : Int), 2]] 0) [0, 0]) = 1 := by decide
    rw [this]; norm_num
  · rw [h3 0 1 (by omega) (by omega)]
    have : qL_AND_product ((Arr.mat 2 [[1, -1], [1, 1]] 0).row 1) ((Arr.mat 2 [[1, -1], [1, 1]] 0).row 0)
      ((Arr.mat 2 [[(1 : Int), 2]] 0) [0, 1]) = -1 := by decide
    rw [this]; norm_num

end LFM
