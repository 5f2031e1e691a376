import Verif.Lemmas.QL
import Verif.Lemmas.Flip
import Verif.Lemmas.Posterior
import Verif.Spec.Threshold
import Mathlib.MeasureTheory.Measure.Lebesgue.Basic

/-!
# C32, C33, C34, C72: the qL-AND samplers
-/

namespace LFM

open Spec MeasureTheory

/-! ## C34 -/

/-- `p` is a probability vector -/
def Spec.ProbVec (p : List ℝ) : Prop := (∀ x ∈ p, 0 ≤ x) ∧ p.sum = 1

theorem wrap8_small {x : Int} (h0 : -128 ≤ x) (h1 : x ≤ 127) : wrap8 x = x := by
  unfold wrap8
  rw [Int.bmod_eq_of_le (by omega) (by omega)]

/-- **C34**. For a probability vector with at most 127 entries and a draw in `[0, 1)`, the result is `i + 1` for the
index `i` whose cumulative interval contains the draw. In particular it is never `len(p) + 1`. (The result
type is `int8`, hence the bound on the length; see `C34_overflow`.) -/
theorem C34_interval_partial (p : List ℝ) (hp : Spec.ProbVec p) (hlen : p.length ≤ 127) (r : ℝ) (h0 : 0 ≤ r)
    (h1 : r < 1) :
    ∃ i, i < p.length ∧ random_choice p r = i + 1 ∧ (p.take i).sum ≤ r ∧ r < (p.take (i + 1)).sum := by
  rw [random_choice_eq]
  have hne : p ≠ [] := by rintro rfl; simpa using hp.2
  have hpos : 0 < p.length := List.length_pos_iff.2 hne
  cases hf : (List.range p.length).find? (fun i => decide (r < (p.take (i + 1)).sum)) with
  | none =>
    rw [List.find?_eq_none] at hf
    have := hf (p.length - 1) (by simp; omega)
    rw [Nat.sub_add_cancel hpos, List.take_length, hp.2] at this
    simp at this
    linarith
  | some i =>
    have hi := List.mem_of_find?_eq_some hf
    rw [List.mem_range] at hi
    have hlt := List.find?_some hf
    simp only [decide_eq_true_eq] at hlt
    refine ⟨i, hi, ?_, ?_, hlt⟩
    · exact wrap8_small (by omega) (by omega)
    · cases i with
      | zero => simpa using h0
      | succ j =>
        rw [List.find?_range_eq_some] at hf
        have := hf.2.2 j (by omega)
        simpa using this

/-- **C34**, the events are exactly the cumulative intervals. -/
theorem C34_iff_partial (p : List ℝ) (hp : Spec.ProbVec p) (hlen : p.length ≤ 127) (r : ℝ) (h0 : 0 ≤ r)
    (h1 : r < 1) (i : Nat) :
    random_choice p r = i + 1 ↔ (p.take i).sum ≤ r ∧ r < (p.take (i + 1)).sum := by
  obtain ⟨j, hj, he, h2, h3⟩ := C34_interval_partial p hp hlen r h0 h1
  constructor
  · intro h
    have : i = j := by omega
    subst this
    exact ⟨h2, h3⟩
  · rintro ⟨h4, h5⟩
    have hij : i = j := by
      rcases lt_trichotomy i j with h | h | h
      · have := take_sum_mono hp.1 (show i + 1 ≤ j by omega)
        linarith
      · exact h
      · have := take_sum_mono hp.1 (show j + 1 ≤ i by omega)
        linarith
    subst hij
    exact he

/-- **C34**, probabilities: the uniform draws for which the result is `i + 1` have probability `p_i`. -/
theorem C34_probability_partial (p : List ℝ) (hp : Spec.ProbVec p) (hlen : p.length ≤ 127) (i : Nat)
    (hi : i < p.length) :
    volume {r : ℝ | r ∈ Set.Ico (0 : ℝ) 1 ∧ random_choice p r = i + 1} = ENNReal.ofReal (p[i]) := by
  have hle : (p.take (i + 1)).sum ≤ 1 := by
    have := take_sum_mono hp.1 (show i + 1 ≤ p.length by omega)
    rwa [List.take_length, hp.2] at this
  have hge : 0 ≤ (p.take i).sum := List.sum_nonneg fun x hx => hp.1 x (List.mem_of_mem_take hx)
  have hset : {r : ℝ | r ∈ Set.Ico (0 : ℝ) 1 ∧ random_choice p r = i + 1} =
      Set.Ico (p.take i).sum (p.take (i + 1)).sum := by
    ext r
    simp only [Set.mem_ofPred_eq, Set.mem_Ico]
    constructor
    · rintro ⟨⟨h0, h1⟩, h⟩
      exact (C34_iff_partial p hp hlen r h0 h1 i).1 h
    · rintro ⟨h0, h1⟩
      exact ⟨⟨by linarith, by linarith⟩, (C34_iff_partial p hp hlen r (by linarith) (by linarith) i).2 ⟨h0, h1⟩⟩
  rw [hset, Real.volume_Ico, List.take_add_one, List.sum_append, List.getElem?_eq_getElem hi]
  simp

/-- non-vacuity of C34: a probability vector with three different positive entries, the draw 1/2 -/
example : Spec.ProbVec [1/2, 1/3, 1/6] ∧ random_choice [1/2, 1/3, 1/6] (1/2) = 2 := by
  have hp : Spec.ProbVec [1/2, 1/3, 1/6] := by
    refine ⟨?_, by norm_num⟩
    intro x hx
    simp only [List.mem_cons, List.not_mem_nil, or_false] at hx
    rcases hx with rfl | rfl | rfl <;> norm_num
  refine ⟨hp, ?_⟩
  exact (C34_iff_partial _ hp (by simp) (1/2) (by norm_num) (by norm_num) 1).2
    ⟨by simp, by norm_num [List.take]⟩

/-- **C34** fails for longer vectors: with all the mass on the 128-th entry the result is -128. -/
theorem C34_overflow : ∃ p : List ℝ, Spec.ProbVec p ∧ p.length = 128 ∧
    ∀ r, 0 ≤ r → r < 1 → random_choice p r = -128 := by
  refine ⟨List.replicate 127 0 ++ [1], ⟨?_, by simp⟩, by simp, ?_⟩
  · intro x hx
    simp only [List.mem_append, List.mem_replicate, List.mem_singleton] at hx
    rcases hx with ⟨_, rfl⟩ | rfl <;> norm_num
  · intro r h0 h1
    rw [random_choice_eq]
    have : (List.range (List.replicate 127 (0 : ℝ) ++ [1]).length).find?
        (fun i => decide (r < ((List.replicate 127 (0 : ℝ) ++ [1]).take (i + 1)).sum)) = some 127 := by
      rw [List.find?_range_eq_some]
      refine ⟨?_, by simp, ?_⟩
      · rw [List.take_of_length_le (by simp)]
        simpa using h1
      · intro j hj
        rw [List.take_append_of_le_length (by simp; omega), List.take_replicate]
        simpa using h0
    rw [this]
    rfl

/-! ## C33 -/

theorem thresholdWeight_pos (N L : Nat) {lbda gamma : ℝ} (hg : 0 < gamma) (x : Nat → Int) (F : Factor)
    (u : Nat → Int) (k : Nat) : 0 < thresholdWeight N L lbda gamma x F u k := by
  unfold thresholdWeight
  have h1 : 0 < ∏ n : Fin N, cellLik lbda (x n) (predQ L k (F n) u) :=
    Finset.prod_pos fun n _ => cellLik_pos _ _ _
  have h2 : (0 : ℝ) < k.factorial := by exact_mod_cast k.factorial_pos
  positivity

theorem thresholdPost_nonneg (N L : Nat) {lbda gamma : ℝ} (hg : 0 < gamma) (x : Nat → Int) (F : Factor)
    (u : Nat → Int) (k : Nat) : 0 ≤ thresholdPost N L lbda gamma x F u k :=
  div_nonneg (thresholdWeight_pos N L hg x F u k).le
    (Finset.sum_nonneg fun j _ => (thresholdWeight_pos N L hg x F u j).le)

theorem sum_thresholdPost (N L : Nat) {lbda gamma : ℝ} (hg : 0 < gamma) (x : Nat → Int) (F : Factor)
    (u : Nat → Int) : ∑ k ∈ Finset.Icc 1 5, thresholdPost N L lbda gamma x F u k = 1 := by
  unfold thresholdPost
  rw [← Finset.sum_div]
  refine div_self (ne_of_gt ?_)
  exact Finset.sum_pos (fun j _ => thresholdWeight_pos N L hg x F u j) ⟨1, by simp⟩

/-- the number of rows predicted on at threshold `k + 1` -/
theorem true_predictions_eq {N D L : Nat} {Z U : Arr Int} (hZ : Z.shape = [N, L]) (hU : U.shape = [D, L])
    (pZ : PMArr Z) (pU : PMArr U) {d : Nat} (hd : d < D) (k : Nat) :
    true_predictions Z U d k = (Finset.univ.filter fun n : Fin N =>
      ((k + 1 : Nat) : Int) ≤ (Finset.univ.filter fun l : Fin L => Z [n, l] = 1 ∧ U [d, l] = 1).card).card := by
  have hN : Z.dim 0 = N := by simp [Arr.dim, hZ]
  have hL : Z.dim 1 = L := by simp [Arr.dim, hZ]
  unfold true_predictions
  rw [hN, hL, countP_range_eq_card_fin]
  congr 1
  apply Finset.filter_congr
  intro n _
  have hsum : ((List.range L).map fun l => ((Z [n, l] + 1 : ℝ) / 2) * ((U [d, l] + 1 : ℝ) / 2)).sum =
      ((Finset.univ.filter fun l : Fin L => Z [n, l] = 1 ∧ U [d, l] = 1).card : ℝ) := by
    rw [sum_map_range,
      Finset.card_filter, Nat.cast_sum]
    refine Finset.sum_congr rfl fun l _ => ?_
    have h1 : IsPM (Z [n, l]) := pZ _ (by rw [hZ]; exact ⟨n.2, l.2, trivial⟩)
    have h2 : IsPM (U [d, l]) := pU _ (by rw [hU]; exact ⟨hd, l.2, trivial⟩)
    rcases h1 with h1 | h1 <;> rcases h2 with h2 | h2 <;> simp [h1, h2]
  rw [hsum]
  constructor
  · intro h
    have : (k : ℝ) + 1 ≤ _ := h
    exact_mod_cast this
  · intro h
    show (k : ℝ) + 1 ≤ _
    exact_mod_cast h

theorem exp_nat_mul_log (n : Nat) {a : ℝ} (ha : 0 < a) : Real.exp (n * Real.log a) = a ^ n := by
  rw [Real.exp_nat_mul, Real.exp_log ha]

/-- up to a factor that does not depend on the threshold, the weight is that of a column of ones -/
theorem exp_logW {N D L : Nat} {Z U : Arr Int} (hZ : Z.shape = [N, L]) (hU : U.shape = [D, L])
    (pZ : PMArr Z) (pU : PMArr U) {d : Nat} (hd : d < D) (lbda : ℝ) {gamma : ℝ} (hg : 0 < gamma) (k : Nat) :
    Real.exp (logW Z U N d (Real.log (1 + Real.exp lbda)) (Real.log (1 + Real.exp (-lbda))) gamma k) =
      thresholdWeight N L lbda gamma (fun _ => 1) (fun n l => Z [n, l]) (fun l => U [d, l]) (k + 1) *
        ((1 + Real.exp lbda) * (1 + Real.exp (-lbda))) ^ N := by
  have ha : 0 < 1 + Real.exp lbda := by positivity
  have hb : 0 < 1 + Real.exp (-lbda) := by positivity
  have hcell : ∀ n : Fin N, cellLik lbda 1 (predQ L ((k + 1 : Nat) : Int) (fun l => Z [n, l]) (fun l => U [d, l])) *
      ((1 + Real.exp lbda) * (1 + Real.exp (-lbda))) =
      if ((k + 1 : Nat) : Int) ≤ (Finset.univ.filter fun l : Fin L => Z [n, l] = 1 ∧ U [d, l] = 1).card
      then 1 + Real.exp lbda else 1 + Real.exp (-lbda) := by
    intro n
    unfold predQ
    rw [pm_eq_ite]
    split
    · simp only [cellLik, one_ne_zero, if_false, sigmoid, Int.cast_one, mul_one]
      field_simp
    · simp only [cellLik, one_ne_zero, if_false, sigmoid, Int.cast_one, mul_one, Int.cast_neg, mul_neg, neg_neg]
      field_simp
  have hprod : (∏ n : Fin N, cellLik lbda 1 (predQ L ((k + 1 : Nat) : Int) (fun l => Z [n, l]) (fun l => U [d, l]))) *
      ((1 + Real.exp lbda) * (1 + Real.exp (-lbda))) ^ N =
      (1 + Real.exp lbda) ^ true_predictions Z U d k * (1 + Real.exp (-lbda)) ^ (N - true_predictions Z U d k) := by
    have : ((1 + Real.exp lbda) * (1 + Real.exp (-lbda))) ^ N =
        ∏ _n : Fin N, ((1 + Real.exp lbda) * (1 + Real.exp (-lbda))) := by simp
    rw [this, ← Finset.prod_mul_distrib, Finset.prod_congr rfl fun n _ => hcell n, Finset.prod_ite,
      Finset.prod_const, Finset.prod_const, true_predictions_eq hZ hU pZ pU hd]
    congr 2
    have := Finset.card_filter_add_card_filter_not (s := (Finset.univ : Finset (Fin N))) (fun n : Fin N =>
      ((k + 1 : Nat) : Int) ≤ (Finset.univ.filter fun l : Fin L => Z [n, l] = 1 ∧ U [d, l] = 1).card)
    rw [Finset.card_univ, Fintype.card_fin] at this
    omega
  have hT : true_predictions Z U d k ≤ N := by
    rw [true_predictions_eq hZ hU pZ pU hd]
    exact (Finset.card_le_univ _).trans (by simp)
  have hfac : Real.Gamma ((k : ℝ) + 2) = (k + 1).factorial := by
    rw [← Real.Gamma_nat_eq_factorial]; congr 1; push_cast; ring
  have hf : (0 : ℝ) < (k + 1).factorial := by exact_mod_cast (k + 1).factorial_pos
  rw [thresholdWeight, mul_assoc, hprod, logW, hfac, Real.exp_add, Real.exp_add, Real.exp_sub, Real.exp_sub,
    Real.exp_log hf, ← Nat.cast_sub hT, exp_nat_mul_log _ ha, exp_nat_mul_log _ hb,
    show ((k : ℝ) + 1) = ((k + 1 : Nat) : ℝ) by push_cast; rfl, exp_nat_mul_log _ hg]
  field_simp
  rw [← Real.exp_add]
  simp

/-- the probabilities used for column `d` are the conditional probabilities given a column of ones -/
theorem qProbs_eq {N D L : Nat} {Z U : Arr Int} (hZ : Z.shape = [N, L]) (hU : U.shape = [D, L])
    (pZ : PMArr Z) (pU : PMArr U) {d : Nat} (hd : d < D) (lbda : ℝ) {gamma : ℝ} (hg : 0 < gamma) :
    qProbs Z U N d lbda gamma = (List.range 5).map fun k =>
      thresholdPost N L lbda gamma (fun _ => 1) (fun n l => Z [n, l]) (fun l => U [d, l]) (k + 1) := by
  unfold qProbs thresholdPost
  refine List.map_congr_left fun k _ => ?_
  have hK : ((1 + Real.exp lbda) * (1 + Real.exp (-lbda))) ^ N ≠ 0 := by positivity
  rw [exp_logW hZ hU pZ pU hd lbda hg, List.map_congr_left fun j _ => exp_logW hZ hU pZ pU hd lbda hg j,
    List.sum_map_mul_right, mul_div_mul_right _ _ hK]
  congr 1

theorem probVec_qProbs {N D L : Nat} {Z U : Arr Int} (hZ : Z.shape = [N, L]) (hU : U.shape = [D, L])
    (pZ : PMArr Z) (pU : PMArr U) {d : Nat} (hd : d < D) (lbda : ℝ) {gamma : ℝ} (hg : 0 < gamma) :
    Spec.ProbVec (qProbs Z U N d lbda gamma) := by
  rw [qProbs_eq hZ hU pZ pU hd lbda hg]
  constructor
  · intro x hx
    obtain ⟨k, _, rfl⟩ := List.mem_map.1 hx
    exact thresholdPost_nonneg N L hg _ _ _ _
  · rw [← sum_thresholdPost N L (lbda := lbda) hg (fun _ => 1) (fun n l => Z [n, l]) (fun l => U [d, l])]
    rfl

/-- **C33**, every draw gives a threshold in `1..5`, the array keeps its shape. -/
theorem C33_range (N D L : Nat) (Z U X q : Arr Int) (hZ : Z.shape = [N, L]) (hU : U.shape = [D, L])
    (hX : X.shape = [N, D]) (pZ : PMArr Z) (pU : PMArr U) (lbda gamma : ℝ) (hg : 0 < gamma) (rnd : Nat → ℝ)
    (hr : ∀ d, 0 ≤ rnd d ∧ rnd d < 1) :
    (sample_qL_q Z U X q lbda gamma rnd).shape = q.shape ∧
      ∀ d, d < D → 1 ≤ sample_qL_q Z U X q lbda gamma rnd [0, d] ∧
        sample_qL_q Z U X q lbda gamma rnd [0, d] ≤ 5 := by
  obtain ⟨h1, h2⟩ := sample_qL_q_spec Z U X q lbda gamma rnd
  refine ⟨h1, fun d hd => ?_⟩
  have hD : X.dim 1 = D := by simp [Arr.dim, hX]
  have hN : X.dim 0 = N := by simp [Arr.dim, hX]
  rw [h2 [0, d]]
  simp only [hD, hN, hd, if_true]
  have hlen : (qProbs Z U N d lbda gamma).length = 5 := by simp [qProbs]
  obtain ⟨i, hi, he, _⟩ := C34_interval_partial _ (probVec_qProbs hZ hU pZ pU hd lbda hg) (by omega) (rnd d)
    (hr d).1 (hr d).2
  rw [he]
  omega

/-- **C33**, what the code does: threshold `k` of column `d` is drawn with the conditional probability given that
column `d` of the data *consists of ones*, whatever the data. The draws of the other columns are arbitrary. -/
theorem C33_law_ignores_data (N D L : Nat) (Z U X q : Arr Int) (hZ : Z.shape = [N, L]) (hU : U.shape = [D, L])
    (hX : X.shape = [N, D]) (pZ : PMArr Z) (pU : PMArr U) (lbda gamma : ℝ) (hg : 0 < gamma) (rnd : Nat → ℝ)
    (d : Nat) (hd : d < D) (k : Nat) (hk1 : 1 ≤ k) (hk5 : k ≤ 5) :
    volume {r : ℝ | r ∈ Set.Ico (0 : ℝ) 1 ∧
      sample_qL_q Z U X q lbda gamma (Function.update rnd d r) [0, d] = k} =
      ENNReal.ofReal (thresholdPost N L lbda gamma (fun _ => 1) (fun n l => Z [n, l]) (fun l => U [d, l]) k) := by
  have hD : X.dim 1 = D := by simp [Arr.dim, hX]
  have hN : X.dim 0 = N := by simp [Arr.dim, hX]
  obtain ⟨i, rfl⟩ := Nat.exists_eq_add_of_le' hk1
  have hlen : (qProbs Z U N d lbda gamma).length = 5 := by simp [qProbs]
  have := C34_probability_partial _ (probVec_qProbs hZ hU pZ pU hd lbda hg) (by omega) i (by omega)
  have he : ∀ r, sample_qL_q Z U X q lbda gamma (Function.update rnd d r) [0, d] =
      random_choice (qProbs Z U N d lbda gamma) r := by
    intro r
    rw [(sample_qL_q_spec Z U X q lbda gamma (Function.update rnd d r)).2 [0, d]]
    simp [hD, hN, hd]
  simp only [he]
  push_cast
  rw [this]
  congr 1
  simp only [qProbs_eq hZ hU pZ pU hd lbda hg, List.getElem_map, List.getElem_range]

/-- **C33** holds when column `d` of the data consists of ones. (Full statement: for any column `d`, with
`fun n => X [n, d]` in place of ones. It is false, see `C33_wrong`.) -/
theorem C33_conditional_partial (N D L : Nat) (Z U X q : Arr Int) (hZ : Z.shape = [N, L]) (hU : U.shape = [D, L])
    (hX : X.shape = [N, D]) (pZ : PMArr Z) (pU : PMArr U) (lbda gamma : ℝ) (hg : 0 < gamma) (rnd : Nat → ℝ)
    (d : Nat) (hd : d < D) (hones : ∀ n, n < N → X [n, d] = 1) (k : Nat) (hk1 : 1 ≤ k) (hk5 : k ≤ 5) :
    volume {r : ℝ | r ∈ Set.Ico (0 : ℝ) 1 ∧
      sample_qL_q Z U X q lbda gamma (Function.update rnd d r) [0, d] = k} =
      ENNReal.ofReal (thresholdPost N L lbda gamma (fun n => X [n, d]) (fun n l => Z [n, l])
        (fun l => U [d, l]) k) := by
  rw [C33_law_ignores_data N D L Z U X q hZ hU hX pZ pU lbda gamma hg rnd d hd k hk1 hk5]
  have : ∀ k, thresholdWeight N L lbda gamma (fun n => X [n, d]) (fun n l => Z [n, l]) (fun l => U [d, l]) k =
      thresholdWeight N L lbda gamma (fun _ => 1) (fun n l => Z [n, l]) (fun l => U [d, l]) k := by
    intro k
    unfold thresholdWeight
    congr 1
    exact Finset.prod_congr rfl fun n _ => by simp only [hones n n.2]
  simp only [thresholdPost, this]

/-- the hypotheses of `C33_conditional_partial` (and of `C33_range`, `C33_law_ignores_data`) are met by a `2 × 2` data
array whose column 1 is on -/
example (lbda : ℝ) (rnd : Nat → ℝ) :
    volume {r : ℝ | r ∈ Set.Ico (0 : ℝ) 1 ∧ sample_qL_q (Arr.mat 2 [[1, -1], [1, 1]] 1) (Arr.mat 2 [[1, 1], [-1, 1]] 1)
      (Arr.mat 2 [[-1, 1], [1, 1]] 1) (Arr.mat 2 [[1, 2]] 1) lbda 2 (Function.update rnd 1 r) [0, 1] = (3 : Nat)} =
      ENNReal.ofReal (thresholdPost 2 2 lbda 2 (fun n => Arr.mat 2 [[-1, 1], [1, 1]] 1 [n, 1])
        (fun n l => Arr.mat 2 [[1, -1], [1, 1]] 1 [n, l]) (fun l => Arr.mat 2 [[1, 1], [-1, 1]] 1 [1, l]) 3) := by
  refine C33_conditional_partial 2 2 2 _ _ _ _ rfl rfl rfl ?_ ?_ lbda 2 (by norm_num) rnd 1 (by norm_num) ?_ 3
    (by norm_num) (by norm_num)
  · rintro idx -
    simp only [Arr.mat]
    generalize idx.getD 0 0 = i
    generalize idx.getD 1 0 = j
    rcases i with _ | _ | i <;> rcases j with _ | _ | j <;> simp [IsPM]
  · rintro idx -
    simp only [Arr.mat]
    generalize idx.getD 0 0 = i
    generalize idx.getD 1 0 = j
    rcases i with _ | _ | i <;> rcases j with _ | _ | j <;> simp [IsPM]
  · decide

theorem sigmoid_log_three : sigmoid (Real.log 3) = 3 / 4 := by
  rw [sigmoid, Real.exp_neg, Real.exp_log (by norm_num)]; norm_num

theorem sigmoid_neg_log_three : sigmoid (-Real.log 3) = 1 / 4 := by
  rw [sigmoid_neg, sigmoid_log_three]; norm_num

theorem thresholdWeight_witness (x : Int) (k : Nat) :
    thresholdWeight 1 1 (Real.log 3) 1 (fun _ => x) (fun _ _ => 1) (fun _ => 1) k =
      Real.exp (-1) * 1 / k.factorial * cellLik (Real.log 3) x (if k ≤ 1 then 1 else -1) := by
  simp [thresholdWeight, predQ, pm_eq_ite]

/-- **C33** is false in general: one cell, one latent dimension, both factors on, the cell is off, `γ = 1` and
`λ = log 3`: threshold 1 (which predicts on, wrongly) has conditional probability below 1/2 but is drawn with
probability above 1/2. -/
theorem C33_wrong : ∃ (Z U X q : Arr Int) (lbda gamma : ℝ), Z.shape = [1, 1] ∧ U.shape = [1, 1] ∧
    X.shape = [1, 1] ∧ PMArr Z ∧ PMArr U ∧ PMArr X ∧ 0 < gamma ∧ ∀ rnd : Nat → ℝ,
    ENNReal.ofReal (thresholdPost 1 1 lbda gamma (fun n => X [n, 0]) (fun n l => Z [n, l]) (fun l => U [0, l]) 1)
      < ENNReal.ofReal (1 / 2) ∧
    ENNReal.ofReal (1 / 2) < volume {r : ℝ | r ∈ Set.Ico (0 : ℝ) 1 ∧
      sample_qL_q Z U X q lbda gamma (Function.update rnd 0 r) [0, 0] = (1 : Nat)} := by
  refine ⟨Arr.full [1, 1] 1, Arr.full [1, 1] 1, Arr.full [1, 1] (-1), Arr.full [1, 1] 1, Real.log 3, 1, rfl, rfl, rfl,
    fun _ _ => Or.inl rfl, fun _ _ => Or.inl rfl, fun _ _ => Or.inr rfl, one_pos, fun rnd => ⟨?_, ?_⟩⟩
  · have he : 0 < Real.exp (-1) := Real.exp_pos _
    refine (ENNReal.ofReal_lt_ofReal_iff (by norm_num)).2 ?_
    show thresholdPost 1 1 (Real.log 3) 1 (fun _ => -1) (fun _ _ => 1) (fun _ => 1) 1 < 1 / 2
    unfold thresholdPost
    simp only [thresholdWeight_witness]
    rw [show Finset.Icc 1 5 = {1, 2, 3, 4, 5} from rfl]
    simp [cellLik, sigmoid_neg_log_three, sigmoid_log_three, Nat.factorial]
    rw [div_lt_iff₀ (by positivity)]
    nlinarith
  · have he : 0 < Real.exp (-1) := Real.exp_pos _
    rw [C33_law_ignores_data 1 1 1 _ _ _ _ rfl rfl rfl (fun _ _ => Or.inl rfl) (fun _ _ => Or.inl rfl) _ _ one_pos
      rnd 0 (by norm_num) 1 (by norm_num) (by norm_num)]
    have key : 1 / 2 < thresholdPost 1 1 (Real.log 3) 1 (fun _ => 1) (fun _ _ => 1) (fun _ => 1) 1 := by
      unfold thresholdPost
      simp only [thresholdWeight_witness]
      rw [show Finset.Icc 1 5 = {1, 2, 3, 4, 5} from rfl]
      simp [cellLik, sigmoid_neg_log_three, sigmoid_log_three, Nat.factorial]
      rw [lt_div_iff₀ (by positivity)]
      nlinarith
    exact (ENNReal.ofReal_lt_ofReal_iff ((by norm_num : (0 : ℝ) < 1 / 2).trans key)).2 key

/-! ## C32 -/

/-- sum over the cells of a row of the data times the change of the prediction when entry `l` is switched on, i.e.
twice the sum of the data over the cells whose prediction the entry decides -/
noncomputable def Spec.twiceScoreQ (D L : Nat) (z : Nat → Int) (u : Nat → Nat → Int) (x q : Nat → Int) (l : Nat) : Int :=
  ∑ d : Fin D, x d * (predQ L (q d) (setEntry z l 1) (u d) - predQ L (q d) (setEntry z l (-1)) (u d))

theorem twiceScoreQ_bound (D L : Nat) (z : Nat → Int) (u : Nat → Nat → Int) (x q : Nat → Int) (l : Nat)
    (hx : ∀ d, d < D → IsData (x d)) : |Spec.twiceScoreQ D L z u x q l| ≤ 2 * D := by
  unfold Spec.twiceScoreQ
  refine (Finset.abs_sum_le_sum_abs _ _).trans ?_
  refine (Finset.sum_le_sum (g := fun _ => (2 : Int)) fun d _ => ?_).trans (by simp [mul_comm])
  have h1 := isPM_pm (q d ≤ (Finset.univ.filter fun l' : Fin L => setEntry z l 1 l' = 1 ∧ u d l' = 1).card)
  have h2 := isPM_pm (q d ≤ (Finset.univ.filter fun l' : Fin L => setEntry z l (-1) l' = 1 ∧ u d l' = 1).card)
  unfold predQ
  rcases hx d d.2 with h | h | h <;> rcases h1 with h1 | h1 <;> rcases h2 with h2 | h2 <;> simp [h, h1, h2]

/-- **C32**, scores (thresholds at least 1, up to 32767 columns because the score is an int16). -/
theorem C32_score_Z_partial (D L : Nat) (Z_n U X_n q : Arr Int) (l : Nat) (hl : l < L) (hU : U.shape = [D, L])
    (hX : X_n.shape = [D]) (pX : DataArr X_n) (hq : ∀ d, d < D → 1 ≤ q [0, d]) (hD : D ≤ 32767) :
    2 * posterior_score_fct_qL_Z Z_n U X_n l q = Spec.twiceScoreQ D L (fun l => Z_n [l]) (fun d l => U [d, l])
      (fun d => X_n [d]) (fun d => q [0, d]) l := by
  have hd0 : U.dim 0 = D := by simp [Arr.dim, hU]
  have hd1 : U.dim 1 = L := by simp [Arr.dim, hU]
  have e : posterior_score_fct_qL_Z Z_n U X_n l q = _ := run_qscore (U.dim 0) (U.dim 1) wrap16
    (fun d => U [d, l] ≠ 1) (fun d l' => Z_n [l'] = 1 ∧ U [d, l'] = 1 ∧ l' ≠ l) (fun d => q [0, d])
    (fun d hd => hq d (hd0 ▸ hd)) (fun d => X_n [d])
  have h2 := two_mul_sum D 1 (fun d => if U [d, l] ≠ 1 then 0 else
      if ((List.range L).countP (fun l' => Z_n [l'] = 1 ∧ U [d, l'] = 1 ∧ l' ≠ l) : Int) = q [0, d] - 1
      then X_n [d] else 0) _ fun d => predQ_diff L l hl (fun l => Z_n [l]) (fun l' => U [d, l']) (q [0, d]) (X_n [d])
  have hb := twiceScoreQ_bound D L (fun l => Z_n [l]) (fun d l => U [d, l]) (fun d => X_n [d]) (fun d => q [0, d]) l
    fun d hd => pX [d] (by rw [hX]; exact ⟨hd, trivial⟩)
  rw [Spec.twiceScoreQ, ← h2, abs_le] at hb
  rw [e, hd0, hd1, Spec.twiceScoreQ, ← h2, wrap16, Int.bmod_eq_of_le] <;> omega

@[inherit_doc C32_score_Z_partial]
theorem C32_score_U_partial (N L : Nat) (U_d Z X_d : Arr Int) (q_d : Int) (l : Nat) (hl : l < L)
    (hZ : Z.shape = [N, L]) (hX : X_d.shape = [N]) (pX : DataArr X_d) (hq : 1 ≤ q_d) (hN : N ≤ 32767) :
    2 * posterior_score_fct_qL_U U_d Z X_d l q_d = Spec.twiceScoreQ N L (fun l => U_d [l]) (fun n l => Z [n, l])
      (fun n => X_d [n]) (fun _ => q_d) l := by
  have hd0 : Z.dim 0 = N := by simp [Arr.dim, hZ]
  have hd1 : Z.dim 1 = L := by simp [Arr.dim, hZ]
  have e : posterior_score_fct_qL_U U_d Z X_d l q_d = _ := run_qscore (Z.dim 0) (Z.dim 1) wrap16
    (fun n => Z [n, l] ≠ 1) (fun n l' => U_d [l'] = 1 ∧ Z [n, l'] = 1 ∧ l' ≠ l) (fun _ => q_d)
    (fun _ _ => hq) (fun n => X_d [n])
  have h2 := two_mul_sum N 1 (fun n => if Z [n, l] ≠ 1 then 0 else
      if ((List.range L).countP (fun l' => U_d [l'] = 1 ∧ Z [n, l'] = 1 ∧ l' ≠ l) : Int) = q_d - 1
      then X_d [n] else 0) _ fun n => predQ_diff L l hl (fun l => U_d [l]) (fun l' => Z [n, l']) q_d (X_d [n])
  have hb := twiceScoreQ_bound N L (fun l => U_d [l]) (fun n l => Z [n, l]) (fun n => X_d [n]) (fun _ => q_d) l
    fun d hd => pX [d] (by rw [hX]; exact ⟨hd, trivial⟩)
  rw [Spec.twiceScoreQ, ← h2, abs_le] at hb
  rw [e, hd0, hd1, Spec.twiceScoreQ, ← h2, wrap16, Int.bmod_eq_of_le] <;> omega

theorem likQ_pos (N D L : Nat) (lbda : ℝ) (X : Nat → Nat → Int) (F G : Factor) (q : Nat → Int) :
    0 < likQ N D L lbda X F G q :=
  Finset.prod_pos fun _ _ => Finset.prod_pos fun _ _ => cellLik_pos _ _ _

theorem log_likQ_sub (N D L : Nat) (lbda : ℝ) (X : Nat → Nat → Int) (F G F' G' : Factor) (q : Nat → Int)
    (hX : ∀ n d, n < N → d < D → IsData (X n d)) :
    Real.log (likQ N D L lbda X F G q) - Real.log (likQ N D L lbda X F' G' q) =
      lbda * ((∑ n : Fin N, ∑ d : Fin D, X n d * (predQ L (q d) (F n) (G d) - predQ L (q d) (F' n) (G' d)) : Int) : ℝ)
        / 2 := by
  unfold likQ
  rw [Real.log_prod (fun n _ => (Finset.prod_pos fun d _ => cellLik_pos _ _ _).ne'),
    Real.log_prod (fun n _ => (Finset.prod_pos fun d _ => cellLik_pos _ _ _).ne'), ← Finset.sum_sub_distrib]
  push_cast
  rw [Finset.mul_sum, Finset.sum_div]
  refine Finset.sum_congr rfl fun n _ => ?_
  rw [Real.log_prod (fun n _ => (cellLik_pos _ _ _).ne'),
    Real.log_prod (fun n _ => (cellLik_pos _ _ _).ne'), ← Finset.sum_sub_distrib, Finset.mul_sum, Finset.sum_div]
  refine Finset.sum_congr rfl fun d _ => ?_
  rw [log_cellLik_sub lbda (hX n d n.2 d.2) (show IsPM (predQ ..) from isPM_pm _) (show IsPM (predQ ..) from isPM_pm _)]
  push_cast
  ring

/-- **C32**, the sampler of the first factor visits every entry (it has no mask of fixed entries) and uses as logit
the exact log-odds of the likelihood *at lambda = 1*, i.e. the exact log-odds divided by lambda, without prior. -/
theorem C32_log_odds_Z_partial (N D L : Nat) (Z U X q : Arr Int) (hZ : Z.shape = [N, L]) :
    (∃ logit : Arr Int → List Nat → ℝ,
      (∀ (lbda : ℝ) (rnd : Rnd),
        sample_qL_factors_Z Z U X q lbda rnd = sweep logit (Arr.full [N, L] 0) rnd (tasks2 N L) Z) ∧
      (∀ (lbda : ℝ) (Z : Arr Int) (n l : Nat), n < N → l < L → Z.shape = [N, L] → U.shape = [D, L] → X.shape = [N, D] →
        DataArr X → (∀ d, d < D → 1 ≤ q [0, d]) → D ≤ 32767 →
        let F : Factor := fun n l => Z [n, l]
        let lik := fun F => likQ N D L lbda (fun n d => X [n, d]) F (fun d l => U [d, l]) (fun d => q [0, d])
        lbda * logit Z [n, l] = Real.log (lik (F.set n l 1)) - Real.log (lik (F.set n l (-1))))) := by
  refine ⟨fun Z i => (posterior_score_fct_qL_Z (Z.row (i0 i)) U (X.row (i0 i)) (i1 i) q : ℝ), fun lbda rnd => ?_,
    fun lbda Z n l hn hl hZ hU hX pX hq hD => ?_⟩
  · rw [sample_qL_factors_Z_eq, hZ, show Z.dim 0 = N by simp [Arr.dim, hZ], show Z.dim 1 = L by simp [Arr.dim, hZ]]
  · intro F lik
    have hXs : (X.row n).shape = [D] := by simp [Arr.row, hX]
    have hXr : DataArr (X.row n) := fun idx hi => by
      rw [hXs] at hi; exact pX (n :: idx) (by rw [hX]; exact ⟨hn, hi⟩)
    have hs := C32_score_Z_partial D L (Z.row n) U (X.row n) q l hl hU hXs hXr hq hD
    show lbda * ((posterior_score_fct_qL_Z (Z.row n) U (X.row n) l q : Int) : ℝ) = _
    show _ = Real.log (likQ _ _ _ _ _ _ _ _) - Real.log (likQ _ _ _ _ _ _ _ _)
    rw [log_likQ_sub _ _ _ _ _ _ _ _ _ _ fun n d hn hd => pX [n, d] (by rw [hX]; exact ⟨hn, hd, trivial⟩)]
    have hsum : (∑ n' : Fin N, ∑ d : Fin D, X [n', d] * (predQ L (q [0, d]) (F.set n l 1 n') (fun l => U [d, l]) -
        predQ L (q [0, d]) (F.set n l (-1) n') (fun l => U [d, l]))) =
        2 * posterior_score_fct_qL_Z (Z.row n) U (X.row n) l q := by
      rw [hs, Finset.sum_eq_single ⟨n, hn⟩]
      · refine Finset.sum_congr rfl fun d _ => ?_
        rw [Factor.set_row_eq, Factor.set_row_eq]; rfl
      · intro n' _ hn'
        refine Finset.sum_eq_zero fun d _ => ?_
        have : (n' : Nat) ≠ n := fun h => hn' (Fin.ext h)
        rw [Factor.set_row_ne _ _ _ this, Factor.set_row_ne _ _ _ this, sub_self, mul_zero]
      · simp
    rw [hsum]
    push_cast
    ring

/-- **C32**, the sampler of the second factor; `X` is the transposed data, as the wrapper passes it. -/
theorem C32_log_odds_U_partial (N D L : Nat) (Z U X q : Arr Int) (hU : U.shape = [D, L]) :
    (∃ logit : Arr Int → List Nat → ℝ,
      (∀ (lbda : ℝ) (rnd : Rnd),
        sample_qL_factors_U U Z X q lbda rnd = sweep logit (Arr.full [D, L] 0) rnd (tasks2 D L) U) ∧
      (∀ (lbda : ℝ) (U : Arr Int) (d l : Nat), d < D → l < L → U.shape = [D, L] → Z.shape = [N, L] → X.shape = [D, N] →
        DataArr X → (∀ d, d < D → 1 ≤ q [0, d]) → N ≤ 32767 →
        let G : Factor := fun d l => U [d, l]
        let lik := fun G => likQ N D L lbda (fun n d => X [d, n]) (fun n l => Z [n, l]) G (fun d => q [0, d])
        lbda * logit U [d, l] = Real.log (lik (G.set d l 1)) - Real.log (lik (G.set d l (-1))))) := by
  refine ⟨fun U i => (posterior_score_fct_qL_U (U.row (i0 i)) Z (X.row (i0 i)) (i1 i) (q [0, i0 i]) : ℝ),
    fun lbda rnd => ?_, fun lbda U d l hd hl hU hZ hX pX hq hN => ?_⟩
  · rw [sample_qL_factors_U_eq, hU, show U.dim 0 = D by simp [Arr.dim, hU], show U.dim 1 = L by simp [Arr.dim, hU]]
  · intro G lik
    have hXs : (X.row d).shape = [N] := by simp [Arr.row, hX]
    have hXr : DataArr (X.row d) := fun idx hi => by
      rw [hXs] at hi; exact pX (d :: idx) (by rw [hX]; exact ⟨hd, hi⟩)
    have hs := C32_score_U_partial N L (U.row d) Z (X.row d) (q [0, d]) l hl hZ hXs hXr (hq d hd) hN
    show lbda * ((posterior_score_fct_qL_U (U.row d) Z (X.row d) l (q [0, d]) : Int) : ℝ) = _
    show _ = Real.log (likQ _ _ _ _ _ _ _ _) - Real.log (likQ _ _ _ _ _ _ _ _)
    rw [log_likQ_sub _ _ _ _ _ _ _ _ _ _ fun n d hn hd => pX [d, n] (by rw [hX]; exact ⟨hd, hn, trivial⟩)]
    have hsum : (∑ n : Fin N, ∑ d' : Fin D, X [d', n] * (predQ L (q [0, d']) (fun l => Z [n, l]) (G.set d l 1 d') -
        predQ L (q [0, d']) (fun l => Z [n, l]) (G.set d l (-1) d'))) =
        2 * posterior_score_fct_qL_U (U.row d) Z (X.row d) l (q [0, d]) := by
      rw [hs, Spec.twiceScoreQ]
      refine Finset.sum_congr rfl fun n _ => ?_
      rw [Finset.sum_eq_single ⟨d, hd⟩]
      · rw [Factor.set_row_eq, Factor.set_row_eq, predQ_comm, predQ_comm L _ (fun l => Z [n, l])]; rfl
      · intro d' _ hd'
        have : (d' : Nat) ≠ d := fun h => hd' (Fin.ext h)
        rw [Factor.set_row_ne _ _ _ this, Factor.set_row_ne _ _ _ this, sub_self, mul_zero]
      · simp
    rw [hsum]
    push_cast
    ring

/-- non-vacuity of C32 and **C32** fails for lambda ≠ 1: in a 1 × 1 machine with `λ = 2` the log-odds of the entry is
2, the logit used is 1. -/
theorem C32_lambda_ignored :
    posterior_score_fct_qL_Z ((Arr.full [1, 1] (-1)).row 0) (Arr.full [1, 1] 1) ((Arr.full [1, 1] 1).row 0) 0
      (Arr.full [1, 1] 1) = 1 ∧
    (∀ (Z U X q : Arr Int) (lbda lbda' : ℝ) (rnd : Rnd),
      sample_qL_factors_Z Z U X q lbda rnd = sample_qL_factors_Z Z U X q lbda' rnd ∧
      sample_qL_factors_U Z U X q lbda rnd = sample_qL_factors_U Z U X q lbda' rnd) ∧
    Real.log (likQ 1 1 1 2 (fun _ _ => 1) (Factor.set (fun _ _ => -1) 0 0 1) (fun _ _ => 1) fun _ => 1) -
      Real.log (likQ 1 1 1 2 (fun _ _ => 1) (Factor.set (fun _ _ => -1) 0 0 (-1)) (fun _ _ => 1) fun _ => 1) = 2 := by
  refine ⟨by decide, fun _ _ _ _ _ _ _ => ⟨rfl, rfl⟩, ?_⟩
  rw [log_likQ_sub _ _ _ _ _ _ _ _ _ _ (fun _ _ _ _ => Or.inl rfl)]
  simp [predQ, pm_eq_ite, Spec.Factor.set]

/-- **C32** fails for fixed entries: an entry flagged as fixed is flipped, for every draw. -/
theorem C32_fixed_ignored : ∃ y : QLLayer, y.Z_fixed [0, 0] = 1 ∧ y.Z.shape = [1, 1] ∧ PMArr y.Z ∧ PMArr y.U ∧
    PMArr y.X ∧ ∀ rnd : Rnd, ∃ y', y.sample .z (.qL_Z [0, 1]) rnd = .ok y' ∧ y'.Z [0, 0] ≠ y.Z [0, 0] := by
  refine ⟨⟨Arr.full [1, 1] (-1), Arr.full [1, 1] 1, Arr.full [1, 1] 1, Arr.full [1, 1] 0, Arr.full [1, 1] 1,
    Arr.full [1, 1] 1, 1, 1⟩, rfl, rfl, fun _ _ => Or.inr rfl, fun _ _ => Or.inl rfl, fun _ _ => Or.inl rfl,
    fun rnd => ⟨_, rfl, ?_⟩⟩
  show sample_qL_factors_Z (Arr.full [1, 1] (-1)) (Arr.full [1, 1] 1) ((Arr.full [1, 1] 1).transpose [0, 1])
    (Arr.full [1, 1] 1) 1 rnd [0, 0] ≠ -1
  rw [sample_qL_factors_Z_eq]
  have hs : posterior_score_fct_qL_Z ((Arr.full [1, 1] (-1)).row 0) (Arr.full [1, 1] 1)
      (((Arr.full [1, 1] 1).transpose [0, 1]).row 0) 0 (Arr.full [1, 1] 1) = 1 := by decide
  have hf : flip_metropolised_gibbs_numba (1 : ℝ) (-1) (rnd [0, 0]) = 1 := by
    unfold flip_metropolised_gibbs_numba
    simp
  simp only [sweep, tasks2, Arr.dim, Arr.full, List.getD]
  simp only [Arr.full] at hs
  simp [updEntry, Arr.set, i0, i1, hs, hf]

/-! ## C72 -/

/-- the entries of `QLFcts.assign` are the results of `get_sampling_fct` for the three matrices (position 2 is not a
factor, so the siblings of the thresholds are both factors) -/
theorem QLFcts_assign_ok (z u : Member) (hz : z.child_axis = 0) (hu : u.child_axis = 1) (prior : ℝ) :
    get_sampling_fct none (some "qL-AND") [z, u] 0 0 prior [] = .ok (.qL_Z [0, 1]) ∧
    get_sampling_fct none (some "qL-AND") [z, u] 1 1 prior [] = .ok (.qL_U [1, 0]) ∧
    get_sampling_fct none (some "qL-AND") [z, u] 1 2 prior [] = .ok (.qL_U [1, 0, 1]) := by
  have h0 : siblings [z, u] 0 = [u] := by simp [siblings]
  have h1 : siblings [z, u] 1 = [z] := by simp [siblings]
  have h2 : siblings [z, u] 2 = [z, u] := by
    simp [siblings, List.mergeSort, List.eraseIdx, List.MergeSort.Internal.splitInTwo, hz, hu]
  have hm : get_relatives_models (some "qL-AND") 2 [] = .ok (some "qL_AND_2D", none, none) := rfl
  refine ⟨?_, ?_, ?_⟩ <;>
    simp [get_sampling_fct, hm, h0, h1, h2, hz, hu, bind, Except.bind, pure, Except.pure]

/-- **C72** if one of the factors is not fixed: the thresholds are assigned their own sampler, for a fresh layer
with every other combination of flags. -/
theorem C72_threshold_sampler_partial (fixed_z fixed_u : Bool) (h : ¬ (fixed_z = true ∧ fixed_u = true)) :
    (QLFcts.assignAll ⟨none, none, none⟩ fixed_z fixed_u false).q = some .qL_q ∧
    ∀ (y : QLLayer) (rnd : Rnd), y.sample .q .qL_q rnd =
      .ok { y with q := sample_qL_q y.Z y.U y.X y.q y.lbda y.gamma fun d => rnd [0, d] } := by
  refine ⟨?_, fun y rnd => rfl⟩
  cases fixed_z <;> cases fixed_u
  · rfl
  · rfl
  · rfl
  · simp at h

/-- **C72** is false when both factors are fixed and the thresholds are to be inferred: the thresholds are assigned
the sampler of the second factor, and calling it fails for every two-dimensional data array. -/
theorem C72_both_factors_fixed_wrong :
    (QLFcts.assignAll ⟨none, none, none⟩ true true false).q = some (.qL_U [1, 0, 1]) ∧
    ∀ (y : QLLayer) (N D : Nat) (rnd : Rnd), y.X.shape = [N, D] →
      y.sample .q (.qL_U [1, 0, 1]) rnd = .error .valueError := by
  refine ⟨rfl, fun y N D rnd hX => ?_⟩
  simp [QLLayer.sample, npTranspose, hX]

/-- **C72**: the functions of the factors are theirs, with the data in the orientation of the factor, whatever else is fixed -/
theorem C72_factor_samplers (fixed_q : Bool) :
    (∀ fixed_u, (QLFcts.assignAll ⟨none, none, none⟩ false fixed_u fixed_q).z = some (.qL_Z [0, 1])) ∧
    (∀ fixed_z, (QLFcts.assignAll ⟨none, none, none⟩ fixed_z false fixed_q).u = some (.qL_U [1, 0])) ∧
    ∀ (y : QLLayer) (N D : Nat) (rnd : Rnd), y.X.shape = [N, D] →
      (∃ X : Arr Int, y.sample .z (.qL_Z [0, 1]) rnd = .ok { y with Z := sample_qL_factors_Z y.Z y.U X y.q y.lbda rnd } ∧ X.shape = [N, D] ∧
        ∀ n d, X [n, d] = y.X [n, d]) ∧
      ∃ X : Arr Int, y.sample .u (.qL_U [1, 0]) rnd = .ok { y with U := sample_qL_factors_U y.U y.Z X y.q y.lbda rnd } ∧ X.shape = [D, N] ∧
        ∀ n d, X [d, n] = y.X [n, d] := by
  refine ⟨fun fixed_u => ?_, fun fixed_z => ?_, fun y N D rnd hX => ⟨⟨y.X.transpose [0, 1], ?_, ?_, fun n d => ?_⟩, y.X.transpose [1, 0], ?_, ?_, fun n d => ?_⟩⟩
  · cases fixed_u <;> cases fixed_q <;> rfl
  · cases fixed_z <;> cases fixed_q <;> rfl
  · simp [QLLayer.sample, npTranspose, hX]
  · simp [Arr.transpose, Arr.dim, hX]
  · rfl
  · simp [QLLayer.sample, npTranspose, hX]
  · simp [Arr.transpose, Arr.dim, hX]
  · rfl

end LFM
