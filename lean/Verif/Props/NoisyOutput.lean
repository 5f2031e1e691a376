import Verif.Props.Output
import Verif.Lemmas.SigmoidConcave

/-!
# C110: probabilities of a one including the noise
-/

namespace LFM

open Spec

namespace Spec

open Classical in
/-- average over `S` samples of the probability that a cell is 1: sample `t` predicts a 1 if `P t`, and a prediction is right with probability
`sigmoid (lam t)` -/
noncomputable def predictive (S : Nat) (P : Nat → Prop) (lam : Nat → ℝ) : ℝ :=
  (∑ t ∈ Finset.range S, if P t then sigmoid (lam t) else 1 - sigmoid (lam t)) / S

/-- sample `t` predicts a 1 for cell `idx` -/
def predictsOne (s : OLayer) (o i : LOp) (Lt : Nat) (idx : List Nat) (t : Nat) : Prop :=
  lom o i fun (l : Fin Lt) (k : Fin s.factors.length) => sample s.factors[k] t [idx.getD k 0, l] = 1

/-- average of the sampled lambdas -/
noncomputable def meanOf (S : Nat) (lam : Nat → ℝ) : ℝ := (∑ t ∈ Finset.range S, lam t) / S

/-- a layer of one of the 36 models with `S` samples of the factors and of lambda, which is `lam t` in sample `t` -/
structure Sampled (s : OLayer) (o i : LOp) (L Lt S : Nat) (lam : Nat → ℝ) : Prop where
  nonempty : s.factors ≠ []
  legal : ∀ f ∈ s.factors, LegalFac L Lt f
  pos : 0 < S
  samples : ∀ f ∈ s.factors, HasSamples S f
  lbda : ∃ val, s.lbda = .scalar val (some ((List.range S).map fun t => .fin (lam t)))
  model : Computes s.model o i

end Spec

open Classical in
theorem fraction_sum (S : Nat) (P : Nat → Prop) : fraction S P = (∑ t ∈ Finset.range S, if P t then (1 : ℝ) else 0) / S := by
  unfold fraction
  congr 1
  rw [Finset.sum_range, Finset.sum_boole]

open Classical in
/-- **C110**: what is returned, for all samples -/
theorem C110_returns (argsort : Arr ℝ → List Nat) (s : OLayer) (o i : LOp) (L Lt S : Nat) (lam : Nat → ℝ) (h : Sampled s o i L Lt S lam) :
    ∃ Y, (output argsort "mc" true false true s).1 = .ok Y ∧ Y.shape = rows s ∧ ∀ idx, InB (rows s) idx →
      Y idx = .fin (predictive S (predictsOne s o i Lt idx) fun _ => meanOf S lam) := by
  obtain ⟨val, hl⟩ := h.lbda
  obtain ⟨X, h1, h2, h3⟩ := C51_mc_fraction_partial argsort s o i L Lt S h.nonempty h.legal h.pos (by rw [hl]; simp [lbdaSamples]) h.samples h.model
  have hS' : (S : ℝ) ≠ 0 := by exact_mod_cast h.pos.ne'
  have hm : scalarMean val (some ((List.range S).map fun t => .fin (lam t))) = .fin (meanOf S lam) := by
    have e : ((List.range S).map fun t => NpF.fin (lam t)) = ((List.range S).map lam).map .fin := by simp
    show npMean _ = _
    rw [e, npMean_fin (by simp [h.pos.ne'])]
    have e2 : ∀ n, ((List.range n).map lam).sum = ∑ t ∈ Finset.range n, lam t := by
      intro n
      induction n with
      | zero => rfl
      | succ n ih => rw [List.range_succ, List.map_append, List.sum_append, ih, Finset.sum_range_succ]; simp
    simp [Spec.average, meanOf, e2]
  obtain ⟨Y, h4, h5, h6⟩ := C49_noise_formula argsort "mc" s o i h.model (meanOf S lam) _ val hl hm X (by rw [h1])
  refine ⟨Y, h4, h5.trans h2, fun idx hidx => ?_⟩
  rw [h6 idx _ (h3 idx hidx)]
  congr 1
  rw [fraction_sum]
  show _ = predictive S (predictsOne s o i Lt idx) fun _ => meanOf S lam
  unfold predictive
  have : ∀ t, (if predictsOne s o i Lt idx t then sigmoid (meanOf S lam) else 1 - sigmoid (meanOf S lam)) =
      (if predictsOne s o i Lt idx t then (1 : ℝ) else 0) * (2 * sigmoid (meanOf S lam) - 1) + (1 - sigmoid (meanOf S lam)) := by
    intro t; split <;> ring
  rw [Finset.sum_congr rfl fun t _ => this t, Finset.sum_add_distrib, ← Finset.sum_mul, Finset.sum_const, Finset.card_range, nsmul_eq_mul]
  unfold predictsOne
  field_simp
  ring

/-- **C110** holds if lambda is the same in all samples -/
theorem C110_same_lambda_partial (argsort : Arr ℝ → List Nat) (s : OLayer) (o i : LOp) (L Lt S : Nat) (lam : Nat → ℝ) (h : Sampled s o i L Lt S lam)
    (hc : ∀ t < S, ∀ t' < S, lam t = lam t') :
    ∃ Y, (output argsort "mc" true false true s).1 = .ok Y ∧ Y.shape = rows s ∧ ∀ idx, InB (rows s) idx →
      Y idx = .fin (predictive S (predictsOne s o i Lt idx) lam) := by
  obtain ⟨Y, h1, h2, h3⟩ := C110_returns argsort s o i L Lt S lam h
  refine ⟨Y, h1, h2, fun idx hidx => ?_⟩
  rw [h3 idx hidx]
  congr 1
  unfold predictive
  congr 1
  have hS' : (S : ℝ) ≠ 0 := by exact_mod_cast h.pos.ne'
  refine Finset.sum_congr rfl fun t ht => ?_
  have ht := Finset.mem_range.mp ht
  have : meanOf S lam = lam t := by
    unfold meanOf
    rw [Finset.sum_congr rfl fun t' ht' => hc t' (Finset.mem_range.mp ht') t ht, Finset.sum_const, Finset.card_range, nsmul_eq_mul]
    field_simp
  rw [this]

/-- **C110** is false otherwise, for all samples: where all samples predict the same, the probability returned for that value is too large -/
theorem C110_overconfident (argsort : Arr ℝ → List Nat) (s : OLayer) (o i : LOp) (L Lt S : Nat) (lam : Nat → ℝ) (h : Sampled s o i L Lt S lam)
    (h0 : ∀ t < S, 0 ≤ lam t) {t t' : Nat} (ht : t < S) (ht' : t' < S) (hne : lam t ≠ lam t') :
    ∃ Y, (output argsort "mc" true false true s).1 = .ok Y ∧ ∀ idx, InB (rows s) idx → ∃ y, Y idx = .fin y ∧
      ((∀ t < S, predictsOne s o i Lt idx t) → predictive S (predictsOne s o i Lt idx) lam < y) ∧
      ((∀ t < S, ¬ predictsOne s o i Lt idx t) → y < predictive S (predictsOne s o i Lt idx) lam) := by
  obtain ⟨Y, h1, h2, h3⟩ := C110_returns argsort s o i L Lt S lam h
  have hS' : (S : ℝ) ≠ 0 := by exact_mod_cast h.pos.ne'
  have key := sigmoid_average_lt lam h0 ht ht' hne
  refine ⟨Y, h1, fun idx hidx => ⟨_, h3 idx hidx, fun hp => ?_, fun hp => ?_⟩⟩
  · unfold predictive
    rw [Finset.sum_congr rfl fun t ht => if_pos (hp t (Finset.mem_range.mp ht)),
      Finset.sum_congr rfl fun t ht => if_pos (hp t (Finset.mem_range.mp ht)), Finset.sum_const, Finset.card_range, nsmul_eq_mul,
      mul_div_cancel_left₀ _ hS']
    exact key
  · unfold predictive
    rw [Finset.sum_congr rfl fun t ht => if_neg (hp t (Finset.mem_range.mp ht)),
      Finset.sum_congr rfl fun t ht => if_neg (hp t (Finset.mem_range.mp ht)), Finset.sum_const, Finset.card_range, nsmul_eq_mul,
      mul_div_cancel_left₀ _ hS', Finset.sum_sub_distrib, Finset.sum_const, Finset.card_range, nsmul_eq_mul, sub_div, mul_one, div_self hS']
    exact sub_lt_sub_left key 1

open Classical in
/-- **C110**: exactly when it holds for a cell -/
theorem C110_iff (argsort : Arr ℝ → List Nat) (s : OLayer) (o i : LOp) (L Lt S : Nat) (lam : Nat → ℝ) (h : Sampled s o i L Lt S lam)
    (idx : List Nat) (hidx : InB (rows s) idx) :
    (∃ Y, (output argsort "mc" true false true s).1 = .ok Y ∧ Y idx = .fin (predictive S (predictsOne s o i Lt idx) lam)) ↔
      ∑ t ∈ Finset.range S, (if predictsOne s o i Lt idx t then 1 else -1) * (sigmoid (lam t) - sigmoid (meanOf S lam)) = 0 := by
  obtain ⟨Y, h1, h2, h3⟩ := C110_returns argsort s o i L Lt S lam h
  have hS' : (S : ℝ) ≠ 0 := by exact_mod_cast h.pos.ne'
  have key : (∑ t ∈ Finset.range S, (if predictsOne s o i Lt idx t then (1 : ℝ) else -1) * (sigmoid (lam t) - sigmoid (meanOf S lam))) =
      S * (predictive S (predictsOne s o i Lt idx) lam - predictive S (predictsOne s o i Lt idx) fun _ => meanOf S lam) := by
    unfold predictive
    rw [← sub_div, mul_div_cancel₀ _ hS', ← Finset.sum_sub_distrib]
    refine Finset.sum_congr rfl fun t _ => ?_
    split <;> ring
  rw [key, mul_eq_zero, or_iff_right hS', sub_eq_zero]
  constructor
  · rintro ⟨Y', hY', he⟩
    rw [h1] at hY'
    cases hY'
    rw [h3 idx hidx] at he
    exact (NpF.fin.inj he).symm
  · intro he
    exact ⟨Y, h1, by rw [h3 idx hidx, he]⟩

/-- two samples of a 1×1 layer with lambdas 0 and 1 -/
def twoLambdas : OLayer where
  model := "OR-AND"
  factors := [⟨Arr.mat 1 [[1]] 0, some [Arr.mat 1 [[1]] 0, Arr.mat 1 [[1]] 0]⟩, ⟨Arr.mat 1 [[1]] 0, some [Arr.mat 1 [[1]] 0, Arr.mat 1 [[1]] 0]⟩]
  lbda := .scalar (.fin 1) (some [.fin 0, .fin 1])
  q := Arr.full [] 0
  childShape := [1, 1]
  prediction := none

theorem C110_hypotheses_met : Sampled twoLambdas .OR .AND 1 1 2 (fun t => t) ∧ ∀ t < 2, predictsOne twoLambdas .OR .AND 1 [0, 0] t := by
  have hf : ∀ f ∈ twoLambdas.factors, f = ⟨Arr.mat 1 [[1]] 0, some [Arr.mat 1 [[1]] 0, Arr.mat 1 [[1]] 0]⟩ := by
    intro f hf
    simpa [twoLambdas] using hf
  refine ⟨⟨by simp [twoLambdas], fun f hfm => ?_, by norm_num, fun f hfm => ?_, ⟨.fin 1, ?_⟩, Or.inl rfl⟩, ?_⟩
  · rw [hf f hfm]
    refine ⟨⟨1, rfl, ?_⟩, pm_single (Or.inl rfl), ?_⟩
    · rintro tr ⟨⟩ a ha
      have : a = Arr.mat 1 [[1]] 0 := by simpa using ha
      rw [this]; rfl
    · rintro tr ⟨⟩ a ha
      have : a = Arr.mat 1 [[1]] 0 := by simpa using ha
      rw [this]; exact pm_single (Or.inl rfl)
  · rw [hf f hfm]
    exact ⟨_, rfl, rfl⟩
  · simp [twoLambdas, List.range_succ]
  · intro t ht
    have hs : ∀ f ∈ twoLambdas.factors, sample f t = Arr.mat 1 [[1]] 0 := by
      intro f hfm
      rw [hf f hfm]
      match t, ht with
      | 0, _ => rfl
      | 1, _ => rfl
    refine ⟨0, fun k => ?_⟩
    show (sample (twoLambdas.factors[(k : Nat)]'k.2) t).get _ = 1
    rw [hs _ (List.getElem_mem k.2)]
    have : ∀ k : Fin 2, (Arr.mat 1 [[1]] (0 : Int)) [([0, 0] : List Nat).getD (k : Nat) 0, ((0 : Fin 1) : Nat)] = 1 := by decide
    exact this k

end LFM
