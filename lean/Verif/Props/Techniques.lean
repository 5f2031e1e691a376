import Verif.Props.NoisyOutput
import Verif.Props.PointOutput
import Verif.Props.Requested
import Verif.Props.Predict

/-!
# C111: predictions from means and predictions from samples
-/

namespace LFM

open Spec

namespace Spec

/-- entry `l` of factor `k` that matters for cell `idx` is 1 in sample `t` -/
def isOne (s : OLayer) (Lt : Nat) (idx : List Nat) (e : Fin Lt × Fin s.factors.length) (t : Nat) : Prop :=
  sample s.factors[e.2] t [idx.getD e.2 0, e.1] = 1

open Classical in
/-- among the samples, the entries that matter for cell `idx` are independent: every combination of values is as frequent as the product of
the frequencies of the single values says -/
def IndependentCell (s : OLayer) (Lt S : Nat) (idx : List Nat) : Prop :=
  ∀ b : Fin Lt × Fin s.factors.length → Bool, fraction S (fun t => ∀ e, isOne s Lt idx e t ↔ b e = true) =
    ∏ e, if b e then fraction S (isOne s Lt idx e) else 1 - fraction S (isOne s Lt idx e)

/-- a layer of one of the eight implemented models, with two factors, or three for OR-AND, and `S` samples of the factors and of lambda -/
structure SampledLayer (s : OLayer) (m : Lom8) (L Lt S : Nat) : Prop where
  factors : s.factors.length = 2 ∨ s.factors.length = 3 ∧ m = .OR_AND
  legal : ∀ f ∈ s.factors, LegalFac L Lt f
  pos : 0 < S
  samples : ∀ f ∈ s.factors, HasSamples S f
  lbda : lbdaSamples s.lbda = some S
  model : s.model = m.name

end Spec

theorem sum_range_getD (tr : List (Arr Int)) (idx : List Nat) :
    (∑ t ∈ Finset.range tr.length, if (tr.getD t (Arr.full [] 0)) idx = 1 then (1 : ℝ) else 0) = (tr.countP fun a => a idx = 1 : Nat) := by
  induction tr with
  | nil => simp
  | cons a tr ih =>
    rw [List.length_cons, Finset.sum_range_succ', List.countP_cons]
    simp only [List.getD_cons_succ, List.getD_cons_zero]
    rw [ih]
    by_cases h : a idx = 1 <;> simp [h]

theorem onesShare_fraction {f : OFac} {S : Nat} (h : HasSamples S f) (idx : List Nat) : onesShare f idx = fraction S fun t => sample f t idx = 1 := by
  classical
  obtain ⟨tr, h1, h2⟩ := h
  subst h2
  rw [fraction_sum, onesShare, h1]
  show ((tr.countP fun a => a idx = 1 : Nat) : ℝ) / tr.length = _
  congr 1
  rw [← sum_range_getD]
  refine Finset.sum_congr rfl fun t _ => ?_
  simp [sample, h1]

open Classical in
theorem fraction_lom {s : OLayer} {o i : LOp} {Lt S : Nat} {idx : List Nat} (h : IndependentCell s Lt S idx) :
    fraction S (predictsOne s o i Lt idx) = lomProb o i fun (l : Fin Lt) (k : Fin s.factors.length) => fraction S (isOne s Lt idx (l, k)) := by
  unfold lomProb bernProb
  have hb : ∀ b : Fin Lt × Fin s.factors.length → Bool,
      (∏ e : Fin Lt × Fin s.factors.length, if b e then fraction S (isOne s Lt idx (e.1, e.2)) else 1 - fraction S (isOne s Lt idx (e.1, e.2))) =
        fraction S (fun t => ∀ e, isOne s Lt idx e t ↔ b e = true) := fun b => (h b).symm
  rw [Finset.sum_congr rfl fun b _ => by rw [hb b]]
  simp only [fraction_sum]
  simp only [div_mul_eq_mul_div, Finset.sum_mul]
  rw [← Finset.sum_div, Finset.sum_comm]
  congr 1
  refine Finset.sum_congr rfl fun t _ => ?_
  rw [Finset.sum_eq_single fun e => decide (isOne s Lt idx e t)]
  · rw [if_pos (show ∀ e, isOne s Lt idx e t ↔ (fun e => decide (isOne s Lt idx e t)) e = true from fun e => by simp), one_mul]
    have : predictsOne s o i Lt idx t ↔ lom o i fun (l : Fin Lt) (k : Fin s.factors.length) => decide (isOne s Lt idx (l, k) t) = true := by
      simp only [decide_eq_true_eq]
      exact Iff.rfl
    simp only [this]
  · intro b _ hb
    rw [if_neg, zero_mul]
    intro h
    refine hb (funext fun e => ?_)
    have := h e
    cases hbe : b e
    · rw [hbe] at this
      exact (decide_eq_false (by simpa using this)).symm
    · exact (decide_eq_true (this.mpr hbe)).symm
  · intro h
    exact (h (by convert Finset.mem_univ _)).elim

theorem mc_and_mean (argsort : Arr ℝ → List Nat) {s : OLayer} {m : Lom8} {L Lt S : Nat} (h : SampledLayer s m L Lt S) :
    ∃ X Y, (output argsort "mc" false false true s).1 = .ok X ∧ (output argsort "factor_mean" false false true s).1 = .ok Y ∧
      X.shape = rows s ∧ Y.shape = rows s ∧ ∀ idx, InB (rows s) idx →
        X idx = .fin (fraction S (predictsOne s m.outer m.inner Lt idx)) ∧
        Y idx = .fin (lomProb m.outer m.inner fun (l : Fin Lt) (k : Fin s.factors.length) => fraction S (isOne s Lt idx (l, k))) := by
  have hne : s.factors ≠ [] := by
    intro h0
    rcases h.factors with h1 | h1 <;> simp [h0] at h1
  have htr : ∀ f ∈ s.factors, f.trace ≠ some [] := by
    intro f hf h0
    obtain ⟨tr, h1, h2⟩ := h.samples f hf
    rw [h0] at h1
    cases h1
    exact h.pos.ne h2
  have htr2 : ∀ f ∈ s.factors, f.trace ≠ none := by
    intro f hf h0
    obtain ⟨tr, h1, h2⟩ := h.samples f hf
    rw [h0] at h1
    cases h1
  obtain ⟨X, a1, a2, a3⟩ := C51_mc_fraction_partial argsort s m.outer m.inner L Lt S hne h.legal h.pos h.lbda h.samples (Or.inl h.model)
  obtain ⟨Y, b1, b2, b3⟩ := factor_mean_exact argsort s m L Lt h.factors h.legal htr (Or.inr htr2) h.model
  refine ⟨X, Y, by rw [a1], by rw [b1], a2, b2, fun idx hidx => ⟨a3 idx hidx, ?_⟩⟩
  rw [b3 idx hidx]
  congr 2
  funext l k
  exact onesShare_fraction (h.samples _ (List.getElem_mem _)) _

/-- **C111** holds for cells whose entries are independent among the samples -/
theorem C111_independent_partial (argsort : Arr ℝ → List Nat) {s : OLayer} {m : Lom8} {L Lt S : Nat} (h : SampledLayer s m L Lt S) :
    ∃ X Y, (output argsort "mc" false false true s).1 = .ok X ∧ (output argsort "factor_mean" false false true s).1 = .ok Y ∧
      X.shape = Y.shape ∧ ∀ idx, InB X.shape idx → IndependentCell s Lt S idx → X idx = Y idx := by
  obtain ⟨X, Y, h1, h2, h3, h4, h5⟩ := mc_and_mean argsort h
  refine ⟨X, Y, h1, h2, h3.trans h4.symm, fun idx hidx hind => ?_⟩
  obtain ⟨h6, h7⟩ := h5 idx (h3 ▸ hidx)
  rw [h6, h7, fraction_lom hind]

/-- all samples are the same -/
def Spec.SameSamples (s : OLayer) (S : Nat) : Prop := ∀ f ∈ s.factors, ∀ t < S, ∀ t' < S, sample f t = sample f t'

open Classical in
theorem same_independent {s : OLayer} {S : Nat} (hS : 0 < S) (h : SameSamples s S) (Lt : Nat) (idx : List Nat) : IndependentCell s Lt S idx := by
  have hf : ∀ P : Nat → Prop, (∀ t < S, P t ↔ P 0) → fraction S P = if P 0 then 1 else 0 := by
    intro P hP
    have hS' : (S : ℝ) ≠ 0 := by exact_mod_cast hS.ne'
    rw [fraction_sum, Finset.sum_congr rfl fun t ht => if_congr (hP t (Finset.mem_range.mp ht)) rfl rfl, Finset.sum_const, Finset.card_range, nsmul_eq_mul,
      mul_div_cancel_left₀ _ hS']
  have h1 : ∀ e, ∀ t < S, isOne s Lt idx e t ↔ isOne s Lt idx e 0 := by
    intro e t ht
    show (sample (s.factors[(e.2 : Nat)]'e.2.2) t).get _ = 1 ↔ (sample (s.factors[(e.2 : Nat)]'e.2.2) 0).get _ = 1
    rw [h _ (List.getElem_mem e.2.2) t ht 0 hS]
  intro b
  rw [hf (fun t => ∀ e, isOne s Lt idx e t ↔ b e = true) fun t ht => forall_congr' fun e => iff_congr (h1 e t ht) Iff.rfl,
    Finset.prod_congr rfl fun e _ => by rw [hf _ (h1 e)]]
  by_cases hb : ∀ e, isOne s Lt idx e 0 ↔ b e = true
  · rw [if_pos hb, Finset.prod_eq_one]
    intro e _
    cases hbe : b e
    · have : ¬ isOne s Lt idx e 0 := fun h => by simpa [hbe] using (hb e).mp h
      simp [this]
    · have : isOne s Lt idx e 0 := (hb e).mpr hbe
      simp [this]
  · rw [if_neg hb]
    push Not at hb
    obtain ⟨e, he⟩ := hb
    refine (Finset.prod_eq_zero (Finset.mem_univ e) ?_).symm
    cases hbe : b e
    · have : isOne s Lt idx e 0 := by
        rcases he with h | h
        · exact h.1
        · rw [hbe] at h; exact absurd h.2 (by decide)
      simp [this]
    · have : ¬ isOne s Lt idx e 0 := by
        rcases he with h | h
        · rw [hbe] at h; exact absurd rfl h.2
        · exact h.1
      simp [this]

/-- **C111**: with one sample, or samples that are all the same, mc and factor_mean are the prediction of that sample -/
theorem C111_same_partial (argsort : Arr ℝ → List Nat) {s : OLayer} {m : Lom8} {L Lt S : Nat} (h : SampledLayer s m L Lt S) (hsame : SameSamples s S) :
    ∃ X Y, (output argsort "mc" false false true s).1 = .ok X ∧ (output argsort "factor_mean" false false true s).1 = .ok Y ∧
      X.shape = rows s ∧ Y.shape = rows s ∧ ∀ idx, InB (rows s) idx →
        X idx = asProb (predictsOne s m.outer m.inner Lt idx 0) ∧ Y idx = asProb (predictsOne s m.outer m.inner Lt idx 0) := by
  classical
  obtain ⟨X, Y, h1, h2, h3, h4, h5⟩ := mc_and_mean argsort h
  refine ⟨X, Y, h1, h2, h3, h4, fun idx hidx => ?_⟩
  obtain ⟨h6, h7⟩ := h5 idx hidx
  have hS' : (S : ℝ) ≠ 0 := by exact_mod_cast h.pos.ne'
  have hX : X idx = asProb (predictsOne s m.outer m.inner Lt idx 0) := by
    rw [h6, fraction_sum]
    have : ∀ t ∈ Finset.range S, (if predictsOne s m.outer m.inner Lt idx t then (1 : ℝ) else 0) = if predictsOne s m.outer m.inner Lt idx 0 then 1 else 0 := by
      intro t ht
      have : predictsOne s m.outer m.inner Lt idx t ↔ predictsOne s m.outer m.inner Lt idx 0 := by
        unfold predictsOne
        have : ∀ k : Fin s.factors.length, sample s.factors[k] t = sample s.factors[k] 0 :=
          fun k => hsame _ (List.getElem_mem _) t (Finset.mem_range.mp ht) 0 h.pos
        simp only [this]
      simp only [this]
    rw [Finset.sum_congr rfl this, Finset.sum_const, Finset.card_range, nsmul_eq_mul, mul_div_cancel_left₀ _ hS']
    unfold asProb
    split <;> rfl
  refine ⟨hX, ?_⟩
  rw [← hX, h6, h7, fraction_lom (same_independent h.pos hsame Lt idx)]

/-- two samples, in which both entries have the same value -/
def together (m : Lom8) : OLayer where
  model := m.name
  factors := [⟨Arr.mat 1 [[1]] 0, some [Arr.mat 1 [[1]] 0, Arr.mat 1 [[-1]] 0]⟩, ⟨Arr.mat 1 [[1]] 0, some [Arr.mat 1 [[1]] 0, Arr.mat 1 [[-1]] 0]⟩]
  lbda := .scalar (.fin 1) (some [.fin 1, .fin 1])
  q := Arr.full [] 0
  childShape := [1, 1]
  prediction := none

theorem together_sampled (m : Lom8) : SampledLayer (together m) m 1 1 2 := by
  have hf : ∀ f ∈ (together m).factors, f = ⟨Arr.mat 1 [[1]] 0, some [Arr.mat 1 [[1]] 0, Arr.mat 1 [[-1]] 0]⟩ := by
    intro f hf
    simpa [together] using hf
  refine ⟨Or.inl rfl, fun f hfm => ?_, by norm_num, fun f hfm => ?_, rfl, rfl⟩
  · rw [hf f hfm]
    refine ⟨⟨1, rfl, ?_⟩, pm_single (Or.inl rfl), ?_⟩
    · rintro tr ⟨⟩ a ha
      simp only [List.mem_cons, List.not_mem_nil, or_false] at ha
      rcases ha with rfl | rfl <;> rfl
    · rintro tr ⟨⟩ a ha
      simp only [List.mem_cons, List.not_mem_nil, or_false] at ha
      rcases ha with rfl | rfl
      · exact pm_single (Or.inl rfl)
      · exact pm_single (Or.inr rfl)
  · rw [hf f hfm]
    exact ⟨_, rfl, rfl⟩

/-- the share of ones that factor_mean assumes and the share of ones that the samples predict, for the two samples above -/
theorem together_values (m : Lom8) : ∃ p q : ℝ, p ≠ q ∧
    fraction 2 (predictsOne (together m) m.outer m.inner 1 [0, 0]) = p ∧
    (lomProb m.outer m.inner fun (l : Fin 1) (k : Fin (together m).factors.length) => fraction 2 (isOne (together m) 1 [0, 0] (l, k))) = q := by
  classical
  have hs0 : ∀ k : Fin 2, sample ((together m).factors[(k : Nat)]'k.2) 0 = Arr.mat 1 [[1]] 0 := by
    intro k
    match k with
    | ⟨0, _⟩ => rfl
    | ⟨1, _⟩ => rfl
  have hs1 : ∀ k : Fin 2, sample ((together m).factors[(k : Nat)]'k.2) 1 = Arr.mat 1 [[-1]] 0 := by
    intro k
    match k with
    | ⟨0, _⟩ => rfl
    | ⟨1, _⟩ => rfl
  have hone : ∀ e : Fin 1 × Fin 2, isOne (together m) 1 [0, 0] e 0 := by
    rintro ⟨l, k⟩
    show (sample ((together m).factors[(k : Nat)]'k.2) 0).get [([0, 0] : List Nat).getD (@Fin.val 2 k) 0, (l : Nat)] = 1
    rw [hs0]
    revert l k; decide
  have htwo : ∀ e : Fin 1 × Fin 2, ¬ isOne (together m) 1 [0, 0] e 1 := by
    rintro ⟨l, k⟩
    show ¬ (sample ((together m).factors[(k : Nat)]'k.2) 1).get [([0, 0] : List Nat).getD (@Fin.val 2 k) 0, (l : Nat)] = 1
    rw [hs1]
    revert l k; decide
  have hhalf : ∀ e : Fin 1 × Fin 2, fraction 2 (isOne (together m) 1 [0, 0] e) = 1 / 2 := by
    intro e
    rw [fraction_sum, Finset.sum_range_succ, Finset.sum_range_succ, Finset.sum_range_zero, if_pos (hone e), if_neg (htwo e)]
    norm_num
  have hp0 : predictsOne (together m) m.outer m.inner 1 [0, 0] 0 ↔ lom m.outer m.inner fun (_ : Fin 1) (_ : Fin 2) => True := by
    have : (fun (l : Fin 1) (k : Fin 2) => isOne (together m) 1 [0, 0] (l, k) 0) = fun _ _ => True := by
      funext l k; exact eq_true (hone (l, k))
    rw [← this]; rfl
  have hp1 : predictsOne (together m) m.outer m.inner 1 [0, 0] 1 ↔ lom m.outer m.inner fun (_ : Fin 1) (_ : Fin 2) => False := by
    have : (fun (l : Fin 1) (k : Fin 2) => isOne (together m) 1 [0, 0] (l, k) 1) = fun _ _ => False := by
      funext l k; exact eq_false (htwo (l, k))
    rw [← this]; rfl
  refine ⟨_, _, ?_, rfl, rfl⟩
  have hq : (fun (l : Fin 1) (k : Fin (together m).factors.length) => fraction 2 (isOne (together m) 1 [0, 0] (l, k))) = fun _ _ => 1 / 2 := by
    funext l k; exact hhalf (l, k)
  rw [hq, fraction_sum, Finset.sum_range_succ, Finset.sum_range_succ, Finset.sum_range_zero, if_congr hp0 rfl rfl, if_congr hp1 rfl rfl]
  refine ne_of_ne_of_eq ?_ (bernProb_lom m.outer m.inner (fun (_ : Fin 1) (_ : Fin 2) => (1 / 2 : ℝ))).symm
  have c2 : ∀ {P : Fin 2 → Prop}, (∃! i, P i) ↔ (P 0 ∧ ¬ P 1) ∨ (P 1 ∧ ¬ P 0) := by
    intro P
    constructor
    · rintro ⟨i, hi, hu⟩
      match i, hi, hu with
      | 0, hi, hu => exact Or.inl ⟨hi, fun h => absurd (hu 1 h) (by decide)⟩
      | 1, hi, hu => exact Or.inr ⟨hi, fun h => absurd (hu 0 h) (by decide)⟩
    · rintro (⟨h0, h1⟩ | ⟨h0, h1⟩)
      · exact ⟨0, h0, fun j hj => by match j, hj with | 0, _ => rfl | 1, h => exact absurd h h1⟩
      · exact ⟨1, h0, fun j hj => by match j, hj with | 1, _ => rfl | 0, h => exact absurd h h1⟩
  have x2 : (∑ j : Fin 2, (1 / 2 : ℝ) * ∏ i ∈ Finset.univ.erase j, (1 - 1 / 2 : ℝ)) = 1 / 2 := by
    simp [Finset.card_erase_of_mem]
    norm_num
  have a2 : (∏ _k : Fin 2, (1 / 2 : ℝ)) = 1 / 4 := by
    simp; norm_num
  cases m <;> simp only [Lom8.outer, Lom8.inner, bernProb_OR, bernProb_AND, bernProb_NAND, bernProb_XOR_fin, bernProb_NXOR_fin, x2, a2] <;>
    simp [lom, LOp.Holds, c2] <;> norm_num

/-- **C111** is false for each of the eight models: two samples, in both of which the two entries of a 1×1 layer are equal -/
theorem C111_wrong (argsort : Arr ℝ → List Nat) (m : Lom8) : ∃ s, SampledLayer s m 1 1 2 ∧
    ∃ X Y, (output argsort "mc" false false true s).1 = .ok X ∧ (output argsort "factor_mean" false false true s).1 = .ok Y ∧
      InB X.shape [0, 0] ∧ X [0, 0] ≠ Y [0, 0] := by
  refine ⟨together m, together_sampled m, ?_⟩
  obtain ⟨X, Y, h1, h2, h3, h4, h5⟩ := mc_and_mean argsort (together_sampled m)
  have hin : InB (rows (together m)) [0, 0] := by
    show InB [1, 1] [0, 0]
    exact ⟨by norm_num, by norm_num, trivial⟩
  obtain ⟨h6, h7⟩ := h5 [0, 0] hin
  obtain ⟨p, q, hpq, hp, hq⟩ := together_values m
  refine ⟨X, Y, h1, h2, h3 ▸ hin, ?_⟩
  rw [h6, h7, hp, hq]
  exact fun h => hpq (NpF.fin.inj h)

theorem C111_hypotheses_met : SampledLayer twoLambdas .OR_AND 1 1 2 ∧ SameSamples twoLambdas 2 ∧ IndependentCell twoLambdas 1 2 [0, 0] := by
  have hsame : SameSamples twoLambdas 2 := by
    have : ∀ f ∈ twoLambdas.factors, ∀ t < 2, sample f t = Arr.mat 1 [[1]] 0 := by
      intro f hfm t ht
      have hf : f = ⟨Arr.mat 1 [[1]] 0, some [Arr.mat 1 [[1]] 0, Arr.mat 1 [[1]] 0]⟩ := by simpa [twoLambdas] using hfm
      rw [hf]
      match t, ht with
      | 0, _ => rfl
      | 1, _ => rfl
    intro f hfm t ht t' ht'
    rw [this f hfm t ht, this f hfm t' ht']
  exact ⟨⟨Or.inl rfl, C110_hypotheses_met.1.legal, by norm_num, C110_hypotheses_met.1.samples, rfl, rfl⟩, hsame,
    same_independent (by norm_num) hsame 1 [0, 0]⟩

end LFM
