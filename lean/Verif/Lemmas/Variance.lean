import Verif.Props.Stationary

/-!
# Lemmas: variance of averages over a chain that forgets its past at a geometric rate
-/

namespace LFM

open MeasureTheory

theorem geom_floor {r : ℝ} (h0 : 0 ≤ r) (h1 : r < 1) {N : Nat} (hN : 1 ≤ N) (n : Nat) :
    ∑ d ∈ Finset.range n, r ^ (d / N) ≤ N / (1 - r) := by
  have hblock : ∀ q, ∑ d ∈ Finset.range (q * N), r ^ (d / N) = N * ∑ t ∈ Finset.range q, r ^ t := by
    intro q
    induction q with
    | zero => simp
    | succ q ih =>
      rw [Nat.add_mul, Nat.one_mul, Finset.sum_range_add, ih, Finset.sum_range_succ, mul_add]
      congr 1
      rw [Finset.sum_congr rfl fun d hd => by
        rw [show (q * N + d) / N = q by
          rw [Nat.add_comm, Nat.add_mul_div_right _ _ (by omega), Nat.div_eq_of_lt (Finset.mem_range.1 hd), Nat.zero_add]],
        Finset.sum_const, Finset.card_range, nsmul_eq_mul]
  have hle : ∑ d ∈ Finset.range n, r ^ (d / N) ≤ ∑ d ∈ Finset.range (n * N), r ^ (d / N) := by
    refine Finset.sum_le_sum_of_subset_of_nonneg ?_ fun _ _ _ => by positivity
    intro d hd
    rw [Finset.mem_range] at hd ⊢
    exact lt_of_lt_of_le hd (Nat.le_mul_of_pos_right n (by omega))
  refine hle.trans ?_
  rw [hblock, div_eq_mul_inv]
  refine mul_le_mul_of_nonneg_left ?_ (by positivity)
  have hg := mul_neg_geom_sum r n
  have hp : 0 < 1 - r := by linarith
  rw [← one_div, le_div_iff₀ hp, mul_comm, hg]
  linarith [pow_nonneg h0 n]

/-- second moment of an average -/
theorem second_moment {Ω St : Type} [Fintype St] [MeasurableSpace Ω] {μ : Measure Ω} [IsProbabilityMeasure μ] {S : Nat}
    (hS : 1 ≤ S) {X : Nat → Ω → St} (hX : ∀ k s, MeasurableSet {ω | X k ω = s}) {g π : St → ℝ} (hg : ∀ s, |g s| ≤ 2)
    (hπ : ∑ s, π s * g s = 0) {r : ℝ} (h0 : 0 ≤ r) (h1 : r < 1) {N : Nat} (hN : 1 ≤ N) {a : Nat → St → ℝ}
    {d : Nat → Nat → St → St → ℝ} (ha : ∀ j < S, (∀ x, 0 ≤ a j x) ∧ ∑ x, a j x = 1)
    (hd : ∀ j k, j ≤ k → k < S → ∀ x y, a j x ≠ 0 → |d j k x y - π y| ≤ r ^ ((k - j) / N))
    (hjoint : ∀ j k, j ≤ k → k < S → ∀ x y, (μ {ω | X j ω = x ∧ X k ω = y}).toReal = a j x * d j k x y) :
    Integrable (fun ω => ((∑ k ∈ Finset.range S, g (X k ω)) / S) ^ 2) μ ∧
    ∫ ω, ((∑ k ∈ Finset.range S, g (X k ω)) / S) ^ 2 ∂μ ≤ 8 * Fintype.card St * N / (1 - r) / S := by
  classical
  have hXX : ∀ j k (p : St × St), MeasurableSet {ω | (X j ω, X k ω) = p} := by
    intro j k p
    have : {ω | (X j ω, X k ω) = p} = {ω | X j ω = p.1} ∩ {ω | X k ω = p.2} := by
      ext ω; simp [Prod.ext_iff]
    rw [this]
    exact (hX j _).inter (hX k _)
  have hint : ∀ j k, Integrable (fun ω => g (X j ω) * g (X k ω)) μ := fun j k =>
    (integral_finite (hXX j k) fun p => g p.1 * g p.2).1
  have hle : ∀ j k, j ≤ k → k < S → ∫ ω, g (X j ω) * g (X k ω) ∂μ ≤ 4 * Fintype.card St * r ^ ((k - j) / N) := by
    intro j k hjk hk
    rw [(integral_finite (hXX j k) fun p => g p.1 * g p.2).2, Fintype.sum_prod_type]
    have e : ∀ x y, (μ {ω | (X j ω, X k ω) = (x, y)}).toReal * (g x * g y) = a j x * g x * ((d j k x y - π y) * g y) +
        a j x * g x * (π y * g y) := by
      intro x y
      have : {ω | (X j ω, X k ω) = (x, y)} = {ω | X j ω = x ∧ X k ω = y} := by
        ext ω; simp
      rw [this, hjoint j k hjk hk]
      ring
    have e2 : ∀ x, ∑ y, (μ {ω | (X j ω, X k ω) = (x, y)}).toReal * (g x * g y) =
        a j x * (g x * ∑ y, (d j k x y - π y) * g y) := by
      intro x
      simp only [e]
      rw [Finset.sum_add_distrib, ← Finset.mul_sum, ← Finset.mul_sum, hπ]
      ring
    simp only [e2]
    have e3 : ∀ x, a j x ≠ 0 → g x * ∑ y, (d j k x y - π y) * g y ≤ 4 * Fintype.card St * r ^ ((k - j) / N) := by
      intro x hx
      have b1 : |∑ y, (d j k x y - π y) * g y| ≤ Fintype.card St * (r ^ ((k - j) / N) * 2) := by
        refine (Finset.abs_sum_le_sum_abs _ _).trans ?_
        rw [← nsmul_eq_mul, ← Finset.card_univ]
        refine Finset.sum_le_card_nsmul _ _ _ fun y _ => ?_
        rw [abs_mul]
        exact mul_le_mul (hd j k hjk hk x y hx) (hg y) (abs_nonneg _) (by positivity)
      refine (le_abs_self _).trans ?_
      rw [abs_mul]
      refine (mul_le_mul (hg x) b1 (abs_nonneg _) (by norm_num)).trans (le_of_eq (by ring))
    calc ∑ x, a j x * (g x * ∑ y, (d j k x y - π y) * g y)
        ≤ ∑ x, a j x * (4 * Fintype.card St * r ^ ((k - j) / N)) :=
          Finset.sum_le_sum fun x _ => by
            by_cases hx : a j x = 0
            · rw [hx, zero_mul, zero_mul]
            · exact mul_le_mul_of_nonneg_left (e3 x hx) ((ha j (by omega)).1 x)
      _ = _ := by rw [← Finset.sum_mul, (ha j (by omega)).2, one_mul]
  have hexp : (fun ω => ((∑ k ∈ Finset.range S, g (X k ω)) / S) ^ 2) = fun ω =>
      (∑ j ∈ Finset.range S, ∑ k ∈ Finset.range S, g (X j ω) * g (X k ω)) / (S : ℝ) ^ 2 := by
    funext ω
    rw [div_pow, sq (∑ k ∈ Finset.range S, g (X k ω)), Finset.sum_mul_sum]
  have hS' : (0 : ℝ) < S := by exact_mod_cast hS
  rw [hexp]
  refine ⟨(integrable_finsetSum _ fun j _ => integrable_finsetSum _ fun k _ => hint j k).div_const _, ?_⟩
  rw [integral_div, integral_finsetSum _ fun j _ => integrable_finsetSum _ fun k _ => hint j k, div_le_div_iff₀ (by positivity) hS']
  have hrow : ∀ j ∈ Finset.range S, ∫ ω, ∑ k ∈ Finset.range S, g (X j ω) * g (X k ω) ∂μ ≤
      8 * Fintype.card St * N / (1 - r) := by
    intro j hj
    rw [Finset.mem_range] at hj
    rw [integral_finsetSum _ fun k _ => hint j k]
    have hsplit : ∀ k ∈ Finset.range S, ∫ ω, g (X j ω) * g (X k ω) ∂μ ≤
        4 * Fintype.card St * (if k ≤ j then r ^ ((j - k) / N) else r ^ ((k - j) / N)) := by
      intro k hk
      rw [Finset.mem_range] at hk
      split
      · rename_i hkj
        have := hle k j hkj hj
        rw [integral_congr_ae (Filter.Eventually.of_forall fun ω => mul_comm (g (X k ω)) (g (X j ω)))] at this
        exact this
      · exact hle j k (by omega) hk
    refine (Finset.sum_le_sum hsplit).trans ?_
    rw [← Finset.mul_sum, Finset.sum_ite]
    have b1 : ∑ k ∈ (Finset.range S).filter (fun k => k ≤ j), r ^ ((j - k) / N) ≤ N / (1 - r) := by
      refine le_trans ?_ (geom_floor h0 h1 hN (j + 1))
      rw [← Finset.sum_range_reflect]
      refine Finset.sum_le_sum_of_subset_of_nonneg ?_ fun _ _ _ => by positivity
      intro k hk
      rw [Finset.mem_filter] at hk
      rw [Finset.mem_range]
      omega
    have b2 : ∑ k ∈ (Finset.range S).filter (fun k => ¬ k ≤ j), r ^ ((k - j) / N) ≤ N / (1 - r) := by
      have e : ∑ d ∈ Finset.range (S - j), r ^ (d / N) = ∑ k ∈ Finset.Ico j S, r ^ ((k - j) / N) := by
        rw [Finset.sum_Ico_eq_sum_range]
        exact Finset.sum_congr rfl fun d _ => by rw [Nat.add_sub_cancel_left]
      refine le_trans ?_ (geom_floor h0 h1 hN (S - j))
      rw [e]
      refine Finset.sum_le_sum_of_subset_of_nonneg ?_ fun _ _ _ => by positivity
      intro k hk
      rw [Finset.mem_filter, Finset.mem_range] at hk
      rw [Finset.mem_Ico]
      omega
    have hc : (0 : ℝ) ≤ 4 * Fintype.card St := by positivity
    refine (mul_le_mul_of_nonneg_left (add_le_add b1 b2) hc).trans (le_of_eq (by ring))
  have := Finset.sum_le_sum hrow
  rw [Finset.sum_const, Finset.card_range, nsmul_eq_mul] at this
  calc _ ≤ (S * (8 * Fintype.card St * N / (1 - r))) * (S : ℝ) := mul_le_mul_of_nonneg_right this hS'.le
    _ = _ := by ring

end LFM
