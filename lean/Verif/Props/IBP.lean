import Verif.Lemmas.IBP
import Verif.Lemmas.Prob
import Verif.Lemmas.Samplers
import Verif.Spec.Buffet
import Verif.Props.QL

/-!
# C35, C36, C37, C38, C73: the Indian buffet process update
-/

namespace LFM

open Spec MeasureTheory

/-! ## C35 -/

/-- **C35**. -/
theorem C35_aligned_binary_active (N D L : Nat) (Z U X : Arr Int) (hN : 0 < N) (hZ : Z.shape = [N, L]) (hU : U.shape = [D, L])
    (pZ : PMArr Z) (pU : PMArr U) (lbda q alpha : ℝ) (rnd : IBPDraws) :
    ∃ L', (sample_2d_IBP Z U X lbda q alpha rnd).1.shape = [N, L'] ∧
      (sample_2d_IBP Z U X lbda q alpha rnd).2.shape = [D, L'] ∧
      PMArr (sample_2d_IBP Z U X lbda q alpha rnd).1 ∧ PMArr (sample_2d_IBP Z U X lbda q alpha rnd).2 ∧
      ∀ l, l < L' → ∃ n, n < N ∧ (sample_2d_IBP Z U X lbda q alpha rnd).1 [n, l] = 1 := by
  have h0 : Z.dim 0 = N := by simp [Arr.dim, hZ]
  have h1 : Z.dim 1 = L := by simp [Arr.dim, hZ]
  have h2 : U.dim 0 = D := by simp [Arr.dim, hU]
  rw [sample_2d_IBP_eq, h0, h1, h2]
  obtain ⟨M, rfl⟩ := Nat.exists_eq_succ_of_ne_zero hN.ne'
  rw [List.range_succ, List.foldl_append]
  have hinv := ibp_foldl_inv (N := M.succ) (D := D) X lbda q alpha rnd (List.range M)
    (fun n hn => by have := List.mem_range.1 hn; omega) (Z, U, L) ⟨hZ, hU, pZ, pU⟩
  obtain ⟨⟨a, b, c, d⟩, e⟩ := ibp_row_inv hinv X lbda q alpha rnd M (by omega)
  exact ⟨_, a, b, c, d, e⟩

/-- the hypotheses of C35 are met by a `2 × 2` first factor with an unused column -/
example (X : Arr Int) (lbda q alpha : ℝ) (rnd : IBPDraws) : ∃ L',
    (sample_2d_IBP (Arr.mat 2 [[1, -1], [1, -1]] 1) (Arr.full [3, 2] 1) X lbda q alpha rnd).1.shape = [2, L'] :=
  have ⟨L', h, _⟩ := C35_aligned_binary_active 2 3 2 (Arr.mat 2 [[1, -1], [1, -1]] 1) (Arr.full [3, 2] 1) X
    (by norm_num) rfl rfl
    (by
      rintro idx -
      simp only [Arr.mat]
      generalize idx.getD 0 0 = i
      generalize idx.getD 1 0 = j
      rcases i with _ | _ | i <;> rcases j with _ | _ | j <;> simp [IsPM])
    (fun _ _ => Or.inl rfl) lbda q alpha rnd
  ⟨L', h⟩

/-! ## C36 -/

/-- the state before row `n` is updated: both factors and the number of columns -/
noncomputable def Spec.beforeRow (Z U X : Arr Int) (lbda q alpha : ℝ) (rnd : IBPDraws) (n : Nat) : Arr Int × Arr Int × Nat :=
  (List.range n).foldl (fun s n => ibp_row X lbda q alpha (Z.dim 0) (U.dim 0) rnd n s) (Z, U, Z.dim 1)

/-- **C36**, existing columns: whenever a column of the state before row `n` is used by another row, the number whose
logit is the prior log-odds is strictly between 0 and 1 -/
theorem C36_prior_odds (N D L : Nat) (Z U X : Arr Int) (hZ : Z.shape = [N, L]) (hU : U.shape = [D, L])
    (pZ : PMArr Z) (pU : PMArr U) (lbda q alpha : ℝ) (rnd : IBPDraws) (n : Nat) (hn : n < N) (l : Nat)
    (hm : 0 < ibp_m (beforeRow Z U X lbda q alpha rnd n).1 n l) :
    0 < (ibp_m (beforeRow Z U X lbda q alpha rnd n).1 n l : ℝ) / N ∧
      (ibp_m (beforeRow Z U X lbda q alpha rnd n).1 n l : ℝ) / N < 1 := by
  have h0 : Z.dim 0 = N := by simp [Arr.dim, hZ]
  have h1 : Z.dim 1 = L := by simp [Arr.dim, hZ]
  have h2 : U.dim 0 = D := by simp [Arr.dim, hU]
  have hinv := ibp_foldl_inv (N := N) (D := D) X lbda q alpha rnd (List.range n)
    (fun n' hn' => by have := List.mem_range.1 hn'; omega) (Z, U, L) ⟨hZ, hU, pZ, pU⟩
  unfold beforeRow at hm ⊢
  rw [h0, h1, h2] at hm ⊢
  generalize (List.range n).foldl (fun s n => ibp_row X lbda q alpha N D rnd n s) (Z, U, L) = s at hinv hm ⊢
  have hd : s.1.dim 0 = N := by simp [Arr.dim, hinv.hZ]
  have hN : (0 : ℝ) < N := by exact_mod_cast (by omega : 0 < N)
  refine ⟨by positivity, ?_⟩
  rw [div_lt_one hN]
  have : ibp_m s.1 n l < N := by
    unfold ibp_m
    rw [hd]
    have : (List.range N).countP (fun n' => decide (n' ≠ n ∧ s.1 [n', l] = 1)) <
        (List.range N).length := by
      rw [List.countP_lt_length_iff]
      exact ⟨n, by simpa using hn, by simp⟩
    simpa using this
  exact_mod_cast this

/-- one minus `a` over a convex combination -/
theorem mix_pos {s p : ℝ} (h0 : 0 < s) (h1 : s < 1) (p0 : 0 ≤ p) (p1 : p ≤ 1) : 0 < s * (1 - 2 * p) + p := by
  have : s * (1 - 2 * p) + p = s * (1 - p) + (1 - s) * p := by ring
  rw [this]
  rcases eq_or_lt_of_le p0 with h | h
  · rw [← h]; simpa using h0
  · have : 0 ≤ s * (1 - p) := mul_nonneg h0.le (by linarith)
    have : 0 < (1 - s) * p := mul_pos (by linarith) h
    linarith

theorem expit_eq (x : ℝ) : expit x = sigmoid x := rfl

/-- weight of `k` new columns in the draw of the number of new columns -/
noncomputable def Spec.newColumnWeight (lbda q alpha : ℝ) (N L TN FN k : Nat) : ℝ :=
  (sigmoid (-lbda) * (1 - 2 * q ^ k) + q ^ k) ^ TN * (sigmoid lbda * (1 - 2 * q ^ k) + q ^ k) ^ FN *
    poisson (alpha / N) (L + k)

theorem newColumnWeight_pos {lbda q alpha : ℝ} {N : Nat} (hN : 0 < N) (ha : 0 < alpha) (q0 : 0 < q) (q1 : q < 1)
    (L TN FN k : Nat) : 0 < newColumnWeight lbda q alpha N L TN FN k := by
  have p0 : 0 ≤ q ^ k := by positivity
  have p1 : q ^ k ≤ 1 := pow_le_one₀ q0.le q1.le
  have hN' : (0 : ℝ) < N := by exact_mod_cast hN
  have := mix_pos (sigmoid_pos (-lbda)) (sigmoid_lt_one (-lbda)) p0 p1
  have := mix_pos (sigmoid_pos lbda) (sigmoid_lt_one lbda) p0 p1
  unfold newColumnWeight poisson
  positivity

theorem exp_logNew {lbda q alpha : ℝ} {N : Nat} (hN : 0 < N) (ha : 0 < alpha) (q0 : 0 < q) (q1 : q < 1)
    (L TN FN k : Nat) :
    Real.exp ((TN * TN_factor lbda q k + FN * FN_factor lbda q k) +
      (((k : ℝ) + L) * Real.log (alpha / N) - alpha / N - Real.log (Real.Gamma (L + k + 1)))) =
    newColumnWeight lbda q alpha N L TN FN k := by
  have p0 : 0 ≤ q ^ k := by positivity
  have p1 : q ^ k ≤ 1 := pow_le_one₀ q0.le q1.le
  have hN' : (0 : ℝ) < N := by exact_mod_cast hN
  have hT := mix_pos (sigmoid_pos (-lbda)) (sigmoid_lt_one (-lbda)) p0 p1
  have hF := mix_pos (sigmoid_pos lbda) (sigmoid_lt_one lbda) p0 p1
  have hG : Real.Gamma (L + k + 1) = (L + k).factorial := by
    have := Real.Gamma_nat_eq_factorial (L + k)
    push_cast at this
    exact this
  have hkL : ((k : ℝ) + L) = ((L + k : Nat) : ℝ) := by push_cast; ring
  unfold newColumnWeight poisson TN_factor FN_factor
  rw [hG, hkL, expit_eq, expit_eq, Real.exp_add, Real.exp_add, Real.exp_sub, Real.exp_sub,
    exp_nat_mul_log _ hT, exp_nat_mul_log _ hF, exp_nat_mul_log _ (by positivity : 0 < alpha / N),
    Real.exp_log (by positivity), Real.exp_neg]
  field_simp

/-- **C36**, new columns: the code's probabilities are the normalised weights, which are positive -/
theorem C36_new_columns (lbda q alpha : ℝ) (N L TN FN : Nat) (hN : 0 < N) (ha : 0 < alpha) (q0 : 0 < q) (q1 : q < 1) :
    (∀ k, 0 < newColumnWeight lbda q alpha N L TN FN k) ∧
    ibp_p_L_new lbda q alpha N L TN FN =
      (List.range 3).map (normalised3 (newColumnWeight lbda q alpha N L TN FN)) ∧
    ProbVec (ibp_p_L_new lbda q alpha N L TN FN) := by
  have hpos := newColumnWeight_pos (lbda := lbda) hN ha q0 q1 L TN FN
  have heq : ibp_p_L_new lbda q alpha N L TN FN =
      (List.range 3).map (normalised3 (newColumnWeight lbda q alpha N L TN FN)) := by
    unfold ibp_p_L_new
    simp only
    generalize List.foldl (max : ℝ → ℝ → ℝ) _ _ = M
    simp only [List.range_succ, List.range_zero, List.map_nil, List.map_cons, List.nil_append,
      List.cons_append, List.getD_cons_zero, List.getD_cons_succ, List.sum_cons, List.sum_nil, Real.exp_sub _ M]
    have e0 := exp_logNew (lbda := lbda) hN ha q0 q1 L TN FN 0
    have e1 := exp_logNew (lbda := lbda) hN ha q0 q1 L TN FN 1
    have e2 := exp_logNew (lbda := lbda) hN ha q0 q1 L TN FN 2
    rw [e0, e1, e2]
    have hM := Real.exp_pos M
    have h0 := hpos 0
    have h1 := hpos 1
    have h2 := hpos 2
    simp only [normalised3, add_zero, List.cons.injEq, and_true]
    refine ⟨?_, ?_, ?_⟩ <;> field_simp <;> ring
  refine ⟨hpos, heq, ?_⟩
  rw [heq]
  have h0 := hpos 0
  have h1 := hpos 1
  have h2 := hpos 2
  constructor
  · intro x hx
    obtain ⟨k, _, rfl⟩ := List.mem_map.1 hx
    have := hpos k
    unfold normalised3
    positivity
  · simp only [List.range_succ, List.range_zero, List.map_nil, List.map_cons, List.nil_append,
      List.cons_append, List.sum_cons, List.sum_nil, normalised3]
    field_simp
    ring

theorem np_choice_eq (p : List ℝ) (hp : ProbVec p) (hlen : p.length ≤ 127) (r : ℝ) (h0 : 0 ≤ r) (h1 : r < 1) :
    (np_choice p r : Int) + 1 = random_choice p r := by
  obtain ⟨i, hi, he, h2, h3⟩ := C34_interval_partial p hp hlen r h0 h1
  rw [he]
  have : np_choice p r = i := by
    unfold np_choice
    rw [hp.2]
    have : ∀ j ∈ List.range p.length, decide ((p.take (j + 1)).sum / 1 ≤ r) = decide (j < i) := by
      intro j _
      rw [div_one, decide_eq_decide]
      constructor
      · intro h
        by_contra hji
        have := take_sum_mono hp.1 (show i + 1 ≤ j + 1 by omega)
        linarith
      · intro h
        have := take_sum_mono hp.1 (show j + 1 ≤ i by omega)
        linarith
    rw [List.countP_congr (fun j hj => by rw [this j hj])]
    have hr : List.range p.length = List.range i ++ (List.range (p.length - i)).map (i + ·) := by
      rw [← List.range_add]
      congr 1
      omega
    rw [hr, List.countP_append, List.countP_eq_length.2 (by simp), List.countP_eq_zero.2 (by simp)]
    simp
  rw [this]

/-- **C36**, the number of new columns is 0, 1 or 2, drawn with these probabilities -/
theorem C36_draw_law (p : List ℝ) (hp : ProbVec p) (hlen : p.length = 3) (k : Nat) (hk : k < 3) :
    (∀ r, 0 ≤ r → r < 1 → np_choice p r < 3) ∧
    volume {r : ℝ | r ∈ Set.Ico (0 : ℝ) 1 ∧ np_choice p r = k} = ENNReal.ofReal (p[k]) := by
  constructor
  · intro r h0 h1
    obtain ⟨i, hi, he, _, _⟩ := C34_interval_partial p hp (by omega) r h0 h1
    have := np_choice_eq p hp (by omega) r h0 h1
    omega
  · rw [← C34_probability_partial p hp (by omega) k (by omega)]
    congr 1
    ext r
    simp only [Set.mem_ofPred_eq, Set.mem_Ico]
    constructor
    · rintro ⟨hr, h⟩
      exact ⟨hr, by rw [← np_choice_eq p hp (by omega) r hr.1 hr.2, h]⟩
    · rintro ⟨hr, h⟩
      refine ⟨hr, ?_⟩
      rw [← np_choice_eq p hp (by omega) r hr.1 hr.2] at h
      omega


/-- C36 for a concrete state: three rows, one column left, two true and one false negatives -/
example : ProbVec (ibp_p_L_new 1 (1 / 3) 3 3 1 2 1) :=
  (C36_new_columns 1 (1 / 3) 3 3 1 2 1 (by norm_num) (by norm_num) (by norm_num) (by norm_num)).2.2

/-! ## C37 -/

theorem newFeatureLik_one (lbda q : ℝ) (k : Nat) :
    newFeatureLik lbda q k 1 = sigmoid lbda * (1 - 2 * (1 - q) ^ k) + (1 - q) ^ k := by
  unfold newFeatureLik
  rw [bernProb_OR, bernProb_NOR]
  simp only [Finset.prod_const, Finset.card_univ, Fintype.card_fin, cellLik]
  norm_num
  rw [sigmoid_neg]
  ring

theorem newFeatureLik_neg_one (lbda q : ℝ) (k : Nat) :
    newFeatureLik lbda q k (-1) = sigmoid (-lbda) * (1 - 2 * (1 - q) ^ k) + (1 - q) ^ k := by
  unfold newFeatureLik
  rw [bernProb_OR, bernProb_NOR]
  simp only [Finset.prod_const, Finset.card_univ, Fintype.card_fin, cellLik]
  norm_num
  rw [sigmoid_neg]
  ring

/-- **C37**, what the code computes: the factors are the log-probabilities for features that are on with probability
`1 - q`, where `q` is the Bernoulli prior. -/
theorem C37_swapped (lbda q : ℝ) (k : Nat) :
    FN_factor lbda q k = Real.log (newFeatureLik lbda (1 - q) k 1) ∧
    TN_factor lbda q k = Real.log (newFeatureLik lbda (1 - q) k (-1)) := by
  rw [newFeatureLik_one, newFeatureLik_neg_one]
  simp only [sub_sub_cancel]
  exact ⟨rfl, rfl⟩

/-- **C37** for the default prior. (Full statement: for any prior `q`. It is false, see `C37_iff`.) -/
theorem C37_half_partial (lbda : ℝ) (k : Nat) :
    FN_factor lbda (1 / 2) k = Real.log (newFeatureLik lbda (1 / 2) k 1) ∧
    TN_factor lbda (1 / 2) k = Real.log (newFeatureLik lbda (1 / 2) k (-1)) := by
  have := C37_swapped lbda (1 / 2) k
  norm_num at this ⊢
  exact this

theorem sigmoid_eq_half {x : ℝ} (h : sigmoid x = 1 / 2) : x = 0 :=
  le_antisymm ((sigmoid_le_half_iff x).1 h.le) ((half_le_sigmoid_iff x).1 h.ge)

/-- **C37** is false for every other prior, whenever columns are added and lambda is not 0. -/
theorem C37_iff (lbda q : ℝ) (hl : lbda ≠ 0) (q0 : 0 < q) (q1 : q < 1) (k : Nat) :
    FN_factor lbda q k = Real.log (newFeatureLik lbda q k 1) ↔ k = 0 ∨ q = 1 / 2 := by
  rw [(C37_swapped lbda q k).1]
  have p1 : ∀ q : ℝ, 0 < q → q < 1 → 0 < newFeatureLik lbda q k 1 := by
    intro q q0 q1
    rw [newFeatureLik_one]
    exact mix_pos (sigmoid_pos lbda) (sigmoid_lt_one lbda) (pow_nonneg (by linarith) k)
      (pow_le_one₀ (by linarith) (by linarith))
  have hinj : Real.log (newFeatureLik lbda (1 - q) k 1) = Real.log (newFeatureLik lbda q k 1) ↔
      newFeatureLik lbda (1 - q) k 1 = newFeatureLik lbda q k 1 :=
    ⟨fun h => Real.log_injOn_pos (p1 _ (by linarith) (by linarith)) (p1 _ q0 q1) h, fun h => by rw [h]⟩
  rw [hinj, newFeatureLik_one, newFeatureLik_one, sub_sub_cancel]
  have hs : 1 - 2 * sigmoid lbda ≠ 0 := by
    intro h
    exact hl (sigmoid_eq_half (by linarith))
  have hfac : (sigmoid lbda * (1 - 2 * q ^ k) + q ^ k = sigmoid lbda * (1 - 2 * (1 - q) ^ k) + (1 - q) ^ k) ↔
      q ^ k = (1 - q) ^ k := by
    constructor
    · intro h
      have : (1 - 2 * sigmoid lbda) * (q ^ k - (1 - q) ^ k) = 0 := by linarith
      rcases mul_eq_zero.1 this with h | h
      · exact absurd h hs
      · linarith
    · intro h; rw [h]
  rw [hfac]
  constructor
  · intro h
    by_cases hk : k = 0
    · exact Or.inl hk
    · have := (pow_left_inj₀ q0.le (by linarith) hk).1 h
      exact Or.inr (by linarith)
  · rintro (rfl | rfl)
    · simp
    · norm_num

/-! ## C73 -/

/-- weight of `k` new columns for a row with `TN` zeros and `FN` ones that no present column explains: Poisson prior
times likelihood -/
noncomputable def Spec.buffetWeight (lbda q alpha : ℝ) (N TN FN k : Nat) : ℝ :=
  newFeatureLik lbda q k (-1) ^ TN * newFeatureLik lbda q k 1 ^ FN * poisson (alpha / N) k

/-- **C73** when no column is left (first new dishes) and the Bernoulli prior is 1/2. (Full statement: for any number `L`
of columns and prior `q`, with `buffetWeight lbda q alpha N TN FN` on the right. It is false, see `C73_wrong`.) -/
theorem C73_new_columns_partial (lbda alpha : ℝ) (N TN FN : Nat) (hN : 0 < N) (ha : 0 < alpha) :
    ibp_p_L_new lbda (1 / 2) alpha N 0 TN FN =
      (List.range 3).map (normalised3 (buffetWeight lbda (1 / 2) alpha N TN FN)) := by
  rw [(C36_new_columns lbda (1 / 2) alpha N 0 TN FN hN ha (by norm_num) (by norm_num)).2.1]
  congr 2
  funext k
  unfold newColumnWeight buffetWeight
  rw [newFeatureLik_one, newFeatureLik_neg_one]
  norm_num

/-- **C73** is false once a column is left: one row, one column, no data to explain, `alpha = 1`. No new column has
probability 2/5 under the Poisson prior and is drawn with probability 3/5. -/
theorem C73_wrong : (ibp_p_L_new 1 (1 / 2) 1 1 1 0 0).getD 0 0 = 3 / 5 ∧
    normalised3 (buffetWeight 1 (1 / 2) 1 1 0 0) 0 = 2 / 5 := by
  constructor
  · rw [(C36_new_columns 1 (1 / 2) 1 1 1 0 0 (by norm_num) (by norm_num) (by norm_num) (by norm_num)).2.1]
    have he := Real.exp_pos (-1)
    simp only [List.range_succ, List.range_zero, List.map_nil, List.map_cons, List.nil_append,
      List.cons_append, List.getD_cons_zero, normalised3, newColumnWeight, poisson]
    norm_num [Nat.factorial]
    field_simp
    norm_num
  · have he := Real.exp_pos (-1)
    simp only [normalised3, buffetWeight, poisson]
    norm_num [Nat.factorial]
    field_simp
    norm_num

/-! ## C38 -/

/-- **C38** for a fixed first factor: it keeps its value, and the second factor keeps its fixed entries, whatever calls
are made. (Full statement: also a fixed second factor keeps its value and the first factor keeps its fixed entries.
Both are false, see `C38_wrong`.) -/
theorem C38_first_fixed_partial (y : IBPLayer) (fixed : IBPMat → Bool) (hz : fixed .z = true) (lp : ℝ)
    (order : List (IBPMat × IBPDraws × Rnd)) :
    (y.calls fixed lp order).Z = y.Z ∧ (y.calls fixed lp order).U_fixed = y.U_fixed ∧
      (y.calls fixed lp order).U.shape = y.U.shape ∧
      ∀ i, y.U_fixed i = 1 → (y.calls fixed lp order).U i = y.U i := by
  unfold IBPLayer.calls
  have hall : ∀ k ∈ order.filter (fun k => !fixed k.1), k.1 = .u := by
    intro k hk
    have := (List.mem_filter.1 hk).2
    cases h : k.1 with
    | z => rw [h, hz] at this; simp at this
    | u => rfl
  generalize order.filter (fun k => !fixed k.1) = ks at hall
  induction ks generalizing y with
  | nil => simp
  | cons k ks ih =>
    simp only [List.foldl_cons]
    have hk : k.1 = .u := hall k (by simp)
    obtain ⟨h1, h2, h3, h4⟩ := ih (y.sample lp k.2.1 k.2.2 k.1) fun k' hk' => hall k' (by simp [hk'])
    rw [hk] at h1 h2 h3 h4 ⊢
    have hU : (y.sample lp k.2.1 k.2.2 .u).U = sampling_onechild_2D posterior_score_OR_AND_2D y.U y.U_fixed y.Z
      (y.X.transpose [1, 0]) y.lbda lp k.2.2 := rfl
    rw [sampling_onechild_2D_eq] at hU
    obtain ⟨g1, g2⟩ := sweep_entry _ y.U_fixed k.2.2 _ y.U
    refine ⟨h1, h2, h3.trans (hU ▸ g1), fun i hi => ?_⟩
    rw [h4 i hi, hU]
    exact (g2 i).1 hi

theorem np_choice_zero (lbda q alpha : ℝ) (N L TN FN : Nat) (hN : 0 < N) (ha : 0 < alpha) (q0 : 0 < q) (q1 : q < 1) :
    np_choice (ibp_p_L_new lbda q alpha N L TN FN) 0 = 0 := by
  obtain ⟨hpos, heq, hp⟩ := C36_new_columns lbda q alpha N L TN FN hN ha q0 q1
  have h0 := hpos 0
  have h1 := hpos 1
  have h2 := hpos 2
  have hlen : (ibp_p_L_new lbda q alpha N L TN FN).length ≤ 127 := by rw [heq]; simp
  obtain ⟨i, hi, he, h3, -⟩ := C34_interval_partial _ hp hlen 0 le_rfl one_pos
  have hc := np_choice_eq _ hp hlen 0 le_rfl one_pos
  rcases Nat.eq_zero_or_pos i with rfl | hi0
  · omega
  · exfalso
    have hm := take_sum_mono hp.1 (show 1 ≤ i from hi0)
    rw [heq] at hm h3
    have : 0 < normalised3 (newColumnWeight lbda q alpha N L TN FN) 0 := by
      unfold normalised3
      positivity
    have h4 : (((List.range 3).map (normalised3 (newColumnWeight lbda q alpha N L TN FN))).take 1).sum =
        normalised3 (newColumnWeight lbda q alpha N L TN FN) 0 := by
      simp [List.range_succ]
    rw [h4] at hm
    linarith

/-- the number of columns after one row -/
theorem ibp_row_columns (X : Arr Int) (lbda q alpha : ℝ) (N D : Nat) (rnd : IBPDraws) (n : Nat) (Z U : Arr Int) (L : Nat)
    (hN : 0 < N) (ha : 0 < alpha) (q0 : 0 < q) (q1 : q < 1) (h0 : rnd.new n = 0) :
    (ibp_row X lbda q alpha N D rnd n (Z, U, L)).2.2 = (keptCols Z n L).length := by
  obtain ⟨-, -, -, e4⟩ := existing_spec (N := N) (L := L) Z U X lbda n (rnd.z n)
  have hcount : (List.range L).countP (fun l => (ibp_existing Z U X lbda n N L (rnd.z n)).2 [l]) =
      (keptCols Z n L).length := by
    rw [List.countP_eq_length_filter, e4]
  simp only [ibp_row, hcount, h0, np_choice_zero lbda q alpha N _ _ _ hN ha q0 q1]
  rfl

/-- **C38** is false: a layer with one row and one column, the second factor fixed and the only entry of the first
factor marked in `fixed_entries`; one call with draws 0 removes the column from both factors. -/
theorem C38_wrong : ∃ (y : IBPLayer) (rnd : IBPDraws), y.Z_fixed [0, 0] = 1 ∧ y.Z.shape = [1, 1] ∧ y.U.shape = [1, 1] ∧
    PMArr y.Z ∧ PMArr y.U ∧ PMArr y.X ∧ y.alpha = 3 ∧ y.prior_U = 1 / 2 ∧
    ∀ (lp : ℝ) (rndU : Rnd),
      (y.calls (fun k => k = .u) lp [(.z, rnd, rndU), (.u, rnd, rndU)]).Z.shape = [1, 0] ∧
      (y.calls (fun k => k = .u) lp [(.z, rnd, rndU), (.u, rnd, rndU)]).U.shape = [1, 0] := by
  refine ⟨⟨Arr.full [1, 1] 1, Arr.full [1, 1] 1, Arr.full [1, 1] 1, Arr.full [1, 1] 0, Arr.full [1, 1] 1, 1, 1 / 2, 3⟩,
    ⟨fun _ _ => 0, fun _ => 0, fun _ _ _ => 0⟩, rfl, rfl, rfl, fun _ _ => Or.inl rfl, fun _ _ => Or.inl rfl,
    fun _ _ => Or.inl rfl, rfl, rfl, fun lp rndU => ?_⟩
  have hcalls : ∀ (y : IBPLayer) (rnd : IBPDraws), y.calls (fun k => k = .u) lp [(.z, rnd, rndU), (.u, rnd, rndU)] =
      { y with
        Z := (sample_2d_IBP y.Z y.U (y.X.transpose [0, 1]) y.lbda y.prior_U y.alpha rnd).1
        U := (sample_2d_IBP y.Z y.U (y.X.transpose [0, 1]) y.lbda y.prior_U y.alpha rnd).2 } := by
    intro y rnd
    rfl
  rw [hcalls]
  simp only [sample_2d_IBP_eq]
  have d0 : (Arr.full [1, 1] (1 : Int)).dim 0 = 1 := rfl
  have d1 : (Arr.full [1, 1] (1 : Int)).dim 1 = 1 := rfl
  simp only [d0, d1, List.range_one, List.foldl_cons, List.foldl_nil]
  obtain ⟨hinv, -⟩ := ibp_row_inv (N := 1) (D := 1) (s := (Arr.full [1, 1] 1, Arr.full [1, 1] 1, 1))
    ⟨rfl, rfl, fun _ _ => Or.inl rfl, fun _ _ => Or.inl rfl⟩ ((Arr.full [1, 1] (1 : Int)).transpose [0, 1]) 1 (1 / 2) 3
    ⟨fun _ _ => 0, fun _ => 0, fun _ _ _ => 0⟩ 0 one_pos
  have hcol := ibp_row_columns ((Arr.full [1, 1] (1 : Int)).transpose [0, 1]) 1 (1 / 2) 3 1 1
    ⟨fun _ _ => 0, fun _ => 0, fun _ _ _ => 0⟩ 0 (Arr.full [1, 1] 1) (Arr.full [1, 1] 1) 1 one_pos (by norm_num)
    (by norm_num) (by norm_num) rfl
  have hk : (keptCols (Arr.full [1, 1] 1) 0 1).length = 0 := by decide
  rw [hk] at hcol
  have hZ := hinv.hZ
  have hU := hinv.hU
  rw [hcol] at hZ hU
  exact ⟨hZ, hU⟩

end LFM
