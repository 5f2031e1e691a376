import Verif.Props.MaxFuzzy

/-!
# C75: what the MAX-AND product of posterior means is, and exactly when it is the expected maximum
-/

namespace LFM

open Spec

open Classical in
/-- the dimensions that are on and have the largest product of probability and lambda among those that are on -/
noncomputable def Spec.leaders {L : Nat} (p lb : Fin L → ℝ) (b : Fin L → Bool) : Finset (Fin L) :=
  Finset.univ.filter fun i => b i = true ∧ ∀ j, b j = true → p j * lb j ≤ p i * lb i

theorem mem_leaders {L : Nat} {p lb : Fin L → ℝ} {b : Fin L → Bool} {i : Fin L} :
    i ∈ leaders p lb b ↔ b i = true ∧ ∀ j, b j = true → p j * lb j ≤ p i * lb i := by
  simp [leaders]

theorem exists_leader {L : Nat} (p lb : Fin L → ℝ) {b : Fin L → Bool} {l : Fin L} (hl : b l = true) :
    ∃ i, i ∈ leaders p lb b := by
  obtain ⟨i, h1, h2⟩ := Finset.exists_max_image (Finset.univ.filter fun i => b i = true) (fun i => p i * lb i)
    ⟨l, by simp [hl]⟩
  refine ⟨i, mem_leaders.2 ⟨by simpa using h1, fun j hj => h2 j (by simp [hj])⟩⟩

/-- the probability of a configuration -/
theorem weight_nonneg {L : Nat} {p : Fin L → ℝ} (hp : ∀ i, 0 ≤ p i ∧ p i ≤ 1) (b : Fin L → Bool) :
    0 ≤ ∏ i, (if b i then p i else 1 - p i) := by
  refine Finset.prod_nonneg fun i _ => ?_
  split
  · exact (hp i).1
  · linarith [(hp i).2]

theorem weight_ne {L : Nat} {p : Fin L → ℝ} {b : Fin L → Bool} (h : (∏ i, (if b i then p i else 1 - p i)) ≠ 0) {i : Fin L} :
    (b i = true → p i ≠ 0) ∧ (b i = false → p i ≠ 1) := by
  have := (Finset.prod_ne_zero_iff.1 h) i (Finset.mem_univ i)
  constructor
  · intro hb; rwa [if_pos hb] at this
  · intro hb h1; rw [if_neg (by simp [hb]), h1] at this; simp at this

/-- **C75**, for all inputs: a cell of the product is the expected sum of the lambdas of the dimensions that have the largest
product of probability and lambda among those that are on. -/
theorem C75_exact (N D L : Nat) (Z U lb : Arr ℝ) (hZ : Z.shape = [N, L]) (hU : U.shape = [D, L]) (n d : Nat) (hn : n < N)
    (hd : d < D) :
    MAX_AND_product_fuzzy Z U lb [n, d] = expect (fun l : Fin L => Z [n, l] * U [d, l]) fun b =>
      ∑ l ∈ leaders (fun l : Fin L => Z [n, l] * U [d, l]) (fun l : Fin L => lb [l]) b, lb [l] := by
  classical
  rw [(MAX_AND_product_fuzzy_get hZ hU lb).2 n d hn hd, cell_fin,
    ← expect_sum_cell L (fun l : Fin L => Z [n, l] * U [d, l]) (fun l : Fin L => lb [l])]
  congr 1
  funext b
  rw [leaders, Finset.sum_filter]
  refine Finset.sum_congr rfl fun i _ => ?_
  rw [mul_ite, mul_one, mul_zero]
  refine if_congr ⟨fun h => ⟨h.1, fun j hj => ?_⟩, fun h => ⟨h.1, fun j _ hq => ?_⟩⟩ rfl rfl
  · by_contra hc
    push Not at hc
    have hji : j ≠ i := by rintro rfl; exact lt_irrefl _ hc
    have := h.2 j hji hc
    rw [hj] at this
    cases this
  · by_contra hc
    exact absurd (h.2 j (by simpa using hc)) (not_le.2 hq)

/-- on one configuration of positive probability there is one leader if no products are equal -/
theorem leaders_single {L : Nat} {p lb : Fin L → ℝ}
    (hties : ∀ i j, i ≠ j → p i ≠ 0 → p j ≠ 0 → p i * lb i ≠ p j * lb j) {b : Fin L → Bool}
    (hb : (∏ i, (if b i then p i else 1 - p i)) ≠ 0) {i : Fin L} (hi : i ∈ leaders p lb b) : leaders p lb b = {i} := by
  ext j
  rw [Finset.mem_singleton]
  constructor
  · intro hj
    by_contra hne
    have h1 := mem_leaders.1 hi
    have h2 := mem_leaders.1 hj
    exact hties i j (Ne.symm hne) ((weight_ne hb).1 h1.1) ((weight_ne hb).1 h2.1) (le_antisymm (h2.2 i h1.1) (h1.2 j h2.1))
  · rintro rfl; exact hi

/-- **C75**, from above: without equal products a cell is at most the expected maximum. -/
theorem C75_at_most (N D L : Nat) (Z U lb : Arr ℝ) (hZ : Z.shape = [N, L]) (hU : U.shape = [D, L])
    (n d : Nat) (hn : n < N) (hd : d < D) (f : (Fin L → Bool) → ℝ)
    (hf : ∀ b, IsLargestOn (fun l : Fin L => lb [l]) b (f b))
    (hp : ∀ l < L, 0 ≤ Z [n, l] * U [d, l] ∧ Z [n, l] * U [d, l] ≤ 1)
    (hties : ∀ i < L, ∀ j < L, i ≠ j → Z [n, i] * U [d, i] ≠ 0 → Z [n, j] * U [d, j] ≠ 0 →
      Z [n, i] * U [d, i] * lb [i] ≠ Z [n, j] * U [d, j] * lb [j]) :
    MAX_AND_product_fuzzy Z U lb [n, d] ≤ expect (fun l : Fin L => Z [n, l] * U [d, l]) f := by
  rw [C75_exact N D L Z U lb hZ hU n d hn hd]
  refine Finset.sum_le_sum fun b _ => ?_
  by_cases hb : (∏ i : Fin L, (if b i then Z [n, i] * U [d, i] else 1 - Z [n, i] * U [d, i])) = 0
  · simp only [hb, zero_mul, le_refl]
  refine mul_le_mul_of_nonneg_left ?_ (weight_nonneg (fun i => hp i i.2) b)
  rcases hf b with ⟨l, h1, h2, h3⟩ | ⟨h1, h2⟩
  · obtain ⟨i, hi⟩ := exists_leader (fun l : Fin L => Z [n, l] * U [d, l]) (fun l : Fin L => lb [l]) h1
    beta_reduce
    rw [leaders_single (fun i j hij => hties i i.2 j j.2 (fun h => hij (Fin.ext h))) hb hi, Finset.sum_singleton]
    exact h3 i (mem_leaders.1 hi).1
  · rw [h2]
    refine le_of_eq (Finset.sum_eq_zero fun i hi => ?_)
    have := (mem_leaders.1 hi).1
    rw [h1 i] at this
    cases this

/-- **C75**, from below: if larger lambdas have larger products, a cell is at least the expected maximum (more if products are
equal). -/
theorem C75_at_least (N D L : Nat) (Z U lb : Arr ℝ) (hZ : Z.shape = [N, L]) (hU : U.shape = [D, L])
    (n d : Nat) (hn : n < N) (hd : d < D) (f : (Fin L → Bool) → ℝ)
    (hf : ∀ b, IsLargestOn (fun l : Fin L => lb [l]) b (f b))
    (hp : ∀ l < L, 0 ≤ Z [n, l] * U [d, l] ∧ Z [n, l] * U [d, l] ≤ 1) (hlb : ∀ l < L, 0 ≤ lb [l])
    (hord : ∀ i < L, ∀ j < L, Z [n, i] * U [d, i] ≠ 0 → Z [n, j] * U [d, j] ≠ 0 → lb [i] < lb [j] →
      Z [n, i] * U [d, i] * lb [i] < Z [n, j] * U [d, j] * lb [j]) :
    expect (fun l : Fin L => Z [n, l] * U [d, l]) f ≤ MAX_AND_product_fuzzy Z U lb [n, d] := by
  rw [C75_exact N D L Z U lb hZ hU n d hn hd]
  refine Finset.sum_le_sum fun b _ => ?_
  by_cases hb : (∏ i : Fin L, (if b i then Z [n, i] * U [d, i] else 1 - Z [n, i] * U [d, i])) = 0
  · simp only [hb, zero_mul, le_refl]
  refine mul_le_mul_of_nonneg_left ?_ (weight_nonneg (fun i => hp i i.2) b)
  rcases hf b with ⟨l, h1, h2, h3⟩ | ⟨h1, h2⟩
  · obtain ⟨i, hi⟩ := exists_leader (fun l : Fin L => Z [n, l] * U [d, l]) (fun l : Fin L => lb [l]) h1
    have hi' := mem_leaders.1 hi
    have : f b ≤ lb [i] := by
      by_contra hc
      push Not at hc
      have := hord i i.2 l l.2 ((weight_ne hb).1 hi'.1) ((weight_ne hb).1 h1) (lt_of_lt_of_eq hc h2.symm)
      exact absurd (hi'.2 l h1) (not_le.2 this)
    exact this.trans (Finset.single_le_sum (f := fun i : Fin L => lb [i]) (fun j _ => hlb j j.2) hi)
  · rw [h2]
    exact Finset.sum_nonneg fun j _ => hlb j j.2

/-- **C75**, exactly when it holds, without equal products: a dimension `i` that comes before a dimension `j` of larger lambda
must itself come after a dimension that is certainly on. -/
theorem C75_iff (N D L : Nat) (Z U lb : Arr ℝ) (hZ : Z.shape = [N, L]) (hU : U.shape = [D, L])
    (n d : Nat) (hn : n < N) (hd : d < D) (f : (Fin L → Bool) → ℝ)
    (hf : ∀ b, IsLargestOn (fun l : Fin L => lb [l]) b (f b))
    (hp : ∀ l < L, 0 ≤ Z [n, l] * U [d, l] ∧ Z [n, l] * U [d, l] ≤ 1)
    (hties : ∀ i < L, ∀ j < L, i ≠ j → Z [n, i] * U [d, i] ≠ 0 → Z [n, j] * U [d, j] ≠ 0 →
      Z [n, i] * U [d, i] * lb [i] ≠ Z [n, j] * U [d, j] * lb [j]) :
    MAX_AND_product_fuzzy Z U lb [n, d] = expect (fun l : Fin L => Z [n, l] * U [d, l]) f ↔
      ∀ i < L, ∀ j < L, Z [n, i] * U [d, i] ≠ 0 → Z [n, j] * U [d, j] ≠ 0 → lb [i] < lb [j] →
        Z [n, j] * U [d, j] * lb [j] < Z [n, i] * U [d, i] * lb [i] →
        ∃ k < L, Z [n, k] * U [d, k] = 1 ∧ Z [n, i] * U [d, i] * lb [i] < Z [n, k] * U [d, k] * lb [k] := by
  classical
  obtain ⟨p, hpe⟩ : ∃ p : Fin L → ℝ, p = fun l : Fin L => Z [n, (l : Nat)] * U [d, (l : Nat)] := ⟨_, rfl⟩
  obtain ⟨v, hv⟩ : ∃ v : Fin L → ℝ, v = fun l : Fin L => lb [(l : Nat)] := ⟨_, rfl⟩
  have hp' : ∀ i, 0 ≤ p i ∧ p i ≤ 1 := fun i => hpe ▸ hp i i.2
  have hties' : ∀ i j, i ≠ j → p i ≠ 0 → p j ≠ 0 → p i * v i ≠ p j * v j := fun i j hij =>
    by rw [hpe, hv]; exact hties i i.2 j j.2 (fun h => hij (Fin.ext h))
  have hf' : ∀ b, IsLargestOn v b (f b) := hv ▸ hf
  have hrhs : (∀ i < L, ∀ j < L, Z [n, i] * U [d, i] ≠ 0 → Z [n, j] * U [d, j] ≠ 0 → lb [i] < lb [j] →
        Z [n, j] * U [d, j] * lb [j] < Z [n, i] * U [d, i] * lb [i] →
        ∃ k < L, Z [n, k] * U [d, k] = 1 ∧ Z [n, i] * U [d, i] * lb [i] < Z [n, k] * U [d, k] * lb [k]) ↔
      ∀ i j : Fin L, p i ≠ 0 → p j ≠ 0 → v i < v j → p j * v j < p i * v i → ∃ k, p k = 1 ∧ p i * v i < p k * v k := by
    rw [hpe, hv]
    constructor
    · intro h i j h1 h2 h3 h4
      obtain ⟨k, hk, h5⟩ := h i i.2 j j.2 h1 h2 h3 h4
      exact ⟨⟨k, hk⟩, h5⟩
    · intro h i hi j hj h1 h2 h3 h4
      obtain ⟨k, h5⟩ := h ⟨i, hi⟩ ⟨j, hj⟩ h1 h2 h3 h4
      exact ⟨k, k.2, h5⟩
  rw [hrhs, C75_exact N D L Z U lb hZ hU n d hn hd, ← hpe, ← hv]
  -- on a configuration of positive probability
  have hle : ∀ b, (∏ i, (if b i then p i else 1 - p i)) ≠ 0 → ∑ l ∈ leaders p v b, v l ≤ f b := by
    intro b hb
    rcases hf' b with ⟨l, h1, h2, h3⟩ | ⟨h1, h2⟩
    · obtain ⟨i, hi⟩ := exists_leader p v h1
      rw [leaders_single hties' hb hi, Finset.sum_singleton]
      exact h3 i (mem_leaders.1 hi).1
    · rw [h2]
      refine le_of_eq (Finset.sum_eq_zero fun i hi => ?_)
      have := (mem_leaders.1 hi).1
      rw [h1 i] at this
      cases this
  have hterm : ∀ b ∈ (Finset.univ : Finset (Fin L → Bool)), (∏ i, (if b i then p i else 1 - p i)) * ∑ l ∈ leaders p v b, v l ≤
      (∏ i, (if b i then p i else 1 - p i)) * f b := by
    intro b _
    by_cases hb : (∏ i, (if b i then p i else 1 - p i)) = 0
    · rw [hb, zero_mul, zero_mul]
    · exact mul_le_mul_of_nonneg_left (hle b hb) (weight_nonneg hp' b)
  unfold expect
  rw [Finset.sum_eq_sum_iff_of_le hterm]
  constructor
  · intro heq i j hi hj hij hq
    by_contra hc
    push Not at hc
    obtain ⟨b, hbdef⟩ : ∃ b : Fin L → Bool, b = fun k => decide (k = i ∨ k = j ∨ p k = 1) := ⟨_, rfl⟩
    have hbi : b i = true := by simp [hbdef]
    have hbj : b j = true := by simp [hbdef]
    have hw : (∏ i, (if b i then p i else 1 - p i)) ≠ 0 := by
      refine Finset.prod_ne_zero_iff.2 fun k _ => ?_
      by_cases hk : k = i ∨ k = j ∨ p k = 1
      · rw [if_pos (by simp [hbdef, hk])]
        rcases hk with rfl | rfl | h
        · exact hi
        · exact hj
        · rw [h]; exact one_ne_zero
      · rw [if_neg (by simp only [hbdef, decide_eq_true_eq]; exact hk)]
        intro h0
        exact hk (.inr (.inr (by linarith)))
    have hlead : i ∈ leaders p v b := by
      refine mem_leaders.2 ⟨hbi, fun k hk => ?_⟩
      rw [hbdef] at hk
      rcases of_decide_eq_true hk with rfl | rfl | h
      · exact le_refl _
      · exact hq.le
      · exact hc k h
    have := mul_left_cancel₀ hw (heq b (Finset.mem_univ b))
    rw [leaders_single hties' hw hlead, Finset.sum_singleton] at this
    rcases hf' b with ⟨l, h1, h2, h3⟩ | ⟨h1, -⟩
    · have := h3 j hbj
      linarith
    · rw [h1 i] at hbi; cases hbi
  · intro h b _
    by_cases hb : (∏ i, (if b i then p i else 1 - p i)) = 0
    · rw [hb, zero_mul, zero_mul]
    refine congrArg _ (le_antisymm (hle b hb) ?_)
    rcases hf' b with ⟨l, h1, h2, h3⟩ | ⟨h1, h2⟩
    · obtain ⟨i, hi⟩ := exists_leader p v h1
      have hi' := mem_leaders.1 hi
      rw [leaders_single hties' hb hi, Finset.sum_singleton]
      by_contra hc
      push Not at hc
      rw [← h2] at hc
      have hne : i ≠ l := by rintro rfl; exact lt_irrefl _ hc
      have hpi := (weight_ne hb).1 hi'.1
      have hpl := (weight_ne hb).1 h1
      obtain ⟨k, hk1, hk2⟩ := h i l hpi hpl hc (lt_of_le_of_ne (hi'.2 l h1) (hties' i l hne hpi hpl).symm)
      have hbk : b k = true := by
        by_contra hbk
        exact (weight_ne hb).2 (by simpa using hbk) hk1
      exact absurd (hi'.2 k hbk) (not_le.2 hk2)
    · rw [h2]
      refine le_of_eq (Finset.sum_eq_zero fun i hi => ?_).symm
      have := (mem_leaders.1 hi).1
      rw [h1 i] at this
      cases this

/-- the hypotheses are met by probabilities 1/10, 1 and lambdas 9/10, 1/2, where the claim fails, and by probabilities 1, 1/2,
where it holds -/
theorem C75_iff_met :
    (∀ l < 2, 0 ≤ c75Z [0, l] * (Arr.mat 2 [[(1 : ℝ), 1]] 0) [0, l] ∧ c75Z [0, l] * (Arr.mat 2 [[(1 : ℝ), 1]] 0) [0, l] ≤ 1) ∧
    (∀ i < 2, ∀ j < 2, i ≠ j → c75Z [0, i] * (Arr.mat 2 [[(1 : ℝ), 1]] 0) [0, i] * c75lb [i] ≠
      c75Z [0, j] * (Arr.mat 2 [[(1 : ℝ), 1]] 0) [0, j] * c75lb [j]) := by
  constructor
  · intro l hl
    interval_cases l <;> simp [c75Z, Arr.mat] <;> norm_num
  · intro i hi j hj hij
    interval_cases i <;> interval_cases j <;> simp_all [c75Z, c75lb, Arr.mat, Arr.vec] <;> norm_num

end LFM
