import Mathlib.Algebra.BigOperators.Ring.Finset
import Mathlib.Data.Finset.Max
import Verif.Lemmas.MaxFuzzy
import Verif.Props.OutputMax

/-!
# C75: the MAX-AND product of posterior means; C49 for `factor_mean` of MAX-AND layers
-/

namespace LFM

open Spec

/-- expectation of `f` when bit `i` is on with probability `p i`, independently -/
noncomputable def Spec.expect {ι : Type} [Fintype ι] [DecidableEq ι] (p : ι → ℝ) (f : (ι → Bool) → ℝ) : ℝ :=
  ∑ b : ι → Bool, (∏ i, if b i then p i else 1 - p i) * f b

/-- `v` is the largest of the lambdas of the dimensions that are on, 0 if none is on -/
def Spec.IsLargestOn {L : Nat} (lb : Fin L → ℝ) (b : Fin L → Bool) (v : ℝ) : Prop :=
  (∃ l, b l = true ∧ lb l = v ∧ ∀ l', b l' = true → lb l' ≤ v) ∨ (∀ l, b l = false) ∧ v = 0

theorem cell_fin (L : Nat) (p lb : Nat → ℝ) : maxFuzzyCell L p lb = ∑ i : Fin L, p i * lb i * ∏ j : Fin L,
    if i = j then 1 else if p j * lb j > p i * lb i then 1 - p j else 1 := by
  unfold maxFuzzyCell
  rw [Finset.sum_range]
  refine Finset.sum_congr rfl fun i _ => ?_
  rw [Finset.prod_range]
  congr 1
  refine Finset.prod_congr rfl fun j _ => ?_
  simp only [Fin.ext_iff]

open Classical in
/-- a cell is an expectation, whatever the order of the lambdas -/
theorem expect_sum_cell (L : Nat) (p lb : Fin L → ℝ) :
    expect p (fun b => ∑ i, lb i * if b i = true ∧ ∀ j, j ≠ i → p j * lb j > p i * lb i → b j = false then 1 else 0) =
    ∑ i : Fin L, p i * lb i * ∏ j : Fin L,
      if i = j then 1 else if p j * lb j > p i * lb i then 1 - p j else 1 := by
  -- the probability of one summand
  have hprob : ∀ i, ∑ b : Fin L → Bool, (∏ k, if b k then p k else 1 - p k) *
      (if b i = true ∧ ∀ j, j ≠ i → p j * lb j > p i * lb i → b j = false then 1 else 0) =
      p i * ∏ j : Fin L, if i = j then 1 else if p j * lb j > p i * lb i then 1 - p j else 1 := by
    intro i
    have e1 : ∀ b : Fin L → Bool, (∏ k, if b k then p k else 1 - p k) *
        (if b i = true ∧ ∀ j, j ≠ i → p j * lb j > p i * lb i → b j = false then (1 : ℝ) else 0) =
        ∏ k, (if b k then p k else 1 - p k) * (if k = i then (if b k = true then 1 else 0) else
          if p k * lb k > p i * lb i then (if b k = true then 0 else 1) else 1) := by
      intro b
      rw [Finset.prod_mul_distrib]
      congr 1
      by_cases h : b i = true ∧ ∀ j, j ≠ i → p j * lb j > p i * lb i → b j = false
      · rw [if_pos h]
        symm
        refine Finset.prod_eq_one fun k _ => ?_
        by_cases hk : k = i
        · subst hk; rw [if_pos rfl, if_pos h.1]
        · rw [if_neg hk]
          by_cases hq : p k * lb k > p i * lb i
          · rw [if_pos hq, h.2 k hk hq]; rfl
          · rw [if_neg hq]
      · rw [if_neg h]
        symm
        by_cases hi : b i = true
        · have : ∃ j, j ≠ i ∧ p j * lb j > p i * lb i ∧ b j = true := by
            by_contra hc
            refine h ⟨hi, fun j hj hq => ?_⟩
            by_contra hb
            exact hc ⟨j, hj, hq, by simpa using hb⟩
          obtain ⟨j, hj, hq, hb⟩ := this
          refine Finset.prod_eq_zero (Finset.mem_univ j) ?_
          rw [if_neg hj, if_pos hq, if_pos hb]
        · refine Finset.prod_eq_zero (Finset.mem_univ i) ?_
          rw [if_pos rfl, if_neg hi]
    rw [Finset.sum_congr rfl fun b _ => e1 b]
    have e2 := Finset.prod_univ_sum (fun _ : Fin L => (Finset.univ : Finset Bool)) (fun k x =>
      (if x then p k else 1 - p k) * (if k = i then (if x = true then (1 : ℝ) else 0) else
          if p k * lb k > p i * lb i then (if x = true then 0 else 1) else 1))
    rw [Fintype.piFinset_univ] at e2
    rw [← e2]
    have e3 : ∀ k : Fin L, (∑ x : Bool, (if x then p k else 1 - p k) * (if k = i then (if x = true then (1 : ℝ) else 0) else
          if p k * lb k > p i * lb i then (if x = true then 0 else 1) else 1)) =
        (if k = i then p k else 1) * (if i = k then 1 else if p k * lb k > p i * lb i then 1 - p k else 1) := by
      intro k
      rw [Fintype.sum_bool]
      by_cases hk : k = i
      · subst hk; simp
      · have hk' : i ≠ k := fun h => hk h.symm
        simp only [if_neg hk, if_neg hk']
        by_cases hq : p k * lb k > p i * lb i
        · simp [hq]
        · simp [hq]
    rw [Finset.prod_congr rfl fun k _ => e3 k, Finset.prod_mul_distrib]
    congr 1
    rw [Finset.prod_ite_eq' Finset.univ i]
    simp
  unfold expect
  simp only [Finset.mul_sum]
  rw [Finset.sum_comm]
  refine Finset.sum_congr rfl fun i _ => ?_
  have : ∀ b : Fin L → Bool, (∏ k, if b k then p k else 1 - p k) * (lb i *
      if b i = true ∧ ∀ j, j ≠ i → p j * lb j > p i * lb i → b j = false then 1 else 0) =
      lb i * ((∏ k, if b k then p k else 1 - p k) *
      if b i = true ∧ ∀ j, j ≠ i → p j * lb j > p i * lb i → b j = false then 1 else 0) := fun b => by ring
  rw [Finset.sum_congr rfl fun b _ => this b, ← Finset.mul_sum, hprob]
  ring

open Classical in
theorem expect_cell (L : Nat) (p lb : Fin L → ℝ) (f : (Fin L → Bool) → ℝ) (hf : ∀ b, IsLargestOn lb b (f b))
    (hord : ∀ i j, i ≠ j → p i ≠ 0 → p j ≠ 0 → lb i ≠ lb j ∧ (p i * lb i < p j * lb j ↔ lb i < lb j)) :
    expect p f = ∑ i : Fin L, p i * lb i * ∏ j : Fin L,
      if i = j then 1 else if p j * lb j > p i * lb i then 1 - p j else 1 := by
  -- the value of a configuration as a sum over the dimensions
  have hval : ∀ b : Fin L → Bool, (∏ i, if b i then p i else 1 - p i) * f b =
      (∏ i, if b i then p i else 1 - p i) * ∑ i, lb i *
        if b i = true ∧ ∀ j, j ≠ i → p j * lb j > p i * lb i → b j = false then 1 else 0 := by
    intro b
    by_cases hw : (∏ i, if b i then p i else 1 - p i) = 0
    · rw [hw, zero_mul, zero_mul]
    congr 1
    have hp : ∀ i, b i = true → p i ≠ 0 := by
      intro i hi h0
      exact hw (Finset.prod_eq_zero (Finset.mem_univ i) (by rw [if_pos hi, h0]))
    rcases hf b with ⟨l, h1, h2, h3⟩ | ⟨h1, h2⟩
    · rw [Finset.sum_eq_single l]
      · rw [if_pos, mul_one, h2]
        refine ⟨h1, fun j hj hq => ?_⟩
        by_contra hb
        have hb : b j = true := by simpa using hb
        have := ((hord l j (Ne.symm hj) (hp l h1) (hp j hb)).2).1 hq
        have := h3 j hb
        linarith
      · intro i _ hi
        rw [if_neg, mul_zero]
        rintro ⟨hi1, hi2⟩
        have hne := hord i l hi (hp i hi1) (hp l h1)
        have hle : lb i ≤ lb l := h2 ▸ h3 i hi1
        have := hi2 l (Ne.symm hi) (hne.2.2 (lt_of_le_of_ne hle hne.1))
        rw [h1] at this
        exact absurd this (by decide)
      · exact fun h => absurd (Finset.mem_univ l) h
    · rw [h2]
      symm
      refine Finset.sum_eq_zero fun i _ => ?_
      rw [if_neg, mul_zero]
      rintro ⟨hi, -⟩
      rw [h1 i] at hi
      exact absurd hi (by decide)
  rw [← expect_sum_cell]
  exact Finset.sum_congr rfl fun b _ => hval b

/-- **C75** (`_partial`: if the dimensions that can be on have different lambdas, ordered like the products of
probability and lambda; otherwise it fails, `C75_wrong_order`, `C75_wrong_ties`). A cell of the MAX-AND product of
posterior means is the expected value of the largest lambda among the dimensions that are on, where dimension `l` is on
with probability `Z[n,l] * U[d,l]`, independently. -/
theorem C75_expected_maximum_partial (N D L : Nat) (Z U lb : Arr ℝ) (hZ : Z.shape = [N, L]) (hU : U.shape = [D, L])
    (n d : Nat) (hn : n < N) (hd : d < D) (f : (Fin L → Bool) → ℝ)
    (hf : ∀ b, IsLargestOn (fun l : Fin L => lb [l]) b (f b))
    (hord : ∀ i < L, ∀ j < L, i ≠ j → Z [n, i] * U [d, i] ≠ 0 → Z [n, j] * U [d, j] ≠ 0 → lb [i] ≠ lb [j] ∧
      (Z [n, i] * U [d, i] * lb [i] < Z [n, j] * U [d, j] * lb [j] ↔ lb [i] < lb [j])) :
    (MAX_AND_product_fuzzy Z U lb).shape = [N, D] ∧
    MAX_AND_product_fuzzy Z U lb [n, d] = expect (fun l : Fin L => Z [n, l] * U [d, l]) f := by
  obtain ⟨h1, h2⟩ := MAX_AND_product_fuzzy_get hZ hU lb
  refine ⟨h1, ?_⟩
  rw [h2 n d hn hd, cell_fin, expect_cell L (fun l : Fin L => Z [n, l] * U [d, l]) (fun l : Fin L => lb [l]) f hf]
  intro i j hij hi hj
  exact hord i i.2 j j.2 (fun h => hij (Fin.ext h)) hi hj

/-- two dimensions that are on with probabilities 1/10 and 1, lambdas 9/10 and 1/2 -/
noncomputable def c75Z : Arr ℝ := Arr.mat 2 [[1 / 10, 1]] 0
noncomputable def c75lb : Arr ℝ := Arr.vec [9 / 10, 1 / 2, 0] 0

/-- **C75** is false in general: dimensions are ordered by probability times lambda. Expected maximum 0.54, result 0.5. -/
theorem C75_wrong_order : MAX_AND_product_fuzzy c75Z (Arr.mat 2 [[1, 1]] 0) c75lb [0, 0] = 1 / 2 ∧
    ∀ f : (Fin 2 → Bool) → ℝ, (∀ b, IsLargestOn (fun l : Fin 2 => c75lb [l]) b (f b)) →
      expect (fun l : Fin 2 => c75Z [0, l] * (Arr.mat 2 [[(1 : ℝ), 1]] 0) [0, l]) f = 54 / 100 := by
  constructor
  · rw [(MAX_AND_product_fuzzy_get (N := 1) (D := 1) (L := 2) rfl rfl _).2 0 0 (by omega) (by omega)]
    simp [maxFuzzyCell, Finset.sum_range_succ, Finset.prod_range_succ, c75Z, c75lb, Arr.mat, Arr.vec]
    norm_num
  · intro f hf
    have hv : ∀ b : Fin 2 → Bool, f b = if b 0 then 9 / 10 else if b 1 then 1 / 2 else 0 := by
      intro b
      have h0 : c75lb [((0 : Fin 2) : Nat)] = 9 / 10 := by simp [c75lb, Arr.vec]
      have h1 : c75lb [((1 : Fin 2) : Nat)] = 1 / 2 := by simp [c75lb, Arr.vec]
      rcases hf b with ⟨l, g1, g2, g3⟩ | ⟨g1, g2⟩
      · beta_reduce at g2 g3
        have hl : l = 0 ∨ l = 1 := by omega
        rcases hl with rfl | rfl
        · rw [if_pos g1, ← g2, h0]
        · by_cases hb : b 0 = true
          · have := g3 0 hb
            rw [← g2, h0, h1] at this
            norm_num at this
          · rw [if_neg hb, if_pos g1, ← g2, h1]
      · rw [g1 0, g1 1, g2]; simp
    have hb : (Finset.univ : Finset (Fin 2 → Bool)) = {![false, false], ![false, true], ![true, false], ![true, true]} := by
      decide
    unfold expect
    rw [hb, Finset.sum_insert (by decide), Finset.sum_insert (by decide), Finset.sum_insert (by decide),
      Finset.sum_singleton]
    simp [hv, Fin.prod_univ_two, c75Z, Arr.mat]
    norm_num

/-- **C75** and **C49** are false for equal products: two dimensions that are certainly on with lambda 0.9 give 1.8. -/
theorem C75_wrong_ties : MAX_AND_product_fuzzy (Arr.mat 2 [[1, 1]] 0) (Arr.mat 2 [[1, 1]] 0)
    (Arr.vec [9 / 10, 9 / 10, 0] 0) [0, 0] = 18 / 10 := by
  rw [(MAX_AND_product_fuzzy_get (N := 1) (D := 1) (L := 2) rfl rfl _).2 0 0 (by omega) (by omega)]
  simp [maxFuzzyCell, Finset.sum_range_succ, Finset.prod_range_succ, Arr.mat, Arr.vec]
  norm_num

/-- hypotheses of C75 met: probabilities 1 and 1/2, lambdas 9/10 and 1/2 -/
example : ∀ i < 2, ∀ j < 2, i ≠ j →
    (Arr.mat 2 [[(1 : ℝ), 1 / 2]] 0) [0, i] * (Arr.mat 2 [[(1 : ℝ), 1]] 0) [0, i] ≠ 0 →
    (Arr.mat 2 [[(1 : ℝ), 1 / 2]] 0) [0, j] * (Arr.mat 2 [[(1 : ℝ), 1]] 0) [0, j] ≠ 0 → c75lb [i] ≠ c75lb [j] ∧
      ((Arr.mat 2 [[(1 : ℝ), 1 / 2]] 0) [0, i] * (Arr.mat 2 [[(1 : ℝ), 1]] 0) [0, i] * c75lb [i] <
        (Arr.mat 2 [[(1 : ℝ), 1 / 2]] 0) [0, j] * (Arr.mat 2 [[(1 : ℝ), 1]] 0) [0, j] * c75lb [j] ↔
        c75lb [i] < c75lb [j]) := by
  intro i hi j hj hij _ _
  interval_cases i <;> interval_cases j <;> simp_all [c75lb, Arr.mat, Arr.vec] <;> norm_num

/-- the sum of the weights is at most 1 if the products are different -/
theorem weights_le (q p : Nat → ℝ) (s : Finset Nat) (hp : ∀ i ∈ s, 0 ≤ p i ∧ p i ≤ 1)
    (hq : ∀ i ∈ s, ∀ j ∈ s, i ≠ j → q i ≠ q j) :
    ∑ i ∈ s, p i * ∏ j ∈ s, (if i = j then 1 else if q j > q i then 1 - p j else 1) = 1 - ∏ j ∈ s, (1 - p j) := by
  induction s using Finset.induction_on_min_value q with
  | empty => simp
  | insert a s ha hmin ih =>
    have ih := ih (fun i hi => hp i (Finset.mem_insert_of_mem hi))
      fun i hi j hj => hq i (Finset.mem_insert_of_mem hi) j (Finset.mem_insert_of_mem hj)
    have hlt : ∀ x ∈ s, q a < q x := fun x hx => lt_of_le_of_ne (hmin x hx)
      (hq a (Finset.mem_insert_self _ _) x (Finset.mem_insert_of_mem hx) fun h => ha (h ▸ hx))
    rw [Finset.sum_insert ha, Finset.prod_insert ha, Finset.prod_insert ha]
    have e1 : ∏ j ∈ s, (if a = j then 1 else if q j > q a then 1 - p j else 1) = ∏ j ∈ s, (1 - p j) := by
      refine Finset.prod_congr rfl fun j hj => ?_
      rw [if_neg (fun h => ha (by rw [h]; exact hj)), if_pos (hlt j hj)]
    have e2 : ∑ i ∈ s, p i * ∏ j ∈ insert a s, (if i = j then 1 else if q j > q i then 1 - p j else 1) =
        ∑ i ∈ s, p i * ∏ j ∈ s, (if i = j then 1 else if q j > q i then 1 - p j else 1) := by
      refine Finset.sum_congr rfl fun i hi => ?_
      rw [Finset.prod_insert ha, if_neg (fun h => ha (by rw [← h]; exact hi)),
        if_neg (not_lt.2 (hlt i hi).le), one_mul]
    rw [e1, e2, ih, if_pos rfl]
    ring

/-- **C49**, `factor_mean` of MAX-AND (`_partial`: if no two dimensions that can be on have the same product of
probability and lambda, otherwise `C75_wrong_ties`): values in `[0, 1]`. -/
theorem C49_max_factor_mean_partial (N D L : Nat) (Z U lb : Arr ℝ) (hZ : Z.shape = [N, L]) (hU : U.shape = [D, L])
    (pZ : ProbArr Z) (pU : ProbArr U) (hlb : ∀ l < L, 0 ≤ lb [l] ∧ lb [l] ≤ 1) (n d : Nat) (hn : n < N) (hd : d < D)
    (hq : ∀ i < L, ∀ j < L, i ≠ j → Z [n, i] * U [d, i] ≠ 0 → Z [n, j] * U [d, j] ≠ 0 →
      Z [n, i] * U [d, i] * lb [i] ≠ Z [n, j] * U [d, j] * lb [j]) :
    0 ≤ MAX_AND_product_fuzzy Z U lb [n, d] ∧ MAX_AND_product_fuzzy Z U lb [n, d] ≤ 1 := by
  rw [(MAX_AND_product_fuzzy_get hZ hU lb).2 n d hn hd]
  have hp : ∀ l < L, 0 ≤ Z [n, l] * U [d, l] ∧ Z [n, l] * U [d, l] ≤ 1 := by
    intro l hl
    have h1 := pZ.at2 hZ hn hl
    have h2 := pU.at2 hU hd hl
    exact ⟨mul_nonneg h1.1 h2.1, mul_le_one₀ h1.2 h2.1 h2.2⟩
  unfold maxFuzzyCell
  set p : Nat → ℝ := fun l => Z [n, l] * U [d, l] with hpdef
  set lam : Nat → ℝ := fun l => lb [l] with hlam
  have hprod : ∀ i s, s ⊆ Finset.range L → 0 ≤ ∏ j ∈ s,
      (if i = j then 1 else if p j * lam j > p i * lam i then 1 - p j else 1) := by
    intro i s hs
    refine Finset.prod_nonneg fun j hj => ?_
    have := hp j (Finset.mem_range.1 (hs hj))
    split
    · norm_num
    · split
      · linarith [this.2]
      · norm_num
  refine ⟨Finset.sum_nonneg fun i hi => mul_nonneg (mul_nonneg (hp i (Finset.mem_range.1 hi)).1
    (hlb i (Finset.mem_range.1 hi)).1) (hprod i _ (Finset.Subset.refl _)), ?_⟩
  -- only dimensions that can be on matter
  set s := (Finset.range L).filter fun l => p l ≠ 0 with hs
  have hsub : s ⊆ Finset.range L := Finset.filter_subset _ _
  have hle : ∑ i ∈ Finset.range L, p i * lam i * ∏ j ∈ Finset.range L,
        (if i = j then 1 else if p j * lam j > p i * lam i then 1 - p j else 1) ≤
      ∑ i ∈ s, p i * ∏ j ∈ s, (if i = j then 1 else if p j * lam j > p i * lam i then 1 - p j else 1) := by
    have e : ∑ i ∈ Finset.range L, p i * lam i * ∏ j ∈ Finset.range L,
        (if i = j then 1 else if p j * lam j > p i * lam i then 1 - p j else 1) =
      ∑ i ∈ s, p i * lam i * ∏ j ∈ Finset.range L,
        (if i = j then 1 else if p j * lam j > p i * lam i then 1 - p j else 1) := by
      symm
      refine Finset.sum_subset hsub fun i hi hn => ?_
      have : p i = 0 := by
        by_contra h
        exact hn (Finset.mem_filter.2 ⟨hi, h⟩)
      rw [this, zero_mul, zero_mul]
    rw [e]
    refine Finset.sum_le_sum fun i hi => ?_
    have ep : ∏ j ∈ Finset.range L, (if i = j then 1 else if p j * lam j > p i * lam i then 1 - p j else 1) =
        ∏ j ∈ s, (if i = j then 1 else if p j * lam j > p i * lam i then 1 - p j else 1) := by
      symm
      refine Finset.prod_subset hsub fun j hj hn => ?_
      have : p j = 0 := by
        by_contra h
        exact hn (Finset.mem_filter.2 ⟨hj, h⟩)
      rw [this]
      simp
    rw [ep]
    have h1 := hp i (Finset.mem_range.1 (hsub hi))
    have h2 := hlb i (Finset.mem_range.1 (hsub hi))
    refine mul_le_mul_of_nonneg_right ?_ (hprod i s hsub)
    nlinarith [h1.1, h2.2]
  refine hle.trans ?_
  rw [weights_le (fun l => p l * lam l) p s (fun i hi => hp i (Finset.mem_range.1 (hsub hi)))]
  · have : 0 ≤ ∏ j ∈ s, (1 - p j) := Finset.prod_nonneg fun j hj => by
      linarith [(hp j (Finset.mem_range.1 (hsub hj))).2]
    linarith
  · intro i hi j hj hij
    exact hq i (Finset.mem_range.1 (hsub hi)) j (Finset.mem_range.1 (hsub hj)) hij (Finset.mem_filter.1 hi).2
      (Finset.mem_filter.1 hj).2

/-- a MAX-AND layer with a single cell and two active dimensions with lambda 0.9 -/
noncomputable def maxLayer : OLayer where
  model := "MAX-AND"
  factors := [⟨Arr.mat 2 [[1, 1]] 0, none⟩, ⟨Arr.mat 2 [[1, 1]] 0, none⟩]
  lbda := .vector (Arr.vec [9 / 10, 9 / 10, 0] 0) none
  q := Arr.full [] 0
  childShape := [1, 1]
  prediction := none

/-- **C49** is false for MAX-AND layers and `factor_mean`: an output of 1.8. -/
theorem C49_max_wrong (argsort : Arr ℝ → List Nat) :
    ∃ X, (output argsort "factor_mean" false false true maxLayer).1 = .ok X ∧ X.shape = [1, 1] ∧
      X [0, 0] = .fin (18 / 10) := by
  refine ⟨finArr (MAX_AND_product_fuzzy ((toReal (Arr.mat 2 [[1, 1]] 0)).map fun x => 1 / 2 * (x + 1))
    ((toReal (Arr.mat 2 [[1, 1]] 0)).map fun x => 1 / 2 * (x + 1)) (Arr.vec [9 / 10, 9 / 10, 0] 0)), ?_, ?_, ?_⟩
  · rw [output_max argsort "factor_mean" false true maxLayer rfl]
    · rfl
    · unfold outputMax
      show (if "factor_mean" = "point_estimate" then _ else _) = _
      rw [if_neg (by decide), if_neg (by decide), if_neg (by decide), if_pos rfl]
      rfl
  · exact (MAX_AND_product_fuzzy_get (N := 1) (D := 1) (L := 2) rfl rfl _).1
  · show NpF.fin (MAX_AND_product_fuzzy _ _ _ [0, 0]) = _
    rw [(MAX_AND_product_fuzzy_get (N := 1) (D := 1) (L := 2) rfl rfl _).2 0 0 (by omega) (by omega)]
    simp [maxFuzzyCell, Finset.sum_range_succ, Finset.prod_range_succ, Arr.mat, Arr.vec, toReal, Arr.map]
    norm_num

end LFM
