import Verif.Model.Numeric
import Verif.Spec.Counts
import Verif.Spec.Posterior

/-!
# C67, C69, C70: numerical helpers
-/

namespace LFM

theorem mapM_ok {α β : Type} (f : α → Except Err β) (g : α → β) (xs : List α) (h : ∀ x ∈ xs, f x = .ok (g x)) :
    xs.mapM f = .ok (xs.map g) := by
  induction xs with
  | nil => rfl
  | cons x xs ih =>
    rw [List.mapM_cons, h x (by simp), ih fun y hy => h y (by simp [hy])]
    rfl

theorem mapM_error {α β : Type} (f : α → Except Err β) (g : α → β) (xs : List α) (x : α) (e : Err)
    (h : ∀ y ∈ xs, f y = .ok (g y)) (hx : f x = .error e) : (xs ++ [x]).mapM f = .error e := by
  rw [List.mapM_append, mapM_ok f g xs h]
  simp [bind, Except.bind, hx]

/-! ## C67 -/

theorem binomial_pos {n k : Nat} (hk : k ≤ n) {q : ℝ} (h0 : 0 < q) (h1 : q < 1) : 0 < Spec.binomial n q k := by
  have := Nat.choose_pos hk
  have h : 0 < 1 - q := by linarith
  unfold Spec.binomial
  positivity

theorem choose_ratio {n k : Nat} (hk : k < n) :
    ((n.choose (k + 1) : Nat) : ℝ) * (k + 1) = n.choose k * (n - k) := by
  have := Nat.choose_succ_right_eq n k
  have e : ((n - k : Nat) : ℝ) = n - k := by rw [Nat.cast_sub hk.le]
  rw [← e]
  exact_mod_cast this

theorem binomial_ratio {n k : Nat} (hk : k < n) {q : ℝ} (h0 : 0 < q) (h1 : q < 1) :
    q * (n - k) / ((1 - q) * (k + 1)) = Spec.binomial n q (k + 1) / Spec.binomial n q k := by
  have hp := binomial_pos hk.le h0 h1
  have h : 0 < 1 - q := by linarith
  rw [div_eq_div_iff (by positivity) hp.ne']
  unfold Spec.binomial
  have e : n - k = (n - (k + 1)) + 1 := by omega
  rw [e, pow_succ, pow_succ]
  have := choose_ratio hk
  linear_combination (-q * q ^ k * (1 - q) ^ (n - (k + 1)) * (1 - q)) * this

/-- entry `k` the claim asks of `compute_bp` -/
noncomputable def Spec.bpEntry (q : ℝ) (n k : Nat) : NpF :=
  if k < n then .fin (Real.log (Spec.binomial n q (k + 1) / Spec.binomial n q k)) else .negInf

theorem compute_bp_eq {q : ℝ} (h0 : 0 < q) (h1 : q < 1) (n N : Nat) :
    compute_bp q n N 1 = .ok (if N ≠ n then
      sliceAssign (List.replicate N NpF.negInf) ((n : Int) - 1) ((List.range n).map (Spec.bpEntry q n))
      else (List.range n).map (Spec.bpEntry q n)) := by
  have h : 0 < 1 - q := by linarith
  have e : ((List.range n).mapM fun k : Nat => pyDiv (q * (n - k * 1)) ((1 - q) * ((k : ℝ) * 1 + 1))) =
      .ok ((List.range n).map fun k : Nat => q * ((n : ℝ) - k) / ((1 - q) * (k + 1))) := by
    refine mapM_ok _ _ _ fun k _ => ?_
    have : (1 - q) * ((k : ℝ) + 1) ≠ 0 := by positivity
    simp [pyDiv, this]
  have e2 : ((List.range n).map fun k : Nat => q * ((n : ℝ) - k) / ((1 - q) * (k + 1))).map logOrNegInf =
      (List.range n).map (Spec.bpEntry q n) := by
    rw [List.map_map]
    refine List.map_congr_left fun k hk => ?_
    have hk' : k < n := List.mem_range.mp hk
    have a := binomial_pos hk'.le h0 h1
    have b := binomial_pos (Nat.succ_le_of_lt hk') h0 h1
    simp only [Function.comp_apply, Spec.bpEntry, hk', if_true]
    rw [binomial_ratio hk' h0 h1, logOrNegInf, if_pos (div_pos b a)]
  unfold compute_bp
  rw [e]
  simp only [bind, Except.bind, pure, Except.pure, e2]
  split <;> rfl

/-- **C67 (binomial, no padding).** With `N = n` the result has length `N` and the right entries. -/
theorem C67_bp_exact_partial (q : ℝ) (h0 : 0 < q) (h1 : q < 1) (n : Nat) :
    compute_bp q n n 1 = .ok ((List.range n).map (Spec.bpEntry q n)) := by
  rw [compute_bp_eq h0 h1]; simp

/-- **C67 (binomial, padding).** For `1 ≤ n < N` the entries are right but there is one entry too many. Missing for the
full claim: the length, see `C67_bp_length_wrong`. -/
theorem C67_bp_padded_partial (q : ℝ) (h0 : 0 < q) (h1 : q < 1) (n N : Nat) (hn : 1 ≤ n) (hN : n < N) :
    compute_bp q n N 1 = .ok ((List.range (N + 1)).map (Spec.bpEntry q n)) := by
  rw [compute_bp_eq h0 h1, if_pos (by omega), sliceAssign, if_neg (by omega)]
  congr 1
  refine List.ext_getElem ?_ fun i h1 h2 => ?_
  · simp; omega
  · by_cases hi : i < n
    · rw [List.getElem_append_left (by simpa using hi)]
      simp
    · rw [List.getElem_append_right (by simpa using hi)]
      simp [Spec.bpEntry, hi]

/-- **C67 (binomial) is wrong.** For all `1 ≤ n < N` the length is not `N`; for `n = 0` and `N ≥ 2` neither: it is 1. -/
theorem C67_bp_length_wrong (q : ℝ) (h0 : 0 < q) (h1 : q < 1) (n N : Nat) :
    (1 ≤ n → n < N → ∃ out, compute_bp q n N 1 = .ok out ∧ out.length = N + 1) ∧
    (n = 0 → 2 ≤ N → ∃ out, compute_bp q n N 1 = .ok out ∧ out.length = 1) := by
  refine ⟨fun hn hN => ⟨_, C67_bp_padded_partial q h0 h1 n N hn hN, by simp⟩, fun hn hN => ?_⟩
  subst hn
  refine ⟨_, compute_bp_eq h0 h1 0 N, ?_⟩
  rw [if_pos (by omega), sliceAssign, if_pos (by omega)]
  simp
  omega

/-- **C67 (binomial, error branch).** With success probability 1 and at least one draw: ZeroDivisionError. -/
theorem C67_bp_certain (n N : Nat) (hn : 1 ≤ n) : compute_bp 1 n N 1 = .error .zeroDivision := by
  obtain ⟨m, rfl⟩ : ∃ m, n = m + 1 := ⟨n - 1, by omega⟩
  unfold compute_bp
  rw [List.range_succ_eq_map, List.mapM_cons]
  simp [pyDiv, bind, Except.bind]

theorem betaBinomial_pos {n k : Nat} (hk : k ≤ n) {a b : ℝ} (ha : 0 < a) (hb : 0 < b) :
    0 < Spec.betaBinomial n a b k := by
  have h1 : (0 : ℝ) < n.choose k := by exact_mod_cast Nat.choose_pos hk
  have hk' : (k : ℝ) ≤ n := by exact_mod_cast hk
  exact div_pos (mul_pos h1 (ProbabilityTheory.beta_pos (by positivity) (by linarith)))
    (ProbabilityTheory.beta_pos ha hb)

theorem betaBinomial_ratio {n k : Nat} (hk : k < n) {a b : ℝ} (ha : 0 < a) (hb : 0 < b) :
    ((n : ℝ) - k) * (k + a) / ((k + 1) * (n - k + b - 1)) =
      Spec.betaBinomial n a b (k + 1) / Spec.betaBinomial n a b k := by
  have hp := betaBinomial_pos hk.le ha hb
  have hk' : (k : ℝ) + 1 ≤ n := by exact_mod_cast hk
  have hd : 0 < (n : ℝ) - k + b - 1 := by linarith
  rw [div_eq_div_iff (by positivity) hp.ne']
  have g1 : Real.Gamma ((k : ℝ) + 1 + a) = (k + a) * Real.Gamma (k + a) := by
    have : (k : ℝ) + 1 + a = (k + a) + 1 := by ring
    rw [this, Real.Gamma_add_one (by positivity)]
  have g2 : Real.Gamma ((n : ℝ) - k + b) = (n - k + b - 1) * Real.Gamma (n - k + b - 1) := by
    have : (n : ℝ) - k + b = (n - k + b - 1) + 1 := by ring
    rw [this, Real.Gamma_add_one hd.ne']
    ring_nf
  have g3 : (n : ℝ) - (k + 1) + b = n - k + b - 1 := by ring
  have g4 : (k : ℝ) + 1 + a + (n - k + b - 1) = n + a + b := by ring
  have g5 : (k : ℝ) + a + (n - k + b) = n + a + b := by ring
  unfold Spec.betaBinomial ProbabilityTheory.beta
  push_cast
  rw [g3, g4, g5, g1, g2]
  have := choose_ratio hk
  generalize Real.Gamma a * Real.Gamma b / Real.Gamma (a + b) = B at *
  generalize Real.Gamma ((n : ℝ) + a + b) = G at *
  linear_combination (-(((k : ℝ) + a) * Real.Gamma (k + a) * (Real.Gamma (n - k + b - 1)) / G / B * (n - k + b - 1))) * this

/-- entry `k` the claim asks of `compute_bbp` -/
noncomputable def Spec.bbpEntry (n : Nat) (a b : ℝ) (k : Nat) : NpF :=
  if k < n then .fin (Real.log (Spec.betaBinomial n a b (k + 1) / Spec.betaBinomial n a b k)) else .negInf

/-- **C67 (beta-binomial).** For `b ≠ 1` the result is as claimed, of length `n + 1`. Missing for the full claim:
`b = 1`, see `C67_bbp_wrong`. -/
theorem C67_bbp_partial (n : Nat) (a b : ℝ) (ha : 0 < a) (hb : 0 < b) (hb1 : b ≠ 1) :
    compute_bbp n a b = .ok ((List.range (n + 1)).map (Spec.bbpEntry n a b)) := by
  unfold compute_bbp
  rw [mapM_ok _ (fun k : Nat => ((n : ℝ) - k) * (k + a) / ((k + 1) * (n - k + b - 1)))]
  · simp only [bind, Except.bind, pure, Except.pure, List.map_map]
    congr 1
    refine List.map_congr_left fun k hk => ?_
    have hk' : k < n + 1 := List.mem_range.mp hk
    simp only [Function.comp_apply, Spec.bbpEntry]
    split
    · rename_i hkn
      rw [betaBinomial_ratio hkn ha hb, logOrNegInf, if_pos]
      exact div_pos (betaBinomial_pos hkn ha hb) (betaBinomial_pos hkn.le ha hb)
    · have : k = n := by omega
      subst this
      simp [logOrNegInf]
  · intro k hk
    have hk' : k < n + 1 := List.mem_range.mp hk
    have : ((k : ℝ) + 1) * (n - k + b - 1) ≠ 0 := by
      refine mul_ne_zero (by positivity) ?_
      rcases Nat.lt_or_ge k n with h | h
      · have : (k : ℝ) + 1 ≤ n := by exact_mod_cast h
        have : 0 < (n : ℝ) - k + b - 1 := by linarith
        exact this.ne'
      · have : k = n := by omega
        subst this
        intro h
        exact hb1 (by linarith)
    simp [pyDiv, this]

/-- **C67 (beta-binomial) is wrong.** For `b = 1` (for instance the uniform prior `a = b = 1`) and every `n` the
function raises ZeroDivisionError. -/
theorem C67_bbp_wrong (n : Nat) (a : ℝ) : compute_bbp n a 1 = .error .zeroDivision := by
  unfold compute_bbp
  rw [List.range_succ, mapM_error _ (fun k : Nat => ((n : ℝ) - k) * (k + a) / ((k + 1) * (n - k + 1 - 1))) (List.range n) n
    .zeroDivision]
  · rfl
  · intro k hk
    have hk' : (k : ℝ) < n := by exact_mod_cast List.mem_range.mp hk
    have : ((k : ℝ) + 1) * (n - k + 1 - 1) ≠ 0 := mul_ne_zero (by positivity) (by linarith)
    simp only [pyDiv, this, if_false]
  · simp [pyDiv]

/-- a binomial value that can be checked by hand: one draw with probability 3/4 has odds 3 -/
theorem C67_example : compute_bp (3/4) 1 1 1 = .ok [.fin (Real.log 3)] := by
  rw [C67_bp_exact_partial _ (by norm_num) (by norm_num)]
  simp only [List.range_one, List.map_cons, List.map_nil, Spec.bpEntry, Nat.lt_one_iff, if_true, Spec.binomial]
  norm_num

/-! ## C69 -/

theorem expit_pos (x : ℝ) : 0 < expit x := by unfold expit; positivity

/-- **C69 (expit).** It is the sigmoid, lies strictly between 0 and 1, and `expit(-x) = 1 - expit(x)`. -/
theorem C69_expit (x : ℝ) : expit x = Spec.sigmoid x ∧ 0 < expit x ∧ expit x < 1 ∧ expit (-x) = 1 - expit x := by
  have hx := Real.exp_pos x
  have hx' := Real.exp_pos (-x)
  have e : Real.exp x * Real.exp (-x) = 1 := by rw [← Real.exp_add]; simp
  refine ⟨rfl, expit_pos x, ?_, ?_⟩
  · unfold expit
    rw [div_lt_one (by positivity)]
    linarith
  · unfold expit
    rw [neg_neg]
    field_simp
    linear_combination -e

/-- **C69 (inverse).** `logit(expit(x)) = x` for all `x`, `expit(logit(p)) = p` for `0 < p < 1`. -/
theorem C69_inverse : (∀ x, aux_logit (expit x) = .ok (.fin x)) ∧
    ∀ p, 0 < p → p < 1 → ∃ x, aux_logit p = .ok (.fin x) ∧ expit x = p := by
  constructor
  · intro x
    obtain ⟨-, h0, h1, h2⟩ := C69_expit x
    have hn : 1 - expit x ≠ 0 := by linarith
    have hr : expit x / (1 - expit x) = Real.exp x := by
      rw [← h2]
      unfold expit
      have hx := Real.exp_pos x
      have hx' := Real.exp_pos (-x)
      have e : Real.exp x * Real.exp (-x) = 1 := by rw [← Real.exp_add]; simp
      rw [neg_neg]
      field_simp
      linear_combination -e
    simp [aux_logit, pyDiv, hn, bind, Except.bind, pure, Except.pure, NpF.log, hr, Real.exp_ne_zero,
      not_lt.mpr (Real.exp_pos x).le]
  · intro p h0 h1
    have hn : 1 - p ≠ 0 := by linarith
    have hq : 0 < 1 - p := by linarith
    have hr : 0 < p / (1 - p) := by positivity
    refine ⟨Real.log (p / (1 - p)), ?_, ?_⟩
    · simp only [aux_logit, pyDiv, hn, if_false, bind, Except.bind, pure, Except.pure, NpF.log, hr.ne', not_lt.mpr hr.le]
    · unfold expit
      rw [Real.exp_neg, Real.exp_log hr]
      field_simp
      ring

/-- **C69 (ends of the range).** `logit(0) = -inf`, `logit(1)` raises, outside `[0, 1]` the result is nan. -/
theorem C69_logit_ends : aux_logit 0 = .ok .negInf ∧ aux_logit 1 = .error .zeroDivision ∧
    ∀ p, p < 0 ∨ 1 < p → aux_logit p = .ok .nan := by
  refine ⟨?_, ?_, ?_⟩
  · simp [aux_logit, pyDiv, bind, Except.bind, pure, Except.pure, NpF.log]
  · simp [aux_logit, pyDiv, bind, Except.bind]
  · intro p hp
    have hn : 1 - p ≠ 0 := by rcases hp with h | h <;> linarith
    have hr : p / (1 - p) < 0 := by
      rcases hp with h | h
      · exact div_neg_of_neg_of_pos h (by linarith)
      · exact div_neg_of_pos_of_neg (by linarith) (by linarith)
    simp only [aux_logit, pyDiv, hn, if_false, bind, Except.bind, pure, Except.pure, NpF.log, hr.ne, hr, if_true]

theorem foldl_max_ge (xs : List ℝ) (x : ℝ) : x ≤ xs.foldl max x ∧ ∀ y ∈ xs, y ≤ xs.foldl max x := by
  induction xs generalizing x with
  | nil => simp
  | cons z zs ih =>
    obtain ⟨h1, h2⟩ := ih (max x z)
    simp only [List.foldl_cons, List.mem_cons, forall_eq_or_imp]
    exact ⟨(le_max_left _ _).trans h1, (le_max_right _ _).trans h1, h2⟩

/-- **C69 (logsumexp).** For every non-empty list the result is the logarithm of the sum of the exponentials, and no
positive number is exponentiated. An empty list raises ValueError. -/
theorem C69_logsumexp (a : List ℝ) :
    (a ≠ [] → ∃ args, logsumexp a = .ok (args, .fin (Real.log (a.map Real.exp).sum)) ∧ ∀ x ∈ args, x ≤ 0) ∧
    (a = [] → logsumexp a = .error .valueError) := by
  constructor
  · intro ha
    obtain ⟨y, ys, rfl⟩ := List.exists_cons_of_ne_nil ha
    obtain ⟨m, hm⟩ : ∃ m, m = ys.foldl max y := ⟨_, rfl⟩
    have hge : ∀ x ∈ y :: ys, x ≤ m := by
      obtain ⟨h1, h2⟩ := foldl_max_ge ys y
      intro x hx
      rcases List.mem_cons.mp hx with rfl | hx
      · rw [hm]; exact h1
      · rw [hm]; exact h2 x hx
    have hpos : ∀ l : List ℝ, l ≠ [] → 0 < (l.map Real.exp).sum := by
      intro l hl
      refine List.sum_pos _ (by simp; intros; exact Real.exp_pos _) (by simpa using hl)
    have hsum : ∀ l : List ℝ, ((l.map fun x => x - m).map Real.exp).sum = (l.map Real.exp).sum * Real.exp (-m) := by
      intro l
      induction l with
      | nil => simp
      | cons z zs ih =>
        simp only [List.map_cons, List.sum_cons, ih]
        rw [sub_eq_add_neg, Real.exp_add]
        ring
    have h1 := hpos (y :: ys) (by simp)
    have h2 := hpos ((y :: ys).map fun x => x - m) (by simp)
    refine ⟨(y :: ys).map fun x => x - m, ?_, ?_⟩
    · have hl : Real.log ((((y :: ys).map fun x => x - m).map Real.exp).sum) =
          Real.log ((y :: ys).map Real.exp).sum - m := by
        rw [hsum, Real.log_mul h1.ne' (Real.exp_ne_zero _), Real.log_exp]
        ring
      simp only [logsumexp, npMax, bind, Except.bind, pure, Except.pure, ← hm, NpF.log, h2.ne', not_lt.mpr h2.le,
        if_false, NpF.sub, hl]
      congr 3
      ring
    · intro x hx
      obtain ⟨z, hz, rfl⟩ := List.mem_map.mp hx
      linarith [hge z hz]
  · rintro rfl
    rfl

/-! ## C70 -/

theorem npSum_fin (xs : List ℝ) : npSum (xs.map .fin) = .fin xs.sum := by
  have h : ∀ (xs : List ℝ) (a : ℝ), (xs.map NpF.fin).foldl NpF.add (.fin a) = .fin (a + xs.sum) := by
    intro xs
    induction xs with
    | nil => simp
    | cons x xs ih =>
      intro a
      rw [List.map_cons, List.foldl_cons, NpF.add, ih, List.sum_cons, add_assoc]
  simpa [npSum] using h xs 0

theorem npMean_fin {xs : List ℝ} (h : xs ≠ []) : npMean (xs.map .fin) = .fin (Spec.average xs) := by
  have : (xs.length : ℝ) ≠ 0 := by simpa using h
  simp [npMean, npSum_fin, npDiv, this, Spec.average]

/-- **C70.** For traces of at least two numbers the result is True exactly if the sigmoids of the averages of the
first `⌊n/2⌋` values and of the others differ by less than `eps`. -/
theorem C70_compares_halves (trace : List ℝ) (eps : ℝ) (h : 2 ≤ trace.length) :
    check_convergence_single_trace (trace.map .fin) eps = true ↔
      |Spec.sigmoid (Spec.average (trace.take (trace.length / 2))) -
        Spec.sigmoid (Spec.average (trace.drop (trace.length / 2)))| < eps := by
  have h1 : trace.take (trace.length / 2) ≠ [] := by
    intro e
    have := congrArg List.length e
    simp only [List.length_take, List.length_nil] at this
    omega
  have h2 : trace.drop (trace.length / 2) ≠ [] := by
    intro e
    have := congrArg List.length e
    simp only [List.length_drop, List.length_nil] at this
    omega
  simp only [check_convergence_single_trace, List.length_map, ← List.map_take, ← List.map_drop, npMean_fin h1,
    npMean_fin h2, NpF.expit, absDiffLt, decide_eq_true_eq]
  exact Iff.rfl

theorem average_replicate (n : Nat) (hn : n ≠ 0) (x : ℝ) : Spec.average (List.replicate n x) = x := by
  have : (n : ℝ) ≠ 0 := by exact_mod_cast hn
  simp [Spec.average]
  field_simp

/-- **C70 (constant traces).** They converge for every positive `eps`. -/
theorem C70_constant (n : Nat) (hn : 2 ≤ n) (x eps : ℝ) (he : 0 < eps) :
    check_convergence_single_trace ((List.replicate n x).map .fin) eps = true := by
  rw [C70_compares_halves _ _ (by simpa using hn)]
  simp only [List.length_replicate, List.take_replicate, List.drop_replicate]
  rw [average_replicate _ (by omega), average_replicate _ (by omega)]
  simpa using he

theorem absDiffLt_pos {x y : NpF} {eps : ℝ} (h : absDiffLt x y eps = true) : 0 < eps := by
  match x, y, h with
  | .fin x, .fin y, h =>
    simp only [absDiffLt, decide_eq_true_eq] at h
    exact lt_of_le_of_lt (abs_nonneg _) h

/-- **C70 (never).** No trace whatsoever, infinite or nan entries included, converges for `eps ≤ 0`, and none that is
shorter than 2. -/
theorem C70_never (trace : List NpF) (eps : ℝ) (h : eps ≤ 0 ∨ trace.length < 2) :
    check_convergence_single_trace trace eps = false := by
  rw [Bool.eq_false_iff]
  intro hc
  rcases h with h | h
  · exact absurd (absDiffLt_pos hc) (not_lt.mpr h)
  · have h0 : trace.length / 2 = 0 := by omega
    simp [check_convergence_single_trace, h0, npMean, npSum, npDiv, NpF.expit, absDiffLt] at hc

/-- a trace that has not converged: `sigmoid 0 = 1/2`, `sigmoid 2 > 3/4` -/
theorem C70_detects : check_convergence_single_trace ([0, 0, 2, 2].map .fin) 0.01 = false := by
  rw [Bool.eq_false_iff]
  intro hc
  rw [C70_compares_halves _ _ (by simp)] at hc
  norm_num [Spec.average, Spec.sigmoid] at hc
  have he : Real.exp (-2) < 1 / 3 := by
    rw [Real.exp_neg]
    have := Real.add_one_lt_exp (x := 2) (by norm_num)
    have h3 : (3 : ℝ) < Real.exp 2 := by linarith
    rw [inv_eq_one_div]
    exact one_div_lt_one_div_of_lt (by norm_num) h3
  have hp := Real.exp_pos (-2 : ℝ)
  have h4 : 3 / 4 < 1 / (1 + Real.exp (-2)) := by
    rw [lt_div_iff₀ (by positivity)]
    linarith
  rw [abs_lt] at hc
  rw [← one_div] at hc
  linarith [hc.1]

end LFM
