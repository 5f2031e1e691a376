import Verif.Props.IBPRow
import Verif.Props.Posterior
import Verif.Lemmas.RelabelData

/-!
# C100, C73, C101: the distributions from which `sample_2d_IBP` draws, for any row of any state
-/

namespace LFM

open Spec MeasureTheory

/-! ## One row, step by step -/

theorem keptCols_eq {N L : Nat} {Z : Arr Int} (hZ : Z.shape = [N, L]) (n : Nat) :
    keptCols Z n L = sharedFeatures N L (fun i l => Z [i, l]) n := by
  have h0 : Z.dim 0 = N := by simp [Arr.dim, hZ]
  unfold keptCols sharedFeatures
  refine List.filter_congr fun l _ => ?_
  rw [decide_eq_decide]
  unfold ibp_m
  rw [List.countP_pos_iff, h0]
  simp only [List.mem_range, decide_eq_true_eq]

theorem ibp_m_eq {N L : Nat} {Z : Arr Int} (hZ : Z.shape = [N, L]) (n l : Nat) :
    ibp_m Z n l = usedByOthers N (fun i l => Z [i, l]) n l := by
  have h0 : Z.dim 0 = N := by simp [Arr.dim, hZ]
  unfold ibp_m usedByOthers
  rw [h0]

/-- the entry of column `l` is drawn when the columns before have been drawn -/
theorem existing_entry (Z U X : Arr Int) (lbda : ℝ) (n N L : Nat) (rnd : Nat → ℝ) (l : Nat) (hl : l < L)
    (hm : 0 < ibp_m Z n l) :
    ∃ Z' : Arr Int, Z'.shape = Z.shape ∧ (∀ idx, IsPM (Z idx) → IsPM (Z' idx)) ∧
      (∀ l', Z' [n, l'] = if l' < l then (ibp_existing Z U X lbda n N L rnd).1 [n, l'] else Z [n, l']) ∧
      (∀ i l', i ≠ n → Z' [i, l'] = Z [i, l']) ∧
      (∀ rnd', (∀ l' < l, rnd' l' = rnd l') → ∀ l' < l,
        (ibp_existing Z U X lbda n N L rnd').1 [n, l'] = (ibp_existing Z U X lbda n N L rnd).1 [n, l']) ∧
      ∀ rnd', (∀ l' < l, rnd' l' = rnd l') → (ibp_existing Z U X lbda n N L rnd').1 [n, l] =
        flip_gibbs_numba (expit (lbda * posterior_score_OR_AND_2D (Z'.row n) U (X.row n) l + logit ((ibp_m Z n l : ℝ) / N)))
          (rnd' l) := by
  obtain ⟨m, hmm⟩ : ∃ m, ibp_m Z n = m := ⟨_, rfl⟩
  simp only [ibp_existing_eq, hmm] at hm ⊢
  have hsplit : List.range L = List.range l ++ (l :: (List.range (L - l - 1)).map (l + 1 + ·)) := by
    have : L = l + (1 + (L - l - 1)) := by omega
    conv_lhs => rw [this, List.range_add, List.range_add]
    simp [List.range_succ, Nat.add_assoc]
  -- before column l
  have hpre : ∀ rnd', (∀ l' < l, rnd' l' = rnd l') →
      (List.range l).foldl (existingStep m U X lbda n N rnd') (Z, Arr.full [L] true) =
      (List.range l).foldl (existingStep m U X lbda n N rnd) (Z, Arr.full [L] true) := by
    intro rnd' h
    refine List.foldl_ext _ _ _ fun s l' hl' => ?_
    unfold existingStep
    rw [h l' (List.mem_range.1 hl')]
  obtain ⟨st, hst⟩ : ∃ st, st = (List.range l).foldl (existingStep m U X lbda n N rnd) (Z, Arr.full [L] true) := ⟨_, rfl⟩
  obtain ⟨g1, g2, g3, -⟩ := foldl_existing m U X lbda n N rnd (List.range l) Z (Arr.full [L] true)
  rw [← hst] at g1 g2 g3
  -- afterwards
  have hpost : ∀ rnd', (∀ l' < l, rnd' l' = rnd l') → ∀ l' ≤ l,
      ((List.range L).foldl (existingStep m U X lbda n N rnd') (Z, Arr.full [L] true)).1 [n, l'] =
      (existingStep m U X lbda n N rnd' st l).1 [n, l'] := by
    intro rnd' h l' hl'
    rw [hsplit, List.foldl_append, hpre rnd' h, ← hst, List.foldl_cons]
    obtain ⟨-, k2, -⟩ := foldl_existing m U X lbda n N rnd' ((List.range (L - l - 1)).map (l + 1 + ·))
      (existingStep m U X lbda n N rnd' st l).1 (existingStep m U X lbda n N rnd' st l).2
    refine k2 [n, l'] ?_
    intro a ha _ he
    simp only [List.mem_map, List.mem_range] at ha
    obtain ⟨b, -, rfl⟩ := ha
    simp only [List.cons.injEq, and_true, true_and] at he
    omega
  have hstep : ∀ rnd', existingStep m U X lbda n N rnd' st l = (st.1.set [n, l] (flip_gibbs_numba (expit (lbda *
      posterior_score_OR_AND_2D (st.1.row n) U (X.row n) l + logit ((m l : ℝ) / N))) (rnd' l)), st.2) := by
    intro rnd'
    rw [existingStep, if_pos hm]
  refine ⟨st.1, g1, g3, fun l' => ?_, fun i l' hi => ?_, fun rnd' h l' hl' => ?_, fun rnd' h => ?_⟩
  · split
    · rename_i hl'
      rw [hpost rnd (fun _ _ => rfl) l' hl'.le, hstep]
      simp [Arr.set, hl'.ne]
    · rename_i hl'
      refine g2 _ fun a ha _ he => ?_
      simp only [List.cons.injEq, and_true, true_and] at he
      have := List.mem_range.1 ha
      omega
  · refine g2 _ fun a ha _ he => ?_
    simp only [List.cons.injEq, and_true] at he
    exact hi he.1
  · rw [hpost rnd' h l' hl'.le, hpost rnd (fun _ _ => rfl) l' hl'.le, hstep, hstep]
    simp [Arr.set, hl'.ne]
  · rw [hpost rnd' h l le_rfl, hstep]
    simp [Arr.set]

/-- the parts of `ibp_row` -/
theorem ibp_row_parts {N D L : Nat} {Z U : Arr Int} (hZ : Z.shape = [N, L]) (hU : U.shape = [D, L]) (pZ : PMArr Z)
    (pU : PMArr U) (X : Arr Int) (lbda q alpha : ℝ) (rnd : IBPDraws) (n : Nat) :
    ∃ Z1 U1 : Arr Int, Z1.shape = [N, (keptCols Z n L).length] ∧ U1.shape = [D, (keptCols Z n L).length] ∧
      PMArr Z1 ∧ PMArr U1 ∧
      (∀ i j, Z1 [i, j] = (ibp_existing Z U X lbda n N L (rnd.z n)).1 [i, (keptCols Z n L).getD j 0]) ∧
      (∀ d j, U1 [d, j] = U [d, (keptCols Z n L).getD j 0]) ∧
      ∀ rnd' : IBPDraws, rnd'.z n = rnd.z n →
      let k := np_choice (ibp_p_L_new lbda q alpha N (keptCols Z n L).length (ibp_negatives Z1 U1 X n).1
        (ibp_negatives Z1 U1 X n).2) (rnd'.new n)
      ibp_row X lbda q alpha N D rnd' n (Z, U, L) =
        ((ibp_add Z1 U1 X lbda n D (keptCols Z n L).length k (rnd'.u n)).1,
         (ibp_add Z1 U1 X lbda n D (keptCols Z n L).length k (rnd'.u n)).2, (keptCols Z n L).length + k) := by
  obtain ⟨e1, e2, e3, e4⟩ := existing_spec (N := N) (L := L) Z U X lbda n (rnd.z n)
  generalize hr : ibp_existing Z U X lbda n N L (rnd.z n) = r at e1 e2 e3 e4
  have pr : PMArr r.1 := by
    intro idx hidx
    rw [e1] at hidx
    exact e3 idx (pZ idx hidx)
  obtain ⟨f1, f2⟩ := maskCols_pm (mask := r.2) (e1.trans hZ) pr
  obtain ⟨g1, g2⟩ := maskCols_pm (mask := r.2) hU pU
  rw [e4] at f1 g1
  have hcount : (List.range L).countP (fun l => r.2 [l]) = (keptCols Z n L).length := by
    rw [List.countP_eq_length_filter, e4]
  have hd : r.1.dim 1 = L := by simp [Arr.dim, e1, hZ]
  have hd' : U.dim 1 = L := by simp [Arr.dim, hU]
  refine ⟨r.1.maskCols r.2, U.maskCols r.2, f1, g1, f2, g2, fun i j => ?_, fun d j => ?_, fun rnd' h => ?_⟩
  · simp only [Arr.maskCols, hd, e4, List.getD_cons_zero, List.getD_cons_succ]
  · simp only [Arr.maskCols, hd', e4, List.getD_cons_zero, List.getD_cons_succ]
  · simp only [ibp_row, h, hr, hcount]

/-! ## C100 -/

/-- odds of likelihoods and prior -/
theorem sigmoid_odds {a b p x : ℝ} (ha : 0 < a) (hb : 0 < b) (p0 : 0 < p) (p1 : p < 1) (hx : x = Real.log a - Real.log b) :
    sigmoid (x + logit p) = p * a / (p * a + (1 - p) * b) := by
  have h1 : 0 < 1 - p := by linarith
  have e : Real.exp (-(x + logit p)) = (1 - p) * b / (p * a) := by
    rw [hx, logit, show -(Real.log a - Real.log b + Real.log (p / (1 - p))) =
      Real.log b - Real.log a - Real.log (p / (1 - p)) by ring, Real.exp_sub, Real.exp_sub, Real.exp_log ha, Real.exp_log hb,
      Real.exp_log (by positivity)]
    field_simp
  rw [sigmoid, e]
  have : 0 < p * a := by positivity
  field_simp

/-- **C100**. In `sample_2d_IBP`, let `(Z, U)` be the state before row `n` is updated, and let feature `l` be the `j`-th of
those that other rows use. Given the numbers drawn for the features before it, the entry of row `n` is set to 1 with
the probability that row `n` uses the feature given the data and all other entries at that time: those of features
before `l` are as in the result, all others as before. (Up to 32767 columns, because of the int16 score, see
`C14_int16_overflow`.) -/
theorem C100_shared_features (N D L : Nat) (Z U X : Arr Int) (hZ : Z.shape = [N, L]) (hU : U.shape = [D, L])
    (hX : X.shape = [N, D]) (pZ : PMArr Z) (pU : PMArr U) (pX : DataArr X) (hD : D ≤ 32767) (lbda q alpha : ℝ) (rnd : IBPDraws)
    (n : Nat) (hn : n < N) (j : Nat) (hj : j < (sharedFeatures N L (fun i l => Z [i, l]) n).length) :
    let ls := sharedFeatures N L (fun i l => Z [i, l]) n
    let l := ls.getD j 0
    let after := fun r : ℝ => (ibp_row X lbda q alpha N D { rnd with z := Function.update rnd.z n (Function.update (rnd.z n) l r) }
      n (Z, U, L)).1
    let F : Factor := fun i l' => if i = n ∧ l' ∈ ls.take j then after 0 [n, ls.idxOf l'] else Z [i, l']
    (∀ r, ∀ j' < j, after r [n, j'] = after 0 [n, j']) ∧
    volume {r : ℝ | r ∈ Set.Ico (0 : ℝ) 1 ∧ after r [n, j] = 1} =
      ENNReal.ofReal (buffetConditional N D L lbda (fun n d => X [n, d]) F (fun d l => U [d, l]) n l) ∧
    volume {r : ℝ | r ∈ Set.Ico (0 : ℝ) 1 ∧ after r [n, j] = -1} =
      ENNReal.ofReal (1 - buffetConditional N D L lbda (fun n d => X [n, d]) F (fun d l => U [d, l]) n l) := by
  intro ls l after F
  have hk : keptCols Z n L = ls := keptCols_eq hZ n
  have hl : ls[j] = l := (getD_of_lt ls 0 hj).symm
  have hmem : l ∈ keptCols Z n L := by rw [hk, ← hl]; exact List.getElem_mem hj
  have hmem' := hmem
  simp only [keptCols, List.mem_filter, List.mem_range, decide_eq_true_eq] at hmem'
  obtain ⟨hlL, hm⟩ := hmem'
  obtain ⟨rz, hrz⟩ : ∃ rz : ℝ → Nat → ℝ, rz = fun r => Function.update (rnd.z n) l r := ⟨_, rfl⟩
  obtain ⟨ex, hex⟩ : ∃ ex : ℝ → Arr Int, ex = fun r => (ibp_existing Z U X lbda n N L (rz r)).1 := ⟨_, rfl⟩
  have hnd : ls.Nodup := by rw [← hk]; exact List.nodup_range.filter _
  have hsorted : ls.Pairwise (· < ·) := by rw [← hk]; exact List.pairwise_lt_range.filter _
  have hafter : ∀ r, ∀ j' < ls.length, after r [n, j'] = ex r [n, ls.getD j' 0] := by
    intro r j' hj'
    obtain ⟨Z1, U1, s1, s2, p1, p2, v1, -, h⟩ := ibp_row_parts hZ hU pZ pU X lbda q alpha
      { rnd with z := Function.update rnd.z n (rz r) } n
    have h := h _ rfl
    show (ibp_row X lbda q alpha N D { rnd with z := Function.update rnd.z n (Function.update (rnd.z n) l r) } n (Z, U, L)).1 _ = _
    rw [show Function.update (rnd.z n) l r = rz r by rw [hrz], h]
    have this := fun k => (ibp_add_spec Z1 U1 X lbda n k (rnd.u n) s1 s2 p1 p2).2.2.2.2.1
    rw [this _ n j' (by rw [hk]; exact hj'), v1, hk, hex]
    simp
  obtain ⟨Z', q1, q2, q3, q4, q5, q6⟩ := existing_entry Z U X lbda n N L (rz 0) l hlL hm
  have hagree : ∀ r, ∀ l' < l, rz r l' = rz 0 l' := by
    intro r l' hl'
    simp [hrz, hl'.ne]
  have hlt : ∀ j' < j, ls.getD j' 0 < l := by
    intro j' hj'
    rw [getD_of_lt ls 0 (hj'.trans hj), ← hl]
    exact List.pairwise_iff_getElem.1 hsorted _ _ _ _ hj'
  have pZ' : PMArr Z' := fun idx hidx => q2 idx (pZ idx (by rw [q1] at hidx; exact hidx))
  -- the factor at the time of the draw
  have hF : ∀ i l', i < N → l' < L → F i l' = Z' [i, l'] := by
    intro i l' hi hl'
    show (if i = n ∧ l' ∈ ls.take j then _ else _) = _
    by_cases hin : i = n
    · subst hin
      rw [q3 l']
      by_cases hmem : l' ∈ ls.take j
      · rw [if_pos ⟨rfl, hmem⟩]
        obtain ⟨j', hj', e⟩ := List.mem_take_iff_getElem.1 hmem
        have hj1 : j' < j := by omega
        have hj2 : j' < ls.length := by omega
        have hid : ls.idxOf l' = j' := by rw [← e]; exact hnd.idxOf_getElem j' hj2
        have hlt' := hlt j' hj1
        rw [getD_of_lt ls 0 hj2, e] at hlt'
        rw [if_pos hlt', hid, hafter 0 j' hj2, getD_of_lt ls 0 hj2, e, hex]
      · rw [if_neg (by tauto)]
        split
        · rename_i hlt'
          -- a column that no other row uses is not drawn
          have hno : l' ∉ keptCols Z i L := by
            rw [hk]
            intro h
            obtain ⟨j', hj', e⟩ := List.mem_iff_getElem.1 h
            refine hmem (List.mem_take_iff_getElem.2 ⟨j', ?_, e⟩)
            have : j' < j := by
              by_contra hcon
              rcases Nat.lt_or_ge j j' with h | h
              · have := List.pairwise_iff_getElem.1 hsorted j j' hj hj' h
                omega
              · have : j' = j := by omega
                subst this
                omega
            omega
          have h2 := (foldl_existing (ibp_m Z i) U X lbda i N (rz 0) (List.range L) Z (Arr.full [L] true)).2.1
          rw [ibp_existing_eq]
          refine (h2 [i, l'] ?_).symm
          intro a ha hpos he
          simp only [List.cons.injEq, and_true, true_and] at he
          subst he
          exact hno (by simp [keptCols, List.mem_range.1 ha, hpos])
        · rfl
    · rw [if_neg (by tauto), q4 i l' hin]
  have hlik : ∀ v : Int, lik2 .OR_AND N D L lbda (fun n d => X [n, d]) (F.set n l v) (fun d l => U [d, l]) =
      lik2 .OR_AND N D L lbda (fun n d => X [n, d]) (Factor.set (fun i l => Z' [i, l]) n l v) (fun d l => U [d, l]) := by
    intro v
    unfold lik2
    refine Finset.prod_congr rfl fun i _ => Finset.prod_congr rfl fun d _ => ?_
    congr 1
    refine pred2_rows _ _ (fun l' hl' => ?_) (fun _ _ => rfl)
    simp only [Factor.set]
    split
    · rfl
    · exact hF i l' i.2 hl'
  have huse : usedByOthers N F n l = ibp_m Z n l := by
    rw [ibp_m_eq hZ]
    unfold usedByOthers
    refine List.countP_congr fun i hi => ?_
    simp only [decide_eq_true_eq]
    constructor
    · rintro ⟨h1, h2⟩
      refine ⟨h1, ?_⟩
      rw [← h2]
      show _ = (if i = n ∧ _ then _ else _)
      rw [if_neg (by tauto)]
    · rintro ⟨h1, h2⟩
      refine ⟨h1, ?_⟩
      show (if i = n ∧ _ then _ else _) = _
      rw [if_neg (by tauto)]
      exact h2
  have hmN : ibp_m Z n l < N := by
    have hd : Z.dim 0 = N := by simp [Arr.dim, hZ]
    unfold ibp_m
    rw [hd]
    have : (List.range N).countP (fun n' => decide (n' ≠ n ∧ Z [n', l] = 1)) < (List.range N).length := by
      rw [List.countP_lt_length_iff]
      exact ⟨n, by simpa using hn, by simp⟩
    simpa using this
  have hN : (0 : ℝ) < N := by exact_mod_cast (by omega : 0 < N)
  have hp0 : (0 : ℝ) < (ibp_m Z n l : ℝ) / N := by
    have : (0 : ℝ) < ibp_m Z n l := by exact_mod_cast hm
    positivity
  have hp1 : (ibp_m Z n l : ℝ) / N < 1 := by
    rw [div_lt_one hN]; exact_mod_cast hmN
  -- the number the code computes
  obtain ⟨f, hf, hodds⟩ := C16_log_odds_2d_partial .OR_AND
  have hf' : f = posterior_score_OR_AND_2D := by
    have : get_posterior_score_fct (pyDashToUnderscore (Lom8.OR_AND.name ++ "-2D")) = .ok (.two posterior_score_OR_AND_2D) := rfl
    rw [this] at hf
    cases hf
    rfl
  subst hf'
  have hodds := hodds N D L Z' U X lbda (1 / 2) n l hn hlL (q1.trans hZ) hU hX pZ' pU pX hD (by norm_num) (by norm_num)
  have hflat : ∀ F G : Factor, Real.log (priorProb (1 / 2) N L F) = Real.log (priorProb (1 / 2) N L G) := by
    intro F G
    unfold priorProb
    norm_num
  simp only at hodds
  rw [Real.log_mul (lik2_pos _ _ _ _ _ _ _ _).ne' (priorProb_pos (by norm_num) (by norm_num) _ _ _).ne',
    Real.log_mul (lik2_pos _ _ _ _ _ _ _ _).ne' (priorProb_pos (by norm_num) (by norm_num) _ _ _).ne',
    hflat _ (Factor.set (fun n l => Z' [n, l]) n l (-1)), show logit (1 / 2) = 0 by norm_num [logit], ← hlik 1, ← hlik (-1)] at hodds
  have hprob : expit (lbda * posterior_score_OR_AND_2D (Z'.row n) U (X.row n) l + logit ((ibp_m Z n l : ℝ) / N)) =
      buffetConditional N D L lbda (fun n d => X [n, d]) F (fun d l => U [d, l]) n l := by
    rw [expit_eq, sigmoid_odds (lik2_pos .OR_AND N D L lbda (fun n d => X [n, d]) (F.set n l 1) fun d l => U [d, l])
      (lik2_pos .OR_AND N D L lbda (fun n d => X [n, d]) (F.set n l (-1)) fun d l => U [d, l]) hp0 hp1 (by linarith)]
    simp only [buffetConditional, huse]
  have hval : ∀ r, after r [n, j] = flip_gibbs_numba
      (buffetConditional N D L lbda (fun n d => X [n, d]) F (fun d l => U [d, l]) n l) r := by
    intro r
    rw [hafter r j hj, getD_of_lt ls 0 hj, hl, hex]
    simp only
    rw [q6 (rz r) (hagree r), hprob]
    simp [hrz]
  have hb : 0 ≤ buffetConditional N D L lbda (fun n d => X [n, d]) F (fun d l => U [d, l]) n l ∧
      buffetConditional N D L lbda (fun n d => X [n, d]) F (fun d l => U [d, l]) n l ≤ 1 := by
    rw [← hprob, expit_eq]
    exact ⟨(sigmoid_pos _).le, (sigmoid_lt_one _).le⟩
  refine ⟨fun r j' hj' => ?_, ?_⟩
  · rw [hafter r j' (hj'.trans hj), hafter 0 j' (hj'.trans hj), hex]
    exact q5 (rz r) (hagree r) _ (hlt j' hj')
  · simp only [hval]
    exact C18_gibbs_flip _ hb.1 hb.2

/-- C100 for a concrete state: three rows, two features, of which row 1 draws the first only (no other row uses the second) -/
example (rnd : IBPDraws) (lbda q alpha : ℝ) : ∃ p : ℝ, volume {r : ℝ | r ∈ Set.Ico (0 : ℝ) 1 ∧
    (ibp_row (Arr.mat 2 [[1, 0], [1, -1], [0, 1]] 1) lbda q alpha 3 2
      { rnd with z := Function.update rnd.z 1 (Function.update (rnd.z 1) 0 r) } 1
      (Arr.mat 2 [[1, -1], [1, 1], [-1, -1]] 1, Arr.full [2, 2] 1, 2)).1 [1, 0] = 1} = ENNReal.ofReal p := by
  have h := C100_shared_features 3 2 2 (Arr.mat 2 [[1, -1], [1, 1], [-1, -1]] 1) (Arr.full [2, 2] 1)
    (Arr.mat 2 [[1, 0], [1, -1], [0, 1]] 1) rfl rfl rfl
    (by
      rintro idx -
      simp only [Arr.mat]
      generalize idx.getD 0 0 = i
      generalize idx.getD 1 0 = j
      rcases i with _ | _ | _ | i <;> rcases j with _ | _ | j <;> simp [IsPM])
    (fun _ _ => Or.inl rfl)
    (by
      rintro idx -
      simp only [Arr.mat]
      generalize idx.getD 0 0 = i
      generalize idx.getD 1 0 = j
      rcases i with _ | _ | _ | i <;> rcases j with _ | _ | j <;> simp [IsData])
    (by norm_num) lbda q alpha rnd 1 (by norm_num) 0 (by decide)
  exact ⟨_, h.2.1⟩

/-! ## C73 -/

theorem single_n_spec (z U : Arr Int) (d : Nat) (hd : d < U.dim 0) : OR_AND_single_n z U [d] = OR_AND_product z (U.row d) := by
  unfold OR_AND_single_n
  simp only [Id.run_bind, Id.run_pure]
  rw [run_forIn_yield _ _ _ (fun s d => s.set [d] (OR_AND_product z (U.row d))) (by intros; rfl)]
  have := fill1 (U.dim 0) (fun d => OR_AND_product z (U.row d)) (Arr.full [U.dim 0] 0)
  simp [this, hd]

theorem negatives_spec {N D L : Nat} {Z U : Arr Int} (hZ : Z.shape = [N, L]) (hU : U.shape = [D, L]) (X : Arr Int) (n : Nat) :
    ibp_negatives Z U X n =
      (unexplained D (fun n d => X [n, d]) (fun i l => Z [i, l]) (fun d l => U [d, l]) (List.range L) n (-1),
       unexplained D (fun n d => X [n, d]) (fun i l => Z [i, l]) (fun d l => U [d, l]) (List.range L) n 1) := by
  have hD : U.dim 0 = D := by simp [Arr.dim, hU]
  have hrow : (Z.row n).dim 0 = L := by simp [Arr.row, Arr.dim, hZ]
  have key : ∀ d < D, (OR_AND_single_n (Z.row n) U [d] = -1 ↔ ∀ l ∈ List.range L, ¬(Z [n, l] = 1 ∧ U [d, l] = 1)) := by
    intro d hd
    rw [single_n_spec _ _ d (by omega), OR_AND_product_eq, hrow]
    split
    · rename_i h
      constructor
      · intro h; cases h
      · intro h'
        obtain ⟨l, hl, h⟩ := h
        exact absurd h (h' l (List.mem_range.2 hl))
    · rename_i h
      refine ⟨fun _ l hl hc => h ⟨l, List.mem_range.1 hl, hc⟩, fun _ => rfl⟩
  unfold ibp_negatives unexplained
  rw [hD]
  simp only [Prod.mk.injEq]
  constructor <;> refine List.countP_congr fun d hd => ?_ <;>
    simp only [decide_eq_true_eq, key d (List.mem_range.1 hd)]

/-- **C73** for any row of any state `(Z, U)` with `L` columns: after the features that other rows use have been drawn
(the first columns of the result, whatever the number of new columns), the number of new columns is 0, 1 or 2, with
probabilities proportional to the likelihood of the row if that many features are added, each of them on with
probability `1 - bernoulli_prior`, times the Poisson(alpha / N) probability of the *total* number of columns. (Full
statement: the Poisson probability of the number of new columns, features on with probability `bernoulli_prior`; false, see
`C73_wrong` and `C37_iff`.) -/
theorem C73_any_row_partial (N D L : Nat) (Z U X : Arr Int) (hZ : Z.shape = [N, L]) (hU : U.shape = [D, L])
    (pZ : PMArr Z) (pU : PMArr U) (lbda q alpha : ℝ) (ha : 0 < alpha) (q0 : 0 < q) (q1 : q < 1) (rnd : IBPDraws)
    (n : Nat) (hn : n < N) (k : Nat) (hk : k < 3) :
    let ls := sharedFeatures N L (fun i l => Z [i, l]) n
    let after := fun r : ℝ => ibp_row X lbda q alpha N D { rnd with new := Function.update rnd.new n r } n (Z, U, L)
    let miss := unexplained D (fun n d => X [n, d]) (fun i j => (after 0).1 [i, j]) (fun d j => U [d, ls.getD j 0])
      (List.range ls.length) n
    (∀ r i j, j < ls.length → (after r).1 [i, j] = (after 0).1 [i, j]) ∧
    (∀ r d j, j < ls.length → (after r).2.1 [d, j] = U [d, ls.getD j 0]) ∧
    (∀ r, (after r).1.shape = [N, (after r).2.2] ∧ (after r).2.1.shape = [D, (after r).2.2]) ∧
    volume {r : ℝ | r ∈ Set.Ico (0 : ℝ) 1 ∧ (after r).2.2 = ls.length + k} =
      ENNReal.ofReal (normalised3 (fun k => newFeatureLik lbda (1 - q) k (-1) ^ miss (-1) *
        newFeatureLik lbda (1 - q) k 1 ^ miss 1 * poisson (alpha / N) (ls.length + k)) k) := by
  intro ls after miss
  have hkc : keptCols Z n L = ls := keptCols_eq hZ n
  obtain ⟨Z1, U1, s1, s2, p1, p2, v1, v2, h⟩ := ibp_row_parts hZ hU pZ pU X lbda q alpha rnd n
  rw [hkc] at s1 s2 v1 v2 h
  have hN : 0 < N := by omega
  obtain ⟨cnt, hcnt⟩ : ∃ cnt : ℝ → Nat, cnt = fun r => np_choice (ibp_p_L_new lbda q alpha N ls.length
    (ibp_negatives Z1 U1 X n).1 (ibp_negatives Z1 U1 X n).2) r := ⟨_, rfl⟩
  have hrow : ∀ r, after r = ((ibp_add Z1 U1 X lbda n D ls.length (cnt r) (rnd.u n)).1,
      (ibp_add Z1 U1 X lbda n D ls.length (cnt r) (rnd.u n)).2, ls.length + cnt r) := by
    intro r
    have := h { rnd with new := Function.update rnd.new n r } rfl
    simp only [Function.update_self] at this
    rw [hcnt]
    exact this
  have hspec := fun r => ibp_add_spec Z1 U1 X lbda n (cnt r) (rnd.u n) s1 s2 p1 p2
  have hold : ∀ r i j, j < ls.length → (after r).1 [i, j] = Z1 [i, j] := by
    intro r i j hj
    rw [hrow]
    exact (hspec r).2.2.2.2.1 i j hj
  refine ⟨fun r i j hj => by rw [hold r i j hj, hold 0 i j hj], fun r d j hj => ?_, fun r => ?_, ?_⟩
  · rw [hrow]
    exact ((hspec r).2.2.2.2.2.2 d j hj).trans (v2 d j)
  · rw [hrow]
    exact ⟨(hspec r).1, (hspec r).2.1⟩
  · have hmiss : ibp_negatives Z1 U1 X n = (miss (-1), miss 1) := by
      rw [negatives_spec s1 s2]
      simp only [Prod.mk.injEq]
      constructor <;> refine List.countP_congr fun d hd => ?_ <;> simp only [decide_eq_true_eq] <;>
        refine and_congr_right fun _ => forall₂_congr fun j hj => ?_ <;>
        rw [hold 0 n j (List.mem_range.1 hj), v2 d j]
    have hrow2 : ∀ r, (after r).2.2 = ls.length + cnt r := fun r => by rw [hrow]
    rw [hmiss] at hcnt
    simp only [hrow2, Nat.add_left_cancel_iff]
    obtain ⟨-, hp, hv⟩ := C36_new_columns lbda q alpha N ls.length (miss (-1)) (miss 1) hN ha q0 q1
    have hlen : (ibp_p_L_new lbda q alpha N ls.length (miss (-1)) (miss 1)).length = 3 := by rw [hp]; simp
    have hlaw := (C36_draw_law _ hv hlen k hk).2
    have hpk : (ibp_p_L_new lbda q alpha N ls.length (miss (-1)) (miss 1))[k]'(by omega) =
        normalised3 (fun k => newFeatureLik lbda (1 - q) k (-1) ^ miss (-1) *
          newFeatureLik lbda (1 - q) k 1 ^ miss 1 * poisson (alpha / N) (ls.length + k)) k := by
      simp only [hp, List.getElem_map, List.getElem_range]
      congr 1
      funext k
      unfold newColumnWeight
      rw [newFeatureLik_one, newFeatureLik_neg_one, sub_sub_cancel]
    rw [hpk] at hlaw
    rw [← hlaw, hcnt]

/-! ## C101 -/

/-- one column of new features -/
noncomputable def featureStep (Z X : Arr Int) (lbda : ℝ) (rnd : Nat → Nat → ℝ) (l : Nat) (U : Arr Int) (d : Nat) : Arr Int :=
  U.set [d, l] (flip_gibbs_numba (expit (lbda * posterior_score_OR_AND_2D (U.row d) Z (X.col d) l)) (rnd d l))

theorem new_causes_eq (Z U X : Arr Int) (lbda : ℝ) (D L k : Nat) (rnd : Nat → Nat → ℝ) :
    ibp_new_causes Z U X lbda D L k rnd = (List.range k).foldl (fun U i => (List.range D).foldl
      (featureStep Z X lbda rnd (L + i)) U) U := by
  unfold ibp_new_causes
  simp only [Id.run_bind, Id.run_pure]
  rw [run_forIn_yield _ _ _ (fun U l => (List.range D).foldl (featureStep Z X lbda rnd l) U)
    (by
      intro l U
      simp only [Id.run_bind, Id.run_pure]
      rw [run_forIn_yield _ _ _ (featureStep Z X lbda rnd l) (by intros; rfl)]), List.foldl_map]

theorem feature_column (Z X : Arr Int) (lbda : ℝ) (rnd : Nat → Nat → ℝ) (l D : Nat) (U : Arr Int) :
    ((List.range D).foldl (featureStep Z X lbda rnd l) U).shape = U.shape ∧
    (∀ d < D, (List.range D).foldl (featureStep Z X lbda rnd l) U [d, l] =
      flip_gibbs_numba (expit (lbda * posterior_score_OR_AND_2D (U.row d) Z (X.col d) l)) (rnd d l)) ∧
    ∀ idx, (∀ d < D, idx ≠ [d, l]) → (List.range D).foldl (featureStep Z X lbda rnd l) U idx = U idx := by
  induction D with
  | zero => exact ⟨rfl, fun d hd => by omega, fun _ _ => rfl⟩
  | succ D ih =>
    obtain ⟨h1, h2, h3⟩ := ih
    rw [List.range_succ, List.foldl_append, List.foldl_cons, List.foldl_nil]
    generalize (List.range D).foldl (featureStep Z X lbda rnd l) U = V at h1 h2 h3
    refine ⟨h1, fun d hd => ?_, fun idx hidx => ?_⟩
    · simp only [featureStep, Arr.set]
      by_cases hdD : d = D
      · subst hdD
        rw [if_pos rfl]
        have : V.row d = U.row d := by
          unfold Arr.row
          rw [h1]
          congr 1
          funext i
          refine h3 _ fun d' hd' he => ?_
          simp only [List.cons.injEq] at he
          omega
        rw [this]
      · rw [if_neg (by simp [hdD])]
        exact h2 d (by omega)
    · simp only [featureStep, Arr.set]
      rw [if_neg (hidx D (by omega))]
      exact h3 idx fun d hd => hidx d (by omega)

/-- the entry of a new column is drawn when the columns before have been drawn -/
theorem new_causes_entry (Z U X : Arr Int) (lbda : ℝ) (D L k : Nat) (rnd : Nat → Nat → ℝ) (d : Nat) (hd : d < D) (i : Nat)
    (hi : i < k) :
    ∃ V : Arr Int, V.shape = U.shape ∧ (∀ idx, IsPM (U idx) → IsPM (V idx)) ∧
      (∀ l', V [d, l'] = if l' < L + i then ibp_new_causes Z U X lbda D L k rnd [d, l'] else U [d, l']) ∧
      ∀ rnd', (∀ d' l', l' < L + i → rnd' d' l' = rnd d' l') →
        (∀ l' < L + i, ibp_new_causes Z U X lbda D L k rnd' [d, l'] = ibp_new_causes Z U X lbda D L k rnd [d, l']) ∧
        ibp_new_causes Z U X lbda D L k rnd' [d, L + i] =
          flip_gibbs_numba (expit (lbda * posterior_score_OR_AND_2D (V.row d) Z (X.col d) (L + i))) (rnd' d (L + i)) := by
  obtain ⟨st, hst⟩ : ∃ st : (Nat → Nat → ℝ) → Nat → Arr Int, st = fun rnd i => (List.range i).foldl
    (fun U i => (List.range D).foldl (featureStep Z X lbda rnd (L + i)) U) U := ⟨_, rfl⟩
  have hres : ∀ rnd, ibp_new_causes Z U X lbda D L k rnd = st rnd k := fun rnd => by rw [new_causes_eq, hst]
  have hsucc : ∀ rnd i, st rnd (i + 1) = (List.range D).foldl (featureStep Z X lbda rnd (L + i)) (st rnd i) := by
    intro rnd i
    rw [hst]
    simp only [List.range_succ, List.foldl_append, List.foldl_cons, List.foldl_nil]
  have hzero : ∀ rnd, st rnd 0 = U := fun rnd => by rw [hst]; rfl
  clear hst
  have hkeep : ∀ rnd i j idx, (∀ d' l', L + i ≤ l' → idx ≠ [d', l']) → st rnd (i + j) idx = st rnd i idx := by
    intro rnd i j idx hidx
    induction j with
    | zero => rfl
    | succ j ih =>
      rw [← Nat.add_assoc, hsucc, (feature_column Z X lbda rnd (L + (i + j)) D _).2.2 idx fun d' _ => hidx d' _ (by omega), ih]
  have hlater : ∀ rnd i d' l', L + i ≤ l' → st rnd i [d', l'] = U [d', l'] := by
    intro rnd i
    induction i with
    | zero => intro d' l' _; rw [hzero]
    | succ i ih =>
      intro d' l' hl'
      rw [hsucc, (feature_column Z X lbda rnd (L + i) D _).2.2 _, ih d' l' (by omega)]
      intro d'' _ he
      simp only [List.cons.injEq, and_true] at he
      omega
  have hsame : ∀ rnd' i, (∀ d' l', l' < L + i → rnd' d' l' = rnd d' l') → st rnd' i = st rnd i := by
    intro rnd' i
    induction i with
    | zero => intro _; rw [hzero, hzero]
    | succ i ih =>
      intro h
      rw [hsucc, hsucc, ih fun d' l' hl' => h d' l' (by omega)]
      refine List.foldl_ext _ _ _ fun V d' _ => ?_
      unfold featureStep
      rw [h d' (L + i) (by omega)]
  have hsh : ∀ i, (st rnd i).shape = U.shape := by
    intro i
    induction i with
    | zero => rw [hzero]
    | succ i ih => rw [hsucc, (feature_column Z X lbda rnd (L + i) D _).1, ih]
  have hpm : ∀ i idx, IsPM (U idx) → IsPM (st rnd i idx) := by
    intro i
    induction i with
    | zero => intro idx h; rw [hzero]; exact h
    | succ i ih =>
      intro idx h
      rw [hsucc]
      obtain ⟨-, f2, f3⟩ := feature_column Z X lbda rnd (L + i) D (st rnd i)
      by_cases hidx : ∀ d' < D, idx ≠ [d', L + i]
      · rw [f3 idx hidx]; exact ih idx h
      · push Not at hidx
        obtain ⟨d', hd', rfl⟩ := hidx
        rw [f2 d' hd']
        exact isPM_gibbs _ _
  have hcut : ∀ rnd' i, i ≤ k → ∀ l' < L + i, st rnd' k [d, l'] = st rnd' i [d, l'] := by
    intro rnd' i hik l' hl'
    have := hkeep rnd' i (k - i) [d, l'] (by
      intro d' l'' hl'' he
      simp only [List.cons.injEq, and_true] at he
      omega)
    rwa [Nat.add_sub_of_le hik] at this
  refine ⟨st rnd i, hsh i, hpm i, fun l' => ?_, fun rnd' h => ⟨fun l' hl' => ?_, ?_⟩⟩
  · split
    · rename_i hl'
      rw [hres, hcut rnd i hi.le l' hl']
    · rename_i hl'
      exact hlater rnd i d l' (by omega)
  · rw [hres, hres, hcut rnd' i hi.le l' hl', hcut rnd i hi.le l' hl', hsame rnd' i h]
  · rw [hres, hcut rnd' (i + 1) hi (L + i) (by omega), hsucc, (feature_column Z X lbda rnd' (L + i) D _).2.1 d hd, hsame rnd' i h]

/-- the score of an entry of the second factor is the log odds of that entry, whatever the other rows -/
theorem flat_odds {N D L : Nat} {u Z X : Arr Int} (hu : u.shape = [L]) (hZ : Z.shape = [N, L]) (hX : X.shape = [N, D])
    (pu : PMArr u) (pZ : PMArr Z) (pX : DataArr X) (hN : N ≤ 32767) (lbda : ℝ) (G : Factor) (d l : Nat) (hd : d < D) (hl : l < L)
    (hG : ∀ l' < L, l' ≠ l → G d l' = u [l']) :
    lbda * posterior_score_OR_AND_2D u Z (X.col d) l =
      Real.log (lik2 .OR_AND N D L lbda (fun n d => X [n, d]) (fun i l => Z [i, l]) (G.set d l 1)) -
      Real.log (lik2 .OR_AND N D L lbda (fun n d => X [n, d]) (fun i l => Z [i, l]) (G.set d l (-1))) := by
  have pX' : ∀ n d, n < N → d < D → IsData (X [n, d]) := fun n d hn hd => pX [n, d] (by rw [hX]; exact ⟨hn, hd, trivial⟩)
  rw [log_lik2_sub _ _ _ _ _ _ _ _ _ _ pX', ← agreement2_swap, ← agreement2_swap _ _ _ _ _ _ (G.set d l (-1)),
    agreement2_set _ _ _ _ _ _ _ _ _ hd]
  obtain ⟨f, hf, h⟩ := C14_score_2d_partial .OR_AND
  have hf' : f = posterior_score_OR_AND_2D := by
    have : get_posterior_score_fct (pyDashToUnderscore (Lom8.OR_AND.name ++ "-2D")) = .ok (.two posterior_score_OR_AND_2D) := rfl
    rw [this] at hf
    cases hf
    rfl
  subst hf'
  have h := h N L u Z (X.col d) l hl hu hZ (by simp [Arr.col, Arr.dim, hX]) pu pZ
    (by
      intro idx hidx
      rw [show (X.col d).shape = [N] by simp [Arr.col, Arr.dim, hX]] at hidx
      match idx, hidx with
      | [n], ⟨hn, _⟩ => exact pX' n d hn hd) hN
  have hrow : twiceScore2 .OR_AND N L (G d) (fun i l => Z [i, l]) (fun n => X [n, d]) l =
      twiceScore2 .OR_AND N L (fun l => u [l]) (fun i l => Z [i, l]) (fun n => (X.col d) [n]) l := by
    unfold twiceScore2
    refine Finset.sum_congr rfl fun i _ => ?_
    have : ∀ v : Int, pred2 .OR_AND L (setEntry (G d) l v) (fun l => Z [i, l]) =
        pred2 .OR_AND L (setEntry (fun l => u [l]) l v) (fun l => Z [i, l]) := by
      intro v
      refine pred2_rows _ _ (fun l' hl' => ?_) (fun _ _ => rfl)
      simp only [setEntry]
      split
      · rfl
      · rename_i hne
        exact hG l' hl' hne
    rw [this, this]
    rfl
  rw [hrow, ← h]
  push_cast
  ring

/-- **C101**. In `sample_2d_IBP`, let `(Z, U)` be the state before row `n` is updated, and let `c` be a column that is
added to the factors for row `n`. Only row `n` uses it, and its entry for column `d` of the data is set to 1 with the
probability of 1 under a flat prior given the data, the new `Z`, and row `d` of the new `U` where all features added after
`c` are off. So the entries of the last new column are drawn given all others, and those of an earlier one are not. -/
theorem C101_new_features_partial (N D L : Nat) (Z U X : Arr Int) (hZ : Z.shape = [N, L]) (hU : U.shape = [D, L])
    (hX : X.shape = [N, D]) (pZ : PMArr Z) (pU : PMArr U) (pX : DataArr X) (hN : N ≤ 32767) (lbda q alpha : ℝ) (rnd : IBPDraws)
    (n : Nat) (hn : n < N) (d : Nat) (hd : d < D) (c : Nat) (hc : (sharedFeatures N L (fun i l => Z [i, l]) n).length ≤ c)
    (hc' : c < (ibp_row X lbda q alpha N D rnd n (Z, U, L)).2.2) :
    let L' := (ibp_row X lbda q alpha N D rnd n (Z, U, L)).2.2
    let after := fun r : ℝ => ibp_row X lbda q alpha N D
      { rnd with u := Function.update rnd.u n (Function.update (rnd.u n) d (Function.update (rnd.u n d) c r)) } n (Z, U, L)
    let F : Factor := fun i l => (after 0).1 [i, l]
    let G : Factor := fun d' l => if c < l then -1 else (after 0).2.1 [d', l]
    (∀ r, (after r).1 = (after 0).1 ∧ (after r).2.2 = L') ∧
    (∀ r, ∀ l < c, (after r).2.1 [d, l] = (after 0).2.1 [d, l]) ∧
    (∀ i l, (sharedFeatures N L (fun i l => Z [i, l]) n).length ≤ l → F i l = if i = n then 1 else -1) ∧
    volume {r : ℝ | r ∈ Set.Ico (0 : ℝ) 1 ∧ (after r).2.1 [d, c] = 1} =
      ENNReal.ofReal (flatConditional N D L' lbda (fun n d => X [n, d]) F G d c) ∧
    volume {r : ℝ | r ∈ Set.Ico (0 : ℝ) 1 ∧ (after r).2.1 [d, c] = -1} =
      ENNReal.ofReal (1 - flatConditional N D L' lbda (fun n d => X [n, d]) F G d c) := by
  intro L' after F G
  obtain ⟨Z1, U1, s1, s2, p1, p2, v1, v2, h⟩ := ibp_row_parts hZ hU pZ pU X lbda q alpha rnd n
  rw [keptCols_eq hZ n] at s1 s2 v1 v2 h
  obtain ⟨K, hK⟩ : ∃ K, K = (sharedFeatures N L (fun i l => Z [i, l]) n).length := ⟨_, rfl⟩
  rw [← hK] at s1 s2 h hc
  obtain ⟨k, hkdef⟩ : ∃ k, k = np_choice (ibp_p_L_new lbda q alpha N K (ibp_negatives Z1 U1 X n).1 (ibp_negatives Z1 U1 X n).2)
    (rnd.new n) := ⟨_, rfl⟩
  have hL' : L' = K + k := by
    show (ibp_row X lbda q alpha N D rnd n (Z, U, L)).2.2 = _
    rw [h rnd rfl, hkdef]
  obtain ⟨ru, hru⟩ : ∃ ru : ℝ → Nat → Nat → ℝ, ru = fun r => Function.update (rnd.u n) d (Function.update (rnd.u n d) c r) := ⟨_, rfl⟩
  have hafter : ∀ r, after r = ((ibp_add Z1 U1 X lbda n D K k (ru r)).1, (ibp_add Z1 U1 X lbda n D K k (ru r)).2, K + k) := by
    intro r
    have := h { rnd with u := Function.update rnd.u n (ru r) } rfl
    simp only [Function.update_self] at this
    rw [hkdef, ← this, hru]
  have hck : c < K + k := by rw [← hL']; exact hc'
  have hk0 : k > 0 := by omega
  obtain ⟨Z2, hZ2⟩ : ∃ Z2 : Arr Int, Z2 = ⟨(Z1.hstackFull k (-1)).shape, fun i => if i.getD 0 0 = n ∧
    (Z1.hstackFull k (-1)).dim 1 - k ≤ i.getD 1 0 then 1 else (Z1.hstackFull k (-1)) i⟩ := ⟨_, rfl⟩
  have hadd : ∀ r, ibp_add Z1 U1 X lbda n D K k (ru r) =
      (Z2, ibp_new_causes Z2 (U1.hstackFull k (-1)) X lbda D K k (ru r)) := by
    intro r
    rw [ibp_add, if_pos hk0, hZ2]
  obtain ⟨a1, a2⟩ := hstackFull_pm (k := k) (v := -1) (Or.inr rfl) s1 p1
  obtain ⟨b1, b2⟩ := hstackFull_pm (k := k) (v := -1) (Or.inr rfl) s2 p2
  have hd1 : (Z1.hstackFull k (-1)).dim 1 = K + k := by simp [Arr.dim, a1]
  have hz1 : Z1.dim 1 = K := by simp [Arr.dim, s1]
  have hu1 : U1.dim 1 = K := by simp [Arr.dim, s2]
  have sZ2 : Z2.shape = [N, K + k] := by rw [hZ2]; exact a1
  have pZ2 : PMArr Z2 := by
    rw [hZ2]
    intro idx hidx
    simp only at hidx ⊢
    split
    · exact Or.inl rfl
    · exact a2 idx hidx
  have eZ2 : ∀ i l, K ≤ l → Z2 [i, l] = if i = n then 1 else -1 := by
    intro i l hl
    rw [hZ2]
    have h2 : ¬ l < K := by omega
    simp only [hd1, Nat.add_sub_cancel]
    simp [hl, Arr.hstackFull, hz1, h2]
  obtain ⟨i, rfl⟩ : ∃ i, c = K + i := ⟨c - K, by omega⟩
  obtain ⟨V, t1, t2, t3, t4⟩ := new_causes_entry Z2 (U1.hstackFull k (-1)) X lbda D K k (ru 0) d hd i (by omega)
  have hagree : ∀ r d' l', l' < K + i → ru r d' l' = ru 0 d' l' := by
    intro r d' l' hl'
    rw [hru]
    simp only [Function.update_apply]
    split
    · rw [Function.update_of_ne hl'.ne, Function.update_of_ne hl'.ne]
    · rfl
  have sV : V.shape = [D, K + k] := t1.trans b1
  have pV : PMArr V := fun idx hidx => t2 idx (b2 idx (by rw [t1] at hidx; exact hidx))
  have hF : F = fun i l => Z2 [i, l] := by
    funext i l
    show (after 0).1 [i, l] = _
    rw [hafter, hadd]
  have hU0 : ∀ r, (after r).2.1 = ibp_new_causes Z2 (U1.hstackFull k (-1)) X lbda D K k (ru r) := fun r => by rw [hafter, hadd]
  have hG : ∀ l' < K + k, l' ≠ K + i → G d l' = (V.row d) [l'] := by
    intro l' hl' hne
    show (if K + i < l' then -1 else (after 0).2.1 [d, l']) = V [d, l']
    rw [t3 l', hU0]
    by_cases hlt : l' < K + i
    · rw [if_neg (by omega), if_pos hlt]
    · rw [if_pos (by omega), if_neg hlt]
      have : ¬ l' < K := by omega
      simp [Arr.hstackFull, hu1, this]
  have hodds := flat_odds (u := V.row d) (by simp [Arr.row, sV]) sZ2 hX
    (by
      intro idx hidx
      rw [show (V.row d).shape = [K + k] by simp [Arr.row, sV]] at hidx
      match idx, hidx with
      | [l], ⟨hl, _⟩ => exact pV [d, l] (by rw [sV]; exact ⟨hd, hl, trivial⟩)) pZ2 pX hN lbda G d (K + i) hd hck hG
  have hprob : expit (lbda * posterior_score_OR_AND_2D (V.row d) Z2 (X.col d) (K + i)) =
      flatConditional N D L' lbda (fun n d => X [n, d]) F G d (K + i) := by
    have h0 := sigmoid_odds (lik2_pos .OR_AND N D (K + k) lbda (fun n d => X [n, d]) (fun i l => Z2 [i, l]) (G.set d (K + i) 1))
      (lik2_pos .OR_AND N D (K + k) lbda (fun n d => X [n, d]) (fun i l => Z2 [i, l]) (G.set d (K + i) (-1)))
      (p := 1 / 2) (by norm_num) (by norm_num) hodds
    rw [show logit (1 / 2) = 0 by norm_num [logit], add_zero] at h0
    rw [expit_eq, h0, hL', hF]
    unfold flatConditional
    rw [show (1 : ℝ) - 1 / 2 = 1 / 2 by norm_num, ← mul_add, mul_div_mul_left _ _ (by norm_num)]
  have hval : ∀ r, (after r).2.1 [d, K + i] = flip_gibbs_numba
      (flatConditional N D L' lbda (fun n d => X [n, d]) F G d (K + i)) r := by
    intro r
    rw [hU0, (t4 (ru r) (hagree r)).2, hprob, hru]
    simp
  have hpos := lik2_pos .OR_AND N D L' lbda (fun n d => X [n, d]) F (G.set d (K + i) 1)
  have hpos' := lik2_pos .OR_AND N D L' lbda (fun n d => X [n, d]) F (G.set d (K + i) (-1))
  have h0 : 0 ≤ flatConditional N D L' lbda (fun n d => X [n, d]) F G d (K + i) := by
    unfold flatConditional; positivity
  have h1 : flatConditional N D L' lbda (fun n d => X [n, d]) F G d (K + i) ≤ 1 := by
    unfold flatConditional
    rw [div_le_one (by positivity)]
    linarith
  refine ⟨fun r => ?_, fun r l hl => ?_, fun i' l hl => ?_, ?_⟩
  · rw [hafter, hafter, hadd, hadd, hL']
    exact ⟨rfl, rfl⟩
  · rw [hU0, hU0]
    exact (t4 (ru r) (hagree r)).1 l hl
  · rw [hF]
    exact eZ2 i' l (by rw [hK]; exact hl)
  · simp only [hval]
    exact C18_gibbs_flip _ h0 h1

/-- C101 for the last new column: its entries are drawn from their conditional probability given all the rest. -/
theorem C101_last_column (N D L : Nat) (Z U X : Arr Int) (hZ : Z.shape = [N, L]) (hU : U.shape = [D, L])
    (hX : X.shape = [N, D]) (pZ : PMArr Z) (pU : PMArr U) (pX : DataArr X) (hN : N ≤ 32767) (lbda q alpha : ℝ) (rnd : IBPDraws)
    (n : Nat) (hn : n < N) (d : Nat) (hd : d < D) (c : Nat) (hc : (sharedFeatures N L (fun i l => Z [i, l]) n).length ≤ c)
    (hc' : c + 1 = (ibp_row X lbda q alpha N D rnd n (Z, U, L)).2.2) :
    let after := fun r : ℝ => ibp_row X lbda q alpha N D
      { rnd with u := Function.update rnd.u n (Function.update (rnd.u n) d (Function.update (rnd.u n d) c r)) } n (Z, U, L)
    volume {r : ℝ | r ∈ Set.Ico (0 : ℝ) 1 ∧ (after r).2.1 [d, c] = 1} =
      ENNReal.ofReal (flatConditional N D (c + 1) lbda (fun n d => X [n, d]) (fun i l => (after 0).1 [i, l])
        (fun d l => (after 0).2.1 [d, l]) d c) := by
  intro after
  obtain ⟨-, -, -, h, -⟩ := C101_new_features_partial N D L Z U X hZ hU hX pZ pU pX hN lbda q alpha rnd n hn d hd c hc (by omega)
  refine h.trans ?_
  rw [← hc']
  have hlik : ∀ v : Int, lik2 .OR_AND N D (c + 1) lbda (fun n d => X [n, d]) (fun i l => (after 0).1 [i, l])
      (Factor.set (fun d' l => if c < l then -1 else (after 0).2.1 [d', l]) d c v) =
      lik2 .OR_AND N D (c + 1) lbda (fun n d => X [n, d]) (fun i l => (after 0).1 [i, l])
      (Factor.set (fun d' l => (after 0).2.1 [d', l]) d c v) := by
    intro v
    unfold lik2
    refine Finset.prod_congr rfl fun i _ => Finset.prod_congr rfl fun d' _ => ?_
    congr 1
    refine pred2_rows _ _ (fun _ _ => rfl) (fun l hl => ?_)
    simp only [Factor.set]
    rw [if_neg (by omega : ¬ c < l)]
  unfold flatConditional
  rw [← hlik, ← hlik]

theorem one_cell_shared (Z : Arr Int) : sharedFeatures 1 0 (fun i l => Z [i, l]) 0 = [] := rfl

/-- C101 fails if two columns are added at once: for a single cell with data 1 and any `lbda ≠ 0`, the entry of the first
new column is not 1 with its probability given the data and `Z` (that is, with the second new column summed out under the
flat prior). -/
theorem C101_wrong (lbda q alpha : ℝ) (hl : lbda ≠ 0) (rnd : IBPDraws) :
    let Z : Arr Int := Arr.full [1, 0] 1
    let X : Arr Int := Arr.full [1, 1] 1
    let after := fun r : ℝ => ibp_row X lbda q alpha 1 1
      { rnd with u := Function.update rnd.u 0 (Function.update (rnd.u 0) 0 (Function.update (rnd.u 0 0) 0 r)) } 0 (Z, Z, 0)
    let lik := fun a b : Int => lik2 .OR_AND 1 1 2 lbda (fun _ _ => 1) (fun _ _ => 1) (fun _ l => if l = 0 then a else b)
    (ibp_row X lbda q alpha 1 1 rnd 0 (Z, Z, 0)).2.2 = 2 →
    volume {r : ℝ | r ∈ Set.Ico (0 : ℝ) 1 ∧ (after r).2.1 [0, 0] = 1} ≠
      ENNReal.ofReal ((lik 1 1 + lik 1 (-1)) / (lik 1 1 + lik 1 (-1) + lik (-1) 1 + lik (-1) (-1))) := by
  intro Z X after lik h2
  have hZ : Z.shape = [1, 0] := rfl
  have pZ : PMArr Z := fun _ _ => Or.inl rfl
  obtain ⟨h1, -, hF0, h, -⟩ := C101_new_features_partial 1 1 0 Z Z X hZ hZ rfl pZ pZ (fun _ _ => Or.inl rfl) (by norm_num) lbda q alpha
    rnd 0 (by norm_num) 0 (by norm_num) 0 (by simp [one_cell_shared]) (by omega)
  have hF : ∀ l < 2, (after 0).1 [0, l] = 1 := fun l _ => by
    have := hF0 0 l (Nat.zero_le _)
    rw [if_pos rfl] at this
    exact this
  have hc : ∀ (H : Factor) (a b : Int), H 0 0 = a → H 0 1 = b →
      lik2 .OR_AND 1 1 2 lbda (fun n d => X [n, d]) (fun i l => (after 0).1 [i, l]) H = lik a b := by
    intro H a b ha hb
    show _ = lik2 .OR_AND 1 1 2 lbda (fun _ _ => 1) (fun _ _ => 1) (fun _ l => if l = 0 then a else b)
    unfold lik2
    refine Finset.prod_congr rfl fun i _ => Finset.prod_congr rfl fun d' _ => ?_
    obtain rfl : i = 0 := Subsingleton.elim _ _
    obtain rfl : d' = 0 := Subsingleton.elim _ _
    congr 1
    refine pred2_rows _ _ (fun l hl => hF l hl) (fun l hl => ?_)
    interval_cases l
    · exact ha
    · exact hb
  have hlik : ∀ a b : Int, lik a b = if a = 1 ∨ b = 1 then sigmoid lbda else sigmoid (-lbda) := by
    intro a b
    show lik2 .OR_AND 1 1 2 lbda (fun _ _ => 1) (fun _ _ => 1) (fun _ l => if l = 0 then a else b) = _
    unfold lik2 cellLik pred2 pm
    simp [lom, Lom8.outer, Lom8.inner, LOp.Holds, Fin.exists_fin_two, Fin.forall_fin_two]
    split <;> simp
  have hp : flatConditional 1 1 2 lbda (fun n d => X [n, d]) (fun i l => (after 0).1 [i, l])
      (fun d' l => if 0 < l then -1 else (after 0).2.1 [d', l]) 0 0 = lik 1 (-1) / (lik 1 (-1) + lik (-1) (-1)) := by
    unfold flatConditional
    rw [hc _ 1 (-1) (by simp [Factor.set]) (by simp [Factor.set]), hc _ (-1) (-1) (by simp [Factor.set]) (by simp [Factor.set])]
  have h : volume {r : ℝ | r ∈ Set.Ico (0 : ℝ) 1 ∧ (after r).2.1 [0, 0] = 1} = ENNReal.ofReal (flatConditional 1 1 2 lbda
      (fun n d => X [n, d]) (fun i l => (after 0).1 [i, l]) (fun d' l => if 0 < l then -1 else (after 0).2.1 [d', l]) 0 0) := by
    rw [h2] at h
    exact h
  rw [h, hp]
  simp only [hlik]
  norm_num
  have s1 := sigmoid_pos lbda
  have s2 := sigmoid_pos (-lbda)
  intro he
  rw [ENNReal.ofReal_eq_ofReal_iff (by positivity) (by positivity), div_eq_div_iff (by positivity) (by positivity)] at he
  have : sigmoid lbda = sigmoid (-lbda) := by
    have : sigmoid lbda * (sigmoid lbda - sigmoid (-lbda)) = 0 := by linarith
    rcases mul_eq_zero.1 this with h | h <;> linarith
  unfold sigmoid at this
  rw [div_eq_div_iff (by positivity) (by positivity)] at this
  have : Real.exp (-lbda) = Real.exp (- -lbda) := by linarith
  have := Real.exp_injective this
  exact hl (by linarith)

/-- the case of `C101_wrong` happens: two columns are added with positive probability -/
theorem C101_two_columns (lbda q alpha : ℝ) (ha : 0 < alpha) (q0 : 0 < q) (q1 : q < 1) (rnd : IBPDraws) :
    ∃ r ∈ Set.Ico (0 : ℝ) 1, (ibp_row (Arr.full [1, 1] 1) lbda q alpha 1 1 { rnd with new := Function.update rnd.new 0 r } 0
      (Arr.full [1, 0] 1, Arr.full [1, 0] 1, 0)).2.2 = 2 := by
  obtain ⟨-, -, -, h⟩ := C73_any_row_partial 1 1 0 (Arr.full [1, 0] 1) (Arr.full [1, 0] 1) (Arr.full [1, 1] 1) rfl rfl
    (fun _ _ => Or.inl rfl) (fun _ _ => Or.inl rfl) lbda q alpha ha q0 q1 rnd 0 (by norm_num) 2 (by norm_num)
  have hw : ∀ L TN FN k : Nat, 0 < newFeatureLik lbda (1 - q) k (-1) ^ TN * newFeatureLik lbda (1 - q) k 1 ^ FN *
      poisson (alpha / (1 : Nat)) (L + k) := by
    intro L TN FN k
    have := newColumnWeight_pos (lbda := lbda) Nat.one_pos ha q0 q1 L TN FN k
    unfold newColumnWeight at this
    rwa [newFeatureLik_one, newFeatureLik_neg_one, sub_sub_cancel]
  have : 0 < volume {r : ℝ | r ∈ Set.Ico (0 : ℝ) 1 ∧ (ibp_row (Arr.full [1, 1] 1) lbda q alpha 1 1
      { rnd with new := Function.update rnd.new 0 r } 0 (Arr.full [1, 0] 1, Arr.full [1, 0] 1, 0)).2.2 = 2} := by
    refine lt_of_lt_of_eq ?_ h.symm
    rw [ENNReal.ofReal_pos]
    unfold normalised3
    exact div_pos (hw _ _ _ _) (add_pos (add_pos (hw _ _ _ _) (hw _ _ _ _)) (hw _ _ _ _))
  obtain ⟨r, hr, h⟩ := MeasureTheory.nonempty_of_measure_ne_zero this.ne'
  exact ⟨r, hr, h⟩

end LFM
