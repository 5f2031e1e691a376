import Verif.Lemmas.Gibbs
import Verif.Lemmas.Sweep
import Verif.Spec.Config

/-! The sampling sweeps on arrays are site sweeps on configurations; invariance of weights. -/

namespace LFM

open Spec MeasureTheory

variable {N L : Nat}

/-- array index of a matrix entry -/
def idxOf (t : Fin N × Fin L) : List Nat := [t.1, t.2]

theorem sgn_isPM (b : Bool) : IsPM (sgn b) := by cases b <;> simp [sgn, IsPM]

theorem sgn_eq_one_iff (b : Bool) : sgn b = 1 ↔ b = true := by cases b <;> simp [sgn]

theorem sgn_inj {a b : Bool} : sgn a = sgn b ↔ a = b := by cases a <;> cases b <;> simp [sgn]

theorem Cfg.fac_apply (c : Cfg N L) (t : Fin N × Fin L) : c.fac t.1 t.2 = sgn (c t) := by
  simp [Spec.Cfg.fac]

theorem Cfg.arr_apply (c : Cfg N L) (t : Fin N × Fin L) : c.arr (idxOf t) = sgn (c t) :=
  Cfg.fac_apply c t

theorem Cfg.arr_get (c : Cfg N L) (n l : Nat) : c.arr [n, l] = c.fac n l := rfl

theorem Cfg.isPM_fac (c : Cfg N L) (n l : Nat) : IsPM (c.fac n l) := by
  unfold Spec.Cfg.fac
  split
  · exact sgn_isPM _
  · exact Or.inl rfl

theorem Cfg.arr_pm (c : Cfg N L) : PMArr c.arr := by
  intro i _
  show IsPM (Spec.Cfg.arr c i)
  simp only [Spec.Cfg.arr]
  split
  · exact Cfg.isPM_fac c _ _
  · exact Or.inl rfl

theorem Cfg.fac_update (c : Cfg N L) (t : Fin N × Fin L) (b : Bool) :
    Spec.Cfg.fac (Function.update c t b) = (c.fac).set t.1 t.2 (sgn b) := by
  funext n l
  unfold Spec.Cfg.fac Factor.set
  beta_reduce
  by_cases h : n < N ∧ l < L
  · rw [dif_pos h, dif_pos h]
    by_cases h2 : n = t.1 ∧ l = t.2
    · have : ((⟨n, h.1⟩, ⟨l, h.2⟩) : Fin N × Fin L) = t := by
        apply Prod.ext <;> apply Fin.ext
        · exact h2.1
        · exact h2.2
      rw [if_pos h2, this, Function.update_self]
    · rw [if_neg h2, Function.update_of_ne]
      rintro rfl
      exact h2 ⟨rfl, rfl⟩
  · rw [dif_neg h, dif_neg h, if_neg]
    rintro ⟨rfl, rfl⟩
    exact h ⟨t.1.2, t.2.2⟩

theorem Cfg.arr_set (c : Cfg N L) (t : Fin N × Fin L) (b : Bool) :
    (c.arr).set (idxOf t) (sgn b) = Spec.Cfg.arr (Function.update c t b) := by
  unfold Arr.set Spec.Cfg.arr
  congr 1
  funext i
  dsimp only
  rw [Cfg.fac_update]
  unfold idxOf Factor.set
  match i with
  | [n, l] => simp
  | [] => simp
  | [a] => simp
  | a :: b :: c :: d => simp

/-- the single-site update that `updEntry` performs on configurations -/
noncomputable def newbitOf (logit : Arr Int → List Nat → ℝ) (Zf : Arr Int) (t : Fin N × Fin L) (r : ℝ)
    (c : Cfg N L) : Bool :=
  if Zf (idxOf t) = 1 then c t
  else decide (flip_metropolised_gibbs_numba (logit c.arr (idxOf t)) (sgn (c t)) r = 1)

theorem updEntry_arr (logit : Arr Int → List Nat → ℝ) (Zf : Arr Int) (u : Fin N × Fin L → ℝ)
    (c : Cfg N L) (t : Fin N × Fin L) :
    updEntry logit Zf (rndOf u) c.arr (idxOf t) =
      Spec.Cfg.arr (siteStep (newbitOf logit Zf) u c t) := by
  unfold updEntry siteStep newbitOf
  have hr : rndOf u (idxOf t) = u t := by simp [rndOf, idxOf]
  split
  · rw [Function.update_eq_self]
  · rw [← Cfg.arr_set, Cfg.arr_apply, hr]
    congr 1
    have := isPM_flip (logit c.arr (idxOf t)) (sgn_isPM (c t)) (u t)
    rcases this with h | h
    · rw [h]; rfl
    · rw [h]; rfl

theorem sweep_arr (logit : Arr Int → List Nat → ℝ) (Zf : Arr Int) (u : Fin N × Fin L → ℝ)
    (ts : List (Fin N × Fin L)) (c : Cfg N L) :
    sweep logit Zf (rndOf u) (ts.map idxOf) c.arr =
      Spec.Cfg.arr (siteSweep (newbitOf logit Zf) ts u c) := by
  induction ts generalizing c with
  | nil => rfl
  | cons t ts ih =>
    show sweep logit Zf (rndOf u) (ts.map idxOf) (updEntry logit Zf (rndOf u) c.arr (idxOf t)) = _
    rw [updEntry_arr, ih]
    rfl

/-- the entries in row-major order -/
def finTasks (N L : Nat) : List (Fin N × Fin L) :=
  (List.finRange N).flatMap fun n => (List.finRange L).map fun l => (n, l)

theorem finTasks_map : (finTasks N L).map idxOf = tasks2 N L := by
  unfold finTasks tasks2
  rw [← List.map_coe_finRange_eq_range, ← List.map_coe_finRange_eq_range, List.map_flatMap,
    List.flatMap_map]
  simp only [List.map_map]
  rfl

theorem finTasks_nodup : (finTasks N L).Nodup := by
  apply List.Nodup.of_map idxOf
  rw [finTasks_map]
  exact nodup_tasks2 N L

theorem holds_arr_iff (c c' : Cfg N L) : Spec.Holds c.arr c' ↔ c = c' := by
  constructor
  · rintro ⟨_, h⟩
    funext t
    rw [← sgn_inj, ← h t.1 t.2]
    exact (Cfg.arr_apply c t).symm
  · rintro rfl
    exact ⟨rfl, fun n l => Cfg.arr_apply c (n, l)⟩

/-- a single metropolised flip with the right logit preserves the weight -/
theorem flip_balance {W1 W0 x : ℝ} (h0 : 0 < W0) (h1 : W1 = Real.exp x * W0) (b' : Bool) :
    ∑ b : Bool, ENNReal.ofReal (if b then W1 else W0) *
        unif {r | decide (flip_metropolised_gibbs_numba x (sgn b) r = 1) = b'} =
      ENNReal.ofReal (if b' then W1 else W0) := by
  have hu : ∀ (z : Int) (v : Int), unif {r | flip_metropolised_gibbs_numba x z r = v} =
      volume {u | u ∈ Set.Ico (0 : ℝ) 1 ∧ flip_metropolised_gibbs_numba x z u = v} := by
    intro z v
    rw [unif, Measure.restrict_apply' measurableSet_Ico, Set.inter_comm]
    rfl
  have hne : ∀ {z : Int}, IsPM z → ∀ r, (¬ flip_metropolised_gibbs_numba x z r = 1) ↔
      flip_metropolised_gibbs_numba x z r = -1 := by
    intro z hz r
    rcases isPM_flip x hz r with h | h <;> rw [h] <;> decide
  have hx := Real.exp_pos x
  have h01 : (0 : ℝ) < W1 := by rw [h1]; positivity
  have hm1 : (0 : ℝ) ≤ 1 - min 1 (Real.exp (-((1 : Int) : ℝ) * x)) := by
    have := min_le_left 1 (Real.exp (-((1 : Int) : ℝ) * x)); linarith
  have hm2 : (0 : ℝ) ≤ 1 - min 1 (Real.exp (-((-1 : Int) : ℝ) * x)) := by
    have := min_le_left 1 (Real.exp (-((-1 : Int) : ℝ) * x)); linarith
  have hp1 : (0 : ℝ) ≤ min 1 (Real.exp (-((1 : Int) : ℝ) * x)) := by positivity
  have hp2 : (0 : ℝ) ≤ min 1 (Real.exp (-((-1 : Int) : ℝ) * x)) := by positivity
  -- detailed balance
  have key : W1 * min 1 (Real.exp (-((1 : Int) : ℝ) * x)) =
      W0 * min 1 (Real.exp (-((-1 : Int) : ℝ) * x)) := by
    push_cast
    rw [neg_neg, one_mul, neg_one_mul, h1]
    have h : Real.exp x * Real.exp (-x) = 1 := by rw [← Real.exp_add]; simp
    rcases le_total x 0 with hx | hx
    · rw [min_eq_left (Real.one_le_exp_iff.2 (by linarith)), min_eq_right (Real.exp_le_one_iff.2 hx)]
      ring
    · rw [min_eq_right (Real.exp_le_one_iff.2 (by linarith)), min_eq_left (Real.one_le_exp_iff.2 hx)]
      linear_combination W0 * h
  have v1 := volume_flip x (z := 1) (Or.inl rfl)
  have v2 := volume_stay x (z := 1) (Or.inl rfl)
  have v3 := volume_flip x (z := -1) (Or.inr rfl)
  have v4 := volume_stay x (z := -1) (Or.inr rfl)
  rw [neg_neg] at v3
  rw [Fintype.sum_bool]
  cases b'
  · simp only [decide_eq_false_iff_not, sgn, if_true, Bool.false_eq_true, if_false]
    simp only [hne (Or.inl rfl : IsPM 1), hne (Or.inr rfl : IsPM (-1)), hu, v1, v4]
    rw [← ENNReal.ofReal_mul h01.le, ← ENNReal.ofReal_mul h0.le, ← ENNReal.ofReal_add
      (by positivity) (by positivity), key]
    congr 1
    ring
  · simp only [decide_eq_true_eq, sgn, if_true, Bool.false_eq_true, if_false, hu, v2, v3]
    rw [← ENNReal.ofReal_mul h01.le, ← ENNReal.ofReal_mul h0.le, ← ENNReal.ofReal_add
      (by positivity) (by positivity), ← key]
    congr 1
    ring

/-- A row-major sweep whose logit is the log-ratio of `W` preserves `W`. -/
theorem sweep_law (logit : Arr Int → List Nat → ℝ) (Zf : Arr Int) (W : Cfg N L → ℝ)
    (hpos : ∀ c, 0 < W c)
    (hlogit : ∀ (c : Cfg N L) (t : Fin N × Fin L), Zf (idxOf t) ≠ 1 →
      logit c.arr (idxOf t) =
        Real.log (W (Function.update c t true)) - Real.log (W (Function.update c t false)))
    (c' : Cfg N L) :
    ∑ c : Cfg N L, ENNReal.ofReal (W c) * uniformDraws N L
        {u | Spec.Holds (sweep logit Zf (rndOf u) (tasks2 N L) c.arr) c'} =
      ENNReal.ofReal (W c') := by
  have h := sweep_preserves (newbitOf logit Zf) (fun c => ENNReal.ofReal (W c)) ?_
    (finTasks N L) finTasks_nodup c'
  · rw [← h]
    refine Finset.sum_congr rfl fun c _ => ?_
    congr 1
    unfold sweepProb uniformDraws
    congr 1
    ext u
    simp only [Set.mem_ofPred_eq]
    rw [← finTasks_map, sweep_arr, holds_arr_iff]
  · intro t c b'
    by_cases hf : Zf (idxOf t) = 1
    · have : ∀ b : Bool, {r | newbitOf logit Zf t r (Function.update c t b) = b'} =
          if b = b' then Set.univ else ∅ := by
        intro b
        ext r
        simp only [newbitOf, hf, if_true, Function.update_self, Set.mem_ofPred_eq]
        split <;> simp [*]
      simp only [this]
      rw [Finset.sum_eq_single b']
      · rw [if_pos rfl, unif_univ, mul_one]
      · intro b _ hb
        rw [if_neg hb, measure_empty, mul_zero]
      · simp
    · have hl : ∀ b : Bool, logit (Spec.Cfg.arr (Function.update c t b)) (idxOf t) =
          Real.log (W (Function.update c t true)) - Real.log (W (Function.update c t false)) := by
        intro b
        rw [hlogit _ t hf, Function.update_idem, Function.update_idem]
      have hW : W (Function.update c t true) =
          Real.exp (Real.log (W (Function.update c t true)) -
            Real.log (W (Function.update c t false))) * W (Function.update c t false) := by
        rw [Real.exp_sub, Real.exp_log (hpos _), Real.exp_log (hpos _),
          div_mul_cancel₀ _ (hpos _).ne']
      have := flip_balance (hpos (Function.update c t false)) hW b'
      have hb : ∀ b : Bool, W (Function.update c t b) =
          if b = true then W (Function.update c t true) else W (Function.update c t false) := by
        intro b; cases b <;> rfl
      simp only [newbitOf, hf, if_false, Function.update_self, hl]
      rw [hb b', ← this]
      refine Finset.sum_congr rfl fun b _ => ?_
      rw [hb b]

end LFM
