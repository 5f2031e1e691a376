import Verif.Model.Init
import Verif.Props.RandomStart
import Verif.Lemmas.Fresh

/-!
# C108: the same with the draws that set the initial values
-/

namespace LFM

open Spec MeasureTheory

namespace Spec

/-- the matrix whose entries are 1 where the draws exceed `p` -/
noncomputable def thresholded {N L : Nat} (p : ℝ) (u : Fin N × Fin L → ℝ) : Cfg N L := fun e => decide (p < u e)

/-- probability of a matrix whose entries are independent and 1 with probability `q` -/
noncomputable def bernoulli {N L : Nat} (q : ℝ) (c : Cfg N L) : ENNReal := ∏ e, ENNReal.ofReal (if c e then q else 1 - q)

/-- the matrix whose entries are 1 where the draws exceed one half -/
noncomputable abbrev initial {N L : Nat} (u : Fin N × Fin L → ℝ) : Cfg N L := thresholded (1 / 2) u

end Spec

theorem randomInit_val {N L : Nat} (p : ℝ) (u : Fin N × Fin L → ℝ) : Holds (randomInit [N, L] p (rndOf u)) (thresholded p u) := by
  refine ⟨rfl, fun n l => ?_⟩
  have h2 : rndOf u [(n : Nat), (l : Nat)] = u (n, l) := by simp [rndOf]
  show (2 * (if rndOf u [(n : Nat), (l : Nat)] > p then (1 : Int) else 0) - 1) = _
  rw [h2]
  unfold thresholded
  rcases lt_or_ge p (u (n, l)) with hc | hc
  · rw [if_pos hc, decide_eq_true hc]; rfl
  · rw [if_neg (not_lt.mpr hc), decide_eq_false (not_lt.mpr hc)]; rfl

theorem thresholded_set {N L : Nat} (p : ℝ) (c : Cfg N L) : {u : Fin N × Fin L → ℝ | thresholded p u = c} =
    Set.univ.pi fun e => if c e then Set.Ioi p else Set.Iic p := by
  ext u
  rw [Set.mem_univ_pi]
  show thresholded p u = c ↔ _
  constructor
  · rintro rfl e
    unfold thresholded
    rcases lt_or_ge p (u e) with hc | hc
    · rw [decide_eq_true hc]; exact hc
    · rw [decide_eq_false (not_lt.mpr hc)]; exact hc
  · intro h
    funext e
    have := h e
    unfold thresholded
    cases hc : c e
    · rw [hc] at this
      exact decide_eq_false (not_lt.mpr this)
    · rw [hc] at this
      exact decide_eq_true this

theorem thresholded_measurable {N L : Nat} (p : ℝ) (c : Cfg N L) : MeasurableSet {u : Fin N × Fin L → ℝ | thresholded p u = c} := by
  rw [thresholded_set]
  refine MeasurableSet.univ_pi fun e => ?_
  split
  · exact measurableSet_Ioi
  · exact measurableSet_Iic

theorem thresholded_law {N L : Nat} {p : ℝ} (h0 : 0 ≤ p) (h1 : p < 1) (c : Cfg N L) :
    uniformDraws N L {u | thresholded p u = c} = bernoulli (1 - p) c := by
  have hhalf : ∀ b : Bool, volume.restrict (Set.Ico (0 : ℝ) 1) (if b then Set.Ioi p else Set.Iic p) = ENNReal.ofReal (if b then 1 - p else 1 - (1 - p)) := by
    intro b
    cases b
    · rw [if_neg (by decide), if_neg (by decide), Measure.restrict_apply measurableSet_Iic]
      have : Set.Iic p ∩ Set.Ico 0 1 = Set.Icc 0 p := by
        ext x; simp only [Set.mem_inter_iff, Set.mem_Iic, Set.mem_Ico, Set.mem_Icc]
        constructor
        · rintro ⟨a, b, c⟩; exact ⟨b, a⟩
        · rintro ⟨a, b⟩; exact ⟨b, a, by linarith⟩
      rw [this, Real.volume_Icc]
      congr 1; ring
    · rw [if_pos rfl, if_pos rfl, Measure.restrict_apply measurableSet_Ioi]
      have : Set.Ioi p ∩ Set.Ico 0 1 = Set.Ioo p 1 := by
        ext x; simp only [Set.mem_inter_iff, Set.mem_Ioi, Set.mem_Ico, Set.mem_Ioo]
        constructor
        · rintro ⟨a, b, c⟩; exact ⟨a, c⟩
        · rintro ⟨a, b⟩; exact ⟨a, by linarith, b⟩
      rw [this, Real.volume_Ioo]
  rw [thresholded_set, uniformDraws, Measure.pi_pi]
  exact Finset.prod_congr rfl fun e _ => hhalf (c e)

/-- the matrices that a matrix made with argument `val` starts from, as a distribution -/
noncomputable def Spec.startLaw {N L : Nat} (make : Rnd → Except Err (Arr Int)) (c : Cfg N L) : ENNReal :=
  uniformDraws N L {u | ∃ R, make (rndOf u) = .ok R ∧ Holds R c}

theorem holds_unique {N L : Nat} {R : Arr Int} {c c' : Cfg N L} (h : Holds R c) (h' : Holds R c') : c = c' := by
  funext e
  have := (h.2 e.1 e.2).symm.trans (h'.2 e.1 e.2)
  change sgn (c e) = sgn (c' e) at this
  revert this
  cases c e <;> cases c' e <;> simp [sgn]

theorem startLaw_random {N L : Nat} {p : ℝ} (make : Rnd → Except Err (Arr Int)) (hmake : ∀ r, make r = .ok (randomInit [N, L] p r))
    (h0 : 0 ≤ p) (h1 : p < 1) (c : Cfg N L) : startLaw make c = bernoulli (1 - p) c := by
  rw [← thresholded_law h0 h1, startLaw]
  congr 1
  ext u
  show (∃ R, make (rndOf u) = .ok R ∧ Holds R c) ↔ thresholded p u = c
  constructor
  · rintro ⟨R, hR, hc⟩
    rw [hmake] at hR
    cases hR
    exact holds_unique (randomInit_val p u) hc
  · rintro rfl
    exact ⟨_, hmake _, randomInit_val p u⟩

/-- **C109** without value: the entries are independent and 1 with probability one half, so all matrices are equally likely -/
theorem C109_random_partial {N L : Nat} (c : Cfg N L) :
    startLaw (addMatrixInit [N, L] .nothing) c = (Fintype.card (Cfg N L) : ENNReal)⁻¹ ∧
      startLaw (matrixInit [N, L] .nothing) c = (Fintype.card (Cfg N L) : ENNReal)⁻¹ := by
  have h : bernoulli (1 - 1 / 2) c = (Fintype.card (Cfg N L) : ENNReal)⁻¹ := by
    have : ∀ e, ENNReal.ofReal (if c e then 1 - 1 / 2 else 1 - (1 - 1 / 2)) = 2⁻¹ := by
      intro e
      have : (if c e then (1 : ℝ) - 1 / 2 else 1 - (1 - 1 / 2)) = 2⁻¹ := by split <;> norm_num
      rw [this, ENNReal.ofReal_inv_of_pos (by norm_num)]
      norm_num
    rw [bernoulli, Finset.prod_congr rfl fun e _ => this e, Finset.prod_const, Finset.card_univ]
    simp [Cfg, ENNReal.inv_pow]
  exact ⟨(startLaw_random _ (fun _ => rfl) (by norm_num) (by norm_num) c).trans h,
    (startLaw_random _ (fun _ => rfl) (by norm_num) (by norm_num) c).trans h⟩

/-- **C109** is false with a float: whatever the shape, the density and the draws, an exception is raised -/
theorem C109_density_wrong (shape : List Nat) (p : ℝ) (rand : Rnd) :
    addMatrixInit shape (.float p) rand = .error .attributeError ∧ matrixInit shape (.float p) rand = .error .attributeError :=
  ⟨rfl, rfl⟩

/-- what the unreachable line for floats would give: entries that are 1 with probability one minus the number given -/
theorem C109_density_unreached {N L : Nat} {p : ℝ} (h0 : 0 ≤ p) (h1 : p < 1) (c : Cfg N L) :
    startLaw (fun r => .ok (randomInit [N, L] p r)) c = bernoulli (1 - p) c :=
  startLaw_random _ (fun _ => rfl) h0 h1 c

/-- **C109** with an array: the matrix starts at that array, whatever is drawn and whatever shape is given -/
theorem C109_given (shape : List Nat) (A : Arr Int) (rand : Rnd) :
    addMatrixInit shape (.array A) rand = .ok A ∧ matrixInit shape (.array A) rand = .ok A :=
  ⟨rfl, rfl⟩

/-- one of the 16 matrices with 2 rows and 2 columns -/
theorem C109_met : startLaw (addMatrixInit [2, 2] .nothing) (fun e : Fin 2 × Fin 2 => decide (e.1 = e.2)) = 16⁻¹ := by
  rw [(C109_random_partial _).1]
  simp [Cfg]

theorem initial_law {N L : Nat} (c : Cfg N L) : uniformDraws N L {u | initial u = c} = (Fintype.card (Cfg N L) : ENNReal)⁻¹ := by
  rw [← (C109_random_partial c).2, startLaw_random (p := 1 / 2) (matrixInit [N, L] .nothing) (fun _ => rfl) (by norm_num) (by norm_num),
    thresholded_law (by norm_num) (by norm_num)]

/-- `initial u` are the values of a matrix made without value from the draws `u` -/
theorem C108_initial_values {N L : Nat} (u : Fin N × Fin L → ℝ) : ∃ R, matrixInit [N, L] .nothing (rndOf u) = .ok R ∧ Holds R (initial u) :=
  ⟨_, rfl, randomInit_val _ u⟩

theorem initial_measurable {N L : Nat} (c : Cfg N L) : MeasurableSet {u : Fin N × Fin L → ℝ | initial u = c} := thresholded_measurable _ c

open Classical in
theorem initial_prob2 {N D L : Nat} (P : Cfg N L × Cfg D L → Prop) :
    ((uniformDraws N L).prod (uniformDraws D L)) {u | P (initial u.1, initial u.2)} =
      ENNReal.ofReal ((Finset.univ.filter fun c => P c).card / Fintype.card (Cfg N L × Cfg D L)) := by
  have hset : {u : (Fin N × Fin L → ℝ) × (Fin D × Fin L → ℝ) | P (initial u.1, initial u.2)} =
      ⋃ c ∈ Finset.univ.filter (fun c : Cfg N L × Cfg D L => P c), {u | initial u = c.1} ×ˢ {u | initial u = c.2} := by
    ext u
    simp only [Set.mem_ofPred_eq, Set.mem_iUnion, Finset.mem_filter, Finset.mem_univ, true_and, exists_prop, Set.mem_prod]
    constructor
    · intro h
      exact ⟨(initial u.1, initial u.2), h, rfl, rfl⟩
    · rintro ⟨c, h, h1, h2⟩
      rw [h1, h2]
      exact h
  have hc : ∀ c : Cfg N L × Cfg D L, ((uniformDraws N L).prod (uniformDraws D L)) ({u | initial u = c.1} ×ˢ {u | initial u = c.2}) =
      (Fintype.card (Cfg N L × Cfg D L) : ENNReal)⁻¹ := by
    intro c
    rw [Measure.prod_prod, initial_law, initial_law, Fintype.card_prod, Nat.cast_mul, ENNReal.mul_inv]
    · exact Or.inr (ENNReal.natCast_ne_top _)
    · exact Or.inl (ENNReal.natCast_ne_top _)
  rw [hset, measure_biUnion_finset]
  · rw [Finset.sum_congr rfl fun c _ => hc c, Finset.sum_const, nsmul_eq_mul, ENNReal.ofReal_div_of_pos (by exact_mod_cast Fintype.card_pos),
      ENNReal.ofReal_natCast, ENNReal.ofReal_natCast, ENNReal.div_eq_inv_mul, mul_comm]
  · intro c _ c' _ hne
    rw [Function.onFun, Set.disjoint_left]
    rintro u ⟨h1, h2⟩ ⟨h3, h4⟩
    exact hne (Prod.ext (h1.symm.trans h3) (h2.symm.trans h4))
  · intro c _
    exact (initial_measurable c.1).prod (initial_measurable c.2)

open Classical in
theorem initial_prob3 {N D M L : Nat} (P : Cfg N L × Cfg D L × Cfg M L → Prop) :
    ((uniformDraws N L).prod ((uniformDraws D L).prod (uniformDraws M L))) {u | P (initial u.1, initial u.2.1, initial u.2.2)} =
      ENNReal.ofReal ((Finset.univ.filter fun c => P c).card / Fintype.card (Cfg N L × Cfg D L × Cfg M L)) := by
  have hset : {u : (Fin N × Fin L → ℝ) × (Fin D × Fin L → ℝ) × (Fin M × Fin L → ℝ) | P (initial u.1, initial u.2.1, initial u.2.2)} =
      ⋃ c ∈ Finset.univ.filter (fun c : Cfg N L × Cfg D L × Cfg M L => P c),
        {u | initial u = c.1} ×ˢ ({u | initial u = c.2.1} ×ˢ {u | initial u = c.2.2}) := by
    ext u
    simp only [Set.mem_ofPred_eq, Set.mem_iUnion, Finset.mem_filter, Finset.mem_univ, true_and, exists_prop, Set.mem_prod]
    constructor
    · intro h
      exact ⟨(initial u.1, initial u.2.1, initial u.2.2), h, rfl, rfl, rfl⟩
    · rintro ⟨c, h, h1, h2, h3⟩
      rw [h1, h2, h3]
      exact h
  have hc : ∀ c : Cfg N L × Cfg D L × Cfg M L, ((uniformDraws N L).prod ((uniformDraws D L).prod (uniformDraws M L)))
      ({u | initial u = c.1} ×ˢ ({u | initial u = c.2.1} ×ˢ {u | initial u = c.2.2})) =
      (Fintype.card (Cfg N L × Cfg D L × Cfg M L) : ENNReal)⁻¹ := by
    intro c
    rw [Measure.prod_prod, Measure.prod_prod, initial_law, initial_law, initial_law, Fintype.card_prod, Fintype.card_prod,
      Nat.cast_mul, Nat.cast_mul, ENNReal.mul_inv, ENNReal.mul_inv]
    · exact Or.inr (ENNReal.natCast_ne_top _)
    · exact Or.inl (ENNReal.natCast_ne_top _)
    · exact Or.inr (by rw [← Nat.cast_mul]; exact ENNReal.natCast_ne_top _)
    · exact Or.inl (ENNReal.natCast_ne_top _)
  rw [hset, measure_biUnion_finset]
  · rw [Finset.sum_congr rfl fun c _ => hc c, Finset.sum_const, nsmul_eq_mul, ENNReal.ofReal_div_of_pos (by exact_mod_cast Fintype.card_pos),
      ENNReal.ofReal_natCast, ENNReal.ofReal_natCast, ENNReal.div_eq_inv_mul, mul_comm]
  · intro c _ c' _ hne
    rw [Function.onFun, Set.disjoint_left]
    rintro u ⟨h1, h2, h3⟩ ⟨h4, h5, h6⟩
    exact hne (Prod.ext (h1.symm.trans h4) (Prod.ext (h2.symm.trans h5) (h3.symm.trans h6)))
  · intro c _
    exact (initial_measurable c.1).prod ((initial_measurable c.2.1).prod (initial_measurable c.2.2))

/-- **C108** in terms of the draws of the initial values: for every model with two factors, the probability that these draws are such that inference
with default settings sees nothing of any data, whatever is drawn later, is at least `1 - 128/9 N D L^2 (3/4)^L` -/
theorem C108_random_draws_2d (lom : Lom8) (N D L : Nat) :
    ENNReal.ofReal (1 - 128 / 9 * (N * D * L ^ 2) * (3 / 4 : ℝ) ^ L) ≤
      ((uniformDraws N L).prod (uniformDraws D L)) {u | Blind2 lom (initial u.1, initial u.2)} := by
  rw [initial_prob2 (P := fun c => Blind2 lom c)]
  exact ENNReal.ofReal_le_ofReal (C108_random_default_2d lom N D L)

/-- **C108** in terms of the draws of the initial values, three factors -/
theorem C108_random_draws_3d (lom : Lom8) (N D M L : Nat) :
    ENNReal.ofReal (1 - 1536 / 49 * (N * D * M * L ^ 2) * (7 / 8 : ℝ) ^ L) ≤
      ((uniformDraws N L).prod ((uniformDraws D L).prod (uniformDraws M L))) {u | Blind3 lom (initial u.1, initial u.2.1, initial u.2.2)} := by
  rw [initial_prob3 (P := fun c => Blind3 lom c)]
  exact ENNReal.ofReal_le_ofReal (C108_random_default_3d lom N D M L)

end LFM
