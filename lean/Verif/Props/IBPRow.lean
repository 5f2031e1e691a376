import Verif.Props.IBP

/-!
# C73 for layers: number of columns after the update of a single row
-/

namespace LFM

open Spec MeasureTheory

theorem single_n_empty (z U : Arr Int) (hz : z.dim 0 = 0) (d : Nat) (hd : d < U.dim 0) : OR_AND_single_n z U [d] = -1 := by
  have hp : ∀ u, OR_AND_product z u = -1 := by
    intro u
    unfold OR_AND_product
    rw [hz]
    rfl
  unfold OR_AND_single_n
  simp only [hp, Id.run_bind, Id.run_pure]
  rw [run_forIn_yield _ _ _ (fun s d => s.set [d] (-1)) (by intros; rfl)]
  have := fill1 (U.dim 0) (fun _ => (-1 : Int)) (Arr.full [U.dim 0] 0)
  simp [this, hd]

theorem row_negatives (Z U X : Arr Int) (hZ : Z.dim 1 = 0) (n : Nat) :
    ibp_negatives Z U X n = ((List.range (U.dim 0)).countP fun d => decide (X [n, d] = -1),
      (List.range (U.dim 0)).countP fun d => decide (X [n, d] = 1)) := by
  have hrow : (Z.row n).dim 0 = 0 := by
    simpa [Arr.row, Arr.dim] using hZ
  unfold ibp_negatives
  simp only [Prod.mk.injEq]
  constructor <;> refine List.countP_congr fun d hd => ?_ <;> simp [single_n_empty _ U hrow d (List.mem_range.1 hd)]

/-- **C73** for a layer with a single row of data (whose columns are all dropped first), any state, prior, `alpha` and
`lambda`: when the sampling function of the first factor is called, the number of columns afterwards is 0, 1 or 2, drawn
with probabilities proportional to the Poisson(alpha) probability times the likelihood of the row under that many new
columns, if features are on with probability `1 - bernoulli_prior`. (So for the default prior 1/2 this is C73. Full
statement: any number of rows, features on with probability `bernoulli_prior`; false, see `C73_wrong` and `C37_iff`.) -/
theorem C73_one_row_partial (y : IBPLayer) (D L : Nat) (hZ : y.Z.shape = [1, L]) (hU : y.U.shape = [D, L])
    (pZ : PMArr y.Z) (pU : PMArr y.U) (hX : y.X.shape = [1, D]) (ha : 0 < y.alpha) (q0 : 0 < y.prior_U) (q1 : y.prior_U < 1)
    (lp : ℝ) (rnd : IBPDraws) (rndU : Rnd) (k : Nat) (hk : k < 3) :
    volume {r : ℝ | r ∈ Set.Ico (0 : ℝ) 1 ∧ (y.sample lp { rnd with new := fun _ => r } rndU .z).Z.shape = [1, k] ∧
        (y.sample lp { rnd with new := fun _ => r } rndU .z).U.shape = [D, k]} =
      ENNReal.ofReal (normalised3 (buffetWeight y.lbda (1 - y.prior_U) y.alpha 1
        ((List.range D).countP fun d => decide (y.X [0, d] = -1)) ((List.range D).countP fun d => decide (y.X [0, d] = 1))) k) := by
  obtain ⟨TN, hTN⟩ : ∃ TN, TN = (List.range D).countP fun d => decide (y.X [0, d] = -1) := ⟨_, rfl⟩
  obtain ⟨FN, hFN⟩ : ∃ FN, FN = (List.range D).countP fun d => decide (y.X [0, d] = 1) := ⟨_, rfl⟩
  rw [← hTN, ← hFN]
  obtain ⟨-, hp, hv⟩ := C36_new_columns y.lbda y.prior_U y.alpha 1 0 TN FN one_pos ha q0 q1
  have hlen : (ibp_p_L_new y.lbda y.prior_U y.alpha 1 0 TN FN).length = 3 := by rw [hp]; simp
  have hlaw := (C36_draw_law _ hv hlen k hk).2
  have hpk : (ibp_p_L_new y.lbda y.prior_U y.alpha 1 0 TN FN)[k]'(by omega) =
      normalised3 (buffetWeight y.lbda (1 - y.prior_U) y.alpha 1 TN FN) k := by
    simp only [hp, List.getElem_map, List.getElem_range]
    congr 1
    funext k
    unfold newColumnWeight buffetWeight
    rw [newFeatureLik_one, newFeatureLik_neg_one, sub_sub_cancel, Nat.zero_add]
  rw [hpk] at hlaw
  rw [← hlaw]
  congr 1
  ext r
  simp only [Set.mem_ofPred_eq]
  refine and_congr_right fun hr => ?_
  have dZ0 : y.Z.dim 0 = 1 := by simp [Arr.dim, hZ]
  have dZ1 : y.Z.dim 1 = L := by simp [Arr.dim, hZ]
  have dU0 : y.U.dim 0 = D := by simp [Arr.dim, hU]
  obtain ⟨X, hXX⟩ : ∃ X, X = y.X.transpose [0, 1] := ⟨_, rfl⟩
  have hXt : ∀ d, X [0, d] = y.X [0, d] := by
    intro d
    rw [hXX]
    rfl
  obtain ⟨s, hs⟩ : ∃ s, s = ibp_row X y.lbda y.prior_U y.alpha 1 D { rnd with new := fun _ => r } 0 (y.Z, y.U, L) := ⟨_, rfl⟩
  have hsamp : (y.sample lp { rnd with new := fun _ => r } rndU .z).Z = s.1 ∧
      (y.sample lp { rnd with new := fun _ => r } rndU .z).U = s.2.1 := by
    simp only [IBPLayer.sample, sample_2d_IBP_eq, dZ0, dZ1, dU0, ← hXX, hs]
    exact ⟨rfl, rfl⟩
  have hinv := (ibp_row_inv (N := 1) (D := D) (s := (y.Z, y.U, L)) ⟨hZ, hU, pZ, pU⟩ X y.lbda y.prior_U y.alpha
    { rnd with new := fun _ => r } 0 one_pos).1
  rw [← hs] at hinv
  have hcols : s.2.2 = np_choice (ibp_p_L_new y.lbda y.prior_U y.alpha 1 0 TN FN) r := by
    rw [hs]
    obtain ⟨e1, e2, e3, e4⟩ := existing_spec (N := 1) (L := L) y.Z y.U X y.lbda 0 (rnd.z 0)
    have hm : ∀ l, ibp_m y.Z 0 l = 0 := by
      intro l
      simp [ibp_m, dZ0]
    have hk0 : keptCols y.Z 0 L = [] := by
      simp [keptCols, hm]
    generalize hr : ibp_existing y.Z y.U X y.lbda 0 1 L (rnd.z 0) = r' at e1 e2 e3 e4
    rw [hk0] at e4
    have hcount : (List.range L).countP (fun l => r'.2 [l]) = 0 := by
      rw [List.countP_eq_length_filter, e4]; rfl
    have hmask : ((r'.1).maskCols r'.2).dim 1 = 0 := by
      simp [Arr.maskCols, Arr.dim, e1, hZ, e4]
    have hmaskU : ((y.U).maskCols r'.2).dim 0 = D := by
      simp [Arr.maskCols, Arr.dim, hU]
    simp only [ibp_row, hr, hcount, row_negatives _ _ _ hmask, hmaskU, hXt, Nat.zero_add, ← hTN, ← hFN]
  rw [hsamp.1, hsamp.2, hinv.hZ, hinv.hU, hcols]
  constructor
  · rintro ⟨h, -⟩
    simpa using h
  · intro h
    rw [h]
    exact ⟨rfl, rfl⟩

/-- a layer that meets the hypotheses: one row, two columns, one of which is in use; data 1, -1 and missing -/
example : ∃ y : IBPLayer, y.Z.shape = [1, 2] ∧ y.U.shape = [3, 2] ∧ PMArr y.Z ∧ PMArr y.U ∧ y.X.shape = [1, 3] ∧
    y.X [0, 0] = 1 ∧ y.X [0, 1] = -1 ∧ y.X [0, 2] = 0 ∧ 0 < y.alpha ∧ 0 < y.prior_U ∧ y.prior_U < 1 :=
  ⟨⟨⟨[1, 2], fun i => if i = [0, 0] then 1 else -1⟩, Arr.full [3, 2] 1, Arr.full [1, 2] 0, Arr.full [3, 2] 0,
    ⟨[1, 3], fun i => if i = [0, 0] then 1 else if i = [0, 1] then -1 else 0⟩, 1, 1 / 3, 1⟩, rfl, rfl,
    fun idx _ => by show IsPM (if idx = [0, 0] then 1 else -1); split; exacts [Or.inl rfl, Or.inr rfl],
    fun _ _ => Or.inl rfl, rfl, rfl, rfl, rfl, by norm_num, by norm_num, by norm_num⟩

end LFM
