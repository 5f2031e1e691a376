import Verif.Model.DataPrep
import Verif.Spec.Columns
import Verif.Lemmas.Arrays
import Mathlib.Combinatorics.SetFamily.LYM
import Mathlib.Probability.ProductMeasure
import Mathlib.MeasureTheory.Constructions.Pi
import Mathlib.MeasureTheory.Measure.Lebesgue.Basic

/-!
# C63–C65: `all_columsn_are_disjoint`, `generate_orm_product`, `boolean_tensor_product`
-/

namespace LFM

open MeasureTheory

/-! ## C63 -/

/-- **C63 (what is checked).** `all_columsn_are_disjoint` returns True exactly if no column's set of ones is contained
in another's. Missing for the full claim: this is not disjointness, see `C63_wrong`. -/
theorem C63_checks_antichain_partial (mat : Arr Int) :
    all_columsn_are_disjoint mat = true ↔ Spec.AntichainColumns mat := by
  unfold all_columsn_are_disjoint Spec.AntichainColumns Spec.IsOne
  rw [Bool.not_eq_true', ← Bool.not_eq_true]
  simp only [List.any_eq_true, List.mem_range, Bool.and_eq_true, decide_eq_true_eq, List.all_eq_true, not_exists,
    not_and]
  constructor
  · intro h i j hi hj hij
    have := h i hi j hj hij
    push Not at this
    obtain ⟨n, hn, h1, h2⟩ := this
    exact ⟨n, ⟨hn, h1⟩, fun _ => h2⟩
  · intro h i hi j hj hij hall
    obtain ⟨n, ⟨hn, h1⟩, h2⟩ := h i j hi hj hij
    exact h2 hn (hall n hn h1)

/-- **C63 (one direction).** Disjoint columns that all contain a one are recognised. -/
theorem C63_disjoint_nonempty_partial (mat : Arr Int) (h : Spec.DisjointColumns mat)
    (hne : ∀ i < mat.dim 1, ∃ n, Spec.IsOne mat n i) : all_columsn_are_disjoint mat = true := by
  rw [C63_checks_antichain_partial]
  intro i j hi hj hij
  obtain ⟨n, hn⟩ := hne i hi
  exact ⟨n, hn, fun hj' => h i j hi hj hij n ⟨hn, hj'⟩⟩

/-- **C63 is wrong in both directions.** Overlapping columns {0,1} and {1,2} are called disjoint; the disjoint columns
{0} and {} are not. -/
theorem C63_wrong :
    (∃ mat : Arr Int, all_columsn_are_disjoint mat = true ∧ ¬ Spec.DisjointColumns mat) ∧
    (∃ mat : Arr Int, all_columsn_are_disjoint mat = false ∧ Spec.DisjointColumns mat) := by
  constructor
  · refine ⟨Arr.mat 2 [[1, 0], [1, 1], [0, 1]] 0, by decide, fun h => ?_⟩
    exact h 0 1 (by decide) (by decide) (by decide) 1 ⟨⟨by decide, by decide⟩, ⟨by decide, by decide⟩⟩
  · refine ⟨Arr.mat 2 [[1, 0], [0, 0]] 0, by decide, ?_⟩
    intro i j hi hj hij n ⟨⟨hn, h1⟩, ⟨_, h2⟩⟩
    have : ∀ i < 2, ∀ j < 2, i ≠ j → ∀ n < 2, ¬ ((Arr.mat 2 [[1, 0], [0, 0]] 0 : Arr Int) [n, i] = 1 ∧
      (Arr.mat 2 [[1, 0], [0, 0]] 0 : Arr Int) [n, j] = 1) := by decide
    exact this i hi j hj hij n hn ⟨h1, h2⟩

/-- the identity matrix meets the hypotheses of `C63_disjoint_nonempty_partial` -/
theorem C63_hypotheses_met : Spec.DisjointColumns (Arr.mat 2 [[1, 0], [0, 1]] 0) ∧
    ∀ i < 2, ∃ n, Spec.IsOne (Arr.mat 2 [[1, 0], [0, 1]] 0) n i := by
  constructor
  · intro i j hi hj hij n ⟨⟨hn, h1⟩, ⟨_, h2⟩⟩
    have : ∀ i < 2, ∀ j < 2, i ≠ j → ∀ n < 2, ¬ ((Arr.mat 2 [[1, 0], [0, 1]] 0 : Arr Int) [n, i] = 1 ∧
      (Arr.mat 2 [[1, 0], [0, 1]] 0 : Arr Int) [n, j] = 1) := by decide
    exact this i hi j hj hij n hn ⟨h1, h2⟩
  · intro i hi
    refine ⟨i, hi, ?_⟩
    have : ∀ i < 2, (Arr.mat 2 [[1, 0], [0, 1]] 0 : Arr Int) [i, i] = 1 := by decide
    exact this i hi

/-! ## C64 -/

/-- the matrix drawn in one round -/
noncomputable def candidate (K L : Nat) (u : List Nat → ℝ) : Arr Int :=
  ⟨[K, L], fun i => if 0.5 < u i then 1 else 0⟩

/-- the ones of a column as a finite set -/
def ones (K : Nat) (mat : Arr Int) (l : Nat) : Finset (Fin K) :=
  Finset.univ.filter fun n => mat [n, l] = 1

theorem antichain_iff_ones (K L : Nat) (mat : Arr Int) (hs : mat.shape = [K, L]) :
    Spec.AntichainColumns mat ↔ ∀ i < L, ∀ j < L, i ≠ j → ¬ ones K mat i ⊆ ones K mat j := by
  have h0 : mat.dim 0 = K := by simp [Arr.dim, hs]
  have h1 : mat.dim 1 = L := by simp [Arr.dim, hs]
  unfold Spec.AntichainColumns Spec.IsOne
  rw [h0, h1]
  constructor
  · intro h i hi j hj hij hsub
    obtain ⟨n, ⟨hn, e1⟩, e2⟩ := h i j hi hj hij
    have : (⟨n, hn⟩ : Fin K) ∈ ones K mat i := by simp [ones, e1]
    have := hsub this
    simp only [ones, Finset.mem_filter] at this
    exact e2 ⟨hn, this.2⟩
  · intro h i j hi hj hij
    have := h i hi j hj hij
    rw [Finset.not_subset] at this
    obtain ⟨n, hn1, hn2⟩ := this
    simp only [ones, Finset.mem_filter, Finset.mem_univ, true_and] at hn1 hn2
    exact ⟨n, ⟨n.2, hn1⟩, fun h => hn2 h.2⟩

/-- Sperner: `L` columns of length `K`, none contained in another, exist only if `L ≤ K choose K/2` -/
theorem antichain_le {K L : Nat} {mat : Arr Int} (hs : mat.shape = [K, L]) (h : Spec.AntichainColumns mat) :
    L ≤ K.choose (K / 2) := by
  rw [antichain_iff_ones K L mat hs] at h
  have hinj : Set.InjOn (ones K mat) (Finset.range L) := by
    intro i hi j hj e
    by_contra hij
    exact h i (by simpa using hi) j (by simpa using hj) hij (by rw [e])
  have := IsAntichain.sperner (α := Fin K) (𝒜 := (Finset.range L).image (ones K mat)) (by
    intro a ha b hb hab
    obtain ⟨i, hi, rfl⟩ := Finset.mem_image.mp (Finset.mem_coe.mp ha)
    obtain ⟨j, hj, rfl⟩ := Finset.mem_image.mp (Finset.mem_coe.mp hb)
    exact h i (by simpa using hi) j (by simpa using hj) (by rintro rfl; exact hab rfl))
  rwa [Finset.card_image_of_injOn hinj, Finset.card_range, Fintype.card_fin] at this

/-- and they do exist then -/
theorem exists_antichain {K L : Nat} (h : L ≤ K.choose (K / 2)) :
    ∃ b : Nat → Nat → Bool, Spec.AntichainColumns ⟨[K, L], fun i => if b (i.getD 0 0) (i.getD 1 0) then 1 else 0⟩ := by
  have hc : (Finset.powersetCard (K / 2) (Finset.univ : Finset (Fin K))).card = K.choose (K / 2) := by
    rw [Finset.card_powersetCard, Finset.card_univ, Fintype.card_fin]
  obtain ⟨e⟩ : Nonempty (Fin L ↪ Finset.powersetCard (K / 2) (Finset.univ : Finset (Fin K))) := by
    rw [Function.Embedding.nonempty_iff_card_le]
    simp only [Fintype.card_fin, Fintype.card_coe, hc]
    exact h
  refine ⟨fun n l => if hn : n < K then if hl : l < L then decide ((⟨n, hn⟩ : Fin K) ∈ (e ⟨l, hl⟩).1) else false
    else false, ?_⟩
  rw [antichain_iff_ones K L _ rfl]
  intro i hi j hj hij hsub
  have ho : ∀ l (hl : l < L), ones K (⟨[K, L], fun i => if (fun n l => if hn : n < K then if hl : l < L then
      decide ((⟨n, hn⟩ : Fin K) ∈ (e ⟨l, hl⟩).1) else false else false) (i.getD 0 0) (i.getD 1 0) then 1 else 0⟩) l =
      (e ⟨l, hl⟩).1 := by
    intro l hl
    ext n
    simp [ones, hl]
  rw [ho i hi, ho j hj] at hsub
  have c1 := (Finset.mem_powersetCard.mp (e ⟨i, hi⟩).2).2
  have c2 := (Finset.mem_powersetCard.mp (e ⟨j, hj⟩).2).2
  have := Finset.eq_of_subset_of_card_le hsub (by rw [c1, c2])
  have := e.injective (Subtype.ext this)
  simp only [Fin.mk.injEq] at this
  exact hij this

theorem disjoint_columns_some {K L : Nat} {rand : Nat → List Nat → ℝ} {m : Arr Int}
    (h : disjoint_columns_mat K L rand = some m) :
    (∃ t, m = candidate K L (rand t)) ∧ Spec.AntichainColumns m := by
  unfold disjoint_columns_mat at h
  simp only at h
  split at h
  · rename_i hex
    simp only [Option.some.injEq] at h
    have := Nat.find_spec hex
    subst h
    exact ⟨⟨_, rfl⟩, (C63_checks_antichain_partial _).mp this⟩
  · simp at h

theorem disjoint_columns_isSome {K L : Nat} {rand : Nat → List Nat → ℝ} :
    (disjoint_columns_mat K L rand).isSome ↔ ∃ t, Spec.AntichainColumns (candidate K L (rand t)) := by
  unfold disjoint_columns_mat
  simp only [← C63_checks_antichain_partial]
  split
  · rename_i hex
    simpa [candidate] using hex
  · rename_i hex
    simpa [candidate] using hex

/-- **C64 (when it can return).** Some sequence of draws lets `generate_orm_product(N, D, L)` return, if and only if
`L` is at most `D choose D/2` and `N choose N/2` (Sperner's bound). -/
theorem C64_can_return_iff (N D L : Nat) :
    (∃ randU randZ, (generate_orm_product N D L randU randZ).isSome) ↔
      L ≤ D.choose (D / 2) ∧ L ≤ N.choose (N / 2) := by
  have some_of : ∀ K, L ≤ K.choose (K / 2) → ∃ rand, (disjoint_columns_mat K L rand).isSome := by
    intro K hK
    obtain ⟨b, hb⟩ := exists_antichain hK
    refine ⟨fun _ i => if b (i.getD 0 0) (i.getD 1 0) then 1 else 0, disjoint_columns_isSome.mpr ⟨0, ?_⟩⟩
    convert hb using 1
    unfold candidate
    congr 1
    funext i
    by_cases h : b (i.getD 0 0) (i.getD 1 0) = true
    · simp only [h, if_true]; norm_num
    · simp only [h, if_false, Bool.false_eq_true]; norm_num
  constructor
  · rintro ⟨randU, randZ, h⟩
    unfold generate_orm_product at h
    cases hU : disjoint_columns_mat D L randU with
    | none => simp [hU] at h
    | some U =>
      cases hZ : disjoint_columns_mat N L randZ with
      | none => simp [hU, hZ] at h
      | some Z =>
        obtain ⟨⟨t, eU⟩, aU⟩ := disjoint_columns_some hU
        obtain ⟨⟨t', eZ⟩, aZ⟩ := disjoint_columns_some hZ
        exact ⟨antichain_le (by rw [eU]; rfl) aU, antichain_le (by rw [eZ]; rfl) aZ⟩
  · rintro ⟨hD, hN⟩
    obtain ⟨rU, hU⟩ := some_of D hD
    obtain ⟨rZ, hZ⟩ := some_of N hN
    refine ⟨rU, rZ, ?_⟩
    obtain ⟨U, eU⟩ := Option.isSome_iff_exists.mp hU
    obtain ⟨Z, eZ⟩ := Option.isSome_iff_exists.mp hZ
    simp [generate_orm_product, eU, eZ]

/-- **C64 is wrong.** With a single column of data (`D = 1`) and two latent dimensions the function never returns,
whatever is drawn. -/
theorem C64_wrong (N : Nat) (randU randZ : Nat → List Nat → ℝ) : generate_orm_product N 1 2 randU randZ = none := by
  by_contra h
  have := (C64_can_return_iff N 1 2).mp ⟨randU, randZ, Option.isSome_iff_ne_none.mpr h⟩
  exact absurd this.1 (by decide)

/-- **C64 (result).** Whenever the function returns, `U` and `Z` are -1/1 matrices and `X` is their OR-AND product. -/
theorem C64_result_partial (N D L : Nat) (randU randZ : Nat → List Nat → ℝ) (U Z X : Arr Int)
    (h : generate_orm_product N D L randU randZ = some (U, Z, X)) :
    U.shape = [D, L] ∧ Z.shape = [N, L] ∧ X.shape = [N, D] ∧ (∀ i, Spec.IsPM (U i)) ∧ (∀ i, Spec.IsPM (Z i)) ∧
    ∀ n d, X [n, d] = Spec.pm (Spec.lom .OR .AND fun (l : Fin L) (k : Fin 2) =>
      (![Z [n, l], U [d, l]] : Fin 2 → Int) k = 1) := by
  unfold generate_orm_product at h
  cases hU : disjoint_columns_mat D L randU with
  | none => simp [hU] at h
  | some U' =>
    cases hZ : disjoint_columns_mat N L randZ with
    | none => simp [hU, hZ] at h
    | some Z' =>
      obtain ⟨⟨t, eU⟩, -⟩ := disjoint_columns_some hU
      obtain ⟨⟨t', eZ⟩, -⟩ := disjoint_columns_some hZ
      simp only [hU, hZ, Option.bind_eq_bind, Option.bind_some, Option.pure_def, Option.some.injEq,
        Prod.mk.injEq] at h
      obtain ⟨rfl, rfl, rfl⟩ := h
      have val : ∀ K (u : List Nat → ℝ) i, candidate K L u i = 1 ∨ candidate K L u i = 0 := by
        intro K u i
        simp only [candidate]
        split
        · exact Or.inl rfl
        · exact Or.inr rfl
      have pmv : ∀ x : Int, x = 1 ∨ x = 0 → Spec.IsPM (2 * x - 1) := by
        rintro x (rfl | rfl)
        · exact Or.inl rfl
        · exact Or.inr rfl
      have one : ∀ x : Int, 2 * x - 1 = 1 ↔ x = 1 := fun x => by omega
      refine ⟨by rw [eU]; rfl, by rw [eZ]; rfl, rfl, fun i => ?_, fun i => ?_, fun n d => ?_⟩
      · rw [eU]; exact pmv _ (val D (randU t) i)
      · rw [eZ]; exact pmv _ (val N (randZ t') i)
      · show 2 * (if ((List.range L).any fun l => decide (Z' [n, l] = 1) && decide (U' [d, l] = 1)) = true
            then (1 : Int) else 0) - 1 = _
        have : ((List.range L).any fun l => decide (Z' [n, l] = 1) && decide (U' [d, l] = 1)) = true ↔
            Spec.lom .OR .AND fun (l : Fin L) (k : Fin 2) =>
              (![(Z'.map fun x => 2 * x - 1) [n, l], (U'.map fun x => 2 * x - 1) [d, l]] : Fin 2 → Int) k = 1 := by
          simp only [List.any_eq_true, List.mem_range, Bool.and_eq_true, decide_eq_true_eq]
          constructor
          · rintro ⟨l, hl, h1, h2⟩
            refine ⟨⟨l, hl⟩, fun k => ?_⟩
            match k with
            | 0 => exact (one _).mpr h1
            | 1 => exact (one _).mpr h2
          · rintro ⟨l, hl⟩
            exact ⟨l, l.2, (one _).mp (hl 0), (one _).mp (hl 1)⟩
        by_cases hc : ((List.range L).any fun l => decide (Z' [n, l] = 1) && decide (U' [d, l] = 1)) = true
        · rw [if_pos hc, Spec.pm, if_pos (this.mp hc)]; rfl
        · rw [if_neg hc, Spec.pm, if_neg (fun h => hc (this.mpr h))]; rfl

/-! ### almost sure termination -/

/-- uniform draws on the unit interval -/
noncomputable abbrev unif01 : Measure ℝ := volume.restrict (Set.Icc 0 1)

instance : IsProbabilityMeasure unif01 := ⟨by simp [unif01]⟩

/-- all rounds of draws of a `K × L` array: independent uniform numbers -/
noncomputable abbrev roundsLaw (K L : Nat) : Measure (Nat → Fin K × Fin L → ℝ) :=
  Measure.infinitePi fun _ : Nat => Measure.pi fun _ : Fin K × Fin L => unif01

/-- the draws as the function `rand` of the model -/
noncomputable def asRand {K L : Nat} (ω : Nat → Fin K × Fin L → ℝ) (t : Nat) (i : List Nat) : ℝ :=
  if h : i.getD 0 0 < K ∧ i.getD 1 0 < L then ω t (⟨_, h.1⟩, ⟨_, h.2⟩) else 0

/-- **C64 (termination, possible sizes).** If `L` respects Sperner's bound, the rejection loop ends with
probability 1. Missing for the full claim: larger `L`, where it never ends (`C64_wrong`, `C64_can_return_iff`). -/
theorem C64_terminates_partial (K L : Nat) (h : L ≤ K.choose (K / 2)) :
    ∀ᵐ ω ∂roundsLaw K L, (disjoint_columns_mat K L (asRand ω)).isSome := by
  obtain ⟨b, hb⟩ := exists_antichain h
  -- the draws that give the matrix `b`
  let I : Fin K × Fin L → Set ℝ := fun c => if b c.1 c.2 then Set.Ioc (1/2) 1 else Set.Icc 0 (1/2)
  let A : Set (Fin K × Fin L → ℝ) := Set.univ.pi I
  have mI : ∀ c, MeasurableSet (I c) := by
    intro c
    simp only [I]
    split
    · exact measurableSet_Ioc
    · exact measurableSet_Icc
  have mA : MeasurableSet A := MeasurableSet.univ_pi mI
  have vI : ∀ c, unif01 (I c) = ENNReal.ofReal (1/2) := by
    intro c
    simp only [unif01, Measure.restrict_apply (mI c), I]
    split
    · rw [Set.inter_eq_left.mpr, Real.volume_Ioc]
      · norm_num
      · intro x hx; exact ⟨by linarith [hx.1], hx.2⟩
    · rw [Set.inter_eq_left.mpr, Real.volume_Icc]
      · norm_num
      · intro x hx; exact ⟨hx.1, by linarith [hx.2]⟩
  have hA : (Measure.pi fun _ : Fin K × Fin L => unif01) A ≠ 0 := by
    rw [Measure.pi_pi]
    simp only [vI]
    rw [Finset.prod_const]
    exact pow_ne_zero _ (by simp)
  have acc : ∀ (ω : Nat → Fin K × Fin L → ℝ) t, ω t ∈ A → Spec.AntichainColumns (candidate K L (asRand ω t)) := by
    intro ω t hω i j hi hj hij
    obtain ⟨n, ⟨hn, e1⟩, e2⟩ := hb i j hi hj hij
    have same : ∀ n l, n < K → l < L → ((candidate K L (asRand ω t)) [n, l] = 1 ↔ b n l = true) := by
      intro n l hn hl
      have := hω (⟨n, hn⟩, ⟨l, hl⟩) (Set.mem_univ _)
      simp only [candidate, asRand, List.getD_cons_zero, List.getD_cons_succ, hn, hl, and_self, dif_pos, I] at this ⊢
      split at this
      · rename_i hbt
        simp only [hbt, iff_true]
        rw [if_pos (by have := this.1; norm_num at this ⊢; linarith)]
      · rename_i hbt
        simp only [hbt]
        rw [if_neg (by have := this.2; norm_num at this ⊢; linarith)]
        decide
    have hn' : n < K := hn
    have hi' : i < L := hi
    have hj' : j < L := hj
    have e1' : b n i = true := by
      by_contra hc
      simp [hc] at e1
    refine ⟨n, ⟨hn, (same n i hn' hi').mpr e1'⟩, fun hh => e2 ⟨hn, ?_⟩⟩
    have := (same n j hn' hj').mp hh.2
    simp [this]
  -- the draws for which no round is accepted
  rw [ae_iff]
  refine measure_mono_null (t := Set.univ.pi fun _ : Nat => Aᶜ) ?_ ?_
  · intro ω hω t _ htA
    exact hω (disjoint_columns_isSome.mpr ⟨t, acc ω t htA⟩)
  · have hlt : (Measure.pi fun _ : Fin K × Fin L => unif01) Aᶜ < 1 := by
      rw [prob_compl_eq_one_sub mA]
      exact ENNReal.sub_lt_self (by simp) (by simp) hA
    have bound : ∀ n : Nat, roundsLaw K L (Set.univ.pi fun _ : Nat => Aᶜ) ≤
        ((Measure.pi fun _ : Fin K × Fin L => unif01) Aᶜ) ^ n := by
      intro n
      refine (measure_mono (Set.pi_mono' (s₂ := ((Finset.range n : Finset Nat) : Set Nat))
        (t₂ := fun _ : Nat => Aᶜ) (fun _ _ => subset_rfl) (Set.subset_univ _))).trans ?_
      rw [Measure.infinitePi_pi _ (fun _ _ => mA.compl), Finset.prod_const, Finset.card_range]
    refine le_antisymm (ge_of_tendsto' (ENNReal.tendsto_pow_atTop_nhds_zero_of_lt_one hlt) bound) zero_le

/-- the default sizes of the function respect the bound -/
theorem C64_hypothesis_met : 3 ≤ (20 : Nat).choose (20 / 2) ∧ 3 ≤ (4 : Nat).choose (4 / 2) := by decide

/-! ## C65 -/

/-- **C65.** For matrices with the same number of columns, cell (n, d, m) of `boolean_tensor_product` is True exactly
if some latent dimension is True in all three rows. -/
theorem C65_tensor_product (Z U V : Arr Int) (hU : U.dim 1 = Z.dim 1) (hV : V.dim 1 = Z.dim 1) :
    ∃ X, boolean_tensor_product Z U V = .ok X ∧ X.shape = [Z.dim 0, U.dim 0, V.dim 0] ∧
      ∀ n d m, n < Z.dim 0 → d < U.dim 0 → m < V.dim 0 → (X [n, d, m] = true ↔
        Spec.lom .OR .AND fun (l : Fin (Z.dim 1)) (k : Fin 3) =>
          (![Z [n, l], U [d, l], V [m, l]] : Fin 3 → Int) k = 1) := by
  let c : Nat → Nat → Nat → Bool := fun n d m => (List.range (Z.dim 1)).any fun l =>
    decide (Z [n, l] = 1) && decide (U [d, l] = 1) && decide (V [m, l] = 1)
  have ov : ∀ n d m, Overwrites (fun X : Arr Bool => if c n d m = true then X.set [n, d, m] true else X)
      (fun idx => idx = [n, d, m] ∧ c n d m = true) (fun _ => true) := by
    intro n d m
    refine ⟨fun X => by split <;> rfl, fun X idx hi => by simp [hi, Arr.set], fun X idx hi => ?_⟩
    by_cases hc : c n d m = true
    · have : idx ≠ [n, d, m] := fun h => hi ⟨h, hc⟩
      simp [hc, Arr.set, this]
    · simp [hc]
  have fold := overwrites_foldl (List.range (Z.dim 0)) _ _ (fun _ => true) fun n _ =>
    overwrites_foldl (List.range (U.dim 0)) _ _ (fun _ => true) fun d _ =>
      overwrites_foldl (List.range (V.dim 0)) _ _ (fun _ => true) fun m _ => ov n d m
  refine ⟨_, ?_, fold.shape (Arr.full [Z.dim 0, U.dim 0, V.dim 0] false), ?_⟩
  · simp only [boolean_tensor_product, hU, hV, ne_eq, not_true_eq_false, if_false, bind, Except.bind, pure,
      Except.pure, Except.ok.injEq]
    unfold boolean_tensor_cells
    simp only [Id.run_bind, Id.run_pure]
    rw [run_forIn_yield _ _ _ (fun X n => (List.range (U.dim 0)).foldl (fun X d =>
      (List.range (V.dim 0)).foldl (fun X m => if c n d m = true then X.set [n, d, m] true else X) X) X)]
    intro n X
    simp only [Id.run_bind, Id.run_pure]
    rw [run_forIn_yield _ _ _ (fun X d => (List.range (V.dim 0)).foldl (fun X m =>
      if c n d m = true then X.set [n, d, m] true else X) X)]
    intro d X
    simp only [Id.run_bind, Id.run_pure]
    rw [run_forIn_yield _ _ _ (fun X m => if c n d m = true then X.set [n, d, m] true else X)]
    intro m X
    show Id.run (if c n d m = true then _ else _) = _
    split <;> rfl
  · intro n d m hn hd hm
    have hspec : c n d m = true ↔ Spec.lom .OR .AND fun (l : Fin (Z.dim 1)) (k : Fin 3) =>
        (![Z [n, l], U [d, l], V [m, l]] : Fin 3 → Int) k = 1 := by
      simp only [c, List.any_eq_true, List.mem_range, Bool.and_eq_true, decide_eq_true_eq]
      constructor
      · rintro ⟨l, hl, ⟨h1, h2⟩, h3⟩
        refine ⟨⟨l, hl⟩, fun k => ?_⟩
        match k with
        | 0 => exact h1
        | 1 => exact h2
        | 2 => exact h3
      · rintro ⟨l, hl⟩
        exact ⟨l, l.2, ⟨hl 0, hl 1⟩, hl 2⟩
    rw [← hspec]
    by_cases hc : c n d m = true
    · rw [fold.on _ [n, d, m] ⟨n, by simpa, d, by simpa, m, by simpa, rfl, hc⟩]
      simp [hc]
    · rw [fold.off _ [n, d, m]]
      · simp [hc, Arr.full]
      · rintro ⟨n', -, d', -, m', -, e, hc'⟩
        simp only [List.cons.injEq, and_true] at e
        obtain ⟨rfl, rfl, rfl⟩ := e
        exact hc hc'

/-- factors to which `C65_tensor_product` applies, with one true and seven false cells -/
theorem C65_hypotheses_met : ∃ Z U V : Arr Int, U.dim 1 = Z.dim 1 ∧ V.dim 1 = Z.dim 1 ∧
    ∃ X, boolean_tensor_product Z U V = .ok X ∧ X [0, 0, 0] = true ∧ X [0, 1, 0] = false :=
  ⟨Arr.mat 1 [[1], [0]] 0, Arr.mat 1 [[1], [0]] 0, Arr.mat 1 [[1], [0]] 0, rfl, rfl, _, rfl, by decide, by decide⟩

/-- **C65 (error branch).** Matrices with different numbers of columns are rejected. -/
theorem C65_rejects (Z U V : Arr Int) (h : U.dim 1 ≠ Z.dim 1 ∨ V.dim 1 ≠ Z.dim 1) :
    boolean_tensor_product Z U V = .error .assertionError := by
  simp only [boolean_tensor_product, ne_eq, bind, Except.bind, throw, throwThe, MonadExceptOf.throw, pure, Except.pure]
  by_cases hU : U.dim 1 = Z.dim 1
  · have hV : ¬ V.dim 1 = Z.dim 1 := h.resolve_left (fun h => h hU)
    simp [hU, hV]
  · simp [hU]

end LFM
