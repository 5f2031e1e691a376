import Verif.Lemmas.Outputs
import Verif.Lemmas.Arrays
import Mathlib.Tactic.FinCases

/-!
# C01, C02, C05, C06, C08: the crisp output functions
-/

namespace LFM

open Spec

/-- **C01**. For each of the eight models the dispatcher finds a two-factor output function, and that
function returns `1` exactly when OUTER over `l` of INNER over the two factors is true, else `-1`. -/
theorem C01_two_factor_outputs (m : Lom8) :
    ∃ f, get_scalar_output_function_2d m.name = some f ∧
      ∀ (L : Nat) (u z : Arr Int), u.shape = [L] → z.shape = [L] → PMArr u → PMArr z →
        f u z = pm (lom m.outer m.inner
          fun (l : Fin L) (k : Fin 2) => ![u [l], z [l]] k = 1) := by
  cases m <;> refine ⟨_, rfl, fun L u z hu hz pu pz => ?_⟩ <;>
    have hd : u.dim 0 = L := by simp [Arr.dim, hu]
  · rw [OR_AND_product_eq, hd]
    exact outer_or L _ _ fun l => and2 (pu.one hu l.2) (pz.one hz l.2)
  · rw [OR_NAND_product_eq, hd]
    exact outer_or L _ _ fun l => nand2 (pu.one hu l.2) (pz.one hz l.2)
  · rw [OR_XOR_product_eq, hd]
    exact outer_or L _ _ fun l => xor2 (pu.one hu l.2) (pz.one hz l.2)
  · rw [NAND_XOR_product_eq, hd]
    exact outer_nand L _ _ fun l => by
      rw [show Lom8.NAND_XOR.inner = LOp.XOR from rfl, xor2 (pu.one hu l.2) (pz.one hz l.2),
        not_not]
  · rw [XOR_AND_product_eq, hd]
    exact outer_xor L _ _ fun l => and2 (pu.one hu l.2) (pz.one hz l.2)
  · rw [XOR_XOR_product_eq, hd]
    exact outer_xor L _ _ fun l => xor2 (pu.one hu l.2) (pz.one hz l.2)
  · rw [XOR_NXOR_product_eq, hd]
    exact outer_xor L _ _ fun l => nxor2 (pu.one hu l.2) (pz.one hz l.2)
  · rw [XOR_NAND_product_eq, hd]
    exact outer_xor L _ _ fun l => nand2' (pu.one hu l.2) (pz.one hz l.2)

/-- non-vacuity of C01: legal vectors of length 3 on which OR-AND is 1 and XOR-AND is -1 -/
example : PMArr (Arr.vec [1, -1, 1] 1) ∧ (Arr.vec [1, -1, 1] (1 : Int)).shape = [3] ∧
    OR_AND_product (Arr.vec [1, -1, 1] 1) (Arr.vec [1, 1, 1] 1) = 1 ∧
    XOR_AND_product (Arr.vec [1, -1, 1] 1) (Arr.vec [1, 1, 1] 1) = -1 := by
  refine ⟨?_, rfl, by decide, by decide⟩
  rintro idx hi
  match idx, hi with
  | [0], _ => exact Or.inl rfl
  | [1], _ => exact Or.inr rfl
  | [2], _ => exact Or.inl rfl

/-- **C01**, matrix version: the jitted output function applies the formula to every cell. -/
theorem C01_two_factor_matrix (m : Lom8) (N D L : Nat) (Z U : Arr Int)
    (hZ : Z.shape = [N, L]) (hU : U.shape = [D, L]) (pZ : PMArr Z) (pU : PMArr U) :
    ∃ X, output_function_2d m.name Z U = .ok X ∧ X.shape = [N, D] ∧
      ∀ n d, n < N → d < D → X [n, d] = pm (lom m.outer m.inner
        fun (l : Fin L) (k : Fin 2) => ![Z [n, l], U [d, l]] k = 1) := by
  obtain ⟨f, hf, hspec⟩ := C01_two_factor_outputs m
  have hN : Z.dim 0 = N := by simp [Arr.dim, hZ]
  have hD : U.dim 0 = D := by simp [Arr.dim, hU]
  have fill := fill2 N D (fun n d => f (Z.row n) (U.row d)) (Arr.full [N, D] 0)
  refine ⟨_, ?_, fill.1, fun n d hn hd => (fill.2 n d hn hd).trans ?_⟩
  · unfold output_function_2d
    rw [hf, hN, hD]
    simp only [Id.run_bind]
    congr 1
    apply run_forIn_yield
    intro n X
    simp only [Id.run_bind]
    rw [run_forIn_yield _ _ _ (fun X d => X.set [n, d] (f (Z.row n) (U.row d)))]
    · rfl
    · intro d X; rfl
  · obtain ⟨h1, h2⟩ := pZ.row hZ hn
    obtain ⟨h3, h4⟩ := pU.row hU hd
    exact hspec L _ _ h1 h3 h2 h4

/-- **C02**. For each of the eight models the dispatcher finds a three-factor output function, and it
computes OUTER over `l` of INNER over the three factors. -/
theorem C02_three_factor_outputs (m : Lom8) :
    ∃ f, get_scalar_output_function_3d m.name = some f ∧
      ∀ (L : Nat) (u z v : Arr Int), u.shape = [L] → z.shape = [L] → v.shape = [L] →
        PMArr u → PMArr z → PMArr v →
        f u z v = pm (lom m.outer m.inner
          fun (l : Fin L) (k : Fin 3) => ![u [l], z [l], v [l]] k = 1) := by
  cases m <;> refine ⟨_, rfl, fun L u z v hu hz hv pu pz pv => ?_⟩ <;>
    have hd : u.dim 0 = L := by simp [Arr.dim, hu]
  · rw [OR_AND_product_3d_eq, hd]
    exact outer_or L _ _ fun l => and3 (pu.one hu l.2) (pz.one hz l.2) (pv.one hv l.2)
  · rw [OR_NAND_product_3d_eq, hd]
    exact outer_or L _ _ fun l => nand3 (pu.one hu l.2) (pz.one hz l.2) (pv.one hv l.2)
  · rw [OR_XOR_product_3d_eq, hd]
    exact outer_or L _ _ fun l => xor3 (pu.one hu l.2) (pz.one hz l.2) (pv.one hv l.2)
  · rw [NAND_XOR_product_3d_eq, hd]
    exact outer_nand L _ _ fun l => by
      rw [show Lom8.NAND_XOR.inner = LOp.XOR from rfl,
        xor3 (pu.one hu l.2) (pz.one hz l.2) (pv.one hv l.2)]
  · rw [XOR_AND_product_3d_eq, hd]
    exact outer_xor L _ _ fun l => and3 (pu.one hu l.2) (pz.one hz l.2) (pv.one hv l.2)
  · rw [XOR_XOR_product_3d_eq, hd]
    exact outer_xor L _ _ fun l => xor3 (pu.one hu l.2) (pz.one hz l.2) (pv.one hv l.2)
  · rw [XOR_NXOR_product_3d_eq, hd]
    exact outer_xor L _ _ fun l => nxor3 (pu.one hu l.2) (pz.one hz l.2) (pv.one hv l.2)
  · rw [XOR_NAND_product_3d_eq, hd]
    exact outer_xor L _ _ fun l => nand3' (pu.one hu l.2) (pz.one hz l.2) (pv.one hv l.2)

/-- **C02**, tensor version. -/
theorem C02_three_factor_tensor (m : Lom8) (N D M L : Nat) (Z U V : Arr Int)
    (hZ : Z.shape = [N, L]) (hU : U.shape = [D, L]) (hV : V.shape = [M, L])
    (pZ : PMArr Z) (pU : PMArr U) (pV : PMArr V) :
    ∃ X, output_function_3d m.name Z U V = .ok X ∧ X.shape = [N, D, M] ∧
      ∀ n d k, n < N → d < D → k < M → X [n, d, k] = pm (lom m.outer m.inner
        fun (l : Fin L) (i : Fin 3) => ![Z [n, l], U [d, l], V [k, l]] i = 1) := by
  obtain ⟨f, hf, hspec⟩ := C02_three_factor_outputs m
  have hN : Z.dim 0 = N := by simp [Arr.dim, hZ]
  have hD : U.dim 0 = D := by simp [Arr.dim, hU]
  have hM : V.dim 0 = M := by simp [Arr.dim, hV]
  have fill := fill3 N D M (fun n d k => f (Z.row n) (U.row d) (V.row k)) (Arr.full [N, D, M] 0)
  refine ⟨_, ?_, fill.1, fun n d k hn hd hk => (fill.2 n d k hn hd hk).trans ?_⟩
  · unfold output_function_3d
    rw [hf, hN, hD, hM]
    simp only [Id.run_bind]
    congr 1
    apply run_forIn_yield
    intro n X
    simp only [Id.run_bind]
    rw [run_forIn_yield _ _ _ (fun X d => (List.range M).foldl
      (fun X k => X.set [n, d, k] (f (Z.row n) (U.row d) (V.row k))) X)]
    · rfl
    · intro d X
      simp only [Id.run_bind]
      rw [run_forIn_yield _ _ _ (fun X k => X.set [n, d, k] (f (Z.row n) (U.row d) (V.row k)))]
      · rfl
      · intro k X; rfl
  · obtain ⟨h1, h2⟩ := pZ.row hZ hn
    obtain ⟨h3, h4⟩ := pU.row hU hd
    obtain ⟨h5, h6⟩ := pV.row hV hk
    exact hspec L _ _ _ h1 h3 h5 h2 h4 h6

/-- non-vacuity of C02 (and of the matrix/tensor versions): a legal 2×2 factor -/
example : PMArr (Arr.mat 2 [[1, -1], [-1, 1]] 1) ∧
    (Arr.mat 2 [[1, -1], [-1, (1 : Int)]] 1).shape = [2, 2] ∧
    OR_XOR_product_3d ((Arr.mat 2 [[1, -1], [-1, 1]] 1).row 0)
      ((Arr.mat 2 [[1, -1], [-1, 1]] 1).row 1) ((Arr.mat 2 [[1, -1], [-1, 1]] 1).row 1) = 1 := by
  refine ⟨?_, rfl, by decide⟩
  rintro idx hi
  match idx, hi with
  | [0, 0], _ => exact Or.inl rfl
  | [0, 1], _ => exact Or.inr rfl
  | [1, 0], _ => exact Or.inr rfl
  | [1, 1], _ => exact Or.inl rfl

/-- **C01**, **C02**: functions made for any other model raise TypeError when they are called -/
theorem C02_other_models (model : String) (h : ∀ m : Lom8, model ≠ m.name) (Z U V : Arr Int) :
    output_function_2d model Z U = .error .typingError ∧ output_function_3d model Z U V = .error .typingError := by
  have h1 : model ≠ "OR-AND" := h .OR_AND
  have h2 : model ≠ "OR-NAND" := h .OR_NAND
  have h3 : model ≠ "OR-XOR" := h .OR_XOR
  have h4 : model ≠ "NAND-XOR" := h .NAND_XOR
  have h5 : model ≠ "XOR-AND" := h .XOR_AND
  have h6 : model ≠ "XOR-XOR" := h .XOR_XOR
  have h7 : model ≠ "XOR-NXOR" := h .XOR_NXOR
  have h8 : model ≠ "XOR-NAND" := h .XOR_NAND
  have e2 : get_scalar_output_function_2d model = none := by
    simp only [get_scalar_output_function_2d, h1, h2, h3, h4, h5, h6, h7, h8, if_false]
  have e3 : get_scalar_output_function_3d model = none := by
    simp only [get_scalar_output_function_3d, h1, h2, h3, h4, h5, h6, h7, h8, if_false]
  rw [output_function_2d, output_function_3d, e2, e3]
  exact ⟨rfl, rfl⟩

/-- there are such models -/
example (Z U V : Arr Int) : output_function_3d "AND-OR" Z U V = .error .typingError :=
  (C02_other_models "AND-OR" (fun m => by cases m <;> decide) Z U V).2

/-- number of latent dimensions active in both vectors -/
def Spec.activeCount (L : Nat) (u z : Arr Int) : Nat :=
  (Finset.univ.filter fun l : Fin L => u [l] = 1 ∧ z [l] = 1).card

/-- **C05**. For a threshold `q ≥ 1`, the qL-AND output is `1` exactly when at least `q` latent
dimensions are active in both factors. -/
theorem C05_qL_threshold (L : Nat) (u z : Arr Int) (q : Int) (hu : u.shape = [L]) (hq : 1 ≤ q) :
    qL_AND_product u z q = pm (q ≤ Spec.activeCount L u z) := by
  rw [qL_AND_product_eq u z q hq, Arr.dim, hu, ← pm_eq_ite]
  apply pm_congr
  rw [Spec.activeCount, ← countP_range_eq_card_fin L (fun l => u [l] = 1 ∧ z [l] = 1)]
  simp

/-- **C05**. A threshold of one is OR-AND. -/
theorem C05_qL_one (u z : Arr Int) : qL_AND_product u z 1 = OR_AND_product u z := by
  rw [qL_AND_product_eq u z 1 le_rfl, OR_AND_product_eq]
  congr 1
  rw [eq_iff_iff, show (1 : Int) ≤ ((List.range (u.dim 0)).countP
    (fun l => u [l] = 1 ∧ z [l] = 1) : Nat) ↔ 0 < (List.range (u.dim 0)).countP
    (fun l => u [l] = 1 ∧ z [l] = 1) by omega, List.countP_pos_iff]
  simp

/-- **C05**. Threshold `0`: the code answers `1` iff the *first* latent dimension is inactive (so it
is not the threshold "at least 0 active", which would always be 1); negative thresholds give `-1`. -/
theorem C05_qL_zero (u z : Arr Int) :
    qL_AND_product u z 0 = if 0 < u.dim 0 ∧ ¬ (u [0] = 1 ∧ z [0] = 1) then 1 else -1 := by
  rw [qL_AND_product_eq_zero]

theorem C05_qL_neg (u z : Arr Int) (q : Int) (hq : q < 0) : qL_AND_product u z q = -1 :=
  qL_AND_product_eq_neg u z q hq

/-- non-vacuity of C05: two of three dimensions active; threshold 2 met, threshold 3 not -/
example : qL_AND_product (Arr.vec [1, -1, 1] 1) (Arr.vec [1, 1, 1] 1) 2 = 1 ∧
    qL_AND_product (Arr.vec [1, -1, 1] 1) (Arr.vec [1, 1, 1] 1) 3 = -1 := by decide

/-- **C06**. Exchanging the two factor vectors, or permuting the latent dimensions of both, leaves
every two-factor output unchanged. -/
theorem C06_order_invariance_2d (m : Lom8) (f) (hf : get_scalar_output_function_2d m.name = some f)
    (L : Nat) (σ : Equiv.Perm (Fin L)) (u z u' z' : Arr Int)
    (hu : u.shape = [L]) (hz : z.shape = [L]) (pu : PMArr u) (pz : PMArr z)
    (hu' : u'.shape = [L]) (hz' : z'.shape = [L])
    (ru : ∀ l : Fin L, u' [l] = u [σ l]) (rz : ∀ l : Fin L, z' [l] = z [σ l]) :
    f u' z' = f u z ∧ f z u = f u z := by
  obtain ⟨g, hg, spec⟩ := C01_two_factor_outputs m
  obtain rfl : g = f := by rw [hg] at hf; exact Option.some.inj hf
  have pu' : PMArr u' := PMArr.of_perm hu' ru fun l => pu.one hu (σ l).2
  have pz' : PMArr z' := PMArr.of_perm hz' rz fun l => pz.one hz (σ l).2
  rw [spec L u' z' hu' hz' pu' pz', spec L u z hu hz pu pz, spec L z u hz hu pz pu]
  constructor
  · apply pm_congr
    simp only [ru, rz]
    exact lom_perm_latent σ (x := fun l k => ![u [l], z [l]] k = 1)
  · apply pm_congr
    rw [← lom_perm_factor (Equiv.swap (0 : Fin 2) 1)]
    apply iff_of_eq
    congr 1
    funext l k
    fin_cases k <;> simp [Equiv.swap_apply_left, Equiv.swap_apply_right]

/-- **C06**, three factors: latent permutations and all reorderings of the factors. -/
theorem C06_order_invariance_3d (m : Lom8) (f) (hf : get_scalar_output_function_3d m.name = some f)
    (L : Nat) (σ : Equiv.Perm (Fin L)) (τ : Equiv.Perm (Fin 3)) (a a' : Fin 3 → Arr Int)
    (ha : ∀ k, (a k).shape = [L]) (pa : ∀ k, PMArr (a k))
    (ha' : ∀ k, (a' k).shape = [L]) (ra : ∀ k, ∀ l : Fin L, a' k [l] = a (τ k) [σ l]) :
    f (a' 0) (a' 1) (a' 2) = f (a 0) (a 1) (a 2) := by
  obtain ⟨g, hg, spec⟩ := C02_three_factor_outputs m
  obtain rfl : g = f := by rw [hg] at hf; exact Option.some.inj hf
  have pa' : ∀ k, PMArr (a' k) := fun k =>
    PMArr.of_perm (ha' k) (ra k) fun l => (pa (τ k)).one (ha _) (σ l).2
  rw [spec L _ _ _ (ha' 0) (ha' 1) (ha' 2) (pa' 0) (pa' 1) (pa' 2),
    spec L _ _ _ (ha 0) (ha 1) (ha 2) (pa 0) (pa 1) (pa 2)]
  apply pm_congr
  rw [← lom_perm_latent σ (x := fun l k => ![a 0 [l], a 1 [l], a 2 [l]] k = 1),
    ← lom_perm_factor τ (x := fun l k => ![a 0 [σ l], a 1 [σ l], a 2 [σ l]] k = 1)]
  apply iff_of_eq
  congr 1
  funext l k
  have h1 : ∀ k : Fin 3, ![a' 0 [l], a' 1 [l], a' 2 [l]] k = a' k [l] := by
    intro k; fin_cases k <;> rfl
  have h2 : ∀ k : Fin 3, ![a 0 [σ l], a 1 [σ l], a 2 [σ l]] k = a k [σ l] := by
    intro k; fin_cases k <;> rfl
  rw [h1, h2, ra]

/-- non-vacuity of C06: a non-trivial permutation and legal vectors related by it -/
example : ∃ (σ : Equiv.Perm (Fin 2)) (u u' : Arr Int), u.shape = [2] ∧ u'.shape = [2] ∧ PMArr u ∧
    (∀ l : Fin 2, u' [l] = u [σ l]) ∧ u' [0] ≠ u [0] := by
  refine ⟨Equiv.swap 0 1, Arr.vec [1, -1] 1, Arr.vec [-1, 1] 1, rfl, rfl, ?_, by decide, by decide⟩
  rintro idx hi
  match idx, hi with
  | [0], _ => exact Or.inl rfl
  | [1], _ => exact Or.inr rfl

/-- **C08** (with the int8 accumulator in view). Every cell of `g` becomes the wrapped sum of its old
value and the number of latent dimensions active in both factors. -/
theorem C08_compute_g_wraps (N D L : Nat) (Z U g : Arr Int) (hZ : Z.shape = [N, L])
    (hU : U.shape = [D, L]) (hg : g.shape = [N, D]) :
    (compute_g Z U g).shape = [N, D] ∧
    ∀ n d, n < N → d < D → -128 ≤ g [n, d] → g [n, d] ≤ 127 →
      compute_g Z U g [n, d] =
        wrap8 (g [n, d] + Spec.activeCount L (Z.row n) (U.row d)) := by
  have hN : Z.dim 0 = N := by simp [Arr.dim, hZ]
  have hL : Z.dim 1 = L := by simp [Arr.dim, hZ]
  have hD : U.dim 0 = D := by simp [Arr.dim, hU]
  refine ⟨(compute_g_shape Z U g).trans hg, fun n d hn hd h1 h2 => ?_⟩
  rw [compute_g_get Z U g n d (hN ▸ hn) (hD ▸ hd), hL, Spec.activeCount,
    ← countP_range_eq_card_fin L (fun l => (Z.row n) [l] = 1 ∧ (U.row d) [l] = 1)]
  have : ∀ c : Nat, (if c = 0 then g [n, d] else wrap8 (g [n, d] + c)) = wrap8 (g [n, d] + c) := by
    intro c
    split
    · rename_i h; subst h
      simp only [Nat.cast_zero, add_zero]
      rw [wrap8, Int.bmod_eq_of_le] <;> omega
    · rfl
  rw [this]; rfl

/-- **C08**, exact part (`_partial`: the full claim "adds the number of active dimensions" is false
once the count leaves int8, see `C08_overflow`). -/
theorem C08_compute_g_partial (N D L : Nat) (Z U g : Arr Int) (hZ : Z.shape = [N, L])
    (hU : U.shape = [D, L]) (hg : g.shape = [N, D]) (n d : Nat) (hn : n < N) (hd : d < D)
    (h0 : -128 ≤ g [n, d])
    (hfit : g [n, d] + Spec.activeCount L (Z.row n) (U.row d) ≤ 127) :
    compute_g Z U g [n, d] = g [n, d] + Spec.activeCount L (Z.row n) (U.row d) := by
  rw [(C08_compute_g_wraps N D L Z U g hZ hU hg).2 n d hn hd h0 (by omega), wrap8,
    Int.bmod_eq_of_le] <;> omega

/-- **C08** fails beyond int8: with 128 dimensions all active the count comes out as -128. -/
theorem C08_overflow :
    compute_g (Arr.full [1, 128] 1) (Arr.full [1, 128] 1) (Arr.full [1, 1] 0) [0, 0] = -128 ∧
    Spec.activeCount 128 ((Arr.full [1, 128] 1).row 0) ((Arr.full [1, 128] 1).row 0) = 128 := by
  have h2 : Spec.activeCount 128 ((Arr.full [1, 128] (1 : Int)).row 0)
      ((Arr.full [1, 128] 1).row 0) = 128 := by
    simp [Spec.activeCount, Arr.full, Arr.row]
  refine ⟨?_, h2⟩
  rw [(C08_compute_g_wraps 1 1 128 _ _ _ rfl rfl rfl).2 0 0 (by omega) (by omega) (by decide)
    (by decide), h2]
  decide

/-- non-vacuity of C08: a non-zero count within range -/
example : compute_g (Arr.mat 2 [[1, 1]] 1) (Arr.mat 2 [[1, 1]] 1) (Arr.full [1, 1] 5) [0, 0] = 7 := by
  decide

end LFM
