import Verif.Model.Fuzzy
import Verif.Lemmas.Prob
import Verif.Lemmas.Loops
import Verif.Lemmas.Counting
import Verif.Lemmas.Generate
import Mathlib.Algebra.BigOperators.Fin

/-! Closed forms of the fuzzy kernels. -/

namespace LFM

open Spec

theorem foldl_mul {α : Type} (xs : List α) (c : ℝ) (t : α → ℝ) :
    xs.foldl (fun b a => b * t a) c = c * (xs.map t).prod := by
  induction xs generalizing c with
  | nil => simp
  | cons x xs ih => simp [ih, mul_assoc]

theorem prod_map_range (n : Nat) (t : Nat → ℝ) :
    ((List.range n).map t).prod = ∏ i : Fin n, t i := by
  rw [Finset.prod_range t |>.symm]; rfl

/-- `out *= g l; return 1 - out` -/
theorem run_prod (n : Nat) (g : Nat → ℝ) :
    (Id.run do
      let mut out : ℝ := 1
      for l in List.range n do
        out := out * g l
      return 1 - out) = 1 - ∏ l : Fin n, g l := by
  simp only [Id.run_bind, Id.run_pure]
  rw [run_forIn_yield _ _ _ (fun b l => b * g l) (by intros; rfl), foldl_mul, one_mul, prod_map_range]

theorem prod_if_ne (n : Nat) (j : Fin n) (g : Nat → ℝ) :
    ((List.range n).map fun l' => if (j : Nat) ≠ l' then g l' else 1).prod =
      ∏ i ∈ Finset.univ.erase j, g i := by
  rw [prod_map_range n (fun l' => if (j : Nat) ≠ l' then g l' else 1),
    ← Finset.mul_prod_erase _ _ (Finset.mem_univ j)]
  simp only [ne_eq, not_true_eq_false, if_false, one_mul]
  refine Finset.prod_congr rfl fun i hi => ?_
  rw [if_pos]
  intro h
  exact Finset.ne_of_mem_erase hi (Fin.ext h.symm)

/-- the double loop of the XOR kernels -/
theorem run_xor_sum (n : Nat) (g : Nat → ℝ) (h : Nat → ℝ → ℝ) :
    (Id.run do
      let mut out : ℝ := 0
      for l in List.range n do
        let mut temp : ℝ := 1
        for l_prime in List.range n do
          if l ≠ l_prime then
            temp := temp * g l_prime
        out := out + h l temp
      return out) = ∑ l : Fin n, h l (∏ i ∈ Finset.univ.erase l, g i) := by
  simp only [Id.run_bind, Id.run_pure]
  rw [run_forIn_yield _ _ _ (fun b l => b + h l ((List.range n).map fun l' =>
    if l ≠ l' then g l' else 1).prod) ?_]
  · have : ∀ (xs : List Nat) (c : ℝ) (t : Nat → ℝ), xs.foldl (fun b a => b + t a) c = c + (xs.map t).sum := by
      intro xs
      induction xs with
      | nil => simp
      | cons x xs ih => intro c t; simp [ih, add_assoc]
    rw [this, zero_add, sum_map_range n]
    refine Finset.sum_congr rfl fun j _ => ?_
    rw [prod_if_ne]
  · intro l b
    simp only [Id.run_bind, Id.run_pure]
    rw [run_forIn_yield _ _ _ (fun b l' => b * (if l ≠ l' then g l' else 1)) ?_, foldl_mul, one_mul]
    intro l' b
    split
    · rename_i hne
      simp
    · rename_i hne
      simp

theorem p2 (o : LOp) (z u : ℝ) : bernProb ![z, u] o.Holds = match o with
    | .AND => z * u
    | .NAND => 1 - z * u
    | .OR => 1 - (1 - z) * (1 - u)
    | .NOR => (1 - z) * (1 - u)
    | .XOR => z * (1 - u) + u * (1 - z)
    | .NXOR => 1 - (z * (1 - u) + u * (1 - z)) := by
  have hx : ∑ j : Fin 2, ![z, u] j * @Finset.prod (Fin 2) ℝ _ (@Finset.erase (Fin 2)
      (fun a b => Classical.propDecidable (a = b)) Finset.univ j) (fun i => 1 - ![z, u] i) =
      z * (1 - u) + u * (1 - z) := by
    rw [Fin.sum_univ_two]
    have e0 : @Finset.erase (Fin 2) (fun a b => Classical.propDecidable (a = b)) Finset.univ 0 = {1} := by
      ext i; fin_cases i <;> simp
    have e1 : @Finset.erase (Fin 2) (fun a b => Classical.propDecidable (a = b)) Finset.univ 1 = {0} := by
      ext i; fin_cases i <;> simp
    rw [e0, e1]
    simp
  cases o
  · rw [bernProb_AND]; simp [Fin.prod_univ_two]
  · rw [bernProb_NAND]; simp [Fin.prod_univ_two]
  · rw [bernProb_OR]; simp [Fin.prod_univ_two]
  · rw [bernProb_NOR]; simp [Fin.prod_univ_two]
  · rw [bernProb_XOR, hx]
  · rw [bernProb_NXOR, hx]

theorem p3 (o : LOp) (z u v : ℝ) : bernProb ![z, u, v] o.Holds = match o with
    | .AND => z * u * v
    | .NAND => 1 - z * u * v
    | .OR => 1 - (1 - z) * (1 - u) * (1 - v)
    | .NOR => (1 - z) * (1 - u) * (1 - v)
    | .XOR => z * ((1 - u) * (1 - v)) + u * ((1 - z) * (1 - v)) + v * ((1 - z) * (1 - u))
    | .NXOR => 1 - (z * ((1 - u) * (1 - v)) + u * ((1 - z) * (1 - v)) + v * ((1 - z) * (1 - u))) := by
  have hx : ∑ j : Fin 3, ![z, u, v] j * @Finset.prod (Fin 3) ℝ _ (@Finset.erase (Fin 3)
      (fun a b => Classical.propDecidable (a = b)) Finset.univ j) (fun i => 1 - ![z, u, v] i) =
      z * ((1 - u) * (1 - v)) + u * ((1 - z) * (1 - v)) + v * ((1 - z) * (1 - u)) := by
    rw [Fin.sum_univ_three]
    have e0 : @Finset.erase (Fin 3) (fun a b => Classical.propDecidable (a = b)) Finset.univ 0 = {1, 2} := by
      ext i; fin_cases i <;> simp
    have e1 : @Finset.erase (Fin 3) (fun a b => Classical.propDecidable (a = b)) Finset.univ 1 = {0, 2} := by
      ext i; fin_cases i <;> simp
    have e2 : @Finset.erase (Fin 3) (fun a b => Classical.propDecidable (a = b)) Finset.univ 2 = {0, 1} := by
      ext i; fin_cases i <;> simp
    rw [e0, e1, e2, Finset.prod_pair (by decide), Finset.prod_pair (by decide), Finset.prod_pair (by decide)]
    simp
  cases o
  · rw [bernProb_AND]; simp [Fin.prod_univ_three]
  · rw [bernProb_NAND]; simp [Fin.prod_univ_three]
  · rw [bernProb_OR]; simp [Fin.prod_univ_three]
  · rw [bernProb_NOR]; simp [Fin.prod_univ_three]
  · rw [bernProb_XOR, hx]
  · rw [bernProb_NXOR, hx]

theorem bernProb_XOR_fin {n : Nat} (p : Fin n → ℝ) : bernProb p (LOp.Holds .XOR) =
    ∑ j, p j * ∏ i ∈ Finset.univ.erase j, (1 - p i) := by
  rw [bernProb_XOR]; congr!

theorem bernProb_NXOR_fin {n : Nat} (p : Fin n → ℝ) : bernProb p (LOp.Holds .NXOR) =
    1 - ∑ j, p j * ∏ i ∈ Finset.univ.erase j, (1 - p i) := by
  rw [bernProb_NXOR]; congr!

/-- the eight scalar kernels for two factors -/
theorem fuzzy2_scalar (m : Lom8) : ∃ f, get_scalar_output_function_2d_fuzzy m.name = some f ∧
    ∀ (L : Nat) (z u : Arr ℝ), z.shape = [L] →
      f z u = lomProb m.outer m.inner fun l : Fin L => ![z [(l : Nat)], u [(l : Nat)]] := by
  cases m <;> refine ⟨_, rfl, fun L z u hz => ?_⟩ <;> rw [lomProb_eq] <;>
    simp only [Lom8.inner, Lom8.outer, p2]
  · refine (run_prod (z.dim 0) fun l => 1 - z [l] * u [l]).trans ?_
    rw [bernProb_OR, show z.dim 0 = L by simp [Arr.dim, hz]]
  · refine (run_prod (z.dim 0) fun l => z [l] * u [l]).trans ?_
    rw [bernProb_OR, show z.dim 0 = L by simp [Arr.dim, hz]]
    simp
  · refine (run_prod (z.dim 0) fun l => z [l] * u [l] + (1 - z [l]) * (1 - u [l])).trans ?_
    rw [bernProb_OR, show z.dim 0 = L by simp [Arr.dim, hz]]
    refine congrArg (1 - ·) (Finset.prod_congr rfl fun l _ => ?_)
    ring
  · refine (run_prod (z.dim 0) fun l => z [l] * (1 - u [l]) + u [l] * (1 - z [l])).trans ?_
    rw [bernProb_NAND, show z.dim 0 = L by simp [Arr.dim, hz]]
  · refine (run_xor_sum (z.dim 0) (fun l => 1 - z [l] * u [l]) fun l t => z [l] * u [l] * t).trans ?_
    rw [bernProb_XOR_fin, show z.dim 0 = L by simp [Arr.dim, hz]]
  · refine (run_xor_sum (z.dim 0) (fun l => z [l] * u [l] + (1 - z [l]) * (1 - u [l]))
      fun l t => t * ((1 - z [l]) * u [l] + (1 - u [l]) * z [l])).trans ?_
    rw [bernProb_XOR_fin, show z.dim 0 = L by simp [Arr.dim, hz]]
    refine Finset.sum_congr rfl fun l _ => ?_
    rw [mul_comm]
    congr 1
    · ring
    · exact Finset.prod_congr rfl fun l _ => by ring
  · refine (run_xor_sum (z.dim 0) (fun l => z [l] * (1 - u [l]) + (1 - z [l]) * u [l])
      fun l t => t * (z [l] * u [l] + (1 - u [l]) * (1 - z [l]))).trans ?_
    rw [bernProb_XOR_fin, show z.dim 0 = L by simp [Arr.dim, hz]]
    refine Finset.sum_congr rfl fun l _ => ?_
    rw [mul_comm]
    congr 1
    · ring
    · exact Finset.prod_congr rfl fun l _ => by ring
  · refine (run_xor_sum (z.dim 0) (fun l => z [l] * u [l]) fun l t => (1 - z [l] * u [l]) * t).trans ?_
    rw [bernProb_XOR_fin, show z.dim 0 = L by simp [Arr.dim, hz]]
    refine Finset.sum_congr rfl fun l _ => ?_
    congr 1
    exact Finset.prod_congr rfl fun l _ => by ring

/-- the three-factor kernels other than OR-XOR -/
theorem fuzzy3_scalar (m : Lom8) (hm : m ≠ .OR_XOR) :
    ∃ f, get_scalar_output_function_3d_fuzzy m.name = some f ∧
    ∀ (L : Nat) (z u v : Arr ℝ), z.shape = [L] →
      f z u v = lomProb m.outer m.inner fun l : Fin L => ![z [(l : Nat)], u [(l : Nat)], v [(l : Nat)]] := by
  cases m
  case OR_XOR => exact absurd rfl hm
  all_goals refine ⟨_, rfl, fun L z u v hz => ?_⟩
  all_goals rw [lomProb_eq]
  all_goals simp only [Lom8.inner, Lom8.outer, p3]
  · refine (run_prod (z.dim 0) fun l => 1 - z [l] * u [l] * v [l]).trans ?_
    rw [bernProb_OR, show z.dim 0 = L by simp [Arr.dim, hz]]
  · refine (run_prod (z.dim 0) fun l => z [l] * u [l] * v [l]).trans ?_
    rw [bernProb_OR, show z.dim 0 = L by simp [Arr.dim, hz]]
    simp
  · refine (run_prod (z.dim 0) fun l => z [l] * (1 - u [l]) * (1 - v [l]) +
      v [l] * (1 - z [l]) * (1 - u [l]) + u [l] * (1 - v [l]) * (1 - z [l])).trans ?_
    rw [bernProb_NAND, show z.dim 0 = L by simp [Arr.dim, hz]]
    refine congrArg (1 - ·) (Finset.prod_congr rfl fun l _ => ?_)
    ring
  · refine (run_xor_sum (z.dim 0) (fun l => 1 - z [l] * u [l] * v [l])
      fun l t => z [l] * u [l] * v [l] * t).trans ?_
    rw [bernProb_XOR_fin, show z.dim 0 = L by simp [Arr.dim, hz]]
  · refine (run_xor_sum (z.dim 0) (fun l => 1 - p_XOR_fuzzy_3d (z [l]) (u [l]) (v [l]))
      fun l t => t * p_XOR_fuzzy_3d (z [l]) (u [l]) (v [l])).trans ?_
    rw [bernProb_XOR_fin, show z.dim 0 = L by simp [Arr.dim, hz]]
    refine Finset.sum_congr rfl fun l _ => ?_
    rw [mul_comm]
    unfold p_XOR_fuzzy_3d
    congr 1
    · ring
    · exact Finset.prod_congr rfl fun l _ => by ring
  · refine (run_xor_sum (z.dim 0) (fun l => p_XOR_fuzzy_3d (z [l]) (u [l]) (v [l]))
      fun l t => t * (1 - p_XOR_fuzzy_3d (z [l]) (u [l]) (v [l]))).trans ?_
    rw [bernProb_XOR_fin, show z.dim 0 = L by simp [Arr.dim, hz]]
    refine Finset.sum_congr rfl fun l _ => ?_
    rw [mul_comm]
    unfold p_XOR_fuzzy_3d
    congr 1
    · ring
    · exact Finset.prod_congr rfl fun l _ => by ring
  · refine (run_xor_sum (z.dim 0) (fun l => z [l] * u [l] * v [l])
      fun l t => (1 - z [l] * u [l] * v [l]) * t).trans ?_
    rw [bernProb_XOR_fin, show z.dim 0 = L by simp [Arr.dim, hz]]
    refine Finset.sum_congr rfl fun l _ => ?_
    congr 1
    exact Finset.prod_congr rfl fun l _ => by ring

/-- what the three-factor OR-XOR kernel computes: two of its three signs are wrong -/
theorem fuzzy3_or_xor (L : Nat) (z u v : Arr ℝ) (hz : z.shape = [L]) :
    OR_XOR_product_fuzzy_3d z u v = 1 - ∏ l : Fin L, (1 - z [(l : Nat)] * (1 - u [(l : Nat)]) * (1 - v [(l : Nat)]) +
      u [(l : Nat)] * (1 - v [(l : Nat)]) * (1 - z [(l : Nat)]) +
      v [(l : Nat)] * (1 - z [(l : Nat)]) * (1 - u [(l : Nat)])) := by
  refine (run_prod (z.dim 0) fun l => 1 - z [l] * (1 - u [l]) * (1 - v [l]) +
      u [l] * (1 - v [l]) * (1 - z [l]) + v [l] * (1 - z [l]) * (1 - u [l])).trans ?_
  rw [show z.dim 0 = L by simp [Arr.dim, hz]]

theorem fuzzy_xor_eq (n : Nat) (x : Nat → ℝ) : fuzzy_xor ((List.range n).map x) =
    ∑ j : Fin n, x j * ∏ i ∈ Finset.univ.erase j, (1 - x i) := by
  unfold fuzzy_xor
  rw [List.length_map, List.length_range, sum_map_range n]
  refine Finset.sum_congr rfl fun j _ => ?_
  rw [List.prod_append, mul_comm]
  congr 1
  · simp
  · rw [← prod_if_ne n j fun i => 1 - x i]
    have h : ∀ xs : List Nat, (∀ i ∈ xs, i < n) →
        ((xs.filter fun i => i ≠ (j : Nat)).map fun i => 1 - ((List.range n).map x).getD i 0).prod =
        (xs.map fun l' => if (j : Nat) ≠ l' then 1 - x l' else 1).prod := by
      intro xs
      induction xs with
      | nil => simp
      | cons a xs ih =>
        intro hl
        have ha := hl a List.mem_cons_self
        have ih := ih fun i hi => hl i (List.mem_cons_of_mem _ hi)
        by_cases hj : a = (j : Nat)
        · rw [List.filter_cons_of_neg (by simp [hj]), ih]; simp [hj]
        · rw [List.filter_cons_of_pos (by simp [hj]), List.map_cons, List.prod_cons, ih, List.map_cons,
            List.prod_cons, if_pos (fun h => hj h.symm)]
          simp [ha]
    exact h _ fun i hi => List.mem_range.1 hi

/-- `get_fuzzy_lop` finds each of the six operators, and the function it returns computes its probability -/
theorem get_fuzzy_lop_spec (o : LOp) : ∃ f, get_fuzzy_lop o.name = .ok f ∧
    ∀ (n : Nat) (x : Nat → ℝ), f ((List.range n).map x) = bernProb (fun i : Fin n => x i) o.Holds := by
  cases o <;> refine ⟨_, rfl, fun n x => ?_⟩
  · rw [bernProb_AND, ← prod_map_range]
  · rw [bernProb_NAND, ← prod_map_range]
  · rw [bernProb_OR, ← prod_map_range n fun i => 1 - x i, List.map_map]; rfl
  · rw [bernProb_NOR, ← prod_map_range n fun i => 1 - x i, List.map_map]; rfl
  · rw [bernProb_XOR_fin, fuzzy_xor_eq]
  · rw [bernProb_NXOR_fin]
    exact congrArg (1 - ·) (fuzzy_xor_eq n x)

theorem get_fuzzy_lop_ok {name : String} {f : List ℝ → ℝ} (h : get_fuzzy_lop name = .ok f) :
    ∃ o : LOp, name = o.name := by
  unfold get_fuzzy_lop at h
  split_ifs at h with h1 h2 h3 h4 h5 h6
  exacts [⟨.OR, h1⟩, ⟨.NOR, h2⟩, ⟨.AND, h3⟩, ⟨.NAND, h4⟩, ⟨.XOR, h5⟩, ⟨.NXOR, h6⟩]

end LFM
