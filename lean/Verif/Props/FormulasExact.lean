import Verif.Props.Density
import Verif.Props.Fuzzy

/-!
# C13, C53: exactly when the two wrong formulas are right
-/

namespace LFM

open Spec

/-- the probability of no bit, one bit or all bits, of at least two, is at most 1, and less than 1 for three or more -/
theorem three_terms {f : ℝ} (h0 : 0 < f) (h1 : f < 1) : ∀ K : Nat, 2 ≤ K →
    f ^ K + (1 - f) ^ K + K * (f * (1 - f) ^ (K - 1)) ≤ 1 ∧
    (3 ≤ K → f ^ K + (1 - f) ^ K + K * (f * (1 - f) ^ (K - 1)) < 1) := by
  have hg : 0 < 1 - f := by linarith
  intro K hK
  induction K, hK using Nat.le_induction with
  | base => norm_num; nlinarith
  | succ K hK ih =>
    obtain ⟨j, rfl⟩ : ∃ j, K = j + 2 := ⟨K - 2, by omega⟩
    have h2 := ih.1
    have hpos : 0 < f ^ (j + 2) * (1 - f) + (j + 2) * f ^ 2 * (1 - f) ^ (j + 1) := by positivity
    have e : f ^ (j + 2 + 1) + (1 - f) ^ (j + 2 + 1) + ((j + 2 + 1 : Nat) : ℝ) * (f * (1 - f) ^ (j + 2 + 1 - 1)) =
        (f ^ (j + 2) + (1 - f) ^ (j + 2) + ((j + 2 : Nat) : ℝ) * (f * (1 - f) ^ (j + 2 - 1))) -
          (f ^ (j + 2) * (1 - f) + (j + 2) * f ^ 2 * (1 - f) ^ (j + 1)) := by
      simp only [Nat.add_sub_cancel, show j + 2 - 1 = j + 1 from rfl]
      push_cast
      ring
    rw [e]
    exact ⟨by linarith, fun _ => by linarith⟩

/-- **C13** for the two remaining models: with three or more factors, two or more dimensions and a density strictly between 0
and 1, the number for XOR-XOR is too small and the number for NXOR-XOR too large. -/
theorem C13_too_small (L K : Nat) (f : ℝ) (hL : 2 ≤ L) (hK : 3 ≤ K) (h0 : 0 < f) (h1 : f < 1) :
    (∃ x, expected_density "XOR-XOR" L K f = .ok x ∧ x < lomProb (L := L) (K := K) .XOR .XOR fun _ _ => f) ∧
    ∃ x, expected_density "NXOR-XOR" L K f = .ok x ∧ lomProb (L := L) (K := K) .NXOR .XOR (fun _ _ => f) < x := by
  have hg : 0 < 1 - f := by linarith
  have ht := (three_terms h0 h1 K (by omega)).2 hK
  have hlt : (f ^ K + (1 - f) ^ K) ^ (L - 1) < (1 - K * (f * (1 - f) ^ (K - 1))) ^ (L - 1) :=
    pow_lt_pow_left₀ (by linarith) (by positivity) (by omega)
  have hKpos : (0 : ℝ) < K := by exact_mod_cast (by omega : 0 < K)
  have hLpos : (0 : ℝ) < L := by exact_mod_cast (by omega : 0 < L)
  have key : (L : ℝ) * (K * f * (1 - f) ^ (K - 1) * (f ^ K + (1 - f) ^ K) ^ (L - 1)) <
      L * ((K * (f * (1 - f) ^ (K - 1))) * (1 - K * (f * (1 - f) ^ (K - 1))) ^ (L - 1)) := by
    have : (K : ℝ) * f * (1 - f) ^ (K - 1) = K * (f * (1 - f) ^ (K - 1)) := by ring
    rw [this]
    exact mul_lt_mul_of_pos_left (mul_lt_mul_of_pos_left hlt (by positivity)) hLpos
  refine ⟨⟨_, rfl, ?_⟩, ⟨_, rfl, ?_⟩⟩
  · rw [lomProb_const]
    exact key
  · rw [lomProb_const]
    show 1 - _ < 1 - _
    exact sub_lt_sub_left key 1

/-- **C13**, exactly: for two or more factors, `expected_density` is the probability that a cell is 1 if and only if the model is
none of XOR-XOR and NXOR-XOR, or there are two factors, or one dimension, or the density is 0 or 1. -/
theorem C13_iff (o i : LOp) (L K : Nat) (f : ℝ) (hL : 1 ≤ L) (hK : 2 ≤ K) (h0 : 0 ≤ f) (h1 : f ≤ 1) :
    expected_density (modelName o i) L K f = .ok (lomProb (L := L) (K := K) o i fun _ _ => f) ↔
      ¬ (i = .XOR ∧ (o = .XOR ∨ o = .NXOR)) ∨ K = 2 ∨ L = 1 ∨ f = 0 ∨ f = 1 := by
  constructor
  · intro he
    by_contra hc
    push Not at hc
    obtain ⟨⟨rfl, ho⟩, hK2, hL1, hf0, hf1⟩ := hc
    obtain ⟨⟨x, hx, hlt⟩, ⟨y, hy, hlt'⟩⟩ := C13_too_small L K f (by omega) (by omega) (lt_of_le_of_ne h0 (Ne.symm hf0))
      (lt_of_le_of_ne h1 hf1)
    rcases ho with rfl | rfl
    · rw [show modelName .XOR .XOR = "XOR-XOR" from rfl, hx] at he
      exact absurd (Except.ok.inj he) hlt.ne
    · rw [show modelName .NXOR .XOR = "NXOR-XOR" from rfl, hy] at he
      exact absurd (Except.ok.inj he) hlt'.ne'
  · rintro (h | h | h | h)
    · exact C13_expected_density_partial o i L K f hL (by omega) (.inl h)
    · exact C13_expected_density_partial o i L K f hL (by omega) (.inr (.inl h))
    · exact C13_expected_density_partial o i L K f hL (by omega) (.inr (.inr h))
    · by_cases hm : ¬ (i = .XOR ∧ (o = .XOR ∨ o = .NXOR))
      · exact C13_expected_density_partial o i L K f hL (by omega) (.inl hm)
      · rw [not_not] at hm
        obtain ⟨rfl, ho⟩ := hm
        have hz : (K : ℝ) * f * (1 - f) ^ (K - 1) = 0 := by
          rcases h with rfl | rfl
          · simp
          · simp [show K - 1 ≠ 0 by omega]
        have hz' : (K : ℝ) * (f * (1 - f) ^ (K - 1)) = 0 := by rw [← mul_assoc]; exact hz
        rw [lomProb_const]
        rcases ho with rfl | rfl
        · refine congrArg Except.ok ?_
          show (L : ℝ) * (K * f * (1 - f) ^ (K - 1) * (f ^ K + (1 - f) ^ K) ^ (L - 1)) =
            L * ((K * (f * (1 - f) ^ (K - 1))) * (1 - K * (f * (1 - f) ^ (K - 1))) ^ (L - 1))
          rw [hz, hz', zero_mul, zero_mul]
        · refine congrArg Except.ok ?_
          show 1 - (L : ℝ) * (K * f * (1 - f) ^ (K - 1) * (f ^ K + (1 - f) ^ K) ^ (L - 1)) =
            1 - L * ((K * (f * (1 - f) ^ (K - 1))) * (1 - K * (f * (1 - f) ^ (K - 1))) ^ (L - 1))
          rw [hz, hz', zero_mul, zero_mul]

/-- products of factors of which each is at least the other, and the others are not negative, are equal only if one of the
former is zero or the factors are equal -/
theorem prod_eq_iff {L : Nat} {a b : Fin L → ℝ} (hb : ∀ l, 0 ≤ b l) (hab : ∀ l, b l ≤ a l) :
    ∏ l, b l ≤ ∏ l, a l ∧ (∏ l, a l = ∏ l, b l ↔ (∃ l, a l = 0) ∨ ∀ l, a l = b l) := by
  refine ⟨Finset.prod_le_prod (fun l _ => hb l) fun l _ => hab l, ?_, ?_⟩
  · intro he
    by_contra hc
    push Not at hc
    obtain ⟨h0, l, hl⟩ := hc
    have hpos : ∀ l, 0 < a l := fun l => lt_of_le_of_ne ((hb l).trans (hab l)) (Ne.symm (h0 l))
    by_cases hz : ∃ l, b l = 0
    · obtain ⟨m, hm⟩ := hz
      rw [Finset.prod_eq_zero (f := b) (Finset.mem_univ m) hm] at he
      exact (Finset.prod_pos fun l _ => hpos l).ne' he
    · push Not at hz
      have := Finset.prod_lt_prod (f := b) (g := a) (s := Finset.univ) (fun l _ => lt_of_le_of_ne (hb l) (Ne.symm (hz l))) (fun l _ => hab l)
        ⟨l, Finset.mem_univ l, lt_of_le_of_ne (hab l) (Ne.symm hl)⟩
      exact this.ne he.symm
  · rintro (⟨l, hl⟩ | h)
    · rw [Finset.prod_eq_zero (f := a) (Finset.mem_univ l) hl, Finset.prod_eq_zero (f := b) (Finset.mem_univ l)]
      exact le_antisymm (hl ▸ hab l) (hb l)
    · exact Finset.prod_congr rfl fun l _ => h l

/-- **C53** for OR-XOR, exactly: three-factor outputs are never larger than the probability, and equal to it if and only if in
some dimension the bits are certainly 1, 0, 0, or in every dimension the first bit is certainly 1 or the others are certain and
equal. -/
theorem C53_or_xor_iff (N D M L : Nat) (Z U V : Arr ℝ) (hZ : Z.shape = [N, L]) (hU : U.shape = [D, L]) (hV : V.shape = [M, L])
    (pZ : ProbArr Z) (pU : ProbArr U) (pV : ProbArr V) :
    ∃ X, output_function_3d_fuzzy "OR-XOR" Z U V = .ok X ∧ X.shape = [N, D, M] ∧ ∀ n < N, ∀ d < D, ∀ k < M,
      X [n, d, k] ≤ lomProb .OR .XOR (fun l : Fin L => ![Z [n, l], U [d, l], V [k, l]]) ∧
      (X [n, d, k] = lomProb .OR .XOR (fun l : Fin L => ![Z [n, l], U [d, l], V [k, l]]) ↔
        (∃ l < L, Z [n, l] = 1 ∧ U [d, l] = 0 ∧ V [k, l] = 0) ∨
        ∀ l < L, Z [n, l] = 1 ∨ (U [d, l] = 0 ∧ V [k, l] = 0) ∨ (U [d, l] = 1 ∧ V [k, l] = 1)) := by
  have h := fill3 N D M (fun n d k => OR_XOR_product_fuzzy_3d (Z.row n) (U.row d) (V.row k)) (Arr.full [N, D, M] 0)
  have e : output_function_3d_fuzzy "OR-XOR" Z U V = .ok ((List.range N).foldl
      (fun X n => (List.range D).foldl (fun X d => (List.range M).foldl (fun X k =>
        X.set [n, d, k] (OR_XOR_product_fuzzy_3d (Z.row n) (U.row d) (V.row k))) X) X)
      (Arr.full [N, D, M] 0)) := by
    unfold output_function_3d_fuzzy
    rw [show get_scalar_output_function_3d_fuzzy "OR-XOR" = some OR_XOR_product_fuzzy_3d from rfl]
    refine congrArg Except.ok ?_
    simp only [Id.run_bind, Id.run_pure]
    rw [show Z.dim 0 = N by simp [Arr.dim, hZ], show U.dim 0 = D by simp [Arr.dim, hU],
      show V.dim 0 = M by simp [Arr.dim, hV]]
    rw [run_forIn_yield _ _ _ _ (by
      intro n X
      simp only [Id.run_bind, Id.run_pure]
      rw [run_forIn_yield _ _ _ _ (by
        intro d X
        simp only [Id.run_bind, Id.run_pure]
        rw [run_forIn_yield _ _ _ _ (by intros; rfl)])])]
  refine ⟨_, e, h.1, fun n hn d hd k hk => ?_⟩
  rw [h.2 n d k hn hd hk, fuzzy3_or_xor L _ _ _ (by simp [Arr.row, hZ]), lomProb_eq, bernProb_OR]
  obtain ⟨z, hz⟩ : ∃ z : Fin L → ℝ, z = fun l : Fin L => Z [n, (l : Nat)] := ⟨_, rfl⟩
  obtain ⟨u, hu⟩ : ∃ u : Fin L → ℝ, u = fun l : Fin L => U [d, (l : Nat)] := ⟨_, rfl⟩
  obtain ⟨v, hv⟩ : ∃ v : Fin L → ℝ, v = fun l : Fin L => V [k, (l : Nat)] := ⟨_, rfl⟩
  have hz' : ∀ l, 0 ≤ z l ∧ z l ≤ 1 := fun l => hz ▸ pZ.at2 hZ hn l.2
  have hu' : ∀ l, 0 ≤ u l ∧ u l ≤ 1 := fun l => hu ▸ pU.at2 hU hd l.2
  have hv' : ∀ l, 0 ≤ v l ∧ v l ≤ 1 := fun l => hv ▸ pV.at2 hV hk l.2
  obtain ⟨a, ha⟩ : ∃ a : Fin L → ℝ, a = fun l => 1 - z l * (1 - u l) * (1 - v l) + u l * (1 - v l) * (1 - z l) +
    v l * (1 - z l) * (1 - u l) := ⟨_, rfl⟩
  obtain ⟨b, hb⟩ : ∃ b : Fin L → ℝ, b = fun l => 1 - bernProb ![z l, u l, v l] (LOp.Holds .XOR) := ⟨_, rfl⟩
  have hb0 : ∀ l, 0 ≤ b l := by
    intro l
    have := (bernProb_mem (p := ![z l, u l, v l]) (by
      intro i; fin_cases i
      · exact hz' l
      · exact hu' l
      · exact hv' l) (LOp.Holds .XOR)).2
    rw [hb]
    linarith
  have hdiff : ∀ l, a l - b l = 2 * ((1 - z l) * (u l * (1 - v l) + v l * (1 - u l))) := by
    intro l
    rw [ha, hb]
    simp only [p3]
    ring
  have hnn : ∀ l, 0 ≤ (1 - z l) * (u l * (1 - v l) + v l * (1 - u l)) := fun l =>
    mul_nonneg (by linarith [(hz' l).2]) (add_nonneg (mul_nonneg (hu' l).1 (by linarith [(hv' l).2]))
      (mul_nonneg (hv' l).1 (by linarith [(hu' l).2])))
  have hab : ∀ l, b l ≤ a l := fun l => by linarith [hdiff l, hnn l]
  have hkey := prod_eq_iff hb0 hab
  have ea : (∏ l : Fin L, (1 - (Z.row n) [(l : Nat)] * (1 - (U.row d) [(l : Nat)]) * (1 - (V.row k) [(l : Nat)]) +
      (U.row d) [(l : Nat)] * (1 - (V.row k) [(l : Nat)]) * (1 - (Z.row n) [(l : Nat)]) +
      (V.row k) [(l : Nat)] * (1 - (Z.row n) [(l : Nat)]) * (1 - (U.row d) [(l : Nat)]))) = ∏ l, a l := by
    rw [ha, hz, hu, hv]
    rfl
  have eb : (∏ l : Fin L, (1 - bernProb ![Z [n, (l : Nat)], U [d, (l : Nat)], V [k, (l : Nat)]] (LOp.Holds .XOR))) = ∏ l, b l := by
    rw [hb, hz, hu, hv]
  rw [ea, eb]
  refine ⟨by linarith [hkey.1], ?_⟩
  rw [sub_right_inj, hkey.2]
  refine or_congr ?_ ?_
  · constructor
    · rintro ⟨l, hl⟩
      refine ⟨l, l.2, ?_⟩
      have q1 := hz' l
      have q2 := hu' l
      have q3 := hv' l
      rw [ha] at hl
      simp only at hl
      have r1 : 0 ≤ u l * (1 - v l) * (1 - z l) := mul_nonneg (mul_nonneg q2.1 (by linarith)) (by linarith)
      have r2 : 0 ≤ v l * (1 - z l) * (1 - u l) := mul_nonneg (mul_nonneg q3.1 (by linarith)) (by linarith)
      have r3 : 1 ≤ z l * (1 - u l) * (1 - v l) := by linarith
      have r4 : z l * (1 - u l) ≤ 1 := by nlinarith
      have r5 : 0 ≤ z l * (1 - u l) := mul_nonneg q1.1 (by linarith)
      have r6 : z l * (1 - u l) * (1 - v l) ≤ z l * (1 - u l) := by nlinarith
      have r7 : z l * (1 - u l) ≤ z l := by nlinarith [q1.1, q2.1]
      have s1 : z l = 1 := by linarith
      have s2 : u l = 0 := by rw [s1] at r6 r3; nlinarith
      have s3 : v l = 0 := by rw [s1, s2] at r3; linarith
      rw [hz] at s1
      rw [hu] at s2
      rw [hv] at s3
      exact ⟨s1, s2, s3⟩
    · rintro ⟨l, hl, h1, h2, h3⟩
      refine ⟨⟨l, hl⟩, ?_⟩
      rw [ha, hz, hu, hv]
      simp [h1, h2, h3]
  · have hpt : ∀ l, a l = b l ↔ z l = 1 ∨ (u l = 0 ∧ v l = 0) ∨ (u l = 1 ∧ v l = 1) := by
      intro l
      have hd := hdiff l
      have q2 := hu' l
      have q3 := hv' l
      constructor
      · intro hl
        rw [hl, sub_self] at hd
        have hd' : (1 - z l) * (u l * (1 - v l) + v l * (1 - u l)) = 0 := by linarith
        rcases mul_eq_zero.1 hd' with h | h
        · exact .inl (by linarith)
        · right
          have t1 : 0 ≤ u l * (1 - v l) := mul_nonneg q2.1 (by linarith)
          have t2 : 0 ≤ v l * (1 - u l) := mul_nonneg q3.1 (by linarith)
          have t3 : u l * (1 - v l) = 0 := by linarith
          have t4 : v l * (1 - u l) = 0 := by linarith
          rcases mul_eq_zero.1 t3 with t | t
          · left
            rw [t] at t4
            exact ⟨t, by linarith⟩
          · right
            have : v l = 1 := by linarith
            rw [this] at t4
            exact ⟨by linarith, this⟩
      · intro hl
        have : (1 - z l) * (u l * (1 - v l) + v l * (1 - u l)) = 0 := by
          rcases hl with h | ⟨h, h'⟩ | ⟨h, h'⟩
          · rw [h]; ring
          · rw [h, h']; ring
          · rw [h, h']; ring
        rw [this] at hd
        linarith
    constructor
    · intro hl l hlL
      have := (hpt ⟨l, hlL⟩).1 (hl _)
      rw [hz, hu, hv] at this
      exact this
    · intro hl l
      rw [hpt l, hz, hu, hv]
      exact hl l l.2

/-- hypotheses of `C53_or_xor_iff` met, with a cell that is right and one that is wrong -/
example : ProbArr (Arr.mat 1 [[(1 : ℝ)], [0]] 0) ∧ (Arr.mat 1 [[(1 : ℝ)], [0]] 0) [0, 0] = 1 ∧
    (Arr.mat 1 [[(1 : ℝ)], [0]] 0) [1, 0] = 0 := by
  refine ⟨fun idx hidx => ?_, by simp [Arr.mat], by simp [Arr.mat]⟩
  match idx, hidx with
  | [n, l], hidx =>
    obtain ⟨h1, h2, -⟩ := hidx
    simp only [Arr.mat, List.length_cons, List.length_nil] at h1 h2
    obtain rfl : l = 0 := by omega
    obtain rfl | rfl : n = 0 ∨ n = 1 := by omega
    all_goals simp [Arr.mat]

end LFM
