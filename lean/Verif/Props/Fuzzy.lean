import Verif.Lemmas.Fuzzy
import Verif.Props.Generate

/-!
# C52, C53: fuzzy outputs are exact expectations
-/

namespace LFM

open Spec

/-- all entries are probabilities -/
def Spec.ProbArr (a : Arr ℝ) : Prop := ∀ idx, InB a.shape idx → 0 ≤ a idx ∧ a idx ≤ 1

/-- the array of probabilities that corresponds to a `{-1, 1}` array -/
noncomputable def Spec.toProb (a : Arr Int) : Arr ℝ := a.map fun x : Int => ((x : ℝ) + 1) / 2

/-- **C52**. Each two-factor fuzzy output function returns in cell `(n, d)` the probability that the
machine's formula holds when entry `(n, l)` of the first factor and entry `(d, l)` of the second are
independent bits with the given means. -/
theorem C52_exact_expectation (m : Lom8) (N D L : Nat) (Z U : Arr ℝ)
    (hZ : Z.shape = [N, L]) (hU : U.shape = [D, L]) :
    ∃ X, output_function_2d_fuzzy m.name Z U = .ok X ∧ X.shape = [N, D] ∧
      ∀ n < N, ∀ d < D, X [n, d] = lomProb m.outer m.inner fun l : Fin L => ![Z [n, l], U [d, l]] := by
  obtain ⟨f, hf, hs⟩ := fuzzy2_scalar m
  have h := fill2 N D (fun n d => f (Z.row n) (U.row d)) (Arr.full [N, D] 0)
  have e : output_function_2d_fuzzy m.name Z U = .ok ((List.range N).foldl
      (fun X n => (List.range D).foldl (fun X d => X.set [n, d] (f (Z.row n) (U.row d))) X)
      (Arr.full [N, D] 0)) := by
    unfold output_function_2d_fuzzy
    simp only [hf]
    refine congrArg Except.ok ?_
    simp only [Id.run_bind, Id.run_pure]
    rw [show Z.dim 0 = N by simp [Arr.dim, hZ], show U.dim 0 = D by simp [Arr.dim, hU]]
    rw [run_forIn_yield _ _ _ _ (by
      intro n X
      simp only [Id.run_bind, Id.run_pure]
      rw [run_forIn_yield _ _ _ _ (by intros; rfl)])]
  refine ⟨_, e, h.1, fun n hn d hd => ?_⟩
  rw [h.2 n d hn hd, hs L _ _ (by simp [Arr.row, hZ])]
  rfl

theorem fin2_mem {n : Nat} {p : Fin n → Fin 2 → ℝ} (h0 : ∀ l, 0 ≤ p l 0 ∧ p l 0 ≤ 1)
    (h1 : ∀ l, 0 ≤ p l 1 ∧ p l 1 ≤ 1) (i : Fin n × Fin 2) : 0 ≤ p i.1 i.2 ∧ p i.1 i.2 ≤ 1 := by
  obtain ⟨l, k⟩ := i
  fin_cases k
  · exact h0 l
  · exact h1 l

theorem fin3_mem {n : Nat} {p : Fin n → Fin 3 → ℝ} (h0 : ∀ l, 0 ≤ p l 0 ∧ p l 0 ≤ 1)
    (h1 : ∀ l, 0 ≤ p l 1 ∧ p l 1 ≤ 1) (h2 : ∀ l, 0 ≤ p l 2 ∧ p l 2 ≤ 1) (i : Fin n × Fin 3) :
    0 ≤ p i.1 i.2 ∧ p i.1 i.2 ≤ 1 := by
  obtain ⟨l, k⟩ := i
  fin_cases k
  · exact h0 l
  · exact h1 l
  · exact h2 l

theorem Spec.ProbArr.at2 {a : Arr ℝ} {N L n l : Nat} (h : ProbArr a) (hs : a.shape = [N, L]) (hn : n < N)
    (hl : l < L) : 0 ≤ a [n, l] ∧ a [n, l] ≤ 1 :=
  h _ (by rw [hs]; exact ⟨hn, hl, trivial⟩)

/-- **C52**, consequence: probabilities in, probabilities out. -/
theorem C52_in_unit_interval (m : Lom8) (N D L : Nat) (Z U X : Arr ℝ)
    (hZ : Z.shape = [N, L]) (hU : U.shape = [D, L]) (pZ : ProbArr Z) (pU : ProbArr U)
    (hX : output_function_2d_fuzzy m.name Z U = .ok X) : ProbArr X := by
  obtain ⟨Y, h1, h2, h3⟩ := C52_exact_expectation m N D L Z U hZ hU
  rw [hX] at h1
  obtain rfl := Except.ok.inj h1
  intro idx hidx
  rw [h2] at hidx
  match idx, hidx with
  | [n, d], hidx =>
    rw [h3 n hidx.1 d hidx.2.1]
    exact bernProb_mem (fin2_mem (p := fun l : Fin L => ![Z [n, l], U [d, l]])
      (fun l => pZ.at2 hZ hidx.1 l.2) (fun l => pU.at2 hU hidx.2.1 l.2)) _

theorem crisp_prob {x : Int} (h : IsPM x) : ((x : ℝ) + 1) / 2 = if x = 1 then 1 else 0 := by
  rcases h with rfl | rfl <;> norm_num

theorem lomProb_crisp {L K : Nat} (o i : LOp) (x : Fin L → Fin K → Int) (hx : ∀ l k, IsPM (x l k)) :
    lomProb o i (fun l k => ((x l k : ℝ) + 1) / 2) =
      ((pm (lom o i fun l k => x l k = 1) : Int) + 1 : ℝ) / 2 := by
  classical
  unfold lomProb
  have h : (fun i : Fin L × Fin K => ((x i.1 i.2 : ℝ) + 1) / 2) =
      fun i : Fin L × Fin K => if x i.1 i.2 = 1 then (1 : ℝ) else 0 := by
    funext i; exact crisp_prob (hx _ _)
  have hc := bernProb_crisp (fun i : Fin L × Fin K => x i.1 i.2 = 1)
    fun b => lom o i fun l k => b (l, k)
  simp only [h]
  refine Eq.trans ?_ (hc.trans ?_)
  · congr!
  · rw [pm_eq_ite]
    by_cases hk : lom o i fun l k => x l k = 1
    · simp only [if_pos hk]; norm_num
    · simp only [if_neg hk]; norm_num

theorem vec2_prob (a b : Int) : (![((a : ℝ) + 1) / 2, ((b : ℝ) + 1) / 2] : Fin 2 → ℝ) =
    fun k => ((![a, b] k : ℝ) + 1) / 2 := by
  funext k; fin_cases k <;> rfl

theorem vec3_prob (a b c : Int) : (![((a : ℝ) + 1) / 2, ((b : ℝ) + 1) / 2, ((c : ℝ) + 1) / 2] : Fin 3 → ℝ) =
    fun k => ((![a, b, c] k : ℝ) + 1) / 2 := by
  funext k; fin_cases k <;> rfl

/-- **C52**, consequence: on binary factors (as probabilities 0 and 1) the fuzzy function agrees with the
crisp one. -/
theorem C52_agrees_with_crisp (m : Lom8) (N D L : Nat) (Z U X : Arr Int) (Y : Arr ℝ)
    (hZ : Z.shape = [N, L]) (hU : U.shape = [D, L]) (pZ : PMArr Z) (pU : PMArr U)
    (hX : output_function_2d m.name Z U = .ok X)
    (hY : output_function_2d_fuzzy m.name (toProb Z) (toProb U) = .ok Y) :
    Y.shape = X.shape ∧ ∀ idx, InB X.shape idx → Y idx = toProb X idx := by
  obtain ⟨X', a1, a2, a3⟩ := C01_two_factor_matrix m N D L Z U hZ hU pZ pU
  obtain ⟨Y', b1, b2, b3⟩ := C52_exact_expectation m N D L (toProb Z) (toProb U) hZ hU
  rw [hX] at a1
  rw [hY] at b1
  obtain rfl := Except.ok.inj a1
  obtain rfl := Except.ok.inj b1
  refine ⟨b2.trans a2.symm, fun idx hidx => ?_⟩
  rw [a2] at hidx
  match idx, hidx with
  | [n, d], hidx =>
    obtain ⟨hn, hd, -⟩ := hidx
    rw [b3 n hn d hd]
    show lomProb m.outer m.inner (fun l : Fin L => ![((Z [n, (l : Nat)] : ℝ) + 1) / 2,
      ((U [d, (l : Nat)] : ℝ) + 1) / 2]) = ((X [n, d] : ℝ) + 1) / 2
    simp only [vec2_prob]
    rw [lomProb_crisp, a3 n d hn hd]
    · intro l k
      fin_cases k
      · exact pZ _ (by rw [hZ]; exact ⟨hn, l.2, trivial⟩)
      · exact pU _ (by rw [hU]; exact ⟨hd, l.2, trivial⟩)

/-- non-vacuity of C52 with a value strictly between 0 and 1: XOR-AND, L = 2, all means 1/2 -/
example : lomProb (L := 2) (K := 2) .XOR .AND (fun _ => ![1/2, 1/2]) = 3/8 := by
  rw [lomProb_eq]
  simp only [p2]
  rw [bernProb_XOR_fin, Fin.sum_univ_two]
  have e0 : (Finset.univ : Finset (Fin 2)).erase 0 = {1} := by decide
  have e1 : (Finset.univ : Finset (Fin 2)).erase 1 = {0} := by decide
  rw [e0, e1]
  simp
  norm_num

instance : Inhabited (Arr ℝ) := ⟨Arr.full [] 0⟩

/-- **C52**, general implementation: for all 36 models and any number of factors,
`lom_generate_data_fuzzy` returns twice the probability of the formula minus one, where entry `x` of a
factor is a bit that is true with probability `(x + 1) / 2`. -/
theorem C52_general_expectation (o i : LOp) (L : Nat) (factors : List (Arr ℝ))
    (hne : factors ≠ []) (hcol : ∀ f ∈ factors, ∃ N, f.shape = [N, L]) :
    ∃ X, lom_generate_data_fuzzy factors (modelName o i) = .ok X ∧
      X.shape = factors.map (fun f => f.shape.headD 0) ∧
      ∀ idx, InB X.shape idx →
        X idx = 2 * lomProb o i (fun (l : Fin L) (k : Fin factors.length) =>
          (factors[k] [idx.getD k 0, l] + 1) / 2) - 1 := by
  obtain ⟨fo, ho, so⟩ := get_fuzzy_lop_spec o
  obtain ⟨fi, hi, si⟩ := get_fuzzy_lop_spec i
  have hrows : factors.map (fun x => x.dim 0) = factors.map (fun f => f.shape.headD 0) := by
    refine List.map_congr_left fun f hf => ?_
    obtain ⟨N, hN⟩ := hcol f hf
    simp [Arr.dim, hN]
  have e : generate_cells_fuzzy factors L fo fi = (indices (factors.map fun x => x.dim 0)).foldl
      (fun X index => X.set index (fo ((List.range L).map fun l =>
        fi (factors.zipIdx.map fun (f, i) => 1 / 2 * (f [index.getD i 0, l] + 1)))))
      (Arr.full (factors.map fun x => x.dim 0) 0) := by
    unfold generate_cells_fuzzy
    simp only [Id.run_bind, Id.run_pure]
    rw [run_forIn_yield _ _ _ _ (by intros; rfl)]
  have h := fill_indices (factors.map fun x => x.dim 0) (fun index =>
    fo ((List.range L).map fun l =>
        fi (factors.zipIdx.map fun (f, i) => 1 / 2 * (f [index.getD i 0, l] + 1))))
      (Arr.full (factors.map fun x => x.dim 0) 0)
  refine ⟨(generate_cells_fuzzy factors L fo fi).map fun x => 2 * x - 1, ?_, ?_, ?_⟩
  · cases factors with
    | nil => exact absurd rfl hne
    | cons f fs =>
      obtain ⟨N, hN⟩ := hcol f List.mem_cons_self
      have hd : f.dim 1 = L := by simp [Arr.dim, hN]
      simp only [lom_generate_data_fuzzy, splitModel_name, ho, hi, hd, bind, Except.bind, pure, Except.pure]
  · rw [← hrows]
    show (generate_cells_fuzzy factors L fo fi).shape = _
    rw [e]; exact h.1
  · intro idx hidx
    have hidx' : InB (factors.map fun x => x.dim 0) idx := by
      have : (generate_cells_fuzzy factors L fo fi).shape = factors.map fun x => x.dim 0 := by
        rw [e]; exact h.1
      rw [← this]; exact hidx
    show 2 * (generate_cells_fuzzy factors L fo fi) idx - 1 = _
    have hc := h.2 idx hidx'
    rw [← e] at hc
    rw [hc, so, lomProb_eq]
    refine congrArg (fun q : ℝ => 2 * q - 1) ?_
    congr 1
    funext l
    rw [zipIdx_map_range factors fun f i => 1 / 2 * (f [idx.getD i 0, (l : Nat)] + 1), si]
    congr 1
    funext k
    have : factors.getD (k : Nat) default = factors[k] := by simp
    rw [this]; ring

/-- other names raise an exception -/
theorem C52_general_other_names (factors : List (Arr ℝ)) (model : String) (X : Arr ℝ)
    (h : lom_generate_data_fuzzy factors model = .ok X) :
    factors ≠ [] ∧ ∃ o i : LOp, model = modelName o i := by
  unfold lom_generate_data_fuzzy at h
  cases factors with
  | nil => simp [bind, Except.bind, throw, throwThe, MonadExceptOf.throw] at h
  | cons f fs =>
    refine ⟨by simp, ?_⟩
    simp only [bind, Except.bind, pure, Except.pure] at h
    split at h
    · simp at h
    · rename_i v hv
      obtain ⟨a, b⟩ := v
      simp only [] at h
      split at h
      · simp at h
      · rename_i fo hfo
        split at h
        · simp at h
        · rename_i fi hfi
          obtain ⟨o, rfl⟩ := get_fuzzy_lop_ok hfo
          obtain ⟨i, rfl⟩ := get_fuzzy_lop_ok hfi
          exact ⟨o, i, splitModel_ok hv⟩

/-- **C53** (`_partial`). As C52 for three factors and every model but OR-XOR, whose formula has two wrong
signs, `C53_or_xor_wrong`. -/
theorem C53_exact_expectation_partial (m : Lom8) (hm : m ≠ .OR_XOR) (N D M L : Nat) (Z U V : Arr ℝ)
    (hZ : Z.shape = [N, L]) (hU : U.shape = [D, L]) (hV : V.shape = [M, L]) :
    ∃ X, output_function_3d_fuzzy m.name Z U V = .ok X ∧ X.shape = [N, D, M] ∧
      ∀ n < N, ∀ d < D, ∀ k < M, X [n, d, k] =
        lomProb m.outer m.inner fun l : Fin L => ![Z [n, l], U [d, l], V [k, l]] := by
  obtain ⟨f, hf, hs⟩ := fuzzy3_scalar m hm
  have h := fill3 N D M (fun n d k => f (Z.row n) (U.row d) (V.row k)) (Arr.full [N, D, M] 0)
  have e : output_function_3d_fuzzy m.name Z U V = .ok ((List.range N).foldl
      (fun X n => (List.range D).foldl (fun X d => (List.range M).foldl (fun X k =>
        X.set [n, d, k] (f (Z.row n) (U.row d) (V.row k))) X) X)
      (Arr.full [N, D, M] 0)) := by
    unfold output_function_3d_fuzzy
    simp only [hf]
    refine congrArg Except.ok ?_
    simp only [Id.run_bind, Id.run_pure]
    rw [show Z.dim 0 = N by simp [Arr.dim, hZ], show U.dim 0 = D by simp [Arr.dim, hU],
      show V.dim 0 = M by simp [Arr.dim, hV]]
    rw [run_forIn_yield _ _ _ _ (by
      intro n X
      simp only [Id.run_bind, Id.run_pure]
      rw [run_forIn_yield _ _ _ _ (by
        intro d X
        simp only [Id.run_bind, Id.run_pure]
        rw [run_forIn_yield _ _ _ _ (by intros; rfl)])])]
  refine ⟨_, e, h.1, fun n hn d hd k hk => ?_⟩
  rw [h.2 n d k hn hd hk, hs L _ _ _ (by simp [Arr.row, hZ])]
  rfl

/-- **C53** (`_partial`), probabilities in, probabilities out. -/
theorem C53_in_unit_interval_partial (m : Lom8) (hm : m ≠ .OR_XOR) (N D M L : Nat) (Z U V X : Arr ℝ)
    (hZ : Z.shape = [N, L]) (hU : U.shape = [D, L]) (hV : V.shape = [M, L])
    (pZ : ProbArr Z) (pU : ProbArr U) (pV : ProbArr V)
    (hX : output_function_3d_fuzzy m.name Z U V = .ok X) : ProbArr X := by
  obtain ⟨Y, h1, h2, h3⟩ := C53_exact_expectation_partial m hm N D M L Z U V hZ hU hV
  rw [hX] at h1
  obtain rfl := Except.ok.inj h1
  intro idx hidx
  rw [h2] at hidx
  match idx, hidx with
  | [n, d, k], hidx =>
    rw [h3 n hidx.1 d hidx.2.1 k hidx.2.2.1]
    exact bernProb_mem (fin3_mem (p := fun l : Fin L => ![Z [n, l], U [d, l], V [k, l]])
      (fun l => pZ.at2 hZ hidx.1 l.2) (fun l => pU.at2 hU hidx.2.1 l.2)
      (fun l => pV.at2 hV hidx.2.2.1 l.2)) _

/-- **C53** (`_partial`), agreement with the crisp function on binary factors. -/
theorem C53_agrees_with_crisp_partial (m : Lom8) (hm : m ≠ .OR_XOR) (N D M L : Nat) (Z U V X : Arr Int)
    (Y : Arr ℝ) (hZ : Z.shape = [N, L]) (hU : U.shape = [D, L]) (hV : V.shape = [M, L])
    (pZ : PMArr Z) (pU : PMArr U) (pV : PMArr V)
    (hX : output_function_3d m.name Z U V = .ok X)
    (hY : output_function_3d_fuzzy m.name (toProb Z) (toProb U) (toProb V) = .ok Y) :
    Y.shape = X.shape ∧ ∀ idx, InB X.shape idx → Y idx = toProb X idx := by
  obtain ⟨X', a1, a2, a3⟩ := C02_three_factor_tensor m N D M L Z U V hZ hU hV pZ pU pV
  obtain ⟨Y', b1, b2, b3⟩ :=
    C53_exact_expectation_partial m hm N D M L (toProb Z) (toProb U) (toProb V) hZ hU hV
  rw [hX] at a1
  rw [hY] at b1
  obtain rfl := Except.ok.inj a1
  obtain rfl := Except.ok.inj b1
  refine ⟨b2.trans a2.symm, fun idx hidx => ?_⟩
  rw [a2] at hidx
  match idx, hidx with
  | [n, d, k], hidx =>
    obtain ⟨hn, hd, hk, -⟩ := hidx
    rw [b3 n hn d hd k hk]
    show lomProb m.outer m.inner (fun l : Fin L => ![((Z [n, (l : Nat)] : ℝ) + 1) / 2,
      ((U [d, (l : Nat)] : ℝ) + 1) / 2, ((V [k, (l : Nat)] : ℝ) + 1) / 2]) = ((X [n, d, k] : ℝ) + 1) / 2
    simp only [vec3_prob]
    rw [lomProb_crisp, a3 n d k hn hd hk]
    · intro l j
      fin_cases j
      · exact pZ _ (by rw [hZ]; exact ⟨hn, l.2, trivial⟩)
      · exact pU _ (by rw [hU]; exact ⟨hd, l.2, trivial⟩)
      · exact pV _ (by rw [hV]; exact ⟨hk, l.2, trivial⟩)

/-- **C53** fails for OR-XOR: with a single latent dimension and known bits 0, 1, 0 the formula holds with
certainty, the function returns -1. With a third of a chance each, it returns -4/27 in place of 4/9. -/
theorem C53_or_xor_wrong :
    (∃ X, output_function_3d_fuzzy "OR-XOR" (Arr.mat 1 [[0]] 0) (Arr.mat 1 [[1]] 0) (Arr.mat 1 [[0]] 0)
        = .ok X ∧ X [0, 0, 0] = -1) ∧
    lomProb (L := 1) (K := 3) .OR .XOR (fun _ => ![0, 1, 0]) = 1 ∧
    OR_XOR_product_fuzzy_3d (Arr.vec [1/3] 0) (Arr.vec [1/3] 0) (Arr.vec [1/3] 0) = -4/27 ∧
    lomProb (L := 1) (K := 3) .OR .XOR (fun _ => ![1/3, 1/3, 1/3]) = 4/9 := by
  refine ⟨?_, ?_, ?_, ?_⟩
  · have h := fill3 1 1 1 (fun n d k => OR_XOR_product_fuzzy_3d ((Arr.mat 1 [[(0 : ℝ)]] 0).row n)
      ((Arr.mat 1 [[(1 : ℝ)]] 0).row d) ((Arr.mat 1 [[(0 : ℝ)]] 0).row k)) (Arr.full [1, 1, 1] 0)
    refine ⟨_, rfl, (h.2 0 0 0 (by omega) (by omega) (by omega)).trans ?_⟩
    rw [fuzzy3_or_xor 1 _ _ _ rfl]
    simp [Arr.mat, Arr.row]
    try norm_num
  · rw [lomProb_eq, bernProb_OR]; simp [p3]
  · rw [fuzzy3_or_xor 1 _ _ _ rfl]
    simp [Arr.vec]
    norm_num
  · rw [lomProb_eq, bernProb_OR]; simp [p3]; norm_num

/-- non-vacuity of C53 -/
example : lomProb (L := 1) (K := 3) .XOR .XOR (fun _ => ![1/2, 1/2, 1/2]) = 3/8 := by
  rw [lomProb_eq, bernProb_XOR_fin]
  simp [p3]
  norm_num

end LFM
