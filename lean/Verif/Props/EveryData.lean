import Verif.Lemmas.EveryData
import Verif.Props.Deaf

/-!
# C107: for every data set there are starting values with which inference can get stuck
-/

namespace LFM

open Spec MeasureTheory

/-- **C107**: for all models with two factors but those with inner operator NAND (for which see C108), at least two latent
dimensions, and *every* data matrix, there are starting values that predict at most half of the observed cells, with either sign;
for all priors of lambda with `a ≤ b`, like the default `(1, 1)`. -/
theorem C107_every_data_2d (lom : Lom8) (hlom : lom ≠ .OR_NAND ∧ lom ≠ .XOR_NAND) {N D L : Nat} (hL : 2 ≤ L) (X : Arr Int)
    (hX : X.shape = [N, D]) (hd : DataArr X) : ∃ (c : Cfg N L) (d : Cfg D L), ∀ a b : ℝ, a ≤ b →
      MirrorsAtChance lom [(Cfg.free c, false), (Cfg.free d, false)] X a b := by
  classical
  obtain ⟨v, hv, hle⟩ := minority (fun i : Fin N × Fin D => X [(i.1 : Nat), (i.2 : Nat)])
    (fun i => hd _ (by rw [hX]; exact ⟨i.1.2, i.2.2, trivial⟩))
  obtain ⟨r, s, hrs⟩ := bothGive2 lom hlom hL hv
  refine ⟨constCfg N L r, constCfg D L s, fun a b hab σ hσ As hAs => ?_⟩
  cases hAs with
  | cons a1 hAs =>
  cases hAs with
  | cons a2 hAs =>
  cases hAs
  rename_i A B
  simp only [Bool.false_eq_true, if_false] at a1 a2
  obtain ⟨sA, eA⟩ := mirror_const a1
  obtain ⟨sB, eB⟩ := mirror_const a2
  have hc : correctCells lom [A, B] X = (Finset.univ.filter fun i : Fin N × Fin D => X [(i.1 : Nat), (i.2 : Nat)] = v).card := by
    have : correctCells lom [A, B] X = correct2 lom N D L (fun n d => X [n, d]) (fun n l => A [n, l]) (fun d l => B [d, l]) := by
      simp only [correctCells, Arr.dim, hX, sA]
      rfl
    rw [this, correct2]
    congr 1
    apply Finset.filter_congr
    intro i _
    have hp : pred2 lom L (fun l => A [(i.1 : Nat), l]) (fun l => B [(i.2 : Nat), l]) = v := by
      rw [← hrs σ hσ]
      exact pred2_rows lom L (fun l hl => eA _ i.1.2 l hl) (fun l hl => eB _ i.2.2 l hl)
    rw [hp]
  have ho : observedCells X = (Finset.univ.filter fun i : Fin N × Fin D => X [(i.1 : Nat), (i.2 : Nat)] ≠ 0).card := by
    obtain ⟨sh, g⟩ := X
    obtain rfl : sh = [N, D] := hX
    rfl
  rw [hc, ho]
  have : ((2 * (Finset.univ.filter fun i : Fin N × Fin D => X [(i.1 : Nat), (i.2 : Nat)] = v).card : Nat) : ℝ) ≤
    ((Finset.univ.filter fun i : Fin N × Fin D => X [(i.1 : Nat), (i.2 : Nat)] ≠ 0).card : Nat) := by exact_mod_cast hle
  push_cast at this
  linarith

/-- **C107**: the same for three factors and the models OR-AND, XOR-AND, OR-XOR and XOR-XOR -/
theorem C107_every_data_3d (lom : Lom8) (hlom : lom = .OR_AND ∨ lom = .XOR_AND ∨ lom = .OR_XOR ∨ lom = .XOR_XOR) {N D M L : Nat}
    (hL : 2 ≤ L) (X : Arr Int) (hX : X.shape = [N, D, M]) (hd : DataArr X) :
    ∃ (c : Cfg N L) (d : Cfg D L) (e : Cfg M L), ∀ a b : ℝ, a ≤ b →
      MirrorsAtChance lom [(Cfg.free c, false), (Cfg.free d, false), (Cfg.free e, false)] X a b := by
  classical
  obtain ⟨v, hv, hle⟩ := minority (fun i : Fin N × Fin D × Fin M => X [(i.1 : Nat), (i.2.1 : Nat), (i.2.2 : Nat)])
    (fun i => hd _ (by rw [hX]; exact ⟨i.1.2, i.2.1.2, i.2.2.2, trivial⟩))
  obtain ⟨r, s, t, hrs⟩ := bothGive3 lom hlom hL hv
  refine ⟨constCfg N L r, constCfg D L s, constCfg M L t, fun a b hab σ hσ As hAs => ?_⟩
  cases hAs with
  | cons a1 hAs =>
  cases hAs with
  | cons a2 hAs =>
  cases hAs with
  | cons a3 hAs =>
  cases hAs
  rename_i A B C
  simp only [Bool.false_eq_true, if_false] at a1 a2 a3
  obtain ⟨sA, eA⟩ := mirror_const a1
  obtain ⟨sB, eB⟩ := mirror_const a2
  obtain ⟨sC, eC⟩ := mirror_const a3
  have hc : correctCells lom [A, B, C] X =
      (Finset.univ.filter fun i : Fin N × Fin D × Fin M => X [(i.1 : Nat), (i.2.1 : Nat), (i.2.2 : Nat)] = v).card := by
    have : correctCells lom [A, B, C] X = correct3 lom N D M L (fun n d k => X [n, d, k]) (fun n l => A [n, l]) (fun d l => B [d, l])
        (fun k l => C [k, l]) := by
      simp only [correctCells, Arr.dim, hX, sA]
      rfl
    rw [this, correct3]
    congr 1
    apply Finset.filter_congr
    intro i _
    have hp : pred3 lom L (fun l => A [(i.1 : Nat), l]) (fun l => B [(i.2.1 : Nat), l]) (fun l => C [(i.2.2 : Nat), l]) = v := by
      rw [← hrs σ hσ]
      exact pred3_rows lom L (fun l hl => eA _ i.1.2 l hl) (fun l hl => eB _ i.2.1.2 l hl) (fun l hl => eC _ i.2.2.2 l hl)
    rw [hp]
  have ho : observedCells X =
      (Finset.univ.filter fun i : Fin N × Fin D × Fin M => X [(i.1 : Nat), (i.2.1 : Nat), (i.2.2 : Nat)] ≠ 0).card := by
    obtain ⟨sh, g⟩ := X
    obtain rfl : sh = [N, D, M] := hX
    rfl
  rw [hc, ho]
  have : ((2 * (Finset.univ.filter fun i : Fin N × Fin D × Fin M => X [(i.1 : Nat), (i.2.1 : Nat), (i.2.2 : Nat)] = v).card : Nat) : ℝ) ≤
    ((Finset.univ.filter fun i : Fin N × Fin D × Fin M => X [(i.1 : Nat), (i.2.1 : Nat), (i.2.2 : Nat)] ≠ 0).card : Nat) := by
    exact_mod_cast hle
  push_cast at this
  linarith

/-! ## The default machine -/

/-- a layer of two factors -/
def plainLayer (lom : Lom8) : LayerInfo := ⟨[0, 1], lom.name, none, false, false⟩

/-- attributes of the machine with this layer -/
noncomputable def plainWiring (lom : Lom8) (rnd : Nat → Nat → Rnd) (perm : Nat → List Nat → List Nat) : Wiring :=
  { wiring2 false false rnd perm with layers := [plainLayer lom] }

/-- this machine before inference: factors `c` and `d`, data `X`, initial lambda 0.05 as `add_layer` sets it -/
noncomputable def plainMach (lom : Lom8) {N D L : Nat} (c : Cfg N L) (d : Cfg D L) (X : Arr Int) : Mach Sampler LbdaUpdate :=
  { mach2 false false [] with layers := [plainLayer lom], world := deafWorld c d X }

theorem plain_single (lom : Lom8) {N D L : Nat} (c : Cfg N L) (d : Cfg D L) (X : Arr Int) (rnd : Nat → Nat → Rnd)
    (perm : Nat → List Nat → List Nat) (hp : ∀ t l, (perm t l).Perm l) :
    SingleLayer (plainWiring lom rnd perm) (plainMach lom c d X) lom (plainLayer lom) 2 [N, D] := by
  refine ⟨rfl, rfl, rfl, rfl, by simp [plainLayer], Or.inl rfl, ?_, ?_, ?_, rfl, by simp [plainLayer], ?_, ?_, ?_, rfl, ?_, ?_⟩
  · intro j i h
    match j with
    | 0 => simp only [plainLayer, List.getElem?_cons_zero, Option.some.injEq] at h; exact h.symm
    | 1 => simp only [plainLayer, List.getElem?_cons_succ, List.getElem?_cons_zero, Option.some.injEq] at h; exact h.symm
    | j + 2 => simp [plainLayer] at h
  · intro i hi
    simp only [plainLayer, List.mem_cons, List.not_mem_nil, or_false] at hi
    rcases hi with rfl | rfl <;> rfl
  · intro i hi
    simp only [plainLayer, List.mem_cons, List.not_mem_nil, or_false] at hi
    rcases hi with rfl | rfl <;> rfl
  · intro i hi
    simp only [plainMach, mach2, List.mem_singleton] at hi
    simp [plainMach, mach2, hi]
  · simp [plainWiring, wiring2]
  · intro t l i hi
    exact (hp t l).mem_iff.mp hi
  · intro j i _ s hs; cases hs
  · intro g hg; cases hg

theorem plain_legal (lom : Lom8) {N D L : Nat} (c : Cfg N L) (d : Cfg D L) (X : Arr Int) :
    LegalWorld (plainLayer lom) 2 [N, D] X (plainMach lom c d X).world := by
  refine ⟨⟨L, ?_⟩, rfl, _, rfl⟩
  intro j f hf
  match j with
  | 0 =>
    simp only [plainLayer, List.map_cons, List.getElem?_cons_zero, Option.some.injEq] at hf
    subst hf
    exact ⟨rfl, Cfg.arr_pm c⟩
  | 1 =>
    simp only [plainLayer, List.map_cons, List.getElem?_cons_succ, List.getElem?_cons_zero, Option.some.injEq] at hf
    subst hf
    exact ⟨rfl, Cfg.arr_pm d⟩
  | j + 2 => simp [plainLayer] at hf

namespace Spec

/-- inference with the default arguments of `infer`, from initial values `c` and `d`, with lambda learned: all 50 samples of lambda are 0
and the mean of the samples of every entry of both factors is 0 -/
def LearnsNothing (lom : Lom8) {N D L : Nat} (c : Cfg N L) (d : Cfg D L) (X : Arr Int) (rnd : Nat → Nat → Rnd)
    (perm : Nat → List Nat → List Nat) : Prop :=
  ∃ m', infer (genericEnv (plainWiring lom rnd perm)) 50 15 0.005 30 2000 10 0 (plainMach lom c d X) = .ok m' ∧
    (∃ lt, m'.ltrace 0 = some lt ∧ lt.len = 50 ∧ ∀ t < 50, lt.row t = some (.scalar (.fin 0))) ∧
    (∃ a, (m'.ofac 0).mean = .nums a ∧ a.shape = [N, L] ∧ ∀ n < N, ∀ l < L, a [n, l] = 0) ∧
    ∃ a, (m'.ofac 1).mean = .nums a ∧ a.shape = [D, L] ∧ ∀ n < D, ∀ l < L, a [n, l] = 0

end Spec

/-- an even number of samples that alternate in sign -/
theorem mean_mirrors {m m' : Mach Sampler LbdaUpdate} {i : Nat} {tr : Arr Int} {S : Nat} {σ : Int} (hS : 0 < S) (hev : Even S)
    (t1 : m'.trace i = some tr) (t2 : tr.shape = S :: (m.world.mat i).val.shape)
    (t4 : ∀ t < S, MirrorOf (m.world.mat i) (σ * (-1) ^ t) ⟨(m.world.mat i).val.shape, fun idx => tr (t :: idx)⟩) :
    ∃ a, (m'.ofac i).mean = .nums a ∧ a.shape = (m.world.mat i).val.shape ∧
      ∀ idx, InB (m.world.mat i).val.shape idx → (m.world.mat i).fixed_entries idx ≠ 1 → a idx = 0 := by
  refine ⟨⟨(m.world.mat i).val.shape, fun idx => ((List.range S).map fun t => (tr (t :: idx) : ℝ)).sum / S⟩, ?_, rfl, ?_⟩
  · rw [Mach.ofac, t1]
    exact mean_samples t2 hS
  · intro idx hidx hfe
    obtain ⟨k, hk⟩ := hev
    have e : (List.range S).map (fun t => (tr (t :: idx) : ℝ)) =
        (List.range S).map fun t => ((σ * (m.world.mat i).val idx : Int) : ℝ) * (-1 : ℝ) ^ t := by
      apply List.map_congr_left
      intro t ht
      have := (t4 t (List.mem_range.mp ht)).2 idx hidx
      simp only [hfe, if_false] at this
      rw [show tr (t :: idx) = _ from this]
      push_cast
      ring
    show _ / _ = _
    rw [e, show S = 2 * k by omega, sum_alternating, zero_div]

/-- **C107** is false, for *every* data set and with default settings: for all models with two factors but those with inner operator
NAND, sizes up to 32767, at least two latent dimensions, and every data matrix, there are initial values of the factors such that if all
draws of the first sweep are below the exponential of minus a twentieth of the number of observed cells, then whatever is drawn later, nothing is
learned. -/
theorem C107_default_start (lom : Lom8) (hlom : lom ≠ .OR_NAND ∧ lom ≠ .XOR_NAND) {N D L : Nat} (hN : N ≤ 32767) (hD : D ≤ 32767)
    (hL : 2 ≤ L) (X : Arr Int) (hX : X.shape = [N, D]) (hd : DataArr X) : ∃ (c : Cfg N L) (d : Cfg D L),
    ∀ (rnd : Nat → Nat → Rnd) (perm : Nat → List Nat → List Nat), (∀ t l, (perm t l).Perm l) →
      (∀ n < N, ∀ l < L, rnd 0 0 [n, l] < Real.exp (-(1 / 20 * observedCells X))) →
      (∀ n < D, ∀ l < L, rnd 0 1 [n, l] < Real.exp (-(1 / 20 * observedCells X))) → LearnsNothing lom c d X rnd perm := by
  obtain ⟨c, d, hA⟩ := C107_every_data_2d lom hlom hL X hX hd
  refine ⟨c, d, fun rnd perm hp h0 h1 => ?_⟩
  obtain ⟨m', e1, -, e3, σ, -, e4⟩ := C107_gets_stuck (plain_single lom c d X rnd perm hp) hX hd ⟨hN, hD⟩ (plain_legal lom c d X) rfl rfl
    hp rfl rfl (fun _ _ => rfl) (fun _ _ => rfl) (y := 5 / 100) rfl (hA 1 1 le_rfl)
    (by
      intro i hi idx hidx
      have e : |(5 / 100 : ℝ)| = 1 / 20 := by norm_num
      rw [e]
      have hi' : i = 0 ∨ i = 1 := by
        have := (plain_single lom c d X rnd perm hp).mem_free hi
        simpa [plainLayer] using this
      rcases hi' with rfl | rfl
      · match idx, (show InB [N, L] idx from hidx) with
        | [n, l], h => exact h0 n h.1 l h.2.1
      · match idx, (show InB [D, L] idx from hidx) with
        | [n, l], h => exact h1 n h.1 l h.2.1)
    50 15 30 0.005 2000 10 (by norm_num) (by norm_num) (by norm_num)
  have hfree : ∀ i, i < 2 → i ∈ freeMats (plainMach lom c d X) := by
    intro i hi
    rw [(plain_single lom c d X rnd perm hp).free_eq, List.mem_filter]
    have : i = 0 ∨ i = 1 := by omega
    rcases this with rfl | rfl <;> exact ⟨by simp [plainLayer], rfl⟩
  refine ⟨m', e1, e3, ?_, ?_⟩
  · obtain ⟨tr, t1, t2, t3⟩ := e4 0 (hfree 0 (by norm_num))
    obtain ⟨a, a1, a2, a3⟩ := mean_mirrors (by norm_num) (by decide) t1 t2 t3
    exact ⟨a, a1, a2, fun n hn l hl => a3 [n, l] ⟨hn, hl, trivial⟩ (by simp [plainMach, deafWorld, Arr.full])⟩
  · obtain ⟨tr, t1, t2, t3⟩ := e4 1 (hfree 1 (by norm_num))
    obtain ⟨a, a1, a2, a3⟩ := mean_mirrors (by norm_num) (by decide) t1 t2 t3
    exact ⟨a, a1, a2, fun n hn l hl => a3 [n, l] ⟨hn, hl, trivial⟩ (by simp [plainMach, deafWorld, Arr.full])⟩

theorem uniformDraws_below (N L : Nat) {q : ℝ} (h0 : 0 ≤ q) (h1 : q ≤ 1) :
    uniformDraws N L {u | ∀ e, u e < q} = ENNReal.ofReal q ^ (N * L) := by
  have hset : {u : Fin N × Fin L → ℝ | ∀ e, u e < q} = Set.univ.pi fun _ => Set.Iio q := by
    ext u; simp
  haveI : SigmaFinite (volume.restrict (Set.Ico (0 : ℝ) 1)) := inferInstance
  rw [hset, uniformDraws, Measure.pi_pi]
  have : volume.restrict (Set.Ico (0 : ℝ) 1) (Set.Iio q) = ENNReal.ofReal q := by
    rw [Measure.restrict_apply measurableSet_Iio]
    have : Set.Iio q ∩ Set.Ico 0 1 = Set.Ico 0 q := by
      ext r
      simp only [Set.mem_inter_iff, Set.mem_Iio, Set.mem_Ico]
      constructor
      · rintro ⟨h1, h2, -⟩; exact ⟨h2, h1⟩
      · rintro ⟨h2, h3⟩; exact ⟨h3, h2, by linarith⟩
    rw [this, Real.volume_Ico, sub_zero]
  simp only [this, Finset.prod_const, Finset.card_univ, Fintype.card_prod, Fintype.card_fin]

/-- **C107** is false, for every data set, with positive probability: for all models with two factors but those with inner operator
NAND, sizes up to 32767, at least two latent dimensions, and every data matrix, there are initial values (all initial values being equally likely by
default) from which, with positive probability over the draws of the first sweep, whatever is drawn later, and in whatever orders the factors are sampled,
inference with default arguments learns nothing. -/
theorem C107_default_probability (lom : Lom8) (hlom : lom ≠ .OR_NAND ∧ lom ≠ .XOR_NAND) {N D L : Nat} (hN : N ≤ 32767)
    (hD : D ≤ 32767) (hL : 2 ≤ L) (X : Arr Int) (hX : X.shape = [N, D]) (hd : DataArr X) : ∃ (c : Cfg N L) (d : Cfg D L),
    0 < ((uniformDraws N L).prod (uniformDraws D L)) {u | ∀ (rnd : Nat → Nat → Rnd) (perm : Nat → List Nat → List Nat),
      (∀ t l, (perm t l).Perm l) → rnd 0 0 = rndOf u.1 → rnd 0 1 = rndOf u.2 → LearnsNothing lom c d X rnd perm} := by
  obtain ⟨c, d, h⟩ := C107_default_start lom hlom hN hD hL X hX hd
  refine ⟨c, d, ?_⟩
  obtain ⟨q, hq⟩ : ∃ q, q = Real.exp (-(1 / 20 * (observedCells X : ℝ))) := ⟨_, rfl⟩
  have q0 : 0 < q := by rw [hq]; exact Real.exp_pos _
  have q1 : q ≤ 1 := by rw [hq, Real.exp_le_one_iff]; simp
  rw [← hq] at h
  haveI : SigmaFinite (volume.restrict (Set.Ico (0 : ℝ) 1)) := inferInstance
  haveI : SigmaFinite (uniformDraws D L) := by unfold uniformDraws; infer_instance
  have hsub : {u : Fin N × Fin L → ℝ | ∀ e, u e < q} ×ˢ {u : Fin D × Fin L → ℝ | ∀ e, u e < q} ⊆
      {u | ∀ (rnd : Nat → Nat → Rnd) (perm : Nat → List Nat → List Nat), (∀ t l, (perm t l).Perm l) → rnd 0 0 = rndOf u.1 →
        rnd 0 1 = rndOf u.2 → LearnsNothing lom c d X rnd perm} := by
    rintro ⟨u, v⟩ ⟨hu, hv⟩ rnd perm hp e0 e1
    refine h rnd perm hp (fun n hn l hl => ?_) (fun n hn l hl => ?_)
    · rw [e0]
      simp only [rndOf, hn, hl, and_self, dite_true]
      exact hu _
    · rw [e1]
      simp only [rndOf, hn, hl, and_self, dite_true]
      exact hv _
  refine lt_of_lt_of_le ?_ (measure_mono hsub)
  rw [Measure.prod_prod, uniformDraws_below N L q0.le q1, uniformDraws_below D L q0.le q1]
  have := ENNReal.ofReal_pos.mpr q0
  exact ENNReal.mul_pos (pow_ne_zero _ this.ne') (pow_ne_zero _ this.ne')

/-- the hypotheses of `C107_default_probability` hold, for example, for two rows of ones on two rows of minus ones, which a single latent
dimension predicts perfectly -/
theorem C107_every_data_met : stuckData.shape = [2, 2] ∧ DataArr stuckData ∧
    correctCells .OR_AND [⟨[2, 1], fun idx => if idx = [0, 0] then 1 else -1⟩, Arr.full [2, 1] 1] stuckData = 4 := by
  refine ⟨rfl, ?_, ?_⟩
  · intro idx _
    simp only [stuckData]
    split
    · exact .inl rfl
    · exact .inr (.inl rfl)
  · rw [stuck_correct _ _ rfl]
    simp [Arr.full]

end LFM
