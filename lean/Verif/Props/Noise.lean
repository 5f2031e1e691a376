import Verif.Model.DataPrep
import Verif.Props.Splits
import Verif.Props.Disjoint

/-!
# C59, C66: added noise and random tensors
-/

namespace LFM

open MeasureTheory

/-- the `k`-th call of `np.random.rand()` from a state on -/
noncomputable def Rng.draw {σ : Type} (g : Rng σ) (s : σ) : Nat → ℝ
  | 0 => (g.rand s).1
  | k + 1 => g.draw (g.rand s).2 k

/-! ## C59 -/

theorem noiseLoop_spec {σ α : Type} (g : Rng σ) (neg : α → α) (p : ℝ) (xs : List (List Nat)) (hx : xs.Nodup)
    (X : Arr α) (s : σ) :
    (noiseLoop g neg p xs X s).1.shape = X.shape ∧
    ∀ i, (noiseLoop g neg p xs X s).1 i = if i ∈ xs ∧ g.draw s (xs.idxOf i) < p then neg (X i) else X i := by
  induction xs generalizing X s with
  | nil => simp [noiseLoop]
  | cons x xs ih =>
    rw [List.nodup_cons] at hx
    obtain ⟨h1, h2⟩ := ih hx.2 (if (g.rand s).1 < p then X.set x (neg (X x)) else X) (g.rand s).2
    simp only [noiseLoop]
    refine ⟨?_, fun i => ?_⟩
    · rw [h1]; split <;> rfl
    · rw [h2 i]
      by_cases hix : i = x
      · subst hix
        rw [if_neg (fun h => hx.1 h.1)]
        simp only [List.mem_cons, true_or, true_and, List.idxOf_cons_self, Rng.draw]
        split <;> simp [Arr.set]
      · have hv : (if (g.rand s).1 < p then X.set x (neg (X x)) else X) i = X i := by
          split
          · simp [Arr.set, hix]
          · rfl
        rw [hv, List.idxOf_cons_ne _ (fun h => hix h.symm)]
        simp only [List.mem_cons, hix, false_or, Rng.draw]

/-- **C59 (signs).** With a given seed, the cell at row-major position `k` changes sign exactly if the `k`-th draw is
below `p`; in particular 0 stays 0 and the shape is kept. -/
theorem C59_flips_signs {σ : Type} (g : Rng σ) (X : Arr Int) (N D : Nat) (hs : X.shape = [N, D]) (p : ℝ) (seed : Nat)
    (s : σ) :
    let out := (add_bernoulli_noise_2d g X p (some seed) s).1
    out.shape = X.shape ∧
    ∀ i, InB [N, D] i → out i = if g.draw s ((indices [N, D]).idxOf i) < p then -(X i) else X i := by
  have d0 : X.dim 0 = N := by simp [Arr.dim, hs]
  have d1 : X.dim 1 = D := by simp [Arr.dim, hs]
  intro out
  obtain ⟨h1, h2⟩ := noiseLoop_spec g (fun x : Int => -x) p (indices [N, D]) (nodup_indices _) X s
  have e : out = (noiseLoop g (fun x : Int => -x) p (indices [N, D]) X s).1 := by
    simp only [out, add_bernoulli_noise_2d, d0, d1]
  rw [e]
  refine ⟨h1, fun i hi => ?_⟩
  rw [h2 i]
  simp [mem_indices.mpr hi]

theorem noiseBiased_spec {σ : Type} (g : Rng σ) (pp pm : ℝ) (xs : List (List Nat)) (hx : xs.Nodup) (X : Arr Int)
    (hX : ∀ i ∈ xs, Spec.IsData (X i)) (p : Option ℝ) (s : σ) (c : Nat) :
    ∃ (out : Arr Int) (s' : σ) (κ : List Nat → Nat), noiseLoopBiased g pp pm xs p X s = .ok (out, s') ∧
      out.shape = X.shape ∧ (∀ i ∈ xs, c ≤ κ i) ∧
      (∀ i ∈ xs, ∀ j ∈ xs, X i ≠ 0 → X j ≠ 0 → κ i = κ j → i = j) ∧
      ∀ i, out i = if i ∈ xs ∧ X i ≠ 0 ∧ g.draw s (κ i - c) < (if X i = 1 then pp else pm) then -(X i) else X i := by
  induction xs generalizing X p s c with
  | nil => exact ⟨X, s, fun _ => c, by simp [noiseLoopBiased], rfl, by simp, by simp, by simp⟩
  | cons x xs ih =>
    rw [List.nodup_cons] at hx
    by_cases h0 : X x = 0
    · obtain ⟨out, s', κ, e1, e2, e3, e4, e5⟩ := ih hx.2 X (fun i hi => hX i (by simp [hi])) p s c
      refine ⟨out, s', fun i => if i = x then c else κ i, ?_, e2, ?_, ?_, ?_⟩
      · simp only [noiseLoopBiased, h0, if_true]
        simpa using e1
      · intro i hi
        simp only
        split
        · exact le_refl _
        · rename_i hne
          exact e3 i ((List.mem_cons.mp hi).resolve_left hne)
      · intro i hi j hj hi0 hj0 hκ
        have hi' : i ≠ x := by rintro rfl; exact hi0 h0
        have hj' : j ≠ x := by rintro rfl; exact hj0 h0
        simp only [hi', hj', if_false] at hκ
        exact e4 i ((List.mem_cons.mp hi).resolve_left hi') j ((List.mem_cons.mp hj).resolve_left hj') hi0 hj0 hκ
      · intro i
        rw [e5 i]
        by_cases hi' : i = x
        · subst hi'
          simp [h0]
        · simp [hi']
    · -- a draw is made for this cell
      obtain ⟨q, hq⟩ : ∃ q, q = if X x = 1 then pp else pm := ⟨_, rfl⟩
      obtain ⟨X', hX'⟩ : ∃ X' : Arr Int, X' = if (g.rand s).1 < q then X.set x (-(X x)) else X := ⟨_, rfl⟩
      have hv : ∀ i, i ≠ x → X' i = X i := by
        intro i hi
        rw [hX']
        split
        · simp [Arr.set, hi]
        · rfl
      have hne : ∀ i ∈ xs, i ≠ x := fun i hi h => hx.1 (h ▸ hi)
      obtain ⟨out, s', κ, e1, e2, e3, e4, e5⟩ := ih hx.2 X'
        (fun i hi => by rw [hv i (hne i hi)]; exact hX i (by simp [hi])) (some q) (g.rand s).2 (c + 1)
      have hstep : noiseLoopBiased g pp pm (x :: xs) p X s = noiseLoopBiased g pp pm xs (some q) X' (g.rand s).2 := by
        rcases hX x (by simp) with h | h | h
        · simp only [noiseLoopBiased, h, if_true, if_neg (by decide : ¬ ((1 : Int) = 0)),
            if_neg (by decide : ¬ ((1 : Int) = -1))]
          rw [hX', hq, h]
          simp
        · simp only [noiseLoopBiased, h, if_true, if_neg (by decide : ¬ ((-1 : Int) = 0))]
          rw [hX', hq, h]
          simp
        · exact absurd h h0
      refine ⟨out, s', fun i => if i = x then c else κ i, by rw [hstep]; exact e1, ?_, ?_, ?_, ?_⟩
      · rw [e2, hX']; split <;> rfl
      · intro i hi
        simp only
        split
        · exact le_refl _
        · rename_i hne'
          have := e3 i ((List.mem_cons.mp hi).resolve_left hne')
          omega
      · intro i hi j hj hi0 hj0 hκ
        by_cases hi' : i = x
        · by_cases hj' : j = x
          · rw [hi', hj']
          · simp only [hi', hj', if_true, if_false] at hκ
            have := e3 j ((List.mem_cons.mp hj).resolve_left hj')
            omega
        · have hi'' := (List.mem_cons.mp hi).resolve_left hi'
          by_cases hj' : j = x
          · simp only [hi', hj', if_true, if_false] at hκ
            have := e3 i hi''
            omega
          · have hj'' := (List.mem_cons.mp hj).resolve_left hj'
            simp only [hi', hj', if_false] at hκ
            exact e4 i hi'' j hj'' (by rwa [hv i hi']) (by rwa [hv j hj']) hκ
      · intro i
        rw [e5 i]
        by_cases hi' : i = x
        · subst hi'
          rw [if_neg (fun h => hx.1 h.1), hX']
          simp only [List.mem_cons, true_or, true_and, h0, not_false_eq_true, ne_eq, if_true, Nat.sub_self, Rng.draw,
            ← hq]
          split <;> simp [Arr.set]
        · rw [hv i hi']
          simp only [List.mem_cons, hi', false_or, if_false]
          by_cases him : i ∈ xs
          · have hk := e3 i him
            have : κ i - c = (κ i - (c + 1)) + 1 := by omega
            rw [this]
            exact if_congr Iff.rfl rfl rfl
          · simp [him]

/-- **C59 (biased noise).** On data over {-1, 0, 1} and with a given seed there is no error, the shape is kept, and a
cell changes sign exactly if it is not 0 and its own draw (different cells use different draws) is below `p_plus` for
a 1 and below `p_minus` for a -1. -/
theorem C59_flips_signs_biased {σ : Type} (g : Rng σ) (X : Arr Int) (N D : Nat) (hs : X.shape = [N, D])
    (hX : Spec.DataArr X) (p_plus p_minus : ℝ) (seed : Nat) (s : σ) :
    ∃ (out : Arr Int) (s' : σ) (κ : List Nat → Nat),
      add_bernoulli_noise_2d_biased g X p_plus p_minus (some seed) s = .ok (out, s') ∧ out.shape = X.shape ∧
      (∀ i, InB [N, D] i → ∀ j, InB [N, D] j → X i ≠ 0 → X j ≠ 0 → κ i = κ j → i = j) ∧
      ∀ i, InB [N, D] i → out i =
        if X i ≠ 0 ∧ g.draw s (κ i) < (if X i = 1 then p_plus else p_minus) then -(X i) else X i := by
  have d0 : X.dim 0 = N := by simp [Arr.dim, hs]
  have d1 : X.dim 1 = D := by simp [Arr.dim, hs]
  obtain ⟨out, s', κ, e1, e2, -, e4, e5⟩ := noiseBiased_spec g p_plus p_minus (indices [N, D]) (nodup_indices _) X
    (fun i hi => hX i (by rw [hs]; exact mem_indices.mp hi)) none s 0
  refine ⟨out, s', κ, ?_, e2, fun i hi j hj => e4 i (mem_indices.mpr hi) j (mem_indices.mpr hj), fun i hi => ?_⟩
  · simp only [add_bernoulli_noise_2d_biased, d0, d1]
    exact e1
  · rw [e5 i]
    simp [mem_indices.mpr hi]

/-- **C59 (seed) is wrong.** A seed that is given is not used: whenever two states of the global generator differ in
whether the next draw is below `p`, the same call gives different results. -/
theorem C59_seed_ignored {σ : Type} (g : Rng σ) (p : ℝ) (seed : Nat) (s₁ s₂ : σ) (h1 : g.draw s₁ 0 < p)
    (h2 : p ≤ g.draw s₂ 0) :
    (add_bernoulli_noise_2d g (Arr.mat 1 [[1]] 0) p (some seed) s₁).1 [0, 0] = -1 ∧
    (add_bernoulli_noise_2d g (Arr.mat 1 [[1]] 0) p (some seed) s₂).1 [0, 0] = 1 := by
  have k := fun s => (C59_flips_signs g (Arr.mat 1 [[1]] 0) 1 1 rfl p seed s).2 [0, 0] (by simp [InB])
  have e : (indices [1, 1]).idxOf [0, 0] = 0 := by decide
  refine ⟨?_, ?_⟩
  · rw [k s₁, e, if_pos h1]; rfl
  · rw [k s₂, e, if_neg (not_lt.mpr h2)]; rfl

/-- a generator to which `C59_seed_ignored` applies -/
theorem C59_seed_ignored_met : ∃ (g : Rng ℝ) (s₁ s₂ : ℝ), g.draw s₁ 0 < 0.5 ∧ 0.5 ≤ g.draw s₂ 0 :=
  ⟨⟨fun _ => 0, fun s => (s, s), fun _ s => (0, s)⟩, 0, 1, by norm_num [Rng.draw], by norm_num [Rng.draw]⟩

/-- **C59 (no seed).** Without a seed the generator is re-seeded with one of 10000 numbers, so that for any matrix at
most 10000 different results occur, over all states of the generator. -/
theorem C59_few_outcomes {σ : Type} (g : Rng σ) (hg : ∀ n s, (g.randint n s).1 < n) (X : Arr Int) (p : ℝ) :
    (Set.range fun s => (add_bernoulli_noise_2d g X p none s).1).encard ≤ 10000 := by
  have hsub : (Set.range fun s => (add_bernoulli_noise_2d g X p none s).1) ⊆
      (fun k : Nat => (noiseLoop g (fun x : Int => -x) p (indices [X.dim 0, X.dim 1]) X (g.seed k)).1) ''
        (Finset.range 10000 : Finset Nat) := by
    rintro _ ⟨s, rfl⟩
    exact ⟨(g.randint 10000 s).1, by simpa using hg 10000 s, rfl⟩
  refine (Set.encard_le_encard hsub).trans ((Set.encard_image_le _ _).trans ?_)
  rw [Set.encard_coe_eq_coe_finsetCard, Finset.card_range]
  norm_num

/-- **C59 (three-dimensional).** On Boolean tensors `add_bernoulli_noise` negates exactly the cells whose draw is
below `p`. -/
theorem C59_flips_bits {σ : Type} (g : Rng σ) (X : Arr Bool) (N D M : Nat) (hs : X.shape = [N, D, M]) (p : ℝ) (s : σ) :
    (add_bernoulli_noise g not X p s).1.shape = X.shape ∧
    ∀ i, InB [N, D, M] i → (add_bernoulli_noise g not X p s).1 i =
      if g.draw s ((indices [N, D, M]).idxOf i) < p then !(X i) else X i := by
  have d0 : X.dim 0 = N := by simp [Arr.dim, hs]
  have d1 : X.dim 1 = D := by simp [Arr.dim, hs]
  have d2 : X.dim 2 = M := by simp [Arr.dim, hs]
  obtain ⟨h1, h2⟩ := noiseLoop_spec g not p (indices [N, D, M]) (nodup_indices _) X s
  unfold add_bernoulli_noise
  rw [d0, d1, d2]
  refine ⟨h1, fun i hi => ?_⟩
  rw [h2 i]
  simp [mem_indices.mpr hi]

/-- **C59 (three-dimensional, -1/1 coding) is wrong.** On integer tensors a selected 1 becomes -2 and a selected -1
becomes 0. -/
theorem C59_int_wrong {σ : Type} (g : Rng σ) (X : Arr Int) (N D M : Nat) (hs : X.shape = [N, D, M]) (p : ℝ) (s : σ)
    (i : List Nat) (hi : InB [N, D, M] i) (hd : g.draw s ((indices [N, D, M]).idxOf i) < p) :
    (X i = 1 → (add_bernoulli_noise g intInvert X p s).1 i = -2) ∧
    (X i = -1 → (add_bernoulli_noise g intInvert X p s).1 i = 0) := by
  have d0 : X.dim 0 = N := by simp [Arr.dim, hs]
  have d1 : X.dim 1 = D := by simp [Arr.dim, hs]
  have d2 : X.dim 2 = M := by simp [Arr.dim, hs]
  obtain ⟨h1, h2⟩ := noiseLoop_spec g intInvert p (indices [N, D, M]) (nodup_indices _) X s
  unfold add_bernoulli_noise
  rw [d0, d1, d2, h2 i, if_pos ⟨mem_indices.mpr hi, hd⟩]
  exact ⟨fun h => by rw [h]; rfl, fun h => by rw [h]; rfl⟩

/-! ## C66 -/

theorem required_density {d : ℝ} (h0 : 0 ≤ d) (h1 : d ≤ 1) {L : Nat} (hL : L ≠ 0) :
    ∃ f, required_factor_density d L = .ok f ∧ 0 ≤ f ∧ f ≤ 1 ∧ 1 - (1 - f ^ 3) ^ L = d := by
  have hb : 0 ≤ 1 - d := by linarith
  have hLr : (0 : ℝ) < L := by exact_mod_cast Nat.pos_of_ne_zero hL
  have hy0 : 0 ≤ (1 - d) ^ ((1 : ℝ) / L) := Real.rpow_nonneg hb _
  have hy1 : (1 - d) ^ ((1 : ℝ) / L) ≤ 1 := Real.rpow_le_one hb (by linarith) (by positivity)
  have hx0 : 0 ≤ 1 - (1 - d) ^ ((1 : ℝ) / L) := by linarith
  refine ⟨(1 - (1 - d) ^ ((1 : ℝ) / L)) ^ ((1 : ℝ) / 3), ?_, Real.rpow_nonneg hx0 _,
    Real.rpow_le_one hx0 (by linarith) (by norm_num), ?_⟩
  · simp [required_factor_density, hL]
  · have e3 : ((1 - (1 - d) ^ ((1 : ℝ) / L)) ^ ((1 : ℝ) / 3)) ^ 3 = 1 - (1 - d) ^ ((1 : ℝ) / L) := by
      rw [← Real.rpow_natCast, ← Real.rpow_mul hx0]
      norm_num
    have eL : ((1 - d) ^ ((1 : ℝ) / L)) ^ L = 1 - d := by
      rw [← Real.rpow_natCast, ← Real.rpow_mul hb]
      rw [one_div_mul_cancel hLr.ne', Real.rpow_one]
    rw [e3]
    have : 1 - (1 - (1 - d) ^ ((1 : ℝ) / L)) = (1 - d) ^ ((1 : ℝ) / L) := by ring
    rw [this, eL]
    ring

theorem unif01_gt {f : ℝ} (h0 : 0 ≤ f) (h1 : f ≤ 1) : unif01 {u | 1 - f < u} = ENNReal.ofReal f := by
  have e : {u : ℝ | 1 - f < u} = Set.Ioi (1 - f) := rfl
  rw [e, unif01, Measure.restrict_apply measurableSet_Ioi]
  have : Set.Ioi (1 - f) ∩ Set.Icc 0 1 = if f = 1 then Set.Ioc 0 1 else Set.Ioc (1 - f) 1 := by
    split
    · rename_i hf
      subst hf
      ext u
      simp only [Set.mem_inter_iff, Set.mem_Ioi, Set.mem_Icc, Set.mem_Ioc, sub_self]
      constructor
      · rintro ⟨a, b, c⟩; exact ⟨a, c⟩
      · rintro ⟨a, b⟩; exact ⟨a, a.le, b⟩
    · ext u
      simp only [Set.mem_inter_iff, Set.mem_Ioi, Set.mem_Icc, Set.mem_Ioc]
      constructor
      · rintro ⟨a, b, c⟩; exact ⟨a, c⟩
      · rintro ⟨a, b⟩; exact ⟨a, by linarith, b⟩
  rw [this]
  split
  · rename_i hf
    simp [hf]
  · rw [Real.volume_Ioc]
    congr 1
    ring

/-- **C66 (cell of the tensor).** For `L ≥ 1` and `0 ≤ density ≤ 1` the function returns; a cell of the noise-free
tensor is True exactly if for some `l` the three draws of its rows exceed `1 - f`. -/
theorem C66_cell {σ : Type} (g : Rng σ) (L N D M : Nat) (hL : L ≠ 0) (noise density : ℝ)
    (randZ randU randV : List Nat → ℝ) (s : σ) :
    ∃ Xn X fs f, generate_random_tensor g L N D M noise density randZ randU randV s = .ok (Xn, X, fs, f) ∧
      required_factor_density density L = .ok f ∧ X.shape = [N, D, M] ∧
      (∀ n d m, n < N → d < D → m < M → (X [n, d, m] = true ↔
        ∃ l < L, 1 - f < randZ [n, l] ∧ 1 - f < randU [d, l] ∧ 1 - f < randV [m, l])) ∧
      ∀ n d m, n < N → d < D → m < M → Xn [n, d, m] =
        if g.draw s ((indices [N, D, M]).idxOf [n, d, m]) < noise then !(X [n, d, m]) else X [n, d, m] := by
  obtain ⟨f, hf⟩ : ∃ f, required_factor_density density L = .ok f := by simp [required_factor_density, hL]
  obtain ⟨X, hX, hs, hc⟩ := C65_tensor_product (randFactor N L f randZ) (randFactor D L f randU)
    (randFactor M L f randV) rfl rfl
  have hs' : X.shape = [N, D, M] := hs
  refine ⟨(add_bernoulli_noise g not X noise s).1, X, (randFactor N L f randZ, randFactor D L f randU,
    randFactor M L f randV), f, ?_, hf, hs', ?_, ?_⟩
  · simp only [generate_random_tensor, hf, bind, Except.bind, pure, Except.pure]
    rw [hX]
  · intro n d m hn hd hm
    rw [hc n d m hn hd hm]
    have one : ∀ (K : Nat) (r : List Nat → ℝ) i, randFactor K L f r i = 1 ↔ 1 - f < r i := by
      intro K r i
      by_cases h : 1 - f < r i <;> simp [randFactor, h]
    constructor
    · rintro ⟨l, hl⟩
      exact ⟨l, l.2, (one _ _ _).mp (hl 0), (one _ _ _).mp (hl 1), (one _ _ _).mp (hl 2)⟩
    · rintro ⟨l, hl, h0, h1, h2⟩
      refine ⟨⟨l, hl⟩, fun k => ?_⟩
      match k with
      | 0 => exact (one _ _ _).mpr h0
      | 1 => exact (one _ _ _).mpr h1
      | 2 => exact (one _ _ _).mpr h2
  · intro n d m hn hd hm
    exact (C59_flips_bits g X N D M hs' noise s).2 [n, d, m] ⟨hn, hd, hm, trivial⟩

/-- **C66 (density).** With independent uniform draws, the probability of that event is the requested density. -/
theorem C66_density (density : ℝ) (h0 : 0 ≤ density) (h1 : density ≤ 1) (L : Nat) (hL : L ≠ 0) (f : ℝ)
    (hf : required_factor_density density L = .ok f) :
    (Measure.pi fun _ : Fin L => Measure.pi fun _ : Fin 3 => unif01)
      {ω | ∃ l, ∀ k, 1 - f < ω l k} = ENNReal.ofReal density := by
  obtain ⟨f', hf', hf0, hf1, hd⟩ := required_density h0 h1 hL
  rw [hf] at hf'
  simp only [Except.ok.injEq] at hf'
  subst hf'
  let B : Set (Fin 3 → ℝ) := Set.univ.pi fun _ => {u | 1 - f < u}
  have mB : MeasurableSet B := MeasurableSet.univ_pi fun _ => measurableSet_Ioi
  have vB : (Measure.pi fun _ : Fin 3 => unif01) B = ENNReal.ofReal (f ^ 3) := by
    rw [Measure.pi_pi]
    simp only [unif01_gt hf0 hf1, Finset.prod_const, Finset.card_univ, Fintype.card_fin]
    rw [ENNReal.ofReal_pow hf0]
  have hset : {ω : Fin L → Fin 3 → ℝ | ∃ l, ∀ k, 1 - f < ω l k} = (Set.univ.pi fun _ => Bᶜ)ᶜ := by
    ext ω
    simp only [Set.mem_ofPred_eq, Set.mem_compl_iff, Set.mem_univ_pi, B]
    push Not
    rfl
  have f3 : f ^ 3 ≤ 1 := pow_le_one₀ hf0 hf1
  have hp : 0 ≤ 1 - f ^ 3 := by linarith
  rw [hset, prob_compl_eq_one_sub (MeasurableSet.univ_pi fun _ => mB.compl), Measure.pi_pi]
  simp only [prob_compl_eq_one_sub mB, vB, Finset.prod_const, Finset.card_univ, Fintype.card_fin]
  have e1 : (1 : ENNReal) - ENNReal.ofReal (f ^ 3) = ENNReal.ofReal (1 - f ^ 3) := by
    rw [ENNReal.ofReal_sub _ (by positivity), ENNReal.ofReal_one]
  rw [e1, ← ENNReal.ofReal_pow hp, ← ENNReal.ofReal_one, ← ENNReal.ofReal_sub _ (by positivity), hd]

/-- **C66 (error branch).** No latent dimension: ZeroDivisionError. -/
theorem C66_no_dimension {σ : Type} (g : Rng σ) (N D M : Nat) (noise density : ℝ)
    (randZ randU randV : List Nat → ℝ) (s : σ) :
    generate_random_tensor g 0 N D M noise density randZ randU randV s = .error .zeroDivision := rfl

end LFM
