import Verif.Lemmas.ZeroLambda
import Verif.Model.Posterior

/-!
# C107: inference that learns lambda need not get away from factors that predict no better than chance
-/

namespace LFM

open Spec

namespace Spec

/-- Whichever signs the entries of the factors that are not fixed are given, at most half of the observed cells are
predicted correctly (counting the pseudo-counts `a` and `b`). The flag of a factor says that the whole factor is fixed. -/
def AtChance (lom : Lom8) (fs : List (Fac × Bool)) (X : Arr Int) (a b : ℝ) : Prop :=
  ∀ As : List (Arr Int), List.Forall₂ (fun F A => if F.2 then A = F.1.val else ∃ σ, IsPM σ ∧ MirrorOf F.1 σ A) fs As →
    2 * (correctCells lom As X + a) ≤ observedCells X + a + b

end Spec

/-- the dispersion that belongs to factors is zero if and only if they predict no better than chance -/
theorem belongs_zero {lom : Lom8} {fs : List (Arr Int)} {X : Arr Int} {a b y : ℝ} (ha : 0 < a) (hb : 0 < b)
    (h : BelongsTo lom fs X a b y) : y = 0 ↔ 2 * (correctCells lom fs X + a) ≤ observedCells X + a + b := by
  obtain ⟨h1, h2⟩ := h
  have hpos : (0 : ℝ) < observedCells X + a + b := by positivity
  have hle : (correctCells lom fs X + a) / (observedCells X + a + b) ≤ 1 / 2 ↔
      2 * (correctCells lom fs X + a) ≤ observedCells X + a + b := by
    rw [div_le_div_iff₀ hpos (by norm_num)]
    constructor <;> intro h <;> linarith
  rw [← hle, ← max_eq_left_iff, ← h2, sigmoid]
  constructor
  · rintro rfl
    norm_num
  · intro h
    have p := Real.exp_pos (-y)
    have : Real.exp (-y) = 1 := by
      rw [div_eq_div_iff (by positivity) (by norm_num)] at h
      linarith
    rw [Real.exp_eq_one_iff] at this
    linarith

/-- states in which every free factor is that of `m` up to signs, and lambda is 0 -/
structure UpToSigns (m : Mach Sampler LbdaUpdate) (lr : LayerInfo) (x : Nat) (sizes : List Nat) (X : Arr Int) (σ : Nat → Int)
    (w : World) : Prop where
  legal : LegalWorld lr x sizes X w
  kept : Kept m lr w
  zero : w.lbda 0 = .scalar (.fin 0)
  signs : ∀ i ∈ freeMats m, MirrorOf (m.world.mat i) (σ i) (w.mat i).val

namespace SingleLayer

variable {wr : Wiring} {m : Mach Sampler LbdaUpdate} {lom : Lom8} {lr : LayerInfo} {x : Nat} {sizes : List Nat}

theorem call_signs (H : SingleLayer wr m lom lr x sizes) {X : Arr Int} (hc : lr.auto_clean = false)
    (hr : lr.auto_reset = false) {i : Nat} (hi : i ∈ freeMats m) {s : Sampler}
    (hs : GenericSampler lom lr.factors.length (lr.factors.idxOf i) s) (h0 : ∃ f o, s = .lom f o 0) (t : Nat) {w : World}
    {σ : Nat → Int} (hw : UpToSigns m lr x sizes X σ w) :
    ∃ w', runSampler wr s i t w = .ok w' ∧ UpToSigns m lr x sizes X (upd σ i (-σ i)) w' ∧ w'.lbda = w.lbda := by
  obtain ⟨R, e1, e2, e3⟩ := H.flips_mat hi hs h0 t hw.legal hw.zero
  obtain ⟨w', f1, ⟨f2, f3⟩, f4, -⟩ := H.keeps_mat hi hs t ⟨hw.legal, hw.kept⟩
  rw [e1] at f1
  cases f1
  refine ⟨_, e1, ⟨f2, f3, by rw [f4]; exact hw.zero, ?_⟩, f4⟩
  intro j hj
  by_cases hji : j = i
  · subst hji
    obtain ⟨s1, s2⟩ := hw.signs j hj
    have hfe := (hw.kept.fixed hc hr j).1
    simp only [World.setVal, upd, if_true]
    refine ⟨e2.trans s1, fun idx hidx => ?_⟩
    rw [e3 idx (by rw [s1]; exact hidx), hfe, s2 idx hidx]
    split <;> simp
  · simpa [World.setVal, upd, hji] using hw.signs j hj

theorem calls_signs (H : SingleLayer wr m lom lr x sizes) {X : Arr Int} (hc : lr.auto_clean = false)
    (hr : lr.auto_reset = false) {fct : Nat → Option Sampler}
    (hf : ∀ i ∈ freeMats m, ∃ s, fct i = some s ∧ GenericSampler lom lr.factors.length (lr.factors.idxOf i) s ∧
      ∃ f o, s = .lom f o 0) (t : Nat) (xs : List Nat) (hnd : xs.Nodup) (hxs : ∀ i ∈ xs, i ∈ freeMats m) :
    ∀ {w : World} {σ : Nat → Int}, UpToSigns m lr x sizes X σ w → ∃ w', callsM (genericEnv wr) fct t xs w = .ok w' ∧
      UpToSigns m lr x sizes X (fun i => if i ∈ xs then -σ i else σ i) w' := by
  induction xs with
  | nil => intro w σ hw; exact ⟨w, rfl, by simpa using hw⟩
  | cons i xs ih =>
    intro w σ hw
    obtain ⟨n1, n2⟩ := List.nodup_cons.mp hnd
    obtain ⟨s, h1, h2, h3⟩ := hf i (hxs i (by simp))
    obtain ⟨w1, e1, e2, -⟩ := H.call_signs hc hr (hxs i (by simp)) h2 h3 t hw
    obtain ⟨w', g1, g2⟩ := ih n2 (fun j hj => hxs j (by simp [hj])) e2
    refine ⟨w', ?_, ?_⟩
    · simp only [callsM, List.foldlM_cons, h1]
      have : (genericEnv wr).runMat s i t w = .ok w1 := e1
      rw [this]
      exact g1
    · have : (fun j => if j ∈ xs then -upd σ i (-σ i) j else upd σ i (-σ i) j) =
          fun j => if j ∈ i :: xs then -σ j else σ j := by
        funext j
        by_cases hj : j = i
        · subst hj; simp [upd, n1]
        · simp [upd, hj]
      rw [this] at g2
      exact g2

theorem lbda_signs (H : SingleLayer wr m lom lr x sizes) {X : Arr Int} (hX : X.shape = sizes) (hc : lr.auto_clean = false)
    (hr : lr.auto_reset = false)
    (hA : AtChance lom (lr.factors.map fun i => (m.world.mat i, m.fixed i)) X (wr.beta_prior 0).1 (wr.beta_prior 0).2)
    {g : LbdaUpdate} (hg : get_update_fct none lom.name lr.factors.length = .ok g) (hl : 0 ∈ freeLbdas m) (t : Nat) {w : World}
    {σ : Nat → Int} (hσ : ∀ i, IsPM (σ i)) (hw : UpToSigns m lr x sizes X σ w) :
    ∃ w', runUpdate wr g 0 t w = .ok w' ∧ UpToSigns m lr x sizes X σ w' ∧ w'.mat = w.mat ∧
      ∀ k, (w'.lbda k).kind = (w.lbda k).kind := by
  obtain ⟨y, y1, y2⟩ := H.runs_lbda_value hg t hw.legal hX
  obtain ⟨w', f1, ⟨f2, f3⟩, f4, f5⟩ := H.keeps_lbda hX hl hg t ⟨hw.legal, hw.kept⟩
  rw [y2] at f1
  cases f1
  have hy : y = 0 := by
    rw [belongs_zero H.beta.1 H.beta.2 y1]
    apply hA
    rw [List.forall₂_map_left_iff, List.forall₂_map_right_iff, List.forall₂_same]
    intro i hi
    by_cases hfx : m.fixed i = true
    · simp only [hfx, if_true]
      rw [(hw.kept.fixed hc hr i).2.2.2 (by rw [H.free_eq]; simp [hfx])]
    · have : i ∈ freeMats m := by rw [H.free_eq]; simp [hi, hfx]
      simp only [hfx, if_false]
      exact ⟨σ i, hσ i, hw.signs i this⟩
  exact ⟨_, y2, ⟨f2, f3, by simp [upd, hy], hw.signs⟩, rfl, f4⟩

end SingleLayer

theorem isPM_neg {z : Int} (h : IsPM z) : IsPM (-z) := by
  rcases h with rfl | rfl <;> simp [IsPM]

theorem isPM_alternate {z : Int} (h : IsPM z) (t : Nat) : IsPM (z * (-1) ^ t) := by
  rcases Nat.even_or_odd t with ht | ht
  · rw [ht.neg_one_pow]; simpa using h
  · rw [ht.neg_one_pow]; simpa using isPM_neg h

/-- **C107** is false: let a machine with a single layer of any of the eight generic models with two or three factors
and priors 1/2 (also at earlier inferences, if any) have lambda 0 (not fixed) and factors that, with whatever signs of their free entries, predict at most half of the
observed cells. Then inference returns, and *whatever is drawn* in burn-in and sampling, lambda is 0 in all samples, and in
every sample each sampled factor is what it was at the start up to a single sign for all its free entries, which
changes from each sample to the next. -/
theorem C107_stuck {wr : Wiring} {m : Mach Sampler LbdaUpdate} {lom : Lom8} {lr : LayerInfo} {x : Nat}
    {sizes : List Nat} (H : SingleLayer wr m lom lr x sizes) {X : Arr Int} (hX : X.shape = sizes)
    (hw : LegalWorld lr x sizes X m.world) (hc : lr.auto_clean = false) (hr : lr.auto_reset = false)
    (hperm : ∀ t l, (wr.perm t l).Perm l) (hanneal : m.anneal = false) (hl : m.lfixed 0 = false)
    (hprior : ∀ i ∈ freeMats m, m.bernoulli_prior i = 1 / 2 ∧ ∀ s, m.fct i = some s → ∃ f o, s = .lom f o (logit (1 / 2)))
    (hzero : m.world.lbda 0 = .scalar (.fin 0))
    (hA : AtChance lom (lr.factors.map fun i => (m.world.mat i, m.fixed i)) X (wr.beta_prior 0).1 (wr.beta_prior 0).2)
    (S cw bmin : Nat) (eps : ℝ) (bmax : Int) (ps fx : Nat) (hcw : 1 ≤ cw) (hps : 1 ≤ ps) :
    ∃ m', infer (genericEnv wr) S cw eps bmin bmax ps fx m = .ok m' ∧ m'.world.lbda 0 = .scalar (.fin 0) ∧
      (∃ lt, m'.ltrace 0 = some lt ∧ lt.len = S ∧ ∀ t < S, lt.row t = some (.scalar (.fin 0))) ∧
      ∀ i ∈ freeMats m, ∃ tr σ, m'.trace i = some tr ∧ tr.shape = S :: (m.world.mat i).val.shape ∧ IsPM σ ∧
        (∀ t < S, MirrorOf (m.world.mat i) (σ * (-1) ^ t) ⟨(m.world.mat i).val.shape, fun idx => tr (t :: idx)⟩) ∧
        ∃ τ, IsPM τ ∧ MirrorOf (m.world.mat i) τ (m'.world.mat i).val := by
  obtain ⟨m', hm', -, -, -, -, -, -, htr⟩ := C47_infer_binary H hX hw S cw bmin eps bmax ps fx (.inl hanneal) hcw hps
  have hmem : ∀ i ∈ freeMats m, i ∈ lr.factors := fun i hi => H.mem_free hi
  have hnd : (freeMats m).Nodup := by rw [H.free_eq]; exact H.nodup.filter _
  have h0 : freeLbdas m = [0] := by simp [freeLbdas, H.layers, hl]
  have hpm : ∀ t, ∀ i ∈ (genericEnv wr).perm t (freeMats m), i ∈ freeMats m := fun t i hi => H.perm t _ i hi
  obtain ⟨wm, wl, clock, hC, hend, gm, gl, m1, m2, m3, h1, h2, h3, hwl, -⟩ :=
    C39_traces (genericEnv wr) S cw bmin eps bmax ps fx m m' hnd hpm hm'
  obtain ⟨m1', m2', e1, e2, efct, elfct⟩ := infer_fcts hnd hpm hm'
  rw [h1] at e1; cases e1
  rw [h2] at e2; cases e2
  obtain ⟨m1', a1, a2, a3, a4, a5, a6'⟩ := H.assigns (freeMats m) m hmem rfl rfl (by
    intro i hi s hs
    exact H.cached _ i (H.position hi).1 s hs)
  rw [h1] at a1; cases a1
  obtain ⟨m2', b1, b2, b3⟩ := H.lassigns (m' := m1) a3 (by rw [a4]; exact H.lcached)
  rw [h2] at b1; cases b1
  have hf : ∀ i ∈ freeMats m, ∃ s, m2.fct i = some s ∧ GenericSampler lom lr.factors.length (lr.factors.idxOf i) s ∧
      ∃ f o, s = .lom f o 0 := by
    intro i hi
    cases hfi : m.fct i with
    | none =>
      obtain ⟨f, o, hs⟩ := a6' i hi hfi
      rw [(hprior i hi).1, logit_half] at hs
      exact ⟨_, by rw [b2]; exact hs, a2 i (hmem i hi) _ hs, f, o, rfl⟩
    | some s =>
      have hs := a5 i s hfi
      refine ⟨s, by rw [b2]; exact hs, a2 i (hmem i hi) _ hs, ?_⟩
      rw [← logit_half]
      exact (hprior i hi).2 s hfi
  have hH : Healthy (genericEnv wr) (freeMats m) (freeLbdas m) m.layers m2.fct m2.lfct
      fun w => ∃ σ : Nat → Int, (∀ i, IsPM (σ i)) ∧ UpToSigns m lr x sizes X σ w := by
    refine ⟨hpm, ?_, ?_, ?_⟩
    · intro i hi
      obtain ⟨s, s1, s2, s3⟩ := hf i hi
      refine ⟨s, s1, ?_⟩
      rintro t w ⟨σ, hσ, hw⟩
      obtain ⟨w', q1, q2, q3⟩ := H.call_signs hc hr hi s2 s3 t hw
      refine ⟨w', q1, ⟨_, ?_, q2⟩, fun k => by rw [q3]⟩
      intro j
      by_cases hj : j = i
      · subst hj; simpa [upd] using isPM_neg (hσ j)
      · simpa [upd, hj] using hσ j
    · intro k hk
      obtain ⟨g, g1, g2⟩ := b3 k hk
      obtain rfl := H.free_lbda hk
      refine ⟨g, g1, ?_⟩
      rintro t w ⟨σ, hσ, hw⟩
      obtain ⟨w', q1, q2, -, q3⟩ := H.lbda_signs hX hc hr hA g2 hk t hσ hw
      exact ⟨w', q1, ⟨σ, hσ, q2⟩, q3⟩
    · intro lr' hlr' reset clean w fs b hauto
      rw [H.layers, List.mem_singleton] at hlr'
      subst hlr'
      simp [hc, hr] at hauto
  have k1 := fold_keeps (fun a i b => assignFct_keeps) h1
  have k2 := fold_keeps (fun a i b => assignLfct_keeps) h2
  have e2 := k1.1.trans k2.1
  obtain ⟨m3', c1, σ, hσ, c2⟩ := hH.burn_in_anneal (nodup_freeLbdas m) (show ps ≠ 0 by omega) (show cw ≠ 0 by omega)
    (eps := eps) (b := bmin) (bmax := bmax) (fx := fx) (m := resetIndices (freeMats m) (freeLbdas m) m2) rfl rfl e2.layers
    (.inl (by show m2.anneal = false; rw [e2.anneal]; exact hanneal))
    (by
      show ∃ σ : Nat → Int, (∀ i, IsPM (σ i)) ∧ UpToSigns m lr x sizes X σ m2.world
      rw [k2.2, k1.2]
      refine ⟨fun _ => 1, fun _ => .inl rfl, hw, ⟨fun _ _ => rfl, fun _ _ => rfl, fun _ _ _ => ⟨rfl, rfl, fun _ _ => rfl, fun _ => rfl⟩⟩,
        hzero, fun i _ => ⟨rfl, fun idx _ => ?_⟩⟩
      split <;> simp)
  rw [h3] at c1; cases c1
  rw [efct, elfct] at hC
  have hsweep : ∀ t, t < S → UpToSigns m lr x sizes X (fun i => σ i * (-1) ^ t) (wl t) →
      UpToSigns m lr x sizes X (fun i => σ i * (-1) ^ (t + 1)) (wm t) ∧
      UpToSigns m lr x sizes X (fun i => σ i * (-1) ^ (t + 1)) (wl (t + 1)) := by
    intro t ht hw
    have hwm : UpToSigns m lr x sizes X (fun i => σ i * (-1) ^ (t + 1)) (wm t) := by
      obtain ⟨w', q1, q2⟩ := H.calls_signs hc hr hf (clock + t) (wr.perm (clock + t) (freeMats m))
        ((hperm _ _).nodup_iff.mpr hnd) (H.perm _ _) hw
      have := hC.mats t ht
      rw [sweepM] at this
      have hp : (genericEnv wr).perm (clock + t) (freeMats m) = wr.perm (clock + t) (freeMats m) := rfl
      rw [hp, q1] at this
      cases this
      refine ⟨q2.legal, q2.kept, q2.zero, fun i hi => ?_⟩
      have := q2.signs i hi
      simp only [(hperm _ _).mem_iff.mpr hi, if_true] at this
      rw [pow_succ]
      simpa using this
    refine ⟨hwm, ?_⟩
    obtain ⟨g, g1, g2⟩ := b3 0 (by rw [h0]; simp)
    obtain ⟨w', q1, q2, -, -⟩ := H.lbda_signs hX hc hr hA g2 (by rw [h0]; simp) (clock + t + 1) (fun i => isPM_alternate (hσ i) (t + 1)) hwm
    have := hC.lbdas t ht
    rw [h0] at this
    simp only [sweepL, List.foldlM_cons, List.foldlM_nil, g1] at this
    have hr : (genericEnv wr).runLbda g 0 (clock + t + 1) (wm t) = runUpdate wr g 0 (clock + t + 1) (wm t) := rfl
    rw [hr, q1] at this
    simp only [bind, Except.bind, pure, Except.pure, Except.ok.injEq] at this
    rw [← this]
    exact q2
  have hall : ∀ t, t ≤ S → UpToSigns m lr x sizes X (fun i => σ i * (-1) ^ t) (wl t) := by
    intro t
    induction t with
    | zero => intro _; rw [hwl]; simpa using c2
    | succ t ih => intro ht; exact (hsweep t (by omega) (ih (by omega))).2
  refine ⟨m', hm', by rw [hend]; exact (hall S le_rfl).zero, ?_, ?_⟩
  · obtain ⟨lt, l1, l2, -⟩ := htr 0 (by rw [h0]; simp)
    obtain ⟨lt', q1, -, q3⟩ := gl 0 (by rw [h0]; simp)
    rw [l1] at q1; cases q1
    refine ⟨lt, l1, l2, fun t ht => ?_⟩
    rw [q3 t ht (by rw [(hall (t + 1) (by omega)).zero, (hall 0 (by omega)).zero]), (hall (t + 1) (by omega)).zero]
  · intro i hi
    obtain ⟨tr, t1, t2⟩ := gm i hi
    have hmod : ∀ j ∈ freeMats m, modelOf m j ≠ some "OR-AND-IBP" := by
      intro j hj
      have : modelOf m j = some lom.name := by
        rw [modelOf, H.layerOf j (hmem j hj), H.layers, ← H.model]; rfl
      rw [this]
      cases lom <;> decide
    rcases t2 with ⟨-, t3, t4⟩ | ⟨t3, -⟩ | ⟨-, ⟨j, hj, t3⟩, -⟩
    · refine ⟨tr, σ i * -1, t1, ?_, by simpa using isPM_neg (hσ i), fun t ht => ?_, _, isPM_alternate (hσ i) S, by rw [hend]; exact (hall S le_rfl).signs i hi⟩
      · rw [t3, ((hall 0 (by omega)).signs i hi).1]
      · obtain ⟨t5, t6⟩ := t4 t ht
        have := ((hsweep t ht (hall t ht.le)).1).signs i hi
        refine ⟨rfl, fun idx hidx => ?_⟩
        show tr (t :: idx) = _
        rw [t6, this.2 idx hidx]
        split
        · rfl
        · ring
    · exact absurd t3 (hmod i hi)
    · exact absurd t3 (hmod j hj)

theorem sum_alternating (v : ℝ) (k : Nat) : ((List.range (2 * k)).map fun t => v * (-1 : ℝ) ^ t).sum = 0 := by
  induction k with
  | zero => simp
  | succ k ih =>
    rw [show 2 * (k + 1) = 2 * k + 1 + 1 by ring, List.range_succ, List.range_succ]
    simp only [List.map_append, List.sum_append, List.map_cons, List.map_nil, List.sum_cons, List.sum_nil, ih, pow_succ]
    ring

theorem mean_samples {v tr : Arr Int} {S : Nat} {sh : List Nat} (hs : tr.shape = S :: sh) (hS : 0 < S) :
    OFac.mean ⟨v, some (samplesOf tr)⟩ =
      .nums ⟨sh, fun idx => ((List.range S).map fun t => (tr (t :: idx) : ℝ)).sum / S⟩ := by
  obtain ⟨n, rfl⟩ : ∃ n, S = n + 1 := ⟨S - 1, by omega⟩
  have hd : tr.dim 0 = n + 1 := by simp [Arr.dim, hs]
  unfold OFac.mean samplesOf
  simp only [hd, hs, List.drop_succ_cons, List.drop_zero, List.range_succ_eq_map, List.map_cons, List.map_map]
  congr 2
  funext idx
  simp [Function.comp_def]

/-- **C107** is false, what the user sees: under the hypotheses of `C107_stuck`, for every even number of samples the mean of the
samples of every free entry of every sampled factor is 0 and `set_to_map` sets it to -1: whatever the data and whatever is drawn. -/
theorem C107_stuck_mean {wr : Wiring} {m : Mach Sampler LbdaUpdate} {lom : Lom8} {lr : LayerInfo} {x : Nat}
    {sizes : List Nat} (H : SingleLayer wr m lom lr x sizes) {X : Arr Int} (hX : X.shape = sizes)
    (hw : LegalWorld lr x sizes X m.world) (hc : lr.auto_clean = false) (hr : lr.auto_reset = false)
    (hperm : ∀ t l, (wr.perm t l).Perm l) (hanneal : m.anneal = false) (hl : m.lfixed 0 = false)
    (hprior : ∀ i ∈ freeMats m, m.bernoulli_prior i = 1 / 2 ∧ ∀ s, m.fct i = some s → ∃ f o, s = .lom f o (logit (1 / 2)))
    (hzero : m.world.lbda 0 = .scalar (.fin 0))
    (hA : AtChance lom (lr.factors.map fun i => (m.world.mat i, m.fixed i)) X (wr.beta_prior 0).1 (wr.beta_prior 0).2)
    (S cw bmin : Nat) (eps : ℝ) (bmax : Int) (ps fx : Nat) (hcw : 1 ≤ cw) (hps : 1 ≤ ps) (hS : 0 < S) (hev : Even S) :
    ∃ m', infer (genericEnv wr) S cw eps bmin bmax ps fx m = .ok m' ∧
      ∀ i ∈ freeMats m, ∃ a, (m'.ofac i).mean = .nums a ∧ a.shape = (m.world.mat i).val.shape ∧
        ∀ idx, InB (m.world.mat i).val.shape idx → (m.world.mat i).fixed_entries idx ≠ 1 →
          a idx = 0 ∧ (m'.ofac i).set_to_map.val idx = -1 := by
  obtain ⟨m', h1, -, -, h2⟩ := C107_stuck H hX hw hc hr hperm hanneal hl hprior hzero hA S cw bmin eps bmax ps fx hcw hps
  refine ⟨m', h1, fun i hi => ?_⟩
  obtain ⟨tr, σ, t1, t2, t3, t4, -⟩ := h2 i hi
  have hmean : (m'.ofac i).mean = .nums ⟨(m.world.mat i).val.shape,
      fun idx => ((List.range S).map fun t => (tr (t :: idx) : ℝ)).sum / S⟩ := by
    rw [Mach.ofac, t1]
    exact mean_samples t2 hS
  have hz : ∀ idx, InB (m.world.mat i).val.shape idx → (m.world.mat i).fixed_entries idx ≠ 1 →
      ((List.range S).map fun t => (tr (t :: idx) : ℝ)).sum = 0 := by
    intro idx hidx hfe
    obtain ⟨k, hk⟩ := hev
    have e : (List.range S).map (fun t => (tr (t :: idx) : ℝ)) =
        (List.range S).map fun t => ((σ * (m.world.mat i).val idx : Int) : ℝ) * (-1 : ℝ) ^ t := by
      apply List.map_congr_left
      intro t ht
      have := (t4 t (List.mem_range.mp ht)).2 idx hidx
      simp only [hfe, if_false] at this
      rw [show tr (t :: idx) = _ from this]
      push_cast
      ring
    rw [e, show S = 2 * k by omega]
    exact sum_alternating _ k
  refine ⟨_, hmean, rfl, fun idx hidx hfe => ⟨?_, ?_⟩⟩
  · show _ / _ = _
    rw [hz idx hidx hfe, zero_div]
  · unfold OFac.set_to_map
    rw [hmean]
    simp [Arr.map, hz idx hidx hfe]

/-- **C107** (what holds): after inference that learns lambda, the lambda of a sample is 0 exactly if the factors of that
sample predict at most half of the observed cells (counting pseudo-counts); otherwise it is positive, so that the next sweep depends on
the data. -/
theorem C107_lambda_zero_partial {wr : Wiring} {m : Mach Sampler LbdaUpdate} {lom : Lom8} {lr : LayerInfo} {x : Nat}
    {sizes : List Nat} (H : SingleLayer wr m lom lr x sizes) {X : Arr Int} (hX : X.shape = sizes)
    (hw : LegalWorld lr x sizes X m.world) (S cw bmin : Nat) (eps : ℝ) (bmax : Int) (ps fx : Nat) (ha : CanAnneal m fx)
    (hcw : 1 ≤ cw) (hps : 1 ≤ ps) (hl : m.lfixed 0 = false) :
    ∃ m', infer (genericEnv wr) S cw eps bmin bmax ps fx m = .ok m' ∧ ∃ lt, m'.ltrace 0 = some lt ∧ lt.len = S ∧
      ∀ t < S, ∃ y fs, lt.row t = some (.scalar (.fin y)) ∧ 0 ≤ y ∧ fs.length = lr.factors.length ∧
        (∀ (j i : Nat) (F : Arr Int), lr.factors[j]? = some i → fs[j]? = some F → IsFactorSample m m' S t i F) ∧
        (y = 0 ↔ 2 * (correctCells lom fs X + (wr.beta_prior 0).1) ≤
          observedCells X + (wr.beta_prior 0).1 + (wr.beta_prior 0).2) := by
  obtain ⟨m', h1, lt, h2, h3, h4⟩ := C91_lambda_of_sample H hX hw S cw bmin eps bmax ps fx ha hcw hps hl
  refine ⟨m', h1, lt, h2, h3, fun t ht => ?_⟩
  obtain ⟨y, fs, g1, g2, g3, g4⟩ := h4 t ht
  exact ⟨y, fs, g1, g4.1, g2, g3, belongs_zero H.beta.1 H.beta.2 g4⟩

/-! ## The hypotheses are met -/

/-- two rows of ones on two rows of minus ones -/
def stuckData : Arr Int := ⟨[2, 2], fun idx => if idx.getD 0 0 = 0 then 1 else -1⟩

/-- an OR-AND layer -/
def stuckLayer : LayerInfo := ⟨[0, 1], "OR-AND", none, false, false⟩

/-- both factors consist of ones, lambda is 0 -/
noncomputable def stuckWorld : World where
  mat i := if i < 2 then ⟨Arr.full [2, 1] 1, Arr.full [2, 1] 0⟩ else ⟨stuckData, Arr.full [2, 2] 0⟩
  lbda _ := .scalar (.fin 0)

/-- attributes of this machine -/
noncomputable def stuckWiring (rnd : Nat → Nat → Rnd) (perm : Nat → List Nat → List Nat) : Wiring :=
  { wiring2 false false rnd perm with layers := [stuckLayer] }

/-- this machine before inference -/
noncomputable def stuckMach : Mach Sampler LbdaUpdate :=
  { mach2 false false [] with layers := [stuckLayer], world := stuckWorld }

theorem stuck_pred (z u : Nat → Int) : pred2 .OR_AND 1 z u = if z 0 = 1 ∧ u 0 = 1 then 1 else -1 := by
  unfold pred2 pm
  simp [Spec.lom, LOp.Holds, Lom8.outer, Lom8.inner, Fin.forall_fin_two]

theorem stuck_correct (A B : Arr Int) (h : A.dim 1 = 1) : correctCells .OR_AND [A, B] stuckData =
    (if (A [0, 0] = 1 ∧ B [0, 0] = 1) then 1 else 0) + (if (A [0, 0] = 1 ∧ B [1, 0] = 1) then 1 else 0) +
    ((if (A [1, 0] = 1 ∧ B [0, 0] = 1) then 0 else 1) + if (A [1, 0] = 1 ∧ B [1, 0] = 1) then 0 else 1) := by
  have : correctCells .OR_AND [A, B] stuckData = correct2 .OR_AND 2 2 1 (fun n d => stuckData [n, d]) (fun n l => A [n, l])
      (fun d l => B [d, l]) := by
    rw [← h]
    rfl
  rw [this, correct2]
  simp only [stuck_pred]
  rw [Finset.card_filter, Fintype.sum_prod_type]
  simp only [Fin.sum_univ_two, Fin.val_zero, Fin.val_one, stuckData, List.getD_cons_zero]
  simp only [one_ne_zero, if_true, if_false]
  by_cases h1 : A [0, 0] = 1 <;> by_cases h2 : A [1, 0] = 1 <;> by_cases h3 : B [0, 0] = 1 <;>
    by_cases h4 : B [1, 0] = 1 <;> simp [h1, h2, h3, h4]

/-- the hypotheses of `C107_stuck` and `C107_stuck_mean` hold for an OR-AND layer with one latent dimension, factors of ones and two by
two data whose first row is ones and whose second row is minus ones, whatever is drawn: in no sample is a single
entry of the factors learned, though there are factors of the same sizes that predict all cells. -/
theorem C107_hypotheses_met (rnd : Nat → Nat → Rnd) (perm : Nat → List Nat → List Nat) (hp : ∀ t l, (perm t l).Perm l) :
    SingleLayer (stuckWiring rnd perm) stuckMach .OR_AND stuckLayer 2 [2, 2] ∧
    LegalWorld stuckLayer 2 [2, 2] stuckData stuckMach.world ∧
    AtChance .OR_AND (stuckLayer.factors.map fun i => (stuckMach.world.mat i, stuckMach.fixed i)) stuckData 1 1 ∧
    freeMats stuckMach = [0, 1] ∧
    correctCells .OR_AND [⟨[2, 1], fun idx => if idx = [0, 0] then 1 else -1⟩, Arr.full [2, 1] 1] stuckData = 4 ∧
    ∃ m', infer (genericEnv (stuckWiring rnd perm)) 50 15 0.005 30 2000 10 0 stuckMach = .ok m' ∧
      ∀ i ∈ [0, 1], ∃ a, (m'.ofac i).mean = .nums a ∧ a [0, 0] = 0 ∧ a [1, 0] = 0 := by
  have hS : SingleLayer (stuckWiring rnd perm) stuckMach .OR_AND stuckLayer 2 [2, 2] := by
    refine ⟨rfl, rfl, rfl, rfl, by simp [stuckLayer], Or.inl rfl, ?_, ?_, ?_, rfl, by simp [stuckLayer], ?_, ?_, ?_, rfl, ?_, ?_⟩
    · intro j i h
      match j with
      | 0 => simp only [stuckLayer, List.getElem?_cons_zero, Option.some.injEq] at h; exact h.symm
      | 1 => simp only [stuckLayer, List.getElem?_cons_succ, List.getElem?_cons_zero, Option.some.injEq] at h; exact h.symm
      | j + 2 => simp [stuckLayer] at h
    · intro i hi
      simp only [stuckLayer, List.mem_cons, List.not_mem_nil, or_false] at hi
      rcases hi with rfl | rfl <;> rfl
    · intro i hi
      simp only [stuckLayer, List.mem_cons, List.not_mem_nil, or_false] at hi
      rcases hi with rfl | rfl <;> rfl
    · intro i hi
      simp only [stuckMach, mach2, List.mem_singleton] at hi
      simp [stuckMach, mach2, hi]
    · simp [stuckWiring, wiring2]
    · intro t l i hi
      exact (hp t l).mem_iff.mp hi
    · intro j i _ s hs; cases hs
    · intro g hg; cases hg
  have hL : LegalWorld stuckLayer 2 [2, 2] stuckData stuckMach.world := by
    refine ⟨⟨1, ?_⟩, rfl, _, rfl⟩
    intro j f hf
    match j with
    | 0 =>
      simp only [stuckLayer, List.map_cons, List.getElem?_cons_zero, Option.some.injEq] at hf
      subst hf
      exact ⟨rfl, fun _ _ => .inl rfl⟩
    | 1 =>
      simp only [stuckLayer, List.map_cons, List.getElem?_cons_succ, List.getElem?_cons_zero, Option.some.injEq] at hf
      subst hf
      exact ⟨rfl, fun _ _ => .inl rfl⟩
    | j + 2 => simp [stuckLayer] at hf
  have hA : AtChance .OR_AND (stuckLayer.factors.map fun i => (stuckMach.world.mat i, stuckMach.fixed i)) stuckData 1 1 := by
    intro As hAs
    have h0 : stuckMach.fixed 0 = false := rfl
    have h1 : stuckMach.fixed 1 = false := rfl
    simp only [stuckLayer, List.map_cons, List.map_nil] at hAs
    cases hAs with
    | cons a1 hAs =>
    cases hAs with
    | cons a2 hAs =>
    cases hAs
    rename_i A B
    simp only [h0, h1, if_false, Bool.false_eq_true] at a1 a2
    obtain ⟨σ, hσ, s1, s2⟩ := a1
    obtain ⟨τ, hτ, t1, t2⟩ := a2
    have sA : ∀ n, n < 2 → A [n, 0] = σ := by
      intro n hn
      have := s2 [n, 0] ⟨hn, Nat.zero_lt_one, trivial⟩
      simpa [stuckMach, stuckWorld, Arr.full] using this
    have sB : ∀ n, n < 2 → B [n, 0] = τ := by
      intro n hn
      have := t2 [n, 0] ⟨hn, Nat.zero_lt_one, trivial⟩
      simpa [stuckMach, stuckWorld, Arr.full] using this
    have hd : A.dim 1 = 1 := by rw [Arr.dim, s1]; rfl
    have hcor : correctCells .OR_AND [A, B] stuckData = 2 := by
      rw [stuck_correct _ _ hd, sA 0 (by norm_num), sA 1 (by norm_num), sB 0 (by norm_num), sB 1 (by norm_num)]
      split <;> rfl
    have hobs : observedCells stuckData = 4 := by
      simp only [observedCells, stuckData, observed2]
      decide
    rw [hcor, hobs]
    norm_num
  refine ⟨hS, hL, hA, rfl, ?_, ?_⟩
  · rw [stuck_correct _ _ rfl]
    simp [Arr.full]
  · obtain ⟨m', h1, h2⟩ := C107_stuck_mean hS rfl hL rfl rfl hp rfl rfl (fun i _ => ⟨rfl, fun s hs => by cases hs⟩) rfl hA 50 15 30 0.005 2000 10 0
      (by norm_num) (by norm_num) (by norm_num) (by decide)
    refine ⟨m', h1, fun i hi => ?_⟩
    obtain ⟨a, a1, -, a3⟩ := h2 i hi
    refine ⟨a, a1, ?_⟩
    simp only [List.mem_cons, List.not_mem_nil, or_false] at hi
    rcases hi with rfl | rfl
    · exact ⟨(a3 [0, 0] ⟨by decide, by decide, trivial⟩ (by decide)).1, (a3 [1, 0] ⟨by decide, by decide, trivial⟩ (by decide)).1⟩
    · exact ⟨(a3 [0, 0] ⟨by decide, by decide, trivial⟩ (by decide)).1, (a3 [1, 0] ⟨by decide, by decide, trivial⟩ (by decide)).1⟩

end LFM
