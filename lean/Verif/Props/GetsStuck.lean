import Verif.Lemmas.Sweepwise
import Verif.Props.Stuck
import Verif.Props.Relabel

/-!
# C107: with default settings inference can get stuck, for every data set
-/

namespace LFM

open Spec

namespace Spec

/-- The factors, and the factors with the signs of all entries that are not fixed changed, predict at most half of the observed
cells (counting the pseudo-counts `a` and `b`). The flag of a factor says that the whole factor is fixed. -/
def MirrorsAtChance (lom : Lom8) (fs : List (Fac × Bool)) (X : Arr Int) (a b : ℝ) : Prop :=
  ∀ σ : Int, IsPM σ → ∀ As : List (Arr Int), List.Forall₂ (fun F A => if F.2 then A = F.1.val else MirrorOf F.1 σ A) fs As →
    2 * (correctCells lom As X + a) ≤ observedCells X + a + b

end Spec

/-- states in which every free factor is that of `m` up to signs, and lambda is `y` -/
structure SignsAt (m : Mach Sampler LbdaUpdate) (lr : LayerInfo) (x : Nat) (sizes : List Nat) (X : Arr Int) (σ : Nat → Int) (y : ℝ)
    (w : World) : Prop where
  legal : LegalWorld lr x sizes X w
  kept : Kept m lr w
  lbda : w.lbda 0 = .scalar (.fin y)
  signs : ∀ i ∈ freeMats m, MirrorOf (m.world.mat i) (σ i) (w.mat i).val

namespace SingleLayer

variable {wr : Wiring} {m : Mach Sampler LbdaUpdate} {lom : Lom8} {lr : LayerInfo} {x : Nat} {sizes : List Nat}

theorem call_small (H : SingleLayer wr m lom lr x sizes) {X : Arr Int} (hX : X.shape = sizes) (hd : DataArr X)
    (hfit : ScoresFit sizes) (hc : lr.auto_clean = false) (hr : lr.auto_reset = false) {i : Nat} (hi : i ∈ freeMats m) {s : Sampler}
    (hs : AxisSampler lom lr.factors.length (lr.factors.idxOf i) (1 / 2) s) (t : Nat) {y : ℝ}
    (hrnd : ∀ idx, InB (m.world.mat i).val.shape idx → wr.rnd t i idx < Real.exp (-(|y| * observedCells X))) {w : World}
    {σ : Nat → Int} (hw : SignsAt m lr x sizes X σ y w) :
    ∃ w', runSampler wr s i t w = .ok w' ∧ SignsAt m lr x sizes X (upd σ i (-σ i)) y w' := by
  obtain ⟨R, e1, e2, e3⟩ := H.flips_small hX hd hfit (H.mem_free hi) hs t hw.legal hw.lbda
    (by rw [(hw.signs i hi).1]; exact hrnd)
  obtain ⟨w', f1, ⟨f2, f3⟩, f4, -⟩ := H.keeps_mat hi hs.generic t ⟨hw.legal, hw.kept⟩
  rw [e1] at f1
  cases f1
  refine ⟨_, e1, ⟨f2, f3, by rw [f4]; exact hw.lbda, ?_⟩⟩
  intro j hj
  by_cases hji : j = i
  · subst hji
    obtain ⟨s1, s2⟩ := hw.signs j hj
    have hfe := (hw.kept.fixed hc hr j).1
    simp only [World.setVal, upd, if_true]
    refine ⟨e2.trans s1, fun idx hidx => ?_⟩
    rw [e3 idx (by rw [s1]; exact hidx), hfe, s2 idx hidx]
    split <;> simp
  · simpa [World.setVal, upd, hji] using hw.signs j hj

theorem calls_small (H : SingleLayer wr m lom lr x sizes) {X : Arr Int} (hX : X.shape = sizes) (hd : DataArr X)
    (hfit : ScoresFit sizes) (hc : lr.auto_clean = false) (hr : lr.auto_reset = false) {fct : Nat → Option Sampler}
    (hf : ∀ i ∈ freeMats m, ∃ s, fct i = some s ∧ AxisSampler lom lr.factors.length (lr.factors.idxOf i) (1 / 2) s) (t : Nat) {y : ℝ}
    (hrnd : ∀ i ∈ freeMats m, ∀ idx, InB (m.world.mat i).val.shape idx → wr.rnd t i idx < Real.exp (-(|y| * observedCells X)))
    (xs : List Nat) (hnd : xs.Nodup) (hxs : ∀ i ∈ xs, i ∈ freeMats m) :
    ∀ {w : World} {σ : Nat → Int}, SignsAt m lr x sizes X σ y w → ∃ w', callsM (genericEnv wr) fct t xs w = .ok w' ∧
      SignsAt m lr x sizes X (fun i => if i ∈ xs then -σ i else σ i) y w' := by
  induction xs with
  | nil => intro w σ hw; exact ⟨w, rfl, by simpa using hw⟩
  | cons i xs ih =>
    intro w σ hw
    obtain ⟨n1, n2⟩ := List.nodup_cons.mp hnd
    obtain ⟨s, h1, h2⟩ := hf i (hxs i (by simp))
    obtain ⟨w1, e1, e2⟩ := H.call_small hX hd hfit hc hr (hxs i (by simp)) h2 t (hrnd i (hxs i (by simp))) hw
    obtain ⟨w', g1, g2⟩ := ih n2 (fun j hj => hxs j (by simp [hj])) e2
    refine ⟨w', ?_, ?_⟩
    · simp only [callsM, List.foldlM_cons, h1]
      have : (genericEnv wr).runMat s i t w = .ok w1 := e1
      rw [this]
      exact g1
    · have : (fun j => if j ∈ xs then -upd σ i (-σ i) j else upd σ i (-σ i) j) =
          fun j => if j ∈ i :: xs then -σ j else σ j := by
        funext j
        by_cases hj : j = i
        · subst hj; simp [upd, n1]
        · simp [upd, hj]
      rw [this] at g2
      exact g2

/-- the update of lambda in a state in which all signs are the same -/
theorem lbda_mirror (H : SingleLayer wr m lom lr x sizes) {X : Arr Int} (hX : X.shape = sizes) (hc : lr.auto_clean = false)
    (hr : lr.auto_reset = false)
    (hA : MirrorsAtChance lom (lr.factors.map fun i => (m.world.mat i, m.fixed i)) X (wr.beta_prior 0).1 (wr.beta_prior 0).2)
    {g : LbdaUpdate} (hg : get_update_fct none lom.name lr.factors.length = .ok g) (hl : 0 ∈ freeLbdas m) (t : Nat) {w : World}
    {σ : Int} (hσ : IsPM σ) {y0 : ℝ} (hw : SignsAt m lr x sizes X (fun _ => σ) y0 w) :
    ∃ w', runUpdate wr g 0 t w = .ok w' ∧ UpToSigns m lr x sizes X (fun _ => σ) w' := by
  obtain ⟨y, y1, y2⟩ := H.runs_lbda_value hg t hw.legal hX
  obtain ⟨w', f1, ⟨f2, f3⟩, f4, f5⟩ := H.keeps_lbda hX hl hg t ⟨hw.legal, hw.kept⟩
  rw [y2] at f1
  cases f1
  have hy : y = 0 := by
    rw [belongs_zero H.beta.1 H.beta.2 y1]
    apply hA σ hσ
    rw [List.forall₂_map_left_iff, List.forall₂_map_right_iff, List.forall₂_same]
    intro i hi
    by_cases hfx : m.fixed i = true
    · simp only [hfx, if_true]
      rw [(hw.kept.fixed hc hr i).2.2.2 (by rw [H.free_eq]; simp [hfx])]
    · have : i ∈ freeMats m := by rw [H.free_eq]; simp [hi, hfx]
      simp only [hfx, if_false]
      exact hw.signs i this
  exact ⟨_, y2, ⟨f2, f3, by simp [upd, hy], hw.signs⟩⟩

end SingleLayer

/-- **C107** is false for default settings: let a new machine with a single layer of any of the eight generic models with two or
three factors and priors 1/2 have any lambda, not fixed, and factors that, like the factors with all signs changed, predict at most
half of the observed cells. If all draws of the first sweep are below a positive threshold (the exponential of minus lambda
times the number of observed cells), then *whatever is drawn later*, inference returns, lambda is 0 in all samples, and in
every sample all sampled factors are what they were at the start up to a single sign for all free entries, which changes from each
sample to the next. -/
theorem C107_gets_stuck {wr : Wiring} {m : Mach Sampler LbdaUpdate} {lom : Lom8} {lr : LayerInfo} {x : Nat}
    {sizes : List Nat} (H : SingleLayer wr m lom lr x sizes) {X : Arr Int} (hX : X.shape = sizes) (hd : DataArr X)
    (hfit : ScoresFit sizes)
    (hw : LegalWorld lr x sizes X m.world) (hc : lr.auto_clean = false) (hr : lr.auto_reset = false)
    (hperm : ∀ t l, (wr.perm t l).Perm l) (hanneal : m.anneal = false) (hl : m.lfixed 0 = false)
    (hfresh : ∀ i ∈ lr.factors, m.fct i = none) (hprior : ∀ i ∈ freeMats m, m.bernoulli_prior i = 1 / 2)
    {y : ℝ} (hy : m.world.lbda 0 = .scalar (.fin y))
    (hA : MirrorsAtChance lom (lr.factors.map fun i => (m.world.mat i, m.fixed i)) X (wr.beta_prior 0).1 (wr.beta_prior 0).2)
    (hrnd : ∀ i ∈ freeMats m, ∀ idx, InB (m.world.mat i).val.shape idx →
      wr.rnd m.clock i idx < Real.exp (-(|y| * observedCells X)))
    (S cw bmin : Nat) (eps : ℝ) (bmax : Int) (ps : Nat) (hcw : 1 ≤ cw) (hps : 1 ≤ ps) (hb : 1 ≤ bmin) :
    ∃ m', infer (genericEnv wr) S cw eps bmin bmax ps 0 m = .ok m' ∧ m'.world.lbda 0 = .scalar (.fin 0) ∧
      (∃ lt, m'.ltrace 0 = some lt ∧ lt.len = S ∧ ∀ t < S, lt.row t = some (.scalar (.fin 0))) ∧
      ∃ σ, IsPM σ ∧ ∀ i ∈ freeMats m, ∃ tr, m'.trace i = some tr ∧ tr.shape = S :: (m.world.mat i).val.shape ∧
        ∀ t < S, MirrorOf (m.world.mat i) (σ * (-1) ^ t) ⟨(m.world.mat i).val.shape, fun idx => tr (t :: idx)⟩ := by
  obtain ⟨m', hm', -, -, -, -, -, -, htr⟩ := C47_infer_binary H hX hw S cw bmin eps bmax ps 0 (.inl hanneal) hcw hps
  have hmem : ∀ i ∈ freeMats m, i ∈ lr.factors := fun i hi => H.mem_free hi
  have hnd : (freeMats m).Nodup := by rw [H.free_eq]; exact H.nodup.filter _
  have h0 : freeLbdas m = [0] := by simp [freeLbdas, H.layers, hl]
  have hpm : ∀ t, ∀ i ∈ (genericEnv wr).perm t (freeMats m), i ∈ freeMats m := fun t i hi => H.perm t _ i hi
  obtain ⟨wm, wl, clock, hC, hend, gm, gl, m1, m2, m3, h1, h2, h3, hwl, -⟩ :=
    C39_traces (genericEnv wr) S cw bmin eps bmax ps 0 m m' hnd hpm hm'
  obtain ⟨m1', m2', e1, e2, efct, elfct⟩ := infer_fcts hnd hpm hm'
  rw [h1] at e1; cases e1
  rw [h2] at e2; cases e2
  obtain ⟨m1', a1, a2, a3, a4, a5, a6'⟩ := H.assigns (freeMats m) m hmem rfl rfl (by
    intro i hi s hs
    exact H.cached _ i (H.position hi).1 s hs)
  rw [h1] at a1; cases a1
  have hax := H.assigns_axis (freeMats m) m m1 hmem rfl rfl rfl (fun i hi => .inl (hfresh i hi)) h1
  obtain ⟨m2', b1, b2, b3⟩ := H.lassigns (m' := m1) a3 (by rw [a4]; exact H.lcached)
  rw [h2] at b1; cases b1
  have hf : ∀ i ∈ freeMats m, ∃ s, m2.fct i = some s ∧ GenericSampler lom lr.factors.length (lr.factors.idxOf i) s ∧
      ∃ f o, s = .lom f o 0 := by
    intro i hi
    obtain ⟨f, o, hs⟩ := a6' i hi (hfresh i (hmem i hi))
    rw [hprior i hi, logit_half] at hs
    exact ⟨_, by rw [b2]; exact hs, a2 i (hmem i hi) _ hs, f, o, rfl⟩
  have hf' : ∀ i ∈ freeMats m, ∃ s, m2.fct i = some s ∧ AxisSampler lom lr.factors.length (lr.factors.idxOf i) (1 / 2) s := by
    intro i hi
    obtain ⟨s, s1, s2⟩ := hax i (hmem i hi) (.inl hi)
    rw [hprior i hi] at s2
    exact ⟨s, by rw [b2]; exact s1, s2⟩
  have k1 := fold_keeps (fun a i b => assignFct_keeps) h1
  have k2 := fold_keeps (fun a i b => assignLfct_keeps) h2
  have ks := k1.1.trans k2.1
  -- the update of lambda
  have hlb : ∀ (σ : Int) (y0 : ℝ) (t : Nat) (w w2 : World), IsPM σ → SignsAt m lr x sizes X (fun _ => σ) y0 w →
      sweepL (genericEnv wr) m2.lfct (freeLbdas m) t w = .ok w2 → UpToSigns m lr x sizes X (fun _ => σ) w2 := by
    intro σ y0 t w w2 hσ hw h
    obtain ⟨g, g1, g2⟩ := b3 0 (by rw [h0]; simp)
    obtain ⟨w', q1, q2⟩ := H.lbda_mirror hX hc hr hA g2 (by rw [h0]; simp) t hσ hw
    rw [h0] at h
    simp only [sweepL, List.foldlM_cons, List.foldlM_nil, g1] at h
    have hr : (genericEnv wr).runLbda g 0 t w = runUpdate wr g 0 t w := rfl
    rw [hr, q1] at h
    simp only [bind, Except.bind, pure, Except.pure, Except.ok.injEq] at h
    rw [← h]
    exact q2
  have hflip : ∀ (σ : Int) (t : Nat) (w w1 : World), UpToSigns m lr x sizes X (fun _ => σ) w →
      sweepM (genericEnv wr) m2.fct (freeMats m) t w = .ok w1 → UpToSigns m lr x sizes X (fun _ => -σ) w1 := by
    intro σ t w w1 hw h
    obtain ⟨w', q1, q2⟩ := H.calls_signs hc hr hf t (wr.perm t (freeMats m)) ((hperm _ _).nodup_iff.mpr hnd) (H.perm _ _) hw
    rw [sweepM] at h
    have hp : (genericEnv wr).perm t (freeMats m) = wr.perm t (freeMats m) := rfl
    rw [hp, q1] at h
    cases h
    refine ⟨q2.legal, q2.kept, q2.zero, fun i hi => ?_⟩
    have := q2.signs i hi
    simpa only [(hperm _ _).mem_iff.mpr hi, if_true] using this
  have hJ : KeptBySweeps (genericEnv wr) m2.fct m2.lfct (freeMats m) (freeLbdas m) (fun t w =>
      (t = m.clock ∧ w = m.world) ∨ (m.clock < t ∧ ∃ σ : Int, IsPM σ ∧ UpToSigns m lr x sizes X (fun _ => σ) w)) := by
    intro t w w1 w2 hJ s1 s2
    refine .inr ⟨by rcases hJ with hJ | hJ <;> omega, ?_⟩
    rcases hJ with ⟨rfl, rfl⟩ | ⟨-, σ, hσ, hw⟩
    · have hw0 : SignsAt m lr x sizes X (fun _ => 1) y m.world :=
        ⟨hw, ⟨fun _ _ => rfl, fun _ _ => rfl, fun _ _ _ => ⟨rfl, rfl, fun _ _ => rfl, fun _ => rfl⟩⟩, hy,
          fun i _ => ⟨rfl, fun idx _ => by split <;> simp⟩⟩
      obtain ⟨w', q1, q2⟩ := H.calls_small hX hd hfit hc hr hf' m.clock hrnd (wr.perm m.clock (freeMats m))
        ((hperm _ _).nodup_iff.mpr hnd) (H.perm _ _) hw0
      rw [sweepM] at s1
      have hp : (genericEnv wr).perm m.clock (freeMats m) = wr.perm m.clock (freeMats m) := rfl
      rw [hp, q1] at s1
      cases s1
      have q3 : SignsAt m lr x sizes X (fun _ => -1) y w1 := by
        refine ⟨q2.legal, q2.kept, q2.lbda, fun i hi => ?_⟩
        have := q2.signs i hi
        simpa only [(hperm _ _).mem_iff.mpr hi, if_true] using this
      exact ⟨-1, .inr rfl, hlb _ _ _ _ _ (.inr rfl) q3 s2⟩
    · have h := hflip _ _ _ _ hw s1
      exact ⟨-σ, isPM_neg hσ, hlb _ 0 _ _ _ (isPM_neg hσ) ⟨h.legal, h.kept, h.zero, h.signs⟩ s2⟩
  obtain ⟨c1, c2⟩ := burn_in_sweepwise (m := resetIndices (freeMats m) (freeLbdas m) m2) hJ
    (by show m2.anneal = false; rw [ks.anneal]; exact hanneal)
    (by
      show ∀ l ∈ m2.layers, _
      rw [ks.layers, H.layers]
      intro l hlr
      rw [List.mem_singleton] at hlr
      subst hlr
      exact ⟨hc, hr⟩)
    (by
      refine .inl ⟨?_, ?_⟩
      · exact (lassign_clock h2).trans (assign_clock h1)
      · show m2.world = m.world
        rw [k2.2, k1.2])
    h3
  have hclk : (resetIndices (freeMats m) (freeLbdas m) m2).clock = m.clock := (lassign_clock h2).trans (assign_clock h1)
  rw [hclk] at c2
  obtain ⟨σ, hσ, hw3⟩ : ∃ σ : Int, IsPM σ ∧ UpToSigns m lr x sizes X (fun _ => σ) m3.world := by
    rcases c1 with ⟨c1, -⟩ | ⟨-, c1⟩
    · omega
    · exact c1
  rw [efct, elfct] at hC
  have hsweep : ∀ t, t < S → UpToSigns m lr x sizes X (fun _ => σ * (-1) ^ t) (wl t) →
      UpToSigns m lr x sizes X (fun _ => σ * (-1) ^ (t + 1)) (wm t) ∧
      UpToSigns m lr x sizes X (fun _ => σ * (-1) ^ (t + 1)) (wl (t + 1)) := by
    intro t ht hw
    have hwm := hflip _ _ _ _ hw (hC.mats t ht)
    rw [show -(σ * (-1) ^ t) = σ * (-1) ^ (t + 1) by ring] at hwm
    exact ⟨hwm, hlb _ 0 _ _ _ (isPM_alternate hσ (t + 1)) ⟨hwm.legal, hwm.kept, hwm.zero, hwm.signs⟩ (hC.lbdas t ht)⟩
  have hall : ∀ t, t ≤ S → UpToSigns m lr x sizes X (fun _ => σ * (-1) ^ t) (wl t) := by
    intro t
    induction t with
    | zero => intro _; rw [hwl]; simpa using hw3
    | succ t ih => intro ht; exact (hsweep t (by omega) (ih (by omega))).2
  refine ⟨m', hm', by rw [hend]; exact (hall S le_rfl).zero, ?_, σ * -1, by simpa using isPM_neg hσ, ?_⟩
  · obtain ⟨lt, l1, l2, -⟩ := htr 0 (by rw [h0]; simp)
    obtain ⟨lt', q1, -, q3⟩ := gl 0 (by rw [h0]; simp)
    rw [l1] at q1; cases q1
    refine ⟨lt, l1, l2, fun t ht => ?_⟩
    rw [q3 t ht (by rw [(hall (t + 1) (by omega)).zero, (hall 0 (by omega)).zero]), (hall (t + 1) (by omega)).zero]
  · intro i hi
    obtain ⟨tr, t1, t2⟩ := gm i hi
    have hmod : ∀ j ∈ freeMats m, modelOf m j ≠ some "OR-AND-IBP" := by
      intro j hj
      have : modelOf m j = some lom.name := by
        rw [modelOf, H.layerOf j (hmem j hj), H.layers, ← H.model]; rfl
      rw [this]
      cases lom <;> decide
    rcases t2 with ⟨-, t3, t4⟩ | ⟨t3, -⟩ | ⟨-, ⟨j, hj, t3⟩, -⟩
    · refine ⟨tr, t1, ?_, fun t ht => ?_⟩
      · rw [t3, ((hall 0 (by omega)).signs i hi).1]
      · obtain ⟨t5, t6⟩ := t4 t ht
        have := ((hsweep t ht (hall t ht.le)).1).signs i hi
        refine ⟨rfl, fun idx hidx => ?_⟩
        show tr (t :: idx) = _
        rw [t6, this.2 idx hidx]
        split
        · rfl
        · ring
    · exact absurd t3 (hmod i hi)
    · exact absurd t3 (hmod j hj)

end LFM
