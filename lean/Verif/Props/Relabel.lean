import Verif.Lemmas.RelabelData

/-!
# C94–C96: slices without data, the order of rows and the order of axes do not matter
-/

namespace LFM

open Spec

/-! ## Corresponding machines -/

/-- two machines with equal settings in corresponding states; the draws for corresponding entries are equal -/
structure Paired (wr wr' : Wiring) (m m' : Mach Sampler LbdaUpdate) (lr lr' : LayerInfo) (x x' : Nat)
    (sizes sizes' : List Nat) (X X' : Arr Int) (L : Nat) (σ : Nat → Nat → Nat) : Prop where
  world : WRel lr lr' x x' sizes sizes' X X' L σ m.world m'.world
  fresh : ∀ i ∈ lr.factors, m.fct i = none ∧ m'.fct i = none
  prior : ∀ i ∈ lr.factors, m'.bernoulli_prior i = m.bernoulli_prior i
  fixed : ∀ i ∈ lr.factors, m'.fixed i = m.fixed i
  lfixed : m'.lfixed 0 = m.lfixed 0
  anneal : m'.anneal = m.anneal
  clock : m'.clock = m.clock
  beta : wr'.beta_prior 0 = wr.beta_prior 0
  junk : wr'.junk = wr.junk
  perm : ∀ t, wr'.perm t (freeMats m') = wr.perm t (freeMats m)
  rnd : ∀ t, ∀ i ∈ lr.factors, ∀ n < rowsOf lr' sizes' i, ∀ l < L, wr'.rnd t i [n, l] = wr.rnd t i [σ i n, l]
  off : lr.auto_clean = false ∧ lr.auto_reset = false
  off' : lr'.auto_clean = false ∧ lr'.auto_reset = false

/-- corresponding results of inference: `r` and `r'` are the machines `m` and `m'` afterwards. Burn-in took equally long; row
`n` of a factor of the second machine has the samples and the final value of row `σ i n` of that factor of the first; all
samples of lambda and its final value are equal. -/
structure SameResults (m r r' : Mach Sampler LbdaUpdate) (lr lr' : LayerInfo) (sizes sizes' : List Nat) (S L : Nat)
    (σ : Nat → Nat → Nat) : Prop where
  iters : r'.burn_in_iters = r.burn_in_iters
  traces : ∀ i ∈ freeMats m, ∃ tr tr', r.trace i = some tr ∧ r'.trace i = some tr' ∧
    tr.shape = [S, rowsOf lr sizes i, L] ∧ tr'.shape = [S, rowsOf lr' sizes' i, L] ∧
    ∀ t < S, ∀ n < rowsOf lr' sizes' i, ∀ l < L, tr' [t, n, l] = tr [t, σ i n, l]
  vals : ∀ i ∈ lr.factors, (r'.world.mat i).val.shape = [rowsOf lr' sizes' i, L] ∧
    ∀ n < rowsOf lr' sizes' i, ∀ l < L, (r'.world.mat i).val [n, l] = (r.world.mat i).val [σ i n, l]
  lbda : r'.world.lbda 0 = r.world.lbda 0
  ltrace : m.lfixed 0 = false → ∃ tr tr', r.ltrace 0 = some tr ∧ r'.ltrace 0 = some tr' ∧ tr.len = S ∧ tr'.len = S ∧
    ∀ t < S, tr'.row t = tr.row t

/-- sampling keeps the length of burn-in -/
theorem samplingLoop_iters {F G : Type} {env : Env F G} {mats lbdas : List Nat} (hnd : mats.Nodup) (hndl : lbdas.Nodup)
    {ps : Nat} (n : Nat) : ∀ {m m' : Mach F G}, samplingLoop env mats lbdas ps n m = .ok m' →
    m'.burn_in_iters = m.burn_in_iters := by
  induction n with
  | zero => intro m m' h; simp only [samplingLoop, Except.ok.injEq] at h; rw [h]
  | succ n ih =>
    intro m m' h
    rw [samplingLoop, bind_ok] at h
    obtain ⟨m6, e1, e2⟩ := h
    obtain ⟨_, -, -, o, -⟩ := samplingStep_ok hnd hndl e1
    have := ih e2
    rw [o] at this
    exact this

theorem assign_clock {F G : Type} {env : Env F G} {ks : List Nat} {m m' : Mach F G}
    (h : ks.foldlM (assignFct env) m = .ok m') : m'.clock = m.clock := by
  refine foldlM_rel (R := fun a b : Mach F G => b.clock = a.clock) (fun _ => rfl) (fun _ _ _ h1 h2 => h2.trans h1) _ ks
    (fun a i _ b hb => ?_) m m' h
  rw [assignFct] at hb
  split at hb
  · cases hb; rfl
  · rw [bind_ok] at hb
    obtain ⟨⟨f, extra⟩, -, hb⟩ := hb
    rw [pure_ok] at hb
    subst hb
    cases extra <;> rfl

theorem lassign_clock {F G : Type} {env : Env F G} {ks : List Nat} {m m' : Mach F G}
    (h : ks.foldlM (assignLfct env) m = .ok m') : m'.clock = m.clock := by
  refine foldlM_rel (R := fun a b : Mach F G => b.clock = a.clock) (fun _ => rfl) (fun _ _ _ h1 h2 => h2.trans h1) _ ks
    (fun a i _ b hb => ?_) m m' h
  rw [assignLfct] at hb
  split at hb
  · cases hb; rfl
  · rw [bind_ok] at hb
    obtain ⟨g, -, hb⟩ := hb
    rw [pure_ok] at hb
    subst hb
    rfl

namespace SingleLayer

variable {wr : Wiring} {m : Mach Sampler LbdaUpdate} {lom : Lom8} {lr : LayerInfo} {x : Nat} {sizes : List Nat}

/-- what is known about a completed run -/
theorem run (H : SingleLayer wr m lom lr x sizes) (hfresh : ∀ i ∈ lr.factors, m.fct i = none) {S cw bmin : Nat} {eps : ℝ}
    {bmax : Int} {ps fx : Nat} {r : Mach Sampler LbdaUpdate} (h : infer (genericEnv wr) S cw eps bmin bmax ps fx m = .ok r) :
    ∃ (m2 m3 : Mach Sampler LbdaUpdate) (wm wl : Nat → World),
      m2.world = m.world ∧ m2.layers = m.layers ∧ m2.anneal = m.anneal ∧ m2.clock = m.clock ∧
      (∀ i ∈ freeMats m, ∃ s, m2.fct i = some s ∧
        AxisSampler lom lr.factors.length (lr.factors.idxOf i) (m.bernoulli_prior i) s) ∧
      (∀ k ∈ freeLbdas m, ∃ g, m2.lfct k = some g ∧ get_update_fct none lom.name lr.factors.length = .ok g) ∧
      burn_in (genericEnv wr) (freeMats m) (freeLbdas m) eps cw bmin bmax ps fx
        (resetIndices (freeMats m) (freeLbdas m) m2) = .ok m3 ∧
      r.burn_in_iters = m3.burn_in_iters ∧ wl 0 = m3.world ∧ r.world = wl S ∧
      Chain (genericEnv wr) m2.fct m2.lfct (freeMats m) (freeLbdas m) m3.clock S wm wl ∧
      (∀ i ∈ freeMats m, ∃ tr, r.trace i = some tr ∧ tr.shape = S :: ((wl 0).mat i).val.shape ∧
        ∀ t < S, ∀ idx, tr (t :: idx) = ((wm t).mat i).val idx) ∧
      ∀ k ∈ freeLbdas m, ∃ tr, r.ltrace k = some tr ∧ tr.len = S ∧
        ∀ t < S, ((wl (t + 1)).lbda k).kind = ((wl 0).lbda k).kind → tr.row t = some ((wl (t + 1)).lbda k) := by
  have hmem : ∀ i ∈ freeMats m, i ∈ lr.factors := fun i hi => H.mem_free hi
  have hnd : (freeMats m).Nodup := by rw [H.free_eq]; exact H.nodup.filter _
  have hpm : ∀ t, ∀ i ∈ (genericEnv wr).perm t (freeMats m), i ∈ freeMats m := fun t i hi => H.perm t _ i hi
  obtain ⟨wm, wl, clock, hC, hend, gm, gl, m1, m2, m3, h1, h2, h3, hwl, hcl⟩ :=
    C39_traces (genericEnv wr) S cw bmin eps bmax ps fx m r hnd hpm h
  obtain ⟨m1', m2', e1, e2, efct, elfct⟩ := infer_fcts hnd hpm h
  rw [h1] at e1; cases e1
  rw [h2] at e2; cases e2
  obtain ⟨m1', m2', m3', m4', e1, e2, e3, e4, e5⟩ := infer_phases h
  rw [h1] at e1; cases e1
  rw [h2] at e2; cases e2
  rw [h3] at e3; cases e3
  have hit : r.burn_in_iters = m3.burn_in_iters := by
    rw [samplingLoop_iters hnd (nodup_freeLbdas m) S e5]
    obtain ⟨o4, -⟩ := allocMats_ok _ e4
    show m4'.burn_in_iters = _
    rw [o4]
  have k1 := fold_keeps (fun a i b => assignFct_keeps) h1
  have k2 := fold_keeps (fun a i b => assignLfct_keeps) h2
  have k := k1.1.trans k2.1
  obtain ⟨m1', a1, a2, a3, a4, a5, a6'⟩ := H.assigns (freeMats m) m hmem rfl rfl (by
    intro i hi s hs
    exact H.cached _ i (H.position hi).1 s hs)
  rw [h1] at a1; cases a1
  obtain ⟨m2', b1, b2, b3⟩ := H.lassigns (m' := m1) a3 (by rw [a4]; exact H.lcached)
  rw [h2] at b1; cases b1
  have hax := H.assigns_axis (freeMats m) m m1 hmem rfl rfl rfl (fun i hi => .inl (hfresh i hi)) h1
  refine ⟨m2, m3, wm, wl, k2.2.trans k1.2, k.layers, k.anneal, (lassign_clock h2).trans (assign_clock h1), ?_, b3, h3, hit, hwl,
    hend, ?_, ?_, gl⟩
  · intro i hi
    rw [b2]
    exact hax i (hmem i hi) (.inl hi)
  · rw [efct, elfct, hcl] at hC
    exact hC
  · intro i hi
    obtain ⟨tr, t1, t2⟩ := gm i hi
    have hmod : ∀ j ∈ freeMats m, modelOf m j ≠ some "OR-AND-IBP" := by
      intro j hj
      have : modelOf m j = some lom.name := by
        rw [modelOf, H.layerOf j (hmem j hj), H.layers, ← H.model]; rfl
      rw [this]
      cases lom <;> decide
    rcases t2 with ⟨-, t3, t4⟩ | ⟨t3, -⟩ | ⟨-, ⟨j, hj, t3⟩, -⟩
    · exact ⟨tr, t1, t3, fun t ht => (t4 t ht).2⟩
    · exact absurd t3 (hmod i hi)
    · exact absurd t3 (hmod j hj)

end SingleLayer

/-- corresponding machines have corresponding results -/
theorem Corr.infer {wr wr' : Wiring} {m m' : Mach Sampler LbdaUpdate} {lom : Lom8} {lr lr' : LayerInfo} {x x' : Nat}
    {sizes sizes' : List Nat} {X X' : Arr Int} {L : Nat} {σ : Nat → Nat → Nat}
    (C : Corr lom lr lr' sizes sizes' X X' L σ) (H : SingleLayer wr m lom lr x sizes)
    (H' : SingleLayer wr' m' lom lr' x' sizes') (hX : X.shape = sizes) (hX' : X'.shape = sizes') (hd : DataArr X)
    (hd' : DataArr X') (hfit : ScoresFit sizes) (hfit' : ScoresFit sizes')
    (P : Paired wr wr' m m' lr lr' x x' sizes sizes' X X' L σ) (S cw bmin : Nat) (eps : ℝ) (bmax : Int) (ps fx : Nat)
    (ha : CanAnneal m fx) (hcw : 1 ≤ cw) (hps : 1 ≤ ps) :
    ∃ r r', LFM.infer (genericEnv wr) S cw eps bmin bmax ps fx m = .ok r ∧
      LFM.infer (genericEnv wr') S cw eps bmin bmax ps fx m' = .ok r' ∧
      SameResults m r r' lr lr' sizes sizes' S L σ := by
  have hw := P.world
  obtain ⟨y, hy, hy'⟩ := hw.lbda
  have l1 : LegalWorld lr x sizes X m.world := ⟨⟨L, hw.legal H.nodup⟩, hw.data, y, hy⟩
  have l2 : LegalWorld lr' x' sizes' X' m'.world := ⟨⟨L, hw.legal' H'.nodup C.mem⟩, hw.data', y, hy'⟩
  have ha' : CanAnneal m' fx := by
    rcases ha with ha | ⟨h1, z, h2, h3⟩
    · exact .inl (P.anneal.trans ha)
    · rw [hy] at h3
      cases h3
      exact .inr ⟨h1, y, h2, hy'⟩
  obtain ⟨r, hr, -⟩ := C47_infer_binary H hX l1 S cw bmin eps bmax ps fx ha hcw hps
  obtain ⟨r', hr', -⟩ := C47_infer_binary H' hX' l2 S cw bmin eps bmax ps fx ha' hcw hps
  obtain ⟨m2, m3, wm, wl, a1, a2, a3, a4, a5, a6, a7, a8, a9, a10, a11, a12, a13⟩ := H.run (fun i hi => (P.fresh i hi).1) hr
  obtain ⟨m2', m3', wm', wl', b1, b2, b3, b4, b5, b6, b7, b8, b9, b10, b11, b12, b13⟩ :=
    H'.run (fun i hi => (P.fresh i ((C.mem i).mp hi)).2) hr'
  have hL : freeLbdas m' = freeLbdas m := by
    rw [freeLbdas, freeLbdas, H.layers, H'.layers]
    show List.filter _ [0] = List.filter _ [0]
    simp [List.filter_cons, P.lfixed]
  have hfree : ∀ i, i ∈ freeMats m' ↔ i ∈ freeMats m := by
    intro i
    rw [H.free_eq, H'.free_eq, List.mem_filter, List.mem_filter, C.mem]
    constructor
    · rintro ⟨h1, h2⟩
      exact ⟨h1, by rw [← P.fixed i h1]; exact h2⟩
    · rintro ⟨h1, h2⟩
      exact ⟨h1, by rw [P.fixed i h1]; exact h2⟩
  rw [hL] at b6 b7 b11 b13
  have T : Sim (genericEnv wr) (genericEnv wr') (freeMats m) (freeMats m') (freeLbdas m) m2.fct m2'.fct m2.lfct m2'.lfct
      (WRel lr lr' x x' sizes sizes' X X' L σ) := by
    refine ⟨P.perm, fun t i hi => H.perm t _ i hi, P.junk, ?_, ?_, ?_, ?_⟩
    · intro i hi
      obtain ⟨s, s1, s2⟩ := a5 i hi
      obtain ⟨s', s1', s2'⟩ := b5 i ((hfree i).mpr hi)
      have hif := H.mem_free hi
      rw [P.prior i hif] at s2'
      exact ⟨s, s', s1, s1', fun t w w' hww => C.mat H H' hX hX' hd hd' hfit hfit' hif s2 s2' t (P.rnd t i hif) hww⟩
    · intro k hk
      obtain ⟨g, g1, g2⟩ := a6 k hk
      obtain ⟨g', g1', g2'⟩ := b6 k hk
      obtain rfl := H.free_lbda hk
      exact ⟨g, g', g1, g1', fun t w w' hww => C.lbda H H' hX hX' P.beta g2 g2' t hww⟩
    · intro k hk z w w' hww
      obtain rfl := H.free_lbda hk
      exact ⟨hww.facs, hww.fixed, hww.data, hww.data', z, by simp [upd], by simp [upd]⟩
    · intro w w' hww k hk
      obtain rfl := H.free_lbda hk
      obtain ⟨z, h1, h2⟩ := hww.lbda
      rw [h1, h2]
  have M : MRel (freeLbdas m) m2.fct m2'.fct m2.lfct m2'.lfct (WRel lr lr' x x' sizes sizes' X X' L σ)
      (resetIndices (freeMats m) (freeLbdas m) m2) (resetIndices (freeMats m') (freeLbdas m) m2') := by
    refine ⟨rfl, rfl, rfl, rfl, ?_, ?_, ?_, ?_, ?_⟩
    · show m2'.anneal = m2.anneal
      rw [a3, b3, P.anneal]
    · show m2'.clock = m2.clock
      rw [a4, b4, P.clock]
    · show ∀ lr ∈ m2.layers, _
      rw [a2, H.layers]
      simpa using P.off
    · show ∀ lr ∈ m2'.layers, _
      rw [b2, H'.layers]
      simpa using P.off'
    · show WRel lr lr' x x' sizes sizes' X X' L σ m2.world m2'.world
      rw [a1, b1]
      exact hw
  obtain ⟨m3'', c1, ⟨c2, -⟩, c3⟩ := T.burn_in M m3 a7
  rw [b7] at c1
  cases c1
  rw [c2.clock] at b11
  have hch := T.chain a11 b11 (by rw [a9, b9]; exact c2.world)
  refine ⟨r, r', hr, hr', ?_, ?_, ?_, ?_, ?_⟩
  · rw [a8, b8, c3]
  · intro i hi
    obtain ⟨tr, t1, t2, t3⟩ := a12 i hi
    obtain ⟨tr', t1', t2', t3'⟩ := b12 i ((hfree i).mpr hi)
    have hif := H.mem_free hi
    obtain ⟨f1, f2, -⟩ := (hch 0 (Nat.zero_le _)).1.facs i hif
    refine ⟨tr, tr', t1, t1', by rw [t2, f1.1], by rw [t2', f2.1], fun t ht n hn l hl => ?_⟩
    rw [t3 t ht, t3' t ht]
    exact (((hch t ht.le).2 ht).facs i hif).2.2 n hn l hl
  · intro i hi
    obtain ⟨-, f2, f3⟩ := (hch S le_rfl).1.facs i hi
    rw [a10, b10]
    exact ⟨f2.1, f3⟩
  · obtain ⟨z, z1, z2⟩ := (hch S le_rfl).1.lbda
    rw [a10, b10, z1, z2]
  · intro hf
    have h0 : 0 ∈ freeLbdas m := by simp [freeLbdas, H.layers, hf]
    obtain ⟨tr, t1, t2, t3⟩ := a13 0 h0
    obtain ⟨tr', t1', t2', t3'⟩ := b13 0 h0
    obtain ⟨z0, z1, z2⟩ := (hch 0 (Nat.zero_le _)).1.lbda
    refine ⟨tr, tr', t1, t1', t2, t2', fun t ht => ?_⟩
    obtain ⟨z, z3, z4⟩ := (hch (t + 1) ht).1.lbda
    rw [t3 t ht (by rw [z1, z3]; rfl), t3' t ht (by rw [z2, z4]; rfl), z3, z4]

/-- **C94**: slices of the data without observations do not matter. Consider two machines with a single layer of any of
the eight generic models with two or three factors: the second has only the rows `keep[j]` of axis `j` of the data of the first,
and only these rows of its factors, and every cell that is left out is missing. If corresponding entries have equal initial
values and equal draws, burn-in takes equally long, the samples of all rows that both have are equal, and so
are all samples of lambda. -/
theorem C94_missing_slices {wr wr' : Wiring} {m m' : Mach Sampler LbdaUpdate} {lom : Lom8} {lr lr' : LayerInfo} {x x' : Nat}
    {X : Arr Int} {keep : List (List Nat)} (hk : Selects keep X) (hlr : lr'.factors = lr.factors)
    (H : SingleLayer wr m lom lr x X.shape) (H' : SingleLayer wr' m' lom lr' x' (ix keep X).shape) (hd : DataArr X)
    (hfit : ScoresFit X.shape) {L : Nat}
    (P : Paired wr wr' m m' lr lr' x x' X.shape (ix keep X).shape X (ix keep X) L (kept keep lr)) (S cw bmin : Nat) (eps : ℝ)
    (bmax : Int) (ps fx : Nat) (ha : CanAnneal m fx) (hcw : 1 ≤ cw) (hps : 1 ≤ ps) :
    ∃ r r', infer (genericEnv wr) S cw eps bmin bmax ps fx m = .ok r ∧
      infer (genericEnv wr') S cw eps bmin bmax ps fx m' = .ok r' ∧
      SameResults m r r' lr lr' X.shape (ix keep X).shape S L (kept keep lr) :=
  (hk.corr lom hlr H.nodup H.arity rfl H.sizes L).infer H H' rfl rfl hd (hk.data hd) hfit (hk.fit hfit) P S cw bmin eps bmax ps
    fx ha hcw hps

/-- **C95**: the order of the rows does not matter: if the data of the second machine are those of the first with the rows of
every axis in another order, and initial values and draws are in this order, too, then so are the samples; burn-in takes equally
long, and the samples of lambda are equal. -/
theorem C95_row_order {wr wr' : Wiring} {m m' : Mach Sampler LbdaUpdate} {lom : Lom8} {lr lr' : LayerInfo} {x x' : Nat}
    {X : Arr Int} {keep : List (List Nat)} (hk : Reorders keep X) (hlr : lr'.factors = lr.factors)
    (H : SingleLayer wr m lom lr x X.shape) (H' : SingleLayer wr' m' lom lr' x' X.shape) (hd : DataArr X)
    (hfit : ScoresFit X.shape) {L : Nat}
    (P : Paired wr wr' m m' lr lr' x x' X.shape X.shape X (ix keep X) L (kept keep lr)) (S cw bmin : Nat) (eps : ℝ)
    (bmax : Int) (ps fx : Nat) (ha : CanAnneal m fx) (hcw : 1 ≤ cw) (hps : 1 ≤ ps) :
    ∃ r r', infer (genericEnv wr) S cw eps bmin bmax ps fx m = .ok r ∧
      infer (genericEnv wr') S cw eps bmin bmax ps fx m' = .ok r' ∧
      SameResults m r r' lr lr' X.shape X.shape S L (kept keep lr) := by
  have C := hk.selects.corr lom hlr H.nodup H.arity rfl H.sizes L
  rw [hk.sizes] at C
  exact C.infer H H' rfl hk.sizes hd (hk.selects.data hd) hfit hfit P S cw bmin eps bmax ps fx ha hcw hps

/-- **C96**: the order of the axes does not matter: if the data of the second machine are those of the first with their axes
in another order (for matrices: the transpose), and its factors are given in that order, with equal initial values and draws,
then all samples are equal, and so is the length of burn-in. -/
theorem C96_axes_order {wr wr' : Wiring} {m m' : Mach Sampler LbdaUpdate} {lom : Lom8} {lr lr' : LayerInfo} {x x' : Nat}
    {X : Arr Int} {axes : List Nat} (hp : axes.Perm (List.range X.shape.length))
    (hlr : lr'.factors = axes.map fun a => lr.factors.getD a 0)
    (H : SingleLayer wr m lom lr x X.shape) (H' : SingleLayer wr' m' lom lr' x' (transposed axes X).shape) (hd : DataArr X)
    (hfit : ScoresFit X.shape) {L : Nat}
    (P : Paired wr wr' m m' lr lr' x x' X.shape (transposed axes X).shape X (transposed axes X) L fun _ n => n)
    (S cw bmin : Nat) (eps : ℝ) (bmax : Int) (ps fx : Nat) (ha : CanAnneal m fx) (hcw : 1 ≤ cw) (hps : 1 ≤ ps) :
    ∃ r r', infer (genericEnv wr) S cw eps bmin bmax ps fx m = .ok r ∧
      infer (genericEnv wr') S cw eps bmin bmax ps fx m' = .ok r' ∧
      SameResults m r r' lr lr' X.shape (transposed axes X).shape S L fun _ n => n :=
  (transposed_corr lom hp hlr H.nodup H.arity rfl H.sizes L).infer H H' rfl rfl hd (transposed_data hp hd) hfit
    (transposed_fit hp hfit) P S cw bmin eps bmax ps fx ha hcw hps

/-! ## The hypotheses are met -/

/-- attributes of a machine whose two factors are 0 and 1 in this order -/
noncomputable def wiringR (factors : List Nat) (rnd : Nat → Nat → Rnd) (perm : Nat → List Nat → List Nat) : Wiring where
  layers := [⟨factors, "OR-XOR", none, false, false⟩]
  layerOf i := if i < 2 then some 0 else none
  childAxis i := factors.idxOf i
  parents i := if i = 2 then [0] else []
  child _ := 2
  beta_prior _ := (1, 1)
  rnd := rnd
  perm := perm
  junk _ _ _ _ := .nan
  junkSampling _ _ _ := .nan
  junkMat _ _ := 0
  special _ _ _ w := .ok w

/-- this machine with annealing, with these initial values and data, before inference -/
noncomputable def machR (factors : List Nat) (Z U X : Arr Int) : Mach Sampler LbdaUpdate where
  layers := [⟨factors, "OR-XOR", none, false, false⟩]
  matrices := [2]
  anneal := true
  world := {
    mat := fun i => if i = 0 then ⟨Z, Arr.full Z.shape 0⟩ else if i = 1 then ⟨U, Arr.full U.shape 0⟩ else ⟨X, Arr.full X.shape 0⟩
    lbda := fun _ => .scalar (.fin (1 / 2)) }
  fixed i := i = 2
  layerOf i := if i < 2 then some 0 else none
  bernoulli_prior _ := 1 / 3
  fct _ := none
  trace _ := none
  trace_index _ := 0
  lfixed _ := false
  lfct _ := none
  ltrace _ := none
  ltrace_index _ := 0
  burn_in_iters := none
  clock := 0

theorem machR_single {factors : List Nat} (hf : factors = [0, 1] ∨ factors = [1, 0]) (rnd : Nat → Nat → Rnd)
    {perm : Nat → List Nat → List Nat} (hp : ∀ t l, ∀ i ∈ perm t l, i ∈ l) (Z U X : Arr Int) {sizes : List Nat}
    (hs : sizes.length = 2) :
    SingleLayer (wiringR factors rnd perm) (machR factors Z U X) .OR_XOR ⟨factors, "OR-XOR", none, false, false⟩ 2 sizes := by
  have hnd : factors.Nodup := by rcases hf with rfl | rfl <;> decide
  have hm : ∀ i ∈ factors, i = 0 ∨ i = 1 := by
    intro i hi
    rcases hf with rfl | rfl <;> simp at hi <;> omega
  refine ⟨rfl, rfl, rfl, rfl, hnd, ?_, ?_, ?_, ?_, rfl, ?_, ?_, ?_, hp, ?_, ?_, ?_⟩
  · rcases hf with rfl | rfl <;> exact .inl rfl
  · intro j i h
    obtain ⟨hj, rfl⟩ := List.getElem?_eq_some_iff.mp h
    exact hnd.idxOf_getElem j hj
  · intro i hi
    rcases hm i hi with rfl | rfl <;> rfl
  · intro i hi
    rcases hm i hi with rfl | rfl <;> rfl
  · intro h
    rcases hm 2 h with h | h <;> omega
  · intro i hi
    simp only [machR, List.mem_singleton] at hi
    simp [machR, hi]
  · simp [wiringR]
  · rw [hs]
    rcases hf with rfl | rfl <;> rfl
  · intro j i _ s hs; cases hs
  · intro g hg; cases hg

/-- data whose second row is missing -/
def dataR : Arr Int := ⟨[3, 2], fun idx => if idx = [0, 0] then 1 else if idx = [0, 1] then -1 else if idx = [2, 0] then -1 else
  if idx = [2, 1] then 1 else 0⟩

/-- initial values of the first factor -/
def factorR : Arr Int := ⟨[3, 1], fun idx => if idx = [0, 0] then 1 else -1⟩

theorem dataR_data : DataArr dataR := by
  intro idx _
  simp only [dataR]
  unfold IsData
  split_ifs <;> simp

theorem pm_factorR : PMArr factorR := by
  intro idx _
  simp only [factorR]
  split_ifs
  · exact .inl rfl
  · exact .inr rfl

/-- the hypotheses of `C94_missing_slices` hold if the second machine has only the third and the first row, in this order, and
the draws of the second are those for these rows -/
theorem C94_hypotheses_met (rnd : Nat → Nat → Rnd) :
    (∃ r r', infer (genericEnv (wiringR [0, 1] rnd fun _ l => l)) 50 15 0.005 30 2000 10 0
        (machR [0, 1] factorR (Arr.full [2, 1] 1) dataR) = .ok r ∧
      infer (genericEnv (wiringR [0, 1] (fun t i idx => rnd t i [if i = 0 then 2 - 2 * idx.getD 0 0 else idx.getD 0 0, idx.getD 1 0])
        fun _ l => l)) 50 15 0.005 30 2000 10 0
        (machR [0, 1] (ix [[2, 0], [0]] factorR) (Arr.full [2, 1] 1) (ix [[2, 0], [0, 1]] dataR)) = .ok r' ∧
      SameResults (machR [0, 1] factorR (Arr.full [2, 1] 1) dataR) r r' ⟨[0, 1], "OR-XOR", none, false, false⟩
        ⟨[0, 1], "OR-XOR", none, false, false⟩ [3, 2] [2, 2] 50 1 (kept [[2, 0], [0, 1]] ⟨[0, 1], "OR-XOR", none, false, false⟩)) ∧
      (ix [[2, 0], [0, 1]] dataR) [0, 1] = 1 := by
  have hsel : Selects [[2, 0], [0, 1]] dataR := by
    refine ⟨rfl, ?_, ?_⟩
    · intro j k hk
      match j with
      | 0 => cases hk; exact ⟨by decide, by decide⟩
      | 1 => cases hk; exact ⟨by decide, by decide⟩
      | j + 2 => simp at hk
    · intro idx hidx h j k hk
      match idx, hidx with
      | [n, d], ⟨hn, hd, _⟩ =>
        match j with
        | 0 =>
          cases hk
          simp only [dataR, List.cons.injEq, and_true] at h hn
          have : n = 0 ∨ n = 1 ∨ n = 2 := by omega
          rcases this with rfl | rfl | rfl <;> simp at h ⊢
        | 1 =>
          cases hk
          have hd : d < 2 := hd
          have : d = 0 ∨ d = 1 := by omega
          rcases this with rfl | rfl <;> simp
        | j + 2 => simp at hk
  refine ⟨C94_missing_slices (lom := .OR_XOR) (x := 2) (x' := 2) (L := 1)
    (lr := ⟨[0, 1], "OR-XOR", none, false, false⟩) (lr' := ⟨[0, 1], "OR-XOR", none, false, false⟩)
    (wr := wiringR [0, 1] rnd fun _ l => l)
    (wr' := wiringR [0, 1] (fun t i idx => rnd t i [if i = 0 then 2 - 2 * idx.getD 0 0 else idx.getD 0 0, idx.getD 1 0]) fun _ l => l)
    (m := machR [0, 1] factorR (Arr.full [2, 1] 1) dataR)
    (m' := machR [0, 1] (ix [[2, 0], [0]] factorR) (Arr.full [2, 1] 1) (ix [[2, 0], [0, 1]] dataR)) hsel rfl
    (machR_single (.inl rfl) _ (fun _ _ _ h => h) _ _ _ rfl) (machR_single (.inl rfl) _ (fun _ _ _ h => h) _ _ _ rfl) dataR_data
    (show 3 ≤ 32767 ∧ 2 ≤ 32767 by decide) ?_ 50 15 30 0.005 2000 10 0 (.inr ⟨rfl, 1 / 2, by norm_num, rfl⟩) (by norm_num) (by norm_num), by decide⟩
  · refine ⟨⟨?_, ?_, rfl, rfl, 1 / 2, rfl, rfl⟩, fun _ _ => ⟨rfl, rfl⟩, fun _ _ => rfl, fun _ _ => rfl, rfl, rfl, rfl, rfl, rfl,
      fun _ => rfl, ?_, ⟨rfl, rfl⟩, ⟨rfl, rfl⟩⟩
    · intro i hi
      simp only [List.mem_cons, List.not_mem_nil, or_false] at hi
      rcases hi with rfl | rfl
      · refine ⟨⟨rfl, pm_factorR⟩, ⟨rfl, ?_⟩, ?_⟩
        · intro idx hidx
          simp only [machR, ix, factorR, if_true]
          split_ifs
          · exact .inl rfl
          · exact .inr rfl
        · intro n hn l hl
          obtain rfl : l = 0 := by omega
          simp [rowsOf, ix] at hn
          have : n = 0 ∨ n = 1 := by omega
          rcases this with rfl | rfl <;> rfl
      · refine ⟨⟨rfl, fun _ _ => .inl rfl⟩, ⟨rfl, fun _ _ => .inl rfl⟩, fun n hn l hl => rfl⟩
    · intro i hi n _ l _
      simp only [List.mem_cons, List.not_mem_nil, or_false] at hi
      rcases hi with rfl | rfl <;> simp [machR, Arr.full]
    · intro t i hi n hn l hl
      obtain rfl : l = 0 := by omega
      simp only [List.mem_cons, List.not_mem_nil, or_false] at hi
      rcases hi with rfl | rfl
      · simp [rowsOf, ix] at hn
        have : n = 0 ∨ n = 1 := by omega
        rcases this with rfl | rfl <;> rfl
      · simp [rowsOf, ix] at hn
        have : n = 0 ∨ n = 1 := by omega
        rcases this with rfl | rfl <;> rfl

/-- the hypotheses of `C95_row_order` hold if the rows are reversed -/
theorem C95_hypotheses_met (rnd : Nat → Nat → Rnd) :
    ∃ r r', infer (genericEnv (wiringR [0, 1] rnd fun _ l => l)) 50 15 0.005 30 2000 10 0
        (machR [0, 1] factorR (Arr.full [2, 1] 1) dataR) = .ok r ∧
      infer (genericEnv (wiringR [0, 1] (fun t i idx => rnd t i [if i = 0 then 2 - idx.getD 0 0 else idx.getD 0 0, idx.getD 1 0])
        fun _ l => l)) 50 15 0.005 30 2000 10 0
        (machR [0, 1] (ix [[2, 1, 0], [0]] factorR) (Arr.full [2, 1] 1) (ix [[2, 1, 0], [0, 1]] dataR)) = .ok r' ∧
      SameResults (machR [0, 1] factorR (Arr.full [2, 1] 1) dataR) r r' ⟨[0, 1], "OR-XOR", none, false, false⟩
        ⟨[0, 1], "OR-XOR", none, false, false⟩ [3, 2] [3, 2] 50 1
        (kept [[2, 1, 0], [0, 1]] ⟨[0, 1], "OR-XOR", none, false, false⟩) := by
  have hre : Reorders [[2, 1, 0], [0, 1]] dataR := by
    refine ⟨rfl, ?_⟩
    intro j k hk
    match j with
    | 0 => cases hk; decide
    | 1 => cases hk; decide
    | j + 2 => simp at hk
  refine C95_row_order (lom := .OR_XOR) (x := 2) (x' := 2) (L := 1)
    (lr := ⟨[0, 1], "OR-XOR", none, false, false⟩) (lr' := ⟨[0, 1], "OR-XOR", none, false, false⟩) hre rfl
    (machR_single (.inl rfl) _ (fun _ _ _ h => h) _ _ _ rfl) (machR_single (.inl rfl) _ (fun _ _ _ h => h) _ _ _ rfl) dataR_data
    (show 3 ≤ 32767 ∧ 2 ≤ 32767 by decide) ?_ 50 15 30 0.005 2000 10 0 (.inr ⟨rfl, 1 / 2, by norm_num, rfl⟩) (by norm_num) (by norm_num)
  refine ⟨⟨?_, ?_, rfl, rfl, 1 / 2, rfl, rfl⟩, fun _ _ => ⟨rfl, rfl⟩, fun _ _ => rfl, fun _ _ => rfl, rfl, rfl, rfl, rfl, rfl,
    fun _ => rfl, ?_, ⟨rfl, rfl⟩, ⟨rfl, rfl⟩⟩
  · intro i hi
    simp only [List.mem_cons, List.not_mem_nil, or_false] at hi
    rcases hi with rfl | rfl
    · refine ⟨⟨rfl, pm_factorR⟩, ⟨rfl, ?_⟩, ?_⟩
      · intro idx hidx
        simp only [machR, ix, factorR, if_true]
        split_ifs
        · exact .inl rfl
        · exact .inr rfl
      · intro n hn l hl
        obtain rfl : l = 0 := by omega
        simp [rowsOf, dataR] at hn
        have : n = 0 ∨ n = 1 ∨ n = 2 := by omega
        rcases this with rfl | rfl | rfl <;> rfl
    · refine ⟨⟨rfl, fun _ _ => .inl rfl⟩, ⟨rfl, fun _ _ => .inl rfl⟩, fun n hn l hl => rfl⟩
  · intro i hi n _ l _
    simp only [List.mem_cons, List.not_mem_nil, or_false] at hi
    rcases hi with rfl | rfl <;> simp [machR, Arr.full]
  · intro t i hi n hn l hl
    obtain rfl : l = 0 := by omega
    simp only [List.mem_cons, List.not_mem_nil, or_false] at hi
    rcases hi with rfl | rfl
    · simp [rowsOf, dataR] at hn
      have : n = 0 ∨ n = 1 ∨ n = 2 := by omega
      rcases this with rfl | rfl | rfl <;> rfl
    · simp [rowsOf, dataR] at hn
      have : n = 0 ∨ n = 1 := by omega
      rcases this with rfl | rfl <;> rfl

/-- the hypotheses of `C96_axes_order` hold for the transpose, whose layer lists the factors in the other order, if the same
factor is sampled first -/
theorem C96_hypotheses_met (rnd : Nat → Nat → Rnd) :
    (∃ r r', infer (genericEnv (wiringR [0, 1] rnd fun _ l => l)) 50 15 0.005 30 2000 10 0
        (machR [0, 1] factorR (Arr.full [2, 1] 1) dataR) = .ok r ∧
      infer (genericEnv (wiringR [1, 0] rnd fun _ l => l.reverse)) 50 15 0.005 30 2000 10 0
        (machR [1, 0] factorR (Arr.full [2, 1] 1) (transposed [1, 0] dataR)) = .ok r' ∧
      SameResults (machR [0, 1] factorR (Arr.full [2, 1] 1) dataR) r r' ⟨[0, 1], "OR-XOR", none, false, false⟩
        ⟨[1, 0], "OR-XOR", none, false, false⟩ [3, 2] [2, 3] 50 1 (fun _ n => n)) ∧
      (transposed [1, 0] dataR) [1, 2] = dataR [2, 1] := by
  refine ⟨C96_axes_order (lom := .OR_XOR) (x := 2) (x' := 2) (L := 1) (X := dataR) (axes := [1, 0])
    (lr := ⟨[0, 1], "OR-XOR", none, false, false⟩) (lr' := ⟨[1, 0], "OR-XOR", none, false, false⟩)
    (wr := wiringR [0, 1] rnd fun _ l => l) (wr' := wiringR [1, 0] rnd fun _ l => l.reverse)
    (m := machR [0, 1] factorR (Arr.full [2, 1] 1) dataR)
    (m' := machR [1, 0] factorR (Arr.full [2, 1] 1) (transposed [1, 0] dataR)) (by decide) rfl
    (machR_single (.inl rfl) _ (fun _ _ _ h => h) _ _ _ rfl)
    (machR_single (.inr rfl) _ (fun _ _ _ h => List.mem_reverse.mp h) _ _ _ rfl) dataR_data
    (show 3 ≤ 32767 ∧ 2 ≤ 32767 by decide) ?_ 50 15 30 0.005 2000 10 0 (.inr ⟨rfl, 1 / 2, by norm_num, rfl⟩) (by norm_num) (by norm_num), by decide⟩
  · refine ⟨⟨?_, ?_, rfl, rfl, 1 / 2, rfl, rfl⟩, fun _ _ => ⟨rfl, rfl⟩, fun _ _ => rfl, fun _ _ => rfl, rfl, rfl, rfl, rfl, rfl,
      fun _ => rfl, ?_, ⟨rfl, rfl⟩, ⟨rfl, rfl⟩⟩
    · intro i hi
      simp only [List.mem_cons, List.not_mem_nil, or_false] at hi
      rcases hi with rfl | rfl
      · exact ⟨⟨rfl, pm_factorR⟩, ⟨rfl, pm_factorR⟩, fun n hn l hl => rfl⟩
      · exact ⟨⟨rfl, fun _ _ => .inl rfl⟩, ⟨rfl, fun _ _ => .inl rfl⟩, fun n hn l hl => rfl⟩
    · intro i hi n _ l _
      simp only [List.mem_cons, List.not_mem_nil, or_false] at hi
      rcases hi with rfl | rfl <;> rfl
    · intro t i hi n hn l hl
      rfl

end LFM
