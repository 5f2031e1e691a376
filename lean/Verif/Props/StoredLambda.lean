import Verif.Props.SingleLayer

/-!
# C91: the stored lambdas belong to the stored factors
-/

namespace LFM

open Spec

namespace Spec

/-- number of cells of the data `X` whose value equals the prediction of the model for these two or three factors -/
noncomputable def correctCells (lom : Lom8) (fs : List (Arr Int)) (X : Arr Int) : Nat :=
  match fs with
  | [Z, U] => correct2 lom (X.dim 0) (X.dim 1) (Z.dim 1) (fun n d => X [n, d]) (fun n l => Z [n, l]) (fun d l => U [d, l])
  | [Z, U, V] => correct3 lom (X.dim 0) (X.dim 1) (X.dim 2) (Z.dim 1) (fun n d k => X [n, d, k]) (fun n l => Z [n, l])
      (fun d l => U [d, l]) (fun k l => V [k, l])
  | _ => 0

/-- number of non-missing cells of an array with two or three axes -/
def observedCells (X : Arr Int) : Nat :=
  match X.shape with
  | [N, D] => observed2 N D fun n d => X [n, d]
  | [N, D, M] => observed3 N D M fun n d k => X [n, d, k]
  | _ => 0

/-- the dispersion that belongs to factors: its sigmoid is the fraction of correct predictions among the observed cells,
smoothed by the `a` and `b` of the Beta prior, but at least `1/2` -/
def BelongsTo (lom : Lom8) (fs : List (Arr Int)) (X : Arr Int) (a b y : ℝ) : Prop :=
  0 ≤ y ∧ sigmoid y = max (1 / 2) ((correctCells lom fs X + a) / (observedCells X + a + b))

end Spec

/-- `F` is sample `t` of matrix `i` after `infer` turned `m` into `m'`: row `t` of the trace, or the matrix itself if it
is not sampled -/
def IsFactorSample (m m' : Mach Sampler LbdaUpdate) (S t i : Nat) (F : Arr Int) : Prop :=
  (i ∈ freeMats m → ∃ tr, m'.trace i = some tr ∧ tr.shape = S :: F.shape ∧ ∀ idx, tr (t :: idx) = F idx) ∧
  (i ∉ freeMats m → F = (m'.world.mat i).val)

/-- the functions assigned before inference are those used throughout -/
theorem infer_fcts {F G : Type} {env : Env F G} {S cw bmin : Nat} {eps : ℝ} {bmax : Int} {ps fx : Nat} {m m' : Mach F G}
    (hnd : (freeMats m).Nodup) (hp : ∀ t, ∀ i ∈ env.perm t (freeMats m), i ∈ freeMats m)
    (h : infer env S cw eps bmin bmax ps fx m = .ok m') :
    ∃ m1 m2, (freeMats m).foldlM (assignFct env) m = .ok m1 ∧ (freeLbdas m).foldlM (assignLfct env) m1 = .ok m2 ∧
      m'.fct = m2.fct ∧ m'.lfct = m2.lfct := by
  obtain ⟨m1, m2, m3, m4, h1, h2, h3, h4, h5⟩ := infer_phases h
  have kb := burn_in_keeps hp h3
  obtain ⟨o4, -⟩ := allocMats_ok _ h4
  have hfct := samplingLoop_fct hnd (nodup_freeLbdas m) S h5
  refine ⟨m1, m2, h1, h2, ?_, ?_⟩
  · rw [hfct.1]; show m4.fct = _; rw [o4]; show m3.fct = _; rw [kb]; rfl
  · rw [hfct.2]; show m4.lfct = _; rw [o4]; show m3.lfct = _; rw [kb]; rfl

namespace SingleLayer

variable {wr : Wiring} {m : Mach Sampler LbdaUpdate} {lom : Lom8} {lr : LayerInfo} {x : Nat} {sizes : List Nat}

/-- the update of lambda assigns the dispersion that belongs to the present factors -/
theorem runs_lbda_value (H : SingleLayer wr m lom lr x sizes) {g : LbdaUpdate}
    (hg : get_update_fct none lom.name lr.factors.length = .ok g) (t : Nat) {w : World} {X : Arr Int}
    (hw : LegalWorld lr x sizes X w) (hX : X.shape = sizes) :
    ∃ y, BelongsTo lom (lr.factors.map fun i => (w.mat i).val) X (wr.beta_prior 0).1 (wr.beta_prior 0).2 y ∧
      runUpdate wr g 0 t w = .ok { w with lbda := upd w.lbda 0 (.scalar (.fin y)) } := by
  obtain ⟨L, hL⟩ := hw.facs
  have hl : wr.layers[0]? = some lr := by rw [H.wrLayers, H.layers]; rfl
  suffices hrun : ∀ q, ∃ y, BelongsTo lom (lr.factors.map fun i => (w.mat i).val) X (wr.beta_prior 0).1
      (wr.beta_prior 0).2 y ∧ g.run (lr.factors.map fun i => (w.mat i).val) X q (wr.beta_prior 0) = .ok (.fin y) by
    cases hq : lr.q with
    | none =>
      obtain ⟨y, hy, hr⟩ := hrun (Arr.full [] 0)
      refine ⟨y, hy, ?_⟩
      rw [runUpdate, hl]
      simp only [hq]
      rw [H.child, hw.data, hr]
      rfl
    | some q =>
      obtain ⟨y, hy, hr⟩ := hrun (w.mat q).val
      refine ⟨y, hy, ?_⟩
      rw [runUpdate, hl]
      simp only [hq]
      rw [H.child, hw.data, hr]
      rfl
  intro q
  rcases H.arity with hK | hK
  · obtain ⟨a, b, hab⟩ := List.length_eq_two.mp hK
    obtain ⟨f, hf, hspec⟩ := C27_lambda_smoothed_accuracy_2d lom
    rw [hK, hf] at hg
    simp only [Except.ok.injEq] at hg
    subst hg
    obtain ⟨N, D, hND⟩ := List.length_eq_two.mp (H.sizes.trans hK)
    rw [hab] at hL ⊢
    rw [hND] at hL hX
    obtain ⟨a1, a2⟩ := hL 0 (w.mat a) rfl
    obtain ⟨b1, b2⟩ := hL 1 (w.mat b) rfl
    obtain ⟨-, y, h1, h2, h3⟩ := hspec N D L (w.mat a).val (w.mat b).val X q (wr.beta_prior 0).1 (wr.beta_prior 0).2 a1 b1
      hX a2 b2 H.beta.1 H.beta.2
    refine ⟨y, ⟨h2, ?_⟩, h1⟩
    rw [h3]
    simp only [List.getD_eq_getElem?_getD, List.getElem?_cons_zero, List.getElem?_cons_succ, Option.getD_some] at a1
    simp only [correctCells, observedCells, hX, List.map_cons, List.map_nil, Arr.dim, a1, List.getD_eq_getElem?_getD,
      List.getElem?_cons_zero, List.getElem?_cons_succ, Option.getD_some]
  · obtain ⟨a, b, c, hab⟩ := List.length_eq_three.mp hK
    obtain ⟨f, hf, hspec⟩ := C27_lambda_smoothed_accuracy_3d lom
    rw [hK, hf] at hg
    simp only [Except.ok.injEq] at hg
    subst hg
    obtain ⟨N, D, M, hND⟩ := List.length_eq_three.mp (H.sizes.trans hK)
    rw [hab] at hL ⊢
    rw [hND] at hL hX
    obtain ⟨a1, a2⟩ := hL 0 (w.mat a) rfl
    obtain ⟨b1, b2⟩ := hL 1 (w.mat b) rfl
    obtain ⟨c1, c2⟩ := hL 2 (w.mat c) rfl
    obtain ⟨-, y, h1, h2, h3⟩ := hspec N D M L (w.mat a).val (w.mat b).val (w.mat c).val X q (wr.beta_prior 0).1
      (wr.beta_prior 0).2 a1 b1 c1 hX a2 b2 c2 H.beta.1 H.beta.2
    refine ⟨y, ⟨h2, ?_⟩, h1⟩
    rw [h3]
    simp only [List.getD_eq_getElem?_getD, List.getElem?_cons_zero, List.getElem?_cons_succ, Option.getD_some] at a1
    simp only [correctCells, observedCells, hX, List.map_cons, List.map_nil, Arr.dim, a1, List.getD_eq_getElem?_getD,
      List.getElem?_cons_zero, List.getElem?_cons_succ, Option.getD_some]

/-- during sampling nothing but the sampled factors and lambda changes -/
theorem steady (H : SingleLayer wr m lom lr x sizes) {X : Arr Int} (hX : X.shape = sizes) {fct : Nat → Option Sampler}
    {lfct : Nat → Option LbdaUpdate}
    (hf : ∀ i ∈ freeMats m, ∃ s, fct i = some s ∧ GenericSampler lom lr.factors.length (lr.factors.idxOf i) s)
    (hlf : ∀ k ∈ freeLbdas m, ∃ g, lfct k = some g ∧ get_update_fct none lom.name lr.factors.length = .ok g) (w0 : World) :
    Healthy (genericEnv wr) (freeMats m) (freeLbdas m) [] fct lfct
      fun w => (LegalWorld lr x sizes X w ∧ Kept m lr w) ∧ (∀ j, (w.mat j).val.shape = (w0.mat j).val.shape) ∧
        ∀ j ∉ freeMats m, w.mat j = w0.mat j := by
  have H' := H.healthy hX hf hlf
  refine ⟨H'.perm, ?_, ?_, fun lr hlr => by simp at hlr⟩
  · intro i hi
    obtain ⟨s, h1, h2⟩ := hf i hi
    refine ⟨s, h1, fun t w hw => ?_⟩
    obtain ⟨w', e1, e2, e3, e4⟩ := H.keeps_mat hi h2 t hw.1
    refine ⟨w', e1, ⟨e2, fun j => (e4 j).trans (hw.2.1 j), fun j hj => ?_⟩, fun k => by rw [e3]⟩
    obtain ⟨R, g1, -⟩ := H.runs_mat (H.mem_free hi) h2 t hw.1.1.lbda
    rw [e1] at g1
    cases g1
    have : j ≠ i := fun h => hj (h ▸ hi)
    simp only [World.setVal, upd, this, if_false]
    exact hw.2.2 j hj
  · intro k hk
    obtain ⟨g, h1, h2⟩ := hlf k hk
    refine ⟨g, h1, fun t w hw => ?_⟩
    obtain ⟨w', e1, e2, e3, e4⟩ := H.keeps_lbda hX hk h2 t hw.1
    exact ⟨w', e1, ⟨e2, by rw [e4]; exact hw.2.1, by rw [e4]; exact hw.2.2⟩, e3⟩

end SingleLayer

/-- **C91**: after inference in a machine with a single layer of any of the eight generic models with two or three
factors whose lambda is not fixed, row `t` of the trace of lambda is the dispersion that belongs to row `t` of the traces of
the factors (and those factors that are not sampled): whatever is drawn, with or without annealing and clean-ups. -/
theorem C91_lambda_of_sample {wr : Wiring} {m : Mach Sampler LbdaUpdate} {lom : Lom8} {lr : LayerInfo} {x : Nat}
    {sizes : List Nat} (H : SingleLayer wr m lom lr x sizes) {X : Arr Int} (hX : X.shape = sizes)
    (hw : LegalWorld lr x sizes X m.world) (S cw bmin : Nat) (eps : ℝ) (bmax : Int) (ps fx : Nat) (ha : CanAnneal m fx)
    (hcw : 1 ≤ cw) (hps : 1 ≤ ps) (hl : m.lfixed 0 = false) :
    ∃ m', infer (genericEnv wr) S cw eps bmin bmax ps fx m = .ok m' ∧ ∃ lt, m'.ltrace 0 = some lt ∧ lt.len = S ∧
      ∀ t < S, ∃ y fs, lt.row t = some (.scalar (.fin y)) ∧ fs.length = lr.factors.length ∧
        (∀ (j i : Nat) (F : Arr Int), lr.factors[j]? = some i → fs[j]? = some F → IsFactorSample m m' S t i F) ∧
        BelongsTo lom fs X (wr.beta_prior 0).1 (wr.beta_prior 0).2 y := by
  obtain ⟨m', hm', -, -, -, -, -, -, htr⟩ := C47_infer_binary H hX hw S cw bmin eps bmax ps fx ha hcw hps
  have hmem : ∀ i ∈ freeMats m, i ∈ lr.factors := fun i hi => H.mem_free hi
  have hnd : (freeMats m).Nodup := by rw [H.free_eq]; exact H.nodup.filter _
  have h0 : freeLbdas m = [0] := by simp [freeLbdas, H.layers, hl]
  have hpm : ∀ t, ∀ i ∈ (genericEnv wr).perm t (freeMats m), i ∈ freeMats m := fun t i hi => H.perm t _ i hi
  obtain ⟨wm, wl, clock, hC, hend, gm, gl, m1, m2, m3, h1, h2, h3, hwl, -⟩ :=
    C39_traces (genericEnv wr) S cw bmin eps bmax ps fx m m' hnd hpm hm'
  obtain ⟨m1', m2', e1, e2, efct, elfct⟩ := infer_fcts hnd hpm hm'
  rw [h1] at e1; cases e1
  rw [h2] at e2; cases e2
  obtain ⟨m1', a1, a2, a3, a4, a5, a6'⟩ := H.assigns (freeMats m) m hmem rfl rfl (by
    intro i hi s hs
    exact H.cached _ i (H.position hi).1 s hs)
  rw [h1] at a1; cases a1
  have a6 := SingleLayer.assigned a5 a6'
  obtain ⟨m2', b1, b2, b3⟩ := H.lassigns (m' := m1) a3 (by rw [a4]; exact H.lcached)
  rw [h2] at b1; cases b1
  have hf : ∀ i ∈ freeMats m, ∃ s, m2.fct i = some s ∧ GenericSampler lom lr.factors.length (lr.factors.idxOf i) s := by
    intro i hi
    obtain ⟨s, hs⟩ := Option.ne_none_iff_exists'.mp (a6 i hi)
    exact ⟨s, by rw [b2]; exact hs, a2 i (hmem i hi) s hs⟩
  have hH := H.healthy hX hf b3
  have k1 := fold_keeps (fun a i b => assignFct_keeps) h1
  have k2 := fold_keeps (fun a i b => assignLfct_keeps) h2
  have e2 := k1.1.trans k2.1
  obtain ⟨m3', c1, c2⟩ := hH.burn_in_anneal (nodup_freeLbdas m) (show ps ≠ 0 by omega) (show cw ≠ 0 by omega) (eps := eps)
    (b := bmin) (bmax := bmax) (fx := fx) (m := resetIndices (freeMats m) (freeLbdas m) m2) rfl rfl e2.layers (by
      have e : m2.anneal = m.anneal := e2.anneal
      have e' : m2.world = m.world := by rw [k2.2, k1.2]
      have := H.annealOK (X := X) hf ha
      unfold AnnealOK at this ⊢
      show m2.anneal = false ∨ fx = 0 ∧ (∀ k ∈ freeLbdas m, ∃ x, x ≠ 0 ∧ m2.world.lbda k = .scalar (.fin x)) ∧ _
      rw [e, e']
      exact this)
    (by
      show LegalWorld lr x sizes X m2.world ∧ Kept m lr m2.world
      rw [k2.2, k1.2]
      exact ⟨hw, ⟨fun _ _ => rfl, fun _ _ => rfl, fun _ _ _ => ⟨rfl, rfl, fun _ _ => rfl, fun _ => rfl⟩⟩⟩)
  rw [h3] at c1; cases c1
  have hst := H.steady hX hf b3 m3.world
  rw [efct, elfct] at hC
  have hall := hst.chain hC ⟨by rw [hwl]; exact c2, by rw [hwl]; exact fun _ => rfl, by rw [hwl]; exact fun _ _ => rfl⟩
  obtain ⟨lt, l1, l2, -⟩ := htr 0 (by rw [h0]; simp)
  obtain ⟨lt', q1, -, q3⟩ := gl 0 (by rw [h0]; simp)
  rw [l1] at q1; cases q1
  refine ⟨m', hm', lt, l1, l2, fun t ht => ?_⟩
  obtain ⟨⟨⟨hlegal, -⟩, hsh, hco⟩⟩ := And.intro ((hall t ht.le).2 ht) trivial
  obtain ⟨g, g1, g2⟩ := b3 0 (by rw [h0]; simp)
  obtain ⟨y, y1, y2⟩ := H.runs_lbda_value g2 (clock + t + 1) hlegal hX
  have hnext : wl (t + 1) = { wm t with lbda := upd (wm t).lbda 0 (.scalar (.fin y)) } := by
    have := hC.lbdas t ht
    rw [h0] at this
    simp only [sweepL, List.foldlM_cons, List.foldlM_nil, g1] at this
    have hr : (genericEnv wr).runLbda g 0 (clock + t + 1) (wm t) = runUpdate wr g 0 (clock + t + 1) (wm t) := rfl
    rw [hr, y2] at this
    simp only [bind, Except.bind, pure, Except.pure, Except.ok.injEq] at this
    exact this.symm
  refine ⟨y, lr.factors.map fun i => ((wm t).mat i).val, ?_, by simp, ?_, y1⟩
  · have hy : (wl (t + 1)).lbda 0 = .scalar (.fin y) := by rw [hnext]; simp [upd]
    obtain ⟨y0, hy0⟩ := (hall 0 (Nat.zero_le _)).1.1.1.lbda
    rw [q3 t ht (by rw [hy, hy0]; rfl), hy]
  · intro j i F hj hF
    rw [List.getElem?_map, hj] at hF
    cases hF
    refine ⟨fun hi => ?_, fun hi => ?_⟩
    · obtain ⟨tr, t1, t2⟩ := gm i hi
      have hmod : ∀ j ∈ freeMats m, modelOf m j ≠ some "OR-AND-IBP" := by
        intro j hj
        have : modelOf m j = some lom.name := by
          rw [modelOf, H.layerOf j (hmem j hj), H.layers, ← H.model]; rfl
        rw [this]
        cases lom <;> decide
      rcases t2 with ⟨-, t3, t4⟩ | ⟨t3, -⟩ | ⟨-, ⟨j, hj, t3⟩, -⟩
      · obtain ⟨t5, t6⟩ := t4 t ht
        exact ⟨tr, t1, by rw [t3, t5], t6⟩
      · exact absurd t3 (hmod i hi)
      · exact absurd t3 (hmod j hj)
    · show ((wm t).mat i).val = _
      rw [hco i hi, hend, (hall S le_rfl).1.2.2 i hi]

/-- the hypotheses of `C91_lambda_of_sample` hold for a machine in which only one of the factors is sampled; and a
dispersion that belongs to factors is determined by them -/
theorem C91_hypotheses_met (rnd : Nat → Nat → Rnd) :
    (∃ m', infer (genericEnv (wiring2 false false rnd fun _ l => l)) 50 15 0.001 30 200 100 0 (mach2 false false [1]) = .ok m' ∧
      ∃ lt, m'.ltrace 0 = some lt ∧ lt.len = 50 ∧ ∀ t < 50, ∃ y fs, lt.row t = some (.scalar (.fin y)) ∧ fs.length = 2 ∧
        (∀ (j i : Nat) (F : Arr Int), [0, 1][j]? = some i → fs[j]? = some F →
          IsFactorSample (mach2 false false [1]) m' 50 t i F) ∧
        BelongsTo .XOR_NAND fs (Arr.full [3, 2] 1) 1 1 y) ∧
    (∀ fs X a b y y', BelongsTo .XOR_NAND fs X a b y → BelongsTo .XOR_NAND fs X a b y' → y = y') := by
  obtain ⟨h1, h2, -⟩ := C47_hypotheses_met false false [1] rnd (fun _ l => l) fun _ _ _ h => h
  refine ⟨C91_lambda_of_sample h1 rfl h2 50 15 30 0.001 200 100 0 (.inl rfl) (by norm_num) (by norm_num) rfl, ?_⟩
  intro fs X a b y y' h h'
  have := h.2.trans h'.2.symm
  unfold sigmoid at this
  have e : Real.exp (-y) = Real.exp (-y') := by
    have p1 := Real.exp_pos (-y)
    have p2 := Real.exp_pos (-y')
    field_simp at this
    linarith
  linarith [Real.exp_injective e]

end LFM
