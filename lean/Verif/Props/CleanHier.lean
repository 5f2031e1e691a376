import Verif.Lemmas.CleanHier
import Verif.Props.Assemble

/-!
# Properties: automatic clean-up in machines of several layers (C114)
-/

namespace LFM

open Spec

/-- the factors of layer `p` have as many rows as the axes of the matrix below are long -/
def Workshop.LayerFits (s : Workshop) (p : Nat) : Prop :=
  ∀ (lr : LayerInfo) (j i : Nat), s.m.layers[p]? = some lr → lr.factors[j]? = some i →
    (s.m.world.mat i).val.shape.getD 0 0 = (s.m.world.mat (s.child p)).val.shape.getD j 0

/-- **C114** (partial): whatever clean-up does, after an inference that returns the factors of a layer fit the matrix below,
unless that matrix is itself a factor of a layer with automatic clean-up. What is missing: layers on top of layers with
clean-up, see `C114_fits_iff` and `C114_wrong`. -/
theorem C114_fits_partial {s s' : Workshop} (h : Built s) (S cw : Nat) (eps : ℝ) (bmin : Nat) (bmax : Int) (ps fx : Nat)
    (dr : Draws) (hp : ∀ t l, ∀ i ∈ dr.perm t l, i ∈ l) (hs : s.infer S cw eps bmin bmax ps fx dr = .ok s') (p : Nat)
    (hc : ∀ lr ∈ s.m.layers, lr.auto_clean = true ∨ lr.auto_reset = true → s.child p ∉ lr.factors) : s'.LayerFits p := by
  have H := h.sound
  rw [Workshop.infer, bind_ok] at hs
  obtain ⟨m', h1, h2⟩ := hs
  rw [pure_ok] at h2
  subst h2
  have R := H.infer_rows hp h1
  have hst := (infer_static H.nodup_free (fun t i hi => hp t _ i hi) h1).1
  intro lr j i hlr hj
  have hlr' : s.m.layers[p]? = some lr := by rw [← hst.layers]; exact hlr
  obtain ⟨L, hL⟩ := H.world.facs p lr hlr'
  have e := (hL j (s.m.world.mat i) (by rw [List.getElem?_map, hj]; rfl)).1
  have e1 : (m'.world.mat i).val.shape.getD 0 0 = (s.m.world.mat i).val.shape.getD 0 0 := (R i).1
  have e2 : (m'.world.mat (s.child p)).val.shape = (s.m.world.mat (s.child p)).val.shape := (R (s.child p)).2 hc
  show (m'.world.mat i).val.shape.getD 0 0 = (m'.world.mat (s.child p)).val.shape.getD j 0
  rw [e1, e2, e]
  rfl

/-- **C114**, layers on top of a factor: after an inference that returns, the factors of the layer on top fit exactly if clean-up
has not changed the number of latent dimensions of the factor below. Nothing adapts the layer on top. -/
theorem C114_fits_iff {s s' : Workshop} (h : Built s) (S cw : Nat) (eps : ℝ) (bmin : Nat) (bmax : Int) (ps fx : Nat)
    (dr : Draws) (hp : ∀ t l, ∀ i ∈ dr.perm t l, i ∈ l) (hs : s.infer S cw eps bmin bmax ps fx dr = .ok s') (p : Nat)
    (hlt : p < s.m.layers.length) (hf : s.m.layerOf (s.child p) ≠ none) :
    s'.LayerFits p ↔
      (s'.m.world.mat (s.child p)).val.shape.getD 1 0 = (s.m.world.mat (s.child p)).val.shape.getD 1 0 := by
  have H := h.sound
  rw [Workshop.infer, bind_ok] at hs
  obtain ⟨m', h1, h2⟩ := hs
  rw [pure_ok] at h2
  subst h2
  have R := H.infer_rows hp h1
  have hst := (infer_static H.nodup_free (fun t i hi => hp t _ i hi) h1).1
  obtain ⟨lr, hlr⟩ : ∃ lr, s.m.layers[p]? = some lr := ⟨_, List.getElem?_eq_getElem hlt⟩
  obtain ⟨L, hL⟩ := H.world.facs p lr hlr
  obtain ⟨k, hk⟩ := Option.ne_none_iff_exists'.mp hf
  obtain ⟨-, lk, hlk, hmem⟩ := H.owner _ k hk
  obtain ⟨Lk, hLk⟩ := H.world.facs k lk hlk
  obtain ⟨c, hc⟩ := List.getElem?_of_mem hmem
  have ec := (hLk c (s.m.world.mat (s.child p)) (by rw [List.getElem?_map, hc]; rfl)).1
  have hlen : lr.factors.length = 2 := by rw [← H.world.dims p lr hlr, ec]; rfl
  have row : ∀ i, (m'.world.mat i).val.shape.getD 0 0 = (s.m.world.mat i).val.shape.getD 0 0 := fun i => (R i).1
  have fit : ∀ j i, lr.factors[j]? = some i →
      (m'.world.mat i).val.shape.getD 0 0 = (s.m.world.mat (s.child p)).val.shape.getD j 0 := by
    intro j i hj
    rw [row, (hL j (s.m.world.mat i) (by rw [List.getElem?_map, hj]; rfl)).1]
    rfl
  constructor
  · intro hfit
    obtain ⟨i, hi⟩ : ∃ i, lr.factors[1]? = some i := ⟨_, List.getElem?_eq_getElem (by omega)⟩
    have e := hfit lr 1 i (by rw [← hlr, ← hst.layers]) hi
    show (m'.world.mat (s.child p)).val.shape.getD 1 0 = _
    rw [← fit 1 i hi]
    exact e.symm
  · intro he lr' j i hlr' hj
    have hlr'' : s.m.layers[p]? = some lr' := by rw [← hst.layers]; exact hlr'
    rw [hlr] at hlr''
    cases hlr''
    have hj2 : j < 2 := by rw [← hlen]; exact (List.getElem?_eq_some_iff.mp hj).1
    show (m'.world.mat i).val.shape.getD 0 0 = (m'.world.mat (s.child p)).val.shape.getD j 0
    rw [fit j i hj]
    match j, hj2 with
    | 0, _ => exact (row _).symm
    | 1, _ => exact he.symm

/-! ### A machine for which it is wrong -/

/-- `shop2`, a layer of two latent dimensions, and a layer on top of its first factor -/
noncomputable def shopC : Workshop :=
  (shop2.setVal 1 (shop2.m.world.mat 1).val).attach 1 [3, 2] 1 "OR-AND" fun _ _ => 1

theorem shopC_built : Built shopC := by
  refine .act (.addLayer (some 1) none 1 "OR-AND" fun _ _ => 1) shop2_built ⟨fun _ _ => .inl rfl, fun i hi => ?_, by simp⟩ ?_
  · cases hi
    have : (shop2.m.world.mat 1).val.shape = [3, 2] := rfl
    exact ⟨by decide, by rw [this]; simp⟩
  · have hm : canonical_form "OR-AND" = .ok ("OR-AND", false, false) := by decide
    rw [Workshop.step, Workshop.addLayer]
    have hc : canonise_model "OR-AND" (Option.map (fun i => (shop2.m.world.mat i).val) (some 1)) =
        (some (shop2.m.world.mat 1).val, .ok ("OR-AND", false, false)) := by
      rw [canonise_model, hm]
      rfl
    rw [hc]
    rfl

/-- and automatic clean-up of the layer below -/
noncomputable def shopD : Workshop :=
  { shopC with m := { shopC.m with layers := [⟨[1, 2], "XOR-AND", none, false, true⟩, ⟨[3, 4], "OR-AND", none, false, false⟩] } }

theorem shopD_built : Built shopD := .act (.setClean 0 false true) shopC_built trivial rfl

theorem shopD_layers : shopD.m.layers = [⟨[1, 2], "XOR-AND", none, false, true⟩, ⟨[3, 4], "OR-AND", none, false, false⟩] := rfl

theorem shopD_ready : Ready shopD := ready_two shopD_built rfl rfl (layers_two shopD_layers rfl rfl)

theorem shopD_clean : clean_up_codes ([1, 2].map shopD.m.world.mat) false true =
    .ok (remove_dimension 1 ([1, 2].map shopD.m.world.mat), true) := by
  have h1 : cleanInactive (some .remove) 0 ([1, 2].map shopD.m.world.mat) false =
      .ok ([1, 2].map shopD.m.world.mat, false) := by
    rw [cleanInactive_miss (by decide) (by decide), cleanInactive_miss (by decide) (by decide), cleanInactive_end (by decide)]
  rw [clean_up_codes]
  show (cleanInactive (some .remove) 0 _ false >>= _) = _
  rw [h1]
  show cleanDup (some .remove) 0 _ false = _
  rw [cleanDup_step (fs' := remove_dimension 1 ([1, 2].map shopD.m.world.mat)) (b' := true) (by decide) ?_]
  · exact cleanDup_end (by decide)
  · rw [cleanDupInner_hit (fs' := remove_dimension 1 ([1, 2].map shopD.m.world.mat)) (by decide) (by decide) rfl]
    exact cleanDupInner_end (by decide)

/-- **C114** is wrong: a machine of two layers, in which the factors of the layer below have two equal columns; after an
inference with `auto_reset` the layer below has a single latent dimension, the second factor of the layer on top still has
two rows. -/
theorem C114_wrong (dr : Draws) (hp : ∀ t l, ∀ i ∈ dr.perm t l, i ∈ l) :
    Built shopD ∧ shopD.child 1 = 1 ∧ (∀ p < 2, shopD.LayerFits p) ∧
    ∃ s', shopD.infer 0 15 0.001 0 0 10 0 dr = .ok s' ∧ (s'.m.world.mat 1).val.shape = [3, 1] ∧
      (s'.m.world.mat 4).val.shape = [2, 1] ∧ ¬ s'.LayerFits 1 := by
  have H := shopD_built.sound
  have hr := shopD_ready
  have hfac : ∀ i ∈ freeMats shopD.m, ∃ (k : Nat) (lr : LayerInfo), shopD.m.layers[k]? = some lr ∧ i ∈ lr.factors := by
    intro i hi
    obtain ⟨k, hk⟩ := Option.ne_none_iff_exists'.mp (hr.factor i hi)
    obtain ⟨-, lr, h1, h2⟩ := H.owner i k hk
    exact ⟨k, lr, h1, h2⟩
  refine ⟨shopD_built, rfl, ?_, ?_⟩
  · intro p _ lr j i hlr hj
    obtain ⟨L, hL⟩ := H.world.facs p lr hlr
    rw [(hL j (shopD.m.world.mat i) (by rw [List.getElem?_map, hj]; rfl)).1]
    rfl
  obtain ⟨m1, a1, a2, a3, a4, -, -⟩ := H.assigns dr (freeMats shopD.m) shopD.m (by
    intro i hi hn
    obtain ⟨k, lr, h1, h2⟩ := hfac i hi
    exact ⟨k, lr, h1, h2, hr.mat i hi hn k lr h1 h2⟩) rfl rfl H.fct
  obtain ⟨m2, b1, -, -, -, -⟩ := H.lassigns dr (freeLbdas shopD.m) m1 (by
    intro k hk hn
    rw [a4] at hn
    have hlt : k < shopD.m.layers.length := by
      simp only [freeLbdas, List.mem_filter, List.mem_range] at hk
      exact hk.1
    exact ⟨_, List.getElem?_eq_getElem hlt, hr.lbda k hk hn _ (List.getElem?_eq_getElem hlt)⟩) a3 (by
    intro k g hg lr hlr
    rw [a4] at hg
    exact H.lfct k lr g hlr hg)
  have k1 := fold_keeps (fun a i b => assignFct_keeps) a1
  have k2 := fold_keeps (fun a i b => assignLfct_keeps) b1
  have kst := k1.1.trans k2.1
  have hw : m2.world = shopD.m.world := by rw [k2.2, k1.2]
  have hly : m2.layers = [⟨[1, 2], "XOR-AND", none, false, true⟩, ⟨[3, 4], "OR-AND", none, false, false⟩] := by
    rw [kst.layers]; rfl
  obtain ⟨w3, hw3⟩ : ∃ w3, w3 = writeFactors shopD.m.world [1, 2] (remove_dimension 1 ([1, 2].map shopD.m.world.mat)) := ⟨_, rfl⟩
  obtain ⟨ma, hma⟩ : ∃ ma, ma = allocLbdas ((genericEnv (shopD.wiring dr)).junk 0) 15 (freeLbdas shopD.m)
    (resetIndices (freeMats shopD.m) (freeLbdas shopD.m) m2) := ⟨_, rfl⟩
  have hmaw : ma.world = shopD.m.world := by rw [hma]; exact hw
  have hmal : ma.layers = [⟨[1, 2], "XOR-AND", none, false, true⟩, ⟨[3, 4], "OR-AND", none, false, false⟩] := by
    rw [hma]; exact hly
  obtain ⟨m3, hm3⟩ : ∃ m3, m3 = { resetIndexL (freeLbdas shopD.m) { ma with world := w3 } with burn_in_iters := some 1 } := ⟨_, rfl⟩
  have hburn : burn_in (genericEnv (shopD.wiring dr)) (freeMats shopD.m) (freeLbdas shopD.m) 0.001 15 0 0 10 0
      (resetIndices (freeMats shopD.m) (freeLbdas shopD.m) m2) = .ok m3 := by
    rw [burn_in, preLoop]
    show mainLoop _ _ _ _ _ _ _ _ _ (allocLbdas ((genericEnv (shopD.wiring dr)).junk 0) 15 (freeLbdas shopD.m)
      (resetIndices (freeMats shopD.m) (freeLbdas shopD.m) m2)) = _
    rw [← hma, mainLoop_eq (by decide) (by decide), windowTurn, if_neg (by decide)]
    simp only [bind, Except.bind, Bool.false_eq_true, if_false]
    rw [if_pos (by decide), stopStep]
    rw [hmal, finalClean, if_pos rfl]
    have hcl : cleanLayer false true ma ⟨[1, 2], "XOR-AND", none, false, true⟩ = .ok ({ ma with world := w3 }, true) := by
      rw [cleanLayer]
      show (clean_up_codes ([1, 2].map ma.world.mat) false true >>= fun r => _) = _
      rw [hmaw, shopD_clean, hw3]
      rfl
    rw [hcl]
    simp only [bind, Except.bind]
    rw [finalClean, if_neg (by decide), finalClean, hm3]
    rfl
  obtain ⟨m4, h4⟩ := allocMats_total (env := genericEnv (shopD.wiring dr)) (S := 0) (freeMats shopD.m) (m := m3) (by
    intro i hi
    obtain ⟨k, lr, h1, h2⟩ := hfac i hi
    obtain ⟨lom, hlom⟩ := H.modelOf_factor h1 h2
    have : modelOf m3 i = modelOf shopD.m i := by
      rw [modelOf, modelOf, ← kst.layerOf, ← kst.layers, hm3, hma]
      rfl
    rw [this, hlom]
    simp)
  have k4 := fold_keeps (fun a i b => allocMat_keeps) h4
  have hinf : shopD.infer 0 15 0.001 0 0 10 0 dr = .ok { shopD with
      m := allocLbdasS (genericEnv (shopD.wiring dr)).junkSampling 0 (freeLbdas shopD.m) m4 } := by
    have : LFM.infer (genericEnv (shopD.wiring dr)) 0 15 0.001 0 0 10 0 shopD.m =
        .ok (allocLbdasS (genericEnv (shopD.wiring dr)).junkSampling 0 (freeLbdas shopD.m) m4) := by
      rw [infer]
      simp only
      rw [a1]
      show ((freeLbdas _).foldlM (assignLfct _) m1 >>= _) = _
      rw [b1]
      show (burn_in _ _ _ _ _ _ _ _ _ (resetIndices _ _ m2) >>= _) = _
      rw [hburn]
      show ((freeMats _).foldlM (allocMat _ 0) m3 >>= _) = _
      rw [h4]
      rfl
    rw [Workshop.infer, this]
    rfl
  have hmat : ∀ i, m4.world.mat i = w3.mat i := by intro i; rw [k4.2, hm3]; rfl
  refine ⟨_, hinf, ?_, ?_, ?_⟩
  · show (m4.world.mat 1).val.shape = _
    rw [hmat, hw3]; rfl
  · show (m4.world.mat 4).val.shape = _
    rw [hmat, hw3]; rfl
  · rw [C114_fits_iff shopD_built 0 15 0.001 0 0 10 0 dr hp hinf 1 (by decide) (by
      show shopD.m.layerOf 1 ≠ none
      decide)]
    show ¬ (m4.world.mat 1).val.shape.getD 1 0 = _
    rw [hmat, hw3]
    decide

/-- **C114**, what it means for later sweeps: with a second factor of two rows on top of a matrix of a single column, the
second row is drawn according to entries that do not exist. Two matrices that agree in all their entries lead to different
samples from the same draws. -/
theorem C114_reads_outside (lbda : ℝ) (hl : 0 < lbda) :
    let V : Member := ⟨Arr.full [3, 1] 1, Arr.full [3, 1] 0, 0, 1 / 2⟩
    let U : Member := ⟨Arr.full [2, 1] 1, Arr.full [2, 1] 0, 1, 1 / 2⟩
    ∃ (f : Sampler) (X X' R R' : Arr Int) (rnd : Rnd), get_sampling_fct none (some "OR-AND") [V, U] 1 1 (1 / 2) [] = .ok f ∧
      (∀ i, 0 ≤ rnd i ∧ rnd i < 1) ∧ X.shape = [3, 1] ∧ X'.shape = [3, 1] ∧ (∀ i, InB [3, 1] i → X i = X' i) ∧
      f.run U [V, U] 1 X lbda [] rnd = .ok R ∧ f.run U [V, U] 1 X' lbda [] rnd = .ok R' ∧
      R.shape = [2, 1] ∧ R'.shape = [2, 1] ∧ R [1, 0] = 1 ∧ R' [1, 0] = -1 := by
  intro V U
  have hget : get_sampling_fct none (some Lom8.OR_AND.name) [V, U] 1 1 (1 / 2) [] =
      .ok (.lom (.two (sampling_onechild_2D posterior_score_OR_AND_2D)) [1, 0] (logit (1 / 2))) := by
    have hmk := make_onechild2 .OR_AND (f := posterior_score_OR_AND_2D) rfl
    rw [dispatch_onechild (factors := [V, U]) (relatives2 .OR_AND) (generic_code2 .OR_AND), hmk]
    simp [Except.map, axisOrder, siblings2_1, V]
  have run : ∀ (X : Arr Int) (rnd : Rnd), (Sampler.lom (.two (sampling_onechild_2D posterior_score_OR_AND_2D)) [1, 0] (logit (1 / 2))).run
      U [V, U] 1 X lbda [] rnd = .ok (sampling_onechild_2D posterior_score_OR_AND_2D U.val U.fixed_entries V.val
        (X.transpose [1, 0]) lbda (logit (1 / 2)) rnd) := by
    intro X rnd
    simp only [Sampler.run, siblings2_1, List.map]
  have entry : ∀ (X : Arr Int) (rnd : Rnd), (sampling_onechild_2D posterior_score_OR_AND_2D U.val U.fixed_entries V.val
        (X.transpose [1, 0]) lbda (logit (1 / 2)) rnd) [1, 0] = flip_metropolised_gibbs_numba
          (lbda * posterior_score_OR_AND_2D (U.val.row 1) V.val ((X.transpose [1, 0]).row 1) 0 + logit (1 / 2)) 1 (rnd [1, 0]) := by
    intro X rnd
    rw [sampling_onechild_2D_eq]
    show (sweep _ _ _ [[0, 0], [1, 0]] _) [1, 0] = _
    simp only [sweep, List.foldl, updEntry]
    have hf0 : ¬ (U.fixed_entries [0, 0] = 1) := by decide
    have hf1 : ¬ (U.fixed_entries [1, 0] = 1) := by decide
    rw [if_neg hf0, if_neg hf1]
    generalize flip_metropolised_gibbs_numba _ (U.val [0, 0]) (rnd [0, 0]) = v
    have hrow : (U.val.set [0, 0] v).row 1 = U.val.row 1 := by
      simp [Arr.row, Arr.set]
    have hself : ∀ (A : Arr Int) (x : Int), (A.set [1, 0] x) [1, 0] = x := fun A x => by simp [Arr.set]
    rw [hself]
    show flip_metropolised_gibbs_numba (lbda * posterior_score_OR_AND_2D ((U.val.set [0, 0] v).row 1) V.val _ 0 + _) _ _ = _
    rw [hrow]
    rfl
  have shp : ∀ (X : Arr Int) (rnd : Rnd), (sampling_onechild_2D posterior_score_OR_AND_2D U.val U.fixed_entries V.val
        (X.transpose [1, 0]) lbda (logit (1 / 2)) rnd).shape = [2, 1] := fun X rnd =>
    (C20_sampling_keeps hget U [V, U] 1 X lbda [] rnd _ (run X rnd)).1
  refine ⟨_, ⟨[3, 1], fun _ => 1⟩, ⟨[3, 1], fun i => if i.getD 1 0 = 0 then 1 else -1⟩, _, _, fun _ => Real.exp (-lbda), hget,
    fun _ => ⟨(Real.exp_pos _).le, by rw [Real.exp_lt_one_iff]; linarith⟩, rfl, rfl, ?_, run _ _, run _ _, shp _ _, shp _ _, ?_, ?_⟩
  · intro i hi
    match i, hi with
    | [a, b], hi =>
      have : b = 0 := by
        have := hi.2.1
        omega
      simp [this]
  · rw [entry]
    have : posterior_score_OR_AND_2D (U.val.row 1) V.val
      (((⟨[3, 1], fun _ => 1⟩ : Arr Int).transpose [1, 0]).row 1) 0 = 3 := by decide
    rw [this]
    have h0 : logit (1 / 2) = 0 := by norm_num [logit]
    rw [h0, flip_metropolised_gibbs_numba, if_neg, if_neg, if_neg]
    · push_cast
      rw [gt_iff_lt, Real.exp_lt_exp]
      linarith
    · rintro ⟨h, -⟩; norm_num at h
    · rintro ⟨-, h⟩; push_cast at h; linarith
  · rw [entry]
    have : posterior_score_OR_AND_2D (U.val.row 1) V.val
      (((⟨[3, 1], fun i => if i.getD 1 0 = 0 then 1 else -1⟩ : Arr Int).transpose [1, 0]).row 1) 0 = -3 := by decide
    rw [this]
    have h0 : logit (1 / 2) = 0 := by norm_num [logit]
    rw [h0, flip_metropolised_gibbs_numba, if_pos]
    exact ⟨rfl, by push_cast; linarith⟩

/-- C114: the hypotheses of `C114_fits_partial` are met by the layer below, those of `C114_fits_iff` by the layer on top -/
theorem C114_hypotheses_met : Built shopD ∧ (∀ lr ∈ shopD.m.layers, lr.auto_clean = true ∨ lr.auto_reset = true →
      shopD.child 0 ∉ lr.factors) ∧ 1 < shopD.m.layers.length ∧ shopD.m.layerOf (shopD.child 1) ≠ none ∧
    ∃ s', shopD.infer 0 15 0.001 0 0 10 0 plainDraws = .ok s' := by
  obtain ⟨h1, -, -, s', hs, -⟩ := C114_wrong plainDraws fun _ _ _ h => h
  refine ⟨h1, ?_, by decide, by decide, s', hs⟩
  intro lr hlr _
  rw [shopD_layers] at hlr
  simp only [List.mem_cons, List.not_mem_nil, or_false] at hlr
  rcases hlr with rfl | rfl <;> decide

end LFM
