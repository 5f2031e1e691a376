import Verif.Lemmas.Special
import Verif.Lemmas.InferIBP

/-!
# Properties: inference in a machine with an OR-AND-IBP layer
-/

namespace LFM

open Spec

section generic

variable {F G : Type}

theorem chain_unique {env : Env F G} {fct : Nat → Option F} {lfct : Nat → Option G} {mats lbdas : List Nat} {clock S : Nat}
    {wm wl wm' wl' : Nat → World} (h : Chain env fct lfct mats lbdas clock S wm wl)
    (h' : Chain env fct lfct mats lbdas clock S wm' wl') (h0 : wl 0 = wl' 0) :
    ∀ t ≤ S, wl t = wl' t ∧ (t < S → wm t = wm' t) := by
  have hm : ∀ t < S, wl t = wl' t → wm t = wm' t := by
    intro t ht e
    have := h.mats t ht
    rw [e, h'.mats t ht] at this
    exact (Except.ok.inj this).symm
  intro t
  induction t with
  | zero => exact fun _ => ⟨h0, fun ht => hm 0 ht h0⟩
  | succ t ih =>
    intro ht
    obtain ⟨e1, e2⟩ := ih (by omega)
    have := h.lbdas t (by omega)
    rw [e2 (by omega), h'.lbdas t (by omega)] at this
    exact ⟨(Except.ok.inj this).symm, fun ht => hm _ ht (Except.ok.inj this).symm⟩

/-- inference in machines of OR-AND-IBP layers: burn-in completes; the sampling phase raises exactly if a sample has more
than ten columns more than there were at the end of burn-in -/
theorem infer_padded (env : Env F G) (S cw bmin : Nat) (eps : ℝ) (bmax : Int) (ps fx : Nat) (hcw : 1 ≤ cw)
    (hps : 1 ≤ ps) (m m1 m2 : Mach F G) (hnd : (freeMats m).Nodup)
    (hlayer : ∀ i ∈ freeMats m, modelOf m i = some "OR-AND-IBP")
    (h1 : (freeMats m).foldlM (assignFct env) m = .ok m1) (h2 : (freeLbdas m).foldlM (assignLfct env) m1 = .ok m2)
    (I : World → Prop) (hI : I m.world)
    (H : Healthy env (freeMats m) (freeLbdas m) m.layers m2.fct m2.lfct I)
    (ha : AnnealOK env (freeMats m) (freeLbdas m) m2.fct fx I m) :
    ∃ m3 wm wl, burn_in env (freeMats m) (freeLbdas m) eps cw bmin bmax ps fx
        (resetIndices (freeMats m) (freeLbdas m) m2) = .ok m3 ∧
      wl 0 = m3.world ∧ Chain env m2.fct m2.lfct (freeMats m) (freeLbdas m) m3.clock S wm wl ∧
      (∀ t ≤ S, I (wl t) ∧ (t < S → I (wm t))) ∧
      ((∀ t < S, Fits (freeMats m) (fun i => ((wl 0).mat i).val.dim 0) (fun i => ((wl 0).mat i).val.dim 1 + 10) (wm t)) →
        ∃ m', infer env S cw eps bmin bmax ps fx m = .ok m' ∧ m'.world = wl S ∧
          (∀ i ∈ freeMats m, ∃ tr, m'.trace i = some tr ∧
            tr.shape = [S, ((wl 0).mat i).val.dim 0, ((wl 0).mat i).val.dim 1 + 10] ∧
            ∀ t < S, ∀ a b, tr [t, a, b] =
              if a < ((wm t).mat i).val.dim 0 ∧ b < ((wm t).mat i).val.dim 1 then ((wm t).mat i).val [a, b] else -1) ∧
          ∀ k ∈ freeLbdas m, ∃ tr, m'.ltrace k = some tr ∧ tr.len = S ∧
            ∀ t < S, ((wl (t + 1)).lbda k).kind = ((wl 0).lbda k).kind → tr.row t = some ((wl (t + 1)).lbda k)) ∧
      ((∃ t < S, ¬ Fits (freeMats m) (fun i => ((wl 0).mat i).val.dim 0) (fun i => ((wl 0).mat i).val.dim 1 + 10) (wm t)) →
        infer env S cw eps bmin bmax ps fx m = .error .valueError) := by
  have k1 := fold_keeps (fun a i b => assignFct_keeps) h1
  have k2 := fold_keeps (fun a i b => assignLfct_keeps) h2
  have e2 := k1.1.trans k2.1
  obtain ⟨m2', hm2'⟩ : ∃ m2', m2' = resetIndices (freeMats m) (freeLbdas m) m2 := ⟨_, rfl⟩
  obtain ⟨m3, h3, i3⟩ := H.burn_in_anneal (nodup_freeLbdas m) (show ps ≠ 0 by omega) (show cw ≠ 0 by omega) (eps := eps)
    (b := bmin) (bmax := bmax) (fx := fx) (m := m2') (by rw [hm2']; rfl) (by rw [hm2']; rfl)
    (by rw [hm2']; exact e2.layers) (by
      have e : m2'.anneal = m.anneal := by rw [hm2']; exact e2.anneal
      have e' : m2'.world = m.world := by rw [hm2']; show m2.world = _; rw [k2.2, k1.2]
      unfold AnnealOK at ha ⊢
      rw [e, e']
      exact ha)
    (by rw [hm2']; show I m2.world; rw [k2.2, k1.2]; exact hI)
  have kb := burn_in_keeps H.perm h3
  have kix := burn_in_index h3
  have hl3 : m3.layers = m.layers := by rw [kb, hm2']; exact e2.layers
  have hlo3 : m3.layerOf = m.layerOf := by rw [kb, hm2']; exact e2.layerOf
  have hmod3 : ∀ i, modelOf m3 i = modelOf m i := by
    intro i; rw [modelOf, hl3, hlo3]; rfl
  obtain ⟨m4, h4⟩ := allocMats_total (env := env) (S := S) (freeMats m) (m := m3) (by
    intro i hi
    rw [hmod3, hlayer i hi]; simp)
  obtain ⟨o4, t4⟩ := allocMats_ok _ h4
  have w4 : m4.world = m3.world := by rw [o4]
  have c4 : m4.clock = m3.clock := by rw [o4]
  have f4 : m4.fct = m2.fct := by rw [o4]; show m3.fct = _; rw [kb, hm2']; rfl
  have lf4 : m4.lfct = m2.lfct := by rw [o4]; show m3.lfct = _; rw [kb, hm2']; rfl
  obtain ⟨wm, wl, w0, hC⟩ := H.chain_exists S (clock := m3.clock) i3
  obtain ⟨p1, p2⟩ := H.samplingLoop_padded hnd (nodup_freeLbdas m) (show ps ≠ 0 by omega) (S := S)
    (a := fun i => ((wl 0).mat i).val.dim 0) (b := fun i => ((wl 0).mat i).val.dim 1 + 10) S
    (m := allocLbdasS env.junkSampling S (freeLbdas m) m4) (ix := 0) (wm := wm) (wl := wl) (by omega) (by
      refine ⟨?_, ?_, f4, lf4, ?_, ?_⟩
      · show I m4.world
        rw [w4]
        exact i3
      · intro i hi
        have : modelOf (allocLbdasS env.junkSampling S (freeLbdas m) m4) i = modelOf m3 i := by
          show modelOf m4 i = _; rw [o4]; rfl
        rw [this, hmod3]
        exact hlayer i hi
      · intro i hi
        refine ⟨?_, allocIBP S (m3.world.mat i).val, ?_, ?_⟩
        · show m4.trace_index i = 0
          rw [o4]; show m3.trace_index i = 0; rw [kb, hm2']
          show (if i ∈ freeMats m then 0 else _) = 0
          rw [if_pos hi]
        · show m4.trace i = _
          rw [t4, if_pos hi, hmod3, if_pos (hlayer i hi)]
        · rw [w0]; rfl
      · intro k hk
        refine ⟨?_, allocL (env.junkSampling k) S (m4.world.lbda k), ?_, allocL_len _ _ _, allocL_kind _ _ _⟩
        · show m4.ltrace_index k = 0
          rw [o4]; exact kix k hk
        · show (if k ∈ freeLbdas m then _ else _) = _
          rw [if_pos hk])
    (by rw [w0]; exact w4.symm) (by show Chain _ _ _ _ _ m4.clock _ _ _; rw [c4]; exact hC)
  have hinf : infer env S cw eps bmin bmax ps fx m =
      samplingLoop env (freeMats m) (freeLbdas m) ps S (allocLbdasS env.junkSampling S (freeLbdas m) m4) := by
    rw [infer]
    simp only
    rw [h1]
    show ((freeLbdas m).foldlM (assignLfct env) m1 >>= _) = _
    rw [h2]
    show (burn_in _ _ _ _ _ _ _ _ _ (resetIndices (freeMats m) (freeLbdas m) m2) >>= _) = _
    rw [← hm2', h3]
    show ((freeMats m).foldlM (allocMat env S) m3 >>= _) = _
    rw [h4]
    rfl
  refine ⟨m3, wm, wl, by rw [← hm2']; exact h3, w0, hC, H.chain hC (by rw [w0]; exact i3), fun hf => ?_, fun hf => ?_⟩
  · obtain ⟨m', h5, hw5⟩ := p1 hf
    refine ⟨m', hinf.trans h5, hw5, ?_⟩
    obtain ⟨wm', wl', clock, hC', hw', hm, hlb, n1, n2, n3, a1, a2, a3, a4, a5⟩ :=
      C39_traces env S cw bmin eps bmax ps fx m m' hnd H.perm (hinf.trans h5)
    rw [h1] at a1
    cases a1
    rw [h2] at a2
    cases a2
    rw [← hm2', h3] at a3
    cases a3
    have hfct : m'.fct = m2.fct ∧ m'.lfct = m2.lfct := by
      obtain ⟨o1, o2⟩ := samplingLoop_fct hnd (nodup_freeLbdas m) S h5
      rw [o1, o2]
      exact ⟨f4, lf4⟩
    rw [hfct.1, hfct.2, a5] at hC'
    have hu := chain_unique hC hC' (w0.trans a4.symm)
    refine ⟨fun i hi => ?_, fun k hk => ?_⟩
    · obtain ⟨tr, q1, q2⟩ := hm i hi
      refine ⟨tr, q1, ?_⟩
      rcases q2 with ⟨q, -⟩ | ⟨-, q2, q3⟩ | ⟨q, -⟩
      · exact absurd (hlayer i hi) (q i hi)
      · rw [(hu 0 (by omega)).1]
        refine ⟨q2, fun t ht => ?_⟩
        rw [(hu t (by omega)).2 ht]
        exact q3 t ht
      · exact absurd (hlayer i hi) q
    · obtain ⟨tr, q1, q2, q3⟩ := hlb k hk
      refine ⟨tr, q1, q2, fun t ht => ?_⟩
      rw [(hu 0 (by omega)).1, (hu (t + 1) (by omega)).1]
      exact q3 t ht
  · exact hinf.trans (p2 hf)

end generic

/-- a machine with a single OR-AND-IBP layer on fixed data -/
structure IBPMachine (wr : SpecialWiring) (m : Mach Sampler LbdaUpdate) (lr : LayerInfo) (z u x : Nat) : Prop
    extends TwoFactors wr m lr "OR-AND-IBP" z u x where
  alpha : 0 < wr.alpha 0
  prior : 0 < wr.prior u ∧ wr.prior u < 1
  beta : 0 < (wr.beta_prior 0).1 ∧ 0 < (wr.beta_prior 0).2

/-- legal states of such a machine -/
structure IBPWorld (z u x N D : Nat) (X : Arr Int) (w : World) : Prop where
  facs : ∃ L, (w.mat z).val.shape = [N, L] ∧ (w.mat u).val.shape = [D, L] ∧ PMArr (w.mat z).val ∧ PMArr (w.mat u).val
  data : (w.mat x).val = X
  lbda : ∃ y, w.lbda 0 = .scalar (.fin y)

/-- what inference has left as it was in `m0` -/
structure IBPKept (m0 : Mach Sampler LbdaUpdate) (lr : LayerInfo) (z u : Nat) (w : World) : Prop where
  others : ∀ i ∉ lr.factors, w.mat i = m0.world.mat i
  lbda : ∀ k ∉ freeLbdas m0, w.lbda k = m0.world.lbda k
  fixed : lr.auto_clean = false → lr.auto_reset = false → z ∉ freeMats m0 →
    w.mat z = m0.world.mat z ∧ (w.mat u).val.shape = (m0.world.mat u).val.shape ∧
    (w.mat u).fixed_entries = (m0.world.mat u).fixed_entries ∧
    (∀ idx, (m0.world.mat u).fixed_entries idx = 1 → (w.mat u).val idx = (m0.world.mat u).val idx) ∧
    (u ∉ freeMats m0 → w.mat u = m0.world.mat u)

/-- sampling functions of the factors -/
def GoodIBP (z u i : Nat) (s : Sampler) : Prop :=
  (i = z → s = .ibp [0, 1]) ∧
  (i = u → ∃ (a b : Member) (p : ℝ), a.child_axis = 0 ∧ b.child_axis = 1 ∧
    get_sampling_fct none (some "OR-AND-IBP") [a, b] 1 1 p [] = .ok s)

theorem ibp_second {a b : Member} {p : ℝ} (ha : a.child_axis = 0) :
    get_sampling_fct none (some "OR-AND-IBP") [a, b] 1 1 p [] =
      .ok (.lom (.two (sampling_onechild_2D posterior_score_OR_AND_2D)) [1, 0] (logit p)) := by
  have h : get_relatives_models (some "OR-AND-IBP") 2 [] = .ok (some "OR_AND_IBP_2D", none, none) := by rfl
  have hm : make_sampling_fct_onechild "OR_AND_2D" = .ok (.two (sampling_onechild_2D posterior_score_OR_AND_2D)) := by rfl
  simp [get_sampling_fct, h, hm, bind, Except.bind, siblings2_1, ha, pure, Except.pure]

theorem ibp_first {a b : Member} {p : ℝ} (hb : b.child_axis = 1) :
    get_sampling_fct none (some "OR-AND-IBP") [a, b] 0 0 p [] = .ok (.ibp [0, 1]) := by
  have h : get_relatives_models (some "OR-AND-IBP") 2 [] = .ok (some "OR_AND_IBP_2D", none, none) := by rfl
  simp [get_sampling_fct, h, bind, Except.bind, siblings2_0, hb, pure, Except.pure]

namespace IBPMachine

variable {wr : SpecialWiring} {m : Mach Sampler LbdaUpdate} {lr : LayerInfo} {z u x N D : Nat}

theorem free_nodup (H : IBPMachine wr m lr z u x) : (freeMats m).Nodup := by
  rw [H.free_eq (by decide)]
  have : [z, u].Nodup := by simp [H.ne]
  exact this.filter _

theorem getSampler (H : IBPMachine wr m lr z u x) {m' : Mach Sampler LbdaUpdate} (hl : m'.layers = m.layers)
    (ho : m'.layerOf = m.layerOf) {i : Nat} (hi : i = z ∨ i = u) :
    ∃ s, LFM.getSampler wr.toWiring m' i = .ok (some s, none) ∧ GoodIBP z u i s := by
  rcases hi with rfl | rfl
  · obtain ⟨a, b, ha, hb, he⟩ := H.getSampler_eq hl ho H.layerZ H.parentsZ
    refine ⟨.ibp [0, 1], ?_, ⟨fun _ => rfl, fun h => absurd h H.ne⟩⟩
    rw [he, H.axisZ, show lr.factors.idxOf i = 0 by simp [H.factors], ibp_first hb]
    rfl
  · obtain ⟨a, b, ha, hb, he⟩ := H.getSampler_eq hl ho H.layerU H.parentsU
    refine ⟨_, ?_, ⟨fun h => absurd h H.ne.symm, fun _ => ⟨a, b, m'.bernoulli_prior i, ha, hb, ibp_second ha⟩⟩⟩
    rw [he, H.axisU, show lr.factors.idxOf i = 1 by simp [H.factors, H.ne], ibp_second ha]
    rfl

theorem getUpdate (H : IBPMachine wr m lr z u x) : ∃ g, get_update_fct none "OR-AND-IBP" 2 = .ok g ∧
    (∀ m' : Mach Sampler LbdaUpdate, m'.layers = m.layers → LFM.getUpdate m' 0 = .ok g) ∧
    ∀ {X : Arr Int} (_ : X.shape = [N, D]) (t : Nat) {w : World}, IBPWorld z u x N D X w →
      ∃ y, runSpecialLbda wr g 0 t w = .ok { w with lbda := upd w.lbda 0 (.scalar (.fin y)) } ∧ 0 ≤ y := by
  obtain ⟨g, hg, h⟩ := C27_lambda_smoothed_accuracy_2d .OR_AND
  have hg' : get_update_fct none "OR-AND-IBP" 2 = .ok g := by
    rw [← hg]
    rfl
  refine ⟨g, hg', fun m' hl => ?_, fun {X} hX t {w} hw => ?_⟩
  · rw [LFM.getUpdate, hl, H.layers]
    simp [H.model, H.factors, hg']
  · obtain ⟨L, s1, s2, p1, p2⟩ := hw.facs
    obtain ⟨q, hq⟩ : ∃ q : Arr Int, q = match lr.q with
      | some q => (w.mat q).val
      | none => Arr.full [] 0 := ⟨_, rfl⟩
    obtain ⟨-, y, hy, h0, -⟩ := h N D L (w.mat z).val (w.mat u).val X q (wr.beta_prior 0).1 (wr.beta_prior 0).2
      s1 s2 hX p1 p2 H.beta.1 H.beta.2
    refine ⟨y, ?_, h0⟩
    have hne : g ≠ .max_and_2d := by
      rintro rfl
      simp [LbdaUpdate.run] at hy
    have : runSpecialLbda wr g 0 t w = runUpdate wr.toWiring g 0 t w := by
      rw [runSpecialLbda]
      intro h; exact absurd h hne
    rw [this, runUpdate, H.wrLayers, H.layers]
    simp only [List.getElem?_cons_zero, H.factors, List.map_cons, List.map_nil, H.child, hw.data]
    cases hlq : lr.q with
    | none =>
      rw [hlq] at hq
      simp only at hq ⊢
      rw [← hq, hy]; rfl
    | some j =>
      rw [hlq] at hq
      simp only at hq ⊢
      rw [← hq, hy]; rfl

/-- calling the sampler of the second factor -/
theorem runsU (H : IBPMachine wr m lr z u x) {s : Sampler} (hs : GoodIBP z u u s) (t : Nat) {w : World}
    (hw : ∃ y, w.lbda 0 = .scalar (.fin y)) :
    ∃ R, runSpecial wr s u t w = .ok (w.setVal u R) ∧ R.shape = (w.mat u).val.shape ∧
      (PMArr (w.mat u).val → PMArr R) ∧ ∀ idx, (w.mat u).fixed_entries idx = 1 → R idx = (w.mat u).val idx := by
  obtain ⟨y, hy⟩ := hw
  obtain ⟨a, b, p, ha, hb, hget⟩ := hs.2 rfl
  have hs' := hget
  rw [ibp_second ha] at hs'
  have hs' := (Except.ok.inj hs').symm
  have e : runSpecial wr s u t w = runSampler wr.toWiring s u t w := by
    rw [runSpecial, H.layer H.layerU, hs']
  have hv : layerView wr.toWiring w u = some ([memberAt wr.toWiring w z, memberAt wr.toWiring w u], 1,
      (w.mat (wr.child 0)).val, y) := by
    rw [layerView, H.wrLayerOf, H.layerU, H.wrLayers, H.layers]
    show (([lr] : List LayerInfo)[0]? >>= fun lr => (w.lbda 0).float? >>= fun x => _) = _
    rw [hy]
    show some (lr.factors.map _, lr.factors.idxOf u, _, _) = _
    rw [H.factors]
    simp [H.ne]
  obtain ⟨R, hR⟩ : ∃ R, s.run (memberAt wr.toWiring w u) [memberAt wr.toWiring w z, memberAt wr.toWiring w u] 1
      (w.mat (wr.child 0)).val y [] (wr.rnd t u) = .ok R := by
    rw [hs']
    simp only [Sampler.run, siblings2_1, List.map_cons, List.map_nil]
    exact ⟨_, rfl⟩
  obtain ⟨h1, h2, h3⟩ := C20_sampling_keeps hget _ _ _ _ _ _ _ _ hR
  refine ⟨R, ?_, h1, h3, h2⟩
  have hp : (wr.parents u).mapM (parentAt wr.toWiring w) = some [] := by rw [H.parentsU]; rfl
  rw [e, runSampler, hv, hp]
  show (s.run _ _ _ _ _ _ _ >>= _) = _
  rw [hR]
  rfl

/-- calling the sampler of the first factor -/
theorem runsZ (H : IBPMachine wr m lr z u x) {X : Arr Int} (hX : X.shape = [N, D]) {s : Sampler} (hs : GoodIBP z u z s)
    (t : Nat) {w : World} (hw : (w.mat x).val = X) {y : ℝ} (hy : w.lbda 0 = .scalar (.fin y)) :
    runSpecial wr s z t w =
      .ok ((w.setVal z (sample_2d_IBP (w.mat z).val (w.mat u).val (X.transpose [0, 1]) y (wr.prior u) (wr.alpha 0) (wr.ibp t z)).1).setVal
        u (sample_2d_IBP (w.mat z).val (w.mat u).val (X.transpose [0, 1]) y (wr.prior u) (wr.alpha 0) (wr.ibp t z)).2) := by
  have hf : (LVal.scalar (.fin y)).float? = some y := rfl
  rw [runSpecial, H.layer H.layerZ, hs.1 rfl]
  simp only [H.sibZ, hy, hf]
  rw [H.child, hw, npTranspose, if_pos (by rw [hX]; rfl)]
  rfl

theorem keeps (H : IBPMachine wr m lr z u x) {X : Arr Int} (hX : X.shape = [N, D]) (hN : 0 < N) {i : Nat}
    (hi : i ∈ freeMats m) {s : Sampler} (hs : GoodIBP z u i s) (t : Nat) {w : World}
    (hw : IBPWorld z u x N D X w ∧ IBPKept m lr z u w) : ∃ w', runSpecial wr s i t w = .ok w' ∧
      (IBPWorld z u x N D X w' ∧ IBPKept m lr z u w') ∧ w'.lbda = w.lbda ∧
      (i = u → (w'.mat z) = (w.mat z)) ∧
      (i = z → ∀ l < (w'.mat z).val.dim 1, ∃ n < N, (w'.mat z).val [n, l] = 1) := by
  obtain ⟨hw, hk⟩ := hw
  obtain ⟨L, s1, s2, p1, p2⟩ := hw.facs
  rcases H.free_mem (by decide) hi with rfl | rfl
  · obtain ⟨y, hy⟩ := hw.lbda
    have e := H.runsZ hX hs t hw.data hy
    obtain ⟨L', a1, a2, a3, a4, a5⟩ := C35_aligned_binary_active N D L (w.mat i).val (w.mat u).val (X.transpose [0, 1]) hN s1 s2
      p1 p2 y (wr.prior u) (wr.alpha 0) (wr.ibp t i)
    generalize sample_2d_IBP (w.mat i).val (w.mat u).val (X.transpose [0, 1]) y (wr.prior u) (wr.alpha 0) (wr.ibp t i) = r
      at e a1 a2 a3 a4 a5
    have ez : (((w.setVal i r.1).setVal u r.2).mat i).val = r.1 := by simp [World.setVal, upd, H.ne]
    have eu : (((w.setVal i r.1).setVal u r.2).mat u).val = r.2 := by simp [World.setVal, upd]
    have eo : ∀ j, j ≠ i → j ≠ u → ((w.setVal i r.1).setVal u r.2).mat j = w.mat j := by
      intro j h1 h2; simp [World.setVal, upd, h1, h2]
    refine ⟨_, e, ⟨⟨⟨L', ?_⟩, ?_, ⟨y, hy⟩⟩, ⟨?_, hk.lbda, fun _ _ h => absurd hi h⟩⟩, rfl, fun h => absurd h H.ne, fun _ => ?_⟩
    · rw [ez, eu]; exact ⟨a1, a2, a3, a4⟩
    · rw [eo x H.dataZ H.dataU]; exact hw.data
    · intro j hj
      rw [eo j (fun h => hj (H.mem.mpr (.inl h))) (fun h => hj (H.mem.mpr (.inr h)))]
      exact hk.others j hj
    · rw [ez]
      have : r.1.dim 1 = L' := by simp [Arr.dim, a1]
      rw [this]
      exact a5
  · obtain ⟨R, e, e1, e2, e3⟩ := H.runsU hs t hw.lbda
    have eu : ((w.setVal i R).mat i).val = R := by simp [World.setVal, upd]
    have euf : ((w.setVal i R).mat i).fixed_entries = (w.mat i).fixed_entries := by simp [World.setVal, upd]
    have eo : ∀ j, j ≠ i → (w.setVal i R).mat j = w.mat j := by
      intro j h1; simp [World.setVal, upd, h1]
    refine ⟨_, e, ⟨⟨⟨L, ?_⟩, ?_, hw.lbda⟩, ⟨?_, hk.lbda, ?_⟩⟩, rfl, fun _ => eo z H.ne, fun h => absurd h.symm H.ne⟩
    · rw [eu, eo z H.ne]; exact ⟨s1, e1.trans s2, p1, e2 p2⟩
    · rw [eo x H.dataU]; exact hw.data
    · intro j hj
      rw [eo j (fun h => hj (H.mem.mpr (.inr h)))]
      exact hk.others j hj
    · intro h1 h2 h3
      obtain ⟨k1, k2, k3, k4, k5⟩ := hk.fixed h1 h2 h3
      refine ⟨(eo z H.ne).trans k1, by rw [eu, e1, k2], euf.trans k3, fun idx hidx => ?_, fun h => absurd hi h⟩
      rw [eu, e3 idx (by rw [k3]; exact hidx)]
      exact k4 idx hidx

theorem keeps_lbda (H : IBPMachine wr m lr z u x) {X : Arr Int} {k : Nat} (hk : k ∈ freeLbdas m) {w : World} (y : ℝ)
    (hw : IBPWorld z u x N D X w ∧ IBPKept m lr z u w) :
    IBPWorld z u x N D X { w with lbda := upd w.lbda k (.scalar (.fin y)) } ∧
    IBPKept m lr z u { w with lbda := upd w.lbda k (.scalar (.fin y)) } := by
  obtain ⟨hw, hkept⟩ := hw
  obtain rfl := H.free_lbda hk
  refine ⟨⟨hw.facs, hw.data, y, by simp [upd]⟩, ⟨hkept.others, ?_, hkept.fixed⟩⟩
  intro k' hk'
  have : k' ≠ 0 := fun h => hk' (h ▸ hk)
  simp [upd, this, hkept.lbda k' hk']

theorem clean (H : IBPMachine wr m lr z u x) {X : Arr Int} {w : World} {reset clean : Bool} {fs : List Fac} {b : Bool}
    (hauto : lr.auto_clean = true ∨ lr.auto_reset = true) (hw : IBPWorld z u x N D X w ∧ IBPKept m lr z u w)
    (hr : clean_up_codes (lr.factors.map w.mat) reset clean = .ok (fs, b)) :
    IBPWorld z u x N D X (writeFactors w lr.factors fs) ∧ IBPKept m lr z u (writeFactors w lr.factors fs) := by
  obtain ⟨L, s1, s2, p1, p2⟩ := hw.1.facs
  have hfac : lr.factors.map w.mat = [w.mat z, w.mat u] := by rw [H.factors]; rfl
  have hL : LegalFacs [N, D] L (lr.factors.map w.mat) := by
    intro j f hf
    rw [hfac] at hf
    match j, hf with
    | 0, hf =>
      simp only [List.getElem?_cons_zero, Option.some.injEq] at hf
      subst hf
      exact ⟨s1, p1⟩
    | 1, hf =>
      simp only [List.getElem?_cons_succ, List.getElem?_cons_zero, Option.some.injEq] at hf
      subst hf
      exact ⟨s2, p2⟩
  obtain ⟨h1, L', h2⟩ := hL.clean_up (by rw [hfac]; simp) hr
  obtain ⟨e1, e2⟩ := writeFactors_mat lr.factors w fs H.nodup (by simpa using h1)
  have z1 := h2 0 _ (e1 0 z (by rw [H.factors]; rfl))
  have u1 := h2 1 _ (e1 1 u (by rw [H.factors]; rfl))
  have hx : x ∉ lr.factors := fun h => (H.mem.mp h).elim H.dataZ H.dataU
  refine ⟨⟨⟨L', z1.1, u1.1, z1.2, u1.2⟩, ?_, ?_⟩, ⟨?_, ?_, ?_⟩⟩
  · rw [e2 x hx]; exact hw.1.data
  · rw [writeFactors_lbda]; exact hw.1.lbda
  · intro i hi
    rw [e2 i hi]; exact hw.2.others i hi
  · rw [writeFactors_lbda]; exact hw.2.lbda
  · intro h1 h2
    simp [h1, h2] at hauto

end IBPMachine

/-- every column of the first factor is used by some row -/
def Spec.AllUsed (N : Nat) (Z : Arr Int) : Prop := ∀ l < Z.dim 1, ∃ n < N, Z [n, l] = 1

/-- **C97**: inference in a machine with a single OR-AND-IBP layer, whatever is drawn. Burn-in completes. Let `wl 0` be the
state thereafter and `wm t`, `t < S`, the states when samples are stored. In all of them both factors are binary and have
the same number of columns; in all samples of the first factor every column is used by some row. If no sample has more
than ten columns more than there were after burn-in, inference returns, and the samples stored are these, padded by -1.
If one has more, inference raises ValueError. Data and other matrices and fixed lambdas are unchanged. -/
theorem C97_ibp_infer {wr : SpecialWiring} {m : Mach Sampler LbdaUpdate} {lr : LayerInfo} {z u x N D : Nat}
    (H : IBPMachine wr m lr z u x) {X : Arr Int} (hX : X.shape = [N, D]) (hN : 0 < N)
    (hw : IBPWorld z u x N D X m.world) (hfct : ∀ i s, m.fct i = some s → GoodIBP z u i s)
    (hlfct : ∀ g, m.lfct 0 = some g → get_update_fct none "OR-AND-IBP" 2 = .ok g)
    (S cw bmin : Nat) (eps : ℝ) (bmax : Int) (ps fx : Nat) (ha : CanAnneal m fx) (hcw : 1 ≤ cw) (hps : 1 ≤ ps) :
    ∃ m1 m2 m3 wm wl L0, ∃ L : Nat → Nat, (freeMats m).foldlM (assignFct (specialEnv wr)) m = .ok m1 ∧
      (freeLbdas m).foldlM (assignLfct (specialEnv wr)) m1 = .ok m2 ∧
      burn_in (specialEnv wr) (freeMats m) (freeLbdas m) eps cw bmin bmax ps fx
        (resetIndices (freeMats m) (freeLbdas m) m2) = .ok m3 ∧
      wl 0 = m3.world ∧ Chain (specialEnv wr) m2.fct m2.lfct (freeMats m) (freeLbdas m) m3.clock S wm wl ∧
      ((wl 0).mat z).val.shape = [N, L0] ∧ ((wl 0).mat u).val.shape = [D, L0] ∧
      (∀ t < S, ((wm t).mat z).val.shape = [N, L t] ∧ ((wm t).mat u).val.shape = [D, L t] ∧
        PMArr ((wm t).mat z).val ∧ PMArr ((wm t).mat u).val ∧
        (z ∈ freeMats m → z ∈ wr.perm (m3.clock + t) (freeMats m) → Spec.AllUsed N ((wm t).mat z).val)) ∧
      ((∀ t < S, L t ≤ L0 + 10) → ∃ m', infer (specialEnv wr) S cw eps bmin bmax ps fx m = .ok m' ∧ m'.world = wl S ∧
        IBPWorld z u x N D X m'.world ∧ IBPKept m lr z u m'.world ∧
        (∀ i ∈ freeMats m, ∃ tr, m'.trace i = some tr ∧
          tr.shape = [S, ((wl 0).mat i).val.dim 0, L0 + 10] ∧ PMArr tr ∧
          ∀ t < S, ∀ a < ((wl 0).mat i).val.dim 0, ∀ b,
            tr [t, a, b] = if b < L t then ((wm t).mat i).val [a, b] else -1) ∧
        ∀ k ∈ freeLbdas m, ∃ tr, m'.ltrace k = some tr ∧ tr.len = S ∧
          ∀ t < S, ∃ y, tr.row t = some (.scalar (.fin y)) ∧ (wl (t + 1)).lbda k = .scalar (.fin y)) ∧
      (freeMats m ≠ [] → (∃ t < S, L0 + 10 < L t) →
        infer (specialEnv wr) S cw eps bmin bmax ps fx m = .error .valueError) := by
  have hmem : ∀ i ∈ freeMats m, i = z ∨ i = u := fun i hi => H.free_mem (by decide) hi
  obtain ⟨g, hg, hget, hrun⟩ := H.getUpdate (N := N) (D := D)
  obtain ⟨m1, a1, a2, a3, a4, a5⟩ := assigns_good (specialEnv wr) (GoodIBP z u) (freeMats m) m (by
    intro i hi m' hl ho
    obtain ⟨s, e1, e2⟩ := H.getSampler hl ho (hmem i hi)
    exact ⟨s, _, e1, e2, fun j g h => by cases h⟩) hfct
  have k1 := fold_keeps (fun a i b => assignFct_keeps) a1
  obtain ⟨m2, b1, b2, b3, -⟩ := lassigns_good (specialEnv wr) (· = g) (freeLbdas m)
    (fun k hk => H.free_lbda hk) m1 (fun m' hl => ⟨_, hget m' (hl.trans k1.1.layers), rfl⟩)
    (by
      rw [a5]
      intro g' h'
      have := hlfct g' h'
      rw [hg] at this
      cases this
      rfl)
  have hf : ∀ i ∈ freeMats m, ∃ s, m2.fct i = some s ∧ GoodIBP z u i s := by
    intro i hi
    obtain ⟨s, hs⟩ := Option.ne_none_iff_exists'.mp (a3 i hi)
    exact ⟨s, by rw [b2]; exact hs, a2 i s hs⟩
  have hH : Healthy (specialEnv wr) (freeMats m) (freeLbdas m) m.layers m2.fct m2.lfct
      fun w => IBPWorld z u x N D X w ∧ IBPKept m lr z u w := by
    refine ⟨fun t i hi => H.perm t _ i hi, ?_, ?_, ?_⟩
    · intro i hi
      obtain ⟨s, h1, h2⟩ := hf i hi
      refine ⟨s, h1, fun t w hw => ?_⟩
      obtain ⟨w', e1, e2, e3, -⟩ := H.keeps hX hN hi h2 t hw
      exact ⟨w', e1, e2, fun k => by rw [e3]⟩
    · intro k hk
      obtain ⟨g, h1, rfl⟩ := b3 k hk
      refine ⟨_, h1, fun t w hw => ?_⟩
      obtain ⟨y, e1, -⟩ := hrun hX t hw.1
      obtain rfl := H.free_lbda hk
      refine ⟨_, e1, H.keeps_lbda hk y hw, fun k' => ?_⟩
      obtain ⟨y0, h0⟩ := hw.1.lbda
      by_cases h : k' = 0
      · subst h; simp [upd, h0, LVal.kind]
      · simp [upd, h]
    · intro lr' hlr' reset clean w fs b hauto hI hr
      rw [H.layers, List.mem_singleton] at hlr'
      subst hlr'
      exact H.clean hauto hI hr
  obtain ⟨m3, wm, wl, c1, c2, c3, c4, c5, c6⟩ := infer_padded (specialEnv wr) S cw bmin eps bmax ps fx hcw hps m m1 m2
    H.free_nodup
    (by
      intro i hi
      have : m.layerOf i = some 0 := by rcases hmem i hi with rfl | rfl; exacts [H.layerZ, H.layerU]
      rw [H.modelOf_eq this]) a1 b1 _
    ⟨hw, ⟨fun _ _ => rfl, fun _ _ => rfl, fun _ _ _ => ⟨rfl, rfl, rfl, fun _ _ => rfl, fun _ => rfl⟩⟩⟩ hH
    (by
      refine ha.imp_right fun ⟨h1, h2⟩ => ⟨h1, fun k hk => ?_, fun i hi f hfi t w w' hI hr => ?_, fun w k y hk hI => ?_⟩
      · obtain rfl := H.free_lbda hk
        exact h2
      · obtain ⟨s, e1, e2⟩ := hf i hi
        rw [e1] at hfi
        cases hfi
        obtain ⟨w1, e1, -, e3, -⟩ := H.keeps hX hN hi e2 t hI
        have : (specialEnv wr).runMat f i t w = .ok w1 := e1
        rw [this] at hr
        cases hr
        exact e3
      · exact H.keeps_lbda hk y hI)
  -- the columns
  obtain ⟨L0, l1, l2, l3, l4⟩ := (c4 0 (by omega)).1.1.facs
  have hL : ∀ t, ∃ L, t < S → ((wm t).mat z).val.shape = [N, L] ∧ ((wm t).mat u).val.shape = [D, L] ∧
      PMArr ((wm t).mat z).val ∧ PMArr ((wm t).mat u).val := by
    intro t
    by_cases ht : t < S
    · obtain ⟨L, h⟩ := ((c4 t (by omega)).2 ht).1.facs
      exact ⟨L, fun _ => h⟩
    · exact ⟨0, fun h => absurd h ht⟩
  obtain ⟨L, hL⟩ := Classical.axiom_of_choice hL
  -- every column is used
  have used : ∀ (t : Nat) (xs : List Nat) (w w' : World), (∀ i ∈ xs, i ∈ freeMats m) →
      (IBPWorld z u x N D X w ∧ IBPKept m lr z u w) → callsM (specialEnv wr) m2.fct t xs w = .ok w' →
      (Spec.AllUsed N (w.mat z).val ∨ z ∈ xs) → Spec.AllUsed N (w'.mat z).val := by
    intro t xs
    induction xs with
    | nil =>
      intro w w' _ _ hc hu
      cases hc
      rcases hu with h | h
      · exact h
      · cases h
    | cons i xs ih =>
      intro w w' hsub hI hc hu
      obtain ⟨s, h1, h2⟩ := hf i (hsub i (by simp))
      obtain ⟨w1, e1, e2, -, e4, e5⟩ := H.keeps hX hN (hsub i (by simp)) h2 t hI
      rw [callsM, List.foldlM_cons, h1] at hc
      have e1' : (specialEnv wr).runMat s i t w = .ok w1 := e1
      simp only [e1'] at hc
      refine ih w1 w' (fun j hj => hsub j (by simp [hj])) e2 hc ?_
      rcases hmem i (hsub i (by simp)) with rfl | rfl
      · exact .inl (e5 rfl)
      · rcases hu with h | h
        · exact .inl (by rw [e4 rfl]; exact h)
        · rcases List.mem_cons.mp h with h | h
          · exact absurd h H.ne
          · exact .inr h
  have hdim : ∀ t < S, ∀ i ∈ freeMats m, ((wm t).mat i).val.dim 0 = ((wl 0).mat i).val.dim 0 ∧
      ((wm t).mat i).val.dim 1 = L t ∧ ((wl 0).mat i).val.dim 1 = L0 ∧ PMArr ((wm t).mat i).val ∧
      ((wm t).mat i).val.shape = [((wl 0).mat i).val.dim 0, L t] := by
    intro t ht i hi
    obtain ⟨h1, h2, h3, h4⟩ := hL t ht
    rcases hmem i hi with rfl | rfl
    · simp [Arr.dim, h1, l1, h3]
    · simp [Arr.dim, h2, l2, h4]
  have hfits : ∀ t < S, (L t ≤ L0 + 10 → Fits (freeMats m) (fun i => ((wl 0).mat i).val.dim 0)
      (fun i => ((wl 0).mat i).val.dim 1 + 10) (wm t)) := by
    intro t ht hle i hi
    obtain ⟨h1, h2, h3, -⟩ := hdim t ht i hi
    simp only
    rw [h1, h2, h3]
    exact ⟨le_rfl, hle⟩
  refine ⟨m1, m2, m3, wm, wl, L0, L, a1, b1, c1, c2, c3, l1, l2, fun t ht => ?_, fun hle => ?_, fun hne ⟨t, ht, hlt⟩ => ?_⟩
  · obtain ⟨h1, h2, h3, h4⟩ := hL t ht
    refine ⟨h1, h2, h3, h4, fun hz hp => ?_⟩
    have hs : callsM (specialEnv wr) m2.fct (m3.clock + t) (wr.perm (m3.clock + t) (freeMats m)) (wl t) = .ok (wm t) :=
      c3.mats t ht
    exact used _ _ _ _ (fun i hi => H.perm _ _ i hi) (c4 t (by omega)).1 hs (.inr hp)
  · obtain ⟨m', d1, d2, d3, d4⟩ := c5 fun t ht => hfits t ht (hle t ht)
    have hI := (c4 S le_rfl).1
    rw [← d2] at hI
    refine ⟨m', d1, d2, hI.1, hI.2, fun i hi => ?_, fun k hk => ?_⟩
    · obtain ⟨tr, t1, t2, t3⟩ := d3 i hi
      have h0 : ((wl 0).mat i).val.dim 1 = L0 := by
        rcases hmem i hi with rfl | rfl
        · simp [Arr.dim, l1]
        · simp [Arr.dim, l2]
      rw [h0] at t2
      have hentry : ∀ t < S, ∀ a < ((wl 0).mat i).val.dim 0, ∀ b,
          tr [t, a, b] = if b < L t then ((wm t).mat i).val [a, b] else -1 := by
        intro t ht a ha b
        obtain ⟨h1, h2, -⟩ := hdim t ht i hi
        rw [t3 t ht a b, h1, h2]
        simp [ha]
      refine ⟨tr, t1, t2, ?_, hentry⟩
      intro idx hidx
      rw [t2] at hidx
      match idx, hidx with
      | [t, a, b], hidx =>
        simp only [InB, and_true] at hidx
        rw [hentry t hidx.1 a hidx.2.1 b]
        split
        · rename_i hb
          obtain ⟨-, -, -, hp, hsh⟩ := hdim t hidx.1 i hi
          exact hp _ (by rw [hsh]; exact ⟨hidx.2.1, hb, trivial⟩)
        · exact Or.inr rfl
    · obtain ⟨tr, t1, t2, t3⟩ := d4 k hk
      obtain rfl := H.free_lbda hk
      obtain ⟨y0, h0⟩ := (c4 0 (by omega)).1.1.lbda
      refine ⟨tr, t1, t2, fun t ht => ?_⟩
      obtain ⟨y, hy⟩ := (c4 (t + 1) (by omega)).1.1.lbda
      exact ⟨y, by rw [t3 t ht (by rw [hy, h0]; rfl), hy], hy⟩
  · refine c6 ⟨t, ht, fun hfit => ?_⟩
    obtain ⟨i, hi⟩ := List.exists_mem_of_ne_nil _ hne
    obtain ⟨-, h2, h3, -⟩ := hdim t ht i hi
    have := (hfit i hi).2
    simp only at this
    rw [h2, h3] at this
    omega


/-! ## The trace overflows for some draws -/

/-- some draw makes the number of new columns two -/
theorem np_choice_two (lbda q alpha : ℝ) (N L TN FN : Nat) (hN : 0 < N) (ha : 0 < alpha) (q0 : 0 < q) (q1 : q < 1) :
    ∃ v, 0 ≤ v ∧ v < 1 ∧ np_choice (ibp_p_L_new lbda q alpha N L TN FN) v = 2 := by
  obtain ⟨hpos, heq, hp⟩ := C36_new_columns lbda q alpha N L TN FN hN ha q0 q1
  have hs := hp.2
  rw [heq] at hs ⊢
  have hn : ∀ k, 0 < normalised3 (newColumnWeight lbda q alpha N L TN FN) k := by
    intro k
    have h0 := hpos 0
    have h1 := hpos 1
    have h2 := hpos 2
    have hk := hpos k
    unfold normalised3
    positivity
  generalize normalised3 (newColumnWeight lbda q alpha N L TN FN) = p at hn hs
  have h0 := hn 0
  have h1 := hn 1
  have h2 := hn 2
  simp only [List.range_succ, List.range_zero, List.map_nil, List.map_cons, List.nil_append, List.cons_append, List.sum_cons,
    List.sum_nil, add_zero] at hs
  refine ⟨p 0 + p 1, by linarith, by linarith, ?_⟩
  have e : ∀ v : ℝ, v / (p 0 + (p 1 + p 2)) = v := by intro v; rw [hs, div_one]
  have c0 : p 0 ≤ p 0 + p 1 := by linarith
  have c2 : ¬ (p 0 + (p 1 + p 2) ≤ p 0 + p 1) := by linarith
  simp [np_choice, List.range_succ, e, h1.le, not_le.mpr h2]

/-- columns of the first factor that one of the first `n` rows uses -/
def usedBefore (n : Nat) (s : Arr Int × Arr Int × Nat) : Nat :=
  (List.range s.2.2).countP fun l => decide (∃ n' < n, s.1 [n', l] = 1)

/-- two new columns in row `n` -/
theorem ibp_row_two {N D : Nat} {s : Arr Int × Arr Int × Nat} (h : IBPInv N D s) (X : Arr Int) (lbda q alpha : ℝ)
    (hN : 0 < N) (ha : 0 < alpha) (q0 : 0 < q) (q1 : q < 1) (fz : Nat → Nat → ℝ) (fu : Nat → Nat → Nat → ℝ) (n : Nat)
    (hn : n < N) :
    ∃ v, 0 ≤ v ∧ v < 1 ∧ ∀ new : Nat → ℝ, new n = v →
      usedBefore n s + 2 ≤ usedBefore (n + 1) (ibp_row X lbda q alpha N D ⟨fz, new, fu⟩ n s) := by
  obtain ⟨Z, U, L⟩ := s
  obtain ⟨hZ, hU, pZ, pU⟩ := h
  simp only at hZ hU pZ pU
  obtain ⟨e1, e2, e3, e4⟩ := existing_spec (N := N) (L := L) Z U X lbda n (fz n)
  generalize hr : ibp_existing Z U X lbda n N L (fz n) = r at e1 e2 e3 e4
  have pr : PMArr r.1 := by
    intro idx hidx
    rw [e1] at hidx
    exact e3 idx (pZ idx hidx)
  obtain ⟨f1, f2⟩ := maskCols_pm (mask := r.2) (e1.trans hZ) pr
  obtain ⟨g1, g2⟩ := maskCols_pm (mask := r.2) hU pU
  rw [e4] at f1 g1
  have hcount : (List.range L).countP (fun l => r.2 [l]) = (keptCols Z n L).length := by
    rw [List.countP_eq_length_filter, e4]
  obtain ⟨v, v0, v1, hv⟩ := np_choice_two lbda q alpha N (keptCols Z n L).length
    (ibp_negatives (r.1.maskCols r.2) (U.maskCols r.2) X n).1
    (ibp_negatives (r.1.maskCols r.2) (U.maskCols r.2) X n).2 hN ha q0 q1
  refine ⟨v, v0, v1, fun new hnew => ?_⟩
  obtain ⟨a1, a2, a3, a4, a5, a6, a7⟩ := ibp_add_spec _ _ X lbda n 2 (fu n) f1 g1 f2 g2
  have hrow : ibp_row X lbda q alpha N D ⟨fz, new, fu⟩ n (Z, U, L) =
      ((ibp_add (r.1.maskCols r.2) (U.maskCols r.2) X lbda n D (keptCols Z n L).length 2 (fu n)).1,
       (ibp_add (r.1.maskCols r.2) (U.maskCols r.2) X lbda n D (keptCols Z n L).length 2 (fu n)).2,
       (keptCols Z n L).length + 2) := by
    simp only [ibp_row, hr, hcount, hnew, hv]
  rw [hrow]
  simp only [usedBefore]
  generalize (ibp_add (r.1.maskCols r.2) (U.maskCols r.2) X lbda n D (keptCols Z n L).length 2 (fu n)).1 = Z' at a5 a6
  rw [List.range_add, List.countP_append]
  have c2 : List.countP (fun l => decide (∃ n' < n + 1, Z' [n', l] = 1))
      ((List.range 2).map ((keptCols Z n L).length + ·)) = 2 := by
    rw [List.countP_eq_length.2]
    · simp
    · intro l hl
      simp only [List.mem_map, List.mem_range] at hl
      obtain ⟨j, hj, rfl⟩ := hl
      rw [decide_eq_true_eq]
      exact ⟨n, by omega, a6 _ (by omega) (by omega)⟩
  rw [c2]
  have hd : r.1.dim 1 = L := by simp [Arr.dim, e1, hZ]
  -- the kept columns
  have c1 : List.countP (fun l => decide (∃ n' < n, Z [n', l] = 1)) (List.range L) =
      (keptCols Z n L).countP fun l => decide (∃ n' < n, Z [n', l] = 1) := by
    rw [keptCols, List.countP_filter]
    apply List.countP_congr
    intro l hl
    simp only [Bool.and_eq_true, decide_eq_true_eq, iff_self_and]
    rintro ⟨n', h1, h2⟩
    simp only [ibp_m, List.countP_pos_iff, List.mem_range, decide_eq_true_eq]
    exact ⟨n', by simp [Arr.dim, hZ]; omega, by omega, h2⟩
  have c3 : (keptCols Z n L) = (List.range (keptCols Z n L).length).map fun l => (keptCols Z n L).getD l 0 := by
    apply List.ext_getElem
    · simp
    · intro i h1 h2
      simp [h1]
  rw [c1]
  conv_lhs => rw [c3]
  rw [List.countP_map]
  refine Nat.add_le_add_right (List.countP_mono_left ?_) 2
  intro l hl
  simp only [List.mem_range] at hl
  simp only [Function.comp, decide_eq_true_eq]
  rintro ⟨n', h1, h2⟩
  refine ⟨n', by omega, ?_⟩
  rw [a5 n' l hl]
  simp only [Arr.maskCols, hd, e4, List.getD_cons_zero, List.getD_cons_succ]
  rw [e2 n' _ (by omega)]
  exact h2

theorem ibp_row_congr (X : Arr Int) (lbda q alpha : ℝ) (N D : Nat) (fz : Nat → Nat → ℝ) (fu : Nat → Nat → Nat → ℝ)
    (new new' : Nat → ℝ) (n : Nat) (h : new n = new' n) (s : Arr Int × Arr Int × Nat) :
    ibp_row X lbda q alpha N D ⟨fz, new, fu⟩ n s = ibp_row X lbda q alpha N D ⟨fz, new', fu⟩ n s := by
  simp only [ibp_row, h]

/-- **C97** (growth): for some draws in `[0, 1)` one update of the first factor of `N` rows leaves at least `2 N` columns -/
theorem C97_growth (N D L : Nat) (Z U X : Arr Int) (hN : 0 < N) (hZ : Z.shape = [N, L]) (hU : U.shape = [D, L])
    (pZ : PMArr Z) (pU : PMArr U) (lbda q alpha : ℝ) (ha : 0 < alpha) (q0 : 0 < q) (q1 : q < 1)
    (fz : Nat → Nat → ℝ) (fu : Nat → Nat → Nat → ℝ) :
    ∃ new : Nat → ℝ, (∀ n, 0 ≤ new n ∧ new n < 1) ∧ 2 * N ≤ (sample_2d_IBP Z U X lbda q alpha ⟨fz, new, fu⟩).1.dim 1 := by
  have h0 : Z.dim 0 = N := by simp [Arr.dim, hZ]
  have h1 : Z.dim 1 = L := by simp [Arr.dim, hZ]
  have h2 : U.dim 0 = D := by simp [Arr.dim, hU]
  have key : ∀ n ≤ N, ∃ new : Nat → ℝ, (∀ n, 0 ≤ new n ∧ new n < 1) ∧ 2 * n ≤ usedBefore n
      ((List.range n).foldl (fun s n => ibp_row X lbda q alpha N D ⟨fz, new, fu⟩ n s) (Z, U, L)) := by
    intro n
    induction n with
    | zero => exact fun _ => ⟨fun _ => 0, fun _ => ⟨le_rfl, one_pos⟩, by omega⟩
    | succ n ih =>
      intro hn
      obtain ⟨new, hb, hc⟩ := ih (by omega)
      have hinv := ibp_foldl_inv (N := N) (D := D) X lbda q alpha ⟨fz, new, fu⟩ (List.range n)
        (fun n' hn' => by have := List.mem_range.1 hn'; omega) (Z, U, L) ⟨hZ, hU, pZ, pU⟩
      obtain ⟨v, v0, v1, hv⟩ := ibp_row_two hinv X lbda q alpha hN ha q0 q1 fz fu n (by omega)
      refine ⟨Function.update new n v, fun n' => ?_, ?_⟩
      · by_cases h : n' = n
        · subst h; simp [v0, v1]
        · simp [h, hb n']
      · have e : (List.range n).foldl (fun s n' => ibp_row X lbda q alpha N D ⟨fz, Function.update new n v, fu⟩ n' s) (Z, U, L) =
            (List.range n).foldl (fun s n' => ibp_row X lbda q alpha N D ⟨fz, new, fu⟩ n' s) (Z, U, L) := by
          apply List.foldl_ext
          intro s n' hn'
          have := List.mem_range.1 hn'
          exact ibp_row_congr _ _ _ _ _ _ _ _ _ _ _ (by simp [show n' ≠ n by omega]) _
        rw [List.range_succ, List.foldl_append, e]
        have := hv (Function.update new n v) (by simp)
        simp only [List.foldl_cons, List.foldl_nil]
        omega
  obtain ⟨new, hb, hc⟩ := key N le_rfl
  refine ⟨new, hb, ?_⟩
  have hinv := ibp_foldl_inv (N := N) (D := D) X lbda q alpha ⟨fz, new, fu⟩ (List.range N)
    (fun n' hn' => List.mem_range.1 hn') (Z, U, L) ⟨hZ, hU, pZ, pU⟩
  rw [sample_2d_IBP_eq, h0, h1, h2]
  generalize (List.range N).foldl (fun s n => ibp_row X lbda q alpha N D ⟨fz, new, fu⟩ n s) (Z, U, L) = s at hc hinv
  have hd : s.1.dim 1 = s.2.2 := by simp [Arr.dim, hinv.hZ]
  show 2 * N ≤ s.1.dim 1
  rw [hd]
  refine hc.trans ?_
  have := List.countP_le_length (p := fun l => decide (∃ n' < N, s.1 [n', l] = 1)) (l := List.range s.2.2)
  rw [List.length_range] at this
  exact this

/-- no burn-in: `burn_in_min = burn_in_max = 0` leaves the state as it is if nothing is to be reset -/
theorem burn_in_none {F G : Type} {env : Env F G} {mats lbdas : List Nat} {eps : ℝ} {cw ps fx : Nat} {m m3 : Mach F G}
    (hcw : 2 ≤ cw) (hps : 1 ≤ ps) (hr : ∀ lr ∈ m.layers, lr.auto_reset = false)
    (h : burn_in env mats lbdas eps cw 0 0 ps fx m = .ok m3) : m3.world = m.world ∧ m3.clock = m.clock := by
  have hfin : ∀ (ls : List LayerInfo) (m : Mach F G), (∀ lr ∈ ls, lr.auto_reset = false) → finalClean ls m = .ok m := by
    intro ls
    induction ls with
    | nil => intro m _; rfl
    | cons a ls ih =>
      intro m hl
      rw [finalClean, if_neg (by simp [hl a (by simp)])]
      exact ih m fun lr hlr => hl lr (by simp [hlr])
  rw [burn_in, preLoop] at h
  change mainLoop env mats lbdas eps cw 0 ps 0 1 (allocLbdas (env.junk 0) cw lbdas m) = .ok m3 at h
  rw [mainLoop_eq (by omega) (by omega), windowTurn, if_neg (by rw [Nat.mod_eq_of_lt (by omega)]; omega)] at h
  have h : stopStep lbdas 1 (allocLbdas (env.junk 0) cw lbdas m) = .ok m3 := h
  rw [stopStep] at h
  change (finalClean m.layers _ >>= _) = _ at h
  rw [hfin _ _ hr] at h
  have h := Except.ok.inj h
  rw [← h]
  exact ⟨rfl, rfl⟩

/-- choosing update functions is no sweep -/
theorem assigns_clock {F G : Type} {env : Env F G} {xs ys : List Nat} {m m1 m2 : Mach F G}
    (h1 : xs.foldlM (assignFct env) m = .ok m1) (h2 : ys.foldlM (assignLfct env) m1 = .ok m2) : m2.clock = m.clock := by
  have k1 : m1.clock = m.clock := by
    refine foldlM_rel (R := fun a b : Mach F G => b.clock = a.clock) (fun _ => rfl) (fun _ _ _ h1 h2 => h2.trans h1) _ _ ?_ _ _ h1
    intro a i _ b h
    rw [assignFct] at h
    split at h
    · cases h; rfl
    · rw [bind_ok] at h
      obtain ⟨⟨f, extra⟩, -, h⟩ := h
      cases extra <;> (rw [← pure_ok.mp h])
  rw [← k1]
  refine foldlM_rel (R := fun a b : Mach F G => b.clock = a.clock) (fun _ => rfl) (fun _ _ _ h1 h2 => h2.trans h1) _ _ ?_ _ _ h2
  intro a i _ b h
  rw [assignLfct] at h
  split at h
  · cases h; rfl
  · rw [bind_ok] at h
    obtain ⟨g, -, h⟩ := h
    rw [← pure_ok.mp h]

/-- **C97** (the claim that inference returns is false): if there are more than `L / 2 + 5` rows, there are draws in `[0, 1)`
for which inference raises ValueError: the trace has room for ten more columns, while one sweep can add two columns per row.
(Stated for runs without burn-in in which the first factor is sampled first.) -/
theorem C97_overflows {wr : SpecialWiring} {m : Mach Sampler LbdaUpdate} {lr : LayerInfo} {z u x N D L : Nat}
    (H : IBPMachine wr m lr z u x) {X : Arr Int} (hX : X.shape = [N, D]) (hN : L + 10 < 2 * N)
    (hw : IBPWorld z u x N D X m.world) (hL : (m.world.mat z).val.shape = [N, L])
    (hfct : ∀ i s, m.fct i = some s → GoodIBP z u i s)
    (hlfct : ∀ g, m.lfct 0 = some g → get_update_fct none "OR-AND-IBP" 2 = .ok g)
    (hz : m.fixed z = false) (hr : lr.auto_reset = false) (hperm : wr.perm m.clock (freeMats m) = freeMats m)
    (S cw : Nat) (eps : ℝ) (ps fx : Nat) (ha : CanAnneal m fx) (hcw : 2 ≤ cw) (hps : 1 ≤ ps) (hS : 1 ≤ S) :
    ∃ ibp : Nat → Nat → IBPDraws, (∀ t i n, 0 ≤ (ibp t i).new n ∧ (ibp t i).new n < 1) ∧
      infer (specialEnv { wr with ibp := ibp }) S cw eps 0 0 ps fx m = .error .valueError := by
  obtain ⟨L', s1, s2, p1, p2⟩ := hw.facs
  rw [hL] at s1
  cases s1
  obtain ⟨y, hy⟩ := hw.lbda
  obtain ⟨new, hb, hg⟩ := C97_growth N D L (m.world.mat z).val (m.world.mat u).val (X.transpose [0, 1]) (by omega) hL s2
    p1 p2 y (wr.prior u) (wr.alpha 0) H.alpha H.prior.1 H.prior.2 (fun _ _ => 0) (fun _ _ _ => 0)
  refine ⟨fun _ _ => ⟨fun _ _ => 0, new, fun _ _ _ => 0⟩, fun _ _ => hb, ?_⟩
  obtain ⟨wr', hwr'⟩ : ∃ wr' : SpecialWiring, wr' = { wr with ibp := fun _ _ => ⟨fun _ _ => 0, new, fun _ _ _ => 0⟩ } := ⟨_, rfl⟩
  rw [← hwr']
  have H' : IBPMachine wr' m lr z u x := by
    rw [hwr']
    exact ⟨⟨H.layers, H.model, H.factors, H.ne, H.wrLayers, H.wrLayerOf, H.axisZ, H.axisU, H.layerZ, H.layerU, H.parentsZ,
      H.parentsU, H.child, H.dataZ, H.dataU, H.matrices, H.perm⟩, H.alpha, H.prior, H.beta⟩
  obtain ⟨m1, m2, m3, wm, wl, L0, Ls, c1, c2, c3, c4, c5, c6, c7, c8, -, c10⟩ := C97_ibp_infer H' hX (by omega) hw hfct hlfct
    S cw 0 eps 0 ps fx ha (by omega) hps
  have k1 := fold_keeps (fun a i b => assignFct_keeps) c1
  have k2 := fold_keeps (fun a i b => assignLfct_keeps) c2
  obtain ⟨e1, e2⟩ := burn_in_none hcw hps (by
    intro lr' hlr'
    have : (resetIndices (freeMats m) (freeLbdas m) m2).layers = m.layers := (k1.1.trans k2.1).layers
    rw [this, H.layers, List.mem_singleton] at hlr'
    rw [hlr']; exact hr) c3
  have w0 : wl 0 = m.world := by
    rw [c4, e1]; show m2.world = _; rw [k2.2, k1.2]
  have t0 : m3.clock = m.clock := by
    rw [e2]; show m2.clock = _; exact assigns_clock c1 c2
  have hfree : freeMats m = z :: [u].filter fun i => !m.fixed i := by
    rw [H.free_eq (by decide)]; simp [hz]
  have hL0 : L0 = L := by
    rw [w0, hL] at c6
    simpa using c6.symm
  refine c10 (by rw [hfree]; simp) ⟨0, hS, ?_⟩
  have hs : callsM (specialEnv wr') m2.fct (m3.clock + 0) (wr'.perm (m3.clock + 0) (freeMats m)) (wl 0) = .ok (wm 0) :=
    c5.mats 0 hS
  have hp' : wr'.perm = wr.perm := by rw [hwr']
  rw [hp', Nat.add_zero, t0, hperm, w0] at hs
  -- the functions
  obtain ⟨n1, a1, a2, a3, -⟩ := assigns_good (specialEnv wr') (GoodIBP z u) (freeMats m) m (by
    intro i hi m' hl ho
    obtain ⟨s, e1, e2⟩ := H'.getSampler hl ho (H.free_mem (by decide) hi)
    exact ⟨s, _, e1, e2, fun j g h => by cases h⟩) hfct
  rw [c1] at a1
  cases a1
  have hf2 : m2.fct = m1.fct := by
    obtain ⟨g, hg, hget, -⟩ := H'.getUpdate (N := N) (D := D)
    obtain ⟨n2, b1, b2, -⟩ := lassigns_good (specialEnv wr') (fun _ => True) (freeLbdas m)
      (fun k hk => H.free_lbda hk) m1 (fun m' hl => ⟨_, hget m' (hl.trans k1.1.layers), trivial⟩) (fun _ _ => trivial)
    rw [c2] at b1
    cases b1
    exact b2
  have hzf : z ∈ freeMats m := by rw [hfree]; simp
  obtain ⟨s, hsz⟩ := Option.ne_none_iff_exists'.mp (a3 z hzf)
  have hrunz := H'.runsZ hX (a2 z s hsz) m.clock hw.data hy
  have hq : wr'.prior = wr.prior ∧ wr'.alpha = wr.alpha ∧ wr'.ibp m.clock z = ⟨fun _ _ => 0, new, fun _ _ _ => 0⟩ := by
    rw [hwr']; exact ⟨rfl, rfl, rfl⟩
  rw [hq.1, hq.2.1, hq.2.2] at hrunz
  generalize sample_2d_IBP (m.world.mat z).val (m.world.mat u).val (X.transpose [0, 1]) y (wr.prior u) (wr.alpha 0)
    ⟨fun _ _ => 0, new, fun _ _ _ => 0⟩ = r at hrunz hg
  rw [hfree, callsM, List.foldlM_cons, hf2, hsz] at hs
  have hrunz' : (specialEnv wr').runMat s z m.clock m.world = .ok ((m.world.setVal z r.1).setVal u r.2) := hrunz
  simp only [hrunz'] at hs
  have hz1 : (((m.world.setVal z r.1).setVal u r.2).mat z).val = r.1 := by simp [World.setVal, upd, H.ne]
  have hl1 : ∃ y, ((m.world.setVal z r.1).setVal u r.2).lbda 0 = .scalar (.fin y) := ⟨y, hy⟩
  have hcols : ((wm 0).mat z).val = r.1 := by
    generalize (m.world.setVal z r.1).setVal u r.2 = w1 at hs hz1 hl1
    change callsM (specialEnv wr') m1.fct m.clock ([u].filter fun i => !m.fixed i) w1 = _ at hs
    by_cases hu : m.fixed u = true
    · simp only [hu, Bool.not_true, List.filter_cons, Bool.false_eq_true, if_false, List.filter_nil] at hs
      cases hs
      exact hz1
    · simp only [hu, List.filter_cons, List.filter_nil, Bool.not_eq_true'] at hs
      have huf : u ∈ freeMats m := by rw [hfree]; simp [hu]
      obtain ⟨s', hsu⟩ := Option.ne_none_iff_exists'.mp (a3 u huf)
      obtain ⟨R, hR, -⟩ := H'.runsU (a2 u s' hsu) m.clock hl1
      have hR' : (specialEnv wr').runMat s' u m.clock w1 = .ok (w1.setVal u R) := hR
      simp only [Bool.not_eq_true] at hu
      simp only [if_true, callsM, List.foldlM_cons, hsu, hR', List.foldlM_nil] at hs
      have hs := Except.ok.inj hs
      rw [← hs]
      simp [World.setVal, upd, H.ne, hz1]
  have := (c8 0 hS).1
  rw [hcols] at this
  have hd : r.1.dim 1 = Ls 0 := by simp [Arr.dim, this]
  omega

/-! ## The hypotheses are met -/

/-- an OR-AND-IBP layer -/
def layerIBP (auto_clean auto_reset : Bool) : LayerInfo := ⟨[0, 1], "OR-AND-IBP", none, auto_clean, auto_reset⟩

/-- a fresh layer with `L` latent dimensions on `N x 2` data, with all entries of factor 0 and none of factor 1 set -/
noncomputable def worldIBP (N L : Nat) : World where
  mat i := if i = 0 then ⟨Arr.full [N, L] 1, Arr.full [N, L] 0⟩
    else if i = 1 then ⟨Arr.full [2, L] (-1), Arr.full [2, L] 0⟩
    else ⟨Arr.full [N, 2] 1, Arr.full [N, 2] 0⟩
  lbda _ := .scalar (.fin (1 / 20))

/-- attributes of this machine -/
noncomputable def wiringIBP (ac ar : Bool) (rnd : Nat → Nat → Rnd) (perm : Nat → List Nat → List Nat)
    (ibp : Nat → Nat → IBPDraws) : SpecialWiring where
  toWiring := { wiring2 ac ar rnd perm with
    layers := [layerIBP ac ar] }
  gamma _ := 1
  alpha _ := 3
  prior _ := 1 / 2
  argsort _ := []
  ibp := ibp

/-- this machine before inference -/
noncomputable def machIBP (N L : Nat) (ac ar : Bool) (fixed : List Nat) (anneal : Bool) : Mach Sampler LbdaUpdate :=
  { mach2 ac ar fixed with
    layers := [layerIBP ac ar]
    anneal := anneal
    world := worldIBP N L }

/-- the hypotheses of `C97_ibp_infer` hold for this machine, whatever is drawn, with and without annealing -/
theorem C97_hypotheses_met (N L : Nat) (ac ar : Bool) (fixed : List Nat) (anneal : Bool) (rnd : Nat → Nat → Rnd)
    (perm : Nat → List Nat → List Nat) (ibp : Nat → Nat → IBPDraws) (hp : ∀ t l, ∀ i ∈ perm t l, i ∈ l) :
    IBPMachine (wiringIBP ac ar rnd perm ibp) (machIBP N L ac ar fixed anneal) (layerIBP ac ar) 0 1 2 ∧
    IBPWorld 0 1 2 N 2 (Arr.full [N, 2] 1) (machIBP N L ac ar fixed anneal).world ∧
    ((machIBP N L ac ar fixed anneal).world.mat 0).val.shape = [N, L] ∧
    CanAnneal (machIBP N L ac ar fixed anneal) 0 ∧ freeMats (machIBP N L ac ar [] anneal) = [0, 1] ∧
    freeMats (machIBP N L ac ar [1] anneal) = [0] ∧ freeLbdas (machIBP N L ac ar fixed anneal) = [0] := by
  refine ⟨⟨⟨rfl, rfl, rfl, by decide, rfl, rfl, rfl, rfl, rfl, rfl, rfl, rfl, rfl, by decide, by decide, ?_, hp⟩, ?_, ?_, ?_⟩,
    ⟨⟨L, rfl, rfl, fun _ _ => .inl rfl, fun _ _ => .inr rfl⟩, rfl, _, rfl⟩, rfl, .inr ⟨rfl, 1 / 20, by norm_num, rfl⟩,
    rfl, rfl, rfl⟩
  · intro i hi
    simp only [machIBP, mach2, List.mem_singleton] at hi
    simp [machIBP, mach2, hi]
  · simp [wiringIBP]
  · constructor <;> norm_num [wiringIBP]
  · simp [wiringIBP, wiring2]

/-- with six rows and one column, a single sample can overflow the trace -/
theorem C97_wrong (rnd : Nat → Nat → Rnd) (eps : ℝ) : ∃ ibp : Nat → Nat → IBPDraws,
    (∀ t i n, 0 ≤ (ibp t i).new n ∧ (ibp t i).new n < 1) ∧
    infer (specialEnv (wiringIBP false false rnd (fun _ l => l) ibp)) 1 2 eps 0 0 1 0 (machIBP 6 1 false false [] true) =
      .error .valueError := by
  obtain ⟨h1, h2, h3, h4, -⟩ := C97_hypotheses_met 6 1 false false [] true rnd (fun _ l => l)
    (fun _ _ => ⟨fun _ _ => 0, fun _ => 0, fun _ _ _ => 0⟩) (fun _ _ i hi => hi)
  exact C97_overflows h1 rfl (by norm_num) h2 h3 (fun i s h => by cases h) (fun g h => by cases h) rfl rfl rfl 1 2 eps 1 0 h4
    le_rfl le_rfl le_rfl

end LFM
