import Verif.Lemmas.BesideFlip
import Verif.Props.Assemble

/-!
# C124: what is added to a machine without connection to the rest
-/

namespace LFM

open Spec

/-- **C124**: let a machine be extended by matrices and layers that are not connected to what was there before, and let the draws
for the old part be the same. If the two calls of inference make the same number of sweeps, matrices and lambdas of the old
part end up the same, and so do all their samples. The settings of burn-in may differ otherwise; `no_samples` is the same. Not
covered: annealing, `fix_lbda_iters`, automatic clean-up. The claim without the condition on sweeps is false
(`C124_joint_convergence`). -/
theorem C124_unrelated_partial {s s' : Workshop} (hb : Built s) (hbs : Beside s s') {dr dr' : Draws}
    (D : SameDraws s.next s s' dr dr') (ha : s.m.anneal = false)
    (hoff : ∀ lr ∈ s'.m.layers, lr.auto_clean = false ∧ lr.auto_reset = false)
    (S : Nat) {cw cw' bmin bmin' ps ps' : Nat} {eps eps' : ℝ} {bmax bmax' : Int} {r r' : Workshop}
    (h1 : s.infer S cw eps bmin bmax ps 0 dr = .ok r) (h2 : s'.infer S cw' eps' bmin' bmax' ps' 0 dr' = .ok r')
    (hclock : r'.m.clock = r.m.clock) :
    (∀ i < s.next, r'.m.world.mat i = r.m.world.mat i) ∧
    (∀ k < s.m.layers.length, r'.m.world.lbda k = r.m.world.lbda k) ∧
    (∀ i ∈ freeMats s.m, ∃ tr tr', r.m.trace i = some tr ∧ r'.m.trace i = some tr' ∧ tr'.shape = tr.shape ∧
      ∀ t < S, ∀ idx, tr' (t :: idx) = tr (t :: idx)) ∧
    (∀ k ∈ freeLbdas s.m, ∃ tr tr', r.m.ltrace k = some tr ∧ r'.m.ltrace k = some tr' ∧ tr.len = S ∧ tr'.len = S ∧
      ∀ t < S, tr'.row t = tr.row t ∧ tr.row t ≠ none) := by
  have H := hb.sound
  have H' := (hb.reach hbs.reach).sound
  have P := hbs.samePart
  rw [Workshop.infer, bind_ok] at h1 h2
  obtain ⟨m, h1, e⟩ := h1
  rw [pure_ok] at e
  subst e
  obtain ⟨m', h2, e⟩ := h2
  rw [pure_ok] at e
  subst e
  have hlt : ∀ i ∈ freeMats s.m, i < s.next := fun i hi => by
    obtain ⟨-, h | ⟨k, lr, hk, h⟩⟩ := H.mem_free.mp hi
    · exact (H.matrices i h).1
    · exact SamePart.factor_lt H hk h
  have hkt : ∀ k ∈ freeLbdas s.m, k < s.m.layers.length := fun k hk => List.mem_range.1 (List.mem_filter.1 hk).1
  have hsub : ∀ i ∈ freeMats s.m, i ∈ freeMats s'.m := fun i hi => by
    rw [← P.freeMats_common H H'] at hi
    exact (List.mem_filter.1 hi).1
  have hsubl : ∀ k ∈ freeLbdas s.m, k ∈ freeLbdas s'.m := fun k hk => by
    rw [← P.freeLbdas_common] at hk
    exact (List.mem_filter.1 hk).1
  have p1 : ∀ t, ∀ i ∈ (genericEnv (s.wiring dr)).perm t (freeMats s.m), i ∈ freeMats s.m := fun t i hi => D.mem t _ i hi
  have p2 : ∀ t, ∀ i ∈ (genericEnv (s'.wiring dr')).perm t (freeMats s'.m), i ∈ freeMats s'.m := fun t i hi => D.mem' t _ i hi
  obtain ⟨wm, wl, clock, hC, hw, gm, gl, m1, m2, m3, a1, a2, a3, a4, a5⟩ := C39_traces _ S cw bmin eps bmax ps 0 s.m m H.nodup_free p1 h1
  obtain ⟨wm', wl', clock', hC', hw', gm', gl', m1', m2', m3', b1, b2, b3, b4, b5⟩ :=
    C39_traces _ S cw' bmin' eps' bmax' ps' 0 s'.m m' H'.nodup_free p2 h2
  obtain ⟨n1, n2, c1, c2, efct, elfct⟩ := infer_fcts H.nodup_free p1 h1
  rw [a1] at c1; cases c1
  rw [a2] at c2; cases c2
  obtain ⟨n1', n2', c1, c2, efct', elfct'⟩ := infer_fcts H'.nodup_free p2 h2
  rw [b1] at c1; cases c1
  rw [b2] at c2; cases c2
  have hcl := infer_clock H.nodup_free p1 h1 a1 a2 a3
  have hcl' := infer_clock H'.nodup_free p2 h2 b1 b2 b3
  obtain ⟨f1, f2, f3⟩ := P.assign_agree H H' hlt a1 b1
  obtain ⟨l1, l2, l3⟩ := P.assignL_agree f1 f2 a2 b2
  have q1 : ∀ i < s.next, m2'.fct i = m2.fct i := by
    intro i hi
    have x1 : m2.fct = m1.fct := by rw [l1]
    have x2 : m2'.fct = m1'.fct := by rw [l2]
    rw [x1, x2]
    exact f3 i hi
  have w2 : m2.world = s.m.world := by rw [l1, f1]
  have w2' : m2'.world = s'.m.world := by rw [l2, f2]
  have k2 : m2.clock = s.m.clock := by rw [l1, f1]
  have k2' : m2'.clock = s.m.clock := by rw [l2, f2]; exact P.clock
  have A0 : PartAgree s.next s.m.layers.length s.m.world s'.m.world :=
    ⟨P.mat, P.lbda, fun k hk => by
      obtain ⟨y, hy⟩ := H.world.lbda k hk
      rw [hy]; rfl⟩
  have hoff0 : ∀ lr ∈ s.m.layers, lr.auto_clean = false ∧ lr.auto_reset = false := by
    obtain ⟨ls, e, -⟩ := P.layers
    intro lr hlr
    exact hoff lr (by rw [e]; exact List.mem_append_left _ hlr)
  have sw := (burn_in_sweepwise (m := resetIndices (freeMats s.m) (freeLbdas s.m) m2)
    (J := Swept (genericEnv (s.wiring dr)) m2.fct m2.lfct (freeMats s.m) (freeLbdas s.m) s.m.clock s.m.world)
    (fun t w w1 w2 h g1 g2 => h.step g1 g2)
    (by show m2.anneal = false; rw [l1, f1]; exact ha)
    (by show ∀ lr ∈ m2.layers, _; rw [l1, f1]; exact hoff0)
    (by show Swept _ _ _ _ _ _ _ m2.clock m2.world; rw [w2, k2]; exact .start) a3).1
  have sw' := (burn_in_sweepwise (m := resetIndices (freeMats s'.m) (freeLbdas s'.m) m2')
    (J := Swept (genericEnv (s'.wiring dr')) m2'.fct m2'.lfct (freeMats s'.m) (freeLbdas s'.m) s.m.clock s'.m.world)
    (fun t w w1 w2 h g1 g2 => h.step g1 g2)
    (by show m2'.anneal = false; rw [l2, f2]; exact P.anneal.trans ha)
    (by show ∀ lr ∈ m2'.layers, _; rw [l2, f2]; exact hoff)
    (by show Swept _ _ _ _ _ _ _ m2'.clock m2'.world; rw [w2', k2']; exact .start) b3).1
  have hcc : m3'.clock = m3.clock := by
    have : m'.clock = m.clock := hclock
    omega
  rw [hcc] at sw'
  have A3 := SamePart.swept_agree H P D hlt q1 l3 A0 sw sw'
  rw [efct, elfct] at hC
  rw [efct', elfct'] at hC'
  rw [a5] at hC
  rw [b5, hcc] at hC'
  have key : ∀ t, t ≤ S → PartAgree s.next s.m.layers.length (wl t) (wl' t) := by
    intro t
    induction t with
    | zero => intro _; rw [a4, b4]; exact A3
    | succ t ih =>
      intro ht
      have B := SamePart.sweepM_agree H P D hlt q1 (ih (by omega)) (hC.mats t ht) (hC'.mats t ht)
      exact SamePart.sweepL_agree H P l3 B (hC.lbdas t ht) (hC'.lbdas t ht)
  have keym : ∀ t, t < S → PartAgree s.next s.m.layers.length (wm t) (wm' t) := fun t ht =>
    SamePart.sweepM_agree H P D hlt q1 (key t ht.le) (hC.mats t ht) (hC'.mats t ht)
  have noibp : ∀ {s : Workshop}, s.Sound → ∀ i, modelOf s.m i ≠ some "OR-AND-IBP" := by
    intro s H i hi
    obtain ⟨k, -, hk⟩ := Option.bind_eq_some_iff.1 hi
    obtain ⟨lr, hk, hi⟩ := Option.map_eq_some_iff.1 hk
    obtain ⟨lom, hl⟩ := H.model k lr hk
    rw [hl] at hi
    revert hi
    cases lom <;> decide
  have kS := key S le_rfl
  refine ⟨?_, ?_, ?_, ?_⟩
  · intro i hi
    show m'.world.mat i = m.world.mat i
    rw [hw, hw']; exact kS.mat i hi
  · intro k hk
    show m'.world.lbda k = m.world.lbda k
    rw [hw, hw']; exact kS.lbda k hk
  · intro i hi
    obtain ⟨tr, t1, t2⟩ := gm i hi
    obtain ⟨tr', t1', t2'⟩ := gm' i (hsub i hi)
    refine ⟨tr, tr', t1, t1', ?_⟩
    rcases t2 with ⟨-, t2, t3⟩ | ⟨t2, -⟩ | ⟨-, ⟨j, -, t2⟩, -⟩
    · rcases t2' with ⟨-, t2', t3'⟩ | ⟨t2', -⟩ | ⟨-, ⟨j, -, t2'⟩, -⟩
      · refine ⟨by rw [t2, t2', (key 0 (by omega)).mat i (hlt i hi)], fun t ht idx => ?_⟩
        rw [(t3 t ht).2, (t3' t ht).2, (keym t ht).mat i (hlt i hi)]
      · exact absurd t2' (noibp H' i)
      · exact absurd t2' (noibp H' j)
    · exact absurd t2 (noibp H i)
    · exact absurd t2 (noibp H j)
  · intro k hk
    obtain ⟨tr, t1, t2, t3⟩ := gl k hk
    obtain ⟨tr', t1', t2', t3'⟩ := gl' k (hsubl k hk)
    refine ⟨tr, tr', t1, t1', t2, t2', fun t ht => ?_⟩
    have hkl := hkt k hk
    have K := key (t + 1) ht
    have K0 := key 0 (by omega)
    rw [t3 t ht (by rw [K.kind k hkl, K0.kind k hkl]),
      t3' t ht (by rw [K.lbda k hkl, K0.lbda k hkl, K.kind k hkl, K0.kind k hkl]), K.lbda k hkl]
    exact ⟨rfl, by simp⟩

/-- **C124**, without a condition on the result: with `burn_in_max` at most `burn_in_min` (and the same `burn_in_min`) the number
of sweeps is fixed. -/
theorem C124_fixed_burn_in {s s' : Workshop} (hb : Built s) (hbs : Beside s s') {dr dr' : Draws}
    (D : SameDraws s.next s s' dr dr') (ha : s.m.anneal = false)
    (hoff : ∀ lr ∈ s'.m.layers, lr.auto_clean = false ∧ lr.auto_reset = false)
    (S : Nat) {cw cw' bmin ps ps' : Nat} {eps eps' : ℝ} {bmax bmax' : Int} {r r' : Workshop}
    (hm : bmax ≤ bmin) (hm' : bmax' ≤ bmin)
    (h1 : s.infer S cw eps bmin bmax ps 0 dr = .ok r) (h2 : s'.infer S cw' eps' bmin bmax' ps' 0 dr' = .ok r') :
    (∀ i < s.next, r'.m.world.mat i = r.m.world.mat i) ∧
    (∀ k < s.m.layers.length, r'.m.world.lbda k = r.m.world.lbda k) ∧
    (∀ i ∈ freeMats s.m, ∃ tr tr', r.m.trace i = some tr ∧ r'.m.trace i = some tr' ∧ tr'.shape = tr.shape ∧
      ∀ t < S, ∀ idx, tr' (t :: idx) = tr (t :: idx)) ∧
    (∀ k ∈ freeLbdas s.m, ∃ tr tr', r.m.ltrace k = some tr ∧ r'.m.ltrace k = some tr' ∧ tr.len = S ∧ tr'.len = S ∧
      ∀ t < S, tr'.row t = tr.row t ∧ tr.row t ≠ none) := by
  have H := hb.sound
  have H' := (hb.reach hbs.reach).sound
  refine C124_unrelated_partial hb hbs D ha hoff S h1 h2 ?_
  rw [workshop_clock H (D.mem) hm h1, workshop_clock H' (D.mem') hm' h2, hbs.samePart.clock]

/-! ### The hypotheses are met, and the claim without the condition on sweeps is false -/

/-- `machine.add_layer(shape=(2, 2), latent_size=1, model='OR-AND')` -/
noncomputable def aside (s : Workshop) : Workshop :=
  (s.newMatrix ⟨[2, 2], fun _ => -1⟩ 0 false none).attach s.next [2, 2] 1 "OR-AND" fun _ _ => -1

theorem aside_beside (s : Workshop) : Beside s (aside s) := by
  refine .act (.addLayer none (some [2, 2]) 1 "OR-AND" fun _ _ => -1) .refl ⟨fun _ _ => .inr rfl, by simp, by simp⟩ (by simp [UserAct.Beyond]) ?_
  have hm : canonical_form "OR-AND" = .ok ("OR-AND", false, false) := by decide
  have hc : canonise_model "OR-AND" (Option.map (fun i => (s.m.world.mat i).val) none) = (none, .ok ("OR-AND", false, false)) := by
    rw [canonise_model, hm]
    rfl
  rw [Workshop.step, Workshop.addLayer, hc]
  rfl

theorem aside_layers (s : Workshop) : (aside s).m.layers = s.m.layers ++ [⟨[s.next + 1, s.next + 2], "OR-AND", none, false, false⟩] := rfl

theorem plain_same {s : Workshop} (hb : Built s) : SameDraws s.next s (aside s) plainDraws plainDraws := by
  have hB := aside_beside s
  have H := hb.sound
  have H' := (hb.reach hB.reach).sound
  exact ⟨fun _ _ _ => rfl, fun _ => hB.samePart.freeMats_common H H', fun _ _ _ h => h, fun _ _ _ h => h⟩

/-- data and a layer, lambda is 0 and fixed -/
noncomputable def quiet : Workshop :=
  { shop2 with m := { shop2.m with
      world := { shop2.m.world with lbda := upd shop2.m.world.lbda 0 (.scalar (.fin 0)) }
      lfixed := upd shop2.m.lfixed 0 true } }

theorem quiet_built : Built quiet :=
  .act (.setLbdaFixed 0 true) (.act (.setLbda 0 0) shop2_built trivial rfl) trivial rfl

theorem plain_returns {s : Workshop} (h : Built s) (hm : s.m.matrices = [0]) (hf : s.m.fixed 0 = true)
    (hl : ∀ lr ∈ s.m.layers, lr.factors.length = 2 ∧ lr.auto_clean = false ∧ lr.auto_reset = false) (ha : s.m.anneal = false)
    (S : Nat) (eps : ℝ) (bmin : Nat) (bmax : Int) : ∃ r, s.infer S 15 eps bmin bmax 10 0 plainDraws = .ok r := by
  have hl' : ∀ (k : Nat) (lr : LayerInfo), s.m.layers[k]? = some lr → lr ∈ s.m.layers := fun k lr h => List.mem_of_getElem? h
  have hc : CallOK s 15 10 0 plainDraws := callOK_plain ha fun k lr hk => by
    obtain ⟨-, h1, h2⟩ := hl lr (hl' k lr hk)
    simp [LayerInfo.Cleans, h1, h2]
  exact (C102_infer_iff h S 15 eps bmin bmax 10 0 plainDraws hc).mpr (ready_two h hm hf fun k lr hk => (hl lr (hl' k lr hk)).1)

theorem layers_aside {s : Workshop} (hl : ∀ lr ∈ s.m.layers, lr.factors.length = 2 ∧ lr.auto_clean = false ∧ lr.auto_reset = false) :
    ∀ lr ∈ (aside s).m.layers, lr.factors.length = 2 ∧ lr.auto_clean = false ∧ lr.auto_reset = false := by
  rw [aside_layers]
  intro lr hlr
  rcases List.mem_append.1 hlr with h | h
  · exact hl lr h
  · rw [List.mem_singleton] at h
    subst h
    exact ⟨rfl, rfl, rfl⟩

theorem shop2_plain : ∀ lr ∈ shop2.m.layers, lr.factors.length = 2 ∧ lr.auto_clean = false ∧ lr.auto_reset = false := by
  intro lr hlr
  have hlr : lr ∈ [(⟨[1, 2], "XOR-AND", none, false, false⟩ : LayerInfo)] := hlr
  rw [List.mem_singleton] at hlr
  subst hlr
  exact ⟨rfl, rfl, rfl⟩

/-- C124: a machine with a layer, and the same with a layer aside; both inferences return after the same number of sweeps -/
theorem C124_hypotheses_met : ∃ s s' r r', Built s ∧ Beside s s' ∧ s'.m.layers.length = 2 ∧ (freeMats s.m).length = 2 ∧
    SameDraws s.next s s' plainDraws plainDraws ∧ s.m.anneal = false ∧
    (∀ lr ∈ s'.m.layers, lr.auto_clean = false ∧ lr.auto_reset = false) ∧
    s.infer 5 15 0.001 10 10 10 0 plainDraws = .ok r ∧ s'.infer 5 15 0.001 10 10 10 0 plainDraws = .ok r' ∧
    r'.m.clock = r.m.clock := by
  have hB := aside_beside shop2
  have H' := shop2_built.reach hB.reach
  obtain ⟨r, hr⟩ := plain_returns shop2_built rfl rfl shop2_plain rfl 5 0.001 10 10
  obtain ⟨r', hr'⟩ := plain_returns H' rfl rfl (layers_aside shop2_plain) rfl 5 0.001 10 10
  refine ⟨shop2, aside shop2, r, r', shop2_built, hB, rfl, rfl, plain_same shop2_built, rfl,
    fun lr hlr => (layers_aside shop2_plain lr hlr).2, hr, hr', ?_⟩
  rw [workshop_clock shop2_built.sound (fun _ _ _ h => h) (by norm_num) hr,
    workshop_clock H'.sound (fun _ _ _ h => h) (by norm_num) hr', hB.samePart.clock]

theorem quiet_single : SingleLayer (quiet.wiring plainDraws) quiet.m .XOR_AND ⟨[1, 2], "XOR-AND", none, false, false⟩ 0 [3, 2] := by
  have H := quiet_built.sound
  have hk : quiet.m.layers[0]? = some ⟨[1, 2], "XOR-AND", none, false, false⟩ := rfl
  refine ⟨rfl, rfl, rfl, rfl, by decide, .inl rfl, fun j i hj => H.axis 0 _ j i hk hj, fun i hi => H.layerOf 0 _ i hk hi, ?_, rfl,
    by decide, ?_, ?_, fun _ _ _ h => h, rfl, ?_, ?_⟩
  · intro i hi
    simp only [List.mem_cons, List.not_mem_nil, or_false] at hi
    rcases hi with rfl | rfl <;> rfl
  · intro i hi
    have hi : i ∈ [0] := hi
    rw [List.mem_singleton] at hi
    subst hi
    rfl
  · exact H.beta 0 (by show 0 < 1; omega)
  · intro j i hj s hs
    have hi := List.mem_of_getElem? hj
    simp only [List.mem_cons, List.not_mem_nil, or_false] at hi
    rcases hi with rfl | rfl <;> cases hs
  · intro g hg
    cases hg

/-- **C124** is false without the condition on sweeps: whether burn-in has converged is decided for all layers together. A machine
has a layer whose lambda is fixed; another layer, with data of its own, is added. With the same settings and the same draws for
the old part, its factors are different afterwards: all entries have the opposite sign. -/
theorem C124_joint_convergence : ∃ s s' r r', Built s ∧ Beside s s' ∧ SameDraws s.next s s' plainDraws plainDraws ∧
    s.m.anneal = false ∧ (∀ lr ∈ s'.m.layers, lr.auto_clean = false ∧ lr.auto_reset = false) ∧
    s.infer 1 15 0 10 25 10 0 plainDraws = .ok r ∧ s'.infer 1 15 0 10 25 10 0 plainDraws = .ok r' ∧
    1 ∈ freeMats s.m ∧ (r.m.world.mat 1).val [0, 0] = -1 ∧ (r'.m.world.mat 1).val [0, 0] = 1 := by
  have hB := aside_beside quiet
  have hb := quiet_built
  have H' := hb.reach hB.reach
  have hql : ∀ lr ∈ quiet.m.layers, lr.factors.length = 2 ∧ lr.auto_clean = false ∧ lr.auto_reset = false := shop2_plain
  obtain ⟨r, hr⟩ := plain_returns hb rfl rfl hql rfl 1 0 10 25
  obtain ⟨r', hr'⟩ := plain_returns H' rfl rfl (layers_aside hql) rfl 1 0 10 25
  obtain ⟨r2, hr2⟩ := plain_returns hb rfl rfl hql rfl 1 0 25 25
  have hcl' : r'.m.clock = 26 := by
    rw [workshop_never H'.sound (fun _ _ _ h => h) rfl le_rfl (by
      intro h
      have : 1 ∈ freeLbdas (aside quiet).m := by
        rw [freeLbdas, List.mem_filter]
        exact ⟨List.mem_range.2 (by show 1 < 2; omega), rfl⟩
      rw [h] at this
      simp at this) hr', hB.samePart.clock]
    rfl
  have hcl2 : r2.m.clock = 26 := by
    rw [workshop_clock hb.sound (fun _ _ _ h => h) (by norm_num) hr2]
    rfl
  obtain ⟨e, -⟩ := C124_unrelated_partial hb hB (plain_same hb) rfl (fun lr hlr => (layers_aside hql lr hlr).2) 1 hr2 hr'
    (hcl'.trans hcl2.symm)
  have hfl : freeLbdas quiet.m = [] := rfl
  have hcl : r.m.clock = 25 := by
    rw [Workshop.infer, bind_ok] at hr
    obtain ⟨m, h, e⟩ := hr
    rw [pure_ok] at e
    subst e
    obtain ⟨n1, n2, n3, n4, e1, e2, e3, e4, e5⟩ := infer_phases h
    show m.clock = _
    rw [infer_clock hb.sound.nodup_free (fun t i hi => hi) h e1 e2 e3]
    have k1 := fold_keeps (fun a i b => assignFct_keeps) e1
    have k2 := fold_keeps (fun a i b => assignLfct_keeps) e2
    have ks := k1.1.trans k2.1
    have hc2 : n2.clock = quiet.m.clock := (lassign_clock e2).trans (assign_clock e1)
    rw [hfl] at e3
    rw [(burn_in_fixed (by norm_num) (by show n2.anneal = false; rw [ks.anneal]; rfl)
      (by show ∀ lr ∈ n2.layers, _; rw [ks.layers]; exact fun lr hlr => (hql lr hlr).2) e3).2]
    show n2.clock + _ + 1 = _
    rw [hc2]
    rfl
  have hmem : 1 ∈ freeMats quiet.m := by
    rw [hb.sound.mem_free]
    exact ⟨rfl, .inr ⟨0, ⟨[1, 2], "XOR-AND", none, false, false⟩, rfl, by simp⟩⟩
  have hw : LegalWorld ⟨[1, 2], "XOR-AND", none, false, false⟩ 0 [3, 2] (quiet.m.world.mat 0).val quiet.m.world := by
    refine ⟨?_, rfl, ⟨0, rfl⟩⟩
    exact hb.sound.world.facs 0 _ rfl
  have flips : ∀ {S cw bmin ps : Nat} {eps : ℝ} {bmax : Int} {r : Workshop}, quiet.infer S cw eps bmin bmax ps 0 plainDraws = .ok r →
      (r.m.world.mat 1).val [0, 0] = (-1) ^ r.m.clock := by
    intro S cw bmin ps eps bmax r h
    rw [Workshop.infer, bind_ok] at h
    obtain ⟨m, h, e⟩ := h
    rw [pure_ok] at e
    subst e
    have := quiet_single.flips_each hw rfl rfl (fun _ _ => List.Perm.refl _) rfl hfl (by
      intro i hi
      have := quiet_single.mem_free hi
      simp only [List.mem_cons, List.not_mem_nil, or_false] at this
      rcases this with rfl | rfl <;> exact ⟨rfl, rfl⟩) rfl h 1 hmem
    obtain ⟨-, h2⟩ := this
    have h3 := h2 [0, 0] (by
      show InB [3, 2] [0, 0]
      exact ⟨by norm_num, by norm_num, trivial⟩)
    have e1 : (quiet.m.world.mat 1).fixed_entries [0, 0] = 0 := rfl
    have e2 : (quiet.m.world.mat 1).val [0, 0] = 1 := rfl
    rw [e1, e2] at h3
    have e3 : quiet.m.clock = 0 := rfl
    rw [e3] at h3
    simpa using h3
  refine ⟨quiet, aside quiet, r, r', hb, hB, plain_same hb, rfl, fun lr hlr => (layers_aside hql lr hlr).2, hr, hr', hmem, ?_, ?_⟩
  · rw [flips hr, hcl]; norm_num
  · rw [e 1 (by show 1 < 3; omega), flips hr2, hcl2]; norm_num

end LFM
