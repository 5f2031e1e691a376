import Verif.Lemmas.Window

/-!
# Lemmas: burn-in raises nothing by itself
-/

namespace LFM

variable {F G : Type}

theorem writeFactors_lbda (w : World) (is : List Nat) (fs : List Fac) : (writeFactors w is fs).lbda = w.lbda := by
  induction is generalizing w fs with
  | nil => rfl
  | cons i is ih =>
    cases fs with
    | nil => rfl
    | cons f fs => rw [writeFactors, ih]

/-- Update functions that do not raise: on worlds satisfying `I` they return, preserve `I`, and do not change the type
of a parameter from float to array, or the length of such an array. -/
structure Healthy (env : Env F G) (mats lbdas : List Nat) (layers : List LayerInfo) (fct : Nat → Option F)
    (lfct : Nat → Option G) (I : World → Prop) : Prop where
  perm : ∀ t, ∀ i ∈ env.perm t mats, i ∈ mats
  mat : ∀ i ∈ mats, ∃ f, fct i = some f ∧ ∀ t w, I w →
    ∃ w', env.runMat f i t w = .ok w' ∧ I w' ∧ ∀ k, (w'.lbda k).kind = (w.lbda k).kind
  lbda : ∀ k ∈ lbdas, ∃ g, lfct k = some g ∧ ∀ t w, I w →
    ∃ w', env.runLbda g k t w = .ok w' ∧ I w' ∧ ∀ k, (w'.lbda k).kind = (w.lbda k).kind
  clean : ∀ lr ∈ layers, ∀ reset clean w fs b, (lr.auto_clean = true ∨ lr.auto_reset = true) → I w →
    clean_up_codes (lr.factors.map w.mat) reset clean = .ok (fs, b) → I (writeFactors w lr.factors fs)

namespace Healthy

variable {env : Env F G} {mats lbdas : List Nat} {layers : List LayerInfo} {fct : Nat → Option F}
  {lfct : Nat → Option G} {I : World → Prop}

theorem sweepM (H : Healthy env mats lbdas layers fct lfct I) (t : Nat) {w : World} (hw : I w) :
    ∃ w', LFM.sweepM env fct mats t w = .ok w' ∧ I w' ∧ ∀ k, (w'.lbda k).kind = (w.lbda k).kind := by
  unfold LFM.sweepM callsM
  have hsub := H.perm t
  generalize env.perm t mats = xs at hsub ⊢
  induction xs generalizing w with
  | nil => exact ⟨w, rfl, hw, fun _ => rfl⟩
  | cons x xs ih =>
    obtain ⟨f, hf, hr⟩ := H.mat x (hsub x (by simp))
    obtain ⟨w1, h1, hI, hk⟩ := hr t w hw
    obtain ⟨w2, h2, hI2, hk2⟩ := ih hI (fun i hi => hsub i (by simp [hi]))
    refine ⟨w2, ?_, hI2, fun k => (hk2 k).trans (hk k)⟩
    rw [List.foldlM_cons, hf]
    simp only
    rw [h1]
    exact h2

theorem sweepL (H : Healthy env mats lbdas layers fct lfct I) (t : Nat) {w : World} (hw : I w) :
    ∃ w', LFM.sweepL env lfct lbdas t w = .ok w' ∧ I w' ∧ ∀ k, (w'.lbda k).kind = (w.lbda k).kind := by
  unfold LFM.sweepL
  have hsub : ∀ k ∈ lbdas, ∃ g, lfct k = some g ∧ ∀ t w, I w →
    ∃ w', env.runLbda g k t w = .ok w' ∧ I w' ∧ ∀ k, (w'.lbda k).kind = (w.lbda k).kind := H.lbda
  clear H
  induction lbdas generalizing w with
  | nil => exact ⟨w, rfl, hw, fun _ => rfl⟩
  | cons x xs ih =>
    obtain ⟨f, hf, hr⟩ := hsub x (by simp)
    obtain ⟨w1, h1, hI, hk⟩ := hr t w hw
    obtain ⟨w2, h2, hI2, hk2⟩ := ih hI (fun i hi => hsub i (by simp [hi]))
    refine ⟨w2, ?_, hI2, fun k => (hk2 k).trans (hk k)⟩
    rw [List.foldlM_cons, hf]
    simp only
    rw [h1]
    exact h2

theorem sampleMats (H : Healthy env mats lbdas layers fct lfct I) {m : Mach F G} (hf : m.fct = fct)
    (hw : I m.world) : ∃ w', LFM.sampleMats env mats m = .ok { m with world := w', clock := m.clock + 1 } ∧ I w' ∧
      ∀ k, (w'.lbda k).kind = (m.world.lbda k).kind := by
  obtain ⟨w', h1, h2, h3⟩ := H.sweepM m.clock hw
  refine ⟨w', ?_, h2, h3⟩
  rw [sampleMats_eq, hf, h1]; rfl

theorem sampleLbdas (H : Healthy env mats lbdas layers fct lfct I) {m : Mach F G} (hf : m.lfct = lfct)
    (hw : I m.world) : ∃ w', LFM.sampleLbdas env lbdas m = .ok { m with world := w' } ∧ I w' ∧
      ∀ k, (w'.lbda k).kind = (m.world.lbda k).kind := by
  obtain ⟨w', h1, h2, h3⟩ := H.sweepL m.clock hw
  refine ⟨w', ?_, h2, h3⟩
  rw [sampleLbdas_eq, hf, h1]; rfl

theorem preLoop (H : Healthy env mats lbdas layers fct lfct I) {b ps fx : Nat} (hp : ps ≠ 0) (todo : Nat)
    {steps : List (List ℝ)} {m : Mach F G} (hf : m.fct = fct) (hlf : m.lfct = lfct) (ha : m.anneal = false)
    (hw : I m.world) : ∃ m', LFM.preLoop env mats lbdas b ps fx todo steps m = .ok m' ∧ I m'.world := by
  induction todo generalizing m with
  | zero => exact ⟨m, rfl, hw⟩
  | succ todo ih =>
    obtain ⟨w1, h1, i1, -⟩ := H.sampleMats hf hw
    have key : ∃ m1, preStep env mats lbdas b ps fx (b - todo) steps m = .ok (steps, m1) ∧ m1.fct = fct ∧
        m1.lfct = lfct ∧ m1.anneal = false ∧ I m1.world := by
      unfold preStep
      simp only [hp, if_false, h1, bind, Except.bind]
      by_cases hb : b - todo > fx
      · obtain ⟨w2, h2, i2, -⟩ := H.sampleLbdas (m := { m with world := w1, clock := m.clock + 1 }) hlf i1
        simp only [hb, if_true, h2]
        rw [if_pos ha]
        exact ⟨_, rfl, hf, hlf, ha, i2⟩
      · simp only [hb, if_false]
        exact ⟨_, rfl, hf, hlf, ha, i1⟩
    obtain ⟨m1, e1, e2, e3, e4, e5⟩ := key
    obtain ⟨m', g1, g2⟩ := ih e2 e3 e4 e5
    refine ⟨m', ?_, g2⟩
    rw [LFM.preLoop, e1]
    exact g1

theorem autoClean (H : Healthy env mats lbdas layers fct lfct I) (lrs : List LayerInfo)
    (hl : ∀ lr ∈ lrs, lr ∈ layers) {m : Mach F G} (hw : I m.world) :
    ∃ m' b, LFM.autoClean lrs m = .ok (m', b) ∧ I m'.world ∧ m'.world.lbda = m.world.lbda := by
  induction lrs generalizing m with
  | nil => exact ⟨m, false, rfl, hw, rfl⟩
  | cons lr lrs ih =>
    rw [LFM.autoClean]
    split
    · rename_i hflag
      obtain ⟨r, hr⟩ := clean_up_ok (hflag.symm) (lr.factors.map m.world.mat)
      have hI := H.clean lr (hl lr (by simp)) _ _ m.world r.1 r.2 hflag hw hr
      obtain ⟨m', b, h1, h2, h3⟩ := ih (fun l hl' => hl l (by simp [hl']))
        (m := { m with world := writeFactors m.world lr.factors r.1 }) hI
      refine ⟨m', r.2 || b, ?_, h2, by rw [h3]; exact writeFactors_lbda _ _ _⟩
      rw [cleanLayer, hr]
      show (LFM.autoClean lrs _ >>= _) = _
      rw [h1]; rfl
    · exact ih (fun l hl' => hl l (by simp [hl'])) hw

theorem finalClean (H : Healthy env mats lbdas layers fct lfct I) (lrs : List LayerInfo)
    (hl : ∀ lr ∈ lrs, lr ∈ layers) {m : Mach F G} (hw : I m.world) :
    ∃ m', LFM.finalClean lrs m = .ok m' ∧ I m'.world ∧ m'.world.lbda = m.world.lbda := by
  induction lrs generalizing m with
  | nil => exact ⟨m, rfl, hw, rfl⟩
  | cons lr lrs ih =>
    rw [LFM.finalClean]
    split
    · rename_i hflag
      obtain ⟨r, hr⟩ := clean_up_ok (reset := false) (clean := true) (.inr rfl) (lr.factors.map m.world.mat)
      have hI := H.clean lr (hl lr (by simp)) _ _ m.world r.1 r.2 (.inr hflag) hw hr
      obtain ⟨m', h1, h2, h3⟩ := ih (fun l hl' => hl l (by simp [hl']))
        (m := { m with world := writeFactors m.world lr.factors r.1 }) hI
      refine ⟨m', ?_, h2, by rw [h3]; exact writeFactors_lbda _ _ _⟩
      rw [cleanLayer, hr]
      exact h1
    · exact ih (fun l hl' => hl l (by simp [hl'])) hw

/-- what holds during the second loop; `ix` is the index in the window -/
structure Good (lbdas : List Nat) (layers : List LayerInfo) (fct : Nat → Option F) (lfct : Nat → Option G)
    (I : World → Prop) (cw ix : Nat) (m : Mach F G) : Prop where
  inv : I m.world
  layers : m.layers = layers
  fct : m.fct = fct
  lfct : m.lfct = lfct
  trace : ∀ k ∈ lbdas, m.ltrace_index k = ix ∧ ∃ t, m.ltrace k = some t ∧ t.len = cw ∧ t.kind = (m.world.lbda k).kind

theorem allConverged {eps : ℝ} {m : Mach F G} {ks : List Nat} (h : ∀ k ∈ ks, ∃ t, m.ltrace k = some t) :
    ∃ b, LFM.allConverged eps m ks = .ok b := by
  induction ks with
  | nil => exact ⟨true, rfl⟩
  | cons k ks ih =>
    obtain ⟨t, ht⟩ := h k (by simp)
    obtain ⟨b, hb⟩ := ih fun x hx => h x (by simp [hx])
    exact ⟨checkL t eps && b, by rw [LFM.allConverged, ht]; simp only; rw [hb]; rfl⟩

theorem allocLbdas_good {cw ix : Nat} {junk : Nat → Nat → Nat → NpF}
    {m : Mach F G} (hI : I m.world) (hl : m.layers = layers) (hf : m.fct = fct) (hlf : m.lfct = lfct) (hix : ix = 0) :
    Good lbdas layers fct lfct I cw ix (allocLbdas junk cw lbdas m) := by
  refine ⟨hI, hl, hf, hlf, ?_⟩
  intro k hk
  refine ⟨by simp [allocLbdas, hk, hix], allocL (junk k) cw (m.world.lbda k), by simp [allocLbdas, hk],
    allocL_len _ _ _, allocL_kind _ _ _⟩

theorem windowTurn (H : Healthy env mats lbdas layers fct lfct I) {eps : ℝ} {cw pre iter : Nat} {m : Mach F G}
    (h : Good lbdas layers fct lfct I cw (ixBefore cw iter) m) :
    ∃ m' b, LFM.windowTurn env lbdas eps cw pre iter m = .ok (m', b) ∧ I m'.world ∧
      (b = false → Good lbdas layers fct lfct I cw (ixAfter cw iter) m') := by
  rw [LFM.windowTurn]
  by_cases hw : iter % cw = 0
  · have hixA : ixAfter cw iter = 0 := by rw [ixAfter, if_pos hw]
    rw [if_pos hw]
    unfold windowStep
    simp only
    obtain ⟨conv, hc⟩ := allConverged (eps := eps) (m := resetIndexL lbdas m) (ks := lbdas) fun k hk => by
      obtain ⟨-, t, ht, -⟩ := h.trace k hk
      exact ⟨t, ht⟩
    rw [hc]
    simp only [bind, Except.bind]
    cases conv with
    | false =>
      refine ⟨_, _, rfl, h.inv, fun _ => ⟨h.inv, h.layers, h.fct, h.lfct, ?_⟩⟩
      intro k hk
      refine ⟨by rw [hixA]; simp [resetIndexL, hk], (h.trace k hk).2⟩
    | true =>
      simp only [if_true]
      obtain ⟨m1, b1, h1, h2, h3⟩ := H.autoClean (resetIndexL lbdas m).layers (fun lr hlr => h.layers ▸ hlr)
        (m := resetIndexL lbdas m) h.inv
      have o := autoClean_only h1
      rw [h1]
      simp only
      cases b1 with
      | true =>
        simp only [if_true]
        refine ⟨_, _, rfl, h2, fun _ => allocLbdas_good h2 ?_ ?_ ?_ hixA⟩
        · rw [o]; exact h.layers
        · rw [o]; exact h.fct
        · rw [o]; exact h.lfct
      | false => exact ⟨_, _, rfl, h2, fun hb => by cases hb⟩
  · rw [if_neg hw]
    refine ⟨m, false, rfl, h.inv, fun _ => ?_⟩
    rw [show ixAfter cw iter = ixBefore cw iter by rw [ixAfter, if_neg hw]]
    exact h

theorem updateTracesL {cw ix : Nat} (hix : ix < cw) (ks : List Nat) :
    ∀ {m : Mach F G}, ks.Nodup →
    (∀ k ∈ ks, m.ltrace_index k = ix ∧ ∃ t, m.ltrace k = some t ∧ t.len = cw ∧ t.kind = (m.world.lbda k).kind) →
    ∃ m', ks.foldlM updateTraceL m = .ok m' ∧ m'.world = m.world ∧
      (∀ k ∈ ks, m'.ltrace_index k = ix + 1 ∧
        ∃ t, m'.ltrace k = some t ∧ t.len = cw ∧ t.kind = (m'.world.lbda k).kind) ∧
      (∀ k ∉ ks, m'.ltrace_index k = m.ltrace_index k ∧ m'.ltrace k = m.ltrace k) := by
  induction ks with
  | nil =>
    intro m _ _
    exact ⟨m, rfl, rfl, fun k hk => by simp at hk, fun k _ => ⟨rfl, rfl⟩⟩
  | cons k ks ih =>
    intro m hnd hm
    have hnd' := List.nodup_cons.mp hnd
    obtain ⟨hi, t, ht, hl, hk⟩ := hm k (by simp)
    obtain ⟨t', hw, hl', hk'⟩ := writeL_ok (t := t) (k := ix) (v := m.world.lbda k) (by omega) hk
    obtain ⟨m1, hm1⟩ : ∃ m1 : Mach F G, m1 = { m with
      ltrace := upd m.ltrace k (some t'), ltrace_index := upd m.ltrace_index k (m.ltrace_index k + 1) } := ⟨_, rfl⟩
    have e1 : updateTraceL m k = .ok m1 := by
      rw [updateTraceL, ht]
      simp only
      rw [hi, hw, hm1, hi]
      rfl
    obtain ⟨m', g1, g2, g3, g4⟩ := ih (m := m1) hnd'.2 (by
      intro j hj
      have hjk : j ≠ k := fun h => hnd'.1 (h ▸ hj)
      have := hm j (by simp [hj])
      rw [hm1]
      simpa [upd, hjk] using this)
    refine ⟨m', ?_, by rw [g2, hm1], ?_, ?_⟩
    · rw [List.foldlM_cons, e1]; exact g1
    · intro j hj
      by_cases hjk : j = k
      · subst hjk
        obtain ⟨a, b⟩ := g4 j hnd'.1
        refine ⟨?_, t', ?_, hl'.trans hl, ?_⟩
        · rw [a, hm1]; simp [upd, hi]
        · rw [b, hm1]; simp [upd]
        · rw [g2, hm1, hk', hk]
      · exact g3 j (by simpa [hjk] using hj)
    · intro j hj
      simp only [List.mem_cons, not_or] at hj
      obtain ⟨a, b⟩ := g4 j hj.2
      rw [a, b, hm1]
      simp [upd, hj.1]

theorem burnSweep (H : Healthy env mats lbdas layers fct lfct I) {cw ix : Nat} (hix : ix < cw) (hnd : lbdas.Nodup)
    {m : Mach F G} (h : Good lbdas layers fct lfct I cw ix m) :
    ∃ m', LFM.burnSweep env mats lbdas m = .ok m' ∧ Good lbdas layers fct lfct I cw (ix + 1) m' := by
  obtain ⟨w1, h1, i1, k1⟩ := H.sampleMats h.fct h.inv
  obtain ⟨w2, h2, i2, k2⟩ := H.sampleLbdas (m := { m with world := w1, clock := m.clock + 1 }) h.lfct i1
  obtain ⟨m', g1, g2, g3, -⟩ := updateTracesL hix lbdas
    (m := { m with world := w2, clock := m.clock + 1 }) hnd (by
      intro k hk
      obtain ⟨a, t, b, c, d⟩ := h.trace k hk
      exact ⟨a, t, b, c, d.trans ((k1 k).symm.trans (k2 k).symm)⟩)
  have o := updateTracesL_only _ g1
  refine ⟨m', ?_, ⟨by rw [g2]; exact i2, ?_, ?_, ?_, g3⟩⟩
  · rw [LFM.burnSweep, h1]
    show (LFM.sampleLbdas env lbdas _ >>= _) = _
    rw [h2]
    exact g1
  · rw [o]; exact h.layers
  · rw [o]; exact h.fct
  · rw [o]; exact h.lfct

theorem stopStep (H : Healthy env mats lbdas layers fct lfct I) {iter : Nat} {m : Mach F G} (hw : I m.world)
    (hl : m.layers = layers) : ∃ m', LFM.stopStep lbdas iter m = .ok m' ∧ I m'.world := by
  obtain ⟨m1, h1, h2, -⟩ := H.finalClean m.layers (fun lr hlr => hl ▸ hlr) hw
  exact ⟨{ resetIndexL lbdas m1 with burn_in_iters := some iter }, by rw [LFM.stopStep, h1]; rfl, h2⟩

theorem mainLoop (H : Healthy env mats lbdas layers fct lfct I) (hnd : lbdas.Nodup) {eps : ℝ} {cw : Nat}
    {bmax : Int} {ps pre : Nat} (hps : ps ≠ 0) (hcw : cw ≠ 0) (n : Nat) : ∀ (iter : Nat) (m : Mach F G),
    (bmax + 1 - (iter + pre)).toNat = n → 1 ≤ iter → Good lbdas layers fct lfct I cw (ixBefore cw iter) m →
    ∃ m', LFM.mainLoop env mats lbdas eps cw bmax ps pre iter m = .ok m' ∧ I m'.world := by
  induction n using Nat.strong_induction_on with
  | _ n ih =>
    intro iter m hn hi hg
    rw [mainLoop_eq hps hcw]
    obtain ⟨m1, b, h1, h2, h3⟩ := H.windowTurn (eps := eps) (pre := pre) hg
    rw [h1]
    simp only [bind, Except.bind]
    cases b with
    | true => exact ⟨m1, rfl, h2⟩
    | false =>
      simp only [Bool.false_eq_true, if_false]
      have hg1 := h3 rfl
      by_cases hb : bmax < (iter : Int) + pre
      · rw [if_pos hb]
        exact H.stopStep hg1.inv hg1.layers
      · rw [if_neg hb]
        obtain ⟨m2, g1, g2⟩ := H.burnSweep (ixAfter_lt cw iter (by omega) hi) hnd hg1
        rw [← ixBefore_succ cw iter (by omega) hi] at g2
        rw [g1]
        exact ih _ (by push_cast; omega) _ _ rfl (by omega) g2

theorem burn_in (H : Healthy env mats lbdas layers fct lfct I) (hnd : lbdas.Nodup) {eps : ℝ} {cw b : Nat}
    {bmax : Int} {ps fx : Nat} (hps : ps ≠ 0) (hcw : cw ≠ 0) {m : Mach F G} (hf : m.fct = fct) (hlf : m.lfct = lfct)
    (hl : m.layers = layers) (ha : m.anneal = false) (hw : I m.world) :
    ∃ m', LFM.burn_in env mats lbdas eps cw b bmax ps fx m = .ok m' ∧ I m'.world := by
  obtain ⟨m1, h1, h2⟩ := H.preLoop (b := b) (fx := fx) hps b (steps := []) hf hlf ha hw
  have o := preLoop_only h1
  rw [LFM.burn_in, h1]
  refine H.mainLoop hnd hps hcw _ 1 _ rfl (le_refl _) (allocLbdas_good h2 ?_ ?_ ?_ ?_)
  · rw [o]; exact hl
  · rw [o]; exact hf
  · rw [o]; exact hlf
  · simp [ixBefore, show 1 ≤ cw by omega]

end Healthy

/-- after burn-in the trace indices are zero -/
theorem mainLoop_index {env : Env F G} {mats lbdas : List Nat} {eps : ℝ} {cw : Nat} {bmax : Int} {ps pre : Nat}
    (n : Nat) : ∀ {iter : Nat} {m m' : Mach F G}, (bmax + 1 - (iter + pre)).toNat = n →
    mainLoop env mats lbdas eps cw bmax ps pre iter m = .ok m' → ∀ k ∈ lbdas, m'.ltrace_index k = 0 := by
  induction n using Nat.strong_induction_on with
  | _ n ih =>
    intro iter m m' hn h
    obtain ⟨-, -, m1, done, h1, h2⟩ := mainLoop_cases h
    rcases h2 with ⟨hd, rfl⟩ | ⟨-, hb, h2⟩ | ⟨-, hle, m2, h2, h3⟩
    · subst hd
      rw [windowTurn] at h1
      split at h1
      · unfold windowStep at h1
        simp only at h1
        rw [bind_ok] at h1
        obtain ⟨conv, -, h1⟩ := h1
        cases conv with
        | false =>
          simp only [Bool.false_eq_true, if_false] at h1
          rw [pure_ok, Prod.mk.injEq] at h1
          simp at h1
        | true =>
          simp only [if_true] at h1
          rw [bind_ok] at h1
          obtain ⟨⟨m1, b1⟩, h2, h1⟩ := h1
          have o := autoClean_only h2
          cases b1 with
          | true =>
            simp only [if_true] at h1
            rw [pure_ok, Prod.mk.injEq] at h1
            simp at h1
          | false =>
            simp only [Bool.false_eq_true, if_false] at h1
            rw [pure_ok, Prod.mk.injEq] at h1
            rw [← h1.1]
            intro k hk
            show m1.ltrace_index k = 0
            rw [o]
            simp [resetIndexL, hk]
      · simp at h1
    · exact (stopStep_only h2).2
    · exact ih _ (by push_cast; omega) rfl h3

end LFM
