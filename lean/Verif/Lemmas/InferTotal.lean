import Verif.Lemmas.Sampling

/-!
# Lemmas: the sampling phase and `infer` raise nothing by themselves
-/

namespace LFM

variable {F G : Type}

/-- writing all matrix traces succeeds if they have room and fit -/
theorem updateTracesM_total {S ix : Nat} (hix : ix < S) (ks : List Nat) : ∀ {m : Mach F G}, ks.Nodup →
    (∀ i ∈ ks, m.trace_index i = ix ∧ ∃ t, m.trace i = some t ∧ t.shape = S :: (m.world.mat i).val.shape) →
    ∃ m', ks.foldlM (updateTraceM false) m = .ok m' := by
  induction ks with
  | nil => intro m _ _; exact ⟨m, rfl⟩
  | cons k ks ih =>
    intro m hnd hm
    have hnd' := List.nodup_cons.mp hnd
    obtain ⟨hi, t, ht, hs⟩ := hm k (by simp)
    have hw : ∃ t', writeTrace false t (m.trace_index k) (m.world.mat k).val = .ok t' := by
      refine ⟨⟨t.shape, fun i => if i.head? = some (m.trace_index k) then (m.world.mat k).val (i.drop 1) else t i⟩, ?_⟩
      · rw [writeTrace, if_neg (by decide), writeM, if_pos (by simp [Arr.dim, hs]; omega), if_pos (by simp [hs])]
    obtain ⟨t', hw⟩ := hw
    obtain ⟨m1, hm1⟩ : ∃ m1 : Mach F G, m1 = { m with
      trace := upd m.trace k (some t'), trace_index := upd m.trace_index k (m.trace_index k + 1) } := ⟨_, rfl⟩
    have e1 : updateTraceM false m k = .ok m1 := by
      rw [updateTraceM, ht]
      simp only
      rw [hw, hm1]
      rfl
    obtain ⟨m', g1⟩ := ih (m := m1) hnd'.2 (by
      intro j hj
      have hjk : j ≠ k := fun h => hnd'.1 (h ▸ hj)
      have := hm j (by simp [hj])
      rw [hm1]
      simpa [upd, hjk] using this)
    exact ⟨m', by rw [List.foldlM_cons, e1]; exact g1⟩

/-- what holds during the sampling phase; `ix` samples were drawn -/
structure GoodS (mats lbdas : List Nat) (fct : Nat → Option F) (lfct : Nat → Option G)
    (I : World → Prop) (S ix : Nat) (m : Mach F G) : Prop where
  inv : I m.world
  model : ∀ i ∈ mats, modelOf m i ≠ some "OR-AND-IBP"
  fct : m.fct = fct
  lfct : m.lfct = lfct
  trace : ∀ i ∈ mats, m.trace_index i = ix ∧ ∃ t, m.trace i = some t ∧ t.shape = S :: (m.world.mat i).val.shape
  ltrace : ∀ k ∈ lbdas, m.ltrace_index k = ix ∧ ∃ t, m.ltrace k = some t ∧ t.len = S ∧ t.kind = (m.world.lbda k).kind

namespace Healthy

variable {env : Env F G} {mats lbdas : List Nat} {layers : List LayerInfo} {fct : Nat → Option F}
  {lfct : Nat → Option G} {I : World → Prop}

theorem samplingStep {s : Nat → List Nat}
    (H : Healthy env mats lbdas layers fct lfct fun w => I w ∧ ∀ i ∈ mats, (w.mat i).val.shape = s i)
    (hnd : mats.Nodup) (hndl : lbdas.Nodup) {S ix ps : Nat} (hix : ix < S) (hps : ps ≠ 0) {m : Mach F G}
    (h : GoodS mats lbdas fct lfct (fun w => I w ∧ ∀ i ∈ mats, (w.mat i).val.shape = s i) S ix m) :
    ∃ m', LFM.samplingStep env mats lbdas ps m = .ok m' ∧
      GoodS mats lbdas fct lfct (fun w => I w ∧ ∀ i ∈ mats, (w.mat i).val.shape = s i) S (ix + 1) m' := by
  obtain ⟨w1, h1, i1, k1⟩ := H.sampleMats h.fct h.inv
  obtain ⟨m1, hm1⟩ : ∃ m1 : Mach F G, m1 = { m with world := w1, clock := m.clock + 1 } := ⟨_, rfl⟩
  rw [← hm1] at h1
  have hany : (mats.any fun i => modelOf m1 i = some "OR-AND-IBP") = false := by
    rw [List.any_eq_false]
    intro i hi
    have := h.model i hi
    have e : modelOf m1 i = modelOf m i := by rw [hm1]; rfl
    simpa [e] using this
  have t1 : ∀ i ∈ mats, m1.trace_index i = ix ∧ ∃ t, m1.trace i = some t ∧ t.shape = S :: (m1.world.mat i).val.shape := by
    intro i hi
    obtain ⟨a, t, b, c⟩ := h.trace i hi
    rw [hm1]
    refine ⟨a, t, b, ?_⟩
    show t.shape = S :: (w1.mat i).val.shape
    rw [c, i1.2 i hi, h.inv.2 i hi]
  obtain ⟨m2, h2⟩ := updateTracesM_total hix mats hnd t1
  obtain ⟨o2, f2, -⟩ := updateTracesM_ok mats hnd h2
  have w2 : m2.world = w1 := by rw [o2, hm1]
  have l2 : m2.lfct = lfct := by rw [o2, hm1]; exact h.lfct
  obtain ⟨w3, h3, i3, k3⟩ := H.sampleLbdas (m := m2) l2 (by rw [w2]; exact i1)
  rw [w2] at k3
  obtain ⟨m3, hm3⟩ : ∃ m3 : Mach F G, m3 = { m2 with world := w3 } := ⟨_, rfl⟩
  rw [← hm3] at h3
  obtain ⟨m4, g1, g2, g3, -⟩ := updateTracesL hix lbdas (m := m3) hndl (by
      intro k hk
      obtain ⟨a, t, b, c, d⟩ := h.ltrace k hk
      rw [hm3, o2, hm1]
      exact ⟨a, t, b, c, d.trans ((k1 k).symm.trans (k3 k).symm)⟩)
  have o4 := updateTracesL_only _ g1
  refine ⟨m4, ?_, ⟨?_, ?_, ?_, ?_, ?_, ?_⟩⟩
  · rw [LFM.samplingStep, h1]
    show ((mats.foldlM (updateTraceM (mats.any fun i => modelOf m1 i = some "OR-AND-IBP")) m1) >>= _) = _
    rw [hany, h2]
    show (LFM.sampleLbdas env lbdas m2 >>= _) = _
    rw [h3]
    show (lbdas.foldlM updateTraceL m3 >>= _) = _
    rw [g1]
    simp [bind, Except.bind, hps, pure, Except.pure]
  · rw [g2, hm3]; exact i3
  · intro i hi
    have e : modelOf m4 i = modelOf m i := by rw [o4, hm3, o2, hm1]; rfl
    rw [e]; exact h.model i hi
  · rw [o4, hm3, o2, hm1]; exact h.fct
  · rw [o4, hm3, o2, hm1]; exact h.lfct
  · intro i hi
    obtain ⟨a, t, t', b, c, d⟩ := f2 i hi
    have e1 : m4.trace i = m2.trace i := by rw [o4, hm3]
    have e2 : m4.trace_index i = m2.trace_index i := by rw [o4, hm3]
    rw [e1, e2]
    refine ⟨by rw [a, (t1 i hi).1], t', c, ?_⟩
    obtain ⟨-, q, -, -⟩ := writeTrace_ok d
    obtain ⟨-, u, b', c'⟩ := t1 i hi
    rw [b] at b'
    cases b'
    rw [q, c', g2, hm3, hm1]
    show S :: (w1.mat i).val.shape = S :: (w3.mat i).val.shape
    rw [i1.2 i hi, i3.2 i hi]
  · exact g3

theorem samplingLoop {s : Nat → List Nat}
    (H : Healthy env mats lbdas layers fct lfct fun w => I w ∧ ∀ i ∈ mats, (w.mat i).val.shape = s i)
    (hnd : mats.Nodup) (hndl : lbdas.Nodup) {S ps : Nat} (hps : ps ≠ 0) (todo : Nat) : ∀ {m : Mach F G} {ix : Nat},
    ix + todo = S →
    GoodS mats lbdas fct lfct (fun w => I w ∧ ∀ i ∈ mats, (w.mat i).val.shape = s i) S ix m →
    ∃ m', LFM.samplingLoop env mats lbdas ps todo m = .ok m' ∧ I m'.world ∧
      ∀ i ∈ mats, (m'.world.mat i).val.shape = s i := by
  induction todo with
  | zero => intro m ix _ hg; exact ⟨m, rfl, hg.inv⟩
  | succ todo ih =>
    intro m ix hix hg
    obtain ⟨m1, h1, g1⟩ := H.samplingStep hnd hndl (show ix < S by omega) hps hg
    obtain ⟨m', h', i'⟩ := ih (show ix + 1 + todo = S by omega) g1
    exact ⟨m', by rw [LFM.samplingLoop, h1]; exact h', i'⟩

/-- the invariant holds all along the sampling phase -/
theorem chain (H : Healthy env mats lbdas layers fct lfct I) {clock S : Nat} {wm wl : Nat → World}
    (hC : Chain env fct lfct mats lbdas clock S wm wl) (h0 : I (wl 0)) : ∀ t ≤ S, I (wl t) ∧ (t < S → I (wm t)) := by
  have hm : ∀ t < S, I (wl t) → I (wm t) := by
    intro t ht hw
    obtain ⟨w', e1, e2, -⟩ := H.sweepM (clock + t) hw
    have := hC.mats t ht
    rw [e1] at this
    cases this
    exact e2
  have hl : ∀ t ≤ S, I (wl t) := by
    intro t
    induction t with
    | zero => intro _; exact h0
    | succ t ih =>
      intro ht
      obtain ⟨w', e1, e2, -⟩ := H.sweepL (clock + t + 1) (hm t (by omega) (ih (by omega)))
      have := hC.lbdas t (by omega)
      rw [e1] at this
      cases this
      exact e2
  exact fun t ht => ⟨hl t ht, fun h => hm t h (hl t ht)⟩

end Healthy

/-- allocating the traces of matrices in layers -/
theorem allocMats_total {env : Env F G} {S : Nat} (ks : List Nat) : ∀ {m : Mach F G},
    (∀ i ∈ ks, modelOf m i ≠ none) → ∃ m', ks.foldlM (allocMat env S) m = .ok m' := by
  induction ks with
  | nil => intro m _; exact ⟨m, rfl⟩
  | cons k ks ih =>
    intro m h
    obtain ⟨model, hmod⟩ := Option.ne_none_iff_exists'.mp (h k (by simp))
    obtain ⟨m1, hm1⟩ : ∃ m1, allocMat env S m k = .ok m1 := by
      rw [allocMat, hmod]
      exact ⟨_, rfl⟩
    have e := (allocMat_keeps hm1).1
    obtain ⟨m', g⟩ := ih (m := m1) (by
      intro i hi
      rw [modelOf, e.layers, e.layerOf]
      exact h i (by simp [hi]))
    exact ⟨m', by rw [List.foldlM_cons, hm1]; exact g⟩

end LFM
