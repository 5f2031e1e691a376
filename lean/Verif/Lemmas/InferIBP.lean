import Verif.Lemmas.InferTotal

/-!
# Lemmas: the sampling phase when factors may grow (OR-AND-IBP layers)
-/

namespace LFM

variable {F G : Type}

/-- all sampled matrices fit into traces for `a i` rows and `b i` columns -/
def Fits (mats : List Nat) (a b : Nat → Nat) (w : World) : Prop :=
  ∀ i ∈ mats, (w.mat i).val.dim 0 ≤ a i ∧ (w.mat i).val.dim 1 ≤ b i

/-- writing samples into padded traces: fails exactly if one does not fit -/
theorem updateTracesM_padded {S ix : Nat} (hix : ix < S) {a b : Nat → Nat} {ibp : Bool} (ks : List Nat) :
    ∀ {m : Mach F G}, ks.Nodup → (∀ i ∈ ks, ibp = true) →
    (∀ i ∈ ks, m.trace_index i = ix ∧ ∃ t, m.trace i = some t ∧ t.shape = [S, a i, b i]) →
    (Fits ks a b m.world → ∃ m', ks.foldlM (updateTraceM ibp) m = .ok m') ∧
    (¬ Fits ks a b m.world → ks.foldlM (updateTraceM ibp) m = .error .valueError) := by
  induction ks with
  | nil => intro m _ _ _; exact ⟨fun _ => ⟨m, rfl⟩, fun h => absurd (fun i hi => by simp at hi) h⟩
  | cons k ks ih =>
    intro m hnd hib hm
    have hnd' := List.nodup_cons.mp hnd
    obtain rfl : ibp = true := hib k (by simp)
    obtain ⟨hi, t, ht, hs⟩ := hm k (by simp)
    have d0 : t.dim 0 = S := by simp [Arr.dim, hs]
    have d1 : t.dim 1 = a k := by simp [Arr.dim, hs]
    have d2 : t.dim 2 = b k := by simp [Arr.dim, hs]
    by_cases hk : (m.world.mat k).val.dim 0 ≤ a k ∧ (m.world.mat k).val.dim 1 ≤ b k
    · have hw : ∃ t', writeTrace true t (m.trace_index k) (m.world.mat k).val = .ok t' := by
        rw [writeTrace, if_pos rfl, writeIBP, if_pos (by rw [d0, hi]; exact hix), if_pos (by rw [d1, d2]; exact hk)]
        exact ⟨_, rfl⟩
      obtain ⟨t', hw⟩ := hw
      obtain ⟨m1, hm1⟩ : ∃ m1 : Mach F G, m1 = { m with
        trace := upd m.trace k (some t'), trace_index := upd m.trace_index k (m.trace_index k + 1) } := ⟨_, rfl⟩
      have e1 : updateTraceM true m k = .ok m1 := by
        rw [updateTraceM, ht]
        simp only
        rw [hw, hm1]
        rfl
      have w1 : m1.world = m.world := by rw [hm1]
      obtain ⟨g1, g2⟩ := ih (m := m1) hnd'.2 (fun _ _ => rfl) (by
        intro j hj
        have hjk : j ≠ k := fun h => hnd'.1 (h ▸ hj)
        have := hm j (by simp [hj])
        rw [hm1]
        simpa [upd, hjk] using this)
      rw [w1] at g1 g2
      rw [List.foldlM_cons, e1]
      exact ⟨fun h => g1 fun i hi => h i (by simp [hi]), fun h => g2 fun h' => h fun i hi => by
        rcases List.mem_cons.mp hi with rfl | hi
        · exact hk
        · exact h' i hi⟩
    · refine ⟨fun h => absurd (h k (by simp)) hk, fun _ => ?_⟩
      rw [List.foldlM_cons, updateTraceM, ht]
      simp only
      rw [writeTrace, if_pos rfl, writeIBP, if_pos (by rw [d0, hi]; exact hix), if_neg (by rw [d1, d2]; exact hk)]
      rfl

/-- what holds during the sampling phase; `ix` samples were drawn -/
structure GoodI (mats lbdas : List Nat) (fct : Nat → Option F) (lfct : Nat → Option G)
    (I : World → Prop) (a b : Nat → Nat) (S ix : Nat) (m : Mach F G) : Prop where
  inv : I m.world
  model : ∀ i ∈ mats, modelOf m i = some "OR-AND-IBP"
  fct : m.fct = fct
  lfct : m.lfct = lfct
  trace : ∀ i ∈ mats, m.trace_index i = ix ∧ ∃ t, m.trace i = some t ∧ t.shape = [S, a i, b i]
  ltrace : ∀ k ∈ lbdas, m.ltrace_index k = ix ∧ ∃ t, m.ltrace k = some t ∧ t.len = S ∧ t.kind = (m.world.lbda k).kind

namespace Healthy

variable {env : Env F G} {mats lbdas : List Nat} {layers : List LayerInfo} {fct : Nat → Option F}
  {lfct : Nat → Option G} {I : World → Prop}

/-- sweeps can be continued for ever -/
theorem chain_exists (H : Healthy env mats lbdas layers fct lfct I) (S : Nat) : ∀ {w : World} {clock : Nat}, I w →
    ∃ wm wl, wl 0 = w ∧ Chain env fct lfct mats lbdas clock S wm wl := by
  induction S with
  | zero => intro w clock _; exact ⟨fun _ => w, fun _ => w, rfl, ⟨fun t ht => by omega, fun t ht => by omega⟩⟩
  | succ S ih =>
    intro w clock hw
    obtain ⟨w1, a1, a2, -⟩ := H.sweepM clock hw
    obtain ⟨w2, b1, b2, -⟩ := H.sweepL (clock + 1) a2
    obtain ⟨wm, wl, h0, hC⟩ := ih (clock := clock + 1) b2
    refine ⟨fun t => t.casesOn w1 wm, fun t => t.casesOn w wl, rfl, ⟨?_, ?_⟩⟩
    · intro t ht
      cases t with
      | zero => exact a1
      | succ t =>
        have := hC.mats t (by omega)
        rw [show clock + 1 + t = clock + (t + 1) by omega] at this
        exact this
    · intro t ht
      cases t with
      | zero =>
        show LFM.sweepL env lfct lbdas (clock + 0 + 1) w1 = .ok (wl 0)
        rw [h0]; exact b1
      | succ t =>
        have := hC.lbdas t (by omega)
        rw [show clock + 1 + t = clock + (t + 1) by omega] at this
        exact this

/-- one turn of the sampling loop, given what the two sweeps return -/
theorem samplingStep_padded (H : Healthy env mats lbdas layers fct lfct I) (hnd : mats.Nodup) (hndl : lbdas.Nodup)
    {a b : Nat → Nat} {S ix ps : Nat} (hix : ix < S) (hps : ps ≠ 0) {m : Mach F G}
    (h : GoodI mats lbdas fct lfct I a b S ix m) {wm wl : World}
    (hm : LFM.sweepM env fct mats m.clock m.world = .ok wm) (hl : LFM.sweepL env lfct lbdas (m.clock + 1) wm = .ok wl) :
    (Fits mats a b wm → ∃ m', LFM.samplingStep env mats lbdas ps m = .ok m' ∧
      GoodI mats lbdas fct lfct I a b S (ix + 1) m' ∧ m'.world = wl ∧ m'.clock = m.clock + 1) ∧
    (¬ Fits mats a b wm → LFM.samplingStep env mats lbdas ps m = .error .valueError) := by
  obtain ⟨w1, h1, i1, k1⟩ := H.sampleMats h.fct h.inv
  obtain rfl : w1 = wm := by
    have e := h1
    rw [sampleMats_eq, h.fct, hm] at e
    exact congrArg Mach.world (Except.ok.inj e).symm
  obtain ⟨m1, hm1⟩ : ∃ m1 : Mach F G, m1 = { m with world := w1, clock := m.clock + 1 } := ⟨_, rfl⟩
  rw [← hm1] at h1
  have hmod : ∀ i, modelOf m1 i = modelOf m i := fun i => by rw [hm1]; rfl
  have hany : ∀ i ∈ mats, (mats.any fun i => modelOf m1 i = some "OR-AND-IBP") = true := by
    intro i hi
    rw [List.any_eq_true]
    exact ⟨i, hi, by simp [hmod, h.model i hi]⟩
  obtain ⟨ibp, hibp⟩ : ∃ ibp, (mats.any fun i => modelOf m1 i = some "OR-AND-IBP") = ibp := ⟨_, rfl⟩
  rw [hibp] at hany
  have t1 : ∀ i ∈ mats, m1.trace_index i = ix ∧ ∃ t, m1.trace i = some t ∧ t.shape = [S, a i, b i] := by
    rw [hm1]; exact h.trace
  obtain ⟨p1, p2⟩ := updateTracesM_padded hix mats hnd hany t1
  have hw1 : m1.world = w1 := by rw [hm1]
  rw [hw1] at p1 p2
  constructor
  · intro hfit
    obtain ⟨m2, h2⟩ := p1 hfit
    obtain ⟨o2, f2, -⟩ := updateTracesM_ok mats hnd h2
    have w2 : m2.world = w1 := by rw [o2, hm1]
    have l2 : m2.lfct = lfct := by rw [o2, hm1]; exact h.lfct
    have c2 : m2.clock = m.clock + 1 := by rw [o2, hm1]
    obtain ⟨w3, h3, i3, k3⟩ := H.sampleLbdas (m := m2) l2 (by rw [w2]; exact i1)
    rw [w2] at k3
    obtain rfl : w3 = wl := by
      have e := h3
      rw [sampleLbdas_eq, l2, c2, w2, hl] at e
      exact congrArg Mach.world (Except.ok.inj e).symm
    obtain ⟨m3, hm3⟩ : ∃ m3 : Mach F G, m3 = { m2 with world := w3 } := ⟨_, rfl⟩
    rw [← hm3] at h3
    obtain ⟨m4, g1, g2, g3, -⟩ := updateTracesL hix lbdas (m := m3) hndl (by
        intro k hk
        obtain ⟨a, t, b, c, d⟩ := h.ltrace k hk
        rw [hm3, o2, hm1]
        exact ⟨a, t, b, c, d.trans ((k1 k).symm.trans (k3 k).symm)⟩)
    have o4 := updateTracesL_only _ g1
    refine ⟨m4, ?_, ⟨?_, ?_, ?_, ?_, ?_, ?_⟩, ?_, ?_⟩
    · rw [LFM.samplingStep, h1]
      show ((mats.foldlM (updateTraceM (mats.any fun i => modelOf m1 i = some "OR-AND-IBP")) m1) >>= _) = _
      rw [hibp, h2]
      show (LFM.sampleLbdas env lbdas m2 >>= _) = _
      rw [h3]
      show (lbdas.foldlM updateTraceL m3 >>= _) = _
      rw [g1]
      simp [bind, Except.bind, hps, pure, Except.pure]
    · rw [g2, hm3]; exact i3
    · intro i hi
      have e : modelOf m4 i = modelOf m i := by rw [o4, hm3, o2, hm1]; rfl
      rw [e]; exact h.model i hi
    · rw [o4, hm3, o2, hm1]; exact h.fct
    · rw [o4, hm3, o2, hm1]; exact h.lfct
    · intro i hi
      obtain ⟨a, t, t', b, c, d⟩ := f2 i hi
      have e1 : m4.trace i = m2.trace i := by rw [o4, hm3]
      have e2 : m4.trace_index i = m2.trace_index i := by rw [o4, hm3]
      rw [e1, e2]
      refine ⟨by rw [a, (t1 i hi).1], t', c, ?_⟩
      obtain ⟨-, q, -, -⟩ := writeTrace_ok d
      obtain ⟨-, u, b', c'⟩ := t1 i hi
      rw [b] at b'
      cases b'
      rw [q, c']
    · exact g3
    · rw [g2, hm3]
    · rw [o4, hm3, o2, hm1]
  · intro hfit
    rw [LFM.samplingStep, h1]
    show ((mats.foldlM (updateTraceM (mats.any fun i => modelOf m1 i = some "OR-AND-IBP")) m1) >>= _) = _
    rw [hibp, p2 hfit]
    rfl

/-- the sampling loop raises exactly if one of the samples does not fit -/
theorem samplingLoop_padded (H : Healthy env mats lbdas layers fct lfct I) (hnd : mats.Nodup) (hndl : lbdas.Nodup)
    {a b : Nat → Nat} {S ps : Nat} (hps : ps ≠ 0) (todo : Nat) : ∀ {m : Mach F G} {ix : Nat} {wm wl : Nat → World},
    ix + todo = S → GoodI mats lbdas fct lfct I a b S ix m → wl 0 = m.world →
    Chain env fct lfct mats lbdas m.clock todo wm wl →
    ((∀ t < todo, Fits mats a b (wm t)) → ∃ m', LFM.samplingLoop env mats lbdas ps todo m = .ok m' ∧ m'.world = wl todo) ∧
    ((∃ t < todo, ¬ Fits mats a b (wm t)) → LFM.samplingLoop env mats lbdas ps todo m = .error .valueError) := by
  induction todo with
  | zero => intro m ix wm wl _ hg h0 _; exact ⟨fun _ => ⟨m, rfl, h0.symm⟩, fun ⟨t, ht, _⟩ => by omega⟩
  | succ todo ih =>
    intro m ix wm wl hix hg h0 hC
    obtain ⟨p1, p2⟩ := H.samplingStep_padded hnd hndl (show ix < S by omega) hps hg (wm := wm 0) (wl := wl 1)
      (by rw [← h0]; exact hC.mats 0 (by omega)) (hC.lbdas 0 (by omega))
    by_cases hf : Fits mats a b (wm 0)
    · obtain ⟨m1, h1, g1, w1, c1⟩ := p1 hf
      obtain ⟨q1, q2⟩ := ih (m := m1) (wm := fun t => wm (t + 1)) (wl := fun t => wl (t + 1))
        (show ix + 1 + todo = S by omega) g1 w1.symm (by
          rw [c1]
          refine ⟨fun t ht => ?_, fun t ht => ?_⟩
          · rw [show m.clock + 1 + t = m.clock + (t + 1) by omega]
            exact hC.mats (t + 1) (by omega)
          · rw [show m.clock + 1 + t = m.clock + (t + 1) by omega]
            exact hC.lbdas (t + 1) (by omega))
      rw [LFM.samplingLoop, h1]
      refine ⟨fun h => q1 fun t ht => h (t + 1) (by omega), fun ⟨t, ht, hn⟩ => q2 ?_⟩
      cases t with
      | zero => exact absurd hf hn
      | succ t => exact ⟨t, by omega, hn⟩
    · refine ⟨fun h => absurd (h 0 (by omega)) hf, fun _ => ?_⟩
      rw [LFM.samplingLoop, p2 hf]
      rfl

end Healthy

end LFM
