import Verif.Props.AnnealFixed

/-!
# C104: later calls of `infer`
-/

namespace LFM

open Spec

theorem assigned_now {s : Workshop} (H : s.Sound) (dr : Draws) (xs : List Nat) : ∀ {m m' : Mach Sampler LbdaUpdate},
    Static s.m m → xs.foldlM (assignFct (genericEnv (s.wiring dr))) m = .ok m' →
    (∀ i f, m.fct i = some f → getSampler (s.wiring dr) s.m i = .ok (some f, none)) →
    ∀ i f, m'.fct i = some f → getSampler (s.wiring dr) s.m i = .ok (some f, none) := by
  induction xs with
  | nil =>
    intro m m' _ h hf
    rw [List.foldlM_nil, pure_ok] at h
    rw [← h]; exact hf
  | cons j xs ih =>
    intro m m' S h hf
    rw [List.foldlM_cons, bind_ok] at h
    obtain ⟨n, h1, h2⟩ := h
    refine ih (m := n) ?_ h2 ?_
    · exact S.trans (assignFct_keeps h1).1
    · rw [assignFct] at h1
      cases hj : m.fct j with
      | some g =>
        rw [hj] at h1
        cases h1
        exact hf
      | none =>
        rw [hj] at h1
        obtain ⟨⟨g, e⟩, q1, q2⟩ := bind_ok.mp h1
        have q1' : getSampler (s.wiring dr) m j = .ok (g, e) := q1
        have he := H.no_extra S.layers q1'
        subst he
        rw [getSampler_congr (s.wiring dr) (m := s.m) j S.layers S.layerOf (by rw [S.bernoulli_prior])] at q1'
        rw [pure_ok] at q2
        intro i f hi
        rw [← q2] at hi
        by_cases hij : i = j
        · subst hij
          have : g = some f := by simpa [upd] using hi
          rw [q1', this]
        · exact hf i f (by simpa [upd, hij] using hi)

/-- **C104**, later calls: after an inference the machine stands for the same hierarchy, and the conditions of
`C104_stationary_partial`, `C104_converges_partial` and `C104_average_partial` are met again. -/
theorem C104_again {h : Hier} {s s' : Workshop} {num : Equiv.Perm Nat} (hb : Built s) (D : h.Describes s num) (C : FixedCall s)
    {S cw : Nat} {eps : ℝ} {bmin : Nat} {bmax : Int} {ps fx : Nat} {dr : Draws} (hc : CallOK s cw ps fx dr)
    (hs : s.infer S cw eps bmin bmax ps fx dr = .ok s') : Built s' ∧ h.Describes s' num ∧ FixedCall s' := by
  have hb' : Built s' := .act (.infer S cw eps bmin bmax ps fx dr) hb hc hs
  have hnone : freeLbdas s.m = [] := by
    rw [freeLbdas, List.filter_eq_nil_iff]
    intro k hk
    simp [C.lfixed k (List.mem_range.1 hk)]
  obtain ⟨a1, a2, a3, -, -, a6, a7, a8, a9, -⟩ := C102_after_infer hb S cw eps bmin bmax ps fx dr hc hs
  rw [Workshop.infer, bind_ok] at hs
  obtain ⟨m', h1, h2⟩ := hs
  rw [pure_ok] at h2
  obtain ⟨st, m1, m2, f1, f2, f3, -⟩ := infer_static hb.sound.nodup_free (fun t i hi => hc.perm t _ i hi) h1
  have hm : s'.m = m' := by rw [← h2]
  have hch : s'.child = s.child := by rw [← h2]
  have hw : ∀ d, s'.wiring d = s.wiring d := by
    intro d
    rw [← h2]
    unfold Workshop.wiring
    rw [st.layers, st.layerOf]
  have off : ∀ (k : Nat) (lr : LayerInfo), s.m.layers[k]? = some lr → ¬ lr.Cleans := by
    intro k lr hk hcl
    obtain ⟨o1, o2⟩ := C.off lr (List.mem_of_getElem? hk)
    simp [LayerInfo.Cleans, o1, o2] at hcl
  refine ⟨hb', ⟨?_, ?_, ?_, ?_, ?_, ?_⟩, ⟨?_, ?_, ?_, ?_, ?_⟩⟩
  · intro i
    rw [D.latent i, hm, st.layerOf]
  · intro i hi
    obtain ⟨k, hk⟩ := Option.ne_none_iff_exists'.mp ((D.latent i).1 hi)
    obtain ⟨-, lr, e1, e2⟩ := hb.sound.owner _ k hk
    rw [(a3 k lr _ e1 (off k lr e1) e2).1]
    exact D.shape i hi
  · intro i hi
    have : s.m.layerOf (num i) = none := by
      by_contra hc'
      exact absurd ((D.latent i).2 hc') (by omega)
    rw [a1 _ this]
    exact D.data i hi
  · intro i hi
    rw [D.prior i hi, hm, st.bernoulli_prior]
  · rw [a6]; exact D.length
  · intro k L hL
    obtain ⟨lr, e1, e2, e3, e4, e5⟩ := D.layers k L hL
    refine ⟨lr, by rw [a6]; exact e1, e2, e3, by rw [hch]; exact e4, ?_⟩
    rw [a2 k (by rw [hnone]; simp)]
    exact e5
  · intro k hk
    rw [a6] at hk
    rw [a9]
    exact C.lfixed k hk
  · intro i hi
    rw [hm, st.layerOf]
    refine C.data i ?_
    rw [freeMats, members] at hi ⊢
    rw [a6, a7, a8] at hi
    exact hi
  · rw [hm, st.anneal]; exact C.anneal
  · intro lr hlr
    rw [a6] at hlr
    exact C.off lr hlr
  · intro i f hf d
    rw [hm, f3] at hf
    rw [hnone, List.foldlM_nil, pure_ok] at f2
    rw [← f2] at hf
    have key := assigned_now hb.sound dr (freeMats s.m) (Static.refl s.m) f1 (fun i f hf => C.fct i f hf dr) i f hf
    rw [hw d, getSampler_congr (s.wiring d) (m := s.m) i a6 (by rw [hm, st.layerOf]) (by rw [hm, st.bernoulli_prior])]
    exact key

/-- after an inference of a machine without free matrices other than factors, another one succeeds -/
theorem infer_next {s s' : Workshop} {h : Hier} {num : Equiv.Perm Nat} (hb : Built s) (D : h.Describes s num) (C : FixedCall s)
    (hs : s.infer 5 15 0.001 10 100 10 0 plainDraws = .ok s') :
    CallOK s 15 10 0 plainDraws ∧ CallOK s' 15 10 0 plainDraws ∧ freeMats s'.m = freeMats s.m ∧
      (∀ i ∈ freeMats s'.m, s'.m.fct i ≠ none) ∧ ∃ s'', s'.infer 5 15 0.001 10 100 10 0 plainDraws = .ok s'' := by
  have call : ∀ {t : Workshop}, FixedCall t → CallOK t 15 10 0 plainDraws := fun {t} Ct =>
    callOK_plain Ct.anneal fun k lr hk hcl => by
      obtain ⟨o1, o2⟩ := Ct.off lr (List.mem_of_getElem? hk)
      simp [LayerInfo.Cleans, o1, o2] at hcl
  obtain ⟨hb', -, C'⟩ := C104_again hb D C (call C) hs
  obtain ⟨-, -, -, -, -, a6, a7, a8, -, a10⟩ := C102_after_infer hb 5 15 0.001 10 100 10 0 plainDraws (call C) hs
  have hfree : freeMats s'.m = freeMats s.m := by rw [freeMats, freeMats, members, members, a6, a7, a8]
  refine ⟨call C, call C', hfree, ?_, (C102_infer_iff hb' 5 15 0.001 10 100 10 0 plainDraws (call C')).mpr a10⟩
  rw [hfree]
  rw [Workshop.infer, bind_ok] at hs
  obtain ⟨m', h1, h2⟩ := hs
  rw [pure_ok] at h2
  obtain ⟨m'', e1, -, -, -, -, -, -, e8, -⟩ :=
    hb.sound.infer_ok (hb.sound.infer_ready (call C).perm h1) 5 15 0.001 10 100 10 0 plainDraws (call C)
  rw [h1] at e1
  cases e1
  rw [← h2]
  exact e8

/-- there are machines that are inferred for the second time under these hypotheses, and all of their sampling functions
come from the first call -/
theorem C104_again_hypotheses_met : ∃ (h : Hier) (num : Equiv.Perm Nat) (s s' : Workshop),
    h.Legal ∧ Built s ∧ h.Describes s num ∧ FixedCall s ∧ CallOK s 15 10 0 plainDraws ∧ freeMats s.m = [1, 2] ∧
    (∀ i ∈ freeMats s.m, s.m.fct i ≠ none) ∧ s.infer 5 15 0.001 10 100 10 0 plainDraws = .ok s' := by
  obtain ⟨hb, P, C, hfree, -⟩ := C104_hypotheses_met
  obtain ⟨h, num, H, D⟩ := C104_described hb P
  obtain ⟨m', hm⟩ := C44_fixed_hypotheses_met.2
  have hs : shop3.infer 5 15 0.001 10 100 10 0 plainDraws = .ok { shop3 with m := m' } := by
    rw [Workshop.infer]
    exact bind_ok.mpr ⟨m', hm, rfl⟩
  obtain ⟨c1, c2, c3, c4, s'', c5⟩ := infer_next hb D C hs
  obtain ⟨b1, b2, b3⟩ := C104_again hb D C c1 hs
  exact ⟨h, num, _, s'', H, b1, b2, b3, c2, c3.trans hfree, c4, c5⟩

end LFM
