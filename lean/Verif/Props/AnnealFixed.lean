import Verif.Lemmas.AnnealFlag
import Verif.Props.Described

/-!
# C44: annealing a machine all of whose lambdas are fixed
-/

namespace LFM

/-- **C44**, fixed lambdas keep their values and annealing changes nothing: inference with `anneal=True` succeeds if and only
if it does with `anneal=False`, with the same result. In particular C78 to C80 and C104 hold with annealing, too. -/
theorem C44_fixed_lambdas (wr : Wiring) (S cw : Nat) (eps : ℝ) (bmin : Nat) (bmax : Int) (ps : Nat) (m : Mach Sampler LbdaUpdate)
    (hl : ∀ k < m.layers.length, m.lfixed k = true) :
    infer (genericEnv wr) S cw eps bmin bmax ps 0 { m with anneal := true } =
      (infer (genericEnv wr) S cw eps bmin bmax ps 0 { m with anneal := false }).map fun m' => { m' with anneal := true } := by
  refine infer_annealed (b := true) (b' := false) (fun _ _ _ => rfl) S cw eps bmin bmax ps m ?_
  rw [freeLbdas, List.filter_eq_nil_iff]
  intro k hk
  simp [hl k (List.mem_range.1 hk)]

/-- there are such machines that are inferred: that of C104 -/
theorem C44_fixed_hypotheses_met : (∀ k < shop3.m.layers.length, shop3.m.lfixed k = true) ∧
    ∃ m', infer (genericEnv (shop3.wiring plainDraws)) 5 15 0.001 10 100 10 0 { shop3.m with anneal := false } = .ok m' := by
  have hb := C104_hypotheses_met
  refine ⟨hb.2.2.1.lfixed, ?_⟩
  have hc : CallOK shop3 15 10 0 plainDraws := callOK_plain rfl fun k lr hk => by
    obtain ⟨-, rfl⟩ := shop3_layer hk
    simp [LayerInfo.Cleans]
  have hr : Ready shop3 := ready_two shop3_built rfl rfl fun k lr hk => by
    obtain ⟨-, rfl⟩ := shop3_layer hk
    rfl
  obtain ⟨s', h'⟩ := (C102_infer_iff shop3_built 5 15 0.001 10 100 10 0 plainDraws hc).mpr hr
  rw [Workshop.infer, bind_ok] at h'
  obtain ⟨m', h', -⟩ := h'
  exact ⟨m', h'⟩

end LFM
