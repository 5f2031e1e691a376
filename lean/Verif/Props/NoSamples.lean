import Verif.Props.Output


/-!
# C49: outputs of a layer after inference without samples
-/

namespace LFM

open Spec

theorem allNums_none {fs : List OFac} (h : ∃ f ∈ fs, f.trace = some []) : allNums (fs.map OFac.mean) = none := by
  induction fs with
  | nil => obtain ⟨f, hf, _⟩ := h; cases hf
  | cons f fs ih =>
    obtain ⟨g, hg, ht⟩ := h
    rcases List.mem_cons.1 hg with rfl | hg
    · have : g.mean = .nans g.val.shape := by simp [OFac.mean, ht]
      rw [List.map_cons, this, allNums]
    · rw [List.map_cons]
      cases f.mean with
      | nans sh => rfl
      | nums a => rw [allNums, ih ⟨g, hg, ht⟩]; rfl

theorem orZero_shape {f : OFac} (h : f.trace = some [] ∨ f.trace = none) : f.mean.orZero.shape = f.val.shape := by
  rcases h with h | h <;> simp [OFac.mean, h, FMean.orZero, Arr.full, toReal, Arr.map]

/-- **C49** fails for a layer of two factors whose inference drew no samples (`no_samples = 0`): the output from the means is nan in every cell, also
if one of the factors was fixed and has no trace, for all eight models -/
theorem C49_no_samples_wrong (argsort : Arr ℝ → List Nat) (mp : Bool) (s : OLayer) (m : Lom8) {N D L : Nat} {z u : OFac}
    (hs : s.factors = [z, u]) (hm : Computes s.model m.outer m.inner) (hz : z.val.shape = [N, L]) (hu : u.val.shape = [D, L])
    (ht : ∀ f ∈ s.factors, f.trace = some [] ∨ f.trace = none) (hnone : ∃ f ∈ s.factors, f.trace = some []) :
    (output argsort "factor_mean" false false mp s).1 = .ok (Arr.full [N, D] .nan) := by
  have h1 := (orZero_shape (ht z (by simp [hs]))).trans hz
  have h2 := (orZero_shape (ht u (by simp [hs]))).trans hu
  obtain ⟨X, e1, e2, -⟩ := C52_exact_expectation m N D L (z.mean.orZero.map fun x => (x + 1) * (1 / 2))
    (u.mean.orZero.map fun x => (x + 1) * (1 / 2)) h1 h2
  have himp : modelName m.outer m.inner ∈ implemented_loms := (implemented_iff _).2 ⟨m, rfl⟩
  have hg : outputGeneric "factor_mean" { s with model := modelName m.outer m.inner } = .ok (Arr.full [N, D] .nan) := by
    unfold outputGeneric
    rw [if_neg (by decide), if_neg (by decide), if_pos rfl]
    unfold liftMeans
    rw [show allNums (OLayer.factors { s with model := modelName m.outer m.inner } |>.map OFac.mean) = none from allNums_none hnone]
    have hX : lom_generate_data_fast_fuzzy ((s.factors.map fun f => f.mean.orZero).map fun a => a.map fun x => (x + 1) * (1 / 2))
        (modelName m.outer m.inner) = .ok X := by
      rw [hs]
      unfold lom_generate_data_fast_fuzzy
      rw [if_neg (not_not.2 himp)]
      exact e1
    have hf : hasFormula s.factors.length (modelName m.outer m.inner) = true := by
      simp [hasFormula, himp, hs]
    show (lom_generate_data_fast_fuzzy ((s.factors.map fun f => f.mean.orZero).map fun a => a.map fun x => (x + 1) * (1 / 2))
      (modelName m.outer m.inner) >>= fun out => if hasFormula s.factors.length (modelName m.outer m.inner) = true then
        pure (Arr.full out.shape .nan) else pure (finArr out)) = _
    rw [hX, hf, ← e2]
    rfl
  rw [output_generic argsort "factor_mean" false mp s m.outer m.inner hm (Arr.full [N, D] .nan)]
  · cases mp <;> rfl
  · rw [hg]
    rfl

/-- **C49**: three factors of other models than OR-AND and no samples: the output is that of factors that are all -1 -/
theorem C49_no_samples_3d (argsort : Arr ℝ → List Nat) (s : OLayer) (m : Lom8) (hOA : m ≠ .OR_AND) {N D M L : Nat} {z u v : OFac}
    (hs : s.factors = [z, u, v]) (hm : s.model = m.name) (hz : z.val.shape = [N, L]) (hu : u.val.shape = [D, L]) (hv : v.val.shape = [M, L])
    (ht : ∀ f ∈ s.factors, f.trace = some []) :
    ∃ X, (output argsort "factor_mean" false false true s).1 = .ok X ∧ X.shape = [N, D, M] ∧
      ∀ idx, InB [N, D, M] idx → X idx = .fin (pm (lom m.outer m.inner fun (_ : Fin L) (_ : Fin 3) => False) : Int) := by
  have hsh : ∀ f ∈ s.factors, f.mean = .nans f.val.shape := fun f hf => by simp [OFac.mean, ht f hf]
  obtain ⟨X, h1, h2, h3⟩ := C03_all_models_all_arities m.outer m.inner L
    ([Arr.full [N, L] 0, Arr.full [D, L] 0, Arr.full [M, L] 0] : List (Arr Int)) (by simp)
    (by
      intro f hf
      simp only [List.mem_cons, List.not_mem_nil, or_false] at hf
      rcases hf with rfl | rfl | rfl
      · exact ⟨N, rfl⟩
      · exact ⟨D, rfl⟩
      · exact ⟨M, rfl⟩)
  have himp : modelName m.outer m.inner ∈ implemented_loms := (implemented_iff _).2 ⟨m, rfl⟩
  have hne : modelName m.outer m.inner ≠ "OR-AND" := by
    revert hOA
    cases m <;> decide
  have hg : outputGeneric "factor_mean" { s with model := modelName m.outer m.inner } = .ok (finArr (toReal X)) := by
    unfold outputGeneric
    rw [if_neg (by decide), if_neg (by decide), if_pos rfl]
    unfold liftMeans
    rw [show allNums (OLayer.factors { s with model := modelName m.outer m.inner } |>.map OFac.mean) = none from
      allNums_none ⟨z, by simp [hs], ht z (by simp [hs])⟩]
    have hX : lom_generate_data_fast_fuzzy ((s.factors.map fun f => f.mean.orZero).map fun a => a.map fun x => (x + 1) * (1 / 2))
        (modelName m.outer m.inner) = .ok (toReal X) := by
      rw [hs]
      unfold lom_generate_data_fast_fuzzy
      rw [if_neg (not_not.2 himp)]
      show (if modelName m.outer m.inner = "OR-AND" then _ else toReal <$> lom_generate_data_real _ _) = _
      rw [if_neg hne]
      unfold lom_generate_data_real
      have e : ∀ f ∈ s.factors, ((f.mean.orZero.map fun x => (x + 1) * (1 / 2)).map fun x => if x = 1 then (1 : Int) else 0) =
          Arr.full f.val.shape 0 := by
        intro f hf
        rw [hsh f hf]
        simp only [FMean.orZero, Arr.full, Arr.map]
        congr 1
        funext i
        norm_num
      simp only [List.map_cons, List.map_nil]
      rw [e z (by simp [hs]), e u (by simp [hs]), e v (by simp [hs]), hz, hu, hv, h1]
      rfl
    have hf : hasFormula s.factors.length (modelName m.outer m.inner) = false := by
      simp [hasFormula, hs, hne]
    show (lom_generate_data_fast_fuzzy ((s.factors.map fun f => f.mean.orZero).map fun a => a.map fun x => (x + 1) * (1 / 2))
      (modelName m.outer m.inner) >>= fun out => if hasFormula s.factors.length (modelName m.outer m.inner) = true then
        pure (Arr.full out.shape .nan) else pure (finArr out)) = _
    rw [hX, hf]
    rfl
  refine ⟨finArr (toReal X), ?_, h2, fun idx hidx => ?_⟩
  · rw [output_generic argsort "factor_mean" false true s m.outer m.inner (Or.inl hm) (finArr (toReal X))]
    · rfl
    · rw [hg]
      rfl
  · show NpF.fin ((X idx : Int) : ℝ) = _
    rw [h3 idx hidx]
    congr 3
    apply congrArg
    funext l k
    match k with
    | 0 => simp [Arr.full]
    | 1 => simp [Arr.full]
    | 2 => simp [Arr.full]

/-- a case of these theorems -/
theorem C49_no_samples_met : ∃ (s : OLayer) (z u : OFac), s.factors = [z, u] ∧ Computes s.model .OR .AND ∧ z.val.shape = [2, 1] ∧
    u.val.shape = [3, 1] ∧ (∀ f ∈ s.factors, f.trace = some []) := by
  refine ⟨⟨"OR-AND", [⟨Arr.full [2, 1] 1, some []⟩, ⟨Arr.full [3, 1] 1, some []⟩], .scalar (.fin 0) none, Arr.full [] 0, [2, 3], none⟩, _, _, rfl,
    Or.inl (by decide), rfl, rfl, ?_⟩
  intro f hf
  simp only [List.mem_cons, List.not_mem_nil, or_false] at hf
  rcases hf with rfl | rfl <;> rfl

end LFM
