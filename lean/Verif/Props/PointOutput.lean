import Verif.Props.OutputMax
import Verif.Props.Canonise

/-!
# Property C84: predictions from the current state and from the majority of the samples
-/

namespace LFM

open Spec

/-- the state of a factor entry that is used by `factor_map`: one if it is one in more than half of the samples; the
current value if the factor has not been sampled -/
def Spec.Majority (f : OFac) (idx : List Nat) : Prop :=
  match f.trace with
  | none => f.val idx = 1
  | some tr => tr.length < 2 * (tr.map fun s => s idx).count 1

/-- the layer after `set_to_map` of all its factors -/
noncomputable def OLayer.allToMap (s : OLayer) : OLayer := { s with factors := s.factors.map OFac.set_to_map }

theorem set_to_map_sign (f : OFac) : f.set_to_map.val = f.mean.sign := by
  simp only [OFac.set_to_map]
  cases f.mean with
  | nums a =>
    simp only [FMean.sign, Arr.map]
    congr 1
    funext idx
    by_cases h : 0 < a idx <;> simp [h]
  | nans sh =>
    simp only [FMean.sign, Arr.map, Arr.full]
    congr 1

theorem majority_iff {L Lt : Nat} {f : OFac} (hf : LegalFac L Lt f) (hS : f.trace ≠ some [])
    (hw : L = Lt ∨ f.trace ≠ none) :
    f.mean.sign.shape = [f.val.shape.headD 0, Lt] ∧ PMArr f.mean.sign ∧
      ∀ idx, InB [f.val.shape.headD 0, Lt] idx → (f.mean.sign idx = 1 ↔ Majority f idx) := by
  rw [← set_to_map_sign]
  obtain ⟨N, hN, -⟩ := hf.shape
  have hd : f.val.dim 0 = N := by simp [Arr.dim, hN]
  cases ht : f.trace with
  | none =>
    have hL : L = Lt := hw.resolve_right fun h => h ht
    subst hL
    obtain ⟨h1, h2⟩ := C48_no_trace L L f hf ht
    refine ⟨by rw [h1, hN]; rfl, fun idx hidx => ?_, fun idx hidx => ?_⟩
    · rw [h1] at hidx
      rw [h2 idx hidx]; exact hf.val idx hidx
    · rw [hN] at hidx
      rw [h2 idx (by rw [hN]; exact hidx), Majority, ht]
  | some tr =>
    have htr : tr ≠ [] := by rintro rfl; exact hS ht
    obtain ⟨h1, h2, -, h4⟩ := C48_set_to_map L Lt f hf tr ht htr
    refine ⟨by rw [h2, hd, hN]; rfl, h1, fun idx hidx => ?_⟩
    rw [h4 idx (by rw [h2, hd]; rw [hN] at hidx; exact hidx), Majority, ht]

open Classical in
/-- a prediction as a probability: 1 or 0 -/
noncomputable def Spec.asProb (P : Prop) : NpF := .fin (if P then 1 else 0)

open Classical in
theorem asProb_pm (P : Prop) : NpF.fin ((1 + ((pm P : Int) : ℝ)) * (1 / 2)) = asProb P := by
  rw [asProb, pm_toReal]
  split <;> norm_num

open Classical in
theorem asProb_pm' (P : Prop) : NpF.fin (if pm P = 1 then (1 : ℝ) else 0) = asProb P := by
  rw [asProb]
  unfold pm
  split <;> simp

theorem point_generic (s : OLayer) (o i : LOp) (L : Nat) (hne : s.factors ≠ []) (hc : ∀ f ∈ s.factors, ∃ N, f.val.shape = [N, L])
    (hp : ∀ f ∈ s.factors, PMArr f.val) (hm : s.model = modelName o i) :
    ∃ X, outputGeneric "point_estimate" s = .ok X ∧ X.shape = rows s ∧ ∀ idx, InB (rows s) idx →
      X idx = asProb (lom o i fun (l : Fin L) (k : Fin s.factors.length) => s.factors[k].val [idx.getD k 0, l] = 1) := by
  obtain ⟨X, h1, h2, h3⟩ := fast_ok o i L (s.factors.map (·.val)) (by simpa using hne)
    (by
      intro a ha
      obtain ⟨f, hfm, rfl⟩ := List.mem_map.1 ha
      exact hc f hfm)
    (by
      intro a ha
      obtain ⟨f, hfm, rfl⟩ := List.mem_map.1 ha
      exact hp f hfm)
  have hrow : rowCounts (s.factors.map (·.val)) = rows s := by simp [rowCounts, rows, Function.comp_def]
  refine ⟨finArr (X.map fun (x : Int) => (1 + (x : ℝ)) * (1 / 2)), ?_, h2.trans hrow, fun idx hidx => ?_⟩
  · unfold outputGeneric
    rw [if_pos rfl, hm, h1]
    rfl
  · show NpF.fin ((1 + ((X idx : Int) : ℝ)) * (1 / 2)) = _
    rw [h3 idx (hrow ▸ hidx), asProb_pm]
    congr 1
    refine lom_congr_len (by simp) o i _ _ fun l k h1 h2 => ?_
    simp

theorem map_generic (s : OLayer) (o i : LOp) (L Lt : Nat) (hne : s.factors ≠ []) (hf : ∀ f ∈ s.factors, LegalFac L Lt f)
    (hS : ∀ f ∈ s.factors, f.trace ≠ some []) (hw : L = Lt ∨ ∀ f ∈ s.factors, f.trace ≠ none)
    (hm : s.model = modelName o i) :
    ∃ X, outputGeneric "factor_map" s = .ok X ∧ X.shape = rows s ∧ ∀ idx, InB (rows s) idx →
      X idx = asProb (lom o i fun (l : Fin Lt) (k : Fin s.factors.length) => Majority s.factors[k] [idx.getD k 0, l]) := by
  have hmaj := fun f hfm => majority_iff (hf f hfm) (hS f hfm) (hw.imp id fun h => h f hfm)
  obtain ⟨X, h1, h2, h3⟩ := fast_ok o i Lt (s.factors.map fun x => x.mean.sign) (by simpa using hne)
    (by
      intro a ha
      obtain ⟨f, hfm, rfl⟩ := List.mem_map.1 ha
      exact ⟨_, (hmaj f hfm).1⟩)
    (by
      intro a ha
      obtain ⟨f, hfm, rfl⟩ := List.mem_map.1 ha
      exact (hmaj f hfm).2.1)
  have hrow : rowCounts (s.factors.map fun x => x.mean.sign) = rows s := by
    simp only [rowCounts, rows, List.map_map]
    refine List.map_congr_left fun f hfm => ?_
    simp [(hmaj f hfm).1]
  refine ⟨finArr (X.map fun x => if x = 1 then (1 : ℝ) else 0), ?_, h2.trans hrow, fun idx hidx => ?_⟩
  · unfold outputGeneric
    rw [if_neg (by decide), if_pos rfl, hm, h1]
    rfl
  · show NpF.fin (if X idx = 1 then (1 : ℝ) else 0) = _
    rw [h3 idx (hrow ▸ hidx), asProb_pm']
    congr 1
    refine lom_congr_len (by simp) o i _ _ fun l k h1 h2 => ?_
    have hfm : s.factors[k] ∈ s.factors := List.getElem_mem _
    have hin : InB [s.factors[k].val.shape.headD 0, Lt] [idx.getD k 0, l] := by
      refine ⟨?_, l.2, trivial⟩
      have := hidx.getD (k := k) (by simpa [rows] using h2)
      simpa [rows, List.getElem?_eq_getElem h2] using this
    simpa using (hmaj _ hfm).2.2 _ hin

/-- **C84.** `output('point_estimate')` is one where the model predicts a one from the current factors, else zero: all 36
models (and OR-AND-IBP), any number of factors. -/
theorem C84_point_estimate (argsort : Arr ℝ → List Nat) (s : OLayer) (o i : LOp) (L Lt : Nat) (hne : s.factors ≠ [])
    (hf : ∀ f ∈ s.factors, LegalFac L Lt f) (hm : Computes s.model o i) :
    ∃ X, output argsort "point_estimate" false false true s = (.ok X, { s with prediction := some X }) ∧ X.shape = rows s ∧
      ∀ idx, InB (rows s) idx → X idx = asProb (lom o i fun (l : Fin L) (k : Fin s.factors.length) =>
        s.factors[k].val [idx.getD k 0, l] = 1) := by
  obtain ⟨X, h1, h2, h3⟩ := point_generic { s with model := modelName o i } o i L hne
    (fun f hfm => (hf f hfm).shape.imp fun N h => h.1) (fun f hfm => (hf f hfm).val) rfl
  refine ⟨X, ?_, h2, h3⟩
  rw [output_generic argsort "point_estimate" false true s o i hm X (by rw [h1]; rfl)]
  rfl

/-- **C84.** `output('factor_map')` is one where the model predicts a one from the majorities of the samples of each entry
(from current values for factors that have not been sampled), else zero: all 36 models (and OR-AND-IBP), any number of
factors, at least one sample if there is a trace. -/
theorem C84_factor_map (argsort : Arr ℝ → List Nat) (s : OLayer) (o i : LOp) (L Lt : Nat) (hne : s.factors ≠ [])
    (hf : ∀ f ∈ s.factors, LegalFac L Lt f) (hS : ∀ f ∈ s.factors, f.trace ≠ some [])
    (hw : L = Lt ∨ ∀ f ∈ s.factors, f.trace ≠ none) (hm : Computes s.model o i) :
    ∃ X, output argsort "factor_map" false false true s = (.ok X, { s with prediction := some X }) ∧ X.shape = rows s ∧
      ∀ idx, InB (rows s) idx → X idx = asProb (lom o i fun (l : Fin Lt) (k : Fin s.factors.length) =>
        Majority s.factors[k] [idx.getD k 0, l]) := by
  obtain ⟨X, h1, h2, h3⟩ := map_generic { s with model := modelName o i } o i L Lt hne hf hS hw rfl
  refine ⟨X, ?_, h2, h3⟩
  rw [output_generic argsort "factor_map" false true s o i hm X (by rw [h1]; rfl)]
  rfl

/-- **C84.** After `set_to_map` of all factors, `output('point_estimate')` is what `output('factor_map')` was. -/
theorem C84_set_to_map (argsort : Arr ℝ → List Nat) (s : OLayer) (o i : LOp) (L Lt : Nat) (hne : s.factors ≠ [])
    (hf : ∀ f ∈ s.factors, LegalFac L Lt f) (hS : ∀ f ∈ s.factors, f.trace ≠ some [])
    (hw : L = Lt ∨ ∀ f ∈ s.factors, f.trace ≠ none) (hm : Computes s.model o i) :
    ∃ X Y, (output argsort "factor_map" false false true s).1 = .ok X ∧
      (output argsort "point_estimate" false false true s.allToMap).1 = .ok Y ∧ X.shape = Y.shape ∧
      ∀ idx, InB X.shape idx → X idx = Y idx := by
  have hmaj := fun f hfm => majority_iff (hf f hfm) (hS f hfm) (hw.imp id fun h => h f hfm)
  obtain ⟨X, h1, h2, h3⟩ := C84_factor_map argsort s o i L Lt hne hf hS hw hm
  obtain ⟨Y, g1, g2, g3⟩ := point_generic { s.allToMap with model := modelName o i } o i Lt (by simpa [OLayer.allToMap] using hne)
    (by
      intro f' hf'
      obtain ⟨f, hfm, rfl⟩ := List.mem_map.1 hf'
      rw [set_to_map_sign]
      exact ⟨_, (hmaj f hfm).1⟩)
    (by
      intro f' hf'
      obtain ⟨f, hfm, rfl⟩ := List.mem_map.1 hf'
      rw [set_to_map_sign]
      exact (hmaj f hfm).2.1) rfl
  have hrow : rows s = rows s.allToMap := by
    simp only [rows, OLayer.allToMap, List.map_map]
    refine List.map_congr_left fun f hfm => ?_
    simp [set_to_map_sign, (hmaj f hfm).1]
  refine ⟨X, Y, by rw [h1], ?_, h2.trans (hrow.trans g2.symm), fun idx hidx => ?_⟩
  · rw [output_generic argsort "point_estimate" false true s.allToMap o i hm Y (by rw [g1]; rfl)]
    rfl
  · rw [h2] at hidx
    rw [h3 idx hidx, g3 idx (by rw [hrow] at hidx; exact hidx)]
    congr 1
    refine lom_congr_len (by simp [OLayer.allToMap]) o i _ _ fun l k h1 h2 => ?_
    have hfm : s.factors[k] ∈ s.factors := List.getElem_mem _
    have hin : InB [s.factors[k].val.shape.headD 0, Lt] [idx.getD k 0, l] := by
      refine ⟨?_, l.2, trivial⟩
      have := hidx.getD (k := k) (by simpa [rows] using h1)
      simpa [rows, List.getElem?_eq_getElem h1] using this
    simpa [OLayer.allToMap, set_to_map_sign] using ((hmaj _ hfm).2.2 _ hin).symm

/-- **C84**, MAX-AND: the same, for all factors and lambdas -/
theorem C84_set_to_map_max (argsort : Arr ℝ → List Nat) (s : OLayer) (hm : s.model = "MAX-AND") :
    (output argsort "point_estimate" false false true s.allToMap).1 = (output argsort "factor_map" false false true s).1 := by
  have h : outputMax argsort "point_estimate" s.allToMap = outputMax argsort "factor_map" s := by
    unfold outputMax
    have : (s.allToMap.factors.map fun x => x.val) = s.factors.map fun x => x.mean.sign := by
      simp [OLayer.allToMap, Function.comp_def, set_to_map_sign]
    rw [this]
    rfl
  rw [output_eq, output_eq]
  have e1 : ({ s.allToMap with model := if s.allToMap.model = "OR-AND-IBP" then "OR-AND" else s.allToMap.model } : OLayer) =
      s.allToMap := by
    have : s.allToMap.model = "MAX-AND" := hm
    rw [this, if_neg (by decide), ← this]
  have e2 : ({ s with model := if s.model = "OR-AND-IBP" then "OR-AND" else s.model } : OLayer) = s := by
    rw [hm, if_neg (by decide), ← hm]
  rw [e1, e2]
  have c1 : computeOutput argsort "point_estimate" false s.allToMap = outputMax argsort "point_estimate" s.allToMap := by
    unfold computeOutput
    rw [if_pos (show s.allToMap.model = "MAX-AND" from hm)]
  have c2 : computeOutput argsort "factor_map" false s = outputMax argsort "factor_map" s := by
    unfold computeOutput
    rw [if_pos hm]
  rw [c1, c2, h]
  cases outputMax argsort "factor_map" s <;> rfl

/-- a layer of two sampled factors: the majority of the samples predicts a one, the current state does not -/
def twoSampled : OLayer where
  model := "OR-AND"
  factors := [sampledFac, sampledFac]
  lbda := .scalar (.fin 1) none
  q := Arr.full [] 0
  childShape := [1, 1]
  prediction := none

/-- the hypotheses of C84 are met, by a layer for which the two techniques differ -/
theorem C84_hypotheses_met : twoSampled.factors ≠ [] ∧ (∀ f ∈ twoSampled.factors, LegalFac 1 1 f) ∧
    (∀ f ∈ twoSampled.factors, f.trace ≠ some []) ∧ Computes twoSampled.model .OR .AND ∧
    (lom .OR .AND fun (_ : Fin 1) (k : Fin twoSampled.factors.length) => Majority twoSampled.factors[k] [0, 0]) ∧
    ¬ lom .OR .AND fun (_ : Fin 1) (k : Fin twoSampled.factors.length) => twoSampled.factors[k].val [0, 0] = 1 := by
  have hall : ∀ f ∈ twoSampled.factors, f = sampledFac := by
    intro f hf
    simp only [twoSampled, List.mem_cons, List.not_mem_nil, or_false, or_self] at hf
    exact hf
  have hk : ∀ k : Fin twoSampled.factors.length, twoSampled.factors[k] = sampledFac := fun k => hall _ (List.getElem_mem _)
  refine ⟨by simp [twoSampled], fun f hf => hall f hf ▸ C48_hypotheses_met.1, fun f hf => ?_, Or.inl (by decide), ?_, ?_⟩
  · rw [hall f hf]; simp [sampledFac]
  · refine ⟨0, fun k => ?_⟩
    show Majority twoSampled.factors[k] [0, 0]
    rw [hk]
    show 3 < 2 * List.count 1 [_, _, _]
    decide
  · rintro ⟨l, h⟩
    have h0 : twoSampled.factors[(⟨0, by decide⟩ : Fin twoSampled.factors.length)].val [0, 0] = 1 := h ⟨0, by decide⟩
    rw [hk] at h0
    exact absurd h0 (by decide)

end LFM
