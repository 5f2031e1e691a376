import Verif.Props.AddLayer
import Verif.Props.OutputState
import Verif.Props.BurnIn
import Verif.Props.Infer
import Verif.Props.Noise
import Verif.Model.Experiments

/-!
# C118, C119: layers that are added by their shape; arguments that cannot be served
-/

namespace LFM

open Spec

/-! ## C118 -/

/-- the operators whose negation is used for the data, as far as the name of a model tells -/
def Spec.NegatedOuter (o : LOp) : Prop := o = .AND ∨ o = .NOR ∨ o = .NXOR

instance (o : LOp) : Decidable (Spec.NegatedOuter o) := inferInstanceAs (Decidable (_ ∨ _ ∨ _))

/-- the canonical form of the 36 names: data are inverted exactly for the outer operators AND, NOR and NXOR -/
theorem canonical_form_outer (o i : LOp) : ∃ m f, canonical_form (modelName o i) = .ok (m, decide (NegatedOuter o), f) ∧
    m ≠ "qL-AND" := by
  cases o <;> cases i <;> exact ⟨_, _, rfl, by decide⟩

/-- **C118** is false for half of the models: with a shape instead of a child, the models with outer operator AND, NOR
or NXOR raise AttributeError (there is no child whose values could be inverted); machine and data stay as they were. -/
theorem C118_wrong (s : Sys) (o i : LOp) (ho : NegatedOuter o) (sh : List Nat) (fresh : List Nat → Int) :
    add_layer s ⟨none, some sh, modelName o i, fresh⟩ = (s, .error .attributeError) := by
  obtain ⟨m, f, h, -⟩ := canonical_form_outer o i
  rw [decide_eq_true ho] at h
  unfold add_layer
  simp only [canonise_model, h, Option.map, if_true, Sys.setData]

/-- **C118** (partial, see `C118_wrong`): with a shape instead of a child, all models with outer operator OR, NAND or XOR
create a matrix of that shape and a layer on it; nothing else changes -/
theorem C118_shape_partial (s : Sys) (o i : LOp) (ho : ¬ NegatedOuter o) (sh : List Nat) (fresh : List Nat → Int) :
    ∃ s' layer, add_layer s ⟨none, some sh, modelName o i, fresh⟩ = (s', .ok layer) ∧ s'.layers = s.layers ++ [layer] ∧
      layer.child = s.next ∧ s'.next = s.next + 1 ∧ s'.data s.next = ⟨sh, fresh⟩ ∧ (∀ j, j ≠ s.next → s'.data j = s.data j) ∧
      layer.invert_data = false := by
  obtain ⟨m, f, h, hq⟩ := canonical_form_outer o i
  rw [decide_eq_false ho] at h
  unfold add_layer
  simp only [canonise_model, h, Option.map, Sys.setData, attach, hq, false_and, if_false, Bool.false_eq_true]
  exact ⟨_, _, rfl, rfl, rfl, rfl, if_pos rfl, fun j hj => if_neg hj, rfl⟩

/-- **C118**, the special models: a layer by its shape works for MAX-AND and OR-AND-IBP, and for qL-AND with at least two
axes; with less, IndexError is raised, no layer is added, but the child has been made. -/
theorem C118_special (s : Sys) (model : String) (hm : model = "MAX-AND" ∨ model = "OR-AND-IBP" ∨ model = "qL-AND")
    (sh : List Nat) (fresh : List Nat → Int) :
    (model = "qL-AND" ∧ sh.length < 2 →
      (add_layer s ⟨none, some sh, model, fresh⟩).2 = .error .indexError ∧
      (add_layer s ⟨none, some sh, model, fresh⟩).1.layers = s.layers) ∧
    (¬ (model = "qL-AND" ∧ sh.length < 2) →
      ∃ s' layer, add_layer s ⟨none, some sh, model, fresh⟩ = (s', .ok layer) ∧ s'.layers = s.layers ++ [layer] ∧
        layer.child = s.next ∧ layer.model = model ∧ s'.data s.next = ⟨sh, fresh⟩ ∧
        (∀ j, j ≠ s.next → s'.data j = s.data j) ∧ layer.invert_data = false) := by
  have h : canonical_form model = .ok (model, false, false) := by
    rcases hm with rfl | rfl | rfl <;> rfl
  have hadd : add_layer s ⟨none, some sh, model, fresh⟩ = attach s ⟨none, some sh, model, fresh⟩ model false false := by
    unfold add_layer
    simp only [canonise_model, h, Option.map, Sys.setData, if_false, Bool.false_eq_true]
  rw [hadd]
  constructor
  · intro hq
    simp only [attach]
    rw [if_pos hq]
    exact ⟨rfl, rfl⟩
  · intro hq
    simp only [attach]
    rw [if_neg hq]
    exact ⟨_, _, rfl, rfl, rfl, rfl, if_pos rfl, fun j hj => if_neg hj, rfl⟩

/-- **C118**, wrong shape information: with neither child nor shape, ValueError is raised for the models that do not
invert data and AttributeError for the others, and nothing changes; with both, ValueError is raised for all of them (the
values of the child may have been inverted, `C11_failure_inverts`), no layer is added. -/
theorem C118_no_shape (s : Sys) (o i : LOp) (sh : List Nat) (id : Nat) (fresh : List Nat → Int) :
    add_layer s ⟨none, none, modelName o i, fresh⟩ =
      (s, .error (if NegatedOuter o then .attributeError else .valueError)) ∧
    (add_layer s ⟨some id, some sh, modelName o i, fresh⟩).2 = .error .valueError ∧
    (add_layer s ⟨some id, some sh, modelName o i, fresh⟩).1.layers = s.layers := by
  obtain ⟨m, f, h, -⟩ := canonical_form_outer o i
  by_cases ho : NegatedOuter o
  · rw [decide_eq_true ho] at h
    unfold add_layer
    simp only [canonise_model, h, Option.map, if_true, Sys.setData, attach, if_pos ho]
    exact ⟨trivial, trivial, trivial⟩
  · rw [decide_eq_false ho] at h
    unfold add_layer
    simp only [canonise_model, h, Option.map, Sys.setData, attach, if_neg ho, if_false, Bool.false_eq_true]
    exact ⟨trivial, trivial, trivial⟩

/-- both cases of C118 occur: `AND-AND` and `OR-AND` -/
example : NegatedOuter .AND ∧ ¬ NegatedOuter .OR ∧ modelName .AND .AND = "AND-AND" ∧ modelName .OR .AND = "OR-AND" := by
  decide

/-! ## C119 -/

variable {F G : Type}

/-- **C119**, printing: with `print_step=0`, burn-in raises ZeroDivisionError in its first turn, whatever the machine and
the other arguments, before anything is sampled -/
theorem C119_print_step (env : Env F G) (mats lbdas : List Nat) (eps : ℝ) (cw bmin : Nat) (bmax : Int) (fx : Nat)
    (m : Mach F G) : burn_in env mats lbdas eps cw bmin bmax 0 fx m = .error .zeroDivision := by
  cases bmin with
  | zero => exact C40_zero env mats lbdas eps cw bmax 0 fx m (.inl rfl)
  | succ b =>
    unfold burn_in
    rw [preLoop, preStep]
    rfl

/-- **C119**, printing: so does inference, for all machines whose sampling functions can be found; others raise the
exception of the search. It never returns. -/
theorem C119_infer_print_step (env : Env F G) (S cw bmin : Nat) (eps : ℝ) (bmax : Int) (fx : Nat) (m m1 m2 : Mach F G)
    (h1 : (freeMats m).foldlM (assignFct env) m = .ok m1) (h2 : (freeLbdas m).foldlM (assignLfct env) m1 = .ok m2) :
    infer env S cw eps bmin bmax 0 fx m = .error .zeroDivision := by
  unfold infer
  simp only [h1, h2, bind, Except.bind, C119_print_step]

/-- **C119**, printing: no inference with `print_step=0` returns -/
theorem C119_infer_never (env : Env F G) (S cw bmin : Nat) (eps : ℝ) (bmax : Int) (fx : Nat) (m m' : Mach F G) :
    infer env S cw eps bmin bmax 0 fx m ≠ .ok m' := by
  intro h
  unfold infer at h
  cases h1 : (freeMats m).foldlM (assignFct env) m with
  | error e =>
    simp only [h1, bind, Except.bind] at h
    cases h
  | ok m1 =>
    cases h2 : (freeLbdas m).foldlM (assignLfct env) m1 with
    | error e =>
      simp only [h1, h2, bind, Except.bind] at h
      cases h
    | ok m2 =>
      simp only [h1, h2, bind, Except.bind, C119_print_step] at h
      cases h

/-- **C119**, window: with `convergence_window=0` no burn-in returns; if the first loop succeeds, ZeroDivisionError is raised -/
theorem C119_window (env : Env F G) (mats lbdas : List Nat) (eps : ℝ) (bmin : Nat) (bmax : Int) (ps fx : Nat)
    (m : Mach F G) : (∀ m', burn_in env mats lbdas eps 0 bmin bmax ps fx m ≠ .ok m') ∧
      ∀ m1, preLoop env mats lbdas bmin ps fx bmin [] m = .ok m1 →
        burn_in env mats lbdas eps 0 bmin bmax ps fx m = .error .zeroDivision := by
  have key : ∀ m1, preLoop env mats lbdas bmin ps fx bmin [] m = .ok m1 →
      burn_in env mats lbdas eps 0 bmin bmax ps fx m = .error .zeroDivision := by
    intro m1 h
    unfold burn_in
    rw [h]
    exact mainLoop_zero (.inr rfl)
  refine ⟨fun m' h => ?_, key⟩
  cases hp : preLoop env mats lbdas bmin ps fx bmin [] m with
  | ok m1 => rw [key m1 hp] at h; cases h
  | error e =>
    unfold burn_in at h
    rw [hp] at h
    cases h

/-- **C119**, annealing: the annealing steps from a lambda of zero cannot be computed, from any other number they can -/
theorem C119_anneal (b : Nat) (x : ℝ) (hb : 1 ≤ b) :
    (x = 0 → annealing b (.scalar (.fin x)) = .error .zeroDivision) ∧
    (x ≠ 0 → ∃ steps, annealing b (.scalar (.fin x)) = .ok steps) := by
  have hb' : (b : ℝ) ≠ 0 := by positivity
  unfold annealing npArange
  constructor
  · intro h
    rw [h]
    simp
  · intro h
    dsimp only
    rw [if_neg (div_ne_zero h hb')]
    exact ⟨_, rfl⟩

/-- **C119**, annealing: if the matrices can be sampled once and a lambda is zero then (all of them being numbers), burn-in
with annealing raises ZeroDivisionError in its first turn -/
theorem C119_anneal_zero (env : Env F G) (mats lbdas : List Nat) (eps : ℝ) (cw b : Nat) (bmax : Int) (ps : Nat)
    (m m1 : Mach F G) (ha : m.anneal = true) (hb : 1 ≤ b) (hps : 1 ≤ ps) (h1 : sampleMats env mats m = .ok m1)
    (ha1 : m1.anneal = m.anneal) (hnum : ∀ k ∈ lbdas, ∃ x : ℝ, m1.world.lbda k = .scalar (.fin x))
    (hz : ∃ k ∈ lbdas, m1.world.lbda k = .scalar (.fin 0)) :
    burn_in env mats lbdas eps cw b bmax ps 0 m = .error .zeroDivision := by
  obtain ⟨c, rfl⟩ : ∃ c, b = c + 1 := ⟨b - 1, by omega⟩
  have hsteps : (lbdas.mapM fun k => annealing (c + 1) (m1.world.lbda k)) = (.error .zeroDivision : Except Err (List (List ℝ))) := by
    clear h1 ha1
    induction lbdas with
    | nil => obtain ⟨k, hk, -⟩ := hz; simp at hk
    | cons k ks ih =>
      obtain ⟨x, hx⟩ := hnum k (by simp)
      rw [List.mapM_cons, hx]
      by_cases h0 : x = 0
      · rw [(C119_anneal (c + 1) x (by omega)).1 h0]
        rfl
      · obtain ⟨st, hst⟩ := (C119_anneal (c + 1) x (by omega)).2 h0
        rw [hst]
        have hz' : ∃ k ∈ ks, m1.world.lbda k = .scalar (.fin 0) := by
          obtain ⟨k', hk', hv⟩ := hz
          rcases List.mem_cons.1 hk' with rfl | hm
          · rw [hx] at hv
            simp only [LVal.scalar.injEq, NpF.fin.injEq] at hv
            exact absurd hv h0
          · exact ⟨k', hm, hv⟩
        have := ih (fun k hk => hnum k (List.mem_cons_of_mem _ hk)) hz'
        simp only [this, bind, Except.bind]
  have hpre : preStep env mats lbdas (c + 1) ps 0 (c + 1 - c) [] m = .error .zeroDivision := by
    rw [preStep, if_neg (by omega)]
    show (sampleMats _ _ m >>= _) = _
    rw [h1]
    show (if c + 1 - c > 0 then _ else _) = _
    rw [if_pos (by omega)]
    simp only [ha1, ha, ne_eq, not_true_eq_false, if_false, Bool.true_eq_false]
    rw [annealingSteps, if_pos (by omega), hsteps]
    rfl
  unfold burn_in
  rw [preLoop, hpre]
  rfl

/-- the hypotheses of `C119_anneal_zero` hold for a machine with two factors and a lambda of zero -/
theorem C119_anneal_zero_met (j : NpF) :
    burn_in (idleEnv j) [0, 1] [0] 0.01 15 30 2000 10 0 { smallMach (.fin 0) with anneal := true } = .error .zeroDivision :=
  C119_anneal_zero _ _ _ _ _ _ _ _ _ _ rfl (by norm_num) (by norm_num) rfl rfl
    (by intro k _; exact ⟨0, rfl⟩) ⟨0, by simp, rfl⟩

/-- the techniques of `output` -/
def Spec.techniques : List String := ["point_estimate", "factor_map", "factor_mean", "factor_mean_old", "mc"]

/-- **C119**, predictions: a technique that does not exist raises UnboundLocalError for all layers but qL-AND ones (and
MAX-AND ones without an array of lambdas), unless a stored prediction is returned -/
theorem C119_technique (argsort : Arr ℝ → List Nat) (technique : String) (noisy mp : Bool) (s : OLayer)
    (ht : technique ∉ techniques) (hq : s.model ≠ "qL-AND")
    (hmax : s.model = "MAX-AND" → ∃ v t, s.lbda = .vector v t) :
    (output argsort technique noisy false mp s).1 = .error .unboundLocal := by
  simp only [techniques, List.mem_cons, List.not_mem_nil, or_false, not_or] at ht
  obtain ⟨h1, h2, h3, h4, h5⟩ := ht
  have hgen : ∀ s : OLayer, outputGeneric technique s = .error .unboundLocal := by
    intro s
    rw [outputGeneric, if_neg h1, if_neg h2, if_neg h3, if_neg h4, if_neg h5]
  have hcomp : ∀ s : OLayer, s.model ≠ "qL-AND" → (s.model = "MAX-AND" → ∃ v t, s.lbda = .vector v t) →
      computeOutput argsort technique noisy s = .error .unboundLocal := by
    intro s hq hmax
    unfold computeOutput
    by_cases hM : s.model = "MAX-AND"
    · obtain ⟨v, t, hv⟩ := hmax hM
      rw [if_pos hM, outputMax, hv]
      simp only [if_neg h1, if_neg h2, if_neg h3, if_neg h5]
    · rw [if_neg hM, if_neg hq, hgen s]
      rfl
  rw [output_eq]
  by_cases hi : s.model = "OR-AND-IBP"
  · rw [if_pos hi, hcomp { s with model := "OR-AND" } (by simp) (by simp)]
  · rw [if_neg hi, hcomp { s with model := s.model } hq hmax]

/-- **C119**, predictions: qL-AND layers ignore the technique, so that a name that does not exist gives the same result as
every other -/
theorem C119_technique_ignored (argsort : Arr ℝ → List Nat) (t1 t2 : String) (noisy mp : Bool) (s : OLayer)
    (hq : s.model = "qL-AND") : output argsort t1 noisy false mp s = output argsort t2 noisy false mp s := by
  have hc : ∀ t, computeOutput argsort t noisy s = outputQL s := by
    intro t
    unfold computeOutput
    rw [if_neg (by rw [hq]; decide), if_pos hq]
  unfold output
  simp [hq, hc]

/-- **C119**, predictions: a qL-AND layer whose child has not two axes raises ValueError; a MAX-AND layer with a number of
factors other than two raises TypeError for the current factors and their MAP estimates, a layer without factors
IndexError for their means -/
theorem C119_axes (argsort : Arr ℝ → List Nat) (noisy mp : Bool) (s : OLayer) :
    (s.model = "qL-AND" → s.childShape.length ≠ 2 → ∀ technique,
      (output argsort technique noisy false mp s).1 = .error .valueError) ∧
    (s.model = "MAX-AND" → s.factors.length ≠ 2 → (∃ v t, s.lbda = .vector v t) →
      (output argsort "point_estimate" noisy false mp s).1 = .error .typingError ∧
      (output argsort "factor_map" noisy false mp s).1 = .error .typingError) ∧
    (s.model = "MAX-AND" → s.factors.length < 2 → (∃ v t, s.lbda = .vector v t) →
      (output argsort "factor_mean" noisy false mp s).1 = .error .indexError) := by
  refine ⟨?_, ?_, ?_⟩
  · intro hm hl t
    have hc : computeOutput argsort t noisy s = .error .valueError := by
      unfold computeOutput
      rw [if_neg (by rw [hm]; decide), if_pos hm]
      unfold outputQL
      split
      · rename_i h _; rw [h] at hl; exact absurd rfl hl
      · rename_i h _; rw [h] at hl; exact absurd rfl hl
      · rfl
    rw [output_eq, if_neg (by rw [hm]; decide)]
    rw [hc]
  · rintro hm hl ⟨v, t, hv⟩
    have hp : ∀ g : OFac → Arr Int, maxAndProduct argsort (s.factors.map g) v = .error .typingError := by
      intro g
      have hfs : (s.factors.map g).length ≠ 2 := by rw [List.length_map]; exact hl
      revert hfs
      generalize s.factors.map g = fs
      intro hfs
      unfold maxAndProduct
      split
      · exact absurd rfl hfs
      · rfl
    constructor
    · have hc : computeOutput argsort "point_estimate" noisy s = .error .typingError := by
        unfold computeOutput
        rw [if_pos hm, outputMax, hv]
        simp only [if_true, hp]
        rfl
      rw [output_eq, if_neg (by rw [hm]; decide), hc]
    · have hc : computeOutput argsort "factor_map" noisy s = .error .typingError := by
        unfold computeOutput
        rw [if_pos hm, outputMax, hv]
        simp only [if_true, hp, if_neg (by decide : ¬ "factor_map" = "point_estimate")]
        rfl
      rw [output_eq, if_neg (by rw [hm]; decide), hc]
  · rintro hm hl ⟨v, t, hv⟩
    have hc : computeOutput argsort "factor_mean" noisy s = .error .indexError := by
      unfold computeOutput
      rw [if_pos hm, outputMax, hv]
      simp only [if_neg (by decide : ¬ "factor_mean" = "point_estimate"), if_neg (by decide : ¬ "factor_mean" = "factor_map"),
        if_neg (by decide : ¬ "factor_mean" = "mc"), if_true]
      cases hf : s.factors with
      | nil => rfl
      | cons z rest =>
        cases rest with
        | nil => rfl
        | cons u r => rw [hf] at hl; simp at hl
    rw [output_eq, if_neg (by rw [hm]; decide), hc]

/-- the hypotheses of the statements on predictions hold for layers of three factors and the technique `median` -/
example : ∃ s : OLayer, s.model = "MAX-AND" ∧ s.factors.length ≠ 2 ∧ (∃ v t, s.lbda = .vector v t) ∧
    "median" ∉ techniques :=
  ⟨⟨"MAX-AND", List.replicate 3 ⟨Arr.full [2, 1] 1, none⟩, .vector (Arr.full [2] 0) none, Arr.full [] 0, [2, 2, 2], none⟩,
    rfl, by simp, ⟨_, _, rfl⟩, by decide⟩

/-- **C119**, biased noise: if the first entry other than zero (in row-major order) is not 1 or -1, UnboundLocalError is
raised, whatever the probabilities, the seed and the state of the generator -/
theorem C119_noise {σ : Type} (g : Rng σ) (X : Arr Int) (p_plus p_minus : ℝ) (seed : Option Nat) (s : σ)
    (before after : List (List Nat)) (i : List Nat) (hi : indices [X.dim 0, X.dim 1] = before ++ i :: after)
    (hb : ∀ j ∈ before, X j = 0) (hx : X i ≠ 0 ∧ X i ≠ 1 ∧ X i ≠ -1) :
    add_bernoulli_noise_2d_biased g X p_plus p_minus seed s = .error .unboundLocal := by
  have key : ∀ s : σ, noiseLoopBiased g p_plus p_minus (before ++ i :: after) none X s = .error .unboundLocal := by
    intro s
    clear hi
    induction before with
    | nil =>
      rw [List.nil_append, noiseLoopBiased]
      simp only [if_neg hx.1, if_neg hx.2.1, if_neg hx.2.2]
    | cons j js ih =>
      have hj : X j = 0 := hb j (by simp)
      rw [List.cons_append, noiseLoopBiased]
      simp only [hj, if_true, if_neg (by decide : ¬ (0 : Int) = 1)]
      exact ih fun k hk => hb k (by simp [hk])
  unfold add_bernoulli_noise_2d_biased
  rw [hi]
  exact key _

/-- the hypotheses of `C119_noise` hold for the data [[0, 2]] -/
example : ∃ (X : Arr Int) (before after : List (List Nat)) (i : List Nat),
    indices [X.dim 0, X.dim 1] = before ++ i :: after ∧ (∀ j ∈ before, X j = 0) ∧ X i ≠ 0 ∧ X i ≠ 1 ∧ X i ≠ -1 :=
  ⟨Arr.mat 2 [[0, 2]] 0, [[0, 0]], [], [0, 1], by decide, by decide, by decide, by decide, by decide⟩

/-- **C119**, accuracy of predictions: a mask that has not the shape of the predictions raises IndexError -/
theorem C119_mask (P : Arr NpF) (X : Arr Int) (mask : Arr Bool) (inv : Bool) (h : P.shape ≠ mask.shape) :
    predictiveAccuracy P X mask inv = .error .indexError := by
  unfold predictiveAccuracy
  rw [maskIndex, if_neg h]
  rfl

end LFM
