import Verif.Props.RunMax
import Verif.Props.RunQL
import Verif.Props.Prior
import Verif.Lemmas.SamplerWorld

/-!
# C45 in machines with MAX-AND and qL-AND layers
-/

namespace LFM

variable {F G : Type}

theorem assignFcts_setPrior {env : Env F G} {p : Nat → ℝ} (xs : List Nat) : ∀ {m : Mach F G}, 
    (∀ i ∈ xs, ∀ m' : Mach F G, m'.layers = m.layers → m'.layerOf = m.layerOf → env.getFct (setPrior p m') i = env.getFct m' i) →
    xs.foldlM (assignFct env) (setPrior p m) = (xs.foldlM (assignFct env) m).map (setPrior p) := by
  induction xs with
  | nil => intro m _; rfl
  | cons i xs ih =>
    intro m h
    have h1 : assignFct env (setPrior p m) i = (assignFct env m i).map (setPrior p) := by
      unfold assignFct
      rw [show (setPrior p m).fct = m.fct from rfl, h i (by simp) m rfl rfl]
      cases m.fct i with
      | some f => rfl
      | none =>
        simp only
        cases env.getFct m i with
        | error e => rfl
        | ok r =>
          obtain ⟨f, e⟩ := r
          cases e <;> rfl
    rw [List.foldlM_cons, List.foldlM_cons, h1]
    cases hm : assignFct env m i with
    | error e => rfl
    | ok m1 =>
      obtain ⟨k, -⟩ := assignFct_keeps hm
      exact ih fun j hj m' e1 e2 => h j (by simp [hj]) m' (e1.trans k.layers) (e2.trans k.layerOf)

/-- if no function that is assigned depends on priors, inference does not -/
theorem infer_setPrior_of (env : Env F G) (p : Nat → ℝ) (m : Mach F G) (S cw : Nat) (eps : ℝ) (b : Nat) (bmax : Int) (ps fx : Nat)
    (hf : ∀ i ∈ freeMats m, ∀ m' : Mach F G, m'.layers = m.layers → m'.layerOf = m.layerOf →
      env.getFct (setPrior p m') i = env.getFct m' i)
    (hl : ∀ (m' : Mach F G) k, env.getLfct (setPrior p m') k = env.getLfct m' k) :
    infer env S cw eps b bmax ps fx (setPrior p m) = (infer env S cw eps b bmax ps fx m).map (setPrior p) := by
  unfold infer
  simp only
  rw [show freeMats (setPrior p m) = freeMats m from rfl, show freeLbdas (setPrior p m) = freeLbdas m from rfl,
    assignFcts_setPrior _ hf]
  cases (freeMats m).foldlM (assignFct env) m with
  | error e => rfl
  | ok m1 =>
    simp only [bind, Except.bind, Except.map]
    rw [foldlM_setPrior (f := assignLfct env) (freeLbdas m) (fun n k _ => by
      unfold assignLfct
      rw [show (setPrior p n).lfct = n.lfct from rfl, hl n k]
      cases n.lfct k with
      | some f => rfl
      | none =>
        simp only
        cases env.getLfct n k <;> rfl)]
    cases (freeLbdas m).foldlM (assignLfct env) m1 with
    | error e => rfl
    | ok m2 =>
      simp only [Except.map]
      rw [show resetIndices (freeMats m) (freeLbdas m) (setPrior p m2) =
        setPrior p (resetIndices (freeMats m) (freeLbdas m) m2) from rfl, burn_in_setPrior]
      cases burn_in env (freeMats m) (freeLbdas m) eps cw b bmax ps fx (resetIndices (freeMats m) (freeLbdas m) m2) with
      | error e => rfl
      | ok m3 =>
        simp only [Except.map]
        rw [foldlM_setPrior _ (fun m i _ => allocMat_setPrior env p m S i)]
        cases (freeMats m).foldlM (allocMat env S) m3 with
        | error e => rfl
        | ok m4 =>
          exact samplingLoop_setPrior env (freeMats m) (freeLbdas m) p ps S
            (allocLbdasS env.junkSampling S (freeLbdas m) m4)

/-- the functions of MAX-AND and qL-AND layers do not depend on the prior -/
theorem get_sampling_fct_no_prior {model : String} (hm : model = "MAX-AND" ∨ model = "qL-AND") (ms : List Member)
    (h2 : ms.length = 2) (a k : Nat) (p q : ℝ) (ps : List (String × Nat)) :
    get_sampling_fct none (some model) ms a k p ps = get_sampling_fct none (some model) ms a k q ps := by
  unfold get_sampling_fct
  simp only [h2]
  cases hr : get_relatives_models (some model) 2 ps with
  | error e => rfl
  | ok r =>
    obtain ⟨mod, p1, p2⟩ := r
    have hmod : mod = some "MAX_AND_2D" ∨ mod = some "qL_AND_2D" := by
      have key : mod = some (pyDashToUnderscore (model ++ "-" ++ toString 2 ++ "D")) := by
        unfold get_relatives_models at hr
        simp only [bind, Except.bind, pure, Except.pure, throw, throwThe, MonadExceptOf.throw] at hr
        split at hr <;> (repeat' split at hr) <;> simp_all
      rw [key]
      rcases hm with rfl | rfl
      · left; decide
      · right; decide
    rcases hmod with rfl | rfl
    · simp [bind, Except.bind]
    · simp [bind, Except.bind]

/-- **C45** is wrong in machines with MAX-AND and qL-AND layers even of the first call, for all machines: whatever priors the
factors have, inference does exactly the same. -/
theorem C45_special_wrong (wr : SpecialWiring) (m : Mach Sampler LbdaUpdate) (p : Nat → ℝ)
    (h : ∀ i ∈ freeMats m, ∃ (k : Nat) (lr : LayerInfo), m.layerOf i = some k ∧ m.layers[k]? = some lr ∧
      (lr.model = "MAX-AND" ∨ lr.model = "qL-AND") ∧ lr.factors.length = 2)
    (S cw : Nat) (eps : ℝ) (b : Nat) (bmax : Int) (ps fx : Nat) :
    infer (specialEnv wr) S cw eps b bmax ps fx (setPrior p m) =
      (infer (specialEnv wr) S cw eps b bmax ps fx m).map (setPrior p) := by
  refine infer_setPrior_of _ p m S cw eps b bmax ps fx (fun i hi m' e1 e2 => ?_) (fun _ _ => rfl)
  obtain ⟨k, lr, h1, h2, h3, h4⟩ := h i hi
  show getSampler wr.toWiring (setPrior p m') i = getSampler wr.toWiring m' i
  have hlr : (m'.layerOf i).bind (fun k => m'.layers[k]?) = some lr := by
    rw [e1, e2, h1]; exact h2
  unfold getSampler
  simp only [show (setPrior p m').layerOf = m'.layerOf from rfl, show (setPrior p m').layers = m'.layers from rfl, hlr,
    Option.map_some]
  rw [get_sampling_fct_no_prior h3 _ (by simp [h4]) _ _ _ (m'.bernoulli_prior i)]
  rw [get_sampling_fct_congr (ms' := lr.factors.map fun j => (⟨(m'.world.mat j).val, (m'.world.mat j).fixed_entries,
    wr.childAxis j, m'.bernoulli_prior j⟩ : Member)) (by rw [List.map_map, List.map_map]; rfl)]

/-- the hypothesis of `C45_special_wrong` is met by machines that C98 and C99 show to run: all factors, and the thresholds
of a qL-AND layer, are sampled -/
theorem C45_special_hypotheses_met (L : Nat) : (∀ m ∈ [machMax L false false [], machQL L false false [] false],
    ∀ i ∈ freeMats m, ∃ (k : Nat) (lr : LayerInfo), m.layerOf i = some k ∧ m.layers[k]? = some lr ∧
      (lr.model = "MAX-AND" ∨ lr.model = "qL-AND") ∧ lr.factors.length = 2) ∧
    freeMats (machMax L false false []) = [0, 1] ∧ freeMats (machQL L false false [] false) = [0, 1, 3] := by
  have e1 : freeMats (machMax L false false []) = [0, 1] := rfl
  have e2 : freeMats (machQL L false false [] false) = [0, 1, 3] := rfl
  refine ⟨fun m hm i hi => ?_, e1, e2⟩
  simp only [List.mem_cons, List.not_mem_nil, or_false] at hm
  rcases hm with rfl | rfl
  · rw [e1] at hi
    refine ⟨0, layerMax false false, ?_, rfl, .inl rfl, rfl⟩
    simp only [List.mem_cons, List.not_mem_nil, or_false] at hi
    rcases hi with rfl | rfl <;> rfl
  · rw [e2] at hi
    refine ⟨0, layerQL false false, ?_, rfl, .inr rfl, rfl⟩
    simp only [List.mem_cons, List.not_mem_nil, or_false] at hi
    rcases hi with rfl | rfl | rfl <;> rfl

end LFM
