import Verif.Lemmas.SpecialHier
import Verif.Props.Parents

/-!
# Properties: MAX-AND, qL-AND and OR-AND-IBP layers in machines of several layers (C115)
-/

namespace LFM

open Spec

/-- **C115** (MAX-AND below): a factor of a MAX-AND layer that has a layer on top of it gets no sampling function -/
theorem C115_max_and_rejects (A B : Member) (ax k : Nat) (q : ℝ) (pa : String × Nat) (rest : List (String × Nat)) :
    get_sampling_fct none (some "MAX-AND") [A, B] ax k q (pa :: rest) = .error .assertionError := by
  by_cases h : pa.2 = 2
  · cases rest with
    | nil =>
      have : get_relatives_models (some "MAX-AND") 2 [pa] =
          .ok (some "MAX_AND_2D", some (pyDashToUnderscore (pa.1 ++ "-2D")), none) := by
        unfold get_relatives_models
        simp [h, bind, Except.bind, pure, Except.pure]
        decide
      simp [get_sampling_fct, this, bind, Except.bind, throw, throwThe, MonadExceptOf.throw]
    | cons pb rest =>
      by_cases h' : pb.2 = 2
      · have : get_relatives_models (some "MAX-AND") 2 (pa :: pb :: rest) =
            .ok (some "MAX_AND_2D", some (pyDashToUnderscore (pa.1 ++ "-2D")), some (pyDashToUnderscore (pb.1 ++ "-2D"))) := by
          unfold get_relatives_models
          simp [h, h', bind, Except.bind, pure, Except.pure]
          decide
        simp [get_sampling_fct, this, bind, Except.bind, throw, throwThe, MonadExceptOf.throw]
      · exact (C24_rejects_partial _ _ _ _ _).2.1 pa pb rest h h'
  · exact (C24_rejects_partial _ _ _ _ _).1 pa rest h

/-- the models that have sampling functions of their own -/
def specialNames : List String := ["MAX-AND", "qL-AND", "OR-AND-IBP"]

/-- **C115** (special layers above): a factor of a layer of any of the eight sampled models, or a data matrix, gets no
sampling function if the layer on top of it is a MAX-AND, qL-AND or OR-AND-IBP layer -/
theorem C115_special_above_rejects (m p' : Lom8) {p : String} (hp : p ∈ specialNames) (A B : Member) (ax k : Nat) (q : ℝ)
    (rest : List (String × Nat)) :
    get_sampling_fct none (some m.name) [A, B] ax k q [(p, 2)] = .error .notImplemented ∧
    get_sampling_fct none (some m.name) [A, B] ax k q ((p, 2) :: (p'.name, 2) :: rest) = .error .notImplemented ∧
    get_sampling_fct none (some m.name) [A, B] ax k q ((p'.name, 2) :: (p, 2) :: rest) = .error .notImplemented ∧
    get_sampling_fct none none [] ax k q [(p, 2)] = .error .notImplemented ∧
    get_sampling_fct none none [] ax k q ((p, 2) :: (p'.name, 2) :: rest) = .error .notImplemented ∧
    get_sampling_fct none none [] ax k q ((p'.name, 2) :: (p, 2) :: rest) = .error .notImplemented := by
  have hpar : get_parent_score_fct (pyDashToUnderscore (p ++ "-2D")) = .error .notImplemented := by
    simp only [specialNames, List.mem_cons, List.not_mem_nil, or_false] at hp
    rcases hp with rfl | rfl | rfl <;> rfl
  obtain ⟨g, hg⟩ : ∃ g, get_parent_score_fct (code p' "-2D") = .ok g := by cases p' <;> exact ⟨_, rfl⟩
  obtain ⟨f, hf⟩ : ∃ f, get_posterior_score_fct (code m "-2D") = .ok f := by cases m <;> exact ⟨_, rfl⟩
  have r1 : get_relatives_models (some m.name) 2 [(p, 2)] =
      .ok (some (code m "-2D"), some (pyDashToUnderscore (p ++ "-2D")), none) := by cases m <;> rfl
  have r2 : get_relatives_models (some m.name) 2 [(p, 2), (p'.name, 2)] =
      .ok (some (code m "-2D"), some (pyDashToUnderscore (p ++ "-2D")), some (code p' "-2D")) := by cases m <;> rfl
  have r3 : get_relatives_models (some m.name) 2 [(p'.name, 2), (p, 2)] =
      .ok (some (code m "-2D"), some (code p' "-2D"), some (pyDashToUnderscore (p ++ "-2D"))) := by cases m <;> rfl
  have n1 : get_relatives_models none 0 [(p, 2)] = .ok (none, some (pyDashToUnderscore (p ++ "-2D")), none) := rfl
  have n2 : get_relatives_models none 0 [(p, 2), (p'.name, 2)] =
      .ok (none, some (pyDashToUnderscore (p ++ "-2D")), some (code p' "-2D")) := rfl
  have n3 : get_relatives_models none 0 [(p'.name, 2), (p, 2)] =
      .ok (none, some (code p' "-2D"), some (pyDashToUnderscore (p ++ "-2D"))) := rfl
  refine ⟨?_, ?_, ?_, ?_, ?_, ?_⟩
  · rw [dispatch_onechild_oneparent (factors := [A, B]) r1 (generic_code2 m)]
    simp [make_sampling_fct_onechild_oneparent, hf, hpar, bind, Except.bind, Except.map]
  · rw [C24_extra_parents_ignored, dispatch_onechild_twoparents (factors := [A, B]) r2 (generic_code2 m)]
    simp [make_sampling_fct_onechild_twoparents, hf, hpar, bind, Except.bind, Except.map]
  · rw [C24_extra_parents_ignored, dispatch_onechild_twoparents (factors := [A, B]) r3 (generic_code2 m)]
    simp [make_sampling_fct_onechild_twoparents, hf, hg, hpar, bind, Except.bind, Except.map]
  · rw [dispatch_nochild_oneparent (factors := []) n1]
    simp [make_sampling_fct_nochild_oneparent, hpar, bind, Except.bind, Except.map]
  · rw [C24_extra_parents_ignored, dispatch_nochild_twoparents (factors := []) n2]
    simp [make_sampling_fct_nochild_twoparents, hpar, bind, Except.bind, Except.map]
  · rw [C24_extra_parents_ignored, dispatch_nochild_twoparents (factors := []) n3]
    simp [make_sampling_fct_nochild_twoparents, hg, hpar, bind, Except.bind, Except.map]

/-- **C115** (assignment, qL-AND and OR-AND-IBP below): the layers on top of a factor make no difference to its sampling
function -/
theorem C115_parents_ignored {model : String} (hm : model = "qL-AND" ∨ model = "OR-AND-IBP") (A B : Member) (ax k : Nat) (q : ℝ)
    (pars : List (String × Nat)) (h : ∀ p ∈ pars, p.2 = 2) :
    get_sampling_fct none (some model) [A, B] ax k q pars = get_sampling_fct none (some model) [A, B] ax k q [] := by
  obtain ⟨mod, hmod, hs⟩ : ∃ mod, (∀ pars : List (String × Nat), (∀ p ∈ pars, p.2 = 2) →
      ∃ p1 p2, get_relatives_models (some model) 2 pars = .ok (some mod, p1, p2)) ∧
      (mod = "qL_AND_2D" ∨ mod = "OR_AND_IBP_2D") := by
    refine ⟨pyDashToUnderscore (model ++ "-" ++ toString 2 ++ "D"), fun pars h => ?_, ?_⟩
    · match pars, h with
      | [], _ => exact ⟨_, _, rfl⟩
      | [pa], h =>
        refine ⟨some (pyDashToUnderscore (pa.1 ++ "-2D")), none, ?_⟩
        unfold get_relatives_models
        simp [h pa (by simp), bind, Except.bind, pure, Except.pure]
      | pa :: pb :: rest, h =>
        refine ⟨some (pyDashToUnderscore (pa.1 ++ "-2D")), some (pyDashToUnderscore (pb.1 ++ "-2D")), ?_⟩
        unfold get_relatives_models
        simp [h pa (by simp), h pb (by simp), bind, Except.bind, pure, Except.pure]
    · rcases hm with rfl | rfl
      · exact .inl (by decide)
      · exact .inr (by decide)
  obtain ⟨p1, p2, e⟩ := hmod pars h
  obtain ⟨p1', p2', e'⟩ := hmod [] (by simp)
  rcases hs with rfl | rfl
  · simp [get_sampling_fct, e, e', bind, Except.bind]
  · simp [get_sampling_fct, e, e', bind, Except.bind]

/-- that sampling function reads nothing but the layer -/
theorem own_of_assigned {model : String} (hm : model = "qL-AND" ∨ model = "OR-AND-IBP") {A B : Member} {ax k : Nat} {q : ℝ}
    {pars : List (String × Nat)} {s : Sampler} (hax : ax < 2)
    (h : get_sampling_fct none (some model) [A, B] ax k q pars = .ok s) : OwnSampler s := by
  have h2 : ∀ p1 p2 mod, get_relatives_models (some model) 2 pars = .ok (mod, p1, p2) →
      mod = some "qL_AND_2D" ∨ mod = some "OR_AND_IBP_2D" := by
    intro p1 p2 mod e
    have : mod = some (pyDashToUnderscore (model ++ "-" ++ toString 2 ++ "D")) := by
      unfold get_relatives_models at e
      match pars with
      | [] => simp [pure, Except.pure] at e; exact e.1.symm
      | [pa] =>
        by_cases h1 : pa.2 = 2
        · simp [h1, bind, Except.bind, pure, Except.pure] at e; exact e.1.symm
        · simp [h1, bind, Except.bind, throw, throwThe, MonadExceptOf.throw] at e
      | pa :: pb :: rest =>
        by_cases h1 : pa.2 = 2
        · by_cases h2 : pb.2 = 2
          · simp [h1, h2, bind, Except.bind, pure, Except.pure] at e; exact e.1.symm
          · simp [h1, h2, bind, Except.bind, throw, throwThe, MonadExceptOf.throw] at e
        · simp [h1, bind, Except.bind, throw, throwThe, MonadExceptOf.throw] at e
    rw [this]
    rcases hm with rfl | rfl
    · exact .inl (by decide)
    · exact .inr (by decide)
  cases hr : get_relatives_models (some model) 2 pars with
  | error e => simp [get_sampling_fct, hr, bind, Except.bind] at h
  | ok r =>
    obtain ⟨mod, p1, p2⟩ := r
    have hax' : ax = 0 ∨ ax = 1 := by omega
    obtain ⟨f, hf⟩ : ∃ f, make_sampling_fct_onechild "OR_AND_2D" = .ok f := ⟨_, make_onechild2 .OR_AND rfl⟩
    rcases h2 _ _ _ hr with rfl | rfl <;> rcases hax' with rfl | rfl <;>
      simp [get_sampling_fct, hr, hf, bind, Except.bind, pure, Except.pure] at h <;> subst h <;> trivial

/-- what happens in inference between assignments: a matrix is sampled, a lambda is updated, a sweep is over -/
inductive InferCall
  | mat (i : Nat)
  | lbda (k : Nat)
  | endSweep

/-- doing it -/
noncomputable def InferCall.run (env : Env Sampler LbdaUpdate) (m : Mach Sampler LbdaUpdate) :
    InferCall → Except Err (Mach Sampler LbdaUpdate)
  | .mat i => callMat env m i
  | .lbda k => callLbda env m k
  | .endSweep => .ok { m with clock := m.clock + 1 }

/-- sweeps are such sequences -/
theorem sweep_calls (env : Env Sampler LbdaUpdate) (mats lbdas : List Nat) (m : Mach Sampler LbdaUpdate) :
    (sampleMats env mats m = (((env.perm m.clock mats).map InferCall.mat) ++ [InferCall.endSweep]).foldlM (InferCall.run env) m) ∧
    sampleLbdas env lbdas m = (lbdas.map InferCall.lbda).foldlM (InferCall.run env) m := by
  constructor
  · rw [sampleMats, List.foldlM_append, List.foldlM_map]
    rfl
  · rw [sampleLbdas, List.foldlM_map]
    rfl

/-- **C115** is false: let layer `k` of a machine be a qL-AND or OR-AND-IBP layer with two factors on data that is no factor,
with the sampling functions that it was assigned in some machine, whatever layers were on top of its factors. Take two machines
of the same build that agree on the data, factors, thresholds and lambda of layer `k`, but have any other values in the layers
on top. Whatever is sampled and updated with the same draws, in whatever order, the factors, thresholds and lambda of layer `k`
are the same in both: what is on top never has an effect on them. (Runs that return; `hsp`: runs in which the lambdas that are
read stay numbers.) -/
theorem C115_unheard {wr : SpecialWiring} {m m' : Mach Sampler LbdaUpdate} {lr : LayerInfo} {k x : Nat}
    (hlr : wr.layers[k]? = some lr) (hmodel : lr.model = "qL-AND" ∨ lr.model = "OR-AND-IBP") (hx : wr.child k = x)
    (own : ∀ i, i ∈ lr.factors ∨ lr.q = some i ↔ wr.layerOf i = some k)
    (hfct : ∀ i s, i ∈ lr.factors → m.fct i = some s → ∃ A B n q pars, wr.childAxis i < 2 ∧
      get_sampling_fct none (some lr.model) [A, B] (wr.childAxis i) n q pars = .ok s)
    (hq : ∀ i s, lr.q = some i → i ∉ lr.factors → m.fct i = some s → s = .qL_q)
    (hdis : ∀ k' lr', wr.layers[k']? = some lr' → k' ≠ k → ∀ i ∈ lr'.factors, i ∉ lr.factors ∧ lr.q ≠ some i ∧ i ≠ x)
    (hsp : ∀ s i t w, ∃ e, wr.special s i t w = .error e)
    (e1 : m'.fct = m.fct) (e2 : m'.lfct = m.lfct) (e3 : m'.clock = m.clock)
    (hmats : ∀ i, i ∈ lr.factors ∨ lr.q = some i ∨ i = x → m'.world.mat i = m.world.mat i)
    (hlbda : m'.world.lbda k = m.world.lbda k) (calls : List InferCall) (hc : .mat x ∉ calls) {r r' : Mach Sampler LbdaUpdate}
    (h : calls.foldlM (InferCall.run (specialEnv wr)) m = .ok r)
    (h' : calls.foldlM (InferCall.run (specialEnv wr)) m' = .ok r') :
    (∀ i, i ∈ lr.factors ∨ lr.q = some i ∨ i = x → r'.world.mat i = r.world.mat i) ∧ r'.world.lbda k = r.world.lbda k := by
  have B : BottomLayer wr m.fct lr k x := by
    refine ⟨hlr, hx, fun i hi => (own i).1 hi, fun i hi => (own i).2 hi, fun i s hi hs => ?_, hdis, hsp⟩
    by_cases hf : i ∈ lr.factors
    · obtain ⟨A, B, n, q, pars, hax, he⟩ := hfct i s hf hs
      exact own_of_assigned hmodel hax he
    · rcases (own i).2 hi with h | h
      · exact absurd h hf
      · rw [hq i s h hf hs]; trivial
  suffices key : ∀ (calls : List InferCall) (a a' : Mach Sampler LbdaUpdate), .mat x ∉ calls → a.fct = m.fct → a'.fct = m.fct →
      a'.lfct = a.lfct → a'.clock = a.clock → LowAgree lr k x a.world a'.world → ∀ r r' : Mach Sampler LbdaUpdate,
      calls.foldlM (InferCall.run (specialEnv wr)) a = .ok r → calls.foldlM (InferCall.run (specialEnv wr)) a' = .ok r' →
      LowAgree lr k x r.world r'.world by
    have := key calls m m' hc rfl e1 e2 e3 ⟨hmats, hlbda⟩ r r' h h'
    exact ⟨this.mats, this.lbda⟩
  intro calls
  induction calls with
  | nil =>
    intro a a' _ _ _ _ _ A r r' h h'
    cases h; cases h'
    exact A
  | cons c cs ih =>
    intro a a' hx1 f1 f2 f3 f4 A r r' h h'
    rw [List.foldlM_cons, bind_ok] at h h'
    obtain ⟨b, hb, h⟩ := h
    obtain ⟨b', hb', h'⟩ := h'
    have hx2 : .mat x ∉ cs := fun h => hx1 (List.mem_cons_of_mem _ h)
    cases c with
    | mat i =>
      have hix : i ≠ x := by rintro rfl; exact hx1 (List.mem_cons_self ..)
      rw [InferCall.run, callMat] at hb hb'
      rw [f1] at hb
      rw [f2] at hb'
      cases hs : m.fct i with
      | none => rw [hs] at hb; cases hb
      | some s =>
        rw [hs] at hb hb'
        dsimp only at hb hb'
        rw [bind_ok] at hb hb'
        obtain ⟨w, hw, hb⟩ := hb
        obtain ⟨w', hw', hb'⟩ := hb'
        rw [pure_ok] at hb hb'
        subst hb hb'
        rw [f4] at hw'
        exact ih { a with world := w, fct := m.fct } { a' with world := w', fct := m.fct } hx2 rfl rfl f3 f4 (B.runMat A hs hix hw hw') r r' h h'
    | lbda k' =>
      rw [InferCall.run, callLbda] at hb hb'
      rw [f3] at hb'
      cases hs : a.lfct k' with
      | none => rw [hs] at hb; cases hb
      | some s =>
        rw [hs] at hb hb'
        dsimp only at hb hb'
        rw [bind_ok] at hb hb'
        obtain ⟨w, hw, hb⟩ := hb
        obtain ⟨w', hw', hb'⟩ := hb'
        rw [pure_ok] at hb hb'
        subst hb hb'
        rw [f4] at hw'
        exact ih { a with world := w } { a' with world := w', lfct := a.lfct } hx2 f1 f2 rfl f4 (B.runLbda A hw hw') r r' h h'
    | endSweep =>
      cases hb; cases hb'
      exact ih { a with clock := a.clock + 1 } { a' with clock := a'.clock + 1 } hx2 f1 f2 f3 (congrArg (· + 1) f4) A r r' h h'

/-! ### The whole of inference -/

theorem assign_raises {F G : Type} {env : Env F G} {P : Mach F G → Prop} {i : Nat}
    (keep : ∀ a j b, P a → j ≠ i → assignFct env a j = .ok b → P b) (bad : ∀ a, P a → ∃ e, assignFct env a i = .error e) :
    ∀ (l : List Nat) (a : Mach F G), P a → i ∈ l → ∃ e, l.foldlM (assignFct env) a = .error e := by
  intro l
  induction l with
  | nil => intro a _ h; cases h
  | cons j l ih =>
    intro a ha hi
    rw [List.foldlM_cons]
    by_cases e : j = i
    · subst e
      obtain ⟨e, he⟩ := bad a ha
      exact ⟨e, by rw [he]; rfl⟩
    · cases h : assignFct env a j with
      | error e => exact ⟨e, rfl⟩
      | ok b =>
        obtain ⟨e', he⟩ := ih b (keep a j b ha e h) ((List.mem_cons.1 hi).resolve_left (Ne.symm e))
        exact ⟨e', he⟩

/-- a matrix without sampling function for which none can be made: inference raises -/
theorem infer_rejects {wr : SpecialWiring} {m : Mach Sampler LbdaUpdate} {i : Nat} (hi : i ∈ freeMats m) (hf : m.fct i = none)
    (hq : ∀ lr ∈ m.layers, lr.q ≠ some i)
    (h : ∀ a : Mach Sampler LbdaUpdate, a.layers = m.layers → a.layerOf = m.layerOf → ∃ e, getSampler wr.toWiring a i = .error e)
    (S cw : Nat) (eps : ℝ) (bmin : Nat) (bmax : Int) (ps fx : Nat) :
    ∃ e, infer (specialEnv wr) S cw eps bmin bmax ps fx m = .error e := by
  have keep : ∀ (a : Mach Sampler LbdaUpdate) (j : Nat) (b : Mach Sampler LbdaUpdate),
      (a.layers = m.layers ∧ a.layerOf = m.layerOf ∧ a.fct i = none) → j ≠ i → assignFct (specialEnv wr) a j = .ok b →
      b.layers = m.layers ∧ b.layerOf = m.layerOf ∧ b.fct i = none := by
    intro a j b ha hj hb
    obtain ⟨a1, a2, a3⟩ := ha
    rw [assignFct] at hb
    cases hs : a.fct j with
    | some s => rw [hs] at hb; cases hb; exact ⟨a1, a2, a3⟩
    | none =>
      rw [hs] at hb
      dsimp only at hb
      rw [bind_ok] at hb
      obtain ⟨⟨f, extra⟩, hg, hb⟩ := hb
      rw [pure_ok] at hb
      subst hb
      cases extra with
      | none => exact ⟨a1, a2, by simp [upd, Ne.symm hj, a3]⟩
      | some jg =>
        obtain ⟨j', g⟩ := jg
        have hne : i ≠ j' := by
          rintro rfl
          have hg' : getSampler wr.toWiring a j = .ok (f, some (i, g)) := hg
          rw [getSampler, bind_ok] at hg'
          obtain ⟨s, -, hg'⟩ := hg'
          have key : ∀ s' : Sampler, (pure (some s', ((((a.layerOf j).bind fun k => a.layers[k]?).bind LayerInfo.q).map
              fun q => (q, Sampler.qL_q))) : Except Err _) = .ok (f, some (i, g)) → False := by
            intro s' h
            have h := congrArg Prod.snd (pure_ok.1 h)
            obtain ⟨q, h1, h2⟩ := Option.map_eq_some_iff.1 h
            obtain ⟨lr, h3, h4⟩ := Option.bind_eq_some_iff.1 h1
            obtain ⟨k, -, h5⟩ := Option.bind_eq_some_iff.1 h3
            have hmem : lr ∈ m.layers := by rw [← a1]; exact List.mem_of_getElem? h5
            cases h2
            exact hq lr hmem h4
          cases s with
          | qL_Z o => exact key _ hg'
          | qL_U o => exact key _ hg'
          | _ => exact absurd (congrArg Prod.snd (pure_ok.1 hg')) (by simp)
        exact ⟨a1, a2, by simp [upd, hne, Ne.symm hj, a3]⟩
  have bad : ∀ a : Mach Sampler LbdaUpdate, (a.layers = m.layers ∧ a.layerOf = m.layerOf ∧ a.fct i = none) →
      ∃ e, assignFct (specialEnv wr) a i = .error e := by
    intro a ha
    obtain ⟨a1, a2, a3⟩ := ha
    obtain ⟨e, he⟩ := h a a1 a2
    refine ⟨e, ?_⟩
    rw [assignFct, a3]
    show (getSampler wr.toWiring a i >>= _) = _
    rw [he]; rfl
  obtain ⟨e, he⟩ := assign_raises keep bad (freeMats m) m ⟨rfl, rfl, hf⟩ hi
  exact ⟨e, by rw [infer, he]; rfl⟩

/-- **C115** (partial: MAX-AND): inference with a layer on top of a factor of a MAX-AND layer raises -/
theorem C115_max_and_partial {wr : SpecialWiring} {m : Mach Sampler LbdaUpdate} {i k p z u : Nat} {lr lp : LayerInfo}
    (hi : i ∈ freeMats m) (hf : m.fct i = none) (hq : ∀ lr ∈ m.layers, lr.q ≠ some i) (hk : m.layerOf i = some k)
    (hlr : m.layers[k]? = some lr) (hm : lr.model = "MAX-AND") (hfac : lr.factors = [z, u]) (hp : p ∈ wr.parents i)
    (hlp : m.layers[p]? = some lp) (S cw : Nat) (eps : ℝ) (bmin : Nat) (bmax : Int) (ps fx : Nat) :
    ∃ e, infer (specialEnv wr) S cw eps bmin bmax ps fx m = .error e := by
  refine infer_rejects hi hf hq (fun a a1 a2 => ⟨.assertionError, ?_⟩) S cw eps bmin bmax ps fx
  have hpar : ∃ pa rest, ((wr.parents i).filterMap fun p => a.layers[p]?.map fun lr => (lr.model, lr.factors.length)) = pa :: rest := by
    cases h : (wr.parents i).filterMap fun p => a.layers[p]?.map fun lr => (lr.model, lr.factors.length) with
    | cons pa rest => exact ⟨pa, rest, rfl⟩
    | nil =>
      rw [List.filterMap_eq_nil_iff] at h
      have := h p hp
      rw [a1, hlp] at this
      cases this
  obtain ⟨pa, rest, hpar⟩ := hpar
  rw [getSampler, hpar, a2, hk]
  simp only [Option.bind_some, a1, hlr, Option.map_some, hm, hfac, List.map_cons, List.map_nil]
  rw [C115_max_and_rejects]
  rfl

/-- **C115** (partial: MAX-AND, qL-AND, OR-AND-IBP on top): inference with such a layer on top of a factor of a layer of any of the
eight sampled models raises -/
theorem C115_special_above_partial {wr : SpecialWiring} {m : Mach Sampler LbdaUpdate} {i k p z u : Nat} {lr lp : LayerInfo} {lom : Lom8}
    (hi : i ∈ freeMats m) (hf : m.fct i = none) (hq : ∀ lr ∈ m.layers, lr.q ≠ some i) (hk : m.layerOf i = some k)
    (hlr : m.layers[k]? = some lr) (hm : lr.model = lom.name) (hfac : lr.factors = [z, u]) (hp : wr.parents i = [p])
    (hlp : m.layers[p]? = some lp) (hpm : lp.model ∈ specialNames) (hpf : lp.factors.length = 2)
    (S cw : Nat) (eps : ℝ) (bmin : Nat) (bmax : Int) (ps fx : Nat) :
    ∃ e, infer (specialEnv wr) S cw eps bmin bmax ps fx m = .error e := by
  refine infer_rejects hi hf hq (fun a a1 a2 => ⟨.notImplemented, ?_⟩) S cw eps bmin bmax ps fx
  rw [getSampler, a2, hk, hp]
  simp only [Option.bind_some, a1, hlr, hlp, Option.map_some, hm, hfac, hpf, List.map_cons, List.map_nil,
    List.filterMap_cons, List.filterMap_nil]
  rw [(C115_special_above_rejects lom lom hpm _ _ _ _ _ []).1]
  rfl

/-! ### A machine -/

/-- a qL-AND layer of factors 0 and 1 with thresholds 5 on data 2, and a layer of factors 3 and 4 on top of factor 0 -/
def towerLayers (low : String) (q : Option Nat) (up : String) : List LayerInfo :=
  [⟨[0, 1], low, q, false, false⟩, ⟨[3, 4], up, none, false, false⟩]

/-- its wiring -/
noncomputable def wiringTower (low : String) (q : Option Nat) (up : String) : SpecialWiring where
  layers := towerLayers low q up
  layerOf := fun i => if i = 0 ∨ i = 1 ∨ i = 5 then some 0 else if i = 3 ∨ i = 4 then some 1 else none
  childAxis := fun i => if i = 1 ∨ i = 4 ∨ i = 5 then 1 else 0
  parents := fun i => if i = 0 then [1] else []
  child := fun k => if k = 0 then 2 else 0
  beta_prior := fun _ => (1, 1)
  rnd := fun _ _ _ => 1 / 2
  perm := fun _ l => l
  junk := fun _ _ _ _ => .nan
  junkSampling := fun _ _ _ => .nan
  junkMat := fun _ _ => 0
  special := fun _ _ _ _ => .error .valueError
  gamma := fun _ => 1
  alpha := fun _ => 3
  prior := fun _ => 1 / 2
  argsort := fun xs => List.range xs.length
  ibp := fun _ _ => ⟨fun _ _ => 1 / 2, fun _ => 1 / 2, fun _ _ _ => 1 / 2⟩

/-- its state: the factors of the upper layer are all `v`, its lambda is `y` -/
noncomputable def worldTower (v : Int) (y : ℝ) : World where
  mat := fun i =>
    if i = 0 then ⟨Arr.full [2, 2] 1, Arr.full [2, 2] 0⟩
    else if i = 1 then ⟨Arr.full [3, 2] (-1), Arr.full [3, 2] 0⟩
    else if i = 2 then ⟨⟨[2, 3], fun idx => if idx.getD 0 0 = idx.getD 1 0 then 1 else -1⟩, Arr.full [2, 3] 0⟩
    else if i = 3 then ⟨Arr.full [2, 1] v, Arr.full [2, 1] 0⟩
    else if i = 4 then ⟨Arr.full [2, 1] v, Arr.full [2, 1] 0⟩
    else ⟨Arr.full [1, 3] 1, Arr.full [1, 3] 0⟩
  lbda := fun k => .scalar (.fin (if k = 0 then 1 else y))

/-- the machine -/
noncomputable def machTower (low : String) (q : Option Nat) (up : String) (fct : Nat → Option Sampler) (v : Int) (y : ℝ) :
    Mach Sampler LbdaUpdate where
  layers := towerLayers low q up
  matrices := [2]
  anneal := false
  world := worldTower v y
  fixed := fun i => decide (i = 2)
  layerOf := (wiringTower low q up).layerOf
  bernoulli_prior := fun _ => 1 / 2
  fct := fct
  trace := fun _ => none
  trace_index := fun _ => 0
  lfixed := fun _ => false
  lfct := fun _ => none
  ltrace := fun _ => none
  ltrace_index := fun _ => 0
  burn_in_iters := none
  clock := 0

/-- sampling functions of the lower layer -/
def fctTower (i : Nat) : Option Sampler :=
  if i = 0 then some (.qL_Z [0, 1]) else if i = 1 then some (.qL_U [1, 0]) else if i = 5 then some .qL_q else none

theorem tower_call {w : World} (h2 : (w.mat 2).val.shape = [2, 3]) (hl : w.lbda 0 = .scalar (.fin 1)) {i : Nat}
    (hi : i = 0 ∨ i = 1 ∨ i = 5) {s : Sampler} (hs : fctTower i = some s) (t : Nat) :
    ∃ v, runSpecial (wiringTower "qL-AND" (some 5) "OR-AND") s i t w = .ok (w.setVal i v) := by
  have s0 : siblingIds (wiringTower "qL-AND" (some 5) "OR-AND").toWiring ⟨[0, 1], "qL-AND", some 5, false, false⟩ 0 = [1] := by
    simp [siblingIds]
  have s1 : siblingIds (wiringTower "qL-AND" (some 5) "OR-AND").toWiring ⟨[0, 1], "qL-AND", some 5, false, false⟩ 1 = [0] := by
    simp [siblingIds]
  have hlf : (w.lbda 0).float? = some 1 := by rw [hl]; rfl
  have hlay : ∀ i, i = 0 ∨ i = 1 ∨ i = 5 → ((wiringTower "qL-AND" (some 5) "OR-AND").layerOf i).bind (fun k =>
      (wiringTower "qL-AND" (some 5) "OR-AND").layers[k]?.map fun lr => (k, lr)) =
      some (0, ⟨[0, 1], "qL-AND", some 5, false, false⟩) := by
    rintro i (rfl | rfl | rfl) <;> rfl
  have hc : (wiringTower "qL-AND" (some 5) "OR-AND").child 0 = 2 := rfl
  rw [runSpecial, hlay i hi]
  rcases hi with rfl | rfl | rfl <;> cases hs
  · dsimp only
    rw [s0, hlf, hc]
    simp [npTranspose, h2]
  · dsimp only
    rw [s1, hlf, hc]
    simp [npTranspose, h2]
  · dsimp only
    rw [hlf]
    exact ⟨_, rfl⟩

/-- sampling the matrices of the lower layer, in any order, any number of times -/
theorem tower_calls (is : List Nat) (his : ∀ i ∈ is, i = 0 ∨ i = 1 ∨ i = 5) : ∀ m : Mach Sampler LbdaUpdate, m.fct = fctTower →
    (m.world.mat 2).val.shape = [2, 3] → m.world.lbda 0 = .scalar (.fin 1) →
    ∃ r, (is.map InferCall.mat).foldlM (InferCall.run (specialEnv (wiringTower "qL-AND" (some 5) "OR-AND"))) m = .ok r := by
  induction is with
  | nil => exact fun m _ _ _ => ⟨m, rfl⟩
  | cons i is ih =>
    intro m hf h2 hl
    have hi := his i (List.mem_cons_self ..)
    obtain ⟨s, hs⟩ : ∃ s, fctTower i = some s := by rcases hi with rfl | rfl | rfl <;> exact ⟨_, rfl⟩
    obtain ⟨v, hv⟩ := tower_call h2 hl hi hs m.clock
    have hne : 2 ≠ i := by rcases hi with rfl | rfl | rfl <;> decide
    obtain ⟨r, hr⟩ := ih (fun j hj => his j (List.mem_cons_of_mem _ hj)) { m with world := m.world.setVal i v } hf
      (by show ((m.world.setVal i v).mat 2).val.shape = _; rw [World.setVal_ne _ _ hne, h2]) hl
    refine ⟨r, ?_⟩
    have hv' : (specialEnv (wiringTower "qL-AND" (some 5) "OR-AND")).runMat s i m.clock m.world = .ok (m.world.setVal i v) := hv
    rw [List.map_cons, List.foldlM_cons, InferCall.run, callMat, hf, hs]
    dsimp only
    rw [hv']
    rw [hf] at hr
    exact hr

/-- the hypotheses of `C115_unheard` are met by two machines with quite different upper layers (all ones with lambda 7, all minus
ones with lambda 0), for any order and number of updates of the lower layer: both runs return, with the same factors 0 -/
theorem C115_hypotheses_met (is : List Nat) (his : ∀ i ∈ is, i = 0 ∨ i = 1 ∨ i = 5) : ∃ r r' : Mach Sampler LbdaUpdate,
    (is.map InferCall.mat).foldlM (InferCall.run (specialEnv (wiringTower "qL-AND" (some 5) "OR-AND")))
      (machTower "qL-AND" (some 5) "OR-AND" fctTower 1 7) = .ok r ∧
    (is.map InferCall.mat).foldlM (InferCall.run (specialEnv (wiringTower "qL-AND" (some 5) "OR-AND")))
      (machTower "qL-AND" (some 5) "OR-AND" fctTower (-1) 0) = .ok r' ∧
    r'.world.mat 0 = r.world.mat 0 ∧ r'.world.mat 1 = r.world.mat 1 ∧ r'.world.mat 5 = r.world.mat 5 ∧
    (machTower "qL-AND" (some 5) "OR-AND" fctTower 1 7).world.mat 3 ≠ (machTower "qL-AND" (some 5) "OR-AND" fctTower (-1) 0).world.mat 3 := by
  obtain ⟨r, hr⟩ := tower_calls is his (machTower "qL-AND" (some 5) "OR-AND" fctTower 1 7) rfl rfl rfl
  obtain ⟨r', hr'⟩ := tower_calls is his (machTower "qL-AND" (some 5) "OR-AND" fctTower (-1) 0) rfl rfl rfl
  have key := C115_unheard (wr := wiringTower "qL-AND" (some 5) "OR-AND") (m := machTower "qL-AND" (some 5) "OR-AND" fctTower 1 7)
    (m' := machTower "qL-AND" (some 5) "OR-AND" fctTower (-1) 0) (lr := ⟨[0, 1], "qL-AND", some 5, false, false⟩) (k := 0) (x := 2)
    rfl (.inl rfl) rfl ?_ ?_ ?_ ?_ (fun _ _ _ _ => ⟨_, rfl⟩) rfl rfl rfl ?_ rfl (is.map InferCall.mat) ?_ hr hr'
  · refine ⟨r, r', hr, hr', key.1 0 (by simp), key.1 1 (by simp), key.1 5 (by simp), fun h => ?_⟩
    have := congrArg (fun f : Fac => f.val [0, 0]) h
    simp [machTower, worldTower, Arr.full] at this
  · intro i
    simp [wiringTower]
    omega
  · intro i s hi hs
    have hi : i = 0 ∨ i = 1 := by simpa using hi
    refine ⟨⟨Arr.full [2, 2] 1, Arr.full [2, 2] 0, 0, 1 / 2⟩, ⟨Arr.full [3, 2] (-1), Arr.full [3, 2] 0, 1, 1 / 2⟩, i, 1 / 2,
      [("OR-AND", 2)], ?_, ?_⟩
    · rcases hi with rfl | rfl <;> decide
    · rw [C115_parents_ignored (.inl rfl) _ _ _ _ _ _ (by simp)]
      have hrel : get_relatives_models (some "qL-AND") 2 [] = .ok (some "qL_AND_2D", none, none) := by decide
      rcases hi with rfl | rfl <;> cases hs <;>
        simp [get_sampling_fct, hrel, wiringTower, siblings, bind, Except.bind, pure, Except.pure]
  · intro i s hq _ hs
    cases hq
    cases hs
    rfl
  · intro k' lr' h hne i hi
    match k', h, hne with
    | 1, h, _ =>
      cases h
      have hi : i = 3 ∨ i = 4 := by simpa using hi
      rcases hi with rfl | rfl <;> simp
    | n + 2, h, _ => cases h
  · intro i hi
    have hi : i = 0 ∨ i = 1 ∨ i = 5 ∨ i = 2 := by
      rcases hi with h | h | h
      · have : i = 0 ∨ i = 1 := by simpa using h
        omega
      · cases h; omega
      · omega
    rcases hi with rfl | rfl | rfl | rfl <;> rfl
  · intro h
    obtain ⟨j, hj, e⟩ := List.mem_map.1 h
    cases e
    rcases his _ hj with h | h | h <;> omega

/-- the hypotheses of `C115_max_and_partial` and `C115_special_above_partial` are met: the same machine with a MAX-AND layer below, or
with a qL-AND layer on top -/
theorem C115_rejected_met (S cw : Nat) (eps : ℝ) (bmin : Nat) (bmax : Int) (ps fx : Nat) :
    (∃ e, infer (specialEnv (wiringTower "MAX-AND" none "OR-AND")) S cw eps bmin bmax ps fx
      (machTower "MAX-AND" none "OR-AND" (fun _ => none) 1 1) = .error e) ∧
    ∃ e, infer (specialEnv (wiringTower "OR-AND" none "qL-AND")) S cw eps bmin bmax ps fx
      (machTower "OR-AND" none "qL-AND" (fun _ => none) 1 1) = .error e := by
  constructor
  · exact C115_max_and_partial (i := 0) (k := 0) (p := 1) (z := 0) (u := 1) (lr := ⟨[0, 1], "MAX-AND", none, false, false⟩)
      (lp := ⟨[3, 4], "OR-AND", none, false, false⟩) (by decide) rfl
      (by intro lr h; simp [machTower, towerLayers] at h; rcases h with rfl | rfl <;> simp) rfl rfl rfl rfl (by simp [wiringTower])
      rfl S cw eps bmin bmax ps fx
  · exact C115_special_above_partial (i := 0) (k := 0) (p := 1) (z := 0) (u := 1) (lr := ⟨[0, 1], "OR-AND", none, false, false⟩)
      (lp := ⟨[3, 4], "qL-AND", none, false, false⟩) (lom := .OR_AND) (by decide) rfl
      (by intro lr h; simp [machTower, towerLayers] at h; rcases h with rfl | rfl <;> simp) rfl rfl rfl rfl (by simp [wiringTower])
      rfl (by simp [specialNames]) rfl S cw eps bmin bmax ps fx

end LFM
