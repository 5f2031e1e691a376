import Verif.Model.Special
import Verif.Props.SingleLayer
import Verif.Props.MaxMachine
import Verif.Props.QL
import Verif.Props.IBP

/-!
# Lemmas: machines with a single MAX-AND, qL-AND or OR-AND-IBP layer
-/

namespace LFM

open Spec

/-- a machine with a single layer of the given model, with factors `z` and `u`, on fixed data `x` -/
structure TwoFactors (wr : SpecialWiring) (m : Mach Sampler LbdaUpdate) (lr : LayerInfo) (model : String)
    (z u x : Nat) : Prop where
  layers : m.layers = [lr]
  model : lr.model = model
  factors : lr.factors = [z, u]
  ne : z ≠ u
  wrLayers : wr.layers = m.layers
  wrLayerOf : wr.layerOf = m.layerOf
  axisZ : wr.childAxis z = 0
  axisU : wr.childAxis u = 1
  layerZ : m.layerOf z = some 0
  layerU : m.layerOf u = some 0
  parentsZ : wr.parents z = []
  parentsU : wr.parents u = []
  child : wr.child 0 = x
  dataZ : x ≠ z
  dataU : x ≠ u
  matrices : ∀ i ∈ m.matrices, m.fixed i = true
  perm : ∀ t l, ∀ i ∈ wr.perm t l, i ∈ l

namespace TwoFactors

variable {wr : SpecialWiring} {m : Mach Sampler LbdaUpdate} {lr : LayerInfo} {model : String} {z u x : Nat}

theorem layer (H : TwoFactors wr m lr model z u x) {i : Nat} (hi : m.layerOf i = some 0) :
    ((wr.layerOf i).bind fun k => wr.layers[k]?.map fun lr => (k, lr)) = some (0, lr) := by
  rw [H.wrLayerOf, hi, H.wrLayers, H.layers]; rfl

theorem sibZ (H : TwoFactors wr m lr model z u x) : siblingIds wr.toWiring lr z = [u] := by
  simp [siblingIds, H.factors, H.ne.symm]

theorem sibU (H : TwoFactors wr m lr model z u x) : siblingIds wr.toWiring lr u = [z] := by
  simp [siblingIds, H.factors, H.ne]

theorem nodup (H : TwoFactors wr m lr model z u x) : lr.factors.Nodup := by
  rw [H.factors]; simp [H.ne]

theorem mem (H : TwoFactors wr m lr model z u x) {i : Nat} : i ∈ lr.factors ↔ i = z ∨ i = u := by
  rw [H.factors]; simp

theorem free_lbda (H : TwoFactors wr m lr model z u x) {k : Nat} (hk : k ∈ freeLbdas m) : k = 0 := by
  simp only [freeLbdas, H.layers, List.mem_filter, List.mem_range, List.length_singleton] at hk
  omega

theorem free_eq (H : TwoFactors wr m lr model z u x) (hq : model ≠ "qL-AND") :
    freeMats m = [z, u].filter fun i => !m.fixed i := by
  have h2 : m.matrices.filter (fun i => !m.fixed i) = [] := by
    rw [List.filter_eq_nil_iff]
    intro i hi
    simp [H.matrices i hi]
  rw [← H.model] at hq
  simp only [freeMats, members, H.layers, List.flatMap_cons, List.flatMap_nil, List.append_nil, hq, if_false,
    List.filter_append, h2, H.factors]

theorem free_mem (H : TwoFactors wr m lr model z u x) (hq : model ≠ "qL-AND") {i : Nat} (hi : i ∈ freeMats m) :
    i = z ∨ i = u := by
  rw [H.free_eq hq, List.mem_filter] at hi
  simpa using hi.1

theorem modelOf_eq (H : TwoFactors wr m lr model z u x) {i : Nat} (hi : m.layerOf i = some 0) :
    modelOf m i = some model := by
  rw [modelOf, hi, H.layers, ← H.model]; rfl

/-- what `getSampler` looks up -/
theorem getSampler_eq (H : TwoFactors wr m lr model z u x) {m' : Mach Sampler LbdaUpdate} (hl : m'.layers = m.layers)
    (ho : m'.layerOf = m.layerOf) {i : Nat} (hi : m.layerOf i = some 0) (hp : wr.parents i = []) :
    ∃ a b : Member, a.child_axis = 0 ∧ b.child_axis = 1 ∧ getSampler wr.toWiring m' i =
      (do
        let s ← get_sampling_fct none (some model) [a, b] (wr.childAxis i) (lr.factors.idxOf i) (m'.bernoulli_prior i) []
        match s with
        | .none => pure (none, none)
        | .qL_Z _ | .qL_U _ => pure (some s, lr.q.map fun q => (q, .qL_q))
        | s => pure (some s, none)) := by
  have hlr : (m'.layerOf i).bind (fun k => m'.layers[k]?) = some lr := by
    rw [ho, hl, hi, H.layers]; rfl
  refine ⟨⟨(m'.world.mat z).val, (m'.world.mat z).fixed_entries, wr.childAxis z, m'.bernoulli_prior z⟩,
    ⟨(m'.world.mat u).val, (m'.world.mat u).fixed_entries, wr.childAxis u, m'.bernoulli_prior u⟩, H.axisZ, H.axisU, ?_⟩
  rw [getSampler]
  simp only [hlr, Option.map_some, hp, List.filterMap_nil, H.model, H.factors, List.map_cons, List.map_nil, Option.bind_some]
  rfl

end TwoFactors

/-- assigning sampling functions that satisfy `Good` -/
theorem assigns_good {F G : Type} (env : Env F G) (Good : Nat → F → Prop) (ks : List Nat) : ∀ m : Mach F G,
    (∀ i ∈ ks, ∀ m' : Mach F G, m'.layers = m.layers → m'.layerOf = m.layerOf → ∃ s e, env.getFct m' i = .ok (some s, e) ∧
      Good i s ∧ ∀ j g, e = some (j, g) → Good j g) →
    (∀ i s, m.fct i = some s → Good i s) →
    ∃ m', ks.foldlM (assignFct env) m = .ok m' ∧ (∀ i s, m'.fct i = some s → Good i s) ∧
      (∀ i ∈ ks, m'.fct i ≠ none) ∧ (∀ i, m.fct i ≠ none → m'.fct i ≠ none) ∧ m'.lfct = m.lfct := by
  induction ks with
  | nil => intro m _ hg; exact ⟨m, rfl, hg, by simp, fun _ h => h, rfl⟩
  | cons k ks ih =>
    intro m hget hg
    cases hf : m.fct k with
    | some s =>
      obtain ⟨m', e1, e2, e3, e4, e5⟩ := ih m (fun i hi => hget i (by simp [hi])) hg
      refine ⟨m', ?_, e2, ?_, e4, e5⟩
      · rw [List.foldlM_cons, assignFct, hf]; exact e1
      · intro i hi
        rcases List.mem_cons.mp hi with rfl | hi
        · exact e4 _ (by rw [hf]; simp)
        · exact e3 i hi
    | none =>
      obtain ⟨s, e, h1, h2, h3⟩ := hget k (by simp) m rfl rfl
      obtain ⟨m0, hm0⟩ : ∃ m0 : Mach F G, m0 = e.elim m fun p => { m with fct := upd m.fct p.1 (some p.2) } := ⟨_, rfl⟩
      have hm0' : m0 = { m with fct := m0.fct } := by
        rw [hm0]; cases e <;> rfl
      have g0 : ∀ i s, m0.fct i = some s → Good i s := by
        intro i s' hs
        rw [hm0] at hs
        cases e with
        | none => exact hg i s' hs
        | some p =>
          obtain ⟨j, g⟩ := p
          simp only [Option.elim, upd] at hs
          split at hs
          · rename_i h
            cases hs
            rw [h]; exact h3 j _ rfl
          · exact hg i s' hs
      have mono0 : ∀ i, m.fct i ≠ none → m0.fct i ≠ none := by
        intro i hi
        rw [hm0]
        cases e with
        | none => exact hi
        | some p =>
          simp only [Option.elim, upd]
          split
          · simp
          · exact hi
      obtain ⟨m1, hm1⟩ : ∃ m1 : Mach F G, m1 = { m0 with fct := upd m0.fct k (some s) } := ⟨_, rfl⟩
      have l1 : m1.layers = m.layers := by rw [hm1, hm0']
      have o1 : m1.layerOf = m.layerOf := by rw [hm1, hm0']
      have lf1 : m1.lfct = m.lfct := by rw [hm1, hm0']
      obtain ⟨m', e1, e2, e3, e4, e5⟩ := ih m1 (fun i hi m' hl ho => hget i (by simp [hi]) m' (hl.trans l1) (ho.trans o1)) (by
        intro i s' hs
        rw [hm1] at hs
        simp only [upd] at hs
        split at hs
        · rename_i h
          cases hs
          rw [h]; exact h2
        · exact g0 i s' hs)
      have step : assignFct env m k = .ok m1 := by
        rw [assignFct, hf]
        show (env.getFct m k >>= _) = _
        rw [h1, hm1, hm0]
        cases e <;> rfl
      have mono1 : ∀ i, m0.fct i ≠ none → m1.fct i ≠ none := by
        intro i hi
        rw [hm1]
        simp only [upd]
        split
        · simp
        · exact hi
      refine ⟨m', by rw [List.foldlM_cons, step]; exact e1, e2, ?_, fun i hi => e4 i (mono1 i (mono0 i hi)), e5.trans lf1⟩
      intro i hi
      rcases List.mem_cons.mp hi with rfl | hi
      · exact e4 _ (by rw [hm1]; simp [upd])
      · exact e3 i hi

/-- assigning the update function of the only parameter -/
theorem lassigns_good {F G : Type} (env : Env F G) (GoodL : G → Prop) (ks : List Nat) (hks : ∀ k ∈ ks, k = 0) : ∀ m : Mach F G,
    (∀ m' : Mach F G, m'.layers = m.layers → ∃ g, env.getLfct m' 0 = .ok g ∧ GoodL g) →
    (∀ g, m.lfct 0 = some g → GoodL g) →
    ∃ m', ks.foldlM (assignLfct env) m = .ok m' ∧ m'.fct = m.fct ∧ (∀ k ∈ ks, ∃ g, m'.lfct k = some g ∧ GoodL g) ∧
      (∀ g, m'.lfct 0 = some g → GoodL g) ∧ (m.lfct 0 ≠ none → m'.lfct 0 ≠ none) := by
  induction ks with
  | nil => intro m _ hg; exact ⟨m, rfl, rfl, by simp, hg, fun h => h⟩
  | cons k ks ih =>
    intro m hget hg
    obtain rfl := hks k (by simp)
    have hks' : ∀ k ∈ ks, k = 0 := fun k hk => hks k (by simp [hk])
    have fin : ∀ m' : Mach F G, (∀ g, m'.lfct 0 = some g → GoodL g) → m'.lfct 0 ≠ none → ∀ k ∈ 0 :: ks, ∃ g, m'.lfct k = some g ∧ GoodL g := by
      intro m' h1 h2 k hk
      obtain rfl : k = 0 := by
        rcases List.mem_cons.mp hk with h | h
        · exact h
        · exact hks' k h
      obtain ⟨g, h⟩ := Option.ne_none_iff_exists'.mp h2
      exact ⟨g, h, h1 g h⟩
    cases hf : m.lfct 0 with
    | some g =>
      obtain ⟨m', e1, e2, e3, e4, e5⟩ := ih hks' m hget hg
      exact ⟨m', by rw [List.foldlM_cons, assignLfct, hf]; exact e1, e2, fin m' e4 (e5 (by rw [hf]; simp)), e4,
        fun _ => e5 (by rw [hf]; simp)⟩
    | none =>
      obtain ⟨g, h1, h2⟩ := hget m rfl
      obtain ⟨m1, hm1⟩ : ∃ m1 : Mach F G, m1 = { m with lfct := upd m.lfct 0 (some g) } := ⟨_, rfl⟩
      have h0 : m1.lfct 0 = some g := by rw [hm1]; simp [upd]
      obtain ⟨m', e1, e2, e3, e4, e5⟩ := ih hks' m1 (fun m' hl => hget m' (by rw [hl, hm1])) (by
        intro g' hg'
        rw [h0] at hg'
        cases hg'
        exact h2)
      have step : assignLfct env m 0 = .ok m1 := by
        rw [assignLfct, hf]
        show (env.getLfct m 0 >>= _) = _
        rw [h1, hm1]
        rfl
      exact ⟨m', by rw [List.foldlM_cons, step]; exact e1, by rw [e2, hm1], fin m' e4 (e5 (by rw [h0]; simp)), e4,
        fun h => e5 (by rw [h0]; simp)⟩

/-! ## MAX-AND -/

theorem draw_MAX_AND_2D_eq (Z Zf U X : Arr Int) (ls : List Nat) (r : Arr ℝ) (rnd : Rnd) :
    draw_MAX_AND_2D Z Zf U X ls r rnd =
      sweep (fun Z i => (posterior_score_MAX_AND_2D (Z.row (i0 i)) U (X.row (i0 i)) (i1 i) ls r : ℝ)) Zf rnd
        (tasks2 (Z.dim 0) (Z.dim 1)) Z := by
  rw [sweep, ← foldl_tasks2]
  exact run_sweep2 _ _ _ _ _

theorem floats_fin (ls : List ℝ) : (LVal.vector (ls.map NpF.fin)).floats? = some ls := by
  simp only [LVal.floats?]
  induction ls with
  | nil => rfl
  | cons a ls ih =>
    rw [List.map_cons, List.mapM_cons, ih]
    rfl

theorem max_ratios {Z U X : Arr Int} {lbda new ratios : Arr ℝ} {N L : Nat} (hZ : Z.shape = [N, L])
    (hrun : lbda_MAX_AND 2 Z U X lbda = .ok (new, ratios)) : ratios = compute_lbda_ratios L new := by
  have hL : Z.dim 1 = L := by simp [Arr.dim, hZ]
  unfold lbda_MAX_AND at hrun
  simp only [ne_eq, not_true_eq_false, if_false, hL] at hrun
  simp only [bind, Except.bind, pure, Except.pure, throw, throwThe, MonadExceptOf.throw] at hrun
  split_ifs at hrun <;> (injection hrun with hrun; injection hrun with e1 e2; rw [← e1, ← e2])

end LFM
