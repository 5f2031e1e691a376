import Verif.Lemmas.Hier

/-!
# C76: sampling in hierarchical machines preserves the joint posterior
-/

namespace LFM

open Spec MeasureTheory

namespace Spec.Hier

variable (h : Hier)

/-- the objects of machine `wr` are those of the hierarchy -/
structure Wired (wr : Wiring) : Prop where
  length : wr.layers.length = h.layers.length
  layers : ∀ (k : Nat) (L : HLayer), h.layers[k]? = some L → ∃ lr, wr.layers[k]? = some lr ∧ lr.model = L.model.name ∧
    lr.factors = L.factors ∧ wr.child k = L.child ∧
    ∀ i ∈ L.factors, wr.layerOf i = some k ∧ wr.childAxis i = L.factors.idxOf i
  parents : ∀ i < h.M, wr.parents i = (List.range h.layers.length).filter fun k => (h.layers[k]?.map HLayer.child) = some i

/-- values of all matrices and parameters in state `s`, with fixed entries `fe` -/
noncomputable def world (fe : Nat → Arr Int) (s : h.State) : World where
  mat i := if hi : i < h.M then ⟨Cfg.arr (s ⟨i, hi⟩), fe i⟩ else ⟨h.data i, fe i⟩
  lbda k := .scalar (.fin ((h.layers[k]?.map HLayer.lbda).getD 0))

/-- world `w` shows state `s'`; data, fixed entries and parameters are as they were -/
def Shows (fe : Nat → Arr Int) (w : World) (s' : h.State) : Prop :=
  (∀ i : Fin h.M, Holds (w.mat i).val (s' i)) ∧ (∀ i, h.M ≤ i → (w.mat i).val = h.data i) ∧
    (∀ i, (w.mat i).fixed_entries = fe i) ∧ ∀ s, w.lbda = (h.world fe s).lbda

/-- probability that sampling function `smp` of matrix `i` takes the machine from state `s` to state `s'` -/
noncomputable def kernel (wr : Wiring) (fe : Nat → Arr Int) (t : Nat) (smp : Fin h.M → Sampler) (i : Fin h.M)
    (s s' : h.State) : ENNReal :=
  uniformDraws (h.rows i) (h.cols i)
    {u | ∃ w, runSampler { wr with rnd := fun _ _ => rndOf u } (smp i) i t (h.world fe s) = .ok w ∧ h.Shows fe w s'}

variable {h}

theorem world_mat_lt (fe : Nat → Arr Int) (s : h.State) {i : Nat} (hi : i < h.M) :
    (h.world fe s).mat i = ⟨Cfg.arr (s ⟨i, hi⟩), fe i⟩ := by simp [world, hi]

theorem world_mat_ge (fe : Nat → Arr Int) (s : h.State) {i : Nat} (hi : h.M ≤ i) :
    (h.world fe s).mat i = ⟨h.data i, fe i⟩ := by simp [world, Nat.not_lt.2 hi]

theorem facOf_world (fe : Nat → Arr Int) (s : h.State) (i : Nat) : facOf ((h.world fe s).mat i).val = h.val s i := by
  by_cases hi : i < h.M
  · rw [world_mat_lt fe s hi, val, dif_pos hi]; rfl
  · rw [world_mat_ge fe s (Nat.not_lt.1 hi), val, dif_neg hi]; rfl

theorem world_pm (fe : Nat → Arr Int) (s : h.State) {i : Nat} (hi : i < h.M) :
    ((h.world fe s).mat i).val.shape = [h.rows i, h.cols i] ∧ PMArr ((h.world fe s).mat i).val := by
  rw [world_mat_lt fe s hi]
  exact ⟨rfl, Cfg.arr_pm _⟩

theorem world_child (H : h.Legal) (fe : Nat → Arr Int) (s : h.State) {k : HLayer} (hk : k ∈ h.layers) (hv : k.v = none) :
    ((h.world fe s).mat k.child).val.shape = [h.rows k.child, h.cols k.child] ∧
      DataArr ((h.world fe s).mat k.child).val := by
  by_cases hc : k.child < h.M
  · obtain ⟨h1, h2⟩ := world_pm fe s hc
    refine ⟨h1, fun idx hi => ?_⟩
    rcases h2 idx hi with e | e <;> rw [e] <;> simp [IsData]
  · obtain ⟨h1, h2⟩ := H.data2 k hk hv (by omega)
    rw [world_mat_ge fe s (Nat.not_lt.1 hc)]
    exact ⟨h1, h2⟩

theorem factors_none {L : HLayer} (hv : L.v = none) : L.factors = [L.z, L.u] := by simp [HLayer.factors, hv]
theorem factors_some {L : HLayer} {v : Nat} (hv : L.v = some v) : L.factors = [L.z, L.u, v] := by
  simp [HLayer.factors, hv]

theorem factors_nodup (H : h.Legal) {L : HLayer} (hL : L ∈ h.layers) : L.factors.Nodup :=
  (List.nodup_flatMap.1 H.nodup).1 L hL

theorem z_ne_u (H : h.Legal) {L : HLayer} (hL : L ∈ h.layers) : L.z ≠ L.u := by
  intro e
  have := factors_nodup H hL
  simp [HLayer.factors, e] at this

theorem v_ne (H : h.Legal) {L : HLayer} (hL : L ∈ h.layers) {v : Nat} (hv : L.v = some v) : L.z ≠ v ∧ L.u ≠ v := by
  have := factors_nodup H hL
  rw [factors_some hv] at this
  simp only [List.nodup_cons, List.mem_cons, List.not_mem_nil, or_false, not_or] at this
  exact ⟨this.1.2, this.2.1⟩

theorem idx_z {L : HLayer} : L.factors.idxOf L.z = 0 := by simp [HLayer.factors]
theorem idx_u (H : h.Legal) {L : HLayer} (hL : L ∈ h.layers) : L.factors.idxOf L.u = 1 := by
  have e : (L.z == L.u) = false := by simpa using z_ne_u H hL
  rw [HLayer.factors, List.idxOf_cons, List.idxOf_cons, e]
  simp
theorem idx_v (H : h.Legal) {L : HLayer} (hL : L ∈ h.layers) {v : Nat} (hv : L.v = some v) : L.factors.idxOf v = 2 := by
  obtain ⟨h1, h2⟩ := v_ne H hL hv
  have e1 : (L.z == v) = false := by simpa using h1
  have e2 : (L.u == v) = false := by simpa using h2
  rw [factors_some hv, List.idxOf_cons, List.idxOf_cons, List.idxOf_cons, e1, e2]
  simp

/-- layers on top of a latent matrix have two factors -/
theorem parents_two (H : h.Legal) {i : Nat} (hi : i < h.M) {L : HLayer} (hL : L ∈ h.layers) (hc : L.child = i) :
    L.v = none := by
  cases hv : L.v with
  | none => rfl
  | some v =>
    have := (H.data3 L hL v hv).1
    omega

/-- factor `j` of layer `L` as the sampling functions see it -/
noncomputable def mem (wr : Wiring) (q : ℝ) (w : World) (i : Nat) : Member :=
  ⟨(w.mat i).val, (w.mat i).fixed_entries, wr.childAxis i, q⟩

theorem isLayer (H : h.Legal) {wr : Wiring} (hw : h.Wired wr) (fe : Nat → Arr Int) (s : h.State) {k : Nat} {L : HLayer}
    (hL : h.layers[k]? = some L) (hv : L.v = none) (q q' : ℝ) :
    IsLayer2 (h.rows L.child) (h.cols L.child) (h.cols L.z) (mem wr q (h.world fe s) L.z) (mem wr q' (h.world fe s) L.u)
      ((h.world fe s).mat L.child).val := by
  have hm : L ∈ h.layers := List.mem_of_getElem? hL
  have z1 := H.latent L hm _ (mem_z L)
  have u1 := H.latent L hm _ (mem_u L)
  obtain ⟨s1, s2, s3⟩ := H.sizes2 L hm hv
  obtain ⟨lr, -, -, -, -, ha⟩ := hw.layers k L hL
  obtain ⟨d1, d2⟩ := world_child H fe s hm hv
  obtain ⟨e1, e2⟩ := world_pm fe s z1
  obtain ⟨f1, f2⟩ := world_pm fe s u1
  exact ⟨by rw [← s1]; exact e1, by rw [← s2, ← s3]; exact f1, d1, e2, f2, d2, (ha _ (mem_z L)).2.trans idx_z,
    (ha _ (mem_u L)).2.trans (idx_u H hm)⟩

theorem isLayer3 (H : h.Legal) {wr : Wiring} (hw : h.Wired wr) (fe : Nat → Arr Int) (s : h.State) {k : Nat} {L : HLayer}
    (hL : h.layers[k]? = some L) {v : Nat} (hv : L.v = some v) (q q' q'' : ℝ) :
    IsLayer3 (h.rows L.z) (h.rows L.u) (h.rows v) (h.cols L.z) (mem wr q (h.world fe s) L.z)
      (mem wr q' (h.world fe s) L.u) (mem wr q'' (h.world fe s) v) ((h.world fe s).mat L.child).val := by
  have hm : L ∈ h.layers := List.mem_of_getElem? hL
  have z1 := H.latent L hm _ (mem_z L)
  have u1 := H.latent L hm _ (mem_u L)
  have v1 := H.latent L hm _ (mem_v hv)
  obtain ⟨s1, s2⟩ := H.sizes3 L hm v hv
  obtain ⟨lr, -, -, -, -, ha⟩ := hw.layers k L hL
  obtain ⟨d0, d1, d2⟩ := H.data3 L hm v hv
  obtain ⟨e1, e2⟩ := world_pm fe s z1
  obtain ⟨f1, f2⟩ := world_pm fe s u1
  obtain ⟨g1, g2⟩ := world_pm fe s v1
  rw [world_mat_ge fe s d0]
  exact ⟨e1, by rw [← s1]; exact f1, by rw [← s2]; exact g1, d1, e2, f2, g2, d2, (ha _ (mem_z L)).2.trans idx_z,
    (ha _ (mem_u L)).2.trans (idx_u H hm), (ha _ (mem_v hv)).2.trans (idx_v H hm hv)⟩

/-- a parent layer in state `s` -/
noncomputable def par (h : Hier) (fe : Nat → Arr Int) (s : h.State) (L : HLayer) : Par :=
  ⟨L.model, h.cols L.z, ((h.world fe s).mat L.z).val, ((h.world fe s).mat L.u).val, L.lbda⟩

theorem mapM_some {α β : Type} {f : α → Option β} {g : α → β} : ∀ l : List α, (∀ a ∈ l, f a = some (g a)) →
    l.mapM f = some (l.map g)
  | [], _ => rfl
  | a :: l, hl => by
    rw [List.mapM_cons, hl a (List.mem_cons_self ..), mapM_some l fun b hb => hl b (List.mem_cons_of_mem _ hb)]
    rfl

theorem filter_range_map {α β : Type} (l : List α) (p : α → Bool) (g : α → β) (f : Nat → β)
    (hf : ∀ k a, l[k]? = some a → p a = true → f k = g a) :
    ((List.range l.length).filter fun k => (l[k]?.map p).getD false).map f = (l.filter p).map g := by
  induction l generalizing f with
  | nil => rfl
  | cons a l ih =>
    have e := ih (fun k => f (k + 1)) fun k b hb => hf (k + 1) b (by simpa using hb)
    rw [List.length_cons, List.range_succ_eq_map, List.filter_cons, List.filter_map, List.filter_cons]
    have e' : ((fun k => ((a :: l)[k]?.map p).getD false) ∘ Nat.succ) = fun k => (l[k]?.map p).getD false := by
      funext k; simp
    rw [e']
    by_cases hp : p a = true
    · have h0 := hf 0 a rfl hp
      simp [hp, h0, ← e, Function.comp_def]
    · simp [hp, ← e, Function.comp_def]

theorem world_update_ne (fe : Nat → Arr Int) (s : h.State) (i : Fin h.M) (c : Cfg (h.rows i) (h.cols i)) {j : Nat}
    (hj : j ≠ i) : (h.world fe (Function.update s i c)).mat j = (h.world fe s).mat j := by
  by_cases hlt : j < h.M
  · rw [world_mat_lt fe _ hlt, world_mat_lt fe _ hlt, Function.update_of_ne]
    exact fun e => hj (congrArg Fin.val e)
  · rw [world_mat_ge fe _ (Nat.not_lt.1 hlt), world_mat_ge fe _ (Nat.not_lt.1 hlt)]

theorem world_update_self (fe : Nat → Arr Int) (s : h.State) (i : Fin h.M) (c : Cfg (h.rows i) (h.cols i)) :
    (h.world fe (Function.update s i c)).mat i = ⟨Cfg.arr c, fe i⟩ := by
  rw [world_mat_lt fe _ i.2, Function.update_self]

theorem run_congr (s : Sampler) {mat mat' : Member} {fs fs' : List Member} {k : Nat} (h1 : mat.val = mat'.val)
    (h2 : mat.fixed_entries = mat'.fixed_entries)
    (h3 : (siblings fs k).map Member.val = (siblings fs' k).map Member.val) (child : Arr Int) (lbda : ℝ)
    (ps : List ParentLayer) (rnd : Rnd) :
    s.run mat fs k child lbda ps rnd = s.run mat' fs' k child lbda ps rnd := by
  unfold Sampler.run
  rw [h1, h2, h3]

theorem lbda_float (fe : Nat → Arr Int) (s : h.State) {k : Nat} {L : HLayer} (hL : h.layers[k]? = some L) :
    ((h.world fe s).lbda k).float? = some L.lbda := by
  simp [world, hL, LVal.float?]

theorem parents_eq {wr : Wiring} (hw : h.Wired wr) {i : Nat} (hi : i < h.M) {β : Type} (f : Nat → β) (g : HLayer → β)
    (hf : ∀ k L, h.layers[k]? = some L → L.child = i → f k = g L) : (wr.parents i).map f = (h.parentsOf i).map g := by
  rw [hw.parents i hi, parentsOf, ← filter_range_map h.layers (fun k => decide (k.child = i)) g f
    fun k L hL hc => hf k L hL (by simpa using hc)]
  congr 1
  refine List.filter_congr fun k hk => ?_
  cases h.layers[k]? <;> simp

theorem parents_mem {wr : Wiring} (hw : h.Wired wr) {i : Nat} (hi : i < h.M) :
    ∀ k ∈ wr.parents i, ∃ L, h.layers[k]? = some L ∧ L.child = i := by
  intro k hk
  rw [hw.parents i hi, List.mem_filter] at hk
  have := hk.1
  rw [List.mem_range] at this
  refine ⟨_, List.getElem?_eq_getElem this, ?_⟩
  have h2 := hk.2
  rw [List.getElem?_eq_getElem this] at h2
  simpa using h2

theorem parents_view (H : h.Legal) {wr : Wiring} (hw : h.Wired wr) (fe : Nat → Arr Int) (s : h.State) {i : Nat}
    (hi : i < h.M) (rnd : Nat → Nat → Rnd) :
    (wr.parents i).mapM (parentAt { wr with rnd := rnd } (h.world fe s)) =
      some (((h.parentsOf i).map (par h fe s)).map Par.toLayer) := by
  rw [mapM_some (g := fun k => ((h.layers[k]?.map fun L => (par h fe s L).toLayer)).getD ⟨"", [], 0⟩)]
  · rw [parents_eq hw hi _ fun L => (par h fe s L).toLayer]
    · rw [List.map_map]; rfl
    · intro k L hL _
      rw [hL]; rfl
  · intro k hk
    obtain ⟨L, hL, hc⟩ := parents_mem hw hi k hk
    obtain ⟨lr, h1, h2, h3, -⟩ := hw.layers k L hL
    rw [factors_none (parents_two H hi (List.mem_of_getElem? hL) hc)] at h3
    rw [parentAt]
    show (wr.layers[k]? >>= fun lr => ((h.world fe s).lbda k).float? >>= fun x => _) = _
    rw [h1, lbda_float fe s hL, hL, Option.bind_eq_bind, Option.bind_some, Option.bind_eq_bind, Option.bind_some, h2, h3]
    rfl

theorem layer_view {wr : Wiring} (hw : h.Wired wr) (fe : Nat → Arr Int) (s : h.State) {k : Nat} {L : HLayer}
    (hL : h.layers[k]? = some L) {i : Nat} (hi : i ∈ L.factors) (rnd : Nat → Nat → Rnd) :
    layerView { wr with rnd := rnd } (h.world fe s) i = some (L.factors.map (mem wr (1 / 2) (h.world fe s)),
      L.factors.idxOf i, ((h.world fe s).mat L.child).val, L.lbda) := by
  obtain ⟨lr, h1, h2, h3, h4, h5⟩ := hw.layers k L hL
  rw [layerView]
  simp only [(h5 i hi).1]
  show (wr.layers[k]? >>= fun lr => ((h.world fe s).lbda k).float? >>= fun x => _) = _
  rw [h1, lbda_float fe s hL, Option.bind_eq_bind, Option.bind_some, Option.bind_eq_bind, Option.bind_some, h3, h4]
  rfl

theorem get_generic {m : Lom8} {ps : List Lom8} (hps : ps.length ≤ 2) {A B : Member} {ax k : Nat} {q : ℝ} {s : Sampler}
    (hs : get_sampling_fct none (some m.name) [A, B] ax k q (ps.map fun p => (p.name, 2)) = .ok s) :
    s ≠ .none ∧ (∀ o, s ≠ .qL_Z o) ∧ ∀ o, s ≠ .qL_U o := by
  obtain ⟨f, hf, -⟩ := C14_score_2d_partial m
  rcases ps with _ | ⟨p, _ | ⟨p', _ | ⟨p'', ps⟩⟩⟩
  · rw [List.map_nil, dispatch_onechild (factors := [A, B]) (relatives2 m) (generic_code2 m),
      make_onechild2 m hf] at hs
    simp only [Except.map, Except.ok.injEq] at hs
    subst hs
    simp
  · obtain ⟨g, hg, -⟩ := parent_fct p
    rw [List.map_cons, List.map_nil, dispatch_onechild_oneparent (factors := [A, B]) (relatives2_1 m p) (generic_code2 m),
      make_onechild_oneparent2 m _ hf hg] at hs
    simp only [Except.map, Except.ok.injEq] at hs
    subst hs
    simp
  · obtain ⟨g, hg, -⟩ := parent_fct p
    obtain ⟨g', hg', -⟩ := parent_fct p'
    rw [List.map_cons, List.map_cons, List.map_nil, dispatch_onechild_twoparents (factors := [A, B])
      (relatives2_2 m p p') (generic_code2 m), make_onechild_twoparents2 m p p' hf hg hg'] at hs
    simp only [Except.map, Except.ok.injEq] at hs
    subst hs
    simp
  · simp only [List.length_cons] at hps
    omega

theorem get_generic3 {m : Lom8} {A B C : Member} {ax k : Nat} {q : ℝ} {s : Sampler}
    (hs : get_sampling_fct none (some m.name) [A, B, C] ax k q [] = .ok s) :
    s ≠ .none ∧ (∀ o, s ≠ .qL_Z o) ∧ ∀ o, s ≠ .qL_U o := by
  obtain ⟨f, hf, -⟩ := C15_score_3d m
  rw [dispatch_onechild (factors := [A, B, C]) (relatives3 m) (generic_code3 m), make_onechild3 m hf] at hs
  simp only [Except.map, Except.ok.injEq] at hs
  subst hs
  simp

theorem get_sampler (H : h.Legal) {wr : Wiring} (hw : h.Wired wr) {k : Nat} {L : HLayer} (hL : h.layers[k]? = some L)
    {i : Nat} (hi : i < h.M) (hiL : i ∈ L.factors)
    {m : Mach Sampler LbdaUpdate} (e1 : m.layers = wr.layers) (e2 : m.layerOf = wr.layerOf) {smp : Sampler}
    (hgen : smp ≠ .none ∧ (∀ o, smp ≠ .qL_Z o) ∧ ∀ o, smp ≠ .qL_U o)
    (hs : get_sampling_fct none (some L.model.name) (L.factors.map fun j => mem wr (m.bernoulli_prior j) m.world j)
      (wr.childAxis i) (L.factors.idxOf i) (m.bernoulli_prior i)
      (((h.parentsOf i).map HLayer.model).map fun p => (p.name, 2)) = .ok smp) :
    getSampler wr m i = .ok (some smp, none) := by
  obtain ⟨lr, h1, h2, h3, h4, h5⟩ := hw.layers k L hL
  have ho : wr.layerOf i = some k := (h5 i hiL).1
  have hp : ((wr.parents i).filterMap fun p => m.layers[p]?.map fun lr => (lr.model, lr.factors.length)) =
      ((h.parentsOf i).map HLayer.model).map fun p => (p.name, 2) := by
    rw [List.map_map, ← parents_eq hw hi (fun k => ((h.layers[k]?.map fun L => (L.model.name, 2))).getD ("", 0))]
    · rw [← List.filterMap_eq_map]
      refine List.filterMap_congr fun p hp => ?_
      obtain ⟨L', hL', hc⟩ := parents_mem hw hi p hp
      obtain ⟨lr', g1, g2, g3, -⟩ := hw.layers p L' hL'
      rw [factors_none (parents_two H hi (List.mem_of_getElem? hL') hc)] at g3
      rw [e1, g1]
      simp [hL', g2, g3]
    · intro p L' hL' _
      rw [hL']; rfl
  obtain ⟨n1, n2, n3⟩ := hgen
  rw [getSampler]
  simp only [e2, ho, e1, Option.bind_some, h1, h3, Option.map_some, h2]
  rw [e1] at hp
  rw [hp]
  have : (List.map (fun j => (⟨(m.world.mat j).val, (m.world.mat j).fixed_entries, wr.childAxis j,
      m.bernoulli_prior j⟩ : Member)) L.factors) = L.factors.map fun j => mem wr (m.bernoulli_prior j) m.world j := rfl
  rw [this, hs]
  cases smp <;> first | rfl | exact absurd rfl n1 | exact absurd rfl (n2 _) | exact absurd rfl (n3 _)

theorem pars_update (H : h.Legal) (fe : Nat → Arr Int) (s : h.State) (i : Fin h.M) (c : Cfg (h.rows i) (h.cols i)) :
    (h.parentsOf i).map (par h fe (Function.update s i c)) = (h.parentsOf i).map (par h fe s) := by
  refine List.map_congr_left fun L hL => ?_
  obtain ⟨hL, hc⟩ := List.mem_filter.1 hL
  have hc : L.child = i := by simpa using hc
  have hch := H.child L hL
  have h1 : L.child ≠ L.z := fun e => hch (by rw [e]; exact mem_z L)
  have h2 : L.child ≠ L.u := fun e => hch (by rw [e]; exact mem_u L)
  rw [par, par, world_update_ne fe s i c (by rw [← hc]; exact h1.symm), world_update_ne fe s i c (by rw [← hc]; exact h2.symm)]

theorem pars_legal (H : h.Legal) (fe : Nat → Arr Int) (s : h.State) (i : Fin h.M) :
    ∀ p ∈ (h.parentsOf i).map (par h fe s), IsParent2 (h.rows i) (h.cols i) p.K p.pa1 p.pa2 := by
  intro p hp
  obtain ⟨L, hL, rfl⟩ := List.mem_map.1 hp
  obtain ⟨hL, hc⟩ := List.mem_filter.1 hL
  have hc : L.child = i := by simpa using hc
  have z1 := H.latent L hL _ (mem_z L)
  have u1 := H.latent L hL _ (mem_u L)
  obtain ⟨s1, s2, s3⟩ := H.sizes2 L hL (parents_two H i.2 hL hc)
  obtain ⟨e1, e2⟩ := world_pm fe s z1
  obtain ⟨f1, f2⟩ := world_pm fe s u1
  rw [← hc, ← s1, ← s2]
  refine ⟨e1, ?_, e2, f2⟩
  show ((h.world fe s).mat L.u).val.shape = [h.rows L.u, h.cols L.z]
  rw [f1, s3]

/-- the siblings do not depend on priors -/
theorem siblings_mem (wr : Wiring) (w : World) (q q' : Nat → ℝ) (fs : List Nat) (k : Nat) :
    (siblings (fs.map fun j => mem wr (q j) w j) k).map Member.val =
      (siblings (fs.map fun j => mem wr (q' j) w j) k).map Member.val := by
  have key : ∀ q : Nat → ℝ, siblings (fs.map fun j => mem wr (q j) w j) k =
      ((fs.eraseIdx k).mergeSort fun a b => decide (wr.childAxis a ≤ wr.childAxis b)).map fun j => mem wr (q j) w j := by
    intro q
    rw [siblings, List.eraseIdx_map]
    exact (List.map_mergeSort (f := fun j => mem wr (q j) w j) (r := fun a b => decide (wr.childAxis a ≤ wr.childAxis b))
      (s := fun a b => decide (a.child_axis ≤ b.child_axis)) fun a _ b _ => rfl).symm
  rw [key, key, List.map_map, List.map_map]
  rfl

/-- a run on the member with the prior the sampling function was made with -/
theorem run_of (H : h.Legal) {wr : Wiring} (hw : h.Wired wr) (fe : Nat → Arr Int) (s : h.State) {k : Nat} {L : HLayer}
    (hL : h.layers[k]? = some L) {i : Nat} (hi : i < h.M) (hiL : i ∈ L.factors) {smp : Sampler} {t : Nat}
    {rnd : Nat → Nat → Rnd} {q : Nat → ℝ} {v : Arr Int}
    (hr : smp.run (mem wr (q i) (h.world fe s) i) (L.factors.map fun j => mem wr (q j) (h.world fe s) j)
      (L.factors.idxOf i) ((h.world fe s).mat L.child).val L.lbda
      (((h.parentsOf i).map (par h fe s)).map Par.toLayer) (rnd t i) = .ok v) :
    runSampler { wr with rnd := rnd } smp i t (h.world fe s) = .ok ((h.world fe s).setVal i v) := by
  rw [runSampler, layer_view hw fe s hL hiL rnd, parents_view H hw fe s hi rnd]
  have := run_congr smp (mat := memberAt { wr with rnd := rnd } (h.world fe s) i)
    (mat' := mem wr (q i) (h.world fe s) i) rfl rfl
    (siblings_mem wr (h.world fe s) (fun _ => 1 / 2) q L.factors (L.factors.idxOf i))
    ((h.world fe s).mat L.child).val L.lbda
      (((h.parentsOf i).map (par h fe s)).map Par.toLayer) (rnd t i)
  rw [hr] at this
  show (smp.run _ _ _ _ _ _ _ >>= fun v => pure _) = _
  rw [this]
  rfl

/-- what one call of the sampling function `smp` of matrix `i` does -/
def Samples (h : Hier) (wr : Wiring) (i : Fin h.M) (smp : Sampler) : Prop :=
  (∀ (fe : Nat → Arr Int) (s : h.State) (m : Mach Sampler LbdaUpdate), m.layers = wr.layers →
    m.layerOf = wr.layerOf → m.bernoulli_prior i = h.prior i → m.world = h.world fe s →
    getSampler wr m i = .ok (some smp, none)) ∧
  ∀ (fe : Nat → Arr Int) (s : h.State) (t : Nat), ∃ lg : Arr Int → List Nat → ℝ,
    (∀ (c : Cfg (h.rows i) (h.cols i)) rnd,
      runSampler { wr with rnd := rnd } smp i t (h.world fe (Function.update s i c)) =
        .ok ((h.world fe (Function.update s i c)).setVal i
          (sweep lg (fe i) (rnd t i) (tasks2 (h.rows i) (h.cols i)) c.arr))) ∧
    ∀ (c : Cfg (h.rows i) (h.cols i)) (e : Fin (h.rows i) × Fin (h.cols i)), lg c.arr (idxOf e) =
      Real.log (h.joint (Function.update s i (Function.update c e true))) -
        Real.log (h.joint (Function.update s i (Function.update c e false)))

/-- it follows from what the sampling function does in its layer; `S` is its score -/
theorem site_of (H : h.Legal) {wr : Wiring} (hw : h.Wired wr) {k : Nat} {L : HLayer} (hk : h.layers[k]? = some L)
    (i : Fin h.M) (hi : (i : Nat) ∈ L.factors) (smp : Sampler)
    (hgen : smp ≠ .none ∧ (∀ o, smp ≠ .qL_Z o) ∧ ∀ o, smp ≠ .qL_U o)
    (S : (Nat → Arr Int) → h.State → Arr Int → Nat → Nat → Int)
    (hget : ∀ (fe : Nat → Arr Int) (s : h.State) (q : Nat → ℝ), q i = h.prior i →
      get_sampling_fct none (some L.model.name) (L.factors.map fun j => mem wr (q j) (h.world fe s) j)
        (wr.childAxis i) (L.factors.idxOf (i : Nat)) (q i) (((h.parentsOf i).map HLayer.model).map fun p => (p.name, 2)) = .ok smp)
    (hrun : ∀ (fe : Nat → Arr Int) (s : h.State) (rnd : Rnd),
      smp.run (mem wr (h.prior i) (h.world fe s) i) (L.factors.map fun j => mem wr (h.prior j) (h.world fe s) j)
        (L.factors.idxOf (i : Nat)) ((h.world fe s).mat L.child).val L.lbda
        (((h.parentsOf i).map (par h fe s)).map Par.toLayer) rnd =
      .ok (sweep (fun Z j => L.lbda * S fe s Z (i0 j) (i1 j) +
        (((h.parentsOf i).map (par h fe s)).map fun p => p.term j).sum + logit (h.prior i))
        ((h.world fe s).mat i).fixed_entries rnd (tasks2 (h.rows i) (h.cols i)) ((h.world fe s).mat i).val))
    (hS : ∀ (fe : Nat → Arr Int) (s : h.State) (c : Cfg (h.rows i) (h.cols i)), S fe (Function.update s i c) = S fe s)
    (hhalf : ∀ (fe : Nat → Arr Int) (s : h.State) (c : Cfg (h.rows i) (h.cols i)) (e : Fin (h.rows i) × Fin (h.cols i)),
      2 * S fe s c.arr e.1 e.2 = h.agree (Function.update s i (Function.update c e true)) L -
        h.agree (Function.update s i (Function.update c e false)) L) : h.Samples wr i smp := by
  refine ⟨fun fe s m e1 e2 e3 e4 => ?_, fun fe s t => ⟨fun Z j => L.lbda * S fe s Z (i0 j) (i1 j) +
        (((h.parentsOf i).map (par h fe s)).map fun p => p.term j).sum + logit (h.prior i), fun c rnd => ?_, fun c e => ?_⟩⟩
  · refine get_sampler H hw hk i.2 hi e1 e2 hgen ?_
    rw [e4]
    exact hget fe s m.bernoulli_prior e3
  · rw [run_of H hw fe _ hk i.2 hi (q := h.prior) (hrun fe _ (rnd t i)), hS, pars_update H, world_update_self]
  · rw [joint_odds H s i e c (List.mem_of_getElem? hk) hi]
    have e1 : (List.map (fun p => Par.term p (idxOf e)) (List.map (par h fe s) (h.parentsOf i))) =
        (h.parentsOf i).map fun k => k.lbda * (pred2 k.model (h.cols k.z) (h.val s k.z e.1) (h.val s k.u e.2) : ℝ) := by
      rw [List.map_map]
      refine List.map_congr_left fun K _ => ?_
      rw [← facOf_world fe s K.z, ← facOf_world fe s K.u]
      rfl
    show L.lbda * ((S fe s c.arr e.1 e.2 : Int) : ℝ) +
      (List.map (fun p => Par.term p (idxOf e)) (List.map (par h fe s) (h.parentsOf i))).sum + _ = _
    rw [e1, ownScore, ← hhalf fe s c e]
    push_cast
    ring

theorem fac_set {N K : Nat} (c : Cfg N K) (e : Fin N × Fin K) :
    Cfg.fac (Function.update c e true) = (facOf c.arr).set e.1 e.2 1 ∧
      Cfg.fac (Function.update c e false) = (facOf c.arr).set e.1 e.2 (-1) := by
  constructor <;> rw [Cfg.fac_update] <;> rfl

theorem site2 (H : h.Legal) {wr : Wiring} (hw : h.Wired wr) {k : Nat} {L : HLayer} (hk : h.layers[k]? = some L)
    (hv : L.v = none) (i : Fin h.M) (hi : (i : Nat) ∈ L.factors) : ∃ smp : Sampler, h.Samples wr i smp := by
  have hL := List.mem_of_getElem? hk
  obtain ⟨hp1, hp2⟩ := H.parents i i.2
  obtain ⟨s1, s2, s3⟩ := H.sizes2 L hL hv
  obtain ⟨r1, r2⟩ := H.rows2 L hL hv
  have hch := H.child L hL
  have hcz : L.child ≠ L.z := fun e => hch (by rw [e]; exact mem_z L)
  have hcu : L.child ≠ L.u := fun e => hch (by rw [e]; exact mem_u L)
  obtain ⟨SA, SB, sm, hsm⟩ := sampler_parents L.model ((h.parentsOf i).map HLayer.model) (by simpa using hp1)
    (by
      intro p hp p' hp'
      obtain ⟨K, hK, rfl⟩ := List.mem_map.1 hp
      obtain ⟨K', hK', rfl⟩ := List.mem_map.1 hp'
      exact hp2 K hK K' hK') (N := h.rows L.child) (D := h.cols L.child) (L := h.cols L.z)
    (by rw [← s1]; exact r1) (by rw [← s2]; exact r2)
  have hzu := z_ne_u H hL
  have hF := factors_none hv
  have hmod : ∀ fe s, ((h.parentsOf i).map (par h fe s)).map Par.model = (h.parentsOf i).map HLayer.model := by
    intro fe s; rw [List.map_map]; rfl
  obtain ⟨lr, -, -, -, -, ha⟩ := hw.layers k L hk
  have axz := (ha _ (mem_z L)).2.trans idx_z
  have axu := (ha _ (mem_u L)).2.trans (idx_u H hL)
  obtain ⟨i, hiM⟩ := i
  have hi' : i = L.z ∨ i = L.u := by
    rw [hF] at hi
    simpa using hi
  rcases hi' with rfl | rfl
  · have hget := fun (fe : Nat → Arr Int) (s : h.State) (q : Nat → ℝ) =>
      (hsm _ _ _ 0 (isLayer H hw fe s hk hv (q L.z) (q L.u))).2.2.1
    refine ⟨sm 0 (h.prior L.z), site_of H hw hk ⟨L.z, hiM⟩ hi _
      (get_generic (by simpa using hp1) (hget (fun _ => Arr.full [] 0) (fun _ _ => true) h.prior))
      (fun fe s => SA (mem wr (h.prior L.u) (h.world fe s) L.u) ((h.world fe s).mat L.child).val) ?_ ?_ ?_ ?_⟩
    · intro fe s q hq
      rw [hF]
      have := hget fe s q
      simp only at hq ⊢
      rw [← hF, idx_z, ← hq, hF]
      exact this
    · intro fe s rnd
      have := (hsm _ _ _ L.lbda (isLayer H hw fe s hk hv (h.prior L.z) (h.prior L.u))).2.2.2.2.1 _ (hmod fe s)
        (by rw [← s1]; exact pars_legal H fe s ⟨L.z, hiM⟩) rnd
      simp only
      rw [idx_z, hF, s1]
      exact this
    · intro fe s c
      simp only [mem, world_update_ne fe s ⟨L.z, hiM⟩ c (j := L.u) hzu.symm,
        world_update_ne fe s ⟨L.z, hiM⟩ c (j := L.child) hcz]
    · intro fe s c e
      have := (hsm _ _ _ L.lbda (isLayer H hw fe s hk hv (h.prior L.z) (h.prior L.u))).1 c.arr (by rw [← s1]; rfl)
        (Cfg.arr_pm c) e.1 e.2 (by rw [← s1]; exact e.1.2) e.2.2
      have hB : facOf (mem wr (h.prior L.u) (h.world fe s) L.u).val = h.val s L.u := facOf_world fe s L.u
      have hX : (fun n d => ((h.world fe s).mat L.child).val [n, d]) = h.val s L.child := facOf_world fe s L.child
      rw [hX, hB] at this
      unfold agree
      simp only [hv, val_update, if_neg hcz, if_neg hzu.symm, if_true]
      rw [(fac_set c e).1, (fac_set c e).2]
      exact this
  · have hget := fun (fe : Nat → Arr Int) (s : h.State) (q : Nat → ℝ) =>
      (hsm _ _ _ 0 (isLayer H hw fe s hk hv (q L.z) (q L.u))).2.2.2.1
    refine ⟨sm 1 (h.prior L.u), site_of H hw hk ⟨L.u, hiM⟩ hi _
      (get_generic (by simpa using hp1) (hget (fun _ => Arr.full [] 0) (fun _ _ => true) h.prior))
      (fun fe s => SB (mem wr (h.prior L.z) (h.world fe s) L.z) ((h.world fe s).mat L.child).val) ?_ ?_ ?_ ?_⟩
    · intro fe s q hq
      have := hget fe s q
      simp only at hq ⊢
      rw [idx_u H hL, ← hq, hF]
      exact this
    · intro fe s rnd
      have := (hsm _ _ _ L.lbda (isLayer H hw fe s hk hv (h.prior L.z) (h.prior L.u))).2.2.2.2.2 _ (hmod fe s)
        (by rw [← s2, ← s3]; exact pars_legal H fe s ⟨L.u, hiM⟩) rnd
      simp only
      rw [idx_u H hL, hF, s2, s3]
      exact this
    · intro fe s c
      simp only [mem, world_update_ne fe s ⟨L.u, hiM⟩ c (j := L.z) hzu,
        world_update_ne fe s ⟨L.u, hiM⟩ c (j := L.child) hcu]
    · intro fe s c e
      have := (hsm _ _ _ L.lbda (isLayer H hw fe s hk hv (h.prior L.z) (h.prior L.u))).2.1 c.arr (by rw [← s2, ← s3]; rfl)
        (Cfg.arr_pm c) e.1 e.2 (by rw [← s2]; exact e.1.2) (by rw [← s3]; exact e.2.2)
      have hB : facOf (mem wr (h.prior L.z) (h.world fe s) L.z).val = h.val s L.z := facOf_world fe s L.z
      have hX : (fun n d => ((h.world fe s).mat L.child).val [n, d]) = h.val s L.child := facOf_world fe s L.child
      rw [hX, hB] at this
      unfold agree
      simp only [hv, val_update, if_neg hcu, if_neg hzu, if_true]
      rw [(fac_set c e).1, (fac_set c e).2]
      exact this

theorem site3 (H : h.Legal) {wr : Wiring} (hw : h.Wired wr) {k : Nat} {L : HLayer} (hk : h.layers[k]? = some L)
    {v : Nat} (hv : L.v = some v) (i : Fin h.M) (hi : (i : Nat) ∈ L.factors) : ∃ smp : Sampler, h.Samples wr i smp := by
  have hL := List.mem_of_getElem? hk
  have hpar := H.parents3 L hL (by rw [hv]; simp) i hi
  obtain ⟨s1, s2⟩ := H.sizes3 L hL v hv
  obtain ⟨r1, r2, r3⟩ := H.rows3 L hL v hv
  obtain ⟨d0, -, -⟩ := H.data3 L hL v hv
  obtain ⟨SA, SB, SC, sm, hsm⟩ := C22_axes_3d L.model (L := h.cols L.z) r1 r2 r3
  have hzu := z_ne_u H hL
  obtain ⟨hzv, huv⟩ := v_ne H hL hv
  have hF := factors_some hv
  have hX : ∀ fe s, ((h.world fe s).mat L.child).val = h.data L.child := by
    intro fe s
    rw [world_mat_ge fe s d0]
  have hl := fun (fe : Nat → Arr Int) (s : h.State) (q : Nat → ℝ) (lbda : ℝ) =>
    hsm _ _ _ _ lbda (isLayer3 H hw fe s hk hv (q L.z) (q L.u) (q v))
  have hsw : ∀ {f : Arr Int → Nat → Nat → Int} {q : ℝ} {F rnd n K Z}, sweep (fun Z i => L.lbda * f Z (i0 i) (i1 i) + logit q) F rnd
      (tasks2 n K) Z = sweep (fun Z j => L.lbda * f Z (i0 j) (i1 j) +
        ((([] : List Par)).map fun p => p.term j).sum + logit q) F rnd (tasks2 n K) Z := by
    intros
    exact sweep_congr (fun Z i _ => by simp) _
  have hz := fun fe s => facOf_world (h := h) fe s L.z
  have hu := fun fe s => facOf_world (h := h) fe s L.u
  have hw' := fun fe s => facOf_world (h := h) fe s v
  have hi' : (i : Nat) = L.z ∨ (i : Nat) = L.u ∨ (i : Nat) = v := by
    rw [hF] at hi
    simpa using hi
  obtain ⟨i, hiM⟩ := i
  simp only at hi' hpar
  rcases hi' with rfl | rfl | rfl
  · refine ⟨sm 0 (h.prior L.z), site_of H hw hk ⟨L.z, hiM⟩ hi _
      (get_generic3 (hl (fun _ => Arr.full [] 0) (fun _ _ => true) h.prior 0).1)
      (fun fe s => SA (mem wr (h.prior L.u) (h.world fe s) L.u) (mem wr (h.prior v) (h.world fe s) v) (h.data L.child)) ?_ ?_ ?_ ?_⟩
    · intro fe s q hq
      simp only at hq ⊢
      rw [idx_z, ← hq, hF, hpar]
      exact (hl fe s q 0).1
    · intro fe s rnd
      simp only
      rw [idx_z, hF, hpar, hX]
      have := (hl fe s h.prior L.lbda).2.2.2.1 rnd
      rw [hX] at this
      exact this.trans (congrArg Except.ok hsw)
    · intro fe s c
      simp only [mem, world_update_ne fe s ⟨L.z, hiM⟩ c (j := L.u) hzu.symm,
        world_update_ne fe s ⟨L.z, hiM⟩ c (j := v) hzv.symm]
    · intro fe s c e
      have := (hl fe s h.prior L.lbda).2.2.2.2.2.2.1 c.arr rfl (Cfg.arr_pm c) e.1 e.2 e.1.2 e.2.2
      simp only [hX, mem, hu, hw'] at this
      unfold agree
      simp only [hv, val_update, if_neg hzu.symm, if_neg hzv.symm, if_true]
      rw [(fac_set c e).1, (fac_set c e).2]
      exact this
  · refine ⟨sm 1 (h.prior L.u), site_of H hw hk ⟨L.u, hiM⟩ hi _
      (get_generic3 (hl (fun _ => Arr.full [] 0) (fun _ _ => true) h.prior 0).2.1)
      (fun fe s => SB (mem wr (h.prior L.z) (h.world fe s) L.z) (mem wr (h.prior v) (h.world fe s) v) (h.data L.child)) ?_ ?_ ?_ ?_⟩
    · intro fe s q hq
      simp only at hq ⊢
      rw [idx_u H hL, ← hq, hF, hpar]
      exact (hl fe s q 0).2.1
    · intro fe s rnd
      simp only
      rw [idx_u H hL, hF, hpar, hX]
      have := (hl fe s h.prior L.lbda).2.2.2.2.1 rnd
      rw [hX, ← s1] at this
      exact this.trans (congrArg Except.ok hsw)
    · intro fe s c
      simp only [mem, world_update_ne fe s ⟨L.u, hiM⟩ c (j := L.z) hzu,
        world_update_ne fe s ⟨L.u, hiM⟩ c (j := v) huv.symm]
    · intro fe s c e
      have := (hl fe s h.prior L.lbda).2.2.2.2.2.2.2.1 c.arr (by rw [← s1]; rfl) (Cfg.arr_pm c) e.1 e.2 e.1.2
        (by rw [← s1]; exact e.2.2)
      simp only [hX, mem, hz, hw'] at this
      unfold agree
      simp only [hv, val_update, if_neg hzu, if_neg huv.symm, if_true]
      rw [(fac_set c e).1, (fac_set c e).2]
      exact this
  · refine ⟨sm 2 (h.prior i), site_of H hw hk ⟨i, hiM⟩ hi _
      (get_generic3 (hl (fun _ => Arr.full [] 0) (fun _ _ => true) h.prior 0).2.2.1)
      (fun fe s => SC (mem wr (h.prior L.z) (h.world fe s) L.z) (mem wr (h.prior L.u) (h.world fe s) L.u) (h.data L.child)) ?_ ?_ ?_ ?_⟩
    · intro fe s q hq
      simp only at hq ⊢
      rw [idx_v H hL hv, ← hq, hF, hpar]
      exact (hl fe s q 0).2.2.1
    · intro fe s rnd
      simp only
      rw [idx_v H hL hv, hF, hpar, hX]
      have := (hl fe s h.prior L.lbda).2.2.2.2.2.1 rnd
      rw [hX, ← s2] at this
      exact this.trans (congrArg Except.ok hsw)
    · intro fe s c
      simp only [mem, world_update_ne fe s ⟨i, hiM⟩ c (j := L.z) hzv,
        world_update_ne fe s ⟨i, hiM⟩ c (j := L.u) huv]
    · intro fe s c e
      have := (hl fe s h.prior L.lbda).2.2.2.2.2.2.2.2 c.arr (by rw [← s2]; rfl) (Cfg.arr_pm c) e.1 e.2 e.1.2
        (by rw [← s2]; exact e.2.2)
      simp only [hX, mem, hz, hu] at this
      unfold agree
      simp only [hv, val_update, if_neg hzv, if_neg huv, if_true]
      rw [(fac_set c e).1, (fac_set c e).2]
      exact this

/-- what one call of the sampling function of matrix `i` does -/
theorem site (H : h.Legal) {wr : Wiring} (hw : h.Wired wr) (i : Fin h.M) : ∃ smp : Sampler,
    (∀ (fe : Nat → Arr Int) (s : h.State) (m : Mach Sampler LbdaUpdate), m.layers = wr.layers →
      m.layerOf = wr.layerOf → m.bernoulli_prior i = h.prior i → m.world = h.world fe s →
      getSampler wr m i = .ok (some smp, none)) ∧
    ∀ (fe : Nat → Arr Int) (s : h.State) (t : Nat), ∃ lg : Arr Int → List Nat → ℝ,
      (∀ (c : Cfg (h.rows i) (h.cols i)) rnd,
        runSampler { wr with rnd := rnd } smp i t (h.world fe (Function.update s i c)) =
          .ok ((h.world fe (Function.update s i c)).setVal i
            (sweep lg (fe i) (rnd t i) (tasks2 (h.rows i) (h.cols i)) c.arr))) ∧
      ∀ (c : Cfg (h.rows i) (h.cols i)) (e : Fin (h.rows i) × Fin (h.cols i)), lg c.arr (idxOf e) =
        Real.log (h.joint (Function.update s i (Function.update c e true))) -
          Real.log (h.joint (Function.update s i (Function.update c e false))) := by
  obtain ⟨L, hL, hi⟩ := H.owner i i.2
  obtain ⟨k, hk⟩ := List.mem_iff_getElem?.1 hL
  cases hv : L.v with
  | none => exact site2 H hw hk hv i hi
  | some v => exact site3 H hw hk hv i hi

theorem shows_set (fe : Nat → Arr Int) (s : h.State) (i : Fin h.M) (c : Cfg (h.rows i) (h.cols i)) (v : Arr Int)
    (s' : h.State) : h.Shows fe ((h.world fe (Function.update s i c)).setVal i v) s' ↔
      Holds v (s' i) ∧ ∀ j, j ≠ i → s j = s' j := by
  have hm : ∀ j : Nat, j ≠ i → ((h.world fe (Function.update s i c)).setVal i v).mat j = (h.world fe s).mat j := by
    intro j hj
    rw [← world_update_ne fe s i c hj]
    simp [World.setVal, upd, hj]
  have hi : (((h.world fe (Function.update s i c)).setVal i v).mat i).val = v := by
    simp [World.setVal, upd]
  constructor
  · rintro ⟨h1, -⟩
    refine ⟨by have := h1 i; rwa [hi] at this, fun j hj => ?_⟩
    have := h1 j
    rw [hm j fun e => hj (Fin.ext e), world_mat_lt fe s j.2, holds_arr_iff] at this
    exact this
  · rintro ⟨h1, h2⟩
    refine ⟨fun j => ?_, fun j hj => ?_, fun j => ?_, fun s => rfl⟩
    · by_cases hj : j = i
      · subst hj
        rw [hi]; exact h1
      · rw [hm j fun e => hj (Fin.ext e), world_mat_lt fe s j.2, holds_arr_iff]
        exact h2 j hj
    · rw [hm j (by have := i.2; omega), world_mat_ge fe s hj]
    · by_cases hj : j = i
      · subst hj
        simp [World.setVal, upd, world_update_self]
      · rw [hm j hj]
        by_cases hlt : j < h.M
        · rw [world_mat_lt fe s hlt]
        · rw [world_mat_ge fe s (Nat.not_lt.1 hlt)]

end Spec.Hier

/-- **C76**: the sampling functions of a hierarchical machine, called with independent uniform draws in any order and
any number of times, preserve the joint posterior of all latent matrices. (Layers of the generic models with two or three
factors; at most two layers on top of a factor and of the same model, none on top of factors of three-factor layers; factors
of two-factor layers have up to 32767 rows; parameters held fixed.) -/
theorem C76_hierarchy_posterior_partial {h : Hier} (H : h.Legal) {wr : Wiring} (hw : h.Wired wr) :
    ∃ smp : Fin h.M → Sampler,
      (∀ (i : Fin h.M) (fe : Nat → Arr Int) (s : h.State) (m : Mach Sampler LbdaUpdate), m.layers = wr.layers →
        m.layerOf = wr.layerOf → m.bernoulli_prior i = h.prior i → m.world = h.world fe s →
        getSampler wr m i = .ok (some (smp i), none)) ∧
      ∀ (fe : Nat → Arr Int) (sched : List (Fin h.M × Nat)) (s' : h.State),
        ∑ s, ENNReal.ofReal (h.joint s) *
            schedule (fun p => h.kernel wr fe p.2 smp p.1) sched s s' = ENNReal.ofReal (h.joint s') := by
  choose smp hsmp hrun using Spec.Hier.site H hw
  refine ⟨smp, hsmp, fun fe sched s' => schedule_invariant (fun p s' => ?_) sched s'⟩
  obtain ⟨i, t⟩ := p
  choose lg hlg hodds using fun s => hrun i fe s t
  have key : ∀ (s s' : h.State) (c : Cfg (h.rows i) (h.cols i)),
      h.kernel wr fe t smp i (Function.update s i c) s' = uniformDraws (h.rows i) (h.cols i)
        {u | Holds (sweep (lg s) (fe i) (rndOf u) (tasks2 (h.rows i) (h.cols i)) c.arr) (s' i) ∧
          ∀ j, j ≠ i → s j = s' j} := by
    intro s s' c
    unfold Spec.Hier.kernel
    congr 1
    ext u
    simp only [Set.mem_setOf_eq, hlg, Except.ok.injEq, exists_eq_left', Spec.Hier.shows_set]
  refine site_invariant (i := i) (k := fun s c c' => uniformDraws (h.rows i) (h.cols i)
        {u | Holds (sweep (lg s) (fe i) (rndOf u) (tasks2 (h.rows i) (h.cols i)) c.arr) c'}) ?_ ?_ ?_ s'
  · intro s c
    rw [key]
    simp
  · intro s s' j hj hne
    have := key s s' (s i)
    rw [Function.update_eq_self] at this
    rw [this]
    have : {u : Fin (h.rows i) × Fin (h.cols i) → ℝ |
          Holds (sweep (lg s) (fe i) (rndOf u) (tasks2 (h.rows i) (h.cols i)) (Cfg.arr (s i))) (s' i) ∧
          ∀ j, j ≠ i → s j = s' j} = ∅ := by
      ext u
      simp only [Set.mem_setOf_eq, Set.mem_empty_iff_false, iff_false, not_and]
      exact fun _ hc => hne (hc j hj)
    rw [this, measure_empty]
  · intro s c'
    exact sweep_law (lg s) (fe i) (fun c => h.joint (Function.update s i c)) (fun c => Spec.Hier.joint_pos H _)
      (fun c e _ => hodds s c e) c'

/-- a machine with three layers: 3 x 2 data (number 7) below factors 0 and 1, factor 0 below two further factors, 2 and 3;
and 3 x 2 x 1 data (number 8) below factors 4, 5 and 6 -/
noncomputable def towerHier : Hier where
  M := 7
  rows i := if i = 6 then 1 else if i = 1 ∨ i = 3 ∨ i = 5 then 2 else 3
  cols _ := 2
  layers := [⟨.OR_AND, 0, 1, 7, 1, none⟩, ⟨.XOR_AND, 2, 3, 0, 2, none⟩, ⟨.NAND_XOR, 4, 5, 8, 3, some 6⟩]
  data i := if i = 7 then Arr.full [3, 2] 1 else Arr.full [3, 2, 1] 1
  prior _ := 1 / 3

noncomputable def towerWiring : Wiring where
  layers := [⟨[0, 1], "OR-AND", none, false, false⟩, ⟨[2, 3], "XOR-AND", none, false, false⟩,
    ⟨[4, 5, 6], "NAND-XOR", none, false, false⟩]
  layerOf i := if i < 2 then some 0 else if i < 4 then some 1 else if i < 7 then some 2 else none
  childAxis i := if i = 6 then 2 else i % 2
  parents i := if i = 0 then [1] else if i = 7 then [0] else if i = 8 then [2] else []
  child k := if k = 0 then 7 else if k = 1 then 0 else 8
  beta_prior _ := (1, 1)
  rnd _ _ := fun _ => 0
  perm _ l := l
  junk _ _ _ _ := .nan
  junkSampling _ _ _ := .nan
  junkMat _ _ := 0
  special _ _ _ w := .ok w

/-- the hypotheses of C76 hold for this machine -/
theorem C76_example : towerHier.Legal ∧ towerHier.Wired towerWiring ∧ (towerHier.parentsOf 0).length = 1 := by
  have hl : ∀ k ∈ towerHier.layers, k = ⟨.OR_AND, 0, 1, 7, 1, none⟩ ∨ k = ⟨.XOR_AND, 2, 3, 0, 2, none⟩ ∨
      k = ⟨.NAND_XOR, 4, 5, 8, 3, some 6⟩ := by
    intro k hk
    simpa [towerHier] using hk
  have hp : ∀ i < 7, towerHier.parentsOf i = if i = 0 then [⟨.XOR_AND, 2, 3, 0, 2, none⟩] else [] := by
    intro i hi
    simp only [Spec.Hier.parentsOf, towerHier, List.filter_cons, List.filter_nil]
    have h7 : ¬ 7 = i := by omega
    have h8 : ¬ 8 = i := by omega
    by_cases h0 : i = 0
    · subst h0; simp
    · simp [h0, h7, h8, Ne.symm h0]
  have h7 : ∀ i < towerHier.M, i = 0 ∨ i = 1 ∨ i = 2 ∨ i = 3 ∨ i = 4 ∨ i = 5 ∨ i = 6 := by
    intro i hi
    simp only [towerHier] at hi
    omega
  refine ⟨⟨?_, ?_, ?_, ?_, ?_, ?_, ?_, ?_, ?_, ?_, ?_, ?_, ?_⟩, ⟨rfl, ?_, ?_⟩, ?_⟩
  · intro i _; simp only [towerHier]; norm_num
  · intro k hk; rcases hl k hk with rfl | rfl | rfl <;> simp [towerHier, HLayer.factors]
  · intro k hk; rcases hl k hk with rfl | rfl | rfl <;> simp [HLayer.factors]
  · simp [towerHier, HLayer.factors]
  · intro i hi
    rcases h7 i hi with rfl | rfl | rfl | rfl | rfl | rfl | rfl <;> simp [towerHier, HLayer.factors]
  · intro i hi
    rw [hp i (by simpa [towerHier] using hi)]
    split <;> simp
  · intro k hk hv; rcases hl k hk with rfl | rfl | rfl <;> simp [towerHier] at hv ⊢
  · intro k hk hv; rcases hl k hk with rfl | rfl | rfl <;> simp [towerHier] at hv ⊢
  · intro k hk hv hM
    rcases hl k hk with rfl | rfl | rfl
    · exact ⟨rfl, fun idx _ => by simp [towerHier, Arr.full, IsData]⟩
    · simp [towerHier] at hM
    · simp at hv
  · intro k hk v hv
    rcases hl k hk with rfl | rfl | rfl
    · simp at hv
    · simp at hv
    · obtain rfl : 6 = v := by simpa using hv
      simp [towerHier]
  · intro k hk v hv
    exact ⟨rfl, rfl⟩
  · intro k hk v hv
    rcases hl k hk with rfl | rfl | rfl
    · simp at hv
    · simp at hv
    · obtain rfl : 6 = v := by simpa using hv
      exact ⟨by simp [towerHier], rfl, fun idx _ => by simp [towerHier, Arr.full, IsData]⟩
  · intro k hk hv i hi
    rcases hl k hk with rfl | rfl | rfl
    · simp at hv
    · simp at hv
    · simp only [HLayer.factors, Option.toList, List.mem_cons, List.not_mem_nil, or_false] at hi
      rw [hp i (by omega), if_neg (by omega)]
  · intro k L hL
    match k with
    | 0 =>
      obtain rfl : _ = L := by simpa [towerHier] using hL
      refine ⟨_, rfl, rfl, rfl, rfl, fun i hi => ?_⟩
      simp only [HLayer.factors, Option.toList, List.mem_cons, List.not_mem_nil, or_false] at hi
      rcases hi with rfl | rfl <;> exact ⟨rfl, rfl⟩
    | 1 =>
      obtain rfl : _ = L := by simpa [towerHier] using hL
      refine ⟨_, rfl, rfl, rfl, rfl, fun i hi => ?_⟩
      simp only [HLayer.factors, Option.toList, List.mem_cons, List.not_mem_nil, or_false] at hi
      rcases hi with rfl | rfl <;> exact ⟨rfl, rfl⟩
    | 2 =>
      obtain rfl : _ = L := by simpa [towerHier] using hL
      refine ⟨_, rfl, rfl, rfl, rfl, fun i hi => ?_⟩
      simp only [HLayer.factors, Option.toList, List.mem_cons, List.not_mem_nil, or_false] at hi
      rcases hi with rfl | rfl | rfl <;> exact ⟨rfl, rfl⟩
    | k + 3 => simp [towerHier] at hL
  · intro i hi
    rcases h7 i hi with rfl | rfl | rfl | rfl | rfl | rfl | rfl <;>
      simp [towerHier, towerWiring, List.range_succ, List.filter_cons]
  · rw [hp 0 (by omega)]; simp

end LFM
