import Verif.Lemmas.Special

/-!
# Properties: inference in a machine with a qL-AND layer
-/

namespace LFM

open Spec

/-- a machine with a single qL-AND layer on fixed data: `q` are its thresholds (machine.py:304-308) -/
structure QLMachine (wr : SpecialWiring) (m : Mach Sampler LbdaUpdate) (lr : LayerInfo) (z u q x : Nat) : Prop
    extends TwoFactors wr m lr "qL-AND" z u x where
  hq : lr.q = some q
  qz : q ≠ z
  qu : q ≠ u
  qx : q ≠ x
  layerQ : m.layerOf q = some 0
  axisQ : wr.childAxis q = 1
  parentsQ : wr.parents q = []
  gamma : 0 < wr.gamma 0
  beta : 0 < (wr.beta_prior 0).1 ∧ 0 < (wr.beta_prior 0).2
  draws : ∀ t i idx, 0 ≤ wr.rnd t i idx ∧ wr.rnd t i idx < 1

/-- legal states of such a machine -/
structure QLWorld (z u q x N D : Nat) (X : Arr Int) (w : World) : Prop where
  facs : ∃ L, (w.mat z).val.shape = [N, L] ∧ (w.mat u).val.shape = [D, L] ∧ PMArr (w.mat z).val ∧ PMArr (w.mat u).val
  data : (w.mat x).val = X
  shapeQ : (w.mat q).val.shape = [1, D]
  thresholds : ∀ d < D, 1 ≤ (w.mat q).val [0, d] ∧ (w.mat q).val [0, d] ≤ 5
  lbda : ∃ y, w.lbda 0 = .scalar (.fin y)

/-- what inference has left as it was in `m0` -/
structure QLKept (m0 : Mach Sampler LbdaUpdate) (lr : LayerInfo) (q : Nat) (w : World) : Prop where
  others : ∀ i ∉ lr.factors, i ≠ q → w.mat i = m0.world.mat i
  q : q ∉ freeMats m0 → w.mat q = m0.world.mat q
  lbda : ∀ k ∉ freeLbdas m0, w.lbda k = m0.world.lbda k
  fixed : lr.auto_clean = false → lr.auto_reset = false → ∀ i, (w.mat i).val.shape = (m0.world.mat i).val.shape ∧
    (i ∉ freeMats m0 → w.mat i = m0.world.mat i)

/-- sampling functions of factors and thresholds -/
def GoodQL (z u q i : Nat) (s : Sampler) : Prop :=
  (i = z → s = .qL_Z [0, 1]) ∧ (i = u → s = .qL_U [1, 0]) ∧ (i = q → s = .qL_q)

/-- the assignment of a function to a factor assigns the thresholds their function -/
theorem assigns_side {F G : Type} (env : Env F G) (q : Nat) (ks : List Nat) : ∀ m m' : Mach F G,
    (∀ i ∈ ks, ∀ m' : Mach F G, m'.layers = m.layers → m'.layerOf = m.layerOf → ∃ s g, env.getFct m' i = .ok (some s, some (q, g))) →
    ks.foldlM (assignFct env) m = .ok m' → (m.fct q ≠ none ∨ ∃ i ∈ ks, m.fct i = none) → m'.fct q ≠ none := by
  induction ks with
  | nil =>
    intro m m' _ h hq
    cases h
    rcases hq with h | ⟨i, hi, -⟩
    · exact h
    · cases hi
  | cons k ks ih =>
    intro m m' hget h hq
    rw [List.foldlM_cons] at h
    cases hf : m.fct k with
    | some s =>
      have e : assignFct env m k = .ok m := by rw [assignFct, hf]
      rw [e] at h
      refine ih m m' (fun i hi => hget i (by simp [hi])) h (hq.imp_right ?_)
      rintro ⟨i, hi, hn⟩
      rcases List.mem_cons.mp hi with rfl | hi
      · rw [hn] at hf; cases hf
      · exact ⟨i, hi, hn⟩
    | none =>
      obtain ⟨s, g, hg⟩ := hget k (by simp) m rfl rfl
      obtain ⟨m1, hm1⟩ : ∃ m1 : Mach F G, m1 = { m with fct := upd (upd m.fct q (some g)) k (some s) } := ⟨_, rfl⟩
      have e : assignFct env m k = .ok m1 := by
        rw [assignFct, hf]
        show (env.getFct m k >>= _) = _
        rw [hg, hm1]
        rfl
      rw [e] at h
      refine ih m1 m' (fun i hi m' hl ho => hget i (by simp [hi]) m' (by rw [hl, hm1]) (by rw [ho, hm1])) h (.inl ?_)
      rw [hm1]
      simp only [upd]
      split
      · simp
      · simp

namespace QLMachine

variable {wr : SpecialWiring} {m : Mach Sampler LbdaUpdate} {lr : LayerInfo} {z u q x N D : Nat}

theorem free_eq (H : QLMachine wr m lr z u q x) :
    freeMats m = [z, u].filter (fun i => !m.fixed i) ++ [q].filter fun i => !m.fixed i := by
  have h2 : m.matrices.filter (fun i => !m.fixed i) = [] := by
    rw [List.filter_eq_nil_iff]
    intro i hi
    simp [H.matrices i hi]
  simp only [freeMats, members, H.layers, List.flatMap_cons, List.flatMap_nil, List.append_nil, H.model, if_true,
    List.filter_append, h2, H.factors, H.hq, Option.toList]

theorem free_mem (H : QLMachine wr m lr z u q x) {i : Nat} (hi : i ∈ freeMats m) : i = z ∨ i = u ∨ i = q := by
  rw [H.free_eq, List.mem_append, List.mem_filter, List.mem_filter] at hi
  rcases hi with hi | hi
  · rcases (by simpa using hi.1 : i = z ∨ i = u) with h | h
    · exact .inl h
    · exact .inr (.inl h)
  · exact .inr (.inr (by simpa using hi.1))

theorem free_nodup (H : QLMachine wr m lr z u q x) : (freeMats m).Nodup := by
  have : ([z, u] ++ [q]).Nodup := by
    simp [H.ne, H.qz.symm, H.qu.symm]
  rw [H.free_eq, ← List.filter_append]
  exact this.filter _

theorem layer_mem (H : QLMachine wr m lr z u q x) {i : Nat} (hi : i = z ∨ i = u ∨ i = q) : m.layerOf i = some 0 := by
  rcases hi with rfl | rfl | rfl
  exacts [H.layerZ, H.layerU, H.layerQ]

/-- the factors are assigned their samplers, and the thresholds theirs -/
theorem getSampler (H : QLMachine wr m lr z u q x) {m' : Mach Sampler LbdaUpdate} (hl : m'.layers = m.layers)
    (ho : m'.layerOf = m.layerOf) {i : Nat} (hi : i = z ∨ i = u) :
    ∃ s, LFM.getSampler wr.toWiring m' i = .ok (some s, some (q, .qL_q)) ∧ GoodQL z u q i s ∧ GoodQL z u q q .qL_q := by
  have hgq : GoodQL z u q q .qL_q := ⟨fun h => absurd h H.qz, fun h => absurd h H.qu, fun _ => rfl⟩
  rcases hi with rfl | rfl
  · obtain ⟨a, b, ha, hb, he⟩ := H.getSampler_eq hl ho H.layerZ H.parentsZ
    refine ⟨.qL_Z [0, 1], ?_, ⟨fun _ => rfl, fun h => absurd h H.ne, fun h => absurd h.symm H.qz⟩, hgq⟩
    rw [he, H.axisZ, show lr.factors.idxOf i = 0 by simp [H.factors], (QLFcts_assign_ok a b ha hb _).1, H.hq]
    rfl
  · obtain ⟨a, b, ha, hb, he⟩ := H.getSampler_eq hl ho H.layerU H.parentsU
    refine ⟨.qL_U [1, 0], ?_, ⟨fun h => absurd h H.ne.symm, fun _ => rfl, fun h => absurd h.symm H.qu⟩, hgq⟩
    rw [he, H.axisU, show lr.factors.idxOf i = 1 by simp [H.factors, H.ne],
      (QLFcts_assign_ok a b ha hb _).2.1, H.hq]
    rfl

theorem getUpdate (H : QLMachine wr m lr z u q x) : ∃ g, get_update_fct none "qL-AND" 2 = .ok g ∧
    (∀ m' : Mach Sampler LbdaUpdate, m'.layers = m.layers → LFM.getUpdate m' 0 = .ok g) ∧
    ∀ {X : Arr Int} (_ : X.shape = [N, D]) (t : Nat) {w : World}, QLWorld z u q x N D X w →
      ∃ y, runSpecialLbda wr g 0 t w = .ok { w with lbda := upd w.lbda 0 (.scalar (.fin y)) } ∧ 0 ≤ y := by
  obtain ⟨g, hg, h⟩ := C27_lambda_smoothed_accuracy_qL
  refine ⟨g, hg, fun m' hl => ?_, fun {X} hX t {w} hw => ?_⟩
  · rw [LFM.getUpdate, hl, H.layers]
    simp [H.model, H.factors, hg]
  · obtain ⟨L, s1, s2, p1, p2⟩ := hw.facs
    obtain ⟨-, y, hy, h0, -⟩ := h N D L (w.mat z).val (w.mat u).val X (w.mat q).val (wr.beta_prior 0).1 (wr.beta_prior 0).2
      s1 s2 hX (fun d hd => (hw.thresholds d hd).1) H.beta.1 H.beta.2
    refine ⟨y, ?_, h0⟩
    have hne : g ≠ .max_and_2d := by
      rintro rfl
      simp [LbdaUpdate.run] at hy
    have : runSpecialLbda wr g 0 t w = runUpdate wr.toWiring g 0 t w := by
      rw [runSpecialLbda]
      intro h; exact absurd h hne
    rw [this, runUpdate, H.wrLayers, H.layers]
    simp only [List.getElem?_cons_zero, H.hq, H.factors, List.map_cons, List.map_nil, H.child, hw.data]
    rw [hy]
    rfl

/-- one call of a sampling function -/
theorem runs (H : QLMachine wr m lr z u q x) {X : Arr Int} (hX : X.shape = [N, D]) {i : Nat}
    (hi : i = z ∨ i = u ∨ i = q) {s : Sampler} (hs : GoodQL z u q i s) (t : Nat) {w : World}
    (hw : QLWorld z u q x N D X w) :
    ∃ R, runSpecial wr s i t w = .ok (w.setVal i R) ∧ R.shape = (w.mat i).val.shape ∧
      (i ≠ q → PMArr (w.mat i).val → PMArr R) ∧ (i = q → ∀ d < D, 1 ≤ R [0, d] ∧ R [0, d] ≤ 5) := by
  obtain ⟨y, hl⟩ := hw.lbda
  obtain ⟨L, s1, s2, p1, p2⟩ := hw.facs
  have hf : (LVal.scalar (.fin y)).float? = some y := rfl
  rcases hi with rfl | rfl | rfl
  · refine ⟨sample_qL_factors_Z (w.mat i).val (w.mat u).val (X.transpose [0, 1]) (w.mat q).val y (wr.rnd t i), ?_, ?_⟩
    · rw [runSpecial, H.layer H.layerZ, hs.1 rfl]
      simp only [H.sibZ, H.hq, hl, hf]
      rw [H.child, hw.data, npTranspose, if_pos (by rw [hX]; rfl)]
      rfl
    · rw [sample_qL_factors_Z_eq]
      obtain ⟨h1, h2⟩ := sweep_entry (fun Z i => (posterior_score_fct_qL_Z (Z.row (i0 i)) (w.mat u).val
        ((X.transpose [0, 1]).row (i0 i)) (i1 i) (w.mat q).val : ℝ)) (Arr.full (w.mat i).val.shape 0) (wr.rnd t i)
        (tasks2 ((w.mat i).val.dim 0) ((w.mat i).val.dim 1)) (w.mat i).val
      exact ⟨h1, fun _ hp idx hidx => (h2 idx).2.1 (hp idx (by rwa [h1] at hidx)), fun h => absurd h.symm H.qz⟩
  · refine ⟨sample_qL_factors_U (w.mat i).val (w.mat z).val (X.transpose [1, 0]) (w.mat q).val y (wr.rnd t i), ?_, ?_⟩
    · rw [runSpecial, H.layer H.layerU, hs.2.1 rfl]
      simp only [H.sibU, H.hq, hl, hf]
      rw [H.child, hw.data, npTranspose, if_pos (by rw [hX]; rfl)]
      rfl
    · rw [sample_qL_factors_U_eq]
      obtain ⟨h1, h2⟩ := sweep_entry (fun U i => (posterior_score_fct_qL_U (U.row (i0 i)) (w.mat z).val
        ((X.transpose [1, 0]).row (i0 i)) (i1 i) ((w.mat q).val [0, i0 i]) : ℝ)) (Arr.full (w.mat i).val.shape 0) (wr.rnd t i)
        (tasks2 ((w.mat i).val.dim 0) ((w.mat i).val.dim 1)) (w.mat i).val
      exact ⟨h1, fun _ hp idx hidx => (h2 idx).2.1 (hp idx (by rwa [h1] at hidx)), fun h => absurd h.symm H.qu⟩
  · refine ⟨sample_qL_q (w.mat z).val (w.mat u).val X (w.mat i).val y (wr.gamma 0) fun d => wr.rnd t i [0, d], ?_, ?_⟩
    · rw [runSpecial, H.layer H.layerQ, hs.2.2 rfl]
      simp only [H.factors, hl, hf]
      rw [H.child, hw.data]
    · obtain ⟨h1, h2⟩ := C33_range N D L (w.mat z).val (w.mat u).val X (w.mat i).val s1 s2 hX p1 p2 y (wr.gamma 0) H.gamma
        (fun d => wr.rnd t i [0, d]) (fun d => H.draws t i [0, d])
      exact ⟨h1, fun h => absurd rfl h, fun _ => h2⟩

theorem keeps (H : QLMachine wr m lr z u q x) {X : Arr Int} (hX : X.shape = [N, D]) {i : Nat}
    (hi : i ∈ freeMats m) {s : Sampler} (hs : GoodQL z u q i s) (t : Nat) {w : World}
    (hw : QLWorld z u q x N D X w ∧ QLKept m lr q w) : ∃ w', runSpecial wr s i t w = .ok w' ∧
      (QLWorld z u q x N D X w' ∧ QLKept m lr q w') ∧ w'.lbda = w.lbda ∧
      ∀ j, (w'.mat j).val.shape = (w.mat j).val.shape := by
  obtain ⟨hw, hk⟩ := hw
  have hzu := H.free_mem hi
  obtain ⟨R, h1, h2, h3, h4⟩ := H.runs hX hzu hs t hw
  have hshape : ∀ j, ((w.setVal i R).mat j).val.shape = (w.mat j).val.shape := by
    intro j
    by_cases hj : j = i
    · subst hj; simpa [World.setVal, upd] using h2
    · simp [World.setVal, upd, hj]
  have hpm : ∀ j, j ≠ q → PMArr (w.mat j).val → PMArr ((w.setVal i R).mat j).val := by
    intro j hjq hj
    by_cases hji : j = i
    · subst hji; simpa [World.setVal, upd] using h3 hjq hj
    · simpa [World.setVal, upd, hji] using hj
  obtain ⟨L, s1, s2, p1, p2⟩ := hw.facs
  refine ⟨w.setVal i R, h1, ⟨⟨⟨L, (hshape z).trans s1, (hshape u).trans s2, hpm z H.qz.symm p1, hpm u H.qu.symm p2⟩, ?_,
    (hshape q).trans hw.shapeQ, ?_, hw.lbda⟩, ⟨?_, ?_, hk.lbda, ?_⟩⟩, rfl, hshape⟩
  · have : x ≠ i := by rcases hzu with rfl | rfl | rfl; exacts [H.dataZ, H.dataU, H.qx.symm]
    simp [World.setVal, upd, this, hw.data]
  · intro d hd
    by_cases hq : q = i
    · subst hq; simpa [World.setVal, upd] using h4 rfl d hd
    · simpa [World.setVal, upd, hq] using hw.thresholds d hd
  · intro j hj hjq
    have : j ≠ i := by
      rintro rfl
      rcases hzu with h | h | h
      · exact hj (H.mem.mpr (.inl h))
      · exact hj (H.mem.mpr (.inr h))
      · exact hjq h
    simp [World.setVal, upd, this, hk.others j hj hjq]
  · intro hq
    have : q ≠ i := fun h => hq (h ▸ hi)
    simp [World.setVal, upd, this, hk.q hq]
  · intro a b j
    obtain ⟨k1, k2⟩ := hk.fixed a b j
    refine ⟨(hshape j).trans k1, fun hj => ?_⟩
    have : j ≠ i := fun h => hj (h ▸ hi)
    simp [World.setVal, upd, this, k2 hj]

theorem keeps_lbda (H : QLMachine wr m lr z u q x) {X : Arr Int} {k : Nat} (hk : k ∈ freeLbdas m) {w : World} (y : ℝ)
    (hw : QLWorld z u q x N D X w ∧ QLKept m lr q w) :
    QLWorld z u q x N D X { w with lbda := upd w.lbda k (.scalar (.fin y)) } ∧
    QLKept m lr q { w with lbda := upd w.lbda k (.scalar (.fin y)) } := by
  obtain ⟨hw, hkept⟩ := hw
  obtain rfl := H.free_lbda hk
  refine ⟨⟨hw.facs, hw.data, hw.shapeQ, hw.thresholds, y, by simp [upd]⟩, ⟨hkept.others, hkept.q, ?_, hkept.fixed⟩⟩
  intro k' hk'
  have : k' ≠ 0 := fun h => hk' (h ▸ hk)
  simp [upd, this, hkept.lbda k' hk']

theorem clean (H : QLMachine wr m lr z u q x) {X : Arr Int} {w : World} {reset clean : Bool} {fs : List Fac} {b : Bool}
    (hauto : lr.auto_clean = true ∨ lr.auto_reset = true) (hw : QLWorld z u q x N D X w ∧ QLKept m lr q w)
    (hr : clean_up_codes (lr.factors.map w.mat) reset clean = .ok (fs, b)) :
    QLWorld z u q x N D X (writeFactors w lr.factors fs) ∧ QLKept m lr q (writeFactors w lr.factors fs) := by
  obtain ⟨L, s1, s2, p1, p2⟩ := hw.1.facs
  have hfac : lr.factors.map w.mat = [w.mat z, w.mat u] := by rw [H.factors]; rfl
  have hL : LegalFacs [N, D] L (lr.factors.map w.mat) := by
    intro j f hf
    rw [hfac] at hf
    match j, hf with
    | 0, hf =>
      simp only [List.getElem?_cons_zero, Option.some.injEq] at hf
      subst hf
      exact ⟨s1, p1⟩
    | 1, hf =>
      simp only [List.getElem?_cons_succ, List.getElem?_cons_zero, Option.some.injEq] at hf
      subst hf
      exact ⟨s2, p2⟩
  obtain ⟨h1, L', h2⟩ := hL.clean_up (by rw [hfac]; simp) hr
  obtain ⟨e1, e2⟩ := writeFactors_mat lr.factors w fs H.nodup (by simpa using h1)
  have z1 := h2 0 _ (e1 0 z (by rw [H.factors]; rfl))
  have u1 := h2 1 _ (e1 1 u (by rw [H.factors]; rfl))
  have hq : q ∉ lr.factors := fun h => (H.mem.mp h).elim H.qz H.qu
  have hx : x ∉ lr.factors := fun h => (H.mem.mp h).elim H.dataZ H.dataU
  refine ⟨⟨⟨L', z1.1, u1.1, z1.2, u1.2⟩, ?_, ?_, ?_, ?_⟩, ⟨?_, ?_, ?_, ?_⟩⟩
  · rw [e2 x hx]; exact hw.1.data
  · rw [e2 q hq]; exact hw.1.shapeQ
  · rw [e2 q hq]; exact hw.1.thresholds
  · rw [writeFactors_lbda]; exact hw.1.lbda
  · intro i hi hiq
    rw [e2 i hi]; exact hw.2.others i hi hiq
  · intro h
    rw [e2 q hq]; exact hw.2.q h
  · rw [writeFactors_lbda]; exact hw.2.lbda
  · intro h1 h2
    simp [h1, h2] at hauto

end QLMachine

/-- **C99**: inference in a machine with a single qL-AND layer returns whatever is drawn, if some factor or the thresholds'
own sampler is available for the thresholds (see `C99_both_factors_fixed`). Afterwards factors and all their samples are
binary, thresholds and all their samples are between 1 and 5, lambda and all its samples are finite, data and fixed
thresholds and fixed lambdas are unchanged; without automatic clean-up shapes and fixed factors are unchanged, too. -/
theorem C99_qL_infer {wr : SpecialWiring} {m : Mach Sampler LbdaUpdate} {lr : LayerInfo} {z u q x N D : Nat}
    (H : QLMachine wr m lr z u q x) {X : Arr Int} (hX : X.shape = [N, D]) (hw : QLWorld z u q x N D X m.world)
    (hfct : ∀ i s, m.fct i = some s → GoodQL z u q i s)
    (hlfct : ∀ g, m.lfct 0 = some g → get_update_fct none "qL-AND" 2 = .ok g)
    (hq : m.fixed q = true ∨ m.fct q ≠ none ∨ ∃ i, (i = z ∨ i = u) ∧ m.fixed i = false ∧ m.fct i = none)
    (S cw bmin : Nat) (eps : ℝ) (bmax : Int) (ps fx : Nat) (ha : CanAnneal m fx) (hcw : 1 ≤ cw) (hps : 1 ≤ ps) :
    ∃ m', infer (specialEnv wr) S cw eps bmin bmax ps fx m = .ok m' ∧
      (∃ L, (m'.world.mat z).val.shape = [N, L] ∧ (m'.world.mat u).val.shape = [D, L] ∧
        PMArr (m'.world.mat z).val ∧ PMArr (m'.world.mat u).val) ∧
      (m'.world.mat q).val.shape = [1, D] ∧
      (∀ d < D, 1 ≤ (m'.world.mat q).val [0, d] ∧ (m'.world.mat q).val [0, d] ≤ 5) ∧
      (∃ y, m'.world.lbda 0 = .scalar (.fin y)) ∧
      (∀ i, i ≠ z → i ≠ u → i ∉ freeMats m → m'.world.mat i = m.world.mat i) ∧
      (∀ k ∉ freeLbdas m, m'.world.lbda k = m.world.lbda k) ∧
      (lr.auto_clean = false → lr.auto_reset = false →
        (∀ i ∉ freeMats m, m'.world.mat i = m.world.mat i) ∧
        ∀ i, (m'.world.mat i).val.shape = (m.world.mat i).val.shape) ∧
      (∀ i ∈ freeMats m, i ≠ q → ∃ tr, m'.trace i = some tr ∧ tr.shape = S :: (m'.world.mat i).val.shape ∧ PMArr tr) ∧
      (q ∈ freeMats m → ∃ tr, m'.trace q = some tr ∧ tr.shape = [S, 1, D] ∧
        ∀ t < S, ∀ d < D, 1 ≤ tr [t, 0, d] ∧ tr [t, 0, d] ≤ 5) ∧
      ∀ k ∈ freeLbdas m, ∃ tr, m'.ltrace k = some tr ∧ tr.len = S ∧ ∀ t < S, ∃ y, tr.row t = some (.scalar (.fin y)) := by
  have hmem : ∀ i ∈ freeMats m, i = z ∨ i = u ∨ i = q := fun i hi => H.free_mem hi
  have hmem' : ∀ i ∈ [z, u].filter (fun i => !m.fixed i), i = z ∨ i = u := by
    intro i hi
    simpa using (List.mem_filter.mp hi).1
  obtain ⟨g, hg, hget, hrun⟩ := H.getUpdate (N := N) (D := D)
  obtain ⟨m1, a1, a2, a3, a4, a5⟩ := assigns_good (specialEnv wr) (GoodQL z u q) ([z, u].filter fun i => !m.fixed i) m (by
    intro i hi m' hl ho
    obtain ⟨s, e1, e2, e3⟩ := H.getSampler hl ho (hmem' i hi)
    refine ⟨s, _, e1, e2, fun j g h => ?_⟩
    cases h
    exact e3) hfct
  have a1' : (freeMats m).foldlM (assignFct (specialEnv wr)) m = .ok m1 ∧ ∀ i ∈ freeMats m, m1.fct i ≠ none := by
    by_cases hqf : m.fixed q = true
    · have : freeMats m = [z, u].filter (fun i => !m.fixed i) := by rw [H.free_eq]; simp [hqf]
      rw [this]
      exact ⟨a1, a3⟩
    · have hq1 : m1.fct q ≠ none := by
        refine assigns_side (specialEnv wr) q _ m m1 ?_ a1 ((hq.resolve_left hqf).imp_right ?_)
        · intro i hi m' hl ho
          obtain ⟨s, e1, -⟩ := H.getSampler hl ho (hmem' i hi)
          exact ⟨s, _, e1⟩
        · rintro ⟨i, h1, h2, h3⟩
          exact ⟨i, by rw [List.mem_filter]; simp [h1, h2], h3⟩
      have : freeMats m = [z, u].filter (fun i => !m.fixed i) ++ [q] := by rw [H.free_eq]; simp [hqf]
      rw [this, List.foldlM_append, a1]
      obtain ⟨s, hs⟩ := Option.ne_none_iff_exists'.mp hq1
      refine ⟨?_, ?_⟩
      · show List.foldlM (assignFct (specialEnv wr)) m1 [q] = _
        rw [List.foldlM_cons, assignFct, hs]; rfl
      · intro i hi
        rcases List.mem_append.mp hi with hi | hi
        · exact a3 i hi
        · rw [List.mem_singleton.mp hi]; exact hq1
  obtain ⟨a1, a3⟩ := a1'
  have k1 := fold_keeps (fun a i b => assignFct_keeps) a1
  obtain ⟨m2, b1, b2, b3, -⟩ := lassigns_good (specialEnv wr) (· = g) (freeLbdas m)
    (fun k hk => H.free_lbda hk) m1 (fun m' hl => ⟨_, hget m' (hl.trans k1.1.layers), rfl⟩)
    (by
      rw [a5]
      intro g' h'
      have := hlfct g' h'
      rw [hg] at this
      cases this
      rfl)
  have hf : ∀ i ∈ freeMats m, ∃ s, m2.fct i = some s ∧ GoodQL z u q i s := by
    intro i hi
    obtain ⟨s, hs⟩ := Option.ne_none_iff_exists'.mp (a3 i hi)
    exact ⟨s, by rw [b2]; exact hs, a2 i s hs⟩
  have hH : Healthy (specialEnv wr) (freeMats m) (freeLbdas m) m.layers m2.fct m2.lfct
      fun w => QLWorld z u q x N D X w ∧ QLKept m lr q w := by
    refine ⟨fun t i hi => H.perm t _ i hi, ?_, ?_, ?_⟩
    · intro i hi
      obtain ⟨s, h1, h2⟩ := hf i hi
      refine ⟨s, h1, fun t w hw => ?_⟩
      obtain ⟨w', e1, e2, e3, -⟩ := H.keeps hX hi h2 t hw
      exact ⟨w', e1, e2, fun k => by rw [e3]⟩
    · intro k hk
      obtain ⟨g, h1, rfl⟩ := b3 k hk
      refine ⟨_, h1, fun t w hw => ?_⟩
      obtain ⟨y, e1, -⟩ := hrun hX t hw.1
      obtain rfl := H.free_lbda hk
      refine ⟨_, e1, H.keeps_lbda hk y hw, fun k' => ?_⟩
      obtain ⟨y0, h0⟩ := hw.1.lbda
      by_cases h : k' = 0
      · subst h; simp [upd, h0, LVal.kind]
      · simp [upd, h]
    · intro lr' hlr' reset clean w fs b hauto hI hr
      rw [H.layers, List.mem_singleton] at hlr'
      subst hlr'
      exact H.clean hauto hI hr
  obtain ⟨m', c1, ⟨c2, c3⟩, c4, c5⟩ := infer_completes (specialEnv wr) S cw bmin eps bmax ps fx hcw hps m m1 m2 H.free_nodup
    (by
      intro i hi
      rw [H.modelOf_eq (H.layer_mem (hmem i hi))]
      exact ⟨by simp, by decide⟩) a1 b1 _
    ⟨hw, ⟨fun _ _ _ => rfl, fun _ => rfl, fun _ _ => rfl, fun _ _ _ => ⟨rfl, fun _ => rfl⟩⟩⟩ hH
    (by
      refine ha.imp_right fun ⟨h1, h2⟩ => ⟨h1, fun k hk => ?_, fun i hi f hfi t w w' hI hr => ?_, fun w k y hk hI => ?_⟩
      · obtain rfl := H.free_lbda hk
        exact h2
      · obtain ⟨s, e1, e2⟩ := hf i hi
        rw [e1] at hfi
        cases hfi
        obtain ⟨w1, e1, -, e3, -⟩ := H.keeps hX hi e2 t hI
        have : (specialEnv wr).runMat f i t w = .ok w1 := e1
        rw [this] at hr
        cases hr
        exact e3
      · exact H.keeps_lbda hk y hI)
    (by
      intro i hi f hfi t w w' hI hr j _
      obtain ⟨s, h1, h2⟩ := hf i hi
      rw [h1] at hfi
      cases hfi
      obtain ⟨w1, e1, -, -, e4⟩ := H.keeps hX hi h2 t hI
      have : (specialEnv wr).runMat f i t w = .ok w1 := e1
      rw [this] at hr
      cases hr
      exact e4 j)
    (by
      intro k hk g' hg' t w w' hI hr j _
      obtain ⟨s, h1, rfl⟩ := b3 k hk
      rw [h1] at hg'
      cases hg'
      obtain rfl := H.free_lbda hk
      obtain ⟨y, e1, -⟩ := hrun hX t hI.1
      have : (specialEnv wr).runLbda g' 0 t w = .ok _ := e1
      rw [this] at hr
      cases hr
      rfl)
  refine ⟨m', c1, c2.facs, c2.shapeQ, c2.thresholds, c2.lbda, ?_, c3.lbda, fun h1 h2 => ⟨fun i hi => (c3.fixed h1 h2 i).2 hi,
    fun i => (c3.fixed h1 h2 i).1⟩, ?_, ?_, ?_⟩
  · intro i hz hu hi
    by_cases hiq : i = q
    · subst hiq; exact c3.q hi
    · exact c3.others i (fun h => (H.mem.mp h).elim hz hu) hiq
  · intro i hi hiq
    obtain ⟨tr, t1, t2, t3⟩ := c4 i hi
    refine ⟨tr, t1, t2, ?_⟩
    intro idx hidx
    rw [t2] at hidx
    match idx, hidx with
    | t :: idx, hidx =>
      obtain ⟨w, ⟨hIw, -⟩, hs, he⟩ := t3 t hidx.1
      rw [he]
      obtain ⟨L, -, -, p1, p2⟩ := hIw.facs
      have : PMArr (w.mat i).val := by
        rcases hmem i hi with rfl | rfl | rfl
        exacts [p1, p2, absurd rfl hiq]
      exact this idx (by rw [hs]; exact hidx.2)
  · intro hi
    obtain ⟨tr, t1, t2, t3⟩ := c4 q hi
    refine ⟨tr, t1, by rw [t2, c2.shapeQ], fun t ht d hd => ?_⟩
    obtain ⟨w, ⟨hIw, -⟩, hs, he⟩ := t3 t ht
    rw [he]
    exact hIw.thresholds d hd
  · intro k hk
    obtain ⟨tr, w0, t1, t2, ⟨i0, -⟩, t3⟩ := c5 k hk
    obtain rfl := H.free_lbda hk
    obtain ⟨y0, h0⟩ := i0.lbda
    refine ⟨tr, t1, t2, fun t ht => ?_⟩
    obtain ⟨w, ⟨iw, -⟩, hr⟩ := t3 t ht
    obtain ⟨y, hy⟩ := iw.lbda
    exact ⟨y, by rw [hr (by rw [h0, hy]; rfl), hy]⟩

/-- **C99** (error): with both factors fixed and thresholds to be inferred for the first time, inference raises as soon as
there is a burn-in turn -/
theorem C99_both_factors_fixed {wr : SpecialWiring} {m : Mach Sampler LbdaUpdate} {lr : LayerInfo} {z u q x N D : Nat}
    (H : QLMachine wr m lr z u q x) {X : Arr Int} (hX : X.shape = [N, D]) (hw : QLWorld z u q x N D X m.world)
    (hz : m.fixed z = true) (hu : m.fixed u = true) (hq : m.fixed q = false) (hfct : m.fct q = none)
    (hlfct : ∀ g, m.lfct 0 = some g → get_update_fct none "qL-AND" 2 = .ok g)
    (hperm : ∀ t, wr.perm t [q] = [q]) (S cw bmin : Nat) (eps : ℝ) (bmax : Int) (ps fx : Nat) (hb : 1 ≤ bmin)
    (hps : 1 ≤ ps) : infer (specialEnv wr) S cw eps bmin bmax ps fx m = .error .valueError := by
  have hfree : freeMats m = [q] := by rw [H.free_eq]; simp [hz, hu, hq]
  obtain ⟨m1, hm1⟩ : ∃ m1 : Mach Sampler LbdaUpdate, m1 =
    { m with fct := upd (upd m.fct q (some .qL_q)) q (some (.qL_U [1, 0, 1])) } := ⟨_, rfl⟩
  have a1 : (freeMats m).foldlM (assignFct (specialEnv wr)) m = .ok m1 := by
    obtain ⟨a, b, ha, hb, he⟩ := H.getSampler_eq rfl rfl H.layerQ H.parentsQ
    have hg : (specialEnv wr).getFct m q = .ok (some (.qL_U [1, 0, 1]), some (q, .qL_q)) := by
      show getSampler wr.toWiring m q = _
      rw [he, H.axisQ, show lr.factors.idxOf q = 2 by
          simp [H.factors, H.qz.symm, H.qu.symm],
        (QLFcts_assign_ok a b ha hb _).2.2, H.hq]
      rfl
    rw [hfree, List.foldlM_cons, assignFct, hfct]
    show ((specialEnv wr).getFct m q >>= _) >>= _ = _
    rw [hg, hm1]
    rfl
  have k1 := fold_keeps (fun a i b => assignFct_keeps) a1
  obtain ⟨g, hg, hget, -⟩ := H.getUpdate (N := N) (D := D)
  obtain ⟨m2, b1, b2, -, -⟩ := lassigns_good (specialEnv wr) (· = g) (freeLbdas m)
    (fun k hk => H.free_lbda hk) m1 (fun m' hl => ⟨_, hget m' (hl.trans k1.1.layers), rfl⟩)
    (by
      rw [hm1]
      intro g' h'
      have := hlfct g' h'
      rw [hg] at this
      cases this
      rfl)
  have k2 := fold_keeps (fun a i b => assignLfct_keeps) b1
  obtain ⟨m3, hm3⟩ : ∃ m3, m3 = resetIndices (freeMats m) (freeLbdas m) m2 := ⟨_, rfl⟩
  have hw3 : m3.world = m.world := by rw [hm3]; show m2.world = _; rw [k2.2, k1.2]
  have hf3 : m3.fct q = some (.qL_U [1, 0, 1]) := by
    rw [hm3]; show m2.fct q = _; rw [b2, hm1]; simp [upd]
  have hraise : ∀ t, runSpecial wr (.qL_U [1, 0, 1]) q t m.world = .error .valueError := by
    intro t
    obtain ⟨y, hl⟩ := hw.lbda
    have hsib : siblingIds wr.toWiring lr q = [z, u] := by
      simp [siblingIds, H.factors, H.qz.symm, H.qu.symm, List.mergeSort, List.MergeSort.Internal.splitInTwo, H.axisZ]
    have hfl : (LVal.scalar (.fin y)).float? = some y := rfl
    rw [runSpecial, H.layer H.layerQ]
    simp only [hsib, H.hq, hl, hfl]
    rw [H.child, hw.data, npTranspose, if_neg (by rw [hX]; simp)]
    rfl
  have hsample : sampleMats (specialEnv wr) (freeMats m) m3 = .error .valueError := by
    rw [sampleMats, hfree]
    show (List.foldlM _ m3 (wr.perm m3.clock [q]) >>= _) = _
    rw [hperm, List.foldlM_cons, callMat, hf3]
    show ((runSpecial wr _ q m3.clock m3.world >>= _) >>= _) >>= _ = _
    rw [hw3, hraise]
    rfl
  obtain ⟨b, rfl⟩ : ∃ b, bmin = b + 1 := ⟨bmin - 1, by omega⟩
  rw [infer]
  simp only
  rw [a1]
  show ((freeLbdas m).foldlM (assignLfct _) m1 >>= _) = _
  rw [b1]
  show (burn_in _ _ _ _ _ _ _ _ _ (resetIndices (freeMats m) (freeLbdas m) m2) >>= _) = _
  rw [← hm3, burn_in, preLoop, preStep, if_neg (by omega)]
  show (((sampleMats _ _ m3 >>= _) >>= _) >>= _) >>= _ = _
  rw [hsample]
  rfl

/-! ## The hypotheses are met -/

/-- a qL-AND layer; its thresholds are matrix 3 -/
def layerQL (auto_clean auto_reset : Bool) : LayerInfo := ⟨[0, 1], "qL-AND", some 3, auto_clean, auto_reset⟩

/-- a fresh layer with `L` latent dimensions on `3 x 2` data, with all entries of factor 0 and none of factor 1 set -/
noncomputable def worldQL (L : Nat) : World where
  mat i := if i = 0 then ⟨Arr.full [3, L] 1, Arr.full [3, L] 0⟩
    else if i = 1 then ⟨Arr.full [2, L] (-1), Arr.full [2, L] 0⟩
    else if i = 3 then ⟨Arr.full [1, 2] 1, Arr.full [1, 2] 0⟩
    else ⟨Arr.full [3, 2] 1, Arr.full [3, 2] 0⟩
  lbda _ := .scalar (.fin (1 / 20))

/-- attributes of this machine -/
noncomputable def wiringQL (ac ar : Bool) (rnd : Nat → Nat → Rnd) (perm : Nat → List Nat → List Nat) : SpecialWiring where
  toWiring := { wiring2 ac ar rnd perm with
    layers := [layerQL ac ar]
    layerOf := fun i => if i = 2 then none else some 0
    childAxis := fun i => if i = 3 then 1 else i }
  gamma _ := 1
  alpha _ := 3
  prior _ := 1 / 2
  argsort _ := []
  ibp _ _ := ⟨fun _ _ => 0, fun _ => 0, fun _ _ _ => 0⟩

/-- this machine before inference -/
noncomputable def machQL (L : Nat) (ac ar : Bool) (fixed : List Nat) (anneal : Bool) : Mach Sampler LbdaUpdate :=
  { mach2 ac ar fixed with
    layers := [layerQL ac ar]
    layerOf := fun i => if i = 2 then none else some 0
    anneal := anneal
    world := worldQL L }

/-- the hypotheses of `C99_qL_infer` hold for this machine, whatever is drawn, with and without annealing; all three
matrices are sampled unless they are fixed -/
theorem C99_hypotheses_met (L : Nat) (ac ar : Bool) (fixed : List Nat) (anneal : Bool) (rnd : Nat → Nat → Rnd)
    (perm : Nat → List Nat → List Nat) (hr : ∀ t i idx, 0 ≤ rnd t i idx ∧ rnd t i idx < 1)
    (hp : ∀ t l, ∀ i ∈ perm t l, i ∈ l) :
    QLMachine (wiringQL ac ar rnd perm) (machQL L ac ar fixed anneal) (layerQL ac ar) 0 1 3 2 ∧
    QLWorld 0 1 3 2 3 2 (Arr.full [3, 2] 1) (machQL L ac ar fixed anneal).world ∧
    CanAnneal (machQL L ac ar fixed anneal) 0 ∧ freeMats (machQL L ac ar [] anneal) = [0, 1, 3] ∧
    freeMats (machQL L ac ar [0, 1] anneal) = [3] ∧ freeLbdas (machQL L ac ar fixed anneal) = [0] := by
  refine ⟨⟨⟨rfl, rfl, rfl, by decide, rfl, rfl, rfl, rfl, rfl, rfl, rfl, rfl, rfl, by decide, by decide, ?_, hp⟩, rfl,
    by decide, by decide, by decide, rfl, rfl, rfl, by simp [wiringQL], ?_, hr⟩,
    ⟨⟨L, rfl, rfl, fun _ _ => .inl rfl, fun _ _ => .inr rfl⟩, rfl, rfl, ?_, _, rfl⟩, .inr ⟨rfl, 1 / 20, by norm_num, rfl⟩,
    rfl, rfl, rfl⟩
  · intro i hi
    simp only [machQL, mach2, List.mem_singleton] at hi
    simp [machQL, mach2, hi]
  · simp [wiringQL, wiring2]
  · intro d _
    show (1 : Int) ≤ 1 ∧ (1 : Int) ≤ 5
    decide

end LFM
