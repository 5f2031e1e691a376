import Verif.Lemmas.Wiring
import Verif.Props.Infer

/-!
# Properties: inference in single-layer machines of the generic models

Everything together: `infer` with the sampling functions, parameter updates and clean-ups of a machine with a single
layer of one of the eight generic models and two or three factors, on fixed data.
-/

namespace LFM

open Spec

/-- what inference has left as it was in `m0` -/
structure Kept (m0 : Mach Sampler LbdaUpdate) (lr : LayerInfo) (w : World) : Prop where
  others : ∀ i ∉ lr.factors, w.mat i = m0.world.mat i
  lbda : ∀ k ∉ freeLbdas m0, w.lbda k = m0.world.lbda k
  fixed : lr.auto_clean = false → lr.auto_reset = false → ∀ i, (w.mat i).fixed_entries = (m0.world.mat i).fixed_entries ∧
    (w.mat i).val.shape = (m0.world.mat i).val.shape ∧
    (∀ idx, (m0.world.mat i).fixed_entries idx = 1 → (w.mat i).val idx = (m0.world.mat i).val idx) ∧
    (i ∉ freeMats m0 → w.mat i = m0.world.mat i)

/-- machine.py:581-601: annealing is off, or can be done: `fix_lbda_iters` is zero and lambda is a number other than zero -/
def CanAnneal (m : Mach Sampler LbdaUpdate) (fx : Nat) : Prop :=
  m.anneal = false ∨ fx = 0 ∧ ∃ y, y ≠ 0 ∧ m.world.lbda 0 = .scalar (.fin y)

namespace SingleLayer

variable {wr : Wiring} {m : Mach Sampler LbdaUpdate} {lom : Lom8} {lr : LayerInfo} {x : Nat} {sizes : List Nat}

theorem free_eq (H : SingleLayer wr m lom lr x sizes) : freeMats m = lr.factors.filter fun i => !m.fixed i := by
  have hq : lr.model ≠ "qL-AND" := by rw [H.model]; cases lom <;> decide
  have h2 : m.matrices.filter (fun i => !m.fixed i) = [] := by
    rw [List.filter_eq_nil_iff]
    intro i hi
    simp [H.matrices i hi]
  simp only [freeMats, members, H.layers, List.flatMap_cons, List.flatMap_nil, List.append_nil, hq, if_false,
    List.filter_append, h2]

theorem free_lbda (H : SingleLayer wr m lom lr x sizes) {k : Nat} (hk : k ∈ freeLbdas m) : k = 0 := by
  simp only [freeLbdas, H.layers, List.mem_filter, List.mem_range, List.length_singleton] at hk
  omega

theorem assigns (H : SingleLayer wr m lom lr x sizes) (ks : List Nat) : ∀ m' : Mach Sampler LbdaUpdate,
    (∀ i ∈ ks, i ∈ lr.factors) → m'.layers = m.layers → m'.layerOf = m.layerOf →
    (∀ i ∈ lr.factors, ∀ s, m'.fct i = some s → GenericSampler lom lr.factors.length (lr.factors.idxOf i) s) →
    ∃ m'', ks.foldlM (assignFct (genericEnv wr)) m' = .ok m'' ∧
      (∀ i ∈ lr.factors, ∀ s, m''.fct i = some s → GenericSampler lom lr.factors.length (lr.factors.idxOf i) s) ∧
      m''.layers = m.layers ∧ m''.lfct = m'.lfct ∧ (∀ i s, m'.fct i = some s → m''.fct i = some s) ∧
      ∀ i ∈ ks, m'.fct i = none → ∃ f o, m''.fct i = some (.lom f o (logit (m'.bernoulli_prior i))) := by
  induction ks with
  | nil => intro m' _ hl _ hc; exact ⟨m', rfl, hc, hl, rfl, fun _ _ h => h, by simp⟩
  | cons k ks ih =>
    intro m' hks hl ho hc
    have hks' : ∀ i ∈ ks, i ∈ lr.factors := fun i hi => hks i (by simp [hi])
    cases hf : m'.fct k with
    | some s =>
      obtain ⟨m'', e1, e2, e3, e4, e5, e6⟩ := ih m' hks' hl ho hc
      refine ⟨m'', ?_, e2, e3, e4, e5, ?_⟩
      · rw [List.foldlM_cons, assignFct, hf]; exact e1
      · intro i hi
        simp only [List.mem_cons] at hi
        rcases hi with rfl | hi
        · intro hn; rw [hn] at hf; cases hf
        · exact e6 i hi
    | none =>
      obtain ⟨s, hs, hg, f, o, hfo⟩ := H.getSampler_ok hl ho (hks k (by simp))
      obtain ⟨m1, hm1⟩ : ∃ m1 : Mach Sampler LbdaUpdate, m1 = { m' with fct := upd m'.fct k (some s) } := ⟨_, rfl⟩
      obtain ⟨m'', e1, e2, e3, e4, e5, e6⟩ := ih m1 hks' (by rw [hm1]; exact hl) (by rw [hm1]; exact ho) (by
        intro i hi s' hs'
        rw [hm1] at hs'
        simp only [upd] at hs'
        split at hs'
        · rename_i h
          simp only [Option.some.injEq] at hs'
          rw [← hs', h]; exact hg
        · exact hc i hi s' hs')
      have hmono : ∀ i s, m'.fct i = some s → m1.fct i = some s := by
        intro i s' hi
        have : i ≠ k := by rintro rfl; rw [hi] at hf; cases hf
        rw [hm1]
        simpa [upd, this] using hi
      refine ⟨m'', ?_, e2, e3, by rw [e4, hm1], fun i s hi => e5 i s (hmono i s hi), ?_⟩
      · have : assignFct (genericEnv wr) m' k = .ok m1 := by
          rw [assignFct, hf]
          show (getSampler wr m' k >>= _) = _
          rw [hs, hm1]
          rfl
        rw [List.foldlM_cons, this]; exact e1
      · intro i hi
        simp only [List.mem_cons] at hi
        intro hn
        by_cases hik : i = k
        · subst hik
          exact ⟨f, o, e5 _ _ (by rw [hm1, ← hfo]; simp [upd])⟩
        · obtain ⟨f', o', h'⟩ := e6 i (hi.resolve_left hik) (by rw [hm1]; simpa [upd, hik] using hn)
          exact ⟨f', o', by rw [h', hm1]⟩

/-- after assignment, all have functions -/
theorem assigned {m m' : Mach Sampler LbdaUpdate} {ks : List Nat}
    (h1 : ∀ i s, m.fct i = some s → m'.fct i = some s)
    (h2 : ∀ i ∈ ks, m.fct i = none → ∃ f o, m'.fct i = some (.lom f o (logit (m.bernoulli_prior i)))) :
    ∀ i ∈ ks, m'.fct i ≠ none := by
  intro i hi
  cases hf : m.fct i with
  | some s => rw [h1 i s hf]; simp
  | none =>
    obtain ⟨f, o, h⟩ := h2 i hi hf
    rw [h]; simp

theorem lassigns (H : SingleLayer wr m lom lr x sizes) {m' : Mach Sampler LbdaUpdate} (hl : m'.layers = m.layers)
    (hc : ∀ g, m'.lfct 0 = some g → get_update_fct none lom.name lr.factors.length = .ok g) :
    ∃ m'', (freeLbdas m).foldlM (assignLfct (genericEnv wr)) m' = .ok m'' ∧ m''.fct = m'.fct ∧
      ∀ k ∈ freeLbdas m, ∃ g, m''.lfct k = some g ∧ get_update_fct none lom.name lr.factors.length = .ok g := by
  have hnd := nodup_freeLbdas m
  have hfree : freeLbdas m = [] ∨ freeLbdas m = [0] := by
    have h0 : ∀ k ∈ freeLbdas m, k = 0 := fun k hk => H.free_lbda hk
    match hh : freeLbdas m with
    | [] => exact Or.inl rfl
    | [k] => rw [hh] at h0; right; rw [h0 k (by simp)]
    | a :: b :: t =>
      rw [hh] at h0 hnd
      have e1 := h0 a (by simp)
      have e2 := h0 b (by simp)
      subst e1 e2
      simp at hnd
  rcases hfree with h | h
  · rw [h]; exact ⟨m', rfl, rfl, by simp⟩
  · rw [h]
    cases hf : m'.lfct 0 with
    | some g =>
      refine ⟨m', ?_, rfl, ?_⟩
      · rw [List.foldlM_cons, assignLfct, hf]; rfl
      · intro k hk
        simp only [List.mem_singleton] at hk
        subst hk
        exact ⟨g, hf, hc g hf⟩
    | none =>
      obtain ⟨g, h1, h2⟩ := H.getUpdate_ok hl
      refine ⟨{ m' with lfct := upd m'.lfct 0 (some g) }, ?_, rfl, ?_⟩
      · rw [List.foldlM_cons, assignLfct, hf]
        show (getUpdate m' 0 >>= _) >>= _ = _
        rw [h1]
        rfl
      · intro k hk
        simp only [List.mem_singleton] at hk
        subst hk
        exact ⟨g, by simp [upd], h2⟩

/-- one call of a sampling function -/
theorem keeps_mat (H : SingleLayer wr m lom lr x sizes) {X : Arr Int} {i : Nat} (hi : i ∈ freeMats m) {s : Sampler}
    (hs : GenericSampler lom lr.factors.length (lr.factors.idxOf i) s) (t : Nat) {w : World}
    (hw : LegalWorld lr x sizes X w ∧ Kept m lr w) : ∃ w', runSampler wr s i t w = .ok w' ∧
      (LegalWorld lr x sizes X w' ∧ Kept m lr w') ∧ w'.lbda = w.lbda ∧ ∀ j, (w'.mat j).val.shape = (w.mat j).val.shape := by
  obtain ⟨hw, hk⟩ := hw
  have hi' := H.mem_free hi
  obtain ⟨R, h1, h2, h3, h4⟩ := H.runs_mat hi' hs t hw.lbda
  obtain ⟨L, hL⟩ := hw.facs
  have hshape : ∀ j, ((w.setVal i R).mat j).val.shape = (w.mat j).val.shape := by
    intro j
    by_cases hj : j = i
    · subst hj; simpa [World.setVal, upd] using h2
    · simp [World.setVal, upd, hj]
  refine ⟨w.setVal i R, h1, ⟨⟨⟨L, setVal_facs hi' hL h2 h3⟩, ?_, hw.lbda⟩, ⟨?_, hk.lbda, ?_⟩⟩, rfl, hshape⟩
  · have : x ≠ i := fun h => H.data (h ▸ hi')
    simp [World.setVal, upd, this, hw.data]
  · intro j hj
    have : j ≠ i := fun h => hj (h ▸ hi')
    simp [World.setVal, upd, this, hk.others j hj]
  · intro a b j
    obtain ⟨k1, k2, k3, k4⟩ := hk.fixed a b j
    by_cases hj : j = i
    · subst hj
      refine ⟨?_, (hshape j).trans k2, ?_, fun h => absurd hi h⟩
      · simp [World.setVal, upd, k1]
      · intro idx hidx
        simp only [World.setVal, upd, if_true]
        rw [h4 idx (by rw [k1]; exact hidx), k3 idx hidx]
    · simpa [World.setVal, upd, hj] using ⟨k1, k2, k3, k4⟩

theorem keeps_lbda (H : SingleLayer wr m lom lr x sizes) {X : Arr Int} (hX : X.shape = sizes) {k : Nat}
    (hk : k ∈ freeLbdas m) {g : LbdaUpdate} (hg : get_update_fct none lom.name lr.factors.length = .ok g) (t : Nat)
    {w : World} (hw : LegalWorld lr x sizes X w ∧ Kept m lr w) : ∃ w', runUpdate wr g k t w = .ok w' ∧
      (LegalWorld lr x sizes X w' ∧ Kept m lr w') ∧ (∀ k, (w'.lbda k).kind = (w.lbda k).kind) ∧ w'.mat = w.mat := by
  obtain ⟨hw, hkept⟩ := hw
  obtain rfl := H.free_lbda hk
  obtain ⟨y, -, h1⟩ := H.runs_lbda hg t hw hX
  refine ⟨_, h1, ⟨⟨hw.facs, hw.data, y, by simp [upd]⟩, ⟨hkept.others, ?_, hkept.fixed⟩⟩, ?_, rfl⟩
  · intro k' hk'
    have : k' ≠ 0 := fun h => hk' (h ▸ hk)
    simp [upd, this, hkept.lbda k' hk']
  · intro k'
    obtain ⟨z, hz⟩ := hw.lbda
    by_cases h : k' = 0
    · subst h; simp [upd, hz, LVal.kind]
    · simp [upd, h]

/-- everything runs without error and preserves legality -/
theorem healthy (H : SingleLayer wr m lom lr x sizes) {X : Arr Int} (hX : X.shape = sizes) {fct : Nat → Option Sampler}
    {lfct : Nat → Option LbdaUpdate}
    (hf : ∀ i ∈ freeMats m, ∃ s, fct i = some s ∧ GenericSampler lom lr.factors.length (lr.factors.idxOf i) s)
    (hlf : ∀ k ∈ freeLbdas m, ∃ g, lfct k = some g ∧ get_update_fct none lom.name lr.factors.length = .ok g) :
    Healthy (genericEnv wr) (freeMats m) (freeLbdas m) m.layers fct lfct
      fun w => LegalWorld lr x sizes X w ∧ Kept m lr w := by
  refine ⟨fun t i hi => H.perm t _ i hi, ?_, ?_, ?_⟩
  · intro i hi
    obtain ⟨s, h1, h2⟩ := hf i hi
    refine ⟨s, h1, fun t w hw => ?_⟩
    obtain ⟨w', e1, e2, e3, -⟩ := H.keeps_mat hi h2 t hw
    exact ⟨w', e1, e2, fun k => by rw [e3]⟩
  · intro k hk
    obtain ⟨g, h1, h2⟩ := hlf k hk
    refine ⟨g, h1, fun t w hw => ?_⟩
    obtain ⟨w', e1, e2, e3, -⟩ := H.keeps_lbda hX hk h2 t hw
    exact ⟨w', e1, e2, e3⟩
  · intro lr' hlr' reset clean w fs b hauto hw hr
    rw [H.layers, List.mem_singleton] at hlr'
    subst hlr'
    refine ⟨H.clean_legal hw.1 hr, ?_, ?_, ?_⟩
    · intro i hi
      obtain ⟨L, hL⟩ := hw.1.facs
      have hne : lr'.factors.map w.mat ≠ [] := by
        intro hc
        have h1 := congrArg List.length hc
        have h2 := H.arity
        rw [List.length_map, List.length_nil] at h1
        omega
      obtain ⟨h1, -⟩ := hL.clean_up hne hr
      rw [(writeFactors_mat lr'.factors w fs H.nodup (by simpa using h1)).2 i hi]
      exact hw.2.others i hi
    · intro k hk
      rw [writeFactors_lbda]
      exact hw.2.lbda k hk
    · intro h1 h2
      simp [h1, h2] at hauto

/-- annealing is possible -/
theorem annealOK (H : SingleLayer wr m lom lr x sizes) {X : Arr Int} {fct : Nat → Option Sampler} {fx : Nat}
    (hf : ∀ i ∈ freeMats m, ∃ s, fct i = some s ∧ GenericSampler lom lr.factors.length (lr.factors.idxOf i) s)
    (ha : CanAnneal m fx) :
    AnnealOK (genericEnv wr) (freeMats m) (freeLbdas m) fct fx (fun w => LegalWorld lr x sizes X w ∧ Kept m lr w) m := by
  refine ha.imp_right fun ⟨h1, h2⟩ => ⟨h1, fun k hk => ?_, fun i hi f hfi t w w' hI hr => ?_, fun w k y hk hI => ?_⟩
  · obtain rfl := H.free_lbda hk
    exact h2
  · obtain ⟨s, e1, e2⟩ := hf i hi
    rw [e1] at hfi
    cases hfi
    obtain ⟨w1, e1, -, e3, -⟩ := H.keeps_mat hi e2 t hI
    have : (genericEnv wr).runMat f i t w = .ok w1 := e1
    rw [this] at hr
    cases hr
    exact e3
  · obtain rfl := H.free_lbda hk
    refine ⟨⟨hI.1.facs, hI.1.data, y, by simp [upd]⟩, ⟨hI.2.others, fun k' hk' => ?_, hI.2.fixed⟩⟩
    have : k' ≠ 0 := fun h => hk' (h ▸ hk)
    simp [upd, this, hI.2.lbda k' hk']

end SingleLayer

/-- **C47**, **C46**, **C43**: inference in a machine with a single layer of any of the eight generic models with two or
three factors of `{-1,1}` entries returns whatever is drawn, with annealing too if lambda starts from a number other than
zero and is not held fixed at first; afterwards all factors have entries in `{-1,1}`, all their
samples have, lambda is a finite number and so are its samples, data and all other matrices, and lambdas that are fixed, are unchanged, and
without automatic clean-up fixed factors, fixed entries and the shapes of all matrices are unchanged. -/
theorem C47_infer_binary {wr : Wiring} {m : Mach Sampler LbdaUpdate} {lom : Lom8} {lr : LayerInfo} {x : Nat}
    {sizes : List Nat} (H : SingleLayer wr m lom lr x sizes) {X : Arr Int} (hX : X.shape = sizes)
    (hw : LegalWorld lr x sizes X m.world) (S cw bmin : Nat) (eps : ℝ) (bmax : Int) (ps fx : Nat) (ha : CanAnneal m fx)
    (hcw : 1 ≤ cw) (hps : 1 ≤ ps) :
    ∃ m', infer (genericEnv wr) S cw eps bmin bmax ps fx m = .ok m' ∧
      (∃ L, ∀ j i, lr.factors[j]? = some i →
        (m'.world.mat i).val.shape = [sizes.getD j 0, L] ∧ PMArr (m'.world.mat i).val) ∧
      (∃ y, m'.world.lbda 0 = .scalar (.fin y)) ∧
      (∀ i ∉ lr.factors, m'.world.mat i = m.world.mat i) ∧
      (∀ k ∉ freeLbdas m, m'.world.lbda k = m.world.lbda k) ∧
      (lr.auto_clean = false → lr.auto_reset = false →
        (∀ i ∉ freeMats m, m'.world.mat i = m.world.mat i) ∧
        (∀ i, (m'.world.mat i).val.shape = (m.world.mat i).val.shape) ∧
        ∀ i idx, (m.world.mat i).fixed_entries idx = 1 → (m'.world.mat i).val idx = (m.world.mat i).val idx) ∧
      (∀ i ∈ freeMats m, ∃ tr, m'.trace i = some tr ∧ tr.shape = S :: (m'.world.mat i).val.shape ∧ PMArr tr) ∧
      ∀ k ∈ freeLbdas m, ∃ tr, m'.ltrace k = some tr ∧ tr.len = S ∧ ∀ t < S, ∃ y, tr.row t = some (.scalar (.fin y)) := by
  have hmem : ∀ i ∈ freeMats m, i ∈ lr.factors := fun i hi => H.mem_free hi
  have hnd : (freeMats m).Nodup := by rw [H.free_eq]; exact H.nodup.filter _
  obtain ⟨m1, a1, a2, a3, a4, a5, a6'⟩ := H.assigns (freeMats m) m hmem rfl rfl (by
    intro i hi s hs
    exact H.cached _ i (H.position hi).1 s hs)
  have a6 := SingleLayer.assigned a5 a6'
  obtain ⟨m2, b1, b2, b3⟩ := H.lassigns (m' := m1) a3 (by rw [a4]; exact H.lcached)
  have hf : ∀ i ∈ freeMats m, ∃ s, m2.fct i = some s ∧ GenericSampler lom lr.factors.length (lr.factors.idxOf i) s := by
    intro i hi
    obtain ⟨s, hs⟩ := Option.ne_none_iff_exists'.mp (a6 i hi)
    exact ⟨s, by rw [b2]; exact hs, a2 i (hmem i hi) s hs⟩
  have hH := H.healthy hX hf b3
  obtain ⟨m', c1, ⟨c2, c3⟩, c4, c5⟩ := infer_completes (genericEnv wr) S cw bmin eps bmax ps fx hcw hps m m1 m2 hnd
    (by
      intro i hi
      have : modelOf m i = some lom.name := by
        rw [modelOf, H.layerOf i (hmem i hi), H.layers, ← H.model]; rfl
      rw [this]
      refine ⟨by simp, ?_⟩
      cases lom <;> decide) a1 b1 _ ⟨hw, ⟨fun _ _ => rfl, fun _ _ => rfl, fun _ _ _ => ⟨rfl, rfl, fun _ _ => rfl, fun _ => rfl⟩⟩⟩ hH (H.annealOK hf ha)
    (by
      intro i hi f hfi t w w' hI hr j _
      obtain ⟨s, h1, h2⟩ := hf i hi
      rw [h1] at hfi
      cases hfi
      obtain ⟨w1, e1, -, -, e4⟩ := H.keeps_mat hi h2 t hI
      have : (genericEnv wr).runMat f i t w = .ok w1 := e1
      rw [this] at hr
      cases hr
      exact e4 j)
    (by
      intro k hk g hg t w w' hI hr j _
      obtain ⟨s, h1, h2⟩ := b3 k hk
      rw [h1] at hg
      cases hg
      obtain ⟨w1, e1, -, -, e4⟩ := H.keeps_lbda hX hk h2 t hI
      have : (genericEnv wr).runLbda g k t w = .ok w1 := e1
      rw [this] at hr
      cases hr
      rw [e4])
  obtain ⟨L, hL⟩ := c2.facs
  refine ⟨m', c1, ⟨L, ?_⟩, c2.lbda, c3.others, c3.lbda, ?_, ?_, ?_⟩
  · intro j i hj
    exact hL j (m'.world.mat i) (by rw [List.getElem?_map, hj]; rfl)
  · intro h1 h2
    exact ⟨fun i hi => (c3.fixed h1 h2 i).2.2.2 hi, fun i => (c3.fixed h1 h2 i).2.1, fun i idx hidx => (c3.fixed h1 h2 i).2.2.1 idx hidx⟩
  · intro i hi
    obtain ⟨tr, t1, t2, t3⟩ := c4 i hi
    refine ⟨tr, t1, t2, ?_⟩
    intro idx hidx
    rw [t2] at hidx
    match idx, hidx with
    | t :: idx, hidx =>
      obtain ⟨w, ⟨hIw, -⟩, hs, he⟩ := t3 t hidx.1
      rw [he]
      obtain ⟨L', hL'⟩ := hIw.facs
      exact (hL' _ (w.mat i) (by rw [List.getElem?_map, (H.position (hmem i hi)).1]; rfl)).2 idx (by rw [hs]; exact hidx.2)
  · intro k hk
    obtain ⟨tr, w0, t1, t2, ⟨i0, -⟩, t3⟩ := c5 k hk
    obtain rfl := H.free_lbda hk
    obtain ⟨y0, h0⟩ := i0.lbda
    refine ⟨tr, t1, t2, fun t ht => ?_⟩
    obtain ⟨w, ⟨iw, -⟩, hr⟩ := t3 t ht
    obtain ⟨y, hy⟩ := iw.lbda
    exact ⟨y, by rw [hr (by rw [h0, hy]; rfl), hy]⟩

/-! ## The hypotheses are met -/

/-- a layer with two factors -/
def layer2 (auto_clean auto_reset : Bool) : LayerInfo := ⟨[0, 1], "XOR-NAND", none, auto_clean, auto_reset⟩

/-- a 3 x 2 matrix of data and factors with one latent dimension; the last row of factor 0 is fixed -/
noncomputable def world2 : World where
  mat i := if i = 0 then ⟨Arr.full [3, 1] 1, ⟨[3, 1], fun idx => if idx = [2, 0] then 1 else 0⟩⟩
    else if i = 1 then ⟨Arr.full [2, 1] (-1), Arr.full [2, 1] 0⟩
    else ⟨Arr.full [3, 2] 1, Arr.full [3, 2] 0⟩
  lbda _ := .scalar (.fin (1 / 2))

/-- attributes of this machine -/
noncomputable def wiring2 (ac ar : Bool) (rnd : Nat → Nat → Rnd) (perm : Nat → List Nat → List Nat) : Wiring where
  layers := [layer2 ac ar]
  layerOf i := if i < 2 then some 0 else none
  childAxis i := i
  parents i := if i = 2 then [0] else []
  child _ := 2
  beta_prior _ := (1, 1)
  rnd := rnd
  perm := perm
  junk _ _ _ _ := .nan
  junkSampling _ _ _ := .nan
  junkMat _ _ := 0
  special _ _ _ w := .ok w

/-- this machine before inference; the data and the matrices in `fixed` are fixed -/
noncomputable def mach2 (ac ar : Bool) (fixed : List Nat) : Mach Sampler LbdaUpdate where
  layers := [layer2 ac ar]
  matrices := [2]
  anneal := false
  world := world2
  fixed i := i = 2 || fixed.contains i
  layerOf i := if i < 2 then some 0 else none
  bernoulli_prior _ := 1 / 2
  fct _ := none
  trace _ := none
  trace_index _ := 0
  lfixed _ := false
  lfct _ := none
  ltrace _ := none
  ltrace_index _ := 0
  burn_in_iters := none
  clock := 0

/-- the hypotheses of `C47_infer_binary` hold for this machine, whatever is drawn -/
theorem C47_hypotheses_met (ac ar : Bool) (fixed : List Nat) (rnd : Nat → Nat → Rnd) (perm : Nat → List Nat → List Nat)
    (hp : ∀ t l, ∀ i ∈ perm t l, i ∈ l) :
    SingleLayer (wiring2 ac ar rnd perm) (mach2 ac ar fixed) .XOR_NAND (layer2 ac ar) 2 [3, 2] ∧
    LegalWorld (layer2 ac ar) 2 [3, 2] (Arr.full [3, 2] 1) world2 ∧ freeMats (mach2 ac ar []) = [0, 1] ∧
    freeMats (mach2 ac ar [1]) = [0] ∧ freeLbdas (mach2 ac ar fixed) = [0] := by
  refine ⟨⟨rfl, rfl, rfl, rfl, by simp [layer2], Or.inl rfl, ?_, ?_, ?_, rfl, by simp [layer2], ?_, ?_, hp, rfl, ?_, ?_⟩,
    ⟨⟨1, ?_⟩, rfl, _, rfl⟩, rfl, rfl, rfl⟩
  · intro j i h
    match j with
    | 0 => simp only [layer2, List.getElem?_cons_zero, Option.some.injEq] at h; exact h.symm
    | 1 => simp only [layer2, List.getElem?_cons_succ, List.getElem?_cons_zero, Option.some.injEq] at h; exact h.symm
    | j + 2 => simp [layer2] at h
  · intro i hi
    simp only [layer2, List.mem_cons, List.not_mem_nil, or_false] at hi
    rcases hi with rfl | rfl <;> rfl
  · intro i hi
    simp only [layer2, List.mem_cons, List.not_mem_nil, or_false] at hi
    rcases hi with rfl | rfl <;> rfl
  · intro i hi
    simp only [mach2, List.mem_singleton] at hi
    simp [mach2, hi]
  · simp [wiring2]
  · intro j i _ s hs; cases hs
  · intro g hg; cases hg
  · intro j f hf
    match j with
    | 0 =>
      simp only [layer2, List.map_cons, List.getElem?_cons_zero, Option.some.injEq] at hf
      subst hf
      exact ⟨rfl, fun idx _ => Or.inl rfl⟩
    | 1 =>
      simp only [layer2, List.map_cons, List.getElem?_cons_succ, List.getElem?_cons_zero, Option.some.injEq] at hf
      subst hf
      exact ⟨rfl, fun idx _ => Or.inr rfl⟩
    | j + 2 => simp [layer2] at hf

/-- the machine may be annealed: the same hypotheses hold with annealing on -/
theorem C47_anneal_met (ac ar : Bool) (fixed : List Nat) (rnd : Nat → Nat → Rnd) (perm : Nat → List Nat → List Nat)
    (hp : ∀ t l, ∀ i ∈ perm t l, i ∈ l) :
    SingleLayer (wiring2 ac ar rnd perm) { mach2 ac ar fixed with anneal := true } .XOR_NAND (layer2 ac ar) 2 [3, 2] ∧
    CanAnneal { mach2 ac ar fixed with anneal := true } 0 := by
  obtain ⟨h, -⟩ := C47_hypotheses_met ac ar fixed rnd perm hp
  exact ⟨⟨h.1, h.2, h.3, h.4, h.5, h.6, h.7, h.8, h.9, h.10, h.11, h.12, h.13, h.14, h.15, h.16, h.17⟩,
    .inr ⟨rfl, 1 / 2, by norm_num, rfl⟩⟩

/-! ## C43 -/

/-- **C43** (partial, all machines): matrices and lambdas that are fixed are unchanged after inference, if update functions
write only what they are called for, and layers with automatic clean-up have no fixed factor. What is missing: layers
with automatic clean-up and fixed factors, see `C43_wrong`. -/
theorem C43_fixed_partial {F G : Type} (env : Env F G) (S cw bmin : Nat) (eps : ℝ) (bmax : Int) (ps fx : Nat)
    (m m' : Mach F G) (hp : ∀ t, ∀ i ∈ env.perm t (freeMats m), i ∈ freeMats m)
    (hm : ∀ f i t w w', env.runMat f i t w = .ok w' → (∀ j, j ≠ i → w'.mat j = w.mat j) ∧ w'.lbda = w.lbda)
    (hl : ∀ g k t w w', env.runLbda g k t w = .ok w' → w'.mat = w.mat ∧ ∀ k', k' ≠ k → w'.lbda k' = w.lbda k')
    (hauto : ∀ lr ∈ m.layers, lr.auto_clean = true ∨ lr.auto_reset = true → ∀ i ∈ lr.factors, m.fixed i = false)
    (h : infer env S cw eps bmin bmax ps fx m = .ok m') :
    (∀ i, m.fixed i = true → m'.world.mat i = m.world.mat i) ∧
    ∀ k, m.lfixed k = true → m'.world.lbda k = m.world.lbda k := by
  suffices T : WSteps env (freeMats m) (freeLbdas m) m.layers (fun w w' =>
      (∀ i, m.fixed i = true → w'.mat i = w.mat i) ∧ ∀ k, m.lfixed k = true → w'.lbda k = w.lbda k) from
    (T.infer_rel h).2
  refine ⟨fun w => ⟨fun _ _ => rfl, fun _ _ => rfl⟩, fun h1 h2 =>
      ⟨fun i hi => (h2.1 i hi).trans (h1.1 i hi), fun k hk => (h2.2 k hk).trans (h1.2 k hk)⟩, hp, ?_, ?_, ?_, ?_⟩
  · intro f i t w w' hi hr
    obtain ⟨e1, e2⟩ := hm f i t w w' hr
    refine ⟨fun j hj => e1 j ?_, fun k _ => by rw [e2]⟩
    rintro rfl
    simp [freeMats, hj] at hi
  · intro g k t w w' hk hr
    obtain ⟨e1, e2⟩ := hl g k t w w' hr
    refine ⟨fun j _ => by rw [e1], fun k' hk' => e2 k' ?_⟩
    rintro rfl
    simp [freeLbdas, hk'] at hk
  · intro k x w hk
    refine ⟨fun _ _ => rfl, fun k' hk' => ?_⟩
    have : k' ≠ k := by
      rintro rfl
      simp [freeLbdas, hk'] at hk
    simp [upd, this]
  · intro lr hlr reset clean w fs b ha hr
    refine ⟨fun i hi => ?_, fun k _ => by rw [writeFactors_lbda]⟩
    have hn : i ∉ lr.factors := by
      intro hc
      rw [hauto lr hlr ha i hc] at hi
      cases hi
    clear hr
    have : ∀ (is : List Nat) (w : World) (fs : List Fac), i ∉ is → (writeFactors w is fs).mat i = w.mat i := by
      intro is
      induction is with
      | nil => intro w fs _; rfl
      | cons k is ih =>
        intro w fs hi
        cases fs with
        | nil => rfl
        | cons f fs =>
          simp only [List.mem_cons, not_or] at hi
          rw [writeFactors, ih _ _ hi.2]
          simp [upd, hi.1]
    exact this _ _ _ hn

/-- the hypotheses of `C43_fixed_partial` about update functions hold for the generic models -/
theorem C43_hypotheses_met (wr : Wiring) (hs : ∀ s i t w, wr.special s i t w = .ok w) :
    (∀ f i t w w', (genericEnv wr).runMat f i t w = .ok w' → (∀ j, j ≠ i → w'.mat j = w.mat j) ∧ w'.lbda = w.lbda) ∧
    ∀ g k t w w', (genericEnv wr).runLbda g k t w = .ok w' → w'.mat = w.mat ∧ ∀ k', k' ≠ k → w'.lbda k' = w.lbda k' := by
  constructor
  · intro f i t w w' h
    simp only [genericEnv, runSampler] at h
    split at h
    · rw [bind_ok] at h
      obtain ⟨v, -, h⟩ := h
      rw [← pure_ok.mp h]
      exact ⟨fun j hj => by simp [World.setVal, upd, hj], rfl⟩
    · rw [hs] at h
      cases h
      exact ⟨fun _ _ => rfl, rfl⟩
  · intro g k t w w' h
    simp only [genericEnv, runUpdate] at h
    split at h
    · cases h
    · rw [bind_ok] at h
      obtain ⟨v, -, h⟩ := h
      rw [← pure_ok.mp h]
      exact ⟨rfl, fun k' hk' => by simp [upd, hk']⟩

/-- **C43** is wrong: with `auto_reset` (or `auto_clean`) clean-up removes latent dimensions from fixed factors, too. Here
factor 1 is fixed and has a single latent dimension, of which nothing is left. -/
theorem C43_wrong (rnd : Nat → Nat → Rnd) (perm : Nat → List Nat → List Nat) (hp : ∀ t l, ∀ i ∈ perm t l, i ∈ l) :
    (mach2 false true [1]).fixed 1 = true ∧ (world2.mat 1).val.shape = [2, 1] ∧
    ∃ m', infer (genericEnv (wiring2 false true rnd perm)) 0 15 0.001 0 0 10 0 (mach2 false true [1]) = .ok m' ∧
      (m'.world.mat 1).val.shape = [2, 0] := by
  refine ⟨rfl, rfl, ?_⟩
  obtain ⟨H, -, -, hf, hl⟩ := C47_hypotheses_met false true [1] rnd perm hp
  obtain ⟨m1, a1, a2, a3, a4, -, a6⟩ := H.assigns (freeMats (mach2 false true [1])) (mach2 false true [1])
    (fun i hi => H.mem_free hi) rfl rfl (by intro i hi s hs; cases hs)
  obtain ⟨m2, b1, b2, b3⟩ := H.lassigns (m' := m1) a3 (by rw [a4]; exact H.lcached)
  have k1 := fold_keeps (fun a i b => assignFct_keeps) a1
  have k2 := fold_keeps (fun a i b => assignLfct_keeps) b1
  have hw : m2.world = world2 := by rw [k2.2, k1.2]; rfl
  have hly : m2.layers = [layer2 false true] := by rw [(k1.1.trans k2.1).layers]; rfl
  have hlo : m2.layerOf = fun i => if i < 2 then some 0 else none := by rw [(k1.1.trans k2.1).layerOf]; rfl
  have hclean : clean_up_codes ((layer2 false true).factors.map world2.mat) false true =
      .ok (remove_dimension 0 ((layer2 false true).factors.map world2.mat), true) := by
    have h1 : cleanInactive (some .remove) 0 ((layer2 false true).factors.map world2.mat) false =
        .ok (remove_dimension 0 ((layer2 false true).factors.map world2.mat), true) := by
      rw [cleanInactive_hit (fs' := remove_dimension 0 ((layer2 false true).factors.map world2.mat)) (by decide) (by decide) rfl]
      exact cleanInactive_end (by decide)
    rw [clean_up_codes]
    show (cleanInactive (some .remove) 0 _ false >>= _) = _
    rw [h1]
    exact cleanDup_end (by decide)
  obtain ⟨m3, hm3⟩ : ∃ m3 : Mach Sampler LbdaUpdate, m3 =
    { resetIndexL [0] { allocLbdas ((genericEnv (wiring2 false true rnd perm)).junk 0) 15 [0] (resetIndices [0] [0] m2) with
        world := writeFactors world2 [0, 1] (remove_dimension 0 ((layer2 false true).factors.map world2.mat)) } with
      burn_in_iters := some 1 } := ⟨_, rfl⟩
  have hburn : burn_in (genericEnv (wiring2 false true rnd perm)) [0] [0] 0.001 15 0 0 10 0 (resetIndices [0] [0] m2) =
      .ok m3 := by
    rw [burn_in, preLoop]
    show mainLoop _ _ _ _ _ _ _ _ _ _ = _
    rw [mainLoop_eq (by decide) (by decide), windowTurn, if_neg (by decide)]
    simp only [bind, Except.bind, Bool.false_eq_true, if_false]
    rw [if_pos (by decide), stopStep]
    have hly' : (allocLbdas ((genericEnv (wiring2 false true rnd perm)).junk 0) 15 [0] (resetIndices [0] [0] m2)).layers =
      [layer2 false true] := hly
    rw [hly', finalClean, if_pos (show (layer2 false true).auto_reset = true from rfl)]
    have hcl : cleanLayer false true (allocLbdas ((genericEnv (wiring2 false true rnd perm)).junk 0) 15 [0]
        (resetIndices [0] [0] m2)) (layer2 false true) = .ok ({ allocLbdas ((genericEnv (wiring2 false true rnd perm)).junk 0)
        15 [0] (resetIndices [0] [0] m2) with
        world := writeFactors world2 [0, 1] (remove_dimension 0 ((layer2 false true).factors.map world2.mat)) }, true) := by
      rw [cleanLayer]
      have hw' : (allocLbdas ((genericEnv (wiring2 false true rnd perm)).junk 0) 15 [0] (resetIndices [0] [0] m2)).world =
        world2 := hw
      rw [hw', hclean]
      rfl
    rw [hcl, hm3]
    rfl
  obtain ⟨m4, h4⟩ := allocMats_total (env := genericEnv (wiring2 false true rnd perm)) (S := 0) [0] (m := m3) (by
    intro i hi
    simp only [List.mem_singleton] at hi
    subst hi
    rw [hm3, modelOf]
    show ((m2.layerOf 0).bind fun k => m2.layers[k]?.map LayerInfo.model) ≠ none
    rw [hlo, hly]
    simp)
  have k4 := fold_keeps (fun a i b => allocMat_keeps) h4
  refine ⟨allocLbdasS (genericEnv (wiring2 false true rnd perm)).junkSampling 0 [0] m4, ?_, ?_⟩
  · rw [infer]
    simp only
    rw [a1]
    show ((freeLbdas _).foldlM (assignLfct _) m1 >>= _) = _
    rw [b1, hf, hl]
    show (burn_in _ [0] [0] _ _ _ _ _ _ (resetIndices [0] [0] m2) >>= _) = _
    rw [hburn]
    show ([0].foldlM (allocMat _ 0) m3 >>= _) = _
    rw [h4]
    rfl
  · show (m4.world.mat 1).val.shape = _
    rw [k4.2, hm3]
    rfl

end LFM
