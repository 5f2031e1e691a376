import Verif.Model.Assemble
import Verif.Lemmas.Wiring
import Verif.Props.Infer
import Verif.Props.Prior
import Verif.Props.Parents

/-!
# Lemmas: machines that are put together by calls of the API
-/

namespace LFM

open Spec

/-- sampling functions that may be assigned to factor number `j` of a layer with `K` factors when up to `n` layers have been
built on top of it -/
def FamilySampler (lom : Lom8) (K j n : Nat) (s : Sampler) : Prop :=
  ∃ (fs : List Member) (prior : ℝ) (ps : List Lom8), fs.length = K ∧ ps.length ≤ n ∧ (K = 2 ∨ K = 3 ∧ ps = []) ∧
    get_sampling_fct none (some lom.name) fs j j prior (ps.map fun p => (p.name, 2)) = .ok s

theorem FamilySampler.mono {lom : Lom8} {K j n n' : Nat} {s : Sampler} (h : FamilySampler lom K j n s) (hn : n ≤ n') :
    FamilySampler lom K j n' s := by
  obtain ⟨fs, prior, ps, h1, h2, h3, h4⟩ := h
  exact ⟨fs, prior, ps, h1, h2.trans hn, h3, h4⟩

theorem FamilySampler.arity {lom : Lom8} {K j n : Nat} {s : Sampler} (h : FamilySampler lom K j n s) : K = 2 ∨ K = 3 := by
  obtain ⟨fs, prior, ps, h1, h2, h3, h4⟩ := h
  exact h3.imp_right And.left

/-- with any number of parent layers of two factors, a sampling function can be assigned to a factor of a two-factor layer -/
theorem family_assign2 (lom : Lom8) (ps : List Lom8) (fs : List Member) (hf : fs.length = 2) (ax k : Nat) (q : ℝ) :
    ∃ s, get_sampling_fct none (some lom.name) fs ax k q (ps.map fun p => (p.name, 2)) = .ok s ∧
      s ≠ .none ∧ (∀ o, s ≠ .qL_Z o) ∧ (∀ o, s ≠ .qL_U o) ∧
      ((∃ f o lp, s = .lom (.two f) o lp) ∨ (∃ f o lp, s = .onechild_oneparent f o lp ∧ 1 ≤ ps.length) ∨
        ∃ f o lp, s = .onechild_twoparents f o lp ∧ 2 ≤ ps.length) := by
  obtain ⟨f, hf', -⟩ := C14_score_2d_partial lom
  match ps with
  | [] =>
    rw [List.map_nil, dispatch_onechild (by rw [hf]; exact relatives2 lom) (generic_code2 lom), make_onechild2 lom hf']
    exact ⟨_, rfl, by simp, by simp, by simp, .inl ⟨_, _, _, rfl⟩⟩
  | [p] =>
    obtain ⟨g, hg, -⟩ := parent_fct p
    rw [List.map_cons, List.map_nil, dispatch_onechild_oneparent (by rw [hf]; exact relatives2_1 lom p) (generic_code2 lom),
      make_onechild_oneparent2 lom _ hf' hg]
    exact ⟨_, rfl, by simp, by simp, by simp, .inr (.inl ⟨_, _, _, rfl, by simp⟩)⟩
  | p :: p' :: rest =>
    obtain ⟨g, hg, -⟩ := parent_fct p
    obtain ⟨g', hg', -⟩ := parent_fct p'
    rw [List.map_cons, List.map_cons, C24_extra_parents_ignored,
      dispatch_onechild_twoparents (by rw [hf]; exact relatives2_2 lom p p') (generic_code2 lom),
      make_onechild_twoparents2 lom p p' hf' hg hg']
    exact ⟨_, rfl, by simp, by simp, by simp, .inr (.inr ⟨_, _, _, rfl, by simp⟩)⟩

/-- the same for three factors and no parents -/
theorem family_assign3 (lom : Lom8) (fs : List Member) (hf : fs.length = 3) (ax k : Nat) (q : ℝ) :
    ∃ f o lp, get_sampling_fct none (some lom.name) fs ax k q [] = .ok (.lom (.three f) o lp) := by
  obtain ⟨f, hf', -⟩ := C15_score_3d lom
  rw [dispatch_onechild (by rw [hf]; exact relatives3 lom) (generic_code3 lom), make_onechild3 lom hf']
  exact ⟨_, _, _, rfl⟩

theorem family_runs {lom : Lom8} {K j n : Nat} {s : Sampler} (h : FamilySampler lom K j n s) (mat : Member)
    (fs : List Member) (hf : fs.length = K) (k : Nat) (hk : k < K) (child : Arr Int) (lbda : ℝ) (pa : List ParentLayer)
    (hn : n ≤ pa.length) (hpa : ∀ p ∈ pa, p.factors.length = 2) (rnd : Rnd) :
    ∃ R, s.run mat fs k child lbda pa rnd = .ok R := by
  obtain ⟨ms, prior, ps, hms, hps, hK, hs⟩ := h
  have hlen : ((siblings fs k).map Member.val).length = K - 1 := by
    simp [siblings, List.length_eraseIdx, hf, hk]
  rcases hK with rfl | ⟨rfl, rfl⟩
  · obtain ⟨a, ha⟩ := List.length_eq_one_iff.mp hlen
    obtain ⟨s', e1, -, -, -, e2⟩ := family_assign2 lom ps ms hms j j prior
    rw [hs] at e1
    cases e1
    rcases e2 with ⟨f, o, lp, rfl⟩ | ⟨f, o, lp, rfl, h1⟩ | ⟨f, o, lp, rfl, h2⟩
    · simp only [Sampler.run, ha]
      exact ⟨_, rfl⟩
    · match pa, hn, hpa with
      | [], hn, _ => simp at hn; omega
      | p :: rest, _, hpa =>
        obtain ⟨b, c, hbc⟩ := List.length_eq_two.mp (hpa p (by simp))
        simp only [Sampler.run, ha, hbc]
        exact ⟨_, rfl⟩
    · match pa, hn, hpa with
      | [], hn, _ => simp at hn; omega
      | [_], hn, _ => simp at hn; omega
      | p :: p' :: rest, _, hpa =>
        obtain ⟨b, c, hbc⟩ := List.length_eq_two.mp (hpa p (by simp))
        obtain ⟨d, e, hde⟩ := List.length_eq_two.mp (hpa p' (by simp))
        simp only [Sampler.run, ha, hbc, hde]
        exact ⟨_, rfl⟩
  · obtain ⟨a, b, hab⟩ := List.length_eq_two.mp hlen
    obtain ⟨f, o, lp, e1⟩ := family_assign3 lom ms hms j j prior
    rw [List.map_nil, e1] at hs
    cases hs
    simp only [Sampler.run, hab]
    exact ⟨_, rfl⟩

/-- values that fit together: factors are binary, as long as the axes of the child, and have one number of latent
dimensions per layer; lambdas are numbers -/
structure FitWorld (layers : List LayerInfo) (child : Nat → Nat) (w : World) : Prop where
  dims : ∀ (k : Nat) (lr : LayerInfo), layers[k]? = some lr → (w.mat (child k)).val.shape.length = lr.factors.length
  facs : ∀ (k : Nat) (lr : LayerInfo), layers[k]? = some lr → ∃ L, LegalFacs (w.mat (child k)).val.shape L (lr.factors.map w.mat)
  lbda : ∀ k < layers.length, ∃ y, w.lbda k = .scalar (.fin y)

/-- invariant of machines that are built by calls of the API -/
structure Workshop.Sound (s : Workshop) : Prop where
  model : ∀ (k : Nat) (lr : LayerInfo), s.m.layers[k]? = some lr → ∃ lom : Lom8, lr.model = lom.name
  nodup : ∀ (k : Nat) (lr : LayerInfo), s.m.layers[k]? = some lr → lr.factors.Nodup
  factors : ∀ (k : Nat) (lr : LayerInfo), s.m.layers[k]? = some lr → lr.factors ≠ [] ∧ lr.q = none
  axis : ∀ (k : Nat) (lr : LayerInfo) (j i : Nat), s.m.layers[k]? = some lr → lr.factors[j]? = some i → s.childAxis i = j
  layerOf : ∀ (k : Nat) (lr : LayerInfo) (i : Nat), s.m.layers[k]? = some lr → i ∈ lr.factors → s.m.layerOf i = some k
  owner : ∀ i k, s.m.layerOf i = some k → i < s.next ∧ ∃ lr : LayerInfo, s.m.layers[k]? = some lr ∧ i ∈ lr.factors
  matrices : ∀ i ∈ s.m.matrices, i < s.next ∧ s.m.layerOf i = none
  matNodup : s.m.matrices.Nodup
  parents : ∀ i p, p ∈ s.parents i ↔ p < s.m.layers.length ∧ s.child p = i
  childLt : ∀ k < s.m.layers.length, s.child k < s.next
  beta : ∀ k < s.m.layers.length, 0 < (s.beta_prior k).1 ∧ 0 < (s.beta_prior k).2
  world : FitWorld s.m.layers s.child s.m.world
  fct : ∀ i f, s.m.fct i = some f → ∃ (k : Nat) (lr : LayerInfo) (lom : Lom8), s.m.layerOf i = some k ∧ s.m.layers[k]? = some lr ∧
    lr.model = lom.name ∧ FamilySampler lom lr.factors.length (lr.factors.idxOf i) (s.parents i).length f
  lfct : ∀ (k : Nat) (lr : LayerInfo) (g : LbdaUpdate), s.m.layers[k]? = some lr → s.m.lfct k = some g → (lr.factors.length = 2 ∨ lr.factors.length = 3) ∧
    get_update_fct none lr.model lr.factors.length = .ok g

namespace Workshop.Sound

variable {s : Workshop}

theorem disjoint (H : s.Sound) {k k' : Nat} {lr lr' : LayerInfo} (hk : s.m.layers[k]? = some lr)
    (hk' : s.m.layers[k']? = some lr') {i : Nat} (hi : i ∈ lr.factors) (hi' : i ∈ lr'.factors) : k = k' := by
  have h1 := H.layerOf k lr i hk hi
  rw [H.layerOf k' lr' i hk' hi'] at h1
  exact (Option.some.inj h1).symm

theorem position (_ : s.Sound) {lr : LayerInfo} {i : Nat} (hi : i ∈ lr.factors) :
    lr.factors[lr.factors.idxOf i]? = some i ∧ lr.factors.idxOf i < lr.factors.length := by
  have h1 : lr.factors.idxOf i < lr.factors.length := List.idxOf_lt_length_iff.mpr hi
  exact ⟨by rw [List.getElem?_eq_getElem h1, List.getElem_idxOf], h1⟩

/-- the layers on top of a factor have two factors -/
theorem parent_two (H : s.Sound) {w : World} (hw : FitWorld s.m.layers s.child w) {k : Nat} {lr : LayerInfo}
    (hk : s.m.layers[k]? = some lr) {i : Nat} (hi : i ∈ lr.factors) {p : Nat} (hp : p ∈ s.parents i) :
    ∃ lr' : LayerInfo, s.m.layers[p]? = some lr' ∧ lr'.factors.length = 2 := by
  obtain ⟨h1, h2⟩ := (H.parents i p).mp hp
  refine ⟨s.m.layers[p], List.getElem?_eq_getElem h1, ?_⟩
  rw [← hw.dims p _ (List.getElem?_eq_getElem h1), h2]
  obtain ⟨L, hL⟩ := hw.facs k lr hk
  rw [(hL _ (w.mat i) (by rw [List.getElem?_map, (H.position hi).1]; rfl)).1]
  rfl

theorem parents_view (H : s.Sound) (dr : Draws) {w : World} (hw : FitWorld s.m.layers s.child w) {k : Nat} {lr : LayerInfo}
    (hk : s.m.layers[k]? = some lr) {i : Nat} (hi : i ∈ lr.factors) :
    ∃ pars, (s.parents i).mapM (parentAt (s.wiring dr) w) = some pars ∧ pars.length = (s.parents i).length ∧
      ∀ p ∈ pars, p.factors.length = 2 := by
  have key : ∀ l : List Nat, (∀ p ∈ l, p ∈ s.parents i) → ∃ pars, l.mapM (parentAt (s.wiring dr) w) = some pars ∧
      pars.length = l.length ∧ ∀ p ∈ pars, p.factors.length = 2 := by
    intro l
    induction l with
    | nil => intro _; exact ⟨[], rfl, rfl, by simp⟩
    | cons p l ih =>
      intro h
      obtain ⟨pars, e1, e2, e3⟩ := ih fun q hq => h q (by simp [hq])
      obtain ⟨lr', h1, h2⟩ := H.parent_two hw hk hi (h p (by simp))
      obtain ⟨y, hy⟩ := hw.lbda p ((H.parents i p).mp (h p (by simp))).1
      refine ⟨⟨lr'.model, lr'.factors.map fun j => (w.mat j).val, y⟩ :: pars, ?_, by simp [e2], ?_⟩
      · have : parentAt (s.wiring dr) w p = some ⟨lr'.model, lr'.factors.map fun j => (w.mat j).val, y⟩ := by
          show (s.m.layers[p]? >>= fun lr => (w.lbda p).float? >>= fun x => _) = _
          rw [h1, hy]
          rfl
        rw [List.mapM_cons, this, e1]
        rfl
      · intro q hq
        rcases List.mem_cons.mp hq with rfl | hq
        · simpa using h2
        · exact e3 q hq
  exact key _ fun p hp => hp

/-- a factor is sampled without error, keeps its shape, stays binary, keeps its fixed entries; nothing else changes -/
theorem runs_mat (H : s.Sound) (dr : Draws) {k : Nat} {lr : LayerInfo} (hk : s.m.layers[k]? = some lr) {i : Nat}
    (hi : i ∈ lr.factors) {lom : Lom8} {f : Sampler}
    (hf : FamilySampler lom lr.factors.length (lr.factors.idxOf i) (s.parents i).length f) (t : Nat) {w : World}
    (hw : FitWorld s.m.layers s.child w) :
    ∃ R, runSampler (s.wiring dr) f i t w = .ok (w.setVal i R) ∧ R.shape = (w.mat i).val.shape ∧
      (PMArr (w.mat i).val → PMArr R) ∧ ∀ idx, (w.mat i).fixed_entries idx = 1 → R idx = (w.mat i).val idx := by
  have hlt : k < s.m.layers.length := (List.getElem?_eq_some_iff.mp hk).1
  obtain ⟨y, hy⟩ := hw.lbda k hlt
  have hv : layerView (s.wiring dr) w i = some (lr.factors.map (memberAt (s.wiring dr) w), lr.factors.idxOf i,
      (w.mat (s.child k)).val, y) := by
    rw [layerView]
    have h1 : (s.wiring dr).layerOf i = some k := H.layerOf k lr i hk hi
    simp only [h1]
    show (s.m.layers[k]? >>= fun lr => (w.lbda k).float? >>= fun x => _) = _
    rw [hk, hy]
    rfl
  obtain ⟨pars, p1, p2, p3⟩ := H.parents_view dr hw hk hi
  obtain ⟨R, hR⟩ := family_runs hf (memberAt (s.wiring dr) w i) (lr.factors.map (memberAt (s.wiring dr) w)) (by simp)
    (lr.factors.idxOf i) (H.position hi).2 (w.mat (s.child k)).val y pars (le_of_eq p2.symm) p3 (dr.rnd t i)
  obtain ⟨ms, prior, ps, -, -, -, hget⟩ := hf
  obtain ⟨h1, h2, h3⟩ := C20_sampling_keeps hget _ _ _ _ _ _ _ _ hR
  refine ⟨R, ?_, h1, h3, h2⟩
  have hp : ((s.wiring dr).parents i).mapM (parentAt (s.wiring dr) w) = some pars := p1
  rw [runSampler, hv, hp]
  show (f.run _ _ _ _ _ _ _ >>= _) = _
  have : (s.wiring dr).rnd t i = dr.rnd t i := rfl
  rw [this, hR]
  rfl

theorem fit_setVal (_ : s.Sound) {w : World} (hw : FitWorld s.m.layers s.child w) {i : Nat} {R : Arr Int}
    (hs : R.shape = (w.mat i).val.shape) (hp : s.m.layerOf i ≠ none → PMArr (w.mat i).val → PMArr R)
    (hl : ∀ (k : Nat) (lr : LayerInfo), s.m.layers[k]? = some lr → i ∈ lr.factors → s.m.layerOf i ≠ none) :
    FitWorld s.m.layers s.child (w.setVal i R) := by
  have hshape : ∀ j, ((w.setVal i R).mat j).val.shape = (w.mat j).val.shape := by
    intro j
    by_cases hj : j = i
    · subst hj; simpa [World.setVal, upd] using hs
    · simp [World.setVal, upd, hj]
  refine ⟨fun k lr hk => by rw [hshape]; exact hw.dims k lr hk, fun k lr hk => ?_, hw.lbda⟩
  obtain ⟨L, hL⟩ := hw.facs k lr hk
  refine ⟨L, ?_⟩
  rw [hshape]
  intro j f hf
  simp only [List.getElem?_map, Option.map_eq_some_iff] at hf
  obtain ⟨i', hi', rfl⟩ := hf
  obtain ⟨h1, h2⟩ := hL j (w.mat i') (by rw [List.getElem?_map, hi']; rfl)
  rw [hshape]
  refine ⟨h1, ?_⟩
  by_cases hii : i' = i
  · subst hii
    simp only [World.setVal, upd, if_true]
    exact hp (hl k lr hk (List.mem_of_getElem? hi')) h2
  · simpa only [World.setVal, upd, hii, if_false] using h2

/-- the update of lambda succeeds with a finite non-negative value -/
theorem runs_lbda (H : s.Sound) (dr : Draws) {k : Nat} {lr : LayerInfo} (hk : s.m.layers[k]? = some lr) {g : LbdaUpdate}
    (hK : lr.factors.length = 2 ∨ lr.factors.length = 3)
    (hg : get_update_fct none lr.model lr.factors.length = .ok g) (t : Nat) {w : World}
    (hw : FitWorld s.m.layers s.child w) :
    ∃ y, 0 ≤ y ∧ runUpdate (s.wiring dr) g k t w = .ok { w with lbda := upd w.lbda k (.scalar (.fin y)) } := by
  obtain ⟨L, hL⟩ := hw.facs k lr hk
  obtain ⟨lom, hlom⟩ := H.model k lr hk
  have hlt : k < s.m.layers.length := (List.getElem?_eq_some_iff.mp hk).1
  have hbeta := H.beta k hlt
  have hl : (s.wiring dr).layers[k]? = some lr := hk
  have hdim := hw.dims k lr hk
  obtain ⟨X, hX⟩ : ∃ X, X = (w.mat (s.child k)).val := ⟨_, rfl⟩
  rw [← hX] at hL hdim
  suffices hrun : ∀ q, ∃ y, 0 ≤ y ∧ g.run (lr.factors.map fun i => (w.mat i).val) X q (s.beta_prior k) = .ok (.fin y) by
    have key : ∀ q, ∃ y, 0 ≤ y ∧ ((do
        let x ← g.run (lr.factors.map fun i => (w.mat i).val) (w.mat ((s.wiring dr).child k)).val q
          ((s.wiring dr).beta_prior k)
        pure { w with lbda := upd w.lbda k (.scalar x) }) : Except Err World) =
        .ok { w with lbda := upd w.lbda k (.scalar (.fin y)) } := by
      intro q
      obtain ⟨y, hy, hr⟩ := hrun q
      refine ⟨y, hy, ?_⟩
      have : g.run (lr.factors.map fun i => (w.mat i).val) (w.mat ((s.wiring dr).child k)).val q
          ((s.wiring dr).beta_prior k) = .ok (.fin y) := by rw [hX] at hr; exact hr
      rw [this]
      rfl
    rw [runUpdate, hl]
    exact key _
  intro q
  rcases hK with hK | hK
  · obtain ⟨a, b, hab⟩ := List.length_eq_two.mp hK
    obtain ⟨f, hf, hspec⟩ := C27_lambda_smoothed_accuracy_2d lom
    rw [hlom, hK, hf] at hg
    simp only [Except.ok.injEq] at hg
    subst hg
    obtain ⟨N, D, hND⟩ := List.length_eq_two.mp (hdim.trans hK)
    rw [hab, hND] at hL
    rw [hab]
    obtain ⟨a1, a2⟩ := hL 0 (w.mat a) rfl
    obtain ⟨b1, b2⟩ := hL 1 (w.mat b) rfl
    obtain ⟨-, y, h1, h2, -⟩ := hspec N D L (w.mat a).val (w.mat b).val X q (s.beta_prior k).1 (s.beta_prior k).2 a1 b1
      hND a2 b2 hbeta.1 hbeta.2
    exact ⟨y, h2, h1⟩
  · obtain ⟨a, b, c, hab⟩ := List.length_eq_three.mp hK
    obtain ⟨f, hf, hspec⟩ := C27_lambda_smoothed_accuracy_3d lom
    rw [hlom, hK, hf] at hg
    simp only [Except.ok.injEq] at hg
    subst hg
    obtain ⟨N, D, M, hND⟩ := List.length_eq_three.mp (hdim.trans hK)
    rw [hab, hND] at hL
    rw [hab]
    obtain ⟨a1, a2⟩ := hL 0 (w.mat a) rfl
    obtain ⟨b1, b2⟩ := hL 1 (w.mat b) rfl
    obtain ⟨c1, c2⟩ := hL 2 (w.mat c) rfl
    obtain ⟨-, y, h1, h2, -⟩ := hspec N D M L (w.mat a).val (w.mat b).val (w.mat c).val X q (s.beta_prior k).1
      (s.beta_prior k).2 a1 b1 c1 hND a2 b2 c2 hbeta.1 hbeta.2
    exact ⟨y, h2, h1⟩

/-- the sampling function of matrix `i` may be `f` -/
def GoodFct (s : Workshop) (i : Nat) (f : Sampler) : Prop :=
  ∃ (k : Nat) (lr : LayerInfo) (lom : Lom8), s.m.layerOf i = some k ∧ s.m.layers[k]? = some lr ∧
    lr.model = lom.name ∧ FamilySampler lom lr.factors.length (lr.factors.idxOf i) (s.parents i).length f

/-- `get_sampling_fct` in terms of the layers on top of a factor -/
theorem getSampler_eq (H : s.Sound) (dr : Draws) {m' : Mach Sampler LbdaUpdate} (hl : m'.layers = s.m.layers)
    (ho : m'.layerOf = s.m.layerOf) {k : Nat} {lr : LayerInfo} (hk : s.m.layers[k]? = some lr) {i : Nat}
    (hi : i ∈ lr.factors) {lom : Lom8} (hlom : lr.model = lom.name) :
    ∃ (ms : List Member) (ps : List Lom8), ms.length = lr.factors.length ∧ ps.length = (s.parents i).length ∧
      getSampler (s.wiring dr) m' i = (do
        let f ← get_sampling_fct none (some lom.name) ms (lr.factors.idxOf i) (lr.factors.idxOf i) (m'.bernoulli_prior i)
          (ps.map fun p => (p.name, 2))
        match f with
        | .none => pure (none, none)
        | .qL_Z _ | .qL_U _ => pure (some f, lr.q.map fun q => (q, .qL_q))
        | f => pure (some f, none)) := by
  have hlr : (m'.layerOf i).bind (fun k => m'.layers[k]?) = some lr := by
    rw [ho, hl, H.layerOf k lr i hk hi]; exact hk
  have hax : s.childAxis i = lr.factors.idxOf i := H.axis k lr _ i hk (H.position hi).1
  have hps : ∃ ps : List Lom8, ps.length = (s.parents i).length ∧
      ((s.parents i).filterMap fun p => m'.layers[p]?.map fun lr => (lr.model, lr.factors.length)) =
        ps.map fun p => (p.name, 2) := by
    have key : ∀ l : List Nat, (∀ p ∈ l, p ∈ s.parents i) → ∃ ps : List Lom8, ps.length = l.length ∧
        (l.filterMap fun p => m'.layers[p]?.map fun lr => (lr.model, lr.factors.length)) =
          ps.map fun p => (p.name, 2) := by
      intro l
      induction l with
      | nil => intro _; exact ⟨[], rfl, rfl⟩
      | cons p l ih =>
        intro h
        obtain ⟨ps, e1, e2⟩ := ih fun q hq => h q (by simp [hq])
        obtain ⟨lr', h1, h2⟩ := H.parent_two H.world hk hi (h p (by simp))
        obtain ⟨lom', h3⟩ := H.model p lr' h1
        refine ⟨lom' :: ps, by simp [e1], ?_⟩
        rw [List.filterMap_cons, hl, h1]
        rw [hl] at e2
        simp [e2, h2, h3]
    exact key _ fun p hp => hp
  obtain ⟨ps, hps1, hps2⟩ := hps
  refine ⟨lr.factors.map fun j => (⟨(m'.world.mat j).val, (m'.world.mat j).fixed_entries, s.childAxis j,
    m'.bernoulli_prior j⟩ : Member), ps, by simp, hps1, ?_⟩
  have h1 : (s.wiring dr).childAxis = s.childAxis := rfl
  have h2 : (s.wiring dr).parents i = s.parents i := rfl
  rw [getSampler]
  simp only [hlr, Option.map_some, h1, h2, hps2, hlom, hax]
  rfl

/-- assignment of the sampling functions -/
theorem getSampler_ok (H : s.Sound) (dr : Draws) {m' : Mach Sampler LbdaUpdate} (hl : m'.layers = s.m.layers)
    (ho : m'.layerOf = s.m.layerOf) {k : Nat} {lr : LayerInfo} (hk : s.m.layers[k]? = some lr) {i : Nat}
    (hi : i ∈ lr.factors) (hK : lr.factors.length = 2 ∨ lr.factors.length = 3 ∧ s.parents i = []) :
    ∃ f, getSampler (s.wiring dr) m' i = .ok (some f, none) ∧ GoodFct s i f := by
  obtain ⟨lom, hlom⟩ := H.model k lr hk
  obtain ⟨ms, ps, h1, h2, h3⟩ := H.getSampler_eq dr hl ho hk hi hlom
  have hg : ∀ f, get_sampling_fct none (some lom.name) ms (lr.factors.idxOf i) (lr.factors.idxOf i) (m'.bernoulli_prior i)
      (ps.map fun p => (p.name, 2)) = .ok f → GoodFct s i f := fun f hf =>
    ⟨k, lr, lom, H.layerOf k lr i hk hi, hk, hlom, ms, m'.bernoulli_prior i, ps, h1, h2.le, hK.imp_right fun h =>
      ⟨h.1, by rw [h.2] at h2; exact List.length_eq_zero_iff.mp h2⟩, hf⟩
  rcases hK with hK | ⟨hK, hp⟩
  · obtain ⟨f, e1, n1, n2, n3, -⟩ := family_assign2 lom ps ms (h1.trans hK) (lr.factors.idxOf i) (lr.factors.idxOf i)
      (m'.bernoulli_prior i)
    refine ⟨f, ?_, hg f e1⟩
    rw [h3, e1]
    cases f <;> first | rfl | exact absurd rfl n1 | exact absurd rfl (n2 _) | exact absurd rfl (n3 _)
  · obtain rfl : ps = [] := by rw [hp] at h2; exact List.length_eq_zero_iff.mp h2
    obtain ⟨f, o, lp, e1⟩ := family_assign3 lom ms (h1.trans hK) (lr.factors.idxOf i) (lr.factors.idxOf i)
      (m'.bernoulli_prior i)
    refine ⟨_, ?_, hg _ e1⟩
    rw [h3, List.map_nil, e1]
    rfl

/-- `infer` assigns functions to all matrices -/
theorem assigns (H : s.Sound) (dr : Draws) (ks : List Nat) : ∀ m' : Mach Sampler LbdaUpdate,
    (∀ i ∈ ks, m'.fct i = none → ∃ (k : Nat) (lr : LayerInfo), s.m.layers[k]? = some lr ∧ i ∈ lr.factors ∧
      (lr.factors.length = 2 ∨ lr.factors.length = 3 ∧ s.parents i = [])) →
    m'.layers = s.m.layers → m'.layerOf = s.m.layerOf → (∀ i f, m'.fct i = some f → GoodFct s i f) →
    ∃ m'', ks.foldlM (assignFct (genericEnv (s.wiring dr))) m' = .ok m'' ∧ (∀ i f, m''.fct i = some f → GoodFct s i f) ∧
      m''.layers = s.m.layers ∧ m''.lfct = m'.lfct ∧ (∀ i f, m'.fct i = some f → m''.fct i = some f) ∧
      ∀ i ∈ ks, m''.fct i ≠ none := by
  induction ks with
  | nil => intro m' _ hl _ hc; exact ⟨m', rfl, hc, hl, rfl, fun _ _ h => h, by simp⟩
  | cons k ks ih =>
    intro m' hks hl ho hc
    cases hf : m'.fct k with
    | some f =>
      obtain ⟨m'', e1, e2, e3, e4, e5, e6⟩ := ih m' (fun i hi => hks i (by simp [hi])) hl ho hc
      refine ⟨m'', ?_, e2, e3, e4, e5, ?_⟩
      · rw [List.foldlM_cons, assignFct, hf]; exact e1
      · intro i hi
        rcases List.mem_cons.mp hi with rfl | hi
        · rw [e5 _ _ hf]; simp
        · exact e6 i hi
    | none =>
      obtain ⟨k', lr, hk', hi', hK⟩ := hks k (by simp) hf
      obtain ⟨f, h1, h2⟩ := H.getSampler_ok dr hl ho hk' hi' hK
      obtain ⟨m1, hm1⟩ : ∃ m1 : Mach Sampler LbdaUpdate, m1 = { m' with fct := upd m'.fct k (some f) } := ⟨_, rfl⟩
      obtain ⟨m'', e1, e2, e3, e4, e5, e6⟩ := ih m1 (by
        intro i hi hn
        refine hks i (by simp [hi]) ?_
        rw [hm1] at hn
        simp only [upd] at hn
        split at hn
        · cases hn
        · exact hn) (by rw [hm1]; exact hl) (by rw [hm1]; exact ho) (by
        intro i f' hf'
        rw [hm1] at hf'
        simp only [upd] at hf'
        split at hf'
        · rename_i h
          simp only [Option.some.injEq] at hf'
          rw [← hf', h]; exact h2
        · exact hc i f' hf')
      refine ⟨m'', ?_, e2, e3, by rw [e4, hm1], fun i f' hi => e5 i f' ?_, ?_⟩
      · have : assignFct (genericEnv (s.wiring dr)) m' k = .ok m1 := by
          rw [assignFct, hf]
          show (getSampler (s.wiring dr) m' k >>= _) = _
          rw [h1, hm1]
          rfl
        rw [List.foldlM_cons, this]; exact e1
      · have : i ≠ k := by rintro rfl; rw [hi] at hf; cases hf
        rw [hm1]
        simpa [upd, this] using hi
      · intro i hi
        rcases List.mem_cons.mp hi with rfl | hi
        · rw [e5 _ f (by rw [hm1]; simp [upd])]; simp
        · exact e6 i hi

/-- the update function of parameter `k` may be `g` -/
def GoodLfct (s : Workshop) (k : Nat) (g : LbdaUpdate) : Prop :=
  ∀ lr : LayerInfo, s.m.layers[k]? = some lr → (lr.factors.length = 2 ∨ lr.factors.length = 3) ∧
    get_update_fct none lr.model lr.factors.length = .ok g

theorem update_exists (lom : Lom8) {K : Nat} (hK : K = 2 ∨ K = 3) : ∃ g, get_update_fct none lom.name K = .ok g := by
  rcases hK with rfl | rfl
  · obtain ⟨f, hf, -⟩ := C27_lambda_smoothed_accuracy_2d lom
    exact ⟨f, hf⟩
  · obtain ⟨f, hf, -⟩ := C27_lambda_smoothed_accuracy_3d lom
    exact ⟨f, hf⟩

/-- and to all parameters -/
theorem lassigns (H : s.Sound) (dr : Draws) (ks : List Nat) : ∀ m' : Mach Sampler LbdaUpdate,
    (∀ k ∈ ks, m'.lfct k = none → ∃ lr : LayerInfo, s.m.layers[k]? = some lr ∧
      (lr.factors.length = 2 ∨ lr.factors.length = 3)) →
    m'.layers = s.m.layers → (∀ k g, m'.lfct k = some g → GoodLfct s k g) →
    ∃ m'', ks.foldlM (assignLfct (genericEnv (s.wiring dr))) m' = .ok m'' ∧ (∀ k g, m''.lfct k = some g → GoodLfct s k g) ∧
      m''.fct = m'.fct ∧ (∀ i f, m'.lfct i = some f → m''.lfct i = some f) ∧ ∀ k ∈ ks, m''.lfct k ≠ none := by
  induction ks with
  | nil => intro m' _ _ hc; exact ⟨m', rfl, hc, rfl, fun _ _ h => h, by simp⟩
  | cons k ks ih =>
    intro m' hks hl hc
    cases hf : m'.lfct k with
    | some f =>
      obtain ⟨m'', e1, e2, e3, e5, e6⟩ := ih m' (fun i hi => hks i (by simp [hi])) hl hc
      refine ⟨m'', ?_, e2, e3, e5, ?_⟩
      · rw [List.foldlM_cons, assignLfct, hf]; exact e1
      · intro i hi
        rcases List.mem_cons.mp hi with rfl | hi
        · rw [e5 _ _ hf]; simp
        · exact e6 i hi
    | none =>
      obtain ⟨lr, hk, hK⟩ := hks k (by simp) hf
      obtain ⟨lom, hlom⟩ := H.model k lr hk
      obtain ⟨g, hg⟩ := update_exists lom hK
      obtain ⟨m1, hm1⟩ : ∃ m1 : Mach Sampler LbdaUpdate, m1 = { m' with lfct := upd m'.lfct k (some g) } := ⟨_, rfl⟩
      obtain ⟨m'', e1, e2, e3, e5, e6⟩ := ih m1 (by
        intro i hi hn
        refine hks i (by simp [hi]) ?_
        rw [hm1] at hn
        simp only [upd] at hn
        split at hn
        · cases hn
        · exact hn) (by rw [hm1]; exact hl) (by
        intro i f' hf' lr' hlr'
        rw [hm1] at hf'
        simp only [upd] at hf'
        split at hf'
        · rename_i h
          simp only [Option.some.injEq] at hf'
          rw [h, hk] at hlr'
          cases hlr'
          rw [← hf', hlom]
          exact ⟨hK, hg⟩
        · exact hc i f' hf' lr' hlr')
      refine ⟨m'', ?_, e2, by rw [e3, hm1], fun i f' hi => e5 i f' ?_, ?_⟩
      · have : assignLfct (genericEnv (s.wiring dr)) m' k = .ok m1 := by
          rw [assignLfct, hf]
          show (getUpdate m' k >>= _) = _
          have : getUpdate m' k = .ok g := by
            rw [getUpdate, hl, hk]
            simp only [hlom, hg]
          rw [this, hm1]
          rfl
        rw [List.foldlM_cons, this]; exact e1
      · have : i ≠ k := by rintro rfl; rw [hi] at hf; cases hf
        rw [hm1]
        simpa [upd, this] using hi
      · intro i hi
        rcases List.mem_cons.mp hi with rfl | hi
        · rw [e5 _ g (by rw [hm1]; simp [upd])]; simp
        · exact e6 i hi

end Workshop.Sound

end LFM
