import Verif.Lemmas.InferTotal
import Verif.Lemmas.CleanUp
import Verif.Model.Wiring
import Verif.Props.Sampling
import Verif.Props.Lambda
import Verif.Props.Inferable

/-!
# Lemmas: single-layer machines of the generic models
-/

namespace LFM

open Spec

/-- the factors in `facs` are legal: binary, of the given lengths, with `L` latent dimensions -/
def LegalFacs (sizes : List Nat) (L : Nat) (facs : List Fac) : Prop :=
  ∀ j f, facs[j]? = some f → f.val.shape = [sizes.getD j 0, L] ∧ PMArr f.val

theorem PMArr.deleteCol {a : Arr Int} {N L l : Nat} (hs : a.shape = [N, L]) (ha : PMArr a) (hl : l < L) :
    (a.deleteCol l).shape = [N, L - 1] ∧ PMArr (a.deleteCol l) := by
  have h1 : (a.deleteCol l).shape = [N, L - 1] := by simp [Arr.deleteCol, Arr.dim, hs]
  refine ⟨h1, ?_⟩
  intro idx hi
  rw [h1] at hi
  match idx, hi with
  | [i, j], hi =>
    simp only [InB] at hi
    simp only [Arr.deleteCol, List.getD_cons_zero, List.getD_cons_succ]
    refine ha _ ?_
    rw [hs]
    simp only [InB]
    refine ⟨hi.1, ?_, trivial⟩
    split <;> omega

theorem PMArr.setCol {a : Arr Int} (ha : PMArr a) (l : Nat) : PMArr (a.setCol l (-1)) := by
  intro idx hi
  simp only [Arr.setCol]
  split
  · exact Or.inr rfl
  · exact ha idx hi

theorem LegalFacs.run {sizes : List Nat} {L l : Nat} {facs facs' : List Fac} {a : Option CleanAction}
    (h : LegalFacs sizes L facs) (hl : l < L) (hr : CleanAction.run a l facs = .ok facs') :
    facs'.length = facs.length ∧ ∃ L', LegalFacs sizes L' facs' := by
  match a with
  | none => simp [CleanAction.run] at hr
  | some .reset =>
    simp only [CleanAction.run, Except.ok.injEq] at hr
    subst hr
    refine ⟨by simp [reset_dimension], L, ?_⟩
    intro j f hf
    simp only [reset_dimension, List.getElem?_map, Option.map_eq_some_iff] at hf
    obtain ⟨g, hg, rfl⟩ := hf
    obtain ⟨h1, h2⟩ := h j g hg
    exact ⟨h1, PMArr.setCol h2 l⟩
  | some .remove =>
    simp only [CleanAction.run, Except.ok.injEq] at hr
    subst hr
    refine ⟨by simp [remove_dimension], L - 1, ?_⟩
    intro j f hf
    simp only [remove_dimension, List.getElem?_map, Option.map_eq_some_iff] at hf
    obtain ⟨g, hg, rfl⟩ := hf
    obtain ⟨h1, h2⟩ := h j g hg
    exact PMArr.deleteCol h1 h2 hl

theorem LegalFacs.size {sizes : List Nat} {L : Nat} {facs : List Fac} (h : LegalFacs sizes L facs) (hn : facs ≠ []) :
    layerSize facs = L := by
  match facs, hn with
  | f :: t, _ =>
    obtain ⟨h1, -⟩ := h 0 f rfl
    simp [layerSize, Arr.dim, h1]

theorem LegalFacs.clean_up {sizes : List Nat} {L : Nat} {facs : List Fac} (h : LegalFacs sizes L facs) (hn : facs ≠ [])
    {reset clean : Bool} {r : List Fac × Bool} (hr : clean_up_codes facs reset clean = .ok r) :
    r.1.length = facs.length ∧ ∃ L', LegalFacs sizes L' r.1 := by
  have hpos : 0 < facs.length := List.length_pos_iff.mpr hn
  refine clean_up_inv (fun fs _ => fs.length = facs.length ∧ ∃ L', LegalFacs sizes L' fs) ?_ ?_ ⟨rfl, L, h⟩ hr
  · rintro l fs fs' b ⟨h1, L', h2⟩ hl - hrun
    have hne : fs ≠ [] := by rw [← List.length_pos_iff]; omega
    obtain ⟨e1, e2⟩ := h2.run (by rw [← h2.size hne]; exact hl) hrun
    exact ⟨e1.trans h1, e2⟩
  · rintro l l' fs fs' b ⟨h1, L', h2⟩ - hl - hrun
    have hne : fs ≠ [] := by rw [← List.length_pos_iff]; omega
    obtain ⟨e1, e2⟩ := h2.run (by rw [← h2.size hne]; exact hl) hrun
    exact ⟨e1.trans h1, e2⟩

/-- writing back -/
theorem writeFactors_mat (is : List Nat) : ∀ (w : World) (fs : List Fac), is.Nodup → fs.length = is.length →
    (∀ (j i : Nat), is[j]? = some i → fs[j]? = some ((writeFactors w is fs).mat i)) ∧
    ∀ i ∉ is, (writeFactors w is fs).mat i = w.mat i := by
  induction is with
  | nil => intro w fs _ _; exact ⟨fun j i h => by simp at h, fun i _ => rfl⟩
  | cons k is ih =>
    intro w fs hnd hlen
    match fs, hlen with
    | f :: fs, hlen =>
      have hnd' := List.nodup_cons.mp hnd
      obtain ⟨h1, h2⟩ := ih { w with mat := upd w.mat k f } fs hnd'.2 (by simpa using hlen)
      rw [writeFactors]
      refine ⟨?_, ?_⟩
      · intro j i hj
        match j with
        | 0 =>
          simp only [List.getElem?_cons_zero, Option.some.injEq] at hj ⊢
          subst hj
          rw [h2 k hnd'.1]
          simp [upd]
        | j + 1 =>
          simp only [List.getElem?_cons_succ] at hj ⊢
          exact h1 j i hj
      · intro i hi
        simp only [List.mem_cons, not_or] at hi
        rw [h2 i hi.2]
        simp [upd, hi.1]

/-- sampling functions that may be assigned to factor number `j` of a layer with `K` factors -/
def GenericSampler (lom : Lom8) (K j : Nat) (s : Sampler) : Prop :=
  ∃ (fs : List Member) (prior : ℝ), fs.length = K ∧ get_sampling_fct none (some lom.name) fs j j prior [] = .ok s

theorem generic_runs {lom : Lom8} {K j : Nat} (hK : K = 2 ∨ K = 3) {s : Sampler} (h : GenericSampler lom K j s)
    (mat : Member) (fs : List Member) (hf : fs.length = K) (k : Nat) (hk : k < K) (child : Arr Int) (lbda : ℝ)
    (rnd : Rnd) : ∃ R, s.run mat fs k child lbda [] rnd = .ok R := by
  obtain ⟨ms, prior, hms, hs⟩ := h
  have hlen : ((siblings fs k).map Member.val).length = K - 1 := by
    simp [siblings, List.length_eraseIdx, hf, hk]
  rcases hK with rfl | rfl
  · obtain ⟨f, hf', -⟩ := C14_score_2d_partial lom
    have hmk := make_onechild2 lom hf'
    rw [dispatch_onechild (by rw [hms]; exact relatives2 lom) (generic_code2 lom), hmk] at hs
    simp only [Except.map, Except.ok.injEq] at hs
    subst hs
    obtain ⟨a, ha⟩ := List.length_eq_one_iff.mp hlen
    simp only [Sampler.run, ha]
    exact ⟨_, rfl⟩
  · obtain ⟨f, hf', -⟩ := C15_score_3d lom
    have hmk := make_onechild3 lom hf'
    rw [dispatch_onechild (by rw [hms]; exact relatives3 lom) (generic_code3 lom), hmk] at hs
    simp only [Except.map, Except.ok.injEq] at hs
    subst hs
    obtain ⟨a, b, ha⟩ := List.length_eq_two.mp hlen
    simp only [Sampler.run, ha]
    exact ⟨_, rfl⟩

/-- a machine with a single generic layer on fixed data -/
structure SingleLayer (wr : Wiring) (m : Mach Sampler LbdaUpdate) (lom : Lom8) (lr : LayerInfo) (x : Nat)
    (sizes : List Nat) : Prop where
  layers : m.layers = [lr]
  model : lr.model = lom.name
  wrLayers : wr.layers = m.layers
  wrLayerOf : wr.layerOf = m.layerOf
  nodup : lr.factors.Nodup
  arity : lr.factors.length = 2 ∨ lr.factors.length = 3
  axis : ∀ j i, lr.factors[j]? = some i → wr.childAxis i = j
  layerOf : ∀ i ∈ lr.factors, m.layerOf i = some 0
  parents : ∀ i ∈ lr.factors, wr.parents i = []
  child : wr.child 0 = x
  data : x ∉ lr.factors
  matrices : ∀ i ∈ m.matrices, m.fixed i = true
  beta : 0 < (wr.beta_prior 0).1 ∧ 0 < (wr.beta_prior 0).2
  perm : ∀ t l, ∀ i ∈ wr.perm t l, i ∈ l
  sizes : sizes.length = lr.factors.length
  cached : ∀ j i, lr.factors[j]? = some i → ∀ s, m.fct i = some s → GenericSampler lom lr.factors.length j s
  lcached : ∀ g, m.lfct 0 = some g → get_update_fct none lom.name lr.factors.length = .ok g

/-- legal states of such a machine -/
structure LegalWorld (lr : LayerInfo) (x : Nat) (sizes : List Nat) (X : Arr Int) (w : World) : Prop where
  facs : ∃ L, LegalFacs sizes L (lr.factors.map w.mat)
  data : (w.mat x).val = X
  lbda : ∃ y, w.lbda 0 = .scalar (.fin y)

namespace SingleLayer

variable {wr : Wiring} {m : Mach Sampler LbdaUpdate} {lom : Lom8} {lr : LayerInfo} {x : Nat} {sizes : List Nat}

theorem mem_free (H : SingleLayer wr m lom lr x sizes) {i : Nat} (hi : i ∈ freeMats m) : i ∈ lr.factors := by
  have hq : lr.model ≠ "qL-AND" := by rw [H.model]; cases lom <;> decide
  simp only [freeMats, members, H.layers, List.mem_filter, List.mem_append, List.flatMap_cons, List.flatMap_nil,
    List.append_nil, hq, if_false, List.not_mem_nil, or_false, Bool.not_eq_true'] at hi
  obtain ⟨h1 | h1, h2⟩ := hi
  · exact h1
  · rw [H.matrices i h1] at h2
    cases h2

theorem nodup_free (H : SingleLayer wr m lom lr x sizes) (hd : m.matrices.Nodup)
    (hx : ∀ i ∈ m.matrices, i ∉ lr.factors) : (freeMats m).Nodup := by
  have hq : lr.model ≠ "qL-AND" := by rw [H.model]; cases lom <;> decide
  refine List.Nodup.filter _ ?_
  simp only [members, H.layers, List.flatMap_cons, List.flatMap_nil, List.append_nil, hq, if_false]
  rw [List.nodup_append]
  exact ⟨H.nodup, hd, fun a ha b hb hab => hx b hb (hab ▸ ha)⟩

theorem position (H : SingleLayer wr m lom lr x sizes) {i : Nat} (hi : i ∈ lr.factors) :
    lr.factors[lr.factors.idxOf i]? = some i ∧ lr.factors.idxOf i < lr.factors.length ∧
      wr.childAxis i = lr.factors.idxOf i := by
  have h1 : lr.factors.idxOf i < lr.factors.length := List.idxOf_lt_length_iff.mpr hi
  have h2 : lr.factors[lr.factors.idxOf i]? = some i := by
    rw [List.getElem?_eq_getElem h1, List.getElem_idxOf]
  exact ⟨h2, h1, H.axis _ i h2⟩

/-- a factor is sampled without error, keeps its shape, stays binary, keeps its fixed entries; nothing else changes -/
theorem runs_mat (H : SingleLayer wr m lom lr x sizes) {i : Nat} (hi : i ∈ lr.factors) {s : Sampler}
    (hs : GenericSampler lom lr.factors.length (lr.factors.idxOf i) s) (t : Nat) {w : World} (hw : ∃ y, w.lbda 0 = .scalar (.fin y)) :
    ∃ R, runSampler wr s i t w = .ok (w.setVal i R) ∧ R.shape = (w.mat i).val.shape ∧
      (PMArr (w.mat i).val → PMArr R) ∧ ∀ idx, (w.mat i).fixed_entries idx = 1 → R idx = (w.mat i).val idx := by
  obtain ⟨y, hy⟩ := hw
  have hv : layerView wr w i = some (lr.factors.map (memberAt wr w), lr.factors.idxOf i, (w.mat (wr.child 0)).val, y) := by
    rw [layerView, H.wrLayerOf, H.layerOf i hi, H.wrLayers, H.layers]
    show (([lr] : List LayerInfo)[0]? >>= fun lr => (w.lbda 0).float? >>= fun x => _) = _
    rw [hy]
    rfl
  obtain ⟨R, hR⟩ := generic_runs H.arity hs (memberAt wr w i) (lr.factors.map (memberAt wr w)) (by simp)
    (lr.factors.idxOf i) (H.position hi).2.1 (w.mat (wr.child 0)).val y (wr.rnd t i)
  obtain ⟨ms, prior, -, hget⟩ := hs
  obtain ⟨h1, h2, h3⟩ := C20_sampling_keeps hget _ _ _ _ _ _ _ _ hR
  refine ⟨R, ?_, h1, h3, h2⟩
  have hp : (wr.parents i).mapM (parentAt wr w) = some [] := by rw [H.parents i hi]; rfl
  rw [runSampler, hv, hp]
  show (s.run _ _ _ _ _ _ _ >>= _) = _
  rw [hR]
  rfl

theorem setVal_facs {w : World} {i : Nat} (hi : i ∈ lr.factors) {R : Arr Int} {L : Nat}
    (h : LegalFacs sizes L (lr.factors.map w.mat)) (hs : R.shape = (w.mat i).val.shape)
    (hp : PMArr (w.mat i).val → PMArr R) : LegalFacs sizes L (lr.factors.map (w.setVal i R).mat) := by
  intro j f hf
  simp only [List.getElem?_map, Option.map_eq_some_iff] at hf
  obtain ⟨i', hi', rfl⟩ := hf
  obtain ⟨h1, h2⟩ := h j (w.mat i') (by rw [List.getElem?_map, hi']; rfl)
  by_cases hii : i' = i
  · subst hii
    simp only [World.setVal, upd, if_true]
    exact ⟨hs.trans h1, hp h2⟩
  · simp only [World.setVal, upd, hii, if_false]
    exact ⟨h1, h2⟩

/-- the update of lambda succeeds with a finite non-negative value -/
theorem runs_lbda (H : SingleLayer wr m lom lr x sizes) {g : LbdaUpdate}
    (hg : get_update_fct none lom.name lr.factors.length = .ok g) (t : Nat) {w : World} {X : Arr Int}
    (hw : LegalWorld lr x sizes X w) (hX : X.shape = sizes) :
    ∃ y, 0 ≤ y ∧ runUpdate wr g 0 t w = .ok { w with lbda := upd w.lbda 0 (.scalar (.fin y)) } := by
  obtain ⟨L, hL⟩ := hw.facs
  have hl : wr.layers[0]? = some lr := by rw [H.wrLayers, H.layers]; rfl
  suffices hrun : ∀ q, ∃ y, 0 ≤ y ∧ g.run (lr.factors.map fun i => (w.mat i).val) X q (wr.beta_prior 0) = .ok (.fin y) by
    cases hq : lr.q with
    | none =>
      obtain ⟨y, hy, hr⟩ := hrun (Arr.full [] 0)
      refine ⟨y, hy, ?_⟩
      rw [runUpdate, hl]
      simp only [hq]
      rw [H.child, hw.data, hr]
      rfl
    | some q =>
      obtain ⟨y, hy, hr⟩ := hrun (w.mat q).val
      refine ⟨y, hy, ?_⟩
      rw [runUpdate, hl]
      simp only [hq]
      rw [H.child, hw.data, hr]
      rfl
  intro q
  rcases H.arity with hK | hK
  · obtain ⟨a, b, hab⟩ := List.length_eq_two.mp hK
    obtain ⟨f, hf, hspec⟩ := C27_lambda_smoothed_accuracy_2d lom
    rw [hK, hf] at hg
    simp only [Except.ok.injEq] at hg
    subst hg
    obtain ⟨N, D, hND⟩ := List.length_eq_two.mp (H.sizes.trans hK)
    rw [hab] at hL ⊢
    rw [hND] at hL hX
    obtain ⟨a1, a2⟩ := hL 0 (w.mat a) rfl
    obtain ⟨b1, b2⟩ := hL 1 (w.mat b) rfl
    obtain ⟨-, y, h1, h2, -⟩ := hspec N D L (w.mat a).val (w.mat b).val X q (wr.beta_prior 0).1 (wr.beta_prior 0).2 a1 b1
      hX a2 b2 H.beta.1 H.beta.2
    exact ⟨y, h2, h1⟩
  · obtain ⟨a, b, c, hab⟩ := List.length_eq_three.mp hK
    obtain ⟨f, hf, hspec⟩ := C27_lambda_smoothed_accuracy_3d lom
    rw [hK, hf] at hg
    simp only [Except.ok.injEq] at hg
    subst hg
    obtain ⟨N, D, M, hND⟩ := List.length_eq_three.mp (H.sizes.trans hK)
    rw [hab] at hL ⊢
    rw [hND] at hL hX
    obtain ⟨a1, a2⟩ := hL 0 (w.mat a) rfl
    obtain ⟨b1, b2⟩ := hL 1 (w.mat b) rfl
    obtain ⟨c1, c2⟩ := hL 2 (w.mat c) rfl
    obtain ⟨-, y, h1, h2, -⟩ := hspec N D M L (w.mat a).val (w.mat b).val (w.mat c).val X q (wr.beta_prior 0).1
      (wr.beta_prior 0).2 a1 b1 c1 hX a2 b2 c2 H.beta.1 H.beta.2
    exact ⟨y, h2, h1⟩

/-- clean-ups preserve legality -/
theorem clean_legal (H : SingleLayer wr m lom lr x sizes) {w : World} {X : Arr Int} (hw : LegalWorld lr x sizes X w)
    {reset clean : Bool} {fs : List Fac} {b : Bool} (h : clean_up_codes (lr.factors.map w.mat) reset clean = .ok (fs, b)) :
    LegalWorld lr x sizes X (writeFactors w lr.factors fs) := by
  obtain ⟨L, hL⟩ := hw.facs
  have hne : lr.factors.map w.mat ≠ [] := by
    intro hc
    have h1 := congrArg List.length hc
    have h2 := H.arity
    rw [List.length_map, List.length_nil] at h1
    omega
  obtain ⟨h1, L', h2⟩ := hL.clean_up hne h
  obtain ⟨e1, e2⟩ := writeFactors_mat lr.factors w fs H.nodup (by simpa using h1)
  refine ⟨⟨L', ?_⟩, by rw [e2 x H.data]; exact hw.data, by rw [writeFactors_lbda]; exact hw.lbda⟩
  intro j f hf
  simp only [List.getElem?_map, Option.map_eq_some_iff] at hf
  obtain ⟨i, hi, rfl⟩ := hf
  exact h2 j _ (e1 j i hi)

/-- assignment of the sampling functions -/
theorem getSampler_ok (H : SingleLayer wr m lom lr x sizes) {m' : Mach Sampler LbdaUpdate} (hl : m'.layers = m.layers)
    (ho : m'.layerOf = m.layerOf) {i : Nat} (hi : i ∈ lr.factors) :
    ∃ s, getSampler wr m' i = .ok (some s, none) ∧ GenericSampler lom lr.factors.length (lr.factors.idxOf i) s ∧
      ∃ f o, s = .lom f o (logit (m'.bernoulli_prior i)) := by
  obtain ⟨p1, p2, p3⟩ := H.position hi
  have hlr : (m'.layerOf i).bind (fun k => m'.layers[k]?) = some lr := by
    rw [ho, hl, H.layerOf i hi, H.layers]; rfl
  obtain ⟨ms, hms⟩ : ∃ ms : List Member, ms = lr.factors.map fun j =>
    (⟨(m'.world.mat j).val, (m'.world.mat j).fixed_entries, wr.childAxis j, m'.bernoulli_prior j⟩ : Member) := ⟨_, rfl⟩
  have hlen : ms.length = lr.factors.length := by rw [hms]; simp
  have hget : ∃ s, get_sampling_fct none (some lom.name) ms (lr.factors.idxOf i) (lr.factors.idxOf i)
      (m'.bernoulli_prior i) [] = .ok s ∧ ∃ f o, s = .lom f o (logit (m'.bernoulli_prior i)) := by
    rcases H.arity with hK | hK
    · obtain ⟨f, hf', -⟩ := C14_score_2d_partial lom
      rw [dispatch_onechild (by rw [hlen, hK]; exact relatives2 lom) (generic_code2 lom), make_onechild2 lom hf']
      exact ⟨_, rfl, _, _, rfl⟩
    · obtain ⟨f, hf', -⟩ := C15_score_3d lom
      rw [dispatch_onechild (by rw [hlen, hK]; exact relatives3 lom) (generic_code3 lom), make_onechild3 lom hf']
      exact ⟨_, rfl, _, _, rfl⟩
  obtain ⟨s, hs, f, o, rfl⟩ := hget
  refine ⟨_, ?_, ⟨ms, m'.bernoulli_prior i, hlen, hs⟩, f, o, rfl⟩
  rw [getSampler]
  simp only [hlr, Option.map_some, H.parents i hi, List.filterMap_nil, H.model, p3]
  rw [← hms, hs]
  rfl

theorem getUpdate_ok (H : SingleLayer wr m lom lr x sizes) {m' : Mach Sampler LbdaUpdate} (hl : m'.layers = m.layers) :
    ∃ g, getUpdate m' 0 = .ok g ∧ get_update_fct none lom.name lr.factors.length = .ok g := by
  have hlr : m'.layers[0]? = some lr := by rw [hl, H.layers]; rfl
  have : ∃ g, get_update_fct none lom.name lr.factors.length = .ok g := by
    rcases H.arity with hK | hK
    · obtain ⟨f, hf, -⟩ := C27_lambda_smoothed_accuracy_2d lom
      exact ⟨f, by rw [hK]; exact hf⟩
    · obtain ⟨f, hf, -⟩ := C27_lambda_smoothed_accuracy_3d lom
      exact ⟨f, by rw [hK]; exact hf⟩
  obtain ⟨g, hg⟩ := this
  exact ⟨g, by rw [getUpdate, hlr]; simp only; rw [H.model, hg], hg⟩

end SingleLayer

end LFM
