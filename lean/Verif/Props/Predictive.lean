import Verif.Model.Experiments
import Verif.Props.Predict
import Verif.Props.Requested
import Verif.Props.Splits

/-!
# C88: test accuracy of `LOM_predictive`
-/

namespace LFM

open Spec

/-- a machine that is created from data is a single layer in a legal state -/
theorem newMach_single (data : Arr Int) (lom : Lom8) (L : Nat) (lb : ℝ) (an : Bool) (dr : Draws)
    (hK : data.shape.length = 2 ∨ data.shape.length = 3) (hinit : ∀ k idx, IsPM (dr.init k idx))
    (hperm : ∀ t l, ∀ i ∈ dr.perm t l, i ∈ l) :
    SingleLayer (newWiring data.shape.length lom.name dr) (newMach data lom.name L lb an dr) lom
      (newLayer data.shape.length lom.name) data.shape.length data.shape ∧
    LegalWorld (newLayer data.shape.length lom.name) data.shape.length data.shape data (newMach data lom.name L lb an dr).world := by
  have hget : ∀ {j i : Nat}, (List.range data.shape.length)[j]? = some i → j = i ∧ i < data.shape.length := by
    intro j i h
    rw [List.getElem?_eq_some_iff] at h
    obtain ⟨h1, h2⟩ := h
    simp only [List.getElem_range] at h2
    simp only [List.length_range] at h1
    exact ⟨h2, h2 ▸ h1⟩
  refine ⟨⟨rfl, rfl, rfl, rfl, ?_, ?_, ?_, ?_, ?_, rfl, ?_, ?_, ?_, hperm, ?_, ?_, ?_⟩, ⟨⟨L, ?_⟩, ?_, _, rfl⟩⟩
  · exact List.nodup_range
  · simpa [newLayer] using hK
  · intro j i h
    exact (hget h).1.symm
  · intro i hi
    simp only [newLayer, List.mem_range] at hi
    simp [newMach, hi]
  · intro i hi
    simp only [newLayer, List.mem_range] at hi
    simp [newWiring, hi]
  · simp [newLayer]
  · intro i hi
    simp only [newMach, List.mem_singleton] at hi
    simp [newMach, hi]
  · simp [newWiring]
  · simp [newLayer]
  · intro j i _ s hs; cases hs
  · intro g hg; cases hg
  · intro j f hf
    simp only [newLayer, List.getElem?_map, Option.map_eq_some_iff] at hf
    obtain ⟨i, hi, rfl⟩ := hf
    obtain ⟨rfl, hlt⟩ := hget hi
    simp only [newMach, hlt, if_true]
    exact ⟨trivial, fun idx _ => hinit _ idx⟩
  · simp [newMach]

/-- share of the cells of the test set with a property -/
noncomputable def Spec.testShare (mask : Arr Bool) (P : List Nat → Prop) : ℝ :=
  (cells mask.shape fun i => mask i = true ∧ P i) / cells mask.shape fun i => mask i = true

theorem cells_congr {shape : List Nat} {P Q : List Nat → Prop} (h : ∀ i, InB shape i → (P i ↔ Q i)) :
    cells shape P = cells shape Q := by
  classical
  unfold cells
  refine List.countP_congr fun i hi => ?_
  simp [h i (mem_indices.mp hi)]

/-- experiments.py:282-286 counts cells -/
theorem accuracy_eq (P : Arr NpF) (X : Arr Int) (mask : Arr Bool) (d : Bool) (hP : P.shape = mask.shape)
    (hX : X.shape = mask.shape) :
    predictiveAccuracy P X mask d = .ok (npDiv (cells mask.shape fun i => mask i = true ∧
      ((P i).gtHalf = true ↔ X i = if d then -1 else 1)) (cells mask.shape fun i => mask i = true)) := by
  classical
  obtain ⟨l, hl⟩ : ∃ l, l = (indices mask.shape).filter fun i => mask i := ⟨_, rfl⟩
  have hlen : (cells mask.shape fun i => mask i = true) = l.length := by
    rw [← cells_filter, hl]
    simp
  have hcnt : (cells mask.shape fun i => mask i = true ∧ ((P i).gtHalf = true ↔ X i = if d then -1 else 1)) =
      l.countP fun i => (P i).gtHalf == decide ((-2 * (if d then 1 else 0) + 1) * X i = 1) := by
    rw [hl, List.countP_filter, cells]
    refine List.countP_congr fun i _ => ?_
    have e : ((-2 * (if d then 1 else 0) + 1) * X i = 1) ↔ X i = if d then -1 else 1 := by
      cases d <;> simp <;> omega
    simp only [decide_eq_true_eq, Bool.and_eq_true, beq_iff_eq, e]
    constructor
    · rintro ⟨h1, h2⟩
      refine ⟨?_, h1⟩
      by_cases hx : X i = if d then -1 else 1
      · simp only [hx, decide_true]; exact h2.mpr hx
      · simp only [hx, decide_false]
        exact Bool.eq_false_iff.mpr fun hc => hx (h2.mp hc)
    · rintro ⟨h1, h2⟩
      refine ⟨h2, ?_⟩
      rw [h1]
      simp
  unfold predictiveAccuracy maskIndex
  rw [if_pos hP, if_pos hX, ← hl, hlen, hcnt]
  show Except.ok (npMean ((List.zipWith _ (l.map fun i => P i) ((l.map fun i => X i).map _)).map _)) = _
  rw [List.map_map, List.zipWith_map, List.zipWith_self, List.map_map]
  congr 1
  have : (l.map ((fun b : Bool => NpF.fin (if b then 1 else 0)) ∘ fun i =>
      ((P i).gtHalf == ((fun v : Int => decide ((-2 * (if d then 1 else 0) + 1) * v = 1)) ∘ fun i => X i) i))) =
      (l.map fun i => if (P i).gtHalf == decide ((-2 * (if d then 1 else 0) + 1) * X i = 1) then (1 : ℝ) else 0).map .fin := by
    rw [List.map_map]
    rfl
  rw [this, npMean, npSum_fin]
  simp only [List.length_map]
  congr 1
  clear hl hlen hcnt this
  induction l with
  | nil => simp
  | cons a l ih =>
    rw [List.map_cons, List.sum_cons, List.countP_cons, ih]
    · push_cast
      rw [add_comm]

/-- the means of legal factors with samples, in order -/
theorem means_list {s : OLayer} {L : Nat} (hf : ∀ f ∈ s.factors, LegalFac L L f) (hS : ∀ f ∈ s.factors, f.trace ≠ some []) :
    ∃ means : List (Arr ℝ), s.factors.map OFac.mean = means.map .nums ∧ means.length = s.factors.length ∧
      (∀ k, (hk : k < means.length) → means[k].shape = [(rows s).getD k 0, L] ∧
        ∀ idx, InB means[k].shape idx → -1 ≤ means[k] idx ∧ means[k] idx ≤ 1) ∧
      ∀ k, (hk : k < means.length) → (hk' : k < s.factors.length) → ∀ n l, n < (rows s).getD k 0 → l < L →
        (means[k] [n, l] + 1) / 2 = onesShare s.factors[k] [n, l] := by
  obtain ⟨g, hg⟩ := means_ok hf hS (.inl rfl)
  refine ⟨s.factors.map g, ?_, by simp, ?_, ?_⟩
  · rw [List.map_map]
    exact List.map_congr_left fun f hfm => (hg f hfm).1
  · intro k hk
    have hk' : k < s.factors.length := by simpa using hk
    have hm : s.factors[k] ∈ s.factors := List.getElem_mem hk'
    simp only [List.getElem_map]
    obtain ⟨-, h2, h3⟩ := hg _ hm
    refine ⟨?_, h3⟩
    rw [h2]
    simp [rows, List.getD_eq_getElem?_getD, List.getElem?_eq_getElem hk']
  · intro k hk hk' n l hn hl
    have hm : s.factors[k] ∈ s.factors := List.getElem_mem hk'
    simp only [List.getElem_map]
    rw [← mean_share (hf _ hm) (hS _ hm) (.inl rfl) (hg _ hm).1 (n := n) (l := l) (by
      simpa [rows, List.getD_eq_getElem?_getD, List.getElem?_eq_getElem hk'] using hn) hl]
    ring

/-- one run of an experiment up to the prediction -/
theorem predictive_run (argsort : Arr ℝ → List Nat) (o i : LOp) (e : Experiment) (dr : Draws)
    (hname : e.machine = modelName o i) (hK : e.X_train.shape.length = 2 ∨ e.X_train.shape.length = 3)
    (hX : e.X.shape = e.X_train.shape) (hmask : e.train_mask.shape = e.X_train.shape)
    (hl : e.anneal = false ∨ e.lbda_init ≠ 0) (hinit : ∀ k idx, IsPM (dr.init k idx))
    (hperm : ∀ t l, ∀ i ∈ dr.perm t l, i ∈ l) :
    ∃ (m : Lom8) (d f : Bool) (data : Arr Int) (s : OLayer), canonical_form e.machine = .ok (m.name, d, f) ∧
      e.data = (some data, .ok (m.name, d, f)) ∧
      data.shape = e.X_train.shape ∧
      (∀ (ι κ : Type) (x : ι → κ → Prop),
        lom o i x ↔ (if d then ¬ lom m.outer m.inner (fun l k => if f then ¬ x l k else x l k)
          else lom m.outer m.inner (fun l k => if f then ¬ x l k else x l k))) ∧
      s.model = m.name ∧ rows s = e.X_train.shape ∧ s.factors.length = e.X_train.shape.length ∧
      (∀ f ∈ s.factors, LegalFac e.L e.L f) ∧ (∀ f ∈ s.factors, f.trace ≠ some []) ∧
      ∀ P, (output argsort "factor_mean" false false true s).1 = .ok P → P.shape = rows s → ∀ X : Arr Int,
        (if e.same = true ∧ e.int8 = true then data else e.X) = X →
        LOM_predictive argsort e dr = .ok ⟨npDiv (cells e.train_mask.shape fun i => e.train_mask i = true ∧
          ((P i).gtHalf = true ↔ X i = if d then -1 else 1)) (cells e.train_mask.shape fun i => e.train_mask i = true),
          e.machine, e.L, s.factors.map OFac.mean⟩ := by
  obtain ⟨m, d, f, hc, heq⟩ := canonical_table o i
  obtain ⟨t, ht⟩ : ∃ t, t = (if e.int8 then e.X_train else e.X_train.map wrap8) := ⟨_, rfl⟩
  have hts : t.shape = e.X_train.shape := by rw [ht]; split <;> rfl
  obtain ⟨data, hd1, hd2⟩ : ∃ data, e.data = (some data, .ok (m.name, d, f)) ∧ data.shape = e.X_train.shape := by
    rw [Experiment.data, hname, ← ht, canonise_model, hc]
    cases d with
    | false => exact ⟨t, rfl, hts⟩
    | true => exact ⟨_, rfl, hts⟩
  have hK' : data.shape.length = 2 ∨ data.shape.length = 3 := by rw [hd2]; exact hK
  obtain ⟨H, hw⟩ := newMach_single data m e.L e.lbda_init e.anneal dr hK' hinit hperm
  obtain ⟨S, cw, bmin, bmax, fx, hS, hcw, hfx, hrun⟩ : ∃ S cw bmin bmax fx, 1 ≤ S ∧ 1 ≤ cw ∧
      (e.anneal = true → fx = 0) ∧
      ∀ env m, inferCall env e.anneal m = infer env S cw (5 / 1000) bmin bmax 10 fx m := by
    cases e.anneal with
    | true => exact ⟨10, 50, 600, 1000, 0, by omega, by omega, fun _ => rfl, fun _ _ => rfl⟩
    | false => exact ⟨10, 10, 100, 150, 50, by omega, by omega, nofun, fun _ _ => rfl⟩
  obtain ⟨m', s, L, h1, h2, h3, h4, -, h6, h7, h8, h9, h10, -, h12, h13⟩ :=
    H.after_infer rfl hw S cw bmin (5 / 1000) bmax 10 fx (by
      cases ha : e.anneal with
      | false => left; rfl
      | true =>
        right
        exact ⟨hfx ha, e.lbda_init, hl.resolve_left (by rw [ha]; simp), rfl⟩) hS hcw (by omega)
      (fun i hi hf => by
        simp only [newLayer, List.mem_range] at hi
        simp only [newMach, decide_eq_true_eq] at hf
        omega) (fun hf => by cases hf) none
  have hlen : s.factors.length = data.shape.length := by rw [h3]; simp [newLayer]
  have hL : e.L = L := by
    have := h13 rfl rfl 0 (by simp only [newLayer, List.mem_range]; omega)
    have h0 : 0 < data.shape.length := by omega
    simpa [newMach, h0, Arr.dim] using this
  subst hL
  refine ⟨m, d, f, data, s, by rw [hname, hc], hd1, hd2, heq, h4, by rw [h6, hd2], by rw [hlen, hd2], h7, h8, ?_⟩
  intro P hP hPs X hXe
  have hacc := accuracy_eq P X e.train_mask d (by rw [hPs, h6, hd2, hmask]) (by
    rw [hmask, ← hXe]
    split_ifs
    · exact hd2
    · exact hX)
  unfold LOM_predictive
  rw [hd1]
  have himpl : m.name ∈ implemented_loms := (implemented_iff m.name).2 ⟨m, rfl⟩
  show (if m.name ∉ implemented_loms then _ else _) = _
  rw [if_neg (not_not.2 himpl)]
  simp only [Option.getD_some]
  show (inferCall _ _ _ >>= _) = _
  rw [hrun, h1]
  show (match m'.olayer 0 none with | none => _ | some s => _) = _
  rw [h2]
  simp only
  rw [hP]
  show (predictiveAccuracy P (if e.same = true ∧ e.int8 = true then data else e.X) e.train_mask d >>= _) = _
  rw [hXe, hacc]
  have hsz : (s.factors.headD ⟨⟨[], fun _ => 0⟩, none⟩).val.dim 1 = e.L := by
    cases hfs : s.factors with
    | nil => rw [hfs] at hlen; simp at hlen; omega
    | cons f fs =>
      obtain ⟨N, hN, -⟩ := (h7 f (by rw [hfs]; simp)).shape
      simp [Arr.dim, hN]
  show Except.ok (Predictive.mk _ e.machine _ _) = _
  rw [hsz]

theorem test_pos {mask : Arr Bool} (h : ∃ idx, InB mask.shape idx ∧ mask idx = true) :
    ((cells mask.shape fun i => mask i = true : Nat) : ℝ) ≠ 0 := by
  classical
  obtain ⟨idx, h1, h2⟩ := h
  have : 0 < cells mask.shape fun i => mask i = true := by
    unfold cells
    rw [List.countP_pos_iff]
    exact ⟨idx, mem_indices.mpr h1, by simpa using h2⟩
  exact_mod_cast this.ne'

/-- one run with two axes, or three and a model treated as OR-AND -/
theorem predictive_prob (argsort : Arr ℝ → List Nat) (o i : LOp) (e : Experiment) (dr : Draws)
    (hname : e.machine = modelName o i)
    (hK : e.X_train.shape.length = 2 ∨ e.X_train.shape.length = 3 ∧ ∃ d f, canonical_form e.machine = .ok ("OR-AND", d, f))
    (hX : e.X.shape = e.X_train.shape) (hmask : e.train_mask.shape = e.X_train.shape)
    (hl : e.anneal = false ∨ e.lbda_init ≠ 0) (hinit : ∀ k idx, IsPM (dr.init k idx))
    (hperm : ∀ t l, ∀ i ∈ dr.perm t l, i ∈ l) :
    ∃ (m : String) (d f : Bool) (data : Arr Int) (means : List (Arr ℝ)), canonical_form e.machine = .ok (m, d, f) ∧
      e.data = (some data, .ok (m, d, f)) ∧ means.length = e.X_train.shape.length ∧
      (∀ k, (hk : k < means.length) → means[k].shape = [e.X_train.shape.getD k 0, e.L] ∧
        ∀ idx, InB means[k].shape idx → -1 ≤ means[k] idx ∧ means[k] idx ≤ 1) ∧
      ∀ X : Arr Int, (if e.same = true ∧ e.int8 = true then data else e.X) = X →
      LOM_predictive argsort e dr = .ok ⟨npDiv (cells e.train_mask.shape fun idx => e.train_mask idx = true ∧
        let p := lomProb o i fun (l : Fin e.L) (k : Fin means.length) =>
          let q := (means[k] [idx.getD k 0, l] + 1) / 2
          if f then 1 - q else q
        if d then (1 / 2 < 1 - p ↔ X idx = -1) else (1 / 2 < p ↔ X idx = 1))
        (cells e.train_mask.shape fun idx => e.train_mask idx = true), e.machine, e.L, means.map .nums⟩ := by
  obtain ⟨m, d, f, data, s, hc, hd1, hd2, heq, hm, hrow, hlen, hf, hS, hrun⟩ :=
    predictive_run argsort o i e dr hname (hK.imp_right And.left) hX hmask hl hinit hperm
  obtain ⟨means, hme, hml, hmb, hms⟩ := means_list hf hS
  obtain ⟨P, hP, hPs, hPv⟩ := factor_mean_exact argsort s m e.L e.L (by
    rw [hlen]
    refine hK.imp_right fun h => ⟨h.1, ?_⟩
    obtain ⟨d', f', h'⟩ := h.2
    rw [hc] at h'
    injection h' with h'
    have : m.name = "OR-AND" := congrArg Prod.fst h'
    clear hd1 hm heq hc h' hrun
    revert this
    cases m <;> first | exact fun _ => rfl | exact fun h => absurd h (by decide)) hf hS (.inl rfl) hm
  refine ⟨m.name, d, f, data, means, hc, hd1, by rw [hml, hlen], by rw [← hrow]; exact hmb, fun X hXe => ?_⟩
  rw [hrun P (by rw [hP]) hPs X hXe, hme]
  have hq : ∀ idx, InB e.train_mask.shape idx →
      (lomProb m.outer m.inner fun (l : Fin e.L) (k : Fin s.factors.length) => onesShare s.factors[k] [idx.getD k 0, l]) =
      lomProb m.outer m.inner fun (l : Fin e.L) (k : Fin means.length) => (means[k] [idx.getD k 0, l] + 1) / 2 := by
    intro idx hidx
    rw [hmask, ← hrow] at hidx
    have : ∀ (n : Nat) (hn : n = s.factors.length), (lomProb m.outer m.inner fun (l : Fin e.L) (k : Fin s.factors.length) =>
        onesShare s.factors[k] [idx.getD k 0, l]) = lomProb m.outer m.inner fun (l : Fin e.L) (k : Fin n) =>
        onesShare (s.factors[(k : Nat)]'(hn ▸ k.2)) [idx.getD k 0, l] := by
      rintro n rfl; rfl
    rw [this means.length hml]
    congr 1
    funext l k
    exact (hms k k.2 (hml ▸ k.2) _ _ (hidx.getD (k := k) (by rw [hrow, ← hlen, ← hml]; exact k.2)) l.2).symm
  congr 4
  refine cells_congr fun idx hidx => and_congr_right fun _ => ?_
  rw [hPv idx (by rw [hrow, ← hmask]; exact hidx), hq idx hidx]
  simp only
  rw [lomProb_requested heq fun (l : Fin e.L) (k : Fin means.length) => (means[k] [idx.getD k 0, l] + 1) / 2]
  cases d <;> simp [NpF.gtHalf]

/-- **C88** (`_partial`: two axes, or three and a model treated as OR-AND; see `C88_three` for the others). The experiment
returns the model and the size it was given, the posterior means of the factors, and the share of cells of the test set
whose value is predicted by the model it was given, that is: the cell is 1 and the model, with independent entries that
have the frequencies of the samples, gives 1 probability over one half, or the cell is not and it does not. For models
that invert the data: the same for -1 and probability over one half of not being 1. -/
theorem C88_accuracy_partial (argsort : Arr ℝ → List Nat) (o i : LOp) (e : Experiment) (dr : Draws)
    (hname : e.machine = modelName o i)
    (hK : e.X_train.shape.length = 2 ∨ e.X_train.shape.length = 3 ∧ ∃ d f, canonical_form e.machine = .ok ("OR-AND", d, f))
    (hX : e.X.shape = e.X_train.shape) (hmask : e.train_mask.shape = e.X_train.shape)
    (hsome : ∃ idx, InB e.train_mask.shape idx ∧ e.train_mask idx = true) (hsame : e.same = false ∨ e.int8 = false)
    (hl : e.anneal = false ∨ e.lbda_init ≠ 0) (hinit : ∀ k idx, IsPM (dr.init k idx))
    (hperm : ∀ t l, ∀ i ∈ dr.perm t l, i ∈ l) :
    ∃ (m : String) (d f : Bool) (means : List (Arr ℝ)), canonical_form e.machine = .ok (m, d, f) ∧
      means.length = e.X_train.shape.length ∧
      (∀ k, (hk : k < means.length) → means[k].shape = [e.X_train.shape.getD k 0, e.L] ∧
        ∀ idx, InB means[k].shape idx → -1 ≤ means[k] idx ∧ means[k] idx ≤ 1) ∧
      LOM_predictive argsort e dr = .ok ⟨.fin (testShare e.train_mask fun idx =>
        let p := lomProb o i fun (l : Fin e.L) (k : Fin means.length) =>
          let q := (means[k] [idx.getD k 0, l] + 1) / 2
          if f then 1 - q else q
        if d then (1 / 2 < 1 - p ↔ e.X idx = -1) else (1 / 2 < p ↔ e.X idx = 1)), e.machine, e.L, means.map .nums⟩ := by
  obtain ⟨m, d, f, data, means, hc, -, hml, hmb, hrun⟩ := predictive_prob argsort o i e dr hname hK hX hmask hl hinit hperm
  refine ⟨m, d, f, means, hc, hml, hmb, ?_⟩
  rw [hrun e.X (by
    rw [if_neg]
    rintro ⟨h1, h2⟩
    rcases hsame with h | h
    · rw [h] at h1; cases h1
    · rw [h] at h2; cases h2), npDiv, if_neg (test_pos hsome)]
  rfl

/-- **C88**: nothing to test on -/
theorem C88_no_test_cells (argsort : Arr ℝ → List Nat) (o i : LOp) (e : Experiment) (dr : Draws)
    (hname : e.machine = modelName o i)
    (hK : e.X_train.shape.length = 2 ∨ e.X_train.shape.length = 3 ∧ ∃ d f, canonical_form e.machine = .ok ("OR-AND", d, f))
    (hX : e.X.shape = e.X_train.shape) (hmask : e.train_mask.shape = e.X_train.shape)
    (hnone : ∀ idx, InB e.train_mask.shape idx → e.train_mask idx = false)
    (hl : e.anneal = false ∨ e.lbda_init ≠ 0) (hinit : ∀ k idx, IsPM (dr.init k idx))
    (hperm : ∀ t l, ∀ i ∈ dr.perm t l, i ∈ l) :
    ∃ r, LOM_predictive argsort e dr = .ok r ∧ r.accuracy = .nan := by
  obtain ⟨m, d, f, data, means, -, -, -, -, hrun⟩ := predictive_prob argsort o i e dr hname hK hX hmask hl hinit hperm
  refine ⟨_, hrun _ rfl, ?_⟩
  have h0 : ∀ Q : List Nat → Prop, (cells e.train_mask.shape fun i => e.train_mask i = true ∧ Q i) = 0 := by
    classical
    intro Q
    unfold cells
    rw [List.countP_eq_zero]
    intro idx hidx
    simp [hnone idx (mem_indices.mp hidx)]
  have h1 := h0 fun _ => True
  simp only [and_true] at h1
  simp only [h0, h1, npDiv, Nat.cast_zero, if_true]

/-- **C88** is wrong for models that invert the data if `X` and `X_train` are one int8 array: the test cells have been
inverted too, and the accuracy is the share of cells that are predicted *wrong*. -/
theorem C88_aliased_wrong (argsort : Arr ℝ → List Nat) (o i : LOp) (e : Experiment) (dr : Draws)
    (hname : e.machine = modelName o i) (m : String) (f : Bool) (hinv : canonical_form e.machine = .ok (m, true, f))
    (hK : e.X_train.shape.length = 2 ∨ e.X_train.shape.length = 3 ∧ m = "OR-AND")
    (hX : e.X = e.X_train) (hmask : e.train_mask.shape = e.X_train.shape)
    (hsome : ∃ idx, InB e.train_mask.shape idx ∧ e.train_mask idx = true) (hsame : e.same = true) (hint : e.int8 = true)
    (hpm : ∀ idx, InB e.X.shape idx → e.train_mask idx = true → IsPM (e.X idx))
    (hl : e.anneal = false ∨ e.lbda_init ≠ 0) (hinit : ∀ k idx, IsPM (dr.init k idx))
    (hperm : ∀ t l, ∀ i ∈ dr.perm t l, i ∈ l) :
    ∃ (means : List (Arr ℝ)), means.length = e.X_train.shape.length ∧
      (∀ k, (hk : k < means.length) → means[k].shape = [e.X_train.shape.getD k 0, e.L]) ∧
      LOM_predictive argsort e dr = .ok ⟨.fin (testShare e.train_mask fun idx =>
        let p := lomProb o i fun (l : Fin e.L) (k : Fin means.length) =>
          let q := (means[k] [idx.getD k 0, l] + 1) / 2
          if f then 1 - q else q
        ¬ (1 / 2 < 1 - p ↔ e.X idx = -1)), e.machine, e.L, means.map .nums⟩ := by
  obtain ⟨m', d, f', data, means, hc, hd, hml, hmb, hrun⟩ := predictive_prob argsort o i e dr hname
    (hK.imp_right fun h => ⟨h.1, true, f, by rw [hinv, h.2]⟩) (by rw [hX]) hmask hl hinit hperm
  rw [hinv] at hc
  injection hc with hc
  simp only [Prod.mk.injEq] at hc
  obtain ⟨rfl, rfl, rfl⟩ := hc
  refine ⟨means, hml, fun k hk => (hmb k hk).1, ?_⟩
  rw [hrun data (if_pos ⟨hsame, hint⟩), npDiv, if_neg (test_pos hsome), testShare]
  congr 5
  refine cells_congr fun idx hidx => and_congr_right fun hm => ?_
  have hv : data idx = -e.X idx := by
    rw [Experiment.data, canonise_model, hinv, hint] at hd
    simp only [if_true] at hd
    have hd := congrArg Prod.fst hd
    simp only [Option.some.injEq] at hd
    rw [← hd, ← hX]
    have := hpm idx (by rw [hX, ← hmask]; exact hidx) hm
    show wrap8 (-e.X idx) = -e.X idx
    rcases this with h | h <;> rw [h] <;> decide
  simp only [if_true, hv]
  generalize (1 / 2 < 1 - lomProb o i _ : Prop) = Q
  rcases hpm idx (by rw [hX, ← hmask]; exact hidx) hm with h | h <;> rw [h] <;> by_cases hQ : Q <;> simp [hQ]

theorem gtHalf_pm (Q : Prop) : (NpF.fin ((pm Q : Int) : ℝ)).gtHalf = true ↔ Q := by
  rw [NpF.gtHalf, decide_eq_true_eq, pm_toReal]
  by_cases hQ : Q
  · simp only [hQ, if_true, iff_true]; norm_num
  · simp only [hQ, if_false, iff_false]; norm_num

/-- **C88**: three axes and a model not treated as OR-AND. An entry counts as one only if all its samples are. -/
theorem C88_three (argsort : Arr ℝ → List Nat) (o i : LOp) (e : Experiment) (dr : Draws)
    (hname : e.machine = modelName o i)
    (hK : e.X_train.shape.length = 3) (hne : ∀ d f, canonical_form e.machine ≠ .ok ("OR-AND", d, f))
    (hX : e.X.shape = e.X_train.shape) (hmask : e.train_mask.shape = e.X_train.shape)
    (hsome : ∃ idx, InB e.train_mask.shape idx ∧ e.train_mask idx = true) (hsame : e.same = false ∨ e.int8 = false)
    (hl : e.anneal = false ∨ e.lbda_init ≠ 0) (hinit : ∀ k idx, IsPM (dr.init k idx))
    (hperm : ∀ t l, ∀ i ∈ dr.perm t l, i ∈ l) :
    ∃ (m : String) (d f : Bool) (means : List (Arr ℝ)), canonical_form e.machine = .ok (m, d, f) ∧
      means.length = e.X_train.shape.length ∧
      (∀ k, (hk : k < means.length) → means[k].shape = [e.X_train.shape.getD k 0, e.L] ∧
        ∀ idx, InB means[k].shape idx → -1 ≤ means[k] idx ∧ means[k] idx ≤ 1) ∧
      LOM_predictive argsort e dr = .ok ⟨.fin (testShare e.train_mask fun idx =>
        let p := lom o i fun (l : Fin e.L) (k : Fin means.length) =>
          if f then ¬ means[k] [idx.getD k 0, l] = 1 else means[k] [idx.getD k 0, l] = 1
        if d then (¬ p ↔ e.X idx = -1) else (p ↔ e.X idx = 1)), e.machine, e.L, means.map .nums⟩ := by
  obtain ⟨m, d, f, data, s, hc, hd1, hd2, heq, hm, hrow, hlen, hf, hS, hrun⟩ :=
    predictive_run argsort o i e dr hname (.inr hK) hX hmask hl hinit hperm
  obtain ⟨means, hme, hml, hmb, hms⟩ := means_list hf hS
  obtain ⟨P, hP, hPs, hPv⟩ := factor_mean_three argsort s m e.L e.L (hlen.trans hK) (by
    rintro rfl
    exact hne d f hc) hf hS (.inl rfl) hm
  refine ⟨m.name, d, f, means, hc, by rw [hml, hlen], by rw [← hrow]; exact hmb, ?_⟩
  rw [hrun P (by rw [hP]) hPs e.X (by
    rw [if_neg]
    rintro ⟨h1, h2⟩
    rcases hsame with h | h
    · rw [h] at h1; cases h1
    · rw [h] at h2; cases h2), hme, npDiv, if_neg (test_pos hsome), testShare]
  have hq : ∀ idx, InB e.train_mask.shape idx →
      ((lom m.outer m.inner fun (l : Fin e.L) (k : Fin s.factors.length) => onesShare s.factors[k] [idx.getD k 0, l] = 1) ↔
      lom m.outer m.inner fun (l : Fin e.L) (k : Fin means.length) => means[k] [idx.getD k 0, l] = 1) := by
    intro idx hidx
    rw [hmask, ← hrow] at hidx
    have : ∀ (n : Nat) (hn : n = s.factors.length), (lom m.outer m.inner fun (l : Fin e.L) (k : Fin s.factors.length) =>
        onesShare s.factors[k] [idx.getD k 0, l] = 1) ↔ lom m.outer m.inner fun (l : Fin e.L) (k : Fin n) =>
        onesShare (s.factors[(k : Nat)]'(hn ▸ k.2)) [idx.getD k 0, l] = 1 := by
      rintro n rfl; rfl
    rw [this means.length hml]
    refine lom_congr_iff fun l k => ?_
    rw [← hms k k.2 (hml ▸ k.2) _ _ (hidx.getD (k := k) (by rw [hrow, ← hlen, ← hml]; exact k.2)) l.2]
    constructor
    · intro h
      have : means[(k : Nat)] [idx.getD k 0, l] = 1 := by linarith
      exact this
    · intro h
      have h : means[(k : Nat)] [idx.getD k 0, l] = 1 := h
      rw [h]; norm_num
  congr 5
  refine cells_congr fun idx hidx => and_congr_right fun _ => ?_
  rw [hPv idx (by rw [hrow, ← hmask]; exact hidx), pm_congr (hq idx hidx), pm_congr (requested_bits heq _)]
  simp only
  generalize (lom o i _) = Q
  rw [gtHalf_pm]
  cases d <;> simp

/-- the hypotheses are met: a model that inverts its data, one test cell -/
theorem C88_hypotheses_met : ∃ (e : Experiment) (dr : Draws) (m : String) (f : Bool), e.machine = modelName .AND .AND ∧
    canonical_form e.machine = .ok (m, true, f) ∧ e.X_train.shape.length = 2 ∧ e.X.shape = e.X_train.shape ∧
    e.train_mask.shape = e.X_train.shape ∧ (∃ idx, InB e.train_mask.shape idx ∧ e.train_mask idx = true) ∧
    e.X_train [0, 1] = 0 ∧ e.same = false ∧ e.anneal = true ∧ e.lbda_init ≠ 0 ∧ e.L = 2 ∧
    (∀ idx, InB e.X.shape idx → e.train_mask idx = true → IsPM (e.X idx)) ∧
    (∀ k idx, IsPM (dr.init k idx)) ∧ ∀ t l, ∀ i ∈ dr.perm t l, i ∈ l :=
  ⟨⟨⟨[1, 2], fun idx => if idx = [0, 1] then -1 else 1⟩, ⟨[1, 2], fun idx => if idx = [0, 1] then 0 else 1⟩, true, false,
    ⟨[1, 2], fun idx => decide (idx = [0, 1])⟩, "AND-AND", 2, 1 / 10, true⟩,
    ⟨fun _ _ => 1, fun _ _ _ => 0, fun _ l => l, fun _ _ _ _ => .fin 0, fun _ _ _ => .fin 0, fun _ _ => 0⟩,
    _, _, by decide, rfl, rfl, rfl, rfl, ⟨[0, 1], ⟨by decide, by decide, trivial⟩, by simp⟩, by simp, rfl, rfl, by norm_num, rfl,
    fun idx _ h => by
      right
      simp only [decide_eq_true_eq] at h
      simp [h], fun _ _ => .inl rfl, fun _ _ _ h => h⟩

end LFM
