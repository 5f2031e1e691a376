import Verif.Spec.Output
import Verif.Props.Generate
import Verif.Props.Fuzzy
import Verif.Props.MaxMachine
import Verif.Props.Numeric

/-!
# C48-C51: posterior means, MAP estimates and layer outputs
-/

namespace LFM

open Spec

/-! ## C48 -/

theorem pm_bounds {x : Int} (h : IsPM x) : (-1 : ℝ) ≤ x ∧ (x : ℝ) ≤ 1 := by
  rcases h with rfl | rfl <;> norm_num

theorem sum_bounds (xs : List ℝ) (h : ∀ x ∈ xs, -1 ≤ x ∧ x ≤ 1) :
    -(xs.length : ℝ) ≤ xs.sum ∧ xs.sum ≤ xs.length := by
  induction xs with
  | nil => simp
  | cons x xs ih =>
    have h1 := h x List.mem_cons_self
    have h2 := ih fun y hy => h y (List.mem_cons_of_mem _ hy)
    simp only [List.sum_cons, List.length_cons, Nat.cast_add, Nat.cast_one]
    constructor <;> linarith [h1.1, h1.2, h2.1, h2.2]

/-- **C48.** The posterior mean of a sampled factor lies in `[-1, 1]`; without a trace it is the current value. -/
theorem C48_mean_in_range (L Lt : Nat) (f : OFac) (hf : LegalFac L Lt f) (hS : f.trace ≠ some []) :
    ∃ a N, f.mean = .nums a ∧ f.val.dim 0 = N ∧ a.shape = [N, if f.trace.isSome then Lt else L] ∧
      (∀ idx, InB a.shape idx → -1 ≤ a idx ∧ a idx ≤ 1) ∧
      (f.trace = none → a.shape = f.val.shape ∧ ∀ idx, a idx = f.val idx) ∧
      ∀ tr, f.trace = some tr → ∀ idx, a idx = (tr.map fun s => (s idx : ℝ)).sum / tr.length := by
  obtain ⟨N, hN, hs⟩ := hf.shape
  have hv := hf.val
  have hp := hf.samples
  obtain ⟨val, trace⟩ := f
  have hd : val.dim 0 = N := by simp only [Arr.dim]; rw [show val.shape = [N, L] from hN]; rfl
  match trace with
  | none =>
    refine ⟨toReal val, N, rfl, hd, hN, ?_, fun _ => ⟨rfl, fun idx => rfl⟩, by simp⟩
    intro idx hidx
    exact pm_bounds (hv idx hidx)
  | some [] => simp at hS
  | some (s :: ss) =>
    refine ⟨_, N, rfl, hd, hs _ rfl s List.mem_cons_self, ?_, by simp, ?_⟩
    · intro idx hidx
      have hpos : (0 : ℝ) < (s :: ss).length := by simp only [List.length_cons]; positivity
      have hb := sum_bounds ((s :: ss).map fun a => (a idx : ℝ)) (by
        intro x hx
        obtain ⟨a, ha, rfl⟩ := List.mem_map.1 hx
        refine pm_bounds (hp _ rfl a ha idx ?_)
        rw [hs _ rfl a ha, ← hs _ rfl s List.mem_cons_self]
        exact hidx)
      rw [List.length_map] at hb
      constructor
      · show -1 ≤ _ / _
        rw [le_div_iff₀ hpos]
        linarith [hb.1]
      · show _ / _ ≤ 1
        rw [div_le_one hpos]
        exact hb.2
    · rintro tr ⟨⟩ idx
      rfl

/-- the sum of `{-1, 1}` numbers is twice the number of ones minus their number -/
theorem sum_pm (xs : List Int) (h : ∀ x ∈ xs, IsPM x) :
    (xs.map fun (x : Int) => (x : ℝ)).sum = 2 * (xs.count 1 : ℝ) - xs.length := by
  induction xs with
  | nil => simp
  | cons x xs ih =>
    have h2 := ih fun y hy => h y (List.mem_cons_of_mem _ hy)
    rcases h x List.mem_cons_self with rfl | rfl
    · simp only [List.map_cons, List.sum_cons, h2, List.count_cons_self, List.length_cons]
      push_cast; ring
    · have : (-1 : Int) ≠ 1 := by decide
      simp only [List.map_cons, List.sum_cons, h2, List.count_cons_of_ne this, List.length_cons]
      push_cast; ring

theorem toMap_get (f : OFac) (a : Arr ℝ) (h : f.mean = .nums a) :
    f.set_to_map.val.shape = a.shape ∧ ∀ idx, f.set_to_map.val idx = if 0 < a idx then 1 else -1 := by
  simp only [OFac.set_to_map, h]
  refine ⟨rfl, fun idx => ?_⟩
  show (if (if 0 < a idx then (1 : Int) else 0) = 0 then (-1 : Int) else if 0 < a idx then 1 else 0) = _
  by_cases h : 0 < a idx <;> simp [h]

/-- **C48.** `set_to_map` on a factor with at least one sample: entries in `{-1, 1}`, and an entry is 1 exactly if
more than half of the samples are 1 there (ties give -1). The trace is kept. -/
theorem C48_set_to_map (L Lt : Nat) (f : OFac) (hf : LegalFac L Lt f) (tr : List (Arr Int))
    (htr : f.trace = some tr) (hS : tr ≠ []) :
    PMArr f.set_to_map.val ∧ f.set_to_map.val.shape = [f.val.dim 0, Lt] ∧ f.set_to_map.trace = some tr ∧
    ∀ idx, InB f.set_to_map.val.shape idx →
      (f.set_to_map.val idx = 1 ↔ tr.length < 2 * (tr.map fun s => s idx).count 1) := by
  obtain ⟨a, N, h1, hN, h2, -, -, h4⟩ := C48_mean_in_range L Lt f hf (by rw [htr]; simpa using hS)
  obtain ⟨g1, g2⟩ := toMap_get f a h1
  rw [htr] at h2
  refine ⟨fun idx _ => ?_, by rw [g1, h2, hN]; rfl, htr, fun idx hidx => ?_⟩
  · rw [g2]
    by_cases h : 0 < a idx
    · rw [if_pos h]; exact Or.inl rfl
    · rw [if_neg h]; exact Or.inr rfl
  · rw [g2, h4 tr htr]
    have hpos : (0 : ℝ) < tr.length := by
      have := List.length_pos_iff.2 hS
      exact_mod_cast this
    have hpm : ∀ x ∈ tr.map (fun s => s idx), IsPM x := by
      intro x hx
      obtain ⟨s, hs, rfl⟩ := List.mem_map.1 hx
      obtain ⟨N', hN', hsh⟩ := hf.shape
      refine hf.samples tr htr s hs idx ?_
      rw [hsh tr htr s hs]
      have : N' = N := by rw [← hN]; simp [Arr.dim, hN']
      rw [this]
      rw [g1, h2] at hidx
      exact hidx
    have e := sum_pm _ hpm
    rw [List.map_map, List.length_map] at e
    have e' : (tr.map fun s => (s idx : ℝ)).sum = 2 * ((tr.map fun s => s idx).count 1 : ℝ) - tr.length := e
    rw [e']
    have key : 0 < (2 * ((tr.map fun s => s idx).count 1 : ℝ) - tr.length) / tr.length ↔
        tr.length < 2 * (tr.map fun s => s idx).count 1 := by
      rw [div_pos_iff_of_pos_right hpos, sub_pos]
      exact_mod_cast Iff.rfl
    rw [← key]
    split <;> simp_all

/-- **C48.** Without a trace `set_to_map` leaves a legal factor as it is. -/
theorem C48_no_trace (L Lt : Nat) (f : OFac) (hf : LegalFac L Lt f) (htr : f.trace = none) :
    f.set_to_map.val.shape = f.val.shape ∧ ∀ idx, InB f.val.shape idx → f.set_to_map.val idx = f.val idx := by
  obtain ⟨a, N, h1, hN, h2, -, h3, -⟩ := C48_mean_in_range L Lt f hf (by simp [htr])
  obtain ⟨g1, g2⟩ := toMap_get f a h1
  obtain ⟨h5, h6⟩ := h3 htr
  refine ⟨g1.trans h5, fun idx hidx => ?_⟩
  rw [g2, h6]
  rcases hf.val idx hidx with h | h <;> rw [h] <;> norm_num

/-- a factor with three samples, two of which are 1 -/
def sampledFac : OFac where
  val := Arr.mat 1 [[-1]] 0
  trace := some [Arr.mat 1 [[1]] 0, Arr.mat 1 [[-1]] 0, Arr.mat 1 [[1]] 0]

theorem pm_single {x : Int} (h : IsPM x) : PMArr (Arr.mat 1 [[x]] 0) := by
  intro idx hidx
  match idx, hidx with
  | [0, 0], _ => exact h
  | [n + 1, _], hidx => exact absurd hidx.1 (by simp)
  | [0, l + 1], hidx => exact absurd hidx.2.1 (by simp)

/-- the hypotheses of C48 are met -/
theorem C48_hypotheses_met : LegalFac 1 1 sampledFac ∧ sampledFac.set_to_map.val [0, 0] = 1 ∧
    sampledFac.val [0, 0] = -1 := by
  have hf : LegalFac 1 1 sampledFac := by
    refine ⟨⟨1, rfl, ?_⟩, pm_single (Or.inr rfl), ?_⟩
    · rintro tr ⟨⟩ a ha
      simp only [List.mem_cons, List.not_mem_nil, or_false] at ha
      rcases ha with rfl | rfl | rfl <;> rfl
    · rintro tr ⟨⟩ a ha
      simp only [List.mem_cons, List.not_mem_nil, or_false] at ha
      rcases ha with rfl | rfl | rfl
      exacts [pm_single (Or.inl rfl), pm_single (Or.inr rfl), pm_single (Or.inl rfl)]
  refine ⟨hf, ?_, rfl⟩
  obtain ⟨-, h2, -, h4⟩ := C48_set_to_map 1 1 sampledFac hf _ rfl (by simp)
  rw [h4 [0, 0] (by rw [h2]; exact ⟨by decide, by decide, trivial⟩)]
  decide

/-! ## outputs of the generic models -/

theorem fast_ok (o i : LOp) (L : Nat) (factors : List (Arr Int)) (hne : factors ≠ [])
    (hcol : Columns factors L) (hpm : ∀ f ∈ factors, PMArr f) :
    ∃ X, lom_generate_data_fast factors (modelName o i) = .ok X ∧ X.shape = rowCounts factors ∧
      ∀ idx, InB (rowCounts factors) idx →
        X idx = pm (lom o i fun (l : Fin L) (k : Fin factors.length) =>
          factors[k] [idx.getD k 0, l] = 1) := by
  obtain ⟨Y, h1, h2, h3⟩ := C03_all_models_all_arities o i L factors hne hcol
  have h := C04_fast_agrees L factors (modelName o i) hcol hpm
  rw [h1] at h
  cases hX : lom_generate_data_fast factors (modelName o i) with
  | error e => rw [hX] at h; exact h.elim
  | ok X =>
    rw [hX] at h
    refine ⟨X, rfl, h.1.trans h2, fun idx hidx => ?_⟩
    rw [h.2 idx (by rw [h.1, h2]; exact hidx), h3 idx hidx]

theorem computes_ne {model : String} {o i : LOp} (h : Computes model o i) :
    (if model = "OR-AND-IBP" then "OR-AND" else model) = modelName o i ∧
      modelName o i ≠ "MAX-AND" ∧ modelName o i ≠ "qL-AND" := by
  refine ⟨?_, by cases o <;> cases i <;> decide, by cases o <;> cases i <;> decide⟩
  rcases h with rfl | ⟨rfl, rfl, rfl⟩
  · rw [if_neg (by cases o <;> cases i <;> decide)]
  · rfl

/-- `output` when not lazy: the model is renamed during the computation and renamed back after a successful one -/
theorem output_eq (argsort : Arr ℝ → List Nat) (technique : String) (noisy mp : Bool) (s : OLayer) :
    output argsort technique noisy false mp s =
      match computeOutput argsort technique noisy
        { s with model := if s.model = "OR-AND-IBP" then "OR-AND" else s.model } with
      | .error e => (.error e, { s with model := if s.model = "OR-AND-IBP" then "OR-AND" else s.model })
      | .ok out => (.ok (if mp then out else out.map NpF.twiceMinusOne), { s with prediction := some out }) := by
  obtain ⟨model, factors, lbda, q, childShape, prediction⟩ := s
  by_cases hi : model = "OR-AND-IBP"
  · subst hi
    cases prediction <;> rfl
  · cases prediction <;> simp only [output, hi, if_false] <;> rfl

/-- `output` of a layer that computes `outer-inner`, not lazy -/
theorem output_generic (argsort : Arr ℝ → List Nat) (technique : String) (noisy mp : Bool) (s : OLayer) (o i : LOp)
    (hm : Computes s.model o i) (out : Arr NpF)
    (h : (do
      let out ← outputGeneric technique { s with model := modelName o i }
      if noisy then
        match s.lbda with
        | .scalar val tr => pure (out.map (noisyEntry (scalarMean val tr)))
        | .vector _ _ => throw Err.valueError
      else pure out : Except Err (Arr NpF)) = .ok out) :
    output argsort technique noisy false mp s =
      (.ok (if mp then out else out.map NpF.twiceMinusOne), { s with prediction := some out }) := by
  obtain ⟨h1, h2, h3⟩ := computes_ne hm
  have hc : computeOutput argsort technique noisy { s with model := modelName o i } = .ok out := by
    unfold computeOutput
    rw [if_neg h2, if_neg h3]
    exact h
  rw [output_eq, h1, hc]

/-! ## C51 -/

theorem foldlM_addTo (step : Nat → Except Err (Arr ℝ)) (sh : List Nat) (g : Nat → List Nat → ℝ) (S : Nat)
    (h : ∀ t < S, ∃ m, step t = .ok m ∧ m.shape = sh ∧ ∀ idx, InB sh idx → m idx = g t idx) :
    ∃ A, (List.range S).foldlM (fun (out : Arr ℝ) t => do
        let m ← step t
        addTo out m) (Arr.full sh 0) = .ok A ∧ A.shape = sh ∧
      ∀ idx, InB sh idx → A idx = ∑ t ∈ Finset.range S, g t idx := by
  induction S with
  | zero => exact ⟨_, rfl, rfl, fun idx _ => rfl⟩
  | succ S ih =>
    obtain ⟨A, h1, h2, h3⟩ := ih fun t ht => h t (by omega)
    obtain ⟨m, h4, h5, h6⟩ := h S (by omega)
    refine ⟨⟨A.shape, fun i => A i + m i⟩, ?_, h2, fun idx hidx => ?_⟩
    · rw [List.range_succ, List.foldlM_append, h1]
      show (do let m ← step S; addTo A m) >>= _ = _
      rw [h4]
      show (addTo A m >>= fun s => pure s) = _
      rw [addTo, if_pos (h5.trans h2.symm)]
      rfl
    · show A idx + m idx = _
      rw [Finset.sum_range_succ, h3 idx hidx, h6 idx hidx]

theorem traceAt_ok {factors : List OFac} {S t : Nat} (hS : ∀ f ∈ factors, HasSamples S f) (ht : t < S) :
    traceAt factors t = .ok (factors.map fun f => sample f t) := by
  unfold traceAt
  refine mapM_ok _ _ _ fun f hf => ?_
  obtain ⟨tr, h1, h2⟩ := hS f hf
  have h3 : tr[t]? = some tr[t] := List.getElem?_eq_getElem (by omega)
  simp only [h1, h3, sample, Option.getD_some, List.getD_eq_getElem?_getD]

theorem sample_mem {f : OFac} {S t : Nat} (h : HasSamples S f) (ht : t < S) :
    ∃ tr, f.trace = some tr ∧ sample f t ∈ tr := by
  obtain ⟨tr, h1, h2⟩ := h
  refine ⟨tr, h1, ?_⟩
  have h3 : tr[t]? = some tr[t] := List.getElem?_eq_getElem (by omega)
  simp only [sample, h1, Option.getD_some, List.getD_eq_getElem?_getD, h3]
  exact List.getElem_mem _

theorem rows_eq {s : OLayer} {L Lt : Nat} (h : ∀ f ∈ s.factors, LegalFac L Lt f) :
    (s.factors.map fun f => f.val.dim 0) = rows s := by
  unfold rows
  refine List.map_congr_left fun f hf => ?_
  obtain ⟨N, hN, -⟩ := (h f hf).shape
  simp [Arr.dim, hN]

open Classical in
theorem pm_toReal (P : Prop) : (((pm P : Int) : ℝ)) = if P then 1 else -1 := by
  unfold pm
  split <;> simp

open Classical in
theorem fraction_eq (S : Nat) (hS : 0 < S) (P : Nat → Prop) :
    (1 + (∑ t ∈ Finset.range S, ((pm (P t) : Int) : ℝ)) / S) * (1 / 2) = fraction S P := by
  have hpos : (S : ℝ) ≠ 0 := by positivity
  have e : ∑ t ∈ Finset.range S, ((pm (P t) : Int) : ℝ) =
      2 * ((Finset.univ.filter fun t : Fin S => P t).card : ℝ) - S := by
    rw [Finset.sum_range]
    have : ∀ t : Fin S, ((pm (P t) : Int) : ℝ) = 2 * (if P t then 1 else 0) - 1 := by
      intro t
      rw [pm_toReal]
      split <;> norm_num
    simp only [this, Finset.sum_sub_distrib, ← Finset.mul_sum, Finset.sum_boole]
    simp
  rw [e, fraction]
  field_simp
  ring

open Classical in
theorem fraction_mem (S : Nat) (P : Nat → Prop) : 0 ≤ fraction S P ∧ fraction S P ≤ 1 := by
  unfold fraction
  refine ⟨by positivity, div_le_one_of_le₀ ?_ (by positivity)⟩
  have := Finset.card_filter_le (Finset.univ : Finset (Fin S)) fun t => P t
  rw [Finset.card_univ, Fintype.card_fin] at this
  exact_mod_cast this

theorem lom_congr_len {L K K' : Nat} (h : K = K') (o i : LOp) (x : Fin L → Fin K → Prop) (y : Fin L → Fin K' → Prop)
    (hxy : ∀ l (k : Nat) (h1 : k < K) (h2 : k < K'), x l ⟨k, h1⟩ ↔ y l ⟨k, h2⟩) : lom o i x = lom o i y := by
  subst h
  refine congrArg (LOp.Holds o) (funext fun l => congrArg (LOp.Holds i) (funext fun k => ?_))
  exact propext (hxy l k k.2 k.2)

theorem mc_generic (s : OLayer) (o i : LOp) (L Lt S : Nat) (hne : s.factors ≠ [])
    (hf : ∀ f ∈ s.factors, LegalFac L Lt f) (hS : 0 < S) (hl : lbdaSamples s.lbda = some S)
    (hs : ∀ f ∈ s.factors, HasSamples S f) (hm : s.model = modelName o i) :
    ∃ X, outputGeneric "mc" s = .ok X ∧ X.shape = rows s ∧ ∀ idx, InB (rows s) idx →
      X idx = .fin (fraction S fun t => lom o i fun (l : Fin Lt) (k : Fin s.factors.length) =>
        sample s.factors[k] t [idx.getD k 0, l] = 1) := by
  have hstep : ∀ t < S, ∃ m, (do
      let fs ← traceAt s.factors t
      let m ← lom_generate_data_fast fs s.model
      pure (toReal m) : Except Err (Arr ℝ)) = .ok m ∧ m.shape = rows s ∧ ∀ idx, InB (rows s) idx →
      m idx = ((pm (lom o i fun (l : Fin Lt) (k : Fin s.factors.length) =>
        sample s.factors[k] t [idx.getD k 0, l] = 1) : Int) : ℝ) := by
    intro t ht
    have hshape : ∀ f ∈ s.factors, (sample f t).shape = [f.val.shape.headD 0, Lt] := by
      intro f hfm
      obtain ⟨tr, h1, h2⟩ := sample_mem (hs f hfm) ht
      obtain ⟨N, hN, h3⟩ := (hf f hfm).shape
      rw [h3 tr h1 _ h2, hN]
      rfl
    have hrow : rowCounts (s.factors.map fun f => sample f t) = rows s := by
      unfold rowCounts rows
      rw [List.map_map]
      refine List.map_congr_left fun f hfm => ?_
      show (sample f t).shape.headD 0 = _
      rw [hshape f hfm]
      rfl
    obtain ⟨X, h1, h2, h3⟩ := fast_ok o i Lt (s.factors.map fun f => sample f t) (by simpa using hne)
      (by
        intro g hg
        obtain ⟨f, hfm, rfl⟩ := List.mem_map.1 hg
        exact ⟨_, hshape f hfm⟩)
      (by
        intro g hg
        obtain ⟨f, hfm, rfl⟩ := List.mem_map.1 hg
        obtain ⟨tr, h1, h2⟩ := sample_mem (hs f hfm) ht
        exact (hf f hfm).samples tr h1 _ h2)
    refine ⟨toReal X, ?_, h2.trans hrow, fun idx hidx => ?_⟩
    · rw [traceAt_ok hs ht]
      show (lom_generate_data_fast _ s.model >>= fun m => pure (toReal m)) = _
      rw [hm, h1]
      rfl
    · show ((X idx : Int) : ℝ) = _
      rw [h3 idx (hrow ▸ hidx)]
      congr 1
      refine congrArg pm (lom_congr_len (by simp) o i _ _ fun l k h1 h2 => ?_)
      simp
  obtain ⟨A, h1, h2, h3⟩ := foldlM_addTo _ _ _ S hstep
  refine ⟨A.map fun x => (npDiv x S).halfPlus, ?_, h2, fun idx hidx => ?_⟩
  · have hz : zerosLike s.factors = Arr.full (rows s) 0 := by rw [zerosLike, rows_eq hf]
    have hb : (fun (out : Arr ℝ) t => do
        let fs ← traceAt s.factors t
        let m ← lom_generate_data_fast fs s.model
        addTo out (toReal m) : Arr ℝ → Nat → Except Err (Arr ℝ)) = (fun (out : Arr ℝ) t => do
        let m ← (do
          let fs ← traceAt s.factors t
          let m ← lom_generate_data_fast fs s.model
          pure (toReal m) : Except Err (Arr ℝ))
        addTo out m) := by
      funext out t
      simp
    have hl' : s.lbda.traceLen = some S := by
      rw [← hl]
      cases s.lbda <;> rfl
    unfold outputGeneric
    rw [if_neg (by decide), if_neg (by decide), if_neg (by decide), if_neg (by decide), if_pos rfl, hl']
    simp only [hz, hb, h1]
    rfl
  · show (npDiv (A idx) S).halfPlus = _
    have hpos : (S : ℝ) ≠ 0 := by positivity
    rw [npDiv, if_neg hpos, h3 idx hidx]
    show NpF.fin _ = _
    rw [fraction_eq S hS]

/-- **C51** (`_partial`: the eight implemented and all other combinations of operators, and OR-AND-IBP; for qL-AND it
fails, `C49_qL_wrong`, and MAX-AND is `C51_max_and`). With `technique='mc'`, a layer whose factors and lambda have
been sampled `S ≥ 1` times returns in every cell the fraction of samples whose factors predict 1. -/
theorem C51_mc_fraction_partial (argsort : Arr ℝ → List Nat) (s : OLayer) (o i : LOp) (L Lt S : Nat)
    (hne : s.factors ≠ []) (hf : ∀ f ∈ s.factors, LegalFac L Lt f) (hS : 0 < S)
    (hl : lbdaSamples s.lbda = some S) (hs : ∀ f ∈ s.factors, HasSamples S f) (hm : Computes s.model o i) :
    ∃ X, output argsort "mc" false false true s = (.ok X, { s with prediction := some X }) ∧ X.shape = rows s ∧
      ∀ idx, InB (rows s) idx →
        X idx = .fin (fraction S fun t => lom o i fun (l : Fin Lt) (k : Fin s.factors.length) =>
          sample s.factors[k] t [idx.getD k 0, l] = 1) := by
  obtain ⟨X, h1, h2, h3⟩ := mc_generic { s with model := modelName o i } o i L Lt S hne hf hS hl hs rfl
  refine ⟨X, ?_, h2, h3⟩
  rw [output_generic argsort "mc" false true s o i hm X]
  · rfl
  · rw [h1]
    rfl

/-! ## C49 -/

/-- all factors have means with the same number of columns -/
theorem means_ok {s : OLayer} {L Lt : Nat} (hf : ∀ f ∈ s.factors, LegalFac L Lt f)
    (hS : ∀ f ∈ s.factors, f.trace ≠ some []) (hw : L = Lt ∨ ∀ f ∈ s.factors, f.trace ≠ none) :
    ∃ g : OFac → Arr ℝ, ∀ f ∈ s.factors, f.mean = .nums (g f) ∧ (g f).shape = [f.val.shape.headD 0, Lt] ∧
      ∀ idx, InB (g f).shape idx → -1 ≤ g f idx ∧ g f idx ≤ 1 := by
  refine ⟨fun f => match f.mean with
    | .nums a => a
    | .nans _ => Arr.full [] 0, fun f hfm => ?_⟩
  obtain ⟨a, N, h1, hN, h2, h3, -, -⟩ := C48_mean_in_range L Lt f (hf f hfm) (hS f hfm)
  obtain ⟨N', hN', -⟩ := (hf f hfm).shape
  simp only [h1]
  refine ⟨trivial, ?_, h3⟩
  rw [h2, ← hN]
  congr 1
  · simp [Arr.dim, hN']
  · congr 1
    cases ht : f.trace with
    | none =>
      rcases hw with h | h
      · simp [h]
      · exact absurd ht (h f hfm)
    | some tr => simp

theorem allNums_ok {factors : List OFac} {g : OFac → Arr ℝ} (h : ∀ f ∈ factors, f.mean = .nums (g f)) :
    allNums (factors.map OFac.mean) = some (factors.map g) := by
  induction factors with
  | nil => rfl
  | cons f fs ih =>
    simp only [List.map_cons, h f List.mem_cons_self, allNums, ih fun x hx => h x (List.mem_cons_of_mem _ hx)]
    rfl

theorem liftMeans_ok {factors : List OFac} {g : OFac → Arr ℝ} (h : ∀ f ∈ factors, f.mean = .nums (g f))
    (formula : Bool) (F : List (Arr ℝ) → Except Err (Arr ℝ)) : liftMeans formula factors F = finArr <$> F (factors.map g) := by
  rw [liftMeans, allNums_ok h]

theorem prob_of_pm (P : Prop) : IsProb (.fin ((1 + ((pm P : Int) : ℝ)) * (1 / 2))) := by
  refine ⟨_, rfl, ?_⟩
  rw [pm_toReal]
  split <;> norm_num

/-- outputs of the generic models before noise are probabilities -/
theorem generic_prob (technique : String) (s : OLayer) (o i : LOp) (L Lt : Nat) (hne : s.factors ≠ [])
    (hf : ∀ f ∈ s.factors, LegalFac L Lt f) (hm : s.model = modelName o i)
    (hS : ∀ f ∈ s.factors, f.trace ≠ some []) (hw : L = Lt ∨ ∀ f ∈ s.factors, f.trace ≠ none)
    (ht : Supported technique s o i) :
    ∃ X, outputGeneric technique s = .ok X ∧ X.shape = rows s ∧ ∀ idx, InB (rows s) idx → IsProb (X idx) := by
  obtain ⟨g, hg⟩ := means_ok hf hS hw
  rcases ht with rfl | rfl | ⟨rfl, ht⟩ | ⟨rfl, S, hpos, hl, hs⟩
  · obtain ⟨X, h1, h2, h3⟩ := fast_ok o i L (s.factors.map (·.val)) (by simpa using hne)
      (by
        intro a ha
        obtain ⟨f, hfm, rfl⟩ := List.mem_map.1 ha
        obtain ⟨N, hN, -⟩ := (hf f hfm).shape
        exact ⟨N, hN⟩)
      (by
        intro a ha
        obtain ⟨f, hfm, rfl⟩ := List.mem_map.1 ha
        exact (hf f hfm).val)
    have hrow : rowCounts (s.factors.map (·.val)) = rows s := by simp [rowCounts, rows, Function.comp_def]
    refine ⟨finArr (X.map fun (x : Int) => (1 + (x : ℝ)) * (1 / 2)), ?_, h2.trans hrow, fun idx hidx => ?_⟩
    · unfold outputGeneric
      rw [if_pos rfl, hm, h1]
      rfl
    · show IsProb (.fin ((1 + ((X idx : Int) : ℝ)) * (1 / 2)))
      rw [h3 idx (hrow ▸ hidx)]
      exact prob_of_pm _
  · have hsh : ∀ f ∈ s.factors, f.mean.sign.shape = [f.val.shape.headD 0, Lt] := by
      intro f hfm
      rw [(hg f hfm).1]
      exact (hg f hfm).2.1
    have hrow : rowCounts (s.factors.map fun x => x.mean.sign) = rows s := by
      unfold rowCounts rows
      rw [List.map_map]
      refine List.map_congr_left fun f hfm => ?_
      show f.mean.sign.shape.headD 0 = _
      rw [hsh f hfm]
      rfl
    obtain ⟨X, h1, h2, h3⟩ := fast_ok o i Lt (s.factors.map fun x => x.mean.sign) (by simpa using hne)
      (by
        intro a ha
        obtain ⟨f, hfm, rfl⟩ := List.mem_map.1 ha
        exact ⟨_, hsh f hfm⟩)
      (by
        intro a ha
        obtain ⟨f, hfm, rfl⟩ := List.mem_map.1 ha
        intro idx _
        rw [(hg f hfm).1]
        show IsPM (if 0 < g f idx then 1 else -1)
        split
        · exact Or.inl rfl
        · exact Or.inr rfl)
    refine ⟨finArr (X.map fun x => if x = 1 then (1 : ℝ) else 0), ?_, h2.trans hrow, fun idx hidx => ?_⟩
    · unfold outputGeneric
      rw [if_neg (by decide), if_pos rfl, hm, h1]
      rfl
    · show IsProb (.fin (if X idx = 1 then (1 : ℝ) else 0))
      refine ⟨_, rfl, ?_⟩
      split <;> norm_num
  · have hprob : ∀ f ∈ s.factors, ProbArr ((g f).map fun x => (x + 1) * (1 / 2)) := by
      intro f hfm idx hidx
      have := (hg f hfm).2.2 idx hidx
      show 0 ≤ (g f idx + 1) * (1 / 2) ∧ (g f idx + 1) * (1 / 2) ≤ 1
      constructor <;> linarith [this.1, this.2]
    have hcomp : ∀ X, lom_generate_data_fast_fuzzy ((s.factors.map g).map fun a => a.map fun x => (x + 1) * (1 / 2))
        s.model = .ok X → outputGeneric "factor_mean" s = .ok (finArr X) := by
      intro X hX
      unfold outputGeneric
      rw [if_neg (by decide), if_neg (by decide), if_pos rfl, liftMeans_ok fun f hfm => (hg f hfm).1, hX]
      rfl
    rcases ht with ⟨hlen, m, rfl, rfl⟩ | ⟨hlen, rfl, rfl⟩
    · obtain ⟨f1, f2, he⟩ := List.length_eq_two.1 hlen
      have m1 : f1 ∈ s.factors := by simp [he]
      have m2 : f2 ∈ s.factors := by simp [he]
      obtain ⟨X, h1, h2, -⟩ := C52_exact_expectation m _ _ Lt ((g f1).map fun x => (x + 1) * (1 / 2))
        ((g f2).map fun x => (x + 1) * (1 / 2)) (hg f1 m1).2.1 (hg f2 m2).2.1
      have h4 := C52_in_unit_interval m _ _ Lt ((g f1).map fun x => (x + 1) * (1 / 2))
        ((g f2).map fun x => (x + 1) * (1 / 2)) X (hg f1 m1).2.1 (hg f2 m2).2.1 (hprob f1 m1) (hprob f2 m2) h1
      have hrow : X.shape = rows s := by rw [h2, rows, he]; rfl
      refine ⟨finArr X, hcomp X ?_, hrow, fun idx hidx => ?_⟩
      · rw [he, hm]
        unfold lom_generate_data_fast_fuzzy
        rw [if_neg (not_not.2 ((implemented_iff (modelName m.outer m.inner)).2 ⟨m, rfl⟩))]
        exact h1
      · exact ⟨X idx, rfl, h4 idx (hrow ▸ hidx)⟩
    · obtain ⟨f1, f2, f3, he⟩ := List.length_eq_three.1 hlen
      have m1 : f1 ∈ s.factors := by simp [he]
      have m2 : f2 ∈ s.factors := by simp [he]
      have m3 : f3 ∈ s.factors := by simp [he]
      obtain ⟨X, h1, h2, -⟩ := C53_exact_expectation_partial .OR_AND (by decide) _ _ _ Lt
        ((g f1).map fun x => (x + 1) * (1 / 2)) ((g f2).map fun x => (x + 1) * (1 / 2))
        ((g f3).map fun x => (x + 1) * (1 / 2)) (hg f1 m1).2.1 (hg f2 m2).2.1 (hg f3 m3).2.1
      have h4 := C53_in_unit_interval_partial .OR_AND (by decide) _ _ _ Lt
        ((g f1).map fun x => (x + 1) * (1 / 2)) ((g f2).map fun x => (x + 1) * (1 / 2))
        ((g f3).map fun x => (x + 1) * (1 / 2)) X (hg f1 m1).2.1 (hg f2 m2).2.1
        (hg f3 m3).2.1 (hprob f1 m1) (hprob f2 m2) (hprob f3 m3) h1
      have hrow : X.shape = rows s := by rw [h2, rows, he]; rfl
      refine ⟨finArr X, hcomp X ?_, hrow, fun idx hidx => ?_⟩
      · rw [he, hm]
        unfold lom_generate_data_fast_fuzzy
        rw [if_neg (not_not.2 ((implemented_iff (modelName .OR .AND)).2 ⟨.OR_AND, rfl⟩))]
        show (if modelName .OR .AND = "OR-AND" then _ else _) = _
        rw [if_pos (by decide)]
        exact h1
      · exact ⟨X idx, rfl, h4 idx (hrow ▸ hidx)⟩
  · obtain ⟨X, h1, h2, h3⟩ := mc_generic s o i L Lt S hne hf hpos hl hs hm
    exact ⟨X, h1, h2, fun idx hidx => ⟨_, h3 idx hidx, fraction_mem _ _⟩⟩

theorem npSum_legal (xs : List NpF) (h : ∀ x ∈ xs, x ≠ .nan ∧ x ≠ .negInf) :
    (∃ y, npSum xs = .fin y) ∨ npSum xs = .posInf := by
  have key : ∀ (xs : List NpF) (acc : NpF), ((∃ y, acc = .fin y) ∨ acc = .posInf) →
      (∀ x ∈ xs, x ≠ .nan ∧ x ≠ .negInf) →
      (∃ y, xs.foldl NpF.add acc = .fin y) ∨ xs.foldl NpF.add acc = .posInf := by
    intro xs
    induction xs with
    | nil => exact fun acc h _ => h
    | cons x xs ih =>
      intro acc ha hx
      refine ih _ ?_ fun y hy => hx y (List.mem_cons_of_mem _ hy)
      obtain ⟨h1, h2⟩ := hx x List.mem_cons_self
      rcases ha with ⟨y, rfl⟩ | rfl
      · cases x with
        | fin z => exact Or.inl ⟨_, rfl⟩
        | posInf => exact Or.inr rfl
        | negInf => exact absurd rfl h2
        | nan => exact absurd rfl h1
      · cases x with
        | fin z => exact Or.inr rfl
        | posInf => exact Or.inr rfl
        | negInf => exact absurd rfl h2
        | nan => exact absurd rfl h1
  exact key xs (.fin 0) (Or.inl ⟨0, rfl⟩) h

theorem scalarMean_legal {val : NpF} {tr : Option (List NpF)} (h : LegalLbda (.scalar val tr)) :
    (∃ y, scalarMean val tr = .fin y) ∨ scalarMean val tr = .posInf := by
  cases tr with
  | none =>
    cases val with
    | fin z => exact Or.inl ⟨_, rfl⟩
    | posInf => exact Or.inr rfl
    | negInf => exact absurd rfl h.2
    | nan => exact absurd rfl h.1
  | some xs =>
    have hpos : (xs.length : ℝ) ≠ 0 := by simpa using h.1
    rcases npSum_legal xs h.2 with ⟨y, hy⟩ | hy
    · left
      refine ⟨y / xs.length, ?_⟩
      simp [scalarMean, npMean, hy, npDiv, hpos]
    · right
      simp [scalarMean, npMean, hy]

/-- noise leaves probabilities probabilities -/
theorem noisy_prob {m x : NpF} (hm : (∃ y, m = .fin y) ∨ m = .posInf) (hx : IsProb x) : IsProb (noisyEntry m x) := by
  obtain ⟨p, rfl, h0, h1⟩ := hx
  rcases hm with ⟨y, rfl⟩ | rfl
  · refine ⟨_, rfl, ?_⟩
    obtain ⟨-, h3, h4, h5⟩ := C69_expit y
    rw [h5]
    constructor <;> nlinarith
  · refine ⟨_, rfl, ?_⟩
    constructor <;> linarith

/-- **C49** (`_partial`: all 36 combinations of operators and OR-AND-IBP, with the restriction on `factor_mean` of
`Supported`; for more factors, for qL-AND and for `factor_mean` of MAX-AND it fails, `C49_factor_mean_wrong`,
`C49_qL_wrong`, `C49_max_wrong`). The output has one cell per combination of rows, all of them in `[0, 1]`, or in
`[-1, 1]` with `map_to_probabilities=False`. -/
theorem C49_probabilities_partial (argsort : Arr ℝ → List Nat) (technique : String) (noisy mp : Bool) (s : OLayer)
    (o i : LOp) (L Lt : Nat) (hne : s.factors ≠ []) (hf : ∀ f ∈ s.factors, LegalFac L Lt f)
    (hm : Computes s.model o i) (hS : ∀ f ∈ s.factors, f.trace ≠ some [])
    (hw : L = Lt ∨ ∀ f ∈ s.factors, f.trace ≠ none) (ht : Supported technique s o i)
    (hn : noisy = true → LegalLbda s.lbda) :
    ∃ X, (output argsort technique noisy false mp s).1 = .ok X ∧ X.shape = rows s ∧
      ∀ idx, InB (rows s) idx → if mp then IsProb (X idx) else IsSigned (X idx) := by
  obtain ⟨X, h1, h2, h3⟩ := generic_prob technique { s with model := modelName o i } o i L Lt hne hf rfl hS hw ht
  suffices h : ∃ Y, (do
      let out ← outputGeneric technique { s with model := modelName o i }
      if noisy then
        match s.lbda with
        | .scalar val tr => pure (out.map (noisyEntry (scalarMean val tr)))
        | .vector _ _ => throw Err.valueError
      else pure out : Except Err (Arr NpF)) = .ok Y ∧ Y.shape = rows s ∧
      ∀ idx, InB (rows s) idx → IsProb (Y idx) by
    obtain ⟨Y, g1, g2, g3⟩ := h
    rw [output_generic argsort technique noisy mp s o i hm Y g1]
    refine ⟨_, rfl, ?_, fun idx hidx => ?_⟩
    · cases mp
      · exact g2
      · exact g2
    · cases mp
      · obtain ⟨p, e, p0, p1⟩ := g3 idx hidx
        show IsSigned (Y idx).twiceMinusOne
        rw [e]
        exact ⟨_, rfl, by linarith, by linarith⟩
      · exact g3 idx hidx
  rw [h1]
  cases noisy with
  | false => exact ⟨X, rfl, h2, h3⟩
  | true =>
    have hl := hn rfl
    cases hb : s.lbda with
    | vector a b => rw [hb] at hl; exact hl.elim
    | scalar val tr =>
      rw [hb] at hl
      exact ⟨_, rfl, h2, fun idx hidx => noisy_prob (scalarMean_legal hl) (h3 idx hidx)⟩

/-- the noise model: with `noisy_emission` a real lambda mixes the noise-free probability `p` of a cell with the
probability of a flip -/
theorem C49_noise_formula (argsort : Arr ℝ → List Nat) (technique : String) (s : OLayer) (o i : LOp)
    (hm : Computes s.model o i) (x : ℝ) (tr : Option (List NpF)) (val : NpF) (hl : s.lbda = .scalar val tr)
    (hx : scalarMean val tr = .fin x) (X : Arr NpF)
    (hX : (output argsort technique false false true s).1 = .ok X) :
    ∃ Y, (output argsort technique true false true s).1 = .ok Y ∧ Y.shape = X.shape ∧
      ∀ idx p, X idx = .fin p → Y idx = .fin (p * sigmoid x + (1 - p) * (1 - sigmoid x)) := by
  obtain ⟨h1, h2, h3⟩ := computes_ne hm
  rw [output_eq, h1] at hX ⊢
  have e1 : ∀ noisy, computeOutput argsort technique noisy { s with model := modelName o i } = (do
      let out ← outputGeneric technique { s with model := modelName o i }
      if noisy then
        match s.lbda with
        | .scalar val tr => pure (out.map (noisyEntry (scalarMean val tr)))
        | .vector _ _ => throw Err.valueError
      else pure out) := by
    intro noisy
    unfold computeOutput
    rw [if_neg h2, if_neg h3]
    rfl
  rw [e1] at hX ⊢
  cases hg : outputGeneric technique { s with model := modelName o i } with
  | error e => rw [hg] at hX; simp [bind, Except.bind] at hX
  | ok out =>
    rw [hg] at hX
    have : out = X := by simpa [bind, Except.bind, pure, Except.pure] using hX
    subst this
    simp only [bind, Except.bind, hl, hx, pure, Except.pure, if_true]
    refine ⟨_, rfl, rfl, fun idx p hp => ?_⟩
    show noisyEntry _ (out idx) = _
    rw [hp]
    obtain ⟨h4, -, -, h5⟩ := C69_expit x
    show NpF.fin (p * expit x + (1 - p) * expit (-x)) = _
    rw [h5, h4]

/-- three factors with a single entry 1, model OR-NAND -/
def orNand3 : OLayer where
  model := "OR-NAND"
  factors := [⟨Arr.mat 1 [[1]] 0, none⟩, ⟨Arr.mat 1 [[1]] 0, none⟩, ⟨Arr.mat 1 [[1]] 0, none⟩]
  lbda := .scalar .posInf none
  q := Arr.full [] 0
  childShape := [1, 1, 1]
  prediction := none

/-- **C49** is false for `factor_mean` with three factors and another model than OR-AND: the posterior means are
passed to an implementation that returns -1 and 1. -/
theorem C49_factor_mean_wrong (argsort : Arr ℝ → List Nat) :
    (∀ f ∈ orNand3.factors, LegalFac 1 1 f) ∧ Computes orNand3.model .OR .NAND ∧
    ∃ X, (output argsort "factor_mean" false false true orNand3).1 = .ok X ∧ X.shape = [1, 1, 1] ∧
      X [0, 0, 0] = .fin (-1) := by
  refine ⟨?_, Or.inl (by decide), ?_⟩
  · intro f hf
    simp only [orNand3, List.mem_cons, List.not_mem_nil, or_false, or_self] at hf
    subst hf
    exact ⟨⟨1, rfl, by simp⟩, pm_single (Or.inl rfl), by simp⟩
  · have hm : ∀ f ∈ orNand3.factors, f.mean = .nums (toReal f.val) := by
      intro f hf
      simp only [orNand3, List.mem_cons, List.not_mem_nil, or_false, or_self] at hf
      subst hf
      rfl
    obtain ⟨X, h1, h2, h3⟩ := C03_all_models_all_arities .OR .NAND 1
      ((((orNand3.factors.map fun f => toReal f.val).map fun a => a.map fun x => (x + 1) * (1 / 2))).map
        fun f => f.map fun x => if x = 1 then 1 else 0) (by simp [orNand3])
      (by
        intro f hf
        simp only [orNand3, List.map_cons, List.map_nil, List.mem_cons, List.not_mem_nil, or_false, or_self] at hf
        subst hf
        exact ⟨1, rfl⟩)
    have hg : outputGeneric "factor_mean" orNand3 = .ok (finArr (toReal X)) := by
      unfold outputGeneric
      rw [if_neg (by decide), if_neg (by decide), if_pos rfl, liftMeans_ok hm]
      unfold lom_generate_data_fast_fuzzy
      rw [if_neg (by decide)]
      show finArr <$> (if orNand3.model = "OR-AND" then _ else toReal <$> lom_generate_data _ (modelName .OR .NAND)) = _
      rw [if_neg (by decide)]
      erw [h1]
      rfl
    refine ⟨finArr (toReal X), ?_, h2, ?_⟩
    · rw [output_generic argsort "factor_mean" false true orNand3 .OR .NAND (Or.inl (by decide)) (finArr (toReal X))]
      · rfl
      · show (outputGeneric "factor_mean" orNand3 >>= fun out => pure out) = _
        rw [hg]
        rfl
    · show NpF.fin ((X [0, 0, 0] : Int) : ℝ) = _
      rw [h3 [0, 0, 0] (by simp [rowCounts, orNand3, InB, Arr.mat, toReal, Arr.map])]
      rw [pm_toReal, if_neg]
      rintro ⟨l, hl⟩
      refine hl fun k => ?_
      have hl0 : l = 0 := Subsingleton.elim _ _
      subst hl0
      have hk : (k : Nat) < 3 := k.2
      obtain ⟨k, hk'⟩ := k
      simp only at hk
      interval_cases k <;> simp [orNand3, Arr.map, toReal, Arr.mat] <;> norm_num

/-- a qL-AND layer whose single cell is predicted to be 0 -/
def qlLayer : OLayer where
  model := "qL-AND"
  factors := [⟨Arr.mat 1 [[1]] 0, some [Arr.mat 1 [[1]] 0]⟩, ⟨Arr.mat 1 [[-1]] 0, some [Arr.mat 1 [[1]] 0]⟩]
  lbda := .scalar (.fin 1) (some [.fin 1])
  q := Arr.mat 1 [[1]] 0
  childShape := [1, 1]
  prediction := none

/-- **C49** and **C51** are false for qL-AND: the output is -1 (not 0), `-3` with `map_to_probabilities=False`, and
whatever the technique, the samples are not looked at (here the only sample predicts 1). -/
theorem C49_qL_wrong (argsort : Arr ℝ → List Nat) (technique : String) (noisy : Bool) :
    (∀ f ∈ qlLayer.factors, LegalFac 1 1 f ∧ HasSamples 1 f) ∧
    (∃ X, (output argsort technique noisy false true qlLayer).1 = .ok X ∧ X.shape = [1, 1] ∧ X [0, 0] = .fin (-1)) ∧
    (∃ X, (output argsort technique noisy false false qlLayer).1 = .ok X ∧ X.shape = [1, 1] ∧ X [0, 0] = .fin (-3)) ∧
    qL_AND_product ((sample qlLayer.factors[1] 0).row 0) ((sample qlLayer.factors[0] 0).row 0) 1 = 1 := by
  have hc : computeOutput argsort technique noisy qlLayer = .ok (Arr.full [1, 1] (.fin 0) |>.set [0, 0]
      (.fin (-1))) := by
    have : qL_AND_product ((Arr.mat 1 [[(-1 : Int)]] 0).row 0) ((Arr.mat 1 [[1]] 0).row 0)
      ((Arr.mat 1 [[(1 : Int)]] 0) [0, 0]) = -1 := by decide
    show Except.ok ((Arr.full [1, 1] (NpF.fin 0) |>.set [0, 0] (NpF.fin ((qL_AND_product
      ((Arr.mat 1 [[(-1 : Int)]] 0).row 0) ((Arr.mat 1 [[1]] 0).row 0) ((Arr.mat 1 [[(1 : Int)]] 0) [0, 0]) : Int) : ℝ)))) = _
    rw [this]
    norm_num
  have hs : ({ qlLayer with model := if qlLayer.model = "OR-AND-IBP" then "OR-AND" else qlLayer.model } : OLayer) =
      qlLayer := rfl
  refine ⟨?_, ⟨(Arr.full [1, 1] (.fin 0)).set [0, 0] (.fin (-1)), ?_, rfl, rfl⟩, ⟨((Arr.full [1, 1] (.fin 0)).set [0, 0] (.fin (-1))).map NpF.twiceMinusOne, ?_, rfl, ?_⟩, by decide⟩
  · intro f hf
    simp only [qlLayer, List.mem_cons, List.not_mem_nil, or_false] at hf
    rcases hf with rfl | rfl
    · refine ⟨⟨⟨1, rfl, ?_⟩, pm_single (Or.inl rfl), ?_⟩, _, rfl, rfl⟩
      · rintro tr ⟨⟩ a ha; simp only [List.mem_cons, List.not_mem_nil, or_false] at ha; subst ha; rfl
      · rintro tr ⟨⟩ a ha; simp only [List.mem_cons, List.not_mem_nil, or_false] at ha; subst ha
        exact pm_single (Or.inl rfl)
    · refine ⟨⟨⟨1, rfl, ?_⟩, pm_single (Or.inr rfl), ?_⟩, _, rfl, rfl⟩
      · rintro tr ⟨⟩ a ha; simp only [List.mem_cons, List.not_mem_nil, or_false] at ha; subst ha; rfl
      · rintro tr ⟨⟩ a ha; simp only [List.mem_cons, List.not_mem_nil, or_false] at ha; subst ha
        exact pm_single (Or.inl rfl)
  · rw [output_eq, hs, hc]
    rfl
  · rw [output_eq, hs, hc]
    rfl
  · show (NpF.fin (-1)).twiceMinusOne = _
    show NpF.fin _ = _
    norm_num

end LFM
