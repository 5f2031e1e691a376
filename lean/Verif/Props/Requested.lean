import Verif.Model.AddLayer
import Verif.Props.Canonise
import Verif.Props.PointOutput

/-!
# C87: predictions of a layer and the model that was asked for
-/

namespace LFM

open Spec

/-- relative frequency of ones among the samples of an entry; without samples 1 if the entry is one, else 0 -/
noncomputable def Spec.onesShare (f : OFac) (idx : List Nat) : ℝ :=
  match f.trace with
  | none => if f.val idx = 1 then 1 else 0
  | some tr => (tr.countP fun a => a idx = 1 : Nat) / tr.length

theorem sum_pm_count (tr : List (Arr Int)) (idx : List Nat) (h : ∀ a ∈ tr, IsPM (a idx)) :
    (tr.map fun a => ((a idx : Int) : ℝ)).sum = 2 * (tr.countP fun a => a idx = 1 : Nat) - tr.length := by
  induction tr with
  | nil => simp
  | cons a tr ih =>
    rw [List.map_cons, List.sum_cons, ih fun b hb => h b (List.mem_cons_of_mem _ hb), List.countP_cons, List.length_cons]
    rcases h a List.mem_cons_self with ha | ha <;> rw [ha] <;> push_cast <;> simp <;> ring

/-- `(x.mean() + 1) / 2` is the frequency of ones -/
theorem mean_share {L Lt : Nat} {f : OFac} (hf : LegalFac L Lt f) (hS : f.trace ≠ some []) (hw : L = Lt ∨ f.trace ≠ none)
    {a : Arr ℝ} (ha : f.mean = .nums a) {n l : Nat} (hn : n < f.val.shape.headD 0) (hl : l < Lt) :
    (a [n, l] + 1) * (1 / 2) = onesShare f [n, l] := by
  obtain ⟨N, hN, hNt⟩ := hf.shape
  rw [hN, List.headD_cons] at hn
  cases ht : f.trace with
  | none =>
    rw [OFac.mean, ht] at ha
    injection ha with ha
    subst ha
    obtain rfl := hw.resolve_right (not_not_intro ht)
    rw [onesShare, ht]
    show (((f.val [n, l] : Int) : ℝ) + 1) * (1 / 2) = if f.val [n, l] = 1 then 1 else 0
    rcases hf.val [n, l] (by rw [hN]; exact ⟨hn, hl, trivial⟩) with h | h <;> rw [h] <;> norm_num
  | some tr =>
    rw [onesShare, ht]
    cases tr with
    | nil => exact absurd ht hS
    | cons s ss =>
      rw [OFac.mean, ht] at ha
      injection ha with ha
      subst ha
      show ((((s :: ss).map fun a => ((a [n, l] : Int) : ℝ)).sum / ((s :: ss).length : ℝ)) + 1) * (1 / 2) = _
      rw [sum_pm_count _ _ fun a ha => hf.samples _ ht a ha _ (by rw [hNt _ ht a ha]; exact ⟨hn, hl, trivial⟩)]
      have : ((s :: ss).length : ℝ) ≠ 0 := by simp; positivity
      field_simp
      ring

theorem lom_congr_iff {ι κ : Type} {o i : LOp} {x y : ι → κ → Prop} (h : ∀ l k, x l k ↔ y l k) : lom o i x ↔ lom o i y := by
  have : x = y := by
    funext l k
    exact propext (h l k)
  rw [this]

/-- independent bits that are inverted are true with the complementary probabilities -/
theorem bernProb_flip {ι : Type} [Fintype ι] (p : ι → ℝ) (P : (ι → Prop) → Prop) :
    bernProb (fun i => 1 - p i) P = bernProb p fun b => P fun i => ¬ b i := by
  classical
  unfold bernProb
  refine Fintype.sum_equiv ⟨fun b i => !b i, fun b i => !b i, fun b => by simp, fun b => by simp⟩ _ _ fun b => ?_
  simp only [Equiv.coe_fn_mk, Bool.not_eq_true', Bool.not_eq_true, Bool.not_eq_false]
  congr 1
  refine Finset.prod_congr rfl fun i _ => ?_
  cases b i <;> simp

/-- the probability of a one in the requested model -/
theorem lomProb_requested {o i : LOp} {m : Lom8} {d f : Bool}
    (heq : ∀ (ι κ : Type) (x : ι → κ → Prop),
      lom o i x ↔ (if d then ¬ lom m.outer m.inner (fun l k => if f then ¬ x l k else x l k)
        else lom m.outer m.inner (fun l k => if f then ¬ x l k else x l k)))
    {L K : Nat} (q : Fin L → Fin K → ℝ) :
    lomProb o i (fun l k => if f then 1 - q l k else q l k) =
      if d then 1 - lomProb m.outer m.inner q else lomProb m.outer m.inner q := by
  have key : lomProb o i (fun l k => if f then 1 - q l k else q l k) =
      bernProb (fun i : Fin L × Fin K => q i.1 i.2) fun b => if d then ¬ lom m.outer m.inner (fun l k => b (l, k))
        else lom m.outer m.inner fun l k => b (l, k) := by
    cases f with
    | false =>
      simp only [Bool.false_eq_true, if_false] at heq ⊢
      exact bernProb_congr fun b => heq _ _ _
    | true =>
      simp only [if_true] at heq ⊢
      rw [lomProb, bernProb_flip (fun i : Fin L × Fin K => q i.1 i.2)]
      refine bernProb_congr fun b => (heq _ _ _).trans ?_
      simp only [not_not]
  rw [key]
  cases d with
  | false => simp [lomProb]
  | true => simp [lomProb, bernProb_not]

/-- the model that the layer computes and the model that was asked for -/
theorem canonise_meaning (o i : LOp) (child : Option (Arr Int)) {model : String} {d f : Bool}
    (h : (canonise_model (modelName o i) child).2 = .ok (model, d, f)) :
    ∃ m : Lom8, model = m.name ∧ ∀ (ι κ : Type) (x : ι → κ → Prop),
      lom o i x ↔ (if d then ¬ lom m.outer m.inner (fun l k => if f then ¬ x l k else x l k)
        else lom m.outer m.inner (fun l k => if f then ¬ x l k else x l k)) := by
  obtain ⟨m, d', f', hc, heq⟩ := canonical_table o i
  have hcan : (model, d, f) = (m.name, d', f') := by
    unfold canonise_model at h
    rw [hc] at h
    cases d' with
    | false => simpa using h.symm
    | true =>
      cases child with
      | none => simp at h
      | some c => simpa using h.symm
  simp only [Prod.mk.injEq] at hcan
  obtain ⟨rfl, rfl, rfl⟩ := hcan
  exact ⟨m, rfl, heq⟩

/-- a layer that `add_layer` returns has been canonised -/
theorem add_layer_canonised {s : Sys} {c : Call} {lay : LayerRec} (h : (add_layer s c).2 = .ok lay) :
    (canonise_model c.model (c.child.map s.data)).2 = .ok (lay.model, lay.invert_data, lay.invert_factors) := by
  unfold add_layer at h
  cases hr : (canonise_model c.model (c.child.map s.data)).2 with
  | error e => simp only [hr] at h; cases h
  | ok r =>
    obtain ⟨model, d, f⟩ := r
    simp only [hr] at h
    unfold attach at h
    split at h
    · simp only at h
      split at h
      · cases h
      · injection h with h; subst h; rfl
    · simp only at h
      split at h
      · cases h
      · injection h with h; subst h; rfl
    · cases h

/-- `factor_mean` of the eight implemented models, two factors, or three and OR-AND -/
theorem factor_mean_exact (argsort : Arr ℝ → List Nat) (s : OLayer) (m : Lom8) (L Lt : Nat)
    (hlen : s.factors.length = 2 ∨ s.factors.length = 3 ∧ m = .OR_AND) (hf : ∀ f ∈ s.factors, LegalFac L Lt f)
    (hS : ∀ f ∈ s.factors, f.trace ≠ some []) (hw : L = Lt ∨ ∀ f ∈ s.factors, f.trace ≠ none) (hm : s.model = m.name) :
    ∃ X, output argsort "factor_mean" false false true s = (.ok X, { s with prediction := some X }) ∧ X.shape = rows s ∧
      ∀ idx, InB (rows s) idx → X idx = .fin (lomProb m.outer m.inner fun (l : Fin Lt) (k : Fin s.factors.length) =>
        onesShare s.factors[k] [idx.getD k 0, l]) := by
  obtain ⟨g, hg⟩ := means_ok hf hS hw
  have hout : ∀ X, lom_generate_data_fast_fuzzy ((s.factors.map g).map fun a => a.map fun x => (x + 1) * (1 / 2))
      m.name = .ok X → output argsort "factor_mean" false false true s = (.ok (finArr X), { s with prediction := some (finArr X) }) := by
    intro X hX
    rw [output_generic argsort "factor_mean" false true s m.outer m.inner (.inl hm) (finArr X)]
    · rfl
    · unfold outputGeneric
      rw [if_neg (by decide), if_neg (by decide), if_pos rfl, liftMeans_ok fun f hfm => (hg f hfm).1]
      show (finArr <$> lom_generate_data_fast_fuzzy _ m.name >>= fun out => pure out) = _
      rw [hX]
      rfl
  have hshare : ∀ f ∈ s.factors, ∀ n l, n < f.val.shape.headD 0 → l < Lt →
      ((g f).map fun x => (x + 1) * (1 / 2)) [n, l] = onesShare f [n, l] := fun f hfm n l hn hl =>
    mean_share (hf f hfm) (hS f hfm) (hw.imp_right fun h => h f hfm) (hg f hfm).1 hn hl
  obtain ⟨model, factors, lbda, q, cs, pred⟩ := s
  simp only at hlen hf hS hw hm hg hshare hout ⊢
  rcases hlen with hlen | ⟨hlen, rfl⟩
  · obtain ⟨f1, f2, rfl⟩ := List.length_eq_two.1 hlen
    obtain ⟨X, h1, h2, h3⟩ := C52_exact_expectation m _ _ Lt ((g f1).map fun x => (x + 1) * (1 / 2))
      ((g f2).map fun x => (x + 1) * (1 / 2)) (hg f1 (by simp)).2.1 (hg f2 (by simp)).2.1
    refine ⟨finArr X, hout X ?_, h2, fun idx hidx => ?_⟩
    · unfold lom_generate_data_fast_fuzzy
      rw [if_neg (not_not.2 ((implemented_iff m.name).2 ⟨m, rfl⟩))]
      exact h1
    · match idx, hidx with
      | [n, d], hidx =>
        obtain ⟨hn, hd, -⟩ := hidx
        show NpF.fin (X [n, d]) = _
        rw [h3 n hn d hd]
        congr 2
        funext l k
        match k with
        | ⟨0, _⟩ => exact hshare f1 (by simp) n l hn l.2
        | ⟨1, _⟩ => exact hshare f2 (by simp) d l hd l.2
  · obtain ⟨f1, f2, f3, rfl⟩ := List.length_eq_three.1 hlen
    obtain ⟨X, h1, h2, h3⟩ := C53_exact_expectation_partial .OR_AND (by decide) _ _ _ Lt
      ((g f1).map fun x => (x + 1) * (1 / 2)) ((g f2).map fun x => (x + 1) * (1 / 2))
      ((g f3).map fun x => (x + 1) * (1 / 2)) (hg f1 (by simp)).2.1 (hg f2 (by simp)).2.1 (hg f3 (by simp)).2.1
    refine ⟨finArr X, hout X ?_, h2, fun idx hidx => ?_⟩
    · unfold lom_generate_data_fast_fuzzy
      rw [if_neg (not_not.2 ((implemented_iff Lom8.OR_AND.name).2 ⟨.OR_AND, rfl⟩))]
      show (if modelName .OR .AND = "OR-AND" then _ else _) = _
      rw [if_pos (by decide)]
      exact h1
    · match idx, hidx with
      | [n, d, k], hidx =>
        obtain ⟨hn, hd, hk, -⟩ := hidx
        show NpF.fin (X [n, d, k]) = _
        rw [h3 n hn d hd k hk]
        congr 2
        funext l j
        match j with
        | ⟨0, _⟩ => exact hshare f1 (by simp) n l hn l.2
        | ⟨1, _⟩ => exact hshare f2 (by simp) d l hd l.2
        | ⟨2, _⟩ => exact hshare f3 (by simp) k l hk l.2

/-- `factor_mean` of the implemented models other than OR-AND with three factors -/
theorem factor_mean_three (argsort : Arr ℝ → List Nat) (s : OLayer) (m : Lom8) (L Lt : Nat)
    (hlen : s.factors.length = 3) (hne : m ≠ .OR_AND) (hf : ∀ f ∈ s.factors, LegalFac L Lt f)
    (hS : ∀ f ∈ s.factors, f.trace ≠ some []) (hw : L = Lt ∨ ∀ f ∈ s.factors, f.trace ≠ none) (hm : s.model = m.name) :
    ∃ X, output argsort "factor_mean" false false true s = (.ok X, { s with prediction := some X }) ∧ X.shape = rows s ∧
      ∀ idx, InB (rows s) idx → X idx = .fin ((pm (lom m.outer m.inner fun (l : Fin Lt) (k : Fin s.factors.length) =>
        onesShare s.factors[k] [idx.getD k 0, l] = 1) : Int) : ℝ) := by
  obtain ⟨g, hg⟩ := means_ok hf hS hw
  have hout : ∀ X, lom_generate_data_fast_fuzzy ((s.factors.map g).map fun a => a.map fun x => (x + 1) * (1 / 2))
      m.name = .ok X → output argsort "factor_mean" false false true s = (.ok (finArr X), { s with prediction := some (finArr X) }) := by
    intro X hX
    rw [output_generic argsort "factor_mean" false true s m.outer m.inner (.inl hm) (finArr X)]
    · rfl
    · unfold outputGeneric
      rw [if_neg (by decide), if_neg (by decide), if_pos rfl, liftMeans_ok fun f hfm => (hg f hfm).1]
      show (finArr <$> lom_generate_data_fast_fuzzy _ m.name >>= fun out => pure out) = _
      rw [hX]
      rfl
  have hshare : ∀ f ∈ s.factors, ∀ n l, n < f.val.shape.headD 0 → l < Lt →
      ((g f).map fun x => (x + 1) * (1 / 2)) [n, l] = onesShare f [n, l] := fun f hfm n l hn hl =>
    mean_share (hf f hfm) (hS f hfm) (hw.imp_right fun h => h f hfm) (hg f hfm).1 hn hl
  obtain ⟨model, factors, lbda, q, cs, pred⟩ := s
  simp only at hlen hf hS hw hm hg hshare hout ⊢
  obtain ⟨f1, f2, f3, rfl⟩ := List.length_eq_three.1 hlen
  obtain ⟨X, h1, h2, h3⟩ := C03_all_models_all_arities m.outer m.inner Lt
    ((([f1, f2, f3].map g).map fun a => a.map fun x => (x + 1) * (1 / 2)).map fun f => f.map fun x => if x = 1 then 1 else 0)
    (by simp) (by
      intro a ha
      simp only [List.map_cons, List.map_nil, List.mem_cons, List.not_mem_nil, or_false] at ha
      rcases ha with rfl | rfl | rfl
      · exact ⟨_, (hg f1 (by simp)).2.1⟩
      · exact ⟨_, (hg f2 (by simp)).2.1⟩
      · exact ⟨_, (hg f3 (by simp)).2.1⟩)
  have hrow : rowCounts ((([f1, f2, f3].map g).map fun a => a.map fun x => (x + 1) * (1 / 2)).map
      fun f => f.map fun x => if x = 1 then (1 : Int) else 0) = [f1.val.shape.headD 0, f2.val.shape.headD 0, f3.val.shape.headD 0] := by
    simp [rowCounts, Arr.map, (hg f1 (by simp)).2.1, (hg f2 (by simp)).2.1, (hg f3 (by simp)).2.1]
  rw [hrow] at h2 h3
  refine ⟨finArr (toReal X), hout (toReal X) ?_, h2, fun idx hidx => ?_⟩
  · unfold lom_generate_data_fast_fuzzy
    rw [if_neg (not_not.2 ((implemented_iff m.name).2 ⟨m, rfl⟩))]
    show (if m.name = "OR-AND" then _ else toReal <$> lom_generate_data_real _ m.name) = _
    rw [if_neg (by cases m <;> first | exact absurd rfl hne | decide)]
    show toReal <$> lom_generate_data _ (modelName m.outer m.inner) = _
    erw [h1]
    rfl
  · match idx, hidx with
    | [n, d, k], hidx =>
      obtain ⟨hn, hd, hk, -⟩ := id hidx
      show NpF.fin ((X [n, d, k] : Int) : ℝ) = _
      rw [h3 _ hidx]
      have e : (lom m.outer m.inner fun (l : Fin Lt) (j : Fin 3) =>
          ((([f1, f2, f3].map g).map fun (a : Arr ℝ) => a.map fun x => (x + 1) * (1 / 2)).map
            fun (f : Arr ℝ) => f.map fun x => if x = 1 then (1 : Int) else 0)[j] [[n, d, k].getD j 0, l] = 1) ↔
          lom m.outer m.inner fun (l : Fin Lt) (j : Fin 3) => onesShare [f1, f2, f3][j] [[n, d, k].getD j 0, l] = 1 := by
        refine lom_congr_iff fun l j => ?_
        have key : ∀ f ∈ [f1, f2, f3], ∀ r, r < f.val.shape.headD 0 →
            ((((g f).map fun x => (x + 1) * (1 / 2)).map fun x => if x = 1 then (1 : Int) else 0) [r, (l : Nat)] = 1 ↔
              onesShare f [r, (l : Nat)] = 1) := by
          intro f hfm r hr
          rw [← hshare f hfm r l hr l.2]
          show (if ((g f).map fun x => (x + 1) * (1 / 2)) [r, (l : Nat)] = 1 then (1 : Int) else 0) = 1 ↔ _
          split <;> simp_all
        match j with
        | ⟨0, _⟩ => exact key f1 (by simp) n hn
        | ⟨1, _⟩ => exact key f2 (by simp) d hd
        | ⟨2, _⟩ => exact key f3 (by simp) k hk
      exact congrArg (fun z : Int => NpF.fin (z : ℝ)) (pm_congr e)

/-- the bits of the model that was asked for: inverted if the layer says so -/
theorem requested_bits {o i : LOp} {m : Lom8} {d f : Bool}
    (heq : ∀ (ι κ : Type) (x : ι → κ → Prop),
      lom o i x ↔ (if d then ¬ lom m.outer m.inner (fun l k => if f then ¬ x l k else x l k)
        else lom m.outer m.inner (fun l k => if f then ¬ x l k else x l k)))
    {ι κ : Type} (x : ι → κ → Prop) :
    lom m.outer m.inner x ↔ (if d then ¬ lom o i (fun l k => if f then ¬ x l k else x l k)
      else lom o i (fun l k => if f then ¬ x l k else x l k)) := by
  have h := heq ι κ fun l k => if f then ¬ x l k else x l k
  have e : (fun (l : ι) (k : κ) => if f then ¬ (if f then ¬ x l k else x l k) else if f then ¬ x l k else x l k) = x := by
    funext l k
    cases f <;> simp
  rw [e] at h
  cases d <;> simp only [Bool.false_eq_true, if_false, if_true] at h ⊢
  · exact h.symm
  · rw [h, not_not]

/-- **C87.** `output('point_estimate')` of a layer that was asked to be a model `o-i`: the data that this model
generates from the current factors (inverted if the layer says `invert_factors`), itself inverted if the layer says
`invert_data`. All 36 models, any number of factors. -/
theorem C87_point_estimate (argsort : Arr ℝ → List Nat) (o i : LOp) (sys : Sys) (c : Call) (lay : LayerRec)
    (hc : c.model = modelName o i) (hadd : (add_layer sys c).2 = .ok lay) (s : OLayer) (hs : s.model = lay.model) (L Lt : Nat)
    (hne : s.factors ≠ []) (hf : ∀ f ∈ s.factors, LegalFac L Lt f) :
    ∃ X, (output argsort "point_estimate" false false true s).1 = .ok X ∧ X.shape = rows s ∧
      ∀ idx, InB (rows s) idx →
        let requested := lom o i fun (l : Fin L) (k : Fin s.factors.length) =>
          if lay.invert_factors then ¬ s.factors[k].val [idx.getD k 0, l] = 1 else s.factors[k].val [idx.getD k 0, l] = 1
        X idx = asProb (if lay.invert_data then ¬ requested else requested) := by
  have h := add_layer_canonised hadd
  rw [hc] at h
  obtain ⟨m, hm, heq⟩ := canonise_meaning o i _ h
  obtain ⟨X, h1, h2, h3⟩ := C84_point_estimate argsort s m.outer m.inner L Lt hne hf (.inl (hs.trans hm))
  refine ⟨X, by rw [h1], h2, fun idx hidx => ?_⟩
  rw [h3 idx hidx]
  exact congrArg asProb (propext (requested_bits heq _))

/-- **C87.** The same for `output('factor_map')` and the majorities of the samples. -/
theorem C87_factor_map (argsort : Arr ℝ → List Nat) (o i : LOp) (sys : Sys) (c : Call) (lay : LayerRec)
    (hc : c.model = modelName o i) (hadd : (add_layer sys c).2 = .ok lay) (s : OLayer) (hs : s.model = lay.model) (L Lt : Nat)
    (hne : s.factors ≠ []) (hf : ∀ f ∈ s.factors, LegalFac L Lt f) (hS : ∀ f ∈ s.factors, f.trace ≠ some [])
    (hw : L = Lt ∨ ∀ f ∈ s.factors, f.trace ≠ none) :
    ∃ X, (output argsort "factor_map" false false true s).1 = .ok X ∧ X.shape = rows s ∧
      ∀ idx, InB (rows s) idx →
        let requested := lom o i fun (l : Fin Lt) (k : Fin s.factors.length) =>
          if lay.invert_factors then ¬ Majority s.factors[k] [idx.getD k 0, l] else Majority s.factors[k] [idx.getD k 0, l]
        X idx = asProb (if lay.invert_data then ¬ requested else requested) := by
  have h := add_layer_canonised hadd
  rw [hc] at h
  obtain ⟨m, hm, heq⟩ := canonise_meaning o i _ h
  obtain ⟨X, h1, h2, h3⟩ := C84_factor_map argsort s m.outer m.inner L Lt hne hf hS hw (.inl (hs.trans hm))
  refine ⟨X, by rw [h1], h2, fun idx hidx => ?_⟩
  rw [h3 idx hidx]
  exact congrArg asProb (propext (requested_bits heq _))

/-- **C87** (`_partial`: two factors, or three and a model treated as OR-AND; see `C87_factor_mean_three` for the others).
`output('factor_mean')` is the probability of a one in the model that was asked for if entries are independent and have
the frequencies of ones in their samples (of zeros, if the layer says `invert_factors`); the complementary probability
if the layer says `invert_data`. -/
theorem C87_factor_mean_partial (argsort : Arr ℝ → List Nat) (o i : LOp) (sys : Sys) (c : Call) (lay : LayerRec)
    (hc : c.model = modelName o i) (hadd : (add_layer sys c).2 = .ok lay) (s : OLayer) (hs : s.model = lay.model) (L Lt : Nat)
    (hlen : s.factors.length = 2 ∨ s.factors.length = 3 ∧ lay.model = "OR-AND")
    (hf : ∀ f ∈ s.factors, LegalFac L Lt f) (hS : ∀ f ∈ s.factors, f.trace ≠ some [])
    (hw : L = Lt ∨ ∀ f ∈ s.factors, f.trace ≠ none) :
    ∃ X, (output argsort "factor_mean" false false true s).1 = .ok X ∧ X.shape = rows s ∧
      ∀ idx, InB (rows s) idx →
        let requested := lomProb o i fun (l : Fin Lt) (k : Fin s.factors.length) =>
          if lay.invert_factors then 1 - onesShare s.factors[k] [idx.getD k 0, l] else onesShare s.factors[k] [idx.getD k 0, l]
        X idx = .fin (if lay.invert_data then 1 - requested else requested) := by
  have h := add_layer_canonised hadd
  rw [hc] at h
  obtain ⟨m, hm, heq⟩ := canonise_meaning o i _ h
  obtain ⟨X, h1, h2, h3⟩ := factor_mean_exact argsort s m L Lt
    (hlen.imp_right fun h => ⟨h.1, by
      have := hm.symm.trans h.2
      revert this
      cases m <;> first | exact fun _ => rfl | exact fun h => absurd h (by decide)⟩) hf hS hw (hs.trans hm)
  refine ⟨X, by rw [h1], h2, fun idx hidx => ?_⟩
  rw [h3 idx hidx]
  simp only
  rw [lomProb_requested heq]
  cases lay.invert_data <;> simp

/-- **C87**: with three factors and other models, `output('factor_mean')` is not a probability: it is 1 or -1 depending
on what the model that was asked for predicts if an entry counts as one only if all its samples are (as zero only if all
its samples are, if the layer says `invert_factors`). -/
theorem C87_factor_mean_three (argsort : Arr ℝ → List Nat) (o i : LOp) (sys : Sys) (c : Call) (lay : LayerRec)
    (hc : c.model = modelName o i) (hadd : (add_layer sys c).2 = .ok lay) (s : OLayer) (hs : s.model = lay.model) (L Lt : Nat)
    (hlen : s.factors.length = 3) (hm' : lay.model ≠ "OR-AND")
    (hf : ∀ f ∈ s.factors, LegalFac L Lt f) (hS : ∀ f ∈ s.factors, f.trace ≠ some [])
    (hw : L = Lt ∨ ∀ f ∈ s.factors, f.trace ≠ none) :
    ∃ X, (output argsort "factor_mean" false false true s).1 = .ok X ∧ X.shape = rows s ∧
      ∀ idx, InB (rows s) idx →
        let requested := lom o i fun (l : Fin Lt) (k : Fin s.factors.length) =>
          if lay.invert_factors then ¬ onesShare s.factors[k] [idx.getD k 0, l] = 1
          else onesShare s.factors[k] [idx.getD k 0, l] = 1
        X idx = .fin ((pm (if lay.invert_data then ¬ requested else requested) : Int) : ℝ) := by
  have h := add_layer_canonised hadd
  rw [hc] at h
  obtain ⟨m, hm, heq⟩ := canonise_meaning o i _ h
  obtain ⟨X, h1, h2, h3⟩ := factor_mean_three argsort s m L Lt hlen (by rintro rfl; exact hm' hm) hf hS hw (hs.trans hm)
  refine ⟨X, by rw [h1], h2, fun idx hidx => ?_⟩
  rw [h3 idx hidx]
  exact congrArg (fun z : Int => NpF.fin (z : ℝ)) (pm_congr (requested_bits heq _))

/-- **C87.** `output('mc')`: the fraction of samples from which the model that was asked for predicts a one (a zero, if
the layer says `invert_data`). -/
theorem C87_mc (argsort : Arr ℝ → List Nat) (o i : LOp) (sys : Sys) (c : Call) (lay : LayerRec)
    (hc : c.model = modelName o i) (hadd : (add_layer sys c).2 = .ok lay) (s : OLayer) (hs : s.model = lay.model)
    (L Lt S : Nat) (hne : s.factors ≠ []) (hf : ∀ f ∈ s.factors, LegalFac L Lt f) (hS : 0 < S)
    (hl : lbdaSamples s.lbda = some S) (hsm : ∀ f ∈ s.factors, HasSamples S f) :
    ∃ X, (output argsort "mc" false false true s).1 = .ok X ∧ X.shape = rows s ∧
      ∀ idx, InB (rows s) idx → X idx = .fin (fraction S fun t =>
        let requested := lom o i fun (l : Fin Lt) (k : Fin s.factors.length) =>
          if lay.invert_factors then ¬ sample s.factors[k] t [idx.getD k 0, l] = 1
          else sample s.factors[k] t [idx.getD k 0, l] = 1
        if lay.invert_data then ¬ requested else requested) := by
  have h := add_layer_canonised hadd
  rw [hc] at h
  obtain ⟨m, hm, heq⟩ := canonise_meaning o i _ h
  obtain ⟨X, h1, h2, h3⟩ := C51_mc_fraction_partial argsort s m.outer m.inner L Lt S hne hf hS hl hsm (.inl (hs.trans hm))
  refine ⟨X, by rw [h1], h2, fun idx hidx => ?_⟩
  rw [h3 idx hidx]
  congr 2
  funext t
  exact propext (requested_bits heq _)

/-- **C87** is wrong for models that invert the data: the output of the layer differs in every cell from what the model
that was asked for generates from its factors. -/
theorem C87_wrong (argsort : Arr ℝ → List Nat) (o i : LOp) (sys : Sys) (c : Call) (lay : LayerRec)
    (hc : c.model = modelName o i) (hadd : (add_layer sys c).2 = .ok lay) (hd : lay.invert_data = true) (s : OLayer)
    (hs : s.model = lay.model) (L Lt : Nat) (hne : s.factors ≠ []) (hf : ∀ f ∈ s.factors, LegalFac L Lt f) :
    ∃ X, (output argsort "point_estimate" false false true s).1 = .ok X ∧ ∀ idx, InB (rows s) idx →
      X idx ≠ asProb (lom o i fun (l : Fin L) (k : Fin s.factors.length) =>
        if lay.invert_factors then ¬ s.factors[k].val [idx.getD k 0, l] = 1 else s.factors[k].val [idx.getD k 0, l] = 1) := by
  obtain ⟨X, h1, -, h3⟩ := C87_point_estimate argsort o i sys c lay hc hadd s hs L Lt hne hf
  refine ⟨X, h1, fun idx hidx => ?_⟩
  rw [h3 idx hidx]
  simp only [hd, if_true]
  generalize (lom o i _) = P
  unfold asProb
  by_cases hP : P <;> simp [hP]

/-- the hypotheses are met: a layer that was asked to be AND-AND on two columns, with and without samples -/
theorem C87_hypotheses_met : ∃ (sys : Sys) (c : Call) (lay : LayerRec) (s : OLayer),
    c.model = modelName .AND .AND ∧ (add_layer sys c).2 = .ok lay ∧ lay.invert_data = true ∧ s.model = lay.model ∧
    s.factors.length = 2 ∧ (∀ f ∈ s.factors, LegalFac 1 1 f) ∧ (∀ f ∈ s.factors, f.trace ≠ some []) ∧
    lbdaSamples s.lbda = some 2 ∧ (∀ f ∈ s.factors, HasSamples 2 f) ∧ rows s = [1, 2] ∧
    onesShare (s.factors.getD 0 ⟨⟨[], fun _ => 0⟩, none⟩) [0, 0] = 1 / 2 := by
  refine ⟨⟨fun _ => Arr.full [1, 2] 1, 1, []⟩, ⟨some 0, none, "AND-AND", fun _ => 0⟩, _,
    ⟨"OR-NAND", [⟨Arr.full [1, 1] 1, some [Arr.full [1, 1] 1, Arr.full [1, 1] (-1)]⟩,
      ⟨Arr.full [2, 1] 1, some [Arr.full [2, 1] 1, Arr.full [2, 1] 1]⟩], .scalar (.fin 1) (some [.fin 1, .fin 1]),
      Arr.full [] 0, [], none⟩, by decide, rfl, rfl, rfl, rfl, ?_, ?_, rfl, ?_, rfl, ?_⟩
  · intro f hf
    simp only [List.mem_cons, List.not_mem_nil, or_false] at hf
    rcases hf with rfl | rfl
    · refine ⟨⟨1, rfl, ?_⟩, fun _ _ => .inl rfl, ?_⟩ <;>
      · intro tr htr a ha
        simp only [Option.some.injEq] at htr
        subst htr
        simp only [List.mem_cons, List.not_mem_nil, or_false] at ha
        rcases ha with rfl | rfl
        · first | rfl | exact fun _ _ => .inl rfl
        · first | rfl | exact fun _ _ => .inr rfl
    · refine ⟨⟨2, rfl, ?_⟩, fun _ _ => .inl rfl, ?_⟩ <;>
      · intro tr htr a ha
        simp only [Option.some.injEq] at htr
        subst htr
        simp only [List.mem_cons, List.not_mem_nil, or_false, or_self] at ha
        subst ha
        first | rfl | exact fun _ _ => .inl rfl
  · intro f hf
    simp only [List.mem_cons, List.not_mem_nil, or_false] at hf
    rcases hf with rfl | rfl <;> simp
  · intro f hf
    simp only [List.mem_cons, List.not_mem_nil, or_false] at hf
    rcases hf with rfl | rfl <;> exact ⟨_, rfl, rfl⟩
  · simp [onesShare, Arr.full]

end LFM
