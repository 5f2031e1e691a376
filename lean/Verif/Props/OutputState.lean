import Verif.Props.OutputMax

/-!
# C50: what `output` does to a layer; hypotheses of C49 and C51
-/

namespace LFM

open Spec

/-- the arguments of a call of `output` -/
structure OCall where
  technique : String
  noisy : Bool
  lazy : Bool
  probs : Bool

/-- perform a call -/
noncomputable def OCall.run (argsort : Arr ℝ → List Nat) (c : OCall) (s : OLayer) : Except Err (Arr NpF) × OLayer :=
  output argsort c.technique c.noisy c.lazy c.probs s

/-- perform calls one after the other (the caller catches exceptions): results and final state -/
noncomputable def runCalls (argsort : Arr ℝ → List Nat) : List OCall → OLayer → List (Except Err (Arr NpF)) × OLayer
  | [], s => ([], s)
  | c :: cs, s =>
    let r := c.run argsort s
    let rest := runCalls argsort cs r.2
    (r.1 :: rest.1, rest.2)

/-- two states of a layer that agree in all but the stored prediction -/
def Spec.SameLayer (s t : OLayer) : Prop :=
  t.model = s.model ∧ t.factors = s.factors ∧ t.lbda = s.lbda ∧ t.q = s.q ∧ t.childShape = s.childShape

theorem output_lazy_some (argsort : Arr ℝ → List Nat) (technique : String) (noisy mp : Bool) (s : OLayer)
    (p : Arr NpF) (h : s.prediction = some p) : output argsort technique noisy true mp s = (.ok p, s) := by
  unfold output
  rw [h]

theorem output_lazy_none (argsort : Arr ℝ → List Nat) (technique : String) (noisy mp : Bool) (s : OLayer)
    (h : s.prediction = none) :
    output argsort technique noisy true mp s = output argsort technique noisy false mp s := by
  unfold output
  rw [h]

/-- one call, by outcome -/
theorem output_cases (argsort : Arr ℝ → List Nat) (technique : String) (noisy lazy mp : Bool) (s : OLayer) :
    (lazy = true ∧ ∃ p, s.prediction = some p ∧ output argsort technique noisy lazy mp s = (.ok p, s)) ∨
    (∃ P, output argsort technique noisy lazy mp s =
      (.ok (if mp then P else P.map NpF.twiceMinusOne), { s with prediction := some P })) ∨
    (∃ e, output argsort technique noisy lazy mp s = (.error e, s)) ∨
    (s.model = "OR-AND-IBP" ∧ ∃ e, output argsort technique noisy lazy mp s =
      (.error e, { s with model := "OR-AND" })) := by
  have hfalse : (∃ P, output argsort technique noisy false mp s =
      (.ok (if mp then P else P.map NpF.twiceMinusOne), { s with prediction := some P })) ∨
    (∃ e, output argsort technique noisy false mp s = (.error e, s)) ∨
    (s.model = "OR-AND-IBP" ∧ ∃ e, output argsort technique noisy false mp s =
      (.error e, { s with model := "OR-AND" })) := by
    rw [output_eq]
    by_cases hi : s.model = "OR-AND-IBP"
    · rw [if_pos hi]
      cases hc : computeOutput argsort technique noisy { s with model := "OR-AND" } with
      | error e => exact Or.inr (Or.inr ⟨hi, e, rfl⟩)
      | ok P => exact Or.inl ⟨P, rfl⟩
    · rw [if_neg hi]
      cases hc : computeOutput argsort technique noisy { s with model := s.model } with
      | error e => exact Or.inr (Or.inl ⟨e, rfl⟩)
      | ok P => exact Or.inl ⟨P, rfl⟩
  cases lazy with
  | false => exact Or.inr hfalse
  | true =>
    rcases hp : s.prediction with _ | p
    · rw [output_lazy_none _ _ _ _ _ hp, ← hp]
      exact Or.inr hfalse
    · exact Or.inl ⟨rfl, p, rfl, output_lazy_some _ _ _ _ _ p hp⟩

/-- **C50** (`_partial`: OR-AND-IBP layers only as long as no call fails; a failing call renames their model,
`C50_ibp_wrong`). Any sequence of calls leaves model, factors, lambda, q and child as they were. -/
theorem C50_layer_kept_partial (argsort : Arr ℝ → List Nat) (cs : List OCall) (s : OLayer)
    (h : s.model ≠ "OR-AND-IBP" ∨ ∀ r ∈ (runCalls argsort cs s).1, ∃ X, r = .ok X) :
    SameLayer s (runCalls argsort cs s).2 := by
  induction cs generalizing s with
  | nil => exact ⟨rfl, rfl, rfl, rfl, rfl⟩
  | cons c cs ih =>
    have hstep : SameLayer s (c.run argsort s).2 := by
      rcases output_cases argsort c.technique c.noisy c.lazy c.probs s with
        ⟨-, p, -, e⟩ | ⟨P, e⟩ | ⟨e', e⟩ | ⟨hi, e', e⟩
      · rw [OCall.run, e]; exact ⟨rfl, rfl, rfl, rfl, rfl⟩
      · rw [OCall.run, e]; exact ⟨rfl, rfl, rfl, rfl, rfl⟩
      · rw [OCall.run, e]; exact ⟨rfl, rfl, rfl, rfl, rfl⟩
      · rcases h with h | h
        · exact absurd hi h
        · obtain ⟨X, hX⟩ := h (c.run argsort s).1 (by simp [runCalls])
          rw [OCall.run, e] at hX
          simp at hX
    have hrest : SameLayer (c.run argsort s).2 (runCalls argsort cs (c.run argsort s).2).2 := by
      refine ih _ ?_
      rcases h with h | h
      · left; rw [hstep.1]; exact h
      · right
        intro r hr
        exact h r (by simp only [runCalls, List.mem_cons]; exact Or.inr hr)
    exact ⟨hrest.1.trans hstep.1, hrest.2.1.trans hstep.2.1, hrest.2.2.1.trans hstep.2.2.1,
      hrest.2.2.2.1.trans hstep.2.2.2.1, hrest.2.2.2.2.trans hstep.2.2.2.2⟩

/-- **C50**, lazy calls (`_partial`: after calls with `map_to_probabilities=True`; otherwise the array that is returned
is not the one that the last call returned, `C50_lazy_wrong`). If a call that computes returns `X`, then after any
number of further calls that fail or are lazy, a lazy call returns `X`, whatever its other arguments. -/
theorem C50_lazy_partial (argsort : Arr ℝ → List Nat) (c : OCall) (s : OLayer) (X : Arr NpF)
    (hc : c.lazy = false) (hp : c.probs = true) (hX : (c.run argsort s).1 = .ok X) (cs : List OCall)
    (hcs : ∀ k (hk : k < cs.length), cs[k].lazy = true ∨
      ∃ e, (cs[k].run argsort (runCalls argsort (cs.take k) (c.run argsort s).2).2).1 = .error e)
    (c' : OCall) (hl : c'.lazy = true) :
    (c'.run argsort (runCalls argsort cs (c.run argsort s).2).2).1 = .ok X := by
  have h0 : (c.run argsort s).2.prediction = some X := by
    obtain ⟨t, n, l, m⟩ := c
    simp only at hc hp
    subst hc hp
    rcases output_cases argsort t n false true s with ⟨h, -⟩ | ⟨P, e⟩ | ⟨e', e⟩ | ⟨hi, e', e⟩
    · cases h
    · rw [OCall.run, e] at hX ⊢
      simp only [if_true] at hX ⊢
      exact congrArg some (Except.ok.inj hX)
    · rw [OCall.run, e] at hX; simp at hX
    · rw [OCall.run, e] at hX; simp at hX
  have hkeep : ∀ (cs : List OCall) (s : OLayer), s.prediction = some X →
      (∀ k (hk : k < cs.length), cs[k].lazy = true ∨
        ∃ e, (cs[k].run argsort (runCalls argsort (cs.take k) s).2).1 = .error e) →
      (runCalls argsort cs s).2.prediction = some X := by
    intro cs
    induction cs with
    | nil => exact fun s h _ => h
    | cons a cs ih =>
      intro s hs hk
      refine ih _ ?_ fun k hlt => ?_
      · have h1 := hk 0 (by simp)
        rcases h1 with h1 | ⟨e1, h1⟩
        · have h1 : a.lazy = true := h1
          rw [OCall.run, h1, output_lazy_some _ _ _ _ _ X hs]
          exact hs
        · have h1 : (a.run argsort s).1 = .error e1 := h1
          rcases output_cases argsort a.technique a.noisy a.lazy a.probs s with
            ⟨-, p, -, e⟩ | ⟨P, e⟩ | ⟨e', e⟩ | ⟨hi, e', e⟩
          · rw [OCall.run, e]; exact hs
          · rw [OCall.run, e] at h1; simp at h1
          · rw [OCall.run, e]; exact hs
          · rw [OCall.run, e]; exact hs
      · exact hk (k + 1) (by simp; omega)
  have h1 := hkeep cs _ h0 hcs
  rw [OCall.run, hl, output_lazy_some _ _ _ _ _ X h1]

/-- a layer with one cell, sampled once: the sample predicts 1 -/
def cellLayer (model : String) : OLayer where
  model := model
  factors := [⟨Arr.mat 1 [[1]] 0, some [Arr.mat 1 [[1]] 0]⟩, ⟨Arr.mat 1 [[-1]] 0, some [Arr.mat 1 [[1]] 0]⟩]
  lbda := .scalar (.fin 1) (some [.fin 1])
  q := Arr.full [] 0
  childShape := [1, 1]
  prediction := none

/-- **C50** is false for OR-AND-IBP: a call with an unknown technique raises an exception and leaves the layer with
the model OR-AND. -/
theorem C50_ibp_wrong (argsort : Arr ℝ → List Nat) :
    (cellLayer "OR-AND-IBP").model = "OR-AND-IBP" ∧
    (output argsort "median" false false true (cellLayer "OR-AND-IBP")).1 = .error .unboundLocal ∧
    (output argsort "median" false false true (cellLayer "OR-AND-IBP")).2.model = "OR-AND" := by
  have h : computeOutput argsort "median" false (cellLayer "OR-AND") = .error .unboundLocal := by
    unfold computeOutput
    rw [if_neg (by decide), if_neg (by decide)]
    unfold outputGeneric
    rw [if_neg (by decide), if_neg (by decide), if_neg (by decide), if_neg (by decide), if_neg (by decide)]
    rfl
  have hs : ({ cellLayer "OR-AND-IBP" with model := if (cellLayer "OR-AND-IBP").model = "OR-AND-IBP" then "OR-AND" else
    (cellLayer "OR-AND-IBP").model } : OLayer) = cellLayer "OR-AND" := rfl
  rw [output_eq, hs, h]
  exact ⟨rfl, rfl, rfl⟩

theorem cellLayer_legal (model : String) :
    (∀ f ∈ (cellLayer model).factors, LegalFac 1 1 f) ∧ ∀ f ∈ (cellLayer model).factors, HasSamples 1 f := by
  constructor
  · intro f hf
    simp only [cellLayer, List.mem_cons, List.not_mem_nil, or_false] at hf
    rcases hf with rfl | rfl
    · refine ⟨⟨1, rfl, ?_⟩, pm_single (Or.inl rfl), ?_⟩
      · rintro tr ⟨⟩ a ha; simp only [List.mem_cons, List.not_mem_nil, or_false] at ha; subst ha; rfl
      · rintro tr ⟨⟩ a ha; simp only [List.mem_cons, List.not_mem_nil, or_false] at ha; subst ha
        exact pm_single (Or.inl rfl)
    · refine ⟨⟨1, rfl, ?_⟩, pm_single (Or.inr rfl), ?_⟩
      · rintro tr ⟨⟩ a ha; simp only [List.mem_cons, List.not_mem_nil, or_false] at ha; subst ha; rfl
      · rintro tr ⟨⟩ a ha; simp only [List.mem_cons, List.not_mem_nil, or_false] at ha; subst ha
        exact pm_single (Or.inl rfl)
  · intro f hf
    simp only [cellLayer, List.mem_cons, List.not_mem_nil, or_false] at hf
    rcases hf with rfl | rfl <;> exact ⟨_, rfl, rfl⟩

theorem cellLayer_supported (technique : String)
    (h : technique ∈ ["point_estimate", "factor_map", "factor_mean", "mc"]) :
    Supported technique (cellLayer "OR-AND") .OR .AND := by
  simp only [List.mem_cons, List.not_mem_nil, or_false] at h
  rcases h with rfl | rfl | rfl | rfl
  · exact Or.inl rfl
  · exact Or.inr (Or.inl rfl)
  · exact Or.inr (Or.inr (Or.inl ⟨rfl, Or.inl ⟨rfl, .OR_AND, rfl, rfl⟩⟩))
  · exact Or.inr (Or.inr (Or.inr ⟨rfl, 1, one_pos, rfl, (cellLayer_legal "OR-AND").2⟩))

/-- the hypotheses of C49 and C51 are met by all techniques on a layer that has been sampled once -/
theorem C49_hypotheses_met (argsort : Arr ℝ → List Nat) (technique : String) (noisy mp : Bool)
    (h : technique ∈ ["point_estimate", "factor_map", "factor_mean", "mc"]) :
    ∃ X, (output argsort technique noisy false mp (cellLayer "OR-AND")).1 = .ok X ∧ X.shape = [1, 1] ∧
      (if mp then IsProb (X [0, 0]) else IsSigned (X [0, 0])) := by
  obtain ⟨X, h1, h2, h3⟩ := C49_probabilities_partial argsort technique noisy mp (cellLayer "OR-AND") .OR .AND 1 1
    (by simp [cellLayer]) (cellLayer_legal _).1 (Or.inl (by decide))
    (by
      intro f hf
      obtain ⟨tr, h1, h2⟩ := (cellLayer_legal "OR-AND").2 f hf
      rw [h1]
      intro h
      rw [Option.some.inj h] at h2
      simp at h2) (Or.inl rfl) (cellLayer_supported technique h)
    (fun _ => ⟨by simp, by simp⟩)
  exact ⟨X, h1, h2, h3 [0, 0] (by simp [rows, cellLayer, InB, Arr.mat])⟩

open Classical in
/-- the value of `mc` on that layer: the only sample predicts 1 (while the current state does not) -/
theorem C51_hypotheses_met (argsort : Arr ℝ → List Nat) :
    ∃ X, (output argsort "mc" false false true (cellLayer "OR-AND")).1 = .ok X ∧ X [0, 0] = .fin 1 := by
  obtain ⟨X, h1, h2, h3⟩ := C51_mc_fraction_partial argsort (cellLayer "OR-AND") .OR .AND 1 1 1 (by simp [cellLayer])
    (cellLayer_legal _).1 one_pos rfl (cellLayer_legal _).2 (Or.inl (by decide))
  refine ⟨X, by rw [h1], ?_⟩
  rw [h3 [0, 0] (by simp [rows, cellLayer, InB, Arr.mat])]
  congr 1
  have : (Finset.univ.filter fun t : Fin 1 => lom .OR .AND fun (l : Fin 1) (k : Fin (cellLayer "OR-AND").factors.length) =>
      sample (cellLayer "OR-AND").factors[k] t [[0, 0].getD k 0, l] = 1) = Finset.univ := by
    refine Finset.filter_true_of_mem fun t _ => ⟨0, fun k => ?_⟩
    have ht : t = 0 := Subsingleton.elim _ _
    subst ht
    obtain ⟨k, hk⟩ := k
    have hk' : k < 2 := hk
    interval_cases k <;> rfl
  unfold fraction
  simp only [this]
  simp

/-- **C50**, lazy calls, is false after `map_to_probabilities=False`: the call returns a
number in `[-1, 1]` and the lazy call after it, with the same arguments, the probability: here -1 and 0. -/
theorem C50_lazy_wrong (argsort : Arr ℝ → List Nat) :
    ∃ X Y, (output argsort "point_estimate" false false false (cellLayer "OR-AND")).1 = .ok X ∧
      (output argsort "point_estimate" false true false
        (output argsort "point_estimate" false false false (cellLayer "OR-AND")).2).1 = .ok Y ∧
      X [0, 0] = .fin (-1) ∧ Y [0, 0] = .fin 0 := by
  obtain ⟨A, h1, h2, h3⟩ := fast_ok .OR .AND 1 ((cellLayer "OR-AND").factors.map (·.val)) (by simp [cellLayer])
    (by
      intro a ha
      simp only [cellLayer, List.map_cons, List.map_nil, List.mem_cons, List.not_mem_nil, or_false] at ha
      rcases ha with rfl | rfl <;> exact ⟨1, rfl⟩)
    (by
      intro a ha
      simp only [cellLayer, List.map_cons, List.map_nil, List.mem_cons, List.not_mem_nil, or_false] at ha
      rcases ha with rfl | rfl
      exacts [pm_single (Or.inl rfl), pm_single (Or.inr rfl)])
  have hA : A [0, 0] = -1 := by
    rw [h3 [0, 0] (by simp [rowCounts, cellLayer, InB, Arr.mat])]
    unfold pm
    rw [if_neg]
    rintro ⟨l, hl⟩
    have h := hl ⟨1, by simp [cellLayer]⟩
    have hl0 : l = 0 := Subsingleton.elim _ _
    subst hl0
    exact absurd h (by decide)
  have hg : outputGeneric "point_estimate" (cellLayer "OR-AND") =
      .ok (finArr (A.map fun (x : Int) => (1 + (x : ℝ)) * (1 / 2))) := by
    unfold outputGeneric
    rw [if_pos rfl, show (cellLayer "OR-AND").model = modelName .OR .AND by decide, h1]
    rfl
  have ho : output argsort "point_estimate" false false false (cellLayer "OR-AND") = _ :=
    output_generic argsort "point_estimate" false false (cellLayer "OR-AND") .OR .AND (Or.inl (by decide))
      (finArr (A.map fun (x : Int) => (1 + (x : ℝ)) * (1 / 2))) (by
        show (outputGeneric "point_estimate" (cellLayer "OR-AND") >>= fun out => pure out) = _
        rw [hg]
        rfl)
  rw [ho]
  refine ⟨_, finArr (A.map fun (x : Int) => (1 + (x : ℝ)) * (1 / 2)), rfl, ?_, ?_, ?_⟩
  · rw [output_lazy_some _ _ _ _ _ _ rfl]
  · show NpF.twiceMinusOne (.fin ((1 + ((A [0, 0] : Int) : ℝ)) * (1 / 2))) = _
    rw [hA]
    show NpF.fin _ = _
    norm_num
  · show NpF.fin ((1 + ((A [0, 0] : Int) : ℝ)) * (1 / 2)) = _
    rw [hA]
    norm_num

/-- a call that computes, and calls that are lazy or fail after it: the conditions of `C50_lazy_partial` -/
theorem C50_hypotheses_met (argsort : Arr ℝ → List Nat) :
    let c : OCall := ⟨"point_estimate", false, false, true⟩
    let cs : List OCall := [⟨"mc", false, true, true⟩, ⟨"no such technique", false, false, true⟩]
    (∃ X, (c.run argsort (cellLayer "OR-AND")).1 = .ok X) ∧
    ∀ k (hk : k < cs.length), cs[k].lazy = true ∨
      ∃ e, (cs[k].run argsort (runCalls argsort (cs.take k) (c.run argsort (cellLayer "OR-AND")).2).2).1 = .error e := by
  obtain ⟨A, h1, h2, h3⟩ := fast_ok .OR .AND 1 ((cellLayer "OR-AND").factors.map (·.val)) (by simp [cellLayer])
    (by
      intro a ha
      simp only [cellLayer, List.map_cons, List.map_nil, List.mem_cons, List.not_mem_nil, or_false] at ha
      rcases ha with rfl | rfl <;> exact ⟨1, rfl⟩)
    (by
      intro a ha
      simp only [cellLayer, List.map_cons, List.map_nil, List.mem_cons, List.not_mem_nil, or_false] at ha
      rcases ha with rfl | rfl
      exacts [pm_single (Or.inl rfl), pm_single (Or.inr rfl)])
  have hg : outputGeneric "point_estimate" (cellLayer "OR-AND") =
      .ok (finArr (A.map fun (x : Int) => (1 + (x : ℝ)) * (1 / 2))) := by
    unfold outputGeneric
    rw [if_pos rfl, show (cellLayer "OR-AND").model = modelName .OR .AND by decide, h1]
    rfl
  have ho : output argsort "point_estimate" false false true (cellLayer "OR-AND") = _ :=
    output_generic argsort "point_estimate" false true (cellLayer "OR-AND") .OR .AND (Or.inl (by decide))
      (finArr (A.map fun (x : Int) => (1 + (x : ℝ)) * (1 / 2))) (by
        show (outputGeneric "point_estimate" (cellLayer "OR-AND") >>= fun out => pure out) = _
        rw [hg]
        rfl)
  refine ⟨⟨_, by simp only [OCall.run]; rw [ho]⟩, fun k hk => ?_⟩
  match k, hk with
  | 0, _ => exact .inl rfl
  | 1, _ =>
    have hbad : ∀ s : OLayer, s.model = "OR-AND" →
        (output argsort "no such technique" false false true s).1 = .error .unboundLocal := by
      intro s hs
      unfold output
      cases s.prediction <;> simp [hs, computeOutput, outputGeneric, bind, Except.bind]
    refine .inr ⟨_, hbad _ ?_⟩
    have := C50_layer_kept_partial argsort [⟨"point_estimate", false, false, true⟩, ⟨"mc", false, true, true⟩] (cellLayer "OR-AND")
      (.inl (by decide))
    exact this.1

end LFM
