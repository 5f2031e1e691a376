import Verif.Lemmas.Fresh
import Verif.Lemmas.FixedLbda
import Verif.Lemmas.SamplerWorld
import Verif.Props.Hier
import Verif.Props.Infer
import Verif.Props.Prior
import Verif.Spec.Samples

/-!
# Lemmas: inference in a hierarchical machine, as a sequence of updates of single entries
-/

namespace LFM

open Spec MeasureTheory

namespace Spec.Hier

variable {h : Hier}

theorem setVal_world (fe : Nat → Arr Int) (s : h.State) (i : Fin h.M) (c : Cfg (h.rows i) (h.cols i)) :
    (h.world fe s).setVal i c.arr = h.world fe (Function.update s i c) := by
  unfold World.setVal
  have : (upd (h.world fe s).mat i { (h.world fe s).mat i with val := c.arr }) =
      (h.world fe (Function.update s i c)).mat := by
    funext j
    unfold upd
    by_cases hj : j = i
    · subst hj
      rw [if_pos rfl, world_update_self, world_mat_lt fe s i.2]
    · rw [if_neg hj, world_update_ne fe s i c hj]
  rw [this]
  rfl

theorem siteSweep_flip {ι : Type} [Fintype ι] [DecidableEq ι] {newbit : ι → ℝ → (ι → Bool) → Bool} {e : ι}
    (hn : ∀ r c, newbit e r c = !(c e)) (ts : List ι) (hnd : ts.Nodup) (he : e ∈ ts) (u : ι → ℝ) (c : ι → Bool) :
    siteSweep newbit ts u c e = !(c e) := by
  induction ts generalizing c with
  | nil => simp at he
  | cons t ts ih =>
    rw [List.nodup_cons] at hnd
    show siteSweep newbit ts u (siteStep newbit u c t) e = _
    by_cases ht : e = t
    · subst ht
      rw [siteSweep_off newbit ts u _ hnd.1, siteStep, Function.update_self, hn]
    · rw [ih hnd.2 ((List.mem_cons.1 he).resolve_left ht), siteStep, Function.update_of_ne ht]

theorem mem_finTasks {N L : Nat} (e : Fin N × Fin L) : e ∈ finTasks N L := by
  simp [finTasks, List.mem_flatMap]

theorem shows_world (fe : Nat → Arr Int) (s s' : h.State) : h.Shows fe (h.world fe s) s' ↔ s = s' := by
  constructor
  · rintro ⟨h1, -⟩
    funext i
    have := h1 i
    rwa [world_mat_lt fe s i.2, holds_arr_iff] at this
  · rintro rfl
    refine ⟨fun i => ?_, fun i hi => ?_, fun i => ?_, fun _ => rfl⟩
    · rw [world_mat_lt fe s i.2, holds_arr_iff]
    · rw [world_mat_ge fe s hi]
    · by_cases hi : i < h.M
      · rw [world_mat_lt fe s hi]
      · rw [world_mat_ge fe s (Nat.not_lt.1 hi)]

/-- log-odds of an entry given everything else -/
noncomputable def odds (s : h.State) (i : Fin h.M) (e : Fin (h.rows i) × Fin (h.cols i)) : ℝ :=
  Real.log (h.joint (Function.update s i (Function.update (s i) e true))) -
    Real.log (h.joint (Function.update s i (Function.update (s i) e false)))

/-- update of one entry -/
noncomputable def bitStep (fe : Nat → Arr Int) (i : Fin h.M) (e : Fin (h.rows i) × Fin (h.cols i)) (s : h.State) (r : ℝ) :
    h.State :=
  Function.update s i (Function.update (s i) e (if fe i (idxOf e) = 1 then s i e else
    decide (flip_metropolised_gibbs_numba (odds s i e) (sgn (s i e)) r = 1)))

/-- update of one matrix -/
noncomputable def matStep (fe : Nat → Arr Int) (i : Fin h.M) (s : h.State) (u : Fin (h.rows i) × Fin (h.cols i) → ℝ) :
    h.State :=
  runSteps (X := fun _ => ℝ) (bitStep fe i) u (finTasks (h.rows i) (h.cols i)) s

theorem matStep_eq (fe : Nat → Arr Int) (i : Fin h.M) (s : h.State) (u : Fin (h.rows i) × Fin (h.cols i) → ℝ)
    {lg : Arr Int → List Nat → ℝ}
    (hlg : ∀ (c : Cfg (h.rows i) (h.cols i)) (e : Fin (h.rows i) × Fin (h.cols i)), lg c.arr (idxOf e) =
        Real.log (h.joint (Function.update s i (Function.update c e true))) -
          Real.log (h.joint (Function.update s i (Function.update c e false)))) :
    matStep fe i s u = Function.update s i
      (siteSweep (newbitOf lg (fe i)) (finTasks (h.rows i) (h.cols i)) u (s i)) := by
  have key : ∀ (ts : List (Fin (h.rows i) × Fin (h.cols i))) (c : Cfg (h.rows i) (h.cols i)),
      runSteps (X := fun _ => ℝ) (bitStep fe i) u ts (Function.update s i c) =
        Function.update s i (siteSweep (newbitOf lg (fe i)) ts u c) := by
    intro ts
    induction ts with
    | nil => exact fun c => rfl
    | cons e ts ih =>
      intro c
      show runSteps (X := fun _ => ℝ) (bitStep fe i) u ts (bitStep fe i e (Function.update s i c) (u e)) =
        Function.update s i (siteSweep (newbitOf lg (fe i)) ts u (siteStep (newbitOf lg (fe i)) u c e))
      have : bitStep fe i e (Function.update s i c) (u e) =
          Function.update s i (siteStep (newbitOf lg (fe i)) u c e) := by
        unfold bitStep siteStep newbitOf odds
        rw [hlg c e, Function.update_idem, Function.update_self, Function.update_idem, Function.update_idem]
      rw [this, ih]
  have := key (finTasks (h.rows i) (h.cols i)) (s i)
  rw [Function.update_eq_self] at this
  exact this

theorem bitStep_event (fe : Nat → Arr Int) (i : Fin h.M) (e : Fin (h.rows i) × Fin (h.cols i)) (s s' : h.State) :
    MeasurableSet {r | bitStep fe i e s r = s'} := by
  have hm : ∀ b, MeasurableSet {r | (if fe i (idxOf e) = 1 then s i e else
      decide (flip_metropolised_gibbs_numba (odds s i e) (sgn (s i e)) r = 1)) = b} := by
    intro b
    split
    · exact MeasurableSet.const _
    · have hf := measurable_flip (odds s i e) (sgn (s i e)) 1
      cases b
      · simp only [decide_eq_false_iff_not]
        exact hf.compl
      · simp only [decide_eq_true_eq]
        exact hf
  have : {r | bitStep fe i e s r = s'} = ⋃ b : Bool, ({r | (if fe i (idxOf e) = 1 then s i e else
      decide (flip_metropolised_gibbs_numba (odds s i e) (sgn (s i e)) r = 1)) = b} ∩
        {_r : ℝ | Function.update s i (Function.update (s i) e b) = s'}) := by
    ext r
    simp only [Set.mem_iUnion, Set.mem_inter_iff, Set.mem_ofPred_eq, exists_eq_left']
    rfl
  rw [this]
  exact MeasurableSet.iUnion fun b => (hm b).inter (MeasurableSet.const _)

theorem matStep_event (fe : Nat → Arr Int) (i : Fin h.M) (s s' : h.State) :
    MeasurableSet {u | matStep fe i s u = s'} :=
  measurable_runSteps (X := fun _ => ℝ) (bitStep_event fe i) _ _ _

theorem matStep_off (fe : Nat → Arr Int) (i : Fin h.M) (s : h.State) (u : Fin (h.rows i) × Fin (h.cols i) → ℝ)
    {j : Fin h.M} (hj : j ≠ i) : matStep fe i s u j = s j := by
  unfold matStep
  generalize finTasks (h.rows i) (h.cols i) = ts
  induction ts generalizing s with
  | nil => rfl
  | cons e ts ih =>
    show runSteps (X := fun _ => ℝ) (bitStep fe i) u ts (bitStep fe i e s (u e)) j = s j
    rw [ih]
    exact Function.update_of_ne hj _ _

/-- a logit function that reads the log-odds off the arrays -/
theorem exists_logit (s : h.State) (i : Fin h.M) : ∃ lg : Arr Int → List Nat → ℝ,
    ∀ (c : Cfg (h.rows i) (h.cols i)) (e : Fin (h.rows i) × Fin (h.cols i)), lg c.arr (idxOf e) =
        Real.log (h.joint (Function.update s i (Function.update c e true))) -
          Real.log (h.joint (Function.update s i (Function.update c e false))) := by
  obtain ⟨F, hF⟩ : ∃ F : Cfg (h.rows i) (h.cols i) → Fin (h.rows i) × Fin (h.cols i) → ℝ, F = fun c e =>
    Real.log (h.joint (Function.update s i (Function.update c e true))) -
      Real.log (h.joint (Function.update s i (Function.update c e false))) := ⟨_, rfl⟩
  refine ⟨fun a x => if hx : x.getD 0 0 < h.rows i ∧ x.getD 1 0 < h.cols i then
    F (fun e => decide (a (idxOf e) = 1)) (⟨x.getD 0 0, hx.1⟩, ⟨x.getD 1 0, hx.2⟩) else 0, fun c e => ?_⟩
  have hc : (fun e' => decide ((Spec.Cfg.arr c) (idxOf e') = 1)) = c := by
    funext e'
    rw [Cfg.arr_apply]
    cases c e' <;> decide
  simp only [hc]
  rw [dif_pos ⟨e.1.2, e.2.2⟩]
  show F c (e.1, e.2) = _
  rw [hF]

/-- updates of a matrix preserve the posterior -/
theorem matStep_invariant (H : h.Legal) (fe : Nat → Arr Int) (i : Fin h.M) (s' : h.State) :
    ∑ s, ENNReal.ofReal (h.joint s) * uniformDraws (h.rows i) (h.cols i) {u | matStep fe i s u = s'} =
        ENNReal.ofReal (h.joint s') := by
  choose lg hodds using fun s : h.State => exists_logit s i
  have hl : ∀ (s : h.State) (c : Cfg (h.rows i) (h.cols i)) u, matStep fe i (Function.update s i c) u =
      Function.update s i (siteSweep (newbitOf (lg s) (fe i)) (finTasks (h.rows i) (h.cols i)) u c) := by
    intro s c u
    rw [matStep_eq fe i (Function.update s i c) u (lg := lg s) (fun c' e => by
      rw [hodds s c' e, Function.update_idem, Function.update_idem]), Function.update_idem, Function.update_self]
  refine site_invariant (W := fun s => ENNReal.ofReal (h.joint s)) (i := i) (K := fun s s' =>
      uniformDraws (h.rows i) (h.cols i) {u | matStep fe i s u = s'}) (k := fun s c c' => uniformDraws (h.rows i) (h.cols i)
        {u | Holds (sweep (lg s) (fe i) (rndOf u) (tasks2 (h.rows i) (h.cols i)) c.arr) c'}) ?_ ?_ ?_ s'
  · intro s c
    congr 1
    ext u
    simp only [Set.mem_ofPred_eq]
    rw [hl, ← finTasks_map, sweep_arr, holds_arr_iff]
    constructor
    · intro e
      have := congrFun e i
      rwa [Function.update_self] at this
    · intro e
      rw [e, Function.update_eq_self]
  · intro s s' j hj hne
    have : {u | matStep fe i s u = s'} = ∅ := by
      ext u
      simp only [Set.mem_ofPred_eq, Set.mem_empty_iff_false, iff_false]
      intro e
      apply hne
      rw [← e, matStep_off fe i s u hj]
    rw [this, measure_empty]
  · intro s c'
    exact sweep_law (lg s) (fe i) (fun c => h.joint (Function.update s i c)) (fun c => Spec.Hier.joint_pos H _)
      (fun c e _ => hodds s c e) c'

/-- entries that the weight does not depend on change sign at every update -/
theorem matStep_flip (fe : Nat → Arr Int) (i : Fin h.M) (e : Fin (h.rows i) × Fin (h.cols i)) (hfe : fe i (idxOf e) ≠ 1)
    (hind : h.Indifferent i e) (s : h.State) (u : Fin (h.rows i) × Fin (h.cols i) → ℝ) :
    matStep fe i s u i e = !(s i e) := by
  obtain ⟨lg, hodds⟩ := exists_logit s i
  rw [matStep_eq fe i s u hodds, Function.update_self]
  refine siteSweep_flip (fun r c => ?_) _ finTasks_nodup (mem_finTasks e) u (s i)
  have hl : lg (Spec.Cfg.arr c) (idxOf e) = 0 := by
    rw [hodds c e]
    have := hind (Function.update s i c)
    rw [Function.update_idem, Function.update_self, Function.update_idem] at this
    rw [this, sub_self]
  rw [newbitOf, if_neg hfe, hl]
  unfold flip_metropolised_gibbs_numba
  cases c e <;> simp [sgn]

/-- samplers, and the state after a call -/
theorem steps (H : h.Legal) {wr : Wiring} (hw : h.Wired wr) (fe : Nat → Arr Int) :
    ∃ smp : Nat → Sampler,
      (∀ (i : Nat) (s : h.State) (m : Mach Sampler LbdaUpdate), i < h.M → m.layers = wr.layers →
        m.layerOf = wr.layerOf → m.bernoulli_prior i = h.prior i → m.world = h.world fe s →
        getSampler wr m i = .ok (some (smp i), none)) ∧
      ∀ t (i : Fin h.M) s u rnd, rnd t i = rndOf u →
        runSampler { wr with rnd := rnd } (smp i) i t (h.world fe s) = .ok (h.world fe (matStep fe i s u)) := by
  choose smp hsmp hrun using Spec.Hier.site H hw
  refine ⟨fun i => if hi : i < h.M then smp ⟨i, hi⟩ else .none, ?_, ?_⟩
  · intro i s m hi e1 e2 e3 e4
    simp only [hi, dif_pos]
    exact hsmp ⟨i, hi⟩ fe s m e1 e2 e3 e4
  · intro t i s u rnd hr
    simp only [i.2, dif_pos]
    obtain ⟨lg, hlg, hodds⟩ := hrun i fe s t
    have e := hlg (s i) rnd
    rw [Function.update_eq_self, hr, ← finTasks_map, sweep_arr, setVal_world] at e
    rw [e, matStep_eq fe i s u hodds]

theorem pad_lt {T : Nat} (ω : h.Draws T) (t : Fin T) (i : Fin h.M) : pad ω t i = ω (t, i) := by
  rw [pad, dif_pos t.2]

/-- updates of the matrices `xs` in sweep `t` -/
def schedOf (h : Hier) (T t : Nat) (xs : List Nat) : List (Fin T × Fin h.M) :=
  if ht : t < T then xs.filterMap fun i => if hi : i < h.M then some (⟨t, ht⟩, ⟨i, hi⟩) else none else []

/-- updates of `n` sweeps, the first one number `c` -/
def sweepsSched (h : Hier) (perm : Nat → List Nat → List Nat) (mats : List Nat) (T c n : Nat) : List (Fin T × Fin h.M) :=
  (List.range n).flatMap fun j => schedOf h T (c + j) (perm (c + j) mats)

theorem sweepsSched_succ (perm : Nat → List Nat → List Nat) (mats : List Nat) (T c n : Nat) :
    sweepsSched h perm mats T c (n + 1) = schedOf h T c (perm c mats) ++ sweepsSched h perm mats T (c + 1) n := by
  unfold sweepsSched
  rw [List.range_succ_eq_map, List.flatMap_cons, List.flatMap_map]
  simp only [Nat.add_zero]
  congr 1
  congr 1
  funext j
  rw [show c + j.succ = c + 1 + j by omega]

theorem sweepsSched_add (perm : Nat → List Nat → List Nat) (mats : List Nat) (T c a b : Nat) :
    sweepsSched h perm mats T c (a + b) = sweepsSched h perm mats T c a ++ sweepsSched h perm mats T (c + a) b := by
  unfold sweepsSched
  rw [List.range_add, List.flatMap_append, List.flatMap_map]
  congr 2
  funext j
  rw [show c + (a + j) = c + a + j by omega]

theorem schedOf_map {T t : Nat} (ht : t < T) {xs : List Nat} (hM : ∀ i ∈ xs, i < h.M) :
    (schedOf h T t xs).map (fun p => (p.2 : Nat)) = xs := by
  rw [schedOf, dif_pos ht]
  induction xs with
  | nil => rfl
  | cons i xs ih =>
    have hi : i < h.M := hM i (by simp)
    rw [List.filterMap_cons, dif_pos hi]
    simp only [List.map_cons]
    rw [ih fun j hj => hM j (by simp [hj])]

theorem schedOf_mem {T t : Nat} {xs : List Nat} {p : Fin T × Fin h.M} (hp : p ∈ schedOf h T t xs) :
    (p.1 : Nat) = t ∧ (p.2 : Nat) ∈ xs := by
  unfold schedOf at hp
  split at hp
  · rw [List.mem_filterMap] at hp
    obtain ⟨i, hi, e⟩ := hp
    split at e
    · injection e with e
      subst e
      exact ⟨rfl, hi⟩
    · cases e
  · simp at hp

theorem schedOf_nodup {T t : Nat} {xs : List Nat} (hM : ∀ i ∈ xs, i < h.M) (hnd : xs.Nodup) :
    (schedOf h T t xs).Nodup := by
  by_cases ht : t < T
  · apply List.Nodup.of_map (fun p : Fin T × Fin h.M => (p.2 : Nat))
    rw [schedOf_map ht hM]
    exact hnd
  · rw [schedOf, dif_neg ht]
    exact List.nodup_nil

theorem sweepsSched_mem {perm : Nat → List Nat → List Nat} {mats : List Nat} {T c n : Nat}
    (hp : ∀ t, (perm t mats).Perm mats) {p : Fin T × Fin h.M} (h1 : p ∈ sweepsSched h perm mats T c n) :
    c ≤ (p.1 : Nat) ∧ (p.2 : Nat) ∈ mats := by
  unfold sweepsSched at h1
  rw [List.mem_flatMap] at h1
  obtain ⟨j, -, h2⟩ := h1
  obtain ⟨h3, h4⟩ := schedOf_mem h2
  exact ⟨by omega, (hp _).mem_iff.1 h4⟩

theorem sweepsSched_nodup {perm : Nat → List Nat → List Nat} {mats : List Nat} {T : Nat}
    (hp : ∀ t, (perm t mats).Perm mats) (hnd : mats.Nodup) (hM : ∀ i ∈ mats, i < h.M) (n : Nat) :
    ∀ c, (sweepsSched h perm mats T c n).Nodup := by
  induction n with
  | zero => exact fun c => List.nodup_nil
  | succ n ih =>
    intro c
    rw [sweepsSched_succ, List.nodup_append]
    refine ⟨schedOf_nodup (fun i hi => hM i ((hp c).mem_iff.1 hi)) ((hp c).nodup_iff.2 hnd), ih (c + 1), fun p hp1 q hq e => ?_⟩
    subst e
    have e1 := (schedOf_mem hp1).1
    have e2 := (sweepsSched_mem hp hq).1
    omega

theorem sweepsSched_count {perm : Nat → List Nat → List Nat} {mats : List Nat} {T : Nat}
    (hp : ∀ t, (perm t mats).Perm mats) (hnd : mats.Nodup) (hM : ∀ i ∈ mats, i < h.M) {i : Nat} (hi : i ∈ mats) (n : Nat) :
    ∀ c, c + n ≤ T → ((sweepsSched h perm mats T c n).map fun p => (p.2 : Nat)).count i = n := by
  induction n with
  | zero => exact fun c _ => rfl
  | succ n ih =>
    intro c hc
    rw [sweepsSched_succ, List.map_append, List.count_append, schedOf_map (by omega) (fun i hi => hM i ((hp c).mem_iff.1 hi)),
      ih (c + 1) (by omega), (hp c).count_eq, List.count_eq_one_of_mem hnd hi, Nat.add_comm]

/-- calls of the sampling functions of one sweep -/
theorem calls_steps {wr : Wiring} {fe : Nat → Arr Int} {smp : Nat → Sampler}
    (hrun : ∀ t (i : Fin h.M) s u rnd, rnd t i = rndOf u →
        runSampler { wr with rnd := rnd } (smp i) i t (h.world fe s) = .ok (h.world fe (matStep fe i s u))) {T : Nat}
    {t : Nat} (ht : t < T) (xs : List Nat) (hM : ∀ i ∈ xs, i < h.M) (ω : h.Draws T) (fct : Nat → Option Sampler)
    (hf : ∀ i ∈ xs, fct i = some (smp i)) (s : h.State) :
    callsM (genericEnv (withDraws wr ω)) fct t xs (h.world fe s) =
      .ok (h.world fe (runSteps (fun p => matStep fe p.2) ω (schedOf h T t xs) s)) := by
  induction xs generalizing s with
  | nil =>
    rw [schedOf, dif_pos ht]
    rfl
  | cons i xs ih =>
    have hi : i < h.M := hM i (by simp)
    have ih' := ih (fun j hj => hM j (by simp [hj])) (fun j hj => hf j (by simp [hj]))
      (matStep fe ⟨i, hi⟩ s (ω (⟨t, ht⟩, ⟨i, hi⟩)))
    have e : schedOf h T t (i :: xs) = (⟨t, ht⟩, ⟨i, hi⟩) :: schedOf h T t xs := by
      rw [schedOf, dif_pos ht, List.filterMap_cons, dif_pos hi, schedOf, dif_pos ht]
    rw [callsM, List.foldlM_cons, bind_ok]
    refine ⟨h.world fe (matStep fe ⟨i, hi⟩ s (ω (⟨t, ht⟩, ⟨i, hi⟩))), ?_, ?_⟩
    · rw [hf i (by simp)]
      refine hrun t ⟨i, hi⟩ s (ω (⟨t, ht⟩, ⟨i, hi⟩)) _ ?_
      show (if hi : i < h.M then rndOf (pad ω t ⟨i, hi⟩) else fun _ => 0) = _
      rw [dif_pos hi]
      exact congrArg rndOf (pad_lt ω ⟨t, ht⟩ ⟨i, hi⟩)
    · rw [callsM] at ih'
      rw [e]
      exact ih'

/-- several sweeps -/
theorem sweeps_steps {wr : Wiring} {fe : Nat → Arr Int} {smp : Nat → Sampler}
    (hrun : ∀ t (i : Fin h.M) s u rnd, rnd t i = rndOf u →
        runSampler { wr with rnd := rnd } (smp i) i t (h.world fe s) = .ok (h.world fe (matStep fe i s u))) {T : Nat}
    {mats : List Nat} (hM : ∀ i ∈ mats, i < h.M) (hp : ∀ t, (wr.perm t mats).Perm mats) (ω : h.Draws T)
    (fct : Nat → Option Sampler) (hf : ∀ i ∈ mats, fct i = some (smp i)) (n : Nat) :
    ∀ c, c + n ≤ T → ∀ s : h.State, sweepsM (genericEnv (withDraws wr ω)) fct mats c n (h.world fe s) =
          .ok (h.world fe (runSteps (fun p => matStep fe p.2) ω (sweepsSched h wr.perm mats T c n) s)) := by
  induction n with
  | zero => exact fun c _ s => rfl
  | succ n ih =>
    intro c hc s
    rw [sweepsM, bind_ok]
    refine ⟨_, calls_steps hrun (by omega : c < T) (wr.perm c mats) (fun i hi => hM i ((hp c).mem_iff.1 hi)) ω fct
      (fun i hi => hf i ((hp c).mem_iff.1 hi)) s, ?_⟩
    rw [ih (c + 1) (by omega), sweepsSched_succ, runSteps, runSteps, runSteps, List.foldl_append]

/-- assignment of the sampling functions -/
theorem assigns {wr : Wiring} {fe : Nat → Arr Int} {smp : Nat → Sampler}
    (hsmp : ∀ (i : Nat) (s : h.State) (m : Mach Sampler LbdaUpdate), i < h.M → m.layers = wr.layers →
        m.layerOf = wr.layerOf → m.bernoulli_prior i = h.prior i → m.world = h.world fe s →
        getSampler wr m i = .ok (some (smp i), none)) {T : Nat} (ω : h.Draws T) (s : h.State) (xs : List Nat) :
    ∀ (m : Mach Sampler LbdaUpdate), (∀ i ∈ xs, i < h.M) → m.layers = wr.layers → m.layerOf = wr.layerOf →
      (∀ i < h.M, m.bernoulli_prior i = h.prior i) → m.world = h.world fe s →
      (∀ i < h.M, m.fct i = none ∨ m.fct i = some (smp i)) →
      ∃ m', xs.foldlM (assignFct (genericEnv (withDraws wr ω))) m = .ok m' ∧
        (∀ i, m.fct i = some (smp i) → m'.fct i = some (smp i)) ∧ (∀ i ∈ xs, m'.fct i = some (smp i)) ∧
        m'.clock = m.clock ∧ m'.world = m.world := by
  induction xs with
  | nil => exact fun m _ _ _ _ _ _ => ⟨m, rfl, fun _ h => h, by simp, rfl, rfl⟩
  | cons i xs ih =>
    intro m hM e1 e2 e3 e4 e5
    have hi : i < h.M := hM i (by simp)
    have hM' : ∀ j ∈ xs, j < h.M := fun j hj => hM j (by simp [hj])
    cases hf : m.fct i with
    | some f =>
      have hfi : m.fct i = some (smp i) := by
        rcases e5 i hi with e | e
        · rw [hf] at e; cases e
        · exact e
      obtain ⟨m', a1, a2, a3, a4⟩ := ih m hM' e1 e2 e3 e4 e5
      refine ⟨m', ?_, a2, ?_, a4⟩
      · rw [List.foldlM_cons, assignFct, hf]; exact a1
      · intro j hj
        rcases List.mem_cons.1 hj with rfl | hj
        · exact a2 j hfi
        · exact a3 j hj
    | none =>
      have hg : getSampler wr m i = .ok (some (smp i), none) := hsmp i s m hi e1 e2 (e3 i hi) e4
      obtain ⟨m', a1, a2, a3, a4⟩ := ih { m with fct := upd m.fct i (some (smp i)) } hM' e1 e2 e3 e4 (by
        intro j hjM
        by_cases hj : j = i
        · subst hj; right; simp [upd]
        · simpa [upd, hj] using e5 j hjM)
      refine ⟨m', ?_, ?_, ?_, a4⟩
      · rw [List.foldlM_cons, assignFct, hf, bind_ok]
        refine ⟨_, ?_, a1⟩
        show (getSampler wr m i >>= _) = _
        rw [hg]
        rfl
      · intro j hj
        refine a2 j ?_
        by_cases hji : j = i
        · subst hji; rw [hf] at hj; cases hj
        · simpa [upd, hji] using hj
      · intro j hj
        rcases List.mem_cons.1 hj with rfl | hj
        · exact a2 j (by simp [upd])
        · exact a3 j hj

theorem model_of (H : h.Legal) {wr : Wiring} (hw : h.Wired wr) {m : Mach Sampler LbdaUpdate} (e1 : m.layers = wr.layers)
    (e2 : m.layerOf = wr.layerOf) {i : Nat} (hi : i < h.M) :
    modelOf m i ≠ none ∧ modelOf m i ≠ some "OR-AND-IBP" := by
  obtain ⟨L, hL, hiL⟩ := H.owner i hi
  obtain ⟨k, hk⟩ := List.mem_iff_getElem?.1 hL
  obtain ⟨lr, h1, h2, h3, h4, h5⟩ := hw.layers k L hk
  have ho : wr.layerOf i = some k := (h5 i hiL).1
  have : modelOf m i = some L.model.name := by
    rw [modelOf, e1, e2, ho, Option.bind_some, h1, Option.map_some, h2]
  rw [this]
  refine ⟨by simp, ?_⟩
  cases L.model <;> decide

theorem runSteps_off {T : Nat} (fe : Nat → Arr Int) (ω : h.Draws T) (j : Fin h.M)
    (sched : List (Fin T × Fin h.M)) (hj : ∀ p ∈ sched, p.2 ≠ j) (s : h.State) :
    runSteps (fun p => matStep fe p.2) ω sched s j = s j := by
  induction sched generalizing s with
  | nil => rfl
  | cons p rest ih =>
    show runSteps (fun p => matStep fe p.2) ω rest (matStep fe p.2 s (ω p)) j = s j
    rw [ih (fun q hq => hj q (by simp [hq]))]
    exact matStep_off _ _ _ _ (hj p (by simp)).symm

/-- inference in terms of states -/
theorem infer_state (H : h.Legal) {wr : Wiring} (hw : h.Wired wr) {m : Mach Sampler LbdaUpdate}
    (hm : h.FixedLbdas wr m) (hp : ∀ t, (wr.perm t (freeMats m)).Perm (freeMats m)) (fe : Nat → Arr Int)
    (S cw bmin : Nat) (eps : ℝ) (bmax : Int) (ps fx : Nat) (hcw : 1 ≤ cw) (hps : 1 ≤ ps) (T : Nat)
    (hT : m.clock + bmin + bmax.toNat + S ≤ T)
    (k : Nat) (hk : k < S) (ω : h.Draws T) (s : h.State) :
    ∃ m', infer (genericEnv (withDraws wr ω)) S cw eps bmin bmax ps fx { m with world := h.world fe s } = .ok m' ∧
      ∀ s', h.IsSample m m' S k s' ↔ runSteps (fun p => matStep fe p.2) ω
        (sweepsSched h wr.perm (freeMats m) T m.clock (burnSweeps cw bmin bmax + (k + 1))) s = s' := by
  obtain ⟨smp, hsmp, hrun⟩ := steps H hw fe
  obtain ⟨B, hB⟩ : ∃ B, B = burnSweeps cw bmin bmax := ⟨_, rfl⟩
  have hBT : m.clock + B + S ≤ T := by rw [hB, burnSweeps]; omega
  obtain ⟨sched, hsched⟩ : ∃ sched, sched = sweepsSched h wr.perm (freeMats m) T m.clock (B + (k + 1)) := ⟨_, rfl⟩
  obtain ⟨schedS, hschedS⟩ : ∃ sched, sched = sweepsSched h wr.perm (freeMats m) T m.clock (B + S) := ⟨_, rfl⟩
  rw [← hB, ← hsched]
  obtain ⟨env, henv⟩ : ∃ env, env = genericEnv (withDraws wr ω) := ⟨_, rfl⟩
  obtain ⟨M0, hM0⟩ : ∃ M0, M0 = { m with world := h.world fe s } := ⟨_, rfl⟩
  have hfree : freeMats M0 = freeMats m := by rw [hM0]; rfl
  have hlb : freeLbdas M0 = [] := by
    rw [freeLbdas, List.filter_eq_nil_iff]
    intro k' hk'
    rw [List.mem_range, hM0] at hk'
    have := hm.lfixed k' hk'
    rw [hM0]
    simp [this]
  have hperm : ∀ t, ∀ i ∈ env.perm t (freeMats M0), i ∈ freeMats M0 := by
    intro t i hi
    rw [hfree] at hi ⊢
    rw [henv] at hi
    exact (hp t).mem_iff.1 hi
  obtain ⟨m1, a1, -, a3, a4, a5⟩ := assigns hsmp ω s (freeMats M0) M0 (by rw [hfree]; exact hm.free) (by rw [hM0]; exact hm.layers)
    (by rw [hM0]; exact hm.layerOf) (by rw [hM0]; exact hm.prior) (by rw [hM0]) (by
      intro i hi
      have hg := hsmp i s M0 hi (by rw [hM0]; exact hm.layers) (by rw [hM0]; exact hm.layerOf)
        (by rw [hM0]; exact hm.prior i hi) (by rw [hM0])
      rw [getSampler_congr wr (m := m) i (by rw [hM0]) (by rw [hM0]) (by rw [hM0])] at hg
      cases hf : m.fct i with
      | none => left; rw [hM0]; exact hf
      | some f =>
        right
        rw [hm.fct i f hf] at hg
        cases hg
        rw [hM0]; exact hf)
  rw [← henv] at a1
  have hrun' : ∀ (i : Nat) (hi : i < h.M) t s, env.runMat (smp i) i t (h.world fe s) =
      .ok (h.world fe (matStep fe ⟨i, hi⟩ s (pad ω t ⟨i, hi⟩))) := by
    intro i hi t s
    rw [henv]
    refine hrun t ⟨i, hi⟩ s (pad ω t ⟨i, hi⟩) _ ?_
    show (if hi : i < h.M then rndOf (pad ω t ⟨i, hi⟩) else fun _ => 0) = _
    rw [dif_pos hi]
  have hshape : ∀ (w w' : World), (∃ s', w = h.world fe s') → (∃ s', w' = h.world fe s') → ∀ j ∈ freeMats M0,
      (w'.mat j).val.shape = (w.mat j).val.shape := by
    rintro w w' ⟨s1, rfl⟩ ⟨s2, rfl⟩ j hj
    rw [hfree] at hj
    rw [(world_pm fe s1 (hm.free j hj)).1, (world_pm fe s2 (hm.free j hj)).1]
  obtain ⟨m', hinf, -⟩ := C46_completes_partial env S cw bmin eps bmax ps fx hcw hps M0 m1 m1
    (by rw [hfree]; exact hm.nodup)
    (fun i hi => model_of H hw (by rw [hM0]; exact hm.layers) (by rw [hM0]; exact hm.layerOf)
      (hm.free i (by rw [← hfree]; exact hi)))
    a1 (by rw [hlb]; rfl) (fun w => ∃ s', w = h.world fe s') ⟨s, by rw [hM0]⟩
    ⟨hperm, fun i hi => ⟨smp i, a3 i hi, fun t w hw' => by
        obtain ⟨s1, rfl⟩ := hw'
        have hiM := hm.free i (by rw [← hfree]; exact hi)
        exact ⟨_, hrun' i hiM t s1, ⟨_, rfl⟩, fun _ => rfl⟩⟩,
      by rw [hlb]; simp,
      fun lr hlr reset clean w fs b hfl => by
        rw [hM0] at hlr
        obtain ⟨o1, o2⟩ := hm.off lr hlr
        simp [o1, o2] at hfl⟩
    (.inl (by rw [hM0]; exact hm.anneal))
    (fun i hi f hf t w w' hw' hr => by
      rw [a3 i hi] at hf
      injection hf with hf
      subst hf
      have hiM := hm.free i (by rw [← hfree]; exact hi)
      obtain ⟨s1, rfl⟩ := hw'
      rw [hrun' i hiM] at hr
      injection hr with hr
      exact hshape _ _ ⟨_, rfl⟩ ⟨_, hr.symm⟩)
    (by rw [hlb]; simp)
  refine ⟨m', by rw [← henv, ← hM0]; exact hinf, fun s' => ?_⟩
  obtain ⟨wm, wl, clock, hC, hend, htr, -, n1, n2, n3, b1, b2, b3, b4, b5⟩ := C39_traces env S cw bmin eps bmax ps fx M0 m'
    (by rw [hfree]; exact hm.nodup) hperm hinf
  rw [a1] at b1
  cases b1
  rw [hlb] at b2
  have b2 := pure_ok.mp b2
  subst b2
  obtain ⟨-, m1', m2', f1, f2, f3, -⟩ := infer_static (by rw [hfree]; exact hm.nodup) hperm hinf
  rw [a1] at f1
  cases f1
  rw [hlb] at f2
  have f2 := pure_ok.mp f2
  subst f2
  have k1 := (fold_keeps (fun a i b => assignFct_keeps) a1).1
  rw [hlb] at hC b3
  have g := burn_in_fixed hcw (m := resetIndices (freeMats M0) [] m1)
    (by show m1.anneal = false; rw [k1.anneal, hM0]; exact hm.anneal)
    (by show ∀ lr ∈ m1.layers, _; rw [k1.layers, hM0]; exact hm.off) b3
  have e1 : (resetIndices (freeMats M0) [] m1).fct = m1.fct := rfl
  have e2 : (resetIndices (freeMats M0) [] m1).clock = m.clock := by
    show m1.clock = _
    rw [a4, hM0]
  have e3 : (resetIndices (freeMats M0) [] m1).world = h.world fe s := by
    show m1.world = _
    rw [a5, hM0]
  rw [e1, e2, e3, ← hB, ← b4] at g
  obtain ⟨g1, g2⟩ := g
  rw [← b5] at g2
  have hfct : ∀ i ∈ freeMats m, m1.fct i = some (smp i) := fun i hi => a3 i (by rw [hfree]; exact hi)
  have hchain := chain_fixed hC
  rw [f3, g2, hfree] at hchain
  rw [hfree] at g1
  have hwm : ∀ t < S, sweepsM env m1.fct (freeMats m) m.clock (B + (t + 1)) (h.world fe s) = .ok (wm t) :=
    fun t ht => sweepsM_add B (t + 1) g1 (hchain t ht).1
  have hk' := hwm k hk
  rw [henv, sweeps_steps hrun hm.free hp ω m1.fct hfct _ _ (by omega), ← hsched] at hk'
  injection hk' with hk'
  have hS' := hwm (S - 1) (by omega)
  rw [show B + (S - 1 + 1) = B + S by omega, henv, sweeps_steps hrun hm.free hp ω m1.fct hfct _ _ (by omega),
    ← hschedS] at hS'
  injection hS' with hS'
  have hendw : m'.world = h.world fe (runSteps (fun p => matStep fe p.2) ω schedS s) := by
    have := (hchain (S - 1) (by omega)).2
    rw [show S - 1 + 1 = S by omega] at this
    rw [hend, this, hS']
  have hoffk : ∀ i : Fin h.M, (i : Nat) ∉ freeMats m → runSteps (fun p => matStep fe p.2) ω sched s i = s i :=
    fun i hi => runSteps_off fe ω i sched (fun p hp' e => hi (e ▸ (sweepsSched_mem hp (hsched ▸ hp')).2)) s
  have hoffS : ∀ i : Fin h.M, (i : Nat) ∉ freeMats m → runSteps (fun p => matStep fe p.2) ω schedS s i = s i :=
    fun i hi => runSteps_off fe ω i schedS (fun p hp' e => hi (e ▸ (sweepsSched_mem hp (hschedS ▸ hp')).2)) s
  have htrace : ∀ i : Fin h.M, (i : Nat) ∈ freeMats m → ∃ tr, m'.trace i = some tr ∧
      tr.shape = [S, h.rows i, h.cols i] ∧ ∀ (n : Fin (h.rows i)) (l : Fin (h.cols i)),
        tr [k, n, l] = sgn (runSteps (fun p => matStep fe p.2) ω sched s i (n, l)) := by
    intro i hi
    obtain ⟨tr, q1, q2⟩ := htr i (by rw [hfree]; exact hi)
    have hmodel : ∀ j ∈ freeMats M0, modelOf M0 j ≠ some "OR-AND-IBP" := fun j hj =>
      (model_of H hw (by rw [hM0]; exact hm.layers) (by rw [hM0]; exact hm.layerOf)
        (hm.free j (by rw [← hfree]; exact hj))).2
    rcases q2 with ⟨-, q3, q4⟩ | ⟨q3, -⟩ | ⟨-, ⟨j, hj, q3⟩, -⟩
    · refine ⟨tr, q1, ?_, ?_⟩
      · obtain ⟨q5, -⟩ := q4 k hk
        rw [q3, ← q5, ← hk', (world_pm fe _ i.2).1]
      · intro n l
        obtain ⟨-, q6⟩ := q4 k hk
        rw [q6, ← hk', world_mat_lt fe _ i.2]
        exact Cfg.arr_apply _ (n, l)
    · exact absurd q3 (hmodel i (by rw [hfree]; exact hi))
    · exact absurd q3 (hmodel j hj)
  constructor
  · rintro ⟨x1, x2⟩
    funext i
    by_cases hi : (i : Nat) ∈ freeMats m
    · obtain ⟨tr, y1, -, y3⟩ := x1 i hi
      obtain ⟨tr', z1, -, z3⟩ := htrace i hi
      rw [y1] at z1
      injection z1 with z1
      subst z1
      funext e
      rw [← sgn_inj, ← y3 e.1 e.2, z3 e.1 e.2]
    · have := x2 i hi
      rw [hendw, world_mat_lt fe _ i.2, holds_arr_iff] at this
      rw [hoffk i hi, ← this]
      exact (hoffS i hi).symm
  · rintro rfl
    refine ⟨htrace, fun i hi => ?_⟩
    rw [hendw, world_mat_lt fe _ i.2, holds_arr_iff, hoffk i hi]
    exact hoffS i hi

end Spec.Hier

end LFM
