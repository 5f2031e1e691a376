import Verif.Lemmas.DescribeExists
import Verif.Props.Consistent
import Verif.Props.Assemble

/-!
# C104: machines built by calls of the API sample from the posterior

The theorems C78 to C80 are about machines whose matrices are numbered as those of a hierarchy. Here the machine is the
result of any sequence of calls (`Built`, C102), with whatever numbers its matrices have got. `Proper` and `FixedCall` are
the conditions on the machine, both in terms of what a user sees (Spec/Describe.lean).
-/

namespace LFM

open Spec MeasureTheory

/-- **C104**: every proper machine that calls of the API have built stands for a legal hierarchy: there is a numbering of
its matrices under which its layers, models, lambdas, priors, shapes and data are those of the hierarchy. -/
theorem C104_described {s : Workshop} (hb : Built s) (P : Proper s) :
    ∃ (h : Hier) (num : Equiv.Perm Nat), h.Legal ∧ h.Describes s num := by
  obtain ⟨M, num, hnum⟩ := exists_num (fun i => s.m.layerOf i ≠ none) s.next fun i hi => by
    obtain ⟨k, hk⟩ := Option.ne_none_iff_exists'.mp hi
    exact (hb.sound.owner i k hk).1
  exact ⟨hierOf s num M, num, hierOf_legal hb.sound hb.neat P hnum, hierOf_describes hb.sound P hnum⟩

/-- matrices below `j` hold the state -/
def matsUpTo {h : Hier} (num : Equiv.Perm Nat) (s : Workshop) (st : h.State) (j : Nat) (i : Nat) : Fac :=
  if hi : num.symm i < h.M then
    (if num.symm i < j then ⟨Cfg.arr (st ⟨num.symm i, hi⟩), (s.m.world.mat i).fixed_entries⟩ else s.m.world.mat i)
  else s.m.world.mat i

/-- setting values of a matrix to those of a state -/
theorem startAt_step {h : Hier} {s : Workshop} {num : Equiv.Perm Nat} (D : h.Describes s num) (hb : Built s) (st : h.State)
    (j : Nat) (hj : j ≤ h.M) :
    Built { s with m := { s.m with world := { s.m.world with mat := matsUpTo num s st j } } } := by
  induction j with
  | zero =>
    have : matsUpTo num s st 0 = s.m.world.mat := by
      funext i; simp [matsUpTo]
    rw [this]
    exact hb
  | succ j ih =>
    refine .act (.setVal (num j) (Cfg.arr (st ⟨j, hj⟩))) (ih (by omega)) ⟨?_, fun _ => ?_⟩ ?_
    · have hlt : num.symm (num j) < h.M := by rw [num.symm_apply_apply]; omega
      show [h.rows j, h.cols j] = (matsUpTo num s st j (num j)).val.shape
      rw [matsUpTo, dif_pos hlt, if_neg (by rw [num.symm_apply_apply]; omega)]
      exact (D.shape j hj).symm
    · rintro idx hidx
      obtain ⟨a, b, rfl⟩ : ∃ a b, idx = [a, b] := List.length_eq_two.mp hidx.length
      show IsPM (Cfg.fac (st ⟨j, hj⟩) a b)
      unfold Cfg.fac
      split
      · exact sgn_isPM _
      · exact .inl rfl
    · have e : upd (matsUpTo num s st j) (num j) { matsUpTo num s st j (num j) with val := Cfg.arr (st ⟨j, hj⟩) } =
          matsUpTo num s st (j + 1) := by
        funext i
        by_cases hi : i = num j
        · subst hi
          have hlt : num.symm (num j) < h.M := by rw [num.symm_apply_apply]; omega
          simp only [upd, if_true, matsUpTo]
          rw [dif_pos hlt, dif_pos hlt, if_neg (by rw [num.symm_apply_apply]; omega), if_pos (by rw [num.symm_apply_apply]; omega)]
          congr 1
          have : ∀ (a : Nat) (ha : a < h.M), a = j → Cfg.arr (st ⟨j, hj⟩) = Cfg.arr (st ⟨a, ha⟩) := by
            rintro a ha rfl; rfl
          exact this _ hlt (num.symm_apply_apply j)
        · have hne : num.symm i ≠ j := fun hc => hi (by rw [← hc, num.apply_symm_apply])
          simp only [upd, if_neg hi, matsUpTo]
          by_cases hlt : num.symm i < h.M
          · rw [dif_pos hlt, dif_pos hlt]
            by_cases h1 : num.symm i < j
            · rw [if_pos h1, if_pos (by omega)]
            · rw [if_neg h1, if_neg (by omega)]
          · rw [dif_neg hlt, dif_neg hlt]
      rw [← e]
      rfl

/-- **C104**: every state is one in which calls of the API can put the machine -/
theorem C104_start_built {h : Hier} {s : Workshop} {num : Equiv.Perm Nat} (hb : Built s) (D : h.Describes s num)
    (st : h.State) : Built (Spec.Hier.startAt num s st) := by
  have := startAt_step D hb st h.M le_rfl
  unfold Spec.Hier.startAt
  have e : matsUpTo num s st h.M = fun j => if hj : num.symm j < h.M then
      (⟨Cfg.arr (st ⟨num.symm j, hj⟩), (s.m.world.mat j).fixed_entries⟩ : Fac) else s.m.world.mat j := by
    funext i
    rw [matsUpTo]
    by_cases hi : num.symm i < h.M
    · rw [dif_pos hi, dif_pos hi, if_pos hi]
    · rw [dif_neg hi, dif_neg hi]
  rw [e] at this
  exact this

section

variable {h : Hier} {s : Workshop} {num : Equiv.Perm Nat}

/-- the order of the matrices of the hierarchy is a permutation -/
theorem Spec.Hier.Describes.perm (_ : h.Describes s num) {dr : LFM.Draws}
    (hp : ∀ t, (dr.perm t (freeMats s.m)).Perm (freeMats s.m)) (t : Nat) :
    (((s.wiring dr).ren num).perm t (freeMats (s.m.ren num s.m.layers.length))).Perm
      (freeMats (s.m.ren num s.m.layers.length)) := by
  rw [freeMats_ren]
  show (((dr.perm t (((freeMats s.m).map num.symm).map num))).map num.symm).Perm _
  have : ((freeMats s.m).map num.symm).map num = freeMats s.m := by
    rw [List.map_map]
    have : num ∘ num.symm = id := funext num.apply_symm_apply
    rw [this, List.map_id]
  rw [this]
  exact (hp t).map _

theorem Spec.Hier.Describes.sampled (D : h.Describes s num) (H : s.Sound) (q : h.Site) :
    Spec.Hier.FreeEntry num s q ↔
      h.Sampled (s.m.ren num s.m.layers.length) (fun i => (s.m.world.mat (num i)).fixed_entries) q := by
  rw [Spec.Hier.FreeEntry, Spec.Hier.Sampled, D.free_iff H q.1]

/-- **C104** (partial: lambdas and data are fixed, no annealing and no automatic clean-up): inference of a machine that calls
of the API have built returns, for all draws and all initial values. If the initial values are drawn with probabilities
proportional to the joint probability of the hierarchy, so is every sample that the machine stores, whatever the numbers of
its matrices. -/
theorem C104_stationary_partial (hb : Built s) (H : h.Legal) (D : h.Describes s num) (C : FixedCall s) (dr : LFM.Draws)
    (hp : ∀ t, (dr.perm t (freeMats s.m)).Perm (freeMats s.m)) (S cw bmin : Nat) (eps : ℝ) (bmax : Int) (ps fx : Nat)
    (hcw : 1 ≤ cw) (hps : 1 ≤ ps) (T : Nat) (hT : s.m.clock + bmin + bmax.toNat + S ≤ T) :
    (∀ (ω : h.Draws T) (st : h.State), 1 ≤ S →
      ∃ s', (Spec.Hier.startAt num s st).infer S cw eps bmin bmax ps fx (Spec.Hier.callWith num dr ω) = .ok s') ∧
    ∀ k < S, ∀ st' : h.State, ∑ st, ENNReal.ofReal (h.joint st) *
      h.allDraws T {ω | ∃ s', (Spec.Hier.startAt num s st).infer S cw eps bmin bmax ps fx (Spec.Hier.callWith num dr ω) = .ok s' ∧
        Spec.Hier.SampleOf num s s' S k st'} = ENNReal.ofReal (h.joint st') := by
  have key := C78_samples_stationary_partial H (D.wired hb.sound hb.neat dr) (s.m.ren num s.m.layers.length)
    (D.fixedLbdas hb.sound C dr) (D.perm hp) (fun i => (s.m.world.mat (num i)).fixed_entries) S cw bmin eps bmax ps fx hcw hps
    T hT
  refine ⟨fun ω st hS => ?_, fun k hk st' => ?_⟩
  · obtain ⟨m', h1⟩ := key.1 ω st hS
    rw [D.infer_ren] at h1
    cases hi : (Spec.Hier.startAt num s st).infer S cw eps bmin bmax ps fx (Spec.Hier.callWith num dr ω) with
    | error e => rw [hi] at h1; cases h1
    | ok s' => exact ⟨s', rfl⟩
  · rw [← key.2 k hk st']
    refine Finset.sum_congr rfl fun st _ => ?_
    congr 2
    ext ω
    exact (D.event_iff hb.sound dr st ω S cw eps bmin bmax ps fx k st').symm

/-- **C104** (partial: as above, and no free entry is ever indifferent, see C79): the probability that a stored sample of the
machine is a state converges to the posterior probability of the state given the fixed matrices and entries, at a geometric
rate in the number of sweeps, whatever the initial values, the order of the updates and the stopping rule of burn-in. -/
theorem C104_converges_partial (hb : Built s) (H : h.Legal) (D : h.Describes s num) (C : FixedCall s) (st0 : h.State)
    (hties : h.NoTiesGiven (Spec.Hier.FreeEntry num s) st0) : ∃ N : Nat, 1 ≤ N ∧ ∃ ε : ℝ, 0 < ε ∧ ε ≤ 1 ∧
    ∀ (dr : LFM.Draws), (∀ t, (dr.perm t (freeMats s.m)).Perm (freeMats s.m)) →
      ∀ (S cw bmin : Nat) (eps : ℝ) (bmax : Int) (ps fx : Nat), 1 ≤ cw → 1 ≤ ps →
      ∀ T, s.m.clock + bmin + bmax.toNat + S ≤ T → ∀ k < S, ∀ st st' : h.State,
      h.Agree (Spec.Hier.FreeEntry num s) st st0 →
      |(h.allDraws T {ω | ∃ s', (Spec.Hier.startAt num s st).infer S cw eps bmin bmax ps fx (Spec.Hier.callWith num dr ω) =
          .ok s' ∧ Spec.Hier.SampleOf num s s' S k st'}).toReal - h.posteriorGiven (Spec.Hier.FreeEntry num s) st0 st'| ≤
        (1 - ε) ^ ((bmin + k) / N) := by
  obtain ⟨N, hN, ε, h0, h1, hc⟩ := C79_converges_given_partial H (Spec.Hier.FreeEntry num s) st0 hties
  refine ⟨N, hN, ε, h0, h1, ?_⟩
  intro dr hp S cw bmin eps bmax ps fx hcw hps T hT k hk st st' hst
  have := hc _ (D.wired hb.sound hb.neat dr) (s.m.ren num s.m.layers.length)
    (D.fixedLbdas hb.sound C dr) (D.perm hp) (fun i => (s.m.world.mat (num i)).fixed_entries) (D.sampled hb.sound)
    S cw bmin eps bmax ps fx hcw hps T hT k hk st st' hst
  convert this using 5
  ext ω
  exact (D.event_iff hb.sound dr st ω S cw eps bmin bmax ps fx k st').symm

/-- **C104** (partial: as above): averages over the stored samples of one run have mean square error at most `C / S`. -/
theorem C104_average_partial (hb : Built s) (H : h.Legal) (D : h.Describes s num) (C : FixedCall s) (st0 : h.State)
    (hties : h.NoTiesGiven (Spec.Hier.FreeEntry num s) st0) : ∃ c : ℝ,
    ∀ (dr : LFM.Draws), (∀ t, (dr.perm t (freeMats s.m)).Perm (freeMats s.m)) →
      ∀ (S cw bmin : Nat) (eps : ℝ) (bmax : Int) (ps fx : Nat), 1 ≤ cw → 1 ≤ ps → 1 ≤ S →
      ∀ T, s.m.clock + bmin + bmax.toNat + S ≤ T → ∀ st : h.State, h.Agree (Spec.Hier.FreeEntry num s) st st0 →
      ∀ (g : h.State → ℝ), (∀ x, |g x| ≤ 1) → ∃ f : h.Draws T → ℝ,
        (∀ ω, ∃ (s' : Workshop) (x : Nat → h.State),
          (Spec.Hier.startAt num s st).infer S cw eps bmin bmax ps fx (Spec.Hier.callWith num dr ω) = .ok s' ∧
          (∀ k < S, Spec.Hier.SampleOf num s s' S k (x k)) ∧ f ω = (∑ k ∈ Finset.range S, g (x k)) / S) ∧
        Integrable (fun ω => (f ω - ∑ x, h.posteriorGiven (Spec.Hier.FreeEntry num s) st0 x * g x) ^ 2) (h.allDraws T) ∧
        ∫ ω, (f ω - ∑ x, h.posteriorGiven (Spec.Hier.FreeEntry num s) st0 x * g x) ^ 2 ∂h.allDraws T ≤ c / S := by
  obtain ⟨c, hc⟩ := C80_average_given_partial H (Spec.Hier.FreeEntry num s) st0 hties
  refine ⟨c, ?_⟩
  intro dr hp S cw bmin eps bmax ps fx hcw hps hS T hT st hst g hg
  obtain ⟨f, h1, h2, h3⟩ := hc _ (D.wired hb.sound hb.neat dr) (s.m.ren num s.m.layers.length)
    (D.fixedLbdas hb.sound C dr) (D.perm hp) (fun i => (s.m.world.mat (num i)).fixed_entries) (D.sampled hb.sound)
    S cw bmin eps bmax ps fx hcw hps hS T hT st hst g hg
  refine ⟨f, fun ω => ?_, h2, h3⟩
  obtain ⟨m', x, g1, g2, g3⟩ := h1 ω
  rw [D.infer_ren] at g1
  cases hi : (Spec.Hier.startAt num s st).infer S cw eps bmin bmax ps fx (Spec.Hier.callWith num dr ω) with
  | error e => rw [hi] at g1; cases g1
  | ok s' =>
    rw [hi] at g1
    cases g1
    exact ⟨s', x, rfl, fun k hk => (D.sample_iff hb.sound s' S k (x k)).1 (g2 k hk), g3⟩

end

/-! ### The hypotheses are met -/

/-- **C104**: no entry is indifferent if all lambdas are multiples of a number `c` and no prior of a factor has a logit that is
a multiple of `c / 2` -/
theorem C104_noTies {h : Hier} {s : Workshop} {num : Equiv.Perm Nat} (H : h.Legal) (D : h.Describes s num) (c : ℝ)
    (hl : ∀ k < s.m.layers.length, ∃ z : ℤ, s.m.world.lbda k = .scalar (.fin (z * c)))
    (hp : ∀ i, s.m.layerOf i ≠ none → ∀ z : ℤ, logit (s.m.bernoulli_prior i) ≠ z * (c / 2)) (st0 : h.State) :
    h.NoTiesGiven (Spec.Hier.FreeEntry num s) st0 := by
  refine Spec.Hier.NoTies.given (C79_noTies H c (fun L hL => ?_) fun i hi z => ?_) _ _
  · obtain ⟨k, hk⟩ := List.mem_iff_getElem?.1 hL
    obtain ⟨lr, h1, -, -, -, h5⟩ := D.layers k L hk
    obtain ⟨z, hz⟩ := hl k (List.getElem?_eq_some_iff.1 h1).1
    rw [h5] at hz
    simp only [LVal.scalar.injEq, NpF.fin.injEq] at hz
    exact ⟨z, hz⟩
  · rw [D.prior i hi]
    exact hp _ ((D.latent i).1 hi) z

/-- the machine of `shop2` (data of shape 3 x 2 and an XOR-AND layer) with lambda fixed at 1 and priors 1/3 -/
noncomputable def shop3 : Workshop :=
  { shop2 with m := { shop2.m with
    world := { shop2.m.world with lbda := upd shop2.m.world.lbda 0 (.scalar (.fin 1)) }
    lfixed := upd shop2.m.lfixed 0 true
    bernoulli_prior := upd (upd shop2.m.bernoulli_prior 1 (1 / 3)) 2 (1 / 3) } }

theorem shop3_built : Built shop3 := by
  refine .act (.setPrior 2 (1 / 3)) (.act (.setPrior 1 (1 / 3)) (.act (.setLbdaFixed 0 true) (.act (.setLbda 0 1) shop2_built
    trivial rfl) trivial rfl) ⟨?_, ?_⟩ rfl) ⟨?_, ?_⟩ rfl <;> norm_num

theorem shop3_layer {k : Nat} {lr : LayerInfo} (h : shop3.m.layers[k]? = some lr) :
    k = 0 ∧ lr = ⟨[1, 2], "XOR-AND", none, false, false⟩ := by
  have e : shop3.m.layers = [⟨[1, 2], "XOR-AND", none, false, false⟩] := rfl
  rw [e] at h
  match k, h with
  | 0, h => cases h; exact ⟨rfl, rfl⟩

theorem shop3_latent {i : Nat} (h : shop3.m.layerOf i ≠ none) : i = 1 ∨ i = 2 := by
  obtain ⟨k, hk⟩ := Option.ne_none_iff_exists'.mp h
  obtain ⟨-, lr, e1, e2⟩ := shop3_built.sound.owner i k hk
  obtain ⟨-, rfl⟩ := shop3_layer e1
  simpa using e2

/-- C104: a machine that calls have built meets all hypotheses; it has two factors that are sampled -/
theorem C104_hypotheses_met : Built shop3 ∧ Proper shop3 ∧ FixedCall shop3 ∧ freeMats shop3.m = [1, 2] ∧
    (∀ t, (plainDraws.perm t (freeMats shop3.m)).Perm (freeMats shop3.m)) ∧
    ∀ (h : Hier) (num : Equiv.Perm Nat), h.Legal → h.Describes shop3 num → ∀ st0,
      h.NoTiesGiven (Spec.Hier.FreeEntry num shop3) st0 := by
  have hlen : shop3.m.layers.length = 1 := rfl
  have hfree : freeMats shop3.m = [1, 2] := rfl
  have hc : shop3.child 0 = 0 := rfl
  have hv : (shop3.m.world.mat 0).val = data32.map fun x => wrap8 (-x) := rfl
  have hsh : (shop3.m.world.mat 0).val.shape = [3, 2] := rfl
  refine ⟨shop3_built, ⟨?_, ?_, ?_, ?_, ?_⟩, ⟨?_, ?_, rfl, ?_, ?_⟩, hfree, fun _ => .refl _, fun h num H D st0 => ?_⟩
  · intro k lr hk
    obtain ⟨-, rfl⟩ := shop3_layer hk
    exact .inl rfl
  · intro k lr i hk hi
    obtain ⟨rfl, rfl⟩ := shop3_layer hk
    have hp : shop3.parents i = [] := by
      have : i = 1 ∨ i = 2 := by simpa using hi
      rcases this with rfl | rfl <;> rfl
    rw [hp]
    simp
  · intro k hk _
    obtain rfl : k = 0 := by omega
    rw [hc, hv]
    intro idx _
    have hx : data32 idx = 1 ∨ data32 idx = 0 ∨ data32 idx = -1 := by
      simp only [data32]
      split_ifs <;> simp
    have e : (data32.map fun x => wrap8 (-x)) idx = wrap8 (-(data32 idx)) := rfl
    rw [e]
    rcases hx with h | h | h <;> rw [h] <;> unfold IsData <;> decide
  · intro k hk N D he
    obtain rfl : k = 0 := by omega
    rw [hc, hsh] at he
    cases he
    constructor <;> norm_num
  · intro k hk N D E he
    obtain rfl : k = 0 := by omega
    rw [hc, hsh] at he
    simp at he
  · intro k hk
    obtain rfl : k = 0 := by omega
    rfl
  · intro i hi
    rw [hfree] at hi
    have : i = 1 ∨ i = 2 := by simpa using hi
    rcases this with rfl | rfl <;> simp [show shop3.m.layerOf 1 = some 0 from rfl, show shop3.m.layerOf 2 = some 0 from rfl]
  · intro lr hlr
    obtain ⟨k, hk⟩ := List.mem_iff_getElem?.1 hlr
    obtain ⟨-, rfl⟩ := shop3_layer hk
    exact ⟨rfl, rfl⟩
  · intro i f hf
    have : ∀ i, shop3.m.fct i = none := by
      intro i
      show upd (upd (upd (fun _ => none) 0 none) 1 none) 2 none i = none
      simp [upd]
    rw [this i] at hf
    cases hf
  · refine C104_noTies H D 1 (fun k hk => ⟨1, ?_⟩) (fun i hi z hz => ?_) st0
    · obtain rfl : k = 0 := by omega
      show LVal.scalar (.fin 1) = _
      norm_num
    · have e0 : shop3.m.bernoulli_prior i = 1 / 3 := by
        rcases shop3_latent hi with rfl | rfl <;> rfl
      have e1 : logit (1 / 3) = -Real.log 2 := by
        unfold logit
        rw [← Real.log_inv]
        norm_num
      rw [e0, e1] at hz
      have g1 := Real.log_two_gt_d9
      have g2 := Real.log_two_lt_d9
      have l1 : (-2 : ℝ) < z := by linarith
      have l2 : (z : ℝ) < -1 := by linarith
      have l1' : (-2 : ℤ) < z := by exact_mod_cast l1
      have l2' : z < (-1 : ℤ) := by exact_mod_cast l2
      omega

end LFM
