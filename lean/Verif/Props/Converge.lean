import Verif.Lemmas.HierErgodic
import Verif.Lemmas.OfHier
import Verif.Props.Stationary

/-!
# C79: do the samples converge to the posterior?
-/

namespace LFM

open Spec MeasureTheory

namespace Spec.Hier

variable {h : Hier}

theorem logit_half : logit (1 / 2) = 0 := by
  unfold logit
  norm_num

theorem agreement2_row (m : Lom8) (N D L : Nat) (X F F' G : Factor) (n : Nat) (hX : ∀ d < D, X n d = 0)
    (hF : ∀ r, r ≠ n → F r = F' r) : agreement2 m N D L X F G = agreement2 m N D L X F' G := by
  unfold agreement2
  refine Finset.sum_congr rfl fun r _ => Finset.sum_congr rfl fun d _ => ?_
  by_cases hr : (r : Nat) = n
  · rw [hr, hX d d.2, zero_mul, zero_mul]
  · rw [hF r hr]

theorem agreement2_col (m : Lom8) (N D L : Nat) (X F G G' : Factor) (n : Nat) (hX : ∀ r < N, X r n = 0)
    (hG : ∀ d, d ≠ n → G d = G' d) : agreement2 m N D L X F G = agreement2 m N D L X F G' := by
  unfold agreement2
  refine Finset.sum_congr rfl fun r _ => Finset.sum_congr rfl fun d _ => ?_
  by_cases hd : (d : Nat) = n
  · rw [hd, hX r r.2, zero_mul, zero_mul]
  · rw [hG d hd]

theorem agreement3_0 (m : Lom8) (N D M L : Nat) (X : Nat → Nat → Nat → Int) (F F' G K : Factor) (n : Nat)
    (hX : ∀ d < D, ∀ e < M, X n d e = 0) (hF : ∀ r, r ≠ n → F r = F' r) :
    agreement3 m N D M L X F G K = agreement3 m N D M L X F' G K := by
  unfold agreement3
  refine Finset.sum_congr rfl fun r _ => Finset.sum_congr rfl fun d _ => Finset.sum_congr rfl fun e _ => ?_
  by_cases hr : (r : Nat) = n
  · rw [hr, hX d d.2 e e.2, zero_mul, zero_mul]
  · rw [hF r hr]

theorem agreement3_1 (m : Lom8) (N D M L : Nat) (X : Nat → Nat → Nat → Int) (F G G' K : Factor) (n : Nat)
    (hX : ∀ r < N, ∀ e < M, X r n e = 0) (hG : ∀ r, r ≠ n → G r = G' r) :
    agreement3 m N D M L X F G K = agreement3 m N D M L X F G' K := by
  unfold agreement3
  refine Finset.sum_congr rfl fun r _ => Finset.sum_congr rfl fun d _ => Finset.sum_congr rfl fun e _ => ?_
  by_cases hd : (d : Nat) = n
  · rw [hd, hX r r.2 e e.2, zero_mul, zero_mul]
  · rw [hG d hd]

theorem agreement3_2 (m : Lom8) (N D M L : Nat) (X : Nat → Nat → Nat → Int) (F G K K' : Factor) (n : Nat)
    (hX : ∀ r < N, ∀ d < D, X r d n = 0) (hK : ∀ r, r ≠ n → K r = K' r) :
    agreement3 m N D M L X F G K = agreement3 m N D M L X F G K' := by
  unfold agreement3
  refine Finset.sum_congr rfl fun r _ => Finset.sum_congr rfl fun d _ => Finset.sum_congr rfl fun e _ => ?_
  by_cases he : (e : Nat) = n
  · rw [he, hX r r.2 d d.2, zero_mul, zero_mul]
  · rw [hK e he]

/-- entries of unobserved rows are indifferent -/
theorem Unobserved.indifferent (H : h.Legal) {i : Fin h.M} {n : Fin (h.rows i)} (hu : h.Unobserved i n)
    (l : Fin (h.cols i)) : h.Indifferent i (n, l) := by
  obtain ⟨hp, hpar, hdata⟩ := hu
  intro s
  obtain ⟨k, hk, hi⟩ := H.owner i i.2
  have hod := joint_odds H s i (n, l) (s i) hk hi
  rw [hpar, hp, logit_half, List.map_nil, List.sum_nil, add_zero, add_zero] at hod
  obtain ⟨hM, hd⟩ := hdata k hk hi
  have hc : ¬ k.child = (i : Nat) := fun e => H.child k hk (by rw [e]; exact hi)
  have hset : ∀ r, r ≠ (n : Nat) → (Cfg.fac (Function.update (s i) (n, l) true)) r =
      (Cfg.fac (Function.update (s i) (n, l) false)) r := by
    intro r hr
    rw [(fac_set (s i) (n, l)).1, (fac_set (s i) (n, l)).2]
    funext d
    simp [Factor.set, hr]
  have hval : h.val s k.child = fun n d => h.data k.child [n, d] := by
    unfold val
    rw [dif_neg (by omega)]
  have h0 : h.ownScore s i k (Function.update (s i) (n, l) true) (Function.update (s i) (n, l) false) = 0 := by
    have hzu := z_ne_u H hk
    have : h.agree (Function.update s i (Function.update (s i) (n, l) true)) k =
        h.agree (Function.update s i (Function.update (s i) (n, l) false)) k := by
      unfold agree
      simp only [val_update, if_neg hc, hval]
      generalize Cfg.fac (Function.update (s i) (n, l) true) = F1 at hset ⊢
      generalize Cfg.fac (Function.update (s i) (n, l) false) = F0 at hset ⊢
      obtain ⟨r, hr⟩ : ∃ r, r = (n : Nat) := ⟨_, rfl⟩
      rw [← hr] at hset hd
      clear hr hod
      cases hv : k.v with
      | none =>
        rw [hv] at hd
        obtain ⟨d1, d2⟩ := hd
        simp only
        rcases mem_factors.1 hi with e | e | e
        · have hne : ¬ k.u = (i : Nat) := fun e' => hzu (e.symm.trans e'.symm)
          simp only [if_pos e.symm, if_neg hne]
          exact agreement2_row _ _ _ _ _ _ _ _ r (d1 e.symm) hset
        · have hne : ¬ k.z = (i : Nat) := fun e' => hzu (e'.trans e)
          simp only [if_pos e.symm, if_neg hne]
          exact agreement2_col _ _ _ _ _ _ _ _ r (d2 e.symm) hset
        · rw [hv] at e; cases e
      | some v =>
        rw [hv] at hd
        obtain ⟨d1, d2, d3⟩ := hd
        obtain ⟨hzv, huv⟩ := v_ne H hk hv
        simp only
        rcases mem_factors.1 hi with e | e | e
        · have n1 : ¬ k.u = (i : Nat) := fun e' => hzu (e.symm.trans e'.symm)
          have n2 : ¬ v = (i : Nat) := fun e' => hzv (e.symm.trans e'.symm)
          simp only [if_pos e.symm, if_neg n1, if_neg n2]
          exact agreement3_0 _ _ _ _ _ _ _ _ _ _ r (d1 e.symm) hset
        · have n1 : ¬ k.z = (i : Nat) := fun e' => hzu (e'.trans e)
          have n2 : ¬ v = (i : Nat) := fun e' => huv (e.symm.trans e'.symm)
          simp only [if_pos e.symm, if_neg n1, if_neg n2]
          exact agreement3_1 _ _ _ _ _ _ _ _ _ _ r (d2 e.symm) hset
        · rw [hv, Option.some.injEq] at e
          have n1 : ¬ k.z = (i : Nat) := fun e' => hzv (e'.trans e.symm)
          have n2 : ¬ k.u = (i : Nat) := fun e' => huv (e'.trans e.symm)
          simp only [if_pos e, if_neg n1, if_neg n2]
          exact agreement3_2 _ _ _ _ _ _ _ _ _ _ r (d3 e) hset
    rw [ownScore, this]
    simp
  rw [h0] at hod
  exact Real.log_injOn_pos (joint_pos H _) (joint_pos H _) (by linarith)

/-- indifferent entries alternate -/
theorem runSteps_flip {T : Nat} (fe : Nat → Arr Int) (i : Fin h.M) (e : Fin (h.rows i) × Fin (h.cols i))
    (hfe : fe i (idxOf e) ≠ 1) (hind : h.Indifferent i e) (ω : h.Draws T) (sched : List (Fin T × Fin h.M)) :
    ∀ s : h.State, (sgn (runSteps (fun p => matStep fe p.2) ω sched s i e) : ℤ) =
      (-1) ^ (sched.map fun p => (p.2 : Nat)).count (i : Nat) * sgn (s i e) := by
  induction sched with
  | nil => intro s; simp [runSteps]
  | cons p rest ih =>
    intro s
    show sgn (runSteps (fun p => matStep fe p.2) ω rest (matStep fe p.2 s (ω p)) i e) = _
    rw [ih, List.map_cons]
    by_cases hp : p.2 = i
    · obtain ⟨t, j⟩ := p
      simp only at hp
      subst hp
      rw [List.count_cons_self, matStep_flip fe j e hfe hind, pow_succ]
      cases s j e <;> simp [sgn]
    · have : ((p.2 : Nat) == (i : Nat)) = false := by
        rw [beq_eq_false_iff_ne]
        exact fun hc => hp (Fin.ext hc)
      rw [List.count_cons, this, matStep_off fe p.2 s (ω p) (Ne.symm hp)]
      simp

end Spec.Hier

/-- samples of unobserved rows -/
theorem Spec.Hier.unobserved_samples {h : Hier} (H : h.Legal) {wr : Wiring} (hw : h.Wired wr) (m : Mach Sampler LbdaUpdate)
    (hm : h.FixedLbdas wr m) (hp : ∀ t, (wr.perm t (freeMats m)).Perm (freeMats m)) (fe : Nat → Arr Int)
    (S cw bmin : Nat) (eps : ℝ) (bmax : Int) (ps fx : Nat) (hcw : 1 ≤ cw) (hps : 1 ≤ ps) (T : Nat)
    (hT : m.clock + bmin + bmax.toNat + S ≤ T) (i : Fin h.M) (hi : (i : Nat) ∈ freeMats m) (n : Fin (h.rows i))
    (hu : h.Unobserved i n) (hfe : ∀ l : Fin (h.cols i), fe i [n, l] ≠ 1) (ω : h.Draws T) (s : h.State) (hS : 1 ≤ S) :
    ∃ m' tr,
      infer (genericEnv (Spec.Hier.withDraws wr ω)) S cw eps bmin bmax ps fx { m with world := h.world fe s } = .ok m' ∧
      m'.trace i = some tr ∧
      ∀ k < S, ∀ l : Fin (h.cols i), tr [k, n, l] = (-1) ^ (burnSweeps cw bmin bmax + 1 + k) * sgn (s i (n, l)) := by
  have hind := fun l => hu.indifferent H l
  obtain ⟨m', h1, -⟩ := Spec.Hier.infer_state H hw hm hp fe S cw bmin eps bmax ps fx hcw hps T hT 0 (by omega) ω s
  have hsamp : ∀ k < S, h.IsSample m m' S k (runSteps (fun p => Spec.Hier.matStep fe p.2) ω
      (Spec.Hier.sweepsSched h wr.perm (freeMats m) T m.clock (burnSweeps cw bmin bmax + (k + 1))) s) := by
    intro k hk
    obtain ⟨m'', h2, h3⟩ := Spec.Hier.infer_state H hw hm hp fe S cw bmin eps bmax ps fx hcw hps T hT k hk ω s
    rw [h1] at h2
    cases h2
    exact (h3 _).2 rfl
  obtain ⟨tr, t1, -, -⟩ := (hsamp 0 (by omega)).1 i hi
  refine ⟨m', tr, h1, t1, fun k hk l => ?_⟩
  obtain ⟨tr', u1, -, u3⟩ := (hsamp k hk).1 i hi
  rw [t1] at u1
  cases u1
  rw [u3 n l, Spec.Hier.runSteps_flip fe i (n, l) (hfe l) (hind l),
    Spec.Hier.sweepsSched_count hp hm.nodup hm.free hi _ _ (by rw [burnSweeps]; omega)]
  congr 2
  omega

/-- **C79**, what happens to rows that are not observed: if the data of an object (or attribute) are missing and the
prior is 1/2, all configurations of its row of the factor have the same posterior probability, but the samples of its
row alternate between the initial configuration and its complement, whatever is drawn. -/
theorem C79_unobserved_actual {h : Hier} (H : h.Legal) {wr : Wiring} (hw : h.Wired wr) (m : Mach Sampler LbdaUpdate)
    (hm : h.FixedLbdas wr m) (hp : ∀ t, (wr.perm t (freeMats m)).Perm (freeMats m)) (fe : Nat → Arr Int)
    (S cw bmin : Nat) (eps : ℝ) (bmax : Int) (ps fx : Nat) (hcw : 1 ≤ cw) (hps : 1 ≤ ps) (T : Nat)
    (hT : m.clock + bmin + bmax.toNat + S ≤ T) (i : Fin h.M) (hi : (i : Nat) ∈ freeMats m) (n : Fin (h.rows i))
    (hu : h.Unobserved i n) (hfe : ∀ l : Fin (h.cols i), fe i [n, l] ≠ 1) :
    (∀ (s : h.State) (b : Fin (h.cols i) → Bool),
      h.joint (Function.update s i fun e => if e.1 = n then b e.2 else s i e) = h.joint s) ∧
    ∃ B : Nat, ∀ (ω : h.Draws T) (s : h.State), 1 ≤ S → ∃ m' tr,
      infer (genericEnv (Spec.Hier.withDraws wr ω)) S cw eps bmin bmax ps fx { m with world := h.world fe s } = .ok m' ∧
      m'.trace i = some tr ∧ ∀ k < S, ∀ l : Fin (h.cols i), tr [k, n, l] = (-1) ^ (B + k) * sgn (s i (n, l)) := by
  have hind := fun l => hu.indifferent H l
  constructor
  · -- change one entry after the other
    have key : ∀ (ls : List (Fin (h.cols i))) (s : h.State) (b : Fin (h.cols i) → Bool),
        h.joint (Function.update s i fun e => if e.1 = n ∧ e.2 ∈ ls then b e.2 else s i e) = h.joint s := by
      intro ls
      induction ls with
      | nil =>
        intro s b
        have : (fun e : Fin (h.rows i) × Fin (h.cols i) => if e.1 = n ∧ e.2 ∈ ([] : List (Fin (h.cols i))) then b e.2 else s i e) =
            s i := by
          funext e; simp
        rw [this, Function.update_eq_self]
      | cons l ls ih =>
        intro s b
        obtain ⟨s1, hs1⟩ : ∃ s1, s1 = Function.update s i fun e => if e.1 = n ∧ e.2 ∈ ls then b e.2 else s i e := ⟨_, rfl⟩
        rw [← ih s b, ← hs1]
        have e1 : Function.update s i (fun e => if e.1 = n ∧ e.2 ∈ l :: ls then b e.2 else s i e) =
            Function.update s1 i (Function.update (s1 i) (n, l) (b l)) := by
          rw [hs1, Function.update_idem, Function.update_self]
          congr 1
          funext e
          by_cases he : e = (n, l)
          · subst he; simp
          · rw [Function.update_of_ne he]
            by_cases hn : e.1 = n
            · have : e.2 ≠ l := fun hc => he (Prod.ext hn hc)
              simp [hn, this]
            · simp [hn]
        have e2 : h.joint (Function.update s1 i (Function.update (s1 i) (n, l) (b l))) =
            h.joint (Function.update s1 i (Function.update (s1 i) (n, l) (s1 i (n, l)))) := by
          have := hind l s1
          cases b l <;> cases s1 i (n, l) <;> simp [this]
        rw [e1, e2, Function.update_eq_self, Function.update_eq_self]
    intro s b
    have := key (List.finRange _) s b
    simpa using this
  · exact ⟨burnSweeps cw bmin bmax + 1, fun ω s hS =>
      Spec.Hier.unobserved_samples H hw m hm hp fe S cw bmin eps bmax ps fx hcw hps T hT i hi n hu hfe ω s hS⟩

/-- one missing observation, two latent dimensions -/
noncomputable def blankHier : Hier where
  M := 2
  rows _ := 1
  cols i := if i = 2 then 1 else 2
  layers := [⟨.OR_AND, 0, 1, 2, 1, none⟩]
  data _ := Arr.full [1, 1] 0
  prior _ := 1 / 2

theorem blankHier_legal : blankHier.Legal := by
  have hl : ∀ k ∈ blankHier.layers, k = ⟨.OR_AND, 0, 1, 2, 1, none⟩ := by
    intro k hk
    simpa [blankHier] using hk
  refine ⟨?_, ?_, ?_, ?_, ?_, ?_, ?_, ?_, ?_, ?_, ?_, ?_, ?_⟩
  · intro i _; simp only [blankHier]; norm_num
  · intro k hk; rw [hl k hk]; simp [blankHier, HLayer.factors]
  · intro k hk; rw [hl k hk]; simp [HLayer.factors]
  · simp [blankHier, HLayer.factors]
  · intro i hi
    simp only [blankHier] at hi
    have : i = 0 ∨ i = 1 := by omega
    rcases this with rfl | rfl <;> simp [blankHier, HLayer.factors]
  · intro i hi
    simp only [blankHier] at hi
    have : i = 0 ∨ i = 1 := by omega
    rcases this with rfl | rfl <;> simp [blankHier, Spec.Hier.parentsOf]
  · intro k hk _; simp [blankHier]
  · intro k hk _; rw [hl k hk]; simp [blankHier]
  · intro k hk _ _
    rw [hl k hk]
    exact ⟨rfl, fun idx _ => by simp [blankHier, Arr.full, IsData]⟩
  · intro k hk v hv; rw [hl k hk] at hv; cases hv
  · intro k hk v hv; rw [hl k hk] at hv; cases hv
  · intro k hk v hv; rw [hl k hk] at hv; cases hv
  · intro k hk hv; rw [hl k hk] at hv; exact absurd rfl hv

theorem blankHier_unobserved (i : Fin blankHier.M) (n : Nat) : blankHier.Unobserved i n := by
  refine ⟨rfl, ?_, ?_⟩
  · have : ¬ (2 : Nat) = i := by
      have := i.2
      simp only [blankHier] at this
      omega
    simp [Spec.Hier.parentsOf, blankHier, this]
  · intro k hk
    obtain rfl : k = ⟨.OR_AND, 0, 1, 2, 1, none⟩ := by simpa [blankHier] using hk
    exact fun _ => ⟨le_refl _, fun _ _ _ => rfl, fun _ _ _ => rfl⟩

/-- **C79** as stated is wrong: a machine, an initial state and a state of positive posterior probability that is never
sampled, however long the burn-in and the sampling. -/
theorem C79_wrong : ∃ h : Hier, h.Legal ∧ ∃ s s' : h.State, 0 < h.posterior s' ∧
    ∀ perm : Nat → List Nat → List Nat, (∀ t l, (perm t l).Perm l) → ∀ (S cw bmin : Nat) (eps : ℝ) (bmax : Int) (ps fx : Nat),
      1 ≤ cw → 1 ≤ ps → ∀ T, bmin + bmax.toNat + S ≤ T → ∀ k < S,
      h.allDraws T {ω | ∃ m', infer (genericEnv (Spec.Hier.withDraws (h.wiringOf perm) ω)) S cw eps bmin bmax ps fx
        (h.machOf (fun _ => Arr.full [1, 2] 0) s) = .ok m' ∧
        h.IsSample (h.machOf (fun _ => Arr.full [1, 2] 0) s) m' S k s'} = 0 := by
  have H := blankHier_legal
  refine ⟨blankHier, H, fun _ _ => true, fun _ e => decide ((e.2 : Nat) = 0), ?_, ?_⟩
  · exact div_pos (Spec.Hier.joint_pos H _) (Finset.sum_pos (fun x _ => Spec.Hier.joint_pos H x) ⟨fun _ _ => true, Finset.mem_univ _⟩)
  intro perm hperm S cw bmin eps bmax ps fx hcw hps T hT k hk
  obtain ⟨s, hs⟩ : ∃ s : blankHier.State, s = fun _ _ => true := ⟨_, rfl⟩
  rw [← hs]
  have hM : (0 : Nat) < blankHier.M := by simp [blankHier]
  have hrow : (0 : Nat) < blankHier.rows 0 := by simp [blankHier]
  have hc0 : (0 : Nat) < blankHier.cols 0 := by simp [blankHier]
  have hc1 : (1 : Nat) < blankHier.cols 0 := by simp [blankHier]
  obtain ⟨-, B, hB⟩ := C79_unobserved_actual H (Spec.Hier.wiringOf_wired H perm) (blankHier.machOf (fun _ => Arr.full [1, 2] 0) s)
    (Spec.Hier.machOf_fixed H perm _ s) (fun t => hperm t _) (fun _ => Arr.full [1, 2] 0) S cw bmin eps bmax ps fx hcw hps T
    (by show 0 + bmin + bmax.toNat + S ≤ T; omega) ⟨0, hM⟩ ((Spec.Hier.mem_freeMats_machOf H _ s 0).2 hM) ⟨0, hrow⟩
    (blankHier_unobserved _ _) (fun l => by simp [Arr.full])
  have hempty : {ω : blankHier.Draws T | ∃ m', infer (genericEnv (Spec.Hier.withDraws (blankHier.wiringOf perm) ω)) S cw eps bmin bmax ps fx
        (blankHier.machOf (fun _ => Arr.full [1, 2] 0) s) = .ok m' ∧
        blankHier.IsSample (blankHier.machOf (fun _ => Arr.full [1, 2] 0) s) m' S k fun _ e => decide ((e.2 : Nat) = 0)} = ∅ := by
    ext ω
    simp only [Set.mem_ofPred_eq, Set.mem_empty_iff_false, iff_false]
    rintro ⟨m', h1, h2, -⟩
    obtain ⟨m'', tr, h3, h4, h5⟩ := hB ω s (by omega)
    have h3' : infer (genericEnv (Spec.Hier.withDraws (blankHier.wiringOf perm) ω)) S cw eps bmin bmax ps fx
        (blankHier.machOf (fun _ => Arr.full [1, 2] 0) s) = .ok m'' := h3
    rw [h1] at h3'
    cases h3'
    obtain ⟨tr', u1, -, u3⟩ := h2 ⟨0, hM⟩ ((Spec.Hier.mem_freeMats_machOf H _ s 0).2 hM)
    rw [h4] at u1
    cases u1
    have a0 := h5 k hk ⟨0, hc0⟩
    have a1 := h5 k hk ⟨1, hc1⟩
    rw [u3] at a0 a1
    rw [hs] at a0 a1
    simp [sgn] at a0 a1
    rw [← a0] at a1
    norm_num at a1
  rw [hempty, measure_empty]

/-- **C79** (partial): if no free entry is indifferent (given what is fixed and any values of the other free entries), the
samples converge to the posterior given what is fixed, from every initial state: the probability that sample `k` is `s'`
differs from its posterior probability given the fixed entries and matrices by an amount that decreases geometrically with
the length of the burn-in. Rate and period depend on the model, data, parameters, priors and fixed values only. (Layers
as in C76; parameters fixed, no annealing, no automatic clean-up. The orders of updates within sweeps are arbitrary.) -/
theorem C79_converges_given_partial {h : Hier} (H : h.Legal) (free : h.Site → Prop) (s0 : h.State)
    (hties : h.NoTiesGiven free s0) : ∃ N : Nat, 1 ≤ N ∧ ∃ ε : ℝ, 0 < ε ∧ ε ≤ 1 ∧
    ∀ (wr : Wiring), h.Wired wr → ∀ (m : Mach Sampler LbdaUpdate), h.FixedLbdas wr m →
      (∀ t, (wr.perm t (freeMats m)).Perm (freeMats m)) →
      ∀ (fe : Nat → Arr Int), (∀ q, free q ↔ h.Sampled m fe q) →
      ∀ (S cw bmin : Nat) (eps : ℝ) (bmax : Int) (ps fx : Nat), 1 ≤ cw → 1 ≤ ps →
      ∀ T, m.clock + bmin + bmax.toNat + S ≤ T → ∀ k < S, ∀ s s' : h.State, h.Agree free s s0 →
      |(h.allDraws T {ω | ∃ m', infer (genericEnv (Spec.Hier.withDraws wr ω)) S cw eps bmin bmax ps fx
          { m with world := h.world fe s } = .ok m' ∧ h.IsSample m m' S k s'}).toReal - h.posteriorGiven free s0 s'| ≤
        (1 - ε) ^ ((bmin + k) / N) := by
  obtain ⟨N, hN, ε, h0, h1, hc⟩ := Spec.Hier.sweeps_converge_given H hties
  refine ⟨N, hN, ε, h0, h1, ?_⟩
  intro wr hw m hm hp fe hfe S cw bmin eps bmax ps fx hcw hps T hT k hk s s' hs
  rw [Spec.Hier.sample_law H hw hm hp fe S cw bmin eps bmax ps fx hcw hps T hT k hk s s']
  refine le_trans (hc wr.perm (freeMats m) hp hm.nodup hm.free fe hfe
    T m.clock _ (by rw [burnSweeps]; omega) s s' hs).2 ?_
  refine pow_le_pow_of_le_one (by linarith) (by linarith) ?_
  exact Nat.div_le_div_right (by rw [burnSweeps]; omega)

/-- **C79** (partial): the same as a limit -/
theorem C79_limit_given_partial {h : Hier} (H : h.Legal) (free : h.Site → Prop) (s0 : h.State)
    (hties : h.NoTiesGiven free s0) (δ : ℝ) (hδ : 0 < δ) : ∃ B : Nat,
    ∀ (wr : Wiring), h.Wired wr → ∀ (m : Mach Sampler LbdaUpdate), h.FixedLbdas wr m →
      (∀ t, (wr.perm t (freeMats m)).Perm (freeMats m)) →
      ∀ (fe : Nat → Arr Int), (∀ q, free q ↔ h.Sampled m fe q) →
      ∀ (S cw bmin : Nat) (eps : ℝ) (bmax : Int) (ps fx : Nat), 1 ≤ cw → 1 ≤ ps →
      ∀ T, m.clock + bmin + bmax.toNat + S ≤ T → ∀ k < S, B ≤ bmin + k → ∀ s s' : h.State, h.Agree free s s0 →
      |(h.allDraws T {ω | ∃ m', infer (genericEnv (Spec.Hier.withDraws wr ω)) S cw eps bmin bmax ps fx
          { m with world := h.world fe s } = .ok m' ∧ h.IsSample m m' S k s'}).toReal - h.posteriorGiven free s0 s'| < δ := by
  obtain ⟨N, hN, ε, h0, h1, hc⟩ := C79_converges_given_partial H free s0 hties
  obtain ⟨q, hq⟩ := exists_pow_lt_of_lt_one hδ (by linarith : 1 - ε < 1)
  refine ⟨q * N, ?_⟩
  intro wr hw m hm hp fe hfe S cw bmin eps bmax ps fx hcw hps T hT k hk hB s s' hs
  refine lt_of_le_of_lt (hc wr hw m hm hp fe hfe S cw bmin eps bmax ps fx hcw hps T hT k hk s s' hs) (lt_of_le_of_lt ?_ hq)
  exact pow_le_pow_of_le_one (by linarith) (by linarith) ((Nat.le_div_iff_mul_le (by omega)).2 hB)

namespace Spec.Hier

variable {h : Hier}

/-- nothing is fixed -/
theorem agree_all {free : h.Site → Prop} (hf : ∀ q, free q) (s s0 : h.State) : h.Agree free s s0 :=
  fun q hq => absurd (hf q) hq

theorem posteriorGiven_all {free : h.Site → Prop} (hf : ∀ q, free q) (s0 : h.State) :
    h.posteriorGiven free s0 = h.posterior := by
  funext s
  unfold posteriorGiven posterior
  rw [if_pos (agree_all hf s s0)]
  congr 2
  ext x
  simp [agree_all hf x s0]

theorem NoTies.given (hties : h.NoTies) (free : h.Site → Prop) (s0 : h.State) : h.NoTiesGiven free s0 :=
  fun s _ q _ => hties s q.1 q.2

end Spec.Hier

/-- **C79** (partial): in particular, if nothing is fixed and no entry is indifferent (given any values of the other
entries), the samples converge to the posterior, from every initial state. -/
theorem C79_converges_partial {h : Hier} (H : h.Legal) (hties : h.NoTies) : ∃ N : Nat, 1 ≤ N ∧ ∃ ε : ℝ, 0 < ε ∧ ε ≤ 1 ∧
    ∀ (wr : Wiring), h.Wired wr → ∀ (m : Mach Sampler LbdaUpdate), h.FixedLbdas wr m → (∀ i < h.M, i ∈ freeMats m) →
      (∀ t, (wr.perm t (freeMats m)).Perm (freeMats m)) →
      ∀ (fe : Nat → Arr Int), (∀ (i : Fin h.M) (n : Fin (h.rows i)) (l : Fin (h.cols i)), fe i [n, l] ≠ 1) →
      ∀ (S cw bmin : Nat) (eps : ℝ) (bmax : Int) (ps fx : Nat), 1 ≤ cw → 1 ≤ ps →
      ∀ T, m.clock + bmin + bmax.toNat + S ≤ T → ∀ k < S, ∀ s s' : h.State,
      |(h.allDraws T {ω | ∃ m', infer (genericEnv (Spec.Hier.withDraws wr ω)) S cw eps bmin bmax ps fx
          { m with world := h.world fe s } = .ok m' ∧ h.IsSample m m' S k s'}).toReal - h.posterior s'| ≤
        (1 - ε) ^ ((bmin + k) / N) := by
  obtain ⟨N, hN, ε, h0, h1, hc⟩ := C79_converges_given_partial H (fun _ => True) (fun _ _ => true)
    (hties.given _ _)
  refine ⟨N, hN, ε, h0, h1, ?_⟩
  intro wr hw m hm hfree hp fe hfe S cw bmin eps bmax ps fx hcw hps T hT k hk s s'
  have := hc wr hw m hm hp fe (fun q => ⟨fun _ => ⟨hfree q.1 q.1.2, hfe q.1 q.2.1 q.2.2⟩, fun _ => trivial⟩) S cw bmin eps bmax
    ps fx hcw hps T hT k hk s s' (Spec.Hier.agree_all (fun _ => trivial) _ _)
  rw [Spec.Hier.posteriorGiven_all (fun _ => trivial)] at this
  exact this

/-- every legal hierarchy (such as `towerHier`) is that of a machine that meets the hypotheses of C78 and C79, and such a
machine samples all of its matrices -/
theorem C78_hypotheses_met {h : Hier} (H : h.Legal) (fe : Nat → Arr Int) (s : h.State) :
    h.Wired (h.wiringOf fun _ l => l) ∧ h.FixedLbdas (h.wiringOf fun _ l => l) (h.machOf fe s) ∧
      (∀ t, ((h.wiringOf fun _ l => l).perm t (freeMats (h.machOf fe s))).Perm (freeMats (h.machOf fe s))) ∧
      ∀ i, i ∈ freeMats (h.machOf fe s) ↔ i < h.M :=
  ⟨Spec.Hier.wiringOf_wired H _, Spec.Hier.machOf_fixed H _ fe s, fun _ => List.Perm.refl _,
    Spec.Hier.mem_freeMats_machOf H fe s⟩

/-- every choice of fixed matrices and fixed entries is that of a machine that satisfies the hypotheses of the theorems
about what is fixed -/
theorem C79_given_hypotheses_met {h : Hier} (H : h.Legal) (fix : Nat → Bool) (fe : Nat → Arr Int) (s : h.State) :
    let wr := h.wiringOf fun _ l => l
    let m : Mach Sampler LbdaUpdate := { h.machOf fe s with fixed := fun i => (h.machOf fe s).fixed i || fix i }
    h.Wired wr ∧ h.FixedLbdas wr m ∧ (∀ t, (wr.perm t (freeMats m)).Perm (freeMats m)) ∧
      ∀ q, h.Sampled m fe q ↔ fix q.1 = false ∧ fe q.1 [q.2.1, q.2.2] ≠ 1 := by
  intro wr m
  have hfree : freeMats m = (freeMats (h.machOf fe s)).filter fun i => !fix i := by
    rw [freeMats, freeMats, List.filter_filter]
    show List.filter _ (members (h.machOf fe s)) = _
    refine List.filter_congr fun i _ => ?_
    show (!((h.machOf fe s).fixed i || fix i)) = _
    rw [Bool.not_or, Bool.and_comm]
  have hF := Spec.Hier.machOf_fixed H (fun _ l => l) fe s
  refine ⟨Spec.Hier.wiringOf_wired H _, ⟨hF.layers, hF.layerOf, hF.prior, hF.lfixed, hF.anneal, hF.off, hF.fct, ?_, ?_⟩,
    fun _ => List.Perm.refl _, fun q => ?_⟩
  · intro i hi
    rw [hfree, List.mem_filter] at hi
    exact hF.free i hi.1
  · rw [hfree]
    exact hF.nodup.filter _
  · rw [Spec.Hier.Sampled, hfree, List.mem_filter, Spec.Hier.mem_freeMats_machOf H]
    simp [q.1.2]

end LFM
