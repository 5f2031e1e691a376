import Verif.Lemmas.Anneal
import Mathlib.Tactic.FieldSimp
import Mathlib.Algebra.Order.Floor.Ring

/-!
# Properties of burn-in: C40, C41, C42, C44
-/

namespace LFM

variable {F G : Type}

/-! ## A small machine for the witnesses -/

/-- update functions that change nothing; `np.empty` returns memory filled with `j` -/
def idleEnv (j : NpF) : Env Unit Unit where
  runMat _ _ _ w := .ok w
  runLbda _ _ _ w := .ok w
  perm _ mats := mats
  getFct _ _ := .ok (some (), none)
  getLfct _ _ := .ok ()
  junk _ _ _ _ := j
  junkSampling _ _ _ := j
  junkMat _ _ := 0

/-- an OR-AND machine with two 1×1 factors, dispersion parameter `x` -/
noncomputable def smallMach (x : NpF) : Mach Unit Unit where
  layers := [⟨[0, 1], "OR-AND", none, false, false⟩]
  matrices := []
  anneal := false
  world := { mat := fun _ => ⟨Arr.full [1, 1] 1, Arr.full [1, 1] 0⟩, lbda := fun _ => .scalar x }
  fixed _ := false
  layerOf _ := some 0
  bernoulli_prior _ := 1 / 2
  fct _ := some ()
  trace _ := none
  trace_index _ := 0
  lfixed _ := false
  lfct _ := some ()
  ltrace _ := none
  ltrace_index _ := 0
  burn_in_iters := none
  clock := 0

theorem idle_healthy (j x : NpF) : Healthy (idleEnv j) [0, 1] [0] (smallMach x).layers (smallMach x).fct
    (smallMach x).lfct fun _ => True where
  perm _ _ hi := hi
  mat _ _ := ⟨(), rfl, fun _ w _ => ⟨w, rfl, trivial, fun _ => rfl⟩⟩
  lbda _ _ := ⟨(), rfl, fun _ w _ => ⟨w, rfl, trivial, fun _ => rfl⟩⟩
  clean _ _ _ _ _ _ _ _ _ _ := trivial

/-! ## C40 -/

/-- **C40** (number of sweeps): whatever the update functions, the parameters, the convergence behaviour, clean-ups and
contents of memory, burn-in that returns has performed at least `burn_in_min` sweeps over the matrices and at most
`max(burn_in_min, burn_in_max)`. (That burn-in ends is in the definition of the model, which is a total function.) -/
theorem C40_sweeps (env : Env F G) (mats lbdas : List Nat) (eps : ℝ) (cw bmin : Nat) (bmax : Int) (ps fx : Nat)
    (m m' : Mach F G) (h : burn_in env mats lbdas eps cw bmin bmax ps fx m = .ok m') :
    ∃ n : Nat, m'.clock = m.clock + n ∧ bmin ≤ n ∧ (n : Int) ≤ max (bmin : Int) bmax := by
  obtain ⟨j, hj, hc, hm, -⟩ := burn_in_count h
  exact ⟨bmin + (j - 1), hc, by omega, by omega⟩

/-- **C40** (no write outside the window): if the update functions do not raise, burn-in does not raise either, for all
windows and print steps of at least 1, without annealing or with annealing from numbers other than zero. In particular no
trace index is out of bounds. -/
theorem C40_no_error (env : Env F G) (mats lbdas : List Nat) (hnd : lbdas.Nodup) (eps : ℝ) (cw bmin : Nat) (bmax : Int)
    (ps fx : Nat) (hcw : 1 ≤ cw) (hps : 1 ≤ ps) (m : Mach F G) (I : World → Prop)
    (ha : AnnealOK env mats lbdas m.fct fx I m)
    (H : Healthy env mats lbdas m.layers m.fct m.lfct I) (hI : I m.world) :
    ∃ m', burn_in env mats lbdas eps cw bmin bmax ps fx m = .ok m' := by
  obtain ⟨m', h, -⟩ := H.burn_in_anneal hnd (show ps ≠ 0 by omega) (show cw ≠ 0 by omega) (eps := eps) (b := bmin)
    (bmax := bmax) (fx := fx) rfl rfl rfl ha hI
  exact ⟨m', h⟩

/-- **C40** (errors): a window or print step of zero raises ZeroDivisionError if the first loop is not entered -/
theorem C40_zero (env : Env F G) (mats lbdas : List Nat) (eps : ℝ) (cw : Nat) (bmax : Int) (ps fx : Nat)
    (m : Mach F G) (h : ps = 0 ∨ cw = 0) : burn_in env mats lbdas eps cw 0 bmax ps fx m = .error .zeroDivision := by
  rw [burn_in]
  exact mainLoop_zero h

/-- the hypotheses of `C40_no_error` hold for a machine with two factors and a parameter -/
theorem C40_hypotheses_met (j x : NpF) : ∃ m', burn_in (idleEnv j) [0, 1] [0] 0.01 15 30 2000 10 0 (smallMach x) = .ok m' :=
  C40_no_error _ _ _ (by decide) _ _ _ _ _ _ (by norm_num) (by norm_num) _ _ (.inl rfl) (idle_healthy j x) trivial

/-! ## C41 -/

/-- **C41** (partial): everything burn-in leaves behind, except for the contents of the traces it does not need any
more, is independent of the contents of newly allocated memory - if the last row of the first window is excepted. What
is missing for the full claim: the first check takes place one sweep before the window is full, so that this row,
which no sampled value was ever written to, is used (`C41_wrong`). -/
theorem C41_partial (env : Env F G) (junk' : Nat → Nat → Nat → Nat → NpF) (mats lbdas : List Nat) (hnd : lbdas.Nodup)
    (eps : ℝ) (cw bmin : Nat) (bmax : Int) (ps fx : Nat) (m : Mach F G)
    (hlast : ∀ k c, junk' 0 k (cw - 1) c = env.junk 0 k (cw - 1) c) :
    (burn_in { env with junk := junk' } mats lbdas eps cw bmin bmax ps fx m).map (withL fun _ => none) =
    (burn_in env mats lbdas eps cw bmin bmax ps fx m).map (withL fun _ => none) := by
  have hpre : ∀ (todo : Nat) (steps : List (List ℝ)) (m : Mach F G),
      preLoop { env with junk := junk' } mats lbdas bmin ps fx todo steps m =
      preLoop env mats lbdas bmin ps fx todo steps m := by
    intro todo
    induction todo with
    | zero => intro steps m; rfl
    | succ todo ih =>
      intro steps m
      rw [preLoop, preLoop]
      have : preStep { env with junk := junk' } mats lbdas bmin ps fx (bmin - todo) steps m =
        preStep env mats lbdas bmin ps fx (bmin - todo) steps m := rfl
      rw [this]
      cases preStep env mats lbdas bmin ps fx (bmin - todo) steps m with
      | error e => rfl
      | ok r => exact ih _ _
  rw [burn_in, burn_in, hpre]
  cases preLoop env mats lbdas bmin ps fx bmin [] m with
  | error e => rfl
  | ok m1 =>
    by_cases hcw : cw = 0
    · show Except.map _ (mainLoop _ mats lbdas eps cw bmax ps bmin 1 _) =
        Except.map _ (mainLoop _ mats lbdas eps cw bmax ps bmin 1 _)
      rw [mainLoop_zero (.inr hcw), mainLoop_zero (.inr hcw)]
    have ht : Twin lbdas cw (fun _ => ixBefore cw 1) (fun _ => rowsBefore cw 1)
        (allocLbdas (junk' 0) cw lbdas m1).ltrace (allocLbdas (env.junk 0) cw lbdas m1) := by
      intro k hk
      have h0 : ixBefore cw 1 = 0 := by simp [ixBefore, show 1 ≤ cw by omega]
      refine ⟨by simp [allocLbdas, hk, h0], allocL (env.junk 0 k) cw (m1.world.lbda k),
        allocL (junk' 0 k) cw (m1.world.lbda k), by simp [allocLbdas, hk], by simp [allocLbdas, hk],
        ⟨by rw [allocL_kind, allocL_kind], by rw [allocL_len, allocL_len], ?_⟩, allocL_len _ _ _⟩
      intro r hr
      change rowsBefore cw 1 r at hr
      unfold rowsBefore at hr
      have : r = cw - 1 := by omega
      subst this
      exact allocL_row _ _ _ _ _ (hlast k)
    have key := mainLoop_twin (env := env) (mats := mats) (eps := eps) (bmax := bmax) (ps := ps) (pre := bmin)
      (j' := junk') hnd _ 1 _ _ rfl (le_refl 1) ht
    show Except.map _ (mainLoop { env with junk := junk' } mats lbdas eps cw bmax ps bmin 1
        (withL (allocLbdas (junk' 0) cw lbdas m1).ltrace (allocLbdas (env.junk 0) cw lbdas m1))) =
      Except.map _ (mainLoop env mats lbdas eps cw bmax ps bmin 1 (allocLbdas (env.junk 0) cw lbdas m1))
    rcases key with ⟨e, h1, h2⟩ | ⟨n, t', h1, h2⟩
    · rw [h1, h2]
    · rw [h1, h2]; rfl

/-- one turn without a check -/
theorem mainLoop_off {env : Env F G} {mats lbdas : List Nat} {eps : ℝ} {cw : Nat} {bmax : Int} {ps pre iter : Nat}
    {m : Mach F G} (hp : ps ≠ 0) (hc : cw ≠ 0) (hi : iter % cw ≠ 0) (hb : (iter : Int) + pre ≤ bmax) :
    mainLoop env mats lbdas eps cw bmax ps pre iter m = burnSweep env mats lbdas m >>=
      mainLoop env mats lbdas eps cw bmax ps pre (iter + 1) := by
  rw [mainLoop_eq hp hc, windowTurn, if_neg hi]
  simp only [bind, Except.bind, Bool.false_eq_true, if_false]
  rw [if_neg (by omega)]

/-- the sweep of the small machine writes its parameter to the window -/
theorem idle_sweep (j x : NpF) (m : Mach Unit Unit) (h : m.fct = fun _ => some ()) (hl : m.lfct = fun _ => some ())
    (hw : m.world.lbda 0 = .scalar x) (xs : List NpF) (ht : m.ltrace 0 = some (.scalars xs))
    (hi : m.ltrace_index 0 < xs.length) :
    burnSweep (idleEnv j) [0, 1] [0] m = .ok { m with
      ltrace := upd m.ltrace 0 (some (.scalars (xs.set (m.ltrace_index 0) x)))
      ltrace_index := upd m.ltrace_index 0 (m.ltrace_index 0 + 1), clock := m.clock + 1 } := by
  simp [burnSweep, sampleMats, sampleLbdas, callMat, callLbda, idleEnv, h, hl, updateTraceL, ht, hw, writeL, hi, bind,
    Except.bind, pure, Except.pure]

theorem check_const (x eps : ℝ) (he : 0 < eps) : check_convergence_single_trace [.fin x, .fin x] eps = true := by
  simpa using C70_constant 2 (le_refl _) x eps he

/-- whether the window looks converged depends on the row that was never written -/
theorem check_junk : check_convergence_single_trace [.fin 0, .posInf] 0.1 = false := by
  rw [Bool.eq_false_iff]
  intro h
  simp [check_convergence_single_trace, npMean, npSum, NpF.add, NpF.expit, absDiffLt, expit, npDiv] at h
  norm_num [abs_lt] at h

/-- **C41** (wrong): burn-in of a machine whose parameter is constantly 0 ends after one or after three sweeps, depending
on the contents of newly allocated memory -/
theorem C41_wrong :
    (burn_in (idleEnv (.fin 0)) [0, 1] [0] 0.1 2 0 5 10 0 (smallMach (.fin 0))).map
      (fun m => (m.burn_in_iters, m.clock)) = .ok (some 2, 1) ∧
    (burn_in (idleEnv .posInf) [0, 1] [0] 0.1 2 0 5 10 0 (smallMach (.fin 0))).map
      (fun m => (m.burn_in_iters, m.clock)) = .ok (some 4, 3) := by
  have start : ∀ j, burn_in (idleEnv j) [0, 1] [0] 0.1 2 0 5 10 0 (smallMach (.fin 0)) =
      mainLoop (idleEnv j) [0, 1] [0] 0.1 2 5 10 0 2 { smallMach (.fin 0) with
        ltrace := upd (smallMach (.fin 0)).ltrace 0 (some (.scalars [.fin 0, j]))
        ltrace_index := upd (smallMach (.fin 0)).ltrace_index 0 1, clock := 1 } := by
    intro j
    rw [burn_in]
    show mainLoop _ _ _ _ _ _ _ _ 1 _ = _
    rw [mainLoop_off (by norm_num) (by norm_num) (by norm_num) (by norm_num),
      idle_sweep j (.fin 0) _ rfl rfl rfl [j, j] (by simp [allocLbdas, allocL, smallMach, idleEnv, List.range_succ])
        (by simp [allocLbdas])]
    simp only [bind, Except.bind]
    congr 2
    · funext k
      by_cases hk : k = 0 <;> simp [upd, allocLbdas, hk]
    · funext k
      by_cases hk : k = 0 <;> simp [upd, allocLbdas, hk]
  have clean : ∀ m : Mach Unit Unit, autoClean (smallMach (.fin 0)).layers m = .ok (m, false) := fun _ => rfl
  constructor
  · rw [start, mainLoop_eq (by norm_num) (by norm_num), windowTurn, if_pos (by norm_num), windowStep]
    simp only [allConverged, upd, resetIndexL, checkL, if_true]
    simp only [check_const 0 0.1 (by norm_num)]
    simp only [bind, Except.bind, pure, Except.pure, Bool.and_self, if_true]
    rw [clean]
    rfl
  · rw [start, mainLoop_eq (by norm_num) (by norm_num), windowTurn, if_pos (by norm_num), windowStep]
    simp only [allConverged, upd, resetIndexL, checkL, if_true]
    simp only [check_junk]
    simp only [bind, Except.bind, pure, Except.pure, if_false, Bool.false_and, Bool.false_eq_true]
    rw [if_neg (by norm_num), idle_sweep .posInf (.fin 0) _ rfl rfl rfl [.fin 0, .posInf] (by simp [upd]) (by simp)]
    simp only
    rw [mainLoop_off (by norm_num) (by norm_num) (by norm_num) (by norm_num),
      idle_sweep .posInf (.fin 0) _ rfl rfl rfl [.fin 0, .posInf] (by simp [upd]) (by simp [upd])]
    simp only [bind, Except.bind]
    rw [mainLoop_eq (by norm_num) (by norm_num), windowTurn, if_pos (by norm_num), windowStep]
    simp only [allConverged, upd, resetIndexL, checkL, List.mem_singleton, if_true, List.set_cons_zero, List.set_cons_succ]
    simp only [Nat.zero_add]
    simp only [check_const 0 0.1 (by norm_num)]
    simp only [bind, Except.bind, pure, Except.pure, Bool.and_self, if_true]
    rw [clean]
    rfl

theorem checkL_one {t : LTrace} (hl : t.len = 1) (hk : t.kind ≠ some 0) (eps : ℝ) : checkL t eps = false := by
  cases t with
  | scalars xs => exact C70_never xs eps (.inr (by rw [show xs.length = 1 from hl]; norm_num))
  | vectors c rows =>
    rw [checkL, List.all_eq_false]
    refine ⟨0, ?_, ?_⟩
    · rw [List.mem_range]
      rcases Nat.eq_zero_or_pos c with h | h
      · subst h; exact absurd rfl hk
      · exact h
    · rw [C70_never _ eps (.inr (by rw [List.length_map, show rows.length = 1 from hl]; norm_num))]
      simp

theorem allConverged_false {eps : ℝ} {m : Mach F G} {ks : List Nat} (h : ∀ k ∈ ks, ∃ t, m.ltrace k = some t) {k : Nat}
    (hk : k ∈ ks) {t : LTrace} (ht : m.ltrace k = some t) (hc : checkL t eps = false) :
    allConverged eps m ks = .ok false := by
  induction ks with
  | nil => simp at hk
  | cons i is ih =>
    obtain ⟨u, hu⟩ := h i (by simp)
    rw [allConverged, hu]
    simp only
    by_cases hik : i = k
    · subst hik
      obtain ⟨b, hb⟩ := Healthy.allConverged (eps := eps) (m := m) (ks := is) fun x hx => h x (by simp [hx])
      rw [hb]
      rw [ht] at hu
      cases hu
      simp [bind, Except.bind, pure, Except.pure, hc]
    · rw [ih (fun x hx => h x (by simp [hx])) (by simpa [Ne.symm hik] using hk)]
      simp [bind, Except.bind, pure, Except.pure]

theorem mainLoop_one {env : Env F G} {mats lbdas : List Nat} {layers : List LayerInfo} {fct : Nat → Option F}
    {lfct : Nat → Option G} {I : World → Prop} (H : Healthy env mats lbdas layers fct lfct I) (hnd : lbdas.Nodup)
    {k : Nat} (hk : k ∈ lbdas) (hI : ∀ w, I w → (w.lbda k).kind ≠ some 0) {eps : ℝ}
    {bmax : Int} {ps pre : Nat} (n : Nat) : ∀ (iter : Nat) (m m' : Mach F G),
    (bmax + 1 - (iter + pre)).toNat = n → 1 ≤ iter → (iter : Int) + pre ≤ bmax + 1 →
    Healthy.Good lbdas layers fct lfct I 1 (ixBefore 1 iter) m →
    mainLoop env mats lbdas eps 1 bmax ps pre iter m = .ok m' → (m'.clock : Int) + iter + pre = m.clock + bmax + 1 := by
  induction n using Nat.strong_induction_on with
  | _ n ih =>
    intro iter m m' hn hi hle hg h
    obtain ⟨m0, b0, hw, -, hg1⟩ := H.windowTurn (eps := eps) (pre := pre) hg
    obtain ⟨-, -, m1, done, h1, h2⟩ := mainLoop_cases h
    have hconv : allConverged eps (resetIndexL lbdas m) lbdas = .ok false := by
      obtain ⟨-, t, ht, hl, hkd⟩ := hg.trace k hk
      refine allConverged_false (fun x hx => ?_) hk (t := t) ht (checkL_one hl ?_ eps)
      · obtain ⟨-, t, ht, -⟩ := hg.trace x hx
        exact ⟨t, ht⟩
      · rw [hkd]; exact hI _ hg.inv
    have hturn : windowTurn env lbdas eps 1 pre iter m = .ok (resetIndexL lbdas m, false) := by
      rw [windowTurn, if_pos (Nat.mod_one _), windowStep]
      simp only [hconv, bind, Except.bind]
      rfl
    rw [hturn] at h1 hw
    simp only [Except.ok.injEq, Prod.mk.injEq] at h1 hw
    obtain ⟨rfl, rfl⟩ := h1
    obtain ⟨rfl, rfl⟩ := hw
    have hg1 := hg1 rfl
    rcases h2 with ⟨hd, -⟩ | ⟨-, hb, h2⟩ | ⟨-, hle', m2, h2, h3⟩
    · cases hd
    · obtain ⟨o, -⟩ := stopStep_only h2
      rw [o]
      show ((m.clock : Nat) : Int) + _ + _ = _
      omega
    · obtain ⟨m2', g1, g2⟩ := H.burnSweep (ixAfter_lt 1 iter (le_refl _) hi) hnd hg1
      rw [g1] at h2
      cases h2
      rw [← ixBefore_succ 1 iter (le_refl _) hi] at g2
      have := ih _ (by push_cast; omega) _ _ _ rfl (by omega) (by push_cast; omega) g2 h3
      have o2 := burnSweep_only g1
      rw [o2] at this
      push_cast at this
      have hcl : (resetIndexL lbdas m).clock = m.clock := rfl
      rw [hcl] at this
      omega

/-- **C41**: a window of length 1 never looks converged, so that burn-in with such a window (and at least one parameter
to be updated, which is not an empty array) always continues to `burn_in_max` -/
theorem C41_window_one (env : Env F G) (mats lbdas : List Nat) (hnd : lbdas.Nodup) (k : Nat) (hk : k ∈ lbdas) (eps : ℝ)
    (bmin : Nat) (bmax : Int) (ps fx : Nat) (hps : 1 ≤ ps) (hbm : bmin ≤ bmax) (m m' : Mach F G)
    (ha : m.anneal = false) (I : World → Prop) (H : Healthy env mats lbdas m.layers m.fct m.lfct I) (hI : I m.world)
    (hkind : (m.world.lbda k).kind ≠ some 0)
    (h : burn_in env mats lbdas eps 1 bmin bmax ps fx m = .ok m') : (m'.clock : Int) = m.clock + bmax := by
  have H' : Healthy env mats lbdas m.layers m.fct m.lfct fun w => I w ∧ (w.lbda k).kind ≠ some 0 := by
    refine ⟨H.perm, ?_, ?_, ?_⟩
    · intro i hi
      obtain ⟨f, hf, hr⟩ := H.mat i hi
      refine ⟨f, hf, fun t w hw => ?_⟩
      obtain ⟨w', e1, e2, e3⟩ := hr t w hw.1
      exact ⟨w', e1, ⟨e2, by rw [e3]; exact hw.2⟩, e3⟩
    · intro i hi
      obtain ⟨f, hf, hr⟩ := H.lbda i hi
      refine ⟨f, hf, fun t w hw => ?_⟩
      obtain ⟨w', e1, e2, e3⟩ := hr t w hw.1
      exact ⟨w', e1, ⟨e2, by rw [e3]; exact hw.2⟩, e3⟩
    · intro lr hlr reset clean w fs b hfl hw hc
      exact ⟨H.clean lr hlr reset clean w fs b hfl hw.1 hc, by rw [writeFactors_lbda]; exact hw.2⟩
  rw [burn_in, bind_ok] at h
  obtain ⟨m1, h1, h2⟩ := h
  obtain ⟨m1', h1', i1⟩ := H'.preLoop (b := bmin) (fx := fx) (show ps ≠ 0 by omega) bmin (steps := []) rfl rfl ha
    ⟨hI, hkind⟩
  rw [h1'] at h1
  cases h1
  have o := preLoop_only h1'
  have key := mainLoop_one H' hnd hk (fun w hw => hw.2) (eps := eps) (bmax := bmax) (pre := bmin) _ 1 _ _ rfl (le_refl _) (by omega)
    (Healthy.allocLbdas_good (junk := env.junk 0) i1 (by rw [o]) (by rw [o]) (by rw [o])
      (by simp [ixBefore])) h2
  have hcl : (allocLbdas (env.junk 0) 1 lbdas m1).clock = m.clock + bmin := by
    show m1.clock = _
    rw [o]
  rw [hcl] at key
  push_cast at key
  omega

/-! ## C42 -/

/-- **C42** (partial): the reported number is the number of sweeps plus one - if burn-in converged, or no minimal number
of iterations was asked for. What is missing: if `burn_in_max` is reached, the sweeps of the first phase are not
counted (`C42_wrong`). -/
theorem C42_partial (env : Env F G) (mats lbdas : List Nat) (eps : ℝ) (cw bmin : Nat) (bmax : Int) (ps fx : Nat)
    (m m' : Mach F G) (h : burn_in env mats lbdas eps cw bmin bmax ps fx m = .ok m') :
    ∃ n : Nat, m'.clock = m.clock + n ∧ bmin ≤ n ∧
      (bmin = 0 ∨ (n : Int) < bmax → m'.burn_in_iters = some (n + 1)) ∧
      (m'.burn_in_iters = some (n + 1) ∨ (bmax ≤ n ∧ m'.burn_in_iters = some (n + 1 - bmin))) := by
  obtain ⟨j, hj, hc, hm, hr⟩ := burn_in_count h
  refine ⟨bmin + (j - 1), hc, by omega, ?_, ?_⟩
  · intro hb
    rcases hr with hr | ⟨h1, hr⟩
    · rw [hr]; congr 1; omega
    · rcases hb with hb | hb
      · rw [hr]; congr 1; omega
      · push_cast [hj] at hb; omega
  · rcases hr with hr | ⟨h1, hr⟩
    · left; rw [hr]; congr 1; omega
    · right
      refine ⟨by push_cast [hj]; omega, ?_⟩
      rw [hr]; congr 1; omega

/-- **C42** (wrong): if `burn_in_min` is positive, and burn-in reaches its limit at once, then 1 is reported, although
`burn_in_min` sweeps were performed -/
theorem C42_wrong (env : Env F G) (mats lbdas : List Nat) (eps : ℝ) (cw bmin : Nat) (bmax : Int) (ps fx : Nat)
    (m m' : Mach F G) (hcw : 2 ≤ cw) (hb : bmax ≤ bmin)
    (h : burn_in env mats lbdas eps cw bmin bmax ps fx m = .ok m') :
    m'.clock = m.clock + bmin ∧ m'.burn_in_iters = some 1 := by
  rw [burn_in, bind_ok] at h
  obtain ⟨m1, h1, h⟩ := h
  obtain ⟨hp, hc, m2, done, h2, h3⟩ := mainLoop_cases h
  rw [windowTurn, if_neg (by rw [Nat.mod_eq_of_lt (by omega)]; omega)] at h2
  simp only [Except.ok.injEq, Prod.mk.injEq] at h2
  obtain ⟨rfl, rfl⟩ := h2
  rcases h3 with ⟨h3, -⟩ | ⟨-, -, h3⟩ | ⟨-, h3, -⟩
  · simp at h3
  · obtain ⟨o, -⟩ := stopStep_only h3
    rw [o]
    refine ⟨?_, rfl⟩
    show m1.clock = _
    rw [preLoop_only h1]
  · push_cast at h3; omega

/-- the situation of `C42_wrong` arises: 30 sweeps, 1 reported -/
theorem C42_wrong_met (x : NpF) : ∃ m', burn_in (idleEnv x) [0, 1] [0] 0.01 15 30 30 10 0 (smallMach x) = .ok m' ∧
    m'.clock = 30 ∧ m'.burn_in_iters = some 1 := by
  obtain ⟨m', h⟩ := C40_no_error (idleEnv x) [0, 1] [0] (by decide) 0.01 15 30 30 10 0 (by norm_num) (by norm_num)
    (smallMach x) _ (.inl rfl) (idle_healthy x x) trivial
  obtain ⟨h1, h2⟩ := C42_wrong _ _ _ _ _ _ _ _ _ _ _ (by norm_num) (by norm_num) h
  exact ⟨m', h, h1, h2⟩

/-! ## C44 -/

/-- matrix updates do not touch the parameters -/
def KeepsLbda (env : Env F G) : Prop := ∀ f i t w w', env.runMat f i t w = .ok w' → w'.lbda = w.lbda

theorem sampleMats_lbda {env : Env F G} (hk : KeepsLbda env) {mats : List Nat} {m m' : Mach F G}
    (h : sampleMats env mats m = .ok m') : m'.world.lbda = m.world.lbda := by
  rw [sampleMats, bind_ok] at h
  obtain ⟨m1, h1, h2⟩ := h
  rw [← pure_ok.mp h2]
  show m1.world.lbda = _
  refine foldlM_rel (R := fun a b : Mach F G => b.world.lbda = a.world.lbda) (fun _ => rfl)
    (fun _ _ _ h1 h2 => h2.trans h1) _ _ ?_ _ _ h1
  intro a i _ b hb
  rw [callMat] at hb
  split at hb
  · cases hb
  · rw [bind_ok] at hb
    obtain ⟨w, hw, hb⟩ := hb
    rw [← pure_ok.mp hb]
    exact hk _ _ _ _ _ hw

/-- one turn of the first loop, annealing -/
theorem preStep_anneal {env : Env F G} (hk : KeepsLbda env) {mats lbdas : List Nat} (hnd : lbdas.Nodup) {b ps : Nat}
    (hb : 1 ≤ b) (x : Nat → ℝ) (hx : ∀ k ∈ lbdas, x k ≠ 0) {pre : Nat} (hpre : 1 ≤ pre) (hpb : pre ≤ b)
    {steps steps' : List (List ℝ)} {m m' : Mach F G} (ha : m.anneal = true)
    (hst : if pre = 1 then ∀ k ∈ lbdas, m.world.lbda k = .scalar (.fin (x k))
      else steps = lbdas.map fun k => (List.range (b + 1)).map fun i : Nat => x k / b + i * (x k / b))
    (h : preStep env mats lbdas b ps 0 pre steps m = .ok (steps', m')) :
    m'.anneal = true ∧ (steps' = lbdas.map fun k => (List.range (b + 1)).map fun i : Nat => x k / b + i * (x k / b)) ∧
      ∀ k ∈ lbdas, m'.world.lbda k = .scalar (.fin (x k / b * (pre + 1))) := by
  have o := preStep_only h
  unfold preStep at h
  by_cases hp : ps = 0
  · simp [hp, bind, Except.bind, throw, throwThe, MonadExceptOf.throw] at h
  simp only [hp, if_false] at h
  rw [bind_ok] at h
  obtain ⟨m1, h1, h⟩ := h
  have hl := sampleMats_lbda hk h1
  obtain ⟨w, -, e1⟩ := sampleMats_ok h1
  have ha1 : m1.anneal = true := by rw [e1]; exact ha
  simp only [show pre > 0 by omega, if_true] at h
  rw [if_neg (by rw [ha1]; simp), if_neg (by simp)] at h
  rw [bind_ok] at h
  obtain ⟨st, h2, h⟩ := h
  rw [bind_ok] at h
  obtain ⟨m2, h3, h⟩ := h
  rw [pure_ok, Prod.mk.injEq] at h
  obtain ⟨rfl, rfl⟩ := h
  have hsteps : st = lbdas.map fun k => (List.range (b + 1)).map fun i : Nat => x k / b + i * (x k / b) := by
    rw [annealingSteps] at h2
    by_cases hp1 : pre = 1
    · rw [if_pos (by omega)] at h2
      rw [if_pos hp1] at hst
      have : lbdas.mapM (fun k => annealing b (m1.world.lbda k)) =
          .ok (lbdas.map fun k => (List.range (b + 1)).map fun i : Nat => x k / b + i * (x k / b)) := by
        refine mapM_ok _ _ _ fun k hk' => ?_
        rw [hl, hst k hk', annealing_eq b hb (x k) (hx k hk')]
      rw [this] at h2
      cases h2
      rfl
    · rw [if_neg (by omega)] at h2
      rw [if_neg hp1] at hst
      cases h2
      exact hst
  refine ⟨by rw [o]; exact ha, hsteps, ?_⟩
  obtain ⟨m2', g1, g2⟩ := annealTo_zip pre lbdas hnd
    (fun k => (List.range (b + 1)).map fun i : Nat => x k / b + i * (x k / b)) (fun k => x k / b * (pre + 1))
    (fun k _ => by
      rw [List.getElem?_map, List.getElem?_range (by omega)]
      simp only [Option.map_some, Option.some.injEq]
      ring) m1
  rw [hsteps, g1] at h3
  cases h3
  intro k hk'
  rw [g2, if_pos hk']

/-- **C44** (partial): with annealing, dispersion parameters `x k ≠ 0` and `burn_in_min = b ≥ 1`, the values do rise in
equal steps: after turn `i` of the first loop the parameter is `x/b * (i+1)`, whatever the matrix updates do (as long as
they leave the parameters alone). What is missing: it should be `x/b * i`, such that the given value is reached at the
end (`C44_wrong`). -/
theorem C44_steps_partial (env : Env F G) (hk : KeepsLbda env) (mats lbdas : List Nat) (hnd : lbdas.Nodup) (b ps : Nat)
    (hb : 1 ≤ b) (x : Nat → ℝ) (hx : ∀ k ∈ lbdas, x k ≠ 0) (m m' : Mach F G) (ha : m.anneal = true)
    (hm : ∀ k ∈ lbdas, m.world.lbda k = .scalar (.fin (x k)))
    (h : preLoop env mats lbdas b ps 0 b [] m = .ok m') (i : Nat) (hi : 1 ≤ i) (hib : i ≤ b) :
    ∃ steps mi, preLoop env mats lbdas b ps 0 (b - i) steps mi = .ok m' ∧ mi.clock = m.clock + i ∧
      ∀ k ∈ lbdas, mi.world.lbda k = .scalar (.fin (x k / b * (i + 1))) := by
  suffices hs : ∃ mi, preLoop env mats lbdas b ps 0 (b - i)
      (lbdas.map fun k => (List.range (b + 1)).map fun i : Nat => x k / b + i * (x k / b)) mi = .ok m' ∧
      mi.anneal = true ∧ mi.clock = m.clock + i ∧
      ∀ k ∈ lbdas, mi.world.lbda k = .scalar (.fin (x k / b * (i + 1))) by
    obtain ⟨mi, h1, -, h2, h3⟩ := hs
    exact ⟨_, mi, h1, h2, h3⟩
  induction i, hi using Nat.le_induction with
  | base =>
    obtain ⟨c, hc⟩ : ∃ c, b = c + 1 := ⟨b - 1, by omega⟩
    have hbc : b - 1 = c := by omega
    have h' : preLoop env mats lbdas b ps 0 (c + 1) [] m = .ok m' := by rw [← hc]; exact h
    rw [preLoop, bind_ok] at h'
    obtain ⟨⟨st, m1⟩, h1, h2⟩ := h'
    rw [show b - c = 1 by omega] at h1
    obtain ⟨g1, g2, g3⟩ := preStep_anneal hk hnd hb x hx (le_refl 1) hb ha (by simpa using hm) h1
    have o := preStep_only h1
    refine ⟨m1, ?_, g1, by rw [o], by simpa using g3⟩
    rw [hbc, ← g2]
    exact h2
  | succ i hi ih =>
    obtain ⟨mi, h1, h2, h3, h4⟩ := ih (by omega)
    have e : b - i = (b - (i + 1)) + 1 := by omega
    rw [e, preLoop, bind_ok] at h1
    obtain ⟨⟨st, m1⟩, h5, h6⟩ := h1
    rw [show b - (b - (i + 1)) = i + 1 by omega] at h5
    obtain ⟨g1, g2, g3⟩ := preStep_anneal hk hnd hb x hx (by omega) hib h2
      (by rw [if_neg (by omega)]) h5
    have o := preStep_only h5
    refine ⟨m1, ?_, g1, ?_, g3⟩
    · rw [← g2]; exact h6
    · rw [o]; show mi.clock + 1 = _; omega

/-- **C44** (wrong): at the end of the first loop the parameter is `1 + 1/burn_in_min` times the requested value; it was
equal to the requested value one turn earlier -/
theorem C44_wrong (env : Env F G) (hk : KeepsLbda env) (mats lbdas : List Nat) (hnd : lbdas.Nodup) (b ps : Nat)
    (hb : 1 ≤ b) (x : Nat → ℝ) (hx : ∀ k ∈ lbdas, x k ≠ 0) (m m' : Mach F G) (ha : m.anneal = true)
    (hm : ∀ k ∈ lbdas, m.world.lbda k = .scalar (.fin (x k)))
    (h : preLoop env mats lbdas b ps 0 b [] m = .ok m') :
    ∀ k ∈ lbdas, m'.world.lbda k = .scalar (.fin (x k * (1 + 1 / b))) ∧
      m'.world.lbda k ≠ .scalar (.fin (x k)) := by
  obtain ⟨st, mi, h1, -, h2⟩ := C44_steps_partial env hk mats lbdas hnd b ps hb x hx m m' ha hm h b hb (le_refl b)
  rw [Nat.sub_self, preLoop, Except.ok.injEq] at h1
  subst h1
  have hb' : (b : ℝ) ≠ 0 := by exact_mod_cast (show b ≠ 0 by omega)
  intro k hk'
  have e : x k / b * (b + 1) = x k * (1 + 1 / b) := by field_simp
  rw [h2 k hk', e]
  refine ⟨rfl, ?_⟩
  simp only [ne_eq, LVal.scalar.injEq, NpF.fin.injEq]
  intro h3
  have h4 : x k * (1 / b) = 0 := by linear_combination h3
  rcases mul_eq_zero.mp h4 with h5 | h5
  · exact hx k hk' h5
  · exact (one_div_ne_zero hb') h5

/-- the first loop with annealing and `fix_lbda_iters = fx ≠ 0`: ValueError if it is left with a turn after `fx`, else only
the matrices are sampled -/
theorem preLoop_excluded {env : Env F G} {mats lbdas : List Nat} {layers : List LayerInfo} {fct : Nat → Option F}
    {lfct : Nat → Option G} {I : World → Prop} (H : Healthy env mats lbdas layers fct lfct I) {b ps fx : Nat} (hps : ps ≠ 0)
    (hfx : fx ≠ 0) (todo : Nat) (steps : List (List ℝ)) (m : Mach F G) (hf : m.fct = fct) (ha : m.anneal = true)
    (hw : I m.world) :
    (fx < b → todo ≠ 0 → preLoop env mats lbdas b ps fx todo steps m = .error .valueError) ∧
    (b ≤ fx → ∃ m', preLoop env mats lbdas b ps fx todo steps m = .ok m' ∧ I m'.world) := by
  induction todo generalizing m with
  | zero => exact ⟨fun _ h => absurd rfl h, fun _ => ⟨m, rfl, hw⟩⟩
  | succ todo ih =>
    obtain ⟨w1, h1, i1, -⟩ := H.sampleMats hf hw
    obtain ⟨k1, k2⟩ := ih { m with world := w1, clock := m.clock + 1 } hf ha i1
    have hstep : preStep env mats lbdas b ps fx (b - todo) steps m =
        if b - todo > fx then .error .valueError else .ok (steps, { m with world := w1, clock := m.clock + 1 }) := by
      unfold preStep
      simp only [hps, if_false, h1, bind, Except.bind]
      split
      · rw [if_neg (by rw [ha]; simp)]; rfl
      · rfl
    refine ⟨fun hb _ => ?_, fun hb => ?_⟩
    · rw [preLoop, hstep]
      by_cases h : b - todo > fx
      · rw [if_pos h]; rfl
      · rw [if_neg h]
        exact k1 hb (by omega)
    · rw [preLoop, hstep, if_neg (by omega)]
      exact k2 hb

/-- **C44** (exclusion): annealing and fixing parameters in the beginning exclude each other. If `fix_lbda_iters` is not
zero and less than `burn_in_min`, burn-in raises ValueError; if it is not less, burn-in completes (no turn of the first loop
is left for annealing). -/
theorem C44_rejects {env : Env F G} {mats lbdas : List Nat} {layers : List LayerInfo} {fct : Nat → Option F}
    {lfct : Nat → Option G} {I : World → Prop} (H : Healthy env mats lbdas layers fct lfct I) (hnd : lbdas.Nodup) (eps : ℝ)
    (cw b : Nat) (bmax : Int) (ps fx : Nat) (hps : ps ≠ 0) (hcw : cw ≠ 0) (hfx : fx ≠ 0) (m : Mach F G) (hf : m.fct = fct)
    (hlf : m.lfct = lfct) (hl : m.layers = layers) (ha : m.anneal = true) (hw : I m.world) :
    (fx < b → burn_in env mats lbdas eps cw b bmax ps fx m = .error .valueError) ∧
    (b ≤ fx → ∃ m', burn_in env mats lbdas eps cw b bmax ps fx m = .ok m' ∧ I m'.world) := by
  obtain ⟨k1, k2⟩ := preLoop_excluded H (b := b) hps hfx b [] m hf ha hw
  refine ⟨fun hb => ?_, fun hb => ?_⟩
  · rw [burn_in, k1 hb (by omega)]; rfl
  · obtain ⟨m1, h1, h2⟩ := k2 hb
    have o := preLoop_only h1
    rw [burn_in, h1]
    refine H.mainLoop hnd hps hcw _ 1 _ rfl (le_refl _) (Healthy.allocLbdas_good h2 ?_ ?_ ?_ ?_)
    · rw [o]; exact hl
    · rw [o]; exact hf
    · rw [o]; exact hlf
    · simp [ixBefore, show 1 ≤ cw by omega]

/-- the hypotheses of `C44_rejects` are met: the small machine, five turns without changes of lambda -/
theorem C44_rejects_met (j x : NpF) :
    burn_in (idleEnv j) [0, 1] [0] 0.01 15 30 2000 10 5 { smallMach x with anneal := true } = .error .valueError :=
  (C44_rejects (idle_healthy j x) (by decide) 0.01 15 30 2000 10 5 (by norm_num) (by norm_num) (by norm_num)
    { smallMach x with anneal := true } rfl rfl rfl rfl trivial).1 (by norm_num)

/-- the hypotheses of `C44_wrong` are met: annealing the small machine from 3 in two steps gives 9/2 -/
theorem C44_hypotheses_met (j : NpF) : ∃ m', preLoop (idleEnv j) [0, 1] [0] 2 10 0 2 []
    { smallMach (.fin 3) with anneal := true } = .ok m' ∧ m'.world.lbda 0 = .scalar (.fin (9 / 2)) := by
  have hk : KeepsLbda (idleEnv j) := by
    intro f i t w w' h
    cases h
    rfl
  have hstep : ∀ (pre : Nat) (hp : 1 ≤ pre) (hp2 : pre ≤ 2) (steps : List (List ℝ)) (m : Mach Unit Unit),
      m.fct = (fun _ => some ()) → m.anneal = true → (pre = 1 → m.world.lbda 0 = .scalar (.fin 3)) →
      (pre ≠ 1 → steps = [(List.range 3).map fun i : Nat => (3 : ℝ) / 2 + i * (3 / 2)]) →
      ∃ m', preStep (idleEnv j) [0, 1] [0] 2 10 0 pre steps m =
        .ok ([(List.range 3).map fun i : Nat => (3 : ℝ) / 2 + i * (3 / 2)], m') := by
    intro pre hp hp2 steps m hf ha h1 h2
    have hs : sampleMats (idleEnv j) [0, 1] m = .ok { m with clock := m.clock + 1 } := by
      simp [sampleMats, callMat, idleEnv, hf, bind, Except.bind, pure, Except.pure]
    have hst : annealingSteps [0] 2 0 pre steps { m with clock := m.clock + 1 } =
        .ok [(List.range 3).map fun i : Nat => (3 : ℝ) / 2 + i * (3 / 2)] := by
      rw [annealingSteps]
      by_cases hpre : pre = 1
      · rw [if_pos (by omega)]
        simp only [List.mapM_cons, List.mapM_nil, h1 hpre]
        rw [annealing_eq 2 (by norm_num) 3 (by norm_num)]
        rfl
      · rw [if_neg (by omega), h2 hpre]
    obtain ⟨m2, g1, -⟩ := annealTo_zip pre [0] (by decide) (fun _ => (List.range 3).map fun i : Nat => (3 : ℝ) / 2 + i * (3 / 2))
      (fun _ => 3 / 2 + pre * (3 / 2)) (fun k _ => by rw [List.getElem?_map, List.getElem?_range (by omega)]; rfl)
      { m with clock := m.clock + 1 }
    refine ⟨m2, ?_⟩
    unfold preStep
    simp only [show (10 : Nat) ≠ 0 by norm_num, if_false, hs, bind, Except.bind, show pre > 0 by omega, if_true]
    rw [if_neg (by show ¬ m.anneal = false; rw [ha]; simp), if_neg (by simp)]
    rw [hst]
    simp only
    have g1' : annealTo pre ([0].zip [(List.range 3).map fun i : Nat => (3 : ℝ) / 2 + i * (3 / 2)])
      { m with clock := m.clock + 1 } = .ok m2 := g1
    rw [g1']
    rfl
  obtain ⟨m1, h1⟩ := hstep 1 (le_refl _) (by norm_num) [] { smallMach (.fin 3) with anneal := true } rfl rfl
    (fun _ => rfl) (fun h => absurd rfl h)
  have o1 := preStep_only h1
  obtain ⟨m2, h2⟩ := hstep 2 (by norm_num) (le_refl _) _ m1 (by rw [o1]; rfl) (by rw [o1])
    (fun h => by norm_num at h) (fun _ => rfl)
  have hrun : preLoop (idleEnv j) [0, 1] [0] 2 10 0 2 [] { smallMach (.fin 3) with anneal := true } = .ok m2 := by
    rw [preLoop, h1]
    show preLoop (idleEnv j) [0, 1] [0] 2 10 0 1 _ m1 = _
    rw [preLoop, h2]
    rfl
  refine ⟨m2, hrun, ?_⟩
  have := C44_wrong (idleEnv j) hk [0, 1] [0] (by decide) 2 10 (by norm_num) (fun _ => 3) (by norm_num) _ _ rfl
    (fun _ _ => rfl) hrun 0 (by simp)
  rw [this.1]
  norm_num

/-- **C70** for parameters that are arrays (MAX-AND, BALANCED models): `check_convergence` is True exactly if every
component has converged. -/
theorem C70_vectors (c : Nat) (rows : List (List ℝ)) (hc : ∀ r ∈ rows, r.length = c) (h : 2 ≤ rows.length) (eps : ℝ) :
    checkL (.vectors c (rows.map fun r => r.map .fin)) eps = true ↔
      ∀ l < c, |Spec.sigmoid (Spec.average ((rows.take (rows.length / 2)).map fun r => r.getD l 0)) -
        Spec.sigmoid (Spec.average ((rows.drop (rows.length / 2)).map fun r => r.getD l 0))| < eps := by
  rw [checkL, List.all_eq_true]
  simp only [List.mem_range]
  refine forall_congr' fun l => forall_congr' fun hl => ?_
  have e : (rows.map fun r => r.map NpF.fin).map (fun r => r.getD l .nan) = (rows.map fun r => r.getD l 0).map .fin := by
    rw [List.map_map, List.map_map]
    refine List.map_congr_left fun r hr => ?_
    have hr' : l < r.length := by rw [hc r hr]; exact hl
    simp [List.getD_eq_getElem?_getD, hr']
  rw [e, C70_compares_halves _ _ (by simpa using h)]
  simp only [List.length_map, List.map_take, List.map_drop]

/-- two components, one of which has not converged -/
example : checkL (.vectors 2 ([[0, 0], [0, 0], [0, 2], [0, 2]].map fun r => r.map .fin)) 0.01 = false := by
  rw [Bool.eq_false_iff]
  intro hc
  rw [C70_vectors 2 _ (by simp) (by simp)] at hc
  have h1 := hc 1 (by norm_num)
  have h2 := C70_detects
  rw [Bool.eq_false_iff] at h2
  exact h2 ((C70_compares_halves [0, 0, 2, 2] 0.01 (by simp)).2 (by simpa using h1))

end LFM
