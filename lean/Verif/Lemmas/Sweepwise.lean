import Verif.Lemmas.FixedLbda
import Verif.Lemmas.Relabel
import Verif.Lemmas.ZeroLambda

/-! Burn-in without clean-up and annealing, sweep by sweep: what holds at the beginning and is kept by every sweep of the
factors followed by the update of the parameters holds at the end. And what a sweep with small draws does. -/

namespace LFM

open Spec

variable {F G : Type}

/-- a statement about the number of sweeps done and the state is kept by sweeps -/
def KeptBySweeps (env : Env F G) (fct : Nat → Option F) (lfct : Nat → Option G) (mats lbdas : List Nat)
    (J : Nat → World → Prop) : Prop :=
  ∀ t w w1 w2, J t w → sweepM env fct mats t w = .ok w1 → sweepL env lfct lbdas (t + 1) w1 = .ok w2 → J (t + 1) w2

theorem preLoop_sweepwise {env : Env F G} {mats lbdas : List Nat} {b ps todo : Nat} {steps : List (List ℝ)} {m m' : Mach F G}
    {J : Nat → World → Prop} (hJ : KeptBySweeps env m.fct m.lfct mats lbdas J) (ha : m.anneal = false) (hb : todo ≤ b)
    (h0 : J m.clock m.world) (h : preLoop env mats lbdas b ps 0 todo steps m = .ok m') : J m'.clock m'.world := by
  induction todo generalizing steps m with
  | zero => simp only [preLoop, Except.ok.injEq] at h; rw [← h]; exact h0
  | succ todo ih =>
    rw [preLoop, bind_ok] at h
    obtain ⟨⟨st, m1⟩, h1, h2⟩ := h
    have o1 := preStep_only h1
    have hs : J (m.clock + 1) m1.world := by
      unfold preStep at h1
      by_cases hp : ps = 0
      · simp [hp, bind, Except.bind, throw, throwThe, MonadExceptOf.throw] at h1
      simp only [hp, if_false] at h1
      rw [bind_ok] at h1
      obtain ⟨m2, e1, e2⟩ := h1
      obtain ⟨w, e3, rfl⟩ := sampleMats_ok e1
      have hpre : b - todo > 0 := by omega
      simp only [hpre, if_true, ha] at e2
      rw [bind_ok] at e2
      obtain ⟨m3, e4, e5⟩ := e2
      obtain ⟨w', e6, rfl⟩ := sampleLbdas_ok e4
      have e5 := pure_ok.mp e5
      injection e5 with _ e5
      rw [← e5]
      exact hJ _ _ _ _ h0 e3 e6
    refine ih (m := m1) (by rw [o1]; exact hJ) (by rw [o1]; exact ha) (by omega) ?_ h2
    have : m1.clock = m.clock + 1 := by rw [o1]
    rw [this]
    exact hs

theorem windowTurn_world {env : Env F G} {lbdas : List Nat} {eps : ℝ} {cw pre iter : Nat} {m m1 : Mach F G} {done : Bool}
    (hoff : ∀ lr ∈ m.layers, lr.auto_clean = false ∧ lr.auto_reset = false)
    (h : windowTurn env lbdas eps cw pre iter m = .ok (m1, done)) : m1.world = m.world := by
  rw [windowTurn] at h
  split at h
  · unfold windowStep at h
    simp only at h
    rw [bind_ok] at h
    obtain ⟨conv, -, h⟩ := h
    cases conv with
    | false =>
      simp only [Bool.false_eq_true, if_false] at h
      rw [pure_ok, Prod.mk.injEq] at h
      rw [← h.1]
      rfl
    | true =>
      simp only [if_true] at h
      rw [autoClean_off (by exact hoff)] at h
      simp only [bind, Except.bind, Bool.false_eq_true, if_false, pure, Except.pure, Except.ok.injEq, Prod.mk.injEq] at h
      rw [← h.1]
      rfl
  · simp only [Except.ok.injEq, Prod.mk.injEq] at h
    rw [← h.1]

theorem updateTracesL_world {lbdas : List Nat} {m m' : Mach F G} (h : lbdas.foldlM updateTraceL m = .ok m') :
    m'.world = m.world := by
  rw [updateTracesL_only _ h]

theorem mainLoop_sweepwise {env : Env F G} {mats lbdas : List Nat} {eps : ℝ} {cw : Nat} {bmax : Int} {ps pre : Nat}
    {J : Nat → World → Prop} (n : Nat) :
    ∀ {iter : Nat} {m m' : Mach F G}, KeptBySweeps env m.fct m.lfct mats lbdas J → (bmax + 1 - (iter + pre)).toNat = n →
    (∀ lr ∈ m.layers, lr.auto_clean = false ∧ lr.auto_reset = false) → J m.clock m.world →
    mainLoop env mats lbdas eps cw bmax ps pre iter m = .ok m' → J m'.clock m'.world ∧ m.clock ≤ m'.clock := by
  induction n using Nat.strong_induction_on with
  | _ n ih =>
    intro iter m m' hJ hn hoff h0 h
    obtain ⟨-, -, m1, done, hw, h2⟩ := mainLoop_cases h
    have hworld := windowTurn_world hoff hw
    obtain ⟨o1, -⟩ := windowTurn_only hw
    have hclock : m1.clock = m.clock := by rw [o1]
    have hly : m1.layers = m.layers := by rw [o1]
    have hfct : m1.fct = m.fct := by rw [o1]
    have hlfct : m1.lfct = m.lfct := by rw [o1]
    rcases h2 with ⟨hd', rfl⟩ | ⟨hd', hb, h2⟩ | ⟨hd', hle, m2, h2, h3⟩
    · rw [hclock, hworld]; exact ⟨h0, le_rfl⟩
    · rw [stopStep, finalClean_off (by rw [hly]; exact hoff)] at h2
      simp only [bind, Except.bind] at h2
      have h2 := pure_ok.mp h2
      rw [← h2]
      show J m1.clock m1.world ∧ m.clock ≤ m1.clock
      rw [hclock, hworld]
      exact ⟨h0, le_rfl⟩
    · have o2 := burnSweep_only h2
      have hs : J (m.clock + 1) m2.world := by
        rw [burnSweep, bind_ok] at h2
        obtain ⟨m3, e1, e2⟩ := h2
        rw [bind_ok] at e2
        obtain ⟨m4, e2, e3⟩ := e2
        obtain ⟨w, e4, rfl⟩ := sampleMats_ok e1
        obtain ⟨w', e5, rfl⟩ := sampleLbdas_ok e2
        rw [updateTracesL_world e3]
        have e4' : sweepM env m.fct mats m.clock m.world = .ok w := by rw [← hfct, ← hclock, ← hworld]; exact e4
        have e5' : sweepL env m.lfct lbdas (m.clock + 1) w = .ok w' := by rw [← hlfct, ← hclock]; exact e5
        exact hJ _ _ _ _ h0 e4' e5'
      have e1 : m2.fct = m.fct := by rw [o2]; exact hfct
      have e2 : m2.lfct = m.lfct := by rw [o2]; exact hlfct
      have e3 : m2.clock = m.clock + 1 := by rw [o2]; show m1.clock + 1 = _; rw [hclock]
      obtain ⟨g1, g2⟩ := ih (n - 1) (by omega) (iter := iter + 1) (by rw [e1, e2]; exact hJ) (by push_cast; omega)
        (by rw [o2]; show ∀ lr ∈ m1.layers, _; rw [hly]; exact hoff) (by rw [e3]; exact hs) h3
      exact ⟨g1, by omega⟩

/-- burn-in -/
theorem burn_in_sweepwise {env : Env F G} {mats lbdas : List Nat} {eps : ℝ} {cw b : Nat} {bmax : Int} {ps : Nat}
    {m m' : Mach F G} {J : Nat → World → Prop} (hJ : KeptBySweeps env m.fct m.lfct mats lbdas J) (ha : m.anneal = false)
    (hoff : ∀ lr ∈ m.layers, lr.auto_clean = false ∧ lr.auto_reset = false) (h0 : J m.clock m.world)
    (h : burn_in env mats lbdas eps cw b bmax ps 0 m = .ok m') : J m'.clock m'.world ∧ m.clock + b ≤ m'.clock := by
  rw [burn_in, bind_ok] at h
  obtain ⟨m1, h1, h2⟩ := h
  have o1 := preLoop_only h1
  have s1 := preLoop_sweepwise hJ ha le_rfl h0 h1
  have e1 : m1.clock = m.clock + b := by rw [o1]
  rw [← e1]
  exact mainLoop_sweepwise _ (m := allocLbdas (env.junk 0) cw lbdas m1) (by
      show KeptBySweeps env m1.fct m1.lfct mats lbdas J
      rw [o1]; exact hJ) rfl
    (by show ∀ lr ∈ m1.layers, _; rw [o1]; exact hoff) s1 h2

/-! ## Small draws -/

theorem flip_small {z : Int} (hz : IsPM z) {g u c : ℝ} (hg : |g| ≤ c) (hu : u < Real.exp (-c)) :
    flip_metropolised_gibbs_numba g z u = -z := by
  have h := abs_le.mp hg
  unfold flip_metropolised_gibbs_numba
  rcases hz with rfl | rfl
  · by_cases h1 : g ≤ 0
    · simp [h1]
    · have : Real.exp (-((1 : Int) : ℝ) * g) > u := hu.trans_le (Real.exp_le_exp.mpr (by push_cast; linarith))
      rw [if_neg (by simp [h1]), if_neg (by norm_num), if_pos this]
  · by_cases h1 : g ≥ 0
    · simp [h1]
    · have : Real.exp (-((-1 : Int) : ℝ) * g) > u := hu.trans_le (Real.exp_le_exp.mpr (by push_cast; linarith))
      rw [if_neg (by norm_num), if_neg (by simp [h1]), if_pos this]

/-- a sweep in which all draws are small flips all entries that are not fixed -/
theorem sweep_small {logit : Arr Int → List Nat → ℝ} {Zf : Arr Int} {rnd : Rnd} {N L : Nat} {c : ℝ}
    (hlog : ∀ Z : Arr Int, Z.shape = [N, L] → PMArr Z → ∀ n < N, ∀ l < L, |logit Z [n, l]| ≤ c)
    (hrnd : ∀ n < N, ∀ l < L, rnd [n, l] < Real.exp (-c)) (ts : List (List Nat)) (hnd : ts.Nodup)
    (hts : ∀ i ∈ ts, i ∈ tasks2 N L) : ∀ (Z : Arr Int), Z.shape = [N, L] → PMArr Z →
    ∀ i, sweep logit Zf rnd ts Z i = if i ∈ ts ∧ Zf i ≠ 1 then -Z i else Z i := by
  induction ts with
  | nil => intro Z _ _ i; simp [sweep]
  | cons t ts ih =>
    intro Z hZ pZ i
    obtain ⟨hn1, hn2⟩ := List.nodup_cons.mp hnd
    obtain ⟨n, hn, l, hl, rfl⟩ := mem_tasks2.mp (hts t (by simp))
    have hz : IsPM (Z [n, l]) := pZ _ (by rw [hZ]; exact ⟨hn, hl, trivial⟩)
    have key : ∀ j, updEntry logit Zf rnd Z [n, l] j = if j = [n, l] ∧ Zf j ≠ 1 then -Z j else Z j := by
      intro j
      unfold updEntry
      split
      · rename_i h
        by_cases hj : j = [n, l]
        · subst hj; simp [h]
        · simp [hj]
      · rename_i h
        by_cases hj : j = [n, l]
        · subst hj
          simp only [Arr.set, if_true, true_and, ne_eq, h, not_false_eq_true]
          exact flip_small hz (hlog Z hZ pZ n hn l hl) (hrnd n hn l hl)
        · simp [Arr.set, hj]
    show sweep _ Zf rnd ts (updEntry _ Zf rnd Z [n, l]) i = _
    have hs : (updEntry logit Zf rnd Z [n, l]).shape = Z.shape := by
      unfold updEntry; split <;> rfl
    rw [ih hn2 (fun i hi => hts i (by simp [hi])) _ (hs.trans hZ) (by
      intro j hj
      rw [hs] at hj
      rw [key]
      have := pZ j hj
      split
      · rcases this with h | h <;> rw [h] <;> simp [IsPM]
      · exact this), key]
    by_cases h1 : i = [n, l]
    · subst h1; simp [hn1]
    · simp [h1]

/-- the agreement of data and prediction is at most the number of observed cells -/
theorem agreementOf_bound {lom : Lom8} {fs : List (Arr Int)} {X : Arr Int} (hd : DataArr X) (h : fs.length = X.shape.length)
    (h2 : fs.length = 2 ∨ fs.length = 3) : |agreementOf lom fs X| ≤ observedCells X := by
  classical
  have hcell : ∀ x p : Int, IsData x → IsPM p → |x * p| ≤ if x ≠ 0 then 1 else 0 := by
    intro x p hx hp
    rcases hx with rfl | rfl | rfl <;> rcases hp with rfl | rfl <;> simp
  rw [observedCells_eq lom fs X h h2, agreementOf_eq]
  match fs, h2 with
  | [Z, U], _ =>
    obtain ⟨N, D, hND⟩ := List.length_eq_two.mp h.symm
    refine (Finset.abs_sum_le_sum_abs _ _).trans (Finset.sum_le_sum fun n _ => ?_)
    refine (Finset.abs_sum_le_sum_abs _ _).trans (Finset.sum_le_sum fun d _ => ?_)
    have hn := n.2
    have hd' := d.2
    simp only [Arr.dim, hND] at hn hd'
    exact hcell _ _ (hd _ (by rw [hND]; exact ⟨hn, hd', trivial⟩)) (isPM_pred2 _ _ _ _)
  | [Z, U, V], _ =>
    obtain ⟨N, D, M, hND⟩ := List.length_eq_three.mp h.symm
    refine (Finset.abs_sum_le_sum_abs _ _).trans (Finset.sum_le_sum fun n _ => ?_)
    refine (Finset.abs_sum_le_sum_abs _ _).trans (Finset.sum_le_sum fun d _ => ?_)
    refine (Finset.abs_sum_le_sum_abs _ _).trans (Finset.sum_le_sum fun k _ => ?_)
    have hn := n.2
    have hd' := d.2
    have hk := k.2
    simp only [Arr.dim, hND] at hn hd' hk
    exact hcell _ _ (hd _ (by rw [hND]; exact ⟨hn, hd', hk, trivial⟩)) (isPM_pm _)

namespace SingleLayer

variable {wr : Wiring} {m : Mach Sampler LbdaUpdate} {lom : Lom8} {lr : LayerInfo} {x : Nat} {sizes : List Nat}

/-- sampling a factor with prior 1/2 and small draws -/
theorem flips_small (H : SingleLayer wr m lom lr x sizes) {X : Arr Int} (hX : X.shape = sizes) (hd : DataArr X)
    (hfit : ScoresFit sizes) {i : Nat} (hi : i ∈ lr.factors) {s : Sampler}
    (hs : AxisSampler lom lr.factors.length (lr.factors.idxOf i) (1 / 2) s) (t : Nat) {w : World}
    (hw : LegalWorld lr x sizes X w) {y : ℝ} (hy : w.lbda 0 = .scalar (.fin y))
    (hrnd : ∀ idx, InB (w.mat i).val.shape idx → wr.rnd t i idx < Real.exp (-(|y| * observedCells X))) :
    ∃ R, runSampler wr s i t w = .ok (w.setVal i R) ∧ R.shape = (w.mat i).val.shape ∧
      ∀ idx, InB (w.mat i).val.shape idx →
        R idx = if (w.mat i).fixed_entries idx = 1 then (w.mat i).val idx else -(w.mat i).val idx := by
  obtain ⟨L, hL⟩ := hw.facs
  obtain ⟨g1, g2⟩ := hL (lr.factors.idxOf i) (w.mat i) (by rw [List.getElem?_map, (H.position hi).1]; rfl)
  obtain ⟨S, -, s2, s3⟩ := H.sweeps hX hd hfit hi hs t hL hw.data hy
  refine ⟨_, s3, ?_, ?_⟩
  · exact (sweep_entry _ _ _ _ _).1
  · intro idx hidx
    have hlog : ∀ Z : Arr Int, Z.shape = [sizes.getD (lr.factors.idxOf i) 0, L] → PMArr Z →
        ∀ n < sizes.getD (lr.factors.idxOf i) 0, ∀ l < L,
        |(fun (Z : Arr Int) idx => y * (S Z (i0 idx) (i1 idx) : ℝ) + logit (1 / 2)) Z [n, l]| ≤ |y| * observedCells X := by
      intro Z hZ pZ n hn l hl
      have e := s2 Z hZ pZ n l hn hl
      have hlen : ∀ Y, (valsWith lr w i Y).length = X.shape.length := by
        intro Y
        rw [valsWith, List.length_map, hX, H.sizes]
      have har : ∀ Y, (valsWith lr w i Y).length = 2 ∨ (valsWith lr w i Y).length = 3 := by
        intro Y
        rw [valsWith, List.length_map]
        exact H.arity
      have b1 := abs_le.mp (agreementOf_bound (lom := lom) hd (hlen (Z.set [n, l] 1)) (har _))
      have b2 := abs_le.mp (agreementOf_bound (lom := lom) hd (hlen (Z.set [n, l] (-1))) (har _))
      have hb : |S Z n l| ≤ observedCells X := abs_le.mpr ⟨by omega, by omega⟩
      have hb' : |(S Z n l : ℝ)| ≤ observedCells X := by exact_mod_cast hb
      show |y * (S Z n l : ℝ) + logit (1 / 2)| ≤ _
      rw [logit_half, add_zero, abs_mul]
      exact mul_le_mul_of_nonneg_left hb' (abs_nonneg _)
    have := sweep_small (logit := fun (Z : Arr Int) idx => y * (S Z (i0 idx) (i1 idx) : ℝ) + logit (1 / 2))
      (Zf := (w.mat i).fixed_entries) (rnd := wr.rnd t i) hlog
      (fun n hn l hl => hrnd [n, l] (by rw [g1]; exact ⟨hn, hl, trivial⟩)) _ (nodup_tasks2 _ _) (fun _ h => h) _ g1 g2 idx
    rw [this]
    rw [g1] at hidx
    match idx, hidx with
    | [n, l], hidx =>
      have : [n, l] ∈ tasks2 (sizes.getD (lr.factors.idxOf i) 0) L := mem_tasks2.mpr ⟨n, hidx.1, l, hidx.2.1, rfl⟩
      by_cases h1 : (w.mat i).fixed_entries [n, l] = 1
      · rw [if_neg fun h => h.2 h1, if_pos h1]
      · rw [if_pos ⟨this, h1⟩, if_neg h1]

end SingleLayer

end LFM
