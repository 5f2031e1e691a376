import Verif.Props.MeanPredictions
import Verif.Props.PointOutput

/-!
# C139: predictions from the most frequent entries over many samples
-/

namespace LFM

open Spec MeasureTheory

/-- what `factor_map` returns for two factors with these means -/
theorem factor_map_two (argsort : Arr ℝ → List Nat) (s : OLayer) (m : Lom8) (hm : s.model = m.name) {f1 f2 : OFac}
    (hf : s.factors = [f1, f2]) {a b : Arr ℝ} (ha : f1.mean = .nums a) (hb : f2.mean = .nums b) {N D L : Nat}
    (sa : a.shape = [N, L]) (sb : b.shape = [D, L]) :
    ∃ X, (output argsort "factor_map" false false true s).1 = .ok X ∧ X.shape = [N, D] ∧ ∀ n < N, ∀ d < D,
      X [n, d] = asProb (lom m.outer m.inner fun (l : Fin L) (k : Fin 2) => ![0 < a [n, l], 0 < b [d, l]] k) := by
  have hsh : ∀ c : Arr ℝ, (FMean.nums c).sign.shape = c.shape := fun c => rfl
  have hpm : ∀ c : Arr ℝ, PMArr (FMean.nums c).sign := by
    intro c idx _
    show IsPM (if 0 < c idx then 1 else -1)
    split
    · exact .inl rfl
    · exact .inr rfl
  have hone : ∀ (c : Arr ℝ) idx, (FMean.nums c).sign idx = 1 ↔ 0 < c idx := by
    intro c idx
    show (if 0 < c idx then (1 : Int) else -1) = 1 ↔ _
    split <;> simp_all
  obtain ⟨X, h1, h2, h3⟩ := fast_ok m.outer m.inner L [(FMean.nums a).sign, (FMean.nums b).sign] (by simp)
    (by
      intro c hc
      simp only [List.mem_cons, List.not_mem_nil, or_false] at hc
      rcases hc with rfl | rfl
      · exact ⟨N, sa⟩
      · exact ⟨D, sb⟩)
    (by
      intro c hc
      simp only [List.mem_cons, List.not_mem_nil, or_false] at hc
      rcases hc with rfl | rfl
      · exact hpm a
      · exact hpm b)
  have hrow : rowCounts [(FMean.nums a).sign, (FMean.nums b).sign] = [N, D] := by
    simp [rowCounts, hsh, sa, sb]
  refine ⟨finArr (X.map fun x => if x = 1 then (1 : ℝ) else 0), ?_, h2.trans hrow, fun n hn d hd => ?_⟩
  · rw [output_generic argsort "factor_map" false true s m.outer m.inner (.inl hm)
      (finArr (X.map fun x => if x = 1 then (1 : ℝ) else 0))]
    · rfl
    · unfold outputGeneric
      rw [if_neg (by decide), if_pos rfl]
      simp only [hf, List.map_cons, List.map_nil, ha, hb, h1]
      rfl
  · show NpF.fin (if X [n, d] = 1 then (1 : ℝ) else 0) = _
    rw [h3 [n, d] (by rw [hrow]; exact ⟨hn, hd, trivial⟩), asProb_pm']
    congr 1
    refine lom_congr_len (by simp) _ _ _ _ fun l k h1 h2 => ?_
    match k, h2 with
    | 0, _ => exact hone a _
    | 1, _ => exact hone b _

/-- **C139** (partial): predictions from the most frequent entries (technique `factor_map`): with more and more samples they are
what the layer predicts if each entry of the factors has its more probable value, except with probability `C / S`, from any
initial state and for any length of burn-in, if the sampler reaches all states (see C79) and no entry is as probable on as off. -/
theorem C139_limit_partial {h : Hier} (H : h.Legal) (free : h.Site → Prop) (s0 : h.State) (hl : h.Linking free s0)
    {k : HLayer} (hk : k ∈ h.layers) (hkv : k.v = none)
    {wr : Wiring} (hw : h.Wired wr) {m : Mach Sampler LbdaUpdate} (hm : h.FixedLbdas wr m) (fe : Nat → Arr Int)
    (hfe : ∀ q, free q ↔ h.Sampled m fe q) (hin : ∀ i ∈ k.factors, i ∈ freeMats m)
    {n d : Nat} (hn : n < h.rows k.z) (hd : d < h.rows k.u)
    (hz0 : ∀ l < h.cols k.z, h.onProb free s0 k.z n l ≠ 1 / 2) (hu0 : ∀ l < h.cols k.z, h.onProb free s0 k.u d l ≠ 1 / 2) :
    ∃ C : ℝ, ∀ (S cw bmin : Nat) (eps : ℝ) (bmax : Int) (ps fx : Nat), 1 ≤ cw → 1 ≤ ps → 1 ≤ S →
      ∀ T, m.clock + bmin + bmax.toNat + S ≤ T → ∀ s : h.State, h.Agree free s s0 →
      h.prob (freeMats m) T (fun σ ω => ¬ ∃ m', infer (genericEnv (Spec.Hier.withDraws (Spec.Hier.withOrders wr σ) ω)) S cw eps
          bmin bmax ps fx { m with world := h.world fe s } = .ok m' ∧
          ∀ (argsort : Arr ℝ → List Nat) (lr : OLayer), lr.model = k.model.name → lr.factors = [m'.ofac k.z, m'.ofac k.u] →
            ∃ X, (output argsort "factor_map" false false true lr).1 = .ok X ∧ X.shape = [h.rows k.z, h.rows k.u] ∧
              X [n, d] = asProb (lom k.model.outer k.model.inner fun (l : Fin (h.cols k.z)) (j : Fin 2) =>
                ![1 / 2 < h.onProb free s0 k.z n l, 1 / 2 < h.onProb free s0 k.u d l] j)) ≤ ENNReal.ofReal (C / S) := by
  have iz : k.z ∈ k.factors := by simp [HLayer.factors]
  have iu : k.u ∈ k.factors := by simp [HLayer.factors]
  have hMz := H.latent k hk _ iz
  have hMu := H.latent k hk _ iu
  have hc : h.cols k.u = h.cols k.z := Spec.Hier.cols_factor H hk iu
  obtain ⟨L, hL⟩ : ∃ L, L = h.cols k.z := ⟨_, rfl⟩
  rw [← hL] at hz0 hu0
  have hLz : ∀ l : Fin L, (l : Nat) < h.cols k.z := fun l => hL ▸ l.2
  have hLu : ∀ l : Fin L, (l : Nat) < h.cols k.u := fun l => by rw [hc]; exact hLz l
  obtain ⟨mz, hmz⟩ : ∃ mz : Fin L → ℝ, mz = fun l : Fin L =>
    ∑ x, h.posteriorGiven free s0 x * (sgn (x ⟨k.z, hMz⟩ (⟨n, hn⟩, ⟨l, hLz l⟩)) : ℝ) := ⟨_, rfl⟩
  obtain ⟨mu, hmu⟩ : ∃ mu : Fin L → ℝ, mu = fun l : Fin L =>
    ∑ x, h.posteriorGiven free s0 x * (sgn (x ⟨k.u, hMu⟩ (⟨d, hd⟩, ⟨l, hLu l⟩)) : ℝ) := ⟨_, rfl⟩
  have hzp : ∀ l : Fin L, h.onProb free s0 k.z n l = (mz l + 1) * (1 / 2) := fun l => by
    rw [hmz]
    exact Spec.Hier.onProb_eq H free s0 ⟨k.z, hMz⟩ ⟨n, hn⟩ ⟨l, hLz l⟩
  have hup : ∀ l : Fin L, h.onProb free s0 k.u d l = (mu l + 1) * (1 / 2) := fun l => by
    rw [hmu]
    exact Spec.Hier.onProb_eq H free s0 ⟨k.u, hMu⟩ ⟨d, hd⟩ ⟨l, hLu l⟩
  have hz1 : ∀ l : Fin L, mz l ≠ 0 := fun l h0 => hz0 l l.2 (by rw [hzp, h0]; norm_num)
  have hu1 : ∀ l : Fin L, mu l ≠ 0 := fun l h0 => hu0 l l.2 (by rw [hup, h0]; norm_num)
  obtain ⟨C, hC⟩ := C80_linked_consistent_partial H free s0 hl hw hm fe hfe
  refine ⟨(∑ l, C / mz l ^ 2 ⊔ 0) + ∑ l, C / mu l ^ 2 ⊔ 0, ?_⟩
  intro S cw bmin eps bmax ps fx hcw hps hS T hT s hs
  let A : Fin L ⊕ Fin L → Spec.Hier.Orders (freeMats m) T → h.Draws T → Prop := fun j σ ω =>
    ∃ m' a, infer (genericEnv (Spec.Hier.withDraws (Spec.Hier.withOrders wr σ) ω)) S cw eps bmin bmax
      ps fx { m with world := h.world fe s } = .ok m' ∧
    match j with
    | .inl l => (m'.ofac k.z).mean = .nums a ∧ |mz l| ≤ |a [n, (l : Nat)] - mz l|
    | .inr l => (m'.ofac k.u).mean = .nums a ∧ |mu l| ≤ |a [d, (l : Nat)] - mu l|
  let B : Fin L ⊕ Fin L → ℝ := Sum.elim (fun l => C / mz l ^ 2 ⊔ 0) (fun l => C / mu l ^ 2 ⊔ 0)
  have hS' : (0 : ℝ) < S := by exact_mod_cast hS
  have hA : ∀ j, h.prob (freeMats m) T (A j) ≤ ENNReal.ofReal (B j / S) := by
    have hle : ∀ x : ℝ, C / (S * |x| ^ 2) ≤ (C / x ^ 2 ⊔ 0) / S := by
      intro x
      rw [sq_abs, mul_comm, ← div_div]
      gcongr
      exact le_max_left _ _
    intro j
    match j with
    | .inl l =>
      have := hC S cw bmin eps bmax ps fx hcw hps hS T hT s hs ⟨k.z, hMz⟩ (hin _ iz) ⟨n, hn⟩
        ⟨l, hLz l⟩ |mz l| (abs_pos.2 (hz1 l))
      refine le_trans (le_of_eq ?_) (this.trans (ENNReal.ofReal_le_ofReal (hle _)))
      simp only [A, hmz]
    | .inr l =>
      have := hC S cw bmin eps bmax ps fx hcw hps hS T hT s hs ⟨k.u, hMu⟩ (hin _ iu) ⟨d, hd⟩
        ⟨l, hLu l⟩ |mu l| (abs_pos.2 (hu1 l))
      refine le_trans (le_of_eq ?_) (this.trans (ENNReal.ofReal_le_ofReal (hle _)))
      simp only [A, hmu]
  have hB : ∀ j, 0 ≤ B j := fun j => by
    match j with
    | .inl l => exact le_max_right _ _
    | .inr l => exact le_max_right _ _
  have near : ∀ x y : ℝ, |x - y| < |y| → (0 < x ↔ 0 < y) := by
    intro x y hxy
    rcases lt_trichotomy y 0 with hy | hy | hy
    · rw [abs_of_neg hy] at hxy
      have := (abs_lt.1 hxy).2
      constructor <;> intro <;> linarith
    · rw [hy, abs_zero] at hxy
      exact absurd hxy (not_lt.2 (abs_nonneg _))
    · rw [abs_of_pos hy] at hxy
      have := (abs_lt.1 hxy).1
      constructor <;> intro <;> linarith
  refine (Spec.Hier.prob_mono (B := fun σ ω => ∃ j, A j σ ω) fun σ ω hω => ?_).trans
    ((Spec.Hier.prob_exists_le A).trans ((Finset.sum_le_sum fun j _ => hA j).trans (le_of_eq ?_)))
  · by_contra hno
    refine hω ?_
    obtain ⟨m', e1, e2⟩ := Spec.Hier.infer_mean H (Spec.Hier.withOrders_wired hw σ) (Spec.Hier.withOrders_fixed hm σ)
      (Spec.Hier.withOrders_perm wr σ) fe S cw bmin eps bmax ps fx hcw hps hS T hT ω s
    obtain ⟨a, a1, a2, -⟩ := e2 ⟨k.z, hMz⟩ (hin _ iz)
    obtain ⟨b, b1, b2, -⟩ := e2 ⟨k.u, hMu⟩ (hin _ iu)
    refine ⟨m', e1, fun argsort lr hlm hlf => ?_⟩
    obtain ⟨X, x1, x2, x3⟩ := factor_map_two argsort lr k.model hlm hlf a1 b1 a2 (D := h.rows k.u)
      (by rw [b2]; simp only [hc])
    refine ⟨X, x1, x2, ?_⟩
    rw [x3 n hn d hd]
    congr 1
    refine lom_congr_len rfl _ _ _ _ fun l j h1 h2 => ?_
    have hz : 0 < a [n, (l : Nat)] ↔ 0 < mz ⟨l, hL ▸ l.2⟩ := near _ _ (by
      by_contra hge
      exact hno ⟨.inl ⟨l, hL ▸ l.2⟩, m', a, e1, a1, not_lt.1 hge⟩)
    have hu : 0 < b [d, (l : Nat)] ↔ 0 < mu ⟨l, hL ▸ l.2⟩ := near _ _ (by
      by_contra hge
      exact hno ⟨.inr ⟨l, hL ▸ l.2⟩, m', b, e1, b1, not_lt.1 hge⟩)
    have half : ∀ x : ℝ, 1 / 2 < (x + 1) * (1 / 2) ↔ 0 < x := fun x => by constructor <;> intro <;> linarith
    match j, h2 with
    | 0, _ =>
      show 0 < a [n, (l : Nat)] ↔ 1 / 2 < h.onProb free s0 k.z n l
      rw [hz, hzp ⟨l, hL ▸ l.2⟩, half]
    | 1, _ =>
      show 0 < b [d, (l : Nat)] ↔ 1 / 2 < h.onProb free s0 k.u d l
      rw [hu, hup ⟨l, hL ▸ l.2⟩, half]
  · rw [← ENNReal.ofReal_sum_of_nonneg fun j _ => div_nonneg (hB j) hS'.le, ← Finset.sum_div, Fintype.sum_sum_type]
    rfl

/-- what `factor_map` returns for any number of factors with these means -/
theorem factor_map_any (argsort : Arr ℝ → List Nat) (s : OLayer) (m : Lom8) (hm : s.model = m.name) (is : List Nat) (hne : is ≠ [])
    (fac : Nat → OFac) (hf : s.factors = is.map fac) (a : Nat → Arr ℝ) (ha : ∀ i ∈ is, (fac i).mean = .nums (a i)) (R : Nat → Nat)
    {L : Nat} (sa : ∀ i ∈ is, (a i).shape = [R i, L]) :
    ∃ X, (output argsort "factor_map" false false true s).1 = .ok X ∧ X.shape = is.map R ∧ ∀ idx, InB (is.map R) idx →
      X idx = asProb (lom m.outer m.inner fun (l : Fin L) (j : Fin is.length) => 0 < a is[j] [idx.getD j 0, l]) := by
  have hsign : s.factors.map (fun x => x.mean.sign) = is.map fun i => (FMean.nums (a i)).sign := by
    rw [hf, List.map_map]
    exact List.map_congr_left fun i hi => by simp [ha i hi]
  have hone : ∀ (c : Arr ℝ) idx, (FMean.nums c).sign idx = 1 ↔ 0 < c idx := by
    intro c idx
    show (if 0 < c idx then (1 : Int) else -1) = 1 ↔ _
    split <;> simp_all
  obtain ⟨X, h1, h2, h3⟩ := fast_ok m.outer m.inner L (is.map fun i => (FMean.nums (a i)).sign) (by simpa using hne)
    (by
      intro c hc
      obtain ⟨i, hi, rfl⟩ := List.mem_map.1 hc
      exact ⟨R i, sa i hi⟩)
    (by
      intro c hc
      obtain ⟨i, hi, rfl⟩ := List.mem_map.1 hc
      intro idx _
      show IsPM (if 0 < a i idx then 1 else -1)
      split
      · exact .inl rfl
      · exact .inr rfl)
  have hrow : rowCounts (is.map fun i => (FMean.nums (a i)).sign) = is.map R := by
    simp only [rowCounts, List.map_map]
    refine List.map_congr_left fun i hi => ?_
    show (a i).shape.headD 0 = R i
    rw [sa i hi]
    rfl
  refine ⟨finArr (X.map fun x => if x = 1 then (1 : ℝ) else 0), ?_, h2.trans hrow, fun idx hidx => ?_⟩
  · rw [output_generic argsort "factor_map" false true s m.outer m.inner (.inl hm)
      (finArr (X.map fun x => if x = 1 then (1 : ℝ) else 0))]
    · rfl
    · unfold outputGeneric
      rw [if_neg (by decide), if_pos rfl]
      simp only [hsign, h1]
      rfl
  · show NpF.fin (if X idx = 1 then (1 : ℝ) else 0) = _
    rw [h3 idx (by rw [hrow]; exact hidx), asProb_pm']
    congr 1
    refine lom_congr_len (by simp) _ _ _ _ fun l k h1 h2 => ?_
    simp only [Fin.getElem_fin, List.getElem_map]
    exact hone _ _

/-- **C139** (partial): the same for layers of two or of three factors -/
theorem C139_any_layer_partial {h : Hier} (H : h.Legal) (free : h.Site → Prop) (s0 : h.State) (hl : h.Linking free s0)
    {k : HLayer} (hk : k ∈ h.layers)
    {wr : Wiring} (hw : h.Wired wr) {m : Mach Sampler LbdaUpdate} (hm : h.FixedLbdas wr m) (fe : Nat → Arr Int)
    (hfe : ∀ q, free q ↔ h.Sampled m fe q) (hin : ∀ i ∈ k.factors, i ∈ freeMats m)
    {idx : List Nat} (hidx : InB (k.factors.map h.rows) idx)
    (h0 : ∀ j : Fin k.factors.length, ∀ l < h.cols k.z, h.onProb free s0 k.factors[j] (idx.getD j 0) l ≠ 1 / 2) :
    ∃ C : ℝ, ∀ (S cw bmin : Nat) (eps : ℝ) (bmax : Int) (ps fx : Nat), 1 ≤ cw → 1 ≤ ps → 1 ≤ S →
      ∀ T, m.clock + bmin + bmax.toNat + S ≤ T → ∀ s : h.State, h.Agree free s s0 →
      h.prob (freeMats m) T (fun σ ω => ¬ ∃ m', infer (genericEnv (Spec.Hier.withDraws (Spec.Hier.withOrders wr σ) ω)) S cw eps
          bmin bmax ps fx { m with world := h.world fe s } = .ok m' ∧
          ∀ (argsort : Arr ℝ → List Nat) (lr : OLayer), lr.model = k.model.name →
            lr.factors = k.factors.map (fun i => m'.ofac i) →
            ∃ X, (output argsort "factor_map" false false true lr).1 = .ok X ∧ X.shape = k.factors.map h.rows ∧
              X idx = asProb (lom k.model.outer k.model.inner fun (l : Fin (h.cols k.z)) (j : Fin k.factors.length) =>
                1 / 2 < h.onProb free s0 k.factors[j] (idx.getD j 0) l)) ≤ ENNReal.ofReal (C / S) := by
  obtain ⟨L, hL⟩ : ∃ L, L = h.cols k.z := ⟨_, rfl⟩
  rw [← hL] at h0 ⊢
  have hi : ∀ j : Fin k.factors.length, k.factors[j] ∈ k.factors := fun j => List.getElem_mem _
  have hM : ∀ j : Fin k.factors.length, k.factors[j] < h.M := fun j => H.latent k hk _ (hi j)
  have hc : ∀ i ∈ k.factors, h.cols i = L := fun i hi => (Spec.Hier.cols_factor H hk hi).trans hL.symm
  have hr : ∀ j : Fin k.factors.length, idx.getD j 0 < h.rows k.factors[j] := by
    intro j
    have := hidx.getD (k := j) (by simp)
    simpa using this
  have hl' : ∀ (j : Fin k.factors.length) (l : Fin L), (l : Nat) < h.cols k.factors[j] := fun j l => by
    rw [hc _ (hi j)]; exact l.2
  obtain ⟨mz, hmz⟩ : ∃ mz : Fin k.factors.length × Fin L → ℝ, mz = fun q : Fin k.factors.length × Fin L =>
    ∑ x, h.posteriorGiven free s0 x * (sgn (x ⟨k.factors[q.1], hM q.1⟩ (⟨idx.getD q.1 0, hr q.1⟩, ⟨q.2, hl' q.1 q.2⟩)) : ℝ) :=
    ⟨_, rfl⟩
  have hzp : ∀ q, h.onProb free s0 k.factors[q.1] (idx.getD q.1 0) q.2 = (mz q + 1) * (1 / 2) := fun q => by
    rw [hmz]
    exact Spec.Hier.onProb_eq H free s0 ⟨k.factors[q.1], hM q.1⟩ ⟨idx.getD q.1 0, hr q.1⟩ ⟨q.2, hl' q.1 q.2⟩
  have hz1 : ∀ q, mz q ≠ 0 := fun q hq => h0 q.1 q.2 q.2.2 (by rw [hzp, hq]; norm_num)
  obtain ⟨C, hC⟩ := C80_linked_consistent_partial H free s0 hl hw hm fe hfe
  refine ⟨∑ q, C / mz q ^ 2 ⊔ 0, ?_⟩
  intro S cw bmin eps bmax ps fx hcw hps hS T hT s hs
  let A : Fin k.factors.length × Fin L → Spec.Hier.Orders (freeMats m) T → h.Draws T → Prop := fun q σ ω =>
    ∃ m' a, infer (genericEnv (Spec.Hier.withDraws (Spec.Hier.withOrders wr σ) ω)) S cw eps bmin bmax
      ps fx { m with world := h.world fe s } = .ok m' ∧
      (m'.ofac k.factors[q.1]).mean = .nums a ∧ |mz q| ≤ |a [idx.getD q.1 0, (q.2 : Nat)] - mz q|
  have hS' : (0 : ℝ) < S := by exact_mod_cast hS
  have hA : ∀ q, h.prob (freeMats m) T (A q) ≤ ENNReal.ofReal ((C / mz q ^ 2 ⊔ 0) / S) := by
    have hle : ∀ x : ℝ, C / (S * |x| ^ 2) ≤ (C / x ^ 2 ⊔ 0) / S := by
      intro x
      rw [sq_abs, mul_comm, ← div_div]
      gcongr
      exact le_max_left _ _
    intro q
    have := hC S cw bmin eps bmax ps fx hcw hps hS T hT s hs ⟨k.factors[q.1], hM q.1⟩ (hin _ (hi q.1)) ⟨idx.getD q.1 0, hr q.1⟩
      ⟨q.2, hl' q.1 q.2⟩ |mz q| (abs_pos.2 (hz1 q))
    refine le_trans (le_of_eq ?_) (this.trans (ENNReal.ofReal_le_ofReal (hle _)))
    simp only [A, hmz]
  have near : ∀ x y : ℝ, |x - y| < |y| → (0 < x ↔ 0 < y) := by
    intro x y hxy
    rcases lt_trichotomy y 0 with hy | hy | hy
    · rw [abs_of_neg hy] at hxy
      have := (abs_lt.1 hxy).2
      constructor <;> intro <;> linarith
    · rw [hy, abs_zero] at hxy
      exact absurd hxy (not_lt.2 (abs_nonneg _))
    · rw [abs_of_pos hy] at hxy
      have := (abs_lt.1 hxy).1
      constructor <;> intro <;> linarith
  refine (Spec.Hier.prob_mono (B := fun σ ω => ∃ q, A q σ ω) fun σ ω hω => ?_).trans
    ((Spec.Hier.prob_exists_le A).trans ((Finset.sum_le_sum fun j _ => hA j).trans (le_of_eq ?_)))
  · by_contra hno
    refine hω ?_
    obtain ⟨m', e1, e2⟩ := Spec.Hier.infer_mean H (Spec.Hier.withOrders_wired hw σ) (Spec.Hier.withOrders_fixed hm σ)
      (Spec.Hier.withOrders_perm wr σ) fe S cw bmin eps bmax ps fx hcw hps hS T hT ω s
    have e3 : ∀ i, ∃ a, i ∈ k.factors → (m'.ofac i).mean = .nums a ∧ a.shape = [h.rows i, L] := by
      intro i
      by_cases hik : i ∈ k.factors
      · obtain ⟨a, a1, a2, -⟩ := e2 ⟨i, H.latent k hk _ hik⟩ (hin _ hik)
        exact ⟨a, fun _ => ⟨a1, by rw [a2]; simp only [hc i hik]⟩⟩
      · exact ⟨Arr.full [] 0, fun hc => absurd hc hik⟩
    choose a ha using e3
    refine ⟨m', e1, fun argsort lr hlm hlf => ?_⟩
    obtain ⟨X, x1, x2, x3⟩ := factor_map_any argsort lr k.model hlm k.factors (by simp [HLayer.factors]) _ hlf a
      (fun i hi => (ha i hi).1) h.rows (fun i hi => (ha i hi).2)
    refine ⟨X, x1, x2, ?_⟩
    rw [x3 idx hidx]
    congr 1
    refine lom_congr_len rfl _ _ _ _ fun l j h1 h2 => ?_
    have hz := near _ _ (show |a k.factors[(⟨j, h2⟩ : Fin k.factors.length)] [idx.getD j 0, (l : Nat)] - mz (⟨j, h2⟩, l)| < |mz (⟨j, h2⟩, l)| by
      by_contra hge
      exact hno ⟨(⟨j, h2⟩, l), m', _, e1, (ha _ (hi ⟨j, h2⟩)).1, not_lt.1 hge⟩)
    have half : ∀ x : ℝ, 1 / 2 < (x + 1) * (1 / 2) ↔ 0 < x := fun x => by constructor <;> intro <;> linarith
    rw [hz, hzp (⟨j, h2⟩, l), half]
  · rw [← ENNReal.ofReal_sum_of_nonneg fun j _ => div_nonneg (le_max_right _ _) hS'.le, ← Finset.sum_div]

/-- one observed cell with value 1, model OR-AND, one latent dimension -/
noncomputable def oneAnd : Hier := plainHier .OR_AND 1 1 1 (Arr.full [1, 1] 1) 1

theorem oneAnd_legal : oneAnd.Legal :=
  plainHier_legal _ _ _ (by norm_num) (by norm_num) rfl fun idx _ => .inl rfl

/-- the four states -/
def oneAndState (p : Bool × Bool) : oneAnd.State := fun i _ => if (i : Nat) = 0 then p.1 else p.2

theorem oneAnd_sum (f : oneAnd.State → ℝ) : ∑ x, f x = ∑ p : Bool × Bool, f (oneAndState p) := by
  have m0 : 0 < oneAnd.M := by simp [oneAnd, plainHier]
  have m1 : 1 < oneAnd.M := by simp [oneAnd, plainHier]
  have hr : ∀ i : Nat, oneAnd.rows i = 1 := fun i => by simp [oneAnd, plainHier]
  have hc : ∀ i : Nat, oneAnd.cols i = 1 := fun i => by simp [oneAnd, plainHier]
  have e0 : ∀ i : Nat, ∃ e : Fin (oneAnd.rows i) × Fin (oneAnd.cols i), ∀ e', e' = e := fun i =>
    ⟨(⟨0, by rw [hr]; norm_num⟩, ⟨0, by rw [hc]; norm_num⟩), fun e' => by
      refine Prod.ext (Fin.ext ?_) (Fin.ext ?_)
      · have := e'.1.2.trans_eq (hr i); simp only; omega
      · have := e'.2.2.trans_eq (hc i); simp only; omega⟩
  obtain ⟨a, ha⟩ := e0 0
  obtain ⟨b, hb⟩ := e0 1
  symm
  refine Fintype.sum_equiv ⟨oneAndState, fun s => (s ⟨0, m0⟩ a, s ⟨1, m1⟩ b), fun p => rfl, fun s => ?_⟩ _ _ fun p => rfl
  funext i e
  obtain ⟨i, hi⟩ := i
  have : i = 0 ∨ i = 1 := by simp [oneAnd, plainHier] at hi; omega
  rcases this with rfl | rfl
  · simp only [oneAndState, if_true, ha e]
  · simp only [oneAndState, if_neg (Nat.one_ne_zero), hb e]

theorem oneAnd_val (p : Bool × Bool) : oneAnd.val (oneAndState p) 0 0 0 = sgn p.1 ∧ oneAnd.val (oneAndState p) 1 0 0 = sgn p.2 := by
  have h0 : (0 : Nat) < oneAnd.rows 0 ∧ (0 : Nat) < oneAnd.cols 0 := by simp [oneAnd, plainHier]
  have h1 : (0 : Nat) < oneAnd.rows 1 ∧ (0 : Nat) < oneAnd.cols 1 := by simp [oneAnd, plainHier]
  have m0 : 0 < oneAnd.M := by simp [oneAnd, plainHier]
  have m1 : 1 < oneAnd.M := by simp [oneAnd, plainHier]
  constructor
  · unfold Spec.Hier.val
    rw [dif_pos m0]
    unfold Cfg.fac
    rw [dif_pos h0]
    rfl
  · unfold Spec.Hier.val
    rw [dif_pos m1]
    unfold Cfg.fac
    rw [dif_pos h1]
    rfl

theorem oneAnd_pred (p : Bool × Bool) :
    pred2 .OR_AND 1 (oneAnd.val (oneAndState p) 0 0) (oneAnd.val (oneAndState p) 1 0) = if p.1 && p.2 then 1 else -1 := by
  obtain ⟨v0, v1⟩ := oneAnd_val p
  have : pred2 .OR_AND 1 (oneAnd.val (oneAndState p) 0 0) (oneAnd.val (oneAndState p) 1 0) = pm ((p.1 && p.2) = true) := by
    unfold pred2
    apply pm_congr
    have e : ∀ x y : Int, (fun k : Fin 2 => ![x, y] k = 1) = fun k : Fin 2 => ![x = 1, y = 1] k := by
      intro x y
      funext k
      fin_cases k <;> rfl
    unfold lom
    simp only [e]
    constructor
    · rintro ⟨l, hl⟩
      have : l = 0 := Subsingleton.elim _ _
      subst this
      have := (inner_two _ _).1.1 hl
      simp only [Fin.val_zero, v0, v1] at this
      revert this
      rcases p with ⟨_ | _, _ | _⟩ <;> simp [sgn]
    · intro hp
      refine ⟨0, (inner_two _ _).1.2 ?_⟩
      simp only [Fin.val_zero, v0, v1]
      revert hp
      rcases p with ⟨_ | _, _ | _⟩ <;> simp [sgn]
  rw [this]
  unfold pm
  split <;> simp_all

theorem oneAnd_joint (p : Bool × Bool) : oneAnd.joint (oneAndState p) = sigmoid (if p.1 && p.2 then 1 else -1) * (1 / 4) := by
  have hv : oneAnd.val (oneAndState p) 2 = fun _ _ => 1 := by
    unfold Spec.Hier.val
    rw [dif_neg (by simp [oneAnd, plainHier])]
    rfl
  have hl : oneAnd.layerLik (oneAndState p) ⟨.OR_AND, 0, 1, 2, 1, none⟩ = sigmoid (if p.1 && p.2 then 1 else -1) := by
    show lik2 .OR_AND 1 1 1 1 (oneAnd.val (oneAndState p) 2) (oneAnd.val (oneAndState p) 0) (oneAnd.val (oneAndState p) 1) = _
    rw [hv]
    unfold lik2
    rw [Fin.prod_univ_one, Fin.prod_univ_one]
    show cellLik 1 1 (pred2 .OR_AND 1 (oneAnd.val (oneAndState p) 0 0) (oneAnd.val (oneAndState p) 1 0)) = _
    rw [oneAnd_pred, cellLik, if_neg (by norm_num)]
    split <;> norm_num
  have hp : ∏ i : Fin oneAnd.M, priorProb (oneAnd.prior i) (oneAnd.rows i) (oneAnd.cols i) (Cfg.fac (oneAndState p i)) = 1 / 4 := by
    have hq : ∀ i : Fin oneAnd.M, priorProb (oneAnd.prior i) (oneAnd.rows i) (oneAnd.cols i) (Cfg.fac (oneAndState p i)) =
        (fun j : Nat => (1 / 2 : ℝ) ^ (oneAnd.rows j * oneAnd.cols j)) i := fun i => Spec.Hier.priorProb_half _ _ _
    rw [Finset.prod_congr rfl fun i _ => hq i,
      Fin.prod_univ_eq_prod_range (fun j : Nat => (1 / 2 : ℝ) ^ (oneAnd.rows j * oneAnd.cols j)) oneAnd.M]
    show ∏ i ∈ Finset.range 2, _ = _
    rw [Finset.prod_range_succ, Finset.prod_range_one]
    simp [oneAnd, plainHier]
    norm_num
  unfold Spec.Hier.joint
  rw [hp]
  show ([oneAnd.layerLik (oneAndState p) ⟨.OR_AND, 0, 1, 2, 1, none⟩] : List ℝ).prod * _ = _
  rw [List.prod_singleton, hl]

theorem sigmoid_one_bounds : 1 / 2 < sigmoid 1 ∧ sigmoid 1 < 3 / 4 := by
  constructor
  · rw [← sigmoid_zero]
    exact sigmoid_strictMono one_pos
  · unfold sigmoid
    have h3 : Real.exp 1 < 3 := by
      have := Real.exp_one_lt_d9
      norm_num at this ⊢
      linarith
    have hinv : 1 / 3 < Real.exp (-1) := by
      rw [Real.exp_neg, ← one_div]
      exact one_div_lt_one_div_of_lt (Real.exp_pos 1) h3
    rw [div_lt_div_iff₀ (by positivity) (by norm_num)]
    linarith

/-- **C139** fails: with a single cell whose value is 1, model OR-AND and one latent dimension both entries are on with more than
probability 1/2, so that the limit of `factor_map` is 1; but the posterior probability that the layer predicts a one
is smaller than 1/2. -/
theorem C139_wrong (s0 : oneAnd.State) :
    1 / 2 < oneAnd.onProb (fun _ => True) s0 0 0 0 ∧ 1 / 2 < oneAnd.onProb (fun _ => True) s0 1 0 0 ∧
    (lom .OR .AND fun (l : Fin 1) (j : Fin 2) =>
      ![1 / 2 < oneAnd.onProb (fun _ => True) s0 0 0 l, 1 / 2 < oneAnd.onProb (fun _ => True) s0 1 0 l] j) ∧
    oneAnd.predictive (fun _ => True) s0 ⟨.OR_AND, 0, 1, 2, 1, none⟩ 0 0 < 1 / 2 := by
  classical
  obtain ⟨b1, b2⟩ := sigmoid_one_bounds
  have hag : ∀ x, oneAnd.Agree (fun _ => True) x s0 := fun x q hq => absurd trivial hq
  have hZ : ∑ x, oneAnd.joint x = (3 - 2 * sigmoid 1) / 4 := by
    rw [oneAnd_sum]
    simp only [oneAnd_joint, Fintype.sum_prod_type, Fintype.sum_bool]
    simp [sigmoid_neg]
    ring
  have hpos : 0 < (3 - 2 * sigmoid 1) / 4 := by linarith
  have e : ∀ p, oneAnd.posteriorGiven (fun _ => True) s0 (oneAndState p) =
      sigmoid (if p.1 && p.2 then 1 else -1) / (3 - 2 * sigmoid 1) := by
    intro p
    unfold Spec.Hier.posteriorGiven
    rw [if_pos (hag _)]
    have : (∑ y ∈ Finset.univ.filter (fun y => oneAnd.Agree (fun _ => True) y s0), oneAnd.joint y) = (3 - 2 * sigmoid 1) / 4 := by
      rw [← hZ]
      exact Finset.sum_congr (by ext y; simp [hag y]) fun _ _ => rfl
    rw [this, oneAnd_joint]
    field_simp
  have h0 : oneAnd.onProb (fun _ => True) s0 0 0 0 = 1 / (3 - 2 * sigmoid 1) := by
    unfold Spec.Hier.onProb
    rw [oneAnd_sum]
    simp only [e, (oneAnd_val _).1, Fintype.sum_prod_type, Fintype.sum_bool]
    simp [sgn, sigmoid_neg]
    ring
  have h1 : oneAnd.onProb (fun _ => True) s0 1 0 0 = 1 / (3 - 2 * sigmoid 1) := by
    unfold Spec.Hier.onProb
    rw [oneAnd_sum]
    simp only [e, (oneAnd_val _).2, Fintype.sum_prod_type, Fintype.sum_bool]
    simp [sgn, sigmoid_neg]
    ring
  have hp : oneAnd.predictive (fun _ => True) s0 ⟨.OR_AND, 0, 1, 2, 1, none⟩ 0 0 = sigmoid 1 / (3 - 2 * sigmoid 1) := by
    unfold Spec.Hier.predictive
    rw [oneAnd_sum]
    have hc : ∀ p, pred2 .OR_AND (oneAnd.cols 0) (oneAnd.val (oneAndState p) 0 0) (oneAnd.val (oneAndState p) 1 0) =
      if p.1 && p.2 then 1 else -1 := oneAnd_pred
    simp only [e, hc, Fintype.sum_prod_type, Fintype.sum_bool]
    simp
  have hd : 0 < 3 - 2 * sigmoid 1 := by linarith
  have q0 : 1 / 2 < oneAnd.onProb (fun _ => True) s0 0 0 0 := by
    rw [h0, div_lt_div_iff₀ (by norm_num) hd]
    linarith
  have q1 : 1 / 2 < oneAnd.onProb (fun _ => True) s0 1 0 0 := by
    rw [h1, div_lt_div_iff₀ (by norm_num) hd]
    linarith
  refine ⟨q0, q1, ⟨0, fun j => ?_⟩, ?_⟩
  · fin_cases j
    · exact q0
    · exact q1
  · rw [hp, div_lt_div_iff₀ hd (by norm_num)]
    linarith

/-- the hierarchy of `C139_wrong` meets the conditions of `C139_limit_partial` -/
theorem C139_hypotheses_met (s0 : oneAnd.State) : oneAnd.Legal ∧ oneAnd.Linking (fun _ => True) s0 ∧
    (⟨.OR_AND, 0, 1, 2, 1, none⟩ : HLayer) ∈ oneAnd.layers ∧ 0 < oneAnd.rows 0 ∧ 0 < oneAnd.rows 1 ∧
    (∀ l < oneAnd.cols 0, oneAnd.onProb (fun _ => True) s0 0 0 l ≠ 1 / 2 ∧ oneAnd.onProb (fun _ => True) s0 1 0 l ≠ 1 / 2) ∧
    ∃ wr : Wiring, oneAnd.Wired wr ∧ ∃ mach : Mach Sampler LbdaUpdate, oneAnd.FixedLbdas wr mach ∧
      (∀ q, oneAnd.Sampled mach (fun _ => Arr.full [] 0) q) ∧
      ∀ i ∈ (⟨.OR_AND, 0, 1, 2, 1, none⟩ : HLayer).factors, i ∈ freeMats mach := by
  have H := oneAnd_legal
  obtain ⟨w1, w2, w3⟩ := C79_odd_hypotheses_met.2.2.2.2.2.2 _ H (fun _ l => l) s0
  obtain ⟨q0, q1, -⟩ := C139_wrong s0
  have hodd : ∀ n < 1, Odd (Finset.univ.filter fun _ : Fin 1 => (1 : Int) ≠ 0).card := fun n _ => by decide
  refine ⟨H, ?_, by simp [oneAnd, plainHier], by simp [oneAnd, plainHier], by simp [oneAnd, plainHier], ?_, _, w1, _, w2, w3, ?_⟩
  · have conv := C79_odd_partial H (k := ⟨.OR_AND, 0, 1, 2, 1, none⟩) rfl rfl (fun i _ => rfl) (by norm_num)
      (by simp [oneAnd, plainHier]) (by simp) hodd hodd w1 w2 _ w3 s0
    exact Spec.Hier.linking_of_mixing ((C79_mixing_iff H _ s0 w1 w2 _ (fun q => iff_of_true trivial (w3 q))).2 conv)
  · intro l hl
    have : l = 0 := by simp [oneAnd, plainHier] at hl; exact hl
    subst this
    exact ⟨q0.ne', q1.ne'⟩
  · intro i hi
    rw [Spec.Hier.mem_freeMats_machOf H]
    exact H.latent _ (by simp [oneAnd, plainHier]) i hi

end LFM
