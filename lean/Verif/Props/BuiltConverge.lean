import Verif.Spec.BuiltOrders
import Verif.Props.Described
import Verif.Props.Averages

/-!
# C104: exactly when samples and averages of machines that calls have built converge, with random orders of updates
-/

namespace LFM

open Spec MeasureTheory

namespace Spec.Hier

/-- the same orders, with other numbers -/
def renOrder (num : Equiv.Perm Nat) (mats : List Nat) :
    {l : List Nat // l ∈ mats.permutations.toFinset} ≃ {l : List Nat // l ∈ (mats.map num.symm).permutations.toFinset} where
  toFun l := ⟨l.1.map num.symm, by
    have := l.2
    rw [List.mem_toFinset, List.mem_permutations] at this ⊢
    exact this.map _⟩
  invFun l := ⟨l.1.map num, by
    have := l.2
    rw [List.mem_toFinset, List.mem_permutations] at this ⊢
    have := this.map num
    rwa [List.map_map, show num ∘ num.symm = id from funext num.apply_symm_apply, List.map_id] at this⟩
  left_inv l := by
    refine Subtype.ext ?_
    show (l.1.map num.symm).map num = l.1
    rw [List.map_map, show num ∘ num.symm = id from funext num.apply_symm_apply, List.map_id]
  right_inv l := by
    refine Subtype.ext ?_
    show (l.1.map num).map num.symm = l.1
    rw [List.map_map, show num.symm ∘ num = id from funext num.symm_apply_apply, List.map_id]

def renOrders (num : Equiv.Perm Nat) (mats : List Nat) (T : Nat) : Orders mats T ≃ Orders (mats.map num.symm) T :=
  Equiv.piCongrRight fun _ => renOrder num mats

variable {h : Hier} {s : Workshop} {num : Equiv.Perm Nat}

theorem withOrders_ren (dr : LFM.Draws) {T : Nat} {mats : List Nat} (σ : Orders mats T) :
    withOrders ((s.wiring dr).ren num) (renOrders num mats T σ) = (s.wiring (callOrders dr σ)).ren num := by
  unfold withOrders Wiring.ren Workshop.wiring callOrders
  simp only [Wiring.mk.injEq, true_and, and_true]
  funext t l
  by_cases ht : t < T
  · simp only [dif_pos ht]
    rfl
  · simp only [dif_neg ht]
    rw [List.map_map, show num.symm ∘ num = id from funext num.symm_apply_apply, List.map_id]

theorem prob_ren (mats : List Nat) (T : Nat) (A : Orders (mats.map num.symm) T → h.Draws T → Prop) :
    h.prob (mats.map num.symm) T A = h.prob mats T fun σ => A (renOrders num mats T σ) := by
  unfold prob
  rw [Fintype.card_congr (renOrders num mats T), ← Equiv.sum_comp (renOrders num mats T)]

theorem expectation_ren (mats : List Nat) (T : Nat) (F : Orders (mats.map num.symm) T → h.Draws T → ℝ) :
    h.expectation (mats.map num.symm) T F = h.expectation mats T fun σ => F (renOrders num mats T σ) := by
  unfold expectation
  rw [Fintype.card_congr (renOrders num mats T), ← Equiv.sum_comp (renOrders num mats T)]

/-- convergence of the samples of the machine is convergence of the samples of the hierarchy -/
theorem samples_ren (hb : Built s) (D : h.Describes s num) (dr : LFM.Draws) (st0 : h.State) :
    h.SamplesConvergeOf num s dr st0 ↔ h.SamplesConverge (FreeEntry num s) st0 ((s.wiring dr).ren num)
      (s.m.ren num s.m.layers.length) fun i => (s.m.world.mat (num i)).fixed_entries := by
  unfold SamplesConvergeOf SamplesConverge
  rw [freeMats_ren]
  simp only [prob_ren, withOrders_ren, D.event_iff hb.sound]
  exact Iff.rfl

theorem isAverage_ren (hb : Built s) (D : h.Describes s num) (dr : LFM.Draws) (S cw : Nat) (eps : ℝ) (bmin : Nat) (bmax : Int)
    (ps fx T : Nat) (st : h.State) (g : h.State → ℝ) (f : Orders ((freeMats s.m).map num.symm) T → h.Draws T → ℝ) :
    (∀ σ ω, ∃ (m' : _) (x : Nat → h.State), infer (genericEnv (withDraws (withOrders ((s.wiring dr).ren num) σ) ω)) S cw eps bmin
      bmax ps fx { s.m.ren num s.m.layers.length with world := h.world (fun i => (s.m.world.mat (num i)).fixed_entries) st } = .ok m' ∧
      (∀ k < S, h.IsSample (s.m.ren num s.m.layers.length) m' S k (x k)) ∧ f σ ω = (∑ k ∈ Finset.range S, g (x k)) / S) ↔
    h.IsAverageOf num s dr S cw eps bmin bmax ps fx T st g fun σ => f (renOrders num _ T σ) := by
  unfold IsAverageOf
  rw [← (renOrders num (freeMats s.m) T).forall_congr_right]
  refine forall_congr' fun σ => forall_congr' fun ω => ?_
  rw [withOrders_ren, D.infer_ren]
  cases hi : (startAt num s st).infer S cw eps bmin bmax ps fx (callWith num (callOrders dr σ) ω) with
  | error e =>
    constructor
    · rintro ⟨m', x, h1, -⟩; cases h1
    · rintro ⟨m', x, h1, -⟩; cases h1
  | ok s' =>
    constructor
    · rintro ⟨m', x, h1, h2, h3⟩
      cases h1
      exact ⟨s', x, rfl, fun k hk => (D.sample_iff hb.sound s' S k _).1 (h2 k hk), h3⟩
    · rintro ⟨s'', x, h1, h2, h3⟩
      cases h1
      exact ⟨_, x, rfl, fun k hk => (D.sample_iff hb.sound s' S k _).2 (h2 k hk), h3⟩

/-- convergence of averages of the machine is convergence of averages of the hierarchy -/
theorem averages_ren (hb : Built s) (D : h.Describes s num) (dr : LFM.Draws) (st0 : h.State) :
    h.AveragesConvergeOf num s dr st0 ↔ h.AveragesConverge (FreeEntry num s) st0 ((s.wiring dr).ren num)
      (s.m.ren num s.m.layers.length) fun i => (s.m.world.mat (num i)).fixed_entries := by
  have hex : ∀ {T : Nat} (P : (Orders (freeMats s.m) T → h.Draws T → ℝ) → Prop),
      (∃ f : Orders ((freeMats s.m).map num.symm) T → h.Draws T → ℝ, P fun σ => f (renOrders num _ T σ)) ↔ ∃ f, P f := by
    intro T P
    constructor
    · rintro ⟨f, hf⟩
      exact ⟨_, hf⟩
    · rintro ⟨f, hf⟩
      refine ⟨fun σ => f ((renOrders num _ T).symm σ), ?_⟩
      simpa using hf
  unfold AveragesConvergeOf AveragesConverge IsAverage
  rw [freeMats_ren]
  simp only [isAverage_ren hb D, expectation_ren]
  refine forall_congr' fun g => forall_congr' fun hg => forall_congr' fun δ => forall_congr' fun hδ => exists_congr fun S0 => ?_
  refine forall_congr' fun S => forall_congr' fun cw => forall_congr' fun bmin => forall_congr' fun eps => forall_congr' fun bmax =>
    forall_congr' fun ps => forall_congr' fun fx => forall_congr' fun _ => forall_congr' fun _ => forall_congr' fun _ =>
    forall_congr' fun _ => forall_congr' fun T => forall_congr' fun _ => forall_congr' fun st => forall_congr' fun _ => ?_
  rw [← hex]
  refine exists_congr fun f => and_congr Iff.rfl (and_congr ?_ Iff.rfl)
  exact ((renOrders num (freeMats s.m) T).forall_congr_right (q := fun σ => Integrable (fun ω => (f σ ω -
    ∑ x, h.posteriorGiven (FreeEntry num s) st0 x * g x) ^ 2) (h.allDraws T)))

end Spec.Hier

section

variable {h : Hier} {s : Workshop} {num : Equiv.Perm Nat}

/-- **C104**, exactly when the samples converge: with random orders of updates, the distribution of the samples that a machine
which calls have built stores approaches the posterior given what is fixed, from all initial values, if and only if all
configurations are linked by changes that matter. -/
theorem C104_samples_iff (hb : Built s) (H : h.Legal) (D : h.Describes s num) (C : FixedCall s) (dr : LFM.Draws) (st0 : h.State) :
    h.Mixing (Spec.Hier.FreeEntry num s) st0 ↔ h.SamplesConvergeOf num s dr st0 := by
  rw [Spec.Hier.samples_ren hb D]
  exact C79_mixing_iff H _ st0 (D.wired hb.sound hb.neat dr) (D.fixedLbdas hb.sound C dr) _ (D.sampled hb.sound)

/-- **C104**, exactly when averages converge: if and only if all configurations are linked by changes that matter and by changes
of all free entries at once. -/
theorem C104_averages_iff (hb : Built s) (H : h.Legal) (D : h.Describes s num) (C : FixedCall s) (dr : LFM.Draws) (st0 : h.State) :
    h.Linking (Spec.Hier.FreeEntry num s) st0 ↔ h.AveragesConvergeOf num s dr st0 := by
  rw [Spec.Hier.averages_ren hb D]
  exact C80_average_iff H _ st0 (D.wired hb.sound hb.neat dr) (D.fixedLbdas hb.sound C dr) _ (D.sampled hb.sound)

/-- the hierarchy of a machine with a single plain layer -/
theorem plain_hier (H : h.Legal) (D : h.Describes s num) {lr : LayerInfo} {X : Arr Int} {N Dd L : Nat}
    (P : PlainLayer s lr X N Dd L) : ∃ k : HLayer, h.layers = [k] ∧ k.v = none ∧ lr.model = k.model.name ∧
      s.m.world.lbda 0 = .scalar (.fin k.lbda) ∧ h.data k.child = X ∧ h.rows k.child = N ∧ h.cols k.child = Dd ∧
      h.cols k.z = L ∧ (∀ i < h.M, h.prior i = 1 / 2) ∧ ∀ q : h.Site, Spec.Hier.FreeEntry num s q := by
  have hlen : h.layers.length = 1 := by rw [← D.length, P.layers]; rfl
  obtain ⟨k, hk⟩ := List.length_eq_one_iff.1 hlen
  have hmem : k ∈ h.layers := by rw [hk]; simp
  obtain ⟨lr', h1, h2, h3, h4, h5⟩ := D.layers 0 k (by rw [hk]; rfl)
  rw [P.layers] at h1
  obtain rfl : lr = lr' := by simpa using h1
  have hv : k.v = none := by
    have := P.arity
    rw [h3, List.length_map] at this
    cases hkv : k.v with
    | none => rfl
    | some v => simp [HLayer.factors, hkv] at this
  have howner : ∀ i < h.M, num i ∈ lr.factors := by
    intro i hi
    obtain ⟨k', hk', hi'⟩ := H.owner i hi
    rw [hk, List.mem_singleton] at hk'
    subst hk'
    rw [h3]
    exact List.mem_map_of_mem hi'
  have hchild : h.M ≤ k.child := by
    by_contra hc
    obtain ⟨k', hk', hi'⟩ := H.owner k.child (by omega)
    rw [hk, List.mem_singleton] at hk'
    subst hk'
    exact H.child _ hmem hi'
  have hdata : h.data k.child = X := by rw [D.data _ hchild, ← h4, P.data]
  have hshape := (H.data2 k hmem hv hchild).1
  rw [hdata, P.shape] at hshape
  simp only [List.cons.injEq, and_true] at hshape
  have hz : k.z ∈ k.factors := by simp [HLayer.factors]
  have hzM := H.latent k hmem k.z hz
  refine ⟨k, hk, hv, h2, h5, hdata, hshape.1.symm, hshape.2.symm, ?_, fun i hi => ?_, fun q => ?_⟩
  · have := P.size _ (howner k.z hzM)
    rw [Arr.dim, D.shape k.z hzM] at this
    simpa using this
  · rw [D.prior i hi]
    exact P.prior _ (howner i hi)
  · exact ⟨(P.free _ (howner _ q.1.2)).1, (P.free _ (howner _ q.1.2)).2 _⟩

/-- **C104** (partial), with the default prior: in a machine with a single layer of two factors with one or two latent dimensions,
any model (OR-NAND: with one), fixed lambda other than 0, samples and averages converge to the posterior and its
expectations from all initial values if every row and every column of the data has an odd number of observed cells. -/
theorem C104_odd_partial (hb : Built s) (H : h.Legal) (D : h.Describes s num) (C : FixedCall s) {lr : LayerInfo} {X : Arr Int}
    {N Dd L : Nat} (P : PlainLayer s lr X N Dd L) (hl : s.m.world.lbda 0 ≠ .scalar (.fin 0)) (hL : L ≤ 2)
    (hmod : ¬ (lr.model = "OR-NAND" ∧ L = 2))
    (hrow : ∀ n < N, Odd (Finset.univ.filter fun d : Fin Dd => X [n, d] ≠ 0).card)
    (hcol : ∀ d < Dd, Odd (Finset.univ.filter fun n : Fin N => X [n, d] ≠ 0).card) (dr : LFM.Draws) (st0 : h.State) :
    h.SamplesConvergeOf num s dr st0 ∧ h.AveragesConvergeOf num s dr st0 := by
  obtain ⟨k, hk, hv, hm, hlb, rfl, rfl, rfl, rfl, hp, hfree⟩ := plain_hier H D P
  have hF : Spec.Hier.FreeEntry num s = fun _ : h.Site => True := funext fun q => eq_true (hfree q)
  have hk0 : k.lbda ≠ 0 := by
    intro e
    rw [e] at hlb
    exact hl hlb
  have hm' : ¬ (k.model = .OR_NAND ∧ h.cols k.z = 2) := by
    rintro ⟨e1, e2⟩
    rw [e1] at hm
    exact hmod ⟨hm, e2⟩
  have hs := D.sampled (num := num) hb.sound
  rw [Spec.Hier.samples_ren hb D, Spec.Hier.averages_ren hb D, hF]
  exact ⟨C79_odd_partial H hk hv hp hk0 hL hm' hrow hcol (D.wired hb.sound hb.neat dr) (D.fixedLbdas hb.sound C dr) _
      (fun q => (hs q).1 (hfree q)) st0,
    C80_odd_partial H hk hv hp hk0 hL hm' hrow hcol (D.wired hb.sound hb.neat dr) (D.fixedLbdas hb.sound C dr) _
      (fun q => (hs q).1 (hfree q)) st0⟩

/-- two entries of the machine -/
theorem plain_sites (H : h.Legal) (D : h.Describes s num) {lr : LayerInfo} {X : Arr Int} {N Dd L : Nat}
    (P : PlainLayer s lr X N Dd L) (hN : 1 ≤ N) (hD : 1 ≤ Dd) (hL : 1 ≤ L) : ∃ q0 q1 : h.Site, q0 ≠ q1 := by
  obtain ⟨k, hk, hv, hm, hlb, rfl, rfl, rfl, rfl, hp, hfree⟩ := plain_hier H D P
  have hmem : k ∈ h.layers := by rw [hk]; simp
  obtain ⟨e1, e2, e3⟩ := H.sizes2 k hmem hv
  have hz := H.latent k hmem k.z (by simp [HLayer.factors])
  have hu := H.latent k hmem k.u (by simp [HLayer.factors])
  have hzu : k.z ≠ k.u := by
    have := H.nodup
    rw [hk] at this
    simp only [List.flatMap_cons, List.flatMap_nil, List.append_nil, HLayer.factors, List.nodup_cons, List.mem_cons] at this
    exact fun e => this.1 (Or.inl e)
  refine ⟨⟨⟨k.z, hz⟩, (⟨0, ?_⟩, ⟨0, hL⟩)⟩, ⟨⟨k.u, hu⟩, (⟨0, ?_⟩, ⟨0, ?_⟩)⟩, fun e => hzu ?_⟩
  · show 0 < h.rows k.z
    omega
  · show 0 < h.rows k.u
    omega
  · show 0 < h.cols k.u
    omega
  · exact congrArg (fun q : h.Site => (q.1 : Nat)) e

/-- **C104** fails with the default prior if all row sums and all column sums of the data are 0: neither samples nor averages
converge, whatever the model, the number of latent dimensions and lambda. -/
theorem C104_balanced (hb : Built s) (H : h.Legal) (D : h.Describes s num) (C : FixedCall s) {lr : LayerInfo} {X : Arr Int}
    {N Dd L : Nat} (P : PlainLayer s lr X N Dd L) (hN : 1 ≤ N) (hD : 1 ≤ Dd) (hL : 1 ≤ L)
    (hrow : ∀ n < N, ∑ d : Fin Dd, X [n, d] = 0) (hcol : ∀ d < Dd, ∑ n : Fin N, X [n, d] = 0) (dr : LFM.Draws) (st0 : h.State) :
    ¬ h.SamplesConvergeOf num s dr st0 ∧ ¬ h.AveragesConvergeOf num s dr st0 := by
  obtain ⟨q0, q1, hq⟩ := plain_sites H D P hN hD hL
  obtain ⟨k, hk, hv, hm, hlb, rfl, rfl, rfl, rfl, hp, hfree⟩ := plain_hier H D P
  have hF : Spec.Hier.FreeEntry num s = fun _ : h.Site => True := funext fun q => eq_true (hfree q)
  have hs := D.sampled (num := num) hb.sound
  rw [Spec.Hier.samples_ren hb D, Spec.Hier.averages_ren hb D, hF]
  exact ⟨C79_balanced H hk hv hp hrow hcol (D.wired hb.sound hb.neat dr) (D.fixedLbdas hb.sound C dr) _
      (fun q => (hs q).1 (hfree q)) q0 st0,
    C80_balanced H hk hv hp hrow hcol (D.wired hb.sound hb.neat dr) (D.fixedLbdas hb.sound C dr) _
      (fun q => (hs q).1 (hfree q)) hq st0⟩

/-- **C104** fails for OR-NAND with the default prior: with two or more latent dimensions neither samples nor averages
converge, whatever the data and lambda. -/
theorem C104_or_nand (hb : Built s) (H : h.Legal) (D : h.Describes s num) (C : FixedCall s) {lr : LayerInfo} {X : Arr Int}
    {N Dd L : Nat} (P : PlainLayer s lr X N Dd L) (hN : 1 ≤ N) (hD : 1 ≤ Dd) (hL : 2 ≤ L) (hmod : lr.model = "OR-NAND")
    (dr : LFM.Draws) (st0 : h.State) :
    ¬ h.SamplesConvergeOf num s dr st0 ∧ ¬ h.AveragesConvergeOf num s dr st0 := by
  obtain ⟨q0, q1, hq⟩ := plain_sites H D P hN hD (by omega)
  obtain ⟨k, hk, hv, hm, hlb, rfl, rfl, rfl, rfl, hp, hfree⟩ := plain_hier H D P
  have hF : Spec.Hier.FreeEntry num s = fun _ : h.Site => True := funext fun q => eq_true (hfree q)
  have hs := D.sampled (num := num) hb.sound
  have hm' : k.model = .OR_NAND := by
    rw [hmod] at hm
    revert hm
    cases k.model <;> decide
  rw [Spec.Hier.samples_ren hb D, Spec.Hier.averages_ren hb D, hF]
  exact ⟨C79_or_nand H hk hv hp hm' hL (D.wired hb.sound hb.neat dr) (D.fixedLbdas hb.sound C dr) _
      (fun q => (hs q).1 (hfree q)) q0 st0,
    C80_or_nand H hk hv hp hm' hL (D.wired hb.sound hb.neat dr) (D.fixedLbdas hb.sound C dr) _
      (fun q => (hs q).1 (hfree q)) hq st0⟩

end

/-- `add_matrix(X, fixed=True)`, `add_layer(child=..., latent_size=L, model=...)` with one of the eight generic models, then
`layer.lbda.val = lam` and `layer.lbda.fixed = True` -/
noncomputable def plainShop (X : Arr Int) (L : Nat) (model : Lom8) (init : Nat → List Nat → Int) (lam : ℝ) : Workshop :=
  let s := ((Workshop.empty.addMatrix X true).setVal 0 X).attach 0 X.shape L model.name init
  { s with m := { s.m with
    world := { s.m.world with lbda := upd s.m.world.lbda 0 (.scalar (.fin lam)) }
    lfixed := upd s.m.lfixed 0 true } }

theorem plainShop_built (X : Arr Int) (N D L : Nat) (hX : X.shape = [N, D]) (model : Lom8) (init : Nat → List Nat → Int)
    (hi : ∀ j idx, IsPM (init j idx)) (lam : ℝ) : Built (plainShop X L model init lam) := by
  have h1 : Built (Workshop.empty.addMatrix X true) := .act (.addMatrix X true) .empty trivial rfl
  have h2 : Built (((Workshop.empty.addMatrix X true).setVal 0 X).attach 0 X.shape L model.name init) := by
    refine .act (.addLayer (some 0) none L model.name init) h1 ⟨fun j idx => hi j idx, fun i hi => ?_, by simp⟩ ?_
    · cases hi
      have : ((Workshop.empty.addMatrix X true).m.world.mat 0).val.shape = [N, D] := hX
      exact ⟨Nat.zero_lt_one, by rw [this]; simp⟩
    · have hm : canonical_form model.name = .ok (model.name, false, false) := by cases model <;> decide
      rw [Workshop.step, Workshop.addLayer]
      have hc : canonise_model model.name (Option.map (fun i => ((Workshop.empty.addMatrix X true).m.world.mat i).val) (some 0)) =
          (some X, .ok (model.name, false, false)) := by
        rw [canonise_model, hm]
        rfl
      rw [hc]
      have hs : ¬ (model.name = "MAX-AND" ∨ model.name = "OR-AND-IBP" ∨ model.name = "qL-AND") := by cases model <;> decide
      simp only [if_neg hs]
      rfl
  exact .act (.setLbdaFixed 0 true) (.act (.setLbda 0 lam) h2 trivial rfl) trivial rfl

/-- C104: the hypotheses are met: for all data with two axes, all sizes, models, initial values and lambdas, these calls build
such a machine -/
theorem C104_plain_met (X : Arr Int) (N D L : Nat) (hX : X.shape = [N, D]) (hd : DataArr X) (hN : N ≤ 32767) (hD : D ≤ 32767)
    (model : Lom8) (init : Nat → List Nat → Int) (hi : ∀ j idx, IsPM (init j idx)) (lam : ℝ) :
    Built (plainShop X L model init lam) ∧ Proper (plainShop X L model init lam) ∧ FixedCall (plainShop X L model init lam) ∧
    PlainLayer (plainShop X L model init lam) ⟨[1, 2], model.name, none, false, false⟩ X N D L ∧
    (plainShop X L model init lam).m.world.lbda 0 = .scalar (.fin lam) ∧ freeMats (plainShop X L model init lam).m = [1, 2] := by
  have hb := plainShop_built X N D L hX model init hi lam
  obtain ⟨sh, f⟩ := X
  simp only at hX
  subst hX
  obtain ⟨s, hs⟩ : ∃ s, s = plainShop ⟨[N, D], f⟩ L model init lam := ⟨_, rfl⟩
  have hl : s.m.layers = [⟨[1, 2], model.name, none, false, false⟩] := by rw [hs]; rfl
  have hc : s.child 0 = 0 := by rw [hs]; rfl
  have hv : (s.m.world.mat 0).val = ⟨[N, D], f⟩ := by rw [hs]; rfl
  have hfct : ∀ i, s.m.fct i = none := by
    intro i
    rw [hs]
    show upd (upd (upd (fun _ => none) 0 none) 1 none) 2 none i = none
    simp [upd]
  have hpar : ∀ i, i = 1 ∨ i = 2 → s.parents i = [] := by
    rintro i (rfl | rfl) <;> rw [hs] <;> rfl
  have hlf : s.m.lfixed 0 = true := by rw [hs]; rfl
  have han : s.m.anneal = false := by rw [hs]; rfl
  have hfm : freeMats s.m = [1, 2] := by
    rw [hs]
    have hmem : members (plainShop ⟨[N, D], f⟩ L model init lam).m = [1, 2] ++ [0] ++ [] := by
      unfold members
      have hq : ¬ model.name = "qL-AND" := by cases model <;> decide
      show [1, 2] ++ [] ++ [0] ++ ((if model.name = "qL-AND" then [] else []) ++ []) = _
      rw [if_neg hq]
      rfl
    unfold freeMats
    rw [hmem]
    rfl
  have hlay : ∀ i, i = 1 ∨ i = 2 → s.m.layerOf i = some 0 := by
    rintro i (rfl | rfl) <;> rw [hs] <;> rfl
  have hlen : s.m.layers.length = 1 := by rw [hl]; rfl
  have hlayer : ∀ (k : Nat) (lr : LayerInfo), s.m.layers[k]? = some lr → k = 0 ∧ lr = ⟨[1, 2], model.name, none, false, false⟩ := by
    intro k lr hk
    rw [hl] at hk
    match k, hk with
    | 0, hk => cases hk; exact ⟨rfl, rfl⟩
  have hlb : s.m.world.lbda 0 = .scalar (.fin lam) := by rw [hs]; rfl
  have hpl : PlainLayer s ⟨[1, 2], model.name, none, false, false⟩ ⟨[N, D], f⟩ N D L := by
    refine ⟨hl, rfl, by rw [hc, hv], rfl, fun i hi => ?_, fun i hi => ?_, fun i hi => ?_⟩ <;>
      have : i = 1 ∨ i = 2 := by simpa using hi
    · rcases this with rfl | rfl <;> rw [hs] <;> rfl
    · rcases this with rfl | rfl <;> rw [hs] <;> rfl
    · rcases this with rfl | rfl <;> rw [hs] <;> exact ⟨rfl, fun idx => (by decide : (0 : Int) ≠ 1)⟩
  rw [← hs] at hb ⊢
  refine ⟨hb, ⟨?_, ?_, ?_, ?_, ?_⟩, ⟨?_, ?_, han, ?_, ?_⟩, hpl, hlb, hfm⟩
  · intro k lr hk
    obtain ⟨-, rfl⟩ := hlayer k lr hk
    exact .inl rfl
  · intro k lr i hk hi
    obtain ⟨rfl, rfl⟩ := hlayer k lr hk
    rw [hpar i (by simpa using hi)]
    simp
  · intro k hk _
    obtain rfl : k = 0 := by omega
    rw [hc, hv]
    exact hd
  · intro k hk N' D' he
    obtain rfl : k = 0 := by omega
    rw [hc, hv] at he
    cases he
    exact ⟨hN, hD⟩
  · intro k hk N' D' E' he
    obtain rfl : k = 0 := by omega
    rw [hc, hv] at he
    simp at he
  · intro k hk
    obtain rfl : k = 0 := by omega
    exact hlf
  · intro i hi
    rw [hfm] at hi
    rw [hlay i (by simpa using hi)]
    simp
  · intro lr hlr
    obtain ⟨k, hk⟩ := List.mem_iff_getElem?.1 hlr
    obtain ⟨-, rfl⟩ := hlayer k lr hk
    exact ⟨rfl, rfl⟩
  · intro i f hf
    rw [hfct i] at hf
    cases hf

/-- data with an odd number of observed cells in every row and column -/
theorem C104_odd_met : ∃ X : Arr Int, X.shape = [3, 3] ∧ DataArr X ∧ X [0, 0] = 1 ∧ X [0, 1] = -1 ∧
    (∀ n < 3, Odd (Finset.univ.filter fun d : Fin 3 => X [n, d] ≠ 0).card) ∧
    ∀ d < 3, Odd (Finset.univ.filter fun n : Fin 3 => X [n, d] ≠ 0).card := by
  refine ⟨⟨[3, 3], fun idx => if idx.getD 0 0 = idx.getD 1 0 then 1 else -1⟩, rfl, fun idx _ => ?_, rfl, rfl, ?_, ?_⟩
  · show IsData (if _ then 1 else -1)
    split
    · exact .inl rfl
    · exact .inr (.inl rfl)
  · decide
  · decide

/-- data all of whose row sums and column sums are 0 -/
theorem C104_balanced_met : ∃ X : Arr Int, X.shape = [2, 2] ∧ DataArr X ∧ X [0, 0] = 1 ∧
    (∀ n < 2, ∑ d : Fin 2, X [n, d] = 0) ∧ ∀ d < 2, ∑ n : Fin 2, X [n, d] = 0 := by
  refine ⟨⟨[2, 2], fun idx => if idx.getD 0 0 = idx.getD 1 0 then 1 else -1⟩, rfl, fun idx _ => ?_, rfl, ?_, ?_⟩
  · show IsData (if _ then 1 else -1)
    split
    · exact .inl rfl
    · exact .inr (.inl rfl)
  · decide
  · decide

end LFM
