import Verif.Props.OneMoreCell

/-!
# C143 for layers of three factors
-/

namespace LFM

open Spec MeasureTheory

namespace Spec.Hier

variable (h : Hier)

/-- the hierarchy with value `x` in cell `(n, d, e)` of data tensor `c` -/
def setCell3 (c n d e : Nat) (x : Int) : Hier where
  M := h.M
  rows := h.rows
  cols := h.cols
  layers := h.layers
  data := fun i => if i = c then (h.data i).set [n, d, e] x else h.data i
  prior := h.prior

/-- a state of a hierarchy as one of the hierarchy with other data -/
def toCell3 (c n d e : Nat) (x : Int) (s : h.State) : (h.setCell3 c n d e x).State := s

/-- posterior probability that layer `k` of the factors `k.z`, `k.u` and `v` predicts a 1 in cell `(n, d, e)` -/
noncomputable def predictive3 (free : h.Site → Prop) (s0 : h.State) (k : HLayer) (v n d e : Nat) : ℝ :=
  ∑ x, h.posteriorGiven free s0 x * if pred3 k.model (h.cols k.z) (h.val x k.z n) (h.val x k.u d) (h.val x v e) = 1 then 1 else 0

variable {h}

theorem val_setCell3_ne {c n d e : Nat} {x : Int} (s : h.State) {i : Nat} (hi : i ≠ c) :
    (h.setCell3 c n d e x).val (h.toCell3 c n d e x s) i = h.val s i := by
  unfold val
  by_cases hM : i < h.M
  · rw [dif_pos hM, dif_pos (show i < (h.setCell3 c n d e x).M from hM)]
    rfl
  · rw [dif_neg hM, dif_neg (show ¬ i < (h.setCell3 c n d e x).M from hM)]
    simp [setCell3, hi]

theorem val_setCell3_latent {c n d e : Nat} {x : Int} (s : h.State) {i : Nat} (hi : i < h.M) :
    (h.setCell3 c n d e x).val (h.toCell3 c n d e x s) i = h.val s i := by
  unfold val
  rw [dif_pos hi, dif_pos (show i < (h.setCell3 c n d e x).M from hi)]
  rfl

/-- a cell that is observed multiplies the probability of a state by the likelihood of the cell -/
theorem joint_setCell3 (H : h.Legal) {k : HLayer} (hk : k ∈ h.layers) {v : Nat} (hkv : k.v = some v)
    (honly : ∀ k' ∈ h.layers, k'.child = k.child → k' = k) {n d e : Nat} (hn : n < h.rows k.z) (hd : d < h.rows k.u) (he : e < h.rows v)
    (x : Int) (s : h.State) : (h.setCell3 k.child n d e x).joint (h.toCell3 k.child n d e x s) =
      cellLik k.lbda x (pred3 k.model (h.cols k.z) (h.val s k.z n) (h.val s k.u d) (h.val s v e)) *
        (h.setCell3 k.child n d e 0).joint (h.toCell3 k.child n d e 0 s) := by
  classical
  have hlat : ∀ k' ∈ h.layers, ∀ i ∈ k'.factors, ∀ x, (h.setCell3 k.child n d e x).val (h.toCell3 k.child n d e x s) i = h.val s i :=
    fun k' hk' i hi x => val_setCell3_latent s (H.latent k' hk' i hi)
  have hz := hlat k hk k.z (by simp [HLayer.factors])
  have hu := hlat k hk k.u (by simp [HLayer.factors])
  have hv' := hlat k hk v (by simp [HLayer.factors, hkv])
  have hother : ∀ k' ∈ h.layers, k' ≠ k → (h.setCell3 k.child n d e x).layerLik (h.toCell3 k.child n d e x s) k' =
      (h.setCell3 k.child n d e 0).layerLik (h.toCell3 k.child n d e 0 s) k' := by
    intro k' hk' hne
    have hc : k'.child ≠ k.child := fun hc => hne (honly k' hk' hc)
    unfold layerLik
    cases hv : k'.v with
    | none =>
      simp only
      rw [val_setCell3_ne s hc, val_setCell3_ne s hc, hlat k' hk' k'.z (by simp [HLayer.factors]), hlat k' hk' k'.u (by simp [HLayer.factors]),
        hlat k' hk' k'.z (by simp [HLayer.factors]), hlat k' hk' k'.u (by simp [HLayer.factors])]
      rfl
    | some w =>
      simp only
      rw [hlat k' hk' k'.z (by simp [HLayer.factors]), hlat k' hk' k'.u (by simp [HLayer.factors]),
        hlat k' hk' w (by simp [HLayer.factors, hv]), hlat k' hk' k'.z (by simp [HLayer.factors]),
        hlat k' hk' k'.u (by simp [HLayer.factors]), hlat k' hk' w (by simp [HLayer.factors, hv])]
      simp [setCell3, hc]
  have hown : (h.setCell3 k.child n d e x).layerLik (h.toCell3 k.child n d e x s) k =
      cellLik k.lbda x (pred3 k.model (h.cols k.z) (h.val s k.z n) (h.val s k.u d) (h.val s v e)) *
        (h.setCell3 k.child n d e 0).layerLik (h.toCell3 k.child n d e 0 s) k := by
    unfold layerLik
    simp only [hkv]
    rw [hz, hu, hv', hz, hu, hv']
    have e' : ∀ x, lik3 k.model ((h.setCell3 k.child n d e x).rows k.z) ((h.setCell3 k.child n d e x).rows k.u)
        ((h.setCell3 k.child n d e x).rows v) ((h.setCell3 k.child n d e x).cols k.z) k.lbda
        (fun n' d' e' => (h.setCell3 k.child n d e x).data k.child [n', d', e'])
        (h.val s k.z) (h.val s k.u) (h.val s v) = ∏ i : Fin (h.rows k.z) × Fin (h.rows k.u) × Fin (h.rows v),
          cellLik k.lbda (if (i.1 : Nat) = n ∧ (i.2.1 : Nat) = d ∧ (i.2.2 : Nat) = e then x else h.data k.child [i.1, i.2.1, i.2.2])
            (pred3 k.model (h.cols k.z) (h.val s k.z i.1) (h.val s k.u i.2.1) (h.val s v i.2.2)) := by
      intro x
      rw [lik3, Fintype.prod_prod_type]
      refine Finset.prod_congr rfl fun n' _ => ?_
      rw [Fintype.prod_prod_type]
      refine Finset.prod_congr rfl fun d' _ => Finset.prod_congr rfl fun e' _ => ?_
      congr 1
      simp only [setCell3, if_true, Arr.set]
      by_cases hc : (n' : Nat) = n ∧ (d' : Nat) = d ∧ (e' : Nat) = e
      · simp [hc]
      · rw [if_neg hc, if_neg (by simpa using hc)]
    rw [e', e', ← Finset.mul_prod_erase _ _ (Finset.mem_univ ((⟨n, hn⟩, ⟨d, hd⟩, ⟨e, he⟩) : Fin (h.rows k.z) × Fin (h.rows k.u) × Fin (h.rows v))),
      ← Finset.mul_prod_erase _ (fun i : Fin (h.rows k.z) × Fin (h.rows k.u) × Fin (h.rows v) =>
          cellLik k.lbda (if (i.1 : Nat) = n ∧ (i.2.1 : Nat) = d ∧ (i.2.2 : Nat) = e then 0 else h.data k.child [i.1, i.2.1, i.2.2])
            (pred3 k.model (h.cols k.z) (h.val s k.z i.1) (h.val s k.u i.2.1) (h.val s v i.2.2)))
        (Finset.mem_univ ((⟨n, hn⟩, ⟨d, hd⟩, ⟨e, he⟩) : Fin (h.rows k.z) × Fin (h.rows k.u) × Fin (h.rows v)))]
    simp only [and_self, if_true]
    have h0 : ∀ p, cellLik k.lbda 0 p = 1 := fun p => by simp [cellLik]
    rw [h0, one_mul]
    congr 1
    refine Finset.prod_congr rfl fun i hi => ?_
    have hne : ¬ ((i.1 : Nat) = n ∧ (i.2.1 : Nat) = d ∧ (i.2.2 : Nat) = e) := fun hc =>
      (Finset.mem_erase.1 hi).1 (Prod.ext (Fin.ext hc.1) (Prod.ext (Fin.ext hc.2.1) (Fin.ext hc.2.2)))
    rw [if_neg hne, if_neg hne]
  have hprior : ∀ x, (h.setCell3 k.child n d e x).joint (h.toCell3 k.child n d e x s) =
      (h.layers.map ((h.setCell3 k.child n d e x).layerLik (h.toCell3 k.child n d e x s))).prod *
        ∏ i : Fin h.M, priorProb (h.prior i) (h.rows i) (h.cols i) (Cfg.fac (s i)) := fun x => rfl
  rw [hprior, hprior, ← mul_assoc]
  congr 1
  have hnd : h.layers.Nodup := by
    have := H.nodup
    rw [List.nodup_flatMap] at this
    refine this.2.imp_of_mem ?_
    intro a b ha hb hab e
    subst e
    exact hab (a := a.z) (by simp [HLayer.factors]) (by simp [HLayer.factors])
  have key : ∀ ls : List HLayer, ls.Nodup → (∀ k' ∈ ls, k' ∈ h.layers) → k ∈ ls →
      (ls.map ((h.setCell3 k.child n d e x).layerLik (h.toCell3 k.child n d e x s))).prod =
      cellLik k.lbda x (pred3 k.model (h.cols k.z) (h.val s k.z n) (h.val s k.u d) (h.val s v e)) *
        (ls.map ((h.setCell3 k.child n d e 0).layerLik (h.toCell3 k.child n d e 0 s))).prod := by
    intro ls
    induction ls with
    | nil => intro _ _ hm; simp at hm
    | cons a ls ih =>
      intro hnd hsub hm
      simp only [List.map_cons, List.prod_cons]
      by_cases ha : a = k
      · subst ha
        rw [hown, mul_assoc]
        congr 2
        congr 1
        refine List.map_congr_left fun k' hk' => hother k' (hsub k' (by simp [hk'])) fun hc => ?_
        subst hc
        exact (List.nodup_cons.1 hnd).1 hk'
      · rw [hother a (hsub a (by simp)) ha, ih (List.nodup_cons.1 hnd).2 (fun k' hk' => hsub k' (by simp [hk']))
          (by rcases List.mem_cons.1 hm with h | h; exact absurd h.symm ha; exact h)]
        ring
  exact key h.layers hnd (fun _ h => h) hk

open Classical in
/-- joint probability of the states (with the given entries that are not free) in which the layer predicts 1, or does not -/
noncomputable def mass3 (h : Hier) (free : h.Site → Prop) (s0 : h.State) (k : HLayer) (v n d e : Nat) (w : Bool) : ℝ :=
  ∑ y with h.Agree free y s0, if decide (pred3 k.model (h.cols k.z) (h.val y k.z n) (h.val y k.u d) (h.val y v e) = 1) = w then h.joint y else 0

open Classical in
theorem mass3_total (h : Hier) (free : h.Site → Prop) (s0 : h.State) (k : HLayer) (v n d e : Nat) :
    h.mass3 free s0 k v n d e true + h.mass3 free s0 k v n d e false = ∑ y with h.Agree free y s0, h.joint y := by
  unfold mass3
  rw [← Finset.sum_add_distrib]
  refine Finset.sum_congr rfl fun y _ => ?_
  by_cases hp : pred3 k.model (h.cols k.z) (h.val y k.z n) (h.val y k.u d) (h.val y v e) = 1 <;> simp [hp]

theorem predictive3_mass (h : Hier) (free : h.Site → Prop) (s0 : h.State) (k : HLayer) (v n d e : Nat) :
    h.predictive3 free s0 k v n d e = h.mass3 free s0 k v n d e true / (h.mass3 free s0 k v n d e true + h.mass3 free s0 k v n d e false) := by
  classical
  rw [mass3_total]
  unfold predictive3 mass3 posteriorGiven
  generalize (∑ y with h.Agree free y s0, h.joint y) = Z
  rw [Finset.sum_div, Finset.sum_filter]
  refine Finset.sum_congr rfl fun y _ => ?_
  by_cases ha : h.Agree free y s0
  · by_cases hp : pred3 k.model (h.cols k.z) (h.val y k.z n) (h.val y k.u d) (h.val y v e) = 1 <;> simp [ha, hp]
  · simp [ha]

theorem mass3_pos (H : ∀ s, 0 < h.joint s) (free : h.Site → Prop) (s0 : h.State) (k : HLayer) (v n d e : Nat) :
    (∀ w, 0 ≤ h.mass3 free s0 k v n d e w) ∧ 0 < h.mass3 free s0 k v n d e true + h.mass3 free s0 k v n d e false := by
  classical
  refine ⟨fun w => Finset.sum_nonneg fun y _ => ?_, ?_⟩
  · split
    · exact (H y).le
    · exact le_rfl
  · rw [mass3_total]
    exact Finset.sum_pos (fun y _ => H y) ⟨s0, Finset.mem_filter.2 ⟨Finset.mem_univ _, fun _ _ => rfl⟩⟩

/-- changing a cell to a legal value keeps a hierarchy legal -/
theorem setCell3_legal (H : h.Legal) {k : HLayer}
    (honly : ∀ k' ∈ h.layers, k'.child = k.child → k' = k) {v : Nat} (hkv : k.v = some v) (n d e : Nat) {x : Int} (hx : IsData x) :
    (h.setCell3 k.child n d e x).Legal where
  prior := H.prior
  latent := H.latent
  child := H.child
  nodup := H.nodup
  owner := H.owner
  parents := H.parents
  rows2 := H.rows2
  sizes2 := H.sizes2
  data2 := by
    intro k' hk' hv hM
    have hc : k'.child ≠ k.child := fun hc => by
      rw [honly k' hk' hc, hkv] at hv
      cases hv
    simp only [setCell3, hc, if_false]
    exact H.data2 k' hk' hv hM
  rows3 := H.rows3
  sizes3 := H.sizes3
  data3 := by
    intro k' hk' w hw
    obtain ⟨d0, d1, d2⟩ := H.data3 k' hk' w hw
    refine ⟨d0, ?_⟩
    by_cases hc : k'.child = k.child
    · simp only [setCell3, hc, if_true]
      rw [hc] at d1 d2
      refine ⟨d1, fun idx hidx => ?_⟩
      simp only [Arr.set]
      split
      · exact hx
      · exact d2 idx hidx
    · simp only [setCell3, hc, if_false]
      exact ⟨d1, d2⟩
  parents3 := H.parents3

end Spec.Hier

theorem mass3_setCell3 {h : Hier} (H : h.Legal) {k : HLayer} (hk : k ∈ h.layers) {v : Nat} (hkv : k.v = some v)
    (honly : ∀ k' ∈ h.layers, k'.child = k.child → k' = k) {n d e : Nat} (hn : n < h.rows k.z) (hd : d < h.rows k.u) (he : e < h.rows v)
    (free : h.Site → Prop) (s0 : h.State) {x : Int} (hx : IsPM x) (w : Bool) :
    (h.setCell3 k.child n d e x).mass3 free (h.toCell3 k.child n d e x s0) k v n d e w =
      sigmoid (k.lbda * x * sgn w) * (h.setCell3 k.child n d e 0).mass3 free (h.toCell3 k.child n d e 0 s0) k v n d e w := by
  classical
  have hx0 : x ≠ 0 := by rcases hx with h | h <;> rw [h] <;> norm_num
  have hlat : ∀ i ∈ k.factors, ∀ (x : Int) (s : h.State), (h.setCell3 k.child n d e x).val (h.toCell3 k.child n d e x s) i = h.val s i :=
    fun i hi x s => Spec.Hier.val_setCell3_latent s (H.latent k hk i hi)
  have e' : ∀ x, (h.setCell3 k.child n d e x).mass3 free (h.toCell3 k.child n d e x s0) k v n d e w =
      ∑ y : h.State with h.Agree free y s0,
        if decide (pred3 k.model (h.cols k.z) (h.val y k.z n) (h.val y k.u d) (h.val y v e) = 1) = w then
          (h.setCell3 k.child n d e x).joint (h.toCell3 k.child n d e x y) else 0 := by
    intro x
    have hz := hlat k.z (by simp [HLayer.factors]) x
    have hu := hlat k.u (by simp [HLayer.factors]) x
    have hv := hlat v (by simp [HLayer.factors, hkv]) x
    show ∑ y : h.State with h.Agree free y s0, (if decide (pred3 k.model (h.cols k.z)
      ((h.setCell3 k.child n d e x).val (h.toCell3 k.child n d e x y) k.z n)
      ((h.setCell3 k.child n d e x).val (h.toCell3 k.child n d e x y) k.u d)
      ((h.setCell3 k.child n d e x).val (h.toCell3 k.child n d e x y) v e) = 1) = w then
        (h.setCell3 k.child n d e x).joint (h.toCell3 k.child n d e x y) else 0) = _
    simp only [hz, hu, hv]
  rw [e', e', Finset.mul_sum]
  refine Finset.sum_congr rfl fun y _ => ?_
  rw [Spec.Hier.joint_setCell3 H hk hkv honly hn hd he x y]
  have hp := isPM_pred3 k.model (h.cols k.z) (h.val y k.z n) (h.val y k.u d) (h.val y v e)
  split
  · rename_i hv
    congr 1
    unfold cellLik
    rw [if_neg hx0]
    congr 2
    subst hv
    rcases hp with h | h <;> rw [h] <;> simp [sgn]
  · rw [mul_zero]

/-- **C143**, layers of three factors: the odds that the layer predicts 1 in a cell are multiplied by `exp (λ x)` if `x` is observed -/
theorem C143_odds_three {h : Hier} (H : h.Legal) {k : HLayer} (hk : k ∈ h.layers) {v : Nat} (hkv : k.v = some v)
    (honly : ∀ k' ∈ h.layers, k'.child = k.child → k' = k) {n d e : Nat} (hn : n < h.rows k.z) (hd : d < h.rows k.u) (he : e < h.rows v)
    (free : h.Site → Prop) (s0 : h.State) {x : Int} (hx : IsPM x) (P : ℝ)
    (hP : P = (h.setCell3 k.child n d e 0).predictive3 free (h.toCell3 k.child n d e 0 s0) k v n d e) :
    (h.setCell3 k.child n d e x).predictive3 free (h.toCell3 k.child n d e x s0) k v n d e =
      Real.exp (k.lbda * x) * P / (Real.exp (k.lbda * x) * P + (1 - P)) := by
  have H0 : (h.setCell3 k.child n d e 0).Legal := Spec.Hier.setCell3_legal H honly hkv n d e (.inr (.inr rfl))
  obtain ⟨hnn, hpos⟩ := Spec.Hier.mass3_pos (Spec.Hier.joint_pos H0) free (h.toCell3 k.child n d e 0 s0) k v n d e
  have p1 := Spec.Hier.predictive3_mass (h.setCell3 k.child n d e x) free (h.toCell3 k.child n d e x s0) k v n d e
  have p0 := Spec.Hier.predictive3_mass (h.setCell3 k.child n d e 0) free (h.toCell3 k.child n d e 0 s0) k v n d e
  have m1 := mass3_setCell3 H hk hkv honly hn hd he free s0 hx true
  have m0 := mass3_setCell3 H hk hkv honly hn hd he free s0 hx false
  rw [hP, p1, p0, m1, m0]
  clear p1 p0 m1 m0
  have ha := hnn true
  have hb := hnn false
  generalize (h.setCell3 k.child n d e 0).mass3 free (h.toCell3 k.child n d e 0 s0) k v n d e true = a at *
  generalize (h.setCell3 k.child n d e 0).mass3 free (h.toCell3 k.child n d e 0 s0) k v n d e false = b at *
  have e1 : k.lbda * x * ((sgn true : Int) : ℝ) = k.lbda * x := by simp [sgn]
  have e2 : k.lbda * x * ((sgn false : Int) : ℝ) = -(k.lbda * x) := by simp [sgn]
  rw [e1, e2, sigmoid_neg_eq]
  have hs : 0 < sigmoid (k.lbda * x) := by unfold sigmoid; positivity
  have hE := Real.exp_pos (k.lbda * x)
  have hE' : Real.exp (-(k.lbda * x)) = (Real.exp (k.lbda * x))⁻¹ := Real.exp_neg _
  rw [hE']
  generalize Real.exp (k.lbda * x) = E at *
  generalize sigmoid (k.lbda * x) = σ at *
  have h1 : 0 < E * a + b := by
    rcases ha.lt_or_eq with h | h
    · have := mul_pos hE h
      linarith
    · rw [← h] at hpos ⊢
      linarith
  have h2 : E * (a / (a + b)) + (1 - a / (a + b)) = (E * a + b) / (a + b) := by
    field_simp
    ring
  have h3 : σ * a + E⁻¹ * σ * b = σ * (E * a + b) / E := by
    field_simp
  rw [h2, h3]
  field_simp

open Classical in
/-- **C143**, layers of three factors: the share of the samples of a run that predict 1 in the observed cell -/
theorem C143_samples_three {h : Hier} (H : h.Legal) {k : HLayer} (hk : k ∈ h.layers) {v : Nat} (hkv : k.v = some v)
    (honly : ∀ k' ∈ h.layers, k'.child = k.child → k' = k) {n d e : Nat} (hn : n < h.rows k.z) (hd : d < h.rows k.u) (he : e < h.rows v)
    (free : h.Site → Prop) (s0 : h.State) {x : Int} (hx : IsPM x)
    (hl : (h.setCell3 k.child n d e x).Linking free (h.toCell3 k.child n d e x s0))
    {wr : Wiring} (hw : (h.setCell3 k.child n d e x).Wired wr) {m : Mach Sampler LbdaUpdate}
    (hm : (h.setCell3 k.child n d e x).FixedLbdas wr m)
    (fe : Nat → Arr Int) (hfe : ∀ q, free q ↔ (h.setCell3 k.child n d e x).Sampled m fe q) : ∃ C : ℝ,
      ∀ (S cw bmin : Nat) (eps : ℝ) (bmax : Int) (ps fx : Nat), 1 ≤ cw → 1 ≤ ps → 1 ≤ S →
      ∀ T, m.clock + bmin + bmax.toNat + S ≤ T → ∀ s : h.State, h.Agree free s s0 →
      ∃ f, (h.setCell3 k.child n d e x).IsAverage wr m fe S cw eps bmin bmax ps fx T (h.toCell3 k.child n d e x s)
          (fun y => if pred3 k.model (h.cols k.z) ((h.setCell3 k.child n d e x).val y k.z n) ((h.setCell3 k.child n d e x).val y k.u d)
            ((h.setCell3 k.child n d e x).val y v e) = 1 then 1 else 0) f ∧
        ∀ δ : ℝ, 0 < δ → ∀ P, P = (h.setCell3 k.child n d e 0).predictive3 free (h.toCell3 k.child n d e 0 s0) k v n d e →
          (h.setCell3 k.child n d e x).prob (freeMats m) T
            (fun σ ω => δ ≤ |f σ ω - Real.exp (k.lbda * x) * P / (Real.exp (k.lbda * x) * P + (1 - P))|) ≤
          ENNReal.ofReal (C / (S * δ ^ 2)) := by
  have Hx : (h.setCell3 k.child n d e x).Legal := Spec.Hier.setCell3_legal H honly hkv n d e
    (by rcases hx with h | h; exact .inl h; exact .inr (.inl h))
  obtain ⟨C, hC⟩ := C80_linked_partial Hx free (h.toCell3 k.child n d e x s0) hl hw hm fe hfe
  refine ⟨C, ?_⟩
  intro S cw bmin eps bmax ps fx hcw hps hS T hT s hs
  obtain ⟨f, h1, h2, h3⟩ := hC S cw bmin eps bmax ps fx hcw hps hS T hT (h.toCell3 k.child n d e x s) hs
    (fun y => if pred3 k.model (h.cols k.z) ((h.setCell3 k.child n d e x).val y k.z n) ((h.setCell3 k.child n d e x).val y k.u d)
      ((h.setCell3 k.child n d e x).val y v e) = 1 then 1 else 0) (fun y => by split <;> simp)
  refine ⟨f, h1, fun δ hδ P hP => ?_⟩
  rw [← C143_odds_three H hk hkv honly hn hd he free s0 hx P hP]
  refine (Spec.Hier.prob_le_expectation hδ h2).trans (ENNReal.ofReal_le_ofReal ?_)
  rw [← div_div]
  exact div_le_div_of_nonneg_right h3 (by positivity)

/-- without indifferent entries all configurations are linked -/
theorem linking_of_noTies {h : Hier} (hties : h.NoTies) (free : h.Site → Prop) (s0 : h.State) : h.Linking free s0 :=
  Spec.Hier.linking_of_mixing (Spec.Hier.mixing_of_matters fun s q hq =>
    ⟨hq, ∅, Finset.notMem_empty _, _, .inl rfl, hties (Spec.Hier.midway free ∅ q s) q.1 q.2⟩)

/-- the hypotheses are met by the NAND-XOR layer of three factors of the machine of `C76_example`, whose cell `(2, 1, 0)` is changed, for
both values, with a machine that reaches all states -/
theorem C143_three_hypotheses_met (x : Int) (hx : IsPM x) :
    ∃ h : Hier, h.Legal ∧ ∃ k ∈ h.layers, k.model = .NAND_XOR ∧ ∃ v, k.v = some v ∧ (∀ k' ∈ h.layers, k'.child = k.child → k' = k) ∧
      2 < h.rows k.z ∧ 1 < h.rows k.u ∧ 0 < h.rows v ∧ (h.setCell3 k.child 2 1 0 x).data k.child [2, 1, 0] = x ∧
      (∀ s0, (h.setCell3 k.child 2 1 0 x).Linking (fun _ => True) s0) ∧
      ∃ wr : Wiring, (h.setCell3 k.child 2 1 0 x).Wired wr ∧ ∃ mach : Mach Sampler LbdaUpdate,
        (h.setCell3 k.child 2 1 0 x).FixedLbdas wr mach ∧ ∀ q, (h.setCell3 k.child 2 1 0 x).Sampled mach (fun _ => Arr.full [] 0) q := by
  have hl : ∀ k ∈ towerHier.layers, k = ⟨.OR_AND, 0, 1, 7, 1, none⟩ ∨ k = ⟨.XOR_AND, 2, 3, 0, 2, none⟩ ∨
      k = ⟨.NAND_XOR, 4, 5, 8, 3, some 6⟩ := by
    intro k hk
    simpa [towerHier] using hk
  have honly : ∀ k' ∈ towerHier.layers, k'.child = 8 → k' = ⟨.NAND_XOR, 4, 5, 8, 3, some 6⟩ := by
    intro k' hk' hc
    rcases hl k' hk' with rfl | rfl | rfl
    · simp at hc
    · simp at hc
    · rfl
  have Hx : (towerHier.setCell3 8 2 1 0 x).Legal :=
    Spec.Hier.setCell3_legal C76_example.1 (k := ⟨.NAND_XOR, 4, 5, 8, 3, some 6⟩) honly rfl 2 1 0
      (by rcases hx with h | h; exact .inl h; exact .inr (.inl h))
  obtain ⟨w1, w2, w3⟩ := C79_odd_hypotheses_met.2.2.2.2.2.2 _ Hx (fun _ l => l) (fun _ _ => true)
  refine ⟨towerHier, C76_example.1, ⟨.NAND_XOR, 4, 5, 8, 3, some 6⟩, by simp [towerHier], rfl, 6, rfl, honly, by simp [towerHier],
    by simp [towerHier], by simp [towerHier], by simp [Spec.Hier.setCell3, Arr.set], fun s0 => linking_of_noTies ?_ _ s0, _, w1, _, w2, w3⟩
  refine C79_noTies Hx 1 ?_ ?_
  · intro k hk
    rcases hl k hk with rfl | rfl | rfl
    · exact ⟨1, by norm_num⟩
    · exact ⟨2, by norm_num⟩
    · exact ⟨3, by norm_num⟩
  · intro i _ z hz
    have e1 : logit (towerHier.prior i) = -Real.log 2 := by
      unfold logit towerHier
      rw [← Real.log_inv]
      norm_num
    change logit (towerHier.prior i) = _ at hz
    rw [e1] at hz
    have g1 := Real.log_two_gt_d9
    have g2 := Real.log_two_lt_d9
    have l1 : (-2 : ℝ) < z := by linarith
    have l2 : (z : ℝ) < -1 := by linarith
    have l1' : (-2 : ℤ) < z := by exact_mod_cast l1
    have l2' : z < (-1 : ℤ) := by exact_mod_cast l2
    omega

end LFM
