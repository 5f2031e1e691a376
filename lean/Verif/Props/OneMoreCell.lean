import Verif.Props.LargeStrength

/-!
# C143: what observing one more cell does
-/

namespace LFM

open Spec MeasureTheory

namespace Spec.Hier

variable (h : Hier)

/-- the hierarchy with value `x` in cell `(n, d)` of data matrix `c` -/
def setCell (c n d : Nat) (x : Int) : Hier where
  M := h.M
  rows := h.rows
  cols := h.cols
  layers := h.layers
  data := fun i => if i = c then (h.data i).set [n, d] x else h.data i
  prior := h.prior

/-- a state of a hierarchy as one of the hierarchy with other data -/
def toCell (c n d : Nat) (x : Int) (s : h.State) : (h.setCell c n d x).State := s

variable {h}

theorem val_setCell_ne {c n d : Nat} {x : Int} (s : h.State) {i : Nat} (hi : i ≠ c) :
    (h.setCell c n d x).val (h.toCell c n d x s) i = h.val s i := by
  unfold val
  by_cases hM : i < h.M
  · rw [dif_pos hM, dif_pos (show i < (h.setCell c n d x).M from hM)]
    rfl
  · rw [dif_neg hM, dif_neg (show ¬ i < (h.setCell c n d x).M from hM)]
    simp [setCell, hi]

theorem val_setCell_latent {c n d : Nat} {x : Int} (s : h.State) {i : Nat} (hi : i < h.M) :
    (h.setCell c n d x).val (h.toCell c n d x s) i = h.val s i := by
  unfold val
  rw [dif_pos hi, dif_pos (show i < (h.setCell c n d x).M from hi)]
  rfl

/-- a cell that is observed multiplies the probability of a state by the likelihood of the cell -/
theorem joint_setCell (H : h.Legal) {k : HLayer} (hk : k ∈ h.layers) (hkv : k.v = none) (hobs : h.M ≤ k.child)
    (honly : ∀ k' ∈ h.layers, k'.child = k.child → k' = k) {n d : Nat} (hn : n < h.rows k.child) (hd : d < h.cols k.child)
    (x : Int) (s : h.State) : (h.setCell k.child n d x).joint (h.toCell k.child n d x s) =
      cellLik k.lbda x (pred2 k.model (h.cols k.z) (h.val s k.z n) (h.val s k.u d)) *
        (h.setCell k.child n d 0).joint (h.toCell k.child n d 0 s) := by
  classical
  have hlat : ∀ k' ∈ h.layers, ∀ i ∈ k'.factors, ∀ x, (h.setCell k.child n d x).val (h.toCell k.child n d x s) i = h.val s i :=
    fun k' hk' i hi x => val_setCell_latent s (H.latent k' hk' i hi)
  have hz := hlat k hk k.z (by simp [HLayer.factors])
  have hu := hlat k hk k.u (by simp [HLayer.factors])
  have hchild : ∀ x n' d', (h.setCell k.child n d x).val (h.toCell k.child n d x s) k.child n' d' =
      if n' = n ∧ d' = d then x else h.data k.child [n', d'] := by
    intro x n' d'
    unfold val
    rw [dif_neg (show ¬ k.child < (h.setCell k.child n d x).M from not_lt.2 hobs)]
    simp only [setCell, if_true, Arr.set]
    by_cases hc : n' = n ∧ d' = d
    · simp [hc]
    · rw [if_neg hc, if_neg (by simpa using hc)]
  have hother : ∀ k' ∈ h.layers, k' ≠ k → (h.setCell k.child n d x).layerLik (h.toCell k.child n d x s) k' =
      (h.setCell k.child n d 0).layerLik (h.toCell k.child n d 0 s) k' := by
    intro k' hk' hne
    have hc : k'.child ≠ k.child := fun hc => hne (honly k' hk' hc)
    unfold layerLik
    cases hv : k'.v with
    | none =>
      simp only
      rw [val_setCell_ne s hc, val_setCell_ne s hc, hlat k' hk' k'.z (by simp [HLayer.factors]), hlat k' hk' k'.u (by simp [HLayer.factors]),
        hlat k' hk' k'.z (by simp [HLayer.factors]), hlat k' hk' k'.u (by simp [HLayer.factors])]
      rfl
    | some v =>
      simp only
      rw [hlat k' hk' k'.z (by simp [HLayer.factors]), hlat k' hk' k'.u (by simp [HLayer.factors]),
        hlat k' hk' v (by simp [HLayer.factors, hv]), hlat k' hk' k'.z (by simp [HLayer.factors]),
        hlat k' hk' k'.u (by simp [HLayer.factors]), hlat k' hk' v (by simp [HLayer.factors, hv])]
      simp [setCell, hc]
  have hown : (h.setCell k.child n d x).layerLik (h.toCell k.child n d x s) k =
      cellLik k.lbda x (pred2 k.model (h.cols k.z) (h.val s k.z n) (h.val s k.u d)) *
        (h.setCell k.child n d 0).layerLik (h.toCell k.child n d 0 s) k := by
    unfold layerLik
    simp only [hkv]
    rw [hz, hu, hz, hu]
    have e : ∀ x, lik2 k.model ((h.setCell k.child n d x).rows k.child) ((h.setCell k.child n d x).cols k.child)
        ((h.setCell k.child n d x).cols k.z) k.lbda ((h.setCell k.child n d x).val (h.toCell k.child n d x s) k.child)
        (h.val s k.z) (h.val s k.u) = ∏ i : Fin (h.rows k.child) × Fin (h.cols k.child),
          cellLik k.lbda (if (i.1 : Nat) = n ∧ (i.2 : Nat) = d then x else h.data k.child [i.1, i.2])
            (pred2 k.model (h.cols k.z) (h.val s k.z i.1) (h.val s k.u i.2)) := by
      intro x
      rw [lik2, Fintype.prod_prod_type]
      refine Finset.prod_congr rfl fun n' _ => Finset.prod_congr rfl fun d' _ => ?_
      rw [hchild]
      rfl
    rw [e, e, ← Finset.mul_prod_erase _ _ (Finset.mem_univ ((⟨n, hn⟩, ⟨d, hd⟩) : Fin (h.rows k.child) × Fin (h.cols k.child))),
      ← Finset.mul_prod_erase _ (fun i : Fin (h.rows k.child) × Fin (h.cols k.child) =>
          cellLik k.lbda (if (i.1 : Nat) = n ∧ (i.2 : Nat) = d then 0 else h.data k.child [i.1, i.2])
            (pred2 k.model (h.cols k.z) (h.val s k.z i.1) (h.val s k.u i.2)))
        (Finset.mem_univ ((⟨n, hn⟩, ⟨d, hd⟩) : Fin (h.rows k.child) × Fin (h.cols k.child)))]
    simp only [and_self, if_true]
    have h0 : ∀ p, cellLik k.lbda 0 p = 1 := fun p => by simp [cellLik]
    rw [h0, one_mul]
    congr 1
    refine Finset.prod_congr rfl fun i hi => ?_
    have hne : ¬ ((i.1 : Nat) = n ∧ (i.2 : Nat) = d) := fun hc =>
      (Finset.mem_erase.1 hi).1 (Prod.ext (Fin.ext hc.1) (Fin.ext hc.2))
    rw [if_neg hne, if_neg hne]
  have hprior : ∀ x, (h.setCell k.child n d x).joint (h.toCell k.child n d x s) =
      (h.layers.map ((h.setCell k.child n d x).layerLik (h.toCell k.child n d x s))).prod *
        ∏ i : Fin h.M, priorProb (h.prior i) (h.rows i) (h.cols i) (Cfg.fac (s i)) := fun x => rfl
  rw [hprior, hprior, ← mul_assoc]
  congr 1
  have hnd : h.layers.Nodup := by
    have := H.nodup
    rw [List.nodup_flatMap] at this
    refine this.2.imp_of_mem ?_
    intro a b ha hb hab e
    subst e
    exact hab (a := a.z) (by simp [HLayer.factors]) (by simp [HLayer.factors])
  have key : ∀ ls : List HLayer, ls.Nodup → (∀ k' ∈ ls, k' ∈ h.layers) → k ∈ ls →
      (ls.map ((h.setCell k.child n d x).layerLik (h.toCell k.child n d x s))).prod =
      cellLik k.lbda x (pred2 k.model (h.cols k.z) (h.val s k.z n) (h.val s k.u d)) *
        (ls.map ((h.setCell k.child n d 0).layerLik (h.toCell k.child n d 0 s))).prod := by
    intro ls
    induction ls with
    | nil => intro _ _ hm; simp at hm
    | cons a ls ih =>
      intro hnd hsub hm
      simp only [List.map_cons, List.prod_cons]
      by_cases ha : a = k
      · subst ha
        rw [hown, mul_assoc]
        congr 2
        congr 1
        refine List.map_congr_left fun k' hk' => hother k' (hsub k' (by simp [hk'])) fun hc => ?_
        subst hc
        exact (List.nodup_cons.1 hnd).1 hk'
      · rw [hother a (hsub a (by simp)) ha, ih (List.nodup_cons.1 hnd).2 (fun k' hk' => hsub k' (by simp [hk']))
          (by rcases List.mem_cons.1 hm with h | h; exact absurd h.symm ha; exact h)]
        ring
  exact key h.layers hnd (fun _ h => h) hk

open Classical in
/-- joint probability of the states (with the given entries that are not free) in which the layer predicts 1, or does not -/
noncomputable def mass (h : Hier) (free : h.Site → Prop) (s0 : h.State) (k : HLayer) (n d : Nat) (v : Bool) : ℝ :=
  ∑ y with h.Agree free y s0, if decide (pred2 k.model (h.cols k.z) (h.val y k.z n) (h.val y k.u d) = 1) = v then h.joint y else 0

open Classical in
theorem mass_total (h : Hier) (free : h.Site → Prop) (s0 : h.State) (k : HLayer) (n d : Nat) :
    h.mass free s0 k n d true + h.mass free s0 k n d false = ∑ y with h.Agree free y s0, h.joint y := by
  unfold mass
  rw [← Finset.sum_add_distrib]
  refine Finset.sum_congr rfl fun y _ => ?_
  by_cases hp : pred2 k.model (h.cols k.z) (h.val y k.z n) (h.val y k.u d) = 1 <;> simp [hp]

theorem predictive_mass (h : Hier) (free : h.Site → Prop) (s0 : h.State) (k : HLayer) (n d : Nat) :
    h.predictive free s0 k n d = h.mass free s0 k n d true / (h.mass free s0 k n d true + h.mass free s0 k n d false) := by
  classical
  rw [mass_total]
  unfold predictive mass posteriorGiven
  generalize (∑ y with h.Agree free y s0, h.joint y) = Z
  rw [Finset.sum_div, Finset.sum_filter]
  refine Finset.sum_congr rfl fun y _ => ?_
  by_cases ha : h.Agree free y s0
  · by_cases hp : pred2 k.model (h.cols k.z) (h.val y k.z n) (h.val y k.u d) = 1 <;> simp [ha, hp]
  · simp [ha]

theorem mass_pos (H : h.Legal) (free : h.Site → Prop) (s0 : h.State) (k : HLayer) (n d : Nat) :
    (∀ v, 0 ≤ h.mass free s0 k n d v) ∧ 0 < h.mass free s0 k n d true + h.mass free s0 k n d false := by
  classical
  have hnn : ∀ v, 0 ≤ h.mass free s0 k n d v := fun v => Finset.sum_nonneg fun y _ => by
    split
    · exact (joint_pos H y).le
    · exact le_rfl
  refine ⟨hnn, ?_⟩
  unfold mass
  rw [← Finset.sum_add_distrib]
  refine Finset.sum_pos (fun y _ => ?_) ⟨s0, Finset.mem_filter.2 ⟨Finset.mem_univ _, fun _ _ => rfl⟩⟩
  have := joint_pos H y
  by_cases hp : pred2 k.model (h.cols k.z) (h.val y k.z n) (h.val y k.u d) = 1 <;> simp [hp, this]

/-- changing a cell to a legal value keeps a hierarchy legal -/
theorem setCell_legal (H : h.Legal) {k : HLayer}
    (honly : ∀ k' ∈ h.layers, k'.child = k.child → k' = k) (hkv : k.v = none) (n d : Nat) {x : Int} (hx : IsData x) :
    (h.setCell k.child n d x).Legal where
  prior := H.prior
  latent := H.latent
  child := H.child
  nodup := H.nodup
  owner := H.owner
  parents := H.parents
  rows2 := H.rows2
  sizes2 := H.sizes2
  data2 := by
    intro k' hk' hv hM
    obtain ⟨d1, d2⟩ := H.data2 k' hk' hv hM
    by_cases hc : k'.child = k.child
    · simp only [setCell, hc, if_true]
      rw [hc] at d1 d2
      refine ⟨d1, fun idx hidx => ?_⟩
      simp only [Arr.set]
      split
      · exact hx
      · exact d2 idx hidx
    · simp only [setCell, hc, if_false]
      exact ⟨d1, d2⟩
  rows3 := H.rows3
  sizes3 := H.sizes3
  data3 := by
    intro k' hk' v hv
    obtain ⟨d0, d1, d2⟩ := H.data3 k' hk' v hv
    have hc : k'.child ≠ k.child := fun hc => by
      rw [honly k' hk' hc, hkv] at hv
      cases hv
    simp only [setCell, hc, if_false]
    exact ⟨d0, d1, d2⟩
  parents3 := H.parents3

end Spec.Hier

theorem mass_setCell {h : Hier} (H : h.Legal) {k : HLayer} (hk : k ∈ h.layers) (hkv : k.v = none) (hobs : h.M ≤ k.child)
    (honly : ∀ k' ∈ h.layers, k'.child = k.child → k' = k) {n d : Nat} (hn : n < h.rows k.child) (hd : d < h.cols k.child)
    (free : h.Site → Prop) (s0 : h.State) {x : Int} (hx : IsPM x) (v : Bool) :
    (h.setCell k.child n d x).mass free (h.toCell k.child n d x s0) k n d v =
      sigmoid (k.lbda * x * sgn v) * (h.setCell k.child n d 0).mass free (h.toCell k.child n d 0 s0) k n d v := by
  classical
  have hx0 : x ≠ 0 := by rcases hx with h | h <;> rw [h] <;> norm_num
  have hlat : ∀ i ∈ k.factors, ∀ (x : Int) (s : h.State), (h.setCell k.child n d x).val (h.toCell k.child n d x s) i = h.val s i :=
    fun i hi x s => Spec.Hier.val_setCell_latent s (H.latent k hk i hi)
  have e : ∀ x, (h.setCell k.child n d x).mass free (h.toCell k.child n d x s0) k n d v =
      ∑ y : h.State with h.Agree free y s0, if decide (pred2 k.model (h.cols k.z) (h.val y k.z n) (h.val y k.u d) = 1) = v then
        (h.setCell k.child n d x).joint (h.toCell k.child n d x y) else 0 := by
    intro x
    have hz := hlat k.z (by simp [HLayer.factors]) x
    have hu := hlat k.u (by simp [HLayer.factors]) x
    show ∑ y : h.State with h.Agree free y s0, (if decide (pred2 k.model (h.cols k.z)
      ((h.setCell k.child n d x).val (h.toCell k.child n d x y) k.z n)
      ((h.setCell k.child n d x).val (h.toCell k.child n d x y) k.u d) = 1) = v then
        (h.setCell k.child n d x).joint (h.toCell k.child n d x y) else 0) = _
    simp only [hz, hu]
  rw [e, e, Finset.mul_sum]
  refine Finset.sum_congr rfl fun y _ => ?_
  rw [Spec.Hier.joint_setCell H hk hkv hobs honly hn hd x y]
  have hp := isPM_pred2 k.model (h.cols k.z) (h.val y k.z n) (h.val y k.u d)
  split
  · rename_i hv
    congr 1
    unfold cellLik
    rw [if_neg hx0]
    congr 2
    subst hv
    rcases hp with h | h <;> rw [h] <;> simp [sgn]
  · rw [mul_zero]

/-- **C143**: what is observed in a cell multiplies the odds that the layer predicts 1 in that cell by `exp (λ x)`: compared with the
same data without the cell, by `exp λ` if it is a 1 and by `exp (-λ)` if it is a 0 -/
theorem C143_odds {h : Hier} (H : h.Legal) {k : HLayer} (hk : k ∈ h.layers) (hkv : k.v = none) (hobs : h.M ≤ k.child)
    (honly : ∀ k' ∈ h.layers, k'.child = k.child → k' = k) {n d : Nat} (hn : n < h.rows k.child) (hd : d < h.cols k.child)
    (free : h.Site → Prop) (s0 : h.State) {x : Int} (hx : IsPM x) :
    (h.setCell k.child n d x).predictive free (h.toCell k.child n d x s0) k n d =
      Real.exp (k.lbda * x) * (h.setCell k.child n d 0).predictive free (h.toCell k.child n d 0 s0) k n d /
        (Real.exp (k.lbda * x) * (h.setCell k.child n d 0).predictive free (h.toCell k.child n d 0 s0) k n d +
          (1 - (h.setCell k.child n d 0).predictive free (h.toCell k.child n d 0 s0) k n d)) := by
  have H0 : (h.setCell k.child n d 0).Legal := Spec.Hier.setCell_legal H honly hkv n d (.inr (.inr rfl))
  obtain ⟨hnn, hpos⟩ := Spec.Hier.mass_pos H0 free (h.toCell k.child n d 0 s0) k n d
  have p1 := Spec.Hier.predictive_mass (h.setCell k.child n d x) free (h.toCell k.child n d x s0) k n d
  have p0 := Spec.Hier.predictive_mass (h.setCell k.child n d 0) free (h.toCell k.child n d 0 s0) k n d
  have m1 := mass_setCell H hk hkv hobs honly hn hd free s0 hx true
  have m0 := mass_setCell H hk hkv hobs honly hn hd free s0 hx false
  rw [p1, p0, m1, m0]
  clear p1 p0 m1 m0
  have ha := hnn true
  have hb := hnn false
  generalize (h.setCell k.child n d 0).mass free (h.toCell k.child n d 0 s0) k n d true = a at *
  generalize (h.setCell k.child n d 0).mass free (h.toCell k.child n d 0 s0) k n d false = b at *
  have e1 : k.lbda * x * ((sgn true : Int) : ℝ) = k.lbda * x := by simp [sgn]
  have e2 : k.lbda * x * ((sgn false : Int) : ℝ) = -(k.lbda * x) := by simp [sgn]
  rw [e1, e2, sigmoid_neg_eq]
  have hs : 0 < sigmoid (k.lbda * x) := by unfold sigmoid; positivity
  have hE := Real.exp_pos (k.lbda * x)
  have hE' : Real.exp (-(k.lbda * x)) = (Real.exp (k.lbda * x))⁻¹ := Real.exp_neg _
  rw [hE']
  generalize Real.exp (k.lbda * x) = E at *
  generalize sigmoid (k.lbda * x) = σ at *
  have h1 : 0 < E * a + b := by
    rcases ha.lt_or_eq with h | h
    · have := mul_pos hE h
      linarith
    · rw [← h] at hpos ⊢
      linarith
  have h2 : E * (a / (a + b)) + (1 - a / (a + b)) = (E * a + b) / (a + b) := by
    field_simp
    ring
  have h3 : σ * a + E⁻¹ * σ * b = σ * (E * a + b) / E := by
    field_simp
  rw [h2, h3]
  field_simp

/-- **C143**: in particular a layer with strength `λ ≥ 0` does not get less sure of what was observed -/
theorem C143_surer {h : Hier} (H : h.Legal) {k : HLayer} (hk : k ∈ h.layers) (hkv : k.v = none) (hobs : h.M ≤ k.child)
    (honly : ∀ k' ∈ h.layers, k'.child = k.child → k' = k) {n d : Nat} (hn : n < h.rows k.child) (hd : d < h.cols k.child)
    (free : h.Site → Prop) (s0 : h.State) (hl : 0 ≤ k.lbda) :
    (h.setCell k.child n d 0).predictive free (h.toCell k.child n d 0 s0) k n d ≤
        (h.setCell k.child n d 1).predictive free (h.toCell k.child n d 1 s0) k n d ∧
      (h.setCell k.child n d (-1)).predictive free (h.toCell k.child n d (-1) s0) k n d ≤
        (h.setCell k.child n d 0).predictive free (h.toCell k.child n d 0 s0) k n d := by
  have H0 : (h.setCell k.child n d 0).Legal := Spec.Hier.setCell_legal H honly hkv n d (.inr (.inr rfl))
  obtain ⟨hnn, hpos⟩ := Spec.Hier.mass_pos H0 free (h.toCell k.child n d 0 s0) k n d
  have hP := Spec.Hier.predictive_mass (h.setCell k.child n d 0) free (h.toCell k.child n d 0 s0) k n d
  have hP0 : 0 ≤ (h.setCell k.child n d 0).predictive free (h.toCell k.child n d 0 s0) k n d := by
    rw [hP]
    exact div_nonneg (hnn true) hpos.le
  have hP1 : (h.setCell k.child n d 0).predictive free (h.toCell k.child n d 0 s0) k n d ≤ 1 := by
    rw [hP, div_le_one hpos]
    linarith [hnn false]
  rw [C143_odds H hk hkv hobs honly hn hd free s0 (x := 1) (.inl rfl), C143_odds H hk hkv hobs honly hn hd free s0 (x := -1) (.inr rfl)]
  generalize (h.setCell k.child n d 0).predictive free (h.toCell k.child n d 0 s0) k n d = P at *
  have key : ∀ E : ℝ, 0 < E → 0 < E * P + (1 - P) := by
    intro E hE
    rcases hP0.lt_or_eq with h | h
    · have := mul_pos hE h
      linarith
    · rw [← h]
      norm_num
  constructor
  · have hE : (1 : ℝ) ≤ Real.exp (k.lbda * ((1 : Int) : ℝ)) := Real.one_le_exp (by simpa using hl)
    generalize Real.exp (k.lbda * ((1 : Int) : ℝ)) = E at hE
    rw [le_div_iff₀ (key E (by linarith))]
    nlinarith [mul_nonneg hP0 (mul_nonneg (sub_nonneg.2 hE) (sub_nonneg.2 hP1))]
  · have hE : Real.exp (k.lbda * ((-1 : Int) : ℝ)) ≤ 1 := Real.exp_le_one_iff.2 (by push_cast; linarith)
    have hE0 := Real.exp_pos (k.lbda * ((-1 : Int) : ℝ))
    generalize Real.exp (k.lbda * ((-1 : Int) : ℝ)) = E at hE hE0
    rw [div_le_iff₀ (key E hE0)]
    nlinarith [mul_nonneg hP0 (mul_nonneg (sub_nonneg.2 hE) (sub_nonneg.2 hP1))]

open Classical in
/-- **C143**: and the evidence of data with the cell is the evidence without it times the posterior predictive probability of the value
of the cell, which takes the noise into account: `σ(λ)` if the layer predicts that value and `σ(-λ)` if not -/
theorem C143_evidence {h : Hier} (H : h.Legal) {k : HLayer} (hk : k ∈ h.layers) (hkv : k.v = none) (hobs : h.M ≤ k.child)
    (honly : ∀ k' ∈ h.layers, k'.child = k.child → k' = k) {n d : Nat} (hn : n < h.rows k.child) (hd : d < h.cols k.child)
    (free : h.Site → Prop) (s0 : h.State) {x : Int} (hx : IsPM x) (P : ℝ)
    (hP : P = (h.setCell k.child n d 0).predictive free (h.toCell k.child n d 0 s0) k n d) :
    ∑ y with (h.setCell k.child n d x).Agree free y (h.toCell k.child n d x s0), (h.setCell k.child n d x).joint y =
      (P * sigmoid (k.lbda * x) + (1 - P) * sigmoid (-(k.lbda * x))) *
        ∑ y with (h.setCell k.child n d 0).Agree free y (h.toCell k.child n d 0 s0), (h.setCell k.child n d 0).joint y := by
  have H0 : (h.setCell k.child n d 0).Legal := Spec.Hier.setCell_legal H honly hkv n d (.inr (.inr rfl))
  obtain ⟨hnn, hpos⟩ := Spec.Hier.mass_pos H0 free (h.toCell k.child n d 0 s0) k n d
  have p0 := Spec.Hier.predictive_mass (h.setCell k.child n d 0) free (h.toCell k.child n d 0 s0) k n d
  have t1 := Spec.Hier.mass_total (h.setCell k.child n d x) free (h.toCell k.child n d x s0) k n d
  have t0 := Spec.Hier.mass_total (h.setCell k.child n d 0) free (h.toCell k.child n d 0 s0) k n d
  have m1 := mass_setCell H hk hkv hobs honly hn hd free s0 hx true
  have m0 := mass_setCell H hk hkv hobs honly hn hd free s0 hx false
  rw [← t1, ← t0, hP, p0, m1, m0]
  clear t1 t0 m1 m0 p0
  generalize (h.setCell k.child n d 0).mass free (h.toCell k.child n d 0 s0) k n d true = a at *
  generalize (h.setCell k.child n d 0).mass free (h.toCell k.child n d 0 s0) k n d false = b at *
  have e1 : k.lbda * x * ((sgn true : Int) : ℝ) = k.lbda * x := by simp [sgn]
  have e2 : k.lbda * x * ((sgn false : Int) : ℝ) = -(k.lbda * x) := by simp [sgn]
  rw [e1, e2]
  field_simp
  ring

open Classical in
/-- **C143**: hence the share of the samples of a run that predict 1 in the observed cell approaches the value that the odds without
the cell give: the probability that it is off by `δ` or more is at most `C / (S δ²)`, if the sampler reaches all states (see C79) -/
theorem C143_samples {h : Hier} (H : h.Legal) {k : HLayer} (hk : k ∈ h.layers) (hkv : k.v = none) (hobs : h.M ≤ k.child)
    (honly : ∀ k' ∈ h.layers, k'.child = k.child → k' = k) {n d : Nat} (hn : n < h.rows k.child) (hd : d < h.cols k.child)
    (free : h.Site → Prop) (s0 : h.State) {x : Int} (hx : IsPM x) (hl : (h.setCell k.child n d x).Linking free (h.toCell k.child n d x s0))
    {wr : Wiring} (hw : (h.setCell k.child n d x).Wired wr) {m : Mach Sampler LbdaUpdate} (hm : (h.setCell k.child n d x).FixedLbdas wr m)
    (fe : Nat → Arr Int) (hfe : ∀ q, free q ↔ (h.setCell k.child n d x).Sampled m fe q) : ∃ C : ℝ,
      ∀ (S cw bmin : Nat) (eps : ℝ) (bmax : Int) (ps fx : Nat), 1 ≤ cw → 1 ≤ ps → 1 ≤ S →
      ∀ T, m.clock + bmin + bmax.toNat + S ≤ T → ∀ s : h.State, h.Agree free s s0 →
      ∃ f, (h.setCell k.child n d x).IsAverage wr m fe S cw eps bmin bmax ps fx T (h.toCell k.child n d x s)
          (fun y => if pred2 k.model (h.cols k.z) ((h.setCell k.child n d x).val y k.z n) ((h.setCell k.child n d x).val y k.u d) = 1 then 1
            else 0) f ∧
        ∀ δ : ℝ, 0 < δ → ∀ P, P = (h.setCell k.child n d 0).predictive free (h.toCell k.child n d 0 s0) k n d →
          (h.setCell k.child n d x).prob (freeMats m) T
            (fun σ ω => δ ≤ |f σ ω - Real.exp (k.lbda * x) * P / (Real.exp (k.lbda * x) * P + (1 - P))|) ≤
          ENNReal.ofReal (C / (S * δ ^ 2)) := by
  have Hx : (h.setCell k.child n d x).Legal := Spec.Hier.setCell_legal H honly hkv n d
    (by rcases hx with h | h; exact .inl h; exact .inr (.inl h))
  obtain ⟨C, hC⟩ := C80_linked_partial Hx free (h.toCell k.child n d x s0) hl hw hm fe hfe
  refine ⟨C, ?_⟩
  intro S cw bmin eps bmax ps fx hcw hps hS T hT s hs
  obtain ⟨f, h1, h2, h3⟩ := hC S cw bmin eps bmax ps fx hcw hps hS T hT (h.toCell k.child n d x s) hs
    (fun y => if pred2 k.model (h.cols k.z) ((h.setCell k.child n d x).val y k.z n) ((h.setCell k.child n d x).val y k.u d) = 1 then 1
      else 0) (fun y => by split <;> simp)
  refine ⟨f, h1, fun δ hδ P hP => ?_⟩
  subst hP
  rw [← C143_odds H hk hkv hobs honly hn hd free s0 hx]
  refine (Spec.Hier.prob_le_expectation hδ h2).trans (ENNReal.ofReal_le_ofReal ?_)
  rw [← div_div]
  exact div_le_div_of_nonneg_right h3 (by positivity)

/-- the hypotheses are met by an OR-AND layer on the path of three nodes whose cell `(0, 2)` is changed, for both values, with a
machine that reaches all states -/
theorem C143_hypotheses_met (x : Int) (hx : IsPM x) :
    ∃ h : Hier, h.Legal ∧ ∃ k ∈ h.layers, k.model = .OR_AND ∧ k.v = none ∧ h.M ≤ k.child ∧ 0 ≤ k.lbda ∧
      (∀ k' ∈ h.layers, k'.child = k.child → k' = k) ∧ 0 < h.rows k.child ∧ 2 < h.cols k.child ∧ h.data k.child = pathData ∧
      (h.setCell k.child 0 2 x).data k.child [0, 2] = x ∧ (h.setCell k.child 0 2 x).data k.child [0, 1] = 1 ∧
      (∀ s0, (h.setCell k.child 0 2 x).Linking (fun _ => True) s0) ∧
      ∃ wr : Wiring, (h.setCell k.child 0 2 x).Wired wr ∧ ∃ mach : Mach Sampler LbdaUpdate, (h.setCell k.child 0 2 x).FixedLbdas wr mach ∧
        ∀ q, (h.setCell k.child 0 2 x).Sampled mach (fun _ => Arr.full [] 0) q := by
  have h3 : DataArr pathData := by
    intro idx _
    unfold pathData IsData
    dsimp only
    split <;> simp
  have H : (plainHier .OR_AND 3 3 2 pathData 1).Legal := plainHier_legal _ _ _ (by norm_num) (by norm_num) rfl h3
  have honly : ∀ k' ∈ (plainHier .OR_AND 3 3 2 pathData 1).layers, k'.child = 2 → k' = ⟨.OR_AND, 0, 1, 2, 1, none⟩ := by
    intro k' hk' _
    simpa [plainHier] using hk'
  have Hx : ((plainHier .OR_AND 3 3 2 pathData 1).setCell 2 0 2 x).Legal :=
    Spec.Hier.setCell_legal H (k := ⟨.OR_AND, 0, 1, 2, 1, none⟩) honly rfl 0 2
      (by rcases hx with h | h; exact .inl h; exact .inr (.inl h))
  obtain ⟨w1, w2, w3⟩ := C79_odd_hypotheses_met.2.2.2.2.2.2 _ Hx (fun _ l => l) (fun _ _ => true)
  have hdat : ∀ n d : Nat, ((plainHier .OR_AND 3 3 2 pathData 1).setCell 2 0 2 x).data 2 [n, d] ≠ 0 := by
    intro n d
    simp only [Spec.Hier.setCell, if_true, Arr.set]
    split
    · rcases hx with h | h <;> rw [h] <;> norm_num
    · simp only [plainHier, pathData]
      split <;> norm_num
  refine ⟨_, H, ⟨.OR_AND, 0, 1, 2, 1, none⟩, by simp [plainHier], rfl, rfl, by simp [plainHier], by norm_num, honly, by simp [plainHier],
    by simp [plainHier], rfl, by simp [Spec.Hier.setCell, Arr.set], by simp [Spec.Hier.setCell, Arr.set, plainHier, pathData], ?_,
    _, w1, _, w2, w3⟩
  intro s0
  have conv := C79_odd_partial Hx (k := ⟨.OR_AND, 0, 1, 2, 1, none⟩) rfl rfl (fun i _ => rfl) (by norm_num)
    (by simp [plainHier, Spec.Hier.setCell])
    (by simp) (fun n hn => by
      simp only [hdat, ne_eq, not_false_eq_true, Finset.filter_true, Finset.card_univ, Fintype.card_fin]
      exact ⟨1, rfl⟩) (fun n hn => by
      simp only [hdat, ne_eq, not_false_eq_true, Finset.filter_true, Finset.card_univ, Fintype.card_fin]
      exact ⟨1, rfl⟩)
    w1 w2 _ w3 s0
  exact Spec.Hier.linking_of_mixing ((C79_mixing_iff Hx _ s0 w1 w2 _ (fun q => iff_of_true trivial (w3 q))).2 conv)

end LFM
