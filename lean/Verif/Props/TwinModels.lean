import Verif.Props.Symmetric

/-!
# C141: models that differ in the sign of a factor only
-/

namespace LFM

open Spec MeasureTheory

/-- OR-XOR and NAND-XOR, XOR-XOR and XOR-NXOR -/
def Spec.twin : Lom8 → Lom8
  | .OR_XOR => .NAND_XOR
  | .NAND_XOR => .OR_XOR
  | .XOR_XOR => .XOR_NXOR
  | .XOR_NXOR => .XOR_XOR
  | m => m

/-- **C141**: with two factors, models whose inner operator is XOR or NXOR come in pairs: each predicts what the other one
predicts from an inverted second factor, for any number of latent dimensions -/
theorem C141_predictions {m : Lom8} (hm : InnerXor m) {L : Nat} {z u u' : Nat → Int}
    (hu : ∀ l < L, (u' l = 1 ↔ ¬ u l = 1)) : pred2 (twin m) L z u' = pred2 m L z u := by
  unfold pred2
  apply pm_congr
  have e : ∀ x y : Int, (fun k : Fin 2 => ![x, y] k = 1) = fun k : Fin 2 => ![x = 1, y = 1] k := by
    intro x y
    funext k
    fin_cases k <;> rfl
  have h1 : ∀ l : Fin L, LOp.XOR.Holds (fun k : Fin 2 => ![z l, u' l] k = 1) ↔ LOp.NXOR.Holds (fun k : Fin 2 => ![z l, u l] k = 1) := by
    intro l
    rw [e, e, (inner_two _ _).2.2.1, (inner_two _ _).2.2.2, hu l l.2]
    tauto
  have h2 : ∀ l : Fin L, LOp.NXOR.Holds (fun k : Fin 2 => ![z l, u' l] k = 1) ↔ LOp.XOR.Holds (fun k : Fin 2 => ![z l, u l] k = 1) := by
    intro l
    rw [e, e, (inner_two _ _).2.2.1, (inner_two _ _).2.2.2, hu l l.2]
    tauto
  have h3 : ∀ (x y : Int), LOp.XOR.Holds (fun k : Fin 2 => ![x, y] k = 1) ↔ ¬ LOp.NXOR.Holds (fun k : Fin 2 => ![x, y] k = 1) := by
    intro x y
    rw [e, (inner_two _ _).2.2.1, (inner_two _ _).2.2.2]
  have hOR : ∀ P : Fin L → Prop, LOp.OR.Holds P ↔ ∃ l, P l := fun P => Iff.rfl
  have hNAND : ∀ P : Fin L → Prop, LOp.NAND.Holds P ↔ ¬ ∀ l, P l := fun P => Iff.rfl
  unfold lom
  cases m with
  | OR_XOR =>
    show LOp.NAND.Holds (fun l : Fin L => LOp.XOR.Holds _) ↔ LOp.OR.Holds (fun l : Fin L => LOp.XOR.Holds _)
    rw [hOR, hNAND, not_forall]
    exact exists_congr fun l => by rw [h1 l, h3]
  | NAND_XOR =>
    show LOp.OR.Holds (fun l : Fin L => LOp.XOR.Holds _) ↔ LOp.NAND.Holds (fun l : Fin L => LOp.XOR.Holds _)
    rw [hOR, hNAND, not_forall]
    exact exists_congr fun l => by rw [h1 l, h3, not_not]
  | XOR_XOR =>
    show LOp.XOR.Holds (fun l : Fin L => LOp.NXOR.Holds _) ↔ LOp.XOR.Holds (fun l : Fin L => LOp.XOR.Holds _)
    simp only [h2]
  | XOR_NXOR =>
    show LOp.XOR.Holds (fun l : Fin L => LOp.XOR.Holds _) ↔ LOp.XOR.Holds (fun l : Fin L => LOp.NXOR.Holds _)
    simp only [h1]
  | OR_AND => rcases hm with hm | hm <;> cases hm
  | OR_NAND => rcases hm with hm | hm <;> cases hm
  | XOR_AND => rcases hm with hm | hm <;> cases hm
  | XOR_NAND => rcases hm with hm | hm <;> cases hm

namespace Spec.Hier

variable (h : Hier)

/-- the hierarchy with the other model of the pair in the layer of factor `z`, and the complementary prior for its second factor `u` -/
noncomputable def twinHier (z u : Nat) : Hier where
  M := h.M
  rows := h.rows
  cols := h.cols
  layers := h.layers.map fun k => if k.z = z then { k with model := twin k.model } else k
  data := h.data
  prior := fun i => if i = u then 1 - h.prior i else h.prior i

/-- the state with matrix `i` inverted -/
def invertMat (i : Nat) (s : h.State) : h.State := fun j e => if (j : Nat) = i then !s j e else s j e

/-- a state of a hierarchy as one of the other hierarchy -/
def toTwin (z u : Nat) (s : h.State) : (h.twinHier z u).State := s

variable {h}

theorem invertMat_invertMat (i : Nat) (s : h.State) : h.invertMat i (h.invertMat i s) = s := by
  funext j e
  unfold invertMat
  split <;> simp

theorem val_toTwin (z u : Nat) (s : h.State) (i : Nat) : (h.twinHier z u).val (h.toTwin z u s) i = h.val s i := rfl

theorem val_invertMat_ne {i j : Nat} (s : h.State) (hj : j ≠ i) : h.val (h.invertMat i s) j = h.val s j := by
  unfold val
  split
  · congr 1
    funext e
    simp [invertMat, hj]
  · rfl

theorem val_invertMat {i : Nat} (s : h.State) (hM : i < h.M) {n l : Nat} (hn : n < h.rows i) (hl : l < h.cols i) :
    h.val (h.invertMat i s) i n l = 1 ↔ ¬ h.val s i n l = 1 := by
  unfold val
  rw [dif_pos hM, dif_pos hM]
  unfold Cfg.fac
  rw [dif_pos ⟨hn, hl⟩, dif_pos ⟨hn, hl⟩]
  simp only [invertMat, if_true]
  cases s ⟨i, hM⟩ (⟨n, hn⟩, ⟨l, hl⟩) <;> simp [sgn]

theorem joint_twin (H : h.Legal) {k : HLayer} (hk : k ∈ h.layers) (hkv : k.v = none) (hm : InnerXor k.model)
    (htop : h.parentsOf k.u = []) (s : h.State) :
    (h.twinHier k.z k.u).joint (h.toTwin k.z k.u (h.invertMat k.u s)) = h.joint s := by
  have iz : k.z ∈ k.factors := by simp [HLayer.factors]
  have iu : k.u ∈ k.factors := by simp [HLayer.factors]
  have hMu := H.latent k hk _ iu
  have hout : ∀ i, i ≠ k.u → (h.twinHier k.z k.u).val (h.toTwin k.z k.u (h.invertMat k.u s)) i = h.val s i := fun i hi =>
    (val_toTwin _ _ _ i).trans (val_invertMat_ne s hi)
  have hchild : ∀ k' ∈ h.layers, k'.child ≠ k.u := by
    intro k' hk' hc
    have : k' ∈ h.parentsOf k.u := List.mem_filter.2 ⟨hk', by simp [hc]⟩
    rw [htop] at this
    simp at this
  have hzu : k.z ≠ k.u := by
    have hnd : k.factors.Nodup := (List.nodup_flatMap.1 H.nodup).1 k hk
    simp only [HLayer.factors, hkv, Option.toList, List.nodup_cons, List.mem_cons, List.not_mem_nil, or_false] at hnd
    exact hnd.1
  unfold joint
  congr 1
  · show ((h.layers.map fun k' => if k'.z = k.z then { k' with model := twin k'.model } else k').map _).prod = _
    rw [List.map_map]
    congr 1
    refine List.map_congr_left fun k' hk' => ?_
    by_cases hkk : k'.z = k.z
    · have : k' = k := one_owner H hk hk' iz (by simp [HLayer.factors, hkk])
      subst this
      simp only [Function.comp, if_true]
      unfold layerLik
      simp only [hkv]
      rw [hout _ (hchild k' hk'), hout _ hzu]
      obtain ⟨e1, e2, e3⟩ := H.sizes2 k' hk' hkv
      unfold lik2
      refine Finset.prod_congr rfl fun n _ => Finset.prod_congr rfl fun d _ => ?_
      congr 1
      refine C141_predictions hm fun l hl => ?_
      rw [val_toTwin]
      have hd : (d : Nat) < h.cols k'.child := d.2
      exact val_invertMat s hMu (by omega) (by rw [e3]; exact hl)
    · simp only [Function.comp, if_neg hkk]
      have hne : ∀ i ∈ k'.factors, i ≠ k.u := fun i hi hc => hkk (by rw [one_owner H hk hk' iu (hc ▸ hi)])
      unfold layerLik
      cases hv : k'.v with
      | none =>
        simp only
        rw [hout _ (hchild k' hk'), hout k'.z (hne _ (by simp [HLayer.factors])), hout k'.u (hne _ (by simp [HLayer.factors]))]
        rfl
      | some v =>
        simp only
        rw [hout k'.z (hne _ (by simp [HLayer.factors])), hout k'.u (hne _ (by simp [HLayer.factors])),
          hout v (hne _ (by simp [HLayer.factors, hv]))]
        rfl
  · have hv : ∀ (s : h.State) (j : Fin h.M), Cfg.fac (s j) = h.val s j := by
      intro s j
      unfold val
      rw [dif_pos j.2]
    show ∏ i : Fin h.M, priorProb (if (i : Nat) = k.u then 1 - h.prior i else h.prior i) (h.rows i) (h.cols i)
      (Cfg.fac (h.invertMat k.u s i)) = _
    refine Finset.prod_congr rfl fun i _ => ?_
    rw [hv, hv]
    by_cases hi : (i : Nat) = k.u
    · rw [if_pos hi, ← hi]
      unfold priorProb
      refine Finset.prod_congr rfl fun n _ => Finset.prod_congr rfl fun l _ => ?_
      have := val_invertMat (i := i) s i.2 n.2 l.2
      by_cases hx : h.val s i n l = 1
      · rw [if_pos hx, if_neg (fun hc => this.1 hc hx)]
        ring
      · rw [if_neg hx, if_pos (this.2 hx)]
    · rw [if_neg hi, val_invertMat_ne s hi]

end Spec.Hier

/-- **C141**: hence the evidence (the probability of the data, up to the same factor) of the two models is the same, whatever data,
strengths and sizes: no data can favour one of them -/
theorem C141_same_evidence {h : Hier} (H : h.Legal) {k : HLayer} (hk : k ∈ h.layers) (hkv : k.v = none) (hm : InnerXor k.model)
    (htop : h.parentsOf k.u = []) : ∑ x, (h.twinHier k.z k.u).joint x = ∑ x, h.joint x := by
  symm
  refine Fintype.sum_equiv ⟨fun s => h.toTwin k.z k.u (h.invertMat k.u s), fun s : h.State => h.invertMat k.u s,
    Spec.Hier.invertMat_invertMat k.u, Spec.Hier.invertMat_invertMat (h := h) k.u⟩ _ _ fun x => ?_
  exact (Spec.Hier.joint_twin H hk hkv hm htop x).symm

/-- **C141**: and a state has the posterior probability in one model that the state with the second factor inverted has in the
other, given any fixed entries (inverted likewise) -/
theorem C141_same_posterior {h : Hier} (H : h.Legal) {k : HLayer} (hk : k ∈ h.layers) (hkv : k.v = none) (hm : InnerXor k.model)
    (htop : h.parentsOf k.u = []) (free : h.Site → Prop) (s0 s : h.State) :
    (h.twinHier k.z k.u).posteriorGiven free (h.toTwin k.z k.u (h.invertMat k.u s0)) (h.toTwin k.z k.u (h.invertMat k.u s)) =
      h.posteriorGiven free s0 s := by
  classical
  have hag : ∀ s, (h.twinHier k.z k.u).Agree free (h.toTwin k.z k.u (h.invertMat k.u s)) (h.toTwin k.z k.u (h.invertMat k.u s0)) ↔
      h.Agree free s s0 := by
    intro s
    show (∀ q : h.Site, ¬ free q → h.invertMat k.u s q.1 q.2 = h.invertMat k.u s0 q.1 q.2) ↔ _
    refine forall_congr' fun q => imp_congr_right fun hq => ?_
    unfold Spec.Hier.invertMat
    split <;> simp
  have hj := Spec.Hier.joint_twin H hk hkv hm htop
  unfold Spec.Hier.posteriorGiven
  by_cases hs : h.Agree free s s0
  · rw [if_pos hs, if_pos ((hag s).2 hs), hj]
    congr 1
    symm
    refine Finset.sum_equiv ⟨fun s => h.toTwin k.z k.u (h.invertMat k.u s), fun s : h.State => h.invertMat k.u s,
      Spec.Hier.invertMat_invertMat k.u, Spec.Hier.invertMat_invertMat (h := h) k.u⟩ (fun x => ?_) (fun x _ => (hj x).symm)
    simp only [Finset.mem_filter, Finset.mem_univ, true_and]
    exact (hag x).symm
  · rw [if_neg hs, if_neg fun hc => hs ((hag s).1 hc)]

/-- **C141**: and the two models predict each cell with the same posterior probability -/
theorem C141_same_predictive {h : Hier} (H : h.Legal) {k : HLayer} (hk : k ∈ h.layers) (hkv : k.v = none) (hm : InnerXor k.model)
    (htop : h.parentsOf k.u = []) (free : h.Site → Prop) (s0 : h.State) (n d : Nat) (hd : d < h.rows k.u) :
    (h.twinHier k.z k.u).predictive free (h.toTwin k.z k.u (h.invertMat k.u s0)) { k with model := twin k.model } n d =
      h.predictive free s0 k n d := by
  have iu : k.u ∈ k.factors := by simp [HLayer.factors]
  have hMu := H.latent k hk _ iu
  have hzu : k.z ≠ k.u := by
    have hnd : k.factors.Nodup := (List.nodup_flatMap.1 H.nodup).1 k hk
    simp only [HLayer.factors, hkv, Option.toList, List.nodup_cons, List.mem_cons, List.not_mem_nil, or_false] at hnd
    exact hnd.1
  obtain ⟨e1, e2, e3⟩ := H.sizes2 k hk hkv
  unfold Spec.Hier.predictive
  symm
  refine Fintype.sum_equiv ⟨fun s => h.toTwin k.z k.u (h.invertMat k.u s), fun s : h.State => h.invertMat k.u s,
    Spec.Hier.invertMat_invertMat k.u, Spec.Hier.invertMat_invertMat (h := h) k.u⟩ _ _ fun x => ?_
  have hp := C141_predictions hm (L := h.cols k.z) (z := h.val x k.z n) (u := h.val x k.u d) (u' := h.val (h.invertMat k.u x) k.u d)
    fun l hl => Spec.Hier.val_invertMat x hMu hd (by rw [e3]; exact hl)
  rw [← Spec.Hier.val_invertMat_ne x hzu] at hp
  have hpost := C141_same_posterior H hk hkv hm htop free s0 x
  rw [← hpost, ← Spec.Hier.val_invertMat_ne x hzu, ← hp]
  rfl

/-- a single layer with the default prior -/
theorem twinHier_plain (m : Lom8) (N D L : Nat) (X : Arr Int) (lbda : ℝ) :
    (plainHier m N D L X lbda).twinHier 0 1 = plainHier (twin m) N D L X lbda := by
  unfold Spec.Hier.twinHier plainHier
  simp only [List.map_cons, List.map_nil, if_true, Spec.Hier.mk.injEq, true_and]
  funext i
  split <;> norm_num

/-- **C141**: a single layer with the default prior: the evidence of the two models is the same for every data matrix -/
theorem C141_plain {m : Lom8} (hm : InnerXor m) {N D : Nat} (L : Nat) {X : Arr Int} (lbda : ℝ) (hN : N ≤ 32767) (hD : D ≤ 32767)
    (hX : X.shape = [N, D]) (hd : DataArr X) :
    ∑ x, (plainHier (twin m) N D L X lbda).joint x = ∑ x, (plainHier m N D L X lbda).joint x := by
  rw [← twinHier_plain]
  exact C141_same_evidence (plainHier_legal m L lbda hN hD hX hd) (k := ⟨m, 0, 1, 2, lbda, none⟩) (by simp [plainHier]) rfl hm
    (by simp [Spec.Hier.parentsOf, plainHier])

/-- **C141**: the matrix that the code computes for one of the models is the one that it computes for the other model from the
inverted second factor -/
theorem C141_outputs {m : Lom8} (hm : InnerXor m) (N D L : Nat) (Z U U' : Arr Int) (hZ : Z.shape = [N, L]) (hU : U.shape = [D, L])
    (hU' : U'.shape = [D, L]) (pZ : PMArr Z) (pU : PMArr U) (pU' : PMArr U') (hinv : ∀ d < D, ∀ l < L, U' [d, l] = -U [d, l]) :
    ∃ X X', output_function_2d m.name Z U = .ok X ∧ output_function_2d (twin m).name Z U' = .ok X' ∧ X.shape = [N, D] ∧
      X'.shape = [N, D] ∧ ∀ n < N, ∀ d < D, X' [n, d] = X [n, d] := by
  obtain ⟨X, h1, h2, h3⟩ := C01_two_factor_matrix m N D L Z U hZ hU pZ pU
  obtain ⟨X', h1', h2', h3'⟩ := C01_two_factor_matrix (twin m) N D L Z U' hZ hU' pZ pU'
  refine ⟨X, X', h1, h1', h2, h2', fun n hn d hd => ?_⟩
  rw [h3 n d hn hd, h3' n d hn hd]
  refine C141_predictions hm (L := L) (z := fun l => Z [n, l]) (u := fun l => U [d, l]) (u' := fun l => U' [d, l]) fun l hl => ?_
  show U' [d, l] = 1 ↔ ¬ U [d, l] = 1
  rw [hinv d hd l hl]
  rcases pU [d, l] (by rw [hU]; exact ⟨hd, hl, trivial⟩) with h | h <;> rw [h] <;> norm_num

/-- **C141**: hence the averages over the samples (`mat.mean()`) of a machine with one of the models approach the posterior
expectations of the other model, with the opposite sign for the second factor -/
theorem C141_averages {h : Hier} (H : h.Legal) {k : HLayer} (hk : k ∈ h.layers) (hkv : k.v = none) (hmod : InnerXor k.model)
    (htop : h.parentsOf k.u = []) (free : h.Site → Prop) (s0 : h.State) (H' : (h.twinHier k.z k.u).Legal)
    (hl : (h.twinHier k.z k.u).Linking free (h.toTwin k.z k.u (h.invertMat k.u s0)))
    {wr : Wiring} (hw : (h.twinHier k.z k.u).Wired wr) {m : Mach Sampler LbdaUpdate} (hm : (h.twinHier k.z k.u).FixedLbdas wr m)
    (fe : Nat → Arr Int) (hfe : ∀ q, free q ↔ (h.twinHier k.z k.u).Sampled m fe q) : ∃ C : ℝ,
      ∀ (S cw bmin : Nat) (eps : ℝ) (bmax : Int) (ps fx : Nat), 1 ≤ cw → 1 ≤ ps → 1 ≤ S →
      ∀ T, m.clock + bmin + bmax.toNat + S ≤ T → ∀ s : h.State, h.Agree free s s0 →
      ∀ (i : Fin h.M), (i : Nat) ∈ freeMats m → ∀ (n : Fin (h.rows i)) (l : Fin (h.cols i)) (δ : ℝ), 0 < δ →
      (h.twinHier k.z k.u).prob (freeMats m) T (fun σ ω => ∃ m' a,
          infer (genericEnv (Spec.Hier.withDraws (Spec.Hier.withOrders wr σ) ω)) S cw eps bmin bmax
            ps fx { m with world := (h.twinHier k.z k.u).world fe (h.toTwin k.z k.u (h.invertMat k.u s)) } = .ok m' ∧
          (m'.ofac i).mean = .nums a ∧
          δ ≤ |a [n, l] - (if (i : Nat) = k.u then -1 else 1) * ∑ x, h.posteriorGiven free s0 x * (sgn (x i (n, l)) : ℝ)|) ≤
        ENNReal.ofReal (C / (S * δ ^ 2)) := by
  obtain ⟨C, hC⟩ := C80_linked_consistent_partial H' free (h.toTwin k.z k.u (h.invertMat k.u s0)) hl hw hm fe hfe
  refine ⟨C, ?_⟩
  intro S cw bmin eps bmax ps fx hcw hps hS T hT s hs i hi n l δ hδ
  have hag : (h.twinHier k.z k.u).Agree free (h.toTwin k.z k.u (h.invertMat k.u s)) (h.toTwin k.z k.u (h.invertMat k.u s0)) := by
    intro q hq
    show h.invertMat k.u s q.1 q.2 = h.invertMat k.u s0 q.1 q.2
    unfold Spec.Hier.invertMat
    rw [hs q hq]
  have hsum : ∑ x : (h.twinHier k.z k.u).State,
      (h.twinHier k.z k.u).posteriorGiven free (h.toTwin k.z k.u (h.invertMat k.u s0)) x * (sgn (x i (n, l)) : ℝ) =
      (if (i : Nat) = k.u then -1 else 1) * ∑ x, h.posteriorGiven free s0 x * (sgn (x i (n, l)) : ℝ) := by
    rw [Finset.mul_sum]
    symm
    refine Fintype.sum_equiv ⟨fun s => h.toTwin k.z k.u (h.invertMat k.u s), fun s : h.State => h.invertMat k.u s,
      Spec.Hier.invertMat_invertMat k.u, Spec.Hier.invertMat_invertMat (h := h) k.u⟩ _ _ fun x => ?_
    have hsg : (sgn (h.invertMat k.u x i (n, l)) : ℝ) = (if (i : Nat) = k.u then -1 else 1) * (sgn (x i (n, l)) : ℝ) := by
      unfold Spec.Hier.invertMat
      split
      · cases x i (n, l) <;> simp [sgn]
      · simp
    have hpost := C141_same_posterior H hk hkv hmod htop free s0 x
    rw [← hpost]
    show _ = _ * (sgn (h.invertMat k.u x i (n, l)) : ℝ)
    rw [hsg]
    exact mul_left_comm _ _ _
  have := hC S cw bmin eps bmax ps fx hcw hps hS T hT _ hag i hi n l δ hδ
  rw [hsum] at this
  exact this

/-- the hypotheses are met by an OR-XOR layer on three by three data, whose predictions differ from those of NAND-XOR with the same
factors, and a NAND-XOR machine that reaches all states; OR-AND is not one of these models -/
theorem C141_hypotheses_met :
    (∃ h : Hier, h.Legal ∧ ∃ k ∈ h.layers, k.v = none ∧ k.model = .OR_XOR ∧ InnerXor k.model ∧ h.parentsOf k.u = [] ∧
      h.data k.child = pathData ∧ twin k.model = .NAND_XOR ∧ (h.twinHier k.z k.u).Legal ∧
      (∀ s0, (h.twinHier k.z k.u).Linking (fun _ => True) s0) ∧
      ∃ wr : Wiring, (h.twinHier k.z k.u).Wired wr ∧ ∃ mach : Mach Sampler LbdaUpdate, (h.twinHier k.z k.u).FixedLbdas wr mach ∧
        (∀ q, (h.twinHier k.z k.u).Sampled mach (fun _ => Arr.full [] 0) q) ∧ ∀ i ∈ k.factors, i ∈ freeMats mach) ∧
    pred2 .OR_XOR 1 (fun _ => 1) (fun _ => 1) = -1 ∧ pred2 .NAND_XOR 1 (fun _ => 1) (fun _ => 1) = 1 ∧ ¬ InnerXor .OR_AND := by
  have h3 : DataArr pathData := by
    intro idx _
    unfold pathData IsData
    dsimp only
    split <;> simp
  have key : ∀ h' : Hier, h' = plainHier .NAND_XOR 3 3 2 pathData 1 → h'.Legal ∧
      (∀ s0, h'.Linking (fun _ => True) s0) ∧
      ∃ wr : Wiring, h'.Wired wr ∧ ∃ mach : Mach Sampler LbdaUpdate, h'.FixedLbdas wr mach ∧
        (∀ q, h'.Sampled mach (fun _ => Arr.full [] 0) q) ∧ ∀ i < 2, i ∈ freeMats mach := by
    rintro _ rfl
    have H : (plainHier .NAND_XOR 3 3 2 pathData 1).Legal := plainHier_legal _ _ _ (by norm_num) (by norm_num) rfl h3
    obtain ⟨w1, w2, w3⟩ := C79_odd_hypotheses_met.2.2.2.2.2.2 _ H (fun _ l => l) (fun _ _ => true)
    refine ⟨H, fun s0 => ?_, _, w1, _, w2, w3, fun i hi => ?_⟩
    · have conv := C79_odd_partial H (k := ⟨.NAND_XOR, 0, 1, 2, 1, none⟩) rfl rfl (fun i _ => rfl) (by norm_num) (by simp [plainHier])
        (by simp) (fun n hn => by
          have : n = 0 ∨ n = 1 ∨ n = 2 := by simp [plainHier] at hn; omega
          rcases this with rfl | rfl | rfl <;> decide) (fun n hn => by
          have : n = 0 ∨ n = 1 ∨ n = 2 := by simp [plainHier] at hn; omega
          rcases this with rfl | rfl | rfl <;> decide)
        w1 w2 _ w3 s0
      exact Spec.Hier.linking_of_mixing ((C79_mixing_iff H _ s0 w1 w2 _ (fun q => iff_of_true trivial (w3 q))).2 conv)
    · rw [Spec.Hier.mem_freeMats_machOf H]
      exact hi
  obtain ⟨k1, k2, wr, k3, mach, k4, k5, k6⟩ := key _ (twinHier_plain .OR_XOR 3 3 2 pathData 1)
  refine ⟨⟨plainHier .OR_XOR 3 3 2 pathData 1, plainHier_legal _ _ _ (by norm_num) (by norm_num) rfl h3,
    ⟨.OR_XOR, 0, 1, 2, 1, none⟩, by simp [plainHier], rfl, rfl, .inl rfl, by simp [Spec.Hier.parentsOf, plainHier], rfl, rfl,
    k1, k2, wr, k3, mach, k4, k5, fun i hi => k6 i ?_⟩, ?_, ?_, ?_⟩
  · simp only [HLayer.factors, Option.toList, List.mem_cons, List.not_mem_nil, or_false] at hi
    omega
  · unfold pred2 pm lom
    rw [if_neg]
    rintro ⟨l, j, hj, hu⟩
    have h0 := hu 0 (by simp)
    have h1 := hu 1 (by simp)
    exact absurd (h0.trans h1.symm) (by decide)
  · unfold pred2 pm lom
    rw [if_pos]
    intro hall
    obtain ⟨j, hj, hu⟩ := hall 0
    have h0 := hu 0 (by simp)
    have h1 := hu 1 (by simp)
    exact absurd (h0.trans h1.symm) (by decide)
  · rintro (h | h) <;> cases h

/-- **C141**, three factors: inverting factors does not turn NAND-XOR into OR-XOR, whichever of the
three factors are inverted: with one latent dimension the former answers 1 on five of the eight sign patterns, the latter on three. -/
theorem C141_three_wrong (a b c : Int) (ha : IsPM a) (hb : IsPM b) (hc : IsPM c) : ∃ x y w : Int, IsPM x ∧ IsPM y ∧ IsPM w ∧
    pred3 .NAND_XOR 1 (fun _ => a * x) (fun _ => b * y) (fun _ => c * w) ≠ pred3 .OR_XOR 1 (fun _ => x) (fun _ => y) (fun _ => w) := by
  have key : ∀ x y w x' y' w' : Int, ((∃! k : Fin 3, ![x, y, w] k = 1) ↔ ∃! k : Fin 3, ![x', y', w'] k = 1) →
      pred3 .NAND_XOR 1 (fun _ => x) (fun _ => y) (fun _ => w) ≠ pred3 .OR_XOR 1 (fun _ => x') (fun _ => y') (fun _ => w') := by
    intro x y w x' y' w' h
    have h1 : lom Lom8.NAND_XOR.outer Lom8.NAND_XOR.inner (fun (_ : Fin 1) (k : Fin 3) => ![x, y, w] k = 1) ↔ ¬ ∃! k : Fin 3, ![x, y, w] k = 1 :=
      not_congr ⟨fun h => h 0, fun h _ => h⟩
    have h2 : lom Lom8.OR_XOR.outer Lom8.OR_XOR.inner (fun (_ : Fin 1) (k : Fin 3) => ![x', y', w'] k = 1) ↔ ∃! k : Fin 3, ![x', y', w'] k = 1 :=
      ⟨fun ⟨_, h⟩ => h, fun h => ⟨0, h⟩⟩
    have e1 : pred3 .NAND_XOR 1 (fun _ => x) (fun _ => y) (fun _ => w) = pm (¬ ∃! k : Fin 3, ![x, y, w] k = 1) := pm_congr h1
    have e2 : pred3 .OR_XOR 1 (fun _ => x') (fun _ => y') (fun _ => w') = pm (∃! k : Fin 3, ![x', y', w'] k = 1) := pm_congr h2
    rw [e1, e2]
    unfold pm
    by_cases hp : ∃! k : Fin 3, ![x', y', w'] k = 1
    · rw [if_neg (not_not.2 (h.2 hp)), if_pos hp]; decide
    · rw [if_pos (fun hq => hp (h.1 hq)), if_neg hp]; decide
  have d : ∀ x y w : Int, (∃! k : Fin 3, ![x, y, w] k = 1) ↔ (x = 1 ∧ ¬ y = 1 ∧ ¬ w = 1) ∨ (¬ x = 1 ∧ y = 1 ∧ ¬ w = 1) ∨ (¬ x = 1 ∧ ¬ y = 1 ∧ w = 1) := by
    intro x y w
    by_cases h1 : x = 1 <;> by_cases h2 : y = 1 <;> by_cases h3 : w = 1 <;>
      simp [ExistsUnique, Fin.exists_fin_succ, Fin.forall_fin_succ, h1, h2, h3]
  simp only [d] at key
  rcases ha with rfl | rfl <;> rcases hb with rfl | rfl <;> rcases hc with rfl | rfl
  all_goals first
    | exact ⟨1, 1, 1, .inl rfl, .inl rfl, .inl rfl, key _ _ _ _ _ _ (by decide)⟩
    | exact ⟨1, 1, -1, .inl rfl, .inl rfl, .inr rfl, key _ _ _ _ _ _ (by decide)⟩

end LFM
