import Verif.Props.OneMoreCell3

/-!
# C138 for predictions of layers of three factors
-/

namespace LFM

open Spec

/-- **C138**, layers of three factors: slices with the same data are predicted alike, along each of the three axes -/
theorem C138_same_predictive_three {h : Hier} (H : h.Legal) (free : h.Site → Prop) (s0 : h.State) {k : HLayer} (hk : k ∈ h.layers)
    {v : Nat} (hkv : k.v = some v) (i : Fin h.M) (htop : h.parentsOf i = []) (r r' : Fin (h.rows i)) (hsame : h.SameData k i r r')
    (hfree : ∀ l : Fin (h.cols i), free ⟨i, r, l⟩ ∧ free ⟨i, r', l⟩) :
    ((i : Nat) = k.z → ∀ d e, h.predictive3 free s0 k v r d e = h.predictive3 free s0 k v r' d e) ∧
      ((i : Nat) = k.u → ∀ n e, h.predictive3 free s0 k v n r e = h.predictive3 free s0 k v n r' e) ∧
      ((i : Nat) = v → ∀ n d, h.predictive3 free s0 k v n d r = h.predictive3 free s0 k v n d r') := by
  have hobs : h.M ≤ k.child := (H.data3 k hk v hkv).1
  have hnd : k.factors.Nodup := (List.nodup_flatMap.1 H.nodup).1 k hk
  simp only [HLayer.factors, hkv, Option.toList, List.mem_cons, List.not_mem_nil, or_false, List.nodup_cons,
    not_false_eq_true, List.nodup_nil, and_true, not_or] at hnd
  obtain ⟨⟨n1, n2⟩, n3⟩ := hnd
  have hself : ∀ x : h.State, ∀ j : Nat, (i : Nat) = j → h.val (h.swapRows i r r' x) j r = h.val x j r' := by
    rintro x j rfl
    rw [Spec.Hier.val_swapRows]
    simp
  have hout : ∀ (x : h.State) (j : Nat), j ≠ i → h.val (h.swapRows i r r' x) j = h.val x j := fun x j hj =>
    Spec.Hier.val_swapRows_ne i r r' x hj
  have hex := fun (hi : (i : Nat) ∈ k.factors) x => C138_exchange H free s0 hk hobs i hi htop r r' hsame hfree x
  refine ⟨fun hi d e => ?_, fun hi n e => ?_, fun hi n d => ?_⟩
  all_goals
    unfold Spec.Hier.predictive3
    symm
    refine Fintype.sum_equiv ⟨h.swapRows i r r', h.swapRows i r r', Spec.Hier.swapRows_swapRows i r r',
      Spec.Hier.swapRows_swapRows i r r'⟩ _ _ fun x => ?_
    simp only [Equiv.coe_fn_mk]
    rw [hex (by simp [HLayer.factors, hi, hkv])]
  · simp only [hself x _ hi, hout x k.u (by omega), hout x v (by omega)]
  · simp only [hself x _ hi, hout x k.z (by omega), hout x v (by omega)]
  · simp only [hself x _ hi, hout x k.z (by omega), hout x k.u (by omega)]

/-- the hypotheses are met by the layer of three factors of the machine of `C76_example`, whose data are constant -/
theorem C138_three_hypotheses_met : towerHier.Legal ∧ ∃ k ∈ towerHier.layers, ∃ v, k.v = some v ∧ k.model = .NAND_XOR ∧
    ∃ i : Fin towerHier.M, (i : Nat) = k.z ∧ towerHier.parentsOf i = [] ∧ 2 < towerHier.rows i ∧
      ∀ r r' : Fin (towerHier.rows i), towerHier.SameData k i r r' := by
  refine ⟨C76_example.1, ⟨.NAND_XOR, 4, 5, 8, 3, some 6⟩, by simp [towerHier], 6, rfl, rfl, ⟨4, by simp [towerHier]⟩, rfl,
    by simp [Spec.Hier.parentsOf, towerHier], by simp [towerHier], fun r r' => ?_⟩
  refine ⟨fun _ d _ e _ => ?_, fun hc => ?_, fun hc => ?_⟩
  · simp [towerHier, Arr.full]
  · simp at hc
  · simp at hc

end LFM
