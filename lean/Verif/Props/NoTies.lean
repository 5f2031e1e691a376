import Mathlib.Analysis.Complex.ExponentialBounds
import Verif.Props.Converge

/-!
# C79: a condition for the absence of indifferent entries
-/

namespace LFM

open Spec MeasureTheory

/-- **C79**: no entry is indifferent if all parameters are multiples of a number `c`, and no prior is one whose logit is
a multiple of `c / 2` (in particular, not 1/2). -/
theorem C79_noTies {h : Hier} (H : h.Legal) (c : ℝ) (hl : ∀ k ∈ h.layers, ∃ z : ℤ, k.lbda = z * c)
    (hp : ∀ i < h.M, ∀ z : ℤ, logit (h.prior i) ≠ z * (c / 2)) : h.NoTies := by
  intro s i e heq
  obtain ⟨k, hk, hi⟩ := H.owner i i.2
  have hod := Spec.Hier.joint_odds H s i e (s i) hk hi
  rw [heq, sub_self] at hod
  have h1 : ∃ z : ℤ, h.ownScore s i k (Function.update (s i) e true) (Function.update (s i) e false) = z * (c / 2) := by
    obtain ⟨z, hz⟩ := hl k hk
    unfold Spec.Hier.ownScore
    rw [hz]
    generalize h.agree _ k - h.agree _ k = w
    exact ⟨z * w, by rw [Int.cast_mul]; ring⟩
  have h2 : ∀ ls : List HLayer, (∀ k ∈ ls, k ∈ h.layers) → ∃ z : ℤ,
      (ls.map fun k => k.lbda * (pred2 k.model (h.cols k.z) (h.val s k.z e.1) (h.val s k.u e.2) : ℝ)).sum = z * (c / 2) := by
    intro ls
    induction ls with
    | nil => exact fun _ => ⟨0, by simp⟩
    | cons k' ls ih =>
      intro hmem
      obtain ⟨z1, hz1⟩ := ih fun x hx => hmem x (by simp [hx])
      obtain ⟨z2, hz2⟩ := hl k' (hmem k' (by simp))
      refine ⟨z2 * (2 * pred2 k'.model (h.cols k'.z) (h.val s k'.z e.1) (h.val s k'.u e.2)) + z1, ?_⟩
      rw [List.map_cons, List.sum_cons, hz1, hz2]
      push_cast
      ring
  obtain ⟨z1, hz1⟩ := h1
  obtain ⟨z2, hz2⟩ := h2 (h.parentsOf i) fun x hx => List.mem_of_mem_filter hx
  rw [hz1, hz2] at hod
  refine hp i i.2 (-(z1 + z2)) ?_
  push_cast
  linarith

/-- the hypotheses of C79 hold for the machine of `C76_example` -/
theorem C79_example : towerHier.NoTies := by
  refine C79_noTies C76_example.1 1 ?_ ?_
  · intro k hk
    have : k = ⟨.OR_AND, 0, 1, 7, 1, none⟩ ∨ k = ⟨.XOR_AND, 2, 3, 0, 2, none⟩ ∨ k = ⟨.NAND_XOR, 4, 5, 8, 3, some 6⟩ := by
      simpa [towerHier] using hk
    rcases this with rfl | rfl | rfl
    · exact ⟨1, by norm_num⟩
    · exact ⟨2, by norm_num⟩
    · exact ⟨3, by norm_num⟩
  · intro i _ z hz
    have e1 : logit (towerHier.prior i) = -Real.log 2 := by
      unfold logit towerHier
      rw [← Real.log_inv]
      norm_num
    rw [e1] at hz
    have g1 := Real.log_two_gt_d9
    have g2 := Real.log_two_lt_d9
    have l1 : (-2 : ℝ) < z := by linarith
    have l2 : (z : ℝ) < -1 := by linarith
    have l1' : (-2 : ℤ) < z := by exact_mod_cast l1
    have l2' : z < (-1 : ℤ) := by exact_mod_cast l2
    omega

end LFM
