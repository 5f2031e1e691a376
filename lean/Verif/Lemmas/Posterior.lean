import Mathlib.Tactic.Linarith
import Mathlib.Algebra.BigOperators.Field
import Mathlib.Tactic.FinCases
import Mathlib.Algebra.Order.BigOperators.Ring.Finset
import Mathlib.Analysis.SpecialFunctions.Log.Basic
import Verif.Spec.Posterior
import Verif.Lemmas.Outputs

/-! Log-likelihood differences are `λ/2` times agreement differences; symmetries of the agreement. -/

namespace LFM

open Spec

theorem sigmoid_pos (x : ℝ) : 0 < sigmoid x := by
  unfold sigmoid; positivity

theorem log_sigmoid_sub (x : ℝ) : Real.log (sigmoid x) - Real.log (sigmoid (-x)) = x := by
  unfold sigmoid
  rw [neg_neg, ← Real.log_div (by positivity) (by positivity)]
  have : (1 / (1 + Real.exp (-x))) / (1 / (1 + Real.exp x)) = Real.exp x := by
    have h : Real.exp (-x) * Real.exp x = 1 := by rw [← Real.exp_add]; simp
    have h1 : (1 + Real.exp (-x)) ≠ 0 := by positivity
    have h2 : (1 + Real.exp x) ≠ 0 := by positivity
    field_simp
    linarith
  rw [this, Real.log_exp]

theorem cellLik_pos (lbda : ℝ) (x p : Int) : 0 < cellLik lbda x p := by
  unfold cellLik
  split
  · exact one_pos
  · exact sigmoid_pos _

theorem log_cellLik_sub (lbda : ℝ) {x p p' : Int} (hx : IsData x) (hp : IsPM p) (hp' : IsPM p') :
    Real.log (cellLik lbda x p) - Real.log (cellLik lbda x p') = lbda * (x * (p - p') : Int) / 2 := by
  have h := log_sigmoid_sub lbda
  rcases hx with rfl | rfl | rfl <;> rcases hp with rfl | rfl <;> rcases hp' with rfl | rfl <;>
    simp [cellLik] <;> linarith

theorem isPM_pm (P : Prop) : IsPM (pm P) := by
  unfold pm; split
  · exact Or.inl rfl
  · exact Or.inr rfl

theorem isPM_pred2 (m : Lom8) (L : Nat) (z u : Nat → Int) : IsPM (pred2 m L z u) := isPM_pm _

theorem isPM_pred3 (m : Lom8) (L : Nat) (z u v : Nat → Int) : IsPM (pred3 m L z u v) := isPM_pm _

theorem lik2_pos (m : Lom8) (N D L : Nat) (lbda : ℝ) (X : Nat → Nat → Int) (F G : Factor) :
    0 < lik2 m N D L lbda X F G :=
  Finset.prod_pos fun _ _ => Finset.prod_pos fun _ _ => cellLik_pos _ _ _

theorem lik3_pos (m : Lom8) (N D M L : Nat) (lbda : ℝ) (X : Nat → Nat → Nat → Int) (F G H : Factor) :
    0 < lik3 m N D M L lbda X F G H :=
  Finset.prod_pos fun _ _ => Finset.prod_pos fun _ _ => Finset.prod_pos fun _ _ => cellLik_pos _ _ _

theorem log_lik2_sub (m : Lom8) (N D L : Nat) (lbda : ℝ) (X : Nat → Nat → Int) (F G F' G' : Factor)
    (hX : ∀ n d, n < N → d < D → IsData (X n d)) :
    Real.log (lik2 m N D L lbda X F G) - Real.log (lik2 m N D L lbda X F' G') =
      lbda * ((agreement2 m N D L X F G - agreement2 m N D L X F' G' : Int) : ℝ) / 2 := by
  unfold lik2 agreement2
  rw [Real.log_prod (fun n _ => (Finset.prod_pos fun d _ => cellLik_pos _ _ _).ne'),
    Real.log_prod (fun n _ => (Finset.prod_pos fun d _ => cellLik_pos _ _ _).ne'),
    ← Finset.sum_sub_distrib, ← Finset.sum_sub_distrib]
  push_cast
  rw [Finset.mul_sum, Finset.sum_div]
  refine Finset.sum_congr rfl fun n _ => ?_
  rw [Real.log_prod (fun n _ => (cellLik_pos _ _ _).ne'),
    Real.log_prod (fun n _ => (cellLik_pos _ _ _).ne'), ← Finset.sum_sub_distrib,
    ← Finset.sum_sub_distrib, Finset.mul_sum, Finset.sum_div]
  refine Finset.sum_congr rfl fun d _ => ?_
  rw [log_cellLik_sub lbda (hX n d n.2 d.2) (isPM_pred2 _ _ _ _) (isPM_pred2 _ _ _ _)]
  push_cast
  ring

theorem log_lik3_sub (m : Lom8) (N D M L : Nat) (lbda : ℝ) (X : Nat → Nat → Nat → Int)
    (F G H F' G' H' : Factor) (hX : ∀ n d k, n < N → d < D → k < M → IsData (X n d k)) :
    Real.log (lik3 m N D M L lbda X F G H) - Real.log (lik3 m N D M L lbda X F' G' H') =
      lbda * ((agreement3 m N D M L X F G H - agreement3 m N D M L X F' G' H' : Int) : ℝ) / 2 := by
  unfold lik3 agreement3
  rw [Real.log_prod (fun n _ => (Finset.prod_pos fun d _ => Finset.prod_pos fun _ _ =>
      cellLik_pos _ _ _).ne'),
    Real.log_prod (fun n _ => (Finset.prod_pos fun d _ => Finset.prod_pos fun _ _ =>
      cellLik_pos _ _ _).ne'),
    ← Finset.sum_sub_distrib, ← Finset.sum_sub_distrib]
  push_cast
  rw [Finset.mul_sum, Finset.sum_div]
  refine Finset.sum_congr rfl fun n _ => ?_
  rw [Real.log_prod (fun n _ => (Finset.prod_pos fun d _ => cellLik_pos _ _ _).ne'),
    Real.log_prod (fun n _ => (Finset.prod_pos fun d _ => cellLik_pos _ _ _).ne'),
    ← Finset.sum_sub_distrib, ← Finset.sum_sub_distrib, Finset.mul_sum, Finset.sum_div]
  refine Finset.sum_congr rfl fun d _ => ?_
  rw [Real.log_prod (fun n _ => (cellLik_pos _ _ _).ne'),
    Real.log_prod (fun n _ => (cellLik_pos _ _ _).ne'), ← Finset.sum_sub_distrib,
    ← Finset.sum_sub_distrib, Finset.mul_sum, Finset.sum_div]
  refine Finset.sum_congr rfl fun k _ => ?_
  rw [log_cellLik_sub lbda (hX n d k n.2 d.2 k.2) (isPM_pred3 _ _ _ _ _)
    (isPM_pred3 _ _ _ _ _)]
  push_cast
  ring

theorem Factor.set_row_ne (F : Factor) {i i' : Nat} (l : Nat) (v : Int) (h : i' ≠ i) :
    F.set i l v i' = F i' := by
  funext l'; simp [Spec.Factor.set, h]

theorem Factor.set_row_eq (F : Factor) (i l : Nat) (v : Int) :
    F.set i l v i = setEntry (F i) l v := by
  funext l'; simp [Spec.Factor.set, setEntry]

theorem agreement2_set (m : Lom8) (N D L : Nat) (X : Nat → Nat → Int) (F G : Factor) (i l : Nat)
    (hi : i < N) :
    agreement2 m N D L X (F.set i l 1) G - agreement2 m N D L X (F.set i l (-1)) G =
      twiceScore2 m D L (F i) G (X i) l := by
  unfold agreement2 twiceScore2
  rw [← Finset.sum_sub_distrib, Finset.sum_eq_single ⟨i, hi⟩]
  · rw [← Finset.sum_sub_distrib]
    refine Finset.sum_congr rfl fun d _ => ?_
    rw [Factor.set_row_eq, Factor.set_row_eq]; ring
  · intro n _ hn
    have : (n : Nat) ≠ i := fun h => hn (Fin.ext h)
    rw [Factor.set_row_ne _ _ _ this, Factor.set_row_ne _ _ _ this, sub_self]
  · simp

theorem agreement3_set (m : Lom8) (N D M L : Nat) (X : Nat → Nat → Nat → Int) (F G H : Factor)
    (i l : Nat) (hi : i < N) :
    agreement3 m N D M L X (F.set i l 1) G H - agreement3 m N D M L X (F.set i l (-1)) G H =
      twiceScore3 m D M L (F i) G H (X i) l := by
  unfold agreement3 twiceScore3
  rw [← Finset.sum_sub_distrib, Finset.sum_eq_single ⟨i, hi⟩]
  · rw [← Finset.sum_sub_distrib]
    refine Finset.sum_congr rfl fun d _ => ?_
    rw [← Finset.sum_sub_distrib]
    refine Finset.sum_congr rfl fun k _ => ?_
    rw [Factor.set_row_eq, Factor.set_row_eq]; ring
  · intro n _ hn
    have : (n : Nat) ≠ i := fun h => hn (Fin.ext h)
    rw [Factor.set_row_ne _ _ _ this, Factor.set_row_ne _ _ _ this, sub_self]
  · simp

theorem pred2_comm (m : Lom8) (L : Nat) (z u : Nat → Int) : pred2 m L z u = pred2 m L u z := by
  apply pm_congr
  rw [← lom_perm_factor (Equiv.swap (0 : Fin 2) 1)]
  apply iff_of_eq
  congr 1
  funext l k
  fin_cases k <;> simp

theorem pred3_perm (m : Lom8) (L : Nat) (a : Fin 3 → Nat → Int) (τ : Equiv.Perm (Fin 3)) :
    pred3 m L (a (τ 0)) (a (τ 1)) (a (τ 2)) = pred3 m L (a 0) (a 1) (a 2) := by
  apply pm_congr
  rw [← lom_perm_factor τ (x := fun (l : Fin L) k => ![a 0 l, a 1 l, a 2 l] k = 1)]
  apply iff_of_eq
  congr 1
  funext l k
  have h : ∀ j : Fin 3, ![a 0 l, a 1 l, a 2 l] j = a j l := by
    intro j; fin_cases j <;> rfl
  rw [h]
  fin_cases k <;> rfl

theorem pred3_swap01 (m : Lom8) (L : Nat) (z u v : Nat → Int) :
    pred3 m L u z v = pred3 m L z u v :=
  pred3_perm m L ![z, u, v] (Equiv.swap 0 1)

theorem pred3_rot (m : Lom8) (L : Nat) (z u v : Nat → Int) :
    pred3 m L v z u = pred3 m L z u v :=
  pred3_perm m L ![z, u, v] ⟨![2, 0, 1], ![1, 2, 0], by decide, by decide⟩

theorem agreement2_swap (m : Lom8) (N D L : Nat) (X : Nat → Nat → Int) (F G : Factor) :
    agreement2 m D N L (fun d n => X n d) G F = agreement2 m N D L X F G := by
  unfold agreement2
  rw [Finset.sum_comm]
  simp only [pred2_comm m L (G _) (F _)]

theorem agreement3_swap01 (m : Lom8) (N D M L : Nat) (X : Nat → Nat → Nat → Int) (F G H : Factor) :
    agreement3 m D N M L (fun d n k => X n d k) G F H = agreement3 m N D M L X F G H := by
  unfold agreement3
  rw [Finset.sum_comm]
  simp only [pred3_swap01 m L (F _) (G _)]

theorem agreement3_rot (m : Lom8) (N D M L : Nat) (X : Nat → Nat → Nat → Int) (F G H : Factor) :
    agreement3 m M N D L (fun k n d => X n d k) H F G = agreement3 m N D M L X F G H := by
  unfold agreement3
  rw [Finset.sum_comm]
  refine Finset.sum_congr rfl fun n _ => ?_
  rw [Finset.sum_comm]
  simp only [pred3_rot m L (F _) (G _)]

theorem priorProb_pos {q : ℝ} (h0 : 0 < q) (h1 : q < 1) (N L : Nat) (F : Factor) :
    0 < priorProb q N L F :=
  Finset.prod_pos fun _ _ => Finset.prod_pos fun _ _ => by
    split
    · exact h0
    · linarith

/-- changing one entry from -1 to 1 changes the log prior by `logit q` -/
theorem log_priorProb_set {q : ℝ} (h0 : 0 < q) (h1 : q < 1) (N L : Nat) (F : Factor) {i l : Nat}
    (hi : i < N) (hl : l < L) :
    Real.log (priorProb q N L (F.set i l 1)) - Real.log (priorProb q N L (F.set i l (-1))) =
      Real.log (q / (1 - q)) := by
  have hp : ∀ (F : Factor) (n l : Nat), (if F n l = 1 then q else 1 - q) ≠ 0 := by
    intro F n l
    split
    · exact h0.ne'
    · exact ne_of_gt (by linarith)
  unfold priorProb
  rw [Real.log_prod (fun n _ => Finset.prod_ne_zero_iff.2 fun d _ => hp _ _ _),
    Real.log_prod (fun n _ => Finset.prod_ne_zero_iff.2 fun d _ => hp _ _ _),
    ← Finset.sum_sub_distrib, Finset.sum_eq_single ⟨i, hi⟩]
  · rw [Real.log_prod (fun n _ => hp _ _ _), Real.log_prod (fun n _ => hp _ _ _),
      ← Finset.sum_sub_distrib, Finset.sum_eq_single ⟨l, hl⟩]
    · simp only [Spec.Factor.set, and_self, if_true]
      rw [if_neg (by decide), Real.log_div h0.ne' (by linarith)]
    · intro k _ hk
      have : (k : Nat) ≠ l := fun h => hk (Fin.ext h)
      simp [Spec.Factor.set, this]
    · simp
  · intro n _ hn
    have : (n : Nat) ≠ i := fun h => hn (Fin.ext h)
    rw [Factor.set_row_ne _ _ _ this, Factor.set_row_ne _ _ _ this, sub_self]
  · simp

end LFM
