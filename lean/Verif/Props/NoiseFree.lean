import Verif.Props.RandomMatrix
import Verif.Props.ZeroOne
import Verif.Props.Lambda
import Verif.Props.Canonise

/-!
# C131: data that follow a model exactly are best explained by the factors they come from
-/

namespace LFM

open Spec MeasureTheory

namespace Spec

/-- the factors predict every observed cell -/
def Reproduces2 (m : Lom8) (N D L : Nat) (X : Nat → Nat → Int) (F G : Factor) : Prop :=
  ∀ n < N, ∀ d < D, X n d ≠ 0 → X n d = pred2 m L (F n) (G d)

/-- the factors predict every observed cell -/
def Reproduces3 (m : Lom8) (N D M L : Nat) (X : Nat → Nat → Nat → Int) (F G H : Factor) : Prop :=
  ∀ n < N, ∀ d < D, ∀ k < M, X n d k ≠ 0 → X n d k = pred3 m L (F n) (G d) (H k)

end Spec

theorem cellLik_le {lbda : ℝ} (hl : 0 ≤ lbda) {x p q : Int} (hp : IsPM p) (hq : IsPM q) (h : x ≠ 0 → x = p) :
    cellLik lbda x q ≤ cellLik lbda x p := by
  unfold cellLik
  split
  · exact le_rfl
  · rename_i hx
    refine sigmoid_strictMono.monotone ?_
    rw [h hx]
    rcases hp with rfl | rfl <;> rcases hq with rfl | rfl <;> push_cast <;> linarith

theorem cellLik_lt {lbda : ℝ} (hl : 0 < lbda) {x p q : Int} (hp : IsPM p) (hq : IsPM q) (h : x ≠ 0 → x = p) (hx : x ≠ 0)
    (hne : x ≠ q) : cellLik lbda x q < cellLik lbda x p := by
  unfold cellLik
  rw [if_neg hx, if_neg hx]
  refine sigmoid_strictMono ?_
  have := h hx
  subst this
  rcases hp with rfl | rfl <;> rcases hq with rfl | rfl <;> first | (exact absurd rfl hne) | (push_cast; linarith)

/-- **C131 (likelihood, two dimensions).** If factors reproduce all observed cells, no factors have a larger likelihood, for any
`λ ≥ 0`; those that do not reproduce the cells have a smaller one, for any `λ > 0`. -/
theorem C131_best_2d (m : Lom8) {N D L : Nat} {lbda : ℝ} (hl : 0 ≤ lbda) {X : Nat → Nat → Int} {F G : Factor}
    (h : Reproduces2 m N D L X F G) (F' G' : Factor) :
    lik2 m N D L lbda X F' G' ≤ lik2 m N D L lbda X F G ∧
      (0 < lbda → ¬ Reproduces2 m N D L X F' G' → lik2 m N D L lbda X F' G' < lik2 m N D L lbda X F G) := by
  have e : ∀ F G : Factor, lik2 m N D L lbda X F G = ∏ i : Fin N × Fin D, cellLik lbda (X i.1 i.2) (pred2 m L (F i.1) (G i.2)) := by
    intro F G; rw [lik2, Fintype.prod_prod_type]
  have hle : ∀ i : Fin N × Fin D, cellLik lbda (X i.1 i.2) (pred2 m L (F' i.1) (G' i.2)) ≤
      cellLik lbda (X i.1 i.2) (pred2 m L (F i.1) (G i.2)) := fun i =>
    cellLik_le hl (pred2_isPM ..) (pred2_isPM ..) (h i.1 i.1.2 i.2 i.2.2)
  rw [e, e]
  refine ⟨Finset.prod_le_prod (fun i _ => (cellLik_pos _ _ _).le) fun i _ => hle i, fun hl' hne => ?_⟩
  unfold Reproduces2 at hne
  push Not at hne
  obtain ⟨n, hn, d, hd, hx, hne⟩ := hne
  exact Finset.prod_lt_prod (fun i _ => cellLik_pos _ _ _) (fun i _ => hle i)
    ⟨(⟨n, hn⟩, ⟨d, hd⟩), Finset.mem_univ _, cellLik_lt hl' (pred2_isPM ..) (pred2_isPM ..) (h n hn d hd) hx hne⟩

/-- **C131 (likelihood, three dimensions).** -/
theorem C131_best_3d (m : Lom8) {N D M L : Nat} {lbda : ℝ} (hl : 0 ≤ lbda) {X : Nat → Nat → Nat → Int} {F G H : Factor}
    (h : Reproduces3 m N D M L X F G H) (F' G' H' : Factor) :
    lik3 m N D M L lbda X F' G' H' ≤ lik3 m N D M L lbda X F G H ∧
      (0 < lbda → ¬ Reproduces3 m N D M L X F' G' H' → lik3 m N D M L lbda X F' G' H' < lik3 m N D M L lbda X F G H) := by
  have e : ∀ F G H : Factor, lik3 m N D M L lbda X F G H =
      ∏ i : Fin N × Fin D × Fin M, cellLik lbda (X i.1 i.2.1 i.2.2) (pred3 m L (F i.1) (G i.2.1) (H i.2.2)) := by
    intro F G H
    rw [lik3, Fintype.prod_prod_type]
    refine Finset.prod_congr rfl fun n _ => ?_
    rw [Fintype.prod_prod_type]
  have hle : ∀ i : Fin N × Fin D × Fin M, cellLik lbda (X i.1 i.2.1 i.2.2) (pred3 m L (F' i.1) (G' i.2.1) (H' i.2.2)) ≤
      cellLik lbda (X i.1 i.2.1 i.2.2) (pred3 m L (F i.1) (G i.2.1) (H i.2.2)) := fun i =>
    cellLik_le hl (pred3_isPM ..) (pred3_isPM ..) (h i.1 i.1.2 i.2.1 i.2.1.2 i.2.2 i.2.2.2)
  rw [e, e]
  refine ⟨Finset.prod_le_prod (fun i _ => (cellLik_pos _ _ _).le) fun i _ => hle i, fun hl' hne => ?_⟩
  unfold Reproduces3 at hne
  push Not at hne
  obtain ⟨n, hn, d, hd, k, hk, hx, hne⟩ := hne
  exact Finset.prod_lt_prod (fun i _ => cellLik_pos _ _ _) (fun i _ => hle i)
    ⟨(⟨n, hn⟩, ⟨d, hd⟩, ⟨k, hk⟩), Finset.mem_univ _, cellLik_lt hl' (pred3_isPM ..) (pred3_isPM ..) (h n hn d hd k hk) hx hne⟩

/-! ## Sweeps -/

/-- one entry of a row that predicts all observed cells: the score never speaks against it, and if it does not speak for it,
the row with the other value predicts all observed cells, too -/
theorem entry_of_reproducing {κ : Type} [Fintype κ] (pr : (Nat → Int) → κ → Int) (hpr : ∀ z k, IsPM (pr z k)) {x : κ → Int}
    {z : Nat → Int} {l : Nat} {S : Int} (hz : IsPM (z l)) (h : ∀ k, x k ≠ 0 → x k = pr z k)
    (hS : 2 * S = ∑ k, x k * (pr (setEntry z l 1) k - pr (setEntry z l (-1)) k)) :
    0 ≤ z l * S ∧ (z l * S = 0 → ∀ k, x k ≠ 0 → x k = pr (setEntry z l (-(z l))) k) := by
  have hs : setEntry z l (z l) = z := by
    funext l'; unfold setEntry; split
    · rename_i e; rw [e]
    · rfl
  have hsum : 2 * (z l * S) = ∑ k, x k * (pr z k - pr (setEntry z l (-(z l))) k) := by
    have : 2 * (z l * S) = z l * (2 * S) := by ring
    rw [this, hS, Finset.mul_sum]
    refine Finset.sum_congr rfl fun k _ => ?_
    rcases hz with e | e
    · have h1 : setEntry z l 1 = z := by rw [← e]; exact hs
      rw [h1, e]; ring
    · have h1 : setEntry z l (-1) = z := by rw [← e]; exact hs
      rw [h1, e, neg_neg]; ring
  have hterm : ∀ k, 0 ≤ x k * (pr z k - pr (setEntry z l (-(z l))) k) := by
    intro k
    by_cases hx : x k = 0
    · rw [hx, zero_mul]
    · rw [h k hx]
      rcases hpr z k with e | e <;> rcases hpr (setEntry z l (-(z l))) k with e' | e' <;> rw [e, e'] <;> decide
  refine ⟨?_, fun h0 k hx => ?_⟩
  · have := Finset.sum_nonneg (s := Finset.univ) fun k _ => hterm k
    omega
  · rw [h0, mul_zero] at hsum
    have := (Finset.sum_eq_zero_iff_of_nonneg fun k _ => hterm k).mp hsum.symm k (Finset.mem_univ _)
    rcases mul_eq_zero.mp this with e | e
    · exact absurd e hx
    · rw [h k hx]; omega

/-- an entry that a score speaks for keeps its value if the draw is large enough -/
theorem flip_kept {lbda lp u : ℝ} {z S : Int} (hz : IsPM z) (hl : |lp| < lbda) (hS : 1 ≤ z * S) (hu : Real.exp (|lp| - lbda) ≤ u) :
    flip_metropolised_gibbs_numba (lbda * S + lp) z u = z := by
  have hp : 0 < lbda := lt_of_le_of_lt (abs_nonneg _) hl
  have hS' : (1 : ℝ) ≤ z * S := by exact_mod_cast hS
  have h1 : lbda - |lp| ≤ (z : ℝ) * (lbda * S + lp) := by
    have e : (z : ℝ) * (lbda * S + lp) = lbda * (z * S) + z * lp := by ring
    have h2 : -|lp| ≤ (z : ℝ) * lp := by
      rcases hz with rfl | rfl
      · push_cast; rw [one_mul]; exact neg_abs_le lp
      · push_cast; rw [neg_one_mul]; exact neg_le_neg (le_abs_self lp)
    rw [e]
    nlinarith
  unfold flip_metropolised_gibbs_numba
  rw [if_neg, if_neg, if_neg]
  · refine not_lt.mpr (le_trans (Real.exp_le_exp.mpr ?_) hu)
    linarith
  · rintro ⟨rfl, h⟩
    push_cast at h1
    linarith
  · rintro ⟨rfl, h⟩
    push_cast at h1
    linarith

theorem flip_values (x u : ℝ) {z : Int} (hz : IsPM z) :
    flip_metropolised_gibbs_numba x z u = z ∨ flip_metropolised_gibbs_numba x z u = -z := by
  unfold flip_metropolised_gibbs_numba
  rcases hz with rfl | rfl <;> split_ifs <;> simp

theorem sweep_keeps {logit : Arr Int → List Nat → ℝ} {Zf : Arr Int} {rnd : Rnd} (I : Arr Int → Prop) {ts : List (List Nat)}
    (step : ∀ Z, I Z → ∀ t ∈ ts, I (updEntry logit Zf rnd Z t)) {Z : Arr Int} (h : I Z) : I (sweep logit Zf rnd ts Z) := by
  induction ts generalizing Z with
  | nil => exact h
  | cons t ts ih => exact ih (fun Z hZ t' ht => step Z hZ t' (by simp [ht])) (step Z h t (by simp))

theorem row_set (Y : Arr Int) (n l : Nat) (v : Int) :
    (fun l' => (Y.set [n, l] v) [n, l']) = setEntry (fun l' => Y [n, l']) l v := by
  funext l'
  simp only [Arr.set, setEntry]
  by_cases h : l' = l <;> simp [h]

theorem other_row_set (Y : Arr Int) {n n' : Nat} (h : n' ≠ n) (l : Nat) (v : Int) :
    (fun l' => (Y.set [n, l] v) [n', l']) = fun l' => Y [n', l'] := by
  funext l'
  simp [Arr.set, h]

/-- **C131 (sweeps, two dimensions).** With a prior whose logit is below `λ` in absolute value: if a factor and the other
reproduce all observed cells before a sweep over the factor, and all draws are at least `exp(|logit prior| - λ)`, they do
after it. -/
theorem C131_sweep_2d (m : Lom8) : ∃ f, get_posterior_score_fct (pyDashToUnderscore (m.name ++ "-2D")) = .ok (.two f) ∧
    ∀ (N D L : Nat) (Z Zf U X : Arr Int) (lbda lp : ℝ) (rnd : Rnd), Z.shape = [N, L] → U.shape = [D, L] → X.shape = [N, D] →
      PMArr Z → PMArr U → DataArr X → D ≤ 32767 → |lp| < lbda →
      Reproduces2 m N D L (fun n d => X [n, d]) (fun n l => Z [n, l]) (fun d l => U [d, l]) →
      (∀ n < N, ∀ l < L, Real.exp (|lp| - lbda) ≤ rnd [n, l]) →
      Reproduces2 m N D L (fun n d => X [n, d]) (fun n l => sampling_onechild_2D f Z Zf U X lbda lp rnd [n, l]) (fun d l => U [d, l]) := by
  obtain ⟨f, hf, h⟩ := C14_score_2d_partial m
  refine ⟨f, hf, fun N D L Z Zf U X lbda lp rnd hZ hU hX pZ pU pX hD hl hrep hr => ?_⟩
  rw [sampling_onechild_2D_eq]
  have hd : Z.dim 0 = N ∧ Z.dim 1 = L := by simp [Arr.dim, hZ]
  rw [hd.1, hd.2]
  let I : Arr Int → Prop := fun Y => Y.shape = [N, L] ∧ PMArr Y ∧
    Reproduces2 m N D L (fun n d => X [n, d]) (fun n l => Y [n, l]) (fun d l => U [d, l])
  refine (sweep_keeps I (fun Y hY t ht => ?_) ⟨hZ, pZ, hrep⟩).2.2
  obtain ⟨sY, pY, rY⟩ := hY
  obtain ⟨n, hn, l, hll, rfl⟩ := mem_tasks2.mp ht
  unfold updEntry
  split
  · exact ⟨sY, pY, rY⟩
  have hrow := pY.row (n := n) sY hn
  have hXr : DataArr (X.row n) := fun idx hi => by
    have hs : (X.row n).shape = [D] := by simp [Arr.row, hX]
    rw [hs] at hi
    match idx, hi with
    | [d], hi => exact pX [n, d] (by rw [hX]; exact ⟨hn, hi.1, trivial⟩)
  have hS := h D L (Y.row n) U (X.row n) l hll hrow.1 hU (by simp [Arr.row, hX]) hrow.2 pU hXr hD
  have hy : IsPM (Y [n, l]) := pY [n, l] (by rw [sY]; exact ⟨hn, hll, trivial⟩)
  obtain ⟨k1, k2⟩ := entry_of_reproducing (κ := Fin D) (fun z d => pred2 m L z fun l => U [(d : Nat), l]) (fun z d => pred2_isPM ..)
    (x := fun d => X [n, (d : Nat)]) (z := fun l => Y [n, l]) (l := l) (S := f (Y.row n) U (X.row n) l) hy
    (fun d hx => rY n hn d d.2 hx) hS
  set v := flip_metropolised_gibbs_numba (lbda * f (Y.row n) U (X.row n) l + lp) (Y [n, l]) (rnd [n, l]) with hv
  have hvpm : IsPM v := by
    rcases flip_values (lbda * f (Y.row n) U (X.row n) l + lp) (rnd [n, l]) hy with e | e <;> rw [hv, e]
    · exact hy
    · rcases hy with e' | e' <;> rw [e'] <;> simp [IsPM]
  refine ⟨sY, fun idx hi => ?_, fun n' hn' d hd' hx => ?_⟩
  · show IsPM (if idx = [n, l] then v else Y idx)
    split
    · exact hvpm
    · exact pY idx hi
  show X [n', d] = pred2 m L (fun l' => (Y.set [n, l] v) [n', l']) _
  by_cases hnn : n' = n
  swap
  · rw [other_row_set Y hnn]; exact rY n' hn' d hd' hx
  subst hnn
  rw [row_set]
  have hsame : setEntry (fun l' => Y [n', l']) l (Y [n', l]) = fun l' => Y [n', l'] := by
    funext l'; unfold setEntry; split
    · rename_i e; rw [e]
    · rfl
  by_cases h0 : Y [n', l] * f (Y.row n') U (X.row n') l = 0
  · rcases flip_values (lbda * f (Y.row n') U (X.row n') l + lp) (rnd [n', l]) hy with e | e
    · rw [hv, e, hsame]; exact rY n' hn' d hd' hx
    · rw [hv, e]; exact k2 h0 ⟨d, hd'⟩ hx
  · have : v = Y [n', l] := flip_kept hy hl (by omega) (hr n' hn' l hll)
    rw [this, hsame]; exact rY n' hn' d hd' hx

/-- **C131 (sweeps, three dimensions).** -/
theorem C131_sweep_3d (m : Lom8) : ∃ f, get_posterior_score_fct (pyDashToUnderscore (m.name ++ "-3D")) = .ok (.three f) ∧
    ∀ (N D M L : Nat) (Z Zf U V X : Arr Int) (lbda lp : ℝ) (rnd : Rnd), Z.shape = [N, L] → U.shape = [D, L] → V.shape = [M, L] →
      X.shape = [N, D, M] → PMArr Z → PMArr U → PMArr V → DataArr X → D * M < 2 ^ 63 → |lp| < lbda →
      Reproduces3 m N D M L (fun n d k => X [n, d, k]) (fun n l => Z [n, l]) (fun d l => U [d, l]) (fun k l => V [k, l]) →
      (∀ n < N, ∀ l < L, Real.exp (|lp| - lbda) ≤ rnd [n, l]) →
      Reproduces3 m N D M L (fun n d k => X [n, d, k]) (fun n l => sampling_onechild_3D f Z Zf U V X lbda lp rnd [n, l])
        (fun d l => U [d, l]) (fun k l => V [k, l]) := by
  obtain ⟨f, hf, h⟩ := C15_score_3d m
  refine ⟨f, hf, fun N D M L Z Zf U V X lbda lp rnd hZ hU hV hX pZ pU pV pX hD hl hrep hr => ?_⟩
  rw [sampling_onechild_3D_eq]
  have hd : Z.dim 0 = N ∧ Z.dim 1 = L := by simp [Arr.dim, hZ]
  rw [hd.1, hd.2]
  let I : Arr Int → Prop := fun Y => Y.shape = [N, L] ∧ PMArr Y ∧
    Reproduces3 m N D M L (fun n d k => X [n, d, k]) (fun n l => Y [n, l]) (fun d l => U [d, l]) (fun k l => V [k, l])
  refine (sweep_keeps I (fun Y hY t ht => ?_) ⟨hZ, pZ, hrep⟩).2.2
  obtain ⟨sY, pY, rY⟩ := hY
  obtain ⟨n, hn, l, hll, rfl⟩ := mem_tasks2.mp ht
  unfold updEntry
  split
  · exact ⟨sY, pY, rY⟩
  have hrow := pY.row (n := n) sY hn
  have hXr := DataArr.row1 pX hX hn
  have hS := h D M L (Y.row n) U V (X.row n) l hll hrow.1 hU hV hXr.1 hrow.2 pU pV hXr.2 hD
  have hy : IsPM (Y [n, l]) := pY [n, l] (by rw [sY]; exact ⟨hn, hll, trivial⟩)
  have hS' : 2 * f (Y.row n) U V (X.row n) l = ∑ c : Fin D × Fin M, X [n, (c.1 : Nat), (c.2 : Nat)] *
      (pred3 m L (setEntry (fun l => Y [n, l]) l 1) (fun l => U [(c.1 : Nat), l]) (fun l => V [(c.2 : Nat), l]) -
        pred3 m L (setEntry (fun l => Y [n, l]) l (-1)) (fun l => U [(c.1 : Nat), l]) (fun l => V [(c.2 : Nat), l])) := by
    rw [hS, Fintype.sum_prod_type]
    rfl
  obtain ⟨k1, k2⟩ := entry_of_reproducing (κ := Fin D × Fin M)
    (fun z c => pred3 m L z (fun l => U [(c.1 : Nat), l]) (fun l => V [(c.2 : Nat), l])) (fun z d => pred3_isPM ..)
    (x := fun c => X [n, (c.1 : Nat), (c.2 : Nat)]) (z := fun l => Y [n, l]) (l := l) (S := f (Y.row n) U V (X.row n) l) hy
    (fun c hx => rY n hn c.1 c.1.2 c.2 c.2.2 hx) hS'
  set v := flip_metropolised_gibbs_numba (lbda * f (Y.row n) U V (X.row n) l + lp) (Y [n, l]) (rnd [n, l]) with hv
  have hvpm : IsPM v := by
    rcases flip_values (lbda * f (Y.row n) U V (X.row n) l + lp) (rnd [n, l]) hy with e | e <;> rw [hv, e]
    · exact hy
    · rcases hy with e' | e' <;> rw [e'] <;> simp [IsPM]
  refine ⟨sY, fun idx hi => ?_, fun n' hn' d hd' k hk' hx => ?_⟩
  · show IsPM (if idx = [n, l] then v else Y idx)
    split
    · exact hvpm
    · exact pY idx hi
  show X [n', d, k] = pred3 m L (fun l' => (Y.set [n, l] v) [n', l']) _ _
  by_cases hnn : n' = n
  swap
  · rw [other_row_set Y hnn]; exact rY n' hn' d hd' k hk' hx
  subst hnn
  rw [row_set]
  have hsame : setEntry (fun l' => Y [n', l']) l (Y [n', l]) = fun l' => Y [n', l'] := by
    funext l'; unfold setEntry; split
    · rename_i e; rw [e]
    · rfl
  by_cases h0 : Y [n', l] * f (Y.row n') U V (X.row n') l = 0
  · rcases flip_values (lbda * f (Y.row n') U V (X.row n') l + lp) (rnd [n', l]) hy with e | e
    · rw [hv, e, hsame]; exact rY n' hn' d hd' k hk' hx
    · rw [hv, e]; exact k2 h0 (⟨d, hd'⟩, ⟨k, hk'⟩) hx
  · have : v = Y [n', l] := flip_kept hy hl (by omega) (hr n' hn' l hll)
    rw [this, hsame]; exact rY n' hn' d hd' k hk' hx

/-- draws all of which are at least `e` -/
theorem draws_above {N L : Nat} {e : ℝ} (h0 : 0 ≤ e) :
    uniformDraws N L {u | ∀ n < N, ∀ l < L, e ≤ rndOf u [n, l]} = ENNReal.ofReal (1 - e) ^ (N * L) := by
  have hset : {u : Fin N × Fin L → ℝ | ∀ n < N, ∀ l < L, e ≤ rndOf u [n, l]} = Set.univ.pi fun _ => Set.Ici e := by
    ext u
    rw [Set.mem_univ_pi]
    constructor
    · intro h p
      have := h p.1 p.1.2 p.2 p.2.2
      simpa [rndOf] using this
    · intro h n hn l hl
      have := h (⟨n, hn⟩, ⟨l, hl⟩)
      simpa [rndOf, hn, hl] using this
  have h1 : volume.restrict (Set.Ico (0 : ℝ) 1) (Set.Ici e) = ENNReal.ofReal (1 - e) := by
    rw [Measure.restrict_apply measurableSet_Ici]
    have : Set.Ici e ∩ Set.Ico 0 1 = Set.Ico e 1 := by
      ext x
      exact ⟨fun h => ⟨h.1, h.2.2⟩, fun h => ⟨h.1, h0.trans h.1, h.2⟩⟩
    rw [this, Real.volume_Ico]
  rw [hset, uniformDraws, Measure.pi_pi]
  simp [h1]

/-- **C131 (staying).** With probability at least `(1 - exp(|logit prior| - λ)) ^ (N L)` a sweep over a factor that (with the
other) reproduces all observed cells leaves a factor that does. -/
theorem C131_stay_2d (m : Lom8) : ∃ f, get_posterior_score_fct (pyDashToUnderscore (m.name ++ "-2D")) = .ok (.two f) ∧
    ∀ (N D L : Nat) (Z Zf U X : Arr Int) (lbda lp : ℝ), Z.shape = [N, L] → U.shape = [D, L] → X.shape = [N, D] →
      PMArr Z → PMArr U → DataArr X → D ≤ 32767 → |lp| < lbda →
      Reproduces2 m N D L (fun n d => X [n, d]) (fun n l => Z [n, l]) (fun d l => U [d, l]) →
      ENNReal.ofReal (1 - Real.exp (|lp| - lbda)) ^ (N * L) ≤ uniformDraws N L {u | Reproduces2 m N D L (fun n d => X [n, d])
        (fun n l => sampling_onechild_2D f Z Zf U X lbda lp (rndOf u) [n, l]) (fun d l => U [d, l])} := by
  obtain ⟨f, hf, h⟩ := C131_sweep_2d m
  refine ⟨f, hf, fun N D L Z Zf U X lbda lp hZ hU hX pZ pU pX hD hl hrep => ?_⟩
  rw [← draws_above (Real.exp_pos _).le]
  exact measure_mono fun u hu => h N D L Z Zf U X lbda lp (rndOf u) hZ hU hX pZ pU pX hD hl hrep hu

/-- **C131 (staying, three dimensions).** -/
theorem C131_stay_3d (m : Lom8) : ∃ f, get_posterior_score_fct (pyDashToUnderscore (m.name ++ "-3D")) = .ok (.three f) ∧
    ∀ (N D M L : Nat) (Z Zf U V X : Arr Int) (lbda lp : ℝ), Z.shape = [N, L] → U.shape = [D, L] → V.shape = [M, L] →
      X.shape = [N, D, M] → PMArr Z → PMArr U → PMArr V → DataArr X → D * M < 2 ^ 63 → |lp| < lbda →
      Reproduces3 m N D M L (fun n d k => X [n, d, k]) (fun n l => Z [n, l]) (fun d l => U [d, l]) (fun k l => V [k, l]) →
      ENNReal.ofReal (1 - Real.exp (|lp| - lbda)) ^ (N * L) ≤ uniformDraws N L {u | Reproduces3 m N D M L (fun n d k => X [n, d, k])
        (fun n l => sampling_onechild_3D f Z Zf U V X lbda lp (rndOf u) [n, l]) (fun d l => U [d, l]) (fun k l => V [k, l])} := by
  obtain ⟨f, hf, h⟩ := C131_sweep_3d m
  refine ⟨f, hf, fun N D M L Z Zf U V X lbda lp hZ hU hV hX pZ pU pV pX hD hl hrep => ?_⟩
  rw [← draws_above (Real.exp_pos _).le]
  exact measure_mono fun u hu => h N D M L Z Zf U V X lbda lp (rndOf u) hZ hU hV hX pZ pU pV pX hD hl hrep hu

/-! ## Lambda -/

theorem correct2_of_reproduces {m : Lom8} {N D L : Nat} {X : Nat → Nat → Int} {F G : Factor} (h : Reproduces2 m N D L X F G) :
    correct2 m N D L X F G = observed2 N D X := by
  classical
  unfold correct2 observed2
  congr 1
  ext i
  simp only [Finset.mem_filter, Finset.mem_univ, true_and]
  refine ⟨fun e h0 => ?_, h i.1 i.1.2 i.2 i.2.2⟩
  rw [h0] at e
  rcases pred2_isPM m L (F i.1) (G i.2) with e' | e' <;> rw [e'] at e <;> exact absurd e (by decide)

theorem correct3_of_reproduces {m : Lom8} {N D M L : Nat} {X : Nat → Nat → Nat → Int} {F G H : Factor}
    (h : Reproduces3 m N D M L X F G H) : correct3 m N D M L X F G H = observed3 N D M X := by
  classical
  unfold correct3 observed3
  congr 1
  ext i
  simp only [Finset.mem_filter, Finset.mem_univ, true_and]
  refine ⟨fun e h0 => ?_, h i.1 i.1.2 i.2.1 i.2.1.2 i.2.2 i.2.2.2⟩
  rw [h0] at e
  rcases pred3_isPM m L (F i.1) (G i.2.1) (H i.2.2) with e' | e' <;> rw [e'] at e <;> exact absurd e (by decide)

theorem lambdas_ordered {P P' ND : Nat} {a b : ℝ} {r r' : Except Err NpF} (hP : P' ≤ P) (ha : 0 < a) (hb : 0 < b)
    (h : IsLambdaFor P ND a b r) (h' : IsLambdaFor P' ND a b r') :
    ∃ x x' : ℝ, r = .ok (.fin x) ∧ r' = .ok (.fin x') ∧ x' ≤ x := by
  obtain ⟨-, x, hx, -, hs⟩ := h
  obtain ⟨-, x', hx', -, hs'⟩ := h'
  refine ⟨x, x', hx, hx', sigmoid_strictMono.le_iff_le.mp ?_⟩
  rw [hs, hs']
  have : (P' : ℝ) ≤ P := by exact_mod_cast hP
  exact max_le_max le_rfl (by gcongr)

/-- **C131 (lambda, two dimensions).** The update of lambda is largest at factors that reproduce all observed cells, and is
the logit of `(n + a) / (n + a + b)` there if `b ≤ n + a`, with `n` observed cells. -/
theorem C131_lambda_2d (m : Lom8) : ∃ f, get_update_fct none m.name 2 = .ok f ∧
    ∀ (N D L : Nat) (Z U Z' U' X q : Arr Int) (a b : ℝ), Z.shape = [N, L] → U.shape = [D, L] → Z'.shape = [N, L] →
      U'.shape = [D, L] → X.shape = [N, D] → PMArr Z → PMArr U → PMArr Z' → PMArr U' → 0 < a → 0 < b →
      Reproduces2 m N D L (fun n d => X [n, d]) (fun n l => Z [n, l]) (fun d l => U [d, l]) →
      ∃ x x' : ℝ, f.run [Z, U] X q (a, b) = .ok (.fin x) ∧ f.run [Z', U'] X q (a, b) = .ok (.fin x') ∧ x' ≤ x ∧
        sigmoid x = max (1 / 2) ((observed2 N D (fun n d => X [n, d]) + a) / (observed2 N D (fun n d => X [n, d]) + a + b)) := by
  obtain ⟨f, hf, h⟩ := C27_lambda_smoothed_accuracy_2d m
  obtain ⟨c, -, hc⟩ := C26_correct_predictions_2d m
  refine ⟨f, hf, fun N D L Z U Z' U' X q a b hZ hU hZ' hU' hX pZ pU pZ' pU' ha hb hrep => ?_⟩
  have h1 := h N D L Z U X q a b hZ hU hX pZ pU ha hb
  have h2 := h N D L Z' U' X q a b hZ' hU' hX pZ' pU' ha hb
  have hc' := hc N D L Z' U' X hZ' hU' hX pZ' pU'
  rw [correct2_of_reproduces hrep] at h1
  obtain ⟨x, x', e1, e2, hle⟩ := lambdas_ordered (hc'.1 ▸ hc'.2.1) ha hb h1 h2
  refine ⟨x, x', e1, e2, hle, ?_⟩
  obtain ⟨-, y, hy, -, hs⟩ := h1
  rw [e1] at hy
  cases hy
  exact hs

/-- **C131 (lambda, three dimensions).** -/
theorem C131_lambda_3d (m : Lom8) : ∃ f, get_update_fct none m.name 3 = .ok f ∧
    ∀ (N D M L : Nat) (Z U V Z' U' V' X q : Arr Int) (a b : ℝ), Z.shape = [N, L] → U.shape = [D, L] → V.shape = [M, L] →
      Z'.shape = [N, L] → U'.shape = [D, L] → V'.shape = [M, L] → X.shape = [N, D, M] → PMArr Z → PMArr U → PMArr V →
      PMArr Z' → PMArr U' → PMArr V' → 0 < a → 0 < b →
      Reproduces3 m N D M L (fun n d k => X [n, d, k]) (fun n l => Z [n, l]) (fun d l => U [d, l]) (fun k l => V [k, l]) →
      ∃ x x' : ℝ, f.run [Z, U, V] X q (a, b) = .ok (.fin x) ∧ f.run [Z', U', V'] X q (a, b) = .ok (.fin x') ∧ x' ≤ x ∧
        sigmoid x = max (1 / 2) ((observed3 N D M (fun n d k => X [n, d, k]) + a) /
          (observed3 N D M (fun n d k => X [n, d, k]) + a + b)) := by
  obtain ⟨f, hf, h⟩ := C27_lambda_smoothed_accuracy_3d m
  obtain ⟨c, -, hc⟩ := C26_correct_predictions_3d m
  refine ⟨f, hf, fun N D M L Z U V Z' U' V' X q a b hZ hU hV hZ' hU' hV' hX pZ pU pV pZ' pU' pV' ha hb hrep => ?_⟩
  have h1 := h N D M L Z U V X q a b hZ hU hV hX pZ pU pV ha hb
  have h2 := h N D M L Z' U' V' X q a b hZ' hU' hV' hX pZ' pU' pV' ha hb
  have hc' := hc N D M L Z' U' V' X hZ' hU' hV' hX pZ' pU' pV'
  rw [correct3_of_reproduces hrep] at h1
  obtain ⟨x, x', e1, e2, hle⟩ := lambdas_ordered (hc'.1 ▸ hc'.2.1) ha hb h1 h2
  refine ⟨x, x', e1, e2, hle, ?_⟩
  obtain ⟨-, y, hy, -, hs⟩ := h1
  rw [e1] at hy
  cases hy
  exact hs

/-! ## Data generated by any of the 36 models -/

namespace Spec

/-- the array without some of its cells -/
def Incomplete (shape : List Nat) (X G : Arr Int) : Prop := X.shape = shape ∧ ∀ idx, InB shape idx → X idx = 0 ∨ X idx = G idx

/-- the factor, with all entries inverted or not -/
def orient (inv : Bool) (Z : Arr Int) : Factor := fun n l => if inv then -Z [n, l] else Z [n, l]

end Spec

theorem orient_bit {inv : Bool} {Z : Arr Int} {N L n l : Nat} (hZ : Z.shape = [N, L]) (pZ : PMArr Z) (hn : n < N) (hl : l < L) :
    orient inv Z n l = 1 ↔ if inv then ¬ Z [n, l] = 1 else Z [n, l] = 1 := by
  have := pZ [n, l] (by rw [hZ]; exact ⟨hn, hl, trivial⟩)
  unfold orient
  cases inv
  · simp
  · rcases this with e | e <;> simp [e]

/-- **C131 (generated data, two dimensions).** If data are generated from factors by any of the 36 models and some cells are
removed, then after `canonise_model` (as in `add_layer`) the data are reproduced by these factors, inverted if the model is
said to have inverted factors. -/
theorem C131_generated_2d (o i : LOp) {N D L : Nat} {Z U X G : Arr Int} (hZ : Z.shape = [N, L]) (hU : U.shape = [D, L]) (pZ : PMArr Z)
    (pU : PMArr U) (hG : lom_generate_data [Z, U] (modelName o i) = .ok G) (hX : Incomplete [N, D] X G) :
    ∃ (m : Lom8) (invert_data invert_factors : Bool) (Y : Arr Int),
      canonise_model (modelName o i) (some X) = (some Y, .ok (m.name, invert_data, invert_factors)) ∧ Y.shape = [N, D] ∧ DataArr Y ∧
        Reproduces2 m N D L (fun n d => Y [n, d]) (orient invert_factors Z) (orient invert_factors U) := by
  obtain ⟨m, iv, f, hc, heq⟩ := canonical_table o i
  obtain ⟨G', hG', -, vG⟩ := C03_all_models_all_arities o i L [Z, U] (by simp) (by
    intro g hg
    simp only [List.mem_cons, List.not_mem_nil, or_false] at hg
    rcases hg with rfl | rfl
    · exact ⟨N, hZ⟩
    · exact ⟨D, hU⟩)
  rw [hG] at hG'
  cases hG'
  have hrc : rowCounts [Z, U] = [N, D] := by simp [rowCounts, hZ, hU]
  rw [hrc] at vG
  have hpred : ∀ n (hn : n < N) d (hd : d < D), G [n, d] = if iv then -pred2 m L (orient f Z n) (orient f U d) else
      pred2 m L (orient f Z n) (orient f U d) := by
    intro n hn d hd
    rw [vG [n, d] ⟨hn, hd, trivial⟩]
    have h1 := heq (Fin L) (Fin 2) fun l k => ![Z [n, l], U [d, l]] k = 1
    have h2 : (lom o i fun (l : Fin L) (k : Fin [Z, U].length) => [Z, U][k] [[n, d].getD k 0, l] = 1) ↔
        lom o i fun (l : Fin L) (k : Fin 2) => ![Z [n, l], U [d, l]] k = 1 := by
      have : (fun (l : Fin L) (k : Fin [Z, U].length) => [Z, U][k] [[n, d].getD k 0, l] = 1) =
          fun (l : Fin L) (k : Fin 2) => ![Z [n, l], U [d, l]] k = 1 := by
        funext l k
        match k with
        | 0 => rfl
        | 1 => rfl
      rw [this]
    have h3 : (fun (l : Fin L) (k : Fin 2) => if f = true then ¬ ![Z [n, l], U [d, l]] k = 1 else ![Z [n, l], U [d, l]] k = 1) =
        fun (l : Fin L) (k : Fin 2) => ![orient f Z n l, orient f U d l] k = 1 := by
      funext l k
      match k with
      | 0 => exact propext (orient_bit hZ pZ hn l.2).symm
      | 1 => exact propext (orient_bit hU pU hd l.2).symm
    rw [h3] at h1
    classical
    unfold pred2
    rw [pm_eq_ite, pm_eq_ite, if_congr (h2.trans h1) rfl rfl]
    cases iv
    · simp
    · simp only [if_true]; split <;> simp_all
  have hcell : ∀ n (hn : n < N) d (hd : d < D), X [n, d] ≠ 0 → X [n, d] = G [n, d] := fun n hn d hd h0 =>
    (hX.2 [n, d] ⟨hn, hd, trivial⟩).resolve_left h0
  have hdata : ∀ n (hn : n < N) d (hd : d < D), IsData (X [n, d]) := by
    intro n hn d hd
    rcases hX.2 [n, d] ⟨hn, hd, trivial⟩ with e | e
    · exact .inr (.inr e)
    · rw [e, hpred n hn d hd]
      rcases pred2_isPM m L (orient f Z n) (orient f U d) with e' | e' <;> rw [e'] <;> cases iv <;> simp [IsData]
  cases iv with
  | false =>
    refine ⟨m, false, f, X, by simp [canonise_model, hc], hX.1, fun idx hi => ?_, fun n hn d hd h0 => ?_⟩
    · rw [hX.1] at hi
      match idx, hi with
      | [n, d], hi => exact hdata n hi.1 d hi.2.1
    · exact (hcell n hn d hd h0).trans (hpred n hn d hd)
  | true =>
    have hw : ∀ n (hn : n < N) d (hd : d < D), wrap8 (-(X [n, d])) = -(X [n, d]) := by
      intro n hn d hd
      rcases hdata n hn d hd with e | e | e <;> rw [e] <;> decide
    refine ⟨m, true, f, X.map fun x => wrap8 (-x), by simp [canonise_model, hc], hX.1, fun idx hi => ?_, fun n hn d hd h0 => ?_⟩
    · have hi' : InB [N, D] idx := by rw [← hX.1]; exact hi
      match idx, hi' with
      | [n, d], hi' =>
        show IsData (wrap8 (-(X [n, d])))
        rw [hw n hi'.1 d hi'.2.1]
        rcases hdata n hi'.1 d hi'.2.1 with e | e | e <;> rw [e] <;> simp [IsData]
    · show wrap8 (-(X [n, d])) = _
      have h0' : wrap8 (-(X [n, d])) ≠ 0 := h0
      rw [hw n hn d hd] at h0' ⊢
      rw [hcell n hn d hd (by intro e; exact h0' (by rw [e]; rfl)), hpred n hn d hd]
      simp

/-- **C131 (generated data, three dimensions).** -/
theorem C131_generated_3d (o i : LOp) {N D M L : Nat} {Z U V X G : Arr Int} (hZ : Z.shape = [N, L]) (hU : U.shape = [D, L])
    (hV : V.shape = [M, L]) (pZ : PMArr Z) (pU : PMArr U) (pV : PMArr V)
    (hG : lom_generate_data [Z, U, V] (modelName o i) = .ok G) (hX : Incomplete [N, D, M] X G) :
    ∃ (m : Lom8) (invert_data invert_factors : Bool) (Y : Arr Int),
      canonise_model (modelName o i) (some X) = (some Y, .ok (m.name, invert_data, invert_factors)) ∧ Y.shape = [N, D, M] ∧ DataArr Y ∧
        Reproduces3 m N D M L (fun n d k => Y [n, d, k]) (orient invert_factors Z) (orient invert_factors U) (orient invert_factors V) := by
  obtain ⟨m, iv, f, hc, heq⟩ := canonical_table o i
  obtain ⟨G', hG', -, vG⟩ := C03_all_models_all_arities o i L [Z, U, V] (by simp) (by
    intro g hg
    simp only [List.mem_cons, List.not_mem_nil, or_false] at hg
    rcases hg with rfl | rfl | rfl
    · exact ⟨N, hZ⟩
    · exact ⟨D, hU⟩
    · exact ⟨M, hV⟩)
  rw [hG] at hG'
  cases hG'
  have hrc : rowCounts [Z, U, V] = [N, D, M] := by simp [rowCounts, hZ, hU, hV]
  rw [hrc] at vG
  have hpred : ∀ n (hn : n < N) d (hd : d < D) k (hk : k < M), G [n, d, k] =
      if iv then -pred3 m L (orient f Z n) (orient f U d) (orient f V k) else
      pred3 m L (orient f Z n) (orient f U d) (orient f V k) := by
    intro n hn d hd k hk
    rw [vG [n, d, k] ⟨hn, hd, hk, trivial⟩]
    have h1 := heq (Fin L) (Fin 3) fun l j => ![Z [n, l], U [d, l], V [k, l]] j = 1
    have h2 : (lom o i fun (l : Fin L) (j : Fin [Z, U, V].length) => [Z, U, V][j] [[n, d, k].getD j 0, l] = 1) ↔
        lom o i fun (l : Fin L) (j : Fin 3) => ![Z [n, l], U [d, l], V [k, l]] j = 1 := by
      have : (fun (l : Fin L) (j : Fin [Z, U, V].length) => [Z, U, V][j] [[n, d, k].getD j 0, l] = 1) =
          fun (l : Fin L) (j : Fin 3) => ![Z [n, l], U [d, l], V [k, l]] j = 1 := by
        funext l j
        match j with
        | 0 => rfl
        | 1 => rfl
        | 2 => rfl
      rw [this]
    have h3 : (fun (l : Fin L) (j : Fin 3) => if f = true then ¬ ![Z [n, l], U [d, l], V [k, l]] j = 1 else ![Z [n, l], U [d, l], V [k, l]] j = 1) =
        fun (l : Fin L) (j : Fin 3) => ![orient f Z n l, orient f U d l, orient f V k l] j = 1 := by
      funext l j
      match j with
      | 0 => exact propext (orient_bit hZ pZ hn l.2).symm
      | 1 => exact propext (orient_bit hU pU hd l.2).symm
      | 2 => exact propext (orient_bit hV pV hk l.2).symm
    rw [h3] at h1
    classical
    unfold pred3
    rw [pm_eq_ite, pm_eq_ite, if_congr (h2.trans h1) rfl rfl]
    cases iv
    · simp
    · simp only [if_true]; split <;> simp_all
  have hcell : ∀ n (hn : n < N) d (hd : d < D) k (hk : k < M), X [n, d, k] ≠ 0 → X [n, d, k] = G [n, d, k] := fun n hn d hd k hk h0 =>
    (hX.2 [n, d, k] ⟨hn, hd, hk, trivial⟩).resolve_left h0
  have hdata : ∀ n (hn : n < N) d (hd : d < D) k (hk : k < M), IsData (X [n, d, k]) := by
    intro n hn d hd k hk
    rcases hX.2 [n, d, k] ⟨hn, hd, hk, trivial⟩ with e | e
    · exact .inr (.inr e)
    · rw [e, hpred n hn d hd k hk]
      rcases pred3_isPM m L (orient f Z n) (orient f U d) (orient f V k) with e' | e' <;> rw [e'] <;> cases iv <;> simp [IsData]
  cases iv with
  | false =>
    refine ⟨m, false, f, X, by simp [canonise_model, hc], hX.1, fun idx hi => ?_, fun n hn d hd k hk h0 => ?_⟩
    · rw [hX.1] at hi
      match idx, hi with
      | [n, d, k], hi => exact hdata n hi.1 d hi.2.1 k hi.2.2.1
    · exact (hcell n hn d hd k hk h0).trans (hpred n hn d hd k hk)
  | true =>
    have hw : ∀ n (hn : n < N) d (hd : d < D) k (hk : k < M), wrap8 (-(X [n, d, k])) = -(X [n, d, k]) := by
      intro n hn d hd k hk
      rcases hdata n hn d hd k hk with e | e | e <;> rw [e] <;> decide
    refine ⟨m, true, f, X.map fun x => wrap8 (-x), by simp [canonise_model, hc], hX.1, fun idx hi => ?_, fun n hn d hd k hk h0 => ?_⟩
    · have hi' : InB [N, D, M] idx := by rw [← hX.1]; exact hi
      match idx, hi' with
      | [n, d, k], hi' =>
        show IsData (wrap8 (-(X [n, d, k])))
        rw [hw n hi'.1 d hi'.2.1 k hi'.2.2.1]
        rcases hdata n hi'.1 d hi'.2.1 k hi'.2.2.1 with e | e | e <;> rw [e] <;> simp [IsData]
    · show wrap8 (-(X [n, d, k])) = _
      have h0' : wrap8 (-(X [n, d, k])) ≠ 0 := h0
      rw [hw n hn d hd k hk] at h0' ⊢
      rw [hcell n hn d hd k hk (by intro e; exact h0' (by rw [e]; rfl)), hpred n hn d hd k hk]
      simp

/-! ## Sequences of sweeps over both factors -/

/-- sweeps over the first (`true`) or the second factor in any order, with their draws -/
noncomputable def sweepBoth (f : Arr Int → Arr Int → Arr Int → Nat → Int) (Zf Uf X Xt : Arr Int) (lbda lp : ℝ) :
    List (Bool × Rnd) → Arr Int × Arr Int → Arr Int × Arr Int
  | [], s => s
  | (true, rnd) :: r, s => sweepBoth f Zf Uf X Xt lbda lp r (sampling_onechild_2D f s.1 Zf s.2 X lbda lp rnd, s.2)
  | (false, rnd) :: r, s => sweepBoth f Zf Uf X Xt lbda lp r (s.1, sampling_onechild_2D f s.2 Uf s.1 Xt lbda lp rnd)

theorem sampled_pm (f) (Z Zf U X : Arr Int) (lbda lp : ℝ) (rnd : Rnd) (pZ : PMArr Z) :
    (sampling_onechild_2D f Z Zf U X lbda lp rnd).shape = Z.shape ∧ PMArr (sampling_onechild_2D f Z Zf U X lbda lp rnd) := by
  rw [sampling_onechild_2D_eq]
  have h := sweep_entry (fun Z i => lbda * f (Z.row (i0 i)) U (X.row (i0 i)) (i1 i) + lp) Zf rnd (tasks2 (Z.dim 0) (Z.dim 1)) Z
  exact ⟨h.1, fun j hj => (h.2 j).2.1 (pZ j (by rwa [h.1] at hj))⟩

/-- **C131 (any number of sweeps).** Factors that reproduce all observed cells do so after any sequence of sweeps over the two,
in any order, whose draws are at least `exp(|logit prior| - λ)`. -/
theorem C131_sweeps_2d (m : Lom8) : ∃ f, get_posterior_score_fct (pyDashToUnderscore (m.name ++ "-2D")) = .ok (.two f) ∧
    ∀ (N D L : Nat) (Z Zf U Uf X Xt : Arr Int) (lbda lp : ℝ) (runs : List (Bool × Rnd)), Z.shape = [N, L] → U.shape = [D, L] →
      X.shape = [N, D] → Xt.shape = [D, N] → (∀ n < N, ∀ d < D, Xt [d, n] = X [n, d]) →
      PMArr Z → PMArr U → DataArr X → D ≤ 32767 → N ≤ 32767 → |lp| < lbda →
      Reproduces2 m N D L (fun n d => X [n, d]) (fun n l => Z [n, l]) (fun d l => U [d, l]) →
      (∀ run ∈ runs, ∀ i, Real.exp (|lp| - lbda) ≤ run.2 i) →
      Reproduces2 m N D L (fun n d => X [n, d]) (fun n l => (sweepBoth f Zf Uf X Xt lbda lp runs (Z, U)).1 [n, l])
        (fun d l => (sweepBoth f Zf Uf X Xt lbda lp runs (Z, U)).2 [d, l]) := by
  obtain ⟨f, hf, h⟩ := C131_sweep_2d m
  refine ⟨f, hf, fun N D L Z Zf U Uf X Xt lbda lp runs hZ hU hX hXt ht pZ pU pX hD hN hl hrep hr => ?_⟩
  have pXt : DataArr Xt := fun idx hi => by
    rw [hXt] at hi
    match idx, hi with
    | [d, n], hi => rw [ht n hi.2.1 d hi.1]; exact pX [n, d] (by rw [hX]; exact ⟨hi.2.1, hi.1, trivial⟩)
  induction runs generalizing Z U with
  | nil => exact hrep
  | cons run runs ih =>
    obtain ⟨b, rnd⟩ := run
    have hr1 : ∀ i, Real.exp (|lp| - lbda) ≤ rnd i := hr (b, rnd) (by simp)
    have hr2 : ∀ run ∈ runs, ∀ i, Real.exp (|lp| - lbda) ≤ run.2 i := fun x hx => hr x (by simp [hx])
    cases b with
    | true =>
      have s := sampled_pm f Z Zf U X lbda lp rnd pZ
      exact ih _ U (s.1.trans hZ) hU s.2 pU
        (h N D L Z Zf U X lbda lp rnd hZ hU hX pZ pU pX hD hl hrep fun n _ l _ => hr1 _) hr2
    | false =>
      have s := sampled_pm f U Uf Z Xt lbda lp rnd pU
      refine ih Z _ hZ (s.1.trans hU) pZ s.2 (fun n hn d hd hx => ?_) hr2
      have hswap : Reproduces2 m D N L (fun d n => Xt [d, n]) (fun d l => U [d, l]) (fun n l => Z [n, l]) := fun d hd n hn hx => by
        dsimp only at hx ⊢
        rw [ht n hn d hd] at hx ⊢
        rw [pred2_comm]; exact hrep n hn d hd hx
      have hs := h D N L U Uf Z Xt lbda lp rnd hU hZ hXt pU pZ pXt hN hl hswap (fun n _ l _ => hr1 _) d hd n hn
      dsimp only at hs hx ⊢
      rw [ht n hn d hd] at hs
      rw [pred2_comm]; exact hs hx

/-! ## Single entries -/

open Classical in
/-- **C131 (single entries).** With the default prior (logit 0) an entry of a factor that reproduces all observed cells is
flipped with probability `exp(-λ c)`, `c` the number of observed cells whose prediction it decides. -/
theorem C131_flip_2d (m : Lom8) : ∃ f, get_posterior_score_fct (pyDashToUnderscore (m.name ++ "-2D")) = .ok (.two f) ∧
    ∀ (N D L : Nat) (Z U X : Arr Int) (lbda : ℝ) (n l : Nat), n < N → l < L → Z.shape = [N, L] → U.shape = [D, L] →
      X.shape = [N, D] → PMArr Z → PMArr U → DataArr X → D ≤ 32767 → 0 ≤ lbda →
      Reproduces2 m N D L (fun n d => X [n, d]) (fun n l => Z [n, l]) (fun d l => U [d, l]) →
      volume {u | u ∈ Set.Ico (0 : ℝ) 1 ∧
          flip_metropolised_gibbs_numba (lbda * f (Z.row n) U (X.row n) l + 0) (Z [n, l]) u = -Z [n, l]} =
        ENNReal.ofReal (Real.exp (-(lbda * (Finset.univ.filter fun d : Fin D => X [n, d] ≠ 0 ∧
          pred2 m L (setEntry (fun l => Z [n, l]) l 1) (fun l => U [d, l]) ≠
            pred2 m L (setEntry (fun l => Z [n, l]) l (-1)) (fun l => U [d, l])).card))) := by
  obtain ⟨f, hf, h⟩ := C14_score_2d_partial m
  refine ⟨f, hf, fun N D L Z U X lbda n l hn hll hZ hU hX pZ pU pX hD hl hrep => ?_⟩
  have hrow := pZ.row (n := n) hZ hn
  have hXr := DataArr.row1 pX hX hn
  have hS := h D L (Z.row n) U (X.row n) l hll hrow.1 hU hXr.1 hrow.2 pU hXr.2 hD
  have hy : IsPM (Z [n, l]) := pZ [n, l] (by rw [hZ]; exact ⟨hn, hll, trivial⟩)
  have hsame : setEntry (fun l' => Z [n, l']) l (Z [n, l]) = fun l' => Z [n, l'] := by
    funext l'; unfold setEntry; split
    · rename_i e; rw [e]
    · rfl
  have hcard : Z [n, l] * f (Z.row n) U (X.row n) l = ((Finset.univ.filter fun d : Fin D => X [n, d] ≠ 0 ∧
      pred2 m L (setEntry (fun l => Z [n, l]) l 1) (fun l => U [d, l]) ≠
        pred2 m L (setEntry (fun l => Z [n, l]) l (-1)) (fun l => U [d, l])).card : Int) := by
    have h2 : 2 * (Z [n, l] * f (Z.row n) U (X.row n) l) = Z [n, l] * (2 * f (Z.row n) U (X.row n) l) := by ring
    suffices hs : 2 * (Z [n, l] * f (Z.row n) U (X.row n) l) = 2 * ((Finset.univ.filter fun d : Fin D => X [n, d] ≠ 0 ∧
      pred2 m L (setEntry (fun l => Z [n, l]) l 1) (fun l => U [d, l]) ≠
        pred2 m L (setEntry (fun l => Z [n, l]) l (-1)) (fun l => U [d, l])).card : Int) by omega
    rw [h2, hS, Finset.card_filter]
    push_cast
    unfold twiceScore2
    rw [Finset.mul_sum, Finset.mul_sum]
    refine Finset.sum_congr rfl fun d _ => ?_
    dsimp only
    show Z [n, l] * (X [n, (d : Nat)] * (pred2 m L (setEntry (fun l' => Z [n, l']) l 1) _ -
      pred2 m L (setEntry (fun l' => Z [n, l']) l (-1)) _)) = _
    by_cases hx : X [n, (d : Nat)] = 0
    · simp [hx]
    have hr := hrep n hn d d.2 hx
    dsimp only at hr
    have hxv : X [n, (d : Nat)] = pred2 m L (setEntry (fun l' => Z [n, l']) l (Z [n, l])) (fun l => U [(d : Nat), l]) := by
      rw [hsame]; exact hr
    clear hr hS h2
    rcases hy with e | e <;> rw [e] at hxv ⊢ <;>
      rcases pred2_isPM m L (setEntry (fun l' => Z [n, l']) l 1) (fun l => U [(d : Nat), l]) with e1 | e1 <;>
      rcases pred2_isPM m L (setEntry (fun l' => Z [n, l']) l (-1)) (fun l => U [(d : Nat), l]) with e2 | e2 <;>
      first
      | (rw [e1] at hxv; rw [e1, e2, hxv]; decide)
      | (rw [e2] at hxv; rw [e1, e2, hxv]; decide)
  rw [(C17_flip_probability _ _ hy).1]
  congr 1
  have hc' : -(Z [n, l] : ℝ) * (lbda * f (Z.row n) U (X.row n) l + 0) = -(lbda * (((Z [n, l] * f (Z.row n) U (X.row n) l : Int)) : ℝ)) := by
    push_cast; ring
  rw [hc', hcard]
  push_cast
  refine min_eq_right (Real.exp_le_one_iff.mpr ?_)
  have : (0 : ℝ) ≤ ((Finset.univ.filter fun d : Fin D => X [n, d] ≠ 0 ∧
      pred2 m L (setEntry (fun l => Z [n, l]) l 1) (fun l => U [d, l]) ≠
        pred2 m L (setEntry (fun l => Z [n, l]) l (-1)) (fun l => U [d, l])).card : ℝ) := Nat.cast_nonneg _
  nlinarith

/-- the hypotheses can be met, for every model: the data that it generates from any factors, with a cell removed -/
theorem C131_hypotheses_met (o i : LOp) : ∃ Z U X G : Arr Int, Z.shape = [2, 2] ∧ U.shape = [3, 2] ∧ PMArr Z ∧ PMArr U ∧
    lom_generate_data [Z, U] (modelName o i) = .ok G ∧ Incomplete [2, 3] X G ∧ X [0, 0] = 0 ∧ IsPM (X [1, 2]) := by
  have hp : ∀ s, PMArr (Arr.full s 1) := fun s idx _ => Or.inl rfl
  obtain ⟨G, hG, hs, hv⟩ := C03_all_models_all_arities o i 2 [Arr.full [2, 2] 1, Arr.full [3, 2] 1] (by simp) (by
    intro g hg
    simp only [List.mem_cons, List.not_mem_nil, or_false] at hg
    rcases hg with rfl | rfl
    · exact ⟨2, rfl⟩
    · exact ⟨3, rfl⟩)
  refine ⟨Arr.full [2, 2] 1, Arr.full [3, 2] 1, ⟨[2, 3], fun idx => if idx = [0, 0] then 0 else G idx⟩, G, rfl, rfl, hp _, hp _, hG,
    ⟨rfl, fun idx _ => ?_⟩, rfl, ?_⟩
  · by_cases h : idx = [0, 0]
    · exact .inl (if_pos h)
    · exact .inr (if_neg h)
  · show IsPM (G [1, 2])
    rw [hv [1, 2] (by simp [rowCounts, Arr.full, InB])]
    unfold pm; split
    · exact .inl rfl
    · exact .inr rfl

end LFM
