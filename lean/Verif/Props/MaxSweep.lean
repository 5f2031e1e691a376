import Verif.Lemmas.Special
import Verif.Props.Parents

/-!
# C31: an update of a factor of a MAX-AND layer
-/

namespace LFM

open Spec

/-- **C31** (partial), the whole update of a factor: every entry that is not fixed is updated in turn, with its own draw, by a
Metropolised Gibbs step whose log odds are the difference of log-likelihoods of the whole data between 1 and -1 in this
entry, *truncated to an integer*; no prior takes part. Missing, as in `C31_score_partial`: columns that are not sorted by
lambda. (The other factor is updated by the same function with the data transposed, see C98.) -/
theorem C31_sweep_partial (N D L : Nat) (Z Zf U X : Arr Int) (lbda : Arr ℝ) (order : List Nat) (rnd : Rnd)
    (hZ : Z.shape = [N, L]) (hU : U.shape = [D, L]) (hval : ∀ i < L + 1, 0 < lbda [i] ∧ lbda [i] < 1)
    (horder : IsArgsort (fun i => -lbda [i]) L order) (hsort : ∀ l < L, order.getD l 0 = l) :
    draw_MAX_AND_2D Z Zf U X order (compute_lbda_ratios L lbda) rnd =
      sweep (fun A i => (truncToInt
        (matLogLik N D L (fun i => lbda [i]) (lbda [L]) (fun n d => X [n, d]) (fun n l => (A.set i 1) [n, l]) (fun d l => U [d, l]) -
         matLogLik N D L (fun i => lbda [i]) (lbda [L]) (fun n d => X [n, d]) (fun n l => (A.set i (-1)) [n, l])
          (fun d l => U [d, l])) : ℝ)) Zf rnd (tasks2 N L) Z := by
  have h0 : Z.dim 0 = N := by simp [Arr.dim, hZ]
  have h1 : Z.dim 1 = L := by simp [Arr.dim, hZ]
  rw [draw_MAX_AND_2D_eq, h0, h1]
  refine sweep_congr (fun A i hi => ?_) _
  simp only [tasks2, List.mem_flatMap, List.mem_map, List.mem_range] at hi
  obtain ⟨n, hn, l, hl, rfl⟩ := hi
  show ((posterior_score_MAX_AND_2D (A.row n) U (X.row n) l order (compute_lbda_ratios L lbda) : Int) : ℝ) = _
  obtain ⟨score, e1, e2⟩ := C31_score_partial D L l (A.row n) U (X.row n) lbda order hU hl hval horder (hsort l hl)
  rw [e1, e2]
  congr 2
  rw [matLogLik, matLogLik, ← Finset.sum_sub_distrib]
  rw [Finset.sum_eq_single (⟨n, hn⟩ : Fin N)]
  · have key : ∀ v : Int, (setAt (fun i => (A.row n) [i]) l v) = fun j => (A.set [n, l] v) [n, j] := by
      intro v
      funext j
      simp [setAt, Arr.set, Arr.row]
    rw [key, key]
    rfl
  · intro n' _ hne
    have key : ∀ v : Int, (fun j => (A.set [n, l] v) [(n' : Nat), j]) = fun j => A [(n' : Nat), j] := by
      intro v
      funext j
      have : (n' : Nat) ≠ n := fun e => hne (Fin.ext e)
      simp [Arr.set, this]
    rw [key, key, sub_self]
  · intro h
    exact absurd (Finset.mem_univ _) h

/-- the hypotheses of `C31_sweep_partial` are met: two columns sorted by lambda -/
theorem C31_sweep_hypotheses_met : ∃ (lbda : Arr ℝ) (order : List Nat), (∀ i < 2 + 1, 0 < lbda [i] ∧ lbda [i] < 1) ∧
    IsArgsort (fun i => -lbda [i]) 2 order ∧ ∀ l < 2, order.getD l 0 = l := by
  refine ⟨c31lbda (9/10) (1/2) (1/100), [0, 1], fun i _ => ?_, ⟨by decide, ?_⟩, fun l hl => ?_⟩
  · simp only [c31lbda]; split_ifs <;> norm_num
  · simp [c31lbda]; norm_num
  · have : l = 0 ∨ l = 1 := by omega
    rcases this with rfl | rfl <;> rfl

end LFM
