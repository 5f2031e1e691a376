import Verif.Props.Posterior
import Verif.Lemmas.Wrappers
import Verif.Lemmas.SweepLaw

/-! Scores computed from transposed data are agreement differences of the whole layer. -/

namespace LFM
open Spec

/-- entries of a matrix as a factor -/
def facOf (Z : Arr Int) : Factor := fun n l => Z [n, l]

theorem DataArr.row1 {X : Arr Int} {N : Nat} {s : List Nat} (h : DataArr X) (hX : X.shape = N :: s)
    {n : Nat} (hn : n < N) : (X.row n).shape = s ∧ DataArr (X.row n) := by
  have h1 : (X.row n).shape = s := by simp [Arr.row, hX]
  refine ⟨h1, fun idx hi => ?_⟩
  rw [h1] at hi; exact h (n :: idx) (by rw [hX]; exact ⟨hn, hi⟩)

theorem score2_agreement {m : Lom8} {f}
    (hf : get_posterior_score_fct (code m "-2D") = .ok (.two f)) {N D L : Nat} {Z U X : Arr Int}
    {n l : Nat} (hn : n < N) (hl : l < L) (hZ : Z.shape = [N, L]) (hU : U.shape = [D, L])
    (hX : X.shape = [N, D]) (pZ : PMArr Z) (pU : PMArr U) (pX : DataArr X) (hD : D ≤ 32767) :
    2 * f (Z.row n) U (X.row n) l =
      agreement2 m N D L (fun n d => X [n, d]) ((facOf Z).set n l 1) (facOf U) -
        agreement2 m N D L (fun n d => X [n, d]) ((facOf Z).set n l (-1)) (facOf U) := by
  obtain ⟨f', hf', h⟩ := C14_score_2d_partial m
  obtain rfl : f' = f := by
    have := hf'.symm.trans hf
    simpa using this
  obtain ⟨hXs, hXr⟩ := DataArr.row1 pX hX hn
  rw [agreement2_set m N D L _ _ _ n l hn]
  exact h D L (Z.row n) U (X.row n) l hl (pZ.row hZ hn).1 hU hXs (pZ.row hZ hn).2 pU hXr hD

theorem score3_agreement {m : Lom8} {f}
    (hf : get_posterior_score_fct (code m "-3D") = .ok (.three f)) {N D M L : Nat} {Z U V X : Arr Int}
    {n l : Nat} (hn : n < N) (hl : l < L) (hZ : Z.shape = [N, L]) (hU : U.shape = [D, L])
    (hV : V.shape = [M, L]) (hX : X.shape = [N, D, M]) (pZ : PMArr Z) (pU : PMArr U) (pV : PMArr V)
    (pX : DataArr X) (hD : D * M < 2 ^ 63) :
    2 * f (Z.row n) U V (X.row n) l =
      agreement3 m N D M L (fun n d k => X [n, d, k]) ((facOf Z).set n l 1) (facOf U) (facOf V) -
        agreement3 m N D M L (fun n d k => X [n, d, k]) ((facOf Z).set n l (-1)) (facOf U) (facOf V) := by
  obtain ⟨f', hf', h⟩ := C15_score_3d m
  obtain rfl : f' = f := by
    have := hf'.symm.trans hf
    simpa using this
  obtain ⟨hXs, hXr⟩ := DataArr.row1 pX hX hn
  rw [agreement3_set m N D M L _ _ _ _ n l hn]
  exact h D M L (Z.row n) U V (X.row n) l hl (pZ.row hZ hn).1 hU hV hXs (pZ.row hZ hn).2 pU pV hXr hD

section transpose
variable {X : Arr Int} {N D M : Nat}

theorem transpose01 (hX : X.shape = [N, D]) (pX : DataArr X) :
    (X.transpose [0, 1]).shape = [N, D] ∧ DataArr (X.transpose [0, 1]) ∧
      ∀ n d, X.transpose [0, 1] [n, d] = X [n, d] := by
  have hs : (X.transpose [0, 1]).shape = [N, D] := by simp [Arr.transpose, Arr.dim, hX]
  refine ⟨hs, fun idx hi => ?_, fun n d => rfl⟩
  rw [hs] at hi
  match idx, hi with
  | [a, b], hi => exact pX [a, b] (by rw [hX]; exact hi)

theorem transpose10 (hX : X.shape = [N, D]) (pX : DataArr X) :
    (X.transpose [1, 0]).shape = [D, N] ∧ DataArr (X.transpose [1, 0]) ∧
      ∀ n d, X.transpose [1, 0] [d, n] = X [n, d] := by
  have hs : (X.transpose [1, 0]).shape = [D, N] := by simp [Arr.transpose, Arr.dim, hX]
  refine ⟨hs, fun idx hi => ?_, fun n d => rfl⟩
  rw [hs] at hi
  match idx, hi with
  | [a, b], hi => exact pX [b, a] (by rw [hX]; exact ⟨hi.2.1, hi.1, trivial⟩)

theorem transpose012 (hX : X.shape = [N, D, M]) (pX : DataArr X) :
    (X.transpose [0, 1, 2]).shape = [N, D, M] ∧ DataArr (X.transpose [0, 1, 2]) ∧
      ∀ n d k, X.transpose [0, 1, 2] [n, d, k] = X [n, d, k] := by
  have hs : (X.transpose [0, 1, 2]).shape = [N, D, M] := by simp [Arr.transpose, Arr.dim, hX]
  refine ⟨hs, fun idx hi => ?_, fun n d k => rfl⟩
  rw [hs] at hi
  match idx, hi with
  | [a, b, c], hi => exact pX [a, b, c] (by rw [hX]; exact hi)

theorem transpose102 (hX : X.shape = [N, D, M]) (pX : DataArr X) :
    (X.transpose [1, 0, 2]).shape = [D, N, M] ∧ DataArr (X.transpose [1, 0, 2]) ∧
      ∀ n d k, X.transpose [1, 0, 2] [d, n, k] = X [n, d, k] := by
  have hs : (X.transpose [1, 0, 2]).shape = [D, N, M] := by simp [Arr.transpose, Arr.dim, hX]
  refine ⟨hs, fun idx hi => ?_, fun n d k => rfl⟩
  rw [hs] at hi
  match idx, hi with
  | [a, b, c], hi => exact pX [b, a, c] (by rw [hX]; exact ⟨hi.2.1, hi.1, hi.2.2⟩)

theorem transpose201 (hX : X.shape = [N, D, M]) (pX : DataArr X) :
    (X.transpose [2, 0, 1]).shape = [M, N, D] ∧ DataArr (X.transpose [2, 0, 1]) ∧
      ∀ n d k, X.transpose [2, 0, 1] [k, n, d] = X [n, d, k] := by
  have hs : (X.transpose [2, 0, 1]).shape = [M, N, D] := by simp [Arr.transpose, Arr.dim, hX]
  refine ⟨hs, fun idx hi => ?_, fun n d k => rfl⟩
  rw [hs] at hi
  match idx, hi with
  | [a, b, c], hi => exact pX [b, c, a] (by rw [hX]; exact ⟨hi.2.1, hi.2.2.1, hi.1, trivial⟩)

end transpose

end LFM
