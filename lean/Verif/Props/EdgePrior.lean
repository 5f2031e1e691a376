import Verif.Model.EdgePrior
import Verif.Lemmas.Sweep
import Verif.Lemmas.Samplers

/-!
# C129: priors of zero and one, and numbers that are no probabilities
-/

namespace LFM

open Spec

/-- the loops are one fold over the entries -/
theorem samplingAnyPrior_eq (score : Arr Int → Nat → Nat → ℝ) (Z Zf : Arr Int) (lp : NpF) (rnd : Rnd) :
    samplingAnyPrior score Z Zf lp rnd = (tasks2 (Z.dim 0) (Z.dim 1)).foldl (fun Z i => if Zf i = 1 then Z else
      Z.set i (flipAny (npAdd (score Z (i0 i) (i1 i)) lp) (Z i) (rnd i))) Z := by
  rw [← foldl_tasks2]
  exact run_sweep2 _ _ _ _ _

/-- if the flip gives a value that depends on the old value only, so does the sweep -/
theorem foldl_flips {score : Arr Int → Nat → Nat → ℝ} {Zf : Arr Int} {lp : NpF} {rnd : Rnd} {g : List Nat → Int → Int}
    (hg : ∀ (s : ℝ) (i : List Nat) (z : Int), IsPM z → flipAny (npAdd s lp) z (rnd i) = g i z) (hpm : ∀ i z, IsPM z → IsPM (g i z))
    {ts : List (List Nat)} : ∀ {Z : Arr Int}, ts.Nodup → (∀ i ∈ ts, IsPM (Z i)) → ∀ i,
      (ts.foldl (fun Z i => if Zf i = 1 then Z else
        Z.set i (flipAny (npAdd (score Z (i0 i) (i1 i)) lp) (Z i) (rnd i))) Z) i =
          if i ∈ ts ∧ Zf i ≠ 1 then g i (Z i) else Z i := by
  induction ts with
  | nil => intro Z _ _ i; simp
  | cons t ts ih =>
    intro Z hn hp i
    have hn' := List.nodup_cons.mp hn
    rw [List.foldl_cons]
    by_cases ht : Zf t = 1
    · rw [if_pos ht, ih hn'.2 fun j hj => hp j (by simp [hj])]
      by_cases hit : i = t
      · subst hit; simp [ht]
      · simp [hit]
    · rw [if_neg ht, hg _ t _ (hp t (by simp))]
      rw [ih hn'.2 fun j hj => by
        have : j ≠ t := fun h => hn'.1 (h ▸ hj)
        simp only [Arr.set, if_neg this]
        exact hp j (by simp [hj])]
      by_cases hit : i = t
      · subst hit
        simp [hn'.1, ht, Arr.set]
      · simp [hit, Arr.set]

theorem samplingAnyPrior_shape (score : Arr Int → Nat → Nat → ℝ) (Z Zf : Arr Int) (lp : NpF) (rnd : Rnd) :
    (samplingAnyPrior score Z Zf lp rnd).shape = Z.shape := by
  rw [samplingAnyPrior_eq]
  generalize tasks2 (Z.dim 0) (Z.dim 1) = ts
  induction ts generalizing Z with
  | nil => rfl
  | cons t ts ih =>
    rw [List.foldl_cons, ih]
    split <;> rfl

theorem npAdd_special (s : ℝ) : npAdd s .negInf = .negInf ∧ npAdd s .posInf = .posInf ∧ npAdd s .nan = .nan := ⟨rfl, rfl, rfl⟩

/-- **C129 (prior zero).** With `bernoulli_prior = 0` all free entries are -1 after one sweep, whatever the scores of data and
parents and the draws; the others keep their value. -/
theorem C129_zero (score : Arr Int → Nat → Nat → ℝ) {N L : Nat} {Z : Arr Int} (Zf : Arr Int) (hZ : Z.shape = [N, L])
    (hp : PMArr Z) {rnd : Rnd} (hr : ∀ i, 0 ≤ rnd i) : ∀ n < N, ∀ l < L,
      samplingAnyPrior score Z Zf (npLogit 0) rnd [n, l] = if Zf [n, l] = 1 then Z [n, l] else -1 := by
  intro n hn l hl
  have hd : Z.dim 0 = N ∧ Z.dim 1 = L := by simp [Arr.dim, hZ]
  rw [samplingAnyPrior_eq, hd.1, hd.2, foldl_flips (g := fun _ _ => -1)]
  · have : [n, l] ∈ tasks2 N L := mem_tasks2.mpr ⟨n, hn, l, hl, rfl⟩
    by_cases h : Zf [n, l] = 1 <;> simp [this, h]
  · intro s i z hz
    have : npLogit 0 = .negInf := by simp [npLogit]
    rw [this, (npAdd_special s).1]
    have := hr i
    rcases hz with rfl | rfl
    · simp [flipAny, NpF.nonpos]
    · simp [flipAny, NpF.nonneg, NpF.accepts, this]
  · exact fun _ _ _ => .inr rfl
  · exact nodup_tasks2 N L
  · intro i hi
    obtain ⟨a, ha, b, hb, rfl⟩ := mem_tasks2.mp hi
    exact hp _ (by rw [hZ]; exact ⟨ha, hb, trivial⟩)

/-- **C129 (prior one).** With `bernoulli_prior = 1` all free entries are 1 after one sweep. -/
theorem C129_one (score : Arr Int → Nat → Nat → ℝ) {N L : Nat} {Z : Arr Int} (Zf : Arr Int) (hZ : Z.shape = [N, L])
    (hp : PMArr Z) {rnd : Rnd} (hr : ∀ i, 0 ≤ rnd i) : ∀ n < N, ∀ l < L,
      samplingAnyPrior score Z Zf (npLogit 1) rnd [n, l] = if Zf [n, l] = 1 then Z [n, l] else 1 := by
  intro n hn l hl
  have hd : Z.dim 0 = N ∧ Z.dim 1 = L := by simp [Arr.dim, hZ]
  rw [samplingAnyPrior_eq, hd.1, hd.2, foldl_flips (g := fun _ _ => 1)]
  · have : [n, l] ∈ tasks2 N L := mem_tasks2.mpr ⟨n, hn, l, hl, rfl⟩
    by_cases h : Zf [n, l] = 1 <;> simp [this, h]
  · intro s i z hz
    have : npLogit 1 = .posInf := by simp [npLogit]
    rw [this, (npAdd_special s).2.1]
    have := hr i
    rcases hz with rfl | rfl
    · simp [flipAny, NpF.nonpos, NpF.accepts, this]
    · simp [flipAny, NpF.nonneg]
  · exact fun _ _ _ => .inl rfl
  · exact nodup_tasks2 N L
  · intro i hi
    obtain ⟨a, ha, b, hb, rfl⟩ := mem_tasks2.mp hi
    exact hp _ (by rw [hZ]; exact ⟨ha, hb, trivial⟩)

/-- **C129 (no probability).** With a prior below 0 or above 1 no entry ever changes, whatever the data, the lambdas and the
draws; nothing is reported. -/
theorem C129_wrong (score : Arr Int → Nat → Nat → ℝ) {N L : Nat} {Z : Arr Int} (Zf : Arr Int) (hZ : Z.shape = [N, L])
    (hp : PMArr Z) (rnd : Rnd) {q : ℝ} (hq : q < 0 ∨ 1 < q) : ∀ n < N, ∀ l < L,
      samplingAnyPrior score Z Zf (npLogit q) rnd [n, l] = Z [n, l] := by
  intro n hn l hl
  have hd : Z.dim 0 = N ∧ Z.dim 1 = L := by simp [Arr.dim, hZ]
  rw [samplingAnyPrior_eq, hd.1, hd.2, foldl_flips (g := fun _ z => z)]
  · split <;> rfl
  · intro s i z hz
    have : npLogit q = .nan := by
      unfold npLogit
      rw [if_neg (by rcases hq with h | h <;> linarith), if_neg (by rcases hq with h | h <;> linarith),
        if_neg (by rintro ⟨h1, h2⟩; rcases hq with h | h <;> linarith)]
    rw [this, (npAdd_special s).2.2]
    simp [flipAny, NpF.nonneg, NpF.nonpos, NpF.accepts]
  · exact fun _ _ h => h
  · exact nodup_tasks2 N L
  · intro i hi
    obtain ⟨a, ha, b, hb, rfl⟩ := mem_tasks2.mp hi
    exact hp _ (by rw [hZ]; exact ⟨ha, hb, trivial⟩)

theorem flipAny_fin (x : ℝ) (z : Int) (u : ℝ) : flipAny (.fin x) z u = flip_metropolised_gibbs_numba x z u := by
  unfold flipAny flip_metropolised_gibbs_numba
  by_cases h1 : z = 1 ∧ x ≤ 0
  · rw [if_pos (show z = 1 ∧ (NpF.fin x).nonpos from h1), if_pos h1]
  · rw [if_neg (show ¬ (z = 1 ∧ (NpF.fin x).nonpos) from h1), if_neg h1]
    by_cases h2 : z = -1 ∧ x ≥ 0
    · rw [if_pos (show z = -1 ∧ (NpF.fin x).nonneg from h2), if_pos h2]
    · rw [if_neg (show ¬ (z = -1 ∧ (NpF.fin x).nonneg) from h2), if_neg h2]
      by_cases h3 : Real.exp (-(z : ℝ) * x) > u
      · rw [if_pos (show (NpF.fin x).accepts z u from h3), if_pos h3]
      · rw [if_neg (show ¬ (NpF.fin x).accepts z u from h3), if_neg h3]

theorem npLogit_inside {q : ℝ} (h0 : 0 < q) (h1 : q < 1) : npLogit q = .fin (logit q) := by
  unfold npLogit logit
  rw [if_neg h0.ne', if_neg h1.ne, if_pos ⟨h0, h1⟩]

theorem samplingAnyPrior_inside {q : ℝ} (h0 : 0 < q) (h1 : q < 1) (score : Arr Int → Nat → Nat → ℝ) (Z Zf : Arr Int) (rnd : Rnd) :
    samplingAnyPrior score Z Zf (npLogit q) rnd =
      sweep (fun Z i => score Z (i0 i) (i1 i) + logit q) Zf rnd (tasks2 (Z.dim 0) (Z.dim 1)) Z := by
  rw [samplingAnyPrior_eq, npLogit_inside h0 h1]
  have : (fun (Z : Arr Int) i => if Zf i = 1 then Z else
      Z.set i (flipAny (npAdd (score Z (i0 i) (i1 i)) (.fin (logit q))) (Z i) (rnd i))) =
      updEntry (fun Z i => score Z (i0 i) (i1 i) + logit q) Zf rnd := by
    funext Z i
    simp only [npAdd, flipAny_fin, updEntry]
  rw [this]
  rfl

/-- **C129** (`_partial`: numbers outside of [0, 1] are not reported, `C129_wrong`). Strictly between 0 and 1 the sweep is the one
with the logit of the prior, for factors of two and three and for matrices with one or two parents. -/
theorem C129_inside_partial {q : ℝ} (h0 : 0 < q) (h1 : q < 1) (Z Zf U V X pa1 pa2 pb1 pb2 : Arr Int) (lbda lpa lpb : ℝ)
    (rnd : Rnd) : (∀ f, samplingAnyPrior (fun Z n l => lbda * f (Z.row n) U (X.row n) l) Z Zf (npLogit q) rnd =
      sampling_onechild_2D f Z Zf U X lbda (logit q) rnd) ∧
    (∀ f, samplingAnyPrior (fun Z n l => lbda * f (Z.row n) U V (X.row n) l) Z Zf (npLogit q) rnd =
      sampling_onechild_3D f Z Zf U V X lbda (logit q) rnd) ∧
    (∀ f g, samplingAnyPrior (fun Z n l => lbda * f (Z.row n) U (X.row n) l + lpa * g (pa1.row n) (pa2.row l)) Z Zf (npLogit q) rnd =
      sampling_onechild_oneparent_2D f g Z Zf U X lbda pa1 pa2 lpa (logit q) rnd) ∧
    (∀ g, samplingAnyPrior (fun _ n l => lpa * g (pa1.row n) (pa2.row l)) Z Zf (npLogit q) rnd =
      sampling_nochild_oneparent_2D g Z Zf pa1 pa2 lpa (logit q) rnd) ∧
    (∀ g, samplingAnyPrior (fun _ n l => lpa * g (pa1.row n) (pa2.row l) + lpb * g (pb1.row n) (pb2.row l)) Z Zf (npLogit q) rnd =
      sampling_nochild_twoparents_2D g Z Zf pa1 pa2 lpa pb1 pb2 lpb (logit q) rnd) ∧
    (∀ f g, samplingAnyPrior (fun Z n l => lbda * f (Z.row n) U (X.row n) l + lpa * g (pa1.row n) (pa2.row l) +
        lpb * g (pb1.row n) (pb2.row l)) Z Zf (npLogit q) rnd =
      sampling_onechild_twoparents_2D f g Z Zf U X lbda pa1 pa2 lpa pb1 pb2 lpb (logit q) rnd) := by
  refine ⟨fun f => ?_, fun f => ?_, fun f g => ?_, fun g => ?_, fun g => ?_, fun f g => ?_⟩
  · rw [samplingAnyPrior_inside h0 h1, sampling_onechild_2D_eq]
  · rw [samplingAnyPrior_inside h0 h1, sampling_onechild_3D_eq]
  · rw [samplingAnyPrior_inside h0 h1, sampling_onechild_oneparent_2D_eq]
  · rw [samplingAnyPrior_inside h0 h1, sampling_nochild_oneparent_2D_eq]
  · rw [samplingAnyPrior_inside h0 h1, sampling_nochild_twoparents_2D_eq]
  · rw [samplingAnyPrior_inside h0 h1, sampling_onechild_twoparents_2D_eq]

/-- a 2×1 matrix with one entry of either sign, the second held: prior zero turns the first one off, prior two leaves it on -/
theorem C129_hypotheses_met : PMArr ⟨[2, 1], fun _ => 1⟩ ∧
    samplingAnyPrior (fun _ _ _ => 7) ⟨[2, 1], fun _ => 1⟩ ⟨[2, 1], fun i => if i = [1, 0] then 1 else 0⟩ (npLogit 0) (fun _ => 0) [0, 0] = -1 ∧
    samplingAnyPrior (fun _ _ _ => 7) ⟨[2, 1], fun _ => 1⟩ ⟨[2, 1], fun i => if i = [1, 0] then 1 else 0⟩ (npLogit 0) (fun _ => 0) [1, 0] = 1 ∧
    samplingAnyPrior (fun _ _ _ => -7) ⟨[2, 1], fun _ => 1⟩ ⟨[2, 1], fun i => if i = [1, 0] then 1 else 0⟩ (npLogit 2) (fun _ => 0) [0, 0] = 1 := by
  have hp : PMArr ⟨[2, 1], fun _ => 1⟩ := fun _ _ => .inl rfl
  refine ⟨hp, ?_, ?_, ?_⟩
  · rw [C129_zero _ _ rfl hp (fun _ => le_rfl) 0 (by omega) 0 (by omega)]; simp
  · rw [C129_zero _ _ rfl hp (fun _ => le_rfl) 1 (by omega) 0 (by omega)]; simp
  · rw [C129_wrong _ _ rfl hp _ (.inr (by norm_num)) 0 (by omega) 0 (by omega)]

end LFM
