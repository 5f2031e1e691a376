import Verif.Model.Plot
import Verif.Props.OutputState

/-!
# C120: what is plotted of a factor
-/

namespace LFM

open Spec

/-- the share of samples in which an entry is 1 -/
noncomputable def Spec.share (ss : List (Arr Int)) (i : List Nat) : ℝ := (ss.countP fun a => a i = 1 : Nat) / ss.length

theorem sum_signs (ss : List (Arr Int)) (i : List Nat) (h : ∀ a ∈ ss, a i = 1 ∨ a i = -1) :
    (ss.map fun a => ((a i : Int) : ℝ)).sum = 2 * (ss.countP fun a => a i = 1 : Nat) - ss.length := by
  induction ss with
  | nil => simp
  | cons a ss ih =>
    rw [List.map_cons, List.sum_cons, ih fun b hb => h b (by simp [hb]), List.countP_cons, List.length_cons]
    rcases h a (by simp) with h1 | h1
    · rw [h1]; simp; ring
    · rw [h1]; simp; ring

/-- samples of a factor: at least one, all of the shape of its value, entries 1 and -1 -/
structure Spec.HasDraws (f : OFac) (ss : List (Arr Int)) : Prop where
  trace : f.trace = some ss
  some : ss ≠ []
  shape : ∀ a ∈ ss, a.shape = f.val.shape
  sign : ∀ a ∈ ss, ∀ i ∈ indices f.val.shape, a i = 1 ∨ a i = -1

theorem Spec.HasDraws.mean {f : OFac} {ss : List (Arr Int)} (h : HasDraws f ss) :
    ∃ a, f.mean = .nums a ∧ a.shape = f.val.shape ∧ ∀ i ∈ indices f.val.shape, a i = 2 * share ss i - 1 := by
  obtain ⟨s, ss', rfl⟩ : ∃ s ss', ss = s :: ss' := by
    cases ss with
    | nil => exact absurd rfl h.some
    | cons s ss' => exact ⟨s, ss', rfl⟩
  refine ⟨⟨s.shape, fun i => ((s :: ss').map fun a => (a i : ℝ)).sum / (s :: ss').length⟩, ?_, h.shape s (by simp), ?_⟩
  · rw [OFac.mean, h.trace]
  · intro i hi
    show ((s :: ss').map fun a => ((a i : Int) : ℝ)).sum / ((s :: ss').length : ℝ) = _
    rw [sum_signs (s :: ss') i fun a ha => h.sign a ha i hi, share]
    have : ((s :: ss').length : ℝ) ≠ 0 := by simp only [List.length_cons]; positivity
    field_simp

theorem share_le (ss : List (Arr Int)) (i : List Nat) : 0 ≤ share ss i ∧ share ss i ≤ 1 := by
  unfold share
  constructor
  · positivity
  · apply div_le_one_of_le₀
    · exact_mod_cast List.countP_le_length
    · positivity

theorem plot_matrix_shape (mat : Arr ℝ) : (plot_matrix mat).shape = mat.shape := by
  unfold plot_matrix
  split <;> rfl

theorem plot_matrix_neg {mat : Arr ℝ} (h : ∃ i ∈ indices mat.shape, mat i < 0) (i : List Nat) :
    (plot_matrix mat) i = 1 / 2 * (mat i + 1) := by
  have : ((indices mat.shape).any fun i => decide (mat i < 0)) = true := by
    obtain ⟨j, hj, hn⟩ := h
    exact List.any_eq_true.2 ⟨j, hj, by simpa using hn⟩
  unfold plot_matrix
  rw [if_pos this]
  rfl

theorem plot_matrix_nonneg {mat : Arr ℝ} (h : ∀ i ∈ indices mat.shape, 0 ≤ mat i) : plot_matrix mat = mat := by
  have : ¬ ((indices mat.shape).any fun i => decide (mat i < 0)) = true := by
    rw [List.any_eq_true]
    rintro ⟨j, hj, hn⟩
    exact absurd (h j hj) (by simpa using hn)
  unfold plot_matrix
  rw [if_neg this]

/-- **C120**, current values: 1 is shown as one and -1 as zero, in all matrices of such values -/
theorem C120_state (f : OFac) (h : ∀ i ∈ indices f.val.shape, f.val i = 1 ∨ f.val i = -1) :
    ∃ P, f.show "state" = .ok (.nums P) ∧ P.shape = f.val.shape ∧
      ∀ i ∈ indices f.val.shape, P i = if f.val i = 1 then 1 else 0 := by
  refine ⟨plot_matrix (toReal f.val), ?_, plot_matrix_shape _, ?_⟩
  · rw [OFac.show, if_neg (by decide), if_neg (by decide), if_pos rfl]
    rfl
  · intro i hi
    by_cases hn : ∃ j ∈ indices f.val.shape, f.val j = -1
    · obtain ⟨j, hj, hv⟩ := hn
      rw [plot_matrix_neg (mat := toReal f.val) ⟨j, hj, by show ((f.val j : Int) : ℝ) < 0; rw [hv]; norm_num⟩ i]
      show 1 / 2 * (((f.val i : Int) : ℝ) + 1) = _
      rcases h i hi with h1 | h1
      · rw [h1]; norm_num
      · rw [h1]; norm_num
    · have h1 : ∀ j ∈ indices f.val.shape, f.val j = 1 := fun j hj =>
        (h j hj).resolve_right fun hv => hn ⟨j, hj, hv⟩
      rw [plot_matrix_nonneg (mat := toReal f.val) fun j hj => by
        show (0 : ℝ) ≤ ((f.val j : Int) : ℝ); rw [h1 j hj]; norm_num, if_pos (h1 i hi)]
      show ((f.val i : Int) : ℝ) = 1
      rw [h1 i hi]
      norm_num

/-- **C120**, means: if some entry is 1 in less than half of the samples, every entry is shown as the share of samples in
which it is 1; otherwise it is shown as twice that share minus one -/
theorem C120_mean (f : OFac) (ss : List (Arr Int)) (h : HasDraws f ss) :
    ∃ P, f.show "mean" = .ok (.nums P) ∧ P.shape = f.val.shape ∧
      ((∃ j ∈ indices f.val.shape, share ss j < 1 / 2) → ∀ i ∈ indices f.val.shape, P i = share ss i) ∧
      ((∀ j ∈ indices f.val.shape, 1 / 2 ≤ share ss j) → ∀ i ∈ indices f.val.shape, P i = 2 * share ss i - 1) := by
  obtain ⟨a, ha, hs, hv⟩ := h.mean
  refine ⟨plot_matrix a, ?_, by rw [plot_matrix_shape, hs], ?_, ?_⟩
  · rw [OFac.show, if_pos rfl, ha]
    rfl
  · rintro ⟨j, hj, hlt⟩ i hi
    rw [plot_matrix_neg ⟨j, by rw [hs]; exact hj, by rw [hv j hj]; linarith⟩, hv i hi]
    ring
  · intro hall i hi
    rw [plot_matrix_nonneg fun j hj => by rw [hs] at hj; rw [hv j hj]; linarith [hall j hj], hv i hi]

/-- **C120**, means: exactly when the plot shows the shares of ones -/
theorem C120_mean_iff (f : OFac) (ss : List (Arr Int)) (h : HasDraws f ss) (P : Arr ℝ) (hP : f.show "mean" = .ok (.nums P)) :
    (∀ i ∈ indices f.val.shape, P i = share ss i) ↔
      (∃ i ∈ indices f.val.shape, share ss i < 1 / 2) ∨ ∀ i ∈ indices f.val.shape, share ss i = 1 := by
  obtain ⟨Q, hQ, -, h1, h2⟩ := C120_mean f ss h
  obtain rfl : P = Q := by
    rw [hP] at hQ
    simpa using hQ
  constructor
  · intro hall
    by_cases hn : ∃ i ∈ indices f.val.shape, share ss i < 1 / 2
    · exact .inl hn
    · push Not at hn
      exact .inr fun i hi => by
        have e1 := hall i hi
        have e2 := h2 hn i hi
        linarith
  · rintro (hn | hone)
    · exact h1 hn
    · intro i hi
      rw [h2 (fun j hj => by rw [hone j hj]; norm_num) i hi, hone i hi]
      norm_num

/-- a factor of one entry that was 1 in three samples out of four -/
def plotFac : OFac := ⟨Arr.full [1, 1] 1, some [Arr.full [1, 1] 1, Arr.full [1, 1] 1, Arr.full [1, 1] (-1), Arr.full [1, 1] 1]⟩

theorem plotFac_sampled : HasDraws plotFac [Arr.full [1, 1] 1, Arr.full [1, 1] 1, Arr.full [1, 1] (-1), Arr.full [1, 1] 1] where
  trace := rfl
  some := by simp
  shape := by simp [plotFac, Arr.full]
  sign := by
    intro a ha i _
    simp only [List.mem_cons, List.not_mem_nil, or_false] at ha
    rcases ha with rfl | rfl | rfl | rfl <;> simp [Arr.full]

/-- **C120** is false for means: an entry that is 1 in three samples out of four is shown as one half -/
theorem C120_mean_wrong : ∃ P, plotFac.show "mean" = .ok (.nums P) ∧ P [0, 0] = 1 / 2 ∧
    share [Arr.full [1, 1] 1, Arr.full [1, 1] 1, Arr.full [1, 1] (-1), Arr.full [1, 1] 1] [0, 0] = 3 / 4 := by
  have hs : share [Arr.full [1, 1] 1, Arr.full [1, 1] 1, Arr.full [1, 1] (-1), Arr.full [1, 1] 1] [0, 0] = 3 / 4 := by
    simp [share, Arr.full, List.countP_cons]
  obtain ⟨P, h1, -, -, h2⟩ := C120_mean _ _ plotFac_sampled
  refine ⟨P, h1, ?_, hs⟩
  have hi : indices plotFac.val.shape = [[0, 0]] := by decide
  rw [hi] at h2
  rw [h2 (by intro j hj; rw [List.mem_singleton.1 hj, hs]; norm_num) [0, 0] (by simp), hs]
  norm_num

/-- **C120**, MAP estimates: an entry is shown as one exactly if it is 1 in more than three quarters of the samples, and as
zero otherwise -/
theorem C120_map (f : OFac) (ss : List (Arr Int)) (h : HasDraws f ss) :
    ∃ P, f.show "map" = .ok (.nums P) ∧ P.shape = f.val.shape ∧
      ∀ i ∈ indices f.val.shape, P i = if 3 / 4 < share ss i then 1 else 0 := by
  obtain ⟨a, ha, hs, hv⟩ := h.mean
  have hnn : ∀ i ∈ indices (aboveHalf f.mean).shape, 0 ≤ (aboveHalf f.mean) i := by
    intro i _
    rw [ha]
    show (0 : ℝ) ≤ if 1 / 2 < a i then 1 else 0
    split <;> norm_num
  refine ⟨aboveHalf f.mean, ?_, by rw [ha]; exact hs, ?_⟩
  · rw [OFac.show, if_neg (by decide), if_pos rfl, plotMean, plot_matrix_nonneg hnn]
  · intro i hi
    rw [ha]
    show (if 1 / 2 < a i then (1 : ℝ) else 0) = _
    rw [hv i hi]
    congr 1
    apply propext
    constructor <;> intro hh <;> linarith

/-- **C120**, MAP estimates: the entries for which the plot agrees with the values that `set_to_map` sets are exactly those
that are 1 in at most half or in more than three quarters of the samples -/
theorem C120_map_iff (f : OFac) (ss : List (Arr Int)) (h : HasDraws f ss) (P : Arr ℝ) (hP : f.show "map" = .ok (.nums P))
    (i : List Nat) (hi : i ∈ indices f.val.shape) :
    (P i = 1 ↔ f.set_to_map.val i = 1) ↔ share ss i ≤ 1 / 2 ∨ 3 / 4 < share ss i := by
  obtain ⟨Q, hQ, -, h1⟩ := C120_map f ss h
  obtain rfl : P = Q := by
    rw [hP] at hQ
    simpa using hQ
  obtain ⟨a, ha, hs, hv⟩ := h.mean
  have hm : f.set_to_map.val i = if 1 / 2 < share ss i then 1 else -1 := by
    have e : f.set_to_map.val i = (if (if (0 : ℝ) < a i then (1 : Int) else 0) = 0 then -1 else if (0 : ℝ) < a i then 1 else 0) := by
      rw [OFac.set_to_map, ha]
      rfl
    rw [e, hv i hi]
    by_cases hc : 1 / 2 < share ss i
    · have h0 : (0 : ℝ) < 2 * share ss i - 1 := by linarith
      simp only [h0, hc, if_true]
      norm_num
    · have h0 : ¬ (0 : ℝ) < 2 * share ss i - 1 := by linarith
      simp only [h0, hc, if_false, if_true]
  rw [h1 i hi, hm]
  by_cases h3 : 3 / 4 < share ss i
  · have h2 : 1 / 2 < share ss i := by linarith
    simp only [if_pos h3, if_pos h2, h3, or_true]
    norm_num
  · by_cases h2 : 1 / 2 < share ss i
    · simp only [if_neg h3, if_pos h2, h3, or_false, not_le.2 h2]
      norm_num
    · simp only [if_neg h3, if_neg h2, not_lt.1 h2, true_or]
      norm_num

/-- **C120** is false for MAP estimates: an entry that is 1 in three samples out of four is shown as zero -/
theorem C120_map_wrong : ∃ P, plotFac.show "map" = .ok (.nums P) ∧ P [0, 0] = 0 ∧ plotFac.set_to_map.val [0, 0] = 1 := by
  have hs : share [Arr.full [1, 1] 1, Arr.full [1, 1] 1, Arr.full [1, 1] (-1), Arr.full [1, 1] 1] [0, 0] = 3 / 4 := by
    simp [share, Arr.full, List.countP_cons]
  obtain ⟨P, h1, -, h2⟩ := C120_map _ _ plotFac_sampled
  have hi : [0, 0] ∈ indices plotFac.val.shape := by decide
  have hz : P [0, 0] = 0 := by rw [h2 _ hi, hs]; norm_num
  refine ⟨P, h1, hz, ?_⟩
  have := C120_map_iff _ _ plotFac_sampled P h1 _ hi
  by_contra hne
  have hr : share [Arr.full [1, 1] 1, Arr.full [1, 1] 1, Arr.full [1, 1] (-1), Arr.full [1, 1] 1] [0, 0] ≤ 1 / 2 ∨ _ :=
    this.1 ⟨fun h => by rw [hz] at h; norm_num at h, fun h => absurd h hne⟩
  rw [hs] at hr
  norm_num at hr

/-- **C120**, techniques: any other name raises ValueError -/
theorem C120_technique (f : OFac) (t : String) (h : t ≠ "mean" ∧ t ≠ "map" ∧ t ≠ "state") : f.show t = .error .valueError := by
  rw [OFac.show, if_neg h.1, if_neg h.2.1, if_neg h.2.2]

end LFM
