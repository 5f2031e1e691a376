import Verif.Props.Scores
import Verif.Props.Lists
import Verif.Props.RandomInit
import Verif.Lemmas.EveryData
import Verif.Lemmas.Lambda
import Verif.Lemmas.Flip
import Verif.Lemmas.Samplers
import Verif.Lemmas.SweepLaw
import Verif.Lemmas.Unheard

/-!
# C127: data given as zeros and ones

`Machine.add_matrix` (machine.py:533-542) stores the array as it is: a zero is a missing cell. The claim that 0/1 data
may be given is false: the likelihood is maximal when every cell is predicted to be one, it is never proportional to
that of the recoded data, and for OR-AND no score is ever negative. `check_binary_coding`
(auxiliary_functions.py:469-478), which `add_matrix` does not call, repairs it.
-/

namespace LFM

open Spec

namespace Spec

/-- every cell is zero or one -/
def ZeroOne (N D : Nat) (X : Nat → Nat → Int) : Prop := ∀ n < N, ∀ d < D, X n d = 0 ∨ X n d = 1

/-- what a reader of 0/1 data means: zero is "false" -/
def asSigns (X : Nat → Nat → Int) : Nat → Nat → Int := fun n d => if X n d = 0 then -1 else X n d

end Spec

/-- every model predicts either value from some two rows of any positive number of entries -/
theorem rows_giving (m : Lom8) {L : Nat} (hL : 0 < L) {v : Int} (hv : IsPM v) :
    ∃ z u : Nat → Int, (∀ l, IsPM (z l)) ∧ (∀ l, IsPM (u l)) ∧ pred2 m L z u = v := by
  have key : ∀ a b : Nat → Bool, (lom m.outer m.inner fun (l : Fin L) (k : Fin 2) => ![sgn (a l), sgn (b l)] k = 1) ↔
      m.outer.Holds fun l : Fin L => holds2 m.inner (a l) (b l) = true := by
    intro a b
    unfold lom
    have : ∀ l : Fin L, (m.inner.Holds fun k : Fin 2 => ![sgn (a l), sgn (b l)] k = 1) =
        (holds2 m.inner (a l) (b l) = true) := fun l => propext (by
      have := inner2 m.inner (σ := 1) (.inl rfl) (a l) (b l)
      simpa using this)
    simp only [this]
  have ps : ∀ b : Bool, IsPM (sgn b) := fun b => by cases b <;> simp [sgn, IsPM]
  -- dimension 0 against the others
  have first : ∀ (p q : Bool) (r s : Bool), (m.outer = .OR ∨ m.outer = .XOR) → holds2 m.inner p q = true →
      holds2 m.inner r s = false → ∃ z u : Nat → Int, (∀ l, IsPM (z l)) ∧ (∀ l, IsPM (u l)) ∧ pred2 m L z u = 1 := by
    intro p q r s ho h1 h0
    refine ⟨fun l => sgn (if l = 0 then p else r), fun l => sgn (if l = 0 then q else s), fun _ => ps _, fun _ => ps _,
      pm_true ((key (fun l => if l = 0 then p else r) (fun l => if l = 0 then q else s)).mpr
        (outer_single ho ⟨0, hL⟩ fun l => ?_))⟩
    by_cases hl : (l : Nat) = 0
    · simp [hl, h1, Fin.ext_iff]
    · simp [hl, h0, Fin.ext_iff]
  have none : ∀ r s : Bool, (m.outer = .OR ∨ m.outer = .XOR) → holds2 m.inner r s = false →
      ∃ z u : Nat → Int, (∀ l, IsPM (z l)) ∧ (∀ l, IsPM (u l)) ∧ pred2 m L z u = -1 := by
    intro r s ho h0
    exact ⟨fun _ => sgn r, fun _ => sgn s, fun _ => ps _, fun _ => ps _,
      pm_false fun h => outer_none ho (fun l => by simp [h0]) ((key (fun _ => r) fun _ => s).mp h)⟩
  rcases hv with rfl | rfl
  · cases m
    case NAND_XOR =>
      exact ⟨fun _ => sgn true, fun _ => sgn true, fun _ => ps _, fun _ => ps _,
        pm_true ((key (fun _ => true) fun _ => true).mpr fun h => absurd (h ⟨0, hL⟩)
          (show ¬ holds2 .XOR true true = true by decide))⟩
    case OR_AND => exact first true true false false (.inl rfl) (by decide) (by decide)
    case OR_NAND => exact first false false true true (.inl rfl) (by decide) (by decide)
    case OR_XOR => exact first true false true true (.inl rfl) (by decide) (by decide)
    case XOR_AND => exact first true true false false (.inr rfl) (by decide) (by decide)
    case XOR_XOR => exact first true false true true (.inr rfl) (by decide) (by decide)
    case XOR_NXOR => exact first true true true false (.inr rfl) (by decide) (by decide)
    case XOR_NAND => exact first false false true true (.inr rfl) (by decide) (by decide)
  · cases m
    case NAND_XOR =>
      exact ⟨fun _ => sgn true, fun _ => sgn false, fun _ => ps _, fun _ => ps _,
        pm_false fun h => ((key (fun _ => true) fun _ => false).mp h) fun _ =>
          (show holds2 .XOR true false = true by decide)⟩
    case OR_AND => exact none false false (.inl rfl) (by decide)
    case OR_NAND => exact none true true (.inl rfl) (by decide)
    case OR_XOR => exact none true true (.inl rfl) (by decide)
    case XOR_AND => exact none false false (.inr rfl) (by decide)
    case XOR_XOR => exact none true true (.inr rfl) (by decide)
    case XOR_NXOR => exact none true false (.inr rfl) (by decide)
    case XOR_NAND => exact none true true (.inr rfl) (by decide)

theorem pred2_isPM (m : Lom8) (L : Nat) (z u : Nat → Int) : IsPM (pred2 m L z u) := by
  unfold pred2 pm; split
  · exact .inl rfl
  · exact .inr rfl

/-- **C127 (all ones).** For each of the eight models, any 0/1 data, any `λ ≥ 0` and any positive number of latent
dimensions, there are factors with all rows alike that predict one in every cell, and no factors have a larger
likelihood than these: whatever pattern the zeros have, the data given as 0/1 is explained best by no pattern at all. -/
theorem C127_flat (m : Lom8) {N D L : Nat} (hL : 0 < L) {lbda : ℝ} (hl : 0 ≤ lbda) :
    ∃ z u : Nat → Int, (∀ l, IsPM (z l)) ∧ (∀ l, IsPM (u l)) ∧ pred2 m L z u = 1 ∧
      ∀ X : Nat → Nat → Int, ZeroOne N D X → ∀ F G : Factor,
        lik2 m N D L lbda X F G ≤ lik2 m N D L lbda X (fun _ => z) (fun _ => u) := by
  obtain ⟨z, u, hz, hu, hp⟩ := rows_giving m hL (.inl rfl)
  refine ⟨z, u, hz, hu, hp, fun X hX F G => ?_⟩
  have h0 : ∀ x p, 0 ≤ cellLik lbda x p := fun x p => by
    unfold cellLik; split
    · exact zero_le_one
    · exact (sigmoid_pos _).le
  refine Finset.prod_le_prod (fun n _ => Finset.prod_nonneg fun d _ => h0 _ _) fun n _ =>
    Finset.prod_le_prod (fun d _ => h0 _ _) fun d _ => ?_
  rw [hp]
  rcases hX n n.2 d d.2 with h | h
  · simp [cellLik, h]
  · simp only [cellLik, h, one_ne_zero, if_false]
    refine sigmoid_strictMono.monotone ?_
    rcases pred2_isPM m L (F n) (G d) with e | e <;> rw [e] <;> push_cast <;> linarith

/-- likelihood of constant predictions -/
theorem lik2_const {m : Lom8} {N D L : Nat} {lbda : ℝ} {X : Nat → Nat → Int} {z u : Nat → Int} :
    lik2 m N D L lbda X (fun _ => z) (fun _ => u) = ∏ i : Fin N × Fin D, cellLik lbda (X i.1 i.2) (pred2 m L z u) := by
  unfold lik2
  rw [Fintype.prod_prod_type]

/-- **C127 (not the intended posterior).** For each of the eight models, any 0/1 data that contains a zero, any
`λ ≠ 0` and any positive number of latent dimensions, the likelihood of the data as given is not proportional to the
likelihood of the data meant: some two pairs of factors are ranked in different proportions. -/
theorem C127_not_proportional (m : Lom8) {N D L : Nat} (hL : 0 < L) {lbda : ℝ} (hl : lbda ≠ 0) {X : Nat → Nat → Int}
    (hX : ZeroOne N D X) {n d : Nat} (hn : n < N) (hd : d < D) (h0 : X n d = 0) :
    ∃ F G F' G' : Factor, (∀ i l, IsPM (F i l)) ∧ (∀ i l, IsPM (G i l)) ∧ (∀ i l, IsPM (F' i l)) ∧
      (∀ i l, IsPM (G' i l)) ∧
      lik2 m N D L lbda X F G * lik2 m N D L lbda (asSigns X) F' G' ≠
        lik2 m N D L lbda X F' G' * lik2 m N D L lbda (asSigns X) F G := by
  obtain ⟨z, u, hz, hu, hp⟩ := rows_giving m hL (v := 1) (.inl rfl)
  obtain ⟨z', u', hz', hu', hp'⟩ := rows_giving m hL (v := -1) (.inr rfl)
  refine ⟨fun _ => z, fun _ => u, fun _ => z', fun _ => u', fun _ => hz, fun _ => hu, fun _ => hz', fun _ => hu', ?_⟩
  simp only [lik2_const, hp, hp', ← Finset.prod_mul_distrib]
  have c0 : ∀ p, cellLik lbda 0 p = 1 := fun p => by simp [cellLik]
  -- cell by cell the left side is `sigmoid λ` for zeros, the right side `sigmoid (-λ)`
  have e1 : ∀ i : Fin N × Fin D, cellLik lbda (X i.1 i.2) 1 * cellLik lbda (asSigns X i.1 i.2) (-1) =
      (if X i.1 i.2 = 0 then sigmoid lbda else sigmoid lbda * sigmoid (-lbda)) := fun i => by
    rcases hX i.1 i.1.2 i.2 i.2.2 with h | h <;> simp [cellLik, asSigns, h]
  have e2 : ∀ i : Fin N × Fin D, cellLik lbda (X i.1 i.2) (-1) * cellLik lbda (asSigns X i.1 i.2) 1 =
      (if X i.1 i.2 = 0 then sigmoid (-lbda) else sigmoid lbda * sigmoid (-lbda)) := fun i => by
    rcases hX i.1 i.1.2 i.2 i.2.2 with h | h
    · simp [cellLik, asSigns, h]
    · simp [cellLik, asSigns, h, mul_comm]
  simp only [e1, e2]
  have hmem : ((⟨n, hn⟩, ⟨d, hd⟩) : Fin N × Fin D) ∈ (Finset.univ : Finset (Fin N × Fin D)) := Finset.mem_univ _
  have pos : ∀ x : ℝ, ∀ i ∈ (Finset.univ : Finset (Fin N × Fin D)),
      0 < (if X i.1 i.2 = 0 then sigmoid x else sigmoid lbda * sigmoid (-lbda)) := fun x i _ => by
    split
    · exact sigmoid_pos _
    · exact mul_pos (sigmoid_pos _) (sigmoid_pos _)
  rcases lt_or_gt_of_ne hl with h | h
  · refine ne_of_lt (Finset.prod_lt_prod (pos _) (fun i _ => ?_) ⟨_, hmem, ?_⟩)
    · split
      · exact (sigmoid_strictMono (by linarith)).le
      · exact le_rfl
    · simp only [h0, if_true]
      exact sigmoid_strictMono (by linarith)
  · refine ne_of_gt (Finset.prod_lt_prod (pos _) (fun i _ => ?_) ⟨_, hmem, ?_⟩)
    · split
      · exact (sigmoid_strictMono (by linarith)).le
      · exact le_rfl
    · simp only [h0, if_true]
      exact sigmoid_strictMono (by linarith)

/-- **C127 (the code's scores).** The score the code computes for 0/1 data differs from the score for the data meant by
exactly the part of the zeros: twice the difference is the sum over the zeros of the change of the prediction. -/
theorem C127_score_difference (m : Lom8) :
    ∃ f, get_posterior_score_fct (pyDashToUnderscore (m.name ++ "-2D")) = .ok (.two f) ∧
      ∀ (D L : Nat) (Z U X Y : Arr Int) (l : Nat), l < L → Z.shape = [L] → U.shape = [D, L] → X.shape = [D] →
        Y.shape = [D] → PMArr Z → PMArr U → D ≤ 32767 → (∀ d < D, X [d] = 0 ∧ Y [d] = -1 ∨ X [d] = 1 ∧ Y [d] = 1) →
        2 * f Z U X l - 2 * f Z U Y l = ∑ d : Fin D, if X [(d : Nat)] = 0 then
          pred2 m L (setEntry (fun l => Z [l]) l 1) (fun l => U [(d : Nat), l]) -
            pred2 m L (setEntry (fun l => Z [l]) l (-1)) (fun l => U [(d : Nat), l]) else 0 := by
  obtain ⟨f, hf, h⟩ := C14_score_2d_partial m
  refine ⟨f, hf, fun D L Z U X Y l hl hZ hU hX hY pZ pU hD hXY => ?_⟩
  have inb : ∀ {A : Arr Int}, A.shape = [D] → ∀ idx, InB A.shape idx → ∃ d < D, idx = [d] := by
    intro A hA idx hi
    rw [hA] at hi
    match idx, hi with
    | [d], hi => exact ⟨d, hi.1, rfl⟩
  have dX : DataArr X := fun idx hi => by
    obtain ⟨d, hd, rfl⟩ := inb hX idx hi
    rcases hXY d hd with e | e
    · exact .inr (.inr e.1)
    · exact .inl e.1
  have dY : DataArr Y := fun idx hi => by
    obtain ⟨d, hd, rfl⟩ := inb hY idx hi
    rcases hXY d hd with e | e
    · exact .inr (.inl e.2)
    · exact .inl e.2
  rw [h D L Z U X l hl hZ hU hX pZ pU dX hD, h D L Z U Y l hl hZ hU hY pZ pU dY hD]
  unfold twiceScore2
  rw [← Finset.sum_sub_distrib]
  refine Finset.sum_congr rfl fun d _ => ?_
  dsimp only
  rcases hXY d d.2 with e | e
  · rw [e.1, e.2]; simp
  · rw [e.1, e.2]; simp

/-- **C127 (nothing speaks for a "false").** In the OR-AND model the score the code computes from 0/1 data is never
negative, for any factors and any entry. -/
theorem C127_or_and_score : ∃ f, get_posterior_score_fct "OR_AND_2D" = .ok (.two f) ∧
      ∀ (D L : Nat) (Z U X : Arr Int) (l : Nat), l < L → Z.shape = [L] → U.shape = [D, L] → X.shape = [D] →
        PMArr Z → PMArr U → D ≤ 32767 → (∀ d < D, X [d] = 0 ∨ X [d] = 1) → 0 ≤ f Z U X l := by
  obtain ⟨f, hf, h⟩ := C14_score_2d_partial .OR_AND
  refine ⟨f, by rw [← hf]; congr 1, fun D L Z U X l hl hZ hU hX pZ pU hD h01 => ?_⟩
  have dX : DataArr X := fun idx hi => by
    rw [hX] at hi
    match idx, hi with
    | [d], hi =>
      rcases h01 d hi.1 with e | e
      · exact .inr (.inr e)
      · exact .inl e
  have := h D L Z U X l hl hZ hU hX pZ pU dX hD
  suffices hs : 0 ≤ twiceScore2 .OR_AND D L (fun l => Z [l]) (fun d l => U [d, l]) (fun d => X [d]) l by omega
  refine Finset.sum_nonneg fun d _ => ?_
  dsimp only
  rcases h01 d d.2 with e | e
  · simp [e]
  rw [e, one_mul]
  set u : Nat → Int := fun l => U [(d : Nat), l]
  suffices hle : pred2 .OR_AND L (setEntry (fun l => Z [l]) l (-1)) u ≤
      pred2 .OR_AND L (setEntry (fun l => Z [l]) l 1) u by omega
  rcases pred2_isPM .OR_AND L (setEntry (fun l => Z [l]) l 1) u with h1 | h1
  · rcases pred2_isPM .OR_AND L (setEntry (fun l => Z [l]) l (-1)) u with h2 | h2 <;> rw [h1, h2] <;> decide
  · rw [h1]
    have hneg : ¬ lom (Lom8.OR_AND).outer (Lom8.OR_AND).inner
        fun (i : Fin L) (k : Fin 2) => ![setEntry (fun l => Z [l]) l 1 i, u i] k = 1 := fun hh => by
      rw [pred2, pm_true hh] at h1
      exact absurd h1 (by decide)
    rw [pred2, pm_false]
    rintro ⟨i, hi⟩
    refine hneg ⟨i, fun k => ?_⟩
    match k with
    | 1 => exact hi 1
    | 0 =>
      have h0 : setEntry (fun l => Z [l]) l (-1) i = 1 := hi 0
      show setEntry (fun l => Z [l]) l 1 i = 1
      unfold setEntry at h0 ⊢
      split
      · rfl
      · rename_i hne
        rwa [if_neg hne] at h0

/-- if no score is negative, every free entry at -1 is turned to 1 -/
theorem sweep_up {logit : Arr Int → List Nat → ℝ} {Zf : Arr Int} {rnd : Rnd} {ts : List (List Nat)} (hn : ts.Nodup) :
    ∀ {Z : Arr Int}, PMArr Z → (∀ Y : Arr Int, Y.shape = Z.shape → PMArr Y → ∀ i ∈ ts, 0 ≤ logit Y i) →
      ∀ i ∈ ts, Zf i ≠ 1 → Z i = -1 → sweep logit Zf rnd ts Z i = 1 := by
  induction ts with
  | nil => intro Z _ _ i hi; exact absurd hi (by simp)
  | cons t ts ih =>
    intro Z hp hl i hi hf hz
    have hs : (updEntry logit Zf rnd Z t).shape = Z.shape := by unfold updEntry; split <;> rfl
    have hp' : PMArr (updEntry logit Zf rnd Z t) := fun j hj => by
      have := ((sweep_entry logit Zf rnd [t] Z).2 j).2.1 (hp j (by rwa [hs] at hj))
      exact this
    have key : ∀ j, j ≠ t → updEntry logit Zf rnd Z t j = Z j := fun j hj => by
      unfold updEntry
      split
      · rfl
      · simp only [Arr.set, if_neg hj]
    have rest : ∀ (j : List Nat), j ∉ ts → ∀ Y : Arr Int, sweep logit Zf rnd ts Y j = Y j := by
      clear ih hn hl hi
      induction ts with
      | nil => intro j _ Y; rfl
      | cons r rs ih2 =>
        intro j hj Y
        rw [List.mem_cons, not_or] at hj
        refine (ih2 j hj.2 _).trans ?_
        unfold updEntry
        split
        · rfl
        · simp only [Arr.set, if_neg hj.1]
    show sweep logit Zf rnd ts (updEntry logit Zf rnd Z t) i = 1
    rcases List.mem_cons.mp hi with rfl | hi
    · rw [rest _ (List.nodup_cons.mp hn).1]
      unfold updEntry
      rw [if_neg hf]
      simp only [Arr.set, if_true, hz]
      unfold flip_metropolised_gibbs_numba
      rw [if_neg (by simp), if_pos ⟨rfl, hl Z rfl hp _ (by simp)⟩]
    · refine ih (List.nodup_cons.mp hn).2 hp' (fun Y hY pY j hj => hl Y (hY.trans hs) pY j (by simp [hj])) i hi hf ?_
      rw [key i fun h => (List.nodup_cons.mp hn).1 (h ▸ hi), hz]

/-- **C127 (nothing stays "false").** In the OR-AND model, with 0/1 data, `λ ≥ 0` and a prior of at least one half, every free
entry of a factor that is -1 before a sweep is 1 after it, whatever the random numbers, the other factor and the data. -/
theorem C127_or_and_sweep : ∃ f, get_posterior_score_fct "OR_AND_2D" = .ok (.two f) ∧
    ∀ (N D L : Nat) (Z Zf U X : Arr Int) (lbda lp : ℝ) (rnd : Rnd), Z.shape = [N, L] → U.shape = [D, L] →
      X.shape = [N, D] → PMArr Z → PMArr U → D ≤ 32767 → (ZeroOne N D fun n d => X [n, d]) → 0 ≤ lbda → 0 ≤ lp →
      ∀ n < N, ∀ l < L, Zf [n, l] ≠ 1 → Z [n, l] = -1 → sampling_onechild_2D f Z Zf U X lbda lp rnd [n, l] = 1 := by
  obtain ⟨f, hf, h⟩ := C127_or_and_score
  refine ⟨f, hf, fun N D L Z Zf U X lbda lp rnd hZ hU hX pZ pU hD h01 hl hp n hn l hll hfree hz => ?_⟩
  rw [sampling_onechild_2D_eq]
  have hd : Z.dim 0 = N ∧ Z.dim 1 = L := by simp [Arr.dim, hZ]
  rw [hd.1, hd.2]
  refine sweep_up (nodup_tasks2 N L) pZ (fun Y hY pY i hi => ?_) [n, l] (mem_tasks2.mpr ⟨n, hn, l, hll, rfl⟩) hfree hz
  obtain ⟨a, ha, b, hb, rfl⟩ := mem_tasks2.mp hi
  have hr := pY.row (n := a) (hY.trans hZ) ha
  have := h D L (Y.row a) U (X.row a) b hb hr.1 hU (by simp [Arr.row, hX]) hr.2 pU hD fun d hdd => h01 a ha d hdd
  show 0 ≤ lbda * (f (Y.row a) U (X.row a) b : ℝ) + lp
  have h2 : (0 : ℝ) ≤ (f (Y.row a) U (X.row a) b : ℝ) := by exact_mod_cast this
  positivity

/-- **C127** (`_partial`: the claim is true only of data that went through `check_binary_coding`, which `add_matrix`
does not call). Recoded 0/1 data is the data meant, so its likelihood is that of the data meant, for every model and all
factors. -/
theorem C127_recoded_partial (m : Lom8) {N D L : Nat} (lbda : ℝ) (X : Arr Int) (hX : X.shape = [N, D])
    (h01 : ZeroOne N D fun n d => X [n, d]) (F G : Factor) :
    lik2 m N D L lbda (fun n d => check_binary_coding X [n, d]) F G =
      lik2 m N D L lbda (asSigns fun n d => X [n, d]) F G := by
  have hne : ¬ ∃ i, InB X.shape i ∧ X i = -1 := by
    rintro ⟨i, hi, h⟩
    rw [hX] at hi
    match i, hi with
    | [n, d], hi => rcases h01 n hi.1 d hi.2.1 with e | e <;> simp only [e] at h <;> exact absurd h (by decide)
  have hd : DataArr X := fun i hi => by
    rw [hX] at hi
    match i, hi with
    | [n, d], hi =>
      rcases h01 n hi.1 d hi.2.1 with e | e
      · exact .inr (.inr e)
      · exact .inl e
  unfold lik2
  refine Finset.prod_congr rfl fun n _ => Finset.prod_congr rfl fun d _ => ?_
  congr 1
  have := (C60_recodes X hd).2.2 hne [n, d] (by rw [hX]; exact ⟨n.2, d.2, trivial⟩)
  dsimp only
  rcases h01 n n.2 d d.2 with e | e
  · rw [this.2 e]; simp [asSigns, e]
  · rw [this.1 e]; simp [asSigns, e]

/-- **C127 (the array in the machine).** `add_matrix` takes 0/1 data as it is; with any zero in it the array in the machine
has not, up to a constant, the likelihood of the data meant, for any of the eight models. -/
theorem C127_wrong (m : Lom8) {N D L : Nat} (hL : 0 < L) {lbda : ℝ} (hl : lbda ≠ 0) (X : Arr Int) (hX : X.shape = [N, D])
    (h01 : ZeroOne N D fun n d => X [n, d]) (h0 : ∃ n < N, ∃ d < D, X [n, d] = 0) (shape : List Nat) (rand : Rnd) :
    ∃ A, addMatrixInit shape (.array X) rand = .ok A ∧ A.shape = [N, D] ∧
      ¬ ∃ k : ℝ, ∀ F G : Factor, (∀ i l, IsPM (F i l)) → (∀ i l, IsPM (G i l)) →
        lik2 m N D L lbda (fun n d => A [n, d]) F G = k * lik2 m N D L lbda (asSigns fun n d => X [n, d]) F G := by
  refine ⟨X, (C109_given shape X rand).1, hX, ?_⟩
  rintro ⟨k, hk⟩
  obtain ⟨n, hn, d, hd, h0⟩ := h0
  obtain ⟨F, G, F', G', pF, pG, pF', pG', h⟩ := C127_not_proportional m hL hl h01 hn hd h0
  refine h ?_
  rw [hk F G pF pG, hk F' G' pF' pG']
  ring

/-! ### Three dimensions -/

namespace Spec

/-- every cell is zero or one -/
def ZeroOne3 (N D M : Nat) (X : Nat → Nat → Nat → Int) : Prop :=
  ∀ n < N, ∀ d < D, ∀ k < M, X n d k = 0 ∨ X n d k = 1

/-- zero is "false" -/
def asSigns3 (X : Nat → Nat → Nat → Int) : Nat → Nat → Nat → Int := fun n d k => if X n d k = 0 then -1 else X n d k

end Spec

/-- every model predicts either value from some three rows of any positive number of entries -/
theorem rows_giving3 (m : Lom8) {L : Nat} (hL : 0 < L) {v : Int} (hv : IsPM v) :
    ∃ z u w : Nat → Int, (∀ l, IsPM (z l)) ∧ (∀ l, IsPM (u l)) ∧ (∀ l, IsPM (w l)) ∧ pred3 m L z u w = v := by
  have key : ∀ a b c : Nat → Bool,
      (lom m.outer m.inner fun (l : Fin L) (k : Fin 3) => ![sgn (a l), sgn (b l), sgn (c l)] k = 1) ↔
      m.outer.Holds fun l : Fin L => LOp.eval3 m.inner (a l) (b l) (c l) = true := by
    intro a b c
    unfold lom
    have : ∀ l : Fin L, (m.inner.Holds fun k : Fin 3 => ![sgn (a l), sgn (b l), sgn (c l)] k = 1) =
        (LOp.eval3 m.inner (a l) (b l) (c l) = true) := fun l => propext (by
      have := inner3 m.inner (σ := 1) (.inl rfl) (a l) (b l) (c l)
      simpa using this)
    simp only [this]
  have ps : ∀ b : Bool, IsPM (sgn b) := fun b => by cases b <;> simp [sgn, IsPM]
  have first : ∀ (p q r p' q' r' : Bool), (m.outer = .OR ∨ m.outer = .XOR) → LOp.eval3 m.inner p q r = true →
      LOp.eval3 m.inner p' q' r' = false → ∃ z u w : Nat → Int, (∀ l, IsPM (z l)) ∧ (∀ l, IsPM (u l)) ∧ (∀ l, IsPM (w l)) ∧
        pred3 m L z u w = 1 := by
    intro p q r p' q' r' ho h1 h0
    refine ⟨fun l => sgn (if l = 0 then p else p'), fun l => sgn (if l = 0 then q else q'),
      fun l => sgn (if l = 0 then r else r'), fun _ => ps _, fun _ => ps _, fun _ => ps _,
      pm_true ((key (fun l => if l = 0 then p else p') (fun l => if l = 0 then q else q') (fun l => if l = 0 then r else r')).mpr
        (outer_single ho ⟨0, hL⟩ fun l => ?_))⟩
    by_cases hl : (l : Nat) = 0
    · simp [hl, h1, Fin.ext_iff]
    · simp [hl, h0, Fin.ext_iff]
  have none : ∀ p q r : Bool, (m.outer = .OR ∨ m.outer = .XOR) → LOp.eval3 m.inner p q r = false →
      ∃ z u w : Nat → Int, (∀ l, IsPM (z l)) ∧ (∀ l, IsPM (u l)) ∧ (∀ l, IsPM (w l)) ∧ pred3 m L z u w = -1 := by
    intro p q r ho h0
    exact ⟨fun _ => sgn p, fun _ => sgn q, fun _ => sgn r, fun _ => ps _, fun _ => ps _, fun _ => ps _,
      pm_false fun h => outer_none ho (fun l => by simp [h0]) ((key (fun _ => p) (fun _ => q) fun _ => r).mp h)⟩
  rcases hv with rfl | rfl
  · cases m
    case NAND_XOR =>
      exact ⟨fun _ => sgn true, fun _ => sgn true, fun _ => sgn true, fun _ => ps _, fun _ => ps _, fun _ => ps _,
        pm_true ((key (fun _ => true) (fun _ => true) fun _ => true).mpr fun h => absurd (h ⟨0, hL⟩)
          (show ¬ LOp.eval3 .XOR true true true = true by decide))⟩
    case OR_AND => exact first true true true false false false (.inl rfl) (by decide) (by decide)
    case OR_NAND => exact first false false false true true true (.inl rfl) (by decide) (by decide)
    case OR_XOR => exact first true false false true true true (.inl rfl) (by decide) (by decide)
    case XOR_AND => exact first true true true false false false (.inr rfl) (by decide) (by decide)
    case XOR_XOR => exact first true false false true true true (.inr rfl) (by decide) (by decide)
    case XOR_NXOR => exact first true true true true false false (.inr rfl) (by decide) (by decide)
    case XOR_NAND => exact first false false false true true true (.inr rfl) (by decide) (by decide)
  · cases m
    case NAND_XOR =>
      exact ⟨fun _ => sgn true, fun _ => sgn false, fun _ => sgn false, fun _ => ps _, fun _ => ps _, fun _ => ps _,
        pm_false fun h => ((key (fun _ => true) (fun _ => false) fun _ => false).mp h) fun _ =>
          (show LOp.eval3 .XOR true false false = true by decide)⟩
    case OR_AND => exact none false false false (.inl rfl) (by decide)
    case OR_NAND => exact none true true true (.inl rfl) (by decide)
    case OR_XOR => exact none true true true (.inl rfl) (by decide)
    case XOR_AND => exact none false false false (.inr rfl) (by decide)
    case XOR_XOR => exact none true true true (.inr rfl) (by decide)
    case XOR_NXOR => exact none true false false (.inr rfl) (by decide)
    case XOR_NAND => exact none true true true (.inr rfl) (by decide)

theorem pred3_isPM (m : Lom8) (L : Nat) (z u w : Nat → Int) : IsPM (pred3 m L z u w) := by
  unfold pred3 pm; split
  · exact .inl rfl
  · exact .inr rfl

/-- **C127 (all ones, three dimensions).** -/
theorem C127_flat_3d (m : Lom8) {N D M L : Nat} (hL : 0 < L) {lbda : ℝ} (hl : 0 ≤ lbda) :
    ∃ z u w : Nat → Int, (∀ l, IsPM (z l)) ∧ (∀ l, IsPM (u l)) ∧ (∀ l, IsPM (w l)) ∧ pred3 m L z u w = 1 ∧
      ∀ X : Nat → Nat → Nat → Int, ZeroOne3 N D M X → ∀ F G H : Factor,
        lik3 m N D M L lbda X F G H ≤ lik3 m N D M L lbda X (fun _ => z) (fun _ => u) (fun _ => w) := by
  obtain ⟨z, u, w, hz, hu, hw, hp⟩ := rows_giving3 m hL (.inl rfl)
  refine ⟨z, u, w, hz, hu, hw, hp, fun X hX F G H => ?_⟩
  have h0 : ∀ x p, 0 ≤ cellLik lbda x p := fun x p => by
    unfold cellLik; split
    · exact zero_le_one
    · exact (sigmoid_pos _).le
  refine Finset.prod_le_prod (fun n _ => Finset.prod_nonneg fun d _ => Finset.prod_nonneg fun k _ => h0 _ _) fun n _ =>
    Finset.prod_le_prod (fun d _ => Finset.prod_nonneg fun k _ => h0 _ _) fun d _ =>
    Finset.prod_le_prod (fun k _ => h0 _ _) fun k _ => ?_
  rw [hp]
  rcases hX n n.2 d d.2 k k.2 with h | h
  · simp [cellLik, h]
  · simp only [cellLik, h, one_ne_zero, if_false]
    refine sigmoid_strictMono.monotone ?_
    rcases pred3_isPM m L (F n) (G d) (H k) with e | e <;> rw [e] <;> push_cast <;> linarith

/-- **C127 (the array in the machine, three dimensions).** -/
theorem C127_wrong_3d (m : Lom8) {N D M L : Nat} (hL : 0 < L) {lbda : ℝ} (hl : lbda ≠ 0) (X : Arr Int)
    (hX : X.shape = [N, D, M]) (h01 : ZeroOne3 N D M fun n d k => X [n, d, k])
    (h0 : ∃ n < N, ∃ d < D, ∃ k < M, X [n, d, k] = 0) (shape : List Nat) (rand : Rnd) :
    ∃ A, addMatrixInit shape (.array X) rand = .ok A ∧ A.shape = [N, D, M] ∧
      ¬ ∃ c : ℝ, ∀ F G H : Factor, (∀ i l, IsPM (F i l)) → (∀ i l, IsPM (G i l)) → (∀ i l, IsPM (H i l)) →
        lik3 m N D M L lbda (fun n d k => A [n, d, k]) F G H =
          c * lik3 m N D M L lbda (asSigns3 fun n d k => X [n, d, k]) F G H := by
  refine ⟨X, (C109_given shape X rand).1, hX, ?_⟩
  rintro ⟨c, hc⟩
  obtain ⟨n, hn, d, hd, k, hk, h0⟩ := h0
  obtain ⟨z, u, w, hz, hu, hw, hp⟩ := rows_giving3 m hL (v := 1) (.inl rfl)
  obtain ⟨z', u', w', hz', hu', hw', hp'⟩ := rows_giving3 m hL (v := -1) (.inr rfl)
  have h1 := hc (fun _ => z) (fun _ => u) (fun _ => w) (fun _ => hz) (fun _ => hu) fun _ => hw
  have h2 := hc (fun _ => z') (fun _ => u') (fun _ => w') (fun _ => hz') (fun _ => hu') fun _ => hw'
  have flat : ∀ (Y : Nat → Nat → Nat → Int) (a b e : Nat → Int), lik3 m N D M L lbda Y (fun _ => a) (fun _ => b) (fun _ => e) =
      ∏ i : Fin N × Fin D × Fin M, cellLik lbda (Y i.1 i.2.1 i.2.2) (pred3 m L a b e) := by
    intro Y a b e
    unfold lik3
    rw [Fintype.prod_prod_type]
    refine Finset.prod_congr rfl fun n _ => ?_
    rw [Fintype.prod_prod_type]
  simp only [flat, hp, hp'] at h1 h2
  set Y : Nat → Nat → Nat → Int := fun n d k => X [n, d, k]
  have hne : (∏ i : Fin N × Fin D × Fin M, cellLik lbda (Y i.1 i.2.1 i.2.2) 1) *
      (∏ i : Fin N × Fin D × Fin M, cellLik lbda (asSigns3 Y i.1 i.2.1 i.2.2) (-1)) =
      (∏ i : Fin N × Fin D × Fin M, cellLik lbda (Y i.1 i.2.1 i.2.2) (-1)) *
      (∏ i : Fin N × Fin D × Fin M, cellLik lbda (asSigns3 Y i.1 i.2.1 i.2.2) 1) := by
    rw [h1, h2]; ring
  rw [← Finset.prod_mul_distrib, ← Finset.prod_mul_distrib] at hne
  have e1 : ∀ i : Fin N × Fin D × Fin M, cellLik lbda (Y i.1 i.2.1 i.2.2) 1 * cellLik lbda (asSigns3 Y i.1 i.2.1 i.2.2) (-1) =
      (if Y i.1 i.2.1 i.2.2 = 0 then sigmoid lbda else sigmoid lbda * sigmoid (-lbda)) := fun i => by
    rcases h01 i.1 i.1.2 i.2.1 i.2.1.2 i.2.2 i.2.2.2 with h | h <;> simp [cellLik, asSigns3, h]
  have e2 : ∀ i : Fin N × Fin D × Fin M, cellLik lbda (Y i.1 i.2.1 i.2.2) (-1) * cellLik lbda (asSigns3 Y i.1 i.2.1 i.2.2) 1 =
      (if Y i.1 i.2.1 i.2.2 = 0 then sigmoid (-lbda) else sigmoid lbda * sigmoid (-lbda)) := fun i => by
    rcases h01 i.1 i.1.2 i.2.1 i.2.1.2 i.2.2 i.2.2.2 with h | h
    · simp [cellLik, asSigns3, h]
    · simp [cellLik, asSigns3, h, mul_comm]
  simp only [e1, e2] at hne
  have hmem : ((⟨n, hn⟩, ⟨d, hd⟩, ⟨k, hk⟩) : Fin N × Fin D × Fin M) ∈ (Finset.univ : Finset (Fin N × Fin D × Fin M)) :=
    Finset.mem_univ _
  have pos : ∀ x : ℝ, ∀ i ∈ (Finset.univ : Finset (Fin N × Fin D × Fin M)),
      0 < (if Y i.1 i.2.1 i.2.2 = 0 then sigmoid x else sigmoid lbda * sigmoid (-lbda)) := fun x i _ => by
    split
    · exact sigmoid_pos _
    · exact mul_pos (sigmoid_pos _) (sigmoid_pos _)
  have h0' : Y n d k = 0 := h0
  rcases lt_or_gt_of_ne hl with h | h
  · refine ne_of_lt (Finset.prod_lt_prod (pos _) (fun i _ => ?_) ⟨_, hmem, ?_⟩) hne
    · split
      · exact (sigmoid_strictMono (by linarith)).le
      · exact le_rfl
    · simp only [h0', if_true]
      exact sigmoid_strictMono (by linarith)
  · refine ne_of_gt (Finset.prod_lt_prod (pos _) (fun i _ => ?_) ⟨_, hmem, ?_⟩) hne
    · split
      · exact (sigmoid_strictMono (by linarith)).le
      · exact le_rfl
    · simp only [h0', if_true]
      exact sigmoid_strictMono (by linarith)

/-- **C127** (`_partial`, three dimensions): recoded 0/1 data is the data meant -/
theorem C127_recoded_3d_partial (m : Lom8) {N D M L : Nat} (lbda : ℝ) (X : Arr Int) (hX : X.shape = [N, D, M])
    (h01 : ZeroOne3 N D M fun n d k => X [n, d, k]) (F G H : Factor) :
    lik3 m N D M L lbda (fun n d k => check_binary_coding X [n, d, k]) F G H =
      lik3 m N D M L lbda (asSigns3 fun n d k => X [n, d, k]) F G H := by
  have hne : ¬ ∃ i, InB X.shape i ∧ X i = -1 := by
    rintro ⟨i, hi, h⟩
    rw [hX] at hi
    match i, hi with
    | [n, d, k], hi =>
      rcases h01 n hi.1 d hi.2.1 k hi.2.2.1 with e | e <;> simp only [e] at h <;> exact absurd h (by decide)
  have hd : DataArr X := fun i hi => by
    rw [hX] at hi
    match i, hi with
    | [n, d, k], hi =>
      rcases h01 n hi.1 d hi.2.1 k hi.2.2.1 with e | e
      · exact .inr (.inr e)
      · exact .inl e
  unfold lik3
  refine Finset.prod_congr rfl fun n _ => Finset.prod_congr rfl fun d _ => Finset.prod_congr rfl fun k _ => ?_
  congr 1
  have := (C60_recodes X hd).2.2 hne [n, d, k] (by rw [hX]; exact ⟨n.2, d.2, k.2, trivial⟩)
  dsimp only
  rcases h01 n n.2 d d.2 k k.2 with e | e
  · rw [this.2 e]; simp [asSigns3, e]
  · rw [this.1 e]; simp [asSigns3, e]

/-- a 2×2 array of zeros and ones with a zero meets the hypotheses; there is something to be lost: the scores of the
array as given and of the array meant have opposite signs -/
theorem C127_hypotheses_met : ZeroOne 2 2 (fun n d => (Arr.mat 2 [[1, 0], [0, 0]] 1 : Arr Int) [n, d]) ∧
    posterior_score_OR_AND_2D (Arr.full [1] 1) (Arr.full [3, 1] 1) ⟨[3], fun i => if i = [0] then 1 else 0⟩ 0 = 1 ∧
    posterior_score_OR_AND_2D (Arr.full [1] 1) (Arr.full [3, 1] 1) ⟨[3], fun i => if i = [0] then 1 else -1⟩ 0 = -1 := by
  refine ⟨fun n hn d hd => ?_, by decide, by decide⟩
  have : ∀ n < 2, ∀ d < 2, (Arr.mat 2 [[1, 0], [0, 0]] 1 : Arr Int) [n, d] = 0 ∨
    (Arr.mat 2 [[1, 0], [0, 0]] 1 : Arr Int) [n, d] = 1 := by decide
  exact this n hn d hd

end LFM
