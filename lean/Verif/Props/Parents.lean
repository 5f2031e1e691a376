import Verif.Props.Axes
import Verif.Props.Outputs

/-!
# C23, C24: parent layers
-/

namespace LFM

open Spec

/-- legal factors of a parent layer whose output has shape `n × L` -/
structure IsParent2 (n L K : Nat) (pa1 pa2 : Arr Int) : Prop where
  shape1 : pa1.shape = [n, K]
  shape2 : pa2.shape = [L, K]
  pm1 : PMArr pa1
  pm2 : PMArr pa2

/-- the cell that a parent layer with model `p` and factors `pa1`, `pa2` predicts for entry `i` -/
noncomputable def parentPred (p : Lom8) (K : Nat) (pa1 pa2 : Arr Int) (i : List Nat) : Int :=
  pred2 p K (fun k => pa1 [i0 i, k]) (fun k => pa2 [i1 i, k])

theorem sweep_congr {logit logit' : Arr Int → List Nat → ℝ} {Zf : Arr Int} {rnd : Rnd}
    {ts : List (List Nat)} (h : ∀ Z, ∀ i ∈ ts, logit Z i = logit' Z i) (Z : Arr Int) :
    sweep logit Zf rnd ts Z = sweep logit' Zf rnd ts Z := by
  unfold sweep
  induction ts generalizing Z with
  | nil => rfl
  | cons t ts ih =>
    rw [List.foldl_cons, List.foldl_cons, updEntry, updEntry, h Z t (List.mem_cons_self ..)]
    exact ih (fun Z i hi => h Z i (List.mem_cons_of_mem _ hi)) _

theorem parent_fct (p : Lom8) : ∃ g, get_parent_score_fct (code p "-2D") = .ok (.two g) ∧
    ∀ {n L K : Nat} {pa1 pa2 : Arr Int}, IsParent2 n L K pa1 pa2 → ∀ i ∈ tasks2 n L,
      g (pa1.row (i0 i)) (pa2.row (i1 i)) = parentPred p K pa1 pa2 i := by
  obtain ⟨g, hg, h⟩ := C01_two_factor_outputs p
  refine ⟨g, ?_, ?_⟩
  · have : ∀ g', get_scalar_output_function_2d p.name = some g' →
        get_parent_score_fct (code p "-2D") = .ok (.two g') := by
      cases p <;> (intro g' hg'; obtain rfl := Option.some.inj hg'; rfl)
    exact this g hg
  · intro n L K pa1 pa2 hp i hi
    obtain ⟨a, ha, b, hb, rfl⟩ := mem_tasks2.1 hi
    obtain ⟨h1, h2⟩ := hp.pm1.row hp.shape1 ha
    obtain ⟨h3, h4⟩ := hp.pm2.row hp.shape2 hb
    exact h K _ _ h1 h3 h2 h4

theorem relatives2_1 (m p : Lom8) : get_relatives_models (some m.name) 2 [(p.name, 2)] =
    .ok (some (code m "-2D"), some (code p "-2D"), none) := by
  cases m <;> rfl

theorem relatives2_2 (m p p' : Lom8) :
    get_relatives_models (some m.name) 2 [(p.name, 2), (p'.name, 2)] =
      .ok (some (code m "-2D"), some (code p "-2D"), some (code p' "-2D")) := by
  cases m <;> rfl

theorem make_onechild_oneparent2 (m : Lom8) (p : String) {f g}
    (hf : get_posterior_score_fct (code m "-2D") = .ok (.two f))
    (hg : get_parent_score_fct p = .ok (.two g)) :
    make_sampling_fct_onechild_oneparent (code m "-2D") p =
      .ok (sampling_onechild_oneparent_2D f g) := by
  have : pyLastTwo (code m "-2D") = "2D" := by cases m <;> decide
  simp only [make_sampling_fct_onechild_oneparent, hf, hg, this]
  rfl

theorem make_onechild_twoparents2 (m p p' : Lom8) {f g g'}
    (hf : get_posterior_score_fct (code m "-2D") = .ok (.two f))
    (hg : get_parent_score_fct (code p "-2D") = .ok (.two g))
    (hg' : get_parent_score_fct (code p' "-2D") = .ok (.two g')) :
    make_sampling_fct_onechild_twoparents (code m "-2D") (code p "-2D") (code p' "-2D") =
      .ok (sampling_onechild_twoparents_2D f g') := by
  have : pyLastTwo (code m "-2D") = "2D" := by cases m <;> decide
  simp only [make_sampling_fct_onechild_twoparents, hf, hg, hg', this]
  rfl

theorem lastTwo2 (p : Lom8) : pyLastTwo (code p "-2D") = "2D" := by cases p <;> decide

/-- **C23**, one child and one parent layer (`_partial`: int16 bound, see `C14_int16_overflow`). For a
factor of a two-factor layer that is also the child of a layer with model `p`, the sampling function
sweeps with logit `lambda * score + lambda_parent * (parent's prediction of the entry) + logit(prior)`. -/
theorem C23_onechild_oneparent_partial (m p : Lom8) {N D L : Nat} (hN : N ≤ 32767) (hD : D ≤ 32767) :
    ∃ SA SB : Member → Arr Int → Arr Int → Nat → Nat → Int, ∃ s : Nat → ℝ → Sampler,
      ∀ (A B : Member) (X : Arr Int) (lbda : ℝ), IsLayer2 N D L A B X →
      IsHalfChange N L (fun F => agreement2 m N D L (fun n d => X [n, d]) F (facOf B.val)) (SA B X) ∧
      IsHalfChange D L (fun G => agreement2 m N D L (fun n d => X [n, d]) (facOf A.val) G) (SB A X) ∧
      get_sampling_fct none (some m.name) [A, B] A.child_axis 0 A.bernoulli_prior [(p.name, 2)] =
        .ok (s 0 A.bernoulli_prior) ∧
      get_sampling_fct none (some m.name) [A, B] B.child_axis 1 B.bernoulli_prior [(p.name, 2)] =
        .ok (s 1 B.bernoulli_prior) ∧
      (∀ K pa1 pa2 lpa rnd, IsParent2 N L K pa1 pa2 →
        (s 0 A.bernoulli_prior).run A [A, B] 0 X lbda [⟨p.name, [pa1, pa2], lpa⟩] rnd =
          .ok (sweep (fun Z i => lbda * SA B X Z (i0 i) (i1 i) + lpa * parentPred p K pa1 pa2 i +
            logit A.bernoulli_prior) A.fixed_entries rnd (tasks2 N L) A.val)) ∧
      (∀ K pa1 pa2 lpa rnd, IsParent2 D L K pa1 pa2 →
        (s 1 B.bernoulli_prior).run B [A, B] 1 X lbda [⟨p.name, [pa1, pa2], lpa⟩] rnd =
          .ok (sweep (fun Z i => lbda * SB A X Z (i0 i) (i1 i) + lpa * parentPred p K pa1 pa2 i +
            logit B.bernoulli_prior) B.fixed_entries rnd (tasks2 D L) B.val)) := by
  obtain ⟨f, hf, -⟩ := C14_score_2d_partial m
  obtain ⟨g, hg, hpred⟩ := parent_fct p
  have hmk := make_onechild_oneparent2 m _ hf hg
  refine ⟨fun B X Z i l => f (Z.row i) B.val ((X.transpose [0, 1]).row i) l,
    fun A X Z i l => f (Z.row i) A.val ((X.transpose [1, 0]).row i) l,
    fun k q => .onechild_oneparent (sampling_onechild_oneparent_2D f g) [k, 1 - k] (logit q), ?_⟩
  intro A B X lbda h
  refine ⟨?_, ?_, ?_, ?_, ?_, ?_⟩
  · intro Z hZ pZ i l hi hl
    obtain ⟨t1, t2, t3⟩ := transpose01 h.shapeX h.data
    rw [score2_agreement hf hi hl hZ h.shapeB t1 pZ h.pmB t2 hD]
    simp only [t3]
  · intro Z hZ pZ i l hi hl
    obtain ⟨t1, t2, t3⟩ := transpose10 h.shapeX h.data
    rw [score2_agreement hf hi hl hZ h.shapeA t1 pZ h.pmA t2 hN]
    simp only [t3]
    rw [agreement2_swap m N D L (fun n d => X [n, d]), agreement2_swap m N D L (fun n d => X [n, d])]
  · rw [dispatch_onechild_oneparent (factors := [A, B]) (relatives2_1 m p) (generic_code2 m), hmk]
    simp [Except.map, axisOrder, siblings2_0, h.axisA, h.axisB]
  · rw [dispatch_onechild_oneparent (factors := [A, B]) (relatives2_1 m p) (generic_code2 m), hmk]
    simp [Except.map, axisOrder, siblings2_1, h.axisA, h.axisB]
  · intro K pa1 pa2 lpa rnd hp
    simp only [Sampler.run, siblings2_0, List.map]
    rw [sampling_onechild_oneparent_2D_eq]
    have hd : A.val.dim 0 = N ∧ A.val.dim 1 = L := by simp [Arr.dim, h.shapeA]
    rw [hd.1, hd.2]
    congr 1
    exact sweep_congr (fun Z i hi => by simp only [hpred hp i hi]) _
  · intro K pa1 pa2 lpa rnd hp
    simp only [Sampler.run, siblings2_1, List.map]
    rw [sampling_onechild_oneparent_2D_eq]
    have hd : B.val.dim 0 = D ∧ B.val.dim 1 = L := by simp [Arr.dim, h.shapeB]
    rw [hd.1, hd.2]
    congr 1
    exact sweep_congr (fun Z i hi => by simp only [hpred hp i hi]) _

/-- **C23**, a data matrix with one parent layer: logit
`lambda_parent * (parent's prediction of the entry) + logit(prior)`. -/
theorem C23_nochild_oneparent (p : Lom8) (mat : Member) {N D : Nat} (hZ : mat.val.shape = [N, D]) :
    ∃ s, get_sampling_fct none none [] mat.child_axis 0 mat.bernoulli_prior [(p.name, 2)] = .ok s ∧
      ∀ K pa1 pa2 lpa rnd child lbda, IsParent2 N D K pa1 pa2 →
        s.run mat [] 0 child lbda [⟨p.name, [pa1, pa2], lpa⟩] rnd =
          .ok (sweep (fun _ i => lpa * parentPred p K pa1 pa2 i + logit mat.bernoulli_prior)
            mat.fixed_entries rnd (tasks2 N D) mat.val) := by
  obtain ⟨g, hg, hpred⟩ := parent_fct p
  have hmk : make_sampling_fct_nochild_oneparent (code p "-2D") =
      .ok (sampling_nochild_oneparent_2D g) := by
    simp only [make_sampling_fct_nochild_oneparent, hg, lastTwo2 p]; rfl
  refine ⟨.nochild_oneparent (sampling_nochild_oneparent_2D g) (logit mat.bernoulli_prior), ?_, ?_⟩
  · have hr : get_relatives_models none ([] : List Member).length [(p.name, 2)] =
        .ok (none, some (code p "-2D"), none) := rfl
    rw [dispatch_nochild_oneparent hr, hmk]; rfl
  · intro K pa1 pa2 lpa rnd child lbda hp
    simp only [Sampler.run]
    rw [sampling_nochild_oneparent_2D_eq]
    have hd : mat.val.dim 0 = N ∧ mat.val.dim 1 = D := by simp [Arr.dim, hZ]
    rw [hd.1, hd.2]
    congr 1
    exact sweep_congr (fun Z i hi => by simp only [hpred hp i hi]) _

/-- What the code does for a data matrix with two parent layers: the prediction of *both* parents is
computed with the model of the second one. -/
theorem C23_nochild_twoparents_actual (p p' : Lom8) (mat : Member) {N D : Nat}
    (hZ : mat.val.shape = [N, D]) :
    ∃ s, get_sampling_fct none none [] mat.child_axis 0 mat.bernoulli_prior
        [(p.name, 2), (p'.name, 2)] = .ok s ∧
      ∀ K K' pa1 pa2 pb1 pb2 lpa lpb rnd child lbda, IsParent2 N D K pa1 pa2 →
        IsParent2 N D K' pb1 pb2 →
        s.run mat [] 0 child lbda [⟨p.name, [pa1, pa2], lpa⟩, ⟨p'.name, [pb1, pb2], lpb⟩] rnd =
          .ok (sweep (fun _ i => lpa * parentPred p' K pa1 pa2 i + lpb * parentPred p' K' pb1 pb2 i +
            logit mat.bernoulli_prior) mat.fixed_entries rnd (tasks2 N D) mat.val) := by
  obtain ⟨g, hg, -⟩ := parent_fct p
  obtain ⟨g', hg', hpred⟩ := parent_fct p'
  have hmk : make_sampling_fct_nochild_twoparents (code p "-2D") (code p' "-2D") =
      .ok (.two (sampling_nochild_twoparents_2D g')) := by
    simp only [make_sampling_fct_nochild_twoparents, hg, hg', lastTwo2 p, lastTwo2 p']; rfl
  refine ⟨.nochild_twoparents (.two (sampling_nochild_twoparents_2D g')) (logit mat.bernoulli_prior),
    ?_, ?_⟩
  · have hr : get_relatives_models none ([] : List Member).length [(p.name, 2), (p'.name, 2)] =
        .ok (none, some (code p "-2D"), some (code p' "-2D")) := rfl
    rw [dispatch_nochild_twoparents hr, hmk]; rfl
  · intro K K' pa1 pa2 pb1 pb2 lpa lpb rnd child lbda hp hp'
    simp only [Sampler.run]
    rw [sampling_nochild_twoparents_2D_eq]
    have hd : mat.val.dim 0 = N ∧ mat.val.dim 1 = D := by simp [Arr.dim, hZ]
    rw [hd.1, hd.2]
    congr 1
    exact sweep_congr (fun Z i hi => by simp only [hpred hp i hi, hpred hp' i hi]) _

/-- **C23**, two parent layers of a data matrix (`_partial`: only if both parents have the same model,
see `C23_two_parents_wrong`). -/
theorem C23_nochild_twoparents_partial (p : Lom8) (mat : Member) {N D : Nat}
    (hZ : mat.val.shape = [N, D]) :
    ∃ s, get_sampling_fct none none [] mat.child_axis 0 mat.bernoulli_prior
        [(p.name, 2), (p.name, 2)] = .ok s ∧
      ∀ K K' pa1 pa2 pb1 pb2 lpa lpb rnd child lbda, IsParent2 N D K pa1 pa2 →
        IsParent2 N D K' pb1 pb2 →
        s.run mat [] 0 child lbda [⟨p.name, [pa1, pa2], lpa⟩, ⟨p.name, [pb1, pb2], lpb⟩] rnd =
          .ok (sweep (fun _ i => lpa * parentPred p K pa1 pa2 i + lpb * parentPred p K' pb1 pb2 i +
            logit mat.bernoulli_prior) mat.fixed_entries rnd (tasks2 N D) mat.val) :=
  C23_nochild_twoparents_actual p p mat hZ

/-- a 1 × 1 matrix with a one -/
private def one11 : Arr Int := ⟨[1, 1], fun _ => 1⟩

/-- non-vacuity of C23: legal parent factors -/
private theorem one11_parent : IsParent2 1 1 1 one11 one11 :=
  ⟨rfl, rfl, fun _ _ => Or.inl rfl, fun _ _ => Or.inl rfl⟩

private theorem pred_or_nand : ∀ i, parentPred .OR_NAND 1 one11 one11 i = -1 := by
  intro i
  unfold parentPred pred2 lom pm
  rw [if_neg]
  rintro ⟨l, hl⟩
  refine hl fun k => ?_
  match k with
  | 0 => rfl
  | 1 => rfl

private theorem pred_or_and : ∀ i, parentPred .OR_AND 1 one11 one11 i = 1 := by
  intro i
  unfold parentPred pred2 lom pm
  rw [if_pos]
  refine ⟨0, fun k => ?_⟩
  match k with
  | 0 => rfl
  | 1 => rfl

private theorem sweep11 (logit : Arr Int → List Nat → ℝ) (Zf : Arr Int) (rnd : Rnd) (Z : Arr Int)
    (h : Zf [0, 0] ≠ 1) : sweep logit Zf rnd (tasks2 1 1) Z [0, 0] =
      flip_metropolised_gibbs_numba (logit Z [0, 0]) (Z [0, 0]) (rnd [0, 0]) := by
  have : tasks2 1 1 = [[0, 0]] := rfl
  rw [this, sweep, List.foldl_cons, List.foldl_nil, updEntry, if_neg h]
  simp [Arr.set]

/-- The full claim of **C23** is false for two parents with different models: a data entry 1 whose first
parent (OR-AND, lambda 10) predicts 1 and whose second parent (OR-NAND, lambda 0) is uninformative is
flipped to -1 with certainty, whereas the logit that C23 asks for keeps it for the same draw. -/
theorem C23_two_parents_wrong :
    ∃ s R, get_sampling_fct none none [] 0 0 (1 / 2)
        [(Lom8.OR_AND.name, 2), (Lom8.OR_NAND.name, 2)] = .ok s ∧
      s.run ⟨one11, ⟨[1, 1], fun _ => 0⟩, 0, 1 / 2⟩ [] 0 one11 0
        [⟨Lom8.OR_AND.name, [one11, one11], 10⟩, ⟨Lom8.OR_NAND.name, [one11, one11], 0⟩]
        (fun _ => 1 / 2) = .ok R ∧
      R [0, 0] = -1 ∧
      sweep (fun _ i => (10 : ℝ) * parentPred .OR_AND 1 one11 one11 i +
          0 * parentPred .OR_NAND 1 one11 one11 i + logit (1 / 2)) ⟨[1, 1], fun _ => 0⟩ (fun _ => 1 / 2)
          (tasks2 1 1) one11 [0, 0] = 1 := by
  obtain ⟨s, hs, h⟩ := C23_nochild_twoparents_actual .OR_AND .OR_NAND
    ⟨one11, ⟨[1, 1], fun _ => 0⟩, 0, 1 / 2⟩ (N := 1) (D := 1) rfl
  have hl : logit (1 / 2) = 0 := by norm_num [logit]
  refine ⟨s, _, hs, h 1 1 one11 one11 one11 one11 10 0 (fun _ => 1 / 2) one11 0 one11_parent
    one11_parent, ?_, ?_⟩
  · rw [sweep11 _ _ _ _ (by simp)]
    simp only [pred_or_nand, hl]
    norm_num [flip_metropolised_gibbs_numba, one11]
  · rw [sweep11 _ _ _ _ (by simp)]
    simp only [pred_or_nand, pred_or_and, hl]
    have : ¬ (1 / 2 < Real.exp (-10)) := by
      have := Real.add_one_le_exp (10 : ℝ)
      rw [Real.exp_neg, not_lt, inv_le_comm₀ (Real.exp_pos _) (by norm_num)]
      norm_num; linarith
    norm_num [flip_metropolised_gibbs_numba, one11]
    linarith

/-- What the code does for a factor with a child and two parent layers (two factors; int16 bound). -/
theorem C23_onechild_twoparents_actual (m p p' : Lom8) {N D L : Nat} (hN : N ≤ 32767)
    (hD : D ≤ 32767) :
    ∃ SA SB : Member → Arr Int → Arr Int → Nat → Nat → Int, ∃ s : Nat → ℝ → Sampler,
      ∀ (A B : Member) (X : Arr Int) (lbda : ℝ), IsLayer2 N D L A B X →
      IsHalfChange N L (fun F => agreement2 m N D L (fun n d => X [n, d]) F (facOf B.val)) (SA B X) ∧
      IsHalfChange D L (fun G => agreement2 m N D L (fun n d => X [n, d]) (facOf A.val) G) (SB A X) ∧
      get_sampling_fct none (some m.name) [A, B] A.child_axis 0 A.bernoulli_prior
        [(p.name, 2), (p'.name, 2)] = .ok (s 0 A.bernoulli_prior) ∧
      get_sampling_fct none (some m.name) [A, B] B.child_axis 1 B.bernoulli_prior
        [(p.name, 2), (p'.name, 2)] = .ok (s 1 B.bernoulli_prior) ∧
      (∀ K K' pa1 pa2 pb1 pb2 lpa lpb rnd, IsParent2 N L K pa1 pa2 → IsParent2 N L K' pb1 pb2 →
        (s 0 A.bernoulli_prior).run A [A, B] 0 X lbda
            [⟨p.name, [pa1, pa2], lpa⟩, ⟨p'.name, [pb1, pb2], lpb⟩] rnd =
          .ok (sweep (fun Z i => lbda * SA B X Z (i0 i) (i1 i) + lpa * parentPred p' K pa1 pa2 i +
            lpb * parentPred p' K' pb1 pb2 i + logit A.bernoulli_prior) A.fixed_entries rnd
            (tasks2 N L) A.val)) ∧
      (∀ K K' pa1 pa2 pb1 pb2 lpa lpb rnd, IsParent2 D L K pa1 pa2 → IsParent2 D L K' pb1 pb2 →
        (s 1 B.bernoulli_prior).run B [A, B] 1 X lbda
            [⟨p.name, [pa1, pa2], lpa⟩, ⟨p'.name, [pb1, pb2], lpb⟩] rnd =
          .ok (sweep (fun Z i => lbda * SB A X Z (i0 i) (i1 i) + lpa * parentPred p' K pa1 pa2 i +
            lpb * parentPred p' K' pb1 pb2 i + logit B.bernoulli_prior) B.fixed_entries rnd
            (tasks2 D L) B.val)) := by
  obtain ⟨f, hf, -⟩ := C14_score_2d_partial m
  obtain ⟨g, hg, -⟩ := parent_fct p
  obtain ⟨g', hg', hpred⟩ := parent_fct p'
  have hmk := make_onechild_twoparents2 m p p' hf hg hg'
  refine ⟨fun B X Z i l => f (Z.row i) B.val ((X.transpose [0, 1]).row i) l,
    fun A X Z i l => f (Z.row i) A.val ((X.transpose [1, 0]).row i) l,
    fun k q => .onechild_twoparents (sampling_onechild_twoparents_2D f g') [k, 1 - k] (logit q), ?_⟩
  intro A B X lbda h
  refine ⟨?_, ?_, ?_, ?_, ?_, ?_⟩
  · intro Z hZ pZ i l hi hl
    obtain ⟨t1, t2, t3⟩ := transpose01 h.shapeX h.data
    rw [score2_agreement hf hi hl hZ h.shapeB t1 pZ h.pmB t2 hD]
    simp only [t3]
  · intro Z hZ pZ i l hi hl
    obtain ⟨t1, t2, t3⟩ := transpose10 h.shapeX h.data
    rw [score2_agreement hf hi hl hZ h.shapeA t1 pZ h.pmA t2 hN]
    simp only [t3]
    rw [agreement2_swap m N D L (fun n d => X [n, d]), agreement2_swap m N D L (fun n d => X [n, d])]
  · rw [dispatch_onechild_twoparents (factors := [A, B]) (relatives2_2 m p p') (generic_code2 m), hmk]
    simp [Except.map, axisOrder, siblings2_0, h.axisA, h.axisB]
  · rw [dispatch_onechild_twoparents (factors := [A, B]) (relatives2_2 m p p') (generic_code2 m), hmk]
    simp [Except.map, axisOrder, siblings2_1, h.axisA, h.axisB]
  · intro K K' pa1 pa2 pb1 pb2 lpa lpb rnd hp hp'
    simp only [Sampler.run, siblings2_0, List.map]
    rw [sampling_onechild_twoparents_2D_eq]
    have hd : A.val.dim 0 = N ∧ A.val.dim 1 = L := by simp [Arr.dim, h.shapeA]
    rw [hd.1, hd.2]
    congr 1
    exact sweep_congr (fun Z i hi => by simp only [hpred hp i hi, hpred hp' i hi]) _
  · intro K K' pa1 pa2 pb1 pb2 lpa lpb rnd hp hp'
    simp only [Sampler.run, siblings2_1, List.map]
    rw [sampling_onechild_twoparents_2D_eq]
    have hd : B.val.dim 0 = D ∧ B.val.dim 1 = L := by simp [Arr.dim, h.shapeB]
    rw [hd.1, hd.2]
    congr 1
    exact sweep_congr (fun Z i hi => by simp only [hpred hp i hi, hpred hp' i hi]) _

/-- a factor of a three-factor layer with a parent layer has no sampling function: building it fails -/
theorem C23_three_factors_fail (m p p' : Lom8) (A B C : Member) (ax k : Nat) (q : ℝ) :
    get_sampling_fct none (some m.name) [A, B, C] ax k q [(p.name, 2)] = .error .typingError ∧
      get_sampling_fct none (some m.name) [A, B, C] ax k q [(p.name, 2), (p'.name, 2)] =
        .error .notImplemented := by
  obtain ⟨f, hf, -⟩ := C15_score_3d m
  obtain ⟨g, hg, -⟩ := parent_fct p
  obtain ⟨g', hg', -⟩ := parent_fct p'
  have h3 : pyLastTwo (code m "-3D") = "3D" := by cases m <;> decide
  have hr1 : get_relatives_models (some m.name) 3 [(p.name, 2)] =
      .ok (some (code m "-3D"), some (code p "-2D"), none) := by cases m <;> rfl
  have hr2 : get_relatives_models (some m.name) 3 [(p.name, 2), (p'.name, 2)] =
      .ok (some (code m "-3D"), some (code p "-2D"), some (code p' "-2D")) := by cases m <;> rfl
  constructor
  · rw [dispatch_onechild_oneparent (factors := [A, B, C]) hr1 (generic_code3 m)]
    have : make_sampling_fct_onechild_oneparent (code m "-3D") (code p "-2D") =
        .error .typingError := by
      have hf' : get_posterior_score_fct (code m "-3D") = .ok (.three f) := hf
      simp only [make_sampling_fct_onechild_oneparent, hf', hg, h3, bind, Except.bind]
      rfl
    rw [this]; rfl
  · rw [dispatch_onechild_twoparents (factors := [A, B, C]) hr2 (generic_code3 m)]
    have : make_sampling_fct_onechild_twoparents (code m "-3D") (code p "-2D") (code p' "-2D") =
        .error .notImplemented := by
      have hf' : get_posterior_score_fct (code m "-3D") = .ok (.three f) := hf
      simp only [make_sampling_fct_onechild_twoparents, hf', hg, hg', h3, bind, Except.bind]
      rfl
    rw [this]; rfl

/-- **C24** is false: with more than two parent layers nothing is rejected, the sampling function is
exactly the one for the first two parents; the others are silently ignored. -/
theorem C24_extra_parents_ignored (model : Option String) (factors : List Member) (ax k : Nat) (q : ℝ)
    (pa pb : String × Nat) (rest : List (String × Nat)) :
    get_sampling_fct none model factors ax k q (pa :: pb :: rest) =
      get_sampling_fct none model factors ax k q [pa, pb] := by
  have : get_relatives_models model factors.length (pa :: pb :: rest) =
      get_relatives_models model factors.length [pa, pb] := by
    unfold get_relatives_models
    simp
  unfold get_sampling_fct
  rw [this]

/-- hence a data matrix with three (or more) legal parent layers is accepted -/
theorem C24_not_rejected (p p' : Lom8) (rest : List (String × Nat)) (mat : Member) :
    ∃ s, get_sampling_fct none none [] mat.child_axis 0 mat.bernoulli_prior
      ((p.name, 2) :: (p'.name, 2) :: rest) = .ok s := by
  rw [C24_extra_parents_ignored]
  obtain ⟨s, hs, -⟩ := C23_nochild_twoparents_actual p p' ⟨⟨[0, 0], fun _ => 1⟩, mat.fixed_entries,
    mat.child_axis, mat.bernoulli_prior⟩ (N := 0) (D := 0) rfl
  exact ⟨s, hs⟩

/-- **C24**, what does hold: parent layers (among the first two) with other than two factors, and
matrices without any family, are rejected. -/
theorem C24_rejects_partial (model : Option String) (factors : List Member) (ax k : Nat) (q : ℝ) :
    (∀ (pa : String × Nat) (rest : List (String × Nat)), pa.2 ≠ 2 →
      get_sampling_fct none model factors ax k q (pa :: rest) = .error .assertionError) ∧
    (∀ (pa pb : String × Nat) (rest : List (String × Nat)), pa.2 = 2 → pb.2 ≠ 2 →
      get_sampling_fct none model factors ax k q (pa :: pb :: rest) = .error .assertionError) ∧
    get_sampling_fct none none factors ax k q [] = .error .notImplemented := by
  refine ⟨fun pa rest h => ?_, fun pa pb rest h h' => ?_, ?_⟩
  · have : get_relatives_models model factors.length (pa :: rest) = .error .assertionError := by
      unfold get_relatives_models
      simp [h, throw, throwThe, MonadExceptOf.throw, bind, Except.bind]
    simp [get_sampling_fct, this, bind, Except.bind]
  · have : get_relatives_models model factors.length (pa :: pb :: rest) = .error .assertionError := by
      unfold get_relatives_models
      simp [h, h', throw, throwThe, MonadExceptOf.throw, bind, Except.bind]
    simp [get_sampling_fct, this, bind, Except.bind]
  · have : get_relatives_models none factors.length [] = .ok (none, none, none) := rfl
    simp [get_sampling_fct, this, bind, Except.bind, throw, throwThe, MonadExceptOf.throw]

/-- the hypotheses of the C23 theorems are met: a layer with a 2 × 1 factor, which is in turn the child of a layer with a
2 × 2 and a 1 × 2 factor of mixed entries -/
theorem C23_hypotheses_met : IsLayer2 2 3 1 exA exB exX ∧
    IsParent2 2 1 2 (Arr.mat 2 [[1, -1], [-1, 1]] 1) (Arr.mat 2 [[-1, 1]] 1) := by
  refine ⟨⟨rfl, rfl, rfl, fun i _ => ?_, fun i _ => ?_, fun i _ => ?_, rfl, rfl⟩, rfl, rfl, ?_, ?_⟩
  · show IsPM (if _ then _ else _); split <;> simp [IsPM]
  · show IsPM (if _ then _ else _); split <;> simp [IsPM]
  · show IsData (if _ then _ else _); split <;> [skip; split] <;> simp [IsData]
  all_goals
    rintro idx -
    simp only [Arr.mat]
    generalize idx.getD 0 0 = i
    generalize idx.getD 1 0 = j
    rcases i with _ | _ | i <;> rcases j with _ | _ | j <;> simp [IsPM]

end LFM
