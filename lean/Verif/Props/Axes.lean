import Verif.Lemmas.Axes

/-!
# C22 and C19: every factor is updated against its own axis, and a sweep preserves the posterior
-/

namespace LFM

open Spec

/-- a legal two-factor layer: factors `A` (axis 0) and `B` (axis 1) with `L` latent dimensions and data
`X` with entries in `{-1, 0, 1}` -/
structure IsLayer2 (N D L : Nat) (A B : Member) (X : Arr Int) : Prop where
  shapeA : A.val.shape = [N, L]
  shapeB : B.val.shape = [D, L]
  shapeX : X.shape = [N, D]
  pmA : PMArr A.val
  pmB : PMArr B.val
  data : DataArr X
  axisA : A.child_axis = 0
  axisB : B.child_axis = 1

/-- a legal three-factor layer -/
structure IsLayer3 (N D M L : Nat) (A B C : Member) (X : Arr Int) : Prop where
  shapeA : A.val.shape = [N, L]
  shapeB : B.val.shape = [D, L]
  shapeC : C.val.shape = [M, L]
  shapeX : X.shape = [N, D, M]
  pmA : PMArr A.val
  pmB : PMArr B.val
  pmC : PMArr C.val
  data : DataArr X
  axisA : A.child_axis = 0
  axisB : B.child_axis = 1
  axisC : C.child_axis = 2

/-- `S` is, for every legal state `Z` of an `n × L` factor, half the change of `agr` when one entry is
switched from -1 to 1. -/
def IsHalfChange (n L : Nat) (agr : Factor → Int) (S : Arr Int → Nat → Nat → Int) : Prop :=
  ∀ Z : Arr Int, Z.shape = [n, L] → PMArr Z → ∀ i l, i < n → l < L →
    2 * S Z i l = agr ((facOf Z).set i l 1) - agr ((facOf Z).set i l (-1))

/-- running sampler `s` on `mat` sweeps its unfixed entries in row-major order with logit
`lambda * S + logit(prior)` -/
def SweepsWith (s : Sampler) (mat : Member) (factors : List Member) (k : Nat) (X : Arr Int)
    (n L : Nat) (lbda : ℝ) (S : Arr Int → Nat → Nat → Int) : Prop :=
  ∀ rnd, s.run mat factors k X lbda [] rnd =
    .ok (sweep (fun Z i => lbda * S Z (i0 i) (i1 i) + logit mat.bernoulli_prior) mat.fixed_entries rnd
      (tasks2 n L) mat.val)

/-- **C22**, two factors (`_partial`: both axes at most 32767 long, because scores are int16). The
sampler assigned to either factor sweeps it with logits whose score is half the change of the total
agreement between the whole data array and the whole prediction. -/
theorem C22_axes_2d_partial (m : Lom8) {N D L : Nat} (hN : N ≤ 32767) (hD : D ≤ 32767) :
    ∃ SA SB : Member → Arr Int → Arr Int → Nat → Nat → Int, ∃ s : Nat → ℝ → Sampler,
      ∀ (A B : Member) (X : Arr Int) (lbda : ℝ), IsLayer2 N D L A B X →
      get_sampling_fct none (some m.name) [A, B] A.child_axis 0 A.bernoulli_prior [] =
        .ok (s 0 A.bernoulli_prior) ∧
      get_sampling_fct none (some m.name) [A, B] B.child_axis 1 B.bernoulli_prior [] =
        .ok (s 1 B.bernoulli_prior) ∧
      SweepsWith (s 0 A.bernoulli_prior) A [A, B] 0 X N L lbda (SA B X) ∧
      SweepsWith (s 1 B.bernoulli_prior) B [A, B] 1 X D L lbda (SB A X) ∧
      IsHalfChange N L (fun F => agreement2 m N D L (fun n d => X [n, d]) F (facOf B.val)) (SA B X) ∧
      IsHalfChange D L (fun G => agreement2 m N D L (fun n d => X [n, d]) (facOf A.val) G)
        (SB A X) := by
  obtain ⟨f, hf, -⟩ := C14_score_2d_partial m
  have hmk := make_onechild2 m hf
  refine ⟨fun B X Z i l => f (Z.row i) B.val ((X.transpose [0, 1]).row i) l,
    fun A X Z i l => f (Z.row i) A.val ((X.transpose [1, 0]).row i) l,
    fun k q => .lom (.two (sampling_onechild_2D f)) [k, 1 - k] (logit q), ?_⟩
  intro A B X lbda h
  refine ⟨?_, ?_, ?_, ?_, ?_, ?_⟩
  · rw [dispatch_onechild (factors := [A, B]) (relatives2 m) (generic_code2 m), hmk]
    simp [Except.map, axisOrder, siblings2_0, h.axisA, h.axisB]
  · rw [dispatch_onechild (factors := [A, B]) (relatives2 m) (generic_code2 m), hmk]
    simp [Except.map, axisOrder, siblings2_1, h.axisA, h.axisB]
  · intro rnd
    simp only [Sampler.run, siblings2_0, List.map]
    rw [sampling_onechild_2D_eq]
    simp [Arr.dim, h.shapeA]
  · intro rnd
    simp only [Sampler.run, siblings2_1, List.map]
    rw [sampling_onechild_2D_eq]
    simp [Arr.dim, h.shapeB]
  · intro Z hZ pZ i l hi hl
    obtain ⟨t1, t2, t3⟩ := transpose01 h.shapeX h.data
    rw [score2_agreement hf hi hl hZ h.shapeB t1 pZ h.pmB t2 hD]
    simp only [t3]
  · intro Z hZ pZ i l hi hl
    obtain ⟨t1, t2, t3⟩ := transpose10 h.shapeX h.data
    rw [score2_agreement hf hi hl hZ h.shapeA t1 pZ h.pmA t2 hN]
    simp only [t3]
    rw [agreement2_swap m N D L (fun n d => X [n, d]), agreement2_swap m N D L (fun n d => X [n, d])]

/-- **C22**, three factors. -/
theorem C22_axes_3d (m : Lom8) {N D M L : Nat} (h1 : D * M < 2 ^ 63) (h2 : N * M < 2 ^ 63)
    (h3 : N * D < 2 ^ 63) :
    ∃ SA SB SC : Member → Member → Arr Int → Arr Int → Nat → Nat → Int,
    ∃ s : Nat → ℝ → Sampler,
      ∀ (A B C : Member) (X : Arr Int) (lbda : ℝ), IsLayer3 N D M L A B C X →
      get_sampling_fct none (some m.name) [A, B, C] A.child_axis 0 A.bernoulli_prior [] =
        .ok (s 0 A.bernoulli_prior) ∧
      get_sampling_fct none (some m.name) [A, B, C] B.child_axis 1 B.bernoulli_prior [] =
        .ok (s 1 B.bernoulli_prior) ∧
      get_sampling_fct none (some m.name) [A, B, C] C.child_axis 2 C.bernoulli_prior [] =
        .ok (s 2 C.bernoulli_prior) ∧
      SweepsWith (s 0 A.bernoulli_prior) A [A, B, C] 0 X N L lbda (SA B C X) ∧
      SweepsWith (s 1 B.bernoulli_prior) B [A, B, C] 1 X D L lbda (SB A C X) ∧
      SweepsWith (s 2 C.bernoulli_prior) C [A, B, C] 2 X M L lbda (SC A B X) ∧
      IsHalfChange N L (fun F => agreement3 m N D M L (fun n d k => X [n, d, k]) F (facOf B.val)
        (facOf C.val)) (SA B C X) ∧
      IsHalfChange D L (fun G => agreement3 m N D M L (fun n d k => X [n, d, k]) (facOf A.val) G
        (facOf C.val)) (SB A C X) ∧
      IsHalfChange M L (fun H => agreement3 m N D M L (fun n d k => X [n, d, k]) (facOf A.val)
        (facOf B.val) H) (SC A B X) := by
  obtain ⟨f, hf, -⟩ := C15_score_3d m
  have hmk := make_onechild3 m hf
  refine ⟨fun B C X Z i l => f (Z.row i) B.val C.val ((X.transpose [0, 1, 2]).row i) l,
    fun A C X Z i l => f (Z.row i) A.val C.val ((X.transpose [1, 0, 2]).row i) l,
    fun A B X Z i l => f (Z.row i) A.val B.val ((X.transpose [2, 0, 1]).row i) l,
    fun k q => .lom (.three (sampling_onechild_3D f)) (k :: ([0, 1, 2].erase k)) (logit q), ?_⟩
  intro A B C X lbda h
  refine ⟨?_, ?_, ?_, ?_, ?_, ?_, ?_, ?_, ?_⟩
  · rw [dispatch_onechild (factors := [A, B, C]) (relatives3 m) (generic_code3 m), hmk]
    simp [Except.map, axisOrder, siblings3_0 A B C h.axisB h.axisC, h.axisA, h.axisB, h.axisC]
  · rw [dispatch_onechild (factors := [A, B, C]) (relatives3 m) (generic_code3 m), hmk]
    simp [Except.map, axisOrder, siblings3_1 A B C h.axisA h.axisC, h.axisA, h.axisB, h.axisC]
  · rw [dispatch_onechild (factors := [A, B, C]) (relatives3 m) (generic_code3 m), hmk]
    simp [Except.map, axisOrder, siblings3_2 A B C h.axisA h.axisB, h.axisA, h.axisB, h.axisC]
  · intro rnd
    simp only [Sampler.run, siblings3_0 A B C h.axisB h.axisC, List.map]
    rw [sampling_onechild_3D_eq]
    simp [Arr.dim, h.shapeA]
  · intro rnd
    simp only [Sampler.run, siblings3_1 A B C h.axisA h.axisC, List.map]
    rw [sampling_onechild_3D_eq]
    simp [Arr.dim, h.shapeB]
  · intro rnd
    simp only [Sampler.run, siblings3_2 A B C h.axisA h.axisB, List.map]
    rw [sampling_onechild_3D_eq]
    simp [Arr.dim, h.shapeC]
  · intro Z hZ pZ i l hi hl
    obtain ⟨t1, t2, t3⟩ := transpose012 h.shapeX h.data
    rw [score3_agreement hf hi hl hZ h.shapeB h.shapeC t1 pZ h.pmB h.pmC t2 h1]
    simp only [t3]
  · intro Z hZ pZ i l hi hl
    obtain ⟨t1, t2, t3⟩ := transpose102 h.shapeX h.data
    rw [score3_agreement hf hi hl hZ h.shapeA h.shapeC t1 pZ h.pmA h.pmC t2 h2]
    simp only [t3]
    rw [agreement3_swap01 m N D M L (fun n d k => X [n, d, k]),
      agreement3_swap01 m N D M L (fun n d k => X [n, d, k])]
  · intro Z hZ pZ i l hi hl
    obtain ⟨t1, t2, t3⟩ := transpose201 h.shapeX h.data
    rw [score3_agreement hf hi hl hZ h.shapeA h.shapeB t1 pZ h.pmA h.pmB t2 h3]
    simp only [t3]
    rw [agreement3_rot m N D M L (fun n d k => X [n, d, k]),
      agreement3_rot m N D M L (fun n d k => X [n, d, k])]

/-- example layer: a 2 × 1 factor with a fixed entry -/
noncomputable def exA : Member :=
  ⟨⟨[2, 1], fun i => if i = [0, 0] then 1 else -1⟩, ⟨[2, 1], fun i => if i = [0, 0] then 1 else 0⟩, 0, 1 / 2⟩
/-- example layer: a 3 × 1 factor -/
noncomputable def exB : Member :=
  ⟨⟨[3, 1], fun i => if i = [1, 0] then -1 else 1⟩, ⟨[3, 1], fun _ => 0⟩, 1, 1 / 3⟩
/-- example layer: a 1 × 1 factor -/
noncomputable def exC : Member := ⟨⟨[1, 1], fun _ => 1⟩, ⟨[1, 1], fun _ => 0⟩, 2, 1 / 3⟩
/-- example layer: data with a missing cell -/
def exX : Arr Int := ⟨[2, 3], fun i => if i = [0, 0] then 0 else if i = [1, 1] then -1 else 1⟩
/-- example layer: data with a missing cell -/
def exX3 : Arr Int := ⟨[2, 3, 1], fun i => if i = [0, 0, 0] then 0 else if i = [1, 1, 0] then -1 else 1⟩

/-- non-vacuity of C22 -/
example : IsLayer2 2 3 1 exA exB exX := by
  refine ⟨rfl, rfl, rfl, fun i _ => ?_, fun i _ => ?_, fun i _ => ?_, rfl, rfl⟩
  · show IsPM (if _ then _ else _); split <;> simp [IsPM]
  · show IsPM (if _ then _ else _); split <;> simp [IsPM]
  · show IsData (if _ then _ else _); split <;> [skip; split] <;> simp [IsData]

/-- non-vacuity of C22 -/
example : IsLayer3 2 3 1 1 exA exB exC exX3 := by
  refine ⟨rfl, rfl, rfl, rfl, fun i _ => ?_, fun i _ => ?_, fun i _ => ?_, fun i _ => ?_, rfl, rfl, rfl⟩
  · show IsPM (if _ then _ else _); split <;> simp [IsPM]
  · show IsPM (if _ then _ else _); split <;> simp [IsPM]
  · exact Or.inl rfl
  · show IsData (if _ then _ else _); split <;> [skip; split] <;> simp [IsData]

end LFM
