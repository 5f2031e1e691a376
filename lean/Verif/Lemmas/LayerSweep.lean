import Verif.Props.StoredLambda
import Verif.Lemmas.Parallel
import Verif.Props.Axes

/-!
# Lemmas: the update of a factor in a machine with a single layer, in terms of the agreement of data and prediction
-/

namespace LFM

open Spec

namespace Spec

/-- total agreement of the data `X` with the prediction from these two or three factors -/
noncomputable def agreementOf (lom : Lom8) (fs : List (Arr Int)) (X : Arr Int) : Int :=
  match fs with
  | [Z, U] => agreement2 lom (X.dim 0) (X.dim 1) (Z.dim 1) (fun n d => X [n, d]) (fun n l => Z [n, l]) (fun d l => U [d, l])
  | [Z, U, V] => agreement3 lom (X.dim 0) (X.dim 1) (X.dim 2) (Z.dim 1) (fun n d k => X [n, d, k]) (fun n l => Z [n, l])
      (fun d l => U [d, l]) (fun k l => V [k, l])
  | _ => 0

/-- sizes for which the scores do not overflow: two axes of at most 32767, or three whose products are below `2^63` -/
def ScoresFit : List Nat → Prop
  | [N, D] => N ≤ 32767 ∧ D ≤ 32767
  | [N, D, M] => D * M < 2 ^ 63 ∧ N * M < 2 ^ 63 ∧ N * D < 2 ^ 63
  | _ => False

end Spec

/-- sampling functions that are assigned to factor number `j` with prior `q` of a layer with `K` factors, whose factor
number `j'` belongs to axis `j'` -/
def AxisSampler (lom : Lom8) (K j : Nat) (q : ℝ) (s : Sampler) : Prop :=
  ∃ fs : List Member, fs.length = K ∧ (∀ (j' : Nat) (f : Member), fs[j']? = some f → f.child_axis = j') ∧
    get_sampling_fct none (some lom.name) fs j j q [] = .ok s

theorem AxisSampler.generic {lom : Lom8} {K j : Nat} {q : ℝ} {s : Sampler} (h : AxisSampler lom K j q s) :
    GenericSampler lom K j s := by
  obtain ⟨fs, h1, -, h3⟩ := h
  exact ⟨fs, q, h1, h3⟩

theorem facOf_set (Z : Arr Int) (n l : Nat) (v : Int) : (fun n' l' => (Z.set [n, l] v) [n', l']) = (facOf Z).set n l v := by
  funext n' l'
  simp [Arr.set, facOf, Factor.set]

/-- the members of a layer -/
theorem memberAt_axis {wr : Wiring} {w : World} {i : Nat} : (memberAt wr w i).child_axis = wr.childAxis i := rfl

theorem rowLocal_score {f : Arr Int → Nat → Nat → Int} (hf : ∀ Z Z' : Arr Int, ∀ n l, Z.row n = Z'.row n → f Z n l = f Z' n l)
    (y c : ℝ) : RowLocal fun Z i => y * f Z (i0 i) (i1 i) + c := by
  intro Z Z' i hs h
  have : f Z (i0 i) (i1 i) = f Z' (i0 i) (i1 i) := hf _ _ _ _ (row_congr hs h)
  simp only [this]

/-- two factors: the sampler of the first -/
theorem sweeps2_0 {lom : Lom8} {N D L : Nat} (hD : D ≤ 32767) {A B : Member} {X : Arr Int} {y : ℝ}
    (h : IsLayer2 N D L A B X) {q : ℝ} {s : Sampler} (hs : AxisSampler lom 2 0 q s) :
    ∃ S : Arr Int → Nat → Nat → Int, (∀ Z Z' n l, Z.row n = Z'.row n → S Z n l = S Z' n l) ∧
      IsHalfChange N L (fun F => agreement2 lom N D L (fun n d => X [n, d]) F (facOf B.val)) S ∧
      ∀ rnd, s.run A [A, B] 0 X y [] rnd =
        .ok (sweep (fun Z i => y * S Z (i0 i) (i1 i) + logit q) A.fixed_entries rnd (tasks2 N L) A.val) := by
  obtain ⟨f, hf, -⟩ := C14_score_2d_partial lom
  have hmk := make_onechild2 lom hf
  obtain ⟨ms, hms, hax, hget⟩ := hs
  obtain ⟨a, b, rfl⟩ := List.length_eq_two.mp hms
  have ha := hax 0 a rfl
  have hb := hax 1 b rfl
  rw [dispatch_onechild (factors := [a, b]) (relatives2 lom) (generic_code2 lom), hmk] at hget
  simp only [Except.map, axisOrder, siblings2_0, List.map, ha, hb, Except.ok.injEq] at hget
  subst hget
  refine ⟨fun Z i l => f (Z.row i) B.val ((X.transpose [0, 1]).row i) l, ?_, ?_, ?_⟩
  · intro Z Z' n l hr; simp only [hr]
  · intro Z hZ pZ i l hi hl
    obtain ⟨t1, t2, t3⟩ := transpose01 h.shapeX h.data
    rw [score2_agreement hf hi hl hZ h.shapeB t1 pZ h.pmB t2 hD]
    simp only [t3]
  · intro rnd
    simp only [Sampler.run, siblings2_0, List.map]
    rw [sampling_onechild_2D_eq]
    simp [Arr.dim, h.shapeA]

/-- two factors: the sampler of the second -/
theorem sweeps2_1 {lom : Lom8} {N D L : Nat} (hN : N ≤ 32767) {A B : Member} {X : Arr Int} {y : ℝ}
    (h : IsLayer2 N D L A B X) {q : ℝ} {s : Sampler} (hs : AxisSampler lom 2 1 q s) :
    ∃ S : Arr Int → Nat → Nat → Int, (∀ Z Z' n l, Z.row n = Z'.row n → S Z n l = S Z' n l) ∧
      IsHalfChange D L (fun G => agreement2 lom N D L (fun n d => X [n, d]) (facOf A.val) G) S ∧
      ∀ rnd, s.run B [A, B] 1 X y [] rnd =
        .ok (sweep (fun Z i => y * S Z (i0 i) (i1 i) + logit q) B.fixed_entries rnd (tasks2 D L) B.val) := by
  obtain ⟨f, hf, -⟩ := C14_score_2d_partial lom
  have hmk := make_onechild2 lom hf
  obtain ⟨ms, hms, hax, hget⟩ := hs
  obtain ⟨a, b, rfl⟩ := List.length_eq_two.mp hms
  have ha := hax 0 a rfl
  have hb := hax 1 b rfl
  rw [dispatch_onechild (factors := [a, b]) (relatives2 lom) (generic_code2 lom), hmk] at hget
  simp only [Except.map, axisOrder, siblings2_1, List.map, ha, hb, Except.ok.injEq] at hget
  subst hget
  refine ⟨fun Z i l => f (Z.row i) A.val ((X.transpose [1, 0]).row i) l, ?_, ?_, ?_⟩
  · intro Z Z' n l hr; simp only [hr]
  · intro Z hZ pZ i l hi hl
    obtain ⟨t1, t2, t3⟩ := transpose10 h.shapeX h.data
    rw [score2_agreement hf hi hl hZ h.shapeA t1 pZ h.pmA t2 hN]
    simp only [t3]
    rw [agreement2_swap lom N D L (fun n d => X [n, d]), agreement2_swap lom N D L (fun n d => X [n, d])]
  · intro rnd
    simp only [Sampler.run, siblings2_1, List.map]
    rw [sampling_onechild_2D_eq]
    simp [Arr.dim, h.shapeB]

/-- three factors: the sampler of the first -/
theorem sweeps3_0 {lom : Lom8} {N D M L : Nat} (h1 : D * M < 2 ^ 63) {A B C : Member} {X : Arr Int} {y : ℝ}
    (h : IsLayer3 N D M L A B C X) {q : ℝ} {s : Sampler} (hs : AxisSampler lom 3 0 q s) :
    ∃ S : Arr Int → Nat → Nat → Int, (∀ Z Z' n l, Z.row n = Z'.row n → S Z n l = S Z' n l) ∧
      IsHalfChange N L (fun F => agreement3 lom N D M L (fun n d k => X [n, d, k]) F (facOf B.val) (facOf C.val)) S ∧
      ∀ rnd, s.run A [A, B, C] 0 X y [] rnd =
        .ok (sweep (fun Z i => y * S Z (i0 i) (i1 i) + logit q) A.fixed_entries rnd (tasks2 N L) A.val) := by
  obtain ⟨f, hf, -⟩ := C15_score_3d lom
  have hmk := make_onechild3 lom hf
  obtain ⟨ms, hms, hax, hget⟩ := hs
  obtain ⟨a, b, c, rfl⟩ := List.length_eq_three.mp hms
  have ha := hax 0 a rfl
  have hb := hax 1 b rfl
  have hc := hax 2 c rfl
  rw [dispatch_onechild (factors := [a, b, c]) (relatives3 lom) (generic_code3 lom), hmk] at hget
  simp only [Except.map, axisOrder, siblings3_0 a b c hb hc, List.map, ha, hb, hc, Except.ok.injEq] at hget
  subst hget
  refine ⟨fun Z i l => f (Z.row i) B.val C.val ((X.transpose [0, 1, 2]).row i) l, ?_, ?_, ?_⟩
  · intro Z Z' n l hr; simp only [hr]
  · intro Z hZ pZ i l hi hl
    obtain ⟨t1, t2, t3⟩ := transpose012 h.shapeX h.data
    rw [score3_agreement hf hi hl hZ h.shapeB h.shapeC t1 pZ h.pmB h.pmC t2 h1]
    simp only [t3]
  · intro rnd
    simp only [Sampler.run, siblings3_0 A B C h.axisB h.axisC, List.map]
    rw [sampling_onechild_3D_eq]
    simp [Arr.dim, h.shapeA]

/-- three factors: the sampler of the second -/
theorem sweeps3_1 {lom : Lom8} {N D M L : Nat} (h2 : N * M < 2 ^ 63) {A B C : Member} {X : Arr Int} {y : ℝ}
    (h : IsLayer3 N D M L A B C X) {q : ℝ} {s : Sampler} (hs : AxisSampler lom 3 1 q s) :
    ∃ S : Arr Int → Nat → Nat → Int, (∀ Z Z' n l, Z.row n = Z'.row n → S Z n l = S Z' n l) ∧
      IsHalfChange D L (fun G => agreement3 lom N D M L (fun n d k => X [n, d, k]) (facOf A.val) G (facOf C.val)) S ∧
      ∀ rnd, s.run B [A, B, C] 1 X y [] rnd =
        .ok (sweep (fun Z i => y * S Z (i0 i) (i1 i) + logit q) B.fixed_entries rnd (tasks2 D L) B.val) := by
  obtain ⟨f, hf, -⟩ := C15_score_3d lom
  have hmk := make_onechild3 lom hf
  obtain ⟨ms, hms, hax, hget⟩ := hs
  obtain ⟨a, b, c, rfl⟩ := List.length_eq_three.mp hms
  have ha := hax 0 a rfl
  have hb := hax 1 b rfl
  have hc := hax 2 c rfl
  rw [dispatch_onechild (factors := [a, b, c]) (relatives3 lom) (generic_code3 lom), hmk] at hget
  simp only [Except.map, axisOrder, siblings3_1 a b c ha hc, List.map, ha, hb, hc, Except.ok.injEq] at hget
  subst hget
  refine ⟨fun Z i l => f (Z.row i) A.val C.val ((X.transpose [1, 0, 2]).row i) l, ?_, ?_, ?_⟩
  · intro Z Z' n l hr; simp only [hr]
  · intro Z hZ pZ i l hi hl
    obtain ⟨t1, t2, t3⟩ := transpose102 h.shapeX h.data
    rw [score3_agreement hf hi hl hZ h.shapeA h.shapeC t1 pZ h.pmA h.pmC t2 h2]
    simp only [t3]
    rw [agreement3_swap01 lom N D M L (fun n d k => X [n, d, k]),
      agreement3_swap01 lom N D M L (fun n d k => X [n, d, k])]
  · intro rnd
    simp only [Sampler.run, siblings3_1 A B C h.axisA h.axisC, List.map]
    rw [sampling_onechild_3D_eq]
    simp [Arr.dim, h.shapeB]

/-- three factors: the sampler of the third -/
theorem sweeps3_2 {lom : Lom8} {N D M L : Nat} (h3 : N * D < 2 ^ 63) {A B C : Member} {X : Arr Int} {y : ℝ}
    (h : IsLayer3 N D M L A B C X) {q : ℝ} {s : Sampler} (hs : AxisSampler lom 3 2 q s) :
    ∃ S : Arr Int → Nat → Nat → Int, (∀ Z Z' n l, Z.row n = Z'.row n → S Z n l = S Z' n l) ∧
      IsHalfChange M L (fun H => agreement3 lom N D M L (fun n d k => X [n, d, k]) (facOf A.val) (facOf B.val) H) S ∧
      ∀ rnd, s.run C [A, B, C] 2 X y [] rnd =
        .ok (sweep (fun Z i => y * S Z (i0 i) (i1 i) + logit q) C.fixed_entries rnd (tasks2 M L) C.val) := by
  obtain ⟨f, hf, -⟩ := C15_score_3d lom
  have hmk := make_onechild3 lom hf
  obtain ⟨ms, hms, hax, hget⟩ := hs
  obtain ⟨a, b, c, rfl⟩ := List.length_eq_three.mp hms
  have ha := hax 0 a rfl
  have hb := hax 1 b rfl
  have hc := hax 2 c rfl
  rw [dispatch_onechild (factors := [a, b, c]) (relatives3 lom) (generic_code3 lom), hmk] at hget
  simp only [Except.map, axisOrder, siblings3_2 a b c ha hb, List.map, ha, hb, hc, Except.ok.injEq] at hget
  subst hget
  refine ⟨fun Z i l => f (Z.row i) A.val B.val ((X.transpose [2, 0, 1]).row i) l, ?_, ?_, ?_⟩
  · intro Z Z' n l hr; simp only [hr]
  · intro Z hZ pZ i l hi hl
    obtain ⟨t1, t2, t3⟩ := transpose201 h.shapeX h.data
    rw [score3_agreement hf hi hl hZ h.shapeA h.shapeB t1 pZ h.pmA h.pmB t2 h3]
    simp only [t3]
    rw [agreement3_rot lom N D M L (fun n d k => X [n, d, k]),
      agreement3_rot lom N D M L (fun n d k => X [n, d, k])]
  · intro rnd
    simp only [Sampler.run, siblings3_2 A B C h.axisA h.axisB, List.map]
    rw [sampling_onechild_3D_eq]
    simp [Arr.dim, h.shapeC]

namespace SingleLayer

variable {wr : Wiring} {m : Mach Sampler LbdaUpdate} {lom : Lom8} {lr : LayerInfo} {x : Nat} {sizes : List Nat}

/-- the values of the factors, with that of `i` replaced -/
def valsWith (lr : LayerInfo) (w : World) (i : Nat) (Z : Arr Int) : List (Arr Int) :=
  lr.factors.map fun j => if j = i then Z else (w.mat j).val

/-- the call of a sampling function sweeps the entries of the factor; the log-odds of an entry are lambda times half the
change of agreement when it is switched on, plus the log-odds of the prior -/
theorem sweeps (H : SingleLayer wr m lom lr x sizes) {X : Arr Int} (hX : X.shape = sizes) (hd : DataArr X)
    (hfit : ScoresFit sizes) {i : Nat} (hi : i ∈ lr.factors) {q : ℝ} {s : Sampler}
    (hs : AxisSampler lom lr.factors.length (lr.factors.idxOf i) q s) (t : Nat) {w : World} {L : Nat}
    (hL : LegalFacs sizes L (lr.factors.map w.mat)) (hdata : (w.mat x).val = X) {y : ℝ}
    (hy : w.lbda 0 = .scalar (.fin y)) :
    ∃ S : Arr Int → Nat → Nat → Int, (∀ Z Z' n l, Z.row n = Z'.row n → S Z n l = S Z' n l) ∧
      (∀ Z : Arr Int, Z.shape = [sizes.getD (lr.factors.idxOf i) 0, L] → PMArr Z →
        ∀ n l, n < sizes.getD (lr.factors.idxOf i) 0 → l < L →
          2 * S Z n l = agreementOf lom (valsWith lr w i (Z.set [n, l] 1)) X -
            agreementOf lom (valsWith lr w i (Z.set [n, l] (-1))) X) ∧
      runSampler wr s i t w = .ok (w.setVal i (sweep (fun Z idx => y * S Z (i0 idx) (i1 idx) + logit q)
        (w.mat i).fixed_entries (wr.rnd t i) (tasks2 (sizes.getD (lr.factors.idxOf i) 0) L) (w.mat i).val)) := by
  have hv : layerView wr w i = some (lr.factors.map (memberAt wr w), lr.factors.idxOf i, X, y) := by
    rw [layerView, H.wrLayerOf, H.layerOf i hi, H.wrLayers, H.layers]
    show (([lr] : List LayerInfo)[0]? >>= fun lr => (w.lbda 0).float? >>= fun x => _) = _
    rw [hy, ← hdata, ← H.child]
    rfl
  have hp : (wr.parents i).mapM (parentAt wr w) = some [] := by rw [H.parents i hi]; rfl
  have hrun : ∀ R, s.run (memberAt wr w i) (lr.factors.map (memberAt wr w)) (lr.factors.idxOf i) X y [] (wr.rnd t i) = .ok R →
      runSampler wr s i t w = .ok (w.setVal i R) := by
    intro R hR
    rw [runSampler, hv, hp]
    show (s.run _ _ _ _ _ _ _ >>= _) = _
    rw [hR]
    rfl
  have hnd := H.nodup
  rcases H.arity with hK | hK
  · obtain ⟨a, b, hab⟩ := List.length_eq_two.mp hK
    obtain ⟨N, D, hND⟩ := List.length_eq_two.mp (H.sizes.trans hK)
    rw [hK] at hs
    have xa := H.axis 0 a (by rw [hab]; rfl)
    have xb := H.axis 1 b (by rw [hab]; rfl)
    rw [hab] at hi hnd hs hL hrun
    rw [hND] at hX hfit hL
    obtain ⟨a1, a2⟩ := hL 0 (w.mat a) rfl
    obtain ⟨b1, b2⟩ := hL 1 (w.mat b) rfl
    have hla : IsLayer2 N D L (memberAt wr w a) (memberAt wr w b) X := ⟨a1, b1, hX, a2, b2, hd, xa, xb⟩
    have hne : a ≠ b := by simpa using hnd
    simp only [List.mem_cons, List.not_mem_nil, or_false] at hi
    rcases hi with rfl | rfl
    · have hidx : [i, b].idxOf i = 0 := by simp
      rw [hidx] at hs hrun
      obtain ⟨S, e1, e2, e3⟩ := sweeps2_0 (y := y) hfit.2 hla hs
      refine ⟨S, e1, ?_, ?_⟩
      · intro Z hZ pZ n l hn hl
        rw [hab, hidx, hND] at hZ hn
        rw [e2 Z hZ pZ n l hn hl]
        simp only [agreementOf, valsWith, hab, List.map, if_true, hne.symm, if_false, facOf_set]
        simp only [Arr.set, Arr.dim, hX, hZ]
        rfl
      · rw [hab, hidx, hND]
        exact hrun _ (e3 _)
    · have hidx : [a, i].idxOf i = 1 := by simp [List.idxOf_cons, hne]
      rw [hidx] at hs hrun
      obtain ⟨S, e1, e2, e3⟩ := sweeps2_1 (y := y) hfit.1 hla hs
      refine ⟨S, e1, ?_, ?_⟩
      · intro Z hZ pZ n l hn hl
        rw [hab, hidx, hND] at hZ hn
        rw [e2 Z hZ pZ n l hn hl]
        simp only [agreementOf, valsWith, hab, List.map, if_true, hne, if_false, facOf_set]
        simp only [Arr.dim, hX, a1]
        rfl
      · rw [hab, hidx, hND]
        exact hrun _ (e3 _)
  · obtain ⟨a, b, c, hab⟩ := List.length_eq_three.mp hK
    obtain ⟨N, D, M, hND⟩ := List.length_eq_three.mp (H.sizes.trans hK)
    rw [hK] at hs
    have xa := H.axis 0 a (by rw [hab]; rfl)
    have xb := H.axis 1 b (by rw [hab]; rfl)
    have xc := H.axis 2 c (by rw [hab]; rfl)
    rw [hab] at hi hnd hs hL hrun
    rw [hND] at hX hfit hL
    obtain ⟨a1, a2⟩ := hL 0 (w.mat a) rfl
    obtain ⟨b1, b2⟩ := hL 1 (w.mat b) rfl
    obtain ⟨c1, c2⟩ := hL 2 (w.mat c) rfl
    have hla : IsLayer3 N D M L (memberAt wr w a) (memberAt wr w b) (memberAt wr w c) X :=
      ⟨a1, b1, c1, hX, a2, b2, c2, hd, xa, xb, xc⟩
    have hne : (a ≠ b ∧ a ≠ c) ∧ b ≠ c := by simpa using hnd
    simp only [List.mem_cons, List.not_mem_nil, or_false] at hi
    rcases hi with rfl | rfl | rfl
    · have hidx : [i, b, c].idxOf i = 0 := by simp
      rw [hidx] at hs hrun
      obtain ⟨S, e1, e2, e3⟩ := sweeps3_0 (y := y) hfit.1 hla hs
      refine ⟨S, e1, ?_, ?_⟩
      · intro Z hZ pZ n l hn hl
        rw [hab, hidx, hND] at hZ hn
        rw [e2 Z hZ pZ n l hn hl]
        simp only [agreementOf, valsWith, hab, List.map, if_true, hne.1.1.symm, hne.1.2.symm, if_false, facOf_set]
        simp only [Arr.set, Arr.dim, hX, hZ]
        rfl
      · rw [hab, hidx, hND]
        exact hrun _ (e3 _)
    · have hidx : [a, i, c].idxOf i = 1 := by simp [List.idxOf_cons, hne.1.1]
      rw [hidx] at hs hrun
      obtain ⟨S, e1, e2, e3⟩ := sweeps3_1 (y := y) hfit.2.1 hla hs
      refine ⟨S, e1, ?_, ?_⟩
      · intro Z hZ pZ n l hn hl
        rw [hab, hidx, hND] at hZ hn
        rw [e2 Z hZ pZ n l hn hl]
        simp only [agreementOf, valsWith, hab, List.map, if_true, hne.1.1, hne.2.symm, if_false, facOf_set]
        simp only [Arr.dim, hX, a1]
        rfl
      · rw [hab, hidx, hND]
        exact hrun _ (e3 _)
    · have hidx : [a, b, i].idxOf i = 2 := by simp [List.idxOf_cons, hne.1.2, hne.2]
      rw [hidx] at hs hrun
      obtain ⟨S, e1, e2, e3⟩ := sweeps3_2 (y := y) hfit.2.2 hla hs
      refine ⟨S, e1, ?_, ?_⟩
      · intro Z hZ pZ n l hn hl
        rw [hab, hidx, hND] at hZ hn
        rw [e2 Z hZ pZ n l hn hl]
        simp only [agreementOf, valsWith, hab, List.map, if_true, hne.1.2, hne.2, if_false, facOf_set]
        simp only [Arr.dim, hX, a1]
        rfl
      · rw [hab, hidx, hND]
        exact hrun _ (e3 _)

/-- the function assigned to a factor -/
theorem getSampler_axis (H : SingleLayer wr m lom lr x sizes) {m' : Mach Sampler LbdaUpdate} (hl : m'.layers = m.layers)
    (ho : m'.layerOf = m.layerOf) {i : Nat} (hi : i ∈ lr.factors) :
    ∃ s, getSampler wr m' i = .ok (some s, none) ∧
      AxisSampler lom lr.factors.length (lr.factors.idxOf i) (m'.bernoulli_prior i) s := by
  obtain ⟨p1, p2, p3⟩ := H.position hi
  obtain ⟨s, h1, h2, -⟩ := H.getSampler_ok hl ho hi
  refine ⟨s, h1, ?_⟩
  have hlr : (m'.layerOf i).bind (fun k => m'.layers[k]?) = some lr := by
    rw [ho, hl, H.layerOf i hi, H.layers]; rfl
  obtain ⟨ms, hms⟩ : ∃ ms : List Member, ms = lr.factors.map fun j =>
    (⟨(m'.world.mat j).val, (m'.world.mat j).fixed_entries, wr.childAxis j, m'.bernoulli_prior j⟩ : Member) := ⟨_, rfl⟩
  have hlen : ms.length = lr.factors.length := by rw [hms]; simp
  refine ⟨ms, hlen, ?_, ?_⟩
  · intro j f hf
    rw [hms, List.getElem?_map, Option.map_eq_some_iff] at hf
    obtain ⟨i', hi', rfl⟩ := hf
    exact H.axis j i' hi'
  · rw [getSampler] at h1
    simp only [hlr, Option.map_some, H.parents i hi, List.filterMap_nil, H.model, p3] at h1
    rw [← hms, bind_ok] at h1
    obtain ⟨s', e1, e2⟩ := h1
    obtain ⟨f, o, lp, rfl⟩ : ∃ f o lp, s' = .lom f o lp := by
      rcases H.arity with hK | hK
      · obtain ⟨f, hf', -⟩ := C14_score_2d_partial lom
        rw [dispatch_onechild (by rw [hlen, hK]; exact relatives2 lom) (generic_code2 lom), make_onechild2 lom hf'] at e1
        simp only [Except.map, Except.ok.injEq] at e1
        exact ⟨_, _, _, e1.symm⟩
      · obtain ⟨f, hf', -⟩ := C15_score_3d lom
        rw [dispatch_onechild (by rw [hlen, hK]; exact relatives3 lom) (generic_code3 lom), make_onechild3 lom hf'] at e1
        simp only [Except.map, Except.ok.injEq] at e1
        exact ⟨_, _, _, e1.symm⟩
    have e2 := pure_ok.mp e2
    simp only [Prod.mk.injEq, Option.some.injEq, and_true] at e2
    rw [e1, ← e2]

/-- the functions assigned to factors without one -/
theorem assigns_axis (H : SingleLayer wr m lom lr x sizes) (ks : List Nat) : ∀ m' m'' : Mach Sampler LbdaUpdate,
    (∀ i ∈ ks, i ∈ lr.factors) → m'.layers = m.layers → m'.layerOf = m.layerOf → m'.bernoulli_prior = m.bernoulli_prior →
    (∀ i ∈ lr.factors, m'.fct i = none ∨ ∃ s, m'.fct i = some s ∧
      AxisSampler lom lr.factors.length (lr.factors.idxOf i) (m.bernoulli_prior i) s) →
    ks.foldlM (assignFct (genericEnv wr)) m' = .ok m'' →
    ∀ i ∈ lr.factors, (i ∈ ks ∨ m'.fct i ≠ none) → ∃ s, m''.fct i = some s ∧
      AxisSampler lom lr.factors.length (lr.factors.idxOf i) (m.bernoulli_prior i) s := by
  induction ks with
  | nil =>
    intro m' m'' _ _ _ _ hc h i hi hik
    rw [List.foldlM_nil, pure_ok] at h
    subst h
    simp only [List.not_mem_nil, false_or] at hik
    exact (hc i hi).resolve_left hik
  | cons k ks ih =>
    intro m' m'' hks hl ho hb hc h i hi hik
    rw [List.foldlM_cons, bind_ok] at h
    obtain ⟨m1, h1, h2⟩ := h
    have hks' : ∀ i ∈ ks, i ∈ lr.factors := fun i hi => hks i (by simp [hi])
    cases hf : m'.fct k with
    | some s =>
      rw [assignFct, hf] at h1
      cases h1
      refine ih m' m'' hks' hl ho hb hc h2 i hi ?_
      rcases hik with hik | hik
      · simp only [List.mem_cons] at hik
        rcases hik with rfl | hik
        · right; rw [hf]; simp
        · exact .inl hik
      · exact .inr hik
    | none =>
      obtain ⟨s, e1, e2⟩ := H.getSampler_axis hl ho (hks k (by simp))
      rw [hb] at e2
      have : assignFct (genericEnv wr) m' k = .ok { m' with fct := upd m'.fct k (some s) } := by
        rw [assignFct, hf]
        show (getSampler wr m' k >>= _) = _
        rw [e1]
        rfl
      rw [this] at h1
      cases h1
      refine ih { m' with fct := upd m'.fct k (some s) } m'' hks' hl ho hb ?_ h2 i hi ?_
      · intro j hj
        by_cases hjk : j = k
        · subst hjk
          exact .inr ⟨s, by simp [upd], e2⟩
        · simpa [upd, hjk] using hc j hj
      · by_cases hjk : i = k
        · subst hjk
          right; simp [upd]
        · rcases hik with hik | hik
          · simp only [List.mem_cons, hjk, false_or] at hik
            exact .inl hik
          · right; simpa [upd, hjk] using hik

end SingleLayer

end LFM
