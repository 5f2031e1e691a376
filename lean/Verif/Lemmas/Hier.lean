import Verif.Lemmas.Wiring
import Verif.Props.Parents
import Verif.Spec.Hier

/-!
# Lemmas: hierarchical machines
-/

namespace LFM

open Spec MeasureTheory

/-- steps that preserve a weight can be composed -/
theorem schedule_invariant {ι S : Type} [Fintype S] {K : ι → S → S → ENNReal} {W : S → ENNReal}
    (h : ∀ i s', ∑ s, W s * K i s s' = W s') (sched : List ι) (s' : S) :
    ∑ s, W s * schedule K sched s s' = W s' := by
  classical
  induction sched generalizing s' with
  | nil =>
    rw [Finset.sum_eq_single s']
    · simp [schedule]
    · intro b _ hb; simp [schedule, hb]
    · simp
  | cons i rest ih =>
    simp only [schedule, Finset.mul_sum]
    rw [Finset.sum_comm]
    rw [← ih s']
    refine Finset.sum_congr rfl fun s1 _ => ?_
    rw [← h i s1, Finset.sum_mul]
    refine Finset.sum_congr rfl fun s _ => ?_
    rw [mul_assoc]

/-- a step that changes one component only -/
theorem site_invariant {ι : Type} [Fintype ι] [DecidableEq ι] {T : ι → Type} [∀ i, Fintype (T i)]
    {W : (∀ i, T i) → ENNReal} {i : ι} {K : (∀ i, T i) → (∀ i, T i) → ENNReal} {k : (∀ i, T i) → T i → T i → ENNReal}
    (hK : ∀ s c, K (Function.update s i c) s = k s c (s i)) (h0 : ∀ s s' j, j ≠ i → s j ≠ s' j → K s s' = 0)
    (hk : ∀ s c', ∑ c, W (Function.update s i c) * k s c c' = W (Function.update s i c')) (s' : ∀ i, T i) :
    ∑ s, W s * K s s' = W s' := by
  classical
  have := hk s' (s' i)
  rw [Function.update_eq_self] at this
  rw [← this]
  symm
  refine Fintype.sum_of_injective (fun c => Function.update s' i c) (Function.update_injective s' i) _ _ ?_ ?_
  · intro s hs
    have : ∃ j, j ≠ i ∧ s j ≠ s' j := by
      by_contra hc
      push_neg at hc
      refine hs ⟨s i, ?_⟩
      funext j
      by_cases hj : j = i
      · subst hj; simp
      · simp [Function.update_of_ne hj, hc j hj]
    obtain ⟨j, hj, hne⟩ := this
    rw [h0 s s' j hj hne, mul_zero]
  · intro c
    rw [hK]

theorem log_list_prod : ∀ l : List ℝ, (∀ x ∈ l, 0 < x) → Real.log l.prod = (l.map Real.log).sum
  | [], _ => by simp
  | a :: l, h => by
    have h1 : 0 < a := h a (List.mem_cons_self ..)
    have h2 : ∀ x ∈ l, 0 < x := fun x hx => h x (List.mem_cons_of_mem _ hx)
    rw [List.prod_cons, Real.log_mul h1.ne' (List.prod_pos h2).ne', log_list_prod l h2, List.map_cons, List.sum_cons]

theorem sum_ite_filter {α : Type} (p : α → Prop) [DecidablePred p] (f : α → ℝ) (l : List α) :
    (l.map fun a => if p a then f a else 0).sum = ((l.filter p).map f).sum := by
  induction l with
  | nil => rfl
  | cons a l ih => by_cases hp : p a <;> simp [hp, ih]

/-- sum of terms of which only one is not zero -/
theorem sum_owner (f : HLayer → ℝ) (i : Nat) (l : List HLayer) (hd : (l.flatMap HLayer.factors).Nodup)
    {k0 : HLayer} (hk : k0 ∈ l) (hi : i ∈ k0.factors) :
    (l.map fun k => if i ∈ k.factors then f k else 0).sum = f k0 := by
  induction l with
  | nil => simp at hk
  | cons k l ih =>
    rw [List.flatMap_cons, List.nodup_append] at hd
    obtain ⟨-, hd2, hd3⟩ := hd
    by_cases hik : i ∈ k.factors
    · have hz : ∀ k' ∈ l, ¬ i ∈ k'.factors := by
        intro k' hk' hc
        exact hd3 i hik i (List.mem_flatMap.2 ⟨k', hk', hc⟩) rfl
      have h0 : k0 = k := by
        rcases List.mem_cons.1 hk with h | h
        · exact h
        · exact absurd hi (hz k0 h)
      subst h0
      rw [List.map_cons, List.sum_cons, if_pos hik]
      have : (l.map fun k => if i ∈ k.factors then f k else 0) = l.map fun _ => 0 :=
        List.map_congr_left fun k' hk' => if_neg (hz k' hk')
      rw [this]; simp
    · rw [List.map_cons, List.sum_cons, if_neg hik, zero_add]
      refine ih hd2 ?_
      rcases List.mem_cons.1 hk with h | h
      · subst h; exact absurd hi hik
      · exact h

theorem list_sum_map_sub {α : Type} (f g : α → ℝ) (l : List α) :
    (l.map f).sum - (l.map g).sum = (l.map fun a => f a - g a).sum := by
  induction l with
  | nil => simp
  | cons a l ih => simp only [List.map_cons, List.sum_cons, ← ih]; ring

/-- the likelihood as a function of the data -/
theorem log_lik2_data (m : Lom8) (N D L : Nat) (lbda : ℝ) (X F G : Factor) {n d : Nat} (hn : n < N) (hd : d < D) :
    Real.log (lik2 m N D L lbda (X.set n d 1) F G) - Real.log (lik2 m N D L lbda (X.set n d (-1)) F G) =
      lbda * pred2 m L (F n) (G d) := by
  unfold lik2
  rw [Real.log_prod (fun n _ => (Finset.prod_pos fun d _ => cellLik_pos _ _ _).ne'),
    Real.log_prod (fun n _ => (Finset.prod_pos fun d _ => cellLik_pos _ _ _).ne'), ← Finset.sum_sub_distrib]
  rw [Finset.sum_eq_single ⟨n, hn⟩]
  · rw [Real.log_prod (fun d _ => (cellLik_pos _ _ _).ne'), Real.log_prod (fun d _ => (cellLik_pos _ _ _).ne'),
      ← Finset.sum_sub_distrib, Finset.sum_eq_single ⟨d, hd⟩]
    · have h := log_sigmoid_sub (lbda * pred2 m L (F n) (G d))
      simp only [Factor.set, cellLik]
      simp only [and_self, if_true]
      norm_num
      exact h
    · intro b _ hb
      have : (b : Nat) ≠ d := fun hc => hb (Fin.ext hc)
      simp [Factor.set, this]
    · simp
  · intro b _ hb
    have : (b : Nat) ≠ n := fun hc => hb (Fin.ext hc)
    simp [Factor.set, this]
  · simp

namespace Spec.Hier

variable {h : Hier}

theorem layerLik_pos (s : h.State) (k : HLayer) : 0 < h.layerLik s k := by
  unfold layerLik
  split
  · exact lik2_pos ..
  · exact lik3_pos ..

theorem joint_pos (H : h.Legal) (s : h.State) : 0 < h.joint s := by
  refine mul_pos (List.prod_pos ?_) (Finset.prod_pos fun i _ => priorProb_pos (H.prior i i.2).1 (H.prior i i.2).2 _ _ _)
  intro x hx
  obtain ⟨k, -, rfl⟩ := List.mem_map.1 hx
  exact layerLik_pos s k

theorem log_joint (H : h.Legal) (s : h.State) : Real.log (h.joint s) =
    (h.layers.map fun k => Real.log (h.layerLik s k)).sum +
      ∑ i : Fin h.M, Real.log (priorProb (h.prior i) (h.rows i) (h.cols i) (Cfg.fac (s i))) := by
  have hp : ∀ i : Fin h.M, 0 < priorProb (h.prior i) (h.rows i) (h.cols i) (Cfg.fac (s i)) :=
    fun i => priorProb_pos (H.prior i i.2).1 (H.prior i i.2).2 _ _ _
  have hl : ∀ x ∈ h.layers.map (h.layerLik s), 0 < x := by
    intro x hx
    obtain ⟨k, -, rfl⟩ := List.mem_map.1 hx
    exact layerLik_pos s k
  rw [joint, Real.log_mul (List.prod_pos hl).ne' (Finset.prod_pos fun i _ => hp i).ne', log_list_prod _ hl,
    Real.log_prod (fun i _ => (hp i).ne'), List.map_map]
  rfl

theorem val_update (s : h.State) (i : Fin h.M) (c : Cfg (h.rows i) (h.cols i)) (j : Nat) :
    h.val (Function.update s i c) j = if j = i then Cfg.fac c else h.val s j := by
  unfold val
  by_cases hj : j = i
  · subst hj
    simp
  · rw [if_neg hj]
    split
    · rw [Function.update_of_ne]
      intro hc
      exact hj (congrArg Fin.val hc)
    · rfl

/-- agreement of the child of a layer with its prediction -/
noncomputable def agree (h : Hier) (s : h.State) (k : HLayer) : Int :=
  match k.v with
  | none => agreement2 k.model (h.rows k.child) (h.cols k.child) (h.cols k.z) (h.val s k.child) (h.val s k.z) (h.val s k.u)
  | some v => agreement3 k.model (h.rows k.z) (h.rows k.u) (h.rows v) (h.cols k.z) (fun n d e => h.data k.child [n, d, e])
      (h.val s k.z) (h.val s k.u) (h.val s v)

/-- the score of an entry of matrix `i` in the layer it is a factor of -/
noncomputable def ownScore (h : Hier) (s : h.State) (i : Fin h.M) (k : HLayer) (c1 c0 : Cfg (h.rows i) (h.cols i)) : ℝ :=
  k.lbda * ((h.agree (Function.update s i c1) k - h.agree (Function.update s i c0) k : Int) : ℝ) / 2

theorem mem_z (k : HLayer) : k.z ∈ k.factors := by simp [HLayer.factors]
theorem mem_u (k : HLayer) : k.u ∈ k.factors := by simp [HLayer.factors]
theorem mem_v {k : HLayer} {v : Nat} (hv : k.v = some v) : v ∈ k.factors := by simp [HLayer.factors, hv]

theorem mem_factors {k : HLayer} {i : Nat} : i ∈ k.factors ↔ i = k.z ∨ i = k.u ∨ k.v = some i := by
  simp only [HLayer.factors, List.mem_cons, Option.mem_toList]

/-- log-odds of an entry given everything else -/
theorem joint_odds (H : h.Legal) (s : h.State) (i : Fin h.M) (t : Fin (h.rows i) × Fin (h.cols i))
    (c : Cfg (h.rows i) (h.cols i)) {k0 : HLayer} (hk : k0 ∈ h.layers) (hi : (i : Nat) ∈ k0.factors) :
    Real.log (h.joint (Function.update s i (Function.update c t true))) -
      Real.log (h.joint (Function.update s i (Function.update c t false))) =
    h.ownScore s i k0 (Function.update c t true) (Function.update c t false) +
      ((h.parentsOf i).map fun k => k.lbda * (pred2 k.model (h.cols k.z) (h.val s k.z t.1) (h.val s k.u t.2) : ℝ)).sum +
      logit (h.prior i) := by
  obtain ⟨c1, hc1⟩ : ∃ c1, c1 = Function.update c t true := ⟨_, rfl⟩
  obtain ⟨c0, hc0⟩ : ∃ c0, c0 = Function.update c t false := ⟨_, rfl⟩
  rw [← hc1, ← hc0]
  have hf1 : Cfg.fac c1 = (Cfg.fac c).set t.1 t.2 1 := by rw [hc1, Cfg.fac_update]; rfl
  have hf0 : Cfg.fac c0 = (Cfg.fac c).set t.1 t.2 (-1) := by rw [hc0, Cfg.fac_update]; rfl
  rw [log_joint H, log_joint H]
  have hprior : ∑ j : Fin h.M, Real.log (priorProb (h.prior j) (h.rows j) (h.cols j)
        (Cfg.fac (Function.update s i c1 j))) -
      ∑ j : Fin h.M, Real.log (priorProb (h.prior j) (h.rows j) (h.cols j)
        (Cfg.fac (Function.update s i c0 j))) = logit (h.prior i) := by
    rw [← Finset.sum_sub_distrib, Finset.sum_eq_single i]
    · rw [Function.update_self, Function.update_self, hf1, hf0]
      exact log_priorProb_set (H.prior i i.2).1 (H.prior i i.2).2 _ _ _ t.1.2 t.2.2
    · intro b _ hb
      rw [Function.update_of_ne hb, Function.update_of_ne hb, sub_self]
    · simp
  have hlayers : (h.layers.map fun k => Real.log (h.layerLik (Function.update s i c1) k)).sum -
      (h.layers.map fun k => Real.log (h.layerLik (Function.update s i c0) k)).sum =
      h.ownScore s i k0 c1 c0 +
      ((h.parentsOf i).map fun k => k.lbda * (pred2 k.model (h.cols k.z) (h.val s k.z t.1) (h.val s k.u t.2) : ℝ)).sum := by
    rw [list_sum_map_sub]
    rw [← sum_owner (fun k => h.ownScore s i k c1 c0) i h.layers H.nodup hk hi, parentsOf]
    rw [← sum_ite_filter (fun k : HLayer => k.child = i), ← List.sum_map_add]
    congr 1
    refine List.map_congr_left fun k hk => ?_
    have hch := H.child k hk
    by_cases hmem : (i : Nat) ∈ k.factors
    · have hc : ¬ k.child = i := fun e => hch (by rw [e]; exact hmem)
      rw [if_neg hc, if_pos hmem, add_zero]
      unfold layerLik ownScore agree
      cases hv : k.v with
      | none =>
        simp only [val_update, if_neg hc]
        refine log_lik2_sub _ _ _ _ _ _ _ _ _ _ ?_
        intro n d hn hd
        unfold val
        split
        · rcases Cfg.isPM_fac (s _) n d with e | e <;> rw [e] <;> simp [IsData]
        · rename_i hlt
          obtain ⟨e1, e2⟩ := H.data2 k hk hv (by omega)
          exact e2 [n, d] (by rw [e1]; exact ⟨hn, hd, trivial⟩)
      | some v =>
        obtain ⟨-, e1, e2⟩ := H.data3 k hk v hv
        refine log_lik3_sub _ _ _ _ _ _ _ _ _ _ _ _ _ ?_
        intro n d e hn hd he
        exact e2 [n, d, e] (by rw [e1]; exact ⟨hn, hd, he, trivial⟩)
    · rw [if_neg hmem, zero_add]
      have hz : ¬ k.z = i := fun e => hmem (by rw [← e]; exact mem_z k)
      have hu : ¬ k.u = i := fun e => hmem (by rw [← e]; exact mem_u k)
      unfold layerLik
      cases hv : k.v with
      | none =>
        simp only [val_update, if_neg hz, if_neg hu]
        by_cases hc : k.child = i
        · have e1 : (t.1 : Nat) < h.rows k.child := by rw [hc]; exact t.1.2
          have e2 : (t.2 : Nat) < h.cols k.child := by rw [hc]; exact t.2.2
          simp only [if_pos hc, hf1, hf0]
          exact log_lik2_data _ _ _ _ _ _ _ _ e1 e2
        · simp only [if_neg hc, sub_self]
      | some v =>
        have hv' : ¬ v = i := fun e => hmem (by rw [← e]; exact mem_v hv)
        have hc : ¬ k.child = i := by
          have := (H.data3 k hk v hv).1
          have := i.2
          omega
        simp only [val_update, if_neg hz, if_neg hu, if_neg hv', if_neg hc, sub_self]
  linarith

end Spec.Hier

/-- a parent layer with legal factors -/
structure Par where
  model : Lom8
  K : Nat
  pa1 : Arr Int
  pa2 : Arr Int
  lbda : ℝ

/-- as the sampling function sees it -/
def Par.toLayer (p : Par) : ParentLayer := ⟨p.model.name, [p.pa1, p.pa2], p.lbda⟩

/-- its contribution to the logit of entry `i` -/
noncomputable def Par.term (p : Par) (i : List Nat) : ℝ := p.lbda * parentPred p.model p.K p.pa1 p.pa2 i

/-- the sampling function of a factor with up to two parent layers of the same model -/
theorem sampler_parents (m : Lom8) (ps : List Lom8) (hlen : ps.length ≤ 2) (hsame : ∀ p ∈ ps, ∀ p' ∈ ps, p = p')
    {N D L : Nat} (hN : N ≤ 32767) (hD : D ≤ 32767) :
    ∃ SA SB : Member → Arr Int → Arr Int → Nat → Nat → Int, ∃ s : Nat → ℝ → Sampler,
      ∀ (A B : Member) (X : Arr Int) (lbda : ℝ), IsLayer2 N D L A B X →
      IsHalfChange N L (fun F => agreement2 m N D L (fun n d => X [n, d]) F (facOf B.val)) (SA B X) ∧
      IsHalfChange D L (fun G => agreement2 m N D L (fun n d => X [n, d]) (facOf A.val) G) (SB A X) ∧
      get_sampling_fct none (some m.name) [A, B] A.child_axis 0 A.bernoulli_prior (ps.map fun p => (p.name, 2)) =
        .ok (s 0 A.bernoulli_prior) ∧
      get_sampling_fct none (some m.name) [A, B] B.child_axis 1 B.bernoulli_prior (ps.map fun p => (p.name, 2)) =
        .ok (s 1 B.bernoulli_prior) ∧
      (∀ pars : List Par, pars.map Par.model = ps → (∀ p ∈ pars, IsParent2 N L p.K p.pa1 p.pa2) → ∀ rnd,
        (s 0 A.bernoulli_prior).run A [A, B] 0 X lbda (pars.map Par.toLayer) rnd =
          .ok (sweep (fun Z i => lbda * SA B X Z (i0 i) (i1 i) + (pars.map fun p => p.term i).sum +
            logit A.bernoulli_prior) A.fixed_entries rnd (tasks2 N L) A.val)) ∧
      (∀ pars : List Par, pars.map Par.model = ps → (∀ p ∈ pars, IsParent2 D L p.K p.pa1 p.pa2) → ∀ rnd,
        (s 1 B.bernoulli_prior).run B [A, B] 1 X lbda (pars.map Par.toLayer) rnd =
          .ok (sweep (fun Z i => lbda * SB A X Z (i0 i) (i1 i) + (pars.map fun p => p.term i).sum +
            logit B.bernoulli_prior) B.fixed_entries rnd (tasks2 D L) B.val)) := by
  match ps, hlen with
  | [], _ =>
    obtain ⟨SA, SB, s, h⟩ := C22_axes_2d_partial m (L := L) hN hD
    refine ⟨SA, SB, s, fun A B X lbda hl => ?_⟩
    · obtain ⟨h1, h2, h3, h4, h5, h6⟩ := h A B X lbda hl
      refine ⟨h5, h6, h1, h2, fun pars hp _ rnd => ?_, fun pars hp _ rnd => ?_⟩
      · obtain rfl : pars = [] := by simpa using hp
        rw [List.map_nil, h3 rnd]
        exact congrArg Except.ok (sweep_congr (fun Z i _ => by simp) _)
      · obtain rfl : pars = [] := by simpa using hp
        rw [List.map_nil, h4 rnd]
        exact congrArg Except.ok (sweep_congr (fun Z i _ => by simp) _)
  | [p], _ =>
    obtain ⟨SA, SB, s, h⟩ := C23_onechild_oneparent_partial m p (L := L) hN hD
    refine ⟨SA, SB, s, fun A B X lbda hl => ?_⟩
    · obtain ⟨h1, h2, h3, h4, h5, h6⟩ := h A B X lbda hl
      refine ⟨h1, h2, h3, h4, fun pars hp hpa rnd => ?_, fun pars hp hpa rnd => ?_⟩
      · obtain ⟨a, rfl⟩ : ∃ a, pars = [a] := by
          have := congrArg List.length hp
          simp only [List.length_map, List.length_singleton] at this
          exact List.length_eq_one_iff.mp this
        have e1 : a.model = p := by simpa using hp
        have := h5 a.K a.pa1 a.pa2 a.lbda rnd (hpa a (by simp))
        simp only [List.map_cons, List.map_nil, Par.toLayer, e1]
        rw [this]
        exact congrArg Except.ok (sweep_congr (fun Z i _ => by simp [Par.term, e1]) _)
      · obtain ⟨a, rfl⟩ : ∃ a, pars = [a] := by
          have := congrArg List.length hp
          simp only [List.length_map, List.length_singleton] at this
          exact List.length_eq_one_iff.mp this
        have e1 : a.model = p := by simpa using hp
        have := h6 a.K a.pa1 a.pa2 a.lbda rnd (hpa a (by simp))
        simp only [List.map_cons, List.map_nil, Par.toLayer, e1]
        rw [this]
        exact congrArg Except.ok (sweep_congr (fun Z i _ => by simp [Par.term, e1]) _)
  | [p, p'], _ =>
    obtain rfl : p = p' := hsame p (by simp) p' (by simp)
    obtain ⟨SA, SB, s, h⟩ := C23_onechild_twoparents_actual m p p (L := L) hN hD
    refine ⟨SA, SB, s, fun A B X lbda hl => ?_⟩
    · obtain ⟨h1, h2, h3, h4, h5, h6⟩ := h A B X lbda hl
      refine ⟨h1, h2, h3, h4, fun pars hp hpa rnd => ?_, fun pars hp hpa rnd => ?_⟩
      · obtain ⟨a, b, rfl⟩ : ∃ a b, pars = [a, b] := by
          have := congrArg List.length hp
          simp only [List.length_map, List.length_cons, List.length_nil] at this
          exact List.length_eq_two.mp this
        obtain ⟨e1, e2⟩ : a.model = p ∧ b.model = p := by simpa using hp
        have := h5 a.K b.K a.pa1 a.pa2 b.pa1 b.pa2 a.lbda b.lbda rnd (hpa a (by simp)) (hpa b (by simp))
        simp only [List.map_cons, List.map_nil, Par.toLayer, e1, e2]
        rw [this]
        exact congrArg Except.ok (sweep_congr (fun Z i _ => by simp [Par.term, e1, e2]; ring) _)
      · obtain ⟨a, b, rfl⟩ : ∃ a b, pars = [a, b] := by
          have := congrArg List.length hp
          simp only [List.length_map, List.length_cons, List.length_nil] at this
          exact List.length_eq_two.mp this
        obtain ⟨e1, e2⟩ : a.model = p ∧ b.model = p := by simpa using hp
        have := h6 a.K b.K a.pa1 a.pa2 b.pa1 b.pa2 a.lbda b.lbda rnd (hpa a (by simp)) (hpa b (by simp))
        simp only [List.map_cons, List.map_nil, Par.toLayer, e1, e2]
        rw [this]
        exact congrArg Except.ok (sweep_congr (fun Z i _ => by simp [Par.term, e1, e2]; ring) _)

end LFM
