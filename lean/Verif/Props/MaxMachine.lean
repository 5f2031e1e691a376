import Verif.Lemmas.MaxMachine
import Mathlib.Analysis.SpecialFunctions.Log.Basic
import Mathlib.Analysis.Complex.ExponentialBounds

/-!
# C07, C29, C30, C31: the MAX-AND machine
-/

namespace LFM

open Spec

/-! ### the output -/

theorem foldl_pointwise {α β : Type} (order : List β) (step : β → List Nat → α → α) (x : Arr α)
    (i : List Nat) :
    (order.foldl (fun (x : Arr α) l => ⟨x.shape, fun i => step l i (x i)⟩) x).get i =
      order.foldl (fun v l => step l i v) (x i) := by
  induction order generalizing x with
  | nil => rfl
  | cons l order ih => rw [List.foldl_cons, ih]; rfl

theorem foldl_pointwise_shape {α β : Type} (order : List β) (step : β → List Nat → α → α) (x : Arr α) :
    (order.foldl (fun (x : Arr α) l => ⟨x.shape, fun i => step l i (x i)⟩) x).shape = x.shape := by
  induction order generalizing x with
  | nil => rfl
  | cons l order ih => rw [List.foldl_cons, ih]

/-- a cell that is written only while it is 0 keeps the first non-zero value -/
theorem foldl_first {β : Type} (order : List β) (t : β → ℝ) (v : ℝ) (hv : v ≠ 0) :
    order.foldl (fun v l => if v = 0 then t l else v) v = v := by
  induction order with
  | nil => rfl
  | cons l order ih => simp [hv, ih]

theorem foldl_first_zero {β : Type} (order : List β) (t : β → ℝ) :
    (∃ pre l post, order = pre ++ l :: post ∧ t l ≠ 0 ∧ (∀ l' ∈ pre, t l' = 0) ∧
      order.foldl (fun v l => if v = 0 then t l else v) 0 = t l) ∨
    ((∀ l ∈ order, t l = 0) ∧ order.foldl (fun v l => if v = 0 then t l else v) 0 = 0) := by
  induction order with
  | nil => right; simp
  | cons a order ih =>
    simp only [List.foldl_cons, if_true]
    by_cases ha : t a = 0
    · rw [ha]
      rcases ih with ⟨pre, l, post, h1, h2, h3, h4⟩ | ⟨h1, h2⟩
      · left
        refine ⟨a :: pre, l, post, by simp [h1], h2, ?_, h4⟩
        intro l' hl'
        rcases List.mem_cons.1 hl' with rfl | h
        · exact ha
        · exact h3 l' h
      · right
        exact ⟨by intro l hl; rcases List.mem_cons.1 hl with rfl | h; exacts [ha, h1 l h], h2⟩
    · left
      exact ⟨[], a, order, rfl, ha, by simp, foldl_first order t _ ha⟩

theorem MAX_AND_product_2d_get {Z U : Arr Int} {N D L : Nat} (hZ : Z.shape = [N, L])
    (hU : U.shape = [D, L]) (lbdas : Arr ℝ) (order : List Nat) {n d : Nat} (hn : n < N) (hd : d < D) :
    MAX_AND_product_2d Z U lbdas order [n, d] = order.foldl (fun v l => if v = 0 then
      (if Active (fun l => Z [n, l]) (fun l => U [d, l]) l then lbdas [l] else 0) else v) 0 := by
  have e : MAX_AND_product_2d Z U lbdas order = order.foldl (fun (x : Arr ℝ) l => ⟨x.shape, fun i =>
      if x i = 0 then ((OR_AND_product_expand (Z.col l) (U.col l)).map
        fun (b : Int) => lbdas [l] * (b : ℝ)) i else x i⟩) (Arr.full [Z.dim 0, U.dim 0] 0) := by
    unfold MAX_AND_product_2d
    simp only [Id.run_bind, Id.run_pure]
    rw [run_forIn_yield _ _ _ _ (by intros; rfl)]
  rw [e, foldl_pointwise order (fun l i v => if v = 0 then
    ((OR_AND_product_expand (Z.col l) (U.col l)).map fun (b : Int) => lbdas [l] * (b : ℝ)) i else v)]
  show order.foldl _ 0 = _
  congr 1
  funext v l
  congr 1
  show lbdas [l] * ((OR_AND_product_expand (Z.col l) (U.col l) [n, d] : Int) : ℝ) = _
  rw [expand_get hZ hU hn hd]
  split <;> simp

/-- `v` is the smallest lambda among the active dimensions, 0 if there is none -/
def Spec.IsMinActive (L : Nat) (lbda : Nat → ℝ) (z u : Nat → Int) (v : ℝ) : Prop :=
  (∃ l < L, Active z u l ∧ lbda l = v ∧ ∀ l' < L, Active z u l' → v ≤ lbda l') ∨
  ((∀ l < L, ¬ Active z u l) ∧ v = 0)

/-- **C07**, what the code does: for positive lambdas, `MAX_AND_product_2d` gives each cell the
*smallest* lambda among its active dimensions (0 when none is active), whatever order `np.argsort`
chooses for equal lambdas. -/
theorem C07_actual_minimum (N D L : Nat) (Z U : Arr Int) (lbdas : Arr ℝ) (order : List Nat)
    (hZ : Z.shape = [N, L]) (hU : U.shape = [D, L]) (hpos : ∀ l < L, 0 < lbdas [l])
    (horder : IsArgsort (fun l => lbdas [l]) L order) (n d : Nat) (hn : n < N) (hd : d < D) :
    IsMinActive L (fun l => lbdas [l]) (fun l => Z [n, l]) (fun l => U [d, l])
      (MAX_AND_product_2d Z U lbdas order [n, d]) := by
  rw [MAX_AND_product_2d_get hZ hU lbdas order hn hd]
  have hmem : ∀ l, l ∈ order ↔ l < L := fun l => by rw [horder.1.mem_iff, List.mem_range]
  rcases foldl_first_zero order (fun l => if Active (fun l => Z [n, l]) (fun l => U [d, l]) l then
    lbdas [l] else 0) with ⟨pre, l, post, h1, h2, h3, h4⟩ | ⟨h1, h2⟩
  · left
    rw [h4]
    have hact : Active (fun l => Z [n, l]) (fun l => U [d, l]) l := by
      by_contra hc; exact h2 (if_neg hc)
    have hl : l < L := (hmem l).1 (by rw [h1]; simp)
    refine ⟨l, hl, hact, by rw [if_pos hact], fun l' hl' ha' => ?_⟩
    rw [if_pos hact]
    have hm := (hmem l').2 hl'
    rw [h1, List.mem_append, List.mem_cons] at hm
    rcases hm with hm | rfl | hm
    · have := h3 l' hm
      rw [if_pos ha'] at this
      exact absurd this (hpos l' hl').ne'
    · exact le_rfl
    · have hp := horder.2
      rw [h1] at hp
      exact (List.pairwise_cons.1 (List.pairwise_append.1 hp).2.1).1 l' hm
  · right
    refine ⟨fun l hl ha => ?_, h2⟩
    have := h1 l ((hmem l).2 hl)
    rw [if_pos ha] at this
    exact (hpos l hl).ne' this

/-- one cell with two active dimensions -/
def c07Z : Arr Int := Arr.mat 2 [[1, 1]] 1
/-- lambdas 0.5 and 0.8, clamped 0.01 -/
noncomputable def c07lbda : Arr ℝ := ⟨[3], fun i => if i = [0] then 1 / 2 else if i = [1] then 8 / 10 else 1 / 100⟩

/-- **C07** is false: with lambdas 0.5 and 0.8 and both dimensions active, the output is 0.5. -/
theorem C07_not_maximum : IsArgsort (fun l => c07lbda [l]) 2 [0, 1] ∧
    MAX_AND_product_2d c07Z c07Z c07lbda [0, 1] [0, 0] = 1 / 2 ∧
    IsMaxActive 2 (fun l => c07lbda [l]) 0 (fun l => c07Z [0, l]) (fun l => c07Z [0, l]) (8 / 10) := by
  refine ⟨⟨List.Perm.refl _, ?_⟩, ?_, ?_⟩
  · simp [c07lbda]; norm_num
  · rw [MAX_AND_product_2d_get (N := 1) (D := 1) (L := 2) rfl rfl _ _ one_pos one_pos]
    simp [Active, c07lbda, c07Z, Arr.mat]
  · left
    refine ⟨1, by norm_num, ⟨by decide, by decide⟩, by simp [c07lbda], ?_⟩
    intro l' hl' _
    have : l' = 0 ∨ l' = 1 := by omega
    rcases this with rfl | rfl <;> simp [c07lbda]
    norm_num

/-- **C07** (`_partial`: the claim holds for cells whose active dimensions share one lambda, in
particular for cells with at most one active dimension; in general it fails, `C07_not_maximum`). -/
theorem C07_maximum_partial (N D L : Nat) (Z U : Arr Int) (lbdas : Arr ℝ) (order : List Nat)
    (hZ : Z.shape = [N, L]) (hU : U.shape = [D, L]) (hpos : ∀ l < L, 0 < lbdas [l])
    (horder : IsArgsort (fun l => lbdas [l]) L order) (n d : Nat) (hn : n < N) (hd : d < D)
    (heq : ∀ l < L, ∀ l' < L, Active (fun l => Z [n, l]) (fun l => U [d, l]) l →
      Active (fun l => Z [n, l]) (fun l => U [d, l]) l' → lbdas [l] = lbdas [l']) :
    IsMaxActive L (fun l => lbdas [l]) 0 (fun l => Z [n, l]) (fun l => U [d, l])
      (MAX_AND_product_2d Z U lbdas order [n, d]) := by
  rcases C07_actual_minimum N D L Z U lbdas order hZ hU hpos horder n d hn hd with
    ⟨l, hl, ha, he, -⟩ | h
  · exact Or.inl ⟨l, hl, ha, he, fun l' hl' ha' => he ▸ (heq l' hl' l hl ha' ha).le⟩
  · exact Or.inr h

/-- **C07**, `maxmachine_forward_pass`: with 0/1 factors and positive `alpha`, every cell gets the largest
`alpha` among its active dimensions, and the clamped `alpha` if none is active. -/
theorem C07_forward_pass_maximum (N D L : Nat) (F G : Factor) (u z alpha : Arr ℝ) (order : List Nat)
    (hz : z.shape = [N, L]) (hu : u.shape = [D, L]) (ha : alpha.shape = [L + 1])
    (vz : ∀ n l, n < N → l < L → z [n, l] = if F n l = 1 then 1 else 0)
    (vu : ∀ d l, d < D → l < L → u [d, l] = if G d l = 1 then 1 else 0)
    (hpos : ∀ l < L, 0 < alpha [l]) (horder : IsArgsort (fun l => -alpha [l]) L order)
    (n d : Nat) (hn : n < N) (hd : d < D) :
    (maxmachine_forward_pass u z alpha order).shape = [N, D] ∧
    IsMaxActive L (fun l => alpha [l]) (alpha [L]) (F n) (G d)
      (maxmachine_forward_pass u z alpha order [n, d]) := by
  have hmem : ∀ l, l ∈ order ↔ l < L := fun l => by rw [horder.1.mem_iff, List.mem_range]
  have hN : z.dim 0 = N := by simp [Arr.dim, hz]
  have hD : u.dim 0 = D := by simp [Arr.dim, hu]
  have hA : alpha.dim 0 - 1 = L := by simp [Arr.dim, ha]
  let body := order.foldl (fun (x : Arr ℝ) l => ⟨x.shape, fun i => if x i = 0 then
      x i + alpha [l] * (z [i.getD 0 0, l] * u [i.getD 1 0, l]) else x i⟩) (Arr.full [N, D] 0)
  have e : maxmachine_forward_pass u z alpha order =
      ⟨body.shape, fun i => if body i = 0 then alpha [L] else body i⟩ := by
    unfold maxmachine_forward_pass
    simp only [Id.run_bind, Id.run_pure]
    rw [run_forIn_yield _ _ _ _ (by intros; rfl), hA, hN, hD]
  have hshape : body.shape = [N, D] := by
    simp only [body]
    rw [foldl_pointwise_shape order (fun l i v => if v = 0 then
      v + alpha [l] * (z [i.getD 0 0, l] * u [i.getD 1 0, l]) else v)]
    rfl
  have hbody : body [n, d] = order.foldl (fun v l => if v = 0 then
      (if Active (F n) (G d) l then alpha [l] else 0) else v) 0 := by
    simp only [body]
    rw [foldl_pointwise order (fun l i v => if v = 0 then
      v + alpha [l] * (z [i.getD 0 0, l] * u [i.getD 1 0, l]) else v)]
    show order.foldl _ 0 = _
    have : ∀ (xs : List Nat) (v : ℝ), (∀ l ∈ xs, l < L) → xs.foldl (fun v l => if v = 0 then
        v + alpha [l] * (z [([n, d] : List Nat).getD 0 0, l] * u [([n, d] : List Nat).getD 1 0, l])
        else v) v = xs.foldl (fun v l => if v = 0 then
        (if Active (F n) (G d) l then alpha [l] else 0) else v) v := by
      intro xs
      induction xs with
      | nil => intros; rfl
      | cons l xs ih =>
        intro v hxs
        rw [List.foldl_cons, List.foldl_cons, ih _ fun l hl => hxs l (List.mem_cons_of_mem _ hl)]
        congr 1
        have hl := hxs l List.mem_cons_self
        by_cases hv : v = 0
        · rw [if_pos hv, if_pos hv]
          simp only [List.getD_cons_zero, List.getD_cons_succ, vz n l hn hl, vu d l hd hl, Active, hv]
          by_cases h1 : F n l = 1 <;> by_cases h2 : G d l = 1 <;> simp [h1, h2]
        · rw [if_neg hv, if_neg hv]
    exact this order 0 fun l hl => (hmem l).1 hl
  rw [e]
  refine ⟨hshape, ?_⟩
  show IsMaxActive _ _ _ _ _ (if body [n, d] = 0 then alpha [L] else body [n, d])
  rw [hbody]
  rcases foldl_first_zero order (fun l => if Active (F n) (G d) l then alpha [l] else 0) with
    ⟨pre, l, post, h1, h2, h3, h4⟩ | ⟨h1, h2⟩
  · left
    rw [h4, if_neg h2]
    have hact : Active (F n) (G d) l := by by_contra hc; exact h2 (if_neg hc)
    have hl : l < L := (hmem l).1 (by rw [h1]; simp)
    refine ⟨l, hl, hact, by rw [if_pos hact], fun l' hl' ha' => ?_⟩
    rw [if_pos hact]
    have hm := (hmem l').2 hl'
    rw [h1, List.mem_append, List.mem_cons] at hm
    rcases hm with hm | rfl | hm
    · have := h3 l' hm
      rw [if_pos ha'] at this
      exact absurd this (hpos l' hl').ne'
    · exact le_rfl
    · have hp := horder.2
      rw [h1] at hp
      have := (List.pairwise_cons.1 (List.pairwise_append.1 hp).2.1).1 l' hm
      linarith
  · right
    rw [h2, if_pos rfl]
    refine ⟨fun l hl ha => ?_, rfl⟩
    have := h1 l ((hmem l).2 hl)
    rw [if_pos ha] at this
    exact (hpos l hl).ne' this

/-- non-vacuity of C07_forward_pass_maximum: the lambdas of the example in descending order -/
example : IsArgsort (fun l => -c07lbda [l]) 2 [1, 0] ∧ (∀ l < 2, 0 < c07lbda [l]) ∧
    c07lbda.shape = [2 + 1] := by
  refine ⟨⟨by decide, ?_⟩, ?_, rfl⟩
  · simp [c07lbda]; norm_num
  · intro l hl
    have : l = 0 ∨ l = 1 := by omega
    rcases this with rfl | rfl <;> simp [c07lbda]

/-! ### the lambda update -/

theorem attributed_total (N D : Nat) (X : Nat → Nat → Int) (F G : Factor) (v : Int) (S prev : List Nat) :
    (∑ i : Fin S.length, attributed N D X F G (prev ++ S.take i) S[i] v) +
      (Finset.univ.filter fun i : Fin N × Fin D =>
        X i.1 i.2 = v ∧ ∀ l ∈ prev ++ S, ¬ Active (F i.1) (G i.2) l).card =
    (Finset.univ.filter fun i : Fin N × Fin D =>
        X i.1 i.2 = v ∧ ∀ l ∈ prev, ¬ Active (F i.1) (G i.2) l).card := by
  induction S generalizing prev with
  | nil => simp
  | cons a S ih =>
    have h := ih (prev ++ [a])
    simp only [List.append_assoc, List.singleton_append] at h
    refine (congrArg (· + _) (Fin.sum_univ_succ (n := S.length) _)).trans ?_
    simp only [Fin.val_zero, List.take_zero, List.append_nil, Fin.val_succ, List.take_succ_cons]
    rw [add_assoc]
    refine (congrArg (_ + ·) h).trans ?_
    show attributed N D X F G prev a v + _ = _
    rw [← Finset.card_filter_add_card_filter_not
      (s := Finset.univ.filter fun i : Fin N × Fin D =>
        X i.1 i.2 = v ∧ ∀ l ∈ prev, ¬ Active (F i.1) (G i.2) l)
      (fun i : Fin N × Fin D => Active (F i.1) (G i.2) a), Finset.filter_filter, Finset.filter_filter]
    congr 1
    · unfold attributed
      congr 1
      ext i
      simp only [Finset.mem_filter, Finset.mem_univ, true_and]
      tauto
    · congr 1
      ext i
      simp only [Finset.mem_filter, Finset.mem_univ, true_and, List.mem_append, List.mem_singleton]
      constructor
      · rintro ⟨h1, h2⟩
        exact ⟨⟨h1, fun l hl => h2 l (Or.inl hl)⟩, h2 a (Or.inr rfl)⟩
      · rintro ⟨⟨h1, h2⟩, h3⟩
        exact ⟨h1, by rintro l (hl | rfl); exacts [h2 l hl, h3]⟩

theorem laplace_mem (tp fp : Nat) : 0 < laplace tp fp ∧ laplace tp fp < 1 := by
  unfold laplace
  refine ⟨by positivity, ?_⟩
  rw [div_lt_one (by positivity)]
  have : (0 : ℝ) ≤ fp := by positivity
  linarith

/-- **C29**. The lambda update of a MAX-AND layer processes every latent dimension exactly once, in some
order `S`; the `i`-th one gets the Laplace-smoothed precision on the cells in which it is active and no
earlier one is (and this is the largest value available at that moment); every cell with value `1` or
`-1` is counted exactly once. All values lie strictly between 0 and 1. The clamped value is the smoothed
frequency of ones among the remaining cells, capped by the minimum, hence it is the minimum. -/
theorem C29_lambda_attribution (N D L : Nat) (Z U X : Arr Int) (lbda : Arr ℝ)
    (hZ : Z.shape = [N, L]) (hU : U.shape = [D, L]) (hl : lbda.shape = [L + 1]) :
    let F : Factor := fun n l => Z [n, l]
    let G : Factor := fun d l => U [d, l]
    let x := fun n d => X [n, d]
    ∃ (S : List Nat) (new ratios : Arr ℝ), lbda_MAX_AND 2 Z U X lbda = .ok (new, ratios) ∧
      new.shape = [L + 1] ∧ S.Perm (List.range L) ∧
      (∀ (i : Nat) (hi : i < S.length), new [S[i]] =
        laplace (attributed N D x F G (S.take i) S[i] 1) (attributed N D x F G (S.take i) S[i] (-1))) ∧
      (∀ (i : Nat) (hi : i < S.length), ∀ l < L, l ∉ S.take i →
        laplace (attributed N D x F G (S.take i) l 1) (attributed N D x F G (S.take i) l (-1)) ≤
          new [S[i]]) ∧
      (∀ v, (∑ i : Fin S.length, attributed N D x F G (S.take i) S[i] v) +
        unattributed N D L x F G v = (Finset.univ.filter fun i : Fin N × Fin D => x i.1 i.2 = v).card) ∧
      (∀ l < L + 1, 0 < new [l] ∧ new [l] < 1 ∧ new [L] ≤ new [l]) ∧
      new [L] ≤ laplace (unattributed N D L x F G 1) (unattributed N D L x F G (-1)) ∧
      (new [L] = laplace (unattributed N D L x F G 1) (unattributed N D L x F G (-1)) ∨
        ∃ l < L, new [L] = new [l]) := by
  intro F G x
  have hN : Z.dim 0 = N := by simp [Arr.dim, hZ]
  have hL : Z.dim 1 = L := by simp [Arr.dim, hZ]
  have hD : U.dim 0 = D := by simp [Arr.dim, hU]
  obtain ⟨S, inv, hnil⟩ := maxInv_loop (X := X) hZ hU lbda hl
  obtain ⟨s, hs⟩ : ∃ s, (List.range L).foldl (fun s _ => maxStep Z U X s) (maxInit Z U X lbda) = s :=
    ⟨_, rfl⟩
  rw [hs] at inv hnil
  have hperm : S.Perm (List.range L) := by simpa [hnil] using inv.perm
  have hmemS : ∀ l, l ∈ S ↔ l < L := fun l => by rw [hperm.mem_iff, List.mem_range]
  have hun : ∀ v : Int, (countCells N D fun n d => !s.mask n d && decide (X [n, d] = v)) =
      (unattributed N D L x F G v : Int) := by
    intro v
    refine countCells_eq _ _ fun i => ?_
    have hm' : s.mask i.1 i.2 = false ↔ ∀ l < L, ¬ Active (F i.1) (G i.2) l := by
      rw [← Bool.not_eq_true, inv.mask i.1 i.1.2 i.2 i.2.2]
      push Not
      exact forall_congr' fun l => by rw [hmemS]
    simp only [Bool.and_eq_true, decide_eq_true_eq, Bool.not_eq_true', hm']
    exact and_comm
  let p_new := laplace (unattributed N D L x F G 1) (unattributed N D L x F G (-1))
  have hlast : s.lbda.dim 0 - 1 = L := by simp [Arr.dim, inv.shape]
  let new0 := s.lbda.set [L] p_new
  have hn0 : new0.shape = [L + 1] := inv.shape
  obtain ⟨⟨im, him, hmin⟩, hle⟩ := npMin_spec hn0
  let new := new0.set [L] (npMin new0)
  have hnewL : new [L] = npMin new0 := by simp [new, Arr.set]
  have hnew0L : new0 [L] = p_new := by simp [new0, Arr.set]
  have hnewl : ∀ l, l ≠ L → new [l] = s.lbda [l] := by
    intro l hl; simp [new, new0, Arr.set, hl]
  have hnew0l : ∀ l, l ≠ L → new0 [l] = s.lbda [l] := by
    intro l hl; simp [new0, Arr.set, hl]
  have hrun : lbda_MAX_AND 2 Z U X lbda = .ok (new, compute_lbda_ratios L new) := by
    have hset : (if new0 [L] ≠ npMin new0 then new0.set [L] (npMin new0) else new0) = new := by
      split
      · rfl
      · rename_i h
        push Not at h
        simp only [new, ← h]
        show new0 = ⟨new0.shape, fun i => if i = [L] then new0 [L] else new0 i⟩
        have : (fun i => if i = [L] then new0 [L] else new0 i) = new0.get := by
          funext i
          split
          · rename_i hi; rw [hi]
          · rfl
        rw [this]
    have hp : ((countCells N D fun n d => !s.mask n d && decide (X [n, d] = 1) : Int) + 1 : ℝ) /
        ((countCells N D fun n d => !s.mask n d && decide (X [n, d] = 1) : Int) +
          (countCells N D fun n d => !s.mask n d && decide (X [n, d] = -1) : Int) + 2) = p_new := by
      rw [hun 1, hun (-1)]; simp [p_new, laplace]
    unfold lbda_MAX_AND
    simp only [ne_eq, not_true_eq_false, if_false, hN, hL, hD, hs, hnil, List.length_nil, hlast]
    rw [hp]
    by_cases hc : new0 [L] = npMin new0
    · rw [if_neg (not_not.2 hc)] at hset ⊢
      rw [← hset]
      rfl
    · rw [if_pos hc]
      rfl
  have hdone : ∀ (i : Nat) (hi : i < S.length), new [S[i]] =
      laplace (attributed N D x F G (S.take i) S[i] 1) (attributed N D x F G (S.take i) S[i] (-1)) := by
    intro i hi
    have : S[i] < L := (hmemS _).1 (List.getElem_mem hi)
    rw [hnewl _ (by omega)]
    exact inv.done i hi
  refine ⟨S, new, compute_lbda_ratios L new, hrun, hn0, hperm, hdone, ?_, ?_, ?_, ?_, ?_⟩
  · intro i hi l hlt hls
    have : S[i] < L := (hmemS _).1 (List.getElem_mem hi)
    rw [hnewl _ (by omega)]
    exact inv.greedy i hi l hlt hls
  · intro v
    have h := attributed_total N D x F G v S []
    simp only [List.nil_append, List.not_mem_nil, false_imp_iff, implies_true, and_true] at h
    rw [← h]
    congr 1
    unfold unattributed
    congr 1
    ext i
    simp only [Finset.mem_filter, Finset.mem_univ, true_and, hmemS]
  · have hmem : ∀ l < L, 0 < new [l] ∧ new [l] < 1 := by
      intro l hlt
      obtain ⟨i, hi, he⟩ := List.getElem_of_mem ((hmemS l).2 hlt)
      rw [← he, hdone i hi]
      exact laplace_mem _ _
    have hmemL : 0 < new [L] ∧ new [L] < 1 := by
      rw [hnewL, hmin]
      by_cases h : im = L
      · rw [h, hnew0L]; exact laplace_mem _ _
      · rw [hnew0l im h, ← hnewl im h]; exact hmem im (by omega)
    intro l hlt
    by_cases h : l = L
    · subst h; exact ⟨hmemL.1, hmemL.2, le_rfl⟩
    · obtain ⟨h1, h2⟩ := hmem l (by omega)
      refine ⟨h1, h2, ?_⟩
      rw [hnewL, hnewl l h, ← hnew0l l h]
      exact hle l hlt
  · rw [hnewL]
    exact (hle L (by omega)).trans hnew0L.le
  · by_cases h : im = L
    · left; rw [hnewL, hmin, h, hnew0L]
    · right
      exact ⟨im, by omega, by rw [hnewL, hmin, hnew0l im h, hnewl im h]⟩

/-- only two factors are supported -/
theorem C29_other_arity_rejected (K : Nat) (hK : K ≠ 2) (Z U X : Arr Int) (lbda : Arr ℝ) :
    lbda_MAX_AND K Z U X lbda = .error .notImplemented := by
  simp [lbda_MAX_AND, hK, bind, Except.bind, throw, throwThe, MonadExceptOf.throw]

/-- non-vacuity of C29: two dimensions, one cell explained by both, one by the second only -/
def c29Z : Arr Int := Arr.mat 2 [[1, 1], [-1, 1]] 0
def c29U : Arr Int := Arr.mat 2 [[1, 1]] 0

example : c29Z.shape = [2, 2] ∧ c29U.shape = [1, 2] ∧ (MaxLayer.init 2).lbda.shape = [2 + 1] ∧
    attributed 2 1 (fun _ _ => 1) (fun n l => c29Z [n, l]) (fun d l => c29U [d, l]) [] 1 1 = 2 ∧
    attributed 2 1 (fun _ _ => 1) (fun n l => c29Z [n, l]) (fun d l => c29U [d, l]) [1] 0 1 = 0 :=
  ⟨rfl, rfl, rfl, by decide, by decide⟩

/-! ### the table of ratios -/

/-- the table `r` is the one that belongs to lambdas `lbda` -/
def Spec.IsRatioTable (size : Nat) (lbda r : Arr ℝ) : Prop :=
  r.shape = [2, size + 1, size + 1] ∧ ∀ i < size + 1, ∀ j < size + 1,
    r [0, i, j] = Real.log (lbda [i] / lbda [j]) ∧
    r [1, i, j] = Real.log ((1 - lbda [i]) / (1 - lbda [j]))

/-- **C30**, first half. `compute_lbda_ratios` stores `log (l1/l2)` and `log ((1-l1)/(1-l2))` for every
ordered pair; the table is antisymmetric with a zero diagonal. -/
theorem C30_ratio_table (size : Nat) (lbda : Arr ℝ)
    (hpos : ∀ i < size + 1, 0 < lbda [i] ∧ lbda [i] < 1) :
    IsRatioTable size lbda (compute_lbda_ratios size lbda) ∧
    ∀ s < 2, ∀ i < size + 1, ∀ j < size + 1,
      compute_lbda_ratios size lbda [s, i, j] = -compute_lbda_ratios size lbda [s, j, i] ∧
      compute_lbda_ratios size lbda [s, i, i] = 0 := by
  obtain ⟨h1, h2⟩ := compute_lbda_ratios_spec size lbda
  refine ⟨⟨h1, fun i hi j hj => ⟨by rw [h2 0 i j (by omega) hi hj]; simp [ratioEntry],
    by rw [h2 1 i j (by omega) hi hj]; simp [ratioEntry]⟩⟩, fun s hs i hi j hj => ?_⟩
  rw [h2 s i j hs hi hj, h2 s j i hs hj hi, h2 s i i hs hi hi]
  have hi0 := (hpos i hi).1.ne'
  have hi1 : 1 - lbda [i] ≠ 0 := by linarith [(hpos i hi).2]
  have : s = 0 ∨ s = 1 := by omega
  rcases this with rfl | rfl <;> simp [ratioEntry, neg_log_div, hi0, hi1]

/-- events of a history that are lambda updates by the sampler on matching factors -/
def Spec.MaxUpdateOnly (size : Nat) (es : List MaxEvent) : Prop :=
  ∀ e ∈ es, ∃ N D, ∃ Z U X : Arr Int, e = .update Z U X ∧ Z.shape = [N, size] ∧ U.shape = [D, size]

/-- **C30**, second half (`_partial`: histories in which the lambdas are only changed by the sampler).
After any number of lambda updates, from the initial state of the layer, the table belongs to the current
lambdas. Missing: assignments by the user, for which it fails (`C30_stale_after_assignment`). -/
theorem C30_table_current_partial (size : Nat) (es : List MaxEvent) (h : MaxUpdateOnly size es) :
    let s := es.foldl MaxLayer.step (MaxLayer.init size)
    IsRatioTable size s.lbda s.ratios ∧ ∀ l < size + 1, 0 < s.lbda [l] ∧ s.lbda [l] < 1 := by
  have key : ∀ (s : MaxLayer), s.lbda.shape = [size + 1] → IsRatioTable size s.lbda s.ratios →
      (∀ l < size + 1, 0 < s.lbda [l] ∧ s.lbda [l] < 1) →
      IsRatioTable size (es.foldl MaxLayer.step s).lbda (es.foldl MaxLayer.step s).ratios ∧
      ∀ l < size + 1, 0 < (es.foldl MaxLayer.step s).lbda [l] ∧
        (es.foldl MaxLayer.step s).lbda [l] < 1 := by
    induction es with
    | nil => intro s _ h1 h2; exact ⟨h1, h2⟩
    | cons e es ih =>
      intro s hs _ _
      obtain ⟨N, D, Z, U, X, rfl, hZ, hU⟩ := h _ List.mem_cons_self
      obtain ⟨S, new, ratios, hrun, hshape, -, -, -, -, hval, -⟩ :=
        C29_lambda_attribution N D size Z U X s.lbda hZ hU hs
      have hr : ratios = compute_lbda_ratios size new := by
        have hL : Z.dim 1 = size := by simp [Arr.dim, hZ]
        unfold lbda_MAX_AND at hrun
        simp only [ne_eq, not_true_eq_false, if_false, hL] at hrun
        simp only [bind, Except.bind, pure, Except.pure, throw, throwThe, MonadExceptOf.throw] at hrun
        split_ifs at hrun <;> (injection hrun with hrun; injection hrun with e1 e2; rw [← e1, ← e2])
      have hstep : s.step (.update Z U X) = ⟨new, ratios⟩ := by
        simp [MaxLayer.step, hrun]
      rw [List.foldl_cons, hstep]
      refine ih (fun e he => h e (List.mem_cons_of_mem _ he)) _ hshape ?_ fun l hl =>
        ⟨(hval l hl).1, (hval l hl).2.1⟩
      rw [hr]
      exact (C30_ratio_table size new fun i hi => ⟨(hval i hi).1, (hval i hi).2.1⟩).1
  have hinit : ∀ l < size + 1, 0 < (MaxLayer.init size).lbda [l] ∧ (MaxLayer.init size).lbda [l] < 1 := by
    intro l _
    simp only [MaxLayer.init]
    split <;> norm_num
  exact key _ rfl (C30_ratio_table size _ hinit).1 hinit

/-- **C30** is false with user assignments: setting `layer.lbda.val` leaves the old table in use. -/
theorem C30_stale_after_assignment :
    let v : Arr ℝ := ⟨[2], fun i => if i = [1] then 1 / 100 else 1 / 2⟩
    let s := (MaxLayer.init 1).step (.assign v)
    (∀ l < 2, 0 < v [l] ∧ v [l] < 1) ∧ ¬ IsRatioTable 1 s.lbda s.ratios := by
  refine ⟨fun l _ => ?_, fun h => ?_⟩
  · simp only []
    split <;> norm_num
  · have h1 := (h.2 0 (by norm_num) 1 (by norm_num)).1
    have h2 := (compute_lbda_ratios_spec 1 (MaxLayer.init 1).lbda).2 0 0 1 (by norm_num) (by norm_num)
      (by norm_num)
    have h3 : (((MaxLayer.init 1).step (.assign ⟨[2], fun i => if i = [1] then 1 / 100 else 1 / 2⟩)).ratios)
        = compute_lbda_ratios 1 (MaxLayer.init 1).lbda := rfl
    rw [h3, h2] at h1
    simp only [ratioEntry, MaxLayer.init, MaxLayer.step] at h1
    have := Real.log_injOn_pos (by simp [Set.mem_Ioi]) (by simp [Set.mem_Ioi]) h1
    norm_num at this

/-! ### the update score -/

theorem maxActive_eq {L : Nat} {lbda : Nat → ℝ} {dflt : ℝ} {z u : Nat → Int} {v : ℝ}
    (h : IsMaxActive L lbda dflt z u v) : maxActive L lbda dflt z u = v := by
  unfold maxActive
  rcases h with ⟨l, hl, ha, he, hmax⟩ | ⟨hnone, he⟩
  · have hne : (Finset.univ.filter fun l : Fin L => Active z u l).Nonempty :=
      ⟨⟨l, hl⟩, by simpa using ha⟩
    rw [dif_pos hne]
    refine le_antisymm (Finset.sup'_le _ _ fun i hi => hmax i i.2 (by simpa using hi)) ?_
    rw [← he]
    exact Finset.le_sup' (fun l : Fin L => lbda l) (b := ⟨l, hl⟩) (by simpa using ha)
  · rw [dif_neg, he]
    rintro ⟨i, hi⟩
    exact hnone i i.2 (by simpa using hi)

theorem maxActive_isMax (L : Nat) (lbda : Nat → ℝ) (dflt : ℝ) (z u : Nat → Int) :
    IsMaxActive L lbda dflt z u (maxActive L lbda dflt z u) := by
  unfold maxActive
  split
  · rename_i h
    obtain ⟨i, hi, he⟩ := Finset.exists_mem_eq_sup' h fun l : Fin L => lbda l
    exact Or.inl ⟨i, i.2, by simpa using hi, he.symm, fun l' hl' ha' =>
      Finset.le_sup' (fun l : Fin L => lbda l) (b := ⟨l', hl'⟩) (by simpa using ha')⟩
  · rename_i h
    exact Or.inr ⟨fun l hl ha => h ⟨⟨l, hl⟩, by simpa using ha⟩, rfl⟩

/-- the row with entry `l` replaced by `v` -/
def Spec.setAt (z : Nat → Int) (l : Nat) (v : Int) : Nat → Int := fun l' => if l' = l then v else z l'

theorem logCell_sub {a b : ℝ} (x : Int) (ha : 0 < a ∧ a < 1) (hb : 0 < b ∧ b < 1) :
    logCell x a - logCell x b = if x = 1 then Real.log (a / b) else if x = -1 then
      Real.log ((1 - a) / (1 - b)) else 0 := by
  unfold logCell
  split_ifs
  · rw [Real.log_div ha.1.ne' hb.1.ne']
  · rw [Real.log_div (by linarith [ha.2]) (by linarith [hb.2])]
  · simp

theorem max_and_term_eq {L l : Nat} {Z_n U X_n : Arr Int} {lbda : Arr ℝ} {order : List Nat}
    (hl : l < L) (hval : ∀ i < L + 1, 0 < lbda [i] ∧ lbda [i] < 1)
    (horder : IsArgsort (fun i => -lbda [i]) L order) (hfix : order.getD l 0 = l) (d : Nat) :
    max_and_term Z_n U X_n L l (fun i => order.getD i 0) (compute_lbda_ratios L lbda) d =
      logCell (X_n [d]) (maxActive L (fun i => lbda [i]) (lbda [L])
        (setAt (fun i => Z_n [i]) l 1) (fun i => U [d, i])) -
      logCell (X_n [d]) (maxActive L (fun i => lbda [i]) (lbda [L])
        (setAt (fun i => Z_n [i]) l (-1)) (fun i => U [d, i])) := by
  have hlen : order.length = L := by simpa using horder.1.length_eq
  have hnd : order.Nodup := horder.1.nodup_iff.2 List.nodup_range
  have hget : ∀ i (hi : i < L), order.getD i 0 = order[i]'(by omega) := fun i hi =>
    by rw [List.getD_eq_getElem?_getD, List.getElem?_eq_getElem (by omega)]; rfl
  have hlt : ∀ i, i < L → order.getD i 0 < L := by
    intro i hi
    rw [hget i hi]
    have := horder.1.mem_iff.1 (List.getElem_mem (l := order) (n := i) (by omega))
    simpa using this
  have hinj : ∀ i j, i < L → j < L → order.getD i 0 = order.getD j 0 → i = j := by
    intro i j hi hj h
    rw [hget i hi, hget j hj] at h
    exact (List.Nodup.getElem_inj_iff hnd).1 h
  have hsurj : ∀ l' < L, ∃ j < L, order.getD j 0 = l' := by
    intro l' hl'
    obtain ⟨j, hj, he⟩ := List.getElem_of_mem (horder.1.mem_iff.2 (List.mem_range.2 hl'))
    exact ⟨j, by omega, by rw [hget j (by omega)]; exact he⟩
  have hdesc : ∀ i j, i ≤ j → j < L → lbda [order.getD j 0] ≤ lbda [order.getD i 0] := by
    intro i j hij hj
    rcases Nat.lt_or_eq_of_le hij with h | rfl
    · have := List.pairwise_iff_getElem.1 horder.2 i j (by omega) (by omega) h
      rw [hget i (by omega), hget j hj]
      linarith
    · exact le_rfl
  set z : Nat → Int := fun i => Z_n [i] with hz
  set u : Nat → Int := fun i => U [d, i] with hu
  have hact1 : u l = 1 → Active (setAt z l 1) u l := fun h => ⟨by simp [setAt], h⟩
  have hact0 : ¬ Active (setAt z l (-1)) u l := by
    rintro ⟨h, -⟩; simp [setAt] at h
  have hacto : ∀ v l', l' ≠ l → (Active (setAt z l v) u l' ↔ Active z u l') := by
    intro v l' h; simp [Active, setAt, h]
  have hratio := (C30_ratio_table L lbda hval).1.2
  unfold max_and_term
  by_cases hul : U [d, l] = 1
  swap
  · rw [if_pos hul]
    have : maxActive L (fun i => lbda [i]) (lbda [L]) (setAt z l 1) u =
        maxActive L (fun i => lbda [i]) (lbda [L]) (setAt z l (-1)) u := by
      refine maxActive_eq ?_
      have hiff : ∀ l', Active (setAt z l 1) u l' ↔ Active (setAt z l (-1)) u l' := by
        intro l'
        by_cases h : l' = l
        · subst h; exact iff_of_false (fun h => hul h.2) (fun h => hul h.2)
        · rw [hacto _ _ h, hacto _ _ h]
      simpa only [IsMaxActive, hiff] using
        maxActive_isMax L (fun i => lbda [i]) (lbda [L]) (setAt z l (-1)) u
    rw [this, sub_self]
  rw [if_neg (not_not.2 hul)]
  by_cases hold : ((List.range l).any fun i =>
      decide (Z_n [order.getD i 0] = 1 ∧ U [d, order.getD i 0] = 1)) = true
  · rw [if_pos hold]
    obtain ⟨i, hi, hi'⟩ := List.any_eq_true.1 hold
    rw [List.mem_range] at hi
    have hai : Active z u (order.getD i 0) := of_decide_eq_true hi'
    have hne : order.getD i 0 ≠ l := fun h => by
      have := hinj i l (by omega) hl (h.trans hfix.symm); omega
    have hle : lbda [l] ≤ lbda [order.getD i 0] := by
      have := hdesc i l hi.le hl
      rwa [hfix] at this
    have : maxActive L (fun i => lbda [i]) (lbda [L]) (setAt z l 1) u =
        maxActive L (fun i => lbda [i]) (lbda [L]) (setAt z l (-1)) u := by
      refine maxActive_eq ?_
      rcases maxActive_isMax L (fun i => lbda [i]) (lbda [L]) (setAt z l (-1)) u with
        ⟨m, hm, ham, he, hmax⟩ | ⟨hnone, -⟩
      · have hml : m ≠ l := fun h => hact0 (h ▸ ham)
        refine Or.inl ⟨m, hm, (hacto _ _ hml).2 ((hacto _ _ hml).1 ham), he, fun l' hl' ha' => ?_⟩
        by_cases h : l' = l
        · rw [h]
          exact hle.trans (hmax _ (hlt i (by omega)) ((hacto _ _ hne).2 hai))
        · exact hmax l' hl' ((hacto _ _ h).2 ((hacto _ _ h).1 ha'))
      · exact absurd ((hacto _ _ hne).2 hai) (hnone _ (hlt i (by omega)))
    rw [this, sub_self]
  rw [if_neg hold]
  have hold' : ∀ i < l, ¬ Active z u (order.getD i 0) := by
    intro i hi ha
    exact hold (List.any_eq_true.2 ⟨i, List.mem_range.2 hi, decide_eq_true ha⟩)
  have hmax1 : maxActive L (fun i => lbda [i]) (lbda [L]) (setAt z l 1) u = lbda [l] := by
    refine maxActive_eq (Or.inl ⟨l, hl, hact1 hul, rfl, fun l' hl' ha' => ?_⟩)
    obtain ⟨j, hj, rfl⟩ := hsurj l' hl'
    by_cases h : order.getD j 0 = l
    · simp only [h, le_refl]
    · have : l ≤ j := by
        by_contra hc
        exact hold' j (by omega) ((hacto _ _ h).1 ha')
      have := hdesc l j this hj
      rwa [hfix] at this
  rw [hmax1]
  cases hf : (List.range' (l + 1) (L - (l + 1))).find? fun i =>
      decide (Z_n [order.getD i 0] = 1 ∧ U [d, order.getD i 0] = 1) with
  | some i =>
    have hfi := List.find?_eq_some_iff_getElem.1 hf
    obtain ⟨hai, k, hk, hki, hfirst⟩ := hfi
    rw [List.length_range'] at hk
    rw [List.getElem_range'] at hki
    have hiL : i < L := by omega
    have hil : l < i := by omega
    have hne : order.getD i 0 ≠ l := fun h => by
      have := hinj i l hiL hl (h.trans hfix.symm); omega
    have hmax0 : maxActive L (fun i => lbda [i]) (lbda [L]) (setAt z l (-1)) u =
        lbda [order.getD i 0] := by
      refine maxActive_eq (Or.inl ⟨_, hlt i hiL, (hacto _ _ hne).2 (of_decide_eq_true hai), rfl,
        fun l' hl' ha' => ?_⟩)
      obtain ⟨j, hj, rfl⟩ := hsurj l' hl'
      have hjl : order.getD j 0 ≠ l := fun h => hact0 (h ▸ ha')
      refine hdesc i j ?_ hj
      by_contra hc
      have hlj : l < j := by
        rcases Nat.lt_trichotomy j l with h | h | h
        · exact absurd ((hacto _ _ hjl).1 ha') (hold' j h)
        · rw [h] at hjl; exact absurd hfix hjl
        · exact h
      have := hfirst (j - (l + 1)) (by omega)
      rw [List.getElem_range'] at this
      have hj' : l + 1 + 1 * (j - (l + 1)) = j := by omega
      rw [hj'] at this
      simp only [Bool.not_eq_true', decide_eq_false_iff_not] at this
      exact this ((hacto _ _ hjl).1 ha')
    rw [hmax0, logCell_sub _ (hval l (by omega)) (hval _ (by have := hlt i hiL; omega))]
    simp only [hfix]
    rw [(hratio l (by omega) _ (by have := hlt i hiL; omega)).1,
      (hratio l (by omega) _ (by have := hlt i hiL; omega)).2]
  | none =>
    have hmax0 : maxActive L (fun i => lbda [i]) (lbda [L]) (setAt z l (-1)) u = lbda [L] := by
      refine maxActive_eq (Or.inr ⟨fun l' hl' ha' => ?_, rfl⟩)
      obtain ⟨j, hj, rfl⟩ := hsurj l' hl'
      have hjl : order.getD j 0 ≠ l := fun h => hact0 (h ▸ ha')
      rcases Nat.lt_trichotomy j l with h | h | h
      · exact absurd ((hacto _ _ hjl).1 ha') (hold' j h)
      · rw [h] at hjl; exact absurd hfix hjl
      · have := List.find?_eq_none.1 hf j (by rw [List.mem_range'_1]; omega)
        simp only [decide_eq_true_eq] at this
        exact this ((hacto _ _ hjl).1 ha')
    rw [hmax0, logCell_sub _ (hval l (by omega)) (hval _ (by omega))]
    simp only [hfix]
    rw [(hratio l (by omega) _ (by omega)).1, (hratio l (by omega) _ (by omega)).2]

/-- **C31** (`_partial`). For a latent dimension `l` whose position in the descending order of the lambdas
is `l` itself (all of them, if the columns are sorted by lambda), the returned score is the difference of
log-likelihoods between `Z[n,l] = 1` and `Z[n,l] = -1`, *truncated to an integer*. Missing: the other
dimensions (`C31_wrong_column`) and the exact value (`C31_truncated`). -/
theorem C31_score_partial (D L l : Nat) (Z_n U X_n : Arr Int) (lbda : Arr ℝ) (order : List Nat)
    (hU : U.shape = [D, L]) (hl : l < L) (hval : ∀ i < L + 1, 0 < lbda [i] ∧ lbda [i] < 1)
    (horder : IsArgsort (fun i => -lbda [i]) L order) (hfix : order.getD l 0 = l) :
    ∃ score : ℝ, posterior_score_MAX_AND_2D Z_n U X_n l order (compute_lbda_ratios L lbda) =
        truncToInt score ∧
      score = rowLogLik D L (fun i => lbda [i]) (lbda [L]) (fun d => X_n [d])
          (setAt (fun i => Z_n [i]) l 1) (fun d i => U [d, i]) -
        rowLogLik D L (fun i => lbda [i]) (lbda [L]) (fun d => X_n [d])
          (setAt (fun i => Z_n [i]) l (-1)) (fun d i => U [d, i]) := by
  refine ⟨_, rfl, ?_⟩
  have hD : U.dim 0 = D := by simp [Arr.dim, hU]
  have hL : U.dim 1 = L := by simp [Arr.dim, hU]
  unfold max_and_score rowLogLik
  rw [hD, hL, ← Finset.sum_sub_distrib, sum_map_range]
  exact Finset.sum_congr rfl fun d _ => max_and_term_eq hl hval horder hfix d

/-- non-vacuity of C31_score_partial: two columns sorted by lambda -/
noncomputable def c31lbda (a b c : ℝ) : Arr ℝ := ⟨[3], fun i => if i = [0] then a else if i = [1] then b else c⟩

example : (∀ i < 2 + 1, 0 < c31lbda (9/10) (1/2) (1/100) [i] ∧ c31lbda (9/10) (1/2) (1/100) [i] < 1) ∧
    IsArgsort (fun i => -c31lbda (9/10) (1/2) (1/100) [i]) 2 [0, 1] ∧ ([0, 1] : List Nat).getD 1 0 = 1 := by
  refine ⟨fun i _ => ?_, ⟨by decide, ?_⟩, rfl⟩
  · simp only [c31lbda]; split_ifs <;> norm_num
  · simp [c31lbda]; norm_num

/-- **C31** is false, first reason: the score is cut to an integer. One cell with value 1, lambda 0.8,
clamped lambda 0.5: the difference of log-likelihoods is `log 1.6 > 0`, the score is 0. -/
theorem C31_truncated :
    let lbda : Arr ℝ := ⟨[2], fun i => if i = [0] then 8 / 10 else 1 / 2⟩
    let Z_n : Arr Int := Arr.vec [-1] 0
    let U : Arr Int := Arr.mat 1 [[1]] 0
    let X_n : Arr Int := Arr.vec [1] 0
    IsArgsort (fun i => -lbda [i]) 1 [0] ∧
    posterior_score_MAX_AND_2D Z_n U X_n 0 [0] (compute_lbda_ratios 1 lbda) = 0 ∧
    0 < rowLogLik 1 1 (fun i => lbda [i]) (lbda [1]) (fun d => X_n [d])
        (setAt (fun i => Z_n [i]) 0 1) (fun d i => U [d, i]) -
      rowLogLik 1 1 (fun i => lbda [i]) (lbda [1]) (fun d => X_n [d])
        (setAt (fun i => Z_n [i]) 0 (-1)) (fun d i => U [d, i]) := by
  intro lbda Z_n U X_n
  have hval : ∀ i < 1 + 1, 0 < lbda [i] ∧ lbda [i] < 1 := by
    intro i _; simp only [lbda]; split <;> norm_num
  have hsort : IsArgsort (fun i => -lbda [i]) 1 [0] := ⟨by decide, by simp⟩
  have hterm : max_and_term Z_n U X_n 1 0 (fun i => [0].getD i 0) (compute_lbda_ratios 1 lbda) 0 =
      Real.log (16 / 10) := by
    have : max_and_term Z_n U X_n 1 0 (fun i => [0].getD i 0) (compute_lbda_ratios 1 lbda) 0 =
      compute_lbda_ratios 1 lbda [0, 0, 1] := rfl
    rw [this, ((C30_ratio_table 1 lbda hval).1.2 0 (by norm_num) 1 (by norm_num)).1]
    simp only [lbda]
    norm_num
  have hscore : max_and_score Z_n U X_n 0 (fun i => [0].getD i 0) (compute_lbda_ratios 1 lbda) =
      Real.log (16 / 10) := by
    have : max_and_score Z_n U X_n 0 (fun i => [0].getD i 0) (compute_lbda_ratios 1 lbda) =
      max_and_term Z_n U X_n 1 0 (fun i => [0].getD i 0) (compute_lbda_ratios 1 lbda) 0 + 0 := rfl
    rw [this, hterm, add_zero]
  have hpos : 0 < Real.log (16 / 10) := Real.log_pos (by norm_num)
  refine ⟨hsort, ?_, ?_⟩
  · unfold posterior_score_MAX_AND_2D truncToInt
    rw [hscore, if_pos hpos.le, Int.floor_eq_iff]
    refine ⟨by simpa using hpos.le, ?_⟩
    have := Real.log_lt_sub_one_of_pos (x := 16 / 10) (by norm_num) (by norm_num)
    norm_num at this ⊢
    linarith
  · have h := max_and_term_eq (L := 1) (l := 0) (Z_n := Z_n) (U := U) (X_n := X_n) (lbda := lbda)
      (order := [0]) (by norm_num) hval hsort rfl 0
    rw [hterm] at h
    unfold rowLogLik
    simp only [Finset.univ_unique, Fin.default_eq_zero, Finset.sum_singleton]
    rw [Fin.val_zero, ← h]
    exact hpos

/-- **C31** is false, second reason: with lambdas that are not in descending order a position in the order
is taken for a column. Lambdas 0.02 and 0.9, clamped 0.01, one cell with value 1: switching on column 0
raises the log-likelihood by `log 2 < 1`, the score is at least 4 (it uses the ratio of column 1). -/
theorem C31_wrong_column :
    let lbda := c31lbda (2 / 100) (9 / 10) (1 / 100)
    let Z_n : Arr Int := Arr.vec [-1, -1] 0
    let U : Arr Int := Arr.mat 2 [[1, -1]] 0
    let X_n : Arr Int := Arr.vec [1] 0
    IsArgsort (fun i => -lbda [i]) 2 [1, 0] ∧
    4 ≤ posterior_score_MAX_AND_2D Z_n U X_n 0 [1, 0] (compute_lbda_ratios 2 lbda) ∧
    rowLogLik 1 2 (fun i => lbda [i]) (lbda [2]) (fun d => X_n [d])
        (setAt (fun i => Z_n [i]) 0 1) (fun d i => U [d, i]) -
      rowLogLik 1 2 (fun i => lbda [i]) (lbda [2]) (fun d => X_n [d])
        (setAt (fun i => Z_n [i]) 0 (-1)) (fun d i => U [d, i]) < 1 := by
  intro lbda Z_n U X_n
  have hval : ∀ i < 2 + 1, 0 < lbda [i] ∧ lbda [i] < 1 := by
    intro i _; simp only [lbda, c31lbda]; split_ifs <;> norm_num
  have hsort : IsArgsort (fun i => -lbda [i]) 2 [1, 0] :=
    ⟨by decide, by simp [lbda, c31lbda]; norm_num⟩
  have hscore : max_and_score Z_n U X_n 0 (fun i => [1, 0].getD i 0) (compute_lbda_ratios 2 lbda) =
      Real.log 90 := by
    have : max_and_score Z_n U X_n 0 (fun i => [1, 0].getD i 0) (compute_lbda_ratios 2 lbda) =
      compute_lbda_ratios 2 lbda [0, 1, 2] + 0 := rfl
    rw [this, ((C30_ratio_table 2 lbda hval).1.2 1 (by norm_num) 2 (by norm_num)).1]
    simp [lbda, c31lbda]
    norm_num
  refine ⟨hsort, ?_, ?_⟩
  · have hpos : 0 ≤ Real.log 90 := (Real.log_pos (by norm_num)).le
    unfold posterior_score_MAX_AND_2D truncToInt
    rw [hscore, if_pos hpos, Int.le_floor, Real.le_log_iff_exp_le (by norm_num)]
    have h4 : Real.exp ((4 : Int) : ℝ) = Real.exp 1 ^ 4 := by rw [← Real.exp_nat_mul]; norm_num
    rw [h4]
    have h1 := Real.exp_one_lt_d9
    have h0 := Real.exp_pos 1
    have : Real.exp 1 ^ 4 ≤ 3 ^ 4 := pow_le_pow_left₀ h0.le (by linarith) 4
    linarith
  · have h1 : maxActive 2 (fun i => lbda [i]) (lbda [2]) (setAt (fun i => Z_n [i]) 0 1)
        (fun i => U [0, i]) = 2 / 100 := by
      refine maxActive_eq (Or.inl ⟨0, by norm_num, by decide, by simp [lbda, c31lbda], ?_⟩)
      intro l' hl' ha'
      have : l' = 0 ∨ l' = 1 := by omega
      rcases this with rfl | rfl
      · simp [lbda, c31lbda]
      · exact absurd ha' (by decide)
    have h0 : maxActive 2 (fun i => lbda [i]) (lbda [2]) (setAt (fun i => Z_n [i]) 0 (-1))
        (fun i => U [0, i]) = 1 / 100 := by
      refine maxActive_eq (Or.inr ⟨?_, by simp [lbda, c31lbda]⟩)
      decide
    unfold rowLogLik
    simp only [Finset.univ_unique, Fin.default_eq_zero, Finset.sum_singleton]
    rw [Fin.val_zero, h1, h0, logCell_sub _ (by norm_num) (by norm_num), if_pos (by rfl)]
    have := Real.log_lt_sub_one_of_pos (x := 2) (by norm_num) (by norm_num)
    norm_num at this ⊢
    exact this

end LFM
