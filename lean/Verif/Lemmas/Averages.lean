import Mathlib.LinearAlgebra.Dimension.LinearMap
import Mathlib.LinearAlgebra.FiniteDimensional.Lemmas
import Mathlib.LinearAlgebra.Dual.Lemmas
import Verif.Lemmas.RandomOrder

/-!
# Lemmas: averages along a Markov chain on finitely many states

If all states can be reached from each other (periodic behaviour is allowed), averages of functions converge in mean
square. The proof solves the equation `f = g - P g`.
-/

namespace LFM

section
variable {S : Type} [Fintype S] [DecidableEq S]

/-- functions that agree with their own expectation after a step are constant -/
theorem harmonic_const {P : S → S → ℝ} (hst : ∀ x, ∑ y, P x y = 1) (h0 : ∀ x y, 0 ≤ P x y)
    (hirr : ∀ x y, Relation.ReflTransGen (fun a b => P a b ≠ 0) x y) {g : S → ℝ} (hg : ∀ x, ∑ y, P x y * g y = g x) (x y : S) :
    g x = g y := by
  have hne : (Finset.univ : Finset S).Nonempty := ⟨x, Finset.mem_univ _⟩
  obtain ⟨z, -, hz⟩ := Finset.exists_max_image Finset.univ g hne
  have key : ∀ w, Relation.ReflTransGen (fun a b => P a b ≠ 0) z w → g w = g z := by
    intro w hw
    induction hw with
    | refl => rfl
    | @tail b c _ hbc ih =>
      have hle : ∀ y, P b y * g y ≤ P b y * g z := fun y => mul_le_mul_of_nonneg_left (hz y (Finset.mem_univ _)) (h0 b y)
      have hsum : ∑ y, P b y * g y = ∑ y, P b y * g z := by rw [hg, ih, ← Finset.sum_mul, hst, one_mul]
      have := (Finset.sum_eq_sum_iff_of_le fun y _ => hle y).1 hsum c (Finset.mem_univ _)
      exact mul_left_cancel₀ hbc this
  rw [key x (hirr z x), key y (hirr z y)]

/-- the equation `f = g - P g` -/
theorem poisson {P : S → S → ℝ} (hst : ∀ x, ∑ y, P x y = 1) (h0 : ∀ x y, 0 ≤ P x y)
    (hirr : ∀ x y, Relation.ReflTransGen (fun a b => P a b ≠ 0) x y) {π : S → ℝ} (hπ : ∀ z, ∑ x, π x * P x z = π z)
    (hne : ∃ x, π x ≠ 0) (f : S → ℝ) (hf : ∑ x, π x * f x = 0) : ∃ g : S → ℝ, ∀ x, f x = g x - ∑ y, P x y * g y := by
  obtain ⟨x0, hx0⟩ := hne
  let A : (S → ℝ) →ₗ[ℝ] (S → ℝ) :=
    { toFun := fun g x => g x - ∑ y, P x y * g y
      map_add' := fun g g' => by
        funext x
        simp only [Pi.add_apply, mul_add, Finset.sum_add_distrib]
        ring
      map_smul' := fun c g => by
        funext x
        simp only [Pi.smul_apply, smul_eq_mul, RingHom.id_apply, mul_sub, Finset.mul_sum]
        congr 1
        exact Finset.sum_congr rfl fun y _ => by ring }
  let φ : (S → ℝ) →ₗ[ℝ] ℝ :=
    { toFun := fun g => ∑ x, π x * g x
      map_add' := fun g g' => by simp only [Pi.add_apply, mul_add, Finset.sum_add_distrib]
      map_smul' := fun c g => by
        simp only [Pi.smul_apply, smul_eq_mul, RingHom.id_apply, Finset.mul_sum]
        exact Finset.sum_congr rfl fun y _ => by ring }
  have hle : LinearMap.range A ≤ LinearMap.ker φ := by
    rintro _ ⟨g, rfl⟩
    rw [LinearMap.mem_ker]
    show ∑ x, π x * (g x - ∑ y, P x y * g y) = 0
    simp only [mul_sub, Finset.sum_sub_distrib, Finset.mul_sum]
    rw [Finset.sum_comm (f := fun x y => π x * (P x y * g y))]
    simp only [← mul_assoc, ← Finset.sum_mul, hπ, sub_self]
  have hker : Module.finrank ℝ (LinearMap.ker A) ≤ 1 := by
    refine finrank_le_one (⟨fun _ => 1, ?_⟩ : LinearMap.ker A) ?_
    · rw [LinearMap.mem_ker]
      funext x
      show (1 : ℝ) - ∑ y, P x y * 1 = 0
      simp [hst]
    · rintro ⟨g, hg⟩
      rw [LinearMap.mem_ker] at hg
      refine ⟨g x0, Subtype.ext ?_⟩
      funext x
      have := harmonic_const hst h0 hirr (g := g) (fun x => by
        have := congrFun hg x
        simp only [A, LinearMap.coe_mk, AddHom.coe_mk, Pi.zero_apply] at this
        linarith) x0 x
      simpa using this
  have h1 := LinearMap.finrank_range_add_finrank_ker A
  have h2 := LinearMap.finrank_range_add_finrank_ker φ
  have hr : 1 ≤ Module.finrank ℝ (LinearMap.range φ) := by
    have : LinearMap.range φ ≠ ⊥ := by
      intro hb
      rw [LinearMap.range_eq_bot] at hb
      have := LinearMap.congr_fun hb (Pi.single x0 1)
      simp only [φ, LinearMap.coe_mk, AddHom.coe_mk, LinearMap.zero_apply] at this
      rw [Finset.sum_eq_single x0 (fun x _ hx => by simp [hx]) (by simp)] at this
      simp at this
      exact hx0 this
    exact Nat.one_le_iff_ne_zero.2 fun h => this (Submodule.finrank_eq_zero.1 h)
  have heq := Submodule.eq_of_le_of_finrank_le hle (by omega)
  have hfm : f ∈ LinearMap.ker φ := by rw [LinearMap.mem_ker]; exact hf
  rw [← heq] at hfm
  obtain ⟨g, hg⟩ := hfm
  exact ⟨g, fun x => (congrFun hg x).symm⟩

/-- with a bound that does not depend on the function -/
theorem poisson_bounded {P : S → S → ℝ} (hst : ∀ x, ∑ y, P x y = 1) (h0 : ∀ x y, 0 ≤ P x y)
    (hirr : ∀ x y, Relation.ReflTransGen (fun a b => P a b ≠ 0) x y) {π : S → ℝ} (hπ : ∀ z, ∑ x, π x * P x z = π z)
    (hsum : ∑ x, π x = 1) : ∃ B : ℝ, 0 ≤ B ∧ ∀ (f : S → ℝ) (F : ℝ), (∀ x, |f x| ≤ F) → ∑ x, π x * f x = 0 →
      ∃ g : S → ℝ, (∀ x, |g x| ≤ F * B) ∧ ∀ x, f x = g x - ∑ y, P x y * g y := by
  have hne : ∃ x, π x ≠ 0 := by
    by_contra hc
    push Not at hc
    simp [hc] at hsum
  have hz : ∀ z : S, ∃ g : S → ℝ, ∀ x, (if x = z then 1 else 0) - π z = g x - ∑ y, P x y * g y := by
    intro z
    refine poisson hst h0 hirr hπ hne _ ?_
    simp only [mul_sub, Finset.sum_sub_distrib, mul_ite, mul_one, mul_zero, Finset.sum_ite_eq', Finset.mem_univ, if_true, ← Finset.sum_mul,
      hsum, one_mul, sub_self]
  choose gz hgz using hz
  refine ⟨∑ z, ∑ x, |gz z x|, Finset.sum_nonneg fun z _ => Finset.sum_nonneg fun x _ => abs_nonneg _, ?_⟩
  intro f F hF hf
  refine ⟨fun x => ∑ z, f z * gz z x, fun x => ?_, fun x => ?_⟩
  · rw [Finset.mul_sum]
    refine (Finset.abs_sum_le_sum_abs _ _).trans (Finset.sum_le_sum fun z _ => ?_)
    rw [abs_mul]
    exact mul_le_mul (hF z) (Finset.single_le_sum (f := fun x => |gz z x|) (fun _ _ => abs_nonneg _) (Finset.mem_univ x))
      (abs_nonneg _) ((abs_nonneg _).trans (hF z))
  · have e1 : ∑ y, P x y * ∑ z, f z * gz z y = ∑ z, f z * ∑ y, P x y * gz z y := by
      simp only [Finset.mul_sum]
      rw [Finset.sum_comm]
      exact Finset.sum_congr rfl fun z _ => Finset.sum_congr rfl fun y _ => by ring
    simp only [e1, ← Finset.sum_sub_distrib, ← mul_sub, ← hgz]
    simp only [mul_sub, Finset.sum_sub_distrib, mul_ite, mul_one, mul_zero, Finset.sum_ite_eq, Finset.mem_univ, if_true]
    have : ∑ z, f z * π z = 0 := by
      rw [← hf]
      exact Finset.sum_congr rfl fun z _ => mul_comm _ _
    rw [this, sub_zero]

/-- sum over consecutive times -/
theorem poisson_sum {R : Nat → S → S → ℝ} (hR0 : ∀ x y, R 0 x y = if x = y then 1 else 0)
    {P : S → S → ℝ} (hR : ∀ n x z, R (n + 1) x z = ∑ y, R n x y * P y z) {f g : S → ℝ} (hfg : ∀ x, f x = g x - ∑ y, P x y * g y)
    (n : Nat) (x : S) : ∑ d ∈ Finset.range n, ∑ y, R d x y * f y = g x - ∑ y, R n x y * g y := by
  induction n with
  | zero => simp [hR0]
  | succ n ih =>
    rw [Finset.sum_range_succ, ih]
    have : ∑ y, R (n + 1) x y * g y = ∑ y, R n x y * ∑ z, P y z * g z := by
      simp only [hR, Finset.sum_mul, Finset.mul_sum]
      rw [Finset.sum_comm]
      exact Finset.sum_congr rfl fun y _ => Finset.sum_congr rfl fun z _ => by ring
    rw [this]
    simp only [hfg, mul_sub, Finset.sum_sub_distrib]
    ring

/-- sums over pairs of times -/
theorem sum_pairs {n : Nat} {e : Nat → Nat → ℝ} (hsymm : ∀ j k, e j k = e k j) (hd : ∀ j, 0 ≤ e j j) :
    ∑ j ∈ Finset.range n, ∑ k ∈ Finset.range n, e j k ≤ 2 * ∑ j ∈ Finset.range n, ∑ d ∈ Finset.range (n - j), e j (j + d) := by
  have h1 : ∀ j ∈ Finset.range n, ∑ k ∈ Finset.range n, e j k = ∑ k ∈ Finset.range j, e j k + ∑ d ∈ Finset.range (n - j), e j (j + d) := by
    intro j hj
    rw [Finset.mem_range] at hj
    conv_lhs => rw [show n = j + (n - j) by omega]
    rw [Finset.sum_range_add]
  rw [Finset.sum_congr rfl h1, Finset.sum_add_distrib, two_mul]
  refine add_le_add ?_ le_rfl
  have h2 : ∑ j ∈ Finset.range n, ∑ k ∈ Finset.range j, e j k = ∑ k ∈ Finset.range n, ∑ j ∈ (Finset.range n).filter (fun j => k < j), e k j := by
    have : ∀ j ∈ Finset.range n, ∑ k ∈ Finset.range j, e j k = ∑ k ∈ Finset.range n, if k < j then e k j else 0 := by
      intro j hj
      rw [Finset.mem_range] at hj
      rw [← Finset.sum_filter]
      refine Finset.sum_congr ?_ fun k _ => hsymm j k
      ext k
      simp only [Finset.mem_range, Finset.mem_filter]
      omega
    rw [Finset.sum_congr rfl this, Finset.sum_comm]
    exact Finset.sum_congr rfl fun k _ => by rw [Finset.sum_filter]
  rw [h2]
  refine Finset.sum_le_sum fun k hk => ?_
  rw [Finset.mem_range] at hk
  have h3 : ∑ d ∈ Finset.range (n - k), e k (k + d) = ∑ j ∈ Finset.Ico k n, e k j := by rw [Finset.sum_Ico_eq_sum_range]
  have h4 : Finset.Ico k n = insert k ((Finset.range n).filter fun j => k < j) := by
    ext j
    simp only [Finset.mem_Ico, Finset.mem_insert, Finset.mem_filter, Finset.mem_range]
    omega
  rw [h3, h4, Finset.sum_insert (by simp)]
  linarith [hd k]

/-- second moments of sums along the chain -/
theorem chain_square {R : Nat → S → S → ℝ} (hR0 : ∀ x y, R 0 x y = if x = y then 1 else 0)
    {P : S → S → ℝ} (hR : ∀ n x z, R (n + 1) x z = ∑ y, R n x y * P y z) (hRn : ∀ n x y, 0 ≤ R n x y) (hRs : ∀ n x, ∑ y, R n x y = 1)
    {f g : S → ℝ} (hfg : ∀ x, f x = g x - ∑ y, P x y * g y) {F G : ℝ} (hF : ∀ x, |f x| ≤ F) (hG : ∀ x, |g x| ≤ G) {n : Nat}
    {a : Nat → S → ℝ} (ha : ∀ j, (∀ x, 0 ≤ a j x) ∧ ∑ x, a j x = 1) {e : Nat → Nat → ℝ} (hsymm : ∀ j k, e j k = e k j)
    (he : ∀ j d, j + d < n → e j (j + d) = ∑ x, ∑ y, a j x * R d x y * (f x * f y)) (hd : ∀ j, 0 ≤ e j j) :
    ∑ j ∈ Finset.range n, ∑ k ∈ Finset.range n, e j k ≤ 4 * F * G * n := by
  refine (sum_pairs hsymm hd).trans ?_
  have hj : ∀ j ∈ Finset.range n, ∑ d ∈ Finset.range (n - j), e j (j + d) ≤ 2 * F * G := by
    intro j hj
    rw [Finset.mem_range] at hj
    have h1 : ∑ d ∈ Finset.range (n - j), e j (j + d) = ∑ x, a j x * (f x * (g x - ∑ y, R (n - j) x y * g y)) := by
      rw [Finset.sum_congr rfl fun d hd => he j d (by rw [Finset.mem_range] at hd; omega), Finset.sum_comm]
      refine Finset.sum_congr rfl fun x _ => ?_
      rw [← poisson_sum hR0 hR hfg (n - j) x]
      simp only [Finset.mul_sum]
      exact Finset.sum_congr rfl fun d _ => Finset.sum_congr rfl fun y _ => by ring
    rw [h1]
    have h2 : ∀ x, a j x * (f x * (g x - ∑ y, R (n - j) x y * g y)) ≤ a j x * (2 * F * G) := by
      intro x
      refine mul_le_mul_of_nonneg_left ?_ ((ha j).1 x)
      refine (le_abs_self _).trans ?_
      rw [abs_mul]
      have h3 : |∑ y, R (n - j) x y * g y| ≤ G := by
        refine (Finset.abs_sum_le_sum_abs _ _).trans ?_
        calc ∑ y, |R (n - j) x y * g y| ≤ ∑ y, R (n - j) x y * G := Finset.sum_le_sum fun y _ => by
              rw [abs_mul, abs_of_nonneg (hRn _ _ _)]
              exact mul_le_mul_of_nonneg_left (hG y) (hRn _ _ _)
          _ = G := by rw [← Finset.sum_mul, hRs, one_mul]
      have h4 : |g x - ∑ y, R (n - j) x y * g y| ≤ 2 * G := by
        refine (abs_sub _ _).trans ?_
        linarith [hG x]
      calc |f x| * |g x - ∑ y, R (n - j) x y * g y| ≤ F * (2 * G) :=
            mul_le_mul (hF x) h4 (abs_nonneg _) ((abs_nonneg _).trans (hF x))
        _ = 2 * F * G := by ring
    calc _ ≤ ∑ x, a j x * (2 * F * G) := Finset.sum_le_sum fun x _ => h2 x
      _ = 2 * F * G := by rw [← Finset.sum_mul, (ha j).2, one_mul]
  have := Finset.sum_le_sum hj
  rw [Finset.sum_const, Finset.card_range, nsmul_eq_mul] at this
  linarith

end

section
variable {A S ι : Type} [Fintype A] [Nonempty A] [Fintype S] [Fintype ι] [DecidableEq ι]

open Spec

/-- choices at different times are independent -/
theorem average_joint (Q : A → S → S → ENNReal) (l1 l2 : List ι) (hl : (l1 ++ l2).Nodup) (s x y : S) :
    ∑ σ : ι → A, schedule (fun t => Q (σ t)) l1 s x * schedule (fun t => Q (σ t)) l2 x y =
      Fintype.card (ι → A) * (schedule (fun _ : ι => fun x y => (∑ a, Q a x y) / Fintype.card A) l1 s x *
        schedule (fun _ : ι => fun x y => (∑ a, Q a x y) / Fintype.card A) l2 x y) := by
  classical
  induction l1 generalizing s with
  | nil =>
    simp only [schedule]
    by_cases h : s = x
    · simp only [h, if_true, one_mul]
      exact average_schedule Q l2 hl x y
    · simp [h]
  | cons t l ih =>
    rw [List.cons_append, List.nodup_cons] at hl
    simp only [schedule]
    simp only [Finset.sum_mul, mul_assoc]
    rw [Finset.sum_comm, Finset.mul_sum]
    refine Finset.sum_congr rfl fun z _ => ?_
    rw [sum_coordinate t (fun a => Q a s z) (fun σ => schedule (fun t => Q (σ t)) l z x * schedule (fun t => Q (σ t)) l2 x y), ih hl.2]
    · rw [← mul_assoc, mul_comm _ ((Fintype.card (ι → A) : Nat) : ENNReal), mul_assoc]
    · intro σ a
      have hup : ∀ j, j ∈ l ++ l2 → Function.update σ t a j = σ j := by
        intro j hj
        rw [Function.update_of_ne]
        rintro rfl
        exact hl.1 hj
      rw [schedule_congr l (fun j hj => by rw [hup j (List.mem_append_left _ hj)]) z x,
        schedule_congr l2 (fun j hj => by rw [hup j (List.mem_append_right _ hj)]) x y]

end

end LFM
